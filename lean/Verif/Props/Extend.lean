import Verif.Proof.Extend
import Verif.Props.Ahead
import Verif.Props.Table

/-!
# Property C65: extending a grammar
-/

set_option linter.unusedSectionVars false

namespace Verif.Props

open Verif.Spec Verif.Examples

variable {σ L T : Type} [DecidableEq T]

/-- **C65**, sets: inserting productions whose inputs are not terminals of the grammar only adds to the
FIRST and FOLLOW sets. -/
theorem C65_sets_grow (h h' : HashOrder T) (eps init init' : T) (ps ps' : List (Production T))
    (hext : Extends ps ps') (g g' : Grammar T) (hg : Grammar.new h eps init ps = .ok g)
    (hg' : Grammar.new h' eps init' ps' = .ok g') (ff ff' : FirstFollow T)
    (hff : Returns (fun n => FirstFollow.from h n g) ff)
    (hff' : Returns (fun n => FirstFollow.from h' n g') ff') (x : T) :
    (∀ s, ff.getFirstSymbols x = some s → ∃ s', ff'.getFirstSymbols x = some s' ∧ ∀ a ∈ s, a ∈ s') ∧
    (∀ s, ff.getFollowSymbols x = some s → ∃ s', ff'.getFollowSymbols x = some s' ∧ ∀ a ∈ s, a ∈ s') := by
  have S := first_follow_spec hg hff
  have S' := first_follow_spec hg' hff'
  constructor
  · intro s hs
    have hl : FirstFollow.look ff.firstSymbols x = s := FirstFollow.look_of_get hs
    have hx : IsNonTerminal ps x ∨ IsTerminal ps x := (S.first.inv.dom x).1 (by
      show (ff.getFirstSymbols x).isSome = true
      rw [hs]; rfl)
    have hx' : IsNonTerminal ps' x ∨ IsTerminal ps' x := hx.imp hext.isNonTerminal hext.isTerminal
    refine ⟨_, S'.first.inv.get_some hx', ?_⟩
    intro a ha
    rw [← hl] at ha
    rcases hx with hx | hx
    · refine (S'.first.mem_nt x (hext.isNonTerminal hx) a).2 ?_
      rcases (S.first.mem_nt x hx a).1 ha with ⟨e, hn⟩ | hc
      · exact .inl ⟨e, hext.derives hn⟩
      · exact .inr (hext.canStart hc)
    · rw [FirstFollow.look_of_get (S.first.inv.term x hx)] at ha
      rw [FirstFollow.look_of_get (S'.first.inv.term x (hext.isTerminal hx))]
      exact ha
  · intro s hs
    have hl : FirstFollow.look ff.followSymbols x = s := FirstFollow.look_of_get hs
    have hx : IsNonTerminal ps x := (S.follow.dom x).1 (by
      show (ff.getFollowSymbols x).isSome = true
      rw [hs]; rfl)
    have hx' := (S'.follow.dom x).2 (hext.isNonTerminal hx)
    obtain ⟨s', hs'⟩ := Option.isSome_iff_exists.1 hx'
    refine ⟨s', hs', ?_⟩
    intro a ha
    rw [← hl] at ha
    rw [← FirstFollow.look_of_get hs']
    exact (S'.follow.mem x a).2 (hext.followRule ((S.follow.mem x a).1 ha))

/-- **C65**, table: the productions of every cell are still in the cell, in the same order, possibly
with others in between. -/
theorem C65_cells_grow (h h' : HashOrder T) (eps init init' : T) (ps ps' : List (Production T))
    (hext : Extends ps ps') (g g' : Grammar T) (hg : Grammar.new h eps init ps = .ok g)
    (hg' : Grammar.new h' eps init' ps' = .ok g') (ff ff' : FirstFollow T)
    (hff : Returns (fun n => FirstFollow.from h n g) ff)
    (hff' : Returns (fun n => FirstFollow.from h' n g') ff') (t t' : Transitions T)
    (ht : Transitions.from h g ff = .ok t) (ht' : Transitions.from h' g' ff' = .ok t') (x a : T)
    (l : List (Production T)) (hl : t.getProductions x a = some l) :
    ∃ l', t'.getProductions x a = some l' ∧ l.Sublist l' := by
  obtain ⟨S, hS, hL⟩ := table_spec hg hff ht
  obtain ⟨S', hS', hL'⟩ := table_spec hg' hff' ht'
  by_cases hc : IsNonTerminal ps x ∧ IsTerminal ps a
  · rw [hS.some x a hc.1 hc.2] at hl
    cases hl
    refine ⟨_, hS'.some x a (hext.isNonTerminal hc.1) (hext.isTerminal hc.2), ?_⟩
    have h1 : (ps.filter (fun q => q.input = x ∧ a ∈ S q)).Sublist
        (ps.filter (fun q => q.input = x ∧ a ∈ S' q)) := by
      have e : ps.filter (fun q => q.input = x ∧ a ∈ S q) =
          (ps.filter (fun q => q.input = x ∧ a ∈ S' q)).filter (fun q => a ∈ S q) := by
        rw [List.filter_filter]
        apply List.filter_congr
        intro q hq
        have hm : a ∈ S q → a ∈ S' q := fun h0 =>
          (hL' q (hext.mem hq) a).2 (hext.lead ((hL q hq a).1 h0))
        by_cases h1 : q.input = x <;> by_cases h2 : a ∈ S q <;> simp [h1, h2, hm]
      rw [e]
      exact List.filter_sublist
    exact h1.trans (hext.1.filter _)
  · rw [hS.none x a hc] at hl
    cases hl

theorem extended_ok_none (h h' : HashOrder T) (eps init : T) (ps ps' : List (Production T))
    (hext : Extends ps ps') (g g' : Grammar T) (hg : Grammar.new h eps init ps = .ok g)
    (hg' : Grammar.new h' eps init ps' = .ok g') (p p' : Parser σ L T)
    (hp : Built h g none p) (hp' : Built h' g' none p') (hcf : ConflictFree p'.transitions)
    (tokens : List (Token L T)) (s s' : σ) (tree : Tree L T)
    (hr : Parses p tokens s (.ok tree) s') : Parses p' tokens s (.ok tree) s' := by
  cases tokens with
  | nil =>
    obtain ⟨n, hn⟩ := Parser.parses_at hr
    simp [Parser.parseFromTokens] at hn
  | cons t ts =>
    have P := (Parser.tableParser_of_built hg hp).1.toParserOf
    obtain ⟨ff, hff, e⟩ := (Parser.built_iff hg).1 hp
    obtain ⟨ff', hff', e'⟩ := (Parser.built_iff hg').1 hp'
    have hsub : ∀ x a, (candidates p.transitions x a).Sublist (candidates p'.transitions x a) := by
      intro x a
      unfold candidates
      cases hl : p.transitions.getProductions x a with
      | none => simp
      | some l =>
        obtain ⟨l', h1, h2⟩ := C65_cells_grow h h' eps init init ps ps' hext g g' hg hg' ff ff' hff hff'
          _ _ (Parser.from_eq_ok e).2.2 (Parser.from_eq_ok e').2.2 x a l hl
        rw [h1]
        exact h2.map _
    have hlen' : ∀ x a, (candidates p'.transitions x a).length ≤ 1 := by
      intro x a
      rw [← Parser.getTokenProductions_eq]
      exact Parser.conflictFree_length hcf x a
    have hlen : ∀ x a, (candidates p.transitions x a).length ≤ 1 :=
      fun x a => Nat.le_trans (hsub x a).length_le (hlen' x a)
    have hsame : ∀ x a, candidates p.transitions x a ≠ [] →
        candidates p'.transitions x a = candidates p.transitions x a := by
      intro x a hne
      refine ((hsub x a).eq_of_length_le ?_).symm
      have := List.length_pos_of_ne_nil hne
      have := hlen' x a
      omega
    have hcand : ∀ x a out, out ∈ candidates p.transitions x a → (⟨x, out⟩ : Production T) ∈ ps := by
      intro x a out ho
      rw [← Parser.getTokenProductions_eq] at ho
      exact P.cand x a out ho
    have hter : ∀ q ∈ ps, ∀ x ∈ q.output, ¬ IsNonTerminal ps x → ¬ IsNonTerminal ps' x :=
      fun q hq x hx hn => hext.2 x ⟨⟨q, hq, hx⟩, hn⟩
    obtain ⟨rfl, q, rest, hc⟩ := ((C24_ordered_choice h eps init ps g hg p hp t ts s).1 tree s').1 hr
    obtain ⟨_, h1, h2⟩ := choice_extend (cand' := candidates p'.transitions)
      (fun x hx => hext.isNonTerminal hx) hter hcand hlen hsame hc (hlen _ _) (fun o ho => hcand _ _ _ ho)
      _ _ _ rfl
    refine ((C24_ordered_choice h' eps init ps' g' hg' p' hp' t ts s').1 tree s').2 ⟨rfl, q, rest, ?_⟩
    rw [hsame _ _ h1]
    exact h2

theorem conflictFree_of_extended {h h' : HashOrder T} {eps init : T} {ps ps' : List (Production T)}
    (hext : Extends ps ps') {g g' : Grammar T} (hg : Grammar.new h eps init ps = .ok g)
    (hg' : Grammar.new h' eps init ps' = .ok g') {solver solver' : Option (Solver σ L T)}
    {p p' : Parser σ L T} (hp : Built h g solver p) (hp' : Built h' g' solver' p')
    (hcf : ConflictFree p'.transitions) : ConflictFree p.transitions := by
  obtain ⟨ff, hff, e⟩ := (Parser.built_iff hg).1 hp
  obtain ⟨ff', hff', e'⟩ := (Parser.built_iff hg').1 hp'
  intro x a l hl
  obtain ⟨l', h1, h2⟩ := C65_cells_grow h h' eps init init ps ps' hext g g' hg hg' ff ff' hff hff'
    _ _ (Parser.from_eq_ok e).2.2 (Parser.from_eq_ok e').2.2 x a l hl
  exact Nat.le_trans h2.length_le (hcf x a l' h1)

/-- **C65.** If the table of the extended grammar has no conflicts, then neither has the old one, and
every input that gave `Ok` still gives `Ok` with the same tree (with or without a solver, and the same
solver state). -/
theorem C65_ok_kept (h h' : HashOrder T) (eps init : T) (ps ps' : List (Production T))
    (hext : Extends ps ps') (g g' : Grammar T) (hg : Grammar.new h eps init ps = .ok g)
    (hg' : Grammar.new h' eps init ps' = .ok g') (solver : Option (Solver σ L T))
    (p p' : Parser σ L T) (hp : Built h g solver p) (hp' : Built h' g' solver p')
    (hcf : ConflictFree p'.transitions) :
    ConflictFree p.transitions ∧ ∀ (tokens : List (Token L T)) (s s' : σ) (tree : Tree L T),
      Parses p tokens s (.ok tree) s' → Parses p' tokens s (.ok tree) s' := by
  have hcf1 := conflictFree_of_extended hext hg hg' hp hp' hcf
  refine ⟨hcf1, ?_⟩
  intro tokens s s' tree hr
  cases solver with
  | none => exact extended_ok_none h h' eps init ps ps' hext g g' hg hg' p p' hp hp' hcf tokens s s' tree hr
  | some sv =>
    obtain ⟨p0, hp0⟩ := Parser.built_exists (σ := σ) (L := L) hg none
    obtain ⟨p1, hp1⟩ := Parser.built_exists (σ := σ) (L := L) hg' none
    have hcf0 := conflictFree_of_agree (Parser.agree_of_built hg hg hp hp0) hcf1
    have hcf2 := conflictFree_of_agree (Parser.agree_of_built hg' hg' hp' hp1) hcf
    have k0 := C58_only_errors_change h h eps init ps g g hg hg p0 hp0 hcf0 sv p hp tokens s s
    have k1 := C58_only_errors_change h' h' eps init ps' g' g' hg' hg' p1 hp1 hcf2 sv p' hp' tokens s s
    obtain ⟨rfl, hr0⟩ := (k0.1 tree s').1 hr
    exact (k1.1 tree s').2 ⟨rfl,
      extended_ok_none h h' eps init ps ps' hext g g' hg hg' p0 p1 hp0 hp1 hcf2 tokens s' s' tree hr0⟩

/-- The hypotheses of C65 are met: `S → a B`, `B → b` extended by `B → c S` and `U → u`. -/
example : ∃ g g' p p' tree,
    Extends [⟨1, [10, 2]⟩, ⟨2, [11]⟩] [⟨1, [10, 2]⟩, ⟨2, [12, 1]⟩, ⟨2, [11]⟩, ⟨3, [13]⟩] ∧
    Grammar.new (HashOrder.id Nat) 0 1 [⟨1, [10, 2]⟩, ⟨2, [11]⟩] = .ok g ∧
    Grammar.new (HashOrder.id Nat) 0 1 [⟨1, [10, 2]⟩, ⟨2, [12, 1]⟩, ⟨2, [11]⟩, ⟨3, [13]⟩] = .ok g' ∧
    Built (σ := Unit) (L := Unit) (HashOrder.id Nat) g none p ∧
    Built (σ := Unit) (L := Unit) (HashOrder.id Nat) g' none p' ∧ ConflictFree p'.transitions ∧
    Parses p [⟨none, 10⟩, ⟨none, 11⟩] () (.ok tree) () ∧
    Parses p' [⟨none, 10⟩, ⟨none, 11⟩] () (.ok tree) () := by
  obtain ⟨g, g', p, p', tree, hg, hg', hp, hp', hall, hr⟩ : ∃ g g' p p' tree,
      Grammar.new (HashOrder.id Nat) 0 1 [⟨1, [10, 2]⟩, ⟨2, [11]⟩] = .ok g ∧
      Grammar.new (HashOrder.id Nat) 0 1 [⟨1, [10, 2]⟩, ⟨2, [12, 1]⟩, ⟨2, [11]⟩, ⟨3, [13]⟩] = .ok g' ∧
      Built (σ := Unit) (L := Unit) (HashOrder.id Nat) g none p ∧
      Built (σ := Unit) (L := Unit) (HashOrder.id Nat) g' none p' ∧
      (∀ x ∈ [1, 2, 2, 3], ∀ a ∈ [10, 2, 12, 1, 11, 13],
        ((p'.transitions.getProductions x a).getD []).length ≤ 1) ∧
      Parses p [⟨none, 10⟩, ⟨none, 11⟩] () (.ok tree) () :=
    ⟨_, _, _, _, _, rfl, rfl, Parser.built_of_eval (n := 10) rfl, Parser.built_of_eval (n := 10) rfl,
      by decide, Parser.parse_returns (n := 20) rfl⟩
  have hext : Extends (T := Nat) [⟨1, [10, 2]⟩, ⟨2, [11]⟩]
      [⟨1, [10, 2]⟩, ⟨2, [12, 1]⟩, ⟨2, [11]⟩, ⟨3, [13]⟩] := by
    refine ⟨by decide, ?_⟩
    rintro x ⟨⟨q, hq, hx⟩, hn⟩ ⟨q', hq', rfl⟩
    simp only [List.mem_cons, List.not_mem_nil, or_false] at hq hq'
    rcases hq with rfl | rfl <;> rcases hq' with rfl | rfl | rfl | rfl <;>
      simp at hx <;> exact hn (by simp [IsNonTerminal])
  have hcf : ConflictFree p'.transitions := conflictFree_of_check hg' hp' hall
  exact ⟨g, g', p, p', tree, hext, hg, hg', hp, hp', hcf, hr,
    (C65_ok_kept _ _ 0 1 _ _ hext g g' hg hg' none p p' hp hp' hcf).2 _ _ _ _ hr⟩

/-- Without that hypothesis the claim is false: adding `A → a` at the end makes the parser
reject an input it accepted. `S → N e`, `N → M`, `M → A | a b`, then `A → a` is added (`A → c` was
there before). On `a b e` the old parser gives `Ok`, the new one `Err`. -/
theorem C65_conflicts_can_break : ∃ g g' p p' tree f,
    Extends [⟨1, [2, 20]⟩, ⟨2, [3]⟩, ⟨3, [4]⟩, ⟨3, [10, 11]⟩, ⟨4, [12]⟩]
      [⟨1, [2, 20]⟩, ⟨2, [3]⟩, ⟨3, [4]⟩, ⟨3, [10, 11]⟩, ⟨4, [12]⟩, ⟨4, [10]⟩] ∧
    Grammar.new (HashOrder.id Nat) 0 1
      [⟨1, [2, 20]⟩, ⟨2, [3]⟩, ⟨3, [4]⟩, ⟨3, [10, 11]⟩, ⟨4, [12]⟩] = .ok g ∧
    Grammar.new (HashOrder.id Nat) 0 1
      [⟨1, [2, 20]⟩, ⟨2, [3]⟩, ⟨3, [4]⟩, ⟨3, [10, 11]⟩, ⟨4, [12]⟩, ⟨4, [10]⟩] = .ok g' ∧
    Built (σ := Unit) (L := Unit) (HashOrder.id Nat) g none p ∧
    Built (σ := Unit) (L := Unit) (HashOrder.id Nat) g' none p' ∧
    Parses p [⟨none, 10⟩, ⟨none, 11⟩, ⟨none, 20⟩] () (.ok tree) () ∧
    Parses p' [⟨none, 10⟩, ⟨none, 11⟩, ⟨none, 20⟩] () (.err f) () := by
  refine ⟨_, _, _, _, _, _, ⟨by decide, ?_⟩, rfl, rfl, Parser.built_of_eval (n := 10) rfl,
    Parser.built_of_eval (n := 10) rfl, Parser.parse_returns (n := 20) rfl,
    Parser.parse_returns (n := 20) rfl⟩
  rintro x ⟨⟨q, hq, hx⟩, hn⟩ ⟨q', hq', rfl⟩
  apply hn
  simp only [List.mem_cons, List.not_mem_nil, or_false] at hq'
  rcases hq' with rfl | rfl | rfl | rfl | rfl | rfl <;> simp [IsNonTerminal]

end Verif.Props
