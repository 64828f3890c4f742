import Verif.Props.Order
import Verif.Props.Reach
import Verif.Props.Initial
import Verif.Props.Backtrack

/-!
# What does not depend on the order of the productions (C95)
-/

set_option linter.unusedSectionVars false

namespace Verif.Props

open Verif.Spec Verif.Examples

variable {σ τ L T : Type} [DecidableEq T]

/-- **C95**, the sets: whether a list of productions is accepted and what the FIRST and FOLLOW sets are depends
only on which productions are in the list, not on their order or how often they are listed. -/
theorem C95_sets (h h' : HashOrder T) (eps init : T) (ps ps' : List (Production T))
    (hps : ∀ q, q ∈ ps ↔ q ∈ ps') :
    ((∃ g, Grammar.new h eps init ps = .ok g) ↔ ∃ g, Grammar.new h' eps init ps' = .ok g) ∧
    ∀ (g g' : Grammar T) (ff ff' : FirstFollow T), Grammar.new h eps init ps = .ok g →
      Grammar.new h' eps init ps' = .ok g' → Returns (fun n => FirstFollow.from h n g) ff →
      Returns (fun n => FirstFollow.from h' n g') ff' → ∀ x,
      ((ff.getFirstSymbols x).isSome = (ff'.getFirstSymbols x).isSome ∧
        ∀ s s', ff.getFirstSymbols x = some s → ff'.getFirstSymbols x = some s' → ∀ a, a ∈ s ↔ a ∈ s') ∧
      ((ff.getFollowSymbols x).isSome = (ff'.getFollowSymbols x).isSome ∧
        ∀ s s', ff.getFollowSymbols x = some s → ff'.getFollowSymbols x = some s' →
          ∀ a, a ∈ s ↔ a ∈ s') := by
  refine ⟨?_, ?_⟩
  · rw [Grammar.new_eq_ok_iff, Grammar.new_eq_ok_iff]
    exact ⟨fun H q hq => H q ((hps q).2 hq), fun H q hq => H q ((hps q).1 hq)⟩
  intro g g' ff ff' hg hg' hff hff' x
  have S := first_follow_spec hg hff
  have S' := first_follow_spec hg' hff'
  have hN := isNonTerminal_congr hps
  have hT := isTerminal_congr hps
  refine ⟨⟨?_, ?_⟩, ⟨?_, ?_⟩⟩
  · rw [Bool.eq_iff_iff]
    refine (S.first.inv.dom x).trans (Iff.trans ?_ (S'.first.inv.dom x).symm)
    rw [hN, hT]
  · intro s s' hs hs' a
    have hl : FirstFollow.look ff.firstSymbols x = s := FirstFollow.look_of_get hs
    have hl' : FirstFollow.look ff'.firstSymbols x = s' := FirstFollow.look_of_get hs'
    have hk := (S.first.inv.dom x).1 (by
      show (ff.firstSymbols.get x).isSome
      unfold FirstFollow.getFirstSymbols at hs
      rw [hs]; rfl)
    rw [← hl, ← hl']
    by_cases hx : IsNonTerminal ps x
    · rw [S.first.mem_nt x hx, S'.first.mem_nt x ((hN x).1 hx)]
      unfold FirstFollow.FirstOk
      simp only [canStart_congr hps, nullable_congr hps]
    · have ht := hk.resolve_left hx
      rw [FirstFollow.look_of_get (S.first.inv.term x ht),
        FirstFollow.look_of_get (S'.first.inv.term x ((hT x).1 ht))]
  · rw [Bool.eq_iff_iff]
    refine (S.follow.dom x).trans (Iff.trans ?_ (S'.follow.dom x).symm)
    rw [hN]
  · intro s s' hs hs' a
    have hl : FirstFollow.look ff.followSymbols x = s := FirstFollow.look_of_get hs
    have hl' : FirstFollow.look ff'.followSymbols x = s' := FirstFollow.look_of_get hs'
    rw [← hl, ← hl', S.follow.mem, S'.follow.mem, followRule_congr hps]

theorem cells_perm {h h' : HashOrder T} {eps init : T} {ps ps' : List (Production T)}
    (hps : ps.Perm ps') {g g' : Grammar T} (hg : Grammar.new h eps init ps = .ok g)
    (hg' : Grammar.new h' eps init ps' = .ok g') {solver : Option (Solver σ L T)}
    {solver' : Option (Solver τ L T)} {p : Parser σ L T} {p' : Parser τ L T} (hp : Built h g solver p)
    (hp' : Built h' g' solver' p') (x a : T) :
    (p.transitions.getProductions x a = none ∧ p'.transitions.getProductions x a = none) ∨
    ∃ l l', p.transitions.getProductions x a = some l ∧ p'.transitions.getProductions x a = some l' ∧
      l.Perm l' := by
  obtain ⟨ff, hff, e⟩ := (Parser.built_iff hg).1 hp
  obtain ⟨ff', hff', e'⟩ := (Parser.built_iff hg').1 hp'
  obtain ⟨S, hS, hL⟩ := table_spec hg hff (Parser.from_eq_ok e).2.2
  obtain ⟨S', hS', hL'⟩ := table_spec hg' hff' (Parser.from_eq_ok e').2.2
  have hmem : ∀ q, q ∈ ps ↔ q ∈ ps' := fun q => hps.mem_iff
  have hnt := isNonTerminal_congr hmem x
  have htm := isTerminal_congr hmem a
  by_cases hc : IsNonTerminal ps x ∧ IsTerminal ps a
  · refine .inr ⟨_, _, hS.some x a hc.1 hc.2, hS'.some x a (hnt.1 hc.1) (htm.1 hc.2), ?_⟩
    refine (hps.filter _).trans ?_
    rw [List.filter_congr]
    intro q hq
    rw [decide_eq_decide, hL q ((hmem q).2 hq), hL' q hq, lead_congr hmem]
  · exact .inl ⟨hS.none x a hc, hS'.none x a (by rw [← hnt, ← htm]; exact hc)⟩

/-- **C95**, the table: if the same productions are listed in another order, every cell holds the same productions
(possibly in another order), so the table has conflicts in the same cells. -/
theorem C95_cells (h h' : HashOrder T) (eps init : T) (ps ps' : List (Production T))
    (hps : ps.Perm ps') (g g' : Grammar T) (hg : Grammar.new h eps init ps = .ok g)
    (hg' : Grammar.new h' eps init ps' = .ok g') (solver : Option (Solver σ L T))
    (solver' : Option (Solver τ L T)) (p : Parser σ L T) (p' : Parser τ L T) (hp : Built h g solver p)
    (hp' : Built h' g' solver' p') :
    (∀ x a l, p.transitions.getProductions x a = some l →
      ∃ l', p'.transitions.getProductions x a = some l' ∧ l.Perm l') ∧
    (ConflictFree p.transitions ↔ ConflictFree p'.transitions) := by
  have key := cells_perm hps hg hg' hp hp'
  refine ⟨?_, ?_, ?_⟩
  · intro x a l hl
    rcases key x a with ⟨h1, -⟩ | ⟨l1, l', h1, h2, h3⟩
    · rw [h1] at hl
      cases hl
    · rw [h1] at hl
      cases hl
      exact ⟨l', h2, h3⟩
  · intro hcf x a l hl
    rcases key x a with ⟨-, h1⟩ | ⟨l1, l', h1, h2, h3⟩
    · rw [h1] at hl
      cases hl
    · rw [h2] at hl
      cases hl
      rw [← h3.length_eq]
      exact hcf x a l1 h1
  · intro hcf x a l hl
    rcases key x a with ⟨h1, -⟩ | ⟨l1, l', h1, h2, h3⟩
    · rw [h1] at hl
      cases hl
    · rw [h1] at hl
      cases hl
      rw [h3.length_eq]
      exact hcf x a l' h2

/-- **C95.** If the table has no conflicts, the order of the productions does not matter at all: listed in any
other order, with any hash order, they give a parser that returns the same result (tree, report or fix) in the
same solver state, or panics, or does not return, on every input and with any solver. -/
theorem C95_any_order (h h' : HashOrder T) (eps init : T) (ps ps' : List (Production T))
    (hps : ps.Perm ps') (g g' : Grammar T) (hg : Grammar.new h eps init ps = .ok g)
    (hg' : Grammar.new h' eps init ps' = .ok g') (solver : Option (Solver σ L T))
    (p p' : Parser σ L T) (hp : Built h g solver p) (hp' : Built h' g' solver p')
    (hcf : ConflictFree p.transitions) (tokens : List (Token L T)) (s : σ) :
    SameOutcomes p p' tokens s := by
  have hmem : ∀ q, q ∈ ps ↔ q ∈ ps' := fun q => hps.mem_iff
  refine C54_reachable_cells h h' eps init ps ps' g g' hg hg' solver p p' hp hp' (fun _ => True) trivial
    (fun x _ => isNonTerminal_congr hmem x) ?_ (fun _ _ _ _ _ _ _ => trivial) tokens s
  intro x a _
  unfold candidates
  rcases cells_perm hps hg hg' hp hp' x a with ⟨h1, h2⟩ | ⟨l, l', h1, h2, h3⟩
  · rw [h1, h2]
  · rw [h1, h2]
    have hl := hcf x a l h1
    match l, hl, h3 with
    | [], _, h3 => rw [h3.nil_eq]
    | [q], _, h3 => rw [List.singleton_perm.1 h3]
    | _ :: _ :: _, hl, _ => simp at hl

/-- **C95**, prefix-free symbols: let the grammar be end-marked, without left recursion and without two equal
adjacent non-terminals, and let every non-terminal have no conflicts of its own in the table or be prefix-free.
Then, in whatever order the productions are listed, the same inputs are accepted and the same ones rejected. -/
theorem C95_prefix_free (h h' : HashOrder T) (eps init : T) (ps ps' : List (Production T))
    (hps : ps.Perm ps') (g g' : Grammar T) (hg : Grammar.new h eps init ps = .ok g)
    (hg' : Grammar.new h' eps init ps' = .ok g') (p p' : Parser σ L T)
    (hp : Built h g none p) (hp' : Built h' g' none p') (hadj : NoAdjacentRepeat ps)
    (hnlr : NotLeftRecursive eps ps) (e : T) (hem : EndMarked eps init e ps)
    (hpf : ∀ x, IsNonTerminal ps x →
      (∀ a, (candidates p.transitions x a).length ≤ 1) ∨ PrefixFree eps ps x)
    (tokens : List (Token L T)) (hin : EndsWith e tokens) (s : σ) :
    ((∃ tree s', Parses p tokens s (.ok tree) s') ↔ ∃ tree s', Parses p' tokens s (.ok tree) s') ∧
    ((∃ f s', Parses p tokens s (.err f) s') ↔ ∃ f s', Parses p' tokens s (.err f) s') := by
  have hmem : ∀ q, q ∈ ps ↔ q ∈ ps' := fun q => hps.mem_iff
  have hN := isNonTerminal_congr hmem
  have hT := isTerminal_congr hmem
  have hD := fun a b => derives_congr (eps := eps) hmem a b
  have hadj' : NoAdjacentRepeat ps' := by
    intro q hq u x v he hx
    exact hadj q ((hmem q).2 hq) u x v he ((hN x).2 hx)
  have hnlr' : NotLeftRecursive eps ps' := by
    rintro x v ⟨c, hc, hd⟩
    have hstep : ∀ a b, Step eps ps' a b → Step eps ps a b := by
      intro a b hab
      induction hab with
      | mk u w q hq => exact .mk u w q ((hmem q).2 hq)
    exact hnlr x v ⟨c, hstep _ _ hc, (hD _ _).2 hd⟩
  have hem' : EndMarked eps init e ps' :=
    { ne_eps := hem.ne_eps
      terminal := fun hn => hem.terminal ((hN e).2 hn)
      initial_once := fun q hq => hem.initial_once q ((hmem q).2 hq)
      initial_ends := fun q hq => hem.initial_ends q ((hmem q).2 hq)
      only_there := fun q hq => hem.only_there q ((hmem q).2 hq) }
  have hpf' : ∀ x, IsNonTerminal ps' x →
      (∀ a, (candidates p'.transitions x a).length ≤ 1) ∨ PrefixFree eps ps' x := by
    intro x hx
    rcases hpf x ((hN x).2 hx) with h1 | h1
    · refine .inl fun a => ?_
      refine Nat.le_trans (Nat.le_of_eq ?_) (h1 a)
      unfold candidates
      rcases cells_perm hps hg hg' hp hp' x a with ⟨e1, e2⟩ | ⟨l, l', e1, e2, e3⟩
      · rw [e1, e2]
      · rw [e1, e2]
        simp [e3.length_eq]
    · refine .inr fun u v hu huv hall => h1 u v ((hD _ _).2 hu) ((hD _ _).2 huv) fun a ha => ?_
      exact ⟨(hT a).2 (hall a ha).1, (hall a ha).2⟩
  have hS : Sentence eps init ps (tokens.map (·.tType)) ↔ Sentence eps init ps' (tokens.map (·.tType)) := by
    unfold Sentence
    simp only [hD, hT]
  have d := C48_prefix_free_decides h eps init ps g hg p hp hadj hnlr e hem hpf tokens hin s
  have d' := C48_prefix_free_decides h' eps init ps' g' hg' p' hp' hadj' hnlr' e hem' hpf' tokens hin s
  rw [← hS] at d'
  by_cases hs : Sentence eps init ps (tokens.map (·.tType))
  · obtain ⟨t, ht, -⟩ := d.1 hs
    obtain ⟨t', ht', -⟩ := d'.1 hs
    refine ⟨⟨fun _ => ⟨t', s, ht'⟩, fun _ => ⟨t, s, ht⟩⟩, ⟨?_, ?_⟩⟩
    · rintro ⟨f, s', hf⟩
      cases (Parser.Parses.det ht hf).1
    · rintro ⟨f, s', hf⟩
      cases (Parser.Parses.det ht' hf).1
  · obtain ⟨t, s1, ht⟩ := d.2 hs
    obtain ⟨t', s2, ht'⟩ := d'.2 hs
    refine ⟨⟨?_, ?_⟩, ⟨fun _ => ⟨t', s2, ht'⟩, fun _ => ⟨t, s1, ht⟩⟩⟩
    · rintro ⟨f, s', hf⟩
      cases (Parser.Parses.det ht hf).1
    · rintro ⟨f, s', hf⟩
      cases (Parser.Parses.det ht' hf).1

/-- The hypotheses are met by `S → a S | b` and the same productions the other way round; the
statement grammar of C48 meets those of `C95_prefix_free` with any reordering. -/
example : ([⟨1, [10, 1]⟩, ⟨1, [11]⟩] : List (Production Nat)).Perm [⟨1, [11]⟩, ⟨1, [10, 1]⟩] ∧ ∃ g g' p p' tree,
    Grammar.new (HashOrder.id Nat) 0 1 [⟨1, [10, 1]⟩, ⟨1, [11]⟩] = .ok g ∧
    Grammar.new (HashOrder.id Nat) 0 1 [⟨1, [11]⟩, ⟨1, [10, 1]⟩] = .ok g' ∧
    Built (σ := Unit) (L := Unit) (HashOrder.id Nat) g none p ∧
    Built (σ := Unit) (L := Unit) (HashOrder.id Nat) g' none p' ∧ ConflictFree p.transitions ∧
    Parses p [⟨none, 10⟩, ⟨none, 10⟩, ⟨none, 11⟩] () (.ok tree) () := by
  obtain ⟨g, p, tree, hg, hp, hall, hr⟩ : ∃ g p tree,
      Grammar.new (HashOrder.id Nat) 0 1 [⟨1, [10, 1]⟩, ⟨1, [11]⟩] = .ok g ∧
      Built (σ := Unit) (L := Unit) (HashOrder.id Nat) g none p ∧
      (∀ x ∈ ([⟨1, [10, 1]⟩, ⟨1, [11]⟩] : List (Production Nat)).map (·.input),
        ∀ a ∈ ([⟨1, [10, 1]⟩, ⟨1, [11]⟩] : List (Production Nat)).flatMap (·.output),
        ((p.transitions.getProductions x a).getD []).length ≤ 1) ∧
      Parses p [⟨none, 10⟩, ⟨none, 10⟩, ⟨none, 11⟩] () (.ok tree) () :=
    ⟨_, _, _, rfl, Parser.built_of_eval (n := 10) rfl, by decide, Parser.parse_returns (n := 30) rfl⟩
  exact ⟨List.Perm.swap _ _ _, g, _, p, _, tree, hg, rfl, hp, Parser.built_of_eval (n := 10) rfl,
    conflictFree_of_check hg hp hall, hr⟩

end Verif.Props
