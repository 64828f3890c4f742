import Verif.Spec.LeftCorner
import Verif.Proof.Rank
import Verif.Props.SetRules
import Verif.Props.LL1
import Verif.Props.Reduced
import Verif.Props.Depth
import Verif.Props.Solver
import Verif.Props.Termination
import Verif.Props.Choice

/-!
# Left recursion and the conditions for deciding the language can be read off the API (C96)
-/

set_option linter.unusedSectionVars false

namespace Verif.Props

open Verif.Spec Verif.Examples

variable {σ L T : Type} [DecidableEq T]

section

variable {h : HashOrder T} {eps init : T} {ps : List (Production T)} {g : Grammar T}
  (hg : Grammar.new h eps init ps = .ok g) {ff : FirstFollow T}
  (hff : Returns (fun n => FirstFollow.from h n g) ff)

include hg hff

theorem inFirst_eps_nullable {q : Production T} (hq : q ∈ ps) {u v : List T} {y : T}
    (ho : q.output = u ++ y :: v) {z : T} (hz : z ∈ u) (hi : InFirst ff z eps) : Nullable eps ps z := by
  have hwf := (Grammar.grammarOf_of_new hg).wf
  rcases inFirst_known hg hff hi with hn | ht
  · exact (C06_first_eps h eps init ps g hg ff hff z hn).1 hi
  · exfalso
    obtain ⟨s, hs, he⟩ := hi
    rw [(C07_first_domain h eps init ps g hg ff hff).2 z ht] at hs
    cases hs
    simp only [List.mem_singleton] at he
    subst he
    have := (hwf q hq).2.2 (by rw [ho]; simp [hz])
    rw [ho] at this
    have h1 : 1 ≤ u.length := List.length_pos_of_mem hz
    simp at this
    omega

theorem mayBegin_corner {x y : T} (hb : MayBegin eps ps ff x y) : Parser.Corner eps ps y x := by
  obtain ⟨hy, q, hq, rfl, u, v, ho, hu⟩ := hb
  have hwf := (Grammar.grammarOf_of_new hg).wf
  have hr : rhs eps q = u ++ y :: v := by
    rw [rhs, if_neg, ho]
    intro h1
    rw [ho] at h1
    have hye : y = eps := by
      have : y ∈ ([eps] : List T) := by rw [← h1]; simp
      simpa using this
    subst hye
    obtain ⟨q', hq', e⟩ := hy
    exact (hwf q' hq').1 e
  refine ⟨v, u ++ y :: v, ?_, ?_⟩
  · have := Step.mk (eps := eps) (ps := ps) [] [] q hq
    rw [hr] at this
    simpa using this
  · have hn : Derives eps ps u [] :=
      StrNullable.derives fun z hz => inFirst_eps_nullable hg hff hq ho hz (hu z hz)
    simpa using Derives.append hn (.refl (y :: v))

theorem notLeftRecursive_of_mayBegin (r : T → Nat) (hr : ∀ x y, MayBegin eps ps ff x y → r y < r x) :
    NotLeftRecursive eps ps := by
  classical
  have hwf := (Grammar.grammarOf_of_new hg).wf
  let N : T → Bool := fun x => decide (Nullable eps ps x)
  let r' : T → Nat := fun x => if IsNonTerminal ps x then r x + 1 else 0
  refine notLeftRecursive_of_rank N r' ?_
  simp only [rankOk, Bool.and_eq_true, List.all_eq_true, Bool.or_eq_true, Bool.not_eq_true']
  refine ⟨?_, ?_⟩
  · intro q hq
    by_cases he : q.output = [eps]
    · rw [rhs, if_pos he]
      rfl
    · rw [rhs, if_neg he]
      have key : ∀ u w, q.output = u ++ w → (∀ z ∈ u, Nullable eps ps z) → leadOk N r' q.input w = true := by
        intro u w
        induction w generalizing u with
        | nil => intros; rfl
        | cons y w ih =>
          intro ho hu
          simp only [leadOk, Bool.and_eq_true, decide_eq_true_eq, Bool.or_eq_true, Bool.not_eq_true']
          have hin : IsNonTerminal ps q.input := ⟨q, hq, rfl⟩
          refine ⟨?_, ?_⟩
          · simp only [r', if_pos hin]
            split
            next hy =>
              have := hr q.input y ⟨hy, q, hq, rfl, u, w, ho, fun z hz => ?_⟩
              · omega
              · have hzn : IsNonTerminal ps z := by
                  by_contra hzn
                  exact absurd (hu z hz) (FirstFollow.terminal_not_nullable hzn)
                exact (C06_first_eps h eps init ps g hg ff hff z hzn).2 (hu z hz)
            next => omega
          · by_cases hy : Nullable eps ps y
            · right
              refine ih (u ++ [y]) (by simp [ho]) ?_
              intro z hz
              rcases List.mem_append.1 hz with hz | hz
              · exact hu z hz
              · simp only [List.mem_singleton] at hz
                rw [hz]
                exact hy
            · left
              simp [N, hy]
      exact key [] _ rfl (by simp)
  · intro q hq
    by_cases hn : Nullable eps ps q.input
    · right
      simp [N, hn]
    · left
      by_contra hall
      simp only [Bool.not_eq_false, List.all_eq_true, N, decide_eq_true_eq] at hall
      refine hn (.step ?_ (StrNullable.derives (l := rhs eps q) hall))
      simpa using Step.mk (eps := eps) (ps := ps) [] [] q hq

end

/-- **C96**, left recursion: a grammar is not left-recursive exactly if no symbol leads back to itself by its
productions and the computed FIRST sets. -/
theorem C96_left_recursion (h : HashOrder T) (eps init : T) (ps : List (Production T))
    (g : Grammar T) (hg : Grammar.new h eps init ps = .ok g) (ff : FirstFollow T)
    (hff : Returns (fun n => FirstFollow.from h n g) ff) :
    NotLeftRecursive eps ps ↔ ∀ x, ¬ MayLeadTo eps ps ff x x := by
  classical
  have htrans : ∀ {x y z}, MayLeadTo eps ps ff x y → MayLeadTo eps ps ff y z → MayLeadTo eps ps ff x z := by
    intro x y z h1
    induction h1 with
    | one h1 => exact .more h1
    | more h1 _ ih => exact fun h2 => .more h1 (ih h2)
  refine ⟨?_, ?_⟩
  · intro hn x hx
    have : ∀ {x y}, MayLeadTo eps ps ff x y → Parser.cornerRank eps ps y < Parser.cornerRank eps ps x := by
      intro x y hxy
      induction hxy with
      | one h1 => exact Parser.cornerRank_lt hn h1.1 (mayBegin_corner hg hff h1)
      | more h1 _ ih => exact Nat.lt_trans ih (Parser.cornerRank_lt hn h1.1 (mayBegin_corner hg hff h1))
    exact Nat.lt_irrefl _ (this hx)
  · intro hac
    refine notLeftRecursive_of_mayBegin hg hff
      (fun x => ((Parser.nts ps).filter (fun y => MayLeadTo eps ps ff x y)).card) ?_
    intro x y hxy
    apply Finset.card_lt_card
    rw [Finset.ssubset_iff_of_subset]
    · refine ⟨y, by simp [Parser.mem_nts, hxy.1, MayLeadTo.one hxy], ?_⟩
      simp only [Finset.mem_filter, not_and]
      exact fun _ => hac y
    · intro z hz
      simp only [Finset.mem_filter] at hz ⊢
      exact ⟨hz.1, .more hxy hz.2⟩

/-- **C96**, a certificate: a grammar is not left-recursive exactly if its symbols can be numbered so that the
number gets smaller from a symbol to each non-terminal with which its outputs may begin. -/
theorem C96_certificate (h : HashOrder T) (eps init : T) (ps : List (Production T))
    (g : Grammar T) (hg : Grammar.new h eps init ps = .ok g) (ff : FirstFollow T)
    (hff : Returns (fun n => FirstFollow.from h n g) ff) :
    NotLeftRecursive eps ps ↔ ∃ r : T → Nat, ∀ x y, MayBegin eps ps ff x y → r y < r x :=
  ⟨fun hn => ⟨Parser.cornerRank eps ps, fun _ _ hxy =>
    Parser.cornerRank_lt hn hxy.1 (mayBegin_corner hg hff hxy)⟩,
    fun ⟨r, hr⟩ => notLeftRecursive_of_mayBegin hg hff r hr⟩

/-- **C96**, deciding: if the computed sets and the table pass these finitely many checks (the numbering, at most
one production per cell) and the productions these (an end marker, no two equal adjacent non-terminals), the parser
decides the language of the grammar. -/
theorem C96_checked_decides (h : HashOrder T) (eps init : T) (ps : List (Production T))
    (g : Grammar T) (hg : Grammar.new h eps init ps = .ok g) (ff : FirstFollow T)
    (hff : Returns (fun n => FirstFollow.from h n g) ff) (p : Parser σ L T) (hp : Built h g none p)
    (r : T → Nat) (hr : ∀ x y, MayBegin eps ps ff x y → r y < r x)
    (hcell : ∀ q ∈ ps, ∀ q' ∈ ps, ∀ a ∈ q'.output, ∀ l,
      p.transitions.getProductions q.input a = some l → l.length ≤ 1)
    (hadj : NoAdjacentRepeat ps) (e : T) (hem : EndMarked eps init e ps)
    (tokens : List (Token L T)) (hin : EndsWith e tokens) (s : σ) :
    (Sentence eps init ps (tokens.map (·.tType)) →
      ∃ tree, Parses p tokens s (.ok tree) s ∧ IsTree eps ps init tokens tree.root) ∧
    (¬ Sentence eps init ps (tokens.map (·.tType)) → ∃ f s', Parses p tokens s (.err f) s') := by
  refine C22_decides h eps init ps g hg p hp ?_ hadj (notLeftRecursive_of_mayBegin hg hff r hr) e hem tokens hin s
  refine conflictFree_of_check hg hp ?_
  intro x hx a ha
  obtain ⟨q, hq, rfl⟩ := List.mem_map.1 hx
  obtain ⟨q', hq', ha⟩ := List.mem_flatMap.1 ha
  cases hl : p.transitions.getProductions q.input a with
  | none => simp
  | some l => simpa using hcell q hq q' hq' a ha l hl

/-- **C96**, useless symbols: a non-terminal with an empty FIRST set derives no word. -/
theorem C96_empty_first (h : HashOrder T) (eps init : T) (ps : List (Production T))
    (g : Grammar T) (hg : Grammar.new h eps init ps = .ok g) (ff : FirstFollow T)
    (hff : Returns (fun n => FirstFollow.from h n g) ff) (x : T) (hx : IsNonTerminal ps x)
    (he : ff.getFirstSymbols x = some []) : ¬ Productive eps ps x := by
  rintro ⟨w, hd, hw⟩
  cases w with
  | nil =>
    obtain ⟨s, hs, hm⟩ := (C06_first_eps h eps init ps g hg ff hff x hx).2 hd
    rw [he] at hs
    cases hs
    simp at hm
  | cons a w =>
    obtain ⟨s, hs, hm⟩ := (C05_first_exact h eps init ps g hg ff hff x hx a (hw a (by simp)).2).2
      ⟨(hw a (by simp)).1, w, hd⟩
    rw [he] at hs
    cases hs
    simp at hm

/-- The hypotheses of C96 are met by the expression grammar; and in `S → A S b | c`, `A → ε` the symbol `S` leads
to itself, behind `A`. -/
example : (∃ g ff p, Grammar.new (HashOrder.id Nat) 0 1 exprPs = .ok g ∧
      Returns (fun n => FirstFollow.from (HashOrder.id Nat) n g) ff ∧
      Built (σ := Unit) (L := Unit) (HashOrder.id Nat) g none p ∧
      (∃ r : Nat → Nat, ∀ x y, MayBegin 0 exprPs ff x y → r y < r x) ∧
      (∀ q ∈ exprPs, ∀ q' ∈ exprPs, ∀ a ∈ q'.output, ∀ l,
        p.transitions.getProductions q.input a = some l → l.length ≤ 1) ∧
      NoAdjacentRepeat exprPs ∧ EndMarked 0 1 16 exprPs) ∧
    ∃ g ff, Grammar.new (HashOrder.id Nat) 0 1 [⟨1, [2, 1, 11]⟩, ⟨1, [12]⟩, ⟨2, [0]⟩] = .ok g ∧
      Returns (fun n => FirstFollow.from (HashOrder.id Nat) n g) ff ∧
      MayLeadTo 0 [⟨1, [2, 1, 11]⟩, ⟨1, [12]⟩, ⟨2, [0]⟩] ff 1 1 := by
  refine ⟨?_, _, _, rfl, FirstFollow.returns_of_from (n := 5) rfl, .one ⟨⟨⟨1, [12]⟩, by simp, rfl⟩,
    ⟨1, [2, 1, 11]⟩, by simp, rfl, [2], [11], rfl, ?_⟩⟩
  · obtain ⟨g, ff, p, hg, hff, hp⟩ : ∃ g ff p, Grammar.new (HashOrder.id Nat) 0 1 exprPs = .ok g ∧
        Returns (fun n => FirstFollow.from (HashOrder.id Nat) n g) ff ∧
        Built (σ := Unit) (L := Unit) (HashOrder.id Nat) g none p :=
      ⟨_, _, _, rfl, FirstFollow.returns_of_from (n := 10) rfl, Parser.built_of_eval (n := 10) rfl⟩
    refine ⟨g, ff, p, hg, hff, hp,
      (C96_certificate _ 0 1 exprPs g hg ff hff).1 exprPs_notLeftRecursive, ?_, exprPs_noAdjacentRepeat,
      exprPs_endMarked⟩
    intro q _ q' _ a _ l hl
    exact exprPs_conflictFree p _ g hg none hp _ _ l hl
  · intro z hz
    simp only [List.mem_singleton] at hz
    subst hz
    exact ⟨_, rfl, by decide⟩

end Verif.Props
