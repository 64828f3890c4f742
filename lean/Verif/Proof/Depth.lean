import Verif.Model.Bounded
import Verif.Proof.ParserTerm

/-! # A bound on the depth of the recursion -/

set_option linter.unusedSectionVars false

namespace Verif.Parser

open Spec

variable {σ L T : Type} [DecidableEq T] {eps init : T} {ps : List (Production T)}
  {p : Parser σ L T} {tokens : List (Token L T)}

/-- A result within the bounds is a result of the parser. -/
theorem innerParseWithin_le (p : Parser σ L T) (tokens : List (Token L T)) (loop depth : Nat) (x : T)
    (pos : Nat) (outs : List (List T)) (sg : Bool) :
    M.Le (innerParseWithin p tokens loop depth x pos outs sg)
      (innerParse p tokens (loop + depth) x pos outs sg) := by
  induction depth generalizing x pos outs sg with
  | zero => exact .of_fuel _
  | succ d ih =>
    rw [show loop + (d + 1) = (loop + d) + 1 by omega]
    unfold innerParseWithin innerParse
    refine .bind (tryParseProductionsLoop_le (fun _ _ _ _ => ih _ _ _ _) _ _ (by omega)
      _ _ _ _ _) ?_
    intro r
    exact .refl _

theorem parseFromTokensWithin_le (p : Parser σ L T) (tokens : List (Token L T)) (depth loop : Nat) :
    M.Le (parseFromTokensWithin p depth loop tokens) (parseFromTokens p (loop + depth) tokens) := by
  unfold parseFromTokensWithin parseFromTokens
  split
  · exact .refl _
  · cases tokens[0]? with
    | none => exact .refl _
    | some t => exact .bind (innerParseWithin_le p tokens loop depth _ _ _ _) (fun _ => .refl _)

/-- The inputs of the productions. -/
def nts (ps : List (Production T)) : Finset T := (ps.map (·.input)).toFinset

theorem mem_nts {x : T} : x ∈ nts ps ↔ IsNonTerminal ps x := by
  simp [nts, IsNonTerminal]

open Classical in
/-- The number of non-terminals that are left corners of `x`. -/
noncomputable def cornerRank (eps : T) (ps : List (Production T)) (x : T) : Nat :=
  ((nts ps).filter (fun y => Corner eps ps y x)).card

theorem cornerRank_lt (hnlr : NotLeftRecursive eps ps) {x y : T} (hy : IsNonTerminal ps y)
    (h : Corner eps ps y x) : cornerRank eps ps y < cornerRank eps ps x := by
  classical
  unfold cornerRank
  apply Finset.card_lt_card
  rw [Finset.ssubset_iff_of_subset]
  · refine ⟨y, by simp [mem_nts, hy, h], ?_⟩
    simp only [Finset.mem_filter, not_and]
    rintro _ ⟨v, hv⟩
    exact hnlr y v hv
  · intro z
    simp only [Finset.mem_filter]
    rintro ⟨h1, h2⟩
    exact ⟨h1, h2.trans h⟩

theorem cornerRank_lt_card (hnlr : NotLeftRecursive eps ps) {x : T} (hx : IsNonTerminal ps x) :
    cornerRank eps ps x < (nts ps).card := by
  classical
  unfold cornerRank
  apply Finset.card_lt_card
  rw [Finset.ssubset_iff_of_subset (Finset.filter_subset _ _)]
  refine ⟨x, mem_nts.2 hx, ?_⟩
  simp only [Finset.mem_filter, not_and]
  rintro _ ⟨v, hv⟩
  exact hnlr x v hv

theorem tryFix_ne_fuel (hst : SolverTerminates p.syntaxErrorSolver) {pos : Nat} {sg ch : Bool}
    {failed : List (FailedProduction L T)} {s : σ} : tryFixProductions p tokens pos sg ch failed s ≠ .fuel := by
  unfold tryFixProductions
  cases hsv : p.syntaxErrorSolver with
  | none => simp
  | some sv =>
    simp only
    split
    · split
      · cases failed[0]? with
        | none => simp
        | some f => exact (hst sv hsv).1 _ _ _ _
      · exact (hst sv hsv).2 _ _ _ _
    · simp

theorem innerParseWithin_ends (P : ParserOf eps init ps p) (hnlr : NotLeftRecursive eps ps)
    (hp : SolverProgress p.syntaxErrorSolver tokens) (hst : SolverTerminates p.syntaxErrorSolver)
    {loop : Nat} (hloop : ∀ pr ∈ ps, (ps.length + 2) ^ pr.output.length ≤ loop) (depth : Nat) (x : T)
    (pos : Nat) (outs : List (List T)) (sg : Bool) (s : σ) (hx : IsNonTerminal ps x)
    (hpre : Pre p tokens x pos outs)
    (hd : (tokens.length - pos - 1) * (nts ps).card + cornerRank eps ps x < depth) :
    innerParseWithin p tokens loop depth x pos outs sg s ≠ .fuel := by
  induction depth generalizing x pos outs sg s with
  | zero => omega
  | succ d ih =>
    have hok : RecOk eps ps p tokens (innerParseWithin p tokens loop d) := by
      intro x pos outs sg s r s' _ ho e
      rcases innerParseWithin_le p tokens loop d x pos outs sg s with h | h
      · rw [e] at h; simp at h
      · rw [e] at h
        exact innerParse_spec P tokens _ ho h.symm
    have hends : Ends ps p tokens (innerParseWithin p tokens loop d)
        (fun y q => pos < q ∨ (q = pos ∧ Corner eps ps y x)) := by
      intro y q outs sg s hny hc hpre'
      apply ih y q outs sg s hny hpre'
      have h1 := hpre'.lt
      have h2 := cornerRank_lt_card hnlr hny
      rcases hc with hc | ⟨rfl, hc⟩
      · have h3 : tokens.length - q - 1 + 1 ≤ tokens.length - pos - 1 := by omega
        have h4 := Nat.mul_le_mul_right (nts ps).card h3
        rw [Nat.add_mul] at h4
        omega
      · have := cornerRank_lt hnlr hny hc
        omega
    rw [innerParseWithin]
    refine M.bind_ne_fuel (tryParseProductionsLoop_ends P hok hends
      (callsIn_corner P.grammar.wf hp x pos)
      (fun o ho => hpre.mem P ho) (fun o ho => hloop _ (hpre.mem P ho)) [] s) ?_
    intro r s1 _
    cases r with
    | ok r => simp
    | error failed => exact M.bind_ne_fuel (tryFix_ne_fuel hst) (fun _ _ _ => by simp)

/-- The parser returns or panics within the bounds. -/
theorem parseWithin_ends (P : ParserOf eps init ps p) (hnlr : NotLeftRecursive eps ps)
    (hp : SolverProgress p.syntaxErrorSolver tokens) (hst : SolverTerminates p.syntaxErrorSolver)
    {loop : Nat} (hloop : ∀ pr ∈ ps, (ps.length + 2) ^ pr.output.length ≤ loop) {depth : Nat}
    (hd : tokens.length * (nts ps).card ≤ depth) (hd1 : 1 ≤ depth) (s : σ) :
    p.parseFromTokensWithin depth loop tokens s ≠ .fuel := by
  unfold parseFromTokensWithin
  split
  · simp
  · cases ht : tokens[0]? with
    | none => simp
    | some t =>
      have h0 : 0 < tokens.length := (List.getElem?_eq_some_iff.1 ht).1
      simp only
      rw [P.grammar.init_eq]
      refine M.bind_ne_fuel ?_ (fun _ _ _ => by simp)
      by_cases hi : IsNonTerminal ps init
      · apply innerParseWithin_ends P hnlr hp hst hloop _ _ _ _ _ _ hi ⟨t, ht, List.suffix_refl _⟩
        have h2 := cornerRank_lt_card hnlr hi
        obtain ⟨k, hk⟩ : ∃ k, tokens.length = k + 1 := ⟨tokens.length - 1, by omega⟩
        rw [hk] at hd ⊢
        rw [Nat.add_mul] at hd
        have : k + 1 - 0 - 1 = k := by omega
        rw [this]
        omega
      · have hnil : p.getTokenProductions init t.tType = [] := by
          rw [List.eq_nil_iff_forall_not_mem]
          intro o ho
          exact hi ⟨_, P.cand _ _ _ ho, rfl⟩
        rw [hnil]
        obtain ⟨k, rfl⟩ : ∃ k, depth = k + 1 := ⟨depth - 1, by omega⟩
        simp only [innerParseWithin, tryParseProductionsLoop, M.pure_bind']
        exact M.bind_ne_fuel (tryFix_ne_fuel hst) (fun _ _ _ => by simp)

end Verif.Parser
