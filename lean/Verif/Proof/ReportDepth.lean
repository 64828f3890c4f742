import Verif.Proof.ReportAt
import Verif.Proof.TreeSize

/-! # The converse without conflicts; the depth of reports -/

set_option linter.unusedSectionVars false

namespace Verif.Parser.Recovery

open Spec Spec.Recovery

variable {σ L T : Type} [DecidableEq T] {eps : T} {ps : List (Production T)}
  {tokens : List (Token L T)} {cand : T → T → List (List T)}
  {solver : Option (Solver σ L T)}

/-- A fix takes a solver. -/
theorem not_fixAt_none {x : T} {i j : Nat} {w : List (Token L T)} {fs : FixedSymbol L T}
    (h : FixAt eps ps (none : Option (Solver σ L T)) tokens x i j w fs) : False := by
  refine FixAt.rec (eps := eps) (ps := ps) (solver := none) (tokens := tokens)
    (motive_1 := fun _ _ _ _ _ _ => False)
    (motive_2 := fun _ _ _ _ parts _ => ¬ ∃ fs, FixedProductionPart.fixed fs ∈ parts)
    ?_ ?_ ?_ ?_ ?_ h
  · rintro x i r ⟨_, sv, _, _, hs, _⟩
    simp at hs
  · intro p i j w parts _ _ hex ih
    exact ih hex
  · rintro i ⟨fs, hfs⟩
    simp at hfs
  · rintro x xs i j w w' n parts _ _ _ ih ⟨fs, hfs⟩
    exact ih ⟨fs, by simpa using hfs⟩
  · intro x xs i k j w w' fs parts _ _ _ ih _
    exact ih.elim

/-- Without conflicts and without a solver, what is before the failed symbol is found. -/
theorem seq_of_before (hcf : ∀ x a, (cand x a).length ≤ 1) (hw : WellFormed eps ps) {before : List T} {y : T}
    {after : List T} {i j : Nat} {l : List (ProductionParsedSymbol L T)} {f : FailedSymbol L T}
    (h : Before eps ps cand (none : Option (Solver σ L T)) tokens before i l j)
    (hf : ∀ sg s, Spec.Recovery.Seq eps ps cand (none : Option (Solver σ L T)) tokens sg (y :: after) j s
      (.failed (f, []) s)) (sg : Bool) (s : σ) :
    Spec.Recovery.Seq eps ps cand (none : Option (Solver σ L T)) tokens sg (before ++ y :: after) i s
      (.failed (f, l) s) := by
  induction h with
  | nil i => exact hf sg s
  | eps xs i j l _ ih => exact .eps sg _ i s _ (ih hf)
  | terminal xs i j t l h1 h2 h3 _ ih => exact .terminal sg _ i s t _ h1 h2 h3 (ih hf)
  | derived x xs i k j n l hx hp _ ih =>
    cases hp with
    | leaf t _ h1 => exact absurd hx h1
    | eps =>
      obtain ⟨q, hq, e⟩ := hx
      exact absurd e (hw q hq).1
    | node _ _ t out ns _ _ ht ho hs =>
      have hc : cand x t.tType = [out] := by
        have := hcf x t.tType
        match hl : cand x t.tType, ho, this with
        | [o], ho, _ => simp at ho; rw [ho]
      refine .nonTerminal sg x _ i s s t (.mk ns ⟨none, x⟩) k [] _ _ hx ht ?_ (ih hf)
        (.gaveUp _ _ _ _ _ _ _ _ s (.mk [] x) (.failed _ _ _ _ _ s s [] (.none _ _ _ _) rfl))
      rw [hc]
      exact .derived _ _ _ _ _ _ _ (.node _ _ _ _ _ _ _ _ _ (seq_of_predicted hcf hs _ s))
  | fixed x xs i k j w fs l _ hx _ _ => exact (not_fixAt_none hx).elim

/-- Without conflicts and without a solver, every report of the specification is what the search gives. -/
theorem seq_of_failsAt (hcf : ∀ x a, (cand x a).length ≤ 1) (hw : WellFormed eps ps) {x : T} {i : Nat}
    {f : FailedSymbol L T} (h : FailsAt eps ps cand (none : Option (Solver σ L T)) tokens x i f) :
    (∀ xs sg s, Spec.Recovery.Seq eps ps cand (none : Option (Solver σ L T)) tokens sg (x :: xs) i s
      (.failed (f, []) s)) ∧
    (IsNonTerminal ps x → ∃ t, tokens[i]? = some t ∧ ∀ sg s,
      Choice eps ps cand (none : Option (Solver σ L T)) tokens x i (cand x t.tType) sg s (.failed f s)) := by
  refine FailsAt.rec (eps := eps) (ps := ps) (cand := cand) (solver := none) (tokens := tokens)
    (motive_1 := fun x i f _ =>
      (∀ xs sg s, Spec.Recovery.Seq eps ps cand (none : Option (Solver σ L T)) tokens sg (x :: xs) i s
        (.failed (f, []) s)) ∧
      (IsNonTerminal ps x → ∃ t, tokens[i]? = some t ∧ ∀ sg s,
        Choice eps ps cand (none : Option (Solver σ L T)) tokens x i (cand x t.tType) sg s (.failed f s)))
    (motive_2 := fun i outs fps _ => ∀ x sg s,
      Alts eps ps cand (none : Option (Solver σ L T)) tokens x i sg outs s (.failed fps s))
    ?_ ?_ ?_ ?_ h
  · intro x i h1 h2 h3
    exact ⟨fun xs sg s => .mismatch sg x xs i s h1 h2 h3, fun hx => absurd hx h1⟩
  · intro x i t fps hx ht _ ih
    have hch : ∀ sg s, Choice eps ps cand (none : Option (Solver σ L T)) tokens x i (cand x t.tType) sg s
        (.failed (.mk fps x) s) := fun sg s => .failed _ _ _ _ _ s s fps (ih x _ s) rfl
    exact ⟨fun xs sg s => .failed sg x xs i s s t _ hx ht (hch sg s), fun _ => ⟨t, ht, hch⟩⟩
  · intro i x sg s
    exact .none _ _ _ _
  · intro i j before y after f parsed outs fps hb _ _ ih1 ih2 x sg s
    exact .next x i sg _ outs s s f parsed (.failed fps s)
      (seq_of_before hcf hw hb (fun sg s => ih1.1 after sg s) sg s) (ih2 x sg s)

/-! ## Depth -/

mutual
/-- A predicted tree does not end before it begins, and if it covers no token its symbol is nullable. -/
theorem predicted_le (hw : WellFormed eps ps)
    (hcand : ∀ x a out, out ∈ cand x a → (⟨x, out⟩ : Production T) ∈ ps) {x : T} {i j : Nat} {n : Node L T}
    (h : Predicted eps ps cand tokens x i n j) : i ≤ j ∧ (i = j → x = eps ∨ Nullable eps ps x) := by
  match h with
  | .leaf t _ _ _ _ => exact ⟨by omega, fun e => by omega⟩
  | .eps _ => exact ⟨Nat.le_refl _, fun _ => .inl rfl⟩
  | .node _ _ t out ns _ _ _ ho hs =>
    obtain ⟨h1, h2⟩ := predictedSeq_le hw hcand hs
    refine ⟨h1, fun e => .inr ?_⟩
    have hq := hcand _ _ _ ho
    refine Nullable.of_production hq ?_
    intro z hz
    unfold rhs at hz
    split at hz
    · simp at hz
    · rename_i hne
      rcases h2 e z hz with rfl | hz'
      · have := (hw _ hq).2.2 hz
        simp only at this hz hne
        match out, this, hz, hne with
        | [o], _, hz, hne => simp at hz; exact absurd (by rw [hz]) hne
      · exact hz'
theorem predictedSeq_le (hw : WellFormed eps ps)
    (hcand : ∀ x a out, out ∈ cand x a → (⟨x, out⟩ : Production T) ∈ ps) {xs : List T} {i j : Nat}
    {ns : List (Node L T)} (h : PredictedSeq eps ps cand tokens xs i ns j) :
    i ≤ j ∧ (i = j → ∀ z ∈ xs, z = eps ∨ Nullable eps ps z) := by
  match h with
  | .nil _ => exact ⟨Nat.le_refl _, fun _ => by simp⟩
  | .cons x xs _ k _ n ns h1 h2 =>
    obtain ⟨h3, h4⟩ := predicted_le hw hcand h1
    obtain ⟨h5, h6⟩ := predictedSeq_le hw hcand h2
    refine ⟨by omega, fun e z hz => ?_⟩
    rcases List.mem_cons.1 hz with rfl | hz
    · exact h4 (by omega)
    · exact h6 (by omega) z hz
end

/-- With a solver whose fixes end behind the position they begin at, so do built fixes. -/
theorem fixAt_lt (hpr : SolverProgress solver tokens) {x : T} {i j : Nat} {w : List (Token L T)}
    {fs : FixedSymbol L T} (h : FixAt eps ps solver tokens x i j w fs) : i < j := by
  refine FixAt.rec (eps := eps) (ps := ps) (solver := solver) (tokens := tokens)
    (motive_1 := fun _ i j _ _ _ => i < j)
    (motive_2 := fun _ i j _ parts _ => i ≤ j ∧ ((∃ fs, FixedProductionPart.fixed fs ∈ parts) → i < j))
    ?_ ?_ ?_ ?_ ?_ h
  · intro x i r hr
    exact hpr _ _ hr
  · intro p i j w parts _ _ hex ih
    exact ih.2 hex
  · intro i
    exact ⟨Nat.le_refl _, fun ⟨fs, hfs⟩ => by simp at hfs⟩
  · intro x xs i j w w' n parts _ _ _ ih
    refine ⟨by omega, fun ⟨fs, hfs⟩ => ?_⟩
    have := ih.2 ⟨fs, by simpa using hfs⟩
    omega
  · intro x xs i k j w w' fs parts _ _ _ ih1 ih2
    exact ⟨by omega, fun _ => by omega⟩

theorem before_le (hw : WellFormed eps ps)
    (hcand : ∀ x a out, out ∈ cand x a → (⟨x, out⟩ : Production T) ∈ ps)
    (hpr : SolverProgress solver tokens) {xs : List T} {i j : Nat} {l : List (ProductionParsedSymbol L T)}
    (h : Before eps ps cand solver tokens xs i l j) :
    i ≤ j ∧ (i = j → ∀ z ∈ xs, z = eps ∨ Nullable eps ps z) := by
  induction h with
  | nil i => exact ⟨Nat.le_refl _, fun _ => by simp⟩
  | eps xs i j l _ ih =>
    refine ⟨ih.1, fun e z hz => ?_⟩
    rcases List.mem_cons.1 hz with rfl | hz
    · exact .inl rfl
    · exact ih.2 e z hz
  | terminal xs i j t l h1 h2 h3 _ ih => exact ⟨by omega, fun e => by omega⟩
  | derived x xs i k j n l hx hp _ ih =>
    obtain ⟨h1, h2⟩ := predicted_le hw hcand hp
    refine ⟨by omega, fun e z hz => ?_⟩
    rcases List.mem_cons.1 hz with rfl | hz
    · exact h2 (by omega)
    · exact ih.2 (by omega) z hz
  | fixed x xs i k j w fs l _ hx _ ih =>
    have := fixAt_lt hpr hx
    exact ⟨by omega, fun e => by omega⟩

/-- The depth of a report. -/
theorem failsAt_depth (hw : WellFormed eps ps) (hnlr : NotLeftRecursive eps ps)
    (hcand : ∀ x a out, out ∈ cand x a → (⟨x, out⟩ : Production T) ∈ ps)
    (hpr : SolverProgress solver tokens) {x : T} {i : Nat}
    {f : FailedSymbol L T} (h : FailsAt eps ps cand solver tokens x i f) :
    (IsNonTerminal ps x → i < tokens.length ∧
      reportDepth f ≤ (nts ps).card * (tokens.length - i - 1) + cornerRank eps ps x + 2) ∧
    (¬ IsNonTerminal ps x → reportDepth f = 1) := by
  refine FailsAt.rec (eps := eps) (ps := ps) (cand := cand) (solver := solver) (tokens := tokens)
    (motive_1 := fun x i f _ => (IsNonTerminal ps x → i < tokens.length ∧
        reportDepth f ≤ (nts ps).card * (tokens.length - i - 1) + cornerRank eps ps x + 2) ∧
      (¬ IsNonTerminal ps x → reportDepth f = 1))
    (motive_2 := fun i outs fps _ => ∀ x, (∀ o ∈ outs, (⟨x, o⟩ : Production T) ∈ ps) →
      i < tokens.length →
      reportDepthList fps ≤ (nts ps).card * (tokens.length - i - 1) + cornerRank eps ps x + 1)
    ?_ ?_ ?_ ?_ h
  · intro x i h1 _ _
    exact ⟨fun hx => absurd hx h1, fun _ => rfl⟩
  · intro x i t fps hx ht _ ih
    have hlt := (List.getElem?_eq_some_iff.1 ht).1
    refine ⟨fun _ => ⟨hlt, ?_⟩, fun h' => absurd hx h'⟩
    have := ih x (fun o ho => hcand _ _ _ ho) hlt
    rw [reportDepth]
    omega
  · intro i x _ _
    simp [reportDepthList]
  · intro i j before y after f parsed outs fps hb _ _ ih1 ih2 x ho hlt
    have h1 := ih2 x (fun o h' => ho o (by simp [h'])) hlt
    rw [reportDepthList, reportDepthProduction]
    obtain ⟨h2, h3⟩ := before_le hw hcand hpr hb
    have h4 : reportDepth f ≤ (nts ps).card * (tokens.length - i - 1) + cornerRank eps ps x + 1 := by
      by_cases hy : IsNonTerminal ps y
      · obtain ⟨h5, h6⟩ := ih1.1 hy
        by_cases e : i = j
        · have hlead := cornerRank_lt hnlr hy (corner_of_prefix hw (ho (before ++ y :: after) (.head _)) hy (h3 e))
          subst e
          omega
        · have h7 := cornerRank_lt_card hnlr hy
          have h8 : (nts ps).card * (tokens.length - j - 1 + 1) ≤ (nts ps).card * (tokens.length - i - 1) :=
            Nat.mul_le_mul_left _ (by omega)
          rw [Nat.mul_add] at h8
          omega
      · have := ih1.2 hy
        omega
    omega

end Verif.Parser.Recovery
