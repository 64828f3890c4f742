import Verif.Proof.ParserTerm
import Verif.Spec.Vanishing

/-! # Termination with solvers whose fixes consume nothing, or go back -/

set_option linter.unusedSectionVars false

namespace Verif.Parser

open Spec

variable {σ L T : Type} [DecidableEq T] {eps init : T} {ps : List (Production T)}
  {p : Parser σ L T} {tokens : List (Token L T)}

theorem Step.mono {ps' : List (Production T)} (hs : ∀ q ∈ ps, q ∈ ps') {a b : List T}
    (h : Step eps ps a b) : Step eps ps' a b := by
  cases h with
  | mk u v q hq => exact .mk u v q (hs q hq)

theorem Derives.mono {ps' : List (Production T)} (hs : ∀ q ∈ ps, q ∈ ps') {a b : List T}
    (h : Derives eps ps a b) : Derives eps ps' a b := by
  induction h with
  | refl a => exact .refl a
  | step h1 h2 ih => exact .step (Step.mono hs h1) ih

theorem isNonTerminal_vanishing {x : T} : IsNonTerminal (vanishing eps ps) x ↔ IsNonTerminal ps x := by
  constructor
  · rintro ⟨q, hq, rfl⟩
    simp only [vanishing, List.mem_append, List.mem_map] at hq
    rcases hq with hq | ⟨q', hq, rfl⟩
    · exact ⟨q, hq, rfl⟩
    · exact ⟨q', hq, rfl⟩
  · rintro ⟨q, hq, rfl⟩
    exact ⟨q, by simp [vanishing, hq], rfl⟩

theorem nullable_vanishing {x : T} (hx : IsNonTerminal ps x) : Nullable eps (vanishing eps ps) x := by
  obtain ⟨q, hq, rfl⟩ := hx
  have := Step.of_production (eps := eps) (ps := vanishing eps ps) (p := ⟨q.input, [eps]⟩)
    (by simp only [vanishing, List.mem_append, List.mem_map]; exact .inr ⟨q, hq, rfl⟩)
  simp only [rhs, if_true] at this
  exact Derives.of_step this

/-- A stack that has not moved stands for symbols that may vanish (or `eps`). -/
theorem StackOk.vanish (hw : WellFormed eps ps) (hp : SolverMoves 0 p.syntaxErrorSolver tokens)
    {pos0 : Nat} {xs : List T} {st : List (PState L T)} {q : Nat}
    (h : StackOk eps ps p tokens pos0 xs st q) (hq : q = pos0) :
    ∀ y ∈ xs, y = eps ∨ Nullable eps (vanishing eps ps) y := by
  induction h with
  | nil => simp
  | parsing hs hi hst ih =>
    rename_i x xs st q s
    have h1 := (hst.moves hp).1
    have h2 := hs.le
    have h3 : q = pos0 := by omega
    intro y hy
    rw [List.mem_cons] at hy
    rcases hy with rfl | hy
    · have := hs.tree
      rw [hq, h3, word_self] at this
      rcases isTree_derives hw this with ⟨h', _⟩ | ⟨_, h'⟩
      · exact .inl h'
      · exact .inr (Derives.mono (ps := ps) (by intro q hq; simp [vanishing, hq]) (by simpa [Nullable] using h'))
    · exact ih h3 y hy
  | fixed hx hf hs hsym hq' hst ih =>
    rename_i x xs st q s
    have h1 := (hst.moves hp).1
    have h2 := hq' 0 hp
    intro y hy
    rw [List.mem_cons] at hy
    rcases hy with rfl | hy
    · exact .inr (nullable_vanishing hx)
    · exact ih (by omega) y hy

theorem step_split (hw : WellFormed eps ps) {x y : T} {out xs ys : List T}
    (hout : (⟨x, out⟩ : Production T) ∈ ps) (hsplit : out = xs ++ y :: ys)
    (hy : IsNonTerminal ps y) : Step eps ps [x] (xs ++ y :: ys) ∧ eps ∉ out := by
  have hye : y ≠ eps := by
    rintro rfl
    obtain ⟨r, hr, hr2⟩ := hy
    exact (hw r hr).1 hr2
  constructor
  · have hr : rhs eps (⟨x, out⟩ : Production T) = out := by
      unfold rhs
      rw [if_neg]
      intro e
      simp only at e
      have : y ∈ out := by simp [hsplit]
      rw [e] at this
      exact hye (by simpa using this)
    have := Step.of_production (eps := eps) hout
    rw [hr, hsplit] at this
    exact this
  · intro he
    have hl := (hw _ hout).2.2 he
    simp only at hl
    rw [hsplit] at hl he
    simp only [List.length_append, List.length_cons] at hl
    have h3 : xs = [] := List.length_eq_zero_iff.1 (by omega)
    have h4 : ys = [] := List.length_eq_zero_iff.1 (by omega)
    subst h3 h4
    simp at he
    exact hye he.symm

/-- A non-terminal reached without moving is a left corner of the grammar with vanishing symbols. -/
theorem callsIn_vanishing (hw : WellFormed eps ps) (hp : SolverMoves 0 p.syntaxErrorSolver tokens)
    (x : T) (pos0 : Nat) : CallsIn eps ps p tokens x pos0
      (fun y q => pos0 < q ∨ (q = pos0 ∧ Corner eps (vanishing eps ps) y x)) := by
  intro out xs y ys st q hout hsplit hy h
  have h1 := (h.moves hp).1
  rcases Nat.lt_or_ge pos0 q with h2 | h2
  · exact .inl h2
  · have hq : q = pos0 := by omega
    obtain ⟨hstep, heps⟩ := step_split hw hout hsplit hy
    refine .inr ⟨hq, ys, _, Step.mono (by intro q hq; simp [vanishing, hq]) hstep, ?_⟩
    have hd : Derives eps (vanishing eps ps) xs.reverse [] := by
      apply StrNullable.derives
      intro z hz
      rcases h.vanish hw hp hq z (by simpa using hz) with rfl | h'
      · exact absurd (by rw [hsplit]; simp at hz; simp [hz]) heps
      · exact h'
    have := Derives.context [] (y :: ys) hd
    simpa using this

theorem parse_ends_forward (P : ParserOf eps init ps p)
    (hnlr : NotLeftRecursive eps (vanishing eps ps))
    (hp : SolverMoves 0 p.syntaxErrorSolver tokens) (hst : SolverTerminates p.syntaxErrorSolver)
    (s : σ) : ∃ n, p.parseFromTokens n tokens s ≠ .fuel := by
  have hwf : WellFounded (fun y x : {x : T // IsNonTerminal ps x} =>
      Corner eps (vanishing eps ps) y.1 x.1) := by
    have := corner_wf hnlr
    exact InvImage.wf (fun x : {x : T // IsNonTerminal ps x} =>
      (⟨x.1, isNonTerminal_vanishing.2 x.2⟩ : {x : T // IsNonTerminal (vanishing eps ps) x})) this
  exact parse_ends_of P hst (fun hi => endsAt_of_wf P hst
    (R := fun b a => a.2 < b.2 ∨ (b.2 = a.2 ∧ Corner eps (vanishing eps ps) b.1 a.1))
    (fun x pos hx _ => forward_acc hwf ⟨x, hx⟩ pos)
    (fun x pos _ => callsIn_vanishing P.grammar.wf hp x pos) init hi 0) s

/-! ## No recursion at all -/

/-- `y` occurs in a form derived from `x`. -/
def Occurs (eps : T) (ps : List (Production T)) (y x : T) : Prop :=
  ∃ u v, DerivesPlus eps ps [x] (u ++ y :: v)

theorem Occurs.trans {x y z : T} (h : Occurs eps ps z y) (h' : Occurs eps ps y x) :
    Occurs eps ps z x := by
  obtain ⟨u, v, d, h1, h2⟩ := h
  obtain ⟨u', v', h3⟩ := h'
  refine ⟨u' ++ u, v ++ v', derivesPlus_derives h3 ?_⟩
  have := Derives.context u' v' ((Derives.of_step h1).trans h2)
  simpa using this

theorem occurs_wf (hnr : NotRecursive eps ps) :
    WellFounded (fun y x : {x : T // IsNonTerminal ps x} => Occurs eps ps y.1 x.1) := by
  have hfin : Finite {x : T // IsNonTerminal ps x} := by
    apply Set.Finite.to_subtype (s := {x | IsNonTerminal ps x})
    have : {x | IsNonTerminal ps x} = {x | x ∈ ps.map (·.input)} := by
      ext x
      simp [IsNonTerminal]
    rw [this]
    exact List.finite_toSet _
  have : IsTrans {x : T // IsNonTerminal ps x} (fun y x => Occurs eps ps y.1 x.1) :=
    ⟨fun _ _ _ h h' => h.trans h'⟩
  have : Std.Irrefl (fun y x : {x : T // IsNonTerminal ps x} => Occurs eps ps y.1 x.1) :=
    ⟨fun x h => by
      obtain ⟨u, v, hv⟩ := h
      exact hnr x.1 u v hv⟩
  exact Finite.wellFounded_of_trans_of_irrefl _

theorem callsIn_occurs (hw : WellFormed eps ps) (x : T) (pos0 : Nat) :
    CallsIn eps ps p tokens x pos0 (fun y _ => Occurs eps ps y x) := by
  intro out xs y ys st q hout hsplit hy _
  exact ⟨_, _, _, (step_split hw hout hsplit hy).1, .refl _⟩

theorem parse_ends_acyclic (P : ParserOf eps init ps p) (hnr : NotRecursive eps ps)
    (hst : SolverTerminates p.syntaxErrorSolver) (s : σ) :
    ∃ n, p.parseFromTokens n tokens s ≠ .fuel := by
  refine parse_ends_of P hst (fun hi => endsAt_of_wf P hst
    (R := fun b a => Occurs eps ps b.1 a.1) ?_
    (fun x pos _ => callsIn_occurs P.grammar.wf x pos) init hi 0) s
  intro x pos hx _
  have key : ∀ x : {x : T // IsNonTerminal ps x}, ∀ pos, Acc (fun b a : T × Nat =>
      IsNonTerminal ps b.1 ∧ b.2 < tokens.length ∧ Occurs eps ps b.1 a.1) (x.1, pos) := by
    intro x
    induction x using (occurs_wf hnr).induction with
    | h x ih =>
      intro pos
      refine Acc.intro _ ?_
      rintro ⟨y, q⟩ ⟨hny, _, hc⟩
      exact ih ⟨y, hny⟩ hc q
  exact key ⟨x, hx⟩ pos

end Verif.Parser
