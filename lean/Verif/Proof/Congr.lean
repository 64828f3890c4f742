import Verif.Proof.Recovery
import Verif.Props.Solver

/-! # Production lists with the same members: the same derivations, FIRST, FOLLOW -/

set_option linter.unusedSectionVars false

namespace Verif.Spec

variable {T : Type} [DecidableEq T] {eps : T} {ps ps' : List (Production T)}

theorem isNonTerminal_congr (h : ∀ p, p ∈ ps ↔ p ∈ ps') (x : T) :
    IsNonTerminal ps x ↔ IsNonTerminal ps' x := by
  unfold IsNonTerminal
  simp only [h]

theorem isTerminal_congr (h : ∀ p, p ∈ ps ↔ p ∈ ps') (x : T) :
    IsTerminal ps x ↔ IsTerminal ps' x := by
  unfold IsTerminal
  rw [isNonTerminal_congr h]
  simp only [h]

theorem Derives.mono (h : ∀ p ∈ ps, p ∈ ps') {a b : List T} (hd : Derives eps ps a b) :
    Derives eps ps' a b := by
  induction hd with
  | refl => exact .refl _
  | step s _ ih =>
    obtain ⟨u, v, p, hp⟩ := s
    exact .step (.mk u v p (h p hp)) ih

theorem derives_congr (h : ∀ p, p ∈ ps ↔ p ∈ ps') (a b : List T) :
    Derives eps ps a b ↔ Derives eps ps' a b :=
  ⟨Derives.mono fun p => (h p).1, Derives.mono fun p => (h p).2⟩

theorem canStart_congr (h : ∀ p, p ∈ ps ↔ p ∈ ps') (x a : T) :
    CanStart eps ps x a ↔ CanStart eps ps' x a := by
  unfold CanStart
  rw [isTerminal_congr h]
  simp only [derives_congr h]

theorem nullable_congr (h : ∀ p, p ∈ ps ↔ p ∈ ps') (x : T) :
    Nullable eps ps x ↔ Nullable eps ps' x := derives_congr h _ _

theorem strNullable_congr (h : ∀ p, p ∈ ps ↔ p ∈ ps') (l : List T) :
    StrNullable eps ps l ↔ StrNullable eps ps' l := by
  unfold StrNullable
  simp only [nullable_congr h]

theorem strFirst_congr (h : ∀ p, p ∈ ps ↔ p ∈ ps') (l : List T) (a : T) :
    StrFirst eps ps l a ↔ StrFirst eps ps' l a := by
  unfold StrFirst
  simp only [strNullable_congr h, canStart_congr h]

theorem FollowRule.congr (h : ∀ p, p ∈ ps ↔ p ∈ ps') {x a : T} (hf : FollowRule eps ps x a) :
    FollowRule eps ps' x a := by
  induction hf with
  | first hp hr hx ht ha =>
    exact .first ((h _).1 hp) hr ((isNonTerminal_congr h _).1 hx) ht ((strFirst_congr h _ _).1 ha)
  | last hp hr hx ht _ ih =>
    exact .last ((h _).1 hp) hr ((isNonTerminal_congr h _).1 hx) ((strNullable_congr h _).1 ht) ih

theorem followRule_congr (h : ∀ p, p ∈ ps ↔ p ∈ ps') (x a : T) :
    FollowRule eps ps x a ↔ FollowRule eps ps' x a :=
  ⟨.congr h, .congr fun p => (h p).symm⟩

theorem lead_congr (h : ∀ p, p ∈ ps ↔ p ∈ ps') (p : Production T) (a : T) :
    Transitions.Lead eps ps p a ↔ Transitions.Lead eps ps' p a := by
  unfold Transitions.Lead
  simp only [followRule_congr h, canStart_congr h, nullable_congr h]

/-- The same productions in the same order for each symbol: the same members. -/
theorem mem_congr_of_filter (h : ∀ A, ps.filter (fun p => p.input = A) =
    ps'.filter (fun p => p.input = A)) (p : Production T) : p ∈ ps ↔ p ∈ ps' := by
  have : p ∈ ps.filter (fun q => q.input = p.input) ↔ p ∈ ps'.filter (fun q => q.input = p.input) := by
    rw [h]
  simpa using this

end Verif.Spec

namespace Verif.Parser

open Spec

variable {σ L T : Type} [DecidableEq T] {eps init : T} {ps : List (Production T)}

/-- Parsers that agree and have the same solver have the same outcomes. -/
theorem outcomes_of_agree {p p' : Parser σ L T} (P : ParserOf eps init ps p) (A : Agree p p')
    (hs : p.syntaxErrorSolver = p'.syntaxErrorSolver) (tokens : List (Token L T)) (s : σ) :
    (∀ r s', Parses p tokens s r s' ↔ Parses p' tokens s r s') ∧
    (ParsePanics p tokens s ↔ ParsePanics p' tokens s) ∧
    (ParseDiverges p tokens s ↔ ParseDiverges p' tokens s) := by
  obtain ⟨h1, h2, h3, h4⟩ := outcomes_of_sim (R := Eq) (s := s) (s' := s)
    (sim_of_fixSim P A (tokens := tokens) (by
      intro pos outs sg failed x _ _
      have : tryFixProductions p tokens pos sg (isChildSinglePath sg outs) failed =
          tryFixProductions p' tokens pos sg (isChildSinglePath sg outs) failed := by
        unfold tryFixProductions
        rw [hs]
      rw [this]
      intro s s' e
      subst e
      cases tryFixProductions p' tokens pos sg (isChildSinglePath sg outs) failed s with
      | ok a => exact ⟨a.2, rfl, rfl⟩
      | panic e => rfl
      | fuel => rfl)) rfl
  refine ⟨?_, h3, h4⟩
  intro r s'
  constructor
  · intro hr
    obtain ⟨s1, hr', rfl⟩ := h1 r s' hr
    exact hr'
  · intro hr
    obtain ⟨r', s1, hr', rfl, rfl⟩ := h2 r s' hr
    exact hr'

end Verif.Parser
