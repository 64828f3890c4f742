import Verif.Proof.ParserSim
import Verif.Proof.Built

/-! # Using the simulation -/

set_option linter.unusedSectionVars false

namespace Verif.Parser

open Spec

variable {σ τ L L' T : Type} [DecidableEq T]

theorem agree_of_built {h h' : HashOrder T} {eps init : T} {ps : List (Production T)}
    {g g' : Grammar T} (hg : Grammar.new h eps init ps = .ok g)
    (hg' : Grammar.new h' eps init ps = .ok g') {solver : Option (Solver σ L T)}
    {solver' : Option (Solver τ L' T)} {p : Parser σ L T} {p' : Parser τ L' T}
    (hp : Built h g solver p) (hp' : Built h' g' solver' p') : Agree p p' := by
  have P := (tableParser_of_built hg hp).1
  have P' := (tableParser_of_built hg' hp').1
  obtain ⟨ff, hff, e⟩ := (built_iff hg).1 hp
  obtain ⟨ff', hff', e'⟩ := (built_iff hg').1 hp'
  refine ⟨?_, ?_, ?_, ?_⟩
  · rw [P.grammar.eps_eq, P'.grammar.eps_eq]
  · rw [P.grammar.init_eq, P'.grammar.init_eq]
  · intro x
    rw [Bool.eq_iff_iff, isNT_iff P.toParserOf, isNT_iff P'.toParserOf]
  · intro x a
    rw [getTokenProductions_eq, getTokenProductions_eq]
    unfold candidates
    rw [Props.C11_table_hash_independent h h' eps init ps g g' ff ff' _ _ hg hg' hff hff'
      (from_eq_ok e).2.2 (from_eq_ok e').2.2 x a]

/-- What a simulation of the runs says about the observable outcomes. -/
theorem outcomes_of_sim {T' : Type} [DecidableEq T'] {p : Parser σ L T} {p' : Parser τ L' T'}
    {tokens : List (Token L T)} {tokens' : List (Token L' T')}
    {φ : ParseResult L T → ParseResult L' T'} {R : σ → τ → Prop}
    (hsim : ∀ n, Sim R φ (parseFromTokens p n tokens) (parseFromTokens p' n tokens')) {s : σ} {s' : τ}
    (hR : R s s') :
    (∀ r s1, Parses p tokens s r s1 → ∃ s1', Parses p' tokens' s' (φ r) s1' ∧ R s1 s1') ∧
    (∀ r' s1', Parses p' tokens' s' r' s1' → ∃ r s1, Parses p tokens s r s1 ∧ r' = φ r ∧ R s1 s1') ∧
    (ParsePanics p tokens s ↔ ParsePanics p' tokens' s') ∧
    (ParseDiverges p tokens s ↔ ParseDiverges p' tokens' s') := by
  refine ⟨?_, ?_, ?_, ?_⟩
  · intro r s1 hr
    obtain ⟨n, hn⟩ := parses_at hr
    have := hsim n s s' hR
    rw [hn] at this
    obtain ⟨s1', h1, h2⟩ := this
    exact ⟨s1', parse_returns h1, h2⟩
  · intro r' s1' hr
    obtain ⟨n, hn⟩ := parses_at hr
    have := hsim n s s' hR
    cases e : parseFromTokens p n tokens s with
    | ok a =>
      obtain ⟨r, s1⟩ := a
      rw [e] at this
      obtain ⟨s2, h1, h2⟩ := this
      rw [hn] at h1
      simp only [Out.ok.injEq, Prod.mk.injEq] at h1
      obtain ⟨rfl, rfl⟩ := h1
      exact ⟨r, s1, parse_returns e, rfl, h2⟩
    | panic q => rw [e, hn] at this; simp at this
    | fuel => rw [e, hn] at this; simp at this
  · constructor
    · rintro ⟨n, e, he⟩
      have := hsim n s s' hR
      have he' := he n (Nat.le_refl _)
      simp only at he'
      rw [he'] at this
      exact parse_panics this
    · rintro ⟨n, e, he⟩
      have := hsim n s s' hR
      have he' := he n (Nat.le_refl _)
      simp only at he'
      cases e' : parseFromTokens p n tokens s with
      | ok a => rw [e', he'] at this; simp at this
      | panic q => exact parse_panics e'
      | fuel => rw [e', he'] at this; simp at this
  · constructor
    · intro hd n
      have := hsim n s s' hR
      have hd' := hd n
      simp only at hd'
      rw [hd'] at this
      exact this
    · intro hd n
      have := hsim n s s' hR
      have hd' := hd n
      simp only at hd'
      simp only
      cases e' : parseFromTokens p n tokens s with
      | ok a => rw [e', hd'] at this; simp at this
      | panic q => rw [e', hd'] at this; simp at this
      | fuel => rfl

/-- Runs of parsers over the same lexemes, with an invariant of the recursive calls. -/
theorem sim_of_fixSim_inv {eps init : T} {ps : List (Production T)} {p : Parser σ L T}
    {p' : Parser τ L T} (P : ParserOf eps init ps p) (A : Agree p p') {tokens : List (Token L T)}
    {R : σ → τ → Prop} (Q : T → Nat → Bool → Prop)
    (hQ : ∀ x pos outs sg, Q x pos sg → Pre p tokens x pos outs →
      ∀ o ∈ outs, ∀ y ∈ o, ∀ q, Q y q (isChildSinglePath sg outs)) (hT : Q init 0 true)
    (hfix : ∀ pos outs sg failed x, Q x pos sg → Pre p tokens x pos outs →
      FailedProdsOk eps ps p.syntaxErrorSolver.isSome p.getTokenProductions tokens outs failed →
      Sim R id (tryFixProductions p tokens pos sg (isChildSinglePath sg outs) failed)
        (tryFixProductions p' tokens pos sg (isChildSinglePath sg outs) failed)) (n : Nat) :
    Sim R id (parseFromTokens p n tokens) (parseFromTokens p' n tokens) := by
  have hid : (Option.map (mapFix (L := L) (T := T) some)) = id := by
    funext o
    cases o with
    | none => rfl
    | some r => simp [mapFix_id]
  have hrid : mapResult (L := L) (T := T) some = id := funext mapResult_id
  have h := parseFromTokens_sim (Q := Q) (f := some) (R := R) (tokens := tokens) P A
    hQ (by rw [P.grammar.init_eq]; exact hT) (by
      intro x pos outs sg failed hq _ hpre hf
      rw [map_mapToken_id, map_mapFailedProduction_id, hid]
      exact hfix pos outs sg failed x hq hpre hf) n
  rw [map_mapToken_id, hrid] at h
  exact h

/-- Runs of parsers over the same lexemes. -/
theorem sim_of_fixSim {eps init : T} {ps : List (Production T)} {p : Parser σ L T}
    {p' : Parser τ L T} (P : ParserOf eps init ps p) (A : Agree p p') {tokens : List (Token L T)}
    {R : σ → τ → Prop}
    (hfix : ∀ pos outs sg failed x, Pre p tokens x pos outs →
      FailedProdsOk eps ps p.syntaxErrorSolver.isSome p.getTokenProductions tokens outs failed →
      Sim R id (tryFixProductions p tokens pos sg (isChildSinglePath sg outs) failed)
        (tryFixProductions p' tokens pos sg (isChildSinglePath sg outs) failed)) (n : Nat) :
    Sim R id (parseFromTokens p n tokens) (parseFromTokens p' n tokens) :=
  sim_of_fixSim_inv P A (fun _ _ _ => True) (fun _ _ _ _ _ _ _ _ _ _ _ => trivial) trivial
    (fun pos outs sg failed x _ => hfix pos outs sg failed x) n

end Verif.Parser
