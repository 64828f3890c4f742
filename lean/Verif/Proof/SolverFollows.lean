import Verif.Proof.LastResort

/-! # Replacing a solver by one that answers alike during one parse -/

set_option linter.unusedSectionVars false

namespace Verif.Parser

open Spec

variable {σ τ L T : Type} [DecidableEq T]

/-- If `x` ends in a good state, it began in one, and `y` does what `x` does. -/
def Follows {α : Type} (Good : σ → Prop) (R : σ → τ → Prop) (x : M σ α) (y : M τ α) : Prop :=
  ∀ s a s', x s = .ok (a, s') → Good s' → Good s ∧ ∀ t, R s t → ∃ t', y t = .ok (a, t') ∧ R s' t'

variable {Good : σ → Prop} {R : σ → τ → Prop}

namespace Follows

variable {α β : Type}

theorem of_fuel (y : M τ α) : Follows Good R (M.fuel : M σ α) y := by
  intro s a s' h; simp at h

theorem pure (a : α) : Follows Good R (Pure.pure a : M σ α) (Pure.pure a : M τ α) := by
  intro s b s' h hg
  simp only [M.pure_apply, Out.ok.injEq, Prod.mk.injEq] at h
  obtain ⟨rfl, rfl⟩ := h
  exact ⟨hg, fun t ht => ⟨t, rfl, ht⟩⟩

theorem panic (e : Panic) (y : M τ α) : Follows Good R (M.panic e : M σ α) y := by
  intro s a s' h; simp at h

theorem bind {x : M σ α} {y : M τ α} {f : α → M σ β} {g : α → M τ β} (h : Follows Good R x y)
    (hf : ∀ a, Follows Good R (f a) (g a)) : Follows Good R (x >>= f) (y >>= g) := by
  intro s b s' e hg
  rw [M.bind_eq_ok] at e
  obtain ⟨a, s1, e1, e2⟩ := e
  obtain ⟨h3, h4⟩ := hf a _ _ _ e2 hg
  obtain ⟨h1, h2⟩ := h _ _ _ e1 h3
  refine ⟨h1, fun t ht => ?_⟩
  obtain ⟨t1, e3, ht1⟩ := h2 t ht
  rw [M.bind_apply, e3]
  exact h4 t1 ht1

theorem lift (o : Out α) : Follows Good R (Parser.lift o : M σ α) (Parser.lift o : M τ α) := by
  cases o with
  | ok a => exact .pure a
  | panic e => exact .panic e _
  | fuel => exact .of_fuel _

end Follows

variable {p : Parser σ L T} {p' : Parser τ L T}

theorem parseProductionSymbol_follows (A : Agree p p') {rec : Rec σ L T} {rec' : Rec τ L T}
    (hrec : ∀ x pos outs sg, Follows Good R (rec x pos outs sg) (rec' x pos outs sg))
    (tokens : List (Token L T)) (x : T) (pos : Nat) (single : Bool) :
    Follows Good R (parseProductionSymbol p tokens rec x pos single)
      (parseProductionSymbol p' tokens rec' x pos single) := by
  unfold parseProductionSymbol parseProductionNonTerminal
  rw [A.nt_eq]
  split
  · split
    · exact .panic _ _
    · rw [A.cand_eq]; exact hrec _ _ _ _
  · have : p'.parseTerminalSymbol x tokens pos = p.parseTerminalSymbol x tokens pos := by
      unfold parseTerminalSymbol
      rw [A.eps_eq]
    rw [this]
    exact .pure _

theorem popStates_follows {rec : Rec σ L T} {rec' : Rec τ L T}
    (hrec : ∀ x pos outs sg, Follows Good R (rec x pos outs sg) (rec' x pos outs sg)) (single : Bool)
    (states acc : List (PState L T)) :
    Follows Good R (popStates rec single states acc) (popStates rec' single states acc) := by
  induction states generalizing acc with
  | nil => exact .pure _
  | cons s states ih =>
    cases s with
    | fixed s => exact ih _
    | parsing s =>
      unfold popStates
      cases s.prodIterOption with
      | none => exact ih _
      | some it =>
        refine .bind (hrec _ _ _ _) ?_
        intro r
        cases r with
        | ok s' => exact .pure _
        | err f => exact ih _
        | fix s' => exact ih _

theorem productionLoop_follows (A : Agree p p') {rec : Rec σ L T} {rec' : Rec τ L T}
    (hrec : ∀ x pos outs sg, Follows Good R (rec x pos outs sg) (rec' x pos outs sg))
    (tokens : List (Token L T)) (x : T) (output : List T) (single : Bool) (n : Nat)
    (states : List (PState L T)) (pos : Nat) :
    Follows Good R (productionLoop p tokens rec x output single n states pos)
      (productionLoop p' tokens rec' x output single n states pos) := by
  induction n generalizing states pos with
  | zero => exact .of_fuel _
  | succ n ih =>
    unfold productionLoop
    split
    · split
      · exact .panic _ _
      · refine .bind (parseProductionSymbol_follows A hrec _ _ _ _) ?_
        intro r
        cases r with
        | ok s => exact ih _ _
        | fix s => exact ih _ _
        | err f =>
          refine .bind (popStates_follows hrec _ _ _) ?_
          rintro ⟨st, o⟩
          cases o with
          | some parsed => exact .pure _
          | none =>
            cases st with
            | nil => exact .panic _ _
            | cons s rest => exact ih _ _
    · exact .bind (.lift _) (fun _ => .pure _)

theorem tryParseProductionsLoop_follows (A : Agree p p') {rec : Rec σ L T} {rec' : Rec τ L T}
    (hrec : ∀ x pos outs sg, Follows Good R (rec x pos outs sg) (rec' x pos outs sg))
    (tokens : List (Token L T)) (n : Nat) (x : T) (pos : Nat) (child : Bool)
    (outs : List (List T)) (failed : List (FailedProduction L T)) :
    Follows Good R (tryParseProductionsLoop p tokens rec n x pos child outs failed)
      (tryParseProductionsLoop p' tokens rec' n x pos child outs failed) := by
  induction outs generalizing failed with
  | nil => exact .pure _
  | cons o outs ih =>
    unfold tryParseProductionsLoop
    refine .bind (productionLoop_follows A hrec _ _ _ _ _ _ _) ?_
    rintro ⟨r, f⟩
    cases r with
    | ok node => exact .pure _
    | err f => exact ih _
    | fix fp => exact .pure _

/-- The solver `sv'` answers as `sv` does in every call that ends in a good state of `sv`. -/
structure SolverFollows (Good : σ → Prop) (R : σ → τ → Prop) (sv : Solver σ L T) (sv' : Solver τ L T) : Prop where
  one : ∀ tokens pos f, Follows Good R (sv.fixFailedProduction tokens pos f) (sv'.fixFailedProduction tokens pos f)
  many : ∀ tokens pos fs,
    Follows Good R (sv.fixFailedProductions tokens pos fs) (sv'.fixFailedProductions tokens pos fs)

theorem tryFixProductions_follows {sv : Solver σ L T} {sv' : Solver τ L T} (hs : p.syntaxErrorSolver = some sv)
    (hs' : p'.syntaxErrorSolver = some sv') (hc : SolverFollows Good R sv sv') (tokens : List (Token L T))
    (pos : Nat) (sg ch : Bool) (failed : List (FailedProduction L T)) :
    Follows Good R (tryFixProductions p tokens pos sg ch failed)
      (tryFixProductions p' tokens pos sg ch failed) := by
  unfold tryFixProductions
  rw [hs, hs']
  simp only
  split
  · split
    · cases failed[0]? with
      | none => exact .panic _ _
      | some f => exact hc.one _ _ _
    · exact hc.many _ _ _
  · exact .pure _

theorem innerParse_follows (A : Agree p p') {sv : Solver σ L T} {sv' : Solver τ L T}
    (hs : p.syntaxErrorSolver = some sv) (hs' : p'.syntaxErrorSolver = some sv')
    (hc : SolverFollows Good R sv sv')
    (tokens : List (Token L T)) (n : Nat) (x : T) (pos : Nat) (outs : List (List T)) (sg : Bool) :
    Follows Good R (innerParse p tokens n x pos outs sg) (innerParse p' tokens n x pos outs sg) := by
  induction n generalizing x pos outs sg with
  | zero => exact .of_fuel _
  | succ n ih =>
    unfold innerParse
    refine .bind (tryParseProductionsLoop_follows A ih _ _ _ _ _ _ _) ?_
    intro r
    cases r with
    | ok r => exact .pure _
    | error failed => exact .bind (tryFixProductions_follows hs hs' hc _ _ _ _ _) (fun _ => .pure _)

theorem parseFromTokens_follows (A : Agree p p') {sv : Solver σ L T} {sv' : Solver τ L T}
    (hs : p.syntaxErrorSolver = some sv) (hs' : p'.syntaxErrorSolver = some sv')
    (hc : SolverFollows Good R sv sv') (tokens : List (Token L T)) (n : Nat) :
    Follows Good R (parseFromTokens p n tokens) (parseFromTokens p' n tokens) := by
  unfold parseFromTokens
  split
  · exact .panic _ _
  · cases tokens[0]? with
    | none => exact .panic _ _
    | some t =>
      simp only
      rw [A.cand_eq, A.init_eq]
      exact .bind (innerParse_follows A hs hs' hc _ _ _ _ _ _) (fun _ => .pure _)

end Verif.Parser
