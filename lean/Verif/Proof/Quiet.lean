import Verif.Proof.LastResort

/-! # A run in which the solver returns no fix is a run without a solver -/

set_option linter.unusedSectionVars false

namespace Verif.Parser

open Spec

variable {σ τ L T : Type} [DecidableEq T]

/-- `x` counts events; if there are none it does what `y` does. -/
def Quiet {α : Type} (x : M (σ × Nat) α) (y : M τ α) : Prop :=
  ∀ s n a s' n' t, x (s, n) = .ok (a, (s', n')) → n ≤ n' ∧ (n' = n → y t = .ok (a, t))

namespace Quiet

variable {α β : Type}

theorem of_fuel (y : M τ α) : Quiet (M.fuel : M (σ × Nat) α) y := by
  intro s n a s' n' t h; simp at h

theorem pure (a : α) : Quiet (Pure.pure a : M (σ × Nat) α) (Pure.pure a : M τ α) := by
  intro s n b s' n' t h
  simp only [M.pure_apply, Out.ok.injEq, Prod.mk.injEq] at h
  obtain ⟨rfl, rfl, rfl⟩ := h
  exact ⟨Nat.le_refl _, fun _ => rfl⟩

theorem panic (e : Panic) (y : M τ α) : Quiet (M.panic e : M (σ × Nat) α) y := by
  intro s n a s' n' t h; simp at h

theorem bind {x : M (σ × Nat) α} {y : M τ α} {f : α → M (σ × Nat) β} {g : α → M τ β} (h : Quiet x y)
    (hf : ∀ a, Quiet (f a) (g a)) : Quiet (x >>= f) (y >>= g) := by
  intro s n b s' n' t e
  rw [M.bind_eq_ok] at e
  obtain ⟨a, ⟨s1, n1⟩, e1, e2⟩ := e
  obtain ⟨h1, h2⟩ := h _ _ _ _ _ t e1
  obtain ⟨h3, h4⟩ := hf a _ _ _ _ _ t e2
  refine ⟨by omega, fun hn => ?_⟩
  rw [M.bind_apply, h2 (by omega)]
  exact h4 (by omega)

theorem lift (o : Out α) : Quiet (Parser.lift o : M (σ × Nat) α) (Parser.lift o : M τ α) := by
  cases o with
  | ok a => exact .pure a
  | panic e => exact .panic e _
  | fuel => exact .of_fuel _

end Quiet

variable {p : Parser (σ × Nat) L T} {p' : Parser τ L T}

theorem parseProductionSymbol_quiet (A : Agree p p') {rec : Rec (σ × Nat) L T} {rec' : Rec τ L T}
    (hrec : ∀ x pos outs sg, Quiet (rec x pos outs sg) (rec' x pos outs sg))
    (tokens : List (Token L T)) (x : T) (pos : Nat) (single : Bool) :
    Quiet (parseProductionSymbol p tokens rec x pos single)
      (parseProductionSymbol p' tokens rec' x pos single) := by
  unfold parseProductionSymbol parseProductionNonTerminal
  rw [A.nt_eq]
  split
  · split
    · exact .panic _ _
    · rw [A.cand_eq]; exact hrec _ _ _ _
  · have : p'.parseTerminalSymbol x tokens pos = p.parseTerminalSymbol x tokens pos := by
      unfold parseTerminalSymbol
      rw [A.eps_eq]
    rw [this]
    exact .pure _

theorem popStates_quiet {rec : Rec (σ × Nat) L T} {rec' : Rec τ L T}
    (hrec : ∀ x pos outs sg, Quiet (rec x pos outs sg) (rec' x pos outs sg)) (single : Bool)
    (states acc : List (PState L T)) :
    Quiet (popStates rec single states acc) (popStates rec' single states acc) := by
  induction states generalizing acc with
  | nil => exact .pure _
  | cons s states ih =>
    cases s with
    | fixed s => exact ih _
    | parsing s =>
      unfold popStates
      cases s.prodIterOption with
      | none => exact ih _
      | some it =>
        refine .bind (hrec _ _ _ _) ?_
        intro r
        cases r with
        | ok s' => exact .pure _
        | err f => exact ih _
        | fix s' => exact ih _

theorem productionLoop_quiet (A : Agree p p') {rec : Rec (σ × Nat) L T} {rec' : Rec τ L T}
    (hrec : ∀ x pos outs sg, Quiet (rec x pos outs sg) (rec' x pos outs sg))
    (tokens : List (Token L T)) (x : T) (output : List T) (single : Bool) (n : Nat)
    (states : List (PState L T)) (pos : Nat) :
    Quiet (productionLoop p tokens rec x output single n states pos)
      (productionLoop p' tokens rec' x output single n states pos) := by
  induction n generalizing states pos with
  | zero => exact .of_fuel _
  | succ n ih =>
    unfold productionLoop
    split
    · split
      · exact .panic _ _
      · refine .bind (parseProductionSymbol_quiet A hrec _ _ _ _) ?_
        intro r
        cases r with
        | ok s => exact ih _ _
        | fix s => exact ih _ _
        | err f =>
          refine .bind (popStates_quiet hrec _ _ _) ?_
          rintro ⟨st, o⟩
          cases o with
          | some parsed => exact .pure _
          | none =>
            cases st with
            | nil => exact .panic _ _
            | cons s rest => exact ih _ _
    · exact .bind (.lift _) (fun _ => .pure _)

theorem tryParseProductionsLoop_quiet (A : Agree p p') {rec : Rec (σ × Nat) L T} {rec' : Rec τ L T}
    (hrec : ∀ x pos outs sg, Quiet (rec x pos outs sg) (rec' x pos outs sg))
    (tokens : List (Token L T)) (n : Nat) (x : T) (pos : Nat) (child : Bool)
    (outs : List (List T)) (failed : List (FailedProduction L T)) :
    Quiet (tryParseProductionsLoop p tokens rec n x pos child outs failed)
      (tryParseProductionsLoop p' tokens rec' n x pos child outs failed) := by
  induction outs generalizing failed with
  | nil => exact .pure _
  | cons o outs ih =>
    unfold tryParseProductionsLoop
    refine .bind (productionLoop_quiet A hrec _ _ _ _ _ _ _) ?_
    rintro ⟨r, f⟩
    cases r with
    | ok node => exact .pure _
    | err f => exact ih _
    | fix fp => exact .pure _

/-- The counter counts the fixes. -/
def CountsFixes (sv : Solver (σ × Nat) L T) : Prop :=
  (∀ tokens pos f s n r s' n', sv.fixFailedProduction tokens pos f (s, n) = .ok (r, (s', n')) →
    n ≤ n' ∧ (n' = n → r = none)) ∧
  (∀ tokens pos fs s n r s' n', sv.fixFailedProductions tokens pos fs (s, n) = .ok (r, (s', n')) →
    n ≤ n' ∧ (n' = n → r = none))

theorem tryFixProductions_quiet {sv : Solver (σ × Nat) L T} (hs : p.syntaxErrorSolver = some sv)
    (hc : CountsFixes sv) (hs' : p'.syntaxErrorSolver = none) (tokens : List (Token L T)) (pos : Nat)
    (sg ch : Bool) (failed : List (FailedProduction L T)) :
    Quiet (tryFixProductions p tokens pos sg ch failed) (tryFixProductions p' tokens pos sg ch failed) := by
  unfold tryFixProductions
  rw [hs, hs']
  simp only
  split
  · split
    · cases failed[0]? with
      | none => exact .panic _ _
      | some f =>
        intro s n a s' n' t e
        obtain ⟨h1, h2⟩ := hc.1 _ _ _ _ _ _ _ _ e
        exact ⟨h1, fun h => by rw [h2 h]; rfl⟩
    · intro s n a s' n' t e
      obtain ⟨h1, h2⟩ := hc.2 _ _ _ _ _ _ _ _ e
      exact ⟨h1, fun h => by rw [h2 h]; rfl⟩
  · exact .pure _

theorem innerParse_quiet (A : Agree p p') {sv : Solver (σ × Nat) L T}
    (hs : p.syntaxErrorSolver = some sv) (hc : CountsFixes sv) (hs' : p'.syntaxErrorSolver = none)
    (tokens : List (Token L T)) (n : Nat) (x : T) (pos : Nat) (outs : List (List T)) (sg : Bool) :
    Quiet (innerParse p tokens n x pos outs sg) (innerParse p' tokens n x pos outs sg) := by
  induction n generalizing x pos outs sg with
  | zero => exact .of_fuel _
  | succ n ih =>
    unfold innerParse
    refine .bind (tryParseProductionsLoop_quiet A ih _ _ _ _ _ _ _) ?_
    intro r
    cases r with
    | ok r => exact .pure _
    | error failed => exact .bind (tryFixProductions_quiet hs hc hs' _ _ _ _ _) (fun _ => .pure _)

theorem parseFromTokens_quiet (A : Agree p p') {sv : Solver (σ × Nat) L T}
    (hs : p.syntaxErrorSolver = some sv) (hc : CountsFixes sv) (hs' : p'.syntaxErrorSolver = none)
    (tokens : List (Token L T)) (n : Nat) :
    Quiet (parseFromTokens p n tokens) (parseFromTokens p' n tokens) := by
  unfold parseFromTokens
  split
  · exact .panic _ _
  · cases tokens[0]? with
    | none => exact .panic _ _
    | some t =>
      simp only
      rw [A.cand_eq, A.init_eq]
      exact .bind (innerParse_quiet A hs hc hs' _ _ _ _ _ _) (fun _ => .pure _)

end Verif.Parser
