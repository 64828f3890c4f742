import Verif.Model.Parser
import Verif.Proof.Basic

/-! # More fuel does not change an outcome -/

set_option linter.unusedSectionVars false

namespace Verif

/-- `y` agrees with `x` wherever `x` has an outcome. -/
def M.Le {σ α : Type} (x y : M σ α) : Prop := ∀ s, x s = .fuel ∨ x s = y s

namespace M.Le

variable {σ α β : Type}

theorem refl (x : M σ α) : M.Le x x := fun _ => .inr rfl

theorem of_fuel (y : M σ α) : M.Le M.fuel y := fun _ => .inl rfl

theorem trans {x y z : M σ α} (h : M.Le x y) (h' : M.Le y z) : M.Le x z := fun s => by
  rcases h s with h | h
  · exact .inl h
  · rw [h]; exact h' s

theorem bind {x y : M σ α} {f g : α → M σ β} (h : M.Le x y) (hf : ∀ a, M.Le (f a) (g a)) :
    M.Le (x >>= f) (y >>= g) := by
  intro s
  rw [M.bind_apply, M.bind_apply]
  rcases h s with h | h
  · rw [h]; exact .inl rfl
  · rw [← h]
    rcases x s with ⟨a, s'⟩ | p | _
    · exact hf a s'
    · exact .inr rfl
    · exact .inl rfl

end M.Le

namespace Parser

variable {σ L T : Type} [DecidableEq T]

theorem parseProductionSymbol_le {rec rec' : Rec σ L T}
    (hrec : ∀ x pos outs sg, M.Le (rec x pos outs sg) (rec' x pos outs sg)) (p : Parser σ L T)
    (tokens : List (Token L T)) (x : T) (pos : Nat) (single : Bool) :
    M.Le (parseProductionSymbol p tokens rec x pos single)
      (parseProductionSymbol p tokens rec' x pos single) := by
  unfold parseProductionSymbol parseProductionNonTerminal
  split
  · split
    · exact .refl _
    · exact hrec _ _ _ _
  · exact .refl _

theorem popStates_le {rec rec' : Rec σ L T}
    (hrec : ∀ x pos outs sg, M.Le (rec x pos outs sg) (rec' x pos outs sg)) (single : Bool)
    (states acc : List (PState L T)) :
    M.Le (popStates rec single states acc) (popStates rec' single states acc) := by
  induction states generalizing acc with
  | nil => exact .refl _
  | cons s states ih =>
    cases s with
    | fixed s => exact ih _
    | parsing s =>
      unfold popStates
      cases s.prodIterOption with
      | none => exact ih _
      | some it =>
        refine .bind (hrec _ _ _ _) ?_
        intro r
        cases r with
        | ok s' => exact .refl _
        | err f => exact ih _
        | fix s' => exact ih _

theorem productionLoop_le {rec rec' : Rec σ L T}
    (hrec : ∀ x pos outs sg, M.Le (rec x pos outs sg) (rec' x pos outs sg)) (p : Parser σ L T)
    (tokens : List (Token L T)) (x : T) (output : List T) (single : Bool) {n m : Nat} (hnm : n ≤ m)
    (states : List (PState L T)) (pos : Nat) :
    M.Le (productionLoop p tokens rec x output single n states pos)
      (productionLoop p tokens rec' x output single m states pos) := by
  induction n generalizing m states pos with
  | zero => exact .of_fuel _
  | succ n ih =>
    obtain ⟨m, rfl⟩ : ∃ k, m = k + 1 := ⟨m - 1, by omega⟩
    have ih' := @ih m (by omega)
    unfold productionLoop
    split
    · split
      · exact .refl _
      · refine .bind (parseProductionSymbol_le hrec _ _ _ _ _) ?_
        intro r
        cases r with
        | ok s => exact ih' _ _
        | fix s => exact ih' _ _
        | err f =>
          refine .bind (popStates_le hrec _ _ _) ?_
          rintro ⟨st, o⟩
          cases o with
          | some parsed => exact .refl _
          | none =>
            cases st with
            | nil => exact .refl _
            | cons s rest => exact ih' _ _
    · exact .refl _

theorem tryParseProductionsLoop_le {rec rec' : Rec σ L T}
    (hrec : ∀ x pos outs sg, M.Le (rec x pos outs sg) (rec' x pos outs sg)) (p : Parser σ L T)
    (tokens : List (Token L T)) {n m : Nat} (hnm : n ≤ m) (x : T) (pos : Nat) (child : Bool)
    (outs : List (List T)) (failed : List (FailedProduction L T)) :
    M.Le (tryParseProductionsLoop p tokens rec n x pos child outs failed)
      (tryParseProductionsLoop p tokens rec' m x pos child outs failed) := by
  induction outs generalizing failed with
  | nil => exact .refl _
  | cons o outs ih =>
    unfold tryParseProductionsLoop
    refine .bind (productionLoop_le hrec _ _ _ _ _ hnm _ _) ?_
    rintro ⟨r, f⟩
    cases r with
    | ok node => exact .refl _
    | err f => exact ih _
    | fix fp => exact .refl _

theorem innerParse_le (p : Parser σ L T) (tokens : List (Token L T)) {n m : Nat} (hnm : n ≤ m)
    (x : T) (pos : Nat) (outs : List (List T)) (single : Bool) :
    M.Le (innerParse p tokens n x pos outs single) (innerParse p tokens m x pos outs single) := by
  induction n generalizing m x pos outs single with
  | zero => exact .of_fuel _
  | succ n ih =>
    obtain ⟨m, rfl⟩ : ∃ k, m = k + 1 := ⟨m - 1, by omega⟩
    unfold innerParse
    refine .bind (tryParseProductionsLoop_le (fun _ _ _ _ => ih (by omega) _ _ _ _) _ _ (by omega)
      _ _ _ _ _) ?_
    intro r
    exact .refl _

theorem parseFromTokens_le (p : Parser σ L T) (tokens : List (Token L T)) {n m : Nat} (hnm : n ≤ m) :
    M.Le (parseFromTokens p n tokens) (parseFromTokens p m tokens) := by
  unfold parseFromTokens
  split
  · exact .refl _
  · split
    · exact .refl _
    · exact .bind (innerParse_le p tokens hnm _ _ _ _) (fun _ => .refl _)

theorem parse_mono {p : Parser σ L T} {tokens : List (Token L T)} {n m : Nat} (hnm : n ≤ m) {s : σ}
    {r : Out (ParseResult L T × σ)} (e : parseFromTokens p n tokens s = r) (hr : r ≠ .fuel) :
    parseFromTokens p m tokens s = r := by
  rcases parseFromTokens_le p tokens hnm s with h | h
  · rw [e] at h; exact absurd h hr
  · rw [← h, e]

/-- A result at some fuel is the result of the run. -/
theorem parse_returns {p : Parser σ L T} {tokens : List (Token L T)} {n : Nat} {s : σ}
    {r : ParseResult L T × σ} (e : parseFromTokens p n tokens s = .ok r) :
    Returns (fun n => parseFromTokens p n tokens s) r :=
  ⟨n, fun _ hm => parse_mono hm e (by simp)⟩

theorem parse_panics {p : Parser σ L T} {tokens : List (Token L T)} {n : Nat} {s : σ}
    {e : Panic} (h : parseFromTokens p n tokens s = .panic e) :
    Panics (fun n => parseFromTokens p n tokens s) :=
  ⟨n, e, fun _ hm => parse_mono hm h (by simp)⟩

/-- A run has exactly one of the three kinds of outcome. -/
theorem parse_trichotomy (p : Parser σ L T) (tokens : List (Token L T)) (s : σ) :
    (∃ r, Returns (fun n => parseFromTokens p n tokens s) r) ∨
    Panics (fun n => parseFromTokens p n tokens s) ∨
    Diverges (fun n => parseFromTokens p n tokens s) := by
  by_cases h : Diverges (fun n => parseFromTokens p n tokens s)
  · exact .inr (.inr h)
  · unfold Diverges at h
    rw [Classical.not_forall] at h
    obtain ⟨n, hn⟩ := h
    cases e : parseFromTokens p n tokens s with
    | ok r => exact .inl ⟨r, parse_returns e⟩
    | panic q => exact .inr (.inl (parse_panics e))
    | fuel => exact absurd e hn

end Parser

end Verif
