import Verif.Proof.Depth
import Mathlib.Tactic.Ring

/-! # An exponential bound on the number of calls, with any solver -/

set_option linter.unusedSectionVars false

namespace Verif.Parser

open Spec

variable {σ L T : Type} [DecidableEq T] {eps init : T} {ps : List (Production T)}
  {p : Parser σ L T} {tokens : List (Token L T)}

/-- With `B` calls to spare `x` does what `y` does, and uses at most `B` of them; the results satisfy `P`. -/
def Cnt {α : Type} (B : Nat) (P : α → Prop) (x : M (σ × Nat) α) (y : M σ α) : Prop :=
  ∀ s c, B ≤ c → y s = .fuel ∨
    (∃ a s' c', y s = .ok (a, s') ∧ x (s, c) = .ok (a, s', c') ∧ c ≤ c' + B ∧ P a) ∨
    ∃ e, y s = .panic e ∧ x (s, c) = .panic e

namespace Cnt

variable {α β : Type} {B B' : Nat} {P : α → Prop} {Q : β → Prop}

theorem of_fuel (x : M (σ × Nat) α) : Cnt B P x M.fuel := fun _ _ _ => .inl rfl

theorem pure {a : α} (h : P a) : Cnt 0 P (Pure.pure a : M (σ × Nat) α) (Pure.pure a) :=
  fun s c _ => .inr (.inl ⟨a, s, c, rfl, rfl, by omega, h⟩)

theorem panic (e : Panic) : Cnt 0 P (M.panic e : M (σ × Nat) α) (M.panic e) :=
  fun _ _ _ => .inr (.inr ⟨e, rfl, rfl⟩)

theorem mono {x : M (σ × Nat) α} {y : M σ α} (h : Cnt B P x y) (hB : B ≤ B') : Cnt B' P x y := by
  intro s c hc
  rcases h s c (by omega) with h | ⟨a, s', c', h1, h2, h3, h4⟩ | h
  · exact .inl h
  · exact .inr (.inl ⟨a, s', c', h1, h2, by omega, h4⟩)
  · exact .inr (.inr h)

theorem bind {x : M (σ × Nat) α} {y : M σ α} {f : α → M (σ × Nat) β} {g : α → M σ β}
    (h : Cnt B P x y) (hf : ∀ a, P a → Cnt B' Q (f a) (g a)) : Cnt (B + B') Q (x >>= f) (y >>= g) := by
  intro s c hc
  rw [M.bind_apply, M.bind_apply]
  rcases h s c (by omega) with h | ⟨a, s', c', h1, h2, h3, h4⟩ | ⟨e, h1, h2⟩
  · rw [h]; exact .inl rfl
  · rw [h1, h2]
    simp only
    rcases hf a h4 s' c' (by omega) with h | ⟨b, s2, c2, k1, k2, k3, k4⟩ | h
    · exact .inl h
    · exact .inr (.inl ⟨b, s2, c2, k1, k2, by omega, k4⟩)
    · exact .inr (.inr h)
  · rw [h1, h2]; exact .inr (.inr ⟨e, rfl, rfl⟩)

theorem lift (o : Out α) (h : ∀ a, o = .ok a → P a) :
    Cnt 0 P (Parser.lift o : M (σ × Nat) α) (Parser.lift o) := by
  intro s c _
  unfold Parser.lift
  cases o with
  | ok a => exact .inr (.inl ⟨a, s, c, rfl, rfl, by omega, h a rfl⟩)
  | panic e => exact .inr (.inr ⟨e, rfl, rfl⟩)
  | fuel => exact .inl rfl

end Cnt

/-- At most `R` outputs, of at most `m` symbols. -/
def Small (R m : Nat) (outs : List (List T)) : Prop := outs.length ≤ R ∧ ∀ o ∈ outs, o.length ≤ m

/-- What is left to try is small. -/
def SmallState (R m : Nat) : PState L T → Prop
  | .parsing s => ∀ it, s.prodIterOption = some it → Small R m it
  | .fixed _ => True

def SmallResult (R m : Nat) : ParseSymbolResult L T → Prop
  | .ok s => SmallState R m (.parsing s)
  | _ => True

/-- The nested calls cost at most `B`. -/
def CntRec (R m B : Nat) (rec : Rec (σ × Nat) L T) (rec' : Rec σ L T) : Prop :=
  ∀ x pos outs sg, Small R m outs → Cnt B (SmallResult R m) (rec x pos outs sg) (rec' x pos outs sg)

variable {R m B : Nat} {rec : Rec (σ × Nat) L T} {rec' : Rec σ L T}

theorem parseProductionSymbol_cnt (hcand : ∀ x a, Small R m (p.getTokenProductions x a))
    (hrec : CntRec R m B rec rec') (x : T) (pos : Nat) (single : Bool) :
    Cnt B (SmallResult R m) (parseProductionSymbol p.counted tokens rec x pos single)
      (parseProductionSymbol p tokens rec' x pos single) := by
  unfold parseProductionSymbol parseProductionNonTerminal
  show Cnt B _ (if p.grammar.isNonTerminal x then _ else _) _
  split
  · cases tokens[pos]? with
    | none => exact (Cnt.panic _).mono (Nat.zero_le _)
    | some t => exact hrec _ _ _ _ (hcand _ _)
  · refine (Cnt.pure ?_).mono (Nat.zero_le _)
    unfold parseTerminalSymbol parseNonEpsilonTerminalSymbol buildTokenFailedSymbol
    show SmallResult R m (if p.grammar.epsilonSymbol = x then _ else _)
    split
    · intro it h; cases h
    · cases tokens[pos]? with
      | none => trivial
      | some t =>
        simp only
        split
        · intro it h; cases h
        · trivial

theorem popStates_cnt (hrec : CntRec R m B rec rec') (single : Bool) (states acc : List (PState L T))
    (hst : ∀ s ∈ states, SmallState R m s) :
    Cnt (states.length * B) (fun r => r.1.length ≤ states.length ∧ ∀ s ∈ r.1, SmallState R m s)
      (popStates rec single states acc) (popStates rec' single states acc) := by
  induction states generalizing acc with
  | nil => exact (Cnt.pure ⟨Nat.le_refl _, by simp⟩).mono (Nat.zero_le _)
  | cons s states ih =>
    have ih' := fun acc => ih acc (fun s hs => hst s (List.mem_cons_of_mem _ hs))
    have weak : ∀ {x : M (σ × Nat) (List (PState L T) × Option (List (PState L T)))} {y},
        Cnt (states.length * B) (fun r => r.1.length ≤ states.length ∧ ∀ s ∈ r.1, SmallState R m s) x y →
        Cnt (states.length * B)
          (fun r => r.1.length ≤ (s :: states).length ∧ ∀ s ∈ r.1, SmallState R m s) x y := by
      intro x y h a c hc
      rcases h a c hc with h | ⟨a, s', c', h1, h2, h3, h4, h5⟩ | h
      · exact .inl h
      · exact .inr (.inl ⟨a, s', c', h1, h2, h3, by simp only [List.length_cons]; omega, h5⟩)
      · exact .inr (.inr h)
    have hle : states.length * B ≤ (s :: states).length * B :=
      Nat.mul_le_mul_right _ (by simp)
    cases s with
    | fixed s => exact (weak (ih' _)).mono hle
    | parsing s =>
      unfold popStates
      cases hit : s.prodIterOption with
      | none => exact (weak (ih' _)).mono hle
      | some it =>
        have hsm : Small R m it := hst (.parsing s) List.mem_cons_self it hit
        have e : (PState.parsing s :: states).length * B = B + states.length * B := by
          simp only [List.length_cons]; ring
        rw [e]
        refine Cnt.bind (hrec _ _ _ _ hsm) ?_
        intro r hr
        cases r with
        | ok s' =>
          refine (Cnt.pure ⟨by simp, ?_⟩).mono (Nat.zero_le _)
          intro s1 hs1
          rcases List.mem_cons.1 hs1 with rfl | hs1
          · exact hr
          · exact hst _ (List.mem_cons_of_mem _ hs1)
        | err f => exact weak (ih' _)
        | fix s' => exact weak (ih' _)

theorem productionLoop_cnt (hcand : ∀ x a, Small R m (p.getTokenProductions x a))
    (hrec : CntRec R m B rec rec') (x : T) {output : List T} (hout : output.length ≤ m) (single : Bool)
    (n : Nat) (states : List (PState L T)) (pos : Nat) (hst : ∀ s ∈ states, SmallState R m s) :
    Cnt (n * ((m + 1) * B)) (fun _ => True)
      (productionLoop p.counted tokens rec x output single n states pos)
      (productionLoop p tokens rec' x output single n states pos) := by
  induction n generalizing states pos with
  | zero => exact .of_fuel _
  | succ n ih =>
    unfold productionLoop
    split
    · rename_i hlt
      cases output[states.length]? with
      | none => exact (Cnt.panic _).mono (Nat.zero_le _)
      | some y =>
        have e : (n + 1) * ((m + 1) * B) = B + (m * B + n * ((m + 1) * B)) := by ring
        rw [e]
        refine Cnt.bind (parseProductionSymbol_cnt hcand hrec _ _ _) ?_
        intro r hr
        cases r with
        | ok s =>
          refine (ih _ _ ?_).mono (by omega)
          intro s1 hs1
          rcases List.mem_cons.1 hs1 with rfl | hs1
          · exact hr
          · exact hst _ hs1
        | fix s =>
          refine (ih _ _ ?_).mono (by omega)
          intro s1 hs1
          rcases List.mem_cons.1 hs1 with rfl | hs1
          · trivial
          · exact hst _ hs1
        | err f =>
          refine Cnt.bind ((popStates_cnt hrec single states [] hst).mono
            (Nat.mul_le_mul_right _ (by omega))) ?_
          rintro ⟨st, o⟩ ⟨h1, h2⟩
          cases o with
          | some parsed => exact (Cnt.pure trivial).mono (Nat.zero_le _)
          | none =>
            cases st with
            | nil => exact (Cnt.panic _).mono (Nat.zero_le _)
            | cons s rest => exact ih _ _ h2
    · exact (Cnt.bind (Cnt.lift (P := fun _ => True) _ (fun _ _ => trivial))
        (fun _ _ => Cnt.pure trivial)).mono (Nat.zero_le _)

theorem tryParseProductionsLoop_cnt (hcand : ∀ x a, Small R m (p.getTokenProductions x a))
    (hrec : CntRec R m B rec rec') (n : Nat) (x : T) (pos : Nat) (child : Bool)
    (outs : List (List T)) (failed : List (FailedProduction L T)) (houts : Small R m outs) :
    Cnt (outs.length * (n * ((m + 1) * B)))
      (fun r => ∀ r', r = .ok r' → SmallResult R m r')
      (tryParseProductionsLoop p.counted tokens rec n x pos child outs failed)
      (tryParseProductionsLoop p tokens rec' n x pos child outs failed) := by
  induction outs generalizing failed with
  | nil => exact (Cnt.pure (by simp)).mono (Nat.zero_le _)
  | cons o outs ih =>
    have houts' : Small R m outs :=
      ⟨by have := houts.1; simp only [List.length_cons] at this; omega,
        fun o ho => houts.2 o (List.mem_cons_of_mem _ ho)⟩
    unfold tryParseProductionsLoop
    have e : (o :: outs).length * (n * ((m + 1) * B)) =
        n * ((m + 1) * B) + outs.length * (n * ((m + 1) * B)) := by
      simp only [List.length_cons]; ring
    rw [e]
    refine Cnt.bind (productionLoop_cnt hcand hrec x (houts.2 o List.mem_cons_self) child n [] pos
      (by simp)) ?_
    rintro ⟨r, f⟩ _
    cases r with
    | ok node =>
      refine (Cnt.pure ?_).mono (Nat.zero_le _)
      intro r' h
      simp only [Except.ok.injEq] at h
      subst h
      intro it h
      simp only [Option.some.injEq] at h
      subst h
      exact houts'
    | err f => exact ih _ houts'
    | fix fp =>
      refine (Cnt.pure ?_).mono (Nat.zero_le _)
      intro r' h
      simp only [Except.ok.injEq] at h
      subst h
      trivial

theorem tryFix_cnt (p : Parser σ L T) (pos : Nat) (single child : Bool)
    (failed : List (FailedProduction L T)) :
    Cnt 0 (fun _ => True) (tryFixProductions p.counted tokens pos single child failed)
      (tryFixProductions p tokens pos single child failed) := by
  intro s c _
  unfold tryFixProductions counted
  cases p.syntaxErrorSolver with
  | none => exact .inr (.inl ⟨none, s, c, rfl, rfl, by omega, trivial⟩)
  | some sv =>
    simp only [Option.map_some]
    split
    · split
      · cases failed[0]? with
        | none => exact .inr (.inr ⟨_, rfl, rfl⟩)
        | some f =>
          simp only [Solver.counted]
          cases h : sv.fixFailedProduction tokens pos f s with
          | ok a => exact .inr (.inl ⟨a.1, a.2, c, rfl, rfl, by omega, trivial⟩)
          | panic e => exact .inr (.inr ⟨e, rfl, rfl⟩)
          | fuel => exact .inl rfl
      · simp only [Solver.counted]
        cases h : sv.fixFailedProductions tokens pos failed s with
        | ok a => exact .inr (.inl ⟨a.1, a.2, c, rfl, rfl, by omega, trivial⟩)
        | panic e => exact .inr (.inr ⟨e, rfl, rfl⟩)
        | fuel => exact .inl rfl
    · exact .inr (.inl ⟨none, s, c, rfl, rfl, by omega, trivial⟩)

/-- The number of calls within `d` nested ones. -/
def budget (A : Nat) : Nat → Nat
  | 0 => 0
  | d + 1 => 1 + A * budget A d

theorem budget_le (A d : Nat) : budget A d ≤ (A + 1) ^ d := by
  induction d with
  | zero => simp [budget]
  | succ d ih =>
    have h1 : A * budget A d ≤ A * (A + 1) ^ d := Nat.mul_le_mul_left _ ih
    have h2 : (A + 1) ^ (d + 1) = A * (A + 1) ^ d + (A + 1) ^ d := by ring
    have h3 : 1 ≤ (A + 1) ^ d := Nat.one_le_pow _ _ (by omega)
    rw [budget, h2]
    omega

theorem innerParseBudget_cnt (hcand : ∀ x a, Small R m (p.getTokenProductions x a)) (loop depth : Nat) :
    CntRec R m (budget (R * (loop * (m + 1))) depth) (innerParseBudget p tokens loop depth)
      (innerParseWithin p tokens loop depth) := by
  induction depth with
  | zero => exact fun _ _ _ _ _ => .of_fuel _
  | succ d ih =>
    intro x pos outs sg hsm s c hc
    unfold innerParseBudget innerParseWithin
    rw [budget] at hc ⊢
    obtain ⟨c, rfl⟩ : ∃ k, c = k + 1 := ⟨c - 1, by omega⟩
    have h1 := Cnt.bind (tryParseProductionsLoop_cnt (tokens := tokens) hcand ih loop x pos
      (isChildSinglePath sg outs) outs [] hsm)
      (B' := 0) (Q := SmallResult R m)
      (f := fun r => match r with
        | .ok r => pure r
        | .error failed => tryFixProductions p.counted tokens pos sg (isChildSinglePath sg outs) failed >>=
            fun fix => pure (fixOptionToResult failed fix x))
      (g := fun r => match r with
        | .ok r => pure r
        | .error failed => tryFixProductions p tokens pos sg (isChildSinglePath sg outs) failed >>=
            fun fix => pure (fixOptionToResult failed fix x)) (by
        intro r hr
        cases r with
        | ok r => exact .pure (hr r rfl)
        | error failed =>
          refine Cnt.bind (B := 0) (B' := 0) (tryFix_cnt p pos sg _ failed) ?_
          intro fix _
          refine Cnt.pure ?_
          cases fix <;> trivial)
    have hle : outs.length * (loop * ((m + 1) * budget (R * (loop * (m + 1))) d)) ≤
        R * (loop * (m + 1)) * budget (R * (loop * (m + 1))) d := by
      have := Nat.mul_le_mul_right (loop * ((m + 1) * budget (R * (loop * (m + 1))) d)) hsm.1
      refine Nat.le_trans this (Nat.le_of_eq ?_)
      ring
    rcases (h1.mono (B' := R * (loop * (m + 1)) * budget (R * (loop * (m + 1))) d) (by omega)) s c (by omega)
      with h | ⟨a, s', c', h1, h2, h3, h4⟩ | h
    · exact .inl h
    · exact .inr (.inl ⟨a, s', c', h1, h2, by omega, h4⟩)
    · exact .inr (.inr h)

/-! ## Larger bounds -/

theorem innerParseBudget_le (p : Parser σ L T) (tokens : List (Token L T)) {loop loop' : Nat}
    (hl : loop ≤ loop') {depth depth' : Nat} (hd : depth ≤ depth') (x : T)
    (pos : Nat) (outs : List (List T)) (sg : Bool) :
    M.Le (innerParseBudget p tokens loop depth x pos outs sg)
      (innerParseBudget p tokens loop' depth' x pos outs sg) := by
  induction depth generalizing depth' x pos outs sg with
  | zero => exact .of_fuel _
  | succ d ih =>
    obtain ⟨d', rfl⟩ : ∃ k, depth' = k + 1 := ⟨depth' - 1, by omega⟩
    intro s
    unfold innerParseBudget
    split
    · exact .inl rfl
    · exact M.Le.bind (tryParseProductionsLoop_le (fun _ _ _ _ => ih (by omega) _ _ _ _) _ _ hl
        _ _ _ _ _) (fun r => .refl _) _

/-- With enough calls the parser that counts them does what the parser within bounds does. -/
theorem parseBudget_spec (hcand : ∀ x a, Small R m (p.getTokenProductions x a)) {depth loop calls loop' : Nat}
    (hl : loop ≤ loop') (hd : depth ≤ calls) (hc : budget (R * (loop * (m + 1))) depth ≤ calls) (s : σ)
    (hne : p.parseFromTokensWithin depth loop tokens s ≠ .fuel) :
    (∃ r s' left, p.parseFromTokensWithin depth loop tokens s = .ok (r, s') ∧
      p.parseFromTokensBudget calls loop' tokens s = .ok (r, s', left)) ∨
    ∃ e, p.parseFromTokensWithin depth loop tokens s = .panic e ∧
      p.parseFromTokensBudget calls loop' tokens s = .panic e := by
  unfold parseFromTokensWithin at hne ⊢
  unfold parseFromTokensBudget
  split
  · exact .inr ⟨_, rfl, rfl⟩
  · rename_i h0
    rw [if_neg h0] at hne
    cases ht : tokens[0]? with
    | none => exact .inr ⟨_, rfl, rfl⟩
    | some t =>
      rw [ht] at hne
      simp only at hne ⊢
      rw [M.bind_apply] at hne ⊢
      have hle := innerParseBudget_le p tokens hl hd p.grammar.initialSymbol 0
        (p.getTokenProductions p.grammar.initialSymbol t.tType) true (s, calls)
      rcases innerParseBudget_cnt (tokens := tokens) hcand loop depth p.grammar.initialSymbol 0 _ true
        (hcand p.grammar.initialSymbol t.tType) s calls hc with h | ⟨a, s', c', h1, h2, _, _⟩ | ⟨e, h1, h2⟩
      · rw [h] at hne; exact absurd rfl hne
      · rw [h2] at hle
        rcases hle with hle | hle
        · cases hle
        · left
          refine ⟨toParseResult a, s', c', ?_, ?_⟩
          · rw [h1]; rfl
          · rw [M.bind_apply, ← hle]; rfl
      · rw [h2] at hle
        rcases hle with hle | hle
        · cases hle
        · right
          refine ⟨e, ?_, ?_⟩
          · rw [h1]
          · rw [M.bind_apply, ← hle]

end Verif.Parser
