import Verif.Model.Abort
import Verif.Proof.Budget

/-! # More iterations than a bound that depends on the grammar alone are never made -/

set_option linter.unusedSectionVars false

namespace Verif.Parser

open Spec

variable {σ L T : Type} [DecidableEq T] {p : Parser σ L T} {tokens : List (Token L T)}

/-- Where a call is nested too deeply: out of bounds, or aborted. -/
def stop {α : Type} : Option Panic → Out α
  | none => .fuel
  | some e => .panic e

/-- Both do the same, and the results satisfy `P`; but where the first runs into the bound, the second
stops. -/
def Same {α : Type} (e : Option Panic) (P : α → Prop) (x y : M σ α) : Prop :=
  ∀ s, (x s = .fuel ∧ y s = stop e) ∨ (x s = y s ∧ x s ≠ .fuel ∧ ∀ a s', x s = .ok (a, s') → P a)

namespace Same

variable {α β : Type} {P : α → Prop} {Q : β → Prop} {e : Option Panic}

theorem pure {a : α} (h : P a) : Same e P (Pure.pure a : M σ α) (Pure.pure a) :=
  fun s => .inr ⟨rfl, by simp, fun a' s' e => by
    simp only [M.pure_apply, Out.ok.injEq, Prod.mk.injEq] at e
    rw [← e.1]; exact h⟩

theorem panic (e' : Panic) : Same e P (M.panic e' : M σ α) (M.panic e') :=
  fun s => .inr ⟨rfl, by simp [M.panic], fun a' s' h => by simp [M.panic] at h⟩

theorem bind {x y : M σ α} {f g : α → M σ β} (h : Same e P x y)
    (hf : ∀ a, P a → Same e Q (f a) (g a)) : Same e Q (x >>= f) (y >>= g) := by
  intro s
  rw [M.bind_apply, M.bind_apply]
  rcases h s with ⟨h1, h2⟩ | ⟨h1, h2, h3⟩
  · rw [h1, h2]
    refine .inl ⟨rfl, ?_⟩
    cases e <;> rfl
  · rw [← h1]
    cases hx : x s with
    | ok a =>
      obtain ⟨a, s'⟩ := a
      exact hf a (h3 a s' hx) s'
    | panic e => exact .inr ⟨rfl, by simp, fun _ _ h => by simp at h⟩
    | fuel => exact absurd hx h2

theorem any (x : M σ α) (h : e = none ∨ ∀ s, x s ≠ .fuel) : Same e (fun _ => True) x x := by
  intro s
  by_cases hf : x s = .fuel
  · rcases h with rfl | h
    · exact .inl ⟨hf, hf⟩
    · exact absurd hf (h s)
  · exact .inr ⟨rfl, hf, fun _ _ _ => trivial⟩

theorem weaken {P' : α → Prop} {x y : M σ α} (h : Same e P x y) (hp : ∀ a, P a → P' a) : Same e P' x y :=
  fun s => (h s).imp id fun h => ⟨h.1, h.2.1, fun a s' e => hp a (h.2.2 a s' e)⟩

end Same

/-- The candidates kept are fewer than `k`. -/
def FewerLeft (R m k : Nat) : ParseSymbolResult L T → Prop
  | .ok s => SmallState R m (.parsing s) ∧ digit (.parsing s) < k
  | _ => True

/-- The nested calls do the same and use up a candidate. -/
def SameRec (e : Option Panic) (R m : Nat) (rec rec' : Rec σ L T) : Prop :=
  ∀ x pos outs sg, Small R m outs → Same e (FewerLeft R m outs.length) (rec x pos outs sg) (rec' x pos outs sg)

variable {e : Option Panic} {R m : Nat} {rec rec' : Rec σ L T}

theorem parseProductionSymbol_same (hcand : ∀ x a, Small R m (p.getTokenProductions x a))
    (hrec : SameRec e R m rec rec') (x : T) (pos : Nat) (single : Bool) :
    Same e (FewerLeft R m (R + 1)) (parseProductionSymbol p tokens rec x pos single)
      (parseProductionSymbol p tokens rec' x pos single) := by
  unfold parseProductionSymbol parseProductionNonTerminal
  split
  · cases tokens[pos]? with
    | none => exact .panic _
    | some t =>
      refine (hrec _ _ _ _ (hcand _ _)).weaken ?_
      intro r hr
      cases r with
      | ok s =>
        have := (hcand x t.tType).1
        exact ⟨hr.1, by have := hr.2; omega⟩
      | err => trivial
      | fix => trivial
  · refine .pure ?_
    unfold parseTerminalSymbol parseNonEpsilonTerminalSymbol buildTokenFailedSymbol
    split
    · exact ⟨fun it h => (by cases h), by simp [digit]⟩
    · cases tokens[pos]? with
      | none => trivial
      | some t =>
        simp only
        split
        · exact ⟨fun it h => (by cases h), by simp [digit]⟩
        · trivial

theorem popStates_same (hrec : SameRec e R m rec rec') (single : Bool) (states acc : List (PState L T))
    (hst : ∀ s ∈ states, SmallState R m s) :
    Same e (fun r => r.2 = none → ∃ s' above s st, r.1 = s' :: st ∧ states = above ++ s :: st ∧
        digit s' < digit s ∧ SmallState R m s')
      (popStates rec single states acc) (popStates rec' single states acc) := by
  induction states generalizing acc with
  | nil => exact .pure (by simp)
  | cons s states ih =>
    have ih' := fun acc => (ih acc (fun s hs => hst s (List.mem_cons_of_mem _ hs))).weaken
      (P' := fun r => r.2 = none → ∃ s' above s0 st, r.1 = s' :: st ∧ s :: states = above ++ s0 :: st ∧
        digit s' < digit s0 ∧ SmallState R m s') (by
        intro r hr hn
        obtain ⟨s', above, s0, st, h1, h2, h3, h4⟩ := hr hn
        exact ⟨s', s :: above, s0, st, h1, by rw [h2]; rfl, h3, h4⟩)
    cases s with
    | fixed s => exact ih' _
    | parsing s =>
      unfold popStates
      cases hit : s.prodIterOption with
      | none => exact ih' _
      | some it =>
        have hsm : Small R m it := hst (.parsing s) List.mem_cons_self it hit
        refine Same.bind (hrec _ _ _ _ hsm) ?_
        intro r hr
        cases r with
        | ok s' =>
          refine .pure fun _ => ⟨.parsing s', [], .parsing s, states, rfl, rfl, ?_, hr.1⟩
          have : digit (.parsing s : PState L T) = it.length := by simp [digit, hit]
          rw [this]
          exact hr.2
        | err f => exact ih' _
        | fix s' => exact ih' _

theorem productionLoop_same (hcand : ∀ x a, Small R m (p.getTokenProductions x a))
    (hrec : SameRec e R m rec rec') (x : T) {output : List T} (single : Bool) (n n' : Nat)
    (states : List (PState L T)) (pos : Nat) (hst : ∀ s ∈ states, SmallState R m s)
    (hlen : states.length ≤ output.length)
    (hn : measure (R + 2) output.length states ≤ n) (hn' : measure (R + 2) output.length states ≤ n') :
    Same e (fun _ => True) (productionLoop p tokens rec x output single n states pos)
      (productionLoop p tokens rec' x output single n' states pos) := by
  induction n generalizing states pos n' with
  | zero =>
    have := measure_pos (B := R + 2) (k := output.length) (by omega) states
    omega
  | succ n ih =>
    obtain ⟨n', rfl⟩ : ∃ k, n' = k + 1 := by
      have := measure_pos (B := R + 2) (k := output.length) (by omega) states
      exact ⟨n' - 1, by omega⟩
    unfold productionLoop
    split
    · rename_i hlt
      cases output[states.length]? with
      | none => exact .panic _
      | some y =>
        refine Same.bind (parseProductionSymbol_same hcand hrec _ _ _) ?_
        intro r hr
        cases r with
        | ok s =>
          have := measure_push (B := R + 2) (k := output.length) (s := PState.parsing s) (st := states)
            (by have := hr.2; omega) hlt
          refine ih _ _ _ ?_ (by simp only [List.length_cons]; omega) (by omega) (by omega)
          intro s1 hs1
          rcases List.mem_cons.1 hs1 with rfl | hs1
          · exact hr.1
          · exact hst _ hs1
        | fix s =>
          have := measure_push (B := R + 2) (k := output.length) (s := PState.fixed s) (st := states)
            (by simp [digit]) hlt
          refine ih _ _ _ ?_ (by simp only [List.length_cons]; omega) (by omega) (by omega)
          intro s1 hs1
          rcases List.mem_cons.1 hs1 with rfl | hs1
          · trivial
          · exact hst _ hs1
        | err f =>
          refine Same.bind (popStates_same hrec single states [] hst) ?_
          rintro ⟨st, o⟩ h
          cases o with
          | some parsed => exact .pure trivial
          | none =>
            obtain ⟨s', above, s0, st0, h1, h2, h3, h4⟩ := h rfl
            simp only at h1
            subst h1
            subst h2
            have := measure_pop (B := R + 2) (k := output.length) (by omega) (above := above) h3 hlen
            refine ih _ _ _ ?_ (by simp at hlen ⊢; omega) (by omega) (by omega)
            intro s1 hs1
            rcases List.mem_cons.1 hs1 with rfl | hs1
            · exact h4
            · exact hst _ (by simp [hs1])
    · refine .any _ (.inr fun s => ?_)
      exact M.bind_ne_fuel lift_ne_fuel (fun _ _ _ => by simp)

theorem tryParseProductionsLoop_same (hcand : ∀ x a, Small R m (p.getTokenProductions x a))
    (hrec : SameRec e R m rec rec') {n n' : Nat} (hn : (R + 2) ^ m ≤ n) (hn' : (R + 2) ^ m ≤ n') (x : T)
    (pos : Nat) (child : Bool) (outs : List (List T)) (failed : List (FailedProduction L T))
    (houts : Small R m outs) :
    Same e (fun r => ∀ r', r = .ok r' → FewerLeft R m outs.length r')
      (tryParseProductionsLoop p tokens rec n x pos child outs failed)
      (tryParseProductionsLoop p tokens rec' n' x pos child outs failed) := by
  induction outs generalizing failed with
  | nil => exact .pure (by simp)
  | cons o outs ih =>
    have houts' : Small R m outs :=
      ⟨by have := houts.1; simp only [List.length_cons] at this; omega,
        fun o ho => houts.2 o (List.mem_cons_of_mem _ ho)⟩
    have hm : measure (R + 2) o.length ([] : List (PState L T)) ≤ (R + 2) ^ m := by
      have : (R + 2) ^ o.length ≤ (R + 2) ^ m :=
        Nat.pow_le_pow_right (by omega) (houts.2 o List.mem_cons_self)
      simpa [measure, weight] using this
    unfold tryParseProductionsLoop
    refine Same.bind (productionLoop_same hcand hrec x child n n' [] pos (by simp) (by simp)
      (Nat.le_trans hm hn) (Nat.le_trans hm hn')) ?_
    rintro ⟨r, f⟩ _
    cases r with
    | ok node =>
      refine .pure ?_
      intro r' h
      simp only [Except.ok.injEq] at h
      subst h
      refine ⟨fun it h => ?_, by simp [digit]⟩
      simp only [Option.some.injEq] at h
      subst h
      exact houts'
    | err f =>
      refine (ih _ houts').weaken ?_
      intro r hr r' e
      have := hr r' e
      cases r' with
      | ok s => exact ⟨this.1, by have := this.2; simp only [List.length_cons]; omega⟩
      | err => trivial
      | fix => trivial
    | fix fp =>
      refine .pure ?_
      intro r' h
      simp only [Except.ok.injEq] at h
      subst h
      trivial

/-- The bound on the iterations does not matter once it is large enough. -/
theorem innerParseWithin_same (hcand : ∀ x a, Small R m (p.getTokenProductions x a)) {loop loop' : Nat}
    (hn : (R + 2) ^ m ≤ loop) (hn' : (R + 2) ^ m ≤ loop') (depth : Nat) :
    SameRec none R m (innerParseWithin p tokens loop depth) (innerParseWithin p tokens loop' depth) := by
  induction depth with
  | zero => exact fun _ _ _ _ _ _ => .inl ⟨rfl, rfl⟩
  | succ d ih =>
    intro x pos outs sg hsm
    unfold innerParseWithin
    refine Same.bind (tryParseProductionsLoop_same hcand ih hn hn' x pos _ outs [] hsm) ?_
    intro r hr
    cases r with
    | ok r => exact .pure (hr r rfl)
    | error failed =>
      refine Same.bind (.any _ (.inl rfl)) ?_
      intro fix _
      refine .pure ?_
      cases fix <;> trivial

theorem parseFromTokensWithin_same (hcand : ∀ x a, Small R m (p.getTokenProductions x a)) {loop loop' : Nat}
    (hn : (R + 2) ^ m ≤ loop) (hn' : (R + 2) ^ m ≤ loop') (depth : Nat) (tokens : List (Token L T)) (s : σ) :
    p.parseFromTokensWithin depth loop tokens s = p.parseFromTokensWithin depth loop' tokens s := by
  unfold parseFromTokensWithin
  split
  · rfl
  · cases tokens[0]? with
    | none => rfl
    | some t =>
      rcases Same.bind (innerParseWithin_same hcand hn hn' depth _ _ _ _ (hcand _ _))
        (fun r _ => Same.any (Pure.pure (toParseResult r)) (.inl rfl)) s with h | h
      · exact h.1.trans h.2.symm
      · exact h.1

/-- The only bound that is run into is the one on the nested calls. -/
theorem innerParseAborting_same (hcand : ∀ x a, Small R m (p.getTokenProductions x a))
    (hst : SolverTerminates p.syntaxErrorSolver) {loop loop' : Nat}
    (hn : (R + 2) ^ m ≤ loop) (hn' : (R + 2) ^ m ≤ loop') (e : Panic) (depth : Nat) :
    SameRec (some e) R m (innerParseWithin p tokens loop depth) (innerParseAborting p tokens e loop' depth) := by
  induction depth with
  | zero => exact fun _ _ _ _ _ _ => .inl ⟨rfl, rfl⟩
  | succ d ih =>
    intro x pos outs sg hsm
    unfold innerParseWithin innerParseAborting
    refine Same.bind (tryParseProductionsLoop_same hcand ih hn hn' x pos _ outs [] hsm) ?_
    intro r hr
    cases r with
    | ok r => exact .pure (hr r rfl)
    | error failed =>
      refine Same.bind (.any _ (.inr fun s => tryFix_ne_fuel hst)) ?_
      intro fix _
      refine .pure ?_
      cases fix <;> trivial

/-- What is aborted is exactly what needs more nested calls. -/
theorem parseFromTokensAborting_eq (hcand : ∀ x a, Small R m (p.getTokenProductions x a))
    (hst : SolverTerminates p.syntaxErrorSolver) {loop loop' : Nat} (hn : (R + 2) ^ m ≤ loop)
    (hn' : (R + 2) ^ m ≤ loop') (e : Panic) (depth : Nat) (tokens : List (Token L T)) (s : σ) :
    (p.parseFromTokensWithin depth loop tokens s = .fuel ∧
      p.parseFromTokensAborting e depth loop' tokens s = .panic e) ∨
    (p.parseFromTokensWithin depth loop tokens s ≠ .fuel ∧
      p.parseFromTokensAborting e depth loop' tokens s = p.parseFromTokensWithin depth loop tokens s) := by
  unfold parseFromTokensWithin parseFromTokensAborting
  split
  · exact .inr ⟨by simp [M.panic], rfl⟩
  · cases tokens[0]? with
    | none => exact .inr ⟨by simp [M.panic], rfl⟩
    | some t =>
      rcases Same.bind (innerParseAborting_same hcand hst hn hn' e depth _ _ _ _ (hcand _ _))
        (fun r _ => Same.any (Pure.pure (toParseResult r)) (.inr (by simp))) s with h | h
      · exact .inl h
      · exact .inr ⟨h.2.1, h.1.symm⟩

/-- A result within fewer iterations is a result within more. -/
theorem innerParseWithin_mono (p : Parser σ L T) (tokens : List (Token L T)) {loop loop' : Nat}
    (hl : loop ≤ loop') (depth : Nat) (x : T) (pos : Nat) (outs : List (List T)) (sg : Bool) :
    M.Le (innerParseWithin p tokens loop depth x pos outs sg)
      (innerParseWithin p tokens loop' depth x pos outs sg) := by
  induction depth generalizing x pos outs sg with
  | zero => exact .of_fuel _
  | succ n ih =>
    unfold innerParseWithin
    refine .bind (tryParseProductionsLoop_le (fun _ _ _ _ => ih _ _ _ _) _ _ hl _ _ _ _ _) ?_
    intro r
    exact .refl _

theorem parseFromTokensWithin_mono (p : Parser σ L T) (tokens : List (Token L T)) {loop loop' : Nat}
    (hl : loop ≤ loop') (depth : Nat) :
    M.Le (parseFromTokensWithin p depth loop tokens) (parseFromTokensWithin p depth loop' tokens) := by
  unfold parseFromTokensWithin
  split
  · exact .refl _
  · cases tokens[0]? with
    | none => exact .refl _
    | some t => exact .bind (innerParseWithin_mono p tokens hl depth _ _ _ _) (fun _ => .refl _)

/-- A result of the parser is a result within bounds that are large enough. -/
theorem innerParse_le_within (p : Parser σ L T) (tokens : List (Token L T)) {loop : Nat} (n depth : Nat)
    (hl : n ≤ loop) (hd : n ≤ depth) (x : T) (pos : Nat) (outs : List (List T)) (sg : Bool) :
    M.Le (innerParse p tokens n x pos outs sg) (innerParseWithin p tokens loop depth x pos outs sg) := by
  induction n generalizing depth x pos outs sg with
  | zero => exact .of_fuel _
  | succ n ih =>
    obtain ⟨depth, rfl⟩ : ∃ d, depth = d + 1 := ⟨depth - 1, by omega⟩
    unfold innerParseWithin innerParse
    refine .bind (tryParseProductionsLoop_le (fun _ _ _ _ => ih depth (by omega) (by omega) _ _ _ _) _ _
      (by omega) _ _ _ _ _) ?_
    intro r
    exact .refl _

theorem parse_le_within (p : Parser σ L T) (tokens : List (Token L T)) {n depth loop : Nat} (hl : n ≤ loop)
    (hd : n ≤ depth) :
    M.Le (parseFromTokens p n tokens) (parseFromTokensWithin p depth loop tokens) := by
  unfold parseFromTokensWithin parseFromTokens
  split
  · exact .refl _
  · cases tokens[0]? with
    | none => exact .refl _
    | some t => exact .bind (innerParse_le_within p tokens n depth hl hd _ _ _ _) (fun _ => .refl _)

end Verif.Parser
