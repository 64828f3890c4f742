import Verif.Proof.LastResort

/-! # Tables without conflicts: the solver only turns errors into something else -/

set_option linter.unusedSectionVars false

namespace Verif.Parser

open Spec

variable {σ τ L T : Type} [DecidableEq T] {eps init : T} {ps : List (Production T)}
  {p : Parser σ L T} {p' : Parser τ L T} {tokens : List (Token L T)}

/-- `y` does what `x` does, except where `x` returns a value that is not good; there `y` does not
return a good value. -/
def OnlyBad {α : Type} (good : α → Prop) (x : M σ α) (y : M τ α) : Prop :=
  ∀ s s', match x s with
    | .ok (a, _) => (good a → y s' = .ok (a, s')) ∧ (¬ good a → ∀ b s1, y s' = .ok (b, s1) → ¬ good b)
    | .panic e => y s' = .panic e
    | .fuel => y s' = .fuel

/-- A parsed symbol. -/
def GoodSym : ParseSymbolResult L T → Prop
  | .ok _ => True
  | _ => False

/-- A parsed production. -/
def GoodProd : ParseProductionResult L T × Nat → Prop
  | (.ok _, _) => True
  | _ => False

/-- A symbol parsed by one of its productions. -/
def GoodTry : Except (List (FailedProduction L T)) (ParseSymbolResult L T) → Prop
  | .ok (.ok _) => True
  | _ => False

/-- What is parsed by a table without conflicts has no alternative left. -/
theorem parsed_spent (P : ParserOf eps init ps p)
    (hcf : ∀ x a, (p.getTokenProductions x a).length ≤ 1) {rec : Rec σ L T}
    (hok : RecOk eps ps p tokens rec) {y : T} {q : Nat} {sg : Bool} {s s1 : σ} {st : ParsingState L T}
    (e : parseProductionSymbol p tokens rec y q sg s = .ok (.ok st, s1)) :
    st.prodIterOption = none ∨ st.prodIterOption = some [] := by
  have h := parseProductionSymbol_spec P hok e
  unfold parseProductionSymbol at e
  by_cases hy : p.grammar.isNonTerminal y = true
  · rw [if_pos hy] at e
    unfold parseProductionNonTerminal at e
    cases ht : tokens[q]? with
    | none => simp [ht] at e
    | some t =>
      simp only [ht] at e
      obtain ⟨_, rest, hr1, hr2, _⟩ :=
        hok _ _ _ _ _ _ _ ((isNT_iff P y).1 hy) ⟨t, ht, List.suffix_refl _⟩ e
      have := hcf y t.tType
      exact .inr (by rw [hr1, List.length_eq_zero_iff.1 (by omega : rest.length = 0)])
  · rcases h with ⟨s3, h1, ho, hi⟩ | ⟨fs, h1, hf⟩ | ⟨s3, h1, _⟩
    · cases h1
      exact .inl (hi.2 fun h => hy ((isNT_iff P y).2 h))
    · cases h1
    · cases h1

/-- A stack with a fixed state never gives a parsed production. -/
theorem productionLoop_fixed (P : ParserOf eps init ps p)
    (hcf : ∀ x a, (p.getTokenProductions x a).length ≤ 1) {rec : Rec σ L T}
    (hok : RecOk eps ps p tokens rec) (x : T) {out : List T} {sg : Bool} {pos0 n : Nat} {xs : List T}
    {st : List (PState L T)} {q : Nat} (hst : StackOk eps ps p tokens pos0 xs st q) (hsp : Spent st)
    (hxs : ∃ ys, out = xs.reverse ++ ys) (hfx : st.any PState.isFixed = true) {s s1 : σ}
    {r : ParseProductionResult L T × Nat}
    (e : productionLoop p tokens rec x out sg n st q s = .ok (r, s1)) : ¬ GoodProd r := by
  induction n generalizing xs st q s with
  | zero => simp [productionLoop] at e
  | succ n ih =>
    obtain ⟨ys, hys⟩ := hxs
    have hlen := hst.length
    rw [productionLoop] at e
    split at e
    · rename_i hlt
      cases ys with
      | nil => rw [hys] at hlt; simp at hlt; omega
      | cons y ys =>
        have hget : out[st.length]? = some y := by
          rw [hys, List.getElem?_append_right (by simp; omega)]
          simp [hlen]
        simp only [hget] at e
        rw [M.bind_eq_ok] at e
        obtain ⟨res, s2, e1, e2⟩ := e
        have hys' : out = (y :: xs).reverse ++ ys := by simp [hys]
        rcases parseProductionSymbol_spec P hok e1 with
          ⟨s3, rfl, ho, hi⟩ | ⟨fs, rfl, hf⟩ | ⟨s3, rfl, hy, h1, h2, h3, h4⟩
        · refine ih (.parsing ho hi hst) ?_ ⟨ys, hys'⟩ (by simp [hfx]) e2
          intro u hu
          simp only [List.mem_cons, PState.parsing.injEq] at hu
          rcases hu with rfl | hu
          · exact parsed_spent P hcf hok e1
          · exact hsp u hu
        · simp only at e2
          rw [M.bind_eq_ok] at e2
          obtain ⟨⟨st', o⟩, s4, e3, e4⟩ := e2
          obtain ⟨l, hl⟩ := popStates_spent hok hst hsp e3
          simp only at hl
          subst hl
          simp only [M.pure_apply, Out.ok.injEq, Prod.mk.injEq, buildFailedSymbol] at e4
          rw [← e4.1]
          exact id
        · refine ih (.fixed hy h1 h2 h3 h4 hst) ?_ ⟨ys, hys'⟩ (by simp [PState.isFixed]) e2
          intro u hu
          simp only [List.mem_cons, reduceCtorEq, false_or] at hu
          exact hsp u hu
    · rw [M.bind_eq_ok] at e
      obtain ⟨r1, s2, e1, e2⟩ := e
      simp only [M.pure_apply, Out.ok.injEq, Prod.mk.injEq] at e2
      obtain ⟨rfl, rfl⟩ := e2
      unfold lift buildNode at e1
      rw [if_pos (by simpa using hfx)] at e1
      simp only [Out.ok.injEq, Prod.mk.injEq] at e1
      rw [← e1.1]
      exact id

/-- Popping a spent stack, when an exhausted symbol fails. -/
theorem popStates_spent_eq {rec : Rec σ L T}
    (hlive : ∀ x pos sg s, ∃ f, rec x pos [] sg s = .ok (.err f, s)) {sg : Bool}
    {st : List (PState L T)} (hsp : Spent st) (acc : List (PState L T)) (s : σ) :
    ∃ r l, popStates rec sg st acc s = .ok ((r, some l), s) := by
  induction st generalizing acc with
  | nil => exact ⟨_, _, rfl⟩
  | cons u st ih =>
    have ih' := fun acc => ih (fun s h => hsp s (by simp [h])) acc
    cases u with
    | fixed u => exact ih' _
    | parsing u =>
      rw [popStates]
      rcases hsp u (by simp) with h | h
      · simp only [h]
        exact ih' _
      · simp only [h]
        obtain ⟨f, hf⟩ := hlive u.node.token.tType u.initialTokenPosition sg s
        rw [M.bind_apply, hf]
        exact ih' _

theorem productionLoop_onlyBad (P : ParserOf eps init ps p) (P' : ParserOf eps init ps p')
    (A : Agree p p') (hp : p.syntaxErrorSolver = none)
    (hcf : ∀ x a, (p.getTokenProductions x a).length ≤ 1)
    {rec : Rec σ L T} {rec' : Rec τ L T} (hok : RecOk eps ps p tokens rec)
    (hok' : RecOk eps ps p' tokens rec')
    (hlive : ∀ x pos sg s, ∃ f, rec x pos [] sg s = .ok (.err f, s))
    (hrec : ∀ x pos outs sg, Pre p tokens x pos outs → outs.length ≤ 1 →
      OnlyBad GoodSym (rec x pos outs sg) (rec' x pos outs sg))
    (x : T) {out : List T} {sg : Bool} {pos0 n : Nat} {xs : List T} {st : List (PState L T)} {q : Nat}
    (hst : StackOk eps ps p tokens pos0 xs st q) (hst' : StackOk eps ps p' tokens pos0 xs st q)
    (hsp : Spent st) (hxs : ∃ ys, out = xs.reverse ++ ys) :
    OnlyBad GoodProd (productionLoop p tokens rec x out sg n st q)
      (productionLoop p' tokens rec' x out sg n st q) := by
  have hcf' : ∀ x a, (p'.getTokenProductions x a).length ≤ 1 := by
    intro x a; rw [A.cand_eq]; exact hcf x a
  induction n generalizing xs st q with
  | zero => intro s s'; simp [productionLoop]
  | succ n ih =>
    intro s s'
    obtain ⟨ys, hys⟩ := hxs
    have hlen := hst.length
    rw [productionLoop, productionLoop]
    by_cases hlt : st.length < out.length
    · rw [if_pos hlt, if_pos hlt]
      cases ys with
      | nil => rw [hys] at hlt; simp at hlt; omega
      | cons y ys =>
        have hget : out[st.length]? = some y := by
          rw [hys, List.getElem?_append_right (by simp; omega)]
          simp [hlen]
        simp only [hget]
        have hys' : out = (y :: xs).reverse ++ ys := by simp [hys]
        have key : OnlyBad GoodSym (parseProductionSymbol p tokens rec y q sg)
            (parseProductionSymbol p' tokens rec' y q sg) := by
          unfold parseProductionSymbol
          rw [A.nt_eq]
          split
          · unfold parseProductionNonTerminal
            cases ht : tokens[q]? with
            | none => intro s s'; rfl
            | some t =>
              simp only
              rw [A.cand_eq]
              exact hrec _ _ _ _ ⟨t, ht, List.suffix_refl _⟩ (hcf _ _)
          · have : p'.parseTerminalSymbol y tokens q = p.parseTerminalSymbol y tokens q := by
              unfold parseTerminalSymbol
              rw [A.eps_eq]
            rw [this]
            intro s s'
            simp only [M.pure_apply, Out.ok.injEq, Prod.mk.injEq]
            refine ⟨fun _ => by simp, ?_⟩
            rintro h b s1 ⟨rfl, _⟩
            exact h
        have key := key s s'
        rw [M.bind_apply, M.bind_apply]
        cases h1 : parseProductionSymbol p tokens rec y q sg s with
        | fuel => rw [h1] at key; simp only at key; rw [key]
        | panic e => rw [h1] at key; simp only at key; rw [key]
        | ok a =>
          obtain ⟨res, s2⟩ := a
          rw [h1] at key
          obtain ⟨hg, hb⟩ := key
          rcases parseProductionSymbol_spec P hok h1 with
            ⟨s3, rfl, ho, hi⟩ | ⟨fs, rfl, hf⟩ | ⟨s3, rfl, hy, h4, h2, _, _⟩
          · have hg := hg trivial
            rw [hg]
            rcases parseProductionSymbol_spec P' hok' hg with
              ⟨s4, h5, ho', hi'⟩ | ⟨fs, h5, hf⟩ | ⟨s4, h5, _⟩
            · cases h5
              refine ih (.parsing ho hi hst) (.parsing ho' hi' hst') ?_ ⟨ys, hys'⟩ s2 s'
              intro u hu
              simp only [List.mem_cons, PState.parsing.injEq] at hu
              rcases hu with rfl | hu
              · exact parsed_spent P hcf hok h1
              · exact hsp u hu
            · cases h5
            · cases h5
          · obtain ⟨r, l, hpop⟩ := popStates_spent_eq hlive (sg := sg) hsp [] s2
            simp only
            rw [M.bind_apply, hpop]
            simp only [M.pure_apply, buildFailedSymbol]
            refine ⟨fun h => h.elim, fun _ b s1 e => ?_⟩
            cases h2 : parseProductionSymbol p' tokens rec' y q sg s' with
            | fuel => rw [h2] at e; simp at e
            | panic e' => rw [h2] at e; simp at e
            | ok a' =>
              obtain ⟨res', s3⟩ := a'
              rw [h2] at e
              have hb := hb id _ _ h2
              simp only at e
              rcases parseProductionSymbol_spec P' hok' h2 with
                ⟨s4, rfl, ho', hi'⟩ | ⟨fs, rfl, hf⟩ | ⟨s4, rfl, hy, h5, h6, h7, h8⟩
              · exact absurd trivial hb
              · simp only at e
                rw [M.bind_eq_ok] at e
                obtain ⟨⟨st', o⟩, s4, e3, e4⟩ := e
                obtain ⟨l, hl⟩ := popStates_spent hok' hst' hsp e3
                simp only at hl
                subst hl
                simp only [M.pure_apply, Out.ok.injEq, Prod.mk.injEq] at e4
                rw [← e4.1]
                exact id
              · refine productionLoop_fixed P' hcf' hok' x (.fixed hy h5 h6 h7 h8 hst') ?_ ⟨ys, hys'⟩
                  (by simp [PState.isFixed]) e
                intro u hu
                simp only [List.mem_cons, reduceCtorEq, false_or] at hu
                exact hsp u hu
          · rw [hp] at h2
            simp at h2
    · rw [if_neg hlt, if_neg hlt, M.bind_apply, M.bind_apply]
      unfold lift
      cases hb : buildNode x st.reverse with
      | ok a =>
        simp only [M.pure_apply, Out.ok.injEq, Prod.mk.injEq]
        refine ⟨fun _ => by simp, ?_⟩
        rintro h b s1 ⟨rfl, _⟩
        exact h
      | panic a => rfl
      | fuel => rfl

theorem innerParse_live (hp : p.syntaxErrorSolver = none) (n : Nat) (x : T) (pos : Nat) (sg : Bool)
    (s : σ) : ∃ f, innerParse p tokens (n + 1) x pos [] sg s = .ok (.err f, s) := by
  simp [innerParse, tryParseProductionsLoop, tryFixProductions, hp, fixOptionToResult]

theorem innerParse_onlyBad (P : ParserOf eps init ps p) (P' : ParserOf eps init ps p')
    (A : Agree p p') (hp : p.syntaxErrorSolver = none)
    (hcf : ∀ x a, (p.getTokenProductions x a).length ≤ 1) (n : Nat) (x : T) (pos : Nat)
    (outs : List (List T)) (sg : Bool) (hpre : Pre p tokens x pos outs) (hlen : outs.length ≤ 1) :
    OnlyBad GoodSym (innerParse p tokens n x pos outs sg) (innerParse p' tokens n x pos outs sg) := by
  induction n generalizing x pos outs sg with
  | zero => intro s s'; simp [innerParse]
  | succ n ih =>
    have hok : RecOk eps ps p tokens (innerParse p tokens n) :=
      fun x pos outs sg s r s' _ ho e => innerParse_spec P tokens n ho e
    have hok' : RecOk eps ps p' tokens (innerParse p' tokens n) :=
      fun x pos outs sg s r s' _ ho e => innerParse_spec P' tokens n ho e
    have hnone : ∀ (cs : Bool) (failed : List (FailedProduction L T)),
        tryFixProductions p tokens pos sg cs failed = pure none := by
      intro cs failed
      simp [tryFixProductions, hp]
    intro s s'
    rw [innerParse, innerParse, M.bind_apply, M.bind_apply]
    have hfix : ∀ (failed : List (FailedProduction L T)) (s : τ) b s1,
        (tryFixProductions p' tokens pos sg (isChildSinglePath sg outs) failed >>= fun fix =>
          (pure (fixOptionToResult failed fix x) : M τ (ParseSymbolResult L T))) s = .ok (b, s1) →
        ¬ GoodSym b := by
      intro failed s b s1 e
      rw [M.bind_eq_ok] at e
      obtain ⟨fx, s2, _, e2⟩ := e
      simp only [M.pure_apply, Out.ok.injEq, Prod.mk.injEq] at e2
      rw [← e2.1]
      cases fx <;> exact id
    cases outs with
    | nil =>
      simp only [tryParseProductionsLoop, M.pure_apply]
      simp only [tryFixProductions, hp, M.bind_apply, M.pure_apply, fixOptionToResult]
      refine ⟨fun h => h.elim, fun _ b s1 e => ?_⟩
      exact hfix [] s' b s1 e
    | cons o os =>
      have hos : os = [] := by simp at hlen; exact hlen
      subst hos
      rw [tryParseProductionsLoop, tryParseProductionsLoop, M.bind_apply, M.bind_apply]
      have key : OnlyBad GoodProd
          (productionLoop p tokens (innerParse p tokens n) x o (isChildSinglePath sg [o]) n [] pos)
          (productionLoop p' tokens (innerParse p' tokens n) x o (isChildSinglePath sg [o]) n [] pos) := by
        cases n with
        | zero => intro s s'; simp [productionLoop]
        | succ n =>
          exact productionLoop_onlyBad P P' A hp hcf hok hok' (innerParse_live hp n)
            (fun x pos outs sg h1 h2 => ih x pos outs sg h1 h2) x .nil .nil
            (by intro u hu; simp at hu) ⟨o, rfl⟩
      have key := key s s'
      cases h1 : productionLoop p tokens (innerParse p tokens n) x o (isChildSinglePath sg [o]) n []
          pos s with
      | fuel => rw [h1] at key; simp only at key; rw [key]
      | panic e => rw [h1] at key; simp only at key; rw [key]
      | ok a =>
        obtain ⟨⟨res, q⟩, s2⟩ := a
        rw [h1] at key
        obtain ⟨hg, hb⟩ := key
        cases res with
        | ok node =>
          have hg := hg trivial
          simp only [M.pure_apply]
          rw [hg]
          exact ⟨fun _ => rfl, fun h => absurd trivial h⟩
        | err f =>
          simp only
          rw [tryParseProductionsLoop.eq_1, M.pure_apply]
          simp only [hnone]
          refine ⟨fun h => h.elim, fun _ b s1 e => ?_⟩
          cases h2 : productionLoop p' tokens (innerParse p' tokens n) x o
              (isChildSinglePath sg [o]) n [] pos s' with
          | fuel => rw [h2] at e; simp at e
          | panic e' => rw [h2] at e; simp at e
          | ok a =>
            obtain ⟨⟨res', q'⟩, s3⟩ := a
            have hb := hb id _ _ h2
            rw [h2] at e
            cases res' with
            | ok node => exact absurd trivial hb
            | err f => exact hfix _ s3 b s1 e
            | fix f =>
              simp only [M.pure_apply, Out.ok.injEq, Prod.mk.injEq] at e
              rw [← e.1]
              exact id
        | fix f =>
          simp only [M.pure_apply]
          refine ⟨fun h => h.elim, fun _ b s1 e => ?_⟩
          cases h2 : productionLoop p' tokens (innerParse p' tokens n) x o
              (isChildSinglePath sg [o]) n [] pos s' with
          | fuel => rw [h2] at e; simp at e
          | panic e' => rw [h2] at e; simp at e
          | ok a =>
            obtain ⟨⟨res', q'⟩, s3⟩ := a
            have hb := hb id _ _ h2
            rw [h2] at e
            cases res' with
            | ok node => exact absurd trivial hb
            | err f => exact hfix _ s3 b s1 e
            | fix f =>
              simp only [M.pure_apply, Out.ok.injEq, Prod.mk.injEq] at e
              rw [← e.1]
              exact id

/-- A result `Ok`. -/
def GoodResult : ParseResult L T → Prop
  | .ok _ => True
  | _ => False

theorem parse_onlyBad (P : ParserOf eps init ps p) (P' : ParserOf eps init ps p')
    (A : Agree p p') (hp : p.syntaxErrorSolver = none)
    (hcf : ∀ x a, (p.getTokenProductions x a).length ≤ 1) (n : Nat) :
    OnlyBad GoodResult (parseFromTokens p n tokens) (parseFromTokens p' n tokens) := by
  intro s s'
  unfold parseFromTokens
  by_cases hl : tokens.length = 0
  · rw [if_pos hl, if_pos hl]; rfl
  · rw [if_neg hl, if_neg hl]
    cases ht : tokens[0]? with
    | none => rfl
    | some t =>
      simp only
      rw [A.cand_eq, A.init_eq, M.bind_apply, M.bind_apply]
      have key := innerParse_onlyBad (tokens := tokens) P P' A hp hcf n p.grammar.initialSymbol 0
        (p.getTokenProductions p.grammar.initialSymbol t.tType) true ⟨t, ht, List.suffix_refl _⟩
        (hcf _ _) s s'
      revert key
      generalize innerParse p tokens n p.grammar.initialSymbol 0
        (p.getTokenProductions p.grammar.initialSymbol t.tType) true s = u
      generalize innerParse p' tokens n p.grammar.initialSymbol 0
        (p.getTokenProductions p.grammar.initialSymbol t.tType) true s' = v
      intro key
      cases u with
      | fuel => simp only at key; rw [key]
      | panic e => simp only at key; rw [key]
      | ok a =>
        obtain ⟨r, s1⟩ := a
        obtain ⟨hg, hb⟩ := key
        simp only [M.pure_apply]
        have good : ∀ r : ParseSymbolResult L T, GoodResult (toParseResult r) ↔ GoodSym r := by
          intro r; cases r <;> exact Iff.rfl
        rw [good]
        refine ⟨fun h => by rw [hg h], fun h b s2 e => ?_⟩
        cases v with
        | fuel => simp at e
        | panic e' => simp at e
        | ok a =>
          obtain ⟨r', s3⟩ := a
          simp only [Out.ok.injEq, Prod.mk.injEq] at e
          rw [← e.1, good]
          exact hb h _ _ rfl

end Verif.Parser
