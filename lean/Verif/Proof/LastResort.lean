import Verif.Proof.SimUse

/-! # When a solver does not pre-empt a successful parse -/

set_option linter.unusedSectionVars false

namespace Verif.Parser

open Spec

variable {σ τ L T : Type} [DecidableEq T] {eps init : T} {ps : List (Production T)}
  {p : Parser σ L T} {p' : Parser τ L T} {tokens : List (Token L T)}

/-- Several candidates (or none) for the first token: no nested symbol is ever fixed. -/
theorem ok_of_not_single (P : ParserOf eps init ps p) (A : Agree p p')
    (hp : p.syntaxErrorSolver = none) {s s1 : σ} {tree : Tree L T} {t : Token L T}
    (ht : tokens[0]? = some t) (hlen : (p.getTokenProductions init t.tType).length ≠ 1) {n : Nat}
    (e : p.parseFromTokens n tokens s = .ok (.ok tree, s1)) (s' : τ) :
    p'.parseFromTokens n tokens s' = .ok (.ok tree, s') := by
  obtain ⟨t', ht', r', hr1, hr2, _⟩ := parse_post P e
  rw [ht] at ht'
  cases ht'
  cases n with
  | zero => simp [innerParse] at hr2
  | succ n =>
    have hfix : FixSim eps ps p p' tokens some (fun _ u => u = s') (fun _ _ b => b = false) := by
      intro x pos outs sg failed hsg _ _ _
      subst hsg
      unfold tryFixProductions
      rw [hp]
      cases p'.syntaxErrorSolver with
      | none => exact .pure rfl
      | some sv => exact .pure rfl
    have hok : RecOk eps ps p tokens (innerParse p tokens n) :=
      fun x pos outs sg s r s' _ ho e => innerParse_spec P tokens n ho e
    have hch : isChildSinglePath true (p.getTokenProductions init t.tType) = false := by
      simp [isChildSinglePath, hlen]
    have hsim := tryParseProductionsLoop_sim (f := some) (R := fun (_ : σ) (u : τ) => u = s')
      (Q := fun _ _ b => b = false) (sg := false) P A hok
      (fun x pos outs sg h1 _ h2 => innerParse_sim P A
        (fun _ _ _ _ h _ _ _ _ _ _ => by subst h; rfl) hfix n x pos outs sg h1 h2) n init 0
      (p.getTokenProductions init t.tType) (fun _ _ _ _ _ => rfl) [] s s' rfl
    rw [map_mapToken_id] at hsim
    rw [innerParse, hch, M.bind_eq_ok] at hr2
    obtain ⟨r, s2, e1, e2⟩ := hr2
    rw [e1] at hsim
    obtain ⟨s3, e3, hs3⟩ := hsim
    subst hs3
    cases r with
    | error failed =>
      rw [M.bind_eq_ok] at e2
      obtain ⟨fx, s4, e4, e5⟩ := e2
      simp only [tryFixProductions, hp, M.pure_apply, Out.ok.injEq, Prod.mk.injEq] at e4 e5
      obtain ⟨rfl, rfl⟩ := e4
      obtain ⟨rfl, rfl⟩ := e5
      simp [fixOptionToResult, toParseResult] at hr1
    | ok r =>
      simp only [M.pure_apply, Out.ok.injEq, Prod.mk.injEq] at e2
      obtain ⟨rfl, rfl⟩ := e2
      have hl : 0 < tokens.length := (List.getElem?_eq_some_iff.1 ht).1
      unfold parseFromTokens
      rw [if_neg (by omega)]
      simp only [ht]
      rw [A.cand_eq, A.init_eq, P.grammar.init_eq, M.bind_apply, innerParse, M.bind_apply, hch]
      have he : tryParseProductionsLoop p' tokens (innerParse p' tokens n) n init 0 false
          (p.getTokenProductions init t.tType) [] s3 = .ok (mapTry some (.ok r), s3) := by
        exact e3
      rw [he]
      cases r with
      | ok st =>
        simp only [mapTry, mapSym, M.pure_apply, toParseResult, mapPS, mapNode_id, Out.ok.injEq,
          Prod.mk.injEq, and_true]
        exact hr1
      | err f => simp [toParseResult] at hr1
      | fix f => simp [toParseResult] at hr1

/-! ## Tables without conflicts -/

/-- No alternative is left in any state. -/
def Spent (st : List (PState L T)) : Prop :=
  ∀ s, PState.parsing s ∈ st → s.prodIterOption = none ∨ s.prodIterOption = some []

theorem popStates_spent {rec : Rec σ L T} (hrec : RecOk eps ps p tokens rec) {sg : Bool} {pos0 : Nat}
    {xs : List T} {st : List (PState L T)} {q : Nat} (hst : StackOk eps ps p tokens pos0 xs st q)
    (hsp : Spent st) {acc : List (PState L T)} {s s' : σ}
    {r : List (PState L T) × Option (List (PState L T))}
    (e : popStates rec sg st acc s = .ok (r, s')) : ∃ l, r.2 = some l := by
  induction hst generalizing acc s with
  | nil =>
    simp only [popStates, M.pure_apply, Out.ok.injEq, Prod.mk.injEq] at e
    obtain ⟨rfl, rfl⟩ := e
    exact ⟨_, rfl⟩
  | fixed hx hf hs hsym hq hst ih =>
    rw [popStates] at e
    exact ih (fun s h => hsp s (by simp [h])) e
  | parsing hs hi hst ih =>
    rename_i x xs st q s0
    have ih' := fun {acc} {s} => ih (acc := acc) (s := s) (fun s h => hsp s (by simp [h]))
    rw [popStates] at e
    rcases hsp s0 (by simp) with h | h
    · simp only [h] at e
      exact ih' e
    · simp only [h] at e
      rw [M.bind_eq_ok] at e
      obtain ⟨res, s1, e1, e2⟩ := e
      by_cases hx : IsNonTerminal ps x
      · obtain ⟨it, hit, hpre⟩ := hi.1 hx
        rw [h] at hit
        cases hit
        rw [hs.tree.label] at e1
        have hpost := hrec _ _ _ _ _ _ _ hx hpre e1
        cases res with
        | ok s2 =>
          obtain ⟨_, rest, _, hlt, _⟩ := hpost
          simp at hlt
        | err f => exact ih' e2
        | fix s2 => exact ih' e2
      · have := hi.2 hx
        rw [h] at this
        simp at this

theorem productionLoop_ok_transfer (P : ParserOf eps init ps p) (A : Agree p p')
    (hp : p.syntaxErrorSolver = none) (hcf : ∀ x a, (p.getTokenProductions x a).length ≤ 1)
    {rec : Rec σ L T} {rec' : Rec τ L T} (hok : RecOk eps ps p tokens rec)
    (hrec : ∀ x pos outs sg s st s1, IsNonTerminal ps x → Pre p tokens x pos outs →
      outs.length ≤ 1 → rec x pos outs sg s = .ok (.ok st, s1) →
      ∀ s', rec' x pos outs sg s' = .ok (.ok st, s'))
    (x : T) {out : List T} {sg : Bool} {pos0 n : Nat} {xs : List T} {st : List (PState L T)} {q : Nat}
    (hst : StackOk eps ps p tokens pos0 xs st q) (hsp : Spent st)
    (hxs : ∃ ys, out = xs.reverse ++ ys) {s s1 : σ} {node : Node L T} {q' : Nat}
    (e : productionLoop p tokens rec x out sg n st q s = .ok ((.ok node, q'), s1)) (s' : τ) :
    productionLoop p' tokens rec' x out sg n st q s' = .ok ((.ok node, q'), s') := by
  induction n generalizing xs st q s with
  | zero => simp [productionLoop] at e
  | succ n ih =>
    obtain ⟨ys, hys⟩ := hxs
    have hlen := hst.length
    rw [productionLoop] at e ⊢
    split at e
    · rename_i hlt
      rw [if_pos hlt]
      cases ys with
      | nil => rw [hys] at hlt; simp at hlt; omega
      | cons y ys =>
        have hget : out[st.length]? = some y := by
          rw [hys, List.getElem?_append_right (by simp; omega)]
          simp [hlen]
        simp only [hget] at e ⊢
        rw [M.bind_eq_ok] at e
        obtain ⟨res, s2, e1, e2⟩ := e
        have hys' : out = (y :: xs).reverse ++ ys := by simp [hys]
        rcases parseProductionSymbol_spec P hok e1 with
          ⟨s3, rfl, ho, hi⟩ | ⟨fs, rfl, hf⟩ | ⟨s3, rfl, hy, h1, h2, h3, h4⟩
        · -- the symbol is parsed
          have hkey : parseProductionSymbol p' tokens rec' y q sg s' = .ok (.ok s3, s') ∧
              (s3.prodIterOption = none ∨ s3.prodIterOption = some []) := by
            unfold parseProductionSymbol at e1 ⊢
            rw [A.nt_eq]
            by_cases hy : p.grammar.isNonTerminal y = true
            · rw [if_pos hy] at e1 ⊢
              unfold parseProductionNonTerminal at e1 ⊢
              cases ht : tokens[q]? with
              | none => simp [ht] at e1
              | some t =>
                simp only [ht] at e1 ⊢
                rw [A.cand_eq]
                have hpre : Pre p tokens y q (p.getTokenProductions y t.tType) :=
                  ⟨t, ht, List.suffix_refl _⟩
                have hny := (isNT_iff P y).1 hy
                refine ⟨hrec _ _ _ _ _ _ _ hny hpre (hcf _ _) e1 s', .inr ?_⟩
                obtain ⟨_, rest, hr1, hr2, _⟩ := hok _ _ _ _ _ _ _ hny hpre e1
                have := hcf y t.tType
                rw [hr1, List.length_eq_zero_iff.1 (by omega : rest.length = 0)]
            · rw [if_neg hy] at e1 ⊢
              have hny := fun h => hy ((isNT_iff P y).2 h)
              refine ⟨?_, .inl (hi.2 hny)⟩
              simp only [M.pure_apply, Out.ok.injEq, Prod.mk.injEq] at e1 ⊢
              refine ⟨?_, trivial⟩
              rw [← e1.1]
              unfold parseTerminalSymbol
              rw [A.eps_eq]
          rw [M.bind_apply, hkey.1]
          refine ih (.parsing ho hi hst) ?_ ⟨ys, hys'⟩ e2
          intro u hu
          simp only [List.mem_cons, PState.parsing.injEq] at hu
          rcases hu with rfl | hu
          · exact hkey.2
          · exact hsp u hu
        · simp only at e2
          rw [M.bind_eq_ok] at e2
          obtain ⟨⟨st', o⟩, s4, e3, e4⟩ := e2
          obtain ⟨l, hl⟩ := popStates_spent hok hst hsp e3
          simp only at hl
          subst hl
          simp only [M.pure_apply, Out.ok.injEq, Prod.mk.injEq, buildFailedSymbol] at e4
          simp at e4
        · rw [hp] at h2
          simp at h2
    · rename_i hlt
      rw [if_neg hlt]
      rw [M.bind_eq_ok] at e
      obtain ⟨r1, s2, e1, e2⟩ := e
      simp only [M.pure_apply, Out.ok.injEq, Prod.mk.injEq] at e2
      obtain ⟨⟨rfl, rfl⟩, rfl⟩ := e2
      rw [M.bind_apply]
      unfold lift at e1 ⊢
      cases hb : buildNode x st.reverse with
      | ok a =>
        simp only [hb, Out.ok.injEq, Prod.mk.injEq] at e1
        simp [e1.1]
      | panic a => simp [hb] at e1
      | fuel => simp [hb] at e1

theorem innerParse_ok_transfer (P : ParserOf eps init ps p) (A : Agree p p')
    (hp : p.syntaxErrorSolver = none) (hcf : ∀ x a, (p.getTokenProductions x a).length ≤ 1)
    (n : Nat) {x : T} {pos : Nat} {outs : List (List T)} {sg : Bool} {s s1 : σ}
    {st : ParsingState L T} (hpre : Pre p tokens x pos outs) (hlen : outs.length ≤ 1)
    (e : innerParse p tokens n x pos outs sg s = .ok (.ok st, s1)) (s' : τ) :
    innerParse p' tokens n x pos outs sg s' = .ok (.ok st, s') := by
  induction n generalizing x pos outs sg s s1 st s' with
  | zero => simp [innerParse] at e
  | succ n ih =>
    have hok : RecOk eps ps p tokens (innerParse p tokens n) :=
      fun x pos outs sg s r s' _ ho e => innerParse_spec P tokens n ho e
    rw [innerParse, M.bind_eq_ok] at e
    obtain ⟨r, s2, e1, e2⟩ := e
    cases r with
    | error failed =>
      rw [M.bind_eq_ok] at e2
      obtain ⟨fx, s4, e4, e5⟩ := e2
      simp only [tryFixProductions, hp, M.pure_apply, Out.ok.injEq, Prod.mk.injEq] at e4 e5
      obtain ⟨rfl, rfl⟩ := e4
      simp [fixOptionToResult] at e5
    | ok r =>
      simp only [M.pure_apply, Out.ok.injEq, Prod.mk.injEq] at e2
      obtain ⟨rfl, rfl⟩ := e2
      rw [innerParse, M.bind_apply]
      cases outs with
      | nil => simp [tryParseProductionsLoop] at e1
      | cons o os =>
        have hos : os = [] := by simp at hlen; exact hlen
        subst hos
        rw [tryParseProductionsLoop, M.bind_eq_ok] at e1
        obtain ⟨⟨pr, q⟩, s3, e3, e4⟩ := e1
        cases pr with
        | ok node =>
          have := productionLoop_ok_transfer P A hp hcf hok
            (fun x pos outs sg s st s1 _ h1 h2 h3 s' => ih h1 h2 h3 s') x .nil
            (by intro u hu; simp at hu) ⟨o, rfl⟩ e3 s'
          simp only [List.reverse_nil, List.nil_append] at this
          rw [tryParseProductionsLoop, M.bind_apply, this]
          simp only [M.pure_apply, Out.ok.injEq, Prod.mk.injEq, Except.ok.injEq,
            ParseSymbolResult.ok.injEq] at e4 ⊢
          exact ⟨e4.1, trivial⟩
        | err f => simp [tryParseProductionsLoop] at e4
        | fix fp => simp at e4

/-- Tables without conflicts: a successful parse never meets the solver. -/
theorem ok_of_conflictFree (P : ParserOf eps init ps p) (A : Agree p p')
    (hp : p.syntaxErrorSolver = none) (hcf : ∀ x a, (p.getTokenProductions x a).length ≤ 1)
    {s s1 : σ} {tree : Tree L T} {n : Nat}
    (e : p.parseFromTokens n tokens s = .ok (.ok tree, s1)) (s' : τ) :
    p'.parseFromTokens n tokens s' = .ok (.ok tree, s') := by
  obtain ⟨t, ht, r', hr1, hr2, _⟩ := parse_post P e
  cases r' with
  | err f => simp [toParseResult] at hr1
  | fix f => simp [toParseResult] at hr1
  | ok st =>
    have := innerParse_ok_transfer P A hp hcf n ⟨t, ht, List.suffix_refl _⟩ (hcf _ _) hr2 s'
    have hl : 0 < tokens.length := (List.getElem?_eq_some_iff.1 ht).1
    unfold parseFromTokens
    rw [if_neg (by omega)]
    simp only [ht]
    rw [A.cand_eq, A.init_eq, P.grammar.init_eq, M.bind_apply, this]
    simp only [M.pure_apply, Out.ok.injEq, Prod.mk.injEq, and_true]
    exact hr1

theorem conflictFree_length {p : Parser σ L T} (h : ConflictFree p.transitions) (x a : T) :
    (p.getTokenProductions x a).length ≤ 1 := by
  unfold getTokenProductions
  cases hc : p.transitions.getProductions x a with
  | none => simp
  | some l => simpa using h x a l hc

end Verif.Parser
