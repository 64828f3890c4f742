import Verif.Proof.TreeSize
import Mathlib.Tactic.Ring

/-! # The number of calls of the recursive function -/

set_option linter.unusedSectionVars false

namespace Verif.Parser

open Spec

variable {L T : Type} [DecidableEq T] {eps init : T} {ps : List (Production T)}
  {p : Parser Nat L T} {tokens : List (Token L T)}

/-! ## Counting does not change results -/

/-- `x` is `y`, which does not touch the state, apart from counting. -/
def Er {α : Type} (x y : M Nat α) : Prop := ∀ c s, x c = .fuel ∨
  (∃ a c', x c = .ok (a, c') ∧ y s = .ok (a, s)) ∨ ∃ e, x c = .panic e ∧ y s = .panic e

namespace Er

variable {α β : Type}

theorem of_fuel (y : M Nat α) : Er M.fuel y := fun _ _ => .inl rfl

theorem pure (a : α) : Er (Pure.pure a : M Nat α) (Pure.pure a) :=
  fun c _ => .inr (.inl ⟨a, c, rfl, rfl⟩)

theorem panic (e : Panic) : Er (M.panic e : M Nat α) (M.panic e) := fun _ _ => .inr (.inr ⟨e, rfl, rfl⟩)

theorem bind {x y : M Nat α} {f g : α → M Nat β} (h : Er x y) (hf : ∀ a, Er (f a) (g a)) :
    Er (x >>= f) (y >>= g) := by
  intro c s
  rw [M.bind_apply, M.bind_apply]
  rcases h c s with h | ⟨a, c', h1, h2⟩ | ⟨e, h1, h2⟩
  · rw [h]; exact .inl rfl
  · rw [h1, h2]; exact hf a c' s
  · rw [h1, h2]; exact .inr (.inr ⟨e, rfl, rfl⟩)

theorem lift (o : Out α) : Er (Parser.lift o : M Nat α) (Parser.lift o) := by
  intro c s
  unfold Parser.lift
  cases o with
  | ok a => exact .inr (.inl ⟨a, c, rfl, rfl⟩)
  | panic e => exact .inr (.inr ⟨e, rfl, rfl⟩)
  | fuel => exact .inl rfl

end Er

theorem parseProductionSymbol_er {rec rec' : Rec Nat L T}
    (hrec : ∀ x pos outs sg, Er (rec x pos outs sg) (rec' x pos outs sg)) (p : Parser Nat L T)
    (tokens : List (Token L T)) (x : T) (pos : Nat) (single : Bool) :
    Er (parseProductionSymbol p tokens rec x pos single)
      (parseProductionSymbol p tokens rec' x pos single) := by
  unfold parseProductionSymbol parseProductionNonTerminal
  split
  · split
    · exact .panic _
    · exact hrec _ _ _ _
  · exact .pure _

theorem popStates_er {rec rec' : Rec Nat L T}
    (hrec : ∀ x pos outs sg, Er (rec x pos outs sg) (rec' x pos outs sg)) (single : Bool)
    (states acc : List (PState L T)) :
    Er (popStates rec single states acc) (popStates rec' single states acc) := by
  induction states generalizing acc with
  | nil => exact .pure _
  | cons s states ih =>
    cases s with
    | fixed s => exact ih _
    | parsing s =>
      unfold popStates
      cases s.prodIterOption with
      | none => exact ih _
      | some it =>
        refine .bind (hrec _ _ _ _) ?_
        intro r
        cases r with
        | ok s' => exact .pure _
        | err f => exact ih _
        | fix s' => exact ih _

theorem productionLoop_er {rec rec' : Rec Nat L T}
    (hrec : ∀ x pos outs sg, Er (rec x pos outs sg) (rec' x pos outs sg)) (p : Parser Nat L T)
    (tokens : List (Token L T)) (x : T) (output : List T) (single : Bool) {n m : Nat} (hnm : n ≤ m)
    (states : List (PState L T)) (pos : Nat) :
    Er (productionLoop p tokens rec x output single n states pos)
      (productionLoop p tokens rec' x output single m states pos) := by
  induction n generalizing m states pos with
  | zero => exact .of_fuel _
  | succ n ih =>
    obtain ⟨m, rfl⟩ : ∃ k, m = k + 1 := ⟨m - 1, by omega⟩
    have ih' := @ih m (by omega)
    unfold productionLoop
    split
    · split
      · exact .panic _
      · refine .bind (parseProductionSymbol_er hrec _ _ _ _ _) ?_
        intro r
        cases r with
        | ok s => exact ih' _ _
        | fix s => exact ih' _ _
        | err f =>
          refine .bind (popStates_er hrec _ _ _) ?_
          rintro ⟨st, o⟩
          cases o with
          | some parsed => exact .pure _
          | none =>
            cases st with
            | nil => exact .panic _
            | cons s rest => exact ih' _ _
    · exact .bind (.lift _) (fun _ => .pure _)

theorem tryParseProductionsLoop_er {rec rec' : Rec Nat L T}
    (hrec : ∀ x pos outs sg, Er (rec x pos outs sg) (rec' x pos outs sg)) (p : Parser Nat L T)
    (tokens : List (Token L T)) {n m : Nat} (hnm : n ≤ m) (x : T) (pos : Nat) (child : Bool)
    (outs : List (List T)) (failed : List (FailedProduction L T)) :
    Er (tryParseProductionsLoop p tokens rec n x pos child outs failed)
      (tryParseProductionsLoop p tokens rec' m x pos child outs failed) := by
  induction outs generalizing failed with
  | nil => exact .pure _
  | cons o outs ih =>
    unfold tryParseProductionsLoop
    refine .bind (productionLoop_er hrec _ _ _ _ _ hnm _ _) ?_
    rintro ⟨r, f⟩
    cases r with
    | ok node => exact .pure _
    | err f => exact ih _
    | fix fp => exact .pure _

theorem innerParseCalls_er (hs : p.syntaxErrorSolver = none) (tokens : List (Token L T))
    (loop depth : Nat) (x : T) (pos : Nat) (outs : List (List T)) (sg : Bool) :
    Er (innerParseCalls p tokens loop depth x pos outs sg)
      (innerParse p tokens (loop + depth) x pos outs sg) := by
  induction depth generalizing x pos outs sg with
  | zero => exact .of_fuel _
  | succ d ih =>
    rw [show loop + (d + 1) = (loop + d) + 1 by omega]
    intro c s
    unfold innerParseCalls innerParse
    cases c with
    | zero => exact .inl rfl
    | succ c =>
      refine Er.bind (tryParseProductionsLoop_er (fun _ _ _ _ => ih _ _ _ _) _ _ (by omega)
        _ _ _ _ _) ?_ c s
      intro r
      cases r with
      | ok r => exact .pure _
      | error failed =>
        simp only [tryFixProductions, hs]
        exact .bind (.pure _) (fun _ => .pure _)

theorem parseFromTokensCalls_er (hs : p.syntaxErrorSolver = none) (tokens : List (Token L T))
    (calls loop : Nat) (s : Nat) : p.parseFromTokensCalls calls loop tokens = .fuel ∨
    (∃ r c', p.parseFromTokensCalls calls loop tokens = .ok (r, c') ∧
      p.parseFromTokens (loop + calls) tokens s = .ok (r, s)) ∨
    ∃ e, p.parseFromTokensCalls calls loop tokens = .panic e ∧
      p.parseFromTokens (loop + calls) tokens s = .panic e := by
  unfold parseFromTokensCalls parseFromTokens
  split
  · exact .inr (.inr ⟨_, rfl, rfl⟩)
  · cases tokens[0]? with
    | none => exact .inr (.inr ⟨_, rfl, rfl⟩)
    | some t =>
      exact Er.bind (innerParseCalls_er hs tokens loop calls _ _ _ _) (fun _ => .pure _) calls s

theorem recOk_calls (P : ParserOf eps init ps p) (hs : p.syntaxErrorSolver = none) (loop depth : Nat) :
    RecOk eps ps p tokens (innerParseCalls p tokens loop depth) := by
  intro x pos outs sg c r c' _ ho e
  rcases innerParseCalls_er hs tokens loop depth x pos outs sg c 0 with h | ⟨a, c1, h1, h2⟩ | ⟨e', h1, _⟩
  · rw [e] at h; simp at h
  · rw [e] at h1
    simp only [Out.ok.injEq, Prod.mk.injEq] at h1
    rw [h1.1]
    exact innerParse_spec P tokens _ ho h2
  · rw [e] at h1; simp at h1

/-! ## The bound -/

/-- What is left to pay for at a position. -/
noncomputable def callBound (eps : T) (ps : List (Production T)) (m len : Nat) (x : T) (pos : Nat) : Nat :=
  2 * ((nts ps).card * (2 + m + m * emptySize m (nts ps).card)) * (len - pos) +
    (cornerRank eps ps x + 1) * (2 + m + m * emptySize m (nts ps).card)

/-- The shape of the stack of a conflict-free parser: no fixes, no alternatives left. -/
def Calm (st : List (PState L T)) : Prop :=
  ∀ s ∈ st, ∃ s', s = .parsing s' ∧ (s'.prodIterOption = none ∨ s'.prodIterOption = some [])

/-- The number of calls that made a stack. -/
def stackCost : List (PState L T) → Nat
  | [] => 0
  | .parsing s :: st => inner s.node + stackCost st
  | .fixed _ :: st => stackCost st

theorem Calm.not_fixed {st : List (PState L T)} (h : Calm st) : st.any PState.isFixed = false := by
  rw [List.any_eq_false]
  intro s hs
  obtain ⟨s', rfl, _⟩ := h s hs
  simp [PState.isFixed]

theorem stackCost_nodes {st : List (PState L T)} : ∀ {ns : List (Node L T)},
    statesToNodes st.reverse = .ok ns → innerList ns = stackCost st := by
  have h1 : ∀ (a : List (PState L T)) ns, statesToNodes a = .ok ns → innerList ns = stackCost a := by
    intro a
    induction a with
    | nil => intro ns h; simp only [statesToNodes, Out.ok.injEq] at h; subst h; rfl
    | cons s a ih =>
      intro ns h
      cases s with
      | fixed s => simp [statesToNodes] at h
      | parsing s =>
        simp only [statesToNodes, Out.bind_eq_ok] at h
        obtain ⟨l, h1, h2⟩ := h
        simp only [Out.ok.injEq] at h2
        subst h2
        simp [innerList, stackCost, ih l h1]
  have h2 : ∀ (a b : List (PState L T)), stackCost (a ++ b) = stackCost a + stackCost b := by
    intro a b
    induction a with
    | nil => simp [stackCost]
    | cons s a ih => cases s <;> simp [stackCost, ih, Nat.add_assoc]
  have h3 : ∀ (a : List (PState L T)), stackCost a.reverse = stackCost a := by
    intro a
    induction a with
    | nil => rfl
    | cons s a ih =>
      rw [List.reverse_cons, h2, ih]
      cases s <;> simp [stackCost, Nat.add_comm]
  intro ns h
  rw [h1 _ _ h, h3]

/-- The outcome of a call costs what it should. -/
def CostOk (B c : Nat) (r : Out (ParseSymbolResult L T × Nat)) : Prop :=
  (∃ e, r = .panic e) ∨ (∃ s c', r = .ok (.ok s, c') ∧ c = c' + inner s.node) ∨
  ∃ f c', r = .ok (.err f, c') ∧ c ≤ c' + B

/-- The same for a production; one call is already paid. -/
def ProdCostOk (B c : Nat) (r : Out ((ParseProductionResult L T × Nat) × Nat)) : Prop :=
  (∃ e, r = .panic e) ∨ (∃ n q c', r = .ok ((.ok n, q), c') ∧ c + 1 = c' + inner n) ∨
  ∃ f q c', r = .ok ((.err f, q), c') ∧ c + 1 ≤ c' + B

/-- Trying a symbol again, without alternatives. -/
def Retry (rec : Rec Nat L T) : Prop :=
  ∀ y q sg c, ∃ f, rec y q [] sg (c + 1) = .ok (.err f, c)

theorem popStates_calm {rec : Rec Nat L T} (hre : Retry rec) {sg : Bool} {st : List (PState L T)}
    (hst : Calm st) (acc : List (PState L T)) (c : Nat) (hc : st.length ≤ c) :
    ∃ l c', popStates rec sg st acc c = .ok (([], some l), c') ∧ c ≤ c' + st.length := by
  induction st generalizing acc c with
  | nil => exact ⟨acc.reverse, c, rfl, by simp⟩
  | cons s st ih =>
    obtain ⟨s', rfl, hit⟩ := hst s (by simp)
    have hst' : Calm st := fun s hs => hst s (by simp [hs])
    simp only [List.length_cons] at hc ⊢
    rw [popStates]
    rcases hit with hit | hit
    · simp only [hit]
      obtain ⟨l, c', h1, h2⟩ := ih hst' (acc ++ [.parsing s']) c (by omega)
      exact ⟨l, c', h1, by omega⟩
    · simp only [hit]
      obtain ⟨c, rfl⟩ : ∃ k, c = k + 1 := ⟨c - 1, by omega⟩
      obtain ⟨f, hf⟩ := hre s'.node.token.tType s'.initialTokenPosition sg c
      rw [M.bind_apply, hf]
      obtain ⟨l, c', h1, h2⟩ := ih hst' acc c (by omega)
      exact ⟨l, c', h1, by omega⟩

theorem callBound_step (hnlr : NotLeftRecursive eps ps) {m len : Nat} {x y : T} {pos q : Nat}
    (hy : IsNonTerminal ps y) (hq : q < len)
    (hc : pos < q ∨ (q = pos ∧ Corner eps ps y x)) :
    2 + m + m * emptySize m (nts ps).card +
      (nts ps).card * (2 + m + m * emptySize m (nts ps).card) * (q - pos) +
      callBound eps ps m len y q ≤ callBound eps ps m len x pos := by
  unfold callBound
  generalize hB : 2 + m + m * emptySize m (nts ps).card = B
  have h1 := cornerRank_lt_card hnlr hy
  rcases hc with hc | ⟨rfl, hc⟩
  · obtain ⟨d, rfl⟩ : ∃ d, q = pos + (d + 1) := ⟨q - pos - 1, by omega⟩
    obtain ⟨k, rfl⟩ : ∃ k, len = pos + (d + 1) + k := ⟨len - (pos + (d + 1)), by omega⟩
    rw [show pos + (d + 1) - pos = d + 1 by omega,
      show pos + (d + 1) + k - (pos + (d + 1)) = k by omega,
      show pos + (d + 1) + k - pos = d + 1 + k by omega]
    have h2 : (cornerRank eps ps y + 1) * B ≤ (nts ps).card * B := Nat.mul_le_mul_right _ h1
    generalize (nts ps).card * B = A at h2 ⊢
    have h3 : 2 * A * (d + 1 + k) = A * (d + 1) + A * d + A + 2 * A * k := by ring
    have h4 : (cornerRank eps ps x + 1) * B = cornerRank eps ps x * B + B := by ring
    rw [h3, h4]
    generalize cornerRank eps ps x * B = z
    generalize 2 * A * k = z2
    generalize A * (d + 1) = z3
    generalize A * d = z4
    generalize (cornerRank eps ps y + 1) * B = z5 at *
    omega
  · have h2 := cornerRank_lt hnlr hy hc
    have h3 : (cornerRank eps ps y + 1 + 1) * B ≤ (cornerRank eps ps x + 1) * B :=
      Nat.mul_le_mul_right _ (by omega)
    rw [Nat.add_mul (_ + 1), Nat.one_mul] at h3
    rw [Nat.sub_self, Nat.mul_zero]
    omega

theorem callBound_end {m len : Nat} {x : T} {pos k : Nat} (hq : k ≤ len - pos) :
    2 + m + m * emptySize m (nts ps).card +
      (nts ps).card * (2 + m + m * emptySize m (nts ps).card) * k
      ≤ callBound eps ps m len x pos := by
  unfold callBound
  generalize hB : 2 + m + m * emptySize m (nts ps).card = B
  generalize (nts ps).card * B = A
  have h1 : A * k ≤ A * (len - pos) := Nat.mul_le_mul_left _ hq
  have h2 : 2 * A * (len - pos) = A * (len - pos) + A * (len - pos) := by ring
  have h3 : (cornerRank eps ps x + 1) * B = cornerRank eps ps x * B + B := by ring
  omega

/-- The nested calls cost what they should. -/
def Costs (eps : T) (ps : List (Production T)) (p : Parser Nat L T) (tokens : List (Token L T))
    (m : Nat) (rec : Rec Nat L T) (x : T) (pos0 : Nat) : Prop :=
  ∀ y q outs sg c, IsNonTerminal ps y → (pos0 < q ∨ (q = pos0 ∧ Corner eps ps y x)) →
    Pre p tokens y q outs → callBound eps ps m tokens.length y q ≤ c →
    CostOk (callBound eps ps m tokens.length y q) c (rec y q outs sg c)

theorem productionLoop_cost (P : ParserOf eps init ps p) (hs : p.syntaxErrorSolver = none)
    (hnlr : NotLeftRecursive eps ps) {m : Nat} (hm : ∀ r ∈ ps, r.output.length ≤ m)
    (hone : ∀ x a, (p.getTokenProductions x a).length ≤ 1) {rec : Rec Nat L T}
    (hok : RecOk eps ps p tokens rec) (hre : Retry rec) {x : T} {pos0 : Nat}
    (hcosts : Costs eps ps p tokens m rec x pos0) {out : List T}
    (hout : (⟨x, out⟩ : Production T) ∈ ps) {sg : Bool} (n : Nat) {xs ys : List T}
    {st : List (PState L T)} {q : Nat} (hst : StackOk eps ps p tokens pos0 xs st q) (hcalm : Calm st)
    (hys : out = xs.reverse ++ ys) (hn : ys.length < n) (c : Nat)
    (hc : callBound eps ps m tokens.length x pos0 ≤ c + stackCost st + 1) :
    ProdCostOk (callBound eps ps m tokens.length x pos0) (c + stackCost st)
      (productionLoop p tokens rec x out sg n st q c) := by
  have hprog : SolverProgress p.syntaxErrorSolver tokens := by
    rw [hs]; rintro q r ⟨_, sv, _, _, h, _⟩; cases h
  induction n generalizing xs ys st q c with
  | zero => omega
  | succ n ih =>
    have hlen := hst.length
    obtain ⟨hle, ns, hns, hfor⟩ := hst.forest hcalm.not_fixed
    have hcost := stackCost_nodes hns
    rw [productionLoop]
    cases ys with
    | nil =>
      rw [if_neg (by rw [hys]; simp; omega)]
      have hb : buildNode x st.reverse = .ok (.ok (.mk ns ⟨none, x⟩)) := by
        unfold buildNode
        rw [List.any_reverse, hcalm.not_fixed]
        simp [hns]
      have hne : ns ≠ [] := by
        rintro rfl
        rw [List.append_nil] at hys
        rw [← hys] at hfor
        have : out = [] := by
          generalize word tokens pos0 q = w at hfor
          cases hfor; rfl
        exact (P.grammar.wf _ hout).2.1 this
      rw [M.bind_apply, hb]
      refine .inr (.inl ⟨_, q, c, rfl, ?_⟩)
      rw [inner_mk hne]
      omega
    | cons y ys =>
      have hlt : st.length < out.length := by rw [hys]; simp; omega
      rw [if_pos hlt]
      have hget : out[st.length]? = some y := by
        rw [hys, List.getElem?_append_right (by simp; omega)]
        simp [hlen]
      simp only [hget]
      have hys' : out = (y :: xs).reverse ++ ys := by simp [hys]
      have hxm : xs.length ≤ m := by have := hm _ hout; simp only at this; omega
      have hsize := (forest_size P.grammar.wf hnlr hm (B := 2 + m + m * emptySize m (nts ps).card)
        (by omega) hfor).1
      have hK : stackCost st ≤ m * emptySize m (nts ps).card +
          (nts ps).card * (2 + m + m * emptySize m (nts ps).card) * (word tokens pos0 q).length := by
        rw [← hcost]
        refine Nat.le_trans hsize ?_
        have h1 : xs.reverse.length * emptySize m (nts ps).card ≤ m * emptySize m (nts ps).card :=
          Nat.mul_le_mul_right _ (by simpa using hxm)
        omega
      have hw1 : (word tokens pos0 q).length ≤ q - pos0 := by simp [word]
      have hw2 : (word tokens pos0 q).length ≤ tokens.length - pos0 := by simp [word]
      have hw3 := Nat.mul_le_mul_left ((nts ps).card * (2 + m + m * emptySize m (nts ps).card)) hw1
      -- what happens after a failure
      have hfail : ∀ f c1 B, 2 + m + m * emptySize m (nts ps).card +
          (nts ps).card * (2 + m + m * emptySize m (nts ps).card) * (word tokens pos0 q).length + B ≤
            callBound eps ps m tokens.length x pos0 → c ≤ c1 + B →
          parseProductionSymbol p tokens rec y q sg c = .ok (.err f, c1) →
          ProdCostOk (callBound eps ps m tokens.length x pos0) (c + stackCost st)
            ((parseProductionSymbol p tokens rec y q sg >>= fun r => match r with
              | .ok s => productionLoop p tokens rec x out sg n (.parsing s :: st) s.finalTokenPosition
              | .err f => popStates rec sg st [] >>= fun r => match r with
                | (_, some parsed) => pure (buildFailedSymbol f out parsed, q)
                | ([], none) => M.panic .underflow
                | (s :: rest, none) =>
                  productionLoop p tokens rec x out sg n (s :: rest) s.finalTokenPosition
              | .fix s =>
                productionLoop p tokens rec x out sg n (.fixed s :: st) s.finalTokenPosition) c) := by
        intro f c1 B h1 h2 h3
        rw [M.bind_apply, h3]
        simp only
        obtain ⟨l, c2, h4, h5⟩ := popStates_calm hre (sg := sg) hcalm [] c1 (by omega)
        rw [M.bind_apply, h4]
        refine .inr (.inr ⟨.mk f (l.map stateToParsedSymbol)
          (out.drop ((l.map stateToParsedSymbol).length + 1)), q, c2, rfl, ?_⟩)
        omega
      by_cases hy : IsNonTerminal ps y
      · have hpps : parseProductionSymbol p tokens rec y q sg =
            parseProductionNonTerminal p tokens rec y q sg := by
          unfold parseProductionSymbol
          rw [if_pos ((isNT_iff P y).2 hy)]
        unfold parseProductionNonTerminal at hpps
        cases ht : tokens[q]? with
        | none =>
          rw [M.bind_apply, hpps, ht]
          exact .inl ⟨_, rfl⟩
        | some t =>
          simp only [ht] at hpps
          have hqlt : q < tokens.length := (List.getElem?_eq_some_iff.1 ht).1
          have hcor := corner_of_stack P.grammar.wf hprog hout hys hy hst
          have hstep := callBound_step hnlr (m := m) hy hqlt hcor
          have hpre : Pre p tokens y q (p.getTokenProductions y t.tType) := ⟨t, ht, List.suffix_refl _⟩
          rcases hcosts y q _ sg c hy hcor hpre (by omega) with
            ⟨e, he⟩ | ⟨s2, c1, he, h1⟩ | ⟨f, c1, he, h1⟩
          · rw [M.bind_apply, hpps, he]
            exact .inl ⟨_, rfl⟩
          · obtain ⟨ho, rest, hr1, hr2, hr3⟩ := hok _ _ _ _ _ _ _ hy hpre he
            have hrest : rest = [] := List.length_eq_zero_iff.1 (by have := hone y t.tType; omega)
            subst hrest
            rw [M.bind_apply, hpps, he]
            simp only
            have hsp : c + stackCost st = c1 + stackCost (PState.parsing s2 :: st) := by
              simp only [stackCost]; omega
            rw [hsp]
            refine ih (.parsing ho ⟨fun _ => ⟨[], hr1, ?_⟩, fun h => absurd hy h⟩ hst) ?_ hys'
              (by simp only [List.length_cons] at hn; omega) c1 (by omega)
            · rw [ho.initial]; exact hpre.suffix hr3
            · intro s hs
              rcases List.mem_cons.1 hs with rfl | hs
              · exact ⟨s2, rfl, .inr hr1⟩
              · exact hcalm s hs
          · exact hfail f c1 _ (by omega) h1 (by rw [hpps]; exact he)
      · have hpps : parseProductionSymbol p tokens rec y q sg c =
            .ok (p.parseTerminalSymbol y tokens q, c) := by
          unfold parseProductionSymbol
          rw [if_neg (fun h => hy ((isNT_iff P y).1 h))]
          rfl
        rcases parseTerminalSymbol_spec P hy tokens q with ⟨s2, h1, ho, hi⟩ | ⟨h1, h2⟩
        · rw [M.bind_apply, hpps, h1]
          simp only
          have hin : inner s2.node = 0 := (tree_size P.grammar.wf hnlr hm
            (B := 2 + m + m * emptySize m (nts ps).card) (by omega) ho.tree).2 hy
          have hsp : c + stackCost st = c + stackCost (PState.parsing s2 :: st) := by
            simp only [stackCost]; omega
          rw [hsp]
          refine ih (.parsing ho hi hst) ?_ hys'
            (by simp only [List.length_cons] at hn; omega) c (by omega)
          · intro s hs
            rcases List.mem_cons.1 hs with rfl | hs
            · exact ⟨s2, rfl, .inl (hi.2 hy)⟩
            · exact hcalm s hs
        · rw [h1] at hpps
          exact hfail _ c 0 (by have := callBound_end (eps := eps) (ps := ps) (m := m) (x := x) (pos := pos0) hw2; omega)
            (by omega) hpps

theorem tryParseProductionsLoop_one {rec : Rec Nat L T} {loop : Nat} {x : T} {pos : Nat} {sg : Bool}
    {o : List T} {c B : Nat} (h : ProdCostOk B c (productionLoop p tokens rec x o sg loop [] pos c)) :
    (∃ e, tryParseProductionsLoop p tokens rec loop x pos sg [o] [] c = .panic e) ∨
    (∃ s c', tryParseProductionsLoop p tokens rec loop x pos sg [o] [] c = .ok (.ok (.ok s), c') ∧
      c + 1 = c' + inner s.node) ∨
    ∃ l c', tryParseProductionsLoop p tokens rec loop x pos sg [o] [] c = .ok (.error l, c') ∧
      c + 1 ≤ c' + B := by
  rw [tryParseProductionsLoop, M.bind_apply]
  rcases h with ⟨e, he⟩ | ⟨n, q, c', he, h1⟩ | ⟨f, q, c', he, h1⟩
  · rw [he]; exact .inl ⟨e, rfl⟩
  · rw [he]; exact .inr (.inl ⟨_, c', rfl, h1⟩)
  · rw [he]; exact .inr (.inr ⟨_, c', rfl, h1⟩)

theorem two_le_callBound {m len : Nat} {x : T} {pos : Nat} : 2 ≤ callBound eps ps m len x pos := by
  have := callBound_end (eps := eps) (ps := ps) (m := m) (len := len) (x := x) (pos := pos) (k := 0)
    (Nat.zero_le _)
  omega

theorem innerParseCalls_cost (P : ParserOf eps init ps p) (hs : p.syntaxErrorSolver = none)
    (hnlr : NotLeftRecursive eps ps) {m : Nat} (hm : ∀ r ∈ ps, r.output.length ≤ m)
    (hone : ∀ x a, (p.getTokenProductions x a).length ≤ 1) {loop : Nat} (hloop : m < loop)
    (depth : Nat) (x : T) (pos : Nat) (outs : List (List T)) (sg : Bool) (c : Nat)
    (hx : IsNonTerminal ps x) (hpre : Pre p tokens x pos outs)
    (hd : callBound eps ps m tokens.length x pos ≤ depth)
    (hc : callBound eps ps m tokens.length x pos ≤ c) :
    CostOk (callBound eps ps m tokens.length x pos) c
      (innerParseCalls p tokens loop depth x pos outs sg c) := by
  induction depth generalizing x pos outs sg c with
  | zero => have := two_le_callBound (eps := eps) (ps := ps) (m := m) (len := tokens.length) (x := x) (pos := pos); omega
  | succ d ih =>
    have h2 := two_le_callBound (eps := eps) (ps := ps) (m := m) (len := tokens.length) (x := x) (pos := pos)
    obtain ⟨c, rfl⟩ : ∃ k, c = k + 1 := ⟨c - 1, by omega⟩
    have hlen : outs.length ≤ 1 := by
      obtain ⟨t, _, hsuf⟩ := hpre
      exact Nat.le_trans hsuf.length_le (hone _ _)
    have hfix : ∀ {q sg ch} {l : List (FailedProduction L T)} {c}, (tryFixProductions p tokens q sg ch l) c =
        .ok (none, c) := by
      intro q sg ch l c
      simp [tryFixProductions, hs]
    rw [innerParseCalls]
    simp only
    rw [M.bind_apply]
    match outs, hlen with
    | [], _ =>
      simp only [tryParseProductionsLoop, M.pure_apply]
      rw [M.bind_apply, hfix]
      exact .inr (.inr ⟨_, c, rfl, by omega⟩)
    | [o], _ =>
      have hout := hpre.mem P (out := o) (by simp)
      have hre : Retry (innerParseCalls p tokens loop d) := by
        intro y q sg c
        obtain ⟨d, rfl⟩ : ∃ k, d = k + 1 := ⟨d - 1, by omega⟩
        refine ⟨.mk [] y, ?_⟩
        rw [innerParseCalls]
        simp only [tryParseProductionsLoop]
        rw [M.bind_apply]
        simp only [M.pure_apply]
        rw [M.bind_apply, hfix]
        rfl
      have hcosts : Costs eps ps p tokens m (innerParseCalls p tokens loop d) x pos := by
        intro y q outs sg c hy hcor hpre' hc'
        have := callBound_step hnlr (m := m) hy hpre'.lt hcor
        exact ih y q outs sg c hy hpre' (by omega) hc'
      have hpc := productionLoop_cost (sg := isChildSinglePath sg [o]) P hs hnlr hm hone (recOk_calls P hs loop d) hre hcosts hout
        loop (st := []) (q := pos) .nil (by intro s h; simp at h) (ys := o) (by simp)
        (by have := hm _ hout; simp only at this; omega) c (by simp only [stackCost]; omega)
      simp only [stackCost, Nat.add_zero] at hpc
      rcases tryParseProductionsLoop_one hpc with ⟨e, he⟩ | ⟨s, c', he, h1⟩ | ⟨l, c', he, h1⟩
      · rw [he]; exact .inl ⟨e, rfl⟩
      · rw [he]; exact .inr (.inl ⟨s, c', rfl, h1⟩)
      · rw [he]
        simp only
        rw [M.bind_apply, hfix]
        exact .inr (.inr ⟨_, c', rfl, h1⟩)

/-- The constant of the linear bound. -/
noncomputable def callFactor (ps : List (Production T)) (m : Nat) : Nat :=
  3 * ((nts ps).card * (2 + m + m * emptySize m (nts ps).card)) + 1

/-- The parser returns or panics within a number of calls that is linear in the number of tokens. -/
theorem parseCalls_linear (P : ParserOf eps init ps p) (hs : p.syntaxErrorSolver = none)
    (hnlr : NotLeftRecursive eps ps) {m : Nat} (hm : ∀ r ∈ ps, r.output.length ≤ m)
    (hone : ∀ x a, (p.getTokenProductions x a).length ≤ 1) {loop calls : Nat} (hloop : m < loop)
    (hcalls : callFactor ps m * tokens.length ≤ calls) :
    p.parseFromTokensCalls calls loop tokens ≠ .fuel := by
  unfold parseFromTokensCalls
  split
  · simp
  · cases ht : tokens[0]? with
    | none => simp
    | some t =>
      have h0 : 0 < tokens.length := (List.getElem?_eq_some_iff.1 ht).1
      simp only
      rw [P.grammar.init_eq]
      refine M.bind_ne_fuel ?_ (fun _ _ _ => by simp)
      obtain ⟨k, hk⟩ : ∃ k, tokens.length = k + 1 := ⟨tokens.length - 1, by omega⟩
      by_cases hi : IsNonTerminal ps init
      · have hb : callBound eps ps m tokens.length init 0 ≤ calls := by
          refine Nat.le_trans ?_ hcalls
          unfold callBound callFactor
          generalize 2 + m + m * emptySize m (nts ps).card = B
          have h1 : (cornerRank eps ps init + 1) * B ≤ (nts ps).card * B :=
            Nat.mul_le_mul_right _ (cornerRank_lt_card hnlr hi)
          generalize (nts ps).card * B = A at *
          have h2 : (3 * A + 1) * (k + 1) = 2 * A * (k + 1) + A * k + A + k + 1 := by ring
          rw [hk, h2, Nat.sub_zero]
          generalize 2 * A * (k + 1) = z
          omega
        rcases innerParseCalls_cost P hs hnlr hm hone hloop calls init 0 _ true calls hi
          ⟨t, ht, List.suffix_refl _⟩ hb hb with ⟨e, he⟩ | ⟨s, c', he, _⟩ | ⟨f, c', he, _⟩ <;>
          simp [he]
      · have hnil : p.getTokenProductions init t.tType = [] := by
          rw [List.eq_nil_iff_forall_not_mem]
          intro o ho
          exact hi ⟨_, P.cand _ _ _ ho, rfl⟩
        rw [hnil]
        obtain ⟨c, rfl⟩ : ∃ c, calls = c + 1 := by
          refine ⟨calls - 1, ?_⟩
          unfold callFactor at hcalls
          have := Nat.mul_le_mul_right tokens.length (Nat.le_add_left 1 (3 * ((nts ps).card * (2 + m + m * emptySize m (nts ps).card))))
          omega
        rw [innerParseCalls]
        simp only [tryParseProductionsLoop, M.pure_bind']
        exact M.bind_ne_fuel (by simp [tryFixProductions, hs]) (fun _ _ _ => by simp)

end Verif.Parser
