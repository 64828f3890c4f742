import Verif.Proof.Calls
import Verif.Props.Depth
import Verif.Props.Choice

/-!
# Property C56: the number of calls
-/

set_option linter.unusedSectionVars false

namespace Verif.Props

open Verif.Spec Verif.Examples

variable {L T : Type} [DecidableEq T]

/-- **C56.** For a grammar that is not left-recursive there is a constant `C` such that every parser for
it without a solver whose table has no conflicts needs at most `C * tokens.length` calls of
`inner_parse_from_tokens` (and at most `C` iterations per loop) to return or panic on `tokens`: with
these bounds it runs into neither of them, and returns, or panics, exactly as without bounds. (The type
of the state of the absent solver is `Nat`, and used for the counter.) -/
theorem C56_linear_calls (eps init : T) (ps : List (Production T)) (hnlr : NotLeftRecursive eps ps) :
    ∃ C, ∀ (h : HashOrder T) (g : Grammar T) (p : Parser Nat L T),
      Grammar.new h eps init ps = .ok g → Built h g none p → ConflictFree p.transitions →
      ∀ (tokens : List (Token L T)) (calls loop : Nat), C * tokens.length ≤ calls → C ≤ loop →
      p.parseFromTokensCalls calls loop tokens ≠ .fuel ∧
      (∀ r s s', Parses p tokens s r s' ↔ s' = s ∧
        ∃ left, p.parseFromTokensCalls calls loop tokens = .ok (r, left)) ∧
      (∀ s, ParsePanics p tokens s ↔ ∃ e, p.parseFromTokensCalls calls loop tokens = .panic e) := by
  obtain ⟨m, hm⟩ : ∃ m, ∀ r ∈ ps, r.output.length ≤ m :=
    Parser.exists_uniform ps (fun K (r : Production T) => r.output.length ≤ K)
      (fun _ _ _ h h' => by omega) (fun pr _ => ⟨_, Nat.le_refl _⟩)
  refine ⟨max (Parser.callFactor ps m) (m + 1), ?_⟩
  intro h g p hg hp hcf tokens calls loop hcalls hloop
  obtain ⟨P, hs⟩ := Parser.tableParser_of_built hg hp
  have hne : p.parseFromTokensCalls calls loop tokens ≠ .fuel :=
    Parser.parseCalls_linear P.toParserOf hs hnlr hm (Parser.conflictFree_length hcf) (by omega)
      (Nat.le_trans (Nat.mul_le_mul_right _ (Nat.le_max_left _ _)) hcalls)
  have hfull : ∀ s n r, p.parseFromTokens n tokens s = r → r ≠ .fuel →
      p.parseFromTokens (loop + calls) tokens s = r := by
    intro s n r hn hr
    rcases Nat.le_total n (loop + calls) with hle | hle
    · exact Parser.parse_mono hle hn hr
    · have := Parser.parseFromTokensCalls_er hs tokens calls loop s
      have h2 : p.parseFromTokens (loop + calls) tokens s ≠ .fuel := by
        rcases this with h | ⟨r, c', _, h2⟩ | ⟨e, _, h2⟩
        · exact absurd h hne
        · rw [h2]; simp
        · rw [h2]; simp
      rw [← hn]
      exact (Parser.parse_mono hle rfl h2).symm
  refine ⟨hne, ?_, ?_⟩
  · intro r s s'
    constructor
    · rintro ⟨n, hn⟩
      have h1 := hfull s n _ (hn n (Nat.le_refl _)) (by simp)
      rcases Parser.parseFromTokensCalls_er hs tokens calls loop s with h | ⟨r', c', h2, h3⟩ | ⟨e, h2, h3⟩
      · exact absurd h hne
      · rw [h1] at h3
        simp only [Out.ok.injEq, Prod.mk.injEq] at h3
        exact ⟨h3.2, c', by rw [h2, h3.1]⟩
      · rw [h1] at h3; simp at h3
    · rintro ⟨rfl, c, hc⟩
      rcases Parser.parseFromTokensCalls_er hs tokens calls loop s' with h | ⟨r', c', h2, h3⟩ | ⟨e, h2, h3⟩
      · exact absurd h hne
      · rw [hc] at h2
        simp only [Out.ok.injEq, Prod.mk.injEq] at h2
        rw [← h2.1] at h3
        exact Parser.parse_returns h3
      · rw [hc] at h2; simp at h2
  · intro s
    constructor
    · rintro ⟨n, e, hn⟩
      have h1 := hfull s n _ (hn n (Nat.le_refl _)) (by simp)
      rcases Parser.parseFromTokensCalls_er hs tokens calls loop s with h | ⟨r', c', h2, h3⟩ | ⟨e, h2, h3⟩
      · exact absurd h hne
      · rw [h1] at h3; simp at h3
      · exact ⟨e, h2⟩
    · rintro ⟨e, he⟩
      rcases Parser.parseFromTokensCalls_er hs tokens calls loop s with h | ⟨r', c', h2, h3⟩ | ⟨e', h2, h3⟩
      · exact absurd h hne
      · rw [he] at h2; simp at h2
      · exact Parser.parse_panics h3

/-- The hypotheses of C56 are met by the expression grammar. -/
example : NotLeftRecursive 0 exprPs ∧ ∃ g p tree, Grammar.new (HashOrder.id Nat) 0 1 exprPs = .ok g ∧
    Built (σ := Nat) (L := Unit) (HashOrder.id Nat) g none p ∧ ConflictFree p.transitions ∧
    Parses p [⟨none, 15⟩, ⟨none, 11⟩, ⟨none, 15⟩, ⟨none, 16⟩] 0 (.ok tree) 0 := by
  refine ⟨exprPs_notLeftRecursive, ?_⟩
  obtain ⟨g, p, tree, hg, hp, hall, ht⟩ : ∃ g p tree, Grammar.new (HashOrder.id Nat) 0 1 exprPs = .ok g ∧
      Built (σ := Nat) (L := Unit) (HashOrder.id Nat) g none p ∧
      (∀ x ∈ exprPs.map (·.input), ∀ a ∈ exprPs.flatMap (·.output),
        ((p.transitions.getProductions x a).getD []).length ≤ 1) ∧
      Parses p [⟨none, 15⟩, ⟨none, 11⟩, ⟨none, 15⟩, ⟨none, 16⟩] 0 (.ok tree) 0 :=
    ⟨_, _, _, rfl, Parser.built_of_eval (n := 10) rfl, by decide, Parser.parse_returns (n := 30) rfl⟩
  exact ⟨g, p, tree, hg, hp, conflictFree_of_check hg hp hall, ht⟩

/-! ## Without the condition on the table -/

/-- `S → a S b | a S c | d`, with `S = 1, a = 10, b = 11, c = 12, d = 13`. -/
def closersPs : List (Production Nat) := [⟨1, [10, 1, 11]⟩, ⟨1, [10, 1, 12]⟩, ⟨1, [13]⟩]

/-- `a … a d c … c`. -/
def twiceInput (n : Nat) : List (Token Unit Nat) :=
  List.replicate n ⟨none, 10⟩ ++ ⟨none, 13⟩ :: List.replicate n ⟨none, 12⟩

theorem twiceInput_a {n q : Nat} (h : q < n) : (twiceInput n)[q]? = some ⟨none, 10⟩ := by
  unfold twiceInput
  rw [List.getElem?_append_left (by simpa using h)]
  simp [h]

theorem twiceInput_d (n : Nat) : (twiceInput n)[n]? = some ⟨none, 13⟩ := by
  unfold twiceInput
  rw [List.getElem?_append_right (by simp)]
  simp

theorem twiceInput_c {n q : Nat} (h : n < q) (h' : q ≤ 2 * n) :
    (twiceInput n)[q]? = some ⟨none, 12⟩ := by
  unfold twiceInput
  rw [List.getElem?_append_right (by simp; omega)]
  rw [List.length_replicate, show q - n = (q - n - 1) + 1 by omega, List.getElem?_cons_succ]
  rw [List.getElem?_replicate, if_pos (by omega)]

/-- The facts about the parser of `closersPs` that are used. -/
structure Twice (p : Parser Nat Unit Nat) : Prop where
  a : p.getTokenProductions 1 10 = [[10, 1, 11], [10, 1, 12]]
  d : p.getTokenProductions 1 13 = [[13]]
  nt : p.grammar.isNonTerminal 1 = true
  t10 : p.grammar.isNonTerminal 10 = false
  t11 : p.grammar.isNonTerminal 11 = false
  t12 : p.grammar.isNonTerminal 12 = false
  t13 : p.grammar.isNonTerminal 13 = false
  eps : p.grammar.epsilonSymbol = 0
  solver : p.syntaxErrorSolver = none

/-- What is claimed of `S` at a position. -/
def TwiceCost (n pos c : Nat) (r : Out (ParseSymbolResult Unit Nat × Nat)) : Prop :=
  r = .fuel ∨ ∃ s c', r = .ok (.ok s, c') ∧ c' + 2 ^ (n - pos) ≤ c ∧
    s.finalTokenPosition = 2 * n + 1 - pos ∧ s.prodIterOption = some []

theorem twice_symbol {p : Parser Nat Unit Nat} (X : Twice p) {tokens : List (Token Unit Nat)}
    {rec : Parser.Rec Nat Unit Nat} {x y pos : Nat} (hx : x ∈ [10, 11, 12, 13])
    (ht : tokens[pos]? = some ⟨none, y⟩) (sg : Bool) (c : Nat) :
    Parser.parseProductionSymbol p tokens rec x pos sg c =
      .ok (if x = y then .ok ⟨pos, pos + 1, none, .mk [] ⟨none, y⟩⟩ else .err (.mk [] x), c) := by
  have hnt : p.grammar.isNonTerminal x = false := by
    simp only [List.mem_cons, List.not_mem_nil, or_false] at hx
    rcases hx with rfl | rfl | rfl | rfl
    exacts [X.t10, X.t11, X.t12, X.t13]
  have hx0 : 0 ≠ x := by
    rintro rfl
    simp at hx
  rw [Parser.parseProductionSymbol, hnt]
  simp only [Parser.parseTerminalSymbol, X.eps, if_neg hx0, Parser.parseNonEpsilonTerminalSymbol, ht]
  by_cases h : x = y
  · subst h; simp [Token.clone]
  · simp [h, Parser.buildTokenFailedSymbol]

theorem twice_retry {p : Parser Nat Unit Nat} (X : Twice p) (tokens : List (Token Unit Nat))
    (loop d x pos : Nat) (sg : Bool) (c : Nat) :
    p.innerParseCalls tokens loop d x pos [] sg c = .fuel ∨
    ∃ f c', p.innerParseCalls tokens loop d x pos [] sg c = .ok (.err f, c') ∧ c' ≤ c := by
  cases d with
  | zero => exact .inl rfl
  | succ d =>
    cases c with
    | zero => exact .inl rfl
    | succ c =>
      refine .inr ⟨.mk [] x, c, ?_, by omega⟩
      rw [Parser.innerParseCalls]
      simp only [Parser.tryParseProductionsLoop]
      rw [M.bind_apply]
      simp only [M.pure_apply]
      rw [M.bind_apply]
      simp [Parser.tryFixProductions, X.solver, Parser.fixOptionToResult]

/-- One production `S → a S z`. -/
theorem twice_production {p : Parser Nat Unit Nat} (X : Twice p) {n loop d pos z : Nat}
    (hz : z = 11 ∨ z = 12) (hpos : pos < n)
    (ih : ∀ outs sg c, (∀ t, (twiceInput n)[pos + 1]? = some t → outs = p.getTokenProductions 1 t.tType) →
      TwiceCost n (pos + 1) c (p.innerParseCalls (twiceInput n) loop d 1 (pos + 1) outs sg c))
    (l : Nat) (sg : Bool) (c : Nat) :
    Parser.productionLoop p (twiceInput n) (p.innerParseCalls (twiceInput n) loop d) 1 [10, 1, z] sg l []
      pos c = .fuel ∨
    ∃ r c', Parser.productionLoop p (twiceInput n) (p.innerParseCalls (twiceInput n) loop d) 1 [10, 1, z]
      sg l [] pos c = .ok (r, c') ∧ c' + 2 ^ (n - (pos + 1)) ≤ c ∧
      (z = 11 → ∃ f, r.1 = .err f) ∧ (z = 12 → ∃ node, r = (.ok node, 2 * n + 1 - pos)) := by
  have hzm : z ∈ [10, 11, 12, 13] := by rcases hz with rfl | rfl <;> simp
  cases l with
  | zero => exact .inl rfl
  | succ l =>
    rw [Parser.productionLoop]
    simp only [List.length_nil, List.length_cons, Nat.zero_lt_succ, if_true, List.getElem?_cons_zero]
    rw [M.bind_apply, twice_symbol X (x := 10) (by simp) (twiceInput_a hpos)]
    simp only [if_true]
    cases l with
    | zero => exact .inl rfl
    | succ l =>
      rw [Parser.productionLoop]
      simp only [List.length_nil, List.length_cons, Nat.zero_add, Nat.reduceAdd, Nat.reduceLT, if_true,
        List.getElem?_cons_succ, List.getElem?_cons_zero]
      rw [M.bind_apply, Parser.parseProductionSymbol, if_pos X.nt, Parser.parseProductionNonTerminal]
      obtain ⟨t, ht⟩ : ∃ t, (twiceInput n)[pos + 1]? = some t := by
        rcases Nat.lt_or_ge (pos + 1) n with h | h
        · exact ⟨_, twiceInput_a h⟩
        · have : pos + 1 = n := by omega
          exact ⟨⟨none, 13⟩, by rw [this]; exact twiceInput_d n⟩
      simp only [ht]
      rcases ih (p.getTokenProductions 1 t.tType) sg c (fun t' ht' => by
        rw [ht] at ht'; cases ht'; rfl) with h | ⟨s, c', h1, h2, h3, h4⟩
      · rw [h]; exact .inl rfl
      · rw [h1]
        simp only
        cases l with
        | zero => exact .inl rfl
        | succ l =>
          rw [Parser.productionLoop]
          simp only [List.length_nil, List.length_cons, Nat.zero_add, Nat.reduceAdd, Nat.reduceLT,
            if_true, List.getElem?_cons_succ, List.getElem?_cons_zero]
          have hget := twiceInput_c (n := n) (q := s.finalTokenPosition) (by omega) (by omega)
          rw [M.bind_apply, twice_symbol X hzm hget]
          rcases hz with rfl | rfl
          · simp only [Nat.reduceEqDiff, if_false]
            rw [M.bind_apply, Parser.popStates]
            simp only [h4]
            rw [M.bind_apply]
            rcases twice_retry X (twiceInput n) loop d s.node.token.tType s.initialTokenPosition sg c'
              with h | ⟨f, c2, h5, h6⟩
            · rw [h]; exact .inl rfl
            · rw [h5]
              simp only [Parser.popStates]
              refine .inr ⟨_, c2, rfl, by omega, fun _ => ⟨_, rfl⟩, fun h => by simp at h⟩
          · simp only [if_true]
            cases l with
            | zero => exact .inl rfl
            | succ l =>
              rw [Parser.productionLoop]
              simp only [List.length_nil, List.length_cons, Nat.zero_add, Nat.reduceAdd, Nat.lt_irrefl,
                if_false]
              refine .inr ⟨_, c', rfl, h2, fun h => by simp at h, fun _ =>
                ⟨.mk [.mk [] ⟨none, 10⟩, s.node, .mk [] ⟨none, 12⟩] ⟨none, 1⟩, ?_⟩⟩
              rw [Prod.mk.injEq]
              exact ⟨rfl, by omega⟩

theorem twice_cost {p : Parser Nat Unit Nat} (X : Twice p) (n loop d : Nat) : ∀ pos outs sg c, pos ≤ n →
    (∀ t, (twiceInput n)[pos]? = some t → outs = p.getTokenProductions 1 t.tType) →
    TwiceCost n pos c (p.innerParseCalls (twiceInput n) loop d 1 pos outs sg c) := by
  induction d with
  | zero => intros; exact .inl rfl
  | succ d ih =>
    intro pos outs sg c hpos ho
    cases c with
    | zero => exact .inl rfl
    | succ c =>
      rw [Parser.innerParseCalls]
      simp only
      rw [M.bind_apply]
      rcases Nat.lt_or_ge pos n with hlt | hge
      · rw [ho _ (twiceInput_a hlt), X.a, Parser.tryParseProductionsLoop, M.bind_apply]
        have ih' := fun outs sg c => ih (pos + 1) outs sg c (by omega)
        have hpow : 2 ^ (n - pos) = 2 ^ (n - (pos + 1)) + 2 ^ (n - (pos + 1)) := by
          rw [show n - pos = (n - (pos + 1)) + 1 by omega, Nat.pow_succ]
          omega
        rcases twice_production X (z := 11) (.inl rfl) hlt ih' loop
          (Parser.isChildSinglePath sg [[10, 1, 11], [10, 1, 12]]) c with h | ⟨⟨r, q⟩, c1, h1, h2, h3, _⟩
        · rw [h]; exact .inl rfl
        · obtain ⟨f, hf⟩ := h3 rfl
          simp only at hf
          subst hf
          rw [h1]
          simp only
          rw [Parser.tryParseProductionsLoop, M.bind_apply]
          rcases twice_production X (z := 12) (.inr rfl) hlt ih' loop
            (Parser.isChildSinglePath sg [[10, 1, 11], [10, 1, 12]]) c1 with h | ⟨r, c2, h4, h5, _, h6⟩
          · rw [h]; exact .inl rfl
          · obtain ⟨node, hnode⟩ := h6 rfl
            subst hnode
            rw [h4]
            exact .inr ⟨_, c2, rfl, by omega, rfl, rfl⟩
      · have : pos = n := by omega
        subst this
        rw [ho _ (twiceInput_d pos), X.d, Parser.tryParseProductionsLoop, M.bind_apply]
        cases loop with
        | zero => exact .inl rfl
        | succ loop =>
          rw [Parser.productionLoop]
          simp only [List.length_nil, List.length_cons, Nat.zero_lt_succ, if_true,
            List.getElem?_cons_zero]
          rw [M.bind_apply, twice_symbol X (x := 13) (by simp) (twiceInput_d pos)]
          simp only [if_true]
          cases loop with
          | zero => exact .inl rfl
          | succ loop =>
            rw [Parser.productionLoop]
            simp only [List.length_nil, List.length_cons, Nat.lt_irrefl, if_false]
            refine .inr ⟨_, c, rfl, by simp, ?_, rfl⟩
            simp only
            omega

/-- The input is accepted: the ordered choice finds it. -/
theorem twice_choice {cand : Nat → Nat → List (List Nat)}
    (h1 : cand 1 10 = [[10, 1, 11], [10, 1, 12]]) (h2 : cand 1 13 = [[13]]) {n : Nat} (k pos : Nat)
    (hk : pos + k = n) : ∃ t node, (twiceInput n)[pos]? = some t ∧
    Choice 0 closersPs cand (twiceInput n) 1 pos (cand 1 t.tType) (.found (node, 2 * n + 1 - pos, [])) := by
  have hT : ∀ x, x ≠ 1 → ¬ IsNonTerminal closersPs x := by
    rintro x hx ⟨r, hr, rfl⟩
    simp [closersPs] at hr
    rcases hr with rfl | rfl | rfl <;> exact hx rfl
  have hS : IsNonTerminal closersPs 1 := ⟨⟨1, [13]⟩, by simp [closersPs], rfl⟩
  induction k generalizing pos with
  | zero =>
    have : pos = n := by omega
    subst this
    refine ⟨_, .mk [.mk [] ⟨none, 13⟩] ⟨none, 1⟩, twiceInput_d pos, ?_⟩
    rw [h2]
    refine .here _ _ _ _ [.mk [] ⟨none, 13⟩] _ ?_
    have := Seq.terminal (eps := 0) (ps := closersPs) (cand := cand) [] pos ⟨none, 13⟩ _
      (hT 13 (by simp)) (by simp) (twiceInput_d pos) (.nil (pos + 1))
    rw [show 2 * pos + 1 - pos = pos + 1 by omega]
    exact this
  | succ k ih =>
    obtain ⟨t, node, ht, hc⟩ := ih (pos + 1) (by omega)
    refine ⟨_, .mk [.mk [] ⟨none, 10⟩, node, .mk [] ⟨none, 12⟩] ⟨none, 1⟩, twiceInput_a (by omega), ?_⟩
    rw [h1]
    have hget := twiceInput_c (n := n) (q := 2 * n + 1 - (pos + 1)) (by omega) (by omega)
    refine .next _ _ _ _ _ ?_ (.here _ _ _ _ _ _ ?_)
    · have hm : Seq 0 closersPs cand (twiceInput n) [11] (2 * n + 1 - (pos + 1)) .failed :=
        .mismatch _ _ _ (hT 11 (by simp)) (by simp) (fun t' ht' => by
          rw [hget] at ht'; cases ht'; simp)
      exact Seq.terminal (eps := 0) (ps := closersPs) (cand := cand) [1, 11] pos ⟨none, 10⟩ .failed
        (hT 10 (by simp)) (by simp) (twiceInput_a (by omega))
        (.nonTerminal 1 [11] (pos + 1) t _ hS ht
          (.again _ _ _ _ _ _ _ _ hc hm (.failed _ _ _ _ (.none _ _))))
    · have hf := Seq.terminal (eps := 0) (ps := closersPs) (cand := cand) [] _ ⟨none, 12⟩ _
        (hT 12 (by simp)) (by simp) hget (.nil (2 * n + 1 - (pos + 1) + 1))
      have := Seq.terminal (eps := 0) (ps := closersPs) (cand := cand) [1, 12] pos ⟨none, 10⟩ _
        (hT 10 (by simp)) (by simp) (twiceInput_a (by omega))
        (.nonTerminal 1 [12] (pos + 1) t _ hS ht (.found _ _ _ _ _ _ _ _ _ hc hf))
      rw [show 2 * n + 1 - (pos + 1) + 1 = 2 * n + 1 - pos by omega] at this
      exact this

/-- Without the condition on the table the number of calls can be exponential, for accepted inputs: the
parser of `S → a S b | a S c | d` (not left-recursive, not ambiguous) accepts `a … a d c … c` with `n`
symbols `a` and `n` symbols `c`, and needs at least `2 ^ n` calls for it. -/
theorem C56_exponential_calls : NotLeftRecursive 0 closersPs ∧ ∃ g p,
    Grammar.new (HashOrder.id Nat) 0 1 closersPs = .ok g ∧
    Built (σ := Nat) (L := Unit) (HashOrder.id Nat) g none p ∧
    ∀ n, (∃ tree, Parses p (twiceInput n) 0 (.ok tree) 0) ∧
      ∀ calls loop, calls < 2 ^ n → p.parseFromTokensCalls calls loop (twiceInput n) = .fuel := by
  refine ⟨notLeftRecursive_of_rank (fun _ => false) (fun x => if x = 1 then 1 else 0) (by decide), ?_⟩
  obtain ⟨g, p, hg, hp, X, hi⟩ : ∃ g p, Grammar.new (HashOrder.id Nat) 0 1 closersPs = .ok g ∧
      Built (σ := Nat) (L := Unit) (HashOrder.id Nat) g none p ∧ Twice p ∧ p.grammar.initialSymbol = 1 :=
    ⟨_, _, rfl, Parser.built_of_eval (n := 10) rfl, ⟨rfl, rfl, rfl, rfl, rfl, rfl, rfl, rfl, rfl⟩, rfl⟩
  refine ⟨g, p, hg, hp, fun n => ?_⟩
  obtain ⟨t, ts, hts⟩ : ∃ t ts, twiceInput n = t :: ts := by
    cases n with
    | zero => exact ⟨_, _, rfl⟩
    | succ n => exact ⟨_, _, rfl⟩
  have hcand : ∀ x a, candidates p.transitions x a = p.getTokenProductions x a :=
    fun x a => (Parser.getTokenProductions_eq p x a).symm
  constructor
  · obtain ⟨t', node, ht', hc⟩ := twice_choice (cand := candidates p.transitions)
      (by rw [hcand]; exact X.a) (by rw [hcand]; exact X.d) n 0 (by omega : 0 + n = n)
    rw [hts] at ht' hc ⊢
    simp only [List.getElem?_cons_zero, Option.some.injEq] at ht'
    subst ht'
    exact ⟨⟨node⟩, ((C24_ordered_choice _ 0 1 closersPs g hg p hp t ts 0).1 ⟨node⟩ 0).2
      ⟨rfl, _, _, hc⟩⟩
  · intro calls loop hlt
    have := twice_cost X n loop calls 0 (p.getTokenProductions 1 t.tType) true calls (by omega)
      (fun t' ht' => by
        rw [hts] at ht'
        simp only [List.getElem?_cons_zero, Option.some.injEq] at ht'
        rw [ht'])
    unfold Parser.parseFromTokensCalls
    rw [if_neg (by rw [hts]; simp)]
    have h0 : (twiceInput n)[0]? = some t := by rw [hts]; rfl
    rw [h0]
    simp only
    rw [M.bind_apply, hi]
    rcases this with h | ⟨s, c', _, h2, _⟩
    · rw [h]
    · rw [Nat.sub_zero] at h2
      omega

end Verif.Props
