import Verif.Spec.Observe
import Verif.Proof.ParserHoare
import Verif.Proof.ParserMono
import Verif.Props.Table

/-! # From the public constructors to the facts used about a parser -/

set_option linter.unusedSectionVars false

namespace Verif

open Spec

variable {σ L T : Type} [DecidableEq T]

namespace Parser

theorem getTokenProductions_eq (p : Parser σ L T) (x a : T) :
    p.getTokenProductions x a = candidates p.transitions x a := by
  unfold getTokenProductions candidates
  cases p.transitions.getProductions x a <;> rfl

theorem from_eq_ok {h : HashOrder T} {g : Grammar T} {ff : FirstFollow T}
    {solver : Option (Solver σ L T)} {p : Parser σ L T} (e : Parser.from h g ff solver = .ok p) :
    p.grammar = g ∧ p.syntaxErrorSolver = solver ∧ Transitions.from h g ff = .ok p.transitions := by
  unfold Parser.from at e
  rw [Out.bind_eq_ok] at e
  obtain ⟨t, e1, e2⟩ := e
  simp only [Out.ok.injEq] at e2
  subst e2
  exact ⟨rfl, rfl, e1⟩

/-- A parser made from any FIRST and FOLLOW sets. -/
theorem parserOf_of_from {h : HashOrder T} {eps init : T} {ps : List (Production T)} {g : Grammar T}
    (hg : Grammar.new h eps init ps = .ok g) {ff : FirstFollow T} {solver : Option (Solver σ L T)}
    {p : Parser σ L T} (e : Parser.from h g ff solver = .ok p) : ParserOf eps init ps p := by
  obtain ⟨h1, h2, h3⟩ := from_eq_ok e
  have G := Grammar.grammarOf_of_new hg
  have hT := Transitions.tableOf_of_from G h3
  refine ⟨h1 ▸ G, ?_, ?_⟩
  swap
  · intro x a
    rw [getTokenProductions_eq]
    unfold candidates
    by_cases hc : IsNonTerminal ps x ∧ IsTerminal ps a
    · rw [hT.some x a hc.1 hc.2]
      simp only [Option.getD_some, List.length_map]
      exact List.length_filter_le _ _
    · rw [hT.none x a hc]
      simp
  intro x a out hout
  rw [getTokenProductions_eq] at hout
  unfold candidates at hout
  by_cases hc : IsNonTerminal ps x ∧ IsTerminal ps a
  · rw [hT.some x a hc.1 hc.2] at hout
    simp only [Option.getD_some, List.mem_map, List.mem_filter, decide_eq_true_eq] at hout
    obtain ⟨q, ⟨hq, rfl, _⟩, rfl⟩ := hout
    exact hq
  · rw [hT.none x a hc] at hout
    simp at hout

/-- What the public constructors do. -/
theorem built_iff {h : HashOrder T} {eps init : T} {ps : List (Production T)} {g : Grammar T}
    (hg : Grammar.new h eps init ps = .ok g) {solver : Option (Solver σ L T)} {p : Parser σ L T} :
    Built h g solver p ↔ ∃ ff, Returns (fun n => FirstFollow.from h n g) ff ∧
      Parser.from h g ff solver = .ok p := by
  obtain ⟨ff, hff⟩ := Props.C04_first_follow_returns h eps init ps g hg
  obtain ⟨N, hN⟩ := hff
  have key : ∀ (k : FirstFollow T → Out (Parser σ L T)),
      Returns (fun n => FirstFollow.from h n g >>= k) p ↔ k ff = .ok p := by
    intro k
    constructor
    · rintro ⟨M, hM⟩
      have := hM (max N M) (by omega)
      simp only [hN (max N M) (by omega), Out.bind_ok] at this
      exact this
    · intro hk
      exact ⟨N, fun n hn => by simp only [hN n hn, Out.bind_ok, hk]⟩
  have : Built h g solver p ↔ Parser.from h g ff solver = .ok p := by
    unfold Built
    cases solver with
    | none => exact key _
    | some sv => exact key _
  rw [this]
  constructor
  · intro e
    exact ⟨ff, ⟨N, hN⟩, e⟩
  · rintro ⟨ff', h1, h2⟩
    rw [Props.Returns.det ⟨N, hN⟩ h1]
    exact h2

theorem built_of_eval {h : HashOrder T} {n : Nat} {g : Grammar T} {p : Parser σ L T}
    (e : fromGrammar h n g = .ok p) : Built h g none p := by
  unfold fromGrammar at e
  rw [Out.bind_eq_ok] at e
  obtain ⟨ff, e1, e2⟩ := e
  obtain ⟨N, hN⟩ := FirstFollow.returns_of_from e1
  refine ⟨N, fun m hm => ?_⟩
  simp only [fromGrammar, hN m hm, Out.bind_ok, e2]

theorem built_of_eval_solver {h : HashOrder T} {n : Nat} {g : Grammar T} {sv : Solver σ L T}
    {p : Parser σ L T} (e : fromGrammarAndSolver h n g sv = .ok p) : Built h g (some sv) p := by
  unfold fromGrammarAndSolver at e
  rw [Out.bind_eq_ok] at e
  obtain ⟨ff, e1, e2⟩ := e
  obtain ⟨N, hN⟩ := FirstFollow.returns_of_from e1
  refine ⟨N, fun m hm => ?_⟩
  simp only [fromGrammarAndSolver, hN m hm, Out.bind_ok, e2]

theorem built_exists {h : HashOrder T} {eps init : T} {ps : List (Production T)} {g : Grammar T}
    (hg : Grammar.new h eps init ps = .ok g) (solver : Option (Solver σ L T)) :
    ∃ p, Built h g solver p := by
  obtain ⟨ff, hff⟩ := Props.C04_first_follow_returns h eps init ps g hg
  obtain ⟨t, ht, _⟩ := Props.C12_table_cells h eps init ps g hg ff hff
  refine ⟨⟨g, solver, t⟩, (built_iff hg).2 ⟨ff, hff, ?_⟩⟩
  simp [Parser.from, ht]

/-- A built parser and its table. -/
structure TableParser (eps init : T) (ps : List (Production T)) (p : Parser σ L T) : Prop extends
    ParserOf eps init ps p where
  cell : ∀ x a out, out ∈ p.getTokenProductions x a ↔
    (⟨x, out⟩ : Production T) ∈ ps ∧ Transitions.Lead eps ps ⟨x, out⟩ a

theorem tableParser_of_built {h : HashOrder T} {eps init : T} {ps : List (Production T)}
    {g : Grammar T} (hg : Grammar.new h eps init ps = .ok g) {solver : Option (Solver σ L T)}
    {p : Parser σ L T} (hp : Built h g solver p) :
    TableParser eps init ps p ∧ p.syntaxErrorSolver = solver := by
  obtain ⟨ff, hff, e⟩ := (built_iff hg).1 hp
  have P := parserOf_of_from hg e
  obtain ⟨h1, h2, h3⟩ := from_eq_ok e
  refine ⟨⟨P, ?_⟩, h2⟩
  obtain ⟨S, hS, hL⟩ := Props.table_spec hg hff h3
  intro x a out
  rw [getTokenProductions_eq]
  unfold candidates
  by_cases hc : IsNonTerminal ps x ∧ IsTerminal ps a
  · rw [hS.some x a hc.1 hc.2]
    simp only [Option.getD_some, List.mem_map, List.mem_filter, decide_eq_true_eq]
    constructor
    · rintro ⟨q, ⟨hq, rfl, ha⟩, rfl⟩
      exact ⟨hq, (hL q hq a).1 ha⟩
    · rintro ⟨hq, ha⟩
      exact ⟨_, ⟨hq, rfl, (hL _ hq a).2 ha⟩, rfl⟩
  · rw [hS.none x a hc]
    simp only [Option.getD_none, List.map_nil, List.not_mem_nil, false_iff, not_and]
    intro hq ha
    exact hc ⟨⟨_, hq, rfl⟩, ha.isTerminal.1⟩

variable {eps init : T} {ps : List (Production T)}

/-- What holds of every result of `parse_from_tokens`. -/
theorem parse_post {p : Parser σ L T} (P : ParserOf eps init ps p) {tokens : List (Token L T)}
    {n : Nat} {s s' : σ} {r : ParseResult L T}
    (e : p.parseFromTokens n tokens s = .ok (r, s')) :
    ∃ t, tokens[0]? = some t ∧ ∃ r', toParseResult r' = r ∧
      innerParse p tokens n init 0 (p.getTokenProductions init t.tType) true s = .ok (r', s') ∧
      Post eps ps p tokens init 0 (p.getTokenProductions init t.tType) r' := by
  unfold parseFromTokens at e
  split at e
  · simp at e
  · cases ht : tokens[0]? with
    | none => simp [ht] at e
    | some t =>
      simp only [ht] at e
      rw [M.bind_eq_ok] at e
      obtain ⟨r', s1, e1, e2⟩ := e
      simp only [M.pure_apply, Out.ok.injEq, Prod.mk.injEq] at e2
      obtain ⟨rfl, rfl⟩ := e2
      rw [P.grammar.init_eq] at e1
      exact ⟨t, rfl, r', rfl, e1, innerParse_spec P tokens n ⟨t, ht, List.suffix_refl _⟩ e1⟩

theorem parses_at {p : Parser σ L T} {tokens : List (Token L T)} {s s' : σ} {r : ParseResult L T}
    (h : Parses p tokens s r s') : ∃ n, p.parseFromTokens n tokens s = .ok (r, s') := by
  obtain ⟨N, hN⟩ := h
  exact ⟨N, hN N (Nat.le_refl _)⟩

theorem Parses.det {p : Parser σ L T} {tokens : List (Token L T)} {s s1 s2 : σ}
    {r1 r2 : ParseResult L T} (h1 : Parses p tokens s r1 s1) (h2 : Parses p tokens s r2 s2) :
    r1 = r2 ∧ s1 = s2 := by
  simpa using Props.Returns.det h1 h2

theorem word_zero (tokens : List (Token L T)) (k : Nat) : word tokens 0 k = tokens.take k := by
  simp [word]

end Parser

end Verif
