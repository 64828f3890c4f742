import Verif.Spec.Results
import Verif.Proof.ParseTree
import Verif.Proof.Transitions

/-! # What holds of every result of the parser -/

set_option linter.unusedSectionVars false

namespace Verif

open Spec

variable {σ L T : Type} [DecidableEq T]

namespace Parser

/-- What the proofs need to know of a parser: its grammar was built from `ps` and the candidates of a
cell are outputs of productions of the symbol. -/
structure ParserOf (eps init : T) (ps : List (Production T)) (p : Parser σ L T) : Prop where
  grammar : GrammarOf eps init ps p.grammar
  cand : ∀ x a out, out ∈ p.getTokenProductions x a → (⟨x, out⟩ : Production T) ∈ ps
  count : ∀ x a, (p.getTokenProductions x a).length ≤ ps.length

/-- The tokens from position `i` up to position `j`. -/
def word (tokens : List (Token L T)) (i j : Nat) : List (Token L T) := (tokens.drop i).take (j - i)

theorem word_append (tokens : List (Token L T)) {i j k : Nat} (hij : i ≤ j) (hjk : j ≤ k) :
    word tokens i j ++ word tokens j k = word tokens i k := by
  unfold word
  rw [show k - i = (j - i) + (k - j) by omega, List.take_add, List.drop_drop]
  rw [show i + (j - i) = j by omega]

theorem word_self (tokens : List (Token L T)) (i : Nat) : word tokens i i = [] := by
  simp [word]

theorem word_infix (tokens : List (Token L T)) (i j : Nat) : (word tokens i j).IsInfix tokens := by
  unfold word
  exact (List.take_prefix _ _).isInfix.trans (List.drop_suffix _ _).isInfix

theorem word_one {tokens : List (Token L T)} {i : Nat} {t : Token L T} (h : tokens[i]? = some t) :
    word tokens i (i + 1) = [t] := by
  obtain ⟨hi, rfl⟩ := List.getElem?_eq_some_iff.1 h
  unfold word
  rw [show i + 1 - i = 1 by omega, List.drop_eq_getElem_cons hi]
  rfl

variable {eps init : T} {ps : List (Production T)}

/-- The state of a successfully parsed symbol. -/
structure OkState (eps : T) (ps : List (Production T)) (tokens : List (Token L T)) (x : T)
    (pos : Nat) (s : ParsingState L T) : Prop where
  initial : s.initialTokenPosition = pos
  le : pos ≤ s.finalTokenPosition
  tree : IsTree eps ps x (word tokens pos s.finalTokenPosition) s.node

/-- The precondition of `inner_parse_from_tokens`: the position is inside the tokens and the outputs
are the last ones of the candidates of `x` for the token there. -/
def Pre (p : Parser σ L T) (tokens : List (Token L T)) (x : T) (pos : Nat) (outs : List (List T)) :
    Prop :=
  ∃ t, tokens[pos]? = some t ∧ outs.IsSuffix (p.getTokenProductions x t.tType)

theorem Pre.lt {p : Parser σ L T} {tokens : List (Token L T)} {x : T} {pos : Nat}
    {outs : List (List T)} (h : Pre p tokens x pos outs) : pos < tokens.length := by
  obtain ⟨t, ht, _⟩ := h
  exact (List.getElem?_eq_some_iff.1 ht).1

theorem Pre.suffix {p : Parser σ L T} {tokens : List (Token L T)} {x : T} {pos : Nat}
    {outs outs' : List (List T)} (h : Pre p tokens x pos outs) (hs : outs'.IsSuffix outs) :
    Pre p tokens x pos outs' := by
  obtain ⟨t, ht, h'⟩ := h
  exact ⟨t, ht, hs.trans h'⟩

theorem Pre.mem {p : Parser σ L T} (P : ParserOf eps init ps p) {tokens : List (Token L T)} {x : T}
    {pos : Nat} {outs : List (List T)} (h : Pre p tokens x pos outs) {out : List T}
    (ho : out ∈ outs) : (⟨x, out⟩ : Production T) ∈ ps := by
  obtain ⟨t, ht, h'⟩ := h
  exact P.cand _ _ _ (h'.subset ho)

/-- The alternatives kept in a state. -/
def IterOk (ps : List (Production T)) (p : Parser σ L T) (tokens : List (Token L T)) (x : T)
    (s : ParsingState L T) : Prop :=
  (IsNonTerminal ps x → ∃ it, s.prodIterOption = some it ∧
    Pre p tokens x s.initialTokenPosition it) ∧
  (¬ IsNonTerminal ps x → s.prodIterOption = none)

/-- What holds of the result of parsing the symbol `x` at `pos` with the given candidates. -/
def Post (eps : T) (ps : List (Production T)) (p : Parser σ L T) (tokens : List (Token L T)) (x : T)
    (pos : Nat) (outs : List (List T)) : ParseSymbolResult L T → Prop
  | .ok s => OkState eps ps tokens x pos s ∧
      ∃ rest, s.prodIterOption = some rest ∧ rest.length < outs.length ∧ rest.IsSuffix outs
  | .err f => ∃ fps, f = .mk fps x ∧ FailedProdsOk eps ps p.syntaxErrorSolver.isSome
      p.getTokenProductions tokens outs fps
  | .fix s => FixSymOk eps ps p.syntaxErrorSolver tokens x s.fixedSymbol ∧
      p.syntaxErrorSolver.isSome = true ∧ s.fixedSymbol.symbolToDerive = x ∧
      (∀ k, SolverMoves k p.syntaxErrorSolver tokens → pos + k ≤ s.finalTokenPosition)

/-- The contract of the recursive call. -/
def RecOk (eps : T) (ps : List (Production T)) (p : Parser σ L T) (tokens : List (Token L T))
    (rec : Rec σ L T) : Prop :=
  ∀ x pos outs sg s r s', IsNonTerminal ps x → Pre p tokens x pos outs →
    rec x pos outs sg s = .ok (r, s') → Post eps ps p tokens x pos outs r

/-- The stack of `inner_parse_from_tokens_production`, top first, for the symbols already parsed,
last first; the last argument is the position reached. -/
inductive StackOk (eps : T) (ps : List (Production T)) (p : Parser σ L T) (tokens : List (Token L T))
    (pos0 : Nat) : List T → List (PState L T) → Nat → Prop where
  | nil : StackOk eps ps p tokens pos0 [] [] pos0
  | parsing {x : T} {xs : List T} {st : List (PState L T)} {q : Nat} {s : ParsingState L T} :
      OkState eps ps tokens x q s → IterOk ps p tokens x s → StackOk eps ps p tokens pos0 xs st q →
      StackOk eps ps p tokens pos0 (x :: xs) (.parsing s :: st) s.finalTokenPosition
  | fixed {x : T} {xs : List T} {st : List (PState L T)} {q : Nat} {s : FixedState L T} :
      IsNonTerminal ps x → FixSymOk eps ps p.syntaxErrorSolver tokens x s.fixedSymbol →
      p.syntaxErrorSolver.isSome = true → s.fixedSymbol.symbolToDerive = x →
      (∀ k, SolverMoves k p.syntaxErrorSolver tokens → q + k ≤ s.finalTokenPosition) →
      StackOk eps ps p tokens pos0 xs st q →
      StackOk eps ps p tokens pos0 (x :: xs) (.fixed s :: st) s.finalTokenPosition

namespace StackOk

variable {p : Parser σ L T} {tokens : List (Token L T)} {pos0 : Nat}

theorem length {xs : List T} {st : List (PState L T)} {q : Nat}
    (h : StackOk eps ps p tokens pos0 xs st q) : xs.length = st.length := by
  induction h <;> simp_all

theorem top {xs : List T} {s : PState L T} {st : List (PState L T)} {q : Nat}
    (h : StackOk eps ps p tokens pos0 xs (s :: st) q) : q = s.finalTokenPosition := by
  cases h <;> rfl

/-- A stack without fixed states: the nodes form a forest over the tokens read. -/
theorem forest {xs : List T} {st : List (PState L T)} {q : Nat}
    (h : StackOk eps ps p tokens pos0 xs st q) (hf : st.any PState.isFixed = false) :
    pos0 ≤ q ∧ ∃ ns, statesToNodes st.reverse = .ok ns ∧
      IsForest eps ps xs.reverse (word tokens pos0 q) ns := by
  have happ : ∀ (a b : List (PState L T)) (l1 l2 : List (Node L T)), statesToNodes a = .ok l1 →
      statesToNodes b = .ok l2 → statesToNodes (a ++ b) = .ok (l1 ++ l2) := by
    intro a
    induction a with
    | nil => intro b l1 l2 h1 h2; simp only [statesToNodes, Out.ok.injEq] at h1; subst h1; simpa
    | cons s a ih =>
      intro b l1 l2 h1 h2
      cases s with
      | fixed s => simp [statesToNodes] at h1
      | parsing s =>
        simp only [statesToNodes, Out.bind_eq_ok] at h1
        obtain ⟨l, h1, h3⟩ := h1
        simp only [Out.ok.injEq] at h3
        subst h3
        simp [statesToNodes, ih b l l2 h1 h2]
  induction h with
  | nil => exact ⟨Nat.le_refl _, [], rfl, by rw [word_self]; exact .nil⟩
  | parsing hs hi hst ih =>
    rename_i x xs st q s
    simp only [List.any_cons, PState.isFixed, Bool.false_or] at hf
    obtain ⟨hle, ns, h1, h2⟩ := ih hf
    refine ⟨Nat.le_trans hle hs.le, ns ++ [s.node], ?_, ?_⟩
    · rw [List.reverse_cons]
      exact happ _ _ _ _ h1 rfl
    · rw [List.reverse_cons, ← word_append tokens hle hs.le]
      exact h2.append (.single hs.tree)
  | fixed => simp [PState.isFixed] at hf

theorem moves {xs : List T} {st : List (PState L T)} {q : Nat}
    (h : StackOk eps ps p tokens pos0 xs st q) {k : Nat}
    (hp : SolverMoves k p.syntaxErrorSolver tokens) :
    pos0 ≤ q ∧ (st.any PState.isFixed = true → pos0 + k ≤ q) := by
  induction h with
  | nil => exact ⟨Nat.le_refl _, by simp⟩
  | parsing hs hi hst ih =>
    have := hs.le
    refine ⟨by omega, ?_⟩
    intro hf
    simp only [List.any_cons, PState.isFixed, Bool.false_or] at hf
    have := ih.2 hf
    omega
  | fixed _ _ _ _ hq _ ih =>
    have := hq k hp
    exact ⟨by omega, fun _ => by omega⟩

theorem progress {xs : List T} {st : List (PState L T)} {q : Nat}
    (h : StackOk eps ps p tokens pos0 xs st q) (hp : SolverProgress p.syntaxErrorSolver tokens) :
    pos0 ≤ q ∧ (st.any PState.isFixed = true → pos0 < q) :=
  h.moves (k := 1) hp

theorem parts {xs : List T} {st : List (PState L T)} {q : Nat}
    (h : StackOk eps ps p tokens pos0 xs st q) :
    FixPartsOk eps ps p.syntaxErrorSolver tokens xs.reverse (st.reverse.map stateToFixedPart) := by
  have happ : ∀ (xs ys : List T) (a b : List (FixedProductionPart L T)),
      FixPartsOk eps ps p.syntaxErrorSolver tokens xs a →
      FixPartsOk eps ps p.syntaxErrorSolver tokens ys b →
      FixPartsOk eps ps p.syntaxErrorSolver tokens (xs ++ ys) (a ++ b) := by
    intro xs
    induction xs with
    | nil => intro ys a b h1 h2; cases h1; exact h2
    | cons x xs ih =>
      intro ys a b h1 h2
      cases h1 with
      | ok _ _ w n parts hn hw hp => exact .ok _ _ w n _ hn hw (ih _ _ _ hp h2)
      | fixed _ _ fs parts hf hp => exact .fixed _ _ fs _ hf (ih _ _ _ hp h2)
  induction h with
  | nil => exact .nil
  | parsing hs hi hst ih =>
    rw [List.reverse_cons, List.reverse_cons, List.map_append]
    exact happ _ _ _ _ ih (.ok _ _ _ _ _ hs.tree (word_infix _ _ _) .nil)
  | fixed _ hf _ _ _ _ ih =>
    rw [List.reverse_cons, List.reverse_cons, List.map_append]
    exact happ _ _ _ _ ih (.fixed _ _ _ _ hf .nil)

end StackOk

theorem isNT_iff {p : Parser σ L T} (P : ParserOf eps init ps p) (x : T) :
    p.grammar.isNonTerminal x = true ↔ IsNonTerminal ps x :=
  FirstFollow.isNT_iff P.grammar x

theorem parsedOf_append {solver : Bool} {xs ys : List T} {a b : List (ProductionParsedSymbol L T)}
    (h : ParsedOf eps ps solver xs a) (h' : ParsedOf eps ps solver ys b) :
    ParsedOf eps ps solver (xs ++ ys) (a ++ b) := by
  induction h with
  | nil => exact h'
  | terminal x xs w n l hx hn _ ih => exact .terminal _ _ w n _ hx hn ih
  | dropped x xs l hx _ ih => exact .dropped _ _ _ hx ih
  | fixed x xs fs l hx hs hf _ ih => exact .fixed _ _ fs _ hx hs hf ih

/-- Parsing a terminal. -/
theorem parseTerminalSymbol_spec {p : Parser σ L T} (P : ParserOf eps init ps p) {x : T}
    (hx : ¬ IsNonTerminal ps x) (tokens : List (Token L T)) (pos : Nat) :
    (∃ s, p.parseTerminalSymbol x tokens pos = .ok s ∧ OkState eps ps tokens x pos s ∧
      IterOk ps p tokens x s) ∨
    (p.parseTerminalSymbol x tokens pos = .err (.mk [] x) ∧ x ≠ eps) := by
  unfold parseTerminalSymbol
  by_cases he : p.grammar.epsilonSymbol = x
  · rw [if_pos he]
    rw [P.grammar.eps_eq] at he
    subst he
    refine .inl ⟨_, rfl, ⟨rfl, Nat.le_refl _, ?_⟩, fun h => absurd h hx, fun _ => rfl⟩
    simp only [word_self]
    exact .eps
  · rw [if_neg he]
    have hne : x ≠ eps := by rw [P.grammar.eps_eq] at he; exact fun e => he e.symm
    unfold parseNonEpsilonTerminalSymbol
    cases ht : tokens[pos]? with
    | none => exact .inr ⟨rfl, hne⟩
    | some t =>
      by_cases hxt : x = t.tType
      · simp only [if_pos hxt]
        refine .inl ⟨_, rfl, ⟨rfl, by simp, ?_⟩, fun h => absurd h hx, fun _ => rfl⟩
        simp only [word_one ht]
        subst hxt
        exact .leaf t hx hne
      · simp only [if_neg hxt]
        exact .inr ⟨rfl, hne⟩

/-- Backtracking: either a new stack, shorter or equal, or the report of what was parsed. -/
theorem popStates_spec {p : Parser σ L T} {tokens : List (Token L T)} {rec : Rec σ L T}
    (hrec : RecOk eps ps p tokens rec) {sg : Bool} {pos0 : Nat} {xs : List T}
    {st acc : List (PState L T)} {q : Nat} (hst : StackOk eps ps p tokens pos0 xs st q)
    {s s' : σ} {r : List (PState L T) × Option (List (PState L T))}
    (e : popStates rec sg st acc s = .ok (r, s')) :
    (∃ parsed, r.2 = some (parsed ++ acc.reverse) ∧
      ParsedOf eps ps p.syntaxErrorSolver.isSome xs.reverse (parsed.map stateToParsedSymbol)) ∨
    (r.2 = none ∧ ∃ xs' s1 st1 above q', r.1 = s1 :: st1 ∧ xs = above ++ xs' ∧
      StackOk eps ps p tokens pos0 xs' (s1 :: st1) q') := by
  induction hst generalizing acc s r with
  | nil =>
    simp only [popStates, M.pure_apply, Out.ok.injEq, Prod.mk.injEq] at e
    obtain ⟨rfl, rfl⟩ := e
    exact .inl ⟨[], by simp, .nil⟩
  | fixed hx hf hs hsym hq hst ih =>
    rename_i x xs st q s0
    rw [popStates] at e
    rcases ih e with ⟨parsed, h1, h2⟩ | ⟨h1, xs', s1, st1, above, q', h2, h3, h4⟩
    · refine .inl ⟨parsed ++ [.fixed s0], by simp [h1], ?_⟩
      rw [List.reverse_cons, List.map_append]
      refine parsedOf_append h2 (.fixed _ _ _ _ hx hs ?_ .nil)
      exact hsym
    · exact .inr ⟨h1, xs', s1, st1, x :: above, q', h2, by simp [h3], h4⟩
  | parsing hs hi hst ih =>
    rename_i x xs st q s0
    by_cases hx : IsNonTerminal ps x
    · obtain ⟨it, hit, hin⟩ := hi.1 hx
      rw [popStates] at e
      simp only [hit] at e
      rw [M.bind_eq_ok] at e
      obtain ⟨res, s1, e1, e2⟩ := e
      rw [hs.initial, hs.tree.label] at e1
      rw [hs.initial] at hin
      have hpost := hrec _ _ _ _ _ _ _ hx hin e1
      have hrest : ∀ {r'}, (popStates rec sg st acc s1 = .ok (r', s')) →
          (∃ parsed, r'.2 = some (parsed ++ acc.reverse) ∧
            ParsedOf eps ps p.syntaxErrorSolver.isSome (x :: xs).reverse
              (parsed.map stateToParsedSymbol)) ∨
          (r'.2 = none ∧ ∃ xs' s1 st1 above q', r'.1 = s1 :: st1 ∧ x :: xs = above ++ xs' ∧
            StackOk eps ps p tokens pos0 xs' (s1 :: st1) q') := by
        intro r' e'
        rcases ih e' with ⟨parsed, h1, h2⟩ | ⟨h1, xs', s1, st1, above, q', h2, h3, h4⟩
        · refine .inl ⟨parsed, h1, ?_⟩
          rw [List.reverse_cons]
          have := parsedOf_append h2 (.dropped x [] [] hx .nil)
          simpa using this
        · exact .inr ⟨h1, xs', s1, st1, x :: above, q', h2, by simp [h3], h4⟩
      cases res with
      | ok s2 =>
        simp only [M.pure_apply, Out.ok.injEq, Prod.mk.injEq] at e2
        obtain ⟨rfl, rfl⟩ := e2
        obtain ⟨ho, rest, hr1, _, hr3⟩ := hpost
        refine .inr ⟨rfl, x :: xs, _, st, [], _, rfl, rfl, .parsing ho ?_ hst⟩
        refine ⟨fun _ => ⟨rest, hr1, ?_⟩, fun h => absurd hx h⟩
        rw [ho.initial]
        exact hin.suffix hr3
      | err f => exact hrest e2
      | fix s2 => exact hrest e2
    · rw [popStates] at e
      simp only [hi.2 hx] at e
      rcases ih e with ⟨parsed, h1, h2⟩ | ⟨h1, xs', s1, st1, above, q', h2, h3, h4⟩
      · refine .inl ⟨parsed ++ [.parsing s0], by simp [h1], ?_⟩
        rw [List.reverse_cons, List.map_append]
        exact parsedOf_append h2 (.terminal _ _ _ _ _ hx hs.tree .nil)
      · exact .inr ⟨h1, xs', s1, st1, x :: above, q', h2, by simp [h3], h4⟩

/-- What holds of the result of one production. -/
def ProdPost (eps : T) (ps : List (Production T)) (p : Parser σ L T) (tokens : List (Token L T))
    (x : T) (pos : Nat) (out : List T) : ParseProductionResult L T × Nat → Prop
  | (.ok n, q) => pos ≤ q ∧ IsTree eps ps x (word tokens pos q) n
  | (.err f, _) => FailedProdsOk eps ps p.syntaxErrorSolver.isSome p.getTokenProductions tokens
      [out] [f]
  | (.fix fp, q) => FixSymOk eps ps p.syntaxErrorSolver tokens x (.mk fp x) ∧
      p.syntaxErrorSolver.isSome = true ∧ (∀ k, SolverMoves k p.syntaxErrorSolver tokens → pos + k ≤ q)

theorem StackOk.any_fixed_solver {p : Parser σ L T} {tokens : List (Token L T)} {pos0 : Nat}
    {xs : List T} {st : List (PState L T)} {q : Nat}
    (h : StackOk eps ps p tokens pos0 xs st q) (hf : st.any PState.isFixed = true) :
    p.syntaxErrorSolver.isSome = true := by
  induction h with
  | nil => simp at hf
  | parsing _ _ _ ih =>
    simp only [List.any_cons, PState.isFixed, Bool.false_or] at hf
    exact ih hf
  | fixed _ _ hs _ _ _ _ => exact hs

/-- Parsing one symbol of a production. -/
theorem parseProductionSymbol_spec {p : Parser σ L T} (P : ParserOf eps init ps p)
    {tokens : List (Token L T)} {rec : Rec σ L T} (hrec : RecOk eps ps p tokens rec) {y : T} {q : Nat}
    {sg : Bool} {s s1 : σ} {res : ParseSymbolResult L T}
    (e1 : parseProductionSymbol p tokens rec y q sg s = .ok (res, s1)) :
    (∃ s2, res = .ok s2 ∧ OkState eps ps tokens y q s2 ∧ IterOk ps p tokens y s2) ∨
    (∃ f, res = .err f ∧ FailedSymOk eps ps p.syntaxErrorSolver.isSome
      p.getTokenProductions tokens y f) ∨
    (∃ s2, res = .fix s2 ∧ IsNonTerminal ps y ∧
      FixSymOk eps ps p.syntaxErrorSolver tokens y s2.fixedSymbol ∧
      p.syntaxErrorSolver.isSome = true ∧ s2.fixedSymbol.symbolToDerive = y ∧
      (∀ k, SolverMoves k p.syntaxErrorSolver tokens → q + k ≤ s2.finalTokenPosition)) := by
  unfold parseProductionSymbol at e1
  by_cases hy : IsNonTerminal ps y
  · rw [if_pos ((isNT_iff P y).2 hy)] at e1
    unfold parseProductionNonTerminal at e1
    cases ht : tokens[q]? with
    | none => simp [ht] at e1
    | some t =>
      simp only [ht] at e1
      have hc : Pre p tokens y q (p.getTokenProductions y t.tType) :=
        ⟨t, ht, List.suffix_refl _⟩
      have hpost := hrec _ _ _ _ _ _ _ hy hc e1
      cases res with
      | ok s2 =>
        obtain ⟨ho, rest, hr1, _, hr3⟩ := hpost
        exact .inl ⟨s2, rfl, ho, fun _ => ⟨rest, hr1, ho.initial ▸ hc.suffix hr3⟩,
          fun h' => absurd hy h'⟩
      | err f =>
        obtain ⟨fps, rfl, hf⟩ := hpost
        exact .inr (.inl ⟨_, rfl, .nonTerminal y t fps hy (List.mem_of_getElem? ht) hf⟩)
      | fix s2 =>
        obtain ⟨h1, h2, h3, h4⟩ := hpost
        exact .inr (.inr ⟨s2, rfl, hy, h1, h2, h3, h4⟩)
  · rw [if_neg (fun h' => hy ((isNT_iff P y).1 h'))] at e1
    simp only [M.pure_apply, Out.ok.injEq, Prod.mk.injEq] at e1
    obtain ⟨rfl, rfl⟩ := e1
    rcases parseTerminalSymbol_spec P hy tokens q with ⟨s2, h1, h2, h3⟩ | ⟨h1, h2⟩
    · exact .inl ⟨s2, h1, h2, h3⟩
    · exact .inr (.inl ⟨_, h1, .terminal y hy h2⟩)

theorem productionLoop_spec {p : Parser σ L T} (P : ParserOf eps init ps p)
    {tokens : List (Token L T)} {rec : Rec σ L T} (hrec : RecOk eps ps p tokens rec) {x : T}
    {out : List T} (hout : (⟨x, out⟩ : Production T) ∈ ps) {sg : Bool} {pos0 n : Nat} {xs : List T}
    {st : List (PState L T)} {q : Nat} (hst : StackOk eps ps p tokens pos0 xs st q)
    (hxs : ∃ ys, out = xs.reverse ++ ys) {s s' : σ} {r : ParseProductionResult L T × Nat}
    (e : productionLoop p tokens rec x out sg n st q s = .ok (r, s')) :
    ProdPost eps ps p tokens x pos0 out r := by
  induction n generalizing xs st q s with
  | zero => simp [productionLoop] at e
  | succ n ih =>
    obtain ⟨ys, hys⟩ := hxs
    have hlen := hst.length
    rw [productionLoop] at e
    split at e
    · rename_i hlt
      cases ys with
      | nil => rw [hys] at hlt; simp at hlt; omega
      | cons y ys =>
        have hget : out[st.length]? = some y := by
          rw [hys, List.getElem?_append_right (by simp; omega)]
          simp [hlen]
        simp only [hget] at e
        rw [M.bind_eq_ok] at e
        obtain ⟨res, s1, e1, e2⟩ := e
        have hys' : out = (y :: xs).reverse ++ ys := by simp [hys]
        have hsym := parseProductionSymbol_spec P hrec e1
        rcases hsym with ⟨s2, rfl, ho, hi⟩ | ⟨f, rfl, hf⟩ | ⟨s2, rfl, hy, h1, h2, h3, h4⟩
        · exact ih (.parsing ho hi hst) ⟨ys, hys'⟩ e2
        · simp only at e2
          rw [M.bind_eq_ok] at e2
          obtain ⟨⟨st', o⟩, s2, e3, e4⟩ := e2
          rcases popStates_spec hrec hst e3 with ⟨parsed, h1, h2⟩ | ⟨h1, xs', s3, st3, above, q', h2, h3, h4⟩
          · simp only [List.reverse_nil, List.append_nil] at h1
            subst h1
            simp only [M.pure_apply, Out.ok.injEq, Prod.mk.injEq] at e4
            obtain ⟨rfl, rfl⟩ := e4
            unfold ProdPost buildFailedSymbol
            simp only
            rw [hys]
            exact .cons _ _ _ _ _ _ _ hf h2 .nil
          · simp only at h1 h2
            subst h1 h2
            simp only at e4
            rw [← h4.top] at e4
            refine ih h4 ⟨above.reverse ++ y :: ys, ?_⟩ e4
            rw [hys, h3]; simp
        · exact ih (.fixed hy h1 h2 h3 h4 hst) ⟨ys, hys'⟩ e2
    · rename_i hlt
      have hys0 : ys = [] := by
        rw [hys] at hlt
        simp only [List.length_append, List.length_reverse, hlen] at hlt
        exact List.length_eq_zero_iff.1 (by omega)
      subst hys0
      rw [List.append_nil] at hys
      rw [M.bind_eq_ok] at e
      obtain ⟨r1, s1, e1, e2⟩ := e
      simp only [M.pure_apply, Out.ok.injEq, Prod.mk.injEq] at e2
      obtain ⟨rfl, rfl⟩ := e2
      by_cases hf : st.any PState.isFixed = true
      · unfold buildNode lift at e1
        rw [List.any_reverse, if_pos hf] at e1
        simp only [Out.ok.injEq, Prod.mk.injEq] at e1
        obtain ⟨rfl, rfl⟩ := e1
        refine ⟨?_, hst.any_fixed_solver hf, fun k hp => (hst.moves hp).2 hf⟩
        refine .built ⟨x, out⟩ _ hout ?_ ?_
        · simp only
          have := hst.parts
          rw [← hys] at this
          exact this
        · rw [List.any_eq_true] at hf
          obtain ⟨z, hz, hzf⟩ := hf
          cases z with
          | parsing s => simp [PState.isFixed] at hzf
          | fixed s =>
            refine ⟨s.fixedSymbol, ?_⟩
            rw [List.mem_map]
            exact ⟨.fixed s, by simpa using hz, rfl⟩
      · have hf' : st.any PState.isFixed = false := by simpa using hf
        obtain ⟨hle, ns, h1, h2⟩ := hst.forest hf'
        unfold buildNode lift at e1
        rw [List.any_reverse, hf'] at e1
        simp only [Bool.false_eq_true, if_false, h1, Out.bind_ok, Out.ok.injEq, Prod.mk.injEq] at e1
        obtain ⟨rfl, rfl⟩ := e1
        refine ⟨hle, ?_⟩
        rw [← hys] at h2
        exact .node ⟨x, out⟩ _ ns hout h2

theorem FailedProdsOk.append {solver : Bool} {cand : T → T → List (List T)}
    {tokens : List (Token L T)} {a b : List (List T)} {fa fb : List (FailedProduction L T)}
    (h : FailedProdsOk eps ps solver cand tokens a fa)
    (h' : FailedProdsOk eps ps solver cand tokens b fb) :
    FailedProdsOk eps ps solver cand tokens (a ++ b) (fa ++ fb) := by
  induction a generalizing fa with
  | nil => cases h; exact h'
  | cons o a ih =>
    cases h with
    | cons before x after f parsed outs fps h1 h2 h3 =>
      exact .cons before x after f parsed _ _ h1 h2 (ih h3)

theorem FailedProdsOk.length {solver : Bool} {cand : T → T → List (List T)}
    {tokens : List (Token L T)} {a : List (List T)} {fa : List (FailedProduction L T)}
    (h : FailedProdsOk eps ps solver cand tokens a fa) : fa.length = a.length := by
  induction a generalizing fa with
  | nil => cases h; rfl
  | cons o a ih =>
    cases h with
    | cons before x after f parsed outs fps h1 h2 h3 => simp [ih h3]

theorem tryParseProductionsLoop_spec {p : Parser σ L T} (P : ParserOf eps init ps p)
    {tokens : List (Token L T)} {rec : Rec σ L T} (hrec : RecOk eps ps p tokens rec) {x : T} {n : Nat}
    {pos : Nat} {child : Bool} {done outs : List (List T)}
    (houts : ∀ out ∈ outs, (⟨x, out⟩ : Production T) ∈ ps) {failed : List (FailedProduction L T)}
    (hfailed : FailedProdsOk eps ps p.syntaxErrorSolver.isSome p.getTokenProductions tokens
      done failed) {s s' : σ} {r : Except (List (FailedProduction L T)) (ParseSymbolResult L T)}
    (e : tryParseProductionsLoop p tokens rec n x pos child outs failed s = .ok (r, s')) :
    match r with
    | .ok r' => Post eps ps p tokens x pos outs r' ∧ ∀ f, r' ≠ .err f
    | .error failed' => FailedProdsOk eps ps p.syntaxErrorSolver.isSome p.getTokenProductions tokens
        (done ++ outs) failed' := by
  induction outs generalizing done failed s with
  | nil =>
    simp only [tryParseProductionsLoop, M.pure_apply, Out.ok.injEq, Prod.mk.injEq] at e
    obtain ⟨rfl, rfl⟩ := e
    simpa using hfailed
  | cons out outs ih =>
    rw [tryParseProductionsLoop, M.bind_eq_ok] at e
    obtain ⟨⟨pr, q⟩, s1, e1, e2⟩ := e
    have hpost := productionLoop_spec P hrec (houts out (by simp)) (pos0 := pos) .nil ⟨out, rfl⟩ e1
    cases pr with
    | ok node =>
      simp only [M.pure_apply, Out.ok.injEq, Prod.mk.injEq] at e2
      obtain ⟨rfl, rfl⟩ := e2
      refine ⟨⟨⟨rfl, hpost.1, hpost.2⟩, outs, rfl, by simp, List.suffix_cons _ _⟩, by simp⟩
    | err f =>
      simp only at e2
      have hpost' : FailedProdsOk eps ps p.syntaxErrorSolver.isSome p.getTokenProductions tokens
        [out] [f] := hpost
      have := ih (fun o ho => houts o (by simp [ho])) (FailedProdsOk.append hfailed hpost') e2
      cases r with
      | error failed' => simpa using this
      | ok r' =>
        refine ⟨?_, this.2⟩
        cases r' with
        | ok s2 =>
          obtain ⟨h1, rest, h2, h3, h4⟩ := this.1
          exact ⟨h1, rest, h2, by simp; omega, h4.trans (List.suffix_cons _ _)⟩
        | err f' => exact absurd rfl (this.2 f')
        | fix s2 => exact this.1
    | fix fp =>
      simp only [M.pure_apply, Out.ok.injEq, Prod.mk.injEq] at e2
      obtain ⟨rfl, rfl⟩ := e2
      exact ⟨⟨hpost.1, hpost.2.1, rfl, hpost.2.2⟩, by simp⟩

/-- A successful fix of the alternatives was returned by the solver. -/
theorem tryFixProductions_spec {p : Parser σ L T} {tokens : List (Token L T)} {pos : Nat}
    {single child : Bool} {failed : List (FailedProduction L T)} {s s' : σ} {r : FixResult L T}
    (hpos : pos < tokens.length)
    (e : tryFixProductions p tokens pos single child failed s = .ok (some r, s')) :
    SolverReturned p.syntaxErrorSolver tokens pos r := by
  unfold tryFixProductions at e
  cases hsv : p.syntaxErrorSolver with
  | none => simp [hsv] at e
  | some sv =>
    simp only [hsv] at e
    split at e
    · split at e
      · cases hf : failed[0]? with
        | none => simp [hf] at e
        | some f =>
          simp only [hf] at e
          exact ⟨hpos, sv, s, s', rfl, .inl ⟨_, e⟩⟩
      · exact ⟨hpos, sv, s, s', rfl, .inr ⟨_, e⟩⟩
    · simp at e

theorem innerParse_spec {p : Parser σ L T} (P : ParserOf eps init ps p) (tokens : List (Token L T))
    (n : Nat) {x : T} {pos : Nat} {outs : List (List T)} {single : Bool} {s s' : σ}
    {r : ParseSymbolResult L T} (houts : Pre p tokens x pos outs)
    (e : innerParse p tokens n x pos outs single s = .ok (r, s')) :
    Post eps ps p tokens x pos outs r := by
  induction n generalizing x pos outs single s s' r with
  | zero => simp [innerParse] at e
  | succ n ih =>
    have hrec : RecOk eps ps p tokens (innerParse p tokens n) :=
      fun x pos outs sg s r s' _ ho e => ih ho e
    rw [innerParse, M.bind_eq_ok] at e
    obtain ⟨t, s1, e1, e2⟩ := e
    have := tryParseProductionsLoop_spec P hrec (fun o ho => houts.mem P ho) (done := []) .nil e1
    cases t with
    | ok r' =>
      simp only [M.pure_apply, Out.ok.injEq, Prod.mk.injEq] at e2
      obtain ⟨rfl, rfl⟩ := e2
      exact this.1
    | error failed =>
      simp only [List.nil_append] at this
      rw [M.bind_eq_ok] at e2
      obtain ⟨fix, s2, e3, e4⟩ := e2
      simp only [M.pure_apply, Out.ok.injEq, Prod.mk.injEq] at e4
      obtain ⟨rfl, rfl⟩ := e4
      cases fix with
      | none => exact ⟨failed, rfl, this⟩
      | some fr =>
        have hsr := tryFixProductions_spec houts.lt e3
        refine ⟨.solver x pos fr hsr, ?_, rfl, fun k hp => hp pos fr hsr⟩
        obtain ⟨_, sv, _, _, h, _⟩ := hsr
        rw [h]; rfl

end Parser

end Verif
