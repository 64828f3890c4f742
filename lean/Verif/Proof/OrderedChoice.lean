import Verif.Spec.OrderedChoice
import Verif.Proof.Built

/-! # The parser without a solver computes the ordered choice of Spec.OrderedChoice -/

set_option linter.unusedSectionVars false

namespace Verif.Parser

open Spec

variable {σ L T : Type} [DecidableEq T] {eps init : T} {ps : List (Production T)}
  {p : Parser σ L T} {tokens : List (Token L T)}

/-- The outcome `e` of parsing a non-terminal at `pos` in solver state `s` stands for `r`. -/
def SymOut (e : Out (ParseSymbolResult L T × σ)) (s : σ) (pos : Nat) :
    Search (Node L T × Nat × List (List T)) → Prop
  | .found (n, q, rest) => e = .ok (.ok ⟨pos, q, some rest, n⟩, s)
  | .failed => ∃ f, e = .ok (.err f, s)
  | .ranOut => e = .panic .unwrapNone

/-- The outcome `e` of parsing a production of `x` in solver state `s` stands for `r`. -/
def ProdOut (e : Out ((ParseProductionResult L T × Nat) × σ)) (s : σ) (x : T) :
    Search (List (Node L T) × Nat) → Prop
  | .found (ns, q) => e = .ok ((.ok (.mk ns ⟨none, x⟩), q), s)
  | .failed => ∃ f q, e = .ok ((.err f, q), s)
  | .ranOut => e = .panic .unwrapNone

/-- The outcome `e` of trying the productions of `x`. -/
def TryOut (e : Out (Except (List (FailedProduction L T)) (ParseSymbolResult L T) × σ)) (s : σ)
    (pos : Nat) : Search (Node L T × Nat × List (List T)) → Prop
  | .found (n, q, rest) => e = .ok (.ok (.ok ⟨pos, q, some rest, n⟩), s)
  | .failed => ∃ f, e = .ok (.error f, s)
  | .ranOut => e = .panic .unwrapNone

/-- A stack of parsed states, top first, for the symbols parsed, last first. -/
inductive Stk (ps : List (Production T)) : List T → List (PState L T) → Prop where
  | nil : Stk ps [] []
  | terminal {x : T} {xs : List T} {s : ParsingState L T} {st : List (PState L T)} :
      ¬ IsNonTerminal ps x → s.prodIterOption = none → Stk ps xs st →
      Stk ps (x :: xs) (.parsing s :: st)
  | nonTerminal {x : T} {xs : List T} {s : ParsingState L T} {st : List (PState L T)}
      (it : List (List T)) : IsNonTerminal ps x → s.prodIterOption = some it →
      s.node.token.tType = x → Stk ps xs st → Stk ps (x :: xs) (.parsing s :: st)

theorem Stk.length {xs : List T} {st : List (PState L T)} (h : Stk ps xs st) :
    xs.length = st.length := by
  induction h <;> simp_all

/-- The nodes on the stack in production order. -/
def stNodes : List (PState L T) → List (Node L T)
  | [] => []
  | .parsing s :: st => stNodes st ++ [s.node]
  | .fixed _ :: st => stNodes st

theorem statesToNodes_append {a b : List (PState L T)} {l1 l2 : List (Node L T)}
    (h1 : statesToNodes a = .ok l1) (h2 : statesToNodes b = .ok l2) :
    statesToNodes (a ++ b) = .ok (l1 ++ l2) := by
  induction a generalizing l1 with
  | nil => simp only [statesToNodes, Out.ok.injEq] at h1; subst h1; simpa
  | cons s a ih =>
    cases s with
    | fixed s => simp [statesToNodes] at h1
    | parsing s =>
      simp only [statesToNodes, Out.bind_eq_ok] at h1
      obtain ⟨l, h1, h3⟩ := h1
      simp only [Out.ok.injEq] at h3
      subst h3
      simp [statesToNodes, ih h1]

theorem Stk.nodes {xs : List T} {st : List (PState L T)} (h : Stk ps xs st) :
    statesToNodes st.reverse = .ok (stNodes st) := by
  induction h with
  | nil => rfl
  | terminal _ _ _ ih => rw [List.reverse_cons]; exact statesToNodes_append ih rfl
  | nonTerminal _ _ _ _ _ ih => rw [List.reverse_cons]; exact statesToNodes_append ih rfl

theorem Stk.not_fixed {xs : List T} {st : List (PState L T)} (h : Stk ps xs st) :
    st.any PState.isFixed = false := by
  induction h <;> simp_all [PState.isFixed]

theorem Stk.buildNode {xs : List T} {st : List (PState L T)} (h : Stk ps xs st) (x : T) :
    Parser.buildNode x st.reverse = .ok (.ok (.mk (stNodes st) ⟨none, x⟩)) := by
  unfold Parser.buildNode
  rw [if_neg (by simpa using h.not_fixed), h.nodes]
  rfl

/-! ## From the code to the specification -/

/-- `Cont xs st zs r0 r`: if the search for the symbols `zs` behind the stack gives `r0`, then the
search for the whole production gives `r`. -/
inductive Cont (eps : T) (ps : List (Production T)) (cand : T → T → List (List T))
    (tokens : List (Token L T)) : List T → List (PState L T) → List T →
    Search (List (Node L T) × Nat) → Search (List (Node L T) × Nat) → Prop where
  | nil (zs : List T) (r : Search (List (Node L T) × Nat)) : Cont eps ps cand tokens [] [] zs r r
  | terminal {x : T} {xs zs : List T} {s : ParsingState L T} {st : List (PState L T)}
      {r0 r : Search (List (Node L T) × Nat)} : ¬ IsNonTerminal ps x → s.prodIterOption = none →
      Cont eps ps cand tokens xs st (x :: zs) (r0.cons s.node) r →
      Cont eps ps cand tokens (x :: xs) (.parsing s :: st) zs r0 r
  | keep {x : T} {xs zs : List T} {s : ParsingState L T} {st : List (PState L T)}
      {r0 r : Search (List (Node L T) × Nat)} : IsNonTerminal ps x → r0 ≠ .failed →
      Cont eps ps cand tokens xs st (x :: zs) (r0.cons s.node) r →
      Cont eps ps cand tokens (x :: xs) (.parsing s :: st) zs r0 r
  | retry {x : T} {xs zs : List T} {s : ParsingState L T} {st : List (PState L T)}
      {it : List (List T)} {r1 r : Search (List (Node L T) × Nat)} : IsNonTerminal ps x →
      s.prodIterOption = some it →
      Retry eps ps cand tokens x zs s.initialTokenPosition it r1 →
      Cont eps ps cand tokens xs st (x :: zs) r1 r →
      Cont eps ps cand tokens (x :: xs) (.parsing s :: st) zs .failed r

theorem Stk.cont_found {cand : T → T → List (List T)} {xs : List T} {st : List (PState L T)}
    (h : Stk ps xs st) (zs : List T) (ns : List (Node L T)) (q : Nat) :
    Cont eps ps cand tokens xs st zs (.found (ns, q)) (.found (stNodes st ++ ns, q)) := by
  induction h generalizing zs ns with
  | nil => exact .nil _ _
  | terminal hx hs _ ih =>
    rename_i x xs s st _
    have := ih (x :: zs) (s.node :: ns)
    refine .terminal hx hs ?_
    simpa [stNodes, Search.cons] using this
  | nonTerminal it hx hs _ _ ih =>
    rename_i x xs s st _ _
    have := ih (x :: zs) (s.node :: ns)
    refine .keep hx (by simp) ?_
    simpa [stNodes, Search.cons] using this

theorem Stk.cont_ranOut {cand : T → T → List (List T)} {xs : List T} {st : List (PState L T)}
    (h : Stk ps xs st) (zs : List T) :
    Cont eps ps cand tokens xs st zs .ranOut .ranOut := by
  induction h generalizing zs with
  | nil => exact .nil _ _
  | terminal hx hs _ ih => exact .terminal hx hs (ih _)
  | nonTerminal it hx hs _ _ ih => exact .keep hx (by simp) (ih _)

/-- The contract of the recursive call. -/
def RecChoice (eps : T) (ps : List (Production T)) (p : Parser σ L T) (tokens : List (Token L T))
    (rec : Rec σ L T) : Prop :=
  ∀ x pos outs sg s, rec x pos outs sg s ≠ .fuel →
    ∃ r, SymOut (rec x pos outs sg s) s pos r ∧
      Choice eps ps p.getTokenProductions tokens x pos outs r ∧
      ∀ n q rest, r = .found (n, q, rest) → n.token.tType = x

theorem popStates_cont {rec : Rec σ L T} (hrec : RecChoice eps ps p tokens rec) {sg : Bool}
    {xs : List T} {st : List (PState L T)} (hst : Stk ps xs st) (zs : List T)
    (acc : List (PState L T)) (s : σ) (hf : popStates rec sg st acc s ≠ .fuel) :
    (popStates rec sg st acc s = .panic .unwrapNone ∧
      Cont eps ps p.getTokenProductions tokens xs st zs .failed .ranOut) ∨
    (∃ st' l, popStates rec sg st acc s = .ok ((st', some l), s) ∧
      Cont eps ps p.getTokenProductions tokens xs st zs .failed .failed) ∨
    (∃ s1 st1 x1 xs1 zs1, popStates rec sg st acc s = .ok ((.parsing s1 :: st1, none), s) ∧
      Stk ps (x1 :: xs1) (.parsing s1 :: st1) ∧
      xs.reverse ++ zs = (x1 :: xs1).reverse ++ zs1 ∧
      ∀ r0 r, Seq eps ps p.getTokenProductions tokens zs1 s1.finalTokenPosition r0 →
        Cont eps ps p.getTokenProductions tokens (x1 :: xs1) (.parsing s1 :: st1) zs1 r0 r →
        Cont eps ps p.getTokenProductions tokens xs st zs .failed r) := by
  induction hst generalizing zs acc with
  | nil => exact .inr (.inl ⟨_, _, rfl, .nil _ _⟩)
  | terminal hx hs hst ih =>
    rename_i x xs s0 st
    rw [popStates] at hf ⊢
    simp only [hs] at hf ⊢
    rcases ih (x :: zs) _ hf with ⟨h1, h2⟩ | ⟨st', l, h1, h2⟩ | ⟨s1, st1, x1, xs1, zs1, h1, h2, h3, h4⟩
    · exact .inl ⟨h1, .terminal hx hs h2⟩
    · exact .inr (.inl ⟨st', l, h1, .terminal hx hs h2⟩)
    · exact .inr (.inr ⟨s1, st1, x1, xs1, zs1, h1, h2, by simpa using h3,
        fun r0 r h h' => .terminal hx hs (h4 r0 r h h')⟩)
  | nonTerminal it hx hs hl hst ih =>
    rename_i x xs s0 st
    rw [popStates] at hf ⊢
    simp only [hs] at hf ⊢
    rw [M.bind_apply] at hf ⊢
    rw [hl] at hf ⊢
    have hne : rec x s0.initialTokenPosition it sg s ≠ .fuel := by
      intro h; rw [h] at hf; exact hf rfl
    obtain ⟨r, hr, hc, hlab⟩ := hrec _ _ _ _ _ hne
    match r, hr, hc, hlab with
    | .ranOut, hr, hc, _ =>
      simp only [SymOut] at hr
      simp only [hr]
      exact .inl ⟨trivial, .retry hx hs (.ranOut _ _ _ _ hc) (hst.cont_ranOut _)⟩
    | .failed, hr, hc, _ =>
      obtain ⟨f, hr⟩ := hr
      simp only [hr] at hf ⊢
      rcases ih (x :: zs) _ hf with
        ⟨h1, h2⟩ | ⟨st', l, h1, h2⟩ | ⟨s1, st1, x1, xs1, zs1, h1, h2, h3, h4⟩
      · exact .inl ⟨h1, .retry hx hs (.failed _ _ _ _ hc) h2⟩
      · exact .inr (.inl ⟨st', l, h1, .retry hx hs (.failed _ _ _ _ hc) h2⟩)
      · exact .inr (.inr ⟨s1, st1, x1, xs1, zs1, h1, h2, by simpa using h3,
          fun r0 r h h' => .retry hx hs (.failed _ _ _ _ hc) (h4 r0 r h h')⟩)
    | .found (n, q, rest), hr, hc, hlab =>
      simp only [SymOut] at hr
      simp only [hr, M.pure_apply]
      refine .inr (.inr ⟨_, st, x, xs, zs, rfl, .nonTerminal rest hx rfl (hlab n q rest rfl) hst, rfl,
        ?_⟩)
      intro r0 r hseq hcont
      cases hcont with
      | terminal h => exact absurd hx h
      | keep _ hne h =>
        match r0, hne, hseq, h with
        | .failed, hne, _, _ => exact absurd rfl hne
        | .ranOut, _, hseq, h =>
          exact .retry hx hs (.ranOutAfter _ _ _ _ _ _ _ hc hseq) h
        | .found (ns, q'), _, hseq, h =>
          exact .retry hx hs (.found _ _ _ _ _ _ _ _ _ hc hseq) h
      | retry _ h1 h2 h3 =>
        simp only [Option.some.injEq] at h1
        subst h1
        exact .retry hx hs (.again _ _ _ _ _ _ _ _ hc hseq h2) h3

/-- A parsed terminal. -/
theorem parseTerminalSymbol_cases (P : ParserOf eps init ps p) {x : T} (hx : ¬ IsNonTerminal ps x)
    (pos : Nat) :
    (∃ s, p.parseTerminalSymbol x tokens pos = .ok s ∧ s.prodIterOption = none ∧
      ∀ cand xs r, Seq eps ps cand tokens xs s.finalTokenPosition r →
        Seq eps ps cand tokens (x :: xs) pos (r.cons s.node)) ∨
    (∃ f, p.parseTerminalSymbol x tokens pos = .err f ∧
      ∀ cand xs, Seq eps ps cand tokens (x :: xs) pos .failed) := by
  unfold parseTerminalSymbol
  rw [P.grammar.eps_eq]
  by_cases he : eps = x
  · rw [if_pos he]
    subst he
    exact .inl ⟨_, rfl, rfl, fun cand xs r h => .eps _ _ _ h⟩
  · rw [if_neg he]
    unfold parseNonEpsilonTerminalSymbol
    cases ht : tokens[pos]? with
    | none =>
      exact .inr ⟨_, rfl, fun cand xs => .mismatch _ _ _ hx (Ne.symm he) (by simp [ht])⟩
    | some t =>
      by_cases hxt : x = t.tType
      · simp only [if_pos hxt]
        subst hxt
        exact .inl ⟨_, rfl, rfl, fun cand xs r h => .terminal _ _ _ _ hx (Ne.symm he) ht h⟩
      · simp only [if_neg hxt]
        refine .inr ⟨_, rfl, fun cand xs => .mismatch _ _ _ hx (Ne.symm he) ?_⟩
        intro t' ht' e
        rw [ht] at ht'
        cases ht'
        exact hxt e.symm

/-- What the loop over a production does after a symbol could not be parsed. -/
def popThen (p : Parser σ L T) (tokens : List (Token L T)) (rec : Rec σ L T) (x : T) (out : List T)
    (sg : Bool) (n : Nat) (q : Nat) (f : FailedSymbol L T) (st acc : List (PState L T)) :
    M σ (ParseProductionResult L T × Nat) := do
  match ← popStates rec sg st acc with
  | (_, some parsed) => pure (buildFailedSymbol f out parsed, q)
  | ([], none) => M.panic .underflow
  | (s :: rest, none) =>
    productionLoop p tokens rec x out sg n (s :: rest) s.finalTokenPosition

theorem productionLoop_cont (P : ParserOf eps init ps p) {rec : Rec σ L T}
    (hrec : RecChoice eps ps p tokens rec) (x : T) (out : List T) (sg : Bool) (n : Nat) {xs ys : List T}
    {st : List (PState L T)} (hst : Stk ps xs st) (hout : out = xs.reverse ++ ys) (q : Nat) (s : σ)
    (hf : productionLoop p tokens rec x out sg n st q s ≠ .fuel) :
    ∃ r0 r, ProdOut (productionLoop p tokens rec x out sg n st q s) s x r ∧
      Seq eps ps p.getTokenProductions tokens ys q r0 ∧
      Cont eps ps p.getTokenProductions tokens xs st ys r0 r := by
  induction n generalizing xs ys st q with
  | zero => simp [productionLoop] at hf
  | succ n ih =>
    have hlen := hst.length
    rw [productionLoop] at hf ⊢
    cases ys with
    | nil =>
      rw [if_neg (by rw [hout]; simp; omega)]
      rw [M.bind_apply]
      simp only [lift, hst.buildNode, M.pure_apply]
      refine ⟨_, .found (stNodes st, q), rfl, .nil _, ?_⟩
      have := hst.cont_found (eps := eps) (cand := p.getTokenProductions) (tokens := tokens) [] [] q
      simpa using this
    | cons y ys =>
      have hlt : st.length < out.length := by rw [hout]; simp; omega
      have hget : out[st.length]? = some y := by
        rw [hout, List.getElem?_append_right (by simp; omega)]
        simp [hlen]
      have hout' : out = (y :: xs).reverse ++ ys := by simp [hout]
      rw [if_pos hlt] at hf ⊢
      simp only [hget] at hf ⊢
      rw [M.bind_apply] at hf ⊢
      -- what happens if the symbol cannot be parsed
      have hfail : ∀ f, Seq eps ps p.getTokenProductions tokens (y :: ys) q .failed →
          popThen p tokens rec x out sg n q f st [] s ≠ .fuel →
          ∃ r0 r, ProdOut (popThen p tokens rec x out sg n q f st [] s) s x r ∧
            Seq eps ps p.getTokenProductions tokens (y :: ys) q r0 ∧
            Cont eps ps p.getTokenProductions tokens xs st (y :: ys) r0 r := by
        intro f hseq hf
        unfold popThen at hf ⊢
        rw [M.bind_apply] at hf ⊢
        have hne : popStates rec sg st [] s ≠ .fuel := by
          intro h; rw [h] at hf; exact hf rfl
        rcases popStates_cont hrec hst (y :: ys) [] s hne with
          ⟨h1, h2⟩ | ⟨st', l, h1, h2⟩ | ⟨s1, st1, x1, xs1, zs1, h1, h2, h3, h4⟩
        · simp only [h1] at hf ⊢
          exact ⟨_, .ranOut, rfl, hseq, h2⟩
        · simp only [h1, M.pure_apply] at hf ⊢
          exact ⟨_, .failed, ⟨_, _, rfl⟩, hseq, h2⟩
        · simp only [h1] at hf ⊢
          obtain ⟨r0, r, i1, i2, i3⟩ := ih h2 (by rw [hout, h3]) _ hf
          exact ⟨_, r, i1, hseq, h4 r0 r i2 i3⟩
      unfold parseProductionSymbol at hf ⊢
      by_cases hy : p.grammar.isNonTerminal y = true
      · have hny := (isNT_iff P y).1 hy
        rw [if_pos hy] at hf ⊢
        unfold parseProductionNonTerminal at hf ⊢
        cases ht : tokens[q]? with
        | none =>
          simp only [ht, M.panic_apply] at hf ⊢
          exact ⟨_, .ranOut, rfl, .ranOut _ _ _ hny ht, hst.cont_ranOut _⟩
        | some t =>
          simp only [ht] at hf ⊢
          have hne : rec y q (p.getTokenProductions y t.tType) sg s ≠ .fuel := by
            intro h; rw [h] at hf; exact hf rfl
          obtain ⟨r, hr, hc, hlab⟩ := hrec _ _ _ _ _ hne
          match r, hr, hc, hlab with
          | .ranOut, hr, hc, _ =>
            simp only [SymOut] at hr
            simp only [hr]
            exact ⟨_, .ranOut, rfl, .nonTerminal _ _ _ t _ hny ht (.ranOut _ _ _ _ hc),
              hst.cont_ranOut _⟩
          | .failed, hr, hc, _ =>
            obtain ⟨f, hr⟩ := hr
            simp only [hr] at hf ⊢
            exact hfail f (.nonTerminal _ _ _ t _ hny ht (.failed _ _ _ _ hc)) hf
          | .found (nd, q1, rest), hr, hc, hlab =>
            simp only [SymOut] at hr
            simp only [hr] at hf ⊢
            obtain ⟨r0, r, i1, i2, i3⟩ :=
              ih (.nonTerminal rest hny rfl (hlab nd q1 rest rfl) hst) hout' _ hf
            cases i3 with
            | terminal h => exact absurd hny h
            | keep _ hne h =>
              match r0, hne, i2, h with
              | .failed, hne, _, _ => exact absurd rfl hne
              | .ranOut, _, i2, h =>
                exact ⟨_, r, i1, .nonTerminal _ _ _ t _ hny ht (.ranOutAfter _ _ _ _ _ _ _ hc i2), h⟩
              | .found (ns, q'), _, i2, h =>
                exact ⟨_, r, i1, .nonTerminal _ _ _ t _ hny ht (.found _ _ _ _ _ _ _ _ _ hc i2), h⟩
            | retry _ h1 h2 h3 =>
              simp only [Option.some.injEq] at h1
              subst h1
              exact ⟨_, r, i1, .nonTerminal _ _ _ t _ hny ht (.again _ _ _ _ _ _ _ _ hc i2 h2), h3⟩
      · have hny : ¬ IsNonTerminal ps y := fun h => hy ((isNT_iff P y).2 h)
        rw [if_neg hy] at hf ⊢
        rcases parseTerminalSymbol_cases (tokens := tokens) P hny q with
          ⟨s1, h1, h2, h3⟩ | ⟨f, h1, h2⟩
        · simp only [h1, M.pure_apply] at hf ⊢
          obtain ⟨r0, r, i1, i2, i3⟩ := ih (.terminal hny h2 hst) hout' _ hf
          cases i3 with
          | terminal _ _ h => exact ⟨_, r, i1, h3 _ _ _ i2, h⟩
          | keep h => exact absurd h hny
          | retry h => exact absurd h hny
        · simp only [h1, M.pure_apply] at hf ⊢
          exact hfail f (h2 _ _) hf

theorem tryParseProductionsLoop_choice (P : ParserOf eps init ps p) {rec : Rec σ L T}
    (hrec : RecChoice eps ps p tokens rec) (fuel : Nat) (x : T) (pos : Nat) (sg : Bool)
    (outs : List (List T)) (failed : List (FailedProduction L T)) (s : σ)
    (hf : tryParseProductionsLoop p tokens rec fuel x pos sg outs failed s ≠ .fuel) :
    ∃ r, TryOut (tryParseProductionsLoop p tokens rec fuel x pos sg outs failed s) s pos r ∧
      Choice eps ps p.getTokenProductions tokens x pos outs r ∧
      ∀ n q rest, r = .found (n, q, rest) → n.token.tType = x := by
  induction outs generalizing failed with
  | nil => exact ⟨.failed, ⟨_, rfl⟩, .none _ _, by simp⟩
  | cons out outs ih =>
    rw [tryParseProductionsLoop] at hf ⊢
    rw [M.bind_apply] at hf ⊢
    have hne : productionLoop p tokens rec x out sg fuel [] pos s ≠ .fuel := by
      intro h; rw [h] at hf; exact hf rfl
    obtain ⟨r0, r, h1, h2, h3⟩ := productionLoop_cont P hrec x out sg fuel .nil (ys := out) rfl pos s hne
    have h4 : r0 = r := by cases h3; rfl
    subst h4
    match r0, h1, h2 with
    | .ranOut, h1, h2 =>
      simp only [ProdOut] at h1
      simp only [h1]
      exact ⟨.ranOut, rfl, .ranOut _ _ _ _ h2, by simp⟩
    | .failed, h1, h2 =>
      obtain ⟨f, q, h1⟩ := h1
      simp only [h1] at hf ⊢
      obtain ⟨r, i1, i2, i3⟩ := ih _ hf
      exact ⟨r, i1, .next _ _ _ _ _ h2 i2, i3⟩
    | .found (ns, q), h1, h2 =>
      simp only [ProdOut] at h1
      simp only [h1, M.pure_apply]
      refine ⟨.found (_, q, outs), rfl, .here _ _ _ _ _ _ h2, ?_⟩
      intro n q rest e
      simp only [Search.found.injEq, Prod.mk.injEq] at e
      rw [← e.1]
      rfl

theorem innerParse_choice (P : ParserOf eps init ps p) (hp : p.syntaxErrorSolver = none) (n : Nat) :
    RecChoice eps ps p tokens (innerParse p tokens n) := by
  induction n with
  | zero => intro x pos outs sg s h; simp [innerParse] at h
  | succ n ih =>
    intro x pos outs sg s hf
    rw [innerParse] at hf ⊢
    rw [M.bind_apply] at hf ⊢
    have hne : tryParseProductionsLoop p tokens (innerParse p tokens n) n x pos
        (isChildSinglePath sg outs) outs [] s ≠ .fuel := by
      intro h; rw [h] at hf; exact hf rfl
    obtain ⟨r, h1, h2, h3⟩ := tryParseProductionsLoop_choice P ih n x pos _ outs [] s hne
    refine ⟨r, ?_, h2, h3⟩
    match r, h1 with
    | .ranOut, h1 => simp only [TryOut] at h1; simp only [h1, SymOut]
    | .found (nd, q, rest), h1 => simp only [TryOut] at h1; simp only [h1, SymOut, M.pure_apply]
    | .failed, h1 =>
      obtain ⟨f, h1⟩ := h1
      simp only [h1, SymOut, tryFixProductions, hp]
      exact ⟨_, rfl⟩

/-! ## From the specification to the code -/

/-- The loop over the production `out` of `x`, from the stack `st` and position `q` on, gives `r`. -/
def LoopIs (p : Parser σ L T) (tokens : List (Token L T)) (R : Nat → Rec σ L T) (x : T) (out : List T)
    (st : List (PState L T)) (q : Nat) (r : Search (List (Node L T) × Nat)) : Prop :=
  ∃ N, ∀ n m, N ≤ n → N ≤ m → ∀ sg s,
    ProdOut (productionLoop p tokens (R m) x out sg n st q s) s x r

/-- The same after a symbol could not be parsed. -/
def FailIs (p : Parser σ L T) (tokens : List (Token L T)) (R : Nat → Rec σ L T) (x : T) (out : List T)
    (st : List (PState L T)) (r : Search (List (Node L T) × Nat)) : Prop :=
  ∃ N, ∀ n m, N ≤ n → N ≤ m → ∀ sg s q f acc,
    ProdOut (popThen p tokens (R m) x out sg n q f st acc s) s x r

/-- If the search for what stands behind the stack gives `r0`, then the loop gives `r`. -/
def Fin (p : Parser σ L T) (tokens : List (Token L T)) (R : Nat → Rec σ L T) (x : T) (out : List T)
    (st : List (PState L T)) (r0 r : Search (List (Node L T) × Nat)) : Prop :=
  match r0 with
  | .found (ns, q) => r = .found (stNodes st ++ ns, q)
  | .failed => FailIs p tokens R x out st r
  | .ranOut => r = .ranOut

/-- The same before the non-terminal `y` is derived at `pos` with candidates `outs`. -/
def TryIs (p : Parser σ L T) (tokens : List (Token L T)) (R : Nat → Rec σ L T) (x : T) (out : List T)
    (st : List (PState L T)) (y : T) (pos : Nat) (outs : List (List T))
    (r : Search (List (Node L T) × Nat)) : Prop :=
  ∃ N, ∀ n m, N ≤ n → N ≤ m → ∀ sg s,
    (∃ s', R m y pos outs sg s = .ok (.ok s', s) ∧
      ProdOut (productionLoop p tokens (R m) x out sg n (.parsing s' :: st)
        s'.finalTokenPosition s) s x r) ∨
    (∃ f, R m y pos outs sg s = .ok (.err f, s) ∧
      ∀ q f acc, ProdOut (popThen p tokens (R m) x out sg n q f st acc s) s x r) ∨
    (R m y pos outs sg s = .panic .unwrapNone ∧ r = .ranOut)

theorem failIs_of_tryIs {R : Nat → Rec σ L T} {x : T} {out : List T} {st : List (PState L T)}
    {s0 : ParsingState L T} {it : List (List T)} {r : Search (List (Node L T) × Nat)}
    (hs : s0.prodIterOption = some it)
    (h : TryIs p tokens R x out st s0.node.token.tType s0.initialTokenPosition it r) :
    FailIs p tokens R x out (.parsing s0 :: st) r := by
  obtain ⟨N, hN⟩ := h
  refine ⟨N, fun n m hn hm sg s q f acc => ?_⟩
  unfold popThen
  rw [popStates]
  simp only [hs]
  rcases hN n m hn hm sg s with ⟨s', h1, h2⟩ | ⟨f', h1, h2⟩ | ⟨h1, rfl⟩
  · rw [M.bind_apply, M.bind_apply, h1]
    exact h2
  · have := h2 q f acc
    unfold popThen at this
    rw [M.bind_apply] at this ⊢
    rw [M.bind_apply, h1]
    exact this
  · rw [M.bind_apply, M.bind_apply, h1]
    rfl

theorem failIs_terminal {R : Nat → Rec σ L T} {x : T} {out : List T} {st : List (PState L T)}
    {s0 : ParsingState L T} {r : Search (List (Node L T) × Nat)}
    (hs : s0.prodIterOption = none) (h : FailIs p tokens R x out st r) :
    FailIs p tokens R x out (.parsing s0 :: st) r := by
  obtain ⟨N, hN⟩ := h
  refine ⟨N, fun n m hn hm sg s q f acc => ?_⟩
  have := hN n m hn hm sg s q f (acc ++ [.parsing s0])
  unfold popThen at this ⊢
  rw [popStates]
  simp only [hs]
  exact this

theorem failIs_nil {R : Nat → Rec σ L T} {x : T} {out : List T} :
    FailIs p tokens R x out [] (.failed : Search (List (Node L T) × Nat)) :=
  ⟨0, fun _ _ _ _ _ _ _ _ _ => ⟨_, _, rfl⟩⟩

/-- One round of the loop. -/
theorem productionLoop_symbol {rec : Rec σ L T} {x y : T} {out xs ys : List T} {sg : Bool} {n : Nat}
    {st : List (PState L T)} (hst : Stk ps xs st) (hout : out = xs.reverse ++ y :: ys) (q : Nat)
    (s : σ) :
    (∀ s', parseProductionSymbol p tokens rec y q sg s = .ok (.ok s', s) →
      productionLoop p tokens rec x out sg (n + 1) st q s =
        productionLoop p tokens rec x out sg n (.parsing s' :: st) s'.finalTokenPosition s) ∧
    (∀ f, parseProductionSymbol p tokens rec y q sg s = .ok (.err f, s) →
      productionLoop p tokens rec x out sg (n + 1) st q s =
        popThen p tokens rec x out sg n q f st [] s) ∧
    (∀ e, parseProductionSymbol p tokens rec y q sg s = .panic e →
      productionLoop p tokens rec x out sg (n + 1) st q s = .panic e) := by
  have hlen := hst.length
  have hlt : st.length < out.length := by rw [hout]; simp; omega
  have hget : out[st.length]? = some y := by
    rw [hout, List.getElem?_append_right (by simp; omega)]
    simp [hlen]
  refine ⟨?_, ?_, ?_⟩ <;> intro z hz <;> rw [productionLoop, if_pos hlt] <;> simp only [hget] <;>
    (rw [M.bind_apply, hz]; try rfl)

theorem loopIs_of_tryIs (P : ParserOf eps init ps p) {R : Nat → Rec σ L T} {x y : T} {out xs ys : List T}
    {st : List (PState L T)} (hst : Stk ps xs st) (hout : out = xs.reverse ++ y :: ys) {q : Nat}
    (hy : IsNonTerminal ps y) {t : Token L T} (ht : tokens[q]? = some t)
    {r : Search (List (Node L T) × Nat)}
    (h : TryIs p tokens R x out st y q (p.getTokenProductions y t.tType) r) :
    LoopIs p tokens R x out st q r := by
  obtain ⟨N, hN⟩ := h
  refine ⟨N + 1, fun n m hn hm sg s => ?_⟩
  obtain ⟨n, rfl⟩ : ∃ k, n = k + 1 := ⟨n - 1, by omega⟩
  obtain ⟨h1, h2, h3⟩ := productionLoop_symbol (p := p) (tokens := tokens)
    (rec := R m) (x := x) (sg := sg) (n := n) hst hout q s
  have hy' := (isNT_iff P y).2 hy
  simp only [parseProductionSymbol, if_pos hy', parseProductionNonTerminal, ht] at h1 h2 h3
  rcases hN n m (by omega) (by omega) sg s with ⟨s', i1, i2⟩ | ⟨f, i1, i2⟩ | ⟨i1, rfl⟩
  · rw [h1 s' i1]; exact i2
  · rw [h2 f i1]; exact i2 _ _ _
  · rw [h3 _ i1]; rfl

theorem loopIs_terminal (P : ParserOf eps init ps p) {R : Nat → Rec σ L T} {x y : T} {out xs ys : List T}
    {st : List (PState L T)} (hst : Stk ps xs st) (hout : out = xs.reverse ++ y :: ys) {q : Nat}
    (hy : ¬ IsNonTerminal ps y) {s' : ParsingState L T}
    (he : p.parseTerminalSymbol y tokens q = .ok s') (hs : s'.prodIterOption = none)
    {r0 r : Search (List (Node L T) × Nat)}
    (ih : ∀ x xs st out, out = xs.reverse ++ ys → Stk ps xs st →
      ∀ r, Fin p tokens R x out st r0 r → LoopIs p tokens R x out st s'.finalTokenPosition r)
    (hr : Fin p tokens R x out st (r0.cons s'.node) r) : LoopIs p tokens R x out st q r := by
  have hfin : Fin p tokens R x out (.parsing s' :: st) r0 r := by
    match r0, hr with
    | .found (ns, q'), hr => simpa [Fin, stNodes, Search.cons] using hr
    | .failed, hr => exact failIs_terminal hs hr
    | .ranOut, hr => exact hr
  obtain ⟨N, hN⟩ := ih x (y :: xs) (.parsing s' :: st) out (by simp [hout]) (.terminal hy hs hst) r hfin
  refine ⟨N + 1, fun n m hn hm sg s => ?_⟩
  obtain ⟨n, rfl⟩ : ∃ k, n = k + 1 := ⟨n - 1, by omega⟩
  have hy' : p.grammar.isNonTerminal y = false := by
    rw [← Bool.not_eq_true]
    exact fun h => hy ((isNT_iff P y).1 h)
  rw [(productionLoop_symbol hst hout q s).1 s' (by simp [parseProductionSymbol, hy', he])]
  exact hN n m (by omega) (by omega) sg s

/-- The meaning of `Choice` for the code. -/
def ChoiceIs (p : Parser σ L T) (tokens : List (Token L T)) (x : T) (pos : Nat) (outs : List (List T))
    (r : Search (Node L T × Nat × List (List T))) : Prop :=
  ∃ N, ∀ n m, N ≤ n → N ≤ m → ∀ sg failed s,
    TryOut (tryParseProductionsLoop p tokens (innerParse p tokens m) n x pos sg outs failed s) s pos r

theorem innerParse_of_choiceIs (hp : p.syntaxErrorSolver = none) {x : T} {pos : Nat}
    {outs : List (List T)} {r : Search (Node L T × Nat × List (List T))}
    (h : ChoiceIs p tokens x pos outs r) :
    ∃ N, ∀ n, N ≤ n → ∀ sg s, SymOut (innerParse p tokens n x pos outs sg s) s pos r := by
  obtain ⟨N, hN⟩ := h
  refine ⟨N + 1, fun n hn sg s => ?_⟩
  obtain ⟨n, rfl⟩ : ∃ k, n = k + 1 := ⟨n - 1, by omega⟩
  have h1 := hN n n (by omega) (by omega) (isChildSinglePath sg outs) [] s
  rw [innerParse, M.bind_apply]
  match r, h1 with
  | .ranOut, h1 => simp only [TryOut] at h1; simp only [h1, SymOut]
  | .found (nd, q, rest), h1 => simp only [TryOut] at h1; simp only [h1, SymOut, M.pure_apply]
  | .failed, h1 =>
    obtain ⟨f, h1⟩ := h1
    simp only [h1, SymOut, tryFixProductions, hp]
    exact ⟨_, rfl⟩

theorem choiceIs_of_choice (P : ParserOf eps init ps p) (hp : p.syntaxErrorSolver = none) {x : T}
    {pos : Nat} {outs : List (List T)} {r : Search (Node L T × Nat × List (List T))}
    (h : Choice eps ps p.getTokenProductions tokens x pos outs r) :
    ChoiceIs p tokens x pos outs r := by
  refine (Choice.rec (eps := eps) (ps := ps) (cand := p.getTokenProductions) (tokens := tokens)
    (motive_1 := fun x pos outs r _ => ChoiceIs p tokens x pos outs r ∧
      ∀ n q rest, r = .found (n, q, rest) → n.token.tType = x)
    (motive_2 := fun ys q r0 _ => ∀ x xs st out, out = xs.reverse ++ ys → Stk ps xs st →
      ∀ r, Fin p tokens (innerParse p tokens) x out st r0 r →
        LoopIs p tokens (innerParse p tokens) x out st q r)
    (motive_3 := fun y ys pos outs r0 _ => IsNonTerminal ps y → ∀ x xs st out,
      out = xs.reverse ++ y :: ys → Stk ps xs st →
      ∀ r, Fin p tokens (innerParse p tokens) x out st r0 r →
        TryIs p tokens (innerParse p tokens) x out st y pos outs r)
    ?_ ?_ ?_ ?_ ?_ ?_ ?_ ?_ ?_ ?_ ?_ ?_ ?_ ?_ ?_ h).1
  -- Choice
  · intro x pos
    exact ⟨⟨0, fun n m _ _ sg failed s => ⟨_, rfl⟩⟩, by simp⟩
  · intro x pos out outs ns q _ ih
    refine ⟨?_, ?_⟩
    · obtain ⟨N, hN⟩ := ih x [] [] out rfl .nil (.found (ns, q)) rfl
      refine ⟨N, fun n m hn hm sg failed s => ?_⟩
      have := hN n m hn hm sg s
      simp only [ProdOut] at this
      rw [tryParseProductionsLoop, M.bind_apply, this]
      rfl
    · intro n q rest e
      simp only [Search.found.injEq, Prod.mk.injEq] at e
      rw [← e.1]
      rfl
  · intro x pos out outs r _ _ ih1 ih2
    refine ⟨?_, ih2.2⟩
    obtain ⟨N, hN⟩ := ih1 x [] [] out rfl .nil .failed failIs_nil
    obtain ⟨N2, hN2⟩ := ih2.1
    refine ⟨max N N2, fun n m hn hm sg failed s => ?_⟩
    obtain ⟨f, q, this⟩ := hN n m (by omega) (by omega) sg s
    rw [tryParseProductionsLoop, M.bind_apply, this]
    exact hN2 n m (by omega) (by omega) sg _ s
  · intro x pos out outs _ ih
    refine ⟨?_, by simp⟩
    obtain ⟨N, hN⟩ := ih x [] [] out rfl .nil .ranOut rfl
    refine ⟨N, fun n m hn hm sg failed s => ?_⟩
    have := hN n m hn hm sg s
    simp only [ProdOut] at this
    rw [tryParseProductionsLoop, M.bind_apply, this]
    rfl
  -- Seq
  · intro pos x xs st out hout hst r hr
    simp only [Fin, List.append_nil] at hr
    subst hr
    refine ⟨1, fun n m hn hm sg s => ?_⟩
    obtain ⟨n, rfl⟩ : ∃ k, n = k + 1 := ⟨n - 1, by omega⟩
    have hlen := hst.length
    rw [productionLoop, if_neg (by rw [hout]; simp; omega), M.bind_apply]
    simp only [lift, hst.buildNode, M.pure_apply]
    rfl
  · intro ys pos r0 _ ih x xs st out hout hst r hr
    have hy : ¬ IsNonTerminal ps eps := fun ⟨q, hq, e⟩ => (P.grammar.wf q hq).1 e
    exact loopIs_terminal P hst hout hy (s' := ⟨pos, pos, none, .mk [] ⟨none, eps⟩⟩)
      (by simp [parseTerminalSymbol, P.grammar.eps_eq]) rfl ih hr
  · intro ys pos t r0 hy he ht _ ih x xs st out hout hst r hr
    refine loopIs_terminal P hst hout hy (s' := ⟨pos, pos + 1, none, .mk [] t⟩) ?_ rfl ih hr
    simp only [parseTerminalSymbol, P.grammar.eps_eq, if_neg (Ne.symm he),
      parseNonEpsilonTerminalSymbol, ht]
    rfl
  · intro y ys pos hy he hne x xs st out hout hst r hr
    obtain ⟨N, hN⟩ := hr
    refine ⟨N + 1, fun n m hn hm sg s => ?_⟩
    obtain ⟨n, rfl⟩ : ∃ k, n = k + 1 := ⟨n - 1, by omega⟩
    have hy' : p.grammar.isNonTerminal y = false := by
      rw [← Bool.not_eq_true]
      exact fun h => hy ((isNT_iff P y).1 h)
    have herr : p.parseTerminalSymbol y tokens pos = .err (.mk [] y) := by
      simp only [parseTerminalSymbol, P.grammar.eps_eq, if_neg (Ne.symm he),
        parseNonEpsilonTerminalSymbol]
      cases ht : tokens[pos]? with
      | none => rfl
      | some t => simp only [if_neg (Ne.symm (hne t ht))]; rfl
    rw [(productionLoop_symbol hst hout pos s).2.1 _
      (by rw [parseProductionSymbol, hy', herr]; rfl)]
    exact hN n m (by omega) (by omega) sg s _ _ _
  · intro y ys pos t r0 hy ht _ ih x xs st out hout hst r hr
    exact loopIs_of_tryIs P hst hout hy ht (ih hy x xs st out hout hst r hr)
  · intro y ys pos hy ht x xs st out hout hst r hr
    simp only [Fin] at hr
    subst hr
    refine ⟨1, fun n m hn hm sg s => ?_⟩
    obtain ⟨n, rfl⟩ : ∃ k, n = k + 1 := ⟨n - 1, by omega⟩
    refine (productionLoop_symbol hst hout pos s).2.2 _ ?_
    simp [parseProductionSymbol, (isNT_iff P y).2 hy, parseProductionNonTerminal, ht]
  -- Retry
  · intro y ys pos outs _ ih hy x xs st out hout hst r hr
    obtain ⟨N1, h1⟩ := innerParse_of_choiceIs hp ih.1
    obtain ⟨N2, h2⟩ := hr
    refine ⟨max N1 N2, fun n m hn hm sg s => ?_⟩
    obtain ⟨f, h3⟩ := h1 m (by omega) sg s
    exact .inr (.inl ⟨f, h3, fun q f acc => h2 n m (by omega) (by omega) sg s q f acc⟩)
  · intro y ys pos outs _ ih hy x xs st out hout hst r hr
    obtain ⟨N1, h1⟩ := innerParse_of_choiceIs hp ih.1
    refine ⟨N1, fun n m hn hm sg s => ?_⟩
    exact .inr (.inr ⟨h1 m hm sg s, hr⟩)
  · intro y ys pos outs rest nd q q' ns _ _ ih1 ih2 hy x xs st out hout hst r hr
    obtain ⟨N1, h1⟩ := innerParse_of_choiceIs hp ih1.1
    obtain ⟨N2, h2⟩ := ih2 x (y :: xs) (.parsing ⟨pos, q, some rest, nd⟩ :: st) out (by simp [hout])
      (.nonTerminal rest hy rfl (ih1.2 _ _ _ rfl) hst) r (by simpa [Fin, stNodes] using hr)
    refine ⟨max N1 N2, fun n m hn hm sg s => ?_⟩
    exact .inl ⟨_, h1 m (by omega) sg s, h2 n m (by omega) (by omega) sg s⟩
  · intro y ys pos outs rest nd q r0 _ _ _ ih1 ih2 ih3 hy x xs st out hout hst r hr
    obtain ⟨N1, h1⟩ := innerParse_of_choiceIs hp ih1.1
    have hl : nd.token.tType = y := ih1.2 _ _ _ rfl
    obtain ⟨N2, h2⟩ := ih2 x (y :: xs) (.parsing ⟨pos, q, some rest, nd⟩ :: st) out (by simp [hout])
      (.nonTerminal rest hy rfl hl hst) r
      (failIs_of_tryIs rfl (by rw [hl]; exact ih3 hy x xs st out hout hst r hr))
    refine ⟨max N1 N2, fun n m hn hm sg s => ?_⟩
    exact .inl ⟨_, h1 m (by omega) sg s, h2 n m (by omega) (by omega) sg s⟩
  · intro y ys pos outs rest nd q _ _ ih1 ih2 hy x xs st out hout hst r hr
    obtain ⟨N1, h1⟩ := innerParse_of_choiceIs hp ih1.1
    obtain ⟨N2, h2⟩ := ih2 x (y :: xs) (.parsing ⟨pos, q, some rest, nd⟩ :: st) out (by simp [hout])
      (.nonTerminal rest hy rfl (ih1.2 _ _ _ rfl) hst) r hr
    refine ⟨max N1 N2, fun n m hn hm sg s => ?_⟩
    exact .inl ⟨_, h1 m (by omega) sg s, h2 n m (by omega) (by omega) sg s⟩

theorem choice_det (P : ParserOf eps init ps p) (hp : p.syntaxErrorSolver = none) (s : σ) {x : T}
    {pos : Nat} {outs : List (List T)} {r r' : Search (Node L T × Nat × List (List T))}
    (h : Choice eps ps p.getTokenProductions tokens x pos outs r)
    (h' : Choice eps ps p.getTokenProductions tokens x pos outs r') : r = r' := by
  obtain ⟨N, hN⟩ := innerParse_of_choiceIs hp (choiceIs_of_choice P hp h)
  obtain ⟨N', hN'⟩ := innerParse_of_choiceIs hp (choiceIs_of_choice P hp h')
  have h1 := hN (max N N') (by omega) true s
  have h2 := hN' (max N N') (by omega) true s
  match r, r', h1, h2 with
  | .found (n, q, rest), .found (n', q', rest'), h1, h2 =>
    simp only [SymOut] at h1 h2
    rw [h1] at h2
    simp only [Out.ok.injEq, Prod.mk.injEq, ParseSymbolResult.ok.injEq, ParsingState.mk.injEq,
      Option.some.injEq, true_and, and_true] at h2
    obtain ⟨rfl, rfl, rfl⟩ := h2
    rfl
  | .found (n, q, rest), .failed, h1, ⟨f, h2⟩ => simp only [SymOut] at h1; rw [h1] at h2; simp at h2
  | .found (n, q, rest), .ranOut, h1, h2 => simp only [SymOut] at h1 h2; rw [h1] at h2; simp at h2
  | .failed, .found (n, q, rest), ⟨f, h1⟩, h2 => simp only [SymOut] at h2; rw [h1] at h2; simp at h2
  | .failed, .failed, _, _ => rfl
  | .failed, .ranOut, ⟨f, h1⟩, h2 => simp only [SymOut] at h2; rw [h1] at h2; simp at h2
  | .ranOut, .found (n, q, rest), h1, h2 => simp only [SymOut] at h1 h2; rw [h1] at h2; simp at h2
  | .ranOut, .failed, h1, ⟨f, h2⟩ => simp only [SymOut] at h1; rw [h1] at h2; simp at h2
  | .ranOut, .ranOut, _, _ => rfl

/-! ## The whole parse -/

/-- The outcome of `parse_from_tokens` for an outcome of the search. -/
def ParseOut (e : Out (ParseResult L T × σ)) (s : σ) :
    Search (Node L T × Nat × List (List T)) → Prop
  | .found (n, _, _) => e = .ok (.ok ⟨n⟩, s)
  | .failed => ∃ f, e = .ok (.err f, s)
  | .ranOut => e = .panic .unwrapNone

theorem parseFromTokens_eq (P : ParserOf eps init ps p) (t : Token L T) (ts : List (Token L T))
    (n : Nat) (s : σ) : p.parseFromTokens n (t :: ts) s =
      match innerParse p (t :: ts) n init 0 (p.getTokenProductions init t.tType) true s with
      | .ok (r, s') => .ok (toParseResult r, s')
      | .panic e => .panic e
      | .fuel => .fuel := by
  unfold parseFromTokens
  rw [if_neg (by simp)]
  simp only [List.getElem?_cons_zero]
  rw [M.bind_apply, P.grammar.init_eq]
  cases innerParse p (t :: ts) n init 0 (p.getTokenProductions init t.tType) true s <;> rfl

/-- Every outcome of the parser is one of the search. -/
theorem choice_of_parse (P : ParserOf eps init ps p) (hp : p.syntaxErrorSolver = none)
    (t : Token L T) (ts : List (Token L T)) (n : Nat) (s : σ)
    (hf : p.parseFromTokens n (t :: ts) s ≠ .fuel) :
    ∃ r, ParseOut (p.parseFromTokens n (t :: ts) s) s r ∧
      Choice eps ps p.getTokenProductions (t :: ts) init 0 (p.getTokenProductions init t.tType) r := by
  rw [parseFromTokens_eq P] at hf ⊢
  have hne : innerParse p (t :: ts) n init 0 (p.getTokenProductions init t.tType) true s ≠ .fuel := by
    intro h; rw [h] at hf; exact hf rfl
  obtain ⟨r, h1, h2, _⟩ := innerParse_choice P hp n _ _ _ _ _ hne
  refine ⟨r, ?_, h2⟩
  match r, h1 with
  | .found (nd, q, rest), h1 => simp only [SymOut] at h1; simp only [h1, ParseOut, toParseResult]
  | .failed, ⟨f, h1⟩ => simp only [h1, ParseOut, toParseResult]; exact ⟨_, rfl⟩
  | .ranOut, h1 => simp only [SymOut] at h1; simp only [h1, ParseOut]

/-- Every outcome of the search is one of the parser. -/
theorem parse_of_choice (P : ParserOf eps init ps p) (hp : p.syntaxErrorSolver = none)
    {t : Token L T} {ts : List (Token L T)} {r : Search (Node L T × Nat × List (List T))}
    (h : Choice eps ps p.getTokenProductions (t :: ts) init 0 (p.getTokenProductions init t.tType) r) :
    ∃ N, ∀ n, N ≤ n → ∀ s, ParseOut (p.parseFromTokens n (t :: ts) s) s r := by
  obtain ⟨N, hN⟩ := innerParse_of_choiceIs hp (choiceIs_of_choice P hp h)
  refine ⟨N, fun n hn s => ?_⟩
  have h1 := hN n hn true s
  rw [parseFromTokens_eq P]
  match r, h1 with
  | .found (nd, q, rest), h1 => simp only [SymOut] at h1; simp only [h1, ParseOut, toParseResult]
  | .failed, ⟨f, h1⟩ => simp only [h1, ParseOut, toParseResult]; exact ⟨_, rfl⟩
  | .ranOut, h1 => simp only [SymOut] at h1; simp only [h1, ParseOut]

/-- Outcomes of the parser and outcomes of the search correspond. -/
theorem parse_iff_choice (P : ParserOf eps init ps p) (hp : p.syntaxErrorSolver = none)
    (t : Token L T) (ts : List (Token L T)) (s : σ) :
    (∀ tree s', Parses p (t :: ts) s (.ok tree) s' ↔ s' = s ∧ ∃ q rest,
      Choice eps ps p.getTokenProductions (t :: ts) init 0 (p.getTokenProductions init t.tType)
        (.found (tree.root, q, rest))) ∧
    ((∃ f s', Parses p (t :: ts) s (.err f) s') ↔
      Choice eps ps p.getTokenProductions (t :: ts) init 0 (p.getTokenProductions init t.tType)
        .failed) ∧
    (ParsePanics p (t :: ts) s ↔
      Choice eps ps p.getTokenProductions (t :: ts) init 0 (p.getTokenProductions init t.tType)
        .ranOut) ∧
    (ParseDiverges p (t :: ts) s ↔ ¬ ∃ r,
      Choice eps ps p.getTokenProductions (t :: ts) init 0 (p.getTokenProductions init t.tType) r) := by
  refine ⟨fun tree s' => ⟨fun h => ?_, ?_⟩, ⟨?_, fun h => ?_⟩, ⟨?_, fun h => ?_⟩, ⟨fun h => ?_, fun h => ?_⟩⟩
  · obtain ⟨n, e⟩ := parses_at h
    obtain ⟨r, h1, h2⟩ := choice_of_parse P hp t ts n s (by rw [e]; simp)
    rw [e] at h1
    match r, h1, h2 with
    | .found (nd, q, rest), h1, h2 =>
      simp only [ParseOut, Out.ok.injEq, Prod.mk.injEq, ParseResult.ok.injEq] at h1
      obtain ⟨rfl, rfl⟩ := h1
      exact ⟨rfl, q, rest, h2⟩
    | .failed, ⟨f, h1⟩, h2 => simp at h1
    | .ranOut, h1, h2 => simp [ParseOut] at h1
  · rintro ⟨rfl, q, rest, h⟩
    obtain ⟨N, hN⟩ := parse_of_choice P hp h
    exact ⟨N, fun n hn => hN n hn s'⟩
  · rintro ⟨f, s', h⟩
    obtain ⟨n, e⟩ := parses_at h
    obtain ⟨r, h1, h2⟩ := choice_of_parse P hp t ts n s (by rw [e]; simp)
    rw [e] at h1
    match r, h1, h2 with
    | .found (nd, q, rest), h1, h2 => simp [ParseOut] at h1
    | .failed, ⟨f, h1⟩, h2 => exact h2
    | .ranOut, h1, h2 => simp [ParseOut] at h1
  · obtain ⟨N, hN⟩ := parse_of_choice P hp h
    obtain ⟨f, e⟩ := hN N (Nat.le_refl _) s
    exact ⟨f, s, parse_returns e⟩
  · rintro ⟨N, e, h⟩
    have e : p.parseFromTokens N (t :: ts) s = .panic e := h N (Nat.le_refl _)
    obtain ⟨r, h1, h2⟩ := choice_of_parse P hp t ts N s (by rw [e]; simp)
    rw [e] at h1
    match r, h1, h2 with
    | .found (nd, q, rest), h1, h2 => simp [ParseOut] at h1
    | .failed, ⟨f, h1⟩, h2 => simp at h1
    | .ranOut, h1, h2 => exact h2
  · obtain ⟨N, hN⟩ := parse_of_choice P hp h
    exact ⟨N, .unwrapNone, fun n hn => hN n hn s⟩
  · rintro ⟨r, h'⟩
    obtain ⟨N, hN⟩ := parse_of_choice P hp h'
    have := hN N (Nat.le_refl _) s
    rw [show p.parseFromTokens N (t :: ts) s = .fuel from h N] at this
    match r, this with
    | .found (nd, q, rest), h1 => simp [ParseOut] at h1
    | .failed, ⟨f, h1⟩ => simp at h1
    | .ranOut, h1 => simp [ParseOut] at h1
  · intro n
    by_contra hne
    obtain ⟨r, _, h2⟩ := choice_of_parse P hp t ts n s hne
    exact h ⟨r, h2⟩

end Verif.Parser
