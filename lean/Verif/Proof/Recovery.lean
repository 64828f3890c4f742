import Verif.Spec.Recovery
import Verif.Proof.OrderedChoice

/-! # The parser computes the search of Spec.Recovery -/

set_option linter.unusedSectionVars false

namespace Verif.Parser.Recovery

open Spec Spec.Recovery

variable {σ L T : Type} [DecidableEq T] {eps init : T} {ps : List (Production T)}
  {p : Parser σ L T} {tokens : List (Token L T)}

/-- The outcome `e` of parsing a non-terminal at `pos` stands for `r`. -/
def SymOut (e : Out (ParseSymbolResult L T × σ)) (pos : Nat) :
    Outcome σ (Derived L T) (FailedSymbol L T) → Prop
  | .found (.node n q rest) s => e = .ok (.ok ⟨pos, q, some rest, n⟩, s)
  | .found (.fixed fs q) s => e = .ok (.fix ⟨q, fs⟩, s)
  | .failed f s => e = .ok (.err f, s)
  | .panicked => ∃ m, e = .panic m

open Classical in
/-- The production made of parts. -/
noncomputable def madeOf (x : T) (l : List (Part L T)) : ParseProductionResult L T :=
  if ∃ fs, ProductionParsedSymbol.fix fs ∈ l then .fix (.mk (l.map toFixedPart))
  else .ok (.mk (l.filterMap fun | .ok n => some n | .fix _ => none) ⟨none, x⟩)

/-- The outcome `e` of parsing the production `out` of `x` stands for `r`. -/
def ProdOut (e : Out ((ParseProductionResult L T × Nat) × σ)) (x : T) (out : List T) :
    SeqOutcome σ L T → Prop
  | .found (l, q) s => e = .ok ((madeOf x l, q), s)
  | .failed (f, l) s => ∃ q, e = .ok ((.err (.mk f l (out.drop (l.length + 1))), q), s)
  | .panicked => ∃ m, e = .panic m

/-- The outcome `e` of trying the productions of `x`, with failed productions `fl` so far. -/
def TryOut (e : Out (Except (List (FailedProduction L T)) (ParseSymbolResult L T) × σ)) (pos : Nat)
    (fl : List (FailedProduction L T)) :
    Outcome σ (Derived L T) (List (FailedProduction L T)) → Prop
  | .found (.node n q rest) s => e = .ok (.ok (.ok ⟨pos, q, some rest, n⟩), s)
  | .found (.fixed fs q) s => e = .ok (.ok (.fix ⟨q, fs⟩), s)
  | .failed fps s => e = .ok (.error (fl ++ fps), s)
  | .panicked => ∃ m, e = .panic m

/-- A stack of states, top first, for the symbols parsed, last first. -/
inductive Stk (ps : List (Production T)) : List T → List (PState L T) → Prop where
  | nil : Stk ps [] []
  | terminal {x : T} {xs : List T} {s : ParsingState L T} {st : List (PState L T)} :
      s.prodIterOption = none → Stk ps xs st → Stk ps (x :: xs) (.parsing s :: st)
  | nonTerminal {x : T} {xs : List T} {s : ParsingState L T} {st : List (PState L T)}
      (it : List (List T)) : s.prodIterOption = some it →
      s.node.token.tType = x → Stk ps xs st → Stk ps (x :: xs) (.parsing s :: st)
  | fixed {x : T} {xs : List T} {s : FixedState L T} {st : List (PState L T)} :
      Stk ps xs st → Stk ps (x :: xs) (.fixed s :: st)

theorem Stk.length {xs : List T} {st : List (PState L T)} (h : Stk ps xs st) :
    xs.length = st.length := by
  induction h <;> simp_all

/-- The parts on the stack in production order. -/
def stParts (st : List (PState L T)) : List (Part L T) := (st.map stateToParsedSymbol).reverse

theorem statesToNodes_eq (st : List (PState L T)) (h : st.any PState.isFixed = false) :
    statesToNodes st =
      .ok ((st.map stateToParsedSymbol).filterMap fun | .ok n => some n | .fix _ => none) := by
  induction st with
  | nil => rfl
  | cons s st ih =>
    cases s with
    | fixed s => simp [PState.isFixed] at h
    | parsing s =>
      simp only [List.any_cons, PState.isFixed, Bool.false_or] at h
      simp [statesToNodes, ih h, stateToParsedSymbol]

theorem any_isFixed_iff (st : List (PState L T)) :
    st.any PState.isFixed = true ↔ ∃ fs, ProductionParsedSymbol.fix fs ∈ st.map stateToParsedSymbol := by
  induction st with
  | nil => simp
  | cons s st ih =>
    cases s with
    | fixed s => simp [PState.isFixed, stateToParsedSymbol]
    | parsing s => 
      simp only [List.any_cons, PState.isFixed, Bool.false_or, ih, List.map_cons,
        stateToParsedSymbol, List.mem_cons, reduceCtorEq, false_or]

theorem buildNode_eq (x : T) (st : List (PState L T)) :
    buildNode x st.reverse = .ok (madeOf x (stParts st)) := by
  unfold buildNode madeOf stParts
  rw [← List.map_reverse]
  by_cases h : st.reverse.any PState.isFixed = true
  · rw [if_pos h, if_pos ((any_isFixed_iff _).1 h)]
    congr 2
    rw [List.map_map]
    congr 1
    apply List.map_congr_left
    intro s _
    cases s <;> rfl
  · rw [if_neg h, if_neg (fun h' => h ((any_isFixed_iff _).2 h')),
      statesToNodes_eq _ (by simpa using h)]
    rfl

/-- The contract of the recursive call. -/
def RecChoice (eps : T) (ps : List (Production T)) (p : Parser σ L T) (tokens : List (Token L T))
    (rec : Rec σ L T) : Prop :=
  ∀ x pos outs sg s, rec x pos outs sg s ≠ .fuel →
    ∃ r, SymOut (rec x pos outs sg s) pos r ∧
      Choice eps ps p.getTokenProductions p.syntaxErrorSolver tokens x pos outs sg s r ∧
      ∀ n q rest s', r = .found (.node n q rest) s' → n.token.tType = x

/-- `Cont sg xs st zs r0 r`: if the search for the symbols `zs` behind the stack gives `r0`, then the
search for the whole production gives `r`. -/
inductive Cont (eps : T) (ps : List (Production T)) (cand : T → T → List (List T))
    (solver : Option (Solver σ L T)) (tokens : List (Token L T)) (sg : Bool) :
    List T → List (PState L T) → List T → SeqOutcome σ L T → SeqOutcome σ L T → Prop where
  | nil (zs : List T) (r : SeqOutcome σ L T) : Cont eps ps cand solver tokens sg [] [] zs r r
  | terminal {x : T} {xs zs : List T} {s : ParsingState L T} {st : List (PState L T)}
      {r0 r : SeqOutcome σ L T} : s.prodIterOption = none →
      Cont eps ps cand solver tokens sg xs st (x :: zs) (r0.cons (.ok s.node)) r →
      Cont eps ps cand solver tokens sg (x :: xs) (.parsing s :: st) zs r0 r
  | fixed {x : T} {xs zs : List T} {s : FixedState L T} {st : List (PState L T)}
      {r0 r : SeqOutcome σ L T} :
      Cont eps ps cand solver tokens sg xs st (x :: zs) (r0.cons (.fix s.fixedSymbol)) r →
      Cont eps ps cand solver tokens sg (x :: xs) (.fixed s :: st) zs r0 r
  | nonTerminal {x : T} {xs zs : List T} {s : ParsingState L T} {st : List (PState L T)}
      {it : List (List T)} {r0 r1 r : SeqOutcome σ L T} : s.prodIterOption = some it →
      Resume eps ps cand solver tokens sg x zs s.initialTokenPosition s.node it r0 r1 →
      Cont eps ps cand solver tokens sg xs st (x :: zs) r1 r →
      Cont eps ps cand solver tokens sg (x :: xs) (.parsing s :: st) zs r0 r

theorem Stk.cont_found {cand : T → T → List (List T)} {solver : Option (Solver σ L T)} {sg : Bool}
    {xs : List T} {st : List (PState L T)} (h : Stk ps xs st) (zs : List T) (l : List (Part L T))
    (q : Nat) (s : σ) :
    Cont eps ps cand solver tokens sg xs st zs (.found (l, q) s) (.found (stParts st ++ l, q) s) := by
  induction h generalizing zs l with
  | nil => exact .nil _ _
  | terminal hs _ ih =>
    rename_i x xs s0 st _
    refine .terminal hs ?_
    have := ih (x :: zs) (.ok s0.node :: l)
    simpa [stParts, stateToParsedSymbol, SeqOutcome.cons] using this
  | fixed _ ih =>
    rename_i x xs s0 st _
    refine .fixed ?_
    have := ih (x :: zs) (.fix s0.fixedSymbol :: l)
    simpa [stParts, stateToParsedSymbol, SeqOutcome.cons] using this
  | nonTerminal it hs _ _ ih =>
    rename_i x xs s0 st _ _
    refine .nonTerminal hs (.found _ _ _ _ _ _ _ _ _) ?_
    have := ih (x :: zs) (.ok s0.node :: l)
    simpa [stParts, stateToParsedSymbol, SeqOutcome.cons] using this

theorem Stk.cont_panicked {cand : T → T → List (List T)} {solver : Option (Solver σ L T)} {sg : Bool}
    {xs : List T} {st : List (PState L T)} (h : Stk ps xs st) (zs : List T) :
    Cont eps ps cand solver tokens sg xs st zs .panicked .panicked := by
  induction h generalizing zs with
  | nil => exact .nil _ _
  | terminal hs _ ih => exact .terminal hs (ih _)
  | fixed _ ih => exact .fixed (ih _)
  | nonTerminal it hs _ _ ih => exact .nonTerminal hs (.panicked _ _ _ _ _ _) (ih _)

theorem popStates_cont {rec : Rec σ L T} (hrec : RecChoice eps ps p tokens rec) {sg : Bool}
    {xs : List T} {st : List (PState L T)} (hst : Stk ps xs st) (zs : List T)
    (acc : List (PState L T)) (s : σ) (f : FailedSymbol L T)
    (hf : popStates rec sg st acc s ≠ .fuel) :
    ((∃ m, popStates rec sg st acc s = .panic m) ∧
      Cont eps ps p.getTokenProductions p.syntaxErrorSolver tokens sg xs st zs
        (.failed (f, stParts acc) s) .panicked) ∨
    (∃ st' l s', popStates rec sg st acc s = .ok ((st', some l), s') ∧
      Cont eps ps p.getTokenProductions p.syntaxErrorSolver tokens sg xs st zs
        (.failed (f, stParts acc) s) (.failed (f, l.map stateToParsedSymbol) s')) ∨
    (∃ s1 st1 x1 xs1 zs1 s', popStates rec sg st acc s = .ok ((.parsing s1 :: st1, none), s') ∧
      Stk ps (x1 :: xs1) (.parsing s1 :: st1) ∧
      xs.reverse ++ zs = (x1 :: xs1).reverse ++ zs1 ∧
      ∀ r0 r, Seq eps ps p.getTokenProductions p.syntaxErrorSolver tokens sg zs1
          s1.finalTokenPosition s' r0 →
        Cont eps ps p.getTokenProductions p.syntaxErrorSolver tokens sg (x1 :: xs1)
          (.parsing s1 :: st1) zs1 r0 r →
        Cont eps ps p.getTokenProductions p.syntaxErrorSolver tokens sg xs st zs
          (.failed (f, stParts acc) s) r) := by
  induction hst generalizing zs acc s with
  | nil =>
    refine .inr (.inl ⟨_, _, _, rfl, ?_⟩)
    rw [List.map_reverse]
    exact .nil _ _
  | terminal hs hst ih =>
    rename_i x xs s0 st
    rw [popStates] at hf ⊢
    simp only [hs] at hf ⊢
    have hacc : (SeqOutcome.cons (.ok s0.node) (.failed (f, stParts acc) s) : SeqOutcome σ L T) =
        .failed (f, stParts (acc ++ [.parsing s0])) s := by
      simp [stParts, stateToParsedSymbol, SeqOutcome.cons]
    rcases ih (x :: zs) _ s hf with ⟨h1, h2⟩ | ⟨st', l, s', h1, h2⟩ |
      ⟨s1, st1, x1, xs1, zs1, s', h1, h2, h3, h4⟩
    · exact .inl ⟨h1, .terminal hs (by rw [hacc]; exact h2)⟩
    · exact .inr (.inl ⟨st', l, s', h1, .terminal hs (by rw [hacc]; exact h2)⟩)
    · exact .inr (.inr ⟨s1, st1, x1, xs1, zs1, s', h1, h2, by simpa using h3,
        fun r0 r h h' => .terminal hs (by rw [hacc]; exact h4 r0 r h h')⟩)
  | fixed hst ih =>
    rename_i x xs s0 st
    rw [popStates] at hf ⊢
    have hacc : (SeqOutcome.cons (.fix s0.fixedSymbol) (.failed (f, stParts acc) s) :
        SeqOutcome σ L T) = .failed (f, stParts (acc ++ [.fixed s0])) s := by
      simp [stParts, stateToParsedSymbol, SeqOutcome.cons]
    rcases ih (x :: zs) _ s hf with ⟨h1, h2⟩ | ⟨st', l, s', h1, h2⟩ |
      ⟨s1, st1, x1, xs1, zs1, s', h1, h2, h3, h4⟩
    · exact .inl ⟨h1, .fixed (by rw [hacc]; exact h2)⟩
    · exact .inr (.inl ⟨st', l, s', h1, .fixed (by rw [hacc]; exact h2)⟩)
    · exact .inr (.inr ⟨s1, st1, x1, xs1, zs1, s', h1, h2, by simpa using h3,
        fun r0 r h h' => .fixed (by rw [hacc]; exact h4 r0 r h h')⟩)
  | nonTerminal it hs hl hst ih =>
    rename_i x xs s0 st
    rw [popStates] at hf ⊢
    simp only [hs] at hf ⊢
    rw [M.bind_apply] at hf ⊢
    rw [hl] at hf ⊢
    have hne : rec x s0.initialTokenPosition it sg s ≠ .fuel := by
      intro h; rw [h] at hf; exact hf rfl
    obtain ⟨r, hr, hc, hlab⟩ := hrec _ _ _ _ _ hne
    match r, hr, hc, hlab with
    | .panicked, hr, hc, _ =>
      obtain ⟨m, hr⟩ := hr
      simp only [hr]
      exact .inl ⟨⟨m, rfl⟩, .nonTerminal hs (.retryPanics _ _ _ _ _ _ _ _ hc)
        (hst.cont_panicked _)⟩
    | .failed f' s2, hr, hc, _ =>
      simp only [SymOut] at hr
      simp only [hr] at hf ⊢
      rcases ih (x :: zs) _ s2 hf with ⟨h1, h2⟩ | ⟨st', l, s', h1, h2⟩ |
        ⟨s1, st1, x1, xs1, zs1, s', h1, h2, h3, h4⟩
      · exact .inl ⟨h1, .nonTerminal hs (.gaveUp _ _ _ _ _ _ _ _ _ _ hc) h2⟩
      · exact .inr (.inl ⟨st', l, s', h1, .nonTerminal hs (.gaveUp _ _ _ _ _ _ _ _ _ _ hc) h2⟩)
      · exact .inr (.inr ⟨s1, st1, x1, xs1, zs1, s', h1, h2, by simpa using h3,
          fun r0 r h h' => .nonTerminal hs (.gaveUp _ _ _ _ _ _ _ _ _ _ hc) (h4 r0 r h h')⟩)
    | .found (.fixed fs q) s2, hr, hc, _ =>
      simp only [SymOut] at hr
      simp only [hr] at hf ⊢
      rcases ih (x :: zs) _ s2 hf with ⟨h1, h2⟩ | ⟨st', l, s', h1, h2⟩ |
        ⟨s1, st1, x1, xs1, zs1, s', h1, h2, h3, h4⟩
      · exact .inl ⟨h1, .nonTerminal hs (.fixDropped _ _ _ _ _ _ _ _ _ _ _ hc) h2⟩
      · exact .inr (.inl ⟨st', l, s', h1, .nonTerminal hs (.fixDropped _ _ _ _ _ _ _ _ _ _ _ hc) h2⟩)
      · exact .inr (.inr ⟨s1, st1, x1, xs1, zs1, s', h1, h2, by simpa using h3,
          fun r0 r h h' => .nonTerminal hs (.fixDropped _ _ _ _ _ _ _ _ _ _ _ hc) (h4 r0 r h h')⟩)
    | .found (.node n q rest) s2, hr, hc, hlab =>
      simp only [SymOut] at hr
      simp only [hr, M.pure_apply]
      refine .inr (.inr ⟨_, st, x, xs, zs, s2, rfl,
        .nonTerminal rest rfl (hlab n q rest s2 rfl) hst, rfl, ?_⟩)
      intro r0 r hseq hcont
      cases hcont with
      | terminal h => simp at h
      | nonTerminal h1 h2 h3 =>
        simp only [Option.some.injEq] at h1
        subst h1
        exact .nonTerminal hs (.again _ _ _ _ _ _ _ _ _ _ _ _ _ _ hc hseq h2) h3

/-- A parsed terminal. -/
theorem parseTerminalSymbol_cases (P : ParserOf eps init ps p) {x : T} (hx : ¬ IsNonTerminal ps x)
    (pos : Nat) :
    (∃ s, p.parseTerminalSymbol x tokens pos = .ok s ∧ s.prodIterOption = none ∧
      ∀ cand solver sg xs (s' : σ) r, Seq eps ps cand solver tokens sg xs s.finalTokenPosition s' r →
        Seq eps ps cand solver tokens sg (x :: xs) pos s' (r.cons (.ok s.node))) ∨
    (p.parseTerminalSymbol x tokens pos = .err (.mk [] x) ∧
      ∀ cand solver sg xs (s' : σ),
        Seq eps ps cand solver tokens sg (x :: xs) pos s' (.failed (.mk [] x, []) s')) := by
  unfold parseTerminalSymbol
  rw [P.grammar.eps_eq]
  by_cases he : eps = x
  · rw [if_pos he]
    subst he
    exact .inl ⟨_, rfl, rfl, fun cand solver sg xs s' r h => .eps _ _ _ _ _ h⟩
  · rw [if_neg he]
    unfold parseNonEpsilonTerminalSymbol
    cases ht : tokens[pos]? with
    | none =>
      exact .inr ⟨rfl, fun cand solver sg xs s' => .mismatch _ _ _ _ _ hx (Ne.symm he) (by simp [ht])⟩
    | some t =>
      by_cases hxt : x = t.tType
      · simp only [if_pos hxt]
        subst hxt
        exact .inl ⟨_, rfl, rfl,
          fun cand solver sg xs s' r h => .terminal _ _ _ _ _ _ hx (Ne.symm he) ht h⟩
      · simp only [if_neg hxt]
        refine .inr ⟨rfl, fun cand solver sg xs s' => .mismatch _ _ _ _ _ hx (Ne.symm he) ?_⟩
        intro t' ht' e
        rw [ht] at ht'
        cases ht'
        exact hxt e.symm

theorem productionLoop_cont (P : ParserOf eps init ps p) {rec : Rec σ L T}
    (hrec : RecChoice eps ps p tokens rec) (x : T) (out : List T) (sg : Bool) (n : Nat) {xs ys : List T}
    {st : List (PState L T)} (hst : Stk ps xs st) (hout : out = xs.reverse ++ ys) (q : Nat) (s : σ)
    (hf : productionLoop p tokens rec x out sg n st q s ≠ .fuel) :
    ∃ r0 r, ProdOut (productionLoop p tokens rec x out sg n st q s) x out r ∧
      Seq eps ps p.getTokenProductions p.syntaxErrorSolver tokens sg ys q s r0 ∧
      Cont eps ps p.getTokenProductions p.syntaxErrorSolver tokens sg xs st ys r0 r := by
  induction n generalizing xs ys st q s with
  | zero => simp [productionLoop] at hf
  | succ n ih =>
    have hlen := hst.length
    rw [productionLoop] at hf ⊢
    cases ys with
    | nil =>
      rw [if_neg (by rw [hout]; simp; omega)]
      rw [M.bind_apply]
      simp only [lift, buildNode_eq, M.pure_apply]
      refine ⟨_, .found (stParts st, q) s, rfl, .nil _ _ _, ?_⟩
      have := hst.cont_found (eps := eps) (cand := p.getTokenProductions)
        (solver := p.syntaxErrorSolver) (sg := sg) (tokens := tokens) [] [] q s
      simpa using this
    | cons y ys =>
      have hlt : st.length < out.length := by rw [hout]; simp; omega
      have hget : out[st.length]? = some y := by
        rw [hout, List.getElem?_append_right (by simp; omega)]
        simp [hlen]
      have hout' : out = (y :: xs).reverse ++ ys := by simp [hout]
      rw [if_pos hlt] at hf ⊢
      simp only [hget] at hf ⊢
      rw [M.bind_apply] at hf ⊢
      -- what happens if the symbol cannot be parsed
      have hfail : ∀ f s, ∀ r00, Seq eps ps p.getTokenProductions p.syntaxErrorSolver tokens sg
            (y :: ys) q r00 (.failed (f, []) s) →
          popThen p tokens rec x out sg n q f st [] s ≠ .fuel →
          ∃ r0 r, ProdOut (popThen p tokens rec x out sg n q f st [] s) x out r ∧
            Seq eps ps p.getTokenProductions p.syntaxErrorSolver tokens sg (y :: ys) q r00 r0 ∧
            Cont eps ps p.getTokenProductions p.syntaxErrorSolver tokens sg xs st (y :: ys) r0 r := by
        intro f s r00 hseq hf
        unfold popThen at hf ⊢
        rw [M.bind_apply] at hf ⊢
        have hne : popStates rec sg st [] s ≠ .fuel := by
          intro h; rw [h] at hf; exact hf rfl
        rcases popStates_cont hrec hst (y :: ys) [] s f hne with
          ⟨⟨m, h1⟩, h2⟩ | ⟨st', l, s', h1, h2⟩ | ⟨s1, st1, x1, xs1, zs1, s', h1, h2, h3, h4⟩
        · simp only [h1] at hf ⊢
          exact ⟨_, .panicked, ⟨m, rfl⟩, hseq, h2⟩
        · simp only [h1, M.pure_apply] at hf ⊢
          exact ⟨_, .failed (f, l.map stateToParsedSymbol) s', ⟨q, rfl⟩, hseq, h2⟩
        · simp only [h1] at hf ⊢
          obtain ⟨r0, r, i1, i2, i3⟩ := ih h2 (by rw [hout, h3]) _ _ hf
          exact ⟨_, r, i1, hseq, h4 r0 r i2 i3⟩
      unfold parseProductionSymbol at hf ⊢
      by_cases hy : p.grammar.isNonTerminal y = true
      · have hny := (isNT_iff P y).1 hy
        rw [if_pos hy] at hf ⊢
        unfold parseProductionNonTerminal at hf ⊢
        cases ht : tokens[q]? with
        | none =>
          simp only [ht, M.panic_apply] at hf ⊢
          exact ⟨_, .panicked, ⟨_, rfl⟩, .runsOut _ _ _ _ _ hny ht, hst.cont_panicked _⟩
        | some t =>
          simp only [ht] at hf ⊢
          have hne : rec y q (p.getTokenProductions y t.tType) sg s ≠ .fuel := by
            intro h; rw [h] at hf; exact hf rfl
          obtain ⟨r, hr, hc, hlab⟩ := hrec _ _ _ _ _ hne
          match r, hr, hc, hlab with
          | .panicked, hr, hc, _ =>
            obtain ⟨m, hr⟩ := hr
            simp only [hr]
            exact ⟨_, .panicked, ⟨m, rfl⟩, .panicked _ _ _ _ _ t hny ht hc, hst.cont_panicked _⟩
          | .failed f s2, hr, hc, _ =>
            simp only [SymOut] at hr
            simp only [hr] at hf ⊢
            exact hfail f s2 s (.failed _ _ _ _ _ _ t _ hny ht hc) hf
          | .found (.fixed fs q1) s2, hr, hc, _ =>
            simp only [SymOut] at hr
            simp only [hr] at hf ⊢
            obtain ⟨r0, r, i1, i2, i3⟩ := ih (.fixed hst) hout' _ _ hf
            cases i3 with
            | fixed h => exact ⟨_, r, i1, .fixed _ _ _ _ _ _ t _ _ _ hny ht hc i2, h⟩
          | .found (.node nd q1 rest) s2, hr, hc, hlab =>
            simp only [SymOut] at hr
            simp only [hr] at hf ⊢
            obtain ⟨r0, r, i1, i2, i3⟩ :=
              ih (.nonTerminal rest rfl (hlab nd q1 rest s2 rfl) hst) hout' _ _ hf
            cases i3 with
            | terminal h => simp at h
            | nonTerminal h1 h2 h3 =>
              simp only [Option.some.injEq] at h1
              subst h1
              exact ⟨_, r, i1, .nonTerminal _ _ _ _ _ _ t _ _ _ _ _ hny ht hc i2 h2, h3⟩
      · have hny : ¬ IsNonTerminal ps y := fun h => hy ((isNT_iff P y).2 h)
        rw [if_neg hy] at hf ⊢
        rcases parseTerminalSymbol_cases (tokens := tokens) P hny q with
          ⟨s1, h1, h2, h3⟩ | ⟨h1, h2⟩
        · simp only [h1, M.pure_apply] at hf ⊢
          obtain ⟨r0, r, i1, i2, i3⟩ := ih (.terminal h2 hst) hout' _ _ hf
          cases i3 with
          | terminal _ h => exact ⟨_, r, i1, h3 _ _ _ _ _ _ i2, h⟩
          | nonTerminal h => rw [h2] at h; simp at h
        · simp only [h1, M.pure_apply] at hf ⊢
          exact hfail _ _ s (h2 _ _ _ _ _) hf

theorem madeOf_cases (x : T) (l : List (Part L T)) :
    (∃ ns, l = ns.map .ok ∧ madeOf x l = .ok (.mk ns ⟨none, x⟩)) ∨
    ((∃ fs, ProductionParsedSymbol.fix fs ∈ l) ∧ madeOf x l = .fix (.mk (l.map toFixedPart))) := by
  unfold madeOf
  by_cases h : ∃ fs, ProductionParsedSymbol.fix fs ∈ l
  · exact .inr ⟨h, if_pos h⟩
  · refine .inl ⟨l.filterMap fun | .ok n => some n | .fix _ => none, ?_, if_neg h⟩
    induction l with
    | nil => rfl
    | cons a l ih =>
      cases a with
      | fix fs => exact absurd ⟨fs, by simp⟩ h
      | ok n =>
        simp only [List.filterMap_cons, List.map_cons, List.cons.injEq, true_and]
        exact ih (fun ⟨fs, hfs⟩ => h ⟨fs, by simp [hfs]⟩)

theorem madeOf_map_ok (x : T) (ns : List (Node L T)) :
    madeOf x (ns.map .ok) = .ok (.mk ns ⟨none, x⟩) := by
  rcases madeOf_cases x (ns.map .ok) with ⟨ns', h1, h2⟩ | ⟨⟨fs, h1⟩, _⟩
  · have : ns = ns' := List.map_injective_iff.2 (fun a b h => by simpa using h) h1
    rw [h2, this]
  · simp at h1

theorem madeOf_fix (x : T) {l : List (Part L T)} (h : ∃ fs, ProductionParsedSymbol.fix fs ∈ l) :
    madeOf x l = .fix (.mk (l.map toFixedPart)) := by unfold madeOf; exact if_pos h

theorem tryParseProductionsLoop_alts (P : ParserOf eps init ps p) {rec : Rec σ L T}
    (hrec : RecChoice eps ps p tokens rec) (fuel : Nat) (x : T) (pos : Nat) (sg : Bool)
    (outs : List (List T)) (failed : List (FailedProduction L T)) (s : σ)
    (hf : tryParseProductionsLoop p tokens rec fuel x pos sg outs failed s ≠ .fuel) :
    ∃ r, TryOut (tryParseProductionsLoop p tokens rec fuel x pos sg outs failed s) pos failed r ∧
      Alts eps ps p.getTokenProductions p.syntaxErrorSolver tokens x pos sg outs s r ∧
      (∀ n q rest s', r = .found (.node n q rest) s' → n.token.tType = x) ∧
      ∀ fps s', r = .failed fps s' → fps.length = outs.length := by
  induction outs generalizing failed s with
  | nil =>
    refine ⟨.failed [] s, ?_, .none _ _ _ _, by simp, by simp⟩
    simp [TryOut, tryParseProductionsLoop]
  | cons out outs ih =>
    rw [tryParseProductionsLoop] at hf ⊢
    rw [M.bind_apply] at hf ⊢
    have hne : productionLoop p tokens rec x out sg fuel [] pos s ≠ .fuel := by
      intro h; rw [h] at hf; exact hf rfl
    obtain ⟨r0, r, h1, h2, h3⟩ := productionLoop_cont P hrec x out sg fuel .nil (ys := out) rfl pos s hne
    have h4 : r0 = r := by cases h3; rfl
    subst h4
    match r0, h1, h2 with
    | .panicked, ⟨m, h1⟩, h2 =>
      simp only [h1]
      exact ⟨.panicked, ⟨m, rfl⟩, .panicked _ _ _ _ _ _ h2, by simp, by simp⟩
    | .failed (f, l) s1, ⟨q, h1⟩, h2 =>
      simp only [h1] at hf ⊢
      obtain ⟨r, i1, i2, i3, i4⟩ := ih _ _ hf
      refine ⟨_, ?_, .next _ _ _ _ _ _ _ _ _ _ h2 i2, ?_, ?_⟩
      · match r, i1 with
        | .found (.node n q rest) s', i1 => exact i1
        | .found (.fixed fs q) s', i1 => exact i1
        | .failed fps s', i1 =>
          simp only [TryOut, consFailed] at i1 ⊢
          rw [i1]
          simp
        | .panicked, i1 => exact i1
      · match r, i3 with
        | .found (.node n q rest) s', i3 => exact i3
        | .found (.fixed fs q) s', i3 => exact i3
        | .failed fps s', i3 => simp [consFailed]
        | .panicked, i3 => simp [consFailed]
      · match r, i4 with
        | .found (.node n q rest) s', i4 => simp [consFailed]
        | .found (.fixed fs q) s', i4 => simp [consFailed]
        | .failed fps s', i4 =>
          simp only [consFailed, Outcome.failed.injEq, List.length_cons]
          rintro _ _ ⟨rfl, rfl⟩
          simp [i4 fps s' rfl]
        | .panicked, i4 => simp [consFailed]
    | .found (l, q) s1, h1, h2 =>
      simp only [ProdOut] at h1
      rcases madeOf_cases x l with ⟨ns, rfl, hm⟩ | ⟨hfx, hm⟩
      · rw [hm] at h1
        simp only [h1, M.pure_apply]
        refine ⟨_, ?_, .node _ _ _ _ _ _ _ _ _ h2, ?_, by simp⟩
        · rfl
        · intro n q rest s' e
          simp only [Outcome.found.injEq, Derived.node.injEq] at e
          rw [← e.1.1]
          rfl
      · rw [hm] at h1
        simp only [h1, M.pure_apply]
        exact ⟨.found (.fixed _ q) s1, rfl, .fixed _ _ _ _ _ _ _ _ _ h2 hfx, by simp, by simp⟩

theorem tryFix_eq (pos : Nat) (sg : Bool) (outs : List (List T)) (fps : List (FailedProduction L T))
    (hl : fps.length = outs.length) (s : σ) :
    tryFixProductions p tokens pos sg (isChildSinglePath sg outs) fps s =
      answer p.syntaxErrorSolver tokens pos sg fps s := by
  unfold tryFixProductions answer isChildSinglePath
  rw [← hl]
  cases p.syntaxErrorSolver with
  | none => rfl
  | some sv =>
    cases sg with
    | false => rfl
    | true =>
      match fps with
      | [] => rfl
      | [fp] => rfl
      | a :: b :: l => rfl

theorem innerParse_choice (P : ParserOf eps init ps p) (n : Nat) :
    RecChoice eps ps p tokens (innerParse p tokens n) := by
  induction n with
  | zero => intro x pos outs sg s h; simp [innerParse] at h
  | succ n ih =>
    intro x pos outs sg s hf
    rw [innerParse] at hf ⊢
    rw [M.bind_apply] at hf ⊢
    have hne : tryParseProductionsLoop p tokens (innerParse p tokens n) n x pos
        (isChildSinglePath sg outs) outs [] s ≠ .fuel := by
      intro h; rw [h] at hf; exact hf rfl
    obtain ⟨r, h1, h2, h3, h4⟩ := tryParseProductionsLoop_alts P ih n x pos _ outs [] s hne
    match r, h1, h2, h3, h4 with
    | .panicked, ⟨m, h1⟩, h2, _, _ =>
      simp only [h1]
      exact ⟨.panicked, ⟨m, rfl⟩, .panicked _ _ _ _ _ h2, by simp⟩
    | .found (.node nd q rest) s', h1, h2, h3, _ =>
      simp only [TryOut] at h1
      simp only [h1, M.pure_apply]
      refine ⟨_, ?_, .derived _ _ _ _ _ _ _ h2, ?_⟩
      · rfl
      · intro n q rest s'' e
        simp only [Outcome.found.injEq, Derived.node.injEq] at e
        obtain ⟨⟨rfl, rfl, rfl⟩, rfl⟩ := e
        exact h3 _ _ _ _ rfl
    | .found (.fixed fs q) s', h1, h2, h3, _ =>
      simp only [TryOut] at h1
      simp only [h1, M.pure_apply]
      exact ⟨.found (.fixed fs q) s', rfl, .derived _ _ _ _ _ _ _ h2, by simp⟩
    | .failed fps s', h1, h2, h3, h4 =>
      simp only [TryOut, List.nil_append] at h1
      simp only [h1] at hf ⊢
      rw [M.bind_apply] at hf ⊢
      rw [tryFix_eq pos sg outs fps (h4 _ _ rfl)] at hf ⊢
      cases ha : answer p.syntaxErrorSolver tokens pos sg fps s' with
      | fuel => rw [ha] at hf; exact absurd rfl hf
      | panic e =>
        exact ⟨.panicked, ⟨e, rfl⟩, .solverPanics _ _ _ _ _ _ _ _ h2 ha, by simp⟩
      | ok a =>
        obtain ⟨o, s2⟩ := a
        cases o with
        | none => exact ⟨.failed _ s2, rfl, .failed _ _ _ _ _ _ _ _ h2 ha, by simp⟩
        | some r => exact ⟨.found (.fixed _ _) s2, rfl, .fixed _ _ _ _ _ _ _ _ _ h2 ha, by simp⟩

/-! ## From the specification to the code -/

/-- The loop over the production `out` of `x`, from the stack `st` and position `q` on, gives `r`. -/
def LoopIs (p : Parser σ L T) (tokens : List (Token L T)) (sg : Bool) (x : T) (out : List T)
    (st : List (PState L T)) (q : Nat) (s : σ) (r : SeqOutcome σ L T) : Prop :=
  ∃ N, ∀ n m, N ≤ n → N ≤ m →
    ProdOut (productionLoop p tokens (innerParse p tokens m) x out sg n st q s) x out r

/-- The same after the symbol behind the stack failed with `f`, with `l` to be reported. -/
def FailIs (p : Parser σ L T) (tokens : List (Token L T)) (sg : Bool) (x : T) (out : List T)
    (st : List (PState L T)) (f : FailedSymbol L T) (l : List (Part L T)) (s : σ)
    (r : SeqOutcome σ L T) : Prop :=
  ∃ N, ∀ n m, N ≤ n → N ≤ m → ∀ q acc, stParts acc = l →
    ProdOut (popThen p tokens (innerParse p tokens m) x out sg n q f st acc s) x out r

/-- If the search for what stands behind the stack gives `r0`, then the loop gives `r`. -/
def Fin (p : Parser σ L T) (tokens : List (Token L T)) (sg : Bool) (x : T) (out : List T)
    (st : List (PState L T)) (r0 r : SeqOutcome σ L T) : Prop :=
  match r0 with
  | .found (l, q) s => r = .found (stParts st ++ l, q) s
  | .failed (f, l) s => FailIs p tokens sg x out st f l s r
  | .panicked => r = .panicked

theorem failIs_nil {sg : Bool} {x : T} {out : List T} {f : FailedSymbol L T} {l : List (Part L T)}
    {s : σ} : FailIs p tokens sg x out [] f l s (.failed (f, l) s) := by
  refine ⟨0, fun n m _ _ q acc hacc => ⟨q, ?_⟩⟩
  unfold popThen
  rw [popStates, M.bind_apply]
  simp only [M.pure_apply, buildFailedSymbol]
  rw [List.map_reverse, show (acc.map stateToParsedSymbol).reverse = l from hacc]

/-- A terminal or a fixed symbol on the stack. -/
theorem fin_cons {sg : Bool} {x : T} {out : List T} {st : List (PState L T)} {a : PState L T}
    (ha : ∀ s0, a = .parsing s0 → s0.prodIterOption = none) {r0 r : SeqOutcome σ L T}
    (h : Fin p tokens sg x out st (r0.cons (stateToParsedSymbol a)) r) :
    Fin p tokens sg x out (a :: st) r0 r := by
  match r0, h with
  | .found (l, q) s, h => simpa [Fin, stParts, SeqOutcome.cons] using h
  | .panicked, h => exact h
  | .failed (f, l) s, h =>
    obtain ⟨N, hN⟩ := h
    refine ⟨N, fun n m hn hm q acc hacc => ?_⟩
    have := hN n m hn hm q (acc ++ [a]) (by simp [stParts, ← hacc])
    unfold popThen at this ⊢
    cases a with
    | fixed s0 => rw [popStates]; exact this
    | parsing s0 =>
      rw [popStates]
      simp only [ha s0 rfl]
      exact this

/-- One round of the loop. -/
theorem productionLoop_symbol {rec : Rec σ L T} {x y : T} {out xs ys : List T} {sg : Bool} {n : Nat}
    {st : List (PState L T)} (hst : Stk ps xs st) (hout : out = xs.reverse ++ y :: ys) (q : Nat)
    (s s1 : σ) :
    (∀ s', parseProductionSymbol p tokens rec y q sg s = .ok (.ok s', s1) →
      productionLoop p tokens rec x out sg (n + 1) st q s =
        productionLoop p tokens rec x out sg n (.parsing s' :: st) s'.finalTokenPosition s1) ∧
    (∀ s', parseProductionSymbol p tokens rec y q sg s = .ok (.fix s', s1) →
      productionLoop p tokens rec x out sg (n + 1) st q s =
        productionLoop p tokens rec x out sg n (.fixed s' :: st) s'.finalTokenPosition s1) ∧
    (∀ f, parseProductionSymbol p tokens rec y q sg s = .ok (.err f, s1) →
      productionLoop p tokens rec x out sg (n + 1) st q s =
        popThen p tokens rec x out sg n q f st [] s1) ∧
    (∀ e, parseProductionSymbol p tokens rec y q sg s = .panic e →
      productionLoop p tokens rec x out sg (n + 1) st q s = .panic e) := by
  have hlen := hst.length
  have hlt : st.length < out.length := by rw [hout]; simp; omega
  have hget : out[st.length]? = some y := by
    rw [hout, List.getElem?_append_right (by simp; omega)]
    simp [hlen]
  refine ⟨?_, ?_, ?_, ?_⟩ <;> intro z hz <;> rw [productionLoop, if_pos hlt] <;> simp only [hget] <;>
    (rw [M.bind_apply, hz]; try rfl)

/-- The meaning of `Choice` for the code. -/
def ChoiceIs (p : Parser σ L T) (tokens : List (Token L T)) (x : T) (pos : Nat)
    (outs : List (List T)) (sg : Bool) (s : σ)
    (r : Outcome σ (Derived L T) (FailedSymbol L T)) : Prop :=
  ∃ N, ∀ n, N ≤ n → SymOut (innerParse p tokens n x pos outs sg s) pos r

/-- The meaning of `Alts` for the code. -/
def AltsIs (p : Parser σ L T) (tokens : List (Token L T)) (x : T) (pos : Nat) (sg : Bool)
    (outs : List (List T)) (s : σ)
    (r : Outcome σ (Derived L T) (List (FailedProduction L T))) : Prop :=
  ∃ N, ∀ n m, N ≤ n → N ≤ m → ∀ failed,
    TryOut (tryParseProductionsLoop p tokens (innerParse p tokens m) n x pos sg outs failed s) pos
      failed r

theorem loopIs_terminal (P : ParserOf eps init ps p) {sg : Bool} {x y : T} {out xs ys : List T}
    {st : List (PState L T)} (hst : Stk ps xs st) (hout : out = xs.reverse ++ y :: ys) {q : Nat}
    (hy : ¬ IsNonTerminal ps y) {s' : ParsingState L T}
    (he : p.parseTerminalSymbol y tokens q = .ok s') (hs : s'.prodIterOption = none) {s : σ}
    {r0 r : SeqOutcome σ L T}
    (ih : ∀ x xs st out, out = xs.reverse ++ ys → Stk ps xs st →
      ∀ r, Fin p tokens sg x out st r0 r → LoopIs p tokens sg x out st s'.finalTokenPosition s r)
    (hr : Fin p tokens sg x out st (r0.cons (.ok s'.node)) r) :
    LoopIs p tokens sg x out st q s r := by
  have hfin : Fin p tokens sg x out (.parsing s' :: st) r0 r :=
    fin_cons (a := .parsing s') (by rintro s0 ⟨⟩; exact hs) hr
  obtain ⟨N, hN⟩ := ih x (y :: xs) (.parsing s' :: st) out (by simp [hout]) (.terminal hs hst) r hfin
  refine ⟨N + 1, fun n m hn hm => ?_⟩
  obtain ⟨n, rfl⟩ : ∃ k, n = k + 1 := ⟨n - 1, by omega⟩
  have hy' : p.grammar.isNonTerminal y = false := by
    rw [← Bool.not_eq_true]
    exact fun h => hy ((isNT_iff P y).1 h)
  rw [(productionLoop_symbol hst hout q s s).1 s' (by simp [parseProductionSymbol, hy', he])]
  exact hN n m (by omega) (by omega)

/-- What the loop does with a non-terminal. -/
theorem loopIs_nonTerminal (P : ParserOf eps init ps p) {sg : Bool} {x y : T} {out xs ys : List T}
    {st : List (PState L T)} (hst : Stk ps xs st) (hout : out = xs.reverse ++ y :: ys) {q : Nat}
    (hy : IsNonTerminal ps y) {t : Token L T} (ht : tokens[q]? = some t) {s : σ}
    {d : Outcome σ (Derived L T) (FailedSymbol L T)} {r : SeqOutcome σ L T}
    (h : ChoiceIs p tokens y q (p.getTokenProductions y t.tType) sg s d)
    (hd : match d with
      | .found (.node n q' rest) s1 =>
        LoopIs p tokens sg x out (.parsing ⟨q, q', some rest, n⟩ :: st) q' s1 r
      | .found (.fixed fs q') s1 => LoopIs p tokens sg x out (.fixed ⟨q', fs⟩ :: st) q' s1 r
      | .failed f s1 => FailIs p tokens sg x out st f [] s1 r
      | .panicked => r = .panicked) : LoopIs p tokens sg x out st q s r := by
  obtain ⟨N1, h1⟩ := h
  have hy' := (isNT_iff P y).2 hy
  have key : ∀ n m s1, _ := fun n m s1 => productionLoop_symbol (p := p) (tokens := tokens)
    (rec := innerParse p tokens m) (x := x) (sg := sg) (n := n) hst hout q s s1
  simp only [parseProductionSymbol, if_pos hy', parseProductionNonTerminal, ht] at key
  match d, h1, hd with
  | .found (.node nd q' rest) s1, h1, ⟨N2, h2⟩ =>
    refine ⟨max N1 N2 + 1, fun n m hn hm => ?_⟩
    obtain ⟨n, rfl⟩ : ∃ k, n = k + 1 := ⟨n - 1, by omega⟩
    rw [(key n m s1).1 _ (h1 m (by omega))]
    exact h2 n m (by omega) (by omega)
  | .found (.fixed fs q') s1, h1, ⟨N2, h2⟩ =>
    refine ⟨max N1 N2 + 1, fun n m hn hm => ?_⟩
    obtain ⟨n, rfl⟩ : ∃ k, n = k + 1 := ⟨n - 1, by omega⟩
    rw [(key n m s1).2.1 _ (h1 m (by omega))]
    exact h2 n m (by omega) (by omega)
  | .failed f s1, h1, ⟨N2, h2⟩ =>
    refine ⟨max N1 N2 + 1, fun n m hn hm => ?_⟩
    obtain ⟨n, rfl⟩ : ∃ k, n = k + 1 := ⟨n - 1, by omega⟩
    rw [(key n m s1).2.2.1 _ (h1 m (by omega))]
    exact h2 n m (by omega) (by omega) q [] rfl
  | .panicked, h1, hd =>
    subst hd
    refine ⟨N1 + 1, fun n m hn hm => ?_⟩
    obtain ⟨n, rfl⟩ : ∃ k, n = k + 1 := ⟨n - 1, by omega⟩
    obtain ⟨e, he⟩ := h1 m (by omega)
    exact ⟨e, (key n m s).2.2.2 _ he⟩

/-- What the loop does with a non-terminal on the stack after a failure behind it. -/
theorem failIs_nonTerminal {sg : Bool} {x y : T} {out : List T} {st : List (PState L T)}
    {pos q0 : Nat} {nd : Node L T} (hl : nd.token.tType = y) {it : List (List T)}
    {f : FailedSymbol L T} {l : List (Part L T)} {s : σ}
    {d : Outcome σ (Derived L T) (FailedSymbol L T)} {r : SeqOutcome σ L T}
    (h : ChoiceIs p tokens y pos it sg s d)
    (hd : match d with
      | .found (.node n q' rest) s1 =>
        LoopIs p tokens sg x out (.parsing ⟨pos, q', some rest, n⟩ :: st) q' s1 r
      | .found (.fixed _ _) s1 => FailIs p tokens sg x out st f l s1 r
      | .failed _ s1 => FailIs p tokens sg x out st f l s1 r
      | .panicked => r = .panicked) :
    FailIs p tokens sg x out (.parsing ⟨pos, q0, some it, nd⟩ :: st) f l s r := by
  obtain ⟨N1, h1⟩ := h
  subst hl
  match d, h1, hd with
  | .found (.node nd' q' rest) s1, h1, ⟨N2, h2⟩ =>
    refine ⟨max N1 N2, fun n m hn hm q acc hacc => ?_⟩
    have e : innerParse p tokens m nd.token.tType pos it sg s = _ := h1 m (by omega)
    unfold popThen
    rw [popStates]
    dsimp only
    rw [M.bind_apply, M.bind_apply, e]
    exact h2 n m (by omega) (by omega)
  | .found (.fixed fs q') s1, h1, ⟨N2, h2⟩ =>
    refine ⟨max N1 N2, fun n m hn hm q acc hacc => ?_⟩
    have e : innerParse p tokens m nd.token.tType pos it sg s = _ := h1 m (by omega)
    have := h2 n m (by omega) (by omega) q acc hacc
    unfold popThen at this ⊢
    rw [popStates]
    dsimp only
    rw [M.bind_apply, M.bind_apply, e]
    rw [M.bind_apply] at this
    exact this
  | .failed f' s1, h1, ⟨N2, h2⟩ =>
    refine ⟨max N1 N2, fun n m hn hm q acc hacc => ?_⟩
    have e : innerParse p tokens m nd.token.tType pos it sg s = _ := h1 m (by omega)
    have := h2 n m (by omega) (by omega) q acc hacc
    unfold popThen at this ⊢
    rw [popStates]
    dsimp only
    rw [M.bind_apply, M.bind_apply, e]
    rw [M.bind_apply] at this
    exact this
  | .panicked, h1, hd =>
    subst hd
    refine ⟨N1, fun n m hn hm q acc hacc => ?_⟩
    obtain ⟨e, he⟩ := h1 m (by omega)
    refine ⟨e, ?_⟩
    unfold popThen
    rw [popStates]
    dsimp only
    rw [M.bind_apply, M.bind_apply, he]

theorem choiceIs_of_choice (P : ParserOf eps init ps p) {x : T} {pos : Nat} {outs : List (List T)}
    {sg : Bool} {s : σ} {r : Outcome σ (Derived L T) (FailedSymbol L T)}
    (h : Choice eps ps p.getTokenProductions p.syntaxErrorSolver tokens x pos outs sg s r) :
    ChoiceIs p tokens x pos outs sg s r := by
  -- from the candidates to the non-terminal
  have hch : ∀ {x : T} {pos : Nat} {outs : List (List T)} {sg : Bool} {s : σ}
      {r : Outcome σ (Derived L T) (List (FailedProduction L T))}
      {r' : Outcome σ (Derived L T) (FailedSymbol L T)},
      AltsIs p tokens x pos (sg && decide (outs.length = 1)) outs s r →
      (∀ fps s', r = .failed fps s' → fps.length = outs.length) →
      (match r with
        | .found d s' => r' = .found d s'
        | .failed fps s' =>
          (∃ fr s2, answer p.syntaxErrorSolver tokens pos sg fps s' = .ok (some fr, s2) ∧
            r' = .found (.fixed (.mk fr.production x) fr.finalTokenPosition) s2) ∨
          (∃ s2, answer p.syntaxErrorSolver tokens pos sg fps s' = .ok (none, s2) ∧
            r' = .failed (.mk fps x) s2) ∨
          (∃ e, answer p.syntaxErrorSolver tokens pos sg fps s' = .panic e ∧ r' = .panicked)
        | .panicked => r' = .panicked) → ChoiceIs p tokens x pos outs sg s r' := by
    intro x pos outs sg s r r' ⟨N, hN⟩ hlen h
    refine ⟨N + 1, fun n hn => ?_⟩
    obtain ⟨n, rfl⟩ : ∃ k, n = k + 1 := ⟨n - 1, by omega⟩
    have h1 := hN n n (by omega) (by omega) []
    rw [innerParse, M.bind_apply]
    unfold isChildSinglePath
    match r, h1, hlen, h with
    | .panicked, ⟨m, h1⟩, _, h => subst h; simp only [h1]; exact ⟨m, rfl⟩
    | .found (.node nd q rest) s', h1, _, h =>
      subst h; simp only [TryOut] at h1; simp only [h1, SymOut, M.pure_apply]
    | .found (.fixed fs q) s', h1, _, h =>
      subst h; simp only [TryOut] at h1; simp only [h1, SymOut, M.pure_apply]
    | .failed fps s', h1, hlen, h =>
      simp only [TryOut, List.nil_append] at h1
      simp only [h1]
      rw [M.bind_apply]
      have := tryFix_eq (p := p) (tokens := tokens) pos sg outs fps (hlen _ _ rfl) s'
      unfold isChildSinglePath at this
      rw [this]
      rcases h with ⟨fr, s2, ha, rfl⟩ | ⟨s2, ha, rfl⟩ | ⟨e, ha, rfl⟩
      · rw [ha]; rfl
      · rw [ha]; rfl
      · rw [ha]; exact ⟨e, rfl⟩
  refine (Choice.rec (eps := eps) (ps := ps) (cand := p.getTokenProductions)
    (solver := p.syntaxErrorSolver) (tokens := tokens)
    (motive_1 := fun x pos outs sg s r _ => ChoiceIs p tokens x pos outs sg s r ∧
      ∀ n q rest s', r = .found (.node n q rest) s' → n.token.tType = x)
    (motive_2 := fun x pos sg outs s r _ => AltsIs p tokens x pos sg outs s r ∧
      (∀ n q rest s', r = .found (.node n q rest) s' → n.token.tType = x) ∧
      ∀ fps s', r = .failed fps s' → fps.length = outs.length)
    (motive_3 := fun sg ys q s r0 _ => ∀ x xs st out, out = xs.reverse ++ ys → Stk ps xs st →
      ∀ r, Fin p tokens sg x out st r0 r → LoopIs p tokens sg x out st q s r)
    (motive_4 := fun sg y ys pos nd rest r0 r1 _ => nd.token.tType = y →
      ∀ x xs st out q0, out = xs.reverse ++ y :: ys → Stk ps xs st →
      ∀ r, Fin p tokens sg x out st r1 r →
        Fin p tokens sg x out (.parsing ⟨pos, q0, some rest, nd⟩ :: st) r0 r)
    ?_ ?_ ?_ ?_ ?_ ?_ ?_ ?_ ?_ ?_ ?_ ?_ ?_ ?_ ?_ ?_ ?_ ?_ ?_ ?_ ?_ ?_ ?_ ?_ ?_ h).1
  -- Choice
  · intro x pos outs sg s s' d _ ih
    refine ⟨hch ih.1 ih.2.2 rfl, ?_⟩
    intro n q rest s'' e
    simp only [Outcome.found.injEq] at e
    obtain ⟨rfl, rfl⟩ := e
    exact ih.2.1 _ _ _ _ rfl
  · intro x pos outs sg s _ ih
    exact ⟨hch ih.1 ih.2.2 rfl, by simp⟩
  · intro x pos outs sg s s1 s2 fps fr _ ha ih
    exact ⟨hch ih.1 ih.2.2 (.inl ⟨fr, s2, ha, rfl⟩), by simp⟩
  · intro x pos outs sg s s1 s2 fps _ ha ih
    exact ⟨hch ih.1 ih.2.2 (.inr (.inl ⟨s2, ha, rfl⟩)), by simp⟩
  · intro x pos outs sg s s1 fps e _ ha ih
    exact ⟨hch ih.1 ih.2.2 (.inr (.inr ⟨e, ha, rfl⟩)), by simp⟩
  -- Alts
  · intro x pos sg s
    refine ⟨⟨0, fun n m _ _ failed => ?_⟩, by simp, by simp⟩
    simp [tryParseProductionsLoop, TryOut]
  · intro x pos sg out outs s s' ns q _ ih
    refine ⟨?_, ?_, by simp⟩
    · obtain ⟨N, hN⟩ := ih x [] [] out rfl .nil (.found (ns.map .ok, q) s') rfl
      refine ⟨N, fun n m hn hm failed => ?_⟩
      have := hN n m hn hm
      simp only [ProdOut, madeOf_map_ok] at this
      rw [tryParseProductionsLoop, M.bind_apply, this]
      rfl
    · intro n q rest s' e
      simp only [Outcome.found.injEq, Derived.node.injEq] at e
      rw [← e.1.1]
      rfl
  · intro x pos sg out outs s s' l q _ hfx ih
    refine ⟨?_, by simp, by simp⟩
    obtain ⟨N, hN⟩ := ih x [] [] out rfl .nil (.found (l, q) s') rfl
    refine ⟨N, fun n m hn hm failed => ?_⟩
    have := hN n m hn hm
    simp only [ProdOut, madeOf_fix x hfx] at this
    rw [tryParseProductionsLoop, M.bind_apply, this]
    rfl
  · intro x pos sg out outs s s' f l r _ _ ih1 ih2
    refine ⟨?_, ?_, ?_⟩
    · obtain ⟨N, hN⟩ := ih1 x [] [] out rfl .nil (.failed (f, l) s') failIs_nil
      obtain ⟨N2, hN2⟩ := ih2.1
      refine ⟨max N N2, fun n m hn hm failed => ?_⟩
      obtain ⟨q, this⟩ := hN n m (by omega) (by omega)
      rw [tryParseProductionsLoop, M.bind_apply, this]
      have h2 := hN2 n m (by omega) (by omega) (failed ++ [.mk f l (out.drop (l.length + 1))])
      match r, h2 with
      | .found (.node n q rest) s', h2 => exact h2
      | .found (.fixed fs q) s', h2 => exact h2
      | .failed fps s', h2 =>
        simp only [TryOut, consFailed] at h2 ⊢
        rw [h2]
        simp
      | .panicked, h2 => exact h2
    · have i3 := ih2.2.1
      match r, i3 with
      | .found (.node n q rest) s', i3 => exact i3
      | .found (.fixed fs q) s', i3 => exact i3
      | .failed fps s', i3 => simp [consFailed]
      | .panicked, i3 => simp [consFailed]
    · have i4 := ih2.2.2
      match r, i4 with
      | .found (.node n q rest) s', i4 => simp [consFailed]
      | .found (.fixed fs q) s', i4 => simp [consFailed]
      | .failed fps s', i4 =>
        simp only [consFailed, Outcome.failed.injEq, List.length_cons]
        rintro _ _ ⟨rfl, rfl⟩
        simp [i4 fps s' rfl]
      | .panicked, i4 => simp [consFailed]
  · intro x pos sg out outs s _ ih
    refine ⟨?_, by simp, by simp⟩
    obtain ⟨N, hN⟩ := ih x [] [] out rfl .nil .panicked rfl
    refine ⟨N, fun n m hn hm failed => ?_⟩
    obtain ⟨e, he⟩ := hN n m hn hm
    rw [tryParseProductionsLoop, M.bind_apply, he]
    exact ⟨e, rfl⟩
  -- Seq
  · intro sg pos s x xs st out hout hst r hr
    simp only [Fin, List.append_nil] at hr
    subst hr
    refine ⟨1, fun n m hn hm => ?_⟩
    obtain ⟨n, rfl⟩ : ∃ k, n = k + 1 := ⟨n - 1, by omega⟩
    have hlen := hst.length
    rw [productionLoop, if_neg (by rw [hout]; simp; omega), M.bind_apply]
    simp only [lift, buildNode_eq, M.pure_apply]
    rfl
  · intro sg ys pos s r0 _ ih x xs st out hout hst r hr
    have hy : ¬ IsNonTerminal ps eps := fun ⟨q, hq, e⟩ => (P.grammar.wf q hq).1 e
    exact loopIs_terminal P hst hout hy (s' := ⟨pos, pos, none, .mk [] ⟨none, eps⟩⟩)
      (by simp [parseTerminalSymbol, P.grammar.eps_eq]) rfl ih hr
  · intro sg ys pos s t r0 hy he ht _ ih x xs st out hout hst r hr
    refine loopIs_terminal P hst hout hy (s' := ⟨pos, pos + 1, none, .mk [] t⟩) ?_ rfl ih hr
    simp only [parseTerminalSymbol, P.grammar.eps_eq, if_neg (Ne.symm he),
      parseNonEpsilonTerminalSymbol, ht]
    rfl
  · intro sg y ys pos s hy he hne x xs st out hout hst r hr
    obtain ⟨N, hN⟩ := hr
    refine ⟨N + 1, fun n m hn hm => ?_⟩
    obtain ⟨n, rfl⟩ : ∃ k, n = k + 1 := ⟨n - 1, by omega⟩
    have hy' : p.grammar.isNonTerminal y = false := by
      rw [← Bool.not_eq_true]
      exact fun h => hy ((isNT_iff P y).1 h)
    have herr : p.parseTerminalSymbol y tokens pos = .err (.mk [] y) := by
      simp only [parseTerminalSymbol, P.grammar.eps_eq, if_neg (Ne.symm he),
        parseNonEpsilonTerminalSymbol]
      cases ht : tokens[pos]? with
      | none => rfl
      | some t => simp only [if_neg (Ne.symm (hne t ht))]; rfl
    rw [(productionLoop_symbol hst hout pos s s).2.2.1 _
      (by rw [parseProductionSymbol, hy', herr]; rfl)]
    exact hN n m (by omega) (by omega) _ _ rfl
  · intro sg y ys pos s hy ht x xs st out hout hst r hr
    simp only [Fin] at hr
    subst hr
    refine ⟨1, fun n m hn hm => ?_⟩
    obtain ⟨n, rfl⟩ : ∃ k, n = k + 1 := ⟨n - 1, by omega⟩
    refine ⟨.unwrapNone, (productionLoop_symbol hst hout pos s s).2.2.2 _ ?_⟩
    simp [parseProductionSymbol, (isNT_iff P y).2 hy, parseProductionNonTerminal, ht]
  · intro sg y ys pos s s1 t nd q rest r0 r1 hy ht _ _ _ ih1 ih2 ih3 x xs st out hout hst r hr
    have hl := ih1.2 _ _ _ _ rfl
    refine loopIs_nonTerminal P hst hout hy ht ih1.1 ?_
    exact ih2 x (y :: xs) _ out (by simp [hout]) (.nonTerminal rest rfl hl hst) r
      (ih3 hl x xs st out q hout hst r hr)
  · intro sg y ys pos s s1 t fs q r0 hy ht _ _ ih1 ih2 x xs st out hout hst r hr
    refine loopIs_nonTerminal P hst hout hy ht ih1.1 ?_
    exact ih2 x (y :: xs) _ out (by simp [hout]) (.fixed hst) r
      (fin_cons (a := .fixed ⟨q, fs⟩) (by simp) hr)
  · intro sg y ys pos s s1 t f hy ht _ ih1 x xs st out hout hst r hr
    exact loopIs_nonTerminal P hst hout hy ht ih1.1 hr
  · intro sg y ys pos s t hy ht _ ih1 x xs st out hout hst r hr
    exact loopIs_nonTerminal P hst hout hy ht ih1.1 hr
  -- Resume
  · intro sg y ys pos nd rest l q s hl x xs st out q0 hout hst r hr
    simpa [Fin, stParts, stateToParsedSymbol] using hr
  · intro sg y ys pos nd rest hl x xs st out q0 hout hst r hr
    exact hr
  · intro sg y ys pos nd nd' rest rest' f s s1 q r0 r1 _ _ _ ih1 ih2 ih3 hl x xs st out q0 hout hst r hr
    have hl' := ih1.2 _ _ _ _ rfl
    refine failIs_nonTerminal hl ih1.1 ?_
    exact ih2 x (y :: xs) _ out (by simp [hout]) (.nonTerminal rest' rfl hl' hst) r
      (ih3 hl' x xs st out q hout hst r hr)
  · intro sg y ys pos nd rest f s s1 f' _ ih1 hl x xs st out q0 hout hst r hr
    exact failIs_nonTerminal hl ih1.1 hr
  · intro sg y ys pos nd rest f s s1 fs q _ ih1 hl x xs st out q0 hout hst r hr
    exact failIs_nonTerminal hl ih1.1 hr
  · intro sg y ys pos nd rest f s _ ih1 hl x xs st out q0 hout hst r hr
    exact failIs_nonTerminal hl ih1.1 hr

/-! ## The whole parse -/

/-- The outcome of `parse_from_tokens` for an outcome of the search. -/
def ParseOut (e : Out (ParseResult L T × σ)) (r : Outcome σ (Derived L T) (FailedSymbol L T)) : Prop :=
  match result r with
  | some a => e = .ok a
  | none => ∃ m, e = .panic m

theorem parseOut_of_symOut {e : Out (ParseSymbolResult L T × σ)} {pos : Nat}
    {r : Outcome σ (Derived L T) (FailedSymbol L T)} (h : SymOut e pos r) :
    ParseOut (match e with
      | .ok (r, s') => .ok (toParseResult r, s')
      | .panic e => .panic e
      | .fuel => .fuel) r := by
  match r, h with
  | .found (.node n q rest) s, h => simp only [SymOut] at h; subst h; rfl
  | .found (.fixed fs q) s, h => simp only [SymOut] at h; subst h; rfl
  | .failed f s, h => simp only [SymOut] at h; subst h; rfl
  | .panicked, ⟨m, h⟩ => subst h; exact ⟨m, rfl⟩

/-- Every outcome of the parser is one of the search. -/
theorem choice_of_parse (P : ParserOf eps init ps p) (t : Token L T) (ts : List (Token L T)) (n : Nat)
    (s : σ) (hf : p.parseFromTokens n (t :: ts) s ≠ .fuel) :
    ∃ r, ParseOut (p.parseFromTokens n (t :: ts) s) r ∧
      Choice eps ps p.getTokenProductions p.syntaxErrorSolver (t :: ts) init 0
        (p.getTokenProductions init t.tType) true s r := by
  rw [parseFromTokens_eq P] at hf ⊢
  have hne : innerParse p (t :: ts) n init 0 (p.getTokenProductions init t.tType) true s ≠ .fuel := by
    intro h; rw [h] at hf; exact hf rfl
  obtain ⟨r, h1, h2, _⟩ := innerParse_choice P n _ _ _ _ _ hne
  exact ⟨r, parseOut_of_symOut h1, h2⟩

/-- Every outcome of the search is one of the parser. -/
theorem parse_of_choice (P : ParserOf eps init ps p) {t : Token L T} {ts : List (Token L T)} {s : σ}
    {r : Outcome σ (Derived L T) (FailedSymbol L T)}
    (h : Choice eps ps p.getTokenProductions p.syntaxErrorSolver (t :: ts) init 0
      (p.getTokenProductions init t.tType) true s r) :
    ∃ N, ∀ n, N ≤ n → ParseOut (p.parseFromTokens n (t :: ts) s) r := by
  obtain ⟨N, hN⟩ := choiceIs_of_choice P h
  refine ⟨N, fun n hn => ?_⟩
  rw [parseFromTokens_eq P]
  exact parseOut_of_symOut (hN n hn)

/-- The search has at most one outcome. -/
theorem choice_det (P : ParserOf eps init ps p) {x : T} {pos : Nat} {outs : List (List T)} {sg : Bool}
    {s : σ} {r r' : Outcome σ (Derived L T) (FailedSymbol L T)}
    (h : Choice eps ps p.getTokenProductions p.syntaxErrorSolver tokens x pos outs sg s r)
    (h' : Choice eps ps p.getTokenProductions p.syntaxErrorSolver tokens x pos outs sg s r') :
    r = r' := by
  obtain ⟨N, hN⟩ := choiceIs_of_choice P h
  obtain ⟨N', hN'⟩ := choiceIs_of_choice P h'
  have h1 := hN (max N N') (by omega)
  have h2 := hN' (max N N') (by omega)
  generalize innerParse p tokens (max N N') x pos outs sg s = e at h1 h2
  match r, r', h1, h2 with
  | .found (.node _ _ _) _, .found (.node _ _ _) _, h1, h2 => simp_all [SymOut]
  | .found (.node _ _ _) _, .found (.fixed _ _) _, h1, h2 => simp_all [SymOut]
  | .found (.node _ _ _) _, .failed _ _, h1, h2 => simp_all [SymOut]
  | .found (.node _ _ _) _, .panicked, h1, h2 => simp_all [SymOut]
  | .found (.fixed _ _) _, .found (.node _ _ _) _, h1, h2 => simp_all [SymOut]
  | .found (.fixed _ _) _, .found (.fixed _ _) _, h1, h2 => simp_all [SymOut]
  | .found (.fixed _ _) _, .failed _ _, h1, h2 => simp_all [SymOut]
  | .found (.fixed _ _) _, .panicked, h1, h2 => simp_all [SymOut]
  | .failed _ _, .found (.node _ _ _) _, h1, h2 => simp_all [SymOut]
  | .failed _ _, .found (.fixed _ _) _, h1, h2 => simp_all [SymOut]
  | .failed _ _, .failed _ _, h1, h2 => simp_all [SymOut]
  | .failed _ _, .panicked, h1, h2 => simp_all [SymOut]
  | .panicked, .found (.node _ _ _) _, h1, h2 => simp_all [SymOut]
  | .panicked, .found (.fixed _ _) _, h1, h2 => simp_all [SymOut]
  | .panicked, .failed _ _, h1, h2 => simp_all [SymOut]
  | .panicked, .panicked, _, _ => rfl

/-- Outcomes of the parser and outcomes of the search correspond. -/
theorem parse_iff_choice (P : ParserOf eps init ps p) (t : Token L T) (ts : List (Token L T)) (s : σ) :
    (∀ r s', Parses p (t :: ts) s r s' ↔ ∃ o,
      Choice eps ps p.getTokenProductions p.syntaxErrorSolver (t :: ts) init 0
        (p.getTokenProductions init t.tType) true s o ∧ result o = some (r, s')) ∧
    (ParsePanics p (t :: ts) s ↔
      Choice eps ps p.getTokenProductions p.syntaxErrorSolver (t :: ts) init 0
        (p.getTokenProductions init t.tType) true s .panicked) ∧
    (ParseDiverges p (t :: ts) s ↔ ¬ ∃ o,
      Choice eps ps p.getTokenProductions p.syntaxErrorSolver (t :: ts) init 0
        (p.getTokenProductions init t.tType) true s o) := by
  have hres : ∀ o : Outcome σ (Derived L T) (FailedSymbol L T), result o = none → o = .panicked := by
    intro o ho
    match o, ho with
    | .found (.node _ _ _) _, ho => simp [result] at ho
    | .found (.fixed _ _) _, ho => simp [result] at ho
    | .failed _ _, ho => simp [result] at ho
    | .panicked, _ => rfl
  refine ⟨fun r s' => ⟨fun h => ?_, ?_⟩, ⟨?_, fun h => ?_⟩, ⟨fun h => ?_, fun h => ?_⟩⟩
  · obtain ⟨n, e⟩ := parses_at h
    obtain ⟨o, h1, h2⟩ := choice_of_parse P t ts n s (by rw [e]; simp)
    refine ⟨o, h2, ?_⟩
    rw [e] at h1
    unfold ParseOut at h1
    cases ho : result o with
    | some a => simp only [ho, Out.ok.injEq] at h1; rw [h1]
    | none => simp [ho] at h1
  · rintro ⟨o, h, ho⟩
    obtain ⟨N, hN⟩ := parse_of_choice P h
    refine ⟨N, fun n hn => ?_⟩
    have := hN n hn
    simpa only [ParseOut, ho] using this
  · rintro ⟨N, e, h⟩
    have e : p.parseFromTokens N (t :: ts) s = .panic e := h N (Nat.le_refl _)
    obtain ⟨o, h1, h2⟩ := choice_of_parse P t ts N s (by rw [e]; simp)
    rw [e] at h1
    unfold ParseOut at h1
    cases ho : result o with
    | some a => simp [ho] at h1
    | none => rwa [hres o ho] at h2
  · obtain ⟨N, hN⟩ := parse_of_choice P h
    obtain ⟨m, hm⟩ := hN N (Nat.le_refl _)
    exact parse_panics hm
  · rintro ⟨o, h'⟩
    obtain ⟨N, hN⟩ := parse_of_choice P h'
    have := hN N (Nat.le_refl _)
    rw [show p.parseFromTokens N (t :: ts) s = .fuel from h N] at this
    unfold ParseOut at this
    cases ho : result o <;> simp [ho] at this
  · intro n
    by_contra hne
    obtain ⟨o, _, h2⟩ := choice_of_parse P t ts n s hne
    exact h ⟨o, h2⟩

end Verif.Parser.Recovery
