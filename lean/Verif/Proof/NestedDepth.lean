import Verif.Proof.Nested
import Verif.Proof.Depth

/-! # A search that ends needs few nested calls -/

set_option linter.unusedSectionVars false

namespace Verif.Parser

open Spec

variable {σ L T : Type} [DecidableEq T] {eps init : T} {ps : List (Production T)}
  {p : Parser σ L T} {tokens : List (Token L T)}

/-- Chains of searches from `xs` at `pos` on have fewer than `d` steps. -/
def Fits (eps : T) (ps : List (Production T)) (cand : T → T → List (List T)) (tokens : List (Token L T)) :
    Nat → List T → Nat → Prop
  | 0, _, _ => False
  | d + 1, xs, pos => ∀ o q, Tries eps ps cand tokens xs pos o q → Fits eps ps cand tokens d o q

/-- The candidates of a non-terminal that are tried fit. -/
def FitsChoice (eps : T) (ps : List (Production T)) (cand : T → T → List (List T))
    (tokens : List (Token L T)) (d : Nat) (pos : Nat) (outs : List (List T)) : Prop :=
  ∀ u o v, outs = u ++ o :: v → (∀ o' ∈ u, Seq eps ps cand tokens o' pos .failed) →
    Fits eps ps cand tokens d o pos

/-- The candidates of a non-terminal that are tried, and what follows, fit. -/
def FitsRetry (eps : T) (ps : List (Production T)) (cand : T → T → List (List T))
    (tokens : List (Token L T)) (d : Nat) (xs : List T) (pos : Nat) (outs : List (List T)) : Prop :=
  ∀ u o v, outs = u ++ o :: v → (∀ o' ∈ u, PassedOver eps ps cand tokens xs pos o') →
    Fits eps ps cand tokens d o pos ∧
    ∀ ns k, Seq eps ps cand tokens o pos (.found (ns, k)) → Fits eps ps cand tokens (d + 1) xs k

theorem FitsRetry.choice {cand : T → T → List (List T)} {d : Nat} {xs : List T} {pos : Nat}
    {outs : List (List T)} (h : FitsRetry eps ps cand tokens d xs pos outs) :
    FitsChoice eps ps cand tokens d pos outs :=
  fun u o v e hu => (h u o v e (fun o' ho' => .inl (hu o' ho'))).1

theorem FitsRetry.found {cand : T → T → List (List T)} {d : Nat} {x : T} {xs : List T} {pos : Nat}
    {outs rest : List (List T)} {n : Node L T} {q : Nat}
    (h : FitsRetry eps ps cand tokens d xs pos outs)
    (hc : Choice eps ps cand tokens x pos outs (.found (n, q, rest))) :
    Fits eps ps cand tokens (d + 1) xs q ∧
    (Seq eps ps cand tokens xs q .failed → FitsRetry eps ps cand tokens d xs pos rest) := by
  obtain ⟨u1, o1, ns1, e1, h1, h2, _⟩ := choiceC_of_choice hc
  refine ⟨(h u1 o1 rest e1 (fun o' ho' => .inl (h1 o' ho'))).2 ns1 q h2, fun hf u o v e hu => ?_⟩
  refine h (u1 ++ o1 :: u) o v (by rw [e1, e]; simp) ?_
  intro o' ho'
  rcases List.mem_append.1 ho' with ho' | ho'
  · exact .inl (h1 o' ho')
  · rcases List.mem_cons.1 ho' with rfl | ho'
    · exact .inr ⟨ns1, q, h2, hf⟩
    · exact hu o' ho'

/-- The meaning of `Choice` for the code with a bounded call stack. -/
def ChoiceIsWithin (p : Parser σ L T) (tokens : List (Token L T)) (d : Nat) (x : T) (pos : Nat)
    (outs : List (List T)) (r : Search (Node L T × Nat × List (List T))) : Prop :=
  ∃ N, ∀ n m, N ≤ n → N ≤ m → ∀ sg failed s,
    TryOut (tryParseProductionsLoop p tokens (innerParseWithin p tokens m d) n x pos sg outs failed s) s
      pos r

theorem innerParseWithin_of_choiceIs (hp : p.syntaxErrorSolver = none) {d : Nat} {x : T} {pos : Nat}
    {outs : List (List T)} {r : Search (Node L T × Nat × List (List T))}
    (h : ChoiceIsWithin p tokens d x pos outs r) :
    ∃ N, ∀ n, N ≤ n → ∀ sg s, SymOut (innerParseWithin p tokens n (d + 1) x pos outs sg s) s pos r := by
  obtain ⟨N, hN⟩ := h
  refine ⟨N, fun n hn sg s => ?_⟩
  have h1 := hN n n (by omega) (by omega) (isChildSinglePath sg outs) [] s
  rw [innerParseWithin, M.bind_apply]
  match r, h1 with
  | .ranOut, h1 => simp only [TryOut] at h1; simp only [h1, SymOut]
  | .found (nd, q, rest), h1 => simp only [TryOut] at h1; simp only [h1, SymOut, M.pure_apply]
  | .failed, h1 =>
    obtain ⟨f, h1⟩ := h1
    simp only [h1, SymOut, tryFixProductions, hp]
    exact ⟨_, rfl⟩

/-- The recursive call with a bounded call stack. -/
abbrev RW (p : Parser σ L T) (tokens : List (Token L T)) (d : Nat) : Nat → Rec σ L T :=
  fun m => innerParseWithin p tokens m d

theorem choiceIsWithin_of_choice (P : ParserOf eps init ps p) (hp : p.syntaxErrorSolver = none) {x : T}
    {pos : Nat} {outs : List (List T)} {r : Search (Node L T × Nat × List (List T))}
    (h : Choice eps ps p.getTokenProductions tokens x pos outs r) (d : Nat)
    (hd : FitsChoice eps ps p.getTokenProductions tokens d pos outs) :
    ChoiceIsWithin p tokens d x pos outs r := by
  refine (Choice.rec (eps := eps) (ps := ps) (cand := p.getTokenProductions) (tokens := tokens)
    (motive_1 := fun x pos outs r _ => (∀ d, FitsChoice eps ps p.getTokenProductions tokens d pos outs →
      ChoiceIsWithin p tokens d x pos outs r) ∧
      ∀ n q rest, r = .found (n, q, rest) → n.token.tType = x)
    (motive_2 := fun ys q r0 _ => ∀ d, Fits eps ps p.getTokenProductions tokens d ys q →
      ∀ x xs st out, out = xs.reverse ++ ys → Stk ps xs st →
      ∀ r, Fin p tokens (RW p tokens d) x out st r0 r → LoopIs p tokens (RW p tokens d) x out st q r)
    (motive_3 := fun y ys pos outs r0 _ => IsNonTerminal ps y → ∀ d,
      FitsRetry eps ps p.getTokenProductions tokens d ys pos outs → ∀ x xs st out,
      out = xs.reverse ++ y :: ys → Stk ps xs st →
      ∀ r, Fin p tokens (RW p tokens (d + 1)) x out st r0 r →
        TryIs p tokens (RW p tokens (d + 1)) x out st y pos outs r)
    ?_ ?_ ?_ ?_ ?_ ?_ ?_ ?_ ?_ ?_ ?_ ?_ ?_ ?_ ?_ h).1 d hd
  -- Choice
  · intro x pos
    exact ⟨fun d _ => ⟨0, fun n m _ _ sg failed s => ⟨_, rfl⟩⟩, by simp⟩
  · intro x pos out outs ns q _ ih
    refine ⟨fun d hd => ?_, ?_⟩
    · obtain ⟨N, hN⟩ := ih d (hd [] _ _ rfl (by simp)) x [] [] out rfl .nil (.found (ns, q)) rfl
      refine ⟨N, fun n m hn hm sg failed s => ?_⟩
      have := hN n m hn hm sg s
      simp only [ProdOut] at this
      rw [tryParseProductionsLoop, M.bind_apply, this]
      rfl
    · intro n q rest e
      simp only [Search.found.injEq, Prod.mk.injEq] at e
      rw [← e.1]
      rfl
  · intro x pos out outs r h1 _ ih1 ih2
    refine ⟨fun d hd => ?_, ih2.2⟩
    obtain ⟨N, hN⟩ := ih1 d (hd [] _ _ rfl (by simp)) x [] [] out rfl .nil .failed failIs_nil
    obtain ⟨N2, hN2⟩ := ih2.1 d (fun u o v e hu => hd (out :: u) o v (by simp [e]) (by
      intro o' ho'
      rcases List.mem_cons.1 ho' with rfl | ho'
      · exact h1
      · exact hu o' ho'))
    refine ⟨max N N2, fun n m hn hm sg failed s => ?_⟩
    obtain ⟨f, q, this⟩ := hN n m (by omega) (by omega) sg s
    rw [tryParseProductionsLoop, M.bind_apply, this]
    exact hN2 n m (by omega) (by omega) sg _ s
  · intro x pos out outs _ ih
    refine ⟨fun d hd => ?_, by simp⟩
    obtain ⟨N, hN⟩ := ih d (hd [] _ _ rfl (by simp)) x [] [] out rfl .nil .ranOut rfl
    refine ⟨N, fun n m hn hm sg failed s => ?_⟩
    have := hN n m hn hm sg s
    simp only [ProdOut] at this
    rw [tryParseProductionsLoop, M.bind_apply, this]
    rfl
  -- Seq
  · intro pos d hd x xs st out hout hst r hr
    simp only [Fin, List.append_nil] at hr
    subst hr
    refine ⟨1, fun n m hn hm sg s => ?_⟩
    obtain ⟨n, rfl⟩ : ∃ k, n = k + 1 := ⟨n - 1, by omega⟩
    have hlen := hst.length
    rw [productionLoop, if_neg (by rw [hout]; simp; omega), M.bind_apply]
    simp only [lift, hst.buildNode, M.pure_apply]
    rfl
  · intro ys pos r0 _ ih d hd x xs st out hout hst r hr
    have hy : ¬ IsNonTerminal ps eps := fun ⟨q, hq, e⟩ => (P.grammar.wf q hq).1 e
    refine loopIs_terminal P hst hout hy (s' := ⟨pos, pos, none, .mk [] ⟨none, eps⟩⟩)
      (by simp [parseTerminalSymbol, P.grammar.eps_eq]) rfl (ih d ?_) hr
    cases d with
    | zero => exact hd
    | succ d => exact fun o q h => hd o q (.eps _ _ _ _ h)
  · intro ys pos t r0 hy he ht _ ih d hd x xs st out hout hst r hr
    refine loopIs_terminal P hst hout hy (s' := ⟨pos, pos + 1, none, .mk [] t⟩) ?_ rfl (ih d ?_) hr
    · simp only [parseTerminalSymbol, P.grammar.eps_eq, if_neg (Ne.symm he),
        parseNonEpsilonTerminalSymbol, ht]
      rfl
    · cases d with
      | zero => exact hd
      | succ d => exact fun o q h => hd o q (.terminal _ _ _ _ _ hy he ht h)
  · intro y ys pos hy he hne d hd x xs st out hout hst r hr
    obtain ⟨N, hN⟩ := hr
    refine ⟨N + 1, fun n m hn hm sg s => ?_⟩
    obtain ⟨n, rfl⟩ : ∃ k, n = k + 1 := ⟨n - 1, by omega⟩
    have hy' : p.grammar.isNonTerminal y = false := by
      rw [← Bool.not_eq_true]
      exact fun h => hy ((isNT_iff P y).1 h)
    have herr : p.parseTerminalSymbol y tokens pos = .err (.mk [] y) := by
      simp only [parseTerminalSymbol, P.grammar.eps_eq, if_neg (Ne.symm he),
        parseNonEpsilonTerminalSymbol]
      cases ht : tokens[pos]? with
      | none => rfl
      | some t => simp only [if_neg (Ne.symm (hne t ht))]; rfl
    rw [(productionLoop_symbol hst hout pos s).2.1 _
      (by rw [parseProductionSymbol, hy', herr]; rfl)]
    exact hN n m (by omega) (by omega) sg s _ _ _
  · intro y ys pos t r0 hy ht _ ih d hd x xs st out hout hst r hr
    cases d with
    | zero => exact hd.elim
    | succ d =>
      refine loopIs_of_tryIs P hst hout hy ht (ih hy d ?_ x xs st out hout hst r hr)
      intro u o v e hu
      refine ⟨hd o pos (.candidate _ _ _ t u o v hy ht e hu), fun ns k h o' q' h' => ?_⟩
      exact hd o' q' (.behind _ _ _ t u o v ns k _ _ hy ht e hu h h')
  · intro y ys pos hy ht d hd x xs st out hout hst r hr
    simp only [Fin] at hr
    subst hr
    refine ⟨1, fun n m hn hm sg s => ?_⟩
    obtain ⟨n, rfl⟩ : ∃ k, n = k + 1 := ⟨n - 1, by omega⟩
    refine (productionLoop_symbol hst hout pos s).2.2 _ ?_
    simp [parseProductionSymbol, (isNT_iff P y).2 hy, parseProductionNonTerminal, ht]
  -- Retry
  · intro y ys pos outs _ ih hy d hd x xs st out hout hst r hr
    obtain ⟨N1, h1⟩ := innerParseWithin_of_choiceIs hp (ih.1 d hd.choice)
    obtain ⟨N2, h2⟩ := hr
    refine ⟨max N1 N2, fun n m hn hm sg s => ?_⟩
    obtain ⟨f, h3⟩ := h1 m (by omega) sg s
    exact .inr (.inl ⟨f, h3, fun q f acc => h2 n m (by omega) (by omega) sg s q f acc⟩)
  · intro y ys pos outs _ ih hy d hd x xs st out hout hst r hr
    obtain ⟨N1, h1⟩ := innerParseWithin_of_choiceIs hp (ih.1 d hd.choice)
    refine ⟨N1, fun n m hn hm sg s => ?_⟩
    exact .inr (.inr ⟨h1 m hm sg s, hr⟩)
  · intro y ys pos outs rest nd q q' ns hc _ ih1 ih2 hy d hd x xs st out hout hst r hr
    obtain ⟨N1, h1⟩ := innerParseWithin_of_choiceIs hp (ih1.1 d hd.choice)
    obtain ⟨N2, h2⟩ := ih2 (d + 1) (hd.found hc).1 x (y :: xs) (.parsing ⟨pos, q, some rest, nd⟩ :: st) out
      (by simp [hout]) (.nonTerminal rest hy rfl (ih1.2 _ _ _ rfl) hst) r (by simpa [Fin, stNodes] using hr)
    refine ⟨max N1 N2, fun n m hn hm sg s => ?_⟩
    exact .inl ⟨_, h1 m (by omega) sg s, h2 n m (by omega) (by omega) sg s⟩
  · intro y ys pos outs rest nd q r0 hc hq _ ih1 ih2 ih3 hy d hd x xs st out hout hst r hr
    obtain ⟨N1, h1⟩ := innerParseWithin_of_choiceIs hp (ih1.1 d hd.choice)
    have hl : nd.token.tType = y := ih1.2 _ _ _ rfl
    obtain ⟨N2, h2⟩ := ih2 (d + 1) (hd.found hc).1 x (y :: xs) (.parsing ⟨pos, q, some rest, nd⟩ :: st) out
      (by simp [hout]) (.nonTerminal rest hy rfl hl hst) r
      (failIs_of_tryIs rfl (by rw [hl]; exact ih3 hy d ((hd.found hc).2 hq) x xs st out hout hst r hr))
    refine ⟨max N1 N2, fun n m hn hm sg s => ?_⟩
    exact .inl ⟨_, h1 m (by omega) sg s, h2 n m (by omega) (by omega) sg s⟩
  · intro y ys pos outs rest nd q hc _ ih1 ih2 hy d hd x xs st out hout hst r hr
    obtain ⟨N1, h1⟩ := innerParseWithin_of_choiceIs hp (ih1.1 d hd.choice)
    obtain ⟨N2, h2⟩ := ih2 (d + 1) (hd.found hc).1 x (y :: xs) (.parsing ⟨pos, q, some rest, nd⟩ :: st) out
      (by simp [hout]) (.nonTerminal rest hy rfl (ih1.2 _ _ _ rfl) hst) r hr
    refine ⟨max N1 N2, fun n m hn hm sg s => ?_⟩
    exact .inl ⟨_, h1 m (by omega) sg s, h2 n m (by omega) (by omega) sg s⟩

/-- A chain of `d` searches that is not cut off visits `d` different ones. -/
theorem chain_of_not_fits {cand : T → T → List (List T)}
    (hcand : ∀ x a o, o ∈ cand x a → (⟨x, o⟩ : Production T) ∈ ps) (d : Nat) (xs : List T) (pos : Nat)
    (hacc : Acc (Below eps ps cand tokens) (xs, pos)) (h : ¬ Fits eps ps cand tokens d xs pos) :
    ∃ l : List (List T × Nat), l.length = d ∧ l.Nodup ∧ ∀ c ∈ l,
      Relation.TransGen (Below eps ps cand tokens) c (xs, pos) ∧
      c ∈ ps.map (·.output) ×ˢ List.range tokens.length := by
  induction d generalizing xs pos with
  | zero => exact ⟨[], rfl, List.nodup_nil, by simp⟩
  | succ d ih =>
    simp only [Fits, not_forall] at h
    obtain ⟨o, q, h1, h2⟩ := h
    have hb : Below eps ps cand tokens (o, q) (xs, pos) := h1
    have hacc' := hacc.inv hb
    obtain ⟨l, e, hnd, hl⟩ := ih o q hacc' h2
    refine ⟨(o, q) :: l, by simp [e], List.nodup_cons.2 ⟨fun hm => ?_, hnd⟩, ?_⟩
    · have irr : ∀ a, Acc (Relation.TransGen (Below eps ps cand tokens)) a →
          ¬ Relation.TransGen (Below eps ps cand tokens) a a := by
        intro a ha
        induction ha with
        | intro a _ ih => exact fun h => ih a h h
      exact irr _ hacc'.transGen (hl _ hm).1
    · intro c hc
      rcases List.mem_cons.1 hc with rfl | hc
      · obtain ⟨m1, m2⟩ := h1.mem hcand
        exact ⟨.single hb, List.mem_product.2 ⟨m1, List.mem_range.2 m2⟩⟩
      · exact ⟨(hl c hc).1.tail hb, (hl c hc).2⟩

theorem fits_of_acc {cand : T → T → List (List T)}
    (hcand : ∀ x a o, o ∈ cand x a → (⟨x, o⟩ : Production T) ∈ ps) {d : Nat} {xs : List T} {pos : Nat}
    (hacc : Acc (Below eps ps cand tokens) (xs, pos)) (hd : ps.length * tokens.length < d) :
    Fits eps ps cand tokens d xs pos := by
  by_contra h
  obtain ⟨l, e, hnd, hl⟩ := chain_of_not_fits hcand d xs pos hacc h
  have := (hnd.subperm fun c hc => (hl c hc).2).length_le
  rw [List.length_product, List.length_map, List.length_range] at this
  omega

/-- The search for the initial symbol, as a choice and as a sequence. -/
theorem choice_iff_seq {cand : T → T → List (List T)} {x : T} (hx : IsNonTerminal ps x)
    (he : ¬ IsNonTerminal ps eps) {pos : Nat} {t : Token L T} (ht : tokens[pos]? = some t) :
    (∃ r, Choice eps ps cand tokens x pos (cand x t.tType) r) ↔ ∃ r, Seq eps ps cand tokens [x] pos r := by
  constructor
  · rintro ⟨r, h⟩
    match r, h with
    | .failed, h => exact ⟨_, .nonTerminal _ _ _ _ _ hx ht (.failed _ _ _ _ h)⟩
    | .ranOut, h => exact ⟨_, .nonTerminal _ _ _ _ _ hx ht (.ranOut _ _ _ _ h)⟩
    | .found (n, q, rest), h =>
      exact ⟨_, .nonTerminal _ _ _ _ _ hx ht (.found _ _ _ _ _ _ _ _ _ h (.nil _))⟩
  · rintro ⟨r, h⟩
    cases h with
    | eps => exact absurd hx he
    | terminal _ _ _ _ h1 => exact absurd hx h1
    | mismatch _ _ _ h1 => exact absurd hx h1
    | nonTerminal _ _ _ t' _ _ ht' h =>
      rw [ht] at ht'
      simp only [Option.some.injEq] at ht'
      subst ht'
      cases h with
      | failed _ _ _ _ h => exact ⟨_, h⟩
      | ranOut _ _ _ _ h => exact ⟨_, h⟩
      | found _ _ _ _ _ _ _ _ _ h => exact ⟨_, h⟩
      | again _ _ _ _ _ _ _ _ h => exact ⟨_, h⟩
      | ranOutAfter _ _ _ _ _ _ _ h => exact ⟨_, h⟩
    | ranOut _ _ _ _ h => rw [ht] at h; simp at h

theorem not_leadsTo_of_not_nonTerminal {cand : T → T → List (List T)} {x : T} (hx : ¬ IsNonTerminal ps x)
    {pos : Nat} {o : List T} {q : Nat} : ¬ LeadsTo eps ps cand tokens [x] pos o q := by
  have key : ∀ o q, ¬ Tries eps ps cand tokens [x] pos o q := by
    intro o q h
    cases h with
    | eps _ _ _ _ h => cases h
    | terminal _ _ _ _ _ _ _ _ h => cases h
    | candidate _ _ _ _ _ _ _ h => exact hx h
    | behind _ _ _ _ _ _ _ _ _ _ _ h => exact hx h
  intro h
  generalize hl : [x] = l at h
  induction h with
  | tries _ _ h => subst hl; exact key _ _ h
  | step _ _ _ _ _ _ ih => exact ih

theorem eps_not_nonTerminal (P : ParserOf eps init ps p) : ¬ IsNonTerminal ps eps :=
  fun ⟨q, hq, e⟩ => (P.grammar.wf q hq).1 e

/-- The parser does not return exactly if its search leads to a search that leads to itself. -/
theorem diverges_iff (P : ParserOf eps init ps p) (hp : p.syntaxErrorSolver = none)
    (tokens : List (Token L T)) (s : σ) :
    ParseDiverges p tokens s ↔ ∃ o q, LeadsTo eps ps p.getTokenProductions tokens [init] 0 o q ∧
      LeadsTo eps ps p.getTokenProductions tokens o q o q := by
  have he := eps_not_nonTerminal P
  cases tokens with
  | nil =>
    constructor
    · intro h
      have := h 0
      simp [parseFromTokens, M.panic] at this
    · intro h
      obtain ⟨o, q, h, _⟩ := h
      exfalso
      generalize hl : [init] = l at h
      induction h with
      | tries xs pos h => have := (h.mem P.cand).2; simp at this
      | step xs pos _ _ _ h ih => have := (h.mem P.cand).2; simp at this
  | cons t ts =>
    rw [(parse_iff_choice P hp t ts s).2.2.2]
    by_cases hi : IsNonTerminal ps init
    · rw [choice_iff_seq (tokens := t :: ts) hi he (pos := 0) rfl]
      exact no_seq_iff P.cand he
    · constructor
      · intro h
        exfalso
        apply h
        have hnil : p.getTokenProductions init t.tType = [] := by
          rw [List.eq_nil_iff_forall_not_mem]
          intro o ho
          exact hi ⟨_, P.cand _ _ _ ho, rfl⟩
        rw [hnil]
        exact ⟨_, .none _ _⟩
      · rintro ⟨o, q, h, _⟩
        exact absurd h (not_leadsTo_of_not_nonTerminal hi)

/-- If the search has an outcome, the parser with a bounded call stack has it. -/
theorem parseWithin_of_choice (P : ParserOf eps init ps p) (hp : p.syntaxErrorSolver = none)
    {t : Token L T} {ts : List (Token L T)} {r : Search (Node L T × Nat × List (List T))}
    (h : Choice eps ps p.getTokenProductions (t :: ts) init 0 (p.getTokenProductions init t.tType) r)
    {depth : Nat} (hd : ps.length * (t :: ts).length + 1 ≤ depth) (s : σ) :
    ∃ N, ∀ n, N ≤ n → p.parseFromTokensWithin depth n (t :: ts) s ≠ .fuel := by
  have he := eps_not_nonTerminal P
  obtain ⟨d, rfl⟩ : ∃ d, depth = d + 1 := ⟨depth - 1, by omega⟩
  have hfit : FitsChoice eps ps p.getTokenProductions (t :: ts) d 0 (p.getTokenProductions init t.tType) := by
    intro u o v e hu
    have hi : IsNonTerminal ps init := ⟨⟨init, o⟩, P.cand init t.tType o (by rw [e]; simp), rfl⟩
    have hacc := (seq_iff_acc he).1 ((choice_iff_seq (tokens := t :: ts) hi he (pos := 0) rfl).1 ⟨r, h⟩)
    have := fits_of_acc P.cand (d := d + 1) hacc (by omega)
    exact this o 0 (.candidate _ _ _ t u o v hi rfl e (fun o' ho' => .inl (hu o' ho')))
  obtain ⟨N, hN⟩ := innerParseWithin_of_choiceIs hp (choiceIsWithin_of_choice P hp h d hfit)
  refine ⟨N, fun n hn => ?_⟩
  have h1 := hN n hn true s
  unfold parseFromTokensWithin
  rw [if_neg (by simp)]
  simp only [List.getElem?_cons_zero]
  rw [P.grammar.init_eq]
  refine M.bind_ne_fuel ?_ (fun _ _ _ => by simp)
  match r, h1 with
  | .found (nd, q, rest), h1 => simp only [SymOut] at h1; simp [h1]
  | .failed, ⟨f, h1⟩ => simp [h1]
  | .ranOut, h1 => simp only [SymOut] at h1; simp [h1]

end Verif.Parser
