import Verif.Proof.Pump
import Verif.Props.Nested
import Verif.Props.Unambiguous
import Verif.Spec.EndMarker

/-!
# Property C84: left recursion is never harmless
-/

set_option linter.unusedSectionVars false

namespace Verif.Props

open Verif.Spec Verif.Examples

variable {σ L T : Type} [DecidableEq T]

/-- A parser for the grammar without a solver: with computed sets or with sets of the user. -/
def PlainParser (h : HashOrder T) (g : Grammar T) (p : Parser σ L T) : Prop :=
  Built h g none p ∨ ∃ ff, Parser.fromGrammarAndFirstFollowSymbols h g ff = .ok p

theorem PlainParser.parserOf {h : HashOrder T} {eps init : T} {ps : List (Production T)} {g : Grammar T}
    (hg : Grammar.new h eps init ps = .ok g) {p : Parser σ L T} (hp : PlainParser h g p) :
    Parser.ParserOf eps init ps p ∧ p.syntaxErrorSolver = none := by
  rcases hp with hp | ⟨ff, hp⟩
  · obtain ⟨P, hs⟩ := Parser.tableParser_of_built hg hp
    exact ⟨P.toParserOf, hs⟩
  · exact ⟨Parser.parserOf_of_from hg hp, (Parser.from_eq_ok hp).2.1⟩

theorem seq_of_ok {eps init : T} {ps : List (Production T)} {p : Parser σ L T}
    (P : Parser.ParserOf eps init ps p) (hs : p.syntaxErrorSolver = none) {tokens : List (Token L T)}
    {s s' : σ} {tree : Tree L T} (hr : Parses p tokens s (.ok tree) s') :
    ∃ k, Seq eps ps p.getTokenProductions tokens [init] 0 (.found ([tree.root], k)) := by
  obtain ⟨_, _, hnt, _⟩ := ok_tree P hr
  cases tokens with
  | nil =>
    obtain ⟨n, hn⟩ := Parser.parses_at hr
    simp [Parser.parseFromTokens, M.panic] at hn
  | cons t ts =>
    obtain ⟨_, q, rest, hc⟩ := ((Parser.parse_iff_choice P hs t ts s).1 tree s').1 hr
    exact ⟨q, .nonTerminal _ _ _ t _ hnt rfl (.found _ _ _ _ rest _ q q [] hc (.nil q))⟩

/-- **C84**, the trees. Without a solver, for every grammar, left-recursive or not: in a tree returned with
`Ok` no node occurs below a node that begins at the same token and has children of the same types. -/
theorem C84_no_repeat (h : HashOrder T) (eps init : T) (ps : List (Production T)) (g : Grammar T)
    (hg : Grammar.new h eps init ps = .ok g) (p : Parser σ L T) (hp : PlainParser h g p)
    (tokens : List (Token L T)) (s s' : σ) (tree : Tree L T) (hr : Parses p tokens s (.ok tree) s')
    (n m : Node L T) (i : Nat) (hn : Occurs eps [tree.root] 0 n i) (hm : Occurs eps n.childNodes i m i)
    (hc : m.childNodes ≠ []) : childTypes n ≠ childTypes m := by
  obtain ⟨P, hs⟩ := hp.parserOf hg
  obtain ⟨k, hk⟩ := seq_of_ok P hs hr
  exact no_repeat P.grammar.wf P.cand hk hn hm hc

/-- **C84**, height. Without a solver, for every grammar, left-recursive or not: a tree returned with `Ok`
over `k` of the tokens has height at most `productions * min (k + 1) tokens`. -/
theorem C84_tree_height (h : HashOrder T) (eps init : T) (ps : List (Production T)) (g : Grammar T)
    (hg : Grammar.new h eps init ps = .ok g) (p : Parser σ L T) (hp : PlainParser h g p)
    (tokens : List (Token L T)) (s s' : σ) (tree : Tree L T) (hr : Parses p tokens s (.ok tree) s') :
    height tree.root ≤ ps.length * min ((leaves eps tree.root).length + 1) tokens.length := by
  obtain ⟨P, hs⟩ := hp.parserOf hg
  obtain ⟨k, hk⟩ := seq_of_ok P hs hr
  have hw := P.grammar.wf
  let V : Finset (List T × Nat) := (ps.map (·.output)).toFinset ×ˢ
    Finset.range (min ((leaves eps tree.root).length + 1) tokens.length)
  have hV : V.card ≤ ps.length * min ((leaves eps tree.root).length + 1) tokens.length := by
    rw [Finset.card_product, Finset.card_range]
    refine Nat.mul_le_mul_right _ ?_
    have := List.toFinset_card_le (ps.map (·.output))
    simpa using this
  have := height_le_of_no_repeat (eps := eps) (V := V) tree.root 0 ∅ (by
      intro m i hm hc
      have h1 := (leadsTo_of_occurs hw P.cand hm hk hc).1
      have h2 : childTypes m ∈ ps.map (·.output) ∧ i < tokens.length := by
        cases h1 with
        | tries _ _ h1 => exact h1.mem P.cand
        | step _ _ _ _ _ h1 => exact h1.mem P.cand
      have h3 := hm.le
      simp only [leavesList, List.append_nil] at h3
      refine Finset.mem_product.2 ⟨List.mem_toFinset.2 h2.1, Finset.mem_range.2 ?_⟩
      have h4 := h2.2
      simp only
      omega)
    (fun a b i ha hb hc => no_repeat hw P.cand hk ha hb hc) (by simp) (by simp)
  simp only [Finset.card_empty] at this
  omega

/-- **C84.** Let a grammar without useless symbols be left-recursive and unambiguous. Then there is a
sentence of the grammar for which no parser without a solver (whatever the hash order, with computed FIRST and
FOLLOW sets or sets of the user) returns a tree. -/
theorem C84_lost_sentence (L : Type) (eps init : T) (ps : List (Production T)) (h₀ : HashOrder T)
    (g₀ : Grammar T) (hg₀ : Grammar.new h₀ eps init ps = .ok g₀) (hinit : IsNonTerminal ps init)
    (hred : Reduced eps init ps) (hlr : ¬ NotLeftRecursive eps ps) (hun : Unambiguous L eps init ps) :
    ∃ tokens : List (Token L T), Sentence eps init ps (tokens.map (·.tType)) ∧
      ∀ (σ : Type) (h : HashOrder T) (g : Grammar T), Grammar.new h eps init ps = .ok g →
      ∀ p : Parser σ L T, PlainParser h g p → ∀ (s s' : σ) (tree : Tree L T),
      Parses p tokens s (.ok tree) s' → leaves eps tree.root ≠ tokens := by
  have hw := (Grammar.grammarOf_of_new hg₀).wf
  obtain ⟨w, root, n, m, j, h1, h2, h3, h4, h5⟩ := exists_repeat L hw hred hlr
  have hie : init ≠ eps := by
    rintro rfl
    obtain ⟨q, hq, e⟩ := hinit
    exact (hw q hq).1 e
  refine ⟨w, ⟨h1.derives hw hie, ?_⟩, ?_⟩
  · intro a ha
    obtain ⟨t, ht, rfl⟩ := List.mem_map.1 ha
    exact Parser.IsTree.terminals h1 (.inl hinit) t ht
  · intro σ h g hg p hp s s' tree hr hl
    obtain ⟨P, _⟩ := hp.parserOf hg
    obtain ⟨k, _, _, ht, _, hl'⟩ := ok_tree P hr
    rw [← hl', hl] at ht
    have := hun w _ _ ht h1
    rw [← this] at h2
    exact C84_no_repeat h eps init ps g hg p hp w s s' tree hr n m j h2 h3 h4 h5

/-- The end marker stands in a tree of an end-marked grammar only at the end. -/
theorem endsWith_of_tree {eps init e : T} {ps : List (Production T)} (hem : EndMarked eps init e ps)
    {w : List (Token L T)} {n : Node L T} (hinit : IsNonTerminal ps init) (hie : init ≠ eps)
    (h : IsTree eps ps init w n) : EndsWith e w := by
  have key : ∀ xs (w : List (Token L T)) ns, IsForest eps ps xs w ns → init ∉ xs → e ∉ xs →
      ∀ t ∈ w, t.tType ≠ e := by
    intro xs w ns hf
    refine IsForest.rec (eps := eps) (ps := ps)
      (motive_1 := fun x w _ _ => x ≠ init → x ≠ e → ∀ t ∈ w, t.tType ≠ e)
      (motive_2 := fun xs w _ _ => init ∉ xs → e ∉ xs → ∀ t ∈ w, t.tType ≠ e) ?_ ?_ ?_ ?_ ?_ hf
    · intro t _ _ _ hne t' ht'
      rw [List.mem_singleton] at ht'
      rw [ht']
      exact hne
    · simp
    · intro q w ns hq _ ih hqi _
      exact ih (hem.initial_once q hq) (hem.only_there q hq hqi)
    · simp
    · intro x xs w w' n ns _ _ ih1 ih2 h1 h2 t ht
      simp only [List.mem_cons, not_or] at h1 h2
      rcases List.mem_append.1 ht with ht | ht
      · exact ih1 (Ne.symm h1.1) (Ne.symm h2.1) t ht
      · exact ih2 h1.2 h2.2 t ht
  rw [isTree_iff] at h
  rcases h with ⟨hc, _⟩ | ⟨hc, _⟩ | ⟨q, hq, hqi, ns, hf, _⟩
  · exact absurd hinit hc
  · exact absurd hc hie
  · obtain ⟨u, hu, heu⟩ := hem.initial_ends q hq hqi
    have hiu : init ∉ u := fun hc => hem.initial_once q hq (by rw [hu]; simp [hc])
    rw [hu] at hf
    obtain ⟨w1, w2, n1, n2, rfl, rfl, h1, h2⟩ := forest_split' hf
    rw [isForest_cons] at h2
    obtain ⟨w3, w4, n3, n4, rfl, rfl, h3, h4⟩ := h2
    rw [isForest_nil] at h4
    obtain ⟨rfl, rfl⟩ := h4
    rw [isTree_iff] at h3
    rcases h3 with ⟨_, _, l, rfl, _⟩ | ⟨hc, _⟩ | ⟨q', hq', hqi', _⟩
    · exact ⟨w1, ⟨l, e⟩, by simp, rfl, key _ _ _ h1 hiu heu⟩
    · exact absurd hc hem.ne_eps
    · exact absurd ⟨q', hq', hqi'⟩ hem.terminal

/-- **C84**, end-marked. Let an end-marked grammar without useless symbols be left-recursive and unambiguous.
Then there is a sentence, its last token the only end marker, for which no parser without a solver returns
`Ok`: no parser of this kind decides the language of the grammar. -/
theorem C84_not_decided (L : Type) (eps init : T) (ps : List (Production T)) (h₀ : HashOrder T)
    (g₀ : Grammar T) (hg₀ : Grammar.new h₀ eps init ps = .ok g₀) (hinit : IsNonTerminal ps init)
    (hred : Reduced eps init ps) (hlr : ¬ NotLeftRecursive eps ps) (hun : Unambiguous L eps init ps)
    (e : T) (hem : EndMarked eps init e ps) :
    ∃ tokens : List (Token L T), Sentence eps init ps (tokens.map (·.tType)) ∧ EndsWith e tokens ∧
      ∀ (σ : Type) (h : HashOrder T) (g : Grammar T), Grammar.new h eps init ps = .ok g →
      ∀ p : Parser σ L T, PlainParser h g p → ∀ (s s' : σ) (tree : Tree L T),
      ¬ Parses p tokens s (.ok tree) s' := by
  obtain ⟨tokens, hsen, hno⟩ := C84_lost_sentence L eps init ps h₀ g₀ hg₀ hinit hred hlr hun
  have hw := (Grammar.grammarOf_of_new hg₀).wf
  have hie : init ≠ eps := by
    rintro rfl
    obtain ⟨q, hq, e⟩ := hinit
    exact (hw q hq).1 e
  obtain ⟨n, hn⟩ := Parser.tree_of_sentence hsen
  have hew := endsWith_of_tree hem hinit hie hn
  refine ⟨tokens, hsen, hew, ?_⟩
  intro σ h g hg p hp s s' tree hr
  obtain ⟨P, _⟩ := hp.parserOf hg
  obtain ⟨k, _, hnt, htree, _⟩ := ok_tree P hr
  obtain ⟨w', t, hw', ht⟩ := Parser.tree_ends hw hem hnt htree
  rw [Parser.take_of_ends hew hw' ht] at htree
  exact hno σ h g hg p hp s s' tree hr (isTree_leaves hw htree)

/-! ## The hypotheses can be met -/

theorem retriedPs_reduced : Reduced 0 1 retriedPs := by
  have d1 : Derives 0 retriedPs [1] [2, 13] := .of_production (p := ⟨1, [2, 13]⟩) (by decide)
  have d2 : Derives 0 retriedPs [2] [11] := .of_production (p := ⟨2, [11]⟩) (by decide)
  have e1 : Derives 0 retriedPs [1] [11, 13] := d1.trans (Derives.append (a := [2]) d2 (.refl [13]))
  have ht : ∀ a ∈ [11, 13], IsTerminal retriedPs a ∧ a ≠ 0 := by
    intro a ha
    have : (∃ p ∈ retriedPs, a ∈ p.output) ∧ (∀ p ∈ retriedPs, p.input ≠ a) ∧ a ≠ 0 := by
      revert a; decide
    exact ⟨⟨this.1, fun ⟨q, hq, hqa⟩ => this.2.1 q hq hqa⟩, this.2.2⟩
  rintro x ⟨q, hq, rfl⟩
  have hx : q.input ∈ [1, 2] := by revert q; decide
  simp only [List.mem_cons, List.not_mem_nil, or_false] at hx
  rcases hx with hx | hx <;> rw [hx]
  · exact ⟨⟨[], [], .refl _⟩, _, e1, ht⟩
  · exact ⟨⟨[], _, d1⟩, _, d2, fun a ha => ht a (by simp at ha; simp [ha])⟩

theorem retriedPs_leftRecursive : ¬ NotLeftRecursive 0 retriedPs :=
  fun h => h 2 [12] ⟨_, .mk [] [] ⟨2, [2, 12]⟩ (by decide), .refl _⟩

theorem retriedPs_endMarked : EndMarked 0 1 13 retriedPs := by
  refine ⟨by decide, ?_, by decide, ?_, by decide⟩
  · rintro ⟨q, hq, e⟩; revert q; decide
  · intro q hq e
    simp only [retriedPs, List.mem_cons, List.not_mem_nil, or_false] at hq
    rcases hq with rfl | rfl | rfl
    · exact ⟨[2], rfl, by decide⟩
    · simp at e
    · simp at e

theorem retriedPs_unambiguous : Unambiguous L 0 1 retriedPs := by
  have ht : ∀ x (w : List (Token L Nat)) n, x ∈ [11, 12, 13] → IsTree 0 retriedPs x w n →
      ∃ l, w = [⟨l, x⟩] ∧ n = .mk [] ⟨l, x⟩ := by
    intro x w n hx h
    rw [isTree_iff] at h
    rcases h with ⟨_, _, h⟩ | ⟨rfl, _⟩ | ⟨q, hq, rfl, hf⟩
    · exact h
    · simp at hx
    · exfalso; clear hf; revert hx; revert q; decide
  have two : ∀ y z (w : List (Token L Nat)) ns, z ∈ [11, 12, 13] → IsForest 0 retriedPs [y, z] w ns →
      ∃ w' m l, w = w' ++ [⟨l, z⟩] ∧ IsTree 0 retriedPs y w' m ∧ ns = [m, .mk [] ⟨l, z⟩] := by
    intro y z w ns hz hf
    rw [isForest_cons] at hf
    obtain ⟨w1, w2, n1, ns1, rfl, rfl, h1, h2⟩ := hf
    rw [isForest_cons] at h2
    obtain ⟨w3, w4, n3, ns3, rfl, rfl, h3, h4⟩ := h2
    rw [isForest_nil] at h4
    obtain ⟨rfl, rfl⟩ := h4
    obtain ⟨l, rfl, rfl⟩ := ht z _ _ hz h3
    exact ⟨w1, n1, l, by simp, h1, rfl⟩
  have x2 : ∀ (w : List (Token L Nat)) n, IsTree 0 retriedPs 2 w n →
      (∃ l, w = [⟨l, 11⟩] ∧ n = .mk [.mk [] ⟨l, 11⟩] ⟨none, 2⟩) ∨
      ∃ w' m l, w = w' ++ [⟨l, 12⟩] ∧ IsTree 0 retriedPs 2 w' m ∧ n = .mk [m, .mk [] ⟨l, 12⟩] ⟨none, 2⟩ := by
    intro w n h
    rw [isTree_iff] at h
    rcases h with ⟨hc, _⟩ | ⟨hc, _⟩ | ⟨q, hq, hqi, ns, hf, rfl⟩
    · exact absurd ⟨⟨2, [11]⟩, by decide, rfl⟩ hc
    · exact absurd hc (by decide)
    · have hq' : q.output = [11] ∨ q.output = [2, 12] := by
        clear hf; revert hqi; revert q; decide
      rcases hq' with hq' | hq' <;> rw [hq'] at hf
      · rw [isForest_cons] at hf
        obtain ⟨w1, w2, n1, ns1, rfl, rfl, h1, h2⟩ := hf
        rw [isForest_nil] at h2
        obtain ⟨rfl, rfl⟩ := h2
        obtain ⟨l, rfl, rfl⟩ := ht 11 _ _ (by decide) h1
        exact .inl ⟨l, by simp, rfl⟩
      · obtain ⟨w', m, l, rfl, h1, rfl⟩ := two 2 12 _ _ (by decide) hf
        exact .inr ⟨w', m, l, rfl, h1, rfl⟩
  have uniq : ∀ k (w : List (Token L Nat)), w.length = k → ∀ n n', IsTree 0 retriedPs 2 w n →
      IsTree 0 retriedPs 2 w n' → n = n' := by
    intro k
    induction k with
    | zero =>
      intro w hk n n' h _
      rcases x2 _ _ h with ⟨l, rfl, _⟩ | ⟨w', m, l, rfl, _⟩ <;> simp at hk
    | succ k ih =>
      intro w hk n n' h h'
      have last : ∀ (a b : Token L Nat) (u v : List (Token L Nat)), u ++ [a] = v ++ [b] → a = b ∧ u = v :=
        fun a b u v e => by
          have := List.append_inj' e rfl
          exact ⟨by simpa using this.2, this.1⟩
      rcases x2 _ _ h with ⟨l, rfl, rfl⟩ | ⟨w', m, l, rfl, hm, rfl⟩ <;>
        rcases x2 _ _ h' with ⟨l', e, rfl⟩ | ⟨w'', m', l', e, hm', rfl⟩
      · simp only [List.cons.injEq, Token.mk.injEq, and_true] at e
        rw [e]
      · exact absurd (last _ _ [] _ e).1 (by simp)
      · exact absurd (last _ _ _ [] e).1 (by simp)
      · obtain ⟨e1, rfl⟩ := last _ _ _ _ e
        simp only [Token.mk.injEq, and_true] at e1
        rw [ih w' (by simpa using hk) _ _ hm hm', e1]
  intro w n n' h h'
  have x1 : ∀ n, IsTree 0 retriedPs 1 w n → ∃ w' m l, w = w' ++ [⟨l, 13⟩] ∧ IsTree 0 retriedPs 2 w' m ∧
      n = .mk [m, .mk [] ⟨l, 13⟩] ⟨none, 1⟩ := by
    intro n h
    rw [isTree_iff] at h
    rcases h with ⟨hc, _⟩ | ⟨hc, _⟩ | ⟨q, hq, hqi, ns, hf, rfl⟩
    · exact absurd ⟨⟨1, [2, 13]⟩, by decide, rfl⟩ hc
    · exact absurd hc (by decide)
    · have hq' : q.output = [2, 13] := by
        clear hf; revert hqi; revert q; decide
      rw [hq'] at hf
      obtain ⟨w', m, l, rfl, h1, rfl⟩ := two 2 13 _ _ (by decide) hf
      exact ⟨w', m, l, rfl, h1, rfl⟩
  obtain ⟨w1, m, l, rfl, hm, rfl⟩ := x1 n h
  obtain ⟨w2, m', l', e, hm', rfl⟩ := x1 n' h'
  obtain ⟨rfl, e2⟩ := List.append_inj' e rfl
  simp only [List.cons.injEq, Token.mk.injEq, and_true] at e2
  rw [uniq _ w1 rfl _ _ hm hm', e2]

/-- The hypotheses of C84 are met by the left-recursive grammar `S → X c`, `X → a | X b`; its parser accepts
`a b c`, with a tree of height 3 in which `X` occurs below `X` at the first token, and returns `Err` for the
sentence `a b b c`. -/
theorem C84_left_recursive_example : ∃ g p, Grammar.new (HashOrder.id Nat) 0 1 retriedPs = .ok g ∧
    Built (σ := Unit) (L := Unit) (HashOrder.id Nat) g none p ∧ IsNonTerminal retriedPs 1 ∧
    Reduced 0 1 retriedPs ∧ ¬ NotLeftRecursive 0 retriedPs ∧ Unambiguous Unit 0 1 retriedPs ∧
    EndMarked 0 1 13 retriedPs ∧
    (∃ tree n m, Parses p [⟨none, 11⟩, ⟨none, 12⟩, ⟨none, 13⟩] () (.ok tree) () ∧ height tree.root = 3 ∧
      Occurs 0 [tree.root] 0 n 0 ∧ Occurs 0 n.childNodes 0 m 0 ∧ m.childNodes ≠ [] ∧
      n.token.tType = 2 ∧ m.token.tType = 2) ∧
    Sentence 0 1 retriedPs [11, 12, 12, 13] ∧
    ∃ f s', Parses p [⟨none, 11⟩, ⟨none, 12⟩, ⟨none, 12⟩, ⟨none, 13⟩] () (.err f) s' := by
  have d : Derives 0 retriedPs [1] [11, 12, 12, 13] :=
    .step (.mk [] [] ⟨1, [2, 13]⟩ (by decide)) (.step (.mk [] [13] ⟨2, [2, 12]⟩ (by decide))
      (.step (.mk [] [12, 13] ⟨2, [2, 12]⟩ (by decide)) (.step (.mk [] [12, 12, 13] ⟨2, [11]⟩ (by decide))
        (.refl _))))
  have ht : ∀ a ∈ [11, 12, 12, 13], IsTerminal retriedPs a ∧ a ≠ 0 := by
    intro a ha
    have : (∃ p ∈ retriedPs, a ∈ p.output) ∧ (∀ p ∈ retriedPs, p.input ≠ a) ∧ a ≠ 0 := by
      revert a; decide
    exact ⟨⟨this.1, fun ⟨q, hq, hqa⟩ => this.2.1 q hq hqa⟩, this.2.2⟩
  exact ⟨_, _, rfl, Parser.built_of_eval (n := 10) rfl, ⟨⟨1, [2, 13]⟩, by decide, rfl⟩, retriedPs_reduced,
    retriedPs_leftRecursive, retriedPs_unambiguous, retriedPs_endMarked,
    ⟨_, .mk [.mk [.mk [] ⟨none, 11⟩] ⟨none, 2⟩, .mk [] ⟨none, 12⟩] ⟨none, 2⟩,
      .mk [.mk [] ⟨none, 11⟩] ⟨none, 2⟩, Parser.parse_returns (n := 20) rfl, rfl,
      .inside _ _ _ _ _ _ (.here _ _ _), .here _ _ _, by simp [Node.childNodes], rfl, rfl⟩,
    ⟨d, ht⟩, _, _, Parser.parse_returns (n := 20) rfl⟩

/-- An ambiguous left-recursive grammar: `S → X c`, `X → a | X`, with `S = 1, X = 2, a = 11, c = 13`. -/
def loopPs : List (Production Nat) := [⟨1, [2, 13]⟩, ⟨2, [11]⟩, ⟨2, [2]⟩]

/-- Unambiguity is needed in C84: this grammar is end-marked, has no useless symbols and is left-recursive,
and its parser accepts every sentence. -/
theorem C84_ambiguous_example : ∃ g p, Grammar.new (HashOrder.id Nat) 0 1 loopPs = .ok g ∧
    Built (σ := Unit) (L := Unit) (HashOrder.id Nat) g none p ∧ EndMarked 0 1 13 loopPs ∧
    Reduced 0 1 loopPs ∧ ¬ NotLeftRecursive 0 loopPs ∧
    ∀ tokens : List (Token Unit Nat), Sentence 0 1 loopPs (tokens.map (·.tType)) →
      ∃ tree, Parses p tokens () (.ok tree) () := by
  have hem : EndMarked 0 1 13 loopPs := by
    refine ⟨by decide, ?_, by decide, ?_, by decide⟩
    · rintro ⟨q, hq, e⟩; revert q; decide
    · intro q hq e
      simp only [loopPs, List.mem_cons, List.not_mem_nil, or_false] at hq
      rcases hq with rfl | rfl | rfl
      · exact ⟨[2], rfl, by decide⟩
      · simp at e
      · simp at e
  have hred : Reduced 0 1 loopPs := by
    have d1 : Derives 0 loopPs [1] [2, 13] := .of_production (p := ⟨1, [2, 13]⟩) (by decide)
    have d2 : Derives 0 loopPs [2] [11] := .of_production (p := ⟨2, [11]⟩) (by decide)
    have e1 : Derives 0 loopPs [1] [11, 13] := d1.trans (Derives.append (a := [2]) d2 (.refl [13]))
    have ht : ∀ a ∈ [11, 13], IsTerminal loopPs a ∧ a ≠ 0 := by
      intro a ha
      have : (∃ p ∈ loopPs, a ∈ p.output) ∧ (∀ p ∈ loopPs, p.input ≠ a) ∧ a ≠ 0 := by
        revert a; decide
      exact ⟨⟨this.1, fun ⟨q, hq, hqa⟩ => this.2.1 q hq hqa⟩, this.2.2⟩
    rintro x ⟨q, hq, rfl⟩
    have hx : q.input ∈ [1, 2] := by revert q; decide
    simp only [List.mem_cons, List.not_mem_nil, or_false] at hx
    rcases hx with hx | hx <;> rw [hx]
    · exact ⟨⟨[], [], .refl _⟩, _, e1, ht⟩
    · exact ⟨⟨[], _, d1⟩, _, d2, fun a ha => ht a (by simp at ha; simp [ha])⟩
  have hlr : ¬ NotLeftRecursive 0 loopPs :=
    fun h => h 2 [] ⟨_, .mk [] [] ⟨2, [2]⟩ (by decide), .refl _⟩
  have hsen : ∀ tokens : List (Token Unit Nat), Sentence 0 1 loopPs (tokens.map (·.tType)) →
      ∃ l l', tokens = [⟨l, 11⟩, ⟨l', 13⟩] := by
    intro tokens h
    obtain ⟨n, hn⟩ := Parser.tree_of_sentence h
    have ht : ∀ x (w : List (Token Unit Nat)) n, x ∈ [11, 13] → IsTree 0 loopPs x w n →
        ∃ l, w = [⟨l, x⟩] := by
      intro x w n hx h
      rw [isTree_iff] at h
      rcases h with ⟨_, _, l, h, _⟩ | ⟨rfl, _⟩ | ⟨q, hq, rfl, hf⟩
      · exact ⟨l, h⟩
      · simp at hx
      · exfalso; clear hf; revert hx; revert q; decide
    have one : ∀ y (w : List (Token Unit Nat)) ns, IsForest 0 loopPs [y] w ns → ∃ m, IsTree 0 loopPs y w m := by
      intro y w ns hf
      rw [isForest_cons] at hf
      obtain ⟨w1, w2, n1, ns1, rfl, rfl, h1, h2⟩ := hf
      rw [isForest_nil] at h2
      obtain ⟨rfl, rfl⟩ := h2
      exact ⟨n1, by simpa using h1⟩
    have x2 : ∀ (w : List (Token Unit Nat)) n, IsTree 0 loopPs 2 w n → ∃ l, w = [⟨l, 11⟩] := by
      intro w n h
      generalize hx : (2 : Nat) = x at h
      revert hx
      refine IsTree.rec (eps := 0) (ps := loopPs)
        (motive_1 := fun x w _ _ => 2 = x → ∃ l, w = [⟨l, 11⟩])
        (motive_2 := fun xs w _ _ => (xs = [2] → ∃ l, w = [⟨l, 11⟩]) ∧ (xs = [] → w = [])) ?_ ?_ ?_ ?_ ?_ h
      · intro t ht _ e
        exact absurd ⟨⟨2, [11]⟩, by decide, e⟩ ht
      · intro e
        exact absurd e (by decide)
      · intro q w ns hq hf ih hqi
        have hq' : q.output = [11] ∨ q.output = [2] := by
          clear hf ih; revert hqi; revert q; decide
        rcases hq' with hq' | hq'
        · rw [hq'] at hf
          obtain ⟨m, hm⟩ := one _ _ _ hf
          exact ht 11 _ _ (by decide) hm
        · exact ih.1 hq'
      · simp
      · intro x xs w w' n ns _ _ ih1 ih2
        refine ⟨fun e => ?_, fun e => by simp at e⟩
        simp only [List.cons.injEq] at e
        rw [ih2.2 e.2]
        simpa using ih1 e.1.symm
    rw [isTree_iff] at hn
    rcases hn with ⟨hc, _⟩ | ⟨hc, _⟩ | ⟨q, hq, hqi, ns, hf, rfl⟩
    · exact absurd ⟨⟨1, [2, 13]⟩, by decide, rfl⟩ hc
    · exact absurd hc (by decide)
    · have hq' : q.output = [2, 13] := by
        clear hf; revert hqi; revert q; decide
      rw [hq', isForest_cons] at hf
      obtain ⟨w1, w2, n1, ns1, rfl, rfl, h1, h2⟩ := hf
      obtain ⟨m, hm⟩ := one _ _ _ h2
      obtain ⟨l, rfl⟩ := x2 _ _ h1
      obtain ⟨l', rfl⟩ := ht 13 _ _ (by decide) hm
      exact ⟨l, l', rfl⟩
  obtain ⟨g, p, hg, hp, hacc⟩ : ∃ g p, Grammar.new (HashOrder.id Nat) 0 1 loopPs = .ok g ∧
      Built (σ := Unit) (L := Unit) (HashOrder.id Nat) g none p ∧
      ∀ l l', ∃ tree, Parses p [⟨l, 11⟩, ⟨l', 13⟩] () (.ok tree) () :=
    ⟨_, _, rfl, Parser.built_of_eval (n := 10) rfl, fun l l' => ⟨_, Parser.parse_returns (n := 20) rfl⟩⟩
  refine ⟨g, p, hg, hp, hem, hred, hlr, fun tokens h => ?_⟩
  obtain ⟨l, l', rfl⟩ := hsen tokens h
  exact hacc l l'

end Verif.Props
