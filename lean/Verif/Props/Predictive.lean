import Verif.Proof.Predicted
import Verif.Proof.PredictedAt
import Verif.Props.Unambiguous
import Verif.Props.LL1Grammar
import Verif.Props.Reduced

/-!
# Properties C70, C71 and C23: predictive parsing
-/

set_option linter.unusedSectionVars false

namespace Verif.Props

open Verif.Spec Verif.Examples

variable {σ L T : Type} [DecidableEq T]

theorem candidates_eq (p : Parser σ L T) : candidates p.transitions = p.getTokenProductions :=
  funext fun x => funext fun a => (Parser.getTokenProductions_eq p x a).symm

/-- **C70.** Every step of an `Ok` result was predicted by the table: each non-terminal in the tree is expanded
by a production of its cell for the token at which its expansion begins. This holds for every parser, with
computed sets or sets of the user, with any solver. -/
theorem C70_ok_predicted (h : HashOrder T) (eps init : T) (ps : List (Production T))
    (g : Grammar T) (hg : Grammar.new h eps init ps = .ok g) (p : Parser σ L T) (hp : AnyParser h g p)
    (tokens : List (Token L T)) (s s' : σ) (tree : Tree L T) (hr : Parses p tokens s (.ok tree) s') :
    ∃ k, Predicted eps ps (candidates p.transitions) tokens init 0 tree.root k := by
  have P := hp.parserOf hg
  obtain ⟨_, _, hnt, _⟩ := ok_tree P hr
  rw [candidates_eq]
  cases tokens with
  | nil => obtain ⟨n, hn⟩ := Parser.parses_at hr; simp [Parser.parseFromTokens] at hn
  | cons t ts =>
    obtain ⟨o, h1, h2⟩ := ((Parser.Recovery.parse_iff_choice P t ts s).1 _ _).1 hr
    match o, h1, h2 with
    | .found (.node n q rest) s1, h1, h2 =>
      simp only [Recovery.result, Option.some.injEq, Prod.mk.injEq, ParseResult.ok.injEq] at h2
      obtain ⟨rfl, rfl⟩ := h2
      obtain ⟨⟨out, ns, h3, rfl, h4⟩, _⟩ := Parser.Recovery.choice_predicted h1 n q rest _ rfl
      exact ⟨q, .node init 0 t out ns q hnt rfl h3 h4⟩
    | .found (.fixed _ _) _, _, h2 => simp [Recovery.result] at h2
    | .failed _ _, _, h2 => simp [Recovery.result] at h2
    | .panicked, _, h2 => simp [Recovery.result] at h2

/-- **C70**, without conflicts: the result is `Ok` exactly with the trees of predictive parsing, and the solver,
if any, is not asked. -/
theorem C70_conflict_free_exact (h : HashOrder T) (eps init : T) (ps : List (Production T))
    (g : Grammar T) (hg : Grammar.new h eps init ps = .ok g) (p : Parser σ L T) (hp : AnyParser h g p)
    (hcf : ConflictFree p.transitions) (hinit : IsNonTerminal ps init) (tokens : List (Token L T))
    (s s' : σ) (tree : Tree L T) :
    Parses p tokens s (.ok tree) s' ↔
      s' = s ∧ ∃ k, Predicted eps ps (candidates p.transitions) tokens init 0 tree.root k := by
  have P := hp.parserOf hg
  have hback : ∀ tree : Tree L T,
      (∃ k, Predicted eps ps (candidates p.transitions) tokens init 0 tree.root k) →
      Parses p tokens s (.ok tree) s := by
    rintro tree ⟨k, hk⟩
    rw [candidates_eq] at hk
    obtain ⟨t, ht, hc⟩ := Parser.Recovery.choice_of_predicted (solver := p.syntaxErrorSolver)
      (Parser.conflictFree_length hcf) hinit P.grammar.wf hk s
    cases tokens with
    | nil => simp at ht
    | cons t' ts =>
      simp only [List.getElem?_cons_zero, Option.some.injEq] at ht
      subst ht
      exact ((Parser.Recovery.parse_iff_choice P t' ts s).1 _ _).2 ⟨_, hc, rfl⟩
  constructor
  · intro hr
    have hk := C70_ok_predicted h eps init ps g hg p hp tokens s s' tree hr
    refine ⟨?_, hk⟩
    exact (Parser.Parses.det hr (hback tree hk)).2
  · rintro ⟨rfl, hk⟩
    exact hback tree hk

/-- **C71.** LL(1) grammars are unambiguous: if the grammar is end-marked, the initial symbol has at most one
parse tree over each token sequence, … -/
theorem C71_ll1_unambiguous (eps init : T) (ps : List (Production T)) (hw : WellFormed eps ps)
    (hll : IsLL1 eps ps) (e : T) (hem : EndMarked eps init e ps) : Unambiguous L eps init ps := by
  intro w n n' hn hn'
  by_cases hnt : IsNonTerminal ps init
  · exact (ll1_tree_unique (post := []) (post' := []) hw hll hn hn' rfl
      (.inr (Parser.not_endsEmpty_of_endMarked hw hem hnt hn))
      (.inr (Parser.not_endsEmpty_of_endMarked hw hem hnt hn'))).2
  · rw [isTree_iff] at hn hn'
    rcases hn with ⟨_, hne, l, rfl, rfl⟩ | ⟨rfl, rfl, rfl⟩ | ⟨q, hq, hqi, _⟩
    · rcases hn' with ⟨_, _, l', e', rfl⟩ | ⟨hc, _⟩ | ⟨q, hq, hqi, _⟩
      · simp only [List.cons.injEq, Token.mk.injEq, and_true] at e'
        rw [e']
      · exact absurd hc hne
      · exact absurd ⟨q, hq, hqi⟩ hnt
    · rcases hn' with ⟨_, hc, _⟩ | ⟨_, _, rfl⟩ | ⟨q, hq, hqi, _⟩
      · exact absurd rfl hc
      · rfl
      · exact absurd ⟨q, hq, hqi⟩ hnt
    · exact absurd ⟨q, hq, hqi⟩ hnt

/-- … and without end marker the same holds for every symbol that some terminal can follow; moreover, with that
terminal behind them, no beginning of the tokens of a tree has a tree of its own that is followed by a
terminal that can follow the symbol. -/
theorem C71_ll1_unambiguous_followed (eps : T) (ps : List (Production T)) (hw : WellFormed eps ps)
    (hll : IsLL1 eps ps) (x : T) (w w' rest rest' : List (Token L T)) (t t' : Token L T)
    (ht : CanFollow eps ps x t.tType) (ht' : CanFollow eps ps x t'.tType)
    (he : w ++ t :: rest = w' ++ t' :: rest') (n n' : Node L T) (hn : IsTree eps ps x w n)
    (hn' : IsTree eps ps x w' n') : w = w' ∧ n = n' :=
  ll1_tree_unique hw hll hn hn' he (.inl ⟨t, rest, rfl, ht⟩) (.inl ⟨t', rest', rfl, ht'⟩)

/-- **C23** for LL(1) grammars, exactly when it holds: the parser of an end-marked LL(1) grammar without useless
symbols whose table has no conflicts accepts all sentences iff the table has all entries of Algorithm 4.31. -/
theorem C23_ll1_accepts_iff (h : HashOrder T) (eps init : T) (ps : List (Production T))
    (g : Grammar T) (hg : Grammar.new h eps init ps = .ok g) (p : Parser σ L T) (hp : BuiltAny h g p)
    (hcf : ConflictFree p.transitions) (hll : IsLL1 eps ps) (hred : Reduced eps init ps) (e : T)
    (hem : EndMarked eps init e ps) (s : σ) :
    (∀ tokens : List (Token L T), Sentence eps init ps (tokens.map (·.tType)) →
      ∃ tree, Parses p tokens s (.ok tree) s) ↔ TableComplete eps ps p.transitions := by
  obtain ⟨P, hs⟩ := hp.parserOf hg
  have hwf := P.grammar.wf
  have hp' : AnyParser h g p := by
    rcases hp with hp | hp
    · exact .inl ⟨none, hp⟩
    · exact .inr hp
  constructor
  · intro H q hq a ha
    have hcand : ∀ x a o, o ∈ candidates p.transitions x a → (⟨x, o⟩ : Production T) ∈ ps := by
      rw [candidates_eq]; exact P.cand
    obtain ⟨w, n, hn, hpred⟩ := exists_predicting (L := L) hwf hred hcand hq ha
    have hnt : IsNonTerminal ps init := by
      by_contra hc
      obtain ⟨u, v, hd⟩ := (hred q.input ⟨q, hq, rfl⟩).1
      have := Derives.terminal_eq hc hd
      cases u with
      | nil =>
        simp only [List.nil_append, List.cons.injEq] at this
        exact hc ⟨q, hq, this.1⟩
      | cons y u => cases u <;> simp at this
    have hie : init ≠ eps := by
      rintro rfl
      obtain ⟨q, hq, hqe⟩ := hnt
      exact (hwf q hq).1 hqe
    have hsen : Sentence eps init ps (w.map (·.tType)) := by
      refine ⟨hn.derives hwf hie, ?_⟩
      intro a ha
      obtain ⟨t, ht, rfl⟩ := List.mem_map.1 ha
      exact Parser.IsTree.terminals hn (.inl hnt) t ht
    obtain ⟨tree, hr⟩ := H w hsen
    obtain ⟨k, hk⟩ := C70_ok_predicted h eps init ps g hg p hp' w s s tree hr
    obtain ⟨i, _, _, htree, _⟩ := ok_tree P hr
    have heq := (ll1_tree_unique (post := w.drop i) (post' := []) hwf hll htree hn (by simp)
      (.inr (Parser.not_endsEmpty_of_endMarked hwf hem hnt htree))
      (.inr (Parser.not_endsEmpty_of_endMarked hwf hem hnt hn))).2
    rw [heq] at hk
    have hm := hpred k hk
    unfold candidates at hm
    cases hc : p.transitions.getProductions q.input a with
    | none => rw [hc] at hm; simp at hm
    | some l =>
      rw [hc] at hm
      simp only [Option.getD_some, List.mem_map] at hm
      obtain ⟨q', hq', ho⟩ := hm
      obtain ⟨ff, hff⟩ : ∃ ff, Transitions.from h g ff = .ok p.transitions := by
        rcases hp with hp | ⟨ff, hp⟩
        · obtain ⟨ff, _, e'⟩ := (Parser.built_iff hg).1 hp
          exact ⟨ff, (Parser.from_eq_ok e').2.2⟩
        · exact ⟨ff, (Parser.from_eq_ok hp).2.2⟩
      have hi := ((((C44_table_any_sets h eps init ps g hg ff).2.2 _ hff).2 _ _ _ hc).1 q').1 hq'
      refine ⟨l, rfl, ?_⟩
      have : q' = q := by
        cases q; cases q'
        simp only [Production.mk.injEq]
        exact ⟨hi.2.1, ho⟩
      rw [← this]
      exact hq'
  · intro hcomp tokens hsen
    obtain ⟨n, hn⟩ := Parser.tree_of_sentence hsen
    have hnt : IsNonTerminal ps init := by
      by_contra hc
      have := Derives.terminal_eq hc hsen.1
      obtain ⟨q, hq, hq'⟩ := (hsen.2 init (by rw [this]; simp)).1.1
      exact hem.initial_once q hq hq'
    have := C69_complete_table h eps init ps g hg p hp hcf hcomp hnt tokens [] n hn
      (.inr (Parser.not_endsEmpty_of_endMarked hwf hem hnt hn)) s
    rw [List.append_nil] at this
    exact ⟨⟨n⟩, this⟩

/-! ## The hypotheses can be met -/

/-- A table without conflicts that has all entries shows that the grammar is LL(1). -/
theorem ll1_of_complete {eps : T} {ps : List (Production T)} {t : Transitions T} (hnd : ps.Nodup)
    (hcf : ConflictFree t) (hcomp : TableComplete eps ps t) : IsLL1 eps ps := by
  refine List.Pairwise.imp_of_mem ?_ hnd
  rintro p q hp hq hne hi a ⟨h1, h2⟩
  obtain ⟨l, hl, hm⟩ := hcomp p hp a h1
  obtain ⟨l', hl', hm'⟩ := hcomp q hq a h2
  rw [← hi, hl] at hl'
  cases hl'
  have := hcf _ _ _ hl
  match l, this with
  | [], _ => simp at hm
  | [x], _ =>
    simp only [List.mem_singleton] at hm hm'
    exact hne (hm.trans hm'.symm)

/-- C70: the table of the grammar `prefixPs` has a conflict, and `a c $` is accepted after backtracking. -/
example : ∃ g p t, Grammar.new (HashOrder.id Nat) 0 1 prefixPs = .ok g ∧
    AnyParser (HashOrder.id Nat) g (p : Parser Unit Unit Nat) ∧
    p.transitions.getProductions 2 10 = some [⟨2, [10, 11]⟩, ⟨2, [10, 12]⟩] ∧
    Parses p [⟨some (), 10⟩, ⟨some (), 12⟩, ⟨none, 16⟩] () (.ok t) () := by
  obtain ⟨g, p, t, hg, hp, h1, h2⟩ : ∃ g p t, Grammar.new (HashOrder.id Nat) 0 1 prefixPs = .ok g ∧
      Built (HashOrder.id Nat) g none (p : Parser Unit Unit Nat) ∧
      p.transitions.getProductions 2 10 = some [⟨2, [10, 11]⟩, ⟨2, [10, 12]⟩] ∧
      Parses p [⟨some (), 10⟩, ⟨some (), 12⟩, ⟨none, 16⟩] () (.ok t) () :=
    ⟨_, _, _, rfl, Parser.built_of_eval (n := 10) rfl, rfl, Parser.parse_returns (n := 40) rfl⟩
  exact ⟨g, p, t, hg, .inl ⟨none, hp⟩, h1, h2⟩

/-- C70, C71 and C23: the parser of the expression grammar meets all hypotheses, and its table has all entries. -/
example : ∃ g p t, Grammar.new (HashOrder.id Nat) 0 1 exprPs = .ok g ∧
    BuiltAny (HashOrder.id Nat) g (p : Parser Unit Unit Nat) ∧ AnyParser (HashOrder.id Nat) g p ∧
    ConflictFree p.transitions ∧ IsNonTerminal exprPs 1 ∧ WellFormed 0 exprPs ∧ IsLL1 0 exprPs ∧
    Reduced 0 1 exprPs ∧ EndMarked 0 1 16 exprPs ∧ TableComplete 0 exprPs p.transitions ∧
    Parses p [⟨some (), 15⟩, ⟨none, 16⟩] () (.ok t) () := by
  obtain ⟨g, p, t, hg, hp, hr⟩ : ∃ g p t, Grammar.new (HashOrder.id Nat) 0 1 exprPs = .ok g ∧
      Built (HashOrder.id Nat) g none (p : Parser Unit Unit Nat) ∧
      Parses p [⟨some (), 15⟩, ⟨none, 16⟩] () (.ok t) () :=
    ⟨_, _, _, rfl, Parser.built_of_eval (n := 10) rfl, Parser.parse_returns (n := 40) rfl⟩
  have hcf := exprPs_conflictFree p _ g hg none hp
  have hll := C43_ll1_of_conflictFree _ _ _ _ g hg none p hp exprPs_noAdjacentRepeat hcf
  refine ⟨g, p, t, hg, .inl hp, .inl ⟨none, hp⟩, hcf, by unfold IsNonTerminal; decide,
    (Grammar.grammarOf_of_new hg).wf, hll, exprPs_reduced, exprPs_endMarked, ?_, hr⟩
  exact (C23_ll1_accepts_iff _ _ _ _ g hg p (.inl hp) hcf hll exprPs_reduced 16 exprPs_endMarked ()).1
    fun tokens hs => C23_complete_partial _ _ _ _ g hg p hp hcf exprPs_noAdjacentRepeat 16 exprPs_endMarked
      tokens hs ()

theorem twicePs_reduced : Reduced 0 1 twicePs := by
  have d1 : Derives 0 twicePs [1] [2, 2, 12] := .of_production (p := ⟨1, [2, 2, 12]⟩) (by decide)
  have d2 : Derives 0 twicePs [2] [10, 3] := .of_production (p := ⟨2, [10, 3]⟩) (by decide)
  have d3 : Derives 0 twicePs [3] [11] := .of_production (p := ⟨3, [11]⟩) (by decide)
  have e2 : Derives 0 twicePs [2] [10, 11] := d2.trans (Derives.append (.refl [10]) d3)
  have e1 : Derives 0 twicePs [1] ([10, 11] ++ ([10, 11] ++ [12])) :=
    d1.trans (Derives.append (a := [2]) e2 (Derives.append (a := [2]) e2 (.refl [12])))
  have r1 : Derives 0 twicePs [1] [10, 3, 2, 12] := d1.trans (Derives.append (a := [2]) d2 (.refl [2, 12]))
  have ht : ∀ a ∈ [10, 11, 12], IsTerminal twicePs a ∧ a ≠ 0 := by
    intro a ha
    have : (∃ p ∈ twicePs, a ∈ p.output) ∧ (∀ p ∈ twicePs, p.input ≠ a) ∧ a ≠ 0 := by
      revert a; decide
    exact ⟨⟨this.1, fun ⟨q, hq, hqa⟩ => this.2.1 q hq hqa⟩, this.2.2⟩
  rintro x ⟨q, hq, rfl⟩
  have hx : q.input ∈ [1, 2, 3] := by revert q; decide
  simp only [List.mem_cons, List.not_mem_nil, or_false] at hx
  rcases hx with hx | hx | hx <;> rw [hx]
  · exact ⟨⟨[], [], .refl _⟩, _, e1, fun a ha => ht a (by revert a; decide)⟩
  · exact ⟨⟨[], _, d1⟩, _, e2, fun a ha => ht a (by revert a; decide)⟩
  · exact ⟨⟨[10], [2, 12], r1⟩, _, d3, fun a ha => ht a (by revert a; decide)⟩

/-- C23, both sides: for the LL(1) grammar `S → X X $`, `X → a Z`, `Z → b | ε` the table of the computed sets
lacks entries, and the table of the textbook sets has all; neither has conflicts. -/
theorem C23_ll1_both_sides : ∃ g p p', Grammar.new (HashOrder.id Nat) 0 1 twicePs = .ok g ∧
    IsLL1 0 twicePs ∧ Reduced 0 1 twicePs ∧ EndMarked 0 1 12 twicePs ∧
    Built (HashOrder.id Nat) g none (p : Parser Unit Unit Nat) ∧ ConflictFree p.transitions ∧
    ¬ TableComplete 0 twicePs p.transitions ∧
    Parser.fromGrammarAndFirstFollowSymbols (HashOrder.id Nat) g twiceSets = .ok (p' : Parser Unit Unit Nat) ∧
    ConflictFree p'.transitions ∧ TableComplete 0 twicePs p'.transitions := by
  obtain ⟨g, p', _, _, hg, hob, hp', hcf', _, hem, _⟩ := C69_repairs
  obtain ⟨g2, p, f, hg2, hp, _, _, hcf, hs, hr⟩ := C23_ll1_grammar_incomplete
  rw [hg] at hg2
  cases hg2
  have hcomp := C69_closed_sets_table _ 0 1 twicePs g hg twiceSets hob _ (Parser.from_eq_ok hp').2.2
  have hll := ll1_of_complete (by decide) hcf' hcomp
  refine ⟨g, p, p', hg, hll, twicePs_reduced, hem, hp, hcf, ?_, hp', hcf', hcomp⟩
  intro hc
  obtain ⟨tree, ht⟩ := (C23_ll1_accepts_iff _ _ _ _ g hg p (.inl hp) hcf hll twicePs_reduced 12 hem ()).2 hc
    [⟨none, 10⟩, ⟨none, 10⟩, ⟨none, 12⟩] hs
  have := (Parser.Parses.det ht hr).1
  cases this

/-- C71: `X` of the same grammar can be followed by `a` and by `$`. -/
example : CanFollow 0 twicePs 2 10 ∧ CanFollow 0 twicePs 2 12 := by
  have d1 : Derives 0 twicePs [1] [2, 2, 12] := .of_production (p := ⟨1, [2, 2, 12]⟩) (by decide)
  have d2 : Derives 0 twicePs [2] [10, 3] := .of_production (p := ⟨2, [10, 3]⟩) (by decide)
  refine ⟨⟨by unfold IsTerminal IsNonTerminal; decide, by decide, 1, [], [3, 12], by unfold IsNonTerminal; decide, ?_⟩,
    ⟨by unfold IsTerminal IsNonTerminal; decide, by decide, 1, [2], [], by unfold IsNonTerminal; decide, ?_⟩⟩
  · exact d1.trans (Derives.append (.refl [2]) (Derives.append (a := [2]) d2 (.refl [12])))
  · exact d1

end Verif.Props
