import Verif.Proof.Ahead
import Verif.Proof.Cut
import Verif.Props.Choice
import Verif.Props.ErrorsOnly

/-!
# Property C63: one token of look-ahead
-/

set_option linter.unusedSectionVars false

namespace Verif.Props

open Verif.Spec Verif.Examples

variable {σ τ L T : Type} [DecidableEq T]

theorem conflictFree_of_agree {L' : Type} {p : Parser σ L T} {p' : Parser τ L' T} (A : Parser.Agree p p')
    (h : ConflictFree p.transitions) : ConflictFree p'.transitions := by
  intro x a l hl
  have h1 := Parser.conflictFree_length h x a
  rw [← A.cand_eq, Parser.getTokenProductions_eq, candidates, hl] at h1
  simpa using h1

theorem one_token_ahead_none (h : HashOrder T) (eps init : T) (ps : List (Production T))
    (g : Grammar T) (hg : Grammar.new h eps init ps = .ok g)
    (p : Parser σ L T) (hp : Built h g none p) (hcf : ConflictFree p.transitions)
    (tokens tokens' : List (Token L T)) (s s' : σ) (tree : Tree L T)
    (hr : Parses p tokens s (.ok tree) s')
    (hagree : AgreeTo tokens tokens' (leaves eps tree.root).length) : Parses p tokens' s (.ok tree) s' := by
  cases tokens with
  | nil =>
    obtain ⟨n, hn⟩ := Parser.parses_at hr
    simp [Parser.parseFromTokens] at hn
  | cons t ts =>
    have P := (Parser.tableParser_of_built hg hp).1.toParserOf
    obtain ⟨rfl, q, rest, hc⟩ := ((C24_ordered_choice h eps init ps g hg p hp t ts s).1 tree s').1 hr
    have hlen : ∀ x a, (candidates p.transitions x a).length ≤ 1 := by
      intro x a
      rw [← Parser.getTokenProductions_eq]
      exact Parser.conflictFree_length hcf x a
    have hcand : ∀ x a out, out ∈ candidates p.transitions x a → (⟨x, out⟩ : Production T) ∈ ps := by
      intro x a out ho
      rw [← Parser.getTokenProductions_eq] at ho
      exact P.cand x a out ho
    obtain ⟨⟨w, h1, _, h2⟩, _⟩ := Parser.choice_sound hcand hc (fun o ho => hcand _ _ _ ho) _ _ _ rfl
    rw [isTree_leaves P.grammar.wf h1, show w.length = q by omega] at hagree
    obtain ⟨rfl, _, h3⟩ := choice_ahead (tokens' := tokens') hlen hc (hlen _ _) _ _ _ rfl
    obtain ⟨t', ht', hty⟩ := hagree.type (Nat.zero_le _) (t := t) rfl
    cases tokens' with
    | nil => cases ht'
    | cons a as =>
      simp only [List.getElem?_cons_zero, Option.some.injEq] at ht'
      subst ht'
      refine ((C24_ordered_choice h eps init ps g hg p hp a as s').1 tree s').2 ⟨rfl, q, [], ?_⟩
      rw [hty]
      exact h3 hagree

/-- **C63.** Let the table have no conflicts and let the result be `Ok` with a tree over `k` tokens. Then
nothing but these tokens and the type of the one behind them (if there is one) matters: every other input
that begins with the same `k` tokens, followed by a token of the same type, gives the same result. -/
theorem C63_one_token_ahead (h : HashOrder T) (eps init : T) (ps : List (Production T))
    (g : Grammar T) (hg : Grammar.new h eps init ps = .ok g) (solver : Option (Solver σ L T))
    (p : Parser σ L T) (hp : Built h g solver p) (hcf : ConflictFree p.transitions)
    (tokens tokens' : List (Token L T)) (s s' : σ) (tree : Tree L T)
    (hr : Parses p tokens s (.ok tree) s')
    (hsame : ∀ i, i < (leaves eps tree.root).length → tokens'[i]? = tokens[i]?)
    (hnext : ∀ t, tokens[(leaves eps tree.root).length]? = some t →
      ∃ t', tokens'[(leaves eps tree.root).length]? = some t' ∧ t'.tType = t.tType) :
    Parses p tokens' s (.ok tree) s' := by
  cases solver with
  | none => exact one_token_ahead_none h eps init ps g hg p hp hcf tokens tokens' s s' tree hr ⟨hsame, hnext⟩
  | some sv =>
    obtain ⟨p0, hp0⟩ := Parser.built_exists (σ := σ) (L := L) hg none
    have hcf0 := conflictFree_of_agree (Parser.agree_of_built hg hg hp hp0) hcf
    have key := fun ts => C58_only_errors_change h h eps init ps g g hg hg p0 hp0 hcf0 sv p hp ts s s
    obtain ⟨rfl, hr0⟩ := ((key tokens).1 tree s').1 hr
    exact ((key tokens').1 tree s').2 ⟨rfl,
      one_token_ahead_none h eps init ps g hg p0 hp0 hcf0 tokens tokens' s' s' tree hr0 ⟨hsame, hnext⟩⟩

/-- The hypotheses of C63 are met: `S → a B`, `B → b | ε`, `U → S c` (so that `c` can follow `S`); on
`a c d e` the tree is over `a`, with `c` as look-ahead, and on `a c` it is the same. -/
example : ∃ g p tree,
    Grammar.new (HashOrder.id Nat) 0 1 [⟨1, [10, 2]⟩, ⟨2, [11]⟩, ⟨2, [0]⟩, ⟨3, [1, 12]⟩] = .ok g ∧
    Built (σ := Unit) (L := Unit) (HashOrder.id Nat) g none p ∧ ConflictFree p.transitions ∧
    Parses p [⟨none, 10⟩, ⟨none, 12⟩, ⟨none, 13⟩, ⟨none, 14⟩] () (.ok tree) () ∧
    (leaves 0 tree.root).length = 1 ∧ Parses p [⟨none, 10⟩, ⟨none, 12⟩] () (.ok tree) () := by
  obtain ⟨g, p, tree, hg, hp, hall, h1⟩ : ∃ g p tree,
      Grammar.new (HashOrder.id Nat) 0 1 [⟨1, [10, 2]⟩, ⟨2, [11]⟩, ⟨2, [0]⟩, ⟨3, [1, 12]⟩] = .ok g ∧
      Built (σ := Unit) (L := Unit) (HashOrder.id Nat) g none p ∧
      (∀ x ∈ [1, 2, 2, 3], ∀ a ∈ [10, 2, 11, 0, 1, 12],
        ((p.transitions.getProductions x a).getD []).length ≤ 1) ∧
      Parses p [⟨none, 10⟩, ⟨none, 12⟩, ⟨none, 13⟩, ⟨none, 14⟩] () (.ok tree) () ∧
      (leaves 0 tree.root).length = 1 ∧ Parses p [⟨none, 10⟩, ⟨none, 12⟩] () (.ok tree) () :=
    ⟨_, _, _, rfl, Parser.built_of_eval (n := 10) rfl, by decide, Parser.parse_returns (n := 20) rfl, rfl,
      Parser.parse_returns (n := 20) rfl⟩
  exact ⟨g, p, tree, hg, hp, conflictFree_of_check hg hp hall, h1⟩

/-- The look-ahead is used: in the grammar above `a b` has another tree than the `a` in front of it, and
`a d`, with a token that cannot follow, is an error. -/
theorem C63_lookahead_matters : ∃ g p tree tree' f,
    Grammar.new (HashOrder.id Nat) 0 1 [⟨1, [10, 2]⟩, ⟨2, [11]⟩, ⟨2, [0]⟩, ⟨3, [1, 12]⟩] = .ok g ∧
    Built (σ := Unit) (L := Unit) (HashOrder.id Nat) g none p ∧
    Parses p [⟨none, 10⟩, ⟨none, 12⟩] () (.ok tree) () ∧
    Parses p [⟨none, 10⟩, ⟨none, 11⟩] () (.ok tree') () ∧ tree ≠ tree' ∧
    Parses p [⟨none, 10⟩, ⟨none, 13⟩] () (.err f) () := by
  refine ⟨_, _, _, _, _, rfl, Parser.built_of_eval (n := 10) rfl, Parser.parse_returns (n := 20) rfl,
    Parser.parse_returns (n := 20) rfl, ?_, Parser.parse_returns (n := 20) rfl⟩
  intro h
  cases h

theorem reparse_none (h : HashOrder T) (eps init : T) (ps : List (Production T))
    (g : Grammar T) (hg : Grammar.new h eps init ps = .ok g)
    (p : Parser σ L T) (hp : Built h g none p) (hcf : ConflictFree p.transitions)
    (tokens : List (Token L T)) (s s' : σ) (tree : Tree L T) (hr : Parses p tokens s (.ok tree) s') :
    (¬ EndsEmpty eps ps tree.root →
      Parses p (tokens.take (leaves eps tree.root).length) s (.ok tree) s') ∧
    (EndsEmpty eps ps tree.root → ParsePanics p (tokens.take (leaves eps tree.root).length) s) := by
  cases tokens with
  | nil =>
    obtain ⟨n, hn⟩ := Parser.parses_at hr
    simp [Parser.parseFromTokens] at hn
  | cons t ts =>
    have P := (Parser.tableParser_of_built hg hp).1.toParserOf
    obtain ⟨rfl, q, rest, hc⟩ := ((C24_ordered_choice h eps init ps g hg p hp t ts s).1 tree s').1 hr
    have hlen : ∀ x a, (candidates p.transitions x a).length ≤ 1 := by
      intro x a
      rw [← Parser.getTokenProductions_eq]
      exact Parser.conflictFree_length hcf x a
    have hcand : ∀ x a out, out ∈ candidates p.transitions x a → (⟨x, out⟩ : Production T) ∈ ps := by
      intro x a out ho
      rw [← Parser.getTokenProductions_eq] at ho
      exact P.cand x a out ho
    obtain ⟨⟨w, h1, _, h2⟩, _⟩ := Parser.choice_sound hcand hc (fun o ho => hcand _ _ _ ho) _ _ _ rfl
    have hlv := isTree_leaves P.grammar.wf h1
    rw [hlv, show w.length = q by omega]
    have hcut : CutAt (t :: ts) ((t :: ts).take q) q :=
      ⟨fun i hi => by rw [List.getElem?_take_of_lt hi], fun i hi => by simp; omega⟩
    cases q with
    | zero =>
      refine ⟨fun hn => absurd (.here _ ?_ ?_) hn, fun _ => C18_empty_input_panics p s'⟩
      · rw [h1.label]
        cases hcs : candidates p.transitions init t.tType with
        | nil => rw [hcs] at hc; cases hc
        | cons o os => exact ⟨_, hcand init t.tType o (by simp [hcs]), rfl⟩
      · rw [hlv]
        exact List.length_eq_zero_iff.1 (by omega)
    | succ q =>
      obtain ⟨_, h3, h4⟩ := choice_cut P.grammar.wf hlen hcand hcut hc (hlen _ _)
        (fun o ho => hcand _ _ _ ho) (by omega) _ _ _ rfl (Nat.le_refl _)
      rw [List.take_succ_cons] at h3 h4 ⊢
      have key := C24_ordered_choice h eps init ps g hg p hp t (ts.take q) s'
      exact ⟨fun hn => (key.1 tree s').2 ⟨rfl, _, _, h3 (fun h => hn h.2)⟩,
        fun hy => key.2.2.1.2 (h4 ⟨rfl, hy⟩)⟩

/-- **C63**, parsing again: let the table have no conflicts and let the result be `Ok` with a tree over the
first `k` tokens. Then parsing just these `k` tokens gives the same tree again, unless the tree has a
non-terminal at its right end that covers no token: then the parser panics, since the input ends in front of it. -/
theorem C63_reparse (h : HashOrder T) (eps init : T) (ps : List (Production T))
    (g : Grammar T) (hg : Grammar.new h eps init ps = .ok g) (solver : Option (Solver σ L T))
    (p : Parser σ L T) (hp : Built h g solver p) (hcf : ConflictFree p.transitions)
    (tokens : List (Token L T)) (s s' : σ) (tree : Tree L T) (hr : Parses p tokens s (.ok tree) s') :
    (¬ EndsEmpty eps ps tree.root →
      Parses p (tokens.take (leaves eps tree.root).length) s (.ok tree) s') ∧
    (EndsEmpty eps ps tree.root → ParsePanics p (tokens.take (leaves eps tree.root).length) s) := by
  cases solver with
  | none => exact reparse_none h eps init ps g hg p hp hcf tokens s s' tree hr
  | some sv =>
    obtain ⟨p0, hp0⟩ := Parser.built_exists (σ := σ) (L := L) hg none
    have hcf0 := conflictFree_of_agree (Parser.agree_of_built hg hg hp hp0) hcf
    have key := fun ts => C58_only_errors_change h h eps init ps g g hg hg p0 hp0 hcf0 sv p hp ts s s
    obtain ⟨rfl, hr0⟩ := ((key tokens).1 tree s').1 hr
    obtain ⟨h1, h2⟩ := reparse_none h eps init ps g hg p0 hp0 hcf0 tokens s' s' tree hr0
    exact ⟨fun hn => ((key _).1 tree s').2 ⟨rfl, h1 hn⟩, fun hy => (key _).2.1 (h2 hy)⟩

/-- Both cases happen, in the grammar above: `a c` has the tree of `a` in front of `B → ε`, and `a` alone runs
out of input in front of `B`; `a b c` has the tree of `a b`. -/
theorem C63_reparse_cases : ∃ g p tree tree',
    Grammar.new (HashOrder.id Nat) 0 1 [⟨1, [10, 2]⟩, ⟨2, [11]⟩, ⟨2, [0]⟩, ⟨3, [1, 12]⟩] = .ok g ∧
    Built (σ := Unit) (L := Unit) (HashOrder.id Nat) g none p ∧ ConflictFree p.transitions ∧
    Parses p [⟨none, 10⟩, ⟨none, 12⟩] () (.ok tree) () ∧ ParsePanics p [⟨none, 10⟩] () ∧
    Parses p [⟨none, 10⟩, ⟨none, 11⟩, ⟨none, 12⟩] () (.ok tree') () ∧
    Parses p [⟨none, 10⟩, ⟨none, 11⟩] () (.ok tree') () := by
  obtain ⟨g, p, tree, tree', hg, hp, hall, h1⟩ : ∃ g p tree tree',
      Grammar.new (HashOrder.id Nat) 0 1 [⟨1, [10, 2]⟩, ⟨2, [11]⟩, ⟨2, [0]⟩, ⟨3, [1, 12]⟩] = .ok g ∧
      Built (σ := Unit) (L := Unit) (HashOrder.id Nat) g none p ∧
      (∀ x ∈ [1, 2, 2, 3], ∀ a ∈ [10, 2, 11, 0, 1, 12],
        ((p.transitions.getProductions x a).getD []).length ≤ 1) ∧
      Parses p [⟨none, 10⟩, ⟨none, 12⟩] () (.ok tree) () ∧ ParsePanics p [⟨none, 10⟩] () ∧
      Parses p [⟨none, 10⟩, ⟨none, 11⟩, ⟨none, 12⟩] () (.ok tree') () ∧
      Parses p [⟨none, 10⟩, ⟨none, 11⟩] () (.ok tree') () :=
    ⟨_, _, _, _, rfl, Parser.built_of_eval (n := 10) rfl, by decide, Parser.parse_returns (n := 20) rfl,
      Parser.parse_panics (n := 20) (e := .unwrapNone) rfl, Parser.parse_returns (n := 20) rfl,
      Parser.parse_returns (n := 20) rfl⟩
  exact ⟨g, p, tree, tree', hg, hp, conflictFree_of_check hg hp hall, h1⟩

/-- With conflicts parsing again may give another tree: in `S → B b | a b`, `B → A`, `A → a b d | a` the input
`a b d` gives `S → a b` over the first two tokens (`A` takes all of them, which is not reconsidered), but `a b`
alone gives `S → B b`. -/
theorem C63_conflicts_reparse : ∃ g p tree tree',
    Grammar.new (HashOrder.id Nat) 0 1
      [⟨1, [2, 11]⟩, ⟨1, [10, 11]⟩, ⟨2, [3]⟩, ⟨3, [10, 11, 12]⟩, ⟨3, [10]⟩] = .ok g ∧
    Built (σ := Unit) (L := Unit) (HashOrder.id Nat) g none p ∧
    Parses p [⟨none, 10⟩, ⟨none, 11⟩, ⟨none, 12⟩] () (.ok tree) () ∧
    (leaves 0 tree.root).length = 2 ∧
    Parses p [⟨none, 10⟩, ⟨none, 11⟩] () (.ok tree') () ∧ tree ≠ tree' := by
  refine ⟨_, _, _, _, rfl, Parser.built_of_eval (n := 10) rfl, Parser.parse_returns (n := 20) rfl, rfl,
    Parser.parse_returns (n := 20) rfl, ?_⟩
  intro h
  cases h

/-- With conflicts the result may depend on tokens further behind: `S → a b c | a` on `a b c` and on
`a b d`. -/
theorem C63_conflicts_read_further : ∃ g p tree tree',
    Grammar.new (HashOrder.id Nat) 0 1 [⟨1, [10, 11, 12]⟩, ⟨1, [10]⟩] = .ok g ∧
    Built (σ := Unit) (L := Unit) (HashOrder.id Nat) g none p ∧
    Parses p [⟨none, 10⟩, ⟨none, 11⟩, ⟨none, 13⟩] () (.ok tree) () ∧
    (leaves 0 tree.root).length = 1 ∧
    Parses p [⟨none, 10⟩, ⟨none, 11⟩, ⟨none, 12⟩] () (.ok tree') () ∧ tree ≠ tree' := by
  refine ⟨_, _, _, _, rfl, Parser.built_of_eval (n := 10) rfl, Parser.parse_returns (n := 20) rfl, rfl,
    Parser.parse_returns (n := 20) rfl, ?_⟩
  intro h
  cases h

end Verif.Props
