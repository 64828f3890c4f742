import Verif.Proof.Subtree
import Verif.Props.Predictive
import Verif.Props.Grammar

/-!
# Property C74: the initial symbol
-/

set_option linter.unusedSectionVars false

namespace Verif.Props

open Verif.Spec Verif.Examples

variable {σ τ L T : Type} [DecidableEq T]

/-- **C74.** Which symbol is the initial one does not decide whether `ContextFreeGrammar::new` panics, … -/
theorem C74_new_returns (h h' : HashOrder T) (eps init init' : T) (ps : List (Production T)) :
    (∃ g, Grammar.new h eps init ps = .ok g) ↔ ∃ g, Grammar.new h' eps init' ps = .ok g := by
  rw [C01_new_returns_iff, C01_new_returns_iff]

/-- … nor what the FIRST and FOLLOW sets are, … -/
theorem C74_first_follow (h h' : HashOrder T) (eps init init' : T)
    (ps : List (Production T)) (g g' : Grammar T) (ff ff' : FirstFollow T)
    (hg : Grammar.new h eps init ps = .ok g) (hg' : Grammar.new h' eps init' ps = .ok g')
    (hff : Returns (fun n => FirstFollow.from h n g) ff)
    (hff' : Returns (fun n => FirstFollow.from h' n g') ff') (x : T) :
    ((ff.getFirstSymbols x).isSome = (ff'.getFirstSymbols x).isSome ∧
      ∀ s s', ff.getFirstSymbols x = some s → ff'.getFirstSymbols x = some s' → ∀ a, a ∈ s ↔ a ∈ s') ∧
    ((ff.getFollowSymbols x).isSome = (ff'.getFollowSymbols x).isSome ∧
      ∀ s s', ff.getFollowSymbols x = some s → ff'.getFollowSymbols x = some s' →
        ∀ a, a ∈ s ↔ a ∈ s') := by
  have S := first_follow_spec hg hff
  have S' := first_follow_spec hg' hff'
  refine ⟨⟨?_, ?_⟩, ⟨?_, ?_⟩⟩
  · rw [Bool.eq_iff_iff]
    exact (S.first.inv.dom x).trans (S'.first.inv.dom x).symm
  · intro s s' hs hs' a
    have hl : FirstFollow.look ff.firstSymbols x = s := FirstFollow.look_of_get hs
    have hl' : FirstFollow.look ff'.firstSymbols x = s' := FirstFollow.look_of_get hs'
    have hk := (S.first.inv.dom x).1 (by
      show (ff.firstSymbols.get x).isSome
      unfold FirstFollow.getFirstSymbols at hs
      rw [hs]; rfl)
    rw [← hl, ← hl']
    by_cases hx : IsNonTerminal ps x
    · rw [S.first.mem_nt x hx, S'.first.mem_nt x hx]
    · have ht := hk.resolve_left hx
      rw [FirstFollow.look_of_get (S.first.inv.term x ht),
        FirstFollow.look_of_get (S'.first.inv.term x ht)]
  · rw [Bool.eq_iff_iff]
    exact (S.follow.dom x).trans (S'.follow.dom x).symm
  · intro s s' hs hs' a
    have hl : FirstFollow.look ff.followSymbols x = s := FirstFollow.look_of_get hs
    have hl' : FirstFollow.look ff'.followSymbols x = s' := FirstFollow.look_of_get hs'
    rw [← hl, ← hl', S.follow.mem, S'.follow.mem]

/-- … nor what any cell of the parsing table is. -/
theorem C74_table (h h' : HashOrder T) (eps init init' : T) (ps : List (Production T)) (g g' : Grammar T)
    (hg : Grammar.new h eps init ps = .ok g) (hg' : Grammar.new h' eps init' ps = .ok g')
    (solver : Option (Solver σ L T)) (solver' : Option (Solver τ L T)) (p : Parser σ L T)
    (p' : Parser τ L T) (hp : Built h g solver p) (hp' : Built h' g' solver' p') (A a : T) :
    p.transitions.getProductions A a = p'.transitions.getProductions A a := by
  obtain ⟨ff, hff, e⟩ := (Parser.built_iff hg).1 hp
  obtain ⟨ff', hff', e'⟩ := (Parser.built_iff hg').1 hp'
  obtain ⟨S, hS, hL⟩ := table_spec hg hff (Parser.from_eq_ok e).2.2
  obtain ⟨S', hS', hL'⟩ := table_spec hg' hff' (Parser.from_eq_ok e').2.2
  by_cases hc : IsNonTerminal ps A ∧ IsTerminal ps a
  · rw [hS.some A a hc.1 hc.2, hS'.some A a hc.1 hc.2]
    congr 1
    apply List.filter_congr
    intro q hq
    rw [decide_eq_decide, hL q hq, hL' q hq]
  · rw [hS.none A a hc, hS'.none A a hc]

/-- **C74**, subtrees: without conflicts, every subtree for a non-terminal of an `Ok` tree is what the parser
with this non-terminal for its initial symbol returns for the tokens from some position on (with any hash
orders, solvers and solver states). -/
theorem C74_subtrees (h h' : HashOrder T) (eps init x : T) (ps : List (Production T)) (g g' : Grammar T)
    (hg : Grammar.new h eps init ps = .ok g) (hg' : Grammar.new h' eps x ps = .ok g')
    (solver : Option (Solver σ L T)) (solver' : Option (Solver τ L T)) (p : Parser σ L T)
    (p' : Parser τ L T) (hp : Built h g solver p) (hp' : Built h' g' solver' p')
    (hcf : ConflictFree p.transitions) (tokens : List (Token L T)) (s s' : σ) (tree : Tree L T)
    (hr : Parses p tokens s (.ok tree) s') (m : Node L T) (hm : Subtree m tree.root)
    (hx : m.token.tType = x) (hnt : IsNonTerminal ps x) (s₁ : τ) :
    ∃ i, Parses p' (tokens.drop i) s₁ (.ok ⟨m⟩) s₁ := by
  have htab := C74_table h h' eps init x ps g g' hg hg' solver solver' p p' hp hp'
  have hcf' : ConflictFree p'.transitions := by
    intro A a l hl
    rw [← htab] at hl
    exact hcf A a l hl
  have hcand : candidates p'.transitions = candidates p.transitions := by
    funext A a
    unfold candidates
    rw [htab]
  obtain ⟨k, hk⟩ := C70_ok_predicted h eps init ps g hg p (.inl ⟨_, hp⟩) tokens s s' tree hr
  obtain ⟨y, a, b, h1⟩ := hk.subtree hm
  have hy : y = x := by rw [← h1.label, hx]
  subst hy
  have h2 := (h1.shift a (Nat.le_refl a)).1
  rw [Nat.sub_self] at h2
  exact ⟨a, (C70_conflict_free_exact h' eps y ps g' hg' p' (.inl ⟨_, hp'⟩) hcf' hnt _ s₁ s₁ ⟨m⟩).2
    ⟨rfl, _, by rw [hcand]; exact h2⟩⟩

/-- The hypotheses are met: the expression grammar with the initial symbols `S` and `E`, and the subtree for
`E` of the tree of `id $`. -/
example : ∃ (g g' : Grammar Nat) (p p' : Parser Unit Unit Nat) (tree : Tree Unit Nat) (m : Node Unit Nat),
    Grammar.new (HashOrder.id Nat) 0 1 exprPs = .ok g ∧ Grammar.new (HashOrder.rev Nat) 0 2 exprPs = .ok g' ∧
    Built (HashOrder.id Nat) g none p ∧ Built (HashOrder.rev Nat) g' none p' ∧
    ConflictFree p.transitions ∧
    Parses p [⟨none, 15⟩, ⟨none, 16⟩] () (.ok tree) () ∧ Subtree m tree.root ∧ m.token.tType = 2 ∧
    Parses p' [⟨none, 15⟩, ⟨none, 16⟩] () (.ok ⟨m⟩) () := by
  obtain ⟨g, p, hg, hp, hr, hm⟩ : ∃ (g : Grammar Nat) (p : Parser Unit Unit Nat),
      Grammar.new (HashOrder.id Nat) 0 1 exprPs = .ok g ∧ Built (HashOrder.id Nat) g none p ∧
      ∃ (tree : Tree Unit Nat) (m : Node Unit Nat) (hr : Parses p [⟨none, 15⟩, ⟨none, 16⟩] () (.ok tree) ()),
        Subtree m tree.root ∧ m.token.tType = 2 ∧
        ∃ (g' : Grammar Nat) (p' : Parser Unit Unit Nat), Grammar.new (HashOrder.rev Nat) 0 2 exprPs = .ok g' ∧
          Built (HashOrder.rev Nat) g' none p' ∧ Parses p' [⟨none, 15⟩, ⟨none, 16⟩] () (.ok ⟨m⟩) () :=
    ⟨_, _, rfl, Parser.built_of_eval (n := 10) rfl, _, _, Parser.parse_returns (n := 30) rfl,
      .child _ _ _ (.head _) .self, rfl, _, _, rfl, Parser.built_of_eval (n := 10) rfl,
      Parser.parse_returns (n := 30) rfl⟩
  obtain ⟨m, h1, h2, h3, g', p', h4, h5, h6⟩ := hm
  exact ⟨g, g', p, p', hr, m, hg, h4, hp, h5, exprPs_conflictFree p _ g hg none hp, h1, h2, h3, h6⟩

/-- With conflicts it fails: `S → A b $`, `A → a | a b` on `a b b $`. The tree has `A → a b` in it, but the
parser with the initial symbol `A` returns `A → a` on every rest of the input that it accepts. -/
theorem C74_conflicts : ∃ (ps : List (Production Nat)) (g g' : Grammar Nat) (p p' : Parser Unit Unit Nat)
    (tokens : List (Token Unit Nat)) (tree : Tree Unit Nat) (m : Node Unit Nat),
    Grammar.new (HashOrder.id Nat) 0 1 ps = .ok g ∧ Grammar.new (HashOrder.id Nat) 0 2 ps = .ok g' ∧
    Built (HashOrder.id Nat) g none p ∧ Built (HashOrder.id Nat) g' none p' ∧
    Parses p tokens () (.ok tree) () ∧ Subtree m tree.root ∧ m.token.tType = 2 ∧ IsNonTerminal ps 2 ∧
    ¬ ∃ i, Parses p' (tokens.drop i) () (.ok ⟨m⟩) () := by
  refine ⟨[⟨1, [2, 11, 12]⟩, ⟨2, [10]⟩, ⟨2, [10, 11]⟩], _, _, _, _,
    [⟨none, 10⟩, ⟨none, 11⟩, ⟨none, 11⟩, ⟨none, 12⟩], _, _, rfl, rfl, Parser.built_of_eval (n := 10) rfl,
    Parser.built_of_eval (n := 10) rfl, Parser.parse_returns (n := 30) rfl, .child _ _ _ (.head _) .self, rfl,
    ⟨_, .tail _ (.head _), rfl⟩, ?_⟩
  rintro ⟨i, hi⟩
  match i, hi with
  | 0, hi =>
    have := (Parser.Parses.det hi
      (Parser.parse_returns (n := 30) (r := (.ok ⟨.mk [.mk [] ⟨none, 10⟩] ⟨none, 2⟩⟩, ())) rfl)).1
    simp at this
  | 1, hi =>
    have := (Parser.Parses.det hi (Parser.parse_returns (n := 30) rfl)).1
    cases this
  | 2, hi =>
    have := (Parser.Parses.det hi (Parser.parse_returns (n := 30) rfl)).1
    cases this
  | 3, hi =>
    have := (Parser.Parses.det hi (Parser.parse_returns (n := 30) rfl)).1
    cases this
  | _ + 4, hi =>
    obtain ⟨n, hn⟩ := Parser.parses_at hi
    simp [Parser.parseFromTokens] at hn

end Verif.Props
