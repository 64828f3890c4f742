import Verif.Proof.Edit
import Verif.Props.LL1
import Verif.Props.Results
import Verif.Props.ErrorsOnly
import Verif.Props.Compose

/-!
# Property C107: printing trees, editing trees and reparsing a part of the input
-/

namespace Verif.Props

open Verif.Spec

variable {σ τ L T : Type} [DecidableEq T]

section
variable (h : HashOrder T) (eps init : T) (ps : List (Production T)) (g : Grammar T)
  (hg : Grammar.new h eps init ps = .ok g)
include hg

/-- **C107**, for trees. If a node of a parse tree is replaced by a parse tree of the same symbol, the result is a parse
tree, and its tokens are those of the new node with the tokens of the old tree that stood around the old node. This holds
for every grammar. -/
theorem C107_trees (x : T) (w w' u v : List (Token L T)) (m m' n n' : Node L T) (hn : IsTree eps ps x w n)
    (hr : NodeReplaced eps m m' n n' u v) (hm : IsTree eps ps m.token.tType w' m') :
    w = u ++ (leaves eps m ++ v) ∧ IsTree eps ps x (u ++ (w' ++ v)) n' :=
  let ⟨h1, h2, _⟩ := Edit.replaced (Grammar.grammarOf_of_new hg).wf hr hn hm
  ⟨h1, h2⟩

variable (p : Parser σ L T) (hp : Built h g none p) (hcf : ConflictFree p.transitions) (hadj : NoAdjacentRepeat ps)
  (e : T) (hem : EndMarked eps init e ps)
include hp hcf hadj hem

/-- **C107**, printing. In an end-marked grammar with a table without conflicts, writing down the tokens of a parse tree
and parsing them gives the tree back, lexemes included, whatever comes behind. -/
theorem C107_print (hinit : IsNonTerminal ps init) (w rest : List (Token L T)) (n : Node L T)
    (hn : IsTree eps ps init w n) (s : σ) : Parses p (leaves eps n ++ rest) s (.ok ⟨n⟩) s := by
  have hwf := (Grammar.grammarOf_of_new hg).wf
  rw [isTree_leaves hwf hn]
  exact C21_ll1_complete h eps init ps g hg p hp hcf hadj hinit w rest n hn
    (.inr (Parser.not_endsEmpty_of_endMarked hwf hem hinit hn)) s

/-- **C107**, editing. If in the tree of an accepted input a node is replaced by a parse tree of the same symbol, then the
input with the tokens of the node replaced by those of the new one is accepted, and the result is the edited tree. -/
theorem C107_edit (tokens : List (Token L T)) (s s' : σ) (tree : Tree L T) (hr : Parses p tokens s (.ok tree) s')
    (m m' n' : Node L T) (u v w' : List (Token L T)) (hrep : NodeReplaced eps m m' tree.root n' u v)
    (hm : IsTree eps ps m.token.tType w' m') :
    ∃ rest, tokens = u ++ (leaves eps m ++ (v ++ rest)) ∧
      ∀ s₁, Parses p (u ++ (w' ++ (v ++ rest))) s₁ (.ok ⟨n'⟩) s₁ := by
  have hwf := (Grammar.grammarOf_of_new hg).wf
  obtain ⟨k, hk, hinit, h1, -, -⟩ := ok_tree (Parser.tableParser_of_built hg hp).1.toParserOf hr
  obtain ⟨e1, h2⟩ := C107_trees h eps init ps g hg init _ w' u v m m' _ n' h1 hrep hm
  refine ⟨tokens.drop k, ?_, fun s₁ => ?_⟩
  · conv_lhs => rw [← List.take_append_drop k tokens, e1]
    simp
  · have := C107_print h eps init ps g hg p hp hcf hadj e hem hinit _ (tokens.drop k) n' h2 s₁
    rw [isTree_leaves hwf h2] at this
    simpa using this

/-- **C107**, with a solver. Neither does a solver change this. -/
theorem C107_edit_solver (h' : HashOrder T) (g' : Grammar T) (hg' : Grammar.new h' eps init ps = .ok g') (sv : Solver τ L T)
    (p' : Parser τ L T) (hp' : Built h' g' (some sv) p') (s₀ : σ)
    (tokens : List (Token L T)) (s s' : τ) (tree : Tree L T) (hr : Parses p' tokens s (.ok tree) s')
    (m m' n' : Node L T) (u v w' : List (Token L T)) (hrep : NodeReplaced eps m m' tree.root n' u v)
    (hm : IsTree eps ps m.token.tType w' m') :
    ∃ rest, tokens = u ++ (leaves eps m ++ (v ++ rest)) ∧
      ∀ s₁, Parses p' (u ++ (w' ++ (v ++ rest))) s₁ (.ok ⟨n'⟩) s₁ := by
  have H := fun tk t => (C58_only_errors_change h h' eps init ps g g' hg hg' p hp hcf sv p' hp' tk s₀ t).1
  obtain ⟨-, h1⟩ := (H tokens s tree s').1 hr
  obtain ⟨rest, h2, h3⟩ := C107_edit h eps init ps g hg p hp hcf hadj e hem tokens s₀ s₀ tree h1 m m' n' u v w' hrep hm
  exact ⟨rest, h2, fun s₁ => (H _ s₁ _ s₁).2 ⟨rfl, h3 s₀⟩⟩

/-- **C107**, parsing a part again. Let a part of an accepted input be exchanged that belongs to a node of the tree with
the non-terminal `x`, and let a parser for the same productions that begins with `x` accept the new part with the tree
`part`, up to its end. Then the whole new input is accepted, and its tree is the old one with `part` in place of the
node: nothing else has to be parsed. -/
theorem C107_reparse (h' : HashOrder T) (x : T) (g' : Grammar T) (hg' : Grammar.new h' eps x ps = .ok g')
    (solver : Option (Solver τ L T)) (p' : Parser τ L T) (hp' : Built h' g' solver p')
    (tokens : List (Token L T)) (s s' : σ) (tree : Tree L T) (hr : Parses p tokens s (.ok tree) s')
    (m : Node L T) (hx : m.token.tType = x) (part : Tree L T) (w' w'' : List (Token L T)) (t t' : τ)
    (hpart : Parses p' (w' ++ w'') t (.ok part) t') (hall : leaves eps part.root = w')
    (n' : Node L T) (u v : List (Token L T)) (hrep : NodeReplaced eps m part.root tree.root n' u v) :
    ∃ rest, tokens = u ++ (leaves eps m ++ (v ++ rest)) ∧
      ∀ s₁, Parses p (u ++ (w' ++ (v ++ rest))) s₁ (.ok ⟨n'⟩) s₁ := by
  obtain ⟨k, hk, -, h1, -, hl⟩ := ok_tree (Parser.tableParser_of_built hg' hp').1.toParserOf hpart
  rw [← hl, hall] at h1
  exact C107_edit h eps init ps g hg p hp hcf hadj e hem tokens s s' tree hr m part.root n' u v w' hrep (by rw [hx]; exact h1)

end

/-- `S → B c $`, `B → A`, `A → a | a b`. -/
def editConflictPs : List (Production Nat) := [⟨1, [2, 12, 13]⟩, ⟨2, [3]⟩, ⟨3, [10]⟩, ⟨3, [10, 11]⟩]

/-- **C107**: with a conflict in the table this fails. `a c $` is accepted; with the node of `A` replaced by the parse
tree of `A` over `a b`, the tokens of the edited tree are `a b c $`, which the parser rejects. -/
theorem C107_conflict_breaks : ∃ g p tree n' m m' f, Grammar.new (HashOrder.id Nat) 0 1 editConflictPs = .ok g ∧
    Built (HashOrder.id Nat) g none (p : Parser Unit Unit Nat) ∧ ¬ ConflictFree p.transitions ∧
    EndMarked 0 1 13 editConflictPs ∧ NoAdjacentRepeat editConflictPs ∧
    Parses p [⟨none, 10⟩, ⟨none, 12⟩, ⟨none, 13⟩] () (.ok tree) () ∧
    NodeReplaced 0 m m' tree.root n' [] [⟨none, 12⟩, ⟨none, 13⟩] ∧
    IsTree 0 editConflictPs m.token.tType [⟨none, 10⟩, ⟨none, 11⟩] m' ∧
    IsTree 0 editConflictPs 1 [⟨none, 10⟩, ⟨none, 11⟩, ⟨none, 12⟩, ⟨none, 13⟩] n' ∧
    Parses p [⟨none, 10⟩, ⟨none, 11⟩, ⟨none, 12⟩, ⟨none, 13⟩] () (.err f) () := by
  have hnt : ∀ y, IsNonTerminal editConflictPs y → y ∈ [1, 2, 3] := by
    rintro y ⟨q, hq, rfl⟩
    revert q
    decide
  have hleaf : ∀ y, y ∈ [10, 11, 12, 13] → IsTree 0 editConflictPs y [⟨none, y⟩] (.mk [] (⟨none, y⟩ : Token Unit Nat)) := by
    intro y hy
    refine .leaf ⟨none, y⟩ (fun hc => ?_) ?_
    · have := hnt y hc
      revert hy this
      generalize y = z
      intro h1 h2
      have : ∀ z ∈ [10, 11, 12, 13], z ∉ [1, 2, 3] := by decide
      exact this z h1 h2
    · rintro rfl
      revert hy
      decide
  have hm' : IsTree 0 editConflictPs 3 [⟨none, 10⟩, ⟨none, 11⟩]
      (.mk [.mk [] ⟨none, 10⟩, .mk [] ⟨none, 11⟩] (⟨none, 3⟩ : Token Unit Nat)) :=
    .node (⟨3, [10, 11]⟩ : Production Nat) [⟨none, 10⟩, ⟨none, 11⟩] _ (by decide)
      (.cons 10 [11] [⟨none, 10⟩] [⟨none, 11⟩] _ _ (hleaf 10 (by decide)) (.cons 11 [] [⟨none, 11⟩] [] _ _ (hleaf 11 (by decide)) .nil))
  obtain ⟨g, p, f, hg, hp, hr, hr', hcell⟩ : ∃ g p f, Grammar.new (HashOrder.id Nat) 0 1 editConflictPs = .ok g ∧
      Built (HashOrder.id Nat) g none (p : Parser Unit Unit Nat) ∧
      Parses p [⟨none, 10⟩, ⟨none, 12⟩, ⟨none, 13⟩] () (.ok ⟨.mk ([] ++ .mk ([] ++ .mk [.mk [] ⟨none, 10⟩] ⟨none, 3⟩ :: []) ⟨none, 2⟩ ::
        [.mk [] ⟨none, 12⟩, .mk [] ⟨none, 13⟩]) ⟨none, 1⟩⟩) () ∧
      Parses p [⟨none, 10⟩, ⟨none, 11⟩, ⟨none, 12⟩, ⟨none, 13⟩] () (.err f) () ∧
      p.transitions.getProductions 3 10 = some [⟨3, [10]⟩, ⟨3, [10, 11]⟩] :=
    ⟨_, _, _, rfl, Parser.built_of_eval (n := 12) rfl, Parser.parse_returns (n := 60) rfl,
      Parser.parse_returns (n := 60) rfl, by decide⟩
  have hrep : NodeReplaced 0 (.mk [.mk [] ⟨none, 10⟩] ⟨none, 3⟩)
      (.mk [.mk [] ⟨none, 10⟩, .mk [] ⟨none, 11⟩] (⟨none, 3⟩ : Token Unit Nat))
      (.mk ([] ++ .mk ([] ++ .mk [.mk [] ⟨none, 10⟩] ⟨none, 3⟩ :: []) ⟨none, 2⟩ ::
        [.mk [] ⟨none, 12⟩, .mk [] ⟨none, 13⟩]) ⟨none, 1⟩) _ [] [⟨none, 12⟩, ⟨none, 13⟩] :=
    .inside [] _ _ [.mk [] ⟨none, 12⟩, .mk [] ⟨none, 13⟩] ⟨none, 1⟩ [] [] (.inside [] _ _ [] ⟨none, 2⟩ [] [] .here)
  obtain ⟨k, hk, -, h1, -, hl⟩ := ok_tree (Parser.tableParser_of_built hg hp).1.toParserOf hr
  refine ⟨g, p, _, _, _, _, f, hg, hp, fun hcf => by simpa using hcf 3 10 _ hcell,
    ⟨by decide, fun hc => by have := hnt 13 hc; revert this; decide, by decide, ?_, by decide⟩, noAdjacentRepeat_of (by decide),
    hr, hrep, hm', ?_, hr'⟩
  · intro q hq hqi
    have : ∀ q ∈ editConflictPs, q.input = 1 → q.output = [2, 12] ++ [13] := by decide
    exact ⟨[2, 12], this q hq hqi, by decide⟩
  · exact (C107_trees (HashOrder.id Nat) 0 1 editConflictPs g hg 1 _ _ _ _ _ _ _ _ h1 hrep hm').2

/-- `S → A $`, `A → B A | ε`, `B → a b | c`. -/
def editPs : List (Production Nat) := [⟨1, [2, 13]⟩, ⟨2, [3, 2]⟩, ⟨2, [0]⟩, ⟨3, [10, 11]⟩, ⟨3, [12]⟩]

private def nodeAB : Node Nat Nat := .mk [.mk [] ⟨some 5, 10⟩, .mk [] ⟨some 6, 11⟩] ⟨none, 3⟩
private def nodeC : Node Nat Nat := .mk [.mk [] ⟨some 7, 12⟩] ⟨none, 3⟩
private def nodeEnd : Node Nat Nat := .mk [.mk [] ⟨none, 0⟩] ⟨none, 2⟩

/-- Non-vacuity: in the tree of `a b c $`, the node of `B` over `c` has `a b` in front of it and `$` behind it; replaced by a
node over `a b` it gives a tree that the parser returns for `a b a b $`. -/
theorem C107_example : ∃ g p n n', Grammar.new (HashOrder.id Nat) 0 1 editPs = .ok g ∧
    Built (HashOrder.id Nat) g none (p : Parser Unit Nat Nat) ∧ ConflictFree p.transitions ∧ NoAdjacentRepeat editPs ∧
    EndMarked 0 1 13 editPs ∧ IsNonTerminal editPs 1 ∧
    Parses p [⟨some 5, 10⟩, ⟨some 6, 11⟩, ⟨some 7, 12⟩, ⟨some 8, 13⟩] () (.ok ⟨n⟩) () ∧
    NodeReplaced 0 nodeC nodeAB n n' [⟨some 5, 10⟩, ⟨some 6, 11⟩] [⟨some 8, 13⟩] ∧
    IsTree 0 editPs 3 [⟨some 5, 10⟩, ⟨some 6, 11⟩] nodeAB ∧
    Parses p [⟨some 5, 10⟩, ⟨some 6, 11⟩, ⟨some 5, 10⟩, ⟨some 6, 11⟩, ⟨some 8, 13⟩] () (.ok ⟨n'⟩) () := by
  have hnt : ∀ y, IsNonTerminal editPs y → y ∈ [1, 2, 3] := by
    rintro y ⟨q, hq, rfl⟩
    revert q
    decide
  obtain ⟨g, p, hg, hp, hr, hr', hall⟩ : ∃ g p, Grammar.new (HashOrder.id Nat) 0 1 editPs = .ok g ∧
      Built (HashOrder.id Nat) g none (p : Parser Unit Nat Nat) ∧
      Parses p [⟨some 5, 10⟩, ⟨some 6, 11⟩, ⟨some 7, 12⟩, ⟨some 8, 13⟩] ()
        (.ok ⟨.mk ([] ++ .mk ([nodeAB] ++ .mk ([] ++ nodeC :: [nodeEnd]) ⟨none, 2⟩ :: []) ⟨none, 2⟩ ::
          [.mk [] ⟨some 8, 13⟩]) ⟨none, 1⟩⟩) () ∧
      Parses p [⟨some 5, 10⟩, ⟨some 6, 11⟩, ⟨some 5, 10⟩, ⟨some 6, 11⟩, ⟨some 8, 13⟩] ()
        (.ok ⟨.mk ([] ++ .mk ([nodeAB] ++ .mk ([] ++ nodeAB :: [nodeEnd]) ⟨none, 2⟩ :: []) ⟨none, 2⟩ ::
          [.mk [] ⟨some 8, 13⟩]) ⟨none, 1⟩⟩) () ∧
      (∀ x ∈ editPs.map (·.input), ∀ a ∈ editPs.flatMap (·.output),
        ((p.transitions.getProductions x a).getD []).length ≤ 1) :=
    ⟨_, _, rfl, Parser.built_of_eval (n := 12) rfl, Parser.parse_returns (n := 60) rfl,
      Parser.parse_returns (n := 60) rfl, by decide⟩
  refine ⟨g, p, _, _, hg, hp, conflictFree_of_check hg hp hall, noAdjacentRepeat_of (by decide),
    ⟨by decide, fun hc => by have := hnt 13 hc; revert this; decide, by decide, ?_, by decide⟩,
    ⟨⟨1, [2, 13]⟩, by decide, rfl⟩, hr, ?_, ?_, hr'⟩
  · intro q hq hqi
    have : ∀ q ∈ editPs, q.input = 1 → q.output = [2] ++ [13] := by decide
    exact ⟨[2], this q hq hqi, by decide⟩
  · exact .inside [] _ _ [.mk [] ⟨some 8, 13⟩] ⟨none, 1⟩ [⟨some 5, 10⟩, ⟨some 6, 11⟩] []
      (.inside [nodeAB] _ _ [] ⟨none, 2⟩ [] [] (.inside [] _ _ [nodeEnd] ⟨none, 2⟩ [] [] .here))
  · have h10 : ¬ IsNonTerminal editPs 10 := fun hc => by have := hnt 10 hc; revert this; decide
    have h11 : ¬ IsNonTerminal editPs 11 := fun hc => by have := hnt 11 hc; revert this; decide
    exact .node (⟨3, [10, 11]⟩ : Production Nat) [⟨some 5, 10⟩, ⟨some 6, 11⟩] _ (by decide)
      (.cons 10 [11] [⟨some 5, 10⟩] [⟨some 6, 11⟩] _ _ (.leaf ⟨some 5, 10⟩ h10 (by decide))
        (.cons 11 [] [⟨some 6, 11⟩] [] _ _ (.leaf ⟨some 6, 11⟩ h11 (by decide)) .nil))

end Verif.Props
