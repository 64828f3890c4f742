import Verif.Proof.Operators
import Verif.Props.Coarser
import Verif.Props.LL1Grammar

/-!
# Property C110: expressions with operators on any number of levels
-/

namespace Verif.Props

open Verif.Spec OpSym

variable {σ L : Type}

section
variable (n : Nat)

/-- **C110**, the grammar: for any number of levels it is accepted by `Grammar::new`, end-marked, without left recursion and
without repeated neighbours. -/
theorem C110_grammar (h : HashOrder OpSym) : (∃ g, Grammar.new h empty start (opsPs n) = .ok g) ∧
    EndMarked empty start stop (opsPs n) ∧ NotLeftRecursive empty (opsPs n) ∧ NoAdjacentRepeat (opsPs n) :=
  ⟨(Grammar.new_eq_ok_iff h _ _ _).2 Ops.wellFormed, Ops.endMarked, Ops.notLeftRecursive, Ops.noAdjacent⟩

/-- **C110**, infix notation: the expressions of level 0 are all infix words, so each infix word has a meaning. -/
theorem C110_infix (w : List (Token L OpSym)) : InfixWord n (w.map (·.tType)) ↔ ∃ e, IsLevel n 0 w e :=
  ⟨fun hw => Ops.level_of_infix hw w rfl, fun ⟨_, he⟩ => Ops.level_infix he⟩

variable (h : HashOrder OpSym) (g : Grammar OpSym) (hg : Grammar.new h empty start (opsPs n) = .ok g)
  (solver : Option (Solver σ L OpSym)) (p : Parser σ L OpSym) (hp : Built h g solver p)
include hg hp

/-- **C110**, the table: for any number of levels it has no conflict. -/
theorem C110_conflict_free : ConflictFree p.transitions :=
  (C43_conflictFree_iff_ll1 h empty start _ g hg solver p hp Ops.noAdjacent Ops.leadAlone).2 Ops.isLL1

/-- **C110.** Expressions are accepted, with any lexemes and whatever stands behind the end marker, with any solver, and the
tree, read with operators applied from left to right, is the expression the left-recursive grammar defines. -/
theorem C110_parses (w rest : List (Token L OpSym)) (l : Option L) (e : OpExpr L) (he : IsLevel n 0 w e) (s : σ) :
    ∃ tree, readTree tree.root = some e ∧ Parses p (w ++ ⟨l, stop⟩ :: rest) s (.ok tree) s := by
  obtain ⟨t, h1, h2⟩ := Ops.whole (Ops.reads_level he).1 l
  have := parses_any_solver hg hp (C110_conflict_free n h g hg solver p hp) Ops.noAdjacent Ops.endMarked
    (Ops.nt_iff.2 (.inl rfl)) _ rest _ h1 s
  exact ⟨⟨t⟩, h2, by simpa using this⟩

/-- **C110**, the converse: what is accepted is an expression in front of an end marker, and the tree reads as this
expression. -/
theorem C110_ok (tokens : List (Token L OpSym)) (s s' : σ) (tree : Tree L OpSym) (hr : Parses p tokens s (.ok tree) s') :
    ∃ w l rest e, tokens = w ++ ⟨l, stop⟩ :: rest ∧ IsLevel n 0 w e ∧ readTree tree.root = some e := by
  obtain ⟨k, -, -, h1, -, -⟩ := ok_tree (Parser.tableParser_of_built hg hp).1.toParserOf hr
  obtain ⟨v, hv, e1⟩ := Ops.good_tree h1 (.inl rfl)
  obtain ⟨w, r, e2, h3, h4⟩ := List.map_eq_append_iff.1 e1
  obtain ⟨⟨l, x⟩, r', rfl, h5, h6⟩ := List.map_eq_cons_iff.1 h4
  rw [List.map_eq_nil_iff.1 h6] at e2
  simp only at h5
  subst h5
  obtain ⟨e, he⟩ := Ops.level_of_infix hv w h3
  have htok : tokens = w ++ ⟨l, stop⟩ :: tokens.drop k := by
    conv_lhs => rw [← List.take_append_drop k tokens, e2]
    simp
  obtain ⟨tree', h7, h8⟩ := C110_parses n h g hg solver p hp w (tokens.drop k) l e he s
  rw [← htok] at h8
  have := congrArg Prod.fst (Returns.det hr h8)
  simp only [ParseResult.ok.injEq] at this
  exact ⟨w, l, _, e, htok, he, this ▸ h7⟩

/-- **C110**, printing: an expression, printed with parentheses where the levels ask for them, and parsed, reads as the same
expression. -/
theorem C110_print (e : OpExpr L) (he : e.Below n) (rest : List (Token L OpSym)) (l : Option L) (s : σ) :
    ∃ tree, readTree tree.root = some e ∧ Parses p (printExpr 0 e ++ ⟨l, stop⟩ :: rest) s (.ok tree) s :=
  C110_parses n h g hg solver p hp _ rest l e (Ops.level_print he 0 (Nat.zero_le n)) s

omit hp in
/-- **C110**, decision: an input with one end marker, at its end, is accepted if in front of it stands an infix word, and is
rejected with `Err` otherwise. -/
theorem C110_decides (p : Parser σ L OpSym) (hp : Built h g none p) (tokens : List (Token L OpSym)) (t : Token L OpSym)
    (ht : t.tType = stop) (hno : ∀ u ∈ tokens, u.tType ≠ stop) (s : σ) :
    (InfixWord n (tokens.map (·.tType)) → ∃ tree, Parses p (tokens ++ [t]) s (.ok tree) s) ∧
    (¬ InfixWord n (tokens.map (·.tType)) → ∃ f s', Parses p (tokens ++ [t]) s (.err f) s') := by
  obtain ⟨l, x⟩ := t
  simp only at ht
  subst ht
  constructor
  · intro hw
    obtain ⟨e, he⟩ := Ops.level_of_infix hw tokens rfl
    obtain ⟨tree, -, h2⟩ := C110_parses n h g hg none p hp tokens [] l e he s
    exact ⟨tree, h2⟩
  · intro hw
    refine (C22_decides h empty start _ g hg p hp (C110_conflict_free n h g hg none p hp) Ops.noAdjacent
      Ops.notLeftRecursive stop Ops.endMarked _ ⟨tokens, ⟨l, stop⟩, rfl, rfl, hno⟩ s).2 fun hc => hw ?_
    obtain ⟨t, h1⟩ := Parser.tree_of_sentence (L := L) hc
    obtain ⟨v, hv, e1⟩ := Ops.good_tree h1 (.inl rfl)
    rw [List.map_append] at e1
    rw [(List.append_inj' e1 rfl).1]
    exact hv

end

/-- **C110**: so an infix word has one meaning. -/
theorem C110_one_meaning (n : Nat) (w : List (Token L OpSym)) (e e' : OpExpr L) (he : IsLevel n 0 w e)
    (he' : IsLevel n 0 w e') : e = e' := by
  obtain ⟨g, hg⟩ := (C110_grammar n (HashOrder.id OpSym)).1
  obtain ⟨p, hp⟩ := Parser.built_exists (σ := Unit) (L := L) hg none
  obtain ⟨t, h1, h2⟩ := C110_parses n _ g hg none p hp w [] none e he ()
  obtain ⟨t', h1', h2'⟩ := C110_parses n _ g hg none p hp w [] none e' he' ()
  have := congrArg Prod.fst (Returns.det h2 h2')
  simp only [ParseResult.ok.injEq] at this
  rw [this, h1'] at h1
  simpa using h1.symm

/-- `a - b * (c - d) - e`, with `-` of level 0 and `*` of level 1. -/
def exampleExpr : OpExpr Nat :=
  .bin 0 (.bin 0 (.atom (some 1)) (.bin 1 (.atom (some 2)) (.bin 0 (.atom (some 3)) (.atom (some 4))))) (.atom (some 5))

/-- **C110**: what this expression is printed as, that it is accepted, and that with the operands of the last operator
exchanged it is another expression, printed with parentheses. -/
theorem C110_example : exampleExpr.Below 2 ∧
    (printExpr 0 exampleExpr).map (·.tType) = [atom, op 0, atom, op 1, lp, atom, op 0, atom, rp, op 0, atom] ∧
    (printExpr 0 (.bin 0 (.atom (some 1)) (.bin 0 (.atom (some 2)) (.atom (some 3))) : OpExpr Nat)).map (·.tType) =
      [atom, op 0, lp, atom, op 0, atom, rp] ∧
    ∃ g p tree, Grammar.new (HashOrder.id OpSym) empty start (opsPs 2) = .ok g ∧
      Built (HashOrder.id OpSym) g none (p : Parser Unit Nat OpSym) ∧
      Parses p [⟨some 1, atom⟩, ⟨none, op 0⟩, ⟨some 2, atom⟩, ⟨none, op 0⟩, ⟨some 3, atom⟩, ⟨none, stop⟩] () (.ok tree) () ∧
      readTree tree.root = some (.bin 0 (.bin 0 (.atom (some 1)) (.atom (some 2))) (.atom (some 3))) := by
  refine ⟨by simp [exampleExpr, OpExpr.Below], by simp [exampleExpr, printExpr], by simp [printExpr], ?_⟩
  obtain ⟨g, hg⟩ := (C110_grammar 2 (HashOrder.id OpSym)).1
  obtain ⟨p, hp⟩ := Parser.built_exists (σ := Unit) (L := Nat) hg none
  obtain ⟨t, h1, h2⟩ := C110_print 2 _ g hg none p hp
    (.bin 0 (.bin 0 (.atom (some 1)) (.atom (some 2))) (.atom (some 3))) (by simp [OpExpr.Below]) [] none ()
  exact ⟨g, p, t, hg, hp, by simpa [printExpr] using h2, h1⟩

end Verif.Props
