import Verif.Spec.Rewrite
import Verif.Spec.EndMarker
import Verif.Spec.ParseTree
import Verif.Spec.Augment

/-!
# Specification: brackets, optional parts and lists with separators
-/

namespace Verif.Spec

variable {L T : Type} [DecidableEq T]

/-- The grammar with `start → op a cl` in front. -/
def bracketed (start op a cl : T) (ps : List (Production T)) : List (Production T) :=
  ⟨start, [op, a, cl]⟩ :: ps

/-- `start` and `cl` are new symbols and `op` is a terminal, all different. -/
structure Brackets (eps : T) (ps : List (Production T)) (start op cl : T) : Prop where
  new_start : NewSymbol eps ps start
  new_cl : NewSymbol eps ps cl
  op_ne_eps : op ≠ eps
  op_terminal : ¬ IsNonTerminal ps op
  differ : start ≠ op ∧ start ≠ cl ∧ op ≠ cl

/-- The grammar with `opt → a` and `opt → eps` in front. -/
def optional (eps opt a : T) (ps : List (Production T)) : List (Production T) :=
  ⟨opt, [a]⟩ :: ⟨opt, [eps]⟩ :: ps

/-- The grammar with `list → a rest`, `rest → sep a rest` and `rest → eps` in front. -/
def separated (eps list rest sep a : T) (ps : List (Production T)) : List (Production T) :=
  ⟨list, [a, rest]⟩ :: ⟨rest, [sep, a, rest]⟩ :: ⟨rest, [eps]⟩ :: ps

/-- Three different new symbols. -/
structure Separators (eps : T) (ps : List (Production T)) (list rest sep : T) : Prop where
  new_list : NewSymbol eps ps list
  new_rest : NewSymbol eps ps rest
  new_sep : NewSymbol eps ps sep
  differ : list ≠ rest ∧ list ≠ sep ∧ rest ≠ sep

/-- The tree of `rest` over separators and trees: each separator and tree have the rest at their right. -/
def restTree (eps rest : T) : List (Token L T × Node L T) → Node L T
  | [] => .mk [.mk [] ⟨none, eps⟩] ⟨none, rest⟩
  | (t, n) :: l => .mk [.mk [] t, n, restTree eps rest l] ⟨none, rest⟩

/-- The tree of `list` over a tree and what comes behind it. -/
def listTree (eps list rest : T) (n : Node L T) (l : List (Token L T × Node L T)) : Node L T :=
  .mk [n, restTree eps rest l] ⟨none, list⟩

end Verif.Spec
