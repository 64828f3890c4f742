import Verif.Model.Token
import Verif.Model.Grammar

/-!
# Specification: statements with an optional `else`

The textbook grammar with the dangling `else`, with its productions in two orders.
-/

namespace Verif.Spec

/-- The symbols. -/
inductive ElseSym where
  /-- epsilon -/
  | empty
  /-- the initial symbol -/
  | start
  /-- the end marker -/
  | stop
  /-- statements -/
  | stmt
  /-- what may come behind the statement of an `if` -/
  | tail
  /-- a statement without parts -/
  | other
  /-- `if`, with its condition -/
  | iff
  /-- `else` -/
  | els
  deriving DecidableEq

open ElseSym

/-- The grammar, with the production for `else` in front of the one without. -/
def elseFirst : List (Production ElseSym) :=
  [⟨start, [stmt, stop]⟩, ⟨stmt, [other]⟩, ⟨stmt, [iff, stmt, tail]⟩, ⟨tail, [els, stmt]⟩, ⟨tail, [empty]⟩]

/-- The grammar, with the production for `else` behind the one without. -/
def elseLast : List (Production ElseSym) :=
  [⟨start, [stmt, stop]⟩, ⟨stmt, [other]⟩, ⟨stmt, [iff, stmt, tail]⟩, ⟨tail, [empty]⟩, ⟨tail, [els, stmt]⟩]

/-- The words of the language of statements. -/
inductive IsStmt : List ElseSym → Prop where
  | other : IsStmt [.other]
  | ifThen (w : List ElseSym) : IsStmt w → IsStmt (iff :: w)
  | ifElse (w w' : List ElseSym) : IsStmt w → IsStmt w' → IsStmt (iff :: w ++ els :: w')

/-- Statements, with the lexemes of their tokens. -/
inductive IfStmt (L : Type) where
  | plain (l : Option L)
  | ifThen (l : Option L) (s : IfStmt L)
  | ifElse (l : Option L) (s : IfStmt L) (l' : Option L) (s' : IfStmt L)

namespace IfStmt

variable {L : Type}

/-- The tokens of a statement. -/
def tokens : IfStmt L → List (Token L ElseSym)
  | .plain l => [⟨l, .other⟩]
  | .ifThen l s => ⟨l, iff⟩ :: s.tokens
  | .ifElse l s l' s' => ⟨l, iff⟩ :: s.tokens ++ ⟨l', els⟩ :: s'.tokens

/-- The statement ends with an `if` without `else`. -/
def Open : IfStmt L → Prop
  | .plain _ => False
  | .ifThen _ _ => True
  | .ifElse _ _ _ s' => s'.Open

/-- Each `else` belongs to the nearest `if` in front of it that has none. -/
def Nearest : IfStmt L → Prop
  | .plain _ => True
  | .ifThen _ s => s.Nearest
  | .ifElse _ s _ s' => ¬ s.Open ∧ s.Nearest ∧ s'.Nearest

/-- The tree of a statement. -/
def tree : IfStmt L → Node L ElseSym
  | .plain l => .mk [.mk [] ⟨l, .other⟩] ⟨none, stmt⟩
  | .ifThen l s => .mk [.mk [] ⟨l, iff⟩, s.tree, .mk [.mk [] ⟨none, empty⟩] ⟨none, tail⟩] ⟨none, stmt⟩
  | .ifElse l s l' s' =>
    .mk [.mk [] ⟨l, iff⟩, s.tree, .mk [.mk [] ⟨l', els⟩, s'.tree] ⟨none, tail⟩] ⟨none, stmt⟩

/-- The tree of a statement and the end marker. -/
def whole (s : IfStmt L) (l : Option L) : Tree L ElseSym := ⟨.mk [s.tree, .mk [] ⟨l, stop⟩] ⟨none, start⟩⟩

end IfStmt

end Verif.Spec
