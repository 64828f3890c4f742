/-!
# Tokens and abstract syntax trees (src/token/token.rs, src/ast/*.rs)
-/

namespace Verif

/-- `Token<TLex, TSyntax>`, token/token.rs:1-4. `Token::new` (6-10) is the constructor. -/
structure Token (L T : Type) where
  lex : Option L
  tType : T
  deriving DecidableEq, Repr

/-- `Token::clone`, token/token.rs:12-16: both fields cloned. -/
def Token.clone {L T : Type} (t : Token L T) : Token L T := ⟨t.lex, t.tType⟩

/-- `PartialEq::eq` for `Token`, token/token.rs:19-21: only the types are compared. -/
def Token.eq {L T : Type} [DecidableEq T] (a b : Token L T) : Bool := decide (a.tType = b.tType)

/-- `PartialEq::ne` for `Token`, token/token.rs:23-25. -/
def Token.ne {L T : Type} [DecidableEq T] (a b : Token L T) : Bool := decide (a.tType ≠ b.tType)

/-- `AbstractSyntaxNode<Token<TLex, TSyntax>>`, ast/abstract_syntax_node.rs:1-4; the constructor is
`AbstractSyntaxNode::new` (6-13). -/
inductive Node (L T : Type) where
  | mk (childNodes : List (Node L T)) (token : Token L T)
  deriving Repr

/-- Field `child_nodes`, ast/abstract_syntax_node.rs:2. -/
def Node.childNodes {L T : Type} : Node L T → List (Node L T)
  | .mk c _ => c

/-- Field `token`, ast/abstract_syntax_node.rs:3. -/
def Node.token {L T : Type} : Node L T → Token L T
  | .mk _ t => t

/-- `AbstractSyntaxTree`, ast/abstract_syntax_tree.rs:3-11. -/
structure Tree (L T : Type) where
  root : Node L T
  deriving Repr

end Verif
