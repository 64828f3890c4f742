import Verif.Spec.EndMarker

/-!
# Specification: rewriting a grammar for predictive parsing

The textbook transformations: removal of immediate left recursion, left factoring, unfolding (replacing a
non-terminal by its productions), folding (giving a name to a part of an output), and dropping what is not used.
None of them is in the code base; users of the parser apply them to their grammars.
-/

namespace Verif.Spec

variable {T : Type} [DecidableEq T]

/-- `x` is a new symbol: not `eps`, and it occurs in no production. -/
def NewSymbol (eps : T) (ps : List (Production T)) (x : T) : Prop :=
  x ≠ eps ∧ ∀ p ∈ ps, p.input ≠ x ∧ x ∉ p.output

/-- What becomes of one production when the immediate left recursion of `a` is removed with the new symbol `b`:
`a → a α` becomes `b → α b`, `a → a` goes away, any other `a → β` becomes `a → β b`. -/
def unrecurseOne (eps a b : T) (q : Production T) : List (Production T) :=
  if q.input = a then
    if q.output.head? = some a then
      if q.output.tail = [] then [] else [⟨b, q.output.tail ++ [b]⟩]
    else [⟨a, rhs eps q ++ [b]⟩]
  else [q]

/-- The grammar without the immediate left recursion of `a`: the productions rewritten, and `b → eps`. -/
def unrecurse (eps a b : T) (ps : List (Production T)) : List (Production T) :=
  ps.flatMap (unrecurseOne eps a b) ++ [⟨b, [eps]⟩]

/-- What becomes of one production when `c` is factored out of the productions of `a` that begin with it, with
the new symbol `b`: `a → c β` becomes `b → β` (`b → eps` if `β` is empty). -/
def factorOne (eps a b : T) (c : List T) (q : Production T) : Production T :=
  if q.input = a ∧ c <+: q.output then
    ⟨b, if q.output = c then [eps] else q.output.drop c.length⟩
  else q

/-- The grammar with `c` factored out: `a → c b` in front of the productions rewritten. -/
def factor (eps a b : T) (c : List T) (ps : List (Production T)) : List (Production T) :=
  ⟨a, c ++ [b]⟩ :: ps.map (factorOne eps a b c)

/-- An output, given the symbols: no symbols are written `[eps]`. -/
def outputOf (eps : T) (l : List T) : List T := if l = [] then [eps] else l

/-- The grammar with the production `x → u y v` unfolded at `y`: it is replaced by `x → u β v` for all productions
`y → β`. -/
def unfold (eps x y : T) (u v : List T) (ps : List (Production T)) : List (Production T) :=
  ps.flatMap fun q =>
    if q = ⟨x, u ++ y :: v⟩ then
      (ps.filter (·.input = y)).map fun r => ⟨x, outputOf eps (u ++ rhs eps r ++ v)⟩
    else [q]

/-- The grammar with the production `x → u c v` folded at `c`: it is replaced by `x → u b v` and `b → c`, `b` a
new symbol. -/
def fold (x b : T) (u c v : List T) (ps : List (Production T)) : List (Production T) :=
  ⟨b, c⟩ :: ps.map fun q => if q = ⟨x, u ++ c ++ v⟩ then ⟨x, u ++ b :: v⟩ else q

/-- The grammar without the productions of the symbols `ys`. -/
def drop (ys : List T) (ps : List (Production T)) : List (Production T) := ps.filter (·.input ∉ ys)

/-- Any number of these transformations of a grammar with the initial symbol `init`. To remove the left recursion
of `a` it needs a production that does not begin with `a`; what is factored out must begin some production of `a`,
and what is folded must occur in the production; both must be neither empty nor contain `eps`. Only symbols other
than `init` that no other symbol's productions mention may be dropped. -/
inductive Rewritten (eps init : T) : List (Production T) → List (Production T) → Prop where
  | refl (ps : List (Production T)) : Rewritten eps init ps ps
  | unrecurse {ps ps' : List (Production T)} (a b : T) : Rewritten eps init ps ps' → NewSymbol eps ps' b →
      (∃ q ∈ ps', q.input = a ∧ q.output.head? ≠ some a) → Rewritten eps init ps (unrecurse eps a b ps')
  | factor {ps ps' : List (Production T)} (a b : T) (c : List T) : Rewritten eps init ps ps' →
      NewSymbol eps ps' b → c ≠ [] → eps ∉ c → (∃ q ∈ ps', q.input = a ∧ c <+: q.output) →
      Rewritten eps init ps (factor eps a b c ps')
  | unfold {ps ps' : List (Production T)} (x y : T) (u v : List T) : Rewritten eps init ps ps' →
      IsNonTerminal ps' y → Rewritten eps init ps (unfold eps x y u v ps')
  | fold {ps ps' : List (Production T)} (x b : T) (u c v : List T) : Rewritten eps init ps ps' →
      NewSymbol eps ps' b → c ≠ [] → eps ∉ c → ⟨x, u ++ c ++ v⟩ ∈ ps' →
      Rewritten eps init ps (fold x b u c v ps')
  | drop {ps ps' : List (Production T)} (ys : List T) : Rewritten eps init ps ps' → init ∉ ys →
      (∀ q ∈ ps', q.input ∉ ys → ∀ y ∈ ys, y ∉ q.output) → Rewritten eps init ps (drop ys ps')

end Verif.Spec
