import Verif.Proof.Depth
import Verif.Props.Termination
import Verif.Props.LL1

/-!
# Property C55: the depth of the recursion
-/

set_option linter.unusedSectionVars false

namespace Verif.Props

open Verif.Spec Verif.Examples

variable {σ L T : Type} [DecidableEq T]

/-- The number of non-terminals: the inputs of the productions, each counted once. -/
def nonTerminalCount (ps : List (Production T)) : Nat := (ps.map (·.input)).dedup.length

/-- **C55.** If the grammar is not left-recursive, and the solver (if any) terminates and its fixes
consume at least one token, then `parse_from_tokens` does what it does within a call stack of at most
`max 1 (number of tokens * number of non-terminals)` nested calls of `inner_parse_from_tokens`, and with
`while` loops whose number of iterations is bounded by the grammar alone: the parser with these bounds
runs into neither of them, and it returns, or panics, exactly as the parser without bounds. -/
theorem C55_recursion_depth (h : HashOrder T) (eps init : T) (ps : List (Production T))
    (g : Grammar T) (hg : Grammar.new h eps init ps = .ok g) (solver : Option (Solver σ L T))
    (p : Parser σ L T) (hp : Built h g solver p) (hnlr : NotLeftRecursive eps ps)
    (tokens : List (Token L T)) (hterm : SolverTerminates solver)
    (hprog : SolverProgress solver tokens) (s : σ) (depth loop : Nat)
    (hdepth : max 1 (tokens.length * nonTerminalCount ps) ≤ depth)
    (hloop : ∀ q ∈ ps, (ps.length + 2) ^ q.output.length ≤ loop) :
    p.parseFromTokensWithin depth loop tokens s ≠ .fuel ∧
    (∀ r s', Parses p tokens s r s' ↔ p.parseFromTokensWithin depth loop tokens s = .ok (r, s')) ∧
    (ParsePanics p tokens s ↔ ∃ e, p.parseFromTokensWithin depth loop tokens s = .panic e) := by
  obtain ⟨P, hs⟩ := Parser.tableParser_of_built hg hp
  have hcard : nonTerminalCount ps = (Parser.nts ps).card := by
    unfold nonTerminalCount Parser.nts
    rw [List.card_toFinset]
  rw [hcard] at hdepth
  have hne := Parser.parseWithin_ends (tokens := tokens) P.toParserOf hnlr (hs ▸ hprog) (hs ▸ hterm)
    hloop (depth := depth) (by omega) (by omega) s
  have heq : p.parseFromTokensWithin depth loop tokens s =
      p.parseFromTokens (loop + depth) tokens s := by
    rcases Parser.parseFromTokensWithin_le p tokens depth loop s with h | h
    · exact absurd h hne
    · exact h
  refine ⟨hne, ?_, ?_⟩
  · intro r s'
    rw [heq]
    constructor
    · rintro ⟨n, hn⟩
      rcases Nat.le_total n (loop + depth) with hle | hle
      · exact hn _ hle
      · have h1 := hn n (Nat.le_refl _)
        rw [heq] at hne
        exact (Parser.parse_mono hle rfl hne).symm.trans h1
    · exact Parser.parse_returns
  · rw [heq]
    constructor
    · rintro ⟨n, e, hn⟩
      rcases Nat.le_total n (loop + depth) with hle | hle
      · exact ⟨e, hn _ hle⟩
      · have h1 := hn n (Nat.le_refl _)
        rw [heq] at hne
        exact ⟨e, (Parser.parse_mono hle rfl hne).symm.trans h1⟩
    · rintro ⟨e, he⟩
      exact Parser.parse_panics he

/-- The hypotheses of C55 are met by the expression grammar: six non-terminals, so `id + id $`
needs no more than 24 nested calls. -/
example : ∃ g p tree, Grammar.new (HashOrder.id Nat) 0 1 exprPs = .ok g ∧
    Built (σ := Unit) (L := Unit) (HashOrder.id Nat) g none p ∧ NotLeftRecursive 0 exprPs ∧
    nonTerminalCount exprPs = 6 ∧
    Parses p [⟨none, 15⟩, ⟨none, 11⟩, ⟨none, 15⟩, ⟨none, 16⟩] () (.ok tree) () :=
  ⟨_, _, _, rfl, Parser.built_of_eval (n := 10) rfl, exprPs_notLeftRecursive, rfl,
    Parser.parse_returns (n := 30) rfl⟩

/-- The list grammar `S → a S | b`, with `S = 1, a = 10, b = 11`. -/
def listPs : List (Production Nat) := [⟨1, [10, 1]⟩, ⟨1, [11]⟩]

theorem list_depth {p : Parser Unit Unit Nat} (h1 : p.getTokenProductions 1 10 = [[10, 1]])
    (h2 : p.grammar.isNonTerminal 1 = true) (h3 : p.grammar.isNonTerminal 10 = false)
    (h4 : p.grammar.epsilonSymbol = 0) (n loop : Nat) (d : Nat) : ∀ pos outs sg s, pos + d ≤ n →
    (0 < d → outs = [[10, 1]]) →
    p.innerParseWithin (List.replicate n ⟨none, 10⟩ ++ [⟨none, 11⟩]) loop d 1 pos outs sg s = .fuel := by
  induction d with
  | zero => intros; rfl
  | succ d ih =>
    intro pos outs sg s hpos ho
    rw [ho (by omega), Parser.innerParseWithin, M.bind_apply, Parser.tryParseProductionsLoop,
      M.bind_apply]
    have hget : ∀ q, q < n → (List.replicate n (⟨none, 10⟩ : Token Unit Nat) ++ [⟨none, 11⟩])[q]? =
        some ⟨none, 10⟩ := by
      intro q hq
      rw [List.getElem?_append_left (by simpa using hq)]
      simp [hq]
    suffices hl : Parser.productionLoop p (List.replicate n ⟨none, 10⟩ ++ [⟨none, 11⟩])
        (Parser.innerParseWithin p (List.replicate n ⟨none, 10⟩ ++ [⟨none, 11⟩]) loop d) 1 [10, 1]
        (Parser.isChildSinglePath sg [[10, 1]]) loop [] pos s = .fuel by rw [hl]
    cases loop with
    | zero => rfl
    | succ loop =>
      rw [Parser.productionLoop]
      simp only [List.length_nil, List.length_cons, Nat.zero_lt_succ, if_true,
        List.getElem?_cons_zero]
      rw [M.bind_apply, Parser.parseProductionSymbol, h3]
      simp only [Parser.parseTerminalSymbol, h4, Parser.parseNonEpsilonTerminalSymbol,
        hget pos (by omega)]
      cases loop with
      | zero => rfl
      | succ loop =>
        simp only [Nat.reduceEqDiff, if_false, if_true]
        change Parser.productionLoop p _ _ 1 [10, 1] _ (loop + 1) [.parsing _] (pos + 1) s = .fuel
        rw [Parser.productionLoop]
        simp only [List.length_nil, List.length_cons, List.getElem?_cons_zero, List.getElem?_cons_succ]
        rw [if_pos (by omega), M.bind_apply, Parser.parseProductionSymbol, if_pos h2,
          Parser.parseProductionNonTerminal]
        cases hg : (List.replicate n (⟨none, 10⟩ : Token Unit Nat) ++ [⟨none, 11⟩])[pos + 1]? with
        | none =>
          rw [List.getElem?_eq_none_iff] at hg
          simp at hg
          omega
        | some t =>
          simp only
          rw [ih _ _ _ _ (by omega)]
          intro hd
          rw [hget (pos + 1) (by omega)] at hg
          cases hg
          exact h1

/-- The bound of C55 cannot be improved in terms of the number of tokens: the list grammar `S → a S | b`
has one non-terminal, and on `a … a b` with `n` symbols `a`, that is with `n + 1` tokens, a call stack of
`n` nested calls is not enough. (So long inputs can exhaust the stack, for a non-left-recursive LL(1)
grammar.) -/
theorem C55_depth_grows : ∃ g p, Grammar.new (HashOrder.id Nat) 0 1 listPs = .ok g ∧
    Built (σ := Unit) (L := Unit) (HashOrder.id Nat) g none p ∧
    ConflictFree p.transitions ∧ NotLeftRecursive 0 listPs ∧
    nonTerminalCount listPs = 1 ∧
    ∀ n loop, p.parseFromTokensWithin n loop (List.replicate n ⟨none, 10⟩ ++ [⟨none, 11⟩]) () = .fuel := by
  obtain ⟨g, p, hg, hp, hall, h1, h2, h3, h4, h5⟩ : ∃ g p,
      Grammar.new (HashOrder.id Nat) 0 1 listPs = .ok g ∧
      Built (σ := Unit) (L := Unit) (HashOrder.id Nat) g none p ∧
      (∀ x ∈ listPs.map (·.input), ∀ a ∈ listPs.flatMap (·.output),
        ((p.transitions.getProductions x a).getD []).length ≤ 1) ∧
      p.getTokenProductions 1 10 = [[10, 1]] ∧ p.grammar.isNonTerminal 1 = true ∧
      p.grammar.isNonTerminal 10 = false ∧ p.grammar.epsilonSymbol = 0 ∧
      p.grammar.initialSymbol = 1 :=
    ⟨_, _, rfl, Parser.built_of_eval (n := 10) rfl, by decide, rfl, rfl, rfl, rfl, rfl⟩
  refine ⟨g, p, hg, hp, conflictFree_of_check hg hp hall, ?_, rfl, ?_⟩
  · exact notLeftRecursive_of_rank (fun _ => false) (fun x => if x = 1 then 1 else 0) (by decide)
  · intro n loop
    cases n with
    | zero => rfl
    | succ n =>
      unfold Parser.parseFromTokensWithin
      rw [if_neg (by simp)]
      have h0 : (List.replicate (n + 1) (⟨none, 10⟩ : Token Unit Nat) ++ [⟨none, 11⟩])[0]? =
          some ⟨none, 10⟩ := rfl
      rw [h0]
      simp only
      rw [M.bind_apply, h5, h1, list_depth h1 h2 h3 h4 (n + 1) loop (n + 1) 0 _ true () (by omega)
        (fun _ => rfl)]

end Verif.Props
