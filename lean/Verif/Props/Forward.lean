import Verif.Proof.ForwardTerm
import Verif.Props.Termination
import Verif.Props.LL1

/-!
# Property C81: solvers whose fixes consume nothing

C19 asks that the fixes of the solver move on. Here is what is left of it without that: a solver that inserts
(its fixes may end where they began, but never before) cannot make the parser loop if the grammar is not
left-recursive even when every non-terminal may vanish; a solver whose fixes may even go back cannot if no
non-terminal is recursive at all. And the hypotheses are needed: an inserting solver makes the parser loop on a
conflict-free grammar without left recursion.
-/

set_option linter.unusedSectionVars false

namespace Verif.Props

open Verif.Spec Verif.Examples

variable {σ L T : Type} [DecidableEq T]

/-- **C81.** With a solver whose calls end and whose fixes never go back (they may consume nothing),
`parse_from_tokens` comes to an end on every token sequence if the grammar is not left-recursive even when
every non-terminal may vanish. -/
theorem C81_insertions (h : HashOrder T) (eps init : T) (ps : List (Production T))
    (g : Grammar T) (hg : Grammar.new h eps init ps = .ok g) (solver : Option (Solver σ L T))
    (p : Parser σ L T) (hp : Built h g solver p) (hnlr : NotLeftRecursive eps (vanishing eps ps))
    (tokens : List (Token L T)) (hterm : SolverTerminates solver)
    (hfwd : ∀ pos r, SolverReturned solver tokens pos r → pos ≤ r.finalTokenPosition) (s : σ) :
    (∃ r s', Parses p tokens s r s') ∨ ParsePanics p tokens s := by
  obtain ⟨P, hs⟩ := Parser.tableParser_of_built hg hp
  obtain ⟨n, hn⟩ := Parser.parse_ends_forward (tokens := tokens) P.toParserOf hnlr (hs ▸ hfwd)
    (hs ▸ hterm) s
  cases e : p.parseFromTokens n tokens s with
  | ok r => exact .inl ⟨r.1, r.2, Parser.parse_returns e⟩
  | panic q => exact .inr (Parser.parse_panics e)
  | fuel => exact absurd e hn

/-- **C81**, any solver: if no non-terminal derives a form that contains itself, `parse_from_tokens` comes to
an end with every solver whose calls end, wherever its fixes say to go on. -/
theorem C81_any_position (h : HashOrder T) (eps init : T) (ps : List (Production T))
    (g : Grammar T) (hg : Grammar.new h eps init ps = .ok g) (solver : Option (Solver σ L T))
    (p : Parser σ L T) (hp : Built h g solver p) (hnr : NotRecursive eps ps)
    (tokens : List (Token L T)) (hterm : SolverTerminates solver) (s : σ) :
    (∃ r s', Parses p tokens s r s') ∨ ParsePanics p tokens s := by
  obtain ⟨P, hs⟩ := Parser.tableParser_of_built hg hp
  obtain ⟨n, hn⟩ := Parser.parse_ends_acyclic (tokens := tokens) P.toParserOf hnr (hs ▸ hterm) s
  cases e : p.parseFromTokens n tokens s with
  | ok r => exact .inl ⟨r.1, r.2, Parser.parse_returns e⟩
  | panic q => exact .inr (Parser.parse_panics e)
  | fuel => exact absurd e hn

/-- A way to see that a grammar is not recursive: a rank that goes down from the input of every production to
the symbols of its right-hand side. -/
theorem notRecursive_of_rank {eps : T} {ps : List (Production T)} (r : T → Nat)
    (h : ps.all (fun q => (rhs eps q).all (fun y => decide (r y < r q.input))) = true) :
    NotRecursive eps ps := by
  have hstep : ∀ a b : List T, Step eps ps a b → ∀ k, (∀ y ∈ a, r y ≤ k) → ∀ y ∈ b, r y ≤ k := by
    intro a b hab k ha y hy
    cases hab with
    | mk u v q hq =>
      simp only [List.mem_append] at hy
      rcases hy with (hy | hy) | hy
      · exact ha y (by simp [hy])
      · simp only [List.all_eq_true, decide_eq_true_eq] at h
        have h1 := h q hq y hy
        have h2 := ha q.input (by simp)
        omega
      · exact ha y (by simp [hy])
  have hder : ∀ a b : List T, Derives eps ps a b → ∀ k, (∀ y ∈ a, r y ≤ k) → ∀ y ∈ b, r y ≤ k := by
    intro a b hab
    induction hab with
    | refl a => exact fun _ h => h
    | step h1 _ ih => exact fun k hk => ih k (hstep _ _ h1 k hk)
  rintro x u v ⟨b, h1, h2⟩
  have hb : ∀ y ∈ b, r y + 1 ≤ r x := by
    generalize ha : [x] = a at h1
    cases h1 with
    | mk u v q hq =>
      have h3 : u = [] ∧ q.input = x ∧ v = [] := by
        cases u with
        | nil => simp at ha; exact ⟨rfl, ha.1.symm, ha.2⟩
        | cons c u => simp at ha
      obtain ⟨rfl, rfl, rfl⟩ := h3
      simp only [List.all_eq_true, decide_eq_true_eq] at h
      intro y hy
      exact h q hq y (by simpa using hy)
  cases hk : r x with
  | zero =>
    have hnil : b = [] := by
      rw [List.eq_nil_iff_forall_not_mem]
      intro y hy
      have := hb y hy
      omega
    subst hnil
    generalize ha : ([] : List T) = a at h2
    generalize hc : u ++ x :: v = c at h2
    cases h2 with
    | refl => rw [← ha] at hc; simp at hc
    | step h3 _ => cases h3; simp at ha
  | succ k =>
    have := hder _ _ h2 k (fun y hy => by have := hb y hy; omega) x (by simp)
    omega

/-- A solver that repairs by insertion: it accepts everything and consumes nothing. -/
def inserting : Solver Unit Unit Nat where
  fixFailedProduction _ pos _ := pure (some ⟨pos, .mk []⟩)
  fixFailedProductions _ pos _ := pure (some ⟨pos, .mk []⟩)

/-- A solver that starts all over: every fix says to go on with the first token. -/
def rewinding : Solver Unit Unit Nat where
  fixFailedProduction _ _ _ := pure (some ⟨0, .mk []⟩)
  fixFailedProductions _ _ _ := pure (some ⟨0, .mk []⟩)

theorem inserting_terminates : SolverTerminates (some inserting) := by
  intro sv hsv
  cases hsv
  exact ⟨fun _ _ _ _ => by simp [inserting], fun _ _ _ _ => by simp [inserting]⟩

theorem inserting_forward (tokens : List (Token Unit Nat)) (pos : Nat) (r : FixResult Unit Nat)
    (h : SolverReturned (some inserting) tokens pos r) : r.finalTokenPosition = pos := by
  obtain ⟨_, sv, s, s', hsv, h⟩ := h
  cases hsv
  rcases h with ⟨f, h⟩ | ⟨f, h⟩ <;>
    · simp only [inserting, M.pure_apply, Out.ok.injEq, Prod.mk.injEq, Option.some.injEq] at h
      rw [← h.1]

theorem rewinding_terminates : SolverTerminates (some rewinding) := by
  intro sv hsv
  cases hsv
  exact ⟨fun _ _ _ _ => by simp [rewinding], fun _ _ _ _ => by simp [rewinding]⟩

/-- Items `L → A L | b`, `A → a d` (`L = 1, A = 2, a = 10, b = 11, d = 12`). -/
def itemsPs : List (Production Nat) := [⟨1, [2, 1]⟩, ⟨1, [11]⟩, ⟨2, [10, 12]⟩]

theorem itemsPs_notLeftRecursive : NotLeftRecursive 0 itemsPs :=
  notLeftRecursive_of_rank (fun _ => false) (fun x => if x = 1 then 2 else if x = 2 then 1 else 0)
    (by decide)

theorem items_A {p : Parser Unit Unit Nat} (heps : p.grammar.epsilonSymbol = 0)
    (h10 : p.grammar.isNonTerminal 10 = false) (h12 : p.grammar.isNonTerminal 12 = false)
    (hs : p.syntaxErrorSolver = some inserting) {t : Token Unit Nat} (ht : t.tType ≠ 12)
    {rest : List (Token Unit Nat)} (n : Nat) :
    Parser.innerParse p (⟨none, 10⟩ :: t :: rest) n 2 0 [[10, 12]] true () = .fuel ∨
    Parser.innerParse p (⟨none, 10⟩ :: t :: rest) n 2 0 [[10, 12]] true () =
      .ok (.fix ⟨0, .mk (.mk []) 2⟩, ()) := by
  match n with
  | 0 => exact .inl rfl
  | 1 => exact .inl rfl
  | 2 =>
    left
    simp [Parser.innerParse, Parser.tryParseProductionsLoop, Parser.productionLoop,
      Parser.parseProductionSymbol, h10, Parser.parseTerminalSymbol, heps,
      Parser.parseNonEpsilonTerminalSymbol, Parser.isChildSinglePath, M.bind_apply]
  | n + 3 =>
    right
    simp [Parser.innerParse, Parser.tryParseProductionsLoop, Parser.productionLoop,
      Parser.parseProductionSymbol, h10, h12, Parser.parseTerminalSymbol, heps,
      Parser.parseNonEpsilonTerminalSymbol, Parser.isChildSinglePath, Ne.symm ht,
      Parser.buildTokenFailedSymbol, Parser.popStates, Parser.buildFailedSymbol,
      Parser.tryFixProductions, hs, inserting, Parser.fixOptionToResult]

theorem items_loop {p : Parser Unit Unit Nat} (heps : p.grammar.epsilonSymbol = 0)
    (h1 : p.grammar.isNonTerminal 1 = true) (h2 : p.grammar.isNonTerminal 2 = true)
    (h10 : p.grammar.isNonTerminal 10 = false) (h12 : p.grammar.isNonTerminal 12 = false)
    (c1 : p.getTokenProductions 1 10 = [[2, 1]]) (c2 : p.getTokenProductions 2 10 = [[10, 12]])
    (hs : p.syntaxErrorSolver = some inserting) {t : Token Unit Nat} (ht : t.tType ≠ 12)
    {rest : List (Token Unit Nat)} (n : Nat) :
    Parser.innerParse p (⟨none, 10⟩ :: t :: rest) n 1 0 [[2, 1]] true () = .fuel := by
  induction n with
  | zero => rfl
  | succ n ih =>
    have hl : Parser.productionLoop p (⟨none, 10⟩ :: t :: rest)
        (Parser.innerParse p (⟨none, 10⟩ :: t :: rest) n) 1 [2, 1] true n [] 0 () = .fuel := by
      match n, ih with
      | 0, _ => rfl
      | 1, _ =>
        simp [Parser.productionLoop, Parser.parseProductionSymbol, h2,
          Parser.parseProductionNonTerminal, c2, M.bind_apply]
        rfl
      | n + 2, ih =>
        rcases items_A heps h10 h12 hs ht (rest := rest) (n + 2) with e | e
        · simp [Parser.productionLoop, Parser.parseProductionSymbol, h2,
            Parser.parseProductionNonTerminal, c2, M.bind_apply, e]
        · simp [Parser.productionLoop, Parser.parseProductionSymbol, h1, h2,
            Parser.parseProductionNonTerminal, c1, c2, M.bind_apply, e, ih]
    rw [Parser.innerParse, M.bind_apply, Parser.tryParseProductionsLoop, M.bind_apply]
    simp only [Parser.isChildSinglePath, List.length_cons, List.length_nil, decide_true, Bool.and_self]
    rw [hl]

/-- **C81**, the hypothesis is needed: the grammar is LL(1) and not left-recursive, every fix ends where it
began, and the parser never returns on any input that begins with an `a` not followed by a `d`. -/
theorem C81_insertion_loops (t : Token Unit Nat) (ht : t.tType ≠ 12) (rest : List (Token Unit Nat)) :
    ∃ g p, Grammar.new (HashOrder.id Nat) 0 1 itemsPs = .ok g ∧
      Built (HashOrder.id Nat) g (some inserting) p ∧ ConflictFree p.transitions ∧ NotLeftRecursive 0 itemsPs ∧
      ParseDiverges p (⟨none, 10⟩ :: t :: rest) () := by
  obtain ⟨g, p, hg, hp, hall, heps, h1, h2, h10, h12, c1, c2, hs, hi⟩ : ∃ g p,
      Grammar.new (HashOrder.id Nat) 0 1 itemsPs = .ok g ∧
      Built (HashOrder.id Nat) g (some inserting) p ∧
      (∀ x ∈ [1, 1, 2], ∀ a ∈ [2, 1, 11, 10, 12],
        ((p.transitions.getProductions x a).getD []).length ≤ 1) ∧
      p.grammar.epsilonSymbol = 0 ∧ p.grammar.isNonTerminal 1 = true ∧
      p.grammar.isNonTerminal 2 = true ∧ p.grammar.isNonTerminal 10 = false ∧
      p.grammar.isNonTerminal 12 = false ∧ p.getTokenProductions 1 10 = [[2, 1]] ∧
      p.getTokenProductions 2 10 = [[10, 12]] ∧ p.syntaxErrorSolver = some inserting ∧
      p.grammar.initialSymbol = 1 :=
    ⟨_, _, rfl, Parser.built_of_eval_solver (n := 10) rfl, by decide, rfl, rfl, rfl, rfl, rfl, rfl, rfl,
      rfl, rfl⟩
  refine ⟨g, p, hg, hp, conflictFree_of_check hg hp hall, itemsPs_notLeftRecursive, fun n => ?_⟩
  have := items_loop heps h1 h2 h10 h12 c1 c2 hs ht (rest := rest) n
  simp [Parser.parseFromTokens, hi, c1, M.bind_apply, this]

/-- The hypotheses of `C81_insertions` are met, by a grammar whose items cannot vanish as a whole: in
`L → a A L | b`, `A → c d`, the same repair in front of the same kind of list does not loop, since a token
stands before the item. On `a c a b` (a `d` is missing) the item is repaired and the list goes on. -/
example : ∃ g p fs, Grammar.new (HashOrder.id Nat) 0 1 [⟨1, [10, 2, 1]⟩, ⟨1, [11]⟩, ⟨2, [12, 13]⟩] = .ok g ∧
    Built (HashOrder.id Nat) g (some inserting) p ∧
    NotLeftRecursive 0 (vanishing 0 [⟨1, [10, 2, 1]⟩, ⟨1, [11]⟩, ⟨2, [12, 13]⟩]) ∧
    SolverTerminates (some inserting) ∧
    (∀ tokens pos r, SolverReturned (some inserting) tokens pos r → pos ≤ r.finalTokenPosition) ∧
    Parses p [⟨none, 10⟩, ⟨none, 12⟩, ⟨none, 10⟩, ⟨none, 11⟩] () (.fix fs) () :=
  ⟨_, _, _, rfl, Parser.built_of_eval_solver (n := 10) rfl,
    notLeftRecursive_of_rank (fun x => x == 1 || x == 2) (fun x => if x = 1 then 2 else if x = 2 then 1 else 0)
      (by decide),
    inserting_terminates, fun tokens pos r h => Nat.le_of_eq (inserting_forward tokens pos r h).symm,
    Parser.parse_returns (n := 30) rfl⟩

/-- The hypotheses of `C81_any_position` are met by `S → A B`, `A → a c`, `B → a d`, with a solver that
goes back to the first token: on `a b` it repairs `A`, then is asked for `B` at the first token. -/
example : ∃ g p fs, Grammar.new (HashOrder.id Nat) 0 1 [⟨1, [2, 3]⟩, ⟨2, [10, 12]⟩, ⟨3, [10, 13]⟩] = .ok g ∧
    Built (HashOrder.id Nat) g (some rewinding) p ∧
    NotRecursive 0 [⟨1, [2, 3]⟩, ⟨2, [10, 12]⟩, ⟨3, [10, 13]⟩] ∧
    SolverTerminates (some rewinding) ∧
    Parses p [⟨none, 10⟩, ⟨none, 11⟩] () (.fix fs) () :=
  ⟨_, _, _, rfl, Parser.built_of_eval_solver (n := 10) rfl,
    notRecursive_of_rank (fun x => if x = 1 then 2 else if x = 2 then 1 else if x = 3 then 1 else 0)
      (by decide),
    rewinding_terminates, Parser.parse_returns (n := 30) rfl⟩

end Verif.Props
