# Formal model of antlr_syntax (artlr_syntax 0.3.0): design

Model and proofs are in `lean/`, a Lake project (`lake build` in `lean/`, Lean 4.33.0 and Mathlib).

    lean/Verif/Model/*   the model, function by function, every definition cites /repo lines
    lean/Verif/Spec/*    small specifications, stated on the raw production list and on results only
    lean/Verif/Proof/*   helper lemmas, simulation and invariant proofs
    lean/Verif/Props/*   the property theorems Cnn_..., with satisfiability examples beside them
    lean/Verif/Tests/*   the unit tests of the repo replayed on the model (tests, not proofs)
    seeded/              mutation testing of the theorems: LOG.jsonl, mutants and the runner

`properties.jsonl` lists the properties, `MANIFEST.json` maps each to its theorems.

## Trusted base

* Lean's kernel. `#print axioms` on every theorem of the manifest gives a subset of `propext`,
  `Classical.choice`, `Quot.sound` (no axiom of our own, no sorry-like axiom, no compiled evaluation).
* The reading of the Rust source that the model is (see "What is modelled"), including the semantics
  of the standard library types it uses. `Tests/Repo.lean` replays the repo's unit tests on it.
* That the statements in `Props/*`, over `Spec/*` and `Model/*`, say what `properties.jsonl` says.

## What is modelled

All non-test code of the crate: `ContextFreeGrammar` (constructor, checks, all getters),
`ContextFreeGrammarProduction`, `FirstFollowSymbols` (FIRST and FOLLOW computation with its RefCell
maps and converge loops, `new` and getters), `RecursiveDescentParserTransitions` (table construction,
lookup), `RecursiveDescentParser` (all constructors, `parse_from_tokens`, every inner function,
backtracking stack, error reports, solver calls), `Token`, `AbstractSyntaxNode/Tree`, the result and
report types, and the `SyntaxErrorSolver` trait as an arbitrary implementation.

* **Symbols** `T : Type` with `DecidableEq`. `Clone`, `Eq`, `Hash` of the type parameter are assumed
  lawful (clone is the identity, eq is equality, hash is consistent with eq). An `Eq` that is a coarser
  equivalence is covered by reading `T` as the type of its classes: the code handles symbols through
  `Eq`, `Hash` and `Clone` only, so results are determined up to `Eq`.
* **Outcomes** `Out α = ok a | panic msg | fuel`. Every Rust `panic!`, failing `unwrap`, RefCell double
  borrow and index underflow is an explicit `panic`. Unbounded loops and recursion take fuel; `fuel`
  means "has not returned yet". Observable notions (`Spec/Observe.lean`): *returns r* = with enough
  fuel `ok r`, *panics*, *diverges* = `fuel` for every amount. Fuel monotonicity is a theorem, so these
  are exclusive.
* **HashMap/HashSet** are insertion-ordered association lists / duplicate-free lists; every *iteration*
  goes through an oracle `HashOrder` returning an arbitrary permutation, chosen per table instance and
  content. Theorems quantify over all oracles.
* **RefCell**: reading a cell while the same cell is mutably borrowed is a `panic`.
* **Parser**: the mutual recursion is open recursion over fuel; `states` (a Vec used as a stack) is a
  list with the top first; `&mut current_token_position` is returned.
* **Solver**: an arbitrary, possibly stateful (interior mutability), possibly panicking or diverging
  computation `σ → Out (Option FixResult × σ)`; the parser model threads `σ`.
* `usize` is `Nat`: positions are bounded by vector lengths, or are what the solver returns. The only
  `+ 1` on a position (recursive_descent_parser.rs:480-509) follows a successful `tokens.get(position)`,
  so it cannot overflow, whatever positions the solver returns.
* **Token iterators** (`Model/Iter.lean`): an arbitrary `next` with state, which may panic or not return.
* **Bounds** (`Model/Bounded.lean`): the same parser with separate bounds on the depth of the recursion,
  on loop iterations and on the number of calls, for statements about resources.

**Not modelled**: time, memory and the size of stack frames (the depth of the recursion is, C55 and C85),
unlawful `Eq`/`Hash`/`Clone` (including panicking ones),
unwinding after a panic, drop order, and the test modules (`*_spec.rs`), which are replayed instead.

## Specification side

* `Derivation`: derivations of the context-free grammar given by the *argument list* of
  `ContextFreeGrammar::new` (an output `[eps]` is the empty right-hand side); FIRST, FOLLOW, nullable,
  left recursion as statements about derivations.
* `ParseTree`: `IsTree eps ps x w n`: `n` is a parse tree of the symbol `x` over the tokens `w`.
* `EndMarker`: end-marked grammars and inputs, sentences.
* `OrderedChoice`: the parser without a solver as a recursive search (success, failure, run out).
* `Recovery`: the parser with a solver and with failure reports as a recursive search.
* `CFG`: the production list as a Mathlib `ContextFreeGrammar`. `LL1`: the textbook LL(1) condition.
  `Reduced`: no useless symbols. `Vanishing`: every non-terminal may vanish; no recursion.
  `Vanish`: hidden left recursion at the level of table cells. `Repaired`: the pieces of a repaired input.
* `Viable`: viable prefixes and beginnings of sentences.
* `Backtrack`: inputs on which retrying one symbol is enough. `FixAt`: where the parts of a `Fix` lie.
* `Rename`: renaming of symbols. `Unused`: productions a grammar does not use. `Extend`: more productions.
* `Expected`: the innermost symbols of a report. `TreeMeasure`: height and number of nodes.
* `SetRules`: the textbook rules that FIRST and FOLLOW sets should be closed under.
* `Predicted`: the trees of predictive parsing from a table. `Unmatched`: token types no terminal matches.
* `Leftmost`: leftmost derivations as a machine that reads the input and guesses productions.
* `Nested`: which searches a search leads to.
* `Occurs`: the nodes of a tree and where they begin.
* `DeadChoice`: productions behind an empty one that are never used.
* `FirstChoice`: trees built of first candidates.
* `DanglingElse`: statements with an optional else, in both orders of the productions.
* `Operators`: the expression grammars with any number of levels of operators.
* `Coarser`: merging symbols of a grammar into those of a coarser one.
* `Edit`: replacing a node of a tree (C107).
* `RecursesAtEnd`: grammars that recurse at the end only (C106).
* `Forked`: the language of aⁿ bⁿ $ and aⁿ cⁿ $ (C105).
* `StackMachine`: the textbook's predictive parser with an explicit stack (C104).
* `Regular`: the grammar of a finite automaton (C103).
* `Insert`: solvers that only insert (C102).
* `Tie`: nesting in brackets (C101).
* `Lists`: brackets, optional parts, lists with separators (C100).
* `Plug`: a grammar in place of a terminal, words with a letter replaced, trees with leaves replaced (C99).
* `Compose`: one grammar after another, a grammar repeated, the tree of a list (C98).
* `Rewrite`: removal of immediate left recursion, left factoring, unfolding, folding, dropping (C97).
* `Ladder`: two families of grammars for the lower bounds of C64.
* `LeftCorner`: with which non-terminals outputs may begin, by the FIRST sets (C96).
* `ErrorAt`: the tokens a report mentions on the way to an innermost symbol (C94).
* `PanicMode`: the lexemes of a `Fix`, solvers that always repair, panic mode (C93).
* `Unite`: two grammars in one (C92).
* `Combine`: one solver behind the other (C90).
* `Stream`: reading tree after tree (C91).
* `Session`: solvers that answer alike, repeated use of a parser (C89).
* `Augment`: a grammar with a new initial symbol and an end marker (C88).
* `Wrap`: LL(1) as in the textbook, and the rewriting of a grammar in C86.
* `Subtree`: a node of a tree with all below it. `ReportAt`: where the parts of a report lie in the input.
* `SinglePath`: symbols none of whose ancestors has another candidate. `CallLog`: a solver with a log.
* `Iter`: what a token iterator yields.
* `Results`: what failure reports and fixes may look like. `MapLex`: lexeme maps. `Observe`: above.

## Plan and method per property

C01-C03 (grammar constructor): fold invariants over the production list; permutation invariance.
C04 termination: bounded-measure induction on the converge loops; invariants "keys present", "sets
are duplicate-free subsets of terminals+eps"; RefCell: borrowed key ≠ held key.
C05-C07 FIRST: soundness invariant (every element has a derivation); completeness: a round without
update is closed under the production rules, and closed maps bound FIRST of every sentential form,
by induction on derivations.
C08-C10 FOLLOW: same method; the exact content is an inductive rule set with the adjacency
restriction of the code. C09 full statement is refuted by a witness; `_partial` under "no two equal
adjacent non-terminals", plus an exact iff.
C11, C12: the cell is a filter of the production list by a predicate that depends on FIRST/FOLLOW as
sets only. C13, C14: refuted in full by witnesses, `_partial` theorems and an exact iff.
C15, C16, C31, C33: one partial-correctness invariant over the stack machine.
C17, C18: refuted in full by witnesses; `_partial` under the end-marker discipline.
C19: well-founded induction on (remaining tokens, left-corner rank) and a B-adic measure on the
backtracking stack. C20: induction on fuel.
C21, C22, C37: induction on parse trees, using table completeness. C23: refuted by witnesses.
C24: big-step (success/failure) inductive specification, both directions.
C25, C26: failure-tree invariant; C26 refuted in full, `_partial` proved.
C27-C30: simulation / call-log invariants; C29 and the documented part of C30 refuted in full. `C29_exact`: for an
accepted input, every solver leaves the result alone if and only if the solver that always declines is never called.
C32, C36: lock-step simulation. C34, C35: direct.
C38: big-step specification with reports, fixes and solver state; both directions (stack machine to
search by induction on fuel, search to stack machine by induction on the search). C39-C42: from C38.
C41 refuted in full; `_partial` proved for a first token with a choice and for conflict-free tables;
`C41_last_answer_decides` (induction on the big-step semantics) is exact for the latter
(invariant of the call log).
C43: C12/C13/C14 give the cells in terms of derivations; compare with the textbook LL(1) condition.
C44: the fold that fills the table, for arbitrary maps. C45: derivations, FIRST, FOLLOW and table cells
depend on the productions as a set and on per-symbol order; lock-step simulation of the parsers.
C46: derivations and trees against Mathlib's `ContextFreeGrammar.language`. C47: induction on the
search of C38. C48: induction on the search of C24. C49: LL(1) and no useless symbols exclude left
recursion (induction on the height of a terminal derivation); the rest from C19 and C22.
C50, C51: the search of C38 on two inputs that agree up to a position, by induction on the search.
C52: lock-step simulation of the two parsers. C53: the searches of C24 over the two candidate lists.
C54: FIRST and FOLLOW of the used symbols do not change; the search of C38 meets only used symbols.
C55: the measure of C19 with explicit bounds, on the parser with separate bounds for depth and loops.
C56: the size of parse trees is linear (induction on trees, rank by left corners); amortised count of the
calls against the trees on the stack. Upper bound in general: a parser with a call counter in lock-step with
the parser within the bounds of C55; the calls per nesting level are bounded by the grammar.
C57: simulation of the parser without a solver by the parser whose solver counts its fixes.
C58: the two parsers in lock-step up to the first failing symbol; a stack without alternatives and with a
fixed state never becomes a tree.
C59, C60, C61: invariants of the call log, by induction on the search of C38.
C62: induction on what the iterator yields.
C63: induction on the successful search of C24, on the input with the same look-ahead and on the input cut off.
C64: a pass adds everything the rules demand of the sets before it, so `eps` or a terminal is in all
its sets or gets into one more with each pass (terminals: once `eps` is in all its sets). The lower bounds:
the exact sets after each pass for two families of grammars (Spec/Ladder). C65: the closure rules of FIRST and FOLLOW are
monotone; induction on the successful search of C24.
C66: induction on the failing search of C38 (without conflicts it reads nothing behind the stuck position,
so a sentence that continues the input would be rejected too, against C21). C67: induction on parse
trees, along the left-corner rank.
C68: an Ok tree is a parse tree of the whole input (C17), of which there is one. C69: the closure principles
behind C08 and C09 applied to any closed sets, then the proof of C21 and C22 from a complete table.
C70: induction on the big-step semantics of C61, with the converse from C21's argument. C71: induction on the
first tree, generalised over the tokens behind it. C72: induction on the big-step semantics; the position never
passes the unmatched token. C73: leftmost derivations as runs of a pushdown machine; induction on the search of
C24 one way, on the length of the run the other way. C26 exactly: the reported symbols are a filter.
C74: the sets and the table are characterised by the productions alone; subtrees of predicted trees (C70) are
predicted, and predictions do not look at the tokens before. C75: from the exact forms of C05, C06, C08 and C69.
C76: induction on the big-step semantics, and on the report the other way; the depth by the corner rank of C55.
C77: induction on the report of C76; the exponential family by induction on the number of tokens. C81: the termination argument of C19 for any
well-founded relation that contains the recursive calls. C82: from C47's side-by-side parts, by induction on
the parts; acceptance from C23. C83: a search (C24) has an outcome iff what it leads to is well-founded; the
searches are finitely many, so an infinite chain repeats and a finite one is short. C84: a node of a tree
found was searched for where it begins, so a repetition contradicts C83; a left-recursive symbol is pumped into
a tree with a repetition, which by unambiguity is the only tree of its sentence. C85: the counter of C56 bounds
the iterations at every depth of the recursion, so that of the two bounds only the depth can be exceeded. C86:
derivations of the rewritten grammar are mapped to derivations of the original one and back; its FIRST and
FOLLOW sets lie within the original ones, so its table has no conflicts and C22 applies. Left recursion is
excluded as in C49, where the textbook condition on two empty productions takes the place of the end marker.
C87: the look-ahead condition of C44 mentions only the leading symbol; the two searches of C24 are then
computed for every table.
C113: induction on the search of C24: an empty candidate is always found, and nothing behind it can fail.
C112: induction on the predicted tree in the search of Spec.Recovery, as for C70, with the candidates behind the first kept.
C111: for the order with else first, C112 with the first candidates, by induction on the statement; for the other order the search of C24; trees of the grammar are those of statements; C19 and C18 for the rest.
C110: FIRST, FOLLOW and LL(1) of the whole family by closed sets; the loop of a level reads the operands of the left-recursive grammar from left to right, by induction; C21 and C22.
C109: derivations, trees, the rules of FIRST and FOLLOW and the cells of the table are mapped; then C21 and C58 for the coarser grammar.
C108: two predicted trees (C70) over inputs that agree are equal, by induction on the first; induction on the place of the node.
C107: induction on the path to the node; C21 and C58 for the parser, C15 for the part.
C106: each symbol on a stack needs room that grows with its rank, so the stacks that occur have a bounded length and are finitely many; Myhill-Nerode from Mathlib; C104 for the parser, C103 for the converse, C105 for the counterexample.
C105: C104 splits a conflict-free run at the last a; since the stack derives both rests, one symbol of it derives all the b's; by the pigeonhole principle two numbers of a's have the same such symbol, so a word with different numbers is a sentence; C48 for the grammar with the conflict, C104 for the supplied sets.
C104: predicted trees (C70) and runs of the stack machine are translated into each other; the machine is deterministic, so by induction on a run its stack behind u does not depend on the rest; derivations of the stack, and C21 for completeness.
C103: the grammar is right-linear, so only the end marker follows a state; it is LL(1), no production begins with a non-terminal, and C43 gives a table without conflicts; a word is a sentence of a state iff the automaton accepts from there (induction on the length); then C88.
C102: from the pieces of C82: if fixes consume nothing, the kept tokens are consecutive, and the repaired symbols vanish; the end marker is the last part of a production of the initial symbol; then C93 for the insertion solver.
C101: a derivation of the new grammar is an old one with each b replaced by what it derives; LEAD of an old production is the old one, op where b was, and cl where a word of a can end; the cells follow; the sentences by the recursor of the big-step derivations; then C22.
C100: FOLLOW of the old symbols in any context of the grammar is the old FOLLOW and, for symbols at the end of the initial one, what follows that in the context (induction on the rule); so the tables of the same grammar in two contexts are compared, and the new productions have their own lookaheads; then C22 and C88.
C99: a derivation of the joint grammar is one of the outer grammar with every b replaced by what it derives (induction on the derivation, splitting at the symbol replaced); from this nullable, FIRST, FOLLOW and lookaheads of the outer symbols, the inner ones by C98's embedding; then C22.
C98: a grammar inside of a larger one keeps derivations, trees and (if end-marked and used only at its initial symbol) lookaheads, by induction; then table_spec, C88 and C37.
C97: a big-step derivation relation (Proof/Expands), and induction on it in both directions for each rewriting; then C88.
C96: left corners: rank by the number of left corners (as in C55) one way, the rank criterion of Proof/Rank the other way; then C22.
C95: sets and cells by the congruence lemmas of C45; parsing by C54_reachable_cells (all cells have at most one production, so permuted cells are equal); the last part by C48.
C94: induction on the innermost symbol of the report of C76, tracking the tokens between two positions; the lower bound with C66; the family by induction on n in the rules of C38.
C93: C81 (termination), C18 (no panic) and C39 (no Err) together; the lexemes by induction on the parts of C47.
C92: the cells by the lemmas of C54 (productions of the other grammar are unused); the search of C38 for `start`,
  whose candidates are single non-terminals, in terms of the searches for those (`Proof/SingleFlag`).
C91: induction on the pieces with C17, C22 and C51.
C90: lock-step simulation (C89) for the unit and associativity; a one-way simulation of runs that end in a good
  state (`Proof/SolverFollows`) for the other two.
C89: lock-step simulation with an arbitrary relation between solver states; induction on the session.
C88: induction on derivations and on the FOLLOW rules; then C22, C37 and C73.
C78: invariant of the call log, by induction on the big-step semantics. C79: induction on the big-step semantics,
with the answers to come in the state of the second solver. C80: bound on the call log per level of the report;
the exponential family by induction on the number of tokens.

## Findings (claims of the documentation or of the algorithms that the pinned code does not satisfy)

Each is a theorem about the model, with a concrete grammar and input.

| what | theorem |
|---|---|
| FOLLOW misses what follows in `X X`: equal adjacent non-terminals are skipped | `C09_follow_incomplete`, `C13_table_incomplete` |
| a production beginning with a nullable non-terminal gets that non-terminal's FOLLOW, not the FIRST of its rest | `C14_table_imprecise` |
| trailing tokens are ignored by `Ok` | `C17_trailing_tokens_ignored` |
| a panic, not `Err`, when the input ends before a non-terminal | `C18_input_runs_out`, `C18_fix_skips_end` |
| left recursion makes `parse_from_tokens` diverge | `C20_*` |
| backtracking is incomplete, even for an LL(1) grammar | `C23_backtracking_incomplete`, `C23_ll1_grammar_incomplete`, `C43_ll1_grammar_rejects_sentence` |
| a symbol without terminal strings makes the parser of a conflict-free grammar diverge | `C49_useless_symbol_diverges` |
| a token may appear twice in a `Fix` if the solver goes back | `C47_token_twice` |
| `parsed ++ failed ++ pending` of a failed production need not spell a production | `C26_*` |
| a fix pre-empts backtracking that would have succeeded | `C29_fix_preempts_backtracking` |
| `fix_failed_production` is called with several candidates, `fix_failed_productions` with none, and for symbols that were parsed | `C30_single_call_with_two_candidates`, `C30_multi_call_with_no_production`, `C30_call_for_parsed_symbol` |
| fixes made while retrying a symbol are thrown away | `C41_fix_lost`, `C41_fix_lost_in_accepted_input`, `C41_fix_only_reported` |
| the call stack grows with the input, also for LL(1) grammars | `C55_depth_grows` |
| exponentially many calls, for accepted inputs of an unambiguous grammar | `C56_exponential_calls` |
| exponentially many solver calls, for a conflict-free table and a solver that always skips a token | `C56_exponential_recovery` |
| a fix can turn `Ok` into `Err`, or change the accepted tree | `C57_fix_turns_ok_into_err`, `C57_fix_changes_tree` |
| a declined fix need not lead to an attempt to fix the parent production | `C59_backtracking_skips_parent` |
| adding a production (at the end of the list) can turn `Ok` into `Err` | `C65_conflicts_can_break` |
| an inserting solver makes the parser loop on an LL(1) grammar without left recursion | `C81_insertion_loops` |
| exponentially many calls of a solver that always declines | `C80_exponential_calls` |
| error reports can be exponentially larger than the input | `C77_exponential_report` |
| the initial symbol is not validated | `C42_initial_symbol_without_productions` |
| FOLLOW ranges over all non-terminals (reachable or not) and has no end marker | `C08_*`, `C10_*`, `C54_unreachable_production_matters` |

## Mutation testing

`seeded/mutants.py` lists edits of the model, `seeded/mutate.py` applies each in a scratch copy,
rebuilds, and evaluates executable instances of the claims (`seeded/Check.lean.txt`) on the mutant, to
tell which claims it makes false. `seeded/LOG.jsonl` has one line per attempt.
