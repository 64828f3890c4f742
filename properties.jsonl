{"id": "C01", "title": "Grammar constructor accepts exactly the well-formed production lists", "statement": "ContextFreeGrammar::new(eps, init, ps) panics if and only if some production in ps has input eps, or has an empty output, or has an output of length > 1 that contains eps; in every other case it returns a grammar. The verdict does not depend on HashMap iteration order.", "quantifier": "every epsilon symbol, initial symbol, finite production list and every hash iteration order", "why_tests_cant": "the set of production lists is infinite and the check iterates a HashMap in random order", "anchors": ["src/grammar/context_free_grammar.rs::ContextFreeGrammar::new", "src/grammar/context_free_grammar.rs::new_check_productions_map"]}
{"id": "C02", "title": "get_productions is the order-preserving grouping of the input productions", "statement": "For a grammar built by new(eps, init, ps), get_productions(A) is Some(l) with l = the productions of ps whose input is A, in the order and with the multiplicity of ps, when there is at least one; otherwise it is None. No production is lost, duplicated or reordered.", "quantifier": "every accepted production list and every symbol", "why_tests_cant": "the grouping must hold for every interleaving of inputs in ps", "anchors": ["src/grammar/context_free_grammar.rs::get_productions", "src/grammar/context_free_grammar.rs::new_process_productions_map"]}
{"id": "C03", "title": "Terminal / non-terminal classification", "statement": "is_non_terminal(X) iff some production has input X. is_terminal(X) iff X occurs in some production output and no production has input X. The two are disjoint; get_non_terminal_symbols and get_terminal_symbols list exactly those symbols without duplicates. The initial symbol plays no role.", "quantifier": "every accepted production list, symbol and hash order", "why_tests_cant": "classification is a closure over the whole production set", "anchors": ["src/grammar/context_free_grammar.rs::is_terminal", "src/grammar/context_free_grammar.rs::is_non_terminal", "src/grammar/context_free_grammar.rs::build_terminal_symbols_set"]}
{"id": "C04", "title": "FirstFollowSymbols::from always terminates and never panics", "statement": "For every grammar accepted by new, including left-recursive, cyclic and unproductive ones, FirstFollowSymbols::from returns: the two convergence loops stop, no unwrap hits None and no RefCell is borrowed while mutably borrowed.", "quantifier": "every accepted grammar and hash order", "why_tests_cant": "termination and absence of double borrows range over all grammars", "anchors": ["src/grammar/first_follow_symbols.rs::converge", "src/grammar/first_follow_symbols.rs::inner_get_first_symbols", "src/grammar/first_follow_symbols.rs::inner_get_follow_symbols"]}
{"id": "C05", "title": "FIRST is exact on terminals", "statement": "For a non-terminal A and a symbol a other than eps: a is in get_first_symbols(A) iff a is a terminal and A derives in zero or more steps a sentential form that begins with a.", "quantifier": "every accepted grammar, non-terminal and terminal, derivations of any length", "why_tests_cant": "derivations are unbounded; tests look at single grammars", "anchors": ["src/grammar/first_follow_symbols.rs::get_first_symbols", "src/grammar/first_follow_symbols.rs::inner_get_first_symbols_process_production"]}
{"id": "C06", "title": "eps is in FIRST(A) exactly when A derives the empty string", "statement": "For a non-terminal A, eps is in get_first_symbols(A) iff A derives the empty sentential form.", "quantifier": "every accepted grammar and non-terminal", "why_tests_cant": "derivations are unbounded", "anchors": ["src/grammar/first_follow_symbols.rs::get_first_symbols", "src/grammar/first_follow_symbols.rs::inner_get_first_symbols_process_production_symbol"]}
{"id": "C07", "title": "Domain of FIRST and FIRST of terminals", "statement": "get_first_symbols(X) is Some iff X is a terminal or non-terminal of the grammar, and for a terminal X (eps included, when it is used) it is exactly {X}.", "quantifier": "every accepted grammar and symbol", "why_tests_cant": "must hold for every grammar", "anchors": ["src/grammar/first_follow_symbols.rs::get_first_symbols", "src/grammar/first_follow_symbols.rs::inner_get_first_symbols_initial_map"]}
{"id": "C08", "title": "FOLLOW is sound", "statement": "If a is in get_follow_symbols(A) then a is a terminal other than eps and some non-terminal derives a sentential form in which A is immediately followed by a.", "quantifier": "every accepted grammar, non-terminal and symbol", "why_tests_cant": "derivations are unbounded", "anchors": ["src/grammar/first_follow_symbols.rs::get_follow_symbols", "src/grammar/first_follow_symbols.rs::get_follow_symbols_process_production"]}
{"id": "C09", "title": "FOLLOW is complete", "statement": "If some non-terminal derives a sentential form in which the non-terminal A is immediately followed by the terminal a, then a is in get_follow_symbols(A). (The pinned code violates this when a production contains two equal adjacent non-terminals.)", "quantifier": "every accepted grammar, non-terminal, terminal and derivation", "why_tests_cant": "derivations are unbounded; the missed case needs two equal adjacent non-terminals", "anchors": ["src/grammar/first_follow_symbols.rs::get_follow_symbols_process_production_non_terminal_symbol"]}
{"id": "C10", "title": "Domain and contents of FOLLOW", "statement": "get_follow_symbols(X) is Some iff X is a non-terminal, and the set never contains eps or a non-terminal. FIRST sets never contain non-terminals.", "quantifier": "every accepted grammar and symbol", "why_tests_cant": "must hold for every grammar", "anchors": ["src/grammar/first_follow_symbols.rs::get_follow_symbols", "src/grammar/first_follow_symbols.rs::update_follow_symbols_lambda_chain"]}
{"id": "C11", "title": "FIRST, FOLLOW and the table do not depend on hash order", "statement": "Two runs of FirstFollowSymbols::from and RecursiveDescentParserTransitions::from over the same productions, under any two hash iteration orders, give the same FIRST sets, the same FOLLOW sets and the same ordered production list in every table cell.", "quantifier": "every accepted production list and every pair of hash orders", "why_tests_cant": "hash seeds are random per run; a test sees a few of them", "anchors": ["src/grammar/first_follow_symbols.rs::from", "src/parser/recursive_descent_parser_transitions.rs::from"]}
{"id": "C12", "title": "Table construction never panics and cells are ordered sublists", "statement": "RecursiveDescentParserTransitions::from over the grammar's own FIRST/FOLLOW never panics. get_productions(A, a) is Some iff A is a non-terminal and a a terminal; the cell then consists of the productions of A that are in it, in grammar order and each as often as the grammar lists it; and the eps column is empty.", "quantifier": "every accepted grammar, row and column", "why_tests_cant": "cell contents depend on all productions at once", "anchors": ["src/parser/recursive_descent_parser_transitions.rs::inner_from_process_productions", "src/parser/recursive_descent_parser_transitions.rs::get_productions"]}
{"id": "C13", "title": "Table completeness (Algorithm 4.31, as quoted in the source)", "statement": "Production A -> alpha is in cell (A, a) whenever alpha derives a form beginning with terminal a, and whenever alpha derives the empty string and a can follow A in a sentential form. (False of the pinned code because of the FOLLOW omission.)", "quantifier": "every accepted grammar, production and terminal", "why_tests_cant": "derivations are unbounded", "anchors": ["src/parser/recursive_descent_parser_transitions.rs::inner_from_get_production_first_symbols"]}
{"id": "C14", "title": "Table precision (Algorithm 4.31, as quoted in the source)", "statement": "Production A -> alpha is in cell (A, a) only if alpha derives a form beginning with a, or alpha derives the empty string and a can follow A. (False of the pinned code: a nullable leading non-terminal B adds all of FOLLOW(B).)", "quantifier": "every accepted grammar, production and terminal", "why_tests_cant": "derivations are unbounded", "anchors": ["src/parser/recursive_descent_parser_transitions.rs::inner_from_get_production_first_symbols_on_epsilon_first"]}
{"id": "C15", "title": "An Ok result is a genuine parse tree", "statement": "If parse_from_tokens returns Ok(tree), with or without a solver, then the root is labelled with the initial symbol with no lexeme, every inner node with label A has children labelled, in order, by the output of some production of A, and every leaf is an input token or an eps leaf without lexeme. In particular the initial symbol derives the word of leaf token types.", "quantifier": "every accepted grammar, solver, token sequence", "why_tests_cant": "tree depth and input length are unbounded", "anchors": ["src/parser/recursive_descent_parser.rs::parse_from_tokens", "src/parser/recursive_descent_parser.rs::inner_parse_from_tokens_production_build_node"]}
{"id": "C16", "title": "The leaves of an Ok tree are exactly a prefix of the input, lexemes included", "statement": "If parse_from_tokens returns Ok(tree), the non-eps leaves read left to right are the first k input tokens for some k: same types, same lexemes, same order, none skipped or repeated, even after backtracking.", "quantifier": "every accepted grammar, solver, token sequence", "why_tests_cant": "backtracking histories are unbounded", "anchors": ["src/parser/recursive_descent_parser.rs::parse_from_tokens", "src/parser/recursive_descent_parser.rs::inner_parse_pop_states"]}
{"id": "C17", "title": "Ok means the whole input was consumed", "statement": "If parse_from_tokens returns Ok(tree) then every input token is a leaf of the tree. (False of the pinned code: trailing tokens are ignored. It holds when the grammar ends the initial symbol's productions with an end marker that occurs in the input only as the last token.)", "quantifier": "every accepted grammar, token sequence", "why_tests_cant": "input length unbounded", "anchors": ["src/parser/recursive_descent_parser.rs::parse_from_tokens", "src/parser/recursive_descent_parser.rs::parse_symbol_result_to_parse_result"]}
{"id": "C18", "title": "No panic on non-empty input", "statement": "parse_from_tokens panics on the empty token sequence and never panics on a non-empty one. (The second half is false of the pinned code: running out of tokens in front of a non-terminal unwraps None. It holds for grammars with an end marker.)", "quantifier": "every accepted grammar, token sequence", "why_tests_cant": "the failing position depends on the input and backtracking history", "anchors": ["src/parser/recursive_descent_parser.rs::parse_from_tokens", "src/parser/recursive_descent_parser.rs::inner_parse_from_tokens_production_non_terminal"]}
{"id": "C19", "title": "Parsing terminates for grammars without left recursion", "statement": "If no non-terminal derives, in one or more steps, a sentential form that begins with itself, then parse_from_tokens terminates on every token sequence, without a solver and with any solver whose fixes consume at least one token.", "quantifier": "every accepted non-left-recursive grammar, token sequence and token-consuming solver", "why_tests_cant": "termination over all inputs and all backtracking histories", "anchors": ["src/parser/recursive_descent_parser.rs::inner_parse_from_tokens", "src/parser/recursive_descent_parser.rs::inner_parse_from_tokens_production"]}
{"id": "C20", "title": "Left recursion on the first candidate diverges", "statement": "If, starting at the initial symbol and always taking the first symbol of the first candidate production for the first token, one stays for ever among non-terminals, parse_from_tokens never returns (in Rust: stack overflow).", "quantifier": "every grammar and token sequence meeting the condition, every number of steps", "why_tests_cant": "non-termination cannot be observed by a finite test", "anchors": ["src/parser/recursive_descent_parser.rs::inner_parse_from_tokens"]}
{"id": "C21", "title": "LL(1) completeness", "statement": "If every table cell holds at most one production and no production has two equal adjacent non-terminals, and the input begins with a sentence of the grammar, and either the token behind it can follow the initial symbol or the sentence's parse tree does not end with a non-terminal that covers no token, then parse_from_tokens returns Ok with exactly that parse tree. In particular every sentence of an end-marked grammar is accepted.", "quantifier": "every such grammar and sentence", "why_tests_cant": "sentences and trees are unbounded", "anchors": ["src/parser/recursive_descent_parser.rs::parse_from_tokens", "src/parser/recursive_descent_parser_transitions.rs::from"]}
{"id": "C22", "title": "For end-marked LL(1) grammars the parser decides the language", "statement": "For an accepted grammar without left recursion, with an end marker, at most one production per cell and no equal adjacent non-terminals: on every token sequence whose last token is the only end marker, parse_from_tokens terminates without panic and returns Ok if the token types are a sentence of the grammar, Err otherwise.", "quantifier": "every such grammar and token sequence", "why_tests_cant": "infinite domain of inputs", "anchors": ["src/parser/recursive_descent_parser.rs::parse_from_tokens"]}
{"id": "C23", "title": "Backtracking completeness", "statement": "If the input is a sentence of a grammar without left recursion and with an end marker, parse_from_tokens returns Ok. (False of the pinned code: alternatives inside an already parsed non-terminal are never revisited, and the FOLLOW omission loses table entries, even for LL(1) grammars.)", "quantifier": "every grammar and sentence", "why_tests_cant": "backtracking histories are unbounded", "anchors": ["src/parser/recursive_descent_parser.rs::inner_parse_pop_states", "src/parser/recursive_descent_parser_transitions.rs::from"]}
{"id": "C24", "title": "Parsing is ordered choice with one-level backtracking", "statement": "Without a solver the result is that of the recursive specification: a non-terminal tries its candidates in grammar order and each yields at most its first success; a sequence of symbols is searched depth first over these; Ok is returned iff that search succeeds, with its first result, and Err iff it fails.", "quantifier": "every grammar, token sequence for which the parser returns", "why_tests_cant": "relates an explicit stack machine to a recursive specification on all runs", "anchors": ["src/parser/recursive_descent_parser.rs::inner_parse_from_tokens_production", "src/parser/recursive_descent_parser.rs::inner_parse_pop_states"]}
{"id": "C25", "title": "Err results list every candidate production in order", "statement": "Err(f) has f.symbol_to_derive = the initial symbol and one FailedProduction per candidate production for the first token, in candidate order; recursively each contained FailedSymbol is either a terminal with no failed productions or a non-terminal with one FailedProduction per candidate of some input token; the failed symbol occurs in the production's output.", "quantifier": "every grammar, token sequence", "why_tests_cant": "failure trees are unbounded", "anchors": ["src/parser/recursive_descent_parser.rs::inner_parse_from_tokens_try_parse_productions", "src/parser/recursive_descent_parser.rs::inner_parse_from_tokens_production_build_failed_symbol"]}
{"id": "C26", "title": "A failed production reports parsed, failed and pending symbols that make up the production", "statement": "In every FailedProduction of an Err result, the symbols of parsed_symbols, then failed_symbol, then pending_symbols spell the output of the production. (False of the pinned code: popped non-terminals are dropped from parsed_symbols and pending_symbols is shifted. What holds: the count is right, and the spelling is right when only terminals precede the failed symbol.)", "quantifier": "every grammar, token sequence, failed production at any depth", "why_tests_cant": "failure trees are unbounded", "anchors": ["src/parser/recursive_descent_parser.rs::inner_parse_pop_states", "src/parser/recursive_descent_parser.rs::inner_parse_from_tokens_production_build_failed_symbol"]}
{"id": "C27", "title": "Without a solver the result is never Fix", "statement": "A parser built by from_grammar or from_grammar_and_first_follow_symbols never returns ParseResult::Fix.", "quantifier": "every grammar and token sequence", "why_tests_cant": "all runs", "anchors": ["src/parser/recursive_descent_parser.rs::from_grammar", "src/parser/recursive_descent_parser.rs::inner_parse_from_tokens_try_fix_productions"]}
{"id": "C28", "title": "A solver that always declines is invisible", "statement": "With a solver whose two methods always return None, parse_from_tokens gives the same Ok, Err, panic or divergence as without a solver.", "quantifier": "every grammar, token sequence, declining solver (also a stateful one)", "why_tests_cant": "all runs including divergence", "anchors": ["src/parser/recursive_descent_parser.rs::inner_parse_from_tokens_try_fix_productions"]}
{"id": "C29", "title": "Fixing is the last resort", "statement": "If the parser without a solver returns Ok(tree), the parser with a solver returns Ok of the same tree. (Documented in SyntaxErrorSolver; false of the pinned code: a fix of a later symbol pre-empts backtracking into an earlier one. It holds for tables without conflicts and when the first token has several candidate productions.)", "quantifier": "every grammar, token sequence, solver", "why_tests_cant": "all runs and all solvers", "anchors": ["src/parser/syntax_error_solver.rs::SyntaxErrorSolver", "src/parser/recursive_descent_parser.rs::inner_parse_from_tokens_production"]}
{"id": "C30", "title": "Contract of solver calls", "statement": "Every call to the solver gets the full token vector and a tokens_position inside it; each call is for a symbol none of whose ancestors has another candidate left to try (documented as 'every ancestor of the node has a single child'); fix_failed_productions never gets a list of exactly one failed production; fix_failed_production gets a production that failed at that position. (The documented 'the symbol has a single candidate production' is false on backtracking: one remaining candidate is enough; and 'multiple' includes zero.)", "quantifier": "every grammar, token sequence, solver and call history", "why_tests_cant": "call histories are unbounded", "anchors": ["src/parser/syntax_error_solver.rs::fix_failed_production", "src/parser/syntax_error_solver.rs::fix_failed_productions", "src/parser/recursive_descent_parser.rs::inner_parse_from_tokens_try_fix_productions"]}
{"id": "C31", "title": "Structure of Fix results", "statement": "If the result is Fix(f): f.symbol_to_derive is the initial symbol, and f.fixed_production was either returned by the solver or has one part per symbol of a production of that symbol, each part being a genuine parse tree of the symbol or recursively a fixed symbol for it, with at least one fixed part. A parser-made production has no gaps.", "quantifier": "every grammar, token sequence, solver", "why_tests_cant": "fix trees are unbounded", "anchors": ["src/parser/recursive_descent_parser.rs::inner_parse_from_tokens_production_build_node", "src/parser/recursive_descent_parser.rs::inner_parse_from_tokens_fix_option_to_parse_symbol_result"]}
{"id": "C32", "title": "Lexemes never influence parsing", "statement": "Without a solver, replacing the lexemes of the input by any function of them gives the same result with the lexemes of its tokens replaced in the same way: same Ok/Err/panic/divergence, same shape.", "quantifier": "every grammar, token sequence and lexeme mapping", "why_tests_cant": "parametricity over all inputs", "anchors": ["src/parser/recursive_descent_parser.rs::inner_parse_non_epsilon_terminal_symbol", "src/token/token.rs::Token::eq"]}
{"id": "C33", "title": "Arbitrary user-supplied FIRST/FOLLOW cannot make the parser accept wrongly", "statement": "A parser built with from_grammar_and_first_follow_symbols from any FirstFollowSymbols for which the construction does not panic returns Ok only with genuine parse trees over a prefix of the input.", "quantifier": "every grammar, every pair of symbol maps, every token sequence", "why_tests_cant": "user-supplied maps are unbounded", "anchors": ["src/parser/recursive_descent_parser.rs::from_grammar_and_first_follow_symbols", "src/parser/recursive_descent_parser_transitions.rs::from"]}
{"id": "C34", "title": "Unexpected first token or non-derivable initial symbol gives Err, not panic", "statement": "If the initial symbol is not a non-terminal, or the first token's type is not a terminal of the grammar, or is eps, or its cell is empty, then parse_from_tokens without a solver returns Err with the initial symbol and no failed productions.", "quantifier": "every grammar, non-empty token sequence", "why_tests_cant": "all token types", "anchors": ["src/parser/recursive_descent_parser.rs::inner_get_token_productions", "src/parser/recursive_descent_parser_transitions.rs::get_productions"]}
{"id": "C35", "title": "Token equality ignores lexemes", "statement": "Two tokens are equal iff their types are equal, whatever the lexemes; this is an equivalence relation, ne is its negation, and a clone is equal to the original and keeps its lexeme.", "quantifier": "all tokens", "why_tests_cant": "all lexeme/type combinations", "anchors": ["src/token/token.rs::PartialEq", "src/token/token.rs::Clone"]}
{"id": "C36", "title": "Parse results do not depend on hash order and are stable", "statement": "Parsers built twice from the same productions under any two hash orders give the same result (Ok tree, Err tree, Fix, panic or divergence) on every token sequence and solver; one parser gives the same result whenever it is asked again with the solver in the same state.", "quantifier": "every production list, token sequence, solver, pair of hash orders", "why_tests_cant": "hash seeds are random per run", "anchors": ["src/parser/recursive_descent_parser.rs::from_grammar", "src/parser/recursive_descent_parser.rs::parse_from_tokens"]}
{"id": "C37", "title": "Conflict-free tables exclude ambiguity", "statement": "If every table cell holds at most one production and no production has two equal adjacent non-terminals, then for an end-marked grammar any two parse trees of the initial symbol over the same tokens are equal.", "quantifier": "every such grammar, token sequence", "why_tests_cant": "trees are unbounded", "anchors": ["src/parser/recursive_descent_parser_transitions.rs::from", "src/parser/recursive_descent_parser.rs::parse_from_tokens"]}
{"id": "C38", "title": "Exact result with or without a solver", "statement": "For every parser made by the API, parse_from_tokens returns, panics or diverges exactly as a recursive search described independently: productions of the cell of the look-ahead in order, retrying into earlier symbols, the solver consulted after the candidates of a symbol are exhausted on a path without alternatives, its fixes spliced in. The search says which Ok tree, Err report (full tree of failed productions) or Fix results, and in which state the solver is left.", "quantifier": "every grammar, token sequence, solver and solver state", "why_tests_cant": "all runs and all stateful solvers", "anchors": ["src/parser/recursive_descent_parser.rs::parse_from_tokens", "src/parser/recursive_descent_parser.rs::inner_parse_from_tokens", "src/parser/recursive_descent_parser.rs::inner_parse_from_tokens_try_fix_productions"]}
{"id": "C39", "title": "With a solver, Err means the solver declined", "statement": "If a parser with a solver returns Err(f), the last thing that happened is that the solver was asked to fix exactly the failed productions of f at position 0 and answered None. So a solver that never declines never leads to Err.", "quantifier": "every grammar, token sequence, solver", "why_tests_cant": "all runs and all stateful solvers", "anchors": ["src/parser/recursive_descent_parser.rs::inner_parse_from_tokens_try_fix_productions", "src/parser/syntax_error_solver.rs::SyntaxErrorSolver"]}
{"id": "C40", "title": "At most one solver call when the first token leaves a choice", "statement": "If the first token has zero or at least two candidate productions for the initial symbol, the solver is consulted at most once, after the parse without solver has returned Err, with the failed productions of that Err at position 0; Ok results and panics are those without the solver.", "quantifier": "every grammar, token sequence, solver", "why_tests_cant": "all runs and all stateful solvers", "anchors": ["src/parser/recursive_descent_parser.rs::inner_parse_from_tokens", "src/parser/recursive_descent_parser.rs::inner_parse_from_tokens_try_fix_productions"]}
{"id": "C41", "title": "A fix of the solver ends up in the result", "statement": "If during a parse the solver returned a fix, the result is Fix. (Holds when the first token leaves a choice, see C40; false of the pinned code in general: a fix made for a symbol under a production that is then abandoned is lost, even in a parse that returns Ok or Err. If no table cell holds two productions, a fix of at least one failed production is not lost: the result is Fix, or Err with a report that contains a fix. Moreover the last answer of the solver then decides: the result is Ok exactly if the solver was not called, Fix exactly if its last answer was a fix, Err exactly if its last answer was None.)", "quantifier": "every grammar, token sequence, solver", "why_tests_cant": "all runs and all stateful solvers", "anchors": ["src/parser/recursive_descent_parser.rs::inner_parse_from_tokens_production", "src/parser/syntax_error_solver.rs::fix_failed_productions"]}
{"id": "C42", "title": "An initial symbol without productions is accepted", "statement": "ContextFreeGrammar::new does not check the initial symbol. If no production has it as its input, every non-empty parse returns Err with the initial symbol and no failed productions, or, with a solver, what the solver answers to an empty list of failed productions at position 0; never Ok.", "quantifier": "every grammar with such an initial symbol, non-empty token sequence, solver", "why_tests_cant": "all inputs and solvers", "anchors": ["src/grammar/context_free_grammar.rs::new", "src/parser/recursive_descent_parser.rs::parse_from_tokens"]}
{"id": "C43", "title": "LL(1) grammars and conflict-free tables", "statement": "Take a grammar in which no non-terminal is adjacent to itself. If its table has at most one production per cell, it is LL(1) in the textbook sense (no terminal predicts two productions of one symbol). If also a production that begins with a nullable non-terminal is always the only production of its symbol, the converse holds, and an LL(1) end-marked grammar without left recursion is decided by the parser: Ok for the sentences, Err for the rest. Without the restriction on nullable leads, the parser rejects a sentence of some LL(1) grammar.", "quantifier": "every well-formed grammar and end-marked input", "why_tests_cant": "LL(1)-ness is a statement about all derivations", "anchors": ["src/parser/recursive_descent_parser_transitions.rs::from", "src/parser/recursive_descent_parser.rs::parse_from_tokens"]}
{"id": "C44", "title": "Parsing tables from user-supplied FIRST/FOLLOW sets", "statement": "RecursiveDescentParserTransitions::from and RecursiveDescentParser::from_grammar_and_first_follow_symbols accept any FirstFollowSymbols. They panic exactly when a set that the algorithm must look up is missing or a lookahead they select is not a terminal of the grammar; otherwise each cell holds, in grammar order, exactly the productions whose lookahead in the supplied sets contains the terminal. Sets computed by the crate itself never cause the panic.", "quantifier": "every well-formed grammar and every pair of finite FIRST/FOLLOW maps", "why_tests_cant": "all maps", "anchors": ["src/parser/recursive_descent_parser_transitions.rs::from", "src/grammar/first_follow_symbols.rs::from", "src/parser/recursive_descent_parser.rs::from_grammar_and_first_follow_symbols"]}
{"id": "C45", "title": "Only the order of productions of one symbol matters", "statement": "Interleaving the productions of different symbols differently in the list given to ContextFreeGrammar::new changes neither the cells of the table nor the result (value, solver state, panic, divergence) of any parse; reordering two productions of one symbol can.", "quantifier": "every pair of production lists with the same per-symbol subsequences, every solver, input and hash order", "why_tests_cant": "all permutations, grammars and inputs", "anchors": ["src/grammar/context_free_grammar.rs::new", "src/parser/recursive_descent_parser_transitions.rs::from", "src/parser/recursive_descent_parser.rs::parse_from_tokens"]}
{"id": "C46", "title": "Ok and Err decide membership in the language of the grammar", "statement": "Read the production list as a context-free grammar in the standard sense (a set of rules over terminals and non-terminals, [eps] being the empty right-hand side). A token sequence has a parse tree iff its types form a word of the language; every Ok result covers a prefix of the input that is in the language; and for an end-marked, conflict-free grammar without left recursion and equal adjacent non-terminals, on an end-marked input, parse_from_tokens returns Ok iff the input is in the language and Err iff it is not; so two such grammars with the same language accept the same inputs and reject the same inputs.", "quantifier": "every grammar, token sequence", "why_tests_cant": "languages are infinite", "anchors": ["src/parser/recursive_descent_parser.rs::parse_from_tokens", "src/grammar/context_free_grammar.rs::new"]}
{"id": "C47", "title": "The parts of a Fix lie side by side", "statement": "A Fix result spans the input from the first token on; each part begins where the part before it ended; parse trees are over exactly the tokens they span, and a solver's fix begins where the solver was asked and ends where it said. If the solver never ends a fix before the position asked, the tokens in the result are a subsequence of the input (none twice, none out of order); without this a token may appear twice.", "quantifier": "every grammar, token sequence, solver with a Fix result", "why_tests_cant": "all runs and all stateful solvers", "anchors": ["src/parser/recursive_descent_parser.rs::inner_parse_from_tokens_production", "src/parser/fixed_symbol.rs::FixedSymbol"]}
{"id": "C48", "title": "When backtracking is complete despite table conflicts", "statement": "If wherever a non-terminal with several candidates is to be parsed all its parses there end at the same token (or each candidate ends at one token and the symbol with what stands behind it too), then parse_from_tokens finds a parse whenever the input has one. In particular an end-marked grammar without left recursion and equal adjacent non-terminals, in which every non-terminal has at most one production per cell or derives no two words one of which begins with the other, is decided.", "quantifier": "every such grammar and input, any number of productions per cell", "why_tests_cant": "trees and backtracking sequences are unbounded", "anchors": ["src/parser/recursive_descent_parser.rs::inner_parse_from_tokens", "src/parser/recursive_descent_parser.rs::inner_parse_from_tokens_production"]}
{"id": "C49", "title": "No left-recursion check is needed for conflict-free grammars without useless symbols", "statement": "An end-marked LL(1) grammar in which every non-terminal is reachable and derives a terminal string is not left-recursive. So the parser of a conflict-free grammar of this kind (without equal adjacent non-terminals) terminates on every input and decides the language. With a useless symbol a conflict-free end-marked grammar can make parse_from_tokens diverge.", "quantifier": "every such grammar and input", "why_tests_cant": "derivations and runs are unbounded", "anchors": ["src/parser/recursive_descent_parser_transitions.rs::from", "src/parser/recursive_descent_parser.rs::parse_from_tokens"]}
{"id": "C50", "title": "Errors are found at the first token that cannot continue", "statement": "Without a solver: if no form derived from the initial symbol begins with the first tokens of the input up to and including some token, then nothing behind that token influences the outcome (value, report, panic, divergence). For a conflict-free end-marked grammar without useless symbols and equal adjacent non-terminals the outcome is then one and the same Err report, for all continuations of the input.", "quantifier": "every grammar, prefix and continuation", "why_tests_cant": "all continuations of all inputs", "anchors": ["src/parser/recursive_descent_parser.rs::parse_from_tokens", "src/parser/recursive_descent_parser.rs::inner_parse_from_tokens_production_symbol"]}
{"id": "C51", "title": "Nothing behind the end marker is looked at", "statement": "For an end-marked grammar without a solver, appending tokens behind the end marker of the input changes neither the result nor whether there is one.", "quantifier": "every end-marked grammar and input, every suffix", "why_tests_cant": "all suffixes", "anchors": ["src/parser/recursive_descent_parser.rs::parse_from_tokens"]}
{"id": "C52", "title": "Symbol names do not matter", "statement": "Renaming all symbols injectively, in the grammar, the input and the conversation with the solver, renames the symbols in the result and changes nothing else; the grammar is accepted iff the original is; the table cells are renamed.", "quantifier": "every grammar, injective renaming, input, solver and hash orders", "why_tests_cant": "all renamings and inputs", "anchors": ["src/grammar/context_free_grammar.rs::new", "src/parser/recursive_descent_parser_transitions.rs::from", "src/parser/recursive_descent_parser.rs::parse_from_tokens"]}
{"id": "C53", "title": "A repeated production is harmless without a solver", "statement": "Without a solver, listing a production again behind its first occurrence changes neither which inputs give Ok, with which tree, nor which give Err, panic or are never answered. (The report of an Err does change, and with a solver so can the outcome.)", "quantifier": "every grammar, production, place and input", "why_tests_cant": "all places and inputs, including those that never return", "anchors": ["src/parser/recursive_descent_parser.rs::parse_from_tokens", "src/parser/recursive_descent_parser_transitions.rs::from"]}
{"id": "C54", "title": "Unused productions are harmless", "statement": "Productions of symbols that do not occur in the rest of the grammar, whose outputs have none of its non-terminals (or have one only at the end, in a production of a symbol that is in no output), change no parse result, panic or non-termination, with any solver. (An unreachable production with a symbol behind a non-terminal of the grammar can change results.)", "quantifier": "every grammar, set of unused productions, input and solver", "why_tests_cant": "all grammars and inputs", "anchors": ["src/parser/recursive_descent_parser.rs::parse_from_tokens", "src/grammar/first_follow_symbols.rs::from", "src/parser/recursive_descent_parser_transitions.rs::from"]}
{"id": "C55", "title": "Recursion depth", "statement": "For a grammar without left recursion, and a terminating solver (if any) whose fixes consume tokens, parse_from_tokens needs a call stack of at most max(1, tokens * non-terminals) nested calls of the recursive function, and loops bounded by the grammar alone. The dependence on the number of tokens is real: a list grammar needs one nested call per token.", "quantifier": "every non-left-recursive grammar, input and solver that makes progress", "why_tests_cant": "all inputs, of every length", "anchors": ["src/parser/recursive_descent_parser.rs::parse_from_tokens", "src/parser/recursive_descent_parser.rs::inner_parse_from_tokens"]}
{"id": "C56", "title": "Work is linear for conflict-free tables", "statement": "For a grammar without left recursion there is a constant C such that a parser without a solver whose table has no conflicts makes at most C * tokens calls of the recursive function, on every input, accepted or not. Without the condition on the table the number of calls can be exponential, on accepted inputs. With a solver the number of solver calls can be exponential even for a conflict-free table and a solver that always skips one token. It is never more than exponential: there is a constant C such that a parser for the grammar, whatever the conflicts in its table, and with any terminating solver whose fixes consume tokens, makes at most C^tokens calls of the recursive function, each with at most one solver call.", "quantifier": "every non-left-recursive grammar with a conflict-free table, every input", "why_tests_cant": "all inputs, of every length", "anchors": ["src/parser/recursive_descent_parser.rs::parse_from_tokens", "src/parser/recursive_descent_parser.rs::inner_parse_from_tokens", "src/parser/recursive_descent_parser.rs::inner_parse_pop_states"]}
{"id": "C57", "title": "Only fixes change the outcome", "statement": "If during a parse with a solver every call of the solver returned None, the parse returns exactly what the parser without a solver returns. A fix, on the other hand, can turn Ok into Err, and can change the tree of an accepted input.", "quantifier": "every accepted grammar, input, solver and solver state", "why_tests_cant": "all solvers and all inputs", "anchors": ["src/parser/recursive_descent_parser.rs::inner_parse_from_tokens", "src/parser/recursive_descent_parser.rs::inner_parse_pop_states", "src/parser/syntax_error_solver.rs::SyntaxErrorSolver"]}
{"id": "C58", "title": "With a conflict-free table a solver changes nothing but errors", "statement": "If no table cell holds two productions, the parser with a solver returns Ok for exactly the inputs for which the parser without a solver does, with the same tree and without changing the solver's state; where the parser without a solver panics or does not return, neither does the other return. So a solver can only turn Err into Fix, into a different Err, or into a panic or an endless loop; never into Ok.", "quantifier": "every grammar with a conflict-free table, solver, solver state and input", "why_tests_cant": "all solvers and all inputs", "anchors": ["src/parser/recursive_descent_parser.rs::inner_parse_from_tokens", "src/parser/recursive_descent_parser.rs::inner_parse_pop_states", "src/parser/syntax_error_solver.rs::SyntaxErrorSolver"]}
{"id": "C59", "title": "A declined fix is followed by an attempt to fix the parent production", "statement": "Documented in SyntaxErrorSolver: if the solver declines to fix the failed productions of C, it is later asked to fix the production in which C failed. True if no table cell holds two productions (and C has a failed production): the later call is fix_failed_production with exactly that production, unless C is the initial symbol and the result is Err with these failed productions. False with conflicts: backtracking can succeed instead.", "quantifier": "every grammar with a conflict-free table, solver, solver state and input for which the parse returns", "why_tests_cant": "all call histories of all solvers", "anchors": ["src/parser/recursive_descent_parser.rs::inner_parse_from_tokens_try_fix_productions", "src/parser/syntax_error_solver.rs::SyntaxErrorSolver"]}
{"id": "C60", "title": "A production is offered to the solver only after the symbol that failed in it", "statement": "Documented in SyntaxErrorSolver: when fix_failed_production is called for a production in which a non-terminal failed, the solver was asked before to fix the failed productions of that non-terminal and returned None.", "quantifier": "every grammar, solver, solver state and input for which the parse returns", "why_tests_cant": "all call histories of all solvers", "anchors": ["src/parser/recursive_descent_parser.rs::inner_parse_from_tokens_try_fix_productions", "src/parser/syntax_error_solver.rs::fix_failed_production"]}
{"id": "C61", "title": "fix_failed_productions gets failures for which no fix was tried", "statement": "Documented in SyntaxErrorSolver ('no fix attempt has been done'): when fix_failed_productions is called, the failed productions it gets are exactly those the parser without a solver finds for the remaining candidates of the symbol at that position, and contain no fix at any depth. Each call, of either method, is for as many remaining candidates as it gets failed productions.", "quantifier": "every grammar, solver, solver state and input for which the parse returns", "why_tests_cant": "all call histories of all solvers", "anchors": ["src/parser/recursive_descent_parser.rs::inner_parse_from_tokens_try_fix_productions", "src/parser/syntax_error_solver.rs::fix_failed_productions"]}
{"id": "C62", "title": "The token iterator is read to its end before parsing", "statement": "parse_from_tokens depends on its iterator only by the tokens it yields: if the iterator ends, the outcome is that of the list of its tokens; if it panics, parse_from_tokens panics, whatever was yielded before; if it never ends, parse_from_tokens does not return, even if the first tokens decide the result.", "quantifier": "every parser, every iterator (stateful, endless or panicking), solver and solver state", "why_tests_cant": "all iterators, including endless ones", "anchors": ["src/parser/recursive_descent_parser.rs::parse_from_tokens", "src/parser/recursive_descent_parser.rs::iterator_to_vec"]}
{"id": "C63", "title": "One token of look-ahead", "statement": "If no table cell holds two productions and parse_from_tokens returns Ok with a tree over the first k tokens, then only these k tokens and the type of the next one (if there is one) matter: every input with the same first k tokens, followed by a token of the same type, gives the same result, with any solver. Parsing just these k tokens gives the same tree again, unless the tree has at its right end a non-terminal that covers no token: then it panics. (With conflicts the tokens further behind matter, and parsing just these k tokens may give another tree.)", "quantifier": "every grammar with a conflict-free table, solver, solver state, pair of inputs", "why_tests_cant": "all pairs of inputs", "anchors": ["src/parser/recursive_descent_parser.rs::parse_from_tokens", "src/parser/recursive_descent_parser.rs::inner_get_token_productions"]}
{"id": "C64", "title": "FIRST and FOLLOW take a bounded number of passes", "statement": "FirstFollowSymbols::from computes FIRST and then FOLLOW by passes over all productions until nothing changes; for n non-terminals the FIRST loop ends after at most 2n+1 passes and the FOLLOW loop after at most n+1, for every grammar and hash order, however many terminals and productions there are. These numbers are needed: for every n >= 2 there is a grammar with n non-terminals and a hash order for which fewer than 2n passes do not suffice for FIRST, and for every n >= 1 one for which n passes do not suffice for FOLLOW.", "quantifier": "every grammar, hash order", "why_tests_cant": "all grammars", "anchors": ["src/grammar/first_follow_symbols.rs::from", "src/grammar/first_follow_symbols.rs::converge"]}
{"id": "C65", "title": "Extending a grammar", "statement": "Insert productions into a grammar, none of which has a terminal of the grammar as input. Every FIRST and FOLLOW set keeps its elements, every table cell keeps its productions in the same order. If the new table has no conflicts, then the old one has none, and every input that gave Ok still gives Ok with the same tree, with any solver. (If it has conflicts, an input that gave Ok may give Err.)", "quantifier": "every pair of grammars, solver, token sequence", "why_tests_cant": "all pairs of grammars and all inputs", "anchors": ["src/grammar/first_follow_symbols.rs::from", "src/grammar/first_follow_symbols.rs::from", "src/parser/recursive_descent_parser.rs::parse_from_tokens"]}
{"id": "C66", "title": "What an error report says was expected", "statement": "Without a solver, an Err report has at least one innermost symbol (a failed symbol without failed productions), and each one was expected and could not be derived at some position of the input: the grammar allows it behind the tokens in front, and it is a terminal that does not stand there or a non-terminal without a table entry for the token that does. If the table has no conflicts, a report (with any solver) is one path with exactly one innermost symbol. If moreover the grammar is end-marked, no production has two equal adjacent non-terminals and every non-terminal derives a word, then the position of this symbol is the first token with which the input stops being the beginning of a sentence (or the end of the input).", "quantifier": "every grammar, token sequence and Err result", "why_tests_cant": "all grammars and all rejected inputs", "anchors": ["src/parser/recursive_descent_parser.rs::parse_from_tokens", "src/parser/recursive_descent_parser.rs::inner_parse_from_tokens"]}
{"id": "C67", "title": "The size of the returned trees", "statement": "For a grammar without left recursion with n non-terminals, an Ok tree over k tokens has height at most n*(k+1), and the number of its nodes is at most a constant of the grammar times k+1, with any solver, input and hash order.", "quantifier": "every non-left-recursive grammar, solver, token sequence", "why_tests_cant": "all grammars and inputs of every length", "anchors": ["src/parser/recursive_descent_parser.rs::parse_from_tokens"]}
{"id": "C68", "title": "All parsers for an unambiguous grammar agree", "statement": "If an end-marked grammar is unambiguous, then any two parsers for its productions - in any order of the productions, any hash order, with computed or user-supplied FIRST and FOLLOW sets, with any solver or none - that both return Ok on an input whose last token is the only end marker return equal trees. A grammar is unambiguous in particular if some sets closed under the textbook rules give a table without conflicts.", "quantifier": "every unambiguous end-marked grammar, production order, hash order, pair of parsers and input", "why_tests_cant": "all pairs of parsers and all inputs", "anchors": ["src/parser/recursive_descent_parser.rs::parse_from_tokens", "src/parser/recursive_descent_parser.rs::from_grammar_and_first_follow_symbols"]}
{"id": "C69", "title": "FIRST and FOLLOW sets supplied by the user", "statement": "FIRST and FOLLOW sets that are closed under the textbook rules contain everything that can start or follow a symbol, and the table made from them has every entry of Algorithm 4.31. If that table has no conflicts and the grammar is end-marked and not left-recursive, the parser made with from_grammar_and_first_follow_symbols decides the language: Ok with a parse tree of the whole input for sentences, Err otherwise - with no condition on adjacent non-terminals, so it accepts sentences that the parser with computed sets rejects.", "quantifier": "every grammar, all supplied sets, every end-marked token sequence", "why_tests_cant": "all grammars, all sets and all inputs", "anchors": ["src/parser/recursive_descent_parser.rs::from_grammar_and_first_follow_symbols", "src/parser/recursive_descent_parser_transitions.rs::from"]}
{"id": "C70", "title": "Ok trees are those of predictive parsing", "statement": "In the tree of an Ok result every non-terminal is expanded by a production of its table cell for the token at which its expansion begins, for every parser, with computed or user-supplied sets, with any solver. If no cell holds two productions, the result is Ok exactly with the trees built in this way, and the solver is not asked.", "quantifier": "every grammar, parser, solver, token sequence and tree", "why_tests_cant": "all grammars, inputs and trees", "anchors": ["src/parser/recursive_descent_parser.rs::parse_from_tokens", "src/parser/recursive_descent_parser.rs::inner_get_token_productions"]}
{"id": "C71", "title": "LL(1) grammars are unambiguous", "statement": "If no terminal predicts two productions of a symbol, then in an end-marked grammar every token sequence has at most one parse tree; without end marker the same holds for every symbol in front of a terminal that can follow it, and the tree then covers a determined number of tokens. So whatever parser for an LL(1) grammar returns Ok, the tree is the same (C68).", "quantifier": "every LL(1) grammar and token sequence", "why_tests_cant": "all grammars and token sequences", "anchors": ["src/parser/recursive_descent_parser.rs::parse_from_tokens", "src/parser/recursive_descent_parser_transitions.rs::from"]}
{"id": "C72", "title": "A token of an unknown type guards against panics", "statement": "For every grammar, end-marked or not, a parser without a solver does not panic on an input that contains a token whose type is no terminal of the grammar; without left recursion it returns Ok or Err. The same holds with a solver that neither panics nor skips that token if it is the last one. Appending such a token and anything behind it to an input on which the parser does not panic changes neither the result nor whether there is one.", "quantifier": "every grammar, parser and token sequence", "why_tests_cant": "all grammars and inputs", "anchors": ["src/parser/recursive_descent_parser.rs::parse_from_tokens", "src/parser/recursive_descent_parser.rs::inner_parse_from_tokens_production_non_terminal"]}
{"id": "C73", "title": "Inputs that stop inside of a sentence", "statement": "Let no table cell hold two productions and let the table have every entry of Algorithm 4.31 (no end marker is needed). parse_from_tokens panics exactly on the inputs that a leftmost derivation can read to their end with a non-terminal next, and returns Ok over all tokens exactly on those it can read with nothing left. On every beginning of a sentence it does one of these or returns Err, the latter exactly if a terminal is next. A sentence is never rejected: Ok over all tokens, or a panic.", "quantifier": "every grammar with such a table and every token sequence", "why_tests_cant": "all grammars and inputs", "anchors": ["src/parser/recursive_descent_parser.rs::parse_from_tokens", "src/parser/recursive_descent_parser.rs::inner_parse_from_tokens_production_non_terminal"]}
{"id": "C74", "title": "The initial symbol only says where parsing begins", "statement": "Whether ContextFreeGrammar::new panics, the FIRST and FOLLOW sets and every table cell do not depend on the initial symbol. If no table cell holds two productions, every subtree for a non-terminal of an Ok tree is the Ok result of the parser with this non-terminal for its initial symbol on the tokens from some position on (with conflicts this fails).", "quantifier": "every production list, all pairs of initial symbols and hash orders, every solver, token sequence and subtree", "why_tests_cant": "all grammars, inputs and subtrees", "anchors": ["src/grammar/context_free_grammar.rs::new", "src/parser/recursive_descent_parser.rs::parse_from_tokens"]}
{"id": "C75", "title": "The computed sets and the textbook rules", "statement": "The computed FIRST sets obey the textbook rules. The computed FIRST and FOLLOW sets are contained in all sets that obey the textbook rules. They obey all of them (and so are the least sets that do) exactly if for every X X in a right-hand side everything that can start X is in the computed FOLLOW(X), in particular if no right-hand side has the same non-terminal twice in a row.", "quantifier": "every accepted grammar and all sets that obey the rules", "why_tests_cant": "all grammars and all sets", "anchors": ["src/grammar/first_follow_symbols.rs::from"]}
{"id": "C76", "title": "Where the parts of a failure report lie in the input", "statement": "An Err report describes a failure that begins at the first token: every failed non-terminal in it has all the candidates of its table cell for the token at its position, in order; the symbols of a candidate before the failed one span the tokens from that position to the position of the failed symbol (terminals and fixed symbols are reported, derived non-terminals, which have trees of predictive parsing, are left out); a failed terminal does not match the token at its position. Without conflicts and without a solver this is exact: the result is Err with a report iff the report is of this form. Without left recursion (and with a solver whose fixes end behind the position they are for) the failed symbols are nested at most N*n+1 deep for N non-terminals and n tokens; depths proportional to n do occur.", "quantifier": "every accepted grammar with a derivable initial symbol, every solver, every token sequence and report", "why_tests_cant": "all inputs and reports of any depth", "anchors": ["src/parser/recursive_descent_parser.rs::inner_parse_from_tokens", "src/parser/recursive_descent_parser.rs::inner_parse_from_tokens_production"]}
{"id": "C77", "title": "The size of failure reports", "statement": "Let the grammar have no left recursion, N non-terminals, and let the solver (if any) only return fixes that end behind the position they are for. If no table cell holds two productions, an Err report for n tokens has at most N*n+1 failed symbols. If no cell holds more than w productions it has at most 1 + w + ... + w^(N*n). Exponential sizes do occur: for S -> a S b | a S c | d the report for n symbols a and one unexpected token has 2^(n+1)-1 failed symbols.", "quantifier": "every accepted grammar without left recursion, every solver, every token sequence and report", "why_tests_cant": "all inputs and reports of any size", "anchors": ["src/parser/recursive_descent_parser.rs::inner_parse_from_tokens", "src/parser/recursive_descent_parser.rs::inner_parse_from_tokens_production"]}
{"id": "C78", "title": "What a solver that declines is shown", "statement": "Let no table cell hold two productions. If a parse with a solver returns Err and the solver returned no fix, then the lists of failed productions it was asked to fix, empty lists not counted, are exactly the lists of failed productions in the Err report, each once, from the innermost to the outermost. (With conflicts it is shown fewer.)", "quantifier": "every accepted grammar with such a table, every solver, every token sequence", "why_tests_cant": "all inputs, reports and call histories of any length", "anchors": ["src/parser/recursive_descent_parser.rs::inner_parse_from_tokens", "src/parser/recursive_descent_parser.rs::inner_parse_from_tokens_try_fix_productions"]}
{"id": "C79", "title": "Record and replay", "statement": "Record the calls and answers of the solver during a parse that returns. A parse of the same tokens with a solver that only gives the recorded answers, one after the other, returns the same result, is asked the same questions in the same order and uses up exactly the recorded answers. So nothing but the answers of the solver influences the parse: for two solvers, if the answers given in one parse begin with those given in the other, results and calls are the same. Recording itself changes nothing.", "quantifier": "every accepted grammar, all pairs of hash orders, all solvers with any internal state, every token sequence", "why_tests_cant": "all solvers and call histories of any length", "anchors": ["src/parser/recursive_descent_parser.rs::parse_from_tokens", "src/parser/syntax_error_solver.rs::SyntaxErrorSolver"]}
{"id": "C80", "title": "How often a solver that declines is asked", "statement": "Let the grammar have no left recursion, N non-terminals and outputs of at most m symbols, and let no table cell hold two productions. If a parse of n tokens returns and the solver declined every time, it was asked at most m * (N * n + 1) times. With conflicts in the table there is no such bound: there is a grammar for which a solver that always declines is asked exponentially often in the number of tokens.", "quantifier": "every accepted grammar with such a table, every solver that makes progress, every token sequence", "why_tests_cant": "a bound on call histories for inputs of any length", "anchors": ["src/parser/recursive_descent_parser.rs::inner_parse_from_tokens_try_fix_productions", "src/parser/recursive_descent_parser.rs::inner_parse_pop_states"]}
{"id": "C81", "title": "Solvers whose fixes consume nothing", "statement": "With a solver whose calls end and whose fixes never go back (they may consume no token at all), parsing comes to an end on every token sequence if the grammar is not left-recursive even when every non-terminal may vanish; with any solver whose calls end, wherever its fixes say to go on, it comes to an end if no non-terminal derives a form that contains itself. Absence of left recursion alone is not enough: there is an LL(1) grammar without left recursion on which a solver that repairs by insertion makes parsing loop forever on infinitely many inputs.", "quantifier": "every accepted grammar with that shape, every such solver, every token sequence", "why_tests_cant": "termination for every solver and every input, and non-termination, cannot be observed by running tests", "anchors": ["src/parser/recursive_descent_parser.rs::inner_parse_from_tokens", "src/parser/recursive_descent_parser.rs::inner_parse_from_tokens_production", "src/parser/recursive_descent_parser.rs::inner_parse_from_tokens_try_fix_productions"]}
{"id": "C82", "title": "A Fix repairs the input", "statement": "A Fix result stands for a row of pieces that lie side by side in the input from the first token on: the tokens in its parse trees, and the non-terminals the error solver fixed, at least one. Read from left to right they are derived from the initial symbol; so is every word obtained by replacing the fixed non-terminals by words derived from them. If the grammar is end-marked, without two equal non-terminals side by side, and its table has no conflict, every token sequence obtained in this way is accepted by the same parser. If every fix in it is replaced by a parse tree of the symbol it was returned for, the Fix becomes a parse tree of the initial symbol (if every non-terminal is productive there is such a replacement), and under the same conditions that tree is the one the same parser returns for its tokens.", "quantifier": "every accepted grammar, every solver, every token sequence whose parse returns a Fix, every way to fill the repaired places", "why_tests_cant": "quantifies over all solvers, all inputs and all ways to fill in the repaired places", "anchors": ["src/parser/recursive_descent_parser.rs::inner_parse_from_tokens_try_fix_productions", "src/parser/recursive_descent_parser.rs::inner_parse_from_tokens_production"]}
{"id": "C83", "title": "Exactly when parsing does not come to an end", "statement": "Without a solver, for every grammar (left-recursive or not) and every token sequence: parse_from_tokens does not return exactly if, in the course of its search for the initial symbol, the search of the output of some production at some position leads to a search of the same output at the same position. A parse that returns or panics does so within productions * tokens + 1 nested calls of the recursive function; with more calls than that on the stack it is certain that it does not come to an end. There are left-recursive grammars that accept some inputs and loop on others.", "quantifier": "every accepted grammar, every token sequence", "why_tests_cant": "non-termination cannot be observed by running tests; quantifies over all grammars and inputs", "anchors": ["src/parser/recursive_descent_parser.rs::inner_parse_from_tokens", "src/parser/recursive_descent_parser.rs::inner_parse_from_tokens_production", "src/parser/recursive_descent_parser.rs::inner_parse_pop_states"]}
{"id": "C84", "title": "Left recursion is never harmless", "statement": "Without a solver, for every grammar: in a tree returned with Ok no node occurs below a node that begins at the same token and has children of the same types, so the height of the tree is at most productions * min(matched tokens + 1, tokens), left-recursive or not. Therefore, if a left-recursive grammar without useless symbols is unambiguous, there is a sentence of the grammar for which no parser without a solver (any hash order, computed FIRST/FOLLOW sets or sets of the user) returns its tree; if it is end-marked, no such parser returns Ok for that sentence at all. For an ambiguous grammar this can fail.", "quantifier": "every accepted grammar, every hash order, every FIRST/FOLLOW sets, every token sequence", "why_tests_cant": "the sentence depends on the grammar and can be arbitrarily long; quantifies over all grammars and parsers", "anchors": ["src/parser/recursive_descent_parser.rs::inner_parse_from_tokens", "src/parser/recursive_descent_parser.rs::inner_parse_from_tokens_production", "src/parser/recursive_descent_parser.rs::inner_parse_pop_states"]}
{"id": "C85", "title": "A parse that does not come to an end overflows the stack", "statement": "For every grammar, left-recursive or not, and any solver whose functions return: no loop of parse_from_tokens makes more iterations than (productions + 2) ^ m, where no production has more than m outputs, whatever the tokens. So the parser never spins: it does not return exactly if its recursion overflows every stack, and it returns or panics exactly if it does so on every stack that is large enough. Without a solver a stack with room for productions * tokens + 1 nested calls decides which.", "quantifier": "every accepted grammar, every hash order, every terminating solver, every token sequence, every stack size", "why_tests_cant": "a test cannot tell a loop that does not end from a recursion that does not end for all inputs; quantifies over all grammars, tokens and solvers", "anchors": ["src/parser/recursive_descent_parser.rs::parse_from_tokens", "src/parser/recursive_descent_parser.rs::inner_parse_from_tokens", "src/parser/recursive_descent_parser.rs::inner_parse_from_tokens_production", "src/parser/recursive_descent_parser.rs::inner_parse_pop_states"]}
{"id": "C86", "title": "Every LL(1) grammar can be rewritten so that the parser decides its language", "statement": "Rewrite a grammar by giving every production a non-terminal of its own, replacing every second symbol of an output by a copy of it and adding a new initial symbol with an end marker. For every accepted grammar without useless symbols that is LL(1) by the three textbook conditions, whether or not it is end-marked, has equal adjacent symbols or nullable leading symbols: ContextFreeGrammar::new accepts the rewritten grammar, and on every token sequence, also the empty one, with an end marker appended, its parser returns Ok if the sequence is a sentence of the original grammar, with a tree that without the new nodes is a parse tree of it, and Err if not. (With useless symbols, if the conditions hold for FOLLOW from every non-terminal and the grammar is not left-recursive; an LL(1) grammar whose non-terminals all derive terminal strings is never left-recursive.)", "quantifier": "every accepted LL(1) grammar without useless symbols, every hash order, every token sequence", "why_tests_cant": "quantifies over all LL(1) grammars and all inputs", "anchors": ["src/grammar/context_free_grammar.rs::ContextFreeGrammar::new", "src/grammar/first_follow_symbols.rs::FirstFollowSymbols", "src/parser/recursive_descent_parser_transitions.rs::RecursiveDescentParserTransitions", "src/parser/recursive_descent_parser.rs::parse_from_tokens"]}
{"id": "C87", "title": "Productions with the same leading symbol are selected alike, and no sets repair this", "statement": "In a table made from any FIRST and FOLLOW sets, computed or supplied by the user, productions that begin with the same symbol (other than eps) are selected by the same terminals, whatever their input symbols and whatever follows in their outputs. Hence there is an LL(1), end-marked, not left-recursive grammar with two sentences for which no FIRST and FOLLOW sets at all make from_grammar_and_first_follow_symbols give a parser that accepts both.", "quantifier": "every accepted grammar, every hash order, every pair of FIRST and FOLLOW maps, every terminal", "why_tests_cant": "quantifies over all sets a user may supply", "anchors": ["src/parser/recursive_descent_parser_transitions.rs::RecursiveDescentParserTransitions::from", "src/parser/recursive_descent_parser.rs::from_grammar_and_first_follow_symbols", "src/parser/recursive_descent_parser.rs::parse_from_tokens"]}
{"id": "C88", "title": "Adding an end marker to a grammar", "statement": "Add the production start -> init stop with two new symbols to an accepted grammar and make start the initial symbol. The new grammar is accepted and end-marked, its sentences are those of the old one followed by stop, FIRST sets of old symbols stay the same, a FOLLOW set gains at most stop (exactly if the symbol can end a form derived from init), and every table cell outside of the new row and column stays exactly the same. If the new table has no conflicts and the old grammar has no left recursion and no two equal non-terminals side by side, then on any tokens with a stop token appended the new parser returns Ok exactly if the tokens are a sentence of the old grammar, with the tree of the old grammar under the new root, and Err otherwise, whereas the old parser returns the same tree for a sentence or panics.", "quantifier": "every accepted grammar, all new symbols, every hash order, every token sequence", "why_tests_cant": "quantifies over all grammars and all inputs", "anchors": ["src/grammar/context_free_grammar.rs::ContextFreeGrammar::new", "src/grammar/first_follow_symbols.rs::FirstFollowSymbols", "src/parser/recursive_descent_parser_transitions.rs::RecursiveDescentParserTransitions", "src/parser/recursive_descent_parser.rs::parse_from_tokens"]}
{"id": "C89", "title": "The history of a parser", "statement": "A parser is used for any number of inputs one after the other; panics may be caught, after which the solver may be in any state. If the answers of the solver do not depend on its state (or there is no solver), every result and every panic is the one of a new parser for that input alone, with any hash order and any state of its solver. If two solvers with different kinds of state answer alike as long as their states are related, the parsers give the same results, panic or do not return on the same inputs, and the states stay related, for single parses and sequences of parses.", "quantifier": "every accepted grammar, every sequence of token sequences, every solver and its states, every relation between states of two solvers, every hash order", "why_tests_cant": "quantifies over all histories of calls and all solver states", "anchors": ["src/parser/recursive_descent_parser.rs::parse_from_tokens", "src/parser/syntax_error_solver.rs::SyntaxErrorSolver"]}
{"id": "C90", "title": "Combining solvers", "statement": "Combine two solvers into one that asks the first and, if it declines, the second, each with a state of its own. The combination is associative, and a solver that always declines is a unit on both sides: results, panics, divergence and final states are the same. If the first solver fixes everything it is asked during a parse, the combination returns the same result and never calls the second; if the second declines everything it is asked during a parse, the first alone returns the same result. (A second solver that fixes something can change the outcome even where the first alone gives a Fix.)", "quantifier": "every accepted grammar, token sequence, all solvers with all kinds of state, every hash order", "why_tests_cant": "quantifies over all solvers and all conversations between parser and solver", "anchors": ["src/parser/recursive_descent_parser.rs::parse_from_tokens", "src/parser/syntax_error_solver.rs::SyntaxErrorSolver"]}
{"id": "C91", "title": "Reading one sentence after the other", "statement": "For an end-marked grammar without a solver: parse, remove as many tokens as the tree has leaves, parse the rest, and so on. On tokens made of pieces that end with the end marker the trees read are parse trees of the pieces, one after the other, and the rest are the other pieces, whatever the table. If the table has no conflicts and the grammar neither left recursion nor two equal non-terminals side by side, all sentences written one after the other are read, whatever comes behind them, and a piece behind them that is no sentence gives Err, with the report for that piece alone.", "quantifier": "every accepted end-marked grammar, every list of pieces, every rest, every hash order", "why_tests_cant": "quantifies over all sequences of sentences of any number and length", "anchors": ["src/parser/recursive_descent_parser.rs::parse_from_tokens"]}
{"id": "C92", "title": "Two grammars in one", "statement": "Put two grammars with different non-terminals into one, with start -> A and start -> B for a new symbol start. The new grammar is accepted and its sentences are those of the two. Its table is free of conflicts iff both tables are and no token selects both A and B (is in FIRST of the symbol, or the symbol can be empty and the token is in FOLLOW of it). If the first token selects one of the two, the new parser does what the parser of that grammar does with the same solver (Ok with start on top of the tree, Fix with start on top of the fix, Err, panic, no return), except that after an Err the solver is asked once more, for start. If it selects both, the first grammar is tried, and after an error of it the second, both without the solver; the solver is asked if both fail, with both reports. If it selects none the solver is asked at once.", "quantifier": "all pairs of accepted grammars with different non-terminals, every token sequence, every solver, every hash order", "why_tests_cant": "quantifies over all pairs of grammars, inputs and solvers", "anchors": ["src/parser/recursive_descent_parser.rs::parse_from_tokens", "src/parser/recursive_descent_parser_transitions.rs::from", "src/grammar/first_follow_symbols.rs::from"]}
{"id": "C93", "title": "Solvers that always repair, and panic mode", "statement": "Let the grammar be end-marked and not left-recursive even when every non-terminal may vanish, and let the solver answer every call by a fix that neither goes back nor skips the last token. Then on every input whose last token is the only end marker parse_from_tokens returns Ok or Fix: never Err, never a panic, never an endless loop. For conflict-free tables without equal adjacent non-terminals the result is Ok (with the parse tree of the whole input, the solver not called) iff the input is a sentence, and Fix otherwise. If every fix of the solver lists the lexemes of the tokens it spans, a Fix result lists, in order, the lexemes of the input from the first token up to some position, and for end-marked grammars and inputs all of them, unless it is the solver's own fix of the initial symbol. The solver that skips to the next synchronizing token (panic mode), for any set of synchronizing tokens, is such a solver.", "quantifier": "every accepted grammar of that shape, every such solver, every set of synchronizing tokens, every token sequence", "why_tests_cant": "quantifies over all grammars, solvers and inputs; absence of panics and termination cannot be tested", "anchors": ["src/parser/recursive_descent_parser.rs::parse_from_tokens", "src/parser/syntax_error_solver.rs::SyntaxErrorSolver"]}
{"id": "C94", "title": "What a report says about the place of an error", "statement": "Without a solver, follow an Err result down to one of its innermost symbols and collect the tokens that the failed productions on the way list as parsed. These tokens are, in order, some of the tokens in front of the position where that symbol was expected and not found, and they are all of them if non-terminals are only the last symbols of productions; then their number is the position. For end-marked conflict-free grammars without equal adjacent non-terminals, in which every non-terminal derives some word, they all lie in front of the first token with which the input stops to begin a sentence. In general the report does not determine the position: for the conflict-free grammar S -> A $, A -> a A | b the report for n symbols a, a b and a wrong token is the same for all n, and a solver is asked the same questions for all n, although the error is at position n + 1.", "quantifier": "every accepted grammar, every token sequence, every innermost symbol of the report; all n", "why_tests_cant": "quantifies over all grammars and inputs; the last part compares infinitely many inputs", "anchors": ["src/parser/recursive_descent_parser.rs::parse_from_tokens", "src/parser/failed_production.rs::FailedProduction", "src/parser/syntax_error_solver.rs::SyntaxErrorSolver"]}
{"id": "C95", "title": "What does not depend on the order of the productions", "statement": "Whether ContextFreeGrammar::new accepts a list of productions and which FIRST and FOLLOW sets it gives depends only on which productions are in the list, not on their order or multiplicity. If the productions are listed in another order, every table cell holds the same productions up to order, so the same cells have conflicts. If there are no conflicts, parse_from_tokens does the same for every order of the productions: same result (tree, report or fix), same solver state, panic or no return, on every input and with any solver. With conflicts the order of the productions of one symbol can matter; but in an end-marked grammar without left recursion and equal adjacent non-terminals, in which every non-terminal has no conflict of its own or derives no two words one of which begins with the other, every order accepts the same inputs.", "quantifier": "all pairs of production lists with the same productions, every hash order, solver and token sequence", "why_tests_cant": "quantifies over all orders of all grammars and over all inputs", "anchors": ["src/grammar/context_free_grammar.rs::new", "src/grammar/first_follow_symbols.rs::from", "src/parser/recursive_descent_parser_transitions.rs::from", "src/parser/recursive_descent_parser.rs::parse_from_tokens"]}
{"id": "C96", "title": "Left recursion and the conditions for deciding the language can be checked with the API", "statement": "Let x lead to the non-terminal y if some production of x has y in its output and get_first_symbols of everything in front of y contains eps. The grammar is left-recursive exactly if some symbol leads, in one or more steps, to itself; it is not exactly if the symbols can be numbered so that the number gets smaller in each step. So if the grammar has such a numbering, an end marker and no two equal adjacent non-terminals, and get_productions gives at most one production for each input and each symbol in an output, the parser decides the language (these are finitely many checks). A non-terminal whose FIRST set is empty derives no word.", "quantifier": "every accepted grammar, hash order, numbering, end-marked token sequence", "why_tests_cant": "quantifies over all grammars and numberings; left recursion is about all derivations", "anchors": ["src/grammar/first_follow_symbols.rs::from", "src/grammar/first_follow_symbols.rs::get_first_symbols", "src/parser/recursive_descent_parser_transitions.rs::get_productions", "src/parser/recursive_descent_parser.rs::parse_from_tokens"]}
{"id": "C97", "title": "Grammars rewritten for the parser keep their language", "statement": "The code has no grammar transformations; users apply the textbook ones. Let a new symbol b be used (one that occurs in no production). (1) Removing the immediate left recursion of a (a -> a x becomes b -> x b, a -> y becomes a -> y b, b -> eps is added, a -> a goes away), if a has a production not beginning with a; (2) left factoring (the productions a -> c x become b -> x, or b -> eps, and a -> c b is added), if c is not empty; (3) unfolding (x -> u y v is replaced by x -> u z v for all productions y -> z), if y is a non-terminal; (4) folding (x -> u c v becomes x -> u b v, and b -> c is added), if c is not empty: Grammar::new accepts the result, other productions stay, no production of a begins with a (1), only a -> c b begins with c (2), and every non-terminal of the old grammar has the same sentences. So, whatever such rewritings and droppings of unused symbols are applied in whatever order, if the result is not left-recursive, has no two equal adjacent non-terminals and its table with an end marker has no conflicts, parse_from_tokens with the rewritten grammar gives Ok exactly for the sentences of the original grammar followed by the marker, and Err for all others.", "quantifier": "every accepted grammar, every sequence of these rewritings, every token sequence", "why_tests_cant": "quantifies over all grammars, sequences of rewritings and inputs", "anchors": ["src/grammar/context_free_grammar.rs::new", "src/parser/recursive_descent_parser.rs::new", "src/parser/recursive_descent_parser.rs::parse_from_tokens"]}
{"id": "C98", "title": "One grammar after another, and a grammar repeated", "statement": "(1) Two accepted grammars with different non-terminals and start -> a b for a new symbol start: Grammar::new accepts the result, its sentences are a sentence of the first followed by one of the second, it is left-recursive or has two equal adjacent non-terminals only if one of the two is or has; the table cells of the second grammar stay, those of the first stay if it is end-marked, and then the table has a conflict only if one of the two has. (2) Adding many -> a many | eps: accepted, the sentences are any number of sentences of the old grammar, left-recursive iff the old one is or a can be empty. In both cases, with an end marker behind and a table without conflicts (which follows if the parts are end-marked and have tables without conflicts), parse_from_tokens returns, for the tokens of trees of the parts, the tree made of exactly these trees, and Err for any input that is not made of sentences of the parts.", "quantifier": "every two accepted grammars apart from each other, every new symbols, every token sequence", "why_tests_cant": "quantifies over all pairs of grammars and inputs", "anchors": ["src/grammar/context_free_grammar.rs::new", "src/parser/recursive_descent_parser_transitions.rs::new", "src/parser/recursive_descent_parser.rs::parse_from_tokens"]}
{"id": "C99", "title": "A grammar in place of a terminal of another one", "statement": "Let b be a terminal of one accepted grammar and the initial non-terminal of another one, with no other symbol of one grammar a non-terminal of the other. Grammar::new accepts all productions together. The sentences are those of the first grammar with sentences of the second in place of every b, the parse trees those of the first grammar with trees of the second at the leaves b. If b cannot be empty the result is left-recursive only if one of the two is; two equal adjacent non-terminals come from one of the two or from b beside b. If the second grammar is end-marked, its table cells stay; the cells of the first stay for terminals that cannot start b, and a terminal that can start b and is not one of the first grammar gets the cell of b; if no terminal of the first grammar can start b there is a conflict iff one of the two tables has one. If both are end-marked, without left recursion, adjacent repeats and conflicts, then parse_from_tokens of the joint grammar decides the substituted language (on inputs that end with the end marker) with no further condition: Ok with the grafted tree for its members, Err for the others.", "quantifier": "every two accepted grammars that share only b and terminals, every token sequence", "why_tests_cant": "quantifies over all pairs of grammars and inputs", "anchors": ["src/grammar/context_free_grammar.rs::new", "src/parser/recursive_descent_parser_transitions.rs::new", "src/parser/recursive_descent_parser.rs::parse_from_tokens"]}
{"id": "C100", "title": "Brackets, optional parts and lists with separators", "statement": "Extend an accepted grammar with initial non-terminal a by new symbols in one of three ways: s -> op a cl; o -> a | eps; l -> a r, r -> sep a r | eps. Grammar::new accepts the result. The sentences are the old ones between op and cl; the old ones and the empty one; one or more old ones with sep between each two. Left recursion and equal adjacent non-terminals come only from the old grammar. The table (with an end marker) has a conflict iff the table of the old grammar with an end marker has one - for the optional part, or if the empty input is already an old sentence. Hence, if the old grammar has none of these, parse_from_tokens of the extended grammar needs no further condition: it answers Ok with the old tree between two leaves, below o, or with the old trees in a chain to the right, for the inputs of the described form, and Err for the others.", "quantifier": "every accepted grammar, every choice of new symbols, every token sequence", "why_tests_cant": "quantifies over all grammars and inputs", "anchors": ["src/grammar/context_free_grammar.rs::new", "src/parser/recursive_descent_parser_transitions.rs::new", "src/parser/recursive_descent_parser.rs::parse_from_tokens"]}
{"id": "C101", "title": "Nesting in brackets", "statement": "Let b be a terminal of an accepted grammar, a one of its non-terminals, op and cl new symbols, and add b -> op a cl, so that the grammar becomes recursive through brackets. Grammar::new accepts the result. Its sentences are the old ones with op v cl in place of every b, where v is a word of a in which the same was done, to any depth. It is left-recursive iff the old one is; it has equal adjacent non-terminals iff the old one has or b stands beside b. Its table cells for old terminals are the old ones, those for op are the old ones for b, and b has the one cell for op; if something can follow a, the table has a conflict iff the old one has. Hence, for an end-marked grammar with none of these, parse_from_tokens of the nested grammar answers Ok exactly for these sentences and Err for all other inputs that end with the end marker.", "quantifier": "every accepted grammar, every choice of terminal, non-terminal and new brackets, every token sequence and nesting depth", "why_tests_cant": "quantifies over all grammars, inputs and depths", "anchors": ["src/grammar/context_free_grammar.rs::new", "src/parser/recursive_descent_parser_transitions.rs::new", "src/parser/recursive_descent_parser.rs::parse_from_tokens"]}
{"id": "C102", "title": "Solvers that only insert", "statement": "Let no fix of the solver skip a token (final_token_position is the position asked). Then a Fix result keeps all tokens of a beginning of the input, each in its place, and these tokens are a sentence of the grammar in which every non-terminal may vanish. If the grammar is end-marked and the last token is the only end marker, that beginning is the whole input, or the result is the fix that the solver returned for the initial symbol at the first token. For the solver that answers every call with a gap of no tokens and the missing symbols, and a conflict-free grammar that is not left-recursive even when every non-terminal may vanish, the result is Ok exactly for sentences and Fix otherwise; inputs that cannot be completed to a sentence by insertion of non-terminals are given up as a whole.", "quantifier": "every accepted grammar, every solver of this kind, every token sequence", "why_tests_cant": "quantifies over all grammars, solvers and inputs", "anchors": ["src/parser/recursive_descent_parser.rs::parse_from_tokens", "src/parser/syntax_error_solver.rs"]}
{"id": "C103", "title": "Every regular language", "statement": "Write the right-linear grammar of a finite automaton (q -> a q' for a step, q -> eps for an accepting state) and add an end marker. The grammar is accepted, no parser built from it has a conflict, and a word followed by the end marker gives Ok exactly if the automaton accepts the word and Err otherwise. So for every regular language over a finite alphabet (in the sense of Mathlib) there is a grammar whose parser decides it.", "quantifier": "every finite automaton, every regular language over a finite alphabet, every hash order, every word", "why_tests_cant": "quantifies over all automata and words", "anchors": ["src/grammar/context_free_grammar.rs::new", "src/parser/recursive_descent_parser.rs::from_grammar", "src/parser/recursive_descent_parser.rs::parse_from_tokens"]}
{"id": "C104", "title": "The stack machine, and what may still come", "statement": "With a table without conflicts, from computed sets or sets of the user, the recursive parser accepts exactly the inputs on which the textbook's non-recursive predictive parser with that table empties its stack. What such a parser knows about the beginning of an input is therefore a list of symbols: no input with that beginning is accepted, or there is a stack such that an input is accepted iff the machine empties the stack on its rest. For end-marked grammars without equal adjacent non-terminals: for every beginning u of a sentence there is a list of symbols st such that u st is derived from the initial symbol and the rests that complete u to a sentence are exactly the words derived from st.", "quantifier": "every accepted grammar with a conflict-free table, every beginning of an input, every rest", "why_tests_cant": "quantifies over all grammars, inputs and rests", "anchors": ["src/parser/recursive_descent_parser.rs::parse_from_tokens", "src/parser/recursive_descent_parser_transitions.rs"]}
{"id": "C105", "title": "A limit of parsers whose table has no conflicts, and two ways past it", "statement": "No end-marked grammar without equal adjacent non-terminals whose table of computed sets is free of conflicts has exactly the sentences a^n b^n $ and a^n c^n $, and no parser of such a grammar returns Ok exactly for these inputs. The library gets past this limit in two ways: a grammar whose table has a conflict at the initial symbol decides this language by backtracking, for every supplier of hash orders; and sets of the user that leave two symbols out of FOLLOW turn an end-marked grammar with another language into a parser without conflicts that returns Ok exactly for these inputs.", "quantifier": "all end-marked grammars without equal adjacent non-terminals, all inputs that end with the only end marker", "why_tests_cant": "quantifies over all grammars and all inputs; no set of runs shows that no grammar exists", "anchors": ["src/parser/recursive_descent_parser.rs::parse_from_tokens", "src/parser/recursive_descent_parser_transitions.rs"]}
{"id": "C106", "title": "Grammars that recurse at the end only: exactly the regular languages", "statement": "If no symbol of an accepted grammar derives a form in which it stands in front of another symbol, the sentences are a regular language; and with a table without conflicts, from computed sets or sets of the user, the inputs for which the parser returns Ok are a regular language. The condition holds iff there are ranks such that all symbols of an output are of smaller rank than the input, except that the last one may be of equal rank. A language over a finite alphabet is regular iff some such grammar has parsers without conflicts, for every hash order, that return Ok exactly for its words with the end marker behind them. Without the condition the accepted inputs need not be a regular language, even if the table has no conflict.", "quantifier": "every accepted grammar that recurses at the end only, every input; every language over a finite alphabet", "why_tests_cant": "quantifies over all grammars, all inputs and all languages", "anchors": ["src/parser/recursive_descent_parser.rs::parse_from_tokens", "src/parser/recursive_descent_parser_transitions.rs"]}
{"id": "C107", "title": "Printing trees, editing trees and parsing a part again", "statement": "Replacing a node of a parse tree by a parse tree of the same symbol gives a parse tree, whose tokens are those of the new node with the old tokens around it; this holds for every grammar. In an end-marked grammar without equal adjacent non-terminals and with a table without conflicts, parsing the tokens of a parse tree gives the tree back, lexemes included; if in the tree of an accepted input a node is replaced by a parse tree of the same symbol, parsing the edited tokens gives the edited tree, with or without a solver; and if a parser for the same productions that begins with the symbol of a node accepts a new part, then the whole input with this part exchanged is accepted, and its tree is the old one with the tree of the part in place of the node. With a conflict in the table the edited tokens may be rejected.", "quantifier": "every accepted grammar, every parse tree, every node in it and every replacement; every accepted input for the parser", "why_tests_cant": "quantifies over all trees, nodes and replacements", "anchors": ["src/parser/recursive_descent_parser.rs::parse_from_tokens", "src/parser/recursive_descent_parser.rs"]}
{"id": "C108", "title": "What an edit of the input leaves as it is", "statement": "Let no table cell hold two productions; sets computed or of the user, any solver or none. If two inputs are accepted, every node of the first tree such that the inputs agree up to the end of the node, and on the type of the next token, is a node of the second tree at the same place. A node of the first tree and a node of the second one with the same symbol are equal if, from where they begin, the inputs agree on the tokens of the first node and the type of the next one. So if u w v and u w' v are accepted, all nodes that end before the last token of u are kept, and nodes of the same symbol that begin at the same token of v are equal. With a conflict in the table this fails.", "quantifier": "every conflict-free table, every two accepted inputs, every node of their trees", "why_tests_cant": "quantifies over all pairs of inputs and all nodes", "anchors": ["src/parser/recursive_descent_parser.rs::parse_from_tokens", "src/parser/recursive_descent_parser.rs"]}
{"id": "C109", "title": "A parser for a coarser grammar", "statement": "Let f merge symbols of a grammar so that each of its productions becomes one of a second, coarser grammar, only the epsilon symbol becomes the epsilon symbol, and no symbol without productions becomes one with productions. If the coarser grammar is end-marked and conflict-free, then what any parser of the finer grammar accepts (conflicts, sets of the user and solvers included), the parser of the coarser grammar accepts with the token types merged, with any solver, and the tree is the merged one; so what it reports as an error or fixes no parser of the finer grammar accepts. If Grammar::new accepts the coarser grammar it accepts the finer one; absence of left recursion and of repeated neighbours carries over, hence termination; so do LL(1) and absence of conflicts if each production has its own one in the coarser grammar. Merging a terminal into a non-terminal, or a conflict in the coarser table, breaks this.", "quantifier": "every merging of symbols, every pair of grammars, every solver and input", "why_tests_cant": "quantifies over all functions on symbols, all pairs of grammars and all inputs", "anchors": ["src/parser/recursive_descent_parser.rs::parse_from_tokens", "src/parser/recursive_descent_parser_transitions.rs::from"]}
{"id": "C110", "title": "Expressions with operators on any number of levels", "statement": "Take the usual grammar of expressions with left-associative infix operators on n levels of precedence and parentheses, for any n: Grammar::new accepts it in any hash order and the table has no conflict. With any solver, an input that is an expression by the left-recursive grammar levelK = levelK+1 or levelK opK levelK+1, followed by the end marker and anything, is accepted, and reading the tree with operators applied from left to right gives the expression that grammar defines; conversely whatever is accepted is such an expression. Each word of infix notation is exactly one such expression, so an input that ends with its one end marker is accepted iff the rest is infix notation and otherwise rejected with Err. Printing any expression with only the needed parentheses and parsing it gives the expression back.", "quantifier": "every number of levels, every expression, hash order, solver and rest of input", "why_tests_cant": "quantifies over an infinite family of grammars and all inputs to each", "anchors": ["src/parser/recursive_descent_parser.rs::parse_from_tokens", "src/grammar/context_free_grammar.rs::new"]}
{"id": "C111", "title": "The dangling else", "statement": "Take the textbook grammar of statements with an optional else, which is ambiguous and has a conflict in its table in either order of its productions. In any hash order: if the production for else stands first, exactly the statements are accepted, whatever stands behind the end marker and with any solver, which is not asked on them, and the tree is the one in which each else belongs to the nearest if, of which there is exactly one for each statement; without a solver, other inputs that end with their one end marker are rejected with Err. If it stands last, then without a solver exactly the statements without any else are accepted, and every statement with an else is rejected with Err.", "quantifier": "every statement and every input that ends with its one end marker, every hash order, both orders", "why_tests_cant": "quantifies over all nestings of statements and all inputs", "anchors": ["src/parser/recursive_descent_parser.rs::parse_from_tokens", "src/parser/recursive_descent_parser_transitions.rs::from"]}
{"id": "C112", "title": "Where the first candidate is always right", "statement": "If a tree over a beginning of the input is built by expanding each non-terminal by the first production of its table cell for the token there, then parse_from_tokens returns Ok with this tree, with any solver and without asking it, for computed and user-supplied sets, however many productions the cells hold; there is at most one such tree. So if the table of a second parser, for a grammar with the same non-terminals, only has more productions at the end of its cells than a table without conflicts, the second parser accepts what the first accepts, with the same trees, whatever their solvers.", "quantifier": "every grammar, parser, solver, input and tree; every pair of such tables", "why_tests_cant": "quantifies over all grammars, tables, trees and inputs", "anchors": ["src/parser/recursive_descent_parser.rs::parse_from_tokens", "src/parser/recursive_descent_parser_transitions.rs::get_productions"]}
{"id": "C113", "title": "Productions that are never used", "statement": "Let a symbol X stand at the end of productions only, and let there be no solver. Then in the tree of an Ok result X is expanded by the empty production wherever that is the first one of the table cell; the ones behind it are never used. So if the empty production comes first in all cells that have a certain other production of X, each accepted input begins with a sentence of the grammar without this production, and the tree returned is a parse tree of that grammar.", "quantifier": "every grammar, such symbol, table of computed or user-supplied sets, input and Ok result", "why_tests_cant": "quantifies over all grammars, inputs and tables", "anchors": ["src/parser/recursive_descent_parser.rs::parse_from_tokens", "src/parser/recursive_descent_parser_transitions.rs::get_productions"]}
