{
 "claims": [
  {
   "property": "C01",
   "status": "proved",
   "theorems": [
    "Verif.Props.C01_new_panics_iff",
    "Verif.Props.C01_new_returns_iff"
   ],
   "note": ""
  },
  {
   "property": "C02",
   "status": "proved",
   "theorems": [
    "Verif.Props.C02_get_productions"
   ],
   "note": ""
  },
  {
   "property": "C03",
   "status": "proved",
   "theorems": [
    "Verif.Props.C03_classification",
    "Verif.Props.C03_initial_symbol_irrelevant"
   ],
   "note": ""
  },
  {
   "property": "C04",
   "status": "proved",
   "theorems": [
    "Verif.Props.C04_first_follow_returns"
   ],
   "note": ""
  },
  {
   "property": "C05",
   "status": "proved",
   "theorems": [
    "Verif.Props.C05_first_exact"
   ],
   "note": ""
  },
  {
   "property": "C06",
   "status": "proved",
   "theorems": [
    "Verif.Props.C06_first_eps"
   ],
   "note": ""
  },
  {
   "property": "C07",
   "status": "proved",
   "theorems": [
    "Verif.Props.C07_first_domain"
   ],
   "note": ""
  },
  {
   "property": "C08",
   "status": "proved",
   "theorems": [
    "Verif.Props.C08_follow_sound"
   ],
   "note": ""
  },
  {
   "property": "C09",
   "status": "partial",
   "theorems": [
    "Verif.Props.C09_follow_complete_partial",
    "Verif.Props.C09_follow_complete_iff",
    "Verif.Props.C09_follow_incomplete"
   ],
   "note": "False of the pinned code in general (C09_follow_incomplete). Proved for grammars without two equal adjacent non-terminals; C09_follow_complete_iff says exactly when it holds."
  },
  {
   "property": "C10",
   "status": "proved",
   "theorems": [
    "Verif.Props.C10_follow_domain"
   ],
   "note": ""
  },
  {
   "property": "C11",
   "status": "proved",
   "theorems": [
    "Verif.Props.C11_first_follow_hash_independent",
    "Verif.Props.C11_table_hash_independent"
   ],
   "note": ""
  },
  {
   "property": "C12",
   "status": "proved",
   "theorems": [
    "Verif.Props.C12_table_cells"
   ],
   "note": ""
  },
  {
   "property": "C13",
   "status": "partial",
   "theorems": [
    "Verif.Props.C13_table_first_complete",
    "Verif.Props.C13_table_computed_follow_complete",
    "Verif.Props.C13_table_complete_partial",
    "Verif.Props.C13_table_complete_iff",
    "Verif.Props.C13_table_complete_of_follow",
    "Verif.Props.C13_table_incomplete"
   ],
   "note": "FIRST half and FOLLOW half relative to the computed sets proved without restriction; full claim proved without equal adjacent non-terminals; refuted otherwise; the _iff theorem says exactly when it holds."
  },
  {
   "property": "C14",
   "status": "partial",
   "theorems": [
    "Verif.Props.C14_table_precise_partial",
    "Verif.Props.C14_table_exact",
    "Verif.Props.C14_table_precise_iff",
    "Verif.Props.C14_table_imprecise"
   ],
   "note": "Proved for productions without a nullable leading non-terminal; the exact contents of the cells are C14_table_exact; refuted otherwise; the _iff theorem says exactly when it holds."
  },
  {
   "property": "C15",
   "status": "proved",
   "theorems": [
    "Verif.Props.C15_ok_is_parse_tree"
   ],
   "note": ""
  },
  {
   "property": "C16",
   "status": "proved",
   "theorems": [
    "Verif.Props.C16_leaves_are_prefix"
   ],
   "note": ""
  },
  {
   "property": "C17",
   "status": "partial",
   "theorems": [
    "Verif.Props.C17_whole_input_partial",
    "Verif.Props.C17_trailing_tokens_ignored",
    "Verif.Props.C17_holds_iff_nothing_accepted"
   ],
   "note": "Proved for end-marked grammars and inputs; without that restriction on the input it holds for a parser iff the parser accepts nothing (C17_holds_iff_nothing_accepted)."
  },
  {
   "property": "C18",
   "status": "partial",
   "theorems": [
    "Verif.Props.C18_empty_input_panics",
    "Verif.Props.C18_no_panic_partial",
    "Verif.Props.C18_no_panic_with_solver_partial",
    "Verif.Props.C18_panic_only_terminals",
    "Verif.Props.C18_panic_stops_before_non_terminal",
    "Verif.Props.C18_panic_begins_sentence",
    "Verif.Props.C18_input_runs_out",
    "Verif.Props.C18_fix_skips_end"
   ],
   "note": "First half proved; second half proved for end-marked grammars and inputs, without a solver and with one that does not skip the end, and for inputs with a token that no terminal matches (C72), and for all inputs that do not begin a sentence (C18_panic_begins_sentence); refuted in general. C24 characterises the panics exactly, C73 in terms of derivations for complete tables without conflicts."
  },
  {
   "property": "C19",
   "status": "proved",
   "theorems": [
    "Verif.Props.C19_terminates",
    "Verif.Props.C19_terminates_any_first_follow"
   ],
   "note": ""
  },
  {
   "property": "C20",
   "status": "proved",
   "theorems": [
    "Verif.Props.C20_diverges",
    "Verif.Props.C20_direct_left_recursion",
    "Verif.Props.C20_diverges_hidden"
   ],
   "note": ""
  },
  {
   "property": "C21",
   "status": "proved",
   "theorems": [
    "Verif.Props.C21_ll1_complete",
    "Verif.Props.C21_ll1_complete_end_marked"
   ],
   "note": ""
  },
  {
   "property": "C22",
   "status": "proved",
   "theorems": [
    "Verif.Props.C22_decides"
   ],
   "note": ""
  },
  {
   "property": "C23",
   "status": "partial",
   "theorems": [
    "Verif.Props.C23_complete_partial",
    "Verif.Props.C23_backtracking_incomplete",
    "Verif.Props.C23_ll1_grammar_incomplete",
    "Verif.Props.C23_ll1_accepts_iff",
    "Verif.Props.C23_ll1_both_sides"
   ],
   "note": "Proved for conflict-free tables without equal adjacent non-terminals; for end-marked reduced LL(1) grammars with a conflict-free table it holds iff the table has all entries of Algorithm 4.31; refuted in general, even for an LL(1) grammar. See C48 for conditions under which backtracking is complete with conflicts."
  },
  {
   "property": "C24",
   "status": "proved",
   "theorems": [
    "Verif.Props.C24_ordered_choice",
    "Verif.Props.C24_ordered_choice_any_first_follow"
   ],
   "note": ""
  },
  {
   "property": "C25",
   "status": "proved",
   "theorems": [
    "Verif.Props.C25_err_lists_candidates"
   ],
   "note": ""
  },
  {
   "property": "C26",
   "status": "partial",
   "theorems": [
    "Verif.Props.C26_failed_production_split_partial",
    "Verif.Props.C26_spelling_iff",
    "Verif.Props.C26_spelling_fails"
   ],
   "note": "The claimed spelling is refuted; what holds (counts, spelling when only terminals precede the failed symbol) is proved; without a solver, C26_spelling_iff says exactly when it holds."
  },
  {
   "property": "C27",
   "status": "proved",
   "theorems": [
    "Verif.Props.C27_no_fix_without_solver"
   ],
   "note": ""
  },
  {
   "property": "C28",
   "status": "proved",
   "theorems": [
    "Verif.Props.C28_declining_solver"
   ],
   "note": ""
  },
  {
   "property": "C29",
   "status": "partial",
   "theorems": [
    "Verif.Props.C29_several_candidates_partial",
    "Verif.Props.C29_conflict_free_partial",
    "Verif.Props.C29_not_asked_partial",
    "Verif.Props.C29_exact",
    "Verif.Props.C29_fix_preempts_backtracking"
   ],
   "note": "Proved for conflict-free tables and for a first token with several candidates; the full claim is refuted, and C29_exact gives the exact condition (every solver, panicking ones included)."
  },
  {
   "property": "C30",
   "status": "proved",
   "theorems": [
    "Verif.Props.C30_only_legitimate_calls",
    "Verif.Props.C30_single_call_with_two_candidates",
    "Verif.Props.C30_multi_call_with_no_production",
    "Verif.Props.C30_call_for_parsed_symbol"
   ],
   "note": ""
  },
  {
   "property": "C31",
   "status": "proved",
   "theorems": [
    "Verif.Props.C31_fix_structure"
   ],
   "note": ""
  },
  {
   "property": "C32",
   "status": "proved",
   "theorems": [
    "Verif.Props.C32_lexemes",
    "Verif.Props.C32_same_types"
   ],
   "note": ""
  },
  {
   "property": "C33",
   "status": "proved",
   "theorems": [
    "Verif.Props.C33_any_first_follow_sound"
   ],
   "note": ""
  },
  {
   "property": "C34",
   "status": "proved",
   "theorems": [
    "Verif.Props.C34_unexpected_first_token"
   ],
   "note": ""
  },
  {
   "property": "C35",
   "status": "proved",
   "theorems": [
    "Verif.Props.C35_token_eq"
   ],
   "note": ""
  },
  {
   "property": "C36",
   "status": "proved",
   "theorems": [
    "Verif.Props.C36_hash_independent",
    "Verif.Props.C36_stable"
   ],
   "note": ""
  },
  {
   "property": "C37",
   "status": "proved",
   "theorems": [
    "Verif.Props.C37_unambiguous",
    "Verif.Props.C37_unambiguous_followed"
   ],
   "note": ""
  },
  {
   "property": "C38",
   "status": "proved",
   "theorems": [
    "Verif.Props.C38_exact_result",
    "Verif.Props.C38_exact_result_any_first_follow",
    "Verif.Props.C38_search_deterministic"
   ],
   "note": ""
  },
  {
   "property": "C39",
   "status": "proved",
   "theorems": [
    "Verif.Props.C39_err_only_if_declined",
    "Verif.Props.C39_never_declining"
   ],
   "note": ""
  },
  {
   "property": "C40",
   "status": "proved",
   "theorems": [
    "Verif.Props.C40_one_call"
   ],
   "note": ""
  },
  {
   "property": "C41",
   "status": "partial",
   "theorems": [
    "Verif.Props.C41_fix_is_used_partial",
    "Verif.Props.C41_conflict_free_partial",
    "Verif.Props.C41_last_answer_decides",
    "Verif.Props.C41_fix_lost",
    "Verif.Props.C41_fix_lost_in_accepted_input",
    "Verif.Props.C41_fix_only_reported"
   ],
   "note": "Proved when the first token leaves a choice, and for conflict-free tables with Fix weakened to Fix or an Err that contains a fix; refuted in general. C41_last_answer_decides: for conflict-free tables, exactly when the result is Fix."
  },
  {
   "property": "C42",
   "status": "proved",
   "theorems": [
    "Verif.Props.C42_initial_symbol_without_productions"
   ],
   "note": ""
  },
  {
   "property": "C43",
   "status": "proved",
   "theorems": [
    "Verif.Props.C43_ll1_of_conflictFree",
    "Verif.Props.C43_conflictFree_iff_ll1",
    "Verif.Props.C43_ll1_decides",
    "Verif.Props.C43_ll1_grammar_rejects_sentence"
   ],
   "note": "The restriction on nullable leads is necessary: C43_ll1_grammar_rejects_sentence."
  },
  {
   "property": "C44",
   "status": "proved",
   "theorems": [
    "Verif.Props.C44_table_any_sets",
    "Verif.Props.C44_parser_any_sets",
    "Verif.Props.C44_own_sets_supply"
   ],
   "note": ""
  },
  {
   "property": "C45",
   "status": "proved",
   "theorems": [
    "Verif.Props.C45_table_order",
    "Verif.Props.C45_parse_order",
    "Verif.Props.C45_order_of_one_symbol_matters"
   ],
   "note": ""
  },
  {
   "property": "C46",
   "status": "proved",
   "theorems": [
    "Verif.Props.C46_trees_are_language",
    "Verif.Props.C46_ok_in_language",
    "Verif.Props.C46_ok_iff_in_language",
    "Verif.Props.C46_same_language"
   ],
   "note": "The language is that of Mathlib's ContextFreeGrammar."
  },
  {
   "property": "C47",
   "status": "proved",
   "theorems": [
    "Verif.Props.C47_fix_parts_side_by_side",
    "Verif.Props.C47_fix_keeps_order",
    "Verif.Props.C47_token_twice"
   ],
   "note": ""
  },
  {
   "property": "C48",
   "status": "proved",
   "theorems": [
    "Verif.Props.C48_no_err",
    "Verif.Props.C48_backtracking_complete",
    "Verif.Props.C48_prefix_free_decides"
   ],
   "note": ""
  },
  {
   "property": "C49",
   "status": "proved",
   "theorems": [
    "Verif.Props.C49_ll1_not_left_recursive",
    "Verif.Props.C49_terminates",
    "Verif.Props.C49_decides",
    "Verif.Props.C49_useless_symbol_diverges"
   ],
   "note": ""
  },
  {
   "property": "C50",
   "status": "proved",
   "theorems": [
    "Verif.Props.C50_reads_no_further",
    "Verif.Props.C50_err_at_first_bad_token"
   ],
   "note": ""
  },
  {
   "property": "C51",
   "status": "proved",
   "theorems": [
    "Verif.Props.C51_nothing_behind_end_marker"
   ],
   "note": ""
  },
  {
   "property": "C52",
   "status": "proved",
   "theorems": [
    "Verif.Props.C52_renaming_accepted",
    "Verif.Props.C52_renaming_table",
    "Verif.Props.C52_renaming",
    "Verif.Props.C52_injective_needed"
   ],
   "note": ""
  },
  {
   "property": "C53",
   "status": "proved",
   "theorems": [
    "Verif.Props.C53_duplicate_production",
    "Verif.Props.C53_duplicate_changes_report",
    "Verif.Props.C53_duplicate_changes_solver"
   ],
   "note": "The report and the solver are excluded: witnesses C53_duplicate_changes_*."
  },
  {
   "property": "C54",
   "status": "proved",
   "theorems": [
    "Verif.Props.C54_reachable_cells",
    "Verif.Props.C54_unused_productions",
    "Verif.Props.C54_unreachable_production_matters"
   ],
   "note": ""
  },
  {
   "property": "C55",
   "status": "proved",
   "theorems": [
    "Verif.Props.C55_recursion_depth",
    "Verif.Props.C55_depth_grows"
   ],
   "note": ""
  },
  {
   "property": "C56",
   "status": "proved",
   "theorems": [
    "Verif.Props.C56_linear_calls",
    "Verif.Props.C56_exponential_calls",
    "Verif.Props.C56_exponential_recovery",
    "Verif.Props.C56_at_most_exponential"
   ],
   "note": ""
  },
  {
   "property": "C57",
   "status": "proved",
   "theorems": [
    "Verif.Props.C57_no_fix_no_change",
    "Verif.Props.C57_counting_is_transparent",
    "Verif.Props.C57_fix_turns_ok_into_err",
    "Verif.Props.C57_fix_changes_tree"
   ],
   "note": ""
  },
  {
   "property": "C58",
   "status": "proved",
   "theorems": [
    "Verif.Props.C58_only_errors_change"
   ],
   "note": ""
  },
  {
   "property": "C59",
   "status": "proved",
   "theorems": [
    "Verif.Props.C59_declined_then_parent",
    "Verif.Props.C59_logging_is_transparent",
    "Verif.Props.C59_backtracking_skips_parent"
   ],
   "note": ""
  },
  {
   "property": "C60",
   "status": "proved",
   "theorems": [
    "Verif.Props.C60_production_after_its_symbol",
    "Verif.Props.C59_logging_is_transparent"
   ],
   "note": ""
  },
  {
   "property": "C61",
   "status": "proved",
   "theorems": [
    "Verif.Props.C61_no_attempt_before",
    "Verif.Props.C61_single_call_after_fix",
    "Verif.Props.C59_logging_is_transparent"
   ],
   "note": ""
  },
  {
   "property": "C62",
   "status": "proved",
   "theorems": [
    "Verif.Props.C62_finite_iterator",
    "Verif.Props.C62_panicking_iterator",
    "Verif.Props.C62_infinite_iterator",
    "Verif.Props.C62_cases"
   ],
   "note": ""
  },
  {
   "property": "C63",
   "status": "proved",
   "theorems": [
    "Verif.Props.C63_one_token_ahead",
    "Verif.Props.C63_reparse",
    "Verif.Props.C63_lookahead_matters",
    "Verif.Props.C63_reparse_cases",
    "Verif.Props.C63_conflicts_reparse",
    "Verif.Props.C63_conflicts_read_further"
   ],
   "note": ""
  },
  {
   "property": "C64",
   "status": "proved",
   "theorems": [
    "Verif.Props.C64_passes",
    "Verif.Props.C64_follow_passes",
    "Verif.Props.C64_first_passes_needed",
    "Verif.Props.C64_follow_passes_needed"
   ],
   "note": ""
  },
  {
   "property": "C65",
   "status": "proved",
   "theorems": [
    "Verif.Props.C65_sets_grow",
    "Verif.Props.C65_cells_grow",
    "Verif.Props.C65_ok_kept",
    "Verif.Props.C65_conflicts_can_break"
   ],
   "note": ""
  },
  {
   "property": "C66",
   "status": "proved",
   "theorems": [
    "Verif.Props.C66_innermost_expected",
    "Verif.Props.C66_report_is_path",
    "Verif.Props.C66_expected_at_first_bad_token"
   ],
   "note": ""
  },
  {
   "property": "C67",
   "status": "proved",
   "theorems": [
    "Verif.Props.C67_tree_height",
    "Verif.Props.C67_tree_nodes"
   ],
   "note": ""
  },
  {
   "property": "C68",
   "status": "proved",
   "theorems": [
    "Verif.Props.C68_unambiguous_same_tree",
    "Verif.Props.C68_unambiguous_of_sets"
   ],
   "note": ""
  },
  {
   "property": "C69",
   "status": "proved",
   "theorems": [
    "Verif.Props.C69_closed_sets_contain",
    "Verif.Props.C69_closed_sets_table",
    "Verif.Props.C69_closed_sets_decide",
    "Verif.Props.C69_complete_table",
    "Verif.Props.C69_complete_table_decides",
    "Verif.Props.C69_repairs"
   ],
   "note": ""
  },
  {
   "property": "C70",
   "status": "proved",
   "theorems": [
    "Verif.Props.C70_ok_predicted",
    "Verif.Props.C70_conflict_free_exact"
   ],
   "note": ""
  },
  {
   "property": "C71",
   "status": "proved",
   "theorems": [
    "Verif.Props.C71_ll1_unambiguous",
    "Verif.Props.C71_ll1_unambiguous_followed"
   ],
   "note": ""
  },
  {
   "property": "C72",
   "status": "proved",
   "theorems": [
    "Verif.Props.C72_no_panic",
    "Verif.Props.C72_no_panic_with_solver",
    "Verif.Props.C72_total",
    "Verif.Props.C72_append",
    "Verif.Props.C72_unknown_token_guards"
   ],
   "note": ""
  },
  {
   "property": "C73",
   "status": "proved",
   "theorems": [
    "Verif.Props.C73_panics_iff",
    "Verif.Props.C73_accepts_all_iff",
    "Verif.Props.C73_beginning_of_sentence",
    "Verif.Props.C73_sentence",
    "Verif.Props.C73_three_cases"
   ],
   "note": ""
  },
  {
   "property": "C74",
   "status": "proved",
   "theorems": [
    "Verif.Props.C74_new_returns",
    "Verif.Props.C74_first_follow",
    "Verif.Props.C74_table",
    "Verif.Props.C74_subtrees",
    "Verif.Props.C74_conflicts"
   ],
   "note": ""
  },
  {
   "property": "C75",
   "status": "proved",
   "theorems": [
    "Verif.Props.C75_first_rules",
    "Verif.Props.C75_least",
    "Verif.Props.C75_obeys_iff",
    "Verif.Props.C75_no_adjacent_repeat",
    "Verif.Props.C75_may_not_obey"
   ],
   "note": ""
  },
  {
   "property": "C76",
   "status": "proved",
   "theorems": [
    "Verif.Props.C76_report_positions",
    "Verif.Props.C76_conflict_free_exact",
    "Verif.Props.C76_report_depth",
    "Verif.Props.C76_depth_grows"
   ],
   "note": ""
  },
  {
   "property": "C77",
   "status": "proved",
   "theorems": [
    "Verif.Props.C77_linear_report",
    "Verif.Props.C77_report_bound",
    "Verif.Props.C77_exponential_report"
   ],
   "note": ""
  },
  {
   "property": "C78",
   "status": "proved",
   "theorems": [
    "Verif.Props.C78_shown_failures",
    "Verif.Props.C78_conflicts_hide_failures"
   ],
   "note": ""
  },
  {
   "property": "C79",
   "status": "proved",
   "theorems": [
    "Verif.Props.C79_replay",
    "Verif.Props.C79_same_calls",
    "Verif.Props.C79_answers_decide",
    "Verif.Props.C79_recording_is_transparent"
   ],
   "note": ""
  },
  {
   "property": "C80",
   "status": "proved",
   "theorems": [
    "Verif.Props.C80_linear_calls",
    "Verif.Props.C80_exponential_calls"
   ],
   "note": ""
  },
  {
   "property": "C81",
   "status": "proved",
   "theorems": [
    "Verif.Props.C81_insertions",
    "Verif.Props.C81_any_position",
    "Verif.Props.C81_insertion_loops"
   ],
   "note": ""
  },
  {
   "property": "C82",
   "status": "proved",
   "theorems": [
    "Verif.Props.C82_fix_is_sentential_form",
    "Verif.Props.C82_repaired_input_accepted",
    "Verif.Props.C82_repaired_tree"
   ],
   "note": ""
  },
  {
   "property": "C83",
   "status": "proved",
   "theorems": [
    "Verif.Props.C83_diverges_iff",
    "Verif.Props.C83_diverges_iff_any_first_follow",
    "Verif.Props.C83_call_stack",
    "Verif.Props.C83_left_recursive_example"
   ],
   "note": ""
  },
  {
   "property": "C84",
   "status": "proved",
   "theorems": [
    "Verif.Props.C84_no_repeat",
    "Verif.Props.C84_tree_height",
    "Verif.Props.C84_lost_sentence",
    "Verif.Props.C84_not_decided",
    "Verif.Props.C84_left_recursive_example",
    "Verif.Props.C84_ambiguous_example"
   ],
   "note": ""
  },
  {
   "property": "C85",
   "status": "proved",
   "theorems": [
    "Verif.Props.C85_overflow",
    "Verif.Props.C85_decided",
    "Verif.Props.C85_example"
   ],
   "note": ""
  },
  {
   "property": "C86",
   "status": "proved",
   "theorems": [
    "Verif.Props.C86_every_ll1_grammar",
    "Verif.Props.C86_with_useless_symbols",
    "Verif.Props.C86_not_left_recursive",
    "Verif.Props.C86_example"
   ],
   "note": ""
  },
  {
   "property": "C87",
   "status": "proved",
   "theorems": [
    "Verif.Props.C87_same_lead_same_cells",
    "Verif.Props.C87_no_sets_suffice",
    "Verif.Props.C87_either_sentence"
   ],
   "note": ""
  },
  {
   "property": "C88",
   "status": "proved",
   "theorems": [
    "Verif.Props.C88_end_marked",
    "Verif.Props.C88_sets",
    "Verif.Props.C88_cells",
    "Verif.Props.C88_conflict_free",
    "Verif.Props.C88_decides",
    "Verif.Props.C88_old_parser",
    "Verif.Props.C88_example"
   ],
   "note": ""
  },
  {
   "property": "C89",
   "status": "proved",
   "theorems": [
    "Verif.Props.C89_answers_alike",
    "Verif.Props.C89_sessions_alike",
    "Verif.Props.C89_history",
    "Verif.Props.C89_history_can_matter"
   ],
   "note": ""
  },
  {
   "property": "C90",
   "status": "proved",
   "theorems": [
    "Verif.Props.C90_unit",
    "Verif.Props.C90_associative",
    "Verif.Props.C90_second_unused",
    "Verif.Props.C90_second_declined",
    "Verif.Props.C90_second_can_interfere"
   ],
   "note": ""
  },
  {
   "property": "C91",
   "status": "proved",
   "theorems": [
    "Verif.Props.C91_sound",
    "Verif.Props.C91_complete"
   ],
   "note": ""
  },
  {
   "property": "C92",
   "status": "proved",
   "theorems": [
    "Verif.Props.C92_grammar",
    "Verif.Props.C92_start_cells",
    "Verif.Props.C92_cells",
    "Verif.Props.C92_conflict_free",
    "Verif.Props.C92_first_only",
    "Verif.Props.C92_second_only",
    "Verif.Props.C92_both",
    "Verif.Props.C92_neither"
   ],
   "note": ""
  },
  {
   "property": "C93",
   "status": "proved",
   "theorems": [
    "Verif.Props.C93_always_repaired",
    "Verif.Props.C93_sentence_or_fix",
    "Verif.Props.C93_no_token_lost",
    "Verif.Props.C93_all_tokens",
    "Verif.Props.C93_panic_mode"
   ],
   "note": ""
  },
  {
   "property": "C94",
   "status": "proved",
   "theorems": [
    "Verif.Props.C94_reported_tokens",
    "Verif.Props.C94_error_not_before",
    "Verif.Props.C94_position_hidden"
   ],
   "note": ""
  },
  {
   "property": "C95",
   "status": "proved",
   "theorems": [
    "Verif.Props.C95_sets",
    "Verif.Props.C95_cells",
    "Verif.Props.C95_any_order",
    "Verif.Props.C95_prefix_free",
    "Verif.Props.C45_order_of_one_symbol_matters"
   ],
   "note": ""
  },
  {
   "property": "C96",
   "status": "proved",
   "theorems": [
    "Verif.Props.C96_left_recursion",
    "Verif.Props.C96_certificate",
    "Verif.Props.C96_checked_decides",
    "Verif.Props.C96_empty_first"
   ],
   "note": ""
  },
  {
   "property": "C97",
   "status": "proved",
   "theorems": [
    "Verif.Props.C97_left_recursion_removed",
    "Verif.Props.C97_left_factored",
    "Verif.Props.C97_unfolded",
    "Verif.Props.C97_folded",
    "Verif.Props.C97_rewritten_language",
    "Verif.Props.C97_decides",
    "Verif.Props.C97_example",
    "Verif.Props.C97_indirect_example"
   ],
   "note": ""
  },
  {
   "property": "C98",
   "status": "proved",
   "theorems": [
    "Verif.Props.C98_sequence",
    "Verif.Props.C98_sequence_cells",
    "Verif.Props.C98_sequence_marked",
    "Verif.Props.C98_sequence_decides",
    "Verif.Props.C98_repeat",
    "Verif.Props.C98_repeat_marked",
    "Verif.Props.C98_repeat_decides",
    "Verif.Props.C98_statements",
    "Verif.Props.C98_sequence_example",
    "Verif.Props.C98_repeat_example"
   ],
   "note": ""
  },
  {
   "property": "C99",
   "status": "proved",
   "theorems": [
    "Verif.Props.C99_plug",
    "Verif.Props.C99_plug_cells",
    "Verif.Props.C99_plug_conflict_free",
    "Verif.Props.C99_plug_decides",
    "Verif.Props.C99_plug_example"
   ],
   "note": ""
  },
  {
   "property": "C100",
   "status": "proved",
   "theorems": [
    "Verif.Props.C100_brackets",
    "Verif.Props.C100_brackets_conflict_free",
    "Verif.Props.C100_brackets_decides",
    "Verif.Props.C100_optional",
    "Verif.Props.C100_optional_conflict_free",
    "Verif.Props.C100_optional_decides",
    "Verif.Props.C100_separated",
    "Verif.Props.C100_separated_conflict_free",
    "Verif.Props.C100_separated_decides",
    "Verif.Props.C100_example"
   ],
   "note": ""
  },
  {
   "property": "C101",
   "status": "proved",
   "theorems": [
    "Verif.Props.C101_nesting",
    "Verif.Props.C101_cells",
    "Verif.Props.C101_conflict_free",
    "Verif.Props.C101_decides",
    "Verif.Props.C101_example"
   ],
   "note": ""
  },
  {
   "property": "C102",
   "status": "proved",
   "theorems": [
    "Verif.Props.C102_all_kept",
    "Verif.Props.C102_whole_input",
    "Verif.Props.C102_insert_missing",
    "Verif.Props.C102_insert_missing_decides",
    "Verif.Props.C102_example"
   ],
   "note": ""
  },
  {
   "property": "C103",
   "status": "proved",
   "theorems": [
    "Verif.Props.C103_automaton",
    "Verif.Props.C103_dfa",
    "Verif.Props.C103_regular",
    "Verif.Props.C103_example"
   ],
   "note": ""
  },
  {
   "property": "C104",
   "status": "proved",
   "theorems": [
    "Verif.Props.C104_machine",
    "Verif.Props.C104_rest",
    "Verif.Props.C104_sentences",
    "Verif.Props.C104_example"
   ],
   "note": ""
  },
  {
   "property": "C105",
   "status": "proved",
   "theorems": [
    "Verif.Props.C105_not_the_language",
    "Verif.Props.C105_no_conflict_free_parser",
    "Verif.Props.C105_conflict_decides",
    "Verif.Props.C105_supplied_sets",
    "Verif.Props.C105_example"
   ],
   "note": ""
  },
  {
   "property": "C106",
   "status": "proved",
   "theorems": [
    "Verif.Props.C106_ranks",
    "Verif.Props.C106_sentences",
    "Verif.Props.C106_accepted",
    "Verif.Props.C106_exactly",
    "Verif.Props.C106_needed",
    "Verif.Props.C106_example"
   ],
   "note": ""
  },
  {
   "property": "C107",
   "status": "proved",
   "theorems": [
    "Verif.Props.C107_trees",
    "Verif.Props.C107_print",
    "Verif.Props.C107_edit",
    "Verif.Props.C107_edit_solver",
    "Verif.Props.C107_reparse",
    "Verif.Props.C107_conflict_breaks",
    "Verif.Props.C107_example"
   ],
   "note": ""
  },
  {
   "property": "C108",
   "status": "proved",
   "theorems": [
    "Verif.Props.C108_prefix",
    "Verif.Props.C108_same_symbol",
    "Verif.Props.C108_edit",
    "Verif.Props.C108_conflict_breaks",
    "Verif.Props.C108_example"
   ],
   "note": ""
  },
  {
   "property": "C109",
   "status": "proved",
   "theorems": [
    "Verif.Props.C109_trees",
    "Verif.Props.C109_sentences",
    "Verif.Props.C109_new",
    "Verif.Props.C109_conditions",
    "Verif.Props.C109_returns",
    "Verif.Props.C109_ll1",
    "Verif.Props.C109_conflict_free",
    "Verif.Props.C109_accepted",
    "Verif.Props.C109_rejected",
    "Verif.Props.C109_example",
    "Verif.Props.C109_terminal_needed",
    "Verif.Props.C109_conflict_breaks"
   ],
   "note": ""
  },
  {
   "property": "C110",
   "status": "proved",
   "theorems": [
    "Verif.Props.C110_grammar",
    "Verif.Props.C110_infix",
    "Verif.Props.C110_conflict_free",
    "Verif.Props.C110_parses",
    "Verif.Props.C110_ok",
    "Verif.Props.C110_print",
    "Verif.Props.C110_decides",
    "Verif.Props.C110_one_meaning",
    "Verif.Props.C110_example"
   ],
   "note": ""
  },
  {
   "property": "C111",
   "status": "proved",
   "theorems": [
    "Verif.Props.C111_nearest",
    "Verif.Props.C111_one_nearest",
    "Verif.Props.C111_trees",
    "Verif.Props.C111_else_first",
    "Verif.Props.C111_ok",
    "Verif.Props.C111_decides",
    "Verif.Props.C111_else_last",
    "Verif.Props.C111_else_last_decides",
    "Verif.Props.C111_ambiguous",
    "Verif.Props.C111_conflict"
   ],
   "note": ""
  },
  {
   "property": "C112",
   "status": "proved",
   "theorems": [
    "Verif.Props.C112_first_choice",
    "Verif.Props.C112_first_choice_unique",
    "Verif.Props.C112_more_candidates",
    "Verif.Props.C112_example"
   ],
   "note": ""
  },
  {
   "property": "C113",
   "status": "proved",
   "theorems": [
    "Verif.Props.C113_dead",
    "Verif.Props.C113_never_used",
    "Verif.Props.C113_example"
   ],
   "note": ""
  }
 ]
}