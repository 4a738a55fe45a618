{
 "claims": [
  {
   "property": "C01",
   "status": "proved",
   "theorems": [
    "Gr1c.winning_set_sound"
   ],
   "note": "All finite games, any number of goals."
  },
  {
   "property": "C02",
   "status": "proved",
   "theorems": [
    "Gr1c.winning_set_complete",
    "Gr1c.winning_set_exact"
   ],
   "note": "All finite games, all history-dependent strategies."
  },
  {
   "property": "C03",
   "status": "partial",
   "theorems": [
    "Gr1c.check_realizable_doc_partial",
    "Gr1c.check_realizable_char",
    "Gr1c.check_realizable_vacuous_all_init",
    "Gr1c.check_realizable_unsat_sysinit"
   ],
   "note": "The documented verdict is false of the code in corner cases; the exact verdict is characterised and the documented one proved under satisfiability conditions."
  },
  {
   "property": "C04",
   "status": "proved",
   "theorems": [
    "Gr1c.synthesize_answers",
    "Gr1c.synthesize_succeeds",
    "Gr1c.synthesize_states"
   ],
   "note": "For every allocator, cube order and choice (oracle), after a positive verdict."
  },
  {
   "property": "C05",
   "status": "proved",
   "theorems": [
    "Gr1c.synthesize_live"
   ],
   "note": ""
  },
  {
   "property": "C06",
   "status": "partial",
   "theorems": [
    "Gr1c.synthesize_initial_partial",
    "Gr1c.synthesize_some_initial",
    "Gr1c.synthesize_initial_states",
    "Gr1c.synthesize_initial_lost"
   ],
   "note": "At least one node is marked for any number of goals; that all required ones are is false of the code with two or more system goals (witness); proved for one goal, or when initial states in the first goal satisfy all goals, or for a single picked initial state."
  },
  {
   "property": "C07",
   "status": "proved",
   "theorems": [
    "Gr1c.synthesize_terminates",
    "Gr1c.synthesize_succeeds",
    "Gr1c.synthesize_empty_ub",
    "Gr1c.synthesize_crash",
    "Gr1c.reach_exact"
   ],
   "note": "Explicit iteration bound for the main loop; the fixpoint loops are well-founded definitions."
  },
  {
   "property": "C08",
   "status": "proved",
   "theorems": [
    "Gr1c.sublevels_stratify",
    "Gr1c.sublevels_cover"
   ],
   "note": ""
  },
  {
   "property": "C09",
   "status": "proved",
   "theorems": [
    "Gr1c.winning_set_goal_order",
    "Gr1c.winning_set_all_goals_agree"
   ],
   "note": ""
  },
  {
   "property": "C10",
   "status": "proved",
   "theorems": [
    "Gr1c.winning_set_mono"
   ],
   "note": ""
  },
  {
   "property": "C11",
   "status": "proved",
   "theorems": [
    "Gr1c.cube_enumeration_exact",
    "Gr1c.cube_enumeration_bound_iff"
   ],
   "note": "All cubes of every length."
  },
  {
   "property": "C12",
   "status": "proved",
   "theorems": [
    "Gr1c.get_env_moves_general",
    "Gr1c.get_env_moves_exact",
    "Gr1c.bitOracle_valid"
   ],
   "note": "For every cover Cudd_ForeachCube may deliver; ENVTRANS without primed system variables (enforced by check_gr1c_form). The oracle of synthesize is built from it."
  },
  {
   "property": "C13",
   "status": "proved",
   "theorems": [
    "Gr1c.existsmodal_general",
    "Gr1c.existsmodal_exact",
    "Gr1c.existsmodal_pre"
   ],
   "note": "CUDD operations are trusted to compute the Boolean functions of their manual."
  },
  {
   "property": "C14",
   "status": "proved",
   "theorems": [
    "Gr1c.bitvec_int_roundtrip",
    "Gr1c.int_bitvec_roundtrip",
    "Gr1c.int_bitvec_mod",
    "Gr1c.domain_fits"
   ],
   "note": "32-bit int; shifts beyond bit 30 are undefined behaviour in the model and excluded by the width hypothesis."
  },
  {
   "property": "C15",
   "status": "partial",
   "theorems": [
    "Gr1c.expand_to_bool_exact",
    "Gr1c.expand_to_bool_crash",
    "Gr1c.expand_constLeft_wrong"
   ],
   "note": "Exact for every formula the grammar produces, except x != 0 over the domain [0,0], where the code crashes (proved). A constant on the left of an inequality, which the grammar never produces, is expanded wrongly (witness)."
  },
  {
   "property": "C16",
   "status": "proved",
   "theorems": [
    "Gr1c.unreach_exact",
    "Gr1c.unreach_null",
    "Gr1c.expand_GR1_exact",
    "Gr1c.expand_not_null"
   ],
   "note": "Under NoNe0 (see C15). expand_not_null: the error branches of expand_nonbool_GR1 are never taken."
  },
  {
   "property": "C17",
   "status": "proved",
   "theorems": [
    "Gr1c.expand_variables_exact",
    "Gr1c.expand_width"
   ],
   "note": "log2/ceil/pow taken as exact."
  },
  {
   "property": "C18",
   "status": "proved",
   "theorems": [
    "Gr1c.postfix_push",
    "Gr1c.postfix_parse",
    "Gr1c.stackTree_inj"
   ],
   "note": ""
  },
  {
   "property": "C19",
   "status": "partial",
   "theorems": [
    "print_parse_partial",
    "print_parse_fm",
    "print_not_parsed"
   ],
   "note": "Exact: the printed text reads back as the same tree, or is a syntax error if a connective joins a variable and a constant (witness: a & True is printed as (a&1))."
  },
  {
   "property": "C20",
   "status": "proved",
   "theorems": [
    "spin_meaning",
    "isSpin_unique",
    "spin_next_clash",
    "spin_true_clash",
    "copy_exact",
    "copy_formula"
   ],
   "note": "The text printed for Spin, read with Promela precedence, has the truth value of the formula, for all formulas of the grammar whose names are Spin names; the witnesses show why the name conditions are needed."
  },
  {
   "property": "C21",
   "status": "proved",
   "theorems": [
    "ptree_BDD_ok",
    "ptree_BDD_exit",
    "ptree_BDD_cmp"
   ],
   "note": "For formulas over listed Boolean variables the BDD is the truth table of the formula; an unlisted variable terminates the program and a comparison never yields a BDD."
  },
  {
   "property": "C22",
   "status": "proved",
   "theorems": [
    "Gr1c.merge_and",
    "Gr1c.merge_or",
    "Gr1c.merge_imp",
    "Gr1c.merge_edge"
   ],
   "note": ""
  },
  {
   "property": "C23",
   "status": "proved",
   "theorems": [
    "Gr1c.list_size",
    "Gr1c.list_append",
    "Gr1c.list_get",
    "Gr1c.list_get_entry",
    "Gr1c.list_find",
    "Gr1c.list_remove"
   ],
   "note": ""
  },
  {
   "property": "C24",
   "status": "proved",
   "theorems": [
    "check_form_exact",
    "check_form_accepts_int_as_bool",
    "check_form_accepts_bool_as_int"
   ],
   "note": "Exact characterisation of the check; the two witnesses show that it looks at names only, so ill-typed use is accepted and fails later."
  },
  {
   "property": "C25",
   "status": "proved",
   "theorems": [
    "dump_load",
    "dump_load_long",
    "dump_unknown"
   ],
   "note": "Both versions, all automata with closed edges and int values whose lines have fewer than 4095 characters; dump_load_long shows that the line buffer makes this limit necessary."
  },
  {
   "property": "C26",
   "status": "partial",
   "theorems": [
    "load_in_order_partial",
    "load_order_exact",
    "load_order_wrong",
    "load_order_ub",
    "load_version_2",
    "load_malformed"
   ],
   "note": "False of the code for IDs out of order: exact condition proved, with witnesses for swapped edges and for reading beyond an array. Further witnesses: unsupported versions accepted, undefined behaviour on malformed lines."
  },
  {
   "property": "C27",
   "status": "proved",
   "theorems": [
    "Gr1c.delete_anode_exact",
    "Gr1c.delete_anode_absent",
    "Gr1c.replace_anode_trans_redirect",
    "Gr1c.replace_anode_trans_remove"
   ],
   "note": ""
  },
  {
   "property": "C28",
   "status": "proved",
   "theorems": [
    "Gr1c.prune_deadends_exact"
   ],
   "note": ""
  },
  {
   "property": "C29",
   "status": "proved",
   "theorems": [
    "Gr1c.forward_prune_exact"
   ],
   "note": "U contains only nodes of the automaton (or NULL); a negative U_len is not represented."
  },
  {
   "property": "C30",
   "status": "proved",
   "theorems": [
    "Gr1c.find_anode_first",
    "Gr1c.find_anode_none",
    "Gr1c.anode_index_pos",
    "Gr1c.append_anode_trans_exact",
    "Gr1c.insert_anode_find"
   ],
   "note": ""
  },
  {
   "property": "C31",
   "status": "proved",
   "theorems": [
    "expand_states",
    "compact_states",
    "expand_compact",
    "compact_expand",
    "compact_swallows"
   ],
   "note": "For declarations in which no integer variable's name is a prefix of another name; the witness shows the condition is needed."
  },
  {
   "property": "C32",
   "status": "partial",
   "theorems": [
    "get_offsets_partial",
    "offsets_wrong"
   ],
   "note": "False of the code when an integer variable's name is a prefix of another name (witness); exact otherwise."
  },
  {
   "property": "C33",
   "status": "proved",
   "theorems": [
    "reach_answers",
    "reach_live",
    "reach_exit_outside_unsound"
   ],
   "note": "For every allocator, cube order and choice; Exit inside the restriction set, which all callers ensure. The witness shows that the function itself needs this."
  },
  {
   "property": "C34",
   "status": "proved",
   "theorems": [
    "reach_exact",
    "reach_levels_exact",
    "rg_exact",
    "reach_exit_outside_error"
   ],
   "note": "Exact: a strategy is returned if and only if Entry is nonempty and every Entry state can be won by some history-dependent strategy; rg_exact is the statement for the program rg."
  },
  {
   "property": "C35",
   "status": "proved",
   "theorems": [
    "interactive_session",
    "interactive_total",
    "parse_command",
    "main_session"
   ],
   "note": "For every sequence of commands and every cube cover; vectors hold 0 and 1 and there is a system variable."
  },
  {
   "property": "C36",
   "status": "proved",
   "theorems": [
    "interactive_session",
    "interactive_total"
   ],
   "note": "The clauses for winning and getindex of ACmd.Answer; levels are specified independently by WithinLevel. Answers refer to the relations at the last refresh."
  },
  {
   "property": "C37",
   "status": "partial",
   "theorems": [
    "sysnext_moves_partial",
    "sysnext_nonempty_iff",
    "sysnext_level1_empty",
    "sysnext_following_loses",
    "sysnext_losing_ub"
   ],
   "note": "Every listed move is legal and leads to a winning state. False of the code on goal states, where nothing may be listed (witness); nonempty for all other winning states. Following the listed moves forever can lose (witness); for losing states the code reads beyond the levels."
  },
  {
   "property": "C38",
   "status": "partial",
   "theorems": [
    "options_exact",
    "cli_documented",
    "cli_exact",
    "cli_commands",
    "cli_departures",
    "main_verdict",
    "main_two",
    "main_rejects",
    "main_statuses",
    "main_no_init",
    "main_interactive_zero",
    "main_interactive_int",
    "interactive_verdict_lost",
    "no_init_status"
   ],
   "note": "Accepted words and their meaning are exact; statuses 0 and 3 for -s, -r and synthesis follow realizability over the declared values; status 2 is exact. False as stated: the interactive mode ends with 0 for unrealizable specifications, and synthesis of a specification without initial states ends with -1 although it is reported realizable (witnesses). What is written to log files and standard output is C71."
  },
  {
   "property": "C39",
   "status": "proved",
   "theorems": [
    "omitted_sections",
    "omitted_env_goals",
    "omitted_init"
   ],
   "note": "Equal results for all parse trees; for omitted initial conditions equal verdicts (except ONE_SIDE_INIT, where omission selects the side)."
  },
  {
   "property": "C40",
   "status": "proved",
   "theorems": [
    "bounds_state_exact",
    "bounds_state_visits",
    "bounds_DDset_exact"
   ],
   "note": "For every set, cube cover and layout inside the state with at most 31 bits per variable; floating point taken as exact."
  },
  {
   "property": "C41",
   "status": "partial",
   "theorems": [
    "Gr1c.min_tree_value_exact",
    "Gr1c.max_tree_value_exact",
    "Gr1c.rmin_exact_partial",
    "Gr1c.rmax_exact_partial",
    "Gr1c.rmin_prefix"
   ],
   "note": "rmin/rmax match variable names by prefix: exact when no other name has the given name as a prefix; witness otherwise."
  },
  {
   "property": "C42",
   "status": "proved",
   "theorems": [
    "env_moves_complete",
    "altText_inj"
   ],
   "note": "Every environment move is offered exactly once and the texts of different moves differ."
  },
  {
   "property": "C43",
   "status": "proved",
   "theorems": [
    "read_state_str_exact",
    "numbers_exists",
    "stored_int"
   ],
   "note": "For all texts and limits; values outside int are stored as strtol's saturation and narrowing give them."
  },
  {
   "property": "C44",
   "status": "proved",
   "theorems": [
    "Gr1c.modereach_exact",
    "Gr1c.modereach_same_label_diverges"
   ],
   "note": "Label different from the searched mode (as in every caller); otherwise divergence is proved."
  },
  {
   "property": "C45",
   "status": "proved",
   "theorems": [
    "pipeline_exact",
    "front_exact"
   ],
   "note": "From parse trees to the verdict: for well-typed specifications whose expanded names stay distinct, the bit-level run gives the verdict of the game over declared values and the winning set contains exactly the encodings of winning states."
  },
  {
   "property": "C46",
   "status": "proved",
   "theorems": [
    "layout_scanned",
    "layout_irrelevant",
    "comment_ignored",
    "and_safe_split",
    "last_line_comment",
    "header_midline"
   ],
   "note": "For all texts; the three witnesses mark where the documented freedom ends."
  },
  {
   "property": "C47",
   "status": "proved",
   "theorems": [
    "formula_parsed",
    "grammar_unambiguous",
    "and_or_left",
    "file_parsed",
    "file_accepted",
    "text_to_verdict",
    "not_c_like",
    "leading_formula"
   ],
   "note": "bison's LALR(1) conflict resolution by precedence is modelled as an operator-precedence stack machine; text_to_verdict joins scanner, parser and pipeline."
  },
  {
   "property": "C48",
   "status": "proved",
   "theorems": [
    "rm_sysgoal_runs",
    "rm_sysgoal_answers",
    "rm_sysgoal_initial",
    "rm_sysgoal_outcome",
    "synthesize_seeks",
    "rm_sysgoal_synthesized",
    "rm_sysgoal_overflow",
    "rm_sysgoal_skip_unanswered",
    "rm_sysgoal_initial_lost"
   ],
   "note": "Every run of a returned automaton is legal and live for the remaining goals, for every strategy of the documented form; synthesize returns that form. Defects with witnesses: the array Exit is overrun, initial nodes of the removed modes are lost, and where the strategy skips the removed goal the result no longer answers every move. Without such skips all moves stay answered."
  },
  {
   "property": "C49",
   "status": "partial",
   "theorems": [
    "patch_scope",
    "patch_keeps_partial",
    "patch_untouched",
    "patch_cross_unanswered",
    "patch_initial_lost"
   ],
   "note": "Every node of the result is an old one or a new one with its state in the neighbourhood and a touched goal mode. Nodes outside of the neighbourhood or of untouched modes are kept with their edges if no edge from another mode leads into the part that is rebuilt; without that condition the property is false of the code (witness), and annotations are scaled by one common factor. If nothing is touched, nothing changes."
  },
  {
   "property": "C50",
   "status": "proved",
   "theorems": [
    "Gr1c.state_to_BDD_exact",
    "Gr1c.state_to_cof_exact",
    "cube_env_quantifies",
    "cube_sys_quantifies"
   ],
   "note": "cube_prime_env and cube_prime_sys are part of C13 and C12."
  },
  {
   "property": "C51",
   "status": "proved",
   "theorems": [
    "reach_rgrad"
   ],
   "note": ""
  },
  {
   "property": "C52",
   "status": "partial",
   "theorems": [
    "minmax_exact",
    "horizon_exact",
    "horizon_separates_partial",
    "horizon_level1_wrong",
    "minmax_empty_ub"
   ],
   "note": "False of the code for level 1, whose entry is set to 0 although it can contain non-goal states (witness); for an empty winning set the arrays are written out of bounds. Levels from 2 on: proved."
  },
  {
   "property": "C53",
   "status": "proved",
   "theorems": [
    "main_strategy",
    "main_verdict",
    "main_session",
    "main_json",
    "main_aut"
   ],
   "note": "From argument vector and specification text to the automaton over declared values. Conditions: names stay distinct after expansion and none is a prefix of another, an initial state exists, and without environment variables ENVTRANS is trivial. main_session is the same for the interactive mode: the answers to the typed lines. main_json and main_aut go on to the text of the output."
  },
  {
   "property": "C54",
   "status": "partial",
   "theorems": [
    "patch_runs_partial",
    "patch_answers_partial",
    "patch_synthesized_partial",
    "patch_outside",
    "patch_wrap_illegal",
    "patch_cross_unanswered",
    "patch_whole_fails"
   ],
   "note": "Legal and live in the changed game for all annotated strategies, provided no edge inside the rebuilt part leaves a state satisfying all goals; answers every move provided no edge from another mode leads into that part. Both conditions are needed: witnesses with strategies of synthesize where a removed edge stays in use and where a move is not answered any more."
  },
  {
   "property": "C55",
   "status": "proved",
   "theorems": [
    "synthesize_annotated",
    "synthesize_levels"
   ],
   "note": "For every game and choice. patch_synthesized_partial (C54) uses it: the hypotheses about annotations in the theorems on patching hold for every synthesized strategy."
  },
  {
   "property": "C56",
   "status": "proved",
   "theorems": [
    "json_dump_reads",
    "json_determines",
    "json_unique",
    "main_json"
   ],
   "note": "Grammar of JSON and documented meaning are separate specifications; reading is unique. Trusted: %p prints distinct texts without quotes for distinct pointers; the time stamp is plain text."
  },
  {
   "property": "C57",
   "status": "proved",
   "theorems": [
    "rg_solved",
    "rg_unsolved",
    "rg_json",
    "rg_statuses",
    "rg_rejects",
    "rg_syntax",
    "rg_help",
    "rg_version",
    "rg_usage",
    "rg_unreadable",
    "rg_unwritable",
    "rg_late_options",
    "RgEx.exits_minus_one"
   ],
   "note": "Names that are prefixes of integer variables are excluded (C31), and so are ENVTRANS formulas without environment variables. The comment in the code promises status 3 for unrealizable specifications; it is -1 (rg_unsolved). No node of the strategy is marked initial (rg_solved)."
  },
  {
   "property": "C58",
   "status": "proved",
   "theorems": [
    "spin_verdict",
    "spin_exact",
    "spin_sound",
    "spin_accepts",
    "main_promela",
    "spin_accepts_wrong",
    "spin_rejects_right",
    "spin_first_initial_only",
    "spin_no_assumptions",
    "spin_missing_answer",
    "spin_no_initial"
   ],
   "note": "Exact verdict for the text that is written, with a separate semantics of the Promela subset and of LTL. Limits with witnesses: intermediate states of atomic make goals over several variables true or false, only the first initial node is examined, assumptions are dropped without environment variables, a missing answer passes if the environment is blocked afterwards, and a strategy without initial nodes gives no Promela. Variables must not clash with names of the model."
  },
  {
   "property": "C59",
   "status": "proved",
   "theorems": [
    "dot_dump_draws",
    "dot_dump_long",
    "nodeLabel_tells",
    "written_says",
    "main_writes",
    "rg_writes",
    "DotLong.cut"
   ],
   "note": "Reader for DOT and meaning of the statements are a separate specification. The text of a node stands in a buffer of 4096 characters; a longer one ends the output in the middle with status 0 (DotLong.cut, from the command line)."
  },
  {
   "property": "C60",
   "status": "proved",
   "theorems": [
    "txt_dump_says",
    "tulip_dump_says",
    "txtSays_tells",
    "tulip_no_initial",
    "written_says",
    "main_writes",
    "rg_writes"
   ],
   "note": "Readers for lines and for XML are separate specifications. The format tulip does not tell initial nodes (tulip_no_initial)."
  },
  {
   "property": "C61",
   "status": "proved",
   "theorems": [
    "autman_options_exact",
    "autman_convert",
    "autman_converts_file",
    "autman_convert_len",
    "autman_syntax",
    "autman_model",
    "verify_workflow",
    "autman_statuses",
    "autman_one",
    "autman_two",
    "autman_three",
    "load_well",
    "autman_dash",
    "autman_check_wrong",
    "autman_check_output",
    "autman_order_wrong",
    "autman_no_form_check"
   ],
   "note": "From the command line to the text, for all files. Conversion and model are those of the loaded automaton; that this is the automaton of the file is proved for lines in the order of IDs (C26 for the rest, autman_order_wrong). verify_workflow has the limits of the file format as a hypothesis. Departures from the help text have witnesses."
  },
  {
   "property": "C62",
   "status": "partial",
   "theorems": [
    "change_file_read",
    "short_state_refused",
    "wrong_count_refused",
    "no_command_refused",
    "patch_workflow_partial",
    "blocksys_file_read",
    "wrong_block_double_free",
    "env_integers_overread",
    "edge_command_overread",
    "restrict_env_wide",
    "ChangeEx.restrict_env_removes_all"
   ],
   "note": "Complete for specifications without integer variables; with integer variables, for states and blocksys. The claim is false for edge commands with integer variables (edge_command_overread, env_integers_overread, restrict_env_wide). The workflow has the conditions NoWrap and NoCross of C54, which the code needs."
  },
  {
   "property": "C63",
   "status": "partial",
   "theorems": [
    "add_sysgoal_safe",
    "add_sysgoal_runs",
    "add_sysgoal_order",
    "add_sysgoal_answers",
    "add_sysgoal_initial",
    "add_sysgoal_single",
    "synthesize_waits",
    "add_sysgoal_synthesized",
    "pick_goal_closest",
    "pick_goal_empty",
    "add_metric_sysgoal_correct_partial",
    "add_sysgoal_holds_ub",
    "add_sysgoal_unanswered",
    "add_sysgoal_initial_lost",
    "add_sysgoal_exits_ub",
    "add_sysgoal_succ_ub",
    "add_sysgoal_goal_lost"
   ],
   "note": "Whenever an automaton is returned it is closed, has legal transitions and modes of the enlarged list; if no state satisfies the goal before and the goal after the new one, every run visits all goals and the new one; if none satisfies the new goal and the next one, every move is answered; initial nodes outside the next goal are kept. The place is the first nearest goal if all goals are satisfiable. The full claim is false: with one goal the function always refuses; a state of the preceding goal that satisfies the new one, two entries of the next goal, or an edge between the two goals make it use freed memory; a state of the next goal that satisfies the new one is left without successors; initial marks inside the next goal are lost; a state shared by the two goals loses another goal; an unsatisfiable old goal is taken for the nearest. Each is proved with a witness."
  },
  {
   "property": "C64",
   "status": "partial",
   "theorems": [
    "patch_removes_goal",
    "patch_adds_goal",
    "patch_changes_edges_partial",
    "main_seeks",
    "patch_workflow",
    "patch_statuses",
    "patch_rejects",
    "patch_unknown_var",
    "patch_no_such_goal",
    "patch_misuse",
    "patch_version",
    "patch_usage",
    "patch_unreadable",
    "patch_metric_offsets",
    "patch_ignores_r",
    "patch_r_and_f",
    "patch_help_refused",
    "patch_dash_file",
    "patch_unknown_metric",
    "patch_metric_prefix",
    "patch_env_integers"
   ],
   "note": "Options, -r, -f, -e, statuses and -m proved from the command line to the written strategy. For -e the variables are Boolean and no edge of the strategy closes a cycle over all goals inside the neighbourhood (NoWrap): without that the changed strategy can be wrong (C54), and with integers the reading of change files runs into undefined behaviour (C62, patch_env_integers)."
  },
  {
   "property": "C65",
   "status": "partial",
   "theorems": [
    "rhc_play_partial",
    "rhc_illegal",
    "rhc_greedy",
    "rhc_first_step",
    "rhc_returns",
    "rhc_null",
    "rhc_unanswered",
    "sim_metric_unknown",
    "simBits_valid",
    "simNear_exact",
    "sim_metric_first",
    "SimEx.sim_stutters",
    "SimEx.sim_blocked"
   ],
   "note": "The claim is false after the first step (sim_stutters, rhc_illegal): what holds is that every step is legal or repeats the state. The choice is characterised for the first step with every horizon and for all steps with horizon 1; for later steps with a longer horizon only legality is proved. A blocked environment or a state without answers is undefined behaviour (rhc_unanswered)."
  },
  {
   "property": "C66",
   "status": "proved",
   "theorems": [
    "log_run",
    "log_pieces",
    "log_open",
    "log_open_long",
    "log_session",
    "log_none",
    "log_closed"
   ],
   "note": "log_none and log_closed prove the departures. The texts of %f and of the time are arguments of the model."
  },
  {
   "property": "C67",
   "status": "partial",
   "theorems": [
    "print_support_lists",
    "print_support_null",
    "printwin_lists",
    "printwin_unrealizable",
    "printwin_refuses",
    "printwin_null",
    "printwin_extra"
   ],
   "note": "print_support is proved in full. The claim on printwin is false for unrealizable specifications (printwin_null) and lists with non-states (printwin_extra); which vectors without a meaning are listed is proved for the environment part only."
  },
  {
   "property": "C68",
   "status": "proved",
   "theorems": [
    "print_spec_lines"
   ],
   "note": "The text of a formula is that of print_formula (C19)."
  },
  {
   "property": "C69",
   "status": "proved",
   "theorems": [
    "tree_dot_draws",
    "tree_dot_nil"
   ],
   "note": "Addresses are a parameter; nodes of a tree have different ones. A name with quotes cannot be declared (C46)."
  },
  {
   "property": "C70",
   "status": "partial",
   "theorems": [
    "dump_gr1c",
    "dump_gr1c_not",
    "dump_rg_partial",
    "dump_patch_cli_partial",
    "dump_patch_not",
    "dump_patch_refused",
    "dump_patch_partial",
    "rg_echo_hides_transitions",
    "patch_echo_domains"
   ],
   "note": "Proved in full for gr1c. For gr1c-rg and gr1c-patch the files are proved, but the claim on the screen is false: gr1c-rg shows no transition rules (rg_echo_hides_transitions), gr1c-patch shows wrong domains for Boolean variables (patch_echo_domains). gr1c-patch draws the formula of -f even if the specification is then rejected (dump_patch_not)."
  },
  {
   "property": "C71",
   "status": "proved",
   "theorems": [
    "stdout_answer",
    "stdout_verdict",
    "stdout_unrealizable",
    "stdout_strategy",
    "stdout_syntax",
    "stdout_json",
    "verbose_not_json",
    "log_leaves_stdout",
    "rg_stdout_strategy",
    "rg_stdout_nothing",
    "rg_stdout_json",
    "StdoutEx.verbose_ex"
   ],
   "note": "The order of all texts is proved for -v and -l without -vv; for -vv the comparison with the quiet call is proved (log_leaves_stdout) with arbitrary messages of the solver. The last sentence of the claim is verbose_not_json. The interactive mode, usage and version texts are not part of it."
  },
  {
   "property": "C72",
   "status": "partial",
   "theorems": [
    "session_dialogue_partial",
    "transcript_answers",
    "addvar_not",
    "long_line_split",
    "long_state_refused"
   ],
   "note": "False as documented: help lists addvar, which is refused (addvar_not). A line has at most 255 characters, the rest is taken for another line (long_line_split), and with more than 124 variables no state can be asked for (long_state_refused). Proved for lines of at most 254 characters without -v, -l and -p; sysnext for winning states and up to date levels as in C37."
  },
  {
   "property": "C73",
   "status": "partial",
   "theorems": [
    "yyparse_accepts",
    "yyparse_agrees",
    "text_agrees",
    "syntax_error_place",
    "duplicate_reported",
    "lower_reported",
    "init_reported",
    "text_lines",
    "toks_by_line",
    "decl_line_before",
    "duplicate_line_partial",
    "duplicate_line_wrong",
    "text_wide",
    "wide_first",
    "rejected_stdout",
    "rg_rejected_stdout",
    "message_tells",
    "message_texts"
   ],
   "note": "Acceptance, the place of syntax errors and the three other errors are characterised exactly. What is false of the code: the message about a variable declared twice, or a lower bound, names the line of the token before the declaration, which may be an earlier line (duplicate_line_wrong); in a formula before the first section that is not complete no line is named (PErr.silent); a character of more than 7 bits is taken for the end of the file, so that what follows is ignored (text_wide, wide_first)."
  },
  {
   "property": "C74",
   "status": "partial",
   "theorems": [
    "number_stored",
    "number_faithful",
    "text_read_as",
    "numbers_agree",
    "domain_read",
    "compare_read",
    "domain_wrong"
   ],
   "note": "True of numerals less than 2^31 (numbers_agree, number_faithful). False of larger ones: strtol returns a long, which is cut to an int without a check, so the domain [0,4294967297] is read as [0,1] (domain_wrong). Which numbers are stored and which bounds are refused is characterised for all numerals (number_stored, domain_read), for 64-bit long and 32-bit int."
  },
  {
   "property": "C75",
   "status": "partial",
   "theorems": [
    "patch_any",
    "junk_ignored",
    "cut_off_ignored",
    "wrong_operand_ignored",
    "junk_is_error",
    "bad_form_used"
   ],
   "note": "The first sentence is C64 (patch_any carries it over). The second is false of the code: the result of yyparse is not looked at, so that a formula with parentheses that are not closed or with anything after it is used as if it were right (bad_form_used, junk_is_error). The tree that is left after an error is modelled for every text without headers of sections."
  },
  {
   "property": "C76",
   "status": "partial",
   "theorems": [
    "gr1c_help",
    "patch_help",
    "autman_help",
    "rg_help_partial",
    "rg_help_wrong",
    "formats_listed",
    "inits_listed",
    "defaults_listed"
   ],
   "note": "Proved for gr1c, gr1c-patch and gr1c-autman. False for gr1c-rg: it accepts -p, which its help text does not describe, and the usage line lacks -n (rg_help_wrong); these are the only differences (rg_help_partial). The long options --help and --version are in no help text; the claim is on the one-letter options."
  },
  {
   "property": "C77",
   "status": "proved",
   "theorems": [
    "autman_stdout",
    "autman_quiet",
    "autman_failed",
    "autman_same",
    "autman_log_leaves",
    "autman_verbose_not_json"
   ],
   "note": "For all levels of verbosity. The caveat is autman_verbose_not_json. The time is the same for all lines; messages on standard error are not modelled."
  },
  {
   "property": "C78",
   "status": "partial",
   "theorems": [
    "patch_stdout",
    "patch_quiet",
    "form_message_not_json",
    "patch_verbose_not_json",
    "form_silent",
    "spec_line",
    "spec_line_off",
    "spec_line_wrong"
   ],
   "note": "What is on standard output is proved for all runs within the model. Partial because the claim about the line is false: form_silent: a formula without an error has no message; spec_line_off says for every formula by how much the line in a message about the specification is wrong, spec_line_wrong is a whole run; without -f the line is right (spec_line). Not modelled: the log with -v and -l beyond that it does not touch standard output, the listing of -p together with it, a formula text with section headers and a syntax error."
  }
 ]
}