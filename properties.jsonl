{"id": "C01", "title": "Winning set is sound", "statement": "From every state in the set returned by compute_winning_set_BDD() the system has a strategy such that every play consistent with it (environment moves satisfying ENVTRANS) is never stuck on the system side, always satisfies SYSTRANS, and satisfies: if every ENVGOAL holds infinitely often then every SYSGOAL holds infinitely often.", "quantifier": "all finite games (any variable counts, any transition relations, any number of environment goals >= 1 after defaulting and system goals >= 1), all states in the returned set, all infinite plays", "why_tests_cant": "the claim is about infinite plays against every environment; a test runs finitely many games for finitely many steps", "anchors": ["src/solve_operators.c:compute_winning_set_BDD", "src/solve_support.c:compute_existsmodal", "include/solve.h"]}
{"id": "C02", "title": "Winning set is complete", "statement": "From every state outside the set returned by compute_winning_set_BDD(), every system strategy (even one with unbounded memory) admits a consistent play in which the environment respects ENVTRANS and either the system has no legal answer or every ENVGOAL holds infinitely often while some SYSGOAL holds only finitely often.", "quantifier": "all finite games, all states outside the returned set, all history-dependent system strategies", "why_tests_cant": "quantifies over uncountably many strategies and infinite plays", "anchors": ["src/solve_operators.c:compute_winning_set_BDD"]}
{"id": "C03", "title": "Realizability verdict means what the documentation says", "statement": "check_realizable() returns non-NULL exactly when, for the selected interpretation of initial conditions, the documented condition holds: ALL_INIT - every state satisfying ENVINIT and SYSINIT is winning; ALL_ENV_EXIST_SYS_INIT - for every environment valuation satisfying ENVINIT some system valuation satisfies SYSINIT and yields a winning state; ONE_SIDE_INIT - all (resp. some) states satisfying the only given formula are winning.", "quantifier": "all winning sets, all initial formulas allowed by check_gr1c_form, the three init_flags values", "why_tests_cant": "the corner cases are unsatisfiable initial formulas, which no example specification exercises", "anchors": ["src/solve.c:check_realizable_internal", "include/solve.h", "doc/spc_format.md"]}
{"id": "C04", "title": "Synthesized automaton respects the safety rules and answers every environment move", "statement": "In the automaton returned by synthesize(), for every node and every environment valuation allowed by ENVTRANS from the node's state there is an outgoing edge to a node with that environment valuation, there are no other edges, every edge satisfies ENVTRANS and SYSTRANS, and every node's state is in the winning set.", "quantifier": "all realizable games, all init_flags, all nodes and edges of the output, any order in which the BDD library enumerates cubes", "why_tests_cant": "the number of games is unbounded and the output depends on BDD enumeration order", "anchors": ["src/solve.c:synthesize", "src/solve_support.c:get_env_moves", "src/automaton.c"]}
{"id": "C05", "title": "Synthesized automaton satisfies the liveness specification", "statement": "Every infinite run of the automaton returned by synthesize() along which every ENVGOAL holds infinitely often visits every SYSGOAL infinitely often.", "quantifier": "all realizable games, all infinite runs from any node, any BDD enumeration order", "why_tests_cant": "infinite runs cannot be exhausted by testing", "anchors": ["src/solve.c:synthesize", "src/solve_operators.c:compute_sublevel_sets"]}
{"id": "C06", "title": "Every required initial state has an initial node", "statement": "After synthesize() on a realizable specification, every initial state demanded by the interpretation (every state satisfying the initial formulas for ALL_INIT; one state per initial environment valuation for ALL_ENV_EXIST_SYS_INIT) appears as the state of a node whose initial field is True.", "quantifier": "all realizable games with any number of system goals, all init_flags", "why_tests_cant": "the flag is lost only when an initial state was already reached in a later goal mode before its own stack entry is processed, which depends on enumeration order", "anchors": ["src/solve.c:synthesize", "include/automaton.h:anode_t"]}
{"id": "C07", "title": "Fixpoint and strategy construction always terminate", "statement": "compute_winning_set_BDD(), compute_sublevel_sets(), synthesize() and synthesize_reachgame_BDD() terminate on every input.", "quantifier": "all finite games", "why_tests_cant": "a test that finishes says nothing about the inputs not run", "anchors": ["src/solve_operators.c:compute_winning_set_BDD", "src/solve_operators.c:compute_sublevel_sets", "src/solve.c:synthesize", "src/patching_support.c:synthesize_reachgame_BDD"]}
{"id": "C08", "title": "Sublevel sets stratify the winning set", "statement": "For every system goal the sets returned by compute_sublevel_sets() start empty, increase strictly, and end exactly at the winning set; every state added at a level is a winning goal state, can be driven into the previous level, or can be kept forever in states violating one fixed environment goal until the level drops.", "quantifier": "all finite games, all system goals, all levels and states", "why_tests_cant": "requires reasoning about the limit of an iteration for arbitrary games", "anchors": ["src/solve_operators.c:compute_sublevel_sets"]}
{"id": "C09", "title": "Winning set does not depend on goal order or multiplicity", "statement": "Reordering or repeating system goals (or environment goals) does not change the set returned by compute_winning_set_BDD(); in particular the per-goal sets of the iteration all converge to the same set, so returning the one for goal 0 is correct.", "quantifier": "all finite games, all lists of goals with the same members", "why_tests_cant": "needs equality of fixpoints of different iterations for all games", "anchors": ["src/solve_operators.c:compute_winning_set_BDD"]}
{"id": "C10", "title": "Winning set is monotone in the rules", "statement": "Weakening SYSTRANS or system goals, or strengthening ENVTRANS or environment goals, never removes a state from the winning set.", "quantifier": "all pairs of finite games related as described", "why_tests_cant": "relational property over all pairs of games", "anchors": ["src/solve_operators.c:compute_winning_set_BDD", "src/solve_support.c:compute_existsmodal"]}
{"id": "C11", "title": "Cube enumeration is exact", "statement": "Enumerating a cube with initialize_cube / saturated_cube / increment_cube visits every 0-1 vector compatible with the cube exactly once and then stops.", "quantifier": "all cubes (arrays over {0,1,2}) of every length", "why_tests_cant": "unbounded array length; off-by-one or early saturation would show only on some cubes", "anchors": ["src/solve_support.c:initialize_cube", "src/solve_support.c:increment_cube", "src/solve_support.c:saturated_cube"]}
{"id": "C12", "title": "Environment move enumeration is exact", "statement": "get_env_moves() lists each environment valuation that satisfies ENVTRANS from the given state exactly once and nothing else, for any disjoint cube cover produced by the BDD library.", "quantifier": "all states, all environment transition relations without primed system variables (check_gr1c_form enforces this), all disjoint cube decompositions", "why_tests_cant": "depends on the internal shape of the BDD", "anchors": ["src/solve_support.c:get_env_moves", "src/solve_support.c:state_to_cof", "src/solve_support.c:cube_prime_sys"]}
{"id": "C13", "title": "Controllable predecessor operator is exact", "statement": "compute_existsmodal(C) holds at a state exactly when for every environment valuation allowed by ENVTRANS there is a system valuation allowed by SYSTRANS that leads into C.", "quantifier": "all transition BDDs over any number of variables and all state sets C", "why_tests_cant": "semantic identity over all Boolean functions", "anchors": ["src/solve_support.c:compute_existsmodal", "src/solve_support.c:cube_prime_env", "src/solve_support.c:cube_prime_sys"]}
{"id": "C14", "title": "Integer/bit-vector conversion round-trips", "statement": "bitvec_to_int(int_to_bitvec(x,n),n) = x for 0 <= x < 2^n, int_to_bitvec(bitvec_to_int(v,n),n) = v for 0-1 vectors, for larger x the result is x mod 2^n, and every value in [0,maxval] fits in the number of bits gr1c allocates for it.", "quantifier": "all widths up to the C int width, all integers and vectors", "why_tests_cant": "all widths and values", "anchors": ["src/util.c:bitvec_to_int", "src/util.c:int_to_bitvec", "src/ptree.c:var_to_bool"]}
{"id": "C15", "title": "Expansion of integer comparisons preserves meaning", "statement": "expand_to_bool() replaces every comparison of an integer variable with a constant by a formula over the variable's bits that is true exactly when the comparison holds for the encoded integer value, for every value inside the declared domain, and does not touch the rest of the formula.", "quantifier": "all formulas, all operators (=, !=, <, <=, >, >=), all constants, all domains, all in-domain valuations", "why_tests_cant": "unbounded formulas and domains; edge cases are constants at and beyond the domain ends and the domain [0,0]", "anchors": ["src/ptree.c:expand_to_bool", "src/ptree.c:expand_nonbool_varnum", "src/ptree.c:var_to_bool"]}
{"id": "C16", "title": "Out-of-domain bit patterns are excluded exactly", "statement": "The formula built by unreach_expanded_bool(name, lower, upper) holds exactly when the value of the variable is not in [lower, upper]; after expand_nonbool_GR1 exactly the bit patterns encoding declared values remain allowed for each player.", "quantifier": "all domains, all valuations; for expand_nonbool_GR1 all specifications that do not compare a variable of domain [0,0] with != 0 (C15 shows that this comparison is expanded wrongly)", "why_tests_cant": "unbounded domains", "anchors": ["src/ptree.c:unreach_expanded_bool", "src/util.c:expand_nonbool_GR1"]}
{"id": "C17", "title": "Variable list expansion keeps order and width", "statement": "expand_nonbool_variables() replaces each integer variable by exactly the bits needed for its domain, in place, in increasing bit order, leaves Boolean variables untouched, and returns the list of replaced variables with their domains in declaration order (environment first).", "quantifier": "all variable lists and domains", "why_tests_cant": "all lists, including integer variables at the head, in the tail and adjacent", "anchors": ["src/util.c:expand_nonbool_variables", "src/ptree.c:var_to_bool"]}
{"id": "C18", "title": "Postfix tree building yields the intended parse tree", "statement": "Performing the parser's semantic actions (pusht_terminal / pusht_operator) for a formula in postfix order on top of an already built stack leaves exactly the parse tree of the formula on top and the rest of the stack unchanged.", "quantifier": "all formulas and all stacks below them", "why_tests_cant": "the stack is threaded through the left children of the tree itself, so correctness depends on the shape of arbitrary subtrees", "anchors": ["src/ptree.c:pusht_operator", "src/ptree.c:pusht_terminal", "src/gr1c_parse.y"]}
{"id": "C19", "title": "Printed formulas read back as the same formula", "statement": "print_formula() in gr1c syntax followed by tokenization and parsing with gr1c's grammar yields a formula with the same meaning in every state.", "quantifier": "all formulas the parser can produce", "why_tests_cant": "all formulas; precedence in the grammar is unusual and the printer relies on parentheses", "anchors": ["src/ptree.c:print_formula", "src/gr1c_parse.y", "src/gr1c_scan.l"]}
{"id": "C20", "title": "Spin formulas mean the same as gr1c formulas", "statement": "print_formula() in Spin syntax, read with Spin's operator meaning, evaluates in every state (primed variables read as *_next) to the same truth value as the gr1c formula.", "quantifier": "all states, all formulas of the grammar whose variable names are names in Promela and do not clash with the added suffix _next", "why_tests_cant": "all formulas", "anchors": ["src/ptree.c:print_formula"]}
{"id": "C21", "title": "BDD construction computes the formula", "statement": "ptree_BDD() returns the Boolean function that maps each assignment of the variables (primed variables at offset = number of variables) to the truth value of the formula, and fails exactly when the formula mentions an unlisted variable.", "quantifier": "all formulas without comparisons (these are expanded before ptree_BDD is called; ptree_BDD rejects them) and all variable lists", "why_tests_cant": "semantic identity over all formulas", "anchors": ["src/ptree.c:ptree_BDD", "src/ptree.c:find_list_item"]}
{"id": "C22", "title": "Merging formulas is n-ary conjunction / disjunction", "statement": "merge_ptrees(heads,len,AND/OR) is true exactly when all / some of the given formulas are; for a single formula it is that formula; for an empty list it is NULL.", "quantifier": "all lists of formulas", "why_tests_cant": "all list lengths", "anchors": ["src/ptree.c:merge_ptrees"]}
{"id": "C23", "title": "Linked-list operations on trees behave like list operations", "statement": "append_list_item, remove_list_item, get_list_item, find_list_item and tree_size on list-shaped trees behave as append, erase, nth, first index and length, including the -1 = last convention and the documented results for invalid indices.", "quantifier": "all lists and indices", "why_tests_cant": "all lengths and indices", "anchors": ["src/ptree.c:append_list_item", "src/ptree.c:remove_list_item", "src/ptree.c:get_list_item", "src/ptree.c:find_list_item"]}
{"id": "C24", "title": "Scope checking accepts exactly well-scoped specifications", "statement": "check_gr1c_form() returns 0 exactly when at least one variable is declared, every unprimed variable is declared, ENVTRANS primes only environment variables, SYSTRANS primes only declared variables, goals and initial conditions contain no primes, and the restriction of the chosen init_flags holds; otherwise -1.", "quantifier": "all specifications and init_flags", "why_tests_cant": "all formulas and lists", "anchors": ["src/util.c:check_gr1c_form", "src/ptree.c:check_vars"]}
{"id": "C25", "title": "Automaton dump and load round-trip", "statement": "aut_aut_loadver() applied to the output of aut_aut_dumpver() of an automaton yields the same automaton: same number and order of nodes, same states, modes, reach annotations, edges, and (version 1) initial flags.", "quantifier": "all automata with closed edge sets and int values for which no line of the file reaches 4095 characters, versions 0 and 1 (longer lines do not round-trip, which is proved as well)", "why_tests_cant": "all automata", "anchors": ["src/automaton_io.c:aut_aut_dumpver", "src/automaton_io.c:aut_aut_loadver"]}
{"id": "C26", "title": "Loader honours node IDs in any order", "statement": "For a file whose node lines list the IDs 0..N-1 in any order (which the format documentation allows), aut_aut_loadver() gives every node the transitions written on its own line.", "quantifier": "all files with tight IDs in any order", "why_tests_cant": "tests load files in ID order only", "anchors": ["src/automaton_io.c:aut_aut_loadver", "doc/formats.md"]}
{"id": "C27", "title": "Node deletion and edge replacement affect only their target", "statement": "delete_anode() removes exactly the target and keeps the order and content of all others (NULL if absent); replace_anode_trans(old,new) redirects exactly the edges to old, and with new = NULL removes exactly those edges keeping the others in order.", "quantifier": "all automata, all targets", "why_tests_cant": "all automata", "anchors": ["src/automaton.c:delete_anode", "src/automaton.c:replace_anode_trans"]}
{"id": "C28", "title": "Dead-end pruning is exact", "statement": "aut_prune_deadends() returns the largest sub-automaton in which every node has an outgoing edge: it never deletes a node from which an infinite run exists, leaves no dead ends and no edge to a deleted node, and returns NULL exactly when there is no infinite run.", "quantifier": "all finite automata", "why_tests_cant": "iterated deletion on arbitrary graphs", "anchors": ["src/automaton.c:aut_prune_deadends"]}
{"id": "C29", "title": "Forward pruning deletes only unreachable nodes", "statement": "forward_prune(head,U) never deletes an initial node or a node with a predecessor that remains, leaves no non-initial node of U without a predecessor, and leaves no dangling edge.", "quantifier": "all automata and all arrays U of its nodes, with duplicates and NULL entries, of nonnegative length", "why_tests_cant": "all graphs; needs an invariant of the worklist with aliasing pointers", "anchors": ["src/automaton.c:forward_prune"]}
{"id": "C30", "title": "Node lookup and insertion", "statement": "find_anode returns the first node with the given mode and state and find_anode_index its position; append_anode_trans adds one edge at the end of that node's edge list and changes nothing else; insert_anode puts a fresh node without edges in front.", "quantifier": "all automata, modes, states", "why_tests_cant": "all automata", "anchors": ["src/automaton.c:find_anode", "src/automaton.c:find_anode_index", "src/automaton.c:append_anode_trans", "src/automaton.c:insert_anode"]}
{"id": "C31", "title": "Compacting and expanding integer variables in an automaton are inverse", "statement": "aut_expand_bool() after aut_compact_nonbool() of all expanded variables gives back the bit-level states, and compaction maps every state to the integer values encoded by its bits.", "quantifier": "all automata and all variable lists in which no variable name extends another", "why_tests_cant": "all layouts of integer and Boolean variables", "anchors": ["src/automaton.c:aut_compact_nonbool", "src/automaton.c:aut_expand_bool", "src/util.c:expand_nonbool_state", "src/util.c:get_offsets_list"]}
{"id": "C32", "title": "Offsets of expanded variables", "statement": "get_offsets_list() returns, for each integer variable, the index of its first bit and its number of bits in the expanded variable list.", "quantifier": "all variable lists", "why_tests_cant": "lookup is by name prefix, so the claim depends on all pairs of names", "anchors": ["src/util.c:get_offsets_list"]}
{"id": "C33", "title": "Reachability game strategy is sound", "statement": "When synthesize_reachgame_BDD() returns a strategy, every state of Entry is the state of some node, every node that is not in Exit answers every environment move legally, and every infinite run of the strategy that never visits Exit violates some environment goal from some time on.", "quantifier": "all finite reachability games, all Entry and Exit sets, all restriction sets that contain Exit (as every caller ensures), any BDD enumeration order", "why_tests_cant": "infinite runs of arbitrary games", "anchors": ["src/patching_support.c:synthesize_reachgame_BDD"]}
{"id": "C34", "title": "Reachability game failure means unrealizable", "statement": "When synthesize_reachgame_BDD() reports failure for a nonempty Entry, from some Entry state the environment can defeat every system strategy for reaching Exit (while staying in the restriction set) or blocking an environment goal.", "quantifier": "all finite reachability games with Exit inside the restriction set, all history-dependent strategies", "why_tests_cant": "quantifies over all strategies", "anchors": ["src/patching_support.c:synthesize_reachgame_BDD", "src/rg_main.c"]}
{"id": "C35", "title": "Interactive edge edits change exactly the named edges", "statement": "restrict / relax with an environment (system) edge removes / adds exactly that edge of the environment (system) transition relation; blockenv / blocksys removes exactly the moves into the given valuation; clear restores the original relations; edits after refresh are reflected in winning.", "quantifier": "all relations of games with at least one system variable, all sequences of edit commands with 0-1 vectors", "why_tests_cant": "arbitrary command sequences", "anchors": ["src/interactive.c:levelset_interactive", "doc/interaction.md"]}
{"id": "C36", "title": "getindex and winning report the computed sets", "statement": "winning STATE answers True exactly for members of the winning set; getindex STATE MODE answers Inf exactly for non-winning states and otherwise the least level containing the state.", "quantifier": "all games with at least one system variable, states and goal modes; answers refer to the relations at the last refresh", "why_tests_cant": "all games", "anchors": ["src/interactive.c:levelset_interactive"]}
{"id": "C37", "title": "sysnext offers progress moves", "statement": "sysnext STATE ENVMOVE MODE lists exactly the system moves that are consistent with progression of a winning strategy: for every winning state and legal environment move at least one move is listed and every listed move is legal and leads to a winning state.", "quantifier": "all games, winning states, legal environment moves and goal modes", "why_tests_cant": "fails only at states of the lowest level, which examples need not query", "anchors": ["src/interactive.c:levelset_interactive", "doc/interaction.md"]}
{"id": "C38", "title": "Command line interpretation and exit status", "statement": "gr1c's option parser accepts exactly the documented switches, the last one of each kind wins, invalid usage exits with status 1 and syntax or form errors with 2; the exit status is 0 exactly when the specification was realizable (or only syntax was checked) and 3 when it was found unrealizable.", "quantifier": "all argument vectors", "why_tests_cant": "all argument vectors", "anchors": ["src/main.c:main"]}
{"id": "C39", "title": "Omitted sections are defaults", "statement": "A specification with omitted (empty) transition or system-goal sections is treated exactly as one with []True and []<>True written out; an omitted environment goal as []<>True.", "quantifier": "all specifications", "why_tests_cant": "all specifications", "anchors": ["src/main.c:main", "doc/spc_format.md", "src/solve_operators.c:compute_winning_set"]}
{"id": "C40", "title": "State distance bounds", "statement": "bounds_state() returns the minimum and maximum 1-norm distance over the metric variables between the reference state and all states of the given set, ranging over every state exactly once.", "quantifier": "all sets and reference states, all metric-variable layouts inside the state with at most 31 bits per variable; floating point taken as exact", "why_tests_cant": "all sets and layouts", "anchors": ["src/solve_metric.c:bounds_state", "src/solve_metric.c:bounds_DDset"]}
{"id": "C41", "title": "Extreme constants of a formula", "statement": "min_tree_value / max_tree_value return the least / greatest constant in a formula that has at least one constant; rmin_tree_value / rmax_tree_value do so for constants compared by equality with a given variable.", "quantifier": "all formulas whose constants differ from the sentinel -9999", "why_tests_cant": "all formulas", "anchors": ["src/ptree.c:min_tree_value", "src/ptree.c:max_tree_value", "src/ptree.c:rmin_tree_value", "src/ptree.c:rmax_tree_value"]}
{"id": "C42", "title": "Promela model offers every environment move", "statement": "The environment process emitted by spin_aut_dump() has one alternative for every combination of values of the environment variables in their declared domains, each exactly once.", "quantifier": "all environment variable lists and domains", "why_tests_cant": "unbounded numbers of variables and domain sizes", "anchors": ["src/automaton_io.c:spin_aut_dump"]}
{"id": "C43", "title": "State string parsing", "statement": "read_state_str() reads the leading whitespace-separated integers of a string, at most max_len of them (all if max_len < 0), and returns how many were read.", "quantifier": "all strings and limits", "why_tests_cant": "all strings", "anchors": ["src/solve_support.c:read_state_str"]}
{"id": "C44", "title": "Goal-mode reachability labelling", "statement": "forward_modereach() relabels exactly the nodes with the given mode and state in N that are reachable from the start node through such nodes, and terminates.", "quantifier": "all automata, all sets N, magic_mode different from mode", "why_tests_cant": "arbitrary graphs with cycles", "anchors": ["src/automaton.c:forward_modereach"]}
{"id": "C45", "title": "Initial formulas of expanded integers", "statement": "For an integer-valued specification, the bit-level game obtained by expand_nonbool_GR1 and expand_nonbool_variables has the encoded state winning exactly when the integer state is winning in the integer-level game, and the same realizability verdict.", "quantifier": "all integer-valued specifications whose variables are used according to their kind, whose expanded names are fresh and which do not compare a variable of domain [0,0] with != 0, all init_flags", "why_tests_cant": "relates two games of different size for all specifications", "anchors": ["src/util.c:expand_nonbool_GR1", "src/util.c:expand_nonbool_variables", "src/main.c:main"]}
{"id": "C46", "title": "Tokenizer is comment- and layout-insensitive", "statement": "The token sequence produced from a specification file does not change when comments or blanks are inserted between tokens, and every keyword and operator is recognized as documented.", "quantifier": "all specification texts in which section headers begin a line and comments are ended by a line end; &[] with optional blanks is one token (proved departures from the documentation: a line end between & and [], a comment at the end of the file, a header in mid-line)", "why_tests_cant": "all texts", "anchors": ["src/gr1c_scan.l"]}
{"id": "C47", "title": "Grammar gives operators the documented meaning", "statement": "A formula written without parentheses is parsed with one well-defined grouping: &, |, ! and comparisons share one left-associative level, -> binds weaker, <-> weakest.", "quantifier": "all token sequences of formulas", "why_tests_cant": "all formulas", "anchors": ["src/gr1c_parse.y"]}
{"id": "C48", "title": "Removing a system goal keeps the remaining obligations", "statement": "When rm_sysgoal() returns an automaton, every infinite run of it still satisfies all safety rules and every remaining system goal.", "quantifier": "all strategies and goal indices accepted by rm_sysgoal", "why_tests_cant": "infinite runs over arbitrary strategies", "anchors": ["src/patching_hotswap.c:rm_sysgoal"]}
{"id": "C49", "title": "Local patching touches only the neighbourhood", "statement": "patch_localfixpoint() changes only nodes whose states are in the declared neighbourhood, and after a change that does not affect a goal mode's nodes leaves that part of the strategy untouched.", "quantifier": "all strategies, neighbourhoods and change files", "why_tests_cant": "arbitrary strategies", "anchors": ["src/patching.c:patch_localfixpoint", "src/patching.c:localfixpoint_goalmode"]}
{"id": "C50", "title": "State-to-BDD encoding is exact", "statement": "state_to_BDD(state,offset,len) is true exactly for assignments that agree with the state at the given positions, and state_to_cof is the function with those positions fixed. Quantification with the cubes of cube_env and cube_sys is quantification over the values of the environment and of the system variables.", "quantifier": "all states, offsets, functions", "why_tests_cant": "semantic identity over all functions", "anchors": ["src/solve_support.c:state_to_BDD", "src/solve_support.c:state_to_cof", "src/solve_support.c:cube_env", "src/solve_support.c:cube_sys"]}
{"id": "C51", "title": "Reach annotation of reachability strategies", "statement": "In a strategy returned by synthesize_reachgame_BDD() the annotation rgrad of a node is 0 exactly for states of Exit, never negative, and never grows along an edge.", "quantifier": "all finite reachability games with Exit inside the restriction set, any BDD enumeration order", "why_tests_cant": "all games and strategies", "anchors": ["src/patching_support.c:synthesize_reachgame_BDD"]}
{"id": "C52", "title": "Horizon separates levels", "statement": "compute_minmax() records for each system goal and level the least and greatest distance to the goal set over the states on that level, and compute_horizon() returns the least h >= 1 such that every state is strictly farther from the goal than all states more than h levels nearer in the sublevel order (-1 if no goal has more than three sublevels).", "quantifier": "all games, all metric-variable layouts", "why_tests_cant": "all games and levels", "anchors": ["src/solve_metric.c:compute_minmax", "src/solve_metric.c:compute_horizon"]}
{"id": "C53", "title": "End to end: from command line and text to a correct controller", "statement": "Running gr1c without -s, -r, -i on a specification file that is realizable and has an initial state ends with status 0 and writes to the requested place, in the requested format, the declared variables and an automaton over declared values that is a strategy for the specification as written: edges are legal moves, every legal environment move is answered by exactly one edge, every infinite run on which the environment goals recur visits each system goal infinitely often, and the initial states required by the chosen interpretation occur.", "quantifier": "all documented command lines, all texts of specifications used according to their kind in which names stay distinct after expansion, no name of an integer variable is a prefix of another, no variable of domain [0,0] is compared with != 0, and ENVTRANS is trivial if there are no environment variables; all choices of the BDD library and allocator", "why_tests_cant": "composition of scanner, parser, expansion, fixpoints, synthesis and compaction over all inputs", "anchors": ["src/main.c:main", "src/solve.c:synthesize", "src/solve.c:check_realizable", "src/automaton.c:aut_compact_nonbool", "src/util.c:expand_nonbool_GR1"]}
{"id": "C54", "title": "A patched strategy is correct in the changed game", "statement": "For a correct strategy and a list of edge set changes, whenever patch_localfixpoint() returns an automaton, in the changed game every edge of it is a legal answer, every legal environment move is answered, and every infinite run meets the goals; if a change concerns a node outside of the neighbourhood an error is reported.", "quantifier": "all games, goals, strategies, neighbourhoods, change lists and choices of the heuristics", "why_tests_cant": "infinite runs of all patched strategies over all games", "anchors": ["src/patching.c:patch_localfixpoint", "src/patching.c:localfixpoint_goalmode", "doc/formats.md"]}
{"id": "C55", "title": "Reach annotation of synthesized strategies", "statement": "In a strategy returned by synthesize() after a positive verdict, no two nodes have the same mode and state, the annotation rgrad is never negative, it does not grow along an edge that keeps the mode unless the edge leaves a state that satisfies all system goals, and it is 0 exactly for nodes whose state satisfies the goal of their mode, which then satisfies all goals.", "quantifier": "all finite games and goals, every choice of the BDD library and allocator", "why_tests_cant": "all strategies of all games", "anchors": ["src/solve.c:synthesize", "doc/formats.md"]}
{"id": "C56", "title": "JSON output is JSON and describes the strategy", "statement": "The text written for a strategy in the default output format is a JSON text (RFC 8259). Read by the grammar of JSON, its members version, gr1c, date, extra, ENV, SYS and nodes are as documented: each declared variable with its domain in order, and for each node of the automaton its state, mode, annotation, initial flag and successors. The description determines the variables and, up to the names of nodes, the automaton.", "quantifier": "for every automaton with distinct nodes, every list of variables with plain names (all names a file can declare are plain), every text the C library prints for pointers", "why_tests_cant": "Separators, quotes and nesting depend on numbers of variables, nodes and transitions, including zero of each; a test sees a few shapes.", "anchors": ["src/automaton_io.c: json_aut_dump", "src/main.c: main", "doc/formats.md"]}
{"id": "C57", "title": "rg: from command line and text to a strategy for the reachability game", "statement": "For every documented command line of rg and every text that is a reachability specification over declared variables: status 0 and, in the requested place and format, a strategy for the game over the declared values if and only if some state satisfies the initial conditions and all such states can be won; the strategy is legal, answers every environment move outside of the goal, ends in the goal, and on infinite runs some environment goal fails from some time on. Otherwise status -1 and no output. The status is 2 exactly for texts that are no such specification, have more than one system goal, or use names where they may not be used; it is never 3, and nothing is written with another status than 0.", "quantifier": "all argument vectors, all texts; the clauses on status 0 and -1 for specifications with the restrictions on names and ENVTRANS of C53; all choices of the BDD library and allocator", "why_tests_cant": "composition of scanner, parser, expansion, fixpoints, synthesis and compaction over all inputs", "anchors": ["src/rg_main.c:main", "src/rg_parse.y", "src/patching_support.c:synthesize_reachgame_BDD", "doc/spc_format.md"]}
{"id": "C58", "title": "What Spin verifies of the Promela model", "statement": "The text written by spin_aut_dump for a strategy and a specification is a Promela file with a formula. By the semantics of Promela and linear temporal logic, the formula holds for all executions of the program if and only if on every play from the first initial node (the environment chooses any values, the node answers, an unanswered choice is a fault) the assumptions imply the guarantees and there is no fault. In particular gr1c -P writes, for every realizable specification, a model that verifies, and whenever a model verifies, all runs from the first initial node satisfy: assumptions imply guarantees.", "quantifier": "all automata with closed edges, all specifications over declared variables with usable names, all executions, with and without the intermediate states of atomic", "why_tests_cant": "infinite executions of all programs; agreement of three texts (declarations, macros, formula) over all variable lists and automata", "anchors": ["src/automaton_io.c:spin_aut_dump", "src/automaton_io.c:spin_aut_ltl_formula", "src/main.c:main", "doc/verification.md"]}
{"id": "C59", "title": "Graphs written for Graphviz", "statement": "For every automaton whose edges are closed and every list of variables with plain names, the text written by dot_aut_dump is a DOT graph whose nodes are one per node of the automaton (with its number, annotation and values) and one anonymous node, and whose edges are those of the automaton, as often as they occur there, and one from the anonymous node to each initial node. If the text of a node has 4094 characters or more, -1 is returned and the text is no graph; gr1c and rg end with status 0 even then.", "quantifier": "all automata, all variables, all combinations of the flags, all command lines and specifications", "why_tests_cant": "all texts over all automata; the limit shows only with thousands of characters per node", "anchors": ["src/automaton_io.c:dot_aut_dump", "src/main.c:main", "src/rg_main.c:main", "include/automaton.h"]}
{"id": "C60", "title": "Strategies as plain text and as tulipcon XML", "statement": "For every automaton whose edges are closed, the text written by list_aut_dump has one line per node from which number, initial mark, values, annotation and positions of successors are read back; the text written by tulip_aut_dump is a well-formed XML document from which the variables with domains and the nodes with values, annotation and positions of successors are read back. gr1c and rg write, in each of the five formats, a text that describes a strategy for the specification.", "quantifier": "all automata, all variables, all command lines and specifications", "why_tests_cant": "all texts over all automata; reading back has to be right for every number and name", "anchors": ["src/automaton_io.c:list_aut_dump", "src/automaton_io.c:tulip_aut_dump", "src/main.c:main", "src/rg_main.c:main", "doc/formats.md"]}
{"id": "C61", "title": "gr1c-autman: checking, converting and modelling automaton files", "statement": "The options are read as the help text says, of each kind the last one counts. For every specification file and every automaton file from which an automaton is loaded, -t writes a text that describes this automaton in the requested format, -s prints the version, and -P writes a Promela model whose formula holds exactly if all plays of the loaded automaton from its first initial node satisfy the specification. What gr1c -t aut writes for a realizable specification is turned by gr1c-autman -P into a model that verifies. Statuses 1, 2, 3 and -1 mark wrong command lines, specifications, automata and unusable files. Departures: a file name - is a memory error, -s prints nothing on error and accepts unknown versions.", "quantifier": "all argument vectors, all files, all formats, all automata", "why_tests_cant": "all texts and automata at once; the workflow composes two programs over all specifications", "anchors": ["aux/autman.c:main", "src/automaton_io.c:aut_aut_loadver", "src/automaton_io.c:spin_aut_dump", "doc/verification.md"]}
{"id": "C62", "title": "Reading a change file for patching", "statement": "The texts of a strategy and of a change file (states of the neighbourhood, then restrict, relax and blocksys commands, with comments and blank lines anywhere) have the effect on patch_localfixpoint of exactly the strategy, the neighbourhood and the changes they write down. Lines that write none of these are refused. What gr1c -t aut writes, patched by a change file, is a correct strategy for the changed game under the conditions of C54. With integer variables states and blocksys are read as written. Departures: with integer variables restrict and relax read beyond the end of an array, even an empty change file does so if only the environment has integer variables, restrict for a move of the environment can remove other moves, and a blocksys command with too few values after another command frees an array twice.", "quantifier": "all texts, all Boolean and integer declarations, all strategies, all sequences of changes", "why_tests_cant": "change files are arbitrary texts; the effect is compared for every game and strategy", "anchors": ["src/patching.c:patch_localfixpoint", "src/solve_support.c:read_state_str", "src/automaton_io.c:aut_aut_load"]}
{"id": "C63", "title": "Adding a system goal gives a strategy for the enlarged list", "statement": "When add_metric_sysgoal is given a strategy synthesized by gr1c and a satisfiable new goal, the new goal is inserted in the visiting order directly after the first of the goals that contain a state nearest to it in the Manhattan metric (after the last goal if there are no metric variables), and the returned automaton has only legal transitions, answers every move of the environment, keeps the initial nodes, and every infinite run on which the environment goals hold infinitely often visits every old system goal and the new one infinitely often.", "quantifier": "for all games, goal lists, new goals, metric layouts, strategies, addresses returned by malloc and enumeration orders of CUDD", "why_tests_cant": "The surgery on the automaton depends on the shape of the strategy (states shared by goals, several entries of a goal, position of initial nodes); the few example patches never meet these shapes.", "anchors": ["src/patching_hotswap.c: add_metric_sysgoal", "include/patching.h: add_metric_sysgoal", "src/solve_metric.c: bounds_DDset"]}
{"id": "C64", "title": "gr1c-patch: from the command line to a changed strategy", "statement": "The options of gr1c-patch are read as the help text says. Called with a specification and with a strategy that gr1c wrote for it, gr1c-patch -r N writes, if it writes anything, a strategy that is legal, keeps the initial nodes and serves all system goals but goal N, and gr1c-patch -f FORMULA one that serves all system goals and the formula; both answer every move under the conditions of C48 and C63. With -e the written strategy is one for the changed game under the conditions of C54. Status 0 means that a strategy was written, 2 that the specification is not well formed, 1 that the command line, the goal number or the formula is wrong. The variables named by -m are the ones by whose values distance is measured. Departures: -r next to -f or -e is ignored, unknown words of -m are ignored, -m looks at beginnings of names, an automaton file whose name begins with - is not opened, -h next to -e is refused.", "quantifier": "all argument vectors, all files, all specifications and strategies, all choices of the BDD library", "why_tests_cant": "composition of option parsing, three parsers, expansion to bits, patching and compaction over all specifications and strategies", "anchors": ["exp/grpatch.c:main", "src/solve_metric.c:get_offsets", "src/patching_hotswap.c:rm_sysgoal", "src/patching_hotswap.c:add_metric_sysgoal"]}
{"id": "C65", "title": "sim_rhc simulates a legal play towards the goals", "statement": "sim_rhc returns a chain of nodes from the given state in which the environment moves legally and at random and every step is a legal move of the system to a state of the winning set. A step goes towards a state nearest to the current goal in the Manhattan metric among those reachable within the horizon, and after a goal is reached the next one is sought. Backtracking never fails; NULL is returned only for a horizon below 1 or unknown metric variables, and nothing uninitialised is read if the environment is never blocked and the given state has answers. Departure: the lists of states met are never cleared, so from the second step on only states never met before are considered, and without one the state is repeated even where this is illegal: a play changes its state at most horizon * |W| times.", "quantifier": "all games, winning sets, goals, metrics, horizons, numbers of iterations, values of rand(), addresses of malloc and enumeration orders of CUDD", "why_tests_cant": "the environment is a random walk and the lists grow along the whole play; there is no test of sim_rhc at all", "anchors": ["src/sim.c: sim_rhc", "include/sim.h: sim_rhc", "src/solve_metric.c: bounds_state, get_offsets"]}
{"id": "C66", "title": "The log gets the lines that are printed, in the log file", "statement": "On an open log, logprint appends the time (if it is shown), the formatted text and a line end to the log and to nothing else; %d, %f, %s and %% mean what they do in printf. A line in pieces (startline, raw, endline) is the line logprint writes for the formats put together. openlogfile names the file after prefix and day, closes an open log file and makes the new one the log; if prefix and day take 256 characters or more, nothing is opened and NULL is returned. Opening, writing and closing has no undefined behaviour and the file gains the texts in order. Departures: the log is not reset on closing, so everything but setlogstream then uses a closed stream; logprint_endline does not test for a missing log.", "quantifier": "all formats and arguments that fit, all sequences of calls, all prefixes, times and process numbers; streams that can be written", "why_tests_cant": "tests use one prefix and few formats; closing and opening again never occurs in them", "anchors": ["src/logging.c: openlogfile, closelogfile, logprint, logprint_startline, logprint_raw, logprint_endline, setlogstream, setlogopt", "include/logging.h"]}
{"id": "C67", "title": "print_support lists exactly the states of a set; printwin lists the winning set", "statement": "print_support writes every state of the given set once, on a line of its own, as bits in groups of four, and restores options and stream of the log. printwin on a realizable specification lists exactly the encodings of states from which the system can win. Departures: every vector of bits whose environment part encodes no values is listed too; if the specification is not realizable, a NULL pointer is passed to Cudd_ForeachCube although the winning set need not be empty; without stream and log print_support uses a NULL pointer.", "quantifier": "all sets, cube decompositions and log states; for printwin all argument vectors and all texts of specifications with the conditions of C45", "why_tests_cant": "the number of states is exponential; the example program is not run by the tests with integer variables or unrealizable specifications", "anchors": ["src/util.c: print_support", "examples/api/printwin.c: main"]}
{"id": "C68", "title": "print_GR1_spec writes all of a specification", "statement": "print_GR1_spec writes eight lines: the names of the environment and system variables, the two initial conditions, and the transition rules and goals of both sides, each formula under its own [] or []<>, joined by &, or (none). Nothing is left out or written elsewhere, and options and stream of the log are restored (stdout is the log afterwards if there was none).", "quantifier": "all lists of variables, all formulas of the grammar, any number of transition rules and goals, all log states", "why_tests_cant": "arbitrary numbers of formulas; the function is only used for debugging output that tests do not compare", "anchors": ["src/util.c: print_GR1_spec", "src/ptree.c: print_formula"]}
{"id": "C69", "title": "tree_dot_dump draws the parse tree", "statement": "The file written by tree_dot_dump is a graph in the DOT language. Its nodes are the nodes of the parse tree, each with its address and the name, number or operator symbol it stands for; its edges lead from every node to its children, each once, the left one first. The graph of a NULL tree is empty.", "quantifier": "all parse trees whose variables have names without quotes, backslashes and control characters, all assignments of different addresses", "why_tests_cant": "trees of arbitrary shape and depth; the files are only looked at by people", "anchors": ["src/ptree.c: tree_dot_dump, tree_dot_dump_node, print_node, inorder_trav"]}
{"id": "C70", "title": "-p writes every part of the specification to a file of its own and echoes it", "statement": "With -p, every initial condition, transition rule and goal is drawn in a file of its own, and the screen shows every variable with its index in the states and its domain, and every formula. Nothing is written without -p, with -s, or if the specification is rejected.", "quantifier": "all command lines, all specifications, any number of transition rules and goals", "why_tests_cant": "file names and indices for arbitrarily many formulas and variables; no test looks at these files", "anchors": ["src/main.c: main", "src/rg_main.c: main", "exp/grpatch.c: main", "src/util.c: print_GR1_spec", "src/ptree.c: tree_dot_dump"]}
{"id": "C71", "title": "What is on standard output", "statement": "After gr1c -r, standard output holds the answer exactly once, with -v and -l as well, and the answer is right. After a synthesis without -o it holds the strategy, after the listing of -p and before the Promela model of -P; after one with -o it does not. A run without -v prints nothing else: in the default format, and without -p and -P, standard output of gr1c and gr1c-rg is one JSON text which describes a strategy for the specification. With -l the progress messages are in the log file, each with the time, and standard output is the same as without -l and -v. (With -v and without -l the messages are on standard output too, so that it is no JSON text.)", "quantifier": "all command lines, all specifications; for the comparison with and without -l all verbosities and all messages of the solver", "why_tests_cant": "the streams are shared by log, results and answers, and which of them goes where depends on combinations of five options; tests look at single combinations", "anchors": ["src/main.c: main", "src/rg_main.c: main", "src/logging.c: logprint, openlogfile, setlogstream"]}
{"id": "C72", "title": "The dialogue of the interactive mode", "statement": "The transcript of a session of gr1c -i has, for each line typed, the prompt and one reply, and a prompt in the end. The reply to a command about the game is the documented text of its answer, and the transcript tells the answers. var, envvar and sysvar list the variables with the positions they have in the vectors of states, numgoals, printgoal and printegoals tell the goals of the specification, a goal that does not exist and missing numbers are refused, and every command that help lists is recognised.", "quantifier": "every specification with Boolean variables, documented command line, text typed and choice of covers", "why_tests_cant": "The tests compare one transcript of a specification with four variables; they do not try long lines, every command of the help text, or arbitrary numbers.", "anchors": ["src/interactive.c:command_loop", "src/interactive.c:levelset_interactive", "src/interactive.c:fgets_wrap", "src/solve_support.c:read_state_str", "doc/interaction.md"]}
{"id": "C73", "title": "Errors of the parser and the lines they name", "statement": "yyparse accepts a text exactly if it is a file of the grammar, no variable is declared twice, lower bounds are zero, and no initial condition is given a second time. A syntax error is found at the first token with which the text does not begin a file (or at the end), and the message names the line of that token. A variable that is declared twice, a lower bound other than zero and a second initial condition are reported with the line in which they are. The message is on standard output after the first notes, nothing else is there, and the exit status is 2.", "quantifier": "every sequence of tokens with lines, every text, both grammars, every documented command line", "why_tests_cant": "The tests parse a few correct files and some wrong ones and look at the exit status only. Which line is printed for every error in every file, and that no wrong file is accepted, needs an argument about all prefixes of all files.", "anchors": ["src/gr1c_parse.y:input", "src/gr1c_parse.y:evar_list", "src/gr1c_parse.y:svar_list", "src/gr1c_parse.y:yyerror", "src/rg_parse.y:input", "src/gr1c_scan.l", "src/main.c:main", "src/rg_main.c:main"]}
{"id": "C74", "title": "Numbers in specifications", "statement": "A numeral in a specification stands for the number its digits denote: as the bound of a domain and in comparisons the value that the parser stores is that number, or the file is refused.", "quantifier": "every text of a specification, both grammars, every numeral", "why_tests_cant": "The tests use numbers below 100. Which of the unboundedly many numerals are stored wrongly, and what becomes of them, needs an argument about all of them.", "anchors": ["src/gr1c_scan.l:number", "src/gr1c_parse.y:YYSTYPE", "src/gr1c_parse.y:evar_list", "src/gr1c_parse.y:svar_list", "src/gr1c_parse.y:propformula"]}
{"id": "C75", "title": "The formula of gr1c-patch -f", "statement": "gr1c-patch -f uses the formula that the argument denotes. If the argument is not a formula, gr1c-patch refuses to run, as it does for a specification that cannot be parsed.", "quantifier": "every command line, every argument of -f, every specification and automaton, all choices of the BDD library and allocator", "why_tests_cant": "The tests give -f correct formulas only. What is left of a wrong one depends on the internal state of the parser at the error, for every prefix of every formula.", "anchors": ["exp/grpatch.c:main", "src/gr1c_parse.y:propformula", "src/ptree.c:pusht_terminal", "src/ptree.c:pusht_operator"]}
{"id": "C76", "title": "Help texts agree with the options", "statement": "The help text of each of the programs gr1c, gr1c-rg, gr1c-patch and gr1c-autman describes exactly the one-letter options that the program accepts, and says correctly which of them take an argument; so does its usage line. The formats and interpretations of initial conditions that it lists are exactly those that -t and -n accept, and those marked as default are the defaults.", "quantifier": "every name under which a program is called, every letter, every argument", "why_tests_cant": "The tests do not look at the help texts. That no option is accepted beyond those described is a statement on all characters.", "anchors": ["src/main.c:main", "src/rg_main.c:main", "exp/grpatch.c:main", "aux/autman.c:main"]}
{"id": "C77", "title": "Standard output and log of gr1c-autman", "statement": "What gr1c-autman prints on standard output without -v, or with -l, is exactly the result (the converted automaton, the Promela model or formula, or the version of the format). With -v the notes on the progress that belong to the verbosity come before it, and with -l they are in the log file instead, each line with the time; a run that fails prints only the notes up to the failure. The results do not depend on -v and -l. Caveat: with -v and without -l, standard output is not a text of the requested format.", "quantifier": "every command line, every specification, every automaton file, every level of verbosity, whether or not there is a log file", "why_tests_cant": "The tests run gr1c-autman without -v and -l. Which notes are mixed with which result depends on the verbosity, the options and on how far the run gets.", "anchors": ["aux/autman.c:main", "src/logging.c:logprint", "src/logging.c:openlogfile"]}
{"id": "C78", "title": "Standard output of gr1c-patch", "statement": "What gr1c-patch prints on standard output without -p, and without -v or with -l, is exactly the patched strategy, unless that goes to a file, after the messages of the parser about an error in the formula of -f or in the specification; these messages name the line of the error. Caveats: the run goes on after an error in the formula, so that a message comes before the strategy; with -v and without -l the notes on the progress come before it; after the formula of -f the lines of the specification are not counted from 1.", "quantifier": "every command line without -p, every specification, formula, automaton and file of edges, every level of verbosity, whether or not there is a log file", "why_tests_cant": "The tests of gr1c-patch look at a few patched strategies. What else is on standard output depends on errors in the input, the verbosity and on how far the run gets.", "anchors": ["exp/grpatch.c:main", "src/gr1c_parse.y:input", "src/gr1c_scan.l:yylloc", "src/logging.c:logprint"]}
