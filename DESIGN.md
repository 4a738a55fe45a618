# Formal model of gr1c: design

Source: `/repo` (gr1c, C). The model is written in Lean 4 under `lean/Verif`.
Properties are listed in `properties.jsonl`; `MANIFEST.json` maps each to its theorems;
`seeded/LOG.jsonl` lists the wrong programs the theorems were tried against.

## Approach

* C functions are modelled one by one as total, computable Lean functions.
  Each definition cites file and lines.
* Loops that the code runs until nothing changes are modelled by well-founded recursion on the
  quantity that shrinks or grows. The definition being accepted shows termination.
  Where a recursion is bounded by a number instead (main loops of the syntheses, `forward_modereach`),
  running out is a distinct outcome and a theorem gives a bound that always suffices.
* Choices the code leaves to the BDD library or to `malloc` (which satisfying cube comes first, in
  which order cubes are generated, which address is returned) are parameters of the model. Theorems
  hold for every such choice.
* Undefined behaviour (NULL dereference, out-of-bounds access, use of a dangling pointer) is a
  distinct outcome of the model.
* Properties are stated against small specifications that do not use the model's helper functions
  (files `*Spec`, `Formula`, `Grammar`, `Layout`, `IntGame`, first part of `Game`).
* Where the code does not have a property, the negation is proved with a concrete witness and the
  part that does hold is proved under explicit hypotheses (suffix `_partial`, status `partial`).
* `*Lemmas`, `*Inv`, `*Shape` hold helper lemmas, `*Props` the theorems of the manifest with examples
  that meet their hypotheses.

## Trusted base

* Lean 4.33.0's kernel.
* Axioms: `propext`, `Classical.choice`, `Quot.sound` only. The list per theorem is at the end.
* That the Lean definitions match the cited C code. This was done by reading; no code is extracted
  or run. As a test of it (not a proof), `RepoTests` and `RepoUnit` run the model on the inputs of `/repo/tests` and
  compare with the outputs expected there, byte for byte, with the cubes in the order of a reduced BDD (`PathCover`).
  All agree. Left out are the gridworld examples, which are too large to evaluate. Some of these are `#guard`, which
  use the interpreter; no theorem depends on them.
* CUDD: a BDD is modelled by the Boolean function it represents, at the level of the game by a finite
  set. Canonicity (pointer equality iff same function), quantification, cofactor by a cube, variable
  map and cube generation are taken to do what CUDD documents. Reference counting and memory
  reclamation are not modelled.
* libc: `strtol` (with saturation), `strcmp`, `strstr`, `fgets` (with its line limit) and `printf` are
  modelled by their documented effect on the inputs used. `malloc` is assumed to succeed (the code
  exits otherwise). `log2`, `ceil`, `pow` and `double` arithmetic are taken as exact.
* `int` has 32 bits where widths matter (C14, C25, C26, C43, C74, there with a `long` of 64 bits); elsewhere counters and annotations are
  unbounded.
* flex/bison: the generated automata are taken to implement the rules in `gr1c_scan.l` (longest
  match, first rule) and `gr1c_parse.y` (precedence declarations); locations, default reductions and the recovery from
  errors as documented for LALR(1) parsers of bison (C73, C75). A `char` is signed.
* Promela: the precedence and meaning of expressions in the Spin manual (C20, C42); the subset of statements written by
  gr1c, where `d_step` takes the first executable option, a selection any executable one and `else` only if there is
  no other, and LTL over infinite executions (C58). Both readings of `atomic` are treated, with and without intermediate states.

## What is modelled

| file | modelled | not modelled |
|------|----------|--------------|
| `solve_operators.c` | winning set, sublevel sets | verbose output |
| `solve.c` | `synthesize`, `check_realizable`, `_internal` | verbose output |
| `solve_support.c` | all functions | |
| `solve_metric.c` | `bounds_state`, `bounds_DDset`, `compute_minmax`, `compute_horizon`, `get_offsets` | rounding of `double` |
| `automaton.c` | all list and graph functions, compaction and expansion | |
| `automaton_io.c` | all of it: `aut_aut_dumpver`, `aut_aut_loadver`, `dot_aut_dump`, `tulip_aut_dump`, `list_aut_dump`, `json_aut_dump`, `spin_aut_dump` | |
| `ptree.c` | all functions (build, merge, print, BDD, ranges, drawing) | |
| `util.c` | all of it | allocation failures |
| `gr1c_scan.l`, `gr1c_parse.y` | all rules, error messages and their lines, numbers beyond the range of `int` | |
| `rg_parse.y` | all rules, error messages and their lines, numbers beyond the range of `int` | |
| `main.c` | options, sections, expansion, verdict, synthesis, compaction, statuses, `-P`, `-p`, log file and standard output, help text | messages on standard error |
| `rg_main.c` | options, sections, expansion, synthesis, compaction, statuses, `-p`, log file and standard output, help text | messages on standard error |
| `aux/autman.c` | all of it: options, checks, conversion, `-P`, statuses, help text, log file and standard output | messages on standard error |
| `interactive.c` | all commands, with the texts of the dialogue | readline, verbose output |
| `patching_support.c` | `synthesize_reachgame_BDD`, `synthesize_reachgame` | verbose output |
| `patching.c` | `localfixpoint_goalmode`, `patch_localfixpoint` with the reading of both files | verbose output, log messages |
| `patching_hotswap.c` | `rm_sysgoal`, `add_metric_sysgoal` (with the strategy file read by the loader of C25) | memory management |
| `exp/grpatch.c` | all of it: options, checks, `-r`, `-f`, `-e`, `-m`, `-p`, statuses, syntax errors of the formula, help text, standard output | syntax errors in a formula text with section headers, the log calls inside of the patching functions (arguments of the model), messages on standard error |
| `sim.c` | all of it | log, failures of the BDD library |
| `logging.c` | all of it | failures of writing; the texts of the clock and of `%f` are given |
| `examples/api/printwin.c` | all of it | releasing memory |
| `exp/grjit.c` | | all: it does not compile against this source, as it calls `expand_nonbool_GR1` without `init_flags` and uses `EXIST_SYS_INIT`, which is not defined |

## Defects of the code found and proved

Each is a theorem with a concrete witness.

| defect | theorem |
|--------|---------|
| `gr1c -v` without `-l` writes messages between the parts of its JSON output (C71) | `verbose_not_json`, `StdoutEx.verbose_ex` |
| `gr1c-rg -p` echoes no transition rules; `gr1c-patch -p` shows Boolean variables with the domain {0..-1} (C70) | `rg_echo_hides_transitions`, `patch_echo_domains` |
| An initial node that is also reached later loses its mark (C06) | `synthesize_initial_lost` |
| Verdict differs from the documentation for unsatisfiable initial formulas (C03) | `check_realizable_vacuous_all_init`, `check_realizable_unsat_sysinit` |
| `x != 0` over the domain [0,0] crashes (C15) | `expand_to_bool_crash` |
| A connective with a constant is printed so that it does not read back (C19) | `print_not_parsed` |
| The message about a variable declared twice names the line of the token before it (C73) | `duplicate_line_wrong` |
| A character of more than 7 bits ends the file: what follows is ignored without a message (C73) | `text_wide`, `wide_first` |
| Numerals from 2^31 on are cut to 32 bits without a message: `[0,4294967297]` is read as `[0,1]` (C74) | `domain_wrong` |
| `gr1c-patch -f` uses a formula with a syntax error as if it were right (C75) | `bad_form_used`, `junk_is_error` |
| `gr1c-autman -v` without `-l` mixes its notes with the converted automaton (C77) | `autman_verbose_not_json` |
| `gr1c-patch -f` does not set the line number back before it reads the specification, so messages about that name a wrong line (C78) | `spec_line_off`, `spec_line_wrong` |
| `gr1c-patch -f` with an error in the formula, and `gr1c-patch -v` without `-l`, write other text before the strategy (C78) | `form_message_not_json`, `patch_verbose_not_json` |
| The help text of `gr1c-rg` does not describe `-p`, its usage line lacks `-n` (C76) | `rg_help_wrong` |
| The loader needs IDs in order; otherwise wrong edges or reading out of bounds (C26) | `load_order_wrong`, `load_order_ub`, `load_version_2`, `load_malformed` |
| Names that are prefixes of other names are confused (C31, C32, C41) | `compact_swallows`, `offsets_wrong`, `rmin_prefix` |
| `sysnext` lists nothing at goal states; following it can lose (C37) | `sysnext_level1_empty`, `sysnext_following_loses`, `sysnext_losing_ub` |
| Interactive mode never reports "unrealizable" in its status; a specification without initial states ends with -1 (C38) | `interactive_verdict_lost`, `no_init_status`, `cli_departures` |
| `compute_minmax` sets level 1 to 0 and writes out of bounds for an empty winning set (C52) | `horizon_level1_wrong`, `minmax_empty_ub` |
| `add_metric_sysgoal`: one goal is always refused; reads freed memory; leaves nodes without successors; loses initial nodes or another goal; prefers unsatisfiable goals (C63) | `add_sysgoal_single`, `add_sysgoal_holds_ub`, `add_sysgoal_exits_ub`, `add_sysgoal_succ_ub`, `add_sysgoal_unanswered`, `add_sysgoal_initial_lost`, `add_sysgoal_goal_lost`, `pick_goal_empty` |
| `rm_sysgoal` overruns `Exit`, loses initial nodes and answers (C48) | `rm_sysgoal_overflow`, `rm_sysgoal_initial_lost`, `rm_sysgoal_skip_unanswered` |
| `patch_localfixpoint` keeps removed edges in use when the goal mode comes around inside the neighbourhood (C54) | `patch_wrap_illegal` |
| `patch_localfixpoint` loses answers of other modes and initial nodes, and fails without entry nodes (C49, C54) | `patch_cross_unanswered`, `patch_initial_lost`, `patch_whole_fails` |
| The reachability game is unsound when Exit is not inside the restriction set (C33) | `reach_exit_outside_unsound` |
| `rg` ends with -1 instead of 3 for an unrealizable specification, and marks no node initial (C57) | `rg_unsolved`, `RgEx.exits_minus_one`, `rg_solved` |
| The form check looks at names only (C24) | `check_form_accepts_int_as_bool`, `check_form_accepts_bool_as_int` |
| Long lines of an automaton file are cut (C25) | `dump_load_long` |
| The Promela model examines only the first initial node, drops assumptions without environment variables, can miss an unanswered move, and is no Promela without initial nodes (C58) | `spin_first_initial_only`, `spin_no_assumptions`, `spin_missing_answer`, `spin_no_initial` |
| `atomic` shows intermediate states to the formula: wrong strategies pass, right ones fail (C58) | `spin_accepts_wrong`, `spin_rejects_right` |
| `gr1c -t dot` cuts the graph off with status 0 when the text of a node reaches 4094 characters (C59) | `dot_dump_long`, `DotLong.cut` |
| The format tulip does not tell initial nodes (C60) | `tulip_no_initial` |
| `gr1c-autman`: the file name `-` is a memory error; `-s` prints nothing on error, accepts unknown versions and empties the file of `-o`; specifications are not checked (C61) | `autman_dash`, `autman_check_wrong`, `autman_check_output`, `autman_no_form_check` |
| `patch_localfixpoint` with integer variables: `restrict` and `relax` read beyond the end of an array, so does every run if only the environment has integers, and `restrict` for an environment move can remove others (C62) | `edge_command_overread`, `env_integers_overread`, `restrict_env_wide`, `ChangeEx.restrict_env_removes_all` |
| A short `blocksys` command after another command is a double free (C62) | `wrong_block_double_free` |
| `gr1c-patch`: `-r` next to `-f` or `-e` is ignored, unknown words of `-m` are ignored and beginnings of names suffice, an automaton file whose name begins with `-` is not opened, `-h` next to `-e` is refused, `-e` with integers of the environment only reads beyond an array (C64) | `patch_ignores_r`, `patch_r_and_f`, `patch_unknown_metric`, `patch_metric_prefix`, `patch_dash_file`, `patch_help_refused`, `patch_env_integers` |
| Names clash with Spin keywords (C20) | `spin_next_clash`, `spin_true_clash` |
| The play of `sim_rhc` stops and makes illegal steps (C65) | `sim_stutters`, `rhc_illegal` |
| `sim_rhc` takes `rand()` modulo 0 if the environment is blocked (C65) | `sim_blocked`, `rhc_unanswered` |
| The log stays set after `closelogfile`, so that a second `closelogfile` or `openlogfile` closes a closed stream; `logprint_endline` and `print_support` use a missing log (C66, C67) | `log_closed`, `log_none`, `print_support_null` |
| `printwin` passes NULL to the BDD library if the specification is not realizable, and lists vectors that are no states (C67) | `printwin_null`, `printwin_extra` |
| `addvar` is listed by `help` and documented, but refused; lines of the dialogue are cut after 255 characters (C72) | `addvar_not`, `long_line_split`, `long_state_refused` |

Seen while reading and outside of the model: error returns of `check_gr1c_form` and
`expand_nonbool_GR1` leave lists chained.

## Properties

For each property: the part of the code that is modelled, how it is proved, the theorems (all in namespace `Gr1c`) and what remains.

### C01: Winning set is sound (proved)

Modelled: the nested loops of `compute_winning_set_BDD` on finite sets (`Game`). Specification: plays, history-dependent strategies and the liveness condition. Proof: the loops compute the nested fixpoint; a ranking argument gives a winning strategy, and outside of the fixpoint an adversary is constructed.

Theorems: `Gr1c.winning_set_sound`.

All finite games, any number of goals.

### C02: Winning set is complete (proved)

Modelled: the nested loops of `compute_winning_set_BDD` on finite sets (`Game`). Specification: plays, history-dependent strategies and the liveness condition. Proof: the loops compute the nested fixpoint; a ranking argument gives a winning strategy, and outside of the fixpoint an adversary is constructed.

Theorems: `Gr1c.winning_set_complete`, `Gr1c.winning_set_exact`.

All finite games, all history-dependent strategies.

### C03: Realizability verdict means what the documentation says (partial)

Modelled: `check_realizable_internal` (`Realizable`) for all four initial-condition flags. Proof: case analysis on top of C01 and C02.

Theorems: `Gr1c.check_realizable_doc_partial`, `Gr1c.check_realizable_char`, `Gr1c.check_realizable_vacuous_all_init`, `Gr1c.check_realizable_unsat_sysinit`.

The documented verdict is false of the code in corner cases; the exact verdict is characterised and the documented one proved under satisfiability conditions.

### C04: Synthesized automaton respects the safety rules and answers every environment move (proved)

Modelled: `synthesize` as a state machine on node list and stack (`Synth`). Addresses, cube order and choices come from an oracle, and the theorems hold for every oracle. Proof: an invariant by induction over the main loop, a rank for liveness, a measure for termination.

Theorems: `Gr1c.synthesize_answers`, `Gr1c.synthesize_succeeds`, `Gr1c.synthesize_states`.

For every allocator, cube order and choice (oracle), after a positive verdict.

### C05: Synthesized automaton satisfies the liveness specification (proved)

Modelled: `synthesize` as a state machine on node list and stack (`Synth`). Addresses, cube order and choices come from an oracle, and the theorems hold for every oracle. Proof: an invariant by induction over the main loop, a rank for liveness, a measure for termination.

Theorems: `Gr1c.synthesize_live`.

### C06: Every required initial state has an initial node (partial)

Modelled: `synthesize` as a state machine on node list and stack (`Synth`). Addresses, cube order and choices come from an oracle, and the theorems hold for every oracle. Proof: an invariant by induction over the main loop, a rank for liveness, a measure for termination.

Theorems: `Gr1c.synthesize_initial_partial`, `Gr1c.synthesize_some_initial`, `Gr1c.synthesize_initial_states`, `Gr1c.synthesize_initial_lost`.

At least one node is marked for any number of goals; that all required ones are is false of the code with two or more system goals (witness); proved for one goal, or when initial states in the first goal satisfy all goals, or for a single picked initial state.

### C07: Fixpoint and strategy construction always terminate (proved)

Modelled: `synthesize` as a state machine on node list and stack (`Synth`). Addresses, cube order and choices come from an oracle, and the theorems hold for every oracle. Proof: an invariant by induction over the main loop, a rank for liveness, a measure for termination.

Theorems: `Gr1c.synthesize_terminates`, `Gr1c.synthesize_succeeds`, `Gr1c.synthesize_empty_ub`, `Gr1c.synthesize_crash`, `Gr1c.reach_exact`.

Explicit iteration bound for the main loop; the fixpoint loops are well-founded definitions.

### C08: Sublevel sets stratify the winning set (proved)

Modelled: `compute_sublevel_sets` (`Sublevels`). Proof: induction over levels.

Theorems: `Gr1c.sublevels_stratify`, `Gr1c.sublevels_cover`.

### C09: Winning set does not depend on goal order or multiplicity (proved)

Consequences of the fixpoint characterisation of C01.

Theorems: `Gr1c.winning_set_goal_order`, `Gr1c.winning_set_all_goals_agree`.

### C10: Winning set is monotone in the rules (proved)

Consequences of the fixpoint characterisation of C01.

Theorems: `Gr1c.winning_set_mono`.

### C11: Cube enumeration is exact (proved)

Modelled: `initialize_cube`, `increment_cube`, `saturated_cube` (`Cube`). Proof: the loop lists each cube once, by induction on the length.

Theorems: `Gr1c.cube_enumeration_exact`, `Gr1c.cube_enumeration_bound_iff`.

All cubes of every length.

### C12: Environment move enumeration is exact (proved)

Modelled: `get_env_moves`, `compute_existsmodal`, `state_to_BDD`, `state_to_cof` on Boolean functions of bits (`BddOps`). Proof: semantic equality with the game operators used in C01.

Theorems: `Gr1c.get_env_moves_general`, `Gr1c.get_env_moves_exact`, `Gr1c.bitOracle_valid`.

For every cover Cudd_ForeachCube may deliver; ENVTRANS without primed system variables (enforced by check_gr1c_form). The oracle of synthesize is built from it.

### C13: Controllable predecessor operator is exact (proved)

Modelled: `get_env_moves`, `compute_existsmodal`, `state_to_BDD`, `state_to_cof` on Boolean functions of bits (`BddOps`). Proof: semantic equality with the game operators used in C01.

Theorems: `Gr1c.existsmodal_general`, `Gr1c.existsmodal_exact`, `Gr1c.existsmodal_pre`.

CUDD operations are trusted to compute the Boolean functions of their manual.

### C14: Integer/bit-vector conversion round-trips (proved)

Modelled: `bitvec_to_int`, `int_to_bitvec` with 32-bit int (`Bits`). Proof: induction on the width.

Theorems: `Gr1c.bitvec_int_roundtrip`, `Gr1c.int_bitvec_roundtrip`, `Gr1c.int_bitvec_mod`, `Gr1c.domain_fits`.

32-bit int; shifts beyond bit 30 are undefined behaviour in the model and excluded by the width hypothesis.

### C15: Expansion of integer comparisons preserves meaning (partial)

Modelled: `expand_to_bool`, `expand_nonbool_GR1`, `expand_nonbool_variables` on parse trees (`Expand`). Specification: truth of formulas under integer valuations. Proof: structural induction. `CopyProps`: expansion never yields NULL, so the error branches are dead.

Theorems: `Gr1c.expand_to_bool_exact`, `Gr1c.expand_to_bool_crash`, `Gr1c.expand_constLeft_wrong`.

Exact for every formula the grammar produces, except x != 0 over the domain [0,0], where the code crashes (proved). A constant on the left of an inequality, which the grammar never produces, is expanded wrongly (witness).

### C16: Out-of-domain bit patterns are excluded exactly (proved)

Modelled: `expand_to_bool`, `expand_nonbool_GR1`, `expand_nonbool_variables` on parse trees (`Expand`). Specification: truth of formulas under integer valuations. Proof: structural induction. `CopyProps`: expansion never yields NULL, so the error branches are dead.

Theorems: `Gr1c.unreach_exact`, `Gr1c.unreach_null`, `Gr1c.expand_GR1_exact`, `Gr1c.expand_not_null`.

Under NoNe0 (see C15). expand_not_null: the error branches of expand_nonbool_GR1 are never taken.

### C17: Variable list expansion keeps order and width (proved)

Modelled: `expand_to_bool`, `expand_nonbool_GR1`, `expand_nonbool_variables` on parse trees (`Expand`). Specification: truth of formulas under integer valuations. Proof: structural induction. `CopyProps`: expansion never yields NULL, so the error branches are dead.

Theorems: `Gr1c.expand_variables_exact`, `Gr1c.expand_width`.

log2/ceil/pow taken as exact.

### C18: Postfix tree building yields the intended parse tree (proved)

Modelled: list and tree functions of `ptree.c` (`PTree`). Proof: structural induction.

Theorems: `Gr1c.postfix_push`, `Gr1c.postfix_parse`, `Gr1c.stackTree_inj`.

### C19: Printed formulas read back as the same formula (partial)

Modelled: `print_formula` (`Print`), read back with the scanner and parser models. Proof: induction on the tree against a grammar of texts.

Theorems: `print_parse_partial`, `print_parse_fm`, `print_not_parsed`.

Exact: the printed text reads back as the same tree, or is a syntax error if a connective joins a variable and a constant (witness: a & True is printed as (a&1)).

### C20: Spin formulas mean the same as gr1c formulas (proved)

Modelled: the Spin syntax of `print_formula`. Specification: Promela expressions with their precedence (`SpinSpec`). Proof: induction. `gr1c -P` keeps copies of the formulas made before expansion; `CopyProps` proves that a copy made by `copy_ptree` is the same formula.

Theorems: `spin_meaning`, `isSpin_unique`, `spin_next_clash`, `spin_true_clash`, `copy_exact`, `copy_formula`.

The text printed for Spin, read with Promela precedence, has the truth value of the formula, for all formulas of the grammar whose names are Spin names; the witnesses show why the name conditions are needed.

### C21: BDD construction computes the formula (proved)

Modelled: `ptree_BDD` and `check_gr1c_form` (`Form`). Proof: structural induction.

Theorems: `ptree_BDD_ok`, `ptree_BDD_exit`, `ptree_BDD_cmp`.

For formulas over listed Boolean variables the BDD is the truth table of the formula; an unlisted variable terminates the program and a comparison never yields a BDD.

### C22: Merging formulas is n-ary conjunction / disjunction (proved)

Modelled: list and tree functions of `ptree.c` (`PTree`). Proof: structural induction.

Theorems: `Gr1c.merge_and`, `Gr1c.merge_or`, `Gr1c.merge_imp`, `Gr1c.merge_edge`.

### C23: Linked-list operations on trees behave like list operations (proved)

Modelled: list and tree functions of `ptree.c` (`PTree`). Proof: structural induction.

Theorems: `Gr1c.list_size`, `Gr1c.list_append`, `Gr1c.list_get`, `Gr1c.list_get_entry`, `Gr1c.list_find`, `Gr1c.list_remove`.

### C24: Scope checking accepts exactly well-scoped specifications (proved)

Modelled: `ptree_BDD` and `check_gr1c_form` (`Form`). Proof: structural induction.

Theorems: `check_form_exact`, `check_form_accepts_int_as_bool`, `check_form_accepts_bool_as_int`.

Exact characterisation of the check; the two witnesses show that it looks at names only, so ill-typed use is accepted and fails later.

### C25: Automaton dump and load round-trip (proved)

Modelled: `aut_aut_dumpver` and `aut_aut_loadver` on texts, with `fgets` and `strtol` (`AutIO`, `CText`). Proof: the reader inverts the writer line by line.

Theorems: `dump_load`, `dump_load_long`, `dump_unknown`.

Both versions, all automata with closed edges and int values whose lines have fewer than 4095 characters; dump_load_long shows that the line buffer makes this limit necessary.

### C26: Loader honours node IDs in any order (partial)

Modelled: `aut_aut_dumpver` and `aut_aut_loadver` on texts, with `fgets` and `strtol` (`AutIO`, `CText`). Proof: the reader inverts the writer line by line.

Theorems: `load_in_order_partial`, `load_order_exact`, `load_order_wrong`, `load_order_ub`, `load_version_2`, `load_malformed`.

False of the code for IDs out of order: exact condition proved, with witnesses for swapped edges and for reading beyond an array. Further witnesses: unsupported versions accepted, undefined behaviour on malformed lines.

### C27: Node deletion and edge replacement affect only their target (proved)

Modelled: the list and graph functions of `automaton.c` (`Automaton`). Proof: invariants over the loops, well-founded recursion for pruning.

Theorems: `Gr1c.delete_anode_exact`, `Gr1c.delete_anode_absent`, `Gr1c.replace_anode_trans_redirect`, `Gr1c.replace_anode_trans_remove`.

### C28: Dead-end pruning is exact (proved)

Modelled: the list and graph functions of `automaton.c` (`Automaton`). Proof: invariants over the loops, well-founded recursion for pruning.

Theorems: `Gr1c.prune_deadends_exact`.

### C29: Forward pruning deletes only unreachable nodes (proved)

Modelled: the list and graph functions of `automaton.c` (`Automaton`). Proof: invariants over the loops, well-founded recursion for pruning.

Theorems: `Gr1c.forward_prune_exact`.

U contains only nodes of the automaton (or NULL); a negative U_len is not represented.

### C30: Node lookup and insertion (proved)

Modelled: the list and graph functions of `automaton.c` (`Automaton`). Proof: invariants over the loops, well-founded recursion for pruning.

Theorems: `Gr1c.find_anode_first`, `Gr1c.find_anode_none`, `Gr1c.anode_index_pos`, `Gr1c.append_anode_trans_exact`, `Gr1c.insert_anode_find`.

### C31: Compacting and expanding integer variables in an automaton are inverse (proved)

Modelled: `aut_compact_nonbool`, `aut_expand_bool`, `get_offsets_list` (`Compact`). Proof: list lemmas.

Theorems: `expand_states`, `compact_states`, `expand_compact`, `compact_expand`, `compact_swallows`.

For declarations in which no integer variable's name is a prefix of another name; the witness shows the condition is needed.

### C32: Offsets of expanded variables (partial)

Modelled: `aut_compact_nonbool`, `aut_expand_bool`, `get_offsets_list` (`Compact`). Proof: list lemmas.

Theorems: `get_offsets_partial`, `offsets_wrong`.

False of the code when an integer variable's name is a prefix of another name (witness); exact otherwise.

### C33: Reachability game strategy is sound (proved)

Modelled: `synthesize_reachgame_BDD` (`ReachGame`). Specification: reachability games with history-dependent strategies (`ReachSpec`). Proof: as C01, C02, C04, C05.

Theorems: `reach_answers`, `reach_live`, `reach_exit_outside_unsound`.

For every allocator, cube order and choice; Exit inside the restriction set, which all callers ensure. The witness shows that the function itself needs this.

### C34: Reachability game failure means unrealizable (proved)

Modelled: `synthesize_reachgame_BDD` (`ReachGame`). Specification: reachability games with history-dependent strategies (`ReachSpec`). Proof: as C01, C02, C04, C05.

Theorems: `reach_exact`, `reach_levels_exact`, `rg_exact`, `reach_exit_outside_error`.

Exact: a strategy is returned if and only if Entry is nonempty and every Entry state can be won by some history-dependent strategy; rg_exact is the statement for the program rg.

### C35: Interactive edge edits change exactly the named edges (proved)

Modelled: the command loop and the level-set session of `interactive.c` (`Interactive`). Specification: abstract commands on edge sets (`InteractSpec`). Proof: refinement by induction over the session.

Theorems: `interactive_session`, `interactive_total`, `parse_command`, `main_session`.

For every sequence of commands and every cube cover; vectors hold 0 and 1 and there is a system variable.

### C36: getindex and winning report the computed sets (proved)

Modelled: the command loop and the level-set session of `interactive.c` (`Interactive`). Specification: abstract commands on edge sets (`InteractSpec`). Proof: refinement by induction over the session.

Theorems: `interactive_session`, `interactive_total`.

The clauses for winning and getindex of ACmd.Answer; levels are specified independently by WithinLevel. Answers refer to the relations at the last refresh.

### C37: sysnext offers progress moves (partial)

Modelled: the command loop and the level-set session of `interactive.c` (`Interactive`). Specification: abstract commands on edge sets (`InteractSpec`). Proof: refinement by induction over the session.

Theorems: `sysnext_moves_partial`, `sysnext_nonempty_iff`, `sysnext_level1_empty`, `sysnext_following_loses`, `sysnext_losing_ub`.

Every listed move is legal and leads to a winning state. False of the code on goal states, where nothing may be listed (witness); nonempty for all other winning states. Following the listed moves forever can lose (witness); for losing states the code reads beyond the levels.

### C38: Command line interpretation and exit status (partial)

Modelled: option parsing (`Cli`) and `main` (`Main`). Specification: the documented options and statuses (`CliSpec`, `MainSpec`).

Theorems: `options_exact`, `cli_documented`, `cli_exact`, `cli_commands`, `cli_departures`, `main_verdict`, `main_two`, `main_rejects`, `main_statuses`, `main_no_init`, `main_interactive_zero`, `main_interactive_int`, `interactive_verdict_lost`, `no_init_status`.

Accepted words and their meaning are exact; statuses 0 and 3 for -s, -r and synthesis follow realizability over the declared values; status 2 is exact. False as stated: the interactive mode ends with 0 for unrealizable specifications, and synthesis of a specification without initial states ends with -1 although it is reported realizable (witnesses). What is written to log files and standard output is C71.

### C39: Omitted sections are defaults (proved)

Modelled: defaults for omitted sections in `main.c` (`Pipeline`).

Theorems: `omitted_sections`, `omitted_env_goals`, `omitted_init`.

Equal results for all parse trees; for omitted initial conditions equal verdicts (except ONE_SIDE_INIT, where omission selects the side).

### C40: State distance bounds (proved)

Modelled: `bounds_state`, `bounds_DDset`, `compute_minmax`, `compute_horizon` (`Metric`), with exact arithmetic. Proof: minimum and maximum over enumerations.

Theorems: `bounds_state_exact`, `bounds_state_visits`, `bounds_DDset_exact`.

For every set, cube cover and layout inside the state with at most 31 bits per variable; floating point taken as exact.

### C41: Extreme constants of a formula (partial)

Modelled: list and tree functions of `ptree.c` (`PTree`). Proof: structural induction.

Theorems: `Gr1c.min_tree_value_exact`, `Gr1c.max_tree_value_exact`, `Gr1c.rmin_exact_partial`, `Gr1c.rmax_exact_partial`, `Gr1c.rmin_prefix`.

rmin/rmax match variable names by prefix: exact when no other name has the given name as a prefix; witness otherwise.

### C42: Promela model offers every environment move (proved)

Modelled: the environment process written by `spin_aut_dump` (`SpinDump`). Proof: the odometer lists every valuation once.

Theorems: `env_moves_complete`, `altText_inj`.

Every environment move is offered exactly once and the texts of different moves differ.

### C43: State string parsing (proved)

Modelled: `read_state_str` (`CText`). Proof: induction on the text.

Theorems: `read_state_str_exact`, `numbers_exists`, `stored_int`.

For all texts and limits; values outside int are stored as strtol's saturation and narrowing give them.

### C44: Goal-mode reachability labelling (proved)

Modelled: the list and graph functions of `automaton.c` (`Automaton`). Proof: invariants over the loops, well-founded recursion for pruning.

Theorems: `Gr1c.modereach_exact`, `Gr1c.modereach_same_label_diverges`.

Label different from the searched mode (as in every caller); otherwise divergence is proved.

### C45: Initial formulas of expanded integers (proved)

Modelled: the path from parse trees over expansion and BDDs to the verdict (`Pipeline`). Specification: the game over declared values (`IntGame`). Proof: embedding of games (`Embed`).

Theorems: `pipeline_exact`, `front_exact`.

From parse trees to the verdict: for well-typed specifications whose expanded names stay distinct, the bit-level run gives the verdict of the game over declared values and the winning set contains exactly the encodings of winning states.

### C46: Tokenizer is comment- and layout-insensitive (proved)

Modelled: scanner rules (`Scan`) and grammar (`Parse`). Specification: layout of token texts (`Layout`) and a grammar with precedence levels (`Grammar`). Proof: induction on texts and derivations.

Theorems: `layout_scanned`, `layout_irrelevant`, `comment_ignored`, `and_safe_split`, `last_line_comment`, `header_midline`.

For all texts; the three witnesses mark where the documented freedom ends.

### C47: Grammar gives operators the documented meaning (proved)

Modelled: scanner rules (`Scan`) and grammar (`Parse`). Specification: layout of token texts (`Layout`) and a grammar with precedence levels (`Grammar`). Proof: induction on texts and derivations.

Theorems: `formula_parsed`, `grammar_unambiguous`, `and_or_left`, `file_parsed`, `file_accepted`, `text_to_verdict`, `not_c_like`, `leading_formula`.

bison's LALR(1) conflict resolution by precedence is modelled as an operator-precedence stack machine; text_to_verdict joins scanner, parser and pipeline.

### C48: Removing a system goal keeps the remaining obligations (proved)

Modelled: `rm_sysgoal` (`RmGoal`). Specification: strategies that seek goals in order (`RmGoalSpec`). Proof: shape of the resulting list, then an argument on the eventual goal mode of a run.

Theorems: `rm_sysgoal_runs`, `rm_sysgoal_answers`, `rm_sysgoal_initial`, `rm_sysgoal_outcome`, `synthesize_seeks`, `rm_sysgoal_synthesized`, `rm_sysgoal_overflow`, `rm_sysgoal_skip_unanswered`, `rm_sysgoal_initial_lost`.

Every run of a returned automaton is legal and live for the remaining goals, for every strategy of the documented form; synthesize returns that form. Defects with witnesses: the array Exit is overrun, initial nodes of the removed modes are lost, and where the strategy skips the removed goal the result no longer answers every move. Without such skips all moves stay answered.

### C49: Local patching touches only the neighbourhood (partial)

Modelled: `localfixpoint_goalmode` and `patch_localfixpoint` after reading of the files (`Patch`). Specification: meaning of the change commands and correctness in the changed game (`PatchSpec`). Proof: shape of the result for one goal mode, an invariant over the goal modes.

Theorems: `patch_scope`, `patch_keeps_partial`, `patch_untouched`, `patch_cross_unanswered`, `patch_initial_lost`.

Every node of the result is an old one or a new one with its state in the neighbourhood and a touched goal mode. Nodes outside of the neighbourhood or of untouched modes are kept with their edges if no edge from another mode leads into the part that is rebuilt; without that condition the property is false of the code (witness), and annotations are scaled by one common factor. If nothing is touched, nothing changes.

### C50: State-to-BDD encoding is exact (proved)

Modelled: `get_env_moves`, `compute_existsmodal`, `state_to_BDD`, `state_to_cof` on Boolean functions of bits (`BddOps`). Proof: semantic equality with the game operators used in C01.

Theorems: `Gr1c.state_to_BDD_exact`, `Gr1c.state_to_cof_exact`, `cube_env_quantifies`, `cube_sys_quantifies`.

cube_prime_env and cube_prime_sys are part of C13 and C12.

### C51: Reach annotation of reachability strategies (proved)

Modelled: `synthesize_reachgame_BDD` (`ReachGame`). Specification: reachability games with history-dependent strategies (`ReachSpec`). Proof: as C01, C02, C04, C05.

Theorems: `reach_rgrad`.

### C52: Horizon separates levels (partial)

Modelled: `bounds_state`, `bounds_DDset`, `compute_minmax`, `compute_horizon` (`Metric`), with exact arithmetic. Proof: minimum and maximum over enumerations.

Theorems: `minmax_exact`, `horizon_exact`, `horizon_separates_partial`, `horizon_level1_wrong`, `minmax_empty_ub`.

False of the code for level 1, whose entry is set to 0 although it can contain non-goal states (witness); for an empty winning set the arrays are written out of bounds. Levels from 2 on: proved.

### C53: End to end: from command line and text to a correct controller (proved)

Composition of C38, C46, C47, C45, C04, C05, C31 for the whole program.

Theorems: `main_strategy`, `main_verdict`, `main_session`, `main_json`, `main_aut`.

From argument vector and specification text to the automaton over declared values. Conditions: names stay distinct after expansion and none is a prefix of another, an initial state exists, and without environment variables ENVTRANS is trivial. main_session is the same for the interactive mode: the answers to the typed lines. main_json and main_aut go on to the text of the output.

### C54: A patched strategy is correct in the changed game (partial)

Modelled: `localfixpoint_goalmode` and `patch_localfixpoint` after reading of the files (`Patch`). Specification: meaning of the change commands and correctness in the changed game (`PatchSpec`). Proof: shape of the result for one goal mode, an invariant over the goal modes.

Theorems: `patch_runs_partial`, `patch_answers_partial`, `patch_synthesized_partial`, `patch_outside`, `patch_wrap_illegal`, `patch_cross_unanswered`, `patch_whole_fails`.

Legal and live in the changed game for all annotated strategies, provided no edge inside the rebuilt part leaves a state satisfying all goals; answers every move provided no edge from another mode leads into that part. Both conditions are needed: witnesses with strategies of synthesize where a removed edge stays in use and where a move is not answered any more.

### C55: Reach annotation of synthesized strategies (proved)

Modelled: `synthesize` (`Synth`). Specification: `Annotated` (`PatchSpec`), read off the documentation of the annotation. Proof: every node is created with the level of its state in the order of its goal and keeps it (`SynthAnnot`); level by level comparison with the mu-nu iteration.

Theorems: `synthesize_annotated`, `synthesize_levels`.

For every game and choice. patch_synthesized_partial (C54) uses it: the hypotheses about annotations in the theorems on patching hold for every synthesized strategy.

### C56: JSON output is JSON and describes the strategy (proved)

Modelled: `json_aut_dump` (`JsonDump`) and the choice of writer in `main` (`MainOut`). Specification: grammar of JSON as a relation between values and texts (`Json`), documented members (`JsonSpec`). Proof: the text is derived in the grammar by structure; readings are unique (`json_unique`), so every reading is the described one.

Theorems: `json_dump_reads`, `json_determines`, `json_unique`, `main_json`.

Grammar of JSON and documented meaning are separate specifications; reading is unique. Trusted: %p prints distinct texts without quotes for distinct pointers; the time stamp is plain text.

### C57: rg: from command line and text to a strategy for the reachability game (proved)

Modelled: `main` of `rg_main.c` (`Rg`). Specification: strategies for reachability games over declared values, documented options (`RgSpec`). Proof: composition of C38, C46, C47, C45, C33, C34, C31; the strategy for bits is pulled back along the encoding (`RgLemmas`).

Theorems: `rg_solved`, `rg_unsolved`, `rg_json`, `rg_statuses`, `rg_rejects`, `rg_syntax`, `rg_help`, `rg_version`, `rg_usage`, `rg_unreadable`, `rg_unwritable`, `rg_late_options`, `RgEx.exits_minus_one`.

Names that are prefixes of integer variables are excluded (C31), and so are ENVTRANS formulas without environment variables. The comment in the code promises status 3 for unrealizable specifications; it is -1 (rg_unsolved). No node of the strategy is marked initial (rg_solved).

### C58: What Spin verifies of the Promela model (proved)

Modelled: `spin_aut_dump` to the character (`SpinModel`) and its call for `-P` (`MainSpin`). Specification: tokens, macros, programs and steps of the Promela subset, LTL over infinite executions, with a switch for intermediate states of `atomic` (`Promela`). Proof: the text is read as a program (`SpinText`), executions are divided into rounds (`SpinRun`, `SpinExec`), the formula is evaluated at the ends of rounds (`SpinVerify`).

Theorems: `spin_verdict`, `spin_exact`, `spin_sound`, `spin_accepts`, `main_promela`, `spin_accepts_wrong`, `spin_rejects_right`, `spin_first_initial_only`, `spin_no_assumptions`, `spin_missing_answer`, `spin_no_initial`.

Exact verdict for the text that is written, with a separate semantics of the Promela subset and of LTL. Limits with witnesses: intermediate states of atomic make goals over several variables true or false, only the first initial node is examined, assumptions are dropped without environment variables, a missing answer passes if the environment is blocked afterwards, and a strategy without initial nodes gives no Promela. Variables must not clash with names of the model.

### C59: Graphs written for Graphviz (proved)

Modelled: `dot_aut_dump` with all flags (`Dot`) and its calls (`MainOut`). Specification: tokens and statements of DOT, the drawing of an automaton (`DotSpec`). Proof: texts of nodes are shown to be safe inside quotes and to read back; the statements are collected node by node (`DotLemmas`).

Theorems: `dot_dump_draws`, `dot_dump_long`, `nodeLabel_tells`, `written_says`, `main_writes`, `rg_writes`, `DotLong.cut`.

Reader for DOT and meaning of the statements are a separate specification. The text of a node stands in a buffer of 4096 characters; a longer one ends the output in the middle with status 0 (DotLong.cut, from the command line).

### C60: Strategies as plain text and as tulipcon XML (proved)

Modelled: `list_aut_dump`, `tulip_aut_dump` (`ListDump`) and their calls (`MainOut`). Specification: reader for lines, reader for XML as characters, tags and a stack, members of the document (`ListSpec`). Proof: a relation 'this text adds these elements', closed under concatenation and tags (`XmlLemmas`).

Theorems: `txt_dump_says`, `tulip_dump_says`, `txtSays_tells`, `tulip_no_initial`, `written_says`, `main_writes`, `rg_writes`.

Readers for lines and for XML are separate specifications. The format tulip does not tell initial nodes (tulip_no_initial).

### C61: gr1c-autman: checking, converting and modelling automaton files (proved)

Modelled: `main` of `autman.c` (`Autman`). Specification: parts of a command line, in any order, and what they ask for; the documented formats of C25, C56, C58-C60 (`AutmanSpec`). Proof: the option loop is a fold over the parts (`AutmanLemmas`); every loaded list is an automaton with distinct IDs, closed edges and states of the declared length (`LoadWell`); a strategy stays one when its nodes are renumbered and reordered (`Renumber`), which gives the workflow of `doc/verification.md` with C53 and C58.

Theorems: `autman_options_exact`, `autman_convert`, `autman_converts_file`, `autman_convert_len`, `autman_syntax`, `autman_model`, `verify_workflow`, `autman_statuses`, `autman_one`, `autman_two`, `autman_three`, `load_well`, `autman_dash`, `autman_check_wrong`, `autman_check_output`, `autman_order_wrong`, `autman_no_form_check`.

From the command line to the text, for all files. Conversion and model are those of the loaded automaton; that this is the automaton of the file is proved for lines in the order of IDs (C26 for the rest, autman_order_wrong). verify_workflow has the limits of the file format as a hypothesis. Departures from the help text have witnesses.

### C62: Reading a change file for patching (partial)

Modelled: the reading of the strategy and change file in `patch_localfixpoint` (patching.c 352-1069), with the arrays of offsets and the double expansion of integer values; undefined behaviour is an outcome (`PatchFile`). Specification: the lines a change file consists of, as a grammar over texts (`PatchFileSpec`). Proof: each loop consumes the lines of the grammar (`PatchFileLemmas`), the second copy of the offsets points beyond the row (`PatchFileInt`); the loaded strategy is the synthesized one with other addresses, and the hypotheses of C54 do not depend on addresses (`PatchMoved`).

Theorems: `change_file_read`, `short_state_refused`, `wrong_count_refused`, `no_command_refused`, `patch_workflow_partial`, `blocksys_file_read`, `wrong_block_double_free`, `env_integers_overread`, `edge_command_overread`, `restrict_env_wide`, `ChangeEx.restrict_env_removes_all`.

Complete for specifications without integer variables; with integer variables, for states and blocksys. The claim is false for edge commands with integer variables (edge_command_overread, env_integers_overread, restrict_env_wide). The workflow has the conditions NoWrap and NoCross of C54, which the code needs.

### C63: Adding a system goal gives a strategy for the enlarged list (partial)

Modelled: `add_metric_sysgoal` (`AddGoal`), pointers to freed nodes are noticed. Specification: the list of goals with the new one inserted, `Waits`, `Apart` (`AddGoalSpec`) and that of C48. Proof: every redirection of pointers is a gluing of two disjoint automata (`AddGoalGlue`), which gives the shape of the result (`AddGoalShape`); then an argument on the modes of a run. The choice of the place is by `bounds_DDset_exact` of C40. Where the claim is false there is a witness for each shape.

Theorems: `add_sysgoal_safe`, `add_sysgoal_runs`, `add_sysgoal_order`, `add_sysgoal_answers`, `add_sysgoal_initial`, `add_sysgoal_single`, `synthesize_waits`, `add_sysgoal_synthesized`, `pick_goal_closest`, `pick_goal_empty`, `add_metric_sysgoal_correct_partial`, `add_sysgoal_holds_ub`, `add_sysgoal_unanswered`, `add_sysgoal_initial_lost`, `add_sysgoal_exits_ub`, `add_sysgoal_succ_ub`, `add_sysgoal_goal_lost`.

Whenever an automaton is returned it is closed, has legal transitions and modes of the enlarged list; if no state satisfies the goal before and the goal after the new one, every run visits all goals and the new one; if none satisfies the new goal and the next one, every move is answered; initial nodes outside the next goal are kept. The place is the first nearest goal if all goals are satisfiable. The full claim is false: with one goal the function always refuses; a state of the preceding goal that satisfies the new one, two entries of the next goal, or an edge between the two goals make it use freed memory; a state of the next goal that satisfies the new one is left without successors; initial marks inside the next goal are lost; a state shared by the two goals loses another goal; an unsatisfiable old goal is taken for the nearest. Each is proved with a witness.

### C64: gr1c-patch: from the command line to a changed strategy (partial)

Modelled: `main` of `exp/grpatch.c` with `get_offsets` (`PatchMain`). Specification: command lines as the help text describes them, `GoalRemoved`, `GoalAdded`, `BlankWords` (`PatchMainSpec`), and for `-e` the text of a change file over declared values (`ChangesSay`) and `EdgesPatched` (`PatchEdges`). Proof: the strategy is pulled from bits to declared values along the embedding of C45 (`EmbedSeeks`, `PatchGoals`), the front part is shared with C53; for `-e` C54 and C62 are carried over along the same embedding (`EmbedPatch`), which is onto for Boolean variables. Not modelled: syntax errors of the formula (the result of `yyparse` is ignored there), the log, help text, `-p`.

Theorems: `patch_removes_goal`, `patch_adds_goal`, `patch_changes_edges_partial`, `main_seeks`, `patch_workflow`, `patch_statuses`, `patch_rejects`, `patch_unknown_var`, `patch_no_such_goal`, `patch_misuse`, `patch_version`, `patch_usage`, `patch_unreadable`, `patch_metric_offsets`, `patch_ignores_r`, `patch_r_and_f`, `patch_help_refused`, `patch_dash_file`, `patch_unknown_metric`, `patch_metric_prefix`, `patch_env_integers`.

Options, -r, -f, -e, statuses and -m proved from the command line to the written strategy. For -e the variables are Boolean and no edge of the strategy closes a cycle over all goals inside the neighbourhood (NoWrap): without that the changed strategy can be wrong (C54), and with integers the reading of change files runs into undefined behaviour (C62, patch_env_integers).

### C65: sim_rhc simulates a legal play towards the goals (partial)

Modelled: `sim_rhc` (`Sim`): `rand`, `malloc` and the enumeration orders are given from outside and then built from the code over cubes (`simBits`); a list `hstacks[j]` is a list of states; an uninitialised `next_state` and `rand() % 0` are undefined. Specification: legal moves inside of W, ways, plays as chains of nodes, the order of goals (`SimSpec`). Proof: invariants of the search (`SimLemmas`): stored states have stored legal predecessors one depth below, all legal moves of stored states are stored, states new at a depth are new at all lower depths; so the way back from a new state meets only new states and ends at an answer to the drawn move. Induction over the iterations in `SimTrace`.

Theorems: `rhc_play_partial`, `rhc_illegal`, `rhc_greedy`, `rhc_first_step`, `rhc_returns`, `rhc_null`, `rhc_unanswered`, `sim_metric_unknown`, `simBits_valid`, `simNear_exact`, `sim_metric_first`, `SimEx.sim_stutters`, `SimEx.sim_blocked`.

The claim is false after the first step (sim_stutters, rhc_illegal): what holds is that every step is legal or repeats the state. The choice is characterised for the first step with every horizon and for all steps with horizon 1; for later steps with a longer horizon only legality is proved. A blocked environment or a state without answers is undefined behaviour (rhc_unanswered).

### C66: The log gets the lines that are printed, in the log file (proved)

Modelled: `logging.c` (`Log`): streams are numbers with the text written so far; the texts of the clock, of `getpid`, `fopen` and `%f` are given from outside; use of NULL or of a closed stream is undefined. Specification: an inductive relation for formats (`Printf`) and for what a call writes (`Writes`). Proof: induction over the format and over the calls.

Theorems: `log_run`, `log_pieces`, `log_open`, `log_open_long`, `log_session`, `log_none`, `log_closed`.

log_none and log_closed prove the departures. The texts of %f and of the time are arguments of the model.

### C67: print_support lists exactly the states of a set; printwin lists the winning set (partial)

Modelled: `print_support` and the main function of `printwin.c` (`Support`), the former as the calls it makes to the log. Specification: groups of four (`Fours`), texts that list states (`ListsStates`). Proof: exactness of the enumeration of cubes (C11), induction over the bits with period four, and the front end of C53; a state without moves of the environment is won, which gives the vectors listed in excess.

Theorems: `print_support_lists`, `print_support_null`, `printwin_lists`, `printwin_unrealizable`, `printwin_refuses`, `printwin_null`, `printwin_extra`.

print_support is proved in full. The claim on printwin is false for unrealizable specifications (printwin_null) and lists with non-states (printwin_extra); which vectors without a meaning are listed is proved for the environment part only.

### C68: print_GR1_spec writes all of a specification (proved)

Modelled: `print_GR1_spec` (`Support`) as the calls it makes to the log. Specification: the eight lines (`specLines`). Proof: line by line from C66.

Theorems: `print_spec_lines`.

The text of a formula is that of print_formula (C19).

### C69: tree_dot_dump draws the parse tree (proved)

Modelled: `tree_dot_dump`, `tree_dot_dump_node`, `print_node` (`TreeDot`); nodes are paths, with any addresses. Specification: the reader of DOT of C59 and the drawing of a tree (`DrawsTree`). Proof: the statements the reader finds are computed by recursion on the tree.

Theorems: `tree_dot_draws`, `tree_dot_nil`.

Addresses are a parameter; nodes of a tree have different ones. A name with quotes cannot be declared (C46).

### C70: -p writes every part of the specification to a file of its own and echoes it (partial)

Modelled: the parts of the three main functions for `-p` (`PtDump`). Specification: which file is for which part (`PartFile`, `DumpsParts`), the list of variables (`listing`), the lines of C68. Proof: C68 and C69, file names differ in the first eight characters or in their number. For `gr1c-rg` and `gr1c-patch` the echo is wrong, which is proved. `PatchDump` has the calls of `gr1c-patch -p` from the command line.

Theorems: `dump_gr1c`, `dump_gr1c_not`, `dump_rg_partial`, `dump_patch_cli_partial`, `dump_patch_not`, `dump_patch_refused`, `dump_patch_partial`, `rg_echo_hides_transitions`, `patch_echo_domains`.

Proved in full for gr1c. For gr1c-rg and gr1c-patch the files are proved, but the claim on the screen is false: gr1c-rg shows no transition rules (rg_echo_hides_transitions), gr1c-patch shows wrong domains for Boolean variables (patch_echo_domains). gr1c-patch draws the formula of -f even if the specification is then rejected (dump_patch_not).

### C71: What is on standard output (proved)

Modelled: every call in the two main functions that prints or logs, in order, with the stream it goes to (`Stdout`); messages of the solver with `-vv` are arbitrary. Specification: a run tells notes, results and answers (`Told`), and `Told.seen`/`Told.logged` say what of it is seen on the screen and found in the log file (`Says`). Proof: invariant (`Sofar`) along the program, then `main_json`, `main_verdict` and `rg_json`; for `log_leaves_stdout` a relation between the states of the two calls (`Beside`).

Theorems: `stdout_answer`, `stdout_verdict`, `stdout_unrealizable`, `stdout_strategy`, `stdout_syntax`, `stdout_json`, `verbose_not_json`, `log_leaves_stdout`, `rg_stdout_strategy`, `rg_stdout_nothing`, `rg_stdout_json`, `StdoutEx.verbose_ex`.

The order of all texts is proved for -v and -l without -vv; for -vv the comparison with the quiet call is proved (log_leaves_stdout) with arbitrary messages of the solver. The last sentence of the claim is verbose_not_json. The interactive mode, usage and version texts are not part of it.

### C72: The dialogue of the interactive mode (partial)

Modelled: prompts, replies and the reading of lines without readline (`Dialog`). Specification: a session is a list of questions and commands (`SItem`), with the lines that mean them (`SItem.Line`, `SessionText`), the replies (`Query.reply`, `answerText`) and the transcript (`DialogSpec`). Proof: induction over the text typed together with C35-C37 (`main_session`); texts of answers are told apart by their characters. The project's own transcript is reproduced byte for byte (`RepoDialog`, a test).

Theorems: `session_dialogue_partial`, `transcript_answers`, `addvar_not`, `long_line_split`, `long_state_refused`.

False as documented: help lists addvar, which is refused (addvar_not). A line has at most 255 characters, the rest is taken for another line (long_line_split), and with more than 124 variables no state can be asked for (long_state_refused). Proved for lines of at most 254 characters without -v, -l and -p; sysnext for winning states and up to date levels as in C37.

### C73: Errors of the parser and the lines they name (partial)

Modelled: the parser from token to token with the lines of tokens (`ParseErr`), as bison builds it from the grammar; its messages. Specification: the grammar of the .y file without precedence (`FormG`, `SecG`, `FileG`), what is allowed beyond it (`SecsFit`), beginnings of files (`Begins`), tokens of each line scanned by itself (`toksByLine`). Proof: an invariant says what has been read in each state (`PInv`), from which it can be completed to a file; conversely every file is read, or an action stops (`file_reads`); for lines, induction over the text. The new parser is proved to agree with the one of C47 (`yyparse_agrees`, `text_agrees`). What is missing: see the defects.

Theorems: `yyparse_accepts`, `yyparse_agrees`, `text_agrees`, `syntax_error_place`, `duplicate_reported`, `lower_reported`, `init_reported`, `text_lines`, `toks_by_line`, `decl_line_before`, `duplicate_line_partial`, `duplicate_line_wrong`, `text_wide`, `wide_first`, `rejected_stdout`, `rg_rejected_stdout`, `message_tells`, `message_texts`.

Acceptance, the place of syntax errors and the three other errors are characterised exactly. What is false of the code: the message about a variable declared twice, or a lower bound, names the line of the token before the declaration, which may be an earlier line (duplicate_line_wrong); in a formula before the first section that is not complete no line is named (PErr.silent); a character of more than 7 bits is taken for the end of the file, so that what follows is ignored (text_wide, wide_first).

### C74: Numbers in specifications (partial)

Modelled: numbers as `strtol` and the conversion to `int` leave them (`NumRange`); the parser only copies them and compares bounds with 0. Specification: `Stored`. Proof: arithmetic for one numeral; for texts, every value in the trees is a number of the text or 0, 1, -1 (`vals_toks`, induction over the parser), so that nothing changes if they are small; larger ones are characterised and the defect is proved.

Theorems: `number_stored`, `number_faithful`, `text_read_as`, `numbers_agree`, `domain_read`, `compare_read`, `domain_wrong`.

True of numerals less than 2^31 (numbers_agree, number_faithful). False of larger ones: strtol returns a long, which is cut to an int without a check, so the domain [0,4294967297] is read as [0,1] (domain_wrong). Which numbers are stored and which bounds are refused is characterised for all numerals (number_stored, domain_read), for 64-bit long and 32-bit int.

### C75: The formula of gr1c-patch -f (partial)

Modelled: `gen_tree_ptr` after an error in a formula, with the default reductions of bison (`FormLeft`), and `gr1c-patch` with it (`patchMainAny`). Specification: the grammar (`Gram`, `FormSays`) and what may stand around a formula (`Around`). Proof: as long as there is no error the two models of the parser do the same (`left_run`, strong induction over the tokens); then the token after the formula stops it. That such a text is not a formula follows by comparing what both would do with more tokens.

Theorems: `patch_any`, `junk_ignored`, `cut_off_ignored`, `wrong_operand_ignored`, `junk_is_error`, `bad_form_used`.

The first sentence is C64 (patch_any carries it over). The second is false of the code: the result of yyparse is not looked at, so that a formula with parentheses that are not closed or with anything after it is used as if it were right (bad_form_used, junk_is_error). The tree that is left after an error is modelled for every text without headers of sections.

### C76: Help texts agree with the options (partial)

Modelled: the texts of `-h`, line by line (`HelpText`). Specification: how such a text is read (`describes`, `usageOf`, `listedFormats`, `listedInits`) and when it is right (`Right`: a letter is described iff the option loop accepts it, with or without an argument). Proof: the loops refuse every other letter (case analysis for all characters); what the texts say is computed, for every name of the program.

Theorems: `gr1c_help`, `patch_help`, `autman_help`, `rg_help_partial`, `rg_help_wrong`, `formats_listed`, `inits_listed`, `defaults_listed`.

Proved for gr1c, gr1c-patch and gr1c-autman. False for gr1c-rg: it accepts -p, which its help text does not describe, and the usage line lacks -n (rg_help_wrong); these are the only differences (rg_help_partial). The long options --help and --version are in no help text; the claim is on the one-letter options.

### C77: Standard output and log of gr1c-autman (proved)

Modelled: the calls of `logprint` and the output of `gr1c-autman` in their order (`AutmanOut`), on top of the log of C66 and the results of C61. Specification: the notes of a complete run with the verbosity that each needs (`amNotes`), what is on the streams (`AmTells`), command lines as in C61. Proof: an invariant says what was written so far (`AmSofar`); every call adds its line; the cases follow the run.

Theorems: `autman_stdout`, `autman_quiet`, `autman_failed`, `autman_same`, `autman_log_leaves`, `autman_verbose_not_json`.

For all levels of verbosity. The caveat is autman_verbose_not_json. The time is the same for all lines; messages on standard error are not modelled.

### C78: Standard output of gr1c-patch (partial)

Modelled: everything that `gr1c-patch` prints as a list of events (`PatchOut`), on top of the log of C66, the errors of the parser of C73 with the line at which it begins, and the results of C64 and C75. Specification: the two messages of the parser and the text of the strategy (`formMessage`, `specMessage`, `patchText`), command lines as in C64. Proof: each event adds only its own text to standard output as long as the log is elsewhere (`Away`); induction over the events. The departures are proved: a message before the JSON text, notes before the JSON text, and how far a line number is off, since the steps of the parser commute with a shift of all line numbers (`yyRun_later`), with a whole run as a witness.

Theorems: `patch_stdout`, `patch_quiet`, `form_message_not_json`, `patch_verbose_not_json`, `form_silent`, `spec_line`, `spec_line_off`, `spec_line_wrong`.

What is on standard output is proved for all runs within the model. Partial because the claim about the line is false: form_silent: a formula without an error has no message; spec_line_off says for every formula by how much the line in a message about the specification is wrong, spec_line_wrong is a whole run; without -f the line is right (spec_line). Not modelled: the log with -v and -l beyond that it does not touch standard output, the listing of -p together with it, a formula text with section headers and a syntax error.

## Axioms of the theorems in the manifest

* All three (`propext`, `Classical.choice`, `Quot.sound`): all other theorems of the manifest.
* `propext`, `Quot.sound`: `Gr1c.postfix_push`, `Gr1c.postfix_parse`, `Gr1c.merge_imp`, `Gr1c.list_size`, `Gr1c.delete_anode_exact`, `Gr1c.delete_anode_absent`, `Gr1c.replace_anode_trans_redirect`, `Gr1c.find_anode_first`, `Gr1c.anode_index_pos`, `Gr1c.append_anode_trans_exact`, `Gr1c.rmin_exact_partial`, `Gr1c.rmax_exact_partial`, `stored_int`, `Gr1c.modereach_same_label_diverges`, `patch_dash_file`, `patch_unknown_metric`, `long_line_split`.
* `propext`: `Gr1c.unreach_null`, `Gr1c.stackTree_inj`, `copy_exact`, `copy_formula`, `Gr1c.merge_and`, `Gr1c.merge_or`, `Gr1c.merge_edge`, `Gr1c.list_append`, `Gr1c.find_anode_none`, `compact_swallows`, `Gr1c.rmin_prefix`, `txtSays_tells`.
* No axioms: `Gr1c.insert_anode_find`, `offsets_wrong`.

The list is the output of `#print axioms`. No other axiom occurs.
