{
 "claims": [
  {
   "property": "C01",
   "status": "proved",
   "theorems": [
    "Verif.Props.C01_same_effects",
    "Verif.Props.C01_same_sequence",
    "Verif.Props.C01_same_result"
   ],
   "note": "All trees, all leaf behaviours that respect the manual's promises (-true/-false do nothing, printing actions return true, -quit does not return), all cost models, levels 0 and 1."
  },
  {
   "property": "C02",
   "status": "partial",
   "theorems": [
    "Verif.Props.C02_same_effects_partial",
    "Verif.Props.C02_counterexample_size_units",
    "Verif.Props.C02_counterexample_uid",
    "Verif.Props.C02_counterexample_nouser",
    "Verif.Props.C02_counterexample_samefile",
    "Verif.Props.C02_counterexample_comma_not",
    "Verif.Props.C02_counterexample_comma_true"
   ],
   "note": "False of the code in general: six counterexamples. Proved at every level >= 2 for comma-free trees that ask for at most one user (by equality, and not beside -nouser) and at most one group (likewise), with one -size unit, -samefile unambiguous, and (at -O4) no -empty."
  },
  {
   "property": "C03",
   "status": "proved",
   "theorems": [
    "Verif.Props.C03_reorder_same_effects",
    "Verif.Props.C03_reorder_same_actions"
   ],
   "note": "The reordering pass on annotated and canonicalized trees, for all cost models and all trees (commas included). Trees that went through data flow first are covered by C02_same_effects_partial at levels 3 and 4."
  },
  {
   "property": "C04",
   "status": "partial",
   "theorems": [
    "Verif.Props.C04_skipped_has_no_effect_partial",
    "Verif.Props.C04_pruned_has_no_effect_partial"
   ],
   "note": "Same restrictions as C02."
  },
  {
   "property": "C15",
   "status": "partial",
   "theorems": [
    "Verif.Props.C15_xtimegm_exact",
    "Verif.Props.C15_xtimegm_normalises",
    "Verif.Props.C15_xtimegm_total_partial",
    "Verif.Props.C15_xtimegm_ub_witness"
   ],
   "note": "False of the code in full: near INT_MIN the normalisation overflows without reporting it (witness). Whatever is returned is exact, and fields up to a billion in absolute value are always handled."
  },
  {
   "property": "C17",
   "status": "proved",
   "theorems": [
    "Verif.Props.C17_timespec_add",
    "Verif.Props.C17_timespec_add_defined",
    "Verif.Props.C17_timespec_sub",
    "Verif.Props.C17_timespec_sub_defined",
    "Verif.Props.C17_timespec_sharp",
    "Verif.Props.C17_timespec_cmp",
    "Verif.Props.C17_timespec_minmax"
   ],
   "note": "Overflow of the seconds is undefined behaviour, as a distinct outcome; the last theorem but two shows that the bounds are sharp."
  },
  {
   "property": "C49",
   "status": "proved",
   "theorems": [
    "Verif.Props.C49_eval_iff_runs",
    "Verif.Props.C49_nothing_after_quit"
   ],
   "note": ""
  },
  {
   "property": "C05",
   "status": "proved",
   "theorems": [
    "Verif.Props.C05_trie_is_finite_map",
    "Verif.Props.C05_trie_is_finite_map_strings",
    "Verif.Props.C05_trie_is_finite_map_fixed",
    "Verif.Props.C05_counterexample_prefix"
   ],
   "note": "Prefix-freeness is the documented precondition; the counterexample shows what happens without it. OFFSET_MAX is a parameter. Allocation assumed to succeed."
  },
  {
   "property": "C06",
   "status": "proved",
   "theorems": [
    "Verif.Props.C06_longest_prefix"
   ],
   "note": ""
  },
  {
   "property": "C07",
   "status": "proved",
   "theorems": [
    "Verif.Props.C07_postfix_search",
    "Verif.Props.C07_counterexample_shortest"
   ],
   "note": "The header's stronger promise (shortest) is false; see the counterexample."
  },
  {
   "property": "C08",
   "status": "proved",
   "theorems": [
    "Verif.Props.C08_iteration_in_insertion_order"
   ],
   "note": ""
  },
  {
   "property": "C13",
   "status": "proved",
   "theorems": [
    "Verif.Props.C13_shell_round_trip"
   ],
   "note": "For every locale whose mbrtowc() makes progress and never calls a tab or newline printable."
  },
  {
   "property": "C14",
   "status": "proved",
   "theorems": [
    "Verif.Props.C14_never_truncated",
    "Verif.Props.C14_any_buffer"
   ],
   "note": "For every locale, even one that breaks the rules."
  },
  {
   "property": "C58",
   "status": "proved",
   "theorems": [
    "Verif.Props.C58_no_control",
    "Verif.Props.C58_ascii_prefix"
   ],
   "note": ""
  },
  {
   "property": "C09",
   "status": "partial",
   "theorems": [
    "Verif.Props.C09_in_order",
    "Verif.Props.C09_status",
    "Verif.Props.C09_exactly_once_partial",
    "Verif.Props.C09_lost_pair",
    "Verif.Props.C09_lost_with_large"
   ],
   "note": "In-order and no repetition always; exit status zero iff nothing was lost and no command failed, always. Exactly-once needs each path to be at most 7/16 of what the system accepts; the two counterexamples show that the code loses paths otherwise."
  },
  {
   "property": "C10",
   "status": "proved",
   "theorems": [
    "Verif.Props.C10_bookkeeping",
    "Verif.Props.C10_retry",
    "Verif.Props.C10_terminates",
    "Verif.Props.C10_batch_limit",
    "Verif.Props.C10_arg_max"
   ],
   "note": ""
  },
  {
   "property": "C11",
   "status": "partial",
   "theorems": [
    "Verif.Props.C11_one_directory_partial",
    "Verif.Props.C11_exec_cwd",
    "Verif.Props.C11_trailing_slash",
    "Verif.Props.C11_root",
    "Verif.Props.C11_open_failure"
   ],
   "note": "Proved for paths whose last component has no trailing slash; false otherwise (counterexamples). strndup() failures excluded."
  },
  {
   "property": "C12",
   "status": "proved",
   "theorems": [
    "Verif.Props.C12_substitution",
    "Verif.Props.C12_single",
    "Verif.Props.C12_single_status",
    "Verif.Props.C12_multi_template"
   ],
   "note": ""
  },
  {
   "property": "C25",
   "status": "proved",
   "theorems": [
    "Verif.Props.C25_conservation",
    "Verif.Props.C25_exactly_once",
    "Verif.Props.C25_delivered",
    "Verif.Props.C25_quiescent",
    "Verif.Props.C25_blocking_pop",
    "Verif.Props.C25_wrap"
   ],
   "note": "Any number of threads, any interleaving of atomic accesses (sequentially consistent), any size; at most 2^62 pop tickets (a slot's skip counter has 62 bits)."
  },
  {
   "property": "C26",
   "status": "proved",
   "theorems": [
    "Verif.Props.C26_no_lost_wakeup",
    "Verif.Props.C26_stuck",
    "Verif.Props.C26_mutual_exclusion"
   ],
   "note": "Sequentially consistent atomics; spurious wake-ups included."
  },
  {
   "property": "C27",
   "status": "proved",
   "theorems": [
    "Verif.Props.C27_capacity",
    "Verif.Props.C27_refused",
    "Verif.Props.C27_order",
    "Verif.Props.C27_cancel",
    "Verif.Props.C27_safe",
    "Verif.Props.C27_pop"
   ],
   "note": "io_uring path not modelled."
  },
  {
   "property": "C59",
   "status": "partial",
   "theorems": [
    "Verif.Props.C59_worker",
    "Verif.Props.C59_flush",
    "Verif.Props.C59_iteration",
    "Verif.Props.C59_stop_partial",
    "Verif.Props.C59_stop_counterexample"
   ],
   "note": "False in one corner: the stop marker can overtake earlier requests if a worker is delayed in the middle of a batch while the others go once around the ring, and then a worker finds requests behind the marker and fails its assertion (C59_stop_counterexample, an explicit schedule). Everything else is proved."
  },
  {
   "property": "C28",
   "status": "proved",
   "theorems": [
    "Verif.Props.C28_safe",
    "Verif.Props.C28_in_use",
    "Verif.Props.C28_freed",
    "Verif.Props.C28_handlers_never_wait",
    "Verif.Props.C28_writer_waits_for_handlers",
    "Verif.Props.C28_spin_counterexample"
   ],
   "note": "Any number of handlers, every interleaving of shared-memory accesses (sequentially consistent); sem_init() succeeds. The counterexample shows the fallback without semaphores is unsafe."
  },
  {
   "property": "C29",
   "status": "partial",
   "theorems": [
    "Verif.Props.C29_registered_partial",
    "Verif.Props.C29_handler",
    "Verif.Props.C29_lost_counterexample"
   ],
   "note": "False of the code in general: unregistering the last of several hooks makes the next registration drop all of them (counterexample). Proved for histories without that."
  },
  {
   "property": "C60",
   "status": "partial",
   "theorems": [
    "Verif.Props.C60_table",
    "Verif.Props.C60_dispatch_partial",
    "Verif.Props.C60_fault",
    "Verif.Props.C60_oneshot",
    "Verif.Props.C60_collision_counterexample"
   ],
   "note": "False for signal 64 (counterexample), proved for 1..63."
  },
  {
   "property": "C18",
   "status": "proved",
   "theorems": [
    "Verif.Props.C18_safe",
    "Verif.Props.C18_once",
    "Verif.Props.C18_directories_first",
    "Verif.Props.C18_sound",
    "Verif.Props.C18_complete",
    "Verif.Props.C18_everything",
    "Verif.Props.C18_progress",
    "Verif.Props.C18_terminates"
   ],
   "note": "One pass of bftw_impl(), for breadth-first, depth-first and each pass of the deepening strategies, for every schedule of the I/O threads."
  },
  {
   "property": "C19",
   "status": "proved",
   "theorems": [
    "Verif.Props.C19_last",
    "Verif.Props.C19_exactly",
    "Verif.Props.C19_everything",
    "Verif.Props.C19_none"
   ],
   "note": ""
  },
  {
   "property": "C21",
   "status": "proved",
   "theorems": [
    "Verif.Props.C21_decision",
    "Verif.Props.C21_pruned",
    "Verif.Props.C21_exact",
    "Verif.Props.C21_stop"
   ],
   "note": ""
  },
  {
   "property": "C22",
   "status": "proved",
   "theorems": [
    "Verif.Props.C22_sort",
    "Verif.Props.C22_visits"
   ],
   "note": ""
  },
  {
   "property": "C23",
   "status": "proved",
   "theorems": [
    "Verif.Props.C23_path",
    "Verif.Props.C23_join",
    "Verif.Props.C23_build"
   ],
   "note": ""
  },
  {
   "property": "C61",
   "status": "proved",
   "theorems": [
    "Verif.Props.C61_errors",
    "Verif.Props.C61_freed"
   ],
   "note": ""
  },
  {
   "property": "C24",
   "status": "proved",
   "theorems": [
    "Verif.Props.C24_safe",
    "Verif.Props.C24_capacity",
    "Verif.Props.C24_in_use",
    "Verif.Props.C24_candidates",
    "Verif.Props.C24_evictions",
    "Verif.Props.C24_room",
    "Verif.Props.C24_freed",
    "Verif.Props.C24_end"
   ],
   "note": ""
  },
  {
   "property": "C20",
   "status": "partial",
   "theorems": [
    "Verif.Props.C20_walk",
    "Verif.Props.C20_deepening_partial",
    "Verif.Props.C20_same_partial",
    "Verif.Props.C20_window_partial",
    "Verif.Props.C20_breadth_partial",
    "Verif.Props.C20_errors_partial",
    "Verif.Props.C20_passes_partial",
    "Verif.Props.C20_walk_post",
    "Verif.Props.C20_eds_post_partial",
    "Verif.Props.C20_ids_post_partial",
    "Verif.Props.C20_post_same_partial",
    "Verif.Props.C20_post_errors_partial",
    "Verif.Props.C20_calls_partial",
    "Verif.Props.C20_anytime_partial",
    "Verif.Props.C20_stop_partial",
    "Verif.Props.C20_unstopped_partial",
    "Verif.Props.C20_prune_counterexample",
    "Verif.Props.C20_mount_counterexample",
    "Verif.Props.C20_stat_error_counterexample",
    "Verif.Props.C20_read_error_counterexample"
   ],
   "note": "False in full: pruned directories are remembered by path, so exponential deepening can lose files that are reached by two ways; with -xdev -depth mount points differ; errors can be reported twice. Proved for callbacks that treat equal paths alike, without stat errors; at any time, and if the callback stops the search: C20_anytime_partial, C20_stop_partial."
  },
  {
   "property": "C30",
   "status": "proved",
   "theorems": [
    "Verif.Props.C30_least",
    "Verif.Props.C30_symmetric",
    "Verif.Props.C30_equal",
    "Verif.Props.C30_triangle",
    "Verif.Props.C30_small",
    "Verif.Props.C30_suggestion",
    "Verif.Props.C30_zero_counterexample"
   ],
   "note": "The converse of 'zero for equal strings' is false, see C30_zero_counterexample; it is not part of the property."
  },
  {
   "property": "C31",
   "status": "proved",
   "theorems": [
    "Verif.Props.C31_int",
    "Verif.Props.C31_prefix",
    "Verif.Props.C31_base",
    "Verif.Props.C31_range",
    "Verif.Props.C31_icmp",
    "Verif.Props.C31_looks"
   ],
   "note": "strtoll() is modelled after the C standard, for bases up to ten."
  },
  {
   "property": "C32",
   "status": "proved",
   "theorems": [
    "Verif.Props.C32_partition"
   ],
   "note": ""
  },
  {
   "property": "C33",
   "status": "partial",
   "theorems": [
    "Verif.Props.C33_argument",
    "Verif.Props.C33_size_partial",
    "Verif.Props.C33_overflow_counterexample",
    "Verif.Props.C33_overflow_sharp",
    "Verif.Props.C33_sparse_partial"
   ],
   "note": "Signed overflow for sizes within one unit of 2^63."
  },
  {
   "property": "C34",
   "status": "partial",
   "theorems": [
    "Verif.Props.C34_argument_partial",
    "Verif.Props.C34_duration_counterexample",
    "Verif.Props.C34_age",
    "Verif.Props.C34_future",
    "Verif.Props.C34_newer",
    "Verif.Props.C34_used"
   ],
   "note": "Durations of 2^63 seconds and more wrap around; timestamps within 2^61 seconds."
  },
  {
   "property": "C35",
   "status": "partial",
   "theorems": [
    "Verif.Props.C35_grammar",
    "Verif.Props.C35_defined",
    "Verif.Props.C35_symbolic_partial",
    "Verif.Props.C35_disjoint",
    "Verif.Props.C35_octal",
    "Verif.Props.C35_umask_counterexample",
    "Verif.Props.C35_setuid_counterexample"
   ],
   "note": "False of clauses without who that have several actions, under a umask: the umask is only used for the first (counterexample). Also, '=' never clears the set-user-ID, set-group-ID and sticky bits (counterexample; the specification follows the code there)."
  },
  {
   "property": "C36",
   "status": "proved",
   "theorems": [
    "Verif.Props.C36_prefix",
    "Verif.Props.C36_equal",
    "Verif.Props.C36_all",
    "Verif.Props.C36_any",
    "Verif.Props.C36_octal_means"
   ],
   "note": ""
  },
  {
   "property": "C16",
   "status": "proved",
   "theorems": [
    "Verif.Props.C16_zoned",
    "Verif.Props.C16_local",
    "Verif.Props.C16_rejects",
    "Verif.Props.C16_unambiguous",
    "Verif.Props.C16_epoch",
    "Verif.Props.C16_defined"
   ],
   "note": "Conversion from local time is a parameter. Out-of-range fields such as month 13 carry over, as in mktime()."
  },
  {
   "property": "C37",
   "status": "proved",
   "theorems": [
    "Verif.Props.C37_directory",
    "Verif.Props.C37_same_file",
    "Verif.Props.C37_name",
    "Verif.Props.C37_root_name",
    "Verif.Props.C37_root"
   ],
   "note": "Without colors."
  },
  {
   "property": "C39",
   "status": "proved",
   "theorems": [
    "Verif.Props.C39_cases",
    "Verif.Props.C39_base",
    "Verif.Props.C39_dir",
    "Verif.Props.C39_slashes",
    "Verif.Props.C39_no_slash",
    "Verif.Props.C39_recombine"
   ],
   "note": ""
  },
  {
   "property": "C62",
   "status": "partial",
   "theorems": [
    "Verif.Props.C62_name",
    "Verif.Props.C62_root",
    "Verif.Props.C62_hidden_partial",
    "Verif.Props.C62_hidden_counterexample"
   ],
   "note": "False for roots with trailing slashes: ./ counts as hidden."
  },
  {
   "property": "C38",
   "status": "proved",
   "theorems": [
    "Verif.Props.C38_sound",
    "Verif.Props.C38_complete",
    "Verif.Props.C38_rejects",
    "Verif.Props.C38_unambiguous",
    "Verif.Props.C38_verbatim",
    "Verif.Props.C38_stop",
    "Verif.Props.C38_output",
    "Verif.Props.C38_failures",
    "Verif.Props.C38_specifier"
   ],
   "note": "What each directive prints is a parameter here (the path directives are C37). Failing allocations are not modelled."
  },
  {
   "property": "C40",
   "status": "proved",
   "theorems": [
    "Verif.Props.C40_decode",
    "Verif.Props.C40_malformed",
    "Verif.Props.C40_error",
    "Verif.Props.C40_unambiguous",
    "Verif.Props.C40_literal",
    "Verif.Props.C40_settings",
    "Verif.Props.C40_settings_rejects"
   ],
   "note": "the grammar of chunks and of the whole variable is Spec/Color.lean; allocation failures are not modelled"
  },
  {
   "property": "C41",
   "status": "proved",
   "theorems": [
    "Verif.Props.C41_color",
    "Verif.Props.C41_last",
    "Verif.Props.C41_none",
    "Verif.Props.C41_exact",
    "Verif.Props.C41_two_cases",
    "Verif.Props.C41_ls_colors",
    "Verif.Props.C41_smart_case_counterexample",
    "Verif.Props.C41_override_counterexample"
   ],
   "note": "on top of the model of the trie (C05); two surprises of the smart case heuristic are proved as counterexamples"
  },
  {
   "property": "C45",
   "status": "proved",
   "theorems": [
    "Verif.Props.C45_iff",
    "Verif.Props.C45_rejects",
    "Verif.Props.C45_unambiguous",
    "Verif.Props.C45_expressible",
    "Verif.Props.C45_precedence",
    "Verif.Props.C45_names",
    "Verif.Props.C45_flag_group",
    "Verif.Props.C45_flag_group_value"
   ],
   "note": "Whole command lines: the parser accepts exactly those that lex into tokens and paths and follow the grammar, and returns the tree of the grammar; everything else is an error, and no assertion fails. The grammar is unambiguous. The table of primaries is modelled entry by entry; whether values are acceptable is a parameter."
  },
  {
   "property": "C52",
   "status": "proved",
   "theorems": [
    "Verif.Props.C52_count",
    "Verif.Props.C52_leading",
    "Verif.Props.C52_trailing",
    "Verif.Props.C52_ones_at_ends",
    "Verif.Props.C52_first",
    "Verif.Props.C52_single",
    "Verif.Props.C52_width",
    "Verif.Props.C52_floor",
    "Verif.Props.C52_ceil",
    "Verif.Props.C52_ceil_overflow",
    "Verif.Props.C52_rotate",
    "Verif.Props.C52_rotate_inverse",
    "Verif.Props.C52_bswap",
    "Verif.Props.C52_load_le",
    "Verif.Props.C52_load_be"
   ],
   "note": "For every width, both the loops and the versions on top of compiler builtins (whose semantics is modelled). bit_ceil is the power of two only when the type can represent it; otherwise it is undefined (C52_ceil_overflow)."
  },
  {
   "property": "C65",
   "status": "proved",
   "theorems": [
    "Verif.Props.C65_ascii",
    "Verif.Props.C65_bounds"
   ],
   "note": "64-bit size_t variant of asciinlen()."
  },
  {
   "property": "C42",
   "status": "proved",
   "theorems": [
    "Verif.Props.C42_read_full",
    "Verif.Props.C42_read_short",
    "Verif.Props.C42_read_safe",
    "Verif.Props.C42_write_full",
    "Verif.Props.C42_write_short"
   ],
   "note": "The kernel is an arbitrary script of partial transfers, interruptions, errors and ends of file."
  },
  {
   "property": "C63",
   "status": "proved",
   "theorems": [
    "Verif.Props.C63_link",
    "Verif.Props.C63_stable",
    "Verif.Props.C63_one_call"
   ],
   "note": "Targets shorter than 2^62 bytes; every attempt may see another target, and any allocation may fail."
  },
  {
   "property": "C64",
   "status": "proved",
   "theorems": [
    "Verif.Props.C64_files0",
    "Verif.Props.C64_error",
    "Verif.Props.C64_round_trip"
   ],
   "note": "getdelim() is modelled."
  },
  {
   "property": "C66",
   "status": "partial",
   "theorems": [
    "Verif.Props.C66_chunk_partial",
    "Verif.Props.C66_newline_counterexample"
   ],
   "note": "True for NUL, false for other delimiters: xgetdelim() compares chunk[len] instead of chunk[len - 1]."
  },
  {
   "property": "C43",
   "status": "proved",
   "theorems": [
    "Verif.Props.C43_terminated",
    "Verif.Props.C43_step",
    "Verif.Props.C43_dup",
    "Verif.Props.C43_cstring",
    "Verif.Props.C43_repeat"
   ],
   "note": "All operation histories including failing allocations; sizes adding up to less than 2^62. vsnprintf() is modelled; the source does not alias the destination."
  },
  {
   "property": "C44",
   "status": "proved",
   "theorems": [
    "Verif.Props.C44_arena_separate",
    "Verif.Props.C44_arena_alloc",
    "Verif.Props.C44_arena_free",
    "Verif.Props.C44_arena_init",
    "Verif.Props.C44_separate",
    "Verif.Props.C44_defined",
    "Verif.Props.C44_alloc",
    "Verif.Props.C44_realloc",
    "Verif.Props.C44_grow",
    "Verif.Props.C44_free",
    "Verif.Props.C44_reuse",
    "Verif.Props.C44_init",
    "Verif.Props.C44_reserve"
   ],
   "note": "All histories of allocations, resizes, frees, writes and clears, for every honest system allocator. Memory has one cell per address; struct alignment at least 8."
  },
  {
   "property": "C51",
   "status": "proved",
   "theorems": [
    "Verif.Props.C51_step",
    "Verif.Props.C51_history",
    "Verif.Props.C51_attached",
    "Verif.Props.C51_init",
    "Verif.Props.C51_item_init",
    "Verif.Props.C51_double_history",
    "Verif.Props.C51_double_attached",
    "Verif.Props.C51_double_init"
   ],
   "note": "Any history of operations on any number of singly- or doubly-linked lists that share items; pointers are modelled as slots, and looping and attachment tests are proved to show the abstract sequences."
  },
  {
   "property": "C46",
   "status": "proved",
   "theorems": [
    "Verif.Props.C46_search",
    "Verif.Props.C46_once",
    "Verif.Props.C46_first"
   ],
   "note": "Any sequence of visited files, on top of the trie of src/trie.c; files that cannot be examined or remembered are skipped, as in the code."
  },
  {
   "property": "C47",
   "status": "proved",
   "theorems": [
    "Verif.Props.C47_history",
    "Verif.Props.C47_stable",
    "Verif.Props.C47_fresh"
   ],
   "note": "Any history of lookups by name and by ID and of flushes, with a database that may change at any time and allocations that may fail."
  },
  {
   "property": "C50",
   "status": "proved",
   "theorems": [
    "Verif.Props.C50_compare",
    "Verif.Props.C50_antisymmetric",
    "Verif.Props.C50_total",
    "Verif.Props.C50_transitive",
    "Verif.Props.C50_equal",
    "Verif.Props.C50_raise",
    "Verif.Props.C50_raise_result",
    "Verif.Props.C50_children",
    "Verif.Props.C50_budget",
    "Verif.Props.C50_count",
    "Verif.Props.C50_split"
   ],
   "note": "All limits on any platform where 64K is not a special value; setrlimit() either sets what it is asked to or fails."
  },
  {
   "property": "C53",
   "status": "proved",
   "theorems": [
    "Verif.Props.C53_permissions",
    "Verif.Props.C53_type",
    "Verif.Props.C53_length",
    "Verif.Props.C53_determines"
   ],
   "note": "All modes, with the file types of Linux."
  },
  {
   "property": "C48",
   "status": "proved",
   "theorems": [
    "Verif.Props.C48_resolve",
    "Verif.Props.C48_resolve_direct",
    "Verif.Props.C48_search",
    "Verif.Props.C48_copy"
   ],
   "note": "All PATH values, commands and requests; posix_spawn() is a parameter that is assumed to do what POSIX says."
  },
  {
   "property": "C67",
   "status": "partial",
   "theorems": [
    "Verif.Props.C67_outcome_partial",
    "Verif.Props.C67_direct_partial",
    "Verif.Props.C67_truthful",
    "Verif.Props.C67_fork_counterexample"
   ],
   "note": "False if fork() fails: errno is overwritten with 0 (C67_fork_counterexample). Proved exactly in all other cases without open actions; a relative command with a slash only if the directory isn't changed. C67_truthful holds for all requests and failures."
  },
  {
   "property": "C68",
   "status": "partial",
   "theorems": [
    "Verif.Props.C67_outcome_partial",
    "Verif.Props.C68_open_partial",
    "Verif.Props.C68_no_pipe",
    "Verif.Props.C68_leak_counterexample",
    "Verif.Props.C68_direct_counterexample"
   ],
   "note": "False for open actions, which leave an additional descriptor (C68_leak_counterexample), and for relative commands with a slash in another directory (C68_direct_counterexample). C67_outcome_partial gives the exact descriptors, directory and limits otherwise."
  },
  {
   "property": "C56",
   "status": "proved",
   "theorems": [
    "Verif.Props.C56_prefix",
    "Verif.Props.C56_end",
    "Verif.Props.C56_end_final",
    "Verif.Props.C56_complete",
    "Verif.Props.C56_empty",
    "Verif.Props.C56_empty_error",
    "Verif.Props.C56_readdir_prefix",
    "Verif.Props.C56_readdir_end"
   ],
   "note": "Both implementations (getdents() and readdir()); the kernel is modelled as a list of entries and an arbitrary script of answers. FreeBSD's union mounts are not modelled."
  },
  {
   "property": "C57",
   "status": "proved",
   "theorems": [
    "Verif.Props.C57_parse",
    "Verif.Props.C57_names",
    "Verif.Props.C57_type",
    "Verif.Props.C57_succeeds"
   ],
   "note": "All tables and histories of lookups in a file system that does not change between failed attempts; looking up a name in an open directory is assumed to be the same as looking up the path."
  },
  {
   "property": "C55",
   "status": "proved",
   "theorems": [
    "Verif.Props.C55_bfs_stat",
    "Verif.Props.C55_start",
    "Verif.Props.C55_answers",
    "Verif.Props.C55_pointers",
    "Verif.Props.C55_stable",
    "Verif.Props.C55_stable_counterexample",
    "Verif.Props.C55_options",
    "Verif.Props.C55_save",
    "Verif.Props.C55_recycle"
   ],
   "note": "Answers are proved right for files that do not change during a visit; ENOENT and ENOTDIR are identified. For files that change: memory safety, stable buffers and the number of calls are proved. C55_stable_counterexample: a followed answer may change once, when the link itself is asked about later."
  },
  {
   "property": "C69",
   "status": "partial",
   "theorems": [
    "Verif.Props.C69_type",
    "Verif.Props.C69_xtype",
    "Verif.Props.C69_letter_partial",
    "Verif.Props.C69_counterexample"
   ],
   "note": "Missing: %Y for a link that cannot be followed when links are followed (-L): bftw_type() returns BFS_ERROR without setting errno, so the letter depends on a stale errno (C69_counterexample)."
  },
  {
   "property": "C54",
   "status": "partial",
   "theorems": [
    "Verif.Props.C54_safe",
    "Verif.Props.C54_shared",
    "Verif.Props.C54_count",
    "Verif.Props.C54_status_partial",
    "Verif.Props.C54_flush",
    "Verif.Props.C54_no_false_alarm",
    "Verif.Props.C54_not_silent",
    "Verif.Props.C54_noerror_counterexample",
    "Verif.Props.C54_exit_counterexample"
   ],
   "note": "Every run of the output-file state machine (parse, evaluate, free) under all I/O outcomes: no use after close, no double close, streams shared exactly by file identity, exit status 0 implies complete output, and bfs does not fail without a message about an error. Partial: false as stated with -noerror or a later -exit 0 (counterexamples proved)."
  },
  {
   "property": "C70",
   "status": "partial",
   "theorems": [
    "Verif.Props.C70_once",
    "Verif.Props.C70_sound",
    "Verif.Props.C70_stop",
    "Verif.Props.C70_exact_partial",
    "Verif.Props.C70_order",
    "Verif.Props.C70_unique_partial",
    "Verif.Props.C70_unique_complete",
    "Verif.Props.C70_unique_ends",
    "Verif.Props.C70_unique_depth_counterexample",
    "Verif.Props.C70_status_partial",
    "Verif.Props.C70_deepening_partial",
    "Verif.Props.C70_eds_post_partial",
    "Verif.Props.C70_ids_post_partial",
    "Verif.Props.C70_deepened_partial",
    "Verif.Props.C70_anytime_partial",
    "Verif.Props.C70_unique_counterexample",
    "Verif.Props.C70_memory_once",
    "Verif.Props.C70_memory_sound_partial",
    "Verif.Props.C70_memory_exact_partial"
   ],
   "note": "The real walk of C18\u2013C21 with eval_callback() as its callback. Missing: mount points with -xdev -depth (finding 29); -unique with deepening strategies (it fails with -S ids -depth: C70_unique_counterexample); deepening with roots that overlap. C70_deepened_partial: with -S ids and -S eds every file asked for is evaluated exactly once, in the right order, and the exit status is the same; C70_anytime_partial: the same at any time during such a search, and with -quit. C70_memory_*: expressions that remember earlier evaluations, with every strategy. With -unique each file is evaluated under exactly one of its paths and the search ends even if there are loops, unless it depends on paths: -maxdepth can lose files (C70_unique_depth_counterexample)."
  },
  {
   "property": "C71",
   "status": "proved",
   "theorems": [
    "Verif.Props.C71_format",
    "Verif.Props.C71_plain",
    "Verif.Props.C71_plain_path",
    "Verif.Props.C71_closed",
    "Verif.Props.C71_closed_files",
    "Verif.Props.C71_atomic"
   ],
   "note": "Numbers are given as text; formats that the code itself would reject (assertions) are outside the hypotheses."
  },
  {
   "property": "C72",
   "status": "proved",
   "theorems": [
    "Verif.Props.C72_table",
    "Verif.Props.C72_malformed",
    "Verif.Props.C72_name",
    "Verif.Props.C72_text",
    "Verif.Props.C72_no_control",
    "Verif.Props.C72_existing",
    "Verif.Props.C72_framed"
   ],
   "note": "Together with C71_format, whose meaning of %pF, %pP and %pL is defined from the color and the split of the specification."
  },
  {
   "property": "C73",
   "status": "proved",
   "theorems": [
    "Verif.Props.C73_anytime",
    "Verif.Props.C73_exact",
    "Verif.Props.C73_only",
    "Verif.Props.C73_tree",
    "Verif.Props.C73_empty",
    "Verif.Props.C73_status"
   ],
   "note": "For every search strategy, without -unique and without mount points pruned by -xdev, when each file is reached in one way and no one else changes the files; a bftw() walk as in C70. With -S ids and -S eds, no two files that are found may have the same path."
  },
  {
   "property": "C74",
   "status": "partial",
   "theorems": [
    "Verif.Props.C74_output",
    "Verif.Props.C74_output_optimized_partial",
    "Verif.Props.C74_status",
    "Verif.Props.C74_status_default_partial",
    "Verif.Props.C74_status_optimized_partial",
    "Verif.Props.C74_status_counterexample",
    "Verif.Props.C74_lines",
    "Verif.Props.C74_lines_optimized_partial",
    "Verif.Props.C75_search_optimized_partial"
   ],
   "note": "Composes C45, C01-C04, C49, C18-C21 and C70. At -O0 and -O1 for all expressions; at -O2 and above (default is -O3) for the expressions for which the optimizer is right, see the counterexamples of C02. With -S ids/eds if different files have different paths. Not for -unique, or -xdev together with -depth; tests and printing do not fail (see C54, C66)."
  },
  {
   "property": "C75",
   "status": "proved",
   "theorems": [
    "Verif.Props.C75_iff",
    "Verif.Props.C75_total",
    "Verif.Props.C75_settings",
    "Verif.Props.C75_before",
    "Verif.Props.C75_order",
    "Verif.Props.C75_search"
   ],
   "note": "The settings are characterized exactly (C75_iff, C75_settings); C75_search carries them over to the whole program of C74. -daystart and the values of tests and actions are not among the settings."
  },
  {
   "property": "C76",
   "status": "proved",
   "theorems": [
    "Verif.Props.C76_printf",
    "Verif.Props.C76_unique",
    "Verif.Props.C76_shows",
    "Verif.Props.C76_depth",
    "Verif.Props.C76_mode",
    "Verif.Props.C76_sparse",
    "Verif.Props.C76_wide",
    "Verif.Props.C76_year_counterexample"
   ],
   "note": "C76_printf covers whole formats, the others single directives. The C library's printf() is modelled for strings, integers and octal numbers; %S is passed the right quotient, floating point output is a parameter, as are localtime(), strftime() and names of users. Output errors are the subject of C38 and C54. Widths over INT_MAX are accepted but fail for each file (C76_wide); years over INT_MAX overflow (C76_year_counterexample)."
  },
  {
   "property": "C77",
   "status": "proved",
   "theorems": [
    "Verif.Props.C77_sorted",
    "Verif.Props.C77_chronological"
   ],
   "note": "Local time is a parameter; C77_chronological assumes that it never goes back."
  },
  {
   "property": "C78",
   "status": "partial",
   "theorems": [
    "Verif.Props.C78_number_partial",
    "Verif.Props.C78_counterexample"
   ],
   "note": "False of the code for times before 1970 with a fraction of a second: half a second before 1970 is printed as -1.5 (C78_counterexample). Proved for all others."
  },
  {
   "property": "C79",
   "status": "partial",
   "theorems": [
    "Verif.Props.C79_ls_partial",
    "Verif.Props.C79_link_counterexample",
    "Verif.Props.C79_mtime_counterexample"
   ],
   "note": "False of the code in two corners: if a link cannot be read its line is not ended, so that the next one continues it (C79_link_counterexample); if the file system has no times of modification an uninitialised variable is used (C79_mtime_counterexample). Everything else is proved, for whole runs. Colors are off; xstrwidth(), major(), minor(), localtime() and strftime() are parameters."
  },
  {
   "property": "C81",
   "status": "partial",
   "theorems": [
    "Verif.Props.C81_matches_partial",
    "Verif.Props.C81_literal",
    "Verif.Props.C81_dangling",
    "Verif.Props.C81_accepts",
    "Verif.Props.C81_counterexample"
   ],
   "note": "False of the code when case is ignored in a pattern without wildcards in a locale with multibyte characters: -iname \u00c9 does not find \u00e9, but -iname '\u00c9*' does (C81_counterexample). Proved for everything else; fnmatch() is a parameter that is assumed to be right about patterns that do not end with an unescaped backslash."
  },
  {
   "property": "C80",
   "status": "partial",
   "theorems": [
    "Verif.Props.C80_accepts",
    "Verif.Props.C80_only",
    "Verif.Props.C80_defined",
    "Verif.Props.C80_means_partial",
    "Verif.Props.C80_inum_counterexample",
    "Verif.Props.C80_newer_counterexample",
    "Verif.Props.C80_nouser_counterexample"
   ],
   "note": "Acceptance is exact. C80_means_partial is for files and arguments without the cases in which the code is wrong: numbers of 2^63 and above (C80_inum_counterexample, C33, C34), -newer with a file that has no modification time (C80_newer_counterexample), failing lookups of users (C80_nouser_counterexample), modes that depend on the umask twice (C35), names with trailing slashes for -hidden (C62), and C81_counterexample. fnmatch(), regular expressions, and the answers of the system are parameters."
  },
  {
   "property": "C82",
   "status": "partial",
   "theorems": [
    "Verif.Props.C82_output",
    "Verif.Props.C82_lines",
    "Verif.Props.C82_unique",
    "Verif.Props.C82_output_optimized_partial",
    "Verif.Props.C82_lines_optimized_partial"
   ],
   "note": "Everything composed: C45, C75, C74, C80, C81, C76 and C12; the actions are -print, -print0, -printf, -printx, -fprint, -fprint0, -fprintf, -prune, -quit, -exit, -delete, -rm, and -exec and -execdir with ;. Proved in full for -O0 and -O1, with the exit status of -exit; for -O2 and above (the default is -O3) under the conditions under which the optimizer is right (see C02): at most one user and one group asked for, by equality and not beside -nouser or -nogroup, sizes in one unit, no commas, no errors in tests; the exit status is exact up to -O3, and with -O4 it may be 0 if there is only trouble that makes no difference to the output (C74_status_counterexample). Other actions (they have a memory: -exec +, -ok, -limit; or columns that grow: -ls), -unique, and options that change the meaning of later tests (-daystart, -newer after -L) are out of scope; the conditions of C80 and C81 are needed."
  },
  {
   "property": "C83",
   "status": "partial",
   "theorems": [
    "Verif.Props.C83_ok",
    "Verif.Props.C83_consent",
    "Verif.Props.C83_refused",
    "Verif.Props.C83_single",
    "Verif.Props.C83_question_partial",
    "Verif.Props.C83_question_counterexample"
   ],
   "note": "everything but the clause that different commands have different questions, which is false of the code when words contain spaces (C83_question_counterexample); it is proved for words without spaces. The locale's regular expressions are parameters; the answer keeps its newline because of an off-by-one in xgetdelim()."
  },
  {
   "property": "C84",
   "status": "proved",
   "theorems": [
    "Verif.Props.C84_accepted",
    "Verif.Props.C84_safe"
   ],
   "note": "C84_safe composes the check in parse_exec() with the search of C48."
  },
  {
   "property": "C85",
   "status": "partial",
   "theorems": [
    "Verif.Props.C85_posix",
    "Verif.Props.C85_test",
    "Verif.Props.C85_posix_search",
    "Verif.Props.C85_onig_partial",
    "Verif.Props.C85_onig_counterexample",
    "Verif.Props.C85_onig_dollar",
    "Verif.Props.C85_invalid",
    "Verif.Props.C85_options",
    "Verif.Props.C85_options_counterexample"
   ],
   "note": "proved in full for <regex.h>; with Oniguruma only one direction is true, the other one is false of the code (C85_onig_counterexample: a|ab does not match ab) and true if the expression ends with $ (C85_onig_dollar, for a backtracking matcher) and the path is valid in the locale's encoding. The libraries are parameters constrained by their documentation."
  },
  {
   "property": "C86",
   "status": "partial",
   "theorems": [
    "Verif.Props.C86_right",
    "Verif.Props.C86_no_leak_partial",
    "Verif.Props.C86_acl_error_counterexample",
    "Verif.Props.C86_context_leak"
   ],
   "note": "for Linux. Two clauses are false of the code: errors of reading a directory's default (or access) ACL are lost (C86_acl_error_counterexample), and -context loses memory for each file (C86_context_leak); everything else is proved."
  },
  {
   "property": "C87",
   "status": "partial",
   "theorems": [
    "Verif.Props.C87_setup",
    "Verif.Props.C87_setup_keeps",
    "Verif.Props.C87_small",
    "Verif.Props.C87_update",
    "Verif.Props.C87_shows",
    "Verif.Props.C87_stays",
    "Verif.Props.C87_transparent",
    "Verif.Props.C87_hide",
    "Verif.Props.C87_life",
    "Verif.Props.C87_hide_counterexample",
    "Verif.Props.C87_held",
    "Verif.Props.C87_columns",
    "Verif.Props.C87_line",
    "Verif.Props.C87_contained",
    "Verif.Props.C87_newline_counterexample"
   ],
   "note": "False in two corners: white space such as a newline in a directory's name is not escaped and garbles the line (C87_newline_counterexample), and hiding the bar erases a character in the last column if that has just been filled (C87_hide_counterexample). The terminal is a specification: one column per byte, tabs ignored. Races between a resize and an update with the old height are not modelled."
  },
  {
   "property": "C88",
   "status": "proved",
   "theorems": [
    "Verif.Props.C88_streams",
    "Verif.Props.C88_failure",
    "Verif.Props.C88_open",
    "Verif.Props.C88_starts"
   ],
   "note": "Descriptors are numbers in a table; flags such as FD_CLOEXEC are not modelled."
  },
  {
   "property": "C89",
   "status": "proved",
   "theorems": [
    "Verif.Props.C89_underlined",
    "Verif.Props.C89_colors",
    "Verif.Props.C89_expression",
    "Verif.Props.C89_arguments"
   ],
   "note": "src/diag.c. Allocation succeeds; colors are symbols (C60 has what becomes of them); the command's own name in front of each line is whatever argv[0] ends in"
  },
  {
   "property": "C90",
   "status": "partial",
   "theorems": [
    "Verif.Props.C90_reference",
    "Verif.Props.C90_days_partial",
    "Verif.Props.C90_twice_partial",
    "Verif.Props.C90_ages_only",
    "Verif.Props.C90_position",
    "Verif.Props.C90_midnight_counterexample",
    "Verif.Props.C90_long_day_counterexample",
    "Verif.Props.C90_twice_counterexample",
    "Verif.Props.C90_tomorrow_counterexample"
   ],
   "note": "false of the code in full: a midnight counts as the end of the day before, days are always 24 hours long, tm_isdst is kept although it may be different at midnight, and files from tomorrow count as from today. Proved for clocks that are not changed between the two times. C90_position is without operators; with them it is C103"
  },
  {
   "property": "C91",
   "status": "partial",
   "theorems": [
    "Verif.Props.C91_parse",
    "Verif.Props.C91_over",
    "Verif.Props.C91_at_most",
    "Verif.Props.C91_reason",
    "Verif.Props.C91_raise",
    "Verif.Props.C91_results",
    "Verif.Props.C91_exact_partial",
    "Verif.Props.C91_optimized"
   ],
   "note": "Callback with memory (Model/Quota) on the walk of Model/Bftw, and on the deepening searches of Model/Ids: all strategies. Missing, only for which files are counted: -unique, -depth together with -xdev, and deepening with roots that overlap; the optimizer at -O0 and -O1 (for higher levels C02 applies to every single evaluation)."
  },
  {
   "property": "C92",
   "status": "partial",
   "theorems": [
    "Verif.Props.C92_once",
    "Verif.Props.C92_answers",
    "Verif.Props.C92_descriptors",
    "Verif.Props.C92_bounded",
    "Verif.Props.C92_no_crash_partial",
    "Verif.Props.C92_stop_counterexample",
    "Verif.Props.C92_exit",
    "Verif.Props.C92_ends",
    "Verif.Props.C92_barrier"
   ],
   "note": "All of it is proved for every ring, batch size, kernel schedule and moment of cancellation, for batches in which nothing comes after the stop marker; if something does (C59_stop_counterexample), an assertion fails (C92_stop_counterexample). C92_ends: with a kernel that makes progress the thread exits once the queue has nothing but the marker. C92_barrier records that no request is taken while the ring has any. Setting up the ring is C98's."
  },
  {
   "property": "C93",
   "status": "proved",
   "theorems": [
    "Verif.Props.C93_printx",
    "Verif.Props.C93_like_print",
    "Verif.Props.C93_X",
    "Verif.Props.C93_X_all"
   ],
   "note": "xargs is a specification after POSIX (Spec/Printx.lean): blanks, newlines, quotes and backslashes, without the logical end-of-file string. Writing succeeds (failures are in C54)."
  },
  {
   "property": "C94",
   "status": "partial",
   "theorems": [
    "Verif.Props.C94_calls",
    "Verif.Props.C94_plus_total",
    "Verif.Props.C94_plus_order",
    "Verif.Props.C94_plus_status",
    "Verif.Props.C94_plus_all_partial",
    "Verif.Props.C94_execdir_partial",
    "Verif.Props.C94_exec_cwd",
    "Verif.Props.C94_status",
    "Verif.Props.C94_each",
    "Verif.Props.C94_matches_partial",
    "Verif.Props.C94_whole_partial",
    "Verif.Props.C94_limit_partial"
   ],
   "note": "Composes C09-C12 with the searches of C70 and C91. Missing: paths longer than 7/16 of what the system accepts (false of the code, see C09_lost_pair), -execdir with roots ending in slashes (false, see C11_trailing_slash), and what is missing from C70."
  },
  {
   "property": "C95",
   "status": "proved",
   "theorems": [
    "Verif.Props.C95_contents",
    "Verif.Props.C95_failures",
    "Verif.Props.C95_refused",
    "Verif.Props.C95_searches"
   ],
   "note": "The capacities of the children arrays are not modelled; a failed shrinking of a node in a removal leaves the node as it is and has no visible effect."
  },
  {
   "property": "C96",
   "status": "proved",
   "theorems": [
    "Verif.Props.C96_round_trip",
    "Verif.Props.C96_unambiguous",
    "Verif.Props.C96_distinct",
    "Verif.Props.C96_again",
    "Verif.Props.C96_noerror_hidden",
    "Verif.Props.C96_mount_xdev"
   ],
   "note": "The first line of the output, without colors and without the name of the program, which is printed as it is; the expression in the lines after it is C90's. -noerror is not shown (C96_noerror_hidden). Valid says that nothing but what Model/Options.lean models makes flags and options unacceptable."
  },
  {
   "property": "C97",
   "status": "partial",
   "theorems": [
    "Verif.Props.C97_held",
    "Verif.Props.C97_safe_partial",
    "Verif.Props.C97_crash",
    "Verif.Props.C97_updates",
    "Verif.Props.C97_callback",
    "Verif.Props.C97_start",
    "Verif.Props.C97_show",
    "Verif.Props.C97_crash_counterexample"
   ],
   "note": "That bfs does not crash is false of the code: if the bar is hidden while an update is pending, eval_status() dereferences a null pointer (C97_crash_counterexample; C97_crash says that it is inevitable then, C97_safe_partial that it is the only way). SIGALRM comes from the timer only. What is drawn is C87's."
  },
  {
   "property": "C98",
   "status": "proved",
   "theorems": [
    "Verif.Props.C98_create",
    "Verif.Props.C98_rings",
    "Verif.Props.C98_work",
    "Verif.Props.C98_fds"
   ],
   "note": "What is held is a set; acquiring something twice or releasing what is not held is undefined. Rings are what the kernel answers; threads end after ioq_cancel() (C92)."
  },
  {
   "property": "C99",
   "status": "proved",
   "theorems": [
    "Verif.Props.C99_help",
    "Verif.Props.C99_pager",
    "Verif.Props.C99_works"
   ],
   "note": "The text of the help is not modelled, only where it goes. Where posix_spawn() is used, it is expected to do what its actions say. Standard input is open (C88)."
  },
  {
   "property": "C100",
   "status": "proved",
   "theorems": [
    "Verif.Props.C100_clean",
    "Verif.Props.C100_status",
    "Verif.Props.C100_success",
    "Verif.Props.C100_stderr"
   ],
   "note": "What the arguments mean is not part of this model: each is a step that gets some things and is accepted or not. Where writing fails is given from outside."
  },
  {
   "property": "C101",
   "status": "partial",
   "theorems": [
    "Verif.Props.C101_show",
    "Verif.Props.C101_deadly_partial",
    "Verif.Props.C101_hidden",
    "Verif.Props.C101_between",
    "Verif.Props.C101_hide_counterexample",
    "Verif.Props.C101_reverse_counterexample",
    "Verif.Props.C101_winch_counterexample"
   ],
   "note": "False of the code in full: a signal between the removal of the hook and the reset, and one that cuts off a write. Proved in full for signals between whole writes while the bar is shown, and, except for the cursor and reverse video, for signals after any byte."
  },
  {
   "property": "C102",
   "status": "proved",
   "theorems": [
    "Verif.Props.C102_nproc",
    "Verif.Props.C102_ends",
    "Verif.Props.C102_fallback",
    "Verif.Props.C102_held",
    "Verif.Props.C102_default",
    "Verif.Props.C102_bounds"
   ],
   "note": "For Linux. That the number fits into an int is not modelled. How many of the threads are started is part of C98."
  },
  {
   "property": "C103",
   "status": "proved",
   "theorems": [
    "Verif.Props.C103_position",
    "Verif.Props.C103_tests",
    "Verif.Props.C103_determined",
    "Verif.Props.C103_accepts",
    "Verif.Props.C103_right",
    "Verif.Props.C103_order",
    "Verif.Props.C103_others",
    "Verif.Props.C103_files",
    "Verif.Props.C103_regex",
    "Verif.Props.C103_ages",
    "Verif.Props.C103_daystart",
    "Verif.Props.C103_first"
   ],
   "note": "Over all command lines that C45 and C75 are about; the clock is that of C90 for C103_daystart, the regular expression library and stat() are parameters."
  },
  {
   "property": "C104",
   "status": "proved",
   "theorems": [
    "Verif.Props.C104_accepted",
    "Verif.Props.C104_total",
    "Verif.Props.C104_consent",
    "Verif.Props.C104_unasked",
    "Verif.Props.C104_silent",
    "Verif.Props.C104_warned",
    "Verif.Props.C104_two_readers",
    "Verif.Props.C104_ignored",
    "Verif.Props.C104_ignored_unasked",
    "Verif.Props.C104_ignored_shown",
    "Verif.Props.C104_known",
    "Verif.Props.C104_misspelled"
   ],
   "note": "The question about misspelled arguments is proved for parse_primary() by itself, and the one about ignored results for any list of ignored expressions. Standard input is assumed to be readable."
  },
  {
   "property": "C105",
   "status": "partial",
   "theorems": [
    "Verif.Props.C105_success_partial",
    "Verif.Props.C105_exit_partial",
    "Verif.Props.C105_exit",
    "Verif.Props.C105_failure_partial",
    "Verif.Props.C105_whole",
    "Verif.Props.C105_number_counterexample",
    "Verif.Props.C105_lost_counterexample",
    "Verif.Props.C105_hidden_counterexample"
   ],
   "note": "In full it is false of the code: numbers from 256 on are truncated (C105_number_counterexample), multiples of 256 also hide lost output (C105_lost_counterexample), and -exit 0 hides earlier errors (C105_hidden_counterexample). Proved for searches that no -exit ends, for numbers below 256, and for numbers that are 0 or no multiples of 256; C105_exit is what happens in all cases."
  },
  {
   "property": "C106",
   "status": "proved",
   "theorems": [
    "Verif.Props.C106_iff",
    "Verif.Props.C106_empty",
    "Verif.Props.C106_any_name",
    "Verif.Props.C106_conflict",
    "Verif.Props.C106_silent",
    "Verif.Props.C106_search",
    "Verif.Props.C106_search_default_partial"
   ],
   "note": "For every command line and every file. Allocations succeed. C106_silent records Finding 86: read errors are refused without a message."
  }
 ]
}