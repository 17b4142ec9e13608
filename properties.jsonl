{"id": "C01", "title": "Optimisation at -O1 preserves everything observable", "statement": "For every expression, running it after -O1 optimisation produces, on every file, exactly the same sequence of leaf evaluations with side effects or error messages, the same quit point, and (where the caller uses it) the same truth value as the unoptimised expression.", "quantifier": "all expression trees, all leaf behaviours (including failing, impure and state-dependent leaves), all files and all evaluation histories", "why_tests_cant": "the space of expression trees and of stateful leaf behaviours is infinite; a test compares a handful of command lines", "anchors": ["src/opt.c: canonicalize_*, simplify_*, optimize, bfs_optimize", "src/eval.c: eval_expr, bfs_eval_not/and/or/comma"]}
{"id": "C02", "title": "Data-flow optimisation (-O2) preserves side effects", "statement": "Replacing tests by constants from data-flow facts never changes which actions run on a file, in which order, or whether the search quits.", "quantifier": "all expression trees over the modelled leaf tests and actions, all files whose stat succeeds, all prior histories", "why_tests_cant": "soundness of an abstract interpretation is a statement about all concrete states", "anchors": ["src/opt.c: data_flow_*, df_domain_*, df_range_*, bfs_optimize"]}
{"id": "C03", "title": "Cost-based reordering (-O3) preserves side effects", "statement": "Whatever cost/probability model is used, reordering operands of a conjunction or disjunction never changes which actions run, their order, or the result.", "quantifier": "all expression trees, all cost functions (all permutations the sort could choose), all files", "why_tests_cant": "tests exercise the one cost table that ships", "anchors": ["src/opt.c: reorder_andor, sort_exprs, expr_cost"]}
{"id": "C04", "title": "Inferred depth bounds only skip files with no side effects", "statement": "Raising -mindepth (at -O2) or lowering -maxdepth (at -O4) from the expression never suppresses an action that would have run, except tests' own diagnostics.", "quantifier": "all expressions, all directory depths", "why_tests_cant": "needs every depth and every expression", "anchors": ["src/opt.c: bfs_optimize 2258-2330", "src/eval.c: eval_callback"]}
{"id": "C05", "title": "Trie behaves as a finite map", "statement": "After any sequence of insertions, assignments and removals, looking up a key in the trie returns exactly the value last stored under that exact key, and nothing for keys never inserted or removed.", "quantifier": "all operation histories and all prefix-free key sets of any length", "why_tests_cant": "histories and key sets are unbounded; structural bugs need particular nibble patterns", "anchors": ["src/trie.c: trie_insert_mem, trie_find_mem, trie_get_mem, trie_set_mem, trie_remove"]}
{"id": "C06", "title": "Trie prefix search returns the longest stored prefix", "statement": "Looking up a string by prefix returns the longest stored string that is a prefix of it, or nothing if none is.", "quantifier": "all sets of stored strings and all query strings", "why_tests_cant": "depends on how every other stored key shapes the tree", "anchors": ["src/trie.c: trie_find_prefix, trie_terminal_leaf, trie_check_prefix"]}
{"id": "C07", "title": "Trie postfix search finds an extension iff one exists", "statement": "Looking up a string by postfix returns some stored key that starts with it exactly when such a key exists.", "quantifier": "all sets of stored keys and all query strings", "why_tests_cant": "depends on how every other stored key shapes the tree", "anchors": ["src/trie.c: trie_find_postfix, trie_representative"]}
{"id": "C08", "title": "Trie iteration enumerates the live keys in insertion order", "statement": "Iterating a trie yields each live key exactly once, in the order the keys were inserted.", "quantifier": "all operation histories", "why_tests_cant": "unbounded histories", "anchors": ["src/trie.c: trie_leaf_alloc, trie_leaf_free", "src/trie.h: for_trie", "src/list.h: LIST_*"]}
{"id": "C09", "title": "-exec ... {} + delivers every path exactly once, in order", "statement": "Absent spawn failures other than 'argument list too long', the concatenation of the argument batches passed to the command is exactly the sequence of matched paths; no path is dropped, duplicated or reordered, whatever the kernel's size limit does.", "quantifier": "all sequences of matched paths, all argument sizes, all behaviours of the kernel's E2BIG answer", "why_tests_cant": "requires every sequence and every adaptive limit", "anchors": ["src/exec.c: bfs_exec_multi, bfs_exec_push, bfs_exec_flush, bfs_exec_finish, bfs_exec_would_overflow, bfs_exec_update_max"]}
{"id": "C10", "title": "-exec + batches respect the learned size limit", "statement": "The batch size bookkeeping is exact, the lower bound never exceeds the upper bound, limits only move in the safe direction, and each E2BIG retry uses strictly fewer arguments so flushing terminates.", "quantifier": "all histories of pushes and spawn outcomes", "why_tests_cant": "adaptive search over an unbounded history", "anchors": ["src/exec.c: bfs_exec_update_min, bfs_exec_update_max, bfs_exec_flush, bfs_exec_arg_size"]}
{"id": "C11", "title": "-execdir + never mixes directories", "statement": "Each batch run by -execdir ... + contains only files of one directory and is run in that directory.", "quantifier": "all sequences of visited files", "why_tests_cant": "needs all path shapes, including trailing slashes", "anchors": ["src/exec.c: bfs_exec_changed_dirs, bfs_exec_openwd, bfs_exec_format_path"]}
{"id": "C12", "title": "{} substitution is exact", "statement": "Every occurrence of {} in a command argument is replaced by the path, left to right and without rescanning the replacement, and everything else is copied unchanged.", "quantifier": "all argument templates and paths", "why_tests_cant": "all strings", "anchors": ["src/exec.c: bfs_exec_format_arg"]}
{"id": "C13", "title": "Shell quoting round-trips", "statement": "The shell-escaped form of any NUL-free byte string, read back by a POSIX/bash shell word parser, is exactly one word equal to the original string, whatever locale decides is printable.", "quantifier": "all NUL-free byte strings, all multibyte decoders and printability predicates", "why_tests_cant": "every byte string and every locale", "anchors": ["src/bfstd.c: wordnesc, dollar_quote, double_quote, single_quote, bare_len, quotable_len, printable_len"]}
{"id": "C14", "title": "Escaped strings are never truncated", "statement": "The buffer reserved for an escaped string is always large enough for the escaped form.", "quantifier": "all byte strings, lengths and escaping modes", "why_tests_cant": "worst case is over all strings", "anchors": ["src/dstring.c: dstrnescat", "src/bfstd.c: wordnesc, xstpencpy"]}
{"id": "C15", "title": "UTC calendar conversion is exact", "statement": "Converting broken-down UTC time to seconds gives exactly the number of seconds from 1970-01-01T00:00:00Z under the proleptic Gregorian calendar, for every in-range or out-of-range field, or reports overflow.", "quantifier": "all field values, all years (also before 1970)", "why_tests_cant": "2^192 inputs", "anchors": ["src/xtime.c: xtimegm (fallback), floor_div, wrap, month_length"]}
{"id": "C17", "title": "Timespec arithmetic is normalised and order-compatible", "statement": "Adding, subtracting, comparing, min and max of timestamps agree with exact nanosecond arithmetic and keep 0 <= nsec < 1e9, without overflow whenever the result is not at the very ends of what a 64-bit time_t can represent.", "quantifier": "all normalised timespecs", "why_tests_cant": "all pairs of 96-bit values", "anchors": ["src/xtime.c: timespec_add, timespec_sub, timespec_cmp", "src/xtime.h"]}
{"id": "C18", "title": "Breadth-first search visits every reachable file exactly once", "statement": "A traversal that is never pruned or stopped visits the root(s) and every descendant exactly once each, every directory before its descendants.", "quantifier": "all finite directory trees, all orders in which asynchronous I/O completes", "why_tests_cant": "infinitely many trees and completion schedules", "anchors": ["src/bftw.c: bftw_impl, bftw_visit, bftw_gc, bftw_pop, bftw_push"]}
{"id": "C19", "title": "Post-order visits come after all descendants", "statement": "With -depth, each directory's post-order visit happens exactly once and after the visits of all of its descendants.", "quantifier": "all finite directory trees, all schedules", "why_tests_cant": "infinitely many trees and schedules", "anchors": ["src/bftw.c: bftw_gc, bftw_call_back"]}
{"id": "C20", "title": "Search strategies visit the same files", "statement": "Breadth-first, depth-first, iterative deepening and exponential deepening visit exactly the same set of files; each iterative pass visits exactly the files in its depth window.", "quantifier": "all finite trees and depth limits", "why_tests_cant": "infinitely many trees", "anchors": ["src/bftw.c: bftw_ids, bftw_eds, bftw_ids_callback, bftw_impl"]}
{"id": "C21", "title": "Pruning removes exactly the pruned subtrees", "statement": "When the callback prunes a directory none of its descendants are visited, and every other file still is.", "quantifier": "all finite trees and all prune decisions", "why_tests_cant": "infinitely many trees", "anchors": ["src/bftw.c: bftw_visit, bftw_call_back"]}
{"id": "C22", "title": "Sorting is a stable sorted permutation", "statement": "-s visits the entries of each directory as a stable sorted permutation of what the directory contains.", "quantifier": "all directories (lists of names), all total collation orders", "why_tests_cant": "all lists", "anchors": ["src/bftw.c: bftw_list_sort"]}
{"id": "C23", "title": "Reported paths are the parent's path plus the name", "statement": "The path reported for each file is its parent's path joined with its name (adding a separator only when needed), independent of which file was visited before.", "quantifier": "all file trees, all previously visited files", "why_tests_cant": "the incremental path buffer depends on the entire visit history", "anchors": ["src/bftw.c: bftw_build_path, bftw_prepend_path, bftw_child_nameoff, bftw_file_new"]}
{"id": "C24", "title": "The directory cache never exceeds its capacity nor closes pinned directories", "statement": "After any sequence of opens, closes, pins and unpins the number of open directories plus remaining capacity is constant, pinned directories are never eviction candidates.", "quantifier": "all histories of cache operations", "why_tests_cant": "unbounded histories", "anchors": ["src/bftw.c: bftw_cache_add/remove/pin/unpin/pop, bftw_cache_reserve"]}
{"id": "C25", "title": "The I/O queue delivers every request exactly once", "statement": "Every entry pushed on the concurrent queue is popped exactly once, by exactly one consumer, and nothing else is ever popped.", "quantifier": "all numbers of producer/consumer threads, all interleavings, all queue sizes", "why_tests_cant": "interleavings are unbounded", "anchors": ["src/ioq.c: ioq_slot_push, ioq_slot_pop, ioqq_push_batch, ioqq_pop_batch"]}
{"id": "C26", "title": "No lost wake-ups in the I/O queue", "statement": "A thread that went to sleep waiting for a queue slot to change is always woken after the slot changes: there is never a state where a sleeper's slot has changed and no wake-up is pending.", "quantifier": "all numbers of threads, all interleavings, all slot/monitor assignments", "why_tests_cant": "a lost wake-up needs one exact interleaving", "anchors": ["src/ioq.c: ioq_slot_wait, ioq_slot_wake, ioq_slot_push, ioq_slot_pop"]}
{"id": "C27", "title": "I/O queue capacity is respected", "statement": "The number of requests in flight never exceeds the queue depth, and a request is refused exactly when it would.", "quantifier": "all request/response histories", "why_tests_cant": "unbounded histories", "anchors": ["src/ioq.c: ioq_request, ioq_pop, ioq_free, ioq_capacity"]}
{"id": "C28", "title": "Signal hook publication is safe against concurrent handlers", "statement": "A signal handler running at any time on any thread never observes a reclaimed hook, and unregistering a hook returns only after no handler can still be using it.", "quantifier": "all numbers of concurrent handlers, all interleavings with registration and unregistration", "why_tests_cant": "interleavings with asynchronous signals cannot be enumerated by tests", "anchors": ["src/sighook.c: arc_get, arc_put, arc_wait, rcu_read, rcu_update"]}
{"id": "C29", "title": "Registered hooks stay registered", "statement": "After any sequence of registrations and unregistrations, the hooks that run are exactly those registered and not unregistered, in registration order.", "quantifier": "all registration histories", "why_tests_cant": "unbounded histories", "anchors": ["src/sighook.c: rcu_list_append, rcu_list_remove, sighook, sigunhook"]}
{"id": "C30", "title": "Typo suggestions use a true edit distance", "statement": "The distance used for 'did you mean' is the minimum total cost over all insert/delete/substitute edit scripts; it is symmetric, and zero for equal strings.", "quantifier": "all pairs of strings", "why_tests_cant": "minimum over infinitely many scripts", "anchors": ["src/typo.c: typo_distance, char_distance"]}
{"id": "C31", "title": "Numeric arguments parse to the number they denote", "statement": "Numeric test arguments (n, +n, -n in the accepted bases) are accepted exactly when they denote a representable integer, and denote that integer; otherwise rejected.", "quantifier": "all strings", "why_tests_cant": "all strings and ranges", "anchors": ["src/parse.c: parse_int, parse_icmp", "src/bfstd.c: xstrtoll"]}
{"id": "C32", "title": "Comparisons n/+n/-n partition the values", "statement": "For each measured value exactly one of '-n', 'n', '+n' holds; the parsed comparison means what it says.", "quantifier": "all 64-bit values", "why_tests_cant": "2^128 pairs", "anchors": ["src/eval.c: bfs_expr_cmp", "src/parse.c: parse_icmp"]}
{"id": "C33", "title": "-size rounds up to whole units", "statement": "-size counts ceil(size/unit) units for every unit and file size.", "quantifier": "all file sizes and units", "why_tests_cant": "all sizes", "anchors": ["src/eval.c: eval_size"]}
{"id": "C34", "title": "-mtime family buckets ages by whole units", "statement": "The age test computes the whole number of units elapsed between the file's timestamp and the reference time, truncated as documented, for every pair of times.", "quantifier": "all timestamps", "why_tests_cant": "all timestamps", "anchors": ["src/eval.c: eval_time, timespec_diff"]}
{"id": "C35", "title": "-perm symbolic modes follow POSIX chmod", "statement": "A symbolic mode parses to the mode chmod would produce from a zero mode; octal modes parse to themselves.", "quantifier": "all symbolic mode strings and umasks", "why_tests_cant": "the clause grammar is infinite", "anchors": ["src/parse.c: parse_mode, parse_perm"]}
{"id": "C36", "title": "-perm matching", "statement": "-perm MODE, -perm -MODE and -perm /MODE hold exactly on equal / all-bits-set / any-bits-set permission bits (with /000 matching everything).", "quantifier": "all modes", "why_tests_cant": "all modes pairs", "anchors": ["src/eval.c: eval_perm"]}
{"id": "C37", "title": "printf directives print directory and base parts that recombine", "statement": "%h and %f, and %H and %P, recombine (with a separator) to the file's path.", "quantifier": "all paths and roots", "why_tests_cant": "all path shapes", "anchors": ["src/printf.c: bfs_printf_f, bfs_printf_h, bfs_printf_H, bfs_printf_P", "src/bfstd.c: xbaseoff"]}
{"id": "C38", "title": "printf format strings are interpreted exactly", "statement": "Text outside directives and escapes is printed verbatim, escapes denote the documented bytes, and malformed formats are rejected.", "quantifier": "all format strings", "why_tests_cant": "all strings", "anchors": ["src/printf.c: bfs_printf_parse, append_literal, bfs_printf"]}
{"id": "C39", "title": "Base name and directory name splitting", "statement": "Splitting a path gives a base name without interior slashes and a directory part that, recombined, name the same file.", "quantifier": "all paths", "why_tests_cant": "all strings", "anchors": ["src/bfstd.c: xbaseoff, xdirname, xbasename"]}
{"id": "C40", "title": "LS_COLORS escape decoding", "statement": "Octal, hex, caret and backslash escapes in LS_COLORS decode to the documented bytes and everything else is literal; malformed escapes are rejected.", "quantifier": "all strings", "why_tests_cant": "all strings", "anchors": ["src/color.c: unescape"]}
{"id": "C42", "title": "Full reads and writes", "statement": "xread/xwrite transfer the whole buffer, in order, unless end-of-file or a real error intervenes, however the kernel splits or interrupts the transfer.", "quantifier": "all sequences of partial transfers and EINTR", "why_tests_cant": "all kernel behaviours", "anchors": ["src/bfstd.c: xread, xwrite"]}
{"id": "C43", "title": "Dynamic strings behave like byte lists", "statement": "Appending, resizing and formatting dynamic strings behave like operations on byte lists, staying NUL terminated and within capacity.", "quantifier": "all operation histories", "why_tests_cant": "unbounded histories", "anchors": ["src/dstring.c"]}
{"id": "C44", "title": "Arena allocations never overlap", "statement": "Live objects handed out by an arena or variable-size arena never overlap, lie inside a slab and are large enough for the request.", "quantifier": "all alloc/free histories and sizes", "why_tests_cant": "unbounded histories", "anchors": ["src/alloc.c: arena_alloc, arena_free, slab_alloc, varena_*, reserve"]}
{"id": "C45", "title": "Expression grammar and precedence", "statement": "The command-line parser gives ! > implicit/explicit -a > -o > , precedence and left associativity with parentheses, and rejects exactly malformed token sequences.", "quantifier": "all token sequences", "why_tests_cant": "infinitely many expressions", "anchors": ["src/parse.c: parse_factor, parse_term, parse_clause, parse_expr"]}
{"id": "C46", "title": "-unique matches each file once", "statement": "During a search each distinct (device, inode) pair is accepted exactly once by -unique.", "quantifier": "all sequences of visited files", "why_tests_cant": "unbounded histories", "anchors": ["src/eval.c: eval_file_unique", "src/stat.c: bfs_stat_id"]}
{"id": "C47", "title": "Cached user/group lookups agree with the database", "statement": "A cached lookup returns what an uncached lookup returned at first use since the last flush, also for negative results, and lookups by different keys never interfere.", "quantifier": "all lookup/flush histories and databases", "why_tests_cant": "unbounded histories", "anchors": ["src/pwcache.c: bfs_getent, bfs_getpwuid, bfs_users_flush"]}
{"id": "C48", "title": "Executable resolution follows PATH order", "statement": "The spawned executable is the first PATH entry under which the command is executable, and the constructed path is never truncated.", "quantifier": "all PATH values and command names", "why_tests_cant": "all strings", "anchors": ["src/xspawn.c: bfs_resolve_next, bfs_resolve_late, bfs_resolve_early, bfs_resolve_capacity"]}
{"id": "C49", "title": "Boolean operators short-circuit and quit stops everything", "statement": "-a, -o, !, and ',' evaluate their operands left to right with short-circuiting and no operand runs after -quit.", "quantifier": "all expressions, leaf behaviours and histories", "why_tests_cant": "all expressions", "anchors": ["src/eval.c: eval_expr, bfs_eval_not, bfs_eval_and, bfs_eval_or, bfs_eval_comma"]}
{"id": "C50", "title": "Resource limits are compared correctly", "statement": "rlim_cmp is a total preorder with RLIM_INFINITY on top, and raising the fd limit never lowers it nor exceeds the hard limit.", "quantifier": "all limits", "why_tests_cant": "all 64-bit values", "anchors": ["src/bfstd.c: rlim_cmp", "src/eval.c: raise_fdlimit, infer_fdlimit"]}
{"id": "C51", "title": "Intrusive lists behave like sequences", "statement": "The linked-list macros implement append, prepend, insert, splice, extend, remove and pop on sequences, keeping head/tail consistent.", "quantifier": "all operation histories", "why_tests_cant": "unbounded histories", "anchors": ["src/list.h: SLIST_*, LIST_*"]}
{"id": "C52", "title": "Bit utilities", "statement": "count_ones, leading/trailing zeros, bit_width, bit_floor, bit_ceil and byte-order helpers agree with their mathematical definitions.", "quantifier": "all words of all widths", "why_tests_cant": "2^64 inputs", "anchors": ["src/bit.h"]}
{"id": "C53", "title": "File type and permission strings", "statement": "The ls-style mode string determines, and is determined by, the file type and the 12 permission bits.", "quantifier": "all mode values", "why_tests_cant": "65536 modes", "anchors": ["src/bfstd.c: xstrmode"]}
{"id": "C58", "title": "Escaped file names carry no control characters", "statement": "When a file name is escaped for a terminal or shell, no byte that the locale never considers printable (or, for terminals, white space) reaches the output, whatever the name.", "quantifier": "all byte strings, all multibyte decoders and printability predicates, both escaping modes", "why_tests_cant": "every name and every locale", "anchors": ["src/bfstd.c: wordnesc, dollar_quote, printable_len, asciinlen"]}
{"id": "C59", "title": "I/O workers answer every request exactly once", "statement": "A background I/O thread performs each request it receives exactly once (or, after cancellation, refuses it with EINTR, unless the request closes something), answers each exactly once in the order received, and when told to stop it exits after having answered everything it received.", "quantifier": "all sequences of batches received, all batch sizes, all moments of cancellation", "why_tests_cant": "histories are unbounded", "anchors": ["src/ioq.c: ioq_sync_work, ioq_check_cancel, ioq_batch_fill, ioq_batch_pop, ioq_batch_push, ioq_batch_flush"]}
{"id": "C60", "title": "A signal runs exactly its hooks", "statement": "When a signal arrives, exactly the hooks registered for it run, in order of registration; then, if it is fatal and no hook asked to continue, the exit hooks run once and the process dies by the signal. A one-shot hook runs at most once. A memory fault runs no hooks.", "quantifier": "all sets of registered hooks, all signals and all histories of registrations and signals", "why_tests_cant": "Depends on the combination of signal number, flags and registered hooks; tests try a few signals.", "anchors": ["src/sighook.c:sigdispatch", "src/sighook.c:run_hooks", "src/sighook.c:should_run", "src/sighook.c:siglist"]}
{"id": "C61", "title": "Unreadable directories are reported exactly once", "statement": "Each directory that the walk enters and then cannot open or read to its end is reported to the callback with an error exactly once, no other file is reported that way, and when the walk is over every file record has been freed.", "quantifier": "all trees, all sets of unreadable directories, all schedules", "why_tests_cant": "the error may surface on another thread at any time, and files are freed by reference counts that depend on the whole tree", "anchors": ["src/bftw.c: bftw_gc", "src/bftw.c: bftw_closedir", "src/bftw.c: bftw_file_free"]}
{"id": "C16", "title": "Timestamp parsing accepts ISO-8601-like strings with the right meaning", "statement": "Any timestamp in the documented formats (YYYY[-]MM[-]DD, optionally with a time of the day to the hour, minute or second, optionally with Z or a numeric zone offset, or @ and a number of seconds) denotes the instant it names; without a zone, the instant is the one the local time zone assigns to it; all other strings are rejected, and no string has two meanings.", "quantifier": "all strings", "why_tests_cant": "infinitely many strings", "anchors": ["src/xtime.c: xgetdate, xgetpart, xgetdigit"]}
{"id": "C62", "title": "-name and -hidden look at the base name", "statement": "-name matches the base name of a file (for roots: the last component without trailing slashes, or / for the root directory), and -hidden holds exactly if the base name begins with a dot and is not . or ..", "quantifier": "all roots, directories and names", "why_tests_cant": "all path shapes", "anchors": ["src/eval.c: eval_name, eval_hidden", "src/bfstd.c: xbasename, xbaseoff"]}
{"id": "C41", "title": "LS_COLORS extension lookup", "statement": "The colour used for a file name is that of the last LS_COLORS entry that applies to it, and none if no entry applies. An entry applies if no later one matches everything it matches, and its extension is a suffix of the name; upper and lower case are the same unless the extension is given in several cases with different colours.", "quantifier": "all lists of LS_COLORS entries and all file names", "why_tests_cant": "there are unboundedly many sets of overlapping extensions; two tries and an in-place reversal have to agree with the simple rule on all of them", "anchors": ["src/color.c: set_ext", "src/color.c: insert_ext", "src/color.c: ext_case_sensitive", "src/color.c: build_iext_trie", "src/color.c: get_ext"]}
{"id": "C65", "title": "Word-at-a-time ASCII scan", "statement": "The function that measures the ASCII prefix of a string (used before falling back to multibyte decoding when measuring or quoting file names) returns exactly the length of the longest prefix of bytes below 128, for every string length and alignment of the first non-ASCII byte, and never reads beyond the end.", "quantifier": "all byte strings", "why_tests_cant": "positions relative to word boundaries and arbitrary lengths", "anchors": ["src/bfstd.c asciinlen", "src/bfstd.c asciilen", "src/bit.h trailing_zeros"]}
{"id": "C63", "title": "Link targets are read whole", "statement": "Reading the target of a symbolic link (for -lname, %l, -ls and coloured output) returns the whole target as of one moment, whatever size lstat() announced (including 0 or a stale size), in a buffer with room for the terminator; or an error that really happened.", "quantifier": "all link targets, size hints, and histories of target changes and allocation failures between attempts", "why_tests_cant": "targets that change between lstat and readlink", "anchors": ["src/bfstd.c xreadlinkat", "src/eval.c eval_lname", "src/printf.c bfs_printf_l"]}
{"id": "C64", "title": "-files0-from reads every name", "statement": "The roots taken from a -files0-from file are exactly its NUL-terminated names in order (the last one may lack the NUL), names may contain any other byte, a read error is an error, and what -print0 writes is read back.", "quantifier": "all file contents", "why_tests_cant": "arbitrary bytes", "anchors": ["src/parse.c parse_files0_roots", "src/bfstd.c xgetdelim"]}
{"id": "C66", "title": "Delimited input without the delimiter", "statement": "xgetdelim() returns the next chunk of a stream without its delimiter.", "quantifier": "all streams and delimiters", "why_tests_cant": "arbitrary bytes", "anchors": ["src/bfstd.c xgetdelim", "src/bfstd.h xgetdelim"]}
{"id": "C67", "title": "Failure to start a command is reported with its reason", "statement": "When a command can't be started (because it doesn't exist, a requested descriptor, directory or limit can't be set up, the process can't be created, or the kernel refuses it), the caller gets the reason of the first thing that went wrong, and no process. Otherwise the caller gets the process that runs it. The caller's own descriptors and signal mask are the same as before.", "quantifier": "all commands, requested actions and failures of system calls", "why_tests_cant": "failures of system calls can't be provoked in all combinations", "anchors": ["src/xspawn.c: bfs_spawn, bfs_fork_spawn, bfs_spawn_exec, bfs_resolve_early"]}
{"id": "C68", "title": "A command gets exactly the descriptors, directory and limits requested", "statement": "A spawned command sees the effect of the requested actions in order (open, close, dup2, fchdir, setrlimit), is found as seen from its own working directory, and sees nothing of the mechanism that starts it, in particular not the pipe that reports errors.", "quantifier": "all sequences of actions, descriptor tables, and descriptors of the internal pipe", "why_tests_cant": "all sequences and all coincidences of descriptor numbers", "anchors": ["src/xspawn.c: bfs_spawn_addopen, bfs_spawn_addclose, bfs_spawn_adddup2, bfs_spawn_addfchdir, bfs_spawn_setrlimit, bfs_spawn_exec"]}
{"id": "C56", "title": "Directory reading returns every entry except . and .. exactly once", "statement": "Whatever sequence of polls and reads is performed on an open directory, however the kernel splits the entries among its answers and wherever it reports errors, the entries returned are a prefix of the directory's entries (without '.', '..' and, unless asked for, whiteouts) in order and with their types; the end is reported only once all were returned, and is final. -empty is true of a directory exactly if it has no entries.", "quantifier": "all directory contents, all splits of the kernel's answers, all places of errors, all sequences of polls and reads", "why_tests_cant": "the split of the entries among system calls depends on sizes, the file system and concurrent reads; entries are lost or duplicated only in rare splits", "anchors": ["src/dir.c: bfs_polldir, bfs_getdent, bfs_skipdent, bfs_readdir", "src/eval.c: eval_empty"]}
{"id": "C57", "title": "File system type lookup", "statement": "The file system type reported for a file (-fstype, %F) is that of the last mount-table entry that is still a mount point and has the file's mount ID, or 'unknown' if there is none, whatever lookups came before and wherever memory ran out; a lookup fails only if memory is short, and leaves no descriptor open. A name might be a mount point exactly if it is the last part of an entry's path.", "quantifier": "all mount tables, file systems, IDs, sequences of lookups and allocation failures", "why_tests_cant": "mount tables with stacked, hidden and stale mounts are hard to set up, and the table is filled lazily and may be partly filled by a failed attempt", "anchors": ["src/mtab.c: bfs_mtab_parse, bfs_mtab_add, bfs_mtab_fill_types, bfs_fstype, bfs_might_be_mount"]}
{"id": "C55", "title": "stat() requests: right answers, stable buffers and link handling", "statement": "During one visit to a file, every request for its metadata or type (with links followed, not followed, or followed if possible) gets the answer the kernel would give, in whatever order requests are made and whether or not another thread has already looked at the file; a broken link falls back to the link itself. Buffers handed out keep their contents until the end of the visit even if the file changes, at most two system calls are made (one if another thread already looked), and a buffer filled by another thread is freed exactly once. -P, -H, -L and -follow select which links are followed (the last one wins), loops are reported exactly when a directory is its own ancestor, and directories are remembered by their true device and inode.", "quantifier": "all files, link options, depths, ancestors, request histories, prior asynchronous results and (for the buffer claims) all changes of the file between calls", "why_tests_cant": "request orders, asynchronous results and concurrent changes cannot be enumerated", "anchors": ["src/bftw.c: bftw_stat, bftw_cached_stat, bftw_stat_cache, bftw_stat_fill, bftw_stat_recycle, bftw_init_ftwbuf, bftw_save_ftwbuf, bftw_stat_flags, bftw_must_stat", "src/stat.c: bfs_stat, bfs_stat_tryfollow, bfs_stat_explicit", "src/parse.c: parse_follow, stat_arg"]}
{"id": "C69", "title": "-type, -xtype and %Y", "statement": "-type tests the file's type with links treated as the options say; -xtype tests the type with links treated the other way, counting a symlink loop as a link; %Y prints the type of what a link leads to, L for a loop, N if the target is missing, and ? with an error otherwise.", "quantifier": "all files, options, histories of earlier requests and values of errno", "why_tests_cant": "depends on the state left by any earlier request", "anchors": ["src/eval.c: eval_type, eval_xtype", "src/printf.c: bfs_printf_Y", "src/bftw.c: bftw_type"]}
{"id": "C54", "title": "Output files are shared, closed once, and failures reach the exit status", "statement": "Actions that name the same file (by device and inode, including stdout and stderr) write to one stream, each file bfs opens is closed exactly once and no closed stream is used; if bfs exits successfully, every output file contains exactly what was printed to it, in order; before a command runs, everything printed so far has been handed to the kernel; if nothing fails, bfs does not report failure.", "quantifier": "all command lines (sequences of -print/-fprint... actions and warnings), all evaluation histories (prints, flushes before commands, diagnostics, -exit), all outcomes of every open, stat, allocation, write, flush and close", "why_tests_cant": "the interleavings of sharing, buffering and partial failures are unbounded, and disk-full errors at every point cannot be enumerated by tests", "anchors": ["src/ctx.c: bfs_ctx_dedup, bfs_ctx_flush, bfs_ctx_fclose, bfs_ctx_free", "src/parse.c: expr_open, init_print_expr, bfs_parse_cmdline", "src/eval.c: eval_error, eval_io_error, eval_fprint, eval_exit", "src/color.c: cfwrap, cfclose", "src/main.c: main"]}
{"id": "C70", "title": "The expression is evaluated exactly once on every file it should be", "statement": "The expression is evaluated exactly once on each file that is found below the roots through directories that are not excluded (-exclude, -X), pruned, deeper than -maxdepth or on another file system (-xdev), and whose depth is between -mindepth and -maxdepth, with every search strategy; on a directory before what is in it, or with -depth after it; with -unique, on at most one file with the same identity. bfs succeeds exactly if no file, directory or evaluation had an error that counts.", "quantifier": "all file systems, roots, options, expressions (as functions of the file), thread interleavings and buffer limits", "why_tests_cant": "the walk, the passes of deepening searches and the options interact for every tree and schedule", "anchors": ["src/eval.c: eval_callback, eval_file_unique, eval_error, bfs_eval", "src/bftw.c: bftw, bftw_ids_callback"]}
{"id": "C71", "title": "Colored output is what its format says", "statement": "Every message and path is printed through formats with directives and color names. For every format and its arguments, exactly the text that the format denotes is written (literal text, strings, escaped strings, names, paths and link targets of files, expressions), with a color sequence wherever a color in use begins and the reset sequence wherever colors end and one is on; without colors, only the text, and paths byte for byte. If the format ends its colors, no color is left on. The output of a call is written by a single write; success means all of it was written.", "quantifier": "all formats and arguments, color tables, file metadata, expressions, allocation failures and short writes", "why_tests_cant": "formats, paths, tables and failures combine without bound; a color left on or a missing byte shows only for some", "anchors": ["src/color.c: cvbuff, cvfprintf, print_esc, print_reset, print_colored, print_path, print_name, print_link_target, print_expr"]}
{"id": "C72", "title": "Files have the colors that LS_COLORS gives them", "statement": "Each color has the value of its last setting in LS_COLORS followed by BFS_COLORS, or its default. A file's name has the color of the first rule that applies to its type, permissions, capabilities, links and extension; its directories have the color of directories, and if the path is broken, exactly the part after its longest existing prefix has the color of missing files. The parts together are the path, and no control characters reach the terminal.", "quantifier": "all values of the variables, all paths, and all answers of the file system", "why_tests_cant": "the color depends on the combination of all settings with all metadata, and the split of a path on which of its prefixes exist", "anchors": ["src/color.c: parse_colors, file_color, cpath_init, cpath_retreat, print_path_colored, print_name_colored"]}
{"id": "C73", "title": "-delete removes exactly what it should", "statement": "When a search with -delete is complete, a file is gone iff the expression should be evaluated on it, the tests before -delete held, it is not '.', its type is known, the system does not refuse, and, if it is a directory, everything in it is gone. Nothing else is removed. An error is reported for every file that should have been removed and was not. Without obstacles whole trees are removed, and '-type d -empty -delete' removes all directories that contain only directories, on all levels. If bfs exits with 0, everything that should have been deleted is gone. If the search is ended early (by -quit), the same is true of the files that the expression has been evaluated on by then.", "quantifier": "all trees, all walks, strategies and schedules, all moments, all tests that look at the file and what is in it, all refusals by the system", "why_tests_cant": "it depends on the order in which files are visited, for trees of every shape and every interleaving of the walk", "anchors": ["src/eval.c: eval_delete", "src/parse.c: parse_delete", "src/bftw.c: bftw_gc, bftw_call_back"]}
{"id": "C74", "title": "From the command line to the output, everything fits together", "statement": "What bfs writes is exactly what the command line means: the arguments are read by the documented grammar, and the output is that of evaluating the expression from left to right on every file below the given paths that is within the depth limits, not excluded and not below a pruned directory, once each, directories before their contents (or after, with -depth), and on nothing after -quit; whatever the optimizer made of the expression. With only tests, exactly one line is printed for each file that they match. The exit status is 0 if and only if nothing went wrong.", "quantifier": "all command lines, expressions, file hierarchies, traversal schedules and queue orders, all moments of a search, all results of tests", "why_tests_cant": "parser, optimizer, evaluator and walk are each tested alone or on a few command lines; that their interfaces fit for every combination cannot be enumerated", "anchors": ["src/main.c:main", "src/parse.c:bfs_parse_cmdline", "src/opt.c:bfs_optimize", "src/eval.c:bfs_eval", "src/eval.c:eval_callback", "src/bftw.c:bftw"]}
{"id": "C75", "title": "Flags and options mean what they say", "statement": "A command line is accepted exactly if its syntax is right and the values of all flags and options are acceptable; then every setting of the search (which links are followed, the order, the depths, the strategy, the number of threads, the level of optimization, mount points, errors, warnings, colors, the syntax of regular expressions, debugging) is what the last of the flags and options that contradict each other says, wherever on the command line it is and whether or not it is in a group of flags, or the default. The order of flags and options that do not contradict each other does not matter. These are the settings that the search runs with.", "quantifier": "all command lines, all environments", "why_tests_cant": "There are infinitely many combinations and orders of flags, options, values and groups; tests try a few.", "anchors": ["src/parse.c:parse_table,parse_debug,parse_optlevel,parse_follow,parse_color,parse_depth_limit,parse_jobs,parse_search_strategy,parse_regextype,bfs_parse_cmdline", "src/ctx.c:bfs_ctx_new", "src/eval.c:bfs_eval", "src/main.c:main"]}
{"id": "C76", "title": "-printf prints the values its directives name", "statement": "For every format that is accepted and every file, -printf writes, in order, the text of the format and for each directive the value it names (path and its parts, depth, type, target, mode, size, blocks, ids and names, device, links, times in each form), cut off at the precision and filled to the width on the side the flags say; numbers have the digits, signs and zeros that the flags ask for. If a value cannot be found out, nothing is written for this directive (%Y writes ?), the others are still written, and -printf fails. The program is well-behaved for all times in years that fit an int.", "quantifier": "all formats, all flags, widths and precisions, all files and all answers of the system", "why_tests_cant": "There are unboundedly many combinations of directives, flags, widths, precisions and values; tests sample a few formats on a few files.", "anchors": ["src/printf.c:bfs_printf,bfs_printf_ctime,bfs_printf_strftime,bfs_printf_b,bfs_printf_d,bfs_printf_D,bfs_printf_f,bfs_printf_F,bfs_printf_g,bfs_printf_G,bfs_printf_h,bfs_printf_H,bfs_printf_i,bfs_printf_k,bfs_printf_l,bfs_printf_m,bfs_printf_M,bfs_printf_n,bfs_printf_p,bfs_printf_P,bfs_printf_s,bfs_printf_S,bfs_printf_u,bfs_printf_U,bfs_printf_y,bfs_printf_Y,bfs_printf_Z,dyn_fmt", "src/stat.c:bfs_stat_time", "src/bfstd.c:xstrmode"]}
{"id": "C77", "title": "Times printed with %T+ can be sorted", "statement": "The texts that %A+, %B+, %C+, %T+ and %W+ print for two files, with local times in the years 0 to 9999, compare byte by byte as the local times (year, month, day, hour, minute, second, nanosecond) compare, and are equal only if these are. Where local time never goes back, as in UTC, sorting the texts is therefore sorting by time.", "quantifier": "all pairs of files and times, all of the five times", "why_tests_cant": "There are unboundedly many pairs of times; a missing zero or a wrong width would go wrong only for some of them.", "anchors": ["src/printf.c:bfs_printf_strftime"]}
{"id": "C78", "title": "%T@ is the time as a number", "statement": "The text that %A@, %B@, %C@, %T@ or %W@ prints is a decimal fraction, and its value is the number of seconds since 1970, with all nanoseconds.", "quantifier": "all files and times", "why_tests_cant": "There are unboundedly many times; the mistake is only with those before 1970 that have a fraction of a second.", "anchors": ["src/printf.c:bfs_printf_strftime"]}
{"id": "C79", "title": "-ls prints a proper line for each file", "statement": "For each file, -ls prints one line: inode, blocks of 1024 bytes (512 with POSIXLY_CORRECT) rounded up, mode, a mark for access control lists, links, owner, group, size or device numbers, time of modification (time of day for the last 180 days, year otherwise), path and the target of a link; numbers are aligned at the right, owner and group at the left in columns that are 8 wide or as wide as the widest so far. A file that cannot be examined prints nothing and is an error.", "quantifier": "all sequences of files, all answers of the system", "why_tests_cant": "The widths of columns depend on the whole history, and the values on everything the system can answer.", "anchors": ["src/eval.c:eval_fls,print_owner,print_time", "src/bfstd.c:xstrmode", "src/stat.c:bfs_statx_convert"]}
{"id": "C81", "title": "Patterns match what the shell's patterns match", "statement": "-name, -path, -lname, -context and their variants that ignore case find a file if, and only if, its name (path, target, context) matches the pattern in the sense of POSIX pattern matching notation, in the characters of the locale. The shortcut for patterns without wildcards does not change what is found, a pattern that ends with an unescaped backslash matches nothing, and no pattern is rejected.", "quantifier": "Every pattern, every name, with or without ignoring case, every locale whose encoding extends ASCII, and every C library whose fnmatch() is right.", "why_tests_cant": "There are infinitely many patterns, and the shortcut must agree with fnmatch() for all of them, in locales that are not installed where the tests run.", "anchors": ["src/parse.c: parse_fnmatch", "src/eval.c: eval_fnmatch", "src/eval.c: eval_name", "src/expr.h: struct bfs_expr"]}
{"id": "C80", "title": "Tests mean what the manual says", "statement": "For every test in the manual (-name, -size, -mtime, -newerXY, -perm, -type, -user, -empty, -samefile, -flags, and all the others, with all their spellings): its arguments are accepted if, and only if, they have the documented form, just as many as it has are consumed, and for every file the test is true if, and only if, what the manual says about the file is true. If the answer cannot be known because of an error, the test is false and that error is reported, unless -ignore_readdir_race says otherwise.", "quantifier": "Every list of arguments, every setting (users, groups, reference files, time zone, umask, platform support, -H/-L), every file and every answer or error of the system about it.", "why_tests_cant": "Arguments, files and errors are unlimited and independent of each other; tests of the real thing can only try few of them, and not on systems where calls fail.", "anchors": ["src/parse.c: parse_table", "src/parse.c: parse_newerxy", "src/parse.c: parse_user", "src/parse.c: parse_type", "src/parse.c: parse_samefile", "src/parse.c: parse_flags", "src/eval.c: eval_used", "src/eval.c: eval_empty", "src/eval.c: eval_flags", "src/eval.c: eval_xtype", "src/eval.c: eval_nouser", "src/eval.c: eval_report_error", "docs/bfs.1"]}
{"id": "C82", "title": "From the command line to the output", "statement": "For a whole command line: it is read as the grammar says, the search is the one its options ask for, and what is written, run and deleted is, file by file, what the manual says that its tests, operators and actions do on the files of the tree. Each file in question is dealt with exactly once, in an order that respects the tree; nothing else is written; nothing is missing at the end of a complete search; and if nothing failed, the exit status is 0, or the one that -exit asks for. An expression of tests only prints exactly the paths of the files of which it is true.", "quantifier": "Every command line whose actions are -print, -print0, -printf, -printx, -fprint, -fprint0, -fprintf, -prune, -quit, -exit, -delete, and -exec and -execdir with a semicolon, every tree of files, every answer of the system about each file and every outcome of commands, every schedule of the search, and all levels of optimization.", "why_tests_cant": "It is about everything at once: all command lines, all trees, all schedules; tests can only sample combinations of them.", "anchors": ["src/main.c: main", "src/parse.c: bfs_parse_cmdline", "src/opt.c: bfs_optimize", "src/eval.c: bfs_eval", "src/eval.c: eval_callback", "src/eval.c: eval_fprintf", "src/bftw.c: bftw", "docs/bfs.1"]}
{"id": "C83", "title": "-ok runs a command only after it was shown and agreed to", "statement": "With -ok and -okdir every file's command is shown in full before it is run, each question consumes exactly one line of standard input, and the commands that are run are exactly those whose answer is affirmative, in order; whatever fails on the way, nothing is run without consent, and a refused command makes the action false. Two different commands have different questions (false if words contain spaces).", "quantifier": "all commands, files, answers, locales, and failures of the terminal or the system", "why_tests_cant": "The pairing of answers with questions depends on the whole history of the session, and errors at any point must not let a command through.", "anchors": ["src/exec.c:bfs_exec_spawn", "src/exec.c:bfs_exec_single", "src/bfstd.c:ynprompt", "src/bfstd.c:xgetdelim"]}
{"id": "C84", "title": "-execdir never runs a program from the directory it visits because of PATH", "statement": "-execdir and -okdir are rejected if and only if some entry of PATH is empty or relative; if they are accepted, a command without a slash is always an absolute path made from an entry of PATH, and which one it is does not depend on the directory it is run in.", "quantifier": "all values of PATH, commands, platforms, and file systems", "why_tests_cant": "An attacker chooses the directories and their contents; a test only has some values of PATH.", "anchors": ["src/parse.c:parse_exec", "src/xspawn.c:bfs_resolve_early", "src/xspawn.c:bfs_spawn"]}
{"id": "C85", "title": "-regex is true if and only if the expression matches the whole path", "statement": "-regex is true exactly for the files whose whole path is matched by the regular expression, whichever other parts of the path it also matches; an expression means the same wherever it is on the command line; an error of the library is reported and is not a match.", "quantifier": "all expressions, paths, and regular expression libraries that do what POSIX or Oniguruma's manual says", "why_tests_cant": "The expression and the path are arbitrary, and which match a library prefers is not specified by bfs.", "anchors": ["src/xregex.c:bfs_regcomp", "src/xregex.c:bfs_regexec", "src/eval.c:eval_regex"]}
{"id": "C86", "title": "-acl, -capable, -xattr, -xattrname and -context are about the file that is visited", "statement": "Each of these tests answers for the very file that was visited (the link itself if it was not followed), whether or not /proc is mounted and whichever allocations fail, no matter what was asked before; -acl is true exactly if the file has an ACL beyond its permissions or a default ACL; unsupported is the same as absent, other failures are reported; and no memory is lost.", "quantifier": "all sequences of questions about all files, all ACLs, all errors and allocation failures, with and without /proc", "why_tests_cant": "What works is cached from the first question, and failures come in any combination.", "anchors": ["src/fsade.c:fake_at", "src/fsade.c:bfs_check_acl", "src/fsade.c:bfs_check_capabilities", "src/fsade.c:bfs_check_xattrs", "src/fsade.c:bfs_check_xattr_named", "src/fsade.c:bfs_getfilecon"]}
{"id": "C87", "title": "The status bar keeps to the last line of the terminal", "statement": "With -status, bfs shows a line in reverse video in the last row of the terminal. Setting it up loses nothing that is on the screen; updating it changes no other row, nor the cursor, the colors or the scrolling region, whatever the names of the files visited; what bfs prints comes out and scrolls as on a terminal with one row less; hiding it or being killed gives the whole screen back; and if setting it up fails half way nothing is left behind. The line is as many characters of the path as fit, three dots, and the counts at the right end if they fit: exactly as wide as the terminal.", "quantifier": "every terminal size, screen contents and cursor position, every sequence of output and updates, every path and locale, every failing call", "why_tests_cant": "needs a model of the terminal, and all histories of output, updates and resizes", "anchors": ["src/bar.c:bfs_bar_show", "src/bar.c:bfs_bar_resize", "src/bar.c:ass_itoa", "src/bar.c:bfs_bar_update", "src/bar.c:bfs_bar_hide", "src/eval.c:eval_status", "src/eval.c:eval_show_bar", "src/eval.c:eval_hide_bar", "src/bfstd.c:xstrwidth"]}
{"id": "C88", "title": "Closed standard streams are made safe before anything is opened", "statement": "Whichever of standard input, output and error are closed when bfs is started, once it is past its first step all three are open: those that were open before are untouched, the others are the null device but fail as if closed when used, and no other descriptor has changed or leaked; so no file that bfs opens later can become a standard stream and receive its output. If that first step fails, no descriptor that was open is changed, and the message goes to standard error or nowhere.", "quantifier": "all tables of file descriptors, all outcomes of the system calls, systems with and without O_PATH", "why_tests_cant": "Which descriptors are closed, which number open() returns and which call fails depend on who starts the program; a test tries one or two of the combinations.", "anchors": ["src/main.c:open_std_streams", "src/main.c:redirect", "src/main.c:isopen"]}
{"id": "C89", "title": "Messages about the command line underline exactly the arguments they are about", "statement": "When bfs complains or warns about arguments, it repeats the whole command line, each argument as a shell word that reads back as that argument, and puts a second line below. There, every terminal column under an argument that the message is about has a ~, also the column between two of them that follow each other, and no other column has one, even if arguments contain wide characters, spaces or bytes that need escaping. For an expression the arguments are those of the expression and of all expressions inside it; if none are on the command line (an implicit -print) there is no message. No memory outside the array of highlights is written.", "quantifier": "every command line without NUL bytes, every set of highlighted arguments, every expression tree whose arguments are on the command line, every locale with a stateless ASCII-compatible encoding and every width function", "why_tests_cant": "column positions depend on the quoting and the display width of every earlier argument; tests check a few ASCII messages only", "anchors": ["src/diag.c:bfs_argv_diag", "src/diag.c:highlight_expr", "src/diag.c:bfs_expr_error", "src/parse.c:highlight_args", "src/parse.c:parse_conflict_error", "src/bfstd.c:xstrwidth"]}
{"id": "C90", "title": "-daystart makes -mtime and the like count calendar days", "statement": "After -daystart, the tests further right on the command line that look at the age of a file measure it at the end of the current day in the local time zone, the first midnight from now on. So -daystart -mtime 0 means modified today, -mtime 1 yesterday, and so on, with + and - as usual. Tests before -daystart, and tests that are not about ages, do not change. A second -daystart changes nothing.", "quantifier": "every current time and file time (to the nanosecond, 2^54 seconds in both directions), every time zone with winter and summer time, every sequence of tests, every number and comparison", "why_tests_cant": "the answer depends on the current time, the time zone and its changes; a test runs at one moment in one zone", "anchors": ["src/parse.c:parse_daystart", "src/parse.c:parse_time", "src/parse.c:parse_min", "src/xtime.c:xmktime", "src/eval.c:eval_time"]}
{"id": "C91", "title": "-limit N ends the search at its Nth evaluation", "statement": "-limit takes the numbers from 1 to 2^63-1. Whatever the expression around it and whatever the order of the walk, a -limit N is evaluated at most N times; when it is evaluated for the Nth time, nothing else is evaluated, neither on the same file nor on any other, and the walk ends. Before that it changes nothing: the search is the same as with a larger number. In particular bfs PATHS TESTS -print -limit N prints N of the matching files, or all of them if there are fewer than N, and never a file twice.", "quantifier": "all file trees, all strategies, all schedules of the I/O threads, all expressions with any number of -limits, all behaviours of the other primaries", "why_tests_cant": "A test runs -limit on a fixed tree with a fixed expression; which files are seen first, and whether the count survives every combination of operators, pruning, several limits and optimization, cannot be settled by examples.", "anchors": ["src/eval.c: eval_limit", "src/eval.c: eval_expr", "src/eval.c: eval_callback", "src/parse.c: parse_limit"]}
{"id": "C92", "title": "I/O threads that use io_uring answer every request exactly once", "statement": "A background thread that gives its requests to an io_uring answers each request it receives exactly once: either with EINTR after the queue was cancelled (never for a request to close something), or with what the thread got when it performed the request itself, or with what the kernel said. Short submissions, interrupted waits and completions in any order do not change this. Each file descriptor that the kernel opens is either handed over with the directory or closed, never both and never neither. Neither the submission queue nor the completion queue overflows, and no assertion fails. When told to stop, the thread exits after it has answered everything.", "quantifier": "all sequences of requests, ring sizes, batch sizes, supported operations, kernel schedules (short submissions, order and time of completions, results) and moments of cancellation", "why_tests_cant": "the kernel's schedule is unbounded and cannot be controlled from a test", "anchors": ["src/ioq.c: ioq_ring_work, ioq_ring_prep, ioq_prep_sqe, ioq_ring_submit, ioq_ring_drain, ioq_reap_cqe, ioq_dispatch_async, ioq_reserve_sqes"]}
{"id": "C93", "title": "-printx and -X make paths safe for xargs", "statement": "For any sequence of paths, whatever bytes they contain, xargs reads the output of -printx as exactly these paths, in order. With -X, the same holds for -print, and -X skips exactly those paths that xargs would not read back as the path that was printed.", "quantifier": "All sequences of non-empty paths of arbitrary bytes", "why_tests_cant": "There are infinitely many paths; tests use a few names with spaces, quotes and newlines", "anchors": ["src/eval.c: eval_fprintx", "src/eval.c: eval_callback", "src/eval.c: eval_fprint", "docs/bfs.1: -printx"]}
{"id": "C94", "title": "A search gives its commands exactly the files they are evaluated on", "statement": "With -exec/-execdir ... {} + anywhere in an expression, the runs of the command together receive exactly the files on which the action was evaluated, each once and in that order, whichever search strategy is used and also when -quit, -limit or -exit ends the search early; bfs exits with failure if some file could not be passed on or some run failed. A complete search with TESTS -exec ... {} + passes on exactly the files to be found that match. With ';', the command is run once for each of them. -execdir runs it in the directory of the files.", "quantifier": "all expressions, hierarchies, strategies, schedules, batch sizes and limits of the system", "why_tests_cant": "the buffers persist across all evaluations of a search, and are flushed at its end, however that came about", "anchors": ["src/eval.c: eval_exec, eval_exec_finish, bfs_eval", "src/exec.c: bfs_exec, bfs_exec_multi, bfs_exec_finish", "src/bftw.c: bftw_init_ftwbuf"]}
{"id": "C95", "title": "Running out of memory does not corrupt the tables", "statement": "The byte-string map behind file identities (-unique), mount tables, user and group caches, LS_COLORS and file extensions stays correct when memory runs out: an assignment that fails for lack of memory reports the failure and changes nothing that can be observed, only an assignment to a new key can fail, and every later lookup, prefix search, iteration, assignment and removal behaves as if the failed assignments had never been attempted, even though parts of the search structure built for them may remain.", "quantifier": "every history of assignments and removals over any prefix-free set of nonempty keys, every pattern of refused allocation requests within each call, every query", "why_tests_cant": "allocation failures are almost never injected by tests, and the interesting ones strike in the middle of a multi-step insertion and show only in later operations", "anchors": ["src/trie.c: trie_insert_mem, trie_jump, trie_split, trie_node_insert, trie_leaf_alloc, trie_leaf_free, trie_set_mem", "src/alloc.c: varena_alloc, varena_realloc"]}
{"id": "C96", "title": "The command line that -D shows means what was given", "statement": "With -D, bfs first shows a command line with the settings in effect. Whatever the given command line and the paths are, including paths with spaces, quotes, newlines, invalid bytes or a leading dash, a shell reads the shown line as words in exactly one way, and bfs accepts them, with the same paths in the same order and the same links, sorting, threads, optimization level, strategy, debugging flags, colors, order, depth limits, mount, status and unique settings. Different settings are shown differently, and running the shown line shows the same line again. Not shown are -noerror, warnings, the regular expression syntax and -files0-from; -xdev is not shown beside -mount, which makes it redundant.", "quantifier": "every accepted command line, every nonempty list of paths made of any bytes, every locale in which tabs and newlines are not printable", "why_tests_cant": "there are unboundedly many paths and numbers and too many combinations of settings; that the words read back depends on quoting, on the option table and on the grammar at the same time", "anchors": ["src/parse.c:bfs_ctx_dump", "src/parse.c:bftw_strategy_name", "src/diag.c:debug_flag_name", "src/parse.c:bfs_parse_cmdline", "src/bfstd.c:wordesc"]}
{"id": "C97", "title": "The status bar can be switched on and off at any time", "statement": "With -status, or after SIGINFO (SIGUSR1 where there is none), bfs shows a status bar; each further such signal hides or shows it again, at the next file. While it is visible a timer has it updated with the number of files visited so far, at most once per file, and immediately after it is shown. Whenever signals arrive and whatever fails while the bar is being shown, bfs does not crash, holds a terminal, a timer and signal hooks exactly while the bar is visible, and has given everything back at the end.", "quantifier": "every number of files, every interleaving of SIGALRM, SIGINFO and SIGWINCH with the steps of the search, every combination of failures", "why_tests_cant": "the signals arrive between any two instructions; the interesting interleavings take a signal within microseconds of another one", "anchors": ["src/eval.c:eval_callback", "src/eval.c:eval_show_bar", "src/eval.c:eval_hide_bar", "src/eval.c:eval_sigalrm", "src/eval.c:eval_siginfo", "src/eval.c:bfs_eval", "src/bar.c:bfs_bar_width"]}
{"id": "C98", "title": "Setting up the background threads never leaks, and never depends on io_uring", "statement": "However many threads are asked for and whatever fails while they are set up (memory, a mutex, a condition variable, a thread, an io_uring), setting up either succeeds with exactly the threads asked for, or fails with everything released that had been acquired; nothing is released twice. Shutting down releases everything. Problems with io_uring never make it fail: threads without a ring do system calls. All rings use the same operations, which the kernel supports, and flags that the kernel does not refuse, and after a ring that could not be set up no further one is tried. The rings and the directories kept open never need more descriptors than there are.", "quantifier": "every number of threads, every depth of the queue up to 2^63, every combination of failures and of kernel features", "why_tests_cant": "failures of mutexes, threads and rings can't be provoked one by one, and the combinations are unbounded", "anchors": ["src/ioq.c:ioq_create", "src/ioq.c:ioq_destroy", "src/ioq.c:ioqq_create", "src/ioq.c:ioqq_destroy", "src/ioq.c:ioq_ring_init", "src/ioq.c:ioq_ring_probe_flags", "src/ioq.c:ioq_thread_create", "src/bftw.c:bftw_state_init"]}
{"id": "C99", "title": "The help is shown on a terminal without hanging, and falls back to standard output", "statement": "`bfs -help` on a terminal shows the help through a pager: the command in PAGER if that is set to something, otherwise less, otherwise more, as found on the PATH. The pager reads the help from its standard input and sees its end: neither it nor bfs holds the write end of the pipe when bfs waits for it. It gets options and colours only if it is less. Whatever can't be found, allocated or started, the help goes to standard output instead, and bfs keeps no descriptor, memory or child; if standard output is not a terminal there is no pager.", "quantifier": "every value of PAGER and PATH, every set of executables, every combination of failing calls and every table of descriptors", "why_tests_cant": "Tests have no terminal, and a failure between two of the calls (pipe, fdopen, allocation, process creation) happens in no test; a leaked write end shows as a hang only with some pagers.", "anchors": ["src/parse.c launch_pager", "src/parse.c parse_help", "src/xspawn.c bfs_spawn_resolve", "src/xspawn.c bfs_spawn"]}
{"id": "C100", "title": "Nothing is leaked or freed twice, and the exit status tells of lost output", "statement": "Whatever the command line is, and whichever allocation, open, registration of a signal hook or read of the mount table fails, everything that bfs holds for its context (memory, open output files, signal hooks) is given back exactly once before it exits. The exit status is 1 if it can't start, that of the search if it is not 0, and 1 if anything was lost that was written to standard output or to a file named on the command line, even if several arguments name the same file or one names standard error. What is lost on standard error alone doesn't count.", "quantifier": "every sequence of arguments, every combination of failures, every assignment of the named files to actual files, every set of files on which writing fails", "why_tests_cant": "Tests can't make each allocation of a run fail in turn for every command line, and leaks and double frees are not visible in the output.", "anchors": ["src/main.c: main", "src/ctx.c: bfs_ctx_new, bfs_ctx_dedup, bfs_ctx_fclose, bfs_ctx_free, bfs_ctx_mtab", "src/parse.c: bfs_parse_cmdline, expr_open, parse_exec, parse_root", "src/expr.c: bfs_expr_new, bfs_expr_clear"]}
{"id": "C101", "title": "A deadly signal leaves the terminal usable", "statement": "If a signal kills bfs while the status bar is being shown, is visible, is being updated or is being hidden, then afterwards the whole screen scrolls again, no escape sequence is unfinished, what was printed is still there, the cursor is where the output ended, and further output is not in reverse video.", "quantifier": "every terminal and its contents, everything written so far by bfs and by its signal handlers, every byte after which the signal may arrive, every failure while showing the bar", "why_tests_cant": "A test can't deliver a signal after every byte of every write, and can't see the state of the terminal.", "anchors": ["src/bar.c: bfs_bar_show, bfs_bar_hide, bfs_bar_update, bfs_bar_reset, bfs_bar_sigexit, bfs_bar_sigwinch", "src/sighook.c: atsigexit, reraise"]}
{"id": "C102", "title": "The default number of threads fits the machine", "statement": "Without -j, bfs uses as many threads as there are processors that it may run on, whatever the size of the kernel's processor masks, but at most 8; if that can't be found out, as many as are online; and always at least the main thread. Finding out always ends and loses no memory.", "quantifier": "every size and contents of the processor mask, every failure of the system calls, every amount of memory", "why_tests_cant": "Tests run on one machine with one mask size.", "anchors": ["src/bfstd.c: nproc, bfs_sched_getaffinity", "src/ctx.c: bfs_ctx_new", "src/eval.c: bfs_eval"]}
{"id": "C103", "title": "Flags and options count for the tests to the right of them", "statement": "How a test is understood depends only on the flags and options to the left of it on the command line, whatever paths, operators and parentheses are in between: ages are measured at the end of the day if a -daystart is to the left (however many), regular expressions have the syntax of the last -E or -regextype to the left, and the files named by -newer, -samefile and the like are followed if they are links according to the last -P, -H, -L or -follow to the left. Nothing to the right matters, and all other tests depend on none of this. The command line is accepted if and only if each test is, with its own settings.", "quantifier": "every command line, every position of every test in it, every current time, clock, regular expression library and file system", "why_tests_cant": "the number of orders of flags, options, tests and operators is unbounded, and the effect depends on the clock and on other files", "anchors": ["src/parse.c:parse_primary", "src/parse.c:parse_daystart", "src/parse.c:parse_time", "src/parse.c:stat_arg", "src/parse.c:parse_regex", "src/parse.c:parse_regextype", "src/parse.c:parse_follow"]}
{"id": "C104", "title": "Standard input has one reader, and doubtful command lines need consent", "statement": "A command line is refused if more than one of its parts would read standard input: each -ok and -okdir, and -files0-from - if it is the last -files0-from. If -prune is given together with something that puts directories last (-d, -depth without a number, -delete, -rm), warnings are wanted, and both standard input and standard error are terminals, the user is warned and asked, and the search begins only if the answer is affirmative; that uses up one line of input. In all other cases nothing is asked and no input is used up (except for roots); nothing is shown without a reason, or if warnings are off. If files may be changed, the user is asked in the same way about each test whose result is ignored. An argument that is unknown leads to the suggestion of a known one such that none is more similar; it is taken for the suggestion only if the user is at a terminal and says yes, and then the effect is that of having written the suggestion. Known arguments lead to no question.", "quantifier": "all command lines, all settings of warnings and terminals, all inputs, all locales", "why_tests_cant": "the combinations of primaries, positions, terminal states and answers are unbounded; tests try a handful of them, mostly without a terminal", "anchors": ["src/parse.c:consume_stdin", "src/parse.c:parse_whole_expr", "src/parse.c:parse_primary", "src/parse.c:table_lookup_fuzzy", "src/parse.c:parse_exec", "src/parse.c:parse_files0_roots", "src/bfstd.c:ynprompt", "src/opt.c:opt_ignore"]}
{"id": "C105", "title": "The exit status that others see", "statement": "The process that started bfs sees status 0 only if bfs could start, nothing was wrong with any file (unless -noerror is given), no command of -exec ... {} + failed at the end, the search itself did not fail, and all output was written. Otherwise, the status is not 0. If -exit N is evaluated and nothing goes wrong afterwards, the status is N.", "quantifier": "all histories of errors and -exit actions, all numbers that -exit accepts, all combinations of failures", "why_tests_cant": "the number of errors and their order relative to -exit is unbounded; tests do not try large numbers, or failures at the same time", "anchors": ["src/main.c:main", "src/eval.c:bfs_eval", "src/eval.c:eval_exit", "src/eval.c:eval_error", "src/parse.c:parse_exit"]}
{"id": "C106", "title": "Where the search begins", "statement": "Without -files0-from, the search begins at the paths on the command line, in their order, or at the current directory if there are none. With it, the search begins at the NUL-separated names in that file (the last one given; - is standard input), in their order, whatever they look like: none of them is taken for an option or an expression, and an empty file means that nothing is searched, not the current directory. Paths on the command line together with -files0-from, a file that can't be opened, and a file that can't be read to its end are refused. The rest of the command line means the same with and without it.", "quantifier": "every command line, every system, every file and what may fail when it is opened or read", "why_tests_cant": "Files and command lines can have any length, and the names in files may contain any byte but NUL; the cases where two sources of roots meet are too many to list.", "anchors": ["src/parse.c:parse_files0_roots", "src/parse.c:parse_whole_expr", "src/parse.c:parse_root", "src/parse.c:parse_files0_from", "src/bfstd.c:xgetdelim"]}
