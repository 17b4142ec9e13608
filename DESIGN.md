# Formal model of bfs in Lean 4 — design

## Layout

- `properties.jsonl` — the English properties (C01…).
- `lean/Verif/Model/*.lean` — the model; every definition cites file and lines in `/repo`, and says
  where it simplifies.
- `lean/Verif/Spec/*.lean` — small specifications that do not use the model's helpers.
- `lean/Verif/Lemmas/*.lean` — helper lemmas (not claims).
- `lean/Verif/Props/*.lean` — the property theorems, named `Cnn_…`, each with concrete `example`s
  that meet its hypotheses. `_partial` marks a theorem that proves only part of its property,
  `_counterexample` a concrete run on which the property is false of the code.
- `MANIFEST.json` — property → theorems. `seeded/LOG.jsonl` — wrong programs tried against them.

Conventions. C functions become total Lean functions or, where threads, signals or the kernel may
interleave, transition relations. `Out α` (`Model/C.lean`) is the result of C code that may fail:
`ok`, `err` (a reported error) or `ub` (undefined behaviour, a failed assertion, an access to memory
that is not ours). "Safe" theorems prove that `ub` never happens. What the environment does (system
calls, allocations, locale, other processes) is a parameter that is quantified over: an oracle, a
script of answers, or a schedule.

## Plan per property

For each property: what is modelled, and how it is proved.

### Expressions: optimiser and evaluator

- **C01 Optimisation at -O1 preserves everything observable** — `Model/Opt.lean` models every pass of
  `bfs_optimize()` (annotate, canonicalize, sort, simplify, the fixpoint loop) over expression trees
  with abstract stateful leaves; `Spec/Opt.lean` is a big-step relation `Runs`. Each pass is proved to
  preserve behaviour by induction on the visitor's recursion.
- **C02 Data-flow optimisation (-O2) preserves side effects** — abstract interpretation: each transfer
  function is sound for a concrete file model, then contextual equivalence of the rewritten tree.
  False of the code in six ways (findings 1–3, 19, 20): counterexamples, and a `_partial` theorem
  under restrictions that exclude them. `-uid n` and `-gid n` are allowed for one user and one group, if
  `-nouser` and `-nogroup` are not there too: what the optimizer then believes is wrong about the file but
  right about one that differs from it only in having, or not having, an owner with a name, and which the
  expression cannot tell apart (`Lemmas/OptOwner.lean`).
- **C03 Cost-based reordering (-O3) preserves side effects** — the sort permutes only maximal runs of
  pure operands, whatever the cost model; permuting pure operands is unobservable.
- **C04 Inferred depth bounds only skip files with no side effects** — the depth range of the
  "impure" domain is sound. Same restrictions as C02.
- **C49 Boolean operators short-circuit and quit stops everything** — the evaluator agrees with the
  big-step relation; nothing runs after quit.
- **C45 Expression grammar and precedence** — the whole recursive-descent parser of `src/parse.c` with
  the table of primaries entry by entry; equivalence with a grammar given as inductive relations;
  the grammar is unambiguous.

### Traversal

- **C18, C19, C21, C22, C23, C61 One traversal pass** — `Model/Bftw.lean`: `bftw_impl()` with its
  queues, buffers, reference counts, path buffer and asynchronous completions as a transition system
  over an arbitrary tree and every schedule; invariants by induction on steps. Termination by a
  measure.
- **C20 Search strategies visit the same files** — `Model/Ids.lean`: passes of iterative and
  exponential deepening on top of one pass; unions of depth windows; `Deepened` is `bftw()` with these strategies, `Midway` the same at any time. A callback that stops the
  search is like one that does not, up to the call at which it does (`Lemmas/IdsSoft.lean`). Counterexamples for pruned paths
  reached twice, `-xdev -depth`, stat and read errors.
- **C24 The directory cache** — `Model/Cache.lean`: LRU list, pins, capacity and `unwrapdir`/close
  requests; accounting invariant.
- **C70 evaluation of the expression on each file** — `Model/Search.lean`: `eval_callback()` as the
  callback of the walks of C18–C21, with the expression as a parameter. What should be evaluated is
  defined in `Spec/Search.lean` from the options and the tree alone; the walk evaluates exactly that.
  With `-unique`: the first visit to each identity is treated as if `-unique` were absent, and the same directory leads to the same files
  (`C70_unique_complete`); each directory is gone into once, which bounds the walk (`C70_unique_ends`).
- **C71 coloured formats** — `Model/Cprint.lean`: `cvbuff()` with all of its directives, and the
  printing functions below it, over an oracle for allocations. `Spec/Cprint.lean` gives the meaning of
  a list of directives as a list of texts, colours and resets, and a small function from those to
  bytes. Proof: each printing function appends the bytes of its meaning (a relation that composes
  along `R.then`), then induction over the directives.
- **C72 colours of files** — the same model: `parse_colors()`, `file_color()`, `cpath_init()`. The
  specification is a list of rules, first one wins, and the longest existing prefix of the path.
  Proof: loop invariant of `cpath_retreat()` (each step reaches the next lower end of a component), and
  the fold over settings equals the last setting.
- **C73 `-delete`** — `Model/Delete.lean`: `eval_delete()` run on the evaluations of the walk of C70, in
  their order, on a file system where `unlinkat()` removes an entry, or fails if it is not there, has the
  wrong type, is a directory with something in it, or is refused for any other reason. Proved by induction
  over the walk: with `-depth`, everything below a directory is evaluated before it (C70_order).
  All strategies, at any time of the search. The directory tree of the walk is fixed: this fits since files are
  deleted after they have been listed, and later passes of `-S ids`, which only go up, do not get to them.
  Restrictions: no `-unique` or `-xdev` mount points; each file is reached in one way.
- **C74 From the arguments to the output** — `Model/Main.lean`: `main()` as the composition of the models of
  the parser (C45), the optimizer (C01–C04), the evaluator (C49), `eval_callback()` (C70) and the walk
  (C18–C21). The specification (`Spec/Main.lean`) gives the parsed expression a meaning directly and
  compares with the files that `Spec/Search.lean` says are in question. Proof: the optimized
  expressions agree with the parsed ones on every file that is in range, and do nothing on files that are
  skipped because of inferred depths; so the optimized search evaluates a subset of the files in question
  that contains all those on which anything happens. What tests say and what other actions do is a
  parameter, and so are the values of the options (depth limits and the like). `-S ids` and `-S eds` are covered
  (`Walked`, through `C70_deepened_partial` and `C70_anytime_partial`) for searches in which different files have different paths. Missing:
  `-unique`, `-xdev` with `-depth`; expressions for which `-O2` and above are wrong (C02).
- **C75 Flags and options** — `Model/Options.lean`: what every `parse_*()` function for flags and options
  does to `struct bfs_ctx`, called in the order of the arguments (the calls come from the parser of C45), the
  defaults of `bfs_ctx_new()`, and the end of `bfs_parse_cmdline()`. `Spec/Options.lean` describes each
  setting on its own: which flags turn it on, or which of the flags that contradict each other came last
  (`Meets`), and which values are acceptable. Proved by induction on the calls (`meets`), for existence and
  uniqueness; acceptance is an equivalence. `Started` is the whole program of C74 with these settings.
- **C76 Values of `-printf` directives** — `Model/Cfmt.lean`: how the C library's `printf()` lays out strings,
  integers and octal numbers; `Model/Directive.lean`: each `bfs_printf_*()` function and the loop over a format,
  with the answers of the system as parameters. `Spec/Directive.lean` says what each directive shows as
  relations (`Shows`, `Laid`, `IntLaid`, `Written`). By cases over the directives, from lemmas about decimal
  numerals and padding; whole formats by induction, from `C38_complete`. `C76_unique` says that `Written` determines the
  output, so that nothing is left open by the relations.
- **C77 Sorting by time, C78 times as numbers** — no new model; `Spec/Stamp.lean` says what sorting and reading
  a decimal fraction mean. From `C76_shows`; numerals of the same length sort like numbers, by induction; a field
  and the rest compare lexicographically. C78 is false for fractions of seconds before 1970.
- **C79 `-ls`** — `Model/Ls.lean`: `eval_fls()`, `print_owner()`, `print_time()`, with the static widths of the
  columns as state. By induction over the files of a search: the widths are the greatest so far. False for links
  that cannot be read and for file systems without modification times.
- **C80 tests** — `Model/Tests.lean`: every `parse_*()` and `eval_*()` for tests, behind `parse_table`. What they ask of
  the system is a parameter. `Spec/Tests.lean` is the manual: an inductive relation between the arguments and a
  question about files, whose answer is a proposition or an error. Proved for each entry of the manual by
  composing C16, C31–C36, C62 and C81; conversely, for each row of the table, that it accepts nothing else.
- **C81 patterns** — `Model/Fnmatch.lean`: `parse_fnmatch()` and `eval_fnmatch()`. `Spec/Glob.lean` is POSIX pattern
  matching as an inductive relation on the characters of a locale, and says what is assumed of encodings (ASCII
  bytes stand for themselves). Proved by relating the parity of the backslashes at the end to the relation, and
  by showing that a pattern without wildcards matches just itself. False for `-iname` without wildcards and
  multibyte characters.
- **C82 the whole program** — `Model/Whole.lean`: the primaries of `Model/Main.lean` are now those of `Model/Tests.lean` and
  `Model/Directive.lean`. `Spec/Whole.lean` says what an expression does on a file by the manual alone (`Does`), as an inductive
  relation. Proved by composing C45, C75, C74, C80, C81 and C76; for the optimizer, by giving each file the attributes that
  `Spec/Opt.lean` asks for. `Does` determines value and effects (`C82_unique`). Errors of tests are in C80, not here. The actions are `-print`, `-print0`, `-printf`, `-printx`,
  `-fprint`, `-fprint0`, `-fprintf`, `-exit`, `-prune`,
  `-quit`, `-delete`/`-rm`, and `-exec`/`-execdir` with `;` (through C12). Files look as they do when they are visited, and what
  commands and `unlinkat()` achieve is a parameter; so actions may change files, but not which files the search finds.
- **C83 `-ok`** — `Model/Prompt.lean` is `ynprompt()`, `xrpmatch()` and the prompt of `bfs_exec_spawn()` over a console whose
  standard error may fail at any call; the locale is a parameter. `Spec/Prompt.lean` says what lines, affirmative answers and
  questions are. By induction over the files, on top of the lemmas for C12.
- **C84 `$PATH` and `-execdir`** — the loop in `parse_exec()` is proved equal to a check of the entries of `Spec/Spawn.lean`, and
  composed with C48.
- **C85 `-regex`** — `Model/Regex.lean`: `bfs_regexec()` over any library, with the contracts of POSIX (leftmost and longest) and of
  Oniguruma (some match) in `Spec/Regex.lean`; a backtracking matcher, proved sound and complete for the denotation of expressions,
  shows that the second contract is met and what it lacks. The options of `bfs_regcomp()` are followed through a command line.
- **C86 ACLs and extended attributes** — `Model/Fsade.lean`: all of fsade.c for Linux, with the cached `proc_works` and allocations that
  may fail; `Spec/Fsade.lean` has the metadata of files and two ways of naming them. By induction over the questions of a search.
- **C87 Status bar** — `Model/Bar.lean`: all of bar.c as the bytes it writes (the array of `bfs_bar_resize()` with its bounds), `eval_status()`,
  `xstrwidth()`, and what is held while the bar is set up. `Spec/Bar.lean` is a terminal that reads bytes: cursor with pending wrap, scrolling region,
  saved cursor, erasing, reverse video, history. Refinement: above the last row, a terminal with the bar and one with a row less and no bar stay the
  same for every sequence of output and updates (induction over the events). C87 is false for white space in names and for a line that is just full.
- **C88 Standard streams** — `Model/Streams.lean`: `open_std_streams()` over a table of descriptors in which `open()` takes the lowest
  free number; any `open()` or `dup2()` may fail. Each stream is one step that changes at most its own descriptor.
- **C89 Underlined messages** — `Model/Diag.lean`: `bfs_argv_diag()`, `highlight_expr()` and their callers as text and colors. `Spec/Diag.lean` has how many
  columns some text takes, which arguments belong to an expression, and what "underlined" means column by column. By induction over the arguments; the
  words come from C13, and `xstrwidth()` is shown to be the number of columns of every word that `wordesc()` can make.
- **C90 -daystart** — `Model/Daystart.lean`: `parse_daystart()` and `xmktime()` over `localtime_r()` and `mktime()` of any time zone (`Spec/Daystart.lean`: two
  offsets, and when it is summer); the age tests are those of C34 and C80. Arithmetic of days; induction over the tests for the position. False in four ways, with counterexamples.
- **C91 -limit** — `Model/Quota.lean`: `eval_limit()`, `parse_limit()`, and a callback whose expression may depend on all earlier evaluations, on the walk of
  `Model/Bftw.lean` and the deepening searches of `Model/Ids.lean` (`Lemmas/IdsFree.lean`: with any callback they visit nothing twice, say nothing after a stop, and only depend on its answers).
  All other primaries are parameters. Invariant: while the walk goes on, every counter is below its number. A run of such a search is also a run
  of one without memory (`Lemmas/BftwCongr.lean`: a walk only depends on the answers the callback gave), so that C70 carries over (`C70_memory_*`).
  `expr->evaluations` is only modelled for `-limit`; the record of actions (`log`) is not in the code, it is there to state the theorems.
- **C92 io_uring** — `Model/Uring.lean`: `ioq_ring_work()` and everything below it, over an environment that answers each interaction (what a call submits, which
  requests complete and with which results, what the queue has, whether it was cancelled). Loops are bounded by a number of iterations that the theorems quantify over, so
  that every beginning of every run is included. Proof: one invariant (`Lemmas/Uring.lean`), a postcondition for each function, and a measure for each loop
  (`Lemmas/UringEnd.lean`).
- **C93 -printx and -X** — `Model/Printx.lean`: `eval_fprintx()`; `-X` is in `Model/Search.lean`. xargs is a specification (`Spec/Printx.lean`). Proof: `-printx` escapes
  byte by byte, and the specification undoes it; for the converse in `C93_X`, a line with a special byte loses bytes.
- **C55 stat() caching and follow semantics; C69 -type, -xtype, %Y** — `Model/Stat.lean`:
  `bfs_stat()`, `bftw_stat()`, `bftw_type()`, the recycling of asynchronous buffers, and the options
  that choose flags; a visit is any sequence of requests.
- **C56 Directory reading** — `Model/Dir.lean`: `bfs_polldir()`/`bfs_readdir()` on getdents and on
  readdir; the kernel is a list of entries and an arbitrary script of answers.
- **C57 File system type lookup** — `Model/Mtab.lean`: parsing, `bfs_mtab_fill()` with lazy retry, the
  trie of names; histories of lookups.
- **C46 -unique matches each file once; C47 cached user/group lookups** — `Model/Memo.lean`, on top of
  the trie of C05.
- **C62 hidden and root names; C37, C39 path parts** — `Model/Path.lean`.

### Threads and signals

- **C25, C26 I/O queue** — `Model/Ioq.lean`: slots, tickets, monitors; transition system over atomic
  accesses with any number of threads; conservation and wake-up invariants.
- **C27 capacity, C59 workers** — `Model/IoqApi.lean`: the API and `ioq_work()` on top of the queue.
- **C28, C29, C60 signal hooks** — `Model/Sighook.lean`, `Model/Sigdispatch.lean`: the reference
  count/RCU protocol with any number of handlers, the linked list at the pointer level, and dispatch.

### Commands

- **C09, C10, C11, C12 -exec** — `Model/Exec.lean`: `bfs_exec()` as a state machine with an oracle for
  spawning; conservation of paths, size bookkeeping, directories, `{}`.
- **C94 -exec in a search** — `Model/Batch.lean`: `eval_exec()` as a primary of the searches of `Model/Quota.lean`, and `eval_exec_finish()` after them.
  Invariant: the buffer of every command is what `bfs_exec()` makes of the files that the record of actions has for it, so that C09–C12 apply; what
  these files are follows from C70 and C91. The file system does not change while commands run, and how the system answers a command depends on its own earlier runs.
- **C48, C67, C68 spawning** — `Model/Spawn.lean`: `bfs_spawn()` by fork and by posix_spawn, with
  descriptors, directory, limits, signal mask and the error pipe in the state of two processes.
- **C50 resource limits** — `Model/Limits.lean`.

### Output

- **C54 output files** — `Model/Files.lean`: streams with buffer, error indicator and kernel side,
  `ctx->files`, hooks; a run is parse, evaluate, free with an oracle for every I/O call. Invariants
  over all histories; findings 47 and 48 as counterexamples.
- **C13, C14, C58 quoting** — `Model/Quote.lean`: the escaper over bytes with an arbitrary locale; an
  independent reader of shell words.
- **C38 -printf** — `Model/Printf.lean`: parser and interpreter against a direct specification.
- **C40, C41 LS_COLORS** — `Model/Color.lean`: escape decoding, the whole variable, extension tries.
- **C53 mode strings** — `Model/Strmode.lean`.

### Parsing values

- **C15, C16, C17 times** — `Model/Time.lean`, `Model/Date.lean`; specifications count days by summing
  years and months; signed overflow is `ub`.
- **C31–C34 numbers, sizes, ages** — `Model/Num.lean`. **C35, C36 modes** — `Model/Perm.lean`.
- **C30 typo distance** — `Model/Typo.lean`: the row loop against least edit cost.
- **C64, C66, C42, C63 input and output helpers** — `Model/Io.lean`.
- **C96 the line shown by `-D`** — `Model/Dump.lean`: the text that `bfs_ctx_dump()` prints. Composed with the shell's quoting (C13), the grammar (C45) and
  the settings (C75): the text is words, and parsing them gives the settings back. That `-xdev` may be left out beside `-mount` is a congruence over all runs of the walk (C03, C70).
- **C97 Switching the bar** — `Model/Toggle.lean`: a transition system of the main thread of `eval_callback()` with signals between any two steps; showing and hiding
  are `Model/Bar.lean`'s functions with their failures. Invariants by induction over all runs for what is held, for the updates and for safety; one callback without
  signals is characterized completely (`C97_callback`). False of the code in one interleaving (Finding 78).
- **C98 Setting up the threads** — `Model/IoqLife.lean`: `ioq_create()`, `ioq_destroy()` and what they call, with everything that may fail, over a set of what is held
  (double releases are undefined behaviour). Each loop is characterized by induction as an operation on an explicit set; the theorem is their composition.
- **C99 The pager** — `Model/Pager.lean`: `launch_pager()` and where `parse_help()` prints, on top of the model of `bfs_spawn()`, with everything that may fail, over the table of descriptors and a list of what is held
- **C100 The life of the context** — `Model/CtxLife.lean`: `bfs_ctx_new()`, `bfs_parse_cmdline()` as a list of steps that get things, `bfs_ctx_dedup()`, `expr_open()`, `bfs_ctx_mtab()`, `bfs_ctx_fclose()`, `bfs_ctx_free()` and `main()`, with everything that may fail, over a list of what is held. Proved by an invariant: what is held is, as a multiset, what the context points to
- **C101 Deadly signals and the status bar** — `Model/BarSignal.lean`: when `bfs_bar_show()` and `bfs_bar_hide()` install and remove the hook, and what they write, byte by byte, on the terminal of `Spec/Bar.lean`; a signal may arrive after every byte. Proved for every terminal and all bytes that may have been written; false in full (Findings 79 to 81)
- **C102 The default number of threads** — `Model/Threads.lean`: `bfs_sched_getaffinity()`, the loop of `nproc()` with 64-bit sizes, and the limit in `bfs_ctx_new()`, for every system that is described by what `malloc()`, `sched_getaffinity()` and `sysconf()` say. Proved by induction on the turns of the loop
- **C103 Flags and options count for the tests to the right of them** — `Model/Position.lean`: the calls that parsing makes, in their order, passing on the options of `Model/Options.lean` and `parser->now`, and returning tests parsed by `Model/Tests.lean`. `Spec/Position.lean` says what the settings are by what is to the left. Proved by induction on the calls, from C75 (meaning of every prefix), C45 (order of the primaries) and C90 (the end of the day)
- **C104 Standard input has one reader, and doubtful command lines need consent** — `Model/Ask.lean`: what the parser remembers of the calls (`consume_stdin()`, `depth_expr`, `prune_expr`, `mount_expr`, `xdev_expr`), the end of `parse_whole_expr()`, and `parse_primary()` with the suggestion of `table_lookup_fuzzy()`, over the console of `Model/Prompt.lean`. Proved by induction over the calls, and for the suggestion by induction over the table: it is the first entry at the least distance, so looking it up finds it again.
- **C105 The exit status that others see** — `Model/Exit.lean`: all assignments to the status in `eval_error()`, `eval_exit()`, `bfs_eval()` and `main()`, over histories of errors and `-exit`, and the eight bits that `wait()` returns. By induction over the history; `C105_whole` joins it to the life of the context of C100. In full the property is false (see the findings).
- **C106 Where the search begins** — `Model/Roots.lean`: `parse_whole_expr()` again, with `parse_files0_roots()`, over files that may not be opened or read. `Spec/Roots.lean` says what the roots are by what is on the command line and in the file. Proved from C45 (paths are found by the grammar), C75 (which `-files0-from` counts) and C64 (the names in the file). `C106_search` joins it to the whole program, as in C75.

### Data structures

- **C05–C08 trie** — `Model/Trie.lean`: nodes with bitmaps, offsets and leaves; refinement to an
  insertion-ordered finite map.
- **C95 the trie without memory** — `Model/TrieMem.lean`: the insertion again, with an arbitrary answer to each allocation
  request and what a failed call leaves behind (jump nodes); any history is a refinement of the map of its successful updates.
- **C43 dynamic strings, C44 arenas, C51 lists, C52 bits, C65 ASCII prefixes** — `Model/Dstring.lean`,
  `Alloc.lean`, `List.lean`, `Bit.lean`: refinement to lists, disjoint blocks, sequences, numbers.

## Trusted base

- Lean 4.33.0's kernel. Axioms: at most `propext`, `Classical.choice`, `Quot.sound`; per theorem in the
  table at the end of this file. No `sorry`, `admit`, `native_decide`, `bv_decide`, no own axioms.
- The hand translation from C to Lean, as cited definition by definition. Nothing was extracted
  mechanically.
- The models of what is outside bfs:
  - *Memory model.* Atomics in `ioq.c`, `sighook.c` and `thread.c` are sequentially consistent;
    weaker orderings are not modelled. Non-atomic memory has one cell per address; pointers from the
    system allocator are disjoint and aligned ("honest allocator").
  - *C library.* `strtoll()`, `getdelim()`, `vsnprintf()`, `fwrite()`/`fflush()`/`fclose()`,
    `mbrtowc()`/`iswprint()` (any locale that makes progress), `fnmatch()` and `regexec()` (opaque
    predicates), compiler builtins behind `bit.h`, `mktime()` (a parameter).
  - *Kernel.* `read`/`write`/`getdents`/`readlink`/`stat`/`setrlimit`/`pipe`/`fork`/`execve`/
    `posix_spawn` behave as POSIX or Linux document; each may fail at any time with any error. The
    file system is constant between passes of a deepening search and, for the answers in C55, during
    one visit. Absolute paths mean the same in every working directory.
  - *Databases.* passwd, group and the mount table may give any replies, except as stated in the
    hypotheses (`Honest`, `Fits`).
  - Little-endian integers in the keys of `-unique` and of mount IDs; 64-bit `size_t`, `long`.
- Hypotheses that stand in every statement where they matter (for example: file sizes below 2^62,
  fewer than 2^62 queue tickets) are listed in the note of the manifest.

## What is modelled, and what is not

| File | Modelled | Not modelled |
|---|---|---|
| alloc.c/h | arenas, varenas, `reserve`, `REALLOC` growth | sanitizer annotations |
| bfstd.c | reading, writing, quoting, numbers, dates' helpers, names, ASCII, `xreadlinkat`, `asciinlen`, `nproc` | locale set-up, `xstrerror` |
| bftw.c | all of the traversal, cache, sorting, stat caching, deepening, number of threads | |
| bit.h, list.h, trie.c, dstring.c, typo.c, xtime.c | all operations in use; trie.c also with failing allocations | the clones of trie.c's functions that the compiler makes for processors with `popcnt` |
| color.c | LS_COLORS parsing, the table, extension lookup, file colours, path splitting, `cfprintf()`, stream wrapping | number formatting, memory management of the table |
| ctx.c | defaults, output files, mount table and id caches; creating and freeing the context, with everything that may fail (C100) | |
| dir.c, mtab.c, pwcache.c, stat.c | all, for Linux | other operating systems |
| eval.c | boolean structure, numeric, time, size, mode, type, printing, limits, `-unique`, all tests, `-delete`, exit status, status bar and when it is updated (C97) | |
| exec.c, xspawn.c | all | `_WIN`-like fallbacks (none) |
| ioq.c | all: queue, monitors, threads' loops with and without io_uring, API, setting up and tearing down | the limit on io_uring's workers |
| opt.c | all passes | log output |
| parse.c | grammar, table, numbers, times, modes, patterns, roots and `-files0-from` (C64, C106), all flags, options and tests, the pager, questions | the text of the help, the costs and rates in `-D` output |
| printf.c | all of it | floating point output of `%S`; the text of `strftime()` |
| sighook.c | all | |
| fsade.c, xregex.c | all, for Linux | the regular expression syntaxes, the map of encodings |
| bar.c | all, also signals at every byte that is written (C101); the terminal is a specification (`Spec/Bar.lean`) | |
| main.c | `open_std_streams()`; the order of parsing, optimizing and evaluating (C74, C75, C82); from the context to the exit status (C100, C105) | the locale and the time zone |
| thread.c, version.c | — | all (pthread wrappers) |
| diag.c | messages about arguments and expressions (C89); otherwise as "write to stderr" in C54 | debug output, other formatting |

## Findings

Places where the code does not do what the property says, found while proving. Each is proved as a
`_counterexample` theorem unless marked *(observation)*, which means it was found by reading and is
outside the model or not a violation of a property.

1. Data flow for `-uid`/`-gid` also constrains the case that the test is false, so `-uid 0 -o -uid 1`
   folds wrongly (`C02_counterexample_uid`), and `! -uid 0 ! -nouser -print` prints nothing
   (`C02_counterexample_nouser`).
2. `-size` ranges ignore the unit (`C02_counterexample_size_units`).
3. `-samefile` removes the inode from the false case although the device may differ
   (`C02_counterexample_samefile`).
4. *(observation)* If stat fails, both a range test and its complement are false.
5. *(observation)* Ranges assume non-negative values; inode numbers from 2^63 become negative.
6. *(observation)* Data flow for access tests is unsound for masks of several bits.
7. Symbolic modes without "who": the umask is applied to the first action only
   (`C35_umask_counterexample`); `=` never clears setuid, setgid and sticky (`C35_setuid_counterexample`).
8. Durations overflow (`C34_duration_counterexample`); `-size` overflows near 2^63
   (`C33_overflow_counterexample`).
9. Removing the last signal hook breaks the list's tail pointer: the next registration drops all
   hooks (`C29_lost_counterexample`).
10. Signal 64 shares a list with signal 0 (`C60_collision_counterexample`).
11. `-execdir +` with a root like `foo/` (`C11_trailing_slash`), and the root directory (`C11_root`, 25).
12. *(observation)* `error_is_like()` tests `errno` instead of `error` in the ENOSYS case.
13. `xgetdelim()` compares `chunk[len]` instead of `chunk[len - 1]` (`C66_newline_counterexample`).
14. `xtimegm()` overflows near INT_MIN (`C15_xtimegm_ub_witness`).
15. Deepening reports stat errors twice (`C20_stat_error_counterexample`), read errors under `-depth`
    twice (`C20_read_error_counterexample`), and loses files below pruned paths that are reached twice
    (`C20_prune_counterexample`).
16. Typo distance 0 does not mean equal (`C30_zero_counterexample`).
17. `-exec +`: recovery from E2BIG can drop all buffered arguments (`C09_lost_pair`,
    `C09_lost_with_large`); the exit status shows it.
18. `arc_put()` without semaphores reads freed memory (`C28_spin_counterexample`).
19. Comma and an ignored pure negation (`C02_counterexample_comma_not`).
20. `-print -true , -print` (`C02_counterexample_comma_true`).
21. `trie_find_postfix()` does not find the shortest key as documented (`C07_counterexample_shortest`).
22. Inserting a proper prefix of a key overwrites that key's value (`C05_counterexample_prefix`;
    outside the documented precondition).
23. *(observation)* Quoting relies on tab and newline not being printable in any locale.
24. `-execdir`: if the directory cannot be opened (`C11_open_failure`).
26. The stop marker can overtake requests if a worker is delayed while the others go once around the ring; a worker
    that gets a batch with requests behind the marker then fails its assertion (`C59_stop_counterexample`).
27. *(observation)* A slot's skip counter wraps after 2^62 pops.
28. *(observation)* `bftw_cache_add()`'s failure path would miscount, but is unreachable (`C24_safe`).
29. `-xdev -depth`: mount points are never printed by BFS, DFS and EDS, but are by IDS
    (`C20_mount_counterexample`).
30. The root `./` counts as hidden (`C62_hidden_counterexample`).
31. *(observation)* Dates with out-of-range fields are accepted and carried over.
32. LS_COLORS' "smart case" rule (`C41_smart_case_counterexample`, `C41_override_counterexample`).
33. *(observation)* `-x` is a flag in the table but parsed as an option; `-nohidden` likewise.
34. `bit_ceil()` above half the range (`C52_ceil_overflow`).
35. If `fork()` fails, errno becomes 0: `-exec` silently fails and bfs exits 0
    (`C67_fork_counterexample`).
36. *(observation)* dstring capacities above 2^63 would hit 34.
37. *(observation)* `arena_init()`'s last assertion fails for alignments below 8 with odd sizes.
38. *(observation)* `-unique` skips files that cannot be examined or remembered.
39. A relative command with a slash is checked in bfs's own directory (`C68_direct_counterexample`).
40. Open actions leak a descriptor into the command (`C68_leak_counterexample`).
41. *(observation)* FreeBSD union mounts: out of memory loses the entry.
42. A followed stat answer can change within one visit if the file system does
    (`C55_stable_counterexample`).
43. *(observation)* One EPERM from `statx()` disables it for the rest of the process.
45. *(observation)* An asynchronous result that is a link records ENOENT even if the error was ENOTDIR.
46. `bftw_type()` returns an error without setting errno, so `%Y` depends on a stale errno
    (`C69_counterexample`).
47. `-noerror`: a failed print is forgotten, output is lost and the status is 0
    (`C54_noerror_counterexample`).
48. `-exit 0` after a failed print: the same (`C54_exit_counterexample`).
49. *(observation)* `close()` errors on stdout are not checked; stdout is only flushed.
50. `-S ids -depth -unique`: hard links are all visited (`C70_unique_counterexample`).
51. *(observation)* `-S ids -depth -X` reports an unsafe path of a non-directory twice.
52. *(observation)* When `cfprintf()` fails while it prints a reset (memory), `need_reset` is cleared
    although nothing is written, so that the colour stays on until the next coloured text.
53. *(observation)* `-delete` skips only the path `.`; with the root `./` it reports an error for it.
54. A width or precision over `INT_MAX` in a `-printf` format is accepted, but then every file is an error
    (`C76_wide`).
55. `1900 + tm_year` overflows for files with times in the last years `localtime()` knows
    (`C76_year_counterexample`).
56. *(observation)* `%S` divides by zero if a file of size 0 has blocks (it prints `inf`).
57. `%T@` of a time before 1970 with a fraction of a second is wrong (`C78_counterexample`).
58. `-ls` of a link that cannot be read does not end its line (`C79_link_counterexample`), and reports the error
    as one of the standard output.
59. `-ls` does not check that the file system has a time of modification (`C79_mtime_counterexample`).
60. `-iname` without wildcards ignores case only of single bytes, so that `-iname É` does not find `é` in UTF-8,
    but `-iname 'É*'` does (`C81_counterexample`).
61. Inode numbers and link counts of 2^63 and above compare as negative numbers (`C80_inum_counterexample`).
62. `-newer FILE` does not check that FILE has a time of modification (`C80_newer_counterexample`).
63. `-nouser` and `-nogroup` are true if the lookup fails (`C80_nouser_counterexample`); the error is reported.
64. *(observation)* `-uid` and `-gid` accept names, and `-user 123` prefers a user who is called `123`.
65. `-ok` shows words separated by spaces and file names as they are, so that the question for `rm 'a /b'` is that for `rm a /b`
    (`C83_question_counterexample`), and file names may contain terminal escape sequences.
66. *(observation)* `xgetdelim()` compares `chunk[len]`, which is always the NUL, with the delimiter, so that the newline is never
    removed: the answers to `-ok` that `YESEXPR` and `NOEXPR` are matched against end with one.
67. With Oniguruma, `-regex 'a|ab'` does not match a file called `ab`, since `onig_match()` returns the first match that it finds and
    not the longest one (`C85_onig_counterexample`).
68. *(observation)* With Oniguruma, `bfs_regcomp()` reads the options of a syntax before the syntaxes are initialized, so that the
    first expression of type `findutils-default` would lack `ONIG_OPTION_MULTILINE` if the library did not add it
    (`C85_options_counterexample`); and the locale `GB18030` is mapped to the encoding `BIG5`.
69. If one of the two ACLs of a directory can't be read and the other one is trivial, `-acl` is false and no error is reported
    (`C86_acl_error_counterexample`).
70. `bfs_getfilecon()` does not free the path it made, so that `-context` loses memory for each file (`C86_context_leak`).
71. White space like a newline in the name of a directory is written to the status bar as it is, since `WESC_TTY` only escapes what is neither printable nor
    white space: the rest of the name overwrites its beginning (`C87_newline_counterexample`). It stays in the last row, though (`C87_contained`).
72. When the last column has just been filled, showing or hiding the status bar erases the character in it (`C87_hide_counterexample`).
73. `-daystart` keeps the `tm_isdst` of the current time for the next midnight, so that on the morning of a day on which clocks are changed it takes an hour before or
    after midnight instead (`C90_twice_counterexample`); days are always 24 hours long, so that on a long day a file from this morning is one from yesterday
    (`C90_long_day_counterexample`); and a file from exactly midnight belongs to the day before (`C90_midnight_counterexample`).
74. A thread that uses io_uring takes no new request before all those in its ring are done: `ioq_ring_prep()` starts with an empty batch each time, and a non-blocking
    `ioq_batch_pop()` returns nothing for the first eight times (`C92_barrier`). One slow request holds up everything behind it in that thread.
75. With `-unique` and `-maxdepth`, `-S dfs` can lose files: a directory first found at the greatest depth is not gone into, and when it is found again
    higher up it is skipped (`C70_unique_depth_counterexample`).
76. The command line that `-D` shows leaves out `-noerror` (`C96_noerror_hidden`), and prints the name of the program without quotes. With an empty list of
    `-files0-from`, it shows no path, which would mean `.`.
77. With `-O4`, bfs may succeed although a directory could not be read, if nothing would have been done with the files in it (`bfs a -false`: `C74_status_counterexample`). Up to
    `-O3` the exit status does not depend on the level (`C74_status_default_partial`).
78. If the status bar is hidden by `SIGUSR1` while its timer has fired since the last file, `eval_callback()` goes on to call `eval_status()` with a null `bar`, which is
    dereferenced (`C97_crash_counterexample`). With `-status`, an update is pending from the start, so a signal before the first file is enough.
79. `bfs_bar_hide()` removes its hook for deadly signals before it resets the terminal. A signal in between leaves a terminal whose last row doesn't scroll
    (`C101_hide_counterexample`).
80. If a deadly signal cuts off the `write()` of an update (for example when the terminal is stopped with Ctrl-S), the cursor stays in the status bar and reverse video stays
    on, because the reset sequence saves and restores both (`C101_reverse_counterexample`).
81. If `SIGWINCH` cuts off the `write()` of an update, the rest of the update, which `xwrite()` writes after the handler, is printed as text (`C101_winch_counterexample`).
82. Two `-ok` or `-okdir` on one command line are refused ("can't both use standard input"), even if only one of them can be reached for any file; POSIX allows any number of them
    (`C104_two_readers`).
83. With `-files0-from -` on a terminal, the question whether to go on in spite of `-prune` with `-depth` is asked after standard input was read to its end, so it can't be answered with yes
    (`C104_accepted`). `consume_stdin()` doesn't know about questions.
84. `-exit 256` is accepted, but the parent process sees status 0 (`C105_number_counterexample`); with a multiple of 256, lost output isn't seen either, because `main()` compares the number
    before it is truncated (`C105_lost_counterexample`).
85. `-exit` without a number, or with 0, hides all errors that came before it (`C105_hidden_counterexample`).
86. If the file of `-files0-from` can be opened but not read, such as a directory, `parse_files0_roots()` fails without any message (`C106_silent`).
## Axioms per theorem

P = `propext`, C = `Classical.choice`, Q = `Quot.sound`, – = none. From `#print axioms`.

| Property | Theorems |
|---|---|
| C01 | **PCQ**: C01_same_effects, C01_same_sequence, C01_same_result |
| C02 | **PCQ**: C02_same_effects_partial; **PQ**: C02_counterexample_size_units, C02_counterexample_uid, C02_counterexample_nouser, C02_counterexample_samefile, C02_counterexample_comma_not, C02_counterexample_comma_true |
| C03 | **PCQ**: C03_reorder_same_effects, C03_reorder_same_actions |
| C04 | **PCQ**: C04_skipped_has_no_effect_partial, C04_pruned_has_no_effect_partial |
| C05 | **PCQ**: C05_trie_is_finite_map, C05_trie_is_finite_map_strings, C05_trie_is_finite_map_fixed, C05_counterexample_prefix |
| C06 | **PCQ**: C06_longest_prefix |
| C07 | **PCQ**: C07_postfix_search, C07_counterexample_shortest |
| C08 | **PCQ**: C08_iteration_in_insertion_order |
| C09 | **PCQ**: C09_in_order, C09_status, C09_exactly_once_partial; **P**: C09_lost_pair, C09_lost_with_large |
| C10 | **PCQ**: C10_bookkeeping, C10_retry, C10_terminates, C10_batch_limit, C10_arg_max |
| C100 | **PCQ**: C100_clean, C100_status, C100_success, C100_stderr |
| C101 | **PQ**: C101_show, C101_deadly_partial, C101_hidden; **PCQ**: C101_between; **P**: C101_hide_counterexample, C101_reverse_counterexample, C101_winch_counterexample |
| C102 | **PCQ**: C102_nproc, C102_ends, C102_default, C102_bounds; **PQ**: C102_fallback; **P**: C102_held |
| C103 | **PCQ**: C103_position, C103_tests, C103_determined, C103_accepts, C103_right, C103_files, C103_regex, C103_ages, C103_daystart, C103_first; **P**: C103_order; **PQ**: C103_others |
| C104 | **PCQ**: C104_accepted, C104_total, C104_consent, C104_unasked, C104_silent, C104_warned, C104_two_readers, C104_ignored, C104_ignored_unasked, C104_known, C104_misspelled; **PQ**: C104_ignored_shown |
| C105 | **PCQ**: C105_success_partial, C105_failure_partial, C105_whole; **P**: C105_exit_partial, C105_exit, C105_hidden_counterexample; **–**: C105_number_counterexample, C105_lost_counterexample |
| C106 | **PCQ**: C106_iff, C106_empty, C106_any_name, C106_conflict, C106_silent, C106_search, C106_search_default_partial |
| C11 | **PCQ**: C11_one_directory_partial, C11_exec_cwd; **P**: C11_trailing_slash, C11_root, C11_open_failure |
| C12 | **PQ**: C12_substitution, C12_single, C12_single_status, C12_multi_template |
| C13 | **PCQ**: C13_shell_round_trip |
| C14 | **PQ**: C14_never_truncated, C14_any_buffer |
| C15 | **PCQ**: C15_xtimegm_exact, C15_xtimegm_normalises, C15_xtimegm_total_partial; **P**: C15_xtimegm_ub_witness |
| C16 | **PCQ**: C16_zoned, C16_local, C16_rejects, C16_unambiguous, C16_epoch, C16_defined |
| C17 | **PCQ**: C17_timespec_add, C17_timespec_add_defined, C17_timespec_sub, C17_timespec_sub_defined, C17_timespec_cmp, C17_timespec_minmax; **–**: C17_timespec_sharp |
| C18 | **PCQ**: C18_safe, C18_once, C18_directories_first, C18_sound, C18_complete, C18_everything, C18_progress, C18_terminates |
| C19 | **PCQ**: C19_last, C19_exactly, C19_everything, C19_none |
| C20 | **PCQ**: C20_walk, C20_deepening_partial, C20_same_partial, C20_window_partial, C20_breadth_partial, C20_errors_partial, C20_passes_partial, C20_walk_post, C20_eds_post_partial, C20_ids_post_partial, C20_post_same_partial, C20_post_errors_partial, C20_calls_partial, C20_anytime_partial, C20_stop_partial, C20_unstopped_partial; **PQ**: C20_prune_counterexample, C20_mount_counterexample, C20_stat_error_counterexample, C20_read_error_counterexample |
| C21 | **PCQ**: C21_decision, C21_pruned, C21_exact, C21_stop |
| C22 | **PCQ**: C22_sort, C22_visits |
| C23 | **PCQ**: C23_path, C23_build; **P**: C23_join |
| C24 | **PCQ**: C24_safe, C24_capacity, C24_in_use, C24_candidates, C24_evictions, C24_room, C24_freed, C24_end |
| C25 | **PCQ**: C25_conservation, C25_exactly_once, C25_delivered, C25_quiescent, C25_blocking_pop, C25_wrap |
| C26 | **PCQ**: C26_no_lost_wakeup, C26_stuck, C26_mutual_exclusion |
| C27 | **PCQ**: C27_capacity, C27_refused, C27_order, C27_cancel, C27_safe, C27_pop |
| C28 | **PCQ**: C28_safe, C28_in_use, C28_freed, C28_handlers_never_wait, C28_writer_waits_for_handlers; **PQ**: C28_spin_counterexample |
| C29 | **PCQ**: C29_registered_partial, C29_handler; **PQ**: C29_lost_counterexample |
| C30 | **PCQ**: C30_least, C30_symmetric, C30_equal, C30_triangle; **PQ**: C30_small, C30_suggestion; **P**: C30_zero_counterexample |
| C31 | **PCQ**: C31_int, C31_prefix, C31_range, C31_icmp, C31_looks; **PQ**: C31_base |
| C32 | **PCQ**: C32_partition |
| C33 | **PCQ**: C33_argument, C33_size_partial, C33_sparse_partial; **–**: C33_overflow_counterexample; **PQ**: C33_overflow_sharp |
| C34 | **PCQ**: C34_argument_partial, C34_age, C34_future, C34_used; **P**: C34_duration_counterexample; **PQ**: C34_newer |
| C35 | **PCQ**: C35_grammar, C35_defined, C35_symbolic_partial, C35_octal; **PQ**: C35_disjoint, C35_umask_counterexample, C35_setuid_counterexample |
| C36 | **PQ**: C36_prefix, C36_equal, C36_all; **PCQ**: C36_any, C36_octal_means |
| C37 | **PCQ**: C37_directory, C37_same_file, C37_root_name; **PQ**: C37_name, C37_root |
| C38 | **PCQ**: C38_sound, C38_complete, C38_rejects, C38_unambiguous, C38_verbatim, C38_stop, C38_output, C38_failures, C38_specifier |
| C39 | **PQ**: C39_cases; **PCQ**: C39_base, C39_dir, C39_slashes, C39_no_slash, C39_recombine |
| C40 | **PCQ**: C40_decode, C40_malformed, C40_error, C40_unambiguous, C40_literal, C40_settings, C40_settings_rejects |
| C41 | **PCQ**: C41_color, C41_last, C41_none, C41_exact, C41_ls_colors; **P**: C41_two_cases; **PQ**: C41_smart_case_counterexample, C41_override_counterexample |
| C42 | **PCQ**: C42_read_full, C42_read_short, C42_read_safe, C42_write_full, C42_write_short |
| C43 | **PCQ**: C43_terminated, C43_step, C43_dup, C43_cstring, C43_repeat |
| C44 | **PCQ**: C44_arena_separate, C44_arena_alloc, C44_arena_free, C44_arena_init, C44_separate, C44_defined, C44_alloc, C44_realloc, C44_grow, C44_free, C44_reuse, C44_init, C44_reserve |
| C45 | **PCQ**: C45_iff, C45_rejects, C45_unambiguous, C45_names, C45_flag_group, C45_flag_group_value; **–**: C45_expressible, C45_precedence |
| C46 | **PCQ**: C46_search, C46_once, C46_first |
| C47 | **PCQ**: C47_history, C47_stable, C47_fresh |
| C48 | **PCQ**: C48_resolve, C48_resolve_direct, C48_search; **PQ**: C48_copy |
| C49 | **PQ**: C49_eval_iff_runs, C49_nothing_after_quit |
| C50 | **PQ**: C50_compare, C50_antisymmetric, C50_total, C50_raise_result, C50_children, C50_budget, C50_count; **–**: C50_transitive; **PCQ**: C50_equal, C50_raise, C50_split |
| C51 | **PCQ**: C51_step, C51_history, C51_attached; **P**: C51_init, C51_double_init; **–**: C51_item_init; **PQ**: C51_double_history, C51_double_attached |
| C52 | **PCQ**: C52_count, C52_leading, C52_trailing, C52_ones_at_ends, C52_first, C52_single, C52_width, C52_floor, C52_ceil, C52_ceil_overflow, C52_load_le, C52_load_be; **PQ**: C52_rotate, C52_rotate_inverse, C52_bswap |
| C53 | **PCQ**: C53_permissions, C53_type, C53_determines; **PQ**: C53_length |
| C54 | **PCQ**: C54_safe, C54_shared, C54_count, C54_status_partial, C54_flush, C54_no_false_alarm, C54_not_silent; **P**: C54_noerror_counterexample, C54_exit_counterexample |
| C55 | **P**: C55_bfs_stat, C55_stable_counterexample; **PCQ**: C55_start, C55_answers, C55_pointers, C55_stable, C55_save; **PQ**: C55_options, C55_recycle |
| C56 | **PCQ**: C56_prefix, C56_end, C56_end_final, C56_complete, C56_empty, C56_empty_error, C56_readdir_prefix, C56_readdir_end |
| C57 | **PCQ**: C57_parse, C57_names, C57_type, C57_succeeds |
| C58 | **PCQ**: C58_no_control, C58_ascii_prefix |
| C59 | **PCQ**: C59_worker, C59_flush, C59_iteration, C59_stop_partial; **PQ**: C59_stop_counterexample |
| C60 | **P**: C60_table; **PQ**: C60_dispatch_partial, C60_oneshot; **–**: C60_fault, C60_collision_counterexample |
| C61 | **PCQ**: C61_errors, C61_freed |
| C62 | **PQ**: C62_name; **PCQ**: C62_root, C62_hidden_partial; **P**: C62_hidden_counterexample |
| C63 | **PCQ**: C63_link, C63_stable; **PQ**: C63_one_call |
| C64 | **PCQ**: C64_files0, C64_error, C64_round_trip |
| C65 | **PCQ**: C65_ascii; **PQ**: C65_bounds |
| C66 | **PCQ**: C66_chunk_partial; **P**: C66_newline_counterexample |
| C67 | **PCQ**: C67_outcome_partial, C67_direct_partial, C67_truthful, C67_fork_counterexample |
| C68 | **PCQ**: C67_outcome_partial, C68_open_partial, C68_no_pipe, C68_leak_counterexample, C68_direct_counterexample |
| C69 | **PCQ**: C69_type, C69_xtype, C69_letter_partial; **PQ**: C69_counterexample |
| C70 | **PCQ**: C70_once, C70_sound, C70_stop, C70_exact_partial, C70_order, C70_unique_partial, C70_unique_complete, C70_unique_ends, C70_status_partial, C70_deepening_partial, C70_eds_post_partial, C70_ids_post_partial, C70_deepened_partial, C70_anytime_partial, C70_memory_once, C70_memory_sound_partial, C70_memory_exact_partial; **PQ**: C70_unique_depth_counterexample, C70_unique_counterexample |
| C71 | **PCQ**: C71_format, C71_plain, C71_plain_path, C71_atomic; **PQ**: C71_closed, C71_closed_files |
| C72 | **PCQ**: C72_table, C72_malformed, C72_name, C72_text, C72_no_control, C72_existing, C72_framed |
| C73 | **PCQ**: C73_anytime, C73_exact, C73_only, C73_tree, C73_empty, C73_status |
| C74 | **PCQ**: C74_output, C74_output_optimized_partial, C74_status, C74_status_default_partial, C74_status_optimized_partial, C74_status_counterexample, C74_lines, C74_lines_optimized_partial, C75_search_optimized_partial |
| C75 | **PCQ**: C75_iff, C75_total, C75_settings, C75_before, C75_order, C75_search |
| C76 | **PCQ**: C76_printf, C76_unique, C76_shows, C76_depth, C76_mode, C76_sparse, C76_wide, C76_year_counterexample |
| C77 | **PCQ**: C77_sorted, C77_chronological |
| C78 | **PCQ**: C78_number_partial, C78_counterexample |
| C79 | **PCQ**: C79_ls_partial, C79_link_counterexample, C79_mtime_counterexample |
| C80 | **PCQ**: C80_accepts, C80_only, C80_defined, C80_means_partial, C80_inum_counterexample, C80_newer_counterexample, C80_nouser_counterexample |
| C81 | **PCQ**: C81_matches_partial, C81_literal, C81_counterexample; **PQ**: C81_dangling, C81_accepts |
| C82 | **PCQ**: C82_output, C82_lines, C82_unique, C82_output_optimized_partial, C82_lines_optimized_partial |
| C83 | **PCQ**: C83_ok, C83_consent, C83_refused; **P**: C83_single; **PQ**: C83_question_partial; **–**: C83_question_counterexample |
| C84 | **PQ**: C84_accepted; **PCQ**: C84_safe |
| C85 | **PCQ**: C85_posix, C85_test, C85_onig_dollar; **–**: C85_posix_search, C85_onig_partial, C85_onig_counterexample; **P**: C85_invalid, C85_options, C85_options_counterexample |
| C86 | **PQ**: C86_right, C86_no_leak_partial, C86_context_leak; **P**: C86_acl_error_counterexample |
| C87 | **PCQ**: C87_setup, C87_setup_keeps, C87_update, C87_shows, C87_transparent, C87_life, C87_held, C87_columns, C87_line, C87_contained; **PQ**: C87_small, C87_stays, C87_hide, C87_newline_counterexample; **P**: C87_hide_counterexample |
| C88 | **PQ**: C88_streams, C88_failure, C88_starts; **P**: C88_open |
| C89 | **PCQ**: C89_underlined, C89_colors, C89_expression, C89_arguments |
| C90 | **PCQ**: C90_reference, C90_days_partial, C90_twice_partial, C90_ages_only, C90_position; **–**: C90_midnight_counterexample, C90_long_day_counterexample, C90_twice_counterexample, C90_tomorrow_counterexample |
| C91 | **PCQ**: C91_parse, C91_over, C91_at_most, C91_reason, C91_raise, C91_results, C91_exact_partial, C91_optimized |
| C92 | **PCQ**: C92_once, C92_answers, C92_descriptors, C92_bounded, C92_no_crash_partial, C92_exit, C92_ends; **P**: C92_stop_counterexample; **PQ**: C92_barrier |
| C93 | **PQ**: C93_printx, C93_like_print, C93_X_all; **PCQ**: C93_X |
| C94 | **PCQ**: C94_calls, C94_plus_total, C94_plus_order, C94_plus_status, C94_plus_all_partial, C94_execdir_partial, C94_exec_cwd, C94_each, C94_matches_partial, C94_whole_partial, C94_limit_partial; **PQ**: C94_status |
| C95 | **PCQ**: C95_contents, C95_failures, C95_refused, C95_searches |
| C96 | **PCQ**: C96_round_trip, C96_distinct, C96_again, C96_noerror_hidden; **PQ**: C96_unambiguous, C96_mount_xdev |
| C97 | **PCQ**: C97_held, C97_safe_partial, C97_crash, C97_updates, C97_callback, C97_start, C97_show, C97_crash_counterexample |
| C98 | **PCQ**: C98_create, C98_rings, C98_work, C98_fds |
| C99 | **PCQ**: C99_help, C99_pager, C99_works |
