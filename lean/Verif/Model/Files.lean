import Verif.Model.C

/-!
# Output files: opening, sharing, flushing, closing, exit status

Models the part of `src/ctx.c` that tracks the files bfs writes to, together with its callers in
`src/parse.c` (`expr_open()`), `src/eval.c` (`eval_error()`, `eval_io_error()`), `src/color.c`
(`cfwrap()`, `cfclose()`) and `src/main.c`.

Simplifications, for the whole file:
* `struct trie files` is an association list in insertion order, which is how `for_trie` walks it
  (that a trie behaves as a map is a separate set of theorems).
* A stdio stream and the `CFILE` wrapped around it are one record, with separate flags for "the
  `CFILE` is allocated" and "the `FILE` is open".
* What the C library and the kernel answer is an argument of every function (`Io`, `DedupIo`, …),
  so that the theorems hold for all of them.
* Fields marked "ghost" are not in the program.
-/

namespace Verif.Files

abbrev Bytes := List UInt8

/-- A file's identity, `bfs_file_id`, src/stat.h:112 (device and inode numbers). -/
abbrev FileId := Nat × Nat

/-- `EXIT_SUCCESS`, `EXIT_FAILURE`. -/
def EXIT_SUCCESS : Nat := 0
def EXIT_FAILURE : Nat := 1

/-- The outcome of `fwrite()`, `fflush()` or `fclose()`.

`done k`: success; a write passes the first `k` bytes of the buffered data on to the kernel.
`fail k keep e`: failure with a non-zero `errno` (`e + 1`), after the first `k` bytes reached the
kernel; the stream's buffer is left with arbitrary contents `keep`. -/
inductive Io where
  | done (k : Nat)
  | fail (k : Nat) (keep : Bytes) (e : Nat)

/-- A `CFILE` and its `FILE`, src/color.h:34-47. -/
structure Strm where
  /-- The file that is open. -/
  id : FileId
  /-- `cfile->colors` is not `NULL`. -/
  colors : Bool := false
  /-- `cfile->close`. -/
  close : Bool := false
  /-- The `CFILE` is allocated. -/
  live : Bool := false
  /-- The `FILE` is open. -/
  isOpen : Bool := true
  /-- `ferror()`. -/
  err : Bool := false
  /-- The bytes buffered by the stream. -/
  pend : Bytes := []
  /-- The bytes the kernel accepted from this stream, in order. -/
  sink : Bytes := []
  /-- Ghost: the bytes the program wanted to write to this stream, in order. -/
  given : Bytes := []
  /-- Ghost: some write, flush or close of this stream failed. -/
  lost : Bool := false
  deriving DecidableEq

/-- `fwrite()` (C11 7.21.8.2): sets the error indicator if it fails. -/
def fwrite (s : Strm) (data : Bytes) : Io → Strm × Bool
  | .done k => ({ s with
      sink := s.sink ++ (s.pend ++ data).take k
      pend := (s.pend ++ data).drop k
      given := s.given ++ data }, true)
  | .fail k keep _ => ({ s with
      sink := s.sink ++ (s.pend ++ data).take k
      pend := keep
      given := s.given ++ data
      err := true
      lost := true }, false)

/-- `fflush()` (C11 7.21.5.2): 0 or an `errno`. -/
def fflush (s : Strm) : Io → Strm × Nat
  | .done _ => ({ s with sink := s.sink ++ s.pend, pend := [] }, 0)
  | .fail k keep e => ({ s with
      sink := s.sink ++ s.pend.take k
      pend := keep
      err := true
      lost := true }, e + 1)

/-- `fclose()` (C11 7.21.5.1): closes the stream even if it fails. -/
def fclose (s : Strm) (io : Io) : Strm × Nat :=
  ({ (fflush s io).1 with isOpen := false }, (fflush s io).2)

/-- `struct bfs_ctx_file`, src/ctx.c:97-106. -/
structure CtxFile where
  /-- `ctx_file->cfile`, an index into `W.strms`. -/
  cfile : Nat
  /-- `ctx_file->path`. -/
  path : Option String
  /-- `ctx_file->hook` is not `NULL`. -/
  hook : Bool
  /-- `ctx_file->error`. -/
  error : Nat
  deriving DecidableEq

/-- An action that prints: `expr->cfile` and `expr->path`, src/expr.h. -/
structure Act where
  cfile : Nat
  path : Option String
  /-- Ghost: the file the command line named. -/
  id : FileId
  deriving DecidableEq

/-- The parts of `struct bfs_ctx` (src/ctx.h:28-129) and `struct callback_args` in use here. -/
structure W where
  /-- All streams ever opened. 0 is stderr, 1 is stdout. -/
  strms : List Strm
  /-- `ctx->files`: the leaf values; `none` is a `NULL` value. -/
  files : List (FileId × Option CtxFile) := []
  /-- `ctx->cout`. -/
  cout : Option Nat := none
  /-- `ctx->cerr`. -/
  cerr : Option Nat := none
  /-- `ctx->nfiles`. -/
  nfiles : Nat := 0
  /-- `ctx->ignore_errors`. -/
  ignore : Bool := false
  /-- The streams with a `cfreset_hook()` registered. -/
  hooks : List Nat := []
  /-- The parsed actions that print. -/
  acts : List Act := []
  /-- `args.ret`. -/
  ret : Nat := EXIT_SUCCESS

/-- Replace a stream. -/
def W.put (w : W) (h : Nat) (s : Strm) : W := { w with strms := w.strms.set h s }

/-- Access an open `FILE`. Using a closed one is undefined behaviour. -/
def W.file (w : W) (h : Nat) : Out Strm :=
  match w.strms[h]? with
  | some s => if s.isOpen then .ok s else .ub
  | none => .ub

/-- Access a `CFILE`. Using a freed one is undefined behaviour. -/
def W.cfile (w : W) (h : Nat) : Out Strm :=
  match w.strms[h]? with
  | some s => if s.live then .ok s else .ub
  | none => .ub

/-- The `FILE` of a `CFILE`: `cfile->file`. -/
def W.cffile (w : W) (h : Nat) : Out Strm := do
  let _ ← w.cfile h
  w.file h

/-- `cfwrap()`, src/color.c:729-753. `tty`: `colors` is not `NULL` and the file is a terminal.
`mem` is whether the allocations succeed. -/
def cfwrap (w : W) (h : Nat) (tty close mem : Bool) : Out (W × Bool) := do
  let s ← w.file h
  if mem then
    .ok (w.put h { s with live := true, colors := tty, close := close }, true)
  else
    .ok (w, false)

/-- `cfclose()`, src/color.c:755-769: frees the `CFILE`, and closes the `FILE` if it is owned.
Freeing a `CFILE` twice is undefined behaviour; so is freeing one that a registered signal hook
still refers to, since the signal may arrive at any moment. -/
def cfclose (w : W) (h : Nat) (io : Io) : Out (W × Nat) := do
  let s ← w.cfile h
  if w.hooks.contains h then .ub
  else if s.close then do
    let f ← w.file h
    .ok (w.put h { (fclose f io).1 with live := false }, (fclose f io).2)
  else
    .ok (w.put h { s with live := false }, 0)

/-- `cfclose()` of a pointer that may be `NULL`. -/
def cfcloseOpt (w : W) (h : Option Nat) (io : Io) : Out W :=
  match h with
  | none => .ok w
  | some h => do
    let r ← cfclose w h io
    .ok r.1

/-- What is written to `ctx->cerr` for one diagnostic. The results are ignored. -/
abbrev Msg := List (Bytes × Io)

/-- The writes of a diagnostic, one after the other. -/
def writeAll (s : Strm) : Msg → Strm
  | [] => s
  | (d, io) :: rest => writeAll (fwrite s d io).1 rest

/-- `bfs_error()`, `bfs_warning()`, `bfs_perror()`, …, src/diag.c:107-136: write to `ctx->cerr`. -/
def message (w : W) (m : Msg) : Out W :=
  match w.cerr with
  | none => .ok w
  | some h => do
    let s ← w.cffile h
    .ok (w.put h (writeAll s m))

/-- What can go wrong in `bfs_ctx_dedup()`: each flag says whether that call succeeds. -/
structure DedupIo where
  /-- `bfs_stat()` -/
  stat : Bool := true
  /-- `trie_insert_mem()` of a new key -/
  insert : Bool := true
  /-- `ALLOC(struct bfs_ctx_file)` -/
  alloc : Bool := true
  /-- `atsigexit()` -/
  hook : Bool := true

/-- `trie_find_mem()` on `ctx->files`. -/
def lookup (files : List (FileId × Option CtxFile)) (id : FileId) : Option (Option CtxFile) :=
  (files.find? (fun e => e.1 = id)).map (·.2)

/-- Assignment to `leaf->value` of an existing leaf. -/
def setLeaf (files : List (FileId × Option CtxFile)) (id : FileId) (v : Option CtxFile) :
    List (FileId × Option CtxFile) :=
  files.map fun e => if e.1 = id then (id, v) else e

/-- `trie_remove()`. -/
def removeLeaf (files : List (FileId × Option CtxFile)) (id : FileId) :
    List (FileId × Option CtxFile) :=
  files.filter fun e => e.1 ≠ id

/-- `++ctx->nfiles` for all files but the standard streams, `bfs_ctx_dedup()`,
src/ctx.c:113-160. -/
def countFile (w : W) (h : Nat) : Nat :=
  if w.cout ≠ some h ∧ w.cerr ≠ some h then w.nfiles + 1 else w.nfiles

/-- The second half of `bfs_ctx_dedup()`, src/ctx.c:113-160: the leaf exists, without a value. -/
def dedupNew (w : W) (h : Nat) (s : Strm) (path : Option String) (o : DedupIo) : W × Option Nat :=
  if o.alloc then
    if s.colors then
      if o.hook then
        ({ w with
            files := setLeaf w.files s.id (some ⟨h, path, true, 0⟩)
            hooks := h :: w.hooks
            nfiles := countFile w h }, some h)
      else
        ({ w with
            files := removeLeaf w.files s.id }, none)
    else
      ({ w with
          files := setLeaf w.files s.id (some ⟨h, path, false, 0⟩)
          nfiles := countFile w h }, some h)
  else
    ({ w with
        files := removeLeaf w.files s.id }, none)

/-- `bfs_ctx_dedup()`, src/ctx.c:113-160. -/
def dedup (w : W) (h : Nat) (path : Option String) (o : DedupIo) : Out (W × Option Nat) := do
  let s ← w.cfile h
  if o.stat then
    match lookup w.files s.id with
    | some (some cf) =>
      .ok ({ w with
        files := setLeaf w.files s.id (some { cf with path := path }) }, some cf.cfile)
    | some none => .ok (dedupNew w h s path o)
    | none =>
      if o.insert then
        .ok (dedupNew { w with
          files := w.files ++ [(s.id, none)] } h s path o)
      else .ok (w, none)
  else .ok (w, none)

/-- What can happen while opening a file. -/
structure OpenIo where
  /-- `xfopen()`: the file that was opened, if any. -/
  file : Option FileId
  /-- Colours are on, and the file is a terminal. -/
  tty : Bool
  /-- The allocations in `cfwrap()`. -/
  mem : Bool
  dedup : DedupIo
  /-- The result of closing the file again. -/
  close : Io
  /-- The diagnostic, if it fails. -/
  msg : Msg

/-- `expr_open()`, src/parse.c:335-372: after `bfs_ctx_dedup()`. -/
def openDone (w : W) (h : Nat) (path : String) (id : FileId) (o : OpenIo) :
    Option Nat → Out (W × Bool)
  | some d =>
    if d ≠ h then do
      let r ← cfclose w h o.close
      .ok ({ r.1 with
        acts := r.1.acts ++ [⟨d, some path, id⟩] }, true)
    else
      .ok ({ w with
        acts := w.acts ++ [⟨d, some path, id⟩] }, true)
  | none => do
    let w ← message w o.msg
    let r ← cfclose w h o.close
    .ok (r.1, false)

/-- `expr_open()`, src/parse.c:335-372: after `cfwrap()`. -/
def openWrapped (w : W) (h : Nat) (path : String) (id : FileId) (o : OpenIo) (ok : Bool) :
    Out (W × Bool) :=
  if ok then do
    let r ← dedup w h (some path) o.dedup
    openDone r.1 h path id o r.2
  else do
    let w ← message w o.msg
    let f ← w.file h
    .ok (w.put h (fclose f o.close).1, false)

/-- `expr_open()`, src/parse.c:335-372. -/
def exprOpen (w : W) (path : String) (o : OpenIo) : Out (W × Bool) :=
  match o.file with
  | none => do
    let w ← message w o.msg
    .ok (w, false)
  | some id => do
    let r ← cfwrap { w with
      strms := w.strms ++ [{ id := id }] } w.strms.length o.tty true o.mem
    openWrapped r.1 w.strms.length path id o r.2

/-- `init_print_expr()`, src/parse.c:327-330. -/
def initPrint (w : W) : Out W :=
  match w.cout with
  | none => .ub
  | some c => do
    let s ← w.cfile c
    .ok { w with
      acts := w.acts ++ [⟨c, none, s.id⟩] }

/-- What can happen for one file in `bfs_ctx_flush()` and `bfs_ctx_fclose()`. -/
structure FlushIo where
  flush : Io
  close : Io
  msg : Msg

/-- Whether `bfs_ctx_flush()` and `bfs_ctx_fclose()` print a diagnostic,
src/ctx.c:176-181 and 241-245. -/
def named (w : W) (cf : CtxFile) : Bool := cf.path.isSome || w.cout == some cf.cfile

/-- Print a diagnostic about a file, if there is a name for it. -/
def complain (w : W) (cf : CtxFile) (m : Msg) : Out W :=
  if named w cf then message w m else .ok w

/-- One iteration of `bfs_ctx_flush()`, src/ctx.c:162-189. -/
def flushOne (w : W) (cf : CtxFile) (o : FlushIo) : Out (W × CtxFile) := do
  let s ← w.cffile cf.cfile
  if (fflush s o.flush).2 = 0 then
    .ok (w.put cf.cfile (fflush s o.flush).1, cf)
  else do
    let w' ← complain (w.put cf.cfile { (fflush s o.flush).1 with err := false }) cf o.msg
    .ok (w', { cf with error := (fflush s o.flush).2 })

/-- The loop of `bfs_ctx_flush()`, src/ctx.c:162-189. The environment's answers depend on the
stream. Returns the updated leaf values. -/
def flushLoop (o : Nat → FlushIo) (w : W) :
    List (FileId × Option CtxFile) → Out (W × List (FileId × Option CtxFile))
  | [] => .ok (w, [])
  | (_, none) :: _ => .ub
  | (id, some cf) :: rest => do
    let r ← flushOne w cf (o cf.cfile)
    let r' ← flushLoop o r.1 rest
    .ok (r'.1, (id, some r.2) :: r'.2)

/-- `bfs_ctx_flush()`, src/ctx.c:162-189. The user and group caches are modelled elsewhere. -/
def ctxFlush (w : W) (o : Nat → FlushIo) : Out W := do
  let r ← flushLoop o w w.files
  .ok { r.1 with
    files := r.2 }

/-- `bfs_ctx_fflush()`, src/ctx.c:192-205: whether the stream has, or gets, an error. -/
def ctxFflush (s : Strm) (io : Io) : Strm × Bool :=
  ((fflush s io).1, s.err || (fflush s io).2 ≠ 0)

/-- `sigunhook()` of the file's hook, which may be `NULL`. -/
def unhook (w : W) (cf : CtxFile) : W :=
  if cf.hook then { w with
    hooks := w.hooks.erase cf.cfile } else w

/-- `bfs_ctx_fclose()`, src/ctx.c:208-253: close all but the standard streams. -/
def closeOwned (w : W) (h : Nat) (io : Io) : Out (W × Bool) :=
  if w.cout ≠ some h ∧ w.cerr ≠ some h then do
    let r ← cfclose w h io
    .ok (r.1, r.2 ≠ 0)
  else .ok (w, false)

/-- `bfs_ctx_fclose()`, src/ctx.c:208-253: report an error. -/
def reportClose (w : W) (cf : CtxFile) (bad : Bool) (m : Msg) : Out W :=
  if bad && w.cerr.isSome then complain w cf m else .ok w

/-- `bfs_ctx_fclose()`, src/ctx.c:208-253. Returns whether it failed. -/
def ctxFclose (w : W) (cf : CtxFile) (o : FlushIo) : Out (W × Bool) := do
  let s ← w.cffile cf.cfile
  let w1 := unhook (w.put cf.cfile (ctxFflush s o.flush).1) cf
  let r ← closeOwned w1 cf.cfile o.close
  let silent := w.cerr == some cf.cfile && cf.path.isNone
  let bad := (cf.error ≠ 0 || (ctxFflush s o.flush).2 || r.2) && !silent
  let w2 ← reportClose r.1 cf bad o.msg
  .ok (w2, bad)

/-- The loop of `bfs_ctx_free()`, src/ctx.c:255-295. -/
def freeLoop (o : Nat → FlushIo) (w : W) : List (FileId × Option CtxFile) → Out (W × Bool)
  | [] => .ok (w, false)
  | (_, none) :: _ => .ub
  | (_, some cf) :: rest => do
    let r ← ctxFclose w cf (o cf.cfile)
    let r' ← freeLoop o r.1 rest
    .ok (r'.1, r.2 || r'.2)

/-- `bfs_ctx_free()`, src/ctx.c:255-295: the files. Returns whether it failed. -/
def ctxFree (w : W) (o : Nat → FlushIo) : Out (W × Bool) := do
  let r ← freeLoop o w w.files
  let w1 ← cfcloseOpt { r.1 with
    files := [] } w.cout (.done 0)
  let w2 ← cfcloseOpt w1 w.cerr (.done 0)
  .ok (w2, r.2)

/-- `eval_error()`, src/eval.c:71-90. -/
def evalError (w : W) (m : Msg) : Out W :=
  if w.ignore then .ok w
  else message { w with
    ret := EXIT_FAILURE } m

/-- `clearerr()`. -/
def clearerr (w : W) (h : Nat) : Out W := do
  let s ← w.cffile h
  .ok (w.put h { s with err := false })

/-- `eval_io_error()`, src/eval.c:113-122. -/
def evalIoError (w : W) (a : Act) (m : Msg) : Out W := do
  let w' ← evalError w m
  clearerr w' a.cfile

/-- One piece of an action's output, and what happens: `none` means that there was not enough
memory to format it, so that nothing was written. -/
abbrev Chunk := Bytes × Option Io

/-- Write the pieces of an action's output up to the first failure: `eval_fls()`,
`eval_fprint()`, `eval_fprint0()`, `eval_fprintf()`, `eval_fprintx()`, src/eval.c:849-881.
What the pieces are is not modelled here. The ghost fields record the data that is skipped. -/
def writeChunks (s : Strm) : List Chunk → Strm × Bool
  | [] => (s, true)
  | (d, some io) :: rest =>
    if (fwrite s d io).2 then writeChunks (fwrite s d io).1 rest
    else ({ (fwrite s d io).1 with
      given := (fwrite s d io).1.given ++ rest.flatMap (·.1) }, false)
  | (d, none) :: rest => ({ s with
      given := s.given ++ d ++ rest.flatMap (·.1)
      lost := true }, false)

/-- An action that prints, `eval_fprint()` etc., src/eval.c:734-881. -/
def evalPrint (w : W) (a : Act) (chunks : List Chunk) (m : Msg) : Out W := do
  let s ← w.cffile a.cfile
  let w' := w.put a.cfile (writeChunks s chunks).1
  if (writeChunks s chunks).2 then .ok w' else evalIoError w' a m

/-- What the program does with its output files while parsing the command line. -/
inductive POp where
  /-- `expr_open()` for `-fprint FILE` etc. -/
  | fopen (path : String) (o : OpenIo)
  /-- `init_print_expr()` for `-print` etc. -/
  | print
  /-- A warning. -/
  | note (m : Msg)
  /-- Any other error in the command line. -/
  | invalid (m : Msg)

/-- What the program does with its output files while walking the file system. -/
inductive EOp where
  /-- Evaluate the `i`th action that prints. -/
  | print (i : Nat) (chunks : List Chunk) (m : Msg)
  /-- Print to stdout without looking at the result (`-help`, `-version`). -/
  | show_ (d : Bytes) (io : Io)
  /-- Any other error during the evaluation, `eval_error()`. -/
  | fail (m : Msg)
  /-- A warning, the status bar, debugging output. -/
  | note (m : Msg)
  /-- Before running a command: `bfs_ctx_flush()`. -/
  | flush (o : Nat → FlushIo)
  /-- `eval_exit()`, src/eval.c:440-445. -/
  | exit (n : Nat)
  /-- The failure of `bftw()` or `eval_exec_finish()`, src/eval.c:405-424. -/
  | fatal (m : Msg)

/-- One step of the parser. Returns whether parsing goes on. -/
def parseStep (w : W) : POp → Out (W × Bool)
  | .fopen path o => exprOpen w path o
  | .print => do
    let w ← initPrint w
    .ok (w, true)
  | .note m => do
    let w ← message w m
    .ok (w, true)
  | .invalid m => do
    let w ← message w m
    .ok (w, false)

/-- Parse the command line. -/
def parseAll (w : W) : List POp → Out (W × Bool)
  | [] => .ok (w, true)
  | op :: rest => do
    let r ← parseStep w op
    if r.2 then parseAll r.1 rest else .ok r

/-- `-help` and `-version` write to `ctx->cout`. -/
def showOut (w : W) (d : Bytes) (io : Io) : Out W :=
  match w.cout with
  | none => .ub
  | some c => do
    let s ← w.cffile c
    .ok (w.put c (fwrite s d io).1)

/-- One step of the evaluation. -/
def evalStep (w : W) : EOp → Out W
  | .print i chunks m =>
    match w.acts[i]? with
    | some a => evalPrint w a chunks m
    | none => .ok w
  | .show_ d io => showOut w d io
  | .fail m => evalError w m
  | .note m => message w m
  | .flush o => ctxFlush w o
  | .exit n => .ok { w with
      ret := n }
  | .fatal m => message { w with
      ret := EXIT_FAILURE } m

/-- The evaluation. -/
def evalAll (w : W) : List EOp → Out W
  | [] => .ok w
  | op :: rest => do
    let w' ← evalStep w op
    evalAll w' rest

/-- The environment of a whole run. -/
structure Env where
  /-- The files that are open as stdout and stderr. -/
  stdout : FileId
  stderr : FileId
  /-- Whether they are terminals that get colours. -/
  outTty : Bool := false
  errTty : Bool := false
  /-- The allocations in `cfwrap()`. -/
  outMem : Bool := true
  errMem : Bool := true
  outDedup : DedupIo := {}
  errDedup : DedupIo := {}
  /-- The diagnostic if they fail. -/
  msg : Msg := []
  /-- `-noerror`. The option is position-independent as far as this file is concerned. -/
  noerror : Bool := false
  /-- Closing the files at the end. -/
  free : Nat → FlushIo

/-- The state when `main()` starts. -/
def start (e : Env) : W :=
  { strms := [{ id := e.stderr }, { id := e.stdout }], ignore := e.noerror }

/-- `bfs_parse_cmdline()`, src/parse.c:3827-3951: deduplicate the standard streams. -/
def setupDedup (w : W) (e : Env) : Out (W × Bool) := do
  let r ← dedup w 1 none e.outDedup
  if r.2.isSome then do
    let r' ← dedup r.1 0 none e.errDedup
    if r'.2.isSome then .ok (r'.1, true)
    else do
      let w ← message r'.1 e.msg
      .ok (w, false)
  else do
    let w ← message r.1 e.msg
    .ok (w, false)

/-- `bfs_parse_cmdline()`, src/parse.c:3827-3951: wrap stdout. -/
def setupOut (w : W) (e : Env) : Out (W × Bool) := do
  let r ← cfwrap w 1 e.outTty false e.outMem
  if r.2 then setupDedup { r.1 with
    cout := some 1 } e
  else do
    let w ← message r.1 e.msg
    .ok (w, false)

/-- `bfs_parse_cmdline()`, src/parse.c:3827-3951: set up the standard streams. -/
def setup (e : Env) : Out (W × Bool) := do
  let r ← cfwrap (start e) 0 e.errTty false e.errMem
  if r.2 then setupOut { r.1 with
    cerr := some 0 } e
  else .ok r

/-- `bfs_parse_cmdline()`, src/parse.c:3827-3951, as far as output files are concerned. -/
def parseCmdline (e : Env) (pops : List POp) : Out (W × Bool) := do
  let r ← setup e
  if r.2 then parseAll r.1 pops else .ok r

/-- `main()`, src/main.c:117-152: after the evaluation. -/
def finish (w : W) (e : Env) : Out (Nat × W) := do
  let r ← ctxFree w e.free
  .ok (if r.2 ∧ w.ret = EXIT_SUCCESS then EXIT_FAILURE else w.ret, r.1)

/-- `main()`, src/main.c:117-152, as far as output files are concerned: the exit status and the
final state. If the command line is wrong, the context is freed and bfs fails. -/
def run (e : Env) (pops : List POp) (eops : List EOp) : Out (Nat × W) := do
  let r ← parseCmdline e pops
  if r.2 then do
    let w ← evalAll r.1 eops
    finish w e
  else do
    let f ← ctxFree r.1 e.free
    .ok (EXIT_FAILURE, f.1)

end Verif.Files
