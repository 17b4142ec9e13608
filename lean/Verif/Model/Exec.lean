import Verif.Model.C
/-!
# `-exec` and friends, src/exec.c

Strings are byte lists.  `argv` is the actual C array: a list of `argv_cap` pointers, where
`none` is `NULL`, and every access is bounds checked.  `size_t` is unbounded.  Freeing of
strings is not modelled.  Failures of the C library are inputs.
-/
namespace Verif.Exec

abbrev Bytes := List UInt8

/-- The parts of `struct BFTW` that `-exec` looks at (src/bftw.h:82-114), and how the library
calls made for this file turn out.  `atFd` is whether `at_fd != AT_FDCWD`; if so it is open on
the directory `path[0, nameoff)`, and `at_path` is then a base name (asserted at
src/exec.c:272-273). -/
structure File where
  path : Bytes
  nameoff : Nat
  atFd : Bool := true
  /-- `bfs_exec_format_path()` gets its memory -/
  formatOk : Bool := true
  /-- `dup_cloexec()` succeeds -/
  dupOk : Bool := true
  /-- `strndup()` of the working directory succeeds -/
  strndupOk : Bool := true
  /-- `open()` of the working directory succeeds -/
  openOk : Bool := true
  /-- `REALLOC_ARRAY()` succeeds -/
  reallocOk : Bool := true
  deriving DecidableEq, Repr

/-- What came of an attempt to run the command: it ran and exited with status zero or not (or
was killed), or it could not be run and `errno` was set. -/
inductive Res where
  | ran (success : Bool)
  | error (errno : Nat)
  deriving DecidableEq, Repr

/-- `E2BIG` on Linux. -/
def E2BIG : Nat := 7

/-- One `execve()` attempt: the arguments, the directory (`none` is the one bfs itself runs in)
and the outcome. -/
structure Entry where
  args : List Bytes
  cwd : Option Bytes
  res : Res
  deriving DecidableEq, Repr

/-- The system: everything run so far, and how it answers the next attempt. -/
structure World where
  log : List Entry
  answer : List Entry → List Bytes → Res

/-- `struct bfs_exec`, src/exec.h:35-68 (flags other than `BFS_EXEC_CHDIR` are in the choice of
functions below).  `wdFd` is the directory `wd_fd` is open on. -/
structure Exec where
  chdir : Bool
  tmpl : List Bytes
  argv : List (Option Bytes)
  argc : Nat
  argSize : Nat
  argMax : Nat
  argMin : Nat
  wdFd : Option Bytes := none
  wdPath : Option Bytes := none
  wdLen : Nat := 0
  /-- `ret != 0` -/
  failed : Bool := false
  deriving DecidableEq, Repr

/-- `tmpl_argc` -/
def Exec.tmplArgc (x : Exec) : Nat := x.tmpl.length

/-- `argv[i] = p` -/
def store (a : List (Option Bytes)) (i : Nat) (p : Option Bytes) : Out (List (Option Bytes)) :=
  if i < a.length then .ok (a.set i p) else .ub

/-- `argv[i]` -/
def load (a : List (Option Bytes)) (i : Nat) : Out (Option Bytes) :=
  match a[i]? with
  | some p => .ok p
  | none => .ub

/-- `bfs_exec_arg_size()`, src/exec.c:52-54, with 8-byte pointers. -/
def sizeOfArg (arg : Bytes) : Nat := 8 + arg.length + 1

/-- `bfs_exec_arg_size()` of a pointer in the array, which must not be `NULL`. -/
def sizeOfPtr : Option Bytes → Out Nat
  | some a => .ok (sizeOfArg a)
  | none => .ub

/-- `BFS_EXEC_ARG_MAX`, src/exec.c:57. -/
def ARG_CAP : Int := 16777216

/-- `bfs_exec_arg_max()`, src/exec.c:60-106: `sysArgMax` and `page` are the results of
`sysconf()`, `env` the environment and `fixed` all template arguments but the last. -/
def computeArgMax (sysArgMax page : Int) (env fixed : List Bytes) : Nat :=
  let a : Int := if sysArgMax < 0 then ARG_CAP else sysArgMax
  let a := env.foldl (fun (a : Int) e => a - sizeOfArg e) a - 8
  let a := fixed.foldl (fun (a : Int) e => a - sizeOfArg e) a - 8
  let a := a - (if page < 4096 then 4096 else page)
  let a := a - 2048
  (if a < 0 then 0 else if a > ARG_CAP then ARG_CAP else a).toNat

/-- `strstr(arg, "{}")`: what comes before the first match, and after it. -/
def strstr : Bytes → Option (Bytes × Bytes)
  | 123 :: 125 :: r => some ([], r)
  | c :: r => (strstr r).map fun x => (c :: x.1, x.2)
  | [] => none

/-- The loop of `bfs_exec_format_arg()`, src/exec.c:226-259, with `match` as
`strstr(last, "{}")` at the top.  `fuel` bounds the iterations. -/
def formatLoop (path : Bytes) : Nat → Bytes → Bytes → Bytes
  | 0, ret, _ => ret
  | fuel + 1, ret, last =>
    match strstr last with
    | some (before, after) => formatLoop path fuel (ret ++ before ++ path) after
    | none => ret ++ last

/-- `bfs_exec_format_arg()`, src/exec.c:226-259. -/
def formatArg (arg path : Bytes) : Bytes :=
  match strstr arg with
  | none => arg
  | some _ => formatLoop path (arg.length + 1) [] arg

/-- How the command line of an action ends. -/
inductive Parsed where
  /-- "Expected '... ;'" and so on -/
  | bad
  | single (tmpl : List Bytes)
  | multi (tmpl : List Bytes)
  deriving DecidableEq, Repr

/-- The loop of `bfs_exec_parse()`, src/exec.c:129-199: the template so far, and the rest of the
command line. -/
def parseLoop (confirm : Bool) : List Bytes → List Bytes → Parsed
  | _, [] => .bad
  | tmpl, arg :: rest =>
    if arg = [59] then .single tmpl
    else if tmpl.length > 0 ∧ arg = [43] ∧ !confirm ∧ tmpl.getLast? = some [123, 125] then .multi tmpl
    else parseLoop confirm (tmpl ++ [arg]) rest

/-- `bfs_exec_parse()`, src/exec.c:129-199, after the name of the action.  `argMax` is the result
of `bfs_exec_arg_max()`. -/
def parse (confirm chdir : Bool) (argMax : List Bytes → Nat) (args : List Bytes) : Out (Bool × Exec) :=
  match parseLoop confirm [] args with
  | .bad => .err "Expected '... ;'"
  | .single tmpl =>
    if tmpl = [] then .err "Missing command"
    else .ok (false, { chdir, tmpl, argv := List.replicate (tmpl.length + 1) none, argc := 0,
                       argSize := 0, argMax := 0, argMin := 0 })
  | .multi tmpl =>
    if tmpl = [] then .err "Missing command"
    else if tmpl.dropLast.any (fun a => (strstr a).isSome) then .err "Only one '{}' is supported"
    else .ok (true, { chdir, tmpl, argv := tmpl.dropLast.map some ++ [none, none], argc := tmpl.length - 1,
                      argSize := 0, argMax := argMax tmpl.dropLast, argMin := argMax tmpl.dropLast })

/-- `bfs_exec_format_path()`, src/exec.c:202-223. -/
def formatPath (chdir : Bool) (f : File) : Bytes :=
  if !chdir then f.path
  else
    let name := f.path.drop f.nameoff
    if name.head? = some 47 then name else [46, 47] ++ name

/-- `bfs_exec_openwd()`, src/exec.c:269-312; the result says whether it succeeded. -/
def openwd (multi : Bool) (x : Exec) (f : File) : Out (Bool × Exec) :=
  if x.wdFd.isSome ∨ x.wdPath.isSome then .ub  -- the assertions
  else
    let fd := if f.atFd then some (f.path.take f.nameoff) else none
    if f.atFd ∧ !multi then .ok (true, { x with wdFd := fd })
    else if f.atFd ∧ !f.dupOk then .ok (false, x)
    else
      let x := { x with wdFd := fd, wdLen := f.nameoff }
      if f.nameoff = 0 ∧ f.path.head? ≠ some 47 then .ok (true, x)
      else
        let x := { x with wdLen := if f.nameoff = 0 then 1 else f.nameoff }
        if !f.strndupOk then .ok (false, x)
        else
          let dir := f.path.take x.wdLen
          let x := { x with wdPath := some dir }
          if x.wdFd.isNone then
            if f.openOk then .ok (true, { x with wdFd := some dir }) else .ok (false, x)
          else .ok (true, x)

/-- `bfs_exec_closewd()`, src/exec.c:315-328. -/
def closewd (x : Exec) : Exec :=
  if x.wdPath.isSome then { x with wdFd := none, wdPath := none, wdLen := 0 } else { x with wdFd := none }

/-- The argument vector as `execve()` sees it: up to the first `NULL`, which must be there. -/
def cArgv : List (Option Bytes) → Out (List Bytes)
  | [] => .ub
  | none :: _ => .ok []
  | some a :: r => match cArgv r with
    | .ok l => .ok (a :: l)
    | .err e => .err e
    | .ub => .ub

/-- `bfs_exec_spawn()`, src/exec.c:331-420: the outcome of running the command.  Simplified: the
prompt of `-ok` and failures of `bfs_spawn_*()` are errors of the answer. -/
def spawn (x : Exec) (w : World) : Out (Res × World) :=
  match cArgv x.argv with
  | .ok args =>
    let res := w.answer w.log args
    .ok (res, { w with log := w.log ++ [⟨args, x.wdFd, res⟩] })
  | .err e => .err e
  | .ub => .ub

/-- The argument loop of `bfs_exec_single()`, src/exec.c:423-464, from index `i`. -/
def formatAll (path : Bytes) : List Bytes → Nat → List (Option Bytes) → Out (List (Option Bytes))
  | [], i, argv => store argv i none
  | t :: ts, i, argv => (store argv i (some (formatArg t path))).bind fun argv => formatAll path ts (i + 1) argv

/-- `bfs_exec_single()`, src/exec.c:423-464: the result is `ret == 0`.  Simplified: of the
allocations only those named in `File` may fail. -/
def single (x : Exec) (w : World) (f : File) : Out (Bool × Exec × World) :=
  if !f.formatOk then .ok (false, x, w)
  else
    (formatAll (formatPath x.chdir f) x.tmpl 0 x.argv).bind fun argv =>
      (if x.chdir then openwd false { x with argv, argc := x.tmplArgc } f
        else .ok (true, { x with argv, argc := x.tmplArgc })).bind fun r =>
          if !r.1 then .ok (false, closewd r.2, w)
          else (spawn r.2 w).bind fun s => .ok (s.1 = .ran true, closewd r.2, s.2)

/-- `bfs_exec()` for each file in turn, without `BFS_EXEC_MULTI`. -/
def singleAll : List File → Exec → World → Out (Exec × World)
  | [], x, w => .ok (x, w)
  | f :: fs, x, w => (single x w f).bind fun r => singleAll fs r.2.1 r.2.2

/-- `bfs_exec_args_remain()`, src/exec.c:467-469. -/
def argsRemain (x : Exec) : Bool := x.argc ≥ x.tmplArgc

/-- `bfs_exec_estimate_max()`, src/exec.c:472-476. -/
def estimateMax (x : Exec) : Nat := x.argMin + (x.argMax - x.argMin) / 2

/-- `bfs_exec_update_min()`, src/exec.c:479-492. -/
def updateMin (x : Exec) : Exec :=
  if x.argSize > x.argMin then
    { x with argMin := if x.argSize > x.argMax then x.argMax else x.argSize }
  else x

/-- `bfs_exec_update_max()`, src/exec.c:495-521, without its result `bfs_exec_estimate_max()`. -/
def updateMax (x : Exec) : Exec :=
  let x := if x.argSize ≤ x.argMin then { x with argMin := 0 } else x
  let size := x.argSize - x.argSize / 16
  if size < x.argMax then
    { x with argMax := size, argMin := if x.argMin > size then size else x.argMin }
  else x

/-- The inner `while` of `bfs_exec_flush()`, src/exec.c:524-572.  The first argument counts down
with `argc`. -/
def shrink (newMax : Nat) : Nat → Exec → Out Exec
  | 0, x => if x.argSize > newMax then .ub else .ok x
  | fuel + 1, x =>
    if x.argSize > newMax then
      (if x.argc = 0 then .ub else load x.argv (x.argc - 1)).bind fun p =>
      (store x.argv x.argc p).bind fun argv =>
      (sizeOfPtr p).bind fun n =>
        shrink newMax fuel { x with argv, argSize := x.argSize - n, argc := x.argc - 1 }
    else .ok x

/-- The outer `while` of `bfs_exec_flush()`, src/exec.c:524-572: the last result (`none` if there
was none).  Running out of `fuel` would mean that it does not terminate. -/
def flushLoop : Nat → Exec → World → Option Res → Out (Exec × World × Option Res)
  | 0, _, _, _ => .ub
  | fuel + 1, x, w, last =>
    if argsRemain x then
      (store x.argv x.argc none).bind fun argv =>
      let x := { x with argv }
      (spawn x w).bind fun s =>
        match s.1 with
        | .ran true => .ok (updateMin x, s.2, some s.1)
        | .ran false => .ok (x, s.2, some s.1)
        | .error e =>
          if e ≠ E2BIG then .ok (x, s.2, some s.1)
          else
            let x := updateMax x
            (shrink (estimateMax x) x.argc x).bind fun x => flushLoop fuel x s.2 (some s.1)
    else .ok (x, w, last)

/-- The requeue loop of `bfs_exec_flush()`, src/exec.c:524-572, if `error == 0`; `n` iterations
remain, from index `i`. -/
def requeue : Nat → Nat → Exec → Out Exec
  | 0, _, x => .ok x
  | n + 1, i, x =>
    (load x.argv i).bind fun p =>
    (store x.argv x.argc p).bind fun argv =>
    (sizeOfPtr p).bind fun k =>
      requeue n (i + 1) { x with argv, argSize := x.argSize + k, argc := x.argc + 1 }

/-- `error` after the loop, src/exec.c:525-547. -/
def errorOf : Option Res → Nat
  | some (.error e) => e
  | _ => 0

/-- `ret != 0` after the loop. -/
def retOf : Option Res → Bool
  | some (.ran true) => false
  | none => false
  | _ => true

/-- `bfs_exec_flush()`, src/exec.c:524-572; the result is `ret != 0`. -/
def flush (x : Exec) (w : World) : Out (Bool × Exec × World) :=
  (flushLoop (x.argc + 1) x w none).bind fun r =>
    let x' := r.1
    (if errorOf r.2.2 = 0 then
      requeue (x.argc - x'.argc) (x'.argc + 1) { x' with argc := x.tmplArgc - 1, argSize := 0 }
    else .ok { x' with argc := x.tmplArgc - 1, argSize := 0 }).bind fun x'' =>
    .ok (retOf r.2.2, x'', r.2.1)

/-- `while (bfs_exec_args_remain(execbuf)) ret |= bfs_exec_flush(execbuf)`, src/exec.c:630-632 and
:676-678.  Running out of `fuel` would mean that it does not terminate. -/
def flushAll : Nat → Bool → Exec → World → Out (Bool × Exec × World)
  | 0, _, _, _ => .ub
  | fuel + 1, ret, x, w =>
    if argsRemain x then (flush x w).bind fun r => flushAll fuel (ret || r.1) r.2.1 r.2.2
    else .ok (ret, x, w)

/-- `bfs_exec_changed_dirs()`, src/exec.c:575-585.  (`strncmp()` of strings without NULs, where
`wd_len` is the length of `wd_path`.) -/
def changedDirs (x : Exec) (f : File) : Bool :=
  x.chdir && (f.nameoff > x.wdLen ||
    match x.wdPath with
    | some d => f.path.take x.wdLen != d
    | none => false)

/-- `bfs_exec_would_overflow()`, src/exec.c:588-598. -/
def wouldOverflow (x : Exec) (arg : Bytes) : Bool := x.argSize + sizeOfArg arg > estimateMax x

/-- `bfs_exec_push()`, src/exec.c:601-617; the result says whether it succeeded. -/
def push (x : Exec) (arg : Bytes) (reallocOk : Bool) : Out (Bool × Exec) :=
  (store x.argv x.argc (some arg)).bind fun argv =>
    if x.argc + 1 ≥ argv.length then
      if !reallocOk then .ok (false, { x with argv })
      else .ok (true, { x with argv := argv ++ List.replicate argv.length none, argc := x.argc + 1,
                               argSize := x.argSize + sizeOfArg arg })
    else .ok (true, { x with argv, argc := x.argc + 1, argSize := x.argSize + sizeOfArg arg })

/-- The flush before a new argument, src/exec.c:629-636. -/
def preFlush (x : Exec) (w : World) (f : File) (arg : Bytes) : Out (Bool × Exec × World) :=
  if changedDirs x f then
    (flushAll (x.argc + 1) false x w).bind fun r => .ok (r.1, closewd r.2.1, r.2.2)
  else if wouldOverflow x arg then flush x w
  else .ok (false, x, w)

/-- `bfs_exec_openwd()` if necessary, src/exec.c:638-643. -/
def multiOpen (x : Exec) (f : File) : Out (Bool × Exec) :=
  if x.chdir && x.wdFd.isNone then openwd true x f else .ok (true, x)

/-- `bfs_exec_multi()`, src/exec.c:620-657; the result is `ret != 0`. -/
def multi (x : Exec) (w : World) (f : File) : Out (Bool × Exec × World) :=
  if !f.formatOk then .ok (true, x, w)
  else
    let arg := formatPath x.chdir f
    (preFlush x w f arg).bind fun r =>
    (multiOpen r.2.1 f).bind fun o =>
      if !o.1 then .ok (true, o.2, r.2.2)
      else (push o.2 arg f.reallocOk).bind fun p =>
        if !p.1 then .ok (true, p.2, r.2.2)
        else .ok (r.1, p.2, r.2.2)

/-- `bfs_exec()` in the `BFS_EXEC_MULTI` case, src/exec.c:659-667. -/
def execMulti (x : Exec) (w : World) (f : File) : Out (Exec × World) :=
  (multi x w f).bind fun r => .ok (if r.1 then { r.2.1 with failed := true } else r.2.1, r.2.2)

/-- `bfs_exec()` for each file in turn. -/
def execAll : List File → Exec → World → Out (Exec × World)
  | [], x, w => .ok (x, w)
  | f :: fs, x, w => (execMulti x w f).bind fun r => execAll fs r.1 r.2

/-- `bfs_exec_finish()`, src/exec.c:673-684; the result is `ret != 0`. -/
def finish (x : Exec) (w : World) : Out (Bool × World) :=
  (flushAll (x.argc + 1) x.failed x w).bind fun r => .ok (r.1, r.2.2)

/-- A whole run of `-exec ... {} +`. -/
def runMulti (x : Exec) (w : World) (fs : List File) : Out (Bool × World) :=
  (execAll fs x w).bind fun r => finish r.1 r.2

end Verif.Exec
