import Verif.Model.Limits
/-!
# Starting processes (src/xspawn.c)

A C string is the list of its bytes, without the terminator; a pointer into one is the list of the bytes from there on. A directory and an open file are numbers.
-/
namespace Verif.Spawn

abbrev Str := List UInt8
abbrev Dir := Nat
abbrev File := Nat

/-! ## System calls -/

/-- An entry of the table of file descriptors. -/
structure Entry where
  file : File
  cloexec : Bool
  deriving DecidableEq, Repr

abbrev Fds := Int → Option Entry

/-- Change one entry of the table. -/
def Fds.set (t : Fds) (fd : Int) (e : Option Entry) : Fds := fun x => if x = fd then e else t x

/-- What the system answers. An error is the name of its number. -/
structure World where
  /-- `faccessat(AT_FDCWD, path, X_OK, flags)` in some working directory; the last argument says whether the flags are `AT_EACCESS`. -/
  faccessat : Dir → Str → Bool → Option String
  /-- `open()` in some working directory. -/
  openFile : Dir → Str → Nat → Nat → Except String File
  /-- The directory that a file is. -/
  dirOf : File → Except String Dir
  /-- Which descriptor `open()` or `fcntl(F_DUPFD)` picks, unless there are too many. -/
  pick : Fds → Option Int
  setrlimit : Nat → Limits.Rlimit → Option String
  /-- `getenv("PATH")`. -/
  env : Option Str
  /-- `xconfstr(_CS_PATH)`. -/
  confstr : Except String Str
  /-- Whether `malloc()` succeeds for the resolution buffer. -/
  malloc : Bool
  /-- `pipe2()`: the descriptors that it picks. -/
  pipe : Except String (Int × Int)
  /-- The file that is the write end of the pipe, and the one that is the read end. -/
  pipeWrite : File
  pipeRead : File
  sigfillset : Option String
  /-- `pthread_sigmask()`: blocking the signals, restoring the mask in the parent, and in the child. -/
  block : Option String
  unblock : Option String
  unblockChild : Option String
  /-- The process ID of the child. -/
  fork : Except String Nat
  /-- `sigreset()` in the child. -/
  sigreset : Option String
  /-- `execve()` in some working directory. -/
  execve : Dir → Str → Option String
  /-- How many of the bytes of the error number the child manages to write. -/
  written : Nat

/-- `dup2()`. -/
def dup2 (t : Fds) (a b : Int) : Except String Fds :=
  match t a with
  | none => .error "EBADF"
  | some e =>
    if b < 0 then .error "EBADF"
    else if a = b then .ok t
    else .ok (t.set b (some ⟨e.file, false⟩))

/-- `close()`. -/
def close (t : Fds) (fd : Int) : Except String Fds :=
  match t fd with
  | none => .error "EBADF"
  | some _ => .ok (t.set fd none)

/-- `xclose()`, src/bfstd.c:761-767: closing a descriptor that is not open is a bug. -/
def xclose (t : Fds) (fd : Int) : Out Fds :=
  match t fd with
  | none => .ub
  | some _ => .ok (t.set fd none)

/-- `xfaccessat()`, src/bfstd.c:769-781, with `X_OK`. -/
def xfaccessat (w : World) (d : Dir) (p : Str) : Option String :=
  let ret := w.faccessat d p false
  if ret = some "EINVAL" ∨ ret = some "ENOTSUP" then w.faccessat d p true else ret

/-! ## Spawn contexts -/

/-- `enum bfs_spawn_op`, src/xspawn.c:33-39. -/
inductive Op where
  | open (path : Str) (flags mode : Nat)
  | close
  | dup2
  | fchdir
  | setrlimit (resource : Nat) (rl : Limits.Rlimit)

/-- `struct bfs_spawn_action`, src/xspawn.c:44-70. -/
structure Action where
  op : Op
  inFd : Int
  outFd : Int

/-- `struct bfs_spawn`: its flags and its list of actions. -/
structure Ctx where
  usePath : Bool
  usePosix : Bool
  actions : List Action

/-- What `configure` found out about the platform: `BFS_POSIX_SPAWN`, `BFS_HAS_POSIX_SPAWN_ADDFCHDIR` and `BFS_POSIX_SPAWNP_AFTER_FCHDIR`. There is no `POSIX_SPAWN_SETRLIMIT`. -/
structure Plat where
  posixSpawn : Bool
  addfchdir : Bool
  afterFchdir : Bool

/-- `bfs_spawn_init()`, src/xspawn.c:72-94. -/
def init (pl : Plat) : Ctx := ⟨false, pl.posixSpawn, []⟩

/-- `bfs_spawn_clear_posix()`, src/xspawn.c:99-108. -/
def clearPosix (ctx : Ctx) : Ctx := if ctx.usePosix then { ctx with usePosix := false } else ctx

/-- `bfs_spawn_action()`, src/xspawn.c:143-154. -/
def newAction (op : Op) : Action := ⟨op, -1, -1⟩

/-- `SLIST_APPEND(ctx, action)`; that this appends is C51. -/
def append (ctx : Ctx) (a : Action) : Ctx := { ctx with actions := ctx.actions ++ [a] }

/-- `bfs_spawn_addopen()`, src/xspawn.c:156-178. The flags don't include `O_CLOEXEC`. -/
def addopen (ctx : Ctx) (fd : Int) (path : Str) (flags mode : Nat) : Ctx :=
  append ctx { newAction (.open path flags mode) with outFd := fd }

/-- `bfs_spawn_addclose()`, src/xspawn.c:180-199. -/
def addclose (ctx : Ctx) (fd : Int) : Ctx := append ctx { newAction .close with outFd := fd }

/-- `bfs_spawn_adddup2()`, src/xspawn.c:201-221. -/
def adddup2 (ctx : Ctx) (oldfd newfd : Int) : Ctx :=
  append ctx { newAction .dup2 with
    inFd := oldfd
    outFd := newfd }

/-- `bfs_spawn_addfchdir()`, src/xspawn.c:235-262. -/
def addfchdir (pl : Plat) (ctx : Ctx) (fd : Int) : Ctx :=
  append (if pl.addfchdir then ctx else clearPosix ctx) { newAction .fchdir with inFd := fd }

/-- `bfs_spawn_setrlimit()`, src/xspawn.c:264-291. -/
def addsetrlimit (ctx : Ctx) (resource : Nat) (rl : Limits.Rlimit) : Ctx :=
  append (clearPosix ctx) (newAction (.setrlimit resource rl))

/-! ## Resolving executables -/

/-- The first position of a byte, or nothing, for `strchr()`. -/
def strchr (s : Str) (c : UInt8) : Option Nat := s.findIdx? (· = c)

/-- `bfs_resolve_next()`, src/xspawn.c:320-342: the pointers `*path` and `*next` and the length, or nothing at the end. `next` is `none` for `NULL`. -/
def resolveNext (next : Option Str) : Option (Str × Nat × Option Str) :=
  match next with
  | none => none
  | some path =>
    let (len, next) :=
      match strchr path 58 with
      | some i => (i, some (path.drop (i + 1)))
      | none => (path.length, none)
    if len = 0 then some ([46], 1, next) else some (path, len, next)

/-- How much of the `PATH` is left. -/
def left (next : Option Str) : Nat := next.elim 0 (·.length + 1)

theorem resolveNext_lt {next : Option Str} {p : Str} {n : Nat} {next' : Option Str}
    (h : resolveNext next = some (p, n, next')) : left next' < left next := by
  unfold resolveNext at h
  cases next with
  | none => simp at h
  | some path =>
    dsimp only at h
    cases hc : strchr path 58 with
    | none =>
      rw [hc] at h; dsimp only at h
      have : next' = none := by
        split at h <;> (simp at h; exact h.2.2.symm)
      subst this; simp [left]
    | some i =>
      rw [hc] at h; dsimp only at h
      have : next' = some (path.drop (i + 1)) := by
        split at h <;> (simp at h; exact h.2.2.symm)
      subst this
      have hi : i < path.length := by
        unfold strchr at hc
        exact (List.findIdx?_eq_some_iff_findIdx_eq.1 hc).1
      simp [left]; omega

/-- The values of `path` and `len` in a loop `while (bfs_resolve_next(&path, &next, &len))`. -/
def components (next : Option Str) : List (Str × Nat) :=
  match h : resolveNext next with
  | none => []
  | some (path, len, next') => (path, len) :: components next'
termination_by left next
decreasing_by exact resolveNext_lt h

/-- Write bytes into a buffer. -/
def write (buf : List UInt8) (i : Nat) (s : List UInt8) : Out (List UInt8) :=
  if i + s.length ≤ buf.length then .ok (buf.take i ++ s ++ buf.drop (i + s.length)) else .ub

/-- `xstpencpy()`, src/bfstd.c:437-449. `src` goes on up to its terminator; `dest`, `stop` and the result are positions in the buffer. -/
def xstpencpy (buf : List UInt8) (dest stop : Nat) (src : Str) (n : Nat) : Out (List UInt8 × Nat) :=
  if stop < dest then .ub
  else
    let space := stop - dest
    let n := if space < n then space else n
    let n := min src.length n
    (write buf dest (src.take n)).bind fun buf =>
      if n < space then (write buf (dest + n) [0]).bind fun buf => .ok (buf, dest + n)
      else if stop = 0 then .ub
      else (write buf (stop - 1) [0]).bind fun buf => .ok (buf, stop)

/-- `xstpecpy()`, src/bfstd.c:433-435. -/
def xstpecpy (buf : List UInt8) (dest stop : Nat) (src : Str) : Out (List UInt8 × Nat) :=
  xstpencpy buf dest stop src (2 ^ 64 - 1)

/-- The C string at the start of a buffer: reading beyond its end is undefined. -/
def cstr (buf : List UInt8) : Out Str :=
  if (0 : UInt8) ∈ buf then .ok (buf.takeWhile (· ≠ 0)) else .ub

/-- `struct bfs_resolver`, src/xspawn.c:296-309. `exe` is the string that it points to, and `inBuf` says that it points to the buffer; the buffer is absent for `NULL`. -/
structure Resolver where
  exe : Str
  inBuf : Bool
  path : Str
  buf : Option (List UInt8)
  len : Nat
  done : Bool

/-- The loop of `bfs_resolve_late()`, src/xspawn.c:345-375. -/
def lateLoop (w : World) (d : Dir) (res : Resolver) (buf : List UInt8) : List (Str × Nat) → Out Resolver
  | [] => .err "ENOENT"
  | (path, len) :: rest =>
    (xstpencpy buf 0 res.len path len).bind fun r1 =>
    (xstpecpy r1.1 r1.2 res.len [47]).bind fun r2 =>
    (xstpecpy r2.1 r2.2 res.len res.exe).bind fun r3 =>
    if r3.2 = res.len then .ub
    else
      (cstr r3.1).bind fun s =>
      if xfaccessat w d s = none then
        .ok { res with
          exe := s
          inBuf := true
          buf := some r3.1
          done := true }
      else lateLoop w d res r3.1 rest

/-- `bfs_resolve_late()`, src/xspawn.c:345-375, in a process with working directory `d`. -/
def resolveLate (w : World) (d : Dir) (res : Resolver) : Out Resolver :=
  if res.done then .ok res
  else
    match res.buf with
    | none => .ub
    | some buf => lateLoop w d res buf (components (some res.path))

/-- `bfs_can_skip_resolve()`, src/xspawn.c:378-388. -/
def canSkipResolve (exe : Str) (ctx : Option Ctx) : Bool :=
  if ctx.any (fun c => !c.usePath) then true
  else if (strchr exe 47).isSome then true
  else false

/-- `bfs_resolve_relative()`, src/xspawn.c:391-402. -/
def resolveRelative (path : Str) : Bool :=
  (components (some path)).any fun c => c.1.head? ≠ some 47

/-- `action->op == BFS_SPAWN_FCHDIR`. -/
def isFchdir (a : Action) : Bool :=
  match a.op with
  | .fchdir => true
  | _ => false

/-- `bfs_can_resolve_early()`, src/xspawn.c:405-419. -/
def canResolveEarly (path : Str) (ctx : Option Ctx) : Bool :=
  if !resolveRelative path then true
  else if ctx.any (fun c => c.actions.any isFchdir) then false
  else true

/-- `bfs_resolve_capacity()`, src/xspawn.c:422-436. -/
def resolveCapacity (path exe : Str) : Nat :=
  (components (some path)).foldl (fun max c => if c.2 > max then c.2 else max) 0 + 1 + exe.length + 1

/-- The `PATH` that `bfs_resolve_early()` uses, src/xspawn.c:439-499. -/
def searchPath (w : World) : Out Str :=
  match w.env with
  | some p => .ok p
  | none =>
    match w.confstr with
    | .ok p => .ok p
    | .error e => .err e

/-- `bfs_resolve_early()`, src/xspawn.c:439-499, in a process with working directory `d`. The fresh buffer contains arbitrary bytes; here it is filled with `junk`. -/
def resolveEarly (pl : Plat) (w : World) (junk : UInt8) (d : Dir) (exe : Str) (ctx : Option Ctx) : Out Resolver :=
  let res : Resolver := ⟨exe, false, [], none, 0, false⟩
  if canSkipResolve exe ctx then
    match xfaccessat w d exe with
    | none => .ok { res with done := true }
    | some e => .err e
  else
    (searchPath w).bind fun path =>
    let res := { res with path := path }
    let canFinish := canResolveEarly path ctx
    let usePosix := ctx.any (·.usePosix)
    if pl.afterFchdir && (!canFinish && usePosix) then .ok res
    else
      let len := resolveCapacity path exe
      if !w.malloc then .err "ENOMEM"
      else
        let res := { res with
          len := len
          buf := some (List.replicate len junk) }
        if canFinish then resolveLate w d res else .ok res

/-- `bfs_spawn_resolve()`, src/xspawn.c:712-732. Simplified: `strdup()` succeeds. -/
def spawnResolve (pl : Plat) (w : World) (junk : UInt8) (d : Dir) (exe : Str) : Out Str :=
  (resolveEarly pl w junk d exe none).bind fun res =>
  (resolveLate w d res).bind fun res => .ok res.exe

/-! ## Running the child -/

/-- What the child can change about itself. -/
structure Child where
  fds : Fds
  cwd : Dir
  limits : Nat → Limits.Rlimit

/-- A program that was started: the path that was given to `execve()`, and what it inherits. -/
structure Program where
  path : Str
  fds : Fds
  cwd : Dir
  limits : Nat → Limits.Rlimit
  /-- Whether the signals are still blocked. -/
  blocked : Bool

/-- How a part of `bfs_spawn_exec()` ends: it goes on, or goes to `fail` with some `errno`, or is stopped by an assertion. The last argument is `pipefd[1]`. -/
inductive Step where
  | go (c : Child) (pw : Int)
  | fail (e : String) (c : Child) (pw : Int)
  | abort

/-- Moving the error-reporting pipe out of the way, in `bfs_spawn_exec()`, src/xspawn.c:539-623. -/
def movePipe (w : World) (c : Child) (pw : Int) (a : Action) : Step :=
  if a.outFd = pw then
    match w.pick c.fds with
    | none => .fail "EMFILE" c pw
    | some fd =>
      match c.fds pw with
      | none => .fail "EBADF" c pw
      | some e =>
        match xclose (c.fds.set fd (some ⟨e.file, true⟩)) pw with
        | .ok t => .go { c with fds := t } fd
        | _ => .abort
  else .go c pw

/-- The `switch` in `bfs_spawn_exec()`, src/xspawn.c:539-623. -/
def perform (w : World) (c : Child) (pw : Int) (a : Action) : Step :=
  match a.op with
  | .open path flags mode =>
    match w.openFile c.cwd path flags mode with
    | .error e => .fail e c pw
    | .ok f =>
      match w.pick c.fds with
      | none => .fail "EMFILE" c pw
      | some fd =>
        let c := { c with fds := c.fds.set fd (some ⟨f, false⟩) }
        if fd ≠ a.outFd then
          match dup2 c.fds fd a.outFd with
          | .error e => .fail e c pw
          | .ok t => .go { c with fds := t } pw
        else .go c pw
  | .close =>
    match close c.fds a.outFd with
    | .error e => .fail e c pw
    | .ok t => .go { c with fds := t } pw
  | .dup2 =>
    match dup2 c.fds a.inFd a.outFd with
    | .error e => .fail e c pw
    | .ok t => .go { c with fds := t } pw
  | .fchdir =>
    match c.fds a.inFd with
    | none => .fail "EBADF" c pw
    | some e =>
      match w.dirOf e.file with
      | .error e => .fail e c pw
      | .ok d => .go { c with cwd := d } pw
  | .setrlimit resource rl =>
    match w.setrlimit resource rl with
    | some e => .fail e c pw
    | none => .go { c with limits := fun r => if r = resource then rl else c.limits r } pw

/-- What follows the move of the pipe. -/
def afterMove (w : World) (a : Action) : Step → Step
  | .go c pw => if a.inFd = pw then .fail "EBADF" c pw else perform w c pw a
  | s => s

/-- The loop of `bfs_spawn_exec()`, src/xspawn.c:539-623. -/
def runActions (w : World) : List Action → Child → Int → Step
  | [], c, pw => .go c pw
  | a :: as, c, pw =>
    match afterMove w a (movePipe w c pw a) with
    | .go c pw => runActions w as c pw
    | s => s

/-- How the child ends: it becomes the program, or exits after it tried to write an error number to some file. -/
inductive ChildEnd where
  | ran (p : Program)
  | died (e : String) (to : Option File)

/-- The label `fail` of `bfs_spawn_exec()`, src/xspawn.c:539-623. -/
def failChild (e : String) (c : Child) (pw : Int) : ChildEnd := .died e ((c.fds pw).map (·.file))

/-- What a program inherits: descriptors without the close-on-exec flag. -/
def inherit (t : Fds) : Fds := fun fd => (t fd).filter (!·.cloexec)

/-- The part of `bfs_spawn_exec()` after the loop, src/xspawn.c:539-623. -/
def finishChild (w : World) (res : Resolver) (c : Child) (pw : Int) : Out ChildEnd :=
  match resolveLate w c.cwd res with
  | .ub => .ub
  | .err e => .ok (failChild e c pw)
  | .ok res =>
    match w.sigreset with
    | some e => .ok (failChild e c pw)
    | none =>
      match w.unblockChild with
      | some e => .ok (failChild e c pw)
      | none =>
        match w.execve c.cwd res.exe with
        | some e => .ok (failChild e c pw)
        | none => .ok (.ran ⟨res.exe, inherit c.fds, c.cwd, c.limits, false⟩)

/-- `bfs_spawn_exec()`, src/xspawn.c:539-623. -/
def spawnExec (w : World) (res : Resolver) (ctx : Ctx) (c : Child) (pr pw : Int) : Out ChildEnd :=
  (xclose c.fds pr).bind fun t =>
    match runActions w ctx.actions { c with fds := t } pw with
    | .abort => .ub
    | .fail e c pw => .ok (failChild e c pw)
    | .go c pw => finishChild w res c pw

/-! ## The parent -/

/-- The result of `bfs_spawn()` (the process ID, or `errno` if it is -1), the program that was started if there is one, and what became of the parent: its descriptors, whether its signals are blocked, and whether there is a child that failed and was not waited for. -/
structure Result where
  ret : Except String Nat
  program : Option Program
  fds : Fds
  blocked : Bool
  zombie : Bool

/-- The label `fail` of `bfs_fork_spawn()`, src/xspawn.c:626-680. -/
def failSpawn (e : String) (t : Fds) (pr pw : Int) (blocked : Bool) : Out Result :=
  (xclose t pw).bind fun t => (xclose t pr).bind fun t => .ok ⟨.error e, none, t, blocked, false⟩

/-- How many bytes of an error number arrive in the pipe, before its end is closed. -/
def received (w : World) (child : ChildEnd) : Nat :=
  match child with
  | .ran _ => 0
  | .died _ to => if to = some w.pipeWrite then w.written else 0

/-- The error number that arrives. -/
def childErrno : ChildEnd → String
  | .ran _ => ""
  | .died e _ => e

/-- The program that a child becomes. -/
def childProgram : ChildEnd → Option Program
  | .ran p => some p
  | .died _ _ => none

/-- The part of `bfs_fork_spawn()` after the signal mask is restored, src/xspawn.c:626-680. `xread()` returns what arrived (C64). -/
def awaitChild (w : World) (pid : Nat) (child : ChildEnd) (t : Fds) (pr pw : Int) : Out Result :=
  (xclose t pw).bind fun t =>
  let nbytes := received w child
  (xclose t pr).bind fun t =>
    if nbytes = 4 then .ok ⟨.error (childErrno child), childProgram child, t, false, false⟩
    else .ok ⟨.ok pid, childProgram child, t, false, (childProgram child).isNone⟩

/-- `bfs_fork_spawn()`, src/xspawn.c:626-680. If `fork()` fails, then `errno` is overwritten by the result of `pthread_sigmask()`, which is 0. A zombie that is not waited for here is the responsibility of the caller, who has its ID. -/
def forkSpawn (w : World) (res : Resolver) (ctx : Ctx) (self : Child) : Out Result :=
  match w.pipe with
  | .error e => .ok ⟨.error e, none, self.fds, false, false⟩
  | .ok (pr, pw) =>
    let t := (self.fds.set pr (some ⟨w.pipeRead, true⟩)).set pw (some ⟨w.pipeWrite, true⟩)
    match w.sigfillset with
    | some e => failSpawn e t pr pw false
    | none =>
      match w.block with
      | some e => failSpawn e t pr pw false
      | none =>
        match w.unblock with
        | some _ => .ub
        | none =>
          match w.fork with
          | .error _ => failSpawn "0" t pr pw false
          | .ok pid =>
            (spawnExec w res ctx { self with fds := t } pr pw).bind fun child => awaitChild w pid child t pr pw

/-- `bfs_posix_spawn()`, src/xspawn.c:504-518. `libc` is what `posix_spawn()` (or, if the first argument is set, `posix_spawnp()`) does. -/
def posixSpawn (libc : Bool → Str → List Action → Child → Result) (res : Resolver) (ctx : Ctx) (self : Child) : Out Result :=
  if res.done then .ok (libc false res.exe ctx.actions self)
  else .ok (libc true res.exe ctx.actions self)

/-- `bfs_use_posix_spawn()`, src/xspawn.c:521-533. -/
def usePosixSpawn (pl : Plat) (res : Resolver) (ctx : Ctx) : Bool :=
  if !ctx.usePosix then false
  else if !pl.afterFchdir && !res.done then false
  else true

/-- `bfs_spawn_impl()`, src/xspawn.c:683-691. -/
def spawnImpl (pl : Plat) (w : World) (libc : Bool → Str → List Action → Child → Result) (res : Resolver) (ctx : Ctx) (self : Child) : Out Result :=
  if pl.posixSpawn && usePosixSpawn pl res ctx then posixSpawn libc res ctx self
  else forkSpawn w res ctx self

/-- `bfs_spawn()`, src/xspawn.c:693-710. Not modelled: the arguments and the environment. -/
def spawn (pl : Plat) (w : World) (libc : Bool → Str → List Action → Child → Result) (junk : UInt8) (exe : Str) (ctx : Ctx) (self : Child) : Out Result :=
  match resolveEarly pl w junk self.cwd exe (some ctx) with
  | .ub => .ub
  | .err e => .ok ⟨.error e, none, self.fds, false, false⟩
  | .ok res => spawnImpl pl w libc res ctx self

end Verif.Spawn
