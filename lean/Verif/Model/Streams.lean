/-!
# The standard streams at the start (src/main.c)

A process has a table of file descriptors. `open()` takes the lowest number that is free, `dup2()` makes a number refer to what another one refers to, and `close()` frees a number. Whether
these calls fail is up to the environment.
-/

namespace Verif.Streams

/-- Simplified: the access mode of `open()`. -/
inductive Flags where
  | path
  | rdonly
  | wronly
  deriving DecidableEq, Repr

/-- What a descriptor refers to: something from before the start of the program, or something that it has opened. -/
inductive Desc where
  | theirs (id : Nat)
  | opened (path : String) (flags : Flags)
  deriving DecidableEq, Repr

/-- The process: its descriptors (`none` and numbers past the end are closed), how many calls to `open()` and `dup2()` there were, and the messages that were written, with what standard error
referred to at that time. -/
structure Proc where
  fds : List (Option Desc)
  calls : Nat
  messages : List (Option Desc)
  deriving DecidableEq, Repr

/-- What descriptor `fd` refers to. -/
def Proc.get (p : Proc) (fd : Nat) : Option Desc := p.fds[fd]?.join

/-- The table with one descriptor changed. -/
def setFd : List (Option Desc) → Nat → Option Desc → List (Option Desc)
  | [], 0, d => [d]
  | [], n + 1, d => none :: setFd [] n d
  | _ :: rest, 0, d => d :: rest
  | x :: rest, n + 1, d => x :: setFd rest n d

/-- The lowest number that is free. -/
def lowest : List (Option Desc) → Nat
  | [] => 0
  | none :: _ => 0
  | some _ :: rest => lowest rest + 1

/-- The environment: which calls to `open()` and `dup2()` fail, and whether there is `O_PATH` (src/main.c:93-99). `fcntl(F_GETFD)` may fail with other errors than `EBADF` too, even if the
descriptor is open. -/
structure Sys where
  fails : Nat → Bool
  opath : Bool
  odd : Nat → Bool

variable (s : Sys)

/-- The system call `open()`. -/
def sysOpen (path : String) (flags : Flags) (p : Proc) : Option Nat × Proc :=
  if s.fails p.calls then (none, { p with calls := p.calls + 1 })
  else (some (lowest p.fds), { p with fds := setFd p.fds (lowest p.fds) (some (.opened path flags)), calls := p.calls + 1 })

/-- The system call `dup2()`. -/
def sysDup2 (old new : Nat) (p : Proc) : Option Nat × Proc :=
  match p.get old with
  | none => (none, p)
  | some d =>
    if s.fails p.calls then (none, { p with calls := p.calls + 1 })
    else (some new, { p with fds := setFd p.fds new (some d), calls := p.calls + 1 })

/-- `close_quietly()` (src/bfstd.c:755-759). Simplified: the number is free afterwards even if there is an error, as on Linux. -/
def sysClose (fd : Nat) (p : Proc) : Proc := { p with fds := setFd p.fds fd none }

/-- `fcntl(fd, F_GETFD)`: the flags or the error. -/
inductive Getfd where
  | flags
  | ebadf
  | other
  deriving DecidableEq

/-- See `Getfd`. -/
def getfd (fd : Nat) (p : Proc) : Getfd :=
  match p.get fd with
  | none => .ebadf
  | some _ => if s.odd fd then .other else .flags

/-- `isopen()` (src/main.c:68-70). -/
def isopen (fd : Nat) (p : Proc) : Bool := getfd s fd p == .flags || getfd s fd p != .ebadf

/-- `redirect()` (src/main.c:75-84). -/
def redirect (fd : Nat) (path : String) (flags : Flags) (p : Proc) : Option Nat × Proc :=
  match sysOpen s path flags p with
  | (none, p) => (none, p)
  | (some newfd, p) =>
    if newfd = fd then (some newfd, p)
    else
      match sysDup2 s newfd fd p with
      | (ret, p) => (ret, sysClose newfd p)

/-- `perror()`: a message to standard error. -/
def perror (p : Proc) : Proc := { p with messages := p.messages ++ [p.get 2] }

/-- `open_std_streams()` (src/main.c:91-113): whether it succeeds. -/
def openStdin (p : Proc) : Bool × Proc :=
  if isopen s 0 p then (true, p)
  else
    match redirect s 0 "/dev/null" (if s.opath then .path else .wronly) p with
    | (none, p) => (false, perror p)
    | (some _, p) => (true, p)

/-- See `openStdin`. -/
def openStdout (p : Proc) : Bool × Proc :=
  if isopen s 1 p then openStdin s p
  else
    match redirect s 1 "/dev/null" (if s.opath then .path else .rdonly) p with
    | (none, p) => (false, perror p)
    | (some _, p) => openStdin s p

/-- See `openStdin`. -/
def openStreams (p : Proc) : Bool × Proc :=
  if isopen s 2 p then openStdout s p
  else
    match redirect s 2 "/dev/null" (if s.opath then .path else .rdonly) p with
    | (none, p) => (false, p)
    | (some _, p) => openStdout s p

end Verif.Streams
