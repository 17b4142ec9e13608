import Verif.Model.Spawn
/-!
# What starting a process should do
-/
namespace Verif.Spec.Spawn
open Verif Verif.Spawn

/-! ## Finding the executable -/

/-- The entries of a `PATH`, which are separated by colons. -/
def entries : List UInt8 → List (List UInt8)
  | [] => [[]]
  | c :: s =>
    if c = 58 then [] :: entries s
    else
      match entries s with
      | [] => [[c]]
      | x :: xs => (c :: x) :: xs

/-- The file that an entry designates for a command: an empty entry is the current directory. -/
def under (exe entry : List UInt8) : List UInt8 :=
  (if entry = [] then [46] else entry) ++ [47] ++ exe

/-- Why a file can't be executed in a directory, if it can't. The check uses the real IDs, or the effective ones where only that is supported. -/
def obstacle (w : World) (d : Dir) (p : List UInt8) : Option String :=
  match w.faccessat d p false with
  | some "EINVAL" => w.faccessat d p true
  | some "ENOTSUP" => w.faccessat d p true
  | r => r

/-- The first file on the `PATH` that can be executed. -/
def search (w : World) (path exe : List UInt8) (d : Dir) : Except String (List UInt8) :=
  match ((entries path).map (under exe)).find? (fun p => obstacle w d p = none) with
  | some p => .ok p
  | none => .error "ENOENT"

/-- A command that is not searched for. -/
def direct (w : World) (exe : List UInt8) (d : Dir) : Except String (List UInt8) :=
  match obstacle w d exe with
  | none => .ok exe
  | some e => .error e

/-- Absolute paths don't depend on the directory. -/
def Sane (w : World) : Prop :=
  ∀ d d' s b, w.faccessat d (47 :: s) b = w.faccessat d' (47 :: s) b

/-- Strings that C can represent. -/
structure CStrings (path exe : List UInt8) : Prop where
  hpath : (0 : UInt8) ∉ path
  hexe : (0 : UInt8) ∉ exe
  len : exe.length < 2 ^ 64 - 1

/-! ## Running the program -/

/-- What can be requested for a program. -/
inductive Req where
  | open (fd : Nat) (path : List UInt8) (flags mode : Nat)
  | close (fd : Nat)
  | dup2 (oldfd newfd : Nat)
  | fchdir (fd : Nat)
  | setrlimit (resource : Nat) (rl : Limits.Rlimit)

/-- Request something. -/
def request (pl : Plat) (ctx : Ctx) : Req → Ctx
  | .open fd path flags mode => addopen ctx fd path flags mode
  | .close fd => addclose ctx fd
  | .dup2 a b => adddup2 ctx a b
  | .fchdir fd => addfchdir pl ctx fd
  | .setrlimit r rl => addsetrlimit ctx r rl

/-- Prepare to start a program. -/
def prepare (pl : Plat) (usePath : Bool) (reqs : List Req) : Ctx :=
  reqs.foldl (request pl) { init pl with usePath := usePath }

/-- The effect of a request. -/
def apply (w : World) (c : Child) : Req → Except String Child
  | .open fd path flags mode =>
    match w.openFile c.cwd path flags mode with
    | .error e => .error e
    | .ok f => .ok { c with fds := fun x => if x = fd then some ⟨f, false⟩ else c.fds x }
  | .close fd =>
    match c.fds fd with
    | none => .error "EBADF"
    | some _ => .ok { c with fds := fun x => if x = fd then none else c.fds x }
  | .dup2 a b =>
    match c.fds a with
    | none => .error "EBADF"
    | some e => .ok { c with fds := fun x => if x = b ∧ a ≠ b then some ⟨e.file, false⟩ else c.fds x }
  | .fchdir fd =>
    match c.fds fd with
    | none => .error "EBADF"
    | some e => (w.dirOf e.file).map fun d => { c with cwd := d }
  | .setrlimit r rl =>
    match w.setrlimit r rl with
    | some e => .error e
    | none => .ok { c with limits := fun x => if x = r then rl else c.limits x }

/-- The effect of some requests: the first failure is the result. -/
def applyAll (w : World) : List Req → Child → Except String Child
  | [], c => .ok c
  | q :: qs, c =>
    match apply w c q with
    | .error e => .error e
    | .ok c => applyAll w qs c

/-- What may go wrong before the next step. -/
def attempt {α : Type} (failure : Option String) (next : Except String α) : Except String α :=
  match failure with
  | some e => .error e
  | none => next

/-- What went wrong, if anything. -/
def errorOf {α : Type} : Except String α → Option String
  | .ok _ => none
  | .error e => some e

/-- The program that a child should become, once there is one. -/
def become (w : World) (find : Dir → Except String (List UInt8)) (reqs : List Req) (self : Child) :
    Except String Program :=
  match applyAll w reqs self with
  | .error e => .error e
  | .ok c =>
    match find c.cwd with
    | .error e => .error e
    | .ok p =>
      attempt w.sigreset <| attempt w.unblockChild <| attempt (w.execve c.cwd p) <|
        .ok { path := p
              fds := fun fd => if (c.fds fd).any (·.cloexec) then none else c.fds fd
              cwd := c.cwd
              limits := c.limits
              blocked := false }

/-- The program that should be started, or what went wrong first. If `early` is set, then the executable is found before there is a child. -/
def start (w : World) (early : Bool) (find : Dir → Except String (List UInt8)) (reqs : List Req) (self : Child) :
    Except String Program :=
  attempt (if early then errorOf (find self.cwd) else none) <|
  attempt (errorOf w.pipe) <|
  attempt w.sigfillset <|
  attempt w.block <|
  attempt (errorOf w.fork) <|
  become w find reqs self

/-- Whether a request changes the directory. -/
def isChdir : Req → Bool
  | .fchdir _ => true
  | _ => false

/-- Whether any request changes the directory. -/
def changesDir (reqs : List Req) : Bool := reqs.any isChdir

/-- Whether all entries of a `PATH` are absolute. -/
def absolute (path : List UInt8) : Bool := (entries path).all (·.head? = some 47)

/-- Files are never opened. -/
def NoOpen (reqs : List Req) : Prop := ∀ q ∈ reqs, ∀ fd p fl m, q ≠ .open fd p fl m

/-- Only finitely many descriptors are in use. -/
def Finite (t : Fds) : Prop := ∃ n : Nat, ∀ fd : Int, n ≤ fd → t fd = none

/-- How the system behaves: new descriptors are free ones, there are enough of them, the child can write to the pipe, and a signal mask can be restored. -/
structure Honest (w : World) (proc : Child) : Prop where
  pick : ∀ t fd, w.pick t = some fd → 0 ≤ fd ∧ t fd = none
  enough : ∀ t, Finite t → (w.pick t).isSome
  finite : Finite proc.fds
  pipe : ∀ r p, w.pipe = .ok (r, p) → 0 ≤ r ∧ 0 ≤ p ∧ r ≠ p ∧ proc.fds r = none ∧ proc.fds p = none
  pipeFile : ∀ fd e, proc.fds fd = some e → e.file ≠ w.pipeWrite
  openFile : ∀ d p fl m, w.openFile d p fl m ≠ .ok w.pipeWrite
  written : w.written = 4
  unblock : w.unblock = none

end Verif.Spec.Spawn
