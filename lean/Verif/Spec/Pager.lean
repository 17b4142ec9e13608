import Verif.Spec.Spawn
import Verif.Model.Pager
/-!
# What showing the help should do
-/
namespace Verif.Spec.Pager
open Verif Verif.Spawn Verif.Pager Verif.Spec.Spawn

/-- The `PATH`, or the default one of the system. -/
def thePath (w : World) : Option (List UInt8) :=
  match w.env with
  | some p => some p
  | none => w.confstr.toOption

/-- The file for a command, if there is one that can be executed: commands without a slash are searched for, if there is memory for that. -/
def locate (w : World) (d : Dir) (exe : List UInt8) : Option (List UInt8) :=
  if (47 : UInt8) ∈ exe then (direct w exe d).toOption
  else if w.malloc then (thePath w).bind fun path => (search w path exe d).toOption
  else none

/-- The pager that should be used: the one from the environment if that is set to something, otherwise `less`, and `more` if there is no `less`. -/
def chosen (w : World) (d : Dir) (pager : Option (List UInt8)) : Option (List UInt8) :=
  match pager.filter (· ≠ []) with
  | some p => locate w d p
  | none => (locate w d [108, 101, 115, 115]).or (locate w d [109, 111, 114, 101])

/-- The descriptors that a program inherits. -/
def inherited (t : Fds) : Fds := fun fd => if (t fd).any (·.cloexec) then none else t fd

/-- The process while the pipe exists. -/
def piped (l : Luck) (self : Child) : Child :=
  match l.pipe with
  | none => self
  | some (r, w) =>
    { self with fds := fun fd => if fd = w then some ⟨l.writeEnd, false⟩ else if fd = r then some ⟨l.readEnd, false⟩ else self.fds fd }

/-- How the system behaves: standard input is open (C88), a pipe has two new descriptors and two different new files, and starting a process works as for C67. -/
structure Normal (w : World) (l : Luck) (proc : Child) : Prop where
  stdin : (proc.fds 0).isSome
  pipe : ∀ r p, l.pipe = some (r, p) → 0 ≤ r ∧ 0 ≤ p ∧ r ≠ p ∧ proc.fds r = none ∧ proc.fds p = none
  files : l.readEnd ≠ l.writeEnd
  fresh : ∀ fd e, proc.fds fd = some e → e.file ≠ l.writeEnd
  honest : Honest w (piped l proc)
  pager : ∀ p, l.pager = some p → (0 : UInt8) ∉ p ∧ p.length < 2 ^ 64 - 1
  path : ∀ p, thePath w = some p → (0 : UInt8) ∉ p

/-- What is expected of `posix_spawn()`: it does what the actions say, in order, and then runs the file, or it fails and there is no program. -/
def Faithful (w : World) (libc : Bool → List UInt8 → List Action → Child → Result) : Prop :=
  ∀ pl reqs exe self, NoOpen reqs →
    let r := libc false exe (prepare pl false reqs).actions self
    r.fds = self.fds ∧
    match r.ret with
    | .error _ => r.program = none
    | .ok _ => ∃ p c, r.program = some p ∧ p.path = exe ∧ applyAll w reqs self = .ok c ∧
        p.fds = inherited c.fds ∧ p.cwd = c.cwd ∧ p.limits = c.limits ∧ p.blocked = false

/-- Nothing fails in starting a process, either with `posix_spawn()` or with `fork()`. -/
structure Works (pl : Plat) (w : World) (libc : Bool → List UInt8 → List Action → Child → Result) : Prop where
  posix : pl.posixSpawn = true → ∀ exe as c, ∃ pid, (libc false exe as c).ret = .ok pid
  fork : pl.posixSpawn = false → (∃ pid, w.fork = .ok pid) ∧ (∃ q, w.pipe = .ok q) ∧ w.sigfillset = none ∧ w.block = none ∧
    w.sigreset = none ∧ w.unblockChild = none ∧ ∀ d p, w.execve d p = none

/-- There is a pipe, and enough memory. -/
def _root_.Verif.Pager.Luck.good (l : Luck) : Prop :=
  (∃ q, l.pipe = some q) ∧ l.fdopen ∧ l.cfwrap ∧ l.init ∧ l.addWrite ∧ l.addStdin ∧ l.addRead

/-- Whether the name of a file is `less`. -/
def NamedLess (exe : List UInt8) : Prop := exe = [108, 101, 115, 115] ∨ [47, 108, 101, 115, 115] <:+ exe

end Verif.Spec.Pager
