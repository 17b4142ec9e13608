import Verif.Model.IoqLife
import Verif.Spec.Bit

/-! # What C98 is about -/
namespace Verif.Life
open Verif

/-- Nothing is held. -/
def nothing : Live := fun _ => false

/-- Nothing fails while a queue with `size` slots is created, which has a monitor per slot, and at most 64. -/
def QLuck.good (w : QLuck) (size : Nat) : Prop := w.alloc = true ∧ w.monitors = true ∧ ∀ i, i < size → i < 64 → w.mutex i = true ∧ w.cond i = true

/-- Nothing that matters fails: memory, mutexes, conditions and `n` threads. -/
def World.good (w : World) (size n : Nat) : Prop := w.alloc = true ∧ (w.queue false).good size ∧ (w.queue true).good size ∧ ∀ i, i < n → w.thread i = true

/-- What is held by a queue with `size` slots and these threads: two queues with their monitors, the threads, and the rings that could be initialized. -/
def held (size : Nat) (ths : List Th) : Live
  | .ioq => true
  | .queue _ => true
  | .monitors _ => true
  | .mutex _ i => decide (i < size ∧ i < 64)
  | .cond _ i => decide (i < size ∧ i < 64)
  | .probe => false
  | .ring i => (ths.map fun th => decide (th.err = 0)).getD i false
  | .thread i => decide (i < ths.length)

/-- The flags of the first ring are those that the kernel does not refuse, the last two only if a ring can be disabled at first. -/
structure FlagsOk (w : World) (f : Flags) : Prop where
  attach : f.attach = false
  needs : f.single = true ∨ f.defer = true → f.disabled = true
  submitAll : f.submitAll = true ↔ w.probe 0 { submitAll := true } ≠ EINVAL
  disabled : f.disabled = true ↔ w.probe 1 { submitAll := f.submitAll, disabled := true } ≠ EINVAL
  single : f.disabled = true → (f.single = true ↔ w.probe 2 { submitAll := f.submitAll, disabled := true, single := true } ≠ EINVAL)
  defer : f.disabled = true → (f.defer = true ↔ w.probe 3 { submitAll := f.submitAll, disabled := true, single := f.single, defer := true } ≠ EINVAL)

/-- The ring of the first thread. -/
structure First (w : World) (th : Th) : Prop where
  flags : FlagsOk w th.flags
  err : th.err = if w.init 0 th.flags ≠ 0 then w.init 0 th.flags else if (w.supported.getD {}).empty then ENOTSUP else 0
  ops : th.err = 0 → th.ops = w.supported.getD {}

/-- The ring of the `i`th thread, after `p`: if `p` has none, neither has it; otherwise it shares the workers of `p`'s. -/
structure Next (w : World) (p : Th) (i : Nat) (th : Th) : Prop where
  sticky : p.err ≠ 0 → th.err = p.err
  flags : p.err = 0 → th.flags = { p.flags with attach := true } ∧ th.err = w.init i th.flags
  ops : th.err = 0 → th.ops = p.ops

/-- The rings of all threads. -/
def Rings (w : World) : List Th → Prop
  | [] => True
  | th :: ths => First w th ∧ ∀ i p q, (th :: ths)[i]? = some p → (th :: ths)[i + 1]? = some q → Next w p (i + 1) q

end Verif.Life
