import Verif.Model.Uring
import Verif.Spec.IoqApi
/-!
# What a thread that uses `io_uring` owes
-/
namespace Verif.Uring

open Verif.Ioq (W nonNull)

/-- What the queue guarantees: a batch has `B` places, a blocking pop gets at least one entry (C25,
C26).  Nothing comes after the stop marker in a batch; the queue does *not* guarantee this
(`C59_stop_counterexample`). -/
structure Env.Proper (c : Cfg) (e : Env) : Prop where
  gotLen : ∀ t, (e.got t).length = c.B
  tryLen : ∀ t, (e.tryGot t).length = c.B
  gotSome : ∀ t, ∀ p ∈ (e.got t).head?, p ≠ 0#64
  gotLast : ∀ t pre rest, nonNull (e.got t) = pre ++ c.stop :: rest → rest = []
  tryLast : ∀ t pre rest, nonNull (e.tryGot t) = pre ++ c.stop :: rest → rest = []

/-- The sizes make sense, and the stop marker is not a null pointer. -/
structure Cfg.Good (c : Cfg) : Prop where
  batch : 0 < c.B
  ring : 0 < c.entries
  marker : c.stop ≠ 0#64

/-- The state at which a run has arrived. -/
inductive Res.At : Res State → State → Prop
  | done (s : State) : Res.At (.done s) s
  | more (s : State) : Res.At (.more s) s

/-- The requests that got an answer, which is in the ready queue or the batch for it. -/
def State.answered (s : State) : List W := s.answers.map Prod.fst

/-- The requests that have been received and have no answer yet. -/
def State.waiting (s : State) : List W := s.hand ++ s.pending.content ++ s.sq ++ s.flight ++ s.cq.map Prod.fst

/-- The requests the kernel has, or has finished and not been asked about. -/
def State.inKernel (s : State) : Nat := s.flight.length + s.cq.length

/-- Does this completion carry a file descriptor? -/
def isFd (c : Cfg) (x : W × Int) : Bool := decide (c.op x.1 = .opendir) && decide (0 ≤ x.2)

/-- `r` is the right answer to the request `ent`, given what the kernel said about it:
errors are passed on; a directory that was opened is either passed on, or closed again and the
request fails; the result of `statx()` still has to be converted; everything else is passed on. -/
def Answer (c : Cfg) (e : Env) (s : State) (ent : W) (said r : Int) : Prop :=
  if said < 0 then r = said
  else match c.op ent with
    | .opendir => (0 ≤ r ∧ (∃ t, r = e.result t) ∧ (ent, said) ∈ s.kept) ∨ (r < 0 ∧ (r = -EINTR ∨ ∃ t, r = e.result t) ∧ (ent, said) ∈ s.closed)
    | .stat => if c.useStatx then ∃ t, r = e.result t else r = said
    | _ => r = said

/-- A request that may be refused: only closing always happens, or descriptors would be lost. -/
def Refusable (o : Op) : Prop := o ≠ .close ∧ o ≠ .closedir

/-- What the kernel can do for the thread, if it has the operations that are needed: `close()` also
closes a directory, if there is nothing to free before; `openat()` opens one. -/
inductive KernelCan (c : Cfg) : Op → Prop
  | nop : KernelCan c (.nop true)
  | close (h : c.close = true) : KernelCan c .close
  | opendir (h : c.openat = true) : KernelCan c .opendir
  | closedir (h : c.close = true) (hu : c.useUnwrapdir = true) : KernelCan c .closedir
  | stat (h : c.statx = true) (hu : c.useStatx = true) : KernelCan c .stat

/-- Where an answer can come from: the queue was cancelled, the thread did it itself, or the kernel
did it. -/
def Explained (c : Cfg) (e : Env) (s : State) (ent : W) (r : Int) : Prop :=
  (r = -EINTR ∧ ent ∈ s.refused ∧ (∃ t, e.cancelled t = true) ∧ Refusable (c.op ent)) ∨
  (ent, r) ∈ s.synced ∨
  ∃ said, (ent, said) ∈ s.completed ∧ Answer c e s ent said r

/-- The kernel makes progress: each call submits something, and something completes if there is
anything to complete. -/
structure Env.Progress (e : Env) : Prop where
  submits : ∀ t, 0 < e.submit t
  completes : ∀ t, ∃ r l, e.complete t = (0, r) :: l

/-- From `T` on the pending queue contains the stop marker and nothing else. -/
structure Env.StopsAt (c : Cfg) (e : Env) (T : Nat) : Prop where
  got : ∀ t, T ≤ t → nonNull (e.got t) = [c.stop]
  tryGot : ∀ t, T ≤ t → nonNull (e.tryGot t) = [] ∨ nonNull (e.tryGot t) = [c.stop]

end Verif.Uring
