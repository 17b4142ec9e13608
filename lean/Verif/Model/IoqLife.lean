import Verif.Model.Bit

/-!
# Setting up and tearing down the I/O queue

`ioq_create()` and `ioq_destroy()` of src/ioq.c with everything that they acquire, and everything that may fail. Built with `BFS_WITH_LIBURING`; without it, it is as
if no ring could be initialized. The arenas and the threads' work are elsewhere in the model.
-/
namespace Verif.Life
open Verif

/-- What can be held. `ready` is the queue of answers; otherwise it is the queue of requests. -/
inductive Res
  /-- `struct ioq`. -/
  | ioq
  /-- `struct ioqq`. -/
  | queue (ready : Bool)
  /-- The array of monitors. -/
  | monitors (ready : Bool)
  | mutex (ready : Bool) (i : Nat)
  | cond (ready : Bool) (i : Nat)
  /-- A ring that is only used to test flags. -/
  | probe
  | ring (i : Nat)
  | thread (i : Nat)
  deriving DecidableEq, Repr

/-- What is held. -/
abbrev Live := Res → Bool

/-- Acquire something; it must not be held already. -/
def take (r : Res) (l : Live) : Out Live := if l r then .ub else .ok fun x => if x = r then true else l x

/-- Release something; releasing what is not held is undefined. -/
def give (r : Res) (l : Live) : Out Live := if l r then .ok fun x => if x = r then false else l x else .ub

/-- Flags of `io_uring_queue_init_params()`: `IORING_SETUP_SUBMIT_ALL`, `R_DISABLED`, `SINGLE_ISSUER`, `DEFER_TASKRUN` and `ATTACH_WQ`. -/
structure Flags where
  submitAll : Bool := false
  disabled : Bool := false
  single : Bool := false
  defer : Bool := false
  attach : Bool := false
  deriving DecidableEq, Repr

/-- `enum ioq_ring_ops`, src/ioq.c:544-548. -/
structure Ops where
  openat : Bool := false
  close : Bool := false
  statx : Bool := false
  deriving DecidableEq, Repr

/-- No operation at all. -/
def Ops.empty (o : Ops) : Bool := !o.openat && !o.close && !o.statx

/-- `EINVAL`. -/
def EINVAL : Nat := 22
/-- `ENOTSUP`. -/
def ENOTSUP : Nat := 95

/-- What may fail in `ioqq_create()`. -/
structure QLuck where
  alloc : Bool
  monitors : Bool
  mutex : Nat → Bool
  cond : Nat → Bool

/-- What may fail in `ioq_create()`. `probe k` and `init i` are the errors of `io_uring_queue_init_params()` when flags are tested for the `k`th time and for the `i`th ring, 0 for
success; `supported` are the operations according to `io_uring_get_probe_ring()`. -/
structure World where
  alloc : Bool
  queue : Bool → QLuck
  probe : Nat → Flags → Nat
  init : Nat → Flags → Nat
  supported : Option Ops
  thread : Nat → Bool

/-- `ioq_monitor_init()`, src/ioq.c:154-165. -/
def monitorInit (w : QLuck) (q : Bool) (i : Nat) (l : Live) : Out (Bool × Live) :=
  if !w.mutex i then .ok (false, l)
  else (take (.mutex q i) l).bind fun l =>
    if !w.cond i then (give (.mutex q i) l).bind fun l => .ok (false, l)
    else (take (.cond q i) l).bind fun l => .ok (true, l)

/-- `ioq_monitor_destroy()`, src/ioq.c:168-171. -/
def monitorDestroy (q : Bool) (i : Nat) (l : Live) : Out Live := (give (.cond q i) l).bind fun l => give (.mutex q i) l

/-- `struct ioqq`, src/ioq.c:191-207, as far as it is about monitors: is `monitors` not null, and `monitor_mask`. -/
structure Ioqq where
  monitors : Bool
  mask : BitVec 64
  deriving DecidableEq, Repr

/-- The loop of `ioqq_destroy()`, src/ioq.c:215-217: `n` iterations are left. -/
def monitorsDestroy (q : Bool) (i : Nat) : Nat → Live → Out Live
  | 0, l => .ok l
  | n + 1, l => (monitorDestroy q i l).bind (monitorsDestroy q (i + 1) n)

/-- `free(ioqq->monitors)`, src/ioq.c:218. -/
def freeMonitors (q : Bool) (x : Ioqq) (l : Live) : Out Live := if x.monitors then give (.monitors q) l else .ok l

/-- `ioqq_destroy()`, src/ioq.c:210-220. -/
def ioqqDestroy (q : Bool) (x : Option Ioqq) (l : Live) : Out Live :=
  match x with
  | none => .ok l
  | some x => (monitorsDestroy q 0 (x.mask + 1).toNat l).bind fun l => (freeMonitors q x l).bind (give (.queue q))

/-- The first loop of `ioqq_create()`, src/ioq.c:243-249: `n` iterations are left. -/
def monitorsInit (w : QLuck) (q : Bool) (i : Nat) : Nat → BitVec 64 → Live → Out (Bool × BitVec 64 × Live)
  | 0, mask, l => .ok (true, mask, l)
  | n + 1, mask, l => (monitorInit w q i l).bind fun r => if r.1 then monitorsInit w q (i + 1) n (mask + 1) r.2 else .ok (false, mask, r.2)

/-- The end of `ioqq_create()`, src/ioq.c:243-259. -/
def ioqqFinish (q : Bool) (r : Bool × BitVec 64 × Live) : Out (Option Ioqq × Live) :=
  if r.1 then .ok (some ⟨true, r.2.1⟩, r.2.2) else (ioqqDestroy q (some ⟨true, r.2.1⟩) r.2.2).bind fun l => .ok (none, l)

/-- `ioqq_create()`, src/ioq.c:223-259. -/
def ioqqCreate (w : QLuck) (q : Bool) (depth : Nat) (l : Live) : Out (Option Ioqq × Live) :=
  (Bit.bitCeil Bit.leadingZerosGnu 64 depth).bind fun size =>
    if !w.alloc then .ok (none, l)
    else (take (.queue q) l).bind fun l =>
      if !w.monitors then (ioqqDestroy q (some ⟨false, -1⟩) l).bind fun l => .ok (none, l)
      else (take (.monitors q) l).bind fun l => (monitorsInit w q 0 (if size < 64 then size else 64) (-1) l).bind (ioqqFinish q)

/-- What `struct ioq_thread`, src/ioq.c:552-566, says about the ring. -/
structure Th where
  err : Nat
  ops : Ops := {}
  flags : Flags := {}
  deriving DecidableEq, Repr

/-- A ring that is closed as soon as it is open. -/
def openClose (e : Nat) (l : Live) : Out Live := if e = 0 then (take .probe l).bind (give .probe) else .ok l

/-- `ioq_ring_probe_flags()`, src/ioq.c:987-1003: `new` are the flags `old` and those to be tested. -/
def probeFlags (w : World) (k : Nat) (old new : Flags) (l : Live) : Out (Bool × Flags × Live) :=
  (openClose (w.probe k new) l).bind fun l => .ok (if w.probe k new = EINVAL then (false, old, l) else (true, new, l))

/-- The flags that need a ring that is disabled at first, src/ioq.c:1035-1042. -/
def probeMore (w : World) (r : Bool × Flags × Live) : Out (Flags × Live) :=
  if r.1 then
    (probeFlags w 2 r.2.1 { r.2.1 with single := true } r.2.2).bind fun r =>
      (probeFlags w 3 r.2.1 { r.2.1 with defer := true } r.2.2).bind fun r => .ok r.2
  else .ok r.2

/-- The flags of the first ring, src/ioq.c:1026-1044. -/
def firstFlags (w : World) (l : Live) : Out (Flags × Live) :=
  (probeFlags w 0 {} { submitAll := true } l).bind fun r =>
    (probeFlags w 1 r.2.1 { r.2.1 with disabled := true } r.2.2).bind (probeMore w)

/-- `ioq_ring_init()` for the first thread, from src/ioq.c:1046 on. -/
def firstRing (w : World) (r : Flags × Live) : Out (Th × Live) :=
  if w.init 0 r.1 ≠ 0 then .ok (⟨w.init 0 r.1, {}, r.1⟩, r.2)
  else (take (.ring 0) r.2).bind fun l =>
    if (w.supported.getD {}).empty then (give (.ring 0) l).bind fun l => .ok (⟨ENOTSUP, {}, r.1⟩, l)
    else .ok (⟨0, w.supported.getD {}, r.1⟩, l)

/-- `ioq_ring_init()` for the thread after `prev`. -/
def nextRing (w : World) (prev : Th) (i : Nat) (l : Live) : Out (Th × Live) :=
  if prev.err ≠ 0 then .ok (⟨prev.err, {}, {}⟩, l)
  else
    let flags := { prev.flags with attach := true }
    if w.init i flags ≠ 0 then .ok (⟨w.init i flags, {}, flags⟩, l)
    else (take (.ring i) l).bind fun l => .ok (⟨0, prev.ops, flags⟩, l)

/-- `ioq_ring_init()`, src/ioq.c:1007-1093. -/
def ringInit (w : World) (prev : Option Th) (i : Nat) (l : Live) : Out (Th × Live) :=
  match prev with
  | none => (firstFlags w l).bind (firstRing w)
  | some prev => nextRing w prev i l

/-- `ioq_ring_exit()`, src/ioq.c:1096-1102. -/
def ringExit (th : Th) (i : Nat) (l : Live) : Out Live := if th.err = 0 then give (.ring i) l else .ok l

/-- `ioq_thread_create()`, src/ioq.c:1105-1122. -/
def threadCreate (w : World) (prev : Option Th) (i : Nat) (l : Live) : Out (Bool × Th × Live) :=
  (ringInit w prev i l).bind fun r =>
    if !w.thread i then (ringExit r.1 i r.2).bind fun l => .ok (false, r.1, l)
    else (take (.thread i) r.2).bind fun l => .ok (true, r.1, l)

/-- `ioq_thread_join()`, src/ioq.c:1125-1128. -/
def threadJoin (th : Th) (i : Nat) (l : Live) : Out Live := (give (.thread i) l).bind (ringExit th i)

/-- `struct ioq`, src/ioq.c:568-597: the queues, and the first `nthreads` threads. -/
structure Ioq where
  pending : Option Ioqq := none
  ready : Option Ioqq := none
  threads : List Th := []
  deriving DecidableEq, Repr

/-- The loop of `ioq_destroy()`, src/ioq.c:1317-1319, from the `i`th thread on. -/
def joinAll (i : Nat) : List Th → Live → Out Live
  | [], l => .ok l
  | th :: ths, l => (threadJoin th i l).bind (joinAll (i + 1) ths)

/-- `ioq_destroy()`, src/ioq.c:1308-1330. -/
def destroy (x : Option Ioq) (l : Live) : Out Live :=
  match x with
  | none => .ok l
  | some x => (joinAll 0 x.threads l).bind fun l => (ioqqDestroy true x.ready l).bind fun l => (ioqqDestroy false x.pending l).bind (give .ioq)

/-- The loop of `ioq_create()`, src/ioq.c:1154-1159: `n` threads are left, and `ths` have been created. -/
def createAll (w : World) : Nat → List Th → Live → Out (Bool × List Th × Live)
  | 0, ths, l => .ok (true, ths, l)
  | n + 1, ths, l => (threadCreate w ths.getLast? ths.length l).bind fun r => if r.1 then createAll w n (ths ++ [r.2.1]) r.2.2 else .ok (false, ths, r.2.2)

/-- `fail:` in `ioq_create()`, src/ioq.c:1164-1168. -/
def fail (x : Option Ioq) (l : Live) : Out (Option Ioq × Live) := (destroy x l).bind fun l => .ok (none, l)

/-- `ioq_create()`, src/ioq.c:1130-1169. -/
def create (w : World) (depth nthreads : Nat) (l : Live) : Out (Option Ioq × Live) :=
  if !w.alloc then fail none l
  else (take .ioq l).bind fun l => (ioqqCreate (w.queue false) false depth l).bind fun p =>
    match p.1 with
    | none => fail (some {}) p.2
    | some pending => (ioqqCreate (w.queue true) true depth p.2).bind fun r =>
      match r.1 with
      | none => fail (some { pending := some pending }) r.2
      | some ready => (createAll w nthreads [] r.2).bind fun t =>
        let x : Ioq := ⟨some pending, some ready, t.2.1⟩
        if t.1 then .ok (some x, t.2.2) else fail (some x) t.2.2

/-- Which loop a thread runs. -/
inductive Mode
  | uring
  | sync
  deriving DecidableEq, Repr

/-- `ioq_work()`, src/ioq.c:970-983, and the beginning of `ioq_ring_work()`, src/ioq.c:913-936: `enable` says whether `io_uring_enable_rings()` succeeds. -/
def work (th : Th) (enable : Bool) : Mode := if th.err = 0 ∧ (th.flags.disabled = false ∨ enable = true) then .uring else .sync

end Verif.Life
