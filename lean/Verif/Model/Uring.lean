import Verif.Model.IoqApi
/-!
# I/O threads that use `io_uring`, src/ioq.c:653-938

One thread runs these functions; the kernel, the other threads and the rest of the program act
through an environment that answers each interaction.  `now` counts the interactions.  Loops take
a bound on their iterations; a run that reaches it stops where it is (`Res.more`), so that the runs
for all bounds include every beginning of an endless run.
-/
namespace Verif.Uring

open Verif.Ioq (W Batch)

/-- `EINTR` -/
def EINTR : Int := 4

/-- `enum ioq_op`, src/ioq.h:23-35, with the `type` of a no-op. -/
inductive Op
  | nop (heavy : Bool) | close | opendir | closedir | stat
  deriving DecidableEq, Repr

/-- What does not change while a thread runs: `IOQ_BATCH` (src/ioq.c:461),
`ring->sq.ring_entries`, `enum ioq_ring_ops` (:544-548), `BFS_USE_UNWRAPDIR`, `BFS_USE_STATX`,
the `op` of each entry, and the address of `IOQ_STOP` (:538). -/
structure Cfg where
  B : Nat
  entries : Nat
  openat : Bool
  close : Bool
  statx : Bool
  useUnwrapdir : Bool
  useStatx : Bool
  op : W → Op
  stop : W

/-- How the environment answers the interaction number `t`.
* `cancelled t`: is `ioq->cancel` set?
* `submit t`: what `io_uring_submit_and_wait()` returns (more than there is counts as all of it).
* `complete t`: the requests the kernel completes meanwhile, as positions among those it has, and
  their results.
* `got t`, `tryGot t`: what a blocking and a non-blocking `ioqq_pop_batch()` obtain.
* `result t`: the result (negative for errors) of a function called by this thread:
  `ioq_dispatch_sync()`, `bfs_opendir()` or `bfs_statx_convert()`. -/
structure Env where
  cancelled : Nat → Bool
  submit : Nat → Int
  complete : Nat → List (Nat × Int)
  got : Nat → List W
  tryGot : Nat → List W
  result : Nat → Int

/-- `struct ioq_ring_state`, src/ioq.c:656-671, the ring, and the local `pending` of
`ioq_ring_prep()`.  The other fields only record what has happened, for the specification. -/
structure State where
  now : Nat
  /-- the prepared entries of the submission queue -/
  sq : List W
  /-- what the kernel is working on -/
  flight : List W
  /-- the completion queue -/
  cq : List (W × Int)
  prepped : Nat
  submitted : Nat
  stop : Bool
  pending : Batch
  ready : Batch
  /-- `seen` of `ioq_ring_drain()` -/
  seen : Nat
  /-- the request that `ioq_prep_sqe()` is working on -/
  hand : List W
  /-- what was taken from `ioq->pending` -/
  received : List W
  /-- what was put back there -/
  returned : List W
  /-- what was handed to `ioq->ready` -/
  sent : List W
  /-- the requests that got a result, and the result -/
  answers : List (W × Int)
  /-- the requests that were refused with `EINTR` -/
  refused : List W
  /-- the requests that this thread performed, and the results -/
  synced : List (W × Int)
  /-- the requests that were given to the kernel -/
  queued : List W
  /-- what the kernel said about them -/
  completed : List (W × Int)
  /-- the descriptors that became part of a `struct bfs_dir` -/
  kept : List (W × Int)
  /-- the descriptors that were closed -/
  closed : List (W × Int)
  deriving DecidableEq, Repr

/-- How a function ends: it returns, it reaches the bound on its iterations, or it fails an
assertion, dereferences a null pointer or lets a counter wrap. -/
inductive Res (α : Type)
  | done (a : α)
  | more (s : State)
  | ub
  deriving DecidableEq, Repr

/-- Sequencing. -/
def Res.andThen {α β : Type} : Res α → (α → Res β) → Res β
  | .done a, f => f a
  | .more s, _ => .more s
  | .ub, _ => .ub

/-- The initial state, src/ioq.c:924-928 (the rest is zeroed). -/
def State.start (c : Cfg) : State :=
  { now := 0, sq := [], flight := [], cq := [], prepped := 0, submitted := 0, stop := false, pending := ⟨0, 0, List.replicate c.B 0#64⟩,
    ready := ⟨0, 0, List.replicate c.B 0#64⟩, seen := 0, hand := [], received := [], returned := [], sent := [], answers := [], refused := [],
    synced := [], queued := [], completed := [], kept := [], closed := [] }

/-- `ioq_batch_push(ioq->ready, &state->ready, ent)` after `ent->result = r`, src/ioq.c:494-500. -/
def State.push (c : Cfg) (s : State) (ent : W) (r : Int) : Res State :=
  match s.ready.push c.B ent with
  | .ok (b, l) => .done { s with ready := b, sent := s.sent ++ l, answers := s.answers ++ [(ent, r)] }
  | _ => .ub

/-- `ioq_batch_flush(ioq->ready, &state->ready)`, src/ioq.c:486-491. -/
def State.flush (s : State) : State :=
  { s with ready := s.ready.flush.1, sent := s.sent ++ s.ready.flush.2 }

/-- The kernel completes requests: `(i, r)` says that the `i`th it has got the result `r`. -/
def State.completeAll (s : State) : List (Nat × Int) → State
  | [] => s
  | (i, r) :: l =>
    match s.flight[i]? with
    | some ent => completeAll { s with flight := s.flight.eraseIdx i, cq := s.cq ++ [(ent, r)], completed := s.completed ++ [(ent, r)] } l
    | none => completeAll s l

/-- Some time passes; the kernel may complete requests. -/
def State.kernel (e : Env) (s : State) : State :=
  let s := s.completeAll (e.complete s.now)
  { s with now := s.now + 1 }

/-- Is the request one to close something?  src/ioq.c:606 -/
def Op.closes : Op → Bool
  | .close | .closedir => true
  | _ => false

/-- `ioq_check_cancel()`, src/ioq.c:600-612. -/
def checkCancel (c : Cfg) (e : Env) (s : State) (ent : W) : Bool :=
  e.cancelled s.now && !(c.op ent).closes

/-- The case `IOQ_OPENDIR` of `ioq_reap_cqe()`, src/ioq.c:674-718. -/
def reapOpendir (c : Cfg) (e : Env) (s : State) (ent : W) (fd : Int) : Res State :=
  if checkCancel c e s ent then { s with now := s.now + 1, closed := s.closed ++ [(ent, fd)] }.push c ent (-EINTR)
  else
    let r := e.result s.now
    if 0 ≤ r then { s with now := s.now + 1, kept := s.kept ++ [(ent, fd)] }.push c ent r
    else { s with now := s.now + 1, closed := s.closed ++ [(ent, fd)] }.push c ent r

/-- `ioq_reap_cqe()`, src/ioq.c:674-718. -/
def reap (c : Cfg) (e : Env) (s : State) (ent : W) (res : Int) : Res State :=
  if res < 0 then s.push c ent res
  else match c.op ent with
    | .opendir => reapOpendir c e s ent res
    | .stat => if c.useStatx then { s with now := s.now + 1 }.push c ent (e.result s.now) else s.push c ent res
    | _ => s.push c ent res

/-- `io_uring_for_each_cqe`, src/ioq.c:733-738, for the entries that are there at the beginning.
Each leaves the queue when it has been handled (the C code advances the queue afterwards; nothing
looks at it in between). -/
def reapAll (c : Cfg) (e : Env) : List (W × Int) → State → Res State
  | [], s => .done s
  | (ent, r) :: l, s => (reap c e { s with cq := l, seen := s.seen + 1 } ent r).andThen (reapAll c e l)

/-- The loop of `ioq_ring_drain()`, src/ioq.c:721-750; completions can come in at any time. -/
def drainLoop (c : Cfg) (e : Env) : Nat → Nat → State → Res State
  | 0, _, s => .more s
  | n + 1, wait, s =>
    if s.submitted = 0 then .done s
    else
      let s := s.kernel e
      (reapAll c e s.cq { s with seen := 0 }).andThen fun s =>
        if s.seen ≤ s.submitted then
          let seen := s.seen
          let s := { s with submitted := s.submitted - seen, seen := 0 }
          if wait ≤ seen then .done s else drainLoop c e n (wait - seen) s
        else .ub

/-- `ioq_ring_drain()`, src/ioq.c:721-750. -/
def drain (c : Cfg) (e : Env) (n : Nat) (s : State) (wait : Nat) : Res State :=
  if wait ≤ s.submitted then (drainLoop c e n wait s).andThen fun s => .done s.flush else .ub

/-- `io_uring_submit_and_wait()`: the first entries of the submission queue go to the kernel.  An
error means that none does. -/
def State.submitSome (e : Env) (s : State) : State × Nat :=
  let k := min (e.submit s.now).toNat s.sq.length
  ({ s with sq := s.sq.drop k, flight := s.flight ++ s.sq.take k }.kernel e, k)

/-- The loop of `ioq_ring_submit()`, src/ioq.c:753-790, with `wait_nr`. -/
def submitLoop (c : Cfg) (e : Env) : Nat → Nat → State → Res (State × Nat)
  | 0, _, s => .more s
  | n + 1, wait, s =>
    if s.prepped = 0 then .done (s, wait)
    else
      let ret := (s.submitSome e).2
      let s := (s.submitSome e).1
      if ret = 0 then submitLoop c e n wait s
      else if ret ≤ s.prepped then
        let s := { s with submitted := s.submitted + ret, prepped := s.prepped - ret }
        if 0 < s.prepped then (drain c e n s s.submitted).andThen (submitLoop c e n 0)
        else submitLoop c e n wait s
      else .ub

/-- src/ioq.c:756-768 -/
def waitNr (c : Cfg) (s : State) : Nat :=
  let unreaped := s.prepped + s.submitted
  let w := if s.prepped = 0 ∧ 0 < unreaped then 1 else 0
  if c.entries < unreaped then unreaped - c.entries else w

/-- `ioq_ring_submit()`, src/ioq.c:753-790. -/
def submit (c : Cfg) (e : Env) (n : Nat) (s : State) : Res State :=
  (submitLoop c e n (waitNr c s) s).andThen fun (s, wait) => drain c e n s wait

/-- `ioq_reserve_sqes()`, src/ioq.c:793-797, with the `count` that `ioq_get_sqe()` passes. -/
def reserve (c : Cfg) (e : Env) : Nat → State → Res State
  | 0, s => .more s
  | n + 1, s => if c.entries - s.sq.length < 1 then (submit c e n s).andThen (reserve c e n) else .done s

/-- `ioq_get_sqe()`, src/ioq.c:800-803, and its use for the request `ent` (src/ioq.c:811-856,
:875-876).  A null pointer from `io_uring_get_sqe()` would be dereferenced. -/
def getSqe (c : Cfg) (e : Env) (n : Nat) (s : State) (ent : W) : Res State :=
  (reserve c e n s).andThen fun s =>
    if s.sq.length < c.entries then
      .done { s with sq := s.sq ++ [ent], queued := s.queued ++ [ent], hand := [], prepped := s.prepped + 1 }
    else .ub

/-- Which requests `ioq_dispatch_async()` gives to the kernel, src/ioq.c:810-858. -/
def async (c : Cfg) : Op → Bool
  | .nop heavy => heavy
  | .close => c.close
  | .opendir => c.openat
  | .closedir => c.useUnwrapdir && c.close
  | .stat => c.useStatx && c.statx

/-- `ioq_ring_empty()`, src/ioq.c:861-863. -/
def State.isEmpty (s : State) : Bool := s.prepped == 0 && s.submitted == 0 && s.ready.isEmpty

/-- `ioq_prep_sqe()`, src/ioq.c:866-881. -/
def prepSqe (c : Cfg) (e : Env) (n : Nat) (s : State) (ent : W) : Res State :=
  if checkCancel c e s ent then { s with now := s.now + 1, hand := [], refused := s.refused ++ [ent] }.push c ent (-EINTR)
  else if async c (c.op ent) then getSqe c e n { s with now := s.now + 1 } ent
  else { s with now := s.now + 1, hand := [], synced := s.synced ++ [(ent, e.result s.now)] }.push c ent (e.result s.now)

/-- `ioq_batch_pop(ioq->pending, &pending, ioq_ring_empty(state))`, src/ioq.c:896-897: what it
would get from the queue, -/
def State.offer (e : Env) (s : State) : List W := if s.isEmpty then e.got s.now else e.tryGot s.now

/-- whether it asks the queue (src/ioq.c:519-530), -/
def State.fills (c : Cfg) (s : State) : Bool := s.pending.isEmpty && (s.isEmpty || decide (c.B ≤ s.pending.head))

/-- and the state afterwards. -/
def State.popped (c : Cfg) (e : Env) (s : State) : State × W :=
  let p := s.pending.pop c.B s.isEmpty (s.offer e)
  ({ s with now := s.now + 1, pending := p.1, received := if s.fills c then s.received ++ (s.offer e).filter (· ≠ 0#64) else s.received }, p.2)

/-- The loop of `ioq_ring_prep()`, src/ioq.c:884-910. -/
def prepLoop (c : Cfg) (e : Env) : Nat → State → Res State
  | 0, s => .more s
  | n + 1, s =>
    let ent := (s.popped c e).2
    let s := (s.popped c e).1
    if ent = c.stop then .done { s with returned := s.returned ++ [ent], stop := true }
    else if ent ≠ 0#64 then (prepSqe c e n { s with hand := [ent] } ent).andThen (prepLoop c e n)
    else .done s

/-- `ioq_ring_prep()`, src/ioq.c:884-910, with what it returns. -/
def prep (c : Cfg) (e : Env) (n : Nat) (s : State) : Res (State × Bool) :=
  if s.stop then .done (s, false)
  else (prepLoop c e n { s with pending := s.pending.reset }).andThen fun s =>
    if s.pending.isEmpty then .done (s, !s.isEmpty) else .ub

/-- The loop of `ioq_ring_work()`, src/ioq.c:913-936. -/
def workLoop (c : Cfg) (e : Env) : Nat → State → Res State
  | 0, s => .more s
  | n + 1, s => (prep c e n s).andThen fun (s, more) => if more then (submit c e n s).andThen (workLoop c e n) else .done s

/-- `ioq_ring_work()`, src/ioq.c:913-936, once the ring is enabled. -/
def work (c : Cfg) (e : Env) (n : Nat) : Res State :=
  (workLoop c e n (State.start c)).andThen fun s => drain c e n s s.submitted

end Verif.Uring
