import Verif.Model.C
/-!
# The I/O queue, src/ioq.c

The multi-producer, multi-consumer queue (`struct ioqq`) is a transition system: any number of
threads run `ioqq_push_batch()` and `ioqq_pop_batch()`, interleaved at every access to shared
memory.  Atomic operations are sequentially consistent.  Slots are 64-bit words.  The counters
`head` and `tail` do not wrap around (the code only uses them modulo the number of slots, a power
of two, see `Verif.Props.C25_wrap`).
-/
namespace Verif.Ioq

/-- `uintptr_t` -/
abbrev W := BitVec 64

/-- `IOQ_BLOCKED`, src/ioq.c:177 -/
def BLOCKED : W := 1#64

/-- `IOQ_SKIP_BIT`, src/ioq.c:180 -/
def SKIP_BIT : Nat := 63

/-- `IOQ_SKIP_ONE`, src/ioq.c:184 -/
def SKIP_ONE : W := ~~~BLOCKED

/-- `ioq_slot_blend()`, src/ioq.c:347-351. -/
def blend (slot skip full : W) : W :=
  let mask := -(slot >>> SKIP_BIT)
  let ret := (skip &&& mask) ||| (full &&& ~~~mask)
  ret &&& ~~~BLOCKED

/-- `value & IOQ_BLOCKED` -/
def blocked (w : W) : Bool := w &&& BLOCKED != 0#64

/-- `full` in `ioq_slot_push()`, src/ioq.c:358: must the push wait? -/
def pushFull (prev : W) : Bool := blend prev 0#64 prev != 0#64

/-- `next` in `ioq_slot_push()`, src/ioq.c:366-369. -/
def pushNext (prev ent : W) : W := blend prev (prev - SKIP_ONE) (ent >>> 1)

/-- The result of `ioq_slot_push()`, src/ioq.c:380: was the entry stored? -/
def pushed (prev : W) : Bool := prev &&& (1#64 <<< SKIP_BIT) == 0#64

/-- `next` in `ioq_slot_pop()`, src/ioq.c:399-401. -/
def popNext (prev : W) : W :=
  let next := prev + SKIP_ONE
  blend next next 0#64

/-- The result of `ioq_slot_pop()`, src/ioq.c:419-420. -/
def popPtr (prev : W) : W := blend prev 0#64 prev <<< 1

/-- What does not change: the number of slots, the batch size and the monitor of each slot
(`ioq_slot_monitor()`, src/ioq.c:262-275, some function of the slot's index). -/
structure Cfg where
  size : Nat
  batch : Nat
  mon : Nat → Nat

/-- What a thread is doing.  `push i n ents`: in `ioqq_push_batch()`, src/ioq.c:435-447 (or
`ioqq_push()`, :424-432, which is the same with one entry), with tickets `i .. i + n` left of this
round and entries `ents` left to push.  `popStart`, `pop i n got block`: in `ioqq_pop_batch()`,
src/ioq.c:450-458, before and after taking its tickets; `got` is what it popped so far. -/
inductive Op where
  | idle
  | push (i n : Nat) (ents : List W)
  | popStart (block : Bool)
  | pop (i n : Nat) (got : List W) (block : Bool)
  deriving DecidableEq, Repr

/-- Where a thread is.  `go`: between two slots; `try_ prev`: at the top of the loop of
`ioq_slot_push()` or `ioq_slot_pop()` (:357, :386).  `lock` to `unlock`: in `ioq_slot_wait()`,
src/ioq.c:279-323, about to lock the mutex (or still spinning), and then with the mutex about to
load the slot (:300), to set `IOQ_BLOCKED` (:307), to `cond_wait()` (:315); asleep; woken, waiting
for the mutex; with it about to load (:316); about to unlock (:321).  `wlock s` to `wcast s`: in
`ioq_slot_wake()`, src/ioq.c:327-344, for slot `s`, about to lock, unlock and broadcast. -/
inductive Pc where
  | go
  | try_ (prev : W)
  | lock (prev : W)
  | check (prev : W)
  | cas (prev : W)
  | sleepy (value : W)
  | asleep (value : W)
  | woken (value : W)
  | recheck (value : W)
  | unlock (ret : W)
  | wlock (slot : Nat)
  | wunlock (slot : Nat)
  | wcast (slot : Nat)
  deriving DecidableEq, Repr

/-- A thread. -/
structure Thread where
  op : Op
  pc : Pc
  deriving DecidableEq, Repr

/-- `struct ioqq`, src/ioq.c:191-207, the mutexes' owners and the threads.  `submitted` and
`returned` only record history: all entries given to `ioqq_push_batch()`, and all entries that
`ioqq_pop_batch()` ever stored in its output array (without the null pointers). -/
structure State where
  head : Nat
  tail : Nat
  slots : List W
  owner : Nat → Option Nat
  threads : List Thread
  submitted : List W
  returned : List W

/-- The state after `ioqq_create()`, src/ioq.c:223-259, with `n` threads. -/
def State.init (c : Cfg) (n : Nat) : State :=
  { head := 0, tail := 0, slots := List.replicate c.size 0#64, owner := fun _ => none,
    threads := List.replicate n ⟨.idle, .go⟩, submitted := [], returned := [] }

/-- An address of a `struct ioq_ent`, which is aligned (src/ioq.c:186). -/
def isPtr (p : W) : Prop := p ≠ 0#64 ∧ p.toNat % 4 = 0

/-- The index of the slot that a thread is working on (`i & mask`). -/
def Op.slot (c : Cfg) : Op → Nat
  | .push i _ _ => i % c.size
  | .pop i _ _ _ => i % c.size
  | _ => 0

/-- Has the thread got tickets left? -/
def Op.active : Op → Bool
  | .push _ (_ + 1) _ => true
  | .pop _ (_ + 1) _ _ => true
  | _ => false

/-- Does it wait if it sees this value (src/ioq.c:359, :403)?  Only the first pop of a batch
blocks. -/
def Op.waits (prev : W) : Op → Bool
  | .push _ _ _ => pushFull prev
  | .pop _ _ got block => block && got.isEmpty && popNext prev != 0#64
  | _ => false

/-- The new value of the slot. -/
def Op.next (prev : W) : Op → W
  | .push _ _ (e :: _) => pushNext prev e
  | .pop _ _ _ _ => popNext prev
  | _ => prev

/-- What is left to do after the slot has been updated. -/
def Op.advance (prev : W) : Op → Op
  | .push i n (e :: es) => .push (i + 1) (n - 1) (if pushed prev then es else e :: es)
  | .pop i n got block => .pop (i + 1) (n - 1) (got ++ [popPtr prev]) block
  | op => op

/-- The entries popped so far by an unfinished `ioqq_pop_batch()`. -/
def Op.hand : Op → List W
  | .pop _ _ got _ => got.filter (· ≠ 0#64)
  | _ => []

/-- `cond_broadcast()` on a monitor. -/
def wake (c : Cfg) (m : Nat) (th : Thread) : Thread :=
  match th.pc with
  | .asleep v => if c.mon (th.op.slot c) = m then { th with pc := .woken v } else th
  | _ => th

/-- Value of a slot. -/
def State.slot (s : State) (i : Nat) : W := s.slots.getD i 0#64

/-- Replace a thread. -/
def State.put (s : State) (t : Nat) (th : Thread) : State := { s with threads := s.threads.set t th }

/-- Lock or unlock a mutex. -/
def State.setOwner (s : State) (m : Nat) (o : Option Nat) : State :=
  { s with owner := fun k => if k = m then o else s.owner k }

/-- One step of thread `t`. -/
inductive Step (c : Cfg) (s : State) (t : Nat) : State → Prop
  /-- the thread calls `ioqq_push_batch()` -/
  | startPush (ents : List W) : s.threads[t]? = some ⟨.idle, .go⟩ → (∀ p ∈ ents, isPtr p) →
      Step c s t ({ s with submitted := s.submitted ++ ents }.put t ⟨.push 0 0 ents, .go⟩)
  /-- the thread calls `ioqq_pop_batch()` -/
  | startPop (block : Bool) : s.threads[t]? = some ⟨.idle, .go⟩ → Step c s t (s.put t ⟨.popStart block, .go⟩)
  /-- src/ioq.c:438 -/
  | claimPush (i : Nat) (ents : List W) : s.threads[t]? = some ⟨.push i 0 ents, .go⟩ → ents ≠ [] →
      Step c s t ({ s with head := s.head + ents.length }.put t ⟨.push s.head ents.length ents, .go⟩)
  /-- src/ioq.c:446 -/
  | donePush (i : Nat) : s.threads[t]? = some ⟨.push i 0 [], .go⟩ → Step c s t (s.put t ⟨.idle, .go⟩)
  /-- src/ioq.c:452 -/
  | claimPop (block : Bool) : s.threads[t]? = some ⟨.popStart block, .go⟩ →
      Step c s t ({ s with tail := s.tail + c.batch }.put t ⟨.pop s.tail c.batch [] block, .go⟩)
  /-- src/ioq.c:458 -/
  | donePop (i : Nat) (got : List W) (block : Bool) : s.threads[t]? = some ⟨.pop i 0 got block, .go⟩ →
      Step c s t ({ s with returned := s.returned ++ (Op.pop i 0 got block).hand }.put t ⟨.idle, .go⟩)
  /-- src/ioq.c:355, :385 -/
  | load (op : Op) : s.threads[t]? = some ⟨op, .go⟩ → op.active = true →
      Step c s t (s.put t ⟨op, .try_ (s.slot (op.slot c))⟩)
  /-- src/ioq.c:361, :404 -/
  | wait (op : Op) (prev : W) : s.threads[t]? = some ⟨op, .try_ prev⟩ → op.waits prev = true →
      Step c s t (s.put t ⟨op, .lock prev⟩)
  /-- src/ioq.c:371, :408, if `compare_exchange_weak()` succeeds -/
  | update (op : Op) (prev : W) : s.threads[t]? = some ⟨op, .try_ prev⟩ → op.waits prev = false →
      s.slot (op.slot c) = prev →
      Step c s t ({ s with slots := s.slots.set (op.slot c) (op.next prev) }.put t
        ⟨op.advance prev, if blocked prev then .wlock (op.slot c) else .go⟩)
  /-- src/ioq.c:371, :408, if it fails, maybe for no reason -/
  | retry (op : Op) (prev : W) : s.threads[t]? = some ⟨op, .try_ prev⟩ → op.waits prev = false →
      Step c s t (s.put t ⟨op, .try_ (s.slot (op.slot c))⟩)
  /-- src/ioq.c:291-293 -/
  | spin (op : Op) (prev : W) : s.threads[t]? = some ⟨op, .lock prev⟩ → s.slot (op.slot c) ≠ prev →
      Step c s t (s.put t ⟨op, .try_ (s.slot (op.slot c))⟩)
  /-- src/ioq.c:298 -/
  | lock (op : Op) (prev : W) : s.threads[t]? = some ⟨op, .lock prev⟩ → s.owner (c.mon (op.slot c)) = none →
      Step c s t ((s.setOwner (c.mon (op.slot c)) (some t)).put t ⟨op, .check prev⟩)
  /-- src/ioq.c:300-303 -/
  | checkChanged (op : Op) (prev : W) : s.threads[t]? = some ⟨op, .check prev⟩ → s.slot (op.slot c) ≠ prev →
      Step c s t (s.put t ⟨op, .unlock (s.slot (op.slot c))⟩)
  /-- src/ioq.c:305 -/
  | checkSame (op : Op) (prev : W) : s.threads[t]? = some ⟨op, .check prev⟩ → s.slot (op.slot c) = prev →
      Step c s t (s.put t ⟨op, if blocked prev then .sleepy prev else .cas prev⟩)
  /-- src/ioq.c:306-307 -/
  | casOk (op : Op) (prev : W) : s.threads[t]? = some ⟨op, .cas prev⟩ → s.slot (op.slot c) = prev →
      Step c s t ({ s with slots := s.slots.set (op.slot c) (prev ||| BLOCKED) }.put t ⟨op, .sleepy (prev ||| BLOCKED)⟩)
  /-- src/ioq.c:307-308 -/
  | casFail (op : Op) (prev : W) : s.threads[t]? = some ⟨op, .cas prev⟩ → s.slot (op.slot c) ≠ prev →
      Step c s t (s.put t ⟨op, .unlock (s.slot (op.slot c))⟩)
  /-- src/ioq.c:315: releases the mutex and sleeps, atomically -/
  | sleep (op : Op) (v : W) : s.threads[t]? = some ⟨op, .sleepy v⟩ →
      Step c s t ((s.setOwner (c.mon (op.slot c)) none).put t ⟨op, .asleep v⟩)
  /-- src/ioq.c:315, a spurious wake-up -/
  | spurious (op : Op) (v : W) : s.threads[t]? = some ⟨op, .asleep v⟩ → Step c s t (s.put t ⟨op, .woken v⟩)
  /-- src/ioq.c:315 takes the mutex again -/
  | relock (op : Op) (v : W) : s.threads[t]? = some ⟨op, .woken v⟩ → s.owner (c.mon (op.slot c)) = none →
      Step c s t ((s.setOwner (c.mon (op.slot c)) (some t)).put t ⟨op, .recheck v⟩)
  /-- src/ioq.c:316-317 -/
  | recheck (op : Op) (v : W) : s.threads[t]? = some ⟨op, .recheck v⟩ →
      Step c s t (s.put t ⟨op, if s.slot (op.slot c) = v then .sleepy v else .unlock (s.slot (op.slot c))⟩)
  /-- src/ioq.c:320-322 -/
  | unlock (op : Op) (ret : W) : s.threads[t]? = some ⟨op, .unlock ret⟩ →
      Step c s t ((s.setOwner (c.mon (op.slot c)) none).put t ⟨op, .try_ ret⟩)
  /-- src/ioq.c:341 -/
  | wlock (op : Op) (i : Nat) : s.threads[t]? = some ⟨op, .wlock i⟩ → s.owner (c.mon i) = none →
      Step c s t ((s.setOwner (c.mon i) (some t)).put t ⟨op, .wunlock i⟩)
  /-- src/ioq.c:342 -/
  | wunlock (op : Op) (i : Nat) : s.threads[t]? = some ⟨op, .wunlock i⟩ →
      Step c s t ((s.setOwner (c.mon i) none).put t ⟨op, .wcast i⟩)
  /-- src/ioq.c:343 -/
  | wcast (op : Op) (i : Nat) : s.threads[t]? = some ⟨op, .wcast i⟩ →
      Step c s t ({ s with threads := s.threads.map (wake c (c.mon i)) }.put t ⟨op, .go⟩)

/-- Everything that can happen, starting with `n` threads and an empty queue. -/
inductive Reach (c : Cfg) (n : Nat) : State → Prop
  | init : Reach c n (State.init c n)
  | step {s s' : State} (t : Nat) : Reach c n s → Step c s t s' → Reach c n s'

end Verif.Ioq
