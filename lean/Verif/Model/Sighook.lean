/-!
# Signal hooks, src/sighook.c

One RCU-protected list of hooks, with one writer (`sigmutex` excludes others) and any number of
readers (signal handlers that may run at any time, on any thread), as a transition system that
interleaves at every access to shared memory.  Atomic operations are sequentially consistent.

A node is a number.  Node 0 stands for the list itself: its cell (a `struct rcu`) is `list->head`;
the cell of another node is its `next` field.  Addresses are not reused.  The flag `bad` is set
when a freed node is accessed, an assertion fails or a reference count underflows.
-/
namespace Verif.Sighook

/-- A `struct arc`, src/sighook.c:53-65: one of the two `slots` of a node's cell. -/
abbrev Slot := Nat × Bool

/-- Assignment to an array element. -/
def upd {α β : Type} [DecidableEq α] (f : α → β) (a : α) (b : β) : α → β := fun z => if z = a then b else f z

/-- What the writer does after `arc_wait()`: return from `rcu_list_append()` (src/sighook.c:279-284),
go on in `rcu_list_remove()` (:287-296), or return from `rcu_destroy()` in `rcu_list_remove()`. -/
inductive Kont where
  | append (n : Nat)
  | remove (n : Nat) (next : Option Nat)
  | destroy (n : Nat)
  deriving DecidableEq, Repr

/-- Where it is in `rcu_update()`, src/sighook.c:240-250: about to set the pointer (:93), the
reference count (:94), the active slot (:248), to drop its reference (in `arc_wait()`, :137-161),
to wait for the semaphore, to take the pointer. -/
inductive Phase where
  | set | ref | pub | sub | wait | take
  deriving DecidableEq, Repr

/-- The writer: updating cell `x` to `v`, where slot `i` was active. -/
inductive WPc where
  | idle
  | run (ph : Phase) (x : Nat) (i : Bool) (v : Option Nat) (k : Kont)
  deriving DecidableEq, Repr

/-- A reader, in `for_rcu`, src/sighook.c:304-313.  `prev` is the reference it still has on the
cell before.  In `rcu_read()` (src/sighook.c:222-231) of cell `c`: about to load the active slot,
the reference count (`arc_get()`, :98-107), to increment it, to load the pointer.  Then about to
drop the reference `h` (`arc_put()`, :110-120), to post the semaphore, with node `p`; with node `p`
in the loop's body; after the loop, about to drop the last reference, to post the semaphore. -/
inductive RPc where
  | idle
  | active (c : Nat) (prev : Option Slot)
  | get (c : Nat) (k : Bool) (prev : Option Slot)
  | cas (c : Nat) (k : Bool) (refs : Nat) (prev : Option Slot)
  | ptr (c : Nat) (k : Bool) (prev : Option Slot)
  | put (c : Nat) (k : Bool) (p : Option Nat) (h : Slot)
  | post (c : Nat) (k : Bool) (p : Option Nat) (h : Slot)
  | visit (c : Nat) (k : Bool) (p : Option Nat)
  | fput (c : Nat) (k : Bool)
  | fpost (c : Nat) (k : Bool)
  deriving DecidableEq, Repr

/-- The lists' memory: `active` and the slots' `refs`, `ptr` (`none` for `NULL`, `some none` for
`RCU_NULL`) and `sem`, src/sighook.c:53-65, :177-182; `self` of nodes and `tail`, :255-270.
`alive`: allocated and not freed; `fresh`: the next address.  `hooks` records what has been
registered and not been unregistered, in order. -/
structure State where
  active : Nat → Bool
  refs : Slot → Nat
  ptr : Slot → Option (Option Nat)
  sem : Slot → Nat
  self : Nat → Nat
  tail : Nat
  alive : Nat → Bool
  fresh : Nat
  writer : WPc
  readers : List RPc
  hooks : List Nat
  bad : Bool

/-- `rcu_list_init()`, src/sighook.c:273-276, with `n` readers. -/
def State.init (n : Nat) : State :=
  { active := fun _ => false, refs := upd (fun _ => 0) (0, false) 1, ptr := upd (fun _ => none) (0, false) (some none),
    sem := fun _ => 0, self := fun _ => 0, tail := 0, alive := upd (fun _ => false) 0 true, fresh := 1,
    writer := .idle, readers := List.replicate n .idle, hooks := [], bad := false }

/-- An assertion or an access to memory that must be valid. -/
def State.need (s : State) (p : Bool) : State := { s with bad := s.bad || !p }

/-- A reader moves on. -/
def State.put (s : State) (t : Nat) (r : RPc) : State := { s with readers := s.readers.set t r }

/-- After loading the reference count in `arc_get()`: try again with the active slot, or to
increment. -/
def afterLoad (refs c : Nat) (k : Bool) (prev : Option Slot) : RPc := if refs = 0 then .active c prev else .cas c k refs prev

/-- `fetch_sub()` by a reader. -/
def State.drop (s : State) (h : Slot) : State := { s with refs := upd s.refs h (s.refs h - 1) }

/-- After `arc_wait()`: the rest of `rcu_update()` and of what called it. -/
def State.after (s : State) : Kont → State
  /- src/sighook.c:284 -/
  | .append n => { s with writer := .idle, hooks := s.hooks ++ [n] }
  /- src/sighook.c:290-296, up to the `fetch_sub()` in `arc_wait()` -/
  | .remove n (some m) => { s with self := upd s.self m (s.self n), writer := .run .sub n (s.active n) none (.destroy n) }
  | .remove n none => { s with tail := 0, writer := .run .sub n (s.active n) none (.destroy n) }
  /- src/sighook.c:215-219, :164-172, and `free()` in `sigunhook()`, :673 -/
  | .destroy n => { s.need (s.refs (n, true) = 0 ∧ s.refs (n, false) = 0) with alive := upd s.alive n false, writer := .idle }

/-- `rcu_list_append()`, src/sighook.c:279-284, of a new node, up to `arc_set()` in `rcu_update()`. -/
def State.append (s : State) : State :=
  let n := s.fresh
  let x := s.tail
  { s.need (s.alive x) with
    alive := upd s.alive n true, fresh := n + 1, self := upd s.self n x, tail := n,
    active := upd s.active n false, refs := upd (upd s.refs (n, false) 1) (n, true) 0,
    ptr := upd (upd s.ptr (n, false) (some none)) (n, true) none, sem := upd (upd s.sem (n, false) 0) (n, true) 0,
    writer := .run .set x (s.active x) (some n) (.append n) }

/-- `rcu_list_remove()`, src/sighook.c:287-296, up to `arc_set()` in `rcu_update()`. -/
def State.remove (s : State) (n : Nat) : State :=
  let next := s.ptr (n, s.active n)
  { s.need (s.alive n ∧ s.alive (s.self n) ∧ next ≠ none) with
    hooks := s.hooks.erase n, writer := .run .set (s.self n) (s.active (s.self n)) (next.getD none) (.remove n (next.getD none)) }

/-- One step of the writer.  `sem`: do semaphores work? -/
inductive WStep (sem : Bool) (s : State) : State → Prop
  | append : s.writer = .idle → WStep sem s s.append
  /-- only a registered hook can be unregistered -/
  | remove (n : Nat) : s.writer = .idle → n ∈ s.hooks → WStep sem s (s.remove n)
  /-- src/sighook.c:90-93 -/
  | set (x : Nat) (i : Bool) (v : Option Nat) (k : Kont) : s.writer = .run .set x i v k →
      WStep sem s { s.need (s.alive x ∧ s.refs (x, !i) = 0) with ptr := upd s.ptr (x, !i) (some v), writer := .run .ref x i v k }
  /-- src/sighook.c:94 -/
  | ref (x : Nat) (i : Bool) (v : Option Nat) (k : Kont) : s.writer = .run .ref x i v k →
      WStep sem s { s.need (s.alive x) with refs := upd s.refs (x, !i) 1, writer := .run .pub x i v k }
  /-- src/sighook.c:248 -/
  | pub (x : Nat) (i : Bool) (v : Option Nat) (k : Kont) : s.writer = .run .pub x i v k →
      WStep sem s { s.need (s.alive x) with active := upd s.active x (!i), writer := .run .sub x i v k }
  /-- src/sighook.c:138-142 -/
  | sub (x : Nat) (i : Bool) (v : Option Nat) (k : Kont) : s.writer = .run .sub x i v k →
      WStep sem s { s.need (s.alive x ∧ s.refs (x, i) > 0) with
        refs := upd s.refs (x, i) (s.refs (x, i) - 1), writer := .run (if s.refs (x, i) - 1 = 0 then .take else .wait) x i v k }
  /-- src/sighook.c:143-147 -/
  | wait (x : Nat) (i : Bool) (v : Option Nat) (k : Kont) : s.writer = .run .wait x i v k → sem = true → 0 < s.sem (x, i) →
      WStep sem s { s.need (s.alive x ∧ s.refs (x, i) = 0) with sem := upd s.sem (x, i) (s.sem (x, i) - 1), writer := .run .take x i v k }
  /-- src/sighook.c:150-153 -/
  | spin (x : Nat) (i : Bool) (v : Option Nat) (k : Kont) : s.writer = .run .wait x i v k → sem = false → s.refs (x, i) = 0 →
      WStep sem s { s.need (s.alive x) with writer := .run .take x i v k }
  /-- src/sighook.c:158-160, :194 -/
  | take (x : Nat) (i : Bool) (v : Option Nat) (k : Kont) : s.writer = .run .take x i v k →
      WStep sem s (({ s.need (s.alive x ∧ s.ptr (x, i) ≠ none) with ptr := upd s.ptr (x, i) none } : State).after k)

/-- One step of reader `t`. -/
inductive RStep (sem : Bool) (s : State) (t : Nat) : State → Prop
  /-- a signal arrives, src/sighook.c:475 -/
  | start : s.readers[t]? = some .idle → RStep sem s t (s.put t (.active 0 none))
  /-- src/sighook.c:210 -/
  | active (c : Nat) (prev : Option Slot) : s.readers[t]? = some (.active c prev) →
      RStep sem s t ((s.need (s.alive c)).put t (.get c (s.active c) prev))
  /-- src/sighook.c:99-103 -/
  | get (c : Nat) (k : Bool) (prev : Option Slot) : s.readers[t]? = some (.get c k prev) →
      RStep sem s t ((s.need (s.alive c)).put t (afterLoad (s.refs (c, k)) c k prev))
  /-- src/sighook.c:104 -/
  | casOk (c : Nat) (k : Bool) (r : Nat) (prev : Option Slot) : s.readers[t]? = some (.cas c k r prev) → s.refs (c, k) = r →
      RStep sem s t (({ s.need (s.alive c) with refs := upd s.refs (c, k) (r + 1) } : State).put t (.ptr c k prev))
  /-- src/sighook.c:104, maybe for no reason -/
  | casFail (c : Nat) (k : Bool) (r : Nat) (prev : Option Slot) : s.readers[t]? = some (.cas c k r prev) →
      RStep sem s t ((s.need (s.alive c)).put t (afterLoad (s.refs (c, k)) c k prev))
  /-- src/sighook.c:106, :194 -/
  | ptr (c : Nat) (k : Bool) (prev : Option Slot) : s.readers[t]? = some (.ptr c k prev) →
      RStep sem s t ((s.need (s.alive c ∧ s.ptr (c, k) ≠ none)).put t (match prev with
        | none => .visit c k ((s.ptr (c, k)).getD none)
        | some h => .put c k ((s.ptr (c, k)).getD none) h))
  /-- src/sighook.c:111 -/
  | put (c : Nat) (k : Bool) (p : Option Nat) (h : Slot) : s.readers[t]? = some (.put c k p h) →
      RStep sem s t (((s.need (s.alive h.1 ∧ s.refs h > 0)).drop h).put t (if s.refs h = 1 then .post c k p h else .visit c k p))
  /-- src/sighook.c:115-117 -/
  | post (c : Nat) (k : Bool) (p : Option Nat) (h : Slot) : s.readers[t]? = some (.post c k p h) →
      RStep sem s t (({ s.need (s.alive h.1) with sem := upd s.sem h (s.sem h + 1) } : State).put t (.visit c k p))
  /-- run the hook, src/sighook.c:476-479, and go on to the next one -/
  | run (c : Nat) (k : Bool) (n : Nat) : s.readers[t]? = some (.visit c k (some n)) →
      RStep sem s t ((s.need (s.alive n)).put t (.active n (some (c, k))))
  /-- leave the loop, at the end of the list or with `break` -/
  | leave (c : Nat) (k : Bool) (p : Option Nat) : s.readers[t]? = some (.visit c k p) → RStep sem s t (s.put t (.fput c k))
  /-- src/sighook.c:111 -/
  | fput (c : Nat) (k : Bool) : s.readers[t]? = some (.fput c k) →
      RStep sem s t (((s.need (s.alive c ∧ s.refs (c, k) > 0)).drop (c, k)).put t (if s.refs (c, k) = 1 then .fpost c k else .idle))
  /-- src/sighook.c:115-117 -/
  | fpost (c : Nat) (k : Bool) : s.readers[t]? = some (.fpost c k) →
      RStep sem s t (({ s.need (s.alive c) with sem := upd s.sem (c, k) (s.sem (c, k) + 1) } : State).put t .idle)

/-- Everything that can happen, starting with an empty list and `n` readers. -/
inductive Reach (sem : Bool) (n : Nat) : State → Prop
  | init : Reach sem n (State.init n)
  | writer {s s' : State} : Reach sem n s → WStep sem s s' → Reach sem n s'
  | reader {s s' : State} (t : Nat) : Reach sem n s → RStep sem s t s' → Reach sem n s'

end Verif.Sighook
