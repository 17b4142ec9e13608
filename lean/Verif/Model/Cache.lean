/-!
# The cache of open directories, src/bftw.c

The part of `struct bftw_state` that decides which directories are open: the cache with its list of
eviction candidates, the pins, and the requests that are in flight in the I/O queue.  The walk
itself (see `Verif/Model/Bftw.lean`) calls these functions; here, it may do so in any order that
respects the conditions given at each step.

Files are numbered.  A doubly linked list is a `List` (see C51 for the pointers).  The I/O queue may
complete requests in any order and at any time; the main thread may collect results whenever it
likes, which includes the places where the code does.
-/
namespace Verif.Cache

abbrev Id := Nat

/-- Requests about a file, src/ioq.h:18-38; those to close something are not about a file. -/
inductive Op where
  | opendir | stat
  deriving DecidableEq, Repr

/-- `parent`: `file->parent`; roots have none, and they are the files with `depth == 0`.
`unwrapdir`: `BFS_USE_UNWRAPDIR`, src/dir.h:16-26.  `limit`: the number of files that may be open,
`nopenfd` in src/bftw.c:915-926. -/
structure Env where
  parent : Id → Option Id
  unwrapdir : Bool
  limit : Nat

/-- A record of an eviction: which file, what the candidates were (the open files that were not
pinned), how much capacity was left, and how many requests were in flight. -/
structure Eviction where
  victim : Id
  candidates : List Id
  capacity : Nat
  flying : Nat
  deriving DecidableEq, Repr

/-- `struct bftw_cache`, src/bftw.c:547-567, and what else is needed:
* `lru`, `target`, `capacity`
* `opened`: the files with `fd >= 0`
* `dirs`: the files with a `dir`
* `pins`: `pincount`
* `flight`: the requests that are in flight
* `closing`: how many requests to close something are in flight
* `cur`: the file for which `state->dir` is set
* `emfile`: has the system refused to open a file although the limit was not reached?
* `log`: the evictions, newest first (not in the code)
* `bad`: has an assertion failed, or a link been used that is not in the list? -/
structure State where
  lru : List Id
  target : Option Id
  capacity : Nat
  opened : List Id
  dirs : List Id
  pins : Id → Nat
  flight : List (Id × Op)
  closing : Nat
  cur : Option Id
  emfile : Bool
  log : List Eviction
  bad : Bool

/-- `bftw_cache_init()`, src/bftw.c:570-586. -/
def State.init (e : Env) : State :=
  { lru := [], target := none, capacity := e.limit, opened := [], dirs := [], pins := fun _ => 0, flight := [], closing := 0, cur := none, emfile := false
    log := [], bad := false }

/-- An assertion. -/
def State.need (s : State) (p : Bool) : State := { s with bad := s.bad || !p }

/-- `LIST_INSERT()` after an item, src/list.h:562-567. -/
def insertAfter (t x : Id) : List Id → List Id
  | [] => [x]
  | y :: l => if y = t then y :: x :: l else y :: insertAfter t x l

/-- `LIST_INSERT()`, src/list.h:562-567: at the start if the cursor is null. -/
def insert (l : List Id) (f : Id) : Option Id → List Id
  | none => f :: l
  | some t => insertAfter t f l

/-- `item->prev`. -/
def prevOf (x : Id) : List Id → Option Id
  | a :: b :: l => if b = x then some a else prevOf x (b :: l)
  | _ => none

/-- `bftw_lru_remove()`, src/bftw.c:609-615. -/
def State.lruRemove (s : State) (f : Id) : State :=
  { s.need (s.lru.contains f) with
    target := if s.target = some f then prevOf f s.lru else s.target
    lru := s.lru.erase f }

/-- `bftw_cache_remove()`, src/bftw.c:618-621. -/
def State.cacheRemove (s : State) (f : Id) : State :=
  let s := s.lruRemove f
  { s with capacity := s.capacity + 1 }

/-- `bftw_file_close()`, src/bftw.c:624-638. -/
def State.fileClose (s : State) (f : Id) : State :=
  let s := s.need (s.opened.contains f && s.pins f = 0)
  State.cacheRemove { s with dirs := s.dirs.erase f, opened := s.opened.erase f } f

/-- `bftw_cache_pop()`, src/bftw.c:641-649.  The result tells whether it succeeded. -/
def State.cachePop (s : State) : State × Bool :=
  match s.lru.getLast? with
  | none => (s, false)
  | some f => (State.fileClose { s with log := ⟨f, s.opened.filter (s.pins · = 0), s.capacity, s.flight.length + s.closing⟩ :: s.log } f, true)

/-- `bftw_lru_add()`, src/bftw.c:652-661. -/
def State.lruAdd (e : Env) (s : State) (f : Id) : State :=
  let s := s.need (s.opened.contains f && !s.lru.contains f && s.target.all s.lru.contains)
  { s with
    lru := insert s.lru f s.target
    target := if e.parent f = none then some f else s.target }

/-- `bftw_cache_pop()` if there is no capacity left, src/bftw.c:667. -/
def State.popIfFull (s : State) : State × Bool := if s.capacity = 0 then s.cachePop else (s, true)

/-- `bftw_cache_add()`, src/bftw.c:664-679. -/
def State.cacheAdd (e : Env) (s : State) (f : Id) : State :=
  let s := s.need (s.opened.contains f)
  let (s, ok) := s.popIfFull
  if !ok then s.fileClose f
  else
    let s := s.need (s.capacity > 0)
    State.lruAdd e { s with capacity := s.capacity - 1 } f

/-- Assignment to a pin count. -/
def upd (f : Id → Nat) (p : Id) (n : Nat) : Id → Nat := fun q => if q = p then n else f q

/-- `bftw_cache_pin()`, src/bftw.c:682-688. -/
def State.pin (s : State) (f : Id) : State :=
  let s := s.need (s.opened.contains f)
  let t := { s with pins := upd s.pins f (s.pins f + 1) }
  if s.pins f = 0 then t.lruRemove f else t

/-- `bftw_cache_unpin()`, src/bftw.c:691-698. -/
def State.unpin (e : Env) (s : State) (f : Id) : State :=
  let s := s.need (s.opened.contains f && s.pins f > 0)
  let t := { s with pins := upd s.pins f (s.pins f - 1) }
  if s.pins f = 1 then t.lruAdd e f else t

/-- The same for a pointer that may be null: `bftw_pin_parent()`, src/bftw.c:1282-1298, and
src/bftw.c:1115-1118. -/
def State.pinOpt (s : State) : Option Id → State
  | none => s
  | some f => s.pin f

/-- `bftw_unpin_parent()`, src/bftw.c:990-1001 (without `to_close`, see `Step.unwrap`), and
src/bftw.c:1136-1138. -/
def State.unpinOpt (e : Env) (s : State) : Option Id → State
  | none => s
  | some f => s.unpin e f

/-- `bftw_file_set_dir()`, src/bftw.c:762-772. -/
def State.setDir (e : Env) (s : State) (f : Id) : State :=
  let s := s.need (!s.dirs.contains f)
  let s := { s with dirs := s.dirs ++ [f] }
  if s.opened.contains f then s else State.cacheAdd e { s with opened := s.opened ++ [f] } f

/-- `bftw_ioq_pop()`, src/bftw.c:1004-1063. -/
inductive Response (e : Env) (s : State) : State → Prop
  /-- `IOQ_CLOSE` and `IOQ_CLOSEDIR` -/
  | close : s.closing > 0 → Response e s { s with closing := s.closing - 1, capacity := s.capacity + 1 }
  | stat (f : Id) : (f, .stat) ∈ s.flight → Response e s (State.unpinOpt e { s with flight := s.flight.erase (f, .stat) } (e.parent f))
  | opendir (f : Id) : (f, .opendir) ∈ s.flight →
      Response e s (State.setDir e
        (let s := State.unpinOpt e { s with flight := s.flight.erase (f, .opendir) } (e.parent f)
         { s with capacity := s.capacity + 1 }) f)
  | failed (f : Id) : (f, .opendir) ∈ s.flight →
      Response e s
        (let s := State.unpinOpt e { s with flight := s.flight.erase (f, .opendir) } (e.parent f)
         { s with capacity := s.capacity + 1 })

/-- Any number of calls of `bftw_ioq_pop()`. -/
inductive Drain (e : Env) : State → State → Prop
  | nil (s : State) : Drain e s s
  | cons {s t u : State} : Response e s t → Drain e t u → Drain e s u

/-- `bftw_cache_reserve()`, src/bftw.c:1087-1106.  Waiting for the I/O queue fails only if nothing
is in flight. -/
inductive Reserve (e : Env) : State → State → Bool → Prop
  | now (s : State) : s.capacity > 0 → Reserve e s s true
  | later {s t : State} : s.capacity = 0 → Drain e s t → t.capacity > 0 → Reserve e s t true
  | evict {s t : State} : s.capacity = 0 → Drain e s t → t.capacity = 0 → t.flight = [] → t.closing = 0 → t.cachePop.2 = true →
      Reserve e s (t.cachePop.1.need (t.cachePop.1.capacity > 0)) true
  | full {s t : State} : s.capacity = 0 → Drain e s t → t.capacity = 0 → t.flight = [] → t.closing = 0 → t.cachePop.2 = false →
      Reserve e s t.cachePop.1 false

/-- What `openat()` says. -/
inductive Result where
  | ok | emfile | error
  deriving DecidableEq, Repr

/-- src/bftw.c:1128-1133: the second attempt after `EMFILE`.  The result tells whether the file has
been opened. -/
def State.attempt (s : State) : Result → Result → State × Bool
  | .ok, _ => (s, true)
  | .error, _ => (s, false)
  | .emfile, r => ({ s.cachePop.1 with capacity := 1, emfile := true }, s.cachePop.2 && r = .ok)

/-- The end of `bftw_file_openat()`, src/bftw.c:1135-1143. -/
def State.opened' (e : Env) (s : State) (f : Id) (base : Option Id) (ok : Bool) : State :=
  let s := s.unpinOpt e base
  if ok then State.cacheAdd e { s with opened := s.opened ++ [f] } f else s

/-- `bftw_file_openat()`, src/bftw.c:1109-1146. -/
inductive Openat (e : Env) (s : State) (f : Id) (base : Option Id) : State → Prop
  | full {t : State} : Reserve e ((s.need (!s.opened.contains f)).pinOpt base) t false → Openat e s f base (t.opened' e f base false)
  | tried {t : State} (r1 r2 : Result) : Reserve e ((s.need (!s.opened.contains f)).pinOpt base) t true →
      Openat e s f base ((t.attempt r1 r2).1.opened' e f base (t.attempt r1 r2).2)

/-- `bftw_ioq_closedir()`, src/bftw.c:1185-1198, and `bftw_ioq_close()`, :1201-1212.  `async`: could
the request be queued? -/
inductive CloseFd (e : Env) : State → State → Prop
  | mk {s t : State} (async : Bool) : Drain e s t →
      CloseFd e s (if async then { t with closing := t.closing + 1 } else { t with capacity := t.capacity + 1 })

/-- `bftw_close()`, src/bftw.c:1215-1232. -/
inductive Close (e : Env) (s : State) (f : Id) : State → Prop
  | mk {t : State} :
      CloseFd e
        (let s := (s.need (s.opened.contains f && s.pins f = 0)).lruRemove f
         { s with dirs := s.dirs.erase f, opened := s.opened.erase f }) t →
      Close e s f t

/-- `bftw_unwrapdir()`, src/bftw.c:1235-1279.  `reffed`: does the file have children? -/
inductive Unwrap (e : Env) (s : State) (f : Id) (reffed : Bool) : State → Prop
  | none : f ∉ s.dirs → Unwrap e s f reffed s
  /-- `bfs_unwrapdir()` keeps the file descriptor -/
  | keep : f ∈ s.dirs → e.unwrapdir = true → (reffed = true ∨ s.pins f > 0) → Unwrap e s f reffed { s with dirs := s.dirs.erase f }
  | pinned : f ∈ s.dirs → e.unwrapdir = false → s.pins f > 0 → Unwrap e s f reffed s
  | close {t : State} : f ∈ s.dirs → s.pins f = 0 → reffed = false → Close e s f t → Unwrap e s f reffed t
  /-- no space for a duplicate -/
  | full {t : State} : f ∈ s.dirs → e.unwrapdir = false → s.pins f = 0 → reffed = true → Reserve e (s.pin f) t false → Unwrap e s f reffed (t.unpin e f)
  /-- `dup()` fails -/
  | nodup {t : State} : f ∈ s.dirs → e.unwrapdir = false → s.pins f = 0 → reffed = true → Reserve e (s.pin f) t true → Unwrap e s f reffed (t.unpin e f)
  /-- the duplicate replaces the file descriptor -/
  | dup {t u : State} : f ∈ s.dirs → e.unwrapdir = false → s.pins f = 0 → reffed = true → Reserve e (s.pin f) t true →
      CloseFd e (let t := t.unpin e f; { t with capacity := t.capacity - 1, dirs := t.dirs.erase f }) u → Unwrap e s f reffed u

/-- What the walk does. -/
inductive Step (e : Env) (s : State) : State → Prop
  /-- `bftw_ioq_pop()`, src/bftw.c:1004-1063 -/
  | response {t : State} : Response e s t → Step e s t
  /-- `bftw_ioq_stat()`, src/bftw.c:1454-1484, of a file in the queue, if its parent is open -/
  | stat (f : Id) (queued : Bool) : (∀ op, (f, op) ∉ s.flight) → (∀ p, e.parent f = some p → p ∈ s.opened) →
      Step e s (if queued then { s.pinOpt (e.parent f) with flight := s.flight ++ [(f, .stat)] }
        else (s.pinOpt (e.parent f)).unpinOpt e (e.parent f))
  /-- `bftw_ioq_opendir()`, src/bftw.c:1301-1335, of a directory in the queue, which is not open yet,
  if its parent is -/
  | opendir (f : Id) (ok queued : Bool) {t : State} : (∀ op, (f, op) ∉ s.flight) → f ∉ s.opened → (∀ p, e.parent f = some p → p ∈ s.opened) →
      Reserve e (s.pinOpt (e.parent f)) t ok →
      Step e s (if ok && queued then { t with flight := t.flight ++ [(f, .opendir)], capacity := t.capacity - 1 } else t.unpinOpt e (e.parent f))
  /-- `bftw_file_open()`, src/bftw.c:1149-1182: the main thread opens the current file, or one of its
  ancestors, while it does not read a directory.  These are not being opened asynchronously. -/
  | open_ (f : Id) (base : Option Id) {t : State} : s.cur = none → f ∉ s.opened → (∀ op, (f, op) ∉ s.flight) → (∀ b, base = some b → b ∈ s.opened) →
      Openat e s f base t → Step e s t
  /-- `bftw_file_opendir()`, src/bftw.c:1591-1610, after `bftw_file_open()` -/
  | fdopendir (f : Id) : f ∈ s.opened → f ∉ s.dirs → Step e s (s.setDir e f)
  /-- `bftw_opendir()`, src/bftw.c:1637-1639 -/
  | enter (f : Id) : s.cur = none → f ∈ s.dirs → Step e s { s.pin f with cur := some f }
  /-- `bftw_gc()`, src/bftw.c:1857-1859 -/
  | leave (f : Id) : s.cur = some f → Step e s { s.unpin e f with cur := none }
  /-- `bftw_gc()`, src/bftw.c:1877-1879, of a directory that has been read -/
  | unwrap (f : Id) (reffed : Bool) {t : State} : (∀ op, (f, op) ∉ s.flight) → Unwrap e s f reffed t → Step e s t
  /-- `bftw_gc()`, src/bftw.c:1904-1907, of a file that nothing refers to any more: it is not in use,
  and its children have been freed -/
  | free (f : Id) {t : State} : (∀ op, (f, op) ∉ s.flight) → (∀ g op, (g, op) ∈ s.flight → e.parent g ≠ some f) → s.cur ≠ some f → f ∈ s.opened →
      Close e s f t → Step e s t

/-- Everything that can happen. -/
inductive Reach (e : Env) : State → Prop
  | init : Reach e (State.init e)
  | step {s t : State} : Reach e s → Step e s t → Reach e t

end Verif.Cache
