import Verif.Model.Bftw

/-!
# Iterative and exponential deepening, src/bftw.c:2152-2343

Each pass is a walk of `bftw_impl()` (see `Verif/Model/Bftw.lean`) with `bftw_ids_callback()` as its
callback.  The file system does not change between the passes.  The trie of pruned paths is a list
(see C05 for the trie); memory for it can always be allocated.
-/
namespace Verif.Bftw

/-- `ftwbuf->depth`: the roots have depth 0. -/
def depth (p : Pos) : Nat := p.length - 1

/-- `struct bftw_ids_state`, src/bftw.c:2155-2176: `calls` records the calls of the delegate, newest
first, with what it answered.  A call with the type `BFS_ERROR` is recorded as `err`. -/
structure Ids where
  visit : Visit
  force : Bool
  min : Nat
  max : Nat
  pruned : List Bytes
  bottom : Bool
  calls : List Event
  deriving DecidableEq

/-- `bftw_ids_init()`, src/bftw.c:2237-2252. -/
def Ids.init : Ids := { visit := .pre, force := false, min := 0, max := 1, pruned := [], bottom := false, calls := [] }

/-- `state->delegate(ftwbuf, state->ptr)`. -/
def Ids.delegate (e : Env) (st : Ids) (v : Visit) (p : Pos) (path : Bytes) : Ids × Action :=
  let a := e.callback st.calls v p path
  ({ st with calls := ⟨v, p, path, a⟩ :: st.calls }, a)

/-- src/bftw.c:2206-2209 -/
def Ids.ask (e : Env) (st : Ids) (v : Visit) (p : Pos) (path : Bytes) : Ids × Action :=
  if (if st.force then st.visit else v) = st.visit then st.delegate e st.visit p path else (st, .cont)

/-- src/bftw.c:2211-2231 -/
def Ids.decide_ (e : Env) (p : Pos) (path : Bytes) : Ids × Action → Ids × Action
  | (st, .cont) => if e.isDir p && depth p + 1 ≥ st.max then ({ st with bottom := false }, .prune) else (st, .cont)
  | (st, .prune) => if e.isDir p then ({ st with pruned := path :: st.pruned }, .prune) else (st, .prune)
  | (st, .stop) => (st, .stop)

/-- `bftw_ids_callback()`, src/bftw.c:2179-2234. -/
def Ids.call (e : Env) (st : Ids) (v : Visit) (p : Pos) (path : Bytes) : Ids × Action :=
  if v = .err || e.error p then
    if depth p + 1 ≥ st.min then st.delegate e .err p path else (st, .prune)
  else if depth p < st.min then (st, if st.pruned.contains path then .prune else .cont)
  else if st.visit = .post && st.pruned.contains path then (st, .prune)
  else Ids.decide_ e p path (st.ask e v p path)

/-- The state after the calls of the callback so far (newest first) in a pass. -/
def Ids.after (e : Env) (st : Ids) : List Event → Ids
  | [] => st
  | ev :: tr => (Ids.call e (Ids.after e st tr) ev.visit ev.pos ev.path).1

/-- The nested walk: `e.callback` is the delegate. -/
def Ids.env (e : Env) (st : Ids) (path0 : Bytes) (junk : Nat → Nat → UInt8) (post : Bool) : Env :=
  { e with
    callback := fun tr v p path => (Ids.call e (Ids.after e st tr) v p path).2
    path0 := path0, junk := junk, post := post }

/-- One pass from `st` to `st'`, which is not stopped; `buf` and `buf'` are what is in the buffer for
paths. -/
def Pass (e : Env) (post : Bool) (st : Ids) (buf : Bytes) (st' : Ids) (buf' : Bytes) : Prop :=
  ∃ junk s, Reach (Ids.env e st buf junk post) s ∧ s.pc = .done ∧ st' = Ids.after e st s.trace ∧ buf' = s.path

/-- src/bftw.c:2275-2276 -/
def idsNext (st : Ids) : Ids := { st with min := st.min + 1, max := st.max + 1 }

/-- src/bftw.c:2313-2314 -/
def edsNext (st : Ids) : Ids := { st with min := st.max, max := st.max * 2 }

/-- The first loop of `bftw_ids()`, src/bftw.c:2263-2296, and of `bftw_eds()`, :2301-2328, which differ
only in `next`. -/
inductive Search (e : Env) (next : Ids → Ids) : Ids → Bytes → Prop
  | init : Search e next Ids.init []
  | pass {st st' : Ids} {buf buf' : Bytes} : Search e next st buf → st.bottom = false → Pass e false { st with bottom := true } buf st' buf' →
      Search e next (next st') buf'

/-- The second loop of `bftw_ids()`, src/bftw.c:2279-2291. -/
inductive IdsPost (e : Env) : Ids → Bytes → Prop
  | init {st : Ids} {buf : Bytes} : Search e idsNext st buf → st.bottom = true → e.post = true → IdsPost e { st with visit := .post, force := true } buf
  | pass {st st' : Ids} {buf buf' : Bytes} : IdsPost e st buf → st.min > 0 →
      Pass e false { st with max := st.max - 1, min := st.min - 1 } buf st' buf' → IdsPost e st' buf'

/-- The second part of `bftw_eds()`, src/bftw.c:2317-2323. -/
inductive EdsPost (e : Env) : Ids → Prop
  | pass {st st' : Ids} {buf buf' : Bytes} : Search e edsNext st buf → st.bottom = true → e.post = true →
      Pass e true { st with visit := .post, min := 0 } buf st' buf' → EdsPost e st'

/-- `bftw()`, src/bftw.c:2330-2343, with one of these strategies: the state when the search is over, if
it was not stopped. -/
inductive Deepened (e : Env) : Ids → Prop
  | ids {st : Ids} {buf : Bytes} : e.strategy = .ids → e.post = false → Search e idsNext st buf → st.bottom = true → Deepened e st
  | eds {st : Ids} {buf : Bytes} : e.strategy = .eds → e.post = false → Search e edsNext st buf → st.bottom = true → Deepened e st
  | idsPost {st : Ids} {buf : Bytes} : e.strategy = .ids → IdsPost e st buf → st.min = 0 → Deepened e st
  | edsPost {st : Ids} : e.strategy = .eds → EdsPost e st → Deepened e st

/-- `bftw_ids()` and `bftw_eds()`, src/bftw.c:2263-2328, at any time during a pass, whether or not the callback has just stopped the search. -/
inductive Midway (e : Env) : Ids → Prop
  | ids {st : Ids} {buf : Bytes} {junk : Nat → Nat → UInt8} {s : State} : e.strategy = .ids → Search e idsNext st buf → st.bottom = false →
      Reach (Ids.env e { st with bottom := true } buf junk false) s → Midway e (Ids.after e { st with bottom := true } s.trace)
  | eds {st : Ids} {buf : Bytes} {junk : Nat → Nat → UInt8} {s : State} : e.strategy = .eds → Search e edsNext st buf → st.bottom = false →
      Reach (Ids.env e { st with bottom := true } buf junk false) s → Midway e (Ids.after e { st with bottom := true } s.trace)
  | idsPost {st : Ids} {buf : Bytes} {junk : Nat → Nat → UInt8} {s : State} : e.strategy = .ids → IdsPost e st buf → st.min > 0 →
      Reach (Ids.env e { st with max := st.max - 1, min := st.min - 1 } buf junk false) s →
      Midway e (Ids.after e { st with max := st.max - 1, min := st.min - 1 } s.trace)
  | edsPost {st : Ids} {buf : Bytes} {junk : Nat → Nat → UInt8} {s : State} : e.strategy = .eds → Search e edsNext st buf → st.bottom = true → e.post = true →
      Reach (Ids.env e { st with visit := .post, min := 0 } buf junk true) s → Midway e (Ids.after e { st with visit := .post, min := 0 } s.trace)

end Verif.Bftw
