import Verif.Model.C
/-!
# Resource limits (src/bfstd.c, src/eval.c, src/exec.c, src/bftw.c)
-/
namespace Verif.Limits

/-- The values of `RLIM_INFINITY`, `RLIM_SAVED_CUR` and `RLIM_SAVED_MAX`. A platform without the last two is one where they equal the first. -/
structure Plat where
  infinity : Nat
  savedCur : Nat
  savedMax : Nat

/-- `rlim_isinf()`, src/bfstd.c:582-601. -/
def rlimIsinf (p : Plat) (r : Nat) : Bool :=
  if r = p.infinity then true
  else if r = p.savedCur then true
  else if r = p.savedMax then true
  else false

/-- `rlim_cmp()`, src/bfstd.c:603-611. -/
def rlimCmp (p : Plat) (a b : Nat) : Int :=
  let aInf := rlimIsinf p a
  let bInf := rlimIsinf p b
  if aInf || bInf then (aInf.toNat : Int) - bInf.toNat
  else ((decide (a > b)).toNat : Int) - (decide (a < b)).toNat

/-- `struct rlimit`. -/
structure Rlimit where
  cur : Nat
  max : Nat
  deriving DecidableEq, Repr

/-- The fields of `struct bfs_ctx` that matter here. -/
structure Ctx where
  orig : Rlimit
  cur : Rlimit
  raise : Bool

/-- `bfs_ctx_new()`, src/ctx.c:27-77: the limits that bfs starts with. -/
def newCtx (rl : Rlimit) : Ctx := ⟨rl, rl, true⟩

/-- `raise_fdlimit()`, src/eval.c:1554-1581. `sys` is what `setrlimit()` does to the limits of the process, or nothing if it fails. The result is the value (before it is converted to `int`), the context, and the limits of the process. -/
def raiseFdlimit (p : Plat) (sys : Rlimit → Option Rlimit) (ctx : Ctx) (proc : Rlimit) : Nat × Ctx × Rlimit :=
  let cur := ctx.orig.cur
  let max := if ctx.raise then ctx.orig.max else cur
  let target := if rlimCmp p 65536 max > 0 then max else 65536
  if rlimCmp p target cur ≤ 0 then (target, ctx, proc)
  else
    match sys ⟨target, max⟩ with
    | none => (cur, ctx, proc)
    | some new => (target, { ctx with cur := ⟨target, max⟩ }, new)

/-- The number of open file descriptors according to `infer_fdlimit()`, src/eval.c:1601-1637: `entries` is the number of entries in `/proc/self/fd`, which includes the one that is used to read it, or nothing if it can't be read. -/
def countOpen (nfiles : Int) (entries : Option Nat) : Int :=
  match entries with
  | none => 3 + nfiles
  | some n => -1 + n

/-- `infer_fdlimit()`, src/eval.c:1601-1637. -/
def inferFdlimit (limit nfiles : Int) (entries : Option Nat) (persistent ephemeral : Int) : Int :=
  let ret := limit - countOpen nfiles entries
  let ret := ret - persistent
  let ret := ret - ephemeral
  if ret < 2 then 2 else ret

/-- `bftw_state_init()`, src/bftw.c:898-978: how many descriptors are left for directories, and how many threads there are. `uring` is `BFS_WITH_LIBURING`. -/
def splitFds (uring : Bool) (nopenfd nthreads : Nat) : Option (Nat × Nat) :=
  if nopenfd < 2 then none
  else if uring then
    let nthreads := if nthreads ≥ nopenfd - 1 then nopenfd - 2 else nthreads
    some (nopenfd - nthreads, nthreads)
  else some (nopenfd, nthreads)

/-- `bfs_exec_spawn()`, src/exec.c:331-420: the limits of a child process. -/
def childLimits (p : Plat) (ctx : Ctx) (proc : Rlimit) : Rlimit :=
  if rlimCmp p ctx.orig.cur ctx.cur.cur < 0 then ctx.orig else proc

end Verif.Limits
