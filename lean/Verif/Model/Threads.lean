import Verif.Model.C
/-!
# How many threads there are by default (src/bfstd.c, src/ctx.c, src/eval.c)
-/
namespace Verif.Threads
open Verif

/-- What `sched_getaffinity()` says: an error, or a mask of the processors that may be used. -/
inductive Affinity where
  | mask (cpus : List Bool)
  | invalid
  | denied
  deriving DecidableEq, Repr

/-- The system: whether memory of some size can be had, what `sched_getaffinity()` says for a mask of some size, and what `sysconf(_SC_NPROCESSORS_ONLN)` says. -/
structure Sys where
  malloc : Nat → Bool
  affinity : Nat → Affinity
  online : Int

/-- `sizeof(cpu_set_t)` on Linux. -/
def setSize : Nat := 128

/-- `CPU_COUNT_S()`: the number of bits that are set. -/
def cpuCount (cpus : List Bool) : Nat := cpus.countP id

/-- `bfs_sched_getaffinity()`, src/bfstd.c:893-917: the result, whether `errno` is `EINVAL` if it is negative, and how much memory is still held. -/
def getaffinity (sys : Sys) (size : Nat) : Int × Bool × Nat :=
  let large := decide (setSize < size)
  if large && !sys.malloc size then (-1, false, 0)
  else
    let held := if large then 1 else 0
    let r := match sys.affinity size with
      | .mask cpus => ((cpuCount cpus : Int), false)
      | .invalid => (-1, true)
      | .denied => (-1, false)
    let held := if large then held - 1 else held
    (r.1, r.2, held)

/-- The loop of `nproc()`, src/bfstd.c:924-941, for up to `fuel` turns; `size` has 64 bits. -/
def loop (sys : Sys) : Nat → Nat → Option Int
  | 0, _ => none
  | fuel + 1, size =>
    let r := getaffinity sys size
    if r.1 < 0 && r.2.1 then loop sys fuel (size * 2 % 2 ^ 64) else some r.1

/-- `nproc()`, src/bfstd.c:920-953. -/
def nproc (sys : Sys) (fuel : Nat) : Option Int :=
  (loop sys fuel setSize).map fun ret =>
    let ret := if ret < 1 then sys.online else ret
    if ret < 1 then 1 else ret

/-- The default number of threads in `bfs_ctx_new()`, src/ctx.c:41-45. -/
def defaultThreads (sys : Sys) (fuel : Nat) : Option Int :=
  (nproc sys fuel).map fun n => if n > 8 then 8 else n

/-- The number of I/O threads that `bfs_eval()` asks for, src/eval.c:1730: one is the main thread. -/
def ioThreads (threads : Int) : Int := threads - 1

end Verif.Threads
