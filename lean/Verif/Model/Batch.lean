import Verif.Model.Quota
import Verif.Model.Exec
import Verif.Model.Path

/-!
# `-exec` and `-execdir` in a search, src/eval.c, src/exec.c

The buffers of `Verif/Model/Exec.lean` are filled by the search of `Verif/Model/Quota.lean`.
-/
namespace Verif.Batch
open Verif.Bftw Verif.Quota

/-- The buffer of a command, and the system as far as it concerns this command. Simplified: how the system
answers depends on earlier runs of the same command only. -/
abbrev Cmd := Exec.Exec × Exec.World

/-- How the library calls that are made for a file turn out. -/
structure Calls where
  formatOk : Bool := true
  dupOk : Bool := true
  strndupOk : Bool := true
  openOk : Bool := true
  reallocOk : Bool := true

/-- The primaries.
* `num`: `expr->num`, if action number `i` is a `-limit`
* `cmd`: `expr->exec`, if action number `i` is an `-exec` or `-execdir` (or `-ok` or `-okdir`), and whether it
  ends in `+`
* `calls`: what happens when it is evaluated on a file
* `other`: all other primaries -/
structure Actions (V : Type) where
  num : Nat → Option Int
  cmd : Nat → Option (Bool × Cmd)
  calls : Nat → Pos → Calls
  other : Pos → Bytes → Opt.Leaf → Action × V → Opt.Res (Action × V)

variable {T V : Type}

/-- What the file looks like to `bfs_exec()`: `ftwbuf` as set by `bftw_init_ftwbuf()`, src/bftw.c:1679-1755, for
files whose parent could be opened. -/
def Actions.file (A : Actions V) (e : Env) (i : Nat) (p : Pos) (path : Bytes) : Exec.File where
  path
  nameoff := if p.length ≤ 1 then Path.xbaseoff path else e.nameoff p
  atFd := decide (1 < p.length)
  formatOk := (A.calls i p).formatOk
  dupOk := (A.calls i p).dupOk
  strndupOk := (A.calls i p).strndupOk
  openOk := (A.calls i p).openOk
  reallocOk := (A.calls i p).reallocOk

/-- The number of the command, if this is one; `annotate_exec()`, src/opt.c:966-975, says that those with `+`
always return true. -/
def Actions.command (A : Actions V) : Opt.Leaf → Option (Nat × Bool)
  | .action .returnsTrue i => (A.cmd i).bind fun x => if x.1 then some (i, true) else none
  | .action .plain i => (A.cmd i).bind fun x => if x.1 then none else some (i, false)
  | _ => none

/-- `bfs_exec()`, src/exec.c:659-671; the result is `ret == 0`. -/
def bfsExec (multi : Bool) (x : Cmd) (f : Exec.File) : Out (Bool × Cmd) :=
  if multi then (Exec.execMulti x.1 x.2 f).bind fun r => .ok (true, r)
  else Exec.single x.1 x.2 f

/-- `bfs_exec()`, for a command that has been run before. -/
def again (multi : Bool) (x : Out Cmd) (f : Exec.File) : Out (Bool × Cmd) := x.bind fun x => bfsExec multi x f

/-- The result, as long as there is one. -/
def answer (multi : Bool) : Out (Bool × Cmd) → Bool
  | .ok r => r.1
  | _ => multi

/-- What is left behind. -/
def after (x : Out (Bool × Cmd)) : Out Cmd := x.bind fun r => .ok r.2

/-- What can be changed: the commands, and other things. -/
abbrev Stuff (V : Type) := (Nat → Out Cmd) × V

/-- `eval_exec()`, src/eval.c:429-435. Error messages are not modelled. -/
def evalExec (i : Nat) (multi : Bool) (f : Exec.File) (x : Action × Stuff V) : Opt.Res (Action × Stuff V) :=
  let r := again multi (x.2.1 i) f
  ⟨answer multi r, false, (x.1, (fun j => if j = i then after r else x.2.1 j, x.2.2))⟩

/-- The others do not touch the commands. -/
def Actions.rest (A : Actions V) (p : Pos) (path : Bytes) (l : Opt.Leaf) (x : Action × Stuff V) : Opt.Res (Action × Stuff V) :=
  let r := A.other p path l (x.1, x.2.2)
  ⟨r.r, r.q, (r.w.1, (x.2.1, r.w.2))⟩

/-- All of them. -/
def Actions.prims (A : Actions V) (e : Env) : Primaries (Stuff V) where
  num := fun i => if (A.cmd i).isSome then none else A.num i
  other := fun p path l x => match A.command l with
    | some (i, multi) => evalExec i multi (A.file e i p path) x
    | none => A.rest p path l x

/-- Before the search. -/
def Actions.start (A : Actions V) (i : Nat) : Out Cmd :=
  match A.cmd i with
  | some (_, x) => .ok x
  | none => .err "no command"

/-- A search with commands. -/
structure Job (T V : Type) where
  cfg : Cfg
  expr : Opt.Expr T
  acts : Actions V
  start : V

/-- The search. -/
def Job.search (b : Job T V) (e : Env) : Search T (Stuff V) where
  cfg := b.cfg
  expr := b.expr
  prims := b.acts.prims e
  start := (b.acts.start, b.start)

/-- The commands after these calls of the callback. -/
def Job.cmds (b : Job T V) (e : Env) (tr : List Event) : Nat → Out Cmd := ((b.search e).world e tr).rest.1

/-- `bfs_exec_finish()`, src/exec.c:673-684: whether it failed, and the system. -/
def finished (multi : Bool) (x : Cmd) : Out (Bool × Exec.World) :=
  if multi then Exec.finish x.1 x.2 else .ok (x.1.failed, x.2)

/-- What has become of command number `i` when bfs is done. -/
def Job.outcome (b : Job T V) (e : Env) (tr : List Event) (i : Nat) (multi : Bool) : Out (Bool × Exec.World) :=
  (b.cmds e tr i).bind (finished multi)

/-- Does this primary make `eval_exec_finish()` fail? -/
def Job.leafFails (b : Job T V) (e : Env) (tr : List Event) (l : Opt.Leaf) : Out Bool :=
  match b.acts.command l with
  | some (i, multi) => (b.outcome e tr i multi).bind fun r => .ok r.1
  | none => .ok false

mutual
/-- `eval_exec_finish()`, src/eval.c:405-427, which `bfs_eval()`, src/eval.c:1698-1796, calls after the search,
however that ended; the result is `ret != 0`. Every primary has its own number. -/
def Job.fails (b : Job T V) (e : Env) (tr : List Event) : Opt.Expr T → Out Bool
  | .leaf _ l => b.leafFails e tr l
  | .node _ _ cs => b.failsL e tr cs
/-- The loop over the children. -/
def Job.failsL (b : Job T V) (e : Env) (tr : List Event) : List (Opt.Expr T) → Out Bool
  | [] => .ok false
  | c :: cs => (b.fails e tr c).bind fun x => (b.failsL e tr cs).bind fun y => .ok (x || y)
end

end Verif.Batch
