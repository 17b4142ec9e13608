import Verif.Model.Ids

/-!
# Evaluating the expression on each file, src/eval.c

`eval_callback()` as the callback of the walks in `Verif/Model/Bftw.lean` and `Verif/Model/Ids.lean`.
The expressions themselves are parameters (see C01–C04, C49).
-/
namespace Verif.Bftw

/-- The parts of `struct bfs_ctx` in use here, and what the expressions do.
* `exclude`: the result of `ctx->exclude`; it has no side effects (src/parse.c rejects actions in it)
* `expr`: `state.action` after the evaluation of `ctx->expr`
* `exprError`: does the evaluation of `ctx->expr` report an error?
* `fileId`: the device and inode number
* `gone`: is the error like `ENOENT`? -/
structure Cfg where
  mindepth : Int
  maxdepth : Int
  xargsSafe : Bool
  unique : Bool
  ignoreRaces : Bool
  ignoreErrors : Bool
  exclude : Pos → Bool
  expr : Pos → Action
  exprError : Pos → Bool
  fileId : Pos → Nat × Nat
  gone : Pos → Bool

/-- Conversion of an `int` to a 64-bit `size_t`. -/
def toSize (n : Int) : Nat := (n % 2 ^ 64).toNat

/-- `strpbrk(ftwbuf->path, " \t\n\'\"\\")`. -/
def unsafePath (path : Bytes) : Bool := path.any fun b => [32, 9, 10, 39, 34, 92].contains b

/-- What one call of `eval_callback()` does: whether `ctx->expr` is evaluated, whether an error is
reported (even if it is not printed because of `-noerror`), and `state.action`. -/
structure Verdict where
  evaluated : Bool
  reported : Bool
  action : Action
  deriving DecidableEq, Repr

/-- `expected_visit` in `eval_callback()`, src/eval.c:1457-1551. -/
def Cfg.expected (c : Cfg) (e : Env) (p : Pos) : Visit :=
  if e.post && (e.strategy = .ids || e.isDir p) && decide (depth p < toSize c.maxdepth) then .post else .pre

/-- `eval_callback()`, src/eval.c:1457-1551: the part from the check of the depth on. -/
def Cfg.evaluate (c : Cfg) (e : Env) (v : Visit) (p : Pos) : Verdict :=
  let action := if c.maxdepth < 0 ∨ depth p ≥ toSize c.maxdepth then Action.prune else .cont
  if v = c.expected e p ∧ depth p ≥ toSize c.mindepth ∧ depth p ≤ toSize c.maxdepth then
    ⟨true, c.exprError p, if c.expr p = .cont then action else c.expr p⟩
  else ⟨false, false, action⟩

/-- `eval_callback()`, src/eval.c:1457-1551: from the check for `-exclude` on. -/
def Cfg.examine (c : Cfg) (e : Env) (v : Visit) (p : Pos) (path : Bytes) : Verdict :=
  if c.exclude p then ⟨false, false, .prune⟩
  else if c.xargsSafe && unsafePath path then ⟨false, true, .prune⟩
  else c.evaluate e v p

/-- `eval_callback()`, src/eval.c:1457-1551: what happens with a `BFS_ERROR`. A file system loop is
not like `ENOENT`. -/
def Cfg.failed (c : Cfg) (p : Pos) : Verdict :=
  ⟨false, !(c.ignoreRaces && c.gone p && decide (depth p > 0)), .prune⟩

/-- `args->seen`: the files that have been looked at so far; here it is taken from the history of
calls. `eval_file_unique()`, src/eval.c:1230-1252, see C46 for the trie and for errors. -/
def Cfg.seen (c : Cfg) (e : Env) (tr : List Event) : List (Nat × Nat) :=
  (tr.filter fun ev => ev.visit = .pre && !e.error ev.pos).map fun ev => c.fileId ev.pos

/-- `eval_callback()`, src/eval.c:1457-1551. The status bar and debugging output are left out. -/
def Cfg.verdict (c : Cfg) (e : Env) (tr : List Event) (v : Visit) (p : Pos) (path : Bytes) : Verdict :=
  if v = .err || e.error p then c.failed p
  else if c.unique && v = .pre && (c.seen e tr).contains (c.fileId p) then ⟨false, false, .prune⟩
  else c.examine e v p path

/-- `bfs_eval()`, src/eval.c:1698-1796: the walk with that callback. -/
def Cfg.env (c : Cfg) (e : Env) : Env := { e with callback := fun tr v p path => (c.verdict e tr v p path).action }

/-- What happened at each call, newest first. -/
def Cfg.verdicts (c : Cfg) (e : Env) : List Event → List (Event × Verdict)
  | [] => []
  | ev :: tr => (ev, c.verdict e tr ev.visit ev.pos ev.path) :: c.verdicts e tr

/-- The files that the expression was evaluated on, newest first. -/
def Cfg.evaluations (c : Cfg) (e : Env) (tr : List Event) : List Pos :=
  ((c.verdicts e tr).filter fun x => x.2.evaluated).map (·.1.pos)

/-- `args.ret` after the walk, unless `-exit` was evaluated: `eval_error()`, src/eval.c:71-90, and
`bfs_eval()`, src/eval.c:1698-1796. -/
def Cfg.status (c : Cfg) (e : Env) (tr : List Event) : Nat :=
  if (c.verdicts e tr).any (fun x => x.2.reported) && !c.ignoreErrors then 1 else 0

end Verif.Bftw
