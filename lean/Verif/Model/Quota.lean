import Verif.Model.Search
import Verif.Model.Expr
import Verif.Model.Num

/-!
# `-limit N`, and expressions that remember, src/eval.c, src/parse.c

In `Verif/Model/Search.lean` the expression says the same thing about a file whatever happened before. Here
the evaluation may depend on earlier evaluations: `-limit` counts them.
-/
namespace Verif.Quota
open Verif.Bftw

/-- What evaluations can see and change.
* `evaluations`: `expr->evaluations` of the `-limit` expressions, which are numbered
* `action`: `state->action`
* `log`: the actions that have been evaluated, newest first; only for stating theorems
* `rest`: everything else -/
structure World (W : Type) where
  evaluations : Nat → Nat
  action : Action
  log : List (Pos × Opt.Leaf)
  rest : W

/-- What the primaries do.
* `num`: `expr->num`, if action number `i` is a `-limit`
* `other`: all other primaries, given the file and its path -/
structure Primaries (W : Type) where
  num : Nat → Option Int
  other : Pos → Bytes → Opt.Leaf → Action × W → Opt.Res (Action × W)

variable {T W : Type}

/-- Conversion of a 64-bit `size_t` to `long long`. -/
def toLongLong (n : Nat) : Int := (n : Int).bmod (2 ^ 64)

/-- `evals >= expr->num` in `eval_limit()`, src/eval.c:886-894. -/
@[irreducible] def reached (num : Int) (evaluations : Nat) : Bool := decide (toLongLong (evaluations + 1) ≥ num)

/-- `eval_limit()`, src/eval.c:886-894. -/
def evalLimit (num : Int) (i : Nat) (w : World W) : Opt.Res (World W) :=
  ⟨true, reached num (w.evaluations i), { w with action := if reached num (w.evaluations i) then .stop else w.action }⟩

/-- `++expr->evaluations` in `eval_expr()`, src/eval.c:1060-1093. -/
def World.count (w : World W) (i : Nat) : World W :=
  { w with evaluations := fun j => if j = i then w.evaluations i + 1 else w.evaluations j }

/-- Keep a record of actions. -/
def World.note (w : World W) (p : Pos) : Opt.Leaf → World W
  | .action k i => { w with log := (p, .action k i) :: w.log }
  | _ => w

/-- The other primaries do not touch the counters. -/
def Primaries.others (S : Primaries W) (p : Pos) (path : Bytes) (l : Opt.Leaf) (w : World W) : Opt.Res (World W) :=
  let x := S.other p path l (w.action, w.rest)
  ⟨x.r, x.q, { w with action := x.w.1, rest := x.w.2 }⟩

/-- `expr->num`, if this is a `-limit`. -/
def Primaries.limit (S : Primaries W) : Opt.Leaf → Option (Nat × Int)
  | .action .returnsTrue i => (S.num i).map fun n => (i, n)
  | _ => none

/-- `eval_expr()`, src/eval.c:1060-1093, for a primary. -/
def Primaries.leaf (S : Primaries W) (p : Pos) (path : Bytes) (l : Opt.Leaf) (w : World W) : Opt.Res (World W) :=
  match S.limit l with
  | some (i, n) =>
    let x := evalLimit n i (w.note p l)
    { x with w := x.w.count i }
  | none => S.others p path l (w.note p l)

/-- A search: `cfg` are the options, whose fields about the expression are not used. -/
structure Search (T W : Type) where
  cfg : Cfg
  expr : Opt.Expr T
  prims : Primaries W
  start : W

/-- `eval_callback()`, src/eval.c:1457-1551: `state.action = BFTW_CONTINUE`, and the evaluation of
`ctx->expr`. -/
def Search.evaluate (q : Search T W) (p : Pos) (path : Bytes) (w : World W) : Opt.Res (World W) :=
  Opt.eval (q.prims.leaf p path) q.expr { w with action := .cont }

/-- What the callback does at this point of the search. -/
def Search.now (q : Search T W) (w : World W) (path : Bytes) : Cfg :=
  { q.cfg with expr := fun p => (q.evaluate p path w).w.action }

/-- One call of `eval_callback()`, src/eval.c:1457-1551. -/
def Search.verdict (q : Search T W) (e : Env) (w : World W) (tr : List Event) (v : Visit) (p : Pos) (path : Bytes) : Verdict :=
  (q.now w path).verdict e tr v p path

/-- After these calls. -/
def Search.world (q : Search T W) (e : Env) : List Event → World W
  | [] => ⟨fun _ => 0, .cont, [], q.start⟩
  | ev :: tr =>
    if (q.verdict e (q.world e tr) tr ev.visit ev.pos ev.path).evaluated then
      (q.evaluate ev.pos ev.path (q.world e tr)).w
    else q.world e tr

/-- `bfs_eval()`, src/eval.c:1698-1796: the walk with that callback. -/
def Search.env (q : Search T W) (e : Env) : Env :=
  { e with callback := fun tr v p path => (q.verdict e (q.world e tr) tr v p path).action }

/-- The files that the expression was evaluated on, newest first. -/
def Search.evaluated (q : Search T W) (e : Env) : List Event → List Pos
  | [] => []
  | ev :: tr =>
    if (q.verdict e (q.world e tr) tr ev.visit ev.pos ev.path).evaluated then ev.pos :: q.evaluated e tr
    else q.evaluated e tr

/-- `parse_limit()`, src/parse.c:1629-1647: the number, if it is accepted. -/
def parseLimit (arg : List UInt8) : Option Int :=
  match Num.parseInt arg { size := .longLong } with
  | .ok (num, _) => if num ≤ 0 then none else some num
  | .error _ => none

end Verif.Quota
