/-!
# Expression trees and their evaluation

Models `struct bfs_expr` (src/expr.h), `bfs_expr_append()` (src/expr.c:60-75) and the
operators of the evaluator (src/eval.c:1060-1142).

Leaves are classified by the properties the optimizer looks at.  Their *meaning* is a
parameter (`sem`), so the theorems hold for every behaviour the individual tests and
actions could have.
-/
namespace Verif.Opt

/-- The predicates tracked by the data flow analysis (`enum pred_type`, src/opt.c:82-107). -/
inductive Pred where
  | readable | writable | executable | acl | capable | empty | hidden | nogroup | nouser
  | sparse | xattr
  deriving DecidableEq, Repr

/-- The integer ranges tracked by the analysis (`enum range_type`, src/opt.c:219-235). -/
inductive Range where
  | depth | gid | inum | links | size | uid
  deriving DecidableEq, Repr

/-- `enum bfs_int_cmp` (src/expr.h): the prefix of a numeric argument (`N`, `-N`, `+N`). -/
inductive Cmp where
  | eq | lt | gt
  deriving DecidableEq, Repr

/-- How an impure action behaves as far as `annotate_visit()`/`annotate_exec()`
(src/opt.c:966-975, 1114-1181) can tell.
`returnsTrue`: `-ls`, `-print*`, `-limit`, `-prune`, `-exec ... +`;
`noReturn`: `-exit`, `-quit`; `plain`: everything else (`-delete`, `-exec ... ;`,
`-context`, ...). -/
inductive Action where
  | returnsTrue | noReturn | plain
  deriving DecidableEq, Repr

/-- A leaf expression: its evaluation function together with the arguments that the
optimizer inspects.  `id` distinguishes different uses of the same evaluation function. -/
inductive Leaf where
  /-- `eval_true` -/
  | true_
  /-- `eval_false` -/
  | false_
  /-- A simple predicate.  `readable`/`writable`/`executable` are `eval_access` with a
  one-bit mask, which is all `parse_access()` (src/parse.c) ever builds. -/
  | pred (p : Pred)
  /-- A numeric comparison.  `unit` is the number of bytes of `-size`'s unit (and is unused
  for the other ranges). -/
  | cmp (r : Range) (unit : Nat) (c : Cmp) (n : Int)
  /-- `eval_lname` -/
  | lname (id : Nat)
  /-- `eval_samefile` -/
  | samefile (dev ino : Int)
  /-- `eval_type` with a mask of types -/
  | type (mask : BitVec 32)
  /-- `eval_xtype` with a mask of types -/
  | xtype (mask : BitVec 32)
  /-- The remaining pure tests: `-flags`, `-fstype`, `-name`, `-newer`, `-path`, `-perm`,
  `-regex`, `-*time`, `-used`, `-xattrname`. -/
  | other (id : Nat)
  /-- Impure actions. -/
  | action (k : Action) (id : Nat)
  deriving DecidableEq, Repr

/-- The four operators. -/
inductive Op where
  | not | and | or | comma
  deriving DecidableEq, Repr

/-- The annotations kept in `struct bfs_expr`.  `cost` stands for the pair of floats
`(cost, probability)`; its type `T` is arbitrary because nothing but the order of pure
tests may depend on it. -/
structure Ann (T : Type) where
  /-- `expr->pure` -/
  pure : Bool
  /-- `expr->always_true` -/
  at_ : Bool
  /-- `expr->always_false` -/
  af : Bool
  /-- `expr->cost`, `expr->probability` -/
  cost : T
  deriving Repr

/-- `struct bfs_expr`: leaves and n-ary operators with their annotations. -/
inductive Expr (T : Type) where
  | leaf (a : Ann T) (l : Leaf)
  | node (a : Ann T) (o : Op) (cs : List (Expr T))

variable {T : Type}

/-- The annotations of a node. -/
def Expr.ann : Expr T → Ann T
  | .leaf a _ => a
  | .node a _ _ => a

/-- `expr->pure` -/
def Expr.pure (e : Expr T) : Bool := e.ann.pure
/-- `expr->always_true` -/
def Expr.at_ (e : Expr T) : Bool := e.ann.at_
/-- `expr->always_false` -/
def Expr.af (e : Expr T) : Bool := e.ann.af

/-- `bfs_expr_is_parent()`, src/expr.c:39-44. -/
def Expr.isParent : Expr T → Bool
  | .leaf _ _ => false
  | .node _ _ _ => true

/-- Result of evaluating an expression: the boolean result, `state->quit`, and the state of
the world afterwards (everything the evaluation can touch: outputs, child processes, the
error count, `state->action`, ...). -/
structure Res (W : Type) where
  r : Bool
  q : Bool
  w : W
  deriving Repr, DecidableEq

variable {W : Type}

/-- `eval_not()`, src/eval.c:1098-1100. -/
def evalNot : List (W → Res W) → W → Res W
  | c :: _, w => { c w with r := !(c w).r }
  | [], w => ⟨true, false, w⟩     -- unreachable: a negation has exactly one child

/-- `eval_and()`, src/eval.c:1105-1113. -/
def evalAnd : List (W → Res W) → W → Res W
  | [], w => ⟨true, false, w⟩
  | c :: cs, w =>
    if !(c w).r || (c w).q then { c w with r := false } else evalAnd cs (c w).w

/-- `eval_or()`, src/eval.c:1118-1126. -/
def evalOr : List (W → Res W) → W → Res W
  | [], w => ⟨false, false, w⟩
  | c :: cs, w =>
    if (c w).r || (c w).q then { c w with r := true } else evalOr cs (c w).w

/-- `eval_comma()`, src/eval.c:1131-1142.  (With no children the C code returns an
uninitialised value; a comma always has children.) -/
def evalComma : List (W → Res W) → W → Res W
  | [], w => ⟨false, false, w⟩
  | [c], w => c w
  | c :: cs, w => if (c w).q then c w else evalComma cs (c w).w

/-- Dispatch on the operator (`expr->eval_fn(expr, state)`, src/eval.c:1070). -/
def evalOp : Op → List (W → Res W) → W → Res W
  | .not => evalNot
  | .and => evalAnd
  | .or => evalOr
  | .comma => evalComma

mutual
/-- `eval_expr()`, src/eval.c:1060-1093 (without the timing and counting, and without the
debug-build assertions). -/
def eval (sem : Leaf → W → Res W) : Expr T → W → Res W
  | .leaf _ l => sem l
  | .node _ o cs => evalOp o (evals sem cs)
/-- The evaluators of a list of children. -/
def evals (sem : Leaf → W → Res W) : List (Expr T) → List (W → Res W)
  | [] => []
  | c :: cs => eval sem c :: evals sem cs
end

end Verif.Opt
