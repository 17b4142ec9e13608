import Verif.Model.Expr
/-!
# The optimizer (src/opt.c)

A function-by-function model of the five visitors (`annotate`, `canonicalize`, `reorder`,
`data_flow`, `simplify`) and of the driver (`optimize()`, `bfs_optimize()`).

Simplifications: floating-point costs and probabilities are replaced by an arbitrary type `T`
with arbitrary operations (`Costs`), so every theorem holds for all of them; debug output,
warnings and the interactive prompt of `opt_ignore()` are dropped; allocation never fails.
-/
namespace Verif.Opt

/-! ## The data flow domain (src/opt.c:55-348) -/

/-- `LLONG_MAX`. -/
def llMax : Int := 9223372036854775807
/-- `LLONG_MIN`. -/
def llMin : Int := -9223372036854775808

/-- `enum df_pred` (src/opt.c:58-67) as two bits: may be false, may be true. -/
structure DfPred where
  f : Bool
  t : Bool
  deriving DecidableEq, Repr

/-- `struct df_range` (src/opt.c:127-132). -/
structure Rng where
  min : Int
  max : Int
  deriving DecidableEq, Repr

/-- `struct df_domain` (src/opt.c:249-260). -/
structure Dom where
  preds : Pred → DfPred
  ranges : Range → Rng
  types : BitVec 32
  xtypes : BitVec 32

/-- `constrain_pred()`, src/opt.c:70-72. -/
def constrainPred (d : DfPred) (v : Bool) : DfPred := ⟨d.f && !v, d.t && v⟩

/-- `pred_join()`, src/opt.c:75-77. -/
def predJoin (a b : DfPred) : DfPred := ⟨a.f || b.f, a.t || b.t⟩

/-- `range_init_bottom()`, src/opt.c:135-138. -/
def rngBottom : Rng := ⟨llMax, llMin⟩
/-- `range_is_bottom()`, src/opt.c:141-143. -/
def rngIsBottom (r : Rng) : Bool := decide (r.min > r.max)
/-- `range_init_top()`, src/opt.c:146-150. -/
def rngTop : Rng := ⟨0, llMax⟩

/-- `min_value()`, src/opt.c:158-164. -/
def minValue (a b : Int) : Int := if a < b then a else b
/-- `max_value()`, src/opt.c:167-173. -/
def maxValue (a b : Int) : Int := if a > b then a else b

/-- `constrain_min()`, src/opt.c:176-178. -/
def constrainMin (r : Rng) (v : Int) : Rng := { r with min := maxValue r.min v }
/-- `constrain_max()`, src/opt.c:181-183. -/
def constrainMax (r : Rng) (v : Int) : Rng := { r with max := minValue r.max v }
/-- `constrain_range()`, src/opt.c:186-189. -/
def constrainRange (r : Rng) (v : Int) : Rng := constrainMax (constrainMin r v) v

/-- First half of `range_remove()`, src/opt.c:193-199. -/
def removeMin (r : Rng) (v : Int) : Rng :=
  if r.min = v then
    if r.min = llMax then { r with max := llMin } else { r with min := r.min + 1 }
  else r
/-- Second half of `range_remove()`, src/opt.c:201-207. -/
def removeMax (r : Rng) (v : Int) : Rng :=
  if r.max = v then
    if r.max = llMin then { r with min := llMax } else { r with max := r.max - 1 }
  else r
/-- `range_remove()`, src/opt.c:192-208. -/
def rangeRemove (r : Rng) (v : Int) : Rng := removeMax (removeMin r v) v

/-- `range_join()`, src/opt.c:211-214. -/
def rangeJoin (a b : Rng) : Rng := ⟨minValue a.min b.min, maxValue a.max b.max⟩

/-- All predicate types, in enum order (loop `i < PRED_TYPES`). -/
def allPreds : List Pred :=
  [.readable, .writable, .executable, .acl, .capable, .empty, .hidden, .nogroup, .nouser,
   .sparse, .xattr]
/-- All range types, in enum order (loop `i < RANGE_TYPES`). -/
def allRanges : List Range := [.depth, .gid, .inum, .links, .size, .uid]

/-- `df_init_bottom()`, src/opt.c:263-274. -/
def dfBottom : Dom := ⟨fun _ => ⟨false, false⟩, fun _ => rngBottom, 0, 0⟩
/-- `df_init_top()`, src/opt.c:298-309. -/
def dfTop : Dom := ⟨fun _ => ⟨true, true⟩, fun _ => rngTop, BitVec.allOnes 32, BitVec.allOnes 32⟩
/-- `df_is_bottom()`, src/opt.c:277-295. -/
def dfIsBottom (d : Dom) : Bool :=
  allRanges.any (fun r => rngIsBottom (d.ranges r)) ||
  allPreds.any (fun p => d.preds p == ⟨false, false⟩) ||
  (d.types == 0 || d.xtypes == 0)
/-- `df_join()`, src/opt.c:337-348. -/
def dfJoin (a b : Dom) : Dom :=
  ⟨fun p => predJoin (a.preds p) (b.preds p), fun r => rangeJoin (a.ranges r) (b.ranges r),
   a.types ||| b.types, a.xtypes ||| b.xtypes⟩

/-- Assignment to one predicate of a domain. -/
def Dom.setPred (d : Dom) (p : Pred) (v : DfPred) : Dom :=
  { d with preds := fun q => if q = p then v else d.preds q }
/-- Assignment to one range of a domain. -/
def Dom.setRange (d : Dom) (r : Range) (v : Rng) : Dom :=
  { d with ranges := fun q => if q = r then v else d.ranges q }

/-! ## Cost model -/

/-- The floating-point bookkeeping of the optimizer, left arbitrary. -/
structure Costs (T : Type) where
  /-- `costs[]`/`probs[]` and the leaf annotators (src/opt.c:938-1045, 1220-1311) -/
  leaf : Leaf → T
  /-- cost and probability of an operator (src/opt.c:1048-1111) -/
  node : Op → List T → T
  /-- probabilities set by the transfer functions (src/opt.c:1666-1717), which may look at the
  facts known when the test succeeds -/
  flow : Leaf → Dom → T → T
  /-- `expr->probability = 1.0` / `0.0` (src/opt.c:1762-1769, 1776-1777, 1790-1791) -/
  setProb : Bool → T → T
  /-- `expr_cost(parent, lhs, rhs) <= expr_cost(parent, rhs, lhs)` (src/opt.c:1503-1545) -/
  le : Op → T → T → Bool

/-- The inputs of the optimizer that do not change: the cost model, the optimization level
(`opt->level`) and the results of `bfs_getgrgid()`/`bfs_getpwuid()`: `none` when the lookup
failed with an error, otherwise whether the id has no entry. -/
structure Env (T : Type) where
  costs : Costs T
  level : Nat
  noGroup : Int → Option Bool
  noUser : Int → Option Bool

variable {T : Type}

/-! ## annotate (src/opt.c:936-1331) -/

/-- The pure table of `annotate_visit()` (src/opt.c:1116-1154) with `annotate_empty()` and
`annotate_xtype()` (src/opt.c:954-963, 1035-1045). -/
def pureLeaf (level : Nat) : Leaf → Bool
  | .pred .empty => decide (4 ≤ level)
  | .xtype _ => decide (4 ≤ level)
  | .action _ _ => false
  | _ => true

/-- The always-true table (src/opt.c:1157-1178) with `annotate_exec()` (src/opt.c:966-975). -/
def atLeaf : Leaf → Bool
  | .true_ => true
  | .action .returnsTrue _ => true
  | .action .noReturn _ => true
  | _ => false

/-- The always-false table (src/opt.c:1181-1194). -/
def afLeaf : Leaf → Bool
  | .false_ => true
  | .action .noReturn _ => true
  | _ => false

/-- `annotate_visit()` on a leaf. -/
def leafAnn (E : Env T) (l : Leaf) : Ann T :=
  ⟨pureLeaf E.level l, atLeaf l, afLeaf l, E.costs.leaf l⟩

/-- `annotate_not/and/or/comma()`, src/opt.c:1048-1111. -/
def nodeAnn (E : Env T) (o : Op) (cs : List (Expr T)) : Ann T :=
  let cost := E.costs.node o (cs.map (fun c => c.ann.cost))
  match o with
  | .not => match cs with
    | c :: _ => ⟨c.pure, c.af, c.at_, cost⟩
    | [] => ⟨false, false, false, cost⟩         -- only_child() would fail its assertion
  | .and => ⟨cs.all Expr.pure, cs.all Expr.at_, cs.any Expr.af, cost⟩
  | .or => ⟨cs.all Expr.pure, cs.any Expr.at_, cs.all Expr.af, cost⟩
  | .comma => ⟨cs.all Expr.pure, (cs.getLast?.map Expr.at_).getD false,
      (cs.getLast?.map Expr.af).getD false, cost⟩

/-- `visit_shallow(opt, expr, &annotate)`, src/opt.c:919-935. -/
def annotate1 (E : Env T) : Expr T → Expr T
  | .leaf _ l => .leaf (leafAnn E l) l
  | .node _ o cs => .node (nodeAnn E o cs) o cs

mutual
/-- `visit(opt, expr, &annotate)`. -/
def annotate (E : Env T) : Expr T → Expr T
  | .leaf _ l => .leaf (leafAnn E l) l
  | .node _ o cs => .node (nodeAnn E o (annotates E cs)) o (annotates E cs)
/-- Children of a node being annotated. -/
def annotates (E : Env T) : List (Expr T) → List (Expr T)
  | [] => []
  | c :: cs => annotate E c :: annotates E cs
end

/-- `opt_const()`, src/opt.c:1334-1340. -/
def constE (E : Env T) (b : Bool) : Expr T :=
  .leaf (leafAnn E (if b then .true_ else .false_)) (if b then .true_ else .false_)

/-- `bfs_expr_append()` of every child to a fostered node (src/opt.c:644-653,
src/expr.c:60-75): the purity is recomputed, the other annotations are kept. -/
def rebuild (a : Ann T) (o : Op) (cs : List (Expr T)) : Expr T :=
  .node { a with pure := cs.all Expr.pure } o cs

/-- The `ignore_result` flag for a child (src/opt.c:718-719, 741-745, 773-777, 803-807). -/
def childIgn (o : Op) (ign : Bool) (last : Bool) : Bool :=
  match o with
  | .comma => if last then ign else true
  | .not => ign
  | _ => if last then ign else false

mutual
/-- `visit_deep()` (src/opt.c:840-908) for the visitors that do not use the data flow facts:
children first, then the node itself.  (`g` leaves leaves alone.) -/
def visit (g : Bool → Expr T → Expr T) (ign : Bool) : Expr T → Expr T
  | .leaf a l => .leaf a l
  | .node a o cs => g ign (rebuild a o (visits g o ign cs))
/-- The child loops of `visit_not/and/or/comma()`, src/opt.c:715-824. -/
def visits (g : Bool → Expr T → Expr T) (o : Op) (ign : Bool) : List (Expr T) → List (Expr T)
  | [] => []
  | c :: cs => visit g (childIgn o ign cs.isEmpty) c :: visits g o ign cs
end

/-! ## canonicalize (src/opt.c:1343-1500) -/

/-- Fresh annotations for `bfs_expr_new()`; always overwritten before use. -/
def newAnn (E : Env T) : Ann T := ⟨false, false, false, E.costs.leaf .true_⟩

/-- `negate_expr()`, src/opt.c:1343-1359. -/
def negate (E : Env T) : Expr T → Expr T
  | .node _ .not (c :: _) => c
  | .leaf _ .true_ => constE E false
  | .leaf _ .false_ => constE E true
  | e => annotate1 E (.node (newAnn E) .not [e])

/-- Swap conjunction and disjunction. -/
def Op.flip : Op → Op
  | .and => .or
  | .or => .and
  | o => o

/-- Negate the last child of a comma (src/opt.c:1405-1427). -/
def negateLast (E : Env T) : List (Expr T) → List (Expr T)
  | [] => []
  | [c] => [negate E c]
  | c :: cs => c :: negateLast E cs

/-- `canonicalize_not()`, src/opt.c:1431-1447, with `sink_not_andor()` (1362-1395) and
`sink_not_comma()` (1398-1428). -/
def canonNot (E : Env T) (a : Ann T) (rhs : Expr T) : Expr T :=
  match rhs with
  | .node _ .not (c :: _) => c
  | .node b .and ds => annotate1 E (.node b .or (ds.map (negate E)))
  | .node b .or ds => annotate1 E (.node b .and (ds.map (negate E)))
  | .node b .comma ds => annotate1 E (.node b .comma (negateLast E ds))
  | .leaf _ .true_ => constE E false
  | .leaf _ .false_ => constE E true
  | e => .node a .not [e]

/-- Splice the children of same-operator children (src/opt.c:1457-1481). -/
def flatten (o : Op) : List (Expr T) → List (Expr T)
  | [] => []
  | .node b o' ds :: cs =>
    if o' = o then ds ++ flatten o cs else .node b o' ds :: flatten o cs
  | .leaf b l :: cs => .leaf b l :: flatten o cs

/-- The table of the `canonicalize` visitor (src/opt.c:1491-1500), with
`canonicalize_assoc()` (src/opt.c:1450-1486). -/
def canonLocal (E : Env T) : Bool → Expr T → Expr T
  | _, .leaf a l => .leaf a l
  | _, .node a .not (c :: cs) => match cs with
    | [] => canonNot E a c
    | _ => .node a .not (c :: cs)
  | _, .node a .not [] => .node a .not []
  | _, .node a o cs => annotate1 E (.node a o (flatten o cs))

/-- `visit(&nested, expr, &canonicalize)`. -/
def canonicalize (E : Env T) (ign : Bool) (e : Expr T) : Expr T := visit (canonLocal E) ign e

/-! ## reorder (src/opt.c:1503-1590) -/

/-- The merge loop of `sort_exprs()`, src/opt.c:1535-1552. -/
def mergeE (le : Expr T → Expr T → Bool) : List (Expr T) → List (Expr T) → List (Expr T)
  | [], rs => rs
  | ls, [] => ls
  | l :: ls, r :: rs =>
    if le l r then l :: mergeE le ls (r :: rs) else r :: mergeE le (l :: ls) rs

/-- `sort_exprs()`, src/opt.c:1513-1553; `fuel` bounds the recursion depth: callers pass the
length, and every level halves the list.  The tortoise/hare loop moves half of the list
(rounded down) to `left`. -/
def sortE (le : Expr T → Expr T → Bool) : Nat → List (Expr T) → List (Expr T)
  | 0, es => es
  | fuel + 1, es =>
    if es.length ≤ 1 then es
    else mergeE le (sortE le fuel (es.take (es.length / 2))) (sortE le fuel (es.drop (es.length / 2)))

/-- The loop of `reorder_andor()`, src/opt.c:1565-1576: `pure` collects the current block. -/
def reorderLoop (le : Expr T → Expr T → Bool) (pure : List (Expr T)) :
    List (Expr T) → List (Expr T)
  | [] => sortE le pure.length pure
  | c :: cs =>
    if c.pure then reorderLoop le (pure ++ [c]) cs
    else sortE le pure.length pure ++ c :: reorderLoop le [] cs

/-- The table of the `reorder` visitor (src/opt.c:1583-1590). -/
def reorderLocal (E : Env T) : Bool → Expr T → Expr T
  | _, .node a .and cs =>
    annotate1 E (.node a .and (reorderLoop (fun x y => E.costs.le .and x.ann.cost y.ann.cost) [] cs))
  | _, .node a .or cs =>
    annotate1 E (.node a .or (reorderLoop (fun x y => E.costs.le .or x.ann.cost y.ann.cost) [] cs))
  | _, e => e

/-- `visit(&nested, expr, &reorder)`. -/
def reorder (E : Env T) (ign : Bool) (e : Expr T) : Expr T := visit (reorderLocal E) ign e

/-! ## data_flow (src/opt.c:1593-1920) -/

/-- A pair of fact sets: after the expression returned true, and after it returned false. -/
structure After where
  t : Dom
  f : Dom

/-- `data_flow_pred()`, src/opt.c:1593-1596. -/
def flowPred (a : After) (p : Pred) (v : Bool) : After :=
  ⟨a.t.setPred p (constrainPred (a.t.preds p) v), a.f.setPred p (constrainPred (a.f.preds p) (!v))⟩

/-- `data_flow_icmp()`, src/opt.c:1599-1622. -/
def flowCmp (a : After) (r : Range) (c : Cmp) (n : Int) : After :=
  match c with
  | .eq => ⟨a.t.setRange r (constrainRange (a.t.ranges r) n), a.f.setRange r (rangeRemove (a.f.ranges r) n)⟩
  | .lt => ⟨a.t.setRange r (rangeRemove (constrainMax (a.t.ranges r) n) n),
            a.f.setRange r (constrainMin (a.f.ranges r) n)⟩
  | .gt => ⟨a.t.setRange r (rangeRemove (constrainMin (a.t.ranges r) n) n),
            a.f.setRange r (constrainMax (a.f.ranges r) n)⟩

/-- `enum bfs_type` (src/dir.h:37-62). -/
def BFS_DIR : Nat := 3
def BFS_LNK : Nat := 6
def BFS_REG : Nat := 8
/-- `1 << type` -/
def typeBit (n : Nat) : BitVec 32 := BitVec.twoPow 32 n

/-- `data_flow_empty()`, src/opt.c:1640-1649. -/
def flowEmpty (before : Dom) (a : After) : After :=
  let a : After := ⟨{ a.t with types := a.t.types &&& (typeBit BFS_REG ||| typeBit BFS_DIR) }, a.f⟩
  if before.types = typeBit BFS_REG then
    ⟨a.t.setRange .size (constrainRange (a.t.ranges .size) 0),
     a.f.setRange .size (rangeRemove (a.f.ranges .size) 0)⟩
  else a

/-- `data_flow_gid()` and `data_flow_uid()`, src/opt.c:1652-1663 and 1726-1737. -/
def flowId (lookup : Int → Option Bool) (r : Range) (p : Pred) (a : After) : After :=
  if (a.t.ranges r).min = (a.t.ranges r).max then
    match lookup (a.t.ranges r).min with
    | some v => flowPred a p v
    | none => a
  else a

/-- The two tables of `data_flow_visit()` (src/opt.c:1860-1903) followed by the transfer
function of the visitor table (src/opt.c:1905-1926).  -/
def transfer (E : Env T) (before : Dom) (l : Leaf) (a : After) : After :=
  match l with
  | .pred .empty => flowEmpty before (flowPred a .empty true)
  | .pred p => flowPred a p true
  | .cmp .gid _ c n => flowId E.noGroup .gid .nogroup (flowCmp a .gid c n)
  | .cmp .uid _ c n => flowId E.noUser .uid .nouser (flowCmp a .uid c n)
  | .cmp r _ c n => flowCmp a r c n
  | .lname _ => ⟨{ a.t with types := a.t.types &&& typeBit BFS_LNK }, a.f⟩
  | .samefile _ ino => ⟨a.t.setRange .inum (constrainRange (a.t.ranges .inum) ino),
                        a.f.setRange .inum (rangeRemove (a.f.ranges .inum) ino)⟩
  | .type m => ⟨{ a.t with types := a.t.types &&& m }, { a.f with types := a.f.types &&& ~~~m }⟩
  | .xtype m => ⟨{ a.t with xtypes := a.t.xtypes &&& m }, { a.f with xtypes := a.f.xtypes &&& ~~~m }⟩
  | _ => a

/-- The result of the data flow visitor on one node. -/
structure Flow (T : Type) where
  e : Expr T
  a : After
  impure : Dom

/-- Set annotations. -/
def Expr.setAnn (e : Expr T) (a : Ann T) : Expr T :=
  match e with
  | .leaf _ l => .leaf a l
  | .node _ o cs => .node a o cs

/-- Whether the expression is `-true` (`expr->eval_fn == eval_true`). -/
def Expr.isTrue : Expr T → Bool
  | .leaf _ .true_ => true
  | _ => false
/-- Whether the expression is `-false`. -/
def Expr.isFalse : Expr T → Bool
  | .leaf _ .false_ => true
  | _ => false

/-- `data_flow_leave()`, src/opt.c:1761-1769: bottom out impossible results. -/
def leaveFacts (e : Expr T) (a : After) : After :=
  ⟨if e.af then dfBottom else a.t, if e.at_ then dfBottom else a.f⟩

/-- `data_flow_leave()`, src/opt.c:1761-1769: probabilities of constant results. -/
def leaveProb (E : Env T) (e : Expr T) : Expr T :=
  let e := if e.at_ then e.setAnn { e.ann with cost := E.costs.setProb true e.ann.cost } else e
  if e.af then e.setAnn { e.ann with cost := E.costs.setProb false e.ann.cost } else e

/-- `data_flow_leave()`, src/opt.c:1774-1786. -/
def leaveTrue (E : Env T) (e : Expr T) (a : After) : Expr T :=
  if dfIsBottom a.f then
    if !e.pure then e.setAnn { e.ann with at_ := true, cost := E.costs.setProb true e.ann.cost }
    else if !e.isTrue then constE E true
    else e
  else e

/-- `data_flow_leave()`, src/opt.c:1788-1800. -/
def leaveFalse (E : Env T) (e : Expr T) (a : After) : Expr T :=
  if dfIsBottom a.t then
    if !e.pure then e.setAnn { e.ann with af := true, cost := E.costs.setProb false e.ann.cost }
    else if !e.isFalse then constE E false
    else e
  else e

/-- `data_flow_leave()`, src/opt.c:1761-1804. -/
def leave (E : Env T) (e : Expr T) (a : After) : Expr T × After :=
  let a' := leaveFacts e a
  (leaveFalse E (leaveTrue E (leaveProb E e) a') a', a')

/-- First part of `data_flow_visit()`, src/opt.c:1843-1857, with `opt_ignore()`
(src/opt.c:1807-1839). -/
def flowVisit (E : Env T) (ign : Bool) (before : Dom) (e : Expr T) : Expr T :=
  let e := if ign && e.pure then constE E false else e
  if dfIsBottom before then constE E false else e

/-- `data_flow_enter()`, src/opt.c:1747-1758: an impure leaf extends the impure facts. -/
def enterImpure (e : Expr T) (before impure : Dom) : Dom :=
  match e with
  | .leaf a _ => if a.pure then impure else dfJoin impure before
  | .node _ _ _ => impure

/-- Transfer functions on whatever expression `data_flow_visit()` left (only leaves have
one); they may also adjust the probability. -/
def transferE (E : Env T) (before : Dom) (e : Expr T) (a : After) : Expr T × After :=
  match e with
  | .leaf b l =>
    let a' := transfer E before l a
    (.leaf { b with cost := E.costs.flow l a'.t b.cost } l, a')
  | e => (e, a)

/-- What `visit_deep()` does after the recursion (src/opt.c:866-906): visit, transfer, leave. -/
def flowFinish (E : Env T) (ign : Bool) (before : Dom) (e : Expr T) (a : After) (impure : Dom) : Flow T :=
  let e1 := flowVisit E ign before e
  let p := transferE E before e1 a
  let q := leave E p.1 p.2
  ⟨q.1, q.2, impure⟩

/-- The result of a child loop: the new children, the facts, and the impure facts. -/
structure Flows (T : Type) where
  es : List (Expr T)
  a : After
  impure : Dom

mutual
/-- `visit(opt, expr, &data_flow)`: `visit_deep()` (src/opt.c:840-908) with the data flow
visitor. -/
def dataFlow (E : Env T) (ign : Bool) (before impure : Dom) : Expr T → Flow T
  | .leaf a l =>
    flowFinish E ign before (.leaf a l) ⟨before, before⟩ (enterImpure (.leaf a l : Expr T) before impure)
  | .node a o cs =>
    let r := match o with
      | .not => flowNot E ign before impure cs
      | .and => flowAnd E ign before impure dfBottom cs
      | .or => flowOr E ign before impure dfBottom cs
      | .comma => flowComma E ign before impure ⟨before, before⟩ cs
    flowFinish E ign before (rebuild a o r.es) r.a r.impure
/-- `visit_not()`, src/opt.c:715-729. -/
def flowNot (E : Env T) (ign : Bool) (before impure : Dom) : List (Expr T) → Flows T
  | [] => ⟨[], ⟨before, before⟩, impure⟩    -- foster_only_child() would fail its assertion
  | c :: cs =>
    let r := dataFlow E ign before impure c
    ⟨r.e :: cs, ⟨r.a.f, r.a.t⟩, r.impure⟩
/-- The loop of `visit_and()`, src/opt.c:732-761; `before` is `nested.before`, `accF` is
`opt->after_false`.  At the end `nested.after_true` equals `nested.before`. -/
def flowAnd (E : Env T) (ign : Bool) (before impure accF : Dom) : List (Expr T) → Flows T
  | [] => ⟨[], ⟨before, accF⟩, impure⟩
  | c :: cs =>
    let r := dataFlow E (childIgn .and ign cs.isEmpty) before impure c
    let rs := flowAnd E ign r.a.t r.impure (dfJoin accF r.a.f) cs
    ⟨r.e :: rs.es, rs.a, rs.impure⟩
/-- The loop of `visit_or()`, src/opt.c:764-793. -/
def flowOr (E : Env T) (ign : Bool) (before impure accT : Dom) : List (Expr T) → Flows T
  | [] => ⟨[], ⟨accT, before⟩, impure⟩
  | c :: cs =>
    let r := dataFlow E (childIgn .or ign cs.isEmpty) before impure c
    let rs := flowOr E ign r.a.f r.impure (dfJoin accT r.a.t) cs
    ⟨r.e :: rs.es, rs.a, rs.impure⟩
/-- The loop of `visit_comma()`, src/opt.c:796-824. -/
def flowComma (E : Env T) (ign : Bool) (before impure : Dom) (a : After) : List (Expr T) → Flows T
  | [] => ⟨[], a, impure⟩
  | c :: cs =>
    let r := dataFlow E (childIgn .comma ign cs.isEmpty) before impure c
    let rs := flowComma E ign (dfJoin r.a.t r.a.f) r.impure r.a cs
    ⟨r.e :: rs.es, rs.a, rs.impure⟩
end

/-! ## simplify (src/opt.c:1929-2137) -/

/-- `lift_andor_not()`, src/opt.c:1939-1985. -/
def liftNot (E : Env T) (a : Ann T) (o : Op) (cs : List (Expr T)) : Expr T :=
  let isNot : Expr T → Bool := fun c => match c with | .node _ .not _ => true | _ => false
  let removed := (cs.filter isNot).length
  let added := (cs.filter (fun c => !isNot c)).length
  if added ≥ removed then annotate1 E (.node a o cs)
  else negate E (annotate1 E (.node a o.flip (cs.map (negate E))))

/-- `first_ignorable()`, src/opt.c:1988-2003, and the `ignore` branch of the loops that use
it: the maximal pure suffix is deleted. -/
def cutPure : List (Expr T) → List (Expr T)
  | [] => []
  | c :: cs => if (cutPure cs).isEmpty && c.pure then [] else c :: cutPure cs

/-- The children that survive `first_ignorable()`. -/
def dropIgnorable (level : Nat) (ign : Bool) (cs : List (Expr T)) : List (Expr T) :=
  if level < 2 || !ign then cs else cutPure cs

/-- The loop of `simplify_and()`, src/opt.c:2013-2038. -/
def andKeep : List (Expr T) → List (Expr T)
  | [] => []
  | c :: cs => if c.isTrue then andKeep cs else if c.af then [c] else c :: andKeep cs

/-- The loop of `simplify_or()`, src/opt.c:2060-2085. -/
def orKeep : List (Expr T) → List (Expr T)
  | [] => []
  | c :: cs => if c.isFalse then orKeep cs else if c.at_ then [c] else c :: orKeep cs

/-- The loop of `simplify_comma()`, src/opt.c:2104-2114. -/
def commaKeep (level : Nat) : List (Expr T) → List (Expr T)
  | [] => []
  | c :: cs => if 2 ≤ level && c.pure && !cs.isEmpty then commaKeep level cs else c :: commaKeep level cs

/-- `simplify_not/and/or/comma()` (src/opt.c:1929-1936, 2006-2123). -/
def simpLocal (E : Env T) : Bool → Expr T → Expr T
  | _, .leaf a l => .leaf a l
  | ign, .node a .not cs => match cs with
    | [c] => if ign then c else .node a .not [c]
    | cs => .node a .not cs
  | ign, .node a .and cs => match andKeep (dropIgnorable E.level ign cs) with
    | [] => constE E true
    | [c] => c
    | cs => liftNot E a .and cs
  | ign, .node a .or cs => match orKeep (dropIgnorable E.level ign cs) with
    | [] => constE E false
    | [c] => c
    | cs => liftNot E a .or cs
  | _, .node a .comma cs => match commaKeep E.level cs with
    | [c] => c
    | cs => rebuild a .comma cs

/-- `visit(&nested, expr, &simplify)`. -/
def simplify (E : Env T) (ign : Bool) (e : Expr T) : Expr T := visit (simpLocal E) ign e

/-! ## Driver (src/opt.c:2140-2355) -/

/-- One iteration of the loop in `optimize()`, src/opt.c:2163-2199: `i` is the iteration,
`a` is `opt->after_{true,false}`, `impure0` is `*opt->impure`. -/
def optRound (E : Env T) (i : Nat) (ign : Bool) (before impure0 : Dom) (e : Expr T) (a : After) : Flow T :=
  let e := if 1 ≤ E.level then canonicalize E ign e else e
  let e := if 3 ≤ E.level && i ≠ 0 then reorder E ign e else e
  let r : Flow T := if 2 ≤ E.level then dataFlow E ign before impure0 e else ⟨e, a, impure0⟩
  let e := if 1 ≤ E.level then simplify E ign r.e else r.e
  ⟨e, r.a, r.impure⟩

/-- The loop of `optimize()`, src/opt.c:2163-2206: `n` iterations left. -/
def optLoop (E : Env T) (ign : Bool) (before impure0 : Dom) : Nat → Nat → Flow T → Flow T
  | 0, _, r => r
  | n + 1, i, r =>
    let r' := optRound E i ign before impure0 r.e r.a
    if r'.e.isParent then optLoop E ign before impure0 n (i + 1) r' else r'

/-- `optimize()`, src/opt.c:2140-2210. -/
def optimize (E : Env T) (ign : Bool) (before impure : Dom) (e : Expr T) : Flow T :=
  optLoop E ign before impure 3 0 ⟨annotate E e, ⟨dfTop, dfTop⟩, impure⟩

/-- `INT_MAX`. -/
def intMax : Int := 2147483647
/-- `INT_MIN`. -/
def intMin : Int := -2147483648

/-- The part of `struct bfs_ctx` that `bfs_optimize()` rewrites. -/
structure Ctx (T : Type) where
  exclude : Expr T
  expr : Expr T
  mindepth : Int
  maxdepth : Int

/-- The facts known before `ctx->expr` is evaluated, src/opt.c:2283-2293. -/
def exprBefore (c : Ctx T) (afterExclude : Dom) : Dom :=
  let d := afterExclude
  let d := if c.mindepth > 0 then d.setRange .depth (constrainMin (d.ranges .depth) c.mindepth) else d
  if c.maxdepth < intMax then d.setRange .depth (constrainMax (d.ranges .depth) c.maxdepth) else d

/-- The depth post-processing, src/opt.c:2304-2329. -/
def newMindepth (level : Nat) (impure : Dom) (mindepth : Int) : Int :=
  if 2 ≤ level ∧ (impure.ranges .depth).min > mindepth then
    if (impure.ranges .depth).min > intMax then intMax else (impure.ranges .depth).min
  else mindepth
/-- See `newMindepth`. -/
def newMaxdepth (level : Nat) (impure : Dom) (maxdepth : Int) : Int :=
  if 4 ≤ level ∧ (impure.ranges .depth).max < maxdepth then
    if (impure.ranges .depth).max < intMin then intMin else (impure.ranges .depth).max
  else maxdepth

/-- `bfs_optimize()`, src/opt.c:2258-2355 (without the choice of `BFTW_STAT` and
`raise_nofile`, which do not change what is evaluated). -/
def bfsOptimize (E : Env T) (c : Ctx T) : Ctx T :=
  let x := optimize E false dfTop dfBottom c.exclude
  let y := optimize E true (exprBefore c x.a.f) x.impure c.expr
  { exclude := x.e
    expr := y.e
    mindepth := newMindepth E.level y.impure c.mindepth
    maxdepth := newMaxdepth E.level y.impure c.maxdepth }

/-- Conversion of an `int` to `size_t` (64 bits). -/
def toSize (n : Int) : Int := if n < 0 then n + 18446744073709551616 else n

/-- The depth test of `eval_callback()`, src/eval.c:1520-1523. -/
def inBounds (mindepth maxdepth : Int) (depth : Nat) : Bool :=
  decide ((depth : Int) ≥ toSize mindepth) && decide ((depth : Int) ≤ toSize maxdepth)

/-- What `eval_callback()` (src/eval.c:1499-1524) does with the two expressions for a file at
depth `depth`, on the visit where the file is handled: nothing more if `exclude` matched, else
evaluate `expr` if the depth is in bounds.  The `-unique`, `-xargs-safe`, error and status bar
branches are not modelled here. -/
def evalCallback {W : Type} (sem : Leaf → W → Res W) (c : Ctx T) (depth : Nat) (w : W) : Res W :=
  let x := eval sem c.exclude w
  if x.r || x.q then x
  else if inBounds c.mindepth c.maxdepth depth then eval sem c.expr x.w
  else x

/-- Whether `eval_callback()` prunes below a file at this depth, src/eval.c:1512-1514. -/
def prunes (c : Ctx T) (depth : Nat) : Bool :=
  decide (c.maxdepth < 0) || decide ((depth : Int) ≥ toSize c.maxdepth)

end Verif.Opt
