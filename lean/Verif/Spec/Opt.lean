import Verif.Model.Expr
/-!
# Specification vocabulary for the optimizer and evaluator theorems

Nothing here refers to the optimizer: only to expression trees, to what individual tests and
actions mean for a file, and to what running an expression looks like from the outside.
-/
namespace Verif.Spec.Opt
open Verif.Opt
variable {T W : Type}

/-! ## Trees -/

/-- A negation has one operand, the other operators have at least one. -/
def operandsOK (o : Op) (cs : List (Expr T)) : Prop :=
  match o with
  | .not => cs.length = 1
  | _ => cs ≠ []

mutual
/-- The shape the parser gives every tree. -/
def WF : Expr T → Prop
  | .leaf _ _ => True
  | .node _ o cs => operandsOK o cs ∧ WFs cs
/-- `WF` for every operand. -/
def WFs : List (Expr T) → Prop
  | [] => True
  | c :: cs => WF c ∧ WFs cs
end

/-- The shape of what is excluded: without `-exclude`, an empty disjunction. -/
def WFExclude (e : Expr T) : Prop := WF e ∨ ∃ a, e = .node a .or []

mutual
/-- A property of all leaves of a tree. -/
def AllLeaves (P : Leaf → Prop) : Expr T → Prop
  | .leaf _ l => P l
  | .node _ _ cs => AllLeavesL P cs
/-- `AllLeaves` for every operand. -/
def AllLeavesL (P : Leaf → Prop) : List (Expr T) → Prop
  | [] => True
  | c :: cs => AllLeaves P c ∧ AllLeavesL P cs
end

mutual
/-- The tree does not use the comma operator. -/
def NoComma : Expr T → Prop
  | .leaf _ _ => True
  | .node _ o cs => o ≠ .comma ∧ NoCommas cs
/-- `NoComma` for every operand. -/
def NoCommas : List (Expr T) → Prop
  | [] => True
  | c :: cs => NoComma c ∧ NoCommas cs
end

/-! ## Arbitrary leaf behaviours

`sem l w` is what happens when leaf `l` is evaluated in the world state `w`. -/

/-- What the manual promises about individual leaves, whatever else they do:
`-true`/`-false` do nothing, printing actions return true, `-exit`/`-quit` do not return. -/
structure LeafLaws (sem : Leaf → W → Res W) : Prop where
  true_ : ∀ w, sem .true_ w = ⟨true, false, w⟩
  false_ : ∀ w, sem .false_ w = ⟨false, false, w⟩
  returns : ∀ i w, (sem (.action .returnsTrue i) w).q = false → (sem (.action .returnsTrue i) w).r = true
  noReturn : ∀ i w, (sem (.action .noReturn i) w).q = true

/-- Leaves that are worth logging: all but the constants `-true` and `-false`. -/
def logs : Leaf → Bool
  | .true_ => false
  | .false_ => false
  | _ => true

/-- The same leaf behaviours, recording every leaf that is evaluated (except `-true` and
`-false`) together with the state it saw, its result and whether it quit. -/
def logged (sem : Leaf → W → Res W) (l : Leaf) (w : W × List (Leaf × W × Bool × Bool)) :
    Res (W × List (Leaf × W × Bool × Bool)) :=
  ⟨(sem l w.1).r, (sem l w.1).q,
   ((sem l w.1).w, if logs l then w.2 ++ [(l, w.1, (sem l w.1).r, (sem l w.1).q)] else w.2)⟩

/-! ## Evaluation, as the manual describes it -/

mutual
/-- `Runs sem e w x`: evaluating `e` in the state `w` ends with outcome `x`. -/
inductive Runs (sem : Leaf → W → Res W) : Expr T → W → Res W → Prop
  | leaf {a l w} : Runs sem (.leaf a l) w (sem l w)
  | not {a c w x} : Runs sem c w x → Runs sem (.node a .not [c]) w ⟨!x.r, x.q, x.w⟩
  | and {a cs w x} : RunsAnd sem cs w x → Runs sem (.node a .and cs) w x
  | or {a cs w x} : RunsOr sem cs w x → Runs sem (.node a .or cs) w x
  | comma {a cs w x} : RunsComma sem cs w x → Runs sem (.node a .comma cs) w x
/-- Operands of `-a` run left to right until one is false or quits. -/
inductive RunsAnd (sem : Leaf → W → Res W) : List (Expr T) → W → Res W → Prop
  | done {w} : RunsAnd sem [] w ⟨true, false, w⟩
  | isFalse {c cs w x} : Runs sem c w x → x.q = false → x.r = false → RunsAnd sem (c :: cs) w ⟨false, false, x.w⟩
  | quit {c cs w x} : Runs sem c w x → x.q = true → RunsAnd sem (c :: cs) w ⟨false, true, x.w⟩
  | next {c cs w x y} : Runs sem c w x → x.q = false → x.r = true → RunsAnd sem cs x.w y → RunsAnd sem (c :: cs) w y
/-- Operands of `-o` run left to right until one is true or quits. -/
inductive RunsOr (sem : Leaf → W → Res W) : List (Expr T) → W → Res W → Prop
  | done {w} : RunsOr sem [] w ⟨false, false, w⟩
  | isTrue {c cs w x} : Runs sem c w x → x.q = false → x.r = true → RunsOr sem (c :: cs) w ⟨true, false, x.w⟩
  | quit {c cs w x} : Runs sem c w x → x.q = true → RunsOr sem (c :: cs) w ⟨true, true, x.w⟩
  | next {c cs w x y} : Runs sem c w x → x.q = false → x.r = false → RunsOr sem cs x.w y → RunsOr sem (c :: cs) w y
/-- Operands of `,` all run left to right, until one quits; the last one gives the result. -/
inductive RunsComma (sem : Leaf → W → Res W) : List (Expr T) → W → Res W → Prop
  | last {c w x} : Runs sem c w x → RunsComma sem [c] w x
  | quit {c cs w x} : cs ≠ [] → Runs sem c w x → x.q = true → RunsComma sem (c :: cs) w x
  | next {c cs w x y} : cs ≠ [] → Runs sem c w x → x.q = false → RunsComma sem cs x.w y → RunsComma sem (c :: cs) w y
end

/-! ## Files -/

/-- The attributes of a file that tests look at; fixed while one expression is evaluated. -/
structure File where
  /-- the simple predicates: `-readable`, `-empty`, `-hidden`, ... -/
  pred : Pred → Bool
  /-- depth, gid, inode number, link count, size in bytes, uid -/
  num : Range → Int
  dev : Int
  /-- the type seen by `-type` (a `bfs_type`, i.e. a bit number in type masks) -/
  type : Nat
  /-- the type seen by `-xtype` -/
  xtype : Nat
  /-- whether the `id`-th `-lname` pattern matches the link target -/
  lname : Nat → Bool
  /-- the result of the `id`-th test of any other kind (`-name`, `-perm`, `-newer`, ...) -/
  other : Nat → Bool

/-- File sizes are rounded up to whole units. -/
def units (bytes : Int) (unit : Nat) : Int := -((-bytes) / (unit : Int))

/-- `n`, `-n`, `+n`. -/
def cmpHolds (c : Cmp) (v n : Int) : Bool :=
  match c with
  | .eq => decide (v = n)
  | .lt => decide (v < n)
  | .gt => decide (v > n)

/-- The result of a test on a file; `none` for actions. -/
def test (f : File) : Leaf → Option Bool
  | .true_ => some true
  | .false_ => some false
  | .pred p => some (f.pred p)
  | .cmp .size unit c n => some (cmpHolds c (units (f.num .size) unit) n)
  | .cmp r _ c n => some (cmpHolds c (f.num r) n)
  | .lname id => some (decide (f.type = 6) && f.lname id)
  | .samefile dev ino => some (decide (f.dev = dev) && decide (f.num .inum = ino))
  | .type m => some (m.getLsbD f.type)
  | .xtype m => some (m.getLsbD f.xtype)
  | .other id => some (f.other id)
  | .action _ _ => none

/-- Facts about every real file: sizes, ids and depths are not negative, types are bit
numbers, only regular files and directories can be empty, and an empty regular file is one
of size zero.  (Types 3, 6 and 8 are directory, link and regular file.) -/
structure RealFile (f : File) : Prop where
  num : ∀ r, 0 ≤ f.num r ∧ f.num r ≤ 9223372036854775807
  type : f.type < 32
  xtype : f.xtype < 32
  empty : f.pred .empty = true → f.type = 8 ∨ f.type = 3
  size0 : f.type = 8 → (f.pred .empty = true ↔ f.num .size = 0)

/-- Evaluation on the file `f`, when no system call that a test needs fails: tests have the
result given by the file's attributes and no effect, except that below -O4 `-empty` and
`-xtype` are allowed to have effects (they may print errors or trigger automounts); actions
do whatever they like within `LeafLaws`. -/
structure OnFile (f : File) (level : Nat) (sem : Leaf → W → Res W) : Prop where
  laws : LeafLaws sem
  result : ∀ l b, test f l = some b → ∀ w, (sem l w).r = b ∧ (sem l w).q = false
  quiet : ∀ l b, test f l = some b →
    (4 ≤ level ∨ (l ≠ .pred .empty ∧ ∀ m, l ≠ .xtype m)) → ∀ w, (sem l w).w = w

/-- Tests have no effect and a result that does not depend on what other parts of the
expression did (again except `-empty` and `-xtype` below -O4). -/
def PureTests (level : Nat) (sem : Leaf → W → Res W) : Prop :=
  ∀ l, (∀ k i, l ≠ .action k i) → (4 ≤ level ∨ (l ≠ .pred .empty ∧ ∀ m, l ≠ .xtype m)) →
    ∃ b, ∀ w, sem l w = ⟨b, false, w⟩

/-- The one user and the one group, if any, that `-uid`, `-user`, `-gid` and `-group` may ask
for. -/
structure Owners where
  user : Option Int
  group : Option Int

/-- The leaves for which -O2 and above are proved right.  Tests for the owner may only ask for
one user and one group, by equality, and then not together with `-nouser` or `-nogroup`.  The
excluded ones (`-uid` tests for two users, two `-size` tests in different units, `-samefile`
against a file on another device with the same inode number) are wrong in the code: see the
counterexamples beside the theorems.  The restrictions on `-empty` at -O4, on `-uid +n` and
`-uid -n`, and on ids beyond the range of `long long` are ones of the proof. -/
def Tame (o : Owners) (f : File) (unit level : Nat) : Leaf → Prop
  | .cmp .size u _ _ => u = unit
  | .cmp .gid _ c n => c = .eq ∧ o.group = some n ∧ 0 ≤ n ∧ n < 9223372036854775807
  | .cmp .uid _ c n => c = .eq ∧ o.user = some n ∧ 0 ≤ n ∧ n < 9223372036854775807
  | .samefile dev ino => f.num .inum = ino → f.dev = dev
  | .pred .empty => level < 4
  | .pred .nogroup => o.group = none
  | .pred .nouser => o.user = none
  | _ => True

/-- The same leaf behaviours, recording every action that is evaluated together with the
state it saw, its result and whether it quit. -/
def loggedActions (sem : Leaf → W → Res W) (l : Leaf) (w : W × List (Leaf × W × Bool × Bool)) :
    Res (W × List (Leaf × W × Bool × Bool)) :=
  ⟨(sem l w.1).r, (sem l w.1).q,
   ((sem l w.1).w, match l with
    | .action _ _ => w.2 ++ [(l, w.1, (sem l w.1).r, (sem l w.1).q)]
    | _ => w.2)⟩

end Verif.Spec.Opt
