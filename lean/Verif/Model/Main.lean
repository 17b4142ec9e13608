import Verif.Model.Search
import Verif.Model.Ids
import Verif.Model.Opt
import Verif.Model.Cmdline

/-!
# From the arguments to the output, src/main.c, src/parse.c, src/eval.c

The parser (C45), the optimizer (C01–C04), the evaluator (C49), the walk (C18–C21) and the callback
(C70), put together. What tests say about files is a parameter; tests do not fail. Printing does not
fail either (see C54), and there are no colors (see C71).
-/
namespace Verif.Main
open Verif.Bftw

/-- What an evaluation does, apart from its result. -/
inductive Effect
  /-- bytes are written to the standard output -/
  | write (bytes : Bytes)
  /-- bytes are written to the file that was opened under this name -/
  | writeTo (file : Bytes) (bytes : Bytes)
  /-- `state->action = BFTW_PRUNE` -/
  | prune
  /-- `state->action = BFTW_STOP` -/
  | stop
  /-- `*state->ret = expr->num` -/
  | exit (status : Nat)
  /-- an error is reported -/
  | error
  /-- a command is run with these arguments, in this directory (`none` is the one bfs itself runs in) -/
  | run (args : List Bytes) (dir : Option Bytes)
  /-- a file, or a directory, is removed -/
  | unlink (path : Bytes) (isDir : Bool)
  /-- whatever else an action does -/
  | other (n : Nat)
  deriving DecidableEq, Repr

/-- What the primaries stand for.
* `leaf`: the leaf that a primary is parsed to
* `result`: the results of tests and of actions
* `effects`: the effects of actions other than those below -/
structure Behaviour where
  leaf : Cmdline.Prim → Opt.Leaf
  result : Pos → Opt.Leaf → Bool
  effects : Pos → Nat → List Effect

/-- `-print`. -/
def printLeaf : Opt.Leaf := .action .returnsTrue 0
/-- `-print0`. -/
def print0Leaf : Opt.Leaf := .action .returnsTrue 1
/-- `-prune`. -/
def pruneLeaf : Opt.Leaf := .action .returnsTrue 2

/-- The leaves of the parsed expression: `parse_whole_expr()`, src/parse.c:3592-3667, for `-true` and
`-print`, and `parse_nohidden()`, src/parse.c:1844-1852, for `-hidden`. -/
def Behaviour.leafOf (b : Behaviour) : Cmdline.Leaf → Opt.Leaf
  | .prim p => b.leaf p
  | .yes => .true_
  | .hidden => .pred .hidden
  | .print => printLeaf

/-- Results of leaves: `eval_true()`, `eval_false()`, src/eval.c:183-185; printing and pruning return
true. -/
def Behaviour.resultOf (b : Behaviour) (p : Pos) : Opt.Leaf → Bool
  | .true_ => true
  | .false_ => false
  | .action .returnsTrue _ => true
  | l => b.result p l

/-- Effects of leaves: `eval_fprint()`, src/eval.c:816-821, `eval_fprint0()`, src/eval.c:826-833,
`eval_prune()`, src/eval.c:899-902, `eval_quit()`, src/eval.c:907-911. -/
def Behaviour.effectsOf (b : Behaviour) (p : Pos) (path : Bytes) : Opt.Leaf → List Effect
  | .action .returnsTrue 0 => [.write (path ++ [10])]
  | .action .returnsTrue 1 => [.write (path ++ [0])]
  | .action .returnsTrue 2 => [.prune]
  | .action .noReturn i => b.effects p i ++ [.stop]
  | .action _ i => b.effects p i
  | _ => []

/-- Does the leaf set `state->quit`? -/
def quits : Opt.Leaf → Bool
  | .action .noReturn _ => true
  | _ => false

/-- Evaluating a leaf on a file. -/
def Behaviour.sem (b : Behaviour) (p : Pos) (path : Bytes) (l : Opt.Leaf) (w : List Effect) : Opt.Res (List Effect) :=
  ⟨b.resultOf p l, quits l, w ++ b.effectsOf p path l⟩

variable {T : Type}

/-- The tree that the parser makes: `new_unary_expr()` and `new_binary_expr()`, src/parse.c:312-322.
The annotations are overwritten by the optimizer. -/
def Behaviour.build (b : Behaviour) (a : Opt.Ann T) : Cmdline.E → Opt.Expr T
  | .leaf l => .leaf a (b.leafOf l)
  | .not e => .node a .not [b.build a e]
  | .and x y => .node a .and [b.build a x, b.build a y]
  | .or x y => .node a .or [b.build a x, b.build a y]
  | .comma x y => .node a .comma [b.build a x, b.build a y]

/-- What the options say. -/
structure Settings where
  mindepth : Int
  maxdepth : Int
  xargsSafe : Bool
  ignoreRaces : Bool
  ignoreErrors : Bool
  gone : Pos → Bool

/-- `bfs_parse_cmdline()`, src/parse.c:3827-3951: what is passed to `bfs_optimize()`. -/
def Behaviour.ctx (b : Behaviour) (a : Opt.Ann T) (o : Settings) (cmd : Cmdline.Cmd) : Opt.Ctx T :=
  { exclude := .node a .or (cmd.excludes.map (b.build a))
    expr := b.build a cmd.expr
    mindepth := o.mindepth
    maxdepth := o.maxdepth }

/-- `state.action` after the evaluation. -/
def actionOf (w : List Effect) : Action :=
  if w.contains .stop then .stop else if w.contains .prune then .prune else .cont

/-- The callback of the walk with these expressions. -/
def Behaviour.cfg (b : Behaviour) (o : Settings) (c : Opt.Ctx T) : Cfg where
  mindepth := c.mindepth
  maxdepth := c.maxdepth
  xargsSafe := o.xargsSafe
  unique := false
  ignoreRaces := o.ignoreRaces
  ignoreErrors := o.ignoreErrors
  exclude := fun p => (Opt.eval (b.sem p []) c.exclude []).r
  expr := fun p => actionOf (Opt.eval (b.sem p []) c.expr []).w
  exprError := fun p => (Opt.eval (b.sem p []) c.expr []).w.contains .error
  fileId := fun _ => (0, 0)
  gone := o.gone

/-- The files that the expression was evaluated on, with the paths in the ftwbuf, oldest first. -/
def calls (c : Cfg) (e : Env) (tr : List Event) : List (Pos × Bytes) :=
  (((c.verdicts e tr).filter fun x => x.2.evaluated).map fun x => (x.1.pos, x.1.path)).reverse

/-- All effects of a walk. -/
def Behaviour.output (b : Behaviour) (o : Settings) (c : Opt.Ctx T) (e : Env) (tr : List Event) : List Effect :=
  (calls (b.cfg o c) e tr).flatMap fun x => (Opt.eval (b.sem x.1 x.2) c.expr []).w

/-- `bftw()`, src/bftw.c:2330-2343: the calls of the callback so far, newest first, and whether the search
is complete. -/
inductive Walked (e : Env) : List Event → Bool → Prop
  | walk {s : State} : e.strategy = .bfs ∨ e.strategy = .dfs → Reach e s → Walked e s.trace (decide (s.pc = .done))
  | deepened {st : Ids} : Deepened e st → Walked e st.calls true
  | midway {st : Ids} : Midway e st → Walked e st.calls false

/-- The status that `-exit` asked for, if any. -/
def exitOf : Effect → Option Nat
  | .exit n => some n
  | _ => none

/-- `*state->ret` at the end, if it would be `status` without `-exit`: `eval_exit()`, src/eval.c:440-445, assigns to it and stops the search, so that no errors follow. -/
def exitStatus (out : List Effect) (status : Nat) : Nat :=
  if out.contains .stop then (out.filterMap exitOf).getLast?.getD status else status

/-- `main()`, src/main.c:117-152: parse, optimize, search; `tr` are the calls of `eval_callback()` so far, newest first, and
`complete` says whether the search is over. `args` does not include the name of the program. -/
structure Ran (env : Cmdline.Env) (b : Behaviour) (E : Opt.Env T) (a : Opt.Ann T) (o : Settings) (e : Env)
    (args : List Cmdline.Arg) (cmd : Cmdline.Cmd) (tr : List Event) (complete : Bool) (out : List Effect) (status : Nat) : Prop where
  parsed : Cmdline.whole (Cmdline.prim env) args = .ok cmd
  roots : e.roots = cmd.roots.length
  names : ∀ i root, cmd.roots[i]? = some root → e.name [i] = root
  walk : Walked ((b.cfg o (Opt.bfsOptimize E (b.ctx a o cmd))).env e) tr complete
  out_eq : out = b.output o (Opt.bfsOptimize E (b.ctx a o cmd)) e tr
  status_eq : status = exitStatus out ((b.cfg o (Opt.bfsOptimize E (b.ctx a o cmd))).status e tr)

end Verif.Main
