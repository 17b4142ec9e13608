import Verif.Spec.Search
import Verif.Spec.Cmdline
import Verif.Spec.Opt
import Verif.Model.Main

/-!
# What bfs should do with a command line

The expression is given a meaning directly, from left to right, without optimizations.
-/
namespace Verif.Main
open Verif.Bftw

/-- The result of an expression on a file, whether it ended the search, and what it did. -/
structure Meaning where
  value : Bool
  quit : Bool
  effects : List Effect

/-- The meaning of an expression, when the meaning of the leaves is given. -/
def meaning (leaf : Cmdline.Leaf → Meaning) : Cmdline.E → Meaning
  | .leaf l => leaf l
  | .not e => { meaning leaf e with value := !(meaning leaf e).value }
  | .and x y =>
    if (meaning leaf x).quit || !(meaning leaf x).value then { meaning leaf x with value := false }
    else { meaning leaf y with effects := (meaning leaf x).effects ++ (meaning leaf y).effects }
  | .or x y =>
    if (meaning leaf x).quit || (meaning leaf x).value then { meaning leaf x with value := true }
    else { meaning leaf y with effects := (meaning leaf x).effects ++ (meaning leaf y).effects }
  | .comma x y =>
    if (meaning leaf x).quit then meaning leaf x
    else { meaning leaf y with effects := (meaning leaf x).effects ++ (meaning leaf y).effects }

/-- The meaning of a primary on a file: `-true`, `-false`, `-print`, `-print0`, `-prune`; other actions that always
return true; those that end the search, like `-quit`; all other actions; tests. -/
def Behaviour.primMeaning (b : Behaviour) (p : Pos) (path : Bytes) : Opt.Leaf → Meaning
  | .true_ => ⟨true, false, []⟩
  | .false_ => ⟨false, false, []⟩
  | .action .returnsTrue 0 => ⟨true, false, [.write (path ++ [10])]⟩
  | .action .returnsTrue 1 => ⟨true, false, [.write (path ++ [0])]⟩
  | .action .returnsTrue 2 => ⟨true, false, [.prune]⟩
  | .action .returnsTrue i => ⟨true, false, b.effects p i⟩
  | .action .noReturn i => ⟨b.result p (.action .noReturn i), true, b.effects p i ++ [.stop]⟩
  | .action k i => ⟨b.result p (.action k i), false, b.effects p i⟩
  | test => ⟨b.result p test, false, []⟩

/-- The meaning of a leaf on a file: besides primaries, there are those that are implied. -/
def Behaviour.leafMeaning (b : Behaviour) (e : Env) (p : Pos) : Cmdline.Leaf → Meaning
  | .yes => ⟨true, false, []⟩
  | .hidden => ⟨b.result p (.pred .hidden), false, []⟩
  | .print => ⟨true, false, [.write (e.fullPath p ++ [10])]⟩
  | .prim q => b.primMeaning p (e.fullPath p) (b.leaf q)

/-- What the expression does on a file. -/
def Behaviour.plain (b : Behaviour) (e : Env) (cmd : Cmdline.Cmd) (p : Pos) : List Effect :=
  (meaning (b.leafMeaning e p) cmd.expr).effects

/-- The search that was asked for: the same settings, and what the expressions say about each file. -/
def Behaviour.asked (b : Behaviour) (o : Settings) (e : Env) (cmd : Cmdline.Cmd) : Cfg where
  mindepth := o.mindepth
  maxdepth := o.maxdepth
  xargsSafe := o.xargsSafe
  unique := false
  ignoreRaces := o.ignoreRaces
  ignoreErrors := o.ignoreErrors
  exclude := fun p => cmd.excludes.any fun x => (meaning (b.leafMeaning e p) x).value
  expr := fun p => actionOf (b.plain e cmd p)
  exprError := fun p => (b.plain e cmd p).contains .error
  fileId := fun _ => (0, 0)
  gone := o.gone

/-- The tests that may occur within `-exclude` are no actions. -/
def Behaviour.Tests (b : Behaviour) : Prop := ∀ p : Cmdline.Prim, p.action = false → ∀ k i, b.leaf p ≠ .action k i

/-- The options accept only these. -/
structure Settings.Sane (o : Settings) : Prop where
  min0 : 0 ≤ o.mindepth
  min1 : o.mindepth < 2 ^ 31
  max0 : 0 ≤ o.maxdepth
  max1 : o.maxdepth < 2 ^ 31

/-- `-S ids` or `-S eds`. -/
def Deepening (e : Env) : Prop := e.strategy = .ids ∨ e.strategy = .eds

/-- The conditions on the files and the walk under which C70 is proved. With `-S ids` and `-S eds`, different files have
different paths. -/
structure Ordinary (e : Env) : Prop where
  named : e.Named
  distinct : Deepening e → ∀ p q, Found e (fun d => e.isDir d = true) p → Found e (fun d => e.isDir d = true) q → e.fullPath p = e.fullPath q → p = q
  errors : ∀ p, e.error p = true → e.isDir p = false
  mounts : e.post = true → e.pruneMounts = false

/-- The expressions for which `-O2` and above are proved right (see C02): without commas, and with the
leaves of `Spec.Opt.Tame` only. -/
def Behaviour.Tame (b : Behaviour) (w : Spec.Opt.Owners) (f : Spec.Opt.File) (unit level : Nat) : Cmdline.E → Prop
  | .leaf l => Spec.Opt.Tame w f unit level (b.leafOf l)
  | .not x => b.Tame w f unit level x
  | .and x y => b.Tame w f unit level x ∧ b.Tame w f unit level y
  | .or x y => b.Tame w f unit level x ∧ b.Tame w f unit level y
  | .comma _ _ => False

/-- The files have attributes, tests say what these are, and `-O2` and above are right for them. -/
structure Attributes (b : Behaviour) (level : Nat) (o : Settings) (cmd : Cmdline.Cmd) (f : Pos → Spec.Opt.File) (unit : Nat) : Prop where
  pos : 0 < unit
  real : ∀ p, (depth p : Int) ≤ o.maxdepth → Spec.Opt.RealFile (f p)
  depth : ∀ p, (f p).num .depth = depth p
  result : ∀ p l v, Spec.Opt.test (f p) l = some v → b.result p l = v
  tame : ∃ w, ∀ p, b.Tame w (f p) unit level cmd.expr ∧ ∀ x ∈ cmd.excludes, b.Tame w (f p) unit level x

/-- The output is what it should be, at any time: the expression has been evaluated on files that it
should be evaluated on, on each once, and on none after `-quit`; directories come before or after what
is in them. -/
structure Right (b : Behaviour) (o : Settings) (e : Env) (cmd : Cmdline.Cmd) (files : List Pos) (out : List Effect) : Prop where
  once : files.Nodup
  sound : ∀ p ∈ files, (b.asked o e cmd).Target e p
  output : out = files.flatMap (b.plain e cmd)
  pre : e.post = false → files.Pairwise fun earlier later => ¬ later <:+ earlier
  post : e.post = true → files.Pairwise fun earlier later => ¬ earlier <:+ later
  quit : ∀ p ∈ files, .stop ∈ b.plain e cmd p → files.getLast? = some p

/-- Nothing is missing: the expression has been evaluated on all files on which it does anything. -/
def Complete (b : Behaviour) (o : Settings) (e : Env) (cmd : Cmdline.Cmd) (files : List Pos) : Prop :=
  ∀ p, (b.asked o e cmd).Target e p → b.plain e cmd p ≠ [] → p ∈ files

/-- Deeper than this file the expression does nothing, whatever files there are. -/
def Idle (c : Cfg) (effects : Pos → List Effect) (p : Pos) : Prop :=
  ∀ q, depth p < depth q → c.exclude q = false → c.InRange q → effects q = []

/-- There are only tests in the expression. -/
def NoActions : Cmdline.E → Prop
  | .leaf (.prim p) => p.action = false
  | .leaf .print => False
  | .leaf _ => True
  | .not x => NoActions x
  | .and x y => NoActions x ∧ NoActions y
  | .or x y => NoActions x ∧ NoActions y
  | .comma x y => NoActions x ∧ NoActions y

end Verif.Main
