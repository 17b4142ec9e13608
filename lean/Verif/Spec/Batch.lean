import Verif.Spec.Bftw
import Verif.Spec.Quota
import Verif.Spec.Exec
import Verif.Model.Batch

/-!
# What `-exec` should do in a search
-/
namespace Verif.Batch
open Verif.Bftw Verif.Quota

variable {T V : Type}

/-- `-exec ... {} +` or `-exec ... ;`, action number `i`. -/
def cmdLeaf (multi : Bool) (i : Nat) : Opt.Leaf := .action (if multi then .returnsTrue else .plain) i

/-- The files that the command was evaluated on, in that order. -/
def Job.matched (b : Job T V) (e : Env) (tr : List Event) (multi : Bool) (i : Nat) : List Pos :=
  (files (cmdLeaf multi i) ((b.search e).log e tr)).reverse

/-- Such a file, to the command. -/
def Job.file (b : Job T V) (e : Env) (i : Nat) (p : Pos) : Exec.File := b.acts.file e i p (e.fullPath p)

/-- What the command is given for a file: its path, or, with `-execdir`, its name after `./`. The names of
roots are what is left without the directories in front. -/
def given (e : Env) (chdir : Bool) (p : Pos) : Bytes :=
  if chdir = false then e.fullPath p
  else if 1 < p.length then [46, 47] ++ e.name p
  else
    let name := (e.fullPath p).drop (Path.xbaseoff (e.fullPath p))
    if name.head? = some 47 then name else [46, 47] ++ name

/-- Files have names, and there are no slashes in those that are read from directories. -/
def Proper (e : Env) : Prop := ∀ p, e.name p ≠ [] ∧ (1 < p.length → 47 ∉ e.name p)

/-- The directory that a file is in, `none` for the one bfs was started in. The directory of a root is what
comes before its name, and `/` is in `/`. -/
def home (e : Env) (p : Pos) : Option Bytes :=
  if 1 < p.length then some (if (e.fullPath p.tail).getLast? = some 47 then e.fullPath p.tail else e.fullPath p.tail ++ [47])
  else
    let dir := (e.fullPath p).take (Path.xbaseoff (e.fullPath p))
    if dir ≠ [] then some dir else if (e.fullPath p).head? = some 47 then some [47] else none

/-- None of the library calls made for the command fail. -/
def Job.Fine (b : Job T V) (i : Nat) : Prop :=
  ∀ p, (b.acts.calls i p).formatOk = true ∧ (b.acts.calls i p).dupOk = true ∧ (b.acts.calls i p).strndupOk = true ∧
    (b.acts.calls i p).openOk = true ∧ (b.acts.calls i p).reallocOk = true

/-- `TESTS -exec ...`, as the parser builds it. -/
def each (a c : Opt.Ann T) (tests : Opt.Expr T) (multi : Bool) (i : Nat) : Opt.Expr T :=
  .node a .and [tests, .leaf c (cmdLeaf multi i)]

mutual
/-- The primaries of an expression. -/
def primaries : Opt.Expr T → List Opt.Leaf
  | .leaf _ l => [l]
  | .node _ _ cs => primariesL cs
def primariesL : List (Opt.Expr T) → List Opt.Leaf
  | [] => []
  | c :: cs => primaries c ++ primariesL cs
end

end Verif.Batch
