import Verif.Model.Search

/-!
# `-delete`, src/eval.c

What the evaluations of `-delete` during a search do to the file system. No one else changes it
meanwhile. `F` are the directory entries that exist at first. The paths that are passed to the system
name them; so no two positions name the same one in a search that does not follow links.
-/
namespace Verif.Delete
open Verif.Bftw

/-- The file system, as far as `unlinkat()` is concerned.
* `dir`: is it a directory, and not a link to one?
* `contents`: what is in a directory, except for `.` and `..`
* `denied`: is it refused for other reasons (permissions, mount points, `.` as the last component)?
* `file`: which directory entry is visited
* `unknown`: does `bftw_type()` without following links fail? -/
structure World (F : Type) where
  dir : F → Bool
  contents : F → List F
  denied : F → Bool
  file : Pos → F
  unknown : Pos → Bool

variable {F : Type} [DecidableEq F]

/-- `unlinkat()`: what remains, or `none` if it fails (`ENOENT`, `EISDIR` or `EPERM`, `ENOTDIR`,
`ENOTEMPTY`, or for other reasons). -/
def World.unlinkat (w : World F) (present : F → Bool) (f : F) (removedir : Bool) : Option (F → Bool) :=
  if !present f then none
  else if w.dir f != removedir then none
  else if removedir && (w.contents f).any present then none
  else if w.denied f then none
  else some fun g => if g = f then false else present g

/-- The file system, the files on which `-delete` returned true, and those for which it reported an
error. -/
structure St (F : Type) where
  present : F → Bool
  succeeded : List Pos
  failed : List Pos

/-- `eval_delete()`, src/eval.c:377-403. -/
def evalDelete (w : World F) (path : Bytes) (p : Pos) (st : St F) : St F :=
  if path = [46] then { st with succeeded := p :: st.succeeded }
  else if w.unknown p then { st with failed := p :: st.failed }
  else
    match w.unlinkat st.present (w.file p) (w.dir (w.file p)) with
    | none => { st with failed := p :: st.failed }
    | some present => { st with present := present, succeeded := p :: st.succeeded }

/-- An evaluation of the expression: `wants` says whether it gets to `-delete`, which may depend on
what has been deleted so far. -/
def evaluate (w : World F) (wants : (F → Bool) → Pos → Bool) (call : Pos × Bytes) (st : St F) : St F :=
  if wants st.present call.1 then evalDelete w call.2 call.1 st else st

/-- The files that the expression was evaluated on, with the paths in the ftwbuf, newest first. -/
def calls (c : Cfg) (e : Env) (tr : List Event) : List (Pos × Bytes) :=
  ((c.verdicts e tr).filter fun x => x.2.evaluated).map fun x => (x.1.pos, x.1.path)

/-- All evaluations (newest first). -/
def run (w : World F) (wants : (F → Bool) → Pos → Bool) (calls : List (Pos × Bytes)) : St F :=
  calls.foldr (evaluate w wants) ⟨fun _ => true, [], []⟩

end Verif.Delete
