import Verif.Model.Bftw
/-! # What a walk should do -/
namespace Verif.Bftw

/-- The path to an entry of a directory. -/
def join (dir name : Bytes) : Bytes := if dir.getLast? = some 47 then dir ++ name else dir ++ 47 :: name

/-- The path to a file: the names on the way to it. -/
def Env.fullPath (e : Env) : Pos → Bytes
  | [] => []
  | [i] => e.name [i]
  | j :: p => join (e.fullPath p) (e.name (j :: p))

/-- The files for which the callback was called in some way. -/
def visits (v : Visit) (tr : List Event) : List Pos := (tr.filter fun ev => ev.visit = v).map (·.pos)

/-- The directories that the callback said to go into. -/
def entered (tr : List Event) : List Pos := (tr.filter fun ev => ev.visit = .pre ∧ ev.action = .cont).map (·.pos)

/-- The files below the roots, if one goes into some directories. -/
inductive Found (e : Env) (into : Pos → Prop) : Pos → Prop
  | root (i : Nat) : i < e.roots → Found e into [i]
  | entry (p : Pos) (j : Nat) : Found e into p → into p → j < e.entries p → Found e into (j :: p)

/-- Mount points are left out with `BFTW_SKIP_MOUNTS`. -/
def Env.skipped (e : Env) (p : Pos) : Bool := e.skipMounts && e.isMount p

/-- Directories have names, so that `""` is not one. -/
def Env.Named (e : Env) : Prop := ∀ p, e.isDir p = true → e.name p ≠ []

/-- Something happened a number of times since the walk began. -/
inductive Run (e : Env) : Nat → State → Prop
  | init : Run e 0 (State.init e)
  | step {n : Nat} {s s' : State} : Run e n s → Step e s s' → Run e (n + 1) s'
  | fail {n : Nat} {s : State} : Run e n s → s.pc ≠ .done → s.pc ≠ .stopped → Run e (n + 1) { s with pc := .stopped }

/-- Does a file come before another from the same directory, if they are sorted by name, and files
with equal names are in the order in which they were read? -/
def Before (e : Env) (a b : Pos) : Prop :=
  a.tail = b.tail → e.le (e.name a) (e.name b) = true ∧ (e.le (e.name b) (e.name a) = true → a.headD 0 < b.headD 0)

end Verif.Bftw
