import Verif.Spec.Ids
import Verif.Model.Search

/-!
# Which files the expression should be evaluated on
-/
namespace Verif.Bftw

/-- The limits of the depth are numbers that the options accept. -/
structure Cfg.Sane (c : Cfg) : Prop where
  min0 : 0 ≤ c.mindepth
  min1 : c.mindepth < 2 ^ 31
  max0 : 0 ≤ c.maxdepth
  max1 : c.maxdepth < 2 ^ 31

/-- The file is not excluded by `-exclude`, or by its name with `-X`. -/
def Cfg.Allowed (c : Cfg) (e : Env) (p : Pos) : Prop :=
  c.exclude p = false ∧
    (c.xargsSafe = true → ∀ b ∈ e.fullPath p, b ∉ [32, 9, 10, 39, 34, 92])

/-- The depth of the file is between `-mindepth` and `-maxdepth`. -/
def Cfg.InRange (c : Cfg) (p : Pos) : Prop := c.mindepth ≤ depth p ∧ (depth p : Int) ≤ c.maxdepth

/-- A mount point that is not gone into because of `-xdev`. -/
def Env.barrier (e : Env) (p : Pos) : Prop := e.pruneMounts = true ∧ e.isMount p = true

/-- The directories to go into: those that are allowed, not too deep, not on another file system
with `-xdev`, and on which the expression has not said `-prune` (which has no effect with
`-depth`). -/
structure Cfg.Enters (c : Cfg) (e : Env) (p : Pos) : Prop where
  dir : e.isDir p = true
  allowed : c.Allowed e p
  shallow : (depth p : Int) < c.maxdepth
  here : ¬ e.barrier p
  shown : e.skipped p = false
  pruned : e.post = false → c.InRange p → c.expr p = .cont

/-- The files the expression should be evaluated on. -/
structure Cfg.Target (c : Cfg) (e : Env) (p : Pos) : Prop where
  found : Found e (c.Enters e) p
  shown : e.skipped p = false
  known : e.error p = false
  allowed : c.Allowed e p
  range : c.InRange p

/-- No two of the files that are found have the same path. -/
def Cfg.Distinct (c : Cfg) (e : Env) : Prop :=
  ∀ p q, Found e (c.Enters e) p → Found e (c.Enters e) q → e.fullPath p = e.fullPath q → p = q

/-- An error while examining or reading the file that is not ignored: with `-ignore_readdir_race`,
files that have vanished are, except for the roots. -/
def Cfg.Counts (c : Cfg) (p : Pos) : Prop := ¬ (c.ignoreRaces = true ∧ c.gone p = true ∧ 0 < depth p)

/-- What makes bfs fail: a file that is not examined, a directory that is not read, a path that is
not safe for `xargs` with `-X`, or an error during the evaluation. -/
def Cfg.Trouble (c : Cfg) (e : Env) (p : Pos) : Prop :=
  Found e (c.Enters e) p ∧ e.skipped p = false ∧
    ((e.error p = true ∧ c.Counts p) ∨
      (c.Enters e p ∧ e.broken p = true ∧ c.Counts p) ∨
      (e.error p = false ∧ c.exclude p = false ∧ c.xargsSafe = true ∧
        ∃ b ∈ e.fullPath p, b ∈ ([32, 9, 10, 39, 34, 92] : List UInt8)) ∨
      (c.Target e p ∧ c.exprError p = true))

/-- Whether a file is allowed, gone into or pruned depends only on which file it is, and the same
directory has the same files in it wherever it is found. -/
structure Cfg.Faithful (c : Cfg) (e : Env) (p q : Pos) : Prop where
  dir : e.isDir p = e.isDir q
  allowed : c.Allowed e p → c.Allowed e q
  here : e.barrier q → e.barrier p
  pruned : c.expr p = .cont → c.expr q = .cont
  entries : ∀ j < e.entries p, e.error (j :: p) = false → e.skipped (j :: p) = false →
    ∃ k < e.entries q, e.error (k :: q) = false ∧ e.skipped (k :: q) = false ∧
      c.fileId (k :: q) = c.fileId (j :: p)

/-- Paths with the same identity are the same file. -/
def Cfg.Identities (c : Cfg) (e : Env) : Prop :=
  ∀ p q, e.error p = false → e.error q = false → c.fileId p = c.fileId q → c.Faithful e p q

end Verif.Bftw
