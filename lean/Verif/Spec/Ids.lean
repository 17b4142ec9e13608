import Verif.Spec.Bftw
import Verif.Model.Ids
/-! # What the search strategies have in common -/
namespace Verif.Bftw

/-- The directories to go into: those where the callback says so, unless it is on another file
system and those are not wanted. -/
def Into (e : Env) (d : Visit → Pos → Action) (p : Pos) : Prop :=
  e.isDir p = true ∧ d .pre p = .cont ∧ ¬ (e.pruneMounts = true ∧ e.isMount p = true) ∧ e.skipped p = false

/-- The files that should be visited. -/
def Wanted (e : Env) (d : Visit → Pos → Action) (p : Pos) : Prop := Found e (Into e d) p ∧ e.skipped p = false

/-- The callback, told the right path, decides for each file and kind of visit, and the file system is sane:
directories have names, and a file whose type could not be found out is not known to be one. -/
structure Tame (e : Env) (d : Visit → Pos → Action) : Prop where
  callback : ∀ tr v p, e.callback tr v p (e.fullPath p) = d v p
  error : ∀ p, e.error p = true → e.isDir p = false
  named : e.Named

/-- A directory that the callback does not want to go into. -/
def Pruned (e : Env) (d : Visit → Pos → Action) (p : Pos) : Prop := e.isDir p = true ∧ d .pre p ≠ .cont

/-- Directories that are found under the same path (because the same root was given twice, say) are
treated the same. -/
def Consistent (e : Env) (d : Visit → Pos → Action) : Prop :=
  ∀ p q, Wanted e d p → Wanted e d q → e.fullPath p = e.fullPath q → e.isDir q = true → Pruned e d p → Pruned e d q

/-- No two files are found under the same path. -/
def Distinct (e : Env) (d : Visit → Pos → Action) : Prop := ∀ p q, Wanted e d p → Wanted e d q → e.fullPath p = e.fullPath q → p = q

end Verif.Bftw
