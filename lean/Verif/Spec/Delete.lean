import Verif.Spec.Search
import Verif.Model.Delete

/-!
# What `-delete` should do
-/
namespace Verif.Delete
open Verif.Bftw

variable {F : Type} [DecidableEq F]

/-- A file that is inside of a directory. -/
def Below (p q : Pos) : Prop := p <:+ q ∧ p ≠ q

/-- The files that are searched form a tree: each is reached in one way, and what is in a directory is
reached through it. -/
structure World.Tree (w : World F) (target : Pos → Prop) : Prop where
  inj : ∀ p q, target p → target q → w.file p = w.file q → p = q
  inside : ∀ p q, target p → target q → w.dir (w.file p) = true → w.file q ∈ w.contents (w.file p) →
    Below p q

/-- The tests before `-delete` may look at the file itself and at what is inside of it, but not at
other files that are searched. -/
def Local (w : World F) (target : Pos → Prop) (wants : (F → Bool) → Pos → Bool) : Prop :=
  ∀ p st st', target p →
    (∀ f, (∀ q, target q → w.file q = f → Below p q) → st f = st' f) → wants st p = wants st' p

/-- May the file be removed, if it is not a directory with something left in it? -/
structure World.Removable (w : World F) (e : Env) (p : Pos) : Prop where
  named : e.fullPath p ≠ [46]
  known : w.unknown p = false
  allowed : w.denied (w.file p) = false

/-- Everything that is in a directory that is searched is itself searched. -/
def World.Whole (w : World F) (target : Pos → Prop) : Prop :=
  ∀ p, target p → w.dir (w.file p) = true → ∀ f ∈ w.contents (w.file p), ∃ q, target q ∧ w.file q = f

end Verif.Delete
