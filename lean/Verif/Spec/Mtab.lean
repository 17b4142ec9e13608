import Verif.Model.Mtab
/-!
# What the mount table should say
-/
namespace Verif.Spec.Mtab
open Verif Verif.Path Verif.Mtab

/-- What is known about the directory that contains a path. -/
def parentOf (w : World) (path : Bytes) : Option Sb := (w.openDir (xdirname path)).bind w.statFd

/-- The ID of the file system that is mounted at a path: none if it doesn't exist, and none if it is known to be on the same device as its parent (but isn't its own parent). -/
def mountedAt (w : World) (path : Bytes) : Option Nat :=
  match w.statAt none path, parentOf w path with
  | none, _ => none
  | some sb, none => some sb.mntId
  | some sb, some parent => if sb.dev = parent.dev ∧ sb.ino ≠ parent.ino then none else some sb.mntId

/-- The type of a file system, according to the last entry of the mount table for it. -/
def typeOf (w : World) (mounts : List Mount) (id : Nat) : Bytes :=
  ((mounts.filter fun m => decide (mountedAt w m.path = some id)).getLast?.map (·.type)).getD "unknown".toUTF8.toList

/-- Looking up the last part of a path in the directory that contains it is the same as looking up the path. -/
def Honest (w : World) : Prop :=
  ∀ path fd, w.openDir (xdirname path) = some fd → w.statAt (some fd) (path.drop (xbaseoff path)) = w.statAt none path

/-- IDs have 64 bits. -/
def Fits (w : World) : Prop := ∀ fd path sb, w.statAt fd path = some sb → sb.mntId < 2 ^ 64

/-- Some lookups: the IDs, and the memory that is available to each. -/
def lookups (K : Nat) (w : World) : List (Nat × List FillMem) → Mtab → Nat → Out (List (Option Bytes) × Mtab × Nat)
  | [], t, fds => .ok ([], t, fds)
  | (id, mem) :: ls, t, fds =>
    (fstype K w mem t fds id).bind fun r =>
      (lookups K w ls r.2.1 r.2.2).bind fun q => .ok (r.1 :: q.1, q.2)

end Verif.Spec.Mtab
