import Verif.Model.Limits
/-!
# How limits compare
-/
namespace Verif.Spec.Limits
open Verif.Limits

/-- All special values mean that there is no limit. -/
def Unlimited (p : Plat) (r : Nat) : Prop := r = p.infinity ∨ r = p.savedCur ∨ r = p.savedMax

/-- One limit is at most another: the other one is unlimited, or both are numbers. -/
def AtMost (p : Plat) (a b : Nat) : Prop := Unlimited p b ∨ (¬ Unlimited p a ∧ a ≤ b)

/-- A number of descriptors is within a limit. -/
def Within (p : Plat) (n limit : Nat) : Prop := Unlimited p limit ∨ n ≤ limit

/-- What the manual says about `setrlimit()`: it sets what it is asked to set, or fails. -/
structure Kernel (sys : Rlimit → Option Rlimit) : Prop where
  sets : ∀ rl new, sys rl = some new → new = rl

/-- Limits that a process can have. On every platform 64K is not one of the special values. -/
structure Sane (p : Plat) (rl : Rlimit) : Prop where
  big : ¬ Unlimited p 65536
  ordered : AtMost p rl.cur rl.max

end Verif.Spec.Limits
