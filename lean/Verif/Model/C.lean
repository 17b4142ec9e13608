/-!
# Outcomes of C computations

Undefined behaviour is a distinct outcome, so that no theorem can hold merely
because a C expression with no meaning was given one here.
-/
namespace Verif

/-- Outcome of a C function: a value, a reported error (`errno`), or undefined
behaviour (signed overflow, out-of-bounds access, failed assertion). -/
inductive Out (α : Type) where
  | ok (a : α)
  | err (errno : String)
  | ub
  deriving DecidableEq, Repr

namespace Out

def bind {α β} : Out α → (α → Out β) → Out β
  | ok a, f => f a
  | err e, _ => err e
  | ub, _ => ub

instance : Monad Out where
  pure := ok
  bind := bind

@[simp] theorem bind_ok {α β} (a : α) (f : α → Out β) : (Out.ok a >>= f) = f a := rfl
@[simp] theorem bind_err {α β} (e : String) (f : α → Out β) : (Out.err e >>= f) = Out.err e := rfl
@[simp] theorem bind_ub {α β} (f : α → Out β) : ((Out.ub : Out α) >>= f) = Out.ub := rfl
@[simp] theorem pure_eq {α} (a : α) : (pure a : Out α) = Out.ok a := rfl

/-- A successful sequence decomposes into two successful steps. -/
theorem bind_eq_ok {α β} {x : Out α} {f : α → Out β} {b : β} :
    (x >>= f) = Out.ok b ↔ ∃ a, x = Out.ok a ∧ f a = Out.ok b := by
  cases x <;> simp

end Out

/-- `INT_MAX` for the 32-bit `int` of every supported platform. -/
def INT_MAX : Int := 2147483647
/-- `INT_MIN`. -/
def INT_MIN : Int := -2147483648
/-- `LLONG_MAX`. -/
def LLONG_MAX : Int := 9223372036854775807
/-- `LLONG_MIN`. -/
def LLONG_MIN : Int := -9223372036854775808

/-- The result of an `int` expression: signed overflow is undefined. -/
def i32 (x : Int) : Out Int := if INT_MIN ≤ x ∧ x ≤ INT_MAX then .ok x else .ub
/-- The result of a `long long` expression: signed overflow is undefined. -/
def i64 (x : Int) : Out Int := if LLONG_MIN ≤ x ∧ x ≤ LLONG_MAX then .ok x else .ub

theorem i32_ok {x : Int} (h : INT_MIN ≤ x ∧ x ≤ INT_MAX) : i32 x = .ok x := if_pos h
theorem i64_ok {x : Int} (h : LLONG_MIN ≤ x ∧ x ≤ LLONG_MAX) : i64 x = .ok x := if_pos h
theorem i32_eq_ok {x y : Int} : i32 x = .ok y ↔ (INT_MIN ≤ x ∧ x ≤ INT_MAX) ∧ y = x := by
  unfold i32; split <;> rename_i h <;> simp [h, eq_comm]
theorem i64_eq_ok {x y : Int} : i64 x = .ok y ↔ (LLONG_MIN ≤ x ∧ x ≤ LLONG_MAX) ∧ y = x := by
  unfold i64; split <;> rename_i h <;> simp [h, eq_comm]

end Verif
