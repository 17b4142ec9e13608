/-!
# What calendar arithmetic means

Independent of the code: the proleptic Gregorian calendar as a sum of month
lengths, and timestamps as integer nanosecond counts.
-/
namespace Verif.Spec.Time

/-- Gregorian leap years (`y` is the ordinary year number, e.g. 2024). -/
def IsLeap (y : Int) : Prop := y % 4 = 0 ∧ (y % 100 ≠ 0 ∨ y % 400 = 0)

instance (y : Int) : Decidable (IsLeap y) := inferInstanceAs (Decidable (_ ∧ _))

/-- Length of month `m` (0 = January) of year `y`. -/
def daysInMonth (y m : Int) : Int :=
  if m = 1 then (if IsLeap y then 29 else 28)
  else if m = 3 ∨ m = 5 ∨ m = 8 ∨ m = 10 then 30 else 31

/-- Length of the `k`-th month counted from January 1970 (`k` may be negative). -/
def monthLen (k : Int) : Int := daysInMonth (1970 + k / 12) (k % 12)

/-- Days from 1970-01-01 to the first day of the `k`-th month from January 1970. -/
def daysToMonth : Int → Int
  | .ofNat n => ((List.range n).map fun (i : Nat) => monthLen i).sum
  | .negSucc n => -((List.range (n + 1)).map fun (i : Nat) => monthLen (-1 - i)).sum

/-- Seconds from 1970-01-01T00:00:00Z to the (possibly denormal) civil time:
year (ordinary numbering), month (0 = January), day (1 = first), h, m, s. -/
def epochSeconds (year month mday hour min sec : Int) : Int :=
  86400 * (daysToMonth (12 * (year - 1970) + month) + (mday - 1)) + 3600 * hour + 60 * min + sec

end Verif.Spec.Time
