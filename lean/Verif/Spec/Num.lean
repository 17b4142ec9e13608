import Verif.Model.Num
/-! # What numbers, durations and ages are -/
namespace Verif.Num
open Verif.Time

/-- A digit of a base up to ten: `0` is 48. -/
def IsDigit (base : Nat) (c : UInt8) : Prop := 48 ≤ c.toNat ∧ c.toNat < 48 + base

/-- Positional notation. -/
inductive Digits (base : Nat) : Bytes → Nat → Prop
  | one (c : UInt8) (d : Nat) : c.toNat = 48 + d → d < base → Digits base [c] d
  | more (s : Bytes) (n : Nat) (c : UInt8) (d : Nat) : Digits base s n → c.toNat = 48 + d → d < base →
      Digits base (s ++ [c]) (base * n + d)

/-- Digits after an optional sign. -/
inductive Numeral (base : Nat) : Bytes → Int → Prop
  | plain {s : Bytes} {n : Nat} : Digits base s n → Numeral base s n
  | plus {s : Bytes} {n : Nat} : Digits base s n → Numeral base (43 :: s) n
  | minus {s : Bytes} {n : Nat} : Digits base s n → Numeral base (45 :: s) (-n)

/-- The values of the types. -/
def Fits (size : IntSize) (v : Int) : Prop :=
  match size with
  | .int => -2 ^ 31 ≤ v ∧ v ≤ 2 ^ 31 - 1
  | .long => -2 ^ 63 ≤ v ∧ v ≤ 2 ^ 63 - 1
  | .longLong => -2 ^ 63 ≤ v ∧ v ≤ 2 ^ 63 - 1

/-- `rest` begins with a digit. -/
def StartsDigit (base : Nat) (rest : Bytes) : Prop := ∃ c t, rest = c :: t ∧ IsDigit base c

/-- `-N`, `+N` and `N`. -/
inductive Signed : Bytes → Cmp → Bytes → Prop
  | less (s : Bytes) : Signed (45 :: s) .lt s
  | greater (s : Bytes) : Signed (43 :: s) .gt s
  | equal (s : Bytes) : (∀ t, s ≠ 45 :: t) → (∀ t, s ≠ 43 :: t) → Signed s .eq s

/-- The letter for a unit of time, and its length in seconds: `s`, `m`, `h`, `d`, `w`. -/
inductive Letter : UInt8 → Nat → Prop
  | second : Letter 115 1
  | minute : Letter 109 60
  | hour : Letter 104 3600
  | day : Letter 100 86400
  | week : Letter 119 604800

/-- Numbers with units, like `1h30m`, and how many seconds they mean. -/
inductive Duration : Bytes → Nat → Prop
  | last {s : Bytes} {n : Nat} {c : UInt8} {k : Nat} : Numeral 10 s n → n ≤ 2 ^ 63 - 1 → Letter c k → Duration (s ++ [c]) (n * k)
  | more {s : Bytes} {n : Nat} {c : UInt8} {k : Nat} {t : Bytes} {total : Nat} :
      Numeral 10 s n → n ≤ 2 ^ 63 - 1 → Letter c k → Duration t total → Duration (s ++ c :: t) (n * k + total)

/-- The length of a unit, in nanoseconds. -/
def TimeUnit.nanos : TimeUnit → Int
  | .seconds => 1000000000
  | .minutes => 60 * 1000000000
  | .days => 24 * 60 * 60 * 1000000000

/-- The number of bytes in a unit. -/
def SizeUnit.inBytes : SizeUnit → Int
  | .blocks => 512
  | .bytes => 1
  | .words => 2
  | .kb => 1024
  | .mb => 1024 * 1024
  | .gb => 1024 * 1024 * 1024
  | .tb => 1024 * 1024 * 1024 * 1024
  | .pb => 1024 * 1024 * 1024 * 1024 * 1024

/-- The suffixes of `-size`: none, or one of `bcwkMGTP`. -/
inductive Suffix : Bytes → SizeUnit → Prop
  | none : Suffix [] .blocks
  | b : Suffix [98] .blocks
  | c : Suffix [99] .bytes
  | w : Suffix [119] .words
  | k : Suffix [107] .kb
  | M : Suffix [77] .mb
  | G : Suffix [71] .gb
  | T : Suffix [84] .tb
  | P : Suffix [80] .pb

end Verif.Num
