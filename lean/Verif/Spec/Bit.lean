/-!
# What the bit utilities are supposed to compute

`w` is the width of the type, and `n < 2^w`; `Nat.testBit n i` is bit `i`.
-/
namespace Verif.Bit

/-- The number of ones. -/
def ones (w n : Nat) : Nat := ((List.range w).filter fun i => n.testBit i).length

/-- There are `k` zeros before the first one, from the most significant bit. -/
def IsLeadingZeros (w n k : Nat) : Prop := k ≤ w ∧ (∀ i, w - k ≤ i → i < w → n.testBit i = false) ∧ (k < w → n.testBit (w - 1 - k) = true)

/-- There are `k` zeros before the first one, from the least significant bit. -/
def IsTrailingZeros (w n k : Nat) : Prop := k ≤ w ∧ (∀ i, i < k → n.testBit i = false) ∧ (k < w → n.testBit k = true)

/-- The number of bits needed. -/
def IsWidth (n k : Nat) : Prop := n < 2 ^ k ∧ ∀ j, n < 2 ^ j → k ≤ j

/-- The largest power of two that is not more than `n`. -/
def IsFloor (n f : Nat) : Prop := (∃ k, f = 2 ^ k) ∧ f ≤ n ∧ ∀ j, 2 ^ j ≤ n → 2 ^ j ≤ f

/-- The smallest power of two that is not less than `n`. -/
def IsCeil (n c : Nat) : Prop := (∃ k, c = 2 ^ k) ∧ n ≤ c ∧ ∀ j, n ≤ 2 ^ j → c ≤ 2 ^ j

/-- Byte `i`, from the least significant one. -/
def byte (n i : Nat) : Nat := n / 256 ^ i % 256

end Verif.Bit
