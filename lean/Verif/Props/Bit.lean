import Verif.Lemmas.BitBytes
/-!
# C52: bit and byte utilities; C65: counting ASCII bytes

`w` is the width of the type and `n < 2^w` the argument. Both implementations are covered: the loops, and the ones that use builtins (`Gnu`). For the operations built on `leading_zeros()`, `lz` stands for either.
-/
namespace Verif.Props
open Verif.Bit

/-- The two implementations of `leading_zeros()`. -/
inductive LeadingImpl : (Nat → Nat → Out Nat) → Prop
  | loop : LeadingImpl leadingZeros
  | gnu : LeadingImpl leadingZerosGnu

/-- The two implementations of `trailing_zeros()`. -/
inductive TrailingImpl : (Nat → Nat → Out Nat) → Prop
  | loop : TrailingImpl trailingZeros
  | gnu : TrailingImpl trailingZerosGnu

/-- `count_ones()` counts the ones, and `count_zeros()`, which complements, the zeros. -/
theorem C52_count (w n : Nat) (hn : n < 2 ^ w) :
    countOnes w n = .ok (ones w n) ∧ countOnesGnu w n = ones w n ∧ countOnes w (compl w n) = .ok (w - ones w n) ∧ countOnesGnu w (compl w n) = w - ones w n := by
  have hsum : ∀ v, v ≤ w → ones v (compl w n) + ones v n = v := by
    intro v
    induction v with
    | zero => intro _; rfl
    | succ v ih =>
      intro hv
      have := ih (by omega)
      rw [ones_succ, ones_succ, compl_testBit hn]
      cases n.testBit v <;> simp [show v < w by omega] <;> omega
  have h := hsum w (Nat.le_refl w)
  rw [countOnes_eq hn, countOnesGnu_eq hn, countOnes_eq (compl_lt hn), countOnesGnu_eq (compl_lt hn)]
  refine ⟨rfl, rfl, ?_, by omega⟩
  congr 1; omega

example : countOnes 8 0b10110001 = .ok 4 ∧ countOnesGnu 8 0b10110001 = 4 ∧ ones 8 0b10110001 = 4 := by decide

/-- `leading_zeros()` returns the number of zeros before the first one from the top, or the width if there is no one. -/
theorem C52_leading {lz : Nat → Nat → Out Nat} (hl : LeadingImpl lz) (w n : Nat) (hw : 0 < w) (hn : n < 2 ^ w) : ∃ k, lz w n = .ok k ∧ IsLeadingZeros w n k := by
  cases hl with
  | loop => exact leadingZeros_ok hw n
  | gnu => exact leadingZerosGnu_ok hn

example : leadingZeros 8 0b00010100 = .ok 3 ∧ leadingZerosGnu 8 0b00010100 = .ok 3 ∧ leadingZeros 16 0 = .ok 16 ∧ leadingZerosGnu 16 0 = .ok 16 := by decide

/-- `trailing_zeros()` returns the number of zeros before the first one from the bottom, or the width if there is no one. -/
theorem C52_trailing {tz : Nat → Nat → Out Nat} (ht : TrailingImpl tz) (w n : Nat) (hw : 0 < w) (hn : n < 2 ^ w) : ∃ k, tz w n = .ok k ∧ IsTrailingZeros w n k := by
  cases ht with
  | loop => exact trailingZeros_ok hw n
  | gnu => exact trailingZerosGnu_ok hn

example : trailingZeros 8 0b00010100 = .ok 2 ∧ trailingZerosGnu 8 0b00010100 = .ok 2 ∧ trailingZeros 8 0 = .ok 8 ∧ trailingZerosGnu 8 0 = .ok 8 := by decide

/-- `leading_ones()` and `trailing_ones()`, which complement, count the ones at the ends. -/
theorem C52_ones_at_ends {lz tz : Nat → Nat → Out Nat} (hl : LeadingImpl lz) (ht : TrailingImpl tz) (w n : Nat) (hw : 0 < w) (hn : n < 2 ^ w) :
    (∃ k, lz w (compl w n) = .ok k ∧ k ≤ w ∧ (∀ i, w - k ≤ i → i < w → n.testBit i = true) ∧ (k < w → n.testBit (w - 1 - k) = false)) ∧
    (∃ k, tz w (compl w n) = .ok k ∧ k ≤ w ∧ (∀ i, i < k → n.testBit i = true) ∧ (k < w → n.testBit k = false)) := by
  obtain ⟨k, hk, h1, h2, h3⟩ := C52_leading hl w (compl w n) hw (compl_lt hn)
  obtain ⟨l, hl, g1, g2, g3⟩ := C52_trailing ht w (compl w n) hw (compl_lt hn)
  refine ⟨⟨k, hk, h1, ?_, ?_⟩, l, hl, g1, ?_, ?_⟩
  · intro i hi hi'
    have := h2 i hi hi'
    rw [compl_testBit hn] at this
    simpa [hi'] using this
  · intro h
    have := h3 h
    rw [compl_testBit hn] at this
    simpa [show w - 1 - k < w by omega] using this
  · intro i hi
    have := g2 i hi
    rw [compl_testBit hn] at this
    simpa [show i < w by omega] using this
  · intro h
    have := g3 h
    rw [compl_testBit hn] at this
    simpa [h] using this

example : leadingZeros 8 (compl 8 0b11101011) = .ok 3 ∧ trailingZerosGnu 8 (compl 8 0b11101011) = .ok 2 := by decide

/-- `first_leading_one()` and `first_trailing_one()` are the index of the first one, from either end and counted from 1, and 0 if there is no one. -/
theorem C52_first {lz : Nat → Nat → Out Nat} (hl : LeadingImpl lz) (w n : Nat) (hw : 0 < w) (hn : n < 2 ^ w) :
    (n = 0 → firstLeadingOne lz w n = .ok 0 ∧ firstTrailingOne w n = .ok 0 ∧ firstTrailingOneGnu w n = .ok 0) ∧
    (n ≠ 0 → (∃ k, firstLeadingOne lz w n = .ok k ∧ 1 ≤ k ∧ k ≤ w ∧ n.testBit (w - k) = true ∧ ∀ i, w - k < i → i < w → n.testBit i = false) ∧
      ∃ k, firstTrailingOne w n = .ok k ∧ firstTrailingOneGnu w n = .ok k ∧ 1 ≤ k ∧ k ≤ w ∧ n.testBit (k - 1) = true ∧ ∀ i, i < k - 1 → n.testBit i = false) := by
  constructor
  · rintro rfl; exact ⟨rfl, rfl, rfl⟩
  · intro h0
    obtain ⟨q, hq, hqb⟩ := exists_bit h0 hn
    constructor
    · obtain ⟨k, hk, h1, h2, h3⟩ := C52_leading hl w n hw hn
      have hkw : k < w := by
        apply Nat.lt_of_not_le
        intro hc
        rw [h2 q (by omega) hq] at hqb
        cases hqb
      refine ⟨k + 1, ?_, by omega, by omega, ?_, ?_⟩
      · rw [firstLeadingOne, if_pos h0, hk]; rfl
      · rw [show w - (k + 1) = w - 1 - k by omega]; exact h3 hkw
      · intro i hi hi'; exact h2 i (by omega) hi'
    · obtain ⟨k, hk, hz⟩ := trailingZeros_ok hw n
      obtain ⟨k', hk', hz'⟩ := trailingZerosGnu_ok hn
      have := isTrailing_unique hz hz'
      subst this
      obtain ⟨h1, h2, h3⟩ := hz
      have hkw : k < w := by
        apply Nat.lt_of_not_le
        intro hc
        rw [h2 q (by omega)] at hqb
        cases hqb
      refine ⟨k + 1, ?_, ?_, by omega, by omega, h3 hkw, fun i hi => h2 i hi⟩
      · rw [firstTrailingOne, if_pos h0, hk]; rfl
      · rw [firstTrailingOneGnu, ffs, if_neg h0, ctz_eq_gnu h0, hk']; rfl

example : firstLeadingOne leadingZeros 8 0b00010100 = .ok 4 ∧ firstTrailingOne 8 0b00010100 = .ok 3 ∧ firstTrailingOneGnu 8 0b00010100 = .ok 3 := by decide

/-- `has_single_bit()` recognizes the powers of two. -/
theorem C52_single (w n : Nat) (hn : n < 2 ^ w) : hasSingleBit w n = true ↔ ∃ k, n = 2 ^ k := hasSingleBit_iff hn

example : hasSingleBit 8 64 = true ∧ hasSingleBit 8 65 = false ∧ hasSingleBit 8 0 = false ∧ hasSingleBit 64 0 = false := by decide

/-- `bit_width()` is the number of bits needed. -/
theorem C52_width {lz : Nat → Nat → Out Nat} (hl : LeadingImpl lz) (w n : Nat) (hw : 0 < w) (hn : n < 2 ^ w) : ∃ k, bitWidth lz w n = .ok k ∧ IsWidth n k := by
  obtain ⟨k, hk, hz⟩ := C52_leading hl w n hw hn
  exact ⟨w - k, by rw [bitWidth, hk]; rfl, isLeading_width hn hz⟩

example : bitWidth leadingZeros 16 256 = .ok 9 ∧ bitWidth leadingZerosGnu 16 255 = .ok 8 := by decide

/-- `bit_floor()` is the largest power of two that is not more than the argument, and 0 for 0. -/
theorem C52_floor {lz : Nat → Nat → Out Nat} (hl : LeadingImpl lz) (w n : Nat) (hw : 0 < w) (hn : n < 2 ^ w) :
    (n = 0 → bitFloor lz w n = .ok 0) ∧ (n ≠ 0 → ∃ f, bitFloor lz w n = .ok f ∧ IsFloor n f) := by
  constructor
  · rintro rfl; rfl
  · intro h0
    obtain ⟨k, hk, hz⟩ := C52_width hl w n hw hn
    have hle := hz.2 w hn
    have hpos := isWidth_pos hz h0
    refine ⟨2 ^ (k - 1), ?_, isWidth_floor hz h0⟩
    rw [bitFloor, if_pos h0, hk]
    show shiftOne w (k - 1) = _
    rw [shiftOne, if_pos (by unfold promoted; omega), Nat.one_shiftLeft, Nat.mod_eq_of_lt (Nat.pow_lt_pow_right (by omega) (by omega))]

example : bitFloor leadingZeros 16 1000 = .ok 512 ∧ bitFloor leadingZerosGnu 16 1024 = .ok 1024 := by decide

/-- `bit_ceil()` is the smallest power of two that is not less than the argument, if the type can represent it. -/
theorem C52_ceil {lz : Nat → Nat → Out Nat} (hl : LeadingImpl lz) (w n : Nat) (hw : 0 < w) (hn : n ≤ 2 ^ (w - 1)) : ∃ c, bitCeil lz w n = .ok c ∧ IsCeil n c := by
  have hlt : n < 2 ^ w := Nat.lt_of_le_of_lt hn (Nat.pow_lt_pow_right (by omega) (by omega))
  obtain ⟨k, hk, hz⟩ := C52_width hl w (n - (if n ≠ 0 then 1 else 0)) hw (Nat.lt_of_le_of_lt (Nat.sub_le _ _) hlt)
  have hle : k ≤ w - 1 := by
    apply hz.2
    have := Nat.two_pow_pos (w - 1)
    split <;> omega
  refine ⟨2 ^ k, ?_, isWidth_ceil hz⟩
  rw [bitCeil, hk]
  show shiftOne w k = _
  rw [shiftOne, if_pos (by unfold promoted; omega), Nat.one_shiftLeft, Nat.mod_eq_of_lt (Nat.pow_lt_pow_right (by omega) (by omega))]

example : bitCeil leadingZeros 16 1000 = .ok 1024 ∧ bitCeil leadingZerosGnu 16 1024 = .ok 1024 ∧ bitCeil leadingZeros 8 0 = .ok 1 := by decide

/-- If the type cannot represent the result, `bit_ceil()` is undefined for the types with at least 32 bits, and 0 for narrower ones. -/
theorem C52_ceil_overflow {lz : Nat → Nat → Out Nat} (hl : LeadingImpl lz) (w n : Nat) (hw : 0 < w) (hn : n < 2 ^ w) (hbig : 2 ^ (w - 1) < n) :
    bitCeil lz w n = if w < 32 then .ok 0 else .ub := by
  have h0 : n ≠ 0 := by have := Nat.two_pow_pos (w - 1); omega
  obtain ⟨k, hk, hz⟩ := C52_width hl w (n - (if n ≠ 0 then 1 else 0)) hw (Nat.lt_of_le_of_lt (Nat.sub_le _ _) hn)
  have hkw : k = w := by
    rw [if_pos h0] at hz
    apply Nat.le_antisymm (hz.2 w (by omega))
    apply Nat.le_of_not_lt
    intro hc
    have := hz.1
    have := Nat.pow_le_pow_right (show 0 < 2 by omega) (show k ≤ w - 1 by omega)
    omega
  rw [bitCeil, hk, hkw]
  show shiftOne w w = _
  rw [shiftOne]
  by_cases h : w < 32
  · rw [if_pos h, if_pos (by unfold promoted; omega), Nat.one_shiftLeft, Nat.mod_self]
  · rw [if_neg h, if_neg (by unfold promoted; omega)]

example : bitCeil leadingZeros 8 129 = .ok 0 ∧ bitCeil leadingZeros 32 (2 ^ 31 + 1) = .ub := by decide

/-- `rotate_left()` moves bit `i` to bit `i + c`, modulo the width, and `rotate_right()` the other way. -/
theorem C52_rotate (w n c : Nat) (hn : n < 2 ^ w) (hc : c < w) :
    (∃ r, rotateLeft w n c = .ok r ∧ r < 2 ^ w ∧ ∀ i, i < w → r.testBit ((i + c) % w) = n.testBit i) ∧
    (∃ r, rotateRight w n c = .ok r ∧ r < 2 ^ w ∧ ∀ i, i < w → r.testBit i = n.testBit ((i + c) % w)) :=
  ⟨rotateLeft_bit hn hc, rotateRight_bit hn hc⟩

example : rotateLeft 8 0b10110001 3 = .ok 0b10001101 ∧ rotateRight 8 0b10001101 3 = .ok 0b10110001 ∧ rotateLeft 8 5 0 = .ok 5 := by decide

/-- Rotating back undoes a rotation. -/
theorem C52_rotate_inverse (w n c : Nat) (hn : n < 2 ^ w) (hc : c < w) :
    (rotateLeft w n c).bind (fun r => rotateRight w r c) = .ok n ∧ (rotateRight w n c).bind (fun r => rotateLeft w r c) = .ok n := by
  have eq_of : ∀ {a b : Nat}, a < 2 ^ w → b < 2 ^ w → (∀ i, i < w → a.testBit i = b.testBit i) → a = b := by
    intro a b ha hb h
    apply Nat.eq_of_testBit_eq
    intro i
    by_cases hi : i < w
    · exact h i hi
    · have hp := Nat.pow_le_pow_right (show 0 < 2 by omega) (show w ≤ i by omega)
      rw [Nat.testBit_lt_two_pow (Nat.lt_of_lt_of_le ha hp), Nat.testBit_lt_two_pow (Nat.lt_of_lt_of_le hb hp)]
  constructor
  · obtain ⟨r, hr, hlt, h⟩ := rotateLeft_bit hn hc
    obtain ⟨s, hs, hlt', h'⟩ := rotateRight_bit hlt hc
    rw [hr]
    show rotateRight w r c = _
    rw [hs]
    congr 1
    exact eq_of hlt' hn fun i hi => by rw [h' i hi, h i hi]
  · obtain ⟨r, hr, hlt, h⟩ := rotateRight_bit hn hc
    obtain ⟨s, hs, hlt', h'⟩ := rotateLeft_bit hlt hc
    rw [hr]
    show rotateLeft w r c = _
    rw [hs]
    congr 1
    refine eq_of hlt' hn fun i hi => ?_
    by_cases hic : c ≤ i
    · have h1 := h' (i - c) (by omega)
      rw [show i - c + c = i by omega, Nat.mod_eq_of_lt hi, h (i - c) (by omega), show i - c + c = i by omega, Nat.mod_eq_of_lt hi] at h1
      exact h1
    · have h1 := h' (i + w - c) (by omega)
      rw [show i + w - c + c = i + w by omega, Nat.add_mod_right, Nat.mod_eq_of_lt hi, h (i + w - c) (by omega), show i + w - c + c = i + w by omega, Nat.add_mod_right, Nat.mod_eq_of_lt hi] at h1
      exact h1

example : (rotateLeft 16 0xBEEF 4).bind (fun r => rotateRight 16 r 4) = .ok 0xBEEF := by decide

/-- `bswap()` reverses the bytes. -/
theorem C52_bswap (n : Nat) :
    (n < 2 ^ 16 → bswap16 n < 2 ^ 16 ∧ ∀ i, i < 2 → byte (bswap16 n) i = byte n (1 - i)) ∧
    (n < 2 ^ 32 → bswap32 n < 2 ^ 32 ∧ ∀ i, i < 4 → byte (bswap32 n) i = byte n (3 - i)) ∧
    (n < 2 ^ 64 → bswap64 n < 2 ^ 64 ∧ ∀ i, i < 8 → byte (bswap64 n) i = byte n (7 - i)) := by
  refine ⟨fun h => ⟨lt_of_testBit fun p => bswap16_testBit n p h, fun i hi => ?_⟩, fun h => ⟨lt_of_testBit fun p => bswap32_testBit n p h, fun i hi => ?_⟩,
    fun h => ⟨lt_of_testBit fun p => bswap64_testBit n p h, fun i hi => ?_⟩⟩
  · refine byte_of_testBit (fun p => bswap16_testBit n p h) _ _ _ (by omega) fun j hj => ?_
    rw [show (8 * i + j) / 8 = i by omega, show (8 * i + j) % 8 = j by omega]
  · refine byte_of_testBit (fun p => bswap32_testBit n p h) _ _ _ (by omega) fun j hj => ?_
    rw [show (8 * i + j) / 8 = i by omega, show (8 * i + j) % 8 = j by omega]
  · refine byte_of_testBit (fun p => bswap64_testBit n p h) _ _ _ (by omega) fun j hj => ?_
    rw [show (8 * i + j) / 8 = i by omega, show (8 * i + j) % 8 = j by omega]

example : bswap16 0x1234 = 0x3412 ∧ bswap32 0x12345678 = 0x78563412 ∧ bswap64 0x0123456789ABCDEF = 0xEFCDAB8967452301 := by decide

/-- A little endian load of `s` bytes puts the byte at address `i` at position `i`. -/
theorem C52_load_le (ptr : Nat → UInt8) :
    (loadLe8 ptr 0 8 < 256 ^ 1 ∧ ∀ i, i < 1 → byte (loadLe8 ptr 0 8) i = (ptr i).toNat) ∧ (loadLe16 ptr 0 16 < 256 ^ 2 ∧ ∀ i, i < 2 → byte (loadLe16 ptr 0 16) i = (ptr i).toNat) ∧
    (loadLe32 ptr 0 32 < 256 ^ 4 ∧ ∀ i, i < 4 → byte (loadLe32 ptr 0 32) i = (ptr i).toNat) ∧ (loadLe64 ptr 0 64 < 256 ^ 8 ∧ ∀ i, i < 8 → byte (loadLe64 ptr 0 64) i = (ptr i).toNat) :=
  ⟨le_word (s := 1) fun p => loadLe8_testBit ptr 0 8 p rfl, le_word (s := 2) fun p => loadLe16_testBit ptr 0 16 p rfl,
    le_word (s := 4) fun p => loadLe32_testBit ptr 0 32 p rfl, le_word (s := 8) fun p => loadLe64_testBit ptr 0 64 p rfl⟩

example : loadLe32 (fun i => [0x12, 0x34, 0x56, 0x78][i]?.getD 0) 0 32 = 0x78563412 := by decide

/-- A big endian load of `s` bytes puts the byte at address `i` at position `s - 1 - i`. -/
theorem C52_load_be (ptr : Nat → UInt8) :
    (loadBe8 ptr 0 8 < 256 ^ 1 ∧ ∀ i, i < 1 → byte (loadBe8 ptr 0 8) (1 - 1 - i) = (ptr i).toNat) ∧ (loadBe16 ptr 0 16 < 256 ^ 2 ∧ ∀ i, i < 2 → byte (loadBe16 ptr 0 16) (2 - 1 - i) = (ptr i).toNat) ∧
    (loadBe32 ptr 0 32 < 256 ^ 4 ∧ ∀ i, i < 4 → byte (loadBe32 ptr 0 32) (4 - 1 - i) = (ptr i).toNat) ∧ (loadBe64 ptr 0 64 < 256 ^ 8 ∧ ∀ i, i < 8 → byte (loadBe64 ptr 0 64) (8 - 1 - i) = (ptr i).toNat) :=
  ⟨be_word (s := 1) fun p => loadBe8_testBit ptr 0 8 p rfl rfl (by omega), be_word (s := 2) fun p => loadBe16_testBit ptr 0 16 p rfl rfl (by omega),
    be_word (s := 4) fun p => loadBe32_testBit ptr 0 32 p rfl rfl (by omega), be_word (s := 8) fun p => loadBe64_testBit ptr 0 64 p rfl rfl (by omega)⟩

example : loadBe32 (fun i => [0x12, 0x34, 0x56, 0x78][i]?.getD 0) 0 32 = 0x12345678 := by decide

/-- `asciinlen()` returns the length of the longest prefix that is ASCII, for every string: reading words at a time neither skips nor misjudges a byte. -/
theorem C65_ascii {tz : Nat → Nat → Out Nat} (ht : TrailingImpl tz) (str : List UInt8) : asciinlen tz str = .ok (str.takeWhile (fun b => decide (b < 128))).length :=
  asciinlen_ok (fun w n hw hn => C52_trailing ht w n hw hn) str

example : asciinlen trailingZerosGnu [104, 101, 108, 108, 111, 32, 119, 111, 114, 108, 195, 182] = .ok 10 := by decide +kernel

/-- Every word that `asciinlen()` loads lies inside the string. -/
theorem C65_bounds (tz : Nat → Nat → Out Nat) (load : (Nat → UInt8) → Nat → Nat → Nat) (size : Nat) (str : List UInt8) (i : Nat) (hi : i ≤ str.length) (hpos : 0 < size) :
    chunk tz load size str i = .ok .skip ∨ i + size ≤ str.length := by
  unfold chunk
  by_cases h : str.length - i ≥ size
  · right; omega
  · left; exact if_neg h

example : chunk trailingZeros loadLe64 8 [1, 2, 3] 0 = .ok .skip := by decide

end Verif.Props
