import Verif.Lemmas.Bit
/-! # Lemmas about rotation, byte order and words -/
namespace Verif.Bit
open Verif

theorem byte_testBit (n i j : Nat) : (byte n i).testBit j = (decide (j < 8) && n.testBit (8 * i + j)) := by
  rw [byte, show 256 = 2 ^ 8 from rfl, ← Nat.pow_mul, Nat.testBit_mod_two_pow, Nat.testBit_div_two_pow, Nat.add_comm]

theorem rotateLeft_bit {w n c : Nat} (hn : n < 2 ^ w) (hc : c < w) :
    ∃ r, rotateLeft w n c = .ok r ∧ r < 2 ^ w ∧ ∀ i, i < w → r.testBit ((i + c) % w) = n.testBit i := by
  refine ⟨_, if_pos hc, Nat.mod_lt _ (Nat.two_pow_pos w), ?_⟩
  intro i hi
  have hlt : (i + c) % w < w := Nat.mod_lt _ (by omega)
  rw [Nat.testBit_mod_two_pow, Nat.testBit_or, Nat.testBit_shiftLeft, Nat.testBit_shiftRight]
  by_cases h0 : c = 0
  · subst h0
    simp [Nat.mod_eq_of_lt hi, hi]
  · rw [Nat.mod_eq_of_lt (show w - c < w by omega)]
    by_cases hw : i + c < w
    · rw [Nat.mod_eq_of_lt hw, Nat.testBit_lt_two_pow (show n < 2 ^ (w - c + (i + c)) from Nat.lt_of_lt_of_le hn (Nat.pow_le_pow_right (by omega) (by omega)))]
      simp [hw]
    · rw [Nat.mod_eq_sub_mod (by omega), Nat.mod_eq_of_lt (show i + c - w < w by omega)]
      rw [show w - c + (i + c - w) = i by omega]
      simp [show i + c - w < w by omega, show ¬ c ≤ i + c - w by omega]

theorem rotateRight_bit {w n c : Nat} (hn : n < 2 ^ w) (hc : c < w) :
    ∃ r, rotateRight w n c = .ok r ∧ r < 2 ^ w ∧ ∀ i, i < w → r.testBit i = n.testBit ((i + c) % w) := by
  refine ⟨_, if_pos hc, Nat.mod_lt _ (Nat.two_pow_pos w), ?_⟩
  intro i hi
  rw [Nat.testBit_mod_two_pow, Nat.testBit_or, Nat.testBit_shiftLeft, Nat.testBit_shiftRight]
  by_cases h0 : c = 0
  · subst h0
    simp [Nat.mod_eq_of_lt hi, hi]
  · rw [Nat.mod_eq_of_lt (show w - c < w by omega)]
    by_cases hw : i + c < w
    · rw [Nat.mod_eq_of_lt hw, Nat.add_comm c i]
      simp [hi, show ¬ w - c ≤ i by omega]
    · rw [Nat.mod_eq_sub_mod (by omega), Nat.mod_eq_of_lt (show i + c - w < w by omega)]
      rw [Nat.testBit_lt_two_pow (show n < 2 ^ (c + i) from Nat.lt_of_lt_of_le hn (Nat.pow_le_pow_right (by omega) (by omega)))]
      rw [show i - (w - c) = i + c - w by omega]
      simp [hi, show w - c ≤ i by omega]

theorem bswap16_testBit (n p : Nat) (h : n < 2 ^ 16) : (bswap16 n).testBit p = (decide (p < 16) && n.testBit (8 * (1 - p / 8) + p % 8)) := by
  rw [bswap16, Nat.testBit_mod_two_pow, Nat.testBit_or, Nat.testBit_shiftLeft, Nat.testBit_shiftRight]
  by_cases h1 : p < 8
  · rw [show 8 * (1 - p / 8) + p % 8 = 8 + p by omega]; simp [h1, show ¬ 8 ≤ p by omega]
  · by_cases h2 : p < 16
    · rw [show 8 * (1 - p / 8) + p % 8 = p - 8 by omega, Nat.testBit_lt_two_pow (show n < 2 ^ (8 + p) from Nat.lt_of_lt_of_le h (Nat.pow_le_pow_right (by omega) (by omega)))]
      simp [show 8 ≤ p by omega]
    · simp [h2]

theorem bswap32_testBit (n p : Nat) (h : n < 2 ^ 32) : (bswap32 n).testBit p = (decide (p < 32) && n.testBit (8 * (3 - p / 8) + p % 8)) := by
  rw [bswap32, Nat.testBit_or, Nat.testBit_mod_two_pow, Nat.testBit_shiftLeft, bswap16_testBit _ _ (Nat.mod_lt _ (by omega)), bswap16_testBit _ _ (Nat.mod_lt _ (by omega)),
    Nat.testBit_mod_two_pow, Nat.testBit_mod_two_pow, Nat.testBit_shiftRight]
  by_cases h1 : p < 16
  · rw [show 16 + (8 * (1 - p / 8) + p % 8) = 8 * (3 - p / 8) + p % 8 by omega]
    simp [h1, show ¬ 16 ≤ p by omega, show p < 32 by omega, show 8 * (1 - p / 8) + p % 8 < 16 by omega]
  · by_cases h2 : p < 32
    · rw [show 8 * (1 - (p - 16) / 8) + (p - 16) % 8 = 8 * (3 - p / 8) + p % 8 by omega]
      simp [h1, h2, show 16 ≤ p by omega, show p - 16 < 16 by omega, show 8 * (3 - p / 8) + p % 8 < 16 by omega]
    · simp [h1, h2]

theorem bswap64_testBit (n p : Nat) (h : n < 2 ^ 64) : (bswap64 n).testBit p = (decide (p < 64) && n.testBit (8 * (7 - p / 8) + p % 8)) := by
  rw [bswap64, Nat.testBit_or, Nat.testBit_mod_two_pow, Nat.testBit_shiftLeft, bswap32_testBit _ _ (Nat.mod_lt _ (by omega)), bswap32_testBit _ _ (Nat.mod_lt _ (by omega)),
    Nat.testBit_mod_two_pow, Nat.testBit_mod_two_pow, Nat.testBit_shiftRight]
  by_cases h1 : p < 32
  · rw [show 32 + (8 * (3 - p / 8) + p % 8) = 8 * (7 - p / 8) + p % 8 by omega]
    simp [h1, show ¬ 32 ≤ p by omega, show p < 64 by omega, show 8 * (3 - p / 8) + p % 8 < 32 by omega]
  · by_cases h2 : p < 64
    · rw [show 8 * (3 - (p - 32) / 8) + (p - 32) % 8 = 8 * (7 - p / 8) + p % 8 by omega]
      simp [h1, h2, show 32 ≤ p by omega, show p - 32 < 32 by omega, show 8 * (7 - p / 8) + p % 8 < 32 by omega]
    · simp [h1, h2]

theorem lt_of_testBit {n w : Nat} {f : Nat → Bool} (h : ∀ p, n.testBit p = (decide (p < w) && f p)) : n < 2 ^ w := by
  apply Nat.lt_pow_two_of_testBit
  intro i hi
  rw [h]
  simp [show ¬ i < w by omega]

theorem byte_of_testBit {n w : Nat} {f : Nat → Bool} (h : ∀ p, n.testBit p = (decide (p < w) && f p)) (m i k : Nat) (hi : 8 * i + 8 ≤ w)
    (hf : ∀ j, j < 8 → f (8 * i + j) = m.testBit (8 * k + j)) : byte n i = byte m k := by
  apply Nat.eq_of_testBit_eq
  intro j
  rw [byte_testBit, byte_testBit, h]
  by_cases hj : j < 8
  · rw [hf j hj]; simp [show 8 * i + j < w by omega]
  · simp [hj]

/-! ## Words -/

theorem u8_testBit (b : UInt8) {j : Nat} (h : 8 ≤ j) : b.toNat.testBit j = false :=
  Nat.testBit_lt_two_pow (Nat.lt_of_lt_of_le (UInt8.toNat_lt b) (Nat.pow_le_pow_right (by omega) h))

theorem loadLe8_testBit (ptr : Nat → UInt8) (i n p : Nat) (hi : i % 8 = 0) :
    (loadLe8 ptr i n).testBit p = (decide (p < n) && (decide (i ≤ p ∧ p < i + 8) && (ptr (p / 8)).toNat.testBit (p % 8))) := by
  rw [loadLe8, Nat.testBit_mod_two_pow, Nat.testBit_shiftLeft]
  congr 1
  by_cases h1 : i ≤ p
  · by_cases h2 : p < i + 8
    · rw [show p / 8 = i / 8 by omega, show p % 8 = p - i by omega]; simp [h1, h2]
    · rw [u8_testBit _ (show 8 ≤ p - i by omega)]; simp [h2]
  · simp [h1]

theorem or_ranges (p i s t : Nat) (c x : Bool) : ((c && (decide (i ≤ p ∧ p < i + s) && x)) || (c && (decide (i + s ≤ p ∧ p < i + s + t) && x))) =
    (c && (decide (i ≤ p ∧ p < i + (s + t)) && x)) := by
  rw [Bool.eq_iff_iff]
  simp only [Bool.or_eq_true, Bool.and_eq_true, decide_eq_true_eq]
  constructor
  · rintro (⟨h, h', h''⟩ | ⟨h, h', h''⟩) <;> exact ⟨h, by omega, h''⟩
  · rintro ⟨h, h', h''⟩
    by_cases hp : p < i + s
    · exact .inl ⟨h, by omega, h''⟩
    · exact .inr ⟨h, by omega, h''⟩

theorem loadLe16_testBit (ptr : Nat → UInt8) (i n p : Nat) (hi : i % 8 = 0) :
    (loadLe16 ptr i n).testBit p = (decide (p < n) && (decide (i ≤ p ∧ p < i + 16) && (ptr (p / 8)).toNat.testBit (p % 8))) := by
  rw [loadLe16, Nat.testBit_or, loadLe8_testBit _ _ _ _ hi, loadLe8_testBit _ _ _ _ (by omega), or_ranges]

theorem loadLe32_testBit (ptr : Nat → UInt8) (i n p : Nat) (hi : i % 8 = 0) :
    (loadLe32 ptr i n).testBit p = (decide (p < n) && (decide (i ≤ p ∧ p < i + 32) && (ptr (p / 8)).toNat.testBit (p % 8))) := by
  rw [loadLe32, Nat.testBit_or, loadLe16_testBit _ _ _ _ hi, loadLe16_testBit _ _ _ _ (by omega), or_ranges]

theorem loadLe64_testBit (ptr : Nat → UInt8) (i n p : Nat) (hi : i % 8 = 0) :
    (loadLe64 ptr i n).testBit p = (decide (p < n) && (decide (i ≤ p ∧ p < i + 64) && (ptr (p / 8)).toNat.testBit (p % 8))) := by
  rw [loadLe64, Nat.testBit_or, loadLe32_testBit _ _ _ _ hi, loadLe32_testBit _ _ _ _ (by omega), or_ranges]

theorem loadBe8_testBit (ptr : Nat → UInt8) (i n p : Nat) (hi : i % 8 = 0) (hn : n % 8 = 0) (hle : i + 8 ≤ n) :
    (loadBe8 ptr i n).testBit p = (decide (p < n) && (decide (n - (i + 8) ≤ p ∧ p < n - i) && (ptr ((n - 1 - p) / 8)).toNat.testBit (p % 8))) := by
  rw [loadBe8, Nat.testBit_mod_two_pow, Nat.testBit_shiftLeft]
  congr 1
  by_cases h1 : n - (i + 8) ≤ p
  · by_cases h2 : p < n - i
    · rw [show (n - 1 - p) / 8 = i / 8 by omega, show p % 8 = p - (n - i - 8) by omega]; simp [h2, h1, show n - i - 8 ≤ p by omega]
    · rw [u8_testBit _ (show 8 ≤ p - (n - i - 8) by omega)]; simp [h2]
  · simp [h1, show ¬ n - i - 8 ≤ p by omega]

theorem or_ranges_be (p i s t n : Nat) (c x : Bool) (hle : i + s + t ≤ n) : ((c && (decide (n - (i + s) ≤ p ∧ p < n - i) && x)) || (c && (decide (n - (i + s + t) ≤ p ∧ p < n - (i + s)) && x))) =
    (c && (decide (n - (i + (s + t)) ≤ p ∧ p < n - i) && x)) := by
  rw [Bool.eq_iff_iff]
  simp only [Bool.or_eq_true, Bool.and_eq_true, decide_eq_true_eq]
  constructor
  · rintro (⟨h, h', h''⟩ | ⟨h, h', h''⟩) <;> exact ⟨h, by omega, h''⟩
  · rintro ⟨h, h', h''⟩
    by_cases hp : p < n - (i + s)
    · exact .inr ⟨h, by omega, h''⟩
    · exact .inl ⟨h, by omega, h''⟩

theorem loadBe16_testBit (ptr : Nat → UInt8) (i n p : Nat) (hi : i % 8 = 0) (hn : n % 8 = 0) (hle : i + 16 ≤ n) :
    (loadBe16 ptr i n).testBit p = (decide (p < n) && (decide (n - (i + 16) ≤ p ∧ p < n - i) && (ptr ((n - 1 - p) / 8)).toNat.testBit (p % 8))) := by
  rw [loadBe16, Nat.testBit_or, loadBe8_testBit _ _ _ _ hi hn (by omega), loadBe8_testBit _ _ _ _ (by omega) hn (by omega), or_ranges_be _ _ _ _ _ _ _ (by omega)]

theorem loadBe32_testBit (ptr : Nat → UInt8) (i n p : Nat) (hi : i % 8 = 0) (hn : n % 8 = 0) (hle : i + 32 ≤ n) :
    (loadBe32 ptr i n).testBit p = (decide (p < n) && (decide (n - (i + 32) ≤ p ∧ p < n - i) && (ptr ((n - 1 - p) / 8)).toNat.testBit (p % 8))) := by
  rw [loadBe32, Nat.testBit_or, loadBe16_testBit _ _ _ _ hi hn (by omega), loadBe16_testBit _ _ _ _ (by omega) hn (by omega), or_ranges_be _ _ _ _ _ _ _ (by omega)]

theorem loadBe64_testBit (ptr : Nat → UInt8) (i n p : Nat) (hi : i % 8 = 0) (hn : n % 8 = 0) (hle : i + 64 ≤ n) :
    (loadBe64 ptr i n).testBit p = (decide (p < n) && (decide (n - (i + 64) ≤ p ∧ p < n - i) && (ptr ((n - 1 - p) / 8)).toNat.testBit (p % 8))) := by
  rw [loadBe64, Nat.testBit_or, loadBe32_testBit _ _ _ _ hi hn (by omega), loadBe32_testBit _ _ _ _ (by omega) hn (by omega), or_ranges_be _ _ _ _ _ _ _ (by omega)]

theorem byte_zero_u8 (b : UInt8) : byte b.toNat 0 = b.toNat := by
  have := UInt8.toNat_lt b
  rw [byte]; omega

/-- A little endian word. -/
theorem le_word {v s : Nat} {ptr : Nat → UInt8} (h : ∀ p, v.testBit p = (decide (p < 8 * s) && (decide (0 ≤ p ∧ p < 0 + 8 * s) && (ptr (p / 8)).toNat.testBit (p % 8)))) :
    v < 256 ^ s ∧ ∀ i, i < s → byte v i = (ptr i).toNat := by
  constructor
  · rw [show 256 = 2 ^ 8 from rfl, ← Nat.pow_mul]; exact lt_of_testBit h
  · intro i hi
    rw [← byte_zero_u8 (ptr i)]
    apply byte_of_testBit h _ _ _ (by omega)
    intro j hj
    rw [show (8 * i + j) / 8 = i by omega, show (8 * i + j) % 8 = 8 * 0 + j by omega]
    simp; omega

/-- A big endian word. -/
theorem be_word {v s : Nat} {ptr : Nat → UInt8} (h : ∀ p, v.testBit p = (decide (p < 8 * s) && (decide (8 * s - (0 + 8 * s) ≤ p ∧ p < 8 * s - 0) && (ptr ((8 * s - 1 - p) / 8)).toNat.testBit (p % 8)))) :
    v < 256 ^ s ∧ ∀ i, i < s → byte v (s - 1 - i) = (ptr i).toNat := by
  constructor
  · rw [show 256 = 2 ^ 8 from rfl, ← Nat.pow_mul]; exact lt_of_testBit h
  · intro i hi
    rw [← byte_zero_u8 (ptr i)]
    apply byte_of_testBit h _ _ _ (by omega)
    intro j hj
    rw [show (8 * s - 1 - (8 * (s - 1 - i) + j)) / 8 = i by omega, show (8 * (s - 1 - i) + j) % 8 = 8 * 0 + j by omega]
    simp; omega

/-! ## ASCII -/

theorem high_iff (b : UInt8) : b.toNat.testBit 7 = true ↔ 128 ≤ b := by
  rw [UInt8.le_iff_toNat_le]
  constructor
  · exact fun h => Nat.ge_two_pow_of_testBit h
  · intro h
    cases hb : b.toNat.testBit 7 with
    | true => rfl
    | false =>
      have : b.toNat < 2 ^ 7 := by
        apply Nat.lt_pow_two_of_testBit
        intro i hi
        by_cases h7 : i = 7
        · rw [h7]; exact hb
        · exact u8_testBit b (by omega)
      have h' : (128 : Nat) ≤ b.toNat := h
      omega

/-- The masks. -/
def maskOf (size : Nat) : Nat := (((2 ^ (8 * size) - 1) / 255) <<< 7) % 2 ^ (8 * size)

/-- What `CHUNK_()` needs to know about the width of a word. -/
structure Word (load : (Nat → UInt8) → Nat → Nat → Nat) (size : Nat) : Prop where
  pos : 0 < size
  load : ∀ ptr p, (load ptr 0 (8 * size)).testBit p = (decide (p < 8 * size) && (decide (0 ≤ p ∧ p < 0 + 8 * size) && (ptr (p / 8)).toNat.testBit (p % 8)))
  mask : ∀ p, p < 8 * size → (maskOf size).testBit p = decide (p % 8 = 7)

theorem word8 : Word loadLe64 8 := ⟨by omega, fun ptr p => loadLe64_testBit ptr 0 64 p rfl, by decide +kernel⟩
theorem word4 : Word loadLe32 4 := ⟨by omega, fun ptr p => loadLe32_testBit ptr 0 32 p rfl, by decide +kernel⟩
theorem word2 : Word loadLe16 2 := ⟨by omega, fun ptr p => loadLe16_testBit ptr 0 16 p rfl, by decide +kernel⟩
theorem word1 : Word loadLe8 1 := ⟨by omega, fun ptr p => loadLe8_testBit ptr 0 8 p rfl, by decide +kernel⟩

/-- `trailing_zeros()` is right. -/
def GoodTz (tz : Nat → Nat → Out Nat) : Prop := ∀ w n, 0 < w → n < 2 ^ w → ∃ k, tz w n = .ok k ∧ IsTrailingZeros w n k

/-- All of the first `i` bytes are ASCII. -/
def Ascii (str : List UInt8) (i : Nat) : Prop := i ≤ str.length ∧ ∀ j, j < i → ∀ b, str[j]? = some b → b < 128

theorem getD_eq {str : List UInt8} {j : Nat} (h : j < str.length) : str[j]? = some ((str[j]?).getD 0) := by
  rw [List.getElem?_eq_getElem h]; rfl

/-- A byte that is there is not ASCII. -/
def High (str : List UInt8) (i : Nat) : Prop := ∃ b, str[i]? = some b ∧ 128 ≤ b

theorem chunk_ok {tz : Nat → Nat → Out Nat} (htz : GoodTz tz) {load : (Nat → UInt8) → Nat → Nat → Nat} {size : Nat} (hw : Word load size) {str : List UInt8} {i : Nat} (hi : Ascii str i) :
    (chunk tz load size str i = .ok .skip ∧ str.length - i < size) ∨ (chunk tz load size str i = .ok (.next (i + size)) ∧ Ascii str (i + size)) ∨
      ∃ j, chunk tz load size str i = .ok (.done j) ∧ Ascii str j ∧ High str j := by
  have hp := hw.pos
  unfold chunk
  by_cases hc : str.length - i ≥ size
  · right
    rw [if_pos hc]
    dsimp only
    generalize hptr : (fun j => (str[i + j]?).getD 0) = ptr
    generalize hword : load ptr 0 (8 * size) &&& ((((2 ^ (8 * size) - 1) / 255) <<< 7) % 2 ^ (8 * size)) = word
    have hbit : ∀ p, p < 8 * size → word.testBit p = (decide (p % 8 = 7) && (ptr (p / 8)).toNat.testBit 7) := by
      intro p hpp
      rw [← hword, Nat.testBit_and, hw.load, show ((((2 ^ (8 * size) - 1) / 255) <<< 7) % 2 ^ (8 * size)) = maskOf size from rfl, hw.mask p hpp]
      by_cases h7 : p % 8 = 7
      · rw [h7]; simp [hpp]
      · simp [h7]
    have hlt : word < 2 ^ (8 * size) := by
      rw [← hword]
      exact Nat.lt_of_le_of_lt Nat.and_le_right (Nat.mod_lt _ (Nat.two_pow_pos _))
    obtain ⟨z, hz, h1, h2, h3⟩ := htz (8 * size) word (by omega) hlt
    rw [hz]
    have hasc : ∀ k, (∀ j, j < k → word.testBit (8 * j + 7) = false) → k ≤ size → Ascii str (i + k) := by
      intro k hk hks
      refine ⟨by omega, ?_⟩
      intro j hj b hb
      by_cases hji : j < i
      · exact hi.2 j hji b hb
      · have := hk (j - i) (by omega)
        rw [hbit _ (by omega), show (8 * (j - i) + 7) / 8 = j - i by omega, ← hptr] at this
        dsimp only at this
        rw [show i + (j - i) = j by omega, hb, show (8 * (j - i) + 7) % 8 = 7 by omega] at this
        simp at this
        cases hd : decide (128 ≤ b) with
        | true =>
          have h' : 128 ≤ b := by simpa using hd
          rw [(high_iff b).2 h'] at this
          cases this
        | false => simpa using hd
    by_cases h0 : word ≠ 0
    · right
      obtain ⟨q, hq, hqb⟩ := exists_bit h0 hlt
      have hzq : z ≤ q := by
        apply Nat.le_of_not_lt
        intro hcc
        rw [h2 q hcc] at hqb
        cases hqb
      have hzs : z < 8 * size := by omega
      have hz7 := h3 hzs
      rw [hbit z hzs] at hz7
      simp only [Bool.and_eq_true, decide_eq_true_eq] at hz7
      refine ⟨i + z / 8, (if_pos h0), hasc _ (fun j hj => h2 _ (by omega)) (by omega), ?_⟩
      have hl : i + z / 8 < str.length := by omega
      refine ⟨_, getD_eq hl, ?_⟩
      have := hz7.2
      rw [← hptr] at this
      exact (high_iff _).1 this
    · left
      have hz' : z = 8 * size := by
        apply Nat.le_antisymm h1
        apply Nat.le_of_not_lt
        intro hcc
        have := h3 hcc
        rw [show word = 0 by omega, Nat.zero_testBit] at this
        cases this
      have hnext : i + z / 8 = i + size := by omega
      refine ⟨(if_neg h0).trans (by rw [hnext]), hasc size (fun j hj => h2 _ (by omega)) (Nat.le_refl _)⟩
  · left
    exact ⟨if_neg hc, by omega⟩

/-- What is known after the chunks of `size` bytes. -/
def After (str : List UInt8) (size : Nat) (c : Chunk) : Prop :=
  (∃ i, c = .next i ∧ Ascii str i ∧ str.length - i < size) ∨ ∃ i, c = .done i ∧ Ascii str i ∧ High str i

theorem chunks_ok {tz : Nat → Nat → Out Nat} (htz : GoodTz tz) {str : List UInt8} : ∀ (fuel : Nat) {i : Nat}, Ascii str i → str.length < i + fuel → ∃ c, chunks tz str fuel i = .ok c ∧ After str 8 c := by
  intro fuel
  induction fuel with
  | zero => intro i h hf; have := h.1; omega
  | succ fuel ih =>
    intro i hi hf
    unfold chunks
    rcases chunk_ok htz word8 hi with ⟨h, hl⟩ | ⟨h, ha⟩ | ⟨j, h, ha, hh⟩
    · rw [h]; exact ⟨_, rfl, .inl ⟨i, rfl, hi, hl⟩⟩
    · rw [h]; exact ih ha (by omega)
    · rw [h]; exact ⟨_, rfl, .inr ⟨j, rfl, ha, hh⟩⟩

theorem chunkIf_ok {tz : Nat → Nat → Out Nat} (htz : GoodTz tz) {load : (Nat → UInt8) → Nat → Nat → Nat} {size big : Nat} (hw : Word load size) {str : List UInt8} {c : Chunk} (h : After str big c)
    (hb : big ≤ 2 * size) : ∃ c', chunkIf tz load size str c = .ok c' ∧ After str size c' := by
  rcases h with ⟨i, rfl, hi, hl⟩ | ⟨i, rfl, hi, hh⟩
  · rw [show chunkIf tz load size str (.next i) = (chunk tz load size str i).bind fun
      | .skip => .ok (.next i)
      | c => .ok c from rfl]
    rcases chunk_ok htz hw hi with ⟨h, hl'⟩ | ⟨h, ha⟩ | ⟨j, h, ha, hh⟩
    · rw [h]; exact ⟨_, rfl, .inl ⟨i, rfl, hi, hl'⟩⟩
    · rw [h]; exact ⟨_, rfl, .inl ⟨i + size, rfl, ha, by have := ha.1; have := hw.pos; omega⟩⟩
    · rw [h]; exact ⟨_, rfl, .inr ⟨j, rfl, ha, hh⟩⟩
  · exact ⟨_, rfl, .inr ⟨i, rfl, hi, hh⟩⟩

theorem takeWhile_of {str : List UInt8} : ∀ {i : Nat}, Ascii str i → (i = str.length ∨ High str i) → (str.takeWhile (fun b => decide (b < 128))).length = i := by
  induction str with
  | nil => rintro i ⟨h, -⟩ _; simp at h; simp [h]
  | cons b str ih =>
    intro i ⟨h, ha⟩ hend
    cases i with
    | zero =>
      rcases hend with h | ⟨c, hc, h⟩
      · simp at h
      · simp at hc
        subst hc
        rw [List.takeWhile_cons_of_neg (by simpa using h)]; rfl
    | succ i =>
      have hb := ha 0 (by omega) b rfl
      rw [List.takeWhile_cons_of_pos (by simpa using hb), List.length_cons]
      congr 1
      apply ih
      · exact ⟨by simpa using h, fun j hj c hc => ha (j + 1) (by omega) c (by simpa using hc)⟩
      · rcases hend with h | ⟨c, hc, h⟩
        · left; simpa using h
        · right; exact ⟨c, by simpa using hc, h⟩

theorem asciinlen_ok {tz : Nat → Nat → Out Nat} (htz : GoodTz tz) (str : List UInt8) : asciinlen tz str = .ok (str.takeWhile (fun b => decide (b < 128))).length := by
  unfold asciinlen
  obtain ⟨c, hc, ha⟩ := chunks_ok htz (str.length + 1) (i := 0) (str := str) ⟨Nat.zero_le _, fun j hj => by omega⟩ (by omega)
  rw [hc]
  obtain ⟨c4, hc4, ha4⟩ := chunkIf_ok htz word4 ha (by omega)
  show (chunkIf tz loadLe32 4 str c).bind _ = _
  rw [hc4]
  obtain ⟨c2, hc2, ha2⟩ := chunkIf_ok htz word2 ha4 (by omega)
  show (chunkIf tz loadLe16 2 str c4).bind _ = _
  rw [hc2]
  obtain ⟨c1, hc1, ha1⟩ := chunkIf_ok htz word1 ha2 (by omega)
  show (chunkIf tz loadLe8 1 str c2).bind _ = _
  rw [hc1]
  show Out.ok c1.index = _
  rcases ha1 with ⟨i, rfl, hi, hl⟩ | ⟨i, rfl, hi, hh⟩
  · rw [takeWhile_of hi (.inl (by have := hi.1; omega))]; rfl
  · rw [takeWhile_of hi (.inr hh)]; rfl

end Verif.Bit
