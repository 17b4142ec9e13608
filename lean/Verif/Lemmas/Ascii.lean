import Verif.Model.Quote
/-!
# The word-at-a-time scan for non-ASCII bytes agrees with the byte-at-a-time one
-/
namespace Verif.Quote

/-- The number of leading ASCII bytes. -/
def asciiPrefix (s : Bytes) : Nat := (s.takeWhile (· < 128)).length

/-- `0x8080...`, `n` bytes. -/
def hiMask : Nat → Nat
  | 0 => 0
  | n + 1 => 128 + 256 * hiMask n

theorem mask_eq (n : Nat) : ((2 ^ (8 * n) - 1) / 255) <<< 7 = hiMask n := by
  have key : ∀ n, 2 ^ (8 * n) = 1 + 255 * (hiMask n / 128) ∧ hiMask n % 128 = 0 := by
    intro n
    induction n with
    | zero => simp [hiMask]
    | succ n ih =>
      obtain ⟨h1, h2⟩ := ih
      have e : (2 : Nat) ^ (8 * (n + 1)) = 256 * 2 ^ (8 * n) := by
        rw [Nat.mul_add, Nat.pow_add, Nat.mul_comm]
      rw [e, h1, hiMask]
      omega
  obtain ⟨h1, h2⟩ := key n
  rw [h1, Nat.shiftLeft_eq]
  omega

theorem and_parts {a b x y : Nat} (hx : x < 256) (hy : y < 256) :
    (x + 256 * a) &&& (y + 256 * b) = (x &&& y) + 256 * (a &&& b) := by
  apply Nat.eq_of_testBit_eq
  intro i
  have hx : x < 2 ^ 8 := hx
  have hy : y < 2 ^ 8 := hy
  have hxy : x &&& y < 2 ^ 8 := Nat.and_lt_two_pow x hy
  rw [Nat.testBit_and, Nat.add_comm x, Nat.add_comm y, Nat.add_comm (x &&& y)]
  rw [show (256 : Nat) = 2 ^ 8 from rfl]
  rw [Nat.testBit_two_pow_mul_add _ hx, Nat.testBit_two_pow_mul_add _ hy, Nat.testBit_two_pow_mul_add _ hxy]
  split <;> simp

theorem and128 : ∀ b : UInt8, b.toNat &&& 128 = if b < 128 then 0 else 128 := by
  intro b
  have h : ∀ b : BitVec 8, (UInt8.ofBitVec b).toNat &&& 128 = if UInt8.ofBitVec b < 128 then 0 else 128 := by decide +kernel
  exact h b.toBitVec

theorem tz_shift (w n : Nat) : trailingZeros (8 + w) (256 * n) = 8 + trailingZeros w n := by
  rw [show 8 + w = w + 1 + 1 + 1 + 1 + 1 + 1 + 1 + 1 by omega]
  simp only [trailingZeros]
  rw [if_neg (by omega), if_neg (by omega), if_neg (by omega), if_neg (by omega),
    if_neg (by omega), if_neg (by omega), if_neg (by omega), if_neg (by omega)]
  rw [show 256 * n / 2 / 2 / 2 / 2 / 2 / 2 / 2 / 2 = n by omega]
  omega

theorem tz_hi (w n : Nat) : trailingZeros (8 + w) (128 + 256 * n) = 7 := by
  rw [show 8 + w = w + 1 + 1 + 1 + 1 + 1 + 1 + 1 + 1 by omega]
  simp only [trailingZeros]
  rw [if_neg (by omega), if_neg (by omega), if_neg (by omega), if_neg (by omega),
    if_neg (by omega), if_neg (by omega), if_neg (by omega), if_pos (by omega)]

theorem word_eq : ∀ (s : Bytes), trailingZeros (8 * s.length) (loadLe s &&& hiMask s.length) / 8 = asciiPrefix s ∧
    (loadLe s &&& hiMask s.length = 0 ↔ ∀ c ∈ s, c < 128) := by
  intro s
  induction s with
  | nil => simp [trailingZeros, asciiPrefix, loadLe]
  | cons x xs ih =>
    rw [loadLe, List.length_cons, hiMask, and_parts x.toNat_lt (by omega), and128]
    have e : 8 * (xs.length + 1) = 8 + 8 * xs.length := by omega
    rw [e]
    unfold asciiPrefix at ih ⊢
    by_cases h : x < 128
    · rw [if_pos h, Nat.zero_add, tz_shift]
      simp only [List.takeWhile_cons, h, decide_true, if_true, List.length_cons, List.mem_cons, forall_eq_or_imp, true_and]
      rw [← ih.2]
      omega
    · rw [if_neg h, tz_hi]
      simp [List.takeWhile_cons, h]

theorem prefix_append (a b : Bytes) (h : ∀ c ∈ a, c < 128) : asciiPrefix (a ++ b) = a.length + asciiPrefix b := by
  unfold asciiPrefix
  rw [List.takeWhile_append_of_pos (by simpa using h), List.length_append]

theorem prefix_append_neg : ∀ (a b : Bytes), (¬ ∀ c ∈ a, c < 128) → asciiPrefix (a ++ b) = asciiPrefix a := by
  intro a b h
  unfold asciiPrefix
  induction a with
  | nil => simp at h
  | cons x xs ih =>
    rw [List.cons_append, List.takeWhile_cons, List.takeWhile_cons]
    by_cases hx : x < 128
    · simp only [hx, decide_true, if_true, List.length_cons]
      rw [ih (fun h' => h (by simpa [hx] using h'))]
    · simp [hx]

theorem ascii_step {n : Nat} {s : Bytes} (h : n ≤ s.length) :
    (if asciiWord n s ≠ 0 then trailingZeros (8 * n) (asciiWord n s) / 8
      else trailingZeros (8 * n) (asciiWord n s) / 8 + asciiPrefix (s.drop n)) = asciiPrefix s := by
  have hl : (s.take n).length = n := by rw [List.length_take]; omega
  have hw := word_eq (s.take n)
  rw [hl] at hw
  have e : asciiWord n s = loadLe (s.take n) &&& hiMask n := by rw [asciiWord, mask_eq]
  have e2 : asciiPrefix s = asciiPrefix (s.take n ++ s.drop n) := by rw [List.take_append_drop]
  rw [e, hw.1, e2]
  by_cases h0 : loadLe (s.take n) &&& hiMask n = 0
  · rw [if_neg (by simpa using h0), prefix_append _ _ (hw.2.1 h0)]
    have := prefix_append _ [] (hw.2.1 h0)
    rw [List.append_nil] at this
    rw [this]; simp [asciiPrefix]
  · rw [if_pos h0, prefix_append_neg _ _ (fun h => h0 (hw.2.2 h))]

/-- The word sizes below `2 ^ k`, largest first. -/
def sizes : Nat → List Nat
  | 0 => []
  | k + 1 => 2 ^ k :: sizes k

theorem asciiTail_eq : ∀ (k : Nat) (s : Bytes), s.length < 2 ^ k → asciiTail (sizes k) s = asciiPrefix s := by
  intro k
  induction k with
  | zero =>
    intro s h
    have : s = [] := List.length_eq_zero_iff.1 (by simpa using h)
    subst this; rfl
  | succ k ih =>
    intro s h
    rw [sizes, asciiTail]
    by_cases hl : 2 ^ k ≤ s.length
    · rw [if_pos hl, ih, ascii_step hl]
      rw [List.length_drop]
      rw [Nat.pow_succ] at h
      omega
    · rw [if_neg hl]; exact ih s (by omega)

theorem asciiLoop_eq (k : Nat) : ∀ (n : Nat) (s : Bytes), s.length ≤ n → asciiLoop (2 ^ k) (sizes k) s = asciiPrefix s := by
  intro n
  induction n using Nat.strongRecOn with
  | _ n ih =>
    intro s hn
    have hpos := Nat.two_pow_pos k
    rw [asciiLoop]
    by_cases hl : 2 ^ k ≤ s.length
    · rw [if_pos ⟨hl, hpos⟩, ih (n - 1) (by omega), ascii_step hl]
      rw [List.length_drop]; omega
    · rw [if_neg (fun h => hl h.1)]
      exact asciiTail_eq k s (by omega)

theorem asciinlen_eq (s : Bytes) : asciinlen s = asciiPrefix s := asciiLoop_eq 3 _ s (Nat.le_refl _)
theorem asciinlen32_eq (s : Bytes) : asciinlen32 s = asciiPrefix s := asciiLoop_eq 2 _ s (Nat.le_refl _)

end Verif.Quote
