import Verif.Model.Strmode
import Verif.Spec.Strmode
/-! # Lemmas about mode strings -/
namespace Verif.Strmode
open Verif.Spec.Strmode

theorem bit_iff (m k : Nat) : m.testBit k = true ↔ m / 2 ^ k % 2 = 1 := by
  rw [Nat.testBit_eq_decide_div_mod_eq, decide_eq_true_iff]

theorem and_bit (m k : Nat) : m &&& 2 ^ k ≠ 0 ↔ m.testBit k = true := by
  constructor
  · intro h
    cases hb : m.testBit k with
    | true => rfl
    | false =>
      exfalso
      apply h
      apply Nat.eq_of_testBit_eq
      intro i
      rw [Nat.testBit_and, Nat.zero_testBit, Nat.testBit_two_pow]
      by_cases hi : k = i
      · subst hi; rw [hb]; rfl
      · simp [hi]
  · intro h hz
    have := congrArg (fun n => n.testBit k) hz
    simp [Nat.testBit_and, h] at this

theorem and_two {m i j : Nat} (hij : i ≠ j) : m &&& (2 ^ i ||| 2 ^ j) = 2 ^ i ↔ m.testBit i = true ∧ m.testBit j = false := by
  constructor
  · intro h
    have h1 := congrArg (fun n => n.testBit i) h
    have h2 := congrArg (fun n => n.testBit j) h
    simp only [Nat.testBit_and, Nat.testBit_or, Nat.testBit_two_pow, decide_true, Bool.true_or, Bool.or_true, Bool.and_true, hij, decide_false] at h1 h2
    exact ⟨h1, h2⟩
  · rintro ⟨h1, h2⟩
    apply Nat.eq_of_testBit_eq
    intro k
    rw [Nat.testBit_and, Nat.testBit_or, Nat.testBit_two_pow, Nat.testBit_two_pow]
    by_cases hi : i = k
    · subst hi; simp [h1]
    · by_cases hj : j = k
      · subst hj; simp [h2, hi]
      · simp [hi, hj]

theorem and_type (m : Nat) : m &&& 0o170000 = 4096 * (m / 4096 % 16) := by
  have h : m &&& (15 <<< 12) = ((m >>> 12) &&& 15) <<< 12 := by
    apply Nat.eq_of_testBit_eq
    intro i
    rw [Nat.testBit_and, Nat.testBit_shiftLeft, Nat.testBit_shiftLeft, Nat.testBit_and, Nat.testBit_shiftRight]
    by_cases hi : 12 ≤ i
    · rw [show 12 + (i - 12) = i by omega]
      simp [hi]
    · simp [hi]
  rw [show 0o170000 = 15 <<< 12 from rfl, h, Nat.shiftLeft_eq, Nat.shiftRight_eq_div_pow, show (15 : Nat) = 2 ^ 4 - 1 from rfl, Nat.and_two_pow_sub_one_eq_mod]
  omega

/-- The last character of a class. -/
def lastChar (m i j : Nat) (upper lower old : Char) : Char :=
  if m.testBit i = true then (if m.testBit j = true then lower else upper) else if m.testBit j = true then 'x' else old

theorem setX_eq {m i j : Nat} (hij : i ≠ j) (p : Nat) (upper lower : Char) (str : List Char) :
    setX m (2 ^ i) (2 ^ j) p upper lower str = str.set p (lastChar m i j upper lower (str.getD p '-')) := by
  have hset : str = str.set p (str.getD p '-') := by
    rw [List.getD_eq_getElem?_getD]
    by_cases hp : p < str.length
    · rw [List.getElem?_eq_getElem hp, Option.getD_some, List.set_getElem_self]
    · rw [List.set_eq_of_length_le (by omega)]
  unfold setX lastChar
  simp only [and_two hij, and_bit]
  cases m.testBit i <;> cases m.testBit j <;> simp <;> exact hset

theorem setIf_eq (c : Bool) (p : Nat) (ch : Char) (str : List Char) : setIf c p ch str = str.set p (if c then ch else str.getD p '-') := by
  have hset : str = str.set p (str.getD p '-') := by
    rw [List.getD_eq_getElem?_getD]
    by_cases hp : p < str.length
    · rw [List.getElem?_eq_getElem hp, Option.getD_some, List.set_getElem_self]
    · rw [List.set_eq_of_length_le (by omega)]
  unfold setIf
  cases c
  · exact hset
  · rfl

/-- A plain character. -/
def plainChar (m k : Nat) (yes : Char) : Char := if m.testBit k = true then yes else '-'

theorem strmode_eq (m : Nat) : xstrmode m =
    [typeChar m, plainChar m 8 'r', plainChar m 7 'w', lastChar m 11 6 'S' 's' '-', plainChar m 5 'r', plainChar m 4 'w', lastChar m 10 3 'S' 's' '-',
      plainChar m 2 'r', plainChar m 1 'w', lastChar m 9 0 'T' 't' '-'] := by
  unfold xstrmode
  have p8 : decide (m &&& 256 ≠ 0) = m.testBit 8 := by rw [Bool.eq_iff_iff, decide_eq_true_iff]; exact and_bit m 8
  have p7 : decide (m &&& 128 ≠ 0) = m.testBit 7 := by rw [Bool.eq_iff_iff, decide_eq_true_iff]; exact and_bit m 7
  have p5 : decide (m &&& 32 ≠ 0) = m.testBit 5 := by rw [Bool.eq_iff_iff, decide_eq_true_iff]; exact and_bit m 5
  have p4 : decide (m &&& 16 ≠ 0) = m.testBit 4 := by rw [Bool.eq_iff_iff, decide_eq_true_iff]; exact and_bit m 4
  have p2 : decide (m &&& 4 ≠ 0) = m.testBit 2 := by rw [Bool.eq_iff_iff, decide_eq_true_iff]; exact and_bit m 2
  have p1 : decide (m &&& 2 ≠ 0) = m.testBit 1 := by rw [Bool.eq_iff_iff, decide_eq_true_iff]; exact and_bit m 1
  have x3 : ∀ str, setX m 2048 64 3 'S' 's' str = str.set 3 (lastChar m 11 6 'S' 's' (str.getD 3 '-')) := fun str => setX_eq (i := 11) (j := 6) (by decide) 3 'S' 's' str
  have x6 : ∀ str, setX m 1024 8 6 'S' 's' str = str.set 6 (lastChar m 10 3 'S' 's' (str.getD 6 '-')) := fun str => setX_eq (i := 10) (j := 3) (by decide) 6 'S' 's' str
  have x9 : ∀ str, setX m 512 1 9 'T' 't' str = str.set 9 (lastChar m 9 0 'T' 't' (str.getD 9 '-')) := fun str => setX_eq (i := 9) (j := 0) (by decide) 9 'T' 't' str
  simp only [setIf_eq, p8, p7, p5, p4, p2, p1, x3, x6, x9]
  rfl

theorem readPlain_eq (m k : Nat) {yes : Char} (hy : yes ≠ '-') : readPlain (plainChar m k yes) yes = some (m / 2 ^ k % 2) := by
  unfold readPlain plainChar
  cases hb : m.testBit k with
  | true => simp [(bit_iff m k).1 hb]
  | false =>
    have : m / 2 ^ k % 2 = 0 := by
      have := mt (bit_iff m k).2 (by rw [hb]; simp)
      omega
    simp [this, Ne.symm hy]

theorem readLast_eq (m i j : Nat) {upper lower : Char} (h1 : upper ≠ lower) (h2 : upper ≠ 'x') (h3 : lower ≠ 'x') (h4 : upper ≠ '-') (h5 : lower ≠ '-') :
    readLast (lastChar m i j upper lower '-') upper lower = some (m / 2 ^ j % 2, m / 2 ^ i % 2) := by
  have hz : ∀ k, m.testBit k = false → m / 2 ^ k % 2 = 0 := by
    intro k hb
    have := mt (bit_iff m k).2 (by rw [hb]; simp)
    omega
  unfold readLast lastChar
  cases hi : m.testBit i <;> cases hj : m.testBit j
  · simp [hz i hi, hz j hj, Ne.symm h4, Ne.symm h5]
  · simp [hz i hi, (bit_iff m j).1 hj]
  · simp [(bit_iff m i).1 hi, hz j hj, h1, h2]
  · simp [(bit_iff m i).1 hi, (bit_iff m j).1 hj, h3]

theorem sum12 (m : Nat) : 2048 * (m / 2048 % 2) + 1024 * (m / 1024 % 2) + 512 * (m / 512 % 2) + 256 * (m / 256 % 2) + 128 * (m / 128 % 2) + 64 * (m / 64 % 2) +
    32 * (m / 32 % 2) + 16 * (m / 16 % 2) + 8 * (m / 8 % 2) + 4 * (m / 4 % 2) + 2 * (m / 2 % 2) + m / 1 % 2 = m % 4096 := by
  have h : ∀ k, m % 2 ^ (k + 1) = m % 2 ^ k + 2 ^ k * (m / 2 ^ k % 2) := fun k => Nat.mod_pow_succ
  have h0 := h 0; have h1 := h 1; have h2 := h 2; have h3 := h 3; have h4 := h 4; have h5 := h 5; have h6 := h 6; have h7 := h 7; have h8 := h 8; have h9 := h 9; have h10 := h 10; have h11 := h 11
  simp only [Nat.reduceAdd, Nat.reducePow, Nat.mod_one, Nat.one_mul, Nat.zero_add] at h0 h1 h2 h3 h4 h5 h6 h7 h8 h9 h10 h11
  rw [h11, h10, h9, h8, h7, h6, h5, h4, h3, h2, h1, h0]
  ac_rfl

end Verif.Strmode
