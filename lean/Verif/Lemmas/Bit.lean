import Verif.Model.Bit
import Verif.Spec.Bit
/-! # Lemmas about bits -/
namespace Verif.Bit
open Verif

theorem and_pow_eq_zero (n j : Nat) : n &&& 2 ^ j = 0 ↔ n.testBit j = false := by
  constructor
  · intro h
    have : (n &&& 2 ^ j).testBit j = false := by rw [h]; exact Nat.zero_testBit j
    rw [Nat.testBit_and, Nat.testBit_two_pow] at this
    simpa using this
  · intro h
    apply Nat.eq_of_testBit_eq
    intro i
    rw [Nat.testBit_and, Nat.testBit_two_pow, Nat.zero_testBit]
    by_cases hi : j = i
    · subst hi; simp [h]
    · simp [hi]

/-! ## Counting -/

theorem ones_zero (n : Nat) : ones 0 n = 0 := rfl

theorem ones_succ (w n : Nat) : ones (w + 1) n = ones w n + (if n.testBit w then 1 else 0) := by
  unfold ones
  rw [List.range_succ, List.filter_append, List.length_append]
  congr 1
  cases h : n.testBit w <;> simp [h]

theorem ones_half (w n : Nat) : ones (w + 1) n = n % 2 + ones w (n / 2) := by
  induction w with
  | zero =>
    rw [ones_succ, ones_zero, ones_zero, Nat.testBit_zero]
    rcases Nat.mod_two_eq_zero_or_one n with h | h <;> simp [h]
  | succ w ih => rw [ones_succ, ih, ones_succ w (n / 2), Nat.testBit_succ]; omega

theorem ones_le (w n : Nat) : ones w n ≤ w := by
  induction w with
  | zero => simp [ones_zero]
  | succ w ih => rw [ones_succ]; split <;> omega

theorem ones_of_zero (w : Nat) : ones w 0 = 0 := by
  induction w with
  | zero => rfl
  | succ w ih => rw [ones_succ, ih]; simp

theorem ones_extend {w n : Nat} (h : n < 2 ^ w) : ∀ d, ones (w + d) n = ones w n
  | 0 => rfl
  | d + 1 => by
    have hlt : n < 2 ^ (w + d) := Nat.lt_of_lt_of_le h (Nat.pow_le_pow_right (by omega) (by omega))
    rw [← Nat.add_assoc, ones_succ, ones_extend h d, Nat.testBit_lt_two_pow hlt]
    simp

theorem popcount_eq (w n : Nat) : popcount w n = ones w n := by
  induction w with
  | zero => rfl
  | succ w ih => rw [ones_succ, ← ih]; show _ + _ = _; omega

theorem and_pred_half {n : Nat} (h : n % 2 = 0) (h0 : n ≠ 0) : n &&& (n - 1) = 2 * (n / 2 &&& (n / 2 - 1)) := by
  have h1 : (n &&& (n - 1)) / 2 = n / 2 &&& (n / 2 - 1) := by
    rw [Nat.and_div_two]; congr 1; omega
  have h2 : (n &&& (n - 1)) % 2 = 0 := by
    have := @Nat.and_mod_two_pow n (n - 1) 1
    rw [Nat.pow_one, h] at this
    simpa using this
  omega

theorem and_pred_odd {n : Nat} (h : n % 2 = 1) : n &&& (n - 1) = n - 1 := by
  have h1 : (n &&& (n - 1)) / 2 = n / 2 := by
    rw [Nat.and_div_two, show (n - 1) / 2 = n / 2 by omega, Nat.and_self]
  have h2 : (n &&& (n - 1)) % 2 = 0 := by
    have := @Nat.and_mod_two_pow n (n - 1) 1
    rw [Nat.pow_one, show (n - 1) % 2 = 0 by omega] at this
    simpa using this
  omega

theorem ones_pred (w : Nat) : ∀ {n : Nat}, n ≠ 0 → n < 2 ^ w → ones w (n &&& (n - 1)) + 1 = ones w n := by
  induction w with
  | zero => intro n h0 h; simp at h; exact absurd h h0
  | succ w ih =>
    intro n h0 h
    rw [Nat.pow_succ] at h
    rw [ones_half, ones_half w n]
    rcases Nat.mod_two_eq_zero_or_one n with hm | hm
    · have := @ih (n / 2) (by omega) (by omega)
      rw [and_pred_half hm h0, hm, show 2 * (n / 2 &&& (n / 2 - 1)) % 2 = 0 by omega, show 2 * (n / 2 &&& (n / 2 - 1)) / 2 = (n / 2 &&& (n / 2 - 1)) by omega]
      omega
    · rw [and_pred_odd hm, show (n - 1) / 2 = n / 2 by omega, show (n - 1) % 2 = 0 by omega]
      omega

theorem onesLoop_eq {w : Nat} : ∀ (fuel : Nat) {n : Nat} (ret : Nat), n < 2 ^ w → ones w n < fuel → onesLoop fuel n ret = .ok (ret + ones w n) := by
  intro fuel
  induction fuel with
  | zero => intro n ret _ h; omega
  | succ fuel ih =>
    intro n ret hn h
    by_cases h0 : n = 0
    · show (if n = 0 then _ else _) = _
      rw [if_pos h0, h0, ones_of_zero]; rfl
    · show (if n = 0 then _ else _) = _
      have hp := ones_pred w h0 hn
      rw [if_neg h0, ih (ret + 1) (Nat.lt_of_le_of_lt Nat.and_le_left hn) (by omega)]
      congr 1; omega

theorem countOnes_eq {w n : Nat} (h : n < 2 ^ w) : countOnes w n = .ok (ones w n) := by
  rw [countOnes, onesLoop_eq (w + 1) 0 h (Nat.lt_succ_of_le (ones_le w n)), Nat.zero_add]

theorem countOnesGnu_eq {w n : Nat} (h : n < 2 ^ w) : countOnesGnu w n = ones w n := by
  rw [countOnesGnu, popcount_eq, show promoted w = w + (promoted w - w) by unfold promoted; omega, ones_extend h]

theorem compl_lt {w n : Nat} (h : n < 2 ^ w) : compl w n < 2 ^ w := by unfold compl; omega

theorem compl_testBit {w n : Nat} (h : n < 2 ^ w) (i : Nat) : (compl w n).testBit i = (decide (i < w) && !n.testBit i) := by
  rw [compl, Nat.sub_sub, Nat.add_comm, Nat.testBit_two_pow_sub_succ h]

/-! ## Zeros at the ends -/

theorem isLeading_unique {w n k l : Nat} (hk : IsLeadingZeros w n k) (hl : IsLeadingZeros w n l) : k = l := by
  obtain ⟨h1, h2, h3⟩ := hk
  obtain ⟨g1, g2, g3⟩ := hl
  rcases Nat.lt_trichotomy k l with h | h | h
  · have := h3 (by omega); rw [g2 _ (by omega) (by omega)] at this; cases this
  · exact h
  · have := g3 (by omega); rw [h2 _ (by omega) (by omega)] at this; cases this

theorem isTrailing_unique {w n k l : Nat} (hk : IsTrailingZeros w n k) (hl : IsTrailingZeros w n l) : k = l := by
  obtain ⟨h1, h2, h3⟩ := hk
  obtain ⟨g1, g2, g3⟩ := hl
  rcases Nat.lt_trichotomy k l with h | h | h
  · have := h3 (by omega); rw [g2 _ (by omega)] at this; cases this
  · exact h
  · have := g3 (by omega); rw [h2 _ (by omega)] at this; cases this

/-- The mask after `ret` iterations, from the top. -/
def topBit (w ret : Nat) : Nat := if ret < w then 2 ^ (w - 1 - ret) else 0

theorem topBit_next (w ret : Nat) : topBit w ret >>> 1 = topBit w (ret + 1) := by
  unfold topBit
  by_cases h : ret < w
  · by_cases h' : ret + 1 < w
    · rw [if_pos h, if_pos h', Nat.shiftRight_eq_div_pow, show w - 1 - ret = (w - 1 - (ret + 1)) + 1 by omega, Nat.pow_succ, Nat.pow_one]
      omega
    · rw [if_pos h, if_neg h', show w - 1 - ret = 0 by omega]; rfl
  · rw [if_neg h, if_neg (by omega)]; rfl

theorem leadingLoop_ok {w n : Nat} : ∀ (fuel ret : Nat), ret ≤ w → w < ret + fuel → (∀ i, w - ret ≤ i → i < w → n.testBit i = false) →
    ∃ k, leadingLoop n fuel (topBit w ret) ret = .ok k ∧ IsLeadingZeros w n k := by
  intro fuel
  induction fuel with
  | zero => intro ret _ _ _; omega
  | succ fuel ih =>
    intro ret hr hf hz
    rw [show leadingLoop n (fuel + 1) (topBit w ret) ret = if topBit w ret ≠ 0 ∧ n &&& topBit w ret = 0 then leadingLoop n fuel (topBit w ret >>> 1) (ret + 1) else .ok ret from rfl]
    by_cases hlt : ret < w
    · by_cases hb : n.testBit (w - 1 - ret) = true
      · refine ⟨ret, if_neg ?_, hr, hz, fun _ => hb⟩
        rintro ⟨-, h⟩
        rw [topBit, if_pos hlt, and_pow_eq_zero, hb] at h
        cases h
      · have hb' : n.testBit (w - 1 - ret) = false := by simpa using hb
        rw [if_pos (by rw [topBit, if_pos hlt, and_pow_eq_zero]; exact ⟨Nat.ne_of_gt (Nat.two_pow_pos _), hb'⟩), topBit_next]
        refine ih (ret + 1) (by omega) (by omega) ?_
        intro i hi hi'
        by_cases he : i = w - 1 - ret
        · rw [he]; exact hb'
        · exact hz i (by omega) hi'
    · exact ⟨ret, if_neg (by rw [topBit, if_neg hlt]; exact fun h => h.1 rfl), hr, hz, fun h => absurd h hlt⟩

theorem leadingZeros_ok {w : Nat} (hw : 0 < w) (n : Nat) : ∃ k, leadingZeros w n = .ok k ∧ IsLeadingZeros w n k := by
  have := @leadingLoop_ok w n (w + 1) 0 (Nat.zero_le _) (by omega) (fun i h h' => by omega)
  rw [topBit, if_pos hw, Nat.sub_zero] at this
  rw [leadingZeros, Nat.one_shiftLeft]
  exact this

/-- The mask after `ret` iterations, from the bottom. -/
def lowBit (w ret : Nat) : Nat := if ret < w then 2 ^ ret else 0

theorem lowBit_next (w ret : Nat) (h : ret < w) : (lowBit w ret <<< 1) % 2 ^ w = lowBit w (ret + 1) := by
  unfold lowBit
  rw [if_pos h, Nat.shiftLeft_eq, ← Nat.pow_succ]
  by_cases h' : ret + 1 < w
  · rw [if_pos h', Nat.mod_eq_of_lt (Nat.pow_lt_pow_right (by omega) h')]
  · rw [if_neg h', show Nat.succ ret = w by omega, Nat.mod_self]

theorem trailingLoop_ok {w n : Nat} : ∀ (fuel ret : Nat), ret ≤ w → w < ret + fuel → (∀ i, i < ret → n.testBit i = false) →
    ∃ k, trailingLoop w n fuel (lowBit w ret) ret = .ok k ∧ IsTrailingZeros w n k := by
  intro fuel
  induction fuel with
  | zero => intro ret _ _ _; omega
  | succ fuel ih =>
    intro ret hr hf hz
    rw [show trailingLoop w n (fuel + 1) (lowBit w ret) ret = if lowBit w ret ≠ 0 ∧ n &&& lowBit w ret = 0 then trailingLoop w n fuel ((lowBit w ret <<< 1) % 2 ^ w) (ret + 1) else .ok ret from rfl]
    by_cases hlt : ret < w
    · by_cases hb : n.testBit ret = true
      · refine ⟨ret, if_neg ?_, hr, hz, fun _ => hb⟩
        rintro ⟨-, h⟩
        rw [lowBit, if_pos hlt, and_pow_eq_zero, hb] at h
        cases h
      · have hb' : n.testBit ret = false := by simpa using hb
        rw [if_pos (by rw [lowBit, if_pos hlt, and_pow_eq_zero]; exact ⟨Nat.ne_of_gt (Nat.two_pow_pos _), hb'⟩), lowBit_next w ret hlt]
        refine ih (ret + 1) (by omega) (by omega) ?_
        intro i hi
        by_cases he : i = ret
        · rw [he]; exact hb'
        · exact hz i (by omega)
    · exact ⟨ret, if_neg (by rw [lowBit, if_neg hlt]; exact fun h => h.1 rfl), hr, hz, fun h => absurd h hlt⟩

theorem trailingZeros_ok {w : Nat} (hw : 0 < w) (n : Nat) : ∃ k, trailingZeros w n = .ok k ∧ IsTrailingZeros w n k := by
  have := @trailingLoop_ok w n (w + 1) 0 (Nat.zero_le _) (by omega) (fun i h => by omega)
  rw [lowBit, if_pos hw] at this
  exact this

theorem exists_bit {w n : Nat} (h0 : n ≠ 0) (h : n < 2 ^ w) : ∃ i, i < w ∧ n.testBit i = true := by
  apply Classical.byContradiction
  intro hc
  apply h0
  apply Nat.eq_of_testBit_eq
  intro i
  rw [Nat.zero_testBit]
  by_cases hi : i < w
  · cases hb : n.testBit i with
    | false => rfl
    | true => exact absurd ⟨i, hi, hb⟩ hc
  · exact Nat.testBit_lt_two_pow (Nat.lt_of_lt_of_le h (Nat.pow_le_pow_right (by omega) (by omega)))

theorem clz_ok {n : Nat} : ∀ {w : Nat}, (∃ i, i < w ∧ n.testBit i = true) → ∃ k, clz w n = .ok k ∧ IsLeadingZeros w n k := by
  intro w
  induction w with
  | zero => rintro ⟨i, h, -⟩; omega
  | succ w ih =>
    rintro ⟨i, hi, hb⟩
    rw [show clz (w + 1) n = if n.testBit w then .ok 0 else (clz w n).bind fun k => .ok (k + 1) from rfl]
    by_cases ht : n.testBit w = true
    · exact ⟨0, if_pos ht, Nat.zero_le _, fun j h h' => by omega, fun _ => ht⟩
    · have ht' : n.testBit w = false := by simpa using ht
      have hne : i ≠ w := by intro h; rw [h, ht'] at hb; cases hb
      obtain ⟨k, hk, h1, h2, h3⟩ := ih ⟨i, by omega, hb⟩
      rw [if_neg ht, hk]
      refine ⟨k + 1, rfl, by omega, ?_, ?_⟩
      · intro j h h'
        by_cases he : j = w
        · rw [he]; exact ht'
        · exact h2 j (by omega) (by omega)
      · intro h
        rw [show w + 1 - 1 - (k + 1) = w - 1 - k by omega]
        exact h3 (by omega)

theorem ctzFrom_ok {n : Nat} : ∀ (w : Nat) {i : Nat}, (∃ j, i ≤ j ∧ j < i + w ∧ n.testBit j = true) →
    ∃ k, ctzFrom n w i = .ok k ∧ i ≤ k ∧ k < i + w ∧ (∀ j, i ≤ j → j < k → n.testBit j = false) ∧ n.testBit k = true := by
  intro w
  induction w with
  | zero => rintro i ⟨j, h, h', -⟩; omega
  | succ w ih =>
    rintro i ⟨j, h, h', hb⟩
    rw [show ctzFrom n (w + 1) i = if n.testBit i then .ok i else ctzFrom n w (i + 1) from rfl]
    by_cases ht : n.testBit i = true
    · exact ⟨i, if_pos ht, Nat.le_refl _, by omega, fun l h h' => by omega, ht⟩
    · have ht' : n.testBit i = false := by simpa using ht
      have hne : j ≠ i := by intro h; rw [h, ht'] at hb; cases hb
      obtain ⟨k, hk, h1, h2, h3, h4⟩ := @ih (i + 1) ⟨j, by omega, by omega, hb⟩
      rw [if_neg ht, hk]
      refine ⟨k, rfl, by omega, by omega, ?_, h4⟩
      intro l hl hl'
      by_cases he : l = i
      · rw [he]; exact ht'
      · exact h3 l (by omega) hl'

theorem ctz_ok {w n : Nat} (h : ∃ i, i < w ∧ n.testBit i = true) : ∃ k, ctz w n = .ok k ∧ k < w ∧ IsTrailingZeros w n k := by
  obtain ⟨i, hi, hb⟩ := h
  obtain ⟨k, hk, h1, h2, h3, h4⟩ := @ctzFrom_ok n w 0 ⟨i, by omega, by omega, hb⟩
  exact ⟨k, hk, by omega, by omega, fun j hj => h3 j (by omega) hj, fun _ => h4⟩

theorem leadingZerosGnu_ok {w n : Nat} (h : n < 2 ^ w) : ∃ k, leadingZerosGnu w n = .ok k ∧ IsLeadingZeros w n k := by
  unfold leadingZerosGnu
  by_cases h0 : n ≠ 0
  · rw [if_pos h0]
    obtain ⟨i, hi, hb⟩ := exists_bit h0 h
    have hW : w ≤ promoted w := by unfold promoted; omega
    obtain ⟨K, hK, h1, h2, h3⟩ := @clz_ok n (promoted w) ⟨i, by omega, hb⟩
    have hlow : promoted w - w ≤ K := by
      apply Nat.le_of_not_lt
      intro hc
      have := h3 (by omega)
      rw [Nat.testBit_lt_two_pow (Nat.lt_of_lt_of_le h (Nat.pow_le_pow_right (by omega) (by omega)))] at this
      cases this
    rw [hK]
    refine ⟨K - (promoted w - w), rfl, by omega, ?_, ?_⟩
    · intro j hj hj'; exact h2 j (by omega) (by omega)
    · intro hlt
      rw [show w - 1 - (K - (promoted w - w)) = promoted w - 1 - K by omega]
      exact h3 (by omega)
  · rw [if_neg h0]
    have : n = 0 := by omega
    subst this
    exact ⟨w, rfl, Nat.le_refl _, fun i _ _ => Nat.zero_testBit i, fun h => absurd h (Nat.lt_irrefl _)⟩

theorem trailingZerosGnu_ok {w n : Nat} (h : n < 2 ^ w) : ∃ k, trailingZerosGnu w n = .ok k ∧ IsTrailingZeros w n k := by
  unfold trailingZerosGnu
  by_cases h0 : n ≠ 0
  · rw [if_pos h0]
    obtain ⟨i, hi, hb⟩ := exists_bit h0 h
    have hW : w ≤ promoted w := by unfold promoted; omega
    obtain ⟨k, hk, h1, h2, h3, h4⟩ := @ctz_ok (promoted w) n ⟨i, by omega, hb⟩
    have hkw : k ≤ i := by
      apply Nat.le_of_not_lt
      intro hc
      rw [h3 i hc] at hb
      cases hb
    exact ⟨k, hk, by omega, h3, fun _ => h4 h1⟩
  · rw [if_neg h0]
    have : n = 0 := by omega
    subst this
    exact ⟨w, rfl, Nat.le_refl _, fun i _ => Nat.zero_testBit i, fun h => absurd h (Nat.lt_irrefl _)⟩

theorem ctz_eq_gnu {w n : Nat} (h0 : n ≠ 0) : ctz (promoted w) n = trailingZerosGnu w n := by
  rw [trailingZerosGnu, if_pos h0]

/-! ## Powers of two -/

theorem isLeading_width {w n k : Nat} (hn : n < 2 ^ w) (h : IsLeadingZeros w n k) : IsWidth n (w - k) := by
  obtain ⟨h1, h2, h3⟩ := h
  constructor
  · apply Nat.lt_pow_two_of_testBit
    intro i hi
    by_cases hw : i < w
    · exact h2 i hi hw
    · exact Nat.testBit_lt_two_pow (Nat.lt_of_lt_of_le hn (Nat.pow_le_pow_right (by omega) (by omega)))
  · intro j hj
    apply Nat.le_of_not_lt
    intro hc
    have := h3 (by omega)
    rw [Nat.testBit_lt_two_pow (Nat.lt_of_lt_of_le hj (Nat.pow_le_pow_right (by omega) (by omega)))] at this
    cases this

theorem isWidth_unique {n k l : Nat} (hk : IsWidth n k) (hl : IsWidth n l) : k = l :=
  Nat.le_antisymm (hk.2 _ hl.1) (hl.2 _ hk.1)

theorem isWidth_pos {n k : Nat} (h : IsWidth n k) (h0 : n ≠ 0) : 0 < k := by
  apply Nat.pos_of_ne_zero
  intro hk
  have := h.1
  rw [hk] at this
  simp at this
  exact h0 this

theorem isWidth_floor {n k : Nat} (h : IsWidth n k) (h0 : n ≠ 0) : IsFloor n (2 ^ (k - 1)) := by
  have hpos := isWidth_pos h h0
  refine ⟨⟨_, rfl⟩, ?_, ?_⟩
  · apply Nat.le_of_not_lt
    intro hc
    have := h.2 _ hc
    omega
  · intro j hj
    have : j < k := by
      apply Nat.lt_of_not_le
      intro hc
      have := Nat.pow_le_pow_right (show 0 < 2 by omega) hc
      have := h.1
      omega
    exact Nat.pow_le_pow_right (by omega) (by omega)

theorem isWidth_ceil {n k : Nat} (h : IsWidth (n - (if n ≠ 0 then 1 else 0)) k) : IsCeil n (2 ^ k) := by
  have h2 := Nat.two_pow_pos k
  by_cases h0 : n ≠ 0
  · rw [if_pos h0] at h
    refine ⟨⟨_, rfl⟩, by have := h.1; omega, ?_⟩
    intro j hj
    exact Nat.pow_le_pow_right (by omega) (h.2 j (by omega))
  · rw [if_neg h0] at h
    have hn : n = 0 := by omega
    subst hn
    refine ⟨⟨_, rfl⟩, by omega, ?_⟩
    intro j _
    exact Nat.pow_le_pow_right (by omega) (h.2 j (by simpa using Nat.two_pow_pos j))

theorem xor_pred_half {n : Nat} (h : n % 2 = 0) (h0 : n ≠ 0) : n ^^^ (n - 1) = 2 * (n / 2 ^^^ (n / 2 - 1)) + 1 := by
  have h1 : (n ^^^ (n - 1)) / 2 = n / 2 ^^^ (n / 2 - 1) := by
    rw [Nat.xor_div_two]; congr 1; omega
  have h2 : (n ^^^ (n - 1)) % 2 = 1 := by
    have := @Nat.xor_mod_two_pow n (n - 1) 1
    rw [Nat.pow_one, h, show (n - 1) % 2 = 1 by omega] at this
    simpa using this
  omega

theorem xor_pred_odd {n : Nat} (h : n % 2 = 1) : n ^^^ (n - 1) = 1 := by
  have h1 : (n ^^^ (n - 1)) / 2 = 0 := by
    rw [Nat.xor_div_two, show (n - 1) / 2 = n / 2 by omega, Nat.xor_self]
  have h2 : (n ^^^ (n - 1)) % 2 = 1 := by
    have := @Nat.xor_mod_two_pow n (n - 1) 1
    rw [Nat.pow_one, h, show (n - 1) % 2 = 0 by omega] at this
    simpa using this
  omega

theorem single_iff (b : Nat) : ∀ n, n ≤ b → n ≠ 0 → (n - 1 < n ^^^ (n - 1) ↔ ∃ k, n = 2 ^ k) := by
  induction b with
  | zero => intro n h h0; omega
  | succ b ih =>
    intro n hb h0
    rcases Nat.mod_two_eq_zero_or_one n with hm | hm
    · rw [xor_pred_half hm h0]
      have := ih (n / 2) (by omega) (by omega)
      rw [show n - 1 < 2 * (n / 2 ^^^ (n / 2 - 1)) + 1 ↔ n / 2 - 1 < (n / 2 ^^^ (n / 2 - 1)) by omega, this]
      constructor
      · rintro ⟨k, hk⟩; exact ⟨k + 1, by rw [Nat.pow_succ]; omega⟩
      · rintro ⟨k, hk⟩
        cases k with
        | zero => simp at hk; omega
        | succ k => exact ⟨k, by rw [Nat.pow_succ] at hk; omega⟩
    · rw [xor_pred_odd hm]
      constructor
      · intro h; exact ⟨0, by simp; omega⟩
      · rintro ⟨k, hk⟩
        cases k with
        | zero => simp at hk; omega
        | succ k => rw [Nat.pow_succ] at hk; omega

theorem hasSingleBit_iff {w n : Nat} (h : n < 2 ^ w) : hasSingleBit w n = true ↔ ∃ k, n = 2 ^ k := by
  unfold hasSingleBit
  have hp := Nat.two_pow_pos w
  by_cases h0 : n = 0
  · subst h0
    have hno : ¬ ∃ k, (0 : Nat) = 2 ^ k := by
      rintro ⟨k, hk⟩
      have := Nat.two_pow_pos k
      omega
    have : (0 ^^^ (0 + (2 ^ w - 1)) % 2 ^ w) = (0 + (2 ^ w - 1)) % 2 ^ w := Nat.zero_xor _
    split
    · simp [hno]
    · rw [this]; simp [hno]
  · rw [if_neg (fun hc => h0 hc.2)]
    have : (n + (2 ^ w - 1)) % 2 ^ w = n - 1 := by
      rw [show n + (2 ^ w - 1) = (n - 1) + 2 ^ w by omega, Nat.add_mod_right]
      exact Nat.mod_eq_of_lt (by omega)
    rw [this, decide_eq_true_iff]
    exact single_iff n n (Nat.le_refl _) h0

end Verif.Bit
