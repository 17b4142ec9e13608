import Verif.Spec.Ioq
/-!
# Slot words
-/
namespace Verif.Ioq

theorem and_not_one (x : W) : x &&& ~~~BLOCKED = (x >>> 1) <<< 1 := by
  unfold BLOCKED
  ext i hi
  simp only [BitVec.getElem_and, BitVec.getElem_not, BitVec.getElem_shiftLeft, BitVec.getElem_one]
  by_cases h0 : i = 0
  · subst h0; simp
  · have e : 1 + (i - 1) = i := by omega
    simp [h0, e, BitVec.getElem_eq_testBit_toNat, BitVec.toNat_ushiftRight, Nat.testBit_shiftRight]

theorem and_not_one_toNat (x : W) : (x &&& ~~~BLOCKED).toNat = 2 * (x.toNat / 2) := by
  rw [and_not_one, BitVec.toNat_shiftLeft, BitVec.toNat_ushiftRight, Nat.shiftRight_eq_div_pow, Nat.shiftLeft_eq]
  have := x.isLt
  omega

theorem shr63 (s : W) : s >>> SKIP_BIT = if 2 ^ 63 ≤ s.toNat then 1#64 else 0#64 := by
  apply BitVec.eq_of_toNat_eq
  rw [BitVec.toNat_ushiftRight, Nat.shiftRight_eq_div_pow]
  have := s.isLt
  unfold SKIP_BIT
  split <;> simp <;> omega

theorem blend_eq (s a b : W) : blend s a b = (if 2 ^ 63 ≤ s.toNat then a else b) &&& ~~~BLOCKED := by
  unfold blend
  rw [shr63]
  dsimp only
  have h1 : ∀ x : W, x &&& 18446744073709551615#64 = x := by
    intro x
    rw [show (18446744073709551615#64 : W) = BitVec.allOnes 64 from by decide]
    exact BitVec.and_allOnes
  split
  · simp [h1]
  · simp [h1]

theorem blend_toNat (s a b : W) : (blend s a b).toNat = 2 * ((if 2 ^ 63 ≤ s.toNat then a else b).toNat / 2) := by
  rw [blend_eq, and_not_one_toNat]

theorem ne_zero_iff (w : W) : w ≠ 0#64 ↔ w.toNat ≠ 0 := by
  constructor
  · intro h e; exact h (BitVec.eq_of_toNat_eq (by simpa using e))
  · intro h e; exact h (by rw [e]; rfl)

theorem blocked_iff (w : W) : blocked w = true ↔ w.toNat % 2 = 1 := by
  unfold blocked BLOCKED
  rw [bne_iff_ne, ne_zero_iff, BitVec.toNat_and]
  show w.toNat &&& 1 ≠ 0 ↔ _
  rw [Nat.and_one_is_mod]
  omega

theorem or_blocked (w : W) (h : blocked w = false) : (w ||| BLOCKED).toNat = w.toNat + 1 := by
  have hw : w.toNat % 2 = 0 := by
    have : ¬ blocked w = true := by simp [h]
    rw [blocked_iff] at this; omega
  unfold BLOCKED
  rw [BitVec.toNat_or]
  show w.toNat ||| 1 = _
  obtain ⟨k, hk⟩ : ∃ k, w.toNat = 2 * k := ⟨w.toNat / 2, by omega⟩
  rw [hk, ← Nat.two_pow_add_eq_or_of_lt (i := 1) (by omega) k]

theorem bits_or_blocked (w : W) (h : blocked w = false) : bits (w ||| BLOCKED) = bits w := by
  unfold bits
  rw [or_blocked w h]
  have : ¬ blocked w = true := by simp [h]
  rw [blocked_iff] at this
  omega

theorem cnt_of_bits {a b : W} (h : bits a = bits b) : cnt a = cnt b ∧ held a = held b := by
  unfold held cnt
  rw [h]
  exact ⟨rfl, rfl⟩

theorem pushFull_iff (w : W) : pushFull w = true ↔ cnt w = 1 := by
  unfold pushFull
  rw [bne_iff_ne, ne_zero_iff, blend_toNat]
  unfold cnt bits
  have := w.isLt
  split
  · simp; omega
  · split <;> omega

theorem skipBit_iff (w : W) : pushed w = true ↔ w.toNat < 2 ^ 63 := by
  unfold pushed SKIP_BIT
  rw [beq_iff_eq]
  have hbit : ∀ i, (w &&& 1#64 <<< 63).getLsbD i = (decide (i = 63) && w.getLsbD 63) := by
    intro i
    rw [BitVec.getLsbD_and, BitVec.getLsbD_shiftLeft]
    by_cases h : i = 63
    · subst h; simp
    · have : (1#64).getLsbD (i - 63) = decide (i - 63 = 0) := by simp
      simp only [h, decide_false, Bool.false_and]
      by_cases h2 : i < 64
      · by_cases h3 : i < 63
        · simp [h3]
        · omega
      · simp [h2]
  have hm : w.getLsbD 63 = true ↔ 2 ^ 63 ≤ w.toNat := by
    rw [BitVec.getLsbD, Nat.testBit_eq_decide_div_mod_eq]
    have := w.isLt
    simp; omega
  constructor
  · intro h
    have := hbit 63
    rw [h] at this
    simp at this
    have hn : ¬ (2 ^ 63 ≤ w.toNat) := by rw [← hm]; simp [this]
    omega
  · intro h
    have : w.getLsbD 63 = false := by
      cases hh : w.getLsbD 63 with
      | false => rfl
      | true => rw [hm] at hh; omega
    apply BitVec.eq_of_getLsbD_eq
    intro i hi
    rw [hbit, this]; simp

theorem sub_skip (w : W) : (w - SKIP_ONE).toNat = (w.toNat + 2) % 2 ^ 64 := by
  rw [show SKIP_ONE = (18446744073709551614#64 : W) from by decide, BitVec.toNat_sub]
  have := w.isLt
  show (18446744073709551616 - 18446744073709551614 + w.toNat) % _ = _
  congr 1; omega

theorem add_skip (w : W) : (w + SKIP_ONE).toNat = (w.toNat + (2 ^ 64 - 2)) % 2 ^ 64 := by
  rw [show SKIP_ONE = (18446744073709551614#64 : W) from by decide, BitVec.toNat_add]
  rfl

/-- Pushing into a slot that is not full. -/
theorem push_spec {w p : W} (hw : pushFull w = false) (hp : isPtr p) :
    cnt (pushNext w p) = cnt w + 1 ∧ (pushed w = true ↔ cnt w = 0) ∧ held w = none ∧
      held (pushNext w p) = (if pushed w then some p else none) ∧ blocked (pushNext w p) = false := by
  have hf : ¬ cnt w = 1 := by rw [← pushFull_iff]; simp [hw]
  have hpt := p.isLt
  have hwt := w.isLt
  have hp0 := (ne_zero_iff p).1 hp.1
  have hp4 := hp.2
  have hn : (pushNext w p).toNat = 2 * ((if 2 ^ 63 ≤ w.toNat then (w.toNat + 2) % 2 ^ 64 else p.toNat / 2) / 2) := by
    unfold pushNext
    rw [blend_toNat]
    split
    · rw [sub_skip]
    · rw [BitVec.toNat_ushiftRight]; rfl
  have hb : blocked (pushNext w p) = false := by
    have : ¬ blocked (pushNext w p) = true := by rw [blocked_iff, hn]; omega
    simpa using this
  have hheld : held w = none := by unfold held; rw [if_neg hf]
  by_cases hs : 2 ^ 63 ≤ w.toNat
  · have hps : pushed w = false := by
      have : ¬ pushed w = true := by rw [skipBit_iff]; omega
      simpa using this
    rw [if_pos hs] at hn
    have c0 : cnt w = (w.toNat / 2 : Nat) - 2 ^ 63 := by unfold cnt bits; rw [if_pos (by omega)]
    have c1 : cnt (pushNext w p) = cnt w + 1 := by
      rw [c0]
      unfold cnt bits
      rw [hn]
      split
      · omega
      · split
        · omega
        · omega
    refine ⟨c1, by rw [hps, c0]; simp; omega, hheld, ?_, hb⟩
    rw [hps]
    unfold held
    rw [if_neg (by omega)]
    rfl
  · have hps : pushed w = true := by rw [skipBit_iff]; omega
    rw [if_neg hs] at hn
    have c0 : cnt w = 0 := by
      unfold cnt at hf ⊢
      unfold bits at hf ⊢
      rw [if_neg (by omega)] at hf ⊢
      split at hf
      · next h => rw [if_pos h]
      · exact absurd rfl hf
    have c1 : cnt (pushNext w p) = 1 := by
      unfold cnt bits
      rw [hn, if_neg (by omega), if_neg (by omega)]
    refine ⟨by rw [c1, c0]; rfl, by simp [hps, c0], hheld, ?_, hb⟩
    rw [hps]
    unfold held
    rw [if_pos c1]
    simp only [if_true, Option.some.injEq]
    apply BitVec.eq_of_toNat_eq
    unfold bits
    rw [hn, BitVec.toNat_ofNat]
    omega

/-- Popping. -/
theorem pop_spec {w : W} (hw : -(2 ^ 62) + 1 ≤ cnt w) :
    cnt (popNext w) = cnt w - 1 ∧ held (popNext w) = none ∧ (popNext w ≠ 0#64 ↔ cnt w ≠ 1) ∧
      (held w = if popPtr w = 0#64 then none else some (popPtr w)) ∧ (popPtr w = 0#64 ↔ cnt w ≠ 1) ∧ blocked (popNext w) = false := by
  have hwt := w.isLt
  have hn : (popNext w).toNat = 2 * ((if 2 ^ 63 ≤ (w.toNat + (2 ^ 64 - 2)) % 2 ^ 64 then (w.toNat + (2 ^ 64 - 2)) % 2 ^ 64 else 0) / 2) := by
    unfold popNext
    dsimp only
    rw [blend_toNat, ← add_skip]
    split <;> rfl
  have hb : blocked (popNext w) = false := by
    have : ¬ blocked (popNext w) = true := by rw [blocked_iff, hn]; omega
    simpa using this
  have hpp : (popPtr w).toNat = (4 * (if 2 ^ 63 ≤ w.toNat then 0 else w.toNat / 2)) % 2 ^ 64 := by
    unfold popPtr
    rw [BitVec.toNat_shiftLeft, blend_toNat, Nat.shiftLeft_eq]
    congr 1
    split
    · rfl
    · omega
  have hcw : cnt w = if 2 ^ 62 ≤ w.toNat / 2 then ((w.toNat / 2 : Nat) : Int) - 2 ^ 63 else if w.toNat / 2 = 0 then 0 else 1 := rfl
  have hp0 : popPtr w = 0#64 ↔ cnt w ≠ 1 := by
    have : popPtr w = 0#64 ↔ (popPtr w).toNat = 0 := by
      constructor
      · intro h; rw [h]; rfl
      · intro h; exact BitVec.eq_of_toNat_eq (by simpa using h)
    rw [this, hpp, hcw]
    by_cases h1 : 2 ^ 63 ≤ w.toNat
    · rw [if_pos h1, if_pos (by omega)]; simp; omega
    · rw [if_neg h1, if_neg (by omega)]
      by_cases h2 : w.toNat / 2 = 0
      · rw [if_pos h2]; simp [h2]
      · rw [if_neg h2]; simp; omega
  have hle : cnt w ≤ 1 := by
    rw [hcw]; split
    · omega
    · split <;> omega
  have key : cnt (popNext w) = cnt w - 1 ∧ ((popNext w).toNat ≠ 0 ↔ cnt w ≠ 1) := by
    by_cases h1 : 2 ^ 62 ≤ w.toNat / 2
    · rw [hcw, if_pos h1] at hw ⊢
      rw [if_pos (by omega)] at hn
      have hn' : (popNext w).toNat = 2 * (w.toNat / 2) - 2 := by omega
      refine ⟨?_, by omega⟩
      unfold cnt bits
      rw [hn', if_pos (by omega)]
      omega
    · by_cases h2 : w.toNat / 2 = 0
      · rw [hcw, if_neg h1, if_pos h2]
        rw [if_pos (by omega)] at hn
        have hn' : (popNext w).toNat = 2 ^ 64 - 2 := by omega
        refine ⟨?_, by omega⟩
        unfold cnt bits
        rw [hn', if_pos (by omega)]
        omega
      · rw [hcw, if_neg h1, if_neg h2]
        rw [if_neg (by omega)] at hn
        have hn' : (popNext w).toNat = 0 := by omega
        refine ⟨?_, by omega⟩
        unfold cnt bits
        rw [hn', if_neg (by omega), if_pos (by omega)]
        omega
  refine ⟨key.1, ?_, by rw [ne_zero_iff]; exact key.2, ?_, hp0, hb⟩
  · unfold held; rw [if_neg (by omega)]
  · by_cases h : cnt w = 1
    · have hne : ¬ popPtr w = 0#64 := by rw [hp0]; simp [h]
      rw [if_neg hne]
      unfold held
      rw [if_pos h]
      congr 1
      apply BitVec.eq_of_toNat_eq
      rw [hpp, BitVec.toNat_ofNat]
      unfold bits
      have : ¬ 2 ^ 63 ≤ w.toNat := by
        intro hh
        rw [hcw, if_pos (by omega)] at h
        omega
      rw [if_neg this]
    · rw [if_pos (by rw [hp0]; exact h)]
      unfold held; rw [if_neg h]

end Verif.Ioq
