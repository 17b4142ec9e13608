import Verif.Lemmas.Trie
/-!
# The word-at-a-time mismatch search agrees with the byte-at-a-time one
-/
namespace Verif.Trie

theorem load_foldl (l : Key) (acc : Nat) : l.foldl (fun acc b => acc * 256 + b.toNat) acc = acc * 256 ^ l.length + load l := by
  unfold load
  induction l generalizing acc with
  | nil => simp
  | cons x xs ih =>
    simp only [List.foldl_cons, List.length_cons]
    rw [ih, ih (0 * 256 + x.toNat)]
    rw [Nat.add_mul, Nat.pow_succ]
    simp only [Nat.zero_mul, Nat.zero_add]
    have : acc * 256 * 256 ^ xs.length = acc * (256 ^ xs.length * 256) := by
      rw [Nat.mul_assoc, Nat.mul_comm 256]
    omega

theorem load_cons (x : UInt8) (xs : Key) : load (x :: xs) = x.toNat * 2 ^ (8 * xs.length) + load xs := by
  have h := load_foldl xs (0 * 256 + x.toNat)
  have e : (2 : Nat) ^ (8 * xs.length) = 256 ^ xs.length := by rw [Nat.pow_mul]
  rw [e]
  show (x :: xs).foldl (fun acc b => acc * 256 + b.toNat) 0 = _
  rw [List.foldl_cons, h]
  simp

theorem load_lt (l : Key) : load l < 2 ^ (8 * l.length) := by
  induction l with
  | nil => simp [load]
  | cons x xs ih =>
    rw [load_cons, List.length_cons]
    have h := x.toNat_lt
    have e : (2 : Nat) ^ (8 * (xs.length + 1)) = 256 * 2 ^ (8 * xs.length) := by
      rw [Nat.mul_add, Nat.pow_add, Nat.mul_comm]
    rw [e]
    have : (x.toNat + 1) * 2 ^ (8 * xs.length) ≤ 256 * 2 ^ (8 * xs.length) := Nat.mul_le_mul_right _ (by omega)
    rw [Nat.add_mul] at this
    omega

/-- Exclusive or of two-part words. -/
theorem xor_parts {a b x y n : Nat} (hx : x < 2 ^ n) (hy : y < 2 ^ n) :
    (a * 2 ^ n + x) ^^^ (b * 2 ^ n + y) = (a ^^^ b) * 2 ^ n + (x ^^^ y) := by
  apply Nat.eq_of_testBit_eq
  intro i
  have hxy := Nat.xor_lt_two_pow hx hy
  rw [Nat.testBit_xor, Nat.mul_comm a, Nat.mul_comm b, Nat.mul_comm (a ^^^ b)]
  rw [Nat.testBit_two_pow_mul_add _ hx, Nat.testBit_two_pow_mul_add _ hy, Nat.testBit_two_pow_mul_add _ hxy]
  split <;> simp

theorem lz_bound {n w : Nat} (hw : n < 2 ^ w) (hn : n ≠ 0) : n.log2 + 1 ≤ w := (Nat.log2_lt hn).2 hw

theorem lz_mismatch : ∀ (a b : Key), a.length = b.length → leadingZeros (8 * a.length) (load a ^^^ load b) / 4 = mismatch a b := by
  intro a
  induction a with
  | nil =>
    intro b h
    cases b with
    | nil => simp [leadingZeros, load, mismatch]
    | cons => simp at h
  | cons x xs ih =>
    intro b h
    cases b with
    | nil => simp at h
    | cons y ys =>
      simp only [List.length_cons, Nat.add_right_cancel_iff] at h
      have hx := load_lt xs
      have hy := load_lt ys
      rw [← h] at hy
      rw [load_cons, load_cons, ← h, xor_parts hx hy, mismatch, List.length_cons]
      have hxy := Nat.xor_lt_two_pow hx hy
      by_cases e : x = y
      · subst e
        have ih' := ih ys h
        rw [if_pos rfl]
        simp only [Nat.xor_self, Nat.zero_mul, Nat.zero_add]
        rw [← ih']
        unfold leadingZeros
        by_cases hz : load xs ^^^ load ys = 0
        · rw [if_pos hz, if_pos hz]; omega
        · rw [if_neg hz, if_neg hz]
          have := lz_bound hxy hz
          omega
      · rw [if_neg e]
        have hne : x.toNat ≠ y.toNat := fun h => e (UInt8.toNat_inj.1 h)
        have hd : x.toNat ^^^ y.toNat ≠ 0 := by
          intro h0
          apply hne
          have := congrArg (fun z => z ^^^ y.toNat) h0
          simpa [Nat.xor_assoc] using this
        have h8 : x.toNat ^^^ y.toNat < 2 ^ 8 := Nat.xor_lt_two_pow x.toNat_lt y.toNat_lt
        have hlog : ((x.toNat ^^^ y.toNat) * 2 ^ (8 * xs.length) + (load xs ^^^ load ys)).log2
            = (x.toNat ^^^ y.toNat).log2 + 8 * xs.length := by
          have hnz : (x.toNat ^^^ y.toNat) * 2 ^ (8 * xs.length) + (load xs ^^^ load ys) ≠ 0 := by
            have := Nat.mul_pos (Nat.pos_of_ne_zero hd) (Nat.two_pow_pos (8 * xs.length))
            omega
          rw [Nat.log2_eq_iff hnz]
          have hb := (Nat.log2_eq_iff hd).1 rfl
          constructor
          · rw [Nat.pow_add]
            have := Nat.mul_le_mul_right (2 ^ (8 * xs.length)) hb.1
            omega
          · have : (x.toNat ^^^ y.toNat).log2 + 8 * xs.length + 1 = ((x.toNat ^^^ y.toNat).log2 + 1) + 8 * xs.length := by omega
            rw [this, Nat.pow_add]
            have := Nat.mul_le_mul_right (2 ^ (8 * xs.length)) (Nat.succ_le_of_lt hb.2)
            rw [Nat.succ_mul] at this
            omega
        unfold leadingZeros
        have hnz : (x.toNat ^^^ y.toNat) * 2 ^ (8 * xs.length) + (load xs ^^^ load ys) ≠ 0 := by
          have := Nat.mul_pos (Nat.pos_of_ne_zero hd) (Nat.two_pow_pos (8 * xs.length))
          omega
        rw [if_neg hnz, hlog]
        have hlt : (x.toNat ^^^ y.toNat).log2 < 8 := (Nat.log2_lt hd).2 h8
        have h16 : x.toNat / 16 = y.toNat / 16 ↔ (x.toNat ^^^ y.toNat).log2 < 4 := by
          rw [Nat.log2_lt hd]
          have hdiv : (x.toNat ^^^ y.toNat) / 2 ^ 4 = x.toNat / 2 ^ 4 ^^^ y.toNat / 2 ^ 4 := Nat.xor_div_two_pow ..
          constructor
          · intro h
            rw [show (2 : Nat) ^ 4 = 16 from rfl, h, Nat.xor_self] at hdiv
            omega
          · intro h
            have h0 : x.toNat / 2 ^ 4 ^^^ y.toNat / 2 ^ 4 = 0 := by rw [← hdiv]; omega
            have := congrArg (fun z => z ^^^ y.toNat / 2 ^ 4) h0
            simpa [Nat.xor_assoc] using this
        by_cases hq : x.toNat / 16 = y.toNat / 16
        · rw [if_pos hq]
          have := h16.1 hq
          omega
        · rw [if_neg hq]
          have : ¬ (x.toNat ^^^ y.toNat).log2 < 4 := fun h => hq (h16.2 h)
          omega

theorem load_inj : ∀ (a b : Key), a.length = b.length → load a ^^^ load b = 0 → a = b := by
  intro a b hl h
  have h1 := lz_mismatch a b hl
  rw [h, leadingZeros, if_pos rfl] at h1
  have := mismatch_prefix (a := a) (b := b) (by omega)
  exact List.IsPrefix.eq_of_length this hl

theorem mismatch_eq (a b c : Key) : mismatch (a ++ b) (a ++ c) = 2 * a.length + mismatch b c := by
  induction a with
  | nil => simp
  | cons x xs ih =>
    rw [List.cons_append, List.cons_append, mismatch, if_pos rfl, ih, List.length_cons]; omega

theorem mismatch_ne : ∀ (a a' b c : Key), a.length = a'.length → a ≠ a' → mismatch (a ++ b) (a' ++ c) = mismatch a a' := by
  intro a
  induction a with
  | nil => intro a' b c h hne; cases a' with
    | nil => exact absurd rfl hne
    | cons => simp at h
  | cons x xs ih =>
    intro a' b c h hne
    cases a' with
    | nil => simp at h
    | cons y ys =>
      rw [List.cons_append, List.cons_append, mismatch, mismatch]
      by_cases e : x = y
      · rw [if_pos e, if_pos e, ih ys b c (by simpa using h) (by rintro rfl; exact hne (by rw [e]))]
      · rw [if_neg e, if_neg e]

/-- One word-sized step. -/
theorem chunk_step {n : Nat} {a b : Key} (h : n ≤ min a.length b.length) :
    (if chunkDiff n a b ≠ 0 then leadingZeros (8 * n) (chunkDiff n a b) / 4
      else leadingZeros (8 * n) (chunkDiff n a b) / 4 + mismatch (a.drop n) (b.drop n)) = mismatch a b := by
  have ha : (a.take n).length = n := by simp; omega
  have hb : (b.take n).length = n := by simp; omega
  have hlz := lz_mismatch (a.take n) (b.take n) (by omega)
  rw [ha] at hlz
  unfold chunkDiff
  by_cases h0 : load (a.take n) ^^^ load (b.take n) = 0
  · rw [if_neg (by simpa using h0), hlz]
    have e := load_inj _ _ (by omega) h0
    have e2 : mismatch a b = mismatch (a.take n ++ a.drop n) (a.take n ++ b.drop n) := by
      rw [List.take_append_drop, e, List.take_append_drop]
    rw [e2, mismatch_eq, ha, ← e]
    have := mismatch_eq (a.take n) [] []
    simp only [List.append_nil] at this
    rw [this, ha]; simp [mismatch]
  · rw [if_pos h0, hlz]
    have hne : a.take n ≠ b.take n := by
      intro e; rw [e, Nat.xor_self] at h0; exact h0 rfl
    have e2 : mismatch a b = mismatch (a.take n ++ a.drop n) (b.take n ++ b.drop n) := by
      rw [List.take_append_drop, List.take_append_drop]
    rw [e2, mismatch_ne _ _ _ _ (by omega) hne]

/-- The word sizes below `2 ^ k`, largest first. -/
def pows : Nat → List Nat
  | 0 => []
  | k + 1 => 2 ^ k :: pows k

theorem mismatchTail_eq : ∀ (k : Nat) (a b : Key), min a.length b.length < 2 ^ k → mismatchTail (pows k) a b = mismatch a b := by
  intro k
  induction k with
  | zero =>
    intro a b h
    rw [pows, mismatchTail]
    have := mismatch_le a b
    have : min a.length b.length = 0 := by simpa using h
    omega
  | succ k ih =>
    intro a b h
    rw [pows, mismatchTail]
    by_cases hl : 2 ^ k ≤ min a.length b.length
    · rw [if_pos hl, ih, chunk_step hl]
      rw [List.length_drop, List.length_drop]
      rw [Nat.pow_succ] at h
      omega
    · rw [if_neg hl]; exact ih a b (by omega)

theorem mismatchLoop_eq (k : Nat) : ∀ (n : Nat) (a b : Key), a.length ≤ n → mismatchLoop (2 ^ k) (pows k) a b = mismatch a b := by
  intro n
  induction n using Nat.strongRecOn with
  | _ n ih =>
    intro a b hn
    have hpos := Nat.two_pow_pos k
    rw [mismatchLoop]
    by_cases hl : 2 ^ k ≤ min a.length b.length
    · rw [if_pos ⟨hl, hpos⟩, ih (n - 1) (by omega), chunk_step hl]
      rw [List.length_drop]; omega
    · rw [if_neg (fun h => hl h.1)]
      exact mismatchTail_eq k a b (by omega)

theorem mismatch64_eq (a b : Key) : mismatch64 a b = mismatch a b := mismatchLoop_eq 3 _ a b (Nat.le_refl _)
theorem mismatch32_eq (a b : Key) : mismatch32 a b = mismatch a b := mismatchLoop_eq 2 _ a b (Nat.le_refl _)

end Verif.Trie
