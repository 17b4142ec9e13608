import Verif.Spec.Num
/-! # Parsing numbers -/
namespace Verif.Num
open Verif.Time

/-- The value of digits after `acc`. -/
def val (base : Nat) (acc : Nat) (s : Bytes) : Nat := s.foldl (fun acc c => acc * base + (c.toNat - 48)) acc

theorem digit_some {base : Nat} {c : UInt8} (h : IsDigit base c) : digit base c = some (c.toNat - 48) := if_pos h
theorem digit_none {base : Nat} {c : UInt8} (h : ¬ IsDigit base c) : digit base c = none := if_neg h

theorem strtoDigits_stop {base : Nat} (acc : Nat) {rest : Bytes} (h : ¬ StartsDigit base rest) : strtoDigits base acc rest = (acc, rest) := by
  cases rest with
  | nil => rfl
  | cons c t =>
    rw [strtoDigits, digit_none (fun hc => h ⟨c, t, rfl, hc⟩)]

theorem strtoDigits_eq {base : Nat} : ∀ (u : Bytes) (acc : Nat) {rest : Bytes}, (∀ c ∈ u, IsDigit base c) → ¬ StartsDigit base rest →
    strtoDigits base acc (u ++ rest) = (val base acc u, rest)
  | [], acc, rest, _, h => strtoDigits_stop acc h
  | c :: u, acc, rest, hu, h => by
    rw [List.cons_append, strtoDigits, digit_some (hu c (by simp))]
    dsimp only
    rw [strtoDigits_eq u _ (fun x hx => hu x (by simp [hx])) h]
    rfl

/-- Every string begins with as many digits as possible. -/
theorem digits_prefix (base : Nat) : ∀ s : Bytes, ∃ u rest, s = u ++ rest ∧ (∀ c ∈ u, IsDigit base c) ∧ ¬ StartsDigit base rest
  | [] => ⟨[], [], rfl, by simp, fun ⟨_, _, h, _⟩ => by cases h⟩
  | c :: s => by
    by_cases h : IsDigit base c
    · obtain ⟨u, rest, h1, h2, h3⟩ := digits_prefix base s
      refine ⟨c :: u, rest, by rw [h1]; rfl, ?_, h3⟩
      intro x hx
      rcases List.mem_cons.1 hx with rfl | hx
      · exact h
      · exact h2 x hx
    · refine ⟨[], c :: s, rfl, by simp, ?_⟩
      rintro ⟨_, _, h', h''⟩
      cases h'
      exact h h''

theorem Digits.spec {base : Nat} {s : Bytes} {n : Nat} (h : Digits base s n) : s ≠ [] ∧ (∀ c ∈ s, IsDigit base c) ∧ n = val base 0 s := by
  induction h with
  | one c d h1 h2 =>
    refine ⟨by simp, ?_, ?_⟩
    · intro x hx
      rw [List.mem_singleton.1 hx]
      unfold IsDigit; omega
    · simp [val]; omega
  | more s n c d _ h1 h2 ih =>
    refine ⟨by simp, ?_, ?_⟩
    · intro x hx
      rcases List.mem_append.1 hx with hx | hx
      · exact ih.2.1 x hx
      · rw [List.mem_singleton.1 hx]
        unfold IsDigit; omega
    · unfold val
      rw [List.foldl_append]
      have := ih.2.2
      unfold val at this
      rw [← this]
      simp only [List.foldl_cons, List.foldl_nil]
      rw [Nat.mul_comm]
      omega

theorem digits_of {base : Nat} (s : Bytes) : s ≠ [] → (∀ c ∈ s, IsDigit base c) → Digits base s (val base 0 s) := by
  generalize hr : s.reverse = r
  induction r generalizing s with
  | nil =>
    intro h; exact absurd (by simpa using hr) h
  | cons c r ih =>
    intro _ h2
    have hs : s = r.reverse ++ [c] := by
      have := congrArg List.reverse hr
      simpa using this
    subst hs
    have hc := h2 c (by simp)
    unfold IsDigit at hc
    cases hr' : r.reverse with
    | nil =>
      simp only [List.nil_append]
      have : val base 0 [c] = c.toNat - 48 := by simp [val]
      rw [this]
      exact .one c _ (by omega) (by omega)
    | cons e t =>
      have h3 := ih r.reverse (by simp) (by rw [hr']; simp) (fun x hx => h2 x (by simp [hx]))
      have h4 := Digits.more _ _ c (c.toNat - 48) h3 (by omega) (by omega)
      rw [← hr']
      have : val base 0 (r.reverse ++ [c]) = base * val base 0 r.reverse + (c.toNat - 48) := by
        unfold val
        rw [List.foldl_append]
        simp only [List.foldl_cons, List.foldl_nil]
        rw [Nat.mul_comm]
      rw [this]
      exact h4

theorem Digits.cons {base : Nat} {s : Bytes} {n : Nat} (h : Digits base s n) : ∃ c t, s = c :: t ∧ IsDigit base c := by
  obtain ⟨h1, h2, _⟩ := h.spec
  cases s with
  | nil => exact absurd rfl h1
  | cons c t => exact ⟨c, t, rfl, h2 c (by simp)⟩

theorem not_space {base : Nat} (hb : base ≤ 10) {c : UInt8} (h : IsDigit base c) : isSpace c = false := by
  unfold IsDigit at h
  unfold isSpace
  have h1 : c ≠ 32 := by rintro rfl; simp at h
  have h2 : ¬ c ≤ 13 := by
    intro hc
    have : c.toNat ≤ 13 := hc
    omega
  simp [h1, h2]

theorem not_sign {base : Nat} {c : UInt8} (h : IsDigit base c) : c ≠ 45 ∧ c ≠ 43 := by
  unfold IsDigit at h
  constructor
  · rintro rfl; simp at h
  · rintro rfl; simp at h

theorem strtoSign_digit {base : Nat} {c : UInt8} (h : IsDigit base c) (t : Bytes) : strtoSign (c :: t) = (false, c :: t) := by
  obtain ⟨h1, h2⟩ := not_sign h
  unfold strtoSign
  split
  · rename_i h'; exact absurd (List.cons.inj h').1 h1
  · rename_i h'; exact absurd (List.cons.inj h').1 h2
  · rfl

/-- What is read from a string that begins with digits. -/
theorem strto_digits {base : Nat} {u : Bytes} {n : Nat} (h : Digits base u n) {rest : Bytes} (hr : ¬ StartsDigit base rest) :
    ∃ c t, u ++ rest = c :: t ∧ IsDigit base c ∧ strtoDigits base 0 (u ++ rest) = (n, rest) := by
  obtain ⟨h1, h2, h3⟩ := h.spec
  obtain ⟨c, t, hc, hd⟩ := h.cons
  refine ⟨c, t ++ rest, by rw [hc]; rfl, hd, ?_⟩
  rw [strtoDigits_eq u 0 h2 hr, h3]

theorem strtoll_numeral {base : Nat} (hb : base ≤ 10) {u rest : Bytes} {v : Int} (h : Numeral base u v) (hr : ¬ StartsDigit base rest) :
    strtoll base (u ++ rest) = clamp v rest := by
  cases h with
  | plain h =>
    obtain ⟨c, t, h1, h2, h3⟩ := strto_digits h hr
    unfold strtoll
    rw [h1, List.dropWhile_cons_of_neg (by rw [not_space hb h2]; simp), strtoSign_digit h2]
    dsimp only
    rw [digit_some h2, ← h1, h3]
    rfl
  | @plus s n h =>
    obtain ⟨c, t, h1, h2, h3⟩ := strto_digits h hr
    unfold strtoll
    rw [List.cons_append, h1, List.dropWhile_cons_of_neg (by decide)]
    have : strtoSign (43 :: c :: t) = (false, c :: t) := rfl
    rw [this]
    dsimp only
    rw [digit_some h2, ← h1, h3]
    rfl
  | @minus s n h =>
    obtain ⟨c, t, h1, h2, h3⟩ := strto_digits h hr
    unfold strtoll
    rw [List.cons_append, h1, List.dropWhile_cons_of_neg (by decide)]
    have : strtoSign (45 :: c :: t) = (true, c :: t) := rfl
    rw [this]
    dsimp only
    rw [digit_some h2, ← h1, h3]
    rfl

/-- A string begins with a numeral, or it does not. -/
theorem strtoll_none {base : Nat} {s : Bytes} (hs : xstrtoxPrologue s = true) (h : ∀ u rest v, s = u ++ rest → ¬ StartsDigit base rest → ¬ Numeral base u v) :
    strtoll base s = ⟨0, s, false⟩ := by
  have hdrop : s.dropWhile isSpace = s := by
    cases s with
    | nil => rfl
    | cons c t =>
      refine List.dropWhile_cons_of_neg ?_
      unfold xstrtoxPrologue at hs
      simp at hs
      simp [hs]
  unfold strtoll
  rw [hdrop]
  cases hg : strtoSign s with
  | mk neg s' =>
    dsimp only
    cases s' with
    | nil => rfl
    | cons c t =>
      dsimp only
      by_cases hc : IsDigit base c
      · exfalso
        obtain ⟨u, rest, h1, h2, h3⟩ := digits_prefix base (c :: t)
        have hu : u ≠ [] := by
          rintro rfl
          exact h3 ⟨c, t, h1.symm, hc⟩
        have hd := digits_of u hu h2
        unfold strtoSign at hg
        split at hg
        · cases hg
          exact h (45 :: u) rest _ (by rw [List.cons_append, ← h1]) h3 (.minus hd)
        · cases hg
          exact h (43 :: u) rest _ (by rw [List.cons_append, ← h1]) h3 (.plus hd)
        · cases hg
          exact h u rest _ h1 h3 (.plain hd)
      · rw [digit_none hc]
        rfl

theorem numeral_prologue {base : Nat} (hb : base ≤ 10) {u rest : Bytes} {v : Int} (h : Numeral base u v) : xstrtoxPrologue (u ++ rest) = true := by
  cases h with
  | plain h =>
    obtain ⟨c, t, rfl, h2⟩ := h.cons
    show (!isSpace c) = true
    rw [not_space hb h2]; rfl
  | plus h => rfl
  | minus h => rfl

theorem numeral_ne_nil {base : Nat} {u : Bytes} {v : Int} (h : Numeral base u v) : u ≠ [] := by
  cases h with
  | plain h => exact h.spec.1
  | plus h => simp
  | minus h => simp

/-- `parse_int()` when there is a number. -/
theorem parseInt_numeral {f : IntFlags} (hb : f.base ≤ 10) {u rest : Bytes} {v : Int} (h : Numeral (if f.base = 0 then 10 else f.base) u v)
    (hr : ¬ StartsDigit (if f.base = 0 then 10 else f.base) rest) :
    parseInt (u ++ rest) f =
      if v < LLONG_MIN ∨ v > LLONG_MAX then .error .range
      else if !f.partialOk && rest != [] then .error .bad
      else if f.unsigned && v < 0 then .error .negative
      else storeInt f.size v rest := by
  have hb' : (if f.base = 0 then 10 else f.base) ≤ 10 := by split <;> omega
  have hne := numeral_ne_nil h
  have hlen : rest.length ≠ (u ++ rest).length := by
    rw [List.length_append]
    have : u.length ≠ 0 := fun h => hne (List.eq_nil_of_length_eq_zero h)
    omega
  unfold parseInt xstrtoll
  rw [numeral_prologue hb' h]
  simp only [Bool.not_true, Bool.false_eq_true, if_false]
  rw [strtoll_numeral hb' h hr]
  unfold clamp
  by_cases h1 : v < LLONG_MIN
  · rw [if_pos h1, if_pos (Or.inl h1)]
    rfl
  · by_cases h2 : v > LLONG_MAX
    · rw [if_neg h1, if_pos h2, if_pos (Or.inr h2)]
      rfl
    · have h3 : ¬ (v < LLONG_MIN ∨ v > LLONG_MAX) := fun h => h.elim h1 h2
      rw [if_neg h1, if_neg h2, if_neg h3]
      simp only [Bool.false_and, Bool.or_false, decide_eq_true_eq, Bool.false_eq_true, if_false]
      rw [if_neg hlen]

/-- `parse_int()` when there is none. -/
theorem parseInt_none {f : IntFlags} {s : Bytes}
    (h : ∀ u rest v, s = u ++ rest → ¬ StartsDigit (if f.base = 0 then 10 else f.base) rest → ¬ Numeral (if f.base = 0 then 10 else f.base) u v) :
    parseInt s f = .error .bad := by
  unfold parseInt xstrtoll
  by_cases hs : xstrtoxPrologue s = true
  · rw [hs]
    simp only [Bool.not_true, Bool.false_eq_true, if_false]
    rw [strtoll_none hs h]
    simp
  · have hs : xstrtoxPrologue s = false := by simpa using hs
    rw [hs]
    rfl

theorem fits_longLong (v : Int) : Fits .longLong v ↔ ¬ (v < LLONG_MIN ∨ v > LLONG_MAX) := by
  unfold Fits LLONG_MIN LLONG_MAX
  dsimp only
  omega

theorem storeInt_ok {size : IntSize} {v x : Int} {rest r : Bytes} (h : ¬ (v < LLONG_MIN ∨ v > LLONG_MAX)) :
    storeInt size v rest = .ok (x, r) ↔ x = v ∧ r = rest ∧ Fits size v := by
  unfold storeInt Fits
  cases size with
  | int =>
    dsimp only
    have e1 : INT_MIN = -2147483648 := rfl
    have e2 : INT_MAX = 2147483647 := rfl
    by_cases h1 : v < INT_MIN ∨ v > INT_MAX
    · rw [if_pos h1]
      constructor
      · intro h; cases h
      · rintro ⟨_, _, h⟩; omega
    · rw [if_neg h1]
      constructor
      · intro h; cases h; exact ⟨rfl, rfl, by omega⟩
      · rintro ⟨rfl, rfl, _⟩; rfl
  | long =>
    dsimp only
    rw [if_neg h]
    unfold LLONG_MIN LLONG_MAX at h
    constructor
    · intro h; cases h; exact ⟨rfl, rfl, by omega⟩
    · rintro ⟨rfl, rfl, _⟩; rfl
  | longLong =>
    dsimp only
    unfold LLONG_MIN LLONG_MAX at h
    constructor
    · intro h; cases h; exact ⟨rfl, rfl, by omega⟩
    · rintro ⟨rfl, rfl, _⟩; rfl

theorem Fits.longLong {size : IntSize} {v : Int} (h : Fits size v) : Fits .longLong v := by
  unfold Fits at *
  cases size <;> dsimp only at * <;> omega

theorem parseInt_iff {f : IntFlags} (hb : f.base ≤ 10) (s : Bytes) (v : Int) (rest : Bytes) :
    parseInt s f = .ok (v, rest) ↔
      ∃ u, s = u ++ rest ∧ Numeral (if f.base = 0 then 10 else f.base) u v ∧ ¬ StartsDigit (if f.base = 0 then 10 else f.base) rest ∧
        (f.partialOk = true ∨ rest = []) ∧ (f.unsigned = true → 0 ≤ v) ∧ Fits f.size v := by
  constructor
  · intro h
    by_cases hd : ∃ u rest v, s = u ++ rest ∧ ¬ StartsDigit (if f.base = 0 then 10 else f.base) rest ∧ Numeral (if f.base = 0 then 10 else f.base) u v
    · obtain ⟨u, rest', v', rfl, h1, h2⟩ := hd
      rw [parseInt_numeral hb h2 h1] at h
      by_cases h3 : v' < LLONG_MIN ∨ v' > LLONG_MAX
      · rw [if_pos h3] at h; cases h
      · rw [if_neg h3] at h
        by_cases h4 : (!f.partialOk && rest' != []) = true
        · rw [if_pos h4] at h; cases h
        · rw [if_neg h4] at h
          by_cases h5 : (f.unsigned && decide (v' < 0)) = true
          · rw [if_pos h5] at h; cases h
          · rw [if_neg h5, storeInt_ok h3] at h
            obtain ⟨rfl, rfl, hf⟩ := h
            refine ⟨u, rfl, h2, h1, ?_, ?_, hf⟩
            · simp at h4
              cases hp : f.partialOk
              · exact Or.inr (h4 hp)
              · exact Or.inl rfl
            · intro hu
              rw [hu] at h5
              simp at h5
              exact h5
    · rw [parseInt_none (fun u rest v h1 h2 h3 => hd ⟨u, rest, v, h1, h2, h3⟩)] at h
      cases h
  · rintro ⟨u, rfl, h1, h2, h3, h4, h5⟩
    have h6 := (fits_longLong v).1 h5.longLong
    rw [parseInt_numeral hb h1 h2, if_neg h6, if_neg, if_neg, storeInt_ok h6]
    · exact ⟨rfl, rfl, h5⟩
    · simp
      exact h4
    · rcases h3 with h3 | h3
      · simp [h3]
      · simp [h3]

theorem icmpSign_iff (s : Bytes) (cmp : Cmp) (t : Bytes) : icmpSign s = (cmp, t) ↔ Signed s cmp t := by
  constructor
  · intro h
    unfold icmpSign at h
    split at h
    · cases h; exact .less _
    · cases h; exact .greater _
    · rename_i h1 h2
      cases h
      exact .equal _ h1 h2
  · intro h
    cases h with
    | less => rfl
    | greater => rfl
    | equal _ h1 h2 =>
      unfold icmpSign
      split
      · exact absurd rfl (h1 _)
      · exact absurd rfl (h2 _)
      · rfl

theorem parseIcmp_iff (s : Bytes) (p : Bool) (cmp : Cmp) (v : Int) (rest : Bytes) :
    parseIcmp s p = .ok (cmp, v, rest) ↔
      ∃ t, Signed s cmp t ∧ parseInt t { size := .longLong, unsigned := true, partialOk := p } = .ok (v, rest) := by
  unfold parseIcmp
  constructor
  · intro h
    cases hs : icmpSign s with
    | mk c t =>
      rw [hs] at h
      dsimp only at h
      split at h
      · rename_i n r hp
        cases h
        exact ⟨t, (icmpSign_iff _ _ _).1 hs, hp⟩
      · cases h
  · rintro ⟨t, h1, h2⟩
    rw [(icmpSign_iff _ _ _).2 h1]
    dsimp only
    rw [h2]

/-! ## Durations -/

theorem timeUnit_iff (c : UInt8) (k : Nat) : timeUnit c = some k ↔ Letter c k := by
  constructor
  · intro h
    unfold timeUnit at h
    split at h <;> cases h
    · exact .week
    · exact .day
    · exact .hour
    · exact .minute
    · exact .second
  · intro h
    cases h <;> rfl

theorem toI64_mod {a b : Nat} (h : a % 2 ^ 64 = b % 2 ^ 64) : toI64 a = toI64 b := by
  unfold toI64
  rw [h]

theorem toU64_toI64 (n : Nat) : toU64 (toI64 n) = n % 2 ^ 64 := by
  unfold toU64 toI64
  split <;> omega

theorem toU64_nonneg {n : Nat} (h : n < 2 ^ 64) : toU64 n = n := by
  unfold toU64; omega

theorem toI64_small {n : Nat} (h : n < 2 ^ 63) : toI64 n = n := by
  unfold toI64
  rw [Nat.mod_eq_of_lt (by omega), if_pos h]

/-- What remains of a duration after its first number. -/
def Remains (time : Nat) (tail : Bytes) (total : Nat) : Prop :=
  ∃ c k, Letter c k ∧ ((tail = [c] ∧ total = time * k) ∨ ∃ t rest, tail = c :: t ∧ Duration t rest ∧ total = time * k + rest)

theorem letter_not_digit {c : UInt8} {k : Nat} (h : Letter c k) (t : Bytes) : ¬ StartsDigit 10 (c :: t) := by
  rintro ⟨x, y, hx, hd⟩
  cases hx
  unfold IsDigit at hd
  cases h <;> simp at hd

theorem duration_remains {s : Bytes} {total : Nat} : Duration s total ↔
    ∃ (u : Bytes) (n : Nat) (tail : Bytes), s = u ++ tail ∧ Numeral 10 u n ∧ n ≤ 2 ^ 63 - 1 ∧ Remains n tail total := by
  constructor
  · intro h
    cases h with
    | last h1 h2 h3 => exact ⟨_, _, _, rfl, h1, h2, _, _, h3, Or.inl ⟨rfl, rfl⟩⟩
    | more h1 h2 h3 h4 => exact ⟨_, _, _, rfl, h1, h2, _, _, h3, Or.inr ⟨_, _, rfl, h4, rfl⟩⟩
  · rintro ⟨u, n, tail, rfl, h1, h2, c, k, h3, h⟩
    rcases h with ⟨rfl, rfl⟩ | ⟨t, rest, rfl, h4, rfl⟩
    · exact .last h1 h2 h3
    · exact .more h1 h2 h3 h4

theorem Remains.not_digit {n : Nat} {tail : Bytes} {total : Nat} (h : Remains n tail total) : ¬ StartsDigit 10 tail ∧ tail ≠ [] := by
  obtain ⟨c, k, h1, h⟩ := h
  rcases h with ⟨rfl, _⟩ | ⟨t, _, rfl, _⟩
  · exact ⟨letter_not_digit h1 _, by simp⟩
  · exact ⟨letter_not_digit h1 _, by simp⟩

theorem Duration.ne_nil {s : Bytes} {n : Nat} (h : Duration s n) : s ≠ [] := by
  cases h <;> simp

/-- Reading a number of a duration. -/
theorem parseInt_duration (s : Bytes) (time : Int) (tail : Bytes) :
    parseInt s { size := .longLong, unsigned := true, partialOk := true } = .ok (time, tail) ↔
      ∃ (n : Nat) (u : Bytes), time = n ∧ s = u ++ tail ∧ Numeral 10 u n ∧ ¬ StartsDigit 10 tail ∧ n ≤ 2 ^ 63 - 1 := by
  rw [parseInt_iff (by decide)]
  simp only [if_true]
  constructor
  · rintro ⟨u, h1, h2, h3, _, h5, h6⟩
    have h5 := h5 trivial
    unfold Fits at h6
    dsimp only at h6
    refine ⟨time.toNat, u, by omega, h1, ?_, h3, by omega⟩
    have : ((time.toNat : Nat) : Int) = time := by omega
    rw [this]; exact h2
  · rintro ⟨n, u, rfl, h1, h2, h3, h4⟩
    refine ⟨u, h1, h2, h3, Or.inl trivial, fun _ => by omega, ?_⟩
    unfold Fits
    dsimp only
    omega

theorem timeLoop_iff : ∀ (fuel : Nat) (num : Int) (time : Nat) (tail : Bytes) (r : Int), tail.length ≤ fuel →
    (timeLoop fuel num time tail = some r ↔ ∃ total, Remains time tail total ∧ r = toI64 (toU64 num + total))
  | 0, num, time, tail, r, h => by
    have : tail = [] := List.eq_nil_of_length_eq_zero (by omega)
    subst this
    constructor
    · intro h; cases h
    · rintro ⟨t, h1, _⟩
      exact absurd rfl h1.not_digit.2
  | fuel + 1, num, time, [], r, h => by
    constructor
    · intro h; cases h
    · rintro ⟨t, h1, _⟩
      exact absurd rfl h1.not_digit.2
  | fuel + 1, num, time, c :: tail, r, h => by
    rw [timeLoop]
    dsimp only
    cases hk : timeUnit c with
    | none =>
      constructor
      · intro h; cases h
      · rintro ⟨t, ⟨c', k, h1, h2⟩, _⟩
        have : c' = c := by
          rcases h2 with ⟨h2, _⟩ | ⟨_, _, h2, _⟩ <;> exact ((List.cons.inj h2).1).symm
        subst this
        rw [(timeUnit_iff _ _).2 h1] at hk
        cases hk
    | some k =>
      have hl := (timeUnit_iff _ _).1 hk
      have huniq : ∀ c' k', Letter c' k' → c' = c → k' = k := by
        rintro c' k' h' rfl
        have := (timeUnit_iff _ _).2 h'
        rw [hk] at this
        exact (Option.some.inj this).symm
      dsimp only
      cases tail with
      | nil =>
        dsimp only
        constructor
        · intro h
          refine ⟨time * k, ⟨c, k, hl, Or.inl ⟨rfl, rfl⟩⟩, ?_⟩
          rw [← Option.some.inj h]
          exact toI64_mod (by omega)
        · rintro ⟨t, ⟨c', k', h1, h2⟩, rfl⟩
          rcases h2 with ⟨h2, h3⟩ | ⟨t', _, h2, h3, _⟩
          · have := huniq c' k' h1 ((List.cons.inj h2).1).symm
            subst this
            rw [h3]
            exact congrArg some (toI64_mod (by omega))
          · have := (List.cons.inj h2).2
            exact absurd this.symm h3.ne_nil
      | cons e tail =>
        dsimp only
        constructor
        · intro h'
          split at h'
          · cases h'
          · rename_i time' tail' hp
            split at h'
            · cases h'
            · obtain ⟨n, u, rfl, h1, h2, h3, h4⟩ := (parseInt_duration _ _ _).1 hp
              have hlen : tail'.length ≤ fuel := by
                have := congrArg List.length h1
                rw [List.length_append] at this
                simp only [List.length_cons] at this h
                omega
              rw [timeLoop_iff fuel _ _ _ _ hlen] at h'
              obtain ⟨total, h5, rfl⟩ := h'
              rw [toU64_nonneg (by omega)] at h5
              refine ⟨time * k + total, ⟨c, k, hl, Or.inr ⟨_, total, rfl, duration_remains.2 ⟨u, n, tail', h1, h2, h4, h5⟩, rfl⟩⟩, ?_⟩
              rw [toU64_toI64]
              exact toI64_mod (by omega)
        · rintro ⟨total, ⟨c', k', h1, h2⟩, rfl⟩
          rcases h2 with ⟨h2, _⟩ | ⟨t', rest, h2, h3, h4⟩
          · have := (List.cons.inj h2).2
            cases this
          · have hk' := huniq c' k' h1 ((List.cons.inj h2).1).symm
            subst hk'
            have ht := (List.cons.inj h2).2
            subst ht
            obtain ⟨u, n, tail', h5, h6, h7, h8⟩ := duration_remains.1 h3
            have hp := (parseInt_duration (e :: tail) n tail').2 ⟨n, u, rfl, h5, h6, h8.not_digit.1, h7⟩
            rw [hp]
            dsimp only
            rw [if_neg h8.not_digit.2]
            have hlen : tail'.length ≤ fuel := by
              have := congrArg List.length h5
              rw [List.length_append] at this
              simp only [List.length_cons] at this h
              omega
            rw [timeLoop_iff fuel _ _ _ _ hlen]
            rw [toU64_nonneg (by omega)]
            refine ⟨rest, h8, ?_⟩
            rw [h4, toU64_toI64]
            exact toI64_mod (by omega)

end Verif.Num
