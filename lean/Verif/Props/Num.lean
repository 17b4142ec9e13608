import Verif.Lemmas.Num

/-!
# C31-C34: numeric arguments, sizes and ages
-/
namespace Verif.Props
open Verif.Num Verif.Time

/-! ## C31: numeric arguments parse to the number they denote -/

/-- A whole argument is accepted as a number, in base ten or less, exactly if it denotes one that fits
and that is not negative where this is not allowed. -/
theorem C31_int (base : Nat) (hb : 0 < base ∧ base ≤ 10) (size : IntSize) (unsigned : Bool) (str : Bytes) (v : Int) :
    parseInt str { base, size, unsigned } = .ok (v, []) ↔ Numeral base str v ∧ Fits size v ∧ (unsigned = true → 0 ≤ v) := by
  rw [parseInt_iff hb.2]
  have : base ≠ 0 := by omega
  simp only [if_neg this]
  constructor
  · rintro ⟨u, h1, h2, _, _, h5, h6⟩
    rw [List.append_nil] at h1
    subst h1
    exact ⟨h2, h6, h5⟩
  · rintro ⟨h1, h2, h3⟩
    exact ⟨str, by simp, h1, fun ⟨_, _, h, _⟩ => (by cases h), Or.inr trivial, h3, h2⟩

/-- Where more may follow the number, the number extends as far as there are digits. -/
theorem C31_prefix (base : Nat) (hb : 0 < base ∧ base ≤ 10) (size : IntSize) (unsigned : Bool) (str rest : Bytes) (v : Int) :
    parseInt str { base, size, unsigned, partialOk := true } = .ok (v, rest) ↔
      ∃ u, str = u ++ rest ∧ Numeral base u v ∧ (∀ c t, rest = c :: t → ¬ IsDigit base c) ∧ Fits size v ∧ (unsigned = true → 0 ≤ v) := by
  rw [parseInt_iff hb.2]
  have : base ≠ 0 := by omega
  simp only [if_neg this]
  constructor
  · rintro ⟨u, h1, h2, h3, _, h5, h6⟩
    exact ⟨u, h1, h2, fun c t h hd => h3 ⟨c, t, h, hd⟩, h6, h5⟩
  · rintro ⟨u, h1, h2, h3, h4, h5⟩
    exact ⟨u, h1, h2, fun ⟨c, t, h, hd⟩ => h3 c t h hd, Or.inl trivial, h5, h4⟩

/-- A base of zero means ten. -/
theorem C31_base (str : Bytes) (f : IntFlags) (h : f.base = 0) : parseInt str f = parseInt str { f with base := 10 } := by
  unfold parseInt
  simp [h]

/-- The message tells why: a number is too large exactly if the argument begins with one that does not
fit. -/
theorem C31_range (base : Nat) (hb : 0 < base ∧ base ≤ 10) (size : IntSize) (unsigned : Bool) (str : Bytes) (h : ∃ v, Numeral base str v) :
    parseInt str { base, size, unsigned } = .error .range ↔
      ∃ v, Numeral base str v ∧ ¬ Fits size v ∧ (unsigned = true → 0 ≤ v ∨ ¬ Fits .longLong v) := by
  have hb0 : base ≠ 0 := by omega
  have key : ∀ v, Numeral base str v → parseInt str { base, size, unsigned } =
      if v < LLONG_MIN ∨ v > LLONG_MAX then .error .range
      else if unsigned && v < 0 then .error .negative
      else storeInt size v [] := by
    intro v hv
    have := parseInt_numeral (f := { base, size, unsigned }) (rest := []) hb.2 (v := v) (u := str) (by simpa [hb0] using hv) (fun ⟨_, _, h, _⟩ => by cases h)
    rw [List.append_nil] at this
    rw [this]
    simp
  have hstore : ∀ v, ¬ (v < LLONG_MIN ∨ v > LLONG_MAX) → (storeInt size v [] = .error .range ↔ ¬ Fits size v) := by
    intro v hv
    cases hs : storeInt size v [] with
    | ok x =>
      have := (storeInt_ok (x := x.1) (r := x.2) hv).1 hs
      simp [this.2.2]
    | error e =>
      have h1 : ¬ Fits size v := by
        intro hf
        have := (storeInt_ok (x := v) (r := []) (rest := []) hv).2 ⟨rfl, rfl, hf⟩
        rw [hs] at this
        cases this
      have h2 : e = .range := by
        unfold storeInt at hs
        split at hs
        · split at hs
          · cases hs; rfl
          · cases hs
        · split at hs
          · cases hs; rfl
          · cases hs
        · cases hs
      simp [h1, h2]
  constructor
  · intro hr
    obtain ⟨v, hv⟩ := h
    rw [key v hv] at hr
    refine ⟨v, hv, ?_⟩
    by_cases h1 : v < LLONG_MIN ∨ v > LLONG_MAX
    · have h2 : ¬ Fits .longLong v := fun h => (fits_longLong v).1 h h1
      exact ⟨fun h => h2 h.longLong, fun _ => Or.inr h2⟩
    · rw [if_neg h1] at hr
      by_cases h2 : (unsigned && decide (v < 0)) = true
      · rw [if_pos h2] at hr; cases hr
      · rw [if_neg h2] at hr
        refine ⟨(hstore v h1).1 hr, fun hu => Or.inl ?_⟩
        rw [hu] at h2
        simpa using h2
  · rintro ⟨v, hv, h1, h2⟩
    rw [key v hv]
    by_cases h3 : v < LLONG_MIN ∨ v > LLONG_MAX
    · rw [if_pos h3]
    · rw [if_neg h3]
      have h4 : Fits .longLong v := (fits_longLong v).2 h3
      have h5 : ¬ (unsigned && decide (v < 0)) = true := by
        intro h5
        simp at h5
        rcases h2 h5.1 with h | h
        · omega
        · exact h h4
      rw [if_neg h5]
      exact (hstore v h3).2 h1

/-- Arguments of the form `N`, `+N` and `-N`. -/
theorem C31_icmp (str : Bytes) (cmp : Cmp) (v : Int) :
    parseIcmp str false = .ok (cmp, v, []) ↔ ∃ body, Signed str cmp body ∧ Numeral 10 body v ∧ 0 ≤ v ∧ v ≤ 2 ^ 63 - 1 := by
  rw [parseIcmp_iff]
  constructor
  · rintro ⟨t, h1, h2⟩
    rw [C31_base _ _ rfl] at h2
    obtain ⟨h3, h4, h5⟩ := (C31_int 10 (by decide) _ _ _ _).1 h2
    exact ⟨t, h1, h3, h5 rfl, h4.2⟩
  · rintro ⟨t, h1, h2, h3, h4⟩
    refine ⟨t, h1, ?_⟩
    rw [C31_base _ _ rfl]
    exact (C31_int 10 (by decide) _ _ _ _).2 ⟨h2, ⟨by omega, h4⟩, fun _ => h3⟩

theorem looks_digit {s : Bytes} {n : Nat} (h : Digits 10 s n) : ∃ c t, s = c :: t ∧ 48 ≤ c ∧ c ≤ 57 ∧ c ≠ 45 ∧ c ≠ 43 := by
  obtain ⟨c, t, h1, h2⟩ := h.cons
  refine ⟨c, t, h1, ?_, ?_, (not_sign h2).1, (not_sign h2).2⟩
  · exact h2.1
  · exact Nat.le_of_lt_succ h2.2

/-- Every such argument is recognised as a number, and not taken for the name of a user, of a group, or
for the next option. -/
theorem C31_looks (str : Bytes) (cmp : Cmp) (v : Int) (h : parseIcmp str false = .ok (cmp, v, [])) : looksLikeIcmp str = true := by
  obtain ⟨body, h1, h2, _, _⟩ := (C31_icmp str cmp v).1 h
  have hd : ∀ (s : Bytes) (n : Nat), Digits 10 s n → looksLikeIcmp s = true ∧ looksLikeIcmp (45 :: s) = true ∧ looksLikeIcmp (43 :: s) = true ∧
      looksLikeIcmp (45 :: 45 :: s) = true ∧ looksLikeIcmp (45 :: 43 :: s) = true ∧ looksLikeIcmp (43 :: 45 :: s) = true ∧ looksLikeIcmp (43 :: 43 :: s) = true := by
    intro s n h
    obtain ⟨c, t, rfl, h1, h2, h3, h4⟩ := looks_digit h
    cases t <;> simp [looksLikeIcmp, h1, h2, h3, h4]
  cases h2 with
  | plain hn =>
    have := hd _ _ hn
    cases h1 with
    | less => exact this.2.1
    | greater => exact this.2.2.1
    | equal => exact this.1
  | plus hn =>
    have := hd _ _ hn
    cases h1 with
    | less => exact this.2.2.2.2.1
    | greater => exact this.2.2.2.2.2.2
    | equal => exact this.2.2.1
  | minus hn =>
    have := hd _ _ hn
    cases h1 with
    | less => exact this.2.2.2.1
    | greater => exact this.2.2.2.2.2.1
    | equal => exact this.2.1

/-- `42` -/
example : Numeral 10 [52, 50] 42 := .plain (.more [52] 4 50 2 (.one 52 4 rfl (by decide)) rfl (by decide))
/-- `-maxdepth 42`, `-exit -1`, `-perm 644`, `-links +3`, ` 42`, `2147483648` -/
example : parseInt [52, 50] { size := .int, unsigned := true } = .ok (42, []) := rfl
example : parseInt [45, 49] { size := .int, unsigned := true } = .error .negative := rfl
example : parseInt [54, 52, 52] { base := 8, size := .int, unsigned := true } = .ok (420, []) := rfl
example : parseIcmp [43, 51] false = .ok (.gt, 3, []) := rfl
example : parseInt [32, 52, 50] { size := .int } = .error .bad := rfl
example : parseInt [50, 49, 52, 55, 52, 56, 51, 54, 52, 56] { size := .int } = .error .range := rfl

/-! ## C32: comparisons -/

/-- `-N`, `N` and `+N` are all accepted if `N` consists of digits and is not too large; a value passes
the first one if it is less than `N`, the second one if it is equal, the third one if it is greater; so
it passes exactly one of them. -/
theorem C32_partition (str : Bytes) (n : Nat) (h : Digits 10 str n) (hn : n ≤ 2 ^ 63 - 1) (x : Int) :
    ∃ lt eq gt, parseIcmp (45 :: str) false = .ok (lt, n, []) ∧ parseIcmp str false = .ok (eq, n, []) ∧ parseIcmp (43 :: str) false = .ok (gt, n, []) ∧
      (exprCmp lt n x = true ↔ x < n) ∧ (exprCmp eq n x = true ↔ x = n) ∧ (exprCmp gt n x = true ↔ n < x) ∧
      ((exprCmp lt n x = true ∧ exprCmp eq n x = false ∧ exprCmp gt n x = false) ∨ (exprCmp lt n x = false ∧ exprCmp eq n x = true ∧ exprCmp gt n x = false) ∨
        (exprCmp lt n x = false ∧ exprCmp eq n x = false ∧ exprCmp gt n x = true)) := by
  obtain ⟨c, t, hc, _, _, hc1, hc2⟩ := looks_digit h
  have h1 : (n : Int) ≤ 2 ^ 63 - 1 := by omega
  refine ⟨.lt, .eq, .gt, (C31_icmp _ _ _).2 ⟨str, .less str, .plain h, by omega, h1⟩, (C31_icmp _ _ _).2 ⟨str, .equal str ?_ ?_, .plain h, by omega, h1⟩,
    (C31_icmp _ _ _).2 ⟨str, .greater str, .plain h, by omega, h1⟩, ?_, ?_, ?_, ?_⟩
  · rintro t' rfl; exact hc1 (List.cons.inj hc).1.symm
  · rintro t' rfl; exact hc2 (List.cons.inj hc).1.symm
  · simp [exprCmp]
  · simp [exprCmp]
  · simp [exprCmp]
  · simp only [exprCmp, decide_eq_true_eq, decide_eq_false_iff_not]
    omega

example : Digits 10 [55] 7 := .one 55 7 rfl (by decide)

/-! ## C33: sizes -/

/-- The argument of `-size`: a number, and a unit. -/
theorem C33_argument (str : Bytes) (cmp : Cmp) (num : Int) (unit : SizeUnit) :
    parseSize str = some (cmp, num, unit) ↔
      ∃ body digits suffix, Signed str cmp body ∧ body = digits ++ suffix ∧ Numeral 10 digits num ∧ Suffix suffix unit ∧ 0 ≤ num ∧ num ≤ 2 ^ 63 - 1 := by
  have hu : ∀ s u, sizeUnit s = some u ↔ Suffix s u := by
    intro s u
    constructor
    · intro h
      unfold sizeUnit at h
      split at h <;> cases h <;> constructor
    · intro h
      cases h <;> rfl
  have hs : ∀ s u, Suffix s u → ¬ StartsDigit 10 s := by
    rintro s u h ⟨c, t, h1, h2⟩
    unfold IsDigit at h2
    cases h <;> cases h1 <;> simp at h2
  unfold parseSize
  constructor
  · intro h
    split at h
    · cases h
    · rename_i cmp' num' rest hp
      obtain ⟨t, h1, h2⟩ := (parseIcmp_iff _ _ _ _ _).1 hp
      cases hr : sizeUnit rest with
      | none => rw [hr] at h; cases h
      | some u =>
        rw [hr] at h
        cases h
        obtain ⟨n, d, rfl, h3, h4, h5, h6⟩ := (parseInt_duration _ _ _).1 h2
        exact ⟨t, d, rest, h1, h3, h4, (hu _ _).1 hr, by omega, by omega⟩
  · rintro ⟨body, digits, suffix, h1, h2, h3, h4, h5, h6⟩
    have hp : parseIcmp str true = .ok (cmp, num, suffix) := by
      refine (parseIcmp_iff _ _ _ _ _).2 ⟨body, h1, (parseInt_duration _ _ _).2 ⟨num.toNat, digits, by omega, h2, ?_, hs _ _ h4, by omega⟩⟩
      have : ((num.toNat : Nat) : Int) = num := by omega
      rw [this]; exact h3
    rw [hp]
    dsimp only
    rw [(hu _ _).2 h4]
    rfl

/-- The full statement would be that this holds for every size; what is missing are sizes so close to
2^63 that the rounding overflows (see `C33_overflow_counterexample`).  The size in units is the least
number of units that are as large as the file, and the test compares this number. -/
theorem C33_size_partial (size : Int) (unit : SizeUnit) (h0 : 0 ≤ size) (h1 : size + unit.inBytes ≤ LLONG_MAX) :
    ∃ n, (size ≤ n * unit.inBytes ∧ ∀ m : Int, size ≤ m * unit.inBytes → n ≤ m) ∧
      ∀ cmp num, evalSize cmp num unit size = .ok (exprCmp cmp num n) := by
  have hs : scale unit = unit.inBytes := by cases unit <;> decide
  have hpos : 0 < unit.inBytes := by cases unit <;> decide
  unfold LLONG_MAX at h1
  have hq : (size + unit.inBytes - 1).tdiv unit.inBytes = (size + unit.inBytes - 1) / unit.inBytes := Int.tdiv_eq_ediv_of_nonneg (by omega)
  have hn : sizeUnits size unit = .ok ((size + unit.inBytes - 1) / unit.inBytes) := by
    unfold sizeUnits
    rw [hs, i64_ok (by unfold LLONG_MIN LLONG_MAX; omega)]
    rw [Out.bind_ok, i64_ok (by unfold LLONG_MIN LLONG_MAX; omega), Out.bind_ok, hq]
    rfl
  refine ⟨(size + unit.inBytes - 1) / unit.inBytes, ⟨?_, ?_⟩, ?_⟩
  · have h2 := Int.emod_add_mul_ediv (size + unit.inBytes - 1) unit.inBytes
    have h3 := Int.emod_lt_of_pos (size + unit.inBytes - 1) hpos
    have h4 : (size + unit.inBytes - 1) / unit.inBytes * unit.inBytes = unit.inBytes * ((size + unit.inBytes - 1) / unit.inBytes) := Int.mul_comm _ _
    omega
  · intro m hm
    have : (size + unit.inBytes - 1) / unit.inBytes < m + 1 := by
      refine Int.ediv_lt_of_lt_mul hpos ?_
      have : (m + 1) * unit.inBytes = m * unit.inBytes + unit.inBytes := by rw [Int.add_mul, Int.one_mul]
      omega
    omega
  · intro cmp num
    unfold evalSize
    rw [hn]
    rfl

/-- The largest file, in pebibytes: signed overflow. -/
theorem C33_overflow_counterexample : evalSize .lt 1 .pb (2 ^ 63 - 1) = .ub := by decide

/-- `-sparse`: the file has fewer blocks than its size needs. -/
theorem C33_sparse_partial (size blocks : Int) (h0 : 0 ≤ size) (h1 : size + 512 ≤ LLONG_MAX) :
    evalSparse size blocks = .ok (decide (blocks * 512 < size)) := by
  unfold LLONG_MAX at h1
  unfold evalSparse
  rw [i64_ok (by unfold LLONG_MIN LLONG_MAX; omega), Out.bind_ok, i64_ok (by unfold LLONG_MIN LLONG_MAX; omega), Out.bind_ok]
  rw [Int.tdiv_eq_ediv_of_nonneg (by omega)]
  refine congrArg Out.ok ?_
  refine decide_eq_decide.2 ?_
  omega

/-- The bounds are sharp: beyond them the rounding is a signed overflow. -/
theorem C33_overflow_sharp (cmp : Cmp) (num size blocks : Int) (unit : SizeUnit) :
    (LLONG_MAX < size + unit.inBytes → evalSize cmp num unit size = .ub) ∧
    (LLONG_MAX < size + 512 → evalSparse size blocks = .ub) := by
  have hs : scale unit = unit.inBytes := by cases unit <;> decide
  constructor
  · intro h
    unfold evalSize sizeUnits
    rw [hs]
    have : i64 (size + unit.inBytes) = .ub := if_neg (fun hh => by have := hh.2; omega)
    rw [this]; rfl
  · intro h
    unfold evalSparse
    have : i64 (size + 512) = .ub := if_neg (fun hh => by have := hh.2; omega)
    rw [this]; rfl

example : evalSparse (2 ^ 63 - 100) 0 = .ub := (C33_overflow_sharp .eq 0 _ 0 .kb).2 (by decide)

example : evalSize .eq 2 .kb 1025 = .ok true := by decide
example : evalSize .eq 0 .pb 0 = .ok true := by decide
/-- `-size +1k` -/
example : parseSize [43, 49, 107] = some (.gt, 1, .kb) := rfl

/-! ## C34: ages -/

/-- The argument of `-mtime`: a number of days, or numbers with units.  Their sum is computed in 64 bits,
so it is exact if it is less than 2^63 (see also `C34_duration_counterexample`). -/
theorem C34_argument_partial (str : Bytes) (cmp : Cmp) (num : Int) (unit : TimeUnit) :
    parseTime str = some (cmp, num, unit) ↔
      ∃ body, Signed str cmp body ∧
        ((unit = .days ∧ Numeral 10 body num ∧ 0 ≤ num ∧ num ≤ 2 ^ 63 - 1) ∨
         (unit = .seconds ∧ ∃ total, Duration body total ∧ (total < 2 ^ 63 → num = total) ∧ (2 ^ 63 ≤ total → num = toI64 total))) := by
  have hn : ∀ (num : Int) (total : Nat), num = toI64 total ↔ (total < 2 ^ 63 → num = total) ∧ (2 ^ 63 ≤ total → num = toI64 total) := by
    intro num total
    by_cases h : total < 2 ^ 63
    · rw [toI64_small h]
      exact ⟨fun h => ⟨fun _ => h, fun h' => by omega⟩, fun ⟨h', _⟩ => h' h⟩
    · exact ⟨fun h' => ⟨fun h'' => absurd h'' h, fun _ => h'⟩, fun ⟨_, h'⟩ => h' (by omega)⟩
  unfold parseTime
  constructor
  · intro h
    split at h
    · cases h
    · rename_i cmp' num' tail hp
      obtain ⟨t, h1, h2⟩ := (parseIcmp_iff _ _ _ _ _).1 hp
      obtain ⟨n, d, rfl, h3, h4, h5, h6⟩ := (parseInt_duration _ _ _).1 h2
      by_cases ht : tail = []
      · rw [if_pos ht] at h
        cases h
        subst ht
        rw [List.append_nil] at h3
        subst h3
        exact ⟨_, h1, Or.inl ⟨rfl, h4, by omega, by omega⟩⟩
      · rw [if_neg ht] at h
        cases hl : timeLoop tail.length 0 (toU64 n) tail with
        | none => rw [hl] at h; cases h
        | some r =>
          rw [hl] at h
          cases h
          obtain ⟨total, h7, h8⟩ := (timeLoop_iff _ _ _ _ _ (Nat.le_refl _)).1 hl
          rw [toU64_nonneg (by omega)] at h7
          have hz : toU64 0 = 0 := rfl
          rw [hz, Nat.zero_add] at h8
          exact ⟨_, h1, Or.inr ⟨rfl, total, duration_remains.2 ⟨d, n, tail, h3, h4, h6, h7⟩, (hn _ _).1 h8⟩⟩
  · rintro ⟨body, h1, h⟩
    rcases h with ⟨rfl, h2, h3, h4⟩ | ⟨rfl, total, h2, h3⟩
    · have hp : parseIcmp str true = .ok (cmp, num, []) := by
        refine (parseIcmp_iff _ _ _ _ _).2 ⟨body, h1, (parseInt_duration _ _ _).2 ⟨num.toNat, body, by omega, by simp, ?_, fun ⟨_, _, h, _⟩ => (by cases h), by omega⟩⟩
        have : ((num.toNat : Nat) : Int) = num := by omega
        rw [this]; exact h2
      rw [hp]
      rfl
    · have h3 := (hn _ _).2 h3
      obtain ⟨d, n, tail, h4, h5, h6, h7⟩ := duration_remains.1 h2
      have hp : parseIcmp str true = .ok (cmp, n, tail) :=
        (parseIcmp_iff _ _ _ _ _).2 ⟨body, h1, (parseInt_duration _ _ _).2 ⟨n, d, rfl, h4, h5, h7.not_digit.1, h6⟩⟩
      rw [hp]
      dsimp only
      rw [if_neg h7.not_digit.2]
      have hl : timeLoop tail.length 0 (toU64 n) tail = some num := by
        refine (timeLoop_iff _ _ _ _ _ (Nat.le_refl _)).2 ⟨total, ?_, ?_⟩
        · rw [toU64_nonneg (by omega)]; exact h7
        · have hz : toU64 0 = 0 := rfl
          rw [hz, Nat.zero_add]; exact h3
      rw [hl]
      rfl

/-- `-mtime +9223372036854775807d` means more than −86400 seconds, so that it holds for all files that
are not from the future, although no file is so old. -/
theorem C34_duration_counterexample :
    parseTime (43 :: [57, 50, 50, 51, 51, 55, 50, 48, 51, 54, 56, 53, 52, 55, 55, 53, 56, 48, 55] ++ [100]) = some (.gt, -86400, .seconds) ∧
    evalTime .gt (-86400) .seconds ⟨1000, 0⟩ ⟨999, 0⟩ = .ok true := by decide

/-- How much later `a` is than `b`, in nanoseconds. -/
def later (a b : Timespec) : Int := (a.sec * 1000000000 + a.nsec) - (b.sec * 1000000000 + b.nsec)

/-- The fields of a time are in range: for the seconds, a quarter of what 64 bits can hold (2^61 seconds are
73 billion years). -/
def InRange (t : Timespec) : Prop := 0 ≤ t.nsec ∧ t.nsec < 1000000000 ∧ -2 ^ 61 < t.sec ∧ t.sec < 2 ^ 61

instance (t : Timespec) : Decidable (InRange t) := inferInstanceAs (Decidable (_ ∧ _))

theorem timespecDiff_eq (a b : Timespec) (ha : InRange a) (hb : InRange b) : timespecDiff a b = .ok (later a b / 1000000000) := by
  obtain ⟨a1, a2, a3, a4⟩ := ha
  obtain ⟨b1, b2, b3, b4⟩ := hb
  unfold timespecDiff Timespec.sub NS later
  rw [i64_ok (by unfold LLONG_MIN LLONG_MAX; omega), Out.bind_ok, i64_ok (by unfold LLONG_MIN LLONG_MAX; omega), Out.bind_ok]
  by_cases h : a.nsec - b.nsec < 0
  · rw [if_pos h, i64_ok (by unfold LLONG_MIN LLONG_MAX; omega)]
    simp only [Out.bind_ok, Out.pure_eq]
    refine congrArg Out.ok ?_
    omega
  · rw [if_neg h]
    simp only [Out.bind_ok, Out.pure_eq]
    refine congrArg Out.ok ?_
    omega

/-- The number that `-mtime` and the like compare is the age of the file in whole units, rounded down:
if it is `n`, then the file is at least `n`, but not yet `n + 1` units old. -/
theorem C34_age (reftime time : Timespec) (unit : TimeUnit) (hr : InRange reftime) (ht : InRange time) (h : 0 ≤ later reftime time) :
    ∃ n, (n * unit.nanos ≤ later reftime time ∧ later reftime time < (n + 1) * unit.nanos) ∧
      ∀ cmp num, evalTime cmp num unit reftime time = .ok (exprCmp cmp num n) := by
  generalize hl : later reftime time = l at h
  have hd := timespecDiff_eq reftime time hr ht
  rw [hl] at hd
  refine ⟨divUnit unit (l / 1000000000), ?_, ?_⟩
  · cases unit
    · simp only [divUnit, TimeUnit.nanos]; omega
    · simp only [divUnit, TimeUnit.nanos]
      rw [Int.tdiv_eq_ediv_of_nonneg (by omega)]
      omega
    · simp only [divUnit, TimeUnit.nanos]
      rw [Int.tdiv_eq_ediv_of_nonneg (a := l / 1000000000) (by omega), Int.tdiv_eq_ediv_of_nonneg (by omega)]
      omega
  · intro cmp num
    unfold evalTime timeUnits
    rw [hd]
    rfl

/-- A file from the future: the time until then is rounded up to whole seconds, and these down to whole
units. -/
theorem C34_future (reftime time : Timespec) (unit : TimeUnit) (hr : InRange reftime) (ht : InRange time) (h : later reftime time < 0) :
    ∃ s n, ((s - 1) * 1000000000 < later time reftime ∧ later time reftime ≤ s * 1000000000) ∧
      (n * unit.nanos ≤ s * 1000000000 ∧ s * 1000000000 < (n + 1) * unit.nanos) ∧
      ∀ cmp num, evalTime cmp num unit reftime time = .ok (exprCmp cmp num (-n)) := by
  have hneg : later time reftime = -later reftime time := by unfold later; omega
  rw [hneg]
  generalize hl : later reftime time = l at h
  have hd := timespecDiff_eq reftime time hr ht
  rw [hl] at hd
  obtain ⟨s, hs⟩ : ∃ s, l / 1000000000 = -s := ⟨-(l / 1000000000), by omega⟩
  rw [hs] at hd
  have hspos : 0 < s := by omega
  refine ⟨s, -divUnit unit (-s), by omega, ?_, ?_⟩
  · cases unit
    · simp only [divUnit, TimeUnit.nanos]; omega
    · simp only [divUnit, TimeUnit.nanos]
      rw [Int.neg_tdiv, Int.tdiv_eq_ediv_of_nonneg (by omega)]
      omega
    · simp only [divUnit, TimeUnit.nanos]
      rw [Int.neg_tdiv, Int.tdiv_eq_ediv_of_nonneg (a := s) (by omega), Int.neg_tdiv, Int.tdiv_eq_ediv_of_nonneg (by omega)]
      omega
  · intro cmp num
    unfold evalTime timeUnits
    rw [hd, Int.neg_neg]
    rfl

/-- `-newer`: the file is strictly later. -/
theorem C34_newer (reftime time : Timespec) (hr : InRange reftime) (ht : InRange time) : evalNewer reftime time = true ↔ 0 < later time reftime := by
  obtain ⟨a1, a2, a3, a4⟩ := hr
  obtain ⟨b1, b2, b3, b4⟩ := ht
  unfold evalNewer Timespec.cmp later
  by_cases h1 : time.sec < reftime.sec
  · rw [if_pos h1]; simp; omega
  · rw [if_neg h1]
    by_cases h2 : time.sec > reftime.sec
    · rw [if_pos h2]; simp; omega
    · rw [if_neg h2]
      by_cases h3 : time.nsec < reftime.nsec
      · rw [if_pos h3]; simp; omega
      · rw [if_neg h3]
        by_cases h4 : time.nsec > reftime.nsec
        · rw [if_pos h4]; simp; omega
        · rw [if_neg h4]; simp; omega

/-- `-used`: files whose status changed after they were last used never match; for others, the number
is that of days in between, whole seconds being rounded up. -/
theorem C34_used (atime ctime : Timespec) (ha : InRange atime) (hc : InRange ctime) :
    (later atime ctime < 0 → ∀ cmp num, evalUsed cmp num atime ctime = .ok false) ∧
    (0 ≤ later atime ctime → ∃ s n, (s * 1000000000 ≤ later atime ctime ∧ later atime ctime < (s + 1) * 1000000000) ∧ ((n - 1) * 86400 < s ∧ s ≤ n * 86400) ∧
      ∀ cmp num, evalUsed cmp num atime ctime = .ok (exprCmp cmp num n)) := by
  have hd := timespecDiff_eq atime ctime ha hc
  have hbound : later atime ctime / 1000000000 < 2 ^ 63 - 100000 := by
    obtain ⟨a1, a2, a3, a4⟩ := ha
    obtain ⟨b1, b2, b3, b4⟩ := hc
    unfold later
    omega
  generalize hl : later atime ctime = l at *
  constructor
  · intro h cmp num
    unfold evalUsed
    rw [hd, Out.bind_ok, if_pos (by omega)]
    rfl
  · intro h
    refine ⟨l / 1000000000, (l / 1000000000 + 86399) / 86400, by omega, by omega, ?_⟩
    intro cmp num
    unfold evalUsed usedDays
    rw [hd, Out.bind_ok, if_neg (by omega)]
    rw [i64_ok (by unfold LLONG_MIN LLONG_MAX; omega), Out.bind_ok, i64_ok (by unfold LLONG_MIN LLONG_MAX; omega), Out.bind_ok]
    rw [Int.tdiv_eq_ediv_of_nonneg (by omega)]
    have : (l / 1000000000 + 60 * 60 * 24 - 1) / (60 * 60 * 24) = (l / 1000000000 + 86399) / 86400 := by omega
    rw [this]
    rfl

/-- A file that is a day and a nanosecond old, or a nanosecond less than two days. -/
example : InRange ⟨1700000000, 5⟩ ∧ evalTime .eq 1 .days ⟨1700000000, 5⟩ ⟨1700000000 - 86400, 4⟩ = .ok true ∧
    evalTime .eq 1 .days ⟨1700000000, 5⟩ ⟨1700000000 - 172800, 6⟩ = .ok true ∧ evalTime .eq 1 .days ⟨1700000000, 5⟩ ⟨1700000000 - 172800, 5⟩ = .ok false := by decide
/-- Half a day in the future -/
example : evalTime .eq 0 .days ⟨1700000000, 5⟩ ⟨1700043200, 5⟩ = .ok true := by decide
/-- `-mtime -1h30m` -/
example : parseTime [45, 49, 104, 51, 48, 109] = some (.lt, 5400, .seconds) := by decide
example : Duration [49, 104, 51, 48, 109] (1 * 3600 + 30 * 60) :=
  .more (s := [49]) (.plain (.one 49 1 rfl (by decide))) (by decide) .hour
    (.last (s := [51, 48]) (.plain (.more [51] 3 48 0 (.one 51 3 rfl (by decide)) rfl (by decide))) (by decide) .minute)

end Verif.Props
