import Verif.Lemmas.Time
/-!
# C15, C17: calendar conversion and timespec arithmetic
-/
namespace Verif.Props
open Verif Verif.Time Verif.Spec.Time

/-- The instant named by a (possibly denormal) `struct tm`. -/
def tmSeconds (tm : Tm) : Int :=
  epochSeconds (1900 + tm.year) tm.mon tm.mday tm.hour tm.min tm.sec

/-- C15: whenever `xtimegm()` succeeds, the time it stores is exactly the number of
seconds since the epoch, for every combination of (even out-of-range) fields. -/
theorem C15_xtimegm_exact (tm tm' : Tm) (t : Int) (h : xtimegm tm = .ok (tm', t)) :
    t = tmSeconds tm := by
  unfold xtimegm at h
  simp only [Out.bind_eq_ok, i32_eq_ok, i64_eq_ok, Out.pure_eq, Out.ok.injEq, Prod.mk.injEq] at h
  obtain ⟨⟨s1, m1⟩, hw1, ⟨m2, h2⟩, hw2, ⟨h3, d3⟩, hw3, ⟨mo4, y4⟩, hw4, ⟨d5, mo5, y5⟩, h5, yd, hyd, yd',
    ⟨_, hyd'⟩, leap, hleap, y70, ⟨_, hy70⟩, ed, ⟨_, hed⟩, time, ⟨_, htime⟩, _, hteq⟩ := h
  simp only at hw2 hw3 hw4 h5 hyd hyd' hleap hy70 hed htime
  have hw1 := wrap_eq (by omega) hw1
  have hw2 := wrap_eq (by omega) hw2
  have hw3 := wrap_eq (by omega) hw3
  have hw4 := wrap_eq (by omega) hw4
  have h5' : dayNo y5 mo5 d5 = dayNo y4 mo4 d3 ∧ (0 ≤ mo5 ∧ mo5 < 12) ∧ 1 ≤ d5 ∧ d5 ≤ daysInMonth (1900 + y5) mo5 := by
    unfold wrapDays at h5; split at h5
    · exact backLoop_eq _ (by omega) h5
    · exact fwdLoop_eq _ (by omega) h5
  have hyd := ydayLoop_eq _ hyd
  have hleap := leapDays_eq hleap
  have e : dayNo y4 mo4 d3 = dayNo tm.year tm.mon d3 := by
    rw [hw4.1, hw4.2.1, dayNo_wrap]
  have hcf := yearDays_eq y5
  have hdays : ed = dayNo tm.year tm.mon d3 := by
    rw [← e, ← h5'.1]
    unfold dayNo
    unfold yearDays at hcf
    rw [show (0 : Int) + (mo5.toNat : Int) = mo5 by omega] at hyd
    rw [Int.add_zero] at hyd
    omega
  unfold tmSeconds epochSeconds
  unfold dayNo at hdays
  rw [show 12 * (1900 + tm.year - 1970) + tm.mon = 12 * (tm.year - 70) + tm.mon by omega]
  omega

/-- C15: on success the `struct tm` is rewritten to the unique normal form of the
same instant. -/
theorem C15_xtimegm_normalises (tm tm' : Tm) (t : Int) (h : xtimegm tm = .ok (tm', t)) :
    tmSeconds tm' = tmSeconds tm ∧
    (0 ≤ tm'.sec ∧ tm'.sec < 60) ∧ (0 ≤ tm'.min ∧ tm'.min < 60) ∧ (0 ≤ tm'.hour ∧ tm'.hour < 24) ∧
    (0 ≤ tm'.mon ∧ tm'.mon < 12) ∧ (1 ≤ tm'.mday ∧ tm'.mday ≤ daysInMonth (1900 + tm'.year) tm'.mon) ∧
    tm'.yday = daysToMonth (12 * (tm'.year - 70) + tm'.mon) - daysToMonth (12 * (tm'.year - 70)) + tm'.mday - 1 ∧
    tm'.wday = (t / 86400 + 4) % 7 := by
  have ht := C15_xtimegm_exact tm tm' t h
  unfold xtimegm at h
  simp only [Out.bind_eq_ok, i32_eq_ok, i64_eq_ok, Out.pure_eq, Out.ok.injEq, Prod.mk.injEq] at h
  obtain ⟨⟨s1, m1⟩, hw1, ⟨m2, h2⟩, hw2, ⟨h3, d3⟩, hw3, ⟨mo4, y4⟩, hw4, ⟨d5, mo5, y5⟩, h5, yd, hyd, yd',
    ⟨_, hyd'⟩, leap, hleap, y70, ⟨_, hy70⟩, ed, ⟨_, hed⟩, time, ⟨_, htime⟩, rfl, hteq⟩ := h
  simp only at hw2 hw3 hw4 h5 hyd hyd' hleap hy70 hed htime
  have hw1 := wrap_eq (by omega) hw1
  have hw2 := wrap_eq (by omega) hw2
  have hw3 := wrap_eq (by omega) hw3
  have hw4 := wrap_eq (by omega) hw4
  have h5' : dayNo y5 mo5 d5 = dayNo y4 mo4 d3 ∧ (0 ≤ mo5 ∧ mo5 < 12) ∧ 1 ≤ d5 ∧ d5 ≤ daysInMonth (1900 + y5) mo5 := by
    unfold wrapDays at h5; split at h5
    · exact backLoop_eq _ (by omega) h5
    · exact fwdLoop_eq _ (by omega) h5
  have hyd := ydayLoop_eq _ hyd
  have hleap := leapDays_eq hleap
  have hcf := yearDays_eq y5
  rw [show (0 : Int) + (mo5.toNat : Int) = mo5 by omega, Int.add_zero] at hyd
  have hdays : ed = dayNo y5 mo5 d5 := by
    unfold dayNo; unfold yearDays at hcf; omega
  refine ⟨?_, by simp only; omega, by simp only; omega, by simp only; omega, h5'.2.1, h5'.2.2, ?_, ?_⟩
  · rw [← ht]
    unfold tmSeconds epochSeconds
    unfold dayNo at hdays
    simp only
    rw [show 12 * (1900 + y5 - 1970) + mo5 = 12 * (y5 - 70) + mo5 by omega]
    omega
  · simp only; omega
  · simp only
    have : t / 86400 = ed := by omega
    rw [this]
    have hm := Int.tmod_eq_emod (a := ed + 4) (b := 7)
    split at hm <;> split <;> omega

/-- C15, partial: `xtimegm()` neither overflows nor reports an error as long as every field is
at most a billion in absolute value.

Missing: larger fields, for which it may overflow without reporting it, see `C15_xtimegm_ub_witness`. -/
theorem C15_xtimegm_total_partial (tm : Tm) (B : Int) (hB : B = 1000000000)
    (hs : -B ≤ tm.sec ∧ tm.sec ≤ B) (hm : -B ≤ tm.min ∧ tm.min ≤ B) (hh : -B ≤ tm.hour ∧ tm.hour ≤ B)
    (hd : -B ≤ tm.mday ∧ tm.mday ≤ B) (hmo : -B ≤ tm.mon ∧ tm.mon ≤ B) (hy : -B ≤ tm.year ∧ tm.year ≤ B) :
    ∃ tm', xtimegm tm = .ok (tm', tmSeconds tm) := by
  have key : ∃ r, xtimegm tm = .ok r := by
    subst hB
    unfold xtimegm
    rw [wrap_ok (by omega) (by omega) (by unfold INT_MIN INT_MAX; omega) (by unfold INT_MIN INT_MAX; omega)
        (by unfold INT_MIN INT_MAX; omega), Out.bind_ok]
    simp only
    rw [wrap_ok (by omega) (by omega) (by unfold INT_MIN INT_MAX; omega) (by unfold INT_MIN INT_MAX; omega)
        (by unfold INT_MIN INT_MAX; omega), Out.bind_ok]
    simp only
    rw [wrap_ok (by omega) (by omega) (by unfold INT_MIN INT_MAX; omega) (by unfold INT_MIN INT_MAX; omega)
        (by unfold INT_MIN INT_MAX; omega), Out.bind_ok]
    simp only
    rw [wrap_ok (by omega) (by omega) (by unfold INT_MIN INT_MAX; omega) (by unfold INT_MIN INT_MAX; omega)
        (by unfold INT_MIN INT_MAX; omega), Out.bind_ok]
    simp only
    generalize hD : tm.mday + (tm.hour + (tm.min + tm.sec / 60) / 60) / 24 = D
    generalize hY : tm.year + tm.mon / 12 = Y
    generalize hM : tm.mon % 12 = M
    have hloop : ∃ d' m' y', wrapDays D M Y
        = .ok (d', m', y') ∧ -1900000000 ≤ y' ∧ y' ≤ 1900000000 ∧ (0 ≤ m' ∧ m' < 12) ∧ 1 ≤ d' ∧ d' ≤ 31 := by
      unfold wrapDays; split
      · rename_i hlt
        obtain ⟨d', m', y', he, h1, h2⟩ := backLoop_ok (D.natAbs + 1) D M Y hlt (by omega) (by omega) (by omega)
          (by unfold INT_MIN; omega) (by omega)
        have := backLoop_eq _ hlt he
        have hb := daysInMonth_bounds (1900 + y') m'
        exact ⟨d', m', y', he, by omega, by omega, this.2.1, by omega, by omega⟩
      · rename_i hlt
        obtain ⟨d', m', y', he, h1, h2⟩ := fwdLoop_ok (D.natAbs + 1) D M Y (by omega) (by omega) (by omega) (by omega)
          (by unfold INT_MAX; omega) (by omega)
        have := fwdLoop_eq _ (by omega) he
        have hb := daysInMonth_bounds (1900 + y') m'
        exact ⟨d', m', y', he, by omega, by omega, this.2.1, by omega, by omega⟩
    obtain ⟨d', m', y', he, h1, h2, h3, h4, h5⟩ := hloop
    rw [he, Out.bind_ok]
    simp only
    obtain ⟨yd, hyd, h6, h7⟩ := ydayLoop_ok (y := y') (by unfold INT_MIN INT_MAX; omega) m'.toNat 0 0 (by omega)
      (by omega) (by omega) (by omega)
    rw [hyd, Out.bind_ok, i32_ok (by unfold INT_MIN INT_MAX; omega), Out.bind_ok,
      leapDays_ok (by unfold INT_MIN INT_MAX; omega), Out.bind_ok, i32_ok (by unfold INT_MIN INT_MAX; omega), Out.bind_ok,
      i64_ok (by unfold LLONG_MIN LLONG_MAX; omega), Out.bind_ok]
    rw [i64_ok (by unfold LLONG_MIN LLONG_MAX; omega), Out.bind_ok]
    exact ⟨_, rfl⟩
  obtain ⟨⟨tm', t⟩, hr⟩ := key
  exact ⟨tm', by rw [hr, C15_xtimegm_exact tm tm' t hr]⟩

-- hypotheses are satisfiable, with a denormal date: 2024-02-30T23:59:60Z = 2024-03-02T00:00:00Z
example : xtimegm { sec := 60, min := 59, hour := 23, mday := 30, mon := 1, year := 124 } =
    .ok ({ sec := 0, min := 0, hour := 0, mday := 2, mon := 2, year := 124, yday := 61, wday := 6 }, 1709337600) := by
  decide +kernel
-- the specification gives 2000-03-01 = day 11017, across a century leap day
example : epochSeconds 2000 2 1 0 0 0 = 11017 * 86400 := by decide +kernel

/-- C15 (finding): the fallback `xtimegm()` computes `carry * max` in `int`, which
overflows for seconds near `INT_MIN`; this is undefined behaviour, not `EOVERFLOW`. -/
theorem C15_xtimegm_ub_witness :
    xtimegm { sec := INT_MIN, min := 0, hour := 0, mday := 1, mon := 0, year := 70 } = .ub := by
  decide +kernel

/-! ### Timespecs -/

/-- The exact value of a timespec in nanoseconds. -/
def nanos (t : Timespec) : Int := t.sec * 1000000000 + t.nsec

/-- A normalised timespec whose seconds fit in 64 bits. -/
def TsNormal (t : Timespec) : Prop := 0 ≤ t.nsec ∧ t.nsec < 1000000000 ∧ LLONG_MIN ≤ t.sec ∧ t.sec ≤ LLONG_MAX

instance (t : Timespec) : Decidable (TsNormal t) := inferInstanceAs (Decidable (_ ∧ _))

/-- C17: addition is exact and stays normalised, whenever it is defined. -/
theorem C17_timespec_add (a b c : Timespec) (ha : TsNormal a) (hb : TsNormal b) (h : a.add b = .ok c) :
    nanos c = nanos a + nanos b ∧ TsNormal c := by
  unfold Timespec.add NS at h
  unfold TsNormal nanos at *
  simp only [Out.bind_eq_ok, i64_eq_ok] at h
  obtain ⟨s, ⟨_, hs⟩, n, ⟨_, hn⟩, h⟩ := h
  split at h
  · simp only [Out.bind_eq_ok, i64_eq_ok, Out.pure_eq, Out.ok.injEq] at h
    obtain ⟨s', ⟨_, hs'⟩, rfl⟩ := h
    simp only; omega
  · simp only [Out.pure_eq, Out.ok.injEq] at h
    subst h; simp only; omega

/-- C17: addition is defined whenever the seconds of the exact sum are representable, and not the least
number that is. -/
theorem C17_timespec_add_defined (a b : Timespec) (ha : TsNormal a) (hb : TsNormal b)
    (h : LLONG_MIN < (nanos a + nanos b) / 1000000000 ∧ (nanos a + nanos b) / 1000000000 ≤ LLONG_MAX) :
    ∃ c, a.add b = .ok c := by
  unfold Timespec.add NS
  unfold TsNormal at *
  unfold nanos at h
  unfold LLONG_MIN LLONG_MAX at *
  rw [i64_ok (by unfold LLONG_MIN LLONG_MAX; omega), Out.bind_ok, i64_ok (by unfold LLONG_MIN LLONG_MAX; omega), Out.bind_ok]
  split
  · rw [i64_ok (by unfold LLONG_MIN LLONG_MAX; omega), Out.bind_ok]; exact ⟨_, rfl⟩
  · exact ⟨_, rfl⟩

/-- C17: subtraction is exact and stays normalised, whenever it is defined. -/
theorem C17_timespec_sub (a b c : Timespec) (ha : TsNormal a) (hb : TsNormal b) (h : a.sub b = .ok c) :
    nanos c = nanos a - nanos b ∧ TsNormal c := by
  unfold Timespec.sub NS at h
  unfold TsNormal nanos at *
  simp only [Out.bind_eq_ok, i64_eq_ok] at h
  obtain ⟨s, ⟨_, hs⟩, n, ⟨_, hn⟩, h⟩ := h
  split at h
  · simp only [Out.bind_eq_ok, i64_eq_ok, Out.pure_eq, Out.ok.injEq] at h
    obtain ⟨s', ⟨_, hs'⟩, rfl⟩ := h
    simp only; omega
  · simp only [Out.pure_eq, Out.ok.injEq] at h
    subst h; simp only; omega

/-- C17: subtraction is defined whenever the seconds of the exact difference are representable, and not the
largest number that is. -/
theorem C17_timespec_sub_defined (a b : Timespec) (ha : TsNormal a) (hb : TsNormal b)
    (h : LLONG_MIN ≤ (nanos a - nanos b) / 1000000000 ∧ (nanos a - nanos b) / 1000000000 < LLONG_MAX) :
    ∃ c, a.sub b = .ok c := by
  unfold Timespec.sub NS
  unfold TsNormal at *
  unfold nanos at h
  unfold LLONG_MIN LLONG_MAX at *
  rw [i64_ok (by unfold LLONG_MIN LLONG_MAX; omega), Out.bind_ok, i64_ok (by unfold LLONG_MIN LLONG_MAX; omega), Out.bind_ok]
  split
  · rw [i64_ok (by unfold LLONG_MIN LLONG_MAX; omega), Out.bind_ok]; exact ⟨_, rfl⟩
  · exact ⟨_, rfl⟩

/-- C17: these bounds are sharp: at the ends of the range, the seconds overflow before the nanoseconds are
carried, although the exact result is representable. -/
theorem C17_timespec_sharp :
    (TsNormal ⟨LLONG_MIN, 999999999⟩ ∧ TsNormal ⟨-1, 1⟩ ∧ (nanos ⟨LLONG_MIN, 999999999⟩ + nanos ⟨-1, 1⟩) / 1000000000 = LLONG_MIN ∧
      Timespec.add ⟨LLONG_MIN, 999999999⟩ ⟨-1, 1⟩ = .ub) ∧
    (TsNormal ⟨LLONG_MAX, 0⟩ ∧ (nanos ⟨LLONG_MAX, 0⟩ - nanos ⟨-1, 1⟩) / 1000000000 = LLONG_MAX ∧
      Timespec.sub ⟨LLONG_MAX, 0⟩ ⟨-1, 1⟩ = .ub) := by
  decide +kernel

/-- C17: comparison has the sign of the exact difference, so it is a total order. -/
theorem C17_timespec_cmp (a b : Timespec) (ha : TsNormal a) (hb : TsNormal b) :
    (a.cmp b < 0 ↔ nanos a < nanos b) ∧ (a.cmp b = 0 ↔ a = b) ∧ (a.cmp b > 0 ↔ nanos a > nanos b) := by
  unfold Timespec.cmp
  unfold TsNormal nanos at *
  refine ⟨?_, ?_, ?_⟩
  · repeat' split
    all_goals omega
  · rcases a with ⟨s, n⟩; rcases b with ⟨s', n'⟩
    simp only [Timespec.mk.injEq] at *
    repeat' split
    all_goals omega
  · repeat' split
    all_goals omega

/-- C17: `timespec_min`/`timespec_max` return one of their arguments, with the
minimal/maximal exact value. -/
theorem C17_timespec_minmax (a b : Timespec) (ha : TsNormal a) (hb : TsNormal b) :
    nanos (a.tmin b) = min (nanos a) (nanos b) ∧ (a.tmin b = a ∨ a.tmin b = b) ∧
    nanos (a.tmax b) = max (nanos a) (nanos b) ∧ (a.tmax b = a ∨ a.tmax b = b) := by
  have h := C17_timespec_cmp b a hb ha
  unfold Timespec.tmin Timespec.tmax
  refine ⟨?_, ?_, ?_, ?_⟩
  · split <;> omega
  · split <;> simp
  · split <;> omega
  · split <;> simp

example : TsNormal ⟨5, 999999999⟩ ∧ TsNormal ⟨-3, 2⟩ ∧
    Timespec.add ⟨5, 999999999⟩ ⟨-3, 2⟩ = .ok ⟨3, 1⟩ ∧ Timespec.sub ⟨5, 1⟩ ⟨-3, 2⟩ = .ok ⟨7, 999999999⟩ := by
  refine ⟨?_, ?_, ?_, ?_⟩ <;> decide +kernel

end Verif.Props
