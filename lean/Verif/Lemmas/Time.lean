import Verif.Model.Time
import Verif.Spec.Time
namespace Verif.Time
open Verif.Spec.Time

theorem floorDiv_eq {n d r : Int} (hd : 0 < d) (h : floorDiv n d = .ok r) : r = n / d := by
  unfold floorDiv at h
  simp only [Out.bind_eq_ok, i32_eq_ok] at h
  obtain ⟨s, ⟨_, hs⟩, _, hr⟩ := h
  subst hs
  subst hr
  split
  · rename_i hn
    have h1 : (n + 1).tdiv d = -((-(n+1)) / d) := by
      rw [← Int.neg_neg (n+1), Int.neg_tdiv, Int.tdiv_eq_ediv_of_nonneg (by omega)]
      simp
    rw [h1]
    have e1 := Int.mul_ediv_add_emod (-(n+1)) d
    have e2 := Int.emod_nonneg (-(n+1)) (show d ≠ 0 by omega)
    have e3 := Int.emod_lt_of_pos (-(n+1)) hd
    generalize (-(n+1)) / d = q at *
    generalize (-(n+1)) % d = r at *
    symm
    refine ((Int.ediv_emod_unique (r := d - 1 - r) (q := -q - 1) hd).2 ⟨?_, by omega, by omega⟩).1
    rw [Int.mul_sub, Int.mul_neg, Int.mul_one]
    omega
  · rename_i hn
    rw [Int.tdiv_eq_ediv_of_nonneg (by omega)]; simp

theorem floorDiv_ok {n d : Int} (hd : 0 < d) (hn : INT_MIN ≤ n ∧ n ≤ INT_MAX) :
    floorDiv n d = .ok (n / d) := by
  have key : ∃ r, floorDiv n d = .ok r := by
    unfold floorDiv
    have b1 : i32 (n + if n < 0 then 1 else 0) = .ok (n + if n < 0 then 1 else 0) := by
      apply i32_ok; unfold INT_MIN INT_MAX at *; split <;> omega
    simp only [b1, Out.bind_ok]
    refine ⟨_, i32_ok ?_⟩
    have hb := Int.natAbs_tdiv (n + if n < 0 then 1 else 0) d
    have hle := Nat.div_le_self (n + if n < 0 then 1 else 0).natAbs d.natAbs
    have h3 : ((n + if n < 0 then 1 else 0).tdiv d).natAbs ≤ (n + if n < 0 then 1 else 0).natAbs := by
      rw [hb]; exact hle
    have hs : n < 0 → (n + if n < 0 then 1 else 0).tdiv d ≤ 0 := by
      intro hneg
      rw [if_pos hneg]
      rw [← Int.neg_neg (n+1), Int.neg_tdiv, Int.tdiv_eq_ediv_of_nonneg (by omega)]
      have := Int.ediv_nonneg (show 0 ≤ -(n+1) by omega) (Int.le_of_lt hd)
      omega
    unfold INT_MIN INT_MAX at *
    split <;> rename_i hlt <;> simp only [hlt, if_true, if_false] at h3 hs ⊢ <;> omega
  obtain ⟨r, hr⟩ := key
  rw [hr, floorDiv_eq hd hr]


theorem floorDiv_range {n d r : Int} (h : floorDiv n d = .ok r) : INT_MIN ≤ r ∧ r ≤ INT_MAX := by
  unfold floorDiv at h
  simp only [Out.bind_eq_ok, i32_eq_ok] at h
  obtain ⟨s, _, h2, hr⟩ := h
  omega

theorem safeAdd_eq {v d r : Int} (h : safeAdd v d = .ok r) : r = v + d ∧ INT_MIN ≤ r ∧ r ≤ INT_MAX := by
  unfold safeAdd at h
  split at h <;> simp only [Out.bind_eq_ok, i32_eq_ok] at h <;> obtain ⟨a, ⟨_, _⟩, h⟩ := h <;>
    split at h <;> simp_all [i32_eq_ok]

theorem safeAdd_ok {v d : Int} (hv : INT_MIN ≤ v ∧ v ≤ INT_MAX) (h : INT_MIN ≤ v + d ∧ v + d ≤ INT_MAX) :
    safeAdd v d = .ok (v + d) := by
  unfold safeAdd
  unfold INT_MIN INT_MAX at *
  split
  · rw [i32_ok (by unfold INT_MIN INT_MAX; omega), Out.bind_ok, if_neg (by omega),
      i32_ok (by unfold INT_MIN INT_MAX; omega)]
  · rw [i32_ok (by unfold INT_MIN INT_MAX; omega), Out.bind_ok, if_neg (by omega),
      i32_ok (by unfold INT_MIN INT_MAX; omega)]

theorem wrap_eq {v m n v' n' : Int} (hm : 0 < m) (h : wrap v m n = .ok (v', n')) :
    v' = v % m ∧ n' = n + v / m ∧ INT_MIN ≤ n' ∧ n' ≤ INT_MAX := by
  unfold wrap at h
  simp only [Out.bind_eq_ok, i32_eq_ok, Out.pure_eq] at h
  obtain ⟨c, hc, p, ⟨_, hp⟩, w, ⟨_, hw⟩, x, hx, he⟩ := h
  have := floorDiv_eq hm hc
  have hs := safeAdd_eq hx
  simp only [Out.ok.injEq, Prod.mk.injEq] at he
  obtain ⟨rfl, rfl⟩ := he
  subst hp hw this
  refine ⟨?_, hs.1, hs.2.1, hs.2.2⟩
  have := Int.mul_ediv_add_emod v m
  rw [Int.mul_comm] at this
  omega

theorem wrap_ok {v m n : Int} (hm : 0 < m) (hm' : m ≤ 1000) (hv : INT_MIN + 1000 ≤ v ∧ v ≤ INT_MAX)
    (hn : INT_MIN ≤ n ∧ n ≤ INT_MAX)
    (hs : INT_MIN ≤ n + v / m ∧ n + v / m ≤ INT_MAX) : wrap v m n = .ok (v % m, n + v / m) := by
  unfold wrap
  rw [floorDiv_ok hm (by unfold INT_MIN INT_MAX at *; omega)]
  have e := Int.mul_ediv_add_emod v m
  have e2 := Int.emod_nonneg v (show m ≠ 0 by omega)
  have e3 := Int.emod_lt_of_pos v hm
  rw [Int.mul_comm] at e
  simp only [Out.bind_ok, Out.pure_eq]
  rw [i32_ok (by unfold INT_MIN INT_MAX at *; omega)]
  simp only [Out.bind_ok]
  rw [i32_ok (by unfold INT_MIN INT_MAX at *; omega)]
  simp only [Out.bind_ok]
  rw [safeAdd_ok hn hs]
  simp only [Out.bind_ok, Out.ok.injEq, Prod.mk.injEq, and_true]
  omega

theorem tmod_eq_zero_iff (a : Int) {b : Int} : a.tmod b = 0 ↔ a % b = 0 := by
  rw [← Int.dvd_iff_tmod_eq_zero, ← Int.dvd_iff_emod_eq_zero]

theorem monthLength_cases (m : Int) (h : 0 ≤ m) (h' : m < 12) :
    m = 0 ∨ m = 1 ∨ m = 2 ∨ m = 3 ∨ m = 4 ∨ m = 5 ∨ m = 6 ∨ m = 7 ∨ m = 8 ∨ m = 9 ∨ m = 10 ∨ m = 11 := by
  omega

theorem monthLength_eq {y m r : Int} (h : monthLength y m = .ok r) :
    (0 ≤ m ∧ m < 12) ∧ r = daysInMonth (1900 + y) m := by
  unfold monthLength at h
  split at h
  case isFalse => simp at h
  rename_i hm0
  have hlt : m < 12 := by
    false_or_by_contra
    have : monthLengths[m.toNat]? = none := by
      apply List.getElem?_eq_none
      simp [monthLengths]; omega
    simp [this] at h
  refine ⟨⟨hm0, hlt⟩, ?_⟩
  have hc := monthLength_cases m hm0 hlt
  rcases hc with rfl | rfl | rfl | rfl | rfl | rfl | rfl | rfl | rfl | rfl | rfl | rfl <;>
    simp [monthLengths, daysInMonth] at h ⊢ <;> try omega
  split at h
  · rename_i h4
    rw [tmod_eq_zero_iff] at h4
    by_cases h100 : y % 100 = 0
    · rw [if_pos ((tmod_eq_zero_iff _).2 h100)] at h
      simp only [Out.bind_eq_ok, i32_eq_ok] at h
      obtain ⟨a, ⟨_, rfl⟩, h⟩ := h
      simp only [tmod_eq_zero_iff] at h
      split at h <;> rename_i h400 <;> simp only [Out.ok.injEq] at h
      · rw [if_pos (by unfold IsLeap; omega)]; omega
      · rw [if_neg (by unfold IsLeap; omega)]; omega
    · rw [if_neg (fun hh => h100 ((tmod_eq_zero_iff _).1 hh))] at h
      simp only [Out.ok.injEq] at h
      rw [if_pos (by unfold IsLeap; omega)]; omega
  · rename_i h4
    rw [tmod_eq_zero_iff] at h4
    simp only [Out.ok.injEq] at h
    rw [if_neg (by unfold IsLeap; omega)]; omega

theorem daysInMonth_bounds (y m : Int) : 28 ≤ daysInMonth y m ∧ daysInMonth y m ≤ 31 := by
  unfold daysInMonth; repeat' split
  all_goals omega

theorem monthLength_ok {y m : Int} (hm : 0 ≤ m ∧ m < 12) (hy : y ≤ INT_MAX - 300) (hy' : INT_MIN ≤ y) :
    monthLength y m = .ok (daysInMonth (1900 + y) m) := by
  have key : ∃ r, monthLength y m = .ok r := by
    unfold monthLength
    rw [if_pos hm.1]
    have : m.toNat < monthLengths.length := by simp [monthLengths]; omega
    rw [List.getElem?_eq_getElem this]
    simp only
    split
    · split
      · exact ⟨_, rfl⟩
      · rw [i32_ok (by unfold INT_MIN INT_MAX at *; omega), Out.bind_ok]
        split <;> exact ⟨_, rfl⟩
    · exact ⟨_, rfl⟩
  obtain ⟨r, hr⟩ := key
  rw [hr, (monthLength_eq hr).2]

/-! ### The month-sum specification as a recurrence -/

theorem daysToMonth_zero : daysToMonth 0 = 0 := rfl

theorem daysToMonth_succ (k : Int) : daysToMonth (k + 1) = daysToMonth k + monthLen k := by
  rcases k with n | n
  · have : (Int.ofNat n + 1) = Int.ofNat (n + 1) := rfl
    rw [this]
    unfold daysToMonth
    simp [List.range_succ]
  · rcases n with _ | n
    · have : (Int.negSucc 0 + 1) = Int.ofNat 0 := rfl
      rw [this]
      simp [daysToMonth, Int.negSucc_eq]
      omega
    · have : (Int.negSucc (n + 1) + 1) = Int.negSucc n := by omega
      rw [this]
      simp only [daysToMonth]
      rw [List.range_succ (n := n + 1)]
      simp only [List.map_append, List.map_cons, List.map_nil, List.sum_append, List.sum_cons, List.sum_nil]
      have : (-1 - ((n + 1 : Nat) : Int)) = Int.negSucc (n + 1) := by omega
      rw [this]
      omega


theorem monthLen_of (y m : Int) (hm : 0 ≤ m ∧ m < 12) :
    monthLen (12 * (y - 70) + m) = daysInMonth (1900 + y) m := by
  unfold monthLen
  have h1 : 1970 + (12 * (y - 70) + m) / 12 = 1900 + y := by omega
  have h2 : (12 * (y - 70) + m) % 12 = m := by omega
  rw [h1, h2]

/-- Days to 1 January of a year, in closed form. -/
def yearDays (y : Int) : Int :=
  365 * (y - 70) + ((y - 69) / 4 - (y - 1) / 100 + (y + 299) / 400)

theorem daysToMonth_add12 (y : Int) :
    daysToMonth (12 * (y + 1 - 70)) = daysToMonth (12 * (y - 70)) + (if IsLeap (1900 + y) then 366 else 365) := by
  have e : 12 * (y + 1 - 70) = 12 * (y - 70) + 0 + 1 + 1 + 1 + 1 + 1 + 1 + 1 + 1 + 1 + 1 + 1 + 1 := by omega
  rw [e]
  iterate 12 rw [daysToMonth_succ]
  rw [monthLen_of y 0 (by omega)]
  have hs : ∀ k : Int, 12 * (y - 70) + k + 1 = 12 * (y - 70) + (k + 1) := by intro k; omega
  simp only [hs]
  iterate 11 rw [monthLen_of y _ (by omega)]
  simp [daysInMonth]
  split <;> omega


theorem const_of_step (f : Int → Int) (h : ∀ y, f (y + 1) = f y) (y : Int) : f y = f 70 := by
  have hp : ∀ n : Nat, f (70 + n) = f 70 := by
    intro n
    induction n with
    | zero => simp
    | succ n ih => rw [← ih, ← h (70 + n)]; congr 1
  have hn : ∀ n : Nat, f (70 - n) = f 70 := by
    intro n
    induction n with
    | zero => simp
    | succ n ih => rw [← ih, ← h (70 - (n + 1 : Nat))]; congr 1; omega
  rcases Int.le_total 70 y with hy | hy
  · have := hp (y - 70).toNat
    rw [show (70 + ((y - 70).toNat : Int)) = y by omega] at this; exact this
  · have := hn (70 - y).toNat
    rw [show (70 - ((70 - y).toNat : Int)) = y by omega] at this; exact this

theorem yearDays_eq (y : Int) : daysToMonth (12 * (y - 70)) = yearDays y := by
  have := const_of_step (fun y => daysToMonth (12 * (y - 70)) - yearDays y) (by
    intro y
    simp only [daysToMonth_add12]
    by_cases hl : IsLeap (1900 + y)
    · rw [if_pos hl]; unfold IsLeap at hl; unfold yearDays; omega
    · rw [if_neg hl]; unfold IsLeap at hl; unfold yearDays; omega) y
  simp only [yearDays, Int.sub_self, Int.mul_zero, daysToMonth_zero] at this ⊢
  omega

theorem leapDays_eq {y r : Int} (h : leapDays y = .ok r) :
    r = (y - 69) / 4 - (y - 1) / 100 + (y + 299) / 400 := by
  unfold leapDays at h
  split at h <;> simp only [Out.bind_eq_ok, i32_eq_ok] at h <;>
    obtain ⟨a, ha, b, hb, c, hc, ab, ⟨_, hab⟩, abc, ⟨_, habc⟩, _, hr⟩ := h <;>
    have ha := floorDiv_eq (by omega) ha <;> have hb := floorDiv_eq (by omega) hb <;>
    have hc := floorDiv_eq (by omega) hc <;> omega

theorem leapDays_ok {y : Int} (h : INT_MIN ≤ y ∧ y ≤ INT_MAX) :
    leapDays y = .ok ((y - 69) / 4 - (y - 1) / 100 + (y + 299) / 400) := by
  have key : ∃ r, leapDays y = .ok r := by
    unfold leapDays
    unfold INT_MIN INT_MAX at h
    split
    · rw [floorDiv_ok (by omega) (by unfold INT_MIN INT_MAX; omega), Out.bind_ok,
        floorDiv_ok (by omega) (by unfold INT_MIN INT_MAX; omega), Out.bind_ok,
        floorDiv_ok (by omega) (by unfold INT_MIN INT_MAX; omega), Out.bind_ok,
        i32_ok (by unfold INT_MIN INT_MAX; omega), Out.bind_ok,
        i32_ok (by unfold INT_MIN INT_MAX; omega), Out.bind_ok,
        i32_ok (by unfold INT_MIN INT_MAX; omega)]
      exact ⟨_, rfl⟩
    · rw [floorDiv_ok (by omega) (by unfold INT_MIN INT_MAX; omega), Out.bind_ok,
        floorDiv_ok (by omega) (by unfold INT_MIN INT_MAX; omega), Out.bind_ok,
        floorDiv_ok (by omega) (by unfold INT_MIN INT_MAX; omega), Out.bind_ok,
        i32_ok (by unfold INT_MIN INT_MAX; omega), Out.bind_ok,
        i32_ok (by unfold INT_MIN INT_MAX; omega), Out.bind_ok,
        i32_ok (by unfold INT_MIN INT_MAX; omega)]
      exact ⟨_, rfl⟩
  obtain ⟨r, hr⟩ := key
  rw [hr, leapDays_eq hr]

/-- Day number of a possibly denormal (year since 1900, month, day of month). -/
def dayNo (y mon mday : Int) : Int := daysToMonth (12 * (y - 70) + mon) + (mday - 1)

theorem dayNo_wrap (y mon mday : Int) : dayNo (y + mon / 12) (mon % 12) mday = dayNo y mon mday := by
  unfold dayNo; congr 2; omega

theorem dayNo_next (y mon mday : Int) (h : 0 ≤ mon ∧ mon < 12) :
    dayNo y (mon + 1) mday = dayNo y mon (mday + daysInMonth (1900 + y) mon) := by
  unfold dayNo
  rw [← Int.add_assoc, daysToMonth_succ, monthLen_of y mon h]
  omega

theorem ydayLoop_eq {y : Int} (n : Nat) : ∀ {i acc r : Int}, ydayLoop y n i acc = .ok r →
    r = acc + (daysToMonth (12 * (y - 70) + (i + n)) - daysToMonth (12 * (y - 70) + i)) := by
  induction n with
  | zero => intro i acc r h; simp only [ydayLoop, Out.ok.injEq] at h; simp; omega
  | succ n ih =>
    intro i acc r h
    simp only [ydayLoop, Out.bind_eq_ok, i32_eq_ok] at h
    obtain ⟨len, hl, acc', ⟨_, ha⟩, h⟩ := h
    have hl := monthLength_eq hl
    have := ih h
    have e := daysToMonth_succ (12 * (y - 70) + i)
    rw [monthLen_of y i hl.1] at e
    rw [show 12 * (y - 70) + i + 1 = 12 * (y - 70) + (i + 1) by omega] at e
    rw [show (i + 1 + (n : Int)) = i + ((n + 1 : Nat) : Int) by omega] at this
    omega

theorem ydayLoop_ok {y : Int} (hy : INT_MIN ≤ y ∧ y ≤ INT_MAX - 300) (n : Nat) :
    ∀ (i acc : Int), 0 ≤ i → i + n ≤ 12 → 0 ≤ acc → acc + 31 * n ≤ 1000 →
      ∃ r, ydayLoop y n i acc = .ok r ∧ acc ≤ r ∧ r ≤ acc + 31 * n := by
  induction n with
  | zero => intro i acc _ _ _ _; exact ⟨acc, rfl, by omega, by omega⟩
  | succ n ih =>
    intro i acc h0 h1 h2 h3
    simp only [ydayLoop]
    have hb := daysInMonth_bounds (1900 + y) i
    rw [monthLength_ok (by omega) hy.2 hy.1, Out.bind_ok, i32_ok (by unfold INT_MIN INT_MAX; omega), Out.bind_ok]
    obtain ⟨r, hr, h5, h6⟩ := ih (i + 1) (acc + daysInMonth (1900 + y) i) (by omega) (by omega) (by omega) (by omega)
    exact ⟨r, hr, by omega, by omega⟩

theorem backLoop_eq (fuel : Nat) : ∀ {d m y d' m' y' : Int}, d < 1 →
    backLoop fuel d m y = .ok (d', m', y') →
    dayNo y' m' d' = dayNo y m d ∧ (0 ≤ m' ∧ m' < 12) ∧ 1 ≤ d' ∧ d' ≤ daysInMonth (1900 + y') m' := by
  induction fuel with
  | zero => intro d m y d' m' y' _ h; simp [backLoop] at h
  | succ n ih =>
    intro d m y d' m' y' hd h
    simp only [backLoop, Out.bind_eq_ok, i32_eq_ok] at h
    obtain ⟨m1, ⟨_, hm1⟩, ⟨m2, y2⟩, hw, len, hl, d2, ⟨_, hd2⟩, h⟩ := h
    have hw := wrap_eq (by omega) hw
    have hl := monthLength_eq hl
    have hday : dayNo y2 m2 d2 = dayNo y m d := by
      rw [hd2, hl.2, ← dayNo_next y2 m2 d hl.1]
      unfold dayNo; congr 2; omega
    split at h
    · rename_i hlt
      have := ih hlt h
      exact ⟨this.1.trans hday, this.2⟩
    · rename_i hge
      simp only [Out.pure_eq, Out.ok.injEq, Prod.mk.injEq] at h
      obtain ⟨rfl, rfl, rfl⟩ := h
      refine ⟨hday, hl.1, by omega, ?_⟩
      rw [← hl.2]; omega

theorem fwdLoop_eq (fuel : Nat) : ∀ {d m y d' m' y' : Int}, 1 ≤ d →
    fwdLoop fuel d m y = .ok (d', m', y') →
    dayNo y' m' d' = dayNo y m d ∧ (0 ≤ m' ∧ m' < 12) ∧ 1 ≤ d' ∧ d' ≤ daysInMonth (1900 + y') m' := by
  induction fuel with
  | zero => intro d m y d' m' y' _ h; simp [fwdLoop] at h
  | succ n ih =>
    intro d m y d' m' y' hd h
    simp only [fwdLoop, Out.bind_eq_ok] at h
    obtain ⟨len, hl, h⟩ := h
    have hl := monthLength_eq hl
    split at h
    · simp only [Out.pure_eq, Out.ok.injEq, Prod.mk.injEq] at h
      obtain ⟨rfl, rfl, rfl⟩ := h
      refine ⟨rfl, hl.1, by omega, by rw [← hl.2]; omega⟩
    · simp only [Out.bind_eq_ok, i32_eq_ok] at h
      obtain ⟨d1, ⟨_, hd1⟩, m1, ⟨_, hm1⟩, ⟨m2, y2⟩, hw, h⟩ := h
      have hw := wrap_eq (by omega) hw
      have := ih (by omega) h
      refine ⟨this.1.trans ?_, this.2⟩
      rw [hw.1, hw.2.1, dayNo_wrap, hm1, dayNo_next y m d1 hl.1]
      unfold dayNo; omega

theorem backLoop_ok (fuel : Nat) : ∀ (d m y : Int), d < 1 → -d < fuel → 0 ≤ m ∧ m < 12 →
    -20000000000 ≤ 12 * y + m + d → INT_MIN ≤ d → y ≤ 1900000000 →
    ∃ d' m' y', backLoop fuel d m y = .ok (d', m', y') ∧ -20000000000 ≤ 12 * y' + m' + d' ∧ y' ≤ 1900000000 := by
  induction fuel with
  | zero => intro d m y h1 h2; omega
  | succ n ih =>
    intro d m y h1 h2 h3 h4 h5 h6
    unfold INT_MIN at h5
    simp only [backLoop]
    rw [i32_ok (by unfold INT_MIN INT_MAX; omega), Out.bind_ok,
      wrap_ok (by omega) (by omega) (by unfold INT_MIN INT_MAX; omega) (by unfold INT_MIN INT_MAX; omega)
        (by unfold INT_MIN INT_MAX; omega), Out.bind_ok]
    simp only
    have hb := daysInMonth_bounds (1900 + (y + (m - 1) / 12)) ((m - 1) % 12)
    rw [monthLength_ok (by omega) (by unfold INT_MAX; omega) (by unfold INT_MIN; omega), Out.bind_ok,
      i32_ok (by unfold INT_MIN INT_MAX; omega), Out.bind_ok]
    split
    · exact ih _ _ _ (by omega) (by omega) (by omega) (by omega) (by unfold INT_MIN; omega) (by omega)
    · exact ⟨_, _, _, rfl, by omega, by omega⟩

theorem fwdLoop_ok (fuel : Nat) : ∀ (d m y : Int), 1 ≤ d → d ≤ fuel → 0 ≤ m ∧ m < 12 →
    12 * y + m + d ≤ 20000000000 → d ≤ INT_MAX → -1900000000 ≤ y →
    ∃ d' m' y', fwdLoop fuel d m y = .ok (d', m', y') ∧ 12 * y' + m' + d' ≤ 20000000000 ∧ -1900000000 ≤ y' := by
  induction fuel with
  | zero => intro d m y h1 h2; omega
  | succ n ih =>
    intro d m y h1 h2 h3 h4 h5 h6
    unfold INT_MAX at h5
    simp only [fwdLoop]
    have hb := daysInMonth_bounds (1900 + y) m
    rw [monthLength_ok (by omega) (by unfold INT_MAX; omega) (by unfold INT_MIN; omega), Out.bind_ok]
    split
    · exact ⟨_, _, _, rfl, by omega, by omega⟩
    · rw [i32_ok (by unfold INT_MIN INT_MAX; omega), Out.bind_ok, i32_ok (by unfold INT_MIN INT_MAX; omega), Out.bind_ok,
        wrap_ok (by omega) (by omega) (by unfold INT_MIN INT_MAX; omega) (by unfold INT_MIN INT_MAX; omega)
        (by unfold INT_MIN INT_MAX; omega), Out.bind_ok]
      simp only
      exact ih _ _ _ (by omega) (by omega) (by omega) (by omega) (by unfold INT_MAX; omega) (by omega)

end Verif.Time
