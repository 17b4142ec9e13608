import Verif.Model.Date
import Verif.Spec.Date
import Verif.Lemmas.Num
/-! # The timestamp parser and the grammar -/
namespace Verif.Date
open Verif.Num Verif.Time

theorem xgetdigit_digit {c : UInt8} (h : IsDigit 10 c) : xgetdigit c = (c.toNat : Int) - 48 := by
  unfold xgetdigit IsDigit at *
  dsimp only
  rw [if_neg (by omega)]

theorem xgetdigit_neg {c : UInt8} : xgetdigit c < 0 ↔ ¬ IsDigit 10 c := by
  unfold xgetdigit IsDigit
  dsimp only
  by_cases h : (c.toNat : Int) - 48 < 0 ∨ (c.toNat : Int) - 48 > 9
  · rw [if_pos h]; omega
  · rw [if_neg h]; omega

theorem part_iff : ∀ (n : Nat) (acc : Nat) (s : Bytes) (v : Int) (rest : Bytes),
    xgetpartFrom acc n s = some (v, rest) ↔ ∃ u, s = u ++ rest ∧ u.length = n ∧ (∀ c ∈ u, IsDigit 10 c) ∧ v = (val 10 acc u : Nat)
  | 0, acc, s, v, rest => by
    unfold xgetpartFrom
    constructor
    · intro h; injection h with h; injection h with h1 h2
      exact ⟨[], by simp [h2], rfl, by simp, by simp [val, ← h1]⟩
    · rintro ⟨u, h1, h2, _, h4⟩
      have : u = [] := List.eq_nil_of_length_eq_zero h2
      subst this
      simp [val] at h1 h4
      rw [h1, h4]
  | n + 1, acc, [], v, rest => by
    unfold xgetpartFrom
    constructor
    · intro h; cases h
    · rintro ⟨u, h1, h2, _⟩
      have := congrArg List.length h1
      simp at this
      omega
  | n + 1, acc, c :: s, v, rest => by
    unfold xgetpartFrom
    dsimp only
    by_cases hd : IsDigit 10 c
    · have hd' := hd
      unfold IsDigit at hd'
      rw [if_neg (fun h => xgetdigit_neg.1 h hd), xgetdigit_digit hd]
      have : (acc : Int) * 10 + ((c.toNat : Int) - 48) = ((acc * 10 + (c.toNat - 48) : Nat) : Int) := by omega
      rw [this, part_iff n]
      constructor
      · rintro ⟨u, h1, h2, h3, h4⟩
        refine ⟨c :: u, by simp [h1], by simp [h2], ?_, ?_⟩
        · intro x hx
          rcases List.mem_cons.1 hx with rfl | hx
          · exact hd
          · exact h3 x hx
        · rw [h4]; rfl
      · rintro ⟨u, h1, h2, h3, h4⟩
        cases u with
        | nil => simp at h2
        | cons x u =>
          simp at h1
          obtain ⟨rfl, h1⟩ := h1
          exact ⟨u, h1, by simpa using h2, fun y hy => h3 y (by simp [hy]), h4⟩
    · rw [if_pos (xgetdigit_neg.2 hd)]
      constructor
      · intro h; cases h
      · rintro ⟨u, h1, h2, h3, _⟩
        cases u with
        | nil => simp at h2
        | cons x u =>
          simp at h1
          obtain ⟨rfl, h1⟩ := h1
          exact absurd (h3 c (by simp)) hd

theorem getpart_iff {n : Nat} (hn : n ≠ 0) (s : Bytes) (v : Int) (rest : Bytes) :
    xgetpart s n = some (v, rest) ↔ ∃ (u : Bytes) (k : Nat), s = u ++ rest ∧ Digits 10 u k ∧ u.length = n ∧ v = k := by
  have := part_iff n 0 s v rest
  unfold xgetpart
  rw [show ((0 : Nat) : Int) = 0 from rfl] at this
  rw [this]
  constructor
  · rintro ⟨u, h1, h2, h3, h4⟩
    exact ⟨u, _, h1, digits_of u (by rintro rfl; exact hn h2.symm) h3, h2, h4⟩
  · rintro ⟨u, k, h1, h2, h3, h4⟩
    obtain ⟨_, h5, h6⟩ := h2.spec
    exact ⟨u, h1, h3, h5, by rw [h4, h6]⟩

theorem two_iff (s : Bytes) (v : Int) (rest : Bytes) : xgetpart s 2 = some (v, rest) ↔ ∃ (u : Bytes) (k : Nat), s = u ++ rest ∧ Two u k ∧ v = k := by
  rw [getpart_iff (by decide)]
  constructor
  · rintro ⟨u, k, h1, h2, h3, h4⟩; exact ⟨u, k, h1, ⟨h2, h3⟩, h4⟩
  · rintro ⟨u, k, h1, ⟨h2, h3⟩, h4⟩; exact ⟨u, k, h1, h2, h3, h4⟩

theorem four_iff (s : Bytes) (v : Int) (rest : Bytes) : xgetpart s 4 = some (v, rest) ↔ ∃ (u : Bytes) (k : Nat), s = u ++ rest ∧ Four u k ∧ v = k := by
  rw [getpart_iff (by decide)]
  constructor
  · rintro ⟨u, k, h1, h2, h3, h4⟩; exact ⟨u, k, h1, ⟨h2, h3⟩, h4⟩
  · rintro ⟨u, k, h1, ⟨h2, h3⟩, h4⟩; exact ⟨u, k, h1, h2, h3, h4⟩

theorem two_part {u : Bytes} {k : Nat} (h : Two u k) (rest : Bytes) : xgetpart (u ++ rest) 2 = some ((k : Int), rest) :=
  (two_iff _ _ _).2 ⟨u, k, rfl, h, rfl⟩

theorem two_cons {u : Bytes} {k : Nat} (h : Two u k) : ∃ c t, u = c :: t ∧ IsDigit 10 c := h.1.cons

theorem digit_ne {c : UInt8} (h : IsDigit 10 c) (x : UInt8) (hx : ¬ IsDigit 10 x) : c ≠ x := by
  rintro rfl; exact hx h

theorem skip_maybe {c : UInt8} (hc : ¬ IsDigit 10 c) {a : Bytes} (ha : Maybe c a) {u : Bytes} {k : Nat} (hu : Two u k) (rest : Bytes) :
    skip c (a ++ (u ++ rest)) = u ++ rest := by
  obtain ⟨x, t, rfl, hx⟩ := two_cons hu
  rcases ha with rfl | rfl
  · exact if_neg (digit_ne hx _ hc)
  · exact if_pos rfl

theorem skip_split (c : UInt8) (s : Bytes) : ∃ a, Maybe c a ∧ s = a ++ skip c s := by
  cases s with
  | nil => exact ⟨[], Or.inl rfl, rfl⟩
  | cons x s =>
    unfold skip
    dsimp only
    by_cases h : x = c
    · rw [if_pos h]; exact ⟨[c], Or.inr rfl, by simp [h]⟩
    · rw [if_neg h]; exact ⟨[], Or.inl rfl, rfl⟩

theorem nd45 : ¬ IsDigit 10 45 := by unfold IsDigit; decide
theorem nd58 : ¬ IsDigit 10 58 := by unfold IsDigit; decide
theorem nd84 : ¬ IsDigit 10 84 := by unfold IsDigit; decide
theorem nd32 : ¬ IsDigit 10 32 := by unfold IsDigit; decide
theorem nd90 : ¬ IsDigit 10 90 := by unfold IsDigit; decide
theorem nd43 : ¬ IsDigit 10 43 := by unfold IsDigit; decide

/-- The zone that the variables describe. -/
def zoneOf (v : Vars) : Option Int :=
  if v.loc then none else some (if v.tzNegative then -((v.tzHour * 60 + v.tzMin) * 60) else (v.tzHour * 60 + v.tzMin) * 60)

/-- Bounds that keep everything defined. -/
def Small (v : Vars) : Prop := (0 ≤ v.tzHour ∧ v.tzHour ≤ 99) ∧ (0 ≤ v.tzMin ∧ v.tzMin ≤ 99)

theorem digits_lt {u : Bytes} {k : Nat} (h : Digits 10 u k) : k < 10 ^ u.length := by
  induction h with
  | one c d h1 h2 => simpa using h2
  | more s n c d h h1 h2 ih =>
    rw [List.length_append, List.length_cons, List.length_nil, Nat.zero_add, Nat.pow_succ]
    omega

theorem two_lt {u : Bytes} {k : Nat} (h : Two u k) : k ≤ 99 := by
  have := digits_lt h.1
  rw [h.2] at this
  omega

theorem four_lt {u : Bytes} {k : Nat} (h : Four u k) : k ≤ 9999 := by
  have := digits_lt h.1
  rw [h.2] at this
  omega

theorem finished_some {v v' : Vars} {s : Bytes} : finished v s = some v' ↔ s = [] ∧ v' = v := by
  cases s with
  | nil => simp [finished, eq_comm]
  | cons c s => simp [finished]

theorem offset_iff (v v' : Vars) (h0 : v.tzMin = 0) (s : Bytes) : offset v s = some v' ↔
    (∃ n : Nat, Two s n ∧ v' = { v with tzHour := n }) ∨
    ∃ (h c m : Bytes) (n k : Nat), s = h ++ (c ++ m) ∧ Two h n ∧ Maybe 58 c ∧ Two m k ∧ v' = { v with tzHour := n, tzMin := k } := by
  unfold offset
  constructor
  · intro h
    split at h
    · cases h
    · rename_i hh hp
      injection h with h
      obtain ⟨u, k, h1, h2, h3⟩ := (two_iff _ _ _).1 hp
      rw [List.append_nil] at h1
      subst h1
      exact Or.inl ⟨k, h2, by rw [← h, h3]⟩
    · rename_i hh rest hne hp
      obtain ⟨u, n, h1, h2, h3⟩ := (two_iff _ _ _).1 hp
      unfold offsetMinutes at h
      split at h
      · cases h
      · rename_i mm rest' hm
        obtain ⟨u', k, h4, h5, h6⟩ := (two_iff _ _ _).1 hm
        obtain ⟨h7, h8⟩ := finished_some.1 h
        obtain ⟨a, h9, h10⟩ := skip_split 58 rest
        subst h7
        rw [List.append_nil] at h4
        exact Or.inr ⟨u, a, u', n, k, by rw [h1, h10, h4], h2, h9, h5, by rw [h8, h6, h3]⟩
  · rintro (⟨n, h1, h2⟩ | ⟨h, c, m, n, k, rfl, h2, h3, h4, h5⟩)
    · have := two_part h1 []
      rw [List.append_nil] at this
      rw [this, h2]
    · rw [two_part h2]
      have hne : c ++ m ≠ [] := by
        obtain ⟨x, t, rfl, _⟩ := two_cons h4
        simp
      have hsk := skip_maybe nd58 h3 h4 []
      simp only [List.append_nil] at hsk
      split
      · rename_i heq; cases heq
      · rename_i heq; injection heq with heq; injection heq with _ heq; exact absurd heq hne
      · rename_i heq
        injection heq with heq
        injection heq with e1 e2
        subst e1 e2
        rw [hsk]
        unfold offsetMinutes
        have := two_part h4 []
        rw [List.append_nil] at this
        rw [this, h5]
        rfl

theorem Small.ofParts {v : Vars} {n k : Nat} (h1 : n ≤ 99) (h2 : k ≤ 99) : Small { v with tzHour := n, tzMin := k } := by
  unfold Small
  dsimp only
  omega

/-- The variables before the zone. -/
def Local (v : Vars) : Prop := v.loc = true ∧ v.tzHour = 0 ∧ v.tzMin = 0

theorem zone_sound {v v' : Vars} (hv : Local v) {s : Bytes} (h : zone v s = some v') : Zone s (zoneOf v') ∧ v'.tm = v.tm ∧ Small v' := by
  obtain ⟨hl, hh, hm⟩ := hv
  unfold zone at h
  split at h
  · injection h with h
    subst h
    unfold zoneOf
    rw [if_pos hl]
    exact ⟨.loc, rfl, by unfold Small; omega⟩
  · obtain ⟨h1, h2⟩ := finished_some.1 h
    subst h1 h2
    refine ⟨?_, rfl, by unfold Small; dsimp only; omega⟩
    unfold zoneOf
    dsimp only
    rw [hh, hm]
    by_cases hn : v.tzNegative <;> simp [hn] <;> exact .utc
  · rcases (offset_iff { v with loc := false, tzNegative := false } _ hm _).1 h with ⟨n, h1, h2⟩ | ⟨u, c, m, n, k, h0, h1, h2, h3, h4⟩
    · subst h2
      have := two_lt h1
      refine ⟨?_, rfl, by unfold Small; dsimp only; omega⟩
      have : zoneOf { v with loc := false, tzNegative := false, tzHour := (n : Int) } = some (3600 * (n : Int)) := by
        unfold zoneOf; simp [hm]; omega
      rw [this]
      exact .eastHours h1
    · subst h4
      have := two_lt h1
      have := two_lt h3
      refine ⟨?_, rfl, by unfold Small; dsimp only; omega⟩
      have : zoneOf { v with loc := false, tzNegative := false, tzHour := (n : Int), tzMin := (k : Int) } = some (3600 * (n : Int) + 60 * k) := by
        unfold zoneOf; simp; omega
      rw [this, h0]
      exact .east h1 h2 h3
  · rcases (offset_iff { v with loc := false, tzNegative := true } _ hm _).1 h with ⟨n, h1, h2⟩ | ⟨u, c, m, n, k, h0, h1, h2, h3, h4⟩
    · subst h2
      have := two_lt h1
      refine ⟨?_, rfl, by unfold Small; dsimp only; omega⟩
      have : zoneOf { v with loc := false, tzNegative := true, tzHour := (n : Int) } = some (-(3600 * (n : Int))) := by
        unfold zoneOf; simp [hm]; omega
      rw [this]
      exact .westHours h1
    · subst h4
      have := two_lt h1
      have := two_lt h3
      refine ⟨?_, rfl, by unfold Small; dsimp only; omega⟩
      have : zoneOf { v with loc := false, tzNegative := true, tzHour := (n : Int), tzMin := (k : Int) } = some (-(3600 * (n : Int) + 60 * k)) := by
        unfold zoneOf; simp; omega
      rw [this, h0]
      exact .west h1 h2 h3
  · cases h

theorem zone_complete {v : Vars} (hv : Local v) {s : Bytes} {o : Option Int} (h : Zone s o) : ∃ v', zone v s = some v' ∧ v'.tm = v.tm ∧ zoneOf v' = o := by
  obtain ⟨hl, hh, hm⟩ := hv
  cases h with
  | loc => exact ⟨v, rfl, rfl, by unfold zoneOf; rw [if_pos hl]⟩
  | utc =>
    refine ⟨_, rfl, rfl, ?_⟩
    unfold zoneOf
    dsimp only
    rw [hh, hm]
    by_cases hn : v.tzNegative <;> simp [hn]
  | eastHours h1 =>
    rename_i h n
    exact ⟨_, (offset_iff { v with loc := false, tzNegative := false } _ hm _).2 (Or.inl ⟨_, h1, rfl⟩), rfl, by unfold zoneOf; simp [hm]; omega⟩
  | westHours h1 =>
    rename_i h n
    exact ⟨_, (offset_iff { v with loc := false, tzNegative := true } _ hm _).2 (Or.inl ⟨_, h1, rfl⟩), rfl, by unfold zoneOf; simp [hm]; omega⟩
  | east h1 h2 h3 =>
    rename_i h c m n k
    exact ⟨_, (offset_iff { v with loc := false, tzNegative := false } _ hm _).2 (Or.inr ⟨_, _, _, _, _, rfl, h1, h2, h3, rfl⟩), rfl, by unfold zoneOf; simp; omega⟩
  | west h1 h2 h3 =>
    rename_i h c m n k
    exact ⟨_, (offset_iff { v with loc := false, tzNegative := true } _ hm _).2 (Or.inr ⟨_, _, _, _, _, rfl, h1, h2, h3, rfl⟩), rfl, by unfold zoneOf; simp; omega⟩

/-- No zone begins with a digit or a colon. -/
theorem Zone.head {s : Bytes} {o : Option Int} (h : Zone s o) {c : UInt8} {t : Bytes} (hs : s = c :: t) : c ≠ 58 ∧ ¬ IsDigit 10 c := by
  cases h <;> simp at hs
  all_goals (obtain ⟨rfl, _⟩ := hs)
  · exact ⟨by decide, nd90⟩
  · exact ⟨by decide, nd43⟩
  · exact ⟨by decide, nd45⟩
  · exact ⟨by decide, nd43⟩
  · exact ⟨by decide, nd45⟩

/-- What remains after the minutes. -/
inductive AfterMinute : Bytes → Nat → Option Int → Prop
  | zone {z : Bytes} {o : Option Int} : Zone z o → AfterMinute z 0 o
  | second {d s z : Bytes} {ss : Nat} {o : Option Int} : Maybe 58 d → Two s ss → Zone z o → AfterMinute (d ++ (s ++ z)) ss o

inductive AfterHour : Bytes → Nat → Nat → Option Int → Prop
  | zone {z : Bytes} {o : Option Int} : Zone z o → AfterHour z 0 0 o
  | minute {c m r : Bytes} {mm ss : Nat} {o : Option Int} : Maybe 58 c → Two m mm → AfterMinute r ss o → AfterHour (c ++ (m ++ r)) mm ss o

theorem secondPart_sound {v v' : Vars} (hv : Local v) {s : Bytes} (h : secondPart v s = some v') :
    ∃ (u z : Bytes) (ss : Nat), s = u ++ z ∧ Two u ss ∧ Zone z (zoneOf v') ∧ v'.tm = { v.tm with sec := ss } ∧ Small v' := by
  unfold secondPart at h
  split at h
  · cases h
  · rename_i k z hp
    obtain ⟨u, ss, h1, h2, h3⟩ := (two_iff _ _ _).1 hp
    have hl : Local { v with tm := { v.tm with sec := k } } := hv
    obtain ⟨h4, h5, h6⟩ := zone_sound hl h
    exact ⟨u, z, ss, h1, h2, h4, by rw [h5, h3], h6⟩

theorem secondPart_complete {v : Vars} (hv : Local v) {u z : Bytes} {ss : Nat} {o : Option Int} (h1 : Two u ss) (h2 : Zone z o) :
    ∃ v', secondPart v (u ++ z) = some v' ∧ v'.tm = { v.tm with sec := ss } ∧ zoneOf v' = o := by
  unfold secondPart
  rw [two_part h1]
  have hl : Local { v with tm := { v.tm with sec := (ss : Int) } } := hv
  obtain ⟨v', h3, h4, h5⟩ := zone_complete hl h2
  exact ⟨v', h3, h4, h5⟩

theorem seconds_sound {v v' : Vars} (hv : Local v) (h0 : v.tm.sec = 0) {s : Bytes} (h : seconds v s = some v') :
    ∃ ss : Nat, AfterMinute s ss (zoneOf v') ∧ v'.tm = { v.tm with sec := ss } ∧ Small v' := by
  have hz : ∀ {s}, zone v s = some v' → ∃ ss : Nat, AfterMinute s ss (zoneOf v') ∧ v'.tm = { v.tm with sec := ss } ∧ Small v' := by
    intro s h
    obtain ⟨h1, h2, h3⟩ := zone_sound hv h
    refine ⟨0, .zone h1, ?_, h3⟩
    rw [h2]
    have : v.tm = { v.tm with sec := v.tm.sec } := rfl
    rw [h0] at this
    exact this
  cases s with
  | nil => exact hz h
  | cons c s =>
    unfold seconds at h
    dsimp only at h
    by_cases hc : c = 58
    · rw [if_pos hc] at h
      obtain ⟨u, z, ss, rfl, h2, h3, h4, h5⟩ := secondPart_sound hv h
      subst hc
      exact ⟨ss, .second (d := [58]) (Or.inr rfl) h2 h3, h4, h5⟩
    · rw [if_neg hc] at h
      by_cases hd : xgetdigit c < 0
      · rw [if_pos hd] at h; exact hz h
      · rw [if_neg hd] at h
        obtain ⟨u, z, ss, h1, h2, h3, h4, h5⟩ := secondPart_sound hv h
        rw [h1]
        exact ⟨ss, .second (d := []) (Or.inl rfl) h2 h3, h4, h5⟩

theorem seconds_complete {v : Vars} (hv : Local v) (h0 : v.tm.sec = 0) {s : Bytes} {ss : Nat} {o : Option Int} (h : AfterMinute s ss o) :
    ∃ v', seconds v s = some v' ∧ v'.tm = { v.tm with sec := ss } ∧ zoneOf v' = o := by
  cases h with
  | zone hz =>
    obtain ⟨v', h1, h2, h3⟩ := zone_complete hv hz
    have htm : v'.tm = { v.tm with sec := ((0 : Nat) : Int) } := by
      rw [h2]
      have : v.tm = { v.tm with sec := v.tm.sec } := rfl
      rw [h0] at this
      exact this
    refine ⟨v', ?_, htm, h3⟩
    cases s with
    | nil => exact h1
    | cons c s =>
      obtain ⟨h4, h5⟩ := hz.head rfl
      unfold seconds
      dsimp only
      rw [if_neg h4, if_pos (xgetdigit_neg.2 h5)]
      exact h1
  | second hd hs hz =>
    rename_i d u z
    obtain ⟨v', h1, h2, h3⟩ := secondPart_complete hv hs hz
    refine ⟨v', ?_, h2, h3⟩
    obtain ⟨x, t, rfl, hx⟩ := two_cons hs
    rcases hd with rfl | rfl
    · unfold seconds
      show (if x = 58 then _ else if xgetdigit x < 0 then _ else secondPart v (x :: (t ++ z))) = _
      rw [if_neg (digit_ne hx _ nd58), if_neg (fun h => xgetdigit_neg.1 h hx)]
      exact h1
    · exact h1

theorem minutePart_sound {v v' : Vars} (hv : Local v) (h0 : v.tm.sec = 0) {s : Bytes} (h : minutePart v s = some v') :
    ∃ (u r : Bytes) (mm ss : Nat), s = u ++ r ∧ Two u mm ∧ AfterMinute r ss (zoneOf v') ∧ v'.tm = { v.tm with min := mm, sec := ss } ∧ Small v' := by
  unfold minutePart at h
  split at h
  · cases h
  · rename_i k z hp
    obtain ⟨u, mm, h1, h2, h3⟩ := (two_iff _ _ _).1 hp
    have hl : Local { v with tm := { v.tm with min := k } } := hv
    obtain ⟨ss, h4, h5, h6⟩ := seconds_sound hl h0 h
    exact ⟨u, z, mm, ss, h1, h2, h4, by rw [h5, h3], h6⟩

theorem minutePart_complete {v : Vars} (hv : Local v) (h0 : v.tm.sec = 0) {u r : Bytes} {mm ss : Nat} {o : Option Int} (h1 : Two u mm) (h2 : AfterMinute r ss o) :
    ∃ v', minutePart v (u ++ r) = some v' ∧ v'.tm = { v.tm with min := mm, sec := ss } ∧ zoneOf v' = o := by
  unfold minutePart
  rw [two_part h1]
  have hl : Local { v with tm := { v.tm with min := (mm : Int) } } := hv
  obtain ⟨v', h3, h4, h5⟩ := seconds_complete hl h0 h2
  exact ⟨v', h3, h4, h5⟩

theorem minutes_sound {v v' : Vars} (hv : Local v) (h0 : v.tm.sec = 0) (h0' : v.tm.min = 0) {s : Bytes} (h : minutes v s = some v') :
    ∃ mm ss : Nat, AfterHour s mm ss (zoneOf v') ∧ v'.tm = { v.tm with min := mm, sec := ss } ∧ Small v' := by
  have hz : ∀ {s}, zone v s = some v' → ∃ mm ss : Nat, AfterHour s mm ss (zoneOf v') ∧ v'.tm = { v.tm with min := mm, sec := ss } ∧ Small v' := by
    intro s h
    obtain ⟨h1, h2, h3⟩ := zone_sound hv h
    refine ⟨0, 0, .zone h1, ?_, h3⟩
    rw [h2]
    have : v.tm = { v.tm with min := v.tm.min, sec := v.tm.sec } := rfl
    rw [h0, h0'] at this
    exact this
  cases s with
  | nil => exact hz h
  | cons c s =>
    unfold minutes at h
    dsimp only at h
    by_cases hc : c = 58
    · rw [if_pos hc] at h
      obtain ⟨u, z, mm, ss, rfl, h2, h3, h4, h5⟩ := minutePart_sound hv h0 h
      subst hc
      exact ⟨mm, ss, .minute (c := [58]) (Or.inr rfl) h2 h3, h4, h5⟩
    · rw [if_neg hc] at h
      by_cases hd : xgetdigit c < 0
      · rw [if_pos hd] at h; exact hz h
      · rw [if_neg hd] at h
        obtain ⟨u, z, mm, ss, h1, h2, h3, h4, h5⟩ := minutePart_sound hv h0 h
        rw [h1]
        exact ⟨mm, ss, .minute (c := []) (Or.inl rfl) h2 h3, h4, h5⟩

theorem minutes_complete {v : Vars} (hv : Local v) (h0 : v.tm.sec = 0) (h0' : v.tm.min = 0) {s : Bytes} {mm ss : Nat} {o : Option Int} (h : AfterHour s mm ss o) :
    ∃ v', minutes v s = some v' ∧ v'.tm = { v.tm with min := mm, sec := ss } ∧ zoneOf v' = o := by
  cases h with
  | zone hz =>
    obtain ⟨v', h1, h2, h3⟩ := zone_complete hv hz
    have htm : v'.tm = { v.tm with min := ((0 : Nat) : Int), sec := ((0 : Nat) : Int) } := by
      rw [h2]
      have : v.tm = { v.tm with min := v.tm.min, sec := v.tm.sec } := rfl
      rw [h0, h0'] at this
      exact this
    refine ⟨v', ?_, htm, h3⟩
    cases s with
    | nil => exact h1
    | cons c s =>
      obtain ⟨h4, h5⟩ := hz.head rfl
      unfold minutes
      dsimp only
      rw [if_neg h4, if_pos (xgetdigit_neg.2 h5)]
      exact h1
  | minute hd hs hz =>
    rename_i d u z
    obtain ⟨v', h1, h2, h3⟩ := minutePart_complete hv h0 hs hz
    refine ⟨v', ?_, h2, h3⟩
    obtain ⟨x, t, rfl, hx⟩ := two_cons hs
    rcases hd with rfl | rfl
    · unfold minutes
      show (if x = 58 then _ else if xgetdigit x < 0 then _ else minutePart v (x :: (t ++ z))) = _
      rw [if_neg (digit_ne hx _ nd58), if_neg (fun h => xgetdigit_neg.1 h hx)]
      exact h1
    · exact h1

theorem hourPart_sound {v v' : Vars} (hv : Local v) (h0 : v.tm.sec = 0) (h0' : v.tm.min = 0) {s : Bytes} (h : hourPart v s = some v') :
    ∃ (u r : Bytes) (hh mm ss : Nat), s = u ++ r ∧ Two u hh ∧ AfterHour r mm ss (zoneOf v') ∧ v'.tm = { v.tm with hour := hh, min := mm, sec := ss } ∧ Small v' := by
  unfold hourPart at h
  split at h
  · cases h
  · rename_i k z hp
    obtain ⟨u, hh, h1, h2, h3⟩ := (two_iff _ _ _).1 hp
    have hl : Local { v with tm := { v.tm with hour := k } } := hv
    obtain ⟨mm, ss, h4, h5, h6⟩ := minutes_sound hl h0 h0' h
    exact ⟨u, z, hh, mm, ss, h1, h2, h4, by rw [h5, h3], h6⟩

theorem hourPart_complete {v : Vars} (hv : Local v) (h0 : v.tm.sec = 0) (h0' : v.tm.min = 0) {u r : Bytes} {hh mm ss : Nat} {o : Option Int} (h1 : Two u hh) (h2 : AfterHour r mm ss o) :
    ∃ v', hourPart v (u ++ r) = some v' ∧ v'.tm = { v.tm with hour := hh, min := mm, sec := ss } ∧ zoneOf v' = o := by
  unfold hourPart
  rw [two_part h1]
  have hl : Local { v with tm := { v.tm with hour := (hh : Int) } } := hv
  obtain ⟨v', h3, h4, h5⟩ := minutes_complete hl h0 h0' h2
  exact ⟨v', h3, h4, h5⟩

theorem clock_of {t h r : Bytes} {hh mm ss : Nat} {o : Option Int} (ht : Maybe 84 t ∨ Maybe 32 t) (h1 : Two h hh) (h2 : AfterHour r mm ss o) :
    Clock (t ++ (h ++ r)) hh mm ss o := by
  cases h2 with
  | zone hz => exact .hour ht h1 hz
  | minute hc hm hr =>
    cases hr with
    | zone hz => exact .minute ht h1 hc hm hz
    | second hd hs hz => exact .second ht h1 hc hm hd hs hz

theorem clock_cases {s : Bytes} {hh mm ss : Nat} {o : Option Int} (h : Clock s hh mm ss o) :
    (s = [] ∧ hh = 0 ∧ mm = 0 ∧ ss = 0 ∧ o = none) ∨
    ∃ t h r, s = t ++ (h ++ r) ∧ (Maybe 84 t ∨ Maybe 32 t) ∧ Two h hh ∧ AfterHour r mm ss o := by
  cases h with
  | midnight => exact Or.inl ⟨rfl, rfl, rfl, rfl, rfl⟩
  | hour ht h1 hz => exact Or.inr ⟨_, _, _, rfl, ht, h1, .zone hz⟩
  | minute ht h1 hc hm hz => exact Or.inr ⟨_, _, _, rfl, ht, h1, .minute hc hm (.zone hz)⟩
  | second ht h1 hc hm hd hs hz => exact Or.inr ⟨_, _, _, rfl, ht, h1, .minute hc hm (.second hd hs hz)⟩

theorem time_sound {v v' : Vars} (hv : Local v) (h0 : v.tm.sec = 0) (h0' : v.tm.min = 0) (h0'' : v.tm.hour = 0) {s : Bytes} (h : time v s = some v') :
    ∃ hh mm ss : Nat, Clock s hh mm ss (zoneOf v') ∧ v'.tm = { v.tm with hour := hh, min := mm, sec := ss } ∧ Small v' := by
  cases s with
  | nil =>
    obtain ⟨h1, h2, h3⟩ := zone_sound (s := []) hv h
    have : v = v' := by injection h
    subst this
    refine ⟨0, 0, 0, ?_, ?_, h3⟩
    · have : zoneOf v = none := if_pos hv.1
      rw [this]; exact .midnight
    · have : v.tm = { v.tm with hour := v.tm.hour, min := v.tm.min, sec := v.tm.sec } := rfl
      rw [h0, h0', h0''] at this
      exact this
  | cons c s =>
    unfold time at h
    dsimp only at h
    by_cases hc : c = 84 ∨ c = 32
    · rw [if_pos hc] at h
      obtain ⟨u, r, hh, mm, ss, rfl, h2, h3, h4, h5⟩ := hourPart_sound hv h0 h0' h
      refine ⟨hh, mm, ss, ?_, h4, h5⟩
      rcases hc with rfl | rfl
      · exact clock_of (t := [84]) (Or.inl (Or.inr rfl)) h2 h3
      · exact clock_of (t := [32]) (Or.inr (Or.inr rfl)) h2 h3
    · rw [if_neg hc] at h
      obtain ⟨u, r, hh, mm, ss, h1, h2, h3, h4, h5⟩ := hourPart_sound hv h0 h0' h
      rw [h1]
      exact ⟨hh, mm, ss, clock_of (t := []) (Or.inl (Or.inl rfl)) h2 h3, h4, h5⟩

theorem time_complete {v : Vars} (hv : Local v) (h0 : v.tm.sec = 0) (h0' : v.tm.min = 0) (h0'' : v.tm.hour = 0) {s : Bytes} {hh mm ss : Nat} {o : Option Int}
    (h : Clock s hh mm ss o) : ∃ v', time v s = some v' ∧ v'.tm = { v.tm with hour := hh, min := mm, sec := ss } ∧ zoneOf v' = o := by
  rcases clock_cases h with ⟨rfl, rfl, rfl, rfl, rfl⟩ | ⟨t, u, r, rfl, ht, h1, h2⟩
  · refine ⟨v, rfl, ?_, if_pos hv.1⟩
    have : v.tm = { v.tm with hour := v.tm.hour, min := v.tm.min, sec := v.tm.sec } := rfl
    rw [h0, h0', h0''] at this
    exact this
  · obtain ⟨v', h3, h4, h5⟩ := hourPart_complete hv h0 h0' h1 h2
    refine ⟨v', ?_, h4, h5⟩
    obtain ⟨x, w, rfl, hx⟩ := two_cons h1
    have hne : ¬ (x = 84 ∨ x = 32) := by
      rintro (h | h)
      · exact digit_ne hx _ nd84 h
      · exact digit_ne hx _ nd32 h
    have hnil : time v ([] ++ ((x :: w) ++ r)) = some v' := by
      show (if x = 84 ∨ x = 32 then _ else hourPart v (x :: (w ++ r))) = _
      rw [if_neg hne]
      exact h3
    rcases ht with (rfl | rfl) | (rfl | rfl)
    · exact hnil
    · exact h3
    · exact hnil
    · exact h3

/-- The fields of a `struct tm` for a civil time. -/
def tmOf (c : Civil) : Tm :=
  { sec := c.second, min := c.minute, hour := c.hour, mday := c.day, mon := (c.month : Int) - 1, year := (c.year : Int) - 1900 }

theorem dateTime_sound {s : Bytes} {v : Vars} (h : dateTime s = some v) : ∃ c, Stamp s c (zoneOf v) ∧ v.tm = tmOf c ∧ Small v := by
  unfold dateTime at h
  split at h
  · cases h
  · rename_i y s1 hy
    split at h
    · cases h
    · rename_i m s2 hm
      split at h
      · cases h
      · rename_i d s3 hd
        obtain ⟨u1, k1, e1, f1, g1⟩ := (four_iff _ _ _).1 hy
        obtain ⟨u2, k2, e2, f2, g2⟩ := (two_iff _ _ _).1 hm
        obtain ⟨u3, k3, e3, f3, g3⟩ := (two_iff _ _ _).1 hd
        obtain ⟨a1, b1, c1⟩ := skip_split 45 s1
        obtain ⟨a2, b2, c2⟩ := skip_split 45 s2
        obtain ⟨hh, mm, ss, h1, h2, h3⟩ := time_sound ⟨rfl, rfl, rfl⟩ rfl rfl rfl h
        refine ⟨⟨k1, k2, k3, hh, mm, ss⟩, ?_, by rw [h2, g1, g2, g3]; rfl, h3⟩
        rw [e1, c1, e2, c2, e3]
        exact .mk f1 b1 f2 b2 f3 h1

theorem dateTime_complete {s : Bytes} {c : Civil} {o : Option Int} (h : Stamp s c o) : ∃ v, dateTime s = some v ∧ v.tm = tmOf c ∧ zoneOf v = o := by
  cases h with
  | mk hy ha hm hb hd ht =>
    rename_i y a m b d t
    have h1 : xgetpart (y ++ (a ++ (m ++ (b ++ (d ++ t))))) 4 = some ((c.year : Int), a ++ (m ++ (b ++ (d ++ t)))) := (four_iff _ _ _).2 ⟨_, _, rfl, hy, rfl⟩
    have h2 : xgetpart (skip 45 (a ++ (m ++ (b ++ (d ++ t))))) 2 = some ((c.month : Int), b ++ (d ++ t)) := by
      rw [skip_maybe nd45 ha hm]; exact two_part hm _
    have h3 : xgetpart (skip 45 (b ++ (d ++ t))) 2 = some ((c.day : Int), t) := by
      rw [skip_maybe nd45 hb hd]; exact two_part hd _
    unfold dateTime
    rw [h1]
    dsimp only
    rw [h2]
    dsimp only
    rw [h3]
    exact time_complete (v := { tm := { sec := 0, min := 0, hour := 0, mday := (c.day : Int), mon := (c.month : Int) - 1, year := (c.year : Int) - 1900 } })
      ⟨rfl, rfl, rfl⟩ rfl rfl rfl ht

theorem Stamp.bounds {s : Bytes} {c : Civil} {o : Option Int} (h : Stamp s c o) :
    c.year ≤ 9999 ∧ c.month ≤ 99 ∧ c.day ≤ 99 ∧ c.hour ≤ 99 ∧ c.minute ≤ 99 ∧ c.second ≤ 99 := by
  cases h with
  | mk hy ha hm hb hd ht =>
    refine ⟨four_lt hy, two_lt hm, two_lt hd, ?_⟩
    generalize c.hour = x at ht ⊢
    generalize c.minute = y at ht ⊢
    generalize c.second = z at ht ⊢
    cases ht with
    | midnight => omega
    | hour _ h1 _ => have := two_lt h1; omega
    | minute _ h1 _ h2 _ => have := two_lt h1; have := two_lt h2; omega
    | second _ h1 _ h2 _ h3 _ => have := two_lt h1; have := two_lt h2; have := two_lt h3; omega

end Verif.Date
