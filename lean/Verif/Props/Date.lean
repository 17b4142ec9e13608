import Verif.Lemmas.Date
import Verif.Props.Time
import Verif.Props.Num
/-!
# C16: timestamps

`xgetdate xmktime s` is `xgetdate()`; `xmktime` stands for the conversion from local time, about which nothing is assumed. `Stamp s c o` in `Spec/Date.lean` is the grammar: `s` names the civil time `c`, either local (`o = none`) or in a zone that is `o` seconds ahead of UTC. `epochSeconds` counts days and seconds in the Gregorian calendar.
-/
namespace Verif.Props
open Verif.Date Verif.Num Verif.Time Verif.Spec.Time

theorem daysToMonth_bounds (k : Int) : -31 * k.natAbs ≤ daysToMonth k ∧ daysToMonth k ≤ 31 * k.natAbs := by
  have hlen : ∀ k, 28 ≤ monthLen k ∧ monthLen k ≤ 31 := by
    intro k
    unfold monthLen daysInMonth
    split
    · split <;> omega
    · split <;> omega
  have hpos : ∀ n : Nat, -31 * (n : Int) ≤ daysToMonth n ∧ daysToMonth n ≤ 31 * n := by
    intro n
    induction n with
    | zero => decide
    | succ n ih =>
      have := daysToMonth_succ n
      have := hlen n
      push_cast at *
      omega
  have hneg : ∀ n : Nat, -31 * (n : Int) ≤ daysToMonth (-n) ∧ daysToMonth (-n) ≤ 31 * n := by
    intro n
    induction n with
    | zero => decide
    | succ n ih =>
      have h1 := daysToMonth_succ (-(n + 1 : Int))
      have := hlen (-(n + 1 : Int))
      rw [show -(n + 1 : Int) + 1 = -n by omega] at h1
      push_cast at *
      omega
  rcases Int.natAbs_eq k with h | h
  · have := hpos k.natAbs; rw [← h] at this; omega
  · have := hneg k.natAbs; rw [← h] at this; omega

theorem stamp_not_at {s : Bytes} {c : Civil} {o : Option Int} (h : Stamp s c o) : ∀ t, s ≠ 64 :: t := by
  intro t ht
  cases h with
  | mk hy _ _ _ _ _ =>
    obtain ⟨x, u, rfl, hx⟩ := hy.1.cons
    simp at ht
    rw [ht.1] at hx
    unfold IsDigit at hx
    simp at hx

theorem xgetdate_date (xmktime : Tm → Out Int) {s : Bytes} (h : ∀ t, s ≠ 64 :: t) :
    xgetdate xmktime s = match dateTime s with
      | none => .err "EINVAL"
      | some v => finish xmktime v := by
  unfold xgetdate
  split
  · exact absurd rfl (h _)
  · rfl

/-- A timestamp with a zone denotes the instant it names. -/
theorem C16_zoned (xmktime : Tm → Out Int) (s : Bytes) (c : Civil) (o : Int) (h : Stamp s c (some o)) :
    xgetdate xmktime s = .ok { sec := epochSeconds c.year (c.month - 1) c.day c.hour c.minute c.second - o, nsec := 0 } := by
  rw [xgetdate_date xmktime (stamp_not_at h)]
  obtain ⟨v, h1, h2, h3⟩ := dateTime_complete h
  obtain ⟨c', h4, h5, h6⟩ := dateTime_sound h1
  rw [h1]
  dsimp only
  obtain ⟨b1, b2, b3, b4, b5, b6⟩ := h.bounds
  have hl : ¬ (v.loc = true) := by
    intro hl
    unfold zoneOf at h3
    rw [if_pos hl] at h3
    cases h3
  unfold zoneOf at h3
  rw [if_neg hl] at h3
  injection h3 with h3
  obtain ⟨tm', ht⟩ := C15_xtimegm_total_partial (tmOf c) 1000000000 rfl (by unfold tmOf; dsimp only; omega) (by unfold tmOf; dsimp only; omega) (by unfold tmOf; dsimp only; omega)
    (by unfold tmOf; dsimp only; omega) (by unfold tmOf; dsimp only; omega) (by unfold tmOf; dsimp only; omega)
  have hsec : tmSeconds (tmOf c) = epochSeconds c.year (c.month - 1) c.day c.hour c.minute c.second := by
    unfold tmSeconds tmOf
    dsimp only
    congr 1
    omega
  rw [hsec] at ht
  unfold Small at h6
  unfold finish
  rw [if_neg hl, h2, ht, Out.bind_ok]
  dsimp only
  rw [i32_ok (by unfold INT_MIN INT_MAX; omega), Out.bind_ok]
  have hr : -400000000000 ≤ epochSeconds c.year (c.month - 1) c.day c.hour c.minute c.second ∧ epochSeconds c.year (c.month - 1) c.day c.hour c.minute c.second ≤ 400000000000 := by
    unfold epochSeconds
    generalize hk : 12 * ((c.year : Int) - 1970) + ((c.month : Int) - 1) = k
    have := daysToMonth_bounds k
    omega
  by_cases hn : v.tzNegative = true
  · rw [if_pos hn] at h3
    rw [if_pos hn, i64_ok (by unfold LLONG_MIN LLONG_MAX; omega), Out.bind_ok]
    show Out.ok _ = Out.ok _
    rw [← h3]
    congr 2
    omega
  · rw [if_neg hn] at h3
    rw [if_neg hn, i64_ok (by unfold LLONG_MIN LLONG_MAX; omega), Out.bind_ok]
    show Out.ok _ = Out.ok _
    rw [← h3]

/-- `2024-02-29T12:30:00+01:00` is 1709206200 seconds after the epoch. -/
def exStamp : Bytes := [50, 48, 50, 52, 45, 48, 50, 45, 50, 57, 84, 49, 50, 58, 51, 48, 58, 48, 48, 43, 48, 49, 58, 48, 48]

theorem exTwo (a b : UInt8) (x y : Nat) (h1 : a.toNat = 48 + x) (h2 : x < 10) (h3 : b.toNat = 48 + y) (h4 : y < 10) : Two [a, b] (10 * x + y) :=
  ⟨.more [a] x b y (.one a x h1 h2) h3 h4, rfl⟩

theorem exStamp_ok : Stamp exStamp ⟨2024, 2, 29, 12, 30, 0⟩ (some 3600) :=
  .mk (y := [50, 48, 50, 52]) (a := [45]) (m := [48, 50]) (b := [45]) (d := [50, 57]) (c := ⟨2024, 2, 29, 12, 30, 0⟩)
    ⟨Digits.more (base := 10) [50, 48, 50] 202 52 4 (Digits.more (base := 10) [50, 48] 20 50 2 (Digits.more (base := 10) [50] 2 48 0 (.one 50 2 (by decide) (by decide)) (by decide) (by decide)) (by decide) (by decide)) (by decide) (by decide), rfl⟩
    (Or.inr rfl) (exTwo 48 50 0 2 (by decide) (by decide) (by decide) (by decide)) (Or.inr rfl) (exTwo 50 57 2 9 (by decide) (by decide) (by decide) (by decide))
    (.second (t := [84]) (h := [49, 50]) (c := [58]) (m := [51, 48]) (d := [58]) (s := [48, 48]) (Or.inl (Or.inr rfl))
      (exTwo 49 50 1 2 (by decide) (by decide) (by decide) (by decide)) (Or.inr rfl) (exTwo 51 48 3 0 (by decide) (by decide) (by decide) (by decide)) (Or.inr rfl)
      (exTwo 48 48 0 0 (by decide) (by decide) (by decide) (by decide))
      (.east (h := [48, 49]) (c := [58]) (m := [48, 48]) (exTwo 48 49 0 1 (by decide) (by decide) (by decide) (by decide)) (Or.inr rfl)
        (exTwo 48 48 0 0 (by decide) (by decide) (by decide) (by decide))))

example : xgetdate (fun _ => .err "") exStamp = .ok { sec := 1709206200, nsec := 0 } := by decide +kernel

/-- A timestamp without a zone is left to the local time zone. -/
theorem C16_local (xmktime : Tm → Out Int) (s : Bytes) (c : Civil) (h : Stamp s c none) :
    xgetdate xmktime s =
      (xmktime { sec := c.second, min := c.minute, hour := c.hour, mday := c.day, mon := (c.month : Int) - 1, year := (c.year : Int) - 1900 }).bind
        fun sec => .ok { sec, nsec := 0 } := by
  rw [xgetdate_date xmktime (stamp_not_at h)]
  obtain ⟨v, h1, h2, h3⟩ := dateTime_complete h
  rw [h1]
  dsimp only
  have hl : v.loc = true := by
    refine Decidable.byContradiction fun hl => ?_
    unfold zoneOf at h3
    rw [if_neg hl] at h3
    cases h3
  unfold finish
  rw [if_pos hl, h2]
  rfl

/-- Everything else is invalid. -/
theorem C16_rejects (xmktime : Tm → Out Int) (s : Bytes) (hat : ∀ t, s ≠ 64 :: t) (h : ∀ c o, ¬ Stamp s c o) : xgetdate xmktime s = .err "EINVAL" := by
  rw [xgetdate_date xmktime hat]
  cases hd : dateTime s with
  | none => rfl
  | some v =>
    obtain ⟨c, h1, _⟩ := dateTime_sound hd
    exact absurd h1 (h c _)

/-- No string has two meanings. -/
theorem C16_unambiguous (s : Bytes) (c c' : Civil) (o o' : Option Int) (h : Stamp s c o) (h' : Stamp s c' o') : c = c' ∧ o = o' := by
  obtain ⟨v, h1, h2, h3⟩ := dateTime_complete h
  obtain ⟨v', h1', h2', h3'⟩ := dateTime_complete h'
  rw [h1] at h1'
  injection h1' with h1'
  subst h1'
  refine ⟨?_, by rw [← h3, ← h3']⟩
  rw [h2] at h2'
  unfold tmOf at h2'
  injection h2' with e1 e2 e3 e4 e5 e6
  obtain ⟨y, m, d, hh, mm, ss⟩ := c
  obtain ⟨y', m', d', hh', mm', ss'⟩ := c'
  dsimp only at *
  congr 1 <;> omega

/-- `@N`: the number of seconds since the epoch, if it fits. -/
theorem C16_epoch (xmktime : Tm → Out Int) (s : Bytes) (t : Timespec) :
    xgetdate xmktime (64 :: s) = .ok t ↔ ∃ v, Numeral 10 s v ∧ Fits .longLong v ∧ t = { sec := v, nsec := 0 } := by
  have hx : xgetdate xmktime (64 :: s) = epoch s := rfl
  rw [hx]
  have key : ∀ v rest, xstrtoll s true 10 = .ok (v, rest) ↔ parseInt s { base := 10, size := .longLong } = .ok (v, rest) := by
    intro v rest
    unfold parseInt xstrtoll
    by_cases h1 : (!xstrtoxPrologue s) = true
    · simp [h1]
    · simp only [h1, if_false, show (10 : Nat) ≠ 0 by decide]
      generalize strtoll 10 s = c
      obtain ⟨value, r, range⟩ := c
      cases range with
      | true => simp
      | false =>
        by_cases h2 : r.length = s.length
        · simp [h2]
        · by_cases h3 : r = []
          · subst h3
            have h4 : ¬ 0 = s.length := h2
            simp [h4, storeInt]
          · simp [h3, h2]
  unfold epoch
  constructor
  · intro h
    cases hp : xstrtoll s true 10 with
    | error e => rw [hp] at h; cases e <;> cases h
    | ok r =>
      obtain ⟨v, rest⟩ := r
      rw [hp] at h
      have h2 := (key v rest).1 hp
      have hrest := (parseInt_iff (f := { base := 10, size := .longLong }) (by decide) _ _ _).1 h2
      obtain ⟨_, _, _, _, h5, _⟩ := hrest
      have hr : rest = [] := by simpa using h5
      subst hr
      obtain ⟨h3, h4, _⟩ := (C31_int 10 (by decide) _ _ _ _).1 h2
      injection h with h
      exact ⟨v, h3, h4, h.symm⟩
  · rintro ⟨v, h1, h2, rfl⟩
    have := (key v []).2 ((C31_int 10 (by decide) .longLong false s v).2 ⟨h1, h2, fun h => by cases h⟩)
    rw [this]

/-- It is never undefined. -/
theorem C16_defined (xmktime : Tm → Out Int) (hm : ∀ tm, xmktime tm ≠ .ub) (s : Bytes) : xgetdate xmktime s ≠ .ub := by
  by_cases hat : ∃ t, s = 64 :: t
  · obtain ⟨t, rfl⟩ := hat
    show epoch t ≠ .ub
    unfold epoch
    split <;> simp
  · have hat' : ∀ t, s ≠ 64 :: t := fun t ht => hat ⟨t, ht⟩
    cases hd : dateTime s with
    | none => rw [xgetdate_date xmktime hat', hd]; simp
    | some v =>
      obtain ⟨c, h1, _⟩ := dateTime_sound hd
      cases ho : zoneOf v with
      | none =>
        rw [ho] at h1
        rw [C16_local xmktime s c h1]
        generalize hx : xmktime _ = x
        cases x with
        | ok t => simp [Out.bind]
        | err e => simp [Out.bind]
        | ub => exact absurd hx (hm _)
      | some o =>
        rw [ho] at h1
        rw [C16_zoned xmktime s c o h1]
        simp

end Verif.Props
