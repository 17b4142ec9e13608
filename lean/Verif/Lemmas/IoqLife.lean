import Verif.Spec.IoqLife
import Verif.Props.Bit

/-! # Lemmas for C98 -/
namespace Verif.Life
open Verif

/-- What is held of a queue: monitors' conditions in `clo..chi`, mutexes in `mlo..mhi`. -/
structure Q where
  struct_ : Bool := false
  arr : Bool := false
  clo : Nat := 0
  chi : Nat := 0
  mlo : Nat := 0
  mhi : Nat := 0

/-- All that is held. -/
structure O where
  ioq : Bool := false
  p : Q := {}
  r : Q := {}
  tlo : Nat := 0
  thi : Nat := 0
  rlo : Nat := 0
  rings : List Bool := []
  probe : Bool := false

def O.q (o : O) (b : Bool) : Q := if b then o.r else o.p

def O.setQ (o : O) (b : Bool) (q : Q) : O := if b then { o with r := q } else { o with p := q }

def O.live (o : O) : Live
  | .ioq => o.ioq
  | .queue b => (o.q b).struct_
  | .monitors b => (o.q b).arr
  | .mutex b i => decide ((o.q b).mlo ≤ i ∧ i < (o.q b).mhi)
  | .cond b i => decide ((o.q b).clo ≤ i ∧ i < (o.q b).chi)
  | .probe => o.probe
  | .ring i => decide (o.rlo ≤ i) && o.rings.getD i false
  | .thread i => decide (o.tlo ≤ i ∧ i < o.thi)

theorem take_ok {r : Res} {l l' : Live} (h : l r = false) (h' : ∀ x, l' x = if x = r then true else l x) : take r l = .ok l' := by
  unfold take
  rw [h, if_neg (by simp)]
  exact congrArg _ (funext fun x => (h' x).symm)

theorem give_ok {r : Res} {l l' : Live} (h : l r = true) (h' : ∀ x, l' x = if x = r then false else l x) : give r l = .ok l' := by
  unfold give
  rw [h, if_pos rfl]
  exact congrArg _ (funext fun x => (h' x).symm)

theorem q_setQ (o : O) (b b' : Bool) (q : Q) : (o.setQ b q).q b' = if b' = b then q else o.q b' := by
  cases b <;> cases b' <;> rfl

theorem setQ_setQ (o : O) (b : Bool) (q q' : Q) : (o.setQ b q).setQ b q' = o.setQ b q' := by
  cases b <;> rfl

theorem setQ_self (o : O) (b : Bool) : o.setQ b (o.q b) = o := by
  cases b <;> rfl

theorem live_setQ (o : O) (b : Bool) (q : Q) (x : Res) : (o.setQ b q).live x =
    match x with
    | .queue b' => if b' = b then q.struct_ else o.live x
    | .monitors b' => if b' = b then q.arr else o.live x
    | .mutex b' i => if b' = b then decide (q.mlo ≤ i ∧ i < q.mhi) else o.live x
    | .cond b' i => if b' = b then decide (q.clo ≤ i ∧ i < q.chi) else o.live x
    | x => o.live x := by
  cases b <;> cases x <;> first | rfl | (rename_i b' ; cases b' <;> rfl) | (rename_i b' i; cases b' <;> rfl)

theorem take_q (o : O) (b : Bool) (q q' : Q) (r : Res) (h : (o.setQ b q).live r = false)
    (h' : ∀ x, (o.setQ b q').live x = if x = r then true else (o.setQ b q).live x) : take r (o.setQ b q).live = .ok (o.setQ b q').live := take_ok h h'

theorem take_mutex (o : O) (b : Bool) (q : Q) (h : q.mlo ≤ q.mhi) : take (.mutex b q.mhi) (o.setQ b q).live = .ok (o.setQ b { q with mhi := q.mhi + 1 }).live := by
  apply take_ok
  · rw [live_setQ]; simp
  · intro x
    rw [live_setQ, live_setQ]
    cases x <;> simp
    rename_i b' i
    by_cases hb : b' = b
    · subst hb
      by_cases hi : i = q.mhi
      · subst hi; simp [h]
      · rw [Bool.eq_iff_iff]; simp [hi]; omega
    · simp [hb]

theorem take_cond (o : O) (b : Bool) (q : Q) (h : q.clo ≤ q.chi) : take (.cond b q.chi) (o.setQ b q).live = .ok (o.setQ b { q with chi := q.chi + 1 }).live := by
  apply take_ok
  · rw [live_setQ]; simp
  · intro x
    rw [live_setQ, live_setQ]
    cases x <;> simp
    rename_i b' i
    by_cases hb : b' = b
    · subst hb
      by_cases hi : i = q.chi
      · subst hi; simp [h]
      · rw [Bool.eq_iff_iff]; simp [hi]; omega
    · simp [hb]

theorem give_last_mutex (o : O) (b : Bool) (q : Q) (h : q.mlo ≤ q.mhi) : give (.mutex b q.mhi) (o.setQ b { q with mhi := q.mhi + 1 }).live = .ok (o.setQ b q).live := by
  apply give_ok
  · rw [live_setQ]; simp [h]
  · intro x
    rw [live_setQ, live_setQ]
    cases x <;> simp
    rename_i b' i
    by_cases hb : b' = b
    · subst hb
      by_cases hi : i = q.mhi
      · subst hi; simp <;> omega
      · rw [Bool.eq_iff_iff]; simp [hi]; omega
    · simp [hb]

theorem give_mutex (o : O) (b : Bool) (q : Q) (h : q.mlo < q.mhi) : give (.mutex b q.mlo) (o.setQ b q).live = .ok (o.setQ b { q with mlo := q.mlo + 1 }).live := by
  apply give_ok
  · rw [live_setQ]; simp [h]
  · intro x
    rw [live_setQ, live_setQ]
    cases x <;> simp
    rename_i b' i
    by_cases hb : b' = b
    · subst hb
      by_cases hi : i = q.mlo
      · subst hi; simp <;> omega
      · rw [Bool.eq_iff_iff]; simp [hi]; omega
    · simp [hb]

theorem give_cond (o : O) (b : Bool) (q : Q) (h : q.clo < q.chi) : give (.cond b q.clo) (o.setQ b q).live = .ok (o.setQ b { q with clo := q.clo + 1 }).live := by
  apply give_ok
  · rw [live_setQ]; simp [h]
  · intro x
    rw [live_setQ, live_setQ]
    cases x <;> simp
    rename_i b' i
    by_cases hb : b' = b
    · subst hb
      by_cases hi : i = q.clo
      · subst hi; simp <;> omega
      · rw [Bool.eq_iff_iff]; simp [hi]; omega
    · simp [hb]

theorem take_queue (o : O) (b : Bool) (q : Q) (h : q.struct_ = false) : take (.queue b) (o.setQ b q).live = .ok (o.setQ b { q with struct_ := true }).live := by
  apply take_ok
  · rw [live_setQ]; simp [h]
  · intro x; rw [live_setQ, live_setQ]; cases x <;> simp; rename_i b'; by_cases hb : b' = b <;> simp [hb]

theorem give_queue (o : O) (b : Bool) (q : Q) (h : q.struct_ = true) : give (.queue b) (o.setQ b q).live = .ok (o.setQ b { q with struct_ := false }).live := by
  apply give_ok
  · rw [live_setQ]; simp [h]
  · intro x; rw [live_setQ, live_setQ]; cases x <;> simp; rename_i b'; by_cases hb : b' = b <;> simp [hb]

theorem take_monitors (o : O) (b : Bool) (q : Q) (h : q.arr = false) : take (.monitors b) (o.setQ b q).live = .ok (o.setQ b { q with arr := true }).live := by
  apply take_ok
  · rw [live_setQ]; simp [h]
  · intro x; rw [live_setQ, live_setQ]; cases x <;> simp; rename_i b'; by_cases hb : b' = b <;> simp [hb]

theorem give_monitors (o : O) (b : Bool) (q : Q) (h : q.arr = true) : give (.monitors b) (o.setQ b q).live = .ok (o.setQ b { q with arr := false }).live := by
  apply give_ok
  · rw [live_setQ]; simp [h]
  · intro x; rw [live_setQ, live_setQ]; cases x <;> simp; rename_i b'; by_cases hb : b' = b <;> simp [hb]

/-- A queue with `k` monitors. -/
def full (k : Nat) : Q := ⟨true, true, 0, k, 0, k⟩

theorem monitorInit_eq (w : QLuck) (o : O) (b : Bool) (k : Nat) :
    monitorInit w b k (o.setQ b (full k)).live =
      if w.mutex k = true ∧ w.cond k = true then .ok (true, (o.setQ b (full (k + 1))).live) else .ok (false, (o.setQ b (full k)).live) := by
  unfold monitorInit
  cases hm : w.mutex k
  · simp
  have h1 := take_mutex o b (full k) (Nat.zero_le _)
  change take (.mutex b k) _ = _ at h1
  simp only [Bool.not_true, Bool.false_eq_true, if_false, h1, Out.bind]
  cases hc : w.cond k
  · have h2 := give_last_mutex o b (full k) (Nat.zero_le _)
    change give (.mutex b k) _ = _ at h2
    simp only [Bool.not_false, if_true, h2, and_false, Bool.false_eq_true, if_false]
  · have h2 := take_cond o b { full k with mhi := (full k).mhi + 1 } (Nat.zero_le _)
    change take (.cond b k) _ = _ at h2
    simp only [Bool.not_true, Bool.false_eq_true, if_false, h2, and_self, if_true]
    rfl

theorem monitorsInit_eq (w : QLuck) (o : O) (b : Bool) (n : Nat) : ∀ i, ∃ k, k ≤ i + n ∧
    ((∀ j, i ≤ j → j < i + n → w.mutex j = true ∧ w.cond j = true) → k = i + n) ∧
    ∃ good : Bool, (good = true ↔ ∀ j, i ≤ j → j < i + n → w.mutex j = true ∧ w.cond j = true) ∧
    monitorsInit w b i n (BitVec.ofNat 64 i - 1) (o.setQ b (full i)).live = .ok (good, BitVec.ofNat 64 k - 1, (o.setQ b (full k)).live) := by
  induction n with
  | zero => intro i; exact ⟨i, Nat.le_refl _, fun _ => rfl, true, ⟨fun _ j h1 h2 => by omega, fun _ => rfl⟩, rfl⟩
  | succ n ih =>
    intro i
    unfold monitorsInit
    rw [monitorInit_eq]
    by_cases h : w.mutex i = true ∧ w.cond i = true
    · obtain ⟨k, h1, h2, good, h3, h4⟩ := ih (i + 1)
      have hall : (∀ j, i ≤ j → j < i + (n + 1) → w.mutex j = true ∧ w.cond j = true) ↔ ∀ j, i + 1 ≤ j → j < i + 1 + n → w.mutex j = true ∧ w.cond j = true := by
        constructor
        · intro q j hj hj'; exact q j (by omega) (by omega)
        · intro q j hj hj'
          by_cases hij : j = i
          · subst hij; exact h
          · exact q j (by omega) (by omega)
      refine ⟨k, by omega, fun q => by have := h2 (hall.1 q); omega, good, h3.trans hall.symm, ?_⟩
      rw [if_pos h]
      simp only [Out.bind, if_true]
      have e : BitVec.ofNat 64 i - 1 + 1 = BitVec.ofNat 64 (i + 1) - 1 := by
        rw [BitVec.ofNat_add]; simp [BitVec.sub_add_cancel, BitVec.add_sub_cancel]
      rw [e]
      exact h4
    · refine ⟨i, by omega, fun q => absurd (q i (by omega) (by omega)) h, false, ⟨nofun, fun q => absurd (q i (by omega) (by omega)) h⟩, ?_⟩
      rw [if_neg h]
      rfl

theorem monitorDestroy_eq (o : O) (b : Bool) (i k : Nat) (h : i < k) :
    monitorDestroy b i (o.setQ b ⟨true, true, i, k, i, k⟩).live = .ok (o.setQ b ⟨true, true, i + 1, k, i + 1, k⟩).live := by
  unfold monitorDestroy
  have h1 := give_cond o b ⟨true, true, i, k, i, k⟩ h
  have h2 := give_mutex o b ⟨true, true, i + 1, k, i, k⟩ h
  dsimp only at h1 h2
  rw [h1]
  exact h2

theorem monitorsDestroy_eq (o : O) (b : Bool) (n : Nat) : ∀ i,
    monitorsDestroy b i n (o.setQ b ⟨true, true, i, i + n, i, i + n⟩).live = .ok (o.setQ b ⟨true, true, i + n, i + n, i + n, i + n⟩).live := by
  induction n with
  | zero => intro i; rfl
  | succ n ih =>
    intro i
    unfold monitorsDestroy
    rw [monitorDestroy_eq o b i _ (by omega)]
    have := ih (i + 1)
    rw [show i + 1 + n = i + (n + 1) by omega] at this
    exact this

theorem live_gone (o : O) (b : Bool) (k : Nat) : (o.setQ b ⟨false, false, k, k, k, k⟩).live = (o.setQ b {}).live := by
  funext x
  rw [live_setQ, live_setQ]
  cases x <;> simp
  all_goals
    rename_i b' i
    by_cases hb : b' = b
    · simp [hb]
    · simp [hb]

theorem destroy_full (o : O) (b : Bool) (k : Nat) (hk : k < 2 ^ 64) :
    ioqqDestroy b (some ⟨true, BitVec.ofNat 64 k - 1⟩) (o.setQ b (full k)).live = .ok (o.setQ b {}).live := by
  unfold ioqqDestroy
  have e : (BitVec.ofNat 64 k - 1 + 1).toNat = k := by
    rw [BitVec.sub_add_cancel, BitVec.toNat_ofNat, Nat.mod_eq_of_lt hk]
  dsimp only
  rw [e]
  have h1 := monitorsDestroy_eq o b k 0
  rw [Nat.zero_add] at h1
  have h2 := give_monitors o b ⟨true, true, k, k, k, k⟩ rfl
  have h3 := give_queue o b ⟨true, false, k, k, k, k⟩ rfl
  dsimp only at h2 h3
  unfold full
  rw [h1]
  simp only [Out.bind, freeMonitors, if_true]
  rw [h2]
  simp only
  rw [h3, live_gone]

theorem ioqqCreate_eq (w : QLuck) (o : O) (b : Bool) {depth size : Nat} (h1 : Bit.bitCeil Bit.leadingZerosGnu 64 depth = .ok size) :
    w.good size ∧ ioqqCreate w b depth (o.setQ b {}).live = .ok (some ⟨true, BitVec.ofNat 64 (min size 64) - 1⟩, (o.setQ b (full (min size 64))).live) ∨
    ¬ w.good size ∧ ioqqCreate w b depth (o.setQ b {}).live = .ok (none, (o.setQ b {}).live) := by
  unfold ioqqCreate
  rw [h1]
  simp only [Out.bind]
  cases ha : w.alloc
  · right; exact ⟨fun q => (by have := q.1; rw [ha] at this; cases this), by simp⟩
  have t1 := take_queue o b {} rfl
  simp only [Bool.not_true, Bool.false_eq_true, if_false, t1]
  cases hm : w.monitors
  · right
    refine ⟨fun q => (by have := q.2.1; rw [hm] at this; cases this), ?_⟩
    have g1 := give_queue o b ⟨true, false, 0, 0, 0, 0⟩ rfl
    simp only [Bool.not_false, if_true, ioqqDestroy]
    rw [show ((-1 : BitVec 64) + 1).toNat = 0 from rfl]
    simp only [monitorsDestroy, Out.bind, freeMonitors, Bool.false_eq_true, if_false]
    dsimp only at g1
    rw [g1]
  have t2 := take_monitors o b ⟨true, false, 0, 0, 0, 0⟩ rfl
  dsimp only at t2
  simp only [Bool.not_true, Bool.false_eq_true, if_false, t2]
  obtain ⟨k, hk1, hk2, good, hg, he⟩ := monitorsInit_eq w o b (if size < 64 then size else 64) 0
  have hmin : 0 + (if size < 64 then size else 64) = min size 64 := by split <;> omega
  rw [hmin] at hk1 hk2 hg
  change monitorsInit w b 0 _ (-1) (o.setQ b ⟨true, true, 0, 0, 0, 0⟩).live = _ at he
  rw [he]
  have hgood : good = true ↔ w.good size := by
    rw [hg]
    constructor
    · intro q; exact ⟨ha, hm, fun i h1 h2 => q i (Nat.zero_le _) (by omega)⟩
    · intro q j _ hj; exact q.2.2 j (by omega) (by omega)
  cases good
  · right
    refine ⟨fun q => (by have := hgood.2 q; cases this), ?_⟩
    simp only [ioqqFinish, Bool.false_eq_true, if_false]
    rw [destroy_full o b k (by omega)]
    rfl
  · left
    have hq := hgood.1 rfl
    refine ⟨hq, ?_⟩
    have := hk2 (hg.1 rfl)
    subst this
    rfl

/-! ## Threads -/

/-- What is held when these threads exist. -/
def O.threads (o : O) (ths : List Th) : O := { o with tlo := 0, thi := ths.length, rlo := 0, rings := ths.map fun th => decide (th.err = 0) }

theorem take_ring (o : O) (hr : o.rlo = 0) : take (.ring o.rings.length) o.live = .ok { o with rings := o.rings ++ [true] }.live := by
  apply take_ok
  · simp [O.live, hr]
  · intro x
    cases x <;> first | (rw [if_neg (by nofun)]; rfl) | simp [O.live]
    rename_i i
    by_cases hi : i = o.rings.length
    · subst hi; simp [hr]
    · simp only [hi, false_or, if_false, hr]
      by_cases h : i < o.rings.length
      · simp [List.getElem?_append_left h, hi]
      · have h' : o.rings.length < i := by omega
        simp [List.getElem?_append, h, hi, List.getElem?_eq_none (show o.rings.length ≤ i by omega), List.getElem?_eq_none (show [true].length ≤ i - o.rings.length by simp; omega)]

theorem give_ring (o : O) (hr : o.rlo = 0) : give (.ring o.rings.length) { o with rings := o.rings ++ [true] }.live = .ok o.live := by
  have h := take_ring o hr
  unfold take at h
  rw [if_neg (by simp [O.live, hr])] at h
  have h := Out.ok.inj h
  apply give_ok
  · simp [O.live, hr]
  · intro x
    rw [← h]
    by_cases hx : x = .ring o.rings.length
    · subst hx; simp [O.live, hr]
    · simp [hx]

theorem live_noring (o : O) : { o with rings := o.rings ++ [false] }.live = o.live := by
  funext x
  cases x <;> first | rfl | simp [O.live]
  rename_i i
  by_cases h : i < o.rings.length
  · simp [List.getElem?_append_left h]
  · simp only [List.getElem?_append, h, if_false, List.getElem?_eq_none (show o.rings.length ≤ i by omega)]
    cases i - o.rings.length <;> simp

theorem openClose_eq (e : Nat) (o : O) (h : o.probe = false) : openClose e o.live = .ok o.live := by
  unfold openClose
  split
  · have h1 : take .probe o.live = .ok { o with probe := true }.live := by
      apply take_ok
      · exact h
      · intro x; cases x <;> first | (rw [if_neg (by nofun)]; rfl) | rfl
    have h2 : give .probe { o with probe := true }.live = .ok o.live := by
      apply give_ok
      · rfl
      · intro x; cases x <;> first | (rw [if_neg (by nofun)]; rfl) | simp [O.live, h]
    rw [h1]
    exact h2
  · rfl

theorem probeFlags_eq (w : World) (k : Nat) (old new : Flags) (o : O) (h : o.probe = false) :
    probeFlags w k old new o.live = .ok (if w.probe k new = EINVAL then (false, old, o.live) else (true, new, o.live)) := by
  unfold probeFlags
  rw [openClose_eq _ o h]
  rfl

theorem firstFlags_eq (w : World) (o : O) (h : o.probe = false) : ∃ f, firstFlags w o.live = .ok (f, o.live) ∧ FlagsOk w f := by
  unfold firstFlags
  rw [probeFlags_eq _ _ _ _ _ h]
  simp only [Out.bind]
  by_cases h0 : w.probe 0 { submitAll := true } = EINVAL
  all_goals
    simp only [h0, if_true, if_false]
    rw [probeFlags_eq _ _ _ _ _ h]
    simp only [Out.bind]
  · by_cases h1 : w.probe 1 { submitAll := false, disabled := true } = EINVAL
    · simp only [h1, if_true, probeMore, Bool.false_eq_true, if_false]
      exact ⟨_, rfl, rfl, by simp, by simp [h0], by simp [h1], by simp, by simp⟩
    · simp only [h1, if_false, probeMore, if_true]
      rw [probeFlags_eq _ _ _ _ _ h]
      simp only [Out.bind]
      by_cases h2 : w.probe 2 { submitAll := false, disabled := true, single := true } = EINVAL
      all_goals
        simp only [h2, if_true, if_false]
        rw [probeFlags_eq _ _ _ _ _ h]
        simp only
      · by_cases h3 : w.probe 3 { submitAll := false, disabled := true, single := false, defer := true } = EINVAL
        all_goals
          simp only [h3, if_true, if_false]
          exact ⟨_, rfl, rfl, by simp, by simp [h0], by simp [h1], by simp [h2], by simp [h3]⟩
      · by_cases h3 : w.probe 3 { submitAll := false, disabled := true, single := true, defer := true } = EINVAL
        all_goals
          simp only [h3, if_true, if_false]
          exact ⟨_, rfl, rfl, by simp, by simp [h0], by simp [h1], by simp [h2], by simp [h3]⟩
  · by_cases h1 : w.probe 1 { submitAll := true, disabled := true } = EINVAL
    · simp only [h1, if_true, probeMore, Bool.false_eq_true, if_false]
      exact ⟨_, rfl, rfl, by simp, by simp [h0], by simp [h1], by simp, by simp⟩
    · simp only [h1, if_false, probeMore, if_true]
      rw [probeFlags_eq _ _ _ _ _ h]
      simp only [Out.bind]
      by_cases h2 : w.probe 2 { submitAll := true, disabled := true, single := true } = EINVAL
      all_goals
        simp only [h2, if_true, if_false]
        rw [probeFlags_eq _ _ _ _ _ h]
        simp only
      · by_cases h3 : w.probe 3 { submitAll := true, disabled := true, single := false, defer := true } = EINVAL
        all_goals
          simp only [h3, if_true, if_false]
          exact ⟨_, rfl, rfl, by simp, by simp [h0], by simp [h1], by simp [h2], by simp [h3]⟩
      · by_cases h3 : w.probe 3 { submitAll := true, disabled := true, single := true, defer := true } = EINVAL
        all_goals
          simp only [h3, if_true, if_false]
          exact ⟨_, rfl, rfl, by simp, by simp [h0], by simp [h1], by simp [h2], by simp [h3]⟩

theorem ringInit_first (w : World) (o : O) (hr : o.rlo = 0) (hl : o.rings = []) (hp : o.probe = false) :
    ∃ th, First w th ∧ ringInit w none 0 o.live = .ok (th, { o with rings := o.rings ++ [decide (th.err = 0)] }.live) := by
  unfold ringInit
  dsimp only
  obtain ⟨f, h1, h2⟩ := firstFlags_eq w o hp
  rw [h1]
  simp only [Out.bind, firstRing]
  by_cases hi : w.init 0 f = 0
  · have ht := take_ring o hr
    rw [hl] at ht
    simp only [hi, ne_eq, not_true_eq_false, if_false]
    simp only [List.length_nil] at ht
    rw [ht]
    simp only
    by_cases he : (w.supported.getD {}).empty = true
    · have hg := give_ring o hr
      rw [hl] at hg
      simp only [List.length_nil] at hg
      simp only [he, if_true]
      rw [hg]
      refine ⟨⟨ENOTSUP, {}, f⟩, ⟨h2, by simp [hi, he], nofun⟩, ?_⟩
      dsimp only
      rw [show decide (ENOTSUP = 0) = false from rfl, live_noring]
    · simp only [Bool.not_eq_true] at he
      simp only [he, Bool.false_eq_true, if_false]
      refine ⟨⟨0, w.supported.getD {}, f⟩, ⟨h2, by simp [hi, he], fun _ => rfl⟩, ?_⟩
      rw [hl]; rfl
  · simp only [hi, ne_eq, not_false_eq_true, if_true]
    refine ⟨⟨w.init 0 f, {}, f⟩, ⟨h2, by simp [hi], fun h => absurd h hi⟩, ?_⟩
    dsimp only
    rw [decide_eq_false hi, live_noring]

theorem ringInit_next (w : World) (o : O) (p : Th) (hr : o.rlo = 0) :
    ∃ th, Next w p o.rings.length th ∧ ringInit w (some p) o.rings.length o.live = .ok (th, { o with rings := o.rings ++ [decide (th.err = 0)] }.live) := by
  unfold ringInit nextRing
  dsimp only
  by_cases hp : p.err = 0
  · simp only [hp, ne_eq, not_true_eq_false, if_false]
    by_cases hi : w.init o.rings.length { p.flags with attach := true } = 0
    · simp only [hi, not_true_eq_false, if_false]
      rw [take_ring o hr]
      exact ⟨⟨0, p.ops, { p.flags with attach := true }⟩, ⟨fun h => absurd hp h, fun _ => ⟨rfl, hi.symm⟩, fun _ => rfl⟩, rfl⟩
    · simp only [hi, not_false_eq_true, if_true]
      refine ⟨⟨w.init o.rings.length { p.flags with attach := true }, {}, { p.flags with attach := true }⟩, ⟨fun h => absurd hp h, fun _ => ⟨rfl, rfl⟩, fun h => absurd h hi⟩, ?_⟩
      dsimp only
      rw [decide_eq_false hi, live_noring]
  · simp only [hp, ne_eq, not_false_eq_true, if_true]
    refine ⟨⟨p.err, {}, {}⟩, ⟨fun _ => rfl, fun h => absurd h hp, fun h => absurd h hp⟩, ?_⟩
    dsimp only
    rw [decide_eq_false hp, live_noring]

theorem rings_snoc {w : World} {ths : List Th} {th : Th} (h : Rings w ths) (hf : ths = [] → First w th)
    (hn : ∀ p, ths.getLast? = some p → Next w p ths.length th) : Rings w (ths ++ [th]) := by
  cases ths with
  | nil =>
    refine ⟨hf rfl, fun i p q _ hq => ?_⟩
    simp at hq
  | cons a ths =>
    refine ⟨h.1, fun i p q hp hq => ?_⟩
    change (a :: ths ++ [th])[i]? = some p at hp
    change (a :: ths ++ [th])[i + 1]? = some q at hq
    by_cases hi : i + 1 < (a :: ths).length
    · rw [List.getElem?_append_left hi] at hq
      rw [List.getElem?_append_left (by omega)] at hp
      exact h.2 i p q hp hq
    · by_cases hi' : i + 1 = (a :: ths).length
      · rw [hi', List.getElem?_append_right (Nat.le_refl _)] at hq
        simp only [Nat.sub_self, List.getElem?_cons_zero, Option.some.injEq] at hq
        subst hq
        rw [List.getElem?_append_left (by omega)] at hp
        rw [hi']
        apply hn
        rw [List.getLast?_eq_getElem?, ← hp]
        congr 1
        omega
      · rw [List.getElem?_eq_none (by simp at hi hi' ⊢; omega)] at hq
        cases hq

theorem ringInit_eq (w : World) (o : O) (ths : List Th) (h : Rings w ths) (hp : o.probe = false) :
    ∃ th, Rings w (ths ++ [th]) ∧ ringInit w ths.getLast? ths.length (o.threads ths).live =
      .ok (th, { o.threads ths with rings := (ths ++ [th]).map fun th : Th => decide (th.err = 0) }.live) := by
  cases hl : ths.getLast? with
  | none =>
    have he : ths = [] := List.getLast?_eq_none_iff.1 hl
    subst he
    obtain ⟨th, h1, h2⟩ := ringInit_first w (o.threads []) rfl rfl hp
    exact ⟨th, rings_snoc h (fun _ => h1) nofun, h2⟩
  | some p =>
    obtain ⟨th, h1, h2⟩ := ringInit_next w (o.threads ths) p rfl
    have hlen : (o.threads ths).rings.length = ths.length := by simp [O.threads]
    rw [hlen] at h1 h2
    refine ⟨th, rings_snoc h (fun he => by subst he; cases hl) (fun q hq => by rw [hl] at hq; cases hq; exact h1), ?_⟩
    rw [h2]
    simp [O.threads]

theorem take_thread (o : O) (h : o.tlo ≤ o.thi) : take (.thread o.thi) o.live = .ok { o with thi := o.thi + 1 }.live := by
  apply take_ok
  · simp [O.live]
  · intro x
    cases x <;> first | (rw [if_neg (by nofun)]; rfl) | simp [O.live]
    rename_i i
    by_cases hi : i = o.thi
    · subst hi; simp [h]
    · rw [Bool.eq_iff_iff]; simp [hi]; omega

theorem threadCreate_eq (w : World) (o : O) (ths : List Th) (h : Rings w ths) (hp : o.probe = false) :
    ∃ th, Rings w (ths ++ [th]) ∧ threadCreate w ths.getLast? ths.length (o.threads ths).live =
      if w.thread ths.length = true then .ok (true, th, (o.threads (ths ++ [th])).live) else .ok (false, th, (o.threads ths).live) := by
  obtain ⟨th, h1, h2⟩ := ringInit_eq w o ths h hp
  refine ⟨th, h1, ?_⟩
  unfold threadCreate
  rw [h2]
  simp only [Out.bind]
  cases hw : w.thread ths.length
  · simp only [Bool.not_false, if_true, Bool.false_eq_true, if_false, ringExit]
    have hlen : (o.threads ths).rings.length = ths.length := by simp [O.threads]
    have hmap : ((ths ++ [th]).map fun th => decide (th.err = 0)) = (o.threads ths).rings ++ [decide (th.err = 0)] := by simp [O.threads]
    rw [hmap]
    by_cases he : th.err = 0
    · simp only [he, if_true, decide_true]
      have := give_ring (o.threads ths) rfl
      rw [hlen] at this
      rw [this]
    · simp only [he, if_false, decide_false]
      rw [live_noring]
  · simp only [Bool.not_true, Bool.false_eq_true, if_false, if_true]
    have := take_thread { o.threads ths with rings := (ths ++ [th]).map fun th : Th => decide (th.err = 0) } (Nat.zero_le _)
    change take (.thread ths.length) _ = _ at this
    rw [this]
    simp [O.threads]

theorem createAll_eq (w : World) (o : O) (hp : o.probe = false) (n : Nat) : ∀ ths, Rings w ths → ∃ ths' good,
    Rings w (ths ++ ths') ∧ ((good = true) ↔ ∀ i, ths.length ≤ i → i < ths.length + n → w.thread i = true) ∧ (good = true → ths'.length = n) ∧
    createAll w n ths (o.threads ths).live = .ok (good, ths ++ ths', (o.threads (ths ++ ths')).live) := by
  induction n with
  | zero =>
    intro ths h
    exact ⟨[], true, by simpa using h, ⟨fun _ i _ _ => by omega, fun _ => rfl⟩, fun _ => rfl, by simp [createAll]⟩
  | succ n ih =>
    intro ths h
    obtain ⟨th, h1, h2⟩ := threadCreate_eq w o ths h hp
    unfold createAll
    rw [h2]
    by_cases hw : w.thread ths.length = true
    · obtain ⟨ths', good, g1, g2, g3, g4⟩ := ih (ths ++ [th]) h1
      simp only [hw, if_true, Out.bind]
      refine ⟨th :: ths', good, by simpa using g1, ?_, fun h => by simp [g3 h], by simpa using g4⟩
      rw [g2]
      simp only [List.length_append, List.length_cons, List.length_nil]
      constructor
      · intro q i hi hi'
        by_cases hii : i = ths.length
        · subst hii; exact hw
        · exact q i (by omega) (by omega)
      · intro q i hi hi'; exact q i (by omega) (by omega)
    · simp only [hw, if_false, Out.bind]
      refine ⟨[], false, by simpa using h, ⟨nofun, fun q => absurd (q _ (Nat.le_refl _) (by omega)) hw⟩, nofun, by simp⟩

/-! ## Joining -/

theorem give_thread (o : O) (h : o.tlo < o.thi) : give (.thread o.tlo) o.live = .ok { o with tlo := o.tlo + 1 }.live := by
  apply give_ok
  · simp [O.live, h]
  · intro x
    cases x <;> first | (rw [if_neg (by nofun)]; rfl) | simp [O.live]
    rename_i i
    by_cases hi : i = o.tlo
    · subst hi; simp; omega
    · rw [Bool.eq_iff_iff]; simp [hi]; omega

theorem ringExit_eq (o : O) (th : Th) (h : o.rings.getD o.rlo false = decide (th.err = 0)) : ringExit th o.rlo o.live = .ok { o with rlo := o.rlo + 1 }.live := by
  unfold ringExit
  by_cases he : th.err = 0
  · rw [if_pos he]
    simp only [he, decide_true] at h
    apply give_ok
    · simp only [O.live, h]; simp
    · intro x
      cases x <;> first | (rw [if_neg (by nofun)]; rfl) | simp [O.live]
      rename_i i
      by_cases hi : i = o.rlo
      · subst hi; simp; omega
      · rw [Bool.eq_iff_iff]
        simp [hi]
        omega
  · rw [if_neg he]
    simp only [he, decide_false] at h
    congr 1
    funext x
    cases x <;> first | rfl | simp only [O.live]
    rename_i i
    by_cases hi : i = o.rlo
    · subst hi; rw [h]; simp
    · congr 1
      rw [decide_eq_decide]
      omega

theorem joinAll_eq (o : O) (ths : List Th) : ∀ rest done, ths = done ++ rest →
    joinAll done.length rest { o.threads ths with tlo := done.length, rlo := done.length }.live = .ok { o.threads ths with tlo := ths.length, rlo := ths.length }.live := by
  intro rest
  induction rest with
  | nil => intro done h; simp at h; subst h; rfl
  | cons th rest ih =>
    intro done h
    unfold joinAll threadJoin
    have h1 := give_thread { o.threads ths with tlo := done.length, rlo := done.length } (by subst h; simp [O.threads])
    have h2 := ringExit_eq { o.threads ths with tlo := done.length + 1, rlo := done.length } th (by subst h; simp [O.threads])
    dsimp only at h1 h2
    rw [h1]
    simp only [Out.bind]
    rw [h2]
    have := ih (done ++ [th]) (by simp [h])
    simpa using this

theorem live_joined (o : O) (ths : List Th) : { o.threads ths with tlo := ths.length, rlo := ths.length }.live = (o.threads []).live := by
  funext x
  cases x <;> first | rfl | skip
  · rename_i i
    simp only [O.live, O.threads]
    by_cases h : ths.length ≤ i
    · simp [List.getElem?_eq_none h]
    · simp; omega
  · rename_i i
    simp only [O.live, O.threads]
    exact Bool.eq_iff_iff.2 ⟨fun h => by have := of_decide_eq_true h; omega, fun h => by have := of_decide_eq_true h; simp at this⟩

theorem give_ioq (o : O) (h : o.ioq = true) : give .ioq o.live = .ok { o with ioq := false }.live := by
  apply give_ok
  · exact h
  · intro x; cases x <;> first | (rw [if_neg (by nofun)]; rfl) | rfl

theorem take_ioq (o : O) (h : o.ioq = false) : take .ioq o.live = .ok { o with ioq := true }.live := by
  apply take_ok
  · exact h
  · intro x; cases x <;> first | (rw [if_neg (by nofun)]; rfl) | rfl

/-! ## All of it -/

/-- With the structure and both queues. -/
def base (k : Nat) : O := { ioq := true, p := full k, r := full k }

theorem live_held (size : Nat) (ths : List Th) : ((base (min size 64)).threads ths).live = held size ths := by
  funext x
  cases x <;> first | rfl | (rename_i b; cases b <;> rfl) | skip
  · rename_i b i
    have : (((base (min size 64)).threads ths).q b) = full (min size 64) := by cases b <;> rfl
    simp only [O.live, held, this, full]
    rw [Bool.eq_iff_iff]; simp; omega
  · rename_i b i
    have : (((base (min size 64)).threads ths).q b) = full (min size 64) := by cases b <;> rfl
    simp only [O.live, held, this, full]
    rw [Bool.eq_iff_iff]; simp; omega
  · simp [O.live, held, O.threads, base]

theorem destroy_queues (k : Nat) (hk : k < 2 ^ 64) (ths : List Th) :
    destroy (some ⟨some ⟨true, BitVec.ofNat 64 k - 1⟩, some ⟨true, BitVec.ofNat 64 k - 1⟩, ths⟩) ((base k).threads ths).live = .ok nothing := by
  unfold destroy
  have h1 := joinAll_eq (base k) ths ths [] rfl
  rw [live_joined] at h1
  change joinAll 0 ths ((base k).threads ths).live = _ at h1
  dsimp only
  rw [h1]
  have h2 := destroy_full { ioq := true, p := full k } true k hk
  change ioqqDestroy true _ ((base k).threads []).live = .ok (({ ioq := true } : O).setQ false (full k)).live at h2
  simp only [Out.bind]
  rw [h2]
  simp only
  rw [destroy_full { ioq := true } false k hk]
  simp only
  have h3 := give_ioq { ioq := true } rfl
  change give .ioq (({ ioq := true } : O).setQ false {}).live = _ at h3
  rw [h3]
  congr 1
  funext x
  cases x <;> first | rfl | (rename_i b; cases b <;> rfl) | (rename_i b i; cases b <;> simp [O.live, nothing, O.q]) | simp [O.live, nothing]

theorem live_nothing : ({} : O).live = nothing := by
  funext x
  cases x <;> first | rfl | (rename_i b; cases b <;> rfl) | (rename_i b i; cases b <;> simp [O.live, nothing, O.q]) | simp [O.live, nothing]

theorem create_cases (w : World) {depth size : Nat} (n : Nat) (hs : Bit.bitCeil Bit.leadingZerosGnu 64 depth = .ok size) :
    (¬ w.good size n ∧ create w depth n nothing = .ok (none, nothing)) ∨
    (w.good size n ∧ ∃ ths x, ths.length = n ∧ Rings w ths ∧ x.threads = ths ∧ create w depth n nothing = .ok (some x, held size ths) ∧ destroy (some x) (held size ths) = .ok nothing) := by
  have hk : min size 64 < 2 ^ 64 := by omega
  rw [← live_nothing]
  unfold create
  cases ha : w.alloc
  · left
    exact ⟨fun q => (by have := q.1; rw [ha] at this; cases this), rfl⟩
  rw [if_neg (by simp), take_ioq {} rfl]
  simp only [Out.bind]
  have g3 := give_ioq { ioq := true } rfl
  rcases ioqqCreate_eq (w.queue false) { ioq := true } false hs with ⟨hq, h⟩ | ⟨hq, h⟩
  all_goals
    change ioqqCreate _ _ _ ({ ioq := true } : O).live = _ at h
    rw [h]
    simp only
  rotate_left
  · left
    refine ⟨fun q => hq q.2.1, ?_⟩
    simp only [fail, destroy, joinAll, ioqqDestroy, Out.bind]
    have g4 : give .ioq (({ ioq := true } : O).setQ false {}).live = .ok ({} : O).live := g3
    rw [g4]
  rcases ioqqCreate_eq (w.queue true) (({ ioq := true } : O).setQ false (full (min size 64))) true hs with ⟨hr, h⟩ | ⟨hr, h⟩
  all_goals
    change ioqqCreate _ _ _ (({ ioq := true } : O).setQ false (full (min size 64))).live = _ at h
    rw [h]
    simp only
  rotate_left
  · left
    refine ⟨fun q => hr q.2.2.1, ?_⟩
    simp only [fail, destroy, joinAll, Out.bind]
    rw [show ioqqDestroy true none = fun l => .ok l from rfl]
    simp only
    have := destroy_full { ioq := true } false (min size 64) hk
    change ioqqDestroy false _ ((({ ioq := true } : O).setQ false (full (min size 64))).setQ true {}).live = .ok ({ ioq := true } : O).live at this
    rw [this]
    simp only
    rw [g3]
  obtain ⟨ths, good, t1, t2, t3, t4⟩ := createAll_eq w (base (min size 64)) rfl n [] trivial
  change createAll w n [] ((({ ioq := true } : O).setQ false (full (min size 64))).setQ true (full (min size 64))).live = _ at t4
  rw [t4]
  simp only [List.nil_append] at t1 t2 t3 ⊢
  cases good
  · left
    refine ⟨fun q => (by have := t2.2 fun i _ hi => q.2.2.2 i (by simpa using hi); cases this), ?_⟩
    simp only [Bool.false_eq_true, if_false, fail]
    rw [destroy_queues _ hk, live_nothing]
    rfl
  · right
    refine ⟨⟨ha, hq, hr, fun i hi => t2.1 rfl i (Nat.zero_le _) (by simpa using hi)⟩, ths, ⟨some ⟨true, BitVec.ofNat 64 (min size 64) - 1⟩, some ⟨true, BitVec.ofNat 64 (min size 64) - 1⟩, ths⟩, t3 rfl, t1, rfl, ?_, ?_⟩
    rotate_left
    · rw [← live_held, destroy_queues _ hk, live_nothing]
    · rw [← live_held]; rfl

end Verif.Life
