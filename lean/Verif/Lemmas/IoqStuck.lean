import Verif.Lemmas.IoqSync
/-!
# What it means when nothing can happen any more
-/
namespace Verif.Ioq

/-! ## Tickets again -/

theorem rng_one (c : Cfg) (T z : Nat) : rng c 0 (T + 1) z = rng c 0 T z + if T % c.size = z then 1 else 0 := by
  rw [rng_add, Nat.zero_add, rng_succ, rng_zero, Nat.add_zero]

theorem rng_lt_iff {c : Cfg} (hs : 0 < c.size) {z : Nat} (hz : z < c.size) (T : Nat) : ∀ R, R < rng c 0 T z ↔ R * c.size + z < T := by
  induction T with
  | zero => intro R; simp [rng_zero]
  | succ T ih =>
    intro R
    rw [rng_one]
    by_cases h : T % c.size = z
    · rw [if_pos h]
      have hT : T = T / c.size * c.size + z := by
        have := Nat.div_add_mod T c.size
        rw [h, Nat.mul_comm] at this; exact this.symm
      have hq : rng c 0 T z = T / c.size := by
        have h1 : ∀ R, R < rng c 0 T z ↔ R < T / c.size := by
          intro R
          rw [ih R]
          constructor
          · intro hh
            rw [hT] at hh
            have : R * c.size < T / c.size * c.size := by
              have e : (T / c.size * c.size + z) / c.size = T / c.size := by rw [← hT]
              rw [← hT] at hh
              omega
            exact Nat.lt_of_mul_lt_mul_right this
          · intro hh
            have : R * c.size < T / c.size * c.size := Nat.mul_lt_mul_of_pos_right hh hs
            omega
        have a := h1 (rng c 0 T z)
        have b := h1 (T / c.size)
        omega
      rw [hq]
      constructor
      · intro hh
        have : R * c.size ≤ T / c.size * c.size := Nat.mul_le_mul_right _ (by omega)
        omega
      · intro hh
        have : R * c.size ≤ T / c.size * c.size := by omega
        have := Nat.le_of_mul_le_mul_right this hs
        omega
    · rw [if_neg h, Nat.add_zero, ih R]
      constructor
      · intro hh; omega
      · intro hh
        rcases Nat.lt_or_ge (R * c.size + z) T with h1 | h1
        · exact h1
        · exfalso
          have e : T = R * c.size + z := by omega
          apply h
          rw [e, Nat.mul_comm, Nat.mul_add_mod]
          exact Nat.mod_eq_of_lt hz

/-- The same ticket numbers, moved. -/
theorem rng_shift {c : Cfg} {d z w : Nat} (i n : Nat) (h : ∀ k, (k + d) % c.size = w ↔ k % c.size = z) : rng c (i + d) n w = rng c i n z := by
  induction n generalizing i with
  | zero => rfl
  | succ n ih =>
    rw [rng_succ, rng_succ, show i + d + 1 = i + 1 + d from by omega, ih]
    congr 1
    by_cases hh : i % c.size = z
    · rw [if_pos hh, if_pos ((h i).2 hh)]
    · rw [if_neg hh, if_neg (fun e => hh ((h i).1 e))]

theorem rng_none {c : Cfg} {i n k : Nat} (h : ∀ j, i ≤ j → j < i + n → j % c.size ≠ k) : rng c i n k = 0 := by
  unfold rng
  rw [List.countP_eq_zero]
  intro j hj
  rw [List.mem_range'_1] at hj
  simpa using h j hj.1 hj.2

theorem rng_pos {c : Cfg} {i n k : Nat} (h : 0 < rng c i n k) : ∃ j, i ≤ j ∧ j < i + n ∧ j % c.size = k := by
  unfold rng at h
  rw [List.countP_pos_iff] at h
  obtain ⟨j, hj, he⟩ := h
  rw [List.mem_range'_1] at hj
  exact ⟨j, hj.1, hj.2, by simpa using he⟩

/-- Distance from slot `y` forward to slot `x`. -/
def dist (c : Cfg) (y x : Nat) : Nat := (x + c.size - y) % c.size

theorem dist_lt {c : Cfg} (hs : 0 < c.size) (y x : Nat) : dist c y x < c.size := Nat.mod_lt _ hs

theorem add_dist {c : Cfg} {y x : Nat} (hy : y < c.size) (hx : x < c.size) :
    (y + dist c y x) = x ∨ (y + dist c y x) = x + c.size := by
  unfold dist
  by_cases h : y ≤ x
  · left
    rw [show x + c.size - y = (x - y) + c.size from by omega, Nat.add_mod_right, Nat.mod_eq_of_lt (by omega)]; omega
  · right
    rw [Nat.mod_eq_of_lt (by omega)]; omega

theorem mod_shift {c : Cfg} (hs : 0 < c.size) {y x : Nat} (hy : y < c.size) (hx : x < c.size) (k : Nat) :
    (k + dist c y x) % c.size = x ↔ k % c.size = y := by
  have hd := dist_lt hs y x
  have hk := Nat.mod_lt k hs
  rw [Nat.add_mod, Nat.mod_eq_of_lt hd]
  rcases Nat.lt_or_ge (k % c.size + dist c y x) c.size with h1 | h1
  · rw [Nat.mod_eq_of_lt h1]
    rcases add_dist hy hx with h | h <;> omega
  · rw [Nat.mod_eq_sub_mod h1, Nat.mod_eq_of_lt (by omega)]
    rcases add_dist hy hx with h | h <;> omega

/-- A run of tickets that starts no nearer to `x` than `z` has at least as many for `z`. -/
theorem rng_near {c : Cfg} (hs : 0 < c.size) {z x : Nat} (hz : z < c.size) (hx : x < c.size) (i n : Nat)
    (h : dist c z x ≤ dist c (i % c.size) x) : rng c i n x ≤ rng c i n z := by
  have hnone : ∀ m, m ≤ dist c z x → rng c i m x = 0 := by
    intro m hm
    apply rng_none
    intro j h1 h2 he
    have hi := Nat.mod_lt i hs
    have e := (mod_shift hs hi hx i).2 rfl
    have hd := dist_lt hs (i % c.size) x
    -- j = i + a, i + d ≡ x, a < d
    obtain ⟨a, ha⟩ : ∃ a, j = i + a := ⟨j - i, by omega⟩
    have had : a < dist c (i % c.size) x := by omega
    rw [ha, Nat.add_mod, Nat.mod_eq_of_lt (show a < c.size from by omega)] at he
    rw [Nat.add_mod, Nat.mod_eq_of_lt hd] at e
    rcases Nat.lt_or_ge (i % c.size + a) c.size with h3 | h3 <;>
      rcases Nat.lt_or_ge (i % c.size + dist c (i % c.size) x) c.size with h4 | h4
    · rw [Nat.mod_eq_of_lt h3] at he; rw [Nat.mod_eq_of_lt h4] at e; omega
    · rw [Nat.mod_eq_of_lt h3] at he
      rw [Nat.mod_eq_sub_mod h4, Nat.mod_eq_of_lt (by omega)] at e
      omega
    · omega
    · rw [Nat.mod_eq_sub_mod h3, Nat.mod_eq_of_lt (by omega)] at he
      rw [Nat.mod_eq_sub_mod h4, Nat.mod_eq_of_lt (by omega)] at e
      omega
  rcases Nat.lt_or_ge n (dist c z x) with hn | hn
  · rw [hnone n (by omega)]; exact Nat.zero_le _
  · have e : n = dist c z x + (n - dist c z x) := by omega
    rw [e, rng_add, hnone _ (Nat.le_refl _), Nat.zero_add, rng_shift i _ (mod_shift hs hz hx)]
    rw [← e]
    have e2 : n = (n - dist c z x) + dist c z x := by omega
    conv => rhs; rw [e2, rng_add]
    exact Nat.le_add_right _ _

/-! ## Batches are aligned -/

def Op.Aligned (c : Cfg) : Op → Prop
  | .pop i _ got _ => ∃ b, i = b * c.batch + got.length
  | _ => True

def Aligned (c : Cfg) (s : State) : Prop := (∃ b, s.tail = b * c.batch) ∧ ∀ op ∈ s.ops, op.Aligned c

theorem aligned_put {c : Cfg} {s s' : State} {t : Nat} {th' : Thread} (h : Aligned c s) (h1 : s'.threads = s.threads.set t th')
    (h2 : ∃ b, s'.tail = b * c.batch) (h3 : th'.op.Aligned c) : Aligned c s' := by
  refine ⟨h2, ?_⟩
  intro op hop
  unfold State.ops at hop
  rw [h1, ops_set] at hop
  rcases List.mem_or_eq_of_mem_set hop with hm | rfl
  · exact h.2 op hm
  · exact h3

theorem aligned_step {c : Cfg} {s s' : State} {t : Nat} (hT : Threads c s) (h : Aligned c s) (st : Step c s t s') : Aligned c s' := by
  have get : ∀ {op : Op} {pc : Pc}, s.threads[t]? = some ⟨op, pc⟩ → op.Aligned c := fun h' => h.2 _ (List.mem_of_getElem? (ops_get h'))
  cases st with
  | startPush ents h1 h2 => exact aligned_put h rfl h.1 trivial
  | startPop block h1 => exact aligned_put h rfl h.1 trivial
  | claimPush i ents h1 h2 => exact aligned_put h rfl h.1 trivial
  | donePush i h1 => exact aligned_put h rfl h.1 trivial
  | claimPop block h1 =>
    obtain ⟨b, hb⟩ := h.1
    refine aligned_put h rfl ⟨b + 1, ?_⟩ ⟨b, by rw [hb]; simp⟩
    show s.tail + c.batch = _
    rw [hb, Nat.add_mul]; omega
  | donePop i got block h1 => exact aligned_put h rfl h.1 trivial
  | update op prev h1 h2 h3 =>
    refine aligned_put h rfl h.1 ?_
    have hg := get h1
    cases op with
    | idle => exact trivial
    | popStart b => exact trivial
    | push i n ents => cases ents <;> exact trivial
    | pop i n got bl =>
      obtain ⟨b, hb⟩ := hg
      refine ⟨b, ?_⟩
      show i + 1 = _
      rw [List.length_append]
      simp; omega
  | load op h1 h2 => exact aligned_put h rfl h.1 (get h1)
  | wait op prev h1 h2 => exact aligned_put h rfl h.1 (get h1)
  | retry op prev h1 h2 => exact aligned_put h rfl h.1 (get h1)
  | spin op prev h1 h2 => exact aligned_put h rfl h.1 (get h1)
  | lock op prev h1 h2 => exact aligned_put h rfl h.1 (get h1)
  | checkChanged op prev h1 h2 => exact aligned_put h rfl h.1 (get h1)
  | checkSame op prev h1 h2 => exact aligned_put h rfl h.1 (get h1)
  | casOk op prev h1 h2 => exact aligned_put h rfl h.1 (get h1)
  | casFail op prev h1 h2 => exact aligned_put h rfl h.1 (get h1)
  | sleep op v h1 => exact aligned_put h rfl h.1 (get h1)
  | spurious op v h1 => exact aligned_put h rfl h.1 (get h1)
  | relock op v h1 h2 => exact aligned_put h rfl h.1 (get h1)
  | recheck op v h1 => exact aligned_put h rfl h.1 (get h1)
  | unlock op ret h1 => exact aligned_put h rfl h.1 (get h1)
  | wlock op i h1 h2 => exact aligned_put h rfl h.1 (get h1)
  | wunlock op i h1 => exact aligned_put h rfl h.1 (get h1)
  | wcast op i h1 =>
    have hm : Aligned c { s with threads := s.threads.map (wake c (c.mon i)) } := by
      refine ⟨h.1, ?_⟩
      unfold State.ops
      dsimp only
      rw [List.map_map, show (Thread.op ∘ wake c (c.mon i)) = Thread.op from funext (wake_op c _)]
      exact h.2
    exact aligned_put hm rfl h.1 (get h1)

theorem reach_aligned {c : Cfg} {n : Nat} (hs : 0 < c.size) {s : State} (r : Reach c n s) : Aligned c s := by
  induction r with
  | init =>
    refine ⟨⟨0, by simp [State.init]⟩, ?_⟩
    intro op h
    have hops : (State.init c n).ops = List.replicate n .idle := by unfold State.ops State.init; rw [List.map_replicate]
    rw [hops] at h; rw [(List.mem_replicate.1 h).2]; trivial
  | step t r st ih => exact aligned_step (reach_sync hs r).2.1 ih st

/-- The first slot of the group that a slot belongs to. -/
def grp (c : Cfg) (z : Nat) : Nat := z - z % c.batch

theorem sub_mod_div {z b : Nat} : z - z % b = b * (z / b) := by
  have := Nat.div_add_mod z b; omega

theorem grp_grp (c : Cfg) (z : Nat) : grp c (grp c z) = grp c z := by
  unfold grp
  have h : z - z % c.batch = c.batch * (z / c.batch) := sub_mod_div
  rw [h, Nat.mul_mod_right]; omega

/-- One batch of tickets. -/
theorem rng_batch {c : Cfg} (hs : 0 < c.size) (hb : 0 < c.batch) (hdiv : c.batch ∣ c.size ∨ c.size ∣ c.batch) {z : Nat} (hz : z < c.size) (b : Nat) :
    rng c (b * c.batch) c.batch z = rng c (b * c.batch) c.batch (grp c z) ∧
      (0 < rng c (b * c.batch) c.batch z → b * c.batch % c.size = grp c z) := by
  rcases hdiv with ⟨q, hq⟩ | ⟨q, hq⟩
  · -- the group is one of several
    have key : ∀ w, w < c.size → rng c (b * c.batch) c.batch w = if b * c.batch % c.size = grp c w then 1 else 0 := by
      intro w hw
      have hmod : b * c.batch % c.size = (b % q) * c.batch := by
        rw [hq, Nat.mul_comm c.batch q, Nat.mul_mod_mul_right]
      have hg : grp c w = (w / c.batch) * c.batch := by unfold grp; rw [sub_mod_div, Nat.mul_comm]
      have hqp : 0 < q := by
        rcases Nat.eq_zero_or_pos q with h | h
        · rw [h] at hq; omega
        · exact h
      have hlt : b % q < q := Nat.mod_lt _ hqp
      have hin : ∀ a, a < c.batch → (b * c.batch + a) % c.size = (b % q) * c.batch + a := by
        intro a ha
        rw [Nat.add_mod, hmod]
        have : (b % q) * c.batch + c.batch ≤ c.size := by
          rw [hq]
          calc (b % q) * c.batch + c.batch = (b % q + 1) * c.batch := by rw [Nat.add_mul]; omega
            _ ≤ q * c.batch := Nat.mul_le_mul_right _ hlt
            _ = c.batch * q := Nat.mul_comm _ _
        rw [Nat.mod_eq_of_lt (show a < c.size from by omega), Nat.mod_eq_of_lt (by omega)]
      rw [hmod, hg]
      have hwm := Nat.mod_lt w hb
      have hwd := Nat.div_add_mod w c.batch
      by_cases he : b % q = w / c.batch
      · rw [if_pos (by rw [he])]
        -- exactly one
        have hsplit : c.batch = w % c.batch + (1 + (c.batch - w % c.batch - 1)) := by omega
        have e1 : rng c (b * c.batch) (w % c.batch) w = 0 := by
          apply rng_none
          intro j h1 h2 h3
          have := hin (j - b * c.batch) (by omega)
          rw [show b * c.batch + (j - b * c.batch) = j from by omega, h3, he, Nat.mul_comm] at this
          omega
        have e3 : rng c (b * c.batch + w % c.batch + 1) (c.batch - w % c.batch - 1) w = 0 := by
          apply rng_none
          intro j h1 h2 h3
          have := hin (j - b * c.batch) (by omega)
          rw [show b * c.batch + (j - b * c.batch) = j from by omega, h3, he, Nat.mul_comm] at this
          omega
        have e2 : rng c (b * c.batch + w % c.batch) 1 w = 1 := by
          rw [rng_succ, rng_zero, if_pos]
          rw [hin _ hwm, he, Nat.mul_comm]
          exact hwd
        have : rng c (b * c.batch) (w % c.batch + (1 + (c.batch - w % c.batch - 1))) w = 1 := by
          rw [rng_add, rng_add, e1, e2, e3]
        rw [← hsplit] at this
        exact this
      · rw [if_neg (by intro h; exact he (Nat.eq_of_mul_eq_mul_right hb h))]
        apply rng_none
        intro j h1 h2 h3
        have := hin (j - b * c.batch) (by omega)
        rw [show b * c.batch + (j - b * c.batch) = j from by omega, h3] at this
        apply he
        rw [this, Nat.mul_comm (b % q), Nat.mul_add_div hb, Nat.div_eq_of_lt (by omega)]; omega
    have hgl : grp c z < c.size := by unfold grp; omega
    have hgg := grp_grp c z
    refine ⟨?_, ?_⟩
    · rw [key z hz, key _ hgl, hgg]
    · intro h; rw [key z hz] at h
      by_cases e : b * c.batch % c.size = grp c z
      · exact e
      · rw [if_neg e] at h; omega
  · -- a batch is several rounds
    have hle : c.size ≤ c.batch := by
      rcases Nat.eq_zero_or_pos q with h | h
      · rw [h] at hq; omega
      · rw [hq]; exact Nat.le_mul_of_pos_right _ h
    have hg : grp c z = 0 := by unfold grp; rw [Nat.mod_eq_of_lt (by omega)]; omega
    have hm : b * c.batch % c.size = 0 := by
      rw [hq, Nat.mul_left_comm]; exact Nat.mul_mod_right _ _
    rw [hg]
    refine ⟨?_, fun _ => hm⟩
    have one : ∀ (i w : Nat), w < c.size → i % c.size = 0 → rng c i c.size w = 1 := by
      intro i w hw hi
      have e1 : rng c i w w = 0 := by
        apply rng_none
        intro j h1 h2 h3
        rw [show j = i + (j - i) from by omega, Nat.add_mod, hi, Nat.zero_add, Nat.mod_mod, Nat.mod_eq_of_lt (by omega)] at h3
        omega
      have e2 : rng c (i + w) 1 w = 1 := by
        rw [rng_succ, rng_zero, if_pos]
        rw [Nat.add_mod, hi, Nat.zero_add, Nat.mod_mod, Nat.mod_eq_of_lt hw]
      have e3 : rng c (i + w + 1) (c.size - w - 1) w = 0 := by
        apply rng_none
        intro j h1 h2 h3
        rw [show j = i + (j - i) from by omega, Nat.add_mod, hi, Nat.zero_add, Nat.mod_mod, Nat.mod_eq_of_lt (by omega)] at h3
        omega
      have : rng c i (w + (1 + (c.size - w - 1))) w = 1 := by rw [rng_add, rng_add, e1, e2, e3]
      rw [show w + (1 + (c.size - w - 1)) = c.size from by omega] at this
      exact this
    have many : ∀ (q i w : Nat), w < c.size → i % c.size = 0 → rng c i (c.size * q) w = q := by
      intro q
      induction q with
      | zero => intro i w _ _; rfl
      | succ q ih =>
        intro i w hw hi
        rw [Nat.mul_succ, rng_add, ih i w hw hi, one _ w hw]
        rw [Nat.add_mul_mod_self_left]; exact hi
    have e1 : rng c (b * c.batch) c.batch z = q := by
      have := many q (b * c.batch) z hz hm
      rw [← hq] at this; exact this
    have e2 : rng c (b * c.batch) c.batch 0 = q := by
      have := many q (b * c.batch) 0 hs hm
      rw [← hq] at this; exact this
    rw [e1, e2]

theorem rng_tail {c : Cfg} (hs : 0 < c.size) (hb : 0 < c.batch) (hdiv : c.batch ∣ c.size ∨ c.size ∣ c.batch) {z : Nat} (hz : z < c.size) (b : Nat) :
    rng c 0 (b * c.batch) z = rng c 0 (b * c.batch) (grp c z) := by
  induction b with
  | zero => simp [rng_zero]
  | succ b ih =>
    rw [Nat.succ_mul, rng_add, rng_add, ih, Nat.zero_add, (rng_batch hs hb hdiv hz b).1]

/-! ## Everybody is idle or asleep -/

theorem exists_min {α : Type} (P : α → Prop) (f : α → Nat) (a : α) (ha : P a) : ∃ b, P b ∧ ∀ x, P x → f b ≤ f x := by
  have : ∀ n, ∀ a, P a → f a ≤ n → ∃ b, P b ∧ ∀ x, P x → f b ≤ f x := by
    intro n
    induction n with
    | zero => intro a ha h; exact ⟨a, ha, fun x _ => by omega⟩
    | succ n ih =>
      intro a ha h
      by_cases hx : ∃ x, P x ∧ f x < f a
      · obtain ⟨x, h1, h2⟩ := hx
        exact ih x h1 (by omega)
      · refine ⟨a, ha, fun x hx' => ?_⟩
        rcases Nat.lt_or_ge (f x) (f a) with h1 | h1
        · exact absurd ⟨x, hx', h1⟩ hx
        · exact h1
  exact this (f a) a ha (Nat.le_refl _)

theorem sumBy_le {α : Type} {f g : α → Nat} {l : List α} (h : ∀ a ∈ l, f a ≤ g a) : sumBy f l ≤ sumBy g l := by
  induction l with
  | nil => exact Nat.le_refl _
  | cons x xs ih =>
    have h1 := ih (fun a ha => h a (by simp [ha]))
    have h2 := h x (by simp)
    simp only [sumBy, List.map_cons, List.sum_cons] at h1 ⊢
    omega

theorem sumBy_congr {α : Type} {f g : α → Nat} {l : List α} (h : ∀ a ∈ l, f a = g a) : sumBy f l = sumBy g l :=
  Nat.le_antisymm (sumBy_le fun a ha => Nat.le_of_eq (h a ha)) (sumBy_le fun a ha => Nat.le_of_eq (h a ha).symm)

theorem sumBy_pos {α : Type} {f : α → Nat} {l : List α} (h : 0 < sumBy f l) : ∃ a ∈ l, 0 < f a := by
  induction l with
  | nil => simp [sumBy] at h
  | cons x xs ih =>
    by_cases hx : 0 < f x
    · exact ⟨x, by simp, hx⟩
    · simp only [sumBy, List.map_cons, List.sum_cons] at h ih
      obtain ⟨a, ha, h2⟩ := ih (by omega)
      exact ⟨a, by simp [ha], h2⟩

theorem le_sumBy_mem {α : Type} (f : α → Nat) {l : List α} {a : α} (h : a ∈ l) : f a ≤ sumBy f l := by
  obtain ⟨t, ht⟩ := List.getElem?_of_mem h
  exact le_sumBy f ht

/-- What the operations look like when everybody is idle or asleep on an unchanged slot. -/
structure Quiet (c : Cfg) (s : State) : Prop where
  ops : ∀ op ∈ s.ops, op = .idle ∨
    (∃ i n ents, op = .push i n ents ∧ cnt (s.slot (i % c.size)) = 1) ∨
    (∃ b, op = .pop (b * c.batch) c.batch [] true ∧ cnt (s.slot (b * c.batch % c.size)) ≤ 0)

theorem quiet_empty {c : Cfg} {s : State} (hs : 0 < c.size) (hb : 0 < c.batch) (hdiv : c.batch ∣ c.size ∨ c.size ∣ c.batch)
    (hc : Core c s s.ops) (ha : Aligned c s) (hq : Quiet c s) (hw : ∃ op ∈ s.ops, ∃ i n got bl, op = .pop i n got bl) :
    ∀ z, z < c.size → cnt (s.slot z) ≤ 0 := by
  obtain ⟨B, hB⟩ := ha.1
  -- pops done, pushes done
  obtain ⟨RC, hRC⟩ : ∃ RC : Nat → Nat, ∀ z, RC z + sumBy (pendPop c z) s.ops = rng c 0 s.tail z :=
    ⟨fun z => rng c 0 s.tail z - sumBy (pendPop c z) s.ops, fun z => by have := hc.pops z; dsimp only; omega⟩
  obtain ⟨RP, hRP⟩ : ∃ RP : Nat → Nat, ∀ z, RP z + sumBy (pendPush c z) s.ops = rng c 0 s.head z :=
    ⟨fun z => rng c 0 s.head z - sumBy (pendPush c z) s.ops, fun z => by have := hc.pushes z; dsimp only; omega⟩
  have hcnt : ∀ z, z < c.size → cnt (s.slot z) = (RP z : Int) - RC z := by
    intro z hz
    have h1 := hc.bal z hz
    have h2 := hRC z
    have h3 := hRP z
    omega
  have hgl : ∀ z, z < c.size → grp c z < c.size := by intro z hz; unfold grp; omega
  -- slots of a group are popped together
  have hpp : ∀ z, z < c.size → sumBy (pendPop c z) s.ops = sumBy (pendPop c (grp c z)) s.ops := by
    intro z hz
    apply sumBy_congr
    intro op hop
    rcases hq.ops op hop with rfl | ⟨i, n, ents, rfl, _⟩ | ⟨b, rfl, _⟩
    · rfl
    · rfl
    · exact (rng_batch hs hb hdiv hz b).1
  have hRCg : ∀ z, z < c.size → RC z = RC (grp c z) := by
    intro z hz
    have h1 := hRC z
    have h2 := hRC (grp c z)
    have h3 := rng_tail hs hb hdiv hz B
    rw [hB] at h1 h2
    have h4 := hpp z hz
    omega
  -- the sleeping consumer that comes first
  obtain ⟨op0, hop0, i0, n0, got0, bl0, he0⟩ := hw
  have hb0 : ∃ b, Op.pop (b * c.batch) c.batch [] true ∈ s.ops := by
    rcases hq.ops op0 hop0 with rfl | ⟨i, n, ents, rfl, _⟩ | ⟨b, rfl, _⟩
    · cases he0
    · cases he0
    · exact ⟨b, hop0⟩
  obtain ⟨b0, hb0⟩ := hb0
  obtain ⟨b, hbm, hmin⟩ := exists_min (fun b => Op.pop (b * c.batch) c.batch [] true ∈ s.ops)
    (fun b => RC (b * c.batch % c.size) * c.size + b * c.batch % c.size) b0 hb0
  obtain ⟨x, hx⟩ : ∃ x, x = b * c.batch % c.size := ⟨_, rfl⟩
  have hxl : x < c.size := by rw [hx]; exact Nat.mod_lt _ hs
  have hcx : cnt (s.slot x) ≤ 0 := by
    rcases hq.ops _ hbm with h | ⟨i, n, ents, h, _⟩ | ⟨b', h, hle⟩
    · cases h
    · cases h
    · injection h with e _ _ _
      rw [hx, e]; exact hle
  have hlt : RC x < rng c 0 s.tail x := by
    have h1 := hRC x
    have h2 := le_sumBy_mem (pendPop c x) hbm
    have h3 : 1 ≤ pendPop c x (.pop (b * c.batch) c.batch [] true) := by
      simp only [pendPop]
      obtain ⟨m, hm⟩ : ∃ m, c.batch = m + 1 := ⟨c.batch - 1, by omega⟩
      have : rng c (b * c.batch) c.batch x = rng c (b * c.batch) (m + 1) x := by rw [← hm]
      rw [this, rng_succ, if_pos hx.symm]
      omega
    omega
  have hmul : ∀ z R, z < x → R < RC x + 1 → R * c.size + z < RC x * c.size + x := by
    intro z R h1 h2
    have := Nat.mul_le_mul_right c.size (show R ≤ RC x from by omega)
    omega
  -- all slots before it have been popped once more
  have hA : ∀ z, z < c.size → RC x + (if z < x then 1 else 0) ≤ RC z := by
    intro z hz
    rw [hRCg z hz]
    have hgz := hgl z hz
    have hgle : grp c z ≤ z := by unfold grp; omega
    by_cases hp : 0 < sumBy (pendPop c (grp c z)) s.ops
    · obtain ⟨op, hop, hpos⟩ := sumBy_pos hp
      rcases hq.ops op hop with rfl | ⟨i, n, ents, rfl, _⟩ | ⟨b', rfl, _⟩
      · simp [pendPop] at hpos
      · simp [pendPop] at hpos
      · have hgg := grp_grp c z
        have h1 := (rng_batch hs hb hdiv hgz b').2 hpos
        rw [hgg] at h1
        have h2 := hmin b' hop
        rw [h1, ← hx] at h2
        -- RC x * size + x ≤ RC g * size + g
        rcases Nat.lt_or_ge (RC (grp c z)) (RC x + (if z < x then 1 else 0)) with h3 | h3
        · exfalso
          by_cases hzx : z < x
          · rw [if_pos hzx] at h3
            have := hmul (grp c z) (RC (grp c z)) (by omega) h3
            omega
          · rw [if_neg hzx] at h3
            have := Nat.mul_le_mul_right c.size (show RC (grp c z) + 1 ≤ RC x from by omega)
            rw [Nat.add_mul] at this
            omega
        · exact h3
    · have h1 := hRC (grp c z)
      have h2 : RC (grp c z) = rng c 0 s.tail (grp c z) := by omega
      rw [rng_lt_iff hs hxl] at hlt
      rcases Nat.lt_or_ge (RC (grp c z)) (RC x + (if z < x then 1 else 0)) with h3 | h3
      · exfalso
        have h4 : ¬ RC (grp c z) < rng c 0 s.tail (grp c z) := by omega
        rw [rng_lt_iff hs hgz] at h4
        by_cases hzx : z < x
        · rw [if_pos hzx] at h3
          have := hmul (grp c z) (RC (grp c z)) (by omega) h3
          omega
        · rw [if_neg hzx] at h3
          have := Nat.mul_le_mul_right c.size (show RC (grp c z) + 1 ≤ RC x from by omega)
          rw [Nat.add_mul] at this
          omega
      · exact h3
  have hPx : RP x ≤ RC x := by have := hcnt x hxl; omega
  -- tickets for pushes
  have hH : ∀ z, z < c.size → rng c 0 s.head z ≤ rng c 0 s.head x + (if z < x then 1 else 0) := by
    intro z hz
    rcases Nat.lt_or_ge (rng c 0 s.head x + (if z < x then 1 else 0)) (rng c 0 s.head z) with h | h
    · exfalso
      rw [rng_lt_iff hs hz] at h
      have h2 : ¬ rng c 0 s.head x < rng c 0 s.head x := by omega
      rw [rng_lt_iff hs hxl] at h2
      by_cases hzx : z < x
      · rw [if_pos hzx, Nat.add_mul] at h; omega
      · rw [if_neg hzx, Nat.add_zero] at h; omega
    · exact h
  -- no producer has a ticket for the slot that the consumer waits for
  have hnone : sumBy (pendPush c x) s.ops = 0 := by
    rcases Nat.eq_zero_or_pos (sumBy (pendPush c x) s.ops) with h | h
    · exact h
    · exfalso
      obtain ⟨op, hop, hpos⟩ := sumBy_pos h
      obtain ⟨op, ⟨hop, hpos⟩, hnear⟩ := exists_min (fun op => op ∈ s.ops ∧ 0 < pendPush c x op) (fun op => dist c (op.slot c) x) op ⟨hop, hpos⟩
      have hform : ∀ op ∈ s.ops, 0 < pendPush c x op → ∃ i n ents, op = .push i n ents ∧ cnt (s.slot (i % c.size)) = 1 := by
        intro op hop hpos
        rcases hq.ops op hop with rfl | h | ⟨b', rfl, _⟩
        · simp [pendPush] at hpos
        · exact h
        · simp [pendPush] at hpos
      obtain ⟨i, n, ents, rfl, hfull⟩ := hform op hop hpos
      have hz : i % c.size < c.size := Nat.mod_lt _ hs
      have hge : sumBy (pendPush c x) s.ops ≤ sumBy (pendPush c (i % c.size)) s.ops := by
        apply sumBy_le
        intro op' hop'
        rcases Nat.eq_zero_or_pos (pendPush c x op') with h0 | h0
        · omega
        · obtain ⟨i', n', ents', rfl, _⟩ := hform op' hop' h0
          have hd := hnear (.push i' n' ents') ⟨hop', h0⟩
          exact rng_near hs hz hxl i' n' hd
      have h1 := hRP (i % c.size)
      have h2 := hRP x
      have h3 := hH (i % c.size) hz
      have h4 := hA (i % c.size) hz
      have h5 := hcnt (i % c.size) hz
      omega
  intro z hz
  have h1 := hRP x
  have h2 := hRP z
  have h3 := hA z hz
  have h4 := hcnt z hz
  have h5 := hH z hz
  omega

end Verif.Ioq
