import Verif.Lemmas.IoqStuck
/-!
# A thread that is neither idle nor asleep can move
-/
namespace Verif.Ioq

theorem step_thread {c : Cfg} {s s' : State} {t : Nat} (st : Step c s t s') : ∃ th : Thread, s.threads[t]? = some th := by
  cases st <;> exact ⟨_, by assumption⟩

/-- The owner of a mutex can move. -/
theorem owner_moves {c : Cfg} {s : State} (hm : Mutex c s) {m u : Nat} (h : s.owner m = some u) :
    ∃ th s', s.threads[u]? = some th ∧ Step c s u s' ∧ th.holds c = some m := by
  have hl := hm.dom m u h
  obtain ⟨th, ht⟩ : ∃ th, s.threads[u]? = some th := ⟨_, List.getElem?_eq_getElem hl⟩
  have hh := (hm.own u th ht m).2 h
  obtain ⟨op, pc⟩ := th
  refine ⟨⟨op, pc⟩, ?_⟩
  cases pc with
  | check p =>
    by_cases e : s.slot (op.slot c) = p
    · exact ⟨_, ht, .checkSame op p ht e, hh⟩
    · exact ⟨_, ht, .checkChanged op p ht e, hh⟩
  | cas p =>
    by_cases e : s.slot (op.slot c) = p
    · exact ⟨_, ht, .casOk op p ht e, hh⟩
    · exact ⟨_, ht, .casFail op p ht e, hh⟩
  | sleepy v => exact ⟨_, ht, .sleep op v ht, hh⟩
  | recheck v => exact ⟨_, ht, .recheck op v ht, hh⟩
  | unlock v => exact ⟨_, ht, .unlock op v ht, hh⟩
  | wunlock i => exact ⟨_, ht, .wunlock op i ht, hh⟩
  | _ => simp [Thread.holds] at hh

theorem not_stuck {c : Cfg} {s : State} (hm : Mutex c s) (hq : s.stuck c) {t : Nat} {th : Thread} (ht : s.threads[t]? = some th) :
    th.idle ∨ th.asleep := by
  have go : ∀ {s'}, Step c s t s' → th.idle ∨ th.asleep := by
    intro s' st
    obtain ⟨th', h1, h2⟩ := hq t s' st
    rw [ht] at h1; cases h1; exact h2
  have nolock : ∀ m, s.owner m = none := by
    intro m
    cases ho : s.owner m with
    | none => rfl
    | some u =>
      exfalso
      obtain ⟨th', s', h1, h2, h3⟩ := owner_moves hm ho
      obtain ⟨th'', h4, h5⟩ := hq u s' h2
      rw [h1] at h4; cases h4
      rcases h5 with h5 | ⟨v, h5⟩
      · unfold Thread.idle at h5; rw [h5] at h3; simp [Thread.holds] at h3
      · unfold Thread.holds at h3; rw [h5] at h3; simp at h3
  obtain ⟨op, pc⟩ := th
  cases pc with
  | go =>
    cases op with
    | idle => exact Or.inl rfl
    | push i n ents =>
      cases n with
      | zero =>
        cases ents with
        | nil => exact go (.donePush i ht)
        | cons e es => exact go (.claimPush i (e :: es) ht (by simp))
      | succ n => exact go (.load _ ht rfl)
    | popStart b => exact go (.claimPop b ht)
    | pop i n got b =>
      cases n with
      | zero => exact go (.donePop i got b ht)
      | succ n => exact go (.load _ ht rfl)
  | try_ p =>
    cases hw : op.waits p with
    | true => exact go (.wait op p ht hw)
    | false => exact go (.retry op p ht hw)
  | lock p => exact go (.lock op p ht (nolock _))
  | check p =>
    by_cases e : s.slot (op.slot c) = p
    · exact go (.checkSame op p ht e)
    · exact go (.checkChanged op p ht e)
  | cas p =>
    by_cases e : s.slot (op.slot c) = p
    · exact go (.casOk op p ht e)
    · exact go (.casFail op p ht e)
  | sleepy v => exact go (.sleep op v ht)
  | asleep v => exact Or.inr ⟨v, rfl⟩
  | woken v => exact go (.relock op v ht (nolock _))
  | recheck v => exact go (.recheck op v ht)
  | unlock v => exact go (.unlock op v ht)
  | wlock i => exact go (.wlock op i ht (nolock _))
  | wunlock i => exact go (.wunlock op i ht)
  | wcast i => exact go (.wcast op i ht)

/-- When nothing can move, the sleepers' slots are as they were. -/
theorem stuck_slot {c : Cfg} {s : State} (hm : Mutex c s) (hw : Wakes c s) (hq : s.stuck c) {t : Nat} {th : Thread} {v : W}
    (ht : s.threads[t]? = some th) (hv : th.pc = .asleep v) : s.slot (th.op.slot c) = v := by
  rcases (hw t th ht v).2 hv with h | ⟨k, u, hk, hu⟩
  · exact h
  · exfalso
    rcases not_stuck hm hq hk with h | ⟨v', h⟩
    · unfold Thread.idle at h; rw [h] at hu; simp [isWaker] at hu
    · rw [h] at hu; simp [isWaker] at hu

theorem stuck_quiet {c : Cfg} {n : Nat} {s : State} (hs : 0 < c.size) (r : Reach c n s) (hb : s.tail ≤ 2 ^ 62) (hq : s.stuck c) : Quiet c s := by
  obtain ⟨h1, h2, h3, h4⟩ := reach_sync hs r
  have hc := (reach_core hs r hb).1
  refine ⟨?_⟩
  intro op hop
  unfold State.ops at hop
  obtain ⟨th, hth, rfl⟩ := List.mem_map.1 hop
  obtain ⟨t, ht⟩ := List.getElem?_of_mem hth
  rcases not_stuck h3 hq ht with h | ⟨v, hv⟩
  · left; unfold Thread.idle at h; rw [h]
  · right
    have hsl := stuck_slot h3 h4 hq ht hv
    have ok := h2 th hth
    have hal := (reach_aligned hs r).2 th.op hop
    have hop' := ops_get ht
    obtain ⟨op, pc⟩ := th
    dsimp only at hv hsl ok hal hop' ⊢
    subst hv
    have hpc := ok.2
    have hok := ok.1
    obtain ⟨hact, hwt, -⟩ := hpc
    cases op with
    | idle => exact absurd hact (by simp [Op.active])
    | popStart b => exact absurd hact (by simp [Op.active])
    | push i n ents =>
      left
      refine ⟨i, n, ents, rfl, ?_⟩
      have : pushFull v = true := hwt
      rw [pushFull_iff] at this
      show cnt (s.slot (i % c.size)) = 1
      rw [show s.slot (i % c.size) = v from hsl]; exact this
    | pop i n got bl =>
      right
      cases n with
      | zero => exact absurd hact (by simp [Op.active])
      | succ n =>
        simp only [Op.waits, Bool.and_eq_true, List.isEmpty_iff, bne_iff_ne] at hwt
        obtain ⟨⟨hbl, hg⟩, hpn⟩ := hwt
        obtain ⟨b, hbe⟩ := hal
        subst hg hbl
        have hlen : n + 1 = c.batch := by have := hok.2; simpa using this
        have hi : i = b * c.batch := by simpa using hbe
        have hsp := pop_spec (cnt_lower hc hop' hs hb)
        refine ⟨b, by rw [hi, hlen], ?_⟩
        rw [← hi]
        have hne : cnt (s.slot (i % c.size)) ≠ 1 := by
          apply hsp.2.2.1.1
          rw [show s.slot (i % c.size) = v from hsl]; exact hpn
        have hle : ∀ w, cnt w ≤ 1 := by
          intro w
          have := w.isLt
          unfold cnt bits
          split
          · omega
          · split <;> omega
        have := hle (s.slot (i % c.size))
        omega

theorem queued_nil {c : Cfg} {s : State} (hl : s.slots.length = c.size) (h : ∀ z, z < c.size → cnt (s.slot z) ≤ 0) : s.queued = [] := by
  unfold State.queued
  rw [List.flatMap_eq_nil_iff]
  intro w hw
  obtain ⟨k, hk⟩ := List.getElem?_of_mem hw
  have hlt := (List.getElem?_eq_some_iff.1 hk).1
  have := h k (by omega)
  have e := slot_getElem hlt
  rw [hk] at e
  have e := Option.some.inj e
  rw [← e] at this
  unfold held
  rw [if_neg (by omega)]; rfl

theorem wrap_mod (i k : Nat) (hk : k < 64) : ((BitVec.ofNat 64 i) &&& (BitVec.ofNat 64 (2 ^ k - 1))).toNat = i % 2 ^ k := by
  rw [BitVec.toNat_and, BitVec.toNat_ofNat, BitVec.toNat_ofNat]
  have h1 : 2 ^ k ≤ 2 ^ 63 := Nat.pow_le_pow_right (by omega) (by omega)
  have h2 : 0 < 2 ^ k := Nat.pow_pos (by omega)
  rw [Nat.mod_eq_of_lt (show 2 ^ k - 1 < 2 ^ 64 from by omega), Nat.and_two_pow_sub_one_eq_mod]
  exact Nat.mod_mod_of_dvd _ (Nat.pow_dvd_pow 2 (by omega))

end Verif.Ioq
