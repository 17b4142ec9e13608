import Verif.Lemmas.UringRun
/-!
# With a kernel that makes progress, the loops end
-/
namespace Verif.Uring

open Verif.Ioq (W Batch nonNull InB OutB)

/-- It returns, and time does not go backwards. -/
def Returns (s : State) (r : Res State) : Prop := ∃ s', r = .done s' ∧ s.now ≤ s'.now

theorem post_done {α : Type} {c : Cfg} {e : Env} {P : α → Prop} {r : Res α} {a : α} (h : Post c e P r) (hr : r = .done a) : P a := by
  rw [hr] at h; exact h

theorem completeAll_now (l : List (Nat × Int)) : ∀ s : State, (s.completeAll l).now = s.now ∧ s.cq.length ≤ (s.completeAll l).cq.length := by
  induction l with
  | nil => intro s; exact ⟨rfl, Nat.le_refl _⟩
  | cons y l ih =>
    intro s
    obtain ⟨i, r⟩ := y
    unfold State.completeAll
    cases s.flight[i]? with
    | none => dsimp only; exact ih s
    | some ent =>
      dsimp only
      have := ih { s with flight := s.flight.eraseIdx i, cq := s.cq ++ [(ent, r)], completed := s.completed ++ [(ent, r)] }
      refine ⟨this.1, ?_⟩
      have h2 := this.2
      simp only [List.length_append, List.length_cons, List.length_nil] at h2
      omega

theorem kernel_now (e : Env) (s : State) : (s.kernel e).now = s.now + 1 := by
  show (s.completeAll (e.complete s.now)).now + 1 = _
  rw [(completeAll_now _ s).1]

theorem kernel_progress {e : Env} (hp : e.Progress) {s : State} (h : 0 < s.flight.length + s.cq.length) : 0 < (s.kernel e).cq.length := by
  show 0 < (s.completeAll (e.complete s.now)).cq.length
  obtain ⟨r, l, hl⟩ := hp.completes s.now
  by_cases hq : 0 < s.cq.length
  · have := (completeAll_now (e.complete s.now) s).2
    omega
  · rw [hl]
    unfold State.completeAll
    cases hf : s.flight with
    | nil => rw [hf] at h; simp at h; simp at hq; exact absurd hq (by intro h0; rw [h0] at h; simp at h)
    | cons ent fl =>
      simp only [List.getElem?_cons_zero]
      have := (completeAll_now l { s with flight := (ent :: fl).eraseIdx 0, cq := s.cq ++ [(ent, r)], completed := s.completed ++ [(ent, r)] }).2
      simp only [List.length_append, List.length_cons, List.length_nil] at this
      omega

theorem push_now {c : Cfg} {s s' : State} {ent : W} {r : Int} (h : s.push c ent r = .done s') : s'.now = s.now := by
  unfold State.push at h
  split at h
  · cases h; rfl
  · cases h

theorem reap_now {c : Cfg} {e : Env} {s s' : State} {ent : W} {r : Int} (h : reap c e s ent r = .done s') : s.now ≤ s'.now := by
  unfold reap at h
  split at h
  · rw [push_now h]; exact Nat.le_refl _
  · split at h
    · unfold reapOpendir at h
      split at h
      · rw [push_now h]; exact Nat.le_succ _
      · dsimp only at h
        split at h
        · rw [push_now h]; exact Nat.le_succ _
        · rw [push_now h]; exact Nat.le_succ _
    · split at h
      · rw [push_now h]; exact Nat.le_succ _
      · rw [push_now h]; exact Nat.le_refl _
    · rw [push_now h]; exact Nat.le_refl _

theorem reapAll_now {c : Cfg} {e : Env} (l : List (W × Int)) : ∀ {s s' : State}, reapAll c e l s = .done s' → s.now ≤ s'.now := by
  induction l with
  | nil => intro s s' h; cases h; exact Nat.le_refl _
  | cons y l ih =>
    intro s s' h
    obtain ⟨ent, r⟩ := y
    unfold reapAll at h
    cases h1 : reap c e { s with cq := l, seen := s.seen + 1 } ent r with
    | done s1 =>
      rw [h1] at h
      have h2 := reap_now h1
      exact Nat.le_trans h2 (ih h)
    | more s1 => rw [h1] at h; cases h
    | ub => rw [h1] at h; cases h

theorem drainLoop_ends {c : Cfg} {e : Env} (hc : c.Good) (hp : e.Progress) (n : Nat) : ∀ (wait : Nat) {s : State}, Inv c e [] s → s.seen = 0 →
    wait ≤ s.submitted → s.submitted < n → Returns s (drainLoop c e n wait s) := by
  induction n with
  | zero => intro _ s _ _ _ h; cases h
  | succ n ih =>
    intro wait s h hs hw hn
    unfold drainLoop
    by_cases h0 : s.submitted = 0
    · rw [if_pos h0]; exact ⟨s, rfl, Nat.le_refl _⟩
    · rw [if_neg h0]
      dsimp only
      obtain ⟨k1, k2, k3, _⟩ := kernel_inv (e := e) h
      have hs' : (s.kernel e).seen = 0 := k3.trans hs
      rw [k1.seenZero hs']
      obtain ⟨s1, a1, a2, a3, a4, a5, a6⟩ := reapAll_inv hc (s.kernel e).cq k1 rfl
      have hnow := reapAll_now _ a1
      rw [kernel_now] at hnow
      rw [a1]
      obtain ⟨r1, r2⟩ := a2.reaped a4
      have hseen : 0 < s1.seen := by
        have hsub := h.submitted
        have := kernel_progress hp (s := s) (by omega)
        omega
      have hsub : s1.submitted = s.submitted := a3.submitted.trans k2.submitted
      show Returns s (if s1.seen ≤ s1.submitted then _ else _)
      rw [if_pos r1]
      by_cases hd : wait ≤ s1.seen
      · rw [if_pos hd]; exact ⟨_, rfl, by dsimp only; omega⟩
      · rw [if_neg hd]
        obtain ⟨s', b1, b2⟩ := ih (wait - s1.seen) r2 rfl (by dsimp only; omega) (by dsimp only; omega)
        exact ⟨s', b1, by dsimp only at b2; omega⟩

theorem drain_ends {c : Cfg} {e : Env} (hc : c.Good) (hp : e.Progress) {n : Nat} {s : State} {wait : Nat} (h : Inv c e [] s) (hs : s.seen = 0)
    (hw : wait ≤ s.submitted) (hn : s.submitted < n) : Returns s (drain c e n s wait) := by
  unfold drain
  rw [if_pos hw]
  obtain ⟨s', h1, h2⟩ := drainLoop_ends hc hp n wait h hs hw hn
  rw [h1]
  exact ⟨_, rfl, h2⟩

theorem submitSome_now (e : Env) (s : State) : (s.submitSome e).1.now = s.now + 1 := kernel_now _ _

theorem submitLoop_ends {c : Cfg} {e : Env} (hc : c.Good) (hp : e.Progress) (n : Nat) : ∀ (wait : Nat) {s : State}, Inv c e [] s → s.seen = 0 →
    wait ≤ s.prepped + s.submitted → s.prepped + s.submitted ≤ c.entries + wait → s.prepped + 2 * c.entries + 1 < n →
    ∃ r, submitLoop c e n wait s = .done r ∧ s.now ≤ r.1.now := by
  induction n with
  | zero => intro _ s _ _ _ _ h; cases h
  | succ n ih =>
    intro wait s h hs hw hb hn
    unfold submitLoop
    by_cases h0 : s.prepped = 0
    · rw [if_pos h0]; exact ⟨_, rfl, Nat.le_refl _⟩
    · rw [if_neg h0]
      dsimp only
      obtain ⟨a1, a2, a3, a4, a5, a6⟩ := submitSome_inv (e := e) h hs
      have hnow := submitSome_now e s
      have hk : (s.submitSome e).2 ≠ 0 := by
        have h1 := hp.submits s.now
        have h2 := h.prepped
        show min (e.submit s.now).toNat s.sq.length ≠ 0
        omega
      rw [if_neg hk, if_pos a1]
      have hbd := a6.bound
      dsimp only at hbd
      by_cases hpp : 0 < (s.submitSome e).1.prepped - (s.submitSome e).2
      · rw [if_pos hpp]
        obtain ⟨s', d1, d2⟩ := drain_ends hc hp (n := n) a6 a5 (Nat.le_refl _) (by dsimp only; omega)
        have hd := post_done (drain_inv hc n a6 a5 (Nat.le_refl _)) d1
        obtain ⟨e1, e2, e3, _, e5⟩ := hd
        rw [d1]
        have hp' := e5.prepped
        dsimp only at hp' e3 d2
        have hsp := e1.prepped
        have hsp' := e1.space
        obtain ⟨r, f1, f2⟩ := ih 0 e1 e2 (by omega) (by omega) (by omega)
        exact ⟨r, f1, by omega⟩
      · rw [if_neg hpp]
        obtain ⟨r, f1, f2⟩ := ih wait a6 a5 (by dsimp only; omega) (by dsimp only; omega) (by dsimp only; omega)
        exact ⟨r, f1, by dsimp only at f2; omega⟩

theorem submit_ends {c : Cfg} {e : Env} (hc : c.Good) (hp : e.Progress) {n : Nat} {s : State} (h : Inv c e [] s) (hs : s.seen = 0)
    (hn : 3 * c.entries + 1 < n) : Returns s (submit c e n s) := by
  unfold submit
  obtain ⟨w1, w2, w3⟩ := waitNr_spec c s
  have hpre := h.prepped
  have hsp := h.space
  obtain ⟨⟨s1, wait⟩, a1, a2⟩ := submitLoop_ends hc hp n (waitNr c s) h hs w1 w2 (by omega)
  have := post_done (submitLoop_inv hc n (waitNr c s) h hs w1 w2) a1
  obtain ⟨b1, b2, b3, b4, b5, _⟩ := this
  rw [a1]
  dsimp only at a2 b1 b2 b3 b4 b5
  have hbd := b1.bound
  obtain ⟨s', d1, d2⟩ := drain_ends hc hp (n := n) b1 b2 b4 (by omega)
  exact ⟨s', d1, Nat.le_trans a2 d2⟩

theorem reserve_ends {c : Cfg} {e : Env} (hc : c.Good) (hp : e.Progress) {n : Nat} {s : State} (h : Inv c e [] s) (hs : s.seen = 0)
    (hn : 3 * c.entries + 2 < n) : Returns s (reserve c e n s) := by
  obtain ⟨n, rfl⟩ : ∃ m, n = m + 1 := ⟨n - 1, by omega⟩
  unfold reserve
  by_cases hsp : c.entries - s.sq.length < 1
  · rw [if_pos hsp]
    obtain ⟨s1, a1, a2⟩ := submit_ends hc hp (n := n) h hs (by omega)
    have := post_done (submit_inv hc n h hs) a1
    obtain ⟨b1, b2, b3, b4, b5, b6, _⟩ := this
    rw [a1]
    obtain ⟨n, rfl⟩ : ∃ m, n = m + 1 := ⟨n - 1, by omega⟩
    refine ⟨s1, ?_, a2⟩
    show reserve c e (n + 1) s1 = _
    unfold reserve
    have h1 := b1.prepped
    have h2 := hc.ring
    rw [if_neg (by omega)]
  · rw [if_neg hsp]; exact ⟨s, rfl, Nat.le_refl _⟩

theorem prepSqe_ends {c : Cfg} {e : Env} (hc : c.Good) (hp : e.Progress) {n : Nat} {s : State} {ent : W} (h : Inv c e [] s) (hs : s.seen = 0)
    (hb : s.submitted ≤ c.entries) (hh : s.hand = [ent]) (hn : 3 * c.entries + 2 < n) : Returns s (prepSqe c e n s ent) := by
  have hpost := prepSqe_inv hc n h hs hb hh
  unfold prepSqe at hpost ⊢
  by_cases hx : checkCancel c e s ent = true
  · rw [if_pos hx] at hpost ⊢
    cases hr : { s with now := s.now + 1, hand := [], refused := s.refused ++ [ent] }.push c ent (-EINTR) with
    | done s' => exact ⟨s', rfl, by rw [push_now hr]; exact Nat.le_succ _⟩
    | more s' => unfold State.push at hr; split at hr <;> cases hr
    | ub => rw [hr] at hpost; exact absurd hpost id
  · rw [if_neg hx] at hpost ⊢
    by_cases ha : async c (c.op ent) = true
    · rw [if_pos ha] at hpost ⊢
      unfold getSqe
      obtain ⟨s1, a1, a2⟩ := reserve_ends hc hp (n := n) (h.now (s.now + 1)) hs hn
      have := post_done (reserve_inv hc n (h.now (s.now + 1)) hs hb) a1
      rw [a1]
      show Returns s (if s1.sq.length < c.entries then _ else _)
      rw [if_pos this.2.2.2.1]
      exact ⟨_, rfl, Nat.le_trans (Nat.le_succ _) a2⟩
    · rw [if_neg ha] at hpost ⊢
      cases hr : { s with now := s.now + 1, hand := [], synced := s.synced ++ [(ent, e.result s.now)] }.push c ent (e.result s.now) with
      | done s' => exact ⟨s', rfl, by rw [push_now hr]; exact Nat.le_succ _⟩
      | more s' => unfold State.push at hr; split at hr <;> cases hr
      | ub => rw [hr] at hpost; exact absurd hpost id

/-! ## After the marker has arrived -/

theorem offer_stop {c : Cfg} {e : Env} {T : Nat} (hT : e.StopsAt c T) {s : State} (ht : T ≤ s.now) :
    nonNull (s.offer e) = [] ∨ nonNull (s.offer e) = [c.stop] := by
  unfold State.offer
  split
  · exact .inr (hT.got _ ht)
  · exact hT.tryGot _ ht

/-- Once the marker has arrived, an entry comes from the batch, or it is the marker, or there is none. -/
theorem popped_stop {c : Cfg} {e : Env} (he : e.Proper c) {T : Nat} (hT : e.StopsAt c T) {s : State} (h : Inv c e [] s) (ht : T ≤ s.now) :
    (s.popped c e).2 = c.stop ∨ (s.popped c e).2 = 0#64 ∨ (s.popped c e).1.pending.content.length < s.pending.content.length := by
  have hlen : (s.offer e).length = c.B := by
    unfold State.offer; split
    · exact he.gotLen _
    · exact he.tryLen _
  obtain ⟨p1, p2, p3, p4, p5⟩ := Ioq.pop_spec' h.inb s.isEmpty hlen
  show (s.pending.pop c.B s.isEmpty (s.offer e)).2 = c.stop ∨ (s.pending.pop c.B s.isEmpty (s.offer e)).2 = 0#64 ∨
    (s.pending.pop c.B s.isEmpty (s.offer e)).1.content.length < _
  by_cases hcn : s.pending.content = []
  · by_cases hf : s.isEmpty = true ∨ c.B ≤ s.pending.head
    · rcases offer_stop hT ht with ho | ho
      · exact .inr (.inl (p5 hcn hf ho).1)
      · have := p4 hcn hf (by rw [ho]; simp)
        rw [ho] at this
        injection this with h1 h2
        exact .inl h1
    · have hb : s.isEmpty = false := by
        cases hz : s.isEmpty with
        | false => rfl
        | true => exact absurd (.inl hz) hf
      exact .inr (.inl (p3 hcn hb (by omega)).1)
  · have := p2 hcn
    refine .inr (.inr ?_)
    rw [← this, List.length_cons]; omega

theorem content_le {B : Nat} {b : Batch} (h : InB B b) : b.content.length ≤ B := by
  rw [Ioq.content_length h.len h.tail]
  have := h.tail
  omega

/-- How many more entries `ioq_ring_prep()` may take, at most. -/
def prepLeft (c : Cfg) (T : Nat) (s : State) : Nat := if T ≤ s.now then s.pending.content.length + 1 else (T - s.now) + c.B + 1

theorem prepLoop_ends {c : Cfg} {e : Env} (hc : c.Good) (he : e.Proper c) (hp : e.Progress) {T : Nat} (hT : e.StopsAt c T) (n : Nat) : ∀ {s : State},
    Inv c e [] s → s.seen = 0 → s.submitted ≤ c.entries → s.hand = [] → prepLeft c T s + 3 * c.entries + 3 < n →
    ∃ s', prepLoop c e n s = .done s' ∧ s.now < s'.now ∧
      (T ≤ s.now → s.pending.content = [] → s.isEmpty = true → s'.stop = true) ∧
      (T ≤ s.now → s.pending.content = [] → s'.stop = s.stop → s'.submitted = s.submitted ∧ s'.prepped = s.prepped) := by
  induction n with
  | zero => intro s _ _ _ _ h; cases h
  | succ n ih =>
    intro s h hs hb hh hn
    have hpop := fun ht => popped_stop he hT h (s := s) ht
    unfold prepLoop
    dsimp only
    obtain ⟨a1, a2, a3⟩ := popped_inv hc he h hh
    have hseen : (s.popped c e).1.seen = 0 := hs
    have hsub : (s.popped c e).1.submitted = s.submitted := rfl
    have hpre : (s.popped c e).1.prepped = s.prepped := rfl
    have hnow : (s.popped c e).1.now = s.now + 1 := rfl
    generalize hq : s.popped c e = q at a1 a2 a3 hseen hsub hpre hnow hpop ⊢
    obtain ⟨s1, ent⟩ := q
    dsimp only at a1 a2 a3 hseen hsub hpre hnow hpop ⊢
    by_cases h1 : ent = c.stop
    · rw [if_pos h1]
      exact ⟨_, rfl, by dsimp only; omega, fun _ _ _ => rfl, fun _ _ _ => ⟨hsub, hpre⟩⟩
    · rw [if_neg h1]
      by_cases h0 : ent ≠ 0#64
      · rw [if_pos h0]
        rw [if_neg h0] at a1
        have hdec : T ≤ s.now → s1.pending.content.length < s.pending.content.length := by
          intro ht
          rcases hpop ht with h2 | h2 | h2
          · exact absurd h2 h1
          · exact absurd h2 h0
          · exact h2
        obtain ⟨s2, b1, b2⟩ := prepSqe_ends hc hp (n := n) (ent := ent) a1 hseen (by dsimp only; omega) rfl (by unfold prepLeft at hn; split at hn <;> omega)
        obtain ⟨c1, c2, c3, c4, c5, c6⟩ := post_done (prepSqe_inv hc n a1 hseen (by dsimp only; omega) rfl) b1
        rw [b1]
        dsimp only at b2 c5 c6
        have hle := content_le a1.inb
        dsimp only at hle
        obtain ⟨s3, d1, d2, d3, d4⟩ := ih c1 c2 c3 c4 (by
          unfold prepLeft at hn ⊢
          rw [c6]
          by_cases ht : T ≤ s.now
          · have := hdec ht
            rw [if_pos ht] at hn
            rw [if_pos (by omega)]
            omega
          · rw [if_neg ht] at hn
            split <;> omega)
        refine ⟨s3, d1, by omega, ?_, ?_⟩
        · intro ht hcn
          have := hdec ht
          rw [hcn] at this
          simp at this
        · intro ht hcn
          have := hdec ht
          rw [hcn] at this
          simp at this
      · rw [if_neg h0]
        have h0' : ent = 0#64 := by simpa using h0
        refine ⟨s1, rfl, by omega, ?_, fun _ _ _ => ⟨hsub, hpre⟩⟩
        intro _ _ hem
        rw [(a2 h0').1] at hem
        cases hem

/-- How many more iterations of the main loop there may be, at most. -/
def workLeft (c : Cfg) (T : Nat) (s : State) : Nat :=
  if s.stop then 1 else if T ≤ s.now then s.submitted + 3 else (T - s.now) + c.entries + 3

theorem workLoop_ends {c : Cfg} {e : Env} (hc : c.Good) (he : e.Proper c) (hp : e.Progress) {T : Nat} (hT : e.StopsAt c T) (n : Nat) : ∀ {s : State},
    Idle c e s → workLeft c T s + T + c.B + 3 * c.entries + 5 < n → ∃ s', workLoop c e n s = .done s' := by
  induction n with
  | zero => intro s _ h; cases h
  | succ n ih =>
    intro s h hn
    unfold workLoop
    by_cases hst : s.stop = true
    · have : prep c e n s = .done (s, false) := by unfold prep; rw [if_pos hst]
      rw [this]
      exact ⟨s, rfl⟩
    · have hst' : s.stop = false := by simpa using hst
      have hcz : s.pending.reset.content = [] := by simp [Ioq.Batch.content, Ioq.Batch.reset]
      have hi : Inv c e [] { s with pending := s.pending.reset } :=
        h.inv.withPending s.now s.pending.reset s.received s.hand ⟨h.inv.inb.len, Nat.zero_le _⟩ (by intro p; rw [h.pending, hcz]) (.inl hcz)
      obtain ⟨s1, a1, a2, a3, a4⟩ := prepLoop_ends hc he hp hT n hi h.seen h.submitted h.hand (by
        unfold prepLeft
        dsimp only
        rw [hcz]
        split
        · simp; omega
        · omega)
      obtain ⟨b1, b2, b3, b4, b5, b6⟩ := post_done (prepLoop_inv hc he n hi h.seen h.submitted h.hand hst') a1
      have hprep : prep c e n s = .done (s1, !s1.isEmpty) := by
        unfold prep
        rw [if_neg hst, a1]
        show (if s1.pending.isEmpty then _ else _) = _
        rw [if_pos ((Ioq.empty_iff b1.inb.len b1.inb.tail).2 b5)]
      rw [hprep]
      show ∃ s', (if (!s1.isEmpty) = true then _ else _) = _
      by_cases hm : (!s1.isEmpty) = true
      · rw [if_pos hm]
        obtain ⟨s2, d1, d2⟩ := submit_ends hc hp (n := n) b1 b2 (by omega)
        obtain ⟨e1, e2, e3, e4, e5, e6, e7⟩ := post_done (submit_inv hc n b1 b2) d1
        rw [d1]
        refine ih ⟨e1, e2, e3, e4, e6.hand.trans b4, by rw [e6.pending]; exact b5, e5⟩ ?_
        have hst2 := e6.stop
        unfold workLeft at hn ⊢
        rw [if_neg hst] at hn
        by_cases hz : s2.stop = true
        · rw [if_pos hz]
          split at hn <;> omega
        · rw [if_neg hz]
          have hz1 : s1.stop = false := by rw [← hst2]; simpa using hz
          dsimp only at a2
          by_cases ht : T ≤ s.now
          · rw [if_pos ht] at hn
            rw [if_pos (by omega)]
            have hne : s.isEmpty = false := by
              cases hy : s.isEmpty with
              | false => rfl
              | true => have := a3 ht hcz hy; rw [hz1] at this; cases this
            have hsame := a4 ht hcz (by rw [hz1]; exact hst'.symm)
            dsimp only at hsame
            have hpos : 0 < s.submitted := by
              unfold State.isEmpty at hne
              rw [h.prepped, h.ready] at hne
              simp at hne
              omega
            have := e7 (by rw [hsame.2]; exact h.prepped) (by omega)
            omega
          · rw [if_neg ht] at hn
            split <;> omega
      · rw [if_neg hm]
        exact ⟨s1, rfl⟩

theorem work_ends {c : Cfg} {e : Env} (hc : c.Good) (he : e.Proper c) (hp : e.Progress) {T : Nat} (hT : e.StopsAt c T) : ∃ n s, work c e n = .done s := by
  refine ⟨workLeft c T (State.start c) + T + c.B + 3 * c.entries + 6, ?_⟩
  unfold work
  generalize hN : workLeft c T (State.start c) + T + c.B + 3 * c.entries + 6 = N
  obtain ⟨s, h⟩ := workLoop_ends hc he hp hT N (start_idle (e := e) hc) (by omega)
  obtain ⟨a1, a2, a3, a4, a5, a6⟩ := post_done (workLoop_inv hc he N (start_idle hc)) h
  rw [h]
  have := a1.bound
  obtain ⟨s', h', _⟩ := drain_ends hc hp (n := N) a1 a2 (Nat.le_refl _) (by omega)
  exact ⟨s', h'⟩

end Verif.Uring
