import Verif.Lemmas.Uring
/-!
# Draining, submitting and preparing
-/
namespace Verif.Uring

open Verif.Ioq (W Batch nonNull InB OutB)

/-- What draining leaves alone. -/
structure Keep (s s' : State) : Prop where
  sq : s'.sq = s.sq
  prepped : s'.prepped = s.prepped
  stop : s'.stop = s.stop
  pending : s'.pending = s.pending
  hand : s'.hand = s.hand

theorem Keep.refl (s : State) : Keep s s := ⟨rfl, rfl, rfl, rfl, rfl⟩
theorem Keep.trans {a b c : State} (h : Keep a b) (h' : Keep b c) : Keep a c :=
  ⟨h'.sq.trans h.sq, h'.prepped.trans h.prepped, h'.stop.trans h.stop, h'.pending.trans h.pending, h'.hand.trans h.hand⟩
theorem Same.keep {a b : State} (h : Same a b) : Keep a b := ⟨h.sq, h.prepped, h.stop, h.pending, h.hand⟩

theorem Inv.seenZero {c : Cfg} {e : Env} {s : State} (h : Inv c e [] s) (hs : s.seen = 0) : { s with seen := 0 } = s := by
  cases s; dsimp only at hs; rw [hs]

theorem Inv.reaped {c : Cfg} {e : Env} {s : State} (h : Inv c e [] s) (hq : s.cq = []) : s.seen ≤ s.submitted ∧
    Inv c e [] { s with submitted := s.submitted - s.seen, seen := 0 } := by
  have hsub := h.submitted
  rw [hq, List.length_nil] at hsub
  refine ⟨by omega, ?_⟩
  refine { inb := h.inb, out := h.out, prepped := h.prepped, submitted := ?_, space := h.space, bound := ?_, once := h.once, ans := h.ans, ways := h.ways,
           kern := h.kern, refusedOk := h.refusedOk, queuedOk := h.queuedOk, syncedOk := h.syncedOk, fds := h.fds, cqOk := h.cqOk, expl := h.expl, orig := h.orig,
           ret := h.ret, retStop := h.retStop }
  · dsimp only; rw [hq, List.length_nil]; omega
  · have := h.bound; dsimp only; omega

theorem drainLoop_inv {c : Cfg} {e : Env} (hc : c.Good) (n : Nat) : ∀ (wait : Nat) {s : State}, Inv c e [] s → s.seen = 0 → wait ≤ s.submitted →
    Post c e (fun s' => Inv c e [] s' ∧ s'.seen = 0 ∧ s'.submitted + wait ≤ s.submitted ∧ Keep s s') (drainLoop c e n wait s) := by
  induction n with
  | zero => intro wait s h _ _; exact h
  | succ n ih =>
    intro wait s h hs hw
    unfold drainLoop
    by_cases h0 : s.submitted = 0
    · rw [if_pos h0]
      exact ⟨h, hs, by omega, .refl s⟩
    · rw [if_neg h0]
      dsimp only
      obtain ⟨k1, k2, k3, _⟩ := kernel_inv (e := e) h
      have hs' : (s.kernel e).seen = 0 := k3.trans hs
      rw [k1.seenZero hs']
      obtain ⟨s1, a1, a2, a3, a4, a5, a6⟩ := reapAll_inv hc (s.kernel e).cq k1 rfl
      rw [a1]
      obtain ⟨r1, r2⟩ := a2.reaped a4
      show Post c e _ (if s1.seen ≤ s1.submitted then _ else _)
      rw [if_pos r1]
      have hk : Keep s { s1 with submitted := s1.submitted - s1.seen, seen := 0 } := by
        have := k2.keep.trans a3.keep
        exact ⟨this.sq, this.prepped, this.stop, this.pending, this.hand⟩
      have hsub : s1.submitted = s.submitted := a3.submitted.trans k2.submitted
      by_cases hd : wait ≤ s1.seen
      · rw [if_pos hd]
        refine ⟨r2, rfl, ?_, hk⟩
        dsimp only; omega
      · rw [if_neg hd]
        refine (ih (wait - s1.seen) r2 rfl (by dsimp only; omega)).mono ?_
        intro s' ⟨b1, b2, b3, b4⟩
        refine ⟨b1, b2, ?_, hk.trans b4⟩
        dsimp only at b3; omega

theorem drain_inv {c : Cfg} {e : Env} (hc : c.Good) (n : Nat) {s : State} {wait : Nat} (h : Inv c e [] s) (hs : s.seen = 0) (hw : wait ≤ s.submitted) :
    Post c e (fun s' => Inv c e [] s' ∧ s'.seen = 0 ∧ s'.submitted + wait ≤ s.submitted ∧ s'.ready.isEmpty = true ∧ Keep s s') (drain c e n s wait) := by
  unfold drain
  rw [if_pos hw]
  refine (drainLoop_inv hc n wait h hs hw).andThen ?_
  intro s' ⟨b1, b2, b3, b4⟩
  obtain ⟨f1, f2⟩ := flush_inv hc b1
  exact ⟨f1, b2, b3, f2, ⟨b4.sq, b4.prepped, b4.stop, b4.pending, b4.hand⟩⟩

/-! ## Submitting -/

/-- What submitting leaves alone. -/
structure Hold (s s' : State) : Prop where
  stop : s'.stop = s.stop
  pending : s'.pending = s.pending
  hand : s'.hand = s.hand

theorem Hold.trans {a b c : State} (h : Hold a b) (h' : Hold b c) : Hold a c := ⟨h'.stop.trans h.stop, h'.pending.trans h.pending, h'.hand.trans h.hand⟩
theorem Keep.hold {a b : State} (h : Keep a b) : Hold a b := ⟨h.stop, h.pending, h.hand⟩

/-- The counters do not know yet that the first `k` have gone to the kernel. -/
theorem submitSome_inv {c : Cfg} {e : Env} {s : State} (h : Inv c e [] s) (hs : s.seen = 0) :
    let k := (s.submitSome e).2
    let s1 := (s.submitSome e).1
    k ≤ s1.prepped ∧ s1.prepped = s.prepped ∧ s1.submitted = s.submitted ∧ Hold s s1 ∧ s1.seen = 0 ∧
      Inv c e [] { s1 with submitted := s1.submitted + k, prepped := s1.prepped - k } := by
  have hlen : min (e.submit s.now).toNat s.sq.length ≤ s.sq.length := Nat.min_le_right _ _
  have hi : Inv c e [] { s with
      sq := s.sq.drop (min (e.submit s.now).toNat s.sq.length), flight := s.flight ++ s.sq.take (min (e.submit s.now).toNat s.sq.length),
      submitted := s.submitted + min (e.submit s.now).toNat s.sq.length, prepped := s.prepped - min (e.submit s.now).toNat s.sq.length } := by
    generalize min (e.submit s.now).toNat s.sq.length = k at hlen
    have hcount : ∀ p, s.sq.count p = (s.sq.take k).count p + (s.sq.drop k).count p := by
      intro p
      rw [← List.count_append, List.take_append_drop]
    have hp := h.prepped
    have hsub := h.submitted
    have hsp := h.space
    have hbd := h.bound
    refine { inb := h.inb, out := h.out, prepped := ?_, submitted := ?_, space := ?_, bound := ?_, once := ?_, ans := h.ans, ways := ?_,
             kern := ?_, refusedOk := h.refusedOk, queuedOk := h.queuedOk, syncedOk := h.syncedOk, fds := h.fds, cqOk := h.cqOk, expl := h.expl, orig := h.orig,
             ret := h.ret, retStop := h.retStop }
    · dsimp only; rw [List.length_drop]; omega
    · dsimp only; rw [List.length_append, List.length_take]; omega
    · dsimp only; rw [List.length_drop]; omega
    · dsimp only; omega
    · intro p
      have h5 := h.once p
      have h6 := hcount p
      simp only [List.count_append] at h5 ⊢
      omega
    · intro p
      have h5 := h.ways p
      have h6 := hcount p
      simp only [List.count_append] at h5 ⊢
      omega
    · intro p
      have h5 := h.kern p
      have h6 := hcount p
      simp only [List.count_append] at h5 ⊢
      omega
  obtain ⟨k1, k2, k3, k4⟩ := kernel_inv (e := e) hi
  have key : ∀ (t : State) (a b : Nat) (l : List (Nat × Int)), ({ t with submitted := a, prepped := b } : State).completeAll l = { t.completeAll l with submitted := a, prepped := b } := by
    intro t a b l
    induction l generalizing t with
    | nil => rfl
    | cons y l ih =>
      obtain ⟨i, r⟩ := y
      unfold State.completeAll
      dsimp only
      cases t.flight[i]? with
      | none => dsimp only; exact ih t
      | some ent => dsimp only; exact ih { t with flight := t.flight.eraseIdx i, cq := t.cq ++ [(ent, r)], completed := t.completed ++ [(ent, r)] }
  have keep : ∀ (l : List (Nat × Int)) (t : State), Same t (t.completeAll l) ∧ (t.completeAll l).seen = t.seen := by
    intro l
    induction l with
    | nil => intro t; exact ⟨.refl t, rfl⟩
    | cons y l ih =>
      intro t
      obtain ⟨i, r⟩ := y
      unfold State.completeAll
      cases t.flight[i]? with
      | none => dsimp only; exact ih t
      | some ent =>
        dsimp only
        have := ih { t with flight := t.flight.eraseIdx i, cq := t.cq ++ [(ent, r)], completed := t.completed ++ [(ent, r)] }
        exact ⟨⟨this.1.sq, this.1.prepped, this.1.submitted, this.1.stop, this.1.pending, this.1.hand⟩, this.2⟩
  intro k s1
  have hs1 : Same { s with sq := s.sq.drop k, flight := s.flight ++ s.sq.take k } s1 ∧ s1.seen = s.seen := by
    have := keep (e.complete s.now) { s with sq := s.sq.drop k, flight := s.flight ++ s.sq.take k }
    exact ⟨⟨this.1.sq, this.1.prepped, this.1.submitted, this.1.stop, this.1.pending, this.1.hand⟩, this.2⟩
  have hkp : k ≤ s.prepped := by rw [h.prepped]; exact hlen
  have hpre : s1.prepped = s.prepped := hs1.1.prepped
  have hsub : s1.submitted = s.submitted := hs1.1.submitted
  refine ⟨by rw [hpre]; exact hkp, hpre, hsub, ⟨hs1.1.stop, hs1.1.pending, hs1.1.hand⟩, hs1.2.trans hs, ?_⟩
  have hkey := key { s with sq := s.sq.drop k, flight := s.flight ++ s.sq.take k } (s.submitted + k) (s.prepped - k) (e.complete s.now)
  have heq : ({ s1 with submitted := s1.submitted + k, prepped := s1.prepped - k } : State) =
      State.kernel e { s with
        sq := s.sq.drop k, flight := s.flight ++ s.sq.take k, submitted := s.submitted + k, prepped := s.prepped - k } := by
    rw [hsub, hpre]
    have hr : State.kernel e { s with sq := s.sq.drop k, flight := s.flight ++ s.sq.take k, submitted := s.submitted + k, prepped := s.prepped - k } =
        { (State.completeAll { s with sq := s.sq.drop k, flight := s.flight ++ s.sq.take k, submitted := s.submitted + k, prepped := s.prepped - k } (e.complete s.now)) with
          now := (State.completeAll { s with sq := s.sq.drop k, flight := s.flight ++ s.sq.take k, submitted := s.submitted + k, prepped := s.prepped - k } (e.complete s.now)).now + 1 } := rfl
    rw [hr]
    have hkey' : State.completeAll { s with sq := s.sq.drop k, flight := s.flight ++ s.sq.take k, submitted := s.submitted + k, prepped := s.prepped - k } (e.complete s.now) =
      { (State.completeAll { s with sq := s.sq.drop k, flight := s.flight ++ s.sq.take k } (e.complete s.now)) with submitted := s.submitted + k, prepped := s.prepped - k } := hkey
    rw [hkey']
    rfl
  rw [heq]
  exact k1

theorem submitLoop_inv {c : Cfg} {e : Env} (hc : c.Good) (n : Nat) : ∀ (wait : Nat) {s : State}, Inv c e [] s → s.seen = 0 → wait ≤ s.prepped + s.submitted →
    s.prepped + s.submitted ≤ c.entries + wait →
    Post c e (fun r => Inv c e [] r.1 ∧ r.1.seen = 0 ∧ r.1.prepped = 0 ∧ r.2 ≤ r.1.submitted ∧ r.1.submitted ≤ c.entries + r.2 ∧ Hold s r.1 ∧
      (s.prepped = 0 → r.2 = wait ∧ r.1 = s)) (submitLoop c e n wait s) := by
  induction n with
  | zero => intro wait s h _ _ _; exact h
  | succ n ih =>
    intro wait s h hs hw hb
    unfold submitLoop
    by_cases h0 : s.prepped = 0
    · rw [if_pos h0]
      exact ⟨h, hs, h0, by dsimp only; omega, by dsimp only; omega, ⟨rfl, rfl, rfl⟩, fun _ => ⟨rfl, rfl⟩⟩
    · rw [if_neg h0]
      dsimp only
      obtain ⟨a1, a2, a3, a4, a5, a6⟩ := submitSome_inv h hs
      by_cases hk : (s.submitSome e).2 = 0
      · rw [if_pos hk]
        rw [hk] at a6
        have hi : Inv c e [] (s.submitSome e).1 := a6
        refine (ih wait hi a5 (by omega) (by omega)).mono ?_
        intro r ⟨b1, b2, b3, b4, b5, b6, _⟩
        exact ⟨b1, b2, b3, b4, b5, a4.trans b6, fun h => absurd h h0⟩
      · rw [if_neg hk, if_pos a1]
        by_cases hp : 0 < (s.submitSome e).1.prepped - (s.submitSome e).2
        · rw [if_pos hp]
          refine (drain_inv hc n a6 a5 (Nat.le_refl _)).andThen ?_
          intro s' ⟨d1, d2, d3, _, d5⟩
          dsimp only at d3
          have hp' := d5.prepped
          dsimp only at hp'
          have hsp := d1.prepped
          have hsp' := d1.space
          refine (ih 0 d1 d2 (by omega) (by omega)).mono ?_
          intro r ⟨b1, b2, b3, b4, b5, b6, _⟩
          exact ⟨b1, b2, b3, b4, b5, a4.trans (Hold.trans ⟨d5.stop, d5.pending, d5.hand⟩ b6), fun h => absurd h h0⟩
        · rw [if_neg hp]
          refine (ih wait a6 a5 (by dsimp only; omega) (by dsimp only; omega)).mono ?_
          intro r ⟨b1, b2, b3, b4, b5, b6, _⟩
          exact ⟨b1, b2, b3, b4, b5, a4.trans ⟨b6.stop, b6.pending, b6.hand⟩, fun h => absurd h h0⟩

theorem waitNr_spec (c : Cfg) (s : State) : waitNr c s ≤ s.prepped + s.submitted ∧ s.prepped + s.submitted ≤ c.entries + waitNr c s ∧
    (s.prepped = 0 → 0 < s.submitted → 0 < waitNr c s) := by
  unfold waitNr
  dsimp only
  by_cases h1 : c.entries < s.prepped + s.submitted
  · rw [if_pos h1]; omega
  · rw [if_neg h1]; split <;> omega

theorem submit_inv {c : Cfg} {e : Env} (hc : c.Good) (n : Nat) {s : State} (h : Inv c e [] s) (hs : s.seen = 0) :
    Post c e (fun s' => Inv c e [] s' ∧ s'.seen = 0 ∧ s'.prepped = 0 ∧ s'.submitted ≤ c.entries ∧ s'.ready.isEmpty = true ∧ Hold s s' ∧
      (s.prepped = 0 → 0 < s.submitted → s'.submitted < s.submitted)) (submit c e n s) := by
  unfold submit
  obtain ⟨w1, w2, w3⟩ := waitNr_spec c s
  refine (submitLoop_inv hc n (waitNr c s) h hs w1 w2).andThen ?_
  intro ⟨s1, wait⟩ ⟨a1, a2, a3, a4, a5, a6, a7⟩
  dsimp only at a1 a2 a3 a4 a5 a6 a7 ⊢
  refine (drain_inv hc n a1 a2 a4).mono ?_
  intro s' ⟨b1, b2, b3, b4, b5⟩
  refine ⟨b1, b2, b5.prepped.trans a3, by omega, b4, a6.trans b5.hold, ?_⟩
  intro h0 hpos
  obtain ⟨e1, e2⟩ := a7 h0
  subst e2
  have := w3 h0 hpos
  omega

theorem reserve_inv {c : Cfg} {e : Env} (hc : c.Good) (n : Nat) : ∀ {s : State}, Inv c e [] s → s.seen = 0 → s.submitted ≤ c.entries →
    Post c e (fun s' => Inv c e [] s' ∧ s'.seen = 0 ∧ s'.submitted ≤ c.entries ∧ s'.sq.length < c.entries ∧ Hold s s') (reserve c e n s) := by
  induction n with
  | zero => intro s h _ _; exact h
  | succ n ih =>
    intro s h hs hb
    unfold reserve
    by_cases hsp : c.entries - s.sq.length < 1
    · rw [if_pos hsp]
      refine (submit_inv hc n h hs).andThen ?_
      intro s1 ⟨a1, a2, a3, a4, a5, a6, _⟩
      refine (ih a1 a2 a4).mono ?_
      intro s2 ⟨b1, b2, b3, b4, b5⟩
      exact ⟨b1, b2, b3, b4, a6.trans b5⟩
    · rw [if_neg hsp]
      exact ⟨h, hs, hb, by omega, rfl, rfl, rfl⟩

/-- A request goes into the ring. -/
theorem getSqe_inv {c : Cfg} {e : Env} (hc : c.Good) (n : Nat) {s : State} {ent : W} (h : Inv c e [] s) (hs : s.seen = 0) (hb : s.submitted ≤ c.entries)
    (hh : s.hand = [ent]) (ha : async c (c.op ent) = true) :
    Post c e (fun s' => Inv c e [] s' ∧ s'.seen = 0 ∧ s'.submitted ≤ c.entries ∧ 0 < s'.prepped ∧ s'.hand = [] ∧ s'.stop = s.stop ∧ s'.pending = s.pending)
      (getSqe c e n s ent) := by
  unfold getSqe
  refine (reserve_inv hc n h hs hb).andThen ?_
  intro s1 ⟨a1, a2, a3, a4, a5⟩
  rw [if_pos a4]
  have hh1 : s1.hand = [ent] := a5.hand.trans hh
  refine ⟨?_, a2, a3, by dsimp only; omega, rfl, a5.stop, a5.pending⟩
  refine { inb := a1.inb, out := a1.out, prepped := ?_, submitted := a1.submitted, space := ?_, bound := ?_, once := ?_, ans := a1.ans, ways := ?_,
           kern := ?_, refusedOk := a1.refusedOk, queuedOk := ?_, syncedOk := a1.syncedOk, fds := a1.fds, cqOk := a1.cqOk, expl := a1.expl, orig := a1.orig,
           ret := a1.ret, retStop := a1.retStop }
  · have := a1.prepped
    simp only [List.length_append, List.length_cons, List.length_nil]; omega
  · simp only [List.length_append, List.length_cons, List.length_nil]; omega
  · have := a1.prepped
    dsimp only; omega
  · intro p
    have h5 := a1.once p
    rw [hh1] at h5
    simp only [List.count_append, List.count_nil] at h5 ⊢
    omega
  · intro p
    have h5 := a1.ways p
    simp only [List.count_append] at h5 ⊢
    omega
  · intro p
    have h5 := a1.kern p
    simp only [List.count_append] at h5 ⊢
    omega
  · intro p hp
    rcases List.mem_append.1 hp with hp | hp
    · exact a1.queuedOk p hp
    · rw [List.mem_singleton.1 hp]; exact ha

theorem refusable_of {o : Op} (h : o.closes = false) : Refusable o := by
  cases o <;> first | (cases h; done) | exact ⟨by simp, by simp⟩

theorem kernelCan_iff (c : Cfg) (o : Op) : KernelCan c o ↔ async c o = true := by
  constructor
  · intro h; cases h <;> simp [async, *]
  · intro h
    cases o with
    | nop heavy => cases heavy; cases h; exact .nop
    | close => exact .close h
    | opendir => exact .opendir h
    | closedir => simp [async] at h; exact .closedir h.2 h.1
    | stat => simp [async] at h; exact .stat h.2 h.1

/-- A request is answered at once: it is refused, or this thread has performed it. -/
theorem answer_pre {c : Cfg} {e : Env} {s : State} {ent : W} {r : Int} (h : Inv c e [] s) (hh : s.hand = [ent]) (t : Nat) (rf : List W) (sy : List (W × Int))
    (hw : (rf = [ent] ∧ sy = [] ∧ r = -EINTR ∧ (∃ t, e.cancelled t = true) ∧ Refusable (c.op ent)) ∨
      (rf = [] ∧ sy = [(ent, r)] ∧ async c (c.op ent) = false)) :
    Inv c e [(ent, r)] { s with now := t, hand := [], refused := s.refused ++ rf, synced := s.synced ++ sy } := by
  refine { inb := h.inb, out := h.out, prepped := h.prepped, submitted := h.submitted, space := h.space, bound := h.bound, once := ?_, ans := h.ans, ways := ?_,
           kern := h.kern, refusedOk := ?_, queuedOk := h.queuedOk, syncedOk := ?_, fds := h.fds, cqOk := h.cqOk, expl := ?_, orig := h.orig,
           ret := h.ret, retStop := h.retStop }
  · intro p
    have h5 := h.once p
    rw [hh] at h5
    simp only [List.map_cons, List.map_nil, List.count_nil] at h5 ⊢
    omega
  · intro p
    have h5 := h.ways p
    simp only [List.map_append, List.count_append, List.map_cons, List.map_nil, List.count_nil] at h5 ⊢
    rcases hw with ⟨rfl, rfl, _⟩ | ⟨rfl, rfl, _⟩
    · simp only [List.map_nil, List.count_nil]; omega
    · simp only [List.map_cons, List.map_nil, List.count_nil]; omega
  · intro p hp
    rcases List.mem_append.1 hp with hp | hp
    · exact h.refusedOk p hp
    · rcases hw with ⟨rfl, _, _, _, hcl⟩ | ⟨rfl, _, _⟩
      · rw [List.mem_singleton.1 hp]; exact hcl
      · cases hp
  · intro y hy
    rcases List.mem_append.1 hy with hy | hy
    · exact h.syncedOk y hy
    · rcases hw with ⟨_, rfl, _⟩ | ⟨_, rfl, hcl⟩
      · cases hy
      · rw [List.mem_singleton.1 hy]; exact hcl
  · intro y hy
    rcases List.mem_append.1 hy with hy | hy
    · exact (h.expl y (by simpa using hy)).mono (fun _ h => List.mem_append_left _ h) (fun _ h => List.mem_append_left _ h) (fun _ h => h) (fun _ h => h) (fun _ h => h)
    · have he : y = (ent, r) := by simpa using hy
      subst he
      rcases hw with ⟨rfl, rfl, h3, h4, h5⟩ | ⟨rfl, rfl, _⟩
      · exact .inl ⟨h3, List.mem_append_right _ List.mem_cons_self, h4, h5⟩
      · exact .inr (.inl (List.mem_append_right _ List.mem_cons_self))

theorem prepSqe_inv {c : Cfg} {e : Env} (hc : c.Good) (n : Nat) {s : State} {ent : W} (h : Inv c e [] s) (hs : s.seen = 0) (hb : s.submitted ≤ c.entries)
    (hh : s.hand = [ent]) :
    Post c e (fun s' => Inv c e [] s' ∧ s'.seen = 0 ∧ s'.submitted ≤ c.entries ∧ s'.hand = [] ∧ s'.stop = s.stop ∧ s'.pending = s.pending) (prepSqe c e n s ent) := by
  unfold prepSqe
  by_cases hx : checkCancel c e s ent = true
  · rw [if_pos hx]
    have hcl : (∃ t, e.cancelled t = true) ∧ Refusable (c.op ent) := by
      unfold checkCancel at hx
      simp at hx
      exact ⟨⟨_, hx.1⟩, refusable_of hx.2⟩
    have := push_inv hc (answer_pre (r := -EINTR) h hh (s.now + 1) [ent] [] (.inl ⟨rfl, rfl, rfl, hcl.1, hcl.2⟩))
    simp only [List.append_nil] at this
    obtain ⟨s', h1, h2, h3, h4, h5, h6, h7, h8, h9, h10, h11, _⟩ := this
    rw [h1]
    exact ⟨h2, h8.trans hs, by rw [h7]; exact hb, h9, h10, h11⟩
  · rw [if_neg hx]
    by_cases ha : async c (c.op ent) = true
    · rw [if_pos ha]
      refine (getSqe_inv hc n (h.now (s.now + 1)) hs hb hh ha).mono ?_
      intro s' ⟨b1, b2, b3, _, b5, b6, b7⟩
      exact ⟨b1, b2, b3, b5, b6, b7⟩
    · rw [if_neg ha]
      have := push_inv hc (answer_pre (r := e.result s.now) h hh (s.now + 1) [] [(ent, e.result s.now)] (.inr ⟨rfl, rfl, by simpa using ha⟩))
      simp only [List.append_nil] at this
      obtain ⟨s', h1, h2, h3, h4, h5, h6, h7, h8, h9, h10, h11, _⟩ := this
      rw [h1]
      exact ⟨h2, h8.trans hs, by rw [h7]; exact hb, h9, h10, h11⟩

/-! ## Taking requests -/

theorem Inv.withPending {c : Cfg} {e : Env} {s : State} (h : Inv c e [] s) (t : Nat) (b : Batch) (rcv hand : List W) (hb : InB c.B b)
    (hcount : ∀ p, rcv.count p + s.pending.content.count p + s.hand.count p = s.received.count p + b.content.count p + hand.count p)
    (ho : b.content = [] ∨ ∃ t pre, nonNull (e.got t) = pre ++ b.content ∨ nonNull (e.tryGot t) = pre ++ b.content) :
    Inv c e [] { s with now := t, pending := b, received := rcv, hand := hand } :=
  { inb := hb, out := h.out, prepped := h.prepped, submitted := h.submitted, space := h.space, bound := h.bound, ans := h.ans, ways := h.ways,
    kern := h.kern, refusedOk := h.refusedOk, queuedOk := h.queuedOk, syncedOk := h.syncedOk, fds := h.fds, cqOk := h.cqOk, expl := h.expl, orig := ho,
    ret := h.ret, retStop := h.retStop,
    once := by
      intro p
      have h5 := h.once p
      have h6 := hcount p
      dsimp only
      omega }

/-- What taking an entry does: the entry (if it is not null) is in the hand of the thread. -/
theorem popped_inv {c : Cfg} {e : Env} (hc : c.Good) (he : e.Proper c) {s : State} (h : Inv c e [] s) (hh : s.hand = []) :
    Inv c e [] { (s.popped c e).1 with hand := if (s.popped c e).2 = 0#64 then [] else [(s.popped c e).2] } ∧
    ((s.popped c e).2 = 0#64 → s.isEmpty = false ∧ (s.popped c e).1.pending.content = []) ∧
    ((s.popped c e).2 = c.stop → (s.popped c e).1.pending.content = []) := by
  have hlen : (s.offer e).length = c.B := by
    unfold State.offer; split
    · exact he.gotLen _
    · exact he.tryLen _
  obtain ⟨p1, p2, p3, p4, p5⟩ := Ioq.pop_spec' h.inb s.isEmpty hlen
  have hem := Ioq.empty_iff h.inb.len h.inb.tail
  have hsrc : ∀ pre, nonNull (s.offer e) = pre ++ (s.pending.pop c.B s.isEmpty (s.offer e)).1.content →
      ∃ t pre, nonNull (e.got t) = pre ++ (s.pending.pop c.B s.isEmpty (s.offer e)).1.content ∨ nonNull (e.tryGot t) = pre ++ (s.pending.pop c.B s.isEmpty (s.offer e)).1.content := by
    intro pre hp
    by_cases hb : s.isEmpty = true
    · have : s.offer e = e.got s.now := by unfold State.offer; rw [if_pos hb]
      exact ⟨s.now, pre, .inl (by rw [← this]; exact hp)⟩
    · have : s.offer e = e.tryGot s.now := by unfold State.offer; rw [if_neg hb]
      exact ⟨s.now, pre, .inr (by rw [← this]; exact hp)⟩
  have hnn : ∀ p ∈ nonNull (s.offer e), p ≠ 0#64 := by
    intro p hp
    have := (List.mem_filter.1 hp).2
    simpa using this
  have hlast : ∀ rest, nonNull (s.offer e) = c.stop :: rest → rest = [] := by
    intro rest hr
    unfold State.offer at hr
    split at hr
    · exact he.gotLast _ [] rest hr
    · exact he.tryLast _ [] rest hr
  show Inv c e [] { s with
      now := s.now + 1, pending := (s.pending.pop c.B s.isEmpty (s.offer e)).1,
      received := if s.fills c then s.received ++ nonNull (s.offer e) else s.received,
      hand := if (s.pending.pop c.B s.isEmpty (s.offer e)).2 = 0#64 then [] else [(s.pending.pop c.B s.isEmpty (s.offer e)).2] } ∧
    ((s.pending.pop c.B s.isEmpty (s.offer e)).2 = 0#64 → s.isEmpty = false ∧ (s.pending.pop c.B s.isEmpty (s.offer e)).1.content = []) ∧
    ((s.pending.pop c.B s.isEmpty (s.offer e)).2 = c.stop → (s.pending.pop c.B s.isEmpty (s.offer e)).1.content = [])
  generalize hpop : s.pending.pop c.B s.isEmpty (s.offer e) = q at p1 p2 p3 p4 p5 hsrc ⊢
  obtain ⟨b, ent⟩ := q
  dsimp only at p1 p2 p3 p4 p5 hsrc ⊢
  by_cases hcn : s.pending.content = []
  · have hemp : s.pending.isEmpty = true := hem.2 hcn
    by_cases hf : s.isEmpty = true ∨ c.B ≤ s.pending.head
    · have hfill : s.fills c = true := by
        unfold State.fills; rw [hemp]; simpa using hf
      rw [if_pos hfill]
      by_cases hgot : nonNull (s.offer e) = []
      · obtain ⟨e1, e2⟩ := p5 hcn hf hgot
        subst e1
        refine ⟨?_, fun _ => ⟨?_, e2⟩, fun h0 => absurd h0.symm hc.marker⟩
        · rw [if_pos rfl]
          refine h.withPending _ _ _ _ p1 ?_ (.inl e2)
          intro p; rw [hcn, hgot, hh, e2, List.append_nil]
        · rcases hbz : s.isEmpty with _ | _
          · rfl
          · exfalso
            have hoff : s.offer e = e.got s.now := by unfold State.offer; rw [if_pos hbz]
            rw [hoff] at hgot hlen
            have := he.gotSome s.now
            cases hg : e.got s.now with
            | nil => rw [hg] at hlen; have := hc.batch; simp at hlen; omega
            | cons p l =>
              rw [hg] at this hgot
              have hp := this p (by simp)
              have : p ∈ nonNull (p :: l) := List.mem_filter.2 ⟨List.mem_cons_self, by simpa using hp⟩
              rw [hgot] at this
              cases this
      · have hcons := p4 hcn hf hgot
        have hne : ent ≠ 0#64 := hnn ent (by rw [← hcons]; exact List.mem_cons_self)
        refine ⟨?_, fun h0 => absurd h0 hne, fun h0 => hlast _ (by rw [← hcons, h0])⟩
        rw [if_neg hne]
        refine h.withPending _ _ _ _ p1 ?_ (.inr (hsrc [ent] (by rw [← hcons]; rfl)))
        intro p
        rw [hcn, ← hcons, hh, List.count_append]
        simp only [List.count_cons, List.count_nil]
        omega
    · have hfill : s.fills c = false := by
        unfold State.fills; rw [hemp]; simpa using hf
      have hb : s.isEmpty = false := by
        cases hz : s.isEmpty with
        | false => rfl
        | true => exact absurd (.inl hz) hf
      obtain ⟨e1, e2⟩ := p3 hcn hb (by omega)
      subst e1
      rw [if_pos rfl, hfill]
      refine ⟨?_, fun _ => ⟨hb, e2⟩, fun h0 => absurd h0.symm hc.marker⟩
      refine h.withPending _ _ _ _ p1 ?_ (.inl e2)
      intro p; rw [hcn, hh, e2]; rfl
  · have hemp : s.pending.isEmpty = false := by
      cases hz : s.pending.isEmpty with
      | false => rfl
      | true => exact absurd (hem.1 hz) hcn
    have hfill : s.fills c = false := by unfold State.fills; rw [hemp]; rfl
    rw [hfill]
    have hcons := p2 hcn
    rcases h.orig with ho | ⟨t, pre, ho⟩
    · exact absurd ho hcn
    · have hne : ent ≠ 0#64 := by
        rcases ho with ho | ho
        · have : ent ∈ nonNull (e.got t) := by rw [ho, ← hcons]; exact List.mem_append_right _ List.mem_cons_self
          have := (List.mem_filter.1 this).2
          simpa using this
        · have : ent ∈ nonNull (e.tryGot t) := by rw [ho, ← hcons]; exact List.mem_append_right _ List.mem_cons_self
          have := (List.mem_filter.1 this).2
          simpa using this
      rw [← hcons] at ho
      refine ⟨?_, fun h0 => absurd h0 hne, ?_⟩
      · rw [if_neg hne]
        refine h.withPending _ _ _ _ p1 ?_ ?_
        · intro p
          rw [← hcons, hh]
          simp only [List.count_cons, List.count_nil, Bool.false_eq_true, if_false]
          omega
        · refine .inr ⟨t, pre ++ [ent], ?_⟩
          rw [List.append_assoc]
          exact ho
      · intro h0
        subst h0
        rcases ho with ho | ho
        · exact he.gotLast _ _ _ ho
        · exact he.tryLast _ _ _ ho

theorem handEq {s : State} (h : s.hand = []) : { s with hand := [] } = s := by
  cases s; dsimp only at h; rw [h]

theorem prepLoop_inv {c : Cfg} {e : Env} (hc : c.Good) (he : e.Proper c) (n : Nat) : ∀ {s : State}, Inv c e [] s → s.seen = 0 → s.submitted ≤ c.entries →
    s.hand = [] → s.stop = false →
    Post c e (fun s' => Inv c e [] s' ∧ s'.seen = 0 ∧ s'.submitted ≤ c.entries ∧ s'.hand = [] ∧ s'.pending.content = [] ∧
      (s'.stop = false → s'.isEmpty = false)) (prepLoop c e n s) := by
  induction n with
  | zero => intro s h _ _ _ _; exact h
  | succ n ih =>
    intro s h hs hb hh hst
    unfold prepLoop
    dsimp only
    obtain ⟨a1, a2, a3⟩ := popped_inv hc he h hh
    have hseen : (s.popped c e).1.seen = 0 := hs
    have hsub : (s.popped c e).1.submitted ≤ c.entries := hb
    have hhand : (s.popped c e).1.hand = [] := hh
    have hstop : (s.popped c e).1.stop = false := hst
    have hempt : (s.popped c e).1.isEmpty = s.isEmpty := rfl
    generalize hq : s.popped c e = q at a1 a2 a3 hseen hsub hhand hstop hempt ⊢
    obtain ⟨s1, ent⟩ := q
    dsimp only at a1 a2 a3 hseen hsub hhand hstop hempt ⊢
    by_cases h1 : ent = c.stop
    · rw [if_pos h1]
      have hne : ent ≠ 0#64 := by rw [h1]; exact hc.marker
      rw [if_neg hne] at a1
      refine ⟨?_, hseen, hsub, hhand, a3 h1, fun h => by cases h⟩
      have hr : s1.returned = [] := by
        have := a1.retStop
        dsimp only at this
        rw [hstop] at this
        exact this
      refine { inb := a1.inb, out := a1.out, prepped := a1.prepped, submitted := a1.submitted, space := a1.space, bound := a1.bound, once := ?_, ans := a1.ans, ways := a1.ways,
               kern := a1.kern, refusedOk := a1.refusedOk, queuedOk := a1.queuedOk, syncedOk := a1.syncedOk, fds := a1.fds, cqOk := a1.cqOk, expl := ?_, orig := a1.orig,
               ret := ?_, retStop := ?_ }
      · intro p
        have h5 := a1.once p
        dsimp only at h5 ⊢
        rw [hhand]
        simp only [List.count_append, List.count_nil] at h5 ⊢
        omega
      · intro y hy
        exact (a1.expl y hy).mono (fun _ h => h) (fun _ h => h) (fun _ h => h) (fun _ h => h) (fun _ h => h)
      · intro p hp
        dsimp only at hp
        rw [hr, List.nil_append] at hp
        rw [List.mem_singleton.1 hp]; exact h1
      · dsimp only
        rw [hr, h1]; rfl
    · rw [if_neg h1]
      by_cases h0 : ent ≠ 0#64
      · rw [if_pos h0]
        rw [if_neg h0] at a1
        refine (prepSqe_inv hc n a1 hseen hsub rfl).andThen ?_
        intro s2 ⟨b1, b2, b3, b4, b5, b6⟩
        exact ih b1 b2 b3 b4 (b5.trans hstop)
      · rw [if_neg h0]
        have h0' : ent = 0#64 := by simpa using h0
        rw [if_pos h0'] at a1
        rw [handEq hhand] at a1
        refine ⟨a1, hseen, hsub, hhand, (a2 h0').2, fun _ => ?_⟩
        rw [hempt]; exact (a2 h0').1

/-- Between two iterations of the main loop. -/
structure Idle (c : Cfg) (e : Env) (s : State) : Prop where
  inv : Inv c e [] s
  seen : s.seen = 0
  prepped : s.prepped = 0
  submitted : s.submitted ≤ c.entries
  hand : s.hand = []
  pending : s.pending.content = []
  ready : s.ready.isEmpty = true

theorem start_idle {c : Cfg} {e : Env} (hc : c.Good) : Idle c e (State.start c) := by
  refine ⟨?_, rfl, rfl, Nat.zero_le _, rfl, ?_, rfl⟩
  · refine { inb := ⟨by simp [State.start], Nat.zero_le _⟩, out := ⟨by simp [State.start], rfl, hc.batch⟩, prepped := rfl, submitted := rfl, space := Nat.zero_le _,
             bound := Nat.zero_le _, once := ?_, ans := ?_, ways := ?_, kern := ?_, refusedOk := ?_, queuedOk := ?_, syncedOk := ?_, fds := ?_, cqOk := ?_, expl := ?_,
             orig := .inl ?_, ret := ?_, retStop := rfl }
    all_goals simp [State.start, Ioq.Batch.content]
  · simp [State.start, Ioq.Batch.content]

theorem prep_inv {c : Cfg} {e : Env} (hc : c.Good) (he : e.Proper c) (n : Nat) {s : State} (h : Idle c e s) :
    Post c e (fun r => Inv c e [] r.1 ∧ r.1.seen = 0 ∧ r.1.submitted ≤ c.entries ∧ r.1.hand = [] ∧ r.1.pending.content = [] ∧
      (r.2 = false → r.1.stop = true ∧ r.1.prepped = 0)) (prep c e n s) := by
  unfold prep
  by_cases hst : s.stop = true
  · rw [if_pos hst]
    exact ⟨h.inv, h.seen, h.submitted, h.hand, h.pending, fun _ => ⟨hst, h.prepped⟩⟩
  · rw [if_neg hst]
    have hst' : s.stop = false := by simpa using hst
    have hi : Inv c e [] { s with pending := s.pending.reset } := by
      have hcz : s.pending.reset.content = [] := by simp [Ioq.Batch.content, Ioq.Batch.reset]
      have := h.inv.withPending s.now s.pending.reset s.received s.hand ⟨h.inv.inb.len, Nat.zero_le _⟩ (by intro p; rw [h.pending, hcz]) (.inl hcz)
      exact this
    refine (prepLoop_inv hc he n hi h.seen h.submitted h.hand hst').andThen ?_
    intro s1 ⟨a1, a2, a3, a4, a5, a6⟩
    rw [if_pos ((Ioq.empty_iff a1.inb.len a1.inb.tail).2 a5)]
    refine ⟨a1, a2, a3, a4, a5, ?_⟩
    intro hm
    have hme : s1.isEmpty = true := by simpa using hm
    refine ⟨?_, ?_⟩
    · cases hz : s1.stop with
      | true => rfl
      | false => rw [a6 hz] at hme; cases hme
    · unfold State.isEmpty at hme
      simp at hme
      exact hme.1.1

theorem workLoop_inv {c : Cfg} {e : Env} (hc : c.Good) (he : e.Proper c) (n : Nat) : ∀ {s : State}, Idle c e s →
    Post c e (fun s' => Inv c e [] s' ∧ s'.seen = 0 ∧ s'.hand = [] ∧ s'.pending.content = [] ∧ s'.prepped = 0 ∧ s'.stop = true) (workLoop c e n s) := by
  induction n with
  | zero => intro s h; exact h.inv
  | succ n ih =>
    intro s h
    unfold workLoop
    refine (prep_inv hc he n h).andThen ?_
    intro ⟨s1, more⟩ ⟨a1, a2, a3, a4, a5, a6⟩
    dsimp only at a1 a2 a3 a4 a5 a6 ⊢
    cases more with
    | false => exact ⟨a1, a2, a4, a5, (a6 rfl).2, (a6 rfl).1⟩
    | true =>
      rw [if_pos rfl]
      refine (submit_inv hc n a1 a2).andThen ?_
      intro s2 ⟨b1, b2, b3, b4, b5, b6, _⟩
      exact ih ⟨b1, b2, b3, b4, b6.hand.trans a4, by rw [b6.pending]; exact a5, b5⟩

theorem work_inv {c : Cfg} {e : Env} (hc : c.Good) (he : e.Proper c) (n : Nat) :
    Post c e (fun s' => Inv c e [] s' ∧ s'.seen = 0 ∧ s'.hand = [] ∧ s'.pending.content = [] ∧ s'.prepped = 0 ∧ s'.submitted = 0 ∧ s'.stop = true ∧
      s'.ready.isEmpty = true) (work c e n) := by
  unfold work
  refine (workLoop_inv hc he n (start_idle hc)).andThen ?_
  intro s ⟨a1, a2, a3, a4, a5, a6⟩
  refine (drain_inv hc n a1 a2 (Nat.le_refl _)).mono ?_
  intro s' ⟨b1, b2, b3, b4, b5⟩
  exact ⟨b1, b2, b5.hand.trans a3, by rw [b5.pending]; exact a4, b5.prepped.trans a5, by omega, b5.stop.trans a6, b4⟩

end Verif.Uring
