import Verif.Lemmas.IoqEnd
import Verif.Lemmas.IoqApi
import Verif.Lemmas.IoqRun
/-!
# C25 to C27, C59: the I/O queue
-/
namespace Verif.Props

open Verif.Ioq

/-! ## C25: exactly once -/

/-- At any time, with any number of threads and any interleaving, each entry that was given to
`ioqq_push_batch()` is in exactly one place: returned by `ioqq_pop_batch()`, popped and about to be
returned, in the queue, or still to be pushed. -/
theorem C25_conservation {c : Cfg} {n : Nat} {s : State} (hs : 0 < c.size) (r : Reach c n s) (hb : s.tail ≤ 2 ^ 62) :
    s.submitted.Perm (s.returned ++ (s.threads.flatMap fun th => th.op.hand) ++ s.queued ++ s.unsent) := by
  have hc := (reach_core hs r hb).1
  rw [List.perm_iff_count]
  intro p
  have := hc.cons p
  unfold State.unsent
  unfold State.ops at this
  simp only [List.flatMap_map, List.count_append] at this ⊢
  omega

/-- Nothing is delivered twice, or invented. -/
theorem C25_exactly_once {c : Cfg} {n : Nat} {s : State} (hs : 0 < c.size) (r : Reach c n s) (hb : s.tail ≤ 2 ^ 62)
    (hd : s.submitted.Nodup) : s.returned.Nodup ∧ ∀ p ∈ s.returned, p ∈ s.submitted ∧ p ∉ s.queued ∧ p ∉ s.unsent := by
  have h := C25_conservation hs r hb
  have h2 := (h.nodup_iff).1 hd
  refine ⟨?_, ?_⟩
  · rw [List.append_assoc, List.append_assoc] at h2
    exact (List.nodup_append.1 h2).1
  · intro p hp
    refine ⟨h.mem_iff.2 (by simp [hp]), ?_, ?_⟩
    · intro hq
      rw [List.nodup_append] at h2
      have h3 := h2.1
      rw [List.nodup_append] at h3
      exact h3.2.2 p (by simp [hp]) p hq rfl
    · intro hq
      rw [List.nodup_append] at h2
      exact h2.2.2 p (by simp [hp]) p hq rfl

/-- Once nothing more can happen while somebody waits in a blocking pop, everything that was ever
submitted has been returned, and only consumers wait.  In particular nobody ever waits forever
beside an entry, and producers and consumers never wait for each other. -/
theorem C25_delivered {c : Cfg} {n : Nat} {s : State} (hs : 0 < c.size) (hb0 : 0 < c.batch)
    (hdiv : c.batch ∣ c.size ∨ c.size ∣ c.batch) (r : Reach c n s) (hb : s.tail ≤ 2 ^ 62) (hq : s.stuck c)
    (hw : ∃ th ∈ s.threads, ∃ i k got, th.op = .pop i k got true) :
    s.returned.Perm s.submitted ∧ ∀ th ∈ s.threads, th.idle ∨ (th.asleep ∧ ∃ i k, th.op = .pop i k [] true) := by
  have hc := (reach_core hs r hb).1
  have hal := reach_aligned hs r
  have hqu := stuck_quiet hs r hb hq
  obtain ⟨hlen, _, hm, _⟩ := reach_sync hs r
  obtain ⟨th0, hth0, i, k, got, he⟩ := hw
  have hz := quiet_empty hs hb0 hdiv hc hal hqu ⟨th0.op, List.mem_map.2 ⟨th0, hth0, rfl⟩, i, k, got, true, he⟩
  have hnp : ∀ th ∈ s.threads, th.op = .idle ∨ ∃ i k, th.op = .pop i k [] true := by
    intro th hth
    rcases hqu.ops th.op (List.mem_map.2 ⟨th, hth, rfl⟩) with h | ⟨i, m, ents, h, hf⟩ | ⟨b, h, _⟩
    · exact Or.inl h
    · have := hz (i % c.size) (Nat.mod_lt _ hs); omega
    · exact Or.inr ⟨_, _, h⟩
  refine ⟨?_, ?_⟩
  · have hp := C25_conservation hs r hb
    have h1 : s.queued = [] := queued_nil hlen hz
    have h2 : s.unsent = [] := by
      unfold State.unsent
      rw [List.flatMap_eq_nil_iff]
      intro th hth
      rcases hnp th hth with h | ⟨i, k, h⟩ <;> rw [h] <;> rfl
    have h3 : (s.threads.flatMap fun th => th.op.hand) = [] := by
      rw [List.flatMap_eq_nil_iff]
      intro th hth
      rcases hnp th hth with h | ⟨i, k, h⟩ <;> rw [h] <;> rfl
    rw [h1, h2, h3] at hp
    simpa using hp.symm
  · intro th hth
    obtain ⟨t, ht⟩ := List.getElem?_of_mem hth
    rcases not_stuck hm hq ht with h | ⟨v, hv⟩
    · exact Or.inl h
    · right
      refine ⟨⟨v, hv⟩, ?_⟩
      rcases hnp th hth with h | h
      · have ok := (reach_sync hs r).2.1 th hth
        have := ok.2
        rw [hv, h] at this
        exact absurd this.1 (by simp [Op.active])
      · exact h

/-- When nobody is in the queue any more and there were as many pop as push tickets, everything has
been returned. -/
theorem C25_quiescent {c : Cfg} {n : Nat} {s : State} (hs : 0 < c.size) (r : Reach c n s) (hb : s.tail ≤ 2 ^ 62)
    (hi : ∀ th ∈ s.threads, th.idle) (ht : s.head ≤ s.tail) : s.returned.Perm s.submitted := by
  have hc := (reach_core hs r hb).1
  have hlen := (reach_sync hs r).1
  have hops : ∀ op ∈ s.ops, op = .idle := by
    intro op hop
    obtain ⟨th, hth, rfl⟩ := List.mem_map.1 hop
    have := hi th hth
    unfold Thread.idle at this
    rw [this]
  have hz : ∀ z, z < c.size → cnt (s.slot z) ≤ 0 := by
    intro z hz
    have h1 := hc.bal z hz
    rw [sumBy_zero (fun op => pendPush c z op) (fun op h => by rw [hops op h]; rfl),
      sumBy_zero (fun op => pendPop c z op) (fun op h => by rw [hops op h]; rfl)] at h1
    have h2 : rng c 0 s.tail z = rng c 0 s.head z + rng c (0 + s.head) (s.tail - s.head) z := by
      rw [← rng_add]; congr 1; omega
    omega
  have hp := C25_conservation hs r hb
  have h1 : s.queued = [] := queued_nil hlen hz
  have h2 : s.unsent = [] := by
    unfold State.unsent
    rw [List.flatMap_eq_nil_iff]
    intro th hth
    rw [hops th.op (List.mem_map.2 ⟨th, hth, rfl⟩)]; rfl
  have h3 : (s.threads.flatMap fun th => th.op.hand) = [] := by
    rw [List.flatMap_eq_nil_iff]
    intro th hth
    rw [hops th.op (List.mem_map.2 ⟨th, hth, rfl⟩)]; rfl
  rw [h1, h2, h3] at hp
  simpa using hp.symm

/-- A blocking `ioqq_pop_batch()` returns `batch` pointers, and the first is not null. -/
theorem C25_blocking_pop {c : Cfg} {n : Nat} {s : State} (hs : 0 < c.size) (hb0 : 0 < c.batch) (r : Reach c n s) (hb : s.tail ≤ 2 ^ 62)
    {t i : Nat} {got : List W} (ht : s.threads[t]? = some ⟨.pop i 0 got true, .go⟩) :
    got.length = c.batch ∧ ∃ p, got.head? = some p ∧ p ≠ 0#64 := by
  have hm := List.mem_of_getElem? ht
  have ok := ((reach_sync hs r).2.1 _ hm).1
  have hf := (reach_core hs r hb).2 _ (List.mem_of_getElem? (ops_get ht))
  have hl : got.length = c.batch := by have := ok.2; simpa using this
  refine ⟨hl, ?_⟩
  cases got with
  | nil => simp at hl; omega
  | cons g gs => exact ⟨g, rfl, hf rfl g (by simp)⟩

/-- The counters may wrap around: only their remainder modulo the number of slots matters. -/
theorem C25_wrap (i k : Nat) (hk : k < 64) : ((BitVec.ofNat 64 i) &&& (BitVec.ofNat 64 (2 ^ k - 1))).toNat = i % 2 ^ k :=
  wrap_mod i k hk

/-! ## C26: no lost wake-ups -/

/-- If the slot that a sleeping thread waits for has changed, somebody is about to wake it up. -/
theorem C26_no_lost_wakeup {c : Cfg} {n : Nat} {s : State} (hs : 0 < c.size) (r : Reach c n s) {th : Thread} {v : W}
    (hm : th ∈ s.threads) (hv : th.pc = .asleep v) : s.slot (th.op.slot c) = v ∨ s.waking (th.op.slot c) := by
  obtain ⟨t, ht⟩ := List.getElem?_of_mem hm
  rcases ((reach_sync hs r).2.2.2 t th ht v).2 hv with h | ⟨k, u, hk, hu⟩
  · exact Or.inl h
  · exact Or.inr ⟨u, List.mem_of_getElem? hk, hu⟩

/-- The only states in which nothing more can happen are those where every thread is outside of the
queue, or asleep on a slot that has not changed and that it cannot use: a producer on a full slot,
a consumer on a slot without an entry.  So threads never deadlock on the mutexes. -/
theorem C26_stuck {c : Cfg} {n : Nat} {s : State} (hs : 0 < c.size) (r : Reach c n s) (hb : s.tail ≤ 2 ^ 62) (hq : s.stuck c)
    {th : Thread} (hm : th ∈ s.threads) :
    th.idle ∨ (th.asleep ∧ ((∃ i k ents, th.op = .push i k ents ∧ held (s.slot (i % c.size)) ≠ none) ∨
      (∃ i k, th.op = .pop i k [] true ∧ held (s.slot (i % c.size)) = none))) := by
  obtain ⟨t, ht⟩ := List.getElem?_of_mem hm
  obtain ⟨_, hT, hmx, _⟩ := reach_sync hs r
  rcases not_stuck hmx hq ht with h | ⟨v, hv⟩
  · exact Or.inl h
  · right
    refine ⟨⟨v, hv⟩, ?_⟩
    rcases (stuck_quiet hs r hb hq).ops th.op (List.mem_map.2 ⟨th, hm, rfl⟩) with h | ⟨i, k, ents, h, hf⟩ | ⟨b, h, hf⟩
    · have := (hT th hm).2
      rw [hv, h] at this
      exact absurd this.1 (by simp [Op.active])
    · left; refine ⟨i, k, ents, h, ?_⟩
      unfold held; rw [if_pos hf]; simp
    · right; refine ⟨_, _, h, ?_⟩
      unfold held; rw [if_neg (by omega)]

/-- At most one thread at a time is between `mutex_lock()` and `mutex_unlock()` of a monitor. -/
theorem C26_mutual_exclusion {c : Cfg} {n : Nat} {s : State} (hs : 0 < c.size) (r : Reach c n s) {t u m : Nat} {th uh : Thread}
    (ht : s.threads[t]? = some th) (hu : s.threads[u]? = some uh) (h1 : th.holds c = some m) (h2 : uh.holds c = some m) : t = u := by
  have hm := (reach_sync hs r).2.2.1
  rw [hm.own _ _ ht] at h1
  rw [hm.own _ _ hu] at h2
  rw [h1] at h2
  exact Option.some.inj h2

/-! ### A run: one thread waits for an entry, the other one pushes it -/

section
private def c0 : Cfg := ⟨2, 1, fun i => i % 2⟩

/-- After the run, the entry has been returned. -/
example : ∃ s, Reach c0 2 s ∧ s.tail ≤ 2 ^ 62 ∧ s.submitted = [8#64] ∧ s.returned = [8#64] ∧ s.head ≤ s.tail ∧ ∀ th ∈ s.threads, th.idle := by
  have r1 := Reach.step (c := c0) (n := 2) 0 .init (.startPop true rfl)
  have r2 := Reach.step 0 r1 (.claimPop true rfl)
  have r3 := Reach.step 0 r2 (.load _ rfl rfl)
  have r4 := Reach.step 0 r3 (.wait _ _ rfl (by decide))
  have r5 := Reach.step 0 r4 (.lock _ _ rfl rfl)
  have r6 := Reach.step 0 r5 (.checkSame _ _ rfl rfl)
  have r7 := Reach.step 0 r6 (.casOk _ _ rfl rfl)
  have r8 := Reach.step 0 r7 (.sleep _ _ rfl)
  have r9 := Reach.step 1 r8 (.startPush [8#64] rfl (by intro p hp; simp at hp; subst hp; unfold isPtr; decide))
  have r10 := Reach.step 1 r9 (.claimPush 0 _ rfl (by simp))
  have r11 := Reach.step 1 r10 (.load _ rfl rfl)
  have r12 := Reach.step 1 r11 (.update _ _ rfl (by decide) rfl)
  have r13 := Reach.step 1 r12 (.wlock _ _ rfl rfl)
  have r14 := Reach.step 1 r13 (.wunlock _ _ rfl)
  have r15 := Reach.step 1 r14 (.wcast _ _ rfl)
  have r16 := Reach.step 1 r15 (.donePush _ rfl)
  have r17 := Reach.step 0 r16 (.relock _ _ rfl rfl)
  have r18 := Reach.step 0 r17 (.recheck _ _ rfl)
  have r19 := Reach.step 0 r18 (.unlock _ _ rfl)
  have r20 := Reach.step 0 r19 (.update _ _ rfl (by decide) rfl)
  have r21 := Reach.step 0 r20 (.donePop _ _ _ rfl)
  refine ⟨_, r21, by decide, rfl, by decide, by decide, ?_⟩
  intro th hth
  have : th ∈ [(⟨.idle, .go⟩ : Thread), ⟨.idle, .go⟩] := hth
  simpa [Thread.idle] using this

/-- In the middle of the run, the consumer sleeps, its slot has changed and the producer is about
to wake it up. -/
example : ∃ (s : State) (th : Thread) (v : W), Reach c0 2 s ∧ th ∈ s.threads ∧ th.pc = .asleep v ∧
    s.slot (th.op.slot c0) ≠ v ∧ s.waking (th.op.slot c0) := by
  have r1 := Reach.step (c := c0) (n := 2) 0 .init (.startPop true rfl)
  have r2 := Reach.step 0 r1 (.claimPop true rfl)
  have r3 := Reach.step 0 r2 (.load _ rfl rfl)
  have r4 := Reach.step 0 r3 (.wait _ _ rfl (by decide))
  have r5 := Reach.step 0 r4 (.lock _ _ rfl rfl)
  have r6 := Reach.step 0 r5 (.checkSame _ _ rfl rfl)
  have r7 := Reach.step 0 r6 (.casOk _ _ rfl rfl)
  have r8 := Reach.step 0 r7 (.sleep _ _ rfl)
  have r9 := Reach.step 1 r8 (.startPush [8#64] rfl (by intro p hp; simp at hp; subst hp; unfold isPtr; decide))
  have r10 := Reach.step 1 r9 (.claimPush 0 _ rfl (by simp))
  have r11 := Reach.step 1 r10 (.load _ rfl rfl)
  have r12 := Reach.step 1 r11 (.update _ _ rfl (by decide) rfl)
  exact ⟨_, ⟨.pop 0 1 [] true, .asleep 1#64⟩, 1#64, r12, .head _, rfl, by decide, ⟨⟨.push 1 0 [], .wlock 0⟩, .tail _ (.head _), Or.inl rfl⟩⟩

/-- With only the first eight steps, nothing can happen any more, and a consumer is waiting. -/
example : ∃ s, Reach c0 2 s ∧ s.tail ≤ 2 ^ 62 ∧ s.stuck c0 ∧ ∃ th ∈ s.threads, ∃ i k got, th.op = .pop i k got true := by
  have r1 := Reach.step (c := c0) (n := 2) 0 .init (.startPop true rfl)
  have r2 := Reach.step 0 r1 (.claimPop true rfl)
  have r3 := Reach.step 0 r2 (.load _ rfl rfl)
  have r4 := Reach.step 0 r3 (.wait _ _ rfl (by decide))
  have r5 := Reach.step 0 r4 (.lock _ _ rfl rfl)
  have r6 := Reach.step 0 r5 (.checkSame _ _ rfl rfl)
  have r7 := Reach.step 0 r6 (.casOk _ _ rfl rfl)
  have r8 := Reach.step 0 r7 (.sleep _ _ rfl)
  refine ⟨_, r8, by decide, ?_, ⟨⟨.pop 0 1 [] true, .asleep 1#64⟩, .head _, 0, 1, [], rfl⟩⟩
  intro t s' st
  obtain ⟨th, hth⟩ := step_thread st
  have hm : th ∈ [(⟨.pop 0 1 [] true, .asleep 1#64⟩ : Thread), ⟨.idle, .go⟩] := List.mem_of_getElem? hth
  refine ⟨th, hth, ?_⟩
  simp at hm
  rcases hm with rfl | rfl
  · exact Or.inr ⟨_, rfl⟩
  · exact Or.inl rfl

/-- A finished blocking pop. -/
example : ∃ s, Reach c0 2 s ∧ s.threads[0]? = some ⟨.pop 1 0 [8#64] true, .go⟩ := by
  have r1 := Reach.step (c := c0) (n := 2) 0 .init (.startPop true rfl)
  have r2 := Reach.step 0 r1 (.claimPop true rfl)
  have r3 := Reach.step 0 r2 (.load _ rfl rfl)
  have r4 := Reach.step 0 r3 (.wait _ _ rfl (by decide))
  have r5 := Reach.step 0 r4 (.lock _ _ rfl rfl)
  have r6 := Reach.step 0 r5 (.checkSame _ _ rfl rfl)
  have r7 := Reach.step 0 r6 (.casOk _ _ rfl rfl)
  have r8 := Reach.step 0 r7 (.sleep _ _ rfl)
  have r9 := Reach.step 1 r8 (.startPush [8#64] rfl (by intro p hp; simp at hp; subst hp; unfold isPtr; decide))
  have r10 := Reach.step 1 r9 (.claimPush 0 _ rfl (by simp))
  have r11 := Reach.step 1 r10 (.load _ rfl rfl)
  have r12 := Reach.step 1 r11 (.update _ _ rfl (by decide) rfl)
  have r13 := Reach.step 1 r12 (.wlock _ _ rfl rfl)
  have r14 := Reach.step 1 r13 (.wunlock _ _ rfl)
  have r15 := Reach.step 1 r14 (.wcast _ _ rfl)
  have r16 := Reach.step 1 r15 (.donePush _ rfl)
  have r17 := Reach.step 0 r16 (.relock _ _ rfl rfl)
  have r18 := Reach.step 0 r17 (.recheck _ _ rfl)
  have r19 := Reach.step 0 r18 (.unlock _ _ rfl)
  have r20 := Reach.step 0 r19 (.update _ _ rfl (by decide) rfl)
  exact ⟨_, r20, by decide⟩
end

/-! ## C27: capacity -/

/-- The number of requests in flight never exceeds the depth, and `ioq_capacity()` is the
difference. -/
theorem C27_capacity {B depth : Nat} {stop : Stop} {a : Api} {flight accepted : List W} (hB : 0 < B) (h : Hist B depth stop a flight accepted) :
    flight.length ≤ depth ∧ a.capacity = depth - flight.length := by
  have hi := hist_inv hB h
  refine ⟨hi.le, ?_⟩
  unfold Api.capacity
  rw [hi.dep, hi.size]

/-- A request fails with `EINTR` exactly when the queue has been cancelled, otherwise with `EAGAIN`
exactly when there are `depth` requests in flight, otherwise with `ENOMEM` exactly when memory runs
out, and otherwise it is accepted. -/
theorem C27_refused {B depth : Nat} {stop : Stop} {a : Api} {flight accepted : List W} (hB : 0 < B) (h : Hist B depth stop a flight accepted)
    (ent : Option W) (xbuf : Bool) :
    ∃ a' r, a.call B ent xbuf = .ok (a', r) ∧
      (r = some "EINTR" ↔ a.cancelled = true) ∧
      (r = some "EAGAIN" ↔ a.cancelled = false ∧ flight.length = depth) ∧
      (r = some "ENOMEM" ↔ a.cancelled = false ∧ flight.length < depth ∧ (ent = none ∨ xbuf = false)) ∧
      (r = none ↔ a.cancelled = false ∧ flight.length < depth ∧ ent ≠ none ∧ xbuf = true) := by
  have hi := hist_inv hB h
  rcases call_cases hB hi ent xbuf with ⟨h1, h2⟩ | ⟨h1, h2, h3⟩ | ⟨h1, h2, h3, h4⟩ | ⟨e, a', h1, h2, h3, h4, h5, _⟩
  · exact ⟨_, _, h2, by simp [h1], by simp [h1], by simp [h1], by simp [h1]⟩
  · exact ⟨_, _, h3, by simp [h1], by simp [h1, h2], by simp [h2], by simp [h2]⟩
  · refine ⟨_, _, h4, by simp [h1], by simp [h1]; omega, by simp [h1, h2, h3], ?_⟩
    constructor
    · intro hh; cases hh
    · rintro ⟨_, _, h6, h7⟩
      rcases h3 with h3 | h3
      · exact absurd h3 h6
      · rw [h3] at h7; cases h7
  · subst h3 h4
    exact ⟨_, _, h5, by simp [h1], by simp [h1]; omega, by simp, by simp [h1, h2]⟩

/-- Requests reach the pending queue in the order in which they were accepted, none is lost, and
cancelling adds the stop marker after them. -/
theorem C27_order {B depth : Nat} {stop : Stop} {a : Api} {flight accepted : List W} (hB : 0 < B) (h : Hist B depth stop a flight accepted) :
    a.sent ++ a.pending.content = accepted ++ (if a.cancelled then [stop] else []) ∧
    a.submit.sent = accepted ++ (if a.cancelled then [stop] else []) := by
  have hi := hist_inv hB h
  refine ⟨hi.order, ?_⟩
  obtain ⟨h1, h2⟩ := submit_inv hB hi
  have h3 := h1.order
  rw [h2, List.append_nil] at h3
  exact h3

/-- Cancelling sends everything accepted so far, followed by the stop marker, at once. -/
theorem C27_cancel {B depth : Nat} {stop : Stop} {a a' : Api} {flight accepted : List W} (hB : 0 < B) (h : Hist B depth stop a flight accepted)
    (hc : a.cancelled = false) (hk : a.cancel B stop = .ok a') : a'.sent = accepted ++ [stop] ∧ a'.cancelled = true := by
  obtain ⟨a'', h1, h2, h3, h4⟩ := cancel_inv hB (hist_inv hB h)
  rw [h1] at hk; cases hk
  have := h2.order
  rw [h4 hc, h3, List.append_nil] at this
  exact ⟨this, h3⟩

/-- Whatever the client does, it neither overruns an array nor fails an assertion, as long as it
calls `ioq_submit()` before `ioq_pop()`, and frees only requests in flight. -/
theorem C27_safe {B depth : Nat} {stop : Stop} {a : Api} {flight accepted : List W} (hB : 0 < B) (h : Hist B depth stop a flight accepted) :
    (∀ ent xbuf, ∃ r, a.call B ent xbuf = .ok r) ∧ (∃ a', a.cancel B stop = .ok a') ∧
    (∀ e ∈ flight, ∃ a', a.free = .ok a') ∧ (∀ block got, ∃ r, a.submit.pop B block got = .ok r) := by
  have hi := hist_inv hB h
  refine ⟨?_, ?_, ?_, ?_⟩
  · intro ent xbuf
    obtain ⟨a', r, h1, _⟩ := C27_refused hB h ent xbuf
    exact ⟨_, h1⟩
  · obtain ⟨a', h1, _⟩ := cancel_inv hB hi; exact ⟨a', h1⟩
  · intro e he; obtain ⟨a', h1, _⟩ := free_inv hi he; exact ⟨a', h1⟩
  · intro block got
    obtain ⟨h1, h2⟩ := submit_inv hB hi
    have h3 := (empty_iff h1.out.len (Nat.le_of_lt h1.out.tail)).2 h2
    unfold Api.pop
    rw [if_pos h3]
    split
    · exact ⟨_, rfl⟩
    · exact ⟨_, rfl⟩

/-- `ioq_pop()` returns the responses it got from the ready queue one by one, in order, and takes
more from the queue only when there are none left. -/
theorem C27_pop {B depth : Nat} {stop : Stop} {a a' : Api} {flight accepted : List W} (hB : 0 < B) (h : Hist B depth stop a flight accepted)
    {block : Bool} {got : List W} {e : W} (hg : got.length = B) (hne : flight ≠ []) (hp : a.pop B block got = .ok (a', e)) :
    (a.ready.content ≠ [] → e :: a'.ready.content = a.ready.content) ∧
    (a.ready.content = [] → (e :: a'.ready.content = nonNull got ∨ (e = 0#64 ∧ a'.ready.content = [] ∧ (nonNull got = [] ∨ (block = false ∧ a'.ready.head = a.ready.head + 1))))) := by
  have hi := hist_inv hB h
  have hs := pop_spec' hi.inb block hg
  unfold Api.pop at hp
  split at hp
  · next hem =>
    have hsz : a.size ≠ 0 := by
      rw [hi.size]; intro h0; exact hne (List.length_eq_zero_iff.1 h0)
    rw [if_neg hsz] at hp
    dsimp only at hp
    cases hp
    refine ⟨hs.2.1, fun hc => ?_⟩
    by_cases hb : block = false ∧ a.ready.head < B
    · right
      have h1 := hs.2.2.1 hc hb.1 hb.2
      refine ⟨h1.1, h1.2, Or.inr ⟨hb.1, ?_⟩⟩
      have hem' := (empty_iff hi.inb.len hi.inb.tail).2 hc
      dsimp only
      unfold Batch.pop
      rw [if_pos hem', if_pos (by simp [hb.1, hb.2])]
    · have hb' : block = true ∨ B ≤ a.ready.head := by
        by_cases h1 : block = false
        · right; rcases Nat.lt_or_ge a.ready.head B with h2 | h2
          · exact absurd ⟨h1, h2⟩ hb
          · exact h2
        · left; simpa using h1
      by_cases hnn : nonNull got = []
      · right
        have h1 := hs.2.2.2.2 hc hb' hnn
        exact ⟨h1.1, h1.2, Or.inl hnn⟩
      · left; exact hs.2.2.2.1 hc hb' hnn
  · cases hp

/-- Three requests on a queue of depth two: the third is refused, until one has been freed. -/
example : ∃ a, Hist 2 2 4#64 a [12#64, 16#64] [8#64, 12#64, 16#64] ∧ a.cancelled = false := by
  refine ⟨_, .accept 16#64 true (.free 8#64 (.refuse (some 16#64) true "EAGAIN" (.accept 12#64 true (.accept 8#64 true .create rfl) rfl) rfl) (by decide) rfl) rfl, rfl⟩

/-! ## C59: workers -/

/-- A worker answers every request it receives, in order and exactly once: what it sent to the
ready queue, and what is left in its two batches, are what it received.  Each request that left the
pending batch was either performed or refused with `EINTR`, exactly once; requests that close
something are always performed. -/
theorem C59_worker {B : Nat} {stop : Stop} {closes : Closes} {w : Worker} {received : List W} (hB : 0 < B) (h : WHist B stop closes w received) :
    w.sent ++ w.ready.content ++ w.pending.content = received ∧
    (w.performed ++ w.refused).Perm (w.sent ++ w.ready.content) ∧ ∀ p ∈ w.refused, closes p = false := by
  have hi := whist_inv hB h
  exact ⟨hi.order, hi.once, hi.closed⟩

/-- Before a worker waits for more requests, it has sent the responses to all the requests it has
received. -/
theorem C59_flush {B : Nat} {stop : Stop} {closes : Closes} {w : Worker} {received : List W} (hB : 0 < B) (h : WHist B stop closes w received)
    (he : w.pending.content = []) : w.top.sent = received := by
  have hi := whist_inv hB h
  obtain ⟨h1, h2, _, _, h3⟩ := top_inv hB hi
  have h4 : w.pending.isEmpty = true := (empty_iff hi.inb.len hi.inb.tail).2 he
  have := h1.order
  rw [h3 h4, h2, he, List.append_nil, List.append_nil] at this
  exact this

/-- Each iteration goes well, and performs the next request unless the queue has been cancelled and
the request does not close anything. -/
theorem C59_iteration {B : Nat} {stop : Stop} {closes : Closes} {w : Worker} {received : List W} (hB : 0 < B) (h : WHist B stop closes w received)
    {got : List W} (hg : got.length = B) (hf : ∀ p ∈ got.head?, p ≠ 0#64) (cancelled : Bool) :
    ∃ w' done, w.iter B stop closes got cancelled = .ok (w', done) ∧
      ∃ ent rest, ent :: rest = (if w.pending.content = [] then nonNull got else w.pending.content) ∧ w'.pending.content = rest ∧
        (done = true ↔ ent = stop) ∧
        (ent ≠ stop → w'.performed = w.performed ++ (if cancelled && !closes ent then [] else [ent]) ∧
          w'.refused = w.refused ++ (if cancelled && !closes ent then [ent] else [])) ∧
        (ent = stop → w'.performed = w.performed ∧ w'.refused = w.refused) := by
  obtain ⟨ent, rest, h1, h2⟩ := iter_cases (stop := stop) hB (whist_inv hB h) hg hf cancelled
  rcases h2 with ⟨hs, w', h3, _, _, h5, _, h6, h7⟩ | ⟨hs, w', h3, h4, _, h6, h7⟩
  · exact ⟨w', true, h3, ent, rest, h1, h5, by simp [hs], fun h' => absurd hs h', fun _ => ⟨h6, h7⟩⟩
  · exact ⟨w', false, h3, ent, rest, h1, h4, by simp [hs], fun _ => ⟨h6, h7⟩, fun h' => absurd h' hs⟩

/-- When it gets the stop marker as the last entry of a batch, a worker sends all its responses and
exits.  If other requests come after the marker in the same batch, it fails an assertion instead. -/
theorem C59_stop_partial {B : Nat} {stop : Stop} {closes : Closes} {w w' : Worker} {received : List W} (hB : 0 < B) (h : WHist B stop closes w received)
    {got : List W} (hg : got.length = B) (hf : ∀ p ∈ got.head?, p ≠ 0#64) (cancelled : Bool)
    (hi : w.iter B stop closes got cancelled = .ok (w', true)) :
    (w'.pending.content = [] → ∃ w'', w'.finish = .ok w'' ∧ w''.sent ++ [stop] = (if w.pending.content = [] then received ++ nonNull got else received)) ∧
    (w'.pending.content ≠ [] → w'.finish = .ub) := by
  have hinv := whist_inv hB h
  obtain ⟨ent, rest, h1, h2⟩ := iter_cases (stop := stop) hB hinv hg hf cancelled
  rcases h2 with ⟨hs, w2, h3, ho, hib, h5, h6, _, _⟩ | ⟨hs, w2, h3, _⟩
  · rw [h3] at hi
    cases hi
    have hem := empty_iff hib.len hib.tail
    refine ⟨?_, ?_⟩
    · intro hc
      obtain ⟨_, _, f3⟩ := flush_spec hB ho.len ho.head (Nat.le_of_lt ho.tail)
      refine ⟨w'.flush, by unfold Worker.finish; rw [if_pos (hem.2 hc)], ?_⟩
      show w'.sent ++ w'.ready.flush.2 ++ [stop] = _
      rw [f3, h6]
      have hr : rest = [] := by rw [← h5, hc]
      rw [hr, hs] at h1
      have hord := hinv.order
      by_cases hpc : w.pending.content = []
      · rw [if_pos hpc] at h1 ⊢
        rw [hpc, List.append_nil] at hord
        rw [hord, h1]
      · rw [if_neg hpc] at h1 ⊢
        rw [h1]; exact hord
    · intro hc
      unfold Worker.finish
      rw [if_neg (fun e => hc (hem.1 e))]
  · rw [h3] at hi; cases hi

/-- A worker that gets two requests and the stop marker. -/
example : ∃ w w' w'', WHist 4 4#64 (fun _ => false) w [8#64, 12#64, 4#64] ∧
    w.iter 4 4#64 (fun _ => false) [8#64, 0#64, 0#64, 0#64] true = .ok (w', true) ∧ w'.finish = .ok w'' ∧
    w''.sent = [8#64, 12#64] ∧ w''.performed = [8#64] ∧ w''.refused = [12#64] := by
  have h1 := WHist.iter (B := 4) (stop := 4#64) (closes := fun _ => false) [8#64, 12#64, 0#64, 4#64] false .start rfl (by intro p hp; cases hp; decide) rfl
  have h2 := WHist.iter [8#64, 0#64, 0#64, 0#64] true h1 rfl (by intro p hp; cases hp; decide) rfl
  exact ⟨_, _, _, h2, rfl, rfl, by decide, by decide, by decide⟩

/-- The requests are `100`, `104`, ... -/
def req (i : Nat) : W := BitVec.ofNat 64 (100 + 4 * i)

/-- The client (0) sends 16 requests. A worker (1) takes a batch of 8, but is interrupted when it has got three of them. Another one (2) takes the next 8. The client sends two more, and
the stop marker; the second worker takes a batch. -/
def lapSchedule : List (Nat × Move) :=
  [(0, .push ((List.range 16).map req))] ++ List.replicate 34 (0, .go) ++ [(1, .pop true)] ++ List.replicate 7 (1, .go) ++
  [(2, .pop true)] ++ List.replicate 18 (2, .go) ++ [(0, .push [req 16, req 17, 4#64])] ++ List.replicate 8 (0, .go) ++ [(2, .pop true)] ++ List.replicate 17 (2, .go)

def lapCfg : Cfg := ⟨16, 8, fun i => i % 2⟩

/-- **C59 (stop): not always.** With 16 slots and batches of 8, the stop marker of `ioq_cancel()` can overtake requests that were sent before it, because a slow worker leaves them in
the queue while others go around it. A worker that gets a batch with requests behind the marker fails its assertion. -/
theorem C59_stop_counterexample : ∃ s got, Reach lapCfg 3 s ∧ s.threads[2]? = some ⟨.pop 24 0 got true, .go⟩ ∧
    s.submitted = (List.range 18).map req ++ [4#64] ∧ got = [req 16, req 17, 4#64, req 3, req 4, req 5, req 6, req 7] ∧
    ∃ w received w', WHist 8 4#64 (fun _ => false) w received ∧ received = got ∧ w.iter 8 4#64 (fun _ => false) got true = .ok (w', true) ∧ w'.finish = .ub := by
  have key : ∃ s, runs lapCfg (State.init lapCfg 3) lapSchedule = some s ∧ s.threads[2]? = some ⟨.pop 24 0 [req 16, req 17, 4#64, req 3, req 4, req 5, req 6, req 7] true, .go⟩ ∧
      s.submitted = (List.range 18).map req ++ [4#64] := by
    have h : ((runs lapCfg (State.init lapCfg 3) lapSchedule).map fun s => (s.threads[2]?, s.submitted)) =
        some (some ⟨.pop 24 0 [req 16, req 17, 4#64, req 3, req 4, req 5, req 6, req 7] true, .go⟩, (List.range 18).map req ++ [4#64]) := by decide +kernel
    cases hr : runs lapCfg (State.init lapCfg 3) lapSchedule with
    | none => rw [hr] at h; cases h
    | some s =>
      rw [hr] at h
      injection h with h
      injection h with h1 h2
      exact ⟨s, rfl, h1, h2⟩
  obtain ⟨s, h1, h2, h3⟩ := key
  refine ⟨s, _, runs_reach h1 .init, h2, h3, rfl, ?_⟩
  have w1 := WHist.iter (B := 8) (stop := 4#64) (closes := fun _ => false) [req 16, req 17, 4#64, req 3, req 4, req 5, req 6, req 7] false .start rfl (by intro p hp; cases hp; decide) rfl
  have w2 := WHist.iter [req 16, req 17, 4#64, req 3, req 4, req 5, req 6, req 7] false w1 rfl (by intro p hp; cases hp; decide) rfl
  exact ⟨_, _, _, w2, by decide +kernel, rfl, by decide +kernel⟩

end Verif.Props
