import Verif.Lemmas.UringEnd
/-!
# C92: I/O threads that use `io_uring`
-/
namespace Verif.Props

open Verif.Ioq (W nonNull)
open Verif.Uring (Res)

namespace Ring

/-- A ring with two places, for opening and for `statx()`; batches of four.  `8` and `24` open
directories, `12` is a `stat()`, `16` closes something, `20` does nothing, and `4` is the marker. -/
def cfg : Uring.Cfg :=
  { B := 4, entries := 2, openat := true, close := true, statx := true, useUnwrapdir := true, useStatx := true, stop := 4#64,
    op := fun w => if w = 8#64 ∨ w = 24#64 then .opendir else if w = 12#64 then .stat else if w = 16#64 then .close else .nop false }

/-- The queue is cancelled at some time; the kernel takes one request at a time, and says `5` each time. -/
def env : Uring.Env :=
  { cancelled := fun t => decide (17 ≤ t), submit := fun _ => 1, complete := fun _ => [(0, 5)],
    got := fun t => if t = 0 then [8#64, 12#64, 0#64, 16#64] else if t ≤ 16 then [24#64, 20#64, 0#64, 16#64] else [4#64, 0#64, 0#64, 0#64],
    tryGot := fun _ => [0#64, 0#64, 0#64, 0#64], result := fun t => if t = 8 then -13 else 0 }

theorem good : cfg.Good := ⟨by decide, by decide, by decide⟩

theorem proper : env.Proper cfg := by
  have h1 : ∀ t pre rest, nonNull (env.got t) = pre ++ 4#64 :: rest → rest = [] := by
    intro t pre rest h
    have hg : env.got t = [8#64, 12#64, 0#64, 16#64] ∨ env.got t = [24#64, 20#64, 0#64, 16#64] ∨ env.got t = [4#64, 0#64, 0#64, 0#64] := by
      show (if t = 0 then _ else if t ≤ 16 then _ else _) = _ ∨ (if t = 0 then _ else if t ≤ 16 then _ else _) = _ ∨ (if t = 0 then _ else if t ≤ 16 then _ else _) = _
      by_cases h0 : t = 0
      · left; rw [if_pos h0]
      · by_cases h1 : t ≤ 16
        · right; left; rw [if_neg h0, if_pos h1]
        · right; right; rw [if_neg h0, if_neg h1]
    rcases hg with hg | hg | hg
    · rw [hg] at h
      have hm : (4#64 : W) ∈ nonNull [8#64, 12#64, 0#64, 16#64] := by rw [h]; simp
      exact absurd hm (by decide)
    · rw [hg] at h
      have hm : (4#64 : W) ∈ nonNull [24#64, 20#64, 0#64, 16#64] := by rw [h]; simp
      exact absurd hm (by decide)
    · rw [hg] at h
      have hl : nonNull [4#64, 0#64, 0#64, 0#64] = [4#64] := by decide
      rw [hl] at h
      cases pre with
      | nil => injection h with _ h; exact h.symm
      | cons a l => injection h with _ h; cases l <;> cases h
  refine ⟨?_, fun _ => rfl, ?_, h1, ?_⟩
  · intro t
    show (if t = 0 then _ else if t ≤ 16 then _ else _ : List W).length = 4
    by_cases h0 : t = 0
    · rw [if_pos h0]; rfl
    · by_cases h1 : t ≤ 16
      · rw [if_neg h0, if_pos h1]; rfl
      · rw [if_neg h0, if_neg h1]; rfl
  · intro t p hp
    have hp' : p ∈ (if t = 0 then [8#64, 12#64, 0#64, 16#64] else if t ≤ 16 then [24#64, 20#64, 0#64, 16#64] else [4#64, 0#64, 0#64, 0#64] : List W).head? := hp
    by_cases h0 : t = 0
    · rw [if_pos h0] at hp'; cases hp'; decide
    · by_cases h1 : t ≤ 16
      · rw [if_neg h0, if_pos h1] at hp'; cases hp'; decide
      · rw [if_neg h0, if_neg h1] at hp'; cases hp'; decide
  · intro t pre rest h
    have hl : nonNull (env.tryGot t) = [] := (by decide : nonNull [0#64, 0#64, 0#64, 0#64] = [])
    rw [hl] at h
    cases pre <;> cases h

theorem progress : env.Progress := ⟨fun _ => (by decide : (0 : Int) < 1), fun _ => ⟨5, [], rfl⟩⟩

theorem stops : env.StopsAt cfg 17 := by
  refine ⟨?_, fun _ _ => .inl (by decide : nonNull [0#64, 0#64, 0#64, 0#64] = [])⟩
  intro t ht
  show nonNull (if t = 0 then _ else if t ≤ 16 then _ else _) = _
  rw [if_neg (by omega), if_neg (by omega)]
  decide

end Ring

theorem at_inv {c : Uring.Cfg} {e : Uring.Env} (hc : c.Good) (he : e.Proper c) {n : Nat} {s : Uring.State} (h : (Uring.work c e n).At s) : Uring.Inv c e [] s := by
  have hw := Uring.work_inv hc he n
  generalize Uring.work c e n = r at h hw
  cases h with
  | done => exact hw.1
  | more => exact hw

/-- **C92 (exactly once).** At any time, each request that the thread has received has one answer,
or is still waiting for it, and the answers are in the ready queue or the batch for it in that order.
(What is put back is the stop marker.)  Each request that is not waiting in the batch was refused, or
performed by the thread itself, or given to the kernel: one of these, once. -/
theorem C92_once {c : Uring.Cfg} {e : Uring.Env} (hc : c.Good) (he : e.Proper c) {n : Nat} {s : Uring.State} (h : (Uring.work c e n).At s) :
    s.received.Perm (s.answered ++ s.waiting ++ s.returned) ∧ s.answered = s.sent ++ s.ready.content ∧ s.returned = (if s.stop then [c.stop] else []) ∧
    (s.answered ++ s.sq ++ s.flight ++ s.cq.map Prod.fst).Perm (s.refused ++ s.synced.map Prod.fst ++ s.queued) ∧
    s.queued.Perm (s.sq ++ s.flight ++ s.completed.map Prod.fst) := by
  have hi := at_inv hc he h
  refine ⟨?_, hi.ans, hi.retStop, ?_, ?_⟩
  · rw [List.perm_iff_count]
    intro p
    have h1 := hi.once p
    unfold Uring.State.answered Uring.State.waiting
    rw [hi.ans]
    simp only [List.count_append, List.map_nil, List.count_nil] at h1 ⊢
    omega
  · rw [List.perm_iff_count]
    intro p
    have h1 := hi.ways p
    unfold Uring.State.answered
    simp only [List.count_append, List.map_nil, List.count_nil] at h1 ⊢
    omega
  · rw [List.perm_iff_count]
    intro p
    have h1 := hi.kern p
    simp only [List.count_append] at h1 ⊢
    omega

/-- **C92 (answers).** Every answer is the right one: `EINTR` because the queue was cancelled (never for
a request to close something), what the thread got, or what the kernel said, with errors passed on.
Those that the kernel can do go to the kernel, and only those. -/
theorem C92_answers {c : Uring.Cfg} {e : Uring.Env} (hc : c.Good) (he : e.Proper c) {n : Nat} {s : Uring.State} (h : (Uring.work c e n).At s) :
    (∀ ent r, (ent, r) ∈ s.answers → Uring.Explained c e s ent r) ∧ (∀ p ∈ s.refused, Uring.Refusable (c.op p)) ∧
    (∀ p ∈ s.queued, Uring.KernelCan c (c.op p)) ∧ (∀ y ∈ s.synced, ¬ Uring.KernelCan c (c.op y.1)) := by
  have hi := at_inv hc he h
  exact ⟨fun ent r hy => hi.expl (ent, r) (by simpa using hy), hi.refusedOk, fun p hp => (Uring.kernelCan_iff c _).2 (hi.queuedOk p hp),
    fun y hy hk => by have := (Uring.kernelCan_iff c _).1 hk; rw [hi.syncedOk y hy] at this; cases this⟩

/-- **C92 (descriptors).** Each file descriptor that the kernel opened and the thread has seen is part of a
`struct bfs_dir`, or has been closed: one of these, once. -/
theorem C92_descriptors {c : Uring.Cfg} {e : Uring.Env} (hc : c.Good) (he : e.Proper c) {n : Nat} {s : Uring.State} (h : (Uring.work c e n).At s) :
    (s.completed.filter (Uring.isFd c)).Perm (s.cq.filter (Uring.isFd c) ++ s.kept ++ s.closed) := by
  have hi := at_inv hc he h
  rw [List.perm_iff_count]
  intro y
  have h1 := hi.fds y
  simp only [List.count_append]
  exact h1

/-- **C92 (bounds).** The submission queue never overflows, and neither does the completion queue, which
has twice as many places: together with what the kernel is working on, it never needs more.  No counter is ever
wrong. -/
theorem C92_bounded {c : Uring.Cfg} {e : Uring.Env} (hc : c.Good) (he : e.Proper c) {n : Nat} {s : Uring.State} (h : (Uring.work c e n).At s) :
    s.sq.length ≤ c.entries ∧ s.inKernel ≤ 2 * c.entries ∧ s.prepped = s.sq.length ∧ s.submitted = s.inKernel + s.seen := by
  have hi := at_inv hc he h
  have h1 := hi.submitted
  have h2 := hi.bound
  refine ⟨hi.space, ?_, hi.prepped, h1⟩
  unfold Uring.State.inKernel
  omega

/-- **C92 (no crash).** No assertion fails and no null pointer is dereferenced, if no request comes after the stop
marker in a batch. -/
theorem C92_no_crash_partial {c : Uring.Cfg} {e : Uring.Env} (hc : c.Good) (he : e.Proper c) (n : Nat) : Uring.work c e n ≠ .ub := by
  intro h
  have := Uring.work_inv hc he n
  rw [h] at this
  exact this

/-- **C92 (stop): not always.** If there is a request after the marker (which `C59_stop_counterexample` shows
can happen), an assertion fails. -/
theorem C92_stop_counterexample : ∃ (c : Uring.Cfg) (e : Uring.Env), c.Good ∧ (∀ t, nonNull (e.got t) = [c.stop, 8#64]) ∧ Uring.work c e 3 = .ub :=
  ⟨Ring.cfg, { Ring.env with got := fun _ => [4#64, 8#64, 0#64, 0#64] }, Ring.good, fun _ => (by decide : nonNull [4#64, 8#64, 0#64, 0#64] = [4#64, 8#64]), by decide⟩

/-- **C92 (exit).** When the thread exits, it has been told to stop, it has sent an answer to each request that it
received, and neither the kernel nor the ring has anything left. -/
theorem C92_exit {c : Uring.Cfg} {e : Uring.Env} (hc : c.Good) (he : e.Proper c) {n : Nat} {s : Uring.State} (h : Uring.work c e n = .done s) :
    s.received.Perm (s.sent ++ [c.stop]) ∧ s.sent = s.answered ∧ s.waiting = [] ∧ s.stop = true := by
  have hw := Uring.post_done (Uring.work_inv hc he n) h
  obtain ⟨hi, h2, h3, h4, h5, h6, h7, h8⟩ := hw
  have hready : s.ready.content = [] := Ioq.empty_content h8
  have hsq : s.sq = [] := List.length_eq_zero_iff.1 (by rw [← hi.prepped]; exact h5)
  have hsub := hi.submitted
  have hfl : s.flight = [] := List.length_eq_zero_iff.1 (by omega)
  have hcq : s.cq = [] := List.length_eq_zero_iff.1 (by omega)
  have hwt : s.waiting = [] := by unfold Uring.State.waiting; rw [h3, h4, hsq, hfl, hcq]; rfl
  have hans : s.answered = s.sent := by
    have := hi.ans
    rw [hready, List.append_nil] at this
    exact this
  refine ⟨?_, hans.symm, hwt, h7⟩
  have := (C92_once hc he (h ▸ .done s : (Uring.work c e n).At s)).1
  rw [hwt, hans, List.append_nil, hi.retStop, h7] at this
  exact this

/-- **C92 (the end).** If the kernel makes progress, and from some time on the queue has nothing but the stop marker,
the thread exits. -/
theorem C92_ends {c : Uring.Cfg} {e : Uring.Env} (hc : c.Good) (he : e.Proper c) (hp : e.Progress) {T : Nat} (hT : e.StopsAt c T) :
    ∃ n s, Uring.work c e n = .done s := Uring.work_ends hc he hp hT

/-- **C92 (observation).** While anything is in the ring, the thread takes no new request: each time, it
tries to get one from an empty batch, which does not ask the queue. -/
theorem C92_barrier {c : Uring.Cfg} (e : Uring.Env) (hc : c.Good) (n : Nat) {s : Uring.State} (hs : s.stop = false) (hr : s.isEmpty = false) :
    ∃ s', Uring.prep c e (n + 1) s = .done (s', true) ∧ s'.received = s.received ∧ s'.sq = s.sq ∧ s'.flight = s.flight ∧ s'.cq = s.cq := by
  have hB := hc.batch
  have hr' : ({ s with pending := s.pending.reset } : Uring.State).isEmpty = false := hr
  have hf : ({ s with pending := s.pending.reset } : Uring.State).fills c = false := by
    unfold Uring.State.fills
    rw [hr']
    simp [Ioq.Batch.reset]
    omega
  have hpop : s.pending.reset.pop c.B false (({ s with pending := s.pending.reset } : Uring.State).offer e) = ({ s.pending.reset with head := 1 }, 0#64) := by
    unfold Ioq.Batch.pop
    have h1 : s.pending.reset.isEmpty = true := rfl
    rw [if_pos h1]
    have h2 : (!false && decide (s.pending.reset.head < c.B)) = true := by
      show (true && decide (0 < c.B)) = true
      rw [decide_eq_true hB]; rfl
    rw [if_pos h2]
    rfl
  refine ⟨{ s with now := s.now + 1, pending := { s.pending.reset with head := 1 } }, ?_, rfl, rfl, rfl, rfl⟩
  have hpopped : ({ s with pending := s.pending.reset } : Uring.State).popped c e = ({ s with now := s.now + 1, pending := { s.pending.reset with head := 1 } }, 0#64) := by
    unfold Uring.State.popped
    rw [hf, hr']
    dsimp only
    rw [hpop]
    rfl
  unfold Uring.prep
  rw [if_neg (by rw [hs]; decide)]
  have hl : Uring.prepLoop c e (n + 1) { s with pending := s.pending.reset } = .done { s with now := s.now + 1, pending := { s.pending.reset with head := 1 } } := by
    unfold Uring.prepLoop
    rw [hpopped]
    dsimp only
    rw [if_neg (fun h => hc.marker h.symm), if_neg (by simp)]
  rw [hl]
  have hE : ({ s with now := s.now + 1, pending := { s.pending.reset with head := 1 } } : Uring.State).isEmpty = false := hr
  unfold Res.andThen
  dsimp only
  rw [if_pos (by rfl)]
  congr 2
  rw [hE]
  rfl

/-- A directory that cannot be read, one that is opened after the queue was cancelled, a `stat()`, something to close,
and something that is refused. -/
example : ∃ s, Uring.work Ring.cfg Ring.env 40 = .done s ∧
    s.answers = [(8#64, -13), (12#64, 0), (16#64, 5), (20#64, -4), (24#64, -4), (16#64, 5)] ∧ s.closed = [(8#64, 5), (24#64, 5)] ∧ s.refused = [20#64] ∧
    s.received = [8#64, 12#64, 16#64, 24#64, 20#64, 16#64, 4#64] :=
  ⟨_, rfl, by decide, by decide, by decide, by decide⟩

/-- The hypotheses hold for it. -/
example : Ring.cfg.Good ∧ Ring.env.Proper Ring.cfg ∧ Ring.env.Progress ∧ Ring.env.StopsAt Ring.cfg 17 := ⟨Ring.good, Ring.proper, Ring.progress, Ring.stops⟩

/-- In the middle of it, the kernel has finished one request, another one is to be submitted, and a third one
needs a place in the ring. -/
example : ∃ s, (Uring.work Ring.cfg Ring.env 6).At s ∧ s.sq = [12#64] ∧ s.cq = [(8#64, 5)] ∧ s.hand = [16#64] ∧ s.received = [8#64, 12#64, 16#64] := by
  refine ⟨_, .more _, ?_, ?_, ?_, ?_⟩ <;> decide

/-- A state as in `C92_barrier`: one request is with the kernel, and the queue would have another one. -/
example : ({ Uring.State.start Ring.cfg with flight := [8#64], submitted := 1 } : Uring.State).isEmpty = false := by decide

end Verif.Props
