import Verif.Lemmas.IoqLife
import Verif.Model.Limits

/-!
# C98: setting up the background threads

Whatever fails while the I/O queue is created, everything that has been acquired is released exactly once; and destroying a queue releases everything. Without io_uring, or if some
rings can't be initialized, the threads do system calls instead, and nothing else changes.
-/
namespace Verif.Props
open Verif Verif.Life

/-- The queue is created iff memory, mutexes, conditions and threads suffice; io_uring does not matter. Then exactly what is necessary is held, and destroying it releases all of
that; otherwise nothing is held any more. Nothing is ever released twice, or acquired twice. -/
theorem C98_create (w : World) {depth size : Nat} (n : Nat) (hd : depth ≤ 2 ^ 63) (hs : Bit.IsCeil depth size) :
    (w.good size n → ∃ x, x.threads.length = n ∧ create w depth n nothing = .ok (some x, held size x.threads) ∧ destroy (some x) (held size x.threads) = .ok nothing) ∧
    (¬ w.good size n → create w depth n nothing = .ok (none, nothing)) := by
  obtain ⟨c, h1, h2⟩ := C52_ceil .gnu 64 depth (by omega) hd
  have hc : c = size := by
    obtain ⟨⟨k, hk⟩, h3, h4⟩ := h2
    obtain ⟨⟨j, hj⟩, h5, h6⟩ := hs
    exact Nat.le_antisymm (hj ▸ h4 j (hj ▸ h5)) (hk ▸ h6 k (hk ▸ h3))
  subst hc
  rcases create_cases w n h1 with ⟨hg, h⟩ | ⟨hg, ths, x, ht, _, hx, h, h'⟩
  · exact ⟨fun q => absurd q hg, fun _ => h⟩
  · subst hx
    exact ⟨fun _ => ⟨x, ht, h, h'⟩, fun q => absurd hg q⟩

/-- The rings: the first ring's flags are those that the kernel accepts, and the others share its workers. The threads with a ring come first, and once a ring can't be initialized, no further
one is tried, so that all later threads have the same error. All rings have the same operations, those that the kernel supports, and there is at least one. -/
theorem C98_rings (w : World) {depth : Nat} (n : Nat) (hd : depth ≤ 2 ^ 63) {x : Ioq} {l : Live} (hx : create w depth n nothing = .ok (some x, l)) :
    Rings w x.threads ∧ ∀ (i j : Nat) (p q : Th), i ≤ j → x.threads[i]? = some p → x.threads[j]? = some q →
      (p.err ≠ 0 → q.err = p.err) ∧
      (q.err = 0 → p.err = 0 ∧ q.ops = p.ops ∧ q.ops = w.supported.getD {} ∧ q.ops.empty = false ∧ q.flags = { p.flags with attach := decide (0 < j) }) := by
  obtain ⟨c, h1, h2⟩ := C52_ceil .gnu 64 depth (by omega) hd
  have hr : Rings w x.threads := by
    rcases create_cases w n h1 with ⟨hg, h⟩ | ⟨hg, ths, y, ht, hr, hy, h, h'⟩
    · rw [h] at hx; cases hx
    · rw [h] at hx; cases hx; exact hy ▸ hr
  refine ⟨hr, ?_⟩
  generalize x.threads = ths at hr
  cases ths with
  | nil => intro i j p q _ hp; simp at hp
  | cons a ths =>
    obtain ⟨hf, hn⟩ := hr
    -- everything about the `j`th thread and the first one
    have h0 : ∀ (j : Nat) (q : Th), (a :: ths)[j]? = some q → q.err = 0 → a.err = 0 ∧ q.ops = a.ops ∧ q.flags = { a.flags with attach := decide (0 < j) } := by
      intro j
      induction j with
      | zero =>
        intro q hq he
        simp at hq
        subst hq
        exact ⟨he, rfl, by have := hf.flags.attach; cases hfl : a.flags; simp_all⟩
      | succ j ih =>
        intro q hq he
        have hlt : j < (a :: ths).length := by
          have := (List.getElem?_eq_some_iff.1 hq).1; omega
        have hp : (a :: ths)[j]? = some (a :: ths)[j] := List.getElem?_eq_getElem hlt
        have hN := hn j _ q hp hq
        have hpe : (a :: ths)[j].err = 0 := Classical.byContradiction fun hne => hne ((hN.sticky hne).symm.trans he)
        obtain ⟨e1, e2, e3⟩ := ih _ hp hpe
        refine ⟨e1, (hN.ops he).trans e2, ?_⟩
        rw [(hN.flags hpe).1, e3]
        simp
    have hs : ∀ (k i : Nat) (p q : Th), (a :: ths)[i]? = some p → (a :: ths)[i + k]? = some q → p.err ≠ 0 → q.err = p.err := by
      intro k
      induction k with
      | zero => intro i p q hp hq _; rw [Nat.add_zero, hp] at hq; cases hq; rfl
      | succ k ih =>
        intro i p q hp hq hne
        have hlt : i + k < (a :: ths).length := by
          have := (List.getElem?_eq_some_iff.1 hq).1; omega
        have hm : (a :: ths)[i + k]? = some (a :: ths)[i + k] := List.getElem?_eq_getElem hlt
        have e := ih i p _ hp hm hne
        have hN := hn (i + k) _ q hm hq
        exact (hN.sticky (by rw [e]; exact hne)).trans e
    intro i j p q hij hp hq
    obtain ⟨k, rfl⟩ : ∃ k, j = i + k := ⟨j - i, by omega⟩
    refine ⟨hs k i p q hp hq, fun he => ?_⟩
    have hpe : p.err = 0 := Classical.byContradiction fun hne => hne ((hs k i p q hp hq hne).symm.trans he)
    obtain ⟨e1, e2, e3⟩ := h0 _ q hq he
    obtain ⟨f1, f2, f3⟩ := h0 _ p hp hpe
    have hops := hf.ops e1
    refine ⟨hpe, by rw [e2, f2], by rw [e2, hops], ?_, by rw [e3, f3]⟩
    rw [e2, hops]
    have herr := hf.err
    rw [e1] at herr
    by_cases hi : w.init 0 a.flags = 0
    · rw [if_neg (by simp [hi])] at herr
      cases hem : (w.supported.getD {}).empty
      · rfl
      · rw [hem, if_pos rfl] at herr
        cases herr
    · rw [if_pos hi] at herr
      exact absurd herr.symm hi

/-- A thread uses a ring iff it holds one that could be enabled, if that was necessary; otherwise it does system calls. -/
theorem C98_work (w : World) {depth : Nat} (n : Nat) (hd : depth ≤ 2 ^ 63) {x : Ioq} {l : Live} (hx : create w depth n nothing = .ok (some x, l))
    {i : Nat} {th : Th} (hi : x.threads[i]? = some th) (enable : Bool) :
    l (.thread i) = true ∧ (work th enable = .uring ↔ l (.ring i) = true ∧ (th.flags.disabled = true → enable = true)) := by
  obtain ⟨c, h1, h2⟩ := C52_ceil .gnu 64 depth (by omega) hd
  have hl : l = held c x.threads := by
    rcases create_cases w n h1 with ⟨hg, h⟩ | ⟨hg, ths, y, ht, hr, hy, h, h'⟩
    · rw [h] at hx; cases hx
    · rw [h] at hx; cases hx; rw [hy]
  subst hl
  obtain ⟨hlt, he⟩ := List.getElem?_eq_some_iff.1 hi
  refine ⟨by simp [held, hlt], ?_⟩
  have hr : held c x.threads (.ring i) = decide (th.err = 0) := by simp [held, hi]
  rw [hr]
  unfold work
  cases th.flags.disabled <;> cases enable <;> simp

/-- The rings and the directories that may be open at the same time need no more descriptors than there are, whatever the number of threads that was asked for. -/
theorem C98_fds (w : World) {depth nopenfd asked dirs n : Nat} (hd : depth ≤ 2 ^ 63) (hf : Limits.splitFds true nopenfd asked = some (dirs, n))
    {x : Ioq} {l : Live} (hx : create w depth n nothing = .ok (some x, l)) :
    2 ≤ dirs ∧ dirs + (List.range n).countP (fun i => l (.ring i)) ≤ nopenfd ∧ ∀ i, n ≤ i → l (.ring i) = false := by
  obtain ⟨c, h1, h2⟩ := C52_ceil .gnu 64 depth (by omega) hd
  obtain ⟨hl, hn⟩ : l = held c x.threads ∧ x.threads.length = n := by
    rcases create_cases w n h1 with ⟨hg, h⟩ | ⟨hg, ths, y, ht, hr, hy, h, h'⟩
    · rw [h] at hx; cases hx
    · rw [h] at hx; cases hx; rw [hy]; exact ⟨rfl, ht⟩
  have hc : (List.range n).countP (fun i => l (.ring i)) ≤ n := by
    have := List.countP_le_length (p := fun i => l (.ring i)) (l := List.range n)
    simpa using this
  have hs : 2 ≤ dirs ∧ dirs + n = nopenfd := by
    unfold Limits.splitFds at hf
    by_cases h2 : nopenfd < 2
    · rw [if_pos h2] at hf; cases hf
    · rw [if_neg h2, if_pos rfl] at hf
      simp only [Option.some.injEq, Prod.mk.injEq] at hf
      split at hf <;> omega
  refine ⟨hs.1, by omega, fun i hi => ?_⟩
  rw [hl]
  simp [held, hn, hi]

/-- Everything works; the kernel does not know `IORING_SETUP_DEFER_TASKRUN`. -/
def goodWorld : World :=
  { alloc := true, queue := fun _ => ⟨true, true, fun _ => true, fun _ => true⟩, probe := fun _ f => if f.defer then EINVAL else 0, init := fun _ _ => 0,
    supported := some { openat := true, statx := true }, thread := fun _ => true }

/-- The third ring can't be initialized, and the fourth thread can't be created. -/
def badWorld : World := { goodWorld with init := fun i _ => if i = 2 then 24 else 0, thread := fun i => i ≠ 3 }

example : goodWorld.good 4096 7 :=
  ⟨rfl, ⟨rfl, rfl, fun _ _ _ => ⟨rfl, rfl⟩⟩, ⟨rfl, rfl, fun _ _ _ => ⟨rfl, rfl⟩⟩, fun _ _ => rfl⟩

example : ¬ badWorld.good 4096 7 := fun h => absurd (h.2.2.2 3 (by omega)) (by decide)

example : Bit.IsCeil 4096 4096 := ⟨⟨12, rfl⟩, Nat.le_refl _, fun _ h => h⟩

/-- With three threads, the third one works without a ring. -/
example : ((create badWorld 4096 3 nothing).bind fun r => .ok (r.1.map fun x => x.threads.map (·.err))) = .ok (some [0, 0, 24]) := by decide +kernel

/-- With 10 descriptors and `-j33`, there are 8 threads. -/
example : Limits.splitFds true 10 32 = some (2, 8) := by decide

end Verif.Props
