import Verif.Model.Threads
/-!
# C102: the default number of threads

bfs uses as many threads as there are processors that it may run on, but at most 8, and always at least one. This works for every size of the kernel's masks, and always ends.
-/
namespace Verif.Props
open Verif Verif.Threads

/-- A system whose kernel has masks of `need` bytes, in which some processors are set, and that has enough memory for twice of that. -/
structure UsualCpus (sys : Sys) (need : Nat) (cpus : List Bool) : Prop where
  small : ∀ n, n < need → sys.affinity n = .invalid
  large : ∀ n, need ≤ n → ∃ pad, sys.affinity n = .mask (cpus ++ List.replicate pad false)
  memory : ∀ n, n < 2 * need → sys.malloc n = true
  bound : need < 2 ^ 62

theorem getaffinity_held (sys : Sys) (size : Nat) : (getaffinity sys size).2.2 = 0 := by
  unfold getaffinity
  by_cases h1 : setSize < size <;> cases h2 : sys.malloc size <;> cases h3 : sys.affinity size <;> simp [h1, h2, h3]

theorem cpuCount_pad (cpus : List Bool) (pad : Nat) : cpuCount (cpus ++ List.replicate pad false) = cpuCount cpus := by
  unfold cpuCount
  simp [List.countP_append, List.countP_replicate]

theorem getaffinity_small {sys : Sys} {size : Nat} (ha : sys.affinity size = .invalid) (hm : sys.malloc size = true) :
    getaffinity sys size = (-1, true, 0) := by
  unfold getaffinity
  by_cases h1 : setSize < size <;> simp [h1, ha, hm]

theorem getaffinity_mask {sys : Sys} {size : Nat} {cpus : List Bool} (ha : sys.affinity size = .mask cpus) (hm : sys.malloc size = true ∨ size ≤ setSize) :
    (getaffinity sys size).1 = cpuCount cpus := by
  unfold getaffinity
  by_cases h1 : setSize < size
  · have hm : sys.malloc size = true := hm.resolve_right (by omega)
    simp [h1, ha, hm]
  · simp [h1, ha]

theorem loop_usual {sys : Sys} {need : Nat} {cpus : List Bool} (h : UsualCpus sys need cpus) : ∀ (fuel size : Nat), size < 2 * need ∨ size = setSize → 0 < size →
    need ≤ size * 2 ^ fuel → loop sys (fuel + 1) size = some (cpuCount cpus : Int)
  | fuel, size, hs, h0, hf => by
    unfold loop
    dsimp only
    by_cases hn : need ≤ size
    · obtain ⟨pad, ha⟩ := h.large size hn
      have e := getaffinity_mask ha (hs.imp (h.memory size) fun h => Nat.le_of_eq h)
      rw [e, cpuCount_pad]
      have : ¬((cpuCount cpus : Int) < 0) := by omega
      simp [this]
    · have e := getaffinity_small (h.small size (by omega)) (h.memory size (by omega))
      rw [e]
      have hb := h.bound
      have hmod : size * 2 % 2 ^ 64 = size * 2 := Nat.mod_eq_of_lt (by omega)
      rw [hmod]
      cases fuel with
      | zero => simp at hf; omega
      | succ fuel =>
        rw [if_pos (by decide)]
        refine loop_usual h fuel (size * 2) (Or.inl (by omega)) (by omega) ?_
        rw [Nat.pow_succ] at hf
        rw [Nat.mul_assoc, Nat.mul_comm 2]
        exact hf

/-- On every usual system, the number of processors that bfs may run on is found, however large the kernel's masks are. -/
theorem C102_nproc (sys : Sys) (need : Nat) (cpus : List Bool) (h : UsualCpus sys need cpus) (h1 : true ∈ cpus) (fuel : Nat) (hf : 56 ≤ fuel) :
    nproc sys fuel = some (cpuCount cpus : Int) := by
  obtain ⟨f, rfl⟩ : ∃ f, fuel = f + 1 := ⟨fuel - 1, by omega⟩
  unfold nproc
  rw [loop_usual h f setSize (Or.inr rfl) (by decide) ?_]
  · have : 0 < cpuCount cpus := List.countP_pos_iff.2 ⟨true, h1, rfl⟩
    dsimp only [Option.map]
    rw [if_neg (by omega), if_neg (by omega)]
  · have hb := h.bound
    have : 2 ^ 55 ≤ 2 ^ f := Nat.pow_le_pow_right (by decide) (by omega)
    have : setSize * 2 ^ 55 ≤ setSize * 2 ^ f := Nat.mul_le_mul_left _ this
    have e : setSize * 2 ^ 55 = 2 ^ 62 := by decide
    omega

/-- It ends on every system on which no 2^62 bytes can be allocated, whatever `sched_getaffinity()` says, and the result is at least 1. -/
theorem C102_ends (sys : Sys) (hm : sys.malloc (2 ^ 62) = false) (fuel : Nat) (hf : 56 ≤ fuel) : ∃ n, nproc sys fuel = some n ∧ 1 ≤ n := by
  have key : ∀ (k fuel size : Nat), size * 2 ^ k = 2 ^ 62 → k < fuel → 0 < k → ∃ n, loop sys fuel size = some n := by
    intro k
    induction k with
    | zero => intro _ _ _ _ h; omega
    | succ k ih =>
      intro fuel size hs hk _
      obtain ⟨fuel, rfl⟩ : ∃ f, fuel = f + 1 := ⟨fuel - 1, by omega⟩
      unfold loop
      dsimp only
      by_cases hc : (decide ((getaffinity sys size).1 < 0) && (getaffinity sys size).2.1) = true
      · rw [if_pos hc]
        have hs2 : size * 2 * 2 ^ k = 2 ^ 62 := by
          rw [← hs, Nat.pow_succ, Nat.mul_assoc, Nat.mul_comm 2]
        have hle : size * 2 ≤ 2 ^ 62 := by
          rw [← hs2]; exact Nat.le_mul_of_pos_right _ (Nat.pow_pos (by decide))
        rw [Nat.mod_eq_of_lt (by omega)]
        cases k with
        | zero =>
          have : size * 2 = 2 ^ 62 := by simpa using hs2
          rw [this]
          obtain ⟨fuel, rfl⟩ : ∃ f, fuel = f + 1 := ⟨fuel - 1, by omega⟩
          refine ⟨-1, ?_⟩
          have e : getaffinity sys (2 ^ 62) = (-1, false, 0) := by
            unfold getaffinity
            rw [hm]
            dsimp only
            rw [if_pos (by decide)]
          unfold loop
          rw [e]
          rfl
        | succ k => exact ih fuel (size * 2) hs2 (by omega) (by omega)
      · rw [if_neg hc]; exact ⟨_, rfl⟩
  obtain ⟨n, hn⟩ := key 55 fuel setSize (by decide) (by omega) (by decide)
  unfold nproc
  rw [hn]
  dsimp only [Option.map]
  generalize (if n < 1 then sys.online else n) = m
  by_cases h : m < 1
  · exact ⟨1, by rw [if_pos h], by decide⟩
  · exact ⟨m, by rw [if_neg h], by omega⟩

/-- If it is not possible to find out, because the call is not allowed, or because there is no memory for a mask that is large enough, then the processors that are online count, and there is at least one. -/
theorem C102_fallback (sys : Sys) (k : Nat) (hk : k < 55) (hi : ∀ j < k, sys.affinity (setSize * 2 ^ j) = .invalid ∧ sys.malloc (setSize * 2 ^ j) = true)
    (hd : sys.affinity (setSize * 2 ^ k) = .denied ∨ 0 < k ∧ sys.malloc (setSize * 2 ^ k) = false) (fuel : Nat) (hf : 56 ≤ fuel) :
    nproc sys fuel = some (max sys.online 1) := by
  have last : ∀ size, sys.affinity size = .denied ∨ setSize < size ∧ sys.malloc size = false → (getaffinity sys size).1 = -1 ∧ (getaffinity sys size).2.1 = false := by
    intro size h
    unfold getaffinity
    by_cases h1 : setSize < size
    · cases h2 : sys.malloc size with
      | false => simp [h1]
      | true =>
        have h : sys.affinity size = .denied := h.resolve_right (by rw [h2]; simp)
        simp [h1, h]
    · have h : sys.affinity size = .denied := h.resolve_right (by omega)
      simp [h1, h]
  have key : ∀ (n j fuel : Nat), j + n = k → n < fuel → loop sys fuel (setSize * 2 ^ j) = some (-1) := by
    intro n
    induction n with
    | zero =>
      intro j fuel hj hn
      obtain ⟨fuel, rfl⟩ : ∃ f, fuel = f + 1 := ⟨fuel - 1, by omega⟩
      obtain rfl : j = k := by omega
      have h := last (setSize * 2 ^ j) (hd.imp id fun h => ⟨by
        have : 2 ^ 1 ≤ 2 ^ j := Nat.pow_le_pow_right (by decide) h.1
        unfold setSize
        omega, h.2⟩)
      unfold loop
      dsimp only
      rw [h.1, h.2]
      rfl
    | succ n ih =>
      intro j fuel hj hn
      obtain ⟨fuel, rfl⟩ : ∃ f, fuel = f + 1 := ⟨fuel - 1, by omega⟩
      have h := hi j (by omega)
      unfold loop
      dsimp only
      rw [getaffinity_small h.1 h.2, if_pos (by decide)]
      have hlt : setSize * 2 ^ (j + 1) < 2 ^ 64 := by
        have h1 : 2 ^ (j + 1) ≤ 2 ^ 55 := Nat.pow_le_pow_right (by decide) (by omega)
        have h2 : setSize * 2 ^ (j + 1) ≤ setSize * 2 ^ 55 := Nat.mul_le_mul_left _ h1
        have e : setSize * 2 ^ 55 = 2 ^ 62 := by decide
        omega
      rw [Nat.mul_assoc, ← Nat.pow_succ, Nat.mod_eq_of_lt hlt]
      exact ih (j + 1) fuel (by omega) (by omega)
  have e := key k 0 fuel (by omega) (by omega)
  rw [show setSize * 2 ^ 0 = setSize from rfl] at e
  unfold nproc
  rw [e]
  dsimp only [Option.map]
  rw [show (if (-1 : Int) < 1 then sys.online else -1) = sys.online from rfl]
  congr 1
  split <;> omega

/-- No memory is lost. -/
theorem C102_held (sys : Sys) (size : Nat) : (getaffinity sys size).2.2 = 0 := getaffinity_held sys size

/-- The default is the number of processors, but at most 8; so there are between 0 and 7 I/O threads. -/
theorem C102_default (sys : Sys) (need : Nat) (cpus : List Bool) (h : UsualCpus sys need cpus) (h1 : true ∈ cpus) (fuel : Nat) (hf : 56 ≤ fuel) :
    defaultThreads sys fuel = some (min (cpuCount cpus : Int) 8) := by
  unfold defaultThreads
  rw [C102_nproc sys need cpus h h1 fuel hf]
  dsimp only [Option.map]
  congr 1
  split <;> omega

/-- Whatever the system says, there is a main thread, and there are at most 7 others. -/
theorem C102_bounds (sys : Sys) (hm : sys.malloc (2 ^ 62) = false) (fuel : Nat) (hf : 56 ≤ fuel) :
    ∃ n, defaultThreads sys fuel = some n ∧ 0 ≤ ioThreads n ∧ ioThreads n ≤ 7 := by
  obtain ⟨m, hn, h1⟩ := C102_ends sys hm fuel hf
  unfold defaultThreads ioThreads
  rw [hn]
  dsimp only [Option.map]
  refine ⟨_, rfl, ?_⟩
  split <;> omega

/-- A system with 3 of 4 processors, whose kernel has masks of 1000 bytes. -/
def sys102 : Sys where
  malloc n := decide (n < 2 ^ 40)
  affinity n := if n < 1000 then .invalid else .mask ([true, false, true, true] ++ List.replicate (8 * n - 4) false)
  online := 4

theorem usual102 : UsualCpus sys102 1000 [true, false, true, true] where
  small n h := if_pos h
  large n h := ⟨8 * n - 4, if_neg (by omega)⟩
  memory n h := decide_eq_true (by omega)
  bound := by decide

example : defaultThreads sys102 56 = some 3 := C102_default sys102 1000 _ usual102 (by decide) 56 (by decide)

/-- A system on which the call is forbidden. -/
example : ∃ n, defaultThreads { sys102 with affinity := fun _ => .invalid, online := -1 } 56 = some n ∧ 0 ≤ ioThreads n ∧ ioThreads n ≤ 7 :=
  C102_bounds _ rfl 56 (by decide)

/-- The hypotheses of `C102_fallback`: the second mask can't be allocated. -/
example : nproc { sys102 with malloc := fun n => decide (n ≤ 128) } 56 = some 4 :=
  C102_fallback _ 1 (by decide) (fun j h => by obtain rfl : j = 0 := by omega
                                               exact ⟨rfl, rfl⟩) (Or.inr ⟨by decide, rfl⟩) 56 (by decide)

end Verif.Props
