import Verif.Spec.Limits
/-!
# Resource limits (C50)
-/
namespace Verif.Props
open Verif Verif.Limits Verif.Spec.Limits

theorem isinf_iff (p : Plat) (r : Nat) : rlimIsinf p r = true ↔ Unlimited p r := by
  unfold rlimIsinf Unlimited
  by_cases h1 : r = p.infinity
  · simp [h1]
  · by_cases h2 : r = p.savedCur
    · simp [h2]
    · by_cases h3 : r = p.savedMax
      · simp [h3]
      · simp [h1, h2, h3]

theorem isinf_false (p : Plat) (r : Nat) : rlimIsinf p r = false ↔ ¬ Unlimited p r := by
  rw [← isinf_iff]; simp

/-- The comparison says that one limit is at most another exactly if it is. -/
theorem C50_compare (p : Plat) (a b : Nat) : rlimCmp p a b ≤ 0 ↔ AtMost p a b := by
  unfold rlimCmp AtMost
  dsimp only
  cases ha : rlimIsinf p a <;> cases hb : rlimIsinf p b <;>
    simp only [← isinf_iff, ha, hb, Bool.or_true, Bool.or_false, if_true, Bool.toNat_true, Bool.toNat_false]
  · by_cases h1 : a > b
    · have : ¬ a < b := by omega
      simp [h1, this]
    · by_cases h2 : a < b
      · simp [h1, h2]; omega
      · simp [h1, h2]; omega
  all_goals simp

/-- Swapping the limits swaps the sign, so comparing in either order gives the same answer. -/
theorem C50_antisymmetric (p : Plat) (a b : Nat) : rlimCmp p a b = -rlimCmp p b a := by
  unfold rlimCmp
  dsimp only
  cases rlimIsinf p a <;> cases rlimIsinf p b <;> simp only [Bool.or_true, Bool.or_false, if_true, Bool.toNat_true, Bool.toNat_false] <;> first | rfl | skip
  by_cases h1 : a > b
  · have : ¬ a < b := by omega
    simp [h1, this]
  · by_cases h2 : a < b
    · simp [h1, h2]
    · simp [h1, h2]

theorem C50_total (p : Plat) (a b : Nat) : AtMost p a b ∨ AtMost p b a := by
  rw [← C50_compare, ← C50_compare, C50_antisymmetric p b a]
  omega

theorem C50_transitive (p : Plat) (a b c : Nat) (h1 : AtMost p a b) (h2 : AtMost p b c) : AtMost p a c := by
  rcases h2 with h2 | ⟨h2, h3⟩
  · exact .inl h2
  · rcases h1 with h1 | ⟨h1, h4⟩
    · exact absurd h1 h2
    · exact .inr ⟨h1, Nat.le_trans h4 h3⟩

/-- No limit is above infinity, and two limits compare as equal exactly if they are both infinite or the same number. -/
theorem C50_equal (p : Plat) (a b : Nat) : rlimCmp p a b = 0 ↔ (Unlimited p a ∧ Unlimited p b) ∨ (¬ Unlimited p a ∧ ¬ Unlimited p b ∧ a = b) := by
  have h1 := C50_compare p a b
  have h2 := C50_compare p b a
  have h3 := C50_antisymmetric p a b
  have h0 : rlimCmp p a b = 0 ↔ AtMost p a b ∧ AtMost p b a := by
    rw [← h1, ← h2]; omega
  rw [h0]
  unfold AtMost
  constructor
  · rintro ⟨h | ⟨h, h'⟩, k | ⟨k, k'⟩⟩
    · exact .inl ⟨k, h⟩
    · exact absurd h k
    · exact absurd k h
    · exact .inr ⟨h, k, by omega⟩
  · rintro (⟨h, k⟩ | ⟨h, k, rfl⟩)
    · exact ⟨.inl k, .inl h⟩
    · exact ⟨.inr ⟨h, Nat.le_refl _⟩, .inr ⟨h, Nat.le_refl _⟩⟩

theorem target_spec {p : Plat} {hard : Nat} (hb : ¬ Unlimited p 65536) :
    let t := if rlimCmp p 65536 hard > 0 then hard else 65536
    ¬ Unlimited p t ∧ t ≤ 65536 ∧ AtMost p t hard := by
  dsimp only
  have hc := C50_compare p 65536 hard
  split
  · rename_i h
    have : ¬ AtMost p 65536 hard := by rw [← hc]; omega
    unfold AtMost at this
    have hu : ¬ Unlimited p hard := fun hu => this (.inl hu)
    have hlt : ¬ 65536 ≤ hard := fun hl => this (.inr ⟨hb, hl⟩)
    exact ⟨hu, by omega, .inr ⟨hu, Nat.le_refl _⟩⟩
  · rename_i h
    exact ⟨hb, Nat.le_refl _, hc.1 (by omega)⟩

/-- Raising the limit never lowers the soft limit of the process, never changes its hard limit, and never asks for more than the hard limit. -/
theorem C50_raise (p : Plat) (sys : Rlimit → Option Rlimit) (hk : Kernel sys) (ctx : Ctx) (hs : Sane p ctx.orig) (hc : ctx.cur = ctx.orig) :
    let r := raiseFdlimit p sys ctx ctx.orig
    AtMost p ctx.orig.cur r.2.2.cur ∧ AtMost p r.2.2.cur ctx.orig.max ∧ r.2.2.max = ctx.orig.max ∧ r.2.1.cur = r.2.2 ∧ r.2.1.orig = ctx.orig ∧
      (ctx.raise = false → r.2.2 = ctx.orig) := by
  have hrefl : AtMost p ctx.orig.cur ctx.orig.cur := by
    by_cases h : Unlimited p ctx.orig.cur
    · exact .inl h
    · exact .inr ⟨h, Nat.le_refl _⟩
  dsimp only
  unfold raiseFdlimit
  dsimp only
  generalize htar : (if rlimCmp p 65536 (if ctx.raise then ctx.orig.max else ctx.orig.cur) > 0 then (if ctx.raise then ctx.orig.max else ctx.orig.cur) else 65536) = target
  obtain ⟨t1, t2, t3⟩ := target_spec (p := p) (hard := if ctx.raise then ctx.orig.max else ctx.orig.cur) hs.big
  rw [htar] at t1 t2 t3
  split
  · exact ⟨hrefl, hs.ordered, rfl, hc, rfl, fun _ => rfl⟩
  · rename_i hle
    have hlt : ¬ AtMost p target ctx.orig.cur := by rw [← C50_compare]; exact hle
    have hraise : ctx.raise = true := by
      cases hr : ctx.raise with
      | true => rfl
      | false => rw [hr] at t3; exact absurd t3 hlt
    rw [hraise] at t3
    cases hsys : sys ⟨target, if ctx.raise then ctx.orig.max else ctx.orig.cur⟩ with
    | none => exact ⟨hrefl, hs.ordered, rfl, hc, rfl, fun _ => rfl⟩
    | some new =>
      have hnew := hk.sets _ _ hsys
      rw [hraise] at hnew
      refine ⟨?_, ?_, ?_, ?_, rfl, ?_⟩
      · rw [hnew]
        exact (C50_total p target ctx.orig.cur).resolve_left hlt
      · rw [hnew]; exact t3
      · rw [hnew]; rfl
      · rw [hnew, hraise]
      · intro h; rw [hraise] at h; cases h

/-- The returned number of descriptors fits in an `int`, and is within the soft limit that is now in force. -/
theorem C50_raise_result (p : Plat) (sys : Rlimit → Option Rlimit) (hk : Kernel sys) (ctx : Ctx) (hs : Sane p ctx.orig) :
    let r := raiseFdlimit p sys ctx ctx.orig
    r.1 ≤ 65536 ∧ Within p r.1 r.2.2.cur := by
  dsimp only
  unfold raiseFdlimit
  dsimp only
  generalize htar : (if rlimCmp p 65536 (if ctx.raise then ctx.orig.max else ctx.orig.cur) > 0 then (if ctx.raise then ctx.orig.max else ctx.orig.cur) else 65536) = target
  obtain ⟨t1, t2, t3⟩ := target_spec (p := p) (hard := if ctx.raise then ctx.orig.max else ctx.orig.cur) hs.big
  rw [htar] at t1 t2 t3
  split
  · rename_i hle
    refine ⟨t2, ?_⟩
    rcases (C50_compare p _ _).1 hle with h | ⟨_, h⟩
    · exact .inl h
    · exact .inr h
  · rename_i hle
    have hlt : ¬ AtMost p target ctx.orig.cur := by rw [← C50_compare]; exact hle
    cases hsys : sys ⟨target, if ctx.raise then ctx.orig.max else ctx.orig.cur⟩ with
    | none =>
      refine ⟨?_, .inr (Nat.le_refl _)⟩
      have : ¬ target ≤ ctx.orig.cur := fun hl => hlt (.inr ⟨t1, hl⟩)
      show ctx.orig.cur ≤ 65536
      omega
    | some new =>
      have hnew := hk.sets _ _ hsys
      refine ⟨t2, .inr ?_⟩
      rw [hnew]
      exact Nat.le_refl _

/-- Children always get the limits that bfs was started with. -/
theorem C50_children (p : Plat) (sys : Rlimit → Option Rlimit) (hk : Kernel sys) (rl : Rlimit) (hs : Sane p rl) (raise : Bool) :
    let r := raiseFdlimit p sys { newCtx rl with raise := raise } rl
    childLimits p r.2.1 r.2.2 = rl := by
  dsimp only
  unfold raiseFdlimit
  dsimp only [newCtx]
  generalize (if rlimCmp p 65536 (if raise then rl.max else rl.cur) > 0 then (if raise then rl.max else rl.cur) else 65536) = target
  split
  · unfold childLimits; split <;> rfl
  · rename_i hle
    cases hsys : sys ⟨target, if raise then rl.max else rl.cur⟩ with
    | none => unfold childLimits; dsimp only; split <;> rfl
    | some new =>
      show (if rlimCmp p rl.cur target < 0 then rl else new) = rl
      rw [if_pos]
      rw [C50_antisymmetric]
      omega

/-- The budget for the search is at least two, and unless that is impossible, everything that bfs keeps open fits in the limit. -/
theorem C50_budget (limit nfiles : Int) (entries : Option Nat) (persistent ephemeral : Int) :
    let r := inferFdlimit limit nfiles entries persistent ephemeral
    2 ≤ r ∧ (countOpen nfiles entries + persistent + ephemeral + 2 ≤ limit → countOpen nfiles entries + persistent + ephemeral + r = limit) := by
  dsimp only
  unfold inferFdlimit
  dsimp only
  split
  · constructor <;> omega
  · constructor <;> omega

/-- The descriptor that was used for counting is not counted. -/
theorem C50_count (nfiles : Int) (n : Nat) : countOpen nfiles (some (n + 1)) = n ∧ countOpen nfiles none = nfiles + 3 := by
  unfold countOpen
  constructor <;> dsimp only <;> omega

/-- The budget is split between threads and directories; at least two descriptors remain for directories, and there are never more threads than asked for. -/
theorem C50_split (uring : Bool) (nopenfd nthreads : Nat) (h : 2 ≤ nopenfd) :
    ∃ dirs threads, splitFds uring nopenfd nthreads = some (dirs, threads) ∧ 2 ≤ dirs ∧ threads ≤ nthreads ∧
      (uring = true → dirs + threads = nopenfd) ∧ (uring = false → dirs = nopenfd ∧ threads = nthreads) ∧ (nthreads + 2 ≤ nopenfd → threads = nthreads) := by
  unfold splitFds
  rw [if_neg (by omega)]
  cases uring with
  | false => exact ⟨nopenfd, nthreads, rfl, h, Nat.le_refl _, by simp, by simp, by simp⟩
  | true =>
    refine ⟨_, _, rfl, ?_, ?_, ?_, by simp, ?_⟩
    all_goals split <;> omega

/-! ## Cases -/

/-- Linux: all special values are the same. -/
def linux : Plat := ⟨2 ^ 64 - 1, 2 ^ 64 - 1, 2 ^ 64 - 1⟩

example : Sane linux ⟨1024, 2 ^ 64 - 1⟩ := ⟨by simp [Unlimited, linux], .inl (.inl rfl)⟩
example : Kernel some := ⟨fun _ _ h => (Option.some.inj h).symm⟩
example : raiseFdlimit linux some (newCtx ⟨1024, 4096⟩) ⟨1024, 4096⟩ = (4096, ⟨⟨1024, 4096⟩, ⟨4096, 4096⟩, true⟩, ⟨4096, 4096⟩) := by rfl
example : (raiseFdlimit linux some (newCtx ⟨1024, 2 ^ 64 - 1⟩) ⟨1024, 2 ^ 64 - 1⟩).2.2.cur = 65536 := by decide +kernel
example : (raiseFdlimit linux some (newCtx ⟨2 ^ 64 - 1, 2 ^ 64 - 1⟩) ⟨2 ^ 64 - 1, 2 ^ 64 - 1⟩).1 = 65536 := by decide +kernel
example : inferFdlimit 65536 0 (some 5) 1 2 = 65529 := by decide +kernel
example : splitFds true 3 8 = some (2, 1) := by decide +kernel

end Verif.Props
