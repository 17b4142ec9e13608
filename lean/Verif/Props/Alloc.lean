import Verif.Lemmas.Varena
/-!
# C44: objects in arenas never overlap

For every history of operations of a program that frees only its own objects and writes only into them, and for every behaviour of an honest system allocator.
-/
namespace Verif.Props
open Verif Verif.Alloc Verif.Spec.Alloc

/-! ## Objects of one size -/

/-- The states that a program with an arena can reach. -/
inductive ArenaReach (align size : Nat) : AProg → Prop
  | init (a : Arena) (mem : Mem) : size < 2 ^ 64 → arenaInit align size = .ok a → ArenaReach align size ⟨a, mem, fun _ => false⟩
  | step (g g' : AProg) (op : AOp) (z : Nat → Option Nat) (r : Bool) (p : Nat) : ArenaReach align size g → AAllowed size g op → Honest g.a.align g.a.slabs z → aexec g z r op = .ok (p, g') → ArenaReach align size g'

theorem arena_inv {align size : Nat} {g : AProg} (h : ArenaReach align size g) :
    g.a.align = max align 8 ∧ g.a.size = max size 8 ∧ g.a.size < M ∧ ∃ free, Inv g.mem g.a (fun p => g.live p = true) free := by
  induction h with
  | init a mem hs ha =>
    obtain ⟨h1, h2, h3, _⟩ := inv_init ha mem
    refine ⟨h2, h3, ?_, [], h1.live (fun c => by simp)⟩
    rw [h3]
    exact Nat.max_lt.2 ⟨hs, by decide⟩
  | step g g' op z r p hg hal hz he ih =>
    obtain ⟨i1, i2, i3, free, inv⟩ := ih
    cases op with
    | alloc =>
      obtain ⟨q, a', mem', h1, h2⟩ := alloc_ok (r := r) inv i3 (fun r hr => hr) hz
      rw [aexec, h1, ok_bind] at he
      cases he
      rcases h2 with ⟨rfl, rfl, rfl, _⟩ | ⟨hd, _⟩
      · exact ⟨i1, i2, i3, free, inv⟩
      · obtain ⟨f', inv'⟩ := hd.inv
        refine ⟨hd.align.trans i1, hd.size.trans i2, by rw [hd.size]; exact i3, f', inv'.live ?_⟩
        intro c
        dsimp only
        rw [if_neg hd.fresh]
        unfold setLive
        by_cases hc : c = q
        · simp [hc]
        · simp [hc]
    | free q =>
      cases he
      refine ⟨i1, i2, i3, q :: free, (inv_free inv hal).live ?_⟩
      intro c
      dsimp only
      unfold setLive
      by_cases hc : c = q
      · simp [hc]
      · simp [hc]
    | write mem =>
      cases he
      refine ⟨i1, i2, i3, free, inv.frame ?_⟩
      intro c hc
      apply hal
      intro q hq hx
      have hne : c ≠ q := by
        rintro rfl
        exact inv.excl c hc hq
      have h8 := inv.size8
      have hsz : size ≤ g.a.size := by rw [i2]; exact Nat.le_max_left ..
      rcases isChunk_apart inv ((inv.part c).2 (.inl hc)) ((inv.part q).2 (.inr hq)) hne with h5 | h5 <;> omega
    | clear =>
      cases he
      exact ⟨i1, i2, i3, [], (inv_clear inv g.mem).live (fun c => by simp)⟩

/-- The objects that a program has are not null, aligned, inside the memory that the arena got from the system, and do not overlap. -/
theorem C44_arena_separate {align size : Nat} {g : AProg} (h : ArenaReach align size g) (ha : ∃ k, align = 2 ^ k) {p : Nat} (hp : g.live p = true) :
    (p ≠ 0 ∧ align ∣ p ∧ ∃ r ∈ g.a.slabs, r.1 ≤ p ∧ p + size ≤ r.1 + r.2) ∧ ∀ q, g.live q = true → p ≠ q → Apart p size q size := by
  obtain ⟨i1, i2, i3, free, inv⟩ := arena_inv h
  have hsz : size ≤ g.a.size := by rw [i2]; exact Nat.le_max_left ..
  obtain ⟨h1, _, h3, r, hr, hr1, hr2⟩ := isChunk_bounds inv ((inv.part p).2 (.inr hp))
  refine ⟨⟨h1, ?_, r, hr, hr1, by omega⟩, ?_⟩
  · refine Nat.dvd_trans ?_ h3
    rw [i1]
    obtain ⟨k, rfl⟩ := ha
    rcases Nat.le_total (2 ^ k) 8 with h8 | h8
    · rw [Nat.max_eq_right h8]
      have : k ≤ 3 := (Nat.pow_le_pow_iff_right (show 1 < 2 by omega)).1 (show 2 ^ k ≤ 2 ^ 3 from h8)
      exact Nat.pow_dvd_pow 2 this
    · rw [Nat.max_eq_left h8]
      exact Nat.dvd_refl _
  · intro q hq hne
    rcases isChunk_apart inv ((inv.part p).2 (.inr hp)) ((inv.part q).2 (.inr hq)) hne with h5 | h5
    · left; omega
    · right; omega

/-- Allocating gives an object that the program did not have, and does not touch the others. It fails only if all slots of all slabs are in use, and there is no memory for another slab. -/
theorem C44_arena_alloc {align size : Nat} {g : AProg} (h : ArenaReach align size g) {z : Nat → Option Nat} {r : Bool} (hz : Honest g.a.align g.a.slabs z) :
    ∃ p g', aexec g z r .alloc = .ok (p, g') ∧ (∀ q, g.live q = true → Same size g.mem q g'.mem q) ∧
      ((p = 0 ∧ g' = g ∧ (∀ s ∈ g.a.slabs, ∀ i, i * g.a.size + g.a.size ≤ s.2 → g.live (s.1 + i * g.a.size) = true) ∧ ∃ n, slabSize g.a = .ok n ∧ (n > ALLOC_MAX ∨ z n = none ∨ r = false)) ∨
       (p ≠ 0 ∧ g.live p = false ∧ g'.live = setLive g.live p true)) := by
  obtain ⟨i1, i2, i3, free, inv⟩ := arena_inv h
  obtain ⟨p, a', mem', h1, h2⟩ := alloc_ok (r := r) inv i3 (fun r hr => hr) hz
  refine ⟨p, ⟨a', mem', if p = 0 then g.live else setLive g.live p true⟩, ?_, ?_, ?_⟩
  · rw [aexec, h1, ok_bind]
  · intro q hq k hk
    have hsz : size ≤ g.a.size := by rw [i2]; exact Nat.le_max_left ..
    rcases h2 with ⟨_, _, hm, _⟩ | ⟨hd, _⟩
    · dsimp only; rw [hm]
    · obtain ⟨new, _, hap, hm⟩ := hd.slabs
      apply hm
      intro s hs hx
      obtain ⟨_, _, _, r', hr', hr1, hr2⟩ := isChunk_bounds inv ((inv.part q).2 (.inr hq))
      rcases hap s hs r' hr' with h5 | h5 <;> omega
  · rcases h2 with ⟨rfl, rfl, rfl, rfl, hn⟩ | ⟨hd, _⟩
    · left
      refine ⟨rfl, rfl, ?_, hn⟩
      intro s hs i hi
      rcases (inv.part (s.1 + i * g.a.size)).1 ⟨s, hs, i, hi, rfl⟩ with hc | hc
      · cases hc
      · exact hc
    · right
      refine ⟨hd.fresh, ?_, if_neg hd.fresh⟩
      have := hd.dead
      simpa using this

/-- Freeing an object does not touch the others, and the next allocation gets it back, without asking the system. -/
theorem C44_arena_free {align size : Nat} {g : AProg} (h : ArenaReach align size g) {p : Nat} (hp : g.live p = true) (z : Nat → Option Nat) (r : Bool) :
    ∃ g', aexec g z r (.free p) = .ok (0, g') ∧ g'.live = setLive g.live p false ∧ (∀ q, g.live q = true → q ≠ p → Same size g.mem q g'.mem q) ∧
      ∀ z' r', ∃ g'', aexec g' z' r' .alloc = .ok (p, g'') ∧ g''.mem = g'.mem := by
  obtain ⟨i1, i2, i3, free, inv⟩ := arena_inv h
  have hsz : size ≤ g.a.size := by rw [i2]; exact Nat.le_max_left ..
  have h0 := (isChunk_bounds inv ((inv.part p).2 (.inr hp))).1
  refine ⟨_, rfl, rfl, ?_, ?_⟩
  · intro q hq hne k hk
    refine if_neg ?_
    have := inv.size8
    rcases isChunk_apart inv ((inv.part q).2 (.inr hq)) ((inv.part p).2 (.inr hp)) hne with h5 | h5 <;> omega
  · intro z' r'
    refine ⟨⟨(takeChunk (arenaFree g.a g.mem p).1 (arenaFree g.a g.mem p).2).2.1, (arenaFree g.a g.mem p).2, if p = 0 then setLive g.live p false else setLive (setLive g.live p false) p true⟩, ?_, rfl⟩
    rw [aexec]
    dsimp only
    rw [arenaAlloc, if_neg (show ¬ (arenaFree g.a g.mem p).1.chunks = 0 from h0), ok_bind]
    rfl

/-- The alignment and size of objects must fit together: the object's size is a multiple of the alignment, and also of 8 if it is more than that. -/
theorem C44_arena_init {k size : Nat} (hk : k < 64) (h0 : 0 < size) (hs : 2 ^ k ∣ size) (h8 : size ≤ 8 ∨ 8 ∣ size) : ∃ a, arenaInit (2 ^ k) size = .ok a := by
  have hb : Bit.hasSingleBit 64 (2 ^ k) = true := (C52_single 64 (2 ^ k) (Nat.pow_lt_pow_right (by omega) hk)).2 ⟨k, rfl⟩
  have hm : max size 8 % max (2 ^ k) 8 = 0 := by
    apply Nat.mod_eq_zero_of_dvd
    rcases Nat.le_total (2 ^ k) 8 with h | h
    · rw [Nat.max_eq_right h]
      rcases h8 with h8 | h8
      · rw [Nat.max_eq_right h8]; exact Nat.dvd_refl _
      · rcases Nat.le_total size 8 with hx | hx
        · rw [Nat.max_eq_right hx]; exact Nat.dvd_refl _
        · rw [Nat.max_eq_left hx]; exact h8
    · rw [Nat.max_eq_left h]
      rcases Nat.le_total size 8 with hx | hx
      · rw [Nat.max_eq_right hx]
        have h3 : k ≥ 3 := (Nat.pow_le_pow_iff_right (show 1 < 2 by omega)).1 (show 2 ^ 3 ≤ 2 ^ k from h)
        rcases Nat.lt_or_ge k 4 with h4 | h4
        · have : k = 3 := by omega
          subst this
          exact Nat.dvd_refl _
        · have h16 := Nat.pow_le_pow_right (show 0 < 2 by omega) h4
          have hsz0 : size = 0 := Nat.eq_zero_of_dvd_of_lt hs (by omega)
          omega
      · rw [Nat.max_eq_left hx]; exact hs
  exact ⟨_, by rw [arenaInit, if_pos ⟨hb, Nat.mod_eq_zero_of_dvd hs⟩, if_pos hm]⟩

example : arenaInit 4 12 = .ub ∧ arenaInit 4 4 = .ok { chunks := 0, slabs := [], align := 8, size := 8 } ∧ arenaInit 64 128 = .ok { chunks := 0, slabs := [], align := 64, size := 128 } := by decide

/-- A program that has two objects of 24 bytes: the system allocator is honest. -/
example : ∃ g, ArenaReach 8 24 g ∧ g.live 4096 = true ∧ g.live 4120 = true := by
  have h0 : ArenaReach 8 24 ⟨⟨0, [], 8, 24⟩, fun _ => 7, fun _ => false⟩ := .init _ _ (by decide) (by decide)
  have hz : Honest 8 [] (fun n => if n ≤ 65536 then some 4096 else none) := by
    intro n a hn
    dsimp only at hn
    split at hn
    · cases hn
      exact ⟨by decide, ⟨512, rfl⟩, by omega, by simp⟩
    · cases hn
  have h1 := ArenaReach.step _ _ .alloc (fun n => if n ≤ 65536 then some 4096 else none) true 4096 h0 trivial hz rfl
  have h2 := ArenaReach.step _ _ .alloc (fun _ => none) true 4120 h1 trivial (by intro n a hn; cases hn) rfl
  exact ⟨_, h2, by decide, by decide⟩

/-! ## Structs with flexible arrays -/

/-- The states that a program with such arenas can reach. -/
inductive VarenaReach (align offset size : Nat) : Prog → Prop
  | init (v : Varena) (mem : Mem) : Shape align offset size → varenaInit align offset size = .ok v → VarenaReach align offset size ⟨⟨v, mem⟩, fun _ => none⟩
  | step (g g' : Prog) (op : Op) (s : Sys) (p : Nat) : VarenaReach align offset size g → Allowed g op → Honest g.st.v.align (used g.st.v) s.slab → exec g s op = .ok (p, g') → VarenaReach align offset size g'

theorem varena_inv {align offset size : Nat} {g : Prog} (h : VarenaReach align offset size g) : VInv g.st.v g.st.mem g.live ∧ g.st.v.align = align ∧ g.st.v.offset = offset ∧ g.st.v.size = size := by
  induction h with
  | init v mem hs hv =>
    obtain ⟨v', hv', h2, _, h4, h5, h6⟩ := vinit_ok hs mem
    rw [hv] at hv'
    cases hv'
    exact ⟨h2, h4, h5, h6⟩
  | step g g' op s p hg hal hz he ih =>
    obtain ⟨inv, hsh⟩ := ih
    have hv : ∀ {v' : Varena}, (∃ as, v' = { g.st.v with arenas := as }) → v'.align = align ∧ v'.offset = offset ∧ v'.size = size := by
      rintro v' ⟨as, rfl⟩
      exact hsh
    cases op with
    | alloc count =>
      obtain ⟨q, st, h1, h2, _, h4⟩ := alloc_done inv hz hal
      rw [exec, h1, ok_bind] at he
      cases he
      rcases h4 with ⟨rfl, h5, _⟩ | ⟨h5, _, h6⟩
      · exact ⟨h5, hv h2⟩
      · refine ⟨?_, hv h2⟩
        dsimp only
        rw [if_neg h5]
        exact h6
    | realloc q count =>
      obtain ⟨hl, hc⟩ := hal
      obtain ⟨old, hold⟩ := Option.ne_none_iff_exists'.1 hl
      obtain ⟨q', st, h1, h2⟩ := realloc_ok inv hz hold hc
      rw [exec, hold, Option.getD_some, h1, ok_bind] at he
      cases he
      rcases h2 with ⟨rfl, hm, h3, h4, _⟩ | ⟨h4, h5, _, h3, _⟩
      · refine ⟨?_, hv h4⟩
        dsimp only
        rw [hm]
        exact h3
      · refine ⟨?_, hv h4⟩
        dsimp only
        rw [moved, if_neg h5]
        exact h3
    | grow q =>
      obtain ⟨old, hold, hlt⟩ := hal
      obtain ⟨i, hi, hi63, hile⟩ := sizeClass_ok inv.shift (count := old + 1) (by omega)
      obtain ⟨q', st, h1, h2⟩ := realloc_ok inv hz hold (new := 2 ^ (i + g.st.v.shift)) (Nat.pow_le_pow_right (by omega) (by omega))
      rw [exec, hold, Option.getD_some, varenaGrow, hi, ok_bind, oneShl, if_pos (by omega), ok_bind, Nat.one_shiftLeft, h1, ok_bind, ok_bind] at he
      cases he
      rcases h2 with ⟨rfl, hm, h3, h4, _⟩ | ⟨h4, h5, _, h3, _⟩
      · refine ⟨?_, hv h4⟩
        dsimp only
        rw [hm]
        exact h3
      · refine ⟨?_, hv h4⟩
        dsimp only
        rw [moved, if_neg h5, if_pos h5]
        exact h3
    | free q =>
      obtain ⟨old, hold⟩ := Option.ne_none_iff_exists'.1 hal
      obtain ⟨st, i, h1, h2, h3, _⟩ := free_done inv s hold
      rw [exec, hold, Option.getD_some, h1, ok_bind] at he
      cases he
      exact ⟨h3, hv h2⟩
    | write mem =>
      cases he
      refine ⟨inv.frame ?_, hsh⟩
      intro x hx
      apply hal
      intro q c hq hx2
      obtain ⟨i, a, h1, h2, _, h4, _⟩ := inv.object hq
      exact hx q i a ⟨c, hq, h1⟩ h2 ⟨hx2.1, by omega⟩
    | clear =>
      cases he
      exact ⟨vinv_clear inv, hsh⟩

/-- The objects that a program has are not null, aligned, inside the memory that the arenas got from the system, with enough room for their arrays, and do not overlap. -/
theorem C44_separate {align offset size : Nat} {g : Prog} (h : VarenaReach align offset size g) {p c : Nat} (hp : g.live p = some c) :
    (p ≠ 0 ∧ align ∣ p ∧ ∃ r ∈ used g.st.v, r.1 ≤ p ∧ p + (offset + size * c) ≤ r.1 + r.2) ∧
      ∀ q d, g.live q = some d → p ≠ q → Apart p (offset + size * c) q (offset + size * d) := by
  obtain ⟨inv, ha, ho, hs⟩ := varena_inv h
  obtain ⟨i, a, h1, h2, h3, h4, _⟩ := inv.object hp
  obtain ⟨hal, _, _, ia⟩ := inv.arena i a h2
  obtain ⟨b1, _, b3, r, hr, hr1, hr2⟩ := isChunk_bounds ia h3
  unfold bytes at h4
  rw [ho, hs] at h4
  refine ⟨⟨b1, by rwa [hal, ha] at b3, r, mem_used h2 hr, hr1, by omega⟩, ?_⟩
  intro q d hq hne
  obtain ⟨j, b, k1, k2, k3, k4, _⟩ := inv.object hq
  unfold bytes at k4
  rw [ho, hs] at k4
  rcases inv.chunk_apart h2 k2 h3 k3 (.inr hne) with h5 | h5
  · left; omega
  · right; omega

/-- No operation that a program is allowed to do is undefined. -/
theorem C44_defined {align offset size : Nat} {g : Prog} (h : VarenaReach align offset size g) {op : Op} (hop : Allowed g op) {s : Sys} (hs : Honest g.st.v.align (used g.st.v) s.slab) :
    ∃ p g', exec g s op = .ok (p, g') := by
  obtain ⟨inv, _⟩ := varena_inv h
  cases op with
  | alloc count =>
    obtain ⟨q, st, h1, _⟩ := alloc_done inv hs hop
    exact ⟨_, _, by rw [exec, h1, ok_bind]⟩
  | realloc q count =>
    obtain ⟨old, hold⟩ := Option.ne_none_iff_exists'.1 hop.1
    obtain ⟨q', st, h1, _⟩ := realloc_ok inv hs hold hop.2
    exact ⟨_, _, by rw [exec, hold, Option.getD_some, h1, ok_bind]⟩
  | grow q =>
    obtain ⟨old, hold, hlt⟩ := hop
    obtain ⟨i, hi, hi63, hile⟩ := sizeClass_ok inv.shift (count := old + 1) (by omega)
    obtain ⟨q', st, h1, _⟩ := realloc_ok inv hs hold (new := 2 ^ (i + g.st.v.shift)) (Nat.pow_le_pow_right (by omega) (by omega))
    exact ⟨_, _, by rw [exec, hold, Option.getD_some, varenaGrow, hi, ok_bind, oneShl, if_pos (by omega), ok_bind, Nat.one_shiftLeft, h1, ok_bind, ok_bind]⟩
  | free q =>
    obtain ⟨old, hold⟩ := Option.ne_none_iff_exists'.1 hop
    obtain ⟨st, i, h1, _⟩ := free_done inv s hold
    exact ⟨_, _, by rw [exec, hold, Option.getD_some, h1, ok_bind]⟩
  | write mem => exact ⟨_, _, rfl⟩
  | clear => exact ⟨_, _, rfl⟩

/-- Why an allocation may fail. -/
def NoMemory (g g' : Prog) (s : Sys) (count : Nat) : Prop := (∃ j, s.grow j = false) ∨ ∃ i, sizeClass g.st.v count = .ok i ∧ NoSlab g'.st.v s i

/-- Allocating gives an object that the program did not have, and does not touch the others. It fails only if there is no memory. -/
theorem C44_alloc {align offset size : Nat} {g : Prog} (h : VarenaReach align offset size g) {count : Nat} (hc : count ≤ 2 ^ 63) {s : Sys} (hs : Honest g.st.v.align (used g.st.v) s.slab) :
    ∃ p g', exec g s (.alloc count) = .ok (p, g') ∧ (∀ q c, g.live q = some c → Same (offset + size * c) g.st.mem q g'.st.mem q) ∧
      ((p = 0 ∧ g'.live = g.live ∧ NoMemory g g' s count) ∨ (p ≠ 0 ∧ g.live p = none ∧ g'.live = setCount g.live p (some count))) := by
  obtain ⟨inv, _, ho, hsz⟩ := varena_inv h
  obtain ⟨q, st, h1, _, h3, h4⟩ := alloc_done inv hs hc
  refine ⟨_, _, by rw [exec, h1, ok_bind], ?_, ?_⟩
  · intro o c hoc k hk
    exact h3 _ (owned_of_live inv hoc (by unfold bytes; rw [ho, hsz]; exact hk))
  · rcases h4 with ⟨rfl, _, h5⟩ | ⟨h5, h6, _⟩
    · exact .inl ⟨rfl, rfl, h5⟩
    · exact .inr ⟨h5, h6, if_neg h5⟩

/-- Resizing an object keeps as much of it as fits, and does not touch the others. If it fails, nothing changes. -/
theorem C44_realloc {align offset size : Nat} {g : Prog} (h : VarenaReach align offset size g) {p old new : Nat} (hp : g.live p = some old) (hc : new ≤ 2 ^ 63) {s : Sys} (hs : Honest g.st.v.align (used g.st.v) s.slab) :
    ∃ q g', exec g s (.realloc p new) = .ok (q, g') ∧ (∀ o c, g.live o = some c → o ≠ p → Same (offset + size * c) g.st.mem o g'.st.mem o) ∧
      ((q = 0 ∧ g'.live = g.live ∧ g'.st.mem = g.st.mem ∧ NoMemory g g' s new) ∨
       (q ≠ 0 ∧ (q = p ∨ g.live q = none) ∧ (∀ o, g'.live o = if o = q then some new else if o = p then none else g.live o) ∧ Same (offset + size * min old new) g.st.mem p g'.st.mem q)) := by
  obtain ⟨inv, _, ho, hsz⟩ := varena_inv h
  obtain ⟨q, st, h1, h2⟩ := realloc_ok inv hs hp hc
  refine ⟨_, _, by rw [exec, hp, Option.getD_some, h1, ok_bind], ?_, ?_⟩
  · intro o c hoc hop k hk
    rcases h2 with ⟨_, hm, _⟩ | ⟨_, _, _, _, _, h7⟩
    · dsimp only; rw [hm]
    · refine h7 _ ?_
      obtain ⟨i, a, k1, k2, _, k4, _⟩ := inv.object hoc
      exact ⟨o, i, a, ⟨c, (if_neg hop).trans hoc, k1⟩, k2, by omega, by unfold bytes at k4; rw [ho, hsz] at k4; omega⟩
  · rcases h2 with ⟨rfl, hm, _, _, h5⟩ | ⟨_, h5, h6, _, h7, _⟩
    · exact .inl ⟨rfl, rfl, hm, h5⟩
    · refine .inr ⟨h5, h6, ?_, ?_⟩
      · intro o
        dsimp only
        rw [moved, if_neg h5]
        rfl
      · unfold bytes at h7
        rw [ho, hsz] at h7
        exact h7

/-- Growing an object makes its array longer, keeps all of it, and does not touch the others. -/
theorem C44_grow {align offset size : Nat} {g : Prog} (h : VarenaReach align offset size g) {p old : Nat} (hp : g.live p = some old) (hc : old < 2 ^ 63) {s : Sys} (hs : Honest g.st.v.align (used g.st.v) s.slab) :
    ∃ q g', exec g s (.grow p) = .ok (q, g') ∧ (∀ o c, g.live o = some c → o ≠ p → Same (offset + size * c) g.st.mem o g'.st.mem o) ∧
      ((q = 0 ∧ g'.live = g.live ∧ g'.st.mem = g.st.mem) ∨
       (q ≠ 0 ∧ (q = p ∨ g.live q = none) ∧ Same (offset + size * old) g.st.mem p g'.st.mem q ∧ ∃ new, old < new ∧ (∀ o, g'.live o = if o = q then some new else if o = p then none else g.live o))) := by
  obtain ⟨inv, _, ho, hsz⟩ := varena_inv h
  obtain ⟨i, hi, hi63, hile⟩ := sizeClass_ok inv.shift (count := old + 1) (by omega)
  obtain ⟨q, st, h1, h2⟩ := realloc_ok inv hs hp (new := 2 ^ (i + g.st.v.shift)) (Nat.pow_le_pow_right (by omega) (by omega))
  refine ⟨_, _, by rw [exec, hp, Option.getD_some, varenaGrow, hi, ok_bind, oneShl, if_pos (by omega), ok_bind, Nat.one_shiftLeft, h1, ok_bind, ok_bind], ?_, ?_⟩
  · intro o c hoc hop k hk
    rcases h2 with ⟨_, hm, _⟩ | ⟨_, _, _, _, _, h7⟩
    · dsimp only; rw [hm]
    · refine h7 _ ?_
      obtain ⟨i, a, k1, k2, _, k4, _⟩ := inv.object hoc
      exact ⟨o, i, a, ⟨c, (if_neg hop).trans hoc, k1⟩, k2, by omega, by unfold bytes at k4; rw [ho, hsz] at k4; omega⟩
  · rcases h2 with ⟨rfl, hm, _, _, h5⟩ | ⟨_, h5, h6, _, h7, _⟩
    · exact .inl ⟨rfl, rfl, hm⟩
    · refine .inr ⟨h5, h6, ?_, 2 ^ (i + g.st.v.shift), by omega, ?_⟩
      · rw [Nat.min_eq_left (by omega)] at h7
        unfold bytes at h7
        rw [ho, hsz] at h7
        exact h7
      · intro o
        dsimp only
        rw [moved, if_neg h5, if_pos h5]
        rfl

/-- Freeing an object does not touch the others. -/
theorem C44_free {align offset size : Nat} {g : Prog} (h : VarenaReach align offset size g) {p c : Nat} (hp : g.live p = some c) (s : Sys) :
    ∃ g', exec g s (.free p) = .ok (0, g') ∧ g'.live = setCount g.live p none ∧ (∀ o d, g.live o = some d → o ≠ p → Same (offset + size * d) g.st.mem o g'.st.mem o) := by
  obtain ⟨inv, _, ho, hsz⟩ := varena_inv h
  obtain ⟨st, i, h1, h2, h3, h4, _⟩ := free_done inv s hp
  refine ⟨_, by rw [exec, hp, Option.getD_some, h1, ok_bind], rfl, ?_⟩
  intro o d hod hop k hk
  refine h4 _ ?_
  obtain ⟨i, a, k1, k2, _, k4, _⟩ := inv.object hod
  exact ⟨o, i, a, ⟨d, (if_neg hop).trans hod, k1⟩, k2, by omega, by unfold bytes at k4; rw [ho, hsz] at k4; omega⟩

/-- Memory is used again: after freeing an object, one of the same length can be allocated although the system has no memory, and it is where the other one was. -/
theorem C44_reuse {align offset size : Nat} {g g1 : Prog} (h : VarenaReach align offset size g) {p c : Nat} (hp : g.live p = some c) (s s' : Sys) (hs' : s'.slab = fun _ => none)
    (hf : exec g s (.free p) = .ok (0, g1)) : ∃ g2, exec g1 s' (.alloc c) = .ok (p, g2) := by
  obtain ⟨inv, _⟩ := varena_inv h
  obtain ⟨st, i, h1, h2, h3, _, h5, a, ha, hch⟩ := free_done inv s hp
  rw [exec, hp, Option.getD_some, h1, ok_bind] at hf
  cases hf
  have hi : i < st.v.arenas.length := (List.getElem?_eq_some_iff.1 ha).1
  have hcl : sizeClass st.v c = .ok i := by
    obtain ⟨as, has⟩ := h2
    rw [has]
    exact h5
  have hc63 := (inv.cls p c hp).1
  have h0 : p ≠ 0 := by
    obtain ⟨j, b, k1, k2, k3, _⟩ := inv.object hp
    obtain ⟨_, _, _, ib⟩ := inv.arena j b k2
    exact (isChunk_bounds ib k3).1
  obtain ⟨i', v1, ok1, hi', _, _, hget, hd⟩ := get_ok h3 s'.grow hc63
  rw [hcl] at hi'
  cases hi'
  obtain ⟨rfl, rfl⟩ := hd.old hi
  obtain ⟨q, st2, h6, h7⟩ := allocIn_ok h3 (s := s') (by rw [hs']; intro n x hx; cases hx) hi hcl hc63
  have hq : q = p := by
    rcases h7 with ⟨_, _, _, h8⟩ | ⟨_, h8⟩
    · exact absurd (hch.symm.trans (h8 a ha)) h0
    · exact (h8 a p ha hch h0).1
  subst hq
  refine ⟨⟨st2, setCount (setCount g.live q none) q (some c)⟩, ?_⟩
  rw [exec]
  dsimp only
  rw [varenaAlloc, hget, ok_bind, if_pos rfl]
  dsimp only
  rw [h6, ok_bind, if_neg h0]

/-- Sets up for every struct with pointers. -/
theorem C44_init {align offset size : Nat} (h : Shape align offset size) : ∃ v, varenaInit align offset size = .ok v := by
  obtain ⟨v, hv, _⟩ := vinit_ok h (fun _ => 0)
  exact ⟨v, hv⟩

/-- A struct of 20 bytes, aligned to 8, and an array of bytes: there is room for at least 12 of them, and names of 12 and of 100 bytes can be allocated. -/
example : Shape 8 20 1 ∧ ∃ g, VarenaReach 8 20 1 g ∧ g.live 4096 = some 12 ∧ g.live 8192 = some 100 := by
  have hsh : Shape 8 20 1 := ⟨⟨3, by decide, rfl⟩, by decide, by decide⟩
  refine ⟨hsh, ?_⟩
  have h0 : VarenaReach 8 20 1 ⟨⟨⟨8, 20, 1, 2, []⟩, fun _ => 7⟩, fun _ => none⟩ := .init _ _ hsh (by decide)
  have e1 : exec ⟨⟨⟨8, 20, 1, 2, []⟩, fun _ => 7⟩, fun _ => none⟩ ⟨fun _ => true, fun n => if n ≤ 4096 then some 4096 else none, true⟩ (.alloc 12) = .ok (4096, _) := rfl
  have h1 := VarenaReach.step _ _ (.alloc 12) _ _ h0 (show (12 : Nat) ≤ 2 ^ 63 by decide) (by
    intro n a hn
    dsimp only at hn
    split at hn
    · cases hn
      exact ⟨by decide, ⟨512, rfl⟩, by omega, by intro r hr; cases hr⟩
    · cases hn) e1
  have hu : used (⟨⟨8, 20, 1, 2, [⟨0, [], 8, 24⟩, ⟨0, [], 8, 32⟩, ⟨4136, [(4096, 4080)], 8, 40⟩]⟩, slabMem ⟨0, [], 8, 40⟩ (fun _ => 7) 4096 4080⟩ : VSt).v = [(4096, 4080)] := rfl
  have e2 : exec ⟨⟨⟨8, 20, 1, 2, [⟨0, [], 8, 24⟩, ⟨0, [], 8, 32⟩, ⟨4136, [(4096, 4080)], 8, 40⟩]⟩, slabMem ⟨0, [], 8, 40⟩ (fun _ => 7) 4096 4080⟩, setCount (fun _ => none) 4096 (some 12)⟩ ⟨fun _ => true, fun n => if n ≤ 4096 then some 8192 else none, true⟩ (.alloc 100) = .ok (8192, _) := rfl
  have h2 := VarenaReach.step _ _ (.alloc 100) _ _ h1 (show (100 : Nat) ≤ 2 ^ 63 by decide) (by
    intro n a hn
    dsimp only at hn
    split at hn
    · cases hn
      refine ⟨by decide, ⟨1024, rfl⟩, by omega, ?_⟩
      intro r hr
      replace hr : r ∈ [(4096, 4080)] := hr
      rw [List.mem_singleton.1 hr]
      exact .inr (by decide)
    · cases hn) e2
  exact ⟨_, h2, rfl, rfl⟩

/-! ## Growing arrays -/

/-- The sizes (in bytes) and lengths that an array can have. -/
inductive ArrayReach (size : Nat) : Nat → Nat → Prop
  | empty : ArrayReach size 0 0
  | push (room count room' : Nat) (ok : Bool) : ArrayReach size room count → reserve size room count ok = some room' → ArrayReach size room' (count + 1)

theorem and_pred {n : Nat} (h : 0 < n) : n &&& (n - 1) = 0 ↔ ∃ k, n = 2 ^ k := by
  constructor
  · intro h0
    refine ⟨Nat.log2 n, ?_⟩
    have h1 := Nat.log2_self_le (show n ≠ 0 by omega)
    have h2 := Nat.lt_log2_self (n := n)
    apply Classical.byContradiction
    intro hne
    have t1 : n.testBit n.log2 = true := by
      rw [Nat.testBit_eq_decide_div_mod_eq, Nat.div_eq_of_lt_le (k := 1) (by omega) (by rw [Nat.pow_succ] at h2; omega)]
      rfl
    have t2 : (n - 1).testBit n.log2 = true := by
      rw [Nat.testBit_eq_decide_div_mod_eq, Nat.div_eq_of_lt_le (k := 1) (by omega) (by rw [Nat.pow_succ] at h2; omega)]
      rfl
    have t3 : (n &&& (n - 1)).testBit n.log2 = true := by rw [Nat.testBit_and, t1, t2]; rfl
    rw [h0] at t3
    simp at t3
  · rintro ⟨k, rfl⟩
    rw [Nat.and_two_pow_sub_one_eq_mod, Nat.mod_self]

theorem array_inv {size room count : Nat} (h : ArrayReach size room count) : (count = 0 ∧ room = 0) ∨ (0 < count ∧ ∃ k, room = size * 2 ^ k ∧ count ≤ 2 ^ k ∧ 2 ^ k < 2 * count) := by
  induction h with
  | empty => exact .inl ⟨rfl, rfl⟩
  | push room count room' ok _ he ih =>
    right
    unfold reserve at he
    by_cases h0 : count = 0
    · subst h0
      rw [if_neg (by decide)] at he
      split at he
      · cases he
        exact ⟨by omega, 0, by simp [newSize], by decide, by decide⟩
      · cases he
    · obtain ⟨i1, k, hk, i2, i3⟩ := ih.resolve_left (fun hx => h0 hx.1)
      by_cases ha : count &&& (count - 1) = 0
      · rw [if_neg (by simpa using ha)] at he
        split at he
        · cases he
          obtain ⟨j, rfl⟩ := (and_pred i1).1 ha
          have e : 2 ^ (j + 1) = 2 * 2 ^ j := by rw [Nat.pow_succ, Nat.mul_comm]
          exact ⟨by omega, j + 1, by rw [newSize, if_pos h0, e, Nat.mul_left_comm], by omega, by omega⟩
        · cases he
      · rw [if_pos ha] at he
        cases he
        have hne : count ≠ 2 ^ k := fun e => ha ((and_pred i1).2 ⟨k, e⟩)
        exact ⟨by omega, k, hk, by omega, by omega⟩

/-- Reserving makes room for one more element, never takes room away, keeps the block if there is enough room already, and fails only if there is no memory (or the array is half of the address space). -/
theorem C44_reserve {size room count : Nat} (hs : 0 < size) (h : ArrayReach size room count) (ok : Bool) :
    (∀ room', reserve size room count ok = some room' → size * (count + 1) ≤ room' ∧ room ≤ room' ∧ (size * (count + 1) ≤ room → room' = room)) ∧
    (reserve size room count ok = none → ok = false ∨ (size > ALLOC_MAX ∨ 2 * (size * count) > ALLOC_MAX)) := by
  constructor
  · intro room' he
    have h1 := array_inv h
    have h2 := array_inv (.push room count room' ok h he)
    have h3 : size * (count + 1) ≤ room' := by
      obtain ⟨_, k, hk, i2, _⟩ := h2.resolve_left (by omega)
      rw [hk]
      exact Nat.mul_le_mul_left _ i2
    have h4 : size * (count + 1) ≤ room → room' = room := by
      intro hlt
      unfold reserve at he
      split at he
      · cases he; rfl
      · next hn =>
        exfalso
        have ha : count &&& (count - 1) = 0 := by simpa using hn
        rcases h1 with ⟨rfl, rfl⟩ | ⟨i1, k, hk, i2, i3⟩
        · rw [Nat.zero_add, Nat.mul_one] at hlt
          omega
        · obtain ⟨j, hj⟩ := (and_pred i1).1 ha
          rw [hk] at hlt
          have hlt' := Nat.le_of_mul_le_mul_left hlt hs
          have hjk : j < k := (Nat.pow_lt_pow_iff_right (show 1 < 2 by omega)).1 (by omega)
          have := Nat.pow_le_pow_right (show 0 < 2 by omega) (show j + 1 ≤ k from hjk)
          rw [Nat.pow_succ] at this
          omega
    refine ⟨h3, ?_, h4⟩
    rcases Nat.lt_or_ge room (size * (count + 1)) with hlt | hge
    · omega
    · rw [h4 hge]
      exact Nat.le_refl _
  · intro he
    unfold reserve at he
    split at he
    · cases he
    · split at he
      · cases he
      · next hn =>
        by_cases hok : ok = true
        · right
          by_cases h0 : count = 0
          · subst h0
            left
            apply Nat.lt_of_not_le
            intro hle
            exact hn ⟨by simpa [newSize] using hle, hok⟩
          · right
            apply Nat.lt_of_not_le
            intro hle
            refine hn ⟨?_, hok⟩
            rw [newSize, if_pos h0]
            exact hle
        · left; simpa using hok

example : ArrayReach 8 32 3 ∧ reserve 8 32 4 true = some 64 ∧ reserve 8 32 4 false = none ∧ reserve 8 64 5 false = some 64 :=
  ⟨.push 16 2 32 true (.push 8 1 16 true (.push 0 0 8 true .empty (by decide)) (by decide)) (by decide), by decide, by decide, by decide⟩

end Verif.Props
