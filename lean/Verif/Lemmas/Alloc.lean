import Verif.Spec.Alloc
/-! # Lemmas about arenas -/
namespace Verif.Alloc
open Verif Verif.Spec.Alloc

/-- A slot of a slab. -/
def IsChunk (a : Arena) (c : Nat) : Prop := ∃ r ∈ a.slabs, ∃ i, i * a.size + a.size ≤ r.2 ∧ c = r.1 + i * a.size

/-- The linked list of chunks that starts at `h`. -/
def Chain (a : Arena) (mem : Mem) : Nat → List Nat → Prop
  | h, [] => h = 0
  | h, c :: l => h = c ∧ c ≠ 0 ∧ Chain a mem (chunkNext a mem c) l

/-- The invariant of an arena. -/
structure Inv (mem : Mem) (a : Arena) (live : Nat → Prop) (free : List Nat) : Prop where
  size8 : 8 ≤ a.size
  al : a.align ∣ a.size
  sizes : ∀ (k : Nat) (r : Nat × Nat), a.slabs[k]? = some r → r.2 = firstSlab a <<< k ∧ r.2 ≤ ALLOC_MAX
  ok : ∀ r ∈ a.slabs, 0 < r.1 ∧ a.align ∣ r.1 ∧ r.1 + r.2 ≤ M
  disj : ∀ r ∈ a.slabs, ∀ q ∈ a.slabs, r ≠ q → Apart r.1 r.2 q.1 q.2
  chain : Chain a mem a.chunks free
  nodup : free.Nodup
  part : ∀ c, IsChunk a c ↔ (c ∈ free ∨ live c)
  excl : ∀ c, c ∈ free → ¬ live c

theorem chain_size {a b : Arena} (h : a.size = b.size) {mem : Mem} {x : Nat} {l : List Nat} (hc : Chain a mem x l) : Chain b mem x l := by
  induction l generalizing x with
  | nil => exact hc
  | cons c l ih =>
    obtain ⟨h1, h2, h3⟩ := hc
    refine ⟨h1, h2, ?_⟩
    have := ih h3
    rwa [chunkNext, h] at this

theorem chain_frame {a : Arena} {mem mem' : Mem} {x : Nat} {l : List Nat} (hc : Chain a mem x l) (hm : ∀ c ∈ l, mem' c = mem c) : Chain a mem' x l := by
  induction l generalizing x with
  | nil => exact hc
  | cons c l ih =>
    obtain ⟨h1, h2, h3⟩ := hc
    refine ⟨h1, h2, ?_⟩
    rw [chunkNext, hm c (List.mem_cons_self ..)]
    exact ih h3 (fun d hd => hm d (List.mem_cons_of_mem _ hd))

theorem Inv.frame {mem mem' : Mem} {a : Arena} {live : Nat → Prop} {free : List Nat} (h : Inv mem a live free) (hm : ∀ c ∈ free, mem' c = mem c) : Inv mem' a live free :=
  { h with chain := chain_frame h.chain hm }

theorem Inv.live {mem : Mem} {a : Arena} {live live' : Nat → Prop} {free : List Nat} (h : Inv mem a live free) (hl : ∀ c, live' c ↔ live c) : Inv mem a live' free :=
  { h with
    part := fun c => by rw [hl]; exact h.part c
    excl := fun c hc hl' => h.excl c hc ((hl c).1 hl') }

theorem isChunk_bounds {mem : Mem} {a : Arena} {live : Nat → Prop} {free : List Nat} (h : Inv mem a live free) {c : Nat} (hc : IsChunk a c) : c ≠ 0 ∧ c < M ∧ a.align ∣ c ∧ ∃ r ∈ a.slabs, r.1 ≤ c ∧ c + a.size ≤ r.1 + r.2 := by
  obtain ⟨r, hr, i, hi, rfl⟩ := hc
  obtain ⟨h1, h2, h3⟩ := h.ok r hr
  have := h.size8
  refine ⟨by omega, by omega, Nat.dvd_add h2 (Nat.dvd_mul_left_of_dvd h.al i), r, hr, by omega, by omega⟩

theorem isChunk_apart {mem : Mem} {a : Arena} {live : Nat → Prop} {free : List Nat} (h : Inv mem a live free) {c d : Nat} (hc : IsChunk a c) (hd : IsChunk a d) (hne : c ≠ d) : Apart c a.size d a.size := by
  obtain ⟨r, hr, i, hi, rfl⟩ := hc
  obtain ⟨q, hq, j, hj, rfl⟩ := hd
  by_cases hrq : r = q
  · subst hrq
    have hij : i ≠ j := fun e => hne (by rw [e])
    rcases Nat.lt_or_gt_of_ne hij with hlt | hlt
    · left
      have := Nat.mul_le_mul_right a.size (show i + 1 ≤ j from hlt)
      rw [Nat.add_mul] at this
      omega
    · right
      have := Nat.mul_le_mul_right a.size (show j + 1 ≤ i from hlt)
      rw [Nat.add_mul] at this
      omega
  · rcases h.disj r hr q hq hrq with h1 | h1
    · left; omega
    · right; omega

theorem next_set (x n : Nat) (hn : n < M) : (x + (n + (M - x % M)) % M) % M = n := by
  unfold M at *
  omega

theorem chunkNext_set {a b : Arena} (hs : b.size = a.size) (mem : Mem) (c next : Nat) (hn : next < M) : chunkNext b (chunkSetNext a mem c next) c = next := by
  rw [chunkNext, chunkSetNext, store, if_pos rfl, hs]
  exact next_set _ _ hn

theorem chunks_lt {mem : Mem} {a : Arena} {live : Nat → Prop} {free : List Nat} (h : Inv mem a live free) : a.chunks < M := by
  have hc := h.chain
  cases free with
  | nil => rw [show a.chunks = 0 from hc]; decide
  | cons c l =>
    rw [show a.chunks = c from hc.1]
    exact (isChunk_bounds h ((h.part c).2 (.inl (List.mem_cons_self ..)))).2.1

/-- Taking a chunk from the list. -/
theorem inv_take {mem : Mem} {a : Arena} {live : Nat → Prop} {c : Nat} {l : List Nat} (h : Inv mem a live (c :: l)) :
    a.chunks = c ∧ c ≠ 0 ∧ IsChunk a c ∧ ¬ live c ∧ Inv mem { a with chunks := chunkNext a mem a.chunks } (fun x => live x ∨ x = c) l := by
  obtain ⟨h1, h2, h3⟩ := h.chain
  have hn := List.nodup_cons.1 h.nodup
  have hcm : c ∈ c :: l := List.mem_cons_self ..
  refine ⟨h1, h2, (h.part c).2 (.inl hcm), h.excl c hcm, ?_⟩
  exact {
    size8 := h.size8, al := h.al, sizes := h.sizes, ok := h.ok, disj := h.disj
    chain := by rw [h1]; exact chain_size (a := a) (b := { a with chunks := chunkNext a mem c }) rfl h3
    nodup := hn.2
    part := fun d => by
      rw [show IsChunk { a with chunks := chunkNext a mem a.chunks } d ↔ IsChunk a d from Iff.rfl, h.part d, List.mem_cons]
      constructor
      · rintro ((rfl | hd) | hd)
        · exact .inr (.inr rfl)
        · exact .inl hd
        · exact .inr (.inl hd)
      · rintro (hd | hd | rfl)
        · exact .inl (.inr hd)
        · exact .inr hd
        · exact .inl (.inl rfl)
    excl := fun d hd hl => by
      rcases hl with hl | rfl
      · exact h.excl d (List.mem_cons_of_mem _ hd) hl
      · exact hn.1 hd }

/-- Giving a chunk back. -/
theorem inv_free {mem : Mem} {a : Arena} {live : Nat → Prop} {free : List Nat} (h : Inv mem a live free) {p : Nat} (hp : live p) :
    Inv (arenaFree a mem p).2 (arenaFree a mem p).1 (fun x => live x ∧ x ≠ p) (p :: free) := by
  have hpc : IsChunk a p := (h.part p).2 (.inr hp)
  have hpf : p ∉ free := fun hf => h.excl p hf hp
  exact {
    size8 := h.size8, al := h.al, sizes := h.sizes, ok := h.ok, disj := h.disj
    chain := by
      refine ⟨rfl, (isChunk_bounds h hpc).1, ?_⟩
      have e : chunkNext (arenaFree a mem p).1 (arenaFree a mem p).2 p = a.chunks := chunkNext_set (a := a) rfl mem p _ (chunks_lt h)
      rw [e]
      refine chain_frame (chain_size (a := a) (b := (arenaFree a mem p).1) rfl h.chain) ?_
      intro c hc
      exact if_neg (fun e : c = p => hpf (e ▸ hc))
    nodup := List.nodup_cons.2 ⟨hpf, h.nodup⟩
    part := fun d => by
      rw [show IsChunk (arenaFree a mem p).1 d ↔ IsChunk a d from Iff.rfl, h.part d, List.mem_cons]
      by_cases hd : d = p
      · subst hd; simp [hp]
      · simp [hd]
    excl := fun d hd hl => by
      rcases List.mem_cons.1 hd with rfl | hd
      · exact hl.2 rfl
      · exact h.excl d hd hl.1 }

/-! ## New slabs -/

theorem firstSlab_mul (a : Arena) (h : 0 < a.size) : ∃ n, 0 < n ∧ firstSlab a = n * a.size := by
  unfold firstSlab
  refine ⟨max 4096 a.size / a.size, Nat.div_pos (Nat.le_max_right ..) h, ?_⟩
  have := Nat.div_add_mod (max 4096 a.size) a.size
  rw [Nat.mul_comm] at this
  omega

theorem slabSize_ok {mem : Mem} {a : Arena} {live : Nat → Prop} {free : List Nat} (h : Inv mem a live free) (ha : a.size < M) :
    ∃ s, slabSize a = .ok s ∧ s = firstSlab a <<< a.slabs.length ∧ ∃ n, 0 < n ∧ s = n * a.size := by
  obtain ⟨n0, hn0, hf⟩ := firstSlab_mul a (by have := h.size8; omega)
  have hfpos : 0 < firstSlab a := by rw [hf]; exact Nat.mul_pos hn0 (by have := h.size8; omega)
  have hfM : firstSlab a < M := by
    have : firstSlab a ≤ max 4096 a.size := Nat.sub_le ..
    have : max 4096 a.size < M := Nat.max_lt.2 ⟨by decide, ha⟩
    omega
  have key : a.slabs.length < 64 ∧ firstSlab a <<< a.slabs.length < M := by
    cases hl : a.slabs.length with
    | zero => exact ⟨by omega, by simpa using hfM⟩
    | succ k =>
      have hk : k < a.slabs.length := by omega
      obtain ⟨hs1, hs2⟩ := h.sizes k a.slabs[k] (List.getElem?_eq_getElem hk)
      rw [hs1, Nat.shiftLeft_eq] at hs2
      have h2 : 2 ^ k ≤ firstSlab a * 2 ^ k := Nat.le_mul_of_pos_left _ hfpos
      have hlt : 2 ^ k < 2 ^ 63 := Nat.lt_of_le_of_lt (Nat.le_trans h2 hs2) (by decide)
      have hk63 : k < 63 := (Nat.pow_lt_pow_iff_right (by omega)).1 hlt
      refine ⟨by omega, ?_⟩
      rw [Nat.shiftLeft_eq, Nat.pow_succ, ← Nat.mul_assoc]
      unfold ALLOC_MAX at hs2
      unfold M
      omega
  refine ⟨firstSlab a <<< a.slabs.length, ?_, rfl, n0 * 2 ^ a.slabs.length, Nat.mul_pos hn0 (Nat.two_pow_pos _), ?_⟩
  · rw [slabSize, if_pos key.1, Nat.mod_eq_of_lt key.2]
  · rw [Nat.shiftLeft_eq, hf, Nat.mul_right_comm]

/-- The chunks of a slab. -/
def slots (size slab : Nat) (i n : Nat) : List Nat := (List.range' i n).map fun j => slab + j * size

theorem chain_slots {a b : Arena} (hb : b.size = a.size) (mem : Mem) (slab n : Nat) (hs : 8 ≤ a.size) (h0 : 0 < slab) (hM : slab + n * a.size ≤ M) (hnull : a.chunks = 0) :
    ∀ k i, i + k = n → 0 < k → Chain b (slabMem a mem slab (n * a.size)) (slab + i * a.size) (slots a.size slab i k) := by
  intro k
  induction k with
  | zero => intro i _ h; omega
  | succ k ih =>
    intro i hik _
    show Chain _ _ _ ((slab + i * a.size) :: slots a.size slab (i + 1) k)
    refine ⟨rfl, by omega, ?_⟩
    have hmul := Nat.mul_le_mul_right a.size (show i + 1 ≤ n by omega)
    rw [Nat.add_mul, Nat.one_mul] at hmul
    by_cases hk : k = 0
    · subst hk
      have hn : n = i + 1 := by omega
      have hlast : slab + n * a.size - a.size = slab + i * a.size := by rw [hn, Nat.add_mul, Nat.one_mul]; omega
      show chunkNext b (slabMem a mem slab (n * a.size)) (slab + i * a.size) = 0
      rw [slabMem, hlast, chunkNext_set hb _ _ _ (by rw [hnull]; decide), hnull]
    · have hmul2 := Nat.mul_le_mul_right a.size (show i + 2 ≤ n by omega)
      rw [Nat.add_mul] at hmul2
      have hz : slabMem a mem slab (n * a.size) (slab + i * a.size) = 0 := by
        rw [slabMem, chunkSetNext, store, if_neg (by omega), if_pos (by omega)]
      have e : chunkNext b (slabMem a mem slab (n * a.size)) (slab + i * a.size) = slab + (i + 1) * a.size := by
        rw [chunkNext, hz, hb, Nat.add_zero, Nat.add_mul, Nat.one_mul, Nat.mod_eq_of_lt (by omega)]
        omega
      rw [e]
      exact ih (i + 1) (by omega) (by omega)

theorem mem_slots {size slab n c : Nat} : c ∈ slots size slab 0 n ↔ ∃ i, i < n ∧ c = slab + i * size := by
  unfold slots
  rw [List.mem_map]
  constructor
  · rintro ⟨i, hi, rfl⟩
    rw [List.mem_range'_1] at hi
    exact ⟨i, by omega, rfl⟩
  · rintro ⟨i, hi, rfl⟩
    exact ⟨i, List.mem_range'_1.2 ⟨by omega, by omega⟩, rfl⟩

theorem nodup_slots {size slab n : Nat} (hs : 0 < size) : (slots size slab 0 n).Nodup := by
  unfold slots
  rw [List.Nodup, List.pairwise_map]
  refine List.Pairwise.imp ?_ (List.nodup_range' (s := 0) (n := n) (step := 1))
  intro i j hij he
  exact hij (Nat.eq_of_mul_eq_mul_right hs (by omega))

/-- A new slab, when there are no free chunks. -/
theorem inv_slab {mem : Mem} {a : Arena} {live : Nat → Prop} (h : Inv mem a live []) {slab n : Nat} (hn : 0 < n)
    (hsz : n * a.size = firstSlab a <<< a.slabs.length) (hmax : n * a.size ≤ ALLOC_MAX)
    (h0 : 0 < slab) (hal : a.align ∣ slab) (hM : slab + n * a.size ≤ M) (hap : ∀ r ∈ a.slabs, Apart slab (n * a.size) r.1 r.2) :
    Inv (slabMem a mem slab (n * a.size)) { a with chunks := slab, slabs := a.slabs ++ [(slab, n * a.size)] } live (slots a.size slab 0 n) := by
  have hnull : a.chunks = 0 := h.chain
  have hpos : 0 < n * a.size := Nat.mul_pos hn (by have := h.size8; omega)
  have hchunk : ∀ c, IsChunk { a with chunks := slab, slabs := a.slabs ++ [(slab, n * a.size)] } c ↔ IsChunk a c ∨ c ∈ slots a.size slab 0 n := by
    intro c
    rw [mem_slots]
    constructor
    · rintro ⟨r, hr, i, hi, rfl⟩
      rcases List.mem_append.1 hr with hr | hr
      · exact .inl ⟨r, hr, i, hi, rfl⟩
      · rw [List.mem_singleton.1 hr] at hi ⊢
        refine .inr ⟨i, ?_, rfl⟩
        apply Nat.lt_of_not_le
        intro hc
        have := Nat.mul_le_mul_right a.size hc
        have h8 := h.size8
        dsimp only at hi
        omega
    · rintro (⟨r, hr, i, hi, rfl⟩ | ⟨i, hi, rfl⟩)
      · exact ⟨r, List.mem_append.2 (.inl hr), i, hi, rfl⟩
      · refine ⟨_, List.mem_append.2 (.inr (List.mem_singleton.2 rfl)), i, ?_, rfl⟩
        have := Nat.mul_le_mul_right a.size (show i + 1 ≤ n from hi)
        rw [Nat.add_mul, Nat.one_mul] at this
        exact this
  exact {
    size8 := h.size8, al := h.al
    sizes := fun k r hr => by
      dsimp only at hr
      rw [List.getElem?_append] at hr
      split at hr
      · exact h.sizes k r hr
      · next hk =>
        have hk0 : k - a.slabs.length = 0 := by
          apply Classical.byContradiction
          intro hne
          rw [List.getElem?_eq_none (by simp only [List.length_singleton]; omega)] at hr
          cases hr
        rw [hk0] at hr
        have hkl : k = a.slabs.length := by omega
        have hr' : (slab, n * a.size) = r := by simpa using hr
        subst hr'
        refine ⟨?_, hmax⟩
        rw [hkl]
        exact hsz
    ok := fun r hr => by
      rcases List.mem_append.1 hr with hr | hr
      · exact h.ok r hr
      · rw [List.mem_singleton.1 hr]
        exact ⟨h0, hal, hM⟩
    disj := fun r hr q hq hne => by
      rcases List.mem_append.1 hr with hr | hr <;> rcases List.mem_append.1 hq with hq | hq
      · exact h.disj r hr q hq hne
      · rw [List.mem_singleton.1 hq]
        exact (hap r hr).symm
      · rw [List.mem_singleton.1 hr]
        exact hap q hq
      · rw [List.mem_singleton.1 hr, List.mem_singleton.1 hq] at hne
        exact absurd rfl hne
    chain := by
      have := chain_slots (a := a) (b := { a with chunks := slab, slabs := a.slabs ++ [(slab, n * a.size)] }) rfl mem slab n h.size8 h0 hM hnull n 0 (by omega) hn
      rwa [Nat.zero_mul, Nat.add_zero] at this
    nodup := nodup_slots (by have := h.size8; omega)
    part := fun c => by
      rw [hchunk, h.part c]
      simp [or_comm]
    excl := fun c hc hl => by
      obtain ⟨r, hr, hr1, hr2⟩ := (isChunk_bounds h ((h.part c).2 (.inr hl))).2.2.2
      obtain ⟨i, hi, rfl⟩ := mem_slots.1 hc
      have hmul := Nat.mul_le_mul_right a.size (show i + 1 ≤ n from hi)
      rw [Nat.add_mul, Nat.one_mul] at hmul
      have h8 := h.size8
      rcases hap r hr with h1 | h1 <;> omega }

theorem slabMem_other {a : Arena} {mem : Mem} {slab n x : Nat} (hn : 0 < n) (hx : ¬ (slab ≤ x ∧ x < slab + n * a.size)) (hs : 0 < a.size) : slabMem a mem slab (n * a.size) x = mem x := by
  have hmul := Nat.mul_le_mul_right a.size (show 1 ≤ n from hn)
  rw [Nat.one_mul] at hmul
  rw [slabMem, chunkSetNext, store, if_neg (by omega), if_neg hx]

/-- What an allocation from an arena does. -/
structure AllocDone (mem : Mem) (a : Arena) (live : Nat → Prop) (used : List (Nat × Nat)) (p : Nat) (a' : Arena) (mem' : Mem) : Prop where
  align : a'.align = a.align
  size : a'.size = a.size
  slabs : ∃ new, a'.slabs = a.slabs ++ new ∧ (∀ r ∈ new, ∀ q ∈ used, Apart r.1 r.2 q.1 q.2) ∧ (∀ x, (∀ r ∈ new, ¬ (r.1 ≤ x ∧ x < r.1 + r.2)) → mem' x = mem x)
  fresh : p ≠ 0
  dead : ¬ live p
  chunk : IsChunk a' p
  inv : ∃ free, Inv mem' a' (fun x => live x ∨ x = p) free

theorem alloc_ok {mem : Mem} {a : Arena} {live : Nat → Prop} {free : List Nat} (h : Inv mem a live free) (ha : a.size < M) {used : List (Nat × Nat)} (hu : ∀ r ∈ a.slabs, r ∈ used)
    {z : Nat → Option Nat} {r : Bool} (hz : Honest a.align used z) :
    ∃ p a' mem', arenaAlloc a mem z r = .ok (p, a', mem') ∧
      ((p = 0 ∧ a' = a ∧ mem' = mem ∧ free = [] ∧ ∃ s, slabSize a = .ok s ∧ (s > ALLOC_MAX ∨ z s = none ∨ r = false)) ∨
       (AllocDone mem a live used p a' mem' ∧ a.size ≤ ALLOC_MAX ∧ (∀ c l, free = c :: l → p = c ∧ mem' = mem))) := by
  cases free with
  | cons c l =>
    obtain ⟨h1, h2, h3, h4, h5⟩ := inv_take h
    have hle : a.size ≤ ALLOC_MAX := by
      obtain ⟨q, hq, i, hi, _⟩ := h3
      obtain ⟨k, hk⟩ := List.mem_iff_getElem?.1 hq
      have := (h.sizes k q hk).2
      omega
    refine ⟨c, { a with chunks := chunkNext a mem a.chunks }, mem, ?_, .inr ⟨⟨rfl, rfl, ⟨[], (List.append_nil _).symm, (fun r hr => by cases hr), fun x _ => rfl⟩, h2, h4, h3, l, h5⟩, hle, ?_⟩⟩
    · rw [arenaAlloc, if_neg (by rw [h1]; exact h2), takeChunk, h1]
    · intro d l' he
      cases he
      exact ⟨rfl, rfl⟩
  | nil =>
    have hnull : a.chunks = 0 := h.chain
    obtain ⟨s, hs, hsf, n, hn, hsn⟩ := slabSize_ok h ha
    have hfail : ∀ (P : Prop), P → (slabAlloc a mem z r = .ok none) → (s > ALLOC_MAX ∨ z s = none ∨ r = false) → ∃ p a' mem', arenaAlloc a mem z r = .ok (p, a', mem') ∧
      ((p = 0 ∧ a' = a ∧ mem' = mem ∧ ([] : List Nat) = [] ∧ ∃ s, slabSize a = .ok s ∧ (s > ALLOC_MAX ∨ z s = none ∨ r = false)) ∨
       (AllocDone mem a live used p a' mem' ∧ a.size ≤ ALLOC_MAX ∧ (∀ c l, ([] : List Nat) = c :: l → p = c ∧ mem' = mem))) := by
      intro P _ he hw
      refine ⟨0, a, mem, ?_, .inl ⟨rfl, rfl, rfl, rfl, s, hs, hw⟩⟩
      rw [arenaAlloc, if_pos hnull, he]
      rfl
    by_cases hmax : s > ALLOC_MAX
    · exact hfail True trivial (by rw [slabAlloc, hs]; exact if_pos hmax) (.inl hmax)
    · cases hzs : z s with
      | none =>
        refine hfail True trivial ?_ (.inr (.inl hzs))
        rw [slabAlloc, hs]
        refine (if_neg hmax).trans ?_
        rw [hzs]
      | some slab =>
        cases r with
        | false =>
          refine hfail True trivial ?_ (.inr (.inr rfl))
          rw [slabAlloc, hs]
          refine (if_neg hmax).trans ?_
          rw [hzs]
          rfl
        | true =>
          obtain ⟨z1, z2, z3, z4⟩ := hz s slab hzs
          subst hsn
          have hM : slab + n * a.size ≤ M := z3
          have hinv := inv_slab h hn hsf (by omega) z1 z2 hM (fun q hq => z4 q (hu q hq))
          have hsl : slots a.size slab 0 n = slab :: slots a.size slab 1 (n - 1) := by
            obtain ⟨m, rfl⟩ : ∃ m, n = m + 1 := ⟨n - 1, by omega⟩
            show (slab + 0 * a.size) :: slots a.size slab 1 m = _
            rw [Nat.zero_mul]
            rfl
          rw [hsl] at hinv
          obtain ⟨h1, h2, h3, h4, h5⟩ := inv_take hinv
          have hle : a.size ≤ ALLOC_MAX := Nat.le_trans (Nat.le_mul_of_pos_left _ hn) (Nat.le_of_not_gt hmax)
          refine ⟨slab, { a with chunks := chunkNext { a with chunks := slab, slabs := a.slabs ++ [(slab, n * a.size)] } (slabMem a mem slab (n * a.size)) slab, slabs := a.slabs ++ [(slab, n * a.size)] }, slabMem a mem slab (n * a.size), ?_, .inr ⟨⟨rfl, rfl, ⟨[(slab, n * a.size)], rfl, ?_, ?_⟩, h2, h4, h3, _, h5⟩, hle, by intro c l he; cases he⟩⟩
          · rw [arenaAlloc, if_pos hnull, slabAlloc, hs]
            dsimp only [Out.bind]
            rw [if_neg hmax, hzs]
            rfl
          · intro q hq u hu'
            rw [List.mem_singleton.1 hq]
            exact z4 u hu'
          · intro x hx
            exact slabMem_other hn (hx _ (List.mem_singleton.2 rfl)) (by have := h.size8; omega)

/-- A new arena. -/
theorem inv_init {align size : Nat} {a : Arena} (h : arenaInit align size = .ok a) (mem : Mem) : Inv mem a (fun _ => False) [] ∧ a.align = max align 8 ∧ a.size = max size 8 ∧ a.slabs = [] := by
  unfold arenaInit at h
  split at h
  · split at h
    · next h8 =>
      cases h
      refine ⟨{ size8 := Nat.le_max_right .., al := Nat.dvd_of_mod_eq_zero h8, sizes := ?_, ok := ?_, disj := ?_, chain := rfl, nodup := List.nodup_nil, part := ?_, excl := ?_ }, rfl, rfl, rfl⟩
      · intro k r hr; simp at hr
      · intro r hr; cases hr
      · intro r hr; cases hr
      · intro c
        constructor
        · rintro ⟨r, hr, _⟩; cases hr
        · rintro (hc | hc)
          · cases hc
          · exact hc.elim
      · intro c hc; cases hc
    · cases h
  · cases h

theorem inv_clear {mem : Mem} {a : Arena} {live : Nat → Prop} {free : List Nat} (h : Inv mem a live free) (mem' : Mem) : Inv mem' (arenaClear a) (fun _ => False) [] :=
  { size8 := h.size8, al := h.al
    sizes := fun k r hr => by simp [arenaClear] at hr
    ok := fun r hr => by cases hr
    disj := fun r hr => by cases hr
    chain := rfl, nodup := List.nodup_nil
    part := fun c => by
      constructor
      · rintro ⟨r, hr, _⟩; cases hr
      · rintro (hc | hc)
        · cases hc
        · exact hc.elim
    excl := fun c hc => by cases hc }

end Verif.Alloc
