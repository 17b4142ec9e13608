import Verif.Lemmas.Alloc
import Verif.Props.Bit
/-! # Lemmas about arenas for structs with flexible arrays -/
namespace Verif.Alloc
open Verif Verif.Spec.Alloc

/-! ## Sizes -/

theorem sizeMul_eq {size : Nat} (hs : 0 < size) (count : Nat) : sizeMul size count = min (size * count) (M - 1) := by
  unfold sizeMul
  by_cases h : size * count < M
  · rw [Nat.mod_eq_of_lt h, Nat.mul_div_cancel_left _ hs, if_pos rfl]
    omega
  · have h2 : size * count % M / size ≠ count := by
      intro he
      have h3 := Nat.div_mul_le_self (size * count % M) size
      rw [he, Nat.mul_comm count size] at h3
      have := Nat.mod_lt (size * count) (show 0 < M by decide)
      omega
    rw [if_neg h2]
    omega

theorem sizeAdd_eq {l r : Nat} (hl : l < M) (hr : r < M) : sizeAdd l r = min (l + r) (M - 1) := by
  unfold sizeAdd M at *
  split <;> omega

theorem flexSize_eq {align offset size : Nat} (h : Shape align offset size) (count : Nat) : flexSize align offset size count = min (size * count + (offset + align - 1)) (M - 1) / align * align := by
  have h2 : offset + align - 1 < M := by have := h.small; unfold M; omega
  unfold flexSize alignFloor
  rw [sizeMul_eq h.pos, sizeAdd_eq (by unfold M; omega) h2]
  have : min (min (size * count) (M - 1) + (offset + align - 1)) (M - 1) = min (size * count + (offset + align - 1)) (M - 1) := by omega
  rw [this]

theorem shape_align8 {align offset size : Nat} (h : Shape align offset size) : 8 ≤ align := by
  obtain ⟨k, hk, rfl⟩ := h.pow
  exact Nat.le_trans (by decide) (Nat.pow_le_pow_right (show 0 < 2 by omega) hk)

theorem flexSize_dvd {align offset size : Nat} (h : Shape align offset size) (count : Nat) : align ∣ flexSize align offset size count := by
  rw [flexSize_eq h]; exact Nat.dvd_mul_left ..

theorem flexSize_lt {align offset size : Nat} (h : Shape align offset size) (count : Nat) : flexSize align offset size count < M := by
  rw [flexSize_eq h]
  have := Nat.div_mul_le_self (min (size * count + (offset + align - 1)) (M - 1)) align
  have : 0 < M := by decide
  omega

theorem flexSize_ge8 {align offset size : Nat} (h : Shape align offset size) {count : Nat} (hc : 0 < count) : 8 ≤ flexSize align offset size count := by
  have h8 := (shape_align8 h)
  have hsm := h.small
  have hp : 0 < size * count := Nat.mul_pos h.pos hc
  rw [flexSize_eq h]
  have hM : 2 ^ 62 < M := by decide
  have : 0 < min (size * count + (offset + align - 1)) (M - 1) / align := Nat.div_pos (by omega) (by omega)
  have := Nat.mul_le_mul_right align this
  omega

/-- Unless it is more than the system can give, the size is enough. -/
theorem flexSize_enough {align offset size : Nat} (h : Shape align offset size) {count : Nat} (hm : flexSize align offset size count ≤ ALLOC_MAX) : offset + size * count ≤ flexSize align offset size count := by
  have h8 := (shape_align8 h)
  have hsm := h.small
  rw [flexSize_eq h] at hm ⊢
  have h1 := Nat.div_add_mod (min (size * count + (offset + align - 1)) (M - 1)) align
  have h2 := Nat.mod_lt (min (size * count + (offset + align - 1)) (M - 1)) (show 0 < align by omega)
  rw [Nat.mul_comm] at h1
  have hM : M = 2 * 2 ^ 63 := by decide
  have hA : ALLOC_MAX = 2 ^ 63 - 1 := rfl
  have h62 : (2 : Nat) ^ 63 = 2 * 2 ^ 62 := by decide
  omega

/-- `bit_width()`. -/
theorem width_ok {n : Nat} (hn : n < 2 ^ 64) : ∃ k, width n = .ok k ∧ n < 2 ^ k ∧ ∀ j, n < 2 ^ j → k ≤ j :=
  Props.C52_width (lz := Bit.leadingZerosGnu) .gnu 64 n (by decide) hn

theorem sizeClass_ok {v : Varena} (hs : v.shift ≤ 63) {count : Nat} (hc : count ≤ 2 ^ 63) : ∃ i, sizeClass v count = .ok i ∧ i + v.shift ≤ 63 ∧ count ≤ 2 ^ (i + v.shift) := by
  have hlt : (count - (if count ≠ 0 then 1 else 0)) < 2 ^ 63 := by split <;> omega
  have hlt2 : (count - (if count ≠ 0 then 1 else 0)) >>> v.shift < 2 ^ (63 - v.shift) := by
    rw [Nat.shiftRight_eq_div_pow, Nat.div_lt_iff_lt_mul (Nat.two_pow_pos _), ← Nat.pow_add, show 63 - v.shift + v.shift = 63 by omega]
    exact hlt
  obtain ⟨i, h1, h2, h3⟩ := width_ok (n := (count - (if count ≠ 0 then 1 else 0)) >>> v.shift) (Nat.lt_of_lt_of_le hlt2 (Nat.pow_le_pow_right (by omega) (by omega)))
  refine ⟨i, h1, by have := h3 _ hlt2; omega, ?_⟩
  rw [Nat.shiftRight_eq_div_pow, Nat.div_lt_iff_lt_mul (Nat.two_pow_pos _), ← Nat.pow_add] at h2
  split at h2 <;> omega

/-! ## The invariant -/

/-- The live objects of a size class. -/
def liveIn (v : Varena) (live : Nat → Option Nat) (i p : Nat) : Prop := ∃ c, live p = some c ∧ sizeClass v c = .ok i

structure VInv (v : Varena) (mem : Mem) (live : Nat → Option Nat) : Prop where
  shape : Shape v.align v.offset v.size
  shift : v.shift ≤ 63
  arena : ∀ (i : Nat) (a : Arena), v.arenas[i]? = some a → a.align = v.align ∧ a.size = exactSize v (2 ^ (i + v.shift)) ∧ ∃ free, Inv mem a (liveIn v live i) free
  cls : ∀ p c, live p = some c → c ≤ 2 ^ 63 ∧ ∃ i, sizeClass v c = .ok i ∧ i < v.arenas.length
  cross : ∀ (i j : Nat) (a b : Arena), i ≠ j → v.arenas[i]? = some a → v.arenas[j]? = some b → ∀ r ∈ a.slabs, ∀ q ∈ b.slabs, Apart r.1 r.2 q.1 q.2

theorem VInv.chunk_apart {v : Varena} {mem : Mem} {live : Nat → Option Nat} (h : VInv v mem live) {i j : Nat} {a b : Arena} (ha : v.arenas[i]? = some a) (hb : v.arenas[j]? = some b) {c d : Nat}
    (hc : IsChunk a c) (hd : IsChunk b d) (hne : i ≠ j ∨ c ≠ d) : Apart c a.size d b.size := by
  obtain ⟨_, _, fa, ia⟩ := h.arena i a ha
  obtain ⟨_, _, fb, ib⟩ := h.arena j b hb
  by_cases hij : i = j
  · subst hij
    rw [ha] at hb
    cases hb
    exact isChunk_apart ia hc hd (hne.resolve_left (by simp))
  · obtain ⟨_, _, _, r, hr, hr1, hr2⟩ := isChunk_bounds ia hc
    obtain ⟨_, _, _, q, hq, hq1, hq2⟩ := isChunk_bounds ib hd
    rcases h.cross i j a b hij ha hb r hr q hq with hx | hx
    · left; omega
    · right; omega

/-- Where a live object is. -/
theorem VInv.object {v : Varena} {mem : Mem} {live : Nat → Option Nat} (h : VInv v mem live) {p c : Nat} (hp : live p = some c) :
    ∃ i a, sizeClass v c = .ok i ∧ v.arenas[i]? = some a ∧ IsChunk a p ∧ bytes v c ≤ a.size ∧ c ≤ 2 ^ (i + v.shift) ∧ i + v.shift ≤ 63 := by
  obtain ⟨hc63, i, hi, hlen⟩ := h.cls p c hp
  obtain ⟨i', hi', hb, hle⟩ := sizeClass_ok h.shift hc63
  rw [hi] at hi'
  cases hi'
  have ha : v.arenas[i]? = some v.arenas[i] := List.getElem?_eq_getElem hlen
  obtain ⟨_, hsz, free, inv⟩ := h.arena i _ ha
  have hch : IsChunk v.arenas[i] p := (inv.part p).2 (.inr ⟨c, hp, hi⟩)
  have hmax : v.arenas[i].size ≤ ALLOC_MAX := by
    obtain ⟨q, hq, m, hm, _⟩ := hch
    obtain ⟨k, hk⟩ := List.mem_iff_getElem?.1 hq
    have := (inv.sizes k q hk).2
    omega
  refine ⟨i, _, hi, ha, hch, ?_, hle, hb⟩
  rw [hsz] at hmax ⊢
  have h1 := flexSize_enough h.shape hmax
  have h2 := Nat.mul_le_mul_left v.size hle
  unfold bytes exactSize
  omega

theorem VInv.frame {v : Varena} {mem mem' : Mem} {live : Nat → Option Nat} (h : VInv v mem live)
    (hm : ∀ (x : Nat), (∀ (p i : Nat) (a : Arena), liveIn v live i p → v.arenas[i]? = some a → ¬ (p ≤ x ∧ x < p + a.size)) → mem' x = mem x) : VInv v mem' live :=
  { h with
    arena := fun i a ha => by
      obtain ⟨h1, h2, free, inv⟩ := h.arena i a ha
      refine ⟨h1, h2, free, inv.frame ?_⟩
      intro c hc
      apply hm
      intro p j b hp hb hx
      obtain ⟨_, _, fb, ib⟩ := h.arena j b hb
      have hcc : IsChunk a c := (inv.part c).2 (.inl hc)
      have hpc : IsChunk b p := (ib.part p).2 (.inr hp)
      have hne : i ≠ j ∨ c ≠ p := by
        by_cases hij : i = j
        · subst hij
          refine .inr fun e => ?_
          subst e
          exact inv.excl c hc hp
        · exact .inl hij
      have h8 := inv.size8
      rcases h.chunk_apart ha hb hcc hpc hne with hx2 | hx2 <;> omega }

theorem liveIn_arenas (v : Varena) (as : List Arena) (live : Nat → Option Nat) (i p : Nat) : liveIn { v with arenas := as } live i p ↔ liveIn v live i p := Iff.rfl

/-! ## Finding the arena -/

theorem init_ok {v : Varena} (h : Shape v.align v.offset v.size) {n : Nat} (hn : 0 < n) : arenaInit v.align (exactSize v n) = .ok { chunks := 0, slabs := [], align := v.align, size := exactSize v n } := by
  have h8 := (shape_align8 h)
  have hs8 := flexSize_ge8 h hn
  have hd : exactSize v n % v.align = 0 := Nat.mod_eq_zero_of_dvd (flexSize_dvd h n)
  have hb : Bit.hasSingleBit 64 v.align = true := by
    have hsm := h.small
    obtain ⟨k, _, hk⟩ := h.pow
    exact (Props.C52_single 64 v.align (by omega)).2 ⟨k, hk⟩
  have e1 : max v.align 8 = v.align := by omega
  have e2 : max (exactSize v n) 8 = exactSize v n := by unfold exactSize; omega
  unfold arenaInit
  rw [e1, e2, if_pos ⟨hb, hd⟩, if_pos hd]

theorem VInv.push {v : Varena} {mem : Mem} {live : Nat → Option Nat} (h : VInv v mem live) {a : Arena} (ha : arenaInit v.align (exactSize v (2 ^ (v.arenas.length + v.shift))) = .ok a) :
    VInv { v with arenas := v.arenas ++ [a] } mem live ∧ a.slabs = [] := by
  have hpos := Nat.two_pow_pos (v.arenas.length + v.shift)
  have e := init_ok h.shape hpos
  have hi := inv_init ha mem
  rw [ha] at e
  cases e
  refine ⟨{
    shape := h.shape, shift := h.shift
    arena := ?_
    cls := fun p c hp => ?_
    cross := ?_ }, rfl⟩
  · intro i b hb
    dsimp only at hb
    rw [List.getElem?_append] at hb
    split at hb
    · exact h.arena i b hb
    · next hk =>
      have hk0 : i = v.arenas.length := by
        apply Classical.byContradiction
        intro hne
        rw [List.getElem?_eq_none (by simp only [List.length_singleton]; omega)] at hb
        cases hb
      subst hk0
      rw [Nat.sub_self] at hb
      simp at hb
      subst hb
      refine ⟨rfl, rfl, [], hi.1.live ?_⟩
      intro c
      refine iff_of_false ?_ id
      rintro ⟨n, hn, hcl⟩
      obtain ⟨_, j, hj, hlt⟩ := h.cls c n hn
      rw [show sizeClass v n = .ok v.arenas.length from hcl] at hj
      cases hj
      omega
  · obtain ⟨h1, i, h2, h3⟩ := h.cls p c hp
    refine ⟨h1, i, h2, ?_⟩
    simp only [List.length_append, List.length_singleton]
    omega
  · intro i j a b hij ha' hb r hr q hq
    dsimp only at ha' hb
    rw [List.getElem?_append] at ha' hb
    split at ha'
    · split at hb
      · exact h.cross i j a b hij ha' hb r hr q hq
      · exfalso
        have hb' := List.mem_of_getElem? hb
        rw [List.mem_singleton] at hb'
        subst hb'
        cases hq
    · exfalso
      have ha'' := List.mem_of_getElem? ha'
      rw [List.mem_singleton] at ha''
      subst ha''
      cases hr

theorem ok_bind {α β : Type} (x : α) (f : α → Out β) : (Out.ok x).bind f = f x := rfl

/-- What looking for an arena does. -/
structure GetDone (v : Varena) (mem : Mem) (live : Nat → Option Nat) (r : Nat → Bool) (i : Nat) (v' : Varena) (ok : Bool) : Prop where
  inv : VInv v' mem live
  same : ∃ extra, v' = { v with arenas := v.arenas ++ extra } ∧ ∀ a ∈ extra, a.slabs = []
  found : ok = true → i < v'.arenas.length
  fail : ok = false → ∃ j, r j = false
  old : i < v.arenas.length → v' = v ∧ ok = true

theorem getLoop_ok {mem : Mem} {live : Nat → Option Nat} (r : Nat → Bool) (i : Nat) (fuel : Nat) : ∀ {v : Varena}, VInv v mem live → i + v.shift ≤ 63 → i < v.arenas.length + fuel →
    ∃ v' ok, getLoop r i fuel v = .ok (v', ok) ∧ GetDone v mem live r i v' ok := by
  induction fuel with
  | zero =>
    intro v h hs hi
    exact ⟨v, true, rfl, h, ⟨[], by simp, by simp⟩, fun _ => by omega, nofun, fun _ => ⟨rfl, rfl⟩⟩
  | succ fuel ih =>
    intro v h hs hi
    rw [getLoop]
    by_cases hlt : i ≥ v.arenas.length
    · rw [if_pos hlt]
      by_cases hr : r v.arenas.length = true
      · rw [if_pos hr]
        have ho : oneShl (v.arenas.length + v.shift) = .ok (2 ^ (v.arenas.length + v.shift)) := by
          rw [oneShl, if_pos (by omega), Nat.one_shiftLeft]
        have ha := init_ok h.shape (n := 2 ^ (v.arenas.length + v.shift)) (Nat.two_pow_pos _)
        obtain ⟨hpush, hsl⟩ := h.push ha
        obtain ⟨v', ok, h1, h2⟩ := ih hpush hs (by simp only [List.length_append, List.length_singleton]; omega)
        refine ⟨v', ok, ?_, h2.inv, ?_, h2.found, h2.fail, fun hc => by omega⟩
        · rw [ho, ok_bind, ha, ok_bind]
          exact h1
        · obtain ⟨extra, he, hx⟩ := h2.same
          refine ⟨{ chunks := 0, slabs := [], align := v.align, size := exactSize v (2 ^ (v.arenas.length + v.shift)) } :: extra, ?_, List.forall_mem_cons.2 ⟨hsl, hx⟩⟩
          refine he.trans ?_
          dsimp only
          rw [List.append_assoc, List.singleton_append]
      · rw [if_neg hr]
        exact ⟨v, false, rfl, h, ⟨[], by simp, by simp⟩, nofun, fun _ => ⟨v.arenas.length, by simpa using hr⟩, fun hc => by omega⟩
    · rw [if_neg hlt]
      exact ⟨v, true, rfl, h, ⟨[], by simp, by simp⟩, fun _ => by omega, nofun, fun _ => ⟨rfl, rfl⟩⟩

theorem get_ok {v : Varena} {mem : Mem} {live : Nat → Option Nat} (h : VInv v mem live) (r : Nat → Bool) {count : Nat} (hc : count ≤ 2 ^ 63) :
    ∃ i v' ok, sizeClass v count = .ok i ∧ i + v.shift ≤ 63 ∧ count ≤ 2 ^ (i + v.shift) ∧ varenaGet v r count = .ok (v', if ok then some i else none) ∧ GetDone v mem live r i v' ok := by
  obtain ⟨i, h1, h2, h3⟩ := sizeClass_ok h.shift hc
  obtain ⟨v', ok, h4, h5⟩ := getLoop_ok r i (i + 1) h h2 (by omega)
  refine ⟨i, v', ok, h1, h2, h3, ?_, h5⟩
  rw [varenaGet, h1, ok_bind, h4, ok_bind]

theorem GetDone.used {v : Varena} {mem : Mem} {live : Nat → Option Nat} {r : Nat → Bool} {i : Nat} {v' : Varena} {ok : Bool} (h : GetDone v mem live r i v' ok) : used v' = used v := by
  obtain ⟨extra, rfl, hx⟩ := h.same
  unfold Spec.Alloc.used
  rw [List.flatMap_append]
  have : extra.flatMap (·.slabs) = [] := by
    rw [List.flatMap_eq_nil_iff]
    exact hx
  rw [this, List.append_nil]

/-! ## Allocating and freeing -/

theorem getElem?_set' {α : Type} {l : List α} {i j : Nat} {x y : α} (hi : i < l.length) (h : (l.set i x)[j]? = some y) : (j = i ∧ y = x) ∨ (j ≠ i ∧ l[j]? = some y) := by
  by_cases hij : j = i
  · subst hij
    rw [List.getElem?_set_self hi] at h
    cases h
    exact .inl ⟨rfl, rfl⟩
  · rw [List.getElem?_set_ne (Ne.symm hij)] at h
    exact .inr ⟨hij, h⟩

theorem mem_used {v : Varena} {i : Nat} {a : Arena} (h : v.arenas[i]? = some a) {r : Nat × Nat} (hr : r ∈ a.slabs) : r ∈ used v :=
  List.mem_flatMap.2 ⟨a, List.mem_of_getElem? h, hr⟩

/-- The memory of the live objects (the whole chunks). -/
def Owned (v : Varena) (live : Nat → Option Nat) (x : Nat) : Prop := ∃ p i a, liveIn v live i p ∧ v.arenas[i]? = some a ∧ p ≤ x ∧ x < p + a.size

structure AllocInDone (v : Varena) (mem : Mem) (live : Nat → Option Nat) (i count p : Nat) (st : VSt) : Prop where
  same : ∃ as, st.v = { v with arenas := as } ∧ as.length = v.arenas.length
  sizes : ∀ (j : Nat) (a : Arena), v.arenas[j]? = some a → ∃ a', st.v.arenas[j]? = some a' ∧ a'.size = a.size
  fresh : p ≠ 0
  dead : live p = none
  inv : VInv st.v st.mem (setCount live p (some count))
  mem : ∀ x, Owned v live x → st.mem x = mem x

theorem allocIn_ok {v : Varena} {mem : Mem} {live : Nat → Option Nat} (h : VInv v mem live) {s : Sys} (hs : Honest v.align (used v) s.slab) {i count : Nat} (hi : i < v.arenas.length)
    (hcl : sizeClass v count = .ok i) (hc : count ≤ 2 ^ 63) :
    ∃ p st, allocIn ⟨v, mem⟩ s i = .ok (p, st) ∧
      ((p = 0 ∧ st = ⟨v, mem⟩ ∧ NoSlab v s i ∧ (∀ a, v.arenas[i]? = some a → a.chunks = 0)) ∨
      (AllocInDone v mem live i count p st ∧ (∀ a c, v.arenas[i]? = some a → a.chunks = c → c ≠ 0 → p = c ∧ st.mem = mem))) := by
  have ha : v.arenas[i]? = some v.arenas[i] := List.getElem?_eq_getElem hi
  obtain ⟨hal, hsz, free, inv⟩ := h.arena i _ ha
  obtain ⟨p, a', mem', h1, h2⟩ := alloc_ok (r := s.slabs) inv (by rw [hsz]; exact flexSize_lt h.shape _) (used := used v) (fun r hr => mem_used ha hr) (by rw [hal]; exact hs)
  refine ⟨p, ⟨{ v with arenas := v.arenas.set i a' }, mem'⟩, ?_, ?_⟩
  · rw [allocIn]
    dsimp only
    rw [ha]
    dsimp only
    rw [h1]
    rfl
  rcases h2 with ⟨rfl, rfl, rfl, hfree, n, hsn, hn⟩ | ⟨hd, _, hhead⟩
  · left
    refine ⟨rfl, ?_, ?_, ?_⟩
    · rw [List.set_getElem_self]
    · exact ⟨_, n, ha, hsn, hn⟩
    · intro a ha2
      rw [ha] at ha2
      cases ha2
      subst hfree
      exact inv.chain
  · right
    obtain ⟨new, hslabs, hapart, hmem⟩ := hd.slabs
    have hcross : ∀ (j : Nat) (b : Arena), j ≠ i → v.arenas[j]? = some b → ∀ r ∈ a'.slabs, ∀ q ∈ b.slabs, Apart r.1 r.2 q.1 q.2 := by
      intro j b hj hb r hr q hq
      rw [hslabs] at hr
      rcases List.mem_append.1 hr with hr | hr
      · exact h.cross i j _ b (Ne.symm hj) ha hb r hr q hq
      · exact hapart r hr q (mem_used hb hq)
    have hmem2 : ∀ (j : Nat) (b : Arena) (c : Nat), v.arenas[j]? = some b → IsChunk b c → ∀ x, c ≤ x → x < c + b.size → mem' x = mem x := by
      intro j b c hb hcc x hx1 hx2
      apply hmem
      intro r hr hx
      obtain ⟨_, _, _, ib⟩ := h.arena j b hb
      obtain ⟨_, _, _, q, hq, hq1, hq2⟩ := isChunk_bounds ib hcc
      rcases hapart r hr q (mem_used hb hq) with h3 | h3 <;> omega
    have hdead : live p = none := by
      cases hlp : live p with
      | none => rfl
      | some c =>
        exfalso
        obtain ⟨j, b, hj, hb, hch, _⟩ := h.object hlp
        by_cases hji : j = i
        · subst hji
          exact hd.dead ⟨c, hlp, hj⟩
        · obtain ⟨_, _, _, ib⟩ := h.arena j b hb
          obtain ⟨_, _, _, q, hq, hq1, hq2⟩ := isChunk_bounds ib hch
          obtain ⟨f', inv'⟩ := hd.inv
          obtain ⟨_, _, _, r, hr, hr1, hr2⟩ := isChunk_bounds inv' hd.chunk
          have := ib.size8
          have := inv'.size8
          rcases hcross j b hji hb r hr q hq with h3 | h3 <;> omega
    have hlive : ∀ j x, liveIn v (setCount live p (some count)) j x ↔ liveIn v live j x ∨ (x = p ∧ j = i) := by
      intro j x
      unfold liveIn setCount
      by_cases hx : x = p
      · subst hx
        constructor
        · rintro ⟨c, h3, h4⟩
          rw [if_pos rfl] at h3
          cases h3
          rw [hcl] at h4
          cases h4
          exact .inr ⟨rfl, rfl⟩
        · rintro (⟨c, h3, _⟩ | ⟨_, rfl⟩)
          · rw [hdead] at h3
            cases h3
          · exact ⟨count, if_pos rfl, hcl⟩
      · simp [hx]
    refine ⟨⟨⟨_, rfl, List.length_set⟩, ?_, hd.fresh, hdead, ?_, ?_⟩, ?_⟩
    · intro j b hb
      by_cases hji : j = i
      · subst hji
        rw [ha] at hb
        cases hb
        exact ⟨a', List.getElem?_set_self hi, hd.size⟩
      · exact ⟨b, by dsimp only; rw [List.getElem?_set_ne (Ne.symm hji)]; exact hb, rfl⟩
    · exact {
        shape := h.shape, shift := h.shift
        arena := fun j b hb => by
          rcases getElem?_set' hi hb with ⟨rfl, rfl⟩ | ⟨hj, hb2⟩
          · obtain ⟨f', inv'⟩ := hd.inv
            refine ⟨hd.align.trans hal, hd.size.trans hsz, f', inv'.live ?_⟩
            intro x
            rw [liveIn_arenas, hlive]
            simp
          · obtain ⟨b1, b2, fb, ib⟩ := h.arena j b hb2
            refine ⟨b1, b2, fb, (ib.frame ?_).live ?_⟩
            · intro c hc'
              exact hmem2 j b c hb2 ((ib.part c).2 (.inl hc')) c (Nat.le_refl _) (by have := ib.size8; omega)
            · intro x
              rw [liveIn_arenas, hlive]
              simp [hj]
        cls := fun q c hq => by
          dsimp only
          rw [List.length_set]
          unfold setCount at hq
          split at hq
          · cases hq
            exact ⟨hc, i, hcl, hi⟩
          · exact h.cls q c hq
        cross := fun j k b d hjk hb hd' r hr q hq => by
          rcases getElem?_set' hi hb with ⟨rfl, rfl⟩ | ⟨hj, hb2⟩ <;> rcases getElem?_set' hi hd' with ⟨rfl, rfl⟩ | ⟨hk, hd2⟩
          · exact absurd rfl hjk
          · exact hcross k d hk hd2 r hr q hq
          · exact (hcross j b hj hb2 q hq r hr).symm
          · exact h.cross j k b d hjk hb2 hd2 r hr q hq }
    · rintro x ⟨q, j, b, hq, hb, hx1, hx2⟩
      obtain ⟨_, _, _, ib⟩ := h.arena j b hb
      exact hmem2 j b q hb ((ib.part q).2 (.inr hq)) x hx1 hx2
    · intro a c ha2 hch hc0
      rw [ha] at ha2
      cases ha2
      cases free with
      | nil => exact absurd (hch.symm.trans inv.chain) hc0
      | cons d l =>
        rw [← hch, show v.arenas[i].chunks = d from inv.chain.1]
        exact hhead d l rfl

structure FreeInDone (v : Varena) (mem : Mem) (live : Nat → Option Nat) (i p : Nat) (st : VSt) : Prop where
  same : ∃ as, st.v = { v with arenas := as } ∧ as.length = v.arenas.length
  inv : VInv st.v st.mem (setCount live p none)
  mem : ∀ x, x ≠ p → st.mem x = mem x
  head : ∃ a, st.v.arenas[i]? = some a ∧ a.chunks = p

theorem freeIn_ok {v : Varena} {mem : Mem} {live : Nat → Option Nat} (h : VInv v mem live) {p c i : Nat} (hp : live p = some c) (hcl : sizeClass v c = .ok i) :
    ∃ st, freeIn ⟨v, mem⟩ i p = .ok st ∧ FreeInDone v mem live i p st := by
  obtain ⟨i', a, hi', ha, hch, _⟩ := h.object hp
  rw [hcl] at hi'
  cases hi'
  have hi : i < v.arenas.length := (List.getElem?_eq_some_iff.1 ha).1
  obtain ⟨hal, hsz, free, inv⟩ := h.arena i _ ha
  have hinv := inv_free inv ⟨c, hp, hcl⟩
  have hmem : ∀ x, x ≠ p → (arenaFree a mem p).2 x = mem x := fun x hx => if_neg hx
  have hlive : ∀ j x, liveIn v (setCount live p none) j x ↔ liveIn v live j x ∧ x ≠ p := by
    intro j x
    unfold liveIn setCount
    by_cases hx : x = p
    · subst hx; simp
    · simp [hx]
  refine ⟨⟨{ v with arenas := v.arenas.set i (arenaFree a mem p).1 }, (arenaFree a mem p).2⟩, ?_, ⟨_, rfl, List.length_set⟩, ?_, hmem, ⟨_, List.getElem?_set_self hi, rfl⟩⟩
  · rw [freeIn]
    dsimp only
    rw [ha]
  · exact {
      shape := h.shape, shift := h.shift
      arena := fun j b hb => by
        rcases getElem?_set' hi hb with ⟨rfl, rfl⟩ | ⟨hj, hb2⟩
        · refine ⟨hal, hsz, _, hinv.live ?_⟩
          intro x
          rw [liveIn_arenas, hlive]
        · obtain ⟨b1, b2, fb, ib⟩ := h.arena j b hb2
          refine ⟨b1, b2, fb, (ib.frame ?_).live ?_⟩
          · intro d hd
            apply hmem
            rintro rfl
            have h8 := ib.size8
            have := inv.size8
            rcases h.chunk_apart hb2 ha ((ib.part d).2 (.inl hd)) hch (.inl hj) with h3 | h3 <;> omega
          · intro x
            rw [liveIn_arenas, hlive]
            constructor
            · exact fun hx => hx.1
            · intro hx
              refine ⟨hx, ?_⟩
              rintro rfl
              obtain ⟨c', hc1, hc2⟩ := hx
              rw [hp] at hc1
              cases hc1
              rw [hcl] at hc2
              cases hc2
              exact hj rfl
      cls := fun q d hq => by
        dsimp only
        rw [List.length_set]
        unfold setCount at hq
        split at hq
        · cases hq
        · exact h.cls q d hq
      cross := fun j k b d hjk hb hd' r hr q hq => by
        rcases getElem?_set' hi hb with ⟨rfl, rfl⟩ | ⟨hj, hb2⟩ <;> rcases getElem?_set' hi hd' with ⟨rfl, rfl⟩ | ⟨hk, hd2⟩
        · exact absurd rfl hjk
        · exact h.cross j k a d hjk ha hd2 r hr q hq
        · exact h.cross j k b a hjk hb2 ha r hr q hq
        · exact h.cross j k b d hjk hb2 hd2 r hr q hq }

/-! ## Resizing -/

theorem VInv.recount {v : Varena} {mem : Mem} {live : Nat → Option Nat} (h : VInv v mem live) {p c d i : Nat} (hp : live p = some c) (hc : sizeClass v c = .ok i) (hd : sizeClass v d = .ok i) (hd63 : d ≤ 2 ^ 63) :
    VInv v mem (setCount (setCount live p none) p (some d)) := by
  have hlive : ∀ j x, liveIn v (setCount (setCount live p none) p (some d)) j x ↔ liveIn v live j x := by
    intro j x
    unfold liveIn setCount
    by_cases hx : x = p
    · subst hx
      simp [hp, hc, hd]
    · simp [hx]
  exact {
    shape := h.shape, shift := h.shift, cross := h.cross
    arena := fun j b hb => by
      obtain ⟨b1, b2, fb, ib⟩ := h.arena j b hb
      exact ⟨b1, b2, fb, ib.live (hlive j)⟩
    cls := fun q e hq => by
      unfold setCount at hq
      split at hq
      · cases hq
        obtain ⟨_, k, hk, hlt⟩ := h.cls p c hp
        rw [hc] at hk
        cases hk
        exact ⟨hd63, i, hd, hlt⟩
      · exact h.cls q e hq }

structure MoveDone (v : Varena) (mem : Mem) (live : Nat → Option Nat) (p old new q : Nat) (st : VSt) : Prop where
  same : ∃ as, st.v = { v with arenas := as } ∧ as.length = v.arenas.length
  fresh : q ≠ 0
  dead : q = p ∨ live q = none
  inv : VInv st.v st.mem (setCount (setCount live p none) q (some new))
  copied : ∀ k, k < bytes v (min old new) → st.mem (q + k) = mem (p + k)
  mem : ∀ x, Owned v (setCount live p none) x → st.mem x = mem x

theorem bytes_min (v : Varena) (a b : Nat) : bytes v (min a b) = min (bytes v a) (bytes v b) := by
  unfold bytes
  rcases Nat.le_total a b with h | h
  · rw [Nat.min_eq_left h]
    have := Nat.mul_le_mul_left v.size h
    omega
  · rw [Nat.min_eq_right h]
    have := Nat.mul_le_mul_left v.size h
    omega

theorem move_ok {v : Varena} {mem : Mem} {live : Nat → Option Nat} (h : VInv v mem live) {s : Sys} (hs : Honest v.align (used v) s.slab) {p old new i j : Nat} (hi : i < v.arenas.length)
    (hp : live p = some old) (hj : sizeClass v old = .ok j) (hcl : sizeClass v new = .ok i) (hc : new ≤ 2 ^ 63) :
    ∃ q st, moveObj ⟨v, mem⟩ s p i j = .ok (q, st) ∧
      ((q = 0 ∧ st = ⟨v, mem⟩ ∧ NoSlab v s i) ∨ MoveDone v mem live p old new q st) := by
  have ha : v.arenas[i]? = some v.arenas[i] := List.getElem?_eq_getElem hi
  obtain ⟨j', b, hj', hb, hch, hbytes, _⟩ := h.object hp
  rw [hj] at hj'
  cases hj'
  rw [moveObj]
  dsimp only
  rw [ha, hb]
  dsimp only
  by_cases hij : i = j
  · subst hij
    rw [if_pos rfl]
    refine ⟨p, ⟨v, mem⟩, rfl, .inr ⟨⟨v.arenas, rfl, rfl⟩, ?_, .inl rfl, h.recount hp hj hcl hc, fun _ _ => rfl, fun _ _ => rfl⟩⟩
    obtain ⟨_, _, _, ib⟩ := h.arena i b hb
    exact (isChunk_bounds ib hch).1
  · rw [if_neg hij]
    obtain ⟨q, ⟨v1, mem1⟩, h1, h2⟩ := allocIn_ok h hs hi hcl hc
    rw [h1, ok_bind]
    dsimp only
    rcases h2 with ⟨rfl, hst, hf, _⟩ | ⟨hd, _⟩
    · rw [if_pos rfl]
      exact ⟨0, _, rfl, .inl ⟨rfl, hst, hf⟩⟩
    · rw [if_neg hd.fresh]
      obtain ⟨as, hv1, hlen⟩ := hd.same
      dsimp only at hv1
      have hcv : ∀ n, sizeClass v1 n = sizeClass v n := by intro n; rw [hv1]; rfl
      obtain ⟨a1, ha1, hsz1⟩ := hd.sizes i _ ha
      obtain ⟨b1, hb1, hszb1⟩ := hd.sizes j b hb
      have hqp : q ≠ p := by
        rintro rfl
        rw [hd.dead] at hp
        cases hp
      have hq1 : setCount live q (some new) q = some new := if_pos rfl
      have hp1 : setCount live q (some new) p = some old := (if_neg (Ne.symm hqp)).trans hp
      have hlq : liveIn v1 (setCount live q (some new)) i q := ⟨new, hq1, (hcv new).trans hcl⟩
      have hlp : liveIn v1 (setCount live q (some new)) j p := ⟨old, hp1, (hcv old).trans hj⟩
      have hinv1 : VInv v1 (copy mem1 q p (min v.arenas[i].size b.size)) (setCount live q (some new)) := by
        refine hd.inv.frame ?_
        intro x hx
        refine if_neg fun hx2 => hx q i a1 hlq ha1 ⟨hx2.1, ?_⟩
        omega
      obtain ⟨st, h3, h4⟩ := freeIn_ok hinv1 hp1 ((hcv old).trans hj)
      refine ⟨q, st, ?_, .inr ⟨?_, hd.fresh, .inr hd.dead, ?_, ?_, ?_⟩⟩
      · rw [h3]
        rfl
      · obtain ⟨as', hst, hlen'⟩ := h4.same
        refine ⟨as', by rw [hst, hv1], ?_⟩
        rw [hlen', hv1]
        exact hlen
      · have e : setCount (setCount live q (some new)) p none = setCount (setCount live p none) q (some new) := by
          funext x
          unfold setCount
          by_cases hxp : x = p
          · subst hxp
            rw [if_pos rfl, if_neg (Ne.symm hqp), if_pos rfl]
          · rw [if_neg hxp, if_neg hxp]
        rw [← e]
        exact h4.inv
      · intro k hk
        rw [bytes_min] at hk
        have hbq : bytes v new ≤ v.arenas[i].size := by
          obtain ⟨i2, a2, hi2, ha2, _, hby, _⟩ := hd.inv.object hq1
          rw [(hcv new).trans hcl] at hi2
          cases hi2
          rw [ha1] at ha2
          cases ha2
          have : bytes v1 new = bytes v new := by rw [hv1]; rfl
          dsimp only at hby
          omega
        have hsep : Apart q a1.size p b1.size := by
          obtain ⟨_, _, _, i1⟩ := hd.inv.arena i a1 ha1
          obtain ⟨_, _, _, i2⟩ := hd.inv.arena j b1 hb1
          exact hd.inv.chunk_apart ha1 hb1 ((i1.part q).2 (.inr hlq)) ((i2.part p).2 (.inr hlp)) (.inl hij)
        obtain ⟨_, _, _, ib⟩ := h.arena j b hb
        have hb8 := ib.size8
        have hne : q + k ≠ p := by
          rcases hsep with h5 | h5 <;> omega
        rw [h4.mem _ hne, copy, if_pos ⟨by omega, by omega⟩, show p + (q + k - q) = p + k by omega]
        exact hd.mem _ ⟨p, j, b, ⟨old, hp, hj⟩, hb, by omega, by omega⟩
      · rintro x ⟨o, l, e, ho, he, hx1, hx2⟩
        obtain ⟨c, hc1, hc2⟩ := ho
        have hop : o ≠ p := by
          rintro rfl
          rw [setCount, if_pos rfl] at hc1
          cases hc1
        have ho' : live o = some c := by rwa [setCount, if_neg hop] at hc1
        have hoq : o ≠ q := by
          rintro rfl
          rw [hd.dead] at ho'
          cases ho'
        obtain ⟨e1, he1, hsze1⟩ := hd.sizes l e he
        obtain ⟨_, _, _, i1⟩ := hd.inv.arena i a1 ha1
        obtain ⟨_, _, _, i2⟩ := hd.inv.arena j b1 hb1
        obtain ⟨_, _, _, i3⟩ := hd.inv.arena l e1 he1
        have hlo : liveIn v1 (setCount live q (some new)) l o := ⟨c, (if_neg hoq).trans ho', (hcv c).trans hc2⟩
        have s1 := hd.inv.chunk_apart he1 ha1 ((i3.part o).2 (.inr hlo)) ((i1.part q).2 (.inr hlq)) (.inr hoq)
        have s2 := hd.inv.chunk_apart he1 hb1 ((i3.part o).2 (.inr hlo)) ((i2.part p).2 (.inr hlp)) (.inr hop)
        have := i2.size8
        have hxp : x ≠ p := by rcases s2 with h5 | h5 <;> omega
        rw [h4.mem x hxp, copy, if_neg (by rcases s1 with h5 | h5 <;> omega)]
        exact hd.mem x ⟨o, l, e, ⟨c, ho', hc2⟩, he, hx1, hx2⟩

/-! ## The operations -/

theorem owned_of_live {v : Varena} {mem : Mem} {live : Nat → Option Nat} (h : VInv v mem live) {p c : Nat} (hp : live p = some c) {k : Nat} (hk : k < bytes v c) : Owned v live (p + k) := by
  obtain ⟨i, a, h1, h2, _, h4, _⟩ := h.object hp
  exact ⟨p, i, a, ⟨c, hp, h1⟩, h2, by omega, by omega⟩

theorem GetDone.shift {v : Varena} {mem : Mem} {live : Nat → Option Nat} {r : Nat → Bool} {i : Nat} {v' : Varena} {ok : Bool} (h : GetDone v mem live r i v' ok) :
    (∀ n, sizeClass v' n = sizeClass v n) ∧ (∀ n, bytes v' n = bytes v n) ∧ v'.align = v.align ∧ v'.shift = v.shift := by
  obtain ⟨extra, rfl, _⟩ := h.same
  exact ⟨fun _ => rfl, fun _ => rfl, rfl, rfl⟩

theorem GetDone.arena {v : Varena} {mem : Mem} {live : Nat → Option Nat} {r : Nat → Bool} {i : Nat} {v' : Varena} {ok : Bool} (h : GetDone v mem live r i v' ok) {j : Nat} {a : Arena} (ha : v.arenas[j]? = some a) : v'.arenas[j]? = some a := by
  obtain ⟨extra, rfl, _⟩ := h.same
  dsimp only
  rw [List.getElem?_append_left (List.getElem?_eq_some_iff.1 ha).1]
  exact ha

theorem GetDone.owned {v : Varena} {mem : Mem} {live live' : Nat → Option Nat} {r : Nat → Bool} {i : Nat} {v' : Varena} {ok : Bool} (h : GetDone v mem live r i v' ok) {x : Nat} (ho : Owned v live' x) : Owned v' live' x := by
  obtain ⟨p, j, a, ⟨c, h1, h2⟩, h3, h4⟩ := ho
  exact ⟨p, j, a, ⟨c, h1, (h.shift.1 c).trans h2⟩, h.arena h3, h4⟩

theorem realloc_ok {v : Varena} {mem : Mem} {live : Nat → Option Nat} (h : VInv v mem live) {s : Sys} (hs : Honest v.align (used v) s.slab) {p old new : Nat} (hp : live p = some old) (hc : new ≤ 2 ^ 63) :
    ∃ q st, varenaRealloc ⟨v, mem⟩ s p old new = .ok (q, st) ∧
      ((q = 0 ∧ st.mem = mem ∧ VInv st.v mem live ∧ (∃ as, st.v = { v with arenas := as }) ∧ ((∃ j, s.grow j = false) ∨ ∃ i, sizeClass v new = .ok i ∧ NoSlab st.v s i)) ∨
       ((∃ as, st.v = { v with arenas := as }) ∧ q ≠ 0 ∧ (q = p ∨ live q = none) ∧ VInv st.v st.mem (setCount (setCount live p none) q (some new)) ∧
        Same (bytes v (min old new)) mem p st.mem q ∧ ∀ x, Owned v (setCount live p none) x → st.mem x = mem x)) := by
  obtain ⟨i, v1, ok1, hi, hi63, hile, hget1, hd1⟩ := get_ok h s.grow hc
  have hp2 := hd1.inv.cls p old hp
  obtain ⟨j, v2, ok2, hj, hj63, hjle, hget2, hd2⟩ := get_ok hd1.inv s.grow hp2.1
  have hjlt : j < v1.arenas.length := by
    obtain ⟨j', hj', hlt⟩ := hp2.2
    rw [hj] at hj'
    cases hj'
    exact hlt
  obtain ⟨rfl, rfl⟩ := hd2.old hjlt
  have hsame : ∃ as, v2 = { v with arenas := as } := by
    obtain ⟨extra, he, _⟩ := hd1.same
    exact ⟨_, he⟩
  rw [varenaRealloc, hget1, ok_bind]
  dsimp only
  rw [hget2, ok_bind]
  dsimp only
  cases ok1 with
  | false =>
    exact ⟨0, ⟨v2, mem⟩, rfl, .inl ⟨rfl, rfl, hd1.inv, hsame, .inl (hd1.fail rfl)⟩⟩
  | true =>
    rw [if_pos rfl, if_pos rfl]
    obtain ⟨q, st, h1, h2⟩ := move_ok hd1.inv (s := s) (by rw [hd1.used, hd1.shift.2.2.1]; exact hs) (hd1.found rfl) hp hj ((hd1.shift.1 new).trans hi) hc
    refine ⟨q, st, h1, ?_⟩
    rcases h2 with ⟨rfl, rfl, hn⟩ | hm
    · exact .inl ⟨rfl, rfl, hd1.inv, hsame, .inr ⟨i, hi, hn⟩⟩
    · right
      refine ⟨?_, hm.fresh, hm.dead, hm.inv, ?_, ?_⟩
      · obtain ⟨as, has, _⟩ := hm.same
        obtain ⟨as', has'⟩ := hsame
        exact ⟨as, by rw [has, has']⟩
      · intro k hk
        exact hm.copied k (by rw [hd1.shift.2.1]; exact hk)
      · exact fun x hx => hm.mem x (hd1.owned hx)

theorem alloc_done {v : Varena} {mem : Mem} {live : Nat → Option Nat} (h : VInv v mem live) {s : Sys} (hs : Honest v.align (used v) s.slab) {count : Nat} (hc : count ≤ 2 ^ 63) :
    ∃ p st, varenaAlloc ⟨v, mem⟩ s count = .ok (p, st) ∧ (∃ as, st.v = { v with arenas := as }) ∧ (∀ x, Owned v live x → st.mem x = mem x) ∧
      ((p = 0 ∧ VInv st.v st.mem live ∧ ((∃ j, s.grow j = false) ∨ ∃ i, sizeClass v count = .ok i ∧ NoSlab st.v s i)) ∨
       (p ≠ 0 ∧ live p = none ∧ VInv st.v st.mem (setCount live p (some count)))) := by
  obtain ⟨i, v1, ok1, hi, hi63, hile, hget1, hd1⟩ := get_ok h s.grow hc
  have hsame : ∃ as, v1 = { v with arenas := as } := by
    obtain ⟨extra, he, _⟩ := hd1.same
    exact ⟨_, he⟩
  rw [varenaAlloc, hget1, ok_bind]
  cases ok1 with
  | false => exact ⟨0, ⟨v1, mem⟩, rfl, hsame, fun _ _ => rfl, .inl ⟨rfl, hd1.inv, .inl (hd1.fail rfl)⟩⟩
  | true =>
    rw [if_pos rfl]
    obtain ⟨p, st, h1, h2⟩ := allocIn_ok hd1.inv (s := s) (by rw [hd1.used, hd1.shift.2.2.1]; exact hs) (hd1.found rfl) ((hd1.shift.1 count).trans hi) hc
    refine ⟨p, st, h1, ?_⟩
    rcases h2 with ⟨rfl, rfl, hn, _⟩ | ⟨hm, _⟩
    · exact ⟨hsame, fun _ _ => rfl, .inl ⟨rfl, hd1.inv, .inr ⟨i, hi, hn⟩⟩⟩
    · refine ⟨?_, fun x hx => hm.mem x (hd1.owned hx), .inr ⟨hm.fresh, hm.dead, hm.inv⟩⟩
      obtain ⟨as, has, _⟩ := hm.same
      obtain ⟨as', has'⟩ := hsame
      exact ⟨as, by rw [has, has']⟩

theorem free_done {v : Varena} {mem : Mem} {live : Nat → Option Nat} (h : VInv v mem live) (s : Sys) {p c : Nat} (hp : live p = some c) :
    ∃ st i, varenaFree ⟨v, mem⟩ s p c = .ok st ∧ (∃ as, st.v = { v with arenas := as }) ∧ VInv st.v st.mem (setCount live p none) ∧ (∀ x, Owned v (setCount live p none) x → st.mem x = mem x) ∧
      sizeClass v c = .ok i ∧ ∃ a, st.v.arenas[i]? = some a ∧ a.chunks = p := by
  have hp2 := h.cls p c hp
  obtain ⟨j, v1, ok1, hj, hj63, hjle, hget1, hd1⟩ := get_ok h s.grow hp2.1
  have hjlt : j < v.arenas.length := by
    obtain ⟨j', hj', hlt⟩ := hp2.2
    rw [hj] at hj'
    cases hj'
    exact hlt
  obtain ⟨rfl, rfl⟩ := hd1.old hjlt
  obtain ⟨st, h1, h2⟩ := freeIn_ok h hp hj
  refine ⟨st, j, ?_, ?_, h2.inv, ?_, hj, h2.head⟩
  · rw [varenaFree, hget1, ok_bind, if_pos rfl]
    exact h1
  · obtain ⟨as, has, _⟩ := h2.same
    exact ⟨as, has⟩
  · rintro x ⟨o, l, e, ⟨d, hd, hcl⟩, he, hx1, hx2⟩
    apply h2.mem
    rintro rfl
    have hop : o ≠ x := by
      rintro rfl
      rw [setCount, if_pos rfl] at hd
      cases hd
    have hlo : live o = some d := by rwa [setCount, if_neg hop] at hd
    obtain ⟨_, b, hj2, hb, hch, _⟩ := h.object hp
    obtain ⟨_, _, _, ib⟩ := h.arena _ b hb
    obtain ⟨_, _, _, ie⟩ := h.arena _ e he
    have := ib.size8
    rcases h.chunk_apart he hb ((ie.part o).2 (.inr ⟨d, hlo, hcl⟩)) hch (.inr hop) with h5 | h5 <;> omega

theorem vinv_clear {v : Varena} {mem : Mem} {live : Nat → Option Nat} (h : VInv v mem live) : VInv (varenaClear v) mem (fun _ => none) := by
  have hslabs : ∀ (j : Nat) (a : Arena), (varenaClear v).arenas[j]? = some a → ∃ b, v.arenas[j]? = some b ∧ a = arenaClear b := by
    intro j a ha
    rw [varenaClear] at ha
    dsimp only at ha
    rw [List.getElem?_map] at ha
    cases hv : v.arenas[j]? with
    | none => rw [hv] at ha; cases ha
    | some b => rw [hv] at ha; cases ha; exact ⟨b, rfl, rfl⟩
  exact {
    shape := h.shape, shift := h.shift
    arena := fun i a ha => by
      obtain ⟨b, hb, rfl⟩ := hslabs i a ha
      obtain ⟨h1, h2, free, inv⟩ := h.arena i b hb
      refine ⟨h1, h2, [], (inv_clear inv mem).live ?_⟩
      rintro c
      refine iff_of_false ?_ id
      rintro ⟨n, hn, _⟩
      cases hn
    cls := fun p c hp => by cases hp
    cross := fun i j a b hij ha hb r hr => by
      obtain ⟨b', hb', rfl⟩ := hslabs i a ha
      cases hr }

theorem vinit_ok {align offset size : Nat} (h : Shape align offset size) (mem : Mem) : ∃ v, varenaInit align offset size = .ok v ∧ VInv v mem (fun _ => none) ∧ v.arenas = [] ∧ v.align = align ∧ v.offset = offset ∧ v.size = size := by
  have hsm := h.small
  have hf : flexSize align offset size 1 ≤ 2 ^ 62 := by
    rw [flexSize_eq h]
    have := Nat.div_mul_le_self (min (size * 1 + (offset + align - 1)) (M - 1)) align
    have := (shape_align8 h)
    omega
  have hlt : (flexSize align offset size 1 - offset + size - 1) / size - 1 < 2 ^ 63 := by
    have := Nat.div_le_self (flexSize align offset size 1 - offset + size - 1) size
    omega
  obtain ⟨k, hk, _, hk2⟩ := width_ok (Nat.lt_trans hlt (by decide))
  refine ⟨{ align := align, offset := offset, size := size, shift := k, arenas := [] }, ?_, ?_, rfl, rfl, rfl, rfl⟩
  · rw [varenaInit, hk, ok_bind]
  · exact {
      shape := h, shift := hk2 63 hlt
      arena := fun i a ha => by simp at ha
      cls := fun p c hp => by cases hp
      cross := fun i j a b hij ha => by simp at ha }

end Verif.Alloc
