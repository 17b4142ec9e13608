import Verif.Spec.List
/-! # Lemmas about linked lists -/
namespace Verif.Lists
open Verif Verif.Spec.Lists

theorem read_write (g : Graph) (s w : Slot) (v : Nat) : read (write g s v) w = if w = s then v else read g w := by
  cases s <;> cases w <;> simp [read, write]

theorem read_write_eq (g : Graph) (s : Slot) (v : Nat) : read (write g s v) s = v := by rw [read_write, if_pos rfl]

theorem read_write_ne {g : Graph} {s w : Slot} {v : Nat} (h : w ≠ s) : read (write g s v) w = read g w := by rw [read_write, if_neg h]

/-- Following the pointers from `s` passes `xs` and ends in `t`. -/
def Seg (g : Graph) : Slot → List Nat → Slot → Prop
  | s, [], t => s = t
  | s, x :: xs, t => read g s = x ∧ x ≠ 0 ∧ Seg g (.next x) xs t

/-- The last slot. -/
def lastSlot (s : Slot) : List Nat → Slot
  | [] => s
  | x :: xs => lastSlot (.next x) xs

/-- The slots that are read on the way. -/
def slots (s : Slot) : List Nat → List Slot
  | [] => []
  | x :: xs => s :: slots (.next x) xs

theorem seg_last {g : Graph} {s t : Slot} {xs : List Nat} (h : Seg g s xs t) : t = lastSlot s xs := by
  induction xs generalizing s with
  | nil => exact h.symm
  | cons x xs ih => exact ih h.2.2

theorem seg_frame {g g' : Graph} {s t : Slot} {xs : List Nat} (h : Seg g s xs t) (hf : ∀ w ∈ slots s xs, read g' w = read g w) : Seg g' s xs t := by
  induction xs generalizing s with
  | nil => exact h
  | cons x xs ih => exact ⟨(hf s (List.mem_cons_self ..)).trans h.1, h.2.1, ih h.2.2 fun w hw => hf w (List.mem_cons_of_mem _ hw)⟩

theorem seg_append {g : Graph} {s t : Slot} {a b : List Nat} : Seg g s (a ++ b) t ↔ Seg g s a (lastSlot s a) ∧ Seg g (lastSlot s a) b t := by
  induction a generalizing s with
  | nil => exact ⟨fun h => ⟨rfl, h⟩, fun h => h.2⟩
  | cons x a ih =>
    constructor
    · intro h
      have := (ih (s := .next x)).1 h.2.2
      exact ⟨⟨h.1, h.2.1, this.1⟩, this.2⟩
    · intro h
      exact ⟨h.1.1, h.1.2.1, (ih (s := .next x)).2 ⟨h.1.2.2, h.2⟩⟩

theorem lastSlot_append (s : Slot) (a b : List Nat) : lastSlot s (a ++ b) = lastSlot (lastSlot s a) b := by
  induction a generalizing s with
  | nil => rfl
  | cons x a ih => exact ih _

theorem mem_slots {s w : Slot} {xs : List Nat} (h : w ∈ slots s xs) : w = s ∨ ∃ x ∈ xs, w = .next x := by
  induction xs generalizing s with
  | nil => cases h
  | cons x xs ih =>
    rcases List.mem_cons.1 h with h | h
    · exact .inl h
    · right
      rcases ih h with rfl | ⟨y, hy, rfl⟩
      · exact ⟨x, List.mem_cons_self .., rfl⟩
      · exact ⟨y, List.mem_cons_of_mem _ hy, rfl⟩

theorem lastSlot_mem (s : Slot) (xs : List Nat) : lastSlot s xs = s ∨ ∃ x ∈ xs, lastSlot s xs = .next x := by
  induction xs generalizing s with
  | nil => exact .inl rfl
  | cons x xs ih =>
    right
    rcases ih (.next x) with h | ⟨y, hy, h⟩
    · exact ⟨x, List.mem_cons_self .., h⟩
    · exact ⟨y, List.mem_cons_of_mem _ hy, h⟩

theorem lastSlot_cons (s : Slot) (x : Nat) (xs : List Nat) : ∃ y ∈ x :: xs, lastSlot s (x :: xs) = .next y := by
  rcases lastSlot_mem (.next x) xs with h | ⟨y, hy, h⟩
  · exact ⟨x, List.mem_cons_self .., h⟩
  · exact ⟨y, List.mem_cons_of_mem _ hy, h⟩

theorem last_not_mem {s : Slot} {xs : List Nat} (hn : xs.Nodup) (hs : ∀ x ∈ xs, s ≠ .next x) : lastSlot s xs ∉ slots s xs := by
  induction xs generalizing s with
  | nil => intro h; cases h
  | cons x xs ih =>
    have hn' := List.nodup_cons.1 hn
    intro h
    rcases List.mem_cons.1 h with h | h
    · obtain ⟨y, hy, he⟩ := lastSlot_cons s x xs
      exact hs y hy (h.symm.trans he)
    · refine ih hn'.2 ?_ h
      intro y hy he
      cases he
      exact hn'.1 hy

/-- The slots of a list. -/
def Own (s : Slot) (xs : List Nat) (w : Slot) : Prop := w = s ∨ ∃ x ∈ xs, w = .next x

theorem own_slots {s w : Slot} {xs : List Nat} (h : w ∈ slots s xs) : Own s xs w := mem_slots h

theorem own_last (s : Slot) (xs : List Nat) : Own s xs (lastSlot s xs) := lastSlot_mem s xs

theorem seg_insert {g : Graph} {s t : Slot} {a b : List Nat} {x : Nat} (h : Seg g s (a ++ b) t) (h0 : read g t = 0) (nd : (a ++ b).Nodup) (hs : ∀ y ∈ a ++ b, s ≠ .next y)
    (hx : x ≠ 0) (hxm : x ∉ a ++ b) (hsx : s ≠ .next x) :
    Seg (write (write g (.next x) (read g (lastSlot s a))) (lastSlot s a) x) s (a ++ x :: b) (if b = [] then .next x else t) ∧
    read (write (write g (.next x) (read g (lastSlot s a))) (lastSlot s a) x) (if b = [] then .next x else t) = 0 ∧
    (read (write (write g (.next x) (read g (lastSlot s a))) (lastSlot s a) x) (.next x) ≠ 0 ↔ b ≠ []) := by
  obtain ⟨ha, hb⟩ := seg_append.1 h
  have hcx : lastSlot s a ≠ .next x := by
    rcases lastSlot_mem s a with e | ⟨y, hy, e⟩
    · rw [e]; exact hsx
    · rw [e]
      intro he
      cases he
      exact hxm (List.mem_append.2 (.inl hy))
  have nda : a.Nodup := (List.nodup_append.1 nd).1
  have ndab := (List.nodup_append.1 nd).2.2
  have hrx : read (write (write g (.next x) (read g (lastSlot s a))) (lastSlot s a) x) (.next x) = read g (lastSlot s a) := by
    rw [read_write_ne (Ne.symm hcx), read_write_eq]
  have hframe : ∀ w, w ≠ lastSlot s a → w ≠ .next x → read (write (write g (.next x) (read g (lastSlot s a))) (lastSlot s a) x) w = read g w := by
    intro w h1 h2
    rw [read_write_ne h1, read_write_ne h2]
  have hsa : Seg (write (write g (.next x) (read g (lastSlot s a))) (lastSlot s a) x) s a (lastSlot s a) := by
    refine seg_frame ha ?_
    intro w hw
    refine hframe w ?_ ?_
    · rintro rfl
      exact last_not_mem nda (fun y hy => hs y (List.mem_append.2 (.inl hy))) hw
    · rintro rfl
      rcases mem_slots hw with e | ⟨y, hy, e⟩
      · exact hsx e.symm
      · cases e
        exact hxm (List.mem_append.2 (.inl hy))
  cases b with
  | nil =>
    rw [if_pos rfl]
    have hct : lastSlot s a = t := hb
    refine ⟨seg_append.2 ⟨hsa, read_write_eq .., hx, rfl⟩, ?_, ?_⟩
    · rw [hrx, hct, h0]
    · rw [hrx, hct, h0]
      simp
  | cons y b =>
    rw [if_neg (by simp)]
    have hby : ∀ z ∈ y :: b, lastSlot s a ≠ .next z := by
      intro z hz
      rcases lastSlot_mem s a with e | ⟨u, hu, e⟩
      · rw [e]; exact hs z (List.mem_append.2 (.inr hz))
      · rw [e]
        intro he
        cases he
        exact ndab _ hu _ hz rfl
    have hxy : ∀ z ∈ y :: b, Slot.next z ≠ .next x := by
      intro z hz he
      cases he
      exact hxm (List.mem_append.2 (.inr hz))
    refine ⟨seg_append.2 ⟨hsa, read_write_eq .., hx, ?_, hb.2.1, ?_⟩, ?_, ?_⟩
    · rw [hrx, hb.1]
    · refine seg_frame hb.2.2 ?_
      intro w hw
      have : ∃ z ∈ y :: b, w = .next z := by
        rcases mem_slots hw with e | ⟨z, hz, e⟩
        · exact ⟨y, List.mem_cons_self .., e⟩
        · exact ⟨z, List.mem_cons_of_mem _ hz, e⟩
      obtain ⟨z, hz, rfl⟩ := this
      exact hframe _ (Ne.symm (hby z hz)) (hxy z hz)
    · have ht := seg_last hb
      obtain ⟨z, hz, e⟩ := lastSlot_cons (lastSlot s a) y b
      rw [ht, e, hframe _ (Ne.symm (hby z hz)) (hxy z hz), ← e, ← ht, h0]
    · rw [hrx, hb.1]
      simp [hb.2.1]

theorem seg_remove {g : Graph} {s t : Slot} {a b : List Nat} {x : Nat} (h : Seg g s (a ++ x :: b) t) (h0 : read g t = 0) (nd : (a ++ x :: b).Nodup) (hs : ∀ y ∈ a ++ x :: b, s ≠ .next y) :
    read g (lastSlot s a) = x ∧ x ≠ 0 ∧ (read g (.next x) ≠ 0 ↔ b ≠ []) ∧
    Seg (write (write g (lastSlot s a) (read g (.next x))) (.next x) 0) s (a ++ b) (if b = [] then lastSlot s a else t) ∧
    read (write (write g (lastSlot s a) (read g (.next x))) (.next x) 0) (if b = [] then lastSlot s a else t) = 0 := by
  obtain ⟨ha, hb⟩ := seg_append.1 h
  obtain ⟨hcx, hx0, hb⟩ := hb
  obtain ⟨nda, ndb, ndab⟩ := List.nodup_append.1 nd
  have ndb' := List.nodup_cons.1 ndb
  have hcne : ∀ z ∈ x :: b, lastSlot s a ≠ .next z := by
    intro z hz
    rcases lastSlot_mem s a with e | ⟨u, hu, e⟩
    · rw [e]; exact hs z (List.mem_append.2 (.inr hz))
    · rw [e]
      intro he
      cases he
      exact ndab _ hu _ hz rfl
  have hframe : ∀ w, w ≠ lastSlot s a → w ≠ .next x → read (write (write g (lastSlot s a) (read g (.next x))) (.next x) 0) w = read g w := by
    intro w h1 h2
    rw [read_write_ne h2, read_write_ne h1]
  have hrc : read (write (write g (lastSlot s a) (read g (.next x))) (.next x) 0) (lastSlot s a) = read g (.next x) := by
    rw [read_write_ne (hcne x (List.mem_cons_self ..)), read_write_eq]
  have hsa : Seg (write (write g (lastSlot s a) (read g (.next x))) (.next x) 0) s a (lastSlot s a) := by
    refine seg_frame ha ?_
    intro w hw
    refine hframe w ?_ ?_
    · rintro rfl
      exact last_not_mem nda (fun y hy => hs y (List.mem_append.2 (.inl hy))) hw
    · rintro rfl
      rcases mem_slots hw with e | ⟨y, hy, e⟩
      · exact hs x (List.mem_append.2 (.inr (List.mem_cons_self ..))) e.symm
      · cases e
        exact ndab _ hy _ (List.mem_cons_self ..) rfl
  refine ⟨hcx, hx0, ?_⟩
  cases b with
  | nil =>
    have hxt : Slot.next x = t := hb
    rw [if_pos rfl]
    refine ⟨by rw [hxt, h0]; simp, seg_append.2 ⟨hsa, rfl⟩, by rw [hrc, hxt, h0]⟩
  | cons y b =>
    rw [if_neg (by simp)]
    have hyx : ∀ z ∈ y :: b, Slot.next z ≠ .next x := by
      intro z hz he
      cases he
      exact ndb'.1 hz
    refine ⟨by rw [hb.1]; simp [hb.2.1], seg_append.2 ⟨hsa, ?_, hb.2.1, ?_⟩, ?_⟩
    · rw [hrc, hb.1]
    · refine seg_frame hb.2.2 ?_
      intro w hw
      have : ∃ z ∈ y :: b, w = .next z := by
        rcases mem_slots hw with e | ⟨z, hz, e⟩
        · exact ⟨y, List.mem_cons_self .., e⟩
        · exact ⟨z, List.mem_cons_of_mem _ hz, e⟩
      obtain ⟨z, hz, rfl⟩ := this
      exact hframe _ (Ne.symm (hcne z (List.mem_cons_of_mem _ hz))) (hyx z hz)
    · have ht := seg_last hb
      obtain ⟨z, hz, e⟩ := lastSlot_cons (.next x) y b
      rw [ht, e, hframe _ (Ne.symm (hcne z (List.mem_cons_of_mem _ hz))) (hyx z hz), ← e, ← ht, h0]

/-! ## All lists -/

structure SInv (st : St) (m : Seqs) : Prop where
  seg : ∀ l, Seg st.g (.head l) (m l) (st.tail l)
  nul : ∀ l, read st.g (st.tail l) = 0
  nodup : ∀ l, (m l).Nodup
  disj : ∀ l k x, x ∈ m l → x ∈ m k → l = k
  out : ∀ x, (∀ l, x ∉ m l) → st.g.next x = 0

theorem own_disj {m : Seqs} (hd : ∀ l k x, x ∈ m l → x ∈ m k → l = k) {l k : Nat} {w : Slot} (h1 : Own (.head l) (m l) w) (h2 : Own (.head k) (m k) w) : l = k := by
  rcases h1 with rfl | ⟨x, hx, rfl⟩ <;> rcases h2 with e | ⟨y, hy, e⟩
  · cases e; rfl
  · cases e
  · cases e
  · cases e; exact hd l k _ hx hy

theorem SInv.nonzero {st : St} {m : Seqs} (h : SInv st m) {l x : Nat} (hx : x ∈ m l) : x ≠ 0 := by
  obtain ⟨a, b, e⟩ := List.append_of_mem hx
  have := h.seg l
  rw [e] at this
  exact (seg_append.1 this).2.2.1

/-- A list and the others, when only some slots were written. -/
theorem seg_other {st : St} {m : Seqs} (h : SInv st m) {k : Nat} {g' : Graph} (hf : ∀ w, Own (.head k) (m k) w → read g' w = read st.g w) : Seg g' (.head k) (m k) (st.tail k) ∧ read g' (st.tail k) = 0 := by
  refine ⟨seg_frame (h.seg k) fun w hw => hf w (own_slots hw), ?_⟩
  rw [hf _ (by rw [seg_last (h.seg k)]; exact own_last ..)]
  exact h.nul k

theorem place_eq (m : Seqs) (l k : Nat) (hk : k ≤ (m l).length) : place m l k = lastSlot (.head l) ((m l).take k) := by
  cases k with
  | zero => rfl
  | succ k =>
    have e : (m l).take (k + 1) = (m l).take k ++ [(m l)[k]] := by rw [List.take_append_getElem (show k < (m l).length from hk)]
    rw [e, lastSlot_append, place, List.getElem?_eq_getElem (show k < (m l).length from hk)]
    rfl

theorem setTail_self (st : St) (l : Nat) (s : Slot) : (setTail st l s).tail l = s := if_pos rfl
theorem setTail_ne (st : St) {l k : Nat} (s : Slot) (h : k ≠ l) : (setTail st l s).tail k = st.tail k := if_neg h
theorem put_self (m : Seqs) (l : Nat) (xs : List Nat) : put m l xs l = xs := if_pos rfl
theorem put_ne (m : Seqs) {l k : Nat} (xs : List Nat) (h : k ≠ l) : put m l xs k = m k := if_neg h

theorem attached_false {st : St} {m : Seqs} (h : SInv st m) {l x : Nat} (hx : Free m x) : slistAttached st l x = false := by
  have h1 : st.g.next x = 0 := h.out x hx.2
  have h2 : st.tail l ≠ .next x := by
    rw [seg_last (h.seg l)]
    rcases own_last (.head l) (m l) with e | ⟨y, hy, e⟩
    · rw [e]; exact Slot.noConfusion
    · rw [e]
      intro he
      cases he
      exact hx.2 l hy
  simp [slistAttached, h1, h2]

theorem insert_ok {st : St} {m : Seqs} (h : SInv st m) {l x : Nat} (hx : Free m x) {a b : List Nat} (hab : m l = a ++ b) :
    slistInsert st l (lastSlot (.head l) a) x = .ok (insertAt st l (lastSlot (.head l) a) x, .next x) ∧ SInv (insertAt st l (lastSlot (.head l) a) x) (put m l (a ++ x :: b)) := by
  refine ⟨by rw [slistInsert, attached_false h hx]; rfl, ?_⟩
  have hseg := h.seg l
  rw [hab] at hseg
  have hnd := h.nodup l
  rw [hab] at hnd
  have hxm : x ∉ a ++ b := by rw [← hab]; exact hx.2 l
  obtain ⟨i1, i2, i3⟩ := seg_insert hseg (h.nul l) hnd (fun y _ => Slot.noConfusion) hx.1 hxm Slot.noConfusion
  have htail : (insertAt st l (lastSlot (.head l) a) x).tail l = if b = [] then .next x else st.tail l := by
    show (if l = l then _ else _) = _
    rw [if_pos rfl]
    by_cases hb : b = []
    · rw [if_pos hb]
      exact if_neg (fun hc => i3.1 hc hb)
    · rw [if_neg hb]
      exact if_pos (i3.2 hb)
  have hother : ∀ w, w ≠ lastSlot (.head l) a → w ≠ .next x → read (insertAt st l (lastSlot (.head l) a) x).g w = read st.g w := by
    intro w h1 h2
    show read (write (write _ _ _) _ _) w = _
    rw [read_write_ne h1, read_write_ne h2]
  have hcown : Own (.head l) (m l) (lastSlot (.head l) a) := by
    rcases lastSlot_mem (.head l) a with e | ⟨y, hy, e⟩
    · exact .inl e
    · exact .inr ⟨y, by rw [hab]; exact List.mem_append.2 (.inl hy), e⟩
  have hk : ∀ k, k ≠ l → Seg (insertAt st l (lastSlot (.head l) a) x).g (.head k) (m k) (st.tail k) ∧ read (insertAt st l (lastSlot (.head l) a) x).g (st.tail k) = 0 := by
    intro k hk
    refine seg_other h ?_
    intro w hw
    refine hother w ?_ ?_
    · rintro rfl
      exact hk (own_disj h.disj hw hcown)
    · rintro rfl
      rcases hw with e | ⟨y, hy, e⟩
      · cases e
      · cases e
        exact hx.2 k hy
  have htk : ∀ k, k ≠ l → (insertAt st l (lastSlot (.head l) a) x).tail k = st.tail k := fun k hk => if_neg hk
  have hmem : ∀ k y, y ∈ put m l (a ++ x :: b) k ↔ y ∈ m k ∨ (k = l ∧ y = x) := by
    intro k y
    by_cases hkl : k = l
    · subst hkl
      rw [put_self, hab]
      simp only [List.mem_append, List.mem_cons, true_and]
      constructor
      · rintro (h | h | h)
        · exact .inl (.inl h)
        · exact .inr h
        · exact .inl (.inr h)
      · rintro ((h | h) | h)
        · exact .inl h
        · exact .inr (.inr h)
        · exact .inr (.inl h)
    · rw [put_ne _ _ hkl]
      simp [hkl]
  exact {
    seg := fun k => by
      by_cases hkl : k = l
      · subst hkl
        rw [put_self, htail]
        exact i1
      · rw [put_ne _ _ hkl, htk k hkl]
        exact (hk k hkl).1
    nul := fun k => by
      by_cases hkl : k = l
      · subst hkl
        rw [htail]
        exact i2
      · rw [htk k hkl]
        exact (hk k hkl).2
    nodup := fun k => by
      by_cases hkl : k = l
      · subst hkl
        rw [put_self]
        obtain ⟨n1, n2, n3⟩ := List.nodup_append.1 hnd
        refine List.nodup_append.2 ⟨n1, List.nodup_cons.2 ⟨fun hc => hxm (List.mem_append.2 (.inr hc)), n2⟩, ?_⟩
        intro u hu v hv
        rcases List.mem_cons.1 hv with rfl | hv
        · rintro rfl
          exact hxm (List.mem_append.2 (.inl hu))
        · exact n3 u hu v hv
      · rw [put_ne _ _ hkl]
        exact h.nodup k
    disj := fun k j y hky hjy => by
      rcases (hmem k y).1 hky with h1 | ⟨h1, h1'⟩ <;> rcases (hmem j y).1 hjy with h2 | ⟨h2, h2'⟩
      · exact h.disj k j y h1 h2
      · subst h2'; exact absurd h1 (hx.2 k)
      · subst h1'; exact absurd h2 (hx.2 j)
      · rw [h1, h2]
    out := fun y hy => by
      have hyx : y ≠ x := by
        rintro rfl
        exact hy l ((hmem l y).2 (.inr ⟨rfl, rfl⟩))
      have hym : ∀ k, y ∉ m k := fun k hc => hy k ((hmem k y).2 (.inl hc))
      have e : read (insertAt st l (lastSlot (.head l) a) x).g (.next y) = read st.g (.next y) := by
        refine hother _ ?_ (fun e => by cases e; exact hyx rfl)
        intro e
        rcases hcown with e2 | ⟨z, hz, e2⟩
        · rw [e2] at e; cases e
        · rw [e2] at e
          cases e
          exact hym l hz
      exact e.trans (h.out y hym) }

theorem remove_ok {st : St} {m : Seqs} (h : SInv st m) {l x : Nat} {a b : List Nat} (hab : m l = a ++ x :: b) :
    ∃ st', slistRemove st l (lastSlot (.head l) a) = .ok (x, st') ∧ x ≠ 0 ∧ SInv st' (put m l (a ++ b)) := by
  have hseg := h.seg l
  rw [hab] at hseg
  have hnd := h.nodup l
  rw [hab] at hnd
  obtain ⟨r1, r2, r3, r4, r5⟩ := seg_remove hseg (h.nul l) hnd (fun y _ => Slot.noConfusion)
  refine ⟨setTail { st with g := write (write st.g (lastSlot (.head l) a) (st.g.next x)) (.next x) 0 } l (if st.g.next x ≠ 0 then st.tail l else lastSlot (.head l) a), ?_, r2, ?_⟩
  · rw [slistRemove]
    dsimp only
    rw [r1, if_neg r2]
  have htail : (if st.g.next x ≠ 0 then st.tail l else lastSlot (.head l) a) = if b = [] then lastSlot (.head l) a else st.tail l := by
    by_cases hb : b = []
    · rw [if_pos hb]
      exact if_neg (fun hc => r3.1 hc hb)
    · rw [if_neg hb]
      exact if_pos (r3.2 hb)
  rw [htail]
  have hother : ∀ w, w ≠ lastSlot (.head l) a → w ≠ .next x → read (write (write st.g (lastSlot (.head l) a) (st.g.next x)) (.next x) 0) w = read st.g w := by
    intro w h1 h2
    rw [read_write_ne h2, read_write_ne h1]
  have hcown : Own (.head l) (m l) (lastSlot (.head l) a) := by
    rcases lastSlot_mem (.head l) a with e | ⟨y, hy, e⟩
    · exact .inl e
    · exact .inr ⟨y, by rw [hab]; exact List.mem_append.2 (.inl hy), e⟩
  have hxl : x ∈ m l := by rw [hab]; simp
  have hk : ∀ k, k ≠ l → Seg (write (write st.g (lastSlot (.head l) a) (st.g.next x)) (.next x) 0) (.head k) (m k) (st.tail k) ∧ read (write (write st.g (lastSlot (.head l) a) (st.g.next x)) (.next x) 0) (st.tail k) = 0 := by
    intro k hk
    refine seg_other h ?_
    intro w hw
    refine hother w ?_ ?_
    · rintro rfl
      exact hk (own_disj h.disj hw hcown)
    · rintro rfl
      exact hk (own_disj h.disj hw (.inr ⟨x, hxl, rfl⟩))
  have hmem : ∀ k y, y ∈ put m l (a ++ b) k ↔ y ∈ m k ∧ y ≠ x := by
    intro k y
    by_cases hkl : k = l
    · subst hkl
      rw [put_self, hab]
      obtain ⟨n1, n2, n3⟩ := List.nodup_append.1 hnd
      have n2' := List.nodup_cons.1 n2
      simp only [List.mem_append, List.mem_cons]
      constructor
      · rintro (h | h)
        · exact ⟨.inl h, fun e => n3 y h x (List.mem_cons_self ..) e⟩
        · exact ⟨.inr (.inr h), fun e => n2'.1 (e ▸ h)⟩
      · rintro ⟨h | h | h, hne⟩
        · exact .inl h
        · exact absurd h hne
        · exact .inr h
    · rw [put_ne _ _ hkl]
      constructor
      · intro hy
        exact ⟨hy, fun e => hkl (h.disj k l y hy (e ▸ hxl))⟩
      · exact fun hy => hy.1
  exact {
    seg := fun k => by
      by_cases hkl : k = l
      · subst hkl
        rw [put_self, setTail_self]
        exact r4
      · rw [put_ne _ _ hkl, setTail_ne _ _ hkl]
        exact (hk k hkl).1
    nul := fun k => by
      by_cases hkl : k = l
      · subst hkl
        rw [setTail_self]
        exact r5
      · rw [setTail_ne _ _ hkl]
        exact (hk k hkl).2
    nodup := fun k => by
      by_cases hkl : k = l
      · subst hkl
        rw [put_self]
        obtain ⟨n1, n2, n3⟩ := List.nodup_append.1 hnd
        exact List.nodup_append.2 ⟨n1, (List.nodup_cons.1 n2).2, fun u hu v hv => n3 u hu v (List.mem_cons_of_mem _ hv)⟩
      · rw [put_ne _ _ hkl]
        exact h.nodup k
    disj := fun k j y hky hjy => h.disj k j y ((hmem k y).1 hky).1 ((hmem j y).1 hjy).1
    out := fun y hy => by
      by_cases hyx : y = x
      · subst hyx
        exact read_write_eq _ (.next y) 0
      · have hym : ∀ k, y ∉ m k := fun k hc => hy k ((hmem k y).2 ⟨hc, hyx⟩)
        have e : read (write (write st.g (lastSlot (.head l) a) (st.g.next x)) (.next x) 0) (.next y) = read st.g (.next y) := by
          refine hother _ ?_ (fun e => by cases e; exact hyx rfl)
          intro e
          rcases hcown with e2 | ⟨z, hz, e2⟩
          · rw [e2] at e; cases e
          · rw [e2] at e
            cases e
            exact hym l hz
        exact e.trans (h.out y hym) }

theorem lastSlot_head_ne {a : List Nat} {l k : Nat} (h : k ≠ l) : lastSlot (.head l) a ≠ .head k := by
  rcases lastSlot_mem (.head l) a with e | ⟨y, _, e⟩
  · rw [e]; intro he; cases he; exact h rfl
  · rw [e]; exact Slot.noConfusion

/-- The tail after splicing. -/
theorem splice_ok {st : St} {m : Seqs} (h : SInv st m) {d s : Nat} (hds : s ≠ d) {a b : List Nat} (hab : m d = a ++ b) :
    SInv (slistSplice st d (lastSlot (.head d) a) s) (put (put m d (a ++ m s ++ b)) s []) := by
  have hseg := h.seg d
  rw [hab] at hseg
  have hnd := h.nodup d
  rw [hab] at hnd
  obtain ⟨ha, hb⟩ := seg_append.1 hseg
  obtain ⟨nda, ndb, ndab⟩ := List.nodup_append.1 hnd
  have hc_own : Own (.head d) (m d) (lastSlot (.head d) a) := by
    rcases lastSlot_mem (.head d) a with e | ⟨y, hy, e⟩
    · exact .inl e
    · exact .inr ⟨y, by rw [hab]; exact List.mem_append.2 (.inl hy), e⟩
  have ht_own : Own (.head d) (m d) (st.tail d) := by rw [seg_last (h.seg d)]; exact own_last ..
  have hs_own : Own (.head s) (m s) (st.tail s) := by rw [seg_last (h.seg s)]; exact own_last ..
  have hdisj : ∀ {w v : Slot}, Own (.head d) (m d) w → Own (.head s) (m s) v → w ≠ v := by
    intro w v h1 h2 e
    subst e
    exact hds (own_disj h.disj h2 h1)
  have hcts := hdisj hc_own hs_own
  have hchs : lastSlot (.head d) a ≠ .head s := hdisj hc_own (.inl rfl)
  have htts := hdisj ht_own hs_own
  have hths : st.tail d ≠ .head s := hdisj ht_own (.inl rfl)
  have hda : ∀ w ∈ slots (.head d) a, Own (.head d) (m d) w := by
    intro w hw
    rcases mem_slots hw with e | ⟨y, hy, e⟩
    · exact .inl e
    · exact .inr ⟨y, by rw [hab]; exact List.mem_append.2 (.inl hy), e⟩
  have hcne : ∀ z ∈ b, lastSlot (.head d) a ≠ .next z := by
    intro z hz
    rcases lastSlot_mem (.head d) a with e | ⟨u, hu, e⟩
    · rw [e]; exact Slot.noConfusion
    · rw [e]
      intro he
      cases he
      exact ndab _ hu _ hz rfl
  -- the pointers after each step
  generalize hg2 : write (write st.g (st.tail s) (read st.g (lastSlot (.head d) a))) (lastSlot (.head d) a) (read (write st.g (st.tail s) (read st.g (lastSlot (.head d) a))) (.head s)) = g2
  have hst : slistSplice st d (lastSlot (.head d) a) s = slistInit (setTail { st with g := g2 } d (if read g2 (st.tail d) ≠ 0 then st.tail s else st.tail d)) s := by
    rw [← hg2]
    rfl
  have hg3 : ∀ w, w ≠ lastSlot (.head d) a → w ≠ st.tail s → w ≠ .head s → read (write g2 (.head s) 0) w = read st.g w := by
    intro w h1 h2 h3
    rw [read_write_ne h3, ← hg2, read_write_ne h1, read_write_ne h2]
  have hd : Seg (write g2 (.head s) 0) (.head d) (a ++ m s ++ b) (if read g2 (st.tail d) ≠ 0 then st.tail s else st.tail d) ∧
      read (write g2 (.head s) 0) (if read g2 (st.tail d) ≠ 0 then st.tail s else st.tail d) = 0 := by
    have hsa : Seg (write g2 (.head s) 0) (.head d) a (lastSlot (.head d) a) := by
      refine seg_frame ha ?_
      intro w hw
      refine hg3 w ?_ (hdisj (hda w hw) hs_own) (hdisj (hda w hw) (.inl rfl))
      rintro rfl
      exact last_not_mem nda (fun y _ => Slot.noConfusion) hw
    have hsb : ∀ y b', b = y :: b' → Seg (write g2 (.head s) 0) (.next y) b' (st.tail d) ∧ st.tail d ≠ lastSlot (.head d) a ∧ read (write g2 (.head s) 0) (st.tail d) = 0 := by
      rintro y b' rfl
      have hown : ∀ z ∈ y :: b', Own (.head d) (m d) (.next z) := fun z hz => .inr ⟨z, by rw [hab]; exact List.mem_append.2 (.inr hz), rfl⟩
      have htd : ∃ z ∈ y :: b', st.tail d = .next z := by
        rw [seg_last hb]
        exact lastSlot_cons ..
      obtain ⟨z, hz, e⟩ := htd
      refine ⟨seg_frame hb.2.2 ?_, ?_, ?_⟩
      · intro w hw
        have : ∃ z ∈ y :: b', w = .next z := by
          rcases mem_slots hw with e | ⟨z, hz, e⟩
          · exact ⟨y, List.mem_cons_self .., e⟩
          · exact ⟨z, List.mem_cons_of_mem _ hz, e⟩
        obtain ⟨z, hz, rfl⟩ := this
        exact hg3 _ (Ne.symm (hcne z hz)) (hdisj (hown z hz) hs_own) (hdisj (hown z hz) (.inl rfl))
      · rw [e]; exact Ne.symm (hcne z hz)
      · rw [hg3 _ (by rw [e]; exact Ne.symm (hcne z hz)) htts hths]
        exact h.nul d
    have hss := h.seg s
    cases hms : m s with
    | nil =>
      rw [hms] at hss
      have hts : Slot.head s = st.tail s := hss
      have hc2 : read g2 (lastSlot (.head d) a) = read st.g (lastSlot (.head d) a) := by
        rw [← hg2, read_write_eq, ← hts, read_write_eq]
      have hc3 : read (write g2 (.head s) 0) (lastSlot (.head d) a) = read st.g (lastSlot (.head d) a) := by
        rw [read_write_ne hchs, hc2]
      rw [List.append_nil]
      cases b with
      | nil =>
        have hct : lastSlot (.head d) a = st.tail d := hb
        have h0 : read g2 (st.tail d) = 0 := by rw [← hct, hc2, hct]; exact h.nul d
        rw [if_neg (by rw [h0]; simp), List.append_nil]
        refine ⟨by rw [← hct]; exact hsa, ?_⟩
        rw [← hct, hc3, hct]
        exact h.nul d
      | cons y b =>
        obtain ⟨s1, s2, s3⟩ := hsb y b rfl
        have h0 : read g2 (st.tail d) = 0 := by rw [read_write_ne hths] at s3; exact s3
        rw [if_neg (by rw [h0]; simp)]
        exact ⟨seg_append.2 ⟨hsa, hc3.trans hb.1, hb.2.1, s1⟩, s3⟩
    | cons y1 ys =>
      rw [hms] at hss
      obtain ⟨q1, q2, q3⟩ := hss
      have hnds := h.nodup s
      rw [hms] at hnds
      have hnds' := List.nodup_cons.1 hnds
      have htl : st.tail s = lastSlot (.next y1) ys := seg_last q3
      have hts : st.tail s ≠ .head s := by
        obtain ⟨z, _, e⟩ := lastSlot_cons (.head s) y1 ys
        rw [htl, show lastSlot (.next y1) ys = .next z from e]
        exact Slot.noConfusion
      have hc2 : read g2 (lastSlot (.head d) a) = y1 := by
        rw [← hg2, read_write_eq, read_write_ne (Ne.symm hts), q1]
      have ht2 : read (write g2 (.head s) 0) (st.tail s) = read st.g (lastSlot (.head d) a) := by
        rw [read_write_ne hts, ← hg2, read_write_ne (Ne.symm hcts), read_write_eq]
      have hsy : Seg (write g2 (.head s) 0) (.next y1) ys (st.tail s) := by
        refine seg_frame q3 ?_
        intro w hw
        have hws : ∃ z ∈ y1 :: ys, w = .next z := by
          rcases mem_slots hw with e | ⟨z, hz, e⟩
          · exact ⟨y1, List.mem_cons_self .., e⟩
          · exact ⟨z, List.mem_cons_of_mem _ hz, e⟩
        have hwo : Own (.head s) (m s) w := by rw [hms]; exact .inr hws
        refine hg3 w (Ne.symm (hdisj hc_own hwo)) ?_ ?_
        · rw [htl]
          rintro rfl
          exact last_not_mem hnds'.2 (fun z hz e => by cases e; exact hnds'.1 hz) hw
        · obtain ⟨z, _, rfl⟩ := hws
          exact Slot.noConfusion
      have hmid : Seg (write g2 (.head s) 0) (lastSlot (.head d) a) (y1 :: ys) (st.tail s) := ⟨by rw [read_write_ne hchs, hc2], q2, hsy⟩
      have hl2 : lastSlot (.head d) (a ++ y1 :: ys) = st.tail s := by rw [lastSlot_append, seg_last hmid]
      have hpre : Seg (write g2 (.head s) 0) (.head d) (a ++ y1 :: ys) (st.tail s) := seg_append.2 ⟨hsa, hmid⟩
      cases b with
      | nil =>
        have hct : lastSlot (.head d) a = st.tail d := hb
        rw [if_pos (by rw [← hct, hc2]; exact q2), List.append_nil]
        refine ⟨hpre, ?_⟩
        rw [ht2, hct]
        exact h.nul d
      | cons y b =>
        obtain ⟨s1, s2, s3⟩ := hsb y b rfl
        have h0 : read g2 (st.tail d) = 0 := by rw [read_write_ne hths] at s3; exact s3
        rw [if_neg (by rw [h0]; simp)]
        refine ⟨seg_append.2 ⟨by rw [hl2]; exact hpre, ?_⟩, s3⟩
        rw [hl2]
        exact ⟨ht2.trans hb.1, hb.2.1, s1⟩
  rw [hst]
  have hk : ∀ k, k ≠ d → k ≠ s → Seg (write g2 (.head s) 0) (.head k) (m k) (st.tail k) ∧ read (write g2 (.head s) 0) (st.tail k) = 0 := by
    intro k hkd hks
    refine seg_other h ?_
    intro w hw
    refine hg3 w ?_ ?_ ?_
    · rintro rfl; exact hkd (own_disj h.disj hw hc_own)
    · rintro rfl; exact hks (own_disj h.disj hw hs_own)
    · rintro rfl; exact hks (own_disj h.disj hw (.inl rfl))
  have htd : (slistInit (setTail { st with g := g2 } d (if read g2 (st.tail d) ≠ 0 then st.tail s else st.tail d)) s).tail d = (if read g2 (st.tail d) ≠ 0 then st.tail s else st.tail d) :=
    (setTail_ne _ _ (Ne.symm hds)).trans (setTail_self _ _ _)
  have htk : ∀ k, k ≠ d → k ≠ s → (slistInit (setTail { st with g := g2 } d (if read g2 (st.tail d) ≠ 0 then st.tail s else st.tail d)) s).tail k = st.tail k :=
    fun k hkd hks => (setTail_ne _ _ hks).trans (setTail_ne _ _ hkd)
  have hts : (slistInit (setTail { st with g := g2 } d (if read g2 (st.tail d) ≠ 0 then st.tail s else st.tail d)) s).tail s = .head s := setTail_self _ _ _
  have hpd : put (put m d (a ++ m s ++ b)) s [] d = a ++ m s ++ b := (put_ne _ _ (Ne.symm hds)).trans (put_self ..)
  have hps : put (put m d (a ++ m s ++ b)) s [] s = [] := put_self ..
  have hpk : ∀ k, k ≠ d → k ≠ s → put (put m d (a ++ m s ++ b)) s [] k = m k := fun k hkd hks => (put_ne _ _ hks).trans (put_ne _ _ hkd)
  have hmem : ∀ k y, y ∈ put (put m d (a ++ m s ++ b)) s [] k → (k = d ∧ y ∈ m d) ∨ (k = d ∧ y ∈ m s) ∨ (k ≠ d ∧ k ≠ s ∧ y ∈ m k) := by
    intro k y hy
    by_cases hks : k = s
    · rw [hks, hps] at hy; cases hy
    · by_cases hkd : k = d
      · rw [hkd, hpd, List.mem_append, List.mem_append] at hy
        rcases hy with (hy | hy) | hy
        · exact .inl ⟨hkd, by rw [hab]; exact List.mem_append.2 (.inl hy)⟩
        · exact .inr (.inl ⟨hkd, hy⟩)
        · exact .inl ⟨hkd, by rw [hab]; exact List.mem_append.2 (.inr hy)⟩
      · rw [hpk k hkd hks] at hy
        exact .inr (.inr ⟨hkd, hks, hy⟩)
  exact {
    seg := fun k => by
      by_cases hkd : k = d
      · rw [hkd, hpd, htd]; exact hd.1
      · by_cases hks : k = s
        · rw [hks, hps, hts]; rfl
        · rw [hpk k hkd hks, htk k hkd hks]; exact (hk k hkd hks).1
    nul := fun k => by
      by_cases hkd : k = d
      · rw [hkd, htd]; exact hd.2
      · by_cases hks : k = s
        · rw [hks, hts]; exact read_write_eq g2 (.head s) 0
        · rw [htk k hkd hks]; exact (hk k hkd hks).2
    nodup := fun k => by
      by_cases hkd : k = d
      · rw [hkd, hpd]
        refine List.nodup_append.2 ⟨List.nodup_append.2 ⟨nda, h.nodup s, ?_⟩, ndb, ?_⟩
        · rintro u hu v hv rfl
          exact hds (h.disj s d u hv (by rw [hab]; exact List.mem_append.2 (.inl hu)))
        · rintro u hu v hv rfl
          rcases List.mem_append.1 hu with hu | hu
          · exact ndab u hu u hv rfl
          · exact hds (h.disj s d u hu (by rw [hab]; exact List.mem_append.2 (.inr hv)))
      · by_cases hks : k = s
        · rw [hks, hps]; exact List.nodup_nil
        · rw [hpk k hkd hks]; exact h.nodup k
    disj := fun k j y hky hjy => by
      rcases hmem k y hky with ⟨k1, k2⟩ | ⟨k1, k2⟩ | ⟨k1, k2, k3⟩ <;> rcases hmem j y hjy with ⟨j1, j2⟩ | ⟨j1, j2⟩ | ⟨j1, j2, j3⟩
      · rw [k1, j1]
      · rw [k1, j1]
      · exact absurd (h.disj j d y j3 k2) j1
      · rw [k1, j1]
      · rw [k1, j1]
      · exact absurd (h.disj j s y j3 k2) j2
      · exact absurd (h.disj k d y k3 j2) k1
      · exact absurd (h.disj k s y k3 j2) k2
      · exact h.disj k j y k3 j3
    out := fun y hy => by
      have hyd : ∀ k, y ∉ m k := by
        intro k hc
        by_cases hkd : k = d
        · rw [hkd, hab] at hc
          refine hy d ?_
          rw [hpd, List.mem_append, List.mem_append]
          rcases List.mem_append.1 hc with hc | hc
          · exact .inl (.inl hc)
          · exact .inr hc
        · by_cases hks : k = s
          · rw [hks] at hc
            refine hy d ?_
            rw [hpd, List.mem_append, List.mem_append]
            exact .inl (.inr hc)
          · exact hy k (by rw [hpk k hkd hks]; exact hc)
      have hno : ∀ k w, Own (.head k) (m k) w → Slot.next y ≠ w := by
        rintro k w (rfl | ⟨z, hz, rfl⟩) e
        · cases e
        · cases e; exact hyd k hz
      have e : read (write g2 (.head s) 0) (.next y) = read st.g (.next y) := hg3 _ (hno d _ hc_own) (hno s _ hs_own) Slot.noConfusion
      exact e.trans (h.out y hyd) }

theorem pop_nil {st : St} {m : Seqs} (h : SInv st m) {l : Nat} (hm : m l = []) : slistPop st l = .ok (0, st) := by
  have hs := h.seg l
  rw [hm] at hs
  have hn := h.nul l
  rw [← show Slot.head l = st.tail l from hs] at hn
  rw [slistPop, if_neg (by rw [show st.g.head l = 0 from hn]; simp)]

theorem pop_cons {st : St} {m : Seqs} (h : SInv st m) {l x : Nat} {xs : List Nat} (hm : m l = x :: xs) : ∃ st', slistPop st l = .ok (x, st') ∧ x ≠ 0 ∧ SInv st' (put m l xs) := by
  obtain ⟨st', r1, r2, r3⟩ := remove_ok h (l := l) (a := []) (b := xs) hm
  have hs := h.seg l
  rw [hm] at hs
  refine ⟨st', ?_, r2, r3⟩
  rw [slistPop, if_pos (by rw [show st.g.head l = x from hs.1]; exact r2)]
  exact r1

theorem put_put (m : Seqs) (l : Nat) (a b : List Nat) : put (put m l a) l b = put m l b := by
  funext k
  unfold put
  split <;> simp_all

theorem put_same (m : Seqs) (l : Nat) : put m l (m l) = m := by
  funext k
  unfold put
  split
  · rename_i h; rw [h]
  · rfl

theorem drain_ok {fuel : Nat} {st : St} {m : Seqs} (h : SInv st m) {l : Nat} (hf : (m l).length < fuel) : ∃ st', drain fuel st l = .ok (m l, st') ∧ SInv st' (put m l []) := by
  induction fuel generalizing st m with
  | zero => omega
  | succ fuel ih =>
    cases hm : m l with
    | nil =>
      refine ⟨st, ?_, ?_⟩
      · rw [drain, pop_nil h hm]; rfl
      · rw [← hm, put_same]; exact h
    | cons x xs =>
      obtain ⟨st1, r1, r2, r3⟩ := pop_cons h hm
      have hl : put m l xs l = xs := put_self ..
      obtain ⟨st2, d1, d2⟩ := ih r3 (by rw [hl]; rw [hm] at hf; simp at hf; omega)
      refine ⟨st2, ?_, by rw [put_put] at d2; exact d2⟩
      rw [drain, r1]
      show (if x ≠ 0 then _ else _) = _
      rw [if_pos r2, d1, hl]
      rfl

theorem walk_seg {g : Graph} {s t : Slot} {xs : List Nat} (h : Seg g s xs t) (h0 : read g t = 0) {fuel : Nat} (hf : xs.length < fuel) : walk g fuel (read g s) = xs := by
  induction xs generalizing s fuel with
  | nil =>
    cases h
    cases fuel with
    | zero => omega
    | succ fuel => rw [walk, if_neg (by rw [h0]; simp)]
  | cons x xs ih =>
    cases fuel with
    | zero => omega
    | succ fuel =>
      rw [h.1, walk, if_pos h.2.1]
      have := ih (s := .next x) h.2.2 (fuel := fuel) (by simp at hf; omega)
      rw [show g.next x = read g (.next x) from rfl, this]

/-! ## Doubly-linked lists -/

theorem seg_next {g : Graph} {s t : Slot} {a b : List Nat} (h : Seg g s (a ++ b) t) (h0 : read g t = 0) : read g (lastSlot s a) = b.head?.getD 0 := by
  have hb := (seg_append.1 h).2
  cases b with
  | nil => rw [show lastSlot s a = t from hb]; exact h0
  | cons y b => exact hb.1

/-- The lists of a graph without the tails. -/
def GInv (g : Graph) (m : Seqs) : Prop := ∃ tail, SInv ⟨g, tail⟩ m

def rev (m : Seqs) : Seqs := fun l => (m l).reverse

structure DInv (st : DSt) (m : Seqs) : Prop where
  fwd : GInv st.fwd m
  bwd : GInv st.bwd (rev m)

theorem slotOf_last {l : Nat} {a : List Nat} (hz : ∀ x ∈ a, x ≠ 0) : lastSlot (.head l) a = slotOf l (a.getLast?.getD 0) := by
  rcases List.eq_nil_or_concat a with rfl | ⟨a, x, rfl⟩
  · rfl
  · rw [List.concat_eq_append] at *
    rw [lastSlot_append, List.getLast?_append]
    have : x ≠ 0 := hz x (by simp)
    simp [lastSlot, slotOf, this]

theorem slotOf_head {l : Nat} {b : List Nat} (hz : ∀ x ∈ b, x ≠ 0) : lastSlot (.head l) b.reverse = slotOf l (b.head?.getD 0) := by
  rw [slotOf_last (fun x hx => hz x (List.mem_reverse.1 hx)), List.getLast?_reverse]

theorem rev_put (m : Seqs) (l : Nat) (xs : List Nat) : rev (put m l xs) = put (rev m) l xs.reverse := by
  funext k
  unfold rev put
  split <;> rfl

theorem GInv.nonzero {g : Graph} {m : Seqs} (h : GInv g m) {l x : Nat} (hx : x ∈ m l) : x ≠ 0 := by
  obtain ⟨t, h⟩ := h
  exact h.nonzero hx

theorem GInv.next {g : Graph} {m : Seqs} (h : GInv g m) {l : Nat} {a b : List Nat} (hab : m l = a ++ b) : read g (lastSlot (.head l) a) = b.head?.getD 0 := by
  obtain ⟨t, h⟩ := h
  have hs := h.seg l
  rw [hab] at hs
  exact seg_next hs (h.nul l)

theorem GInv.out {g : Graph} {m : Seqs} (h : GInv g m) {x : Nat} (hx : ∀ l, x ∉ m l) : g.next x = 0 := by
  obtain ⟨t, h⟩ := h
  exact h.out x hx

theorem GInv.insert {g : Graph} {m : Seqs} (h : GInv g m) {l x : Nat} (hx : Free m x) {a b : List Nat} (hab : m l = a ++ b) :
    GInv (write (write g (.next x) (read g (lastSlot (.head l) a))) (lastSlot (.head l) a) x) (put m l (a ++ x :: b)) := by
  obtain ⟨t, h⟩ := h
  exact ⟨_, (insert_ok h hx hab).2⟩

theorem GInv.remove {g : Graph} {m : Seqs} (h : GInv g m) {l x : Nat} {a b : List Nat} (hab : m l = a ++ x :: b) :
    GInv (write (write g (lastSlot (.head l) a) (g.next x)) (.next x) 0) (put m l (a ++ b)) := by
  obtain ⟨t, h⟩ := h
  obtain ⟨st', r1, r2, r3⟩ := remove_ok h hab
  have hc : read g (lastSlot (.head l) a) = x := GInv.next ⟨t, h⟩ hab
  rw [slistRemove] at r1
  dsimp only at r1
  rw [hc, if_neg r2] at r1
  cases r1
  exact ⟨_, r3⟩

theorem free_rev {m : Seqs} {x : Nat} (h : Free m x) : Free (rev m) x := ⟨h.1, fun l hc => h.2 l (List.mem_reverse.1 hc)⟩

theorem lastSlot_ne_next {l x : Nat} {a : List Nat} (h : x ∉ a) : lastSlot (.head l) a ≠ .next x := by
  rcases lastSlot_mem (.head l) a with e | ⟨y, hy, e⟩
  · rw [e]; exact Slot.noConfusion
  · rw [e]
    intro he
    cases he
    exact h hy

theorem dinsert_ok {st : DSt} {m : Seqs} (h : DInv st m) {l x : Nat} (hx : Free m x) {a b : List Nat} (hab : m l = a ++ b) :
    ∃ st', listInsert st l (a.getLast?.getD 0) x = .ok st' ∧ DInv st' (put m l (a ++ x :: b)) := by
  have hrev : rev m l = b.reverse ++ a.reverse := by unfold rev; rw [hab, List.reverse_append]
  have hza : ∀ y ∈ a, y ≠ 0 := fun y hy => h.fwd.nonzero (l := l) (by rw [hab]; exact List.mem_append.2 (.inl hy))
  have hzb : ∀ y ∈ b, y ≠ 0 := fun y hy => h.fwd.nonzero (l := l) (by rw [hab]; exact List.mem_append.2 (.inr hy))
  have hxa : x ∉ a := fun hc => hx.2 l (by rw [hab]; exact List.mem_append.2 (.inl hc))
  have hxb : x ∉ b.reverse := fun hc => hx.2 l (by rw [hab]; exact List.mem_append.2 (.inr (List.mem_reverse.1 hc)))
  have hxn : st.fwd.next x = 0 := h.fwd.out hx.2
  have hxp : st.bwd.next x = 0 := h.bwd.out (free_rev hx).2
  have hhead : ∀ c : List Nat, x ∉ c → c.head?.getD 0 ≠ x := by
    intro c hc
    cases c with
    | nil => exact Ne.symm hx.1
    | cons y c => intro e; exact hc (by rw [← e]; exact List.mem_cons_self ..)
  have hxh : st.fwd.head l ≠ x := by
    rw [show st.fwd.head l = _ from h.fwd.next (l := l) (a := []) (b := m l) rfl]
    exact hhead _ (hx.2 l)
  have hxt : st.bwd.head l ≠ x := by
    rw [show st.bwd.head l = _ from h.bwd.next (l := l) (a := []) (b := rev m l) rfl]
    exact hhead _ ((free_rev hx).2 l)
  refine ⟨dinsertAt st l (a.getLast?.getD 0) x, ?_, ?_⟩
  · rw [listInsert, show listAttached st l x = false by simp [listAttached, hxn, hxp, hxh, hxt]]
    rfl
  have hsa := slotOf_last (l := l) hza
  have hsb := slotOf_head (l := l) hzb
  have hf : (dinsertAt st l (a.getLast?.getD 0) x).fwd = write (write st.fwd (.next x) (read st.fwd (lastSlot (.head l) a))) (lastSlot (.head l) a) x := by
    show write (write st.fwd (.next x) _) (slotOf l (read (write st.bwd (.next x) _) (.next x))) x = _
    rw [read_write_eq, ← hsa]
    congr 2
    rw [hsa]
    unfold slotOf
    split <;> rfl
  have hbn : read st.bwd (lastSlot (.head l) b.reverse) = a.getLast?.getD 0 := by
    rw [h.bwd.next hrev, List.head?_reverse]
  have hfn : read (dinsertAt st l (a.getLast?.getD 0) x).fwd (.next x) = b.head?.getD 0 := by
    rw [hf, read_write_ne (Ne.symm (lastSlot_ne_next hxa)), read_write_eq, h.fwd.next hab]
  have hb : (dinsertAt st l (a.getLast?.getD 0) x).bwd = write (write st.bwd (.next x) (read st.bwd (lastSlot (.head l) b.reverse))) (lastSlot (.head l) b.reverse) x := by
    show write (write st.bwd (.next x) _) (slotOf l (read (dinsertAt st l (a.getLast?.getD 0) x).fwd (.next x))) x = _
    rw [hfn, ← hsb, hbn]
  exact ⟨by rw [hf]; exact h.fwd.insert hx hab, by
    rw [hb, rev_put]
    have := h.bwd.insert (free_rev hx) hrev
    rw [show (a ++ x :: b).reverse = b.reverse ++ x :: a.reverse by simp]
    exact this⟩

theorem dremove_ok {st : DSt} {m : Seqs} (h : DInv st m) {l x : Nat} {a b : List Nat} (hab : m l = a ++ x :: b) : DInv (listRemove st l x) (put m l (a ++ b)) := by
  have hrev : rev m l = b.reverse ++ x :: a.reverse := by unfold rev; rw [hab]; simp
  have hza : ∀ y ∈ a, y ≠ 0 := fun y hy => h.fwd.nonzero (l := l) (by rw [hab]; exact List.mem_append.2 (.inl hy))
  have hzb : ∀ y ∈ b, y ≠ 0 := fun y hy => h.fwd.nonzero (l := l) (by rw [hab]; exact List.mem_append.2 (.inr (List.mem_cons_of_mem _ hy)))
  have hxa : x ∉ a := by
    obtain ⟨t, hg⟩ := h.fwd
    have := hg.nodup l
    rw [hab] at this
    exact fun hc => (List.nodup_append.1 this).2.2 x hc x (List.mem_cons_self ..) rfl
  have hpn : st.bwd.next x = a.getLast?.getD 0 := by
    have := h.bwd.next (l := l) (a := b.reverse ++ [x]) (b := a.reverse) (by rw [hrev]; simp)
    rw [lastSlot_append, List.head?_reverse] at this
    exact this
  have hnn : st.fwd.next x = b.head?.getD 0 := by
    have := h.fwd.next (l := l) (a := a ++ [x]) (b := b) (by rw [hab]; simp)
    rw [lastSlot_append] at this
    exact this
  have hsa := slotOf_last (l := l) hza
  have hsb := slotOf_head (l := l) hzb
  have hf : (listRemove st l x).fwd = write (write st.fwd (lastSlot (.head l) a) (st.fwd.next x)) (.next x) 0 := by
    show write (write st.fwd (slotOf l (st.bwd.next x)) (st.fwd.next x)) (.next x) 0 = _
    rw [hpn, ← hsa]
  have hb : (listRemove st l x).bwd = write (write st.bwd (lastSlot (.head l) b.reverse) (st.bwd.next x)) (.next x) 0 := by
    show write (write st.bwd (slotOf l (read (write st.fwd (slotOf l (st.bwd.next x)) (st.fwd.next x)) (.next x))) (st.bwd.next x)) (.next x) 0 = _
    rw [hpn, ← hsa, read_write_ne (Ne.symm (lastSlot_ne_next hxa)), show read st.fwd (.next x) = _ from hnn, ← hsb]
  exact ⟨by rw [hf]; exact h.fwd.remove hab, by
    rw [hb, rev_put, List.reverse_append]
    exact h.bwd.remove hrev⟩

end Verif.Lists
