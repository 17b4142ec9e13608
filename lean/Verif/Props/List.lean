import Verif.Lemmas.List
/-!
# Linked lists behave like sequences (C51)
-/
namespace Verif.Props
open Verif Verif.Lists Verif.Spec.Lists

/-! ## Singly-linked lists -/

/-- Every allowed operation is defined, returns what it should, and keeps every list in order. -/
theorem C51_step {st : St} {m : Seqs} (h : SInv st m) {op : Op} (ha : Allowed m op) : ∃ st', run st m op = .ok (result m op, st') ∧ SInv st' (effect m op) := by
  cases op with
  | insert l k x =>
    obtain ⟨hk, hx⟩ := ha
    obtain ⟨i1, i2⟩ := insert_ok h hx (a := (m l).take k) (b := (m l).drop k) (List.take_append_drop ..).symm
    refine ⟨_, ?_, i2⟩
    rw [run, place_eq _ _ _ hk, i1]
    show (if _ then _ else _) = _
    rw [if_pos]
    · rfl
    · show Slot.next x = .next ((effect m (.insert l k x) l)[k]?.getD 0)
      have : (effect m (.insert l k x) l)[k]? = some x := by
        rw [effect, put_self, List.getElem?_append_right (by rw [List.length_take]; omega)]
        simp [Nat.min_eq_left hk]
      rw [this]
      rfl
  | append l x =>
    obtain ⟨i1, i2⟩ := insert_ok h ha (l := l) (a := m l) (b := []) (List.append_nil _).symm
    refine ⟨_, ?_, i2⟩
    rw [run, slistAppend, seg_last (h.seg l), i1]
    rfl
  | prepend l x =>
    obtain ⟨i1, i2⟩ := insert_ok h ha (l := l) (a := []) (b := m l) rfl
    refine ⟨_, ?_, i2⟩
    rw [run, slistPrepend, show Slot.head l = lastSlot (.head l) [] from rfl, i1]
    rfl
  | splice d k s =>
    obtain ⟨hk, hds⟩ := ha
    refine ⟨_, rfl, ?_⟩
    rw [place_eq _ _ _ hk]
    exact splice_ok h hds (List.take_append_drop ..).symm
  | extend d s =>
    refine ⟨_, rfl, ?_⟩
    have := splice_ok h ha (a := m d) (b := []) (List.append_nil _).symm
    rw [slistExtend, seg_last (h.seg d)]
    rw [List.append_nil] at this
    exact this
  | remove l k =>
    have hk : k < (m l).length := ha
    have hab : m l = (m l).take k ++ (m l)[k] :: (m l).drop (k + 1) := by
      rw [← List.drop_eq_getElem_cons, List.take_append_drop]
    obtain ⟨st', r1, r2, r3⟩ := remove_ok h hab
    refine ⟨st', ?_, r3⟩
    rw [run, place_eq _ _ _ (Nat.le_of_lt hk), r1, result, List.getElem?_eq_getElem hk]
    rfl
  | pop l =>
    cases hm : m l with
    | nil =>
      refine ⟨st, ?_, ?_⟩
      · rw [run, pop_nil h hm, result, hm]; rfl
      · rw [effect, hm, List.tail_nil, ← hm, put_same]; exact h
    | cons x xs =>
      obtain ⟨st', r1, r2, r3⟩ := pop_cons h hm
      refine ⟨st', ?_, by rw [effect, hm]; exact r3⟩
      rw [run, r1, result, hm]
      show Out.ok (if x = 0 then [] else [x], st') = _
      rw [if_neg r2]
      rfl
  | drain l => exact drain_ok h (Nat.lt_succ_self _)

theorem fresh_inv : SInv fresh noItems where
  seg := fun _ => rfl
  nul := fun _ => rfl
  nodup := fun _ => List.nodup_nil
  disj := fun l k x h => by cases h
  out := fun _ _ => rfl

theorem runs_ok {st : St} {m : Seqs} (h : SInv st m) (ops : List Op) (ha : AllAllowed m ops) : ∃ st', runs st m ops = .ok (results m ops, st') ∧ SInv st' (final m ops) := by
  induction ops generalizing st m with
  | nil => exact ⟨st, rfl, h⟩
  | cons op ops ih =>
    obtain ⟨st1, s1, s2⟩ := C51_step h ha.1
    obtain ⟨st2, t1, t2⟩ := ih s2 ha.2
    refine ⟨st2, ?_, t2⟩
    rw [runs, s1]
    show (runs st1 (effect m op) ops).bind _ = _
    rw [t1]
    rfl

theorem shows_of {st : St} {m : Seqs} (h : SInv st m) (l : Nat) : Shows st l (m l) where
  loop := fun _ hf => walk_seg (h.seg l) (h.nul l) hf
  empty := by
    have := seg_next (a := []) (h.seg l) (h.nul l)
    rw [show st.g.head l = _ from this]
    cases hm : m l with
    | nil => simp
    | cons x xs =>
      have : x ≠ 0 := h.nonzero (l := l) (by rw [hm]; exact List.mem_cons_self ..)
      simp [this]
  last := by
    have hn := seg_next (a := []) (h.seg l) (h.nul l)
    have hl := seg_last (h.seg l)
    have hz : ∀ x ∈ m l, x ≠ 0 := fun x hx => h.nonzero hx
    unfold slistTail
    rw [show st.g.head l = _ from hn, hl, slotOf_last hz]
    rcases List.eq_nil_or_concat (m l) with hm | ⟨a, x, hm⟩
    · rw [hm]; rfl
    · rw [List.concat_eq_append] at hm
      have hx : x ≠ 0 := hz x (by rw [hm]; simp)
      have hh : (m l).head?.getD 0 ≠ 0 := by
        cases hc : m l with
        | nil => rw [hc] at hm; simp at hm
        | cons y c => exact hz y (by rw [hc]; exact List.mem_cons_self ..)
      rw [if_pos hh, hm, List.getLast?_append]
      simp [slotOf, hx]

/-- Whatever is done to some lists, as long as no item is inserted twice: nothing goes wrong, every operation returns the right items, and every list holds the right items in the right order at the end. -/
theorem C51_history (ops : List Op) (ha : AllAllowed noItems ops) :
    ∃ st', runs fresh noItems ops = .ok (results noItems ops, st') ∧ ∀ l, Shows st' l (final noItems ops l) := by
  obtain ⟨st', r1, r2⟩ := runs_ok fresh_inv ops ha
  exact ⟨st', r1, shows_of r2⟩

/-- An item counts as attached to the list it is in, and a free item is attached to no list. -/
theorem C51_attached (ops : List Op) (ha : AllAllowed noItems ops) {rs : List (List Nat)} {st : St} (hr : runs fresh noItems ops = .ok (rs, st)) :
    (∀ l x, x ∈ final noItems ops l → slistAttached st l x = true) ∧ ∀ l x, Free (final noItems ops) x → slistAttached st l x = false := by
  obtain ⟨st', r1, r2⟩ := runs_ok fresh_inv ops ha
  rw [r1] at hr
  cases hr
  refine ⟨?_, fun l x hx => attached_false r2 hx⟩
  intro l x hx
  obtain ⟨a, b, hab⟩ := List.append_of_mem hx
  have hs := r2.seg l
  rw [hab, show a ++ x :: b = (a ++ [x]) ++ b by simp] at hs
  have hn := seg_next hs (r2.nul l)
  rw [lastSlot_append] at hn
  have hn : st.g.next x = b.head?.getD 0 := hn
  unfold slistAttached
  cases hb : b with
  | nil =>
    have ht : st.tail l = .next x := by
      rw [seg_last hs, hb, List.append_nil, lastSlot_append]
      rfl
    simp [ht]
  | cons y b' =>
    have hy : y ≠ 0 := r2.nonzero (l := l) (by rw [hab, hb]; simp)
    rw [hb] at hn
    rw [hn]
    simp [hy]

/-- A list that was just initialized is empty, and nothing else changes. -/
theorem C51_init (st : St) (l : Nat) :
    Shows (slistInit st l) l [] ∧ (slistInit st l).tail l = .head l ∧ (slistInit st l).g.next = st.g.next ∧
    ∀ k, k ≠ l → (slistInit st l).g.head k = st.g.head k ∧ (slistInit st l).tail k = st.tail k := by
  have h0 : (slistInit st l).g.head l = 0 := read_write_eq st.g (.head l) 0
  refine ⟨⟨?_, ?_, ?_⟩, setTail_self _ _ _, rfl, ?_⟩
  · intro fuel hf
    rw [h0]
    cases fuel <;> rfl
  · simp [h0]
  · simp [slistTail, h0]
  · intro k hk
    exact ⟨if_neg hk, if_neg hk⟩

theorem C51_item_init (st : St) (x : Nat) : (slistItemInit st x).g.next x = 0 ∧ (slistItemInit st x).g.head = st.g.head ∧ (slistItemInit st x).tail = st.tail ∧ ∀ y, y ≠ x → (slistItemInit st x).g.next y = st.g.next y :=
  ⟨if_pos rfl, rfl, rfl, fun _ hy => if_neg hy⟩

/-! ## Doubly-linked lists -/

theorem dstep {st : DSt} {m : Seqs} (h : DInv st m) {op : DOp} (ha : DAllowed m op) : ∃ st', drun st m op = .ok st' ∧ DInv st' (deffect m op) := by
  cases op with
  | insertAfter l k x =>
    obtain ⟨hk, hx⟩ := ha
    obtain ⟨st', i1, i2⟩ := dinsert_ok h hx (a := (m l).take (k + 1)) (b := (m l).drop (k + 1)) (List.take_append_drop ..).symm
    refine ⟨st', ?_, i2⟩
    rw [drun, ← i1]
    have e : (m l).take (k + 1) = (m l).take k ++ [(m l)[k]] := by rw [List.take_append_getElem hk]
    rw [e, List.getLast?_append, List.getElem?_eq_getElem hk]
    rfl
  | append l x =>
    obtain ⟨st', i1, i2⟩ := dinsert_ok h ha (l := l) (a := m l) (b := []) (List.append_nil _).symm
    refine ⟨st', ?_, i2⟩
    have := h.bwd.next (l := l) (a := []) (b := (m l).reverse) rfl
    rw [List.head?_reverse] at this
    rw [drun, listAppend, show st.bwd.head l = _ from this]
    exact i1
  | prepend l x =>
    obtain ⟨st', i1, i2⟩ := dinsert_ok h ha (l := l) (a := []) (b := m l) rfl
    exact ⟨st', i1, i2⟩
  | remove l k =>
    have hk : k < (m l).length := ha
    have hab : m l = (m l).take k ++ (m l)[k] :: (m l).drop (k + 1) := by
      rw [← List.drop_eq_getElem_cons, List.take_append_drop]
    refine ⟨_, rfl, ?_⟩
    rw [List.getElem?_eq_getElem hk]
    exact dremove_ok h hab

theorem dfresh_inv : DInv dfresh noItems where
  fwd := ⟨.head, fresh_inv⟩
  bwd := ⟨.head, fresh_inv⟩

theorem druns_ok {st : DSt} {m : Seqs} (h : DInv st m) (ops : List DOp) (ha : AllDAllowed m ops) : ∃ st', druns st m ops = .ok st' ∧ DInv st' (dfinal m ops) := by
  induction ops generalizing st m with
  | nil => exact ⟨st, rfl, h⟩
  | cons op ops ih =>
    obtain ⟨st1, s1, s2⟩ := dstep h ha.1
    obtain ⟨st2, t1, t2⟩ := ih s2 ha.2
    refine ⟨st2, ?_, t2⟩
    rw [druns, s1]
    exact t1

/-- The same for doubly-linked lists, in both directions. -/
theorem C51_double_history (ops : List DOp) (ha : AllDAllowed noItems ops) : ∃ st', druns dfresh noItems ops = .ok st' ∧ ∀ l, DShows st' l (dfinal noItems ops l) := by
  obtain ⟨st', r1, r2⟩ := druns_ok dfresh_inv ops ha
  refine ⟨st', r1, fun l => ?_⟩
  obtain ⟨⟨t1, f⟩, ⟨t2, b⟩⟩ := r2
  refine ⟨fun fuel hf => walk_seg (f.seg l) (f.nul l) hf, fun fuel hf => walk_seg (b.seg l) (b.nul l) (by unfold rev; rw [List.length_reverse]; exact hf), (shows_of f l).empty⟩

/-- The same for doubly-linked lists: an item counts as attached to the list it is in, and a free item to no list. -/
theorem C51_double_attached (ops : List DOp) (ha : AllDAllowed noItems ops) {st : DSt} (hr : druns dfresh noItems ops = .ok st) :
    (∀ l x, x ∈ dfinal noItems ops l → listAttached st l x = true) ∧ ∀ l x, Free (dfinal noItems ops) x → listAttached st l x = false := by
  obtain ⟨st', r1, r2⟩ := druns_ok dfresh_inv ops ha
  rw [r1] at hr
  cases hr
  constructor
  · intro l x hx
    obtain ⟨a, b, hab⟩ := List.append_of_mem hx
    have hn := r2.fwd.next (l := l) (a := a ++ [x]) (b := b) (by rw [hab]; simp)
    rw [lastSlot_append] at hn
    have hn : st.fwd.next x = b.head?.getD 0 := hn
    have hp := r2.bwd.next (l := l) (a := []) (b := (dfinal noItems ops l).reverse) rfl
    have hp : st.bwd.head l = _ := hp
    rw [List.head?_reverse] at hp
    unfold listAttached
    cases hb : b with
    | nil =>
      rw [hab, hb, List.getLast?_append] at hp
      simp [hp]
    | cons y b' =>
      have hy : y ≠ 0 := r2.fwd.nonzero (l := l) (by rw [hab, hb]; simp)
      rw [hb] at hn
      rw [hn]
      simp [hy]
  · intro l x hx
    obtain ⟨st', i1, _⟩ := dinsert_ok r2 hx (l := l) (a := []) (b := dfinal noItems ops l) rfl
    unfold listInsert at i1
    split at i1
    · cases i1
    · rename_i h
      exact Bool.eq_false_iff.2 h

theorem C51_double_init (st : DSt) (l : Nat) :
    DShows (listInit st l) l [] ∧ (listInit st l).fwd.next = st.fwd.next ∧ (listInit st l).bwd.next = st.bwd.next ∧
    ∀ k, k ≠ l → (listInit st l).fwd.head k = st.fwd.head k ∧ (listInit st l).bwd.head k = st.bwd.head k := by
  have h0 : (listInit st l).fwd.head l = 0 := read_write_eq st.fwd (.head l) 0
  have h1 : (listInit st l).bwd.head l = 0 := read_write_eq st.bwd (.head l) 0
  refine ⟨⟨?_, ?_, ?_⟩, rfl, rfl, fun k hk => ⟨if_neg hk, if_neg hk⟩⟩
  · intro fuel _
    rw [h0]
    cases fuel <;> rfl
  · intro fuel _
    rw [h1]
    cases fuel <;> rfl
  · simp [h0]

/-! ## Cases that meet the hypotheses -/

example : AllAllowed noItems [.append 0 5, .append 0 6, .prepend 0 7, .insert 0 1 8, .append 1 9, .append 1 3, .splice 0 2 1, .remove 0 0, .pop 0, .extend 1 0, .append 0 7] := by
  simp [AllAllowed, Allowed, Free, effect, put, noItems]
  (repeat' constructor) <;> intro l <;> (repeat' split) <;> simp_all

example : results noItems [.append 0 5, .append 0 6, .append 1 9, .splice 0 1 1, .remove 0 1, .drain 0] = [[], [], [], [], [9], [5, 6]] := by decide +kernel

example : AllDAllowed noItems [.append 0 5, .prepend 0 6, .insertAfter 0 0 7, .remove 0 1, .append 1 7] := by
  simp [AllDAllowed, DAllowed, Free, deffect, put, noItems]
  (repeat' constructor) <;> intro l <;> (repeat' split) <;> simp_all

example : dfinal noItems [.append 0 5, .prepend 0 6, .insertAfter 0 0 7, .append 1 2] 0 = [6, 7, 5] := by decide +kernel

end Verif.Props
