import Verif.Model.Cache

/-!
# Invariants of the directory cache
-/
namespace Verif.Cache

/-- `held`: what the main thread has pinned; `extra`: how many descriptors are accounted for nowhere
else at the moment. -/
structure Inv (e : Env) (held : List Id) (extra : Nat) (s : State) : Prop where
  good : s.bad = false
  nodup : s.opened.Nodup
  lnodup : s.lru.Nodup
  lru : ∀ f, f ∈ s.lru ↔ f ∈ s.opened ∧ s.pins f = 0
  pins : ∀ f, s.pins f = s.flight.countP (fun x => e.parent x.1 = some f) + held.count f
  pinned : ∀ f, s.pins f > 0 → f ∈ s.opened
  shape : ∃ a b, s.lru = a ++ b ∧ (∀ x ∈ a, e.parent x = none) ∧ (∀ x ∈ b, e.parent x ≠ none) ∧ s.target = a.getLast?
  count : s.opened.length + s.flight.countP (fun x => x.2 = .opendir) + s.closing + extra + s.capacity ≤ e.limit
  exact_ : s.emfile = false → s.opened.length + s.flight.countP (fun x => x.2 = .opendir) + s.closing + extra + s.capacity = e.limit
  dirs : ∀ f ∈ s.dirs, f ∈ s.opened
  dnodup : s.dirs.Nodup
  flight : (s.flight.map Prod.fst).Nodup
  opening : ∀ f, (f, Op.opendir) ∈ s.flight → f ∉ s.opened
  log : ∀ v ∈ s.log, v.victim ∈ v.candidates ∧ (e.parent v.victim = none → ∀ g ∈ v.candidates, e.parent g = none)
  why : ∀ v ∈ s.log, s.emfile = true ∨ (v.capacity = 0 ∧ v.flying = 0)

variable {e : Env} {held : List Id} {extra : Nat} {s t : State}

theorem upd_same (f : Id → Nat) (p n) : upd f p n p = n := if_pos rfl
theorem upd_ne (f : Id → Nat) {p q : Id} (n : Nat) (h : q ≠ p) : upd f p n q = f q := if_neg h

theorem getLast?_append_ne {l : List Id} (k : List Id) (h : l ≠ []) : (k ++ l).getLast? = l.getLast? := by
  rw [List.getLast?_append]
  cases hl : l.getLast? with
  | none => exact absurd (List.getLast?_eq_none_iff.1 hl) h
  | some x => rfl

theorem need_true (s : State) {p : Bool} (h : p = true) : s.need p = s := by
  unfold State.need
  rw [h]
  cases s
  simp

theorem mem_insertAfter {t x y : Id} {l : List Id} : y ∈ insertAfter t x l ↔ y = x ∨ y ∈ l := by
  induction l with
  | nil => simp [insertAfter]
  | cons a l ih =>
    unfold insertAfter
    by_cases h : a = t
    · rw [if_pos h]
      simp only [List.mem_cons]
      constructor
      · rintro (h | h | h)
        · exact Or.inr (Or.inl h)
        · exact Or.inl h
        · exact Or.inr (Or.inr h)
      · rintro (h | h | h)
        · exact Or.inr (Or.inl h)
        · exact Or.inl h
        · exact Or.inr (Or.inr h)
    · rw [if_neg h, List.mem_cons, ih, List.mem_cons]
      constructor
      · rintro (h | h | h)
        · exact Or.inr (Or.inl h)
        · exact Or.inl h
        · exact Or.inr (Or.inr h)
      · rintro (h | h | h)
        · exact Or.inr (Or.inl h)
        · exact Or.inl h
        · exact Or.inr (Or.inr h)

/-- Inserting after the last element of the first part. -/
theorem insertAfter_append {t x : Id} {a b : List Id} (ha : a.getLast? = some t) (hn : (a ++ b).Nodup) : insertAfter t x (a ++ b) = a ++ x :: b := by
  induction a with
  | nil => cases ha
  | cons y a ih =>
    cases a with
    | nil =>
      cases ha
      simp [insertAfter]
    | cons z a =>
      have hy : y ≠ t := by
        rintro rfl
        rw [List.getLast?_cons_cons] at ha
        have := List.mem_of_getLast? ha
        exact (List.nodup_cons.1 hn).1 (List.mem_append_left _ this)
      rw [List.cons_append, insertAfter, if_neg hy, ih (by rw [List.getLast?_cons_cons] at ha; exact ha) (List.nodup_cons.1 hn).2]
      rfl

theorem prevOf_append {x : Id} {a b : List Id} (hn : (a ++ x :: b).Nodup) : prevOf x (a ++ x :: b) = a.getLast? := by
  induction a with
  | nil =>
    cases b with
    | nil => rfl
    | cons y b =>
      rw [List.nil_append] at hn ⊢
      have hx : x ∉ y :: b := (List.nodup_cons.1 hn).1
      clear hn
      have : ∀ (l : List Id) (z : Id), x ∉ l → prevOf x (z :: l) = none := by
        intro l
        induction l with
        | nil => intro z _; rfl
        | cons w l ih =>
          intro z hz
          rw [prevOf, if_neg (by rintro rfl; exact hz (List.mem_cons_self ..))]
          exact ih w (fun h => hz (List.mem_cons_of_mem _ h))
      exact this _ _ hx
  | cons y a ih =>
    cases a with
    | nil =>
      rw [List.singleton_append, prevOf, if_pos rfl]
      rfl
    | cons z a =>
      have hz : z ≠ x := by
        rintro rfl
        have := (List.nodup_cons.1 (List.nodup_cons.1 hn).2).1
        exact this (List.mem_append_right _ (List.mem_cons_self ..))
      rw [List.cons_append, List.cons_append, prevOf, if_neg hz, List.getLast?_cons_cons]
      exact ih (List.nodup_cons.1 hn).2

/-- What the list looks like. -/
def Shape (e : Env) (l : List Id) (t : Option Id) : Prop :=
  ∃ a b, l = a ++ b ∧ (∀ x ∈ a, e.parent x = none) ∧ (∀ x ∈ b, e.parent x ≠ none) ∧ t = a.getLast?

theorem Shape.target_mem {l : List Id} {t : Option Id} (h : Shape e l t) : t.all l.contains = true := by
  obtain ⟨a, b, rfl, _, _, rfl⟩ := h
  cases hh : a.getLast? with
  | none => rfl
  | some t => simp [List.mem_of_getLast? hh]

theorem Shape.remove {l : List Id} {t : Option Id} (h : Shape e l t) (hn : l.Nodup) {f : Id} (hf : f ∈ l) :
    Shape e (l.erase f) (if t = some f then prevOf f l else t) := by
  obtain ⟨a, b, rfl, ha, hb, rfl⟩ := h
  rcases List.mem_append.1 hf with hfa | hfb
  · obtain ⟨a1, a2, rfl⟩ := List.append_of_mem hfa
    have hn' : (a1 ++ f :: (a2 ++ b)).Nodup := by
      rw [List.append_assoc, List.cons_append] at hn
      exact hn
    have hf1 : f ∉ a1 := by
      intro h
      have := (List.nodup_append.1 hn').2.2 _ h f (List.mem_cons_self ..)
      exact this rfl
    have he : (a1 ++ f :: a2 ++ b).erase f = (a1 ++ a2) ++ b := by
      rw [List.append_assoc, List.cons_append, List.erase_append_right _ hf1, List.erase_cons_head, List.append_assoc]
    refine ⟨a1 ++ a2, b, he, fun x hx => ha x ?_, hb, ?_⟩
    · rcases List.mem_append.1 hx with h | h
      · exact List.mem_append_left _ h
      · exact List.mem_append_right _ (List.mem_cons_of_mem _ h)
    · by_cases ht : (a1 ++ f :: a2).getLast? = some f
      · rw [if_pos ht]
        have ha2 : a2 = [] := by
          cases a2 with
          | nil => rfl
          | cons z a2 =>
            exfalso
            rw [getLast?_append_ne _ (by simp), List.getLast?_cons_cons] at ht
            have := List.mem_of_getLast? ht
            have h2 := (List.nodup_append.1 hn').2.1
            exact (List.nodup_cons.1 h2).1 (List.mem_append_left _ this)
        rw [ha2, List.append_nil, List.append_assoc, List.cons_append]
        refine prevOf_append ?_
        rw [ha2] at hn'
        exact hn'
      · rw [if_neg ht]
        cases a2 with
        | nil =>
          exfalso
          apply ht
          rw [getLast?_append_ne _ (by simp)]
          rfl
        | cons z a2 =>
          rw [getLast?_append_ne _ (by simp), List.getLast?_cons_cons, getLast?_append_ne _ (by simp)]
  · have hfa : f ∉ a := fun h => hb f hfb (ha f h)
    refine ⟨a, b.erase f, List.erase_append_right _ hfa, ha, fun x hx => hb x (List.mem_of_mem_erase hx), ?_⟩
    rw [if_neg]
    intro h
    exact hfa (List.mem_of_getLast? h)

theorem Shape.add {l : List Id} {t : Option Id} (h : Shape e l t) (hn : l.Nodup) (f : Id) :
    Shape e (insert l f t) (if e.parent f = none then some f else t) := by
  obtain ⟨a, b, rfl, ha, hb, rfl⟩ := h
  have key : insert (a ++ b) f a.getLast? = a ++ f :: b := by
    cases hh : a.getLast? with
    | none =>
      rw [List.getLast?_eq_none_iff] at hh
      subst hh
      rfl
    | some t => exact insertAfter_append hh hn
  rw [key]
  by_cases hp : e.parent f = none
  · rw [if_pos hp]
    refine ⟨a ++ [f], b, by simp, fun x hx => ?_, hb, by simp⟩
    rcases List.mem_append.1 hx with h | h
    · exact ha x h
    · rw [List.mem_singleton.1 h]
      exact hp
  · rw [if_neg hp]
    refine ⟨a, f :: b, rfl, ha, fun x hx => ?_, rfl⟩
    rcases List.mem_cons.1 hx with rfl | h
    · exact hp
    · exact hb x h

theorem Shape.add_mem {l : List Id} (t : Option Id) (f g : Id) :
    g ∈ (insert l f t) ↔ g = f ∨ g ∈ l := by
  cases t with
  | none => exact List.mem_cons
  | some t => exact mem_insertAfter

theorem Shape.add_nodup {l : List Id} {t : Option Id} (h : Shape e l t) (hn : l.Nodup) {f : Id} (hf : f ∉ l) :
    (insert l f t).Nodup := by
  obtain ⟨a, b, rfl, ha, hb, rfl⟩ := h
  have key : insert (a ++ b) f a.getLast? = a ++ f :: b := by
    cases hh : a.getLast? with
    | none =>
      rw [List.getLast?_eq_none_iff] at hh
      subst hh
      rfl
    | some t => exact insertAfter_append hh hn
  rw [key]
  exact (List.perm_middle.nodup_iff).2 (List.nodup_cons.2 ⟨hf, hn⟩)

theorem count_pos_mem {l : List Id} {a : Id} (h : l.count a > 0) : a ∈ l := List.count_pos_iff.1 h

/-! ## Pins -/

theorem Inv.pin (h : Inv e held extra s) {f : Id} (hf : f ∈ s.opened) : Inv e (f :: held) extra (s.pin f) := by
  unfold State.pin
  rw [need_true _ (by simpa using hf)]
  dsimp only
  by_cases h0 : s.pins f = 0
  · rw [if_pos h0]
    have hl : f ∈ s.lru := (h.lru f).2 ⟨hf, h0⟩
    unfold State.lruRemove
    rw [need_true _ (by simpa using hl)]
    refine { h with
      lnodup := h.lnodup.erase _, lru := fun g => ?_, pins := fun g => ?_, pinned := fun g hg => ?_, shape := Shape.remove h.shape h.lnodup hl }
    · dsimp only
      by_cases hgf : g = f
      · subst hgf
        rw [upd_same]
        refine ⟨fun hh => absurd hh (fun hh => ?_), fun hh => absurd hh.2 (by omega)⟩
        exact (h.lnodup.mem_erase_iff.1 hh).1 rfl
      · rw [upd_ne _ _ hgf, h.lnodup.mem_erase_iff, h.lru]
        exact ⟨fun hh => hh.2, fun hh => ⟨hgf, hh⟩⟩
    · dsimp only
      by_cases hgf : g = f
      · subst hgf
        rw [upd_same, h.pins, List.count_cons_self]
        omega
      · rw [upd_ne _ _ hgf, h.pins, List.count_cons_of_ne (Ne.symm hgf)]
    · dsimp only at hg ⊢
      by_cases hgf : g = f
      · subst hgf
        exact hf
      · rw [upd_ne _ _ hgf] at hg
        exact h.pinned g hg
  · rw [if_neg h0]
    refine { h with lru := fun g => ?_, pins := fun g => ?_, pinned := fun g hg => ?_ }
    · dsimp only
      by_cases hgf : g = f
      · subst hgf
        rw [upd_same, h.lru]
        exact ⟨fun hh => absurd hh.2 h0, fun hh => absurd hh.2 (by omega)⟩
      · rw [upd_ne _ _ hgf]
        exact h.lru g
    · dsimp only
      by_cases hgf : g = f
      · subst hgf
        rw [upd_same, h.pins, List.count_cons_self]
        omega
      · rw [upd_ne _ _ hgf, h.pins, List.count_cons_of_ne (Ne.symm hgf)]
    · dsimp only at hg ⊢
      by_cases hgf : g = f
      · subst hgf
        exact hf
      · rw [upd_ne _ _ hgf] at hg
        exact h.pinned g hg

theorem Inv.unpin (h : Inv e (f :: held) extra s) : Inv e held extra (s.unpin e f) := by
  have hp : s.pins f = s.flight.countP (fun x => e.parent x.1 = some f) + held.count f + 1 := by
    rw [h.pins, List.count_cons_self]
    omega
  have hf : f ∈ s.opened := h.pinned f (by omega)
  unfold State.unpin
  rw [need_true _ (by simp; exact ⟨hf, by omega⟩)]
  dsimp only
  have hpins : ∀ g, upd s.pins f (s.pins f - 1) g = s.flight.countP (fun x => e.parent x.1 = some g) + held.count g := by
    intro g
    by_cases hgf : g = f
    · subst hgf
      rw [upd_same]
      omega
    · rw [upd_ne _ _ hgf, h.pins, List.count_cons_of_ne (Ne.symm hgf)]
  have hpinned : ∀ g, upd s.pins f (s.pins f - 1) g > 0 → g ∈ s.opened := by
    intro g hg
    by_cases hgf : g = f
    · subst hgf
      exact hf
    · rw [upd_ne _ _ hgf] at hg
      exact h.pinned g hg
  by_cases h1 : s.pins f = 1
  · rw [if_pos h1]
    have hl : f ∉ s.lru := fun hh => absurd ((h.lru f).1 hh).2 (by omega)
    unfold State.lruAdd
    rw [need_true _ (by
      simp only [Bool.and_eq_true]
      exact ⟨⟨by simpa using hf, by simpa using hl⟩, Shape.target_mem h.shape⟩)]
    refine { h with
      lnodup := Shape.add_nodup h.shape h.lnodup hl, lru := fun g => ?_, pins := hpins, pinned := hpinned, shape := Shape.add h.shape h.lnodup f }
    dsimp only
    rw [Shape.add_mem]
    by_cases hgf : g = f
    · subst hgf
      rw [upd_same]
      exact ⟨fun _ => ⟨hf, by omega⟩, fun _ => Or.inl rfl⟩
    · rw [upd_ne _ _ hgf, h.lru]
      exact ⟨fun hh => hh.resolve_left hgf, Or.inr⟩
  · rw [if_neg h1]
    refine { h with lru := fun g => ?_, pins := hpins, pinned := hpinned }
    dsimp only
    by_cases hgf : g = f
    · subst hgf
      rw [upd_same, h.lru]
      exact ⟨fun hh => absurd hh.2 (by omega), fun hh => absurd hh.2 (by omega)⟩
    · rw [upd_ne _ _ hgf]
      exact h.lru g

/-! ## Closing -/

theorem Inv.fileClose (h : Inv e held extra s) {f : Id} (hf : f ∈ s.lru) : Inv e held extra (s.fileClose f) := by
  obtain ⟨ho, hp⟩ := (h.lru f).1 hf
  unfold State.fileClose
  rw [need_true _ (by simp; exact ⟨ho, hp⟩)]
  dsimp only [State.cacheRemove]
  unfold State.lruRemove
  rw [need_true _ (by simpa using hf)]
  have hlen : (s.opened.erase f).length = s.opened.length - 1 := List.length_erase_of_mem ho
  have hpos : 0 < s.opened.length := List.length_pos_of_mem ho
  refine { h with
    nodup := h.nodup.erase _, lnodup := h.lnodup.erase _, lru := fun g => ?_, pinned := fun g hg => ?_, shape := Shape.remove h.shape h.lnodup hf
    count := ?_, exact_ := fun hh => ?_, dirs := fun g hg => ?_, dnodup := h.dnodup.erase _, opening := fun g hg hh => ?_ }
  · dsimp only
    rw [h.lnodup.mem_erase_iff, h.nodup.mem_erase_iff, h.lru]
    exact ⟨fun hh => ⟨⟨hh.1, hh.2.1⟩, hh.2.2⟩, fun hh => ⟨hh.1.1, hh.1.2, hh.2⟩⟩
  · dsimp only at hg ⊢
    rw [h.nodup.mem_erase_iff]
    exact ⟨fun hh => by subst hh; omega, h.pinned g hg⟩
  · have := h.count
    dsimp only
    omega
  · have := h.exact_ hh
    dsimp only
    omega
  · dsimp only at hg ⊢
    rw [h.dnodup.mem_erase_iff] at hg
    rw [h.nodup.mem_erase_iff]
    exact ⟨hg.1, h.dirs g hg.2⟩
  · dsimp only at hh hg
    exact h.opening g hg (List.mem_of_mem_erase hh)

/-- `P` says why. -/
theorem Inv.cachePop (h : Inv e held extra s) (hw : s.emfile = true ∨ (s.capacity = 0 ∧ s.flight.length + s.closing = 0)) : Inv e held extra s.cachePop.1 := by
  unfold State.cachePop
  cases hl : s.lru.getLast? with
  | none => exact h
  | some f =>
    have hf : f ∈ s.lru := List.mem_of_getLast? hl
    dsimp only
    refine Inv.fileClose (s := { s with log := ⟨f, s.opened.filter (s.pins · = 0), s.capacity, s.flight.length + s.closing⟩ :: s.log }) { h with log := ?_, why := ?_ } hf
    · intro v hv
      rcases List.mem_cons.1 hv with rfl | hv
      · refine ⟨?_, fun hp g hg => ?_⟩
        · rw [List.mem_filter]
          have := (h.lru f).1 hf
          exact ⟨this.1, by simpa using this.2⟩
        · dsimp only at hg hp
          rw [List.mem_filter] at hg
          have hg : g ∈ s.lru := (h.lru g).2 ⟨hg.1, by simpa using hg.2⟩
          obtain ⟨a, b, hab, ha, hb, -⟩ := h.shape
          cases b with
          | nil =>
            rw [hab, List.append_nil] at hg
            exact ha g hg
          | cons x b =>
            rw [hab, getLast?_append_ne _ (by simp)] at hl
            exact absurd hp (hb f (List.mem_of_getLast? hl))
      · exact h.log v hv
    · intro v hv
      rcases List.mem_cons.1 hv with rfl | hv
      · exact hw
      · exact h.why v hv

theorem cachePop_cap (h : s.cachePop.2 = true) : s.cachePop.1.capacity = s.capacity + 1 := by
  unfold State.cachePop at h ⊢
  cases hl : s.lru.getLast? with
  | none =>
    rw [hl] at h
    cases h
  | some f => rfl

theorem cachePop_le : s.capacity ≤ s.cachePop.1.capacity := by
  cases h : s.cachePop.2 with
  | true =>
    rw [cachePop_cap h]
    omega
  | false =>
    unfold State.cachePop at h ⊢
    cases hl : s.lru.getLast? with
    | none => exact Nat.le_refl _
    | some f =>
      rw [hl] at h
      cases h

/-! ## Opening -/

/-- A file that has just been opened. -/
theorem Inv.cacheAdd (h : Inv e held extra s) {f : Id} (hf : f ∉ s.opened) (hc : s.capacity > 0) (hop : (f, Op.opendir) ∉ s.flight) :
    Inv e held extra (State.cacheAdd e { s with opened := s.opened ++ [f] } f) := by
  have hp : s.pins f = 0 := by
    rcases Nat.eq_zero_or_pos (s.pins f) with h0 | h0
    · exact h0
    · exact absurd (h.pinned f h0) hf
  have hl : f ∉ s.lru := fun hh => hf ((h.lru f).1 hh).1
  unfold State.cacheAdd
  rw [need_true _ (by simp)]
  have hpf : State.popIfFull { s with opened := s.opened ++ [f] } = ({ s with opened := s.opened ++ [f] }, true) :=
    if_neg (show ¬ s.capacity = 0 by omega)
  dsimp only
  rw [hpf]
  dsimp only
  rw [if_neg (by decide), need_true _ (by simpa using hc)]
  unfold State.lruAdd
  rw [need_true _ (by
    simp only [Bool.and_eq_true]
    exact ⟨⟨by simp, by simpa using hl⟩, Shape.target_mem h.shape⟩)]
  refine { h with
    nodup := ?_, lnodup := Shape.add_nodup h.shape h.lnodup hl, lru := fun g => ?_, pinned := fun g hg => List.mem_append_left _ (h.pinned g hg)
    shape := Shape.add h.shape h.lnodup f, count := ?_, exact_ := fun hh => ?_, dirs := fun g hg => List.mem_append_left _ (h.dirs g hg), opening := fun g hg hh => ?_ }
  · rw [List.nodup_append]
    exact ⟨h.nodup, by simp, fun a ha b hb => by rw [List.mem_singleton.1 hb]; rintro rfl; exact hf ha⟩
  · dsimp only
    rw [Shape.add_mem, List.mem_append, List.mem_singleton, h.lru]
    constructor
    · rintro (rfl | hh)
      · exact ⟨Or.inr rfl, hp⟩
      · exact ⟨Or.inl hh.1, hh.2⟩
    · rintro ⟨hh | hh, h2⟩
      · exact Or.inr ⟨hh, h2⟩
      · exact Or.inl hh
  · have := h.count
    simp only [List.length_append, List.length_singleton]
    omega
  · have := h.exact_ hh
    simp only [List.length_append, List.length_singleton]
    omega
  · dsimp only at hg hh
    rcases List.mem_append.1 hh with hh | hh
    · exact h.opening g hg hh
    · rw [List.mem_singleton.1 hh] at hg
      exact hop hg

/-! ## What does not change -/

/-- `t` comes from `s` by collecting results and evicting files. -/
structure Frame (s t : State) : Prop where
  cur : t.cur = s.cur
  flight : ∀ x ∈ t.flight, x ∈ s.flight
  opened : ∀ f ∈ t.opened, f ∈ s.opened ∨ (f, Op.opendir) ∈ s.flight

theorem Frame.refl (s : State) : Frame s s := ⟨rfl, fun _ h => h, fun _ h => Or.inl h⟩

theorem Frame.trans {s t u : State} (h1 : Frame s t) (h2 : Frame t u) : Frame s u :=
  ⟨h2.cur.trans h1.cur, fun x hx => h1.flight x (h2.flight x hx), fun f hf => (h2.opened f hf).elim (h1.opened f) (fun h => Or.inr (h1.flight _ h))⟩

theorem need_frame (s : State) (p : Bool) : Frame s (s.need p) := ⟨rfl, fun _ h => h, fun _ h => Or.inl h⟩

theorem lruRemove_frame (s : State) (f : Id) : Frame s (s.lruRemove f) := ⟨rfl, fun _ h => h, fun _ h => Or.inl h⟩

theorem lruAdd_frame (e : Env) (s : State) (f : Id) : Frame s (s.lruAdd e f) := ⟨rfl, fun _ h => h, fun _ h => Or.inl h⟩

theorem pin_frame (s : State) (f : Id) : Frame s (s.pin f) := by
  unfold State.pin
  dsimp only
  split
  · exact ⟨rfl, fun _ h => h, fun _ h => Or.inl h⟩
  · exact ⟨rfl, fun _ h => h, fun _ h => Or.inl h⟩

theorem pin_cap (s : State) (f : Id) : (s.pin f).capacity = s.capacity ∧ (s.pin f).flight = s.flight ∧ (s.pin f).opened = s.opened := by
  unfold State.pin
  dsimp only
  split
  · exact ⟨rfl, rfl, rfl⟩
  · exact ⟨rfl, rfl, rfl⟩

theorem unpin_frame (e : Env) (s : State) (f : Id) : Frame s (s.unpin e f) := by
  unfold State.unpin
  dsimp only
  split
  · exact ⟨rfl, fun _ h => h, fun _ h => Or.inl h⟩
  · exact ⟨rfl, fun _ h => h, fun _ h => Or.inl h⟩

theorem unpin_cap (e : Env) (s : State) (f : Id) : (s.unpin e f).capacity = s.capacity ∧ (s.unpin e f).flight = s.flight ∧ (s.unpin e f).opened = s.opened := by
  unfold State.unpin
  dsimp only
  split
  · exact ⟨rfl, rfl, rfl⟩
  · exact ⟨rfl, rfl, rfl⟩

theorem pinOpt_frame (s : State) (o : Option Id) : Frame s (s.pinOpt o) := by
  cases o with
  | none => exact Frame.refl s
  | some f => exact pin_frame s f

theorem unpinOpt_frame (e : Env) (s : State) (o : Option Id) : Frame s (s.unpinOpt e o) := by
  cases o with
  | none => exact Frame.refl s
  | some f => exact unpin_frame e s f

theorem pinOpt_cap (s : State) (o : Option Id) : (s.pinOpt o).capacity = s.capacity ∧ (s.pinOpt o).flight = s.flight ∧ (s.pinOpt o).opened = s.opened := by
  cases o with
  | none => exact ⟨rfl, rfl, rfl⟩
  | some f => exact pin_cap s f

theorem unpinOpt_cap (e : Env) (s : State) (o : Option Id) :
    (s.unpinOpt e o).capacity = s.capacity ∧ (s.unpinOpt e o).flight = s.flight ∧ (s.unpinOpt e o).opened = s.opened := by
  cases o with
  | none => exact ⟨rfl, rfl, rfl⟩
  | some f => exact unpin_cap e s f

theorem fileClose_frame (s : State) (f : Id) : Frame s (s.fileClose f) :=
  ⟨rfl, fun _ h => h, fun _ h => Or.inl (List.mem_of_mem_erase h)⟩

theorem cachePop_frame (s : State) : Frame s s.cachePop.1 := by
  unfold State.cachePop
  split
  · exact Frame.refl s
  · exact ⟨rfl, fun _ h => h, fun _ h => Or.inl (List.mem_of_mem_erase h)⟩

theorem Inv.pinOpt (h : Inv e held extra s) {o : Option Id} (ho : ∀ f, o = some f → f ∈ s.opened) : Inv e (o.toList ++ held) extra (s.pinOpt o) := by
  cases o with
  | none => exact h
  | some f => exact h.pin (ho f rfl)

theorem Inv.unpinOpt {o : Option Id} (h : Inv e (o.toList ++ held) extra s) : Inv e held extra (s.unpinOpt e o) := by
  cases o with
  | none => exact h
  | some f => exact Inv.unpin h

/-! ## Requests -/

/-- A request that has completed still holds its pin. -/
theorem Inv.landed (h : Inv e held extra s) {f : Id} {op : Op} (hf : (f, op) ∈ s.flight) :
    Inv e ((e.parent f).toList ++ held) (extra + if op = .opendir then 1 else 0) { s with flight := s.flight.erase (f, op) } := by
  have hc : ∀ p : Id × Op → Bool, s.flight.countP p = (s.flight.erase (f, op)).countP p + if p (f, op) then 1 else 0 := by
    intro p
    have := (List.perm_cons_erase hf).countP_eq p
    rw [this, List.countP_cons]
  refine { h with pins := fun g => ?_, count := ?_, exact_ := fun hh => ?_, flight := ?_, opening := fun g hg => h.opening g (List.mem_of_mem_erase hg) }
  · rw [h.pins, hc, List.count_append, Nat.add_assoc]
    congr 1
    cases hp : e.parent f with
    | none => simp
    | some p =>
      by_cases hpg : p = g
      · subst hpg
        simp
      · simp [hpg]
  · have := h.count
    rw [hc] at this
    cases op <;> simp at this ⊢ <;> omega
  · have := h.exact_ hh
    rw [hc] at this
    cases op <;> simp at this ⊢ <;> omega
  · exact h.flight.sublist ((List.erase_sublist ..).map _)

theorem flight_unique (h : Inv e held extra s) {f : Id} {op op' : Op} (hf : (f, op) ∈ s.flight) : (f, op') ∉ s.flight.erase (f, op) := by
  intro hh
  have hp := List.perm_cons_erase hf
  have := (hp.map Prod.fst).nodup_iff.1 h.flight
  rw [List.map_cons, List.nodup_cons] at this
  exact this.1 (List.mem_map.2 ⟨_, hh, rfl⟩)

theorem Inv.addCap (h : Inv e held (extra + 1) s) : Inv e held extra { s with capacity := s.capacity + 1 } := by
  refine { h with count := ?_, exact_ := fun hh => ?_ }
  · have := h.count
    dsimp only
    omega
  · have := h.exact_ hh
    dsimp only
    omega

theorem Inv.setDir (h : Inv e held extra s) {f : Id} (hf : f ∉ s.opened) (hc : s.capacity > 0) (hop : (f, Op.opendir) ∉ s.flight) :
    Inv e held extra (s.setDir e f) := by
  have hd : f ∉ s.dirs := fun hh => hf (h.dirs f hh)
  unfold State.setDir
  rw [need_true _ (by simpa using hd)]
  dsimp only
  rw [if_neg (by simpa using hf)]
  have h2 := h.cacheAdd hf hc hop
  have heq : State.cacheAdd e { s with dirs := s.dirs ++ [f], opened := s.opened ++ [f] } f =
      { State.cacheAdd e { s with opened := s.opened ++ [f] } f with dirs := s.dirs ++ [f] } := by
    unfold State.cacheAdd
    rw [need_true _ (by simp), need_true _ (by simp)]
    have h1 : State.popIfFull { s with opened := s.opened ++ [f] } = ({ s with opened := s.opened ++ [f] }, true) :=
      if_neg (show ¬ s.capacity = 0 by omega)
    have h2 : State.popIfFull { s with dirs := s.dirs ++ [f], opened := s.opened ++ [f] } = ({ s with dirs := s.dirs ++ [f], opened := s.opened ++ [f] }, true) :=
      if_neg (show ¬ s.capacity = 0 by omega)
    dsimp only
    rw [h1, h2]
    rfl
  rw [heq]
  have ho : (State.cacheAdd e { s with opened := s.opened ++ [f] } f).opened = s.opened ++ [f] := by
    unfold State.cacheAdd
    rw [need_true _ (by simp)]
    have h1 : State.popIfFull { s with opened := s.opened ++ [f] } = ({ s with opened := s.opened ++ [f] }, true) :=
      if_neg (show ¬ s.capacity = 0 by omega)
    dsimp only
    rw [h1]
    rfl
  refine { h2 with dirs := fun g hg => ?_, dnodup := ?_ }
  · dsimp only at hg ⊢
    rw [ho]
    rcases List.mem_append.1 hg with hh | hh
    · exact List.mem_append_left _ (h.dirs g hh)
    · exact List.mem_append_right _ hh
  · dsimp only
    rw [List.nodup_append]
    exact ⟨h.dnodup, by simp, fun a ha b hb => by rw [List.mem_singleton.1 hb]; rintro rfl; exact hd ha⟩

theorem setDir_frame (hf : f ∉ s.opened) (hc : s.capacity > 0) : (s.setDir e f).cur = s.cur ∧ (s.setDir e f).flight = s.flight ∧
    (s.setDir e f).opened = s.opened ++ [f] := by
  unfold State.setDir
  dsimp only
  rw [if_neg (by simpa [State.need] using hf)]
  unfold State.cacheAdd
  have h1 : ∀ b c : Bool, State.popIfFull (State.need { s.need b with dirs := s.dirs ++ [f], opened := s.opened ++ [f] } c) =
      (State.need { s.need b with dirs := s.dirs ++ [f], opened := s.opened ++ [f] } c, true) :=
    fun b c => if_neg (show ¬ s.capacity = 0 by omega)
  dsimp only
  have h2 := h1 (!s.dirs.contains f) ((s.opened ++ [f]).contains f)
  unfold State.need at h2 ⊢
  dsimp only at h2 ⊢
  rw [h2]
  exact ⟨rfl, rfl, rfl⟩

theorem Inv.response (h : Inv e held extra s) (r : Response e s t) : Inv e held extra t ∧ Frame s t := by
  cases r with
  | close hc =>
    refine ⟨{ h with count := ?_, exact_ := fun hh => ?_ }, ⟨rfl, fun _ h => h, fun _ h => Or.inl h⟩⟩
    · have := h.count
      dsimp only
      omega
    · have := h.exact_ hh
      dsimp only
      omega
  | stat f hf =>
    refine ⟨Inv.unpinOpt (h.landed hf), ?_⟩
    refine Frame.trans ?_ (unpinOpt_frame e _ _)
    exact ⟨rfl, fun _ hx => List.mem_of_mem_erase hx, fun _ h => Or.inl h⟩
  | opendir f hf =>
    have h2 := (Inv.unpinOpt (h.landed hf)).addCap
    have hcap := unpinOpt_cap e { s with flight := s.flight.erase (f, Op.opendir) } (e.parent f)
    have hno : f ∉ s.opened := h.opening f hf
    have hnf : (f, Op.opendir) ∉ s.flight.erase (f, Op.opendir) := flight_unique h hf
    have hno' : f ∉ (State.unpinOpt e { s with flight := s.flight.erase (f, Op.opendir) } (e.parent f)).opened := by
      rw [hcap.2.2]
      exact hno
    have hfr : Frame s (State.unpinOpt e { s with flight := s.flight.erase (f, Op.opendir) } (e.parent f)) := by
      refine Frame.trans ?_ (unpinOpt_frame e _ _)
      exact ⟨rfl, fun _ hx => List.mem_of_mem_erase hx, fun _ h => Or.inl h⟩
    refine ⟨h2.setDir hno' (Nat.succ_pos _) (by dsimp only; rw [hcap.2.1]; exact hnf), ?_⟩
    obtain ⟨f1, f2, f3⟩ := setDir_frame (e := e) (s := { State.unpinOpt e { s with flight := s.flight.erase (f, Op.opendir) } (e.parent f) with
      capacity := (State.unpinOpt e { s with flight := s.flight.erase (f, Op.opendir) } (e.parent f)).capacity + 1 }) (f := f) hno' (Nat.succ_pos _)
    refine ⟨f1.trans hfr.cur, fun x hx => ?_, fun g hg => ?_⟩
    · dsimp only at hx
      rw [f2] at hx
      exact hfr.flight x hx
    · dsimp only at hg
      rw [f3] at hg
      rcases List.mem_append.1 hg with hg | hg
      · exact hfr.opened g hg
      · rw [List.mem_singleton.1 hg]
        exact Or.inr hf
  | failed f hf =>
    refine ⟨(Inv.unpinOpt (h.landed hf)).addCap, ?_⟩
    have hfr : Frame s (State.unpinOpt e { s with flight := s.flight.erase (f, Op.opendir) } (e.parent f)) := by
      refine Frame.trans ?_ (unpinOpt_frame e _ _)
      exact ⟨rfl, fun _ hx => List.mem_of_mem_erase hx, fun _ h => Or.inl h⟩
    exact ⟨hfr.cur, hfr.flight, hfr.opened⟩

theorem Inv.drain (h : Inv e held extra s) (r : Drain e s t) : Inv e held extra t ∧ Frame s t := by
  induction r with
  | nil s => exact ⟨h, Frame.refl s⟩
  | cons r _ ih =>
    have h1 := h.response r
    have h2 := ih h1.1
    exact ⟨h2.1, h1.2.trans h2.2⟩

theorem Inv.reserve (h : Inv e held extra s) {b : Bool} (r : Reserve e s t b) : Inv e held extra t ∧ Frame s t ∧ (b = true → t.capacity > 0) := by
  cases r with
  | now hc => exact ⟨h, Frame.refl s, fun _ => hc⟩
  | later _ d hc => exact ⟨(h.drain d).1, (h.drain d).2, fun _ => hc⟩
  | @evict u _ d h0 hf hc hp =>
    have h1 := h.drain d
    have h2 := h1.1.cachePop (Or.inr ⟨h0, by rw [hf, hc]; rfl⟩)
    have hcap := cachePop_cap hp
    rw [need_true _ (by simp; omega)]
    exact ⟨h2, h1.2.trans (cachePop_frame u), fun _ => by omega⟩
  | @full u _ d h0 hf hc hp =>
    have h1 := h.drain d
    have h2 := h1.1.cachePop (Or.inr ⟨h0, by rw [hf, hc]; rfl⟩)
    exact ⟨h2, h1.2.trans (cachePop_frame u), fun hh => by cases hh⟩

/-- If there is no room although something could be evicted, everything is pinned. -/
theorem reserve_full (h : Inv e held extra s) (r : Reserve e s t false) :
    t.capacity = 0 ∧ t.flight = [] ∧ t.closing = 0 ∧ ∀ f ∈ t.opened, f ∈ held := by
  cases r with
  | @full u _ d h0 hf hc hp =>
    have h1 := (h.drain d).1
    have hl : u.lru = [] := by
      unfold State.cachePop at hp
      cases hh : u.lru.getLast? with
      | none => exact List.getLast?_eq_none_iff.1 hh
      | some f =>
        rw [hh] at hp
        cases hp
    have he : u.cachePop.1 = u := by
      unfold State.cachePop
      rw [hl]
      rfl
    rw [he]
    refine ⟨h0, hf, hc, fun f hf' => ?_⟩
    have hp : u.pins f ≠ 0 := fun hh => by
      have := (h1.lru f).2 ⟨hf', hh⟩
      rw [hl] at this
      cases this
    rw [h1.pins, hf] at hp
    exact count_pos_mem (by simpa using Nat.pos_of_ne_zero hp)

theorem Inv.attempt (h : Inv e held extra s) (hc : s.capacity > 0) (r1 r2 : Result) :
    Inv e held extra (s.attempt r1 r2).1 ∧ Frame s (s.attempt r1 r2).1 ∧ (s.attempt r1 r2).1.capacity > 0 := by
  cases r1 with
  | ok => exact ⟨h, Frame.refl s, hc⟩
  | error => exact ⟨h, Frame.refl s, hc⟩
  | emfile =>
    have h1 : Inv e held extra { s with emfile := true } :=
      { h with exact_ := fun hh => (by cases hh), why := fun _ _ => Or.inl rfl }
    have h2 := h1.cachePop (Or.inl rfl)
    have heq : (State.cachePop { s with emfile := true }).1 = { s.cachePop.1 with emfile := true } := by
      unfold State.cachePop
      dsimp only
      split <;> rfl
    rw [heq] at h2
    have hle : s.capacity ≤ s.cachePop.1.capacity := cachePop_le
    refine ⟨{ h2 with count := ?_, exact_ := fun hh => (by cases hh) }, ?_, Nat.one_pos⟩
    · have := h2.count
      dsimp only [State.attempt] at this ⊢
      omega
    · have := cachePop_frame s
      exact ⟨this.cur, this.flight, this.opened⟩

theorem cacheAdd_cur (e : Env) (s : State) (f : Id) : (State.cacheAdd e s f).cur = s.cur := by
  have h1 : ∀ t : State, t.popIfFull.1.cur = t.cur := by
    intro t
    unfold State.popIfFull
    split
    · exact (cachePop_frame t).cur
    · rfl
  unfold State.cacheAdd
  dsimp only
  have h2 := h1 (s.need (s.opened.contains f))
  generalize (s.need (s.opened.contains f)).popIfFull = x at h2
  obtain ⟨x, b⟩ := x
  cases b with
  | false => exact h2
  | true => exact h2

theorem Inv.opened' {base : Option Id} {f : Id} (h : Inv e (base.toList ++ held) extra s) (hf : f ∉ s.opened) (hc : s.capacity > 0)
    (hop : (f, Op.opendir) ∉ s.flight) (ok : Bool) : Inv e held extra (s.opened' e f base ok) ∧ (s.opened' e f base ok).cur = s.cur := by
  have hcap := unpinOpt_cap e s base
  unfold State.opened'
  cases ok with
  | false => exact ⟨Inv.unpinOpt h, (unpinOpt_frame e s base).cur⟩
  | true =>
    dsimp only
    rw [if_pos rfl]
    refine ⟨Inv.cacheAdd (Inv.unpinOpt h) (by rw [hcap.2.2]; exact hf) (by rw [hcap.1]; exact hc) (by rw [hcap.2.1]; exact hop), ?_⟩
    rw [cacheAdd_cur]
    exact (unpinOpt_frame e s base).cur

theorem Inv.openat (h : Inv e held extra s) {f : Id} {base : Option Id} (hb : ∀ b, base = some b → b ∈ s.opened) (hf : f ∉ s.opened)
    (hfl : ∀ op, (f, op) ∉ s.flight) (r : Openat e s f base t) : Inv e held extra t ∧ t.cur = s.cur := by
  have key : ∀ {u : State} {b : Bool}, Reserve e ((s.need (!s.opened.contains f)).pinOpt base) u b →
      Inv e (base.toList ++ held) extra u ∧ Frame s u ∧ (b = true → u.capacity > 0) ∧ f ∉ u.opened ∧ ∀ op, (f, op) ∉ u.flight := by
    intro u b r
    rw [need_true _ (by simpa using hf)] at r
    have h1 := (h.pinOpt hb).reserve r
    have h2 := (pinOpt_frame s base).trans h1.2.1
    exact ⟨h1.1, h2, h1.2.2, fun hh => (h2.opened f hh).elim hf (hfl _), fun op hh => hfl op (h2.flight _ hh)⟩
  cases r with
  | @full u r =>
    obtain ⟨h1, h2, -, -, -⟩ := key r
    exact ⟨Inv.unpinOpt h1, ((unpinOpt_frame e u base).cur).trans h2.cur⟩
  | @tried u r1 r2 r =>
    obtain ⟨h1, h2, h3, h4, h5⟩ := key r
    obtain ⟨a1, a2, a3⟩ := h1.attempt (h3 rfl) r1 r2
    have := Inv.opened' a1 (fun hh => (a2.opened f hh).elim h4 (h5 _)) a3 (fun hh => h5 _ (a2.flight _ hh)) (u.attempt r1 r2).2
    exact ⟨this.1, this.2.trans (a2.cur.trans h2.cur)⟩

theorem Inv.closeFd (h : Inv e held (extra + 1) s) (r : CloseFd e s t) : Inv e held extra t ∧ Frame s t := by
  cases r with
  | @mk u async d =>
    have h1 := h.drain d
    cases async with
    | true =>
      refine ⟨{ h1.1 with count := ?_, exact_ := fun hh => ?_ }, ⟨h1.2.cur, h1.2.flight, h1.2.opened⟩⟩
      · have := h1.1.count
        simp only [if_true]
        omega
      · have := h1.1.exact_ hh
        simp only [if_true]
        omega
    | false => exact ⟨h1.1.addCap, ⟨h1.2.cur, h1.2.flight, h1.2.opened⟩⟩

theorem Inv.close (h : Inv e held extra s) {f : Id} (hf : f ∈ s.lru) (r : Close e s f t) (hfl : ∀ op, (f, op) ∉ s.flight) :
    Inv e held extra t ∧ Frame s t ∧ f ∉ t.opened := by
  obtain ⟨ho, hp⟩ := (h.lru f).1 hf
  have h1 := h.fileClose hf
  unfold State.fileClose at h1
  dsimp only [State.cacheRemove] at h1
  cases r with
  | mk r =>
    have key : Inv e held (extra + 1)
        (let s := (s.need (s.opened.contains f && s.pins f = 0)).lruRemove f
         { s with dirs := s.dirs.erase f, opened := s.opened.erase f }) := by
      refine { h1 with count := ?_, exact_ := fun hh => ?_ }
      · have := h1.count
        dsimp only [State.lruRemove, State.need] at this ⊢
        omega
      · have := h1.exact_ hh
        dsimp only [State.lruRemove, State.need] at this ⊢
        omega
    have h2 := key.closeFd r
    refine ⟨h2.1, ⟨h2.2.cur, h2.2.flight, fun g hg => (h2.2.opened g hg).imp (fun hh => List.mem_of_mem_erase hh) id⟩, fun hh => ?_⟩
    rcases h2.2.opened f hh with hh | hh
    · exact (h.nodup.mem_erase_iff.1 hh).1 rfl
    · exact hfl _ hh

theorem Inv.unwrap (h : Inv e held extra s) {f : Id} {b : Bool} (hfl : ∀ op, (f, op) ∉ s.flight) (r : Unwrap e s f b t) : Inv e held extra t ∧ t.cur = s.cur := by
  cases r with
  | none => exact ⟨h, rfl⟩
  | keep hd => exact ⟨{ h with dirs := fun g hg => h.dirs g (List.mem_of_mem_erase hg), dnodup := h.dnodup.erase _ }, rfl⟩
  | pinned => exact ⟨h, rfl⟩
  | close hd hp _ r =>
    have := h.close ((h.lru f).2 ⟨h.dirs f hd, hp⟩) r hfl
    exact ⟨this.1, this.2.1.cur⟩
  | @full u hd _ hp _ r =>
    have h1 := (h.pin (h.dirs f hd)).reserve r
    exact ⟨h1.1.unpin, ((unpin_frame e u f).cur.trans h1.2.1.cur).trans (pin_frame s f).cur⟩
  | @nodup u hd _ hp _ r =>
    have h1 := (h.pin (h.dirs f hd)).reserve r
    exact ⟨h1.1.unpin, ((unpin_frame e u f).cur.trans h1.2.1.cur).trans (pin_frame s f).cur⟩
  | @dup u _ hd _ hp _ r c =>
    have h1 := (h.pin (h.dirs f hd)).reserve r
    have h2 := h1.1.unpin
    have hc := h1.2.2 rfl
    have hcap := (unpin_cap e u f).1
    have key : Inv e held (extra + 1) (let t := u.unpin e f; { t with capacity := t.capacity - 1, dirs := t.dirs.erase f }) := by
      refine { h2 with count := ?_, exact_ := fun hh => ?_, dirs := fun g hg => h2.dirs g (List.mem_of_mem_erase hg), dnodup := h2.dnodup.erase _ }
      · have := h2.count
        dsimp only
        omega
      · have := h2.exact_ hh
        dsimp only
        omega
    have h3 := key.closeFd c
    exact ⟨h3.1, h3.2.cur.trans (((unpin_frame e u f).cur.trans h1.2.1.cur).trans (pin_frame s f).cur)⟩

/-- A request is queued: what it holds is no longer held by the main thread. -/
theorem Inv.queue {f : Id} (h : Inv e ((e.parent f).toList ++ held) extra s) (hfl : ∀ op, (f, op) ∉ s.flight) :
    Inv e held extra { s with flight := s.flight ++ [(f, .stat)] } := by
  refine { h with pins := fun g => ?_, count := ?_, exact_ := fun hh => ?_, flight := ?_, opening := fun g hg => ?_ }
  · dsimp only
    rw [h.pins, List.countP_append, List.count_append, Nat.add_assoc]
    congr 2
    cases hp : e.parent f with
    | none => simp [hp]
    | some p =>
      by_cases hpg : p = g
      · subst hpg
        simp [hp]
      · simp [hp, hpg]
  · have := h.count
    simp only [List.countP_append]
    simp
    omega
  · have := h.exact_ hh
    simp only [List.countP_append]
    simp
    omega
  · dsimp only
    rw [List.map_append, List.nodup_append]
    refine ⟨h.flight, by simp, fun a ha b hb => ?_⟩
    obtain ⟨⟨g, op⟩, hx, rfl⟩ := List.mem_map.1 ha
    rw [List.map_singleton, List.mem_singleton] at hb
    subst hb
    rintro rfl
    exact hfl op hx
  · dsimp only at hg
    rcases List.mem_append.1 hg with hg | hg
    · exact h.opening g hg
    · simp at hg

theorem Inv.queueDir {f : Id} (h : Inv e ((e.parent f).toList ++ held) extra s) (hfl : ∀ op, (f, op) ∉ s.flight) (hf : f ∉ s.opened) (hc : s.capacity > 0) :
    Inv e held extra { s with flight := s.flight ++ [(f, .opendir)], capacity := s.capacity - 1 } := by
  refine { h with pins := fun g => ?_, count := ?_, exact_ := fun hh => ?_, flight := ?_, opening := fun g hg => ?_ }
  · dsimp only
    rw [h.pins, List.countP_append, List.count_append, Nat.add_assoc]
    congr 2
    cases hp : e.parent f with
    | none => simp [hp]
    | some p =>
      by_cases hpg : p = g
      · subst hpg
        simp [hp]
      · simp [hp, hpg]
  · have := h.count
    simp only [List.countP_append]
    simp
    omega
  · have := h.exact_ hh
    simp only [List.countP_append]
    simp
    omega
  · dsimp only
    rw [List.map_append, List.nodup_append]
    refine ⟨h.flight, by simp, fun a ha b hb => ?_⟩
    obtain ⟨⟨g, op⟩, hx, rfl⟩ := List.mem_map.1 ha
    rw [List.map_singleton, List.mem_singleton] at hb
    subst hb
    rintro rfl
    exact hfl op hx
  · dsimp only at hg ⊢
    rcases List.mem_append.1 hg with hg | hg
    · exact h.opening g hg
    · simp at hg
      subst hg
      exact hf

theorem Inv.init (e : Env) : Inv e [] 0 (State.init e) where
  good := rfl
  nodup := List.nodup_nil
  lnodup := List.nodup_nil
  lru f := by simp [State.init]
  pins f := by simp [State.init]
  pinned f h := by simp [State.init] at h
  shape := ⟨[], [], rfl, by simp, by simp, rfl⟩
  count := by simp [State.init]
  exact_ _ := by simp [State.init]
  dirs f h := by simp [State.init] at h
  dnodup := List.nodup_nil
  flight := List.nodup_nil
  opening f h := by simp [State.init] at h
  log v h := by simp [State.init] at h
  why v h := by simp [State.init] at h

theorem Inv.step (h : Inv e s.cur.toList 0 s) (st : Step e s t) : Inv e t.cur.toList 0 t := by
  cases st with
  | response r =>
    have := h.response r
    rw [this.2.cur]
    exact this.1
  | stat f queued hfl hp =>
    have h1 := h.pinOpt hp
    have hcap := pinOpt_cap s (e.parent f)
    cases queued with
    | true =>
      rw [if_pos rfl]
      dsimp only
      rw [(pinOpt_frame s (e.parent f)).cur]
      have := Inv.queue h1 (by rw [hcap.2.1]; exact hfl)
      rw [hcap.2.1] at this
      exact { this with }
    | false =>
      rw [if_neg (by decide)]
      rw [(unpinOpt_frame e _ (e.parent f)).cur, (pinOpt_frame s (e.parent f)).cur]
      exact Inv.unpinOpt h1
  | @opendir f ok queued u hfl hf hp r =>
    have h1 := (h.pinOpt hp).reserve r
    have h2 := (pinOpt_frame s (e.parent f)).trans h1.2.1
    by_cases hq : (ok && queued) = true
    · rw [if_pos hq]
      simp only [Bool.and_eq_true] at hq
      dsimp only
      rw [h2.cur]
      exact { Inv.queueDir h1.1 (fun op hh => hfl op (h2.flight _ hh)) (fun hh => (h2.opened f hh).elim hf (hfl _)) (h1.2.2 hq.1) with }
    · rw [if_neg hq, (unpinOpt_frame e _ (e.parent f)).cur, h2.cur]
      exact Inv.unpinOpt h1.1
  | open_ f base _ hf hfl hb r =>
    have := h.openat hb hf hfl r
    rw [this.2]
    exact this.1
  | fdopendir f hf hd =>
    unfold State.setDir
    rw [need_true _ (by simpa using hd)]
    dsimp only
    rw [if_pos (by simpa using hf)]
    refine { h with dirs := fun g hg => ?_, dnodup := ?_ }
    · dsimp only at hg ⊢
      rcases List.mem_append.1 hg with hg | hg
      · exact h.dirs g hg
      · rw [List.mem_singleton.1 hg]
        exact hf
    · dsimp only
      rw [List.nodup_append]
      exact ⟨h.dnodup, by simp, fun a ha b hb => by rw [List.mem_singleton.1 hb]; rintro rfl; exact hd ha⟩
  | enter f hc hd =>
    have := h.pin (h.dirs f hd)
    rw [hc] at this
    exact { this with }
  | leave f hc =>
    rw [hc] at h
    exact { h.unpin with }
  | unwrap f b hfl r =>
    have := h.unwrap hfl r
    rw [this.2]
    exact this.1
  | free f hfl hch hc ho r =>
    have hp : s.pins f = 0 := by
      rw [h.pins]
      have h1 : s.flight.countP (fun x => e.parent x.1 = some f) = 0 := by
        rw [List.countP_eq_zero]
        intro x hx
        have := hch x.1 x.2 hx
        simpa using this
      have h2 : s.cur.toList.count f = 0 := by
        cases hh : s.cur with
        | none => rfl
        | some g =>
          have : g ≠ f := by
            rintro rfl
            exact hc hh
          simp [this]
      omega
    have := h.close ((h.lru f).2 ⟨ho, hp⟩) r hfl
    rw [this.2.1.cur]
    exact this.1

theorem unpinOpt_emfile (e : Env) (s : State) (o : Option Id) : (s.unpinOpt e o).emfile = s.emfile := by
  cases o with
  | none => rfl
  | some f =>
    unfold State.unpinOpt State.unpin
    dsimp only
    split <;> rfl

theorem pinOpt_emfile (s : State) (o : Option Id) : (s.pinOpt o).emfile = s.emfile := by
  cases o with
  | none => rfl
  | some f =>
    unfold State.pinOpt State.pin
    dsimp only
    split <;> rfl

theorem cachePop_emfile (s : State) : s.cachePop.1.emfile = s.emfile := by
  unfold State.cachePop
  split <;> rfl

theorem cacheAdd_emfile (e : Env) (s : State) (f : Id) : (State.cacheAdd e s f).emfile = s.emfile := by
  have h1 : ∀ t : State, t.popIfFull.1.emfile = t.emfile := by
    intro t
    unfold State.popIfFull
    split
    · exact cachePop_emfile t
    · rfl
  unfold State.cacheAdd
  dsimp only
  have h2 := h1 (s.need (s.opened.contains f))
  generalize (s.need (s.opened.contains f)).popIfFull = x at h2
  obtain ⟨x, b⟩ := x
  cases b with
  | false => exact h2
  | true => exact h2

theorem response_emfile (r : Response e s t) : t.emfile = s.emfile := by
  cases r with
  | close => rfl
  | stat f => exact unpinOpt_emfile ..
  | opendir f =>
    unfold State.setDir
    dsimp only
    split
    · exact unpinOpt_emfile ..
    · rw [cacheAdd_emfile]
      exact unpinOpt_emfile ..
  | failed f => exact unpinOpt_emfile ..

theorem drain_emfile (r : Drain e s t) : t.emfile = s.emfile := by
  induction r with
  | nil => rfl
  | cons r _ ih => exact ih.trans (response_emfile r)

theorem reserve_emfile {b : Bool} (r : Reserve e s t b) : t.emfile = s.emfile := by
  cases r with
  | now => rfl
  | later _ d => exact drain_emfile d
  | evict _ d => exact (cachePop_emfile _).trans (drain_emfile d)
  | full _ d => exact (cachePop_emfile _).trans (drain_emfile d)

theorem inv_reach (r : Reach e s) : Inv e s.cur.toList 0 s := by
  induction r with
  | init => exact Inv.init e
  | step _ st ih => exact ih.step st

end Verif.Cache
