import Verif.Lemmas.SighookW
import Verif.Spec.Sighook
namespace Verif.Sighook

variable {s : State}

theorem Inv.uses (hI : Inv s) {r : RPc} (hr : r ∈ s.readers) {n : Nat} (hu : r.uses n) : s.alive n = true := by
  obtain ⟨t, ht⟩ := List.getElem?_of_mem hr
  have ok := hI.readers r hr
  have go : ∀ {c : Nat} {k : Bool} {p : Option Nat}, (c, k) ∈ r.holds → s.ptr (c, k) = some p → p = some n → s.alive n = true := by
    intro c k p hm hp e
    obtain ⟨h1, h2⟩ := mem_holds_alive hI ht hm
    obtain ⟨p', h3, h4⟩ := hI.ptr _ h1 h2
    rw [hp] at h3; cases h3
    exact (h4 n e).1
  cases r with
  | idle => exact absurd hu (by simp [RPc.uses])
  | active c prev => cases hu; exact hI.target ht (by intro h e; simp [RPc.holds, e]) ok
  | get c k prev => cases hu; exact hI.target ht (by intro h e; simp [RPc.holds, e]) ok
  | cas c k r prev => cases hu; exact hI.target ht (by intro h e; simp [RPc.holds, e]) ok.1
  | ptr c k prev => cases hu; exact hI.target ht (by intro h e; simp [RPc.holds, e]) ok
  | put c k p h => exact go (by simp [RPc.holds]) ok hu
  | post c k p h => exact go (by simp [RPc.holds]) ok hu
  | visit c k p => exact go (by simp [RPc.holds]) ok hu
  | fput c k => exact absurd hu (by simp [RPc.uses])
  | fpost c k => exact absurd hu (by simp [RPc.uses])

/-- Only registered hooks are allocated, except in the middle of an operation. -/
def WPc.node : WPc → Option Nat
  | .idle => none
  | .run _ _ _ _ (.append n) => some n
  | .run _ _ _ _ (.remove n _) => some n
  | .run _ _ _ _ (.destroy n) => some n

theorem alive_hooks {b : Bool} {n : Nat} (r : Reach b n s) : ∀ m, s.alive m = true → m = 0 ∨ m ∈ s.hooks ∨ s.writer.node = some m := by
  induction r with
  | init =>
    intro m hm
    rcases upd_cases (fun _ => false) 0 m true with ⟨e, _⟩ | ⟨e, e'⟩
    · exact Or.inl e
    · have hm : upd (fun _ => false) 0 true m = true := hm
      rw [e'] at hm; cases hm
  | @writer s s' _ st ih =>
    have same : ∀ {ph ph' : Phase} {x : Nat} {i : Bool} {v : Option Nat} {k : Kont}, s.writer = .run ph x i v k →
        ∀ m, s.alive m = true → m = 0 ∨ m ∈ s.hooks ∨ (WPc.run ph' x i v k).node = some m := by
      intro ph ph' x i v k hw m hm
      rcases ih m hm with h | h | h
      · exact Or.inl h
      · exact Or.inr (Or.inl h)
      · rw [hw] at h; right; right; cases k <;> exact h
    cases st with
    | append hw =>
      intro m hm
      have hm : upd s.alive s.fresh true m = true := hm
      rcases upd_cases s.alive s.fresh m true with ⟨e, e'⟩ | ⟨e, e'⟩
      · right; right; rw [e]; rfl
      · rw [e'] at hm
        rcases ih m hm with h | h | h
        · exact Or.inl h
        · exact Or.inr (Or.inl h)
        · rw [hw] at h; cases h
    | remove X hw hX =>
      intro m hm
      rcases ih m hm with h | h | h
      · exact Or.inl h
      · by_cases e : m = X
        · right; right; rw [e]; rfl
        · exact Or.inr (Or.inl ((List.mem_erase_of_ne e).2 h))
      · rw [hw] at h; cases h
    | set x i v k hw => exact same hw
    | ref x i v k hw => exact same hw
    | pub x i v k hw => exact same hw
    | sub x i v k hw => exact same hw
    | wait x i v k hw _ _ => exact same hw
    | spin x i v k hw _ _ => exact same hw
    | take x i v k hw =>
      intro m hm
      have h := same (ph' := .take) hw m
      cases k with
      | append n =>
        rcases h hm with h | h | h
        · exact Or.inl h
        · exact Or.inr (Or.inl (List.mem_append_left _ h))
        · cases h; exact Or.inr (Or.inl (List.mem_append_right _ (by simp)))
      | remove X nx =>
        cases nx with
        | none =>
          rcases h hm with h | h | h
          · exact Or.inl h
          · exact Or.inr (Or.inl h)
          · cases h; exact Or.inr (Or.inr rfl)
        | some y =>
          rcases h hm with h | h | h
          · exact Or.inl h
          · exact Or.inr (Or.inl h)
          · cases h; exact Or.inr (Or.inr rfl)
      | destroy X =>
        have hm : upd s.alive X false m = true := hm
        rcases upd_cases s.alive X m false with ⟨e, e'⟩ | ⟨e, e'⟩
        · rw [e'] at hm; cases hm
        · rw [e'] at hm
          rcases h hm with h | h | h
          · exact Or.inl h
          · exact Or.inr (Or.inl h)
          · cases h; exact absurd rfl e
  | reader t _ st ih => cases st <;> exact ih

/-- A live cell that is not being destroyed can be read. -/
theorem Inv.active_refs (hI : Inv s) {c : Nat} (ha : s.alive c = true) (hd : ∀ ph x i v, s.writer ≠ .run ph x i v (.destroy c)) :
    0 < s.refs (c, s.active c) := by
  have h := hI.refs c (s.active c) ha
  have ho : owned s.writer c (s.active c) (s.active c) = 1 := by
    have hk := hI.writer
    cases hw : s.writer with
    | idle => simp [owned]
    | run ph x i v k =>
      rw [hw] at hk
      cases k with
      | append n => cases ph <;> simp [owned]
      | remove X nx => cases ph <;> simp [owned]
      | destroy X =>
        obtain ⟨a1, _⟩ := hk
        subst a1
        have : c ≠ x := by
          intro e; subst e; exact hd _ _ _ _ hw
        cases ph <;> simp [owned, this]
  omega

theorem getElem?_put {t : Nat} {r r' : RPc} {l : List RPc} (h : l[t]? = some r) : (l.set t r')[t]? = some r' := by
  have : t < l.length := by
    rcases Nat.lt_or_ge t l.length with h' | h'
    · exact h'
    · rw [List.getElem?_eq_none h'] at h; cases h
  simp [this]

theorem solo_ptr (t c : Nat) (k : Bool) (prev : Option Slot) (h : s.readers[t]? = some (.ptr c k prev)) :
    ∃ s' r, Solo t s s' ∧ s'.readers[t]? = some r ∧ r.arrived := by
  refine ⟨_, _, .step (.ptr c k prev h) .refl, getElem?_put h, ?_⟩
  cases prev <;> trivial

theorem solo_cas (t c : Nat) (k : Bool) (prev : Option Slot) (h : s.readers[t]? = some (.cas c k (s.refs (c, k)) prev)) :
    ∃ s' r, Solo t s s' ∧ s'.readers[t]? = some r ∧ r.arrived := by
  obtain ⟨s', r, h1, h2⟩ := solo_ptr (s := ({ s.need (s.alive c) with refs := upd s.refs (c, k) (s.refs (c, k) + 1) } : State).put t (.ptr c k prev)) t c k prev (getElem?_put h)
  exact ⟨s', r, .step (.casOk c k _ prev h rfl) h1, h2⟩

theorem solo_get (t c : Nat) (k : Bool) (prev : Option Slot) (h : s.readers[t]? = some (.get c k prev)) (hp : 0 < s.refs (c, k)) :
    ∃ s' r, Solo t s s' ∧ s'.readers[t]? = some r ∧ r.arrived := by
  have e : afterLoad (s.refs (c, k)) c k prev = .cas c k (s.refs (c, k)) prev := by
    unfold afterLoad; rw [if_neg (by omega)]
  obtain ⟨s', r, h1, h2⟩ := solo_cas (s := (s.need (s.alive c)).put t (afterLoad (s.refs (c, k)) c k prev)) t c k prev (by
    rw [e]; exact getElem?_put h)
  exact ⟨s', r, .step (.get c k prev h) h1, h2⟩

theorem solo_active (t c : Nat) (prev : Option Slot) (h : s.readers[t]? = some (.active c prev)) (hp : 0 < s.refs (c, s.active c)) :
    ∃ s' r, Solo t s s' ∧ s'.readers[t]? = some r ∧ r.arrived := by
  obtain ⟨s', r, h1, h2⟩ := solo_get (s := (s.need (s.alive c)).put t (.get c (s.active c) prev)) t c (s.active c) prev (getElem?_put h) hp
  exact ⟨s', r, .step (.active c prev h) h1, h2⟩

theorem solo_get' (t c : Nat) (k : Bool) (prev : Option Slot) (h : s.readers[t]? = some (.get c k prev)) (hp : 0 < s.refs (c, s.active c)) :
    ∃ s' r, Solo t s s' ∧ s'.readers[t]? = some r ∧ r.arrived := by
  rcases Nat.eq_zero_or_pos (s.refs (c, k)) with h0 | h0
  · have e : afterLoad (s.refs (c, k)) c k prev = .active c prev := by
      unfold afterLoad; rw [if_pos h0]
    obtain ⟨s', r, h1, h2⟩ := solo_active (s := (s.need (s.alive c)).put t (afterLoad (s.refs (c, k)) c k prev)) t c prev (by
      rw [e]; exact getElem?_put h) hp
    exact ⟨s', r, .step (.get c k prev h) h1, h2⟩
  · exact solo_get t c k prev h h0

theorem solo_cas' (t c : Nat) (k : Bool) (r : Nat) (prev : Option Slot) (h : s.readers[t]? = some (.cas c k r prev)) (hp : 0 < s.refs (c, s.active c)) :
    ∃ s' r, Solo t s s' ∧ s'.readers[t]? = some r ∧ r.arrived := by
  rcases Nat.eq_zero_or_pos (s.refs (c, k)) with h0 | h0
  · have e : afterLoad (s.refs (c, k)) c k prev = .active c prev := by
      unfold afterLoad; rw [if_pos h0]
    obtain ⟨s', r, h1, h2⟩ := solo_active (s := (s.need (s.alive c)).put t (afterLoad (s.refs (c, k)) c k prev)) t c prev (by
      rw [e]; exact getElem?_put h) hp
    exact ⟨s', r, .step (.casFail c k _ prev h) h1, h2⟩
  · have e : afterLoad (s.refs (c, k)) c k prev = .cas c k (s.refs (c, k)) prev := by
      unfold afterLoad; rw [if_neg (by omega)]
    obtain ⟨s', r, h1, h2⟩ := solo_cas (s := (s.need (s.alive c)).put t (afterLoad (s.refs (c, k)) c k prev)) t c k prev (by
      rw [e]; exact getElem?_put h)
    exact ⟨s', r, .step (.casFail c k _ prev h) h1, h2⟩

/-! ## Paths -/

theorem Path.append {f : Nat → Option (Option Nat)} : ∀ {l l' : List Nat} {c d e : Nat}, Path f c l d → Path f d l' e → Path f c (l ++ l') e
  | [], _, _, _, _, h, h' => by cases h; exact h'
  | _ :: _, _, _, _, _, ⟨h1, h2⟩, h' => ⟨h1, h2.append h'⟩

theorem Path.split {f : Nat → Option (Option Nat)} : ∀ {l l' : List Nat} {c e : Nat}, Path f c (l ++ l') e → ∃ d, Path f c l d ∧ Path f d l' e
  | [], _, c, _, h => ⟨c, rfl, h⟩
  | _ :: _, _, _, _, ⟨h1, h2⟩ => by
    obtain ⟨d, h3, h4⟩ := h2.split
    exact ⟨d, ⟨h1, h3⟩, h4⟩

/-- Only the cells before the end matter. -/
theorem Path.congr {f g : Nat → Option (Option Nat)} : ∀ {l : List Nat} {c d : Nat}, Path f c l d →
    (∀ x, (x = c ∨ x ∈ l) → f x ≠ none → (∃ m, f x = some (some m) ∧ m ∈ l) → g x = f x) → Path g c l d
  | [], _, _, h, _ => h
  | n :: l, c, d, ⟨h1, h2⟩, h => by
    refine ⟨(h c (Or.inl rfl) (by rw [h1]; simp) ⟨n, h1, by simp⟩).trans h1, h2.congr ?_⟩
    intro x hx h3 ⟨m, h4, h5⟩
    refine h x (Or.inr ?_) h3 ⟨m, h4, List.mem_cons_of_mem _ h5⟩
    rcases hx with rfl | hx
    · simp
    · exact List.mem_cons_of_mem _ hx

/-- Two ways from the same cell. -/
theorem Path.unique {f : Nat → Option (Option Nat)} : ∀ {l l' : List Nat} {c d e : Nat}, Path f c l d → f d = some none → Path f c l' e →
    ∃ r, l = l' ++ r ∧ Path f e r d
  | l, [], c, d, e, h, _, h' => ⟨l, rfl, by cases h'; exact h⟩
  | [], n :: l', c, d, e, h, h0, ⟨h1, _⟩ => by
    have h : c = d := h
    subst h; rw [h0] at h1; cases h1
  | m :: l, n :: l', c, d, e, ⟨h1, h2⟩, h0, ⟨h3, h4⟩ => by
    rw [h1] at h3; cases h3
    obtain ⟨r, h5, h6⟩ := h2.unique h0 h4
    exact ⟨r, by rw [h5]; rfl, h6⟩

theorem Path.end_mem {f : Nat → Option (Option Nat)} : ∀ {l : List Nat} {c d : Nat}, Path f c l d → d = c ∨ d ∈ l
  | [], _, _, h => Or.inl h.symm
  | n :: l, _, _, ⟨_, h2⟩ => by
    rcases h2.end_mem with h | h
    · right; rw [h]; simp
    · right; exact List.mem_cons_of_mem _ h

theorem Path.last {f : Nat → Option (Option Nat)} : ∀ {l : List Nat} {c d : Nat}, Path f c l d → d = (l.getLast?).getD c
  | [], _, _, h => h.symm
  | [n], _, _, ⟨_, h2⟩ => h2.symm
  | _ :: m :: l, _, _, ⟨_, h2⟩ => by
    rw [h2.last]; simp [List.getLast?_cons]

/-! ## The list is what has been registered -/

theorem Careful.reach {n : Nat} (r : Careful n s) : Reach true n s := by
  induction r with
  | init => exact .init
  | append _ hw ih => exact .writer ih (.append hw)
  | remove X _ hw hX _ ih => exact .writer ih (.remove X hw hX)
  | writer _ _ st ih => exact .writer ih st
  | reader t _ st ih => exact .reader t ih st

def LInv (s : State) : Prop :=
  match s.writer with
  | .idle => Path s.nxt 0 s.hooks s.tail ∧ s.nxt s.tail = some none
  | .run ph x _ _ (.append n) => (ph.published = false → Path s.nxt 0 s.hooks x ∧ s.nxt x = some none) ∧
      (ph.published = true → Path s.nxt 0 (s.hooks ++ [n]) n) ∧ s.tail = n ∧ s.nxt n = some none
  | .run ph x _ _ (.remove X nx) => (ph.published = false → ∃ pre post, s.hooks = pre ++ post ∧ Path s.nxt 0 pre x ∧ s.nxt x = some (some X) ∧
        Path s.nxt X post s.tail ∧ s.nxt s.tail = some none ∧ (post = [] → pre = [])) ∧
      (ph.published = true → (nx ≠ none → Path s.nxt 0 s.hooks s.tail ∧ s.nxt s.tail = some none) ∧ (nx = none → s.hooks = [] ∧ s.nxt 0 = some none))
  | .run _ _ _ _ (.destroy _) => Path s.nxt 0 s.hooks s.tail ∧ s.nxt s.tail = some none

/-- Steps that leave the active slots, their pointers, the tail and the hooks as they are. -/
theorem LInv.same {s' : State} (h : LInv s) (hn : s'.nxt = s.nxt) (ht : s'.tail = s.tail) (hh : s'.hooks = s.hooks) (hw : s'.writer = s.writer) : LInv s' := by
  unfold LInv at h ⊢
  rw [hn, ht, hh, hw]; exact h

theorem LInv.phase {s' : State} {ph ph' : Phase} {x : Nat} {i : Bool} {v : Option Nat} {k : Kont} (h : LInv s) (hn : s'.nxt = s.nxt) (ht : s'.tail = s.tail) (hh : s'.hooks = s.hooks)
    (hw : s.writer = .run ph x i v k) (hw' : s'.writer = .run ph' x i v k) (hp : ph'.published = ph.published) : LInv s' := by
  unfold LInv at h ⊢
  rw [hw] at h
  rw [hn, ht, hh, hw']
  cases k with
  | append n => simp only [hp]; exact h
  | remove X nx => simp only [hp]; exact h
  | destroy X => exact h

theorem nxt_ne {s s' : State} {c : Nat} (h1 : s'.active c = s.active c) (h2 : s'.ptr (c, s.active c) = s.ptr (c, s.active c)) : s'.nxt c = s.nxt c := by
  unfold State.nxt; rw [h1, h2]

/-- Along the list, the nodes get larger. -/
theorem Path.lt (hI : Inv s) : ∀ {l : List Nat} {c d : Nat}, Path s.nxt c l d → s.alive c = true →
    (∀ ph x i v X, s.writer = .run ph x i v (.destroy X) → X ≠ c ∧ X ∉ l) → s.alive d = true ∧ c ≤ d ∧ ∀ m ∈ l, c < m ∧ m ≤ d
  | [], c, d, h, ha, _ => by cases h; exact ⟨ha, Nat.le_refl _, by simp⟩
  | n :: l, c, d, ⟨h1, h2⟩, ha, hd => by
    have hr := hI.active_refs ha (fun ph x i v e => (hd ph x i v c e).1 rfl)
    obtain ⟨p, h3, h4⟩ := hI.ptr (c, s.active c) ha hr
    have h1 : s.ptr (c, s.active c) = some (some n) := h1
    rw [h3] at h1; cases h1
    obtain ⟨h5, h6, _⟩ := h4 n rfl
    have h6 : c < n := h6
    obtain ⟨h7, h8, h9⟩ := Path.lt hI h2 h5 (fun ph x i v X e => ⟨fun e' => (hd ph x i v X e).2 (by simp [e']), fun e' => (hd ph x i v X e).2 (List.mem_cons_of_mem _ e')⟩)
    refine ⟨h7, by omega, fun m hm => ?_⟩
    rcases List.mem_cons.1 hm with rfl | hm
    · exact ⟨h6, h8⟩
    · have := h9 m hm; omega

/-- Cells that lead somewhere inside a path are before its end. -/
theorem Path.congr_lt {s : State} (hI : Inv s) {g : Nat → Option (Option Nat)} {l : List Nat} {c d : Nat} (h : Path s.nxt c l d) (ha : s.alive c = true)
    (hd : ∀ ph x i v X, s.writer = .run ph x i v (.destroy X) → X ≠ c ∧ X ∉ l) (hg : ∀ y, c ≤ y → y < d → s.alive y = true → g y = s.nxt y) : Path g c l d := by
  induction l generalizing c with
  | nil => exact h
  | cons n l ih =>
    obtain ⟨h1, h2⟩ := h
    obtain ⟨_, _, h3⟩ := Path.lt hI (l := n :: l) ⟨h1, h2⟩ ha hd
    have h4 := h3 n (by simp)
    have hr := hI.active_refs ha (fun ph x i v e => (hd ph x i v c e).1 rfl)
    obtain ⟨p, h5, h6⟩ := hI.ptr (c, s.active c) ha hr
    have h1' : s.ptr (c, s.active c) = some (some n) := h1
    rw [h5] at h1'; cases h1'
    refine ⟨(hg c (Nat.le_refl _) (by omega) ha).trans h1, ih h2 (h6 n rfl).1 ?_ (fun y hy => hg y (by omega))⟩
    intro ph x i v X e
    exact ⟨fun e' => (hd ph x i v X e).2 (by simp [e']), fun e' => (hd ph x i v X e).2 (List.mem_cons_of_mem _ e')⟩

theorem careful_inv {n : Nat} (r : Careful n s) : LInv s := by
  induction r with
  | init => exact ⟨rfl, rfl⟩
  | @append s r hw ih =>
    have hI := reach_inv r.reach
    unfold LInv at ih
    rw [hw] at ih
    obtain ⟨i1, i2⟩ := ih
    have hn : s.alive s.fresh = false := by
      cases h : s.alive s.fresh
      · rfl
      · have := hI.fresh _ h; omega
    have ne : ∀ y, s.alive y = true → s.append.nxt y = s.nxt y := by
      intro y hy
      have : y ≠ s.fresh := by intro e; rw [e, hn] at hy; cases hy
      refine nxt_ne ?_ ?_
      · show upd s.active s.fresh false y = _
        exact upd_ne _ _ this
      · show upd (upd s.ptr (s.fresh, false) (some none)) (s.fresh, true) none (y, s.active y) = _
        rw [upd_ne, upd_ne]
        · intro e; exact this (congrArg Prod.fst e)
        · intro e; exact this (congrArg Prod.fst e)
    refine ⟨fun _ => ⟨?_, ?_⟩, (fun h => by cases h), rfl, ?_⟩
    · exact i1.congr_lt hI hI.root (by rw [hw]; intro _ _ _ _ _ h; cases h) (fun y _ _ h => ne y h)
    · rw [ne _ hI.tail.1]; exact i2
    · show upd (upd s.ptr (s.fresh, false) (some none)) (s.fresh, true) none (s.fresh, upd s.active s.fresh false s.fresh) = _
      rw [upd_same, upd_ne _ _ (by simp), upd_same]
  | @remove s X r hw hX hl ih =>
    have hI := reach_inv r.reach
    unfold LInv at ih
    rw [hw] at ih
    obtain ⟨i1, i2⟩ := ih
    obtain ⟨pre, post, e⟩ := List.append_of_mem hX
    rw [e] at i1
    obtain ⟨x, p1, p2, p3⟩ := i1.split
    have nd := hI.hooks.2
    rw [e] at nd
    have hnp : X ∉ pre := by
      intro h
      exact (List.nodup_append.1 nd).2.2 X h X (by simp) rfl
    have hx : s.alive x = true := (p1.lt hI hI.root (by rw [hw]; intro _ _ _ _ _ h; cases h)).1
    have hxs : s.self X = x := by
      have hr := hI.active_refs hx (by rw [hw]; intro _ _ _ _ h; cases h)
      obtain ⟨p, h5, h6⟩ := hI.ptr (x, s.active x) hx hr
      have p2' : s.ptr (x, s.active x) = some (some X) := p2
      rw [h5] at p2'; cases p2'
      have := (h6 X rfl).2.2
      rw [hw] at this
      exact link_idle this
    refine ⟨fun _ => ⟨pre, post, ?_, ?_, ?_, p3, i2, ?_⟩, (fun h => by cases h)⟩
    · show s.hooks.erase X = _
      rw [e, List.erase_append_right _ hnp]; simp
    · rw [hxs]; exact p1
    · rw [hxs]; exact p2
    · intro h
      subst h
      have := hl (by rw [e]; simp)
      rw [e] at this
      cases pre with
      | nil => rfl
      | cons a pre => simp at this
  | @writer s s' r hw st ih =>
    have hI := reach_inv r.reach
    have hk := hI.writer
    cases st with
    | append hw' => exact absurd hw' hw
    | remove _ hw' _ => exact absurd hw' hw
    | set x i v k hw =>
      rw [hw] at hk
      refine ih.phase (funext fun y => nxt_ne rfl ?_) rfl rfl hw rfl rfl
      refine upd_ne _ _ ?_
      intro e
      have e1 := congrArg Prod.fst e
      have e2 := congrArg Prod.snd e
      dsimp only at e1 e2
      rw [e1, hk.act rfl] at e2
      cases i <;> cases e2
    | ref x i v k hw => exact ih.phase rfl rfl rfl hw rfl rfl
    | sub x i v k hw =>
      refine ih.phase rfl rfl rfl hw rfl ?_
      split <;> rfl
    | wait x i v k hw _ _ => exact ih.phase rfl rfl rfl hw rfl rfl
    | spin x i v k hw _ _ => exact ih.phase rfl rfl rfl hw rfl rfl
    | pub x i v k hw =>
      rw [hw] at hk
      have hal := hk.live.1
      have ne : ∀ y, y ≠ x → ({ s.need (s.alive x) with active := upd s.active x (!i), writer := .run .sub x i v k } : State).nxt y = s.nxt y := by
        intro y hy
        exact nxt_ne (upd_ne _ _ hy) rfl
      have eqx : ({ s.need (s.alive x) with active := upd s.active x (!i), writer := .run .sub x i v k } : State).nxt x = s.ptr (x, !i) := by
        show s.ptr (x, upd s.active x (!i) x) = _
        rw [upd_same]
      have nd : ∀ (l : List Nat) (c : Nat), (∀ ph y i' v' X, s.writer = .run ph y i' v' (.destroy X) → X ≠ c ∧ X ∉ l) ∨ ∃ X, k = .destroy X := by
        intro l c
        cases k with
        | destroy X => exact Or.inr ⟨X, rfl⟩
        | append n => left; rw [hw]; intro _ _ _ _ _ h; cases h
        | remove X nx => left; rw [hw]; intro _ _ _ _ _ h; cases h
      unfold LInv at ih
      rw [hw] at ih
      unfold LInv
      dsimp only at ih ⊢
      cases k with
      | append n =>
        obtain ⟨i1, _, i3, i4⟩ := ih
        obtain ⟨p1, p2⟩ := i1 rfl
        obtain ⟨a1, a2, a3, a4, a5, a6, a7, a8, a9, _⟩ := hk
        have hxn : n ≠ x := by
          have := hI.self n a8 a9
          omega
        refine ⟨(fun h => by cases h), fun _ => ?_, i3, by rw [ne n hxn]; exact i4⟩
        refine Path.append (d := x) ?_ ⟨?_, rfl⟩
        · refine p1.congr_lt hI hI.root ?_ (fun y _ h _ => ne y (by omega))
          rw [hw]; intro _ _ _ _ _ h; cases h
        · rw [eqx, a4 (by simp), a6]
      | remove X nx =>
        obtain ⟨i1, _⟩ := ih
        obtain ⟨pre, post, e, p1, p2, p3, p4, p5⟩ := i1 rfl
        obtain ⟨a1, a2, a3, a4, a5, a6, a7, a8, a9, a10, _⟩ := hk
        have hxX : x < X := by
          have := hI.self X a8 a9
          omega
        have nd' : ∀ (l : List Nat) (c : Nat), ∀ ph y i' v' X', s.writer = .run ph y i' v' (.destroy X') → X' ≠ c ∧ X' ∉ l := by
          intro l c; rw [hw]; intro _ _ _ _ _ h; cases h
        have q1 := p1.congr_lt hI (g := ({ s.need (s.alive x) with active := upd s.active x (!i), writer := .run .sub x i v (.remove X nx) } : State).nxt) hI.root (nd' _ _)
          (fun y _ h _ => ne y (by omega))
        have q3 := p3.congr_lt hI (g := ({ s.need (s.alive x) with active := upd s.active x (!i), writer := .run .sub x i v (.remove X nx) } : State).nxt) a8 (nd' _ _)
          (fun y h _ _ => ne y (by omega))
        have hle := (p3.lt hI a8 (nd' _ _)).2.1
        have a4' : s.ptr (x, !i) = some nx := by rw [a4 (by simp), a6]
        refine ⟨(fun h => by cases h), fun _ => ⟨fun hnx => ?_, fun hnx => ?_⟩⟩
        · refine ⟨?_, by rw [ne _ (by show s.tail ≠ x; omega)]; exact p4⟩
          show Path _ 0 s.hooks s.tail
          rw [e]
          refine q1.append ?_
          cases post with
          | nil =>
            have p3 : X = s.tail := p3
            rw [← p3] at p4
            have p4 : s.ptr (X, s.active X) = some none := p4
            rw [a10] at p4; cases p4; exact absurd rfl hnx
          | cons m post =>
            obtain ⟨p6, _⟩ := p3
            obtain ⟨_, q7⟩ := q3
            refine ⟨?_, q7⟩
            rw [eqx, a4']
            have p6 : s.ptr (X, s.active X) = some (some m) := p6
            rw [a10] at p6; exact p6
        · cases post with
          | nil =>
            have := p5 rfl
            subst this
            refine ⟨e, ?_⟩
            have p1 : 0 = x := p1
            subst p1
            rw [eqx, a4', hnx]
          | cons m post =>
            obtain ⟨p6, _⟩ := p3
            have p6 : s.ptr (X, s.active X) = some (some m) := p6
            rw [a10, hnx] at p6; cases p6
      | destroy X => obtain ⟨_, h, _⟩ := hk; cases h
    | take x i v k hw =>
      rw [hw] at hk
      have gen : ∀ y, s.active x ≠ i → ({ s.need (s.alive x ∧ s.ptr (x, i) ≠ none) with ptr := upd s.ptr (x, i) none } : State).nxt y = s.nxt y := by
        intro y hi
        refine nxt_ne rfl (upd_ne _ _ ?_)
        intro e
        have e1 := congrArg Prod.fst e
        have e2 := congrArg Prod.snd e
        dsimp only at e1 e2
        rw [e1] at e2; exact hi e2
      unfold LInv at ih
      rw [hw] at ih
      cases k with
      | append n =>
        obtain ⟨_, i2, i3, i4⟩ := ih
        obtain ⟨a1, a2, _⟩ := hk
        have a2 : s.active x = !i := a2
        have gen := fun y => gen y (by rw [a2]; cases i <;> simp)
        refine ⟨?_, ?_⟩
        · show Path _ 0 (s.hooks ++ [n]) s.tail
          rw [i3]
          have := i2 rfl
          rw [← funext gen] at this
          exact this
        · show State.nxt _ s.tail = _
          rw [i3]; exact (gen n).trans i4
      | remove X nx =>
        obtain ⟨_, i2⟩ := ih
        obtain ⟨a1, a2, _⟩ := hk
        have a2 : s.active x = !i := a2
        have gen := funext fun y => gen y (by rw [a2]; cases i <;> simp)
        obtain ⟨j1, j2⟩ := i2 rfl
        cases nx with
        | some m =>
          have := j1 (by simp)
          rw [← gen] at this
          exact this
        | none =>
          obtain ⟨j3, j4⟩ := j2 rfl
          rw [← gen] at j4
          refine ⟨?_, j4⟩
          show Path _ 0 s.hooks 0
          rw [j3]; rfl
      | destroy X =>
        obtain ⟨i1, i2⟩ := ih
        obtain ⟨a1, a2, a3, a4, a5, a6, a7, a8, _⟩ := hk
        subst a1
        have ne : ∀ y, y ≠ x → ({ s.need (s.alive x ∧ s.ptr (x, i) ≠ none) with ptr := upd s.ptr (x, i) none } : State).nxt y = s.nxt y := by
          intro y hy
          refine nxt_ne rfl (upd_ne _ _ ?_)
          intro e
          exact hy (congrArg Prod.fst e)
        refine ⟨?_, (ne s.tail a7).trans i2⟩
        refine i1.congr (fun y hy _ _ => ne y ?_)
        intro e; subst e
        rcases hy with h | h
        · exact a3 h
        · exact a8 h
  | reader t _ st ih => cases st <;> exact ih.same rfl rfl rfl rfl

/-! ## What a handler runs -/

def RPc.At (nxt : Nat → Option (Option Nat)) (l : List Nat) : RPc → Prop
  | .active c _ => Path nxt 0 l c
  | .get c _ _ => Path nxt 0 l c
  | .cas c _ _ _ => Path nxt 0 l c
  | .ptr c _ _ => Path nxt 0 l c
  | .put c _ p _ => Path nxt 0 l c ∧ nxt c = some p
  | .post c _ p _ => Path nxt 0 l c ∧ nxt c = some p
  | .visit c _ p => Path nxt 0 l c ∧ nxt c = some p
  | _ => ∃ c, Path nxt 0 l c

theorem At.path {nxt : Nat → Option (Option Nat)} {l : List Nat} {r : RPc} (h : r.At nxt l) : ∃ c, Path nxt 0 l c := by
  cases r with
  | active c _ => exact ⟨c, h⟩
  | get c _ _ => exact ⟨c, h⟩
  | cas c _ _ _ => exact ⟨c, h⟩
  | ptr c _ _ => exact ⟨c, h⟩
  | put c _ p _ => exact ⟨c, h.1⟩
  | post c _ p _ => exact ⟨c, h.1⟩
  | visit c _ p => exact ⟨c, h.1⟩
  | idle => exact h
  | fput c k => exact h
  | fpost c k => exact h

theorem rstep_frame {s' : State} {t : Nat} (st : RStep true s t s') : s'.nxt = s.nxt ∧ s'.writer = s.writer ∧ s'.hooks = s.hooks ∧
    ∀ u, u ≠ t → s'.readers[u]? = s.readers[u]? := by
  cases st <;> exact ⟨rfl, rfl, rfl, fun u hu => List.getElem?_set_ne (Ne.symm hu)⟩

theorem at_step {s' : State} {t : Nat} {l : List Nat} {r : RPc} (hI : Inv s) (hw : s.writer = .idle) (st : RStep true s t s') (hr : s.readers[t]? = some r)
    (hi : r ≠ .idle) (hA : r.At s.nxt l)
    (hno : ∀ c k n, r = .visit c k (some n) → s'.readers[t]? ≠ some (.active n (some (c, k)))) :
    ∃ r', s'.readers[t]? = some r' ∧ r'.At s.nxt l := by
  cases st with
  | start h => rw [hr] at h; cases h; exact absurd rfl hi
  | active c prev h => rw [hr] at h; cases h; exact ⟨_, getElem?_put hr, hA⟩
  | get c k prev h =>
    rw [hr] at h; cases h
    refine ⟨_, getElem?_put hr, ?_⟩
    unfold afterLoad; split <;> exact hA
  | casOk c k r prev h _ => rw [hr] at h; cases h; exact ⟨_, getElem?_put hr, hA⟩
  | casFail c k r prev h =>
    rw [hr] at h; cases h
    refine ⟨_, getElem?_put hr, ?_⟩
    unfold afterLoad; split <;> exact hA
  | ptr c k prev h =>
    rw [hr] at h; cases h
    obtain ⟨h1, h2⟩ := mem_holds_alive hI (sl := (c, k)) hr (by simp [RPc.holds])
    have hk : k = s.active c := by
      by_cases e : k = s.active c
      · exact e
      · rcases hI.idle (c, k) h1 e with ⟨_, _, _, _, h⟩ | h
        · rw [hw] at h; rcases h with ⟨h, _⟩ | ⟨h, _⟩ | ⟨h, _⟩ <;> cases h
        · omega
    obtain ⟨p, h3, _⟩ := hI.ptr _ h1 h2
    have hn : s.nxt c = some ((s.ptr (c, k)).getD none) := by
      unfold State.nxt; rw [← hk, h3]; rfl
    refine ⟨_, getElem?_put hr, ?_⟩
    cases prev with
    | none => exact ⟨hA, hn⟩
    | some h => exact ⟨hA, hn⟩
  | put c k p h h' =>
    rw [hr] at h'; cases h'
    refine ⟨_, getElem?_put hr, ?_⟩
    split <;> exact hA
  | post c k p h h' => rw [hr] at h'; cases h'; exact ⟨_, getElem?_put hr, hA⟩
  | run c k n h => rw [hr] at h; cases h; exact absurd (getElem?_put hr) (hno c k n rfl)
  | leave c k p h => rw [hr] at h; cases h; exact ⟨_, getElem?_put hr, c, hA.1⟩
  | fput c k h =>
    rw [hr] at h; cases h
    refine ⟨_, getElem?_put hr, ?_⟩
    split <;> exact hA
  | fpost c k h => rw [hr] at h; cases h; exact ⟨_, getElem?_put hr, hA⟩

theorem handlers_inv {n t : Nat} {s s' : State} {l : List Nat} (r : Reach true n s) (hw : s.writer = .idle) (h : Handlers t s l s') :
    Reach true n s' ∧ s'.writer = .idle ∧ s'.nxt = s.nxt ∧ ∃ p, s'.readers[t]? = some p ∧ p.At s.nxt l := by
  induction h with
  | start h0 st =>
    obtain ⟨f1, f2, _, _⟩ := rstep_frame st
    refine ⟨.reader t r st, f2.trans hw, f1, ?_⟩
    cases st with
    | start h => exact ⟨_, getElem?_put h, rfl⟩
    | active c prev h => rw [h0] at h; cases h
    | get c k prev h => rw [h0] at h; cases h
    | casOk c k r prev h _ => rw [h0] at h; cases h
    | casFail c k r prev h => rw [h0] at h; cases h
    | ptr c k prev h => rw [h0] at h; cases h
    | put c k p h h' => rw [h0] at h'; cases h'
    | post c k p h h' => rw [h0] at h'; cases h'
    | run c k n h => rw [h0] at h; cases h
    | leave c k p h => rw [h0] at h; cases h
    | fput c k h => rw [h0] at h; cases h
    | fpost c k h => rw [h0] at h; cases h
  | run c k n _ hv st ha ih =>
    obtain ⟨i1, i2, i3, p, i4, i5⟩ := ih
    obtain ⟨f1, f2, _, _⟩ := rstep_frame st
    refine ⟨.reader t i1 st, f2.trans i2, f1.trans i3, _, ha, ?_⟩
    rw [hv] at i4; cases i4
    exact i5.1.append ⟨i5.2, rfl⟩
  | other u _ st hu ih =>
    obtain ⟨i1, i2, i3, p, i4, i5⟩ := ih
    obtain ⟨f1, f2, _, f4⟩ := rstep_frame st
    refine ⟨.reader u i1 st, f2.trans i2, f1.trans i3, ?_⟩
    by_cases e : t = u
    · subst e
      obtain ⟨u1, u2⟩ := hu rfl
      rw [← i3] at i5 ⊢
      exact at_step (reach_inv i1) i2 st i4 (fun e => u1 (e ▸ i4)) i5 (fun c k n e => u2 c k n (e ▸ i4))
    · exact ⟨p, (f4 t e).trans i4, i5⟩

end Verif.Sighook
