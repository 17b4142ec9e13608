import Verif.Lemmas.Sighook
namespace Verif.Sighook

variable {s : State}

theorem ok_congr {r : RPc} {p q : Slot → Option (Option Nat)} (h : ∀ sl ∈ r.holds, q sl = p sl) (hr : r.Ok p) : r.Ok q := by
  have ht : ∀ {c : Nat} {prev : Option Slot}, (∀ h, prev = some h → h ∈ r.holds) → target p c prev → target q c prev := by
    intro c prev hm ht
    rcases ht with h' | ⟨h', e1, e2⟩
    · exact Or.inl h'
    · exact Or.inr ⟨h', e1, by rw [h _ (hm _ e1)]; exact e2⟩
  cases r with
  | idle => trivial
  | active c prev => exact ht (by intro h e; simp [RPc.holds, e]) hr
  | get c k prev => exact ht (by intro h e; simp [RPc.holds, e]) hr
  | cas c k r prev => exact ⟨ht (by intro h e; simp [RPc.holds, e]) hr.1, hr.2⟩
  | ptr c k prev => exact ht (by intro h e; simp [RPc.holds, e]) hr
  | put c k p' h' => exact (h (c, k) (by simp [RPc.holds])).trans hr
  | post c k p' h' => exact (h (c, k) (by simp [RPc.holds])).trans hr
  | visit c k p' => exact (h (c, k) (by simp [RPc.holds])).trans hr
  | fput c k => trivial
  | fpost c k => trivial

theorem Inv.readers_ok (hI : Inv s) {q : Slot → Option (Option Nat)} (h : ∀ sl, s.alive sl.1 = true → 0 < s.refs sl → q sl = s.ptr sl) :
    ∀ r ∈ s.readers, r.Ok q := by
  intro r hr
  obtain ⟨t, ht⟩ := List.getElem?_of_mem hr
  refine ok_congr (fun sl hsl => ?_) (hI.readers r hr)
  obtain ⟨h1, h2⟩ := mem_holds_alive hI ht hsl
  exact h sl h1 h2

theorem not_waits {w : WPc} {sl : Slot} (h : ∀ x i v k, w ≠ .run .wait x i v k) : ¬ w.waits sl := by
  rintro ⟨v, k, e⟩; exact h _ _ _ _ e

/-- Outside of updates, the active slot of a live cell has a pointer. -/
theorem Inv.active_ptr (hI : Inv s) {c : Nat} (ha : s.alive c = true) (ho : owned s.writer c (s.active c) (s.active c) = 1) :
    ∃ p, s.ptr (c, s.active c) = some p ∧ ∀ n, p = some n → s.alive n = true ∧ c < n ∧ link s.self s.writer c n := by
  have := hI.refs c (s.active c) ha
  exact hI.ptr (c, s.active c) ha (by rw [this]; omega)

theorem link_idle {self : Nat → Nat} {c n : Nat} (h : link self .idle c n) : self n = c := by
  rcases h with h | ⟨_, _, _, _, _, h, _⟩ | ⟨_, _, _, h⟩
  · exact h
  · cases h
  · cases h

theorem append_inv (hI : Inv s) (hw : s.writer = .idle) : Inv s.append := by
  have hn : s.alive s.fresh = false := by
    cases h : s.alive s.fresh
    · rfl
    · have := hI.fresh _ h; omega
  have hne : ∀ {c}, s.alive c = true → c ≠ s.fresh := by
    intro c hc e; rw [e, hn] at hc; cases hc
  have ha : ∀ {c}, upd s.alive s.fresh true c = true → c = s.fresh ∨ (c ≠ s.fresh ∧ s.alive c = true) := by
    intro c hc
    rcases upd_cases s.alive s.fresh c true with ⟨e, _⟩ | ⟨e, e'⟩
    · exact Or.inl e
    · exact Or.inr ⟨e, e' ▸ hc⟩
  have sl2 : ∀ {α : Type} (f : Slot → α) (a b : α) {c : Nat} {k : Bool}, c ≠ s.fresh → upd (upd f (s.fresh, false) a) (s.fresh, true) b (c, k) = f (c, k) := by
    intro α f a b c k h
    rw [upd_ne _ _ (by simp [h]), upd_ne _ _ (by simp [h])]
  have sl1 : ∀ {α : Type} (f : Slot → α) (a b : α), upd (upd f (s.fresh, false) a) (s.fresh, true) b (s.fresh, false) = a := by
    intro α f a b
    rw [upd_ne _ _ (by simp), upd_same]
  have sl0 : ∀ {α : Type} (f : Slot → α) (a b : α), upd (upd f (s.fresh, false) a) (s.fresh, true) b (s.fresh, true) = b := by
    intro α f a b; rw [upd_same]
  have htail := hI.tail
  have hfresh0 : 0 ≠ s.fresh := hne hI.root
  obtain ⟨p0, hp0, hp1⟩ := hI.active_ptr htail.1 (by rw [hw]; simp [owned])
  refine ⟨?_, ?_, ?_, ?_, ?_, ?_, ?_, ?_, ?_, ?_, ?_, ?_, ?_, ?_, ?_⟩
  · show (s.bad || !s.alive s.tail) = false
    simp [hI.good, htail.1]
  · show upd s.alive s.fresh true 0 = true
    rw [upd_ne _ _ hfresh0]; exact hI.root
  · intro n hn'
    show n < s.fresh + 1
    rcases ha hn' with rfl | ⟨_, h⟩
    · omega
    · have := hI.fresh n h; omega
  · intro c k hc
    show upd (upd s.refs (s.fresh, false) 1) (s.fresh, true) 0 (c, k) = owned (.run .set s.tail (s.active s.tail) (some s.fresh) (.append s.fresh)) c (upd s.active s.fresh false c) k + H s.readers (c, k)
    rcases ha hc with rfl | ⟨h1, h2⟩
    · have := (hI.dead s.fresh k hn).1
      rw [upd_same]
      cases k
      · rw [sl1]; simp [owned]; omega
      · rw [sl0]; simp [owned]; omega
    · rw [sl2 _ _ _ h1, upd_ne _ _ h1, hI.refs c k h2, hw]; rfl
  · intro c k hc
    have hc : upd s.alive s.fresh true c = false := hc
    rcases upd_cases s.alive s.fresh c true with ⟨e, e'⟩ | ⟨e, e'⟩
    · rw [e'] at hc; cases hc
    · rw [e'] at hc; exact hI.dead c k hc
  · intro sl _ h
    exact absurd h (not_waits (by intro x i v k h; cases h))
  · intro sl hc _
    obtain ⟨c, k⟩ := sl
    show upd (upd s.sem (s.fresh, false) 0) (s.fresh, true) 0 (c, k) = 0 ∧ P s.readers (c, k) = 0
    rcases ha hc with h | ⟨h1, h2⟩
    · have h : c = s.fresh := h
      subst h
      refine ⟨?_, (hI.dead s.fresh k hn).2⟩
      cases k
      · rw [sl1]
      · rw [sl0]
    · rw [sl2 _ _ _ h1]
      exact hI.semN (c, k) h2 (by rw [hw]; exact not_waits (by intro x i v k h; cases h))
  · intro sl hc hp
    obtain ⟨c, k⟩ := sl
    have hp : 0 < upd (upd s.refs (s.fresh, false) 1) (s.fresh, true) 0 (c, k) := hp
    show ∃ p, upd (upd s.ptr (s.fresh, false) (some none)) (s.fresh, true) none (c, k) = some p ∧ ∀ n, p = some n → upd s.alive s.fresh true n = true ∧ c < n ∧ link (upd s.self s.fresh s.tail) _ c n
    rcases ha hc with h | ⟨h1, h2⟩
    · have h : c = s.fresh := h
      subst h
      cases k
      · rw [sl1]; exact ⟨none, rfl, fun n h => by cases h⟩
      · rw [sl0] at hp; omega
    · have h1 : c ≠ s.fresh := h1
      rw [sl2 _ _ _ h1] at hp ⊢
      obtain ⟨p, h3, h4⟩ := hI.ptr (c, k) h2 hp
      refine ⟨p, h3, fun n hn' => ?_⟩
      obtain ⟨h5, h6, h7⟩ := h4 n hn'
      rw [hw] at h7
      have h7 := link_idle h7
      exact ⟨by rw [upd_ne _ _ (hne h5)]; exact h5, h6, Or.inl (by rw [upd_ne _ _ (hne h5)]; exact h7)⟩
  · intro n hn' h0
    show upd s.self s.fresh s.tail n < n ∧ upd s.alive s.fresh true (upd s.self s.fresh s.tail n) = true
    rcases ha hn' with rfl | ⟨h1, h2⟩
    · rw [upd_same, upd_ne _ _ (hne htail.1)]
      exact ⟨hI.fresh _ htail.1, htail.1⟩
    · rw [upd_ne _ _ h1]
      obtain ⟨h3, h4⟩ := hI.self n h2 h0
      rw [upd_ne _ _ (hne h4)]
      exact ⟨h3, h4⟩
  · intro n hn' h0 h1 h2
    rcases ha hn' with rfl | ⟨h3, h4⟩
    · exact absurd (Or.inl ⟨.set, _, _, _, rfl, rfl⟩) h2
    · have h1 : upd s.self s.fresh s.tail n ≠ 0 := h1
      show upd (upd s.ptr (s.fresh, false) (some none)) (s.fresh, true) none (upd s.self s.fresh s.tail n, upd s.active s.fresh false (upd s.self s.fresh s.tail n)) = some (some n)
      rw [upd_ne _ _ h3] at h1 ⊢
      obtain ⟨_, h5⟩ := hI.self n h4 h0
      rw [sl2 _ _ _ (hne h5), upd_ne _ _ (hne h5)]
      refine hI.back n h4 h0 h1 ?_
      rw [hw]
      rintro (⟨_, _, _, _, h, _⟩ | ⟨_, _, _, _, _, h, _⟩ | ⟨_, _, _, _, h⟩) <;> cases h
  · show upd s.alive s.fresh true s.fresh = true ∧ (s.fresh ≠ 0 → upd (upd s.ptr (s.fresh, false) (some none)) (s.fresh, true) none (s.fresh, upd s.active s.fresh false s.fresh) = some none)
    rw [upd_same, upd_same]
    exact ⟨rfl, fun _ => sl1 _ _ _⟩
  · intro sl hc h
    obtain ⟨c, k⟩ := sl
    have h : k ≠ upd s.active s.fresh false c := h
    show _ ∨ upd (upd s.refs (s.fresh, false) 1) (s.fresh, true) 0 (c, k) = 0
    right
    rcases ha hc with h' | ⟨h1, h2⟩
    · have h' : c = s.fresh := h'
      subst h'
      rw [upd_same] at h
      cases k
      · exact absurd rfl h
      · rw [sl0]
    · have h1 : c ≠ s.fresh := h1
      rw [upd_ne _ _ h1] at h
      rw [sl2 _ _ _ h1]
      rcases hI.idle (c, k) h2 h with ⟨x, i, v, kk, hb⟩ | h3
      · rw [hw] at hb
        rcases hb with ⟨h, _⟩ | ⟨h, _⟩ | ⟨h, _⟩ <;> cases h
      · exact h3
  · have hx := hne htail.1
    refine ⟨?_, ?_, ?_, (fun h => absurd rfl h), (fun h => by cases h), rfl, ?_, ?_, hfresh0.symm, rfl, ?_, ?_⟩
    · show upd s.alive s.fresh true s.tail = true
      rw [upd_ne _ _ hx]; exact htail.1
    · show upd s.active s.fresh false s.tail = s.active s.tail
      rw [upd_ne _ _ hx]
    · show upd (upd s.ptr (s.fresh, false) (some none)) (s.fresh, true) none (s.tail, s.active s.tail) ≠ none
      rw [sl2 _ _ _ hx, hp0]; simp
    · show s.tail = upd s.self s.fresh s.tail s.fresh
      rw [upd_same]
    · show upd s.alive s.fresh true s.fresh = true
      rw [upd_same]
    · show s.fresh ∉ s.hooks
      intro h; exact hne (hI.hooks.1 _ h).1 rfl
    · intro h0
      show upd (upd s.ptr (s.fresh, false) (some none)) (s.fresh, true) none (s.tail, s.active s.tail) = some none
      rw [sl2 _ _ _ hx]; exact htail.2 h0
  · refine hI.readers_ok (fun sl h _ => ?_)
    obtain ⟨c, k⟩ := sl
    exact sl2 _ _ _ (hne h)
  · refine ⟨fun n hn' => ?_, hI.hooks.2⟩
    obtain ⟨h1, h2⟩ := hI.hooks.1 n hn'
    refine ⟨?_, h2⟩
    show upd s.alive s.fresh true n = true
    rw [upd_ne _ _ (hne h1)]; exact h1

theorem remove_inv (hI : Inv s) (hw : s.writer = .idle) {X : Nat} (hX : X ∈ s.hooks) : Inv (s.remove X) := by
  obtain ⟨h1, h2⟩ := hI.hooks.1 X hX
  obtain ⟨h3, h4⟩ := hI.self X h1 h2
  have own : ∀ c, owned s.writer c (s.active c) (s.active c) = 1 := by intro c; rw [hw]; simp [owned]
  obtain ⟨nx, h5, h6⟩ := hI.active_ptr h1 (own X)
  obtain ⟨q, h7, _⟩ := hI.active_ptr h4 (own _)
  have hex : ∀ n, ¬ exempt s.writer n := by
    intro n
    rw [hw]
    rintro (⟨_, _, _, _, h, _⟩ | ⟨_, _, _, _, _, h, _⟩ | ⟨_, _, _, _, h⟩) <;> cases h
  have hnw : ∀ sl, ¬ s.writer.waits sl := by
    intro sl; rw [hw]; exact not_waits (by intro x i v k h; cases h)
  have hg : (s.ptr (X, s.active X)).getD none = nx := by rw [h5]; rfl
  refine ⟨?_, hI.root, hI.fresh, ?_, hI.dead, ?_, ?_, ?_, hI.self, ?_, hI.tail, ?_, ?_, hI.readers, ?_⟩
  · show (s.bad || !(decide _)) = false
    simp [hI.good, h1, h4, h5]
  · intro c k hc
    have := hI.refs c k hc
    rw [hw] at this
    exact this
  · intro sl _ h
    exact absurd h (not_waits (by intro x i v k h; cases h))
  · intro sl hc _
    exact hI.semN sl hc (hnw sl)
  · intro sl hc hp
    obtain ⟨p, a1, a2⟩ := hI.ptr sl hc hp
    refine ⟨p, a1, fun n hn => ?_⟩
    obtain ⟨a3, a4, a5⟩ := a2 n hn
    rw [hw] at a5
    exact ⟨a3, a4, Or.inl (link_idle a5)⟩
  · intro n hn h0 h1 _
    exact hI.back n hn h0 h1 (hex n)
  · intro sl hc h
    rcases hI.idle sl hc h with ⟨x, i, v, kk, hb⟩ | h3
    · rw [hw] at hb
      rcases hb with ⟨h, _⟩ | ⟨h, _⟩ | ⟨h, _⟩ <;> cases h
    · exact Or.inr h3
  · refine ⟨h4, rfl, ?_, (fun h => absurd rfl h), (fun h => by cases h), rfl, rfl, h1, h2, ?_, ?_, ?_, (fun h => by cases h)⟩
    · show s.ptr (s.self X, s.active (s.self X)) ≠ none
      rw [h7]; simp
    · show s.ptr (X, s.active X) = some ((s.ptr (X, s.active X)).getD none)
      rw [h5]; rfl
    · intro h0 ht
      have ht : s.tail = s.self X := ht
      have b1 := hI.back X h1 h2 h0 (hex X)
      have b2 := hI.tail.2 (by rw [ht]; exact h0)
      rw [ht, b1] at b2
      cases b2
    · show X ∉ s.hooks.erase X
      intro h
      rw [hI.hooks.2.mem_erase_iff] at h
      exact h.1 rfl
  · show (∀ n ∈ s.hooks.erase X, _) ∧ (s.hooks.erase X).Nodup
    exact ⟨fun n hn => hI.hooks.1 n (List.mem_of_mem_erase hn), hI.hooks.2.erase _⟩

theorem link_phase {self : Nat → Nat} {ph ph' : Phase} {x : Nat} {i : Bool} {v : Option Nat} {k : Kont} {c n : Nat}
    (h : link self (.run ph x i v k) c n) : link self (.run ph' x i v k) c n := by
  rcases h with h | ⟨_, _, _, _, X, h, e⟩ | ⟨_, _, _, h⟩
  · exact Or.inl h
  · cases h; subst e; exact Or.inr (Or.inl ⟨_, _, _, _, _, rfl, rfl⟩)
  · cases h; exact Or.inr (Or.inr ⟨_, _, _, rfl⟩)

theorem exempt_phase {ph ph' : Phase} {x : Nat} {i : Bool} {v : Option Nat} {k : Kont} {n : Nat} (hp : ph.published = ph'.published)
    (h : exempt (.run ph x i v k) n) : exempt (.run ph' x i v k) n := by
  rcases h with ⟨_, _, _, _, h, e⟩ | ⟨_, _, _, _, _, h, e⟩ | ⟨_, _, _, _, h⟩
  · cases h; exact Or.inl ⟨_, _, _, _, rfl, hp ▸ e⟩
  · cases h; exact Or.inr (Or.inl ⟨_, _, _, _, _, rfl, hp ▸ e⟩)
  · cases h; exact Or.inr (Or.inr ⟨_, _, _, _, rfl⟩)

/-- What an unpublished update knows: it is not about to destroy. -/
theorem WOk.live {ph : Phase} {x : Nat} {i : Bool} {v : Option Nat} {k : Kont} (h : WOk s (.run ph x i v k)) :
    s.alive x = true ∧ s.ptr (x, i) ≠ none ∧ (ph = .take → s.refs (x, i) = 0) := by
  cases k with
  | append n => obtain ⟨a1, a2, a3, a4, a5, _⟩ := h; exact ⟨a1, a3, a5⟩
  | remove X nx => obtain ⟨a1, a2, a3, a4, a5, _⟩ := h; exact ⟨a1, a3, a5⟩
  | destroy X => obtain ⟨a1, a2, a3, a4, a5, a6, a7, a8, a9, _⟩ := h; subst a1; exact ⟨a4, a6, a9⟩

theorem WOk.act {ph : Phase} {x : Nat} {i : Bool} {v : Option Nat} {k : Kont} (h : WOk s (.run ph x i v k)) (hp : ph.published = false) : s.active x = i := by
  cases k with
  | append n => obtain ⟨a1, a2, _⟩ := h; rw [hp] at a2; exact a2
  | remove X nx => obtain ⟨a1, a2, _⟩ := h; rw [hp] at a2; exact a2
  | destroy X => obtain ⟨_, a2, _⟩ := h; rw [hp] at a2; cases a2

theorem set_inv (hI : Inv s) {x : Nat} {i : Bool} {v : Option Nat} {k : Kont} (hw : s.writer = .run .set x i v k) :
    Inv { s.need (s.alive x ∧ s.refs (x, !i) = 0) with ptr := upd s.ptr (x, !i) (some v), writer := .run .ref x i v k } := by
  have hk := hI.writer
  rw [hw] at hk
  have hal := hk.live.1
  have hact := hk.act rfl
  have hz : s.refs (x, !i) = 0 := by
    rcases hI.idle (x, !i) hal (by rw [hact]; cases i <;> simp) with ⟨x, i, v, kk, hb⟩ | h3
    · rw [hw] at hb
      rcases hb with ⟨h, _⟩ | ⟨h, _⟩ | ⟨h, _⟩ <;> cases h
    · exact h3
  have hp : ∀ {c : Nat} {a : Bool}, (c, a) ≠ (x, !i) → upd s.ptr (x, !i) (some v) (c, a) = s.ptr (c, a) := fun h => upd_ne _ _ h
  have hpa : ∀ c, upd s.ptr (x, !i) (some v) (c, s.active c) = s.ptr (c, s.active c) := by
    intro c
    refine hp ?_
    intro e
    have e1 := congrArg Prod.fst e
    have e2 := congrArg Prod.snd e
    simp only at e1 e2
    rw [e1, hact] at e2
    cases i <;> simp at e2
  have hpi : upd s.ptr (x, !i) (some v) (x, i) = s.ptr (x, i) := by
    refine hp ?_
    intro e; cases i <;> simp at e
  have hpr : ∀ sl, 0 < s.refs sl → upd s.ptr (x, !i) (some v) sl = s.ptr sl := by
    intro sl h
    refine upd_ne _ _ ?_
    intro e; rw [e] at h; omega
  refine ⟨?_, hI.root, hI.fresh, ?_, hI.dead, ?_, ?_, ?_, hI.self, ?_, ?_, ?_, ?_, ?_, hI.hooks⟩
  · show (s.bad || !(decide _)) = false
    simp [hI.good, hal, hz]
  · intro c a hc
    have := hI.refs c a hc
    rw [hw] at this
    exact this
  · intro sl _ h
    exact absurd h (not_waits (by intro x i v k h; cases h))
  · intro sl hc _
    exact hI.semN sl hc (by rw [hw]; exact not_waits (by intro x i v k h; cases h))
  · intro sl hc hpos
    obtain ⟨p, a1, a2⟩ := hI.ptr sl hc hpos
    refine ⟨p, (hpr sl hpos).trans a1, fun n hn => ?_⟩
    obtain ⟨a3, a4, a5⟩ := a2 n hn
    rw [hw] at a5
    exact ⟨a3, a4, link_phase a5⟩
  · intro n hn h0 h1 h2
    refine (hpa _).trans (hI.back n hn h0 h1 ?_)
    rw [hw]
    exact fun h => h2 (exempt_phase (ph := .set) (ph' := .ref) rfl h)
  · exact ⟨hI.tail.1, fun h => (hpa _).trans (hI.tail.2 h)⟩
  · intro sl hc h
    rcases hI.idle sl hc h with ⟨x, i, v, kk, hb⟩ | h3
    · rw [hw] at hb
      rcases hb with ⟨h, _⟩ | ⟨h, _⟩ | ⟨h, _⟩ <;> cases h
    · exact Or.inr h3
  · cases k with
    | append n =>
      obtain ⟨a1, a2, a3, a4, a5, a6, a7, a8, a9, a10, a11, a12⟩ := hk
      exact ⟨a1, a2, by show upd _ _ _ _ ≠ _; rw [hpi]; exact a3, fun _ => upd_same _ _ _, (fun h => by cases h), a6, a7, a8, a9, a10, a11,
        fun h => hpi.trans (a12 h)⟩
    | remove X nx =>
      obtain ⟨a1, a2, a3, a4, a5, a6, a7, a8, a9, a10, a11, a12, a13⟩ := hk
      exact ⟨a1, a2, by show upd _ _ _ _ ≠ _; rw [hpi]; exact a3, fun _ => upd_same _ _ _, (fun h => by cases h), a6, a7, a8, a9,
        (hpa X).trans a10, a11, a12, (fun h => by cases h)⟩
    | destroy X => obtain ⟨_, a2, _⟩ := hk; cases a2
  · exact hI.readers_ok (fun sl _ h => hpr sl h)

theorem ref_inv (hI : Inv s) {x : Nat} {i : Bool} {v : Option Nat} {k : Kont} (hw : s.writer = .run .ref x i v k) :
    Inv { s.need (s.alive x) with refs := upd s.refs (x, !i) 1, writer := .run .pub x i v k } := by
  have hk := hI.writer
  rw [hw] at hk
  have hal := hk.live.1
  have hact := hk.act rfl
  have hz : s.refs (x, !i) = 0 := by
    rcases hI.idle (x, !i) hal (by rw [hact]; cases i <;> simp) with ⟨x, i, v, kk, hb⟩ | h3
    · rw [hw] at hb
      rcases hb with ⟨h, _⟩ | ⟨h, _⟩ | ⟨h, _⟩ <;> cases h
    · exact h3
  have hv : s.ptr (x, !i) = some v ∧ ∀ n, v = some n → s.alive n = true ∧ x < n ∧ link s.self (.run .pub x i v k) x n := by
    cases k with
    | append n =>
      obtain ⟨a1, a2, a3, a4, a5, a6, a7, a8, a9, a10, a11, a12⟩ := hk
      refine ⟨a4 (by simp), fun m hm => ?_⟩
      rw [a6] at hm; cases hm
      exact ⟨a8, by rw [a7]; exact (hI.self n a8 a9).1, Or.inl a7.symm⟩
    | remove X nx =>
      obtain ⟨a1, a2, a3, a4, a5, a6, a7, a8, a9, a10, a11, a12, a13⟩ := hk
      refine ⟨a4 (by simp), fun m hm => ?_⟩
      obtain ⟨p, b1, b2⟩ := hI.active_ptr a8 (by rw [hw]; simp [owned])
      rw [a10] at b1; cases b1
      obtain ⟨b3, b4, _⟩ := b2 m (by rw [← a6]; exact hm)
      have b5 := (hI.self X a8 a9).1
      refine ⟨b3, by omega, Or.inr (Or.inl ⟨.pub, x, i, v, X, ?_, rfl⟩)⟩
      rw [← a6, hm]
    | destroy X => obtain ⟨_, a2, _⟩ := hk; cases a2
  refine ⟨?_, hI.root, hI.fresh, ?_, hI.dead, ?_, ?_, ?_, hI.self, ?_, hI.tail, ?_, ?_, hI.readers, hI.hooks⟩
  · show (s.bad || !(s.alive x)) = false
    simp [hI.good, hal]
  · intro c a hc
    have h1 := hI.refs c a hc
    rw [hw] at h1
    show upd s.refs (x, !i) 1 (c, a) = owned (.run .pub x i v k) c (s.active c) a + H s.readers (c, a)
    rcases upd_cases s.refs (x, !i) (c, a) 1 with ⟨e, e'⟩ | ⟨e, e'⟩
    · rw [e']; cases e; rw [hz] at h1; simp [owned]; omega
    · rw [e', h1]
      by_cases hcx : c = x
      · subst hcx
        have : a = i := by cases a <;> cases i <;> simp_all
        subst this
        rw [hact]; simp [owned]
      · simp [owned, hcx]
  · intro sl _ h
    exact absurd h (not_waits (by intro x i v k h; cases h))
  · intro sl hc _
    exact hI.semN sl hc (by rw [hw]; exact not_waits (by intro x i v k h; cases h))
  · intro sl hc hpos
    have hpos : 0 < upd s.refs (x, !i) 1 sl := hpos
    rcases upd_cases s.refs (x, !i) sl 1 with ⟨e, e'⟩ | ⟨e, e'⟩
    · subst e; exact ⟨v, hv.1, hv.2⟩
    · rw [e'] at hpos
      obtain ⟨p, a1, a2⟩ := hI.ptr sl hc hpos
      refine ⟨p, a1, fun n hn => ?_⟩
      obtain ⟨a3, a4, a5⟩ := a2 n hn
      rw [hw] at a5
      exact ⟨a3, a4, link_phase a5⟩
  · intro n hn h0 h1 h2
    refine hI.back n hn h0 h1 ?_
    rw [hw]
    exact fun h => h2 (exempt_phase (ph := .ref) (ph' := .pub) rfl h)
  · intro sl hc h
    rcases upd_cases s.refs (x, !i) sl 1 with ⟨e, e'⟩ | ⟨e, e'⟩
    · left; exact ⟨x, i, v, k, Or.inl ⟨rfl, e⟩⟩
    · right
      refine e'.trans ?_
      rcases hI.idle sl hc h with ⟨x, i, v, kk, hb⟩ | h3
      · rw [hw] at hb
        rcases hb with ⟨h, _⟩ | ⟨h, _⟩ | ⟨h, _⟩ <;> cases h
      · exact h3
  · cases k with
    | append n =>
      obtain ⟨a1, a2, a3, a4, a5, a6, a7, a8, a9, a10, a11, a12⟩ := hk
      exact ⟨a1, a2, a3, fun _ => hv.1, (fun h => by cases h), a6, a7, a8, a9, a10, a11, a12⟩
    | remove X nx =>
      obtain ⟨a1, a2, a3, a4, a5, a6, a7, a8, a9, a10, a11, a12, a13⟩ := hk
      exact ⟨a1, a2, a3, fun _ => hv.1, (fun h => by cases h), a6, a7, a8, a9, a10, a11, a12, (fun h => by cases h)⟩
    | destroy X => obtain ⟨_, a2, _⟩ := hk; cases a2

theorem pub_inv (hI : Inv s) {x : Nat} {i : Bool} {v : Option Nat} {k : Kont} (hw : s.writer = .run .pub x i v k) :
    Inv { s.need (s.alive x) with active := upd s.active x (!i), writer := .run .sub x i v k } := by
  have hk := hI.writer
  rw [hw] at hk
  have hal := hk.live.1
  have hact := hk.act rfl
  have hnd : ∀ n, k ≠ .destroy n := by
    rintro n rfl; obtain ⟨_, a2, _⟩ := hk; cases a2
  refine ⟨?_, hI.root, hI.fresh, ?_, hI.dead, ?_, ?_, ?_, hI.self, ?_, ?_, ?_, ?_, hI.readers, hI.hooks⟩
  · show (s.bad || !(s.alive x)) = false
    simp [hI.good, hal]
  · intro c a hc
    have h1 := hI.refs c a hc
    rw [hw] at h1
    show s.refs (c, a) = owned (.run .sub x i v k) c (upd s.active x (!i) c) a + H s.readers (c, a)
    rw [h1]
    by_cases hcx : c = x
    · subst hcx
      cases k with
      | append n => simp [owned]
      | remove X nx => simp [owned]
      | destroy X => exact absurd rfl (hnd X)
    · rw [upd_ne _ _ hcx]
      cases k with
      | append n => simp [owned, hcx]
      | remove X nx => simp [owned, hcx]
      | destroy X => exact absurd rfl (hnd X)
  · intro sl _ h
    exact absurd h (not_waits (by intro x i v k h; cases h))
  · intro sl hc _
    exact hI.semN sl hc (by rw [hw]; exact not_waits (by intro x i v k h; cases h))
  · intro sl hc hpos
    obtain ⟨p, a1, a2⟩ := hI.ptr sl hc hpos
    refine ⟨p, a1, fun n hn => ?_⟩
    obtain ⟨a3, a4, a5⟩ := a2 n hn
    rw [hw] at a5
    exact ⟨a3, a4, link_phase a5⟩
  · intro n hn h0 h1 h2
    show s.ptr (s.self n, upd s.active x (!i) (s.self n)) = some (some n)
    have h1 : s.self n ≠ 0 := h1
    rcases upd_cases s.active x (s.self n) (!i) with ⟨e, e'⟩ | ⟨e, e'⟩
    · rw [e', e]
      cases k with
      | append m =>
        obtain ⟨a1, a2, a3, a4, a5, a6, a7, a8, a9, a10, a11, a12⟩ := hk
        by_cases hm : n = m
        · subst hm; rw [a4 (by simp), a6]
        · have b1 := hI.back n hn h0 h1 (by
            rw [hw]
            rintro (⟨_, _, _, _, h, _⟩ | ⟨_, _, _, _, _, h, _⟩ | ⟨_, _, _, _, h⟩) <;> cases h
            exact hm rfl)
          rw [e, hact, a12 (by rw [← e]; exact h1)] at b1
          cases b1
      | remove X nx =>
        obtain ⟨a1, a2, a3, a4, a5, a6, a7, a8, a9, a10, a11, a12, a13⟩ := hk
        exfalso
        have hne : ∀ n, ¬ exempt s.writer n := by
          intro n
          rw [hw]
          rintro (⟨_, _, _, _, h, _⟩ | ⟨_, _, _, _, _, h, h'⟩ | ⟨_, _, _, _, h⟩) <;> cases h
          cases h'
        have b1 := hI.back n hn h0 h1 (hne n)
        have b2 := hI.back X a8 a9 (by rw [← a7, ← e]; exact h1) (hne X)
        rw [e] at b1
        rw [← a7, b1] at b2
        cases b2
        exact h2 (Or.inr (Or.inl ⟨_, _, _, _, _, rfl, rfl⟩))
      | destroy X => exact absurd rfl (hnd X)
    · rw [e']
      refine hI.back n hn h0 h1 ?_
      rw [hw]
      rintro (⟨_, _, _, _, h, _⟩ | ⟨_, _, _, _, _, h, h'⟩ | ⟨_, _, _, _, h⟩)
      · cases h
        obtain ⟨a1, a2, a3, a4, a5, a6, a7, _⟩ := hk
        exact e a7.symm
      · cases h; cases h'
      · cases h; exact hnd n rfl
  · refine ⟨hI.tail.1, fun h => ?_⟩
    have h : s.tail ≠ 0 := h
    have hne : s.tail ≠ x := by
      cases k with
      | append n =>
        obtain ⟨a1, a2, a3, a4, a5, a6, a7, a8, a9, a10, a11, a12⟩ := hk
        have := (hI.self n a8 a9).1
        omega
      | remove X nx =>
        obtain ⟨a1, a2, a3, a4, a5, a6, a7, a8, a9, a10, a11, a12, a13⟩ := hk
        by_cases h0 : x = 0
        · omega
        · exact a11 h0
      | destroy X => exact absurd rfl (hnd X)
    show s.ptr (s.tail, upd s.active x (!i) s.tail) = some none
    rw [upd_ne _ _ hne]; exact hI.tail.2 h
  · intro sl hc h
    obtain ⟨c, a⟩ := sl
    have h : a ≠ upd s.active x (!i) c := h
    rcases upd_cases s.active x c (!i) with ⟨e, e'⟩ | ⟨e, e'⟩
    · rw [e'] at h
      have : a = i := by cases a <;> cases i <;> simp_all
      subst this e
      left; exact ⟨_, _, v, k, Or.inr (Or.inl ⟨rfl, rfl⟩)⟩
    · rw [e'] at h
      right
      rcases hI.idle (c, a) hc h with ⟨x', i', v', kk, hb⟩ | h3
      · rw [hw] at hb
        rcases hb with ⟨h, h'⟩ | ⟨h, _⟩ | ⟨h, _⟩ <;> cases h
        cases h'; exact absurd rfl e
      · exact h3
  · cases k with
    | append n =>
      obtain ⟨a1, a2, a3, a4, a5, a6, a7, a8, a9, a10, a11, a12⟩ := hk
      exact ⟨a1, upd_same _ _ _, a3, fun _ => a4 (by simp), (fun h => by cases h), a6, a7, a8, a9, a10, a11, a12⟩
    | remove X nx =>
      obtain ⟨a1, a2, a3, a4, a5, a6, a7, a8, a9, a10, a11, a12, a13⟩ := hk
      have b0 := (hI.self X a8 a9).1
      have hX : X ≠ x := by omega
      obtain ⟨p, b1, b2⟩ := hI.active_ptr a8 (by rw [hw]; simp [owned])
      rw [a10] at b1; cases b1
      refine ⟨a1, upd_same _ _ _, a3, fun _ => a4 (by simp), (fun h => by cases h), a6, a7, a8, a9, ?_, a11, a12, ?_⟩
      · show s.ptr (X, upd s.active x (!i) X) = some nx
        rw [upd_ne _ _ hX]; exact a10
      · intro _ sl h1 h2 h3
        have h1 : 0 < s.refs sl := h1
        have h2 : s.alive sl.1 = true := h2
        have h3 : s.ptr sl = some (some X) := h3
        obtain ⟨p, c1, c2⟩ := hI.ptr sl h2 h1
        rw [h3] at c1; cases c1
        obtain ⟨c3, c4, c5⟩ := c2 X rfl
        obtain ⟨c, a⟩ := sl
        have hcx : c = x := by
          rw [hw] at c5
          rcases c5 with h | ⟨_, _, _, _, Y, h, e⟩ | ⟨_, _, _, h⟩
          · exact (h.symm.trans a7.symm)
          · cases h; exact e
          · cases h
        subst hcx
        by_cases ha : a = i
        · rw [ha]
        · have : a = !i := by cases a <;> cases i <;> simp_all
          subst this
          have h3 : s.ptr (c, !i) = some (some X) := h3
          rw [a4 (by simp), a6] at h3
          cases h3
          have := (b2 X rfl).2.1
          omega
    | destroy X => exact absurd rfl (hnd X)

theorem sub_inv (hI : Inv s) {x : Nat} {i : Bool} {v : Option Nat} {k : Kont} (hw : s.writer = .run .sub x i v k) :
    Inv { s.need (s.alive x ∧ s.refs (x, i) > 0) with
        refs := upd s.refs (x, i) (s.refs (x, i) - 1), writer := .run (if s.refs (x, i) - 1 = 0 then .take else .wait) x i v k } := by
  have hk := hI.writer
  rw [hw] at hk
  have hal := hk.live.1
  have hi : owned s.writer x (s.active x) i = 1 := by
    rw [hw]
    cases k with
    | append n => simp [owned]
    | remove X nx => simp [owned]
    | destroy X =>
      obtain ⟨a1, a2, a3, a4, a5, _⟩ := hk
      subst a1; rw [a5]; simp [owned]
  have h0 := hI.refs x i hal
  have hpos : 0 < s.refs (x, i) := by omega
  have hpub : ∀ b : Bool, Phase.published (if s.refs (x, i) - 1 = 0 then .take else .wait) = true := by
    intro _; split <;> rfl
  have hle : ∀ sl, 0 < upd s.refs (x, i) (s.refs (x, i) - 1) sl → 0 < s.refs sl := by
    intro sl h
    rcases upd_cases s.refs (x, i) sl (s.refs (x, i) - 1) with ⟨e, e'⟩ | ⟨e, e'⟩
    · rw [e]; exact hpos
    · rw [e'] at h; exact h
  refine ⟨?_, hI.root, hI.fresh, ?_, hI.dead, ?_, ?_, ?_, hI.self, ?_, hI.tail, ?_, ?_, hI.readers, hI.hooks⟩
  · show (s.bad || !(decide _)) = false
    simp [hI.good, hal, hpos]
  · intro c a hc
    have h1 := hI.refs c a hc
    rw [hw] at h1
    show upd s.refs (x, i) (s.refs (x, i) - 1) (c, a) = owned (.run _ x i v k) c (s.active c) a + H s.readers (c, a)
    have hown : owned (.run (if s.refs (x, i) - 1 = 0 then .take else .wait) x i v k) c (s.active c) a + (if (c, a) = (x, i) then 1 else 0) = owned (.run .sub x i v k) c (s.active c) a := by
      cases k with
      | append n =>
        obtain ⟨a1, a2, _⟩ := hk
        have a2 : s.active x = !i := a2
        split <;> by_cases hcx : c = x <;> simp [owned, hcx] <;> (subst hcx; rw [a2]; cases a <;> cases i <;> simp)
      | remove X nx =>
        obtain ⟨a1, a2, _⟩ := hk
        have a2 : s.active x = !i := a2
        split <;> by_cases hcx : c = x <;> simp [owned, hcx] <;> (subst hcx; rw [a2]; cases a <;> cases i <;> simp)
      | destroy X =>
        obtain ⟨a1, a2, a3, a4, a5, _⟩ := hk
        subst a1
        split <;> by_cases hcx : c = x <;> simp [owned, hcx] <;> (subst hcx; rw [a5])
    rcases upd_cases s.refs (x, i) (c, a) (s.refs (x, i) - 1) with ⟨e, e'⟩ | ⟨e, e'⟩
    · rw [e']; rw [if_pos e] at hown; cases e; omega
    · rw [e']; rw [if_neg e] at hown; omega
  · intro sl hc h
    have hn := hI.semN sl hc (by rw [hw]; exact not_waits (by intro x i v k h; cases h))
    refine ⟨fun _ => hn, fun hz => ?_⟩
    have hz : upd s.refs (x, i) (s.refs (x, i) - 1) sl = 0 := hz
    obtain ⟨v', k', h⟩ := h
    by_cases h1 : s.refs (x, i) - 1 = 0
    · have h : WPc.run (if s.refs (x, i) - 1 = 0 then .take else .wait) x i v k = _ := h
      rw [if_pos h1] at h; cases h
    · have h : WPc.run (if s.refs (x, i) - 1 = 0 then .take else .wait) x i v k = _ := h
      rw [if_neg h1] at h
      injection h with _ e1 e2
      have : sl = (x, i) := by rw [e1, e2]
      rw [this, upd_same] at hz
      exact absurd hz h1
  · intro sl hc _
    exact hI.semN sl hc (by rw [hw]; exact not_waits (by intro x i v k h; cases h))
  · intro sl hc hp
    obtain ⟨p, a1, a2⟩ := hI.ptr sl hc (hle sl hp)
    refine ⟨p, a1, fun n hn => ?_⟩
    obtain ⟨a3, a4, a5⟩ := a2 n hn
    rw [hw] at a5
    exact ⟨a3, a4, link_phase a5⟩
  · intro n hn h0 h1 h2
    refine hI.back n hn h0 h1 ?_
    rw [hw]
    exact fun h => h2 (exempt_phase (ph := .sub) (hpub true).symm h)
  · intro sl hc h
    show _ ∨ upd s.refs (x, i) (s.refs (x, i) - 1) sl = 0
    by_cases e : sl = (x, i)
    · by_cases h1 : s.refs (x, i) - 1 = 0
      · right; rw [e, upd_same]; exact h1
      · left; refine ⟨x, i, v, k, Or.inr (Or.inr ⟨?_, e⟩)⟩
        show WPc.run (if s.refs (x, i) - 1 = 0 then .take else .wait) x i v k = _
        rw [if_neg h1]
    · right
      rw [upd_ne _ _ e]
      rcases hI.idle sl hc h with ⟨x, i, v, kk, hb⟩ | h3
      · rw [hw] at hb
        rcases hb with ⟨h, _⟩ | ⟨h, h'⟩ | ⟨h, _⟩ <;> cases h
        exact absurd h' e
      · exact h3
  · have htake : ∀ ph, ph = (if s.refs (x, i) - 1 = 0 then Phase.take else .wait) → ph = .take → upd s.refs (x, i) (s.refs (x, i) - 1) (x, i) = 0 := by
      intro ph h1 h2
      rw [upd_same]
      by_cases h3 : s.refs (x, i) - 1 = 0
      · exact h3
      · rw [if_neg h3, h2] at h1; cases h1
    have hset : ∀ ph, ph = (if s.refs (x, i) - 1 = 0 then Phase.take else .wait) → ph.published = true := by
      intro ph h; rw [h]; exact hpub true
    show WOk _ (.run _ x i v k)
    generalize hph : (if s.refs (x, i) - 1 = 0 then Phase.take else .wait) = ph
    have htake := htake ph hph.symm
    have hset := hset ph hph.symm
    cases k with
    | append n =>
      obtain ⟨a1, a2, a3, a4, a5, a6, a7, a8, a9, a10, a11, a12⟩ := hk
      exact ⟨a1, by rw [hset]; exact a2, a3, fun _ => a4 (by simp), htake, a6, a7, a8, a9, a10, a11, a12⟩
    | remove X nx =>
      obtain ⟨a1, a2, a3, a4, a5, a6, a7, a8, a9, a10, a11, a12, a13⟩ := hk
      exact ⟨a1, by rw [hset]; exact a2, a3, fun _ => a4 (by simp), htake, a6, a7, a8, a9, a10, a11, a12, fun _ sl h1 => a13 rfl sl (hle sl h1)⟩
    | destroy X =>
      obtain ⟨a1, a2, a3, a4, a5, a6, a7, a8, a9, a10, a11⟩ := hk
      subst a1
      exact ⟨rfl, hset, a3, a4, a5, a6, a7, a8, htake, a10, fun sl h1 => a11 sl (hle sl h1)⟩

theorem wait_inv (hI : Inv s) {x : Nat} {i : Bool} {v : Option Nat} {k : Kont} (hw : s.writer = .run .wait x i v k) (hsem : 0 < s.sem (x, i)) :
    Inv { s.need (s.alive x ∧ s.refs (x, i) = 0) with sem := upd s.sem (x, i) (s.sem (x, i) - 1), writer := .run .take x i v k } := by
  have hk := hI.writer
  rw [hw] at hk
  have hal := hk.live.1
  obtain ⟨h1, h2⟩ := hI.semW (x, i) hal (by rw [hw]; exact ⟨_, _, rfl⟩)
  have hz : s.refs (x, i) = 0 := by
    rcases Nat.eq_zero_or_pos (s.refs (x, i)) with h | h
    · exact h
    · have := (h1 h).1; omega
  have h3 := h2 hz
  refine ⟨?_, hI.root, hI.fresh, ?_, hI.dead, ?_, ?_, ?_, hI.self, ?_, hI.tail, ?_, ?_, hI.readers, hI.hooks⟩
  · show (s.bad || !(decide _)) = false
    simp [hI.good, hal, hz]
  · intro c a hc
    have h1 := hI.refs c a hc
    rw [hw] at h1
    refine h1.trans ?_
    cases k <;> rfl
  · intro sl _ h
    exact absurd h (not_waits (by intro x i v k h; cases h))
  · intro sl hc _
    show upd s.sem (x, i) (s.sem (x, i) - 1) sl = 0 ∧ _
    rcases upd_cases s.sem (x, i) sl (s.sem (x, i) - 1) with ⟨e, e'⟩ | ⟨e, e'⟩
    · rw [e', e]
      show _ ∧ P s.readers (x, i) = 0
      omega
    · rw [e']
      refine hI.semN sl hc ?_
      rw [hw]
      rintro ⟨v', k', h⟩
      injection h with _ e1 e2
      exact e (by rw [e1, e2])
  · intro sl hc hp
    obtain ⟨p, a1, a2⟩ := hI.ptr sl hc hp
    refine ⟨p, a1, fun n hn => ?_⟩
    obtain ⟨a3, a4, a5⟩ := a2 n hn
    rw [hw] at a5
    exact ⟨a3, a4, link_phase a5⟩
  · intro n hn h0 h1 h2
    refine hI.back n hn h0 h1 ?_
    rw [hw]
    exact fun h => h2 (exempt_phase (ph := .wait) (ph' := .take) rfl h)
  · intro sl hc h
    right
    rcases hI.idle sl hc h with ⟨x, i, v, kk, hb⟩ | h3
    · rw [hw] at hb
      rcases hb with ⟨h, _⟩ | ⟨h, h'⟩ | ⟨h, h'⟩ <;> cases h
      rw [h']; exact hz
    · exact h3
  · cases k with
    | append n =>
      obtain ⟨a1, a2, a3, a4, a5, a6, a7, a8, a9, a10, a11, a12⟩ := hk
      exact ⟨a1, a2, a3, fun _ => a4 (by simp), fun _ => hz, a6, a7, a8, a9, a10, a11, a12⟩
    | remove X nx =>
      obtain ⟨a1, a2, a3, a4, a5, a6, a7, a8, a9, a10, a11, a12, a13⟩ := hk
      exact ⟨a1, a2, a3, fun _ => a4 (by simp), fun _ => hz, a6, a7, a8, a9, a10, a11, a12, a13⟩
    | destroy X =>
      obtain ⟨a1, a2, a3, a4, a5, a6, a7, a8, a9, a10, a11⟩ := hk
      subst a1
      exact ⟨rfl, rfl, a3, a4, a5, a6, a7, a8, fun _ => hz, a10, a11⟩

theorem take_inv (hI : Inv s) {x : Nat} {i : Bool} {v : Option Nat} {k : Kont} (hw : s.writer = .run .take x i v k) :
    Inv (({ s.need (s.alive x ∧ s.ptr (x, i) ≠ none) with ptr := upd s.ptr (x, i) none } : State).after k) := by
  have hk := hI.writer
  rw [hw] at hk
  obtain ⟨hal, hpn, hz⟩ := hk.live
  have hz := hz rfl
  have hgood : (s.bad || !(decide (s.alive x = true ∧ s.ptr (x, i) ≠ none))) = false := by
    simp [hI.good, hal, hpn]
  have hpr : ∀ sl, 0 < s.refs sl → upd s.ptr (x, i) none sl = s.ptr sl := by
    intro sl h
    refine upd_ne _ _ ?_
    intro e; rw [e] at h; omega
  have hidle : ∀ sl, s.alive sl.1 = true → sl.2 ≠ s.active sl.1 → s.refs sl = 0 := by
    intro sl hc h
    rcases hI.idle sl hc h with ⟨x, i, v, kk, hb⟩ | h3
    · rw [hw] at hb
      rcases hb with ⟨h, _⟩ | ⟨h, h'⟩ | ⟨h, h'⟩ <;> cases h
    · exact h3
  have hsem : ∀ sl, s.alive sl.1 = true → s.sem sl = 0 ∧ P s.readers sl = 0 := fun sl hc =>
    hI.semN sl hc (by rw [hw]; exact not_waits (by intro x i v k h; cases h))
  have hpa : (∀ n, k ≠ .destroy n) → ∀ c, upd s.ptr (x, i) none (c, s.active c) = s.ptr (c, s.active c) := by
    intro hnd c
    refine upd_ne _ _ ?_
    intro e
    have e1 := congrArg Prod.fst e
    have e2 := congrArg Prod.snd e
    simp only at e1 e2
    have ha : s.active x = !i := by
      cases k with
      | append n => exact hk.2.1
      | remove X nx => exact hk.2.1
      | destroy X => exact absurd rfl (hnd X)
    rw [e1, ha] at e2
    cases i <;> simp at e2
  cases k with
  | append n =>
    have hpa := hpa (by intro m h; cases h)
    obtain ⟨a1, a2, a3, a4, a5, a6, a7, a8, a9, a10, a11, a12⟩ := hk
    refine ⟨hgood, hI.root, hI.fresh, ?_, hI.dead, ?_, fun sl hc _ => hsem sl hc, ?_, hI.self, ?_, ⟨hI.tail.1, fun h => (hpa _).trans (hI.tail.2 h)⟩,
      fun sl hc h => Or.inr (hidle sl hc h), trivial, hI.readers_ok (fun sl _ h => hpr sl h), ?_⟩
    · intro c a hc
      have h1 := hI.refs c a hc
      rw [hw] at h1
      exact h1
    · intro sl _ h
      exact absurd h (not_waits (by intro x i v k h; cases h))
    · intro sl hc hp
      obtain ⟨p, b1, b2⟩ := hI.ptr sl hc hp
      refine ⟨p, (hpr sl hp).trans b1, fun n hn => ?_⟩
      obtain ⟨b3, b4, b5⟩ := b2 n hn
      refine ⟨b3, b4, Or.inl ?_⟩
      rw [hw] at b5
      rcases b5 with h | ⟨_, _, _, _, _, h, _⟩ | ⟨_, _, _, h⟩
      · exact h
      · cases h
      · cases h
    · intro m hm h0 h1 _
      refine (hpa _).trans (hI.back m hm h0 h1 ?_)
      rw [hw]
      rintro (⟨_, _, _, _, h, h'⟩ | ⟨_, _, _, _, _, h, _⟩ | ⟨_, _, _, _, h⟩) <;> cases h
      cases h'
    · refine ⟨?_, ?_⟩
      · intro m hm
        rcases List.mem_append.1 hm with h | h
        · exact hI.hooks.1 m h
        · rw [List.mem_singleton.1 h]; exact ⟨a8, a9⟩
      · show (s.hooks ++ [n]).Nodup
        rw [List.nodup_append]
        refine ⟨hI.hooks.2, by simp, ?_⟩
        rintro a ha b hb rfl
        rw [List.mem_singleton.1 hb] at ha
        exact a11 ha
  | remove X nx =>
    have hpb := hpa (by intro m h; cases h)
    obtain ⟨a1, a2, a3, a4, a5, a6, a7, a8, a9, a10, a11, a12, a13⟩ := hk
    have hxX := (hI.self X a8 a9).1
    rw [← a7] at hxX
    have a2 : s.active x = !i := a2
    have hbackX : ∀ n, s.alive n = true → n ≠ 0 → n ≠ X → s.self n = X → nx = some n := by
      intro n hn h0 hne h
      have := hI.back n hn h0 (by rw [h]; exact a9) (by
        rw [hw]
        rintro (⟨_, _, _, _, h, _⟩ | ⟨_, _, _, _, _, h, _⟩ | ⟨_, _, _, _, h⟩) <;> cases h
        exact hne rfl)
      rw [h, a10] at this
      exact Option.some.inj this
    have hnoX : ∀ sl, 0 < s.refs sl → s.alive sl.1 = true → upd s.ptr (x, i) none sl ≠ some (some X) := by
      intro sl h1 h2 h3
      rw [hpr sl h1] at h3
      have := a13 rfl sl h1 h2 h3
      rw [this] at h1; omega
    have hrefs : ∀ c a, s.alive c = true → s.refs (c, a) = owned (.run .sub X (s.active X) none (.destroy X)) c (s.active c) a + H s.readers (c, a) := by
      intro c a hc
      have h1 := hI.refs c a hc
      rw [hw] at h1
      exact h1
    have hXi : upd s.ptr (x, i) none (X, s.active X) ≠ none := by rw [hpb, a10]; simp
    cases nx with
    | none =>
      refine ⟨hgood, hI.root, hI.fresh, hrefs, hI.dead, ?_, fun sl hc _ => hsem sl hc, ?_, hI.self, ?_, ⟨hI.root, fun h => absurd rfl h⟩,
        fun sl hc h => Or.inr (hidle sl hc h), ?_, hI.readers_ok (fun sl _ h => hpr sl h), hI.hooks⟩
      · intro sl _ h
        exact absurd h (not_waits (by intro x i v k h; cases h))
      · intro sl hc hp
        obtain ⟨p, b1, b2⟩ := hI.ptr sl hc hp
        refine ⟨p, (hpr sl hp).trans b1, fun n hn => ?_⟩
        obtain ⟨b3, b4, b5⟩ := b2 n hn
        refine ⟨b3, b4, Or.inl ?_⟩
        rw [hw] at b5
        rcases b5 with h | ⟨_, _, _, _, _, h, _⟩ | ⟨_, _, _, h⟩
        · exact h
        · cases h
        · cases h
      · intro m hm h0 h1 h2
        refine (hpb _).trans (hI.back m hm h0 h1 ?_)
        rw [hw]
        rintro (⟨_, _, _, _, h, h'⟩ | ⟨_, _, _, _, _, h, _⟩ | ⟨_, _, _, _, h⟩) <;> cases h
        exact h2 (Or.inr (Or.inr ⟨_, _, _, _, rfl⟩))
      · refine ⟨rfl, rfl, a9, a8, rfl, hXi, fun h => a9 h.symm, a12, (fun h => by cases h), ?_, hnoX⟩
        intro n h0 hn h
        have h : s.self n = X := h
        by_cases hne : n = X
        · subst hne; omega
        · have := hbackX n hn h0 hne h; cases this
    | some m =>
      obtain ⟨p, c1, c2⟩ := hI.active_ptr a8 (by rw [hw]; simp [owned])
      rw [a10] at c1; cases c1
      obtain ⟨c3, c4, c5⟩ := c2 m rfl
      have hselfm : s.self m = X := by
        rw [hw] at c5
        rcases c5 with h | ⟨_, _, _, _, _, h, e⟩ | ⟨_, _, _, h⟩
        · exact h
        · cases h; omega
        · cases h
      have hself : ∀ n, n ≠ m → upd s.self m (s.self X) n = s.self n := fun n h => upd_ne _ _ h
      have hself' : upd s.self m (s.self X) m = x := by rw [upd_same, a7]
      refine ⟨hgood, hI.root, hI.fresh, hrefs, hI.dead, ?_, fun sl hc _ => hsem sl hc, ?_, ?_, ?_, ⟨hI.tail.1, fun h => (hpb _).trans (hI.tail.2 h)⟩,
        fun sl hc h => Or.inr (hidle sl hc h), ?_, hI.readers_ok (fun sl _ h => hpr sl h), hI.hooks⟩
      · intro sl _ h
        exact absurd h (not_waits (by intro x i v k h; cases h))
      · intro sl hc hp
        obtain ⟨p, b1, b2⟩ := hI.ptr sl hc hp
        refine ⟨p, (hpr sl hp).trans b1, fun n hn => ?_⟩
        obtain ⟨b3, b4, b5⟩ := b2 n hn
        refine ⟨b3, b4, ?_⟩
        show link (upd s.self m (s.self X)) (.run .sub X (s.active X) none (.destroy X)) sl.1 n
        rw [hw] at b5
        rcases b5 with h | ⟨_, _, _, _, _, h, e⟩ | ⟨_, _, _, h⟩
        · by_cases hne : n = m
          · subst hne
            rw [hselfm] at h
            rw [← h]
            exact Or.inr (Or.inr ⟨_, _, _, rfl⟩)
          · left; rw [hself n hne]; exact h
        · cases h; left; rw [hself', e]
        · cases h
      · intro n hn h0
        show upd s.self m (s.self X) n < n ∧ s.alive (upd s.self m (s.self X) n) = true
        by_cases hne : n = m
        · subst hne; rw [hself']; exact ⟨by omega, a1⟩
        · rw [hself n hne]; exact hI.self n hn h0
      · intro n hn h0 h1 h2
        show upd s.ptr (x, i) none (upd s.self m (s.self X) n, s.active (upd s.self m (s.self X) n)) = some (some n)
        have h1 : upd s.self m (s.self X) n ≠ 0 := h1
        rw [hpb]
        by_cases hne : n = m
        · subst hne; rw [hself', a2, a4 (by simp), a6]
        · rw [hself n hne] at h1 ⊢
          refine hI.back n hn h0 h1 ?_
          rw [hw]
          rintro (⟨_, _, _, _, h, h'⟩ | ⟨_, _, _, _, _, h, _⟩ | ⟨_, _, _, _, h⟩) <;> cases h
          exact h2 (Or.inr (Or.inr ⟨_, _, _, _, rfl⟩))
      · refine ⟨rfl, rfl, a9, a8, rfl, hXi, ?_, a12, (fun h => by cases h), ?_, hnoX⟩
        · intro h
          have h : s.tail = X := h
          have := hI.tail.2 (by rw [h]; exact a9)
          rw [h, a10] at this; cases this
        · intro n h0 hn h
          have h : upd s.self m (s.self X) n = X := h
          by_cases hne : n = m
          · subst hne; rw [hself'] at h; omega
          · rw [hself n hne] at h
            by_cases hne' : n = X
            · subst hne'; omega
            · have := hbackX n hn h0 hne' h
              exact hne (Option.some.inj this).symm
  | destroy X =>
    obtain ⟨a1, a2, a3, a4, a5, a6, a7, a8, a9, a10, a11⟩ := hk
    subst a1
    have hz' : s.refs (x, !i) = 0 := hidle (x, !i) hal (by rw [a5]; cases i <;> simp)
    have hz2 : ∀ b, s.refs (x, b) = 0 := by
      intro b; cases b <;> cases i <;> assumption
    have ha : ∀ {c}, upd s.alive x false c = true → c ≠ x ∧ s.alive c = true := by
      intro c hc
      rcases upd_cases s.alive x c false with ⟨_, e'⟩ | ⟨e, e'⟩
      · rw [e'] at hc; cases hc
      · exact ⟨e, e' ▸ hc⟩
    have ha' : ∀ {c}, c ≠ x → s.alive c = true → upd s.alive x false c = true := by
      intro c h1 h2; rw [upd_ne _ _ h1]; exact h2
    have hpc : ∀ {c : Nat} {a : Bool}, c ≠ x → upd s.ptr (x, i) none (c, a) = s.ptr (c, a) := by
      intro c a h; exact upd_ne _ _ (by simp [h])
    refine ⟨?_, ha' (fun h => a3 h.symm) hI.root, fun n hn => hI.fresh n (ha hn).2, ?_, ?_, ?_, fun sl hc _ => hsem sl (ha hc).2, ?_, ?_, ?_, ⟨ha' a7 hI.tail.1, fun h => (hpc a7).trans (hI.tail.2 h)⟩,
        fun sl hc h => Or.inr (hidle sl (ha hc).2 h), trivial, hI.readers_ok (fun sl _ h => hpr sl h), ?_⟩
    · show ((s.bad || !(decide (s.alive x = true ∧ s.ptr (x, i) ≠ none))) || !(decide (s.refs (x, true) = 0 ∧ s.refs (x, false) = 0))) = false
      rw [hgood]; simp [hz2]
    · intro c a hc
      obtain ⟨h1, h2⟩ := ha hc
      have h3 := hI.refs c a h2
      rw [hw] at h3
      refine h3.trans ?_
      show _ = owned .idle c (s.active c) a + H s.readers (c, a)
      simp [owned, h1]
    · intro c a hc
      have hc : upd s.alive x false c = false := hc
      rcases upd_cases s.alive x c false with ⟨e, e'⟩ | ⟨e, e'⟩
      · subst e
        have h3 := hI.refs c a a4
        rw [hz2] at h3
        exact ⟨by show H s.readers (c, a) = 0; omega, (hsem (c, a) a4).2⟩
      · rw [e'] at hc; exact hI.dead c a hc
    · intro sl _ h
      exact absurd h (not_waits (by intro x i v k h; cases h))
    · intro sl hc hp
      obtain ⟨h1, h2⟩ := ha hc
      obtain ⟨p, b1, b2⟩ := hI.ptr sl h2 hp
      refine ⟨p, (hpr sl hp).trans b1, fun n hn => ?_⟩
      obtain ⟨b3, b4, b5⟩ := b2 n hn
      refine ⟨ha' ?_ b3, b4, Or.inl ?_⟩
      · rintro rfl
        exact a11 sl hp h2 (by rw [b1, hn])
      · rw [hw] at b5
        rcases b5 with h | ⟨_, _, _, _, _, h, _⟩ | ⟨_, _, _, h⟩
        · exact h
        · cases h
        · injection h with _ e1; exact absurd e1.symm h1
    · intro n hn h0
      obtain ⟨h1, h2⟩ := ha hn
      obtain ⟨h3, h4⟩ := hI.self n h2 h0
      exact ⟨h3, ha' (a10 n h0 h2) h4⟩
    · intro n hn h0 h1 h2
      obtain ⟨h3, h4⟩ := ha hn
      refine (hpc (a10 n h0 h4)).trans (hI.back n h4 h0 h1 ?_)
      rw [hw]
      rintro (⟨_, _, _, _, h, h'⟩ | ⟨_, _, _, _, _, h, _⟩ | ⟨_, _, _, _, h⟩) <;> cases h
      exact h3 rfl
    · refine ⟨fun n hn => ?_, hI.hooks.2⟩
      obtain ⟨h1, h2⟩ := hI.hooks.1 n hn
      exact ⟨ha' (by rintro rfl; exact a8 hn) h1, h2⟩

theorem writer_inv {s' : State} (hI : Inv s) (st : WStep true s s') : Inv s' := by
  cases st with
  | append hw => exact append_inv hI hw
  | remove n hw hn => exact remove_inv hI hw hn
  | set x i v k hw => exact set_inv hI hw
  | ref x i v k hw => exact ref_inv hI hw
  | pub x i v k hw => exact pub_inv hI hw
  | sub x i v k hw => exact sub_inv hI hw
  | wait x i v k hw _ hs => exact wait_inv hI hw hs
  | spin x i v k hw h _ => cases h
  | take x i v k hw => exact take_inv hI hw

theorem init_inv (n : Nat) : Inv (State.init n) := by
  have hH : ∀ sl, H (List.replicate n RPc.idle) sl = 0 := by
    intro sl
    refine Ioq.sumBy_zero _ (fun r hr => ?_)
    rw [List.eq_of_mem_replicate hr]; rfl
  have hP : ∀ sl, P (List.replicate n RPc.idle) sl = 0 := by
    intro sl
    refine Ioq.sumBy_zero _ (fun r hr => ?_)
    rw [List.eq_of_mem_replicate hr]; rfl
  have ha : ∀ {c}, upd (fun _ => false) 0 true c = true → c = 0 := by
    intro c hc
    rcases upd_cases (fun _ => false) 0 c true with ⟨e, _⟩ | ⟨e, e'⟩
    · exact e
    · rw [e'] at hc; cases hc
  refine ⟨rfl, rfl, ?_, ?_, ?_, ?_, ?_, ?_, ?_, ?_, ⟨rfl, fun h => absurd rfl h⟩, ?_, trivial, ?_, by simp [State.init]⟩
  · intro c hc; rw [ha hc]; exact Nat.one_pos
  · intro c k hc
    rw [ha hc]
    show upd (fun _ => 0) (0, false) 1 (0, k) = owned .idle 0 false k + H (List.replicate n RPc.idle) (0, k)
    rw [hH]
    cases k <;> rfl
  · intro c k _; exact ⟨hH _, hP _⟩
  · intro sl _ h; exact absurd h (not_waits (by intro x i v k h; cases h))
  · intro sl _ _; exact ⟨rfl, hP _⟩
  · intro sl hc hp
    obtain ⟨c, k⟩ := sl
    cases ha hc
    cases k
    · exact ⟨none, rfl, fun n h => by cases h⟩
    · exact absurd hp (by show ¬ 0 < upd (fun _ => 0) (0, false) 1 (0, true); decide)
  · intro m hc h0; exact absurd (ha hc) h0
  · intro m hc h0; exact absurd (ha hc) h0
  · intro sl hc h
    obtain ⟨c, k⟩ := sl
    cases ha hc
    cases k
    · exact absurd rfl h
    · right; rfl
  · intro r hr
    rw [List.eq_of_mem_replicate (show r ∈ List.replicate n RPc.idle from hr)]; trivial

theorem reach_inv {n : Nat} (r : Reach true n s) : Inv s := by
  induction r with
  | init => exact init_inv n
  | writer _ st ih => exact writer_inv ih st
  | reader t _ st ih => exact reader_inv ih st

end Verif.Sighook
