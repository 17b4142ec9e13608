import Verif.Spec.Toggle
import Verif.Props.Bar

/-! # Lemmas for C97 -/
namespace Verif.Toggle
open Verif Bar

/-- Either nothing fails and the bar is shown, or all is as before. -/
theorem evalShow_cases (junk : UInt8) (alrm : Bool) (l : Luck) (timer : Bool) (h : Held) :
    (¬ Chance.good ⟨junk, alrm, l, timer⟩ ∧ ∃ out, evalShow junk alrm l timer {} h = .ok ({}, out, h)) ∨
    Chance.good ⟨junk, alrm, l, timer⟩ ∧ ∃ b out, evalShow junk alrm l timer {} h = .ok (⟨true, some b, true⟩, out, ⟨h.fds + 1, h.hooks + 3, h.objects + 1, h.timers + 1⟩) := by
  obtain ⟨fds, hooks, objects, timers⟩ := h
  obtain ⟨al, op, size, ex, wi⟩ := l
  have hz : ∀ b : Bar, b.height < 65536 → ∃ out, resize junk b = .ok out := by
    intro b hb
    by_cases h3 : b.height < 3
    · exact ⟨_, resize_small h3 junk⟩
    · obtain ⟨ds, _, he⟩ := resize_eq b junk (by omega) hb
      exact ⟨_, he⟩
  cases alrm
  · exact Or.inl ⟨by simp [Chance.good], _, rfl⟩
  cases al
  · exact Or.inl ⟨by simp [Chance.good], _, rfl⟩
  cases op
  · exact Or.inl ⟨by simp [Chance.good], _, rfl⟩
  cases size with
  | none => exact Or.inl ⟨by simp [Chance.good], _, rfl⟩
  | some ws =>
    obtain ⟨col, row⟩ := ws
    cases ex
    · exact Or.inl ⟨by simp [Chance.good], _, rfl⟩
    cases wi
    · exact Or.inl ⟨by simp [Chance.good], _, rfl⟩
    obtain ⟨out, ho⟩ := hz ⟨col.toNat, row.toNat⟩ (by simpa using row.toNat_lt)
    have e : evalShow junk true ⟨true, true, some (col, row), true, true⟩ timer {} ⟨fds, hooks, objects, timers⟩ =
        .ok (showTimer timer { alrm := true } (some ⟨col.toNat, row.toNat⟩, out, ⟨fds + 1, hooks + 1 + 1 + 1, objects + 1, timers⟩)) := by
      show ((resize junk ⟨col.toNat, row.toNat⟩).bind _).bind _ = _
      rw [ho]
      rfl
    rw [e]
    cases timer
    · exact Or.inl ⟨by simp [Chance.good], _, rfl⟩
    · exact Or.inr ⟨by simp [Chance.good], _, _, rfl⟩

/-- Showing the bar. -/
theorem show_cases {s : St} (c : Chance) (h : s.shown = {}) :
    s.show_ c = s ∨ ∃ b, s.show_ c = { s with shown := ⟨true, some b, true⟩, held := ⟨s.held.fds + 1, s.held.hooks + 3, s.held.objects + 1, s.held.timers + 1⟩, alrmFlag := true } := by
  obtain ⟨pc, shown, held, ih, i, a, n, u⟩ := s
  cases h
  unfold St.show_
  dsimp only
  rcases evalShow_cases c.junk c.alrm c.luck c.timer held with ⟨hg, out, h⟩ | ⟨hg, b, out, h⟩
  · rw [h]; left; simp
  · rw [h]; right; exact ⟨b, by simp⟩

theorem show_good {s : St} (c : Chance) (h : s.shown = {}) : (s.show_ c).visible = true ↔ c.good := by
  obtain ⟨pc, shown, held, ih, i, a, n, u⟩ := s
  cases h
  unfold St.show_ St.visible
  dsimp only
  rcases evalShow_cases c.junk c.alrm c.luck c.timer held with ⟨hg, out, h⟩ | ⟨hg, b, out, h⟩
  · rw [h]; exact ⟨nofun, fun q => absurd q hg⟩
  · rw [h]; exact ⟨fun _ => hg, fun _ => rfl⟩

/-- The invariant. -/
structure Inv (base : Held) (s : St) (late : Bool) : Prop where
  shown : s.shown = {} ∨ ∃ b, s.shown = ⟨true, some b, true⟩
  held : s.held = owns base s.visible s.infoHook
  hide : s.pc = .hide → s.visible = true
  show_ : s.pc = .show_ → s.visible = false
  done : s.pc = .done → s.visible = false ∧ s.infoHook = false
  pending : late = false → s.alrmFlag = true ∨ s.pc = .status → s.pc ≠ .done → s.visible = true
  doomed : late = true → s.visible = false ∧ (s.pc = .alrm ∧ s.alrmFlag = true ∨ s.pc = .status ∨ s.pc = .crashed)
  alive : late = false → s.pc ≠ .crashed
  counted : s.pc = .idle ∨ s.pc = .done ∨ 0 < s.count
  updates : s.updates.Pairwise (· > ·) ∧ ∀ n ∈ s.updates, 0 < n ∧ (n < s.count ∨ n = s.count ∧ (s.pc = .idle ∨ s.pc = .done))

theorem inv_start (status : Bool) (c : Chance) (hook : Bool) (base : Held) : Inv base (St.start status c hook base) false := by
  have key : ∀ s : St, s.pc = .idle → (s.shown = {} ∨ ∃ b, s.shown = ⟨true, some b, true⟩) → s.held = owns base s.visible s.infoHook →
      (s.alrmFlag = true → s.visible = true) → s.updates = [] → Inv base s false := by
    intro s h1 h2 h3 h4 h5
    exact ⟨h2, h3, fun h => (by rw [h1] at h; cases h), fun h => (by rw [h1] at h; cases h), fun h => (by rw [h1] at h; cases h),
      fun _ h _ => h.elim h4 (fun h => by rw [h1] at h; cases h), (fun h => by cases h), fun _ => (by rw [h1]; simp), Or.inl h1, (by rw [h5]; exact ⟨.nil, by simp⟩)⟩
  unfold St.start
  dsimp only
  cases status
  · cases hook <;> exact key _ rfl (Or.inl rfl) rfl (fun h => by cases h) rfl
  · rcases show_cases (s := { pc := .idle, shown := {}, held := base, infoHook := false, infoFlag := false, alrmFlag := false, count := 0, updates := [] }) c rfl with h | ⟨b, h⟩
    all_goals
      rw [if_pos rfl, h]
    · cases hook <;> exact key _ rfl (Or.inl rfl) rfl (fun h => by cases h) rfl
    · cases hook <;> exact key _ rfl (Or.inr ⟨b, rfl⟩) rfl (fun _ => rfl) rfl

theorem hide_eq {s : St} {b : Bar} (h : s.shown = ⟨true, some b, true⟩) :
    s.hide = { s with shown := {}, held := ⟨s.held.fds - 1, s.held.hooks - 1 - 2, s.held.objects - 1, s.held.timers - 1⟩ } := by
  obtain ⟨pc, shown, held, ih, i, a, n, u⟩ := s
  cases h
  rfl

theorem owns_hide (base : Held) (hook : Bool) :
    (⟨(owns base true hook).fds - 1, (owns base true hook).hooks - 1 - 2, (owns base true hook).objects - 1, (owns base true hook).timers - 1⟩ : Held) = owns base false hook := by
  cases hook <;> simp [owns] <;> omega

theorem owns_show (base : Held) (hook : Bool) :
    (⟨(owns base false hook).fds + 1, (owns base false hook).hooks + 3, (owns base false hook).objects + 1, (owns base false hook).timers + 1⟩ : Held) = owns base true hook := by
  cases hook <;> simp [owns] <;> omega

theorem owns_unhook (base : Held) (bar hook : Bool) : sigunhook hook (owns base bar hook) = owns base bar false := by
  cases hook <;> simp [owns, sigunhook]

theorem visible_none {s : St} (h : s.shown = {} ∨ ∃ b, s.shown = ⟨true, some b, true⟩) (hv : s.visible = false) : s.shown = {} := by
  rcases h with h | ⟨b, h⟩
  · exact h
  · unfold St.visible at hv; rw [h] at hv; cases hv

theorem visible_some {s : St} (h : s.shown = {} ∨ ∃ b, s.shown = ⟨true, some b, true⟩) (hv : s.visible = true) : ∃ b, s.shown = ⟨true, some b, true⟩ := by
  rcases h with h | h
  · unfold St.visible at hv; rw [h] at hv; cases hv
  · exact h

theorem inv_step {base : Held} {s s' : St} {late : Bool} (hi : Inv base s late) (h : Step s s') :
    Inv base s' (late || (decide (s.pc = .hide ∧ s'.pc = .alrm) && s.alrmFlag)) := by
  obtain ⟨pc, shown, held, ih, i, a, n, u⟩ := s
  obtain ⟨h1, h2, h3, h4, h5, h6, h7, h8, h0, h9, h10⟩ := hi
  simp only [St.visible] at h1 h2 h3 h4 h5 h6 h7 h8 h0 h9 h10
  subst h2
  have up : ∀ pc', ∀ m ∈ u, 0 < m ∧ (m < n + 1 ∨ m = n + 1 ∧ (pc' = Pc.idle ∨ pc' = .done)) := fun pc' m hm => by
    have := h10 m hm; omega
  have same : pc ≠ .idle → pc ≠ .done → ∀ pc', ∀ m ∈ u, 0 < m ∧ (m < n ∨ m = n ∧ (pc' = Pc.idle ∨ pc' = .done)) := fun q1 q2 pc' m hm => by
    have := h10 m hm
    exact ⟨this.1, this.2.elim Or.inl fun q => absurd q.2 (by simp [q1, q2])⟩
  have kept : pc ≠ .idle → pc ≠ .done → ∀ pc', pc' = Pc.idle ∨ pc' = .done ∨ 0 < n := fun q1 q2 pc' => by
    rcases h0 with h0 | h0 | h0
    · exact absurd h0 q1
    · exact absurd h0 q2
    · exact Or.inr (Or.inr h0)
  cases h with
  | sigalrm hs =>
    have : shown.bar.isSome = true := by
      rcases h1 with h1 | ⟨b, h1⟩ <;> simp_all
    have hl : late = false := by
      cases late
      · rfl
      · simp [this] at h7
    subst hl
    have hf : (false || (decide (pc = .hide ∧ pc = .alrm) && a)) = false := by cases pc <;> rfl
    dsimp only at hf ⊢
    rw [hf]
    exact ⟨h1, rfl, h3, h4, h5, fun _ _ _ => this, fun q => (by cases q), h8, h0, h9, h10⟩
  | siginfo hs =>
    have hf : (late || (decide (pc = .hide ∧ pc = .alrm) && a)) = late := by cases pc <;> simp
    dsimp only at hf ⊢
    rw [hf]
    exact ⟨h1, rfl, h3, h4, h5, h6, h7, h8, h0, h9, h10⟩
  | @sigwinch old new hs =>
    have hf : (late || (decide (pc = .hide ∧ pc = .alrm) && a)) = late := by cases pc <;> simp
    dsimp only at hf hs ⊢
    rw [hf]
    rcases h1 with h1 | ⟨b, h1⟩
    · subst h1; cases hs
    · subst h1
      exact ⟨Or.inr ⟨new, rfl⟩, rfl, h3, h4, h5, h6, h7, h8, h0, h9, h10⟩
  | call hs =>
    dsimp only at hs; subst hs
    cases late
    · exact ⟨h1, rfl, nofun, nofun, nofun, fun _ q _ => h6 rfl (q.elim Or.inl nofun) nofun, nofun, fun _ => nofun, Or.inr (Or.inr (Nat.succ_pos n)), h9, up _⟩
    · have := h7 rfl; simp at this
  | infoNo hs hf =>
    dsimp only at hs; subst hs
    cases late
    · exact ⟨h1, rfl, nofun, nofun, nofun, fun _ q _ => h6 rfl (q.elim Or.inl nofun) nofun, nofun, fun _ => nofun, kept nofun nofun _, h9, same nofun nofun _⟩
    · have := h7 rfl; simp at this
  | infoHide hs hf hv =>
    dsimp only at hs; subst hs
    cases late
    · exact ⟨h1, rfl, fun _ => hv, nofun, nofun, fun _ _ _ => hv, nofun, fun _ => nofun, kept nofun nofun _, h9, same nofun nofun _⟩
    · have := h7 rfl; simp at this
  | infoShow hs hf hv =>
    dsimp only at hs; subst hs
    cases late
    · exact ⟨h1, rfl, nofun, fun _ => hv, nofun, fun _ q _ => h6 rfl (q.elim Or.inl nofun) nofun, nofun, fun _ => nofun, kept nofun nofun _, h9, same nofun nofun _⟩
    · have := h7 rfl; simp at this
  | show_ c hs =>
    dsimp only at hs; subst hs
    cases late
    · have hv := h4 rfl
      have hs : shown = {} := by
        rcases h1 with h1 | ⟨b, h1⟩
        · exact h1
        · subst h1; cases hv
      subst hs
      have ha : a = false := by
        cases a
        · rfl
        · exact absurd (h6 rfl (Or.inl rfl) nofun) (by simp)
      subst ha
      rcases show_cases (s := { pc := .alrm, shown := {}, held := owns base false ih, infoHook := ih, infoFlag := i, alrmFlag := false, count := n, updates := u }) c rfl with h | ⟨b, h⟩
      · have e : ({ pc := .show_, shown := {}, held := owns base (Option.isSome (none : Option Bar)) ih, infoHook := ih, infoFlag := i, alrmFlag := false, count := n, updates := u : St} : St).pc = .show_ := rfl
        show Inv base (St.show_ { pc := .alrm, shown := {}, held := owns base false ih, infoHook := ih, infoFlag := i, alrmFlag := false, count := n, updates := u } c) _
        rw [h]
        exact ⟨Or.inl rfl, rfl, nofun, nofun, nofun, fun _ q _ => (q.elim nofun nofun), nofun, fun _ => nofun, kept nofun nofun _, h9, same nofun nofun _⟩
      · show Inv base (St.show_ { pc := .alrm, shown := {}, held := owns base false ih, infoHook := ih, infoFlag := i, alrmFlag := false, count := n, updates := u } c) _
        rw [h]
        exact ⟨Or.inr ⟨b, rfl⟩, owns_show base ih, nofun, nofun, nofun, fun _ _ _ => rfl, nofun, fun _ => nofun, kept nofun nofun _, h9, same nofun nofun _⟩
    · have := h7 rfl; simp at this
  | hide hs =>
    dsimp only at hs; subst hs
    cases late
    · have hv := h3 rfl
      have hs : ∃ b, shown = ⟨true, some b, true⟩ := by
        rcases h1 with h1 | h1
        · subst h1; cases hv
        · exact h1
      obtain ⟨b, hs⟩ := hs
      subst hs
      show Inv base (St.hide { pc := .alrm, shown := ⟨true, some b, true⟩, held := owns base true ih, infoHook := ih, infoFlag := i, alrmFlag := a, count := n, updates := u }) a
      rw [hide_eq rfl]
      refine ⟨Or.inl rfl, owns_hide base ih, nofun, nofun, nofun, fun q q' _ => ?_, fun q => ⟨rfl, Or.inl ⟨rfl, q⟩⟩, fun _ => nofun, kept nofun nofun _, h9, same nofun nofun _⟩
      rcases q' with q' | q'
      · dsimp only at q'; rw [q] at q'; cases q'
      · cases q'
    · have := h7 rfl; simp at this
  | alrmNo hs hf =>
    dsimp only at hs hf; subst hs; subst hf
    cases late
    · exact ⟨h1, rfl, nofun, nofun, nofun, fun _ q _ => (q.elim nofun nofun), nofun, fun _ => nofun, kept nofun nofun _, h9, same nofun nofun _⟩
    · have := h7 rfl; simp at this
  | alrm hs hf =>
    dsimp only at hs hf; subst hs; subst hf
    cases late
    · exact ⟨h1, rfl, nofun, nofun, nofun, fun _ q _ => h6 rfl (Or.inl rfl) nofun, nofun, fun _ => nofun, kept nofun nofun _, h9, same nofun nofun _⟩
    · exact ⟨h1, rfl, nofun, nofun, nofun, nofun, fun _ => ⟨(h7 rfl).1, Or.inr (Or.inl rfl)⟩, nofun, kept nofun nofun _, h9, same nofun nofun _⟩
  | status hs =>
    dsimp only at hs; subst hs
    rcases h1 with h1 | ⟨b, h1⟩
    · subst h1
      cases late
      · have := h6 rfl (Or.inr rfl) nofun
        cases this
      · exact ⟨Or.inl rfl, rfl, nofun, nofun, nofun, nofun, fun _ => ⟨rfl, Or.inr (Or.inr rfl)⟩, nofun, kept nofun nofun _, h9, same nofun nofun _⟩
    · subst h1
      cases late
      · refine ⟨Or.inr ⟨b, rfl⟩, rfl, nofun, nofun, nofun, fun _ _ _ => rfl, nofun, fun _ => nofun, kept nofun nofun _, ?_, ?_⟩
        · refine List.pairwise_cons.2 ⟨fun m hm => ?_, h9⟩
          have := same nofun nofun .info m hm
          simp at this
          exact this.2
        · intro m hm
          rcases List.mem_cons.1 hm with hm | hm
          · have := kept nofun nofun .info
            simp at this
            subst hm
            exact ⟨this, Or.inr ⟨rfl, Or.inl rfl⟩⟩
          · exact same nofun nofun _ m hm
      · have := h7 rfl; cases this.1
  | finish hs =>
    dsimp only at hs; subst hs
    cases late
    · have fin : ∀ m ∈ u, 0 < m ∧ (m < n ∨ m = n ∧ (Pc.done = Pc.idle ∨ Pc.done = .done)) := fun m hm =>
        ⟨(h10 m hm).1, (h10 m hm).2.elim Or.inl fun q => Or.inr ⟨q.1, Or.inr rfl⟩⟩
      rcases h1 with h1 | ⟨b, h1⟩
      · subst h1
        exact ⟨Or.inl rfl, owns_unhook base false ih, nofun, nofun, fun _ => ⟨rfl, rfl⟩, fun _ _ q => absurd rfl q, nofun, fun _ => nofun, Or.inr (Or.inl rfl), h9, fin⟩
      · subst h1
        have e : (St.finish { pc := .idle, shown := ⟨true, some b, true⟩, held := owns base true ih, infoHook := ih, infoFlag := i, alrmFlag := a, count := n, updates := u }) =
            { pc := .done, shown := {}, held := owns base false false, infoHook := false, infoFlag := i, alrmFlag := a, count := n, updates := u } := by
          rw [← owns_hide base false, ← owns_unhook base true ih]
          rfl
        show Inv base (St.finish { pc := .idle, shown := ⟨true, some b, true⟩, held := owns base true ih, infoHook := ih, infoFlag := i, alrmFlag := a, count := n, updates := u }) _
        rw [e]
        exact ⟨Or.inl rfl, rfl, nofun, nofun, fun _ => ⟨rfl, rfl⟩, fun _ _ q => absurd rfl q, nofun, fun _ => nofun, Or.inr (Or.inl rfl), h9, fin⟩
    · have := h7 rfl; simp at this

theorem inv {status : Bool} {c : Chance} {hook : Bool} {base : Held} {s : St} {late : Bool} (h : Reach status c hook base s late) : Inv base s late := by
  induction h with
  | start => exact inv_start status c hook base
  | step _ hs ih => exact inv_step ih hs

theorem status_pc (s : St) : s.status.pc = .idle ∨ s.status.pc = .crashed := by
  unfold St.status
  cases s.shown.bar
  · exact Or.inr rfl
  · exact Or.inl rfl

theorem step_status {s t : St} (h : Step s t) (hn : t.pc ≠ s.pc) (hp : s.pc = .status) : t = s.status := by
  cases h <;> first | rfl | exact absurd rfl hn | (simp_all; done)

theorem step_alrm {s t : St} (h : Step s t) (hn : t.pc ≠ s.pc) (hp : s.pc = .alrm) :
    s.alrmFlag = false ∧ t = { s with pc := .idle } ∨ s.alrmFlag = true ∧ t = { s with pc := .status, alrmFlag := false } := by
  cases h <;> first | exact absurd rfl hn | (simp_all; done)

theorem step_hide {s t : St} (h : Step s t) (hn : t.pc ≠ s.pc) (hp : s.pc = .hide) : t = { s with pc := .alrm }.hide := by
  cases h <;> first | rfl | exact absurd rfl hn | (simp_all; done)

theorem step_show {s t : St} (h : Step s t) (hn : t.pc ≠ s.pc) (hp : s.pc = .show_) : ∃ c, t = { s with pc := .alrm }.show_ c := by
  cases h <;> first | exact ⟨_, rfl⟩ | exact absurd rfl hn | (simp_all; done)

theorem step_info {s t : St} (h : Step s t) (hn : t.pc ≠ s.pc) (hp : s.pc = .info) :
    s.infoFlag = false ∧ t = { s with pc := .alrm } ∨
    s.infoFlag = true ∧ s.visible = true ∧ t = { s with pc := .hide, infoFlag := false } ∨
    s.infoFlag = true ∧ s.visible = false ∧ t = { s with pc := .show_, infoFlag := false } := by
  cases h <;> first | exact absurd rfl hn | (simp_all [St.visible]; done)

theorem step_idle {s t : St} (h : Step s t) (hn : t.pc ≠ s.pc) (hp : s.pc = .idle) (hd : t.pc ≠ .done) : t = { s with pc := .info, count := s.count + 1 } := by
  cases h <;> first | rfl | exact absurd rfl hn | exact absurd rfl hd | (simp_all; done)

theorem call_status {s t : St} (h : Call s t) (hp : s.pc = .status) : t = s.status := by
  cases h with
  | last h hn _ _ => exact step_status h hn hp
  | more h hn h1 h2 _ _ =>
    have e := step_status h hn hp
    subst e
    rcases status_pc s with q | q
    · exact absurd q h1
    · exact absurd q h2

theorem call_alrm {s t : St} (h : Call s t) (hp : s.pc = .alrm) :
    t = if s.alrmFlag then { s with pc := .status, alrmFlag := false }.status else { s with pc := .idle } := by
  cases h with
  | last h hn _ hl =>
    rcases step_alrm h hn hp with ⟨ha, e⟩ | ⟨ha, e⟩
    · rw [if_neg (by simp [ha])]; exact e
    · subst e; exact absurd hl nofun
  | more h hn h1 h2 _ hc =>
    rcases step_alrm h hn hp with ⟨ha, e⟩ | ⟨ha, e⟩
    · subst e; exact absurd rfl h1
    · subst e
      rw [if_pos ha]
      exact call_status hc rfl

theorem call_hide {s t : St} {b : Bar} (h : Call s t) (hp : s.pc = .hide) (hb : s.shown = ⟨true, some b, true⟩) :
    Call { s with pc := .alrm }.hide t := by
  cases h with
  | last h hn _ hl =>
    have e := step_hide h hn hp
    subst e
    rw [hide_eq (s := { s with pc := .alrm }) hb] at hl
    exact absurd hl nofun
  | more h hn h1 h2 _ hc =>
    have e := step_hide h hn hp
    subst e
    exact hc

theorem start_visible (status : Bool) (c : Chance) (hook : Bool) (base : Held) :
    ((St.start status c hook base).visible = true ↔ status = true ∧ c.good) ∧ (St.start status c hook base).infoHook = hook ∧
    (St.start status c hook base).alrmFlag = (St.start status c hook base).visible ∧ (St.start status c hook base).infoFlag = false ∧
    (St.start status c hook base).count = 0 := by
  unfold St.start
  dsimp only
  cases status
  · cases hook <;> exact ⟨⟨nofun, fun h => nomatch h.1⟩, rfl, rfl, rfl, rfl⟩
  · have hg := show_good (s := { pc := .idle, shown := {}, held := base, infoHook := false, infoFlag := false, alrmFlag := false, count := 0, updates := [] }) c rfl
    rw [if_pos rfl]
    rcases show_cases (s := { pc := .idle, shown := {}, held := base, infoHook := false, infoFlag := false, alrmFlag := false, count := 0, updates := [] }) c rfl with h | ⟨b, h⟩
    all_goals
      rw [h] at hg ⊢
      cases hook <;> exact ⟨⟨fun q => ⟨rfl, hg.1 q⟩, fun q => hg.2 q.2⟩, rfl, rfl, rfl, rfl⟩

theorem call_show {s t : St} (h : Call s t) (hp : s.pc = .show_) (hb : s.shown = {}) :
    ∃ c, Call ({ s with pc := .alrm }.show_ c) t := by
  cases h with
  | last h hn _ hl =>
    obtain ⟨c, e⟩ := step_show h hn hp
    subst e
    rcases show_cases (s := { s with pc := .alrm }) c hb with q | ⟨b, q⟩ <;> rw [q] at hl <;> exact absurd hl nofun
  | more h hn h1 h2 _ hc =>
    obtain ⟨c, e⟩ := step_show h hn hp
    subst e
    exact ⟨c, hc⟩

theorem call_info {s t : St} (h : Call s t) (hp : s.pc = .info) :
    s.infoFlag = false ∧ Call { s with pc := .alrm } t ∨
    s.infoFlag = true ∧ s.visible = true ∧ Call { s with pc := .hide, infoFlag := false } t ∨
    s.infoFlag = true ∧ s.visible = false ∧ Call { s with pc := .show_, infoFlag := false } t := by
  cases h with
  | last h hn _ hl =>
    rcases step_info h hn hp with ⟨_, e⟩ | ⟨_, _, e⟩ | ⟨_, _, e⟩ <;> subst e <;> exact absurd hl nofun
  | more h hn h1 h2 _ hc =>
    rcases step_info h hn hp with ⟨a, e⟩ | ⟨a, b, e⟩ | ⟨a, b, e⟩ <;> subst e
    · exact Or.inl ⟨a, hc⟩
    · exact Or.inr (Or.inl ⟨a, b, hc⟩)
    · exact Or.inr (Or.inr ⟨a, b, hc⟩)

theorem call_idle {s t : St} (h : Call s t) (hp : s.pc = .idle) : Call { s with pc := .info, count := s.count + 1 } t := by
  cases h with
  | last h hn hi hl => exact absurd hp hi
  | more h hn h1 h2 h3 hc =>
    have e := step_idle h hn hp h3
    subst e
    exact hc

/-- A callback can always be completed, whatever fails. -/
theorem call_of_alrm {s : St} (hp : s.pc = .alrm) : ∃ t, Call s t := by
  cases ha : s.alrmFlag
  · exact ⟨_, .last (.alrmNo hp ha) (by rw [hp]; nofun) (by rw [hp]; nofun) (Or.inl rfl)⟩
  · refine ⟨_, .more (.alrm hp ha) (by rw [hp]; nofun) nofun nofun nofun (.last (.status rfl) ?_ nofun (status_pc _))⟩
    rcases status_pc { s with pc := .status, alrmFlag := false } with q | q <;> rw [q] <;> nofun

theorem call_exists {base : Held} {s : St} (hi : Inv base s false) (hp : s.pc = .idle) : ∃ t, Call s t := by
  suffices h : ∃ t, Call { s with pc := .info, count := s.count + 1 } t by
    obtain ⟨t, h⟩ := h
    exact ⟨t, .more (.call hp) (by rw [hp]; nofun) nofun nofun nofun h⟩
  rcases Bool.eq_false_or_eq_true s.infoFlag with hf | hf
  rotate_left
  · obtain ⟨t, h⟩ := call_of_alrm (s := { s with pc := .alrm, count := s.count + 1 }) rfl
    exact ⟨t, .more (.infoNo rfl hf) nofun nofun nofun nofun h⟩
  cases hv : s.visible
  · have hs := visible_none hi.shown hv
    let c : Chance := ⟨0, false, ⟨false, false, none, false, false⟩, false⟩
    rcases show_cases (s := { s with pc := .alrm, count := s.count + 1, infoFlag := false }) c hs with q | ⟨b, q⟩
    all_goals
      obtain ⟨t, h⟩ := call_of_alrm (s := { s with pc := .alrm, count := s.count + 1, infoFlag := false }.show_ c) (by rw [q])
      refine ⟨t, .more (.infoShow rfl hf hv) nofun nofun nofun nofun (.more (.show_ c rfl) ?_ ?_ ?_ ?_ h)⟩ <;> dsimp only <;> rw [q] <;> nofun
  · obtain ⟨b, hs⟩ := visible_some hi.shown hv
    have q := hide_eq (s := { s with pc := .alrm, count := s.count + 1, infoFlag := false }) hs
    obtain ⟨t, h⟩ := call_of_alrm (s := { s with pc := .alrm, count := s.count + 1, infoFlag := false }.hide) (by rw [q])
    refine ⟨t, .more (.infoHide rfl hf hv) nofun nofun nofun nofun (.more (.hide rfl) ?_ ?_ ?_ ?_ h)⟩ <;> dsimp only <;> rw [q] <;> nofun

/-- A request shows a hidden bar iff nothing fails. -/
theorem call_shows {base : Held} {s : St} (hi : Inv base s false) (hp : s.pc = .idle) (hf : s.infoFlag = true) (hv : s.visible = false) (c : Chance) :
    ∃ t, Call s t ∧ (t.visible = true ↔ c.good) := by
  have hs := visible_none hi.shown hv
  have hg := show_good (s := { s with pc := .alrm, count := s.count + 1, infoFlag := false }) c hs
  rcases show_cases (s := { s with pc := .alrm, count := s.count + 1, infoFlag := false }) c hs with q | ⟨b, q⟩
  all_goals
    obtain ⟨t, h⟩ := call_of_alrm (s := { s with pc := .alrm, count := s.count + 1, infoFlag := false }.show_ c) (by rw [q])
    refine ⟨t, .more (.call hp) (by rw [hp]; nofun) nofun nofun nofun (.more (.infoShow rfl hf hv) nofun nofun nofun nofun (.more (.show_ c rfl) ?_ ?_ ?_ ?_ h)), ?_⟩
    rotate_right
    · rw [call_alrm h (by rw [q]), ← hg]
      generalize ({ s with pc := .alrm, count := s.count + 1, infoFlag := false }.show_ c) = w
      unfold St.status St.visible
      cases w.alrmFlag
      · rfl
      · dsimp only
        cases hw : w.shown.bar <;> simp [hw]
    all_goals
      dsimp only
      rw [q]
      nofun

end Verif.Toggle
