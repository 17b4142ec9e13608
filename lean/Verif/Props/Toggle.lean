import Verif.Lemmas.Toggle

/-!
# C97: switching the status bar on and off

`SIGINFO` (`SIGUSR1` where there is none) shows the bar if it is hidden and hides it if it is shown, at the next file; the timer updates it, also at the next file. Signals arrive
at any moment. All of this is safe unless the bar is hidden while an update is pending, in which case the program crashes.
-/
namespace Verif.Props
open Verif Verif.Toggle Bar

/-- At every moment, exactly what a visible bar needs and the hook for `SIGINFO` are held, and at the end everything has been given back, whatever fails and whichever signals arrive. -/
theorem C97_held {status hook late : Bool} {c : Chance} {base : Held} {s : St} (h : Reach status c hook base s late) :
    s.held = owns base s.visible s.infoHook ∧ (s.pc = .done → s.visible = false ∧ s.held = base) := by
  have hi := inv h
  refine ⟨hi.held, fun hd => ?_⟩
  obtain ⟨h1, h2⟩ := hi.done hd
  refine ⟨h1, ?_⟩
  rw [hi.held, h1, h2]
  rfl

/-- As long as the bar is not hidden while an update is pending, there is no crash. -/
theorem C97_safe_partial {status hook : Bool} {c : Chance} {base : Held} {s : St} (h : Reach status c hook base s false) : s.pc ≠ .crashed :=
  (inv h).alive rfl

/-- And once it has been hidden while an update was pending, the crash is inevitable. -/
theorem C97_crash {status hook : Bool} {c : Chance} {base : Held} {s : St} (h : Reach status c hook base s true) :
    s.pc = .crashed ∨ (∃ t, Call s t) ∧ ∀ t, Call s t → t.pc = .crashed := by
  obtain ⟨hv, hp⟩ := (inv h).doomed rfl
  have hb : s.shown = {} := visible_none (inv h).shown hv
  rcases hp with ⟨hp, ha⟩ | hp | hp
  · refine Or.inr ⟨call_of_alrm hp, fun t ht => ?_⟩
    rw [call_alrm ht hp, if_pos ha]
    unfold St.status
    dsimp only
    rw [hb]
  · refine Or.inr ⟨⟨_, .last (.status hp) ?_ (by rw [hp]; nofun) (status_pc _)⟩, fun t ht => ?_⟩
    · rw [hp]; rcases status_pc s with q | q <;> rw [q] <;> nofun
    · rw [call_status ht hp]
      unfold St.status
      rw [hb]
  · exact Or.inl hp

/-- The counts that the bar shows only ever grow, so there is at most one update per file, and none is ahead of the search. -/
theorem C97_updates {status hook late : Bool} {c : Chance} {base : Held} {s : St} (h : Reach status c hook base s late) :
    s.updates.Pairwise (· > ·) ∧ ∀ n ∈ s.updates, 0 < n ∧ n ≤ s.count := by
  have hu := (inv h).updates
  exact ⟨hu.1, fun n hn => ⟨(hu.2 n hn).1, by have := (hu.2 n hn).2; omega⟩⟩

/-- What the next file does to the bar if no signal arrives in the meantime. Without a request by the user, the bar stays as it is, and is updated with the number of files so far iff the
timer has fired. A request hides a visible bar without updating it, unless the timer has fired, when the program crashes. A request shows a hidden bar and updates it at
once, unless that fails, when nothing changes. -/
theorem C97_callback {status hook : Bool} {c : Chance} {base : Held} {s : St} (h : Reach status c hook base s false) (hp : s.pc = .idle) :
    (∃ t, Call s t) ∧ ∀ t, Call s t → t.count = s.count + 1 ∧ t.infoFlag = false ∧ t.alrmFlag = false ∧
      (s.infoFlag = false → t.pc = .idle ∧ t.visible = s.visible ∧ t.updates = if s.alrmFlag then t.count :: s.updates else s.updates) ∧
      (s.infoFlag = true → s.visible = true → t.visible = false ∧ t.updates = s.updates ∧ t.pc = if s.alrmFlag then .crashed else .idle) ∧
      (s.infoFlag = true → s.visible = false → t.pc = .idle ∧ t.updates = if t.visible then t.count :: s.updates else s.updates) := by
  have hi := inv h
  refine ⟨call_exists hi hp, fun t ht => ?_⟩
  have hpend : s.alrmFlag = true → s.visible = true := fun q => hi.pending rfl (Or.inl q) (by rw [hp]; nofun)
  have hs := hi.shown
  clear hi h
  obtain ⟨pc, shown, held, ih, i, a, n, u⟩ := s
  dsimp only at hp hs
  subst hp
  simp only [St.visible] at hpend ⊢
  have ht := call_idle ht rfl
  rcases call_info ht rfl with ⟨hf, ht⟩ | ⟨hf, hv, ht⟩ | ⟨hf, hv, ht⟩
  · dsimp only at hf; subst hf
    have e := call_alrm ht rfl
    rcases hs with hs | ⟨b, hs⟩
    · subst hs
      cases a
      · subst e
        exact ⟨rfl, rfl, rfl, fun _ => ⟨rfl, rfl, rfl⟩, nofun, nofun⟩
      · cases hpend rfl
    · subst hs
      subst e
      cases a <;> exact ⟨rfl, rfl, rfl, fun _ => ⟨rfl, rfl, rfl⟩, nofun, nofun⟩
  · dsimp only at hf; subst hf
    obtain ⟨b, hb⟩ := visible_some hs hv
    dsimp only at hb; subst hb
    have e := call_alrm (call_hide ht rfl rfl) rfl
    subst e
    cases a <;> exact ⟨rfl, rfl, rfl, nofun, fun _ _ => ⟨rfl, rfl, rfl⟩, nofun⟩
  · dsimp only at hf; subst hf
    have hb := visible_none hs hv
    dsimp only at hb; subst hb
    have ha : a = false := by
      cases a
      · rfl
      · cases hpend rfl
    subst ha
    obtain ⟨c', ht⟩ := call_show ht rfl rfl
    rcases show_cases (s := { pc := .alrm, shown := {}, held := held, infoHook := ih, infoFlag := false, alrmFlag := false, count := n + 1, updates := u }) c' rfl with q | ⟨b, q⟩
    · have ht : Call { pc := .alrm, shown := {}, held := held, infoHook := ih, infoFlag := false, alrmFlag := false, count := n + 1, updates := u } t := q ▸ ht
      have e := call_alrm ht rfl
      subst e
      exact ⟨rfl, rfl, rfl, nofun, fun _ h => (by cases h), fun _ _ => ⟨rfl, rfl⟩⟩
    · have ht : Call _ t := (congrArg (fun x => Call x t) q).mp ht
      have e := call_alrm ht rfl
      subst e
      exact ⟨rfl, rfl, rfl, nofun, fun _ h => (by cases h), fun _ _ => ⟨rfl, rfl⟩⟩

/-- At the start, the bar is visible iff `-status` is given and nothing fails, and then the first update is pending. -/
theorem C97_start (status : Bool) (c : Chance) (hook : Bool) (base : Held) :
    ((St.start status c hook base).visible = true ↔ status = true ∧ c.good) ∧ (St.start status c hook base).alrmFlag = (St.start status c hook base).visible :=
  ⟨(start_visible status c hook base).1, (start_visible status c hook base).2.2.1⟩

/-- Whatever may fail, a request while the bar is hidden shows it iff nothing does. -/
theorem C97_show {status hook : Bool} {c : Chance} {base : Held} {s : St} (h : Reach status c hook base s false) (hp : s.pc = .idle)
    (hf : s.infoFlag = true) (hv : s.visible = false) (c' : Chance) : ∃ t, Call s t ∧ (t.visible = true ↔ c'.good) :=
  call_shows (inv h) hp hf hv c'

/-- A bar that is visible between two files can be made to crash the program by two signals: the timer's and the user's. -/
theorem C97_crash_counterexample {status hook : Bool} {c : Chance} {base : Held} {s : St} (h : Reach status c hook base s false) (hp : s.pc = .idle)
    (hv : s.visible = true) (hh : s.infoHook = true) : ∃ t, Reach status c hook base t true ∧ t.pc = .crashed := by
  obtain ⟨b, hs⟩ := visible_some (inv h).shown hv
  obtain ⟨pc, shown, held, ih, i, a, n, u⟩ := s
  dsimp only at hp hs hh
  subst hp; subst hs; subst hh
  have r := ((((((h.step (.sigalrm rfl)).step (.siginfo rfl)).step (.call rfl)).step (.infoHide rfl rfl rfl)).step (.hide rfl)).step (.alrm rfl rfl)).step (.status rfl)
  exact ⟨_, r, rfl⟩

/-- Nothing fails: an 80x24 terminal. -/
def goodChance : Chance := ⟨0, true, ⟨true, true, some (80, 24), true, true⟩, true⟩

/-- `-status` shows the bar at once, with the first update pending. -/
example : Reach true goodChance true ⟨3, 0, 0, 0⟩ ⟨.idle, ⟨true, some ⟨80, 24⟩, true⟩, ⟨4, 4, 1, 1⟩, true, false, true, 0, []⟩ false := by
  have : St.start true goodChance true ⟨3, 0, 0, 0⟩ = ⟨.idle, ⟨true, some ⟨80, 24⟩, true⟩, ⟨4, 4, 1, 1⟩, true, false, true, 0, []⟩ := by decide +kernel
  exact this ▸ .start

/-- So `bfs -status` crashes if `SIGUSR1` arrives before the first file. -/
example : ∃ t, Reach true goodChance true ⟨3, 0, 0, 0⟩ t true ∧ t.pc = .crashed := by
  have : St.start true goodChance true ⟨3, 0, 0, 0⟩ = ⟨.idle, ⟨true, some ⟨80, 24⟩, true⟩, ⟨4, 4, 1, 1⟩, true, false, true, 0, []⟩ := by decide +kernel
  exact C97_crash_counterexample .start (by rw [this]) (by rw [this]; rfl) (by rw [this])

/-- Without `-status`, a request before the second file shows the bar and counts two. -/
example : Reach false goodChance true ⟨3, 0, 0, 0⟩ ⟨.idle, ⟨true, some ⟨80, 24⟩, true⟩, ⟨4, 4, 1, 1⟩, true, false, false, 2, [2]⟩ false := by
  have r : Reach false goodChance true ⟨3, 0, 0, 0⟩ _ false := .start
  have r := (((r.step (.call rfl)).step (.infoNo rfl rfl)).step (.alrmNo rfl rfl)).step (.siginfo rfl)
  have r := (r.step (.call rfl)).step (.infoShow rfl rfl rfl)
  have r := r.step (.show_ goodChance rfl)
  have e : St.show_ ⟨.alrm, {}, ⟨3, 1, 0, 0⟩, true, false, false, 2, []⟩ goodChance = ⟨.alrm, ⟨true, some ⟨80, 24⟩, true⟩, ⟨4, 4, 1, 1⟩, true, false, true, 2, []⟩ := by
    decide +kernel
  have r : Reach false goodChance true ⟨3, 0, 0, 0⟩ ⟨.alrm, ⟨true, some ⟨80, 24⟩, true⟩, ⟨4, 4, 1, 1⟩, true, false, true, 2, []⟩ false := by
    rw [← e]; exact r
  exact (r.step (.alrm rfl rfl)).step (.status rfl)

/-- And this is the state in which that request is pending. -/
example : Reach false goodChance true ⟨3, 0, 0, 0⟩ ⟨.idle, {}, ⟨3, 1, 0, 0⟩, true, true, false, 1, []⟩ false :=
  (((Reach.start.step (.call rfl)).step (.infoNo rfl rfl)).step (.alrmNo rfl rfl)).step (.siginfo rfl)

example : goodChance.good := ⟨rfl, rfl, rfl, rfl, rfl, rfl, rfl⟩

end Verif.Props
