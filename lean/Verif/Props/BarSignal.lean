import Verif.Lemmas.BarSignal
import Verif.Props.Bar
/-!
# C101: deadly signals while the status bar is shown

A signal that kills bfs, at whatever moment it arrives, should leave the terminal as it was without the bar: the whole screen scrolls, the cursor is where the output ended, and nothing is in reverse video.
-/
namespace Verif.Props
open Verif Verif.Bar Verif.BarSignal
open Verif.Spec.Bar hiding Bytes

/-- A terminal after the signal, compared with the one before: the whole screen scrolls, no escape sequence is unfinished, the cursor has not moved, and the rest of the screen is empty. -/
structure Restored (t u : Term) : Prop where
  rows : u.rows = t.rows
  whole : u.bot + 1 = u.rows
  mode : u.mode = .ground
  cursor : u.cursor = t.cursor
  rest : BlankAfter u
  before : ∀ r c, r < u.cursor.row ∨ (r = u.cursor.row ∧ c < u.cursor.col) → u.cells r c = t.cells r c
  history : u.history = t.history
  rev : u.rev = t.rev

theorem restored_any (t : Term) (h : 0 < t.rows) : Restored t (run t reset) := by
  rw [run_reset_any]
  refine ⟨rfl, by show t.rows - 1 + 1 = t.rows; omega, rfl, rfl, ?_, ?_, rfl, rfl⟩
  · intro r c h
    show (if r = t.cursor.row ∧ t.cursor.col ≤ c ∨ t.cursor.row < r then blank else _) = blank
    rw [if_pos (by rcases h with h | h; exact .inr h; exact .inl h)]
  · intro r c h
    show (if r = t.cursor.row ∧ t.cursor.col ≤ c ∨ t.cursor.row < r then blank else t.cells r c) = _
    have h : r < t.cursor.row ∨ r = t.cursor.row ∧ c < t.cursor.col := h
    rw [if_neg (by omega)]

/-- Everything that is needed for showing the bar is there. -/
def Lucky (l : Luck) : Prop := l.alloc = true ∧ l.openTerm = true ∧ l.size.isSome = true ∧ l.exitHook = true ∧ l.winchHook = true

theorem showSteps_lucky {junk : UInt8} {l : Luck} (h : Lucky l) {ss : List Step} (hs : showSteps junk l = .ok ss) :
    ∃ out, resize junk (getsize ⟨0, 0⟩ l.size).1 = .ok out ∧ ss = .hook :: writes out := by
  obtain ⟨h1, h2, h3, h4, h5⟩ := h
  unfold showSteps at hs
  have hg : (getsize ⟨0, 0⟩ l.size).2 = true := by
    cases hz : l.size with
    | none => rw [hz] at h3; cases h3
    | some ws => rfl
  rw [h1, h2, hg, h4, h5] at hs
  simp only [Bool.not_true, Bool.false_eq_true, if_false] at hs
  cases hr : resize junk (getsize ⟨0, 0⟩ l.size).1 with
  | ok out =>
    rw [hr] at hs
    exact ⟨out, rfl, by cases hs; rfl⟩
  | err e => rw [hr] at hs; cases hs
  | ub => rw [hr] at hs; cases hs

/-- While the bar is being shown, whether that succeeds or not: if the signal arrives before anything was written, then the terminal scrolls as before, and otherwise it is reset. -/
theorem C101_show (t : Term) (h0 : 0 < t.rows) (junk : UInt8) (l : Luck) (ss p : List Step) (hs : showSteps junk l = .ok ss) (hp : p <+: ss) :
    (execs ⟨false, t⟩ p).term = t ∧ deadly (execs ⟨false, t⟩ p) = t ∨
    Restored (execs ⟨false, t⟩ p).term (deadly (execs ⟨false, t⟩ p)) := by
  have key : ∀ s : Bytes, p <+: .hook :: writes s → (execs ⟨false, t⟩ p).term = t ∧ deadly (execs ⟨false, t⟩ p) = t ∨
      Restored (execs ⟨false, t⟩ p).term (deadly (execs ⟨false, t⟩ p)) := by
    intro s hp
    rcases List.prefix_cons_iff.1 hp with rfl | ⟨q, rfl, hq⟩
    · exact Or.inl ⟨rfl, rfl⟩
    · right
      obtain ⟨r, _, rfl⟩ := prefix_writes hq
      show Restored (execs ⟨true, t⟩ (writes r)).term (deadly (execs ⟨true, t⟩ (writes r)))
      rw [execs_writes]
      exact restored_any _ (by rw [(run_size r t).1]; exact h0)
  have nil : p <+: [] → (execs ⟨false, t⟩ p).term = t ∧ deadly (execs ⟨false, t⟩ p) = t := by
    intro h
    rw [List.prefix_nil.1 h]
    exact ⟨rfl, rfl⟩
  unfold showSteps at hs
  by_cases h1 : (!l.alloc) = true
  · rw [if_pos h1] at hs; cases hs; exact Or.inl (nil hp)
  rw [if_neg h1] at hs
  by_cases h2 : (!l.openTerm) = true
  · rw [if_pos h2] at hs; cases hs; exact Or.inl (nil hp)
  rw [if_neg h2] at hs
  by_cases h3 : (!(getsize ⟨0, 0⟩ l.size).2) = true
  · rw [if_pos h3] at hs; cases hs; exact Or.inl (nil hp)
  rw [if_neg h3] at hs
  by_cases h4 : (!l.exitHook) = true
  · rw [if_pos h4] at hs; cases hs; exact Or.inl (nil hp)
  rw [if_neg h4] at hs
  by_cases h5 : (!l.winchHook) = true
  · rw [if_pos h5] at hs; cases hs
    rcases List.prefix_cons_iff.1 hp with rfl | ⟨q, rfl, hq⟩
    · exact Or.inl ⟨rfl, rfl⟩
    rcases List.prefix_cons_iff.1 hq with rfl | ⟨q', rfl, hq'⟩
    · exact key [] (List.prefix_refl _)
    · rw [List.prefix_nil.1 hq']
      exact Or.inl ⟨rfl, rfl⟩
  rw [if_neg h5] at hs
  cases hr : resize junk (getsize ⟨0, 0⟩ l.size).1 with
  | ok out =>
    rw [hr] at hs
    cases hs
    exact key out hp
  | err e => rw [hr] at hs; cases hs
  | ub => rw [hr] at hs; cases hs

/-- While the bar is shown: whatever has been written, by updates, by changes of the size, and by the program, in whatever order, and even if a write was cut off in the middle of an escape sequence.

Missing from the full claim: the cursor may still be in the bar and reverse video may still be on (`C101_reverse_counterexample`), and a signal between the removal of the hook and the reset finds the terminal as it is (`C101_hide_counterexample`). -/
theorem C101_deadly_partial (t : Term) (h0 : 0 < t.rows) (junk : UInt8) (l : Luck) (hl : Lucky l) (ss : List Step) (hs : showSteps junk l = .ok ss) (s : Bytes) :
    Restored (execs ⟨false, t⟩ (ss ++ writes s)).term (deadly (execs ⟨false, t⟩ (ss ++ writes s))) := by
  obtain ⟨out, _, rfl⟩ := showSteps_lucky hl hs
  rw [execs_append]
  show Restored (execs (execs ⟨true, t⟩ (writes out)) (writes s)).term (deadly (execs (execs ⟨true, t⟩ (writes out)) (writes s)))
  rw [execs_writes, execs_writes]
  exact restored_any _ (by rw [(run_size s _).1, (run_size out t).1]; exact h0)

/-- When the bar has been hidden, the terminal is restored in the same way, whatever was written before. -/
theorem C101_hidden (t : Term) (h0 : 0 < t.rows) (junk : UInt8) (l : Luck) (hl : Lucky l) (ss : List Step) (hs : showSteps junk l = .ok ss) (s : Bytes) :
    Restored (execs ⟨false, t⟩ (ss ++ writes s)).term (deadly (execs ⟨false, t⟩ (ss ++ writes s ++ hideSteps))) := by
  obtain ⟨out, _, rfl⟩ := showSteps_lucky hl hs
  rw [execs_append _ _ hideSteps]
  have e : execs ⟨false, t⟩ (.hook :: writes out ++ writes s) = ⟨true, run (run t out) s⟩ := by
    rw [execs_append]
    show execs (execs ⟨true, t⟩ (writes out)) (writes s) = _
    rw [execs_writes, execs_writes]
  rw [e]
  show Restored _ (deadly (execs ⟨false, run (run t out) s⟩ (writes reset)))
  rw [execs_writes]
  exact restored_any _ (by rw [(run_size s _).1, (run_size out t).1]; exact h0)

/-- If no write is cut off, a signal leaves what the program has printed, on a terminal with one row less: the same cursor, and reverse video only if the program turned it on. -/
theorem C101_between (junk : UInt8) (l : Luck) (hl : Lucky l) (t : Term) (hR : Ready t) (w h : UInt16) (hz : l.size = some (w, h)) (hh : h.toNat = t.rows) (h3 : 3 ≤ t.rows)
    (hw : t.cursor.wrap = false) (hbot : 0 < t.bot) (hin : t.cursor.row ≤ t.bot) (ss : List Step) (hs : showSteps junk l = .ok ss) (es : List Event) :
    let shown := (execs ⟨false, t⟩ ss).term
    let plain := run (above shown) (outputs es)
    let u := deadly (execs ⟨false, t⟩ (ss ++ writes (sessionBytes (getsize ⟨0, 0⟩ l.size).1 es)))
    u.cursor = plain.cursor ∧ u.rev = plain.rev ∧ (plain.cursor.wrap = false → Keeps plain u) := by
  intro shown plain u
  obtain ⟨out, ho, rfl⟩ := showSteps_lucky hl hs
  have hbar : (getsize ⟨0, 0⟩ l.size).1.height = t.rows := by rw [hz]; exact hh
  have hlt : t.rows < 65536 := by rw [← hh]; exact h.toNat_lt
  have e1 : shown = run t out := by
    show (execs ⟨true, t⟩ (writes out)).term = _
    rw [execs_writes]
  have e2 : u = run t (out ++ sessionBytes (getsize ⟨0, 0⟩ l.size).1 es ++ (hide (some (getsize ⟨0, 0⟩ l.size).1) {}).1) := by
    show deadly (execs ⟨false, t⟩ (.hook :: writes out ++ writes _)) = _
    rw [execs_append]
    show deadly (execs (execs ⟨true, t⟩ (writes out)) (writes _)) = _
    rw [execs_writes, execs_writes, run_append, run_append]
    rfl
  have hlife := C87_life (getsize ⟨0, 0⟩ l.size).1 junk {} t hR hbar (by omega) (by omega) hw hbot hin out ho es
  dsimp only at hlife
  rw [← e2, ← e1] at hlife
  refine ⟨hlife.2.2.1, ?_, hlife.2.1⟩
  obtain ⟨out', ho', h1, h2, hc, h4, h5, h6, _⟩ := C87_setup _ junk t hR hbar (by omega) (by omega)
  rw [ho] at ho'
  cases ho'
  rw [← e1] at h1 h2 hc h4 h5
  obtain ⟨hsame, hm⟩ := same_session (getsize ⟨0, 0⟩ l.size).1 es (t := shown) (same_above shown (by omega) (by omega)) h1.mode (by omega) (by omega)
    (by rw [hc]; exact hR.cols)
  rw [e2, run_append, run_append, ← e1]
  show (run _ reset).rev = _
  rw [run_reset_any]
  exact hsame.rev

/-- Everything is there, on a terminal of 4 rows. -/
def c101Luck : Luck := ⟨true, true, some (20, 4), true, true⟩

theorem c101_lucky : Lucky c101Luck := ⟨rfl, rfl, rfl, rfl, rfl⟩

/-- The steps of showing the bar there. -/
def c101Steps : List Step := .hook :: writes (prefix_ ++ [51] ++ suffix_)

theorem c101_steps : showSteps 0 c101Luck = .ok c101Steps := by decide

/-- False of the code in full: `bfs_bar_hide()` removes its hook before it resets the terminal, so a signal in between leaves a screen whose last row doesn't scroll. -/
theorem C101_hide_counterexample : ∃ p, p <+: hideSteps ∧ Ready exampleTerm ∧ exampleTerm.bot + 1 = exampleTerm.rows ∧
    (deadly (execs ⟨false, exampleTerm⟩ (c101Steps ++ p))).bot + 1 ≠ exampleTerm.rows :=
  ⟨[.unhook], ⟨_, rfl⟩, exampleTerm_ready, rfl, by decide⟩

/-- False of the code in full: a signal that cuts off an update leaves the cursor in the last row, and everything that is printed from then on is in reverse video. -/
theorem C101_reverse_counterexample : ∃ s, s <+: update (getsize ⟨0, 0⟩ c101Luck.size).1 [120, 121] ∧
    (execs ⟨false, exampleTerm⟩ c101Steps).term.rev = false ∧ (execs ⟨false, exampleTerm⟩ c101Steps).term.cursor.row = 2 ∧
    (deadly (execs ⟨false, exampleTerm⟩ (c101Steps ++ writes s))).rev = true ∧
    (deadly (execs ⟨false, exampleTerm⟩ (c101Steps ++ writes s))).cursor.row = 3 :=
  ⟨[27, 55, 27, 91, 52, 59, 48, 102, 27, 91, 75, 27, 91, 55, 109, 120], ⟨[121, 27, 91, 50, 55, 109, 27, 56], by decide⟩, by decide, by decide, by decide, by decide⟩

/-- False of the code in full, for the signal that says that the size has changed: if it cuts off an update, then the rest of the update is taken for text, and is printed among the output. -/
theorem C101_winch_counterexample : ∃ a b out, a ++ b = update (getsize ⟨0, 0⟩ c101Luck.size).1 [120] ∧ sigwinch 0 (getsize ⟨0, 0⟩ c101Luck.size).1 (some (20, 4)) = .ok (⟨20, 4⟩, out) ∧
    let shown := (execs ⟨false, exampleTerm⟩ c101Steps).term
    (run shown (a ++ b)).cells 1 3 = blank ∧ (run shown (a ++ out ++ b)).cells 1 3 = ⟨52, false⟩ ∧ (run shown (a ++ out ++ b)).cells 1 4 = ⟨59, false⟩ :=
  ⟨[27, 55, 27, 91], [52, 59, 48, 102, 27, 91, 75, 27, 91, 55, 109, 120, 27, 91, 50, 55, 109, 27, 56], prefix_ ++ [51] ++ suffix_,
    by decide, by decide, by decide, by decide, by decide⟩

/-- The hypotheses of `C101_deadly_partial` and `C101_hidden`, for a signal within an escape sequence. -/
example : Restored (execs ⟨false, exampleTerm⟩ (c101Steps ++ writes [27, 55, 27, 91, 52])).term (deadly (execs ⟨false, exampleTerm⟩ (c101Steps ++ writes [27, 55, 27, 91, 52]))) :=
  C101_deadly_partial exampleTerm (by decide) 0 c101Luck c101_lucky c101Steps c101_steps _

/-- The hypotheses of `C101_between`. -/
example : (deadly (execs ⟨false, exampleTerm⟩ (c101Steps ++ writes (sessionBytes (getsize ⟨0, 0⟩ c101Luck.size).1 [.out (.char 120 (by decide)), .status [121] (by decide)])))).cursor =
    (run (above (execs ⟨false, exampleTerm⟩ c101Steps).term) [120]).cursor :=
  (C101_between 0 c101Luck c101_lucky exampleTerm exampleTerm_ready 20 4 rfl rfl (by decide) rfl (by decide) (by decide) c101Steps c101_steps _).1

/-- The hypotheses of `C101_show`: the hook for changes of the size fails, and the signal arrives before the other one is removed. -/
example : Restored exampleTerm (deadly (execs ⟨false, exampleTerm⟩ [.hook])) :=
  (C101_show exampleTerm (by decide) 0 { c101Luck with winchHook := false } [.hook, .unhook] [.hook] (by decide) ⟨_, rfl⟩).elim
    (fun _ => restored_any _ (by decide)) fun h => h

end Verif.Props
