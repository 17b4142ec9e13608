import Verif.Model.BarSignal
import Verif.Lemmas.Bar
/-!
# Lemmas about deadly signals while the bar is shown
-/
namespace Verif.BarSignal
open Verif Verif.Bar
open Verif.Spec.Bar hiding Bytes

theorem feed_esc (t : Term) : feed t 27 = { t with mode := .esc } := by
  unfold feed
  split <;> rename_i h
  · rfl
  · simp [← h]
  · rfl

/-- The reset works wherever the terminal is, even within an escape sequence. -/
theorem run_reset_any (t : Term) :
    run t reset = eraseBelow { t with bot := t.rows - 1, saved := (t.cursor, t.rev), mode := .ground } := by
  have e : run t reset = run { t with mode := .ground } reset := by
    show run (feed t 27) _ = run (feed { t with mode := .ground } 27) _
    rw [feed_esc, feed_esc]
  rw [e, run_reset _ rfl]

theorem execs_append (m : Mach) (a b : List Step) : execs m (a ++ b) = execs (execs m a) b := by simp [execs]

theorem execs_writes (m : Mach) (s : Bytes) : execs m (writes s) = { m with term := run m.term s } := by
  induction s generalizing m with
  | nil => rfl
  | cons b s ih =>
    show execs (exec m (.byte b)) (writes s) = _
    rw [ih]
    rfl

/-- A part of some bytes is some bytes. -/
theorem prefix_writes {p : List Step} {s : Bytes} (h : p <+: writes s) : ∃ r, r <+: s ∧ p = writes r := by
  obtain ⟨q, hq⟩ := h
  unfold writes at hq ⊢
  obtain ⟨a, b, rfl, h1, _⟩ := List.map_eq_append_iff.1 hq.symm
  exact ⟨a, ⟨b, rfl⟩, h1.symm⟩

end Verif.BarSignal
