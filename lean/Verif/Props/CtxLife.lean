import Verif.Lemmas.CtxLife
/-!
# C100: the life of the context

From the first argument to the exit status: whatever fails, and whatever the command line says, everything that bfs holds for it is given back exactly once, and the exit status says whether bfs could start, what the search returned, and whether output was lost.
-/
namespace Verif.Props
open Verif Verif.CtxLife Verif.Spec.CtxLife

/-- All is well in a file that is registered. -/
def c100Dedup : DedupLuck := ⟨true, true, true, true⟩

/-- `bfs . -regex x -fprint out -fprint /dev/stderr -exec echo {} ; -fstype nfs`, where standard output is file 1 and a terminal, standard error is file 2, and `out` is file 3; `lost` says where writing fails. -/
def c100Cmd (lost : Nat → Bool) (last : Op) : CmdLuck where
  new := ⟨true, true, true, true, true⟩
  argv := true
  kinds := true
  colors := true
  cerr := true
  cout := true
  outId := 1
  errId := 2
  outColors := true
  errColors := false
  outDedup := c100Dedup
  errDedup := c100Dedup
  ops := [.root true true, .regex true true true, .output true 3 ⟨true, true, false, c100Dedup⟩,
    .output true 2 ⟨true, true, false, c100Dedup⟩, .exec true true true, last]
  ending := .good
  opt := [.plain true true]
  lost := lost

def c100Run (lost : Nat → Bool) (last : Op) (ret : Nat) : Luck := ⟨true, c100Cmd lost last, ret, [true, true]⟩

/-- Whatever fails and whatever the arguments are, nothing is given back that is not held, and in the end nothing is held any more: no memory, no file, and no signal hook. -/
theorem C100_clean (l : Luck) : ∃ n, CtxLife.main l = .ok (n, []) := ⟨_, main_status l⟩

/-- The exit status is 1 if bfs can't start, that of the search if it is not 0, and otherwise 1 if output was lost. -/
theorem C100_status (l : Luck) : CtxLife.main l = .ok (status l, []) := main_status l

/-- bfs only reports success if it could start, the search went well (or there was none, for `-help` and `-version`), and nothing was lost that was written to standard output or to a file named on the command line. -/
theorem C100_success (l : Luck) : (CtxLife.main l = .ok (0, [])) ↔
    starts l = true ∧ (l.cmd.ending = .good → l.ret = 0) ∧ ∀ id ∈ l.cmd.outId :: outputs (allOps l.cmd), l.cmd.lost id = false := by
  rw [main_status]
  have hl : loses l = false ↔ ∀ id ∈ l.cmd.outId :: outputs (allOps l.cmd), l.cmd.lost id = false := by
    unfold loses
    rw [List.any_eq_false]
    simp only [Bool.not_eq_true]
  rw [← hl]
  unfold status
  cases hs : starts l with
  | false => simp
  | true =>
    by_cases he : l.cmd.ending = .good
    · by_cases hr : l.ret = 0
      · cases h : loses l <;> simp [he, hr]
      · simp [he, hr]
    · cases h : loses l <;> simp [he]

/-- What is lost on standard error doesn't matter, unless it is a file named on the command line, or also standard output. -/
theorem C100_stderr (l : Luck) (f : Nat → Bool) (hf : ∀ id, id ≠ l.cmd.errId → f id = l.cmd.lost id)
    (h1 : l.cmd.errId ≠ l.cmd.outId) (h2 : l.cmd.errId ∉ outputs (allOps l.cmd)) :
    CtxLife.main { l with cmd := { l.cmd with lost := f } } = CtxLife.main l := by
  rw [main_status, main_status]
  have hl : loses { l with cmd := { l.cmd with lost := f } } = loses l := by
    show (l.cmd.outId :: outputs (allOps l.cmd)).any f = (l.cmd.outId :: outputs (allOps l.cmd)).any l.cmd.lost
    rw [Bool.eq_iff_iff, List.any_eq_true, List.any_eq_true]
    have key : ∀ x ∈ l.cmd.outId :: outputs (allOps l.cmd), f x = l.cmd.lost x := by
      intro x hx
      refine hf x fun e => ?_
      subst e
      rcases List.mem_cons.1 hx with h | h
      · exact h1 h
      · exact h2 h
    constructor <;> rintro ⟨x, hx, hp⟩ <;> refine ⟨x, hx, ?_⟩
    · rw [← key x hx]; exact hp
    · rw [key x hx]; exact hp
  unfold status
  rw [hl]
  rfl

/-- Everything goes well. -/
example : CtxLife.main (c100Run (fun _ => false) (.mtab true) 0) = .ok (0, []) := by rw [C100_status]; decide

/-- What was written to `out` is lost. -/
example : CtxLife.main (c100Run (fun id => id == 3) (.mtab true) 0) = .ok (1, []) := by rw [C100_status]; decide

/-- Standard error matters because `-fprint` names it. -/
example : CtxLife.main (c100Run (fun id => id == 2) (.mtab true) 0) = .ok (1, []) := by rw [C100_status]; decide

/-- The mount table can't be read: no search. -/
example : CtxLife.main (c100Run (fun _ => false) (.mtab false) 0) = .ok (1, []) := by rw [C100_status]; decide

/-- The status of the search comes first. -/
example : CtxLife.main (c100Run (fun id => id == 1) (.mtab true) 42) = .ok (42, []) := by rw [C100_status]; decide

/-- The hypotheses of `C100_stderr`, without `-fprint`. -/
example : (2 : Nat) ≠ 1 ∧ 2 ∉ outputs [.root true true, .output true 3 ⟨true, true, false, c100Dedup⟩] := by decide

end Verif.Props
