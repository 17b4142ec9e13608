import Verif.Model.Bar

/-!
# Switching the status bar on and off

When `eval_callback()` and `bfs_eval()` of src/eval.c show, hide and update the bar of `Verif/Model/Bar.lean`. Signals arrive between any two steps. `SIGALRM` comes from the
timer only, and not after `xtimer_stop()`. The rest of the callback does not touch the bar and is left out.
-/
namespace Verif.Toggle
open Verif Bar

/-- Where the main thread is. -/
inductive Pc
  /-- Between two calls of `eval_callback()`, or in the rest of one. -/
  | idle
  /-- Before the first `exchange()`. -/
  | info
  /-- Before `eval_show_bar()`. -/
  | show_
  /-- Before `eval_hide_bar()`. -/
  | hide
  /-- Before the second `exchange()`. -/
  | alrm
  /-- Before `eval_status()`. -/
  | status
  /-- The search is over. -/
  | done
  /-- A null pointer has been dereferenced. -/
  | crashed
  deriving DecidableEq, Repr

/-- The part of `struct callback_args`, src/eval.c:1369-1393, that is about the bar, and what is held. `updates` are the counts that the bar has shown, newest first. -/
structure St where
  pc : Pc
  shown : Shown
  held : Held
  infoHook : Bool
  infoFlag : Bool
  alrmFlag : Bool
  count : Nat
  updates : List Nat
  deriving DecidableEq, Repr

/-- What may fail in `eval_show_bar()`. -/
structure Chance where
  junk : UInt8
  alrm : Bool
  luck : Luck
  timer : Bool

/-- `eval_show_bar()`, src/eval.c:1409-1440: if all goes well, `alrm_flag` is set. -/
def St.show_ (s : St) (c : Chance) : St :=
  match evalShow c.junk c.alrm c.luck c.timer s.shown s.held with
  | .ok (shown, _, held) => { s with shown := shown, held := held, alrmFlag := s.alrmFlag || shown.bar.isSome }
  | _ => { s with pc := .crashed }

/-- `eval_hide_bar()`, src/eval.c:1443-1452. -/
def St.hide (s : St) : St := { s with shown := (evalHide s.shown s.held).1, held := (evalHide s.shown s.held).2.2 }

/-- `eval_status()`, src/eval.c:1145-1227, starts with `bfs_bar_width()`, src/bar.c:185-187, which reads `bar->width`. What is shown is C87's. -/
def St.status (s : St) : St :=
  match s.shown.bar with
  | some _ => { s with pc := .idle, updates := s.count :: s.updates }
  | none => { s with pc := .crashed }

/-- The beginning of `bfs_eval()`, src/eval.c:1703-1717: `status` is `ctx->status`, and `hook` says whether `sighook()` succeeds. -/
def St.start (status : Bool) (c : Chance) (hook : Bool) (held : Held) : St :=
  let s : St := { pc := .idle, shown := {}, held := held, infoHook := false, infoFlag := false, alrmFlag := false, count := 0, updates := [] }
  let s := if status then s.show_ c else s
  if hook then { s with infoHook := true, held := { s.held with hooks := s.held.hooks + 1 } } else s

/-- `sigunhook(info_hook)`, src/eval.c:1786. -/
def St.unhook (s : St) : St := { s with infoHook := false, held := sigunhook s.infoHook s.held }

/-- The end of `bfs_eval()`, src/eval.c:1786-1789. -/
def St.finish (s : St) : St :=
  let s := s.unhook
  { (if s.shown.bar.isSome then s.hide else s) with pc := .done }

/-- Steps of the main thread, src/eval.c:1457-1482, and signals: `eval_sigalrm()`, src/eval.c:1397-1400, `eval_siginfo()`, src/eval.c:1403-1406, and
`bfs_bar_sigwinch()`, src/bar.c:116-120, which changes the size. -/
inductive Step : St → St → Prop
  | sigalrm {s : St} : s.shown.timer = true → Step s { s with alrmFlag := true }
  | siginfo {s : St} : s.infoHook = true → Step s { s with infoFlag := true }
  | sigwinch {s : St} {old : Bar} (new : Bar) : s.shown.bar = some old → Step s { s with shown := { s.shown with bar := some new } }
  | call {s : St} : s.pc = .idle → Step s { s with pc := .info, count := s.count + 1 }
  | infoNo {s : St} : s.pc = .info → s.infoFlag = false → Step s { s with pc := .alrm }
  | infoHide {s : St} : s.pc = .info → s.infoFlag = true → s.shown.bar.isSome = true → Step s { s with pc := .hide, infoFlag := false }
  | infoShow {s : St} : s.pc = .info → s.infoFlag = true → s.shown.bar.isSome = false → Step s { s with pc := .show_, infoFlag := false }
  | show_ {s : St} (c : Chance) : s.pc = .show_ → Step s ({ s with pc := .alrm }.show_ c)
  | hide {s : St} : s.pc = .hide → Step s { s with pc := .alrm }.hide
  | alrmNo {s : St} : s.pc = .alrm → s.alrmFlag = false → Step s { s with pc := .idle }
  | alrm {s : St} : s.pc = .alrm → s.alrmFlag = true → Step s { s with pc := .status, alrmFlag := false }
  | status {s : St} : s.pc = .status → Step s s.status
  | finish {s : St} : s.pc = .idle → Step s s.finish

/-- States that can be reached; `late` says whether the bar has been hidden while `alrm_flag` was set. -/
inductive Reach (status : Bool) (c : Chance) (hook : Bool) (held : Held) : St → Bool → Prop
  | start : Reach status c hook held (St.start status c hook held) false
  | step {s s' : St} {late : Bool} : Reach status c hook held s late → Step s s' →
      Reach status c hook held s' (late || (decide (s.pc = .hide ∧ s'.pc = .alrm) && s.alrmFlag))

end Verif.Toggle
