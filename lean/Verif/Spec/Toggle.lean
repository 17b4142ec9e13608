import Verif.Model.Toggle

/-! # What C97 is about -/
namespace Verif.Toggle
open Verif Bar

/-- What is held with and without the bar: a descriptor for the terminal, hooks for `SIGALRM`, `SIGWINCH` and exiting signals, an object and a timer; and a hook for `SIGINFO`. -/
def owns (base : Held) (bar hook : Bool) : Held :=
  { fds := base.fds + bar.toNat
    hooks := base.hooks + 3 * bar.toNat + hook.toNat
    objects := base.objects + bar.toNat
    timers := base.timers + bar.toNat }

/-- Nothing fails while the bar is being shown. -/
def Chance.good (c : Chance) : Prop := c.alrm = true ∧ c.luck.alloc = true ∧ c.luck.openTerm = true ∧ c.luck.size.isSome = true ∧ c.luck.exitHook = true ∧ c.luck.winchHook = true ∧ c.timer = true

/-- Is the bar visible? -/
def St.visible (s : St) : Bool := s.shown.bar.isSome

/-- One call of the callback during which no signal arrives: from `s`, step by step (a signal does not move the main thread), until the callback is over or crashes. -/
inductive Call : St → St → Prop
  | last {s t : St} : Step s t → t.pc ≠ s.pc → s.pc ≠ .idle → t.pc = .idle ∨ t.pc = .crashed → Call s t
  | more {s m t : St} : Step s m → m.pc ≠ s.pc → m.pc ≠ .idle → m.pc ≠ .crashed → m.pc ≠ .done → Call m t → Call s t

end Verif.Toggle
