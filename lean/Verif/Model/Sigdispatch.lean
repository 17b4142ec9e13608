/-!
# Dispatching signals to hooks, src/sighook.c

What one signal handler does when no hook is registered or unregistered meanwhile: which hooks it
runs, and whether it kills the process.
-/
namespace Verif.Sigdispatch

/-- `struct sighook`, src/sighook.c:315-329.  `fn` and `arg` are a number; `sig` is 0 for
`atsigexit()`. -/
structure Hook where
  sig : Nat
  oneshot : Bool
  cont : Bool
  fn : Nat
  armed : Bool := true
  deriving DecidableEq, Repr

/-- `sighooks[64]`, src/sighook.c:332. -/
abbrev Lists := Nat → List Hook

/-- `siglist()`, src/sighook.c:335-337. -/
def siglist (sig : Nat) : Nat := sig % 64

/-- `sighook_impl()`, src/sighook.c:610-625, for `sighook()` (with `sig > 0`) and `atsigexit()`. -/
def register (l : Lists) (h : Hook) : Lists := fun i => if i = siglist h.sig then l i ++ [h] else l i

/-- `should_run()`, src/sighook.c:456-468: the answer, and what becomes of the hook. -/
def shouldRun (sig : Nat) (h : Hook) : Bool × Hook :=
  if h.sig ≠ sig ∧ h.sig ≠ 0 then (false, h)
  else if h.oneshot then (h.armed, { h with armed := false })
  else (true, h)

/-- `run_hooks()`, src/sighook.c:471-482: the functions called, whether the flags contain
`SH_CONTINUE`, and what becomes of the hooks. -/
def runHooks (sig : Nat) : List Hook → List Nat × Bool × List Hook
  | [] => ([], false, [])
  | h :: hs =>
    let (run, h') := shouldRun sig h
    let (calls, cont, hs') := runHooks sig hs
    if run then (h.fn :: calls, h.cont || cont, h' :: hs') else (calls, cont, h' :: hs')

/-- What a signal handler did: the functions it called, whether it raised the signal again, which
ends the process, and what becomes of the hooks. -/
structure Result where
  calls : List Nat
  dies : Bool
  lists : Lists

/-- `sigdispatch()`, src/sighook.c:485-530.  `fatal`: `is_fatal()`, :404-423; `fault`:
`is_fault()`, :353-360, where the handler is uninstalled and the instruction that failed runs
again. -/
def dispatch (fatal : Nat → Bool) (l : Lists) (sig : Nat) (fault : Bool) : Result :=
  if fault then { calls := [], dies := true, lists := l }
  else
    let (calls, cont, hs) := runHooks sig (l (siglist sig))
    let l' : Lists := fun i => if i = siglist sig then hs else l i
    if !cont && fatal sig then
      let (calls', _, hs') := runHooks sig (l' (siglist 0))
      { calls := calls ++ calls', dies := true, lists := fun i => if i = siglist 0 then hs' else l' i }
    else { calls := calls, dies := false, lists := l' }

end Verif.Sigdispatch
