import Verif.Model.C
/-!
# The exit status (src/main.c, src/eval.c)

All assignments to the status, in the order of time. What happens in a search is a history, of which only errors and `-exit` matter here.
-/
namespace Verif.Exit

/-- What can happen to a file. -/
inductive Event where
  /-- `eval_error()` is called. -/
  | error
  /-- `-exit N` is evaluated; `parse_exit()`, src/parse.c:1317-1331, accepts numbers that fit an `int`, and aren't negative. -/
  | exit (n : Nat)
  /-- Something else. -/
  | other
  deriving DecidableEq, Repr

/-- `struct callback_args`: the status, and the number of errors. -/
structure St where
  ret : Nat
  nerrors : Nat
  deriving DecidableEq, Repr

/-- `EXIT_SUCCESS` and `EXIT_FAILURE`. -/
def SUCCESS : Nat := 0
def FAILURE : Nat := 1

/-- `eval_error()`, src/eval.c:71-90. -/
def evalError (ignoreErrors : Bool) (s : St) : St :=
  if ignoreErrors then { s with nerrors := s.nerrors + 1 } else { ret := FAILURE, nerrors := s.nerrors + 1 }

/-- The calls of `eval_callback()`, src/eval.c:1457-1551: `eval_exit()`, src/eval.c:440-445, sets `quit` and `BFTW_STOP`, so that nothing follows it. -/
def search (ignoreErrors : Bool) : List Event → St → St
  | [], s => s
  | .error :: es, s => search ignoreErrors es (evalError ignoreErrors s)
  | .exit n :: _, s => { s with ret := n }
  | .other :: es, s => search ignoreErrors es s

/-- A run of bfs. -/
structure Run where
  /-- `open_std_streams()` and `bfs_parse_cmdline()` succeed. -/
  starts : Bool
  /-- There is something to evaluate: neither `-help` nor `-version`. -/
  expr : Bool
  /-- `-noerror` -/
  ignoreErrors : Bool
  events : List Event
  /-- `bftw()` itself fails. -/
  bftwFails : Bool
  /-- The last commands of `-exec ... {} +` fail. -/
  execFails : Bool
  /-- Output can't be written, as `bfs_ctx_free()` finds. -/
  lost : Bool

/-- `bfs_eval()`, src/eval.c:1698-1796. -/
def bfsEval (r : Run) : Nat :=
  if !r.expr then SUCCESS
  else
    let ret := (search r.ignoreErrors r.events ⟨SUCCESS, 0⟩).ret
    let ret := if r.bftwFails then FAILURE else ret
    if r.execFails then FAILURE else ret

/-- `main()`, src/main.c:117-152. -/
def main (r : Run) : Nat :=
  if !r.starts then FAILURE
  else if r.lost ∧ bfsEval r = SUCCESS then FAILURE
  else bfsEval r

/-- What the parent process gets from `wait()`: the lowest eight bits of the status. -/
def waited (r : Run) : Nat := main r % 256

end Verif.Exit
