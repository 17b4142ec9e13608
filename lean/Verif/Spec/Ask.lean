import Verif.Model.Ask
import Verif.Spec.Options
import Verif.Spec.Prompt
import Verif.Spec.Typo
/-!
# What users expect of questions
-/
namespace Verif.Ask
open Verif.Cmdline (Arg A Env Prim table)
open Verif.Options (Sys Call Given last NextValue)
open Verif.Prompt (Locale Console lines affirmative)

/-- The roots are read from standard input: `-files0-from -`, with no other `-files0-from` behind it. -/
def FromStdin (calls : List Call) : Prop := ∃ c, last ["-files0-from"] calls = some c ∧ NextValue c (A "-")

/-- How many readers of standard input there are: each `-ok` and `-okdir`, and perhaps `-files0-from`. -/
def Readers (calls : List Call) (n : Nat) : Prop :=
  (FromStdin calls ∧ n = calls.countP (fun c => c.is ["-ok", "-okdir"]) + 1) ∨ (¬ FromStdin calls ∧ n = calls.countP (fun c => c.is ["-ok", "-okdir"]))

/-- Directories come after what they contain, but the search must have gone into them by then, so they can't be pruned. -/
def UselessPrune (calls : List Call) : Prop :=
  (Given ["-d", "-delete", "-rm"] calls ∨ ∃ c ∈ calls, c.is ["-depth"] = true ∧ c.2.length = 1) ∧ Given ["-prune"] calls

/-- The user must be asked whether to go on: `-prune` is useless, warnings are wanted, and there is someone at the terminal. -/
def MustAsk (sys : Sys) (warn : Bool) (calls : List Call) : Prop := UselessPrune calls ∧ warn = true ∧ sys.stdinTty = true ∧ sys.stderrTty = true

/-- Something that the user wrote has no effect: a test whose result doesn't matter. -/
def Pointless (e : Ignored) : Bool := e.test && e.given && !e.parent && !e.const

/-- The user, asked at this point, says yes. -/
def SaysYes (l : Locale) (t : Console) : Prop := affirmative l (lines t.input.data).head? = true

end Verif.Ask
