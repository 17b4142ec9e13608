import Verif.Model.Exit
/-!
# What users expect of the exit status
-/
namespace Verif.Exit

/-- `-exit N` ended the search, after these events. -/
def Exits (r : Run) (n : Nat) (before : List Event) : Prop :=
  (∀ m, Event.exit m ∉ before) ∧ ∃ after, r.events = before ++ .exit n :: after

/-- The search was ended by nothing on the command line. -/
def RunsOut (r : Run) : Prop := ∀ m, Event.exit m ∉ r.events

/-- Something was wrong with a file, and the user didn't say not to mind. -/
def Errors (r : Run) : Prop := r.ignoreErrors = false ∧ Event.error ∈ r.events

/-- Something else went wrong in a search. -/
def Breaks (r : Run) : Prop := r.bftwFails = true ∨ r.execFails = true

end Verif.Exit
