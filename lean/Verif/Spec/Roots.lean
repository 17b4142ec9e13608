import Verif.Model.Roots
import Verif.Spec.Cmdline
import Verif.Spec.Options
import Verif.Spec.Io
/-!
# Where a search should begin
-/
namespace Verif.Roots
open Verif.Cmdline (Arg A)
open Verif.Options (Call last NextValue)

/-- All of a file can be read, and this is what it contains; `-` is standard input. -/
def Contains (w : Files) (name : Arg) (data : List UInt8) : Prop :=
  (name = A "-" ∧ w.stdin = ⟨data, none⟩) ∨ (name ≠ A "-" ∧ w.opens name = some ⟨data, none⟩)

/-- The paths on the command line, or the current directory; with `-files0-from`, there must be none on the command line, and the names in the file count, even if there are none either. -/
def BeginsAt (w : Files) (calls : List Call) (paths roots : List Arg) : Prop :=
  (last ["-files0-from"] calls = none ∧ ((paths = [] ∧ roots = [A "."]) ∨ (paths ≠ [] ∧ roots = paths))) ∨
  ∃ c name data, last ["-files0-from"] calls = some c ∧ NextValue c name ∧ paths = [] ∧ Contains w name data ∧ roots = Io.names [] data

/-- Errors have a number. -/
def Files.Sane (w : Files) : Prop := w.stdin.error ≠ some 0 ∧ ∀ name s, w.opens name = some s → s.error ≠ some 0

end Verif.Roots
