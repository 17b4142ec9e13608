import Verif.Model.Prompt
import Verif.Spec.Exec
/-!
# What users expect of `-ok`
-/
namespace Verif.Prompt
open Verif.Exec (Bytes)

/-- The lines of a text, with the newlines at their ends (the last one may have none). -/
def lines : Bytes → List Bytes
  | [] => []
  | c :: s =>
    if c = 10 then [10] :: lines s
    else
      match lines s with
      | [] => [[c]]
      | x :: xs => (c :: x) :: xs

/-- Is an answer affirmative? It must not be a `no` in the user's language, and be a `yes`, or begin with `y` if it is neither. No answer is not affirmative. -/
def affirmative (l : Locale) : Option Bytes → Bool
  | none => false
  | some line => l.no (Io.cstr line) == some false &&
    (l.yes (Io.cstr line) == some true || (l.yes (Io.cstr line) == some false && (line.head? == some 121 || line.head? == some 89)))

/-- The question: the words of the command, each with a space behind it, and `? `. -/
def question (args : List Bytes) : Bytes := args.flatMap (fun a => a ++ [32]) ++ [63, 32]

end Verif.Prompt
