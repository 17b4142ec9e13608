import Verif.Model.Search
/-!
# `-printx` (src/eval.c)

Writing succeeds (`C54` is about failures). `-X` is in Model/Search.lean.
-/
namespace Verif.Printx

abbrev Bytes := List UInt8

/-- Space, tab, newline, backslash, dollar sign and the three quotes: the second argument of `strcspn()`, src/eval.c:854. -/
def escaped : List UInt8 := [32, 9, 10, 92, 36, 39, 34, 96]

/-- `strcspn()`, src/eval.c:854: how many bytes at the beginning are not in the set. -/
def span (set path : Bytes) : Nat := (path.takeWhile fun c => !set.contains c).length

theorem drop_span (set path : Bytes) {c : UInt8} {rest : Bytes} (h : path.drop (span set path) = c :: rest) : rest.length < path.length := by
  have := congrArg List.length h
  simp only [List.length_drop, List.length_cons] at this
  omega

/-- The loop of `eval_fprintx()`, src/eval.c:853-870. The end of the list is the null byte. -/
def printxLoop (path : Bytes) : Bytes :=
  match h : path.drop (span escaped path) with
  | [] => path.take (span escaped path)
  | c :: rest => path.take (span escaped path) ++ [92, c] ++ printxLoop rest
termination_by path.length
decreasing_by exact drop_span _ _ h

/-- `eval_fprintx()`, src/eval.c:849-881. -/
def printx (path : Bytes) : Bytes := printxLoop path ++ [10]

/-- `eval_fprint()`, src/eval.c:816-821, without colors. -/
def print (path : Bytes) : Bytes := path ++ [10]

end Verif.Printx
