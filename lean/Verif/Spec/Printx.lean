/-!
# How xargs splits its input into arguments

This is what POSIX says: arguments are separated by blanks and newlines; a backslash escapes the next byte; and quotes of the same kind enclose text, which must not
contain newlines.
-/
namespace Verif.Xargs

/-- `quote` is the quote we are in; `arg` is the argument we are in; and then comes the rest of the input. There is no result if the input is wrong. -/
def split : (quote : Option UInt8) → (arg : Option (List UInt8)) → List UInt8 → Option (List (List UInt8))
  | none, arg, [] => some arg.toList
  | some _, _, [] => none
  | none, arg, c :: rest =>
    if c = 32 ∨ c = 9 ∨ c = 10 then (split none none rest).map (arg.toList ++ ·)
    else if c = 34 ∨ c = 39 then split (some c) (some (arg.getD [])) rest
    else if c = 92 then
      match rest with
      | [] => none
      | d :: rest => split none (some (arg.getD [] ++ [d])) rest
    else split none (some (arg.getD [] ++ [c])) rest
  | some q, arg, c :: rest =>
    if c = 10 then none
    else if c = q then split none arg rest
    else split (some q) (some (arg.getD [] ++ [c])) rest

/-- The arguments in a text. -/
def args (text : List UInt8) : Option (List (List UInt8)) := split none none text

/-- Bytes that mean something to xargs: space, tab, newline, the quotes and the backslash. -/
def Special (c : UInt8) : Prop := c = 32 ∨ c = 9 ∨ c = 10 ∨ c = 34 ∨ c = 39 ∨ c = 92

example : args [97, 32, 9, 98, 39, 32, 39, 99, 10, 92, 10, 100] = some [[97], [98, 32, 99], [10, 100]] := by decide
example : args [39, 39, 10] = some [[]] := by decide
example : args [34, 97, 10] = none := by decide

end Verif.Xargs
