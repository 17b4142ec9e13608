/-!
# How a shell reads one word

The quoting rules of POSIX.1-2024 XCU 2.2 (escape character, single quotes, double quotes,
dollar-single-quotes), on bytes.  A word that contains an unquoted character which is special
to the shell anywhere in a word, or which POSIX says may be special under certain
circumstances, is rejected, so an accepted text is a single word that undergoes no expansion.
-/
namespace Verif.Spec.Quote

/-- Characters that must be quoted, or that may need to be, to represent themselves
(XCU 2.2), with `!`, `{` and `}` for interactive shells: tab, newline, space and
``! " # $ % & ' ( ) * ; < = > ? [ \ ` { | } ~``. -/
def special : List UInt8 :=
  [9, 10, 32, 33, 34, 35, 36, 37, 38, 39, 40, 41, 42, 59, 60, 61, 62, 63, 91, 92, 96, 123, 124, 125, 126]

/-- Which quotes we are inside. -/
inductive Mode where
  | bare | single | double | dollar

/-- The value of a hexadecimal digit. -/
def hexVal (c : UInt8) : Option Nat :=
  if 48 ≤ c.toNat ∧ c.toNat ≤ 57 then some (c.toNat - 48)
  else if 65 ≤ c.toNat ∧ c.toNat ≤ 70 then some (c.toNat - 55)
  else if 97 ≤ c.toNat ∧ c.toNat ≤ 102 then some (c.toNat - 87)
  else none

/-- The single-letter escapes inside `$'...'`. -/
def simpleEsc (c : UInt8) : Option UInt8 :=
  if c = 97 then some 7         -- \a
  else if c = 98 then some 8    -- \b
  else if c = 101 then some 27  -- \e
  else if c = 102 then some 12  -- \f
  else if c = 110 then some 10  -- \n
  else if c = 114 then some 13  -- \r
  else if c = 116 then some 9   -- \t
  else if c = 118 then some 11  -- \v
  else if c = 39 then some 39   -- \'
  else if c = 34 then some 34   -- \"
  else if c = 92 then some 92   -- \\
  else none

/-- The text of a word after quote removal, or `none` if it is not one plain word (or uses an
escape outside this grammar).  `\x` takes one or two hexadecimal digits. -/
def lex : Mode → List UInt8 → Option (List UInt8)
  | .bare, [] => some []
  | _, [] => none
  | .bare, 39 :: r => lex .single r
  | .bare, 34 :: r => lex .double r
  | .bare, 36 :: 39 :: r => lex .dollar r
  | .bare, 92 :: c :: r => if c = 10 then none else (lex .bare r).map (c :: ·)
  | .bare, c :: r => if c ∈ special then none else (lex .bare r).map (c :: ·)
  | .single, 39 :: r => lex .bare r
  | .single, c :: r => (lex .single r).map (c :: ·)
  | .double, 34 :: r => lex .bare r
  | .double, c :: r => if c = 36 ∨ c = 96 ∨ c = 92 ∨ c = 33 then none else (lex .double r).map (c :: ·)
  | .dollar, 39 :: r => lex .bare r
  | .dollar, 92 :: 120 :: h :: l :: r =>
    match hexVal h, hexVal l with
    | some a, some b => (lex .dollar r).map (UInt8.ofNat (16 * a + b) :: ·)
    | some a, none => (lex .dollar (l :: r)).map (UInt8.ofNat a :: ·)
    | none, _ => none
  | .dollar, 92 :: c :: r =>
    match simpleEsc c with
    | some b => (lex .dollar r).map (b :: ·)
    | none => none
  | .dollar, [92] => none
  | .dollar, c :: r => (lex .dollar r).map (c :: ·)

/-- A text that is exactly one word: not empty, and accepted by `lex`. -/
def oneWord (text : List UInt8) : Option (List UInt8) := if text = [] then none else lex .bare text

end Verif.Spec.Quote
