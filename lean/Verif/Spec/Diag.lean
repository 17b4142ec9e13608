import Verif.Model.Diag
import Verif.Spec.Quote
/-!
# What is said about messages

`Columns` is how much room some text takes on the terminal.
-/
namespace Verif.Spec.Diag
open Verif.Diag

/-- A locale like those in use today: an encoding like UTF-8, without shifts, in which a character is a printable ASCII character, or is not printable, or has no ASCII bytes. -/
structure Usual (L : Quote.Locale) (wcwidth : Bar.Wcwidth) : Prop where
  ok : L.OK
  tabs : L.Hides false fun c => c = 9 ∨ c = 10
  stateless : ∀ st rest, L.mbrtowc st rest = L.mbrtowc L.init rest
  init : ∀ rest n c st, L.mbrtowc L.init rest = some (n, c, st) → st = L.init
  /-- What a character is does not depend on what comes after it. -/
  own : ∀ rest n c st, L.mbrtowc L.init rest = some (n, c, st) → ∀ more, L.mbrtowc L.init (rest.take n ++ more) = some (n, c, st)
  ascii : ∀ b : UInt8, b < 128 → b ≠ 0 → ∀ rest, L.mbrtowc L.init (b :: rest) = some (1, b.toNat, L.init)
  wide : ∀ b : UInt8, 128 ≤ b → ∀ rest n c st, L.mbrtowc L.init (b :: rest) = some (n, c, st) → ∀ x ∈ (b :: rest).take n, 128 ≤ x
  print : ∀ b : UInt8, b < 128 → L.isprint b = L.iswprint b.toNat ∧ (L.iswprint b.toNat = true ↔ 32 ≤ b ∧ b ≤ 126)
  width : ∀ b : UInt8, 32 ≤ b → b ≤ 126 → wcwidth b.toNat = 1

/-- The text consists of printable characters, which take `n` columns together. -/
inductive Columns (L : Quote.Locale) (wcwidth : Bar.Wcwidth) : Bytes → Nat → Prop
  | nil : Columns L wcwidth [] 0
  | cons (ch : Bytes) (c : Nat) (rest : Bytes) (n : Nat) : ch ≠ [] → L.mbrtowc L.init ch = some (ch.length, c, L.init) → L.iswprint c = true → Columns L wcwidth rest n →
      Columns L wcwidth (ch ++ rest) ((wcwidth c).toNat + n)

/-- What is there to read, without the colors. -/
def plain : List Tok → Bytes
  | [] => []
  | .color _ :: rest => plain rest
  | .text b :: rest => b ++ plain rest

/-- Every byte with the color in which it appears, if the color at the beginning is `c`; `rs` is back to normal. -/
def paint : Option String → List Tok → List (Option String × UInt8)
  | _, [] => []
  | _, .color name :: rest => paint (if name = "rs" then none else some name) rest
  | c, .text b :: rest => b.map (fun x => (c, x)) ++ paint c rest

/-- The words of the command line, one space between them; those that are `marked` are bold. -/
def bold (ws : List Bytes) (marked : Nat → Bool) : List (Option String × UInt8) :=
  (List.range ws.length).flatMap fun i => (if i = 0 then [] else [(none, 32)]) ++ (ws.getD i []).map fun x => (if marked i then some "bld" else none, x)

/-- Words with one space between them. -/
def spaced (ws : List Bytes) : Bytes := (ws.intersperse [32]).flatten

/-- Argument number `i` of the command line belongs to the expression. -/
inductive Belongs : Expr → Nat → Prop
  | own (argv argc : Nat) (children : List Expr) (i : Nat) : argv ≤ i → i < argv + argc → Belongs (.node (some argv) argc children) i
  | child (argv : Option Nat) (argc : Nat) (children : List Expr) (x : Expr) (i : Nat) : x ∈ children → Belongs x i → Belongs (.node argv argc children) i

/-- The arguments of the expression, and of those in it, are on the command line. -/
inductive Inside (n : Nat) : Expr → Prop
  | node (argv : Option Nat) (argc : Nat) (children : List Expr) : (∀ a, argv = some a → a < n ∧ a + argc ≤ n) → (∀ x ∈ children, Inside n x) → Inside n (.node argv argc children)

/-- The message about the command line: it shows the arguments as shell words; below, there is a `~` exactly under those that `marked` tells, and under the space between two of them. The
second line begins with the same `before` as the first. -/
structure Underlined (L : Quote.Locale) (wcwidth : Bar.Wcwidth) (argv : List Bytes) (marked : Nat → Prop) (before : Bytes) (out : Bytes) : Prop where
  lines : ∃ (ws : List Bytes) (marks : Bytes), out = before ++ spaced ws ++ [10] ++ before ++ marks ++ [10] ∧ ws.map Spec.Quote.oneWord = argv.map some ∧
    (∀ m ∈ marks, m = 126 ∨ m = 32) ∧
    ∀ i < argv.length, ∃ left wide, Columns L wcwidth (((ws.take i).map (· ++ [32])).flatten) left ∧ Columns L wcwidth (ws.getD i []) wide ∧
      (∀ k < wide, marks[left + k]? = some 126 ↔ marked i) ∧
      (0 < i → (marks[left - 1]? = some 126 ↔ marked (i - 1) ∧ marked i)) ∧
      (i + 1 = argv.length → marks.length ≤ left + wide)

end Verif.Spec.Diag
