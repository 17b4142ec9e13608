import Verif.Model.Color
/-!
# What `$LS_COLORS` means

The grammar of one chunk (`Chunk`), of the whole variable (`LsColors`), and which extension decides the color of a file. Backslash is 92, caret is 94, `*` is 42, `=` is 61, and `:` is 58.
-/
namespace Verif.Color

/-! ## Escapes -/

/-- `\a`, `\b`, `\e`, `\f`, `\n`, `\r`, `\t`, `\v`, `\?` and `\_`. -/
inductive Letter : UInt8 → UInt8 → Prop
  | a : Letter 97 7
  | b : Letter 98 8
  | e : Letter 101 27
  | f : Letter 102 12
  | n : Letter 110 10
  | r : Letter 114 13
  | t : Letter 116 9
  | v : Letter 118 11
  | question : Letter 63 127
  | underscore : Letter 95 32

def OctDigit (c : UInt8) : Prop := 48 ≤ c.toNat ∧ c.toNat ≤ 55

/-- A hexadecimal digit, and its value. -/
def HexDigit (c : UInt8) (n : Nat) : Prop :=
  (48 ≤ c.toNat ∧ c.toNat ≤ 57 ∧ n = c.toNat - 48) ∨ (65 ≤ c.toNat ∧ c.toNat ≤ 70 ∧ n = c.toNat - 55) ∨ (97 ≤ c.toNat ∧ c.toNat ≤ 102 ∧ n = c.toNat - 87)

/-- The number that octal digits denote. -/
def octValue (ds : Bytes) : Nat := ds.foldl (fun n c => 8 * n + (c.toNat - 48)) 0

/-- The digits denote the number, in base 16. -/
inductive HexNumber : Bytes → Nat → Prop
  | none : HexNumber [] 0
  | more (ds : Bytes) (n : Nat) (c : UInt8) (d : Nat) : HexNumber ds n → HexDigit c d → HexNumber (ds ++ [c]) (16 * n + d)

/-- `Item text b rest`: `text`, before `rest`, denotes the byte `b`.  Numbers are as long as possible, and taken modulo 256. -/
inductive Item : Bytes → UInt8 → Bytes → Prop
  | plain (c : UInt8) (rest : Bytes) : c ≠ 92 → c ≠ 94 → Item [c] c rest
  | letter (c b : UInt8) (rest : Bytes) : Letter c b → Item [92, c] b rest
  | octal (ds rest : Bytes) : ds ≠ [] → (∀ c ∈ ds, OctDigit c) → (∀ c, rest.head? = some c → ¬ OctDigit c) →
      Item (92 :: ds) (UInt8.ofNat (octValue ds)) rest
  | hex (x : UInt8) (ds rest : Bytes) (n : Nat) : x = 120 ∨ x = 88 → HexNumber ds n → (∀ c d, rest.head? = some c → ¬ HexDigit c d) →
      Item (92 :: x :: ds) (UInt8.ofNat n) rest
  /-- Any other character stands for itself after a backslash. -/
  | other (c : UInt8) (rest : Bytes) : (∀ b, ¬ Letter c b) → ¬ OctDigit c → c ≠ 120 → c ≠ 88 → Item [92, c] c rest
  | delete (rest : Bytes) : Item [94, 63] 127 rest
  /-- `^A` is 1, `^a` too, and so on: the low five bits. -/
  | control (c : UInt8) (rest : Bytes) : c ≠ 63 → Item [94, c] (UInt8.ofNat (c.toNat % 32)) rest

/-- `Chunk stop s b next`: the string `s` up to the first `stop` that is not part of an escape denotes `b`, and what follows is `next`. -/
inductive Chunk (stop : UInt8) : Bytes → Bytes → Option Bytes → Prop
  | done : Chunk stop [] [] none
  | stop (rest : Bytes) : Chunk stop (stop :: rest) [] (some rest)
  | item (text rest bs : Bytes) (b : UInt8) (next : Option Bytes) : text.head? ≠ some stop → Item text b rest → Chunk stop rest bs next →
      Chunk stop (text ++ rest) (b :: bs) next

/-- A color of zeros is no color, except in the sequences that begin and end colors. -/
def colorOf (key value : Bytes) : Option Bytes :=
  if (∀ c ∈ value, c = 48) ∧ ¬ (key = [114, 115] ∨ key = [108, 99] ∨ key = [114, 99] ∨ key = [101, 99]) then none else some value

/-- The settings in `$LS_COLORS`: `*ext=value` and `key=value`, separated by colons, up to the first chunk without `=`. -/
inductive LsColors : Bytes → List Setting → Prop
  /-- No `=` any more: the rest is ignored. -/
  | done (s : Bytes) : s.head? ≠ some 42 → 61 ∉ s → LsColors s []
  | extLast (s key value rest : Bytes) : Chunk 61 s key (some rest) → Chunk 58 rest value none → LsColors (42 :: s) [.ext key value]
  | ext (s key value rest next : Bytes) (l : List Setting) : Chunk 61 s key (some rest) → Chunk 58 rest value (some next) → LsColors next l →
      LsColors (42 :: s) (.ext key value :: l)
  | escLast (key value rest : Bytes) : key.head? ≠ some 42 → 61 ∉ key → Chunk 58 rest value none →
      LsColors (key ++ 61 :: rest) [.esc key (colorOf key value)]
  | esc (key value rest next : Bytes) (l : List Setting) : key.head? ≠ some 42 → 61 ∉ key → Chunk 58 rest value (some next) → LsColors next l →
      LsColors (key ++ 61 :: rest) (.esc key (colorOf key value) :: l)

/-! ## Extensions -/

/-- The entries that count: file names contain no NUL. -/
def useful (entries : List (Bytes × Bytes)) : List (Bytes × Bytes) := entries.filter fun e => decide (0 ∉ e.1)

/-- ASCII lower case. -/
def lower (s : Bytes) : Bytes := s.map fun c => if 65 ≤ c.toNat ∧ c.toNat ≤ 90 then UInt8.ofNat (c.toNat + 32) else c

/-- An entry is in force unless a later one matches everything that it matches. -/
def InForce (E : List (Bytes × Bytes)) (i : Nat) : Prop :=
  ∃ e, E[i]? = some e ∧ ∀ (j : Nat) (f : Bytes × Bytes), i < j → E[j]? = some f → ¬ f.1 <:+ e.1

/-- Two entries in force that spell the same extension, perhaps in different cases. -/
def SameExt (E : List (Bytes × Bytes)) (i j : Nat) : Prop :=
  InForce E i ∧ InForce E j ∧ ∃ e f, E[i]? = some e ∧ E[j]? = some f ∧ lower e.1 = lower f.1

/-- An entry is case-sensitive if the colors of the same extension, up to the next time it is given, are not all the same. -/
def CaseSensitive (E : List (Bytes × Bytes)) (i : Nat) : Prop :=
  ∃ (a b : Nat) (e f : Bytes × Bytes), SameExt E i a ∧ SameExt E i b ∧ a < b ∧ E[a]? = some e ∧ E[b]? = some f ∧ e.2 ≠ f.2 ∧
    ∀ c, SameExt E i c → i < c → b ≤ c

/-- An entry applies to a file name. -/
def Applies (E : List (Bytes × Bytes)) (name : Bytes) (i : Nat) : Prop :=
  InForce E i ∧ ∃ e, E[i]? = some e ∧ (e.1 <:+ name ∨ (¬ CaseSensitive E i ∧ lower e.1 <:+ lower name))

end Verif.Color
