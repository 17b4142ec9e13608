/-!
# Patterns

Pattern matching notation, as POSIX has it (Shell & Utilities, 2.14), for the characters of any locale. `?` is 63, `*` is 42, `[` is 91, `\` is 92.
-/
namespace Verif.Glob

abbrev Bytes := List UInt8

/-- A locale: the characters that bytes stand for, lower case, and bracket expressions. -/
structure Locale where
  decode : Bytes → List Nat
  fold : Nat → Nat
  /-- What follows a `[` begins with the rest of a bracket expression: the first list is that, the second what comes after it. -/
  bracket : List Nat → List Nat → Prop
  /-- Whether the bracket expression contains a character; the flag is for ignoring case. -/
  member : Bool → List Nat → Nat → Prop

/-- Two characters are the same, or differ only in case. -/
def Same (l : Locale) (icase : Bool) (a b : Nat) : Prop := if icase then l.fold a = l.fold b else a = b

/-- A character that is not special. -/
def Ordinary (c : Nat) : Prop := c ≠ 63 ∧ c ≠ 42 ∧ c ≠ 91 ∧ c ≠ 92

/-- The text matches the pattern. -/
inductive Glob (l : Locale) (icase : Bool) : List Nat → List Nat → Prop
  | done : Glob l icase [] []
  /-- An ordinary character matches itself. -/
  | char {c x : Nat} {p s : List Nat} : Ordinary c → Same l icase c x → Glob l icase p s → Glob l icase (c :: p) (x :: s)
  /-- So does any character after a backslash. -/
  | escaped {c x : Nat} {p s : List Nat} : Same l icase c x → Glob l icase p s → Glob l icase (92 :: c :: p) (x :: s)
  /-- `?` matches any character. -/
  | any {x : Nat} {p s : List Nat} : Glob l icase p s → Glob l icase (63 :: p) (x :: s)
  /-- `*` matches any text. -/
  | star {t p s : List Nat} : Glob l icase p s → Glob l icase (42 :: p) (t ++ s)
  /-- A bracket expression matches the characters in it. -/
  | set {b p s : List Nat} {x : Nat} : l.bracket b p → l.member icase b x → Glob l icase p s → Glob l icase (91 :: (b ++ p)) (x :: s)
  /-- A `[` without a bracket expression matches itself. -/
  | unclosed {x : Nat} {p s : List Nat} : (∀ b r, p = b ++ r → ¬ l.bracket b r) → Same l icase 91 x → Glob l icase p s → Glob l icase (91 :: p) (x :: s)

/-- A name matches a pattern. -/
def Matches (l : Locale) (icase : Bool) (pattern name : Bytes) : Prop := Glob l icase (l.decode pattern) (l.decode name)

/-- The encoding is ASCII, or an extension in which no ASCII byte is part of another character: UTF-8, ISO 8859, EUC, … And bracket expressions end with `]` (93). -/
structure Ascii (l : Locale) : Prop where
  nil : l.decode [] = []
  split : ∀ a c b, c < 128 → l.decode (a ++ c :: b) = l.decode a ++ c.toNat :: l.decode b
  high : ∀ a, (∀ c ∈ a, 128 ≤ c) → ∀ n ∈ l.decode a, 128 ≤ n
  inj : ∀ a b, l.decode a = l.decode b → a = b
  closed : ∀ b p, l.bracket b p → b.getLast? = some 93

/-- The pattern ends with a backslash that nothing escapes. -/
def Dangling (pattern : Bytes) : Prop := ∃ q k, pattern = q ++ List.replicate (2 * k + 1) 92 ∧ q.getLast? ≠ some 92

/-- No special characters. -/
def Wildless (pattern : Bytes) : Prop := ∀ c ∈ pattern, c ≠ 63 ∧ c ≠ 42 ∧ c ≠ 91 ∧ c ≠ 92

/-- Ignoring case is the same for bytes as it is for characters: so it is in the C locale, and in others with one byte per character. -/
def Bytewise (l : Locale) (tolower : UInt8 → UInt8) : Prop := ∀ a b : Bytes, a.map tolower = b.map tolower ↔ (l.decode a).map l.fold = (l.decode b).map l.fold

end Verif.Glob
