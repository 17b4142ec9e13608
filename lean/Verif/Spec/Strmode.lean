/-!
# How to read a mode string

What `ls -l` prints: a type character, then three characters for each of owner, group and others. The third one also shows the set-user-ID, set-group-ID or sticky bit: in lower case if the class may execute, in upper case if not.
-/
namespace Verif.Spec.Strmode

/-- The type that a type character stands for. -/
def readType : Char → Option Nat
  | '-' => some 0o10
  | 'b' => some 0o06
  | 'c' => some 0o02
  | 'd' => some 0o04
  | 'l' => some 0o12
  | 'p' => some 0o01
  | 's' => some 0o14
  | _ => none

/-- One of the nine permission characters, with the value of its bit. -/
def readPlain (c : Char) (yes : Char) : Option Nat := if c = yes then some 1 else if c = '-' then some 0 else none

/-- The last character of a class: whether it may execute, and whether the special bit is set. -/
def readLast (c upper lower : Char) : Option (Nat × Nat) :=
  if c = 'x' then some (1, 0)
  else if c = lower then some (1, 1)
  else if c = upper then some (0, 1)
  else if c = '-' then some (0, 0)
  else none

/-- The permission bits of a mode string, or nothing if it is malformed. -/
def readPerm : List Char → Option Nat
  | [_, ur, uw, ux, gr, gw, gx, or, ow, ox] => do
    let ur ← readPlain ur 'r'
    let uw ← readPlain uw 'w'
    let ux ← readLast ux 'S' 's'
    let gr ← readPlain gr 'r'
    let gw ← readPlain gw 'w'
    let gx ← readLast gx 'S' 's'
    let or ← readPlain or 'r'
    let ow ← readPlain ow 'w'
    let ox ← readLast ox 'T' 't'
    pure (0o4000 * ux.2 + 0o2000 * gx.2 + 0o1000 * ox.2 +
      0o400 * ur + 0o200 * uw + 0o100 * ux.1 + 0o40 * gr + 0o20 * gw + 0o10 * gx.1 + 0o4 * or + 0o2 * ow + ox.1)
  | _ => none

/-- The type in a mode: the four bits above the twelve permission bits. -/
def typeBits (mode : Nat) : Nat := mode / 0o10000 % 16

/-- The permissions in a mode: the low twelve bits. -/
def permBits (mode : Nat) : Nat := mode % 0o10000

/-- The types that exist on Linux. -/
def KnownType (t : Nat) : Prop := t ∈ [0o10, 0o06, 0o02, 0o04, 0o12, 0o01, 0o14]

instance (t : Nat) : Decidable (KnownType t) := inferInstanceAs (Decidable (_ ∈ _))

end Verif.Spec.Strmode
