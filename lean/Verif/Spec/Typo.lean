import Verif.Model.Typo
/-! # What the distance between two strings should be -/
namespace Verif.Typo

/-- The keys of a row, from left to right. -/
structure KeyRow where
  /-- Where the first key is; a key is three wide and three high -/
  x : Int
  y : Int
  /-- Whether the shift key is held -/
  shift : Int
  keys : List Char

/-- The QWERTY layout. -/
def keyboard : List KeyRow := [
  ⟨0, 0, 0, "`1234567890-=".toList⟩, ⟨0, 0, 1, "~!@#$%^&*()_+".toList⟩,
  ⟨1, 3, 0, "\tqwertyuiop[]\\".toList⟩, ⟨4, 3, 1, "QWERTYUIOP{}|".toList⟩,
  ⟨5, 6, 0, "asdfghjkl;'\n".toList⟩, ⟨5, 6, 1, "ASDFGHJKL:\"".toList⟩,
  ⟨6, 9, 0, "zxcvbnm,./".toList⟩, ⟨6, 9, 1, "ZXCVBNM<>?".toList⟩,
  ⟨18, 12, 0, [' ']⟩]

/-- Where the key for a character is. -/
def keyIn (c : Char) : List KeyRow → Int × Int × Int
  | [] => (0, 0, 0)
  | row :: rest => if c ∈ row.keys then (row.x + 3 * row.keys.idxOf c, row.y, row.shift) else keyIn c rest

/-- How far apart the keys for two characters are. -/
def apart (a b : UInt8) : Nat :=
  let p := keyIn (Char.ofNat a.toNat) keyboard
  let q := keyIn (Char.ofNat b.toNat) keyboard
  (p.1 - q.1).natAbs + (p.2.1 - q.2.1).natAbs + (p.2.2 - q.2.2).natAbs

/-- Making one change, and what it costs: replacing a character costs as much as the two keys are
apart on the keyboard, other changes cost 12. -/
inductive Edit : Bytes → Bytes → Nat → Prop
  | replace (u v : Bytes) (a b : UInt8) : Edit (u ++ a :: v) (u ++ b :: v) (apart a b)
  | delete (u v : Bytes) (a : UInt8) : Edit (u ++ a :: v) (u ++ v) 12
  | insert (u v : Bytes) (b : UInt8) : Edit (u ++ v) (u ++ b :: v) 12

/-- Making any number of changes, and what they cost together. -/
inductive Edits : Bytes → Bytes → Nat → Prop
  | refl (x : Bytes) : Edits x x 0
  | step {x y z : Bytes} {c c' : Nat} : Edits x y c → Edit y z c' → Edits x z (c + c')

end Verif.Typo
