import Verif.Model.Dstring
/-!
# What dynamic strings are supposed to do

The value of a string variable is `none` (`NULL`) or a list of bytes.
-/
namespace Verif.Dstr

/-- The contents of a string: its first `len` bytes. -/
def DStr.contents (d : DStr) : Bytes := d.mem.take d.len

/-- The string is terminated inside its memory. -/
def DStr.Terminated (d : DStr) : Prop := d.mem[d.len]? = some 0

/-- The operations. -/
inductive Op where
  | reserve (n : Nat)
  | resize (n : Nat)
  | shrink (n : Nat)
  | cat (l : Bytes)
  | app (c : UInt8)
  | cpy (l : Bytes)
  | catf (flen : Nat) (f : Fmt)
  | escat (L : Quote.Locale) (shell : Bool) (s : Bytes)

/-- Running an operation. -/
def Op.run (h : Heap) (st : St) : Op → Out (Bool × St)
  | .reserve n => dstreserve h st n
  | .resize n => dstresize h st n
  | .shrink n => dstrshrink st n
  | .cat l => dstrxcat h st l
  | .app c => dstrapp h st c
  | .cpy l => dstrxcpy h st l
  | .catf flen f => dstrvcatf h st flen f
  | .escat L shell s => dstrnescat h st L shell s

/-- What callers have to respect: a string that is read or appended to is not `NULL` (`escat` creates it), and shrinking does not grow. -/
def Op.Allowed (v : Option Bytes) : Op → Prop
  | .shrink n => ∃ s, v = some s ∧ n ≤ s.length
  | .cat _ => v ≠ none
  | .app _ => v ≠ none
  | .catf _ _ => v ≠ none
  | _ => True

/-- How much an operation may have to allocate for, beyond the current length. -/
def Op.size : Op → Nat
  | .reserve n => n
  | .resize n => n
  | .shrink _ => 0
  | .cat l => l.length
  | .app _ => 1
  | .cpy l => l.length
  | .catf flen f => 2 * flen + (f.text.getD []).length
  | .escat _ _ s => 4 * s.length + 3

/-- What a successful operation does to the value. -/
def Op.Effect (s : Bytes) (s' : Bytes) : Op → Prop
  | .reserve _ => s' = s
  | .resize n => s'.length = n ∧ s'.take (min n s.length) = s.take (min n s.length)
  | .shrink n => s' = s.take n
  | .cat l => s' = s ++ l
  | .app c => s' = s ++ [c]
  | .cpy l => s' = l
  | .catf _ f => ∃ t, f.text = some t ∧ s' = s ++ t
  | .escat L shell l => ∃ q, Quote.escape L shell l = .ok q ∧ s' = s ++ q

/-- Whether an operation may fail: an allocation failed, or formatting did. -/
def Op.MayFail (h : Heap) : Op → Prop
  | .catf _ f => f.text = none ∨ f.again = false ∨ ∃ k, h k = none
  | _ => ∃ k, h k = none

/-- The value of a variable. -/
def value (st : St) : Option Bytes := st.str.map DStr.contents

end Verif.Dstr
