import Verif.Model.Path
/-! # What paths mean -/
namespace Verif.Path

/-- Everything between slashes (a slash is 47). -/
def pieces : Bytes → List Bytes
  | [] => [[]]
  | c :: p =>
    if c = 47 then [] :: pieces p
    else match pieces p with
      | [] => [[c]]
      | x :: xs => (c :: x) :: xs

/-- The names on the way to a file.  Empty pieces mean nothing, and neither does `.`, which is 46. -/
def components (p : Bytes) : List Bytes := (pieces p).filter fun x => x ≠ [] ∧ x ≠ [46]

/-- Both paths begin at the same place, and go the same way. -/
def SameFile (p q : Bytes) : Prop := (p.head? = some 47 ↔ q.head? = some 47) ∧ components p = components q

/-- `c` is the last name in `p`; `d` is what comes before it, and `s` are trailing slashes. -/
structure LastName (p d c s : Bytes) : Prop where
  eq : p = d ++ (c ++ s)
  name : c ≠ [] ∧ 47 ∉ c
  slashes : ∀ x ∈ s, x = 47
  before : d = [] ∨ d.getLast? = some 47

/-- Nothing but slashes. -/
def NoName (p : Bytes) : Prop := ∀ x ∈ p, x = 47

/-- Files that the walk presents: a root, or an entry of a directory.  Names of entries are not empty and have no
slashes. -/
inductive Walked : Buf → Prop
  | root (r : Bytes) : r ≠ [] → Walked (rootBuf r)
  | child (b : Buf) (name : Bytes) : Walked b → name ≠ [] → 47 ∉ name → Walked (childBuf b name)

end Verif.Path
