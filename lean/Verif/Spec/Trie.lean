/-!
# What a map from byte strings is

Independent of how the trie is built: operation histories over keys, the finite map they
denote, and prefixes of strings.
-/
namespace Verif.Spec.Trie

abbrev Key := List UInt8

/-- The updates of a map. -/
inductive Op (V : Type) where
  | set (k : Key) (v : V)
  | remove (k : Key)

/-- The key an update is about. -/
def Op.key {V : Type} : Op V → Key
  | .set k _ => k
  | .remove k => k

/-- The effect of an update on the mathematical map. -/
def Op.apply {V : Type} (m : Key → Option V) : Op V → Key → Option V
  | .set k v => fun x => if x = k then some v else m x
  | .remove k => fun x => if x = k then none else m x

/-- The map a history denotes. -/
def denote {V : Type} (ops : List (Op V)) : Key → Option V := ops.foldl Op.apply (fun _ => none)

/-- The effect of an update on the list of live keys, oldest insertion first: setting a live
key keeps its place, setting a dead key appends it, removing takes it out. -/
def Op.live {V : Type} (l : List Key) : Op V → List Key
  | .set k _ => if k ∈ l then l else l ++ [k]
  | .remove k => l.filter (· ≠ k)

/-- The live keys of a history, oldest insertion first. -/
def live {V : Type} (ops : List (Op V)) : List Key := ops.foldl Op.live []

/-- No key of the set is a proper prefix of another. -/
def PrefixFree (S : Key → Prop) : Prop := ∀ k k', S k → S k' → k <+: k' → k = k'

/-- The bytes a C string occupies: its characters, none of them NUL, and the terminator. -/
def IsStr (k : Key) : Prop := ∃ s : List UInt8, (0 : UInt8) ∉ s ∧ k = s ++ [0]

/-- The updates of a history that were reported as successful: each update comes with whatever
describes its circumstances, and `ok` says for each in turn whether it succeeded. -/
def succeeded {V M : Type} : List (Op V × M) → (ok : List Bool) → List (Op V)
  | x :: xs, b :: bs => if b then x.1 :: succeeded xs bs else succeeded xs bs
  | _, _ => []

end Verif.Spec.Trie
