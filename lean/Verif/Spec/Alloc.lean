import Verif.Model.Alloc
/-!
# What programs expect from arenas

Independent of the code: what an honest system allocator promises, which operations a program may do, and what it may rely on.
-/
namespace Verif.Spec.Alloc
open Verif Verif.Alloc

/-- `n` bytes at `a` and `m` bytes at `b` do not overlap. -/
def Apart (a n b m : Nat) : Prop := a + n ≤ b ∨ b + m ≤ a

/-- An honest system allocator: what it hands out is not null, aligned, in the address space, and apart from the memory in use. -/
def Honest (align : Nat) (used : List (Nat × Nat)) (slab : Nat → Option Nat) : Prop :=
  ∀ size a, slab size = some a → 0 < a ∧ align ∣ a ∧ a + size ≤ 2 ^ 64 ∧ ∀ r ∈ used, Apart a size r.1 r.2

/-! ## Arenas for objects of one size -/

/-- A program with an arena: its memory, and the objects it has. -/
structure AProg where
  a : Arena
  mem : Mem
  live : Nat → Bool

/-- What the program can do. Writing is any change of memory. -/
inductive AOp where
  | alloc
  | free (p : Nat)
  | write (mem : Mem)
  | clear

/-- A program may free its objects, and write into them. `size` is the size of an object. -/
def AAllowed (size : Nat) (g : AProg) : AOp → Prop
  | .alloc => True
  | .free p => g.live p = true
  | .write mem => ∀ x, (∀ p, g.live p = true → ¬ (p ≤ x ∧ x < p + size)) → mem x = g.mem x
  | .clear => True

/-- Adding or removing an object. -/
def setLive (live : Nat → Bool) (p : Nat) (b : Bool) : Nat → Bool := fun q => if q = p then b else live q

/-- Doing it: the result of an allocation (or 0), and the new state. -/
def aexec (g : AProg) (z : Nat → Option Nat) (r : Bool) : AOp → Out (Nat × AProg)
  | .alloc => (arenaAlloc g.a g.mem z r).bind fun x => .ok (x.1, ⟨x.2.1, x.2.2, if x.1 = 0 then g.live else setLive g.live x.1 true⟩)
  | .free p => .ok (0, ⟨(arenaFree g.a g.mem p).1, (arenaFree g.a g.mem p).2, setLive g.live p false⟩)
  | .write mem => .ok (0, { g with mem := mem })
  | .clear => .ok (0, ⟨arenaClear g.a, g.mem, fun _ => false⟩)

/-! ## Arenas for structs with flexible arrays -/

/-- The structs that arenas are used for: aligned for pointers, and not absurdly large. -/
structure Shape (align offset size : Nat) : Prop where
  pow : ∃ k, 3 ≤ k ∧ align = 2 ^ k
  pos : 0 < size
  small : offset + size + align ≤ 2 ^ 62

/-- The memory of all arenas. -/
def used (v : Varena) : List (Nat × Nat) := v.arenas.flatMap (·.slabs)

/-- A program: its memory, and the objects it has with the lengths of their arrays. -/
structure Prog where
  st : VSt
  live : Nat → Option Nat

/-- The number of bytes of a struct with `count` elements. -/
def bytes (v : Varena) (count : Nat) : Nat := v.offset + v.size * count

/-- What the program can do. -/
inductive Op where
  | alloc (count : Nat)
  | realloc (p count : Nat)
  | grow (p : Nat)
  | free (p : Nat)
  | write (mem : Mem)
  | clear

/-- A program may resize and free its objects, and write into them. -/
def Allowed (g : Prog) : Op → Prop
  | .alloc count => count ≤ 2 ^ 63
  | .realloc p count => g.live p ≠ none ∧ count ≤ 2 ^ 63
  | .grow p => ∃ c, g.live p = some c ∧ c < 2 ^ 63
  | .free p => g.live p ≠ none
  | .write mem => ∀ x, (∀ p c, g.live p = some c → ¬ (p ≤ x ∧ x < p + bytes g.st.v c)) → mem x = g.st.mem x
  | .clear => True

/-- Adding, resizing or removing an object. -/
def setCount (live : Nat → Option Nat) (p : Nat) (c : Option Nat) : Nat → Option Nat := fun q => if q = p then c else live q

/-- The objects after moving one. -/
def moved (live : Nat → Option Nat) (p q c : Nat) : Nat → Option Nat := if q = 0 then live else setCount (setCount live p none) q (some c)

/-- Doing it: the result of an allocation (or 0), and the new state. -/
def exec (g : Prog) (s : Sys) : Op → Out (Nat × Prog)
  | .alloc count => (varenaAlloc g.st s count).bind fun x => .ok (x.1, ⟨x.2, if x.1 = 0 then g.live else setCount g.live x.1 (some count)⟩)
  | .realloc p count => (varenaRealloc g.st s p ((g.live p).getD 0) count).bind fun x => .ok (x.1, ⟨x.2, moved g.live p x.1 count⟩)
  | .grow p => (varenaGrow g.st s p ((g.live p).getD 0)).bind fun x => .ok (x.1, ⟨x.2.2, moved g.live p x.1 x.2.1⟩)
  | .free p => (varenaFree g.st s p ((g.live p).getD 0)).bind fun st => .ok (0, ⟨st, setCount g.live p none⟩)
  | .write mem => .ok (0, { g with st := { g.st with mem := mem } })
  | .clear => .ok (0, ⟨{ g.st with v := varenaClear g.st.v }, fun _ => none⟩)

/-- The system has no memory for another slab of the `i`-th size class, or it would be too large. -/
def NoSlab (v : Varena) (s : Sys) (i : Nat) : Prop := ∃ a n, v.arenas[i]? = some a ∧ slabSize a = .ok n ∧ (n > ALLOC_MAX ∨ s.slab n = none ∨ s.slabs = false)

/-- The first `n` bytes at `q` in the new memory are those that were at `p`. -/
def Same (n : Nat) (mem : Mem) (p : Nat) (mem' : Mem) (q : Nat) : Prop := ∀ k, k < n → mem' (q + k) = mem (p + k)

end Verif.Spec.Alloc
