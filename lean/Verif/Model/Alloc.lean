import Verif.Model.Bit
/-!
# Arenas and growing arrays (src/alloc.c, src/alloc.h)

Addresses are numbers below 2^64, and 0 is `NULL`.  Memory has one cell for each address; a word is stored in the cell at its address (so the seven cells after it are not used for that).  The system allocator is a parameter: each time it is asked it answers with an address or fails.
-/
namespace Verif.Alloc
open Verif

/-- The size of the address space. -/
def M : Nat := 18446744073709551616

/-- `size_add()`, src/alloc.h:44-47. -/
def sizeAdd (l r : Nat) : Nat := if (l + r) % M ≥ l then (l + r) % M else M - 1

/-- `size_mul()`, src/alloc.h:52-55. -/
def sizeMul (size count : Nat) : Nat := if size * count % M / size = count then size * count % M else M - 1

/-- `align_floor()`, src/alloc.h:25-31: `value & ~(align - 1)` for a power of two. -/
def alignFloor (align value : Nat) : Nat := value / align * align

/-- `flex_size()`, src/alloc.h:100-105. -/
def flexSize (align offset size count : Nat) : Nat := alignFloor align (sizeAdd (sizeMul size count) (offset + align - 1))

/-- `ALLOC_MAX`, src/alloc.c:18-22. -/
def ALLOC_MAX : Nat := 2 ^ 63 - 1

/-! ## Growing arrays -/

/-- The number of bytes that `reserve()` asks for, src/alloc.c:114-115. -/
def newSize (size count : Nat) : Nat := if count ≠ 0 then 2 * (size * count) else size

/-- `reserve()`, src/alloc.c:101-127, for an array of `count` elements in a block of `room` bytes: the size of the new block, or `none` if it failed. `ok` is whether the system has memory. -/
def reserve (size room count : Nat) (ok : Bool) : Option Nat :=
  if count &&& (count - 1) ≠ 0 then some room
  else if newSize size count ≤ ALLOC_MAX ∧ ok = true then some (newSize size count)
  else none

/-! ## Arenas -/

/-- The contents of memory. -/
abbrev Mem := Nat → Nat

/-- `struct arena`, src/alloc.h:240-251. A slab is its address and its size. -/
structure Arena where
  chunks : Nat
  slabs : List (Nat × Nat)
  align : Nat
  size : Nat
  deriving DecidableEq, Repr

/-- `chunk_next()`, src/alloc.c:145-148. -/
def chunkNext (a : Arena) (mem : Mem) (c : Nat) : Nat := (c + a.size + mem c) % M

/-- Storing a word. -/
def store (mem : Mem) (x v : Nat) : Mem := fun y => if y = x then v else mem y

/-- `chunk_set_next()`, src/alloc.c:151-154. -/
def chunkSetNext (a : Arena) (mem : Mem) (c next : Nat) : Mem := store mem c ((next + (M - (c + a.size) % M)) % M)

/-- `arena_init()`, src/alloc.c:156-173; a chunk's header has 8 bytes. -/
def arenaInit (align size : Nat) : Out Arena :=
  if Bit.hasSingleBit 64 align = true ∧ size % align = 0 then
    if max size 8 % max align 8 = 0 then .ok { chunks := 0, slabs := [], align := max align 8, size := max size 8 } else .ub
  else .ub

/-- The size of the first slab, src/alloc.c:179-184. -/
def firstSlab (a : Arena) : Nat := max 4096 a.size - max 4096 a.size % a.size

/-- The size of the next slab, src/alloc.c:179-186. Shifting by the width of the type is undefined. -/
def slabSize (a : Arena) : Out Nat := if a.slabs.length < 64 then .ok ((firstSlab a <<< a.slabs.length) % M) else .ub

/-- The memory of a new slab of `size` bytes: `zalloc()`, src/alloc.c:52-69, and src/alloc.c:202-204. -/
def slabMem (a : Arena) (mem : Mem) (slab size : Nat) : Mem :=
  chunkSetNext a (fun x => if slab ≤ x ∧ x < slab + size then 0 else mem x) (slab + size - a.size) a.chunks

/-- `slab_alloc()`, src/alloc.c:176-210. `z` is the address of new memory of a given size, if there is any, and `r` whether the array of slabs can grow. -/
def slabAlloc (a : Arena) (mem : Mem) (z : Nat → Option Nat) (r : Bool) : Out (Option (Arena × Mem)) :=
  (slabSize a).bind fun size =>
    if size > ALLOC_MAX then .ok none
    else match z size with
      | none => .ok none
      | some slab => if r then .ok (some ({ a with chunks := slab, slabs := a.slabs ++ [(slab, size)] }, slabMem a mem slab size)) else .ok none

/-- Taking the first chunk, src/alloc.c:217-223. -/
def takeChunk (a : Arena) (mem : Mem) : Nat × Arena × Mem := (a.chunks, { a with chunks := chunkNext a mem a.chunks }, mem)

/-- `arena_alloc()`, src/alloc.c:212-225: the chunk (0 if it failed), and the new state. -/
def arenaAlloc (a : Arena) (mem : Mem) (z : Nat → Option Nat) (r : Bool) : Out (Nat × Arena × Mem) :=
  if a.chunks = 0 then
    (slabAlloc a mem z r).bind fun
      | none => .ok (0, a, mem)
      | some (a, mem) => .ok (takeChunk a mem)
  else .ok (takeChunk a mem)

/-- `arena_free()`, src/alloc.c:227-233. -/
def arenaFree (a : Arena) (mem : Mem) (ptr : Nat) : Arena × Mem := ({ a with chunks := ptr }, chunkSetNext a mem ptr a.chunks)

/-- `arena_clear()`, src/alloc.c:235-244. -/
def arenaClear (a : Arena) : Arena := { a with chunks := 0, slabs := [] }

/-! ## Arenas for structs with flexible arrays -/

/-- `struct varena`, src/alloc.h:291-304. -/
structure Varena where
  align : Nat
  offset : Nat
  size : Nat
  shift : Nat
  arenas : List Arena
  deriving DecidableEq, Repr

/-- `bit_width()` of a `size_t`. -/
def width (n : Nat) : Out Nat := Bit.bitWidth Bit.leadingZerosGnu 64 n

/-- `varena_init()`, src/alloc.c:251-262. -/
def varenaInit (align offset size : Nat) : Out Varena :=
  (width ((flexSize align offset size 1 - offset + size - 1) / size - 1)).bind fun shift => .ok { align := align, offset := offset, size := size, shift := shift, arenas := [] }

/-- `varena_size_class()`, src/alloc.c:265-269. -/
def sizeClass (v : Varena) (count : Nat) : Out Nat := width ((count - (if count ≠ 0 then 1 else 0)) >>> v.shift)

/-- `varena_exact_size()`, src/alloc.c:272-274. -/
def exactSize (v : Varena) (count : Nat) : Nat := flexSize v.align v.offset v.size count

/-- `(size_t)1 << shift`. -/
def oneShl (shift : Nat) : Out Nat := if shift < 64 then .ok (1 <<< shift) else .ub

/-- The loop of `varena_get()`, src/alloc.c:280-290. `r` says, for each arena, whether the array can grow. The first argument bounds the iterations. `none`: it could not. -/
def getLoop (r : Nat → Bool) (i : Nat) : Nat → Varena → Out (Varena × Bool)
  | 0, v => .ok (v, true)
  | fuel + 1, v =>
    if i ≥ v.arenas.length then
      if r v.arenas.length then
        (oneShl (v.arenas.length + v.shift)).bind fun n => (arenaInit v.align (exactSize v n)).bind fun a => getLoop r i fuel { v with arenas := v.arenas ++ [a] }
      else .ok (v, false)
    else .ok (v, true)

/-- `varena_get()`, src/alloc.c:277-293: the index of the arena. -/
def varenaGet (v : Varena) (r : Nat → Bool) (count : Nat) : Out (Varena × Option Nat) :=
  (sizeClass v count).bind fun i => (getLoop r i (i + 1) v).bind fun (v, ok) => .ok (v, if ok then some i else none)

/-- What the system does during an operation: arrays that can grow, the address of a slab, and whether the array of slabs can grow. -/
structure Sys where
  grow : Nat → Bool
  slab : Nat → Option Nat
  slabs : Bool

/-- The state of a program: the arenas and memory. -/
structure VSt where
  v : Varena
  mem : Mem

/-- Allocating from the `i`-th arena. -/
def allocIn (st : VSt) (s : Sys) (i : Nat) : Out (Nat × VSt) :=
  match st.v.arenas[i]? with
  | none => .ub
  | some a => (arenaAlloc a st.mem s.slab s.slabs).bind fun r => .ok (r.1, ⟨{ st.v with arenas := st.v.arenas.set i r.2.1 }, r.2.2⟩)

/-- Freeing in the `i`-th arena. -/
def freeIn (st : VSt) (i ptr : Nat) : Out VSt :=
  match st.v.arenas[i]? with
  | none => .ub
  | some a => .ok ⟨{ st.v with arenas := st.v.arenas.set i (arenaFree a st.mem ptr).1 }, (arenaFree a st.mem ptr).2⟩

/-- `varena_alloc()`, src/alloc.c:295-310: the object (0 if it failed), and the new state. -/
def varenaAlloc (st : VSt) (s : Sys) (count : Nat) : Out (Nat × VSt) :=
  (varenaGet st.v s.grow count).bind fun
    | (v, none) => .ok (0, { st with v := v })
    | (v, some i) => allocIn { st with v := v } s i

/-- `memcpy()`. -/
def copy (mem : Mem) (dst src n : Nat) : Mem := fun x => if dst ≤ x ∧ x < dst + n then mem (src + (x - dst)) else mem x

/-- The last part of `varena_realloc()`, src/alloc.c:325-348: moving the object from the `j`-th to the `i`-th arena. -/
def moveObj (st : VSt) (s : Sys) (ptr i j : Nat) : Out (Nat × VSt) :=
  match st.v.arenas[i]?, st.v.arenas[j]? with
  | some new, some old =>
    if i = j then .ok (ptr, st)
    else (allocIn st s i).bind fun (ret, st) =>
      if ret = 0 then .ok (0, st)
      else (freeIn { st with mem := copy st.mem ret ptr (min new.size old.size) } j ptr).bind fun st => .ok (ret, st)
  | _, _ => .ub

/-- `varena_realloc()`, src/alloc.c:312-348. -/
def varenaRealloc (st : VSt) (s : Sys) (ptr old new : Nat) : Out (Nat × VSt) :=
  (varenaGet st.v s.grow new).bind fun (v, i) => (varenaGet v s.grow old).bind fun (v, j) =>
    match i, j with
    | none, _ => .ok (0, { st with v := v })
    | some _, none => .ub
    | some i, some j => moveObj { st with v := v } s ptr i j

/-- `varena_grow()`, src/alloc.c:350-363: the object, the new count, and the new state. -/
def varenaGrow (st : VSt) (s : Sys) (ptr count : Nat) : Out (Nat × Nat × VSt) :=
  (sizeClass st.v (count + 1)).bind fun c => (oneShl (c + st.v.shift)).bind fun n => (varenaRealloc st s ptr count n).bind fun (p, st) => .ok (p, if p ≠ 0 then n else count, st)

/-- `varena_free()`, src/alloc.c:365-368. -/
def varenaFree (st : VSt) (s : Sys) (ptr count : Nat) : Out VSt :=
  (varenaGet st.v s.grow count).bind fun
    | (_, none) => .ub
    | (v, some i) => freeIn { st with v := v } i ptr

/-- `varena_clear()`, src/alloc.c:370-374. -/
def varenaClear (v : Varena) : Varena := { v with arenas := v.arenas.map arenaClear }

end Verif.Alloc
