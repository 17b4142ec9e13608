import Verif.Model.C
import Verif.Spec.Trie
/-!
# The byte-string trie, src/trie.c

Leaves are identified by their keys.  The records behind the leaves (`struct trie_leaf`:
`value`, and the `prev`/`next` list that `for_trie()` walks) are the association list
`Trie.leaves`, in list order.  Memory allocation is assumed to succeed; allocation classes
and the doubling of the children array are not modelled (see C44).  A failed `bfs_assert()`
and an out-of-bounds read are the outcome `ub`.
-/
namespace Verif.Trie

/-- A key: a byte sequence. -/
abbrev Key := List UInt8

/-- `struct trie_node` / leaf pointers, src/trie.c:113-134.  Children are in bitmap order. -/
inductive Ptr where
  | leaf (key : Key)
  | node (bitmap : BitVec 16) (offset : Nat) (children : List Ptr)

/-- `trie_key_nibble()`, src/trie.c:173-188: the assertion also guards the array access. -/
def nibble (key : Key) (offset : Nat) : Out Nat :=
  match key[offset / 2]? with
  | some b => .ok ((b.toNat >>> (4 * ((offset + 1) % 2))) % 16)
  | none => .ub

/-- `1U << nibble`, as a bit of the bitmap. -/
def bit (n : Nat) : BitVec 16 := 1#16 <<< n

/-- `count_ones()` on a bitmap. -/
def countOnes (b : BitVec 16) : Nat := (List.range 16).countP fun i => b.getLsbD i

/-- `map & bit`. -/
def has (map : BitVec 16) (n : Nat) : Bool := map &&& bit n ≠ 0

/-- `count_ones(map & (bit - 1))`. -/
def index (map : BitVec 16) (n : Nat) : Nat := countOnes (map &&& (bit n - 1))

/-- The index chosen at a node by `trie_representative()`, src/trie.c:219-228. -/
def repIndex (map : BitVec 16) (key : Key) (offset : Nat) : Out Nat :=
  if offset < 2 * key.length then
    (nibble key offset).bind fun n => .ok (if has map n then index map n else 0)
  else .ok 0

mutual
/-- The loop of `trie_representative()`, src/trie.c:208-233. -/
def rep (key : Key) : Nat → Ptr → Out Key
  | _, .leaf k => .ok k
  | off, .node map o cs => (repIndex map key (off + o)).bind fun i => repNth key (off + o) cs i
/-- `node->children[index]`, then the rest of the loop. -/
def repNth (key : Key) : Nat → List Ptr → Nat → Out Key
  | _, [], _ => .ub
  | off, c :: _, 0 => rep key off c
  | off, _ :: cs, i + 1 => repNth key off cs i
end

/-- `trie_find_mem_impl()`, src/trie.c:240-247, on a possibly null root. -/
def findMem (root : Option Ptr) (key : Key) : Out (Option Key) :=
  match root with
  | none => .ok none
  | some p => (rep key 0 p).bind fun r => .ok (if r.length = key.length && r == key then some r else none)

/-- `trie_find_postfix_impl()`, src/trie.c:263-271; `key` is the string without its NUL. -/
def findPostfix (root : Option Ptr) (key : Key) : Out (Option Key) :=
  match root with
  | none => .ok none
  | some p => (rep (key ++ [0]) 0 p).bind fun r =>
      .ok (if r.length ≥ key.length && r.take key.length == key then some r else none)

/-- `trie_terminal_leaf()`, src/trie.c:281-298: at most `n` steps. -/
def terminalLeaf : Nat → Ptr → Option Key
  | 0, _ => none
  | n + 1, .node map _ (c :: _) =>
    if map.getLsbD 0 then
      match c with
      | .leaf k => some k
      | .node m o cs => terminalLeaf n (.node m o cs)
    else none
  | _, _ => none

/-- `memcmp(key + skip, leaf->key + skip, n) == 0` where `n = leaf->length - skip - 1`
(src/trie.c:301-307); a negative (wrapped) length is undefined. -/
def checkPrefix (leaf : Option Key) (skip : Nat) (key : Key) : Out Bool :=
  match leaf with
  | none => .ok false
  | some l =>
    if l.length ≤ key.length then
      if skip + 1 ≤ l.length then
        .ok ((key.drop skip).take (l.length - skip - 1) == (l.drop skip).take (l.length - skip - 1))
      else .ub
    else .ok false

mutual
/-- The loop of `trie_find_prefix_impl()`, src/trie.c:321-352.  `key` includes the NUL. -/
def prefixLoop (key : Key) : Option Key → Nat → Nat → Ptr → Out (Option Key)
  | best, skip, _, .leaf k =>
    (checkPrefix (some k) skip key).bind fun ok => .ok (if ok then some k else best)
  | best, skip, off, .node map o cs =>
    if off + o ≥ 2 * key.length then .ok best
    else
      (checkPrefix (terminalLeaf 2 (.node map o cs)) skip key).bind fun ok =>
      (nibble key (off + o)).bind fun n =>
        if has map n then
          prefixNth key (if ok then terminalLeaf 2 (.node map o cs) else best)
            (if ok then (off + o) / 2 else skip) (off + o) cs (index map n)
        else .ok (if ok then terminalLeaf 2 (.node map o cs) else best)
/-- `ptr = node->children[index]`, then the rest of the loop. -/
def prefixNth (key : Key) : Option Key → Nat → Nat → List Ptr → Nat → Out (Option Key)
  | _, _, _, [], _ => .ub
  | best, skip, off, c :: _, 0 => prefixLoop key best skip off c
  | best, skip, off, _ :: cs, i + 1 => prefixNth key best skip off cs i
end

/-- `trie_find_prefix_impl()`, src/trie.c:310-354; `key` is the string without its NUL. -/
def findPrefix (root : Option Ptr) (key : Key) : Out (Option Key) :=
  match root with
  | none => .ok none
  | some p => prefixLoop (key ++ [0]) none 0 0 p

/-- `load8_beu*()`: a big-endian load of the given bytes, src/bit.h. -/
def load (l : Key) : Nat := l.foldl (fun acc b => acc * 256 + b.toNat) 0

/-- `leading_zeros()` of a word of `w` bits. -/
def leadingZeros (w n : Nat) : Nat := if n = 0 then w else w - (n.log2 + 1)

/-- `diff` in `CHUNK_()`, src/trie.c:416-421, for an `n`-byte word. -/
def chunkDiff (n : Nat) (a b : Key) : Nat := load (a.take n) ^^^ load (b.take n)

/-- `if CHUNK(n)` for each word size in turn, src/trie.c:431-435.  The lists are what
remains of the two keys, and the length test is against the shorter one. -/
def mismatchTail : List Nat → Key → Key → Nat
  | [], _, _ => 0
  | n :: ns, a, b =>
    if n ≤ min a.length b.length then
      if chunkDiff n a b ≠ 0 then leadingZeros (8 * n) (chunkDiff n a b) / 4
      else leadingZeros (8 * n) (chunkDiff n a b) / 4 + mismatchTail ns (a.drop n) (b.drop n)
    else mismatchTail ns a b

/-- `while CHUNK(n)`, src/trie.c:429, then the rest.  Word sizes are positive. -/
def mismatchLoop (n : Nat) (ns : List Nat) (a b : Key) : Nat :=
  if n ≤ min a.length b.length ∧ 0 < n then
    if chunkDiff n a b ≠ 0 then leadingZeros (8 * n) (chunkDiff n a b) / 4
    else leadingZeros (8 * n) (chunkDiff n a b) / 4 + mismatchLoop n ns (a.drop n) (b.drop n)
  else mismatchTail ns a b
termination_by a.length
decreasing_by simp; omega

/-- `trie_mismatch()`, src/trie.c:402-441, with 64-bit words: the index of the first nibble
that differs. -/
def mismatch64 (rep key : Key) : Nat := mismatchLoop 8 [4, 2, 1] rep key

/-- `trie_mismatch()` where `SIZE_WIDTH` is 32, src/trie.c:433. -/
def mismatch32 (rep key : Key) : Nat := mismatchLoop 4 [2, 1] rep key

/-- `trie_node_insert()`, src/trie.c:462-491. -/
def nodeInsert (map : BitVec 16) (o : Nat) (cs : List Ptr) (key : Key) (n : Nat) : Out Ptr :=
  if has map n then .ub
  else .ok (.node (map ||| bit n) o (cs.insertIdx (index (map ||| bit n) n) (.leaf key)))

/-- `child->offset -= delta`, if it is a node, src/trie.c:570-573. -/
def shiftNode (delta : Nat) : Ptr → Ptr
  | .leaf k => .leaf k
  | .node m o cs => .node m (o - delta) cs

/-- `trie_split()`, src/trie.c:556-582. -/
def split (p : Ptr) (key r : Key) (off mm : Nat) : Out Ptr :=
  (nibble key mm).bind fun kn => (nibble r mm).bind fun rn =>
    if kn = rn then .ub
    else .ok (.node (bit kn ||| bit rn) (mm - off)
      (if kn > rn then [shiftNode (mm - off) p, .leaf key] else [.leaf key, shiftNode (mm - off) p]))

/-- The loop of `trie_jump()` calls (src/trie.c:520-541, 627-633) and the final split, at a
leaf.  `K + 1` is `OFFSET_MAX`. -/
def jump (K : Nat) (leaf key : Key) (off mm : Nat) : Out Ptr :=
  if mm - off > K + 1 then
    (nibble leaf (off + (K + 1))).bind fun n =>
    (jump K leaf key (off + (K + 1)) mm).bind fun p => .ok (.node (bit n) (K + 1) [p])
  else split (.leaf leaf) key leaf off mm
termination_by mm - off

mutual
/-- The descent of `trie_insert_mem_impl()`, src/trie.c:606-635: `r` is the representative and
`mm` the mismatch.  Where a node is split no jump is needed because its own offset is at
most `OFFSET_MAX`; jumps from a node are `ub` (`trie_decode_leaf()` asserts). -/
def insertAt (K : Nat) (key r : Key) (mm : Nat) : Nat → Ptr → Out Ptr
  | off, .leaf k => jump K k key off mm
  | off, .node map o cs =>
    if off + o > mm then
      if mm - off > K + 1 then .ub else split (.node map o cs) key r off mm
    else
      (nibble key (off + o)).bind fun n =>
        if has map n then
          if off + o < mm then
            (insertNth K key r mm (off + o) cs (index map n)).bind fun cs' => .ok (.node map o cs')
          else .ub
        else if off + o = mm then nodeInsert map o cs key n
        else .ub
/-- Replace the child at an index. -/
def insertNth (K : Nat) (key r : Key) (mm : Nat) : Nat → List Ptr → Nat → Out (List Ptr)
  | _, [], _ => .ub
  | off, c :: cs, 0 => (insertAt K key r mm off c).bind fun c' => .ok (c' :: cs)
  | off, c :: cs, i + 1 => (insertNth K key r mm off cs i).bind fun cs' => .ok (c :: cs')
end

/-- The outcome of removing a leaf below a pointer: the whole chain of singletons goes, or a
smaller subtrie remains. -/
inductive Removed where
  | gone
  | kept (p : Ptr)

/-- `trie_collapse_node()` on the remaining child, src/trie.c:703-718 (`none`: cannot collapse). -/
def collapse (K : Nat) (o : Nat) : Ptr → Option Ptr
  | .leaf k => some (.leaf k)
  | .node m o' cs => if o' + o ≤ K + 1 then some (.node m (o' + o) cs) else none

/-- The end of `trie_remove_impl()` at the lowest node with several children,
src/trie.c:751-765. -/
def removeChild (K : Nat) (map : BitVec 16) (o : Nat) (cs : List Ptr) (n : Nat) : Ptr :=
  let i := index map n
  let rest := Ptr.node (map &&& ~~~ bit n) o (cs.eraseIdx i)
  if countOnes map = 2 then
    match cs[i ^^^ 1]? with
    | some other => (collapse K o other).getD rest
    | none => rest
  else rest

/-- What happens to a node when the removal below its child `i` ended: if the child's chain
is gone and this node is a singleton too, it goes as well; otherwise it is the `parent` of
src/trie.c:736-741. -/
def removeStep (K : Nat) (map : BitVec 16) (o : Nat) (cs : List Ptr) (n : Nat) : Removed → Removed
  | .gone => if countOnes map = 1 then .gone else .kept (removeChild K map o cs n)
  | .kept p => .kept (.node map o (cs.set (index map n) p))

mutual
/-- `trie_remove_impl()`, src/trie.c:710-765, by recursion instead of remembering the last
node with several children. -/
def removeAt (K : Nat) (key : Key) : Nat → Ptr → Out Removed
  | _, .leaf k => if k = key then .ok .gone else .ub
  | off, .node map o cs =>
    (nibble key (off + o)).bind fun n =>
      if has map n then
        (removeNth K key (off + o) cs (index map n)).bind fun x => .ok (removeStep K map o cs n x)
      else .ub
/-- Continue in the child at an index. -/
def removeNth (K : Nat) (key : Key) : Nat → List Ptr → Nat → Out Removed
  | _, [], _ => .ub
  | off, c :: _, 0 => removeAt K key off c
  | off, _ :: cs, i + 1 => removeNth K key off cs i
end

/-- `struct trie` with values of type `V`. -/
structure Trie (V : Type) where
  root : Option Ptr
  leaves : List (Key × V)

variable {V : Type}

/-- `trie_init()`, src/trie.c:165-170, and `trie_clear()`, src/trie.c:771-777. -/
def empty : Trie V := ⟨none, []⟩

/-- `trie_insert_mem_impl()`, src/trie.c:588-636: returns the leaf (its key) and the new trie;
`v0` is the initial value (`NULL`). -/
def insertMem (K : Nat) (t : Trie V) (key : Key) (v0 : V) : Out (Key × Trie V) :=
  match t.root with
  | none =>
    -- rep == NULL, mismatch == 0
    if 0 ≥ key.length then .ub  -- "return rep" with rep == NULL
    else .ok (key, ⟨some (.leaf key), t.leaves ++ [(key, v0)]⟩)
  | some p =>
    (rep key 0 p).bind fun r =>
      if mismatch64 r key / 2 ≥ key.length then .ok (r, t)
      else if mismatch64 r key / 2 ≥ r.length then .err "EINVAL"
      else (insertAt K key r (mismatch64 r key) 0 p).bind fun p' =>
        .ok (key, ⟨some p', t.leaves ++ [(key, v0)]⟩)

/-- Assign `leaf->value`. -/
def setValue (k : Key) (v : V) (l : List (Key × V)) : List (Key × V) :=
  l.map fun x => if x.1 = k then (x.1, v) else x

/-- `trie_set_mem()`, src/trie.c:652-660. -/
def setMem (K : Nat) (t : Trie V) (key : Key) (v0 v : V) : Out (Trie V) :=
  (insertMem K t key v0).bind fun x => .ok ⟨x.2.root, setValue x.1 v x.2.leaves⟩

/-- `leaf->value`. -/
def value (l : List (Key × V)) (k : Key) : Option V := (l.find? fun x => x.1 == k).map (·.2)

/-- `trie_get_mem()`, src/trie.c:258-261. -/
def getMem (t : Trie V) (key : Key) : Out (Option V) :=
  (findMem t.root key).bind fun
    | some k => .ok (value t.leaves k)
    | none => .ok none

/-- `trie_remove()` of the leaf with the given key, src/trie.c:710-769. -/
def remove (K : Nat) (t : Trie V) (leaf : Key) : Out (Trie V) :=
  match t.root with
  | none => .ub
  | some p => (removeAt K leaf 0 p).bind fun
    | .gone => .ok ⟨none, t.leaves.eraseP fun x => x.1 == leaf⟩
    | .kept p' => .ok ⟨some p', t.leaves.eraseP fun x => x.1 == leaf⟩

/-- Removing a key the way src/color.c does: `trie_find_mem()`, then `trie_remove()` if there
is such a leaf. -/
def removeKey (K : Nat) (t : Trie V) (key : Key) : Out (Trie V) :=
  (findMem t.root key).bind fun
    | some k => remove K t k
    | none => .ok t

/-- `OFFSET_MAX - 1` on a 64-bit machine, src/trie.c:107-109. -/
def K64 : Nat := 2 ^ 48 - 2

open Verif.Spec.Trie (Op)

/-- Run one update on the trie; `v0` is the value of a fresh leaf. -/
def step (K : Nat) (v0 : V) (t : Trie V) : Op V → Out (Trie V)
  | .set k v => setMem K t k v0 v
  | .remove k => removeKey K t k

/-- Run a history. -/
def run (K : Nat) (v0 : V) : Trie V → List (Op V) → Out (Trie V)
  | t, [] => .ok t
  | t, op :: ops => (step K v0 t op).bind fun t' => run K v0 t' ops

end Verif.Trie
