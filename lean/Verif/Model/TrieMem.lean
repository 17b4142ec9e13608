import Verif.Model.Trie
/-!
# The byte-string trie when memory runs out, src/trie.c

The insertion of `Verif.Model.Trie` again, with every allocation it makes answered by an
arbitrary allocator: request number `i` of a call succeeds iff `mem i`.  A call gives the new
trie and whether it succeeded; the pointers of a failed call are the ones the code leaves
behind, including the jump nodes that were linked in before the failure.

The shrinking reallocation in `trie_remove_impl()` (src/trie.c:757-762) keeps the node as it is
when it fails, so removal has no visible failure and `removeKey` is used unchanged.  The
capacities of the children arrays are not modelled.
-/
namespace Verif.Trie
open Verif.Spec.Trie (Op)

/-- The answers of the allocator to the requests of one call. -/
abbrev Mem := Nat → Bool

/-- `has_single_bit(size)` for a node's number of children (src/trie.c:464), at most 16. -/
def singleBit (n : Nat) : Bool := n = 1 || n = 2 || n = 4 || n = 8 || n = 16

/-- `trie_node_insert()`, src/trie.c:460-486: at powers of two the array is doubled first. -/
def nodeInsertM (grow : Bool) (map : BitVec 16) (o : Nat) (cs : List Ptr) (key : Key) (n : Nat) : Out (Ptr × Bool) :=
  if singleBit (countOnes map) && !grow then .ok (.node map o cs, false)
  else (nodeInsert map o cs key n).bind fun p => .ok (p, true)

/-- `trie_split()`, src/trie.c:551-576: the nibbles are read and compared before the allocation. -/
def splitM (alloc : Bool) (p : Ptr) (key r : Key) (off mm : Nat) : Out (Ptr × Bool) :=
  (split p key r off mm).bind fun p' => .ok (if alloc then (p', true) else (p, false))

/-- The loop of `trie_jump()` calls (src/trie.c:513-533, 627-633) and the final split, at a leaf.
When an allocation fails, the jump nodes linked in so far stay. -/
def jumpM (K : Nat) (mem : Mem) (leaf key : Key) (off mm i : Nat) : Out (Ptr × Bool) :=
  if mm - off > K + 1 then
    if mem i then
      (nibble leaf (off + (K + 1))).bind fun n =>
      (jumpM K mem leaf key (off + (K + 1)) mm (i + 1)).bind fun p => .ok (.node (bit n) (K + 1) [p.1], p.2)
    else .ok (.leaf leaf, false)
  else splitM (mem i) (.leaf leaf) key leaf off mm
termination_by mm - off

mutual
/-- The descent of `trie_insert_mem_impl()`, src/trie.c:606-635.  Request 0 was for the leaf, so
the first node is request 1. -/
def insertAtM (K : Nat) (mem : Mem) (key r : Key) (mm : Nat) : Nat → Ptr → Out (Ptr × Bool)
  | off, .leaf k => jumpM K mem k key off mm 1
  | off, .node map o cs =>
    if off + o > mm then
      if mm - off > K + 1 then .ub else splitM (mem 1) (.node map o cs) key r off mm
    else
      (nibble key (off + o)).bind fun n =>
        if has map n then
          if off + o < mm then
            (insertNthM K mem key r mm (off + o) cs (index map n)).bind fun x => .ok (.node map o x.1, x.2)
          else .ub
        else if off + o = mm then nodeInsertM (mem 1) map o cs key n
        else .ub
/-- Replace the child at an index. -/
def insertNthM (K : Nat) (mem : Mem) (key r : Key) (mm : Nat) : Nat → List Ptr → Nat → Out (List Ptr × Bool)
  | _, [], _ => .ub
  | off, c :: cs, 0 => (insertAtM K mem key r mm off c).bind fun x => .ok (x.1 :: cs, x.2)
  | off, c :: cs, i + 1 => (insertNthM K mem key r mm off cs i).bind fun x => .ok (c :: x.1, x.2)
end

variable {V : Type}

/-- The end of `trie_insert_mem_impl()` once the nodes are in place or not: the leaf, appended to
the list by `trie_leaf_alloc()`, src/trie.c:353-367, is taken out again by `trie_leaf_free()`,
src/trie.c:370-373, if it could not be linked in. -/
def finishM (t : Trie V) (key : Key) (v0 : V) (x : Ptr × Bool) : Option Key × Trie V :=
  if x.2 then (some key, ⟨some x.1, t.leaves ++ [(key, v0)]⟩)
  else (none, ⟨some x.1, t.leaves⟩)

/-- `trie_insert_mem_impl()`, src/trie.c:583-636: returns the leaf (its key), or `none` for a
`NULL` with `errno == ENOMEM`, and the new trie. -/
def insertMemM (K : Nat) (mem : Mem) (t : Trie V) (key : Key) (v0 : V) : Out (Option Key × Trie V) :=
  match t.root with
  | none =>
    if 0 ≥ key.length then .ub
    else .ok (if mem 0 then (some key, ⟨some (.leaf key), t.leaves ++ [(key, v0)]⟩) else (none, t))
  | some p =>
    (rep key 0 p).bind fun r =>
      if mismatch64 r key / 2 ≥ key.length then .ok (some r, t)
      else if mismatch64 r key / 2 ≥ r.length then .err "EINVAL"
      else if mem 0 then
        (insertAtM K mem key r (mismatch64 r key) 0 p).bind fun x => .ok (finishM t key v0 x)
      else .ok (none, t)

/-- The assignment in `trie_set_mem()`, src/trie.c:652-660, and whether it returns 0. -/
def assignM (v : V) : Option Key × Trie V → Trie V × Bool
  | (some k, t) => (⟨t.root, setValue k v t.leaves⟩, true)
  | (none, t) => (t, false)

/-- `trie_set_mem()`, src/trie.c:652-660: the new trie, and whether it returns 0. -/
def setMemM (K : Nat) (mem : Mem) (t : Trie V) (key : Key) (v0 v : V) : Out (Trie V × Bool) :=
  (insertMemM K mem t key v0).bind fun x => .ok (assignM v x)

/-- Run one update on the trie: the new trie and whether the update succeeded. -/
def stepM (K : Nat) (v0 : V) (t : Trie V) (mem : Mem) : Op V → Out (Trie V × Bool)
  | .set k v => setMemM K mem t k v0 v
  | .remove k => (removeKey K t k).bind fun t' => .ok (t', true)

/-- Run a history, with the allocator's answers to each call: the final trie, and which of the
updates succeeded. -/
def runM (K : Nat) (v0 : V) : Trie V → List (Op V × Mem) → Out (Trie V × List Bool)
  | t, [] => .ok (t, [])
  | t, x :: xs => (stepM K v0 t x.2 x.1).bind fun y =>
      (runM K v0 y.1 xs).bind fun z => .ok (z.1, y.2 :: z.2)

end Verif.Trie
