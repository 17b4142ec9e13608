import Verif.Model.C
/-!
# Intrusive linked lists (src/list.h)

Items are numbers, and 0 is `NULL`. A pointer to a pointer to an item is a slot: the head of a list, or the `next` field of an item. There can be many lists, which share the items.
-/
namespace Verif.Lists
open Verif

/-- Where a pointer to an item is stored: `&list->head` or `&item->next`. -/
inductive Slot where
  | head (l : Nat)
  | next (x : Nat)
  deriving DecidableEq, Repr

/-- The pointers: the heads of the lists, and the `next` fields of the items. -/
structure Graph where
  head : Nat → Nat
  next : Nat → Nat

/-- `*slot`. -/
def read (g : Graph) : Slot → Nat
  | .head l => g.head l
  | .next x => g.next x

/-- `*slot = v`. -/
def write (g : Graph) (s : Slot) (v : Nat) : Graph :=
  match s with
  | .head l => { g with head := fun k => if k = l then v else g.head k }
  | .next x => { g with next := fun y => if y = x then v else g.next y }

/-! ## Singly-linked lists -/

/-- The state: the pointers, and the `tail` field of each list. -/
structure St where
  g : Graph
  tail : Nat → Slot

/-- Setting `list->tail`. -/
def setTail (st : St) (l : Nat) (s : Slot) : St := { st with tail := fun k => if k = l then s else st.tail k }

/-- `SLIST_INIT_()`, src/list.h:108-110. -/
def slistInit (st : St) (l : Nat) : St := setTail { st with g := write st.g (.head l) 0 } l (.head l)

/-- `SLIST_ITEM_INIT__()`, src/list.h:192-193. -/
def slistItemInit (st : St) (x : Nat) : St := { st with g := write st.g (.next x) 0 }

/-- `SLIST_TAIL__()`, src/list.h:244-245, with `SLIST_CONTAINER_()`, src/list.h:225-226: the item whose `next` field the tail is. -/
def slistTail (st : St) (l : Nat) : Out Nat :=
  if st.g.head l ≠ 0 then
    match st.tail l with
    | .next x => .ok x
    | .head _ => .ub
  else .ok 0

/-- `SLIST_ATTACHED__()`, src/list.h:265-266. -/
def slistAttached (st : St) (l x : Nat) : Bool := decide (st.g.next x ≠ 0) || decide (st.tail l = .next x)

/-- The assignments of `SLIST_INSERT__()`, src/list.h:290-293. -/
def insertAt (st : St) (l : Nat) (cursor : Slot) (x : Nat) : St :=
  let g1 := write st.g (.next x) (read st.g cursor)
  let g2 := write g1 cursor x
  setTail { st with g := g2 } l (if g2.next x ≠ 0 then st.tail l else .next x)

/-- `SLIST_INSERT__()`, src/list.h:288-293: the new state, and the cursor for the next item. -/
def slistInsert (st : St) (l : Nat) (cursor : Slot) (x : Nat) : Out (St × Slot) :=
  if slistAttached st l x then .ub else .ok (insertAt st l cursor x, .next x)

/-- `SLIST_APPEND_()`, src/list.h:308-309. -/
def slistAppend (st : St) (l x : Nat) : Out St := (slistInsert st l (st.tail l) x).bind fun r => .ok r.1

/-- `SLIST_PREPEND_()`, src/list.h:324-325. -/
def slistPrepend (st : St) (l x : Nat) : Out St := (slistInsert st l (.head l) x).bind fun r => .ok r.1

/-- `SLIST_SPLICE_()`, src/list.h:340-344. The cursor can be `dest->tail`, which has not changed yet when it is used. -/
def slistSplice (st : St) (dest : Nat) (cursor : Slot) (src : Nat) : St :=
  let g1 := write st.g (st.tail src) (read st.g cursor)
  let g2 := write g1 cursor (g1.head src)
  slistInit (setTail { st with g := g2 } dest (if read g2 (st.tail dest) ≠ 0 then st.tail src else st.tail dest)) src

/-- `SLIST_EXTEND()`, src/list.h:354-355. -/
def slistExtend (st : St) (dest src : Nat) : St := slistSplice st dest (st.tail dest) src

/-- `SLIST_REMOVE__()`, src/list.h:375-377, and `slist_remove_()`, src/list.h:380-387: the removed item, and the new state. Looking at the `next` field of no item is undefined. -/
def slistRemove (st : St) (l : Nat) (cursor : Slot) : Out (Nat × St) :=
  let ret := read st.g cursor
  if ret = 0 then .ub
  else
    let tail := if st.g.next ret ≠ 0 then st.tail l else cursor
    let g1 := write st.g cursor (st.g.next ret)
    let g2 := write g1 (.next ret) 0
    .ok (ret, setTail { st with g := g2 } l tail)

/-- `SLIST_POP__()`, src/list.h:405-406. -/
def slistPop (st : St) (l : Nat) : Out (Nat × St) := if st.g.head l ≠ 0 then slistRemove st l (.head l) else .ok (0, st)

/-- `for_slist()`, src/list.h:426-429, with a body that does nothing to the pointers: the items that it visits. The first argument bounds the iterations. -/
def walk (g : Graph) : Nat → Nat → List Nat
  | 0, _ => []
  | fuel + 1, x => if x ≠ 0 then x :: walk g fuel (g.next x) else []

/-- `drain_slist()`, src/list.h:443-444: the items that it visits, and the state after it. -/
def drain : Nat → St → Nat → Out (List Nat × St)
  | 0, st, _ => .ok ([], st)
  | fuel + 1, st, l => (slistPop st l).bind fun r => if r.1 ≠ 0 then (drain fuel r.2 l).bind fun d => .ok (r.1 :: d.1, d.2) else .ok ([], r.2)

/-! ## Doubly-linked lists -/

/-- The state: the `next` pointers with the heads, and the `prev` pointers with the tails. -/
structure DSt where
  fwd : Graph
  bwd : Graph

/-- `LIST_INIT_()`, src/list.h:455-456. -/
def listInit (st : DSt) (l : Nat) : DSt := ⟨write st.fwd (.head l) 0, write st.bwd (.head l) 0⟩

/-- `LIST_ATTACHED__()`, src/list.h:541-542. -/
def listAttached (st : DSt) (l x : Nat) : Bool :=
  decide (st.bwd.next x ≠ 0) || decide (st.fwd.next x ≠ 0) || decide (st.fwd.head l = x) || decide (st.bwd.head l = x)

/-- `item ? &item->field : &list->field`. -/
def slotOf (l x : Nat) : Slot := if x ≠ 0 then .next x else .head l

/-- The assignments of `LIST_INSERT__()`, src/list.h:564-567. -/
def dinsertAt (st : DSt) (l cursor x : Nat) : DSt :=
  let b1 := write st.bwd (.next x) cursor
  let f1 := write st.fwd (.next x) (if cursor ≠ 0 then st.fwd.next cursor else st.fwd.head l)
  let f2 := write f1 (slotOf l (b1.next x)) x
  let b2 := write b1 (slotOf l (f2.next x)) x
  ⟨f2, b2⟩

/-- `LIST_INSERT__()`, src/list.h:562-567; `cursor` is the item to insert after, or 0. -/
def listInsert (st : DSt) (l cursor x : Nat) : Out DSt := if listAttached st l x then .ub else .ok (dinsertAt st l cursor x)

/-- `LIST_APPEND()`, src/list.h:507-508. -/
def listAppend (st : DSt) (l x : Nat) : Out DSt := listInsert st l (st.bwd.head l) x

/-- `LIST_PREPEND()`, src/list.h:520-521. -/
def listPrepend (st : DSt) (l x : Nat) : Out DSt := listInsert st l 0 x

/-- `LIST_REMOVE__()`, src/list.h:585-588. -/
def listRemove (st : DSt) (l x : Nat) : DSt :=
  let f1 := write st.fwd (slotOf l (st.bwd.next x)) (st.fwd.next x)
  let b1 := write st.bwd (slotOf l (f1.next x)) (st.bwd.next x)
  ⟨write f1 (.next x) 0, write b1 (.next x) 0⟩

end Verif.Lists
