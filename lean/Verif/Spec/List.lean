import Verif.Model.List
/-!
# What lists should do

The meaning of a list is a sequence of items. An item is in at most one list.
-/
namespace Verif.Spec.Lists
open Verif Verif.Lists

/-- The sequences in all lists. -/
abbrev Seqs := Nat → List Nat

/-- Replacing one of the sequences. -/
def put (m : Seqs) (l : Nat) (xs : List Nat) : Seqs := fun k => if k = l then xs else m k

/-- The place before the `k`-th item of a list: in the head of the list, or in the item before it. -/
def place (m : Seqs) (l k : Nat) : Slot :=
  match k with
  | 0 => .head l
  | k + 1 => .next ((m l)[k]?.getD 0)

/-- The operations on singly-linked lists. Cursors are given as positions. -/
inductive Op where
  | insert (l k x : Nat)
  | append (l x : Nat)
  | prepend (l x : Nat)
  | splice (dest k src : Nat)
  | extend (dest src : Nat)
  | remove (l k : Nat)
  | pop (l : Nat)
  | drain (l : Nat)

/-- An item that is not in a list. -/
def Free (m : Seqs) (x : Nat) : Prop := x ≠ 0 ∧ ∀ l, x ∉ m l

/-- When an operation may be used: only free items may be inserted, and positions must exist. -/
def Allowed (m : Seqs) : Op → Prop
  | .insert l k x => k ≤ (m l).length ∧ Free m x
  | .append _ x => Free m x
  | .prepend _ x => Free m x
  | .splice dest k src => k ≤ (m dest).length ∧ src ≠ dest
  | .extend dest src => src ≠ dest
  | .remove l k => k < (m l).length
  | .pop _ => True
  | .drain _ => True

/-- What an operation does to the sequences. -/
def effect (m : Seqs) : Op → Seqs
  | .insert l k x => put m l ((m l).take k ++ x :: (m l).drop k)
  | .append l x => put m l (m l ++ [x])
  | .prepend l x => put m l (x :: m l)
  | .splice dest k src => put (put m dest ((m dest).take k ++ m src ++ (m dest).drop k)) src []
  | .extend dest src => put (put m dest (m dest ++ m src)) src []
  | .remove l k => put m l ((m l).take k ++ (m l).drop (k + 1))
  | .pop l => put m l (m l).tail
  | .drain l => put m l []

/-- The items that it returns. -/
def result (m : Seqs) : Op → List Nat
  | .remove l k => [(m l)[k]?.getD 0]
  | .pop l => (m l).take 1
  | .drain l => m l
  | _ => []

/-- Doing it with pointers: the items that are returned, and the new state. -/
def run (st : St) (m : Seqs) : Op → Out (List Nat × St)
  | .insert l k x => (slistInsert st l (place m l k) x).bind fun r => if r.2 = place (effect m (.insert l k x)) l (k + 1) then .ok ([], r.1) else .ub
  | .append l x => (slistAppend st l x).bind fun st => .ok ([], st)
  | .prepend l x => (slistPrepend st l x).bind fun st => .ok ([], st)
  | .splice dest k src => .ok ([], slistSplice st dest (place m dest k) src)
  | .extend dest src => .ok ([], slistExtend st dest src)
  | .remove l k => (slistRemove st l (place m l k)).bind fun r => .ok ([r.1], r.2)
  | .pop l => (slistPop st l).bind fun r => .ok (if r.1 = 0 then [] else [r.1], r.2)
  | .drain l => drain ((m l).length + 1) st l

/-- The operations on doubly-linked lists. -/
inductive DOp where
  | insertAfter (l k x : Nat)
  | append (l x : Nat)
  | prepend (l x : Nat)
  | remove (l k : Nat)

/-- When they may be used; `insertAfter` inserts after the `k`-th item. -/
def DAllowed (m : Seqs) : DOp → Prop
  | .insertAfter l k x => k < (m l).length ∧ Free m x
  | .append _ x => Free m x
  | .prepend _ x => Free m x
  | .remove l k => k < (m l).length

/-- What they do to the sequences. -/
def deffect (m : Seqs) : DOp → Seqs
  | .insertAfter l k x => put m l ((m l).take (k + 1) ++ x :: (m l).drop (k + 1))
  | .append l x => put m l (m l ++ [x])
  | .prepend l x => put m l (x :: m l)
  | .remove l k => put m l ((m l).take k ++ (m l).drop (k + 1))

/-- Doing it with pointers. -/
def drun (st : DSt) (m : Seqs) : DOp → Out DSt
  | .insertAfter l k x => listInsert st l ((m l)[k]?.getD 0) x
  | .append l x => listAppend st l x
  | .prepend l x => listPrepend st l x
  | .remove l k => .ok (listRemove st l ((m l)[k]?.getD 0))

/-! ## Histories -/

/-- All lists are empty. -/
def noItems : Seqs := fun _ => []

/-- Every operation is allowed when it is done. -/
def AllAllowed (m : Seqs) : List Op → Prop
  | [] => True
  | op :: ops => Allowed m op ∧ AllAllowed (effect m op) ops

/-- The sequences after some operations. -/
def final (m : Seqs) (ops : List Op) : Seqs := ops.foldl effect m

/-- What the operations return. -/
def results (m : Seqs) : List Op → List (List Nat)
  | [] => []
  | op :: ops => result m op :: results (effect m op) ops

/-- Doing them with pointers. -/
def runs (st : St) (m : Seqs) : List Op → Out (List (List Nat) × St)
  | [] => .ok ([], st)
  | op :: ops => (run st m op).bind fun r => (runs r.2 (effect m op) ops).bind fun q => .ok (r.1 :: q.1, q.2)

/-- What can be seen of a list: looping over it visits its items in order and ends, whether it is empty, and its last item. -/
structure Shows (st : St) (l : Nat) (xs : List Nat) : Prop where
  loop : ∀ fuel, xs.length < fuel → walk st.g fuel (st.g.head l) = xs
  empty : st.g.head l = 0 ↔ xs = []
  last : slistTail st l = .ok (xs.getLast?.getD 0)

/-- Lists and items that were just initialized. -/
def fresh : St := ⟨⟨fun _ => 0, fun _ => 0⟩, .head⟩

def AllDAllowed (m : Seqs) : List DOp → Prop
  | [] => True
  | op :: ops => DAllowed m op ∧ AllDAllowed (deffect m op) ops

def dfinal (m : Seqs) (ops : List DOp) : Seqs := ops.foldl deffect m

def druns (st : DSt) (m : Seqs) : List DOp → Out DSt
  | [] => .ok st
  | op :: ops => (drun st m op).bind fun st => druns st (deffect m op) ops

/-- Looping forwards visits the items in order, and following the `prev` pointers from the tail visits them in the opposite order. -/
structure DShows (st : DSt) (l : Nat) (xs : List Nat) : Prop where
  loop : ∀ fuel, xs.length < fuel → walk st.fwd fuel (st.fwd.head l) = xs
  back : ∀ fuel, xs.length < fuel → walk st.bwd fuel (st.bwd.head l) = xs.reverse
  empty : st.fwd.head l = 0 ↔ xs = []

/-- Lists and items that were just initialized. -/
def dfresh : DSt := ⟨⟨fun _ => 0, fun _ => 0⟩, ⟨fun _ => 0, fun _ => 0⟩⟩

end Verif.Spec.Lists
