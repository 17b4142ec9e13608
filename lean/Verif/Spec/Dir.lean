import Verif.Model.Dir
/-!
# What reading a directory should do
-/
namespace Verif.Spec.Dir
open Verif Verif.Dir

/-- The entries that should be seen: all but the directory itself, its parent, and (unless they are asked for) whiteouts. -/
def Visible (whiteouts : Bool) (d : Dent) : Prop :=
  d.name ≠ ".".toUTF8.toList ∧ d.name ≠ "..".toUTF8.toList ∧ (whiteouts = false → d.type ≠ 14)

/-- The type of an entry, by the numbers of the kernel (`DT_*`). -/
def typeOf (n : Nat) : Type' :=
  match n with
  | 1 => .fifo
  | 2 => .chr
  | 4 => .dir
  | 6 => .blk
  | 8 => .reg
  | 10 => .lnk
  | 12 => .sock
  | 14 => .wht
  | _ => .unknown

open Classical in
/-- What should be seen of a directory. -/
noncomputable def contents (whiteouts : Bool) (ds : List Dent) : List (Type' × List UInt8) :=
  (ds.filter fun d => decide (Visible whiteouts d)).map fun d => (typeOf d.type, d.name)

/-- What the kernel returns: entries of a positive size that fit into the buffer, with a type. -/
def Valid (ds : List Dent) : Prop := ∀ d ∈ ds, 0 < d.reclen ∧ d.reclen ≤ 65520 ∧ d.type < 16

/-- Operations on an open directory. -/
inductive Op where
  | poll
  | read

/-- Perform some operations. The results of the reads are collected. -/
def run (wht : Bool) : List Op → Dir → Kernel → Out (List (Except String (Option (Type' × List UInt8))) × Dir × Kernel)
  | [], d, k => .ok ([], d, k)
  | .poll :: ops, d, k => let r := polldir d k; run wht ops r.2.1 r.2.2
  | .read :: ops, d, k =>
    (readdir wht d k).bind fun r => (run wht ops r.2.1 r.2.2).bind fun s => .ok (r.1 :: s.1, s.2)

/-- The entry that a read returned, if it did. -/
def entryOf : Except String (Option (Type' × List UInt8)) → Option (Type' × List UInt8)
  | .ok (some e) => some e
  | _ => none

/-- The entries that were read. -/
def entriesOf (rs : List (Except String (Option (Type' × List UInt8)))) : List (Type' × List UInt8) :=
  rs.filterMap entryOf

/-- The answers of `readdir()` that are entries. -/
def streamDent : Except String Dent → Option Dent
  | .ok d => some d
  | .error _ => none

/-- Perform some operations, without `getdents()`. -/
def run2 : List Op → Dir2 → Stream → Out (List (Except String (Option (Type' × List UInt8))) × Dir2 × Stream)
  | [], d, s => .ok ([], d, s)
  | .poll :: ops, d, s => let r := polldir2 d s; run2 ops r.2.1 r.2.2
  | .read :: ops, d, s =>
    (readdir2 d s).bind fun r => (run2 ops r.2.1 r.2.2).bind fun t => .ok (r.1 :: t.1, t.2)

end Verif.Spec.Dir
