import Verif.Model.Bit
import Verif.Model.Quote
/-!
# Dynamic strings (src/dstring.c)

A string is its allocated memory (as many bytes as its capacity, which includes the terminator) and its length.  `size_t` has 64 bits, and the header 16 bytes.  Accesses outside the allocation and failed assertions are undefined behaviour.
-/
namespace Verif.Dstr
open Verif

abbrev Bytes := List UInt8

/-- `struct dstring`, src/dstring.c:20-27; `cap` is the length of `mem`. -/
structure DStr where
  mem : Bytes
  len : Nat
  deriving DecidableEq, Repr

/-- The allocator: whether the `k`-th allocation succeeds, and what is in the new memory. -/
abbrev Heap := Nat → Option (Nat → UInt8)

/-- The variable that points to a string (`none` is `NULL`), and the number of allocations so far. -/
structure St where
  str : Option DStr
  k : Nat
  deriving DecidableEq, Repr

/-- `sizeof_flex(struct dstring, str, count)`, src/alloc.h:100-125, with the saturating arithmetic of src/alloc.h:44-55. -/
def sizeofFlex (count : Nat) : Nat := (if count + (16 + 8 - 1) < 2 ^ 64 then count + (16 + 8 - 1) else 2 ^ 64 - 1) / 8 * 8

/-- `ALLOC_MAX`, src/alloc.c:18-22. -/
def ALLOC_MAX : Nat := 2 ^ 63 - 1

/-- `ALLOC_FLEX()`, src/alloc.h:169-170, and `alloc()`, src/alloc.c:38-51: new memory for a string, or `NULL`; without the 16 bytes
for the capacity and the length, and without padding after `cap` bytes. -/
def allocFlex (h : Heap) (k cap : Nat) : Option Bytes := if sizeofFlex cap > ALLOC_MAX then none else (h k).map fun g => (List.range (min cap (sizeofFlex cap - 16))).map g

/-- `REALLOC_FLEX()`, src/alloc.h:199-200, and `xrealloc()`, src/alloc.c:72-107: the old contents followed by new memory, or `NULL`. -/
def reallocFlex (h : Heap) (k : Nat) (mem : Bytes) (cap : Nat) : Option Bytes := (allocFlex h k cap).map fun new => mem.take cap ++ new.drop mem.length

/-- `dstrsetlen()`, src/dstring.c:50-54. -/
def setLen (d : DStr) (len : Nat) : Out DStr := if len < d.mem.length then .ok ⟨d.mem.set len 0, len⟩ else .ub

/-- `memcpy()` to offset `i` of a string. -/
def poke (d : DStr) (i : Nat) (l : Bytes) : Out DStr := if i + l.length ≤ d.mem.length then .ok { d with mem := d.mem.take i ++ l ++ d.mem.drop (i + l.length) } else .ub

/-- The capacity that `dstralloc_impl()` uses, src/dstring.c:58-61; `DSTR_OFFSET` is 16. -/
def smallCap (cap : Nat) : Nat := if cap < 16 then 16 else cap

/-- `dstralloc_impl()`, src/dstring.c:57-74. -/
def allocImpl (h : Heap) (k cap len : Nat) (str : Bytes) : Out (Option DStr) :=
  match allocFlex h k (smallCap cap) with
  | none => .ok none
  | some mem => (setLen ⟨mem, 0⟩ len).bind fun d => (poke d 0 (str.take len)).bind fun d => .ok (some d)

/-- `dstralloc()`, src/dstring.c:76-78. -/
def dstralloc (h : Heap) (k cap : Nat) : Out (Option DStr) := allocImpl h k ((cap + 1) % 2 ^ 64) 0 []

/-- `dstrxdup()`, src/dstring.c:92-94. -/
def dstrxdup (h : Heap) (k : Nat) (str : Bytes) : Out (Option DStr) := allocImpl h k ((str.length + 1) % 2 ^ 64) str.length str

/-- `dstrlen()`, src/dstring.c:96-98. -/
def dstrlen : Option DStr → Out Nat
  | none => .ub
  | some d => .ok d.len

/-- `dstreserve()`, src/dstring.c:100-122: whether it succeeded, and the new state. -/
def dstreserve (h : Heap) (st : St) (cap : Nat) : Out (Bool × St) :=
  match st.str with
  | none => (dstralloc h st.k cap).bind fun r => .ok (r.isSome, ⟨r, st.k + 1⟩)
  | some d =>
    if d.mem.length ≥ (cap + 1) % 2 ^ 64 then .ok (true, st)
    else (Bit.bitCeil Bit.leadingZerosGnu 64 ((cap + 1) % 2 ^ 64)).bind fun c =>
      match reallocFlex h st.k d.mem c with
      | none => .ok (false, { st with k := st.k + 1 })
      | some mem => .ok (true, ⟨some { d with mem := mem }, st.k + 1⟩)

/-- The last step of an operation, on a string that is not `NULL`. -/
def onStr (st : St) (f : DStr → Out DStr) : Out (Bool × St) :=
  match st.str with
  | none => .ub
  | some d => (f d).bind fun d => .ok (true, { st with str := some d })

/-- `dstresize()`, src/dstring.c:124-132. -/
def dstresize (h : Heap) (st : St) (len : Nat) : Out (Bool × St) :=
  (dstreserve h st len).bind fun
    | (false, st) => .ok (false, st)
    | (true, st) => onStr st fun d => setLen d len

/-- `dstrshrink()`, src/dstring.c:134-138. -/
def dstrshrink (st : St) (len : Nat) : Out (Bool × St) := onStr st fun d => if len ≤ d.len then setLen d len else .ub

/-- `dstrxcat()`, src/dstring.c:152-162. -/
def dstrxcat (h : Heap) (st : St) (src : Bytes) : Out (Bool × St) :=
  (dstrlen st.str).bind fun oldlen => (dstresize h st ((oldlen + src.length) % 2 ^ 64)).bind fun
    | (false, st) => .ok (false, st)
    | (true, st) => onStr st fun d => poke d oldlen src

/-- `dstrapp()`, src/dstring.c:164-166. -/
def dstrapp (h : Heap) (st : St) (c : UInt8) : Out (Bool × St) := dstrxcat h st [c]

/-- `dstrxcpy()`, src/dstring.c:180-187. -/
def dstrxcpy (h : Heap) (st : St) (src : Bytes) : Out (Bool × St) :=
  (dstresize h st src.length).bind fun
    | (false, st) => .ok (false, st)
    | (true, st) => onStr st fun d => poke d 0 src

/-- The outcome of formatting: the text, or failure, after which the buffer holds junk; `again` is whether the second attempt works as the first. -/
structure Fmt where
  text : Option Bytes
  junk : Bytes
  again : Bool
  deriving DecidableEq, Repr

/-- `vsnprintf()` to offset `i`, with room for `size` bytes: the length of the whole text, and the new state. -/
def vsnprintf (d : DStr) (i size : Nat) (text : Option Bytes) (junk : Bytes) : Out (Option Nat × DStr) :=
  match text with
  | none => (poke d i (junk.take size)).bind fun d => .ok (none, d)
  | some t => if size = 0 then .ok (some t.length, d) else (poke d i (t.take (size - 1) ++ [0])).bind fun d => .ok (some t.length, d)

/-- The label `fail` in `dstrvcatf()`, src/dstring.c:258-262. -/
def vcatFail (d : DStr) (len k : Nat) : Out (Bool × St) := (poke d len [0]).bind fun d => .ok (false, ⟨some d, k⟩)

/-- The last line of `dstrvcatf()`, src/dstring.c:255: the new length is not checked. -/
def addLen (d : DStr) (n k : Nat) : Out (Bool × St) := .ok (true, ⟨some { d with len := d.len + n }, k⟩)

/-- `dstrvcatf()`, src/dstring.c:224-263, with a format of `flen` bytes.  If the second attempt fails this is a bug (`bfs_bug()`), which release builds treat as a failure; so does this. -/
def dstrvcatf (h : Heap) (st : St) (flen : Nat) (f : Fmt) : Out (Bool × St) :=
  (dstrlen st.str).bind fun len => (dstreserve h st ((len + 2 * flen) % 2 ^ 64)).bind fun (_, st) =>
    match st.str with
    | none => .ub
    | some d => (vsnprintf d len (d.mem.length - len) f.text f.junk).bind fun
      | (none, d') => vcatFail d' len st.k
      | (some n, d') =>
        if n ≥ d.mem.length - len then
          (dstreserve h { st with str := some d' } ((len + n) % 2 ^ 64)).bind fun
            | (false, st') => match st'.str with
              | none => .ub
              | some d'' => vcatFail d'' len st'.k
            | (true, st') => match st'.str with
              | none => .ub
              | some d'' => (vsnprintf d'' len (n + 1) (if f.again then f.text else none) f.junk).bind fun
                | (none, d3) => vcatFail d3 len st'.k
                | (some m, d3) => if m ≠ n then vcatFail d3 len st'.k else addLen d3 n st'.k
        else addLen d' n st.k

/-- `dstrnescat()`, src/dstring.c:269-285, of a string of which `s` are the first `n` bytes. -/
def dstrnescat (h : Heap) (st : St) (L : Quote.Locale) (shell : Bool) (s : Bytes) : Out (Bool × St) :=
  let len := (st.str.map (·.len)).getD 0
  let cap := len + 4 * s.length + 3
  (dstreserve h st (cap % 2 ^ 64)).bind fun
    | (false, st) => .ok (false, st)
    | (true, st) =>
      let q := Quote.wordnesc L shell ⟨[], cap + 1 - len⟩ s
      if q.room = 0 then .ub
      else (onStr st fun d => poke d len (q.out ++ [0])).bind fun (_, st) => dstresize h st (len + q.out.length)

/-- The loop of `dstrepeat()`, src/dstring.c:300-305. -/
def repeatLoop (h : Heap) (str : Bytes) : Nat → St → Out (Option DStr)
  | 0, st => .ok st.str
  | n + 1, st => (dstrxcat h st str).bind fun
    | (false, _) => .ok none
    | (true, st) => repeatLoop h str n st

/-- `dstrepeat()`, src/dstring.c:293-308. -/
def dstrepeat (h : Heap) (str : Bytes) (n : Nat) : Out (Option DStr) :=
  (dstralloc h 0 (n * str.length % 2 ^ 64)).bind fun
    | none => .ok none
    | some d => repeatLoop h str n ⟨some d, 1⟩

end Verif.Dstr
