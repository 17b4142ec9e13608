import Verif.Model.Trie
/-!
# Parsing `$LS_COLORS` and looking up extensions (src/color.c)

Strings are lists of bytes without the terminating NUL. The value of an environment variable contains no other NUL, but what it decodes to may. Failing allocations are not modelled. Pointers to `struct ext_color` are indices into the list of those that were allocated; that is also their `priority`.
-/
namespace Verif.Color
open Verif.Trie

abbrev Bytes := List UInt8

/-- The escapes of one letter, src/color.c:448-477. -/
def letter (c : UInt8) : Option UInt8 :=
  if c = 97 then some 7
  else if c = 98 then some 8
  else if c = 101 then some 27
  else if c = 102 then some 12
  else if c = 110 then some 10
  else if c = 114 then some 13
  else if c = 116 then some 9
  else if c = 118 then some 11
  else if c = 63 then some 127
  else if c = 95 then some 32
  else none

/-- `'0' ≤ c ≤ '7'`. -/
def isOct (c : UInt8) : Bool := 48 ≤ c && c ≤ 55

/-- The octal loop, src/color.c:487-492: `x` is `*i`.  The result is `c`, and what comes after `i`.
`c` is an `unsigned char`, so that shifting drops the high bits. -/
def octal : UInt8 → UInt8 → Bytes → UInt8 × Bytes
  | c, x, [] => ((c <<< 3) ||| (x - 48), [])
  | c, x, y :: s => if isOct y then octal ((c <<< 3) ||| (x - 48)) y s else ((c <<< 3) ||| (x - 48), y :: s)

/-- The value of a hexadecimal digit, src/color.c:498-507. -/
def hexDigit (c : UInt8) : Option UInt8 :=
  if 48 ≤ c ∧ c ≤ 57 then some (c - 48)
  else if 65 ≤ c ∧ c ≤ 70 then some (c - 65 + 10)
  else if 97 ≤ c ∧ c ≤ 102 then some (c - 97 + 10)
  else none

/-- The hexadecimal loop, src/color.c:497-512. -/
def hex : UInt8 → Bytes → UInt8 × Bytes
  | c, [] => (c, [])
  | c, x :: s => match hexDigit x with
    | some d => hex ((c <<< 4) ||| d) s
    | none => (c, x :: s)

/-- After a backslash, src/color.c:446-522: the byte, and what comes after. -/
def backslash : Bytes → Option (UInt8 × Bytes)
  | [] => none
  | c :: s =>
    match letter c with
    | some b => some (b, s)
    | none =>
      if isOct c then some (octal 0 c s)
      else if c = 88 ∨ c = 120 then some (hex 0 s)
      else some (c, s)

/-- After a caret, src/color.c:524-537. -/
def caret : Bytes → Option (UInt8 × Bytes)
  | [] => none
  | c :: s => if c = 63 then some (127, s) else some (c &&& 0x1F, s)

/-- One round of the loop, src/color.c:441-546. -/
def unescape1 (c : UInt8) (s : Bytes) : Option (UInt8 × Bytes) :=
  if c = 92 then backslash s
  else if c = 94 then caret s
  else some (c, s)

/-- The loop of `unescape()`, src/color.c:429-554: the decoded chunk and `*next`.  The first argument is a bound for the number of rounds;
running out of it is `ub`. -/
def unescapeLoop : Nat → Bytes → Bytes → UInt8 → Out (Bytes × Option Bytes)
  | _, str, [], _ => .ok (str, none)
  | 0, _, _ :: _, _ => .ub
  | n + 1, str, c :: s, stop =>
    if c = stop then .ok (str, some s)
    else match unescape1 c s with
      | some (b, rest) => unescapeLoop n (str ++ [b]) rest stop
      | none => .err "EINVAL"

/-- `unescape()`, src/color.c:429-554.  `none` is a null pointer. -/
def unescape (value : Option Bytes) (stop : UInt8) : Out (Bytes × Option Bytes) :=
  match value with
  | none => .err "EINVAL"
  | some v => unescapeLoop v.length [] v stop

/-- What a chunk of `$LS_COLORS` asks for: `set_ext()` or `set_esc()`. -/
inductive Setting
  | ext (key value : Bytes)
  | esc (key : Bytes) (value : Option Bytes)
  deriving DecidableEq, Repr

/-- All-zero values are dropped, src/color.c:585-594: `strspn(value, "0") == dstrlen(value)`, and the key is not `rs`, `lc`, `rc` or `ec`. -/
def escValue (key value : Bytes) : Option Bytes :=
  if value.all (· == 48) ∧ key ≠ [114, 115] ∧ key ≠ [108, 99] ∧ key ≠ [114, 99] ∧ key ≠ [101, 99] then none else some value

/-- One chunk of `parse_gnu_ls_colors()`, src/color.c:557-608: `none` is the `break` when there is no `=`. -/
def chunk : Bytes → Out (Option (Setting × Option Bytes))
  | 42 :: s =>
    (unescape (some s) 61).bind fun k =>
    (unescape k.2 58).bind fun v => .ok (some (.ext k.1 v.1, v.2))
  | s =>
    if 61 ∈ s then
      let key := s.takeWhile (· ≠ 61)
      (unescape (some (s.drop (key.length + 1))) 58).bind fun v => .ok (some (.esc key (escValue key v.1), v.2))
    else .ok none

/-- The loop of `parse_gnu_ls_colors()`, src/color.c:557-608: the settings that are made, in order.  The first argument is a bound for the
number of rounds; running out of it is `ub`. -/
def settingsLoop : Nat → Bytes → Out (List Setting)
  | 0, _ => .ub
  | n + 1, s =>
    (chunk s).bind fun
      | none => .ok []
      | some (x, none) => .ok [x]
      | some (x, some s) => (settingsLoop n s).bind fun l => .ok (x :: l)

/-- `parse_gnu_ls_colors()`, src/color.c:557-608. -/
def settings (lsColors : Bytes) : Out (List Setting) := settingsLoop (lsColors.length + 1) lsColors

/-! ## Extensions -/

/-- One swap and the rest of the loop of `ext_reverse()`, src/color.c:187-193. -/
def reverseLoop : Nat → Nat → Nat → Bytes → Bytes
  | 0, _, _, l => l
  | n + 1, i, j, l =>
    if i < j then reverseLoop n (i + 1) (j - 1) ((l.set i (l.getD j 0)).set j (l.getD i 0)) else l

/-- `ext_reverse()`, src/color.c:187-193. -/
def extReverse (l : Bytes) : Bytes := if l.length ≠ 0 then reverseLoop l.length 0 (l.length - 1) l else l

/-- `ext_tolower()`, src/color.c:196-210. -/
def extTolower (l : Bytes) : Bytes := l.map fun c => if 65 ≤ c ∧ c ≤ 90 then c + 32 else c

/-- `struct ext_color`, src/color.c:41-52. -/
structure Ext where
  esc : Bytes
  caseSensitive : Bool
  ext : Bytes
  deriving DecidableEq, Repr

/-- The part of `struct colors` about extensions, src/color.c:103-113.  `K` is a parameter of the trie. -/
structure Colors where
  exts : List Ext
  extLen : Nat
  extTrie : Trie Nat
  iextTrie : Trie Nat

/-- `while ((leaf = trie_find_postfix(trie, ext->ext))) trie_remove(trie, leaf)`, src/color.c:215-218.  The first argument is a bound for the
number of rounds; running out of it is `ub`. -/
def removePostfixes (K : Nat) : Nat → Trie Nat → Bytes → Out (Trie Nat)
  | 0, _, _ => .ub
  | n + 1, t, ext =>
    (findPostfix t.root ext).bind fun
      | some leaf => (remove K t leaf).bind fun t => removePostfixes K n t ext
      | none => .ok t

/-- `insert_ext()`, src/color.c:213-222. -/
def insertExt (K : Nat) (t : Trie Nat) (ext : Bytes) (i : Nat) : Out (Trie Nat) :=
  (removePostfixes K (t.leaves.length + 1) t ext).bind fun t => setMem K t (ext ++ [0]) 0 i

/-- `set_ext()`, src/color.c:225-272. -/
def setExt (K : Nat) (c : Colors) (key value : Bytes) : Out Colors :=
  if 0 ∈ key then .ok c
  else
    (insertExt K c.extTrie (extReverse key) c.exts.length).bind fun t =>
      .ok { c with
        exts := c.exts ++ [{ esc := value, caseSensitive := false, ext := extReverse key }]
        extTrie := t
        extLen := if c.extLen < key.length then key.length else c.extLen }

/-- All the `set_ext()` calls of a run, in order. -/
def setAll (K : Nat) : Colors → List (Bytes × Bytes) → Out Colors
  | c, [] => .ok c
  | c, (k, v) :: rest => (setExt K c k v).bind fun c => setAll K c rest

/-- `ext_case_sensitive()`, src/color.c:284-311. -/
def extCaseSensitive (ext : Ext) : Option Ext → Bool
  | none => false
  | some iext =>
    if iext.caseSensitive then true
    else if iext.esc = ext.esc then false
    else true

/-- `ext->case_sensitive = true`. -/
def markCase (exts : List Ext) (i : Nat) : List Ext := exts.modify i fun e => { e with caseSensitive := true }

/-- The body of the first loop of `build_iext_trie()`, src/color.c:314-354.  The values of this trie are possibly null pointers. -/
def caseStep (K : Nat) (exts : List Ext) (t : Trie (Option Nat)) (i : Nat) : Out (List Ext × Trie (Option Nat)) :=
  let exts := exts.modify i fun e => { e with ext := extTolower e.ext }
  match exts[i]? with
  | none => .ub
  | some ext =>
    (insertMem K t (ext.ext ++ [0]) none).bind fun x =>
      let prev := (value x.2.leaves x.1).join
      let exts := if extCaseSensitive ext (prev.bind fun p => exts[p]?) then (match prev with
        | some p => markCase (markCase exts i) p
        | none => exts) else exts
      .ok (exts, ⟨x.2.root, setValue x.1 (some i) x.2.leaves⟩)

/-- The first loop of `build_iext_trie()`, src/color.c:314-354. -/
def caseLoop (K : Nat) : List Ext → Trie (Option Nat) → List Nat → Out (List Ext)
  | exts, _, [] => .ok exts
  | exts, t, i :: rest => (caseStep K exts t i).bind fun x => caseLoop K x.1 x.2 rest

/-- The second loop of `build_iext_trie()`, src/color.c:314-354. -/
def iextLoop (K : Nat) (exts : List Ext) : Trie Nat → List Nat → Out (Trie Nat)
  | t, [] => .ok t
  | t, i :: rest =>
    match exts[i]? with
    | none => .ub
    | some ext =>
      if ext.caseSensitive then iextLoop K exts t rest
      else (insertExt K t ext.ext i).bind fun t => iextLoop K exts t rest

/-- `build_iext_trie()`, src/color.c:314-354. -/
def buildIextTrie (K : Nat) (c : Colors) : Out Colors :=
  let order := c.extTrie.leaves.map (·.2)
  (caseLoop K c.exts Trie.empty order).bind fun exts =>
    (iextLoop K exts Trie.empty order).bind fun t => .ok { c with exts, iextTrie := t }

/-- The part of `parse_colors()`, src/color.c:610-713, about extensions. -/
def build (K : Nat) (entries : List (Bytes × Bytes)) : Out Colors :=
  (setAll K ⟨[], 0, Trie.empty, Trie.empty⟩ entries).bind fun c => buildIextTrie K c

/-- `leaf ? leaf->value : NULL`. -/
def leafValue (t : Trie Nat) : Option Key → Option Nat
  | none => none
  | some k => value t.leaves k

/-- `get_ext()`, src/color.c:359-395, in two steps: which extension it is, and its color. -/
def getExtIndex (c : Colors) (filename : Bytes) : Out (Option Nat) :=
  let extLen := if filename.length < c.extLen then filename.length else c.extLen
  let copy := extReverse (filename.drop (filename.length - extLen))
  (findPrefix c.extTrie.root copy).bind fun leaf =>
  let ext := leafValue c.extTrie leaf
  let copy := extTolower copy
  (findPrefix c.iextTrie.root copy).bind fun ileaf =>
  let iext := leafValue c.iextTrie ileaf
  .ok (match iext, ext with
    | none, e => e
    | some i, none => some i
    | some i, some e => if e < i then some i else some e)

/-- `ext ? ext->esc : NULL`. -/
def getExt (c : Colors) (filename : Bytes) : Out (Option Bytes) :=
  (getExtIndex c filename).bind fun
    | none => .ok none
    | some i => match c.exts[i]? with
      | some e => .ok (some e.esc)
      | none => .ub

end Verif.Color
