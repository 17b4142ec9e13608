import Verif.Model.C
/-!
# Escaping strings for shells and terminals, src/bfstd.c

Strings are byte lists without their NUL: the argument `s` of each function below stands for
the first `len = strnlen(str, n)` bytes.  (`strcspn()` may scan beyond `len`, but its result is
clamped to `len`.)  The C library's character classification is an arbitrary `Locale`.
-/
namespace Verif.Quote

abbrev Bytes := List UInt8

/-- The locale: `isprint()`, `isspace()`, `mbrtowc()`, `iswprint()`, `iswspace()`. -/
structure Locale where
  /-- `mbstate_t` -/
  σ : Type
  /-- `(mbstate_t){0}` -/
  init : σ
  isprint : UInt8 → Bool
  isspace : UInt8 → Bool
  /-- `mbrtowc()` on the remaining bytes: the number of bytes, the wide character and the new
  state, or `none` for results -1 and -2 -/
  mbrtowc : σ → Bytes → Option (Nat × Nat × σ)
  iswprint : Nat → Bool
  iswspace : Nat → Bool

/-- What we ask of `mbrtowc()`: it consumes at least one and at most all bytes.  (NULs, for
which it returns 0, do not occur.) -/
structure Locale.OK (L : Locale) : Prop where
  progress : ∀ st rest n wc st', rest ≠ [] → L.mbrtowc st rest = some (n, wc, st') → 1 ≤ n ∧ n ≤ rest.length

/-- Some bytes are neither printable (nor, if `space`, white space) on their own, nor ever part
of a printable (white space) multibyte character. -/
structure Locale.Hides (L : Locale) (space : Bool) (bad : UInt8 → Prop) : Prop where
  byte : ∀ c, bad c → L.isprint c = false ∧ (space = true → L.isspace c = false)
  wide : ∀ st rest n wc st', L.mbrtowc st rest = some (n, wc, st') → (∃ c ∈ rest.take n, bad c) →
    L.iswprint wc = false ∧ (space = true → L.iswspace wc = false)

/-- `xmbrtowc()`, src/bfstd.c:990-1004: the character (`none` for `WEOF`), how far `*i` moves,
and the state. -/
def xmbrtowc (L : Locale) (st : L.σ) (rest : Bytes) : Option Nat × Nat × L.σ :=
  match L.mbrtowc st rest with
  | none => (none, 1, L.init)
  | some (n, wc, st') => (some wc, n, st')

/-- The C buffer between `dest` and `end`: what was written so far and `end - dest`. -/
structure Dest where
  out : Bytes
  room : Nat
  deriving DecidableEq, Repr

/-- `xstpencpy()`, src/bfstd.c:437-449, of a string without NULs (already cut to its `n`). -/
def put (d : Dest) (src : Bytes) : Dest :=
  if src.length < d.room then ⟨d.out ++ src, d.room - src.length⟩
  else ⟨d.out ++ src.take (d.room - 1), 0⟩

/-- `load8_leu64()` and so on, src/bit.h: the little-endian word made of some bytes. -/
def loadLe : Bytes → Nat
  | [] => 0
  | b :: bs => b.toNat + 256 * loadLe bs

/-- `trailing_zeros()`, src/bit.h, of a word of the given width. -/
def trailingZeros : Nat → Nat → Nat
  | 0, _ => 0
  | w + 1, n => if n % 2 = 1 then 0 else trailingZeros w (n / 2) + 1

/-- The masked word of `CHUNK_()`, src/bfstd.c:966-969. -/
def asciiWord (n : Nat) (s : Bytes) : Nat := loadLe (s.take n) &&& ((2 ^ (8 * n) - 1) / 255) <<< 7

/-- `if CHUNK(n)` for each word size in turn, src/bfstd.c:978-982. -/
def asciiTail : List Nat → Bytes → Nat
  | [], _ => 0
  | n :: ns, s =>
    if n ≤ s.length then
      if asciiWord n s ≠ 0 then trailingZeros (8 * n) (asciiWord n s) / 8
      else trailingZeros (8 * n) (asciiWord n s) / 8 + asciiTail ns (s.drop n)
    else asciiTail ns s

/-- `while CHUNK(n)`, src/bfstd.c:977, then the rest.  Word sizes are positive. -/
def asciiLoop (n : Nat) (ns : List Nat) (s : Bytes) : Nat :=
  if n ≤ s.length ∧ 0 < n then
    if asciiWord n s ≠ 0 then trailingZeros (8 * n) (asciiWord n s) / 8
    else trailingZeros (8 * n) (asciiWord n s) / 8 + asciiLoop n ns (s.drop n)
  else asciiTail ns s
termination_by s.length
decreasing_by simp; omega

/-- `asciinlen()`, src/bfstd.c:959-988, where `SIZE_WIDTH` is 64. -/
def asciinlen (s : Bytes) : Nat := asciiLoop 8 [4, 2, 1] s

/-- `asciinlen()` where `SIZE_WIDTH` is 32. -/
def asciinlen32 (s : Bytes) : Nat := asciiLoop 4 [2, 1] s

/-- `wesc_isprint()`, src/bfstd.c:1060-1074. -/
def wescIsprint (L : Locale) (shell : Bool) (c : UInt8) : Bool :=
  if L.isprint c then true else if !shell && L.isspace c then true else false

/-- `wesc_iswprint()`, src/bfstd.c:1077-1087. -/
def wescIswprint (L : Locale) (shell : Bool) (c : Nat) : Bool :=
  if L.iswprint c then true else if !shell && L.iswspace c then true else false

/-- The multibyte loop of `printable_len()`, src/bfstd.c:1105-1114, counting from the current
position.  `fuel` bounds the iterations. -/
def mbPrintable (L : Locale) (shell : Bool) : Nat → L.σ → Bytes → Nat
  | 0, _, _ => 0
  | fuel + 1, st, rest =>
    if rest = [] then 0 else
    match xmbrtowc L st rest with
    | (none, _, _) => 0
    | (some wc, n, st') =>
      if wescIswprint L shell wc then n + mbPrintable L shell fuel st' (rest.drop n) else 0

/-- `printable_len()`, src/bfstd.c:1090-1116. -/
def printableLen (L : Locale) (shell : Bool) (s : Bytes) : Nat :=
  let asclen := asciinlen s
  let i := ((s.take asclen).takeWhile (wescIsprint L shell)).length
  if i < asclen then i else i + mbPrintable L shell (s.length + 1) L.init (s.drop i)

/-- `dollar_esc()`, src/bfstd.c:1118-1144. -/
def dollarEsc (c : UInt8) : Option Bytes :=
  if c = 7 then some [92, 97]
  else if c = 8 then some [92, 98]
  else if c = 27 then some [92, 101]
  else if c = 12 then some [92, 102]
  else if c = 10 then some [92, 110]
  else if c = 13 then some [92, 114]
  else if c = 9 then some [92, 116]
  else if c = 11 then some [92, 118]
  else if c = 39 then some [92, 39]
  else if c = 92 then some [92, 92]
  else none

/-- The `hex[]` table, src/bfstd.c:1175. -/
def hex (n : Nat) : UInt8 := if n < 10 then UInt8.ofNat (48 + n) else UInt8.ofNat (55 + n)

/-- One escaped byte, src/bfstd.c:1168-1180. -/
def escByte (d : Dest) (b : UInt8) : Dest :=
  match dollarEsc b with
  | some e => put d e
  | none => put (put (put d [92, 120]) [hex (b.toNat / 16)]) [hex (b.toNat % 16)]

/-- The loop of `dollar_quote()`, src/bfstd.c:1150-1182. -/
def dollarLoop (L : Locale) (shell : Bool) : Nat → L.σ → Bytes → Dest → Dest
  | 0, _, _, d => d
  | fuel + 1, st, rest, d =>
    if rest = [] then d else
    match xmbrtowc L st rest with
    | (wc, n, st') =>
      let safe := (match wc with
        | some wc => wescIswprint L shell wc
        | none => false) && (rest.take n).all (fun c => !(c == 39 || c == 92))
      let d := if safe then put d (rest.take n) else (rest.take n).foldl escByte d
      dollarLoop L shell fuel st' (rest.drop n) d

/-- `dollar_quote()`, src/bfstd.c:1147-1185. -/
def dollarQuote (L : Locale) (shell : Bool) (d : Dest) (s : Bytes) : Dest :=
  put (dollarLoop L shell (s.length + 1) L.init s (put d [36, 39])) [39]

/-- The set of `bare_len()`: ``|&;<>()$`\"' *?[#~=%!{}``. -/
def bareSet : Bytes :=
  [124, 38, 59, 60, 62, 40, 41, 36, 96, 92, 34, 39, 32, 42, 63, 91, 35, 126, 61, 37, 33, 123, 125]

/-- `bare_len()`, src/bfstd.c:1188-1192. -/
def bareLen (s : Bytes) : Nat := (s.takeWhile (fun c => !bareSet.contains c)).length

/-- The set of `quotable_len()`: `` `$\"! ``. -/
def quotableSet : Bytes := [96, 36, 92, 34, 33]

/-- `quotable_len()`, src/bfstd.c:1195-1199. -/
def quotableLen (s : Bytes) : Nat := (s.takeWhile (fun c => !quotableSet.contains c)).length

/-- `double_quote()`, src/bfstd.c:1202-1206. -/
def doubleQuote (d : Dest) (s : Bytes) : Dest := put (put (put d [34]) s) [34]

/-- The inner `while` of `single_quote()`, src/bfstd.c:1225-1234. -/
def quotesLoop : Bool → Bytes → Dest → Bool × Bytes × Dest
  | isOpen, 39 :: s, d => quotesLoop false s (put (if isOpen then put d [39] else d) [92, 39])
  | isOpen, s, d => (isOpen, s, d)

/-- The outer `while` of `single_quote()`, src/bfstd.c:1212-1235. -/
def singleLoop : Nat → Bool → Bytes → Dest → Bool × Dest
  | 0, isOpen, _, d => (isOpen, d)
  | fuel + 1, isOpen, s, d =>
    if s = [] then (isOpen, d) else
    let chunk := s.takeWhile (· ≠ 39)
    let r := if 0 < chunk.length then
        quotesLoop true (s.drop chunk.length) (put (if isOpen then d else put d [39]) chunk)
      else quotesLoop isOpen s d
    singleLoop fuel r.1 r.2.1 r.2.2

/-- `single_quote()`, src/bfstd.c:1209-1241. -/
def singleQuote (d : Dest) (s : Bytes) : Dest :=
  let r := singleLoop (s.length + 1) false s d
  if r.1 then put r.2 [39] else r.2

/-- The choice of quoting in `wordnesc()`, src/bfstd.c:1251-1264. -/
def wordnescBody (L : Locale) (shell : Bool) (d : Dest) (s : Bytes) : Dest :=
  if printableLen L shell s < s.length then dollarQuote L shell d s
  else if !shell || bareLen s = s.length then put d s
  else if quotableLen s = s.length then doubleQuote d s
  else singleQuote d s

/-- `wordnesc()`, src/bfstd.c:1247-1271; `shell` is `flags & WESC_SHELL`. -/
def wordnesc (L : Locale) (shell : Bool) (d : Dest) (s : Bytes) : Dest :=
  let d' := wordnescBody L shell d s
  if d'.room = d.room then put d' [34, 34] else d'

/-- The part of `dstrnescat()` that fills the reserved space, src/dstring.c:270-285: the bytes
appended, or `ub` if the truncation assertion fails. -/
def escape (L : Locale) (shell : Bool) (s : Bytes) : Out Bytes :=
  let d := wordnesc L shell ⟨[], 4 * s.length + 3 + 1⟩ s
  if d.room = 0 then .ub else .ok d.out

end Verif.Quote
