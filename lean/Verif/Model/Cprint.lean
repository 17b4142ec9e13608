import Verif.Model.Color
import Verif.Model.Quote
import Verif.Model.Path
/-!
# Colored output (src/color.c)

The table of colors that `parse_colors()` makes, which color a file has, how paths are split into
colored parts, and the interpreter of `cfprintf()` formats.

Strings are lists of bytes without the terminating NUL. Failing allocations are answers of an oracle
(`Buf.mem`) wherever something is appended, except in `parse_colors()`. Numbers are passed as the text
that `dstrcatf()` makes of them.
-/
namespace Verif.Cprint
open Verif.Color (Setting)

abbrev Bytes := List UInt8

/-! ## The table -/

/-- The named colors, src/color.c:626-669. -/
inductive Field
  | rs | lc | rc | ec | cl
  | bld | gry | red | grn | ylw | blu | mag | cyn | wht | wrn | err
  | no | fi | mh | ex | ca | sg | su | di | st | ow | tw | ln | or | mi | bd | cd | door | pi | so
  deriving DecidableEq, Repr

/-- Their names, src/color.c:626-669. -/
def Field.name : Field → Bytes
  | rs => [114, 115] | lc => [108, 99] | rc => [114, 99] | ec => [101, 99] | cl => [99, 108]
  | bld => [98, 108, 100] | gry => [103, 114, 121] | red => [114, 101, 100] | grn => [103, 114, 110]
  | ylw => [121, 108, 119] | blu => [98, 108, 117] | mag => [109, 97, 103] | cyn => [99, 121, 110]
  | wht => [119, 104, 116] | wrn => [119, 114, 110] | err => [101, 114, 114]
  | no => [110, 111] | fi => [102, 105] | mh => [109, 104] | ex => [101, 120] | ca => [99, 97]
  | sg => [115, 103] | su => [115, 117] | di => [100, 105] | st => [115, 116] | ow => [111, 119]
  | tw => [116, 119] | ln => [108, 110] | or => [111, 114] | mi => [109, 105] | bd => [98, 100]
  | cd => [99, 100] | door => [100, 111] | pi => [112, 105] | so => [115, 111]

/-- All of them, in the order of src/color.c:626-669. -/
def Field.all : List Field :=
  [rs, lc, rc, ec, cl, bld, gry, red, grn, ylw, blu, mag, cyn, wht, wrn, err,
    no, fi, mh, ex, ca, sg, su, di, st, ow, tw, ln, or, mi, bd, cd, door, pi, so]

/-- Their default values, src/color.c:626-669. -/
def Field.default : Field → Option Bytes
  | rs => some [48]
  | lc => some [27, 91]
  | rc => some [109]
  | ec => none
  | cl => some [27, 91, 75]
  | bld => some [48, 49, 59, 51, 57]
  | gry => some [48, 49, 59, 51, 48]
  | red => some [48, 49, 59, 51, 49]
  | grn => some [48, 49, 59, 51, 50]
  | ylw => some [48, 49, 59, 51, 51]
  | blu => some [48, 49, 59, 51, 52]
  | mag => some [48, 49, 59, 51, 53]
  | cyn => some [48, 49, 59, 51, 54]
  | wht => some [48, 49, 59, 51, 55]
  | wrn => some [48, 49, 59, 51, 51]
  | err => some [48, 49, 59, 51, 49]
  | no => none
  | fi => some []
  | mh => none
  | ex => some [48, 49, 59, 51, 50]
  | ca => none
  | sg => some [51, 48, 59, 52, 51]
  | su => some [51, 55, 59, 52, 49]
  | di => some [48, 49, 59, 51, 52]
  | st => some [51, 55, 59, 52, 52]
  | ow => some [51, 52, 59, 52, 50]
  | tw => some [51, 48, 59, 52, 50]
  | ln => some [48, 49, 59, 51, 54]
  | or => none
  | mi => none
  | bd => some [48, 49, 59, 51, 51]
  | cd => some [48, 49, 59, 51, 51]
  | door => some [48, 49, 59, 51, 53]
  | pi => some [51, 51]
  | so => some [48, 49, 59, 51, 53]

/-- `struct colors`, src/color.c:54-113. -/
structure Table where
  esc : Field → Option Bytes
  linkAsTarget : Bool
  exts : Color.Colors

/-- `get_esc()`, src/color.c:155-157: the trie of names is a finite map (see C05). -/
def getEsc (name : Bytes) : Option Field := Field.all.find? fun f => f.name = name

/-- `set_esc()`, src/color.c:165-184. -/
def setEsc (esc : Field → Option Bytes) (name : Bytes) (value : Option Bytes) : Field → Option Bytes :=
  match getEsc name with
  | none => esc
  | some f => fun g => if g = f then value else esc g

/-- The effects of `set_esc()` in `parse_gnu_ls_colors()`, src/color.c:557-608. -/
def applyEsc (esc : Field → Option Bytes) : Setting → Field → Option Bytes
  | .esc k v => setEsc esc k v
  | .ext _ _ => esc

/-- The arguments of `set_ext()` in `parse_gnu_ls_colors()`, src/color.c:557-608. -/
def extArgs (l : List Setting) : List (Bytes × Bytes) := l.filterMap fun
  | .ext k v => some (k, v)
  | .esc _ _ => none

/-- `parse_gnu_ls_colors()`, src/color.c:557-608, where the variable may not be set. -/
def settingsOf : Option Bytes → Out (List Setting)
  | none => .ok []
  | some s => Color.settings s

/-- `"target"`. -/
def TARGET : Bytes := [116, 97, 114, 103, 101, 116]

/-- `parse_colors()`, src/color.c:610-713: what is computed from other colors. -/
def endcode (esc : Field → Option Bytes) : Out (Field → Option Bytes) :=
  match esc .ec with
  | some _ => .ok esc
  | none =>
    match esc .lc, esc .rs, esc .rc with
    | some l, some r, some c => .ok fun g => if g = .ec then some (l ++ r ++ c) else esc g
    | _, _, _ => .ub

/-- `parse_colors()`, src/color.c:610-713. `K` is a parameter of the trie. -/
def parseColors (K : Nat) (lsColors bfsColors : Option Bytes) : Out Table :=
  (settingsOf lsColors).bind fun l1 =>
  (settingsOf bfsColors).bind fun l2 =>
  (Color.build K (extArgs (l1 ++ l2))).bind fun exts =>
  let esc := (l1 ++ l2).foldl applyEsc Field.default
  let target := esc .ln = some TARGET
  (endcode (if target then fun g => if g = .ln then some [] else esc g else esc)).bind fun esc =>
  .ok { esc, linkAsTarget := target, exts }

/-! ## Pointers to escape sequences -/

/-- A pointer to a `struct esc_seq`: each non-null field has its own one, as has each extension. -/
inductive Ptr
  | field (f : Field)
  | ext (i : Nat)
  deriving DecidableEq, Repr

/-- The value of a field: `none` is a null pointer. -/
def Table.ptr (t : Table) (f : Field) : Option Ptr := (t.esc f).map fun _ => .field f

/-- What a pointer points to. -/
def Table.seq (t : Table) : Ptr → Option Bytes
  | .field f => t.esc f
  | .ext i => t.exts.exts[i]?.map (·.esc)

/-! ## The buffer -/

/-- The buffer of a `CFILE`, src/color.h:33-46. `mem` says whether the next allocations succeed (all
further ones do). -/
structure Buf where
  out : Bytes
  needReset : Bool
  mem : List Bool
  deriving DecidableEq, Repr

/-- What the printing functions return: the new state, and whether they returned 0 (not -1). -/
abbrev R := Out (Buf × Bool)

/-- `if (x != 0) { return -1; }` -/
def R.then (r : R) (f : Buf → R) : R := r.bind fun x => if x.2 then f x.1 else .ok (x.1, false)

/-- The next answer of the allocator. -/
def Buf.alloc (b : Buf) : Bool × Buf :=
  match b.mem with
  | [] => (true, b)
  | a :: m => (a, { b with mem := m })

/-- `dstrxcat(&cfile->buffer, ...)` and the like. -/
def append (b : Buf) (s : Bytes) : R :=
  if b.alloc.1 then .ok ({ b.alloc.2 with out := b.out ++ s }, true) else .ok (b.alloc.2, false)

/-- `print_esc_chunk()`, src/color.c:1064-1066. -/
def printEscChunk (t : Table) (b : Buf) (p : Option Ptr) : R :=
  match p.bind t.seq with
  | none => .ub
  | some s => append b s

/-- `print_esc()`, src/color.c:1069-1090. -/
def printEsc (t : Table) (b : Buf) (esc : Option Ptr) : R :=
  match esc with
  | none => .ok (b, true)
  | some p =>
    let b := if some p ≠ t.ptr .rs then { b with needReset := true } else b
    (printEscChunk t b (t.ptr .lc)).then fun b =>
    (printEscChunk t b (some p)).then fun b =>
    printEscChunk t b (t.ptr .rc)

/-- `print_reset()`, src/color.c:1093-1100. -/
def printReset (t : Table) (b : Buf) : R :=
  if b.needReset then printEscChunk t { b with needReset := false } (t.ptr .ec) else .ok (b, true)

/-- `print_wordesc()`, src/color.c:1103-1105, with `dstrnescat()`, src/dstring.c:269-285. -/
def printWordesc (L : Quote.Locale) (b : Buf) (s : Bytes) (shell : Bool) : R :=
  if b.alloc.1 then
    (Quote.escape L shell s).bind fun q => .ok ({ b.alloc.2 with out := b.out ++ q }, true)
  else .ok (b.alloc.2, false)

/-- `print_colored()`, src/color.c:1108-1127. -/
def printColored (L : Quote.Locale) (t : Table) (b : Buf) (esc : Option Ptr) (s : Bytes) : R :=
  if s.length = 0 then .ok (b, true)
  else
    (printEsc t b esc).then fun b =>
    (printWordesc L b s false).then fun b =>
    printReset t b

/-! ## Files -/

/-- `enum bfs_type`. -/
inductive Typ
  | error | unknown | blk | chr | dir | door | fifo | lnk | port | reg | sock | wht
  deriving DecidableEq, Repr

/-- The parts of `struct bfs_stat` in use: the type and permissions in `mode`, and `nlink`. -/
structure St where
  type : Typ
  mode : Nat
  nlink : Nat
  deriving DecidableEq, Repr

/-- `enum bfs_stat_flags`. -/
inductive Follow
  | follow | nofollow | tryfollow
  deriving DecidableEq, Repr

/-- `struct BFTW`, and the answers of the system about the file, which do not change while its path is
printed (see C55 for `bftw_stat()` and `bftw_type()`).
* `atCwd`: `at_fd == AT_FDCWD`
* `typeOf`, `statOf`: `bftw_type()` and `bftw_stat()`
* `caps`: `bfs_check_capabilities() > 0`
* `access`: `xfaccessat(at_fd, at_path, F_OK) == 0`
* `statAt`: `bfs_stat()` with links followed, relative to `at_fd` or (if `true`) `AT_FDCWD`
* `target`: `xreadlinkat(at_fd, at_path)` -/
structure Ftw where
  path : Bytes
  nameoff : Nat
  depth : Nat
  type : Typ
  flags : Follow
  atCwd : Bool
  typeOf : Follow → Typ
  statOf : Follow → Option St
  caps : Bool
  access : Bool
  statAt : Bool → Bytes → Option St
  target : Option Bytes

/-- `struct cpath`, src/color.c:777-794. `sb` is `none` while it is not initialized. -/
structure Cpath where
  path : Bytes
  nameoff : Nat
  valid : Nat
  ftw : Ftw
  flags : Follow
  sb : Option St

/-- `cpath->len`. -/
def Cpath.len (c : Cpath) : Nat := c.path.length

/-- `cpath_retreat()`, src/color.c:796-818. -/
def cpathRetreat (c : Cpath) : Cpath :=
  if c.valid > 0 ∧ c.path[c.valid - 1]? = some 47 then
    let valid := Path.backWhile (fun c => c == 47) c.path (c.valid - 1)
    { c with nameoff := Path.backWhile (fun c => c != 47) c.path valid, valid := valid }
  else { c with valid := c.nameoff }

/-- The loop of `cpath_init()`, src/color.c:821-915: `base` is what comes before the path in
`at_path`. The first argument is a bound for the number of rounds; running out of it is `ub`. -/
def validLoop (cwd : Bool) (base : Bytes) : Nat → Cpath → Out Cpath
  | n, c =>
    if c.valid > 0 then
      match c.ftw.statAt cwd (base ++ c.path.take c.valid) with
      | some sb => .ok { c with sb := some sb }
      | none =>
        match n with
        | 0 => .ub
        | n + 1 => validLoop cwd base n (cpathRetreat c)
    else .ok c

/-- `cpath_init()`, src/color.c:821-915, after the first `cpath_retreat()`. `own` means `path ==
ftwbuf->path`. Allocations for `at_path` are one answer of the oracle. -/
def cpathFind (own : Bool) (b : Buf) (c : Cpath) : Out (Buf × Option Cpath) :=
  if own && decide (c.ftw.depth > 0) then .ok (b, some c)
  else if b.alloc.1 then
    (validLoop (own || c.ftw.atCwd)
      (if own = false ∧ c.ftw.atCwd ∧ c.path.head? ≠ some 47 then c.ftw.path.take c.ftw.nameoff else [])
      (c.path.length + 1) c).bind fun c => .ok (b.alloc.2, some c)
  else .ok (b.alloc.2, none)

/-- `cpath_init()`, src/color.c:821-915. -/
def cpathInit (own : Bool) (b : Buf) (path : Bytes) (f : Ftw) (flags : Follow) :
    Out (Buf × Option Cpath) :=
  let c : Cpath :=
    { path, nameoff := if own then f.nameoff else Path.xbaseoff path, valid := path.length,
      ftw := f, flags, sb := none }
  if f.typeOf flags ≠ .error then .ok (b, some c) else cpathFind own b (cpathRetreat c)

/-- `cpath_stat()`, src/color.c:918-924. A buffer that is not initialized is `ub`. -/
def cpathStat (c : Cpath) : Out (Option St) :=
  if c.valid = c.len then .ok (c.ftw.statOf c.flags)
  else match c.sb with
    | none => .ub
    | some sb => .ok (some sb)

/-- `cpath_has_capabilities()`, src/color.c:927-934. -/
def cpathCaps (c : Cpath) : Bool := if c.valid = c.len then c.ftw.caps else false

/-- `cpath_is_broken()`, src/color.c:937-950. -/
def cpathBroken (c : Cpath) : Bool :=
  if c.valid < c.len then false
  else if c.ftw.flags = .nofollow then !c.ftw.access
  else true

/-- `goto error` in `file_color()`, src/color.c:953-1061. -/
def errorColor (t : Table) : Option Ptr :=
  match t.ptr .mi with
  | some p => some p
  | none => t.ptr .or

/-- `colors->f && P(statbuf)`, where `statbuf` may be a null pointer. -/
def testStat (t : Table) (f : Field) (sb : Option St) (P : St → Bool) : Out Bool :=
  if (t.ptr f).isSome then
    match sb with
    | none => .ub
    | some s => .ok (P s)
  else .ok false

/-- `if (color && color->len == 0) color = colors->normal`, src/color.c:1038-1040. -/
def fallBack (t : Table) (color : Option Ptr) : Out (Option Ptr) :=
  match color with
  | none => .ok none
  | some p =>
    match t.seq p with
    | none => .ub
    | some s => if s.length = 0 then .ok (t.ptr .no) else .ok (some p)

/-- The extension's color, or that of files, src/color.c:977-985. -/
def extColor (t : Table) (c : Cpath) : Out (Option Ptr) :=
  (Color.getExtIndex t.exts ((c.path.drop c.nameoff).take (c.valid - c.nameoff))).bind fun e =>
  .ok (match e with
    | some i => some (.ext i)
    | none => t.ptr .fi)

/-- `case BFS_REG` of `file_color()`, src/color.c:953-1061, once `statbuf` is known. -/
def regColor (t : Table) (c : Cpath) (sb : Option St) : Out (Option Ptr) :=
  (testStat t .su sb fun s => s.mode &&& 0o4000 ≠ 0).bind fun su =>
  if su then .ok (t.ptr .su) else
  (testStat t .sg sb fun s => s.mode &&& 0o2000 ≠ 0).bind fun sg =>
  if sg then .ok (t.ptr .sg) else
  if (t.ptr .ca).isSome && cpathCaps c then .ok (t.ptr .ca) else
  (testStat t .ex sb fun s => s.mode &&& 0o111 ≠ 0).bind fun ex =>
  if ex then .ok (t.ptr .ex) else
  (testStat t .mh sb fun s => s.nlink > 1).bind fun mh =>
  if mh then .ok (t.ptr .mh) else extColor t c

/-- `case BFS_DIR` of `file_color()`, src/color.c:953-1061, once `statbuf` is known. -/
def dirColor (t : Table) (sb : Option St) : Out (Option Ptr) :=
  (testStat t .tw sb fun s => s.mode &&& 0o1002 = 0o1002).bind fun tw =>
  if tw then .ok (t.ptr .tw) else
  (testStat t .ow sb fun s => s.mode &&& 0o002 ≠ 0).bind fun ow =>
  if ow then .ok (t.ptr .ow) else
  (testStat t .st sb fun s => s.mode &&& 0o1000 ≠ 0).bind fun st =>
  if st then .ok (t.ptr .st) else .ok (t.ptr .di)

/-- Calling `cpath_stat()` if one of some colors is in use, and `goto error` if it fails. -/
def withStat (t : Table) (c : Cpath) (fs : List Field) (k : Option St → Out (Option Ptr)) :
    Out (Option Ptr) :=
  if fs.any fun f => (t.ptr f).isSome then
    (cpathStat c).bind fun sb =>
    match sb with
    | none => .ok (errorColor t)
    | some s => (k (some s)).bind (fallBack t)
  else (k none).bind (fallBack t)

/-- The type that `file_color()`, src/color.c:953-1061, looks at. -/
def cpathType (c : Cpath) : Out Typ :=
  if c.valid = c.len then .ok (c.ftw.typeOf c.flags)
  else match c.sb with
    | none => .ub
    | some sb => .ok sb.type

/-- `file_color()`, src/color.c:953-1061. -/
def fileColor (t : Table) (c : Cpath) : Out (Option Ptr) :=
  (cpathType c).bind fun
    | .error => .ok (errorColor t)
    | .reg => withStat t c [.su, .sg, .ex, .mh] (regColor t c)
    | .dir => withStat t c [.tw, .ow, .st] (dirColor t)
    | .lnk => fallBack t (if (t.ptr .or).isSome && cpathBroken c then t.ptr .or else t.ptr .ln)
    | .blk => fallBack t (t.ptr .bd)
    | .chr => fallBack t (t.ptr .cd)
    | .fifo => fallBack t (t.ptr .pi)
    | .sock => fallBack t (t.ptr .so)
    | .door => fallBack t (t.ptr .door)
    | _ => .ok none

/-- `print_path_colored()`, src/color.c:1130-1168, once the path is split. -/
def printParts (L : Quote.Locale) (t : Table) (b : Buf) (c : Cpath) (nameColor : Option Ptr) : R :=
  let nameoff := if c.nameoff < c.valid ∧ nameColor = t.ptr .di then c.valid else c.nameoff
  (printColored L t b (t.ptr .di) (c.path.take nameoff)).then fun b =>
  (printColored L t b nameColor ((c.path.drop nameoff).take (c.valid - nameoff))).then fun b =>
  printColored L t b (errorColor t) (c.path.drop c.valid)

/-- `print_path_colored()`, src/color.c:1130-1168. -/
def printPathColored (L : Quote.Locale) (own : Bool) (t : Table) (b : Buf) (path : Bytes) (f : Ftw)
    (flags : Follow) : R :=
  (cpathInit own b path f flags).bind fun x =>
  match x.2 with
  | none => .ok (x.1, false)
  | some c =>
    (if c.nameoff < c.valid then fileColor t c else .ok none).bind fun nameColor =>
    printParts L t x.1 c nameColor

/-- `print_name_colored()`, src/color.c:1171-1184. -/
def printNameColored (L : Quote.Locale) (t : Table) (b : Buf) (name : Bytes) (f : Ftw)
    (flags : Follow) : R :=
  let c : Cpath := { path := name, nameoff := 0, valid := name.length, ftw := f, flags, sb := none }
  (fileColor t c).bind fun esc => printColored L t b esc name

/-- The flags in `print_name()` and `print_path()`, src/color.c:1204-1216. -/
def linkFlags (t : Table) (f : Ftw) : Follow :=
  if t.linkAsTarget && f.type = .lnk then .tryfollow else f.flags

/-- `print_name()`, src/color.c:1187-1201. -/
def printName (L : Quote.Locale) (t : Option Table) (b : Buf) (f : Ftw) : R :=
  match t with
  | none => append b (f.path.drop f.nameoff)
  | some t => printNameColored L t b (f.path.drop f.nameoff) f (linkFlags t f)

/-- `print_path()`, src/color.c:1204-1216. -/
def printPath (L : Quote.Locale) (t : Option Table) (b : Buf) (f : Ftw) : R :=
  match t with
  | none => append b f.path
  | some t => printPathColored L true t b f.path f (linkFlags t f)

/-- `print_link_target()`, src/color.c:1219-1237. -/
def printLinkTarget (L : Quote.Locale) (t : Option Table) (b : Buf) (f : Ftw) : R :=
  match f.target with
  | none => .ok (b, false)
  | some target =>
    match t with
    | none => append b target
    | some t => printPathColored L false t b target f .follow

/-! ## Formats -/

/-- An expression, as far as it is printed: `kind` is its color, `stats` are the four numbers of
`-D rates`. -/
inductive Ex where
  | mk (kind : Field) (argv : List Bytes) (stats : List Bytes) (children : List Ex)

/-- The arguments of `cfprintf()`. `num` stands for numbers. -/
inductive Arg where
  | char (c : UInt8)
  | num (text : Bytes)
  | str (s : Bytes)
  | ftw (f : Ftw)
  | expr (e : Option Ex)

/-- What a directive does: the result, and what remains of the format and of the arguments. `invalid`
stands for `goto invalid`, and for arguments that do not fit the format. -/
inductive Step where
  | go (r : R) (format : Bytes) (args : List Arg)
  | invalid

/-- The directives for expressions: `%pe`, `%pE`, `%px` and `%pX`. -/
inductive ExprDir
  | e | E | x | X

/-- After `%` in `cvbuff()`, src/color.c:1325-1506. `pe` prints expressions. -/
def percent (L : Quote.Locale) (t : Option Table) (pe : ExprDir → Buf → Option Ex → R) (b : Buf) :
    Bytes → List Arg → Step
  | 37 :: r, as => .go (append b [37]) r as
  | 99 :: r, .char c :: as => .go (append b [c]) r as
  | 100 :: r, .num s :: as => .go (append b s) r as
  | 103 :: r, .num s :: as => .go (append b s) r as
  | 115 :: r, .str s :: as => .go (append b s) r as
  | 122 :: 117 :: r, .num s :: as => .go (append b s) r as
  | 112 :: 113 :: r, .str s :: as => .go (printWordesc L b s true) r as
  | 112 :: 81 :: r, .str s :: as => .go (printWordesc L b s false) r as
  | 112 :: 70 :: r, .ftw f :: as => .go (printName L t b f) r as
  | 112 :: 80 :: r, .ftw f :: as => .go (printPath L t b f) r as
  | 112 :: 76 :: r, .ftw f :: as => .go (printLinkTarget L t b f) r as
  | 112 :: 101 :: r, .expr e :: as => .go (pe .e b e) r as
  | 112 :: 69 :: r, .expr e :: as => .go (pe .E b e) r as
  | 112 :: 120 :: r, .expr e :: as => .go (pe .x b e) r as
  | 112 :: 88 :: r, .expr e :: as => .go (pe .X b e) r as
  | _, _ => .invalid

/-- A color specifier in `cvbuff()`, src/color.c:1325-1506. -/
def colorSpec (t : Table) (b : Buf) (name rest : Bytes) (args : List Arg) : Step :=
  if name.length ≥ 4 then .invalid
  else if name = Field.rs.name then .go (printReset t b) rest args
  else match getEsc name with
    | none => .invalid
    | some f => .go (printEsc t b (t.ptr f)) rest args

/-- After `$` in `cvbuff()`, src/color.c:1325-1506. -/
def dollar (t : Option Table) (b : Buf) : Bytes → List Arg → Step
  | 36 :: r, as => .go (append b [36]) r as
  | 123 :: r, as =>
    if 125 ∈ r then
      let name := r.takeWhile (· ≠ 125)
      let rest := r.drop (name.length + 1)
      match t with
      | none => .go (.ok (b, true)) rest as
      | some t => colorSpec t b name rest as
    else .invalid
  | _, _ => .invalid

/-- The loop of `cvbuff()`, src/color.c:1325-1506. The first argument is a bound for the number of
rounds; running out of it is `ub`, as is an invalid format. -/
def cvbuffLoop (L : Quote.Locale) (t : Option Table) (pe : ExprDir → Buf → Option Ex → R) :
    Nat → Buf → Bytes → List Arg → R
  | _, b, [], _ => .ok (b, true)
  | 0, _, _ :: _, _ => .ub
  | n + 1, b, c :: fmt, args =>
    let verbatim := (c :: fmt).takeWhile fun c => c ≠ 37 ∧ c ≠ 36
    (append b verbatim).then fun b =>
    match (c :: fmt).drop verbatim.length with
    | 37 :: r =>
      match percent L t pe b r args with
      | .invalid => .ub
      | .go x rest args => x.then fun b => cvbuffLoop L t pe n b rest args
    | 36 :: r =>
      match dollar t b r args with
      | .invalid => .ub
      | .go x rest args => x.then fun b => cvbuffLoop L t pe n b rest args
    | _ => .ok (b, true)

/-- `cbuff()` where no expressions are printed. -/
def cbuff (L : Quote.Locale) (t : Option Table) (b : Buf) (fmt : Bytes) (args : List Arg) : R :=
  cvbuffLoop L t (fun _ _ _ => .ub) fmt.length b fmt args

/-- `"%pq${rs}"` -/
def Q_RS : Bytes := [37, 112, 113, 36, 123, 114, 115, 125]

/-- `print_expr_name()`, src/color.c:1244-1253: `"${cyn}%pq${rs}"`, `"${red}..."` or `"${blu}..."`. -/
def printExprName (L : Quote.Locale) (t : Option Table) (b : Buf) : Ex → R
  | .mk kind argv _ _ =>
    match argv with
    | [] => .ub
    | a :: _ => cbuff L t b ([36, 123] ++ kind.name ++ [125] ++ Q_RS) [.str a]

/-- The loop of `print_expr_args()`, src/color.c:1256-1268: `" ${bld}%pq${rs}"`. -/
def printArgsLoop (L : Quote.Locale) (t : Option Table) : Buf → List Bytes → R
  | b, [] => .ok (b, true)
  | b, a :: as =>
    (cbuff L t b ([32, 36, 123] ++ Field.bld.name ++ [125] ++ Q_RS) [.str a]).then fun b =>
    printArgsLoop L t b as

/-- `print_expr_args()`, src/color.c:1256-1268. -/
def printExprArgs (L : Quote.Locale) (t : Option Table) (b : Buf) : Ex → R
  | .mk kind argv stats children =>
    (printExprName L t b (.mk kind argv stats children)).then fun b => printArgsLoop L t b argv.tail

/-- `"${ylw}"` and `"${rs}"`. -/
def YLW : Bytes := [36, 123, 121, 108, 119, 125]
def RS : Bytes := [36, 123, 114, 115, 125]

/-- `" [${ylw}%zu${rs}/${ylw}%zu${rs}=${ylw}%g%%${rs}; ${ylw}%gns${rs}]"`. -/
def RATES : Bytes :=
  [32, 91] ++ YLW ++ [37, 122, 117] ++ RS ++ [47] ++ YLW ++ [37, 122, 117] ++ RS ++ [61] ++ YLW ++
    [37, 103, 37, 37] ++ RS ++ [59, 32] ++ YLW ++ [37, 103, 110, 115] ++ RS ++ [93]

/-- The statistics in `print_expr()`, src/color.c:1271-1322. -/
def printRates (L : Quote.Locale) (t : Option Table) (b : Buf) (verbose : Bool) (stats : List Bytes) : R :=
  if verbose then cbuff L t b RATES (stats.map .num) else .ok (b, true)

/-- `"(...)"` and `"(null)"`. -/
def DOTS : Bytes := [40, 46, 46, 46, 41]
def NULL : Bytes := [40, 110, 117, 108, 108, 41]

/-- The loop over the children in `print_expr()`, src/color.c:1271-1322: `pr` prints one. -/
def printChildren (pr : Buf → Ex → R) : Nat → Buf → List Ex → R
  | _, b, [] => .ok (b, true)
  | count, b, c :: cs =>
    (append b [32]).then fun b =>
    if count + 1 ≥ 3 then append b [46, 46, 46]
    else (pr b c).then fun b => printChildren pr (count + 1) b cs

/-- `print_expr()`, src/color.c:1271-1322: the first argument is `2 - depth`. -/
def printExpr (L : Quote.Locale) (t : Option Table) (verbose : Bool) : Nat → Buf → Ex → R
  | 0, b, _ => append b DOTS
  | n + 1, b, .mk kind argv stats children =>
    (append b [40]).then fun b =>
    (printExprArgs L t b (.mk kind argv stats children)).then fun b =>
    (printRates L t b verbose stats).then fun b =>
    (printChildren (printExpr L t verbose n) 0 b children).then fun b =>
    append b [41]

/-- The directives for expressions in `cvbuff()`, src/color.c:1325-1506. -/
def printEx (L : Quote.Locale) (t : Option Table) : ExprDir → Buf → Option Ex → R
  | .e, b, some e => printExpr L t false 2 b e
  | .E, b, some e => printExpr L t true 2 b e
  | .e, b, none => append b NULL
  | .E, b, none => append b NULL
  | .x, b, some e => printExprArgs L t b e
  | .X, b, some e => printExprName L t b e
  | _, _, none => .ub

/-- `cvbuff()`, src/color.c:1325-1506. -/
def cvbuff (L : Quote.Locale) (t : Option Table) (b : Buf) (fmt : Bytes) (args : List Arg) : R :=
  cvbuffLoop L t (printEx L t) fmt.length b fmt args

/-- `cvfprintf()`, src/color.c:1516-1529: what is written to the stream, the new state, and the
result. `fwrite` says how many bytes the stream takes. -/
def cvfprintf (L : Quote.Locale) (t : Option Table) (b : Buf) (fmt : Bytes) (args : List Arg)
    (fwrite : Bytes → Nat) : Out (Bytes × Buf × Bool) :=
  if b.out = [] then
    (cvbuff L t b fmt args).bind fun x =>
    let n := if x.2 then min (fwrite x.1.out) x.1.out.length else 0
    .ok (x.1.out.take n, { x.1 with out := [] }, x.2 && decide (n = x.1.out.length))
  else .ub

end Verif.Cprint
