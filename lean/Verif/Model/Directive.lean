import Verif.Model.Cfmt
import Verif.Model.Printf
import Verif.Model.Path
import Verif.Model.Stat
import Verif.Model.Strmode
import Verif.Model.Num
/-!
# The directives of `-printf` (src/printf.c)

What is asked about a file — `stat()`, the target of a link, names of users, … — is given by `File`. Writing to the stream always succeeds here (`C38_failures` and `C54` are about failures). Colors are a parameter; `C71` is about them.
-/
namespace Verif.Directive
open Verif.Printf (Fn Field Fmt Effect)
open Verif.Time (Timespec)
open Verif.Stat (FType)

abbrev Bytes := List UInt8

/-- The fields of `struct tm` that are used. -/
structure Tm where
  sec : Int
  min : Int
  hour : Int
  mday : Int
  mon : Int
  year : Int
  wday : Int
  deriving DecidableEq, Repr

/-- `struct bfs_stat`, src/stat.h:85-126.  `has` is the mask, for the times; the other fields are always there (`bfs_statx_convert()`, src/stat.c:189-266). -/
structure Sb where
  mode : Nat
  dev : Nat
  ino : Nat
  nlink : Nat
  gid : Nat
  uid : Nat
  size : Int
  blocks : Int
  rdev : Nat
  has : Field → Bool
  time : Field → Timespec

/-- A file, as a directive sees it: `struct BFTW`, src/bftw.h:35-70, and the answers to what is asked about it. -/
structure File where
  buf : Path.Buf
  type : FType
  /-- `bftw_stat(ftwbuf, ftwbuf->stat_flags)`. -/
  stat : Except Nat Sb
  /-- `bftw_type(ftwbuf, BFS_STAT_FOLLOW)`; an error is `BFS_ERROR` with that `errno`. -/
  target : Except Nat FType
  /-- `xreadlinkat()`. -/
  link : Except Nat Bytes
  /-- `bfs_fstype()`. -/
  fstype : Except Nat Bytes
  /-- `bfs_getfilecon()`. -/
  context : Except Nat Bytes

/-- The rest of the system: users, groups, the time zone, the locale, and floating point numbers. -/
structure World where
  user : Nat → Option Bytes
  group : Nat → Option Bytes
  localtime : Int → Except Nat Tm
  strftime : UInt8 → Tm → Bytes
  real : Cfmt.Spec → Int → Int → Bytes

/-- A failure that writes nothing: `return -1`. -/
def fail (e : Nat) : Out Effect := .ok ⟨[], some e⟩

/-- `bfs_fprintf()`, src/printf.c:103-109, with the assertion of `dyn_fmt()`, src/printf.c:95-99. -/
def out (w : World) (fn : Fn) (str : Bytes) (v : Cfmt.Value) : Out Effect :=
  if Printf.dynFmt str fn.fake then
    match Cfmt.fprintf w.real str v with
    | .ok (.ok b) => .ok ⟨b, none⟩
    | .ok (.error e) => .ok ⟨[], some e⟩
    | .err e => .err e
    | .ub => .ub
  else .ub

/-- `BFS_PRINTF_BUF()`, src/printf.c:87-91, and src/printf.c:210: the buffer has 256 bytes. -/
def buffered (b : Bytes) (k : Bytes → Out Effect) : Out Effect := if b.length < 256 then k b else .ub

/-- `bftw_stat()` and the early return, as in src/printf.c:118-121. -/
def withStat (f : File) (k : Sb → Out Effect) : Out Effect :=
  match f.stat with
  | .ok sb => k sb
  | .error e => fail e

def ENOTSUP : Nat := 95

/-- `bfs_stat_time()`, src/stat.c:351-371. -/
def statTime (sb : Sb) (field : Field) : Except Nat Timespec := if sb.has field then .ok (sb.time field) else .error ENOTSUP

/-- Time and broken-down time, src/printf.c:118-131 and 149-162. -/
def withTime (w : World) (f : File) (field : Field) (k : Timespec → Tm → Out Effect) : Out Effect :=
  withStat f fun sb =>
    match statTime sb field with
    | .error e => fail e
    | .ok ts =>
      match w.localtime ts.sec with
      | .error e => fail e
      | .ok tm => k ts tm

/-- `days`, src/printf.c:115. -/
def days : List Bytes := ["Sun", "Mon", "Tue", "Wed", "Thu", "Fri", "Sat"].map fun s => s.toList.map fun c => UInt8.ofNat c.toNat

/-- `months`, src/printf.c:116. -/
def months : List Bytes := ["Jan", "Feb", "Mar", "Apr", "May", "Jun", "Jul", "Aug", "Sep", "Oct", "Nov", "Dec"].map fun s => s.toList.map fun c => UInt8.ofNat c.toNat

/-- `table[i]`. -/
def index (table : List Bytes) (i : Int) : Out Bytes :=
  if i < 0 then .ub
  else match table[i.toNat]? with
    | some b => .ok b
    | none => .ub

/-- `%2d`. -/
def two (n : Int) : Bytes := Cfmt.int { width := 2 } n
/-- `%.2d`. -/
def zz (n : Int) : Bytes := Cfmt.int { prec := some 2 } n
/-- `%4d`. -/
def four (n : Int) : Bytes := Cfmt.int { width := 4 } n
/-- `%09ld0`. -/
def nano (n : Int) : Bytes := Cfmt.int { zero := true, width := 9 } n ++ [48]
/-- `%lld`. -/
def plain (n : Int) : Bytes := Cfmt.int {} n
/-- `%ju` of a value converted to `uintmax_t`. -/
def unsigned (n : Int) : Bytes := Cfmt.uint {} (Num.toU64 n)

/-- `bfs_printf_ctime()`, src/printf.c:112-143: the text. -/
def ctimeText (ts : Timespec) (tm : Tm) : Out Bytes := do
  let day ← index days tm.wday
  let mon ← index months tm.mon
  let year ← i32 (1900 + tm.year)
  .ok (day ++ [32] ++ mon ++ [32] ++ two tm.mday ++ [32] ++ zz tm.hour ++ [58] ++ zz tm.min ++ [58] ++ zz tm.sec ++ [46] ++ nano ts.nsec ++ [32] ++ four year)

/-- `%+`, src/printf.c:172-181. -/
def isoText (ts : Timespec) (tm : Tm) : Out Bytes := do
  let year ← i32 (1900 + tm.year)
  let mon ← i32 (tm.mon + 1)
  .ok (four year ++ [45] ++ zz mon ++ [45] ++ zz tm.mday ++ [43] ++ zz tm.hour ++ [58] ++ zz tm.min ++ [58] ++ zz tm.sec ++ [46] ++ nano ts.nsec)

/-- `%l`, src/printf.c:185-187. -/
def hour12 (tm : Tm) : Out Bytes := do
  let h ← i32 (tm.hour + 11)
  .ok (two (h.tmod 12 + 1))

/-- The switch in `bfs_printf_strftime()`, src/printf.c:146-218: the text. -/
def strftimeText (w : World) (c : UInt8) (ts : Timespec) (tm : Tm) : Out Bytes :=
  if c = 64 then .ok (plain ts.sec ++ [46] ++ nano ts.nsec)
  else if c = 43 then isoText ts tm
  else if c = 107 then .ok (two tm.hour)
  else if c = 108 then hour12 tm
  else if c = 115 then .ok (plain ts.sec)
  else if c = 83 then .ok (zz tm.sec ++ [46] ++ nano ts.nsec)
  else if c = 84 then .ok (zz tm.hour ++ [58] ++ zz tm.min ++ [58] ++ zz tm.sec ++ [46] ++ nano ts.nsec)
  else .ok (w.strftime c tm)

/-- What `bfs_printf_ctime()` and `bfs_printf_strftime()` do with their text. -/
def timed (w : World) (fn : Fn) (str : Bytes) (text : Out Bytes) : Out Effect :=
  text.bind fun b => buffered b fun b => out w fn str (.s b)

/-- `%b` and `%k`: `((uintmax_t)statbuf->blocks * BFS_STAT_BLKSIZE + unit - 1) / unit`, src/printf.c:224 and 364. -/
def blocksIn (unit : Nat) (sb : Sb) : Nat := (Num.toU64 sb.blocks * 512 % 2 ^ 64 + (unit - 1)) % 2 ^ 64 / unit

/-- A number through `BFS_PRINTF_BUF(buf, "%ju", …)`. -/
def counted (w : World) (fn : Fn) (str : Bytes) (n : Int) : Out Effect := buffered (unsigned n) fun b => out w fn str (.s b)

/-- `bfs_printf_type()`, src/printf.c:509-529.  The numbers of the types are those of `enum bfs_type`, src/dir.h:35-62. -/
def typeName : FType → Bytes
  | .blk => [98]
  | .chr => [99]
  | .dir => [100]
  | .fifo => [112]
  | .lnk => [108]
  | .reg => [102]
  | .sock => [115]
  | .wht => [119]
  | .error => [85]
  | .unknown => [85]

/-- `bfs_printf_Y()`, src/printf.c:538-562. -/
def printfY (w : World) (f : File) (str : Bytes) : Out Effect :=
  match f.target with
  | .ok t => out w .Y str (.s (typeName t))
  | .error e =>
    if e = Stat.ELOOP then out w .Y str (.s [76])
    else if Stat.likeENOENT e then out w .Y str (.s [78])
    else (out w .Y str (.s [63])).bind fun eff => .ok { eff with error := some e }

/-- `should_color()`, src/printf.c:80-82. -/
def shouldColor (colors : Bool) (str : Bytes) : Bool := colors && str = [37, 115]

/-- A directive that may be colored: f, h, H, p and P. -/
def colored (w : World) (color : Option (Fn → Effect)) (fn : Fn) (str : Bytes) (b : Bytes) : Out Effect :=
  match color with
  | some c => if shouldColor true str then .ok (c fn) else out w fn str (.s b)
  | none => out w fn str (.s b)

/-- `bfs_printf_l()`, src/printf.c:369-390. -/
def printfL (w : World) (color : Option (Fn → Effect)) (f : File) (str : Bytes) : Out Effect :=
  if f.type = .lnk then
    if shouldColor color.isSome str then .ok ((color.getD fun _ => ⟨[], none⟩) .l)
    else match f.link with
      | .error e => fail e
      | .ok b => out w .l str (.s b)
  else out w .l str (.s [])

/-- A name, or else the number: `bfs_printf_g()`, src/printf.c:284-297, and `bfs_printf_u()`, src/printf.c:494-507. -/
def owner (w : World) (fn : Fn) (str : Bytes) (name : Option Bytes) (id : Nat) : Out Effect :=
  match name with
  | some b => out w fn str (.s b)
  | none => counted w fn str id

/-- A string that may be missing. -/
def given (w : World) (fn : Fn) (str : Bytes) : Except Nat Bytes → Out Effect
  | .ok b => out w fn str (.s b)
  | .error e => fail e

/-- `bfs_printf_S()`, src/printf.c:467-480.  The quotient is computed with `double`s. -/
def sparseness (sb : Sb) : Cfmt.Value := if sb.size = 0 ∧ sb.blocks = 0 then .g 1 1 else .g (512 * sb.blocks) sb.size

/-- `fmt->fn(cfile, fmt, ftwbuf)`, src/printf.c:946: the functions at src/printf.c:112-577.  `color` is what is printed with colors, if they are on. -/
def directive (w : World) (color : Option (Fn → Effect)) (f : File) (fn : Fn) (str : Bytes) : Out Effect :=
  match fn with
  | .ctime field => withTime w f field fun ts tm => timed w (.ctime field) str (ctimeText ts tm)
  | .strftime field c => withTime w f field fun ts tm => timed w (.strftime field c) str (strftimeText w c ts tm)
  | .b => withStat f fun sb => counted w .b str (blocksIn 512 sb)
  | .d => out w .d str (.d f.buf.depth)
  | .D => withStat f fun sb => counted w .D str sb.dev
  | .f => colored w color .f str (Path.printf_f f.buf)
  | .F => withStat f fun _ => given w .F str f.fstype
  | .g => withStat f fun sb => owner w .g str (w.group sb.gid) sb.gid
  | .G => withStat f fun sb => counted w .G str sb.gid
  | .h => colored w color .h str (Path.printf_h f.buf)
  | .H => colored w color .H str (Path.printf_H f.buf)
  | .i => withStat f fun sb => counted w .i str sb.ino
  | .k => withStat f fun sb => counted w .k str (blocksIn 1024 sb)
  | .l => printfL w color f str
  | .m => withStat f fun sb => out w .m str (.o (sb.mode &&& 0o7777))
  | .M => withStat f fun sb => out w .M str (.s ((Strmode.xstrmode sb.mode).map fun c => UInt8.ofNat c.toNat))
  | .n => withStat f fun sb => counted w .n str sb.nlink
  | .p => colored w color .p str f.buf.path
  | .P => colored w color .P str (Path.printf_P f.buf)
  | .s => withStat f fun sb => counted w .s str sb.size
  | .S => withStat f fun sb => out w .S str (sparseness sb)
  | .u => withStat f fun sb => owner w .u str (w.user sb.uid) sb.uid
  | .U => withStat f fun sb => counted w .U str sb.uid
  | .y => out w .y str (.s (typeName f.type))
  | .Y => printfY w f str
  | .Z => given w .Z str f.context

/-- `fmt->fn(cfile, fmt, ftwbuf)`, src/printf.c:946, for a directive or a literal.  `fwrite()` and `fflush()` succeed. -/
def element (w : World) (color : Option (Fn → Effect)) (f : File) : Fmt → Out Effect
  | .lit b => .ok ⟨b, none⟩
  | .flush => .ok ⟨[], none⟩
  | .dir fn str => directive w color f fn str

/-- The loop in `bfs_printf()`, src/printf.c:940-953: what has been written, `ret` and `error`. -/
def printLoop (w : World) (color : Option (Fn → Effect)) (f : File) : List Fmt → Bytes × Int × Nat → Out (Bytes × Int × Nat)
  | [], st => .ok st
  | fmt :: fs, (out, ret, error) =>
    (element w color f fmt).bind fun e =>
      match e.error with
      | some n => printLoop w color f fs (out ++ e.bytes, -1, n)
      | none => printLoop w color f fs (out ++ e.bytes, ret, error)

/-- `bfs_printf()`, src/printf.c:940-953: what is written, the result, and `errno`. -/
def bfsPrintf (w : World) (color : Option (Fn → Effect)) (f : File) (format : List Fmt) : Out (Bytes × Int × Nat) :=
  printLoop w color f format ([], 0, 0)

end Verif.Directive
