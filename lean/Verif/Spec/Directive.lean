import Verif.Model.Directive
import Verif.Spec.Printf
import Verif.Spec.Num
import Verif.Spec.Strmode
/-!
# What the directives of `-printf` mean

After find(1) and bfs(1). Bytes are numbers: 32 is a space, 43 `+`, 45 `-`, 46 `.`, 48 to 57 are the digits, 58 is `:`.
-/
namespace Verif.Directive
open Verif.Printf (Fn Field)
open Verif.Time (Timespec)
open Verif.Stat (FType)
open Verif.Num (Digits)

/-- The text of a string of ASCII characters. -/
def ascii (s : String) : Bytes := s.toList.map fun c => UInt8.ofNat c.toNat

/-- `v` is a number in decimal, without needless zeros. -/
def Dec (v : Bytes) (n : Nat) : Prop := Digits 10 v n ∧ (v.head? = some 48 → v = [48])

/-- `v` is a number in decimal, with `-` if it is negative. -/
def SDec (v : Bytes) (n : Int) : Prop := (0 ≤ n ∧ Dec v n.toNat) ∨ (n < 0 ∧ ∃ d, v = 45 :: d ∧ Dec d (-n).toNat)

/-- A number with exactly `k` digits. -/
def Fixed (k : Nat) (v : Bytes) (n : Int) : Prop := 0 ≤ n ∧ Digits 10 v n.toNat ∧ v.length = k

/-- A number with spaces before it, if it has fewer than `k` characters. -/
def Aligned (k : Nat) (v : Bytes) (n : Int) : Prop := ∃ d, SDec d n ∧ v = List.replicate (k - d.length) 32 ++ d

/-- The seconds, with ten digits after the point. -/
def Seconds (v : Bytes) (sec nsec : Int) : Prop := ∃ s f, Fixed 2 s sec ∧ Fixed 10 f (10 * nsec) ∧ v = s ++ [46] ++ f

/-- `hh:mm:ss.ffffffffff`. -/
def Clock (v : Bytes) (tm : Tm) (nsec : Int) : Prop :=
  ∃ h m s, Fixed 2 h tm.hour ∧ Fixed 2 m tm.min ∧ Seconds s tm.sec nsec ∧ v = h ++ [58] ++ m ++ [58] ++ s

/-- The days of the week from Sunday, and the months from January. -/
def dayNames : List String := ["Sun", "Mon", "Tue", "Wed", "Thu", "Fri", "Sat"]
def monthNames : List String := ["Jan", "Feb", "Mar", "Apr", "May", "Jun", "Jul", "Aug", "Sep", "Oct", "Nov", "Dec"]

/-- Like `ctime()`: `Sun Nov 15 04:48:00.1234567890 2026`. -/
def Ctime (v : Bytes) (tm : Tm) (nsec : Int) : Prop :=
  ∃ day mon d c y, 0 ≤ tm.wday ∧ dayNames[tm.wday.toNat]? = some day ∧ 0 ≤ tm.mon ∧ monthNames[tm.mon.toNat]? = some mon ∧
    Aligned 2 d tm.mday ∧ Clock c tm nsec ∧ Aligned 4 y (1900 + tm.year) ∧
    v = ascii day ++ [32] ++ ascii mon ++ [32] ++ d ++ [32] ++ c ++ [32] ++ y

/-- Date and time: `2026-11-15+04:48:00.1234567890`. -/
def Stamp (v : Bytes) (tm : Tm) (nsec : Int) : Prop :=
  ∃ y m d c, Aligned 4 y (1900 + tm.year) ∧ Fixed 2 m (tm.mon + 1) ∧ Fixed 2 d tm.mday ∧ Clock c tm nsec ∧
    v = y ++ [45] ++ m ++ [45] ++ d ++ [43] ++ c

/-- The hour on a clock with twelve hours. -/
def clock12 (hour : Int) : Int := if hour = 0 then 12 else if hour ≤ 12 then hour else hour - 12

/-- `%Ak`, `%Bk`, `%Ck`, `%Tk`, `%Wk`, by the letter `k`.  All but `@`, `+`, `k`, `l`, `s`, `S` and `T` mean what they mean to `strftime()`. -/
inductive TimeShows (w : World) (ts : Timespec) (tm : Tm) : UInt8 → Bytes → Prop
  | at (s f : Bytes) : SDec s ts.sec → Fixed 10 f (10 * ts.nsec) → TimeShows w ts tm 64 (s ++ [46] ++ f)
  | plus (v : Bytes) : Stamp v tm ts.nsec → TimeShows w ts tm 43 v
  | k (v : Bytes) : Aligned 2 v tm.hour → TimeShows w ts tm 107 v
  | l (v : Bytes) : Aligned 2 v (clock12 tm.hour) → TimeShows w ts tm 108 v
  | s (v : Bytes) : SDec v ts.sec → TimeShows w ts tm 115 v
  | S (v : Bytes) : Seconds v tm.sec ts.nsec → TimeShows w ts tm 83 v
  | T (v : Bytes) : Clock v tm ts.nsec → TimeShows w ts tm 84 v
  | posix (c : UInt8) : c ∉ ascii "@+klsST" → TimeShows w ts tm c (w.strftime c tm)

/-- The letters for types of files. -/
inductive TypeLetter : FType → String → Prop
  | blk : TypeLetter .blk "b"
  | chr : TypeLetter .chr "c"
  | dir : TypeLetter .dir "d"
  | fifo : TypeLetter .fifo "p"
  | lnk : TypeLetter .lnk "l"
  | reg : TypeLetter .reg "f"
  | sock : TypeLetter .sock "s"
  | wht : TypeLetter .wht "w"
  | unknown : TypeLetter .unknown "U"
  | error : TypeLetter .error "U"

/-- `Shows w f fn v`: `v` is what the directive `fn` shows of the file `f`, before it is fitted into its field. -/
inductive Shows (w : World) (f : File) : Fn → Bytes → Prop
  /-- `%a`, `%c`, `%t`, `%w`: times in local time. -/
  | ctime (field : Field) (sb : Sb) (tm : Tm) (v : Bytes) : f.stat = .ok sb → sb.has field = true → w.localtime (sb.time field).sec = .ok tm →
      Ctime v tm (sb.time field).nsec → Shows w f (.ctime field) v
  /-- `%A`, `%B`, `%C`, `%T`, `%W`. -/
  | strftime (field : Field) (c : UInt8) (sb : Sb) (tm : Tm) (v : Bytes) : f.stat = .ok sb → sb.has field = true → w.localtime (sb.time field).sec = .ok tm →
      TimeShows w (sb.time field) tm c v → Shows w f (.strftime field c) v
  /-- `%b`: blocks of 512 bytes. -/
  | b (sb : Sb) (v : Bytes) : f.stat = .ok sb → Dec v sb.blocks.toNat → Shows w f .b v
  /-- `%k`: blocks of 1024 bytes, rounded up. -/
  | k (sb : Sb) (v : Bytes) (n : Nat) : f.stat = .ok sb → Dec v n → 512 * sb.blocks ≤ 1024 * n → 1024 * (n : Int) < 512 * sb.blocks + 1024 → Shows w f .k v
  /-- `%D`: the device. -/
  | D (sb : Sb) (v : Bytes) : f.stat = .ok sb → Dec v sb.dev → Shows w f .D v
  /-- `%f`: the last part of the path. -/
  | f (d v : Bytes) : f.buf.path = d ++ v → d.length = f.buf.nameoff → Shows w f .f v
  /-- `%F`: the type of the file system. -/
  | F (sb : Sb) (v : Bytes) : f.stat = .ok sb → f.fstype = .ok v → Shows w f .F v
  /-- `%g`: the name of the group, or its number if it has none. -/
  | g (sb : Sb) (v : Bytes) : f.stat = .ok sb → w.group sb.gid = some v → Shows w f .g v
  | gid (sb : Sb) (v : Bytes) : f.stat = .ok sb → w.group sb.gid = none → Dec v sb.gid → Shows w f .g v
  /-- `%G`: the number of the group. -/
  | G (sb : Sb) (v : Bytes) : f.stat = .ok sb → Dec v sb.gid → Shows w f .G v
  /-- `%h`: the directory, without the slash that ends it, unless it is `/`.  If the path has none, it is `.` (or `/` for `/` itself). -/
  | h (v name : Bytes) : f.buf.path = v ++ 47 :: name → v.length + 1 = f.buf.nameoff → v ≠ [] → Shows w f .h v
  | hslash (name : Bytes) : f.buf.path = 47 :: name → f.buf.nameoff ≤ 1 → Shows w f .h [47]
  | hdot : f.buf.path.head? ≠ some 47 → f.buf.nameoff = 0 → Shows w f .h [46]
  /-- `%H`: the path given on the command line, under which the file was found. -/
  | H : Shows w f .H f.buf.root
  /-- `%i`: the inode. -/
  | i (sb : Sb) (v : Bytes) : f.stat = .ok sb → Dec v sb.ino → Shows w f .i v
  /-- `%l`: the target of a link; nothing for other files. -/
  | l (v : Bytes) : f.type = .lnk → f.link = .ok v → Shows w f .l v
  | nolink : f.type ≠ .lnk → Shows w f .l []
  /-- `%M`: the mode, as `ls -l` shows it. -/
  | M (sb : Sb) (cs : List Char) (c : Char) (rest : List Char) : f.stat = .ok sb → cs = c :: rest → cs.length = 10 → Spec.Strmode.readPerm cs = some (Spec.Strmode.permBits sb.mode) →
      (if Spec.Strmode.KnownType (Spec.Strmode.typeBits sb.mode) then Spec.Strmode.readType c = some (Spec.Strmode.typeBits sb.mode) else c = '?') →
      Shows w f .M (cs.map fun c => UInt8.ofNat c.toNat)
  /-- `%n`: the number of links. -/
  | n (sb : Sb) (v : Bytes) : f.stat = .ok sb → Dec v sb.nlink → Shows w f .n v
  /-- `%p`: the path. -/
  | p : Shows w f .p f.buf.path
  /-- `%P`: what comes after `%H`, and after a slash if there is one. -/
  | P (v : Bytes) : f.buf.path = f.buf.root ++ 47 :: v → Shows w f .P v
  | Pdirect (v : Bytes) : f.buf.path = f.buf.root ++ v → v.head? ≠ some 47 → Shows w f .P v
  /-- `%s`: the size in bytes. -/
  | s (sb : Sb) (v : Bytes) : f.stat = .ok sb → Dec v sb.size.toNat → Shows w f .s v
  /-- `%u`: the name of the owner, or the number. -/
  | u (sb : Sb) (v : Bytes) : f.stat = .ok sb → w.user sb.uid = some v → Shows w f .u v
  | uid (sb : Sb) (v : Bytes) : f.stat = .ok sb → w.user sb.uid = none → Dec v sb.uid → Shows w f .u v
  /-- `%U`: the number of the owner. -/
  | U (sb : Sb) (v : Bytes) : f.stat = .ok sb → Dec v sb.uid → Shows w f .U v
  /-- `%y`: the type. -/
  | y (s : String) : TypeLetter f.type s → Shows w f .y (ascii s)
  /-- `%Y`: the type, following links; `L` for a loop, `N` if there is nothing. -/
  | Y (t : FType) (s : String) : f.target = .ok t → TypeLetter t s → Shows w f .Y (ascii s)
  | Yloop : f.target = .error 40 → Shows w f .Y (ascii "L")
  | Ynone (e : Nat) : f.target = .error e → e = 2 ∨ e = 20 → Shows w f .Y (ascii "N")
  /-- `%Z`: the security context. -/
  | Z (v : Bytes) : f.context = .ok v → Shows w f .Z v

/-- The directives that need `stat()`. -/
def NeedsStat : Fn → Prop
  | .d | .f | .h | .H | .l | .p | .P | .y | .Y | .Z => False
  | _ => True

/-- The times among them. -/
inductive Timed : Fn → Field → Prop
  | ctime (field : Field) : Timed (.ctime field) field
  | strftime (field : Field) (c : UInt8) : Timed (.strftime field c) field

/-- `Missing w f fn e`: what the directive should show cannot be found out, for the reason `e`. -/
inductive Missing (w : World) (f : File) : Fn → Nat → Prop
  | stat (fn : Fn) (e : Nat) : NeedsStat fn → f.stat = .error e → Missing w f fn e
  /-- The file system does not record this time: `ENOTSUP`. -/
  | time (fn : Fn) (field : Field) (sb : Sb) : Timed fn field → f.stat = .ok sb → sb.has field = false → Missing w f fn 95
  | localtime (fn : Fn) (field : Field) (sb : Sb) (e : Nat) : Timed fn field → f.stat = .ok sb → sb.has field = true → w.localtime (sb.time field).sec = .error e → Missing w f fn e
  | link (e : Nat) : f.type = .lnk → f.link = .error e → Missing w f .l e
  | fstype (sb : Sb) (e : Nat) : f.stat = .ok sb → f.fstype = .error e → Missing w f .F e
  | context (e : Nat) : f.context = .error e → Missing w f .Z e

/-- `%Y` of a file that cannot be examined, for a reason other than that it does not exist. -/
def Unreachable (f : File) (e : Nat) : Prop := f.target = .error e ∧ e ≠ 40 ∧ e ≠ 2 ∧ e ≠ 20

/-- The number that a width or precision means. -/
def FieldNumber (ds : Bytes) (n : Nat) : Prop := (ds = [] ∧ n = 0) ∨ Digits 10 ds n

/-- `Laid fl w p v o`: `o` is the value `v`, cut off at the precision `p`, and filled with spaces to the width `w`, at the right if there is a flag `-`. -/
def Laid (fl w p v o : Bytes) : Prop :=
  ∃ cut spaces width,
    ((p = [] ∧ cut = v) ∨ ∃ ds n, p = 46 :: ds ∧ FieldNumber ds n ∧ cut = v.take n) ∧
    FieldNumber w width ∧ (∀ c ∈ spaces, c = 32) ∧ spaces.length = width - cut.length ∧
    o = if 45 ∈ fl then cut ++ spaces else spaces ++ cut

/-- What a directive with flags `fl`, width `wd` and precision `p` does: it writes what it should show, laid out as asked; or that cannot be found out, and it
fails without writing anything.  Only `%Y` writes something, `?`, when it fails. -/
def Right (w : World) (f : File) (fn : Fn) (fl wd p : Bytes) (r : Out Printf.Effect) : Prop :=
  (∃ v o, Shows w f fn v ∧ Laid fl wd p v o ∧ r = .ok ⟨o, none⟩) ∨
  (∃ e, Missing w f fn e ∧ r = .ok ⟨[], some e⟩) ∨
  ∃ e o, fn = .Y ∧ Unreachable f e ∧ Laid fl wd p (ascii "?") o ∧ r = .ok ⟨o, some e⟩

/-- Width and precision are at most `INT_MAX`. -/
def Small (w p : Bytes) : Prop := (∀ n, FieldNumber w n → n ≤ 2147483647) ∧ ∀ ds n, p = 46 :: ds → FieldNumber ds n → n ≤ 2147483647

/-- What every file and system is like. -/
structure Sane (w : World) (f : File) : Prop where
  root : f.buf.root <+: f.buf.path
  nameoff : f.buf.nameoff ≤ f.buf.path.length
  /-- The byte before the name is a slash. -/
  slash : f.buf.nameoff = 0 ∨ f.buf.path[f.buf.nameoff - 1]? = some 47
  dev : ∀ sb, f.stat = .ok sb → sb.dev < 2 ^ 64 ∧ sb.ino < 2 ^ 64 ∧ sb.nlink < 2 ^ 64 ∧ sb.gid < 2 ^ 32 ∧ sb.uid < 2 ^ 32
  /-- The disk space is less than 2⁶³ bytes. -/
  size : ∀ sb, f.stat = .ok sb → 0 ≤ sb.size ∧ sb.size < 2 ^ 63 ∧ 0 ≤ sb.blocks ∧ 512 * sb.blocks < 2 ^ 63
  time : ∀ sb field, f.stat = .ok sb → sb.has field = true → -2 ^ 63 ≤ (sb.time field).sec ∧ (sb.time field).sec < 2 ^ 63 ∧ 0 ≤ (sb.time field).nsec ∧ (sb.time field).nsec < 1000000000
  /-- Broken-down times are in their ranges.  The year is the number of years since 1900; see `C76_year_counterexample` for its upper bound. -/
  tm : ∀ t tm, w.localtime t = .ok tm → 0 ≤ tm.sec ∧ tm.sec ≤ 60 ∧ 0 ≤ tm.min ∧ tm.min ≤ 59 ∧ 0 ≤ tm.hour ∧ tm.hour ≤ 23 ∧ 1 ≤ tm.mday ∧ tm.mday ≤ 31 ∧
    0 ≤ tm.mon ∧ tm.mon ≤ 11 ∧ 0 ≤ tm.wday ∧ tm.wday ≤ 6 ∧ -2147483648 ≤ tm.year ∧ 1900 + tm.year ≤ 2147483647
  /-- What `strftime()` writes for one letter fits in a buffer of 256 bytes. -/
  strftime : ∀ c tm, (w.strftime c tm).length < 256

/-- `v` is a number in the given base, without needless zeros. -/
def Short (base : Nat) (v : Bytes) (n : Nat) : Prop := Digits base v n ∧ (v.head? = some 48 → v = [48])

/-- `IntLaid base fl wd p n sign o`: `o` is the number `n` in the given base, after a sign, with zeros before it until there are as many digits as the precision asks for (or, with the flag `0` and without `-` and a precision, as the width
asks for), and filled with spaces to the width, at the right if there is a flag `-`.  With the flag `#`, octal numbers begin with a zero.  As in C, a precision makes zero have no digits but those it asks for. -/
def IntLaid (base : Nat) (fl wd p : Bytes) (n : Nat) (sign o : Bytes) : Prop :=
  ∃ spaces zeros digits width least, FieldNumber wd width ∧
    (if n = 0 ∧ p ≠ [] then digits = [] else Short base digits n) ∧
    (p = [] → least = if 48 ∈ fl ∧ 45 ∉ fl then width - sign.length else 0) ∧ (∀ ds, p = 46 :: ds → FieldNumber ds least) ∧
    (∀ c ∈ zeros, c = 48) ∧ zeros.length = max (least - digits.length) (if 35 ∈ fl ∧ base = 8 ∧ digits.head? ≠ some 48 then 1 else 0) ∧
    (∀ c ∈ spaces, c = 32) ∧ spaces.length = width - (sign ++ zeros ++ digits).length ∧
    o = if 45 ∈ fl then sign ++ zeros ++ digits ++ spaces else spaces ++ (sign ++ zeros ++ digits)

/-- The C library's view of flags, width and precision. -/
def specOf (fl wd p : Bytes) : Cfmt.Spec :=
  ⟨fl.contains 45, fl.contains 43, fl.contains 32, fl.contains 35, fl.contains 48, Cfmt.decimal wd, if p = [] then none else some (Cfmt.decimal p.tail)⟩

/-- The sign of a number that is not negative. -/
def signOf (fl : Bytes) : Bytes := if 43 ∈ fl then [43] else if 32 ∈ fl then [32] else []

/-- The parts of a directive before its conversion. -/
def Layout (fl wd p : Bytes) : Prop := Printf.Flags fl ∧ Printf.Width wd ∧ Printf.Precision p

/-- `Part w f fn str eff`: with the format `str` for `printf(3)`, the directive `fn` rightly has the effect `eff`. -/
inductive Part (w : World) (f : File) : Fn → Bytes → Printf.Effect → Prop
  | text (fn : Fn) (fl wd p : Bytes) (eff : Printf.Effect) : Layout fl wd p → Small wd p → Right w f fn fl wd p (.ok eff) → Part w f fn (37 :: (fl ++ wd ++ p ++ ascii "s")) eff
  | depth (fl wd p o : Bytes) : Layout fl wd p → Small wd p → IntLaid 10 fl wd p f.buf.depth (signOf fl) o → Part w f .d (37 :: (fl ++ wd ++ p ++ ascii "jd")) ⟨o, none⟩
  | mode (fl wd p o : Bytes) (sb : Sb) : Layout fl wd p → Small wd p → f.stat = .ok sb → IntLaid 8 fl wd p (sb.mode % 0o10000) [] o → Part w f .m (37 :: (fl ++ wd ++ p ++ ascii "o")) ⟨o, none⟩
  | sparse (fl wd p : Bytes) (sb : Sb) (num den : Int) : Layout fl wd p → Small wd p → f.stat = .ok sb → (sb.size = 0 ∧ sb.blocks = 0 → num = 1 ∧ den = 1) →
      (¬ (sb.size = 0 ∧ sb.blocks = 0) → num = 512 * sb.blocks ∧ den = sb.size) → Part w f .S (37 :: (fl ++ wd ++ p ++ ascii "g")) ⟨w.real (specOf fl wd p) num den, none⟩
  | missing (fn : Fn) (str : Bytes) (e : Nat) : fn = .m ∨ fn = .S → f.stat = .error e → Part w f fn str ⟨[], some e⟩
  /-- Widths beyond `INT_MAX` are not printed. -/
  | wide (fn : Fn) (fl wd p spec : Bytes) (e : Nat) : Layout fl wd p → spec ∈ [ascii "s", ascii "jd", ascii "o", ascii "g"] → ¬ Small wd p → Part w f fn (37 :: (fl ++ wd ++ p ++ spec)) ⟨[], some e⟩

/-- `Written w f es out err`: what a format writes about a file, and the last error if there was one. -/
inductive Written (w : World) (f : File) : List Printf.Elem → Bytes → Option Nat → Prop
  | nil : Written w f [] [] none
  | byte (b : UInt8) (es : List Printf.Elem) (out : Bytes) (err : Option Nat) : Written w f es out err → Written w f (.byte b :: es) (b :: out) err
  | flush (es : List Printf.Elem) (out : Bytes) (err : Option Nat) : Written w f es out err → Written w f (.flush :: es) out err
  | dir (fn : Fn) (str o : Bytes) (e : Option Nat) (es : List Printf.Elem) (out : Bytes) (err : Option Nat) : Part w f fn str ⟨o, e⟩ → Written w f es out err →
      Written w f (.dir fn str :: es) (o ++ out) (if err.isSome then err else e)

end Verif.Directive
