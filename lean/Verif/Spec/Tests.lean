import Verif.Model.Tests
import Verif.Spec.Glob
import Verif.Spec.Date
import Verif.Spec.Time
import Verif.Spec.Perm
import Verif.Spec.Path
/-!
# What tests mean

After the manual (docs/bfs.1), the section on tests.  A test asks a question about a file.  The answer is a proposition, or an error if it cannot be known.
-/
namespace Verif.Tests
open Verif.Num
open Verif.Printf (Field)
open Verif.Time (Timespec)
open Verif.Stat (FType)
open Verif.Directive (Sb)
open Verif.Perm (ModeCmp Flag Flags)
open Verif.Glob (Locale Matches Dangling)
open Verif.Cmdline (A)
open Verif.Path (Buf LastName NoName rootBuf childBuf)

/-- `N`, `-N` or `+N`: exactly, less than or more than N. -/
def Compares (cmp : Cmp) (n x : Int) : Prop :=
  match cmp with
  | .eq => x = n
  | .lt => x < n
  | .gt => x > n

/-- An argument `[-+]N`. -/
def Count (arg : Bytes) (cmp : Cmp) (n : Int) : Prop := ∃ body, Signed arg cmp body ∧ Numeral 10 body n ∧ 0 ≤ n ∧ n ≤ 2 ^ 63 - 1

/-- An argument `[-+]N[cwbkMGTP]`. -/
def Amount (arg : Bytes) (cmp : Cmp) (n : Int) (unit : SizeUnit) : Prop :=
  ∃ body digits suffix, Signed arg cmp body ∧ body = digits ++ suffix ∧ Numeral 10 digits n ∧ Suffix suffix unit ∧ 0 ≤ n ∧ n ≤ 2 ^ 63 - 1

/-- How much later `a` is than `b`, in nanoseconds. -/
def later (a b : Timespec) : Int := (a.sec * 1000000000 + a.nsec) - (b.sec * 1000000000 + b.nsec)

/-- The number of full units since a time; for a time to come, minus the number of full units until then, after rounding up to seconds. -/
def Age (unit : TimeUnit) (now time : Timespec) (n : Int) : Prop :=
  (0 ≤ later now time ∧ n * unit.nanos ≤ later now time ∧ later now time < (n + 1) * unit.nanos) ∨
  (later now time < 0 ∧ ∃ s m, ((s - 1) * 1000000000 < later time now ∧ later time now ≤ s * 1000000000) ∧
    (m * unit.nanos ≤ s * 1000000000 ∧ s * 1000000000 < (m + 1) * unit.nanos) ∧ n = -m)

/-- The number of days, rounded up, from a change to the last access. -/
def DaysUsed (atime ctime : Timespec) (n : Int) : Prop :=
  0 ≤ later atime ctime ∧ ∃ s, (s * 1000000000 ≤ later atime ctime ∧ later atime ctime < (s + 1) * 1000000000) ∧ (n - 1) * 86400 < s ∧ s ≤ n * 86400

/-- The number of units a size takes, rounded up. -/
def Units (unit : SizeUnit) (size n : Int) : Prop := size ≤ n * unit.inBytes ∧ ∀ m : Int, size ≤ m * unit.inBytes → n ≤ m

/-- The letters for times: access (`a`), birth (`B`), change (`c`) and modification (`m`). -/
inductive TimeLetter : UInt8 → Field → Prop
  | a : TimeLetter 97 .atime
  | B : TimeLetter 66 .btime
  | c : TimeLetter 99 .ctime
  | m : TimeLetter 109 .mtime

/-- An ISO 8601-like timestamp, or `@` (64) and a number of seconds. Without a time zone, it is local time. -/
inductive Instant (s : Setting) : Bytes → Timespec → Prop
  | epoch {a : Bytes} {v : Int} : Numeral 10 a v → Fits .longLong v → Instant s (64 :: a) ⟨v, 0⟩
  | zoned {a : Bytes} {c : Date.Civil} {o : Int} : Date.Stamp a c (some o) →
      Instant s a ⟨Verif.Spec.Time.epochSeconds c.year (c.month - 1) c.day c.hour c.minute c.second - o, 0⟩
  | local {a : Bytes} {c : Date.Civil} {sec : Int} : Date.Stamp a c none →
      s.xmktime { sec := c.second, min := c.minute, hour := c.hour, mday := c.day, mon := (c.month : Int) - 1, year := (c.year : Int) - 1900 } = .ok sec → Instant s a ⟨sec, 0⟩

/-- The file an argument refers to: links are followed if `-H` or `-L` says so. -/
def Refers (s : Setting) (arg : Bytes) (sb : Sb) : Prop :=
  ((s.followRoots = true ∨ s.followAll = true) ∧ s.stat Stat.TRYFOLLOW arg = .ok sb) ∨
  (s.followRoots = false ∧ s.followAll = false ∧ s.stat Stat.NOFOLLOW arg = .ok sb)

/-- The letters for types. A door (`D`) is a type that only Solaris has. -/
inductive TypeLetter : UInt8 → Option FType → Prop
  | b : TypeLetter 98 (some .blk)
  | c : TypeLetter 99 (some .chr)
  | d : TypeLetter 100 (some .dir)
  | D : TypeLetter 68 none
  | p : TypeLetter 112 (some .fifo)
  | f : TypeLetter 102 (some .reg)
  | l : TypeLetter 108 (some .lnk)
  | s : TypeLetter 115 (some .sock)
  | w : TypeLetter 119 (some .wht)

/-- Letters, separated by commas (44). -/
inductive Types : Bytes → List (Option FType) → Prop
  | one {c : UInt8} {t : Option FType} : TypeLetter c t → Types [c] [t]
  | more {c : UInt8} {t : Option FType} {rest : Bytes} {ts : List (Option FType)} : TypeLetter c t → Types rest ts → Types (c :: 44 :: rest) (t :: ts)

/-- A mode: octal, or like chmod(1). For each kind of file (`true` is for directories), the permissions. -/
inductive ModeArg (s : Setting) : Bytes → (Bool → Flags) → Prop
  | octal {a : Bytes} {n : Nat} : Digits 8 a n → n ≤ 0o7777 → ModeArg s a fun _ f => n.testBit f.bit
  | symbolic (c : Perm.Clause) (cs : List Perm.Clause) : ModeArg s (Perm.text c cs) fun isDir => Perm.meaning (fun f => s.umask.getLsbD f.bit) isDir (c :: cs)

/-- Begins with a digit. -/
def DigitFirst (a : Bytes) : Prop := ∃ c t, a = c :: t ∧ 48 ≤ c.toNat ∧ c.toNat ≤ 57

/-- `MODE`, `-MODE`, `/MODE`, and the old `+MODE`. -/
inductive ModeComparison : Bytes → ModeCmp → Bytes → Prop
  | all (a : Bytes) : ModeComparison (45 :: a) .all a
  | any (a : Bytes) : ModeComparison (47 :: a) .any a
  | plus (a : Bytes) : DigitFirst a → ModeComparison (43 :: a) .any a
  | equal (a : Bytes) : (∀ t, a ≠ 45 :: t) → (∀ t, a ≠ 47 :: t) → (∀ t, a = 43 :: t → ¬ DigitFirst t) → ModeComparison a .equal a

/-- Exactly these permissions, all of them, or any of them (for no permissions at all: always). -/
def Permits (cmp : ModeCmp) (want have_ : Flags) : Prop :=
  match cmp with
  | .equal => ∀ f, have_ f = want f
  | .all => ∀ f, want f = true → have_ f = true
  | .any => (∃ f, want f = true ∧ have_ f = true) ∨ ∀ f, want f = false

/-- `FLAGS`, `-FLAGS` and `+FLAGS`. -/
inductive FlagComparison : Bytes → ModeCmp → Bytes → Prop
  | all (a : Bytes) : FlagComparison (45 :: a) .all a
  | any (a : Bytes) : FlagComparison (43 :: a) .any a
  | equal (a : Bytes) : (∀ t, a ≠ 45 :: t) → (∀ t, a ≠ 43 :: t) → FlagComparison a .equal a

/-- Flags are bits. Those in `set` should be set and those in `clear` should be clear: just that, all of that, or any of that. -/
def Flagged (cmp : ModeCmp) (set clear flags : Nat) : Prop :=
  match cmp with
  | .equal => (∀ i, flags.testBit i = set.testBit i) ∧ ∀ i, clear.testBit i = true → flags.testBit i = false
  | .all => (∀ i, set.testBit i = true → flags.testBit i = true) ∧ ∀ i, clear.testBit i = true → flags.testBit i = false
  | .any => (∃ i, set.testBit i = true ∧ flags.testBit i = true) ∨ ∃ i, clear.testBit i = true ∧ flags.testBit i = false

/-- The name of a file: of an entry of a directory, that of the entry; of a starting point, the last name in the path, or `/` (47). -/
inductive Named : Buf → Bytes → Prop
  | entry (dir : Buf) (name : Bytes) : Named (childBuf dir name) name
  | root {p d name slashes : Bytes} : LastName p d name slashes → Named (rootBuf p) name
  | slashes {p : Bytes} : NoName p → p ≠ [] → Named (rootBuf p) [47]

/-- Begins with a dot (46), and is neither `.` nor `..`. -/
def Dotted (name : Bytes) : Prop := name.head? = some 46 ∧ name ≠ [46] ∧ name ≠ [46, 46]

/-- A question. -/
abbrev Question := File → Except Nat Prop

/-- About what `stat()` says. -/
def stats (P : Sb → Prop) : Question := fun f => f.stat.map P

/-- About one of the times, which not all file systems have (`ENOTSUP`, 95). -/
def timed (field : Field) (P : Timespec → Prop) : Question := fun f => f.stat.bind fun sb => if sb.has field then .ok (P (sb.time field)) else .error 95

/-- A yes or no question. -/
def asked (x : Except Nat Bool) : Except Nat Prop := x.map (· = true)

/-- `Doc s w l args q`: with these arguments, the question is `q`. Where several names mean the same, `name` is any of them. -/
inductive Doc (s : Setting) (w : World) (l : Locale) : List Bytes → Question → Prop
  /-- Always false/true. -/
  | never : Doc s w l [A "-false"] fun _ => .ok False
  | always : Doc s w l [A "-true"] fun _ => .ok True
  /-- Find files the current user can execute/read/write: `X_OK` is 1, `W_OK` is 2, and `R_OK` is 4. -/
  | executable : Doc s w l [A "-executable"] fun f => .ok (f.access 1 = true)
  | readable : Doc s w l [A "-readable"] fun f => .ok (f.access 4 = true)
  | writable : Doc s w l [A "-writable"] fun f => .ok (f.access 2 = true)
  /-- Find files with a non-trivial Access Control List, with capabilities, with extended attributes. -/
  | acl : s.canAcl = true → Doc s w l [A "-acl"] fun f => asked f.acl
  | capable : s.canCapable = true → Doc s w l [A "-capable"] fun f => asked f.capable
  | xattr : s.canXattr = true → Doc s w l [A "-xattr"] fun f => asked f.xattr
  | xattrname (n : Bytes) : s.canXattr = true → Doc s w l [A "-xattrname", n] fun f => asked (f.xattrNamed n)
  /-- Find files whose SELinux context matches the GLOB. -/
  | context {g : Bytes} : s.canContext = true → ¬ Dangling g → Doc s w l [A "-context", g] fun f => f.context.map (Matches l false g)
  /-- Find empty files/directories. -/
  | empty : Doc s w l [A "-empty"] fun f => if f.type = .reg then f.stat.map (·.size = 0) else if f.type = .dir then f.entry.map (· = false) else .ok False
  /-- Find hidden files. -/
  | hidden : Doc s w l [A "-hidden"] fun f => .ok (∃ name, Named f.buf name ∧ Dotted name)
  /-- Find files that occupy fewer disk blocks (of 512 bytes) than expected. -/
  | sparse : Doc s w l [A "-sparse"] (stats fun sb => sb.blocks * 512 < sb.size)
  /-- Find files with depth N, inode number N, N hard links. -/
  | depth {a : Bytes} {cmp : Cmp} {n : Int} : Count a cmp n → Doc s w l [A "-depth", a] fun f => .ok (Compares cmp n f.buf.depth)
  | inum {a : Bytes} {cmp : Cmp} {n : Int} : Count a cmp n → Doc s w l [A "-inum", a] (stats fun sb => Compares cmp n sb.ino)
  | links {a : Bytes} {cmp : Cmp} {n : Int} : Count a cmp n → Doc s w l [A "-links", a] (stats fun sb => Compares cmp n sb.nlink)
  /-- Find files owned by the group/user with that name, or else with that ID. -/
  | userName {a : Bytes} {name : Bytes} {id : Nat} : name = A "-user" ∨ name = A "-uid" → s.user a = .ok (some id) → Doc s w l [name, a] (stats fun sb => sb.uid = id)
  | userId {a : Bytes} {name : Bytes} {cmp : Cmp} {n : Int} : name = A "-user" ∨ name = A "-uid" → (∀ id, s.user a ≠ .ok (some id)) → Count a cmp n →
      Doc s w l [name, a] (stats fun sb => Compares cmp n sb.uid)
  | groupName {a : Bytes} {name : Bytes} {id : Nat} : name = A "-group" ∨ name = A "-gid" → s.group a = .ok (some id) → Doc s w l [name, a] (stats fun sb => sb.gid = id)
  | groupId {a : Bytes} {name : Bytes} {cmp : Cmp} {n : Int} : name = A "-group" ∨ name = A "-gid" → (∀ id, s.group a ≠ .ok (some id)) → Count a cmp n →
      Doc s w l [name, a] (stats fun sb => Compares cmp n sb.gid)
  /-- Find files with the given size. -/
  | size {a : Bytes} {cmp : Cmp} {n : Int} {unit : SizeUnit} : Amount a cmp n unit → Doc s w l [A "-size", a] (stats fun sb => ∃ k, Units unit sb.size k ∧ Compares cmp n k)
  /-- Find files accessed/birthed/changed/modified N minutes ago, N days ago, or some time ago. -/
  | minutes {x : UInt8} {field : Field} {a : Bytes} {cmp : Cmp} {n : Int} : TimeLetter x field → Count a cmp n →
      Doc s w l [45 :: x :: A "min", a] (timed field fun t => ∃ k, Age .minutes s.now t k ∧ Compares cmp n k)
  | days {x : UInt8} {field : Field} {a : Bytes} {cmp : Cmp} {n : Int} : TimeLetter x field → Count a cmp n →
      Doc s w l [45 :: x :: A "time", a] (timed field fun t => ∃ k, Age .days s.now t k ∧ Compares cmp n k)
  | duration {x : UInt8} {field : Field} {a body : Bytes} {cmp : Cmp} {n : Nat} : TimeLetter x field → Signed a cmp body → Duration body n →
      Doc s w l [45 :: x :: A "time", a] (timed field fun t => ∃ k, Age .seconds s.now t k ∧ Compares cmp n k)
  /-- Find files last accessed N days after they were changed. -/
  | used {a : Bytes} {cmp : Cmp} {n : Int} : Count a cmp n →
      Doc s w l [A "-used", a] fun f => f.stat.bind fun sb => if sb.has .atime ∧ sb.has .ctime then .ok (∃ k, DaysUsed (sb.time .atime) (sb.time .ctime) k ∧ Compares cmp n k) else .error 95
  /-- Find files accessed/birthed/changed/modified more recently than FILE was modified. -/
  | newer {a : Bytes} {sb : Sb} : Refers s a sb → sb.has .mtime = true → Doc s w l [A "-newer", a] (timed .mtime fun t => 0 < later t (sb.time .mtime))
  | xnewer {x : UInt8} {field : Field} {a : Bytes} {sb : Sb} : TimeLetter x field → Refers s a sb → sb.has .mtime = true →
      Doc s w l [45 :: x :: A "newer", a] (timed field fun t => 0 < later t (sb.time .mtime))
  /-- Find files whose X time is newer than the Y time of REFERENCE, or than a timestamp. -/
  | newerXY {x y : UInt8} {field field' : Field} {a : Bytes} {sb : Sb} : TimeLetter x field → TimeLetter y field' → Refers s a sb → sb.has field' = true →
      Doc s w l [A "-newer" ++ [x, y], a] (timed field fun t => 0 < later t (sb.time field'))
  | newerXt {x : UInt8} {field : Field} {a : Bytes} {i : Timespec} : TimeLetter x field → Instant s a i →
      Doc s w l [A "-newer" ++ [x, 116], a] (timed field fun t => 0 < later t i)
  /-- Find files accessed/birthed/changed/modified more recently than the timestamp. -/
  | since {a : Bytes} {i : Timespec} : Instant s a i → Doc s w l [A "-since", a] (timed .mtime fun t => 0 < later t i)
  | xsince {x : UInt8} {field : Field} {a : Bytes} {i : Timespec} : TimeLetter x field → Instant s a i →
      Doc s w l [45 :: x :: A "since", a] (timed field fun t => 0 < later t i)
  /-- Find files owned by nonexistent groups/users. -/
  | nouser : Doc s w l [A "-nouser"] fun f => f.stat.bind fun sb => (w.user sb.uid).map (· = false)
  | nogroup : Doc s w l [A "-nogroup"] fun f => f.stat.bind fun sb => (w.group sb.gid).map (· = false)
  /-- Find files whose name, or whose entire path, matches the GLOB, or symbolic links whose target does. With `i`, ignoring case. -/
  | name (g : Bytes) : Doc s w l [A "-name", g] fun f => .ok (∃ t, Named f.buf t ∧ Matches l false g t)
  | iname (g : Bytes) : s.casefold = true → Doc s w l [A "-iname", g] fun f => .ok (∃ t, Named f.buf t ∧ Matches l true g t)
  | path {name : Bytes} (g : Bytes) : name = A "-path" ∨ name = A "-wholename" → Doc s w l [name, g] fun f => .ok (Matches l false g f.buf.path)
  | ipath {name : Bytes} (g : Bytes) : name = A "-ipath" ∨ name = A "-iwholename" → s.casefold = true → Doc s w l [name, g] fun f => .ok (Matches l true g f.buf.path)
  | lname {g : Bytes} : ¬ Dangling g → Doc s w l [A "-lname", g] fun f => if f.type = .lnk then f.link.map (Matches l false g) else .ok False
  | ilname {g : Bytes} : s.casefold = true → ¬ Dangling g → Doc s w l [A "-ilname", g] fun f => if f.type = .lnk then f.link.map (Matches l true g) else .ok False
  /-- There is no need to ask if a pattern ends with a backslash that nothing escapes: it matches nothing. -/
  | context0 {g : Bytes} : s.canContext = true → Dangling g → Doc s w l [A "-context", g] fun _ => .ok False
  | lname0 {g : Bytes} : Dangling g → Doc s w l [A "-lname", g] fun _ => .ok False
  | ilname0 {g : Bytes} : s.casefold = true → Dangling g → Doc s w l [A "-ilname", g] fun _ => .ok False
  /-- Find files whose entire path matches the regular expression. -/
  | regex {r : Bytes} {m : Bytes → Except Nat Bool} : s.regcomp false r = some m → Doc s w l [A "-regex", r] fun f => asked (m f.buf.path)
  | iregex {r : Bytes} {m : Bytes → Except Nat Bool} : s.regcomp true r = some m → Doc s w l [A "-iregex", r] fun f => asked (m f.buf.path)
  /-- Find files with a matching mode. -/
  | perm {a t : Bytes} {cmp : ModeCmp} {want : Bool → Flags} : ModeComparison a cmp t → ModeArg s t want →
      Doc s w l [A "-perm", a] fun f => f.stat.map fun sb => Permits cmp (want (f.type = .dir)) fun b => sb.mode.testBit b.bit
  /-- Find files with matching inode FLAGS. -/
  | flags {a t : Bytes} {cmp : ModeCmp} {set clear : Nat} : FlagComparison a cmp t → s.fflags t = some (set, clear) →
      Doc s w l [A "-flags", a] fun f => f.stat.bind fun _ => match f.attrs with | none => .error 95 | some flags => .ok (Flagged cmp set clear flags)
  /-- Find files on file systems with the given TYPE. -/
  | fstype (t : Bytes) : s.mtab = true → Doc s w l [A "-fstype", t] fun f => f.stat.bind fun _ => f.fstype.map (· = t)
  /-- Find hard links to FILE. -/
  | samefile {a : Bytes} {sb : Sb} : Refers s a sb → Doc s w l [A "-samefile", a] (stats fun sb' => sb'.dev = sb.dev ∧ sb'.ino = sb.ino)
  /-- Find files of the given type. -/
  | type {a : Bytes} {ts : List (Option FType)} : Types a ts → Doc s w l [A "-type", a] fun f => .ok (some f.type ∈ ts)
  /-- Find files of the given type, following links when `-type` would not, and vice versa. A link that leads in circles (`ELOOP`, 40) is a link. -/
  | xtype {a : Bytes} {ts : List (Option FType)} : Types a ts →
      Doc s w l [A "-xtype", a] fun f => match f.other with
        | .ok t => .ok (some t ∈ ts)
        | .error e => if f.follows = false ∧ e = 40 then .ok (some .lnk ∈ ts) else .error e

/-! ## Answers -/

/-- If the question has an answer, the test's value is right and no error is reported. Otherwise the value is false, and that error is reported, unless
`-ignore_readdir_race` has been given, and the file is gone (`ENOENT` is 2, `ENOTDIR` is 20) and not a starting point. -/
def Answers (w : World) (f : File) (x : Except Nat Prop) (r : Out Result) : Prop :=
  match x with
  | .ok P => ∃ b, r = .ok (b, []) ∧ (b = true ↔ P)
  | .error e => ∃ es, r = .ok (false, es) ∧ (∀ e' ∈ es, e' = e) ∧ (es = [] ↔ w.ignoreRaces = true ∧ (e = 2 ∨ e = 20) ∧ 0 < f.buf.depth)

/-! ## What is needed -/

/-- A time that is within 73 billion years. -/
def Recent (t : Timespec) : Prop := 0 ≤ t.nsec ∧ t.nsec < 1000000000 ∧ -2 ^ 61 < t.sec ∧ t.sec < 2 ^ 61

/-- The setting is sane: times make sense, files have a modification time, and errors of regular expressions are not mistaken for `ENOENT` and `ENOTDIR`. -/
structure Setting.Sane (s : Setting) : Prop where
  now : Recent s.now
  mtime : ∀ fl a sb, s.stat fl a = .ok sb → sb.has .mtime = true
  times : ∀ fl a sb x, s.stat fl a = .ok sb → sb.has x = true → Recent (sb.time x)
  xmktime : ∀ tm, s.xmktime tm ≠ .ub
  regex : ∀ icase r m p e, s.regcomp icase r = some m → m p = .error e → e ≠ 2 ∧ e ≠ 20

/-- The file is sane: it has been reached, no number is so large that arithmetic overflows (see `C33_overflow_counterexample`), it is not a starting point with a slash
at the end of its name (see `C62_hidden_counterexample`), and it is known which users and groups exist (see `C80_nouser_counterexample`). -/
structure File.Sane (w : World) (f : File) : Prop where
  walked : Path.Walked f.buf
  slash : f.buf.depth = 0 → f.buf.path.getLast? ≠ some 47
  type : f.type ≠ .error ∧ ∀ t, f.other = .ok t → t ≠ .error
  ino : ∀ sb, f.stat = .ok sb → sb.ino < 2 ^ 63
  nlink : ∀ sb, f.stat = .ok sb → sb.nlink < 2 ^ 63
  mode : ∀ sb, f.stat = .ok sb → sb.mode < 2 ^ 32
  size : ∀ sb, f.stat = .ok sb → 0 ≤ sb.size ∧ sb.size ≤ 2 ^ 62
  times : ∀ sb x, f.stat = .ok sb → sb.has x = true → Recent (sb.time x)
  user : ∀ sb, f.stat = .ok sb → ∃ b, w.user sb.uid = .ok b
  group : ∀ sb, f.stat = .ok sb → ∃ b, w.group sb.gid = .ok b

/-- The arguments are sane: no duration of 2^63 seconds (see `C34_duration_counterexample`), no modes that depend on the umask in more than one place (see
`C35_umask_counterexample`), no timestamps before or after all times, and no patterns without wildcards for which ignoring case is different for bytes and for characters (see
`C81_counterexample`). -/
structure ArgsSane (s : Setting) (w : World) (l : Locale) (args : List Bytes) : Prop where
  duration : ∀ a cmp body n, args[1]? = some a → Signed a cmp body → Duration body n → n < 2 ^ 63
  instant : ∀ a t, args[1]? = some a → Instant s a t → Recent t
  mode : ∀ a cmp c cs, args[1]? = some a → ModeComparison a cmp (Perm.text c cs) → ∀ x ∈ c :: cs, x.who = [] → x.rest = [] ∨ ∀ v p, s.umask.getLsbD (Flag.perm v p).bit = false
  pattern : ∀ name g, args[0]? = some name → name ∈ [A "-iname", A "-ipath", A "-iwholename", A "-ilname"] → args[1]? = some g → Glob.Wildless g → Glob.Bytewise l w.libc.tolower

end Verif.Tests
