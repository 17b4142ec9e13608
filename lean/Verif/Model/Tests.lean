import Verif.Model.Directive
import Verif.Model.Fnmatch
import Verif.Model.Perm
import Verif.Model.Date
import Verif.Model.Cmdline
/-!
# Tests (src/parse.c, src/eval.c)

The functions `parse_*()` and `eval_*()` for tests. What they ask of the system is a parameter: of the command line's surroundings (`Setting`), of the file (`File`),
and of everything else (`World`).
-/
namespace Verif.Tests
open Verif.Num (Cmp SizeUnit TimeUnit)
open Verif.Printf (Field)
open Verif.Time (Timespec Tm)
open Verif.Stat (FType)
open Verif.Directive (Sb)
open Verif.Perm (Mode ModeCmp)
open Verif.Fnmatch (Libc Pattern parseFnmatch evalFnmatch)

abbrev Bytes := List UInt8

/-! ## Parsing -/

/-- What parsing depends on. -/
structure Setting where
  /-- `parser->now`. -/
  now : Timespec
  /-- `bfs_getpwnam()` and `bfs_getgrnam()`: an error, nobody, or the ID. -/
  user : Bytes → Except Nat (Option Nat)
  group : Bytes → Except Nat (Option Nat)
  /-- `BFTW_FOLLOW_ROOTS` and `BFTW_FOLLOW_ALL`. -/
  followRoots : Bool
  followAll : Bool
  /-- `bfs_stat(AT_FDCWD, …)`. -/
  stat : Stat.Flags → Bytes → Except Nat Sb
  xmktime : Tm → Out Int
  umask : Mode
  /-- Does `bfs_ctx_mtab()` succeed? -/
  mtab : Bool
  /-- `bfs_regcomp()` with `parser->regex_type`, with or without `BFS_REGEX_ICASE`: none, or what `bfs_regexec()` with `BFS_REGEX_ANCHOR` then says. -/
  regcomp : Bool → Bytes → Option (Bytes → Except Nat Bool)
  /-- `xstrtofflags()`: the flags to be set and to be cleared. -/
  fflags : Bytes → Option (Nat × Nat)
  /-- Is there `FNM_CASEFOLD`? -/
  casefold : Bool
  /-- `BFS_CAN_CHECK_ACL`, `BFS_CAN_CHECK_CAPABILITIES`, `BFS_CAN_CHECK_CONTEXT` and `BFS_CAN_CHECK_XATTRS`. -/
  canAcl : Bool
  canCapable : Bool
  canContext : Bool
  canXattr : Bool

/-- A test: the function `eval_*()`, and the fields of `struct bfs_expr`, src/expr.h:152-225, it uses. -/
inductive Test
  | const (value : Bool)
  | access (mode : Nat)
  | acl
  | capable
  | context (p : Pattern)
  | newer (field : Field) (reftime : Timespec)
  | time (cmp : Cmp) (num : Int) (field : Field) (unit : TimeUnit) (reftime : Timespec)
  | used (cmp : Cmp) (num : Int)
  | gid (cmp : Cmp) (num : Int)
  | uid (cmp : Cmp) (num : Int)
  | nogroup
  | nouser
  | depth (cmp : Cmp) (num : Int)
  | empty
  | flags (cmp : ModeCmp) (set clear : Nat)
  | fstype (name : Bytes)
  | hidden
  | inum (cmp : Cmp) (num : Int)
  | links (cmp : Cmp) (num : Int)
  | lname (p : Pattern)
  | name (p : Pattern)
  | path (p : Pattern)
  | perm (cmp : ModeCmp) (file dir : Mode)
  | regex (matcher : Bytes → Except Nat Bool)
  | samefile (dev ino : Nat)
  | size (cmp : Cmp) (num : Int) (unit : SizeUnit)
  | sparse
  | type (mask : Nat)
  | xtype (mask : Nat)
  | xattr
  | xattrname (name : Bytes)

/-- The functions in `parse_table`, src/parse.c:3037-3160, with their argument. -/
inductive ParseFn
  | access (mode : Nat)
  | acl
  | newer (field : Field)
  | min (field : Field)
  | time (field : Field)
  | capable
  | context
  | const (value : Bool)
  | depthN
  | empty
  | flags
  | fstype
  | group
  | used
  | user
  | hidden
  | inum
  | links
  | name (casefold : Bool)
  | path (casefold : Bool)
  | lname (casefold : Bool)
  | newerxy
  | nogroup
  | nouser
  | perm
  | regex (icase : Bool)
  | samefile
  | since (field : Field)
  | size
  | sparse
  | type (x : Bool)
  | xattr
  | xattrname
  deriving DecidableEq, Repr

/-- `parse_unary_test()`, src/parse.c:713-722: the value. -/
def unary (args : List Bytes) (k : Bytes → Out Test) : Out (Test × Nat) :=
  match args with
  | _ :: value :: _ => (k value).bind fun t => .ok (t, 2)
  | _ => .err "needs a value"

/-- `parse_nullary_test()`, src/parse.c:706-708. -/
def nullary (t : Test) : Out (Test × Nat) := .ok (t, 1)

/-- The tests that need support by the platform, e.g. `parse_acl()`, src/parse.c:926-933. -/
def supported (can : Bool) (r : Out (Test × Nat)) : Out (Test × Nat) := if can then r else .err "missing platform support"

/-- `parse_test_icmp()`, src/parse.c:766-777, after `parse_unary_test()`. -/
def icmp (value : Bytes) (k : Cmp → Int → Test) : Out Test :=
  match Num.parseIcmp value false with
  | .ok (cmp, num, _) => .ok (k cmp num)
  | .error _ => .err "not a number"

/-- `parse_fnmatch()`, src/parse.c:1080-1123, as used by `parse_name()` and others. -/
def fnm (s : Setting) (value : Bytes) (casefold : Bool) (k : Pattern → Test) : Out Test :=
  (parseFnmatch s.casefold value casefold).bind fun p =>
    match p with
    | none => .ok (.const false)
    | some p => .ok (k p)

/-- `stat_arg()`, src/parse.c:377-388. -/
def statArg (s : Setting) (arg : Bytes) : Except Nat Sb := s.stat (if s.followRoots || s.followAll then Stat.TRYFOLLOW else Stat.NOFOLLOW) arg

/-- `parse_newer()`, src/parse.c:938-952. The mask is not looked at: if the modification time is not there, the variable has no value. -/
def parseNewer (s : Setting) (field : Field) (arg : Bytes) : Out Test :=
  match statArg s arg with
  | .error _ => .err "stat"
  | .ok sb => if sb.has .mtime then .ok (.newer field (sb.time .mtime)) else .ub

/-- `parse_time()`, src/parse.c:972-1033. -/
def parseTime (s : Setting) (field : Field) (arg : Bytes) : Out Test :=
  match Num.parseTime arg with
  | none => .err "invalid time"
  | some (cmp, num, unit) => .ok (.time cmp num field unit s.now)

/-- `parse_user()`, src/parse.c:1555-1578, and `parse_group()`, src/parse.c:1512-1535: `get` is `bfs_getpwnam()` or `bfs_getgrnam()`. -/
def parseOwner (get : Bytes → Except Nat (Option Nat)) (arg : Bytes) (k : Cmp → Int → Test) : Out Test :=
  match get arg with
  | .ok (some id) => .ok (k .eq id)
  | .ok none => if Num.looksLikeIcmp arg then icmp arg k else .err "no such user"
  | .error _ => if Num.looksLikeIcmp arg then icmp arg k else .err "lookup"

/-- `parse_flags()`, src/parse.c:1377-1408: the comparison, and what follows. -/
def flagsPrefix : Bytes → ModeCmp × Bytes
  | 45 :: s => (.all, s)
  | 43 :: s => (.any, s)
  | s => (.equal, s)

/-- `parse_flags()`, src/parse.c:1377-1408. -/
def parseFlags (s : Setting) (arg : Bytes) : Out Test :=
  match s.fflags (flagsPrefix arg).2 with
  | none => .err "invalid flags"
  | some (set, clear) => .ok (.flags (flagsPrefix arg).1 set clear)

/-- `parse_newerxy_field()`, src/parse.c:1708-1721. -/
def newerField (c : UInt8) : Option Field :=
  if c = 97 then some .atime else if c = 66 then some .btime else if c = 99 then some .ctime else if c = 109 then some .mtime else none

/-- `parse_reftime()`, src/parse.c:1724-1766. -/
def refTime (s : Setting) (field : Field) (arg : Bytes) : Out Test := (Date.xgetdate s.xmktime arg).bind fun t => .ok (.newer field t)

/-- The file in `parse_newerxy()`, src/parse.c:1771-1819, with `bfs_stat_time()`, src/stat.c:351-371. -/
def refFile (s : Setting) (field y : Field) (arg : Bytes) : Out Test :=
  match statArg s arg with
  | .error _ => .err "stat"
  | .ok sb => if sb.has y then .ok (.newer field (sb.time y)) else .err "couldn't get time"

/-- `parse_newerxy()`, src/parse.c:1771-1819. -/
def parseNewerxy (s : Setting) (name arg : Bytes) : Out Test :=
  match name[6]?.bind newerField with
  | none => .err "X"
  | some x =>
    if name[7]? = some 116 then refTime s x arg
    else match name[7]?.bind newerField with
      | none => .err "Y"
      | some y => refFile s x y arg

/-- `parse_samefile()`, src/parse.c:2336-2350. -/
def parseSamefile (s : Setting) (arg : Bytes) : Out Test :=
  match statArg s arg with
  | .error _ => .err "stat"
  | .ok sb => .ok (.samefile sb.dev sb.ino)

/-- `parse_size()`, src/parse.c:2414-2463. -/
def parseSize (arg : Bytes) : Out Test :=
  match Num.parseSize arg with
  | none => .err "invalid size"
  | some (cmp, num, unit) => .ok (.size cmp num unit)

/-- `enum bfs_type`, src/dir.h:37-62. -/
def typeBit : FType → Option Nat
  | .error => none
  | .unknown => some 0
  | .blk => some 1
  | .chr => some 2
  | .dir => some 3
  | .fifo => some 5
  | .lnk => some 6
  | .reg => some 8
  | .sock => some 9
  | .wht => some 10

/-- The `switch` in `parse_type()`, src/parse.c:2483-2548. -/
def typeFlag (c : UInt8) : Option Nat :=
  if c = 98 then some 1 else if c = 99 then some 2 else if c = 100 then some 3 else if c = 68 then some 4 else if c = 112 then some 5
  else if c = 102 then some 8 else if c = 108 then some 6 else if c = 115 then some 9 else if c = 119 then some 10 else none

/-- The loop in `parse_type()`, src/parse.c:2483-2548: `num` is `expr->num`. Setting `BFTW_WHITEOUTS` is not modelled. -/
def typeLoop : Nat → Bytes → Option Nat
  | _, [] => none
  | num, c :: rest =>
    match typeFlag c with
    | none => none
    | some b =>
      match rest with
      | [] => some (num ||| 1 <<< b)
      | d :: rest => if d = 44 then typeLoop (num ||| 1 <<< b) rest else none

/-- `parse_type()`, src/parse.c:2483-2548. -/
def parseType (x : Bool) (arg : Bytes) : Out Test :=
  match typeLoop 0 arg with
  | none => .err "type"
  | some mask => .ok (if x then .xtype mask else .type mask)

/-- `parse_regex()`, src/parse.c:2221-2244. -/
def parseRegex (s : Setting) (icase : Bool) (arg : Bytes) : Out Test :=
  match s.regcomp icase arg with
  | none => .err "regex"
  | some m => .ok (.regex m)

/-- `parse_perm()`, src/parse.c:2112-2145. -/
def parsePerm (s : Setting) (arg : Bytes) : Out Test := (Perm.parsePerm s.umask arg).bind fun r => .ok (.perm r.1 r.2.1 r.2.2)

/-- A call through `entry->parse` with `entry->arg1`: the test, and how many arguments it takes. `parse_depth_n()`, src/parse.c:1210-1217, may
parse an option instead; that is not a test, and an error here. -/
def callFn (s : Setting) (fn : ParseFn) (args : List Bytes) : Out (Test × Nat) :=
  match fn with
  | .access mode => nullary (.access mode)
  | .acl => supported s.canAcl (nullary .acl)
  | .newer field => unary args (parseNewer s field)
  | .min field => unary args fun v => icmp v fun cmp num => .time cmp num field .minutes s.now
  | .time field => unary args (parseTime s field)
  | .capable => supported s.canCapable (nullary .capable)
  | .context => supported s.canContext (unary args fun v => fnm s v false .context)
  | .const value => nullary (.const value)
  | .depthN => if (args[1]?.map Num.looksLikeIcmp) = some true then unary args fun v => icmp v .depth else .err "option"
  | .empty => nullary .empty
  | .flags => unary args (parseFlags s)
  | .fstype => unary args fun v => if s.mtab then .ok (.fstype v) else .err "mtab"
  | .group => unary args fun v => parseOwner s.group v .gid
  | .used => unary args fun v => icmp v .used
  | .user => unary args fun v => parseOwner s.user v .uid
  | .hidden => nullary .hidden
  | .inum => unary args fun v => icmp v .inum
  | .links => unary args fun v => icmp v .links
  | .name cf => unary args fun v => fnm s v cf .name
  | .path cf => unary args fun v => fnm s v cf .path
  | .lname cf => unary args fun v => fnm s v cf .lname
  | .newerxy => if (args.headD []).length ≠ 8 then .err "expected -newerXY" else unary args (parseNewerxy s (args.headD []))
  | .nogroup => nullary .nogroup
  | .nouser => nullary .nouser
  | .perm => unary args (parsePerm s)
  | .regex icase => unary args (parseRegex s icase)
  | .samefile => unary args (parseSamefile s)
  | .since field => unary args (refTime s field)
  | .size => unary args parseSize
  | .sparse => nullary .sparse
  | .type x => unary args (parseType x)
  | .xattr => supported s.canXattr (nullary .xattr)
  | .xattrname => supported s.canXattr (unary args fun v => .ok (.xattrname v))

open Verif.Cmdline (A) in
/-- The functions and arguments in the rows of `parse_table`, src/parse.c:3037-3160, that are for tests: the name, whether it is a prefix, and the function. -/
def rows : List (Bytes × Bool × ParseFn) := [
  (A "-Bmin", false, .min .btime),
  (A "-Bnewer", false, .newer .btime),
  (A "-Bsince", false, .since .btime),
  (A "-Btime", false, .time .btime),
  (A "-acl", false, .acl),
  (A "-amin", false, .min .atime),
  (A "-anewer", false, .newer .atime),
  (A "-asince", false, .since .atime),
  (A "-atime", false, .time .atime),
  (A "-capable", false, .capable),
  (A "-cmin", false, .min .ctime),
  (A "-cnewer", false, .newer .ctime),
  (A "-context", false, .context),
  (A "-csince", false, .since .ctime),
  (A "-ctime", false, .time .ctime),
  (A "-depth", false, .depthN),
  (A "-empty", false, .empty),
  (A "-executable", false, .access 1),
  (A "-false", false, .const false),
  (A "-flags", false, .flags),
  (A "-fstype", false, .fstype),
  (A "-gid", false, .group),
  (A "-group", false, .group),
  (A "-hidden", false, .hidden),
  (A "-ilname", false, .lname true),
  (A "-iname", false, .name true),
  (A "-inum", false, .inum),
  (A "-ipath", false, .path true),
  (A "-iregex", false, .regex true),
  (A "-iwholename", false, .path true),
  (A "-links", false, .links),
  (A "-lname", false, .lname false),
  (A "-mmin", false, .min .mtime),
  (A "-mnewer", false, .newer .mtime),
  (A "-msince", false, .since .mtime),
  (A "-mtime", false, .time .mtime),
  (A "-name", false, .name false),
  (A "-newer", false, .newer .mtime),
  (A "-newer", true, .newerxy),
  (A "-nogroup", false, .nogroup),
  (A "-nouser", false, .nouser),
  (A "-path", false, .path false),
  (A "-perm", false, .perm),
  (A "-readable", false, .access 4),
  (A "-regex", false, .regex false),
  (A "-samefile", false, .samefile),
  (A "-since", false, .since .mtime),
  (A "-size", false, .size),
  (A "-sparse", false, .sparse),
  (A "-true", false, .const true),
  (A "-type", false, .type false),
  (A "-uid", false, .user),
  (A "-used", false, .used),
  (A "-user", false, .user),
  (A "-wholename", false, .path false),
  (A "-writable", false, .access 2),
  (A "-xattr", false, .xattr),
  (A "-xattrname", false, .xattrname),
  (A "-xtype", false, .type true)]

/-- The function of a row of the table. -/
def fnOf (e : Cmdline.Entry) : Option ParseFn := (rows.find? fun r => r.1 = e.arg && r.2.1 == e.pre).map (·.2.2)

/-- `parse_primary()`, src/parse.c:3277-3338, for tests: `args` are the remaining arguments. -/
def parseTest (s : Setting) (args : List Bytes) : Out (Test × Nat) :=
  match ((Cmdline.tableLookup (args.headD [])).bind fun i => Cmdline.table[i]?).bind fnOf with
  | none => .err "not a test"
  | some fn => callFn s fn args

/-! ## Evaluation -/

/-- A file, and what can be asked about it: `struct BFTW`, src/bftw.h:35-70. -/
structure File where
  buf : Path.Buf
  type : FType
  /-- Is `ftwbuf->stat_flags` `BFS_STAT_TRYFOLLOW`? -/
  follows : Bool
  /-- `bftw_stat(ftwbuf, ftwbuf->stat_flags)`. -/
  stat : Except Nat Sb
  /-- `statbuf->attrs`, if the mask has `BFS_STAT_ATTRS`. -/
  attrs : Option Nat
  /-- `bftw_type()` with the other flags: an error is `BFS_ERROR` with that `errno`. -/
  other : Except Nat FType
  /-- `xfaccessat() == 0`. -/
  access : Nat → Bool
  /-- `bfs_check_acl()`, `bfs_check_capabilities()` and `bfs_check_xattrs()`. -/
  acl : Except Nat Bool
  capable : Except Nat Bool
  xattr : Except Nat Bool
  /-- `bfs_check_xattr_named()`. -/
  xattrNamed : Bytes → Except Nat Bool
  /-- `bfs_getfilecon()`. -/
  context : Except Nat Bytes
  /-- `bfs_opendir()` and `bfs_readdir()`: is there an entry? -/
  entry : Except Nat Bool
  /-- `bfs_fstype()`, if `bfs_ctx_mtab()` succeeds. -/
  fstype : Except Nat Bytes
  /-- `xreadlinkat()`. -/
  link : Except Nat Bytes

/-- Everything else. -/
structure World where
  libc : Libc
  /-- `ctx->ignore_races`. -/
  ignoreRaces : Bool
  /-- `bfs_getpwuid()` and `bfs_getgrgid()`: does the ID have a name? -/
  user : Nat → Except Nat Bool
  group : Nat → Except Nat Bool

/-- The value of a test, and the errors that have been reported. -/
abbrev Result := Bool × List Nat

/-- `eval_should_ignore()`, src/eval.c:95-99, and `eval_report_error()`, src/eval.c:104-108. -/
def report (w : World) (f : File) (e : Nat) : List Nat := if w.ignoreRaces && Stat.likeENOENT e && decide (f.buf.depth > 0) then [] else [e]

/-- An answer, or `eval_report_error()` and `return false`, as in `eval_acl()`, src/eval.c:198-206. -/
def ask {α} (w : World) (f : File) (x : Except Nat α) (k : α → Out Result) : Out Result :=
  match x with
  | .ok a => k a
  | .error e => .ok (false, report w f e)

/-- A value without errors. -/
def val (b : Bool) : Out Result := .ok (b, [])

/-- `eval_stat_time()`, src/eval.c:239-245, with `eval_error()`. -/
def withTime (sb : Sb) (field : Field) (k : Timespec → Out Result) : Out Result :=
  if sb.has field then k (sb.time field) else .ok (false, [Directive.ENOTSUP])

/-- The end of `eval_used()`, src/eval.c:296-316. Both times are asked for before either is looked at. -/
def evalUsed (cmp : Cmp) (num : Int) (sb : Sb) : Out Result :=
  if sb.has .atime && sb.has .ctime then (Num.evalUsed cmp num (sb.time .atime) (sb.time .ctime)).bind val
  else .ok (false, (if sb.has .atime then [] else [Directive.ENOTSUP]) ++ if sb.has .ctime then [] else [Directive.ENOTSUP])

/-- `eval_nouser()`, src/eval.c:361-372, and `eval_nogroup()`, src/eval.c:345-356: after an error there is no entry. -/
def evalNobody (w : World) (f : File) (x : Except Nat Bool) : Out Result :=
  match x with
  | .ok found => val (!found)
  | .error e => .ok (true, report w f e)

/-- `eval_empty()`, src/eval.c:457-494. -/
def evalEmpty (w : World) (f : File) : Out Result :=
  if f.type = .reg then ask w f f.stat fun sb => val (sb.size = 0)
  else if f.type = .dir then ask w f f.entry fun e => val (!e)
  else val false

/-- The `switch` in `eval_flags()`, src/eval.c:499-527. -/
def flagsMatch (cmp : ModeCmp) (flags set clear : Nat) : Bool :=
  match cmp with
  | .equal => decide (flags = set) && decide (flags &&& clear = 0)
  | .all => decide (flags &&& set = set) && decide (flags &&& clear = 0)
  | .any => decide (flags &&& set ≠ 0) || decide (flags &&& clear ≠ clear)

/-- `eval_flags()`, src/eval.c:499-527. The message has no error code; `ENOTSUP` stands for it. -/
def evalFlags (w : World) (f : File) (cmp : ModeCmp) (set clear : Nat) : Out Result :=
  ask w f f.stat fun _ =>
    match f.attrs with
    | none => .ok (false, [Directive.ENOTSUP])
    | some flags => val (flagsMatch cmp flags set clear)

/-- `(1 << type) & num`, in `eval_type()`, src/eval.c:986-988, and `eval_xtype()`, src/eval.c:1019-1036. Shifting by a negative number is undefined. -/
def inMask (mask : Nat) (type : FType) : Out Result :=
  match typeBit type with
  | none => .ub
  | some b => val ((1 <<< b) &&& mask ≠ 0)

/-- `eval_xtype()`, src/eval.c:1019-1036. -/
def evalXtype (w : World) (f : File) (mask : Nat) : Out Result :=
  match f.other with
  | .ok .error => .ub
  | .ok t => inMask mask t
  | .error e => if !f.follows && e = Stat.ELOOP then inMask mask .lnk else .ok (false, report w f e)

/-- `eval_regex()`, src/eval.c:916-931. -/
def evalRegex (f : File) (m : Bytes → Except Nat Bool) : Out Result :=
  match m f.buf.path with
  | .ok b => val b
  | .error e => .ok (false, [e])

/-- `eval_lname()`, src/eval.c:595-618. -/
def evalLname (w : World) (f : File) (p : Pattern) : Out Result := if f.type ≠ .lnk then val false else ask w f f.link fun l => val (evalFnmatch w.libc p l)

/-- The functions `eval_*()` of src/eval.c. -/
def evalTest (w : World) (f : File) : Test → Out Result
  | .const b => val b
  | .access mode => val (f.access mode)
  | .acl => ask w f f.acl val
  | .capable => ask w f f.capable val
  | .context p => ask w f f.context fun c => val (evalFnmatch w.libc p c)
  | .newer field reftime => ask w f f.stat fun sb => withTime sb field fun t => val (Num.evalNewer reftime t)
  | .time cmp num field unit reftime => ask w f f.stat fun sb => withTime sb field fun t => (Num.evalTime cmp num unit reftime t).bind val
  | .used cmp num => ask w f f.stat fun sb => evalUsed cmp num sb
  | .gid cmp num => ask w f f.stat fun sb => val (Num.exprCmp cmp num sb.gid)
  | .uid cmp num => ask w f f.stat fun sb => val (Num.exprCmp cmp num sb.uid)
  | .nogroup => ask w f f.stat fun sb => evalNobody w f (w.group sb.gid)
  | .nouser => ask w f f.stat fun sb => evalNobody w f (w.user sb.uid)
  | .depth cmp num => val (Num.exprCmp cmp num f.buf.depth)
  | .empty => evalEmpty w f
  | .flags cmp set clear => evalFlags w f cmp set clear
  | .fstype name => ask w f f.stat fun _ => ask w f f.fstype fun t => val (t = name)
  | .hidden => val (Path.evalHidden f.buf)
  | .inum cmp num => ask w f f.stat fun sb => val (Num.exprCmp cmp num (Num.toI64 sb.ino))
  | .links cmp num => ask w f f.stat fun sb => val (Num.exprCmp cmp num (Num.toI64 sb.nlink))
  | .lname p => evalLname w f p
  | .name p => val (evalFnmatch w.libc p (Path.nameFor f.buf))
  | .path p => val (evalFnmatch w.libc p f.buf.path)
  | .perm cmp file dir => ask w f f.stat fun sb => val (Perm.evalPerm cmp file dir (f.type = .dir) (BitVec.ofNat 32 sb.mode))
  | .regex m => evalRegex f m
  | .samefile dev ino => ask w f f.stat fun sb => val (sb.dev = dev && sb.ino = ino)
  | .size cmp num unit => ask w f f.stat fun sb => (Num.evalSize cmp num unit sb.size).bind val
  | .sparse => ask w f f.stat fun sb => (Num.evalSparse sb.size sb.blocks).bind val
  | .type mask => inMask mask f.type
  | .xtype mask => evalXtype w f mask
  | .xattr => ask w f f.xattr val
  | .xattrname name => ask w f (f.xattrNamed name) val

end Verif.Tests
