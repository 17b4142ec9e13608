import Verif.Model.C
/-!
# `bfs_stat()` (src/stat.c) and its cache (src/bftw.c)
-/
namespace Verif.Stat
open Verif

/-- `enum bfs_type`. Not modelled: doors and event ports, which are specific to Solaris. -/
inductive FType where
  | error | unknown | blk | chr | dir | fifo | lnk | reg | sock | wht
  deriving DecidableEq, Repr

/-- `enum bfs_stat_flags`: with neither, links are followed. Not modelled: `BFS_STAT_NOSYNC`. -/
structure Flags where
  nofollow : Bool
  tryfollow : Bool
  deriving DecidableEq, Repr

/-- `BFS_STAT_FOLLOW`, `BFS_STAT_NOFOLLOW` and `BFS_STAT_TRYFOLLOW`. -/
def FOLLOW : Flags := ⟨false, false⟩
def NOFOLLOW : Flags := ⟨true, false⟩
def TRYFOLLOW : Flags := ⟨false, true⟩

/-- The parts of `struct bfs_stat` that matter. The type stands for the mode (`bfs_mode_to_type()`, src/dir.c:64-110). `rest` stands for everything else. -/
structure Sb where
  type : FType
  dev : Nat
  ino : Nat
  rest : Nat
  deriving DecidableEq, Repr

/-- Errors. -/
def ENOENT : Nat := 2
def ENOTDIR : Nat := 20
def ELOOP : Nat := 40
def ENOSYS : Nat := 38
def EPERM : Nat := 1

/-- `error_is_like()`, src/bfstd.c:45-66, for `ENOENT`. -/
def likeENOENT (e : Nat) : Bool := e = ENOENT || e = ENOTDIR

/-- `error_is_like()`, src/bfstd.c:45-66, for `ENOSYS`, if the error is `errno`. -/
def likeENOSYS (e : Nat) : Bool := e = ENOSYS || e = EPERM

/-! ## `bfs_stat()` -/

/-- The system calls on one file: `statx()` and `fstatat()`, each with and without `AT_SYMLINK_NOFOLLOW`. -/
structure Sys where
  statx : Bool → Except Nat Sb
  fstatat : Bool → Except Nat Sb

/-- `bfs_stat_explicit()`, src/stat.c:287-304: the result, and the new value of `has_statx`. -/
def statExplicit (sys : Sys) (hasStatx : Bool) (nofollow : Bool) : Except Nat Sb × Bool :=
  if hasStatx then
    match sys.statx nofollow with
    | .error e => if likeENOSYS e then (sys.fstatat nofollow, false) else (.error e, true)
    | .ok sb => (.ok sb, true)
  else (sys.fstatat nofollow, false)

/-- `bfs_stat_tryfollow()`, src/stat.c:309-321, and `bfs_stat()`, src/stat.c:323-349. -/
def bfsStat (sys : Sys) (hasStatx : Bool) (flags : Flags) : Except Nat Sb × Bool :=
  match statExplicit sys hasStatx flags.nofollow with
  | (.ok sb, h) => (.ok sb, h)
  | (.error e, h) =>
    if (!flags.nofollow && flags.tryfollow) && likeENOENT e then statExplicit sys h true
    else (.error e, h)

/-! ## The cache -/

/-- Memory: the contents of buffers. -/
abbrev Mem := Nat → Option Sb

/-- `struct bftw_stat`, src/bftw.h:28-37. -/
structure Bufs where
  statBuf : Option Nat
  lstatBuf : Option Nat
  statErr : Int
  lstatErr : Int
  deriving DecidableEq, Repr

/-- `bftw_stat_init()`, src/bftw.c:43-48. -/
def init (statBuf lstatBuf : Option Nat) : Bufs := ⟨statBuf, lstatBuf, -1, -1⟩

/-- `bftw_stat_fill()`, src/bftw.c:51-61. -/
def fill (dest src : Bufs) : Bufs :=
  let dest := if dest.statErr < 0 && src.statErr ≥ 0 then { dest with
    statBuf := src.statBuf
    statErr := src.statErr } else dest
  if dest.lstatErr < 0 && src.lstatErr ≥ 0 then { dest with
    lstatBuf := src.lstatBuf
    lstatErr := src.lstatErr } else dest

/-- Whether a buffer describes a link: `S_ISLNK(buf->mode)`. -/
def isLink (mem : Mem) (buf : Option Nat) : Out Bool :=
  match buf with
  | none => .ub
  | some a =>
    match mem a with
    | none => .ub
    | some sb => .ok (sb.type = .lnk)

/-- `bftw_stat_cache()`, src/bftw.c:64-88. -/
def cache (mem : Mem) (b : Bufs) (flags : Flags) (buf : Option Nat) (err : Nat) : Out Bufs :=
  if flags.nofollow then
    let b := { b with
      lstatBuf := buf
      lstatErr := err }
    if err ≠ 0 then .ok { b with
      statBuf := buf
      statErr := err }
    else (isLink mem buf).bind fun l =>
      if !l then .ok { b with
        statBuf := buf
        statErr := err }
      else .ok b
  else if flags.tryfollow then
    if err ≠ 0 then .ok { b with statErr := err }
    else (isLink mem buf).bind fun l =>
      if l then .ok { b with
        lstatBuf := buf
        lstatErr := err
        statErr := ENOENT }
      else .ok { b with
        statBuf := buf
        statErr := err }
  else .ok { b with
    statBuf := buf
    statErr := err }

/-- The parts of `struct BFTW` that matter, memory, and the number of calls to `bfs_stat()`. -/
structure Ftw where
  type : FType
  statFlags : Flags
  bufs : Bufs
  mem : Mem
  calls : Nat

/-- What `memset()` and `S_IFWHT` make of a buffer in `bftw_stat_impl()`, src/bftw.c:91-132. -/
def whtSb : Sb := ⟨.wht, 0, 0, 0⟩

/-- The state of the file system during a call: what `bfs_stat()` returns, and what a failure leaves in the buffer. -/
structure Now where
  stat : Flags → Except Nat Sb
  junk : Option Sb

/-- Write to a buffer. -/
def write (mem : Mem) (a : Nat) (sb : Option Sb) : Mem := fun x => if x = a then sb else mem x

/-- The call to `bfs_stat()` in `bftw_stat_impl()`, src/bftw.c:91-132. `wht` is whether the platform has `S_IFWHT`. The results are the pointer or the error. -/
def callStat (wht : Bool) (now : Now) (f : Ftw) (flags : Flags) (buf : Option Nat) : Out (Except Nat Nat × Ftw) :=
  match buf with
  | none => .ub
  | some a =>
    match now.stat flags with
    | .ok sb =>
      let mem := write f.mem a (some sb)
      (cache mem f.bufs flags (some a) 0).bind fun b => .ok (.ok a, { f with
        bufs := b
        mem := mem
        calls := f.calls + 1 })
    | .error e =>
      if wht && (e = ENOENT && f.type = .wht) then
        let mem := write f.mem a (some whtSb)
        (cache mem f.bufs flags (some a) 0).bind fun b => .ok (.ok a, { f with
          bufs := b
          mem := mem
          calls := f.calls + 1 })
      else
        let mem := write f.mem a now.junk
        (cache mem f.bufs flags none e).bind fun b => .ok (.error e, { f with
          bufs := b
          mem := mem
          calls := f.calls + 1 })

/-- What is done with a cached error in `bftw_stat_impl()`, src/bftw.c:91-132. -/
def useCache (wht : Bool) (now : Now) (f : Ftw) (flags : Flags) (buf : Option Nat) (err : Int) : Out (Except Nat Nat × Ftw) :=
  if err = 0 then
    match buf with
    | none => .ub
    | some a => .ok (.ok a, f)
  else if err > 0 then .ok (.error err.toNat, f)
  else callStat wht now f flags buf

/-- `bftw_stat_impl()`, src/bftw.c:91-132. -/
def statImpl (wht : Bool) (now : Now) (f : Ftw) (flags : Flags) : Out (Except Nat Nat × Ftw) :=
  if flags.nofollow then useCache wht now f flags f.bufs.lstatBuf f.bufs.lstatErr
  else useCache wht now f flags f.bufs.statBuf f.bufs.statErr

/-- `bftw_stat()`, src/bftw.c:134-148. The second call to `bfs_stat()` happens later. -/
def bftwStat (wht : Bool) (now later : Now) (f : Ftw) (flags : Flags) : Out (Except Nat Nat × Ftw) :=
  if flags.tryfollow then
    (statImpl wht now f FOLLOW).bind fun r =>
      match r with
      | (.ok a, f) => .ok (.ok a, f)
      | (.error e, f) => if likeENOENT e then statImpl wht later f NOFOLLOW else .ok (.error e, f)
  else statImpl wht now f flags

/-- `bftw_cached_stat()`, src/bftw.c:150-166. -/
def cachedStat (f : Ftw) (flags : Flags) : Option Nat :=
  if flags.nofollow then
    if f.bufs.lstatErr = 0 then f.bufs.lstatBuf else none
  else if f.bufs.statErr = 0 then f.bufs.statBuf
  else if flags.tryfollow && likeENOENT f.bufs.statErr.toNat then
    if f.bufs.lstatErr = 0 then f.bufs.lstatBuf else none
  else none

/-- What `bftw_type()` knows without calling `bfs_stat()`, src/bftw.c:168-191. -/
def knownType (f : Ftw) (flags : Flags) : Option FType :=
  if flags.nofollow then
    if f.type = .lnk || f.statFlags.nofollow then some f.type else none
  else if flags.tryfollow then
    if f.type ≠ .lnk || f.statFlags.tryfollow then some f.type else none
  else
    if f.type ≠ .lnk then some f.type
    else if f.statFlags.tryfollow then some .error
    else none

/-- The type in a buffer. -/
def typeAt (mem : Mem) (a : Nat) : Out FType :=
  match mem a with
  | none => .ub
  | some sb => .ok sb.type

/-- `bftw_type()`, src/bftw.c:168-191. With `BFS_ERROR`, also the new value of `errno`, if there is one. -/
def bftwType (wht : Bool) (now later : Now) (f : Ftw) (flags : Flags) : Out ((FType × Option Nat) × Ftw) :=
  match knownType f flags with
  | some t => .ok ((t, none), f)
  | none =>
    (bftwStat wht now later f flags).bind fun r =>
      match r with
      | (.ok a, f) => (typeAt f.mem a).bind fun t => .ok ((t, none), f)
      | (.error e, f) => .ok ((.error, some e), f)

/-- `eval_type()`, src/eval.c:986-988. The set stands for `expr->num`. -/
def evalType (f : Ftw) (types : FType → Bool) : Bool := types f.type

/-- `eval_xtype()`, src/eval.c:1019-1036: the result, or an error. `errno` is the value of `errno` before. -/
def evalXtype (wht : Bool) (now later : Now) (f : Ftw) (types : FType → Bool) (errno : Nat) : Out (Except Nat Bool × Ftw) :=
  let flags : Flags := ⟨!f.statFlags.nofollow, !f.statFlags.tryfollow⟩
  (bftwType wht now later f flags).bind fun r =>
    let errno := r.1.2.getD errno
    let type := if flags.tryfollow && (r.1.1 = .error && errno = ELOOP) then .lnk else r.1.1
    if type = .error then .ok (.error errno, r.2) else .ok (.ok (types type), r.2)

/-- What `%Y` prints: `L`, `N`, `?` with an error, or the letter of a type. -/
inductive Letter where
  | loop | none | error (e : Nat) | type (t : FType)
  deriving DecidableEq, Repr

/-- `bfs_printf_Y()`, src/printf.c:538-562. `errno` is the value of `errno` before. -/
def printfY (wht : Bool) (now later : Now) (f : Ftw) (errno : Nat) : Out (Letter × Ftw) :=
  (bftwType wht now later f FOLLOW).bind fun r =>
    let errno := r.1.2.getD errno
    if r.1.1 = .error then
      if errno = ELOOP then .ok (.loop, r.2)
      else if likeENOENT errno then .ok (.none, r.2)
      else .ok (.error errno, r.2)
    else .ok (.type r.1.1, r.2)

/-- `bftw_is_mount()`, src/bftw.c:1756-1770, with the device of the parent, if there is one. -/
def isMount (wht : Bool) (now later : Now) (f : Ftw) (parent : Option Nat) : Out (Bool × Ftw) :=
  match parent with
  | none => .ok (false, f)
  | some dev =>
    (bftwStat wht now later f f.statFlags).bind fun r =>
      match r with
      | (.ok a, f) =>
        match f.mem a with
        | none => .ub
        | some sb => .ok (sb.dev ≠ dev, f)
      | (.error _, f) => .ok (false, f)

/-- `bftw_save_ftwbuf()`, src/bftw.c:1978-1986: the device and the inode, if they are written. -/
def saveFtwbuf (f : Ftw) : Out (Option (Nat × Nat)) :=
  match cachedStat f f.statFlags with
  | none => .ok none
  | some a =>
    match f.mem a with
    | none => .ub
    | some sb => .ok (some (sb.dev, sb.ino))

/-- `bftw_stat_recycle()`, src/bftw.c:775-787: the buffer that is freed, and the new buffers. -/
def recycle (b : Bufs) : Option Nat × Bufs :=
  match b.statBuf with
  | some a => (some a, init none none)
  | none => (b.lstatBuf, init none none)

/-- The case `IOQ_STAT` of `bftw_ioq_pop()`, src/bftw.c:1004-1063: what the file's buffers are, and whether the buffer is freed. -/
def ioqStat (mem : Mem) (flags : Flags) (a : Nat) (res : Except Nat Sb) : Out (Bufs × Mem × Bool) :=
  match res with
  | .ok sb =>
    let mem := write mem a (some sb)
    (cache mem (init none none) flags (some a) 0).bind fun b => .ok (b, mem, false)
  | .error e => (cache mem (init none none) flags none e).bind fun b => .ok (b, mem, true)

/-! ## The start of a visit -/

/-- `enum bftw_flags`, src/bftw.h, as far as they matter. -/
structure WFlags where
  stat : Bool
  followRoots : Bool
  followAll : Bool
  detectCycles : Bool
  skipMounts : Bool
  pruneMounts : Bool
  deriving DecidableEq, Repr

/-- `-H`, `-L` (and `-follow`) and `-P`. -/
inductive Opt where
  | H | L | P
  deriving DecidableEq, Repr

/-- `parse_follow()`, src/parse.c:893-902, with the flags of each option in the table, src/parse.c:3047-3082. -/
def parseFollow (w : WFlags) (o : Opt) : WFlags :=
  let w := { w with
    followRoots := false
    followAll := false }
  match o with
  | .H => { w with followRoots := true }
  | .L => { w with followAll := true }
  | .P => w

/-- The flag for cycles in `bfs_parse_cmdline()`, src/parse.c:3827-3951. `unique` is `ctx->unique`. -/
def cycleFlag (w : WFlags) (unique : Bool) : WFlags :=
  if w.followAll && !unique then { w with detectCycles := true } else w

/-- The flags for `bfs_stat()` in `stat_arg()`, src/parse.c:377-388. -/
def argFlags (w : WFlags) : Flags :=
  if w.followRoots || w.followAll then TRYFOLLOW else NOFOLLOW

/-- `bftw_stat_flags()`, src/bftw.c:1412-1423. -/
def statFlags (w : WFlags) (depth : Nat) : Flags :=
  if w.followAll || (depth = 0 && w.followRoots) then TRYFOLLOW else NOFOLLOW

/-- `bftw_must_stat()`, src/bftw.c:1426-1452. `mount` is whether the mount table exists and the file might be a mount point. -/
def mustStat (w : WFlags) (depth : Nat) (type : FType) (mount : Bool) : Bool :=
  if w.stat then true
  else
    match type with
    | .unknown => true
    | .dir => w.detectCycles || w.skipMounts || w.pruneMounts
    | .lnk => if !(statFlags w depth).nofollow then true else mount
    | _ => mount

/-- The search for a cycle in `bftw_init_ftwbuf()`, src/bftw.c:1679-1753. The ancestors are devices and inodes, from the closest. The result is the number of the ancestor. -/
def findCycle (sb : Sb) : List (Nat × Nat) → Option Nat
  | [] => none
  | a :: as => if a.1 = sb.dev && a.2 = sb.ino then some 0 else (findCycle sb as).map (· + 1)

/-- The end of `bftw_init_ftwbuf()`, src/bftw.c:1679-1753, with the result of `bftw_stat()`, if it was called: the error, and the number of the ancestor. -/
def checkCycle (w : WFlags) (ancestors : List (Nat × Nat)) (f : Ftw) (statbuf : Option Nat) : Out (Ftw × Nat × Option Nat) :=
  if f.type = .dir && w.detectCycles then
    match ancestors with
    | [] => .ok (f, 0, none)
    | _ =>
      match statbuf with
      | none => .ub
      | some a =>
        match f.mem a with
        | none => .ub
        | some sb =>
          match findCycle sb ancestors with
          | some i => .ok ({ f with type := .error }, ELOOP, some i)
          | none => .ok (f, 0, none)
  else .ok (f, 0, none)

/-- `bftw_init_ftwbuf()`, src/bftw.c:1679-1753, from `ftwbuf->stat_flags` on, if there is no error yet. `type` is the type of the directory entry, or of the file; `bufs` are the buffers after `bftw_stat_fill()`. -/
def initFtwbuf (wht : Bool) (now later : Now) (w : WFlags) (depth : Nat) (type : FType) (mount : Bool) (ancestors : List (Nat × Nat)) (bufs : Bufs) (mem : Mem) : Out (Ftw × Nat × Option Nat) :=
  let f : Ftw := ⟨type, statFlags w depth, bufs, mem, 0⟩
  if mustStat w depth type mount then
    (bftwStat wht now later f f.statFlags).bind fun r =>
      match r with
      | (.ok a, f) => (typeAt f.mem a).bind fun t => checkCycle w ancestors { f with type := t } (some a)
      | (.error e, f) => .ok ({ f with type := .error }, e, none)
  else checkCycle w ancestors f none

end Verif.Stat
