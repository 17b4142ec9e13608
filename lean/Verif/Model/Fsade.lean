/-!
# ACLs, capabilities, extended attributes and security contexts

src/fsade.c on Linux, with libacl, libcap and libselinux.
-/
namespace Verif.Fsade
abbrev Bytes := List UInt8

/-- The tags of entries of an ACL. -/
inductive Tag where
  | userObj | user | groupObj | group | mask | other
  deriving DecidableEq, Repr

/-- `acl_type_t`. -/
inductive AclType where
  | access | default
  deriving DecidableEq, Repr

/-- An ACL: for each entry, what `acl_get_tag_type()` says, which may fail. (`acl_get_entry()` does not fail on a valid ACL.) -/
abbrev Acl := List (Except Nat Tag)

/-- The calls that take a path; the ones with `follow` have a variant that doesn't follow symbolic links. -/
structure Sys where
  /-- `xfaccessat(AT_FDCWD, "/proc/self/fd/N/", F_OK) == 0`. -/
  procAccess : Nat → Bool
  aclGetFile : Bytes → AclType → Except Nat Acl
  /-- `cap_get_file()`, and then `cap_to_text()`. -/
  capGetFile : Bytes → Except Nat (Except Nat Bytes)
  listxattr : Bool → Bytes → Except Nat Nat
  getxattr : Bool → Bytes → Bytes → Except Nat Nat
  getfilecon : Bool → Bytes → Except Nat Bytes

/-- What these functions see of a `struct BFTW`, src/bftw.h:35-70: is it a link that was not followed, is it a directory; `at_fd` is `none` for `AT_FDCWD`. -/
structure Buf where
  path : Bytes
  atFd : Option Nat
  atPath : Bytes
  isLnk : Bool
  isDir : Bool

/-- The static variable `proc_works`, the number of allocations so far (each of which may fail), and how many of the strings are not freed. -/
structure St where
  procWorks : Int := -1
  allocs : Nat := 0
  live : Nat := 0

/-- The decimal digits of a number. -/
def decimal (n : Nat) : Bytes := (Nat.toDigits 10 n).map fun c => UInt8.ofNat c.toNat

/-- `/proc/self/fd/N/`. -/
def procPath (fd : Nat) : Bytes := [47, 112, 114, 111, 99, 47, 115, 101, 108, 102, 47, 102, 100, 47] ++ decimal fd ++ [47]

/-- The end of `fake_at()`, src/fsade.c:73-81, with `path` allocated: `dstrcat()` may fail. -/
def fakeCat (alloc : Nat → Bool) (st : St) (b : Buf) (path : Bytes) : Bytes × Bool × St :=
  if alloc st.allocs then (path ++ b.atPath, true, { st with allocs := st.allocs + 1 })
  else (b.path, false, { st with allocs := st.allocs + 1, live := st.live - 1 })

/-- `fake_at()`, src/fsade.c:64-81, with `path` allocated. -/
def fakeProbe (sys : Sys) (alloc : Nat → Bool) (st : St) (b : Buf) (fd : Nat) : Bytes × Bool × St :=
  if st.procWorks < 0 then
    if sys.procAccess fd then fakeCat alloc { st with procWorks := 1 } b (procPath fd)
    else (b.path, false, { st with procWorks := 0, live := st.live - 1 })
  else fakeCat alloc st b (procPath fd)

/-- `fake_at()`, src/fsade.c:51-82: the path, and whether it has to be freed. -/
def fakeAt (sys : Sys) (alloc : Nat → Bool) (st : St) (b : Buf) : Bytes × Bool × St :=
  match b.atFd with
  | none => (b.path, false, st)
  | some fd =>
    if st.procWorks = 0 then (b.path, false, st)
    else if !alloc st.allocs then (b.path, false, { st with allocs := st.allocs + 1 })
    else fakeProbe sys alloc { st with allocs := st.allocs + 1, live := st.live + 1 } b fd

/-- `free_fake_at()`, src/fsade.c:85-89. -/
def freeFakeAt (owned : Bool) (st : St) : St := if owned then { st with live := st.live - 1 } else st

def ENODATA : Nat := 61
def ENOTSUP : Nat := 95
def EINVAL : Nat := 22
def E2BIG : Nat := 7

/-- `is_absence_error()`, src/fsade.c:95-131, on Linux (`ENOATTR` is `ENODATA`). -/
def isAbsence (e : Nat) : Bool := e = ENOTSUP || e = ENODATA || e = EINVAL

/-- `tag == ACL_USER_OBJ || tag == ACL_GROUP_OBJ || tag == ACL_OTHER`, src/fsade.c:203. -/
def Tag.required : Tag → Bool
  | .userObj => true
  | .groupObj => true
  | .other => true
  | _ => false

/-- The loop of `bfs_check_posix1e_acl()`, src/fsade.c:188-214: `ret` and `errno`. -/
def posix1eLoop (ignoreRequired : Bool) : Acl → Int × Nat → Int × Nat
  | [], r => r
  | .error e :: acl, r => if ignoreRequired then posix1eLoop ignoreRequired acl (-1, e) else (1, r.2)
  | .ok tag :: acl, r => if ignoreRequired && tag.required then posix1eLoop ignoreRequired acl r else (1, r.2)

/-- `bfs_check_acl_type()`, src/fsade.c:217-240, without `acl_is_trivial_np()`. -/
def checkAclType (acl : Acl) (errno : Nat) : AclType → Int × Nat
  | .default => posix1eLoop false acl (0, errno)
  | .access => posix1eLoop true acl (0, errno)

/-- The loop of `bfs_check_acl()`, src/fsade.c:272-293: `ret` and `error`. -/
def aclLoop (sys : Sys) (path : Bytes) (isDir : Bool) : List AclType → Int × Nat → Int × Nat
  | [], r => r
  | t :: ts, (ret, error) =>
    if ret > 0 then (ret, error)
    else if t = .default ∧ !isDir then aclLoop sys path isDir ts (ret, error)
    else
      match sys.aclGetFile path t with
      | .error e => aclLoop sys path isDir ts ((if isAbsence e then 0 else ret), e)
      | .ok acl => aclLoop sys path isDir ts (checkAclType acl error t)

/-- What a caller makes of a result. -/
def answer (r : Int × Nat) : Except Nat Bool := if r.1 < 0 then .error r.2 else .ok (decide (r.1 ≠ 0))

/-- `bfs_check_acl()`, src/fsade.c:244-299. -/
def checkAcl (sys : Sys) (alloc : Nat → Bool) (st : St) (b : Buf) : Except Nat Bool × St :=
  if b.isLnk then (.ok false, st)
  else (answer (aclLoop sys (fakeAt sys alloc st b).1 b.isDir [.access, .default] (-1, 0)), freeFakeAt (fakeAt sys alloc st b).2.1 (fakeAt sys alloc st b).2.2)

/-- `bfs_check_capabilities()`, src/fsade.c:317-344, with the path. -/
def capLoop (r : Except Nat (Except Nat Bytes)) : Int × Nat :=
  match r with
  | .error e => ((if isAbsence e then 0 else -1), e)
  | .ok (.error e) => (-1, e)
  | .ok (.ok text) => ((if text = [] then 0 else 1), 0)

/-- `bfs_check_capabilities()`, src/fsade.c:312-345. -/
def checkCapabilities (sys : Sys) (alloc : Nat → Bool) (st : St) (b : Buf) : Except Nat Bool × St :=
  if b.isLnk then (.ok false, st)
  else (answer (capLoop (sys.capGetFile (fakeAt sys alloc st b).1)), freeFakeAt (fakeAt sys alloc st b).2.1 (fakeAt sys alloc st b).2.2)

/-- The end of `bfs_check_xattrs()`, src/fsade.c:430-439. -/
def xattrsAnswer (r : Except Nat Nat) : Int × Nat :=
  match r with
  | .ok len => if len > 0 then (1, 0) else (0, 0)
  | .error e => if isAbsence e then (0, e) else if e = E2BIG then (1, e) else (-1, e)

/-- `bfs_check_xattrs()`, src/fsade.c:406-440, with `<sys/xattr.h>`. -/
def checkXattrs (sys : Sys) (alloc : Nat → Bool) (st : St) (b : Buf) : Except Nat Bool × St :=
  (answer (xattrsAnswer (sys.listxattr (!b.isLnk) (fakeAt sys alloc st b).1)), freeFakeAt (fakeAt sys alloc st b).2.1 (fakeAt sys alloc st b).2.2)

/-- The end of `bfs_check_xattr_named()`, src/fsade.c:466-475. -/
def xattrNamedAnswer (r : Except Nat Nat) : Int × Nat :=
  match r with
  | .ok _ => (1, 0)
  | .error e => if isAbsence e then (0, e) else if e = E2BIG then (1, e) else (-1, e)

/-- `bfs_check_xattr_named()`, src/fsade.c:442-476. -/
def checkXattrNamed (sys : Sys) (alloc : Nat → Bool) (st : St) (b : Buf) (name : Bytes) : Except Nat Bool × St :=
  (answer (xattrNamedAnswer (sys.getxattr (!b.isLnk) (fakeAt sys alloc st b).1 name)), freeFakeAt (fakeAt sys alloc st b).2.1 (fakeAt sys alloc st b).2.2)

/-- `bfs_getfilecon()`, src/fsade.c:492-513: the path is not freed. -/
def getFilecon (sys : Sys) (alloc : Nat → Bool) (st : St) (b : Buf) : Except Nat Bytes × St :=
  (sys.getfilecon (!b.isLnk) (fakeAt sys alloc st b).1, (fakeAt sys alloc st b).2.2)

/-- One of these questions about a file. -/
inductive Query where
  | acl | capable | xattr | xattrname (name : Bytes) | context
  deriving DecidableEq, Repr

/-- The answers: yes or no, a context, or an error. -/
inductive Answer where
  | bool (r : Except Nat Bool)
  | text (r : Except Nat Bytes)

/-- Asking. -/
def ask (sys : Sys) (alloc : Nat → Bool) (st : St) (b : Buf) : Query → Answer × St
  | .acl => (.bool (checkAcl sys alloc st b).1, (checkAcl sys alloc st b).2)
  | .capable => (.bool (checkCapabilities sys alloc st b).1, (checkCapabilities sys alloc st b).2)
  | .xattr => (.bool (checkXattrs sys alloc st b).1, (checkXattrs sys alloc st b).2)
  | .xattrname name => (.bool (checkXattrNamed sys alloc st b name).1, (checkXattrNamed sys alloc st b name).2)
  | .context => (.text (getFilecon sys alloc st b).1, (getFilecon sys alloc st b).2)

/-- All questions of a search, in order. -/
def askAll (sys : Sys) (alloc : Nat → Bool) : St → List (Buf × Query) → List Answer × St
  | st, [] => ([], st)
  | st, (b, q) :: rest => ((ask sys alloc st b q).1 :: (askAll sys alloc (ask sys alloc st b q).2 rest).1, (askAll sys alloc (ask sys alloc st b q).2 rest).2)

end Verif.Fsade
