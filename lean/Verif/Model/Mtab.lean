import Verif.Model.Memo
import Verif.Model.Path
/-!
# The mount table (src/mtab.c)
-/
namespace Verif.Mtab
open Verif Verif.Trie Verif.Memo Verif.Path

/-- `struct bfs_mount`, src/mtab.c:42-49. -/
structure Mount where
  path : Bytes
  type : Bytes
  deriving DecidableEq, Repr

/-- `struct bfs_mtab`, src/mtab.c:51-67, without the arena (see C44). The values in `types` are pointers, and `none` is `NULL`. -/
structure Mtab where
  mounts : List Mount
  names : Trie Unit
  types : Trie (Option Bytes)
  filled : Bool

/-- The parts of `struct bfs_stat` that matter. -/
structure Sb where
  dev : Nat
  ino : Nat
  mntId : Nat
  deriving DecidableEq, Repr

/-- What system calls return: `open()` of a directory, `bfs_stat()` of a descriptor, and `bfs_stat()` of a path relative to a descriptor or (`none`) to the working directory. -/
structure World where
  openDir : Bytes → Option Nat
  statFd : Nat → Option Sb
  statAt : Option Nat → Bytes → Option Sb

/-- The memory that is available to `bfs_mtab_add()`: for the mount, for the array, and for the name. -/
structure AddMem where
  mount : Bool
  array : Bool
  name : Bool

/-- The key of a string in a trie, with its terminator. -/
def strKey (s : Bytes) : Key := s ++ [0]

/-- `bfs_mtab_add()`, src/mtab.c:73-106: `false` on failure. -/
def add (K : Nat) (t : Mtab) (m : Mount) (mem : AddMem) : Out (Bool × Mtab) :=
  if !mem.mount then .ok (false, t)
  else if !mem.array then .ok (false, t)
  else
    (withLeaf K () t.names (strKey (m.path.drop (xbaseoff m.path))) mem.name false fun v => (true, v)).bind fun r =>
      if r.1 then .ok (true, { t with
        mounts := t.mounts ++ [m]
        names := r.2 })
      else .ok (false, t)

/-- The loops of `bfs_mtab_parse()`, src/mtab.c:108-198. -/
def addAll (K : Nat) : Mtab → List (Mount × AddMem) → Out (Option Mtab)
  | t, [] => .ok (some t)
  | t, (m, mem) :: ms => (add K t m mem).bind fun r => if r.1 then addAll K r.2 ms else .ok none

/-- `bfs_mtab_parse()`, src/mtab.c:108-198. The list is what `getmntent()` returns. -/
def parse (K : Nat) (ms : List (Mount × AddMem)) : Out (Option Mtab) := addAll K ⟨[], empty, empty, false⟩ ms

/-- The variables `parent_dir`, `parent_fd`, and `parent_ret` with `parent_stat`, of `bfs_mtab_fill_types()`, src/mtab.c:200-273, and the number of open descriptors. -/
structure Parent where
  dir : Option Bytes
  fd : Option Nat
  stat : Option Sb
  fds : Nat

/-- `xclose()`, if the descriptor is open, in `bfs_mtab_fill_types()`, src/mtab.c:200-273. -/
def closeParent (p : Parent) : Out Parent :=
  match p.fd with
  | none => .ok p
  | some _ => if p.fds = 0 then .ub else .ok { p with
    fd := none
    fds := p.fds - 1 }

/-- Opening the parent in `bfs_mtab_fill_types()`, src/mtab.c:200-273. -/
def openParent (w : World) (p : Parent) (dir : Bytes) : Out Parent :=
  if p.dir = some dir then .ok p
  else
    (closeParent p).bind fun p =>
      match w.openDir dir with
      | none => .ok ⟨some dir, none, none, p.fds⟩
      | some fd => .ok ⟨some dir, some fd, w.statFd fd, p.fds + 1⟩

/-- The call to `bfs_stat()` in `bfs_mtab_fill_types()`, src/mtab.c:200-273. -/
def statMount (w : World) (p : Parent) (path : Bytes) : Option Sb :=
  match p.fd with
  | some fd => w.statAt (some fd) (path.drop (xbaseoff path))
  | none => w.statAt none path

/-- Whether a mount is skipped in `bfs_mtab_fill_types()`, src/mtab.c:200-273. -/
def notMounted (p : Parent) (sb : Sb) : Bool :=
  match p.stat with
  | some parent => parent.dev = sb.dev && parent.ino ≠ sb.ino
  | none => false

/-- The memory that is available in one iteration: for the name of the parent, and for a leaf. -/
structure FillMem where
  dirname : Bool
  leaf : Bool

/-- What `bfs_mtab_fill_types()` does with the result of `bfs_stat()`, src/mtab.c:200-273. -/
def fillOne (K : Nat) (types : Trie (Option Bytes)) (p : Parent) (type : Bytes) (leaf : Bool) : Option Sb → Out (Bool × Trie (Option Bytes))
  | none => .ok (true, types)
  | some sb =>
    if notMounted p sb then .ok (true, types)
    else withLeaf K none types (bytesOf 8 sb.mntId) leaf false fun _ => (true, some type)

/-- The loop of `bfs_mtab_fill_types()`, src/mtab.c:200-273. Memory is never short once the script is used up. -/
def fillLoop (K : Nat) (w : World) : List Mount → List FillMem → Parent → Trie (Option Bytes) → Out (Bool × Parent × Trie (Option Bytes))
  | [], _, p, types => .ok (true, p, types)
  | m :: ms, mem, p, types =>
    let now := mem.headD ⟨true, true⟩
    if !now.dirname then .ok (false, p, types)
    else
      (openParent w p (xdirname m.path)).bind fun p =>
        (fillOne K types p m.type now.leaf (statMount w p m.path)).bind fun r =>
          if r.1 then fillLoop K w ms mem.tail p r.2 else .ok (false, p, r.2)

/-- `bfs_mtab_fill_types()`, src/mtab.c:200-273: whether it succeeds, the table, and the number of open descriptors. -/
def fillTypes (K : Nat) (w : World) (mem : List FillMem) (t : Mtab) (fds : Nat) : Out (Bool × Mtab × Nat) :=
  (fillLoop K w t.mounts mem ⟨none, none, none, fds⟩ t.types).bind fun r =>
    (closeParent r.2.1).bind fun p =>
      .ok (r.1, { t with
        types := r.2.2
        filled := if r.1 then true else t.filled }, p.fds)

/-- The string `"unknown"`. -/
def unknown : Bytes := [117, 110, 107, 110, 111, 119, 110]

/-- What `bfs_fstype()` does once the types are known, src/mtab.c:275-288. -/
def typeIn (t : Mtab) (id : Nat) : Out Bytes :=
  (getMem t.types (bytesOf 8 id)).bind fun r =>
    match r with
    | some (some type) => .ok type
    | _ => .ok unknown

/-- `bfs_fstype()`, src/mtab.c:275-288: `none` is `NULL`. -/
def fstype (K : Nat) (w : World) (mem : List FillMem) (t : Mtab) (fds : Nat) (id : Nat) : Out (Option Bytes × Mtab × Nat) :=
  if t.filled then (typeIn t id).bind fun ty => .ok (some ty, t, fds)
  else
    (fillTypes K w mem t fds).bind fun r =>
      if r.1 then (typeIn r.2.1 id).bind fun ty => .ok (some ty, r.2.1, r.2.2)
      else .ok (none, r.2.1, r.2.2)

/-- `bfs_might_be_mount()`, src/mtab.c:290-292. -/
def mightBeMount (t : Mtab) (name : Bytes) : Out Bool :=
  (findMem t.names.root (strKey name)).bind fun r => .ok r.isSome

end Verif.Mtab
