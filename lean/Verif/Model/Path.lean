import Verif.Spec.Bftw
/-!
# Parts of paths (src/bfstd.c, src/printf.c, src/eval.c)

Paths are lists of bytes, without the terminating NUL and without any other NUL. Failing allocations are not modelled.
-/
namespace Verif.Path

abbrev Bytes := List UInt8

/-- `while (i > 0 && P(path[i - 1])) --i`, as in src/bfstd.c:85-87, 114-116 and 119-121. -/
def backWhile (P : UInt8 → Bool) (path : Bytes) : Nat → Nat
  | 0 => 0
  | i + 1 => if (path[i]?).any P then backWhile P path i else i + 1

/-- `while (path[i] == '/' && path[i + 1]) ++i`, src/bfstd.c:124-126.  The first argument is a bound for the
number of iterations. -/
def skipLeading (path : Bytes) : Nat → Nat → Nat
  | 0, i => i
  | n + 1, i => if path[i]? = some 47 ∧ i + 1 < path.length then skipLeading path n (i + 1) else i

/-- `xbaseoff()`, src/bfstd.c:110-129. -/
def xbaseoff (path : Bytes) : Nat :=
  let i := path.length
  let i := backWhile (fun c => c == 47) path i
  let i := backWhile (fun c => c != 47) path i
  skipLeading path path.length i

/-- `xdirname()`, src/bfstd.c:81-96. -/
def xdirname (path : Bytes) : Bytes :=
  let i := xbaseoff path
  let i := backWhile (fun c => c == 47) path i
  if i > 0 then path.take i
  else if path[i]? = some 47 then [47]
  else [46]

/-- `xbasename()`, src/bfstd.c:98-108. -/
def xbasename (path : Bytes) : Bytes :=
  let i := xbaseoff path
  let len := ((path.drop i).takeWhile (· ≠ 47)).length
  if len > 0 then (path.drop i).take len
  else if path[i]? = some 47 then [47]
  else [46]

/-- The parts of `struct BFTW`, src/bftw.h:35-70, that are about paths. -/
structure Buf where
  path : Bytes
  nameoff : Nat
  root : Bytes
  depth : Nat
  deriving DecidableEq, Repr

/-- `bftw_init_ftwbuf()`, src/bftw.c:1679-1755, for a root: `nameoff` is found in the path. -/
def rootBuf (root : Bytes) : Buf := { path := root, nameoff := xbaseoff root, root, depth := 0 }

/-- `bftw_init_ftwbuf()`, src/bftw.c:1679-1755, for an entry of a directory, with `bftw_child_nameoff()`,
src/bftw.c:700-706: `nameoff` is the length of the path of the directory, and one more for a slash that must be
added.  (`dir.path` is the concatenation of `nameoff` bytes and the name there, so that its length is
`parent->nameoff + parent->namelen`.)  The path is what `C23_path` says. -/
def childBuf (dir : Buf) (name : Bytes) : Buf :=
  { path := Verif.Bftw.join dir.path name
    nameoff := if dir.path.getLast? = some 47 then dir.path.length else dir.path.length + 1
    root := dir.root
    depth := dir.depth + 1 }

/-- `bfs_printf_f()`, src/printf.c:249-255, without colors (also for the next three). -/
def printf_f (b : Buf) : Bytes := b.path.drop b.nameoff

/-- `bfs_printf_h()`, src/printf.c:300-330. -/
def printf_h (b : Buf) : Bytes :=
  if b.nameoff > 0 then
    let len := b.nameoff
    let len := if len > 1 then len - 1 else len
    b.path.take len
  else if b.path[0]? = some 47 then [47]
  else [46]

/-- `bfs_printf_H()`, src/printf.c:333-343. -/
def printf_H (b : Buf) : Bytes := b.root

/-- `bfs_printf_P()`, src/printf.c:435-453. -/
def printf_P (b : Buf) : Bytes :=
  let offset := b.root.length
  let offset := if b.path[offset]? = some 47 then offset + 1 else offset
  b.path.drop offset

/-- The name that `eval_name()` matches, src/eval.c:623-645. -/
def nameFor (b : Buf) : Bytes :=
  let name := b.path.drop b.nameoff
  if b.depth = 0 then xbasename name else name

/-- `eval_hidden()`, src/eval.c:556-566. -/
def evalHidden (b : Buf) : Bool :=
  let name := b.path.drop b.nameoff
  name[0]? = some 46 && name ≠ [46] && name ≠ [46, 46]

end Verif.Path
