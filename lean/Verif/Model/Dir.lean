import Verif.Model.C
/-!
# Reading directories (src/dir.c)

The two implementations, with `getdents()` and with `readdir()`. Not modelled: the special treatment of union mounts and of entries without an inode on FreeBSD.
-/
namespace Verif.Dir

/-- A directory entry as the kernel describes it: `d_reclen`, `d_type` and `d_name`. -/
structure Dent where
  reclen : Nat
  type : Nat
  name : List UInt8
  deriving DecidableEq, Repr

/-- `enum bfs_type`. -/
inductive Type' where
  | blk | chr | dir | fifo | lnk | reg | sock | wht | unknown
  deriving DecidableEq, Repr

/-- `bfs_mode_to_type()`, src/dir.c:64-110. Not modelled: doors and event ports, which are specific to Solaris. -/
def modeToType (mode : Nat) : Type' :=
  let m := mode &&& 0o170000
  if m = 0o060000 then .blk
  else if m = 0o020000 then .chr
  else if m = 0o040000 then .dir
  else if m = 0o010000 then .fifo
  else if m = 0o120000 then .lnk
  else if m = 0o100000 then .reg
  else if m = 0o140000 then .sock
  else if m = 0o160000 then .wht
  else .unknown

/-- `bfs_d_type()`, src/dir.c:306-312. `DTTOIF()` is a shift. -/
def dType (de : Dent) : Type' := modeToType (de.type <<< 12)

/-- The test for `.` and `..` in `bfs_skipdent()`, src/dir.c:273-303. -/
def isDots (name : List UInt8) : Bool :=
  match name with
  | 46 :: rest =>
    match rest with
    | [] => true
    | c :: rest => c = 46 && rest.isEmpty
  | _ => false

/-- `bfs_skipdent()`, src/dir.c:273-303. `whiteouts` is the flag `BFS_DIR_WHITEOUTS`, and `wht` says whether the platform has `DT_WHT` and `getdents()` is used. Reading the name beyond its terminator is impossible here. -/
def skipdent (wht whiteouts : Bool) (de : Dent) : Bool :=
  if wht && (de.type = 14 && !whiteouts) then true
  else isDots de.name

/-! ## With `getdents()` -/

/-- What the kernel answers to the next calls: some entries (at most one more than the number, and only those that fit), or an error. -/
inductive Answer where
  | entries (n : Nat)
  | error (e : String)
  deriving DecidableEq, Repr

/-- An open directory: the entries that have not been read, and the answers to the next calls; after those, as many entries as fit. -/
structure Kernel where
  rest : List Dent
  script : List Answer
  deriving DecidableEq, Repr

/-- How many entries are returned: at most `k` that fit into `n` bytes. -/
def fitting : List Dent → Nat → Nat → Nat
  | [], _, _ => 0
  | _, 0, _ => 0
  | d :: ds, k + 1, n => if d.reclen ≤ n then fitting ds k (n - d.reclen) + 1 else 0

/-- The result of `getdents()`: an error, or the entries that were written. If not even one fits, then that is an error. -/
def serve (k : Kernel) (limit size : Nat) : Except String (List Dent) × Kernel :=
  let n := fitting k.rest limit size
  if k.rest = [] then (.ok [], k)
  else if n = 0 then (.error "EINVAL", k)
  else (.ok (k.rest.take n), { k with rest := k.rest.drop n })

/-- `bfs_getdents()`, src/dir.c:27-51. -/
def getdents (k : Kernel) (size : Nat) : Except String (List Dent) × Kernel :=
  match k.script with
  | .error e :: s => (.error e, { k with script := s })
  | .entries n :: s => serve { k with script := s } (n + 1) size
  | [] => serve k k.rest.length size

/-- The total size of some entries. -/
def total (ds : List Dent) : Nat := (ds.map (·.reclen)).sum

/-- The buffer: where entries start. -/
abbrev Mem := Nat → Option Dent

/-- Write entries to the buffer. They replace what is there. -/
def store (m : Mem) (pos : Nat) : List Dent → Mem
  | [] => m
  | d :: ds => store (fun x => if x = pos then some d else if pos < x ∧ x < pos + d.reclen then none else m x) (pos + d.reclen) ds

/-- `BUF_SIZE`, src/dir.c:139-144, and the size of an entry. -/
def BUF_SIZE : Nat := 65520
def DIRENT_SIZE : Nat := 280

/-- `struct bfs_dir`, src/dir.c:122-137. `pos` and `size` are of type `unsigned short`. -/
structure Dir where
  eof : Bool
  whiteouts : Bool
  pos : Nat
  size : Nat
  buf : Mem

/-- `bfs_opendir()`, src/dir.c:154-193, once the file is open. The content of the buffer is arbitrary. -/
def opendir (whiteouts : Bool) (junk : Mem) : Dir := ⟨false, whiteouts, 0, 0, junk⟩

/-- The eager check for the end in `bfs_polldir()`, src/dir.c:203-254. -/
def eager (d : Dir) (k : Kernel) (size : Nat) : Dir × Kernel :=
  let rest := BUF_SIZE - size
  if rest ≥ DIRENT_SIZE then
    match getdents k rest with
    | (.ok ds, k) =>
      if total ds > 0 then ({ d with
        buf := store d.buf size ds
        size := (d.size + total ds) % 65536 }, k)
      else ({ d with eof := true }, k)
    | (.error _, k) => (d, k)
  else (d, k)

/-- `bfs_polldir()`, src/dir.c:203-254: the result is 1 or 0, or an error. -/
def polldir (d : Dir) (k : Kernel) : Except String Nat × Dir × Kernel :=
  if d.pos < d.size then (.ok 1, d, k)
  else if d.eof then (.ok 0, d, k)
  else
    match getdents k BUF_SIZE with
    | (.error e, k) => (.error e, d, k)
    | (.ok ds, k) =>
      if total ds = 0 then (.ok 0, { d with eof := true }, k)
      else
        let d := { d with
          buf := store d.buf 0 ds
          pos := 0
          size := total ds % 65536 }
        (.ok 1, eager d k (total ds))

/-- `bfs_getdent()`, src/dir.c:257-270: no entry if the result is 0. -/
def getdent (d : Dir) (k : Kernel) : Out (Except String (Option Dent) × Dir × Kernel) :=
  match polldir d k with
  | (.error e, d, k) => .ok (.error e, d, k)
  | (.ok 0, d, k) => .ok (.ok none, d, k)
  | (.ok _, d, k) =>
    match d.buf d.pos with
    | none => .ub
    | some de => .ok (.ok (some de), { d with pos := (d.pos + de.reclen) % 65536 }, k)

/-- `bfs_readdir()`, src/dir.c:314-336. The first argument bounds the number of iterations. -/
def readLoop (wht : Bool) : Nat → Dir → Kernel → Out (Except String (Option (Type' × List UInt8)) × Dir × Kernel)
  | 0, _, _ => .ub
  | n + 1, d, k =>
    (getdent d k).bind fun r =>
      match r with
      | (.error e, d, k) => .ok (.error e, d, k)
      | (.ok none, d, k) => .ok (.ok none, d, k)
      | (.ok (some de), d, k) =>
        if skipdent wht d.whiteouts de then readLoop wht n d k
        else .ok (.ok (some (dType de, de.name)), d, k)

/-- `bfs_readdir()`, src/dir.c:314-336: the next entry, or none at the end. Each iteration consumes an entry in the buffer or in the kernel, or is the last. -/
def readdir (wht : Bool) (d : Dir) (k : Kernel) : Out (Except String (Option (Type' × List UInt8)) × Dir × Kernel) :=
  readLoop wht (d.size - d.pos + k.rest.length + 1) d k

/-- `eval_empty()`, src/eval.c:457-494, for directories: whether the first read finds nothing. -/
def isEmpty (wht : Bool) (k : Kernel) (junk : Mem) : Out (Except String Bool) :=
  (readdir wht (opendir false junk) k).bind fun r =>
    match r.1 with
    | .error e => .ok (.error e)
    | .ok none => .ok (.ok true)
    | .ok (some _) => .ok (.ok false)

/-! ## With `readdir()` -/

/-- The answers of the C library's `readdir()`: entries and errors; `NULL` without an error after those. -/
abbrev Stream := List (Except String Dent)

/-- `struct bfs_dir`, src/dir.c:122-137. -/
structure Dir2 where
  eof : Bool
  whiteouts : Bool
  de : Option Dent

/-- `bfs_polldir()`, src/dir.c:203-254. -/
def polldir2 (d : Dir2) (s : Stream) : Except String Nat × Dir2 × Stream :=
  if d.de.isSome then (.ok 1, d, s)
  else if d.eof then (.ok 0, d, s)
  else
    match s with
    | .ok de :: s => (.ok 1, { d with de := some de }, s)
    | .error e :: s => (.error e, { d with de := none }, s)
    | [] => (.ok 0, { d with
        eof := true
        de := none }, [])

/-- `bfs_getdent()`, src/dir.c:257-270. -/
def getdent2 (d : Dir2) (s : Stream) : Out (Except String (Option Dent) × Dir2 × Stream) :=
  match polldir2 d s with
  | (.error e, d, s) => .ok (.error e, d, s)
  | (.ok 0, d, s) => .ok (.ok none, d, s)
  | (.ok _, d, s) =>
    match d.de with
    | none => .ub
    | some de => .ok (.ok (some de), { d with de := none }, s)

/-- `bfs_readdir()`, src/dir.c:314-336. The first argument bounds the number of iterations. -/
def readLoop2 : Nat → Dir2 → Stream → Out (Except String (Option (Type' × List UInt8)) × Dir2 × Stream)
  | 0, _, _ => .ub
  | n + 1, d, s =>
    (getdent2 d s).bind fun r =>
      match r with
      | (.error e, d, s) => .ok (.error e, d, s)
      | (.ok none, d, s) => .ok (.ok none, d, s)
      | (.ok (some de), d, s) =>
        if skipdent false d.whiteouts de then readLoop2 n d s
        else .ok (.ok (some (dType de, de.name)), d, s)

/-- `bfs_readdir()`, src/dir.c:314-336. -/
def readdir2 (d : Dir2) (s : Stream) : Out (Except String (Option (Type' × List UInt8)) × Dir2 × Stream) :=
  readLoop2 (s.length + 2) d s

end Verif.Dir
