import Verif.Model.C
/-!
# Reading and writing (src/bfstd.c)

What the kernel does is a script of responses, one for each system call.  A system call made when the script is used up does not return.
-/
namespace Verif.Io

/-- What `read()` can do. `bytes []` is the end of the file. -/
inductive RResp where
  | eintr
  | error (e : Nat)
  | bytes (l : List UInt8)
  deriving DecidableEq, Repr

/-- `EINTR`. -/
def EINTR : Nat := 4

/-- The value `read()` returns, with what it read. -/
inductive RRet where
  | fail (errno : Nat)
  | data (l : List UInt8)
  deriving DecidableEq, Repr

/-- `read()` of at most `n` bytes: what does not fit is left for the next call. -/
def read (n : Nat) : List RResp → Option (RRet × List RResp)
  | [] => none
  | .eintr :: s => some (.fail EINTR, s)
  | .error e :: s => some (.fail e, s)
  | .bytes l :: s => if l.length ≤ n then some (.data l, s) else some (.data (l.take n), .bytes (l.drop n) :: s)

/-- The state after `xread()` returned. -/
structure XRead where
  buf : List UInt8
  count : Nat
  errno : Nat
  rest : List RResp
  deriving DecidableEq, Repr

/-- The loop of `xread()`, src/bfstd.c:712-727; `buf` has `nbytes` bytes. The first argument bounds the number of system calls. `none`: still waiting. Writing beyond the buffer is undefined. -/
def xreadLoop (nbytes : Nat) : Nat → XRead → Out (Option XRead)
  | 0, _ => .ok none
  | fuel + 1, st =>
    if st.count < nbytes then
      match read (nbytes - st.count) st.rest with
      | none => .ok none
      | some (.fail e, rest) =>
        if e = EINTR then xreadLoop nbytes fuel { st with errno := e, rest := rest }
        else .ok (some { st with errno := e, rest := rest })
      | some (.data [], rest) => .ok (some { st with errno := 0, rest := rest })
      | some (.data l, rest) =>
        if st.count + l.length ≤ st.buf.length then
          xreadLoop nbytes fuel { st with buf := st.buf.take st.count ++ l ++ st.buf.drop (st.count + l.length), count := st.count + l.length, rest := rest }
        else .ub
    else .ok (some st)

/-- `xread()`, src/bfstd.c:709-730. -/
def xread (errno : Nat) (buf : List UInt8) (script : List RResp) : Out (Option XRead) :=
  xreadLoop buf.length (buf.length + script.length + 1) { buf := buf, count := 0, errno := errno, rest := script }

/-- What `write()` can do; `accept n` takes at most `n` bytes. -/
inductive WResp where
  | eintr
  | error (e : Nat)
  | accept (n : Nat)
  deriving DecidableEq, Repr

/-- The state after `xwrite()` returned. `out` is everything written to the file. -/
structure XWrite where
  out : List UInt8
  count : Nat
  errno : Nat
  rest : List WResp
  deriving DecidableEq, Repr

/-- The loop of `xwrite()`, src/bfstd.c:735-750. -/
def xwriteLoop (buf : List UInt8) : List WResp → List UInt8 → Nat → Nat → Option XWrite
  | script, out, count, errno =>
    if count < buf.length then
      match script with
      | [] => none
      | .eintr :: s => xwriteLoop buf s out count EINTR
      | .error e :: s => if e = EINTR then xwriteLoop buf s out count e else some { out := out, count := count, errno := e, rest := s }
      | .accept n :: s =>
        if min n (buf.length - count) = 0 then some { out := out, count := count, errno := 0, rest := s }
        else xwriteLoop buf s (out ++ (buf.drop count).take (min n (buf.length - count))) (count + min n (buf.length - count)) errno
    else some { out := out, count := count, errno := errno, rest := script }

/-- `xwrite()`, src/bfstd.c:732-753. -/
def xwrite (errno : Nat) (buf out : List UInt8) (script : List WResp) : Option XWrite := xwriteLoop buf script out 0 errno

/-! ## Links -/

/-- What the system does: allocations may fail, and every `readlinkat()` may see another target or an error. -/
structure LinkWorld where
  alloc : Nat → Bool
  target : Nat → Option (List UInt8)

/-- `PTRDIFF_MAX`: no object is larger. -/
def PTRDIFF_MAX : Nat := 2 ^ 63 - 1

/-- The result of `xreadlinkat()`: the allocated size, the contents and the terminator's place; `call` is the number of the `readlinkat()` it came from. -/
structure Link where
  size : Nat
  name : List UInt8
  call : Nat
  deriving DecidableEq, Repr

/-- The loop of `xreadlinkat()`, src/bfstd.c:817-833. `readlinkat()` writes at most `size` bytes. Writing the terminator beyond the allocation is undefined. The first argument bounds the iterations. -/
def linkLoop (w : LinkWorld) : Nat → Nat → Nat → Out Link
  | 0, _, _ => .ub
  | fuel + 1, call, size =>
    if size ≤ PTRDIFF_MAX ∧ w.alloc call = true then
      match w.target call with
      | none => .err "readlinkat"
      | some t =>
        if min t.length size ≥ size then linkLoop w fuel (call + 1) (size * 2 % 2 ^ 64)
        else if min t.length size < size then .ok { size := size, name := t.take size, call := call } else .ub
    else .err "realloc"

/-- The first size, src/bfstd.c:811-815. -/
def firstSize (size : Nat) : Nat := if size = 0 then 64 else (size + 1) % 2 ^ 64

/-- `xreadlinkat()`, src/bfstd.c:807-840. -/
def xreadlinkat (w : LinkWorld) (size : Nat) : Out Link := linkLoop w 65 0 (firstSize size)

/-! ## Delimited input -/

/-- A stream: what is left to read, and whether it ends with an error. -/
structure Stream where
  data : List UInt8
  error : Option Nat
  deriving DecidableEq, Repr

/-- `getdelim()`: the bytes up to and including the first delimiter, or up to the end; `none` at the end. -/
def getdelim (delim : UInt8) (s : Stream) : Option (List UInt8) × Stream :=
  match s.data with
  | [] => (none, s)
  | b :: l =>
    match (b :: l).findIdx? (· == delim) with
    | some i => (some ((b :: l).take (i + 1)), { s with data := (b :: l).drop (i + 1) })
    | none => (some (b :: l), { s with data := [] })

/-- The string in a buffer: everything before the first NUL. -/
def cstr (l : List UInt8) : List UInt8 := l.takeWhile (· ≠ 0)

/-- `xgetdelim()`, src/bfstd.c:174-190: the C string it returns, or `errno`. The buffer that `getdelim()` allocates is terminated with a NUL. -/
def xgetdelim (delim : UInt8) (s : Stream) : (List UInt8 ⊕ Nat) × Stream :=
  match getdelim delim s with
  | (some chunk, s') => (.inl (cstr (if (chunk ++ [0])[chunk.length]? = some delim then (chunk ++ [0]).set chunk.length 0 else chunk ++ [0])), s')
  | (none, s') => (.inr (match s'.error with | some e => e | none => 0), s')

/-- The loop of `parse_files0_roots()`, src/parse.c:3559-3573; allocations succeed. The first argument bounds the iterations. The roots, or the error. -/
def files0Loop : Nat → Stream → List (List UInt8) → Out (List (List UInt8) ⊕ Nat)
  | 0, _, _ => .ub
  | fuel + 1, s, roots =>
    match xgetdelim 0 s with
    | (.inr e, _) => if e ≠ 0 then .ok (.inr e) else .ok (.inl roots)
    | (.inl path, s') => files0Loop fuel s' (roots ++ [path])

/-- `parse_files0_roots()`, src/parse.c:3519-3587, after the file was opened. -/
def files0Roots (s : Stream) : Out (List (List UInt8) ⊕ Nat) := files0Loop (s.data.length + 1) s []

end Verif.Io
