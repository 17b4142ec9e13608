/-!
# Walking a file hierarchy, src/bftw.c

`bftw_impl()` as a transition system.  The main thread's steps are those of the code; the I/O
queue's threads complete requests in any order, and the main thread collects their results at any
time between two of its steps (in the code it does so only at some points, so all its behaviours
are included).

A file is identified by its position: the list of indices that lead to it, innermost first.  `[i]`
is root number `i`, `j :: p` is entry number `j` of the directory `p`, and `[]` is `NULL`.  A
`struct bftw_file` has the position of its file as its address: in one walk, the code allocates at
most one for each position, since it reads each directory once (that this holds is part of what is
proved, see `bad`).

The file system is a parameter.  Since each file is looked at once, it includes what changes during
the walk.  Not modelled here: file descriptors and the cache of directories, and stat buffers.
-/
namespace Verif.Bftw

abbrev Pos := List Nat
abbrev Bytes := List UInt8

/-- `enum bftw_visit`, src/bftw.h:19-24; `err` is a `BFTW_PRE` visit that reports an error while
opening or reading a directory. -/
inductive Visit where
  | pre | err | post
  deriving DecidableEq, Repr

/-- `enum bftw_action`, src/bftw.h:117-124. -/
inductive Action where
  | cont | prune | stop
  deriving DecidableEq, Repr

/-- `enum bftw_strategy`, src/bftw.h:169-178. -/
inductive Strategy where
  | bfs | dfs | ids | eds
  deriving DecidableEq, Repr

/-- A call of the callback, with the path it was given, and what `bftw_call_back()` made of the
result. -/
structure Event where
  visit : Visit
  pos : Pos
  path : Bytes
  action : Action
  deriving DecidableEq, Repr

/-- The file system, the callback and the flags.
* `roots`, `name`, `entries`: the paths to start from, and what `bfs_readdir()` returns
* `isDir`: is the type in the ftwbuf `BFS_DIR` (after any `bfs_stat()`, and not an error or a loop)?
* `error`: is the type `BFS_ERROR`, because `bfs_stat()` failed?
* `broken`: does opening the directory, or reading on after the entries, fail?
* `mount`: is its device different from its parent's?
* `callback`: the callback, which may depend on what it has been called with so far (newest first)
* `le`: `strcoll() <= 0`
* `path0`: what is in the buffer for paths at the start (src/bftw.c:962, or what an earlier walk with
  the same state left there)
* `junk`: what is in newly allocated memory, at some time
* `post`, `sort`, `skipMounts`, `pruneMounts`, `buffer`, `stat`: flags, src/bftw.h:141-164
* `nthreads`: the number of I/O threads -/
structure Env where
  roots : Nat
  name : Pos → Bytes
  entries : Pos → Nat
  isDir : Pos → Bool
  error : Pos → Bool
  broken : Pos → Bool
  mount : Pos → Bool
  callback : List Event → Visit → Pos → Bytes → Action
  le : Bytes → Bytes → Bool
  path0 : Bytes
  junk : Nat → Nat → UInt8
  post : Bool
  sort : Bool
  skipMounts : Bool
  pruneMounts : Bool
  buffer : Bool
  stat : Bool
  strategy : Strategy
  nthreads : Nat

/-- `bftw_must_buffer()`, src/bftw.c:866-895. -/
def Env.mustBuffer (e : Env) : Bool :=
  e.sort || (e.strategy = .dfs && e.nthreads = 0) || (e.stat && decide (e.nthreads > 1))

/-- `state->flags & BFTW_BUFFER`, src/bftw.c:938-940. -/
def Env.buffering (e : Env) : Bool := e.buffer || e.mustBuffer

/-! ## Queues -/

/-- `struct bftw_queue`, src/bftw.c:363-378: `qbuffer`, `lifo` and `order` are flags; `service` are
the files whose `ioqueued` is set (by this queue); `imbalance` is left out, it only decides when to
do things asynchronously. -/
structure Queue where
  qbuffer : Bool
  lifo : Bool
  order : Bool
  buffer : List Pos
  waiting : List Pos
  ready : List Pos
  service : List Pos
  size : Nat
  deriving DecidableEq, Repr

/-- `bftw_queue_init()`, src/bftw.c:380-388. -/
def Queue.init (qbuffer lifo order : Bool) : Queue := ⟨qbuffer, lifo, order, [], [], [], [], 0⟩

/-- The lists in `bftw_queue_push()`, src/bftw.c:391-407. -/
def Queue.insert (q : Queue) (f : Pos) : Queue :=
  if q.qbuffer then { q with buffer := q.buffer ++ [f] }
  else if q.lifo then { q with waiting := f :: q.waiting, ready := if q.order then f :: q.ready else q.ready }
  else { q with waiting := q.waiting ++ [f], ready := if q.order then q.ready ++ [f] else q.ready }

/-- `bftw_queue_push()`, src/bftw.c:391-407. -/
def Queue.push (q : Queue) (f : Pos) : Queue := { q.insert f with size := q.size + 1 }

/-- `bftw_queue_flush()`, src/bftw.c:410-431. -/
def Queue.flush (q : Queue) : Queue :=
  if !q.qbuffer then q
  else
    { q with
      ready := if q.order then (if q.lifo then q.buffer ++ q.ready else q.ready ++ q.buffer) else q.ready
      waiting := if q.lifo then q.buffer ++ q.waiting else q.waiting ++ q.buffer
      buffer := [] }

/-- The assertions in `bftw_queue_detach()`, src/bftw.c:452-471. -/
def Queue.canDetach (q : Queue) (f : Pos) : Bool :=
  !q.service.contains f && (if q.buffer.head? = some f then !q.order else q.waiting.head? = some f)

/-- `bftw_queue_detach()`, src/bftw.c:452-471. -/
def Queue.detach (q : Queue) (f : Pos) (async : Bool) : Queue :=
  let q := if q.buffer.head? = some f then { q with buffer := q.buffer.tail } else { q with waiting := q.waiting.tail }
  if async then { q with service := q.service ++ [f] } else q

/-- `bftw_queue_attach()`, src/bftw.c:474-486. -/
def Queue.attach (q : Queue) (f : Pos) : Queue :=
  let q := { q with service := q.service.erase f }
  if q.order then q else { q with ready := q.ready ++ [f] }

/-- `bftw_queue_waiting()`, src/bftw.c:495-517. -/
def Queue.next (q : Queue) : Option Pos :=
  if !q.qbuffer || q.order then q.waiting.head?
  else if q.lifo then (q.buffer ++ q.waiting).head?
  else (q.waiting ++ q.buffer).head?

/-- `bftw_queue_pop()`, src/bftw.c:525-542. -/
def Queue.pop (q : Queue) : Option Pos × Queue :=
  match q.ready with
  | f :: fs =>
    if q.waiting.head? = some f then (some f, { q with ready := fs, waiting := q.waiting.tail, size := q.size - 1 })
    else (some f, { q with ready := fs, size := q.size - 1 })
  | [] =>
    match q.waiting with
    | f :: fs => (some f, { q with waiting := fs, size := q.size - 1 })
    | [] => (none, q)

/-- May `bftw_pop()` stop waiting for I/O, src/bftw.c:1366-1378?  `bftw_ioq_pop()` fails only if
there is nothing to wait for, or if it was told not to wait because there are files that can be
processed instead. -/
def Queue.canPop (q : Queue) : Bool := !q.ready.isEmpty || q.service.isEmpty || !q.waiting.isEmpty

/-! ## Sorting -/

/-- The first loop of `bftw_list_sort()`, src/bftw.c:1914-1949: take one element off the list for
every two steps of the hare. -/
def splitLoop : List Pos → List Pos → List Pos → List Pos × List Pos
  | _ :: _ :: hare, x :: list, left => splitLoop hare list (left ++ [x])
  | _, list, left => (left, list)

/-- The merging loop, src/bftw.c:1935-1949, with what is already in the list; at most `fuel` times
around. -/
def mergeLoop (le : Bytes → Bytes → Bool) (name : Pos → Bytes) : Nat → List Pos → List Pos → List Pos → List Pos
  | fuel + 1, l :: ls, r :: rs, out =>
    if le (name l) (name r) then mergeLoop le name fuel ls (r :: rs) (out ++ [l])
    else mergeLoop le name fuel (l :: ls) rs (out ++ [r])
  | _, ls, rs, out => out ++ ls ++ rs

/-- `bftw_list_sort()`, src/bftw.c:1914-1949, `fuel` levels deep. -/
def sortFuel (le : Bytes → Bytes → Bool) (name : Pos → Bytes) : Nat → List Pos → List Pos
  | 0, l => l
  | fuel + 1, l =>
    match l with
    | [] => []
    | [x] => [x]
    | l =>
      let (left, right) := splitLoop l l []
      mergeLoop le name l.length (sortFuel le name fuel left) (sortFuel le name fuel right) []

/-- `bftw_list_sort()`, src/bftw.c:1914-1949; the recursion is at most as deep as the list is
long. -/
def listSort (le : Bytes → Bytes → Bool) (name : Pos → Bytes) (l : List Pos) : List Pos := sortFuel le name l.length l

/-! ## Paths -/

/-- `bftw_child_nameoff()`, src/bftw.c:700-706, given `parent->nameoff` and `parent->name`. -/
def childOff (off : Nat) (name : Bytes) : Nat := off + name.length + (if name.getLast? = some 47 then 0 else 1)

/-- `file->nameoff`, as set by `bftw_file_new()`, src/bftw.c:719-759. -/
def Env.nameoff (e : Env) : Pos → Nat
  | [] => 0
  | [_] => 0
  | _ :: p => childOff (e.nameoff p) (e.name p)

/-- Store bytes in the path. -/
def splice (buf : Bytes) (off : Nat) (b : Bytes) : Bytes := buf.take off ++ b ++ buf.drop (off + b.length)

/-- `bftw_prepend_path()`, src/bftw.c:1541-1546. -/
def prependPath (buf : Bytes) (off : Nat) (name : Bytes) : Bytes :=
  splice (if off > 0 then splice buf (off - 1) [47] else buf) off name

/-- `dstresize()`, src/dstring.c:124-132, as far as the contents are concerned. -/
def resize (junk : Nat → UInt8) (buf : Bytes) (n : Nat) : Bytes := buf.take n ++ (List.range (n - buf.length)).map junk

/-- src/bftw.c:1570-1573; positions of files at depth `d` have length `d + 1`. -/
def climb : Pos → Nat → Pos
  | [], _ => []
  | i :: p, n => if (i :: p).length > n then climb p n else i :: p

/-- src/bftw.c:1579-1586, as long as the file is not the ancestor. -/
def Env.writeUp (e : Env) : Pos → Pos → Bytes → Bytes
  | [], _, buf => buf
  | i :: p, anc, buf =>
    if i :: p = anc then buf
    else e.writeUp p (if anc ≠ [] ∧ anc.length = (i :: p).length then anc.tail else anc) (prependPath buf (e.nameoff (i :: p)) (e.name (i :: p)))

/-! ## The walk -/

/-- Where the main thread is in `bftw_impl()`, src/bftw.c:2106-2139: visiting root `i`; about to
decide which queue to pop from (`bftw_pop_dir()`, src/bftw.c:1393-1409); waiting for a directory;
having popped one; having read `k` entries of one; waiting for a file; having popped one; at the
end; having stopped early. -/
inductive Pc where
  | roots (i : Nat)
  | top
  | popDir
  | dir
  | read (k : Nat)
  | popFile
  | file
  | done
  | stopped
  deriving DecidableEq, Repr

/-- `struct bftw_state`, src/bftw.c:805-863: `refs` are the reference counts of the files that have
been allocated, 0 for others; `file` and `prev` are `state->file` and `state->previous`.  `trace`
records the calls of the callback, newest first.  `bad` is set if an assertion fails, a file is
allocated that already is, a reference count underflows, or a null pointer is used. -/
structure State where
  refs : Pos → Nat
  fileq : Queue
  dirq : Queue
  file : Pos
  prev : Pos
  path : Bytes
  pc : Pc
  trace : List Event
  bad : Bool

/-- `bftw_state_init()`, src/bftw.c:898-978. -/
def State.init (e : Env) : State :=
  let lifo := e.strategy ≠ .bfs
  let qbuffer := lifo || e.buffering
  let flat := e.strategy = .bfs || e.buffering
  { refs := fun _ => 0
    fileq := Queue.init qbuffer lifo e.sort
    dirq := Queue.init (qbuffer && !flat) (lifo && !flat) e.sort
    file := [], prev := [], path := e.path0, pc := .roots 0, trace := [], bad := false }

/-- An assertion. -/
def State.need (s : State) (p : Bool) : State := { s with bad := s.bad || !p }

/-- The file that is meant: an entry of the current directory, or the current file itself. -/
def target (file : Pos) : Option Nat → Pos
  | some j => j :: file
  | none => file

/-- `bftw_build_path()`, src/bftw.c:1549-1588; `name` is the number of an entry. -/
def State.buildPath (e : Env) (s : State) (name : Option Nat) : State :=
  let t := target s.file name
  let buf := resize (e.junk s.trace.length) s.path (e.nameoff t + (e.name t).length)
  let anc := climb s.prev s.file.length
  let buf := match name with
    | some _ => prependPath buf (e.nameoff t) (e.name t)
    | none => buf
  { s.need (s.prev = [] ∨ s.file ≠ []) with path := e.writeUp s.file anc buf, prev := s.file }

/-- `bftw_is_mount()`, src/bftw.c:1756-1770. -/
def Env.isMount (e : Env) (p : Pos) : Bool := !p.tail.isEmpty && e.mount p

/-- src/bftw.c:1800-1823 -/
def Env.adjust (e : Env) (visit : Visit) (t : Pos) : Action → Action
  | .cont => if visit ≠ .pre || !e.isDir t then .prune else if e.pruneMounts && e.isMount t then .prune else .cont
  | a => a

/-- `bftw_call_back()`, src/bftw.c:1778-1833, with `BFTW_RECOVER`. -/
def State.callBack (e : Env) (s : State) (name : Option Nat) (visit : Visit) : State × Action :=
  let t := target s.file name
  if visit = .post && !e.post then (s, .prune)
  else
    let s := s.buildPath e name
    if e.skipMounts && e.isMount t then (s, .prune)
    else
      let a := e.adjust visit t (e.callback s.trace visit t s.path)
      ({ s with trace := ⟨visit, t, s.path, a⟩ :: s.trace }, a)

/-- Assignment to a reference count. -/
def upd (f : Pos → Nat) (p : Pos) (n : Nat) : Pos → Nat := fun q => if q = p then n else f q

/-- `bftw_file_new()`, src/bftw.c:719-759. -/
def State.new (s : State) (j : Nat) : State :=
  let s := s.need (s.refs (j :: s.file) = 0)
  let refs := if s.file = [] then s.refs else upd s.refs s.file (s.refs s.file + 1)
  { s with refs := upd refs (j :: s.file) 1 }

/-- The callback for a file that is being freed, src/bftw.c:1886-1892. -/
def State.postVisit (e : Env) (s : State) (visit : Bool) : State × Action := if visit then s.callBack e none .post else (s, .prune)

/-- The second loop of `bftw_gc()`, src/bftw.c:1852-1911.  `visit`: visit this file?  `parents`:
visit its ancestors?  The result tells whether the callback has stopped the walk. -/
def State.gcLoop (e : Env) : Pos → State → (visit parents : Bool) → State × Bool
  | [], s, _, _ => ({ s with file := [] }, false)
  | i :: p, s, visit, parents =>
    let s := { s.need (s.refs (i :: p) > 0) with refs := upd s.refs (i :: p) (s.refs (i :: p) - 1), file := i :: p }
    if s.refs (i :: p) > 0 then ({ s with file := [] }, false)
    else
      let (s, a) := s.postVisit e visit
      let s := { s with prev := if s.prev = i :: p then p else s.prev }
      if a = .stop then ((State.gcLoop e p s false false).1, true)
      else State.gcLoop e p s parents parents

/-- The callback for a directory that could not be read, src/bftw.c:1864-1872. -/
def State.errVisit (e : Env) (s : State) (error : Bool) : State × Action := if error then s.callBack e none .err else (s, .prune)

/-- `bftw_gc()`, src/bftw.c:1852-1911.  `error`: is there an error to be reported? -/
def State.gc (e : Env) (s : State) (error self parents : Bool) : State × Bool :=
  let (s, a) := s.errVisit e error
  if a = .stop then ((State.gcLoop e s.file s false false).1, true)
  else State.gcLoop e s.file s self parents

/-- `bftw_flush()`, src/bftw.c:1952-1965, without the asynchronous part. -/
def State.flush (e : Env) (s : State) : State :=
  { s with
    fileq := (if e.sort then { s.fileq with buffer := listSort e.le e.name s.fileq.buffer } else s.fileq).flush
    dirq := s.dirq.flush }

/-- `bftw_visit()`, src/bftw.c:2015-2064, of entry `j` of the current directory, or of root `j`.
`buffered`: the result of `bftw_buffer_file()`.  The result tells whether to stop. -/
def State.visitName (e : Env) (s : State) (j : Nat) (buffered : Bool) : State × Bool :=
  if buffered then
    let s := s.new j
    ({ s with fileq := s.fileq.push (j :: s.file) }, false)
  else
    let (s, a) := s.callBack e (some j) .pre
    match a with
    | .cont =>
      let s := s.new j
      ({ s.need (e.isDir (j :: s.file)) with dirq := s.dirq.push (j :: s.file) }, false)
    | .prune => (s, false)
    | .stop => (s, true)

/-- `bftw_visit()`, src/bftw.c:2015-2064, of the current file. -/
def State.visitFile (e : Env) (s : State) : State × Bool :=
  let f := s.file
  let (s, a) := s.callBack e none .pre
  match a with
  | .cont => ({ s.need (e.isDir f) with file := [], dirq := s.dirq.push f }, false)
  | .prune => s.gc e false false true
  | .stop => ((s.gc e false false false).1, true)

/-- What to do after some function returned. -/
def State.go (x : State × Bool) (pc : Pc) : State := { x.1 with pc := if x.2 then .stopped else pc }

/-- The same, with `bftw_flush()` if it did not fail, src/bftw.c:1968-1975, :2132-2136. -/
def State.goFlush (e : Env) (x : State × Bool) : State :=
  if x.2 then { x.1 with pc := .stopped } else { x.1.flush e with pc := .top }

/-- What `bftw_buffer_file()`, src/bftw.c:1989-2012, may return for a file that is not buffered
yet. -/
def Env.mayBuffer (e : Env) (b : Bool) : Prop := (e.buffering = true → b = true) ∧ (e.buffering = false → e.nthreads = 0 → b = false)

/-- Does `bftw_pop_dir()` prefer files, src/bftw.c:1396-1406? -/
def State.prefersFiles (e : Env) (s : State) : Bool :=
  if e.sort then e.strategy = .bfs && !s.fileq.ready.isEmpty else s.dirq.ready.isEmpty && !s.fileq.ready.isEmpty

/-- One step. -/
inductive Step (e : Env) (s : State) : State → Prop
  /-- `bftw_stat_files()`, src/bftw.c:1504-1526: request information about a file -/
  | stat (f : Pos) : e.nthreads > 0 → s.fileq.next = some f → Step e s { s.need (s.fileq.canDetach f) with fileq := s.fileq.detach f true }
  /-- a file needs none, src/bftw.c:1511-1514, :489-492 -/
  | skip (f : Pos) : s.fileq.next = some f → Step e s { s.need (s.fileq.canDetach f) with fileq := (s.fileq.detach f false).attach f }
  /-- `bftw_ioq_opendirs()`, src/bftw.c:1338-1351 -/
  | opendir (f : Pos) : e.nthreads > 0 → s.dirq.next = some f → Step e s { s.need (s.dirq.canDetach f) with dirq := s.dirq.detach f true }
  /-- `bftw_ioq_pop()`, src/bftw.c:1004-1063 -/
  | statDone (f : Pos) : f ∈ s.fileq.service → Step e s { s with fileq := s.fileq.attach f }
  /-- `bftw_ioq_pop()`, src/bftw.c:1004-1063 -/
  | opendirDone (f : Pos) : f ∈ s.dirq.service → Step e s { s with dirq := s.dirq.attach f }
  /-- src/bftw.c:2107-2111 -/
  | root (i : Nat) (b : Bool) : s.pc = .roots i → i < e.roots → e.mayBuffer b → Step e s (State.go (s.visitName e i b) (.roots (i + 1)))
  /-- src/bftw.c:2112 -/
  | rooted (i : Nat) : s.pc = .roots i → ¬ i < e.roots → Step e s { s.flush e with pc := .top }
  /-- src/bftw.c:1394-1406 -/
  | choose : s.pc = .top → Step e s { s.need (s.file = []) with pc := if s.prefersFiles e then .popFile else .popDir }
  /-- nothing in the queue, src/bftw.c:1362-1364 -/
  | noDir : s.pc = .popDir → s.dirq.size = 0 → Step e s { s with pc := .popFile }
  /-- `bftw_pop()`, src/bftw.c:1361-1390 -/
  | popDir : s.pc = .popDir → s.dirq.size ≠ 0 → s.dirq.canPop = true →
      Step e s (match s.dirq.pop with
        | (some f, q) => { s.need s.dirq.buffer.isEmpty with dirq := q, file := f, pc := .dir }
        | (none, q) => { s.need s.dirq.buffer.isEmpty with dirq := q, pc := .popFile })
  /-- `bftw_opendir()`, src/bftw.c:1613-1640, after waiting for it in `bftw_pop()`, :1385-1387;
  `path`: if it is not open yet, its path is needed -/
  | open_ (path : Bool) : s.pc = .dir → s.file ∉ s.dirq.service → Step e s { (if path then s.buildPath e none else s) with pc := .read 0 }
  /-- src/bftw.c:2119-2123 -/
  | entry (k : Nat) (b : Bool) : s.pc = .read k → k < e.entries s.file → e.mayBuffer b → Step e s (State.go (s.visitName e k b) (.read (k + 1)))
  /-- `bftw_closedir()`, src/bftw.c:1968-1975 -/
  | close (k : Nat) : s.pc = .read k → ¬ k < e.entries s.file →
      Step e s (State.goFlush e (s.gc e (e.broken s.file) true true))
  /-- nothing in the queue, src/bftw.c:1362-1364 -/
  | noFile : s.pc = .popFile → s.fileq.size = 0 → Step e s { s with pc := .done }
  /-- `bftw_pop()`, src/bftw.c:1361-1390 -/
  | popFile : s.pc = .popFile → s.fileq.size ≠ 0 → s.fileq.canPop = true →
      Step e s (match s.fileq.pop with
        | (some f, q) => { s.need s.fileq.buffer.isEmpty with fileq := q, file := f, pc := .file }
        | (none, q) => { s.need s.fileq.buffer.isEmpty with fileq := q, pc := .done })
  /-- src/bftw.c:2132-2138, after waiting for it in `bftw_pop()`, :1385-1387 -/
  | visit : s.pc = .file → s.file ∉ s.fileq.service → Step e s (State.goFlush e (s.visitFile e))

/-- Everything that can happen. -/
inductive Reach (e : Env) : State → Prop
  | init : Reach e (State.init e)
  | step {s s' : State} : Reach e s → Step e s s' → Reach e s'
  /-- some memory could not be allocated -/
  | fail {s : State} : Reach e s → s.pc ≠ .done → s.pc ≠ .stopped → Reach e { s with pc := .stopped }

end Verif.Bftw
