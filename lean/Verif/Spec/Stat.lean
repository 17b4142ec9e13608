import Verif.Model.Stat
/-!
# Specification of `stat()` requests

A visit to a file is a sequence of requests. Each request happens in some state of the file system.
-/
namespace Verif.Spec.Stat
open Verif Verif.Stat

/-- A file, as the kernel sees it: the results of `stat()` and `lstat()`. -/
structure File where
  stat : Except Nat Sb
  lstat : Except Nat Sb

/-- How the two results are related: they are the same except for links, and `stat()` never describes a link. -/
structure File.Consistent (file : File) : Prop where
  missing : ∀ e, file.lstat = .error e → file.stat = .error e
  plain : ∀ sb, file.lstat = .ok sb → sb.type ≠ .lnk → file.stat = .ok sb
  target : ∀ sb, file.stat = .ok sb → sb.type ≠ .lnk
  statErrno : ∀ e, file.stat = .error e → e ≠ 0
  lstatErrno : ∀ e, file.lstat = .error e → e ≠ 0
  statType : ∀ sb, file.stat = .ok sb → sb.type ≠ .error ∧ sb.type ≠ .unknown
  lstatType : ∀ sb, file.lstat = .ok sb → sb.type ≠ .error ∧ sb.type ≠ .unknown

/-- The result of following a link if that is possible: the link itself if its target does not exist. -/
def File.tryStat (file : File) : Except Nat Sb :=
  match file.stat with
  | .ok sb => .ok sb
  | .error e => if e = 2 ∨ e = 20 then file.lstat else .error e

/-- The right answer to a request. -/
def File.answer (file : File) (flags : Flags) : Except Nat Sb :=
  if flags.nofollow then file.lstat
  else if flags.tryfollow then file.tryStat
  else file.stat

/-- On BSD, a file that does not exist is a whiteout if its directory says so. -/
def File.whiteout (file : File) (wht : Bool) (type : FType) : File :=
  let fix : Except Nat Sb → Except Nat Sb := fun r =>
    match r with
    | .ok sb => .ok sb
    | .error e => if wht = true ∧ type = .wht ∧ e = 2 then .ok ⟨.wht, 0, 0, 0⟩ else .error e
  ⟨fix file.stat, fix file.lstat⟩

/-- The requests. -/
inductive Op where
  | stat (flags : Flags)
  | cached (flags : Flags)
  | type (flags : Flags)
  | xtype (types : FType → Bool)
  | letter
  | mount (parent : Option Nat)

/-- The results. -/
inductive Answer where
  | stat (r : Except Nat Nat)
  | cached (p : Option Nat)
  | type (t : FType)
  | test (r : Except Nat Bool)
  | letter (l : Letter)
  | mount (b : Bool)

/-- A request, the states of the file system during its two system calls, and the value of `errno` before it. -/
structure Step where
  op : Op
  now : Now
  later : Now
  errno : Nat

/-- What the program does for a request. -/
def step (wht : Bool) (f : Ftw) (s : Step) : Out (Answer × Ftw) :=
  match s.op with
  | .stat flags => (bftwStat wht s.now s.later f flags).bind fun r => .ok (.stat r.1, r.2)
  | .cached flags => .ok (.cached (cachedStat f flags), f)
  | .type flags => (bftwType wht s.now s.later f flags).bind fun r => .ok (.type r.1.1, r.2)
  | .xtype types => (evalXtype wht s.now s.later f types s.errno).bind fun r => .ok (.test r.1, r.2)
  | .letter => (printfY wht s.now s.later f s.errno).bind fun r => .ok (.letter r.1, r.2)
  | .mount p => (isMount wht s.now s.later f p).bind fun r => .ok (.mount r.1, r.2)

/-- What it does for many. -/
def run (wht : Bool) : Ftw → List Step → Out (List Answer × Ftw)
  | f, [] => .ok ([], f)
  | f, s :: ss => (step wht f s).bind fun r => (run wht r.2 ss).bind fun q => .ok (r.1 :: q.1, q.2)

/-- The buffers at the start of a visit: `s` and `l` belong to the visit, and another thread may have filled a third one. -/
def start (s l : Nat) (flags : Flags) (mem : Mem) : Option (Nat × Except Nat Sb) → Out (Bufs × Mem)
  | none => .ok (init (some s) (some l), mem)
  | some (a, res) => (ioqStat mem flags a res).bind fun r => .ok (fill (init (some s) (some l)) r.1, r.2.1)

/-- A system call that fails sets `errno`. -/
def Now.Fails (now : Now) : Prop := ∀ flags e, now.stat flags = .error e → e ≠ 0

/-- The file does not change during a request. -/
def Sees (file : File) (s : Step) : Prop :=
  s.now.stat = file.answer ∧ s.later.stat = file.answer

/-- Both errors mean that the file does not exist, or they are the same. -/
def SameErr (e e' : Nat) : Prop := e = e' ∨ ((e = 2 ∨ e = 20) ∧ (e' = 2 ∨ e' = 20))

/-- A pointer leads to what the answer should be, or the errors agree. -/
def Agree (mem : Mem) (r : Except Nat Nat) (ideal : Except Nat Sb) : Prop :=
  match ideal with
  | .ok sb => ∃ a, r = .ok a ∧ mem a = some sb
  | .error e => ∃ e', r = .error e' ∧ SameErr e' e

/-- The result is right for this file, given how the visit treats links and the type that the directory gave. -/
def Right (file : File) (sf : Flags) (entry : FType) (errno : Nat) (mem : Mem) : Op → Answer → Prop
  | .stat flags, .stat r => Agree mem r (file.answer flags)
  | .cached flags, .cached p => ∀ a, p = some a → ∃ sb, mem a = some sb ∧ file.answer flags = .ok sb
  | .type flags, .type t =>
    match file.answer flags with
    | .ok sb => t = sb.type
    | .error _ => t = .error ∨ (∃ e, file.lstat = .error e) ∧ t = entry
  | .xtype types, .test r =>
    match (if sf.nofollow then file.tryStat else file.lstat) with
    | .ok sb => r = .ok (types sb.type)
    | .error e =>
      (if sf.nofollow = true ∧ e = 40 then r = .ok (types .lnk) else ∃ e', r = .error e' ∧ SameErr e' e)
        ∨ (∃ e, file.lstat = .error e) ∧ r = .ok (types entry)
  | .letter, .letter x =>
    match file.stat with
    | .ok sb => x = .type sb.type
    | .error e =>
      (if sf.nofollow = true then x = (if e = 40 then .loop else if e = 2 ∨ e = 20 then .none else .error e)
        else x = (if errno = 40 then .loop else if errno = 2 ∨ errno = 20 then .none else .error errno))
        ∨ (∃ e, file.lstat = .error e) ∧ x = .type entry
  | .mount p, .mount b =>
    match p with
    | none => b = false
    | some dev =>
      match file.answer sf with
      | .ok sb => b = decide (sb.dev ≠ dev)
      | .error _ => b = false
  | _, _ => False

/-- How a list of `-P`, `-H` and `-L` treats the links at some depth: the last one counts. -/
def follows (opts : List Opt) (depth : Nat) : Prop :=
  match opts.getLast? with
  | some .L => True
  | some .H => depth = 0
  | _ => False

/-- The pointers that an answer contains. -/
def ptr : Answer → Option Nat
  | .stat (.ok a) => some a
  | .cached (some a) => some a
  | _ => none

/-- Every system call in a history sets `errno` if it fails. -/
def AllFail (ss : List Step) : Prop := ∀ st ∈ ss, Now.Fails st.now ∧ Now.Fails st.later

/-- A buffer of another thread is fit to start with. -/
def PreOk (s l : Nat) (sf : Flags) (pre : Option (Nat × Except Nat Sb)) : Prop :=
  (sf = NOFOLLOW ∨ sf = TRYFOLLOW) ∧ ∀ a r, pre = some (a, r) → a ≠ s ∧ a ≠ l ∧ ∀ e, r = .error e → e ≠ 0

/-- The flags that callers use. -/
def Valid (flags : Flags) : Prop := flags = FOLLOW ∨ flags = NOFOLLOW ∨ flags = TRYFOLLOW

/-- The flags in a request are ones that callers use. -/
def ValidOp : Op → Prop
  | .stat flags => Valid flags
  | .cached flags => Valid flags
  | .type flags => Valid flags
  | _ => True

/-- What another thread found is right. -/
def PreRight (file : File) (wht : Bool) (type : FType) (sf : Flags) (pre : Option (Nat × Except Nat Sb)) : Prop :=
  ∀ a r, pre = some (a, r) → r = file.answer sf ∧ ¬ (wht = true ∧ type = .wht)

/-- The type in the directory is right if there is one. -/
def EntryOk (file : File) (type : FType) : Prop :=
  type ≠ .error ∧ ∀ sb, file.lstat = .ok sb → type = .unknown ∨ type = sb.type

/-- A visit: what `bftw()` knows about a file when it gets there, and where its buffers are. `pre` is what another thread has found. -/
structure Visit where
  wht : Bool
  w : WFlags
  depth : Nat
  type : FType
  mount : Bool
  ancestors : List (Nat × Nat)
  s : Nat
  l : Nat
  mem : Mem
  pre : Option (Nat × Except Nat Sb)

/-- How the visit treats links. -/
def Visit.flags (v : Visit) : Flags := statFlags v.w v.depth

/-- The program's preparation for the callback. -/
def Visit.begin (v : Visit) (now later : Now) : Out (Ftw × Nat × Option Nat) :=
  (start v.s v.l v.flags v.mem v.pre).bind fun r => initFtwbuf v.wht now later v.w v.depth v.type v.mount v.ancestors r.1 r.2

/-- The buffers are different, and calls that failed have set `errno`. -/
def Visit.Ok (v : Visit) : Prop := v.s ≠ v.l ∧ PreOk v.s v.l v.flags v.pre

/-- What is known already is right. -/
def Visit.Knows (v : Visit) (file : File) : Prop :=
  EntryOk file v.type ∧ PreRight file v.wht v.type v.flags v.pre

end Verif.Spec.Stat
