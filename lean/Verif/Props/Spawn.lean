import Verif.Lemmas.Spawn
/-!
# Starting processes: C48, C67 and C68
-/
namespace Verif.Props
open Verif Verif.Spawn Verif.Spec.Spawn

/-! ## Witnesses -/

open Classical in
/-- Some free descriptor. -/
noncomputable def anyFree (t : Fds) : Option Int :=
  if h : ∃ n : Nat, t n = none then some (Int.ofNat (choose h)) else none

/-- A system where `/a/x`, `./x` and `./s` can be executed in directory 7, and `/b/x` anywhere. File 70 is directory 7. -/
noncomputable def spawnWorld : World where
  faccessat d p _ :=
    if p ∈ [[47, 98, 47, 120], [47, 97, 47, 120]] then none
    else if d = 7 ∧ p ∈ [[46, 47, 120], [46, 47, 115]] then none
    else some "ENOENT"
  openFile _ _ _ _ := .ok 5
  dirOf f := if f = 70 then .ok 7 else .error "ENOTDIR"
  pick t := if t 100 = none then some 100 else anyFree t
  setrlimit _ _ := none
  env := some [47, 98, 58, 47, 97]
  confstr := .error "EINVAL"
  malloc := true
  pipe := .ok (4, 5)
  pipeWrite := 1000
  pipeRead := 1001
  sigfillset := none
  block := none
  unblock := none
  unblockChild := none
  fork := .ok 42
  sigreset := none
  execve _ _ := none
  written := 4

/-- A process with the standard descriptors and a directory. -/
def spawnSelf : Child where
  fds fd := if fd = 0 ∨ fd = 1 ∨ fd = 2 then some ⟨fd.toNat, false⟩ else if fd = 3 then some ⟨70, true⟩ else none
  cwd := 0
  limits _ := ⟨1024, 4096⟩

/-- The conditions of the theorems are met. -/
theorem spawnWorld_honest : Honest spawnWorld spawnSelf where
  pick t fd h := by
    change (if t 100 = none then some 100 else anyFree t) = some fd at h
    split at h
    · rename_i h'; cases h; exact ⟨by decide, h'⟩
    · unfold anyFree at h
      split at h
      · rename_i h'
        cases h
        exact ⟨Int.natCast_nonneg _, Classical.choose_spec h'⟩
      · cases h
  enough t h := by
    show (if t 100 = none then some 100 else anyFree t).isSome = true
    split
    · rfl
    · obtain ⟨n, hn⟩ := h
      unfold anyFree
      rw [dif_pos ⟨n, hn n (Int.le_refl _)⟩]; rfl
  finite := ⟨4, by
    intro fd h
    show (if _ then _ else if _ then _ else _) = _
    rw [if_neg (by omega), if_neg (by omega)]⟩
  pipe r p h := by
    cases h
    exact ⟨by decide, by decide, by decide, rfl, rfl⟩
  pipeFile fd e h := by
    change (if fd = 0 ∨ fd = 1 ∨ fd = 2 then some (⟨fd.toNat, false⟩ : Entry) else if fd = 3 then some ⟨70, true⟩ else none) = some e at h
    split at h
    · rename_i h'
      cases h
      show fd.toNat ≠ 1000
      omega
    · split at h
      · cases h; decide
      · cases h
  openFile d p fl m h := by cases h
  written := rfl
  unblock := rfl

/-- Linux. -/
def spawnLinux : Plat := ⟨true, true, true⟩

/-- A C library that does nothing. -/
def noLibc : Bool → List UInt8 → List Action → Child → Result :=
  fun _ _ _ self => ⟨.error "ENOSYS", none, self.fds, false, false⟩

/-! ## C48: finding the executable -/

/-- C48 (with `NULL` for the context, as for the pager): the result is the first entry of `PATH` under which the command can be executed, in full; if there is none, the error is `ENOENT`. -/
theorem C48_resolve (pl : Plat) (w : World) (junk : UInt8) (d : Dir) {path exe : List UInt8} (hs : CStrings path exe)
    (hx : (47 : UInt8) ∉ exe) (hp : searchPath w = .ok path) (hm : w.malloc = true) :
    spawnResolve pl w junk d exe =
      match search w path exe d with
      | .ok p => .ok p
      | .error e => .err e := by
  have he := resolve_early (pl := pl) (w := w) hs junk d (ctx := none) (by intro c hc; cases hc) hx hp hm
  have hcan : canResolveEarly path none = true := by
    unfold canResolveEarly
    cases resolveRelative path <;> rfl
  rw [hcan] at he
  simp only [if_true] at he
  unfold spawnResolve
  cases hse : search w path exe d with
  | error e => rw [hse] at he; dsimp only at he; rw [he]; rfl
  | ok p =>
    rw [hse] at he
    obtain ⟨r, hr, hre, hrd⟩ := he
    rw [hr, Verif.Alloc.ok_bind, late_done hrd, Verif.Alloc.ok_bind, hre]

example : CStrings [47, 98, 58, 47, 97] [120] ∧ (47 : UInt8) ∉ [(120 : UInt8)] ∧
    searchPath spawnWorld = .ok [47, 98, 58, 47, 97] ∧ spawnWorld.malloc = true ∧
    search spawnWorld [47, 98, 58, 47, 97] [120] 0 = .ok [47, 98, 47, 120] :=
  ⟨⟨by decide, by decide, by decide⟩, by decide, rfl, rfl, by rfl⟩

/-- C48 (a command with a slash is not searched for). -/
theorem C48_resolve_direct (pl : Plat) (w : World) (junk : UInt8) (d : Dir) {exe : List UInt8} (hx : (47 : UInt8) ∈ exe) :
    spawnResolve pl w junk d exe =
      match direct w exe d with
      | .ok p => .ok p
      | .error e => .err e := by
  have hskip : canSkipResolve exe none = true := by
    unfold canSkipResolve
    have : (strchr exe 47).isSome = true := by
      unfold strchr
      rw [List.findIdx?_isSome, List.any_eq_true]
      exact ⟨47, hx, by simp⟩
    rw [this]; rfl
  unfold spawnResolve resolveEarly direct
  dsimp only
  rw [if_pos hskip, xfaccessat_eq]
  cases obstacle w d exe <;> rfl

/-- What is expected of `posix_spawn()`: it runs the file that it is given, in the directory that the actions ask for; `posix_spawnp()` searches the `PATH`, after the actions. -/
structure HonestLibc (w : World) (path : List UInt8) (libc : Bool → List UInt8 → List Action → Child → Result) : Prop where
  plain : ∀ pl up reqs exe self p, (libc false exe (prepare pl up reqs).actions self).program = some p →
    p.path = exe ∧ (changesDir reqs = false → p.cwd = self.cwd)
  search : ∀ pl up reqs exe self p, (libc true exe (prepare pl up reqs).actions self).program = some p →
    search w path exe p.cwd = .ok p.path

/-- C48 (whatever is requested for the process, on any platform): nothing goes wrong, and if a program is started, it is the first one on the `PATH` that can be executed, as seen from the directory that it is started in. -/
theorem C48_search {pl : Plat} {w : World} {self : Child} (hh : Honest w self) (hw : Sane w)
    (libc : Bool → List UInt8 → List Action → Child → Result) (junk : UInt8) {path exe : List UInt8}
    (hl : HonestLibc w path libc) (hs : CStrings path exe)
    (hx : (47 : UInt8) ∉ exe) (hp : searchPath w = .ok path) (hm : w.malloc = true) (reqs : List Req) :
    ∃ r, spawn pl w libc junk exe (prepare pl true reqs) self = .ok r ∧
      ∀ p, r.program = some p → search w path exe p.cwd = .ok p.path := by
  obtain ⟨ha, hu⟩ := prepare_spec pl true reqs
  have he := resolve_early (pl := pl) (w := w) hs junk self.cwd (ctx := some (prepare pl true reqs))
    (by intro c hc; cases hc; exact hu) hx hp hm
  rw [canResolveEarly_eq] at he
  have hfch : (prepare pl true reqs).actions.any isFchdir = changesDir reqs := by rw [ha, any_isFchdir]
  unfold spawn
  cases hearly : (absolute path || !changesDir reqs) with
  | true =>
    rw [hearly] at he
    simp only [if_true] at he
    cases hse : search w path exe self.cwd with
    | error e =>
      rw [hse] at he
      dsimp only at he
      rw [he]
      exact ⟨_, rfl, by intro p hp; cases hp⟩
    | ok q =>
      rw [hse] at he
      obtain ⟨r, hr, hre, hrd⟩ := he
      rw [hr]
      dsimp only
      have same : ∀ d, (changesDir reqs = false → d = self.cwd) → search w path exe d = .ok q := by
        intro d hd
        rw [← hse]
        rw [Bool.or_eq_true] at hearly
        rcases hearly with h | h
        · exact search_absolute hw h _ _
        · rw [hd (by simpa using h)]
      unfold spawnImpl
      split
      · unfold posixSpawn
        rw [if_pos hrd]
        refine ⟨_, rfl, ?_⟩
        intro p hp
        obtain ⟨h1, h2⟩ := hl.plain _ _ _ _ _ _ hp
        rw [h1, hre]
        exact same _ h2
      · obtain ⟨r', h1, _, _, _, _, h2⟩ := fork_any hh (ctx := prepare pl true reqs) (total_done hrd)
        refine ⟨r', h1, ?_⟩
        intro p hp
        obtain ⟨_, _, ⟨r2, h3, h4⟩, h5⟩ := h2 p hp
        rw [late_done hrd] at h3
        cases h3
        rw [h4, hre]
        exact same _ (fun h => h5 (by rw [hfch]; exact h))
  | false =>
    rw [hearly] at he
    simp only [Bool.false_eq_true, if_false] at he
    obtain ⟨r, hr, hrr⟩ := he
    rw [hr]
    dsimp only
    unfold spawnImpl
    rcases hrr with ⟨h1, h2, h3, h4⟩ | hrr
    · rw [Option.any_some] at h2
      have : (pl.posixSpawn && usePosixSpawn pl r (prepare pl true reqs)) = true := by
        unfold usePosixSpawn
        rw [prepare_posix _ _ _ h2, h2, h1]; rfl
      rw [if_pos this]
      unfold posixSpawn
      rw [if_neg (by rw [h4]; simp), h3]
      exact ⟨_, rfl, fun p hp => hl.search _ _ _ _ _ _ hp⟩
    · split
      · unfold posixSpawn
        rw [if_neg (by rw [hrr.notDone]; simp), hrr.hexe]
        exact ⟨_, rfl, fun p hp => hl.search _ _ _ _ _ _ hp⟩
      · obtain ⟨r', h1, _, _, _, _, h2⟩ := fork_any hh (ctx := prepare pl true reqs) (total_ready hs hrr)
        refine ⟨r', h1, ?_⟩
        intro p hp
        obtain ⟨_, _, ⟨r2, h3, h4⟩, _⟩ := h2 p hp
        have := resolveLate_ready (w := w) hs hrr p.cwd
        cases hse : search w path exe p.cwd with
        | error e => rw [hse] at this; dsimp only at this; rw [this] at h3; cases h3
        | ok q =>
          rw [hse] at this
          obtain ⟨r3, h6, h7, _⟩ := this
          rw [h6] at h3; cases h3
          rw [h4, h7]

example : HonestLibc spawnWorld [47, 98, 58, 47, 97] noLibc :=
  ⟨(by intro _ _ _ _ _ _ h; cases h), (by intro _ _ _ _ _ _ h; cases h)⟩

/-- A decidable description of a result. -/
def resultOk (r : Out Result) : Option (List UInt8 × Dir × List (Int × Nat)) :=
  match r with
  | .ok r => r.program.map fun p => (p.path, p.cwd, (List.range 200).filterMap fun (n : Nat) => (p.fds n).map fun e => ((n : Int), e.file))
  | _ => none

/-- The error of a result. -/
def resultErr (r : Out Result) : Option String :=
  match r with
  | .ok r =>
    match r.ret with
    | .error e => some e
    | .ok _ => none
  | _ => none

theorem spawnWorld_sane : Sane spawnWorld := by
  intro d d' s b
  unfold spawnWorld
  dsimp only
  split
  · rfl
  · simp

/-- With a relative entry, the search happens in the new directory. -/
example : resultOk (spawn spawnLinux { spawnWorld with env := some [47, 99, 58] } noLibc 0 [120]
    (prepare spawnLinux true [.fchdir 3, .setrlimit 7 ⟨1, 2⟩]) spawnSelf) =
      some ([46, 47, 120], 7, [(0, 0), (1, 1), (2, 2)]) := by decide +kernel

/-! ## C67: failures are reported -/

/-- C67 (partial: `fork()` works, and no files are opened; see `C67_fork_counterexample` and `C68_leak_counterexample`): if the program can be started, it is, as requested, and the result is the ID of its process. If not, then the result says what went wrong first, and there is no program. Either way, the process has the same descriptors and signal mask as before, and there is no child left to wait for that it does not know. -/
theorem C67_outcome_partial {pl : Plat} {w : World} {self : Child} (hh : Honest w self) (hw : Sane w)
    (libc : Bool → List UInt8 → List Action → Child → Result) (junk : UInt8) {path exe : List UInt8} (hs : CStrings path exe)
    (hx : (47 : UInt8) ∉ exe) (hp : searchPath w = .ok path) (hm : w.malloc = true) {reqs : List Req} {pid : Nat}
    (hfork : w.fork = .ok pid) (hn : NoOpen reqs) (hposix : (prepare pl true reqs).usePosix = false) :
    spawn pl w libc junk exe (prepare pl true reqs) self =
      match start w (absolute path || !changesDir reqs) (search w path exe) reqs self with
      | .ok p => .ok ⟨.ok pid, some p, self.fds, false, false⟩
      | .error e => .ok ⟨.error e, none, self.fds, false, false⟩ := by
  have h := spawn_spec hh hw libc junk hs hx hp hm (exact := true) hfork (fun _ => hn) hposix
  cases hst : start w (absolute path || !changesDir reqs) (search w path exe) reqs self with
  | error e => rw [hst] at h; exact h rfl
  | ok p =>
    rw [hst] at h
    obtain ⟨p', h1, _, _, _, _, _, h2⟩ := h
    rw [h1, h2 rfl]

example : Honest spawnWorld spawnSelf ∧ Sane spawnWorld ∧ spawnWorld.fork = .ok 42 ∧
    NoOpen [.fchdir 3, .setrlimit 7 ⟨1, 2⟩] ∧ (prepare spawnLinux true [.fchdir 3, .setrlimit 7 ⟨1, 2⟩]).usePosix = false :=
  ⟨spawnWorld_honest, spawnWorld_sane, rfl, by intro q hq fd p fl m h; subst h; simp at hq, rfl⟩

/-- C67 (partial, for a command that is not searched for: the directory must not matter; see `C68_direct_counterexample`). -/
theorem C67_direct_partial {pl : Plat} {w : World} {self : Child} (hh : Honest w self) (hw : Sane w)
    (libc : Bool → List UInt8 → List Action → Child → Result) (junk : UInt8) {exe : List UInt8} {up : Bool}
    (hx : up = false ∨ (47 : UInt8) ∈ exe) {reqs : List Req} {pid : Nat}
    (hfork : w.fork = .ok pid) (hn : NoOpen reqs) (hposix : (prepare pl up reqs).usePosix = false)
    (hd : changesDir reqs = false ∨ exe.head? = some 47) :
    spawn pl w libc junk exe (prepare pl up reqs) self =
      match start w true (direct w exe) reqs self with
      | .ok p => .ok ⟨.ok pid, some p, self.fds, false, false⟩
      | .error e => .ok ⟨.error e, none, self.fds, false, false⟩ := by
  have h := direct_spec (pl := pl) hh libc junk hx (exact := true) hfork (fun _ => hn) hposix (by
    intro c hc
    rcases hd with h | h
    · rw [applyAll_cwd reqs hc h]
    · unfold direct
      rw [obstacle_absolute hw c.cwd self.cwd h])
  cases hst : start w true (direct w exe) reqs self with
  | error e => rw [hst] at h; exact h rfl
  | ok p =>
    rw [hst] at h
    obtain ⟨p', h1, _, _, _, _, _, h2⟩ := h
    rw [h1, h2 rfl]

/-- C67 (whatever is requested, and whatever fails): if `fork()` is used, there is a program exactly if the result is the ID of a process, and the descriptors and the signal mask are the same as before. -/
theorem C67_truthful {w : World} {self : Child} (hh : Honest w self) (ctx : Ctx) {path exe : List UInt8} {res : Resolver}
    (hs : CStrings path exe) (hr : res.done = true ∨ Ready path exe res) :
    ∃ r, forkSpawn w res ctx self = .ok r ∧ r.fds = self.fds ∧ r.blocked = false ∧ r.zombie = false ∧
      (r.program.isSome ↔ ∃ pid, r.ret = .ok pid) := by
  have ht : Total w res := by
    rcases hr with h | h
    · exact total_done h
    · exact total_ready hs h
  obtain ⟨r, h1, h2, h3, h4, h5, _⟩ := fork_any hh (ctx := ctx) ht
  exact ⟨r, h1, h2, h3, h4, h5⟩

/-- A system where no process can be created. -/
noncomputable def noFork : World := { spawnWorld with fork := .error "EAGAIN" }

/-- C67 is false if `fork()` fails: the number of the error is lost, because `pthread_sigmask()` stores 0 in `errno` afterwards. -/
theorem C67_fork_counterexample :
    start noFork true (search noFork [47, 98, 58, 47, 97] [120]) [.setrlimit 7 ⟨1, 2⟩] spawnSelf = .error "EAGAIN" ∧
    resultErr (spawn spawnLinux noFork noLibc 0 [120] (prepare spawnLinux true [.setrlimit 7 ⟨1, 2⟩]) spawnSelf) = some "0" := by
  refine ⟨by rfl, by decide +kernel⟩

/-! ## C68: the program gets what was requested -/

/-- C68 (partial: whether the requests fail is not compared; additional descriptors are allowed, see `C68_leak_counterexample`): with files that are opened for the program, it gets all that was requested. -/
theorem C68_open_partial {pl : Plat} {w : World} {self : Child} (hh : Honest w self) (hw : Sane w)
    (libc : Bool → List UInt8 → List Action → Child → Result) (junk : UInt8) {path exe : List UInt8} (hs : CStrings path exe)
    (hx : (47 : UInt8) ∉ exe) (hp : searchPath w = .ok path) (hm : w.malloc = true) {reqs : List Req} {pid : Nat}
    (hfork : w.fork = .ok pid) (hposix : (prepare pl true reqs).usePosix = false) {p : Program}
    (hst : start w (absolute path || !changesDir reqs) (search w path exe) reqs self = .ok p) :
    ∃ p', spawn pl w libc junk exe (prepare pl true reqs) self = .ok ⟨.ok pid, some p', self.fds, false, false⟩ ∧
      p'.path = p.path ∧ p'.cwd = p.cwd ∧ p'.limits = p.limits ∧ p'.blocked = false ∧
      ∀ fd e, p.fds fd = some e → p'.fds fd = some e := by
  have h := spawn_spec hh hw libc junk hs hx hp hm (exact := false) hfork (fun h => by cases h) hposix
  rw [hst] at h
  obtain ⟨p', h1, h2, h3, h4, h5, h6, _⟩ := h
  refine ⟨p', h1, h2, h3, h4, ?_, h6⟩
  rw [h5]
  unfold start become at hst
  simp only [attempt] at hst
  repeat (split at hst <;> try (cases hst))
  rfl

/-- C68 (whatever is requested): a program never inherits the pipe that is used to report errors, so that bfs doesn't wait for it to end. -/
theorem C68_no_pipe {w : World} {self : Child} (hh : Honest w self) (ctx : Ctx) {path exe : List UInt8} {res : Resolver}
    (hs : CStrings path exe) (hr : res.done = true ∨ Ready path exe res) :
    ∃ r, forkSpawn w res ctx self = .ok r ∧
      ∀ p, r.program = some p → ∀ fd e, p.fds fd = some e → e.file ≠ w.pipeWrite := by
  have ht : Total w res := by
    rcases hr with h | h
    · exact total_done h
    · exact total_ready hs h
  obtain ⟨r, h1, _, _, _, _, h2⟩ := fork_any hh (ctx := ctx) ht
  exact ⟨r, h1, fun p hp => (h2 p hp).1⟩

/-- The descriptors of a requested program. -/
def wanted (r : Except String Program) : Option (List UInt8 × Dir × List (Int × Nat)) :=
  match r with
  | .ok p => some (p.path, p.cwd, (List.range 200).filterMap fun (n : Nat) => (p.fds n).map fun e => ((n : Int), e.file))
  | .error _ => none

/-- A request that involves the descriptor of the pipe: it is moved out of the way. -/
example : wanted (start spawnWorld true (search spawnWorld [47, 98, 58, 47, 97] [120])
      [.setrlimit 7 ⟨1, 2⟩, .dup2 1 5, .close 0] spawnSelf) = some ([47, 98, 47, 120], 0, [(1, 1), (2, 2), (5, 1)]) ∧
    resultOk (spawn spawnLinux spawnWorld noLibc 0 [120]
      (prepare spawnLinux true [.setrlimit 7 ⟨1, 2⟩, .dup2 1 5, .close 0]) spawnSelf) =
        some ([47, 98, 47, 120], 0, [(1, 1), (2, 2), (5, 1)]) := by decide +kernel

/-- C68 is false for files that are opened: the descriptor that `open()` returned is not closed after it was duplicated, so the program inherits two. -/
theorem C68_leak_counterexample :
    wanted (start spawnWorld true (search spawnWorld [47, 98, 58, 47, 97] [120])
      [.setrlimit 7 ⟨1, 2⟩, .open 10 [102] 0 0] spawnSelf) = some ([47, 98, 47, 120], 0, [(0, 0), (1, 1), (2, 2), (10, 5)]) ∧
    resultOk (spawn spawnLinux spawnWorld noLibc 0 [120]
      (prepare spawnLinux true [.setrlimit 7 ⟨1, 2⟩, .open 10 [102] 0 0]) spawnSelf) =
        some ([47, 98, 47, 120], 0, [(0, 0), (1, 1), (2, 2), (10, 5), (100, 5)]) := by decide +kernel

/-- C68 is false for a relative command with a slash that is to be run in another directory (such as `-execdir ./s`): although it can be executed there, the check that is done in the parent, in its own directory, fails. -/
theorem C68_direct_counterexample :
    direct spawnWorld [46, 47, 115] 7 = .ok [46, 47, 115] ∧
    wanted (start spawnWorld false (direct spawnWorld [46, 47, 115]) [.fchdir 3, .setrlimit 7 ⟨1, 2⟩] spawnSelf) =
      some ([46, 47, 115], 7, [(0, 0), (1, 1), (2, 2)]) ∧
    resultErr (spawn spawnLinux spawnWorld noLibc 0 [46, 47, 115]
      (prepare spawnLinux true [.fchdir 3, .setrlimit 7 ⟨1, 2⟩]) spawnSelf) = some "ENOENT" := by
  refine ⟨by rfl, by decide +kernel, by decide +kernel⟩

/-! ## Bounded copies -/

/-- **C48.** Copying a string into the part `M` of a buffer never writes outside of it, leaves a terminated string there, and cuts the string only if there is no room. -/
theorem C48_copy (A M D : List UInt8) (src : Str) (n : Nat) (hM : M ≠ []) (hs : (0 : UInt8) ∉ src) :
    ∃ M' pos, xstpencpy (A ++ M ++ D) A.length (A.length + M.length) src n = .ok (A ++ M' ++ D, pos) ∧
      M'.length = M.length ∧ (0 : UInt8) ∈ M' ∧
      M'.takeWhile (fun c => decide (c ≠ 0)) = src.take (min n (M.length - 1)) ∧
      pos = A.length + min (min src.length n) M.length := by
  have hpos : 0 < M.length := by cases M with
    | nil => exact absurd rfl hM
    | cons => simp
  unfold xstpencpy
  rw [if_neg (by omega)]
  dsimp only
  have hsp : A.length + M.length - A.length = M.length := by omega
  rw [hsp]
  have hk : min src.length (if M.length < n then M.length else n) = min (min src.length n) M.length := by
    split <;> omega
  rw [hk]
  generalize hkk : min (min src.length n) M.length = k
  have hl : (src.take k).length = k := by simp; omega
  have hw := write_mid A M D (i := 0) (s := src.take k) (by rw [hl]; omega)
  rw [Nat.add_zero] at hw
  rw [hw, Alloc.ok_bind, hl, List.take_zero, List.nil_append, Nat.zero_add]
  have hl1 : (src.take k ++ M.drop k).length = M.length := by simp; omega
  have hno : ∀ j, ∀ x ∈ src.take j, decide (x ≠ 0) = true := by
    intro j x hx
    have := List.mem_of_mem_take hx
    simp only [decide_eq_true_eq]
    intro h0; subst h0; exact hs this
  by_cases hc : k < M.length
  · rw [if_pos hc, write_mid _ _ _ (by rw [hl1]; simp; omega), Alloc.ok_bind]
    refine ⟨_, _, rfl, ?_, by simp, ?_, rfl⟩
    · simp; omega
    · rw [List.take_append_of_le_length (by omega), List.take_of_length_le (by omega), List.append_assoc,
        List.takeWhile_append_of_pos (hno k)]
      simp only [List.singleton_append, List.takeWhile_cons]
      simp only [ne_eq, not_true_eq_false, decide_false, Bool.false_eq_true, if_false, List.append_nil]
      by_cases hle : src.length ≤ k
      · rw [List.take_of_length_le hle, List.take_of_length_le (by omega)]
      · congr 1; omega
  · have hkM : k = M.length := by omega
    rw [if_neg hc, if_neg (by omega)]
    have hi : A.length + M.length - 1 = A.length + (M.length - 1) := by omega
    rw [hi, write_mid _ _ _ (by rw [hl1]; simp; omega), Alloc.ok_bind]
    refine ⟨_, _, rfl, ?_, by simp, ?_, by rw [hkM]⟩
    · simp; omega
    · rw [List.take_append_of_le_length (by omega), List.take_take, List.append_assoc,
        List.takeWhile_append_of_pos (hno _)]
      simp only [List.singleton_append, List.takeWhile_cons]
      simp only [ne_eq, not_true_eq_false, decide_false, Bool.false_eq_true, if_false, List.append_nil]
      congr 1; omega

/-- Copying `abc` into a buffer of three bytes, with other bytes around it. -/
example : xstpencpy ([1] ++ [9, 9, 9] ++ [2]) 1 4 [97, 98, 99] 7 = .ok ([1] ++ [97, 98, 0] ++ [2], 4) := rfl

end Verif.Props
