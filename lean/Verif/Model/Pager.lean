import Verif.Model.Spawn
import Verif.Model.Path
/-!
# Showing the help through a pager (src/parse.c)

The table of descriptors is that of `Verif.Spawn`. Next to it there is a list of the other things that have to be given back. Giving back something that is not held is undefined.
-/
namespace Verif.Pager
open Verif Verif.Spawn

/-- What `launch_pager()` holds besides descriptors: the string `exe`, the `FILE` while it is not part of a `CFILE`, the `CFILE`, and the spawn context. -/
inductive Obj where
  | exe
  | file
  | ret
  | ctx
  deriving DecidableEq, Repr

/-- The descriptors of the process, and what it holds. -/
structure St where
  fds : Fds
  objs : List Obj

/-- Get an object. -/
def hold (o : Obj) (s : St) : St := { s with objs := o :: s.objs }

/-- Give an object back, for `free()` and `bfs_spawn_destroy()`. -/
def drop (o : Obj) (s : St) : Out St :=
  if o ∈ s.objs then .ok { s with objs := s.objs.erase o } else .ub

/-- `xclose()`, src/bfstd.c:761-767. -/
def closeFd (fd : Int) (s : St) : Out St :=
  (xclose s.fds fd).bind fun t => .ok { s with fds := t }

/-- `fclose()` of the write end, for which `file` is held. -/
def fcloseFile (fd : Int) (s : St) : Out St := (drop .file s).bind (closeFd fd)

/-- `cfclose()`, src/color.c:755-769, of a stream for which `close` is set. -/
def cfclose (fd : Int) (s : St) : Out St := (closeFd fd s).bind (drop .ret)

/-- What the system and the allocator answer, apart from what `Spawn.World` covers. -/
structure Luck where
  /-- `getenv("PAGER")`. -/
  pager : Option Str
  /-- The descriptors that `pipe()` picks, and the files that they are. -/
  pipe : Option (Int × Int)
  readEnd : File
  writeEnd : File
  fdopen : Bool
  cfwrap : Bool
  init : Bool
  /-- `bfs_spawn_addclose()`, `bfs_spawn_adddup2()` and `bfs_spawn_addclose()`. -/
  addWrite : Bool
  addStdin : Bool
  addRead : Bool

/-- What `launch_pager()` returns: the descriptor of the new stream (or nothing for `cout`), whether the stream has the colors of `cout`, the process ID (or nothing for -1), the program that was started and its arguments, and what the process holds. -/
structure Launched where
  out : Option Int
  colors : Bool
  pid : Option Nat
  program : Option Program
  argv : List Str
  st : St

/-- The label `fail` of `launch_pager()`, src/parse.c:2687-2688. -/
def fail (s : St) : Out Launched := .ok ⟨none, true, none, none, [], s⟩

/-- The label `fail_exe`, src/parse.c:2685-2686. -/
def failExe (s : St) : Out Launched := (drop .exe s).bind fail

/-- `if (fd >= 0) { xclose(fd); }`, src/parse.c:2679-2684. -/
def closeIf (fd : Int) (s : St) : Out St := if fd ≥ 0 then closeFd fd s else .ok s

/-- The label `fail_pipe`, src/parse.c:2678-2684. -/
def failPipe (r w : Int) (s : St) : Out Launched :=
  (closeIf w s).bind fun s => (closeIf r s).bind failExe

/-- `if (file) { fclose(file); }`, src/parse.c:2675-2677: `file` is the descriptor of the `FILE`, or nothing for `NULL`. -/
def fcloseIf (file : Option Int) (s : St) : Out St :=
  match file with
  | some fd => fcloseFile fd s
  | none => .ok s

/-- The label `fail_file`, src/parse.c:2674-2677. -/
def failFile (r w : Int) (file : Option Int) (s : St) : Out Launched := (fcloseIf file s).bind (failPipe r w)

/-- The label `fail_ret`, src/parse.c:2672-2673. -/
def failRet (ret r w : Int) (file : Option Int) (s : St) : Out Launched := (cfclose ret s).bind (failFile r w file)

/-- The label `fail_ctx`, src/parse.c:2670-2671. -/
def failCtx (ret r w : Int) (file : Option Int) (s : St) : Out Launched := (drop .ctx s).bind (failRet ret r w file)

/-- `"less"`. -/
def less : Str := [108, 101, 115, 115]

/-- `"more"`. -/
def more : Str := [109, 111, 114, 101]

/-- `"-FKRX"`. -/
def lessFlags : Str := [45, 70, 75, 82, 88]

/-- The result of `bfs_spawn_resolve()` as a pointer: nothing for `NULL`. -/
def pointer (r : Out Str) : Out (Option Str) :=
  match r with
  | .ok s => .ok (some s)
  | .err _ => .ok none
  | .ub => .ub

/-- The first part of `launch_pager()`, src/parse.c:2599-2613. -/
def findPager (pl : Plat) (w : World) (junk : UInt8) (d : Dir) (pager : Option Str) : Out (Option Str) :=
  match pager with
  | some (c :: cs) => pointer (spawnResolve pl w junk d (c :: cs))
  | _ =>
    (pointer (spawnResolve pl w junk d less)).bind fun exe =>
      match exe with
      | some exe => .ok (some exe)
      | none => pointer (spawnResolve pl w junk d more)

/-- The last part of `launch_pager()`, src/parse.c:2647-2668, after the spawn context is filled. -/
def run (pl : Plat) (w : World) (libc : Bool → Str → List Action → Child → Result) (junk : UInt8) (self : Child)
    (exe : Str) (ret r : Int) (ctx : Ctx) (s : St) : Out Launched :=
  let cmd := exe.drop (Path.xbaseoff exe)
  let isLess := cmd = less
  let argv := if isLess then [exe, lessFlags] else [exe]
  (spawn pl w libc junk exe ctx { self with fds := s.fds }).bind fun res =>
  let s := { s with fds := res.fds }
  match res.ret with
  | .error _ => failCtx ret r (-1) none s
  | .ok pid =>
    (closeFd r s).bind fun s => (drop .ctx s).bind fun s => (drop .exe s).bind fun s =>
    .ok ⟨some ret, isLess, some pid, res.program, argv, s⟩

/-- The middle part of `launch_pager()`, src/parse.c:2632-2645: fill the spawn context. -/
def fill (pl : Plat) (w : World) (libc : Bool → Str → List Action → Child → Result) (junk : UInt8) (l : Luck) (self : Child)
    (exe : Str) (ret r : Int) (s : St) : Out Launched :=
  if !l.init then failRet ret r (-1) none s
  else
    let s := hold .ctx s
    let ctx := init pl
    if !l.addWrite then failCtx ret r (-1) none s
    else
      let ctx := addclose ctx ret
      if !l.addStdin then failCtx ret r (-1) none s
      else
        let ctx := adddup2 ctx r 0
        if !l.addRead then failCtx ret r (-1) none s
        else
          let ctx := addclose ctx r
          run pl w libc junk self exe ret r ctx s

/-- `launch_pager()`, src/parse.c:2599-2689. `pipe()` does not set `FD_CLOEXEC`. -/
def launchPager (pl : Plat) (w : World) (libc : Bool → Str → List Action → Child → Result) (junk : UInt8) (l : Luck) (self : Child) :
    Out Launched :=
  let s : St := ⟨self.fds, []⟩
  (findPager pl w junk self.cwd l.pager).bind fun exe =>
  match exe with
  | none => fail s
  | some exe =>
    let s := hold .exe s
    match l.pipe with
    | none => failExe s
    | some (r, wr) =>
      let s := { s with fds := (s.fds.set r (some ⟨l.readEnd, false⟩)).set wr (some ⟨l.writeEnd, false⟩) }
      if !l.fdopen then failPipe r wr s
      else
        let s := hold .file s
        if !l.cfwrap then failFile r (-1) (some wr) s
        else
          let s := hold .ret { s with objs := s.objs.erase .file }
          fill pl w libc junk l self exe wr r s

/-- What happens during `-help`: the help is printed to what a descriptor is at that time, with or without the colors for the terminal; a stream is closed; a process is waited for, at which time the process has some descriptors. -/
inductive Event where
  | print (to : Option Entry) (colors : Bool)
  | close (fd : Int)
  | wait (pid : Nat) (fds : Fds)

/-- The outcome of `-help`. -/
structure Helped where
  events : List Event
  program : Option Program
  argv : List Str
  st : St

/-- The end of `parse_help()`, src/parse.c:2956-2959, after the help is printed. A process ID is positive. -/
def finish (events : List Event) (a : Launched) (fd : Int) : Out Helped :=
  match a.pid with
  | some pid =>
    (cfclose fd a.st).bind fun s =>
    .ok ⟨events ++ [.close fd, .wait pid s.fds], a.program, a.argv, s⟩
  | none => .ok ⟨events, a.program, a.argv, a.st⟩

/-- `parse_help()`, src/parse.c:2694-2963. The text is not modelled, only where it goes. `ctx->cout` is descriptor 1. -/
def parseHelp (pl : Plat) (w : World) (libc : Bool → Str → List Action → Child → Result) (junk : UInt8) (l : Luck) (self : Child)
    (stdoutTty : Bool) : Out Helped :=
  (if stdoutTty then launchPager pl w libc junk l self else fail ⟨self.fds, []⟩).bind fun a =>
  let fd := a.out.getD 1
  finish [.print (a.st.fds fd) a.colors] a fd

end Verif.Pager
