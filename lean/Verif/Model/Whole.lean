import Verif.Model.Options
import Verif.Model.Tests
import Verif.Model.Exec
import Verif.Model.Printx
/-!
# The whole program, with real tests and actions

Model/Main.lean leaves open what primaries stand for. Here, tests are those of Model/Tests.lean, `-printf` is that of Model/Directive.lean, `-exec` and `-execdir` with `;` are those of
Model/Exec.lean, `-printx` is that of Model/Printx.lean, `-delete` is here, and `-print`, `-print0`, `-fprint`, `-fprint0`, `-prune`, `-quit` and `-exit` are what they are. Other actions
do nothing here; no theorem is about them.

What files look like, and what commands do, is a parameter: files look like this when they are visited, and commands do this when they are run. So they may change each other, but
not the tree: commands neither add files to directories nor remove files before they are visited.

Simplifications: what the parser knows (`Setting`) is the same for all tests, i.e. flags and options that change it come first (see C103). Errors that tests report are left out (see C80 for
them); without `-noerror` they make the exit status nonzero.
-/
namespace Verif.Whole
open Verif.Cmdline (Arg A Prim Entry table)
open Verif.Tests (Setting Test File World Bytes parseTest evalTest callFn fnOf)
open Verif.Num (SizeUnit)
open Verif.Main (Effect Behaviour)

/-- Expressions can be told apart (by their address); the optimizer's model does so by a number. -/
structure Numbering where
  id : List Arg → Nat
  args : Nat → List Arg
  inv : ∀ a, args (id a) = a

/-- `enum bfs_int_cmp`, src/expr.h:45-52, has two names in this model. -/
def cmpLeaf : Num.Cmp → Opt.Cmp
  | .eq => .eq
  | .lt => .lt
  | .gt => .gt

def leafCmp : Opt.Cmp → Num.Cmp
  | .eq => .eq
  | .lt => .lt
  | .gt => .gt

/-- The bytes in a unit of `-size`, `eval_size()`, src/eval.c:948-968. -/
def unitBytes : SizeUnit → Nat
  | .blocks => 512
  | .bytes => 1
  | .words => 2
  | .kb => 1024
  | .mb => 1048576
  | .gb => 1073741824
  | .tb => 1099511627776
  | .pb => 1125899906842624

def bytesUnit (n : Nat) : Option SizeUnit := [SizeUnit.blocks, .bytes, .words, .kb, .mb, .gb, .tb, .pb].find? fun u => unitBytes u = n

/-- What the optimizer sees of a test, src/opt.c: the function `eval_*()`, and some of the fields. (For `-readable` and the like, and for `-type`, there are no other modes
and masks.) -/
def leafOf (N : Numbering) (args : List Arg) : Test → Opt.Leaf
  | .const true => .true_
  | .const false => .false_
  | .access mode => if mode = 4 then .pred .readable else if mode = 2 then .pred .writable else if mode = 1 then .pred .executable else .other (N.id args)
  | .acl => .pred .acl
  | .capable => .pred .capable
  | .empty => .pred .empty
  | .hidden => .pred .hidden
  | .nogroup => .pred .nogroup
  | .nouser => .pred .nouser
  | .sparse => .pred .sparse
  | .xattr => .pred .xattr
  | .depth cmp num => .cmp .depth 1 (cmpLeaf cmp) num
  | .gid cmp num => .cmp .gid 1 (cmpLeaf cmp) num
  | .uid cmp num => .cmp .uid 1 (cmpLeaf cmp) num
  | .inum cmp num => .cmp .inum 1 (cmpLeaf cmp) num
  | .links cmp num => .cmp .links 1 (cmpLeaf cmp) num
  | .size cmp num unit => .cmp .size (unitBytes unit) (cmpLeaf cmp) num
  | .lname _ => .lname (N.id args)
  | .samefile dev ino => .samefile dev ino
  | .type mask => if mask < 2 ^ 32 then .type (BitVec.ofNat 32 mask) else .other (N.id args)
  | .xtype mask => if mask < 2 ^ 32 then .xtype (BitVec.ofNat 32 mask) else .other (N.id args)
  | .context _ | .newer .. | .time .. | .used .. | .flags .. | .fstype _ | .name _ | .path _ | .perm .. | .regex _ | .xattrname _ => .other (N.id args)

/-- The test that looks like this. -/
def testOf (s : Setting) (N : Numbering) : Opt.Leaf → Option Test
  | .true_ => some (.const true)
  | .false_ => some (.const false)
  | .pred .readable => some (.access 4)
  | .pred .writable => some (.access 2)
  | .pred .executable => some (.access 1)
  | .pred .acl => some .acl
  | .pred .capable => some .capable
  | .pred .empty => some .empty
  | .pred .hidden => some .hidden
  | .pred .nogroup => some .nogroup
  | .pred .nouser => some .nouser
  | .pred .sparse => some .sparse
  | .pred .xattr => some .xattr
  | .cmp .depth _ c n => some (.depth (leafCmp c) n)
  | .cmp .gid _ c n => some (.gid (leafCmp c) n)
  | .cmp .uid _ c n => some (.uid (leafCmp c) n)
  | .cmp .inum _ c n => some (.inum (leafCmp c) n)
  | .cmp .links _ c n => some (.links (leafCmp c) n)
  | .cmp .size u c n => (bytesUnit u).map fun u => .size (leafCmp c) n u
  | .lname id => match parseTest s (N.args id) with
    | .ok (.lname p, _) => some (.lname p)
    | _ => none
  | .samefile dev ino => if 0 ≤ dev ∧ 0 ≤ ino then some (.samefile dev.toNat ino.toNat) else none
  | .type m => some (.type m.toNat)
  | .xtype m => some (.xtype m.toNat)
  | .other id => match parseTest s (N.args id) with
    | .ok (t, _) => some t
    | _ => none
  | .action _ _ => none

/-- The actions, by the name in `parse_table`, src/parse.c:3037-3160: `parse_print()`, `parse_print0()`, `parse_prune()`, `parse_quit()` and `parse_printf()`,
src/parse.c:2150-2216; `parse_printx()`, src/parse.c:2190-2196; `parse_fprint()`, `parse_fprint0()` and `parse_fprintf()`, src/parse.c:1429-1490; `parse_exit()`, src/parse.c:1317-1331;
`parse_exec()`, src/parse.c:1253-1312, and `parse_delete()`, src/parse.c:1177-1189. -/
def actionLeaf (N : Numbering) (args : List Arg) (e : Entry) : Opt.Leaf :=
  if e.arg = A "-print" then Main.printLeaf
  else if e.arg = A "-print0" then Main.print0Leaf
  else if e.arg = A "-prune" then Main.pruneLeaf
  else if e.arg = A "-quit" then .action .noReturn 0
  else if e.arg = A "-exit" then .action .noReturn (3 + N.id args)
  else if e.arg = A "-printf" ∨ e.arg = A "-printx" ∨ e.arg = A "-fprint" ∨ e.arg = A "-fprint0" ∨ e.arg = A "-fprintf" then .action .returnsTrue (3 + N.id args)
  else if e.arg = A "-exec" ∨ e.arg = A "-execdir" ∨ e.arg = A "-delete" ∨ e.arg = A "-rm" then .action .plain (3 + N.id args)
  else .action .plain 0

/-- What a test, or another primary that is not an action, is parsed to: `parse_flag()` and `parse_option()`, src/parse.c:615-693, make an expression that is always true. -/
def testLeaf (s : Setting) (N : Numbering) (args : List Arg) : Opt.Leaf :=
  match parseTest s args with
  | .ok (t, _) => leafOf N args t
  | _ => .true_

/-- What a primary is parsed to. -/
def leafFor (s : Setting) (N : Numbering) (q : Prim) : Opt.Leaf :=
  match q.calls with
  | [(i, args)] => if q.action then ((table[i]?).map (actionLeaf N args)).getD (.action .plain 0) else testLeaf s N args
  | _ => if q.action then .action .plain 0 else .true_

/-- The value, if all is well. -/
def value (r : Out Tests.Result) : Bool :=
  match r with
  | .ok (b, _) => b
  | _ => false

/-- What actions need to know. -/
structure Printer where
  env : Printf.Env
  w : Directive.World
  /-- `bftw_type(ftwbuf, BFS_STAT_FOLLOW)`. -/
  target : Bftw.Pos → Except Nat Stat.FType
  /-- `bftw_type(ftwbuf, BFS_STAT_NOFOLLOW)`. -/
  entry : Bftw.Pos → Except Nat Stat.FType
  /-- What comes of it if the primary with these arguments runs this command for a file. -/
  run : Bftw.Pos → List Arg → List Bytes → Exec.Res
  /-- The result of `unlinkat()` for a file, with or without `AT_REMOVEDIR`. -/
  unlink : Bftw.Pos → Bool → Except Nat Unit
  /-- `ctx->ignore_races` -/
  ignoreRaces : Bool

/-- A file, for `-printf`. -/
def fileFor (pr : Printer) (p : Bftw.Pos) (f : File) : Directive.File :=
  { buf := f.buf, type := f.type, stat := f.stat, target := pr.target p, link := f.link, fstype := f.fstype, context := f.context }

/-- The end of `eval_fprintf()`, src/eval.c:838-844: errors are reported, and the result is true. -/
def printfEffects (put : Bytes → Effect) (r : Out (Bytes × Int × Nat)) : List Effect :=
  match r with
  | .ok (out, ret, _) => if ret ≠ 0 then [put out, .error] else [put out]
  | _ => []

/-- `eval_fprintf()`, src/eval.c:838-844, with the format that has been parsed by `parse_printf()`, src/parse.c:2172-2185, or `parse_fprintf()`, src/parse.c:1461-1490. -/
def printfOn (pr : Printer) (p : Bftw.Pos) (f : File) (put : Bytes → Effect) (format : Option Arg) : List Effect :=
  match format.map (Printf.parse pr.env) with
  | some (.ok fmts) => printfEffects put (Directive.bfsPrintf pr.w none (fileFor pr p f) fmts)
  | _ => []

/-- `status` in `parse_exit()`, src/parse.c:1317-1331. -/
def statusOf (args : List Arg) : Nat :=
  match args[1]?.map Options.unsignedInt with
  | some (.ok n) => n.toNat
  | _ => 0

/-- `expr->path`, which `expr_open()`, src/parse.c:335-372, has opened. -/
def fileArg (args : List Arg) : Arg := args[1]?.getD []

/-- A file, for `-exec`: the descriptor of the directory is known unless it is a starting point. -/
def execFile (f : File) : Exec.File := { path := f.buf.path, nameoff := f.buf.nameoff, atFd := decide (0 < f.buf.depth) }

/-- `bfs_exec_parse()`, src/exec.c:129-199, called by `parse_exec()`, src/parse.c:1253-1312. (The limit on the size of the arguments is only for `+`.) -/
def parseExec (args : List Arg) : Out (Bool × Exec.Exec) := Exec.parse false (decide (args.head? = some (A "-execdir"))) (fun _ => 0) args.tail

/-- Commands that could not be run are no effects. -/
def entryEffects (x : Exec.Entry) : List Effect :=
  match x.res with
  | .ran _ => [.run x.args x.cwd]
  | .error _ => [.error]

/-- `eval_exec()`, src/eval.c:429-435: `errno` is 0 if the command has been run. -/
def execResult (r : Out (Bool × Exec.Exec × Exec.World)) : Bool × List Effect :=
  match r with
  | .ok (b, _, w) => (b, w.log.flatMap entryEffects)
  | _ => (false, [])

/-- `eval_exec()`, src/eval.c:429-435, with `;`. No library call fails but those that run the command. -/
def execOn (pr : Printer) (p : Bftw.Pos) (f : File) (args : List Arg) : Bool × List Effect :=
  match parseExec args with
  | .ok (false, x) => execResult (Exec.single x ⟨[], fun _ argv => pr.run p args argv⟩ (execFile f))
  | _ => (true, [])

/-- `eval_report_error()`, src/eval.c:104-108, with `eval_should_ignore()`, src/eval.c:95-99: `ENOENT` is 2, and `ENOTDIR` is 20. -/
def reportError (pr : Printer) (f : File) (e : Nat) : List Effect :=
  if pr.ignoreRaces && (e = 2 || e = 20) && decide (0 < f.buf.depth) then [] else [.error]

/-- `unlinkat()`, and what follows, in `eval_delete()`, src/eval.c:377-402. -/
def unlinkOn (pr : Printer) (p : Bftw.Pos) (f : File) (isDir : Bool) : Bool × List Effect :=
  match pr.unlink p isDir with
  | .error e => (false, reportError pr f e)
  | .ok _ => (true, [.unlink f.buf.path isDir])

/-- `eval_delete()`, src/eval.c:377-402. (46 is a dot. `at_fd` and `at_path` name the file at `path`.) -/
def deleteOn (pr : Printer) (p : Bftw.Pos) (f : File) : Bool × List Effect :=
  if f.buf.path = [46] then (true, [])
  else match pr.entry p with
    | .error e => (false, reportError pr f e)
    | .ok t => unlinkOn pr p f (t = .dir)

/-- The actions that depend on their arguments, or on more than the path: `eval_fprintf()`, `eval_fprint()`, `eval_fprint0()` and `eval_fprintx()`, src/eval.c:816-881, `eval_exit()`,
src/eval.c:440-445, and those above. -/
def act (pr : Printer) (p : Bftw.Pos) (f : File) (args : List Arg) : Bool × List Effect :=
  if args.head? = some (A "-printf") then (true, printfOn pr p f .write args[1]?)
  else if args.head? = some (A "-fprintf") then (true, printfOn pr p f (.writeTo (fileArg args)) args[2]?)
  else if args.head? = some (A "-fprint") then (true, [.writeTo (fileArg args) (f.buf.path ++ [10])])
  else if args.head? = some (A "-fprint0") then (true, [.writeTo (fileArg args) (f.buf.path ++ [0])])
  else if args.head? = some (A "-printx") then (true, [.write (Printx.printx f.buf.path)])
  else if args.head? = some (A "-exit") then (true, [.exit (statusOf args)])
  else if args.head? = some (A "-delete") ∨ args.head? = some (A "-rm") then deleteOn pr p f
  else execOn pr p f args

/-- The primaries. -/
def behaviour (s : Setting) (N : Numbering) (w : World) (pr : Printer) (file : Bftw.Pos → File) (never : Bftw.Pos → Opt.Leaf → Bool) : Behaviour where
  leaf := leafFor s N
  result := fun p l =>
    match l with
    | .action _ i => if 3 ≤ i then (act pr p (file p) (N.args (i - 3))).1 else true
    | l => match testOf s N l with
      | some t => value (evalTest w (file p) t)
      | none => never p l
  effects := fun p i => if 3 ≤ i then (act pr p (file p) (N.args (i - 3))).2 else []

/-- Which values are accepted: those of tests are parsed, as are the formats of `-printf` and `-fprintf`, and the command of `-exec`. (`base` says
whether files can be opened.) `-depth` without a number is an option. -/
def valid (s : Setting) (pr : Printer) (base : Cmdline.Env) (i : Nat) (args : List Arg) : Bool :=
  match table[i]? with
  | none => false
  | some e =>
    match fnOf e with
    | some fn => (match callFn s fn args with | .ok _ => true | _ => false) || (fn = .depthN && args.length = 1)
    | none => if e.arg = A "-printf" then (match args[1]?.map (Printf.parse pr.env) with | some (.ok _) => true | _ => false)
      else if e.arg = A "-fprintf" then (match args[2]?.map (Printf.parse pr.env) with | some (.ok _) => base.valid i args | _ => false)
      else if e.arg = A "-exec" ∨ e.arg = A "-execdir" then (match parseExec args with | .ok _ => base.valid i args | _ => false)
      else base.valid i args

/-- `parse_int()` in `parse_exit()`, src/parse.c:1317-1331. -/
def isStatus (v : Arg) : Bool :=
  match Options.unsignedInt v with
  | .ok _ => true
  | _ => false

def env (s : Setting) (pr : Printer) (base : Cmdline.Env) : Cmdline.Env := { base with valid := valid s pr base, isStatus }

end Verif.Whole
