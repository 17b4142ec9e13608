import Verif.Model.Whole
import Verif.Spec.Main
import Verif.Spec.Opt
import Verif.Spec.Options
import Verif.Spec.Tests
import Verif.Spec.Directive
import Verif.Spec.Exec
/-!
# What a whole command line means

Everything is put together: what the manual says about tests (Spec/Tests.lean), formats (Spec/Directive.lean), options (Spec/Options.lean), operators, and the search
(Spec/Search.lean). `Does` is what the manual says that an expression does on a file.
-/
namespace Verif.Whole
open Verif.Cmdline (Arg A Prim E Leaf)
open Verif.Tests (Setting File World Doc Question Named Dotted)
open Verif.Glob (Locale)
open Verif.Main (Meaning Effect)
open Verif.Options (Call)
open Verif.Bftw (Pos Cfg Env)

/-- Flags and options are no questions, and always true. `-depth` without a number is an option, as is `-nohidden`. -/
def IsOption (c : Call) : Prop :=
  ((∃ e, Cmdline.table[c.1]? = some e ∧ (e.kind = .flag ∨ e.kind = .option)) ∧ (c.is ["-depth"] = true → c.2.length = 1)) ∨ c.is ["-nohidden"] = true

/-- A file, for `-printf`. -/
def asPrinted (pr : Printer) (p : Pos) (f : File) : Directive.File where
  buf := f.buf
  type := f.type
  stat := f.stat
  target := pr.target p
  link := f.link
  fstype := f.fstype
  context := f.context

/-- A file, for `-exec`. -/
def asRun (f : File) : Exec.File where
  path := f.buf.path
  nameoff := f.buf.nameoff

/-- Which action is it? -/
def execName (dir : Bool) : Arg := if dir then A "-execdir" else A "-exec"

/-- It has two names. -/
def deleteName (rm : Bool) : Arg := if rm then A "-rm" else A "-delete"

/-- The arguments of the command: in those that were given, `{}` is the path, or for `-execdir` the name after `./`. -/
def commandFor (dir : Bool) (f : File) (cmd : List Arg) : List (List UInt8) := cmd.map (Exec.substBraces (Exec.argOf dir (asRun f)))

/-- Where it is run: the directory of the file for `-execdir`. -/
def directoryFor (dir : Bool) (f : File) : Option (List UInt8) := if dir then Exec.dirOf (asRun f) else none

/-- With `-ignore_readdir_race`, files that have disappeared (`ENOENT`, `ENOTDIR`) are no errors, except for starting points. -/
def Unimportant (pr : Printer) (f : File) (e : Nat) : Prop := pr.ignoreRaces = true ∧ (e = 2 ∨ e = 20) ∧ 0 < f.buf.depth

/-- `Does x m`: on this file, the expression does this. -/
inductive Does (s : Setting) (w : World) (l : Locale) (pr : Printer) (p : Pos) (f : File) : E → Meaning → Prop
  /-- Tests: the question in the manual. -/
  | test {q : Prim} {i : Nat} {args : List Arg} {question : Question} {P : Prop} {v : Bool} : q.calls = [(i, args)] → Doc s w l args question → question f = .ok P → (v = true ↔ P) →
      Does s w l pr p f (.leaf (.prim q)) ⟨v, false, []⟩
  /-- If there is no answer, it is as if it were no. -/
  | unknown {q : Prim} {i : Nat} {args : List Arg} {question : Question} {e : Nat} : q.calls = [(i, args)] → Doc s w l args question → question f = .error e →
      Does s w l pr p f (.leaf (.prim q)) ⟨false, false, []⟩
  | option {q : Prim} : (∀ c ∈ q.calls, IsOption c) → Does s w l pr p f (.leaf (.prim q)) ⟨true, false, []⟩
  /-- Actions. A newline is 10. -/
  | print {q : Prim} {i : Nat} : q.calls = [(i, [A "-print"])] → Does s w l pr p f (.leaf (.prim q)) ⟨true, false, [.write (f.buf.path ++ [10])]⟩
  | print0 {q : Prim} {i : Nat} : q.calls = [(i, [A "-print0"])] → Does s w l pr p f (.leaf (.prim q)) ⟨true, false, [.write (f.buf.path ++ [0])]⟩
  | prune {q : Prim} {i : Nat} : q.calls = [(i, [A "-prune"])] → Does s w l pr p f (.leaf (.prim q)) ⟨true, false, [.prune]⟩
  | quit {q : Prim} {i : Nat} : q.calls = [(i, [A "-quit"])] → Does s w l pr p f (.leaf (.prim q)) ⟨true, true, [.stop]⟩
  | printf {q : Prim} {i : Nat} {format : Arg} {es : List Printf.Elem} {out : List UInt8} {err : Option Nat} : q.calls = [(i, [A "-printf", format])] → Printf.Format pr.env format es →
      Directive.Written pr.w (asPrinted pr p f) es out err → Does s w l pr p f (.leaf (.prim q)) ⟨true, false, .write out :: if err.isSome then [.error] else []⟩
  /-- As `-print`, but blanks, newlines, backslashes, dollar signs and quotes come after a backslash (92). See C93. -/
  | printx {q : Prim} {i : Nat} : q.calls = [(i, [A "-printx"])] →
      Does s w l pr p f (.leaf (.prim q)) ⟨true, false, [.write ((f.buf.path.flatMap fun c => if c ∈ ([32, 9, 10, 92, 36, 39, 34, 96] : List UInt8) then [92, c] else [c]) ++ [10])]⟩
  /-- To a file. -/
  | fprint {q : Prim} {i : Nat} {name : Arg} : q.calls = [(i, [A "-fprint", name])] → Does s w l pr p f (.leaf (.prim q)) ⟨true, false, [.writeTo name (f.buf.path ++ [10])]⟩
  | fprint0 {q : Prim} {i : Nat} {name : Arg} : q.calls = [(i, [A "-fprint0", name])] → Does s w l pr p f (.leaf (.prim q)) ⟨true, false, [.writeTo name (f.buf.path ++ [0])]⟩
  | fprintf {q : Prim} {i : Nat} {name format : Arg} {es : List Printf.Elem} {out : List UInt8} {err : Option Nat} : q.calls = [(i, [A "-fprintf", name, format])] → Printf.Format pr.env format es →
      Directive.Written pr.w (asPrinted pr p f) es out err → Does s w l pr p f (.leaf (.prim q)) ⟨true, false, .writeTo name out :: if err.isSome then [.error] else []⟩
  /-- `-exit`: the status is 0 by default. -/
  | exit {q : Prim} {i : Nat} : q.calls = [(i, [A "-exit"])] → Does s w l pr p f (.leaf (.prim q)) ⟨true, true, [.exit 0, .stop]⟩
  | exitWith {q : Prim} {i : Nat} {v : Arg} {n : Nat} : q.calls = [(i, [A "-exit", v])] → Options.Natural v n → Does s w l pr p f (.leaf (.prim q)) ⟨true, true, [.exit n, .stop]⟩
  /-- Commands: true if the status is 0. -/
  | exec {q : Prim} {i : Nat} {dir : Bool} {cmd : List Arg} {ok : Bool} : q.calls = [(i, execName dir :: (cmd ++ [A ";"]))] →
      pr.run p (execName dir :: (cmd ++ [A ";"])) (commandFor dir f cmd) = .ran ok → Does s w l pr p f (.leaf (.prim q)) ⟨ok, false, [.run (commandFor dir f cmd) (directoryFor dir f)]⟩
  | execFails {q : Prim} {i : Nat} {dir : Bool} {cmd : List Arg} {e : Nat} : q.calls = [(i, execName dir :: (cmd ++ [A ";"]))] →
      pr.run p (execName dir :: (cmd ++ [A ";"])) (commandFor dir f cmd) = .error e → Does s w l pr p f (.leaf (.prim q)) ⟨false, false, [.error]⟩
  /-- `-delete` and `-rm`: true if it succeeds. `.` (46) is never deleted. -/
  | dot {q : Prim} {i : Nat} {rm : Bool} : q.calls = [(i, [deleteName rm])] → f.buf.path = [46] → Does s w l pr p f (.leaf (.prim q)) ⟨true, false, []⟩
  | delete {q : Prim} {i : Nat} {rm : Bool} {t : Stat.FType} : q.calls = [(i, [deleteName rm])] → f.buf.path ≠ [46] → pr.entry p = .ok t → pr.unlink p (t = .dir) = .ok () →
      Does s w l pr p f (.leaf (.prim q)) ⟨true, false, [.unlink f.buf.path (t = .dir)]⟩
  | deleteFails {q : Prim} {i : Nat} {rm : Bool} {e : Nat} {effects : List Effect} : q.calls = [(i, [deleteName rm])] → f.buf.path ≠ [46] →
      (pr.entry p = .error e ∨ ∃ t, pr.entry p = .ok t ∧ pr.unlink p (t = .dir) = .error e) → (Unimportant pr f e → effects = []) → (¬ Unimportant pr f e → effects = [.error]) →
      Does s w l pr p f (.leaf (.prim q)) ⟨false, false, effects⟩
  /-- What is implied: no expression is true, `-exclude` is true, without an action there is a `-print`, and `-nohidden` excludes hidden files. -/
  | yes : Does s w l pr p f (.leaf .yes) ⟨true, false, []⟩
  | implied : Does s w l pr p f (.leaf .print) ⟨true, false, [.write (f.buf.path ++ [10])]⟩
  | hidden {v : Bool} : (v = true ↔ ∃ name, Named f.buf name ∧ Dotted name) → Does s w l pr p f (.leaf .hidden) ⟨v, false, []⟩
  /-- Operators. Nothing happens after `-quit`. -/
  | not {x : E} {m : Meaning} : Does s w l pr p f x m → Does s w l pr p f (.not x) ⟨!m.value, m.quit, m.effects⟩
  | andNo {x y : E} {m : Meaning} : Does s w l pr p f x m → m.quit = false → m.value = false → Does s w l pr p f (.and x y) ⟨false, false, m.effects⟩
  | andQuit {x y : E} {m : Meaning} : Does s w l pr p f x m → m.quit = true → Does s w l pr p f (.and x y) ⟨false, true, m.effects⟩
  | and {x y : E} {m n : Meaning} : Does s w l pr p f x m → m.quit = false → m.value = true → Does s w l pr p f y n →
      Does s w l pr p f (.and x y) ⟨n.value, n.quit, m.effects ++ n.effects⟩
  | orYes {x y : E} {m : Meaning} : Does s w l pr p f x m → m.quit = false → m.value = true → Does s w l pr p f (.or x y) ⟨true, false, m.effects⟩
  | orQuit {x y : E} {m : Meaning} : Does s w l pr p f x m → m.quit = true → Does s w l pr p f (.or x y) ⟨true, true, m.effects⟩
  | or {x y : E} {m n : Meaning} : Does s w l pr p f x m → m.quit = false → m.value = false → Does s w l pr p f y n →
      Does s w l pr p f (.or x y) ⟨n.value, n.quit, m.effects ++ n.effects⟩
  | commaQuit {x y : E} {m : Meaning} : Does s w l pr p f x m → m.quit = true → Does s w l pr p f (.comma x y) m
  | comma {x y : E} {m n : Meaning} : Does s w l pr p f x m → m.quit = false → Does s w l pr p f y n → Does s w l pr p f (.comma x y) ⟨n.value, n.quit, m.effects ++ n.effects⟩

/-- An expression of tests only is true of a file. -/
def Holds (s : Setting) (w : World) (l : Locale) (f : File) : E → Prop
  | .leaf .yes => True
  | .leaf .print => False
  | .leaf .hidden => ∃ name, Named f.buf name ∧ Dotted name
  | .leaf (.prim q) => (∀ c ∈ q.calls, IsOption c) ∨ ∃ i args question P, q.calls = [(i, args)] ∧ Doc s w l args question ∧ question f = .ok P ∧ P
  | .not x => ¬ Holds s w l f x
  | .and x y => Holds s w l f x ∧ Holds s w l f y
  | .or x y => Holds s w l f x ∨ Holds s w l f y
  | .comma _ y => Holds s w l f y

/-- The file at a position of the tree: its path is made of the names on the way there. -/
def bufAt (e : Env) : Pos → Path.Buf
  | [] => Path.rootBuf []
  | [i] => Path.rootBuf (e.name [i])
  | j :: p => Path.childBuf (bufAt e p) (e.name (j :: p))

/-- The files below the roots that can be examined. -/
def Exists (e : Env) (p : Pos) : Prop := Bftw.Found e (fun _ => True) p ∧ e.error p = false

/-- `file` are the files in the tree; they are sane (see C76 and C80). -/
structure Depicts (e : Env) (w : World) (pr : Printer) (file : Pos → File) : Prop where
  buf : ∀ p, Exists e p → (file p).buf = bufAt e p
  tests : ∀ p, Exists e p → (file p).Sane w
  printf : ∀ p, Exists e p → Directive.Sane pr.w (asPrinted pr p (file p))

/-- The only actions are `-print`, `-print0`, `-printf`, `-printx`, `-fprint`, `-fprint0`, `-fprintf`, `-prune`, `-quit`, `-exit`, `-delete` (or `-rm`), and `-exec` and `-execdir` with `;`
at the end. -/
def OnlyThese (calls : List Call) : Prop := ∀ c ∈ calls, ∀ e, Cmdline.table[c.1]? = some e → e.kind = .action →
  c.is ["-print", "-print0", "-printf", "-printx", "-fprint", "-fprint0", "-fprintf", "-prune", "-quit", "-exit", "-delete", "-rm"] = true ∨ (c.is ["-exec", "-execdir"] = true ∧ c.2.getLast? = some (A ";"))

/-- The search that was asked for. -/
def searchFor (o : Main.Settings) (does : Pos → Meaning) (excluded : Pos → Bool) : Cfg where
  mindepth := o.mindepth
  maxdepth := o.maxdepth
  xargsSafe := o.xargsSafe
  unique := false
  ignoreRaces := o.ignoreRaces
  ignoreErrors := o.ignoreErrors
  exclude := excluded
  expr := fun p => Main.actionOf (does p).effects
  exprError := fun p => (does p).effects.contains .error
  fileId := fun _ => (0, 0)
  gone := o.gone

/-- What happened is what should have happened: the expression has been evaluated on files that it should be evaluated on, on each once, and on none after `-quit`; directories come before or
after what is in them. -/
structure Right (c : Cfg) (e : Env) (does : Pos → Meaning) (files : List Pos) (out : List Effect) : Prop where
  once : files.Nodup
  sound : ∀ p ∈ files, c.Target e p
  output : out = files.flatMap fun p => (does p).effects
  pre : e.post = false → files.Pairwise fun earlier later => ¬ later <:+ earlier
  post : e.post = true → files.Pairwise fun earlier later => ¬ earlier <:+ later
  quit : ∀ p ∈ files, .stop ∈ (does p).effects → files.getLast? = some p

/-- The manual says this about the files: what the expression does, and which ones are excluded. -/
structure Says (s : Setting) (w : World) (l : Locale) (pr : Printer) (e : Env) (file : Pos → File) (cmd : Cmdline.Cmd) (does : Pos → Meaning) (excluded : Pos → Bool) : Prop where
  does : ∀ p, Exists e p → Does s w l pr p (file p) cmd.expr (does p)
  excluded : ∀ p, Exists e p → (excluded p = true ↔ ∃ x ∈ cmd.excludes, ∃ m, Does s w l pr p (file p) x m ∧ m.value = true)

/-- All questions have answers. -/
def Answered (s : Setting) (w : World) (l : Locale) (e : Env) (file : Pos → File) (calls : List Call) : Prop :=
  ∀ p, Exists e p → ∀ c ∈ calls, ∀ question, Doc s w l c.2 question → ∃ P, question (file p) = .ok P

/-! ## For the optimizer -/

/-- The attributes of a file, as the optimizer sees them (see Spec/Opt.lean). -/
def attributes (s : Setting) (N : Numbering) (w : World) (f : File) : Spec.Opt.File where
  pred := fun p => match testOf s N (.pred p) with
    | some t => value (Tests.evalTest w f t)
    | none => false
  num := fun r => match r, f.stat with
    | .depth, _ => f.buf.depth
    | .gid, .ok sb => sb.gid
    | .uid, .ok sb => sb.uid
    | .inum, .ok sb => sb.ino
    | .links, .ok sb => sb.nlink
    | .size, .ok sb => sb.size
    | _, .error _ => 0
  dev := match f.stat with
    | .ok sb => sb.dev
    | .error _ => 0
  type := (Tests.typeBit f.type).getD 0
  xtype := match f.other with
    | .ok t => (Tests.typeBit t).getD 0
    | .error _ => 6
  lname := fun id => match testOf s N (.lname id) with
    | some t => value (Tests.evalTest w f t)
    | none => false
  other := fun id => match testOf s N (.other id) with
    | some t => value (Tests.evalTest w f t)
    | none => false

/-- What leaves mean to which no test is parsed, such as sizes in units of three bytes. -/
def fallback (s : Setting) (N : Numbering) (w : World) (file : Pos → File) (p : Pos) (l : Opt.Leaf) : Bool := (Spec.Opt.test (attributes s N w (file p)) l).getD false

/-- Nothing fails, and numbers have the usual size. -/
structure Regular (w : World) (f : File) : Prop where
  sane : f.Sane w
  stat : ∃ sb, f.stat = .ok sb ∧ sb.uid < 2 ^ 63 ∧ sb.gid < 2 ^ 63
  other : (∃ t, f.other = .ok t) ∨ (f.follows = false ∧ f.other = .error 40)

/-- The tests for which `-O2` and above are right: `-uid` and `-user` only for one user, and not together with `-nouser`; `-gid` and `-group` only for one group, and not together with
`-nogroup`; all sizes in the same unit; `-samefile` only for files whose inode numbers are not in use on other devices; and `-empty` below `-O4`. (See C02 for the others.) -/
def Safe (owners : Spec.Opt.Owners) (file : Pos → File) (unit : Num.SizeUnit) (level : Nat) : Tests.Test → Prop
  | .size _ _ u => u = unit
  | .gid cmp n => cmp = .eq ∧ owners.group = some n ∧ 0 ≤ n ∧ n < 2 ^ 63 - 1
  | .uid cmp n => cmp = .eq ∧ owners.user = some n ∧ 0 ≤ n ∧ n < 2 ^ 63 - 1
  | .nogroup => owners.group = none
  | .nouser => owners.user = none
  | .samefile dev ino => ∀ p sb, (file p).stat = .ok sb → sb.ino = ino → sb.dev = dev
  | .empty => level < 4
  | _ => True

/-- There are no commas. -/
def CommaFree : E → Prop
  | .leaf _ => True
  | .not x => CommaFree x
  | .and x y => CommaFree x ∧ CommaFree y
  | .or x y => CommaFree x ∧ CommaFree y
  | .comma _ _ => False

end Verif.Whole
