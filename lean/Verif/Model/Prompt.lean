import Verif.Model.Exec
import Verif.Model.Io
/-!
# `-ok` and `-okdir`: asking before a command is run

`ynprompt()` of src/bfstd.c, and the part of `bfs_exec_spawn()` in src/exec.c that asks. Standard input is a stream of bytes, of which no one else reads; the locale's two regular
expressions are parameters.
-/
namespace Verif.Prompt
open Verif.Exec (Bytes Exec World File Res formatAll formatPath openwd closewd cArgv spawn)
open Verif.Io (Stream)

/-- The locale: do `NOEXPR` and `YESEXPR` match a string? They may be broken (`none`). -/
structure Locale where
  no : Bytes → Option Bool
  yes : Bytes → Option Bool

/-- The terminal: standard input, what was written to standard error, and whether it can be written to after so many calls. -/
structure Console where
  input : Stream
  shown : Bytes
  calls : Nat
  broken : Nat → Bool

/-- `xrpregex()`, src/bfstd.c:373-388: -1 if the expression is broken, 1 for a match. -/
def xrpregex (item : Bytes → Option Bool) (response : Bytes) : Int :=
  match item response with
  | none => -1
  | some b => if b then 1 else 0

/-- The first letter, if there is a choice, `xrpmatch()`, src/bfstd.c:406-414. (The string ends with a NUL.) -/
def failsafe (response : Bytes) : Int :=
  let c := response.headD 0
  if c = 110 ∨ c = 78 then 0 else if c = 121 ∨ c = 89 then 1 else -1

/-- The second half of `xrpmatch()`, src/bfstd.c:399-405. -/
def affirm (l : Locale) (response : Bytes) : Int :=
  if xrpregex l.yes response > 0 then 1
  else if xrpregex l.yes response < 0 then -1
  else failsafe response

/-- `xrpmatch()`, src/bfstd.c:391-414. -/
def xrpmatch (l : Locale) (response : Bytes) : Int :=
  if xrpregex l.no response > 0 then 0
  else if xrpregex l.no response < 0 then -1
  else affirm l response

/-- `ynprompt()`, src/bfstd.c:416-423. -/
def ynprompt (l : Locale) (t : Console) : Int × Console :=
  match Io.xgetdelim 10 t.input with
  | (.inl line, s) => (xrpmatch l line, { t with input := s })
  | (.inr _, s) => (-1, { t with input := s })

/-- `fprintf(stderr, ...)`, which is not buffered: did it succeed? -/
def Console.print (t : Console) (text : Bytes) : Bool × Console :=
  if t.broken t.calls then (false, { t with calls := t.calls + 1 }) else (true, { t with calls := t.calls + 1, shown := t.shown ++ text })

/-- The loop in `bfs_exec_spawn()`, src/exec.c:338-342: each argument and a space. -/
def showArgs : List Bytes → Console → Bool × Console
  | [], t => (true, t)
  | a :: as, t => if (t.print (a ++ [32])).1 then showArgs as (t.print (a ++ [32])).2 else (false, (t.print (a ++ [32])).2)

/-- What came of asking: yes, no (which is not an error), or an error. -/
inductive Answer where
  | yes
  | no
  | error
  deriving DecidableEq, Repr

/-- `bfs_exec_spawn()`, src/exec.c:337-351. -/
def confirm (l : Locale) (args : List Bytes) (t : Console) : Answer × Console :=
  if (showArgs args t).1 = false then (.error, (showArgs args t).2)
  else if ((showArgs args t).2.print [63, 32]).1 = false then (.error, ((showArgs args t).2.print [63, 32]).2)
  else if (ynprompt l ((showArgs args t).2.print [63, 32]).2).1 ≤ 0 then (.no, (ynprompt l ((showArgs args t).2.print [63, 32]).2).2)
  else (.yes, (ynprompt l ((showArgs args t).2.print [63, 32]).2).2)

/-- The errno of a standard error that cannot be written to. -/
def EIO : Nat := 5

/-- `bfs_exec_spawn()`, src/exec.c:331-420, with `BFS_EXEC_CONFIRM`. (`argv` has `argc` arguments and a null pointer; the loop that shows them and `execve()` see the same.) If the answer is no,
the result is -1 with `errno == 0`, just as if the command had failed. -/
def spawnOk (l : Locale) (x : Exec) (w : World) (t : Console) : Out (Res × World × Console) :=
  (cArgv x.argv).bind fun args =>
    match confirm l args t with
    | (.yes, t) => (spawn x w).bind fun r => .ok (r.1, r.2, t)
    | (.no, t) => .ok (.ran false, w, t)
    | (.error, t) => .ok (.error EIO, w, t)

/-- `bfs_exec_single()`, src/exec.c:423-464, as in Model/Exec.lean. -/
def singleOk (l : Locale) (x : Exec) (w : World) (t : Console) (f : File) : Out (Bool × Exec × World × Console) :=
  if !f.formatOk then .ok (false, x, w, t)
  else
    (formatAll (formatPath x.chdir f) x.tmpl 0 x.argv).bind fun argv =>
      (if x.chdir then openwd false { x with argv, argc := x.tmplArgc } f
        else .ok (true, { x with argv, argc := x.tmplArgc })).bind fun r =>
          if !r.1 then .ok (false, closewd r.2, w, t)
          else (spawnOk l r.2 w t).bind fun s => .ok (s.1 = .ran true, closewd r.2, s.2.1, s.2.2)

/-- `bfs_exec()` for each file in turn; the results are those of the action. -/
def singleAllOk (l : Locale) : List File → Exec → World → Console → Out (List Bool × Exec × World × Console)
  | [], x, w, t => .ok ([], x, w, t)
  | f :: fs, x, w, t => (singleOk l x w t f).bind fun r => (singleAllOk l fs r.2.1 r.2.2.1 r.2.2.2).bind fun s => .ok (r.1 :: s.1, s.2)

/-! ## `$PATH` -/

/-- The loop in `parse_exec()`, src/parse.c:1276-1296: is there a component of `$PATH`, at the beginning or behind a colon, that does not begin with a slash? The first argument bounds the
iterations. -/
def relativeLoop : Nat → Bytes → Bool
  | 0, _ => false
  | fuel + 1, path =>
    path.headD 0 != 47 || match path.dropWhile (· ≠ 58) with
      | [] => false
      | _ :: rest => relativeLoop fuel rest

/-- `parse_exec()`, src/parse.c:1274-1297: is the action accepted with this `$PATH` (which may not be set)? -/
def pathAccepted (chdir : Bool) (path : Option Bytes) : Bool :=
  match chdir, path with
  | true, some p => !relativeLoop (p.length + 1) p
  | _, _ => true

end Verif.Prompt
