import Verif.Model.CtxLife
/-!
# What the exit status should be
-/
namespace Verif.Spec.CtxLife
open Verif Verif.CtxLife

/-- Nothing fails in creating the context. -/
def NewLuck.fine (l : NewLuck) : Bool := l.ctx && l.rlimit && l.users && l.groups && l.clock

/-- A stream can be used for a file: it can be registered, unless there is one for that file already. -/
def joins (seen : List Nat) (id : Nat) (colors : Bool) (d : DedupLuck) : Bool :=
  d.stat && (seen.contains id || (d.leaf && d.entry && (!colors || d.hook)))

/-- An argument is accepted and nothing fails in it, given the files that are already open, and whether the mount table has been read. -/
def fineOp (seen : List Nat) (mt : Bool) : Op → Bool
  | .plain alloc ok => alloc && ok
  | .exec buf alloc ok => buf && alloc && ok
  | .printf alloc buf ok => alloc && buf && ok
  | .regex alloc buf ok => alloc && buf && ok
  | .output alloc id o => alloc && o.fopen && o.cfwrap && joins seen id o.colors o.dedup
  | .root reserve dup => reserve && dup
  | .mtab ok => mt || ok

/-- The file that an argument names for output. -/
def outputOf : Op → List Nat
  | .output _ id _ => [id]
  | _ => []

/-- Whether an argument needs the mount table. -/
def needsMtab : Op → Bool
  | .mtab _ => true
  | _ => false

/-- All arguments are accepted. -/
def fineOps : List Nat → Bool → List Op → Bool
  | _, _, [] => true
  | seen, mt, op :: ops => fineOp seen mt op && fineOps (outputOf op ++ seen) (needsMtab op || mt) ops

/-- The files that arguments name for output. -/
def outputs (ops : List Op) : List Nat := ops.flatMap outputOf

/-- All that happens before the search: arguments, and then the optimizer if there is an expression. -/
def allOps (l : CmdLuck) : List Op :=
  match l.ending with
  | .good => l.ops ++ l.opt
  | _ => l.ops

/-- Nothing fails up to the search, and the command line is valid. -/
def starts (l : Luck) : Bool :=
  l.std && NewLuck.fine l.cmd.new && l.cmd.argv && l.cmd.kinds && l.cmd.cerr && l.cmd.cout &&
    joins [] l.cmd.outId l.cmd.outColors l.cmd.outDedup && joins [l.cmd.outId] l.cmd.errId l.cmd.errColors l.cmd.errDedup &&
    l.cmd.ending ≠ .bad && fineOps [l.cmd.errId, l.cmd.outId] false (allOps l.cmd)

/-- What was written to some file that matters was lost: standard output, or a file that was named, which may be what standard error is. -/
def loses (l : Luck) : Bool := (l.cmd.outId :: outputs (allOps l.cmd)).any l.cmd.lost

/-- The exit status: 1 if bfs can't start, that of the search if it is not 0, and 1 if output was lost. -/
def status (l : Luck) : Nat :=
  if !starts l then 1
  else
    let ret := if l.cmd.ending = .good then l.ret else 0
    if ret ≠ 0 then ret else if loses l then 1 else 0

end Verif.Spec.CtxLife
