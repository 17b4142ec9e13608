import Verif.Model.Perm
/-!
# Symbolic modes

The grammar and the meaning of symbolic modes of chmod(1), for sets of permissions instead of numbers.
-/
namespace Verif.Perm
open Verif.Num

inductive Who where
  | user
  | group
  | other
  deriving DecidableEq, Repr

inductive Rwx where
  | read
  | write
  | exec
  deriving DecidableEq, Repr

/-- A bit of a mode. -/
inductive Flag where
  | perm (w : Who) (p : Rwx)
  | setuid
  | setgid
  | sticky
  deriving DecidableEq, Repr

/-- Where it is: the usual octal values 0400, 0200, ..., 0001, 4000, 2000 and 1000. -/
def Flag.bit : Flag → Nat
  | .perm .user .read => 8
  | .perm .user .write => 7
  | .perm .user .exec => 6
  | .perm .group .read => 5
  | .perm .group .write => 4
  | .perm .group .exec => 3
  | .perm .other .read => 2
  | .perm .other .write => 1
  | .perm .other .exec => 0
  | .setuid => 11
  | .setgid => 10
  | .sticky => 9

/-- A set of bits. -/
abbrev Flags := Flag → Bool

/-- The number that stands for a set. -/
def Means (mode : Mode) (m : Flags) : Prop := (∀ f, mode.getLsbD f.bit = m f) ∧ ∀ i, 12 ≤ i → mode.getLsbD i = false

/-! ## Syntax -/

inductive WhoSym where
  | u
  | g
  | o
  | a
  deriving DecidableEq, Repr

inductive PermSym where
  | r
  | w
  | x
  | X
  | s
  | t
  deriving DecidableEq, Repr

inductive Perms where
  | list (ps : List PermSym)
  | copy (from_ : Who)
  deriving DecidableEq, Repr

structure Action where
  op : Op
  perms : Perms
  deriving DecidableEq, Repr

structure Clause where
  who : List WhoSym
  first : Action
  rest : List Action
  deriving DecidableEq, Repr

def WhoSym.char : WhoSym → UInt8
  | .u => 117
  | .g => 103
  | .o => 111
  | .a => 97

def PermSym.char : PermSym → UInt8
  | .r => 114
  | .w => 119
  | .x => 120
  | .X => 88
  | .s => 115
  | .t => 116

def Op.char : Op → UInt8
  | .plus => 43
  | .minus => 45
  | .equals => 61

def Perms.text : Perms → Bytes
  | .list ps => ps.map PermSym.char
  | .copy .user => [117]
  | .copy .group => [103]
  | .copy .other => [111]

def Action.text (a : Action) : Bytes := a.op.char :: a.perms.text

def Clause.text (c : Clause) : Bytes := c.who.map WhoSym.char ++ (c.first :: c.rest).flatMap Action.text

/-- Clauses separated by commas. -/
def text (c : Clause) (cs : List Clause) : Bytes := c.text ++ cs.flatMap fun c => 44 :: c.text

/-! ## Meaning -/

def WhoSym.includes : WhoSym → Who → Bool
  | .u, w => w = .user
  | .g, w => w = .group
  | .o, w => w = .other
  | .a, _ => true

/-- Omitting who means everyone. -/
def selected (who : List WhoSym) (w : Who) : Bool := who.isEmpty || who.any (·.includes w)

/-- When who is omitted, the bits of the umask are not changed. -/
def masked (umask : Flags) (who : List WhoSym) (w : Who) (p : Rwx) : Bool := who.isEmpty && umask (.perm w p)

/-- The permissions a letter stands for; `X` is the right to search a directory. -/
def PermSym.grants (isDir : Bool) : PermSym → Rwx → Bool
  | .r, p => p = .read
  | .w, p => p = .write
  | .x, p => p = .exec
  | .X, p => isDir && p = .exec
  | _, _ => false

/-- The bits an action refers to. -/
def change (umask : Flags) (isDir : Bool) (who : List WhoSym) (m : Flags) : Perms → Flags
  | .list ps, .perm w p => selected who w && !masked umask who w p && ps.any (·.grants isDir p)
  | .list ps, .setuid => selected who .user && ps.contains .s
  | .list ps, .setgid => selected who .group && ps.contains .s
  | .list ps, .sticky => selected who .other && ps.contains .t
  | .copy from_, .perm w p => selected who w && !masked umask who w p && m (.perm from_ p)
  | .copy _, _ => false

/-- The bits that an `=` clears first. -/
def cleared (who : List WhoSym) : Flags
  | .perm w _ => selected who w
  | _ => false

/-- `+` adds, `-` removes, and `=` replaces. -/
def act (umask : Flags) (isDir : Bool) (who : List WhoSym) (m : Flags) (a : Action) : Flags := fun f =>
  match a.op with
  | .plus => m f || change umask isDir who m a.perms f
  | .minus => m f && !change umask isDir who m a.perms f
  | .equals => (m f && !cleared who f) || change umask isDir who m a.perms f

def Clause.meaning (umask : Flags) (isDir : Bool) (m : Flags) (c : Clause) : Flags :=
  (c.first :: c.rest).foldl (act umask isDir c.who) m

/-- All clauses, one after the other, beginning with no permissions at all. -/
def meaning (umask : Flags) (isDir : Bool) (cs : List Clause) : Flags :=
  cs.foldl (Clause.meaning umask isDir) (fun _ => false)

end Verif.Perm
