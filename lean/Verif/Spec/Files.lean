import Verif.Model.Files

/-!
# What output files should contain

Stated over the model's inputs (the actions on the command line and what each of them prints, in
order), without looking at how streams are buffered, shared or closed.
-/

namespace Verif.Files

/-- What the actions of a command line should print to. -/
def wanted (e : Env) : List POp → List (Option String × FileId)
  | [] => []
  | .fopen path o :: rest => (o.file.elim [] fun id => [(some path, id)]) ++ wanted e rest
  | .print :: rest => (none, e.stdout) :: wanted e rest
  | .note _ :: rest => wanted e rest
  | .invalid _ :: rest => wanted e rest

/-- What one step of the evaluation prints to the file `id`: the output of an action that names
that file, or text printed to stdout if that is the same file. -/
def printedBy (acts : List Act) (stdout id : FileId) : EOp → Bytes
  | .print i chunks _ =>
    ((acts[i]?).elim [] fun a => if a.id = id then chunks.flatMap (·.1) else [])
  | .show_ d _ => if stdout = id then d else []
  | _ => []

/-- All that is printed to the file `id`, in order. -/
def printed (acts : List Act) (stdout id : FileId) (eops : List EOp) : Bytes :=
  eops.flatMap (printedBy acts stdout id)

/-- A piece of output that was not written. -/
def Chunk.Fails (c : Chunk) : Prop :=
  c.2 = none ∨ ∃ k keep e, c.2 = some (.fail k keep e)

/-- The user did not ask for print errors to be ignored: whenever part of an action's output
cannot be written, `-noerror` was not given and no `-exit 0` is evaluated later on. -/
def Unforgiven (e : Env) (eops : List EOp) : Prop :=
  ∀ l i chunks m r, eops = l ++ .print i chunks m :: r → (∃ c ∈ chunks, c.Fails) →
    e.noerror = false ∧ EOp.exit 0 ∉ r

/-- An outcome without an error. -/
def Io.Fine : Io → Prop
  | .done _ => True
  | .fail .. => False

def Msg.Fine (m : Msg) : Prop := ∀ c ∈ m, c.2.Fine

def FlushIo.Fine (o : FlushIo) : Prop := o.flush.Fine ∧ o.close.Fine

/-- A step of the parser during which nothing goes wrong with the files. -/
def POp.Fine : POp → Prop
  | .fopen _ o => o.msg.Fine
  | .print => True
  | .note m => m.Fine
  | .invalid m => m.Fine

/-- A step during which nothing goes wrong. -/
def EOp.Fine : EOp → Prop
  | .print _ chunks _ => ∀ c ∈ chunks, ∃ k, c.2 = some (.done k)
  | .show_ _ io => io.Fine
  | .fail _ => False
  | .note m => m.Fine
  | .flush o => ∀ h, (o h).Fine
  | .exit n => n = 0
  | .fatal _ => False

/-- The byte `b` is in a message. -/
def Msg.Audible (b : UInt8) (m : Msg) : Prop := b ∈ m.flatMap (·.1)

/-- The byte `b` is in all messages about errors. -/
def POp.Audible (b : UInt8) : POp → Prop
  | .fopen _ o => o.msg.Audible b
  | .print => True
  | .note _ => True
  | .invalid m => m.Audible b

/-- The byte `b` is in all messages about errors, and the user does not ask for another exit status. -/
def EOp.Audible (b : UInt8) : EOp → Prop
  | .print _ _ m => m.Audible b
  | .show_ _ _ => True
  | .fail m => m.Audible b
  | .note _ => True
  | .flush _ => True
  | .exit n => n = 0
  | .fatal m => m.Audible b

/-- The environment can report errors: there is memory for stderr, and the byte `b` is in all messages about errors. -/
structure Env.Audible (b : UInt8) (e : Env) : Prop where
  memory : e.errMem = true
  msg : e.msg.Audible b
  free : ∀ h, (e.free h).msg.Audible b

end Verif.Files
