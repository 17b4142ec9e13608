import Verif.Model.Streams

/-!
# What is said about the standard streams

Stream 0 is for input, 1 for output and 2 for messages.
-/

namespace Verif.Spec.Streams
open Verif.Streams

/-- Nothing can be read or written through a descriptor that was opened with `O_PATH`; with the others, only in one direction. Nothing is known about descriptors from before. -/
def Readable : Desc → Prop
  | .opened _ .rdonly => True
  | .opened _ _ => False
  | .theirs _ => True

/-- See `Readable`. -/
def Writable : Desc → Prop
  | .opened _ .wronly => True
  | .opened _ _ => False
  | .theirs _ => True

/-- The stream cannot be used for what it is there for: if used so, there is an error (`EBADF`), as if it were closed. -/
def Useless (fd : Nat) (d : Desc) : Prop := if fd = 0 then ¬ Readable d else ¬ Writable d

/-- The null device, not usable for what the stream is there for. -/
def Closed (fd : Nat) (d : Option Desc) : Prop := ∃ flags, d = some (.opened "/dev/null" flags) ∧ Useless fd (.opened "/dev/null" flags)

end Verif.Spec.Streams
