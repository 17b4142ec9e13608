import Verif.Model.Bar
import Verif.Spec.Bar
/-!
# Deadly signals while the bar is shown (src/bar.c, src/sighook.c)

What happens is a list of steps, down to the single bytes that reach the terminal: a signal may arrive in the middle of a `write()`, which then returns early, or the kernel may drop the rest of its output.
-/
namespace Verif.BarSignal
open Verif Verif.Bar
open Verif.Spec.Bar hiding Bytes

/-- A step: the hook for deadly signals is installed or removed, or a byte reaches the terminal. -/
inductive Step where
  | hook
  | unhook
  | byte (b : UInt8)
  deriving DecidableEq, Repr

/-- `bfs_bar_write()`, src/bar.c:46-48, byte by byte. -/
def writes (s : Bytes) : List Step := s.map .byte

/-- `bfs_bar_show()`, src/bar.c:146-183: when the hook is installed and removed, and what is written. -/
def showSteps (junk : UInt8) (l : Luck) : Out (List Step) :=
  if !l.alloc then .ok []
  else if !l.openTerm then .ok []
  else if !(getsize ⟨0, 0⟩ l.size).2 then .ok []
  else if !l.exitHook then .ok []
  else if !l.winchHook then .ok [.hook, .unhook]
  else (resize junk (getsize ⟨0, 0⟩ l.size).1).bind fun out => .ok (.hook :: writes out)

/-- `bfs_bar_hide()`, src/bar.c:208-220: the hook is removed before the terminal is reset. -/
def hideSteps : List Step := .unhook :: writes reset

/-- Whether the hook is installed, and the terminal. -/
structure Mach where
  hooked : Bool
  term : Term

/-- One step. -/
def exec (m : Mach) : Step → Mach
  | .hook => { m with hooked := true }
  | .unhook => { m with hooked := false }
  | .byte b => { m with term := feed m.term b }

/-- Some steps. -/
def execs (m : Mach) (ss : List Step) : Mach := ss.foldl exec m

/-- A deadly signal arrives: `bfs_bar_sigexit()`, src/bar.c:124-127, runs if it is installed, and then the program dies (`reraise()`, src/sighook.c:427-453). -/
def deadly (m : Mach) : Term := if m.hooked then run m.term reset else m.term

end Verif.BarSignal
