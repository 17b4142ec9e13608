import Verif.Model.Sigdispatch
/-!
# Which hooks a signal should run
-/
namespace Verif.Sigdispatch

/-- A program's history: it registers hooks and gets signals that do not end it. -/
inductive Event where
  | register (h : Hook)
  | signal (sig : Nat) (fault : Bool)

/-- The table of hooks, and all the functions called so far. -/
def play (fatal : Nat → Bool) : List Event → Lists × List Nat → Lists × List Nat
  | [], x => x
  | .register h :: es, x => play fatal es (register x.1 h, x.2)
  | .signal sig fault :: es, x =>
    let r := dispatch fatal x.1 sig fault
    play fatal es (r.lists, x.2 ++ r.calls)

/-- The hooks registered, in order. -/
def registered : List Event → List Hook
  | [] => []
  | .register h :: es => h :: registered es
  | .signal _ _ :: es => registered es

end Verif.Sigdispatch
