import Verif.Model.Sighook
/-!
# What the list of hooks means
-/
namespace Verif.Sighook

/-- The reader is using node `n`, or will, without asking again whether it is still in the list. -/
def RPc.uses (n : Nat) : RPc → Prop
  | .active c _ => c = n
  | .get c _ _ => c = n
  | .cas c _ _ _ => c = n
  | .ptr c _ _ => c = n
  | .put _ _ p _ => p = some n
  | .post _ _ p _ => p = some n
  | .visit _ _ p => p = some n
  | _ => False

/-- The reader has got its next node (or the end of the list). -/
def RPc.arrived : RPc → Prop
  | .visit _ _ _ => True
  | .put _ _ _ _ => True
  | _ => False

/-- Steps of reader `t` alone. -/
inductive Solo (t : Nat) : State → State → Prop
  | refl {s : State} : Solo t s s
  | step {s s' s'' : State} : RStep true s t s' → Solo t s' s'' → Solo t s s''

/-- What a cell points to: nothing, or a node. -/
def State.nxt (s : State) (c : Nat) : Option (Option Nat) := s.ptr (c, s.active c)

/-- Following the pointers from cell `c` one meets the nodes of a list, up to cell `d`. -/
def Path (nxt : Nat → Option (Option Nat)) : Nat → List Nat → Nat → Prop
  | c, [], d => c = d
  | c, n :: l, d => nxt c = some (some n) ∧ Path nxt n l d

/-- The list consists of exactly these nodes. -/
def State.lists (s : State) (l : List Nat) : Prop := ∃ d, Path s.nxt 0 l d ∧ s.nxt d = some none

/-- Everything that can happen, if the last hook of the list is never unregistered unless it is the
only one. -/
inductive Careful (n : Nat) : State → Prop
  | init : Careful n (State.init n)
  | append {s : State} : Careful n s → s.writer = .idle → Careful n s.append
  | remove {s : State} (X : Nat) : Careful n s → s.writer = .idle → X ∈ s.hooks → (s.hooks.getLast? = some X → s.hooks = [X]) → Careful n (s.remove X)
  | writer {s s' : State} : Careful n s → s.writer ≠ .idle → WStep true s s' → Careful n s'
  | reader {s s' : State} (t : Nat) : Careful n s → RStep true s t s' → Careful n s'

/-- Signal handlers run, while no hook is being registered or unregistered.  `l`: the hooks that
handler `t`, which starts first, has run since, in order. -/
inductive Handlers (t : Nat) : State → List Nat → State → Prop
  | start {s s' : State} : s.readers[t]? = some .idle → RStep true s t s' → Handlers t s [] s'
  /-- handler `t` runs a hook -/
  | run {s s' s'' : State} {l : List Nat} (c : Nat) (k : Bool) (n : Nat) : Handlers t s l s' → s'.readers[t]? = some (.visit c k (some n)) →
      RStep true s' t s'' → s''.readers[t]? = some (.active n (some (c, k))) → Handlers t s (l ++ [n]) s''
  /-- any other step of any handler, except that `t` does not start again -/
  | other {s s' s'' : State} {l : List Nat} (u : Nat) : Handlers t s l s' → RStep true s' u s'' →
      (u = t → s'.readers[t]? ≠ some .idle ∧ ∀ c k n, s'.readers[t]? = some (.visit c k (some n)) → s''.readers[t]? ≠ some (.active n (some (c, k)))) →
      Handlers t s l s''

end Verif.Sighook
