import Verif.Model.Ioq
/-!
# What a slot means

A slot holds an entry, is empty, or is to be skipped by a number of pushes.
-/
namespace Verif.Ioq

/-- The value bits of a slot. -/
def bits (w : W) : Nat := w.toNat / 2

/-- 1 if the slot holds an entry, 0 if it is empty, `-n` if it is to be skipped `n` times. -/
def cnt (w : W) : Int :=
  if 2 ^ 62 ≤ bits w then (bits w : Int) - 2 ^ 63 else if bits w = 0 then 0 else 1

/-- The entry in a slot. -/
def held (w : W) : Option W := if cnt w = 1 then some (BitVec.ofNat 64 (4 * bits w)) else none

/-- The entries in the queue. -/
def State.queued (s : State) : List W := s.slots.flatMap fun w => (held w).toList

/-- The entries a thread still has to push. -/
def Op.unsent : Op → List W
  | .push _ _ ents => ents
  | _ => []

/-- The entries that threads still have to push. -/
def State.unsent (s : State) : List W := s.threads.flatMap fun th => th.op.unsent

/-- Is somebody about to wake up those who wait for this slot? -/
def State.waking (s : State) (i : Nat) : Prop :=
  ∃ u : Thread, u ∈ s.threads ∧ (u.pc = .wlock i ∨ u.pc = .wunlock i ∨ u.pc = .wcast i)

/-- The thread waits for its slot to change. -/
def Thread.asleep (th : Thread) : Prop := ∃ v, th.pc = .asleep v

/-- The thread is outside of all queue functions. -/
def Thread.idle (th : Thread) : Prop := th = ⟨.idle, .go⟩

/-- Apart from new calls and spurious wake-ups, nothing more can happen. -/
def State.stuck (c : Cfg) (s : State) : Prop :=
  ∀ t s', Step c s t s' → ∃ th : Thread, s.threads[t]? = some th ∧ (th.idle ∨ th.asleep)

end Verif.Ioq
