import Verif.Model.IoqApi
/-! # Schedules of the I/O queue that can be run -/
namespace Verif.Ioq

/-- What a thread does next. -/
inductive Move where
  | push (ents : List W)
  | pop (block : Bool)
  | go
  deriving DecidableEq

/-- The entries are addresses. -/
def ptrs (ents : List W) : Bool := ents.all fun p => p ≠ 0#64 && p.toNat % 4 = 0

/-- One step, if it does not have to wait. -/
def stepTo (c : Cfg) (s : State) (t : Nat) (mv : Move) : Option State :=
  match s.threads[t]?, mv with
  | some ⟨.idle, .go⟩, .push ents => if ptrs ents then some ({ s with submitted := s.submitted ++ ents }.put t ⟨.push 0 0 ents, .go⟩) else none
  | some ⟨.idle, .go⟩, .pop block => some (s.put t ⟨.popStart block, .go⟩)
  | some ⟨.push _ 0 (e :: es), .go⟩, .go => some ({ s with head := s.head + (e :: es).length }.put t ⟨.push s.head (e :: es).length (e :: es), .go⟩)
  | some ⟨.push _ 0 [], .go⟩, .go => some (s.put t ⟨.idle, .go⟩)
  | some ⟨.popStart block, .go⟩, .go => some ({ s with tail := s.tail + c.batch }.put t ⟨.pop s.tail c.batch [] block, .go⟩)
  | some ⟨.pop i 0 got block, .go⟩, .go => some ({ s with returned := s.returned ++ (Op.pop i 0 got block).hand }.put t ⟨.idle, .go⟩)
  | some ⟨op, .go⟩, .go => if op.active = true then some (s.put t ⟨op, .try_ (s.slot (op.slot c))⟩) else none
  | some ⟨op, .try_ prev⟩, .go =>
    if op.waits prev = false ∧ s.slot (op.slot c) = prev then
      some ({ s with slots := s.slots.set (op.slot c) (op.next prev) }.put t ⟨op.advance prev, if blocked prev then .wlock (op.slot c) else .go⟩)
    else none
  | _, _ => none

theorem stepTo_step {c : Cfg} {s s' : State} {t : Nat} {mv : Move} (h : stepTo c s t mv = some s') : Step c s t s' := by
  unfold stepTo at h
  split at h
  · next ents ht =>
    by_cases hp : ptrs ents = true
    · rw [if_pos hp] at h
      cases h
      refine .startPush ents ht fun p hm => ?_
      have := List.all_eq_true.1 hp p hm
      simpa [isPtr] using this
    · rw [if_neg hp] at h; cases h
  · next block ht => cases h; exact .startPop block ht
  · next e es ht => cases h; exact .claimPush _ _ ht (by simp)
  · next ht => cases h; exact .donePush _ ht
  · next block ht => cases h; exact .claimPop block ht
  · next ht => cases h; exact .donePop _ _ _ ht
  · next op _ _ _ _ ht =>
    split at h
    · next ha => cases h; exact .load op ht ha
    · cases h
  · next op prev ht =>
    split at h
    · next ha => cases h; exact .update op prev ht ha.1 ha.2
    · cases h
  · cases h

def runs (c : Cfg) (s : State) : List (Nat × Move) → Option State
  | [] => some s
  | (t, mv) :: l => (stepTo c s t mv).bind fun s => runs c s l

theorem runs_reach {c : Cfg} {n : Nat} : ∀ {l : List (Nat × Move)} {s s' : State}, runs c s l = some s' → Reach c n s → Reach c n s'
  | [], _, _, h, r => by cases h; exact r
  | (t, mv) :: l, s, s', h, r => by
    unfold runs at h
    cases h1 : stepTo c s t mv with
    | none => rw [h1] at h; cases h
    | some s1 =>
      rw [h1] at h
      exact runs_reach h (.step t r (stepTo_step h1))

end Verif.Ioq
