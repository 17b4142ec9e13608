import Verif.Lemmas.IoqStep
/-!
# Mutexes and wake-ups
-/
namespace Verif.Ioq

/-- The monitor whose mutex a thread holds. -/
def Thread.holds (c : Cfg) (th : Thread) : Option Nat :=
  match th.pc with
  | .check _ | .cas _ | .sleepy _ | .recheck _ | .unlock _ => some (c.mon (th.op.slot c))
  | .wunlock i => some (c.mon i)
  | _ => none

structure Mutex (c : Cfg) (s : State) : Prop where
  own : ∀ (t : Nat) (th : Thread), s.threads[t]? = some th → ∀ m, th.holds c = some m ↔ s.owner m = some t
  dom : ∀ m t, s.owner m = some t → t < s.threads.length

theorem set_get {α : Type} {l : List α} {t k : Nat} {a b x : α} (ht : l[t]? = some a) (h : (l.set t b)[k]? = some x) :
    (k = t ∧ x = b) ∨ (k ≠ t ∧ l[k]? = some x) := by
  rw [List.getElem?_set] at h
  by_cases e : t = k
  · subst e
    rw [if_pos rfl, if_pos (List.getElem?_eq_some_iff.1 ht).1] at h
    left; exact ⟨rfl, (Option.some.inj h).symm⟩
  · rw [if_neg e] at h
    right; exact ⟨fun e' => e e'.symm, h⟩

theorem mutex_same {c : Cfg} {s s' : State} {t : Nat} {th th' : Thread} (h : Mutex c s) (ht : s.threads[t]? = some th)
    (h1 : s'.threads = s.threads.set t th') (h2 : s'.owner = s.owner) (hh : th'.holds c = th.holds c) : Mutex c s' := by
  refine ⟨?_, ?_⟩
  · intro k x hk m
    rw [h1] at hk
    rw [h2]
    rcases set_get ht hk with ⟨rfl, rfl⟩ | ⟨_, hk⟩
    · rw [hh]; exact h.own _ _ ht m
    · exact h.own _ _ hk m
  · intro m k hk
    rw [h1, List.length_set]; rw [h2] at hk; exact h.dom m k hk

theorem mutex_lock {c : Cfg} {s : State} {t m : Nat} {th th' : Thread} (h : Mutex c s) (ht : s.threads[t]? = some th)
    (hf : s.owner m = none) (hn : th.holds c = none) (hh : th'.holds c = some m) :
    Mutex c ((s.setOwner m (some t)).put t th') := by
  refine ⟨?_, ?_⟩
  · intro k x hk m'
    rcases set_get ht hk with ⟨rfl, rfl⟩ | ⟨hne, hk⟩
    · rw [hh]
      show _ ↔ (if m' = m then some k else s.owner m') = some k
      by_cases e : m' = m
      · simp [e]
      · rw [if_neg e, ← h.own _ _ ht m', hn]
        simp; omega
    · show _ ↔ (if m' = m then some t else s.owner m') = some k
      rw [h.own _ _ hk m']
      by_cases e : m' = m
      · subst e
        rw [if_pos rfl, hf]
        simp; omega
      · rw [if_neg e]
  · intro m' k hk
    have hk : (if m' = m then some t else s.owner m') = some k := hk
    show k < (s.threads.set t th').length
    rw [List.length_set]
    split at hk
    · cases hk; exact (List.getElem?_eq_some_iff.1 ht).1
    · exact h.dom _ _ hk

theorem mutex_unlock {c : Cfg} {s : State} {t m : Nat} {th th' : Thread} (h : Mutex c s) (ht : s.threads[t]? = some th)
    (hn : th.holds c = some m) (hh : th'.holds c = none) : Mutex c ((s.setOwner m none).put t th') := by
  have ho := (h.own _ _ ht m).1 hn
  refine ⟨?_, ?_⟩
  · intro k x hk m'
    rcases set_get ht hk with ⟨rfl, rfl⟩ | ⟨hne, hk⟩
    · rw [hh]
      show _ ↔ (if m' = m then none else s.owner m') = some k
      by_cases e : m' = m
      · simp [e]
      · rw [if_neg e, ← h.own _ _ ht m', hn]
        simp; omega
    · show _ ↔ (if m' = m then none else s.owner m') = some k
      rw [h.own _ _ hk m']
      by_cases e : m' = m
      · subst e
        rw [if_pos rfl, ho]
        simp; omega
      · rw [if_neg e]
  · intro m' k hk
    have hk : (if m' = m then none else s.owner m') = some k := hk
    show k < (s.threads.set t th').length
    rw [List.length_set]
    split at hk
    · cases hk
    · exact h.dom _ _ hk

theorem wake_holds (c : Cfg) (m : Nat) (th : Thread) : (wake c m th).holds c = th.holds c := by
  unfold wake
  split
  · next v hv =>
    split
    · unfold Thread.holds; rw [hv]
    · rfl
  · rfl

theorem mutex_step {c : Cfg} {s s' : State} {t : Nat} (h : Mutex c s) (st : Step c s t s') : Mutex c s' := by
  cases st with
  | startPush ents h1 h2 => exact mutex_same h h1 rfl rfl rfl
  | startPop block h1 => exact mutex_same h h1 rfl rfl rfl
  | claimPush i ents h1 h2 => exact mutex_same h h1 rfl rfl rfl
  | donePush i h1 => exact mutex_same h h1 rfl rfl rfl
  | claimPop block h1 => exact mutex_same h h1 rfl rfl rfl
  | donePop i got block h1 => exact mutex_same h h1 rfl rfl rfl
  | load op h1 h2 => exact mutex_same h h1 rfl rfl rfl
  | wait op prev h1 h2 => exact mutex_same h h1 rfl rfl rfl
  | update op prev h1 h2 h3 =>
    refine mutex_same h h1 rfl rfl ?_
    by_cases hb : blocked prev = true
    · simp only [hb, if_true]; rfl
    · simp only [hb]; rfl
  | retry op prev h1 h2 => exact mutex_same h h1 rfl rfl rfl
  | spin op prev h1 h2 => exact mutex_same h h1 rfl rfl rfl
  | lock op prev h1 h2 => exact mutex_lock h h1 h2 rfl rfl
  | checkChanged op prev h1 h2 => exact mutex_same h h1 rfl rfl rfl
  | checkSame op prev h1 h2 =>
    refine mutex_same h h1 rfl rfl ?_
    by_cases hb : blocked prev = true
    · simp only [hb, if_true]; rfl
    · simp only [hb]; rfl
  | casOk op prev h1 h2 => exact mutex_same h h1 rfl rfl rfl
  | casFail op prev h1 h2 => exact mutex_same h h1 rfl rfl rfl
  | sleep op v h1 => exact mutex_unlock h h1 rfl rfl
  | spurious op v h1 => exact mutex_same h h1 rfl rfl rfl
  | relock op v h1 h2 => exact mutex_lock h h1 h2 rfl rfl
  | recheck op v h1 =>
    refine mutex_same h h1 rfl rfl ?_
    by_cases hb : s.slot (op.slot c) = v
    · simp only [hb, if_true]; rfl
    · simp only [hb, if_false]; rfl
  | unlock op ret h1 => exact mutex_unlock h h1 rfl rfl
  | wlock op i h1 h2 => exact mutex_lock h h1 h2 rfl rfl
  | wunlock op i h1 => exact mutex_unlock h h1 rfl rfl
  | wcast op i h1 =>
    have hm : Mutex c { s with threads := s.threads.map (wake c (c.mon i)) } := by
      refine ⟨?_, ?_⟩
      · intro k x hk m
        have hk : (s.threads.map (wake c (c.mon i)))[k]? = some x := hk
        rw [List.getElem?_map] at hk
        cases hx : s.threads[k]? with
        | none => rw [hx] at hk; simp at hk
        | some y =>
          rw [hx] at hk
          have hk := Option.some.inj hk
          rw [← hk, wake_holds]
          exact h.own _ _ hx m
      · intro m k hk
        show k < (s.threads.map (wake c (c.mon i))).length
        rw [List.length_map]; exact h.dom m k hk
    have h1' : (s.threads.map (wake c (c.mon i)))[t]? = some ⟨op, .wcast i⟩ := by
      rw [List.getElem?_map, h1]; rfl
    exact mutex_same hm h1' rfl rfl rfl

/-! ## Wake-ups -/

/-- Some thread is at one of these places. -/
def At (l : List Thread) (P : Pc → Prop) : Prop := ∃ (t : Nat) (u : Thread), l[t]? = some u ∧ P u.pc

theorem at_keep {l : List Thread} {P : Pc → Prop} {t : Nat} {th th' : Thread} (h : At l P) (ht : l[t]? = some th) (hn : ¬ P th.pc) :
    At (l.set t th') P := by
  obtain ⟨k, u, hk, hu⟩ := h
  have : t ≠ k := by
    intro e; subst e
    rw [ht] at hk; cases hk; exact hn hu
  exact ⟨k, u, by rw [List.getElem?_set, if_neg this]; exact hk, hu⟩

theorem at_new {l : List Thread} {P : Pc → Prop} {t : Nat} {th th' : Thread} (ht : l[t]? = some th) (hn : P th'.pc) : At (l.set t th') P :=
  ⟨t, th', by rw [List.getElem?_set, if_pos rfl, if_pos (List.getElem?_eq_some_iff.1 ht).1], hn⟩

def isWaker (i : Nat) (pc : Pc) : Prop := pc = .wlock i ∨ pc = .wunlock i ∨ pc = .wcast i

/-- Whoever sleeps or is about to will see the slot change. -/
def Wakes (c : Cfg) (s : State) : Prop :=
  ∀ (t : Nat) (th : Thread), s.threads[t]? = some th → ∀ v : W,
    (th.pc = .sleepy v → s.slot (th.op.slot c) = v ∨ At s.threads (· = .wlock (th.op.slot c))) ∧
    (th.pc = .asleep v → s.slot (th.op.slot c) = v ∨ At s.threads (isWaker (th.op.slot c)))

theorem wakes_put {c : Cfg} {s s' : State} {t : Nat} {th th' : Thread} (h : Wakes c s) (ht : s.threads[t]? = some th)
    (h1 : s'.threads = s.threads.set t th') (h2 : s'.slots = s.slots) (hn : ∀ i, ¬ isWaker i th.pc)
    (hs : ∀ v, th'.pc = .sleepy v → s.slot (th'.op.slot c) = v ∨ At s.threads (· = .wlock (th'.op.slot c)))
    (ha : ∀ v, th'.pc = .asleep v → s.slot (th'.op.slot c) = v ∨ At s.threads (isWaker (th'.op.slot c))) : Wakes c s' := by
  have hsl : ∀ k, s'.slot k = s.slot k := by intro k; unfold State.slot; rw [h2]
  have hn1 : ∀ i, ¬ th.pc = .wlock i := fun i e => hn i (Or.inl e)
  intro k x hk v
  rw [h1] at hk
  rw [h1, hsl]
  rcases set_get ht hk with ⟨rfl, rfl⟩ | ⟨_, hk⟩
  · refine ⟨fun e => ?_, fun e => ?_⟩
    · rcases hs v e with h' | h'
      · exact Or.inl h'
      · exact Or.inr (at_keep h' ht (hn1 _))
    · rcases ha v e with h' | h'
      · exact Or.inl h'
      · exact Or.inr (at_keep h' ht (hn _))
  · refine ⟨fun e => ?_, fun e => ?_⟩
    · rcases (h _ _ hk v).1 e with h' | h'
      · exact Or.inl h'
      · exact Or.inr (at_keep h' ht (hn1 _))
    · rcases (h _ _ hk v).2 e with h' | h'
      · exact Or.inl h'
      · exact Or.inr (at_keep h' ht (hn _))

theorem not_waker_of {th : Thread} (h1 : ∀ i, th.pc ≠ .wlock i) (h2 : ∀ i, th.pc ≠ .wunlock i) (h3 : ∀ i, th.pc ≠ .wcast i) :
    ∀ i, ¬ isWaker i th.pc := by
  intro i h
  rcases h with h | h | h
  · exact h1 i h
  · exact h2 i h
  · exact h3 i h

/-- A slot changes; everybody who sleeps on it gets a waker, or nobody does. -/
theorem wakes_slot {c : Cfg} {s s' : State} {t i : Nat} {th th' : Thread} {w : W} (hT : Threads c s) (hi : i < s.slots.length)
    (h : Wakes c s) (ht : s.threads[t]? = some th)
    (h1 : s'.threads = s.threads.set t th') (h2 : s'.slots = s.slots.set i w) (hn : ∀ i, ¬ isWaker i th.pc)
    (hb : blocked (s.slot i) = true → th'.pc = .wlock i)
    (hs : ∀ v, th'.pc = .sleepy v → s'.slot (th'.op.slot c) = v)
    (ha : ∀ v, th'.pc ≠ .asleep v) : Wakes c s' := by
  have hsl : ∀ k, s'.slot k = if k = i then w else s.slot k := by
    intro k; unfold State.slot; rw [h2, slot_set w hi]
  have hn1 : ∀ i, ¬ th.pc = .wlock i := fun i e => hn i (Or.inl e)
  intro k x hk v
  rw [h1] at hk
  rcases set_get ht hk with ⟨rfl, rfl⟩ | ⟨_, hk⟩
  · exact ⟨fun e => Or.inl (hs v e), fun e => absurd e (ha v)⟩
  · have ok := hT x (List.mem_of_getElem? hk)
    rw [h1, hsl]
    refine ⟨fun e => ?_, fun e => ?_⟩
    · have hbv : blocked v = true := by have := ok.2; rw [e] at this; exact this.2.2
      rcases (h _ _ hk v).1 e with h' | h'
      · by_cases hi2 : x.op.slot c = i
        · right
          rw [hi2] at h' ⊢
          exact at_new ht (hb (by rw [h']; exact hbv))
        · left; rw [if_neg hi2]; exact h'
      · exact Or.inr (at_keep h' ht (hn1 _))
    · have hbv : blocked v = true := by have := ok.2; rw [e] at this; exact this.2.2
      rcases (h _ _ hk v).2 e with h' | h'
      · by_cases hi2 : x.op.slot c = i
        · right
          rw [hi2] at h' ⊢
          exact at_new ht (Or.inl (hb (by rw [h']; exact hbv)))
        · left; rw [if_neg hi2]; exact h'
      · exact Or.inr (at_keep h' ht (hn _))

theorem wakes_step {c : Cfg} {s s' : State} {t : Nat} (hsz : 0 < c.size) (hl : s.slots.length = c.size) (hT : Threads c s)
    (hm : Mutex c s) (h : Wakes c s) (st : Step c s t s') : Wakes c s' := by
  have sl : ∀ op : Op, op.slot c < s.slots.length := by intro op; rw [hl]; exact Op.slot_lt hsz op
  have put : ∀ {s1 : State} {th : Thread} {th' : Thread}, s.threads[t]? = some th → s1.threads = s.threads.set t th' → s1.slots = s.slots →
      (∀ i, ¬ isWaker i th.pc) → (∀ v, th'.pc ≠ .sleepy v) → (∀ v, th'.pc ≠ .asleep v) → Wakes c s1 := by
    intro s1 th th' h1 h2 h3 h4 h5 h6
    exact wakes_put h h1 h2 h3 h4 (fun v e => absurd e (h5 v)) (fun v e => absurd e (h6 v))
  cases st with
  | startPush ents h1 h2 => exact put h1 rfl rfl (by simp [isWaker]) (by simp) (by simp)
  | startPop block h1 => exact put h1 rfl rfl (by simp [isWaker]) (by simp) (by simp)
  | claimPush i ents h1 h2 => exact put h1 rfl rfl (by simp [isWaker]) (by simp) (by simp)
  | donePush i h1 => exact put h1 rfl rfl (by simp [isWaker]) (by simp) (by simp)
  | claimPop block h1 => exact put h1 rfl rfl (by simp [isWaker]) (by simp) (by simp)
  | donePop i got block h1 => exact put h1 rfl rfl (by simp [isWaker]) (by simp) (by simp)
  | load op h1 h2 => exact put h1 rfl rfl (by simp [isWaker]) (by simp) (by simp)
  | wait op prev h1 h2 => exact put h1 rfl rfl (by simp [isWaker]) (by simp) (by simp)
  | update op prev h1 h2 h3 =>
    refine wakes_slot hT (sl op) h h1 rfl rfl (by simp [isWaker]) ?_ ?_ ?_
    · intro hb; rw [h3] at hb; simp [hb]
    · intro v e; dsimp only at e; split at e <;> exact absurd e (by simp)
    · intro v e; dsimp only at e; split at e <;> exact absurd e (by simp)
  | retry op prev h1 h2 => exact put h1 rfl rfl (by simp [isWaker]) (by simp) (by simp)
  | spin op prev h1 h2 => exact put h1 rfl rfl (by simp [isWaker]) (by simp) (by simp)
  | lock op prev h1 h2 => exact put h1 rfl rfl (by simp [isWaker]) (by simp) (by simp)
  | checkChanged op prev h1 h2 => exact put h1 rfl rfl (by simp [isWaker]) (by simp) (by simp)
  | checkSame op prev h1 h2 =>
    refine wakes_put h h1 rfl rfl (by simp [isWaker]) ?_ ?_
    · intro v e
      left
      by_cases hb : blocked prev = true
      · simp only [hb, if_true, Pc.sleepy.injEq] at e; rw [← e]; exact h2
      · simp [hb] at e
    · intro v e; dsimp only at e; split at e <;> exact absurd e (by simp)
  | casOk op prev h1 h2 =>
    have hub : blocked prev = false := (hT _ (List.mem_of_getElem? h1)).2.2.2
    refine wakes_slot hT (sl op) h h1 rfl rfl (by simp [isWaker]) ?_ ?_ (by simp)
    · intro hb; rw [h2, hub] at hb; exact absurd hb (by simp)
    · intro v e
      show (s.slots.set (op.slot c) (prev ||| BLOCKED)).getD (op.slot c) 0#64 = v
      rw [slot_set _ (sl op), if_pos rfl]
      exact Pc.sleepy.inj e
  | casFail op prev h1 h2 => exact put h1 rfl rfl (by simp [isWaker]) (by simp) (by simp)
  | sleep op v h1 =>
    refine wakes_put h h1 rfl rfl (by simp [isWaker]) (by simp) ?_
    intro v' e
    have e := Pc.asleep.inj e
    subst e
    rcases (h _ _ h1 v).1 rfl with h' | ⟨k, u, hk, hu⟩
    · exact Or.inl h'
    · exact Or.inr ⟨k, u, hk, Or.inl hu⟩
  | spurious op v h1 => exact put h1 rfl rfl (by simp [isWaker]) (by simp) (by simp)
  | relock op v h1 h2 => exact put h1 rfl rfl (by simp [isWaker]) (by simp) (by simp)
  | recheck op v h1 =>
    refine wakes_put h h1 rfl rfl (by simp [isWaker]) ?_ ?_
    · intro v' e
      left
      by_cases hb : s.slot (op.slot c) = v
      · simp only [hb, if_true, Pc.sleepy.injEq] at e; rw [← e]; exact hb
      · simp [hb] at e
    · intro v e; dsimp only at e; split at e <;> exact absurd e (by simp)
  | unlock op ret h1 => exact put h1 rfl rfl (by simp [isWaker]) (by simp) (by simp)
  | wlock op i h1 h2 =>
    intro k x hk v
    rcases set_get h1 hk with ⟨rfl, rfl⟩ | ⟨hne, hk⟩
    · exact ⟨fun e => absurd e (by simp), fun e => absurd e (by simp)⟩
    · refine ⟨fun e => ?_, fun e => ?_⟩
      · rcases (h _ _ hk v).1 e with h' | h'
        · exact Or.inl h'
        · by_cases hi : x.op.slot c = i
          · -- it holds the mutex that was just locked
            have hh : x.holds c = some (c.mon i) := by unfold Thread.holds; rw [e, ← hi]
            rw [hm.own _ _ hk, h2] at hh
            exact absurd hh (by simp)
          · exact Or.inr (at_keep h' h1 (by simp; exact fun e' => hi e'.symm))
      · rcases (h _ _ hk v).2 e with h' | h'
        · exact Or.inl h'
        · by_cases hi : x.op.slot c = i
          · exact Or.inr (at_new h1 (Or.inr (Or.inl (by rw [hi]))))
          · exact Or.inr (at_keep h' h1 (by simp [isWaker]; exact fun e' => hi e'.symm))
  | wunlock op i h1 =>
    intro k x hk v
    rcases set_get h1 hk with ⟨rfl, rfl⟩ | ⟨hne, hk⟩
    · exact ⟨fun e => absurd e (by simp), fun e => absurd e (by simp)⟩
    · refine ⟨fun e => ?_, fun e => ?_⟩
      · rcases (h _ _ hk v).1 e with h' | h'
        · exact Or.inl h'
        · exact Or.inr (at_keep h' h1 (by simp))
      · rcases (h _ _ hk v).2 e with h' | h'
        · exact Or.inl h'
        · by_cases hi : x.op.slot c = i
          · exact Or.inr (at_new h1 (Or.inr (Or.inr (by rw [hi]))))
          · exact Or.inr (at_keep h' h1 (by simp [isWaker]; exact fun e' => hi e'.symm))
  | wcast op i h1 =>
    have hget : (s.threads.map (wake c (c.mon i)))[t]? = some ⟨op, .wcast i⟩ := by
      rw [List.getElem?_map, h1]; rfl
    have hat : ∀ P : Pc → Prop, (∀ v, ¬ P (.asleep v)) → At s.threads P → At (s.threads.map (wake c (c.mon i))) P := by
      rintro P hP ⟨k, u, hk, hu⟩
      refine ⟨k, wake c (c.mon i) u, by rw [List.getElem?_map, hk]; rfl, ?_⟩
      unfold wake
      split
      · next v hv => rw [hv] at hu; exact absurd hu (hP v)
      · exact hu
    intro k x hk v
    rcases set_get hget hk with ⟨rfl, rfl⟩ | ⟨hne, hk⟩
    · exact ⟨fun e => absurd e (by simp), fun e => absurd e (by simp)⟩
    · rw [List.getElem?_map] at hk
      cases hy : s.threads[k]? with
      | none => rw [hy] at hk; simp at hk
      | some y =>
        rw [hy] at hk
        have hk := Option.some.inj hk
        subst hk
        rw [wake_op]
        refine ⟨fun e => ?_, fun e => ?_⟩
        · have ey : y.pc = .sleepy v := by
            unfold wake at e
            split at e
            · next v' hv =>
              split at e
              · exact absurd e (by simp)
              · exact e
            · exact e
          rcases (h _ _ hy v).1 ey with h' | h'
          · exact Or.inl h'
          · exact Or.inr (at_keep (hat _ (by simp) h') hget (by simp))
        · have ey : y.pc = .asleep v ∧ c.mon (y.op.slot c) ≠ c.mon i := by
            unfold wake at e
            split at e
            · next v' hv =>
              split at e
              · exact absurd e (by simp)
              · next hne => exact ⟨e, hne⟩
            · next hna => exact absurd e (hna v)
          have hi : y.op.slot c ≠ i := fun e' => ey.2 (by rw [e'])
          rcases (h _ _ hy v).2 ey.1 with h' | h'
          · exact Or.inl h'
          · exact Or.inr (at_keep (hat _ (by simp [isWaker]) h') hget (by simp [isWaker]; exact fun e' => hi e'.symm))

/-! ## Reachable states -/

theorem len_step {c : Cfg} {s s' : State} {t : Nat} (st : Step c s t s') : s'.slots.length = s.slots.length := by
  cases st <;> first | rfl | exact List.length_set

theorem reach_sync {c : Cfg} {n : Nat} (hs : 0 < c.size) {s : State} (r : Reach c n s) :
    s.slots.length = c.size ∧ Threads c s ∧ Mutex c s ∧ Wakes c s := by
  induction r with
  | init =>
    have hget : ∀ {t : Nat} {th : Thread}, (State.init c n).threads[t]? = some th → th = ⟨.idle, .go⟩ := by
      intro t th h
      have := List.mem_of_getElem? h
      exact (List.mem_replicate.1 this).2
    refine ⟨by simp [State.init], ?_, ⟨?_, ?_⟩, ?_⟩
    · intro th h
      rw [(List.mem_replicate.1 h).2]
      exact ⟨trivial, trivial⟩
    · intro t th h m; rw [hget h]; simp [Thread.holds, State.init]
    · intro m t h; simp [State.init] at h
    · intro t th h v; rw [hget h]; simp
  | step t r st ih =>
    obtain ⟨h1, h2, h3, h4⟩ := ih
    exact ⟨by rw [len_step st]; exact h1, threads_step hs h2 st, mutex_step h3 st, wakes_step hs h1 h2 h3 h4 st⟩

theorem reach_core {c : Cfg} {n : Nat} (hs : 0 < c.size) {s : State} (r : Reach c n s) (hb : s.tail ≤ 2 ^ 62) : Core c s s.ops ∧ First s := by
  induction r with
  | init =>
    have hops : (State.init c n).ops = List.replicate n .idle := by unfold State.ops State.init; rw [List.map_replicate]
    have hz : ∀ f : Op → Nat, f .idle = 0 → sumBy f (List.replicate n .idle) = 0 := by
      intro f hf
      apply sumBy_zero
      intro a ha
      rw [(List.mem_replicate.1 ha).2]; exact hf
    refine ⟨⟨by simp [State.init], ?_, ?_, ?_, ?_⟩, ?_⟩
    · intro p
      rw [hops, count_flatMap_sum, count_flatMap_sum, hz _ rfl, hz _ rfl]
      unfold State.queued
      rw [count_flatMap_sum, sumBy_zero]
      · rfl
      · intro a ha
        rw [(List.mem_replicate.1 ha).2]
        have : held 0#64 = none := by decide
        rw [this]; rfl
    · intro k; rw [hops, hz _ rfl]; exact Nat.zero_le _
    · intro k; rw [hops, hz _ rfl]; exact Nat.zero_le _
    · intro k hk
      rw [hops, hz _ rfl, hz _ rfl]
      unfold State.slot State.init
      rw [List.getD_eq_getElem?_getD, List.getElem?_replicate, if_pos hk]
      have : cnt 0#64 = 0 := by decide
      simp [this, rng_zero]
    · intro op h; rw [hops] at h; rw [(List.mem_replicate.1 h).2]; trivial
  | step t r st ih =>
    have hb' := Nat.le_trans (tail_mono st) hb
    exact core_step hs (reach_sync hs r).2.1 (ih hb').1 (ih hb').2 st hb'

end Verif.Ioq
