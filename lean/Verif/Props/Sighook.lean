import Verif.Lemmas.SighookL
import Verif.Lemmas.Sigdispatch
/-!
# Properties of signal hooks
-/
namespace Verif.Props
open Verif.Sighook

/-! ## C28: hooks are not freed under a running handler -/

/-- C28: whatever hooks are registered and unregistered while any number of signal handlers run at
any time, no freed hook is accessed, no assertion fails and no reference count underflows. -/
theorem C28_safe {n : Nat} {s : State} (r : Reach true n s) : s.bad = false := (reach_inv r).good

/-- C28: once a hook has been freed, no handler is using it. -/
theorem C28_in_use {n : Nat} {s : State} (r : Reach true n s) {h : Nat} (hf : s.alive h = false) : ∀ p ∈ s.readers, ¬ p.uses h := by
  intro p hp hu
  rw [(reach_inv r).uses hp hu] at hf; cases hf

/-- C28: and the hooks that have not been freed are exactly those that have been registered and not
been unregistered, whenever no call is in progress: unregistering frees, and only then. -/
theorem C28_freed {n : Nat} {s : State} (r : Reach true n s) (hw : s.writer = .idle) (h : Nat) : s.alive h = true ↔ h = 0 ∨ h ∈ s.hooks := by
  constructor
  · intro ha
    rcases alive_hooks r h ha with h | h | h
    · exact Or.inl h
    · exact Or.inr h
    · rw [hw] at h; cases h
  · rintro (rfl | h)
    · exact (reach_inv r).root
    · exact ((reach_inv r).hooks.1 _ h).1

/-- C28: handlers do not wait: in every state, a handler that is looking for its next hook finds it
if it runs alone, whatever the thread that it interrupted was doing. -/
theorem C28_handlers_never_wait {n : Nat} {s : State} (r : Reach true n s) {t c : Nat} {p : RPc} (hp : s.readers[t]? = some p)
    (hr : (∃ prev, p = .active c prev) ∨ (∃ k prev, p = .get c k prev) ∨ (∃ k q prev, p = .cas c k q prev) ∨ ∃ k prev, p = .ptr c k prev) :
    ∃ s' q, Solo t s s' ∧ s'.readers[t]? = some q ∧ q.arrived := by
  have hI := reach_inv r
  have mem : p ∈ s.readers := List.mem_of_getElem? hp
  have ok := hI.readers p mem
  have key : ∀ {prev : Option Slot}, (∀ h, prev = some h → h ∈ p.holds) → target s.ptr c prev → 0 < s.refs (c, s.active c) := by
    intro prev h1 h2
    exact hI.active_refs (hI.target hp h1 h2) (fun _ _ _ _ => hI.not_destroyed hp h1 h2)
  rcases hr with ⟨prev, e⟩ | ⟨k, prev, e⟩ | ⟨k, q, prev, e⟩ | ⟨k, prev, e⟩ <;> subst e
  · exact solo_active t c prev hp (key (prev := prev) (by intro h e; simp [RPc.holds, e]) ok)
  · exact solo_get' t c k prev hp (key (prev := prev) (by intro h e; simp [RPc.holds, e]) ok)
  · exact solo_cas' t c k q prev hp (key (prev := prev) (by intro h e; simp [RPc.holds, e]) ok.1)
  · exact solo_ptr t c k prev hp

/-- C28: registering and unregistering wait for running handlers only: with none running, they go
on. -/
theorem C28_writer_waits_for_handlers {n : Nat} {s : State} (r : Reach true n s) (hw : s.writer ≠ .idle) (hr : ∀ p ∈ s.readers, p = .idle) :
    ∃ s', WStep true s s' := by
  have hI := reach_inv r
  cases h : s.writer with
  | idle => exact absurd h hw
  | run ph x i v k =>
    cases ph with
    | set => exact ⟨_, .set x i v k h⟩
    | ref => exact ⟨_, .ref x i v k h⟩
    | pub => exact ⟨_, .pub x i v k h⟩
    | sub => exact ⟨_, .sub x i v k h⟩
    | take => exact ⟨_, .take x i v k h⟩
    | wait =>
      have hk := hI.writer
      rw [h] at hk
      have h0 : H s.readers (x, i) = 0 := Ioq.sumBy_zero _ (fun r hr' => by rw [hr r hr']; rfl)
      have h1 : P s.readers (x, i) = 0 := Ioq.sumBy_zero _ (fun r hr' => by rw [hr r hr']; rfl)
      have h2 := hI.refs x i hk.live.1
      have h3 : owned s.writer x (s.active x) i = 0 := by
        rw [h]
        cases k with
        | append m => simp only [owned]; obtain ⟨_, a2, _⟩ := hk; rw [a2]; cases i <;> rfl
        | remove X nx => simp only [owned]; obtain ⟨_, a2, _⟩ := hk; rw [a2]; cases i <;> rfl
        | destroy X => simp [owned]
      have h4 := (hI.semW (x, i) hk.live.1 ⟨v, k, h⟩).2 (by omega)
      exact ⟨_, .wait x i v k h rfl (by omega)⟩

/-! ## C29: registered hooks stay registered -/

/-- C29: as long as the last of several hooks is not unregistered, the list consists of exactly the
hooks that have been registered and not been unregistered, in order, whenever no call is in
progress.  Missing: without that restriction it is false, see `C29_lost_counterexample`. -/
theorem C29_registered_partial {n : Nat} {s : State} (r : Careful n s) (hw : s.writer = .idle) : s.lists s.hooks := by
  have := careful_inv r
  unfold LInv at this
  rw [hw] at this
  exact ⟨_, this⟩

/-- C29: in any history, a handler that runs while no hook is registered or unregistered runs the
hooks in the list, in order, each once, and reaches the end after the last.  (In other words, what
`C29_registered_partial` says about the list, it says about what is run.) -/
theorem C29_handler {n t : Nat} {s s' : State} {l l' : List Nat} (r : Reach true n s) (hw : s.writer = .idle) (hl : s.lists l) (h : Handlers t s l' s') :
    (∃ l'', l = l' ++ l'') ∧ ∀ c k, s'.readers[t]? = some (.visit c k none) → l' = l := by
  obtain ⟨_, _, _, p, h1, h2⟩ := handlers_inv r hw h
  obtain ⟨d, h3, h4⟩ := hl
  constructor
  · obtain ⟨c, h5⟩ := At.path h2
    obtain ⟨l'', h6, _⟩ := h3.unique h4 h5
    exact ⟨l'', h6⟩
  · intro c k h5
    rw [h1] at h5; cases h5
    obtain ⟨l'', h6, h7⟩ := h3.unique h4 h2.1
    cases l'' with
    | nil => rw [h6]; simp
    | cons m l'' => obtain ⟨h8, _⟩ := h7; rw [h2.2] at h8; cases h8

/-- C29 is false in general: register hooks 1 and 2, unregister 2, register 3.  Now 1 and 3 are
registered, but no path leads to 1, and handlers run only 3. -/
theorem C29_lost_counterexample : ∃ s, Reach true 0 s ∧ s.writer = .idle ∧ s.hooks = [1, 3] ∧ s.lists [3] := by
  have r := Reach.init (sem := true) (n := 0)
  have r := Reach.writer r (.append rfl)
  have r := Reach.writer r (.set _ _ _ _ rfl)
  have r := Reach.writer r (.ref _ _ _ _ rfl)
  have r := Reach.writer r (.pub _ _ _ _ rfl)
  have r := Reach.writer r (.sub _ _ _ _ rfl)
  have r := Reach.writer r (.take _ _ _ _ rfl)
  have r := Reach.writer r (.append rfl)
  have r := Reach.writer r (.set _ _ _ _ rfl)
  have r := Reach.writer r (.ref _ _ _ _ rfl)
  have r := Reach.writer r (.pub _ _ _ _ rfl)
  have r := Reach.writer r (.sub _ _ _ _ rfl)
  have r := Reach.writer r (.take _ _ _ _ rfl)
  have r := Reach.writer r (.remove 2 rfl (by decide))
  have r := Reach.writer r (.set _ _ _ _ rfl)
  have r := Reach.writer r (.ref _ _ _ _ rfl)
  have r := Reach.writer r (.pub _ _ _ _ rfl)
  have r := Reach.writer r (.sub _ _ _ _ rfl)
  have r := Reach.writer r (.take _ _ _ _ rfl)
  have r := Reach.writer r (.sub _ _ _ _ rfl)
  have r := Reach.writer r (.take _ _ _ _ rfl)
  have r := Reach.writer r (.append rfl)
  have r := Reach.writer r (.set _ _ _ _ rfl)
  have r := Reach.writer r (.ref _ _ _ _ rfl)
  have r := Reach.writer r (.pub _ _ _ _ rfl)
  have r := Reach.writer r (.sub _ _ _ _ rfl)
  have r := Reach.writer r (.take _ _ _ _ rfl)
  exact ⟨_, r, rfl, rfl, 3, ⟨rfl, rfl⟩, rfl⟩

/-- C28 needs working semaphores: if `sem_init()` fails, a handler can access a freed hook, because
it looks at the hook's semaphore after giving back its last reference. -/
theorem C28_spin_counterexample : ∃ s, Reach false 1 s ∧ s.bad = true := by
  have r := Reach.init (sem := false) (n := 1)
  have r := Reach.writer r (.append rfl)
  have r := Reach.writer r (.set _ _ _ _ rfl)
  have r := Reach.writer r (.ref _ _ _ _ rfl)
  have r := Reach.writer r (.pub _ _ _ _ rfl)
  have r := Reach.writer r (.sub _ _ _ _ rfl)
  have r := Reach.writer r (.take _ _ _ _ rfl)
  have r := Reach.reader 0 r (.start rfl)
  have r := Reach.reader 0 r (.active _ _ rfl)
  have r := Reach.reader 0 r (.get _ _ _ rfl)
  have r := Reach.reader 0 r (.casOk _ _ _ _ rfl rfl)
  have r := Reach.reader 0 r (.ptr _ _ _ rfl)
  have r := Reach.reader 0 r (.run _ _ _ rfl)
  have r := Reach.reader 0 r (.active _ _ rfl)
  have r := Reach.reader 0 r (.get _ _ _ rfl)
  have r := Reach.reader 0 r (.casOk _ _ _ _ rfl rfl)
  have r := Reach.reader 0 r (.ptr _ _ _ rfl)
  have r := Reach.reader 0 r (.put _ _ _ _ rfl)
  have r := Reach.reader 0 r (.leave _ _ _ rfl)
  have r := Reach.writer r (.remove 1 rfl (by decide))
  have r := Reach.writer r (.set _ _ _ _ rfl)
  have r := Reach.writer r (.ref _ _ _ _ rfl)
  have r := Reach.writer r (.pub _ _ _ _ rfl)
  have r := Reach.writer r (.sub _ _ _ _ rfl)
  have r := Reach.writer r (.take _ _ _ _ rfl)
  have r := Reach.writer r (.sub _ _ _ _ rfl)
  have r := Reach.reader 0 r (.fput _ _ rfl)
  have r := Reach.writer r (.spin _ _ _ _ rfl rfl rfl)
  have r := Reach.writer r (.take _ _ _ _ rfl)
  have r := Reach.reader 0 r (.fpost _ _ rfl)
  exact ⟨_, r, rfl⟩

/-- A run for C28 and C29: a handler is about to run hook 1 when another thread unregisters it,
which has to wait. -/
example : ∃ s, Reach true 1 s ∧ s.readers = [.visit 0 true (some 1)] ∧ s.writer = .run .wait 0 true (some 2) (.remove 1 (some 2)) ∧ s.hooks = [2] ∧
    s.sem (0, true) = 0 := by
  have r := Reach.init (sem := true) (n := 1)
  have r := Reach.writer r (.append rfl)
  have r := Reach.writer r (.set _ _ _ _ rfl)
  have r := Reach.writer r (.ref _ _ _ _ rfl)
  have r := Reach.writer r (.pub _ _ _ _ rfl)
  have r := Reach.writer r (.sub _ _ _ _ rfl)
  have r := Reach.writer r (.take _ _ _ _ rfl)
  have r := Reach.writer r (.append rfl)
  have r := Reach.writer r (.set _ _ _ _ rfl)
  have r := Reach.writer r (.ref _ _ _ _ rfl)
  have r := Reach.writer r (.pub _ _ _ _ rfl)
  have r := Reach.writer r (.sub _ _ _ _ rfl)
  have r := Reach.writer r (.take _ _ _ _ rfl)
  have r := Reach.reader 0 r (.start rfl)
  have r := Reach.reader 0 r (.active _ _ rfl)
  have r := Reach.reader 0 r (.get _ _ _ rfl)
  have r := Reach.reader 0 r (.casOk _ _ _ _ rfl rfl)
  have r := Reach.reader 0 r (.ptr _ _ _ rfl)
  have r := Reach.writer r (.remove 1 rfl (by decide))
  have r := Reach.writer r (.set _ _ _ _ rfl)
  have r := Reach.writer r (.ref _ _ _ _ rfl)
  have r := Reach.writer r (.pub _ _ _ _ rfl)
  have r := Reach.writer r (.sub _ _ _ _ rfl)
  exact ⟨_, r, rfl, rfl, rfl, rfl⟩

/-- A run for `C29_registered_partial` and `C29_handler`: 1, 2, 3 are registered, 2 unregistered;
a handler runs 1 and then 3. -/
example : ∃ s s', Careful 1 s ∧ s.writer = .idle ∧ s.hooks = [1, 3] ∧ Handlers 0 s [1, 3] s' ∧ ∃ c k, s'.readers[0]? = some (.visit c k none) := by
  have r := Careful.init (n := 1)
  have r := Careful.append r rfl
  have r := Careful.writer r (by simp [State.append]) (.set _ _ _ _ rfl)
  have r := Careful.writer r (fun h => by cases h) (.ref _ _ _ _ rfl)
  have r := Careful.writer r (fun h => by cases h) (.pub _ _ _ _ rfl)
  have r := Careful.writer r (fun h => by cases h) (.sub _ _ _ _ rfl)
  have r := Careful.writer r (fun h => by cases h) (.take _ _ _ _ rfl)
  have r := Careful.append r rfl
  have r := Careful.writer r (fun h => by cases h) (.set _ _ _ _ rfl)
  have r := Careful.writer r (fun h => by cases h) (.ref _ _ _ _ rfl)
  have r := Careful.writer r (fun h => by cases h) (.pub _ _ _ _ rfl)
  have r := Careful.writer r (fun h => by cases h) (.sub _ _ _ _ rfl)
  have r := Careful.writer r (fun h => by cases h) (.take _ _ _ _ rfl)
  have r := Careful.append r rfl
  have r := Careful.writer r (fun h => by cases h) (.set _ _ _ _ rfl)
  have r := Careful.writer r (fun h => by cases h) (.ref _ _ _ _ rfl)
  have r := Careful.writer r (fun h => by cases h) (.pub _ _ _ _ rfl)
  have r := Careful.writer r (fun h => by cases h) (.sub _ _ _ _ rfl)
  have r := Careful.writer r (fun h => by cases h) (.take _ _ _ _ rfl)
  have r := Careful.remove 2 r rfl (by decide) (fun h => absurd h (by decide))
  have r := Careful.writer r (fun h => by cases h) (.set _ _ _ _ rfl)
  have r := Careful.writer r (fun h => by cases h) (.ref _ _ _ _ rfl)
  have r := Careful.writer r (fun h => by cases h) (.pub _ _ _ _ rfl)
  have r := Careful.writer r (fun h => by cases h) (.sub _ _ _ _ rfl)
  have r := Careful.writer r (fun h => by cases h) (.take _ _ _ _ rfl)
  have r := Careful.writer r (fun h => by cases h) (.sub _ _ _ _ rfl)
  have r := Careful.writer r (fun h => by cases h) (.take _ _ _ _ rfl)
  have h := (fun {s} (_ : Careful 1 s) (e : s.readers[0]? = some .idle) => Handlers.start e (.start e)) r rfl
  have h := Handlers.other 0 h (.active _ _ rfl) (fun _ => ⟨(fun h => by cases h), (fun _ _ _ h => by cases h)⟩)
  have h := Handlers.other 0 h (.get _ _ _ rfl) (fun _ => ⟨(fun h => by cases h), (fun _ _ _ h => by cases h)⟩)
  have h := Handlers.other 0 h (.casOk _ _ _ _ rfl rfl) (fun _ => ⟨(fun h => by cases h), (fun _ _ _ h => by cases h)⟩)
  have h := Handlers.other 0 h (.ptr _ _ _ rfl) (fun _ => ⟨(fun h => by cases h), (fun _ _ _ h => by cases h)⟩)
  have h := Handlers.run _ _ _ h rfl (.run _ _ _ rfl) rfl
  have h := Handlers.other 0 h (.active _ _ rfl) (fun _ => ⟨(fun h => by cases h), (fun _ _ _ h => by cases h)⟩)
  have h := Handlers.other 0 h (.get _ _ _ rfl) (fun _ => ⟨(fun h => by cases h), (fun _ _ _ h => by cases h)⟩)
  have h := Handlers.other 0 h (.casOk _ _ _ _ rfl rfl) (fun _ => ⟨(fun h => by cases h), (fun _ _ _ h => by cases h)⟩)
  have h := Handlers.other 0 h (.ptr _ _ _ rfl) (fun _ => ⟨(fun h => by cases h), (fun _ _ _ h => by cases h)⟩)
  have h := Handlers.other 0 h (.put _ _ _ _ rfl) (fun _ => ⟨(fun h => by cases h), (fun _ _ _ h => by cases h)⟩)
  have h := Handlers.run _ _ _ h rfl (.run _ _ _ rfl) rfl
  have h := Handlers.other 0 h (.active _ _ rfl) (fun _ => ⟨(fun h => by cases h), (fun _ _ _ h => by cases h)⟩)
  have h := Handlers.other 0 h (.get _ _ _ rfl) (fun _ => ⟨(fun h => by cases h), (fun _ _ _ h => by cases h)⟩)
  have h := Handlers.other 0 h (.casOk _ _ _ _ rfl rfl) (fun _ => ⟨(fun h => by cases h), (fun _ _ _ h => by cases h)⟩)
  have h := Handlers.other 0 h (.ptr _ _ _ rfl) (fun _ => ⟨(fun h => by cases h), (fun _ _ _ h => by cases h)⟩)
  have h := Handlers.other 0 h (.put _ _ _ _ rfl) (fun _ => ⟨(fun h => by cases h), (fun _ _ _ h => by cases h)⟩)
  exact ⟨_, _, r, rfl, rfl, h, _, _, rfl⟩

/-! ## C60: which hooks a signal runs -/

section
open Sigdispatch

/-- The hooks in `hs` for `sig` that would run, in order: one-shot hooks only if they are armed. -/
def C60.ready (sig : Nat) (hs : List Hook) : List Hook := hs.filter fun h => h.sig = sig && (!h.oneshot || h.armed)

/-- C60: the table that results from registering hooks, in any order, holds them all, each in its
list. -/
theorem C60_table (hs : List Hook) : ∀ i, (hs.foldl register fun _ => []) i = hs.filter fun h => siglist h.sig = i := by
  have : ∀ (hs : List Hook) (l : Lists) (hs0 : List Hook), Table l hs0 → Table (hs.foldl register l) (hs0 ++ hs) := by
    intro hs
    induction hs with
    | nil => intro l hs0 h; simpa using h
    | cons h hs ih =>
      intro l hs0 h0
      have := ih _ _ (h0.register h)
      simpa using this
  have := this hs (fun _ => []) [] (fun i => rfl)
  rw [List.nil_append] at this
  exact this

/-- C60: when signal `sig` arrives with the hooks `hs` registered, the hooks for `sig` run, in the
order of their registration, and no others; then, if the signal is fatal and none of those asked
to continue, the hooks for exiting, and the process ends.  Missing: signal 64, see
`C60_collision_counterexample`. -/
theorem C60_dispatch_partial (fatal : Nat → Bool) {l : Lists} {hs : List Hook} (ht : ∀ i, l i = hs.filter fun h => siglist h.sig = i)
    {sig : Nat} (h0 : 0 < sig) (h64 : sig < 64) (hb : ∀ h ∈ hs, h.sig < 64) :
    (dispatch fatal l sig false).calls = (C60.ready sig hs).map (·.fn) ++
        (if fatal sig && !(C60.ready sig hs).any (·.cont) then (C60.ready 0 hs).map (·.fn) else []) ∧
      (dispatch fatal l sig false).dies = (fatal sig && !(C60.ready sig hs).any (·.cont)) := by
  have small : ∀ {n : Nat}, n < 64 → siglist n = n := fun h => Nat.mod_eq_of_lt h
  have e1 : (l (siglist sig)).filter (fun h => (shouldRun sig h).1) = C60.ready sig hs := by
    rw [ht, List.filter_filter]
    refine List.filter_congr (fun h hh => ?_)
    rw [small h64, small (hb h hh)]
    unfold shouldRun
    by_cases e : h.sig = sig
    · cases ho : h.oneshot <;> simp [e, ho]
    · simp [e]
  have e2 : (l (siglist 0)).filter (fun h => (shouldRun sig h).1) = C60.ready 0 hs := by
    rw [ht, List.filter_filter]
    refine List.filter_congr (fun h hh => ?_)
    rw [small (by decide : 0 < 64), small (hb h hh)]
    unfold shouldRun
    by_cases e : h.sig = 0
    · cases ho : h.oneshot <;> simp [e, ho]
    · simp [e]
  have ne : siglist 0 ≠ siglist sig := by
    rw [small h64, small (by decide : 0 < 64)]; omega
  unfold dispatch
  rw [if_neg (by simp)]
  simp only [runHooks_eq, e1, if_neg ne, e2]
  cases h1 : fatal sig <;> cases h2 : (C60.ready sig hs).any (·.cont) <;> simp

/-- C60: after a fault, no hook runs and the process dies. -/
theorem C60_fault (fatal : Nat → Bool) (l : Lists) (sig : Nat) : (dispatch fatal l sig true).calls = [] ∧ (dispatch fatal l sig true).dies = true := ⟨rfl, rfl⟩

/-- C60: whatever hooks are registered and whatever signals arrive, a one-shot hook runs at most
once. -/
theorem C60_oneshot (fatal : Nat → Bool) (es : List Event) (f : Nat) (h1 : ∀ h ∈ registered es, h.fn = f → h.oneshot = true)
    (h2 : (registered es).countP (fun h => h.fn = f) ≤ 1) : (play fatal es (fun _ => [], [])).2.count f ≤ 1 := by
  have := play_shots fatal f es (fun _ => [], []) [] (fun _ => rfl) (by simp) h1
  simp [shots] at this
  omega

/-- C60 is false of signal 64, `SIGRTMAX` on Linux: its hooks share the list of those for exiting.
A hook for exiting runs although another hook asked to continue and the process does not end, and
without that one it runs twice. -/
theorem C60_collision_counterexample :
    ((dispatch (fun s => s == 64) ([⟨0, false, false, 1, true⟩, ⟨64, false, true, 2, true⟩].foldl register fun _ => []) 64 false).calls = [1, 2] ∧
      (dispatch (fun s => s == 64) ([⟨0, false, false, 1, true⟩, ⟨64, false, true, 2, true⟩].foldl register fun _ => []) 64 false).dies = false) ∧
    (dispatch (fun s => s == 64) ([⟨0, false, false, 1, true⟩].foldl register fun _ => []) 64 false).calls = [1, 1] := by
  refine ⟨⟨?_, ?_⟩, ?_⟩ <;> decide

/-- For `C60_dispatch_partial`: SIGINT (2) with two hooks, and one for exiting. -/
example : (dispatch (fun s => s == 2) ([⟨2, true, false, 1, true⟩, ⟨0, false, false, 2, true⟩, ⟨2, false, false, 3, true⟩, ⟨10, false, false, 4, true⟩].foldl register fun _ => []) 2 false).calls = [1, 3, 2] := by decide

/-- For `C60_oneshot`. -/
example : (play (fun _ => false) [.register ⟨2, true, false, 1, true⟩, .signal 2 false, .signal 2 false] (fun _ => [], [])).2 = [1] := by decide

end

end Verif.Props
