import Verif.Spec.Streams

/-! # Lemmas about descriptors -/

namespace Verif.Streams

theorem get_set (l : List (Option Desc)) (n : Nat) (d : Option Desc) (k : Nat) :
    (setFd l n d)[k]?.join = if k = n then d else l[k]?.join := by
  induction n generalizing l k with
  | zero =>
    cases l with
    | nil =>
      show [d][k]?.join = _
      cases k with
      | zero => rfl
      | succ k => rw [if_neg (by omega)]; rfl
    | cons x l =>
      show (d :: l)[k]?.join = _
      cases k with
      | zero => rfl
      | succ k => rw [if_neg (by omega)]; rfl
  | succ n ih =>
    cases l with
    | nil =>
      show (none :: setFd [] n d)[k]?.join = _
      cases k with
      | zero => rw [if_neg (by omega)]; rfl
      | succ k =>
        show (setFd [] n d)[k]?.join = _
        rw [ih]
        by_cases h : k = n
        · rw [if_pos h, if_pos (by omega)]
        · rw [if_neg h, if_neg (by omega)]; rfl
    | cons x l =>
      show (x :: setFd l n d)[k]?.join = _
      cases k with
      | zero => rw [if_neg (by omega)]; rfl
      | succ k =>
        show (setFd l n d)[k]?.join = _
        rw [ih]
        by_cases h : k = n
        · rw [if_pos h, if_pos (by omega)]
        · rw [if_neg h, if_neg (by omega)]; rfl

theorem lowest_free (l : List (Option Desc)) : l[lowest l]?.join = none ∧ ∀ k < lowest l, ∃ d, l[k]?.join = some d := by
  induction l with
  | nil => exact ⟨rfl, fun k h => absurd h (Nat.not_lt_zero k)⟩
  | cons x l ih =>
    cases x with
    | none => exact ⟨rfl, fun k h => absurd h (Nat.not_lt_zero k)⟩
    | some d =>
      refine ⟨ih.1, fun k h => ?_⟩
      cases k with
      | zero => exact ⟨d, rfl⟩
      | succ k => exact ih.2 k (Nat.lt_of_succ_lt_succ h)

theorem isopen_iff (s : Sys) (fd : Nat) (p : Proc) : isopen s fd p = true ↔ ∃ d, p.get fd = some d := by
  unfold isopen getfd
  cases h : p.get fd with
  | none => exact ⟨fun h => (by cases h), fun ⟨_, h⟩ => (by cases h)⟩
  | some d => cases s.odd fd <;> exact ⟨fun _ => ⟨d, rfl⟩, fun _ => rfl⟩

/-- Everything else is as it was. -/
theorem redirect_get (s : Sys) {fd : Nat} {path : String} {flags : Flags} {p p' : Proc} {ret : Option Nat} (hf : p.get fd = none) (h : redirect s fd path flags p = (ret, p')) :
    p'.messages = p.messages ∧ ∀ k, p'.get k = if k = fd ∧ ret.isSome then some (.opened path flags) else p.get k := by
  have hl := lowest_free p.fds
  unfold redirect sysOpen at h
  by_cases h1 : s.fails p.calls = true
  · rw [if_pos h1] at h
    cases h
    exact ⟨rfl, fun k => by rw [if_neg (fun h => by cases h.2)]; rfl⟩
  · rw [if_neg h1] at h
    dsimp only at h
    by_cases h2 : lowest p.fds = fd
    · rw [if_pos h2] at h
      cases h
      refine ⟨rfl, fun k => ?_⟩
      show (setFd _ _ _)[k]?.join = _
      rw [get_set, h2]
      by_cases hk : k = fd
      · rw [if_pos hk, if_pos ⟨hk, rfl⟩]
      · rw [if_neg hk, if_neg (fun h => hk h.1)]; rfl
    · rw [if_neg h2] at h
      unfold sysDup2 at h
      have hg : Proc.get { p with fds := setFd p.fds (lowest p.fds) (some (.opened path flags)), calls := p.calls + 1 } (lowest p.fds) = some (.opened path flags) := by
        show (setFd _ _ _)[_]?.join = _
        rw [get_set, if_pos rfl]
      rw [hg] at h
      dsimp only at h
      by_cases h3 : s.fails (p.calls + 1) = true
      · rw [if_pos h3] at h
        cases h
        refine ⟨rfl, fun k => ?_⟩
        show (setFd (setFd _ _ _) _ _)[k]?.join = _
        rw [get_set, get_set, if_neg (c := k = fd ∧ _) (fun h => by cases h.2)]
        by_cases hk : k = lowest p.fds
        · rw [if_pos hk, hk]; exact hl.1.symm
        · rw [if_neg hk, if_neg hk]; rfl
      · rw [if_neg h3] at h
        cases h
        refine ⟨rfl, fun k => ?_⟩
        show (setFd (setFd (setFd _ _ _) _ _) _ _)[k]?.join = _
        rw [get_set, get_set, get_set]
        by_cases hk : k = lowest p.fds
        · rw [if_pos hk, if_neg (fun h => h2 (hk ▸ h.1)), hk]; exact hl.1.symm
        · rw [if_neg hk, if_neg hk]
          by_cases hk' : k = fd
          · rw [if_pos hk', if_pos ⟨hk', rfl⟩]
          · rw [if_neg hk', if_neg (fun h => hk' h.1)]; rfl

/-- One stream after the other. -/
structure Step (fd : Nat) (flags : Flags) (p p' : Proc) (ok : Bool) : Prop where
  other : ∀ k, k ≠ fd → p'.get k = p.get k
  kept : ∀ d, p.get fd = some d → p'.get fd = some d ∧ ok = true
  made : p.get fd = none → p'.get fd = if ok then some (.opened "/dev/null" flags) else none
  messages : p'.messages = p.messages

theorem step_open (s : Sys) {fd : Nat} {flags : Flags} {p : Proc} (h : isopen s fd p = true) : Step fd flags p p true := by
  obtain ⟨d, hd⟩ := (isopen_iff s fd p).1 h
  exact ⟨fun _ _ => rfl, fun _ h => ⟨h, rfl⟩, fun h => (by rw [hd] at h; cases h), rfl⟩

theorem step_redirect (s : Sys) {fd : Nat} {flags : Flags} {p p' : Proc} {ret : Option Nat} (h : ¬ isopen s fd p = true) (hr : redirect s fd "/dev/null" flags p = (ret, p')) :
    Step fd flags p p' ret.isSome := by
  have hf : p.get fd = none := by
    cases hg : p.get fd with
    | none => rfl
    | some d => exact absurd ((isopen_iff s fd p).2 ⟨d, hg⟩) h
  obtain ⟨h1, h2⟩ := redirect_get s hf hr
  refine ⟨fun k hk => ?_, fun d hd => ?_, fun _ => ?_, h1⟩
  · rw [h2, if_neg (fun h => hk h.1)]
  · rw [hf] at hd; cases hd
  · rw [h2]
    cases ret with
    | none => rw [if_neg (fun h => by cases h.2)]; exact hf
    | some r => rw [if_pos ⟨rfl, rfl⟩]; rfl

theorem openStdin_step (s : Sys) {p p' : Proc} {ok : Bool} (h : openStdin s p = (ok, p')) :
    ∃ p1, Step 0 (if s.opath then .path else .wronly) p p1 ok ∧ p' = if ok then p1 else perror p1 := by
  unfold openStdin at h
  by_cases h1 : isopen s 0 p = true
  · rw [if_pos h1] at h
    cases h
    exact ⟨p, step_open s h1, rfl⟩
  · rw [if_neg h1] at h
    split at h
    · next q hr => cases h; exact ⟨_, step_redirect s h1 hr, rfl⟩
    · next r q hr => cases h; exact ⟨_, step_redirect s h1 hr, rfl⟩

theorem openStdout_step (s : Sys) {p p' : Proc} {ok : Bool} (h : openStdout s p = (ok, p')) :
    ∃ p1 ok1, Step 1 (if s.opath then .path else .rdonly) p p1 ok1 ∧ if ok1 then openStdin s p1 = (ok, p') else ok = false ∧ p' = perror p1 := by
  unfold openStdout at h
  by_cases h1 : isopen s 1 p = true
  · rw [if_pos h1] at h
    exact ⟨p, true, step_open s h1, h⟩
  · rw [if_neg h1] at h
    split at h
    · next q hr => cases h; exact ⟨_, false, step_redirect s h1 hr, rfl, rfl⟩
    · next r q hr => exact ⟨q, true, step_redirect s h1 hr, h⟩

theorem openStreams_step (s : Sys) {p p' : Proc} {ok : Bool} (h : openStreams s p = (ok, p')) :
    ∃ p1 ok1, Step 2 (if s.opath then .path else .rdonly) p p1 ok1 ∧ if ok1 then openStdout s p1 = (ok, p') else ok = false ∧ p' = p1 := by
  unfold openStreams at h
  by_cases h1 : isopen s 2 p = true
  · rw [if_pos h1] at h
    exact ⟨p, true, step_open s h1, h⟩
  · rw [if_neg h1] at h
    split at h
    · next q hr => cases h; exact ⟨_, false, step_redirect s h1 hr, rfl, rfl⟩
    · next r q hr => exact ⟨q, true, step_redirect s h1 hr, h⟩

end Verif.Streams
