import Verif.Lemmas.Streams

/-!
# C88 — the standard streams are open before anything else is

A shell can start a program with some of its standard streams closed (`bfs >&-`). The next files that such a program opens get their numbers, and what was meant for the terminal ends up in
them. Here the streams that are closed are opened first, in a way that leaves them useless.
-/

namespace Verif.Props
open Verif.Streams Verif.Spec.Streams

/-- **C88.** If the program starts: all standard streams are open. Those that were open before are the same as before; those that were not are the null device, but reading from standard input
and writing to the others fails as if they were closed; no other descriptor has changed. So `open()` will never return the number of a standard stream again, and there was no message. -/
theorem C88_streams (s : Sys) (p p' : Proc) (h : openStreams s p = (true, p')) :
    (∀ fd < 3, ∀ d, p.get fd = some d → p'.get fd = some d) ∧ (∀ fd < 3, p.get fd = none → Closed fd (p'.get fd)) ∧ (∀ fd, 3 ≤ fd → p'.get fd = p.get fd) ∧
    (∀ path flags fd p2, sysOpen s path flags p' = (some fd, p2) → 3 ≤ fd) ∧ p'.messages = p.messages := by
  obtain ⟨p1, ok1, h1, h⟩ := openStreams_step s h
  cases ok1 with
  | false => cases h.1
  | true =>
  obtain ⟨p2, ok2, h2, h⟩ := openStdout_step s h
  cases ok2 with
  | false => cases h.1
  | true =>
  obtain ⟨_, h3, rfl⟩ := openStdin_step s h
  have key : ∀ fd < 3, (∀ d, p.get fd = some d → p'.get fd = some d) ∧ (p.get fd = none → Closed fd (p'.get fd)) := by
    intro fd hfd
    match fd, hfd with
    | 0, _ =>
      have e : p2.get 0 = p.get 0 := by rw [h2.other 0 (by decide), h1.other 0 (by decide)]
      rw [← e]
      refine ⟨fun d hd => (h3.kept d hd).1, fun hn => ⟨_, h3.made hn, ?_⟩⟩
      cases s.opath <;> exact fun h => h
    | 1, _ =>
      have e : p1.get 1 = p.get 1 := h1.other 1 (by decide)
      have e' : p'.get 1 = p2.get 1 := h3.other 1 (by decide)
      show (∀ d, _ → p'.get 1 = _) ∧ (_ → Closed 1 (p'.get 1))
      rw [← e, e']
      refine ⟨fun d hd => (h2.kept d hd).1, fun hn => ⟨_, h2.made hn, ?_⟩⟩
      cases s.opath <;> exact fun h => h
    | 2, _ =>
      have e' : p'.get 2 = p1.get 2 := by rw [h3.other 2 (by decide), h2.other 2 (by decide)]
      show (∀ d, _ → p'.get 2 = _) ∧ (_ → Closed 2 (p'.get 2))
      rw [e']
      refine ⟨fun d hd => (h1.kept d hd).1, fun hn => ⟨_, h1.made hn, ?_⟩⟩
      cases s.opath <;> exact fun h => h
  refine ⟨fun fd hfd => (key fd hfd).1, fun fd hfd => (key fd hfd).2, fun fd hfd => ?_, fun path flags fd q hq => ?_, ?_⟩
  · show p'.get fd = _
    rw [h3.other fd (by omega), h2.other fd (by omega), h1.other fd (by omega)]
  · change sysOpen s path flags p' = _ at hq
    unfold sysOpen at hq
    split at hq
    · cases hq
    · cases hq
      have hfree : p'.get (lowest p'.fds) = none := (lowest_free p'.fds).1
      refine Nat.le_of_not_lt fun hlt => ?_
      cases hg : p.get (lowest p'.fds) with
      | some d => rw [(key _ hlt).1 d hg] at hfree; cases hfree
      | none =>
        obtain ⟨fl, hc, _⟩ := (key _ hlt).2 hg
        rw [hc] at hfree
        cases hfree
  · show p'.messages = _
    rw [h3.messages, h2.messages, h1.messages]

/-- **C88 (failure).** If it does not start, no descriptor that was open has changed, and none was opened but standard streams, as above. At most one message was written, to what standard error
was; or to nowhere, if that was closed. -/
theorem C88_failure (s : Sys) (p p' : Proc) (h : openStreams s p = (false, p')) :
    (∀ fd d, p.get fd = some d → p'.get fd = some d) ∧ (∀ fd, p.get fd = none → p'.get fd = none ∨ fd < 3 ∧ Closed fd (p'.get fd)) ∧
    (p'.messages = p.messages ∧ p.get 2 = none ∨ ∃ d, p'.messages = p.messages ++ [some d] ∧ (p.get 2 = some d ∨ p.get 2 = none ∧ Closed 2 (some d))) := by
  have useless : ∀ fd < 3, 0 < fd → Closed fd (some (.opened "/dev/null" (if s.opath then .path else .rdonly))) := by
    intro fd _ h0
    refine ⟨_, rfl, ?_⟩
    unfold Useless
    rw [if_neg (by omega)]
    cases s.opath <;> exact fun h => h
  obtain ⟨p1, ok1, h1, h⟩ := openStreams_step s h
  cases ok1 with
  | false =>
    obtain ⟨_, rfl⟩ := h
    have hn : p.get 2 = none := by
      cases hg : p.get 2 with
      | none => rfl
      | some d => cases (h1.kept d hg).2
    have same : ∀ fd, p'.get fd = p.get fd := by
      intro fd
      by_cases hfd : fd = 2
      · rw [hfd, hn]; exact h1.made hn
      · exact h1.other fd hfd
    exact ⟨fun fd d hd => by rw [same]; exact hd, fun fd hd => .inl (by rw [same]; exact hd), .inl ⟨h1.messages, hn⟩⟩
  | true =>
  have err : ∃ d, p1.get 2 = some d ∧ (p.get 2 = some d ∨ p.get 2 = none ∧ Closed 2 (some d)) := by
    cases hg : p.get 2 with
    | none => exact ⟨_, h1.made hg, .inr ⟨rfl, useless 2 (by decide) (by decide)⟩⟩
    | some d => exact ⟨d, (h1.kept d hg).1, .inl rfl⟩
  have one : ∀ fd, (∀ d, p.get fd = some d → p1.get fd = some d) ∧ (p.get fd = none → p1.get fd = none ∨ fd < 3 ∧ Closed fd (p1.get fd)) := by
    intro fd
    by_cases hfd : fd = 2
    · subst hfd
      exact ⟨fun d hd => (h1.kept d hd).1, fun hn => .inr ⟨by decide, by rw [h1.made hn]; exact useless 2 (by decide) (by decide)⟩⟩
    · rw [h1.other fd hfd]
      exact ⟨fun _ h => h, fun h => .inl h⟩
  obtain ⟨d, e1, e2⟩ := err
  obtain ⟨p2, ok2, h2, h⟩ := openStdout_step s h
  have m2 : p2.get 2 = some d := by rw [h2.other 2 (by decide)]; exact e1
  cases ok2 with
  | false =>
    obtain ⟨_, rfl⟩ := h
    have hn : p1.get 1 = none := by
      cases hg : p1.get 1 with
      | none => rfl
      | some d => cases (h2.kept d hg).2
    have same : ∀ fd, (perror p2).get fd = p1.get fd := by
      intro fd
      show p2.get fd = _
      by_cases hfd : fd = 1
      · rw [hfd, hn]; exact h2.made hn
      · exact h2.other fd hfd
    refine ⟨fun fd d hd => by rw [same]; exact (one fd).1 d hd, fun fd hd => by rw [same]; exact (one fd).2 hd, .inr ⟨d, ?_, e2⟩⟩
    show p2.messages ++ [p2.get 2] = _
    rw [m2, h2.messages, h1.messages]
  | true =>
  have two : ∀ fd, (∀ d, p.get fd = some d → p2.get fd = some d) ∧ (p.get fd = none → p2.get fd = none ∨ fd < 3 ∧ Closed fd (p2.get fd)) := by
    intro fd
    by_cases hfd : fd = 1
    · subst hfd
      rw [← h1.other 1 (by decide)]
      exact ⟨fun d hd => (h2.kept d hd).1, fun hn => .inr ⟨by decide, by rw [h2.made hn]; exact useless 1 (by decide) (by decide)⟩⟩
    · rw [h2.other fd hfd]
      exact one fd
  obtain ⟨p3, h3, rfl⟩ := openStdin_step s h
  have hn : p2.get 0 = none := by
    cases hg : p2.get 0 with
    | none => rfl
    | some d => cases (h3.kept d hg).2
  have same : ∀ fd, (perror p3).get fd = p2.get fd := by
    intro fd
    show p3.get fd = _
    by_cases hfd : fd = 0
    · rw [hfd, hn]; exact h3.made hn
    · exact h3.other fd hfd
  refine ⟨fun fd d hd => ?_, fun fd hd => ?_, .inr ⟨d, ?_, e2⟩⟩
  · show (perror p3).get fd = _
    rw [same]; exact (two fd).1 d hd
  · show (perror p3).get fd = _ ∨ _ ∧ Closed fd ((perror p3).get fd)
    rw [same]; exact (two fd).2 hd
  · show p3.messages ++ [p3.get 2] = _
    rw [h3.other 2 (by decide), m2, h3.messages, h2.messages, h1.messages]

/-- **C88 (nothing to do).** If all standard streams are open, nothing is opened, and this cannot fail. -/
theorem C88_open (s : Sys) (p : Proc) (h : ∀ fd < 3, ∃ d, p.get fd = some d) : openStreams s p = (true, p) := by
  unfold openStreams openStdout openStdin
  rw [if_pos ((isopen_iff s 2 p).2 (h 2 (by decide))), if_pos ((isopen_iff s 1 p).2 (h 1 (by decide))), if_pos ((isopen_iff s 0 p).2 (h 0 (by decide)))]

/-- **C88 (success).** If no system call fails, the program starts. -/
theorem C88_starts (s : Sys) (p : Proc) (h : ∀ n, s.fails n = false) : (openStreams s p).1 = true := by
  have red : ∀ fd path flags q, ∃ r q', redirect s fd path flags q = (some r, q') := by
    intro fd path flags q
    unfold redirect sysOpen
    rw [if_neg (by rw [h]; exact Bool.false_ne_true)]
    dsimp only
    by_cases h2 : lowest q.fds = fd
    · rw [if_pos h2]; exact ⟨_, _, rfl⟩
    · rw [if_neg h2]
      unfold sysDup2
      have hg : Proc.get { q with fds := setFd q.fds (lowest q.fds) (some (.opened path flags)), calls := q.calls + 1 } (lowest q.fds) = some (.opened path flags) := by
        show (setFd _ _ _)[_]?.join = _
        rw [get_set, if_pos rfl]
      rw [hg]
      dsimp only
      rw [if_neg (by rw [h]; exact Bool.false_ne_true)]
      exact ⟨_, _, rfl⟩
  have h0 : ∀ q, (openStdin s q).1 = true := by
    intro q
    unfold openStdin
    split
    · rfl
    · obtain ⟨r, q', e⟩ := red 0 "/dev/null" (if s.opath then .path else .wronly) q
      rw [e]
  have h1 : ∀ q, (openStdout s q).1 = true := by
    intro q
    unfold openStdout
    split
    · exact h0 q
    · obtain ⟨r, q', e⟩ := red 1 "/dev/null" (if s.opath then .path else .rdonly) q
      rw [e]
      exact h0 q'
  unfold openStreams
  split
  · exact h1 p
  · obtain ⟨r, q', e⟩ := red 2 "/dev/null" (if s.opath then .path else .rdonly) p
    rw [e]
    exact h1 q'

/-! ## The hypotheses are met -/

def sys88 : Sys := ⟨fun _ => false, true, fun _ => false⟩

/-- All streams are closed, and there is one file. -/
example : openStreams sys88 ⟨[none, none, none, some (.theirs 7)], 0, []⟩ =
    (true, ⟨[some (.opened "/dev/null" .path), some (.opened "/dev/null" .path), some (.opened "/dev/null" .path), some (.theirs 7)], 5, []⟩) := by decide
/-- `bfs >&-` without `O_PATH`. -/
example : openStreams { sys88 with opath := false } ⟨[some (.theirs 1), none, some (.theirs 3)], 0, []⟩ =
    (true, ⟨[some (.theirs 1), some (.opened "/dev/null" .rdonly), some (.theirs 3)], 1, []⟩) := by decide
/-- Standard output and input are closed, and the second `dup2()` fails. -/
example : openStreams { sys88 with fails := fun n => n == 1 } ⟨[none, none, some (.theirs 3)], 0, []⟩ = (false, ⟨[none, none, some (.theirs 3)], 2, [some (.theirs 3)]⟩) := by decide
example : ∀ fd < 3, ∃ d, (Proc.mk [some (.theirs 1), some (.theirs 2), some (.theirs 3)] 0 []).get fd = some d := by
  intro fd h
  match fd, h with
  | 0, _ | 1, _ | 2, _ => exact ⟨_, rfl⟩

end Verif.Props
