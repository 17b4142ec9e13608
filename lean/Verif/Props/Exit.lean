import Verif.Spec.Exit
import Verif.Props.CtxLife
/-!
# C105 — the exit status that others see
-/
namespace Verif.Props
open Verif.Exit

theorem search105_exit {i : Bool} {n : Nat} {after : List Event} : ∀ (before : List Event) (s : St), (∀ m, Event.exit m ∉ before) →
    (search i (before ++ .exit n :: after) s).ret = n := by
  intro before
  induction before with
  | nil => intro s _; rfl
  | cons e es ih =>
    intro s h
    have h' : ∀ m, Event.exit m ∉ es := fun m hm => h m (by simp [hm])
    cases e with
    | error => exact ih _ h'
    | exit m => exact absurd (by simp) (h m)
    | other => exact ih _ h'

theorem search105_out {i : Bool} : ∀ (es : List Event) (s : St), (∀ m, Event.exit m ∉ es) →
    (i = false → Event.error ∈ es → (search i es s).ret = 1) ∧ (¬ (i = false ∧ Event.error ∈ es) → (search i es s).ret = s.ret) := by
  intro es
  induction es with
  | nil => intro s _; exact ⟨fun _ h => (by cases h), fun _ => rfl⟩
  | cons e es ih =>
    intro s h
    have h' : ∀ m, Event.exit m ∉ es := fun m hm => h m (by simp [hm])
    cases e with
    | error =>
      obtain ⟨h1, h2⟩ := ih (evalError i s) h'
      refine ⟨fun hi _ => ?_, fun hn => ?_⟩
      · by_cases he : Event.error ∈ es
        · exact h1 hi he
        · show (search i es (evalError i s)).ret = 1
          rw [h2 (fun hc => he hc.2)]
          unfold evalError; rw [hi]; rfl
      · have hi : i = true := by
          cases i with
          | true => rfl
          | false => exact absurd ⟨rfl, by simp⟩ hn
        show (search i es (evalError i s)).ret = s.ret
        rw [h2 (fun hc => by rw [hi] at hc; cases hc.1)]
        unfold evalError; rw [hi]; rfl
    | exit m => exact absurd (by simp) (h m)
    | other =>
      obtain ⟨h1, h2⟩ := ih s h'
      refine ⟨fun hi he => h1 hi (by simpa using he), fun hn => h2 fun hc => hn ⟨hc.1, by simp [hc.2]⟩⟩

theorem broken105 {r : Run} (hs : r.starts = true) (hx : r.expr = true) (h : Breaks r) : main r = 1 := by
  unfold main bfsEval
  rw [hs, hx]
  rcases h with h | h
  · rw [h]; cases r.execFails <;> cases r.lost <;> simp [FAILURE, SUCCESS]
  · rw [h]; cases r.lost <;> simp [FAILURE, SUCCESS]

theorem whole105 {r : Run} (hs : r.starts = true) (hx : r.expr = true) (h : ¬ Breaks r) :
    main r = if r.lost = true ∧ (search r.ignoreErrors r.events ⟨0, 0⟩).ret = 0 then 1 else (search r.ignoreErrors r.events ⟨0, 0⟩).ret := by
  have h1 : r.bftwFails = false := by
    cases hb : r.bftwFails with
    | false => rfl
    | true => exact absurd (.inl hb) h
  have h2 : r.execFails = false := by
    cases hb : r.execFails with
    | false => rfl
    | true => exact absurd (.inr hb) h
  unfold main bfsEval
  rw [hs, hx, h1, h2]
  rfl

/-- **C105** (partial: a search that isn't ended by `-exit`). bfs is seen to succeed if and only if it could start, nothing was wrong with any file (or the user didn't mind), nothing else went wrong,
and all output was written; otherwise the status is 1. -/
theorem C105_success_partial (r : Run) (ho : RunsOut r) :
    (waited r = 0 ↔ r.starts = true ∧ (r.expr = true → ¬ Errors r ∧ ¬ Breaks r) ∧ r.lost = false) ∧ (waited r ≠ 0 → waited r = 1) := by
  unfold waited
  cases hs : r.starts with
  | false => unfold main; rw [hs]; exact ⟨⟨fun h => by simp [FAILURE] at h, fun h => by cases h.1⟩, fun _ => rfl⟩
  | true =>
    cases hx : r.expr with
    | false =>
      unfold main bfsEval
      rw [hs, hx]
      cases r.lost <;> simp [FAILURE, SUCCESS]
    | true =>
      by_cases hb : Breaks r
      · rw [broken105 hs hx hb]
        exact ⟨⟨fun h => (by cases h), fun h => absurd hb (h.2.1 rfl).2⟩, fun _ => rfl⟩
      · rw [whole105 hs hx hb]
        obtain ⟨h1, h2⟩ := search105_out (i := r.ignoreErrors) r.events ⟨0, 0⟩ ho
        by_cases he : Errors r
        · rw [h1 he.1 he.2, if_neg (fun h => by cases h.2)]
          exact ⟨⟨fun h => (by cases h), fun h => absurd he (h.2.1 rfl).1⟩, fun _ => rfl⟩
        · rw [h2 he]
          cases hl : r.lost with
          | false => simp [he, hb]
          | true => simp

/-- C105 (partial: numbers below 256). The status is the one that `-exit` asks for, if nothing goes wrong afterwards. -/
theorem C105_exit_partial (r : Run) (n : Nat) (before : List Event) (h : Exits r n before) (hs : r.starts = true) (hx : r.expr = true) (hb : ¬ Breaks r) (hl : r.lost = false) (hn : n < 256) :
    waited r = n := by
  obtain ⟨h1, after, h2⟩ := h
  unfold waited
  rw [whole105 hs hx hb, h2, search105_exit _ _ h1, hl, if_neg (fun h => by cases h.1)]
  exact Nat.mod_eq_of_lt hn

/-- C105 (after `-exit`). In all cases: if something goes wrong, the status is 1; otherwise only the lowest eight bits of the number count, and lost output counts only if the number is 0. -/
theorem C105_exit (r : Run) (n : Nat) (before : List Event) (h : Exits r n before) (hs : r.starts = true) (hx : r.expr = true) :
    (Breaks r → waited r = 1) ∧ (¬ Breaks r → r.lost = true → n = 0 → waited r = 1) ∧ (¬ Breaks r → (r.lost = true → n ≠ 0) → waited r = n % 256) := by
  obtain ⟨h1, after, h2⟩ := h
  unfold waited
  refine ⟨fun hb => by rw [broken105 hs hx hb], fun hb hl hn => ?_, fun hb hl => ?_⟩
  · rw [whole105 hs hx hb, h2, search105_exit _ _ h1, if_pos ⟨hl, hn⟩]
  · rw [whole105 hs hx hb, h2, search105_exit _ _ h1, if_neg (fun hc => hl hc.1 hc.2)]

/-- C105 (a reason to rely on). Without `-exit`, or with a number that isn't a multiple of 256, no failure to start, to search or to write is taken for a success. -/
theorem C105_failure_partial (r : Run) (hf : r.starts = false ∨ (r.expr = true ∧ Breaks r) ∨ r.lost = true) (hm : ∀ n before, Exits r n before → n = 0 ∨ n % 256 ≠ 0) :
    waited r ≠ 0 := by
  by_cases ho : RunsOut r
  · intro h
    obtain ⟨h1, h2, h3⟩ := (C105_success_partial r ho).1.1 h
    rcases hf with hf | ⟨hf, hb⟩ | hf
    · rw [h1] at hf; cases hf
    · exact (h2 hf).2 hb
    · rw [h3] at hf; cases hf
  · cases hs : r.starts with
    | false => unfold waited main; rw [hs]; simp [FAILURE]
    | true =>
      cases hx : r.expr with
      | false =>
        have hl : r.lost = true := by
          rcases hf with hf | ⟨hf, _⟩ | hf
          · rw [hs] at hf; cases hf
          · rw [hx] at hf; cases hf
          · exact hf
        unfold waited main bfsEval
        rw [hs, hx, hl]; simp [FAILURE, SUCCESS]
      | true =>
        have hex : ∃ n before, Exits r n before := by
          unfold RunsOut at ho
          have key : ∀ es : List Event, (¬ ∀ m, Event.exit m ∉ es) → ∃ n before, (∀ m, Event.exit m ∉ before) ∧ ∃ after, es = before ++ .exit n :: after := by
            intro es
            induction es with
            | nil => intro h; exact absurd (fun m hm => by cases hm) h
            | cons e es ih =>
              intro h
              by_cases hee : ∃ n, e = .exit n
              · obtain ⟨n, rfl⟩ := hee
                exact ⟨n, [], fun m hm => (by cases hm), es, rfl⟩
              · obtain ⟨n, before, h1, after, h2⟩ := ih (fun hall => h fun m hm => by
                  rcases List.mem_cons.1 hm with hm | hm
                  · exact hee ⟨m, hm.symm⟩
                  · exact hall m hm)
                refine ⟨n, e :: before, fun m hm => ?_, after, by rw [h2]; rfl⟩
                rcases List.mem_cons.1 hm with hm | hm
                · exact hee ⟨m, hm.symm⟩
                · exact h1 m hm
          exact key r.events ho
        obtain ⟨n, before, he⟩ := hex
        obtain ⟨h1, h2, h3⟩ := C105_exit r n before he hs hx
        by_cases hb : Breaks r
        · rw [h1 hb]; decide
        · have hl : r.lost = true := by
            rcases hf with hf | ⟨_, hf⟩ | hf
            · rw [hs] at hf; cases hf
            · exact absurd hf hb
            · exact hf
          by_cases hn : n = 0
          · rw [h2 hb hl hn]; decide
          · rw [h3 hb (fun _ => hn)]
            rcases hm n before he with hm | hm
            · exact absurd hm hn
            · exact hm

/-- C105 (the whole program). This is the status that bfs returns after everything that it holds was given back (C100), if the search returns what `bfs_eval()` does here. -/
theorem C105_whole (l : CtxLife.Luck) (r : Run) (h1 : r.starts = Spec.CtxLife.starts l) (h2 : r.expr = true ↔ l.cmd.ending = .good) (h3 : r.lost = Spec.CtxLife.loses l)
    (h4 : r.expr = true → l.ret = bfsEval r) : CtxLife.main l = .ok (Exit.main r, []) := by
  rw [C100_status]
  unfold Spec.CtxLife.status Exit.main
  rw [← h1, ← h3]
  cases r.starts with
  | false => rfl
  | true =>
    have he : (if l.cmd.ending = .good then l.ret else 0) = bfsEval r := by
      by_cases hg : l.cmd.ending = .good
      · rw [if_pos hg]; exact h4 (h2.2 hg)
      · rw [if_neg hg]
        have hx : r.expr = false := by
          cases hx : r.expr with
          | false => rfl
          | true => exact absurd (h2.1 hx) hg
        unfold bfsEval; rw [hx]; rfl
    dsimp only
    rw [he]
    by_cases h0 : bfsEval r = 0
    · rw [h0]; cases r.lost <;> rfl
    · simp [h0, SUCCESS]

/-- The hypotheses of `C105_whole` are met: output is lost, and the search found errors. -/
example : ∃ r : Run, r.starts = Spec.CtxLife.starts (c100Run (fun id => id == 1) (.mtab true) 1) ∧ (r.expr = true ↔ (c100Run (fun id => id == 1) (.mtab true) 1).cmd.ending = .good) ∧
    r.lost = Spec.CtxLife.loses (c100Run (fun id => id == 1) (.mtab true) 1) ∧ (c100Run (fun id => id == 1) (.mtab true) 1).ret = bfsEval r :=
  ⟨⟨true, true, false, [.error], false, false, true⟩, by decide, by decide, by decide, by decide⟩

/-- C105: the number that `-exit` asks for isn't the status in general. `-exit 256` is accepted, and is seen as a success. -/
theorem C105_number_counterexample : ∃ r n before, Exits r n before ∧ r.starts = true ∧ r.expr = true ∧ ¬ Breaks r ∧ r.lost = false ∧ n < 2 ^ 31 ∧ waited r = 0 ∧ n ≠ 0 :=
  ⟨⟨true, true, false, [.exit 256], false, false, false⟩, 256, [], ⟨(fun _ h => by cases h), [], rfl⟩, rfl, rfl, (fun h => by rcases h with h | h <;> cases h), rfl, by decide, by decide, by decide⟩

/-- C105: lost output isn't always seen: with `-print -exit 256 >/dev/full`, `main()` takes 256 for a failure that is reported already, but it is seen as a success. -/
theorem C105_lost_counterexample : ∃ r : Run, r.starts = true ∧ r.lost = true ∧ waited r = 0 :=
  ⟨⟨true, true, false, [.exit 256], false, false, true⟩, rfl, rfl, by decide⟩

/-- C105: errors aren't always seen: `-exit` without a number, or with 0, hides those that came before it. -/
theorem C105_hidden_counterexample : ∃ r : Run, r.starts = true ∧ r.expr = true ∧ Errors r ∧ Exits r 0 [.error] ∧ waited r = 0 :=
  ⟨⟨true, true, false, [.error, .exit 0], false, false, false⟩, rfl, rfl, ⟨rfl, by simp⟩, ⟨(fun m h => by simp at h), [], rfl⟩, by decide⟩

/-- The hypotheses are met. -/
example : RunsOut ⟨true, true, false, [.other, .error], false, false, false⟩ ∧ waited ⟨true, true, false, [.other, .error], false, false, false⟩ = 1 ∧
    waited ⟨true, true, true, [.other, .error], false, false, false⟩ = 0 ∧ waited ⟨true, true, true, [.other], false, false, true⟩ = 1 :=
  ⟨(fun m h => by simp at h), by decide, by decide, by decide⟩
example : Exits ⟨true, true, false, [.error, .other, .exit 42, .error], false, false, true⟩ 42 [.error, .other] ∧
    waited ⟨true, true, false, [.error, .other, .exit 42, .error], false, false, true⟩ = 42 := ⟨⟨(fun m h => by simp at h), [.error], rfl⟩, by decide⟩

end Verif.Props
