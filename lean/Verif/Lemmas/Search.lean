import Verif.Props.Ids
import Verif.Spec.Search

namespace Verif.Bftw

theorem toSize_eq {n : Int} (h0 : 0 ≤ n) (h1 : n < 2 ^ 31) : (toSize n : Int) = n := by
  unfold toSize
  omega

theorem mem_verdicts {c : Cfg} {e : Env} {tr : List Event} {x : Event × Verdict} :
    x ∈ c.verdicts e tr ↔ ∃ later earlier, tr = later ++ x.1 :: earlier ∧
      x.2 = c.verdict e earlier x.1.visit x.1.pos x.1.path := by
  induction tr with
  | nil =>
    constructor
    · intro h; cases h
    · rintro ⟨l, r, h, _⟩
      simp at h
  | cons ev tr ih =>
    unfold Cfg.verdicts
    rw [List.mem_cons, ih]
    constructor
    · rintro (rfl | ⟨l, r, h1, h2⟩)
      · exact ⟨[], tr, rfl, rfl⟩
      · exact ⟨ev :: l, r, by rw [h1]; rfl, h2⟩
    · rintro ⟨l, r, h1, h2⟩
      cases l with
      | nil =>
        simp only [List.nil_append, List.cons.injEq] at h1
        obtain ⟨h3, h4⟩ := h1
        left
        rw [h3, h4]
        exact Prod.ext rfl h2
      | cons y l =>
        simp only [List.cons_append, List.cons.injEq] at h1
        exact Or.inr ⟨l, r, h1.2, h2⟩

theorem mem_evaluations {c : Cfg} {e : Env} {tr : List Event} {p : Pos} :
    p ∈ c.evaluations e tr ↔ ∃ later ev earlier, tr = later ++ ev :: earlier ∧ ev.pos = p ∧
      (c.verdict e earlier ev.visit ev.pos ev.path).evaluated = true := by
  unfold Cfg.evaluations
  rw [List.mem_map]
  constructor
  · rintro ⟨x, h1, h2⟩
    obtain ⟨h3, h4⟩ := List.mem_filter.1 h1
    obtain ⟨l, r, h5, h6⟩ := mem_verdicts.1 h3
    exact ⟨l, x.1, r, h5, h2, by rw [← h6]; exact h4⟩
  · rintro ⟨l, ev, r, h1, h2, h3⟩
    exact ⟨(ev, _), List.mem_filter.2 ⟨mem_verdicts.2 ⟨l, r, h1, rfl⟩, h3⟩, h2⟩

theorem evaluations_cons {c : Cfg} {e : Env} {ev : Event} {tr : List Event} :
    c.evaluations e (ev :: tr) =
      if (c.verdict e tr ev.visit ev.pos ev.path).evaluated = true then ev.pos :: c.evaluations e tr
      else c.evaluations e tr := by
  unfold Cfg.evaluations
  rw [Cfg.verdicts, List.filter_cons]
  split <;> rfl

theorem unsafePath_iff (path : Bytes) :
    unsafePath path = false ↔ ∀ b ∈ path, b ∉ ([32, 9, 10, 39, 34, 92] : List UInt8) := by
  unfold unsafePath
  rw [List.any_eq_false]
  constructor
  · intro h b hb hm
    exact h b hb (List.contains_iff_mem.2 hm)
  · intro h b hb hm
    exact h b hb (List.contains_iff_mem.1 hm)

/-- When the expression is evaluated. -/
theorem verdict_evaluated {c : Cfg} (hs : c.Sane) {e : Env} {tr : List Event} {v : Visit} {p : Pos} :
    (c.verdict e tr v p (e.fullPath p)).evaluated = true ↔
      v = c.expected e p ∧ e.error p = false ∧ c.Allowed e p ∧ c.InRange p ∧
      ¬ (c.unique = true ∧ v = .pre ∧ c.fileId p ∈ c.seen e tr) := by
  have h1 := toSize_eq hs.min0 hs.min1
  have h2 := toSize_eq hs.max0 hs.max1
  have hne : c.expected e p ≠ .err := by
    unfold Cfg.expected
    split <;> simp
  have hr : (depth p ≥ toSize c.mindepth ∧ depth p ≤ toSize c.maxdepth) ↔ c.InRange p := by
    unfold Cfg.InRange
    omega
  unfold Cfg.verdict
  by_cases he : v = .err ∨ e.error p = true
  · rw [if_pos (by simpa using he)]
    constructor
    · intro h; simp [Cfg.failed] at h
    · rintro ⟨h3, h4, _⟩
      rcases he with he | he
      · exact absurd (he.symm.trans h3).symm hne
      · rw [he] at h4; cases h4
  · rw [if_neg (by simpa using he)]
    have he2 : e.error p = false := by
      cases hh : e.error p with
      | false => rfl
      | true => exact absurd (Or.inr hh) he
    by_cases hu : c.unique = true ∧ v = .pre ∧ c.fileId p ∈ c.seen e tr
    · rw [if_pos (by simpa [and_assoc] using hu)]
      constructor
      · intro h; cases h
      · rintro ⟨_, _, _, _, h⟩; exact absurd hu h
    · rw [if_neg (by simpa [and_assoc] using hu)]
      unfold Cfg.examine
      by_cases hx : c.exclude p = true
      · rw [if_pos hx]
        constructor
        · intro h; cases h
        · rintro ⟨_, _, h, _⟩; rw [h.1] at hx; cases hx
      · rw [if_neg hx]
        by_cases hq : (c.xargsSafe && unsafePath (e.fullPath p)) = true
        · rw [if_pos hq]
          constructor
          · intro h; cases h
          · rintro ⟨_, _, h, _⟩
            rw [Bool.and_eq_true] at hq
            have := (unsafePath_iff _).2 (h.2 hq.1)
            rw [this] at hq
            cases hq.2
        · rw [if_neg hq]
          have ha : c.Allowed e p := by
            refine ⟨by simpa using hx, fun hc => (unsafePath_iff _).1 ?_⟩
            rw [hc, Bool.true_and] at hq
            simpa using hq
          unfold Cfg.evaluate
          dsimp only
          by_cases hv : v = c.expected e p ∧ c.InRange p
          · rw [if_pos ⟨hv.1, hr.2 hv.2⟩]
            exact ⟨fun _ => ⟨hv.1, he2, ha, hv.2, hu⟩, fun _ => rfl⟩
          · rw [if_neg (fun hh => hv ⟨hh.1, hr.1 hh.2⟩)]
            constructor
            · intro h; cases h
            · rintro ⟨a, _, _, b, _⟩; exact absurd ⟨a, b⟩ hv

/-- When bfs goes on from there. -/
theorem verdict_cont {c : Cfg} (hs : c.Sane) (hu : c.unique = false) {e : Env} {tr : List Event}
    {v : Visit} {p : Pos} :
    (c.verdict e tr v p (e.fullPath p)).action = .cont ↔
      v ≠ .err ∧ e.error p = false ∧ c.Allowed e p ∧ (depth p : Int) < c.maxdepth ∧
      (v = c.expected e p → c.InRange p → c.expr p = .cont) := by
  have h1 := toSize_eq hs.min0 hs.min1
  have h2 := toSize_eq hs.max0 hs.max1
  have hr : (depth p ≥ toSize c.mindepth ∧ depth p ≤ toSize c.maxdepth) ↔ c.InRange p := by
    unfold Cfg.InRange
    omega
  unfold Cfg.verdict
  by_cases he : v = .err ∨ e.error p = true
  · rw [if_pos (by simpa using he)]
    constructor
    · intro h; cases h
    · rintro ⟨h3, h4, _⟩
      rcases he with he | he
      · exact absurd he h3
      · rw [he] at h4; cases h4
  · rw [if_neg (by simpa using he), hu, Bool.false_and, Bool.false_and, if_neg (by simp)]
    have he1 : v ≠ .err := fun hh => he (Or.inl hh)
    have he2 : e.error p = false := by
      cases hh : e.error p with
      | false => rfl
      | true => exact absurd (Or.inr hh) he
    unfold Cfg.examine
    by_cases hx : c.exclude p = true
    · rw [if_pos hx]
      constructor
      · intro h; cases h
      · rintro ⟨_, _, h, _⟩; rw [h.1] at hx; cases hx
    · rw [if_neg hx]
      by_cases hq : (c.xargsSafe && unsafePath (e.fullPath p)) = true
      · rw [if_pos hq]
        constructor
        · intro h; cases h
        · rintro ⟨_, _, h, _⟩
          rw [Bool.and_eq_true] at hq
          have := (unsafePath_iff _).2 (h.2 hq.1)
          rw [this] at hq
          cases hq.2
      · rw [if_neg hq]
        have ha : c.Allowed e p := by
          refine ⟨by simpa using hx, fun hc => (unsafePath_iff _).1 ?_⟩
          rw [hc, Bool.true_and] at hq
          simpa using hq
        unfold Cfg.evaluate
        dsimp only
        have hact : (if c.maxdepth < 0 ∨ depth p ≥ toSize c.maxdepth then Action.prune else .cont) =
            .cont ↔ (depth p : Int) < c.maxdepth := by
          have h0 := hs.max0
          by_cases hd : c.maxdepth < 0 ∨ depth p ≥ toSize c.maxdepth
          · rw [if_pos hd]
            constructor
            · intro h; cases h
            · intro h; omega
          · rw [if_neg hd]
            exact ⟨fun _ => by omega, fun _ => rfl⟩
        by_cases hv : v = c.expected e p ∧ c.InRange p
        · rw [if_pos ⟨hv.1, hr.2 hv.2⟩]
          dsimp only
          by_cases hc : c.expr p = .cont
          · rw [if_pos hc, hact]
            exact ⟨fun hh => ⟨he1, he2, ha, hh, fun _ _ => hc⟩, fun hh => hh.2.2.2.1⟩
          · rw [if_neg hc]
            exact ⟨fun hh => absurd hh hc, fun hh => hh.2.2.2.2 hv.1 hv.2⟩
        · rw [if_neg (fun hh => hv ⟨hh.1, hr.1 hh.2⟩)]
          dsimp only
          rw [hact]
          exact ⟨fun hh => ⟨he1, he2, ha, hh, fun a b => absurd ⟨a, b⟩ hv⟩, fun hh => hh.2.2.2.1⟩

/-- The files on which the expression was evaluated are those that got the right kind of visit. -/
theorem evaluations_iff {c : Cfg} (hs : c.Sane) (hu : c.unique = false) {e : Env} {tr : List Event}
    (hp : ∀ ev ∈ tr, ev.path = e.fullPath ev.pos) (p : Pos) :
    p ∈ c.evaluations e tr ↔
      p ∈ visits (c.expected e p) tr ∧ e.error p = false ∧ c.Allowed e p ∧ c.InRange p := by
  rw [mem_evaluations, Props.visits_iff]
  constructor
  · rintro ⟨l, ev, r, h1, h2, h3⟩
    have hm : ev ∈ tr := by rw [h1]; simp
    rw [hp ev hm, h2] at h3
    obtain ⟨a, b, c', d, _⟩ := (verdict_evaluated hs).1 h3
    exact ⟨⟨ev, hm, a, h2⟩, b, c', d⟩
  · rintro ⟨⟨ev, h1, h2, h3⟩, h4, h5, h6⟩
    obtain ⟨l, r, h7⟩ := List.append_of_mem h1
    refine ⟨l, ev, r, h7, h3, ?_⟩
    rw [hp ev h1, h3]
    exact (verdict_evaluated hs).2 ⟨h2, h4, h5, h6, fun hh => by rw [hu] at hh; cases hh.1⟩

/-- The expression is evaluated at most once on each file, and only during the expected visit. -/
theorem evaluations_visits {c : Cfg} (hs : c.Sane) {e : Env} {tr : List Event}
    (hp : ∀ ev ∈ tr, ev.path = e.fullPath ev.pos) {p : Pos} (h : p ∈ c.evaluations e tr) :
    p ∈ visits (c.expected e p) tr := by
  obtain ⟨l, ev, r, h1, h2, h3⟩ := mem_evaluations.1 h
  have hm : ev ∈ tr := by rw [h1]; simp
  rw [hp ev hm, h2] at h3
  exact Props.visits_iff.2 ⟨ev, hm, ((verdict_evaluated hs).1 h3).1, h2⟩

theorem evaluations_nodup {c : Cfg} (hs : c.Sane) {e : Env} :
    ∀ {tr : List Event}, (∀ ev ∈ tr, ev.path = e.fullPath ev.pos) →
    (∀ p, (visits (c.expected e p) tr).Nodup) → (c.evaluations e tr).Nodup
  | [], _, _ => List.nodup_nil
  | ev :: tr, hp, hn => by
    have hp' : ∀ ev ∈ tr, ev.path = e.fullPath ev.pos := fun x hx => hp x (List.mem_cons_of_mem _ hx)
    have ih := evaluations_nodup hs (c := c) hp' (fun p => by
      have := hn p
      rw [visits_cons] at this
      split at this
      · exact (List.nodup_cons.1 this).2
      · exact this)
    rw [evaluations_cons]
    split
    · rename_i hev
      rw [hp ev List.mem_cons_self] at hev
      have hv := ((verdict_evaluated hs).1 hev).1
      refine List.nodup_cons.2 ⟨fun hm => ?_, ih⟩
      have h1 := evaluations_visits hs hp' hm
      rw [← hv] at h1
      have h2 := hn ev.pos
      rw [← hv, visits_cons, if_pos rfl] at h2
      exact (List.nodup_cons.1 h2).1 h1
    · exact ih

end Verif.Bftw
