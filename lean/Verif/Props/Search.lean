import Verif.Lemmas.Search
import Verif.Lemmas.BftwCongr

/-!
# C70: the expression is evaluated exactly once on every file it should be
-/
namespace Verif.Props

open Verif Verif.Bftw

variable {c : Cfg} {e : Env} {s : State}

theorem search_fullPath (c : Cfg) (e : Env) (p : Pos) : (c.env e).fullPath p = e.fullPath p := by
  induction p with
  | nil => rfl
  | cons j p ih =>
    cases p with
    | nil => rfl
    | cons i p => show join _ _ = join _ _; rw [ih]; rfl

theorem search_path (hN : e.Named) (h : Reach (c.env e) s) :
    ∀ ev ∈ s.trace, ev.path = e.fullPath ev.pos := by
  intro ev hev
  rw [C23_path (e := c.env e) hN h hev, search_fullPath]

theorem barrier_iff (e : Env) (p : Pos) :
    e.barrier p ↔ e.pruneMounts = true ∧ p.tail ≠ [] ∧ e.mount p = true := by
  unfold Env.barrier Env.isMount
  cases p.tail <;> simp

theorem search_found {into into' : Pos → Prop} {p : Pos} (h : Found (c.env e) into p)
    (hi : ∀ q, Found (c.env e) into q → into q → into' q) : Found e into' p := by
  induction h with
  | root i h => exact Found.root i h
  | entry p j hp hi' hj ih => exact Found.entry p j ih (hi p hp hi') hj

theorem search_entered (hs : c.Sane) (hu : c.unique = false) (hN : e.Named)
    (h : Reach (c.env e) s) {p : Pos} (hv : p ∈ visits .pre s.trace) :
    p ∈ entered s.trace ↔ e.isDir p = true ∧ ¬ e.barrier p ∧ e.error p = false ∧ c.Allowed e p ∧
      (depth p : Int) < c.maxdepth ∧ (.pre = c.expected e p → c.InRange p → c.expr p = .cont) := by
  have key : ∀ {later earlier : List Event} {ev : Event}, s.trace = later ++ ev :: earlier →
      ev.visit = .pre → ev.pos = p → (ev.action = .cont ↔ e.isDir p = true ∧ ¬ e.barrier p ∧
      e.error p = false ∧ c.Allowed e p ∧ (depth p : Int) < c.maxdepth ∧
      (.pre = c.expected e p → c.InRange p → c.expr p = .cont)) := by
    intro l r ev ht h1 h2
    have hd := (C21_decision (e := c.env e) hN h ht).2
    rw [hd, search_path hN h ev (by rw [ht]; simp), h1, h2]
    have hc := verdict_cont hs hu (e := e) (tr := r) (v := .pre) (p := p)
    have hb := barrier_iff e p
    constructor
    · rintro ⟨a1, _, a2, a3⟩
      obtain ⟨_, b1, b2, b3, b4⟩ := hc.1 a1
      exact ⟨a2, fun hh => a3 (hb.1 hh), b1, b2, b3, b4⟩
    · rintro ⟨a1, a2, b1, b2, b3, b4⟩
      exact ⟨hc.2 ⟨by simp, b1, b2, b3, b4⟩, rfl, a1, fun hh => a2 (hb.2 hh)⟩
  constructor
  · intro hp
    obtain ⟨l, ev, r, h1, h2, h3, h4⟩ := entered_split hp
    exact (key h1 h2 h4).1 h3
  · intro hh
    obtain ⟨ev, h1, h2, h3⟩ := visits_iff.1 hv
    obtain ⟨l, r, h4⟩ := List.append_of_mem h1
    rw [← h3]
    exact entered_of_ev h1 h2 ((key h4 h2 h3).2 hh)

theorem expected_pre (hp : e.post = false) (p : Pos) : c.expected e p = .pre := by
  unfold Cfg.expected
  rw [hp]
  rfl

theorem expected_iff (hs : c.Sane) (hi : e.strategy ≠ .ids) (p : Pos) :
    c.expected e p = .post ↔ e.post = true ∧ e.isDir p = true ∧ (depth p : Int) < c.maxdepth := by
  have h2 := toSize_eq hs.max0 hs.max1
  unfold Cfg.expected
  have hi' : decide (e.strategy = .ids) = false := decide_eq_false hi
  rw [hi', Bool.false_or]
  cases e.post <;> cases e.isDir p <;> simp
  omega

theorem expected_cases (c : Cfg) (e : Env) (p : Pos) :
    c.expected e p = .pre ∨ c.expected e p = .post := by
  unfold Cfg.expected
  split
  · exact Or.inr rfl
  · exact Or.inl rfl

/-- Going into a directory, as seen from the walk. -/
theorem search_enters (hs : c.Sane) (hu : c.unique = false) (hN : e.Named) (hi : e.strategy ≠ .ids)
    (hE : ∀ p, e.error p = true → e.isDir p = false) (h : Reach (c.env e) s) {p : Pos}
    (hv : p ∈ visits .pre s.trace) (hk : e.skipped p = false) :
    p ∈ entered s.trace ↔ c.Enters e p := by
  rw [search_entered hs hu hN h hv]
  constructor
  · rintro ⟨h1, h2, h3, h4, h5, h6⟩
    refine ⟨h1, h4, h5, h2, hk, fun hp hr => h6 (expected_pre hp p).symm hr⟩
  · intro hh
    refine ⟨hh.dir, hh.here, ?_, hh.allowed, hh.shallow, fun hx hr => hh.pruned ?_ hr⟩
    · cases hx : e.error p with
      | false => rfl
      | true => exact absurd (hE p hx) (by rw [hh.dir]; simp)
    · cases hp : e.post with
      | false => rfl
      | true =>
        rw [(expected_iff hs hi p).2 ⟨hp, hh.dir, hh.shallow⟩] at hx
        cases hx

theorem search_visited (hs : c.Sane) (hu : c.unique = false) (hN : e.Named) (hi : e.strategy ≠ .ids)
    (hE : ∀ p, e.error p = true → e.isDir p = false) (h : Reach (c.env e) s) (hd : s.pc = .done)
    (p : Pos) : p ∈ visits .pre s.trace ↔ Found e (c.Enters e) p ∧ e.skipped p = false := by
  have hc := C18_complete (e := c.env e) hN h hd
  have enter : ∀ q, Found (c.env e) (· ∈ entered s.trace) q → q ∈ entered s.trace → c.Enters e q := by
    intro q _ hq
    have hv := entered_sub _ q hq
    exact (search_enters hs hu hN hi hE h hv ((hc q).1 hv).2).1 hq
  constructor
  · intro hv
    exact ⟨search_found ((hc p).1 hv).1 enter, ((hc p).1 hv).2⟩
  · rintro ⟨hf, hk⟩
    refine (hc p).2 ⟨?_, hk⟩
    clear hk
    induction hf with
    | root i hi => exact Found.root i hi
    | entry q j hq hin hj ih =>
      exact Found.entry q j ih ((search_enters hs hu hN hi hE h ((hc q).2 ⟨ih, hin.shown⟩)
        hin.shown).2 hin) hj

/-- **C70 (at most once).** At any time, with or without `-depth` and `-unique`, the expression has
been evaluated at most once on each file. -/
theorem C70_once (hs : c.Sane) (hN : e.Named) (h : Reach (c.env e) s) :
    (c.evaluations e s.trace).Nodup :=
  evaluations_nodup hs (search_path hN h) (fun p => C18_once (e := c.env e) hN h (c.expected e p))

/-- **C70 (exactly), partial.** When the search is complete, the expression has been evaluated
exactly on the files that it should have been (once, by `C70_once`): those between `-mindepth` and
`-maxdepth` that are not excluded, below directories that are not excluded or pruned either.

Missing: with `-xdev` and `-depth`, mount points are left out (see also `C20_mount_counterexample`). -/
theorem C70_exact_partial (hs : c.Sane) (hu : c.unique = false) (hN : e.Named)
    (hi : e.strategy ≠ .ids) (hE : ∀ p, e.error p = true → e.isDir p = false)
    (h : Reach (c.env e) s) (hd : s.pc = .done) (p : Pos) :
    p ∈ c.evaluations e s.trace ↔ c.Target e p ∧
      ¬ (e.post = true ∧ e.barrier p ∧ e.isDir p = true ∧ (depth p : Int) < c.maxdepth) := by
  rw [evaluations_iff hs hu (search_path hN h)]
  have hvis := search_visited hs hu hN hi hE h hd p
  constructor
  · rintro ⟨h1, h2, h3, h4⟩
    have hpre : p ∈ visits .pre s.trace ∧ (c.expected e p = .post → ¬ e.barrier p) := by
      rcases expected_cases c e p with hx | hx
      · rw [hx] at h1
        exact ⟨h1, fun hh => by rw [hx] at hh; cases hh⟩
      · rw [hx] at h1
        have hent := (C19_exactly (e := c.env e) hN ((expected_iff hs hi p).1 hx).1 h hd p).1 h1
        have hv := entered_sub _ p hent
        exact ⟨hv, fun _ => ((search_entered hs hu hN h hv).1 hent).2.1⟩
    obtain ⟨hf, hk⟩ := hvis.1 hpre.1
    exact ⟨⟨hf, hk, h2, h3, h4⟩, fun hh => hpre.2 ((expected_iff hs hi p).2
      ⟨hh.1, hh.2.2.1, hh.2.2.2⟩) hh.2.1⟩
  · rintro ⟨ht, hb⟩
    refine ⟨?_, ht.known, ht.allowed, ht.range⟩
    have hv := hvis.2 ⟨ht.found, ht.shown⟩
    rcases expected_cases c e p with hx | hx
    · rw [hx]; exact hv
    · rw [hx]
      obtain ⟨x1, x2, x3⟩ := (expected_iff hs hi p).1 hx
      refine (C19_exactly (e := c.env e) hN x1 h hd p).2 ?_
      exact (search_entered hs hu hN h hv).2 ⟨x2, fun hh => hb ⟨x1, hh, x2, x3⟩, ht.known, ht.allowed,
        x3, fun hh => by rw [hx] at hh; cases hh⟩

/-- **C70 (order).** Without `-depth`, the expression is never evaluated on a directory after
something in it; with `-depth`, never before. -/
theorem C70_order (hs : c.Sane) (hN : e.Named) (hi : e.strategy ≠ .ids)
    (h : Reach (c.env e) s) :
    (e.post = false → (c.evaluations e s.trace).Pairwise fun later earlier => ¬ later <:+ earlier) ∧
    (e.post = true → (c.evaluations e s.trace).Pairwise fun later earlier => ¬ earlier <:+ later) := by
  have hpath := search_path hN h
  have split : ∀ (R : Pos → Pos → Prop) (tr : List Event), (∀ ev ∈ tr, ev.path = e.fullPath ev.pos) →
      (∀ l x m y r, tr = l ++ x :: (m ++ y :: r) → x.visit = c.expected e x.pos →
        y.visit = c.expected e y.pos → c.InRange x.pos → R x.pos y.pos) →
      (c.evaluations e tr).Pairwise R := by
    intro R tr
    induction tr with
    | nil => intro _ _; exact List.Pairwise.nil
    | cons x tr ih =>
      intro hp hR
      have ih' := ih (fun ev hev => hp ev (List.mem_cons_of_mem _ hev)) (fun l a m b r ht => by
        exact hR (x :: l) a m b r (by rw [ht]; rfl))
      rw [evaluations_cons]
      split
      · rename_i hev
        rw [hp x List.mem_cons_self] at hev
        obtain ⟨a1, _, _, a4, _⟩ := (verdict_evaluated hs).1 hev
        refine List.pairwise_cons.2 ⟨fun q hq => ?_, ih'⟩
        obtain ⟨m, y, r, h1, h2, h3⟩ := mem_evaluations.1 hq
        rw [hp y (by rw [h1]; simp), h2] at h3
        have hy := ((verdict_evaluated hs).1 h3).1
        rw [← h2]
        exact hR [] x m y r (by rw [h1]; rfl) a1 (by rw [h2]; exact hy) a4
      · exact ih'
  have hlegal := (inv_reach (e := c.env e) hN h).legal
  have first : ∀ {l m r : List Event} {x y : Event}, s.trace = l ++ x :: (m ++ y :: r) →
      x.visit = y.visit → x.pos ≠ y.pos := by
    intro l m r x y ht hv heq
    have := C18_once (e := c.env e) hN h x.visit
    rw [ht, visits_append, visits_cons, if_pos rfl, visits_append, visits_cons, if_pos hv.symm, heq]
      at this
    have := (List.nodup_append.1 this).2.1
    exact (List.nodup_cons.1 this).1 (by simp)
  constructor
  · intro hp
    refine split _ _ hpath fun l x m y r ht h1 h2 _ hsuf => ?_
    rw [expected_pre hp] at h1 h2
    have hne := first ht (h1.trans h2.symm)
    have hx0 : x.pos ≠ [] := inb_ne (legal_split (ht ▸ hlegal)).inb
    have ht' : s.trace = (l ++ x :: m) ++ y :: r := by rw [ht]; simp
    have hent := C18_directories_first (e := c.env e) hN h ht' hx0 hne hsuf
    -- it would have been visited twice
    have hv := entered_sub _ _ hent
    have := C18_once (e := c.env e) hN h .pre
    rw [ht, visits_append, visits_cons, if_pos h1] at this
    have := (List.nodup_cons.1 (List.nodup_append.1 this).2.1).1
    refine this ?_
    rw [visits_append, visits_cons, if_pos h2]
    exact List.mem_append.2 (Or.inr (List.mem_cons_of_mem _ hv))
  · intro hp
    refine split _ _ hpath fun l x m y r ht h1 h2 hr hsuf => ?_
    rcases expected_cases c e y.pos with hy | hy
    · -- a file, or a directory at the limit
      rw [hy] at h2
      by_cases heq : y.pos = x.pos
      · rw [heq] at hy
        exact first ht ((h1.trans hy).trans h2.symm) heq.symm
      · have hy0 : y.pos ≠ [] := by
          have ht' : s.trace = (l ++ x :: m) ++ y :: r := by rw [ht]; simp
          exact inb_ne (legal_split (ht' ▸ hlegal)).inb
        have hent := C18_directories_first (e := c.env e) hN h ht hy0 heq hsuf
        -- it was gone into
        have hdir : e.isDir y.pos = true := by
          have ht2 : s.trace = (l ++ [x]) ++ (m ++ y :: r) := by rw [ht]; simp
          have hl2 : Legal (c.env e) (m ++ y :: r) := legal_suffix (later := l ++ [x]) (ht2 ▸ hlegal)
          exact hl2.entered_dir hent
        have hdep : depth y.pos < depth x.pos := by
          have h3 := hsuf.length_le
          have h4 : y.pos.length ≠ x.pos.length := fun hl => heq (hsuf.eq_of_length hl)
          have h5 := List.length_pos_iff.2 hy0
          unfold depth
          omega
        have : (depth x.pos : Int) ≤ c.maxdepth := hr.2
        have := (expected_iff hs hi y.pos).2 ⟨hp, hdir, by omega⟩
        rw [hy] at this
        cases this
    · rw [hy] at h2
      have ht' : s.trace = (l ++ x :: m) ++ y :: r := by rw [ht]; simp
      exact C19_last (e := c.env e) hN h ht' h2 x (by simp) hsuf

/-- **C70 (soundness).** At any time, also if the search has been stopped by `-quit` or by an error,
the expression has only been evaluated on files that it should be evaluated on. -/
theorem C70_sound (hs : c.Sane) (hu : c.unique = false) (hN : e.Named) (hi : e.strategy ≠ .ids)
    (hE : ∀ p, e.error p = true → e.isDir p = false) (h : Reach (c.env e) s) {p : Pos}
    (hp : p ∈ c.evaluations e s.trace) : c.Target e p := by
  obtain ⟨h1, h2, h3, h4⟩ := (evaluations_iff hs hu (search_path hN h) p).1 hp
  have hl := (inv_reach (e := c.env e) hN h).legal
  have skip : ∀ {v : Visit} {q : Pos}, q ∈ visits v s.trace → e.skipped q = false := fun hq => by
    obtain ⟨_, _, _, _, h5, _⟩ := hl.visit_mem hq
    exact h5
  have enter : ∀ q, Found (c.env e) (· ∈ entered s.trace) q → q ∈ entered s.trace → c.Enters e q := by
    intro q _ hq
    have hv := entered_sub _ q hq
    exact (search_enters hs hu hN hi hE h hv (skip hv)).1 hq
  exact ⟨search_found (C18_sound (e := c.env e) hN h h1) enter, skip h1, h2, h3, h4⟩

/-- **C70 (-quit).** After an evaluation that stops the search, there are no others. -/
theorem C70_stop (hN : e.Named) (h : Reach (c.env e) s) {p : Pos} (hp : p ∈ c.evaluations e s.trace)
    (hst : c.expr p = .stop) : (c.evaluations e s.trace).head? = some p ∧ s.pc = .stopped := by
  obtain ⟨l, ev, r, h1, h2, h3⟩ := mem_evaluations.1 hp
  have hv : (c.verdict e r ev.visit p ev.path).action = .stop := by
    revert h3
    unfold Cfg.verdict Cfg.examine Cfg.evaluate Cfg.failed
    dsimp only
    repeat' split
    all_goals simp_all
  have hact := (C21_decision (e := c.env e) hN h h1).1.2 (by rw [h2]; exact hv)
  obtain ⟨k1, k2⟩ := C21_stop (e := c.env e) hN h h1 hact
  subst k1
  refine ⟨?_, k2⟩
  rw [h1, List.nil_append, evaluations_cons, if_pos h3, h2]
  rfl

/-- **C70 (-unique).** With `-unique`, except with `-S ids -depth`, the expression is never evaluated
on two files with the same identity. -/
theorem C70_unique_partial (hs : c.Sane) (hu : c.unique = true) (hN : e.Named)
    (hi : e.strategy ≠ .ids) (h : Reach (c.env e) s) :
    ((c.evaluations e s.trace).map c.fileId).Nodup := by
  have hpath := search_path hN h
  -- the first visit to a file with that identity
  have fresh : ∀ p ∈ c.evaluations e s.trace, ∃ l ev r, s.trace = l ++ ev :: r ∧ ev.pos = p ∧
      ev.visit = .pre ∧ e.error p = false ∧ c.fileId p ∉ c.seen e r := by
    intro p hp
    obtain ⟨l, ev, r, h1, h2, h3⟩ := mem_evaluations.1 hp
    rw [hpath ev (by rw [h1]; simp), h2] at h3
    obtain ⟨a1, a2, a3, a4, a5⟩ := (verdict_evaluated hs).1 h3
    rcases expected_cases c e p with hx | hx
    · rw [hx] at a1
      exact ⟨l, ev, r, h1, h2, a1, a2, fun hh => a5 ⟨hu, a1, hh⟩⟩
    · have hpost := ((expected_iff hs hi p).1 hx).1
      have hent : p ∈ entered s.trace := by
        have hl := (inv_reach (e := c.env e) hN h).legal
        refine hl.post_entered .post (by simp) p (visits_iff.2 ⟨ev, by rw [h1]; simp, ?_, h2⟩)
        rw [a1, hx]
      obtain ⟨l', ev', r', b1, b2, b3, b4⟩ := entered_split hent
      refine ⟨l', ev', r', b1, b4, b2, a2, fun hh => ?_⟩
      have := ((C21_decision (e := c.env e) hN h b1).2.1 b3).1
      rw [b2, b4] at this
      have hv : c.verdict e r' .pre p ev'.path = ⟨false, false, .prune⟩ := by
        unfold Cfg.verdict
        rw [if_neg (by simp [a2]), if_pos (by simp [hu, hh])]
      have this : (c.verdict e r' .pre p ev'.path).action = .cont := this
      rw [hv] at this
      cases this
  refine List.pairwise_map.2 (List.Pairwise.imp_of_mem ?_ (C70_once hs hN h))
  intro p q hp hq hne heq
  obtain ⟨l1, x, r1, a1, a2, a3, a4, a5⟩ := fresh p hp
  obtain ⟨l2, y, r2, b1, b2, b3, b4, b5⟩ := fresh q hq
  have seen : ∀ {a b : Event} {l m r : List Event}, s.trace = l ++ a :: (m ++ b :: r) →
      b.visit = .pre → e.error b.pos = false → c.fileId b.pos ∈ c.seen e (m ++ b :: r) := by
    intro a b l m r _ hv he
    unfold Cfg.seen
    exact List.mem_map.2 ⟨b, List.mem_filter.2 ⟨by simp, by simp [hv, he]⟩, rfl⟩
  rcases List.append_eq_append_iff.1 (a1.symm.trans b1) with ⟨t, h1, h2⟩ | ⟨t, h1, h2⟩
  · cases t with
    | nil =>
      simp only [List.nil_append, List.cons.injEq] at h2
      exact hne (by rw [← a2, ← b2, h2.1])
    | cons z t =>
      simp only [List.cons_append, List.cons.injEq] at h2
      rw [h2.2] at a5
      refine a5 ?_
      rw [heq, ← b2]
      exact seen (l := l1) (a := x) (by rw [a1, h2.2]) b3 (by rw [b2]; exact b4)
  · cases t with
    | nil =>
      simp only [List.nil_append, List.cons.injEq] at h2
      exact hne (by rw [← a2, ← b2, h2.1])
    | cons z t =>
      simp only [List.cons_append, List.cons.injEq] at h2
      rw [h2.2] at b5
      refine b5 ?_
      rw [← heq, ← a2]
      exact seen (l := l2) (a := y) (by rw [b1, h2.2]) a3 (by rw [a2]; exact a4)

/-- The first visit to a file with an identity that has been seen. -/
theorem seen_first {tr : List Event} {i : Nat × Nat} (h : i ∈ c.seen e tr) :
    ∃ l ev r, tr = l ++ ev :: r ∧ ev.visit = .pre ∧ e.error ev.pos = false ∧ c.fileId ev.pos = i ∧
      i ∉ c.seen e r := by
  induction tr with
  | nil => cases h
  | cons x tr ih =>
    by_cases ht : i ∈ c.seen e tr
    · obtain ⟨l, ev, r, h1, h2⟩ := ih ht
      exact ⟨x :: l, ev, r, by rw [h1]; rfl, h2⟩
    · unfold Cfg.seen at h
      obtain ⟨y, hy, hyi⟩ := List.mem_map.1 h
      obtain ⟨hy1, hy2⟩ := List.mem_filter.1 hy
      rcases List.mem_cons.1 hy1 with rfl | hy1
      · simp only [Bool.and_eq_true, decide_eq_true_eq, Bool.not_eq_true'] at hy2
        exact ⟨[], y, tr, rfl, hy2.1, hy2.2, hyi, ht⟩
      · refine absurd ?_ ht
        unfold Cfg.seen
        exact List.mem_map.2 ⟨y, List.mem_filter.2 ⟨hy1, hy2⟩, hyi⟩

theorem visits_seen {tr : List Event} {p : Pos} (hv : p ∈ visits .pre tr) (he : e.error p = false) :
    c.fileId p ∈ c.seen e tr := by
  obtain ⟨ev, h1, h2, h3⟩ := visits_iff.1 hv
  unfold Cfg.seen
  exact List.mem_map.2 ⟨ev, List.mem_filter.2 ⟨h1, by simp [h2, h3, he]⟩, by rw [h3]⟩

/-- What happens on the first visit does not depend on `-unique`. -/
theorem verdict_fresh {tr : List Event} {v : Visit} {p : Pos} {path : Bytes} (h : c.fileId p ∉ c.seen e tr) :
    c.verdict e tr v p path = ({ c with unique := false } : Cfg).verdict e tr v p path := by
  unfold Cfg.verdict
  by_cases h1 : (decide (v = .err) || e.error p) = true
  · rw [if_pos h1, if_pos h1]; rfl
  · rw [if_neg h1, if_neg h1, if_neg (by simp [h]), if_neg (by simp)]; rfl

/-- **C70 (-unique, exactly).** When a complete search with `-unique` has not reached `-maxdepth`,
each file that would have been found without `-unique` has been evaluated under one of its paths
(and only one, by `C70_unique_partial`), with no other options that depend on the path. -/
theorem C70_unique_complete (hs : c.Sane) (hu : c.unique = true) (hN : e.Named) (hi : e.strategy ≠ .ids)
    (hE : ∀ p, e.error p = true → e.isDir p = false) (hI : c.Identities e) (hmin : c.mindepth = 0)
    (hx : e.post = true → e.pruneMounts = false) (h : Reach (c.env e) s) (hd : s.pc = .done)
    (hmax : ∀ p ∈ visits .pre s.trace, (depth p : Int) < c.maxdepth) {p : Pos} (hp : c.Target e p) :
    ∃ q ∈ c.evaluations e s.trace, c.fileId q = c.fileId p := by
  have hpath := search_path hN h
  have hc := C18_complete (e := c.env e) hN h hd
  have hs' : Cfg.Sane { c with unique := false } := ⟨hs.min0, hs.min1, hs.max0, hs.max1⟩
  -- the first visit
  have first : ∀ q ∈ visits .pre s.trace, e.error q = false → ∃ l ev r, s.trace = l ++ ev :: r ∧ ev.visit = .pre ∧
      e.error ev.pos = false ∧ c.fileId ev.pos = c.fileId q ∧ c.fileId ev.pos ∉ c.seen e r ∧
      ev.pos ∈ visits .pre s.trace ∧ ev.path = e.fullPath ev.pos := by
    intro q hq he
    obtain ⟨l, ev, r, h1, h2, h3, h4, h5⟩ := seen_first (c := c) (visits_seen hq he)
    have hm : ev ∈ s.trace := by rw [h1]; simp
    exact ⟨l, ev, r, h1, h2, h3, h4, by rw [h4]; exact h5, visits_iff.2 ⟨ev, hm, h2, rfl⟩, hpath ev hm⟩
  -- on which directories are gone into
  have goes : ∀ {l r : List Event} {ev : Event}, s.trace = l ++ ev :: r → ev.visit = .pre → e.error ev.pos = false →
      c.fileId ev.pos ∉ c.seen e r → e.isDir ev.pos = true → c.Allowed e ev.pos → ¬ e.barrier ev.pos →
      (.pre = c.expected e ev.pos → c.expr ev.pos = .cont) → ev.pos ∈ entered s.trace := by
    intro l r ev h1 h2 h3 h4 h5 h6 h7 h8
    have hm : ev ∈ s.trace := by rw [h1]; simp
    refine entered_of_ev hm h2 (((C21_decision (e := c.env e) hN h h1).2).2 ⟨?_, h2, h5, ?_⟩)
    · show (c.verdict e r ev.visit ev.pos ev.path).action = .cont
      rw [verdict_fresh h4, hpath ev hm]
      refine (verdict_cont hs' rfl).2 ⟨by rw [h2]; simp, h3, h6, hmax _ (visits_iff.2 ⟨ev, hm, h2, rfl⟩), ?_⟩
      intro hv _
      exact h8 (h2.symm.trans hv)
    · exact fun hh => h7 ((barrier_iff e ev.pos).2 hh)
  -- so everything is found under one of its paths
  have found : ∀ q, Found e (c.Enters e) q → e.skipped q = false → e.error q = false →
      ∃ q' ∈ visits .pre s.trace, e.error q' = false ∧ c.fileId q' = c.fileId q := by
    intro q hq
    induction hq with
    | root i hr => exact fun hk he => ⟨[i], (hc _).2 ⟨Found.root i hr, hk⟩, he, rfl⟩
    | entry q j hq hin hj ih =>
      intro hk he
      have heq : e.error q = false := by
        cases hx : e.error q with
        | false => rfl
        | true => exact absurd (hE q hx) (by rw [hin.dir]; simp)
      obtain ⟨q1, v1, v2, v3⟩ := ih hin.shown heq
      obtain ⟨l, ev, r, h1, h2, h3, h4, h5, h6, h7⟩ := first q1 v1 v2
      have hf := hI q ev.pos heq h3 (by rw [h4, v3])
      have hent : ev.pos ∈ entered s.trace := by
        refine goes h1 h2 h3 h5 (by rw [← hf.dir]; exact hin.dir) (hf.allowed hin.allowed) (fun hh => hin.here (hf.here hh)) ?_
        intro hv
        refine hf.pruned (hin.pruned ?_ ⟨by omega, by have := hin.shallow; omega⟩)
        cases hpo : e.post with
        | false => rfl
        | true =>
          rw [(expected_iff hs hi ev.pos).2 ⟨hpo, by rw [← hf.dir]; exact hin.dir, hmax _ h6⟩] at hv
          cases hv
      obtain ⟨k, k1, k2, k3, k4⟩ := hf.entries j hj he hk
      exact ⟨k :: ev.pos, (hc _).2 ⟨Found.entry _ k ((hc _).1 h6).1 hent k1, k3⟩, k2, k4⟩
  obtain ⟨q1, v1, v2, v3⟩ := found p hp.found hp.shown hp.known
  obtain ⟨l, ev, r, h1, h2, h3, h4, h5, h6, h7⟩ := first q1 v1 v2
  have hf := hI p ev.pos hp.known h3 (by rw [h4, v3])
  have hr : c.InRange ev.pos := ⟨by omega, by have := hmax _ h6; omega⟩
  refine ⟨ev.pos, ?_, by rw [h4, v3]⟩
  rcases expected_cases c e ev.pos with hv | hv
  · refine mem_evaluations.2 ⟨l, ev, r, h1, rfl, ?_⟩
    rw [h7]
    exact (verdict_evaluated hs).2 ⟨by rw [hv]; exact h2, h3, hf.allowed hp.allowed, hr, fun hh => h5 hh.2.2⟩
  · obtain ⟨x1, x2, x3⟩ := (expected_iff hs hi ev.pos).1 hv
    have hent : ev.pos ∈ entered s.trace := by
      refine goes h1 h2 h3 h5 x2 (hf.allowed hp.allowed) ?_ ?_
      · intro hh
        rw [Env.barrier, hx x1] at hh
        cases hh.1
      · intro hh; rw [hv] at hh; cases hh
    have hpost := (C19_exactly (e := c.env e) hN x1 h hd ev.pos).2 hent
    obtain ⟨ev', g1, g2, g3⟩ := visits_iff.1 hpost
    obtain ⟨l', r', g4⟩ := List.append_of_mem g1
    refine mem_evaluations.2 ⟨l', ev', r', g4, g3, ?_⟩
    rw [hpath ev' g1, g3]
    exact (verdict_evaluated hs).2 ⟨by rw [hv]; exact g2, h3, hf.allowed hp.allowed, hr, fun hh => by rw [g2] at hh; cases hh.2.1⟩

/-- With `-unique`, no directory is gone into twice. -/
theorem entered_unique (hu : c.unique = true) (hN : e.Named) (hE : ∀ p, e.error p = true → e.isDir p = false)
    (h : Reach (c.env e) s) : ((entered s.trace).map c.fileId).Nodup := by
  have hl := (inv_reach (e := c.env e) hN h).legal
  have key : ∀ tr l, s.trace = l ++ tr → ((entered tr).map c.fileId).Nodup := by
    intro tr
    induction tr with
    | nil => exact fun _ _ => List.Pairwise.nil
    | cons ev tr ih =>
      intro l ht
      have ih' := ih (l ++ [ev]) (by rw [ht]; simp)
      rw [entered_cons]
      split
      · next hc =>
        refine List.nodup_cons.2 ⟨fun hm => ?_, ih'⟩
        obtain ⟨q, hq, hqi⟩ := List.mem_map.1 hm
        have hqe : e.error q = false := by
          cases hx : e.error q with
          | false => rfl
          | true =>
            have hq' : q ∈ entered s.trace := by
              rw [ht, entered_append, List.mem_append, entered_cons, if_pos hc]
              exact Or.inr (List.mem_cons_of_mem _ hq)
            have hd : e.isDir q = true := hl.entered_dir hq'
            exact absurd (hE q hx) (by rw [hd]; simp)
        have hseen := visits_seen (c := c) (entered_sub tr q hq) hqe
        have hans := ((C21_decision (e := c.env e) hN h ht).2.1 hc.2).1
        have hv : (c.verdict e tr ev.visit ev.pos ev.path).action = .cont := hans
        revert hv
        unfold Cfg.verdict
        split
        · exact fun hv => by cases hv
        · rw [if_pos (by simp [hu, hc.1, ← hqi, hseen])]
          exact fun hv => by cases hv
      · exact ih'
  exact key s.trace [] rfl

theorem run_reach {e : Env} {n : Nat} {s : State} (h : Run e n s) : Reach e s := by
  induction h with
  | init => exact .init
  | step _ hs ih => exact .step ih hs
  | fail _ h1 h2 ih => exact .fail ih h1 h2

/-- A walk takes a number of steps in proportion to what it finds. -/
theorem run_bound {e : Env} {s : State} (hN : e.Named) {U : List Pos} (hr : ∀ i < e.roots, [i] ∈ U) {n : Nat} (h : Run e n s)
    (hU : ∀ p ∈ entered s.trace, ∀ j < e.entries p, j :: p ∈ U) : ∃ B, B + n = 14 * U.length + 4 ∧ Budget e U B s := by
  induction h with
  | init => exact ⟨_, rfl, Budget.init e U⟩
  | @step n s s' _ hs ih =>
    obtain ⟨l, hl⟩ := step_trace hs
    obtain ⟨B, h1, h2⟩ := ih (fun p hp => hU p (by rw [← hl, entered_append]; exact List.mem_append_right _ hp))
    obtain ⟨B', h3, h4⟩ := h2.step hN (fun G hg p hp => by
      match p, hp with
      | [], hp => exact absurd rfl (inb_ne (hg.core.ginb _ hp))
      | [i], hp => exact hr i (hg.core.ginb _ hp)
      | j :: i :: p, hp => exact hU _ ((hg.core.gparent _ hp).resolve_left (by simp)) j (hg.core.ginb _ hp)) hs
    exact ⟨B', by omega, h4⟩
  | fail _ h1 h2 ih =>
    obtain ⟨B, h3, h4⟩ := ih hU
    obtain ⟨B', h5, h6⟩ := h4.fail h1 h2
    exact ⟨B', by omega, h6⟩

/-- **C70 (-unique ends).** With `-unique`, a search ends even if links lead back to directories
above them: if there are finitely many files and directories, not more than some number of things
can happen, however many paths there are. -/
theorem C70_unique_ends (hu : c.unique = true) (hN : e.Named) (hE : ∀ p, e.error p = true → e.isDir p = false)
    {ids : List (Nat × Nat)} (hids : ∀ p, e.isDir p = true → c.fileId p ∈ ids) {m : Nat} (hm : ∀ p, e.entries p ≤ m) {n : Nat}
    (h : Run (c.env e) n s) : n ≤ 14 * (e.roots + ids.length * m) + 4 := by
  have hr := run_reach h
  have hl := (inv_reach (e := c.env e) hN hr).legal
  have hlen : (entered s.trace).length ≤ ids.length := by
    rw [← List.length_map (f := c.fileId)]
    refine length_le_of_subset (entered_unique hu hN hE hr) fun i hi => ?_
    obtain ⟨p, hp, rfl⟩ := List.mem_map.1 hi
    exact hids p (hl.entered_dir hp)
  obtain ⟨B, hB, -⟩ := run_bound (e := c.env e) hN
    (U := (List.range e.roots).map (fun i => [i]) ++ (entered s.trace).flatMap fun p => (List.range m).map (· :: p))
    (fun i hi => List.mem_append_left _ (List.mem_map.2 ⟨i, List.mem_range.2 hi, rfl⟩)) h
    (fun p hp j hj => List.mem_append_right _ (List.mem_flatMap.2 ⟨p, hp, List.mem_map.2
      ⟨j, List.mem_range.2 (Nat.lt_of_lt_of_le hj (hm p)), rfl⟩⟩))
  have hU : ∀ l : List Pos, (l.flatMap fun p => (List.range m).map (· :: p)).length = l.length * m := by
    intro l
    induction l with
    | nil => simp
    | cons a l ih => rw [List.flatMap_cons, List.length_append, ih]; simp [Nat.succ_mul, Nat.add_comm]
  rw [List.length_append, hU] at hB
  have := Nat.mul_le_mul_right m hlen
  simp only [List.length_map, List.length_range] at hB
  omega

/-- When an error is reported. -/
theorem verdict_reported (hs : c.Sane) (hu : c.unique = false) {tr : List Event} {v : Visit}
    {p : Pos} : (c.verdict e tr v p (e.fullPath p)).reported = true ↔
      ((v = .err ∨ e.error p = true) ∧ c.Counts p) ∨
      (v ≠ .err ∧ e.error p = false ∧ c.exclude p = false ∧ c.xargsSafe = true ∧
        ∃ b ∈ e.fullPath p, b ∈ ([32, 9, 10, 39, 34, 92] : List UInt8)) ∨
      (v = c.expected e p ∧ e.error p = false ∧ c.Allowed e p ∧ c.InRange p ∧
        c.exprError p = true) := by
  have h1 := toSize_eq hs.min0 hs.min1
  have h2 := toSize_eq hs.max0 hs.max1
  have hne : c.expected e p ≠ .err := by
    rcases expected_cases c e p with hx | hx <;> rw [hx] <;> simp
  have hr : (depth p ≥ toSize c.mindepth ∧ depth p ≤ toSize c.maxdepth) ↔ c.InRange p := by
    unfold Cfg.InRange
    omega
  unfold Cfg.verdict
  by_cases he : v = .err ∨ e.error p = true
  · rw [if_pos (by simpa using he)]
    have hcount : (c.failed p).reported = true ↔ c.Counts p := by
      unfold Cfg.failed Cfg.Counts
      cases c.ignoreRaces <;> cases c.gone p <;> simp
    rw [hcount]
    constructor
    · exact fun hh => Or.inl ⟨he, hh⟩
    · rintro (hh | ⟨a, b, _⟩ | ⟨a, b, _⟩)
      · exact hh.2
      · rcases he with he | he
        · exact absurd he a
        · rw [he] at b; cases b
      · rcases he with he | he
        · exact absurd (he.symm.trans a).symm hne
        · rw [he] at b; cases b
  · rw [if_neg (by simpa using he), hu, Bool.false_and, Bool.false_and, if_neg (by simp)]
    have he1 : v ≠ .err := fun hh => he (Or.inl hh)
    have he2 : e.error p = false := by
      cases hh : e.error p with
      | false => rfl
      | true => exact absurd (Or.inr hh) he
    unfold Cfg.examine
    by_cases hx : c.exclude p = true
    · rw [if_pos hx]
      constructor
      · intro h; cases h
      · rintro (hh | ⟨_, _, h, _⟩ | ⟨_, _, h, _⟩)
        · exact absurd hh.1 he
        · rw [h] at hx; cases hx
        · rw [h.1] at hx; cases hx
    · rw [if_neg hx]
      have hx : c.exclude p = false := by simpa using hx
      by_cases hq : (c.xargsSafe && unsafePath (e.fullPath p)) = true
      · rw [if_pos hq]
        rw [Bool.and_eq_true] at hq
        refine ⟨fun _ => Or.inr (Or.inl ⟨he1, he2, hx, hq.1, ?_⟩), fun _ => rfl⟩
        obtain ⟨b, hb1, hb2⟩ := List.any_eq_true.1 hq.2
        exact ⟨b, hb1, List.contains_iff_mem.1 hb2⟩
      · rw [if_neg hq]
        have hq' : c.xargsSafe = true → ∀ b ∈ e.fullPath p, b ∉ ([32, 9, 10, 39, 34, 92] : List UInt8) := by
          intro hc
          refine (unsafePath_iff _).1 ?_
          rw [hc, Bool.true_and] at hq
          simpa using hq
        have ha : c.Allowed e p := ⟨hx, hq'⟩
        unfold Cfg.evaluate
        dsimp only
        have out : ¬ ((v = .err ∨ e.error p = true) ∧ c.Counts p) := fun hh => he hh.1
        have out2 : ¬ (v ≠ .err ∧ e.error p = false ∧ c.exclude p = false ∧ c.xargsSafe = true ∧
            ∃ b ∈ e.fullPath p, b ∈ ([32, 9, 10, 39, 34, 92] : List UInt8)) := by
          rintro ⟨_, _, _, hc, b, hb, hm⟩
          exact hq' hc b hb hm
        by_cases hv : v = c.expected e p ∧ c.InRange p
        · rw [if_pos ⟨hv.1, hr.2 hv.2⟩]
          constructor
          · exact fun hh => Or.inr (Or.inr ⟨hv.1, he2, ha, hv.2, hh⟩)
          · rintro (hh | hh | hh)
            · exact absurd hh out
            · exact absurd hh out2
            · exact hh.2.2.2.2
        · rw [if_neg (fun hh => hv ⟨hh.1, hr.1 hh.2⟩)]
          constructor
          · intro h; cases h
          · rintro (hh | hh | hh)
            · exact absurd hh out
            · exact absurd hh out2
            · exact absurd ⟨hh.1, hh.2.2.2.1⟩ hv

/-- What has happened when a search, of whatever kind, is complete. -/
structure Covered (c : Cfg) (e : Env) (tr : List Event) : Prop where
  paths : ∀ ev ∈ tr, ev.path = e.fullPath ev.pos
  found : ∀ ev ∈ tr, Found e (c.Enters e) ev.pos ∧ e.skipped ev.pos = false
  known : ∀ p, Found e (c.Enters e) p → e.skipped p = false → e.error p = false → p ∈ visits .pre tr
  unknown : ∀ p, Found e (c.Enters e) p → e.skipped p = false → e.error p = true → ∃ ev ∈ tr, ev.pos = p
  failed : ∀ p, p ∈ visits .err tr → e.error p = false → c.Enters e p ∧ e.broken p = true
  broken : ∀ p, Found e (c.Enters e) p → c.Enters e p → e.broken p = true → p ∈ visits .err tr
  evaluated : ∀ p, p ∈ c.evaluations e tr ↔ c.Target e p

theorem covered_status (hs : c.Sane) (hu : c.unique = false) {tr : List Event} (h : Covered c e tr) :
    c.status e tr = 0 ↔ (c.ignoreErrors = true ∨ ∀ p, ¬ c.Trouble e p) := by
  have hpath := h.paths
  have main : ((c.verdicts e tr).any fun x => x.2.reported) = true ↔ ∃ p, c.Trouble e p := by
    rw [List.any_eq_true]
    constructor
    · rintro ⟨⟨ev, r⟩, h1, h2⟩
      obtain ⟨l, r', h3, h4⟩ := mem_verdicts.1 h1
      dsimp only at h2 h3 h4
      have hm : ev ∈ tr := by rw [h3]; simp
      rw [h4, hpath ev hm] at h2
      obtain ⟨hf, hk⟩ := h.found ev hm
      refine ⟨ev.pos, hf, hk, ?_⟩
      rcases (verdict_reported hs hu).1 h2 with ⟨a, b⟩ | ⟨_, a⟩ | a
      · cases he : e.error ev.pos with
        | true => exact Or.inl ⟨rfl, b⟩
        | false =>
          have hv : ev.visit = .err := a.resolve_right (by rw [he]; simp)
          have hb := h.failed ev.pos (visits_iff.2 ⟨ev, hm, hv, rfl⟩) he
          exact Or.inr (Or.inl ⟨hb.1, hb.2, b⟩)
      · exact Or.inr (Or.inr (Or.inl a))
      · exact Or.inr (Or.inr (Or.inr ⟨⟨hf, hk, a.2.1, a.2.2.1, a.2.2.2.1⟩, a.2.2.2.2⟩))
    · have ofEv : ∀ ev ∈ tr, (∀ tr, (c.verdict e tr ev.visit ev.pos (e.fullPath ev.pos)).reported = true) →
          ∃ x ∈ c.verdicts e tr, x.2.reported = true := by
        intro ev hev hr
        obtain ⟨l, r, h1⟩ := List.append_of_mem hev
        refine ⟨(ev, c.verdict e r ev.visit ev.pos ev.path), mem_verdicts.2 ⟨l, r, h1, rfl⟩, ?_⟩
        dsimp only
        rw [hpath ev hev]
        exact hr r
      rintro ⟨p, hf, hk, ht⟩
      rcases ht with ht | ht | ht | ht
      · obtain ⟨ev, h1, h3⟩ := h.unknown p hf hk ht.1
        exact ofEv ev h1 fun tr => (verdict_reported hs hu).2 (by rw [h3]; exact Or.inl ⟨Or.inr ht.1, ht.2⟩)
      · obtain ⟨ev', h1', h2', h3'⟩ := visits_iff.1 (h.broken p hf ht.1 ht.2.1)
        exact ofEv ev' h1' fun tr => (verdict_reported hs hu).2 (by
          rw [h3']; exact Or.inl ⟨Or.inl h2', ht.2.2⟩)
      · obtain ⟨ev, h1, h2, h3⟩ := visits_iff.1 (h.known p hf hk ht.1)
        exact ofEv ev h1 fun tr => (verdict_reported hs hu).2 (by
          rw [h3, h2]; exact Or.inr (Or.inl ⟨by simp, ht⟩))
      · obtain ⟨l, ev', r, a1, a2, a3⟩ := mem_evaluations.1 ((h.evaluated p).2 ht.1)
        have hm : ev' ∈ tr := by rw [a1]; simp
        rw [hpath ev' hm, a2] at a3
        obtain ⟨b1, b2, b3, b4, _⟩ := (verdict_evaluated hs).1 a3
        exact ofEv ev' hm fun tr => (verdict_reported hs hu).2 (by
          rw [a2]; exact Or.inr (Or.inr ⟨b1, b2, b3, b4, ht.2⟩))
  unfold Cfg.status
  cases hn : c.ignoreErrors with
  | true => simp
  | false =>
    cases ha : (c.verdicts e tr).any fun x => x.2.reported with
    | true =>
      obtain ⟨p, hp⟩ := main.1 ha
      constructor
      · intro hh; simp at hh
      · rintro (hh | hh)
        · cases hh
        · exact absurd hp (hh p)
    | false =>
      refine ⟨fun _ => Or.inr fun p hp => ?_, fun _ => by simp⟩
      have := main.2 ⟨p, hp⟩
      rw [ha] at this
      cases this

theorem walk_covered (hs : c.Sane) (hu : c.unique = false) (hN : e.Named)
    (hi : e.strategy ≠ .ids) (hE : ∀ p, e.error p = true → e.isDir p = false)
    (hx : e.post = true → e.pruneMounts = false) (h : Reach (c.env e) s) (hd : s.pc = .done) : Covered c e s.trace := by
  have hvis := search_visited hs hu hN hi hE h hd
  have hlegal := (inv_reach (e := c.env e) hN h).legal
  have pre : ∀ ev ∈ s.trace, ev.pos ∈ visits .pre s.trace := by
    intro ev hev
    cases hv : ev.visit with
    | pre => exact visits_iff.2 ⟨ev, hev, hv, rfl⟩
    | err => exact entered_sub _ _ (hlegal.post_entered .err (by simp) _ (visits_iff.2 ⟨ev, hev, hv, rfl⟩))
    | post => exact entered_sub _ _ (hlegal.post_entered .post (by simp) _ (visits_iff.2 ⟨ev, hev, hv, rfl⟩))
  refine ⟨search_path hN h, fun ev hev => (hvis ev.pos).1 (pre ev hev), fun p hf hk _ => (hvis p).2 ⟨hf, hk⟩, fun p hf hk _ => ?_, fun p hp _ => ?_,
    fun p hf hin hb => ?_, fun p => ?_⟩
  · obtain ⟨ev, h1, _, h3⟩ := visits_iff.1 ((hvis p).2 ⟨hf, hk⟩)
    exact ⟨ev, h1, h3⟩
  · have hb := (C61_errors (e := c.env e) hN h hd p).1 hp
    have hpv := entered_sub _ _ hb.1
    exact ⟨(search_enters hs hu hN hi hE h hpv ((hvis p).1 hpv).2).1 hb.1, hb.2⟩
  · exact (C61_errors (e := c.env e) hN h hd p).2 ⟨(search_enters hs hu hN hi hE h ((hvis p).2 ⟨hf, hin.shown⟩) hin.shown).2 hin, hb⟩
  · rw [C70_exact_partial hs hu hN hi hE h hd]
    refine ⟨fun hh => hh.1, fun hh => ⟨hh, fun hb => ?_⟩⟩
    have := hx hb.1
    rw [hb.2.1.1] at this
    cases this

/-- **C70 (exit status), partial.** When the search is complete, bfs succeeds exactly if nothing went
wrong, or errors are ignored (`-noerror`): every file that should be examined was, every directory
that should be read was (except for files that vanished, with `-ignore_readdir_race`), and the
expression reported no errors on any file it should be evaluated on.

Missing: `-xdev` with `-depth` (see `C70_exact_partial`); what `-exit` and commands do (see C54, C09). -/
theorem C70_status_partial (hs : c.Sane) (hu : c.unique = false) (hN : e.Named)
    (hi : e.strategy ≠ .ids) (hE : ∀ p, e.error p = true → e.isDir p = false)
    (hx : e.post = true → e.pruneMounts = false) (h : Reach (c.env e) s) (hd : s.pc = .done) :
    c.status e s.trace = 0 ↔ (c.ignoreErrors = true ∨ ∀ p, ¬ c.Trouble e p) := by
  exact covered_status hs hu (walk_covered hs hu hN hi hE hx h hd)

/-! ## Deepening -/

/-- What the callback answers, without `-unique`. -/
def Cfg.answer (c : Cfg) (e : Env) (v : Visit) (p : Pos) : Action := (c.verdict e [] v p (e.fullPath p)).action

theorem answer_cont (hs : c.Sane) (hu : c.unique = false) (v : Visit)
    (p : Pos) : Cfg.answer c e v p = .cont ↔ v ≠ .err ∧ e.error p = false ∧ c.Allowed e p ∧
      (depth p : Int) < c.maxdepth ∧ (v = c.expected e p → c.InRange p → c.expr p = .cont) :=
  verdict_cont hs hu

theorem enters_into (hs : c.Sane) (hu : c.unique = false)
    (hE : ∀ p, e.error p = true → e.isDir p = false) (p : Pos) :
    Into (c.env e) (Cfg.answer c e) p ↔ c.Enters e p := by
  have h2 := toSize_eq hs.max0 hs.max1
  unfold Into
  rw [answer_cont hs hu]
  constructor
  · rintro ⟨a1, ⟨_, _, a3, a4, a5⟩, a6, a7⟩
    exact ⟨a1, a3, a4, a6, a7, fun hp hr => a5 (expected_pre hp p).symm hr⟩
  · intro hh
    refine ⟨hh.dir, ⟨by simp, ?_, hh.allowed, hh.shallow, fun hx hr => hh.pruned ?_ hr⟩, hh.here, hh.shown⟩
    · cases hx : e.error p with
      | false => rfl
      | true => exact absurd (hE p hx) (by rw [hh.dir]; simp)
    · cases hp : e.post with
      | false => rfl
      | true =>
        have hsh := hh.shallow
        unfold Cfg.expected at hx
        rw [hp, hh.dir, if_pos (by simp; omega)] at hx
        cases hx

theorem wanted_found (hs : c.Sane) (hu : c.unique = false)
    (hE : ∀ p, e.error p = true → e.isDir p = false) (p : Pos) :
    Wanted (c.env e) (Cfg.answer c e) p ↔ Found e (c.Enters e) p ∧ e.skipped p = false := by
  unfold Wanted
  refine and_congr ⟨fun h => search_found h fun q _ hq' => (enters_into hs hu hE q).1 hq', fun h => ?_⟩ Iff.rfl
  induction h with
  | root i h => exact Found.root i h
  | entry p j hp hi hj ih => exact Found.entry p j ih ((enters_into hs hu hE p).2 hi) hj

theorem search_tame (hu : c.unique = false) (hN : e.Named)
    (hE : ∀ p, e.error p = true → e.isDir p = false) :
    Tame (c.env e) (Cfg.answer c e) := by
  refine ⟨fun tr v p => ?_, hE, hN⟩
  rw [search_fullPath]
  show (c.verdict e tr v p (e.fullPath p)).action = (c.verdict e [] v p (e.fullPath p)).action
  unfold Cfg.verdict
  rw [hu]
  simp

theorem distinct_wanted (hs : c.Sane) (hu : c.unique = false)
    (hE : ∀ p, e.error p = true → e.isDir p = false) (hD : c.Distinct e) :
    Distinct (c.env e) (Cfg.answer c e) := by
  intro p q hp hq hpath
  rw [search_fullPath, search_fullPath] at hpath
  exact hD p q ((wanted_found hs hu hE p).1 hp).1 ((wanted_found hs hu hE q).1 hq).1 hpath

theorem evaluations_sublist (hs : c.Sane) (hp : e.post = false) : ∀ {tr : List Event},
    (∀ ev ∈ tr, ev.path = e.fullPath ev.pos) → (c.evaluations e tr).Sublist (visits .pre tr)
  | [], _ => List.Sublist.slnil
  | ev :: tr, hpath => by
    have ih := evaluations_sublist hs hp (tr := tr) fun x hx => hpath x (List.mem_cons_of_mem _ hx)
    rw [evaluations_cons, visits_cons]
    split
    · rename_i hev
      rw [hpath ev List.mem_cons_self] at hev
      have := ((verdict_evaluated hs).1 hev).1
      rw [expected_pre hp] at this
      rw [if_pos this]
      exact ih.cons_cons _
    · split
      · exact ih.cons _
      · exact ih

/-- A directory that something was found in has been gone into. -/
theorem found_above {into : Pos → Prop} {p q : Pos} (h : Found e into q) (hs : p <:+ q) (hp : p ≠ []) (hne : p ≠ q) : into p := by
  induction h with
  | root i hi =>
    have := List.eq_nil_or_concat p
    rcases List.suffix_cons_iff.1 hs with h1 | h1
    · exact absurd h1 hne
    · exact absurd (List.suffix_nil.1 h1) hp
  | entry r j hr hin hj ih =>
    rcases List.suffix_cons_iff.1 hs with h1 | h1
    · exact absurd h1 hne
    · by_cases h2 : p = r
      · rw [h2]; exact hin
      · exact ih h1 h2

/-- The order of evaluations is that of the calls. -/
theorem evaluations_pairwise (hs : c.Sane) {R : Pos → Pos → Prop} : ∀ {tr : List Event}, (∀ ev ∈ tr, ev.path = e.fullPath ev.pos) →
    tr.Pairwise (fun later earlier => later.visit = c.expected e later.pos → earlier.visit = c.expected e earlier.pos → R later.pos earlier.pos) →
    (c.evaluations e tr).Pairwise R
  | [], _, _ => List.Pairwise.nil
  | ev :: tr, hp, hh => by
    have hp' : ∀ ev ∈ tr, ev.path = e.fullPath ev.pos := fun x hx => hp x (List.mem_cons_of_mem _ hx)
    have h1 := List.pairwise_cons.1 hh
    have ih := evaluations_pairwise hs hp' h1.2
    rw [evaluations_cons]
    split
    · rename_i hev
      rw [hp ev List.mem_cons_self] at hev
      have hv := ((verdict_evaluated hs).1 hev).1
      refine List.pairwise_cons.2 ⟨fun q hq => ?_, ih⟩
      obtain ⟨ev', h2, h3, h4⟩ := visits_iff.1 (evaluations_visits hs hp' hq)
      rw [← h4]
      rw [← h4] at h3
      exact h1.1 ev' h2 hv h3
    · exact ih

/-- With `-depth`, directories are evaluated after what is in them, if all files are first visited
once, and then some of them again. -/
theorem deepening_order (hs : c.Sane) (hp : e.post = true) {tr : List Event} (hpath : ∀ ev ∈ tr, ev.path = e.fullPath ev.pos)
    (hf : ∀ ev ∈ tr, ev.visit ≠ .err → Found e (c.Enters e) ev.pos) (hpre : (visits .pre tr).Nodup)
    (hord : (visits .post tr).Pairwise fun later earlier => ¬ earlier <:+ later)
    (hph : ∃ second first, tr = second ++ first ∧ visits .pre second = [] ∧ visits .post first = []) :
    (c.evaluations e tr).Pairwise fun later earlier => ¬ earlier <:+ later := by
  have h2 := toSize_eq hs.max0 hs.max1
  obtain ⟨second, first, rfl, hse, hfi⟩ := hph
  have above : ∀ x ∈ second ++ first, ∀ y ∈ second ++ first, x.visit ≠ .err → y.visit ≠ .err → c.expected e y.pos = .pre → y.pos ≠ x.pos → ¬ y.pos <:+ x.pos := by
    intro x hx y hy hvx hvy hpy hne hs'
    have hin := found_above (hf x hx hvx) hs' (Found.ne (hf y hy hvy)) hne
    have hsh := hin.shallow
    unfold Cfg.expected at hpy
    rw [hp, hin.dir, if_pos (by simp; omega)] at hpy
    cases hpy
  have nerr : ∀ x : Event, x.visit = c.expected e x.pos → x.visit ≠ .err := by
    intro x hx
    rw [hx]
    rcases expected_cases c e x.pos with h | h <;> rw [h] <;> simp
  refine evaluations_pairwise hs hpath (List.pairwise_append.2 ⟨?_, ?_, ?_⟩)
  · rw [visits_append, hfi, List.append_nil] at hord
    unfold visits at hord
    rw [List.pairwise_map, List.pairwise_filter] at hord
    refine hord.imp_of_mem fun {x y} hx hy hxy h3 h4 => ?_
    have post : ∀ x ∈ second, x.visit = c.expected e x.pos → x.visit = .post := by
      intro x hx h
      rcases expected_cases c e x.pos with h' | h'
      · have : x.pos ∈ visits .pre second := visits_iff.2 ⟨x, hx, h.trans h', rfl⟩
        rw [hse] at this
        cases this
      · exact h.trans h'
    exact hxy (by simp [post x hx h3]) (by simp [post y hy h4])
  · rw [visits_append, hse, List.nil_append] at hpre
    unfold visits at hpre
    rw [List.Nodup, List.pairwise_map, List.pairwise_filter] at hpre
    refine hpre.imp_of_mem fun {x y} hx hy hxy h3 h4 => ?_
    have pre : ∀ x ∈ first, x.visit = c.expected e x.pos → x.visit = .pre := by
      intro x hx h
      rcases expected_cases c e x.pos with h' | h'
      · exact h.trans h'
      · have : x.pos ∈ visits .post first := visits_iff.2 ⟨x, hx, h.trans h', rfl⟩
        rw [hfi] at this
        cases this
    have hne := hxy (by simp [pre x hx h3]) (by simp [pre y hy h4])
    exact above x (List.mem_append_right _ hx) y (List.mem_append_right _ hy) (nerr x h3) (nerr y h4) (h4.symm.trans (pre y hy h4)) (Ne.symm hne)
  · intro x hx y hy h3 h4
    have hy' : c.expected e y.pos = .pre := by
      rcases expected_cases c e y.pos with h' | h'
      · exact h'
      · have : y.pos ∈ visits .post first := visits_iff.2 ⟨y, hy, h4.trans h', rfl⟩
        rw [hfi] at this
        cases this
    refine above x (List.mem_append_left _ hx) y (List.mem_append_right _ hy) (nerr x h3) (nerr y h4) hy' fun hh => ?_
    have : x.pos ∈ visits .pre second := visits_iff.2 ⟨x, hx, by rw [h3, ← hh]; exact hy', rfl⟩
    rw [hse] at this
    cases this

/-- **C70 (deepening), partial.** Without `-depth`, `-S ids` and `-S eds` evaluate the expression on
exactly the same files, each once, and never on a directory after something in it.

Missing: `-unique`; different roots under which directories have the same paths, but
different depths (`C20_prune_counterexample`). -/
theorem C70_deepening_partial (hs : c.Sane) (hu : c.unique = false) (hN : e.Named) (hE : ∀ p, e.error p = true → e.isDir p = false)
    (hC : Consistent (c.env e) (Cfg.answer c e)) (hp : e.post = false) {next : Ids → Ids}
    (hn : next = idsNext ∨ next = edsNext) {st : Ids} {buf : Bytes}
    (h : Search (c.env e) next st buf) (hb : st.bottom = true) :
    (c.evaluations e st.calls).Nodup ∧ (∀ p, p ∈ c.evaluations e st.calls ↔ c.Target e p) ∧
      (c.evaluations e st.calls).Pairwise fun later earlier => ¬ later <:+ earlier := by
  obtain ⟨h1, h2, h3, h4⟩ := C20_deepening_partial (search_tame hu hN hE) hC hn h hb
  have h4' : ∀ ev ∈ st.calls, ev.path = e.fullPath ev.pos := fun ev hev => by
    rw [h4 ev hev, search_fullPath]
  refine ⟨evaluations_nodup hs h4' (fun p => by rw [expected_pre hp]; exact h1), fun p => ?_,
    h3.sublist (evaluations_sublist hs hp h4')⟩
  rw [evaluations_iff hs hu h4', expected_pre hp, h2, wanted_found hs hu hE]
  constructor
  · rintro ⟨⟨⟨a1, a2⟩, a3⟩, _, a4, a5⟩
    exact ⟨a1, a2, a3, a4, a5⟩
  · intro hh
    exact ⟨⟨⟨hh.found, hh.shown⟩, hh.known⟩, hh.known, hh.allowed, hh.range⟩

/-- **C70 (`-S eds -depth`), partial.** The same with `-depth`, except for mount points with `-xdev`
(see `C70_exact_partial`).

Missing: `-unique`; roots under which different files have the same paths. -/
theorem C70_eds_post_partial (hs : c.Sane) (hu : c.unique = false) (hN : e.Named) (hE : ∀ p, e.error p = true → e.isDir p = false)
    (hD : c.Distinct e) (hi : e.strategy ≠ .ids) {st : Ids}
    (h : EdsPost (c.env e) st) :
    (c.evaluations e st.calls).Nodup ∧ (∀ p, p ∈ c.evaluations e st.calls ↔ c.Target e p ∧
      ¬ (e.post = true ∧ e.barrier p ∧ e.isDir p = true ∧ (depth p : Int) < c.maxdepth)) ∧
      (c.evaluations e st.calls).Pairwise fun later earlier => ¬ earlier <:+ later := by
  have hend := eds_end (search_tame hu hN hE) (distinct_wanted hs hu hE hD) h
  obtain ⟨h1, h2, h3, h4, _, h5⟩ := C20_eds_post_partial (search_tame hu hN hE) (distinct_wanted hs hu hE hD) h
  have hpost : e.post = true := by cases h with | pass _ _ hp _ => exact hp
  have h5' : ∀ ev ∈ st.calls, ev.path = e.fullPath ev.pos := fun ev hev => by
    rw [h5 ev hev, search_fullPath]
  refine ⟨evaluations_nodup hs h5' (fun p => by
    rcases expected_cases c e p with hx | hx <;> rw [hx] <;> assumption), fun p => ?_,
    deepening_order hs hpost h5' (fun ev hev hne => ?_) h1 hend.order hend.phases⟩
  rotate_left
  · cases hv : ev.visit with
    | pre => exact ((wanted_found hs hu hE _).1 ((h2 _).1 (visits_iff.2 ⟨ev, hev, hv, rfl⟩)).1).1
    | post => exact ((wanted_found hs hu hE _).1 ((h4 _).1 (visits_iff.2 ⟨ev, hev, hv, rfl⟩)).1).1
    | err => exact absurd hv hne
  rw [evaluations_iff hs hu h5']
  rcases expected_cases c e p with hx | hx
  · rw [hx, h2, wanted_found hs hu hE]
    have hne : ¬ (e.post = true ∧ e.barrier p ∧ e.isDir p = true ∧ (depth p : Int) < c.maxdepth) := by
      rintro ⟨a, _, b, d⟩
      rw [(expected_iff hs hi p).2 ⟨a, b, d⟩] at hx
      cases hx
    constructor
    · rintro ⟨⟨⟨a1, a2⟩, a3⟩, _, a4, a5⟩
      exact ⟨⟨a1, a2, a3, a4, a5⟩, hne⟩
    · rintro ⟨hh, _⟩
      exact ⟨⟨⟨hh.found, hh.shown⟩, hh.known⟩, hh.known, hh.allowed, hh.range⟩
  · rw [hx, h4, wanted_found hs hu hE, enters_into hs hu hE]
    obtain ⟨x1, x2, x3⟩ := (expected_iff hs hi p).1 hx
    constructor
    · rintro ⟨⟨⟨a1, a2⟩, a3⟩, a6, a4, a5⟩
      exact ⟨⟨a1, a2, a6, a4, a5⟩, fun hh => a3.here hh.2.1⟩
    · rintro ⟨hh, hb⟩
      exact ⟨⟨⟨hh.found, hh.shown⟩, ⟨x2, hh.allowed, x3, fun hh' => hb ⟨x1, hh', x2, x3⟩, hh.shown,
        fun hf => by rw [x1] at hf; cases hf⟩⟩, hh.known, hh.allowed, hh.range⟩

/-- **C70 (`-S ids -depth`), partial.** The same for iterative deepening, where mount points are not
left out.

Missing: `-unique`; roots under which different files have the same paths. -/
theorem C70_ids_post_partial (hs : c.Sane) (hu : c.unique = false) (hN : e.Named) (hE : ∀ p, e.error p = true → e.isDir p = false)
    (hD : c.Distinct e) (hi : e.strategy = .ids) (hpost : e.post = true)
    {st : Ids} {buf : Bytes} (h : IdsPost (c.env e) st buf) (hm : st.min = 0) :
    (c.evaluations e st.calls).Nodup ∧ (∀ p, p ∈ c.evaluations e st.calls ↔ c.Target e p) ∧
      (c.evaluations e st.calls).Pairwise fun later earlier => ¬ earlier <:+ later := by
  have hend := ids_between (search_tame hu hN hE) (distinct_wanted hs hu hE hD) h
  obtain ⟨h1, h2, h3, h4, _, _, h5⟩ := C20_ids_post_partial (search_tame hu hN hE) (distinct_wanted hs hu hE hD) h hm
  have hsz := toSize_eq hs.max0 hs.max1
  have h5' : ∀ ev ∈ st.calls, ev.path = e.fullPath ev.pos := fun ev hev => by
    rw [h5 ev hev, search_fullPath]
  refine ⟨evaluations_nodup hs h5' (fun p => by
    rcases expected_cases c e p with hx | hx <;> rw [hx] <;> assumption), fun p => ?_,
    deepening_order hs hpost h5' (fun ev hev hne => ?_) h1 hend.order hend.phases⟩
  rotate_left
  · cases hv : ev.visit with
    | pre => exact ((wanted_found hs hu hE _).1 ((h2 _).1 (visits_iff.2 ⟨ev, hev, hv, rfl⟩)).1).1
    | post => exact ((wanted_found hs hu hE _).1 ((h4 _).1 (visits_iff.2 ⟨ev, hev, hv, rfl⟩)).1).1
    | err => exact absurd hv hne
  rw [evaluations_iff hs hu h5']
  rcases expected_cases c e p with hx | hx
  · rw [hx, h2, wanted_found hs hu hE]
    constructor
    · rintro ⟨⟨⟨a1, a2⟩, a3⟩, _, a4, a5⟩
      exact ⟨a1, a2, a3, a4, a5⟩
    · intro hh
      exact ⟨⟨⟨hh.found, hh.shown⟩, hh.known⟩, hh.known, hh.allowed, hh.range⟩
  · rw [hx, h4, wanted_found hs hu hE]
    constructor
    · rintro ⟨⟨⟨a1, a2⟩, a3, _⟩, _, a4, a5⟩
      exact ⟨a1, a2, a3, a4, a5⟩
    · intro hh
      refine ⟨⟨⟨hh.found, hh.shown⟩, hh.known, fun hpr => hpr.2 ?_⟩, hh.known, hh.allowed, hh.range⟩
      refine (answer_cont hs hu .pre p).2 ⟨by simp, hh.known, hh.allowed, ?_, fun hf => ?_⟩
      · unfold Cfg.expected at hx
        rw [hpost, hi] at hx
        simp at hx
        omega
      · rw [hx] at hf
        cases hf

/-- **C70 (`-S ids`, `-S eds`), partial.** A complete search with one of these strategies evaluates the
expression on exactly the right files, on each once, in the right order, and its exit status is right.

Missing: `-unique`; roots under which different files have the same paths; `-xdev` with `-depth`. -/
theorem C70_deepened_partial (hs : c.Sane) (hu : c.unique = false) (hN : e.Named) (hE : ∀ p, e.error p = true → e.isDir p = false)
    (hD : c.Distinct e) (hx : e.post = true → e.pruneMounts = false) {st : Ids} (h : Deepened (c.env e) st) :
    (c.evaluations e st.calls).Nodup ∧ (∀ p, p ∈ c.evaluations e st.calls ↔ c.Target e p) ∧
      (e.post = false → (c.evaluations e st.calls).Pairwise fun later earlier => ¬ later <:+ earlier) ∧
      (e.post = true → (c.evaluations e st.calls).Pairwise fun later earlier => ¬ earlier <:+ later) ∧
      (c.status e st.calls = 0 ↔ (c.ignoreErrors = true ∨ ∀ p, ¬ c.Trouble e p)) := by
  have hC : Consistent (c.env e) (Cfg.answer c e) := (distinct_wanted hs hu hE hD).consistent
  have main : (c.evaluations e st.calls).Nodup ∧ (∀ p, p ∈ c.evaluations e st.calls ↔ c.Target e p) ∧
      (e.post = false → (c.evaluations e st.calls).Pairwise fun later earlier => ¬ later <:+ earlier) ∧
      (e.post = true → (c.evaluations e st.calls).Pairwise fun later earlier => ¬ earlier <:+ later) := by
    cases h with
    | ids _ hp h hb =>
      have hp : e.post = false := hp
      obtain ⟨h1, h2, h3⟩ := C70_deepening_partial hs hu hN hE hC hp (Or.inl rfl) h hb
      exact ⟨h1, h2, fun _ => h3, fun hh => by rw [hp] at hh; cases hh⟩
    | eds _ hp h hb =>
      have hp : e.post = false := hp
      obtain ⟨h1, h2, h3⟩ := C70_deepening_partial hs hu hN hE hC hp (Or.inr rfl) h hb
      exact ⟨h1, h2, fun _ => h3, fun hh => by rw [hp] at hh; cases hh⟩
    | idsPost hi h hm =>
      have hp : e.post = true := by
        clear hm
        induction h with
        | init _ _ h => exact h
        | pass _ _ _ ih => exact ih
      obtain ⟨h1, h2, h3⟩ := C70_ids_post_partial hs hu hN hE hD hi hp h hm
      exact ⟨h1, h2, fun hh => (by rw [hp] at hh; cases hh), fun _ => h3⟩
    | edsPost hi h =>
      have hi : e.strategy = .eds := hi
      have hp : e.post = true := by cases h with | pass _ _ hp _ => exact hp
      obtain ⟨h1, h2, h3⟩ := C70_eds_post_partial hs hu hN hE hD (by rw [hi]; simp) h
      refine ⟨h1, fun p => ?_, fun hh => (by rw [hp] at hh; cases hh), fun _ => h3⟩
      rw [h2]
      refine ⟨fun hh => hh.1, fun hh => ⟨hh, fun hb => ?_⟩⟩
      have := hx hb.1
      rw [hb.2.1.1] at this
      cases this
  refine ⟨main.1, main.2.1, main.2.2.1, main.2.2.2, covered_status hs hu ?_⟩
  obtain ⟨h1, h2, h3, h4⟩ := C20_calls_partial (search_tame hu hN hE) (distinct_wanted hs hu hE hD) h
  have wf := wanted_found (c := c) hs hu hE
  refine ⟨fun x hx => (by rw [h1 x hx, search_fullPath]), fun ev hev => ?_, fun p h5 h6 h7 => (h2 p).2 ⟨(wf p).2 ⟨h5, h6⟩, h7⟩, fun p h5 h6 h7 => ?_,
    fun p hp he => ?_, fun p h5 h6 h7 => (h4 p).2 ⟨(wf p).2 ⟨h5, h6.shown⟩, Or.inl ⟨(enters_into hs hu hE p).2 h6, h7⟩⟩, main.2.1⟩
  · cases hv : ev.visit with
    | pre => exact (wf _).1 ((h2 _).1 (visits_iff.2 ⟨ev, hev, hv, rfl⟩)).1
    | post => exact (wf _).1 (h3 _ (visits_iff.2 ⟨ev, hev, hv, rfl⟩))
    | err => exact (wf _).1 ((h4 _).1 (visits_iff.2 ⟨ev, hev, hv, rfl⟩)).1
  · obtain ⟨ev, h8, _, h9⟩ := visits_iff.1 ((h4 p).2 ⟨(wf p).2 ⟨h5, h6⟩, Or.inr h7⟩)
    exact ⟨ev, h8, h9⟩
  · rcases ((h4 p).1 hp).2 with h5 | h5
    · exact ⟨(enters_into hs hu hE p).1 h5.1, h5.2⟩
    · rw [show (c.env e).error p = false from he] at h5; cases h5

/-- An evaluation that wants to stop the search is answered so. -/
theorem evaluated_stop (hu : c.unique = false) {v : Visit} {p : Pos} {tr : List Event} (h : (c.verdict e tr v p (e.fullPath p)).evaluated = true) (hst : c.expr p = .stop) :
    Cfg.answer c e v p = .stop := by
  revert h
  unfold Cfg.answer Cfg.verdict Cfg.examine Cfg.evaluate Cfg.failed
  rw [hu]
  dsimp only
  repeat' split
  all_goals simp_all

/-- **C70 (`-S ids`, `-S eds`, at any time), partial.** At any time during such a search, whether it is
going to be complete or ended by `-quit`, the expression has been evaluated only on files that it
should be evaluated on, on each once, and in the right order; after an evaluation that stops the
search, there are no others.

Missing: `-unique`; roots under which different files have the same paths. -/
theorem C70_anytime_partial (hs : c.Sane) (hu : c.unique = false) (hN : e.Named) (hE : ∀ p, e.error p = true → e.isDir p = false)
    (hD : c.Distinct e) {st : Ids} (h : Midway (c.env e) st) :
    (∀ call ∈ st.calls, call.path = e.fullPath call.pos) ∧
      (c.evaluations e st.calls).Nodup ∧ (∀ p, p ∈ c.evaluations e st.calls → c.Target e p) ∧
      (e.post = false → (c.evaluations e st.calls).Pairwise fun later earlier => ¬ later <:+ earlier) ∧
      (e.post = true → (c.evaluations e st.calls).Pairwise fun later earlier => ¬ earlier <:+ later) ∧
      ∀ p, p ∈ c.evaluations e st.calls → c.expr p = .stop → (c.evaluations e st.calls).head? = some p := by
  have hT := search_tame (c := c) hu hN hE
  have hD' := distinct_wanted hs hu hE hD
  obtain ⟨⟨h1, h2, h3⟩, ⟨h4, h5, h6⟩, h7, h8, h9⟩ := C20_anytime_partial hT hD' h
  have wf := wanted_found (c := c) hs hu hE
  have hpath : ∀ ev ∈ st.calls, ev.path = e.fullPath ev.pos := fun ev hev => by
    rw [h7 ev hev, search_fullPath]
  refine ⟨hpath, evaluations_nodup hs hpath (fun p => by rcases expected_cases c e p with hx | hx <;> rw [hx] <;> assumption), fun p hp => ?_,
    fun hp => h3.sublist (evaluations_sublist hs hp hpath), fun hp => deepening_order hs hp hpath (fun ev hev hne => ?_) h1 h6 h9, fun p hp hst => ?_⟩
  · rw [evaluations_iff hs hu hpath] at hp
    have hw : Wanted (c.env e) (Cfg.answer c e) p := by
      have := hp.1
      rcases expected_cases c e p with hx | hx
      · rw [hx] at this
        exact (h2 p this).1
      · rw [hx] at this
        exact (h5 p this).1
    exact ⟨((wf p).1 hw).1, ((wf p).1 hw).2, hp.2.1, hp.2.2.1, hp.2.2.2⟩
  · cases hv : ev.visit with
    | pre => exact ((wf _).1 (h2 _ (visits_iff.2 ⟨ev, hev, hv, rfl⟩)).1).1
    | post => exact ((wf _).1 (h5 _ (visits_iff.2 ⟨ev, hev, hv, rfl⟩)).1).1
    | err => exact absurd hv hne
  · obtain ⟨l, ev, r, k1, rfl, k3⟩ := mem_evaluations.1 hp
    have k4 := hpath ev (by rw [k1]; simp)
    have k5 : l = [] := C20_stop_partial hT hD' h k1 (evaluated_stop hu (by rw [← k4]; exact k3) hst)
    subst k5
    rw [k1, List.nil_append, evaluations_cons, if_pos k3]
    rfl

/-- A complete search has not evaluated anything that stops it. -/
theorem deepened_unstopped (hs : c.Sane) (hu : c.unique = false) (hN : e.Named) (hE : ∀ p, e.error p = true → e.isDir p = false)
    (hD : c.Distinct e) {st : Ids} (h : Deepened (c.env e) st) {p : Pos} (hp : p ∈ c.evaluations e st.calls) : c.expr p ≠ .stop := by
  have hT := search_tame (c := c) hu hN hE
  have hD' := distinct_wanted hs hu hE hD
  intro hst
  obtain ⟨l, ev, r, k1, rfl, k3⟩ := mem_evaluations.1 hp
  have hm : ev ∈ st.calls := by rw [k1]; simp
  have k4 : ev.path = e.fullPath ev.pos := by rw [(C20_calls_partial hT hD' h).1 ev hm, search_fullPath]
  exact C20_unstopped_partial hT hD' h ev hm (evaluated_stop hu (by rw [← k4]; exact k3) hst)

/-! ## Examples -/

/-- `bfs a -mindepth 1 -X -exclude -name x`; the other file is `a/y/z`. -/
def searchCfg : Cfg where
  mindepth := 1
  maxdepth := 2147483647
  xargsSafe := true
  unique := false
  ignoreRaces := false
  ignoreErrors := false
  exclude := fun p => p == [1, 0]
  expr := fun _ => .cont
  exprError := fun _ => false
  fileId := fun p => if p.length < 2 then (0, p.length) else (0, 7)
  gone := fun _ => false

theorem searchCfg_sane : searchCfg.Sane := ⟨by decide, by decide, by decide, by decide⟩

example : ∃ s, Reach (searchCfg.env walkEnv) s ∧ s.pc = .done ∧
    searchCfg.evaluations walkEnv s.trace = [[0, 0], [0, 0, 0]] ∧ searchCfg.status walkEnv s.trace = 0 :=
  ⟨walk _ 100, walk_reach _ _, by decide +kernel, by decide +kernel, by decide +kernel⟩

example : walkEnv.strategy ≠ .ids ∧ (∀ p, walkEnv.error p = true → walkEnv.isDir p = false) ∧
    (walkEnv.post = true → walkEnv.pruneMounts = false) :=
  ⟨by decide, fun _ h => (by cases h), fun _ => rfl⟩

/-- The same if the expression reports an error on `a/y/z`. -/
example : ∃ s, Reach ((Cfg.env { searchCfg with exprError := fun p => p == [0, 0, 0] }) walkEnv) s ∧
    s.pc = .done ∧ Cfg.status { searchCfg with exprError := fun p => p == [0, 0, 0] } walkEnv s.trace = 1 :=
  ⟨walk _ 100, walk_reach _ _, by decide +kernel, by decide +kernel⟩

/-- With `-unique`, where `a/x`, `a/y` and `a/y/z` are the same file (or have been swapped by a
race). -/
example : ∃ s, Reach (Cfg.env { searchCfg with unique := true } { walkEnv with post := false }) s ∧
    s.pc = .done ∧ Cfg.evaluations { searchCfg with unique := true } { walkEnv with post := false } s.trace = [] ∧
    (visits .pre s.trace).length = 3 :=
  ⟨walk _ 100, walk_reach _ _, by decide +kernel, by decide +kernel, by decide +kernel⟩

/-- `bfs -S ids -depth -unique a`. -/
def uniqueCfg : Cfg :=
  { searchCfg with
    mindepth := 0, xargsSafe := false, unique := true, exclude := fun _ => false
    fileId := fun p => if p = [1, 0] ∨ p = [0, 0, 0] then (0, 9) else (0, p.length) }

/-- `a/x` and `a/y/z` are the same file (hard links). -/
def uniqueEnv : Env := { walkEnv with strategy := .ids }

/-- With `-S ids -depth`, `-unique` does not work: the expression is evaluated on both. (The second
one is found to be the same in the first phase, but only directories are remembered for the second
phase, where that is not checked again.) -/
theorem C70_unique_counterexample : uniqueCfg.fileId [1, 0] = uniqueCfg.fileId [0, 0, 0] ∧
    ∃ st buf, IdsPost (uniqueCfg.env uniqueEnv) st buf ∧ st.min = 0 ∧
      (uniqueCfg.evaluations uniqueEnv st.calls).reverse = [[0, 0, 0], [1, 0], [0, 0], [0]] :=
  ⟨by decide, ids_ok rfl (by decide +kernel)⟩

/-- `bfs -L -unique a`, where `a/x` is a link to `a` and `a/f` a file. -/
def loopDir : Pos → Bool
  | [] => false
  | [_] => true
  | j :: p => j == 0 && loopDir p

def loopEnv : Env :=
  { walkEnv with
    post := false
    isDir := loopDir
    entries := fun p => if loopDir p then 2 else 0
    name := fun p => match p with
      | [_] => [97]
      | 0 :: _ => [120]
      | _ => [102] }

def loopCfg : Cfg :=
  { searchCfg with
    mindepth := 0, xargsSafe := false, unique := true, exclude := fun _ => false
    fileId := fun p => (0, if loopDir p then 1 else 2) }

theorem loop_named : loopEnv.Named := by
  intro p _
  show (match p with | [_] => _ | 0 :: _ => _ | _ => _) ≠ []
  split <;> simp

theorem loop_identities : loopCfg.Identities loopEnv := by
  intro p q _ _ hid
  have hdir : loopDir p = loopDir q := by
    have h : ((0 : Nat), if loopDir p then 1 else 2) = (0, if loopDir q then 1 else 2) := hid
    cases hp : loopDir p <;> cases hq : loopDir q <;> simp [hp, hq] at h ⊢
  refine ⟨hdir, fun _ => ⟨rfl, fun h => by cases h⟩, (fun h => by cases h.1), fun _ => rfl, ?_⟩
  intro j hj _ _
  have hj' : j < if loopDir p then 2 else 0 := hj
  refine ⟨j, by show j < if loopDir q then 2 else 0; rw [← hdir]; exact hj', rfl, rfl, ?_⟩
  show ((0 : Nat), if loopDir (j :: q) then 1 else 2) = (0, if loopDir (j :: p) then 1 else 2)
  cases p with
  | nil => exact absurd hj' (by simp [loopDir])
  | cons a p =>
    cases q with
    | nil => rw [hdir] at hj'; exact absurd hj' (by simp [loopDir])
    | cons b q =>
      have e1 : loopDir (j :: a :: p) = (j == 0 && loopDir (a :: p)) := rfl
      have e2 : loopDir (j :: b :: q) = (j == 0 && loopDir (b :: q)) := rfl
      rw [e1, e2, hdir]

/-- The search ends, though there are paths of any length; `a/x/f` was found as `a/f`. -/
example : loopCfg.Sane ∧ loopEnv.Named ∧ loopCfg.Identities loopEnv ∧
    ∃ s, Reach (loopCfg.env loopEnv) s ∧ s.pc = .done ∧ (loopCfg.evaluations loopEnv s.trace).reverse = [[0], [1, 0]] ∧
      ∀ p ∈ visits .pre s.trace, (depth p : Int) < loopCfg.maxdepth :=
  ⟨⟨by decide, by decide, by decide, by decide⟩, loop_named, loop_identities,
    walk _ 100, walk_reach _ _, by decide +kernel, by decide +kernel, by decide +kernel⟩

example : loopCfg.Target loopEnv [1, 0, 0] := by
  have hE : ∀ p, loopDir p = true → (depth p : Int) < 2147483647 → loopCfg.Enters loopEnv p := fun p hd hm =>
    ⟨hd, ⟨rfl, fun h => by cases h⟩, hm, (fun h => by cases h.1), rfl, fun _ _ => rfl⟩
  exact ⟨.entry _ _ (.entry _ _ (.root 0 (by decide)) (hE _ rfl (by decide)) (by decide)) (hE _ rfl (by decide)) (by decide),
    rfl, rfl, ⟨rfl, fun h => by cases h⟩, by decide, by decide⟩

example : (∀ p, loopEnv.isDir p = true → loopCfg.fileId p ∈ [(0, 1)]) ∧ (∀ p, loopEnv.entries p ≤ 2) := by
  refine ⟨fun p hp => ?_, fun p => ?_⟩
  · show ((0 : Nat), if loopDir p then 1 else 2) ∈ [(0, 1)]
    rw [show loopDir p = true from hp]
    decide
  · show (if loopDir p then 2 else 0) ≤ 2
    split <;> omega

/-- `bfs -L -S dfs -unique -maxdepth 2 a`, where `a/x/l` is a link to `a/y`, and `a/y/f` a file. -/
def linkEnv : Env :=
  { walkEnv with
    post := false
    strategy := .dfs
    isDir := fun p => p == [0] || p == [0, 0] || p == [1, 0] || p == [0, 0, 0]
    entries := fun p => if p == [0] then 2 else if p == [0, 0] || p == [1, 0] || p == [0, 0, 0] then 1 else 0
    name := fun p => match p with
      | [_] => [97]
      | [0, 0] => [120]
      | [1, 0] => [121]
      | [0, 0, 0] => [108]
      | _ => [102] }

def linkCfg : Cfg :=
  { searchCfg with
    mindepth := 0, maxdepth := 2, xargsSafe := false, unique := true, exclude := fun _ => false
    fileId := fun p => (0, if p == [0] then 1 else if p == [0, 0] then 2 else if p == [1, 0] || p == [0, 0, 0] then 3 else 4) }

/-- With `-maxdepth`, `-unique` loses files: `a/x/l` is too deep to go into, and then `a/y` is not
gone into because it is the same directory, so that `a/y/f` is not found at all. -/
theorem C70_unique_depth_counterexample : linkCfg.Sane ∧ linkEnv.Named ∧ linkCfg.Target linkEnv [0, 1, 0] ∧
    ∃ s, Reach (linkCfg.env linkEnv) s ∧ s.pc = .done ∧
      (linkCfg.evaluations linkEnv s.trace).reverse = [[0], [0, 0], [0, 0, 0]] ∧
      ∀ q ∈ linkCfg.evaluations linkEnv s.trace, linkCfg.fileId q ≠ linkCfg.fileId [0, 1, 0] := by
  have hA : ∀ p, linkCfg.Allowed linkEnv p := fun p => ⟨rfl, fun h => by cases h⟩
  refine ⟨⟨by decide, by decide, by decide, by decide⟩, ?_, ⟨?_, rfl, rfl, hA _, by decide, by decide⟩,
    walk _ 100, walk_reach _ _, by decide +kernel, by decide +kernel, by decide +kernel⟩
  · intro p _
    show (match p with | [_] => _ | [0, 0] => _ | [1, 0] => _ | [0, 0, 0] => _ | _ => _) ≠ []
    split <;> simp
  · exact .entry _ _ (.entry _ _ (.root 0 (by decide)) ⟨rfl, hA _, by decide, (fun h => by cases h.1), rfl, fun _ _ => rfl⟩ (by decide))
      ⟨rfl, hA _, by decide, (fun h => by cases h.1), rfl, fun _ _ => rfl⟩ (by decide)

/-- The hypotheses of the theorems about deepening are met. -/
def deepCfg : Cfg := { searchCfg with exclude := fun _ => false, mindepth := 1 }

theorem deep_sane : deepCfg.Sane := ⟨by decide, by decide, by decide, by decide⟩

theorem deep_distinct (c : Cfg) (str : Strategy) (post : Bool) : c.Distinct { walkEnv with strategy := str, post := post } := by
  intro p q hp hq hpath
  have lift : ∀ p, Found { walkEnv with strategy := str, post := post }
      (c.Enters { walkEnv with strategy := str, post := post }) p →
      Found walkEnv (Into walkEnv fun _ _ => .cont) p := by
    intro p h
    induction h with
    | root i h => exact Found.root i h
    | entry p j hp hi hj ih => exact Found.entry p j ih ⟨hi.dir, rfl, hi.here, hi.shown⟩ hj
  refine walkEnv_distinct p q ⟨lift p hp, rfl⟩ ⟨lift q hq, rfl⟩ ?_
  have hf : ∀ p, Env.fullPath { walkEnv with strategy := str, post := post } p = walkEnv.fullPath p := by
    intro p
    induction p with
    | nil => rfl
    | cons j p ih =>
      cases p with
      | nil => rfl
      | cons i p => show join _ _ = join _ _; rw [ih]
  rw [hf, hf] at hpath
  exact hpath

example : ∃ st buf, Search (deepCfg.env { walkEnv with strategy := .ids, post := false }) idsNext st buf ∧
    st.bottom = true ∧ (deepCfg.evaluations { walkEnv with strategy := .ids, post := false } st.calls).reverse =
      [[1, 0], [0, 0], [0, 0, 0]] :=
  first_ok (by decide +kernel)

example : ∃ st buf, IdsPost (deepCfg.env { walkEnv with strategy := .ids, post := true }) st buf ∧
    st.min = 0 ∧ (deepCfg.evaluations { walkEnv with strategy := .ids, post := true } st.calls).reverse =
      [[0, 0, 0], [1, 0], [0, 0]] :=
  ids_ok rfl (by decide +kernel)

example : ∃ st, EdsPost (deepCfg.env { walkEnv with strategy := .eds, post := true }) st ∧
    (deepCfg.evaluations { walkEnv with strategy := .eds, post := true } st.calls).reverse =
      [[1, 0], [0, 0, 0], [0, 0]] :=
  eds_ok rfl (by decide +kernel)

/-- All of them are complete searches with these strategies. -/
example : ∃ st, Deepened (deepCfg.env { walkEnv with strategy := .ids, post := true }) st ∧
    (deepCfg.evaluations { walkEnv with strategy := .ids, post := true } st.calls).reverse = [[0, 0, 0], [1, 0], [0, 0]] := by
  obtain ⟨st, buf, h1, h2, h3⟩ := ids_ok (e := deepCfg.env { walkEnv with strategy := .ids, post := true })
    (f := fun st => (deepCfg.evaluations { walkEnv with strategy := .ids, post := true } st.calls).reverse) rfl
    (calls := [[0, 0, 0], [1, 0], [0, 0]]) (by decide +kernel)
  exact ⟨st, .idsPost rfl h1 h2, h3⟩

/-- `bfs -S eds a -name y -quit`. -/
def quitCfg : Cfg := { searchCfg with exclude := fun _ => false, mindepth := 0, expr := fun p => if p = [0, 0] then .stop else .cont }

theorem quit_sane : quitCfg.Sane := ⟨by decide, by decide, by decide, by decide⟩

example : ∃ st, Midway (quitCfg.env { walkEnv with strategy := .eds, post := false }) st ∧
    (quitCfg.evaluations { walkEnv with strategy := .eds, post := false } st.calls).reverse = [[0], [1, 0], [0, 0]] :=
  mid_ok (next := edsNext) (k := 1) (m := 100) (Or.inr ⟨rfl, rfl⟩) (by decide +kernel)

end Verif.Props
