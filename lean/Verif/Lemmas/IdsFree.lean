import Verif.Lemmas.IdsSoft
import Verif.Model.Main
/-!
# Iterative and exponential deepening with any callback

Nothing is assumed about the answers of the callback here: they may depend on everything that happened before.
-/
namespace Verif.Bftw
open Verif.Props

variable {e : Env} {st st' : Ids} {buf buf' : Bytes} {junk : Nat → Nat → UInt8} {post : Bool} {tr : List Event} {next : Ids → Ids}
  {cb : List Event → Visit → Pos → Bytes → Action}

/-! ## A search only depends on the answers that the callback gives during it -/

theorem delegate_with {x : Ids} {v : Visit} {p : Pos} {path : Bytes} (h : Agrees e cb (x.delegate e v p path).1.calls) :
    x.delegate (e.with cb) v p path = x.delegate e v p path := by
  have := h [] _ _ rfl
  unfold Ids.delegate
  dsimp only at this ⊢
  rw [this]

theorem call_with {x : Ids} {v : Visit} {p : Pos} {path : Bytes} (h : Agrees e cb (Ids.call e x v p path).1.calls) :
    Ids.call (e.with cb) x v p path = Ids.call e x v p path := by
  unfold Ids.call at h ⊢
  by_cases h1 : (decide (v = .err) || e.error p) = true
  · rw [if_pos h1] at h ⊢
    rw [if_pos h1]
    by_cases h2 : depth p + 1 ≥ x.min
    · rw [if_pos h2] at h ⊢
      rw [if_pos h2]
      exact delegate_with h
    · rw [if_neg h2, if_neg h2]
  · rw [if_neg h1] at h ⊢
    rw [if_neg h1]
    by_cases h2 : depth p < x.min
    · rw [if_pos h2, if_pos h2]
    · rw [if_neg h2] at h ⊢
      rw [if_neg h2]
      by_cases h3 : (decide (x.visit = .post) && x.pruned.contains path) = true
      · rw [if_pos h3, if_pos h3]
      · rw [if_neg h3] at h ⊢
        rw [if_neg h3]
        unfold Ids.ask at h ⊢
        by_cases h4 : (if x.force then x.visit else v) = x.visit
        · rw [if_pos h4] at h ⊢
          rw [if_pos h4]
          rw [show x.delegate e x.visit p path = ((x.delegate e x.visit p path).1, (x.delegate e x.visit p path).2) from rfl, decide_calls] at h
          rw [delegate_with h]
          rfl
        · rw [if_neg h4, if_neg h4]
          rfl

theorem call_suffix (e : Env) (x : Ids) (v : Visit) (p : Pos) (path : Bytes) : x.calls <:+ (Ids.call e x v p path).1.calls := by
  rcases call_calls e x v p path with ⟨h, -⟩ | ⟨v', h, -, -⟩
  · rw [h]; exact List.suffix_refl _
  · rw [h]; exact List.suffix_cons _ _

theorem after_suffix (e : Env) (st : Ids) : ∀ l tr : List Event, (Ids.after e st tr).calls <:+ (Ids.after e st (l ++ tr)).calls
  | [], _ => List.suffix_refl _
  | _ :: l, tr => (after_suffix e st l tr).trans (call_suffix _ _ _ _ _)

theorem after_start (e : Env) (st : Ids) (tr : List Event) : st.calls <:+ (Ids.after e st tr).calls := by
  have := after_suffix e st tr []
  rw [List.append_nil] at this
  exact this

theorem after_with : ∀ {tr : List Event}, Agrees e cb (Ids.after e st tr).calls → Ids.after (e.with cb) st tr = Ids.after e st tr
  | [], _ => rfl
  | ev :: tr, h => by
    have ih := after_with (tr := tr) (h.of_suffix (call_suffix _ _ _ _ _))
    show (Ids.call (e.with cb) (Ids.after (e.with cb) st tr) _ _ _).1 = (Ids.call e (Ids.after e st tr) _ _ _).1
    rw [ih, call_with h]

theorem part_with {s : State} (hr : Reach (Ids.env e st buf junk post) s) (h : Agrees e cb (Ids.after e st s.trace).calls) :
    Reach (Ids.env (e.with cb) st buf junk post) s := by
  refine reach_with (e := Ids.env e st buf junk post) (cb := (Ids.env (e.with cb) st buf junk post).callback) hr ?_
  intro later ev earlier ht
  rw [ht] at h
  have h1 : Agrees e cb (Ids.after e st (ev :: earlier)).calls := h.of_suffix (after_suffix _ _ _ _)
  have h2 : Agrees e cb (Ids.after e st earlier).calls := h1.of_suffix (call_suffix _ _ _ _ _)
  show (Ids.call (e.with cb) (Ids.after (e.with cb) st earlier) _ _ _).2 = (Ids.call e (Ids.after e st earlier) _ _ _).2
  rw [after_with h2, call_with h1]

theorem pass_with (hp : Pass e post st buf st' buf') (h : Agrees e cb st'.calls) : Pass (e.with cb) post st buf st' buf' := by
  obtain ⟨junk, s, hr, hd, rfl, rfl⟩ := hp
  exact ⟨junk, s, part_with hr h, hd, (after_with h).symm, rfl⟩

theorem pass_start (hp : Pass e post st buf st' buf') : st.calls <:+ st'.calls := by
  obtain ⟨junk, s, hr, hd, rfl, rfl⟩ := hp
  exact after_start _ _ _

theorem search_with (hn : next = idsNext ∨ next = edsNext) (hs : Search e next st buf) (h : Agrees e cb st.calls) : Search (e.with cb) next st buf := by
  induction hs with
  | init => exact .init
  | pass _ hb hp ih =>
    rw [next_calls hn] at h
    have := pass_start hp
    exact .pass (ih (h.of_suffix this)) hb (pass_with hp h)

theorem idsPost_with (hs : IdsPost e st buf) (h : Agrees e cb st.calls) : IdsPost (e.with cb) st buf := by
  induction hs with
  | init hs hb hp => exact .init (search_with (Or.inl rfl) hs h) hb hp
  | pass _ hm hp ih =>
    have := pass_start hp
    exact .pass (ih (h.of_suffix this)) hm (pass_with hp h)

theorem deepened_with (hd : Deepened e st) (h : Agrees e cb st.calls) : Deepened (e.with cb) st := by
  cases hd with
  | ids h1 h2 hs hb => exact .ids h1 h2 (search_with (Or.inl rfl) hs h) hb
  | eds h1 h2 hs hb => exact .eds h1 h2 (search_with (Or.inr rfl) hs h) hb
  | idsPost h1 hs hm => exact .idsPost h1 (idsPost_with hs h) hm
  | edsPost h1 hs =>
    cases hs with
    | pass hs hb hp hpass =>
      have := pass_start hpass
      exact .edsPost h1 (.pass (search_with (Or.inr rfl) hs (h.of_suffix this)) hb hp (pass_with hpass h))

theorem midway_with (hd : Midway e st) (h : Agrees e cb st.calls) : Midway (e.with cb) st := by
  cases hd with
  | @ids st buf junk s h1 hs hb hr =>
    have := after_start e { st with bottom := true } s.trace
    rw [← after_with h]
    exact .ids h1 (search_with (Or.inl rfl) hs (h.of_suffix this)) hb (part_with hr h)
  | @eds st buf junk s h1 hs hb hr =>
    have := after_start e { st with bottom := true } s.trace
    rw [← after_with h]
    exact .eds h1 (search_with (Or.inr rfl) hs (h.of_suffix this)) hb (part_with hr h)
  | @idsPost st buf junk s h1 hs hm hr =>
    have := after_start e { st with max := st.max - 1, min := st.min - 1 } s.trace
    rw [← after_with h]
    exact .idsPost h1 (idsPost_with hs (h.of_suffix this)) hm (part_with hr h)
  | @edsPost st buf junk s h1 hs hb hp hr =>
    have := after_start e { st with visit := .post, min := 0 } s.trace
    rw [← after_with h]
    exact .edsPost h1 (search_with (Or.inr rfl) hs (h.of_suffix this)) hb hp (part_with hr h)

/-! ## The answers are those of the callback -/

/-- Each call has been answered by the callback, given the earlier ones. -/
def Honest (e : Env) : List Event → Prop
  | [] => True
  | c :: calls => c.action = e.callback calls c.visit c.pos c.path ∧ Honest e calls

theorem honest_split : ∀ {l : List Event} {c : Event} {r : List Event}, Honest e (l ++ c :: r) → c.action = e.callback r c.visit c.pos c.path
  | [], _, _, h => h.1
  | _ :: _, _, _, h => honest_split h.2

theorem call_honest {x : Ids} (h : Honest e x.calls) (v : Visit) (p : Pos) (path : Bytes) : Honest e (Ids.call e x v p path).1.calls := by
  rcases call_calls e x v p path with ⟨h1, -⟩ | ⟨v', h1, -, -⟩
  · rw [h1]; exact h
  · rw [h1]; exact ⟨rfl, h⟩

theorem after_honest (h : Honest e st.calls) : ∀ tr : List Event, Honest e (Ids.after e st tr).calls
  | [] => h
  | _ :: tr => call_honest (after_honest h tr) _ _ _

theorem pass_honest (hp : Pass e post st buf st' buf') (h : Honest e st.calls) : Honest e st'.calls := by
  obtain ⟨junk, s, _, _, rfl, -⟩ := hp
  exact after_honest h _

theorem search_honest (hn : next = idsNext ∨ next = edsNext) (h : Search e next st buf) : Honest e st.calls := by
  induction h with
  | init => trivial
  | pass _ _ hp ih => rw [next_calls hn]; exact pass_honest hp ih

theorem idsPost_honest (h : IdsPost e st buf) : Honest e st.calls := by
  induction h with
  | init h _ _ => have := search_honest (Or.inl rfl) h; exact this
  | pass _ _ hp ih => exact pass_honest hp ih

theorem deepened_honest (h : Deepened e st) : Honest e st.calls := by
  cases h with
  | ids _ _ h _ => exact search_honest (Or.inl rfl) h
  | eds _ _ h _ => exact search_honest (Or.inr rfl) h
  | idsPost _ h _ => exact idsPost_honest h
  | edsPost _ h =>
    cases h with
    | pass h _ _ hp => exact pass_honest hp (by have := search_honest (Or.inr rfl) h; exact this)

theorem midway_honest (h : Midway e st) : Honest e st.calls := by
  cases h with
  | ids _ h _ _ => exact after_honest (by have := search_honest (Or.inl rfl) h; exact this) _
  | eds _ h _ _ => exact after_honest (by have := search_honest (Or.inr rfl) h; exact this) _
  | idsPost _ h _ _ => exact after_honest (by have := idsPost_honest h; exact this) _
  | edsPost _ h _ _ _ => exact after_honest (by have := search_honest (Or.inr rfl) h; exact this) _

/-! ## Nothing happens after the search has been stopped -/

theorem pass_legal (hN : e.Named) {s : State} (hr : Reach (Ids.env e st buf junk post) s) : Legal (Ids.env e st buf junk post) s.trace :=
  (inv_reach (e := Ids.env e st buf junk post) hN hr).legal

theorem pass_unstopped (hN : e.Named) (hp : Pass e post st buf st' buf') (h : ∀ c ∈ st.calls, c.action ≠ .stop) : ∀ c ∈ st'.calls, c.action ≠ .stop := by
  obtain ⟨junk, s, hr, hd, rfl, -⟩ := hp
  exact after_nostop h (pass_legal hN hr) (done_nostop (e := Ids.env e st buf junk post) hN hr hd)

theorem search_unstopped (hN : e.Named) (hn : next = idsNext ∨ next = edsNext) (h : Search e next st buf) : ∀ c ∈ st.calls, c.action ≠ .stop := by
  induction h with
  | init => exact fun c hc => (by cases hc)
  | pass _ _ hp ih => rw [next_calls hn]; exact pass_unstopped hN hp ih

theorem idsPost_unstopped (hN : e.Named) (h : IdsPost e st buf) : ∀ c ∈ st.calls, c.action ≠ .stop := by
  induction h with
  | init h _ _ => have := search_unstopped hN (Or.inl rfl) h; exact this
  | pass _ _ hp ih => exact pass_unstopped hN hp ih

theorem deepened_free_unstopped (hN : e.Named) (h : Deepened e st) : ∀ c ∈ st.calls, c.action ≠ .stop := by
  cases h with
  | ids _ _ h _ => exact search_unstopped hN (Or.inl rfl) h
  | eds _ _ h _ => exact search_unstopped hN (Or.inr rfl) h
  | idsPost _ h _ => exact idsPost_unstopped hN h
  | edsPost _ h =>
    cases h with
    | pass h _ _ hp => exact pass_unstopped hN hp (by have := search_unstopped hN (Or.inr rfl) h; exact this)

theorem after_last (hN : e.Named) (h : ∀ c ∈ st.calls, c.action ≠ .stop) {s : State} (hr : Reach (Ids.env e st buf junk post) s) :
    ∀ c ∈ (Ids.after e st s.trace).calls.tail, c.action ≠ .stop := by
  have hl := pass_legal hN hr
  cases ht : s.trace with
  | nil => exact fun c hc => h c (List.mem_of_mem_tail hc)
  | cons ev tr =>
    rw [ht] at hl
    have hno := after_nostop h hl.2 hl.1.running
    intro c hc
    change c ∈ (Ids.call e (Ids.after e st tr) ev.visit ev.pos ev.path).1.calls.tail at hc
    rcases call_calls e (Ids.after e st tr) ev.visit ev.pos ev.path with ⟨h1, -⟩ | ⟨v', h1, -, -⟩
    · rw [h1] at hc; exact hno c (List.mem_of_mem_tail hc)
    · rw [h1] at hc; exact hno c hc

theorem midway_last (hN : e.Named) (h : Midway e st) : ∀ c ∈ st.calls.tail, c.action ≠ .stop := by
  cases h with
  | ids _ h _ hr => exact after_last hN (by have := search_unstopped hN (Or.inl rfl) h; exact this) hr
  | eds _ h _ hr => exact after_last hN (by have := search_unstopped hN (Or.inr rfl) h; exact this) hr
  | idsPost _ h _ hr => exact after_last hN (by have := idsPost_unstopped hN h; exact this) hr
  | edsPost _ h _ _ hr => exact after_last hN (by have := search_unstopped hN (Or.inr rfl) h; exact this) hr

/-! ## Paths -/

theorem after_path (h : ∀ c ∈ st.calls, c.path = e.fullPath c.pos) : ∀ {tr : List Event}, (∀ ev ∈ tr, ev.path = e.fullPath ev.pos) → ∀ c ∈ (Ids.after e st tr).calls, c.path = e.fullPath c.pos
  | [], _ => h
  | ev :: tr, ht => by
    have ih := after_path h (tr := tr) fun x hx => ht x (List.mem_cons_of_mem _ hx)
    intro c hc
    change c ∈ (Ids.call e (Ids.after e st tr) ev.visit ev.pos ev.path).1.calls at hc
    rcases call_calls e (Ids.after e st tr) ev.visit ev.pos ev.path with ⟨h1, -⟩ | ⟨v', h1, -, -⟩
    · rw [h1] at hc; exact ih c hc
    · rw [h1] at hc
      rcases List.mem_cons.1 hc with rfl | hc
      · exact ht ev List.mem_cons_self
      · exact ih c hc

theorem reach_path (hN : e.Named) {s : State} (hr : Reach (Ids.env e st buf junk post) s) : ∀ ev ∈ s.trace, ev.path = e.fullPath ev.pos := by
  intro ev hev
  rw [C23_path (e := Ids.env e st buf junk post) hN hr hev, env_fullPath]

theorem pass_path (hN : e.Named) (hp : Pass e post st buf st' buf') (h : ∀ c ∈ st.calls, c.path = e.fullPath c.pos) : ∀ c ∈ st'.calls, c.path = e.fullPath c.pos := by
  obtain ⟨junk, s, hr, _, rfl, -⟩ := hp
  exact after_path h (reach_path hN hr)

theorem search_paths (hN : e.Named) (hn : next = idsNext ∨ next = edsNext) (h : Search e next st buf) : ∀ c ∈ st.calls, c.path = e.fullPath c.pos := by
  induction h with
  | init => exact fun c hc => (by cases hc)
  | pass _ _ hp ih => rw [next_calls hn]; exact pass_path hN hp ih

theorem idsPost_paths (hN : e.Named) (h : IdsPost e st buf) : ∀ c ∈ st.calls, c.path = e.fullPath c.pos := by
  induction h with
  | init h _ _ => have := search_paths hN (Or.inl rfl) h; exact this
  | pass _ _ hp ih => exact pass_path hN hp ih

theorem deepened_paths (hN : e.Named) (h : Deepened e st) : ∀ c ∈ st.calls, c.path = e.fullPath c.pos := by
  cases h with
  | ids _ _ h _ => exact search_paths hN (Or.inl rfl) h
  | eds _ _ h _ => exact search_paths hN (Or.inr rfl) h
  | idsPost _ h _ => exact idsPost_paths hN h
  | edsPost _ h =>
    cases h with
    | pass h _ _ hp => exact pass_path hN hp (by have := search_paths hN (Or.inr rfl) h; exact this)

theorem midway_paths (hN : e.Named) (h : Midway e st) : ∀ c ∈ st.calls, c.path = e.fullPath c.pos := by
  cases h with
  | ids _ h _ hr => exact after_path (by have := search_paths hN (Or.inl rfl) h; exact this) (reach_path hN hr)
  | eds _ h _ hr => exact after_path (by have := search_paths hN (Or.inr rfl) h; exact this) (reach_path hN hr)
  | idsPost _ h _ hr => exact after_path (by have := idsPost_paths hN h; exact this) (reach_path hN hr)
  | edsPost _ h _ _ hr => exact after_path (by have := search_paths hN (Or.inr rfl) h; exact this) (reach_path hN hr)

/-! ## Nothing is visited twice -/

/-- What a call of the callback does. -/
theorem call_new (e : Env) (x : Ids) (v : Visit) (p : Pos) (path : Bytes) :
    (Ids.call e x v p path).1.visit = x.visit ∧ (Ids.call e x v p path).1.force = x.force ∧ (Ids.call e x v p path).1.min = x.min ∧ (Ids.call e x v p path).1.max = x.max ∧
    ((Ids.call e x v p path).1.calls = x.calls ∨
      (∃ a, (Ids.call e x v p path).1.calls = ⟨.err, p, path, a⟩ :: x.calls) ∨
      (∃ a, (Ids.call e x v p path).1.calls = ⟨x.visit, p, path, a⟩ :: x.calls) ∧ v ≠ .err ∧ x.min ≤ depth p ∧ (x.force = true ∨ v = x.visit)) := by
  have hdec : ∀ y a, (Ids.decide_ e p path (y, a)).1.visit = y.visit ∧ (Ids.decide_ e p path (y, a)).1.force = y.force ∧ (Ids.decide_ e p path (y, a)).1.min = y.min ∧
      (Ids.decide_ e p path (y, a)).1.max = y.max := by
    intro y a
    unfold Ids.decide_
    cases a <;> dsimp only <;> (try split) <;> exact ⟨rfl, rfl, rfl, rfl⟩
  unfold Ids.call
  by_cases h1 : (decide (v = .err) || e.error p) = true
  · rw [if_pos h1]
    by_cases h2 : depth p + 1 ≥ x.min
    · rw [if_pos h2]
      exact ⟨rfl, rfl, rfl, rfl, Or.inr (Or.inl ⟨_, rfl⟩)⟩
    · rw [if_neg h2]
      exact ⟨rfl, rfl, rfl, rfl, Or.inl rfl⟩
  · rw [if_neg h1]
    have hv : v ≠ .err := by
      intro hv
      exact h1 (by rw [hv]; rfl)
    by_cases h2 : depth p < x.min
    · rw [if_pos h2]
      exact ⟨rfl, rfl, rfl, rfl, Or.inl rfl⟩
    · rw [if_neg h2]
      by_cases h3 : (decide (x.visit = .post) && x.pruned.contains path) = true
      · rw [if_pos h3]
        exact ⟨rfl, rfl, rfl, rfl, Or.inl rfl⟩
      · rw [if_neg h3]
        unfold Ids.ask
        by_cases h4 : (if x.force then x.visit else v) = x.visit
        · rw [if_pos h4]
          obtain ⟨d1, d2, d3, d4⟩ := hdec (x.delegate e x.visit p path).1 (x.delegate e x.visit p path).2
          refine ⟨d1, d2, d3, d4, Or.inr (Or.inr ⟨⟨(x.delegate e x.visit p path).2, ?_⟩, hv, by omega, ?_⟩)⟩
          · exact decide_calls (x := (x.delegate e x.visit p path).1) (a := (x.delegate e x.visit p path).2)
          · cases hf : x.force with
            | true => exact Or.inl rfl
            | false => rw [hf] at h4; exact Or.inr h4
        · rw [if_neg h4]
          obtain ⟨d1, d2, d3, d4⟩ := hdec x .cont
          exact ⟨d1, d2, d3, d4, Or.inl decide_calls⟩

/-- The calls of a pass. -/
structure Fresh (st : Ids) (u : Visit) (tr : List Event) (x : Ids) : Prop where
  visit : x.visit = st.visit
  force : x.force = st.force
  min : x.min = st.min
  max : x.max = st.max
  calls : ∃ new, x.calls = new ++ st.calls ∧ (∀ c ∈ new, c.visit ≠ .err → c.visit = st.visit ∧ c.pos ∈ visits u tr ∧ st.min ≤ depth c.pos) ∧ (visits st.visit new).Nodup

theorem fresh (hu : st.visit ≠ .err) (hf : st.force = true → post = false) :
    ∀ {tr : List Event}, Legal (Ids.env e st buf junk post) tr → Fresh st (if st.force then .pre else st.visit) tr (Ids.after e st tr)
  | [], _ => ⟨rfl, rfl, rfl, rfl, [], rfl, (fun c hc => by cases hc), List.nodup_nil⟩
  | ev :: tr, h => by
    obtain ⟨i1, i2, i3, i4, new, i5, i6, i7⟩ := fresh hu hf h.2
    obtain ⟨k1, k2, k3, k4, k5⟩ := call_new e (Ids.after e st tr) ev.visit ev.pos ev.path
    have grow : ∀ c ∈ new, c.visit ≠ .err → c.visit = st.visit ∧ c.pos ∈ visits (if st.force then .pre else st.visit) (ev :: tr) ∧ st.min ≤ depth c.pos := by
      intro c hc hv
      obtain ⟨a1, a2, a3⟩ := i6 c hc hv
      refine ⟨a1, ?_, a3⟩
      rw [visits_cons]
      generalize (if st.force then Visit.pre else st.visit) = w at a2 ⊢
      split
      · exact List.mem_cons_of_mem _ a2
      · exact a2
    refine ⟨k1.trans i1, k2.trans i2, k3.trans i3, k4.trans i4, ?_⟩
    show ∃ new, (Ids.call e (Ids.after e st tr) ev.visit ev.pos ev.path).1.calls = _ ∧ _
    rcases k5 with k5 | ⟨a, k5⟩ | ⟨⟨a, k5⟩, m1, m2, m3⟩
    · exact ⟨new, k5.trans i5, grow, i7⟩
    · refine ⟨⟨.err, ev.pos, ev.path, a⟩ :: new, by rw [k5, i5]; rfl, fun c hc hv => ?_, ?_⟩
      · rcases List.mem_cons.1 hc with rfl | hc
        · exact absurd rfl hv
        · exact grow c hc hv
      · rw [visits_cons, if_neg (Ne.symm hu)]
        exact i7
    · have hvu : ev.visit = if st.force then .pre else st.visit := by
        rw [i2, i1] at m3
        cases hff : st.force with
        | false =>
          rw [hff] at m3
          exact m3.resolve_left (by simp)
        | true =>
          rw [if_pos rfl]
          cases hv : ev.visit with
          | pre => rfl
          | err => exact absurd hv m1
          | post =>
            have : post = true := h.1.post hv
            rw [hf hff] at this
            cases this
      have hfresh := h.1.fresh
      rw [hvu] at hfresh
      refine ⟨⟨st.visit, ev.pos, ev.path, a⟩ :: new, by rw [k5, i5, i1]; rfl, fun c hc hv => ?_, ?_⟩
      · rcases List.mem_cons.1 hc with rfl | hc
        · refine ⟨rfl, ?_, by rw [i3] at m2; exact m2⟩
          rw [visits_cons, if_pos hvu]
          exact List.mem_cons_self
        · exact grow c hc hv
      · rw [visits_cons, if_pos (by rfl)]
        refine List.nodup_cons.2 ⟨fun hm => hfresh ?_, i7⟩
        obtain ⟨c, hc, hp⟩ := List.mem_map.1 hm
        obtain ⟨hc, hv⟩ := List.mem_filter.1 hc
        have hv : c.visit = st.visit := by simpa using hv
        have := (i6 c hc (by rw [hv]; exact hu)).2.1
        rw [hp] at this
        exact this

/-- A pass does not go too deep. -/
theorem pass_depth (hE : ∀ p, e.error p = true → e.isDir p = false) (hu : st.visit ≠ .err) (hf : st.force = true → post = false) (hm : st.min < st.max) :
    ∀ {tr : List Event}, Legal (Ids.env e st buf junk post) tr → (∀ ev ∈ tr, depth ev.pos < st.max) ∧ ∀ ev ∈ tr, ev.visit = .pre → ev.action = .cont → depth ev.pos + 1 < st.max
  | [], _ => ⟨(fun c hc => by cases hc), (fun c hc => by cases hc)⟩
  | ev :: tr, h => by
    obtain ⟨i1, i2⟩ := pass_depth hE hu hf hm h.2
    have hfr := fresh hu hf h.2
    refine ⟨fun x hx => ?_, fun x hx hv ha => ?_⟩
    · rcases List.mem_cons.1 hx with rfl | hx
      · have hne := inb_ne h.1.inb
        have hp := h.1.parent
        match hpos : x.pos, hne, hp with
        | [i], _, _ => show 0 < _; omega
        | j :: i :: p, _, hp =>
          have hp : i :: p ∈ entered tr := hp.resolve_left (by simp)
          obtain ⟨y, y1, y2, y3, y4⟩ := entered_ev hp
          have := i2 y y1 y2 y3
          rw [y4] at this
          exact this
      · exact i1 x hx
    · rcases List.mem_cons.1 hx with rfl | hx
      · have hact : x.action = e.adjust x.visit x.pos (Ids.call e (Ids.after e st tr) x.visit x.pos x.path).2 := h.1.action
        rw [ha] at hact
        have hcont : (Ids.call e (Ids.after e st tr) x.visit x.pos x.path).2 = .cont ∧ e.isDir x.pos = true := by
          revert hact
          unfold Env.adjust
          cases (Ids.call e (Ids.after e st tr) x.visit x.pos x.path).2 with
          | cont =>
            dsimp only
            split
            · intro hh; cases hh
            · next hd =>
              intro _
              refine ⟨rfl, ?_⟩
              simp only [Bool.or_eq_true, decide_eq_true_eq, Bool.not_eq_true'] at hd
              cases hdd : e.isDir x.pos with
              | true => rfl
              | false => exact absurd (Or.inr hdd) hd
          | prune => intro hh; cases hh
          | stop => intro hh; cases hh
        obtain ⟨c1, c2⟩ := hcont
        have hne : e.error x.pos = false := by
          cases hee : e.error x.pos with
          | false => rfl
          | true => rw [hE _ hee] at c2; cases c2
        revert c1
        unfold Ids.call
        rw [hv, hne, if_neg (by simp), hfr.min]
        by_cases h2 : depth x.pos < st.min
        · intro _; omega
        · rw [if_neg h2]
          by_cases h3 : (decide ((Ids.after e st tr).visit = .post) && (Ids.after e st tr).pruned.contains x.path) = true
          · rw [if_pos h3]; intro hh; cases hh
          · rw [if_neg h3]
            have hdec : ∀ y : Ids × Action, y.1.max = st.max → (Ids.decide_ e x.pos x.path y).2 = .cont → depth x.pos + 1 < st.max := by
              rintro ⟨y, a⟩ hy
              unfold Ids.decide_
              cases a with
              | cont =>
                dsimp only at hy ⊢
                split
                · intro hh; cases hh
                · next hd =>
                  intro _
                  rw [c2, hy] at hd
                  simp only [Bool.true_and, decide_eq_true_eq] at hd
                  omega
              | prune =>
                dsimp only
                split <;> (intro hh; cases hh)
              | stop => intro hh; cases hh
            refine hdec _ ?_
            unfold Ids.ask
            generalize (if (Ids.after e st tr).force then (Ids.after e st tr).visit else Visit.pre) = w
            split
            · exact hfr.max
            · exact hfr.max
      · exact i2 x hx hv ha

/-- Between the passes of the first loop. -/
structure Deeper (next : Ids → Ids) (st : Ids) : Prop where
  visit : st.visit = .pre
  force : st.force = false
  follows : Follows next st
  lt : st.min < st.max
  shallow : ∀ c ∈ st.calls, c.visit ≠ .err → c.visit = .pre ∧ depth c.pos < st.min
  once : (visits .pre st.calls).Nodup

theorem mem_visits {v : Visit} {p : Pos} (h : p ∈ visits v tr) : ∃ c ∈ tr, c.visit = v ∧ c.pos = p := by
  obtain ⟨c, hc, hp⟩ := List.mem_map.1 h
  obtain ⟨hc, hv⟩ := List.mem_filter.1 hc
  exact ⟨c, hc, by simpa using hv, hp⟩

theorem visits_none {v : Visit} (h : ∀ c ∈ tr, c.visit ≠ v) : visits v tr = [] := by
  cases hv : visits v tr with
  | nil => rfl
  | cons p l =>
    obtain ⟨c, hc, h1, -⟩ := mem_visits (v := v) (tr := tr) (p := p) (by rw [hv]; exact List.mem_cons_self)
    exact absurd h1 (h c hc)

theorem once_append {v : Visit} {new old : List Event} (h1 : (visits v new).Nodup) (h2 : (visits v old).Nodup)
    (h3 : ∀ c ∈ new, c.visit = v → ∀ c' ∈ old, c'.visit = v → c.pos ≠ c'.pos) : (visits v (new ++ old)).Nodup := by
  rw [visits_append]
  refine List.nodup_append.2 ⟨h1, h2, fun a ha b hb hab => ?_⟩
  obtain ⟨c, m1, m2, m3⟩ := mem_visits ha
  obtain ⟨c', n1, n2, n3⟩ := mem_visits hb
  exact h3 c m1 m2 c' n1 n2 (by rw [m3, n3, hab])

theorem deeper_after (hN : e.Named) (h : Deeper next st) {s : State} (hr : Reach (Ids.env e { st with bottom := true } buf junk false) s) :
    (visits .pre (Ids.after e { st with bottom := true } s.trace).calls).Nodup ∧ (visits .post (Ids.after e { st with bottom := true } s.trace).calls) = [] := by
  have hl := pass_legal hN hr
  obtain ⟨_, _, _, _, new, h1, h2, h3⟩ := fresh (st := { st with bottom := true }) (by rw [show ({ st with bottom := true } : Ids).visit = st.visit from rfl, h.visit]; simp) (fun _ => rfl) hl
  change (visits st.visit new).Nodup at h3
  rw [h.visit] at h3
  rw [h1]
  refine ⟨once_append h3 h.once fun c hc hv c' hc' hv' hp => ?_, visits_none fun c hc hv => ?_⟩
  · have a := (h2 c hc (by rw [hv]; simp)).2.2
    have b := (h.shallow c' hc' (by rw [hv']; simp)).2
    rw [hp] at a
    have a : st.min ≤ depth c'.pos := a
    omega
  · rcases List.mem_append.1 hc with hc | hc
    · have := (h2 c hc (by rw [hv]; simp)).1
      have this : c.visit = st.visit := this
      rw [hv, h.visit] at this
      cases this
    · have := (h.shallow c hc (by rw [hv]; simp)).1
      rw [hv] at this
      cases this

theorem deeper (hN : e.Named) (hE : ∀ p, e.error p = true → e.isDir p = false) (hn : next = idsNext ∨ next = edsNext) (h : Search e next st buf) : Deeper next st := by
  induction h with
  | init =>
    refine ⟨rfl, rfl, ?_, by decide, (fun c hc => by cases hc), List.nodup_nil⟩
    rcases hn with rfl | rfl
    · exact Or.inr ⟨rfl, rfl⟩
    · exact Or.inl rfl
  | @pass st st' buf buf' _ hb hp ih =>
    obtain ⟨junk, s, hr, hd, rfl, rfl⟩ := hp
    have hl := pass_legal hN hr
    have hu : ({ st with bottom := true } : Ids).visit ≠ .err := by rw [show ({ st with bottom := true } : Ids).visit = st.visit from rfl, ih.visit]; simp
    have hfr := fresh hu (fun _ => rfl) hl
    have hdp := (pass_depth hE hu (fun _ => rfl) ih.lt hl).1
    have honce := (deeper_after hN ih hr).1
    generalize hx : Ids.after e { st with bottom := true } s.trace = x at hfr honce ⊢
    have m1 : x.min = st.min := hfr.min
    have m2 : x.max = st.max := hfr.max
    have m3 : x.visit = .pre := hfr.visit.trans ih.visit
    have m4 : x.force = false := hfr.force.trans ih.force
    obtain ⟨f1, f2, -, -, f3, f4, f5, f6⟩ := ih.follows.pass ih.lt m1 m2
    obtain ⟨new, g1, g2, -⟩ := hfr.calls
    refine ⟨f4.trans m3, f5.trans m4, f6, f2, ?_, by rw [f3]; exact honce⟩
    rw [f1, f3, g1]
    intro c hc hv
    rcases List.mem_append.1 hc with hc | hc
    · obtain ⟨a1, a2, -⟩ := g2 c hc hv
      obtain ⟨ev, b1, -, b3⟩ := mem_visits a2
      refine ⟨a1.trans ih.visit, ?_⟩
      rw [← b3]
      exact hdp ev b1
    · obtain ⟨a1, a2⟩ := ih.shallow c hc hv
      exact ⟨a1, by have := ih.lt; omega⟩

/-- Between the passes of the second loop of `bftw_ids()`. -/
structure Climbing (st : Ids) : Prop where
  visit : st.visit = .post
  force : st.force = true
  window : st.max = st.min + 1
  deep : ∀ c ∈ st.calls, c.visit = .post → st.min ≤ depth c.pos
  pre : (visits .pre st.calls).Nodup
  post : (visits .post st.calls).Nodup

theorem climbing_after (hN : e.Named) (hE : ∀ p, e.error p = true → e.isDir p = false) (h : Climbing st) (hm : st.min > 0) {s : State}
    (hr : Reach (Ids.env e { st with max := st.max - 1, min := st.min - 1 } buf junk false) s) :
    Climbing (Ids.after e { st with max := st.max - 1, min := st.min - 1 } s.trace) := by
  have hw := h.window
  have hl := pass_legal hN hr
  have hu : ({ st with max := st.max - 1, min := st.min - 1 } : Ids).visit ≠ .err := by
    rw [show ({ st with max := st.max - 1, min := st.min - 1 } : Ids).visit = st.visit from rfl, h.visit]; simp
  have hdp := (pass_depth hE hu (fun _ => rfl) (show st.min - 1 < st.max - 1 by omega) hl).1
  obtain ⟨f1, f2, f3, f4, new, g1, g2, g3⟩ := fresh hu (fun _ => rfl) hl
  change _ = st.visit at f1
  change _ = st.force at f2
  change _ = st.min - 1 at f3
  change _ = st.max - 1 at f4
  change _ = new ++ st.calls at g1
  change (visits st.visit new).Nodup at g3
  rw [h.visit] at g3
  refine ⟨f1.trans h.visit, f2.trans h.force, by rw [f3, f4]; omega, ?_, ?_, ?_⟩
  · rw [f3, g1]
    intro c hc hv
    rcases List.mem_append.1 hc with hc | hc
    · exact (g2 c hc (by rw [hv]; simp)).2.2
    · have := h.deep c hc hv
      omega
  · rw [g1, visits_append, visits_none (tr := new) fun c hc hv => ?_]
    · exact h.pre
    · have := (g2 c hc (by rw [hv]; simp)).1
      change c.visit = st.visit at this
      rw [hv, h.visit] at this
      cases this
  · rw [g1]
    refine once_append g3 h.post fun c hc hv c' hc' hv' hp => ?_
    obtain ⟨ev, b1, -, b3⟩ := mem_visits (g2 c hc (by rw [hv]; simp)).2.1
    have a := hdp ev b1
    change depth ev.pos < st.max - 1 at a
    have b := h.deep c' hc' hv'
    rw [b3, hp] at a
    omega

theorem climbing (hN : e.Named) (hE : ∀ p, e.error p = true → e.isDir p = false) (h : IdsPost e st buf) : Climbing st := by
  induction h with
  | @init st buf hs hb hp =>
    have hd := deeper hN hE (Or.inl rfl) hs
    have hn : visits .post st.calls = [] := visits_none fun c hc hv => by
      have := (hd.shallow c hc (by rw [hv]; simp)).1
      rw [hv] at this
      cases this
    refine ⟨rfl, rfl, ?_, fun c hc hv => ?_, hd.once, by rw [show visits .post ({ st with visit := .post, force := true } : Ids).calls = [] from hn]; exact List.nodup_nil⟩
    · rcases hd.follows with h | ⟨-, h⟩
      · have := congrFun h { visit := .pre, force := false, min := 0, max := 3, pruned := [], bottom := false, calls := [] }
        simp [idsNext, edsNext] at this
      · exact h
    · have := (hd.shallow c hc (by rw [hv]; simp)).1
      rw [hv] at this
      cases this
  | pass _ hm hp ih =>
    obtain ⟨junk, s, hr, hd, rfl, rfl⟩ := hp
    exact climbing_after hN hE ih hm hr

theorem edsPost_after (hN : e.Named) (h : Deeper next st) {s : State} (hr : Reach (Ids.env e { st with visit := .post, min := 0 } buf junk true) s) :
    (visits .pre (Ids.after e { st with visit := .post, min := 0 } s.trace).calls).Nodup ∧ (visits .post (Ids.after e { st with visit := .post, min := 0 } s.trace).calls).Nodup := by
  have hl := pass_legal hN hr
  obtain ⟨_, _, _, _, new, g1, g2, g3⟩ := fresh (st := { st with visit := .post, min := 0 }) (by simp) (fun hf => by
    rw [show ({ st with visit := .post, min := 0 } : Ids).force = st.force from rfl, h.force] at hf; cases hf) hl
  change _ = new ++ st.calls at g1
  change (visits .post new).Nodup at g3
  rw [g1]
  constructor
  · rw [visits_append, visits_none (tr := new) fun c hc hv => ?_]
    · exact h.once
    · have := (g2 c hc (by rw [hv]; simp)).1
      rw [hv] at this
      cases this
  · rw [visits_append, visits_none (tr := st.calls) fun c hc hv => ?_, List.append_nil]
    · exact g3
    · have := (h.shallow c hc (by rw [hv]; simp)).1
      rw [hv] at this
      cases this

theorem midway_once (hN : e.Named) (hE : ∀ p, e.error p = true → e.isDir p = false) (h : Midway e st) : (visits .pre st.calls).Nodup ∧ (visits .post st.calls).Nodup := by
  cases h with
  | ids _ h _ hr =>
    obtain ⟨h1, h2⟩ := deeper_after hN (deeper hN hE (Or.inl rfl) h) hr
    exact ⟨h1, by rw [h2]; exact List.nodup_nil⟩
  | eds _ h _ hr =>
    obtain ⟨h1, h2⟩ := deeper_after hN (deeper hN hE (Or.inr rfl) h) hr
    exact ⟨h1, by rw [h2]; exact List.nodup_nil⟩
  | idsPost _ h hm hr => 
    have := climbing_after hN hE (climbing hN hE h) hm hr
    exact ⟨this.pre, this.post⟩
  | edsPost _ h _ _ hr => exact edsPost_after hN (deeper hN hE (Or.inr rfl) h) hr

theorem deeper_once (h : Deeper next st) : (visits .pre st.calls).Nodup ∧ (visits .post st.calls).Nodup := by
  refine ⟨h.once, ?_⟩
  rw [visits_none fun c hc hv => ?_]
  · exact List.nodup_nil
  · have := (h.shallow c hc (by rw [hv]; simp)).1
    rw [hv] at this
    cases this

theorem deepened_once (hN : e.Named) (hE : ∀ p, e.error p = true → e.isDir p = false) (h : Deepened e st) : (visits .pre st.calls).Nodup ∧ (visits .post st.calls).Nodup := by
  cases h with
  | ids _ _ h _ => exact deeper_once (deeper hN hE (Or.inl rfl) h)
  | eds _ _ h _ => exact deeper_once (deeper hN hE (Or.inr rfl) h)
  | idsPost _ h _ => exact ⟨(climbing hN hE h).pre, (climbing hN hE h).post⟩
  | edsPost _ h =>
    cases h with
    | pass h _ _ hp =>
      obtain ⟨junk, s, hr, hd, rfl, rfl⟩ := hp
      exact edsPost_after hN (deeper hN hE (Or.inr rfl) h) hr

/-! ## All strategies -/

open Verif.Main

/-- What is known about the calls of the callback, whatever it does. -/
structure Orderly (e : Env) (tr : List Event) : Prop where
  answer : ∀ {l ev r}, tr = l ++ ev :: r → (ev.action = .stop ↔ e.callback r ev.visit ev.pos ev.path = .stop)
  last : ∀ {l ev r}, tr = l ++ ev :: r → ∀ x ∈ r, x.action ≠ .stop
  once : ∀ v, v ≠ .err → (visits v tr).Nodup
  path : ∀ ev ∈ tr, ev.path = e.fullPath ev.pos

theorem reach_orderly (hN : e.Named) {s : State} (h : Reach e s) : Orderly e s.trace where
  answer ht := (C21_decision hN h ht).1
  last {l x r} ht := by
    intro ev hev ha
    obtain ⟨a, b, rfl⟩ := List.append_of_mem hev
    have := (C21_stop hN h (later := l ++ x :: a) (ev := ev) (earlier := b) (by rw [ht]; simp) ha).1
    simp at this
  once v _ := C18_once hN h v
  path _ hev := C23_path hN h hev

theorem tail_last {tr : List Event} (h : ∀ c ∈ tr.tail, c.action ≠ .stop) {l : List Event} {ev : Event} {r : List Event} (ht : tr = l ++ ev :: r) :
    ∀ x ∈ r, x.action ≠ .stop := by
  intro x hx
  refine h x ?_
  rw [ht]
  cases l with
  | nil => exact hx
  | cons y l => simp [hx]

theorem walked_orderly (hN : e.Named) (hE : ∀ p, e.error p = true → e.isDir p = false) {complete : Bool} (h : Walked e tr complete) : Orderly e tr := by
  cases h with
  | walk _ h => exact reach_orderly hN h
  | deepened h =>
    refine ⟨fun ht => ?_, fun ht => ?_, fun v hv => ?_, deepened_paths hN h⟩
    · have := deepened_honest h
      rw [ht] at this
      rw [honest_split this]
    · exact tail_last (fun c hc => deepened_free_unstopped hN h c (List.mem_of_mem_tail hc)) ht
    · have := deepened_once hN hE h
      cases v with
      | pre => exact this.1
      | post => exact this.2
      | err => exact absurd rfl hv
  | midway h =>
    refine ⟨fun ht => ?_, fun ht => ?_, fun v hv => ?_, midway_paths hN h⟩
    · have := midway_honest h
      rw [ht] at this
      rw [honest_split this]
    · exact tail_last (midway_last hN h) ht
    · have := midway_once hN hE h
      cases v with
      | pre => exact this.1
      | post => exact this.2
      | err => exact absurd rfl hv

theorem walked_with {complete : Bool} (h : Walked e tr complete) (ha : Agrees e cb tr) : Walked (e.with cb) tr complete := by
  cases h with
  | walk hs h => exact .walk hs (reach_with h ha)
  | deepened h => exact .deepened (deepened_with h ha)
  | midway h => exact .midway (midway_with h ha)

theorem deepened_strategy (h : Deepened e st) : e.strategy = .ids ∨ e.strategy = .eds := by
  cases h with
  | ids h _ _ _ => exact Or.inl h
  | eds h _ _ _ => exact Or.inr h
  | idsPost h _ _ => exact Or.inl h
  | edsPost h _ => exact Or.inr h

theorem midway_strategy (h : Midway e st) : e.strategy = .ids ∨ e.strategy = .eds := by
  cases h with
  | ids h _ _ _ => exact Or.inl h
  | eds h _ _ _ => exact Or.inr h
  | idsPost h _ _ _ => exact Or.inl h
  | edsPost h _ _ _ _ => exact Or.inr h

/-- If the search is complete, it has not been stopped. -/
theorem walked_unstopped (hN : e.Named) (h : Walked e tr true) : ∀ ev ∈ tr, ev.action ≠ .stop := by
  generalize hc : true = complete at h
  cases h with
  | walk hs h => exact done_nostop hN h (of_decide_eq_true hc.symm)
  | deepened h => exact deepened_free_unstopped hN h
  | midway h => cases hc

end Verif.Bftw
