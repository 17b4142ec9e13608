import Verif.Lemmas.IdsPost
import Verif.Lemmas.BftwCongr
/-!
# Callbacks that stop the search

As long as the callback does not stop the search, it is as if it never would.
-/
namespace Verif.Bftw
open Verif.Props

variable {e : Env} {d : Visit → Pos → Action} {st st' : Ids} {buf buf' : Bytes} {junk : Nat → Nat → UInt8} {post : Bool} {tr : List Event} {next : Ids → Ids}

/-- Another answer in place of `stop`. -/
def Action.soft : Action → Action
  | .stop => .prune
  | a => a

theorem Action.soft_ne (a : Action) : a.soft ≠ .stop := by cases a <;> simp [Action.soft]
theorem Action.soft_eq {a : Action} (h : a ≠ .stop) : a.soft = a := by cases a <;> simp_all [Action.soft]
theorem Action.soft_cont (a : Action) : a.soft = .cont ↔ a = .cont := by cases a <;> simp [Action.soft]

/-- The same callback, except that it does not stop the search. -/
def Env.soft (e : Env) : Env := { e with callback := fun tr v p path => (e.callback tr v p path).soft }

/-- Its decisions. -/
def softly (d : Visit → Pos → Action) : Visit → Pos → Action := fun v p => (d v p).soft

theorem soft_fullPath (p : Pos) : e.soft.fullPath p = e.fullPath p := by
  induction p with
  | nil => rfl
  | cons j p ih =>
    cases p with
    | nil => rfl
    | cons i p =>
      show join (e.soft.fullPath (i :: p)) _ = join (e.fullPath (i :: p)) _
      rw [ih]
      rfl

theorem soft_found {into : Pos → Prop} {p : Pos} : Found e.soft into p ↔ Found e into p := by
  constructor
  · intro h
    induction h with
    | root i h0 => exact .root i h0
    | entry p j _ h1 hj ih => exact .entry p j ih h1 hj
  · intro h
    induction h with
    | root i h0 => exact .root i h0
    | entry p j _ h1 hj ih => exact .entry p j ih h1 hj

theorem soft_into : Into e.soft (softly d) = Into e d := by
  funext p
  unfold Into softly
  rw [Action.soft_cont]
  rfl

theorem soft_wanted (p : Pos) : Wanted e.soft (softly d) p ↔ Wanted e d p := by
  unfold Wanted
  rw [soft_into, soft_found]
  rfl

theorem soft_pruned (p : Pos) : Pruned e.soft (softly d) p ↔ Pruned e d p := by
  unfold Pruned softly
  rw [Ne, Action.soft_cont]
  rfl

theorem Consistent.soft (h : Consistent e d) : Consistent e.soft (softly d) := by
  intro p q hp hq hpath hdir hpr
  rw [soft_fullPath, soft_fullPath] at hpath
  exact (soft_pruned q).2 (h p q ((soft_wanted p).1 hp) ((soft_wanted q).1 hq) hpath hdir ((soft_pruned p).1 hpr))

theorem Distinct.soft (h : Distinct e d) : Distinct e.soft (softly d) := by
  intro p q hp hq hpath
  rw [soft_fullPath, soft_fullPath] at hpath
  exact h p q ((soft_wanted p).1 hp) ((soft_wanted q).1 hq) hpath

theorem Tame.soft (h : Tame e d) : Calm e.soft (softly d) where
  callback tr v p := by
    rw [soft_fullPath]
    show (e.callback tr v p (e.fullPath p)).soft = _
    rw [h.callback]
    rfl
  error := h.error
  named := h.named
  nostop v p _ := Action.soft_ne _

/-! ## The calls -/

theorem delegate_soft {x : Ids} {v : Visit} {p : Pos} {path : Bytes} (h : (x.delegate e v p path).2 ≠ .stop) :
    x.delegate e.soft v p path = x.delegate e v p path := by
  have h : e.callback x.calls v p path ≠ .stop := h
  unfold Ids.delegate
  show ({ x with calls := ⟨v, p, path, (e.callback x.calls v p path).soft⟩ :: x.calls }, (e.callback x.calls v p path).soft) = _
  rw [Action.soft_eq h]

theorem decide_stop {x : Ids} {p : Pos} {path : Bytes} {a : Action} : (Ids.decide_ e p path (x, a)).2 = .stop ↔ a = .stop := by
  unfold Ids.decide_
  cases a
  · dsimp only
    split <;> simp
  · dsimp only
    split <;> simp
  · simp

theorem decide_calls {x : Ids} {p : Pos} {path : Bytes} {a : Action} : (Ids.decide_ e p path (x, a)).1.calls = x.calls := by
  unfold Ids.decide_
  cases a
  · dsimp only
    split <;> rfl
  · dsimp only
    split <;> rfl
  · rfl

theorem ask_soft {x : Ids} {v : Visit} {p : Pos} {path : Bytes} (h : (x.ask e v p path).2 ≠ .stop) : x.ask e.soft v p path = x.ask e v p path := by
  unfold Ids.ask at h ⊢
  by_cases hv : (if x.force then x.visit else v) = x.visit
  · rw [if_pos hv] at h ⊢
    rw [if_pos hv]
    exact delegate_soft h
  · rw [if_neg hv, if_neg hv]

theorem call_soft {x : Ids} {v : Visit} {p : Pos} {path : Bytes} (h : (Ids.call e x v p path).2 ≠ .stop) : Ids.call e.soft x v p path = Ids.call e x v p path := by
  unfold Ids.call at h ⊢
  by_cases h1 : (decide (v = .err) || e.error p) = true
  · rw [if_pos h1] at h ⊢
    rw [if_pos (show (decide (v = .err) || e.soft.error p) = true from h1)]
    by_cases h2 : depth p + 1 ≥ x.min
    · rw [if_pos h2] at h ⊢
      rw [if_pos h2]
      exact delegate_soft h
    · rw [if_neg h2, if_neg h2]
  · rw [if_neg h1] at h ⊢
    rw [if_neg (show ¬ (decide (v = .err) || e.soft.error p) = true from h1)]
    by_cases h2 : depth p < x.min
    · rw [if_pos h2, if_pos h2]
    · rw [if_neg h2] at h ⊢
      rw [if_neg h2]
      by_cases h3 : (decide (x.visit = .post) && x.pruned.contains path) = true
      · rw [if_pos h3, if_pos h3]
      · rw [if_neg h3] at h ⊢
        rw [if_neg h3]
        have h4 : (x.ask e v p path).2 ≠ .stop := fun hh => h (by
          rw [show x.ask e v p path = ((x.ask e v p path).1, (x.ask e v p path).2) from rfl]
          exact decide_stop.2 hh)
        rw [ask_soft h4]
        rfl

/-- What the delegate has been told, apart from its answers. -/
def told3 (calls : List Event) : List (Visit × Pos × Bytes) := calls.map fun ev => (ev.visit, ev.pos, ev.path)

/-- A call of the callback makes at most one of the delegate; and it is stopped by that only. -/
theorem call_calls (e : Env) (x : Ids) (v : Visit) (p : Pos) (path : Bytes) :
    ((Ids.call e x v p path).1.calls = x.calls ∧ (Ids.call e.soft x v p path).1.calls = x.calls) ∨
      ∃ v', (Ids.call e x v p path).1.calls = ⟨v', p, path, e.callback x.calls v' p path⟩ :: x.calls ∧
        (Ids.call e.soft x v p path).1.calls = ⟨v', p, path, (e.callback x.calls v' p path).soft⟩ :: x.calls ∧
        (e.callback x.calls v' p path = .stop → (Ids.call e x v p path).2 = .stop) := by
  unfold Ids.call
  by_cases h1 : (decide (v = .err) || e.error p) = true
  · rw [if_pos h1, if_pos (show (decide (v = .err) || e.soft.error p) = true from h1)]
    by_cases h2 : depth p + 1 ≥ x.min
    · rw [if_pos h2, if_pos h2]
      exact Or.inr ⟨.err, rfl, rfl, fun h => h⟩
    · rw [if_neg h2, if_neg h2]
      exact Or.inl ⟨rfl, rfl⟩
  · rw [if_neg h1, if_neg (show ¬ (decide (v = .err) || e.soft.error p) = true from h1)]
    by_cases h2 : depth p < x.min
    · rw [if_pos h2, if_pos h2]
      exact Or.inl ⟨rfl, rfl⟩
    · rw [if_neg h2, if_neg h2]
      by_cases h3 : (decide (x.visit = .post) && x.pruned.contains path) = true
      · rw [if_pos h3, if_pos h3]
        exact Or.inl ⟨rfl, rfl⟩
      · rw [if_neg h3, if_neg h3]
        unfold Ids.ask
        by_cases h4 : (if x.force then x.visit else v) = x.visit
        · rw [if_pos h4, if_pos h4]
          refine Or.inr ⟨x.visit, ?_, ?_, fun h => ?_⟩
          · exact decide_calls
          · exact decide_calls
          · exact decide_stop.2 h
        · rw [if_neg h4, if_neg h4]
          exact Or.inl ⟨decide_calls, decide_calls⟩

/-! ## Passes -/

theorem legal_answer {ev : Event} (h : EvOk (Ids.env e st buf junk post) tr ev) :
    ev.action = .stop ↔ (Ids.call e (Ids.after e st tr) ev.visit ev.pos ev.path).2 = .stop := by
  rw [h.action, adjust_stop]
  rfl

theorem after_soft : ∀ {tr : List Event}, Legal (Ids.env e st buf junk post) tr → (∀ ev ∈ tr, ev.action ≠ .stop) → Ids.after e.soft st tr = Ids.after e st tr
  | [], _, _ => rfl
  | ev :: tr, h, hn => by
    have ih := after_soft h.2 fun x hx => hn x (List.mem_cons_of_mem _ hx)
    unfold Ids.after
    rw [ih, call_soft fun hh => hn ev List.mem_cons_self ((legal_answer h.1).2 hh)]

theorem legal_agrees (h : Legal (Ids.env e st buf junk post) tr) (hn : ∀ ev ∈ tr, ev.action ≠ .stop) :
    Agrees (Ids.env e st buf junk post) (Ids.env e.soft st buf junk post).callback tr := by
  intro later ev earlier ht
  rw [ht] at h hn
  have hok := legal_split h
  have hl := (legal_suffix h).2
  show (Ids.call e.soft (Ids.after e.soft st earlier) _ _ _).2 = (Ids.call e (Ids.after e st earlier) _ _ _).2
  rw [after_soft hl fun x hx => hn x (by simp [hx]), call_soft fun hh => hn ev (by simp) ((legal_answer hok).2 hh)]

theorem done_nostop {s : State} (hN : e.Named) (h : Reach e s) (hd : s.pc = .done) : ∀ ev ∈ s.trace, ev.action ≠ .stop := by
  intro ev hev ha
  obtain ⟨a, b, ht⟩ := List.append_of_mem hev
  have := (C21_stop hN h ht ha).2
  rw [hd] at this
  cases this

theorem after_nostop (hst : ∀ c ∈ st.calls, c.action ≠ .stop) : ∀ {tr : List Event}, Legal (Ids.env e st buf junk post) tr → (∀ ev ∈ tr, ev.action ≠ .stop) →
    ∀ c ∈ (Ids.after e st tr).calls, c.action ≠ .stop
  | [], _, _ => hst
  | ev :: tr, hl, hn => by
    have ih := after_nostop hst hl.2 fun x hx => hn x (List.mem_cons_of_mem _ hx)
    intro c hc
    rcases call_calls e (Ids.after e st tr) ev.visit ev.pos ev.path with ⟨h1, -⟩ | ⟨v, h1, -, h2⟩
    · exact ih c (by rw [← h1]; exact hc)
    · have hc : c ∈ (Ids.call e (Ids.after e st tr) ev.visit ev.pos ev.path).1.calls := hc
      rw [h1] at hc
      rcases List.mem_cons.1 hc with rfl | hc
      · exact fun hh => hn ev List.mem_cons_self ((legal_answer hl.1).2 (h2 hh))
      · exact ih c hc

theorem pass_soft (hT : Tame e d) (h : Pass e post st buf st' buf') : Pass e.soft post st buf st' buf' ∧
    ((∀ c ∈ st.calls, c.action ≠ .stop) → ∀ c ∈ st'.calls, c.action ≠ .stop) := by
  obtain ⟨junk, s, hr, hd, rfl, rfl⟩ := h
  have hN : (Ids.env e st buf junk post).Named := hT.named
  have hl := (inv_reach hN hr).legal
  have hn := done_nostop hN hr hd
  exact ⟨⟨junk, s, reach_with hr (legal_agrees hl hn), hd, (after_soft hl hn).symm, rfl⟩, fun hst => after_nostop hst hl hn⟩

theorem next_calls (hn : next = idsNext ∨ next = edsNext) (x : Ids) : (next x).calls = x.calls := by
  rcases hn with rfl | rfl <;> rfl

theorem search_soft (hT : Tame e d) (hn : next = idsNext ∨ next = edsNext) (h : Search e next st buf) :
    Search e.soft next st buf ∧ ∀ c ∈ st.calls, c.action ≠ .stop := by
  induction h with
  | init => exact ⟨.init, fun c hc => (by cases hc)⟩
  | pass _ hb hp ih =>
    have h1 := pass_soft hT hp
    refine ⟨.pass ih.1 hb h1.1, ?_⟩
    rw [next_calls hn]
    exact h1.2 ih.2

theorem idsPost_soft (hT : Tame e d) (h : IdsPost e st buf) : IdsPost e.soft st buf ∧ ∀ c ∈ st.calls, c.action ≠ .stop := by
  induction h with
  | init h hb hp =>
    have h1 := search_soft hT (Or.inl rfl) h
    exact ⟨.init h1.1 hb hp, h1.2⟩
  | pass _ hm hp ih =>
    have h1 := pass_soft hT hp
    exact ⟨.pass ih.1 hm h1.1, h1.2 ih.2⟩

theorem edsPost_soft (hT : Tame e d) (h : EdsPost e st) : EdsPost e.soft st := by
  cases h with
  | pass h hb hp hps => exact .pass (search_soft hT (Or.inr rfl) h).1 hb hp (pass_soft hT hps).1

theorem edsPost_nostop (hT : Tame e d) (h : EdsPost e st) : ∀ c ∈ st.calls, c.action ≠ .stop := by
  cases h with
  | pass h hb hp hps => exact (pass_soft hT hps).2 (by have := (search_soft hT (Or.inr rfl) h).2; exact this)

theorem deepened_nostop (hT : Tame e d) (h : Deepened e st) : ∀ c ∈ st.calls, c.action ≠ .stop := by
  cases h with
  | ids h1 h2 h h3 => exact (search_soft hT (Or.inl rfl) h).2
  | eds h1 h2 h h3 => exact (search_soft hT (Or.inr rfl) h).2
  | idsPost h1 h h2 => exact (idsPost_soft hT h).2
  | edsPost h1 h => exact edsPost_nostop hT h

theorem deepened_soft (hT : Tame e d) (h : Deepened e st) : Deepened e.soft st := by
  cases h with
  | ids h1 h2 h h3 => exact .ids h1 h2 (search_soft hT (Or.inl rfl) h).1 h3
  | eds h1 h2 h h3 => exact .eds h1 h2 (search_soft hT (Or.inr rfl) h).1 h3
  | idsPost h1 h h2 => exact .idsPost h1 (idsPost_soft hT h).1 h2
  | edsPost h1 h => exact .edsPost h1 (edsPost_soft hT h)

/-! ## During a pass -/

theorem evok_soft {ev : Event} (h : EvOk (Ids.env e st buf junk post) tr ev) : EvOk (Ids.env e.soft st buf junk post) tr
    { ev with action := (Ids.env e.soft st buf junk post).adjust ev.visit ev.pos ((Ids.env e.soft st buf junk post).callback tr ev.visit ev.pos ev.path) } where
  running := h.running
  path := by
    rw [env_fullPath, soft_fullPath, ← env_fullPath (e := e) (st := st) (buf := buf) (junk := junk) (post := post)]
    exact h.path
  action := rfl
  inb := by
    have h := h.inb
    show (Ids.env e.soft st buf junk post).inb ev.pos
    generalize ev.pos = p at h
    match p, h with
    | [], h => exact h
    | [_], h => exact h
    | _ :: _ :: _, h => exact h
  parent := h.parent
  fresh := h.fresh
  dir := h.dir
  done := h.done
  mount := h.mount
  post := h.post
  broken := h.broken

theorem legal_soft0 : ∀ {tr : List Event}, Legal (Ids.env e st buf junk post) tr → (∀ ev ∈ tr, ev.action ≠ .stop) → Legal (Ids.env e.soft st buf junk post) tr
  | [], _, _ => trivial
  | ev :: tr, hl, hn => by
    refine ⟨?_, legal_soft0 hl.2 fun x hx => hn x (List.mem_cons_of_mem _ hx)⟩
    have h := evok_soft hl.1
    rw [show (Ids.env e.soft st buf junk post).callback tr ev.visit ev.pos ev.path = (Ids.env e st buf junk post).callback tr ev.visit ev.pos ev.path from
      legal_agrees hl hn [] ev tr rfl, show (Ids.env e.soft st buf junk post).adjust ev.visit ev.pos ((Ids.env e st buf junk post).callback tr ev.visit ev.pos ev.path) = ev.action from
      hl.1.action.symm] at h
    exact h

/-- During a pass, the calls so far are like those of a callback that does not stop, and only the last one may have stopped the search. -/
theorem legal_soft (hl : Legal (Ids.env e st buf junk post) tr) (hst : ∀ c ∈ st.calls, c.action ≠ .stop) :
    (∃ tr', Legal (Ids.env e.soft st buf junk post) tr' ∧ told3 (Ids.after e.soft st tr').calls = told3 (Ids.after e st tr).calls) ∧
      ∀ later c earlier, (Ids.after e st tr).calls = later ++ c :: earlier → c.action = .stop → later = [] := by
  cases tr with
  | nil =>
    refine ⟨⟨[], trivial, rfl⟩, fun later c earlier h hc => absurd hc (hst c ?_)⟩
    have h : st.calls = later ++ c :: earlier := h
    rw [h]
    simp
  | cons ev tr =>
    have hn := hl.1.running
    have hs := after_soft hl.2 hn
    have hno := after_nostop hst hl.2 hn
    have hc := call_calls e (Ids.after e st tr) ev.visit ev.pos ev.path
    refine ⟨⟨_ :: tr, ⟨evok_soft hl.1, legal_soft0 hl.2 hn⟩, ?_⟩, fun later c earlier h ha => ?_⟩
    · show told3 (Ids.call e.soft (Ids.after e.soft st tr) ev.visit ev.pos ev.path).1.calls = told3 (Ids.call e (Ids.after e st tr) ev.visit ev.pos ev.path).1.calls
      rw [hs]
      rcases hc with ⟨h1, h2⟩ | ⟨v, h1, h2, -⟩
      · rw [h1, h2]
      · rw [h1, h2]
        rfl
    · have h : (Ids.call e (Ids.after e st tr) ev.visit ev.pos ev.path).1.calls = later ++ c :: earlier := h
      rcases hc with ⟨h1, -⟩ | ⟨v, h1, -, -⟩
      · exact absurd ha (hno c (by rw [← h1, h]; simp))
      · rw [h1] at h
        cases later with
        | nil => rfl
        | cons y later =>
          have h := List.tail_eq_of_cons_eq h
          exact absurd ha (hno c (by rw [h]; simp))

/-! ## The answers -/

theorem after_answers (hst : ∀ c ∈ st.calls, ∃ tr, c.action = e.callback tr c.visit c.pos c.path) : ∀ tr : List Event,
    ∀ c ∈ (Ids.after e st tr).calls, ∃ tr, c.action = e.callback tr c.visit c.pos c.path
  | [] => hst
  | ev :: tr => by
    have ih := after_answers hst tr
    intro c hc
    have hc : c ∈ (Ids.call e (Ids.after e st tr) ev.visit ev.pos ev.path).1.calls := hc
    rcases call_calls e (Ids.after e st tr) ev.visit ev.pos ev.path with ⟨h1, -⟩ | ⟨v, h1, -, -⟩
    · exact ih c (by rw [← h1]; exact hc)
    · rw [h1] at hc
      rcases List.mem_cons.1 hc with rfl | hc
      · exact ⟨_, rfl⟩
      · exact ih c hc

theorem pass_answers (h : Pass e post st buf st' buf') (hst : ∀ c ∈ st.calls, ∃ tr, c.action = e.callback tr c.visit c.pos c.path) :
    ∀ c ∈ st'.calls, ∃ tr, c.action = e.callback tr c.visit c.pos c.path := by
  obtain ⟨junk, s, _, _, rfl, -⟩ := h
  exact after_answers hst s.trace

theorem search_answers (hn : next = idsNext ∨ next = edsNext) (h : Search e next st buf) : ∀ c ∈ st.calls, ∃ tr, c.action = e.callback tr c.visit c.pos c.path := by
  induction h with
  | init => exact fun c hc => (by cases hc)
  | pass _ _ hp ih =>
    rw [next_calls hn]
    exact pass_answers hp ih

theorem idsPost_answers (h : IdsPost e st buf) : ∀ c ∈ st.calls, ∃ tr, c.action = e.callback tr c.visit c.pos c.path := by
  induction h with
  | init h _ _ => have := search_answers (Or.inl rfl) h; exact this
  | pass _ _ hp ih => exact pass_answers hp ih

theorem edsPost_answers (h : EdsPost e st) : ∀ c ∈ st.calls, ∃ tr, c.action = e.callback tr c.visit c.pos c.path := by
  cases h with
  | pass h _ _ hp => exact pass_answers hp (by have := search_answers (Or.inr rfl) h; exact this)

theorem deepened_answers (h : Deepened e st) : ∀ c ∈ st.calls, ∃ tr, c.action = e.callback tr c.visit c.pos c.path := by
  cases h with
  | ids h1 h2 h h3 => exact search_answers (Or.inl rfl) h
  | eds h1 h2 h h3 => exact search_answers (Or.inr rfl) h
  | idsPost h1 h h2 => exact idsPost_answers h
  | edsPost h1 h => exact edsPost_answers h

theorem midway_answers (h : Midway e st) : ∀ c ∈ st.calls, ∃ tr, c.action = e.callback tr c.visit c.pos c.path := by
  cases h with
  | ids _ h _ _ => exact after_answers (by have := search_answers (Or.inl rfl) h; exact this) _
  | eds _ h _ _ => exact after_answers (by have := search_answers (Or.inr rfl) h; exact this) _
  | idsPost _ h _ _ => exact after_answers (by have := idsPost_answers h; exact this) _
  | edsPost _ h _ _ _ => exact after_answers (by have := search_answers (Or.inr rfl) h; exact this) _

theorem answers_hard (hT : Tame e d) {calls : List Event} (h : ∀ c ∈ calls, ∃ tr, c.action = e.callback tr c.visit c.pos c.path) (hp : ∀ c ∈ calls, c.path = e.soft.fullPath c.pos) :
    ∀ c ∈ calls, c.path = e.fullPath c.pos ∧ c.action = d c.visit c.pos := by
  intro c hc
  have hp : c.path = e.fullPath c.pos := (hp c hc).trans (soft_fullPath _)
  obtain ⟨tr, h⟩ := h c hc
  rw [hp, hT.callback] at h
  exact ⟨hp, h⟩

theorem Between.hard (h : Between e.soft (softly d) st) (ha : ∀ x ∈ st.calls, x.path = e.fullPath x.pos ∧ x.action = d x.visit x.pos) : Between e d st where
  pre := by
    refine { h.pre with sound := fun b hb => ?_, full := fun p h1 h2 h3 => ?_ }
    · obtain ⟨q, h1, h2, h3⟩ := h.pre.sound b hb
      exact ⟨q, (soft_wanted q).1 h1, (soft_pruned q).1 h2, (soft_fullPath q).symm.trans h3⟩
    · rw [← soft_fullPath]
      exact h.pre.full p ((soft_wanted p).2 h1) h2 ((soft_pruned p).2 h3)
  window := h.window
  pre_nodup := h.pre_nodup
  pre_mem p := by
    rw [← soft_wanted]
    exact h.pre_mem p
  order := h.order
  err_nodup := h.err_nodup
  err_dir p hp := by
    rw [← soft_wanted, ← soft_into]
    exact h.err_dir p hp
  err_sound p := by
    rw [← soft_wanted, ← soft_into]
    exact h.err_sound p
  err_stat p := by
    rw [← soft_wanted]
    exact h.err_stat p
  post := h.post
  answers := ha
  bottom hb p := by
    rw [← soft_wanted]
    exact h.bottom hb p
  into hb p := by
    rw [← soft_wanted, ← soft_into]
    exact h.into hb p
  more hb := (h.more hb).imp id fun ⟨p, hp, h1⟩ => ⟨p, (soft_wanted p).1 hp, h1⟩

/-- What is known between two passes of the first phase. -/
theorem search_between (hT : Tame e d) (hC : Consistent e d) (hn : next = idsNext ∨ next = edsNext) (h : Search e next st buf) : Between e d st ∧ Follows next st := by
  have h1 := between hT.soft hC.soft hn (search_soft hT hn h).1
  exact ⟨h1.1.hard (answers_hard hT (search_answers hn h) fun c hc => (h1.1.answers c hc).1), h1.2⟩

/-- What is known after the second phase of iterative deepening. -/
theorem ids_between (hT : Tame e d) (hD : Distinct e d) (h : IdsPost e st buf) : IdsBetween e d st := by
  have h1 := idsBetween hT.soft hD.soft (idsPost_soft hT h).1
  refine { h1 with knows := fun p hp => ?_, pre_mem := fun p => ?_, post_mem := fun p => ?_, answers := answers_hard hT (idsPost_answers h) fun c hc => (h1.answers c hc).1, err_mem := fun p => ?_ }
  · rw [← soft_fullPath, ← soft_pruned]
    exact h1.knows p ((soft_wanted p).2 hp)
  · rw [← soft_wanted]
    exact h1.pre_mem p
  · rw [← soft_wanted, ← soft_pruned]
    exact h1.post_mem p
  · rw [← soft_wanted, ← soft_into]
    exact h1.err_mem p

/-- What is known after exponential deepening with `-depth`. -/
theorem eds_end (hT : Tame e d) (hD : Distinct e d) (h : EdsPost e st) : EdsEnd e d st := by
  have h1 := edsEnd hT.soft hD.soft (edsPost_soft hT h)
  refine { h1 with pre_mem := fun p => ?_, post_mem := fun p => ?_, answers := answers_hard hT (edsPost_answers h) fun c hc => (h1.answers c hc).1, err_mem := fun p => ?_ }
  · rw [← soft_wanted]
    exact h1.pre_mem p
  · rw [← soft_wanted, ← soft_into]
    exact h1.post_mem p
  · rw [← soft_wanted, ← soft_into]
    exact h1.err_mem p

/-- What one pass of the first phase does. -/
theorem search_window (hT : Tame e d) (hC : Consistent e d) (hn : next = idsNext ∨ next = edsNext) (h : Search e next st buf) (hp : Pass e false { st with bottom := true } buf st' buf') :
    ∃ new, st'.calls = new ++ st.calls ∧ (visits .pre new).Nodup ∧
      (∀ p, p ∈ visits .pre new ↔ Wanted e d p ∧ e.error p = false ∧ st.min ≤ depth p ∧ depth p < st.max) ∧ (next st').min = st.max ∧ st.min < st.max := by
  obtain ⟨hbet, hf⟩ := between hT.soft hC.soft hn (search_soft hT hn h).1
  obtain ⟨junk, s, hr, hd, rfl, -⟩ := (pass_soft hT hp).1
  have hpre : Pre e.soft (softly d) st.min st.max { st with bottom := true } := { hbet.pre with }
  obtain ⟨_, hps⟩ := pre_pass hT.soft hC.soft hbet.window hpre hr
  obtain ⟨hw, _⟩ := pre_window hT.soft hC.soft hbet.window hpre hr hd
  refine ⟨_, hps.calls, hw.pre_nodup, fun p => ?_, (hf.pass hbet.window hps.pre.min hps.pre.max).1, hbet.window⟩
  rw [← soft_wanted]
  exact hw.pre_mem p

/-- What is known about the calls at any time. -/
structure Sofar (e : Env) (d : Visit → Pos → Action) (calls : List Event) : Prop where
  path : ∀ x ∈ calls, x.path = e.fullPath x.pos
  pre_nodup : (visits .pre calls).Nodup
  pre_mem : ∀ p, p ∈ visits .pre calls → Wanted e d p ∧ e.error p = false
  pre_order : (visits .pre calls).Pairwise fun later earlier => ¬ later <:+ earlier
  post_nodup : (visits .post calls).Nodup
  post_mem : ∀ p, p ∈ visits .post calls → Wanted e d p ∧ e.error p = false ∧ ¬ Pruned e d p
  post_order : (visits .post calls).Pairwise fun later earlier => ¬ earlier <:+ later
  err_mem : ∀ p, p ∈ visits .err calls → Wanted e d p ∧ ((Into e d p ∧ e.broken p = true) ∨ e.error p = true)
  phases : ∃ second first, calls = second ++ first ∧ visits .pre second = [] ∧ visits .post first = []

theorem told3_visits {a b : List Event} (h : told3 a = told3 b) (v : Visit) : visits v a = visits v b := by
  induction a generalizing b with
  | nil =>
    cases b with
    | nil => rfl
    | cons y b => cases h
  | cons x a ih =>
    cases b with
    | nil => cases h
    | cons y b =>
      have h1 := List.head_eq_of_cons_eq h
      have h2 := ih (List.tail_eq_of_cons_eq h)
      rw [visits_cons, visits_cons, h2]
      injection h1 with h3 h4
      injection h4 with h4 h5
      rw [h3, h4]

theorem told3_append {a b c : List Event} (h : told3 a = told3 (b ++ c)) : ∃ b' c', a = b' ++ c' ∧ told3 b' = told3 b ∧ told3 c' = told3 c := by
  refine ⟨a.take b.length, a.drop b.length, (List.take_append_drop _ _).symm, ?_, ?_⟩
  · unfold told3 at h ⊢
    rw [List.map_take, h, List.map_append, List.take_left' (by simp)]
  · unfold told3 at h ⊢
    rw [List.map_drop, h, List.map_append, List.drop_left' (by simp)]

theorem Sofar.congr {a b : List Event} (h : told3 a = told3 b) (hs : Sofar e d b) : Sofar e d a := by
  have hv := told3_visits h
  refine ⟨fun x hx => ?_, hv _ ▸ hs.pre_nodup, hv _ ▸ hs.pre_mem, hv _ ▸ hs.pre_order, hv _ ▸ hs.post_nodup, hv _ ▸ hs.post_mem, hv _ ▸ hs.post_order, hv _ ▸ hs.err_mem, ?_⟩
  · have : (x.visit, x.pos, x.path) ∈ told3 a := List.mem_map.2 ⟨x, hx, rfl⟩
    rw [h] at this
    obtain ⟨y, h1, h2⟩ := List.mem_map.1 this
    injection h2 with h3 h4
    injection h4 with h4 h5
    rw [← h5, ← h4]
    exact hs.path y h1
  · obtain ⟨second, first, h1, h2, h3⟩ := hs.phases
    rw [h1] at h
    obtain ⟨s', f', h4, h5, h6⟩ := told3_append h
    exact ⟨s', f', h4, (told3_visits h5 _).trans h2, (told3_visits h6 _).trans h3⟩

theorem Sofar.hard (h : Sofar e.soft (softly d) tr) : Sofar e d tr where
  path x hx := (h.path x hx).trans (soft_fullPath _)
  pre_nodup := h.pre_nodup
  pre_mem p hp := ⟨(soft_wanted p).1 (h.pre_mem p hp).1, (h.pre_mem p hp).2⟩
  pre_order := h.pre_order
  post_nodup := h.post_nodup
  post_mem p hp := ⟨(soft_wanted p).1 (h.post_mem p hp).1, (h.post_mem p hp).2.1, fun hh => (h.post_mem p hp).2.2 ((soft_pruned p).2 hh)⟩
  post_order := h.post_order
  err_mem p hp := ⟨(soft_wanted p).1 (h.err_mem p hp).1, by have := (h.err_mem p hp).2; rw [soft_into] at this; exact this⟩
  phases := h.phases

/-- An error that is reported is one. -/
theorem legal_errs {hi : Nat} {call : Event → Option Event} (hcall : ∀ ev x, call ev = some x → x.visit = .err → x.pos = ev.pos ∧ (ev.visit = .err ∨ e.error ev.pos = true))
    (hl : Legal (Ids.env e st buf junk post) tr) (hg : Goes e d hi tr) (p : Pos) (h : p ∈ visits .err (tr.filterMap call)) :
    Wanted e d p ∧ ((Into e d p ∧ e.broken p = true) ∨ e.error p = true) := by
  obtain ⟨x, h1, h2, h3⟩ := visits_iff.1 h
  obtain ⟨ev, h4, h5⟩ := List.mem_filterMap.1 h1
  obtain ⟨h6, h7⟩ := hcall ev x h5 h2
  have hp : ev.pos = p := h6.symm.trans h3
  subst hp
  refine ⟨(hg.wanted ev h4).1, h7.imp (fun h7 => ?_) id⟩
  obtain ⟨a, b, h8⟩ := List.append_of_mem h4
  have hok := legal_split (by rw [h8] at hl; exact hl)
  obtain ⟨y, h9, h10, h11, h12⟩ := entered_ev (hok.dir (by rw [h7]; simp))
  have := (hg.enter y (by rw [h8]; simp [h9]) h10).1 h11
  rw [h12] at this
  exact ⟨this.1, hok.broken h7⟩

theorem preCall_err {lo : Nat} (ev x : Event) (h : preCall e d lo ev = some x) (hx : x.visit = .err) : x.pos = ev.pos ∧ (ev.visit = .err ∨ e.error ev.pos = true) := by
  unfold preCall at h
  split at h
  · rename_i h0
    split at h
    · cases h; exact ⟨rfl, h0⟩
    · cases h
  · split at h
    · cases h
    · cases h; cases hx

theorem pre_answers {lo : Nat} {tr : List Event} (h : ∀ ev ∈ tr, ev.path = e.fullPath ev.pos) : ∀ x ∈ tr.filterMap (preCall e d lo), x.path = e.fullPath x.pos := by
  intro x hx
  obtain ⟨ev, h1, h2⟩ := List.mem_filterMap.1 hx
  unfold preCall at h2
  split at h2
  · split at h2
    · cases h2; exact h ev h1
    · cases h2
  · split at h2
    · cases h2
    · cases h2; exact h ev h1

theorem sofar_pre (hT : Calm e d) (hC : Consistent e d) (h : Between e d st) (hl : Legal (Ids.env e { st with bottom := true } buf junk false) tr) :
    Sofar e d (Ids.after e { st with bottom := true } tr).calls := by
  have hpre : Pre e d st.min st.max { st with bottom := true } := { h.pre with }
  obtain ⟨hg, hps⟩ := pre_legal hT hC h.window hpre hl
  have hcalls := hps.calls
  dsimp only at hcalls
  have hpc := pre_calls (e := e) (d := d) (lo := st.min) hps.nopost
  have hnew : ∀ p, p ∈ visits .pre (tr.filterMap (preCall e d st.min)) → Wanted e d p ∧ e.error p = false ∧ st.min ≤ depth p := by
    intro p hp
    rw [hpc, List.mem_filter] at hp
    obtain ⟨ev, h1, -, h3⟩ := visits_iff.1 hp.1
    have h4 := hp.2
    simp only [Bool.and_eq_true, Bool.not_eq_true', decide_eq_true_eq] at h4
    exact ⟨h3 ▸ (hg.wanted ev h1).1, h4.1, by omega⟩
  rw [hcalls]
  refine ⟨fun x hx => ?_, ?_, fun p hp => ?_, ?_, ?_, fun p hp => ?_, ?_, fun p hp => ?_, ⟨[], tr.filterMap (preCall e d st.min) ++ st.calls, rfl, rfl, ?_⟩⟩
  · rcases List.mem_append.1 hx with hx | hx
    · exact pre_answers (legal_path hl) x hx
    · exact (h.answers x hx).1
  · rw [visits_append]
    refine List.nodup_append.2 ⟨by rw [hpc]; exact hl.nodup.filter _, h.pre_nodup, ?_⟩
    rintro a h1 b h2 rfl
    have h1 := hnew a h1
    have h2 := (h.pre_mem a).1 h2
    omega
  · rw [visits_append, List.mem_append] at hp
    rcases hp with hp | hp
    · exact ⟨(hnew p hp).1, (hnew p hp).2.1⟩
    · exact ⟨((h.pre_mem p).1 hp).1, ((h.pre_mem p).1 hp).2.1⟩
  · rw [visits_append]
    refine List.pairwise_append.2 ⟨by rw [hpc]; exact (legal_order hl).filter _, h.order, fun a h1 b h2 hs => ?_⟩
    have h1 := hnew a h1
    have h2 := (h.pre_mem b).1 h2
    have hl := hs.length_le
    have := length_depth h1.1.ne
    have := length_depth h2.1.ne
    omega
  · rw [visits_append, post_calls, h.post]; exact List.nodup_nil
  · rw [visits_append, post_calls, h.post] at hp; cases hp
  · rw [visits_append, post_calls, h.post]; exact List.Pairwise.nil
  · rw [visits_append, List.mem_append] at hp
    rcases hp with hp | hp
    · exact legal_errs preCall_err hl hg p hp
    · exact h.err_sound p hp
  · rw [visits_append, post_calls, h.post]; rfl

theorem sofar_ids (hT : Calm e d) (hD : Distinct e d) (ih : IdsBetween e d st) (hord : (visits .pre st.calls).Pairwise fun later earlier => ¬ later <:+ earlier) (hmin : st.min > 0)
    (hl : Legal (Ids.env e { st with max := st.max - 1, min := st.min - 1 } buf junk false) tr) :
    Sofar e d (Ids.after e { st with max := st.max - 1, min := st.min - 1 } tr).calls := by
  have hw := ih.window
  obtain ⟨hg, hs⟩ := ids_legal (lo := st.min - 1) hT hD (st := { st with max := st.max - 1, min := st.min - 1 }) ih.visit ih.force rfl
    (show st.max - 1 = st.min - 1 + 1 by omega) (fun p h1 h2 => ih.knows p h1 (by omega)) hl
  have hans := ids_answers (d := d) (lo := st.min - 1) (legal_path hl)
  have hcalls := hs.calls
  dsimp only at hcalls
  have hpost := ids_post_calls (e := e) (d := d) (lo := st.min - 1) hs.nopost
  have hmem : ∀ p, p ∈ visits .post (tr.filterMap (idsCall e d (st.min - 1))) → Wanted e d p ∧ e.error p = false ∧ ¬ Pruned e d p ∧ depth p = st.min - 1 := by
    intro p hp
    rw [hpost, List.mem_filter] at hp
    obtain ⟨ev, h1, -, h3⟩ := visits_iff.1 hp.1
    have h4 := hp.2
    simp only [Bool.and_eq_true, Bool.not_eq_true', decide_eq_true_eq] at h4
    have h5 := hg.wanted ev h1
    rw [h3] at h5
    have := length_depth h5.1.ne
    exact ⟨h5.1, h4.1.1, h4.2, by omega⟩
  have hpre : visits .pre (Ids.after e { st with max := st.max - 1, min := st.min - 1 } tr).calls = visits .pre st.calls := by
    rw [hcalls, visits_append, no_pre fun y hy => (hans y hy).1]
    rfl
  have hnd : (visits .post (tr.filterMap (idsCall e d (st.min - 1)))).Nodup := by
    rw [hpost]; exact hl.nodup.filter _
  refine ⟨fun x hx => ?_, ?_, fun p hp => ?_, ?_, ?_, fun p hp => ?_, ?_, fun p hp => ?_, ?_⟩
  · rw [hcalls] at hx
    rcases List.mem_append.1 hx with hx | hx
    · exact (hans x hx).2.1
    · exact (ih.answers x hx).1
  · rw [hpre]; exact ih.pre_nodup
  · rw [hpre] at hp; exact (ih.pre_mem p).1 hp
  · rw [hpre]; exact hord
  · rw [hcalls, visits_append]
    refine List.nodup_append.2 ⟨hnd, ih.post_nodup, ?_⟩
    rintro a h1 b h2 rfl
    have h1 := hmem a h1
    have h2 := (ih.post_mem a).1 h2
    omega
  · rw [hcalls, visits_append, List.mem_append] at hp
    rcases hp with hp | hp
    · exact ⟨(hmem p hp).1, (hmem p hp).2.1, (hmem p hp).2.2.1⟩
    · exact ⟨((ih.post_mem p).1 hp).1, ((ih.post_mem p).1 hp).2.1, ((ih.post_mem p).1 hp).2.2.1⟩
  · rw [hcalls, visits_append]
    refine List.pairwise_append.2 ⟨?_, ih.order, fun a h1 b h2 hs => ?_⟩
    · refine List.Pairwise.imp_of_mem ?_ hnd
      intro a b h1 h2 h3 h4
      have h1 := hmem a h1
      have h2 := hmem b h2
      have := length_depth h1.1.ne
      have := length_depth h2.1.ne
      exact h3 (h4.eq_of_length (by omega)).symm
    · have h1 := hmem a h1
      have h2 := (ih.post_mem b).1 h2
      have := length_depth h1.1.ne
      have := length_depth h2.1.ne
      have := hs.length_le
      omega
  · rw [hcalls, visits_append, List.mem_append] at hp
    rcases hp with hp | hp
    · exact legal_errs idsCall_err hl hg p hp
    · exact (ih.err_mem p).1 hp
  · obtain ⟨second, first, h1, h2, h3⟩ := ih.phases
    refine ⟨_ ++ second, first, by rw [hcalls, h1, List.append_assoc], ?_, h3⟩
    rw [visits_append, no_pre fun y hy => (hans y hy).1, h2]
    rfl

theorem sofar_eds (hT : Calm e d) (hD : Distinct e d) (hbet : Between e d st) (hb : st.bottom = true)
    (hl : Legal (Ids.env e { st with visit := .post, min := 0 } buf junk true) tr) : Sofar e d (Ids.after e { st with visit := .post, min := 0 } tr).calls := by
  have hbot : ∀ p, Wanted e d p → p.length < st.max := fun p hp => Nat.lt_of_le_of_lt (hbet.bottom hb p hp) hbet.window
  have hwin := hbet.window
  obtain ⟨hg, hs⟩ := eds_legal (st := { st with visit := .post, min := 0 }) hT hD (by omega) hbot rfl hbet.pre.force rfl rfl (fun p h1 h2 => hbet.knows hD hb p h1 h2) hl
  have hans := eds_answers (d := d) (legal_path hl)
  have hcalls := hs.calls
  dsimp only at hcalls
  have hin : ∀ p, p ∈ visits .post tr → Wanted e d p ∧ Into e d p := by
    intro p hp
    obtain ⟨ev, h1, h2, h3, h4⟩ := entered_ev (hl.post_entered .post (by simp) _ hp)
    rw [← h4]
    exact ⟨(hg.wanted ev h1).1, ((hg.enter ev h1 h2).1 h3).1⟩
  have herr : ∀ p, Into e d p → e.error p = false := fun p hp => by
    cases hh : e.error p with
    | false => rfl
    | true =>
      have := hp.1
      rw [hT.error _ hh] at this
      cases this
  have hpost : visits .post (Ids.after e { st with visit := .post, min := 0 } tr).calls = visits .post tr := by
    rw [hcalls, visits_append, hbet.post, List.append_nil]
    exact eds_post_calls fun ev h1 h2 => herr _ (hin _ (visits_iff.2 ⟨ev, h1, h2, rfl⟩)).2
  have hpre : visits .pre (Ids.after e { st with visit := .post, min := 0 } tr).calls = visits .pre st.calls := by
    rw [hcalls, visits_append, no_pre fun y hy => (hans y hy).1]
    rfl
  refine ⟨fun x hx => ?_, ?_, fun p hp => ?_, ?_, ?_, fun p hp => ?_, ?_, fun p hp => ?_, ⟨_, _, hcalls, no_pre fun y hy => (hans y hy).1, hbet.post⟩⟩
  · rw [hcalls] at hx
    rcases List.mem_append.1 hx with hx | hx
    · exact (hans x hx).2.1
    · exact (hbet.answers x hx).1
  · rw [hpre]; exact hbet.pre_nodup
  · rw [hpre] at hp
    have := (hbet.pre_mem p).1 hp
    exact ⟨this.1, this.2.1⟩
  · rw [hpre]; exact hbet.order
  · rw [hpost]; exact hl.nodup
  · rw [hpost] at hp
    exact ⟨(hin p hp).1, herr p (hin p hp).2, fun hh => hh.2 (hin p hp).2.2.1⟩
  · rw [hpost]; exact legal_post_order hl
  · rw [hcalls, visits_append, List.mem_append] at hp
    rcases hp with hp | hp
    · exact legal_errs edsCall_err hl hg p hp
    · exact hbet.err_sound p hp

theorem idsPost_order (hT : Calm e d) (hD : Distinct e d) (h : IdsPost e st buf) : (visits .pre st.calls).Pairwise fun later earlier => ¬ later <:+ earlier := by
  induction h with
  | init hs hb _ => exact (between hT hD.consistent (Or.inl rfl) hs).1.order
  | @pass st st' buf buf' h hmin hp ih =>
    obtain ⟨junk, s, hr, hd, rfl, -⟩ := hp
    have hl := (inv_reach (e := Ids.env e { st with max := st.max - 1, min := st.min - 1 } buf junk false) hT.named hr).legal
    exact (sofar_ids hT hD (idsBetween hT hD h) ih hmin hl).pre_order

/-- At any time. -/
theorem midway (hT : Tame e d) (hD : Distinct e d) (h : Midway e st) : Sofar e d st.calls ∧ (∀ c ∈ st.calls, c.action = d c.visit c.pos) ∧
    ∀ later c earlier, st.calls = later ++ c :: earlier → c.action = .stop → later = [] := by
  suffices hs : Sofar e d st.calls ∧ ∀ later c earlier, st.calls = later ++ c :: earlier → c.action = .stop → later = [] from
    ⟨hs.1, fun c hc => (answers_hard hT (midway_answers h) (fun c hc => by rw [soft_fullPath]; exact hs.1.path c hc) c hc).2, hs.2⟩
  cases h with
  | @ids st buf junk s _ h hb hr =>
    obtain ⟨h1, h2⟩ := search_soft hT (Or.inl rfl) h
    obtain ⟨⟨tr', h3, h4⟩, h5⟩ := legal_soft (inv_reach (e := Ids.env e { st with bottom := true } buf junk false) hT.named hr).legal h2
    exact ⟨((sofar_pre hT.soft hD.soft.consistent (between hT.soft hD.soft.consistent (Or.inl rfl) h1).1 h3).hard).congr h4.symm, h5⟩
  | @eds st buf junk s _ h hb hr =>
    obtain ⟨h1, h2⟩ := search_soft hT (Or.inr rfl) h
    obtain ⟨⟨tr', h3, h4⟩, h5⟩ := legal_soft (inv_reach (e := Ids.env e { st with bottom := true } buf junk false) hT.named hr).legal h2
    exact ⟨((sofar_pre hT.soft hD.soft.consistent (between hT.soft hD.soft.consistent (Or.inr rfl) h1).1 h3).hard).congr h4.symm, h5⟩
  | @idsPost st buf junk s _ h hm hr =>
    obtain ⟨h1, h2⟩ := idsPost_soft hT h
    obtain ⟨⟨tr', h3, h4⟩, h5⟩ := legal_soft (inv_reach (e := Ids.env e { st with max := st.max - 1, min := st.min - 1 } buf junk false) hT.named hr).legal h2
    exact ⟨((sofar_ids hT.soft hD.soft (idsBetween hT.soft hD.soft h1) (idsPost_order hT.soft hD.soft h1) hm h3).hard).congr h4.symm, h5⟩
  | @edsPost st buf junk s _ h hb hp hr =>
    obtain ⟨h1, h2⟩ := search_soft hT (Or.inr rfl) h
    obtain ⟨⟨tr', h3, h4⟩, h5⟩ := legal_soft (inv_reach (e := Ids.env e { st with visit := .post, min := 0 } buf junk true) hT.named hr).legal h2
    exact ⟨((sofar_eds hT.soft hD.soft (between hT.soft hD.soft.consistent (Or.inr rfl) h1).1 hb h3).hard).congr h4.symm, h5⟩

end Verif.Bftw
