import Verif.Lemmas.Ids
/-! # What the passes do together -/
namespace Verif.Bftw
open Verif.Props

variable {lo hi : Nat} {e : Env} {d : Visit → Pos → Action} {st st' : Ids} {buf buf' : Bytes} {next : Ids → Ids}

/-- The calls of one pass of the first phase. -/
structure Window (e : Env) (d : Visit → Pos → Action) (lo hi : Nat) (new : List Event) : Prop where
  pre_nodup : (visits .pre new).Nodup
  pre_mem : ∀ p, p ∈ visits .pre new ↔ Wanted e d p ∧ e.error p = false ∧ lo ≤ depth p ∧ depth p < hi
  order : (visits .pre new).Pairwise fun later earlier => ¬ later <:+ earlier
  err_nodup : ((visits .err new).filter e.isDir).Nodup
  err_mem : ∀ p, p ∈ visits .err new ↔ Wanted e d p ∧
    ((Into e d p ∧ e.broken p = true ∧ lo ≤ p.length ∧ p.length < hi) ∨ (e.error p = true ∧ lo ≤ p.length ∧ p.length ≤ hi))
  post : visits .post new = []
  answers : ∀ x ∈ new, x.path = e.fullPath x.pos ∧ x.action = d x.visit x.pos

theorem length_depth {p : Pos} (h : p ≠ []) : depth p + 1 = p.length := by
  cases p with
  | nil => exact absurd rfl h
  | cons j p => rfl

theorem pre_window (hT : Calm e d) (hC : Consistent e d) (hmm : lo < hi) (h : Pre e d lo hi st) {s : State} {junk : Nat → Nat → UInt8}
    (hr : Reach (Ids.env e st buf junk false) s) (hd : s.pc = .done) :
    Window e d lo hi (s.trace.filterMap (preCall e d lo)) ∧ (∀ p, p ∈ visits .pre s.trace ↔ Wanted e d p ∧ p.length ≤ hi) := by
  have hN : (Ids.env e st buf junk false).Named := hT.named
  obtain ⟨hg, hp⟩ := pre_pass hT hC hmm h hr
  have hc := goes_complete hT hr hd (by omega) hg
  have hent := goes_entered hg hc
  have hl := (inv_reach hN hr).legal
  have herr := C61_errors hN hr hd
  refine ⟨⟨?_, ?_, ?_, ?_, ?_, post_calls, ?_⟩, hc⟩
  · rw [pre_calls hp.nopost]
    exact hl.nodup.filter _
  · intro p
    rw [pre_calls hp.nopost, List.mem_filter, hc]
    constructor
    · rintro ⟨⟨h1, h2⟩, h3⟩
      simp only [Bool.and_eq_true, Bool.not_eq_true', decide_eq_true_eq] at h3
      exact ⟨h1, h3.1, by omega, (depth_lt h1.ne hi).2 h2⟩
    · rintro ⟨h1, h2, h3, h4⟩
      refine ⟨⟨h1, (depth_lt h1.ne hi).1 h4⟩, ?_⟩
      simp only [h2, Bool.and_eq_true, Bool.not_eq_true', decide_eq_true_eq]
      exact ⟨trivial, by omega⟩
  · rw [pre_calls hp.nopost]
    exact (legal_order hl).filter _
  · rw [err_calls hT]
    exact hl.nodup.filter _
  · intro p
    rw [err_mem]
    constructor
    · rintro ⟨h1, ev, h2, h3, h4⟩
      have hw := hg.wanted ev h2
      rw [h3] at hw
      have hld := length_depth hw.1.ne
      refine ⟨hw.1, ?_⟩
      rcases h4 with h4 | h4
      · left
        have := (herr p).1 (visits_iff.2 ⟨ev, h2, h4, h3⟩)
        have h5 := (hent p).1 this.1
        exact ⟨h5.2.1, this.2, by omega, h5.2.2⟩
      · exact Or.inr ⟨h4, by omega, hw.2⟩
    · rintro ⟨h1, h2⟩
      have hld := length_depth h1.ne
      rcases h2 with ⟨h2, h3, h4, h5⟩ | ⟨h2, h3, h4⟩
      · refine ⟨by omega, ?_⟩
        obtain ⟨ev, h6, h7, h8⟩ := visits_iff.1 ((herr p).2 ⟨(hent p).2 ⟨h1, h2, h5⟩, h3⟩)
        exact ⟨ev, h6, h8, Or.inl h7⟩
      · refine ⟨by omega, ?_⟩
        obtain ⟨ev, h6, h7, h8⟩ := visits_iff.1 ((hc p).2 ⟨h1, h4⟩)
        exact ⟨ev, h6, h8, Or.inr h2⟩
  · intro x hx
    obtain ⟨ev, h1, h2⟩ := List.mem_filterMap.1 hx
    have hpath : ev.path = e.fullPath ev.pos := by
      obtain ⟨a, b, h4⟩ := List.append_of_mem h1
      rw [h4] at hl
      exact (legal_split hl).path.trans (env_fullPath _)
    unfold preCall at h2
    split at h2
    · split at h2
      · cases h2
        exact ⟨hpath, rfl⟩
      · cases h2
    · split at h2
      · cases h2
      · cases h2
        exact ⟨hpath, rfl⟩

/-- What is known between two passes of the first phase. -/
structure Between (e : Env) (d : Visit → Pos → Action) (st : Ids) : Prop where
  pre : Pre e d st.min st.max st
  window : st.min < st.max
  pre_nodup : (visits .pre st.calls).Nodup
  pre_mem : ∀ p, p ∈ visits .pre st.calls ↔ Wanted e d p ∧ e.error p = false ∧ depth p < st.min
  order : (visits .pre st.calls).Pairwise fun later earlier => ¬ later <:+ earlier
  err_nodup : ((visits .err st.calls).filter e.isDir).Nodup
  err_dir : ∀ p, e.isDir p = true → (p ∈ visits .err st.calls ↔ Wanted e d p ∧ Into e d p ∧ e.broken p = true ∧ p.length < st.min)
  err_sound : ∀ p, p ∈ visits .err st.calls → Wanted e d p ∧ ((Into e d p ∧ e.broken p = true) ∨ e.error p = true)
  err_stat : ∀ p, Wanted e d p → e.error p = true → p.length ≤ st.min → p ∈ visits .err st.calls
  post : visits .post st.calls = []
  answers : ∀ x ∈ st.calls, x.path = e.fullPath x.pos ∧ x.action = d x.visit x.pos
  bottom : st.bottom = true → ∀ p, Wanted e d p → p.length ≤ st.min
  into : st.bottom = true → ∀ p, Wanted e d p → Into e d p → p.length < st.min
  more : st.bottom = false → st.min = 0 ∨ ∃ p, Wanted e d p ∧ e.isDir p = true ∧ p.length = st.min

theorem Between.init : Between e d Ids.init where
  pre := ⟨rfl, rfl, rfl, rfl, fun _ h => (by cases h), fun _ _ h => (by cases h)⟩
  window := by decide
  pre_nodup := List.nodup_nil
  pre_mem p := ⟨fun h => (by cases h), fun h => (by cases h.2.2)⟩
  order := List.Pairwise.nil
  err_nodup := List.nodup_nil
  err_dir p _ := ⟨fun h => (by cases h), fun h => (by cases h.2.2.2)⟩
  err_sound p h := by cases h
  err_stat p h _ h2 := by
    have h2 : p.length ≤ 0 := h2
    cases p with
    | nil => exact absurd rfl h.ne
    | cons j p => simp at h2
  post := rfl
  answers x h := by cases h
  bottom h := by cases h
  into h := by cases h
  more _ := Or.inl rfl

/-- The windows follow each other. -/
def Follows (next : Ids → Ids) (st : Ids) : Prop := next = edsNext ∨ (next = idsNext ∧ st.max = st.min + 1)

theorem Follows.pass (h : Follows next st) (hmm : st.min < st.max) {x : Ids} (h1 : x.min = st.min) (h2 : x.max = st.max) :
    (next x).min = st.max ∧ (next x).min < (next x).max ∧ (next x).pruned = x.pruned ∧ (next x).bottom = x.bottom ∧ (next x).calls = x.calls ∧
      (next x).visit = x.visit ∧ (next x).force = x.force ∧ Follows next (next x) := by
  rcases h with rfl | ⟨rfl, h⟩
  · refine ⟨h2, ?_, rfl, rfl, rfl, rfl, rfl, Or.inl rfl⟩
    show x.max < x.max * 2
    omega
  · refine ⟨?_, ?_, rfl, rfl, rfl, rfl, rfl, Or.inr ⟨rfl, ?_⟩⟩
    · show x.min + 1 = st.max
      omega
    · show x.min + 1 < x.max + 1
      omega
    · show x.max + 1 = x.min + 1 + 1
      omega

theorem Between.pass (hT : Calm e d) (hC : Consistent e d) (h : Between e d st) (hf : Follows next st) (hb : st.bottom = false)
    (hp : Pass e false { st with bottom := true } buf st' buf') : Between e d (next st') ∧ Follows next (next st') := by
  obtain ⟨junk, s, hr, hd, rfl, -⟩ := hp
  have hpre : Pre e d st.min st.max { st with bottom := true } := { h.pre with }
  obtain ⟨hg, hps⟩ := pre_pass hT hC h.window hpre hr
  obtain ⟨hw, hc⟩ := pre_window hT hC h.window hpre hr hd
  obtain ⟨n1, n2, n3, n4, n5, n6, n7, n8⟩ := hf.pass h.window hps.pre.min hps.pre.max
  have hcalls := hps.calls
  dsimp only at hcalls
  refine ⟨?_, n8⟩
  generalize hst : Ids.after e { st with bottom := true } s.trace = x at *
  have hN : (Ids.env e { st with bottom := true } buf junk false).Named := hT.named
  have hmm := h.window
  have hbot : x.bottom = true ↔ ∀ ev ∈ s.trace, ev.visit = .pre → ¬ Cut e d st.min st.max ev.pos := by
    rw [hps.bottom]
    exact and_iff_right rfl
  have into_lt : x.bottom = true → ∀ p, Wanted e d p → Into e d p → p.length ≤ st.max → p.length < st.max := by
    intro hx p hwp hin hle
    rw [hbot] at hx
    by_cases hlt : p.length = st.max
    · obtain ⟨ev, h5, h6, h7⟩ := visits_iff.1 ((hc p).2 ⟨hwp, hle⟩)
      refine absurd ?_ (hx ev h5 h6)
      rw [h7]
      have := length_depth hwp.ne
      exact ⟨by omega, hin.1, hin.2.1, by omega⟩
    · omega
  constructor
  · refine ⟨n6.trans hps.pre.visit, n7.trans hps.pre.force, rfl, rfl, ?_, ?_⟩
    · rw [n3]; exact hps.pre.sound
    · rw [n3, n1]
      intro p h1 h2 h3
      by_cases h4 : depth p < st.min
      · exact hps.pre.full p h1 h4 h3
      · obtain ⟨ev, h5, h6, h7⟩ := visits_iff.1 ((hc p).2 ⟨h1, (depth_lt h1.ne _).1 h2⟩)
        rw [← h7]
        refine hps.new ev h5 h6 ?_ ?_
        · rw [h7]; exact h4
        · rw [h7]; exact h3
  · exact n2
  · rw [n5, hcalls, visits_append]
    refine List.nodup_append.2 ⟨hw.pre_nodup, h.pre_nodup, ?_⟩
    rintro a h1 b h2 rfl
    have h1 := (hw.pre_mem a).1 h1
    have h2 := (h.pre_mem a).1 h2
    omega
  · intro p
    rw [n5, hcalls, visits_append, List.mem_append, hw.pre_mem, h.pre_mem, n1]
    constructor
    · rintro (⟨h1, h2, h3, h4⟩ | ⟨h1, h2, h3⟩)
      · exact ⟨h1, h2, h4⟩
      · exact ⟨h1, h2, by omega⟩
    · rintro ⟨h1, h2, h3⟩
      by_cases h4 : depth p < st.min
      · exact Or.inr ⟨h1, h2, h4⟩
      · exact Or.inl ⟨h1, h2, by omega, h3⟩
  · rw [n5, hcalls, visits_append]
    refine List.pairwise_append.2 ⟨hw.order, h.order, fun a h1 b h2 hs => ?_⟩
    have h1 := (hw.pre_mem a).1 h1
    have h2 := (h.pre_mem b).1 h2
    have hl := hs.length_le
    have := length_depth h1.1.ne
    have := length_depth h2.1.ne
    omega
  · rw [n5, hcalls, visits_append, List.filter_append]
    refine List.nodup_append.2 ⟨hw.err_nodup, h.err_nodup, ?_⟩
    rintro a h1 b h2 rfl
    have h1 := List.mem_filter.1 h1
    have h2 := List.mem_filter.1 h2
    have h3 := (hw.err_mem a).1 h1.1
    have h4 := (h.err_dir a h1.2).1 h2.1
    rcases h3.2 with h3 | h3
    · omega
    · have := hT.error a h3.1
      rw [h1.2] at this
      cases this
  · intro p hdir
    rw [n5, hcalls, visits_append, List.mem_append, hw.err_mem, h.err_dir p hdir, n1]
    have hne : e.error p = false := by
      cases hh : e.error p with
      | false => rfl
      | true =>
        rw [hT.error p hh] at hdir
        cases hdir
    constructor
    · rintro (⟨h1, (⟨h2, h3, h4, h5⟩ | ⟨h2, -⟩)⟩ | ⟨h1, h2, h3, h4⟩)
      · exact ⟨h1, h2, h3, h5⟩
      · rw [hne] at h2
        cases h2
      · exact ⟨h1, h2, h3, by omega⟩
    · rintro ⟨h1, h2, h3, h4⟩
      by_cases h5 : p.length < st.min
      · exact Or.inr ⟨h1, h2, h3, h5⟩
      · exact Or.inl ⟨h1, Or.inl ⟨h2, h3, by omega, h4⟩⟩
  · intro p
    rw [n5, hcalls, visits_append, List.mem_append, hw.err_mem]
    rintro (⟨h1, (⟨h2, h3, -⟩ | ⟨h2, -⟩)⟩ | h1)
    · exact ⟨h1, Or.inl ⟨h2, h3⟩⟩
    · exact ⟨h1, Or.inr h2⟩
    · exact h.err_sound p h1
  · intro p
    rw [n5, hcalls, visits_append, List.mem_append, hw.err_mem, n1]
    intro h1 h2 h3
    by_cases h4 : p.length ≤ st.min
    · exact Or.inr (h.err_stat p h1 h2 h4)
    · exact Or.inl ⟨h1, Or.inr ⟨h2, by omega, h3⟩⟩
  · rw [n5, hcalls, visits_append, hw.post, h.post]
    rfl
  · rw [n5, hcalls]
    intro y hy
    rcases List.mem_append.1 hy with hy | hy
    · exact hw.answers y hy
    · exact h.answers y hy
  · rw [n4, n1]
    intro hx
    have key := into_lt hx
    rintro p ⟨hp, -⟩
    induction hp with
    | root i _ =>
      show 1 ≤ st.max
      omega
    | entry p j hf hin hj ih =>
      show p.length + 1 ≤ st.max
      exact key p ⟨hf, hin.2.2.2⟩ hin ih
  · rw [n4, n1]
    intro hx p hp hin
    refine into_lt hx p hp hin ?_
    obtain ⟨hf, -⟩ := hp
    have key := into_lt hx
    clear hin
    induction hf with
    | root i _ =>
      show 1 ≤ st.max
      omega
    | entry p j hf hin hj ih => exact key p ⟨hf, hin.2.2.2⟩ hin ih
  · rw [n4, n1]
    intro hx
    right
    have : ¬ ∀ ev ∈ s.trace, ev.visit = .pre → ¬ Cut e d st.min st.max ev.pos := fun hh => by
      rw [hbot.2 hh] at hx
      cases hx
    have : ∃ ev ∈ s.trace, Cut e d st.min st.max ev.pos := Classical.byContradiction fun hn =>
      this fun ev h1 _ h3 => hn ⟨ev, h1, h3⟩
    obtain ⟨ev, h1, h2⟩ := this
    have h3 := hg.wanted ev h1
    have := length_depth h3.1.ne
    have := h2.2.2.2
    exact ⟨ev.pos, h3.1, h2.2.1, by omega⟩

theorem between (hT : Calm e d) (hC : Consistent e d) (hn : next = idsNext ∨ next = edsNext) (h : Search e next st buf) : Between e d st ∧ Follows next st := by
  induction h with
  | init =>
    refine ⟨Between.init, ?_⟩
    rcases hn with rfl | rfl
    · exact Or.inr ⟨rfl, rfl⟩
    · exact Or.inl rfl
  | pass _ hb hp ih => exact ih.1.pass hT hC ih.2 hb hp

end Verif.Bftw
