import Verif.Lemmas.IdsSoft
import Verif.Lemmas.BftwAuto

/-!
# C20: the search strategies visit the same files

`Reach e s` with `s.pc = .done` is a complete breadth-first or depth-first walk; `Search e idsNext st
buf` and `Search e edsNext st buf` are iterative and exponential deepening after some number of
passes, and `st.bottom = true` says that there will be no more of them.  `IdsPost` and `EdsPost` are
the passes that follow with `-depth`.  `st.calls` are the calls of the user's callback, newest first.

The full property, that all strategies call the callback for the same files, whatever it decides, is
false: see `C20_prune_counterexample`, `C20_mount_counterexample` and the two about errors.  So the
theorems need that files found under the same path are pruned alike (`Consistent`), or that there are
none (`Distinct`), and they are about the files that `stat()` works for; the names end in `_partial`.
-/
namespace Verif.Props
open Verif.Bftw

variable {e : Env} {d : Visit → Pos → Action} {st : Ids} {buf : Bytes} {s : State} {next : Ids → Ids}

/-- Breadth-first and depth-first search go into exactly the directories that they should. -/
theorem walk_goes (hT : Tame e d) (h : Reach e s) : ∀ ev ∈ s.trace, ev.visit = .pre → (ev.action = .cont ↔ Into e d ev.pos) := by
  intro ev h1 h2
  have hl := (inv_reach hT.named h).legal
  obtain ⟨a, b, h3⟩ := List.append_of_mem h1
  rw [h3] at hl
  have hok := legal_split hl
  rw [hok.action, hok.path, hT.callback]
  have := adjust_iff (d := d) (a := d ev.visit ev.pos) hok.mount h2 (ev.pos.length + 1) (fun _ => by rw [h2]; simp)
  rw [this]
  exact ⟨fun h => h.1, fun h => ⟨h, by omega⟩⟩

/-- Breadth-first and depth-first search visit exactly the files that they should, once. -/
theorem C20_walk (hT : Tame e d) (h : Reach e s) (hd : s.pc = .done) :
    (visits .pre s.trace).Nodup ∧ ∀ p, p ∈ visits .pre s.trace ↔ Wanted e d p := by
  refine ⟨C18_once hT.named h .pre, fun p => ?_⟩
  rw [C18_complete hT.named h hd]
  refine and_congr_left fun _ => ⟨fun hf => ?_, fun hf => ?_⟩
  · refine found_mono (fun q _ hq => ?_) hf
    obtain ⟨ev, h1, h2, h3, h4⟩ := entered_ev hq
    rw [← h4]
    exact (walk_goes hT h ev h1 h2).1 h3
  · induction hf with
    | root i hi => exact .root i hi
    | entry p j hp hin hj ih =>
      refine .entry p j (ih hin.2.2.2) ?_ hj
      obtain ⟨ev, h1, h2, h3⟩ := visits_iff.1 ((C18_complete hT.named h hd p).2 ⟨ih hin.2.2.2, hin.2.2.2⟩)
      rw [← h3]
      refine entered_of_ev h1 h2 ((walk_goes hT h ev h1 h2).2 ?_)
      rw [h3]
      exact hin

/-- Iterative and exponential deepening visit exactly the files that they should, once, and
directories before what is in them; and they tell the callback the right paths. -/
theorem C20_deepening_partial (hT : Tame e d) (hC : Consistent e d) (hn : next = idsNext ∨ next = edsNext) (h : Search e next st buf) (hb : st.bottom = true) :
    (visits .pre st.calls).Nodup ∧ (∀ p, p ∈ visits .pre st.calls ↔ Wanted e d p ∧ e.error p = false) ∧
      (visits .pre st.calls).Pairwise (fun later earlier => ¬ later <:+ earlier) ∧ ∀ call ∈ st.calls, call.path = e.fullPath call.pos := by
  have hbet := (search_between hT hC hn h).1
  refine ⟨hbet.pre_nodup, fun p => ?_, hbet.order, fun x hx => (hbet.answers x hx).1⟩
  rw [hbet.pre_mem]
  exact ⟨fun hh => ⟨hh.1, hh.2.1⟩, fun hh => ⟨hh.1, hh.2, (depth_lt hh.1.ne _).2 (hbet.bottom hb p hh.1)⟩⟩

/-- So all strategies visit the same files, in the same number of visits. -/
theorem C20_same_partial (hT : Tame e d) (hC : Consistent e d) (hE : ∀ p, Wanted e d p → e.error p = false) (hr : Reach e s) (hd : s.pc = .done)
    (hn : next = idsNext ∨ next = edsNext) (h : Search e next st buf) (hb : st.bottom = true) : (visits .pre s.trace).Perm (visits .pre st.calls) := by
  have h1 := C20_walk hT hr hd
  have h2 := C20_deepening_partial hT hC hn h hb
  refine (List.perm_ext_iff_of_nodup h1.1 h2.1).2 fun p => ?_
  rw [h1.2, h2.2.1]
  exact ⟨fun hh => ⟨hh, hE p hh⟩, fun hh => hh.1⟩

/-- Each pass visits exactly the files in its window of depths; the first pass begins with depth 0,
and each begins where the one before it ended. -/
theorem C20_window_partial (hT : Tame e d) (hC : Consistent e d) (hn : next = idsNext ∨ next = edsNext) (h : Search e next st buf)
    {st' : Ids} {buf' : Bytes} (hp : Pass e false { st with bottom := true } buf st' buf') :
    ∃ new, st'.calls = new ++ st.calls ∧ (visits .pre new).Nodup ∧
      (∀ p, p ∈ visits .pre new ↔ Wanted e d p ∧ e.error p = false ∧ st.min ≤ depth p ∧ depth p < st.max) ∧ (next st').min = st.max ∧ st.min < st.max :=
  search_window hT hC hn h hp

/-- Iterative deepening visits shallow files first. -/
theorem C20_breadth_partial (hT : Tame e d) (hC : Consistent e d) (h : Search e idsNext st buf) :
    (visits .pre st.calls).Pairwise fun later earlier => depth earlier ≤ depth later := by
  induction h with
  | init => exact List.Pairwise.nil
  | @pass st st' buf buf' h hb hp ih =>
    obtain ⟨new, h1, h2, h3, h4, h5⟩ := C20_window_partial hT hC (Or.inl rfl) h hp
    obtain ⟨hbet, hf⟩ := search_between hT hC (Or.inl rfl) h
    have hw := hf.resolve_left (by
      intro hh
      have := congrArg (fun f => (f { Ids.init with min := 5, max := 1 }).min) hh
      revert this
      decide)
    show (visits .pre st'.calls).Pairwise _
    rw [h1, visits_append]
    refine List.pairwise_append.2 ⟨?_, ih, fun a ha b hb => ?_⟩
    · refine List.Pairwise.imp_of_mem (R := fun _ _ => True) ?_ (List.pairwise_of_forall fun _ _ => trivial)
      intro a b ha hb _
      have := (h3 a).1 ha
      have := (h3 b).1 hb
      omega
    · have := (h3 a).1 ha
      have := (hbet.pre_mem b).1 hb
      omega

/-- A directory that cannot be read is reported exactly once, before any second phase, and so is
every other error, at least once; nothing else is reported. -/
theorem C20_errors_partial (hT : Tame e d) (hC : Consistent e d) (hn : next = idsNext ∨ next = edsNext) (h : Search e next st buf) (hb : st.bottom = true) :
    ((visits .err st.calls).filter e.isDir).Nodup ∧ ∀ p, p ∈ visits .err st.calls ↔ Wanted e d p ∧ ((Into e d p ∧ e.broken p = true) ∨ e.error p = true) := by
  have hbet := (search_between hT hC hn h).1
  exact ⟨hbet.err_nodup, hbet.errs hb⟩

/-- There is another pass only if the last one was cut off at some directory.  So if no file is
deeper than `n`, every pass begins at most there. -/
theorem C20_passes_partial (hT : Tame e d) (hC : Consistent e d) (hn : next = idsNext ∨ next = edsNext) (h : Search e next st buf) (hb : st.bottom = false)
    {n : Nat} (hmax : ∀ p, Wanted e d p → depth p < n) : st.min ≤ n := by
  rcases (search_between hT hC hn h).1.more hb with h1 | ⟨p, h1, -, h2⟩
  · omega
  · have := hmax p h1
    have := length_depth h1.ne
    omega

/-- With `-depth`, breadth-first and depth-first search visit the directories that they have gone
into once more, after what is in them. -/
theorem C20_walk_post (hT : Tame e d) (hp : e.post = true) (h : Reach e s) (hd : s.pc = .done) :
    (visits .post s.trace).Nodup ∧ (∀ p, p ∈ visits .post s.trace ↔ Wanted e d p ∧ Into e d p) ∧
      (visits .post s.trace).Pairwise fun later earlier => ¬ earlier <:+ later := by
  refine ⟨C18_once hT.named h .post, fun p => ?_, legal_post_order (inv_reach hT.named h).legal⟩
  rw [C19_exactly hT.named hp h hd]
  constructor
  · intro hq
    obtain ⟨ev, h1, h2, h3, h4⟩ := entered_ev hq
    rw [← h4]
    exact ⟨((C20_walk hT h hd).2 _).1 (visits_iff.2 ⟨ev, h1, h2, rfl⟩), (walk_goes hT h ev h1 h2).1 h3⟩
  · rintro ⟨h1, h2⟩
    obtain ⟨ev, h3, h4, h5⟩ := visits_iff.1 (((C20_walk hT h hd).2 p).2 h1)
    rw [← h5]
    refine entered_of_ev h3 h4 ((walk_goes hT h ev h3 h4).2 ?_)
    rw [h5]
    exact h2

/-- So does exponential deepening. -/
theorem C20_eds_post_partial (hT : Tame e d) (hD : Distinct e d) (h : EdsPost e st) :
    (visits .pre st.calls).Nodup ∧ (∀ p, p ∈ visits .pre st.calls ↔ Wanted e d p ∧ e.error p = false) ∧
      (visits .post st.calls).Nodup ∧ (∀ p, p ∈ visits .post st.calls ↔ Wanted e d p ∧ Into e d p) ∧
      (visits .post st.calls).Pairwise (fun later earlier => ¬ earlier <:+ later) ∧ ∀ call ∈ st.calls, call.path = e.fullPath call.pos := by
  have := eds_end hT hD h
  exact ⟨this.pre_nodup, this.pre_mem, this.post_nodup, this.post_mem, this.order, fun x hx => (this.answers x hx).1⟩

/-- Iterative deepening visits all files that were not pruned once more, deep ones first. -/
theorem C20_ids_post_partial (hT : Tame e d) (hD : Distinct e d) (h : IdsPost e st buf) (hm : st.min = 0) :
    (visits .pre st.calls).Nodup ∧ (∀ p, p ∈ visits .pre st.calls ↔ Wanted e d p ∧ e.error p = false) ∧
      (visits .post st.calls).Nodup ∧ (∀ p, p ∈ visits .post st.calls ↔ Wanted e d p ∧ e.error p = false ∧ ¬ Pruned e d p) ∧
      (visits .post st.calls).Pairwise (fun later earlier => ¬ earlier <:+ later) ∧ (visits .post st.calls).Pairwise (fun later earlier => depth later ≤ depth earlier) ∧
      ∀ call ∈ st.calls, call.path = e.fullPath call.pos := by
  have := ids_between hT hD h
  refine ⟨this.pre_nodup, this.pre_mem, this.post_nodup, fun p => ?_, this.order, this.level, fun x hx => (this.answers x hx).1⟩
  rw [this.post_mem, hm]
  exact ⟨fun hh => ⟨hh.1, hh.2.1, hh.2.2.1⟩, fun hh => ⟨hh.1, hh.2.1, hh.2.2, Nat.zero_le _⟩⟩

/-- With `-depth`, too, exactly those errors are reported, and the files are all visited for the first
time before any is visited again. -/
theorem C20_post_errors_partial (hT : Tame e d) (hD : Distinct e d) (h : EdsPost e st ∨ IdsPost e st buf) :
    (∀ p, p ∈ visits .err st.calls ↔ Wanted e d p ∧ ((Into e d p ∧ e.broken p = true) ∨ e.error p = true)) ∧
      ∃ second first, st.calls = second ++ first ∧ visits .pre second = [] ∧ visits .post first = [] := by
  rcases h with h | h
  · exact ⟨(eds_end hT hD h).err_mem, (eds_end hT hD h).phases⟩
  · exact ⟨(ids_between hT hD h).err_mem, (ids_between hT hD h).phases⟩

/-- What a complete search with one of these strategies has called the callback for. -/
theorem C20_calls_partial (hT : Tame e d) (hD : Distinct e d) (h : Deepened e st) :
    (∀ x ∈ st.calls, x.path = e.fullPath x.pos) ∧ (∀ p, p ∈ visits .pre st.calls ↔ Wanted e d p ∧ e.error p = false) ∧
    (∀ p, p ∈ visits .post st.calls → Wanted e d p) ∧
    (∀ p, p ∈ visits .err st.calls ↔ Wanted e d p ∧ ((Into e d p ∧ e.broken p = true) ∨ e.error p = true)) := by
  have key : ∀ {next : Ids → Ids} {buf : Bytes}, (next = idsNext ∨ next = edsNext) → Search e next st buf → st.bottom = true →
      (∀ x ∈ st.calls, x.path = e.fullPath x.pos) ∧ (∀ p, p ∈ visits .pre st.calls ↔ Wanted e d p ∧ e.error p = false) ∧
      (∀ p, p ∈ visits .post st.calls → Wanted e d p) ∧
      (∀ p, p ∈ visits .err st.calls ↔ Wanted e d p ∧ ((Into e d p ∧ e.broken p = true) ∨ e.error p = true)) := fun {next buf} hn h hb =>
    have hbet := (search_between hT hD.consistent hn h).1
    have h1 := C20_deepening_partial hT hD.consistent hn h hb
    ⟨h1.2.2.2, h1.2.1, fun p hp => (by rw [hbet.post] at hp; cases hp), hbet.errs hb⟩
  cases h with
  | ids _ _ h hb => exact key (Or.inl rfl) h hb
  | eds _ _ h hb => exact key (Or.inr rfl) h hb
  | idsPost _ h hm =>
    have hend := ids_between hT hD h
    exact ⟨fun x hx => (hend.answers x hx).1, hend.pre_mem, fun p hp => ((hend.post_mem p).1 hp).1, hend.err_mem⟩
  | edsPost _ h =>
    have hend := eds_end hT hD h
    exact ⟨fun x hx => (hend.answers x hx).1, hend.pre_mem, fun p hp => ((hend.post_mem p).1 hp).1, hend.err_mem⟩

/-- At any time, and also if the callback stops the search, each file has been visited at most once in
each phase, directories before what is in them in the first one and after it in the second one; only
files that should be visited have been; all calls are told the right paths; the phases have not been
mixed; and errors have been reported only where there are some. -/
theorem C20_anytime_partial (hT : Tame e d) (hD : Distinct e d) (h : Midway e st) :
    ((visits .pre st.calls).Nodup ∧ (∀ p, p ∈ visits .pre st.calls → Wanted e d p ∧ e.error p = false) ∧ (visits .pre st.calls).Pairwise fun later earlier => ¬ later <:+ earlier) ∧
    ((visits .post st.calls).Nodup ∧ (∀ p, p ∈ visits .post st.calls → Wanted e d p ∧ e.error p = false ∧ ¬ Pruned e d p) ∧
      (visits .post st.calls).Pairwise fun later earlier => ¬ earlier <:+ later) ∧
    (∀ x ∈ st.calls, x.path = e.fullPath x.pos) ∧
    (∀ p, p ∈ visits .err st.calls → Wanted e d p ∧ ((Into e d p ∧ e.broken p = true) ∨ e.error p = true)) ∧
    ∃ second first, st.calls = second ++ first ∧ visits .pre second = [] ∧ visits .post first = [] := by
  obtain ⟨hs, -, -⟩ := midway hT hD h
  exact ⟨⟨hs.pre_nodup, hs.pre_mem, hs.pre_order⟩, ⟨hs.post_nodup, hs.post_mem, hs.post_order⟩, hs.path, hs.err_mem, hs.phases⟩

/-- Once the callback has stopped the search, it is not called again. -/
theorem C20_stop_partial (hT : Tame e d) (hD : Distinct e d) (h : Midway e st) {later earlier : List Event} {call : Event} (hc : st.calls = later ++ call :: earlier)
    (hstop : d call.visit call.pos = .stop) : later = [] := by
  obtain ⟨-, h1, h2⟩ := midway hT hD h
  exact h2 later call earlier hc ((h1 call (by rw [hc]; simp)).trans hstop)

/-- So a search is complete only if the callback has never wanted to stop it. -/
theorem C20_unstopped_partial (hT : Tame e d) (hD : Distinct e d) (h : Deepened e st) : ∀ call ∈ st.calls, d call.visit call.pos ≠ .stop := by
  intro call hc
  obtain ⟨tr, h1⟩ := deepened_answers h call hc
  rw [(C20_calls_partial hT hD h).1 call hc, hT.callback] at h1
  rw [← h1]
  exact deepened_nostop hT h call hc

/-- So the directories are the same for all strategies, unless there are mount points that are not
gone into (`-xdev`). -/
theorem C20_post_same_partial (hT : Tame e d) (hD : Distinct e d) (hm : e.pruneMounts = false) (hp : e.post = true) (hr : Reach e s) (hd : s.pc = .done)
    {ids eds : Ids} (hi : IdsPost e ids buf) (hi0 : ids.min = 0) (he : EdsPost e eds) :
    (visits .post s.trace).Perm (visits .post eds.calls) ∧ (visits .post s.trace).Perm ((visits .post ids.calls).filter e.isDir) := by
  have h1 := C20_walk_post hT hp hr hd
  have h2 := C20_eds_post_partial hT hD he
  have h3 := C20_ids_post_partial hT hD hi hi0
  refine ⟨(List.perm_ext_iff_of_nodup h1.1 h2.2.2.1).2 fun p => ?_, (List.perm_ext_iff_of_nodup h1.1 (h3.2.2.1.filter _)).2 fun p => ?_⟩
  · rw [h1.2.1, h2.2.2.2.1]
  · rw [h1.2.1, List.mem_filter, h3.2.2.2.1]
    constructor
    · rintro ⟨h4, h5⟩
      refine ⟨⟨h4, ?_, fun hh => ?_⟩, h5.1⟩
      · cases hh : e.error p with
        | false => rfl
        | true =>
          have := h5.1
          rw [hT.error p hh] at this
          cases this
      · exact hh.2 h5.2.1
    · rintro ⟨⟨h4, h5, h6⟩, h7⟩
      refine ⟨h4, h7, ?_, fun hh => ?_, h4.2⟩
      · cases hh : d .pre p with
        | cont => rfl
        | prune => exact absurd ⟨h7, by rw [hh]; simp⟩ h6
        | stop => exact absurd ⟨h7, by rw [hh]; simp⟩ h6
      · rw [hm] at hh
        cases hh.1

/-! ## Examples -/

/-- Runs the first phase, if it ends after at most `k` passes with `n` steps. -/
def searchAuto (e : Env) (next : Ids → Ids) (n : Nat) : Nat → Ids → Bytes → Option (Ids × Bytes)
  | 0, _, _ => none
  | k + 1, st, buf =>
    if st.bottom = true then some (st, buf)
    else if (passEnd e false { st with bottom := true } buf n).pc = .done then
      searchAuto e next n k (next (passIds e false { st with bottom := true } buf n)) (passEnd e false { st with bottom := true } buf n).path
    else none

theorem searchAuto_ok (e : Env) (next : Ids → Ids) (n : Nat) : ∀ (k : Nat) (st : Ids) (buf : Bytes) (st' : Ids) (buf' : Bytes), Search e next st buf →
    searchAuto e next n k st buf = some (st', buf') → Search e next st' buf' ∧ st'.bottom = true
  | 0, _, _, _, _, _, h => by cases h
  | k + 1, st, buf, st', buf', hs, h => by
    unfold searchAuto at h
    split at h
    · rename_i hb
      cases h
      exact ⟨hs, hb⟩
    · rename_i hb
      split at h
      · rename_i hd
        refine searchAuto_ok e next n k _ _ st' buf' (.pass hs ?_ (pass_run n hd)) h
        cases hh : st.bottom with
        | true => exact absurd hh hb
        | false => rfl
      · cases h

/-- Runs the second phase of iterative deepening. -/
def idsAuto (e : Env) (n : Nat) : Nat → Ids → Bytes → Option (Ids × Bytes)
  | 0, _, _ => none
  | k + 1, st, buf =>
    if st.min = 0 then some (st, buf)
    else if (passEnd e false { st with max := st.max - 1, min := st.min - 1 } buf n).pc = .done then
      idsAuto e n k (passIds e false { st with max := st.max - 1, min := st.min - 1 } buf n) (passEnd e false { st with max := st.max - 1, min := st.min - 1 } buf n).path
    else none

theorem idsAuto_ok (e : Env) (n : Nat) : ∀ (k : Nat) (st : Ids) (buf : Bytes) (st' : Ids) (buf' : Bytes), IdsPost e st buf →
    idsAuto e n k st buf = some (st', buf') → IdsPost e st' buf' ∧ st'.min = 0
  | 0, _, _, _, _, _, h => by cases h
  | k + 1, st, buf, st', buf', hs, h => by
    unfold idsAuto at h
    split at h
    · rename_i hb
      cases h
      exact ⟨hs, hb⟩
    · rename_i hb
      split at h
      · rename_i hd
        exact idsAuto_ok e n k _ _ st' buf' (.pass hs (by omega) (pass_run n hd)) h
      · cases h

/-- What the callback is called for, in the order in which it is. -/
def told (st : Ids) : List (Visit × Pos) := st.calls.reverse.map fun ev => (ev.visit, ev.pos)

/-- The first phase, for examples. -/
def firstPhase (e : Env) (next : Ids → Ids) : Option (Ids × Bytes) := searchAuto e next 100 10 Ids.init []

theorem first_ok {e : Env} {next : Ids → Ids} {α : Type} {f : Ids → α} {calls : α} (h : (firstPhase e next).map (fun x => f x.1) = some calls) :
    ∃ st buf, Search e next st buf ∧ st.bottom = true ∧ f st = calls := by
  cases hh : firstPhase e next with
  | none =>
    rw [hh] at h
    cases h
  | some x =>
    obtain ⟨st, buf⟩ := x
    have := searchAuto_ok e next 100 10 Ids.init [] st buf .init hh
    rw [hh] at h
    cases h
    exact ⟨st, buf, this.1, this.2, rfl⟩

/-- Iterative deepening with `-depth`, for examples. -/
def idsWhole (e : Env) : Option (Ids × Bytes) := (firstPhase e idsNext).bind fun x => idsAuto e 100 10 { x.1 with visit := .post, force := true } x.2

theorem ids_ok {e : Env} {α : Type} {f : Ids → α} {calls : α} (hp : e.post = true) (h : (idsWhole e).map (fun x => f x.1) = some calls) :
    ∃ st buf, IdsPost e st buf ∧ st.min = 0 ∧ f st = calls := by
  unfold idsWhole at h
  cases hh : firstPhase e idsNext with
  | none =>
    rw [hh] at h
    cases h
  | some x =>
    obtain ⟨st, buf⟩ := x
    have h1 := searchAuto_ok e idsNext 100 10 Ids.init [] st buf .init hh
    rw [hh, Option.bind_some] at h
    cases h2 : idsAuto e 100 10 { st with visit := .post, force := true } buf with
    | none =>
      rw [h2] at h
      cases h
    | some y =>
      obtain ⟨st', buf'⟩ := y
      have h3 := idsAuto_ok e 100 10 _ _ st' buf' (.init h1.1 h1.2 hp) h2
      rw [h2] at h
      cases h
      exact ⟨st', buf', h3.1, h3.2, rfl⟩

/-- Exponential deepening with `-depth`, for examples. -/
def edsWhole (e : Env) : Option Ids := (firstPhase e edsNext).bind fun x =>
  if (passEnd e true { x.1 with visit := .post, min := 0 } x.2 100).pc = .done then some (passIds e true { x.1 with visit := .post, min := 0 } x.2 100) else none

theorem eds_ok {e : Env} {α : Type} {f : Ids → α} {calls : α} (hp : e.post = true) (h : (edsWhole e).map f = some calls) :
    ∃ st, EdsPost e st ∧ f st = calls := by
  unfold edsWhole at h
  cases hh : firstPhase e edsNext with
  | none =>
    rw [hh] at h
    cases h
  | some x =>
    obtain ⟨st, buf⟩ := x
    have h1 := searchAuto_ok e edsNext 100 10 Ids.init [] st buf .init hh
    rw [hh, Option.bind_some] at h
    split at h
    · rename_i hd
      cases h
      exact ⟨_, .pass h1.1 h1.2 hp (pass_run 100 hd), rfl⟩
    · cases h

/-- Runs the first `k` passes of the first phase. -/
def passesAuto (e : Env) (next : Ids → Ids) (n : Nat) : Nat → Option (Ids × Bytes)
  | 0 => some (Ids.init, [])
  | k + 1 => (passesAuto e next n k).bind fun x =>
    if x.1.bottom = false ∧ (passEnd e false { x.1 with bottom := true } x.2 n).pc = .done then
      some (next (passIds e false { x.1 with bottom := true } x.2 n), (passEnd e false { x.1 with bottom := true } x.2 n).path)
    else none

theorem passesAuto_ok (e : Env) (next : Ids → Ids) (n : Nat) : ∀ (k : Nat) (st : Ids) (buf : Bytes), passesAuto e next n k = some (st, buf) → Search e next st buf
  | 0, _, _, h => by cases h; exact .init
  | k + 1, st, buf, h => by
    unfold passesAuto at h
    cases hx : passesAuto e next n k with
    | none => rw [hx] at h; cases h
    | some x =>
      rw [hx, Option.bind_some] at h
      split at h
      · rename_i hh
        cases h
        exact .pass (passesAuto_ok e next n k x.1 x.2 hx) hh.1 (pass_run n hh.2)
      · cases h

/-- The state during the pass after these, after at most `m` steps. -/
def midAuto (e : Env) (next : Ids → Ids) (k m : Nat) : Option Ids := (passesAuto e next 100 k).bind fun x =>
  if x.1.bottom = false then some (passIds e false { x.1 with bottom := true } x.2 m) else none

theorem mid_ok {e : Env} {next : Ids → Ids} (hn : (e.strategy = .ids ∧ next = idsNext) ∨ (e.strategy = .eds ∧ next = edsNext)) {k m : Nat} {α : Type} {f : Ids → α} {calls : α}
    (h : (midAuto e next k m).map f = some calls) : ∃ st, Midway e st ∧ f st = calls := by
  unfold midAuto at h
  cases hx : passesAuto e next 100 k with
  | none => rw [hx] at h; cases h
  | some x =>
    rw [hx, Option.bind_some] at h
    have hs := passesAuto_ok e next 100 k x.1 x.2 hx
    split at h
    · rename_i hb
      cases h
      rcases hn with ⟨h1, rfl⟩ | ⟨h1, rfl⟩
      · exact ⟨_, .ids h1 hs hb (walk_reach _ m), rfl⟩
      · exact ⟨_, .eds h1 hs hb (walk_reach _ m), rfl⟩
    · cases h

/-- The same hierarchy, where the callback stops the search at `a/y`; `a/y/z` is not visited. -/
def stopEnv : Env := { walkEnv with callback := fun _ _ p _ => if p = [0, 0] then .stop else .cont, strategy := .ids }

example : ∃ st, Midway stopEnv st ∧ told st = [(.pre, [0]), (.pre, [1, 0]), (.pre, [0, 0])] :=
  mid_ok (next := idsNext) (k := 1) (m := 100) (Or.inl ⟨rfl, rfl⟩) (by decide +kernel)

/-- The search is not complete then, however long one waits. -/
example : (passesAuto stopEnv idsNext 100 2) = none := by decide +kernel

/-- The hierarchy `a`, `a/y`, `a/y/z`, `a/x` with iterative deepening, which is never cut short. -/
example : ∃ st buf, Search walkEnv idsNext st buf ∧ st.bottom = true ∧ told st = [(.pre, [0]), (.pre, [1, 0]), (.pre, [0, 0]), (.pre, [0, 0, 0])] :=
  first_ok (by decide +kernel)

example : ∃ st buf, Search walkEnv edsNext st buf ∧ st.bottom = true ∧ told st = [(.pre, [0]), (.pre, [1, 0]), (.pre, [0, 0]), (.pre, [0, 0, 0])] :=
  first_ok (by decide +kernel)

example : ∃ st buf, IdsPost walkEnv st buf ∧ st.min = 0 ∧ told st = [(.pre, [0]), (.pre, [1, 0]), (.pre, [0, 0]), (.pre, [0, 0, 0]),
    (.post, [0, 0, 0]), (.post, [1, 0]), (.post, [0, 0]), (.post, [0])] := ids_ok rfl (by decide +kernel)

example : ∃ st, EdsPost walkEnv st ∧ told st = [(.pre, [0]), (.pre, [1, 0]), (.pre, [0, 0]), (.pre, [0, 0, 0]), (.post, [0, 0]), (.post, [0])] :=
  eds_ok rfl (by decide +kernel)

/-- These meet the hypotheses of the theorems. -/
theorem walkEnv_tame : Tame walkEnv fun _ _ => .cont :=
  ⟨fun _ _ _ => rfl, fun _ h => (by cases h), walkEnv_named⟩

theorem walkEnv_distinct : Distinct walkEnv fun _ _ => .cont := by
  have key : ∀ p, Wanted walkEnv (fun _ _ => .cont) p → p = [0] ∨ p = [0, 0] ∨ p = [1, 0] ∨ p = [0, 0, 0] := by
    rintro p ⟨h, -⟩
    induction h with
    | root i hi =>
      have : i < 1 := hi
      left
      simp
      omega
    | entry p j _ hin hj ih =>
      rcases ih with rfl | rfl | rfl | rfl
      · have : j < 2 := hj
        have : j = 0 ∨ j = 1 := by omega
        rcases this with rfl | rfl <;> simp
      · have : j < 1 := hj
        have : j = 0 := by omega
        subst this
        simp
      · exact absurd hin.1 (by decide)
      · exact absurd hin.1 (by decide)
  intro p q hp hq
  rcases key p hp with rfl | rfl | rfl | rfl <;> rcases key q hq with rfl | rfl | rfl | rfl <;> decide

/-- So does the search that is stopped. -/
example : Tame stopEnv (fun _ p => if p = [0, 0] then .stop else .cont) ∧ Distinct stopEnv (fun _ p => if p = [0, 0] then .stop else .cont) := by
  refine ⟨⟨fun _ _ _ => rfl, fun _ h => (by cases h), walkEnv_named⟩, fun p q hp hq hpath => ?_⟩
  have lift : ∀ p, Found stopEnv (Into stopEnv fun _ p => if p = [0, 0] then .stop else .cont) p → Found walkEnv (Into walkEnv fun _ _ => .cont) p := by
    intro p h
    induction h with
    | root i h => exact Found.root i h
    | entry p j hp hi hj ih => exact Found.entry p j ih ⟨hi.1, rfl, hi.2.2.1, hi.2.2.2⟩ hj
  have path : ∀ p, stopEnv.fullPath p = walkEnv.fullPath p := by
    intro p
    induction p with
    | nil => rfl
    | cons j p ih =>
      cases p with
      | nil => rfl
      | cons i p => show join _ _ = join _ _; rw [ih]; rfl
  rw [path, path] at hpath
  exact walkEnv_distinct p q ⟨lift p hp.1, hp.2⟩ ⟨lift q hq.1, hq.2⟩ hpath

/-! ## Where the strategies differ -/

/-- The root `a` with `a/b/c/x/q/r` below it, and the root `a/b/c/x`, with `-maxdepth 3`, sorted. -/
def twiceEnv : Env :=
  { walkEnv with
    roots := 2
    name := fun p => match p with
      | [0] => [97]
      | [1] => [97, 47, 98, 47, 99, 47, 120]
      | [0, 0] => [98]
      | [0, 0, 0] => [99]
      | [0, 0, 0, 0] => [120]
      | [0, 1] => [113]
      | [0, 0, 1] => [114]
      | _ => [122]
    entries := fun p => if p.length < 4 then (if p = [0, 0, 1] then 0 else 1) else 0
    isDir := fun p => !(p = [0, 0, 1])
    callback := fun _ _ p _ => if depth p < 3 then .cont else .prune
    post := false
    strategy := .dfs }

/-- The callback only looks at the depth, but because `a/b/c/x` is pruned below the first root, what
is in it is not found below the second one, in exponential deepening; other strategies find it. -/
theorem C20_prune_counterexample :
    (∃ s, Reach twiceEnv s ∧ s.pc = .done ∧ [0, 0, 1] ∈ visits .pre s.trace) ∧
      ∃ st buf, Search twiceEnv edsNext st buf ∧ st.bottom = true ∧ [0, 0, 1] ∉ visits .pre st.calls := by
  refine ⟨⟨walk twiceEnv 100, walk_reach _ _, by decide +kernel, by decide +kernel⟩, ?_⟩
  obtain ⟨st, buf, h1, h2, h3⟩ := first_ok (e := twiceEnv) (next := edsNext) (f := told)
    (calls := [(.pre, [0]), (.pre, [1]), (.pre, [0, 0]), (.pre, [0, 1]), (.pre, [0, 0, 0]), (.pre, [0, 0, 0, 0])]) (by decide +kernel)
  refine ⟨st, buf, h1, h2, fun hh => ?_⟩
  obtain ⟨ev, h4, h5, h6⟩ := visits_iff.1 hh
  have : (ev.visit, ev.pos) ∈ told st := List.mem_map.2 ⟨ev, List.mem_reverse.2 h4, rfl⟩
  rw [h3, h5, h6] at this
  revert this
  decide

/-- `a/y` is a mount point, with `-xdev` and `-depth`. -/
def mountEnv : Env := { walkEnv with mount := fun p => p = [0, 0], pruneMounts := true }

/-- With `-depth`, breadth-first search does not visit it after what is in it (so that it is never
printed), but iterative deepening does. -/
theorem C20_mount_counterexample :
    (∃ s, Reach mountEnv s ∧ s.pc = .done ∧ s.trace.reverse.map (fun ev => (ev.visit, ev.pos)) = [(.pre, [0]), (.pre, [1, 0]), (.pre, [0, 0]), (.post, [0])]) ∧
      ∃ st buf, IdsPost mountEnv st buf ∧ st.min = 0 ∧
        told st = [(.pre, [0]), (.pre, [1, 0]), (.pre, [0, 0]), (.post, [1, 0]), (.post, [0, 0]), (.post, [0])] :=
  ⟨⟨walk mountEnv 100, walk_reach _ _, by decide +kernel, by decide +kernel⟩, ids_ok rfl (by decide +kernel)⟩

/-- The type of `a/x` cannot be found out. -/
def statEnv : Env := { walkEnv with error := fun p => p = [1, 0] }

/-- Iterative deepening reports that twice. -/
theorem C20_stat_error_counterexample : ∃ st buf, Search statEnv idsNext st buf ∧ st.bottom = true ∧
    told st = [(.pre, [0]), (.err, [1, 0]), (.pre, [0, 0]), (.err, [1, 0]), (.pre, [0, 0, 0])] := first_ok (by decide +kernel)

/-- The directory `a/y` cannot be read. -/
def readEnv : Env := { walkEnv with broken := fun p => p = [0, 0] }

/-- With `-depth`, both kinds of deepening report that twice. -/
theorem C20_read_error_counterexample :
    (∃ st buf, IdsPost readEnv st buf ∧ st.min = 0 ∧ told st = [(.pre, [0]), (.pre, [1, 0]), (.pre, [0, 0]), (.err, [0, 0]), (.pre, [0, 0, 0]),
      (.err, [0, 0]), (.post, [0, 0, 0]), (.post, [1, 0]), (.post, [0, 0]), (.post, [0])]) ∧
    ∃ st, EdsPost readEnv st ∧ told st = [(.pre, [0]), (.pre, [1, 0]), (.pre, [0, 0]), (.err, [0, 0]), (.pre, [0, 0, 0]), (.err, [0, 0]), (.post, [0, 0]), (.post, [0])] :=
  ⟨ids_ok rfl (by decide +kernel), eds_ok rfl (by decide +kernel)⟩

end Verif.Props
