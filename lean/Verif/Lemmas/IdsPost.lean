import Verif.Lemmas.IdsSearch
/-! # The second phase: directories after what is in them -/
namespace Verif.Bftw
open Verif.Props

variable {lo hi : Nat} {e : Env} {d : Visit → Pos → Action} {st st' : Ids} {buf buf' : Bytes} {junk : Nat → Nat → UInt8} {tr : List Event}

theorem Distinct.consistent (h : Distinct e d) : Consistent e d := fun p q h1 h2 h3 _ h5 => h p q h1 h2 h3 ▸ h5

instance (p : Pos) : Decidable (Pruned e d p) := by unfold Pruned; infer_instance

/-- Which paths are known to be pruned, for some files. -/
def Knows (e : Env) (d : Visit → Pos → Action) (x : Ids) (P : Pos → Prop) : Prop :=
  ∀ p, Wanted e d p → P p → (e.fullPath p ∈ x.pruned ↔ Pruned e d p)

/-! ## Iterative deepening -/

/-- The call that the delegate gets for an event in the second phase of iterative deepening. -/
def idsCall (e : Env) (d : Visit → Pos → Action) (min : Nat) (ev : Event) : Option Event :=
  if ev.visit = .err ∨ e.error ev.pos = true then (if depth ev.pos + 1 ≥ min then some ⟨.err, ev.pos, ev.path, d .err ev.pos⟩ else none)
  else if depth ev.pos < min then none
  else if Pruned e d ev.pos then none
  else some ⟨.post, ev.pos, ev.path, d .post ev.pos⟩

/-- What a pass of the second phase of iterative deepening does to the state. -/
structure IdsSt (e : Env) (d : Visit → Pos → Action) (lo : Nat) (st : Ids) (tr : List Event) (x : Ids) : Prop where
  visit : x.visit = .post
  force : x.force = true
  min : x.min = lo
  max : x.max = lo + 1
  knows : Knows e d x fun p => p.length ≤ lo ∨ (p.length = lo + 1 ∧ p ∉ visits .pre tr)
  nopost : ∀ ev ∈ tr, ev.visit ≠ .post
  calls : x.calls = tr.filterMap (idsCall e d lo) ++ st.calls

theorem call_post (hT : Calm e d) {x : Ids} (hv : x.visit = .post) (hf : x.force = true ∨ v = .post) {p : Pos} {path : Bytes} (hpath : path = e.fullPath p) (hve : v ≠ .err) (he : e.error p = false)
    (hm : ¬ depth p < x.min) (hp : path ∉ x.pruned) :
    Ids.call e x v p path = Ids.decide_ e p path ({ x with calls := ⟨.post, p, path, d .post p⟩ :: x.calls }, d .post p) := by
  unfold Ids.call Ids.ask
  rw [if_neg (by simp [he, hve]), if_neg hm, if_neg (by simp [hv, List.contains_iff_mem, hp]), if_pos (by rcases hf with hf | hf <;> simp [hf, hv]), delegate_eq hT _ _ hpath]
  simp only [hv]

theorem call_pruned {x : Ids} {v : Visit} (hv : x.visit = .post) {p : Pos} {path : Bytes} (hve : v ≠ .err) (he : e.error p = false) (hp : path ∈ x.pruned) :
    Ids.call e x v p path = (x, .prune) := by
  unfold Ids.call
  have hc : x.pruned.contains path = true := List.contains_iff_mem.2 hp
  rw [if_neg (by simp [he, hve]), hc]
  by_cases hm : depth p < x.min
  · rw [if_pos hm]; rfl
  · rw [if_neg hm, if_pos (by simp [hv])]

theorem idsSt_step (hT : Calm e d) (hD : Distinct e d) {ev : Event} {x : Ids} (h : IdsSt e d lo st tr x)
    (hok : EvOk (Ids.env e st buf junk false) tr ev) (hw : Wanted e d ev.pos) (hlen : ev.pos.length ≤ lo + 1) (hpath : ev.path = e.fullPath ev.pos) :
    IdsSt e d lo st (ev :: tr) (Ids.call e x ev.visit ev.pos ev.path).1 ∧
      (ev.visit = .pre → (Ids.call e x ev.visit ev.pos ev.path).2 ≠ .stop ∧
        (e.isDir ev.pos = true → ((Ids.call e x ev.visit ev.pos ev.path).2 = .cont ↔ d .pre ev.pos = .cont ∧ ev.pos.length < lo + 1))) := by
  have hnp : ev.visit ≠ .post := fun hv => by
    have : false = true := hok.post hv
    cases this
  have hnopost : ∀ y ∈ ev :: tr, y.visit ≠ .post := by
    intro y hy
    rcases List.mem_cons.1 hy with rfl | hy
    · exact hnp
    · exact h.nopost y hy
  have hne := hw.ne
  have hld := length_depth hne
  have hknows : Knows e d x fun p => p.length ≤ lo ∨ (p.length = lo + 1 ∧ p ∉ visits .pre (ev :: tr)) := by
    intro p h1 h2
    refine h.knows p h1 (h2.imp id fun h3 => ⟨h3.1, fun h4 => h3.2 ?_⟩)
    rw [visits_cons]
    split
    · exact List.mem_cons_of_mem _ h4
    · exact h4
  by_cases herr : ev.visit = .err ∨ e.error ev.pos = true
  · rw [call_err hT hpath herr]
    have hndir : ev.visit = .pre → e.isDir ev.pos = false := fun hv => hT.error _ (herr.resolve_left (by rw [hv]; simp))
    have hcall : idsCall e d lo ev = if depth ev.pos + 1 ≥ lo then some ⟨.err, ev.pos, ev.path, d .err ev.pos⟩ else none := if_pos herr
    by_cases hmin : depth ev.pos + 1 ≥ lo
    · rw [if_pos (show depth ev.pos + 1 ≥ x.min by rw [h.min]; exact hmin)]
      refine ⟨{ h with knows := hknows, nopost := hnopost, calls := ?_ }, fun hv => ⟨hT.nostop _ _ hw, fun hd => ?_⟩⟩
      · rw [List.filterMap_cons, hcall, if_pos hmin]
        dsimp only
        rw [h.calls]
        rfl
      · rw [hndir hv] at hd
        cases hd
    · rw [if_neg (show ¬ depth ev.pos + 1 ≥ x.min by rw [h.min]; exact hmin)]
      refine ⟨{ h with knows := hknows, nopost := hnopost, calls := ?_ }, fun hv => ⟨by simp, fun hd => ?_⟩⟩
      · rw [List.filterMap_cons, hcall, if_neg hmin]
        exact h.calls
      · rw [hndir hv] at hd
        cases hd
  · have he : e.error ev.pos = false := by
      cases hh : e.error ev.pos with
      | true => exact absurd (Or.inr hh) herr
      | false => rfl
    have hv : ev.visit = .pre := by
      cases hh : ev.visit with
      | pre => rfl
      | err => exact absurd (Or.inl hh) herr
      | post => exact absurd hh hnp
    have hfresh : ev.pos ∉ visits .pre tr := hv ▸ hok.fresh
    have hk : ev.path ∈ x.pruned ↔ Pruned e d ev.pos := by
      rw [hpath]
      refine h.knows ev.pos hw ?_
      by_cases hll : ev.pos.length ≤ lo
      · exact Or.inl hll
      · exact Or.inr ⟨by omega, hfresh⟩
    by_cases hm : depth ev.pos < lo
    · rw [call_shallow (by rw [hv]; simp) he (by rw [h.min]; exact hm)]
      have hcall : idsCall e d lo ev = none := by
        unfold idsCall
        rw [if_neg herr, if_pos hm]
      refine ⟨{ h with knows := hknows, nopost := hnopost, calls := ?_ }, fun _ => ⟨?_, fun hd => ?_⟩⟩
      · rw [List.filterMap_cons, hcall]
        exact h.calls
      · dsimp only
        split <;> simp
      · have hp : x.pruned.contains ev.path = true ↔ Pruned e d ev.pos := List.contains_iff_mem.trans hk
        dsimp only
        cases hdd : d .pre ev.pos with
        | cont =>
          rw [if_neg (fun hh => (hp.1 hh).2 hdd)]
          exact ⟨fun _ => ⟨rfl, by omega⟩, fun _ => rfl⟩
        | prune =>
          rw [if_pos (hp.2 ⟨hd, by rw [hdd]; simp⟩)]
          exact ⟨fun hh => (by cases hh), fun hh => (by cases hh.1)⟩
        | stop => exact absurd hdd (hT.nostop _ _ hw)
    · by_cases hpr : Pruned e d ev.pos
      · rw [call_pruned h.visit (by rw [hv]; simp) he (hk.2 hpr)]
        have hcall : idsCall e d lo ev = none := by
          unfold idsCall
          rw [if_neg herr, if_neg hm, if_pos hpr]
        refine ⟨{ h with knows := hknows, nopost := hnopost, calls := ?_ }, fun _ => ⟨by simp, fun _ => ?_⟩⟩
        · rw [List.filterMap_cons, hcall]
          exact h.calls
        · exact ⟨fun hh => (by cases hh), fun hh => absurd hh.1 hpr.2⟩
      · have hcall : idsCall e d lo ev = some ⟨.post, ev.pos, ev.path, d .post ev.pos⟩ := by
          unfold idsCall
          rw [if_neg herr, if_neg hm, if_neg hpr]
        have hcalls : ⟨.post, ev.pos, ev.path, d .post ev.pos⟩ :: x.calls = (ev :: tr).filterMap (idsCall e d lo) ++ st.calls := by
          rw [List.filterMap_cons, hcall, h.calls]
          rfl
        rw [call_post hT h.visit (Or.inl h.force) hpath (by rw [hv]; simp) he (by rw [h.min]; exact hm) (fun hh => hpr (hk.1 hh))]
        have hlong : ¬ ev.pos.length < lo + 1 := by omega
        cases hdd : d .post ev.pos with
        | stop => exact absurd hdd (hT.nostop _ _ hw)
        | cont =>
          rw [hdd] at hcalls
          unfold Ids.decide_
          dsimp only
          by_cases hcut : (e.isDir ev.pos && decide (depth ev.pos + 1 ≥ x.max)) = true
          · rw [if_pos hcut]
            exact ⟨{ h with knows := hknows, nopost := hnopost, calls := hcalls }, fun _ => ⟨by simp, fun _ => ⟨fun hh => (by cases hh), fun hh => absurd hh.2 hlong⟩⟩⟩
          · rw [if_neg hcut]
            refine ⟨{ h with knows := hknows, nopost := hnopost, calls := hcalls }, fun _ => ⟨by simp, fun hd => ?_⟩⟩
            refine absurd ?_ hcut
            rw [hd, h.max]
            simp
            omega
        | prune =>
          rw [hdd] at hcalls
          unfold Ids.decide_
          dsimp only
          by_cases hd : e.isDir ev.pos = true
          · rw [if_pos hd]
            refine ⟨{ h with knows := ?_, nopost := hnopost, calls := hcalls }, fun _ => ⟨by simp, fun _ => ⟨fun hh => (by cases hh), fun hh => absurd hh.2 hlong⟩⟩⟩
            intro p h1 h2
            rw [← hknows p h1 h2]
            constructor
            · intro hh
              rcases List.mem_cons.1 hh with hh | hh
              · have := hD p ev.pos h1 hw (hh.trans hpath)
                rw [this] at h2
                rcases h2 with h2 | h2
                · omega
                · refine absurd ?_ h2.2
                  rw [visits_cons, if_pos hv]
                  exact List.mem_cons_self
              · exact hh
            · exact fun hh => List.mem_cons_of_mem _ hh
          · rw [if_neg hd]
            exact ⟨{ h with knows := hknows, nopost := hnopost, calls := hcalls }, fun _ => ⟨by simp, fun hh => absurd hh hd⟩⟩

/-- A pass of the second phase of iterative deepening. -/
theorem ids_legal (hT : Calm e d) (hD : Distinct e d) (hv : st.visit = .post) (hf : st.force = true) (hmin : st.min = lo) (hmax : st.max = lo + 1)
    (hk : Knows e d st fun p => p.length ≤ lo + 1) (hl : Legal (Ids.env e st buf junk false) tr) :
    Goes e d (lo + 1) tr ∧ IdsSt e d lo st tr (Ids.after e st tr) :=
  goes_generic hT (IdsSt e d lo st) (lo + 1) (by omega) ⟨hv, hf, hmin, hmax, fun p h h2 => hk p h (by omega), fun _ h => (by cases h), rfl⟩
    (fun tr ev x _ hJ hok hw hl _ hp => idsSt_step hT hD hJ hok hw hl hp) tr hl

theorem ids_pass (hT : Calm e d) (hD : Distinct e d) (hv : st.visit = .post) (hf : st.force = true) (hmin : st.min = lo) (hmax : st.max = lo + 1)
    (hk : Knows e d st fun p => p.length ≤ lo + 1) {s : State} (hr : Reach (Ids.env e st buf junk false) s) :
    Goes e d (lo + 1) s.trace ∧ IdsSt e d lo st s.trace (Ids.after e st s.trace) :=
  ids_legal hT hD hv hf hmin hmax hk (inv_reach (e := Ids.env e st buf junk false) hT.named hr).legal

/-! ## Exponential deepening -/

/-- The call that the delegate gets for an event in the second phase of exponential deepening. -/
def edsCall (e : Env) (d : Visit → Pos → Action) (ev : Event) : Option Event :=
  if ev.visit = .err ∨ e.error ev.pos = true then some ⟨.err, ev.pos, ev.path, d .err ev.pos⟩
  else if ev.visit = .pre then none
  else some ⟨.post, ev.pos, ev.path, d .post ev.pos⟩

structure EdsSt (e : Env) (d : Visit → Pos → Action) (hi : Nat) (st : Ids) (tr : List Event) (x : Ids) : Prop where
  visit : x.visit = .post
  force : x.force = false
  min : x.min = 0
  max : x.max = hi
  knows : Knows e d x fun p => p ∉ visits .post tr
  calls : x.calls = tr.filterMap (edsCall e d) ++ st.calls

theorem call_skip {x : Ids} (hv : x.visit = .post) (hf : x.force = false) {p : Pos} {path : Bytes} (he : e.error p = false)
    (hm : ¬ depth p < x.min) (hp : path ∉ x.pruned) (hmax : ¬ depth p + 1 ≥ x.max) : Ids.call e x .pre p path = (x, .cont) := by
  unfold Ids.call Ids.ask
  rw [if_neg (by simp [he]), if_neg hm, if_neg (by simp [hv, List.contains_iff_mem, hp]), if_neg (by simp [hv, hf])]
  unfold Ids.decide_
  dsimp only
  rw [if_neg (by simp only [Bool.and_eq_true, decide_eq_true_eq, not_and]; exact fun _ => hmax)]

theorem edsSt_step (hT : Calm e d) (hD : Distinct e d) (hbot : ∀ p, Wanted e d p → p.length < hi) {ev : Event} {x : Ids} (h : EdsSt e d hi st tr x)
    (htr : Legal (Ids.env e st buf junk true) tr)
    (hok : EvOk (Ids.env e st buf junk true) tr ev) (hw : Wanted e d ev.pos) (hin : ev.visit ≠ .pre → Into e d ev.pos ∧ ev.pos.length < hi)
    (hpath : ev.path = e.fullPath ev.pos) :
    EdsSt e d hi st (ev :: tr) (Ids.call e x ev.visit ev.pos ev.path).1 ∧
      (ev.visit = .pre → (Ids.call e x ev.visit ev.pos ev.path).2 ≠ .stop ∧
        (e.isDir ev.pos = true → ((Ids.call e x ev.visit ev.pos ev.path).2 = .cont ↔ d .pre ev.pos = .cont ∧ ev.pos.length < hi))) := by
  have hne := hw.ne
  have hld := length_depth hne
  have hlen := hbot _ hw
  have hknows : Knows e d x fun p => p ∉ visits .post (ev :: tr) := by
    intro p h1 h2
    refine h.knows p h1 fun h4 => h2 ?_
    rw [visits_cons]
    split
    · exact List.mem_cons_of_mem _ h4
    · exact h4
  by_cases herr : ev.visit = .err ∨ e.error ev.pos = true
  · rw [call_err hT hpath herr, if_pos (show depth ev.pos + 1 ≥ x.min by rw [h.min]; omega)]
    have hndir : ev.visit = .pre → e.isDir ev.pos = false := fun hv => hT.error _ (herr.resolve_left (by rw [hv]; simp))
    have hcall : edsCall e d ev = some ⟨.err, ev.pos, ev.path, d .err ev.pos⟩ := if_pos herr
    refine ⟨{ h with knows := hknows, calls := ?_ }, fun hv => ⟨hT.nostop _ _ hw, fun hd => ?_⟩⟩
    · rw [List.filterMap_cons, hcall]
      dsimp only
      rw [h.calls]
      rfl
    · rw [hndir hv] at hd
      cases hd
  · have he : e.error ev.pos = false := by
      cases hh : e.error ev.pos with
      | true => exact absurd (Or.inr hh) herr
      | false => rfl
    have hve : ev.visit ≠ .err := fun hh => herr (Or.inl hh)
    have hm : ¬ depth ev.pos < x.min := by rw [h.min]; omega
    by_cases hv : ev.visit = .pre
    · have hcall : edsCall e d ev = none := by
        unfold edsCall
        rw [if_neg herr, if_pos hv]
      have hcalls : x.calls = (ev :: tr).filterMap (edsCall e d) ++ st.calls := by
        rw [List.filterMap_cons, hcall]
        exact h.calls
      have hfresh : ev.pos ∉ visits .post tr := by
        intro hh
        exact (hv ▸ hok.fresh) (entered_sub _ _ (htr.post_entered .post (by simp) _ hh))
      have hk : ev.path ∈ x.pruned ↔ Pruned e d ev.pos := by
        rw [hpath]
        exact h.knows ev.pos hw hfresh
      by_cases hpr : Pruned e d ev.pos
      · rw [call_pruned h.visit hve he (hk.2 hpr)]
        exact ⟨{ h with knows := hknows, calls := hcalls }, fun _ => ⟨by simp, fun _ => ⟨fun hh => (by cases hh), fun hh => absurd hh.1 hpr.2⟩⟩⟩
      · rw [hv, call_skip h.visit h.force he hm (fun hh => hpr (hk.1 hh)) (by rw [h.max]; omega)]
        refine ⟨{ h with knows := hknows, calls := hcalls }, fun _ => ⟨by simp, fun hd => ⟨fun _ => ⟨?_, hlen⟩, fun _ => rfl⟩⟩⟩
        cases hdd : d .pre ev.pos with
        | cont => rfl
        | prune => exact absurd ⟨hd, by rw [hdd]; simp⟩ hpr
        | stop => exact absurd hdd (hT.nostop _ _ hw)
    · have hvp : ev.visit = .post := by
        cases hh : ev.visit with
        | pre => exact absurd hh hv
        | err => exact absurd hh hve
        | post => rfl
      have hfresh : ev.pos ∉ visits .post tr := hvp ▸ hok.fresh
      have hk : ev.path ∈ x.pruned ↔ Pruned e d ev.pos := by
        rw [hpath]
        exact h.knows ev.pos hw hfresh
      have hpr : ¬ Pruned e d ev.pos := fun hh => hh.2 (hin hv).1.2.1
      have hcall : edsCall e d ev = some ⟨.post, ev.pos, ev.path, d .post ev.pos⟩ := by
        unfold edsCall
        rw [if_neg herr, if_neg hv]
      have hcalls : ⟨.post, ev.pos, ev.path, d .post ev.pos⟩ :: x.calls = (ev :: tr).filterMap (edsCall e d) ++ st.calls := by
        rw [List.filterMap_cons, hcall, h.calls]
        rfl
      rw [call_post hT h.visit (Or.inr hvp) hpath hve he hm (fun hh => hpr (hk.1 hh))]
      refine ⟨?_, fun hh => absurd hh hv⟩
      cases hdd : d .post ev.pos with
      | stop => exact absurd hdd (hT.nostop _ _ hw)
      | cont =>
        rw [hdd] at hcalls
        unfold Ids.decide_
        dsimp only
        split
        · exact { h with knows := hknows, calls := hcalls }
        · exact { h with knows := hknows, calls := hcalls }
      | prune =>
        rw [hdd] at hcalls
        unfold Ids.decide_
        dsimp only
        split
        · refine { h with knows := ?_, calls := hcalls }
          intro p h1 h2
          rw [← hknows p h1 h2]
          constructor
          · intro hh
            rcases List.mem_cons.1 hh with hh | hh
            · have := hD p ev.pos h1 hw (hh.trans hpath)
              rw [this] at h2
              refine absurd ?_ h2
              rw [visits_cons, if_pos hvp]
              exact List.mem_cons_self
            · exact hh
          · exact fun hh => List.mem_cons_of_mem _ hh
        · exact { h with knows := hknows, calls := hcalls }

/-- The last pass of exponential deepening. -/
theorem eds_legal (hT : Calm e d) (hD : Distinct e d) (hhi : 0 < hi) (hbot : ∀ p, Wanted e d p → p.length < hi) (hv : st.visit = .post) (hf : st.force = false) (hmin : st.min = 0) (hmax : st.max = hi)
    (hk : Knows e d st fun _ => True) (hl : Legal (Ids.env e st buf junk true) tr) :
    Goes e d hi tr ∧ EdsSt e d hi st tr (Ids.after e st tr) := by
  have := goes_generic hT (fun tr x => Legal (Ids.env e st buf junk true) tr ∧ EdsSt e d hi st tr x) hi hhi ⟨trivial, hv, hf, hmin, hmax, fun p h _ => hk p h trivial, rfl⟩
    (fun tr ev x _ hJ hok hw hl hin hp => by
      have := edsSt_step hT hD hbot hJ.2 hJ.1 hok hw hin hp
      exact ⟨⟨⟨hok, hJ.1⟩, this.1⟩, this.2⟩) tr hl
  exact ⟨this.1, this.2.2⟩

theorem eds_pass (hT : Calm e d) (hD : Distinct e d) (hhi : 0 < hi) (hbot : ∀ p, Wanted e d p → p.length < hi) (hv : st.visit = .post) (hf : st.force = false) (hmin : st.min = 0) (hmax : st.max = hi)
    (hk : Knows e d st fun _ => True) {s : State} (hr : Reach (Ids.env e st buf junk true) s) :
    Goes e d hi s.trace ∧ EdsSt e d hi st s.trace (Ids.after e st s.trace) :=
  eds_legal hT hD hhi hbot hv hf hmin hmax hk (inv_reach (e := Ids.env e st buf junk true) hT.named hr).legal

/-! ## Everything together -/

theorem Between.knows (hD : Distinct e d) (h : Between e d st) (hb : st.bottom = true) : Knows e d st fun _ => True := by
  intro p h1 _
  constructor
  · intro h2
    obtain ⟨q, h3, h4, h5⟩ := h.pre.sound _ h2
    rw [← hD q p h3 h1 h5]
    exact h4
  · exact h.pre.full p h1 ((depth_lt h1.ne _).2 (h.bottom hb p h1))

theorem ids_post_calls {tr : List Event} (h : ∀ ev ∈ tr, ev.visit ≠ .post) :
    visits .post (tr.filterMap (idsCall e d lo)) = (visits .pre tr).filter fun p => !e.error p && decide (lo ≤ depth p) && decide (¬ Pruned e d p) := by
  induction tr with
  | nil => rfl
  | cons ev tr ih =>
    have ih := ih fun x hx => h x (List.mem_cons_of_mem _ hx)
    have hp := h ev List.mem_cons_self
    rw [visits_cons, List.filterMap_cons]
    by_cases h1 : ev.visit = .err ∨ e.error ev.pos = true
    · have h2 : visits .post (tr.filterMap (idsCall e d lo)) =
          (if ev.visit = .pre then ev.pos :: visits .pre tr else visits .pre tr).filter fun p => !e.error p && decide (lo ≤ depth p) && decide (¬ Pruned e d p) := by
        rw [ih]
        split
        · rename_i h2
          have : e.error ev.pos = true := h1.resolve_left (by rw [h2]; simp)
          rw [List.filter_cons, if_neg (by simp [this])]
        · rfl
      by_cases h3 : depth ev.pos + 1 ≥ lo
      · have : idsCall e d lo ev = some ⟨.err, ev.pos, ev.path, d .err ev.pos⟩ := by
          unfold idsCall; rw [if_pos h1, if_pos h3]
        rw [this]
        dsimp only
        rw [visits_cons, if_neg (by simp)]
        exact h2
      · have : idsCall e d lo ev = none := by
          unfold idsCall; rw [if_pos h1, if_neg h3]
        rw [this]
        exact h2
    · have h2 : ev.visit = .pre := by
        cases hh : ev.visit with
        | pre => rfl
        | err => exact absurd (Or.inl hh) h1
        | post => exact absurd hh hp
      have h3 : e.error ev.pos = false := by
        cases hh : e.error ev.pos with
        | true => exact absurd (Or.inr hh) h1
        | false => rfl
      rw [if_pos h2, List.filter_cons]
      by_cases h4 : depth ev.pos < lo
      · have : idsCall e d lo ev = none := by
          unfold idsCall; rw [if_neg h1, if_pos h4]
        rw [this, if_neg (by simp; intro _ hh; omega)]
        exact ih
      · by_cases h5 : Pruned e d ev.pos
        · have : idsCall e d lo ev = none := by
            unfold idsCall; rw [if_neg h1, if_neg h4, if_pos h5]
          rw [this, if_neg (by simp [h5])]
          exact ih
        · have : idsCall e d lo ev = some ⟨.post, ev.pos, ev.path, d .post ev.pos⟩ := by
            unfold idsCall; rw [if_neg h1, if_neg h4, if_neg h5]
          rw [this, if_pos (by simp [h3, h5]; omega)]
          dsimp only
          rw [visits_cons, if_pos rfl]
          exact congrArg (ev.pos :: ·) ih

theorem ids_answers {tr : List Event} (h : ∀ ev ∈ tr, ev.path = e.fullPath ev.pos) :
    ∀ x ∈ tr.filterMap (idsCall e d lo), x.visit ≠ .pre ∧ x.path = e.fullPath x.pos ∧ x.action = d x.visit x.pos := by
  intro x hx
  obtain ⟨ev, h1, h2⟩ := List.mem_filterMap.1 hx
  unfold idsCall at h2
  split at h2
  · split at h2
    · cases h2
      exact ⟨by simp, h ev h1, rfl⟩
    · cases h2
  · split at h2
    · cases h2
    · split at h2
      · cases h2
      · cases h2
        exact ⟨by simp, h ev h1, rfl⟩

theorem eds_answers {tr : List Event} (h : ∀ ev ∈ tr, ev.path = e.fullPath ev.pos) :
    ∀ x ∈ tr.filterMap (edsCall e d), x.visit ≠ .pre ∧ x.path = e.fullPath x.pos ∧ x.action = d x.visit x.pos := by
  intro x hx
  obtain ⟨ev, h1, h2⟩ := List.mem_filterMap.1 hx
  unfold edsCall at h2
  split at h2
  · cases h2
    exact ⟨by simp, h ev h1, rfl⟩
  · split at h2
    · cases h2
    · cases h2
      exact ⟨by simp, h ev h1, rfl⟩

theorem no_pre {tr : List Event} (h : ∀ x ∈ tr, x.visit ≠ .pre) : visits .pre tr = [] := by
  refine List.eq_nil_iff_forall_not_mem.2 fun p hp => ?_
  obtain ⟨ev, h1, h2, -⟩ := visits_iff.1 hp
  exact h ev h1 h2

theorem eds_post_calls {tr : List Event} (h : ∀ ev ∈ tr, ev.visit = .post → e.error ev.pos = false) :
    visits .post (tr.filterMap (edsCall e d)) = visits .post tr := by
  induction tr with
  | nil => rfl
  | cons ev tr ih =>
    have ih := ih fun x hx => h x (List.mem_cons_of_mem _ hx)
    have hp := h ev List.mem_cons_self
    rw [visits_cons, List.filterMap_cons]
    by_cases h1 : ev.visit = .err ∨ e.error ev.pos = true
    · have : edsCall e d ev = some ⟨.err, ev.pos, ev.path, d .err ev.pos⟩ := by
        unfold edsCall; rw [if_pos h1]
      rw [this]
      dsimp only
      rw [visits_cons, if_neg (by simp), if_neg ?_]
      · exact ih
      · intro hh
        have := hp hh
        rcases h1 with h1 | h1
        · rw [hh] at h1; cases h1
        · rw [this] at h1; cases h1
    · by_cases h2 : ev.visit = .pre
      · have : edsCall e d ev = none := by
          unfold edsCall; rw [if_neg h1, if_pos h2]
        rw [this, if_neg (by rw [h2]; simp)]
        exact ih
      · have h3 : ev.visit = .post := by
          cases hh : ev.visit with
          | pre => exact absurd hh h2
          | err => exact absurd (Or.inl hh) h1
          | post => rfl
        have : edsCall e d ev = some ⟨.post, ev.pos, ev.path, d .post ev.pos⟩ := by
          unfold edsCall; rw [if_neg h1, if_neg h2]
        rw [this, if_pos h3]
        dsimp only
        rw [visits_cons, if_pos rfl]
        exact congrArg (ev.pos :: ·) ih

theorem legal_post_order (h : Legal e tr) : (visits .post tr).Pairwise fun later earlier => ¬ earlier <:+ later := by
  induction tr with
  | nil => exact List.Pairwise.nil
  | cons ev tr ih =>
    have ih := ih h.2
    rw [visits_cons]
    split
    · exact List.pairwise_cons.2 ⟨fun q hq => h.1.done q hq, ih⟩
    · exact ih

theorem legal_path {post : Bool} (h : Legal (Ids.env e st buf junk post) tr) : ∀ ev ∈ tr, ev.path = e.fullPath ev.pos := by
  intro ev h1
  obtain ⟨a, b, h4⟩ := List.append_of_mem h1
  rw [h4] at h
  exact (legal_split h).path.trans (env_fullPath _)

/-- The errors that have been reported at the end of the first phase. -/
theorem Between.errs (h : Between e d st) (hb : st.bottom = true) (p : Pos) :
    p ∈ visits .err st.calls ↔ Wanted e d p ∧ ((Into e d p ∧ e.broken p = true) ∨ e.error p = true) := by
  refine ⟨h.err_sound p, fun hp => ?_⟩
  rcases hp.2 with h1 | h1
  · exact (h.err_dir p h1.1.1).2 ⟨hp.1, h1.1, h1.2, h.into hb p hp.1 h1.1⟩
  · exact h.err_stat p hp.1 h1 (h.bottom hb p hp.1)

/-- What is reported in the second phase is an error, too. -/
theorem second_errs {call : Event → Option Event} (hcall : ∀ ev x, call ev = some x → x.visit = .err → x.pos = ev.pos ∧ (ev.visit = .err ∨ e.error ev.pos = true))
    (hT : Calm e d) {s : State} {post : Bool} (hr : Reach (Ids.env e st buf junk post) s) (hd : s.pc = .done) {hi : Nat} (hg : Goes e d hi s.trace)
    (hc : ∀ p, p ∈ visits .pre s.trace ↔ Wanted e d p ∧ p.length ≤ hi) (p : Pos) (h : p ∈ visits .err (s.trace.filterMap call)) :
    Wanted e d p ∧ ((Into e d p ∧ e.broken p = true) ∨ e.error p = true) := by
  have hN : (Ids.env e st buf junk post).Named := hT.named
  obtain ⟨x, h1, h2, h3⟩ := visits_iff.1 h
  obtain ⟨ev, h4, h5⟩ := List.mem_filterMap.1 h1
  obtain ⟨h6, h7⟩ := hcall ev x h5 h2
  have hp : ev.pos = p := h6.symm.trans h3
  subst hp
  refine ⟨(hg.wanted ev h4).1, ?_⟩
  rcases h7 with h7 | h7
  · have h8 := (C61_errors hN hr hd ev.pos).1 (visits_iff.2 ⟨ev, h4, h7, rfl⟩)
    exact Or.inl ⟨((goes_entered hg hc ev.pos).1 h8.1).2.1, h8.2⟩
  · exact Or.inr h7

theorem idsCall_err {min : Nat} (ev x : Event) (h : idsCall e d min ev = some x) (hx : x.visit = .err) : x.pos = ev.pos ∧ (ev.visit = .err ∨ e.error ev.pos = true) := by
  unfold idsCall at h
  split at h
  · rename_i h0
    split at h
    · cases h; exact ⟨rfl, h0⟩
    · cases h
  · split at h
    · cases h
    · split at h
      · cases h
      · cases h; cases hx

theorem edsCall_err (ev x : Event) (h : edsCall e d ev = some x) (hx : x.visit = .err) : x.pos = ev.pos ∧ (ev.visit = .err ∨ e.error ev.pos = true) := by
  unfold edsCall at h
  split at h
  · rename_i h0
    cases h; exact ⟨rfl, h0⟩
  · split at h
    · cases h
    · cases h; cases hx

/-- What is known between two passes of the second phase of iterative deepening. -/
structure IdsBetween (e : Env) (d : Visit → Pos → Action) (st : Ids) : Prop where
  visit : st.visit = .post
  force : st.force = true
  window : st.max = st.min + 1
  knows : Knows e d st fun p => p.length ≤ st.min
  pre_nodup : (visits .pre st.calls).Nodup
  pre_mem : ∀ p, p ∈ visits .pre st.calls ↔ Wanted e d p ∧ e.error p = false
  post_nodup : (visits .post st.calls).Nodup
  post_mem : ∀ p, p ∈ visits .post st.calls ↔ Wanted e d p ∧ e.error p = false ∧ ¬ Pruned e d p ∧ st.min ≤ depth p
  order : (visits .post st.calls).Pairwise fun later earlier => ¬ earlier <:+ later
  level : (visits .post st.calls).Pairwise fun later earlier => depth later ≤ depth earlier
  answers : ∀ x ∈ st.calls, x.path = e.fullPath x.pos ∧ x.action = d x.visit x.pos
  phases : ∃ second first, st.calls = second ++ first ∧ visits .pre second = [] ∧ visits .post first = []
  err_mem : ∀ p, p ∈ visits .err st.calls ↔ Wanted e d p ∧ ((Into e d p ∧ e.broken p = true) ∨ e.error p = true)

theorem idsBetween (hT : Calm e d) (hD : Distinct e d) (h : IdsPost e st buf) : IdsBetween e d st := by
  induction h with
  | init hs hb _ =>
    obtain ⟨h, hf⟩ := between hT hD.consistent (Or.inl rfl) hs
    have hw : _ := hf.resolve_left (by
      intro hh
      have := congrArg (fun f => (f { Ids.init with min := 5, max := 1 }).min) hh
      revert this
      decide)
    refine ⟨rfl, rfl, hw.2, fun p h1 _ => h.knows hD hb p h1 trivial, h.pre_nodup, fun p => ?_, ?_, fun p => ?_, ?_, ?_, h.answers, ⟨[], _, rfl, rfl, h.post⟩, h.errs hb⟩
    · rw [h.pre_mem]
      exact ⟨fun hh => ⟨hh.1, hh.2.1⟩, fun hh => ⟨hh.1, hh.2, (depth_lt hh.1.ne _).2 (h.bottom hb p hh.1)⟩⟩
    · rw [h.post]; exact List.nodup_nil
    · rw [h.post]
      refine ⟨fun hh => (by cases hh), fun hh => ?_⟩
      have := (depth_lt hh.1.ne _).2 (h.bottom hb p hh.1)
      have := hh.2.2.2
      dsimp only at this
      omega
    · rw [h.post]; exact List.Pairwise.nil
    · rw [h.post]; exact List.Pairwise.nil
  | @pass st st' buf buf' _ hmin hp ih =>
    obtain ⟨junk, s, hr, hd, rfl, -⟩ := hp
    have hw := ih.window
    have hN : (Ids.env e { st with max := st.max - 1, min := st.min - 1 } buf junk false).Named := hT.named
    have hl := (inv_reach hN hr).legal
    obtain ⟨hg, hs⟩ := ids_pass (lo := st.min - 1) hT hD (st := { st with max := st.max - 1, min := st.min - 1 }) ih.visit ih.force rfl
      (show st.max - 1 = st.min - 1 + 1 by omega) (fun p h1 h2 => ih.knows p h1 (by omega)) hr
    have hc := goes_complete hT hr hd (by omega) hg
    have hans := ids_answers (d := d) (lo := st.min - 1) (legal_path hl)
    have hnew := second_errs idsCall_err hT hr hd hg hc (call := idsCall e d (st.min - 1))
    have hcalls := hs.calls
    dsimp only at hcalls
    generalize Ids.after e { st with max := st.max - 1, min := st.min - 1 } s.trace = x at *
    have hpost := ids_post_calls (e := e) (d := d) (lo := st.min - 1) hs.nopost
    have hmem : ∀ p, p ∈ visits .post (s.trace.filterMap (idsCall e d (st.min - 1))) ↔ Wanted e d p ∧ e.error p = false ∧ ¬ Pruned e d p ∧ depth p = st.min - 1 := by
      intro p
      rw [hpost, List.mem_filter, hc]
      simp only [Bool.and_eq_true, Bool.not_eq_true', decide_eq_true_eq]
      constructor
      · rintro ⟨⟨h1, h2⟩, ⟨h3, h4⟩, h5⟩
        have := length_depth h1.ne
        exact ⟨h1, h3, h5, by omega⟩
      · rintro ⟨h1, h2, h3, h4⟩
        have := length_depth h1.ne
        exact ⟨⟨h1, by omega⟩, ⟨h2, by omega⟩, h3⟩
    have hpre : visits .pre x.calls = visits .pre st.calls := by
      rw [hcalls, visits_append, no_pre fun y hy => (hans y hy).1]
      rfl
    constructor
    · exact hs.visit
    · exact hs.force
    · rw [hs.max, hs.min]
    · intro p h1 h2
      exact hs.knows p h1 (Or.inl (by rw [hs.min] at h2; exact h2))
    · rw [hpre]; exact ih.pre_nodup
    · rw [hpre]; exact ih.pre_mem
    · rw [hcalls, visits_append]
      refine List.nodup_append.2 ⟨?_, ih.post_nodup, ?_⟩
      · rw [hpost]
        exact hl.nodup.filter _
      · rintro a h1 b h2 rfl
        have h1 := (hmem a).1 h1
        have h2 := (ih.post_mem a).1 h2
        omega
    · intro p
      rw [hcalls, visits_append, List.mem_append, hmem, ih.post_mem, hs.min]
      constructor
      · rintro (⟨h1, h2, h3, h4⟩ | ⟨h1, h2, h3, h4⟩)
        · exact ⟨h1, h2, h3, by omega⟩
        · exact ⟨h1, h2, h3, by omega⟩
      · rintro ⟨h1, h2, h3, h4⟩
        by_cases h5 : st.min ≤ depth p
        · exact Or.inr ⟨h1, h2, h3, h5⟩
        · exact Or.inl ⟨h1, h2, h3, by omega⟩
    · rw [hcalls, visits_append]
      refine List.pairwise_append.2 ⟨?_, ih.order, fun a h1 b h2 hs => ?_⟩
      · have hnd : (visits .post (s.trace.filterMap (idsCall e d (st.min - 1)))).Nodup := by
          rw [hpost]; exact hl.nodup.filter _
        refine List.Pairwise.imp_of_mem ?_ hnd
        intro a b h1 h2 h3 h4
        have h1 := (hmem a).1 h1
        have h2 := (hmem b).1 h2
        have := length_depth h1.1.ne
        have := length_depth h2.1.ne
        exact h3 (h4.eq_of_length (by omega)).symm
      · have h1 := (hmem a).1 h1
        have h2 := (ih.post_mem b).1 h2
        have := length_depth h1.1.ne
        have := length_depth h2.1.ne
        have := hs.length_le
        omega
    · rw [hcalls, visits_append]
      refine List.pairwise_append.2 ⟨?_, ih.level, fun a h1 b h2 => ?_⟩
      · refine List.Pairwise.imp_of_mem (R := fun _ _ => True) ?_ (List.pairwise_of_forall fun _ _ => trivial)
        intro a b h1 h2 _
        have h1 := (hmem a).1 h1
        have h2 := (hmem b).1 h2
        omega
      · have h1 := (hmem a).1 h1
        have h2 := (ih.post_mem b).1 h2
        omega
    · rw [hcalls]
      intro y hy
      rcases List.mem_append.1 hy with hy | hy
      · exact (hans y hy).2
      · exact ih.answers y hy
    · obtain ⟨second, first, h1, h2, h3⟩ := ih.phases
      refine ⟨_ ++ second, first, by rw [hcalls, h1, List.append_assoc], ?_, h3⟩
      rw [visits_append, no_pre fun y hy => (hans y hy).1, h2]
      rfl
    · intro p
      rw [hcalls, visits_append, List.mem_append, ih.err_mem]
      exact ⟨fun hh => hh.elim (hnew p) id, Or.inr⟩

/-- What is known at the end of exponential deepening. -/
structure EdsEnd (e : Env) (d : Visit → Pos → Action) (st : Ids) : Prop where
  pre_nodup : (visits .pre st.calls).Nodup
  pre_mem : ∀ p, p ∈ visits .pre st.calls ↔ Wanted e d p ∧ e.error p = false
  post_nodup : (visits .post st.calls).Nodup
  post_mem : ∀ p, p ∈ visits .post st.calls ↔ Wanted e d p ∧ Into e d p
  order : (visits .post st.calls).Pairwise fun later earlier => ¬ earlier <:+ later
  answers : ∀ x ∈ st.calls, x.path = e.fullPath x.pos ∧ x.action = d x.visit x.pos
  phases : ∃ second first, st.calls = second ++ first ∧ visits .pre second = [] ∧ visits .post first = []
  err_mem : ∀ p, p ∈ visits .err st.calls ↔ Wanted e d p ∧ ((Into e d p ∧ e.broken p = true) ∨ e.error p = true)

theorem edsEnd (hT : Calm e d) (hD : Distinct e d) (h : EdsPost e st) : EdsEnd e d st := by
  cases h with
  | @pass st st' buf buf' hs hb _ hp =>
    obtain ⟨junk, s, hr, hd, h', -⟩ := hp
    subst h'
    have hbet := (between hT hD.consistent (Or.inr rfl) hs).1
    have hbot : ∀ p, Wanted e d p → p.length < st.max := fun p hp => Nat.lt_of_le_of_lt (hbet.bottom hb p hp) hbet.window
    have hN : (Ids.env e { st with visit := .post, min := 0 } buf junk true).Named := hT.named
    have hl := (inv_reach hN hr).legal
    have hwin := hbet.window
    obtain ⟨hg, hs⟩ := eds_pass (st := { st with visit := .post, min := 0 }) hT hD (by omega) hbot rfl hbet.pre.force rfl rfl (fun p h1 h2 => hbet.knows hD hb p h1 h2) hr
    have hc := goes_complete hT hr hd (by omega) hg
    have hent := goes_entered hg hc
    have hans := eds_answers (d := d) (legal_path hl)
    have hnew := second_errs edsCall_err hT hr hd hg hc (call := edsCall e d)
    have hcalls := hs.calls
    dsimp only at hcalls
    generalize Ids.after e { st with visit := .post, min := 0 } s.trace = x at *
    have hpost : visits .post x.calls = visits .post s.trace := by
      rw [hcalls, visits_append, hbet.post, List.append_nil]
      refine eds_post_calls fun ev h1 h2 => ?_
      have hde : ev.pos ∈ entered s.trace := hl.post_entered .post (by simp) _ (visits_iff.2 ⟨ev, h1, h2, rfl⟩)
      have := ((hent _).1 hde).2.1.1
      cases hh : e.error ev.pos with
      | false => rfl
      | true =>
        rw [hT.error _ hh] at this
        cases this
    have hpre : visits .pre x.calls = visits .pre st.calls := by
      rw [hcalls, visits_append, no_pre fun y hy => (hans y hy).1]
      rfl
    constructor
    · rw [hpre]; exact hbet.pre_nodup
    · intro p
      rw [hpre, hbet.pre_mem]
      exact ⟨fun hh => ⟨hh.1, hh.2.1⟩, fun hh => ⟨hh.1, hh.2, (depth_lt hh.1.ne _).2 (hbet.bottom hb p hh.1)⟩⟩
    · rw [hpost]; exact hl.nodup
    · intro p
      rw [hpost, C19_exactly hN rfl hr hd, hent]
      exact ⟨fun hh => ⟨hh.1, hh.2.1⟩, fun hh => ⟨hh.1, hh.2, hbot p hh.1⟩⟩
    · rw [hpost]; exact legal_post_order hl
    · rw [hcalls]
      intro y hy
      rcases List.mem_append.1 hy with hy | hy
      · exact (hans y hy).2
      · exact hbet.answers y hy
    · exact ⟨_, _, hcalls, no_pre fun y hy => (hans y hy).1, hbet.post⟩
    · intro p
      rw [hcalls, visits_append, List.mem_append, hbet.errs hb]
      exact ⟨fun hh => hh.elim (hnew p) id, Or.inr⟩

end Verif.Bftw
