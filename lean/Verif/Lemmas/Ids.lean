import Verif.Props.Bftw
import Verif.Spec.Ids

/-!
# Passes of the deepening strategies
-/
namespace Verif.Bftw
open Verif.Props

variable {lo hi : Nat} {e : Env} {d : Visit → Pos → Action} {st st' : Ids} {buf buf' : Bytes} {junk : Nat → Nat → UInt8} {post : Bool} {tr : List Event}

/-- The callback never stops the search. -/
structure Calm (e : Env) (d : Visit → Pos → Action) : Prop extends Tame e d where
  nostop : ∀ v p, Wanted e d p → d v p ≠ .stop

theorem env_fullPath (p : Pos) : (Ids.env e st buf junk post).fullPath p = e.fullPath p := by
  induction p with
  | nil => rfl
  | cons j p ih =>
    cases p with
    | nil => rfl
    | cons i p =>
      show join ((Ids.env e st buf junk post).fullPath (i :: p)) _ = join (e.fullPath (i :: p)) _
      rw [ih]
      rfl

theorem env_found {into : Pos → Prop} {p : Pos} : Found (Ids.env e st buf junk post) into p ↔ Found e into p := by
  constructor
  · intro h
    induction h with
    | root i h0 => exact .root i h0
    | entry p j _ h1 hj ih => exact .entry p j ih h1 hj
  · intro h
    induction h with
    | root i h0 => exact .root i h0
    | entry p j _ h1 hj ih => exact .entry p j ih h1 hj

theorem env_inb {p : Pos} (h : (Ids.env e st buf junk post).inb p) : e.inb p := by
  match p, h with
  | [], h => exact h
  | [_], h => exact h
  | _ :: _ :: _, h => exact h

theorem Found.ne {into : Pos → Prop} {p : Pos} (h : Found e into p) : p ≠ [] := by
  cases h <;> simp

theorem Wanted.ne {p : Pos} (h : Wanted e d p) : p ≠ [] := h.1.ne

theorem depth_lt {p : Pos} (h : p ≠ []) (n : Nat) : depth p < n ↔ p.length ≤ n := by
  cases p with
  | nil => exact absurd rfl h
  | cons j p =>
    unfold depth
    simp
    omega

theorem entered_ev {p : Pos} (h : p ∈ entered tr) : ∃ ev ∈ tr, ev.visit = .pre ∧ ev.action = .cont ∧ ev.pos = p := by
  obtain ⟨l, ev, r, h1, h2⟩ := entered_split h
  exact ⟨ev, by rw [h1]; simp, h2⟩

theorem entered_of_ev {ev : Event} (h : ev ∈ tr) (h1 : ev.visit = .pre) (h2 : ev.action = .cont) : ev.pos ∈ entered tr := by
  unfold entered
  exact List.mem_map.2 ⟨ev, List.mem_filter.2 ⟨h, by simp [h1, h2]⟩, rfl⟩

/-- What all passes have in common: which files are visited, and which directories are gone into. -/
structure Goes (e : Env) (d : Visit → Pos → Action) (hi : Nat) (tr : List Event) : Prop where
  wanted : ∀ ev ∈ tr, Wanted e d ev.pos ∧ ev.pos.length ≤ hi
  enter : ∀ ev ∈ tr, ev.visit = .pre → (ev.action = .cont ↔ Into e d ev.pos ∧ ev.pos.length < hi)

theorem adjust_iff {v : Visit} {p : Pos} {a : Action} (hs : e.skipped p = false) (hv : v = .pre) (n : Nat)
    (h : e.isDir p = true → (a = .cont ↔ d .pre p = .cont ∧ p.length < n)) :
    (e.adjust v p a = .cont ↔ Into e d p ∧ p.length < n) := by
  subst hv
  unfold Into
  rw [hs]
  cases hd : e.isDir p with
  | false =>
    constructor
    · intro hh
      unfold Env.adjust at hh
      cases a <;> simp [hd] at hh
    · rintro ⟨⟨hh, -⟩, -⟩
      cases hh
  | true =>
    have h := h hd
    cases a with
    | stop =>
      have h' : ¬ (d .pre p = .cont ∧ p.length < n) := fun hh => by cases h.2 hh
      unfold Env.adjust
      simp
      intro h1 _
      have : ¬ p.length < n := fun h2 => h' ⟨h1, h2⟩
      omega
    | prune =>
      have h' : ¬ (d .pre p = .cont ∧ p.length < n) := fun hh => by cases h.2 hh
      unfold Env.adjust
      simp
      intro h1 _
      have : ¬ p.length < n := fun h2 => h' ⟨h1, h2⟩
      omega
    | cont =>
      have h' := h.1 rfl
      unfold Env.adjust
      simp [hd, h'.1, h'.2]

/-- `J` is kept by the calls of a pass, and it makes the callback go into the right directories. -/
theorem goes_generic (hT : Calm e d) (J : List Event → Ids → Prop) (hi : Nat) (hmax : 0 < hi) (h0 : J [] st)
    (hstep : ∀ (tr : List Event) (ev : Event) (x : Ids), Goes e d hi tr → J tr x → EvOk (Ids.env e st buf junk post) tr ev → Wanted e d ev.pos → ev.pos.length ≤ hi →
      (ev.visit ≠ .pre → Into e d ev.pos ∧ ev.pos.length < hi) → ev.path = e.fullPath ev.pos →
      J (ev :: tr) (Ids.call e x ev.visit ev.pos ev.path).1 ∧
        (ev.visit = .pre → (Ids.call e x ev.visit ev.pos ev.path).2 ≠ .stop ∧
          (e.isDir ev.pos = true → ((Ids.call e x ev.visit ev.pos ev.path).2 = .cont ↔ d .pre ev.pos = .cont ∧ ev.pos.length < hi)))) :
    ∀ tr, Legal (Ids.env e st buf junk post) tr → Goes e d hi tr ∧ J tr (Ids.after e st tr)
  | [], _ => ⟨⟨fun _ h => (by cases h), fun _ h => (by cases h)⟩, h0⟩
  | ev :: tr, h => by
    obtain ⟨hg, hJ⟩ := goes_generic hT J hi hmax h0 hstep tr h.2
    have hok := h.1
    have hsk : e.skipped ev.pos = false := hok.mount
    have hinto : ∀ q, q ∈ entered tr → Into e d q ∧ q.length < hi ∧ Found e (Into e d) q := by
      intro q hq
      obtain ⟨x, h1, h2, h3, h4⟩ := entered_ev hq
      rw [← h4]
      have := (hg.enter x h1 h2).1 h3
      exact ⟨this.1, this.2, (hg.wanted x h1).1.1⟩
    have hw : Wanted e d ev.pos ∧ ev.pos.length ≤ hi := by
      have hb := env_inb hok.inb
      have hp := hok.parent
      match hpos : ev.pos, hb, hp with
      | [], hb, _ => exact hb.elim
      | [i], hb, _ =>
        rw [hpos] at hsk
        exact ⟨⟨.root i hb, hsk⟩, hmax⟩
      | j :: i :: p, hb, hp =>
        rw [hpos] at hsk
        have hp : i :: p ∈ entered tr := hp.resolve_left (by simp)
        obtain ⟨h1, h2, h3⟩ := hinto _ hp
        exact ⟨⟨.entry _ j h3 h1 hb, hsk⟩, h2⟩
    have hpath : ev.path = e.fullPath ev.pos := hok.path.trans (env_fullPath _)
    obtain ⟨s1, s2⟩ := hstep tr ev (Ids.after e st tr) hg hJ hok hw.1 hw.2 (fun hv => by
      have := hinto _ (hok.dir hv)
      exact ⟨this.1, this.2.1⟩) hpath
    refine ⟨⟨fun x hx => ?_, fun x hx hv => ?_⟩, s1⟩
    · rcases List.mem_cons.1 hx with rfl | hx
      · exact hw
      · exact hg.wanted x hx
    · rcases List.mem_cons.1 hx with rfl | hx
      · have ha : x.action = e.adjust x.visit x.pos (Ids.call e (Ids.after e st tr) x.visit x.pos x.path).2 := hok.action
        rw [ha]
        exact adjust_iff hsk hv hi (s2 hv).2
      · exact hg.enter x hx hv

/-- A complete pass visits exactly the files that are wanted and not too deep. -/
theorem goes_complete (hT : Calm e d) {s : State} (hr : Reach (Ids.env e st buf junk post) s) (hd : s.pc = .done) {hi : Nat} (hmax : 0 < hi)
    (hg : Goes e d hi s.trace) (p : Pos) : p ∈ visits .pre s.trace ↔ Wanted e d p ∧ p.length ≤ hi := by
  have hN : (Ids.env e st buf junk post).Named := hT.named
  constructor
  · intro h
    obtain ⟨ev, h1, -, h3⟩ := visits_iff.1 h
    rw [← h3]
    exact hg.wanted ev h1
  · rintro ⟨⟨hf, hs⟩, hl⟩
    rw [C18_complete hN hr hd, env_found]
    refine ⟨?_, hs⟩
    clear hs
    induction hf with
    | root i h0 => exact .root i h0
    | entry p j hp hin hj ih =>
      have hlp : p.length < hi := hl
      have hfp := ih (Nat.le_of_lt hlp)
      refine .entry p j hfp ?_ hj
      have hv : p ∈ visits .pre s.trace := by
        rw [C18_complete hN hr hd, env_found]
        exact ⟨hfp, hin.2.2.2⟩
      obtain ⟨ev, h1, h2, h3⟩ := visits_iff.1 hv
      rw [← h3]
      refine entered_of_ev h1 h2 ((hg.enter ev h1 h2).2 ?_)
      rw [h3]
      exact ⟨hin, hlp⟩

theorem goes_entered {hi : Nat} (hg : Goes e d hi tr) (hc : ∀ p, p ∈ visits .pre tr ↔ Wanted e d p ∧ p.length ≤ hi) (p : Pos) :
    p ∈ entered tr ↔ Wanted e d p ∧ Into e d p ∧ p.length < hi := by
  constructor
  · intro h
    obtain ⟨ev, h1, h2, h3, h4⟩ := entered_ev h
    rw [← h4]
    exact ⟨(hg.wanted ev h1).1, (hg.enter ev h1 h2).1 h3⟩
  · rintro ⟨h1, h2, h3⟩
    obtain ⟨ev, h4, h5, h6⟩ := visits_iff.1 ((hc p).2 ⟨h1, Nat.le_of_lt h3⟩)
    rw [← h6]
    refine entered_of_ev h4 h5 ((hg.enter ev h4 h5).2 ?_)
    rw [h6]
    exact ⟨h2, h3⟩

/-! ## The first phase -/

/-- What is known about the state during the first phase. -/
structure Pre (e : Env) (d : Visit → Pos → Action) (lo hi : Nat) (x : Ids) : Prop where
  visit : x.visit = .pre
  force : x.force = false
  min : x.min = lo
  max : x.max = hi
  sound : ∀ b ∈ x.pruned, ∃ q, Wanted e d q ∧ Pruned e d q ∧ e.fullPath q = b
  full : ∀ p, Wanted e d p → depth p < lo → Pruned e d p → e.fullPath p ∈ x.pruned

theorem delegate_eq (hT : Calm e d) (x : Ids) (v : Visit) {p : Pos} {path : Bytes} (hpath : path = e.fullPath p) :
    x.delegate e v p path = ({ x with calls := ⟨v, p, path, d v p⟩ :: x.calls }, d v p) := by
  unfold Ids.delegate
  dsimp only
  rw [hpath, hT.callback]

/-- The call for a file that is to be visited in the first phase. -/
theorem call_pre (hT : Calm e d) {x : Ids} (hv : x.visit = .pre) {p : Pos} {path : Bytes} (hpath : path = e.fullPath p) (he : e.error p = false) (hm : ¬ depth p < x.min) :
    Ids.call e x .pre p path = Ids.decide_ e p path ({ x with calls := ⟨.pre, p, path, d .pre p⟩ :: x.calls }, d .pre p) := by
  unfold Ids.call Ids.ask
  rw [if_neg (by simp [he]), if_neg hm, if_neg (by simp [hv]), if_pos (by rw [hv]; simp), delegate_eq hT _ _ hpath]
  simp only [hv]

theorem call_err (hT : Calm e d) {x : Ids} {v : Visit} {p : Pos} {path : Bytes} (hpath : path = e.fullPath p) (h : v = .err ∨ e.error p = true) :
    Ids.call e x v p path = if depth p + 1 ≥ x.min then ({ x with calls := ⟨.err, p, path, d .err p⟩ :: x.calls }, d .err p) else (x, .prune) := by
  unfold Ids.call
  rw [if_pos (by rcases h with h | h <;> simp [h]), delegate_eq hT _ _ hpath]

theorem call_shallow {x : Ids} {v : Visit} {p : Pos} {path : Bytes} (hv : v ≠ .err) (he : e.error p = false) (hm : depth p < x.min) :
    Ids.call e x v p path = (x, if x.pruned.contains path then .prune else .cont) := by
  unfold Ids.call
  rw [if_neg (by simp [hv, he]), if_pos hm]

/-- The call that the delegate gets for an event in the first phase. -/
def preCall (e : Env) (d : Visit → Pos → Action) (lo : Nat) (ev : Event) : Option Event :=
  if ev.visit = .err ∨ e.error ev.pos = true then (if depth ev.pos + 1 ≥ lo then some ⟨.err, ev.pos, ev.path, d .err ev.pos⟩ else none)
  else if depth ev.pos < lo then none
  else some ⟨.pre, ev.pos, ev.path, d .pre ev.pos⟩

/-- A directory at which the search stops because it is too deep. -/
def Cut (e : Env) (d : Visit → Pos → Action) (lo hi : Nat) (p : Pos) : Prop :=
  ¬ depth p < lo ∧ e.isDir p = true ∧ d .pre p = .cont ∧ depth p + 1 ≥ hi

/-- What a pass of the first phase does to the state. -/
structure PreSt (e : Env) (d : Visit → Pos → Action) (lo hi : Nat) (st : Ids) (tr : List Event) (x : Ids) : Prop where
  pre : Pre e d lo hi x
  nopost : ∀ ev ∈ tr, ev.visit ≠ .post
  calls : x.calls = tr.filterMap (preCall e d lo) ++ st.calls
  new : ∀ ev ∈ tr, ev.visit = .pre → ¬ depth ev.pos < lo → Pruned e d ev.pos → e.fullPath ev.pos ∈ x.pruned
  bottom : x.bottom = true ↔ st.bottom = true ∧ ∀ ev ∈ tr, ev.visit = .pre → ¬ Cut e d lo hi ev.pos

theorem preSt_step (hT : Calm e d) (hC : Consistent e d) (hmm : lo < hi) {ev : Event} {x : Ids} (h : PreSt e d lo hi st tr x)
    (hok : EvOk (Ids.env e st buf junk false) tr ev) (hw : Wanted e d ev.pos) (hlen : ev.pos.length ≤ hi)
    (hin : ev.visit ≠ .pre → Into e d ev.pos ∧ ev.pos.length < hi) (hpath : ev.path = e.fullPath ev.pos) :
    PreSt e d lo hi st (ev :: tr) (Ids.call e x ev.visit ev.pos ev.path).1 ∧
      (ev.visit = .pre → (Ids.call e x ev.visit ev.pos ev.path).2 ≠ .stop ∧
        (e.isDir ev.pos = true → ((Ids.call e x ev.visit ev.pos ev.path).2 = .cont ↔ d .pre ev.pos = .cont ∧ ev.pos.length < hi))) := by
  have hnp : ev.visit ≠ .post := fun hv => by
    have : false = true := hok.post hv
    cases this
  have hnopost : ∀ y ∈ ev :: tr, y.visit ≠ .post := by
    intro y hy
    rcases List.mem_cons.1 hy with rfl | hy
    · exact hnp
    · exact h.nopost y hy
  have hne := hw.ne
  by_cases herr : ev.visit = .err ∨ e.error ev.pos = true
  · -- errors
    rw [call_err hT hpath herr]
    have hndir : ev.visit = .pre → e.isDir ev.pos = false := fun hv => hT.error _ (herr.resolve_left (by rw [hv]; simp))
    have hcall : preCall e d lo ev = if depth ev.pos + 1 ≥ lo then some ⟨.err, ev.pos, ev.path, d .err ev.pos⟩ else none := if_pos herr
    have hnew : ∀ y ∈ ev :: tr, y.visit = .pre → ¬ depth y.pos < lo → Pruned e d y.pos → e.fullPath y.pos ∈ x.pruned := by
      intro y hy h1 h2 h3
      rcases List.mem_cons.1 hy with rfl | hy
      · have := h3.1
        rw [hndir h1] at this
        cases this
      · exact h.new y hy h1 h2 h3
    have hbot : x.bottom = true ↔ st.bottom = true ∧ ∀ y ∈ ev :: tr, y.visit = .pre → ¬ Cut e d lo hi y.pos := by
      rw [h.bottom]
      refine and_congr_right fun _ => ⟨fun hh y hy h1 h2 => ?_, fun hh y hy => hh y (List.mem_cons_of_mem _ hy)⟩
      rcases List.mem_cons.1 hy with rfl | hy
      · have := h2.2.1
        rw [hndir h1] at this
        cases this
      · exact hh y hy h1 h2
    by_cases hmin : depth ev.pos + 1 ≥ lo
    · rw [if_pos (show depth ev.pos + 1 ≥ x.min by rw [h.pre.min]; exact hmin)]
      refine ⟨⟨{ h.pre with }, hnopost, ?_, hnew, hbot⟩, fun hv => ⟨hT.nostop _ _ hw, fun hd => ?_⟩⟩
      · rw [List.filterMap_cons, hcall, if_pos hmin]
        dsimp only
        rw [h.calls]
        rfl
      · rw [hndir hv] at hd
        cases hd
    · rw [if_neg (show ¬ depth ev.pos + 1 ≥ x.min by rw [h.pre.min]; exact hmin)]
      refine ⟨⟨h.pre, hnopost, ?_, hnew, hbot⟩, fun hv => ⟨by simp, fun hd => ?_⟩⟩
      · rw [List.filterMap_cons, hcall, if_neg hmin]
        exact h.calls
      · rw [hndir hv] at hd
        cases hd
  · -- no errors
    have he : e.error ev.pos = false := by
      cases hh : e.error ev.pos with
      | true => exact absurd (Or.inr hh) herr
      | false => rfl
    have hv : ev.visit = .pre := by
      cases hh : ev.visit with
      | pre => rfl
      | err => exact absurd (Or.inl hh) herr
      | post => exact absurd hh hnp
    by_cases hm : depth ev.pos < lo
    · -- not deep enough
      rw [call_shallow (by rw [hv]; simp) he (by rw [h.pre.min]; exact hm)]
      have hcall : preCall e d lo ev = none := by
        unfold preCall
        rw [if_neg herr, if_pos hm]
      refine ⟨⟨h.pre, hnopost, ?_, ?_, ?_⟩, fun _ => ⟨?_, fun hd => ?_⟩⟩
      · rw [List.filterMap_cons, hcall]
        exact h.calls
      · intro y hy h1 h2 h3
        rcases List.mem_cons.1 hy with rfl | hy
        · exact absurd hm h2
        · exact h.new y hy h1 h2 h3
      · rw [h.bottom]
        refine and_congr_right fun _ => ⟨fun hh y hy h1 h2 => ?_, fun hh y hy => hh y (List.mem_cons_of_mem _ hy)⟩
        rcases List.mem_cons.1 hy with rfl | hy
        · exact h2.1 hm
        · exact hh y hy h1 h2
      · dsimp only
        split <;> simp
      · have hl : ev.pos.length < hi := by
          have := (depth_lt hne lo).1 hm
          omega
        have hp : x.pruned.contains ev.path = true ↔ Pruned e d ev.pos := by
          rw [List.contains_iff_mem, hpath]
          constructor
          · intro hh
            obtain ⟨q, h1, h2, h3⟩ := h.pre.sound _ hh
            exact hC q ev.pos h1 hw h3 hd h2
          · exact fun hh => h.pre.full _ hw hm hh
        dsimp only
        cases hdd : d .pre ev.pos with
        | cont =>
          rw [if_neg (fun hh => (hp.1 hh).2 hdd)]
          exact ⟨fun _ => ⟨rfl, hl⟩, fun _ => rfl⟩
        | prune =>
          rw [if_pos (hp.2 ⟨hd, by rw [hdd]; simp⟩)]
          exact ⟨fun hh => (by cases hh), fun hh => (by cases hh.1)⟩
        | stop => exact absurd hdd (hT.nostop _ _ hw)
    · -- the delegate is asked
      have hcall : preCall e d lo ev = some ⟨.pre, ev.pos, ev.path, d .pre ev.pos⟩ := by
        unfold preCall
        rw [if_neg herr, if_neg hm]
      have hcalls : ⟨.pre, ev.pos, ev.path, d .pre ev.pos⟩ :: x.calls = (ev :: tr).filterMap (preCall e d lo) ++ st.calls := by
        rw [List.filterMap_cons, hcall, h.calls]
        rfl
      rw [hv, call_pre hT h.pre.visit hpath he (by rw [h.pre.min]; exact hm)]
      cases hdd : d .pre ev.pos with
      | stop => exact absurd hdd (hT.nostop _ _ hw)
      | cont =>
        unfold Ids.decide_
        dsimp only
        have hnew : ∀ y ∈ ev :: tr, y.visit = .pre → ¬ depth y.pos < lo → Pruned e d y.pos → e.fullPath y.pos ∈ x.pruned := by
          intro y hy h1 h2 h3
          rcases List.mem_cons.1 hy with rfl | hy
          · exact absurd hdd h3.2
          · exact h.new y hy h1 h2 h3
        rw [hdd] at hcalls
        by_cases hcut : (e.isDir ev.pos && decide (depth ev.pos + 1 ≥ x.max)) = true
        · rw [if_pos hcut]
          simp only [Bool.and_eq_true, decide_eq_true_eq] at hcut
          rw [h.pre.max] at hcut
          refine ⟨⟨{ h.pre with }, hnopost, hcalls, hnew, ?_⟩, fun _ => ⟨by simp, fun hd => ?_⟩⟩
          · dsimp only
            refine ⟨fun hh => (by cases hh), fun hh => ?_⟩
            exact absurd ⟨hm, hcut.1, hdd, hcut.2⟩ (hh.2 ev List.mem_cons_self hv)
          · refine ⟨fun hh => (by cases hh), fun hh => ?_⟩
            have h1 := (depth_lt hne (depth ev.pos + 1)).1 (by omega)
            have h2 := (depth_lt hne (hi - 1)).2 (by omega)
            omega
        · rw [if_neg hcut]
          have hnc : ¬ (e.isDir ev.pos = true ∧ depth ev.pos + 1 ≥ hi) := by
            rintro ⟨h1, h2⟩
            apply hcut
            rw [h1, h.pre.max]
            simpa using h2
          refine ⟨⟨{ h.pre with }, hnopost, hcalls, hnew, ?_⟩, fun _ => ⟨by simp, fun hd => ?_⟩⟩
          · dsimp only
            rw [h.bottom]
            refine and_congr_right fun _ => ⟨fun hh y hy h1 h2 => ?_, fun hh y hy => hh y (List.mem_cons_of_mem _ hy)⟩
            rcases List.mem_cons.1 hy with rfl | hy
            · exact hnc ⟨h2.2.1, h2.2.2.2⟩
            · exact hh y hy h1 h2
          · refine ⟨fun _ => ⟨rfl, ?_⟩, fun _ => rfl⟩
            have h1 : ¬ depth ev.pos + 1 ≥ hi := fun hh => hnc ⟨hd, hh⟩
            have h2 := (depth_lt hne (hi - 1)).1 (by omega)
            omega
      | prune =>
        unfold Ids.decide_
        dsimp only
        have hbot : ∀ b : Bool, b = x.bottom → (b = true ↔ st.bottom = true ∧ ∀ y ∈ ev :: tr, y.visit = .pre → ¬ Cut e d lo hi y.pos) := by
          rintro b rfl
          rw [h.bottom]
          refine and_congr_right fun _ => ⟨fun hh y hy h1 h2 => ?_, fun hh y hy => hh y (List.mem_cons_of_mem _ hy)⟩
          rcases List.mem_cons.1 hy with rfl | hy
          · have := h2.2.2.1
            rw [hdd] at this
            cases this
          · exact hh y hy h1 h2
        rw [hdd] at hcalls
        by_cases hd : e.isDir ev.pos = true
        · rw [if_pos hd]
          refine ⟨⟨{ h.pre with sound := ?_, full := ?_ }, hnopost, hcalls, ?_, hbot _ rfl⟩, fun _ => ⟨by simp, fun _ => ?_⟩⟩
          · intro b hb
            rcases List.mem_cons.1 hb with rfl | hb
            · exact ⟨ev.pos, hw, ⟨hd, by rw [hdd]; simp⟩, hpath.symm⟩
            · exact h.pre.sound b hb
          · intro p h1 h2 h3
            exact List.mem_cons_of_mem _ (h.pre.full p h1 h2 h3)
          · intro y hy h1 h2 h3
            rcases List.mem_cons.1 hy with rfl | hy
            · rw [← hpath]
              exact List.mem_cons_self
            · exact List.mem_cons_of_mem _ (h.new y hy h1 h2 h3)
          · exact ⟨fun hh => (by cases hh), fun hh => (by cases hh.1)⟩
        · rw [if_neg hd]
          refine ⟨⟨{ h.pre with }, hnopost, hcalls, ?_, hbot _ rfl⟩, fun _ => ⟨by simp, fun hh => absurd hh hd⟩⟩
          intro y hy h1 h2 h3
          rcases List.mem_cons.1 hy with rfl | hy
          · exact absurd h3.1 hd
          · exact h.new y hy h1 h2 h3

/-- A pass of the first phase. -/
theorem pre_legal (hT : Calm e d) (hC : Consistent e d) (hmm : lo < hi) (h : Pre e d lo hi st) (hl : Legal (Ids.env e st buf junk false) tr) :
    Goes e d hi tr ∧ PreSt e d lo hi st tr (Ids.after e st tr) :=
  goes_generic hT (PreSt e d lo hi st) hi (by omega) ⟨h, fun _ h => (by cases h), rfl, fun _ h => (by cases h), ⟨fun hh => ⟨hh, fun _ h => (by cases h)⟩, fun hh => hh.1⟩⟩
    (fun tr ev x _ hJ hok hw hl hin hp => preSt_step hT hC hmm hJ hok hw hl hin hp) tr hl

theorem pre_pass (hT : Calm e d) (hC : Consistent e d) (hmm : lo < hi) (h : Pre e d lo hi st) {s : State}
    (hr : Reach (Ids.env e st buf junk false) s) : Goes e d hi s.trace ∧ PreSt e d lo hi st s.trace (Ids.after e st s.trace) :=
  pre_legal hT hC hmm h (inv_reach (e := Ids.env e st buf junk false) hT.named hr).legal

/-! ## The calls of the delegate -/

theorem pre_calls {tr : List Event} (h : ∀ ev ∈ tr, ev.visit ≠ .post) :
    visits .pre (tr.filterMap (preCall e d lo)) = (visits .pre tr).filter fun p => !e.error p && decide (¬ depth p < lo) := by
  induction tr with
  | nil => rfl
  | cons ev tr ih =>
    have ih := ih fun x hx => h x (List.mem_cons_of_mem _ hx)
    have hp := h ev List.mem_cons_self
    rw [visits_cons, List.filterMap_cons]
    unfold preCall
    by_cases h1 : ev.visit = .err ∨ e.error ev.pos = true
    · rw [if_pos h1]
      have h2 : visits .pre (tr.filterMap (preCall e d lo)) =
          (if ev.visit = .pre then ev.pos :: visits .pre tr else visits .pre tr).filter fun p => !e.error p && decide (¬ depth p < lo) := by
        rw [ih]
        split
        · rename_i h2
          have : e.error ev.pos = true := h1.resolve_left (by rw [h2]; simp)
          rw [List.filter_cons, if_neg (by simp [this])]
        · rfl
      split
      · rename_i hx
        split at hx
        · cases hx
        · exact h2
      · rename_i hx
        split at hx
        · cases hx
          rw [visits_cons, if_neg (by simp)]
          exact h2
        · cases hx
    · rw [if_neg h1]
      have h2 : ev.visit = .pre := by
        cases hh : ev.visit with
        | pre => rfl
        | err => exact absurd (Or.inl hh) h1
        | post => exact absurd hh hp
      have h3 : e.error ev.pos = false := by
        cases hh : e.error ev.pos with
        | true => exact absurd (Or.inr hh) h1
        | false => rfl
      rw [if_pos h2, List.filter_cons]
      by_cases h4 : depth ev.pos < lo
      · rw [if_pos h4, if_neg (by simp [h4])]
        exact ih
      · rw [if_neg h4, if_pos (by simp [h3]; omega)]
        dsimp only
        rw [visits_cons, if_pos rfl]
        exact congrArg (ev.pos :: ·) ih

theorem err_calls (hT : Calm e d) {tr : List Event} :
    (visits .err (tr.filterMap (preCall e d lo))).filter e.isDir = (visits .err tr).filter fun p => e.isDir p && decide (lo ≤ depth p + 1) := by
  induction tr with
  | nil => rfl
  | cons ev tr ih =>
    rw [visits_cons, List.filterMap_cons]
    unfold preCall
    by_cases h1 : ev.visit = .err ∨ e.error ev.pos = true
    · rw [if_pos h1]
      by_cases h2 : ev.visit = .err
      · rw [if_pos h2, List.filter_cons]
        by_cases h3 : depth ev.pos + 1 ≥ lo
        · rw [if_pos h3]
          dsimp only
          rw [visits_cons, if_pos rfl, List.filter_cons]
          have : (e.isDir ev.pos && decide (lo ≤ depth ev.pos + 1)) = e.isDir ev.pos := by simp [h3]
          rw [this]
          split
          · exact congrArg (ev.pos :: ·) ih
          · exact ih
        · rw [if_neg h3, if_neg (by simp; omega)]
          exact ih
      · have := hT.error _ (h1.resolve_left h2)
        rw [if_neg h2]
        by_cases h3 : depth ev.pos + 1 ≥ lo
        · rw [if_pos h3]
          dsimp only
          rw [visits_cons, if_pos rfl, List.filter_cons, if_neg (by simp [this])]
          exact ih
        · rw [if_neg h3]
          exact ih
    · rw [if_neg h1, if_neg (fun h2 => h1 (Or.inl h2))]
      by_cases h4 : depth ev.pos < lo
      · rw [if_pos h4]
        exact ih
      · rw [if_neg h4]
        dsimp only
        rw [visits_cons, if_neg (by simp)]
        exact ih

theorem post_calls {tr : List Event} : visits .post (tr.filterMap (preCall e d lo)) = [] := by
  induction tr with
  | nil => rfl
  | cons ev tr ih =>
    rw [List.filterMap_cons]
    unfold preCall
    by_cases h1 : ev.visit = .err ∨ e.error ev.pos = true
    · rw [if_pos h1]
      by_cases h2 : depth ev.pos + 1 ≥ lo
      · rw [if_pos h2]
        dsimp only
        rw [visits_cons, if_neg (by simp)]
        exact ih
      · rw [if_neg h2]
        exact ih
    · rw [if_neg h1]
      by_cases h4 : depth ev.pos < lo
      · rw [if_pos h4]
        exact ih
      · rw [if_neg h4]
        dsimp only
        rw [visits_cons, if_neg (by simp)]
        exact ih

/-- Every error is reported, and nothing else is. -/
theorem err_mem {tr : List Event} (p : Pos) : p ∈ visits .err (tr.filterMap (preCall e d lo)) ↔
    lo ≤ depth p + 1 ∧ ∃ ev ∈ tr, ev.pos = p ∧ (ev.visit = .err ∨ e.error p = true) := by
  rw [visits_iff]
  constructor
  · rintro ⟨x, h1, h2, h3⟩
    obtain ⟨ev, h4, h5⟩ := List.mem_filterMap.1 h1
    unfold preCall at h5
    split at h5
    · rename_i h6
      split at h5
      · rename_i h7
        cases h5
        exact ⟨h3 ▸ h7, ev, h4, h3, h3 ▸ h6⟩
      · cases h5
    · split at h5
      · cases h5
      · cases h5
        cases h2
  · rintro ⟨h1, ev, h2, h3, h4⟩
    refine ⟨⟨.err, p, ev.path, d .err p⟩, List.mem_filterMap.2 ⟨ev, h2, ?_⟩, rfl, rfl⟩
    unfold preCall
    rw [h3, if_pos h4, if_pos h1]

theorem entered_up {ev : Event} (hle : Legal e tr) (hok : EvOk e tr ev) {dir : Pos} (hd : dir ≠ []) (hne : dir ≠ ev.pos) (hs : dir <:+ ev.pos) : dir ∈ entered tr := by
  cases hp : ev.pos with
  | nil => exact absurd hp (inb_ne hok.inb)
  | cons j p =>
    rw [hp] at hs hne
    have hs := (List.suffix_cons_iff.1 hs).resolve_left hne
    have hpar := hok.parent
    rw [hp] at hpar
    rcases hpar with hpar | hpar
    · have hpar : p = [] := hpar
      rw [hpar] at hs
      exact absurd (List.suffix_nil.1 hs) hd
    · exact legal_ancestors tr p dir hle hpar hs hd

/-- A directory comes before what is in it. -/
theorem legal_order (h : Legal e tr) : (visits .pre tr).Pairwise fun later earlier => ¬ later <:+ earlier := by
  induction tr with
  | nil => exact List.Pairwise.nil
  | cons ev tr ih =>
    have ih := ih h.2
    rw [visits_cons]
    split
    · rename_i hv
      refine List.pairwise_cons.2 ⟨fun q hq hs => ?_, ih⟩
      obtain ⟨ev', h1, h2, h3⟩ := visits_iff.1 hq
      obtain ⟨a, b, h4⟩ := List.append_of_mem h1
      have hl := h.2
      rw [h4] at hl
      have hfresh : ev.pos ∉ visits .pre tr := hv ▸ h.1.fresh
      by_cases hne : ev.pos = ev'.pos
      · exact hfresh (by rw [hne, h3]; exact hq)
      · have hd : ev.pos ∈ entered b := by
          have hs : ev.pos <:+ ev'.pos := by rw [h3]; exact hs
          have hok := legal_split hl
          have hle := (legal_suffix hl).2
          exact entered_up hle hok (inb_ne h.1.inb) hne hs
        refine hfresh (entered_sub _ _ ?_)
        rw [h4]
        unfold entered at hd ⊢
        rw [List.filter_append, List.map_append, List.filter_cons]
        refine List.mem_append_right _ ?_
        split
        · exact List.mem_cons_of_mem _ hd
        · exact hd
    · exact ih

end Verif.Bftw
