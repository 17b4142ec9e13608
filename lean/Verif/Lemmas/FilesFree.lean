import Verif.Lemmas.FilesFlush

namespace Verif.Files

/-! ## Closing everything -/

/-- A diagnostic can be written, whatever the table of files is. -/
theorem message_files {x : Option Nat} {w : W} {fs : List (FileId × Option CtxFile)}
    (b : Base x { w with files := fs }) (m : Msg) : ∃ w', message w m = .ok w' ∧ Said w w' := by
  unfold message
  rcases b.cerr with hc | hc
  · have hc : w.cerr = none := hc
    rw [hc]
    exact ⟨w, rfl, Said.refl w⟩
  · have hc : w.cerr = some 0 := hc
    rw [hc]
    dsimp only
    have hlt : 0 < w.strms.length := by have : 2 ≤ w.strms.length := b.len; omega
    have e : w.strms[0]? = _ := List.getElem?_eq_getElem hlt
    obtain ⟨h1, h2, h3⟩ := b.std 0 _ e (by omega)
    have hl := h2.mpr (Or.inr hc)
    rw [cffile_ok e hl h1, ok_bind]
    refine ⟨_, rfl, keeps_put e (writeAll_step m _).shape, rfl, fun h s es => ?_⟩
    rw [put_get w 0 h _ hlt]
    by_cases hh : h = 0
    · subst hh
      rw [if_pos rfl]
      rw [e] at es
      cases es
      exact ⟨_, rfl, writeAll_step m _, fun x => absurd rfl x⟩
    · rw [if_neg hh]
      exact ⟨s, es, Step.refl s, fun _ => rfl⟩

/-- What is left of a stream after it was flushed and closed without an error. -/
structure Complete (s s' : Strm) : Prop where
  id : s'.id = s.id
  sink : s'.sink = s.sink ++ s.pend
  given : s'.given = s.given
  lost : s'.lost = s.lost

/-- Plain stderr, whose errors are ignored. -/
def Silent (w : W) (cf : CtxFile) : Prop := w.cerr = some cf.cfile ∧ cf.path = none

theorem closeOwned_ok {w : W} {h : Nat} {s : Strm} (e : w.strms[h]? = some s)
    (l : s.live = true) (o : s.isOpen = true)
    (c : w.cout ≠ some h ∧ w.cerr ≠ some h → s.close = true) (nh : h ∉ w.hooks) (io : Io) :
    ∃ s' b, closeOwned w h io = .ok (w.put h s', b) ∧ s'.id = s.id ∧ s'.close = s.close ∧
      (w.cout ≠ some h ∧ w.cerr ≠ some h → s'.live = false ∧ s'.isOpen = false) ∧
      (¬ (w.cout ≠ some h ∧ w.cerr ≠ some h) → s'.live = true ∧ s'.isOpen = true) ∧
      (b = false → s'.sink = s.sink ++ s.pend ∨ s' = s) ∧
      (b = false → s.pend = [] → Complete s s') ∧
      (io.Fine → b = false) := by
  unfold closeOwned
  by_cases hs : w.cout ≠ some h ∧ w.cerr ≠ some h
  · rw [if_pos hs, cfclose_owned e l o (c hs) nh, ok_bind]
    have st := fflush_step s io
    refine ⟨_, _, rfl, st.shape.id, st.shape.close, fun _ => ⟨rfl, rfl⟩, fun x => absurd hs x,
      ?_, ?_, ?_⟩
    · intro hb
      cases io with
      | done k => exact Or.inl rfl
      | fail => simp [fclose, fflush] at hb
    · intro hb _
      cases io with
      | done k => exact ⟨rfl, rfl, rfl, rfl⟩
      | fail => simp [fclose, fflush] at hb
    · intro hf
      cases io with
      | done k => simp [fclose, fflush]
      | fail => exact hf.elim
  · rw [if_neg hs]
    refine ⟨s, false, ?_, rfl, rfl, fun x => absurd x hs, fun _ => ⟨l, o⟩, fun _ => Or.inr rfl,
      fun _ hp => ⟨rfl, by rw [hp]; simp, rfl, rfl⟩, fun _ => rfl⟩
    have : w.put h s = w := by
      unfold W.put
      have : w.strms.set h s = w.strms := by
        obtain ⟨hlt, he⟩ := List.getElem?_eq_some_iff.mp e
        rw [← he]
        exact List.set_getElem_self hlt
      rw [this]
    rw [this]

theorem put_put (w : W) (h : Nat) (s s' : Strm) : (w.put h s).put h s' = w.put h s' := by
  simp [W.put]

theorem ctxFclose_ok {w : W} {id : FileId} {cf : CtxFile} {rest : List (FileId × Option CtxFile)}
    (b : Base none { w with files := (id, some cf) :: rest }) (o : FlushIo) :
    ∃ w' bad s, ctxFclose w cf o = .ok (w', bad) ∧ w.strms[cf.cfile]? = some s ∧
      Base none { w' with files := rest } ∧
      (w'.files = w.files ∧ w'.cout = w.cout ∧ w'.cerr = w.cerr ∧ w'.acts = w.acts ∧
        w'.strms.length = w.strms.length) ∧
      (∀ (h : Nat) (x : Strm), w.strms[h]? = some x → ∃ x', w'.strms[h]? = some x' ∧
        x'.id = x.id) ∧
      (∀ (h : Nat) (x : Strm), w.strms[h]? = some x → h ≠ cf.cfile → h ≠ 0 →
        w'.strms[h]? = some x) ∧
      (bad = false → (∀ (h : Nat) (x : Strm), w.strms[h]? = some x → h ≠ cf.cfile →
          w'.strms[h]? = some x) ∧
        (¬ Silent w cf → cf.error = 0 ∧ s.err = false ∧
          ∃ s', w'.strms[cf.cfile]? = some s' ∧ Complete s s')) ∧
      (o.Fine → cf.error = 0 → s.err = false → bad = false) := by
  obtain ⟨c, s, g1, g2, g3, g4, g5, g6⟩ := b.tracked _ List.mem_cons_self
  cases g1
  have g2 : w.strms[cf.cfile]? = some s := g2
  have g6 : cf.hook = true ↔ cf.cfile ∈ w.hooks := g6
  have hlt := get_lt g2
  have st := fflush_step s o.flush
  -- the stream is not hooked any more
  have nd : w.hooks.Nodup := b.nodup
  have hhooks : (unhook (w.put cf.cfile (ctxFflush s o.flush).1) cf).hooks =
      w.hooks.erase cf.cfile := by
    unfold unhook
    by_cases hk : cf.hook = true
    · rw [if_pos hk]; rfl
    · rw [if_neg hk]
      exact (List.erase_of_not_mem (fun x => hk (g6.mpr x))).symm
  have hstrms : (unhook (w.put cf.cfile (ctxFflush s o.flush).1) cf).strms =
      w.strms.set cf.cfile (ctxFflush s o.flush).1 := by
    unfold unhook
    by_cases hk : cf.hook = true
    · rw [if_pos hk]; rfl
    · rw [if_neg hk]; rfl
  obtain ⟨f1, f2, f3, f4, f5⟩ : (unhook (w.put cf.cfile (ctxFflush s o.flush).1) cf).files = w.files
      ∧ (unhook (w.put cf.cfile (ctxFflush s o.flush).1) cf).cout = w.cout
      ∧ (unhook (w.put cf.cfile (ctxFflush s o.flush).1) cf).cerr = w.cerr
      ∧ (unhook (w.put cf.cfile (ctxFflush s o.flush).1) cf).acts = w.acts
      ∧ (unhook (w.put cf.cfile (ctxFflush s o.flush).1) cf).ret = w.ret := by
    unfold unhook
    by_cases hk : cf.hook = true
    · rw [if_pos hk]; exact ⟨rfl, rfl, rfl, rfl, rfl⟩
    · rw [if_neg hk]; exact ⟨rfl, rfl, rfl, rfl, rfl⟩
  generalize hw1 : unhook (w.put cf.cfile (ctxFflush s o.flush).1) cf = w1 at *
  have e1 : w1.strms[cf.cfile]? = some (ctxFflush s o.flush).1 := by
    rw [hstrms, List.getElem?_set, if_pos rfl, if_pos hlt]
  have hl1 : (ctxFflush s o.flush).1.live = true := st.shape.live.trans g4
  have ho1 : (ctxFflush s o.flush).1.isOpen = true := st.shape.isOpen.trans g5
  have nh1 : cf.cfile ∉ w1.hooks := by
    rw [hhooks]
    exact fun x => (nd.mem_erase_iff.mp x).1 rfl
  have hstd : w1.cout ≠ some cf.cfile ∧ w1.cerr ≠ some cf.cfile ↔ 2 ≤ cf.cfile := by
    rw [f2, f3]
    constructor
    · rintro ⟨h1, h2⟩
      refine Nat.le_of_not_lt fun hh => ?_
      rcases ((b.std _ s g2 hh).2.1).mp g4 with hx | hx
      · exact h1 hx
      · exact h2 hx
    · intro hge
      have b1 : w.cout = none ∨ w.cout = some 1 := b.cout
      have b2 : w.cerr = none ∨ w.cerr = some 0 := b.cerr
      refine ⟨fun x => ?_, fun x => ?_⟩
      · rcases b1 with y | y <;> rw [x] at y
        · cases y
        · have := Option.some.inj y; omega
      · rcases b2 with y | y <;> rw [x] at y
        · cases y
        · have := Option.some.inj y; omega
  have htr : Tracked ({ w with files := (id, some cf) :: rest } : W) cf.cfile :=
    ⟨id, cf, List.mem_cons_self, rfl⟩
  have hcl : w1.cout ≠ some cf.cfile ∧ w1.cerr ≠ some cf.cfile →
      (ctxFflush s o.flush).1.close = true := by
    intro hh
    exact st.shape.close.trans ((b.other _ s g2 (hstd.mp hh) (by simp)).1 htr)
  obtain ⟨s2, b2, h2, c1, c2, c3, c4, c5, c6, c7⟩ := closeOwned_ok e1 hl1 ho1 hcl nh1 o.close
  rw [hstd] at c3 c4
  -- the state after closing
  have e2 : ∀ k, (w1.put cf.cfile s2).strms[k]? = if k = cf.cfile then some s2 else w.strms[k]? := by
    intro k
    rw [put_get w1 _ _ _ (get_lt e1), hstrms, List.getElem?_set]
    by_cases hk : k = cf.cfile
    · rw [if_pos hk, if_pos hk]
    · rw [if_neg hk, if_neg hk, if_neg (fun x => hk x.symm)]
  have hsid : s2.id = s.id := c1.trans st.shape.id
  have hkeys : (((id, some cf) :: rest).map (·.1)).Nodup := b.keys
  rw [List.map_cons, List.nodup_cons] at hkeys
  have huniq : ∀ id' cf', (id', some cf') ∈ rest → cf'.cfile ≠ cf.cfile := by
    intro id' cf' hm hc
    obtain ⟨c, t, hc', ht, hid', _⟩ := b.tracked _ (List.mem_cons_of_mem _ hm)
    cases hc'
    have ht : w.strms[cf'.cfile]? = some t := ht
    rw [hc, g2] at ht
    cases ht
    have : id = id' := g3.symm.trans hid'
    subst this
    exact hkeys.1 (List.mem_map.mpr ⟨_, hm, rfl⟩)
  have htr' : ∀ k, k ≠ cf.cfile → (Tracked ({ w1.put cf.cfile s2 with files := rest } : W) k ↔
      Tracked ({ w with files := (id, some cf) :: rest } : W) k) := by
    intro k hk
    constructor
    · rintro ⟨i, c, hm, hc⟩
      exact ⟨i, c, List.mem_cons_of_mem _ hm, hc⟩
    · rintro ⟨i, c, hm, hc⟩
      rcases List.mem_cons.mp hm with hm | hm
      · cases hm; exact absurd hc.symm hk
      · exact ⟨i, c, hm, hc⟩
  have ntr : ¬ Tracked ({ w1.put cf.cfile s2 with files := rest } : W) cf.cfile := by
    rintro ⟨i, c, hm, hc⟩
    exact huniq i c hm hc
  have bb : Base none ({ w1.put cf.cfile s2 with files := rest } : W) := by
    refine ⟨?_, by show w1.cout = none ∨ w1.cout = some 1; rw [f2]; exact b.cout,
      by show w1.cerr = none ∨ w1.cerr = some 0; rw [f3]; exact b.cerr, hkeys.2, fun en hen => ?_,
      fun k t et hk => ?_, fun k t et hk _ => ?_, ?_, fun k hk => ?_⟩
    · show 2 ≤ (w1.strms.set _ _).length
      rw [List.length_set, hstrms, List.length_set]
      exact b.len
    · obtain ⟨c, t, p1, p2, p3, p4, p5, p6⟩ := b.tracked en (List.mem_cons_of_mem _ hen)
      have hne : c.cfile ≠ cf.cfile := huniq en.1 c (by rw [← p1]; exact hen)
      refine ⟨c, t, p1, ?_, p3, p4, p5, ?_⟩
      · show (w1.put cf.cfile s2).strms[c.cfile]? = some t
        rw [e2, if_neg hne]
        exact p2
      · show c.hook = true ↔ c.cfile ∈ w1.hooks
        rw [hhooks, nd.mem_erase_iff]
        rw [p6]
        exact ⟨fun x => ⟨hne, x⟩, fun x => x.2⟩
    · have et : (w1.put cf.cfile s2).strms[k]? = some t := et
      rw [e2] at et
      by_cases hkk : k = cf.cfile
      · rw [if_pos hkk] at et
        cases et
        obtain ⟨q1, q2⟩ := c4 (by omega)
        obtain ⟨r1, r2, r3⟩ := b.std k s (by rw [hkk]; exact g2) hk
        refine ⟨q2, ⟨fun _ => ?_, fun _ => q1⟩, fun _ => ?_⟩
        · show w1.cout = _ ∨ w1.cerr = _
          rw [f2, f3]
          exact r2.mp g4
        · rw [c2]
          exact st.shape.close.trans (r3 g4)
      · rw [if_neg hkk] at et
        have := b.std k t et hk
        show _ ∧ (_ ↔ w1.cout = _ ∨ w1.cerr = _) ∧ _
        rw [f2, f3]
        exact this
    · have et : (w1.put cf.cfile s2).strms[k]? = some t := et
      rw [e2] at et
      by_cases hkk : k = cf.cfile
      · rw [if_pos hkk] at et
        cases et
        rw [hkk]
        exact ⟨fun x => absurd x ntr, fun _ => c3 (by omega)⟩
      · rw [if_neg hkk] at et
        rw [htr' k hkk]
        exact b.other k t et hk (by simp)
    · show w1.hooks.Nodup
      rw [hhooks]
      exact nd.erase _
    · have hk : k ∈ w1.hooks := hk
      rw [hhooks, nd.mem_erase_iff] at hk
      exact (htr' k hk.1).mpr (b.hooked k hk.2)
  -- the diagnostic
  unfold ctxFclose
  rw [cffile_ok g2 g4 g5, ok_bind]
  dsimp only
  rw [hw1, h2, ok_bind]
  dsimp only
  generalize hbad : ((decide (cf.error ≠ 0) || (ctxFflush s o.flush).2 || b2) &&
    !(w.cerr == some cf.cfile && cf.path.isNone)) = bad
  have hrep : ∃ w2, reportClose (w1.put cf.cfile s2) cf bad o.msg = .ok w2 ∧
      Said (w1.put cf.cfile s2) w2 ∧ (bad = false → w2 = w1.put cf.cfile s2) := by
    unfold reportClose complain
    by_cases h1 : (bad && (w1.put cf.cfile s2).cerr.isSome) = true
    · rw [if_pos h1]
      by_cases h3 : named (w1.put cf.cfile s2) cf = true
      · rw [if_pos h3]
        obtain ⟨w2, h4, s4⟩ := message_files bb o.msg
        refine ⟨w2, h4, s4, fun x => ?_⟩
        rw [x] at h1
        simp at h1
      · rw [if_neg h3]
        exact ⟨_, rfl, Said.refl _, fun _ => rfl⟩
    · rw [if_neg h1]
      exact ⟨_, rfl, Said.refl _, fun _ => rfl⟩
  obtain ⟨w2, h3, s3, hq⟩ := hrep
  rw [h3, ok_bind]
  refine ⟨w2, bad, s, rfl, g2, ?_, ?_, fun k x ex => ?_, fun k x ex hk h0 => ?_, fun hb => ?_,
    fun hf he hs => ?_⟩
  · exact bb.keeps ⟨rfl, s3.keeps.cout, s3.keeps.cerr, s3.keeps.nfiles, s3.keeps.ignore,
      s3.keeps.hooks, s3.keeps.acts, s3.keeps.len, s3.keeps.shape⟩
  · refine ⟨s3.keeps.files.trans f1, s3.keeps.cout.trans f2, s3.keeps.cerr.trans f3,
      s3.keeps.acts.trans f4, s3.keeps.len.trans ?_⟩
    show (w1.strms.set _ _).length = _
    rw [List.length_set, hstrms, List.length_set]
  · by_cases hk : k = cf.cfile
    · have := e2 k
      rw [if_pos hk] at this
      obtain ⟨x', ex', p⟩ := s3.keeps.shape k s2 this
      rw [hk, g2] at ex
      cases ex
      exact ⟨x', ex', p.id.trans hsid⟩
    · have := e2 k
      rw [if_neg hk, ex] at this
      obtain ⟨x', ex', p⟩ := s3.keeps.shape k x this
      exact ⟨x', ex', p.id⟩
  · have := e2 k
    rw [if_neg hk, ex] at this
    obtain ⟨x', ex', _, p⟩ := s3.step k x this
    rw [ex', p h0]
  · rw [hq hb]
    refine ⟨fun k x ex hk => by rw [e2, if_neg hk]; exact ex, fun hns => ?_⟩
    have hsil : (w.cerr == some cf.cfile && cf.path.isNone) = false := by
      rw [Bool.and_eq_false_iff]
      by_cases hc : w.cerr = some cf.cfile
      · right
        cases hp : cf.path with
        | none => exact absurd ⟨hc, hp⟩ hns
        | some p => rfl
      · left
        simpa using hc
    rw [hsil, Bool.not_false, Bool.and_true] at hbad
    rw [hb, Bool.or_eq_false_iff, Bool.or_eq_false_iff] at hbad
    obtain ⟨⟨p1, p2⟩, p3⟩ := hbad
    have q1 : cf.error = 0 := by simpa using p1
    unfold ctxFflush at p2
    rw [Bool.or_eq_false_iff] at p2
    have q3 : (fflush s o.flush).2 = 0 := by simpa using p2.2
    have hdone : (ctxFflush s o.flush).1 = { s with sink := s.sink ++ s.pend, pend := [] } := by
      unfold ctxFflush
      cases ho : o.flush with
      | done k => rfl
      | fail k keep er => rw [ho] at q3; simp [fflush] at q3
    refine ⟨q1, p2.1, s2, by rw [e2, if_pos rfl], ?_⟩
    have cc := c6 p3 (by rw [hdone])
    rw [hdone] at cc
    exact ⟨cc.id, by rw [cc.sink]; simp, cc.given, cc.lost⟩
  · rw [← hbad]
    have p2 : (ctxFflush s o.flush).2 = false := by
      unfold ctxFflush
      rw [hs]
      have := hf.1
      cases ho : o.flush with
      | done k => rfl
      | fail => rw [ho] at this; exact this.elim
    rw [p2, c7 hf.2, he]
    simp

theorem freeLoop_ok (o : Nat → FlushIo) (fs : List (FileId × Option CtxFile)) :
    ∀ {w : W}, Base none { w with files := fs } →
    ∃ w' bad, freeLoop o w fs = .ok (w', bad) ∧ Base none { w' with files := [] } ∧
      (w'.cout = w.cout ∧ w'.cerr = w.cerr ∧ w'.acts = w.acts ∧
        w'.strms.length = w.strms.length) ∧
      (∀ (h : Nat) (x : Strm), w.strms[h]? = some x → ∃ x', w'.strms[h]? = some x' ∧
        x'.id = x.id) ∧
      (∀ (h : Nat) (x : Strm), w.strms[h]? = some x → h ≠ 0 →
        (∀ id cf, (id, some cf) ∈ fs → cf.cfile ≠ h) → w'.strms[h]? = some x) ∧
      (bad = false → (∀ (h : Nat) (x : Strm), w.strms[h]? = some x →
          (∀ id cf, (id, some cf) ∈ fs → cf.cfile ≠ h) → w'.strms[h]? = some x) ∧
        (∀ (id : FileId) (cf : CtxFile) (s : Strm), (id, some cf) ∈ fs → ¬ Silent w cf →
          w.strms[cf.cfile]? = some s → cf.error = 0 ∧ s.err = false ∧
          ∃ s', w'.strms[cf.cfile]? = some s' ∧ Complete s s')) ∧
      ((∀ h, (o h).Fine) → (∀ (id : FileId) (cf : CtxFile) (s : Strm), (id, some cf) ∈ fs →
        w.strms[cf.cfile]? = some s → cf.error = 0 ∧ s.err = false) → bad = false) := by
  induction fs with
  | nil =>
    intro w b
    exact ⟨w, false, rfl, b, ⟨rfl, rfl, rfl, rfl⟩, fun h x ex => ⟨x, ex, rfl⟩,
      fun h x ex _ _ => ex, fun _ => ⟨fun h x ex _ => ex,
      fun _ _ _ hm => (List.not_mem_nil hm).elim⟩, fun _ _ => rfl⟩
  | cons en rest ih =>
    intro w b
    obtain ⟨id, v⟩ := en
    obtain ⟨cf, s0, hv, hs0, hid0, _⟩ := b.tracked _ List.mem_cons_self
    simp only at hv
    subst hv
    have hs0 : w.strms[cf.cfile]? = some s0 := hs0
    obtain ⟨w1, bad1, s, h1, hs, b1, ⟨_, p2, p3, p4, p5⟩, q1, q2, q3, q4⟩ :=
      ctxFclose_ok b (o cf.cfile)
    rw [hs0] at hs
    cases hs
    obtain ⟨w2, bad2, h2, b2, ⟨p6, p7, p8, p9⟩, q5, q6, q7, q8⟩ := ih b1
    have hkeys : (((id, some cf) :: rest).map (·.1)).Nodup := b.keys
    rw [List.map_cons, List.nodup_cons] at hkeys
    have huniq : ∀ id' cf', (id', some cf') ∈ rest → cf'.cfile ≠ cf.cfile := by
      intro id' cf' hm hc
      obtain ⟨c, t, hc', ht, hid', _⟩ := b.tracked _ (List.mem_cons_of_mem _ hm)
      cases hc'
      have ht : w.strms[cf'.cfile]? = some t := ht
      rw [hc, hs0] at ht
      cases ht
      have : id = id' := hid0.symm.trans hid'
      subst this
      exact hkeys.1 (List.mem_map.mpr ⟨_, hm, rfl⟩)
    refine ⟨w2, bad1 || bad2, ?_, b2, ⟨p6.trans p2, p7.trans p3, p8.trans p4, p9.trans p5⟩,
      fun h x ex => ?_, fun h x ex h0 hn => ?_, fun hb => ⟨fun h x ex hn => ?_,
      fun i c x hm hns ex => ?_⟩, fun hf hall => ?_⟩
    · show (ctxFclose w cf (o cf.cfile) >>= _) = _
      rw [h1, ok_bind, h2, ok_bind]
    · obtain ⟨y, ey, hy⟩ := q1 h x ex
      obtain ⟨z, ez, hz⟩ := q5 h y ey
      exact ⟨z, ez, hz.trans hy⟩
    · exact q6 h x (q2 h x ex (fun y => hn id cf List.mem_cons_self y.symm) h0) h0
        (fun i c hm => hn i c (List.mem_cons_of_mem _ hm))
    · rw [Bool.or_eq_false_iff] at hb
      exact (q7 hb.2).1 h x ((q3 hb.1).1 h x ex (fun y => hn id cf List.mem_cons_self y.symm))
        (fun i c hm => hn i c (List.mem_cons_of_mem _ hm))
    · rw [Bool.or_eq_false_iff] at hb
      rcases List.mem_cons.mp hm with hm | hm
      · cases hm
        rw [hs0] at ex
        cases ex
        obtain ⟨a1, a2, s', a3, a4⟩ := (q3 hb.1).2 hns
        exact ⟨a1, a2, s', (q7 hb.2).1 _ s' a3 huniq, a4⟩
      · have ex1 := (q3 hb.1).1 _ x ex (huniq i c hm)
        refine (q7 hb.2).2 i c x hm (fun y => hns ⟨?_, y.2⟩) ex1
        rw [← p3]
        exact y.1
    · rw [Bool.or_eq_false_iff]
      obtain ⟨a1, a2⟩ := hall id cf s0 List.mem_cons_self hs0
      have hb1 := q4 (hf _) a1 a2
      refine ⟨hb1, q8 hf fun i c x hm ex => ?_⟩
      obtain ⟨y, ey, _⟩ : ∃ y, w.strms[c.cfile]? = some y ∧ True := by
        have : c.cfile < w.strms.length := by rw [← p5]; exact get_lt ex
        exact ⟨_, List.getElem?_eq_getElem this, trivial⟩
      have := (q3 hb1).1 _ y ey (huniq i c hm)
      rw [ex] at this
      cases this
      exact hall i c _ (List.mem_cons_of_mem _ hm) ey

/-- `bfs_ctx_free()`. -/
theorem ctxFree_ok {w : W} (b : Base none w) (o : Nat → FlushIo) :
    ∃ w' bad, ctxFree w o = .ok (w', bad) ∧
      (∀ (h : Nat) (s : Strm), w'.strms[h]? = some s → s.live = false ∧ (s.isOpen = true ↔ h < 2)) ∧
      w'.hooks = [] ∧ w'.files = [] ∧ w'.acts = w.acts ∧ w'.strms.length = w.strms.length ∧
      (∀ (h : Nat) (x : Strm), w.strms[h]? = some x → h ≠ 0 → ¬ Tracked w h →
        ∃ x', w'.strms[h]? = some x' ∧ x'.id = x.id ∧ x'.given = x.given ∧ x'.sink = x.sink) ∧
      (bad = false → ∀ (id : FileId) (cf : CtxFile) (s : Strm), (id, some cf) ∈ w.files →
        ¬ Silent w cf → w.strms[cf.cfile]? = some s → cf.error = 0 ∧ s.err = false ∧
        ∃ s', w'.strms[cf.cfile]? = some s' ∧ Complete s s') ∧
      ((∀ h, (o h).Fine) → Clean w → bad = false) := by
  obtain ⟨w1, bad, h1, b1, ⟨p1, p2, p3, p4⟩, q1, q2, q3, q4⟩ := freeLoop_ok o w.files (w := w) b
  have hh1 : w1.hooks = [] := by
    refine List.eq_nil_iff_forall_not_mem.mpr fun k hk => ?_
    obtain ⟨_, _, hm, _⟩ := b1.hooked k hk
    cases hm
  -- closing one of the standard streams
  have std : ∀ (v : W) (h : Option Nat) (io : Io), Base none { v with files := [] } → v.hooks = [] →
      (∀ k, h = some k → ∃ s, v.strms[k]? = some s ∧ s.live = true ∧ s.close = false) →
      ∃ v', cfcloseOpt v h io = .ok v' ∧ v'.hooks = [] ∧ v'.files = v.files ∧ v'.acts = v.acts ∧
        v'.cout = v.cout ∧ v'.cerr = v.cerr ∧ v'.strms.length = v.strms.length ∧
        ∀ (k : Nat) (s : Strm), v.strms[k]? = some s → ∃ s', v'.strms[k]? = some s' ∧
          s' = if h = some k then { s with live := false } else s := by
    intro v h io bv hv hs
    cases h with
    | none => exact ⟨v, rfl, hv, rfl, rfl, rfl, rfl, rfl, fun k s e => ⟨s, e, by simp⟩⟩
    | some k =>
      obtain ⟨s, e, l, c⟩ := hs k rfl
      unfold cfcloseOpt
      dsimp only
      rw [cfclose_std e l c (by rw [hv]; simp), ok_bind]
      refine ⟨_, rfl, hv, rfl, rfl, rfl, rfl, by simp [W.put], fun k' s' e' => ?_⟩
      rw [put_get v k k' _ (get_lt e)]
      by_cases hk : k' = k
      · subst hk
        rw [e] at e'
        cases e'
        exact ⟨_, if_pos rfl, (if_pos rfl).symm⟩
      · rw [if_neg hk]
        exact ⟨s', e', (if_neg (fun x => hk (Option.some.inj x).symm)).symm⟩
  unfold ctxFree
  rw [h1, ok_bind]
  obtain ⟨w2, h2, c1, c2, c3, c4, c5, c6, c7⟩ := std { w1 with files := [] } w.cout (.done 0) b1 hh1
    (by
      intro k hk
      have hlt : 2 ≤ w1.strms.length := b1.len
      have hk1 : k = 1 := by
        rcases b.cout with x | x <;> rw [hk] at x
        · cases x
        · exact Option.some.inj x
      have e := List.getElem?_eq_getElem (l := w1.strms) (i := k) (by omega)
      obtain ⟨_, r2, r3⟩ := b1.std k _ e (by omega)
      have hl := r2.mpr (Or.inl (p1.trans hk))
      exact ⟨_, e, hl, r3 hl⟩)
  rw [h2, ok_bind]
  have b2 : ∀ k, w.cerr = some k → ∃ s, w2.strms[k]? = some s ∧ s.live = true ∧ s.close = false := by
    intro k hk
    have hlt : 2 ≤ w1.strms.length := b1.len
    have hk1 : k = 0 := by
      rcases b.cerr with x | x <;> rw [hk] at x
      · cases x
      · exact Option.some.inj x
    have e := List.getElem?_eq_getElem (l := w1.strms) (i := k) (by omega)
    obtain ⟨_, r2, r3⟩ := b1.std k _ e (by omega)
    have hl := r2.mpr (Or.inr (p2.trans hk))
    obtain ⟨s', e', hs'⟩ := c7 k _ e
    have hne : w.cout ≠ some k := by
      rw [hk1]
      rcases b.cout with x | x <;> rw [x] <;> simp
    rw [if_neg hne] at hs'
    exact ⟨s', e', by rw [hs']; exact hl, by rw [hs']; exact r3 hl⟩
  have std2 : ∃ v', cfcloseOpt w2 w.cerr (.done 0) = .ok v' ∧ v'.hooks = [] ∧ v'.files = w2.files ∧
      v'.acts = w2.acts ∧ v'.strms.length = w2.strms.length ∧
      ∀ (k : Nat) (s : Strm), w2.strms[k]? = some s → ∃ s', v'.strms[k]? = some s' ∧
        s' = if w.cerr = some k then { s with live := false } else s := by
    cases hc : w.cerr with
    | none => exact ⟨w2, rfl, c1, rfl, rfl, rfl, fun k s e => ⟨s, e, by simp⟩⟩
    | some k =>
      obtain ⟨s, e, l, c⟩ := b2 k hc
      unfold cfcloseOpt
      dsimp only
      rw [cfclose_std e l c (by rw [c1]; simp), ok_bind]
      refine ⟨_, rfl, c1, rfl, rfl, by simp [W.put], fun k' s' e' => ?_⟩
      rw [put_get w2 k k' _ (get_lt e)]
      by_cases hk : k' = k
      · subst hk
        rw [e] at e'
        cases e'
        exact ⟨_, if_pos rfl, (if_pos rfl).symm⟩
      · rw [if_neg hk]
        exact ⟨s', e', (if_neg (fun x => hk (Option.some.inj x).symm)).symm⟩
  obtain ⟨w3, h3, d1, d2, d3, d6, d7⟩ := std2
  rw [h3, ok_bind]
  -- both closed
  have fin : ∀ (k : Nat) (s : Strm), w1.strms[k]? = some s → ∃ s', w3.strms[k]? = some s' ∧
      s'.id = s.id ∧ s'.given = s.given ∧ s'.sink = s.sink ∧ s'.lost = s.lost ∧
      s'.isOpen = s.isOpen ∧
      (s'.live = true → s.live = true ∧ w.cout ≠ some k ∧ w.cerr ≠ some k) := by
    intro k s e
    obtain ⟨s', e', hs'⟩ := c7 k s e
    obtain ⟨s'', e'', hs''⟩ := d7 k s' e'
    refine ⟨s'', e'', ?_⟩
    by_cases h1 : w.cout = some k
    · rw [if_pos h1] at hs'
      by_cases h2 : w.cerr = some k
      · rw [if_pos h2] at hs''
        subst hs'' hs'
        exact ⟨rfl, rfl, rfl, rfl, rfl, fun x => by simp at x⟩
      · rw [if_neg h2] at hs''
        subst hs'' hs'
        exact ⟨rfl, rfl, rfl, rfl, rfl, fun x => by simp at x⟩
    · rw [if_neg h1] at hs'
      by_cases h2 : w.cerr = some k
      · rw [if_pos h2] at hs''
        subst hs'' hs'
        exact ⟨rfl, rfl, rfl, rfl, rfl, fun x => by simp at x⟩
      · rw [if_neg h2] at hs''
        subst hs'' hs'
        exact ⟨rfl, rfl, rfl, rfl, rfl, fun x => ⟨x, h1, h2⟩⟩
  have hlen : w3.strms.length = w1.strms.length := d6.trans c6
  refine ⟨w3, bad, rfl, fun h s es => ?_, d1, d2.trans c2, d3.trans (c3.trans p3),
    hlen.trans p4, fun h x ex h0 ht => ?_, fun hb id cf s hm hns es => ?_, fun hf c => ?_⟩
  · have hlt : h < w1.strms.length := by rw [← hlen]; exact get_lt es
    have e := List.getElem?_eq_getElem hlt
    obtain ⟨s', e', _, _, _, _, q5, q6⟩ := fin h _ e
    rw [es] at e'
    cases e'
    by_cases h2 : h < 2
    · obtain ⟨r1, r2, _⟩ := b1.std h _ e h2
      refine ⟨?_, by rw [q5]; exact ⟨fun _ => h2, fun _ => r1⟩⟩
      refine Bool.eq_false_iff.mpr fun x => ?_
      obtain ⟨x1, x2, x3⟩ := q6 x
      rcases r2.mp x1 with y | y
      · exact x2 (p1.symm.trans y)
      · exact x3 (p2.symm.trans y)
    · obtain ⟨_, r2⟩ := b1.other h _ e (by omega) (by simp)
      obtain ⟨r3, r4⟩ := r2 (by rintro ⟨_, _, hm, _⟩; cases hm)
      refine ⟨Bool.eq_false_iff.mpr fun x => ?_, ?_⟩
      · rw [(q6 x).1] at r3; cases r3
      · rw [q5, r4]
        exact ⟨fun x => (by cases x), fun x => absurd x h2⟩
  · have e1 := q2 h x ex h0 (fun id cf hm hc => ht ⟨id, cf, hm, hc⟩)
    obtain ⟨s', e', a1, a2, a3, _⟩ := fin h x e1
    exact ⟨s', e', a1, a2, a3⟩
  · obtain ⟨a1, a2, s', a3, a4⟩ := (q3 hb).2 id cf s hm hns es
    obtain ⟨s'', e'', g1, g2, g3, g4, _⟩ := fin _ s' a3
    exact ⟨a1, a2, s'', e'', g1.trans a4.id, g3.trans a4.sink, g2.trans a4.given, g4.trans a4.lost⟩
  · exact q4 hf fun id cf s hm es => ⟨c.files id cf hm, (c.strms _ s es ⟨id, cf, hm, rfl⟩).1⟩

end Verif.Files
