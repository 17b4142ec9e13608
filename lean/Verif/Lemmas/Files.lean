import Verif.Spec.Files

namespace Verif.Files

theorem ok_bind {α β : Type} (a : α) (f : α → Out β) : (Out.ok a >>= f) = f a := rfl

/-! ## Single streams -/

/-- Nothing is missing from a stream without errors. -/
def Good (s : Strm) : Prop := s.lost = false → s.sink ++ s.pend = s.given

/-- The parts of a stream that I/O does not change. -/
structure Shape (s s' : Strm) : Prop where
  id : s'.id = s.id
  colors : s'.colors = s.colors
  close : s'.close = s.close
  live : s'.live = s.live
  isOpen : s'.isOpen = s.isOpen

theorem Shape.refl (s : Strm) : Shape s s := ⟨rfl, rfl, rfl, rfl, rfl⟩

theorem Shape.trans {a b c : Strm} (h : Shape a b) (g : Shape b c) : Shape a c :=
  ⟨g.id.trans h.id, g.colors.trans h.colors, g.close.trans h.close, g.live.trans h.live,
    g.isOpen.trans h.isOpen⟩

/-- I/O that does not clear the error indicator. -/
structure Step (s s' : Strm) : Prop where
  shape : Shape s s'
  good : Good s → Good s'
  err : s.err = true → s'.err = true
  lost : s'.lost = true → s.lost = true ∨ s'.err = true
  keeps : s.lost = true → s'.lost = true

theorem Step.refl (s : Strm) : Step s s :=
  ⟨Shape.refl s, id, id, Or.inl, id⟩

theorem Step.trans {a b c : Strm} (h : Step a b) (g : Step b c) : Step a c where
  shape := h.shape.trans g.shape
  good := fun x => g.good (h.good x)
  err := fun x => g.err (h.err x)
  lost := fun x => by
    rcases g.lost x with y | y
    · rcases h.lost y with z | z
      · exact Or.inl z
      · exact Or.inr (g.err z)
    · exact Or.inr y
  keeps := fun x => g.keeps (h.keeps x)

theorem fwrite_step (s : Strm) (d : Bytes) (io : Io) : Step s (fwrite s d io).1 := by
  cases io with
  | done k =>
    refine ⟨⟨rfl, rfl, rfl, rfl, rfl⟩, fun g h => ?_, id, Or.inl, id⟩
    show s.sink ++ (s.pend ++ d).take k ++ (s.pend ++ d).drop k = s.given ++ d
    rw [List.append_assoc, List.take_append_drop, ← List.append_assoc, g h]
  | fail k keep e =>
    exact ⟨⟨rfl, rfl, rfl, rfl, rfl⟩, fun _ h => by simp [fwrite] at h, fun _ => rfl,
      fun _ => Or.inr rfl, fun _ => rfl⟩

theorem fflush_step (s : Strm) (io : Io) : Step s (fflush s io).1 := by
  cases io with
  | done k =>
    refine ⟨⟨rfl, rfl, rfl, rfl, rfl⟩, fun g h => ?_, id, Or.inl, id⟩
    show s.sink ++ s.pend ++ [] = s.given
    rw [List.append_nil, g h]
  | fail k keep e =>
    exact ⟨⟨rfl, rfl, rfl, rfl, rfl⟩, fun _ h => by simp [fflush] at h, fun _ => rfl,
      fun _ => Or.inr rfl, fun _ => rfl⟩

theorem writeAll_step (m : Msg) : ∀ s : Strm, Step s (writeAll s m) := by
  induction m with
  | nil => exact fun s => Step.refl s
  | cons c rest ih =>
    obtain ⟨d, io⟩ := c
    exact fun s => (fwrite_step s d io).trans (ih _)

/-! ## The table of streams -/

theorem put_get (w : W) (h k : Nat) (s : Strm) (hlt : h < w.strms.length) :
    (w.put h s).strms[k]? = if k = h then some s else w.strms[k]? := by
  unfold W.put
  dsimp only
  rw [List.getElem?_set]
  by_cases hk : h = k
  · subst hk
    rw [if_pos rfl, if_pos rfl, if_pos hlt]
  · rw [if_neg hk, if_neg (fun x => hk x.symm)]

theorem get_lt {w : W} {h : Nat} {s : Strm} (e : w.strms[h]? = some s) : h < w.strms.length :=
  (List.getElem?_eq_some_iff.mp e).1

theorem file_ok {w : W} {h : Nat} {s : Strm} (e : w.strms[h]? = some s) (o : s.isOpen = true) :
    w.file h = .ok s := by
  unfold W.file
  rw [e]
  dsimp only
  rw [if_pos o]

theorem cfile_ok {w : W} {h : Nat} {s : Strm} (e : w.strms[h]? = some s) (o : s.live = true) :
    w.cfile h = .ok s := by
  unfold W.cfile
  rw [e]
  dsimp only
  rw [if_pos o]

theorem cffile_ok {w : W} {h : Nat} {s : Strm} (e : w.strms[h]? = some s) (l : s.live = true)
    (o : s.isOpen = true) : w.cffile h = .ok s := by
  unfold W.cffile
  rw [cfile_ok e l, ok_bind, file_ok e o]

/-- A stream is in the table of files. -/
def Tracked (w : W) (h : Nat) : Prop := ∃ id cf, (id, some cf) ∈ w.files ∧ cf.cfile = h

/-- The invariant on the files, the streams and the hooks; `x` is a stream that is just being
opened. -/
structure Base (x : Option Nat) (w : W) : Prop where
  len : 2 ≤ w.strms.length
  cout : w.cout = none ∨ w.cout = some 1
  cerr : w.cerr = none ∨ w.cerr = some 0
  keys : (w.files.map (·.1)).Nodup
  tracked : ∀ e ∈ w.files, ∃ cf s, e.2 = some cf ∧ w.strms[cf.cfile]? = some s ∧ s.id = e.1 ∧
    s.live = true ∧ s.isOpen = true ∧ (cf.hook = true ↔ cf.cfile ∈ w.hooks)
  std : ∀ (h : Nat) (s : Strm), w.strms[h]? = some s → h < 2 →
    s.isOpen = true ∧ (s.live = true ↔ (w.cout = some h ∨ w.cerr = some h)) ∧
    (s.live = true → s.close = false)
  other : ∀ (h : Nat) (s : Strm), w.strms[h]? = some s → 2 ≤ h → x ≠ some h →
    (Tracked w h → s.close = true) ∧ (¬ Tracked w h → s.live = false ∧ s.isOpen = false)
  nodup : w.hooks.Nodup
  hooked : ∀ h ∈ w.hooks, Tracked w h

/-- A change of the streams only, that keeps their shape. -/
structure Keeps (w w' : W) : Prop where
  files : w'.files = w.files
  cout : w'.cout = w.cout
  cerr : w'.cerr = w.cerr
  nfiles : w'.nfiles = w.nfiles
  ignore : w'.ignore = w.ignore
  hooks : w'.hooks = w.hooks
  acts : w'.acts = w.acts
  len : w'.strms.length = w.strms.length
  shape : ∀ (h : Nat) (s : Strm), w.strms[h]? = some s →
    ∃ s', w'.strms[h]? = some s' ∧ Shape s s'

theorem Keeps.refl (w : W) : Keeps w w :=
  ⟨rfl, rfl, rfl, rfl, rfl, rfl, rfl, rfl, fun _ s e => ⟨s, e, Shape.refl s⟩⟩

theorem Keeps.trans {a b c : W} (h : Keeps a b) (g : Keeps b c) : Keeps a c where
  files := g.files.trans h.files
  cout := g.cout.trans h.cout
  cerr := g.cerr.trans h.cerr
  nfiles := g.nfiles.trans h.nfiles
  ignore := g.ignore.trans h.ignore
  hooks := g.hooks.trans h.hooks
  acts := g.acts.trans h.acts
  len := g.len.trans h.len
  shape := fun k s e => by
    obtain ⟨s', e', p⟩ := h.shape k s e
    obtain ⟨s'', e'', q⟩ := g.shape k s' e'
    exact ⟨s'', e'', p.trans q⟩

theorem Keeps.back {w w' : W} (k : Keeps w w') {h : Nat} {s' : Strm}
    (e : w'.strms[h]? = some s') : ∃ s, w.strms[h]? = some s ∧ Shape s s' := by
  have hlt : h < w.strms.length := by rw [← k.len]; exact get_lt e
  obtain ⟨t, et, p⟩ := k.shape h _ (List.getElem?_eq_getElem hlt)
  rw [e] at et
  cases et
  exact ⟨_, List.getElem?_eq_getElem hlt, p⟩

theorem keeps_put {w : W} {h : Nat} {s s' : Strm} (e : w.strms[h]? = some s) (p : Shape s s') :
    Keeps w (w.put h s') := by
  refine ⟨rfl, rfl, rfl, rfl, rfl, rfl, rfl, by simp [W.put], fun k t et => ?_⟩
  rw [put_get w h k s' (get_lt e)]
  by_cases hk : k = h
  · subst hk
    rw [if_pos rfl]
    rw [e] at et
    cases et
    exact ⟨s', rfl, p⟩
  · rw [if_neg hk]
    exact ⟨t, et, Shape.refl t⟩

theorem tracked_keeps {w w' : W} (k : Keeps w w') {h : Nat} : Tracked w' h ↔ Tracked w h := by
  unfold Tracked
  rw [k.files]

theorem Base.keeps {x : Option Nat} {w w' : W} (b : Base x w) (k : Keeps w w') : Base x w' where
  len := by rw [k.len]; exact b.len
  cout := by rw [k.cout]; exact b.cout
  cerr := by rw [k.cerr]; exact b.cerr
  keys := by rw [k.files]; exact b.keys
  tracked := fun e he => by
    rw [k.files] at he
    obtain ⟨cf, s, h1, h2, h3, h4, h5, h6⟩ := b.tracked e he
    obtain ⟨s', e', p⟩ := k.shape _ s h2
    refine ⟨cf, s', h1, e', p.id.trans h3, p.live.trans h4, p.isOpen.trans h5, ?_⟩
    rw [k.hooks]
    exact h6
  std := fun h s' e' hlt => by
    obtain ⟨s, e, p⟩ := k.back e'
    obtain ⟨h1, h2, h3⟩ := b.std h s e hlt
    rw [p.isOpen, p.live, p.close, k.cout, k.cerr]
    exact ⟨h1, h2, h3⟩
  other := fun h s' e' hlt hx => by
    obtain ⟨s, e, p⟩ := k.back e'
    rw [tracked_keeps k, p.close, p.live, p.isOpen]
    exact b.other h s e hlt hx
  nodup := by rw [k.hooks]; exact b.nodup
  hooked := fun h hh => by
    rw [k.hooks] at hh
    exact (tracked_keeps k).mpr (b.hooked h hh)

/-- A diagnostic: only stderr is touched. -/
structure Said (w w' : W) : Prop where
  keeps : Keeps w w'
  ret : w'.ret = w.ret
  step : ∀ (h : Nat) (s : Strm), w.strms[h]? = some s →
    ∃ s', w'.strms[h]? = some s' ∧ Step s s' ∧ (h ≠ 0 → s' = s)

theorem Said.refl (w : W) : Said w w :=
  ⟨Keeps.refl w, rfl, fun _ s e => ⟨s, e, Step.refl s, fun _ => rfl⟩⟩

theorem message_ok {x : Option Nat} {w : W} (b : Base x w) (m : Msg) :
    ∃ w', message w m = .ok w' ∧ Said w w' := by
  unfold message
  rcases b.cerr with hc | hc
  · rw [hc]
    exact ⟨w, rfl, Said.refl w⟩
  · rw [hc]
    dsimp only
    have hlt : 0 < w.strms.length := by have := b.len; omega
    have e := List.getElem?_eq_getElem hlt
    obtain ⟨h1, h2, h3⟩ := b.std 0 _ e (by omega)
    have hl := h2.mpr (Or.inr hc)
    rw [cffile_ok e hl h1, ok_bind]
    refine ⟨_, rfl, keeps_put e (writeAll_step m _).shape, rfl, fun h s es => ?_⟩
    rw [put_get w 0 h _ hlt]
    by_cases hh : h = 0
    · subst hh
      rw [if_pos rfl]
      rw [e] at es
      cases es
      exact ⟨_, rfl, writeAll_step m _, fun x => absurd rfl x⟩
    · rw [if_neg hh]
      exact ⟨s, es, Step.refl s, fun _ => rfl⟩

/-! ## Opening files -/

theorem lookup_some {files : List (FileId × Option CtxFile)} {id : FileId} {v : Option CtxFile}
    (h : lookup files id = some v) : (id, v) ∈ files := by
  unfold lookup at h
  cases hf : files.find? (fun e => e.1 = id) with
  | none => rw [hf] at h; exact absurd h (by simp)
  | some e =>
    rw [hf] at h
    have h1 := List.mem_of_find?_eq_some hf
    have h2 := List.find?_some hf
    simp only [Option.map_some, Option.some.injEq] at h
    simp only [decide_eq_true_eq] at h2
    obtain ⟨a, b⟩ := e
    simp only at h h2
    rw [← h, ← h2]
    exact h1

theorem lookup_none {files : List (FileId × Option CtxFile)} {id : FileId}
    (h : lookup files id = none) : ∀ e ∈ files, e.1 ≠ id := by
  unfold lookup at h
  rw [Option.map_eq_none_iff, List.find?_eq_none] at h
  intro e he
  have := h e he
  simpa using this

theorem lookup_of_mem {files : List (FileId × Option CtxFile)} {id : FileId} {v : Option CtxFile}
    (nd : (files.map (·.1)).Nodup) (h : (id, v) ∈ files) : lookup files id = some v := by
  induction files with
  | nil => cases h
  | cons e rest ih =>
    rw [List.map_cons, List.nodup_cons] at nd
    unfold lookup
    rw [List.find?_cons]
    rcases List.mem_cons.mp h with he | he
    · subst he
      simp
    · have hne : e.1 ≠ id := fun x => nd.1 (x ▸ List.mem_map.mpr ⟨_, he, rfl⟩)
      have := ih nd.2 he
      unfold lookup at this
      simp only [hne, decide_false]
      exact this

theorem mem_unique {files : List (FileId × Option CtxFile)} {id : FileId}
    {v v' : Option CtxFile} (nd : (files.map (·.1)).Nodup) (h : (id, v) ∈ files)
    (h' : (id, v') ∈ files) : v = v' := by
  have a := lookup_of_mem nd h
  rw [lookup_of_mem nd h'] at a
  exact (Option.some.inj a).symm

theorem setLeaf_keys (files : List (FileId × Option CtxFile)) (id : FileId)
    (v : Option CtxFile) : (setLeaf files id v).map (·.1) = files.map (·.1) := by
  unfold setLeaf
  rw [List.map_map]
  refine List.map_congr_left fun e _ => ?_
  show (if e.1 = id then (id, v) else e).1 = e.1
  by_cases h : e.1 = id
  · rw [if_pos h]; exact h.symm
  · rw [if_neg h]

theorem mem_setLeaf {files : List (FileId × Option CtxFile)} {id : FileId}
    {v : Option CtxFile} {e : FileId × Option CtxFile} :
    e ∈ setLeaf files id v ↔ (e.1 ≠ id ∧ e ∈ files) ∨ (e = (id, v) ∧ ∃ v', (id, v') ∈ files) := by
  unfold setLeaf
  rw [List.mem_map]
  constructor
  · rintro ⟨a, ha, hh⟩
    by_cases h : a.1 = id
    · rw [if_pos h] at hh
      refine Or.inr ⟨hh.symm, a.2, ?_⟩
      rw [← h]
      exact ha
    · rw [if_neg h] at hh
      rw [← hh]
      exact Or.inl ⟨h, ha⟩
  · rintro (⟨h1, h2⟩ | ⟨h1, v', h2⟩)
    · exact ⟨e, h2, if_neg h1⟩
    · exact ⟨_, h2, by rw [if_pos rfl, h1]⟩

/-- Adding an entry for a fresh key and then giving it a value. -/
theorem setLeaf_append {files : List (FileId × Option CtxFile)} {id : FileId}
    (h : ∀ e ∈ files, e.1 ≠ id) (v : Option CtxFile) :
    setLeaf (files ++ [(id, none)]) id v = files ++ [(id, v)] := by
  unfold setLeaf
  rw [List.map_append]
  congr 1
  · induction files with
    | nil => rfl
    | cons e rest ih =>
      rw [List.map_cons, if_neg (h e (by simp)), ih (fun x hx => h x (List.mem_cons_of_mem _ hx))]
  · simp

theorem removeLeaf_append {files : List (FileId × Option CtxFile)} {id : FileId}
    (h : ∀ e ∈ files, e.1 ≠ id) : removeLeaf (files ++ [(id, none)]) id = files := by
  unfold removeLeaf
  rw [List.filter_append]
  rw [List.filter_eq_self.mpr (fun e he => by simpa using h e he)]
  simp

/-- The state after a new file was added. -/
def addFile (w : W) (h : Nat) (s : Strm) (path : Option String) : W :=
  { w with
    files := w.files ++ [(s.id, some ⟨h, path, s.colors, 0⟩)]
    hooks := if s.colors then h :: w.hooks else w.hooks
    nfiles := countFile w h }

/-- The state after a file was found to be open already. -/
def setPath (w : W) (id : FileId) (cf : CtxFile) (path : Option String) : W :=
  { w with
    files := setLeaf w.files id (some { cf with
      path := path }) }

theorem dedup_cases {x : Option Nat} {w : W} (b : Base x w) {h : Nat} {s : Strm}
    (e : w.strms[h]? = some s) (l : s.live = true) (path : Option String) (o : DedupIo) :
    dedup w h path o = .ok (w, none) ∨
    ((∀ en ∈ w.files, en.1 ≠ s.id) ∧
      dedup w h path o = .ok (addFile w h s path, some h)) ∨
    (∃ cf, (s.id, some cf) ∈ w.files ∧
      dedup w h path o = .ok (setPath w s.id cf path, some cf.cfile)) := by
  unfold dedup
  rw [cfile_ok e l, ok_bind]
  by_cases hs : o.stat = true
  case neg => rw [if_neg hs]; exact Or.inl rfl
  rw [if_pos hs]
  cases hl : lookup w.files s.id with
  | some v =>
    cases v with
    | some cf =>
      exact Or.inr (Or.inr ⟨cf, lookup_some hl, rfl⟩)
    | none =>
      obtain ⟨cf, _, h1, _⟩ := b.tracked _ (lookup_some hl)
      cases h1
  | none =>
    have hn := lookup_none hl
    dsimp only
    by_cases hi : o.insert = true
    case neg => rw [if_neg hi]; exact Or.inl rfl
    rw [if_pos hi]
    unfold dedupNew
    dsimp only
    by_cases ha : o.alloc = true
    case neg =>
      rw [if_neg ha, removeLeaf_append hn]
      exact Or.inl rfl
    rw [if_pos ha]
    by_cases hc : s.colors = true
    · rw [if_pos hc]
      by_cases hh : o.hook = true
      · rw [if_pos hh, setLeaf_append hn]
        refine Or.inr (Or.inl ⟨hn, ?_⟩)
        unfold addFile
        rw [if_pos hc, hc]
        rfl
      · rw [if_neg hh, removeLeaf_append hn]
        exact Or.inl rfl
    · rw [if_neg hc, setLeaf_append hn]
      refine Or.inr (Or.inl ⟨hn, ?_⟩)
      unfold addFile
      rw [if_neg hc, Bool.eq_false_iff.mpr hc]
      rfl

theorem tracked_add {w : W} {h k : Nat} {s : Strm} {path : Option String} :
    Tracked (addFile w h s path) k ↔ Tracked w k ∨ k = h := by
  unfold Tracked addFile
  dsimp only
  constructor
  · rintro ⟨id, cf, hm, hc⟩
    rcases List.mem_append.mp hm with hm | hm
    · exact Or.inl ⟨id, cf, hm, hc⟩
    · rw [List.mem_singleton] at hm
      cases hm
      exact Or.inr hc.symm
  · rintro (⟨id, cf, hm, hc⟩ | hk)
    · exact ⟨id, cf, List.mem_append_left _ hm, hc⟩
    · exact ⟨s.id, _, List.mem_append_right _ (List.mem_singleton.mpr rfl), hk.symm⟩

theorem Base.add {x : Option Nat} {w : W} (b : Base x w) {h : Nat} {s : Strm}
    (e : w.strms[h]? = some s) (l : s.live = true) (o : s.isOpen = true)
    (c : 2 ≤ h → s.close = true) (hx : x = none ∨ x = some h) (nt : ¬ Tracked w h)
    (hn : ∀ en ∈ w.files, en.1 ≠ s.id) (path : Option String) :
    Base none (addFile w h s path) where
  len := b.len
  cout := b.cout
  cerr := b.cerr
  keys := by
    show ((w.files ++ [(s.id, some (⟨h, path, s.colors, 0⟩ : CtxFile))]).map (·.1)).Nodup
    rw [List.map_append, List.nodup_append]
    refine ⟨b.keys, by simp, fun a ha a' ha' => ?_⟩
    obtain ⟨en, hen, rfl⟩ := List.mem_map.mp ha
    rw [List.map_singleton, List.mem_singleton] at ha'
    rw [ha']
    exact hn en hen
  tracked := fun en hen => by
    have hh : h ∉ w.hooks := fun x => nt (b.hooked h x)
    rcases List.mem_append.mp hen with hm | hm
    · obtain ⟨cf, t, h1, h2, h3, h4, h5, h6⟩ := b.tracked en hm
      refine ⟨cf, t, h1, h2, h3, h4, h5, ?_⟩
      have hne : cf.cfile ≠ h := fun x => nt ⟨en.1, cf, by rw [← h1]; exact hm, x⟩
      show cf.hook = true ↔ cf.cfile ∈ (if s.colors = true then h :: w.hooks else w.hooks)
      by_cases hc : s.colors = true
      · rw [if_pos hc, List.mem_cons, h6]
        exact ⟨Or.inr, fun x => x.resolve_left hne⟩
      · rw [if_neg hc, h6]
    · rw [List.mem_singleton] at hm
      subst hm
      refine ⟨_, s, rfl, e, rfl, l, o, ?_⟩
      show s.colors = true ↔ h ∈ (if s.colors = true then h :: w.hooks else w.hooks)
      by_cases hc : s.colors = true
      · rw [if_pos hc]
        exact ⟨fun _ => List.mem_cons_self, fun _ => hc⟩
      · rw [if_neg hc]
        exact ⟨fun x => absurd x hc, fun x => absurd x hh⟩
  std := b.std
  other := fun k t et hk _ => by
    rw [tracked_add]
    by_cases hkh : k = h
    · subst hkh
      have : t = s := Option.some.inj (et.symm.trans e)
      subst this
      exact ⟨fun _ => c hk, fun x => absurd (Or.inr rfl) x⟩
    · have hxk : x ≠ some k := by
        rcases hx with hx | hx
        · rw [hx]; simp
        · rw [hx]; exact fun y => hkh (Option.some.inj y).symm
      obtain ⟨p, q⟩ := b.other k t et hk hxk
      exact ⟨fun y => p (y.resolve_right hkh), fun y => q (fun z => y (Or.inl z))⟩
  nodup := by
    show (if s.colors = true then h :: w.hooks else w.hooks).Nodup
    by_cases hc : s.colors = true
    · rw [if_pos hc]
      exact List.nodup_cons.mpr ⟨fun x => nt (b.hooked h x), b.nodup⟩
    · rw [if_neg hc]; exact b.nodup
  hooked := fun k hk => by
    rw [tracked_add]
    have hk : k ∈ (if s.colors = true then h :: w.hooks else w.hooks) := hk
    by_cases hc : s.colors = true
    · rw [if_pos hc] at hk
      rcases List.mem_cons.mp hk with y | y
      · exact Or.inr y
      · exact Or.inl (b.hooked k y)
    · rw [if_neg hc] at hk
      exact Or.inl (b.hooked k hk)

theorem mem_setPath {w : W} {id : FileId} {cf : CtxFile} {path : Option String}
    {en : FileId × Option CtxFile} :
    en ∈ (setPath w id cf path).files ↔ (en.1 ≠ id ∧ en ∈ w.files) ∨
      (en = (id, some { cf with
        path := path }) ∧ ∃ v', (id, v') ∈ w.files) := mem_setLeaf

theorem tracked_setPath {w : W} {id : FileId} {cf : CtxFile} {path : Option String} {k : Nat}
    (nd : (w.files.map (·.1)).Nodup) (hm : (id, some cf) ∈ w.files) :
    Tracked (setPath w id cf path) k ↔ Tracked w k := by
  constructor
  · rintro ⟨i, c, h1, h2⟩
    rcases mem_setPath.mp h1 with ⟨_, y⟩ | ⟨y, _⟩
    · exact ⟨i, c, y, h2⟩
    · cases y
      exact ⟨id, cf, hm, h2⟩
  · rintro ⟨i, c, h1, h2⟩
    by_cases hi : i = id
    · subst hi
      have : cf = c := Option.some.inj (mem_unique nd hm h1)
      subst this
      exact ⟨i, _, mem_setPath.mpr (Or.inr ⟨rfl, _, hm⟩), h2⟩
    · exact ⟨i, c, mem_setPath.mpr (Or.inl ⟨hi, h1⟩), h2⟩

theorem Base.setPath {x : Option Nat} {w : W} (b : Base x w) {id : FileId} {cf : CtxFile}
    (hm : (id, some cf) ∈ w.files) (path : Option String) : Base x (setPath w id cf path) where
  len := b.len
  cout := b.cout
  cerr := b.cerr
  keys := by
    show ((setLeaf _ _ _).map (·.1)).Nodup
    rw [setLeaf_keys]
    exact b.keys
  tracked := fun en hen => by
    rcases mem_setPath.mp hen with ⟨_, y⟩ | ⟨y, _⟩
    · exact b.tracked en y
    · subst y
      obtain ⟨cf', t, h1, h2, h3, h4, h5, h6⟩ := b.tracked _ hm
      cases h1
      exact ⟨_, t, rfl, h2, h3, h4, h5, h6⟩
  std := b.std
  other := fun k t et hk hx => by
    rw [tracked_setPath b.keys hm]
    exact b.other k t et hk hx
  nodup := b.nodup
  hooked := fun k hk => (tracked_setPath b.keys hm).mpr (b.hooked k hk)

/-- A stream is closed and its `CFILE` freed. -/
theorem cfclose_owned {w : W} {h : Nat} {s : Strm} (e : w.strms[h]? = some s)
    (l : s.live = true) (o : s.isOpen = true) (c : s.close = true) (nh : h ∉ w.hooks) (io : Io) :
    cfclose w h io = .ok (w.put h { (fclose s io).1 with live := false }, (fclose s io).2) := by
  unfold cfclose
  rw [cfile_ok e l, ok_bind, if_neg (by simpa using nh), if_pos c, file_ok e o, ok_bind]

theorem cfclose_std {w : W} {h : Nat} {s : Strm} (e : w.strms[h]? = some s)
    (l : s.live = true) (c : s.close = false) (nh : h ∉ w.hooks) (io : Io) :
    cfclose w h io = .ok (w.put h { s with live := false }, 0) := by
  unfold cfclose
  rw [cfile_ok e l, ok_bind, if_neg (by simpa using nh), if_neg (by rw [c]; simp)]

/-- The stream that was being opened is closed again. -/
theorem Base.drop {w : W} {h : Nat} {s s' : Strm} (b : Base (some h) w) (h2 : 2 ≤ h)
    (e : w.strms[h]? = some s) (nt : ¬ Tracked w h) (l : s'.live = false)
    (o : s'.isOpen = false) : Base none (w.put h s') := by
  have hlt := get_lt e
  refine ⟨by simpa [W.put] using b.len, b.cout, b.cerr, b.keys, fun en hen => ?_,
    fun k t et hk => ?_, fun k t et hk _ => ?_, b.nodup, b.hooked⟩
  · obtain ⟨cf, t, p1, p2, p3⟩ := b.tracked en hen
    have hne : cf.cfile ≠ h := fun x => nt ⟨en.1, cf, by rw [← p1]; exact hen, x⟩
    refine ⟨cf, t, p1, ?_, p3⟩
    rw [put_get w h _ s' hlt, if_neg hne]
    exact p2
  · rw [put_get w h _ s' hlt, if_neg (by omega)] at et
    exact b.std k t et hk
  · rw [put_get w h _ s' hlt] at et
    by_cases hkh : k = h
    · rw [if_pos hkh] at et
      cases et
      rw [hkh]
      exact ⟨fun x => absurd x nt, fun _ => ⟨l, o⟩⟩
    · rw [if_neg hkh] at et
      exact b.other k t et hk (fun x => hkh (Option.some.inj x).symm)

/-- A new stream. -/
theorem Base.push {w : W} (b : Base none w) (s : Strm) :
    Base (some w.strms.length) { w with strms := w.strms ++ [s] } := by
  have hget : ∀ k, k ≠ w.strms.length → (w.strms ++ [s])[k]? = w.strms[k]? := by
    intro k hk
    by_cases hlt : k < w.strms.length
    · exact List.getElem?_append_left hlt
    · rw [List.getElem?_eq_none (by simp; omega), List.getElem?_eq_none (by omega)]
  refine ⟨by have := b.len; simp; omega, b.cout, b.cerr, b.keys, fun en hen => ?_,
    fun k t et hk => ?_, fun k t et hk hx => ?_, b.nodup, b.hooked⟩
  · obtain ⟨cf, t, p1, p2, p3⟩ := b.tracked en hen
    refine ⟨cf, t, p1, ?_, p3⟩
    have hlt := get_lt p2
    rw [hget _ (by omega)]
    exact p2
  · rw [hget k (by have := b.len; omega)] at et
    exact b.std k t et hk
  · rw [hget k (fun x => hx (by rw [x]))] at et
    exact b.other k t et hk (by simp)

theorem not_tracked_new {x : Option Nat} {w : W} (b : Base x w) {h : Nat}
    (hge : w.strms.length ≤ h) : ¬ Tracked w h := by
  rintro ⟨id, cf, hm, rfl⟩
  obtain ⟨cf', t, p1, p2, _⟩ := b.tracked _ hm
  cases p1
  have := get_lt p2
  omega

end Verif.Files
