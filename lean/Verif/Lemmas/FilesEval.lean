import Verif.Lemmas.FilesSetup

namespace Verif.Files

/-! ## The evaluation -/

/-- The table of files without the recorded errors. -/
def core (files : List (FileId × Option CtxFile)) :
    List (FileId × Option (Nat × Option String × Bool)) :=
  files.map fun e => (e.1, e.2.map fun cf => (cf.cfile, cf.path, cf.hook))

theorem core_mem {A B : List (FileId × Option CtxFile)} (h : core A = core B) {id : FileId}
    {cf : CtxFile} (m : (id, some cf) ∈ A) : ∃ cf', (id, some cf') ∈ B ∧ cf'.cfile = cf.cfile ∧
      cf'.path = cf.path ∧ cf'.hook = cf.hook := by
  have : (id, some (cf.cfile, cf.path, cf.hook)) ∈ core B := by
    rw [← h]
    exact List.mem_map.mpr ⟨_, m, rfl⟩
  obtain ⟨⟨id', v⟩, hm, he⟩ := List.mem_map.mp this
  cases v with
  | none => simp at he
  | some cf' =>
    simp only [Option.map_some, Prod.mk.injEq, Option.some.injEq] at he
    obtain ⟨h1, h2, h3, h4⟩ := he
    rw [h1] at hm
    exact ⟨cf', hm, h2, h3, h4⟩

theorem core_keys {A B : List (FileId × Option CtxFile)} (h : core A = core B) :
    A.map (·.1) = B.map (·.1) := by
  have := congrArg (List.map (·.1)) h
  unfold core at this
  rw [List.map_map, List.map_map] at this
  exact this

/-- What happens during the evaluation: `F` is "an action could not print", `G` is what is printed
to each stream. -/
structure Trans (w w' : W) (F : Prop) (G : Nat → Bytes) : Prop where
  files : core w'.files = core w.files
  cout : w'.cout = w.cout
  cerr : w'.cerr = w.cerr
  nfiles : w'.nfiles = w.nfiles
  ignore : w'.ignore = w.ignore
  hooks : w'.hooks = w.hooks
  acts : w'.acts = w.acts
  len : w'.strms.length = w.strms.length
  shape : ∀ (h : Nat) (s : Strm), w.strms[h]? = some s →
    ∃ s', w'.strms[h]? = some s' ∧ Shape s s'
  idle : ∀ (h : Nat) (s : Strm), w.strms[h]? = some s → h ≠ 0 → ¬ Tracked w h →
    w'.strms[h]? = some s
  used : ∀ (id : FileId) (cf cf' : CtxFile) (s s' : Strm), (id, some cf) ∈ w.files →
    (id, some cf') ∈ w'.files → w.strms[cf.cfile]? = some s → w'.strms[cf.cfile]? = some s' →
    (Good s → Good s') ∧ (cf.cfile ≠ 0 → s'.given = s.given ++ G cf.cfile) ∧
    (cf.error ≠ 0 → cf'.error ≠ 0) ∧
    (s'.lost = true → s.lost = true ∨ s'.err = true ∨ cf'.error ≠ 0 ∨ F) ∧
    (s.err = true → s'.err = true ∨ cf'.error ≠ 0 ∨ F)
  failed : F → w.ignore = false → w'.ret ≠ EXIT_SUCCESS

theorem Trans.tracked {w w' : W} {F : Prop} {G : Nat → Bytes} (t : Trans w w' F G) (h : Nat) :
    Tracked w' h ↔ Tracked w h := by
  constructor
  · rintro ⟨id, cf, hm, hc⟩
    obtain ⟨cf', hm', h1, _⟩ := core_mem t.files hm
    exact ⟨id, cf', hm', h1.trans hc⟩
  · rintro ⟨id, cf, hm, hc⟩
    obtain ⟨cf', hm', h1, _⟩ := core_mem t.files.symm hm
    exact ⟨id, cf', hm', h1.trans hc⟩

theorem Trans.back {w w' : W} {F : Prop} {G : Nat → Bytes} (t : Trans w w' F G) {h : Nat}
    {s' : Strm} (e : w'.strms[h]? = some s') : ∃ s, w.strms[h]? = some s ∧ Shape s s' := by
  have hlt : h < w.strms.length := by rw [← t.len]; exact get_lt e
  obtain ⟨u, eu, p⟩ := t.shape h _ (List.getElem?_eq_getElem hlt)
  rw [e] at eu
  cases eu
  exact ⟨_, List.getElem?_eq_getElem hlt, p⟩

theorem Trans.isOpen {w w' : W} {F : Prop} {G : Nat → Bytes} (t : Trans w w' F G) :
    w'.strms.map (·.isOpen) = w.strms.map (·.isOpen) := by
  refine List.ext_getElem? fun i => ?_
  rw [List.getElem?_map, List.getElem?_map]
  by_cases h : i < w.strms.length
  · have e := List.getElem?_eq_getElem h
    obtain ⟨s', e', p⟩ := t.shape i _ e
    rw [e, e']
    exact congrArg some p.isOpen
  · rw [List.getElem?_eq_none (by rw [t.len]; omega), List.getElem?_eq_none (by omega)]

theorem Base.trans' {w w' : W} {F : Prop} {G : Nat → Bytes} (b : Base none w)
    (t : Trans w w' F G) : Base none w' where
  len := by rw [t.len]; exact b.len
  cout := by rw [t.cout]; exact b.cout
  cerr := by rw [t.cerr]; exact b.cerr
  keys := by rw [core_keys t.files]; exact b.keys
  tracked := fun en hen => by
    obtain ⟨id, v⟩ := en
    cases v with
    | none =>
      have h1 : (id, none) ∈ core w.files := by
        rw [← t.files]
        exact List.mem_map.mpr ⟨_, hen, rfl⟩
      obtain ⟨⟨id', v⟩, hm, he⟩ := List.mem_map.mp h1
      obtain ⟨cf, s, hv, _⟩ := b.tracked _ hm
      simp only at hv
      rw [hv] at he
      simp at he
    | some cf =>
      obtain ⟨cf', hm, h1, h2, h3⟩ := core_mem t.files hen
      obtain ⟨c, s, g1, g2, g3, g4, g5, g6⟩ := b.tracked _ hm
      cases g1
      obtain ⟨s', e', p⟩ := t.shape _ s g2
      rw [h1] at e' g6
      refine ⟨cf, s', rfl, e', p.id.trans g3, p.live.trans g4, p.isOpen.trans g5, ?_⟩
      rw [t.hooks, ← h3]
      exact g6
  std := fun h s' e' hlt => by
    obtain ⟨s, e, p⟩ := t.back e'
    obtain ⟨h1, h2, h3⟩ := b.std h s e hlt
    rw [p.isOpen, p.live, p.close, t.cout, t.cerr]
    exact ⟨h1, h2, h3⟩
  other := fun h s' e' hlt hx => by
    obtain ⟨s, e, p⟩ := t.back e'
    rw [t.tracked, p.close, p.live, p.isOpen]
    exact b.other h s e hlt hx
  nodup := by rw [t.hooks]; exact b.nodup
  hooked := fun h hh => by
    rw [t.hooks] at hh
    exact (t.tracked h).mpr (b.hooked h hh)

theorem Inv.trans' {e : Env} {w w' : W} {F : Prop} {G : Nat → Bytes} (i : Inv e w)
    (t : Trans w w' F G) : Inv e w' where
  base := i.base.trans' t
  cout := t.cout.trans i.cout
  cerr := t.cerr.trans i.cerr
  errId := by
    obtain ⟨s, h1, h2⟩ := i.errId
    obtain ⟨s', h3, p⟩ := t.shape 0 s h1
    exact ⟨s', h3, p.id.trans h2⟩
  outT := by
    obtain ⟨cf, h1, h2⟩ := i.outT
    obtain ⟨cf', h3, h4, _⟩ := core_mem t.files.symm h1
    exact ⟨cf', h3, h4.trans h2⟩
  errT := by
    rcases i.errT with ⟨cf, h1, h2⟩ | h
    · obtain ⟨cf', h3, h4, _⟩ := core_mem t.files.symm h1
      exact Or.inl ⟨cf', h3, h4.trans h2⟩
    · exact Or.inr h
  acts := by
    rw [t.acts]
    intro a ha
    obtain ⟨cf, h1, h2, h3⟩ := i.acts a ha
    obtain ⟨cf', h4, h5, h6, _⟩ := core_mem t.files.symm h1
    exact ⟨cf', h4, h5.trans h2, by rw [h6]; exact h3⟩
  ignore := t.ignore.trans i.ignore
  count := by
    rw [t.nfiles, List.map_drop, t.isOpen, ← List.map_drop]
    exact i.count

/-- The invariant of the evaluation: what is in the files and what is still buffered. -/
structure EInv (e : Env) (w : W) (hist : List EOp) : Prop where
  inv : Inv e w
  good : ∀ (id : FileId) (cf : CtxFile) (s : Strm), (id, some cf) ∈ w.files →
    w.strms[cf.cfile]? = some s → Good s
  given : ∀ (id : FileId) (cf : CtxFile) (s : Strm), (id, some cf) ∈ w.files → cf.cfile ≠ 0 →
    w.strms[cf.cfile]? = some s → s.given = printed w.acts e.stdout id hist
  idle : ∀ (h : Nat) (s : Strm), w.strms[h]? = some s → h ≠ 0 → ¬ Tracked w h →
    s.given = [] ∧ s.sink = []

/-- Errors are not forgotten. -/
def Acc (w : W) (rest : List EOp) : Prop :=
  ∀ (id : FileId) (cf : CtxFile) (s : Strm), (id, some cf) ∈ w.files →
    w.strms[cf.cfile]? = some s → s.lost = true →
    s.err = true ∨ cf.error ≠ 0 ∨ (w.ret ≠ EXIT_SUCCESS ∧ EOp.exit 0 ∉ rest)

theorem EInv.trans' {e : Env} {w w' : W} {hist : List EOp} {op : EOp} {F : Prop}
    {G : Nat → Bytes} (v : EInv e w hist) (t : Trans w w' F G)
    (hG : ∀ (id : FileId) (cf : CtxFile), (id, some cf) ∈ w.files → cf.cfile ≠ 0 →
      G cf.cfile = printedBy w.acts e.stdout id op) : EInv e w' (hist ++ [op]) where
  inv := v.inv.trans' t
  good := fun id cf' s' hm' es' => by
    obtain ⟨cf, hm, h1, _⟩ := core_mem t.files hm'
    rw [← h1] at es'
    obtain ⟨s, es, _⟩ := t.back es'
    exact (t.used id cf cf' s s' hm hm' es es').1 (v.good id cf s hm es)
  given := fun id cf' s' hm' hh es' => by
    obtain ⟨cf, hm, h1, _⟩ := core_mem t.files hm'
    rw [← h1] at es' hh
    obtain ⟨s, es, _⟩ := t.back es'
    rw [(t.used id cf cf' s s' hm hm' es es').2.1 hh, v.given id cf s hm hh es, hG id cf hm hh,
      t.acts]
    unfold printed
    rw [List.flatMap_append]
    simp
  idle := fun h s' es' hh ht => by
    obtain ⟨s, es, _⟩ := t.back es'
    rw [t.tracked] at ht
    have := t.idle h s es hh ht
    rw [es'] at this
    cases this
    exact v.idle h _ es hh ht

theorem Acc.trans' {w w' : W} {op : EOp} {rest : List EOp} {F : Prop} {G : Nat → Bytes}
    (b : Base none w) (a : Acc w (op :: rest)) (t : Trans w w' F G)
    (hF : F → w.ignore = false ∧ EOp.exit 0 ∉ rest)
    (hr : w.ret ≠ EXIT_SUCCESS → op ≠ EOp.exit 0 → w'.ret ≠ EXIT_SUCCESS) : Acc w' rest := by
  intro id cf' s' hm' es' hl'
  obtain ⟨cf, hm, h1, _⟩ := core_mem t.files hm'
  rw [← h1] at es'
  obtain ⟨s, es, _⟩ := t.back es'
  obtain ⟨_, _, u3, u4, u5⟩ := t.used id cf cf' s s' hm hm' es es'
  have close : F → s'.err = true ∨ cf'.error ≠ 0 ∨ (w'.ret ≠ EXIT_SUCCESS ∧ EOp.exit 0 ∉ rest) :=
    fun f => Or.inr (Or.inr ⟨t.failed f (hF f).1, (hF f).2⟩)
  rcases u4 hl' with hl | hx | hx | hx
  · rcases a id cf s hm es hl with hy | hy | ⟨hy, hz⟩
    · rcases u5 hy with hk | hk | hk
      · exact Or.inl hk
      · exact Or.inr (Or.inl hk)
      · exact close hk
    · exact Or.inr (Or.inl (u3 hy))
    · rw [List.mem_cons, not_or] at hz
      exact Or.inr (Or.inr ⟨hr hy (fun x => hz.1 x.symm), hz.2⟩)
  · exact Or.inl hx
  · exact Or.inr (Or.inl hx)
  · exact close hx

/-! ### Printing -/

theorem writeChunks_ok (cs : List Chunk) : ∀ s : Strm,
    Shape s (writeChunks s cs).1 ∧ (Good s → Good (writeChunks s cs).1) ∧
    (writeChunks s cs).1.given = s.given ++ cs.flatMap (·.1) ∧
    (s.err = true → (writeChunks s cs).1.err = true) ∧
    ((writeChunks s cs).2 = true →
      (writeChunks s cs).1.lost = s.lost ∧ (writeChunks s cs).1.err = s.err) ∧
    ((writeChunks s cs).2 = false → ∃ c ∈ cs, Chunk.Fails c) ∧
    ((∀ c ∈ cs, ∃ k, c.2 = some (Io.done k)) → (writeChunks s cs).2 = true) := by
  induction cs with
  | nil =>
    intro s
    exact ⟨Shape.refl s, id, by simp [writeChunks], id, fun _ => ⟨rfl, rfl⟩,
      fun x => by simp [writeChunks] at x, fun _ => rfl⟩
  | cons c rest ih =>
    intro s
    obtain ⟨d, o⟩ := c
    cases o with
    | none =>
      refine ⟨⟨rfl, rfl, rfl, rfl, rfl⟩, fun _ x => by simp [writeChunks] at x, ?_, id,
        fun x => by simp [writeChunks] at x, fun _ => ⟨_, List.mem_cons_self, Or.inl rfl⟩,
        fun x => ?_⟩
      · simp [writeChunks]
      · obtain ⟨k, hk⟩ := x _ List.mem_cons_self
        cases hk
    | some io =>
      cases io with
      | done k =>
        have hst := fwrite_step s d (.done k)
        obtain ⟨i1, i2, i3, i4, i5, i6, i7⟩ := ih (fwrite s d (.done k)).1
        have e1 : writeChunks s ((d, some (.done k)) :: rest) =
          writeChunks (fwrite s d (.done k)).1 rest := rfl
        rw [e1]
        refine ⟨hst.shape.trans i1, fun g => i2 (hst.good g), ?_, fun x => i4 (hst.err x),
          fun x => i5 x, fun x => ?_, fun x => i7 (fun c hc => x c (List.mem_cons_of_mem _ hc))⟩
        · rw [i3]
          simp [fwrite]
        · obtain ⟨c, hc, hf⟩ := i6 x
          exact ⟨c, List.mem_cons_of_mem _ hc, hf⟩
      | fail k keep er =>
        refine ⟨⟨rfl, rfl, rfl, rfl, rfl⟩, fun _ x => ?_, ?_, fun _ => rfl,
          fun x => ?_, fun _ => ⟨_, List.mem_cons_self, Or.inr ⟨k, keep, er, rfl⟩⟩, fun x => ?_⟩
        · simp [writeChunks, fwrite] at x
        · simp [writeChunks, fwrite]
        · simp [writeChunks, fwrite] at x
        · obtain ⟨k, hk⟩ := x _ List.mem_cons_self
          cases hk

/-- The streams that belong to an action. -/
theorem act_stream {e : Env} {w : W} (i : Inv e w) {a : Act} (ha : a ∈ w.acts) :
    ∃ cf s, (a.id, some cf) ∈ w.files ∧ cf.cfile = a.cfile ∧ w.strms[a.cfile]? = some s ∧
      s.live = true ∧ s.isOpen = true := by
  obtain ⟨cf, h1, h2, _⟩ := i.acts a ha
  obtain ⟨c, s, g1, g2, g3, g4, g5, _⟩ := i.base.tracked _ h1
  cases g1
  rw [h2] at g2
  exact ⟨cf, s, h1, h2, g2, g4, g5⟩

theorem Said.trans' {w w' : W} (b : Base none w) (k : Said w w') :
    Trans w w' False (fun _ => []) where
  files := by rw [k.keeps.files]
  cout := k.keeps.cout
  cerr := k.keeps.cerr
  nfiles := k.keeps.nfiles
  ignore := k.keeps.ignore
  hooks := k.keeps.hooks
  acts := k.keeps.acts
  len := k.keeps.len
  shape := k.keeps.shape
  idle := fun h s es hh _ => by
    obtain ⟨s', es', _, p⟩ := k.step h s es
    rw [es', p hh]
  used := fun id cf cf' s s' hm hm' es es' => by
    rw [k.keeps.files] at hm'
    have : cf = cf' := Option.some.inj (mem_unique b.keys hm hm')
    subst this
    obtain ⟨t, et, st, p⟩ := k.step _ s es
    rw [es'] at et
    cases et
    refine ⟨st.good, fun hh => by rw [p hh]; simp, fun x => x, fun x => ?_, fun x => Or.inl (st.err x)⟩
    exact (st.lost x).elim Or.inl (fun y => Or.inr (Or.inl y))
  failed := fun f => f.elim

/-- Composition with a diagnostic. -/
theorem Said.trans {a b c : W} (h : Said a b) (g : Said b c) : Said a c where
  keeps := h.keeps.trans g.keeps
  ret := g.ret.trans h.ret
  step := fun k s e => by
    obtain ⟨s', e', p, q⟩ := h.step k s e
    obtain ⟨s'', e'', p', q'⟩ := g.step k s' e'
    exact ⟨s'', e'', p.trans p', fun x => (q' x).trans (q x)⟩

theorem Base.setRet {x : Option Nat} {w : W} (b : Base x w) (n : Nat) :
    Base x { w with ret := n } :=
  ⟨b.len, b.cout, b.cerr, b.keys, b.tracked, b.std, b.other, b.nodup, b.hooked⟩

/-- `eval_error()`: only stderr and the exit status are touched. -/
theorem evalError_ok {w : W} (b : Base none w) (m : Msg) : ∃ w', evalError w m = .ok w' ∧
    Said { w with ret := w'.ret } w' ∧
    (w.ignore = true → w'.ret = w.ret) ∧ (w.ignore = false → w'.ret = EXIT_FAILURE) := by
  unfold evalError
  by_cases hi : w.ignore = true
  · rw [if_pos hi]
    exact ⟨w, rfl, Said.refl w, fun _ => rfl, fun x => by rw [hi] at x; cases x⟩
  · rw [if_neg hi]
    obtain ⟨w1, h1, s1⟩ := message_ok (b.setRet EXIT_FAILURE) m
    refine ⟨w1, h1, ?_, fun x => absurd x hi, fun _ => s1.ret⟩
    have : w1.ret = EXIT_FAILURE := s1.ret
    rw [this]
    exact s1

theorem evalPrint_ok {e : Env} {w : W} (i : Inv e w) {a : Act} (ha : a ∈ w.acts)
    (cs : List Chunk) (m : Msg) : ∃ w', evalPrint w a cs m = .ok w' ∧
      Trans w w' (∃ c ∈ cs, Chunk.Fails c) (fun h => if h = a.cfile then cs.flatMap (·.1) else []) ∧
      (w.ret ≠ EXIT_SUCCESS → w'.ret ≠ EXIT_SUCCESS) ∧
      ((∀ c ∈ cs, ∃ k, c.2 = some (Io.done k)) → w'.ret = w.ret ∧ w'.files = w.files ∧
        ∀ (h : Nat) (s' : Strm), w'.strms[h]? = some s' →
          ∃ s, w.strms[h]? = some s ∧ s'.err = s.err ∧ s'.lost = s.lost) := by
  obtain ⟨cfa, s, hma, hca, es, hl, ho⟩ := act_stream i ha
  obtain ⟨c1, c2, c3, c4, c5, c6, c7⟩ := writeChunks_ok cs s
  have hlt := get_lt es
  have kp : Keeps w (w.put a.cfile (writeChunks s cs).1) := keeps_put es c1
  have idl : ∀ (h : Nat) (x : Strm), w.strms[h]? = some x → ¬ Tracked w h →
      (w.put a.cfile (writeChunks s cs).1).strms[h]? = some x := by
    intro h x ex ht
    rw [put_get w _ _ _ hlt, if_neg (fun y => ht ⟨_, cfa, hma, hca.trans y.symm⟩)]
    exact ex
  unfold evalPrint
  rw [cffile_ok es hl ho, ok_bind]
  dsimp only
  by_cases hok : (writeChunks s cs).2 = true
  · rw [if_pos hok]
    refine ⟨_, rfl, ⟨rfl, rfl, rfl, rfl, rfl, rfl, rfl, kp.len, kp.shape,
      fun h x ex _ ht => idl h x ex ht, fun fid cf cf' x x' hm hm' ex ex' => ?_,
      fun hf hi => ?_⟩, id, fun _ => ⟨rfl, rfl, fun h x' ex' => ?_⟩⟩
    · have : cf = cf' := Option.some.inj (mem_unique i.base.keys hm hm')
      subst this
      rw [put_get w _ _ _ hlt] at ex'
      by_cases hh : cf.cfile = a.cfile
      · rw [if_pos hh] at ex' ⊢
        cases ex'
        rw [hh, es] at ex
        cases ex
        exact ⟨c2, fun _ => c3, id, fun y => Or.inl (by rw [← (c5 hok).1]; exact y),
          fun y => Or.inl (c4 y)⟩
      · rw [if_neg hh] at ex' ⊢
        rw [ex] at ex'
        cases ex'
        exact ⟨id, fun _ => by simp, id, Or.inl, Or.inl⟩
    · exfalso
      obtain ⟨c, hc, hcf⟩ := hf
      exact absurd hok (by
        rw [writeChunks_fails cs s ⟨c, hc, hcf⟩]; simp)
    · rw [put_get w _ _ _ hlt] at ex'
      by_cases hh : h = a.cfile
      · rw [if_pos hh] at ex'
        cases ex'
        rw [hh]
        exact ⟨s, es, (c5 hok).2, (c5 hok).1⟩
      · rw [if_neg hh] at ex'
        exact ⟨x', ex', rfl, rfl⟩
  · rw [if_neg hok]
    have hF := c6 (Bool.eq_false_iff.mpr hok)
    have b1 := i.base.keeps kp
    obtain ⟨w1, h1, s1, r1, r2⟩ := evalError_ok b1 m
    unfold evalIoError
    rw [h1, ok_bind]
    unfold clearerr
    obtain ⟨t, et, st, _⟩ := s1.step a.cfile _ (by
      show (w.put a.cfile (writeChunks s cs).1).strms[a.cfile]? = _
      rw [put_get w _ _ _ hlt, if_pos rfl])
    have hlt1 := get_lt et
    rw [cffile_ok et (st.shape.live.trans (c1.live.trans hl))
      (st.shape.isOpen.trans (c1.isOpen.trans ho)), ok_bind]
    have k2 : Keeps w1 (w1.put a.cfile { t with err := false }) :=
      keeps_put et ⟨rfl, rfl, rfl, rfl, rfl⟩
    have k1 : Keeps (w.put a.cfile (writeChunks s cs).1) w1 := ⟨s1.keeps.files, s1.keeps.cout,
      s1.keeps.cerr, s1.keeps.nfiles, s1.keeps.ignore, s1.keeps.hooks, s1.keeps.acts,
      s1.keeps.len, s1.keeps.shape⟩
    have kk := kp.trans (k1.trans k2)
    refine ⟨_, rfl, ⟨by rw [kk.files], kk.cout, kk.cerr, kk.nfiles, kk.ignore, kk.hooks, kk.acts,
      kk.len, kk.shape, fun h x ex h0 ht => ?_, fun fid cf cf' x x' hm hm' ex ex' => ?_,
      fun _ hi => ?_⟩, fun hr => ?_, fun hall => absurd (c7 hall) hok⟩
    · rw [put_get w1 _ _ _ hlt1, if_neg (fun y => ht ⟨_, cfa, hma, hca.trans y.symm⟩)]
      obtain ⟨x', ex', _, p⟩ := s1.step h x (idl h x ex ht)
      rw [ex', p h0]
    · rw [kk.files] at hm'
      have : cf = cf' := Option.some.inj (mem_unique i.base.keys hm hm')
      subst this
      rw [put_get w1 _ _ _ hlt1] at ex'
      refine ⟨fun g => ?_, fun h0 => ?_, id, fun _ => Or.inr (Or.inr (Or.inr hF)),
        fun _ => Or.inr (Or.inr hF)⟩
      · by_cases hh : cf.cfile = a.cfile
        · rw [if_pos hh] at ex'
          cases ex'
          rw [hh, es] at ex
          cases ex
          exact st.good (c2 g)
        · rw [if_neg hh] at ex'
          obtain ⟨y, ey, q, _⟩ := s1.step cf.cfile x (by
            show (w.put a.cfile (writeChunks s cs).1).strms[cf.cfile]? = _
            rw [put_get w _ _ _ hlt, if_neg hh]; exact ex)
          rw [ex'] at ey
          cases ey
          exact q.good g
      · by_cases hh : cf.cfile = a.cfile
        · rw [if_pos hh] at ex' ⊢
          cases ex'
          rw [hh, es] at ex
          cases ex
          obtain ⟨t', et', _, p⟩ := s1.step a.cfile _ (by
            show (w.put a.cfile (writeChunks s cs).1).strms[a.cfile]? = _
            rw [put_get w _ _ _ hlt, if_pos rfl])
          rw [et] at et'
          cases et'
          rw [p (by rw [← hh]; exact h0)]
          exact c3
        · rw [if_neg hh] at ex' ⊢
          obtain ⟨y, ey, _, p⟩ := s1.step cf.cfile x (by
            show (w.put a.cfile (writeChunks s cs).1).strms[cf.cfile]? = _
            rw [put_get w _ _ _ hlt, if_neg hh]; exact ex)
          rw [ex'] at ey
          cases ey
          rw [p h0]
          simp
    · show w1.ret ≠ _
      rw [r2 hi]
      decide
    · show w1.ret ≠ _
      by_cases hi : w.ignore = true
      · rw [r1 hi]; exact hr
      · rw [r2 (Bool.eq_false_iff.mpr hi)]; decide
where
  writeChunks_fails (cs : List Chunk) : ∀ s : Strm, (∃ c ∈ cs, Chunk.Fails c) →
      (writeChunks s cs).2 = false := by
    induction cs with
    | nil => rintro s ⟨c, hc, _⟩; cases hc
    | cons c rest ih =>
      rintro s ⟨c', hc', hf⟩
      obtain ⟨d, o⟩ := c
      cases o with
      | none => rfl
      | some io =>
        cases io with
        | done k =>
          have e1 : writeChunks s ((d, some (.done k)) :: rest) =
            writeChunks (fwrite s d (.done k)).1 rest := rfl
          rw [e1]
          rcases List.mem_cons.mp hc' with h | h
          · subst h
            rcases hf with hf | ⟨_, _, _, hf⟩ <;> cases hf
          · exact ih _ ⟨c', h, hf⟩
        | fail k keep er => rfl

end Verif.Files
