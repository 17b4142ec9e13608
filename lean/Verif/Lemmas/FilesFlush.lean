import Verif.Lemmas.FilesEval

namespace Verif.Files

/-! ### Flushing -/

/-- What flushing does to one file. -/
structure Flushed (h : Nat) (cf cf' : CtxFile) (s s' : Strm) : Prop where
  good : Good s → Good s'
  error : cf.error ≠ 0 → cf'.error ≠ 0
  lost : s'.lost = true → s.lost = true ∨ s'.err = true ∨ cf'.error ≠ 0
  err : s.err = true → s'.err = true ∨ cf'.error ≠ 0
  given : h ≠ 0 → s'.given = s.given
  done : h ≠ 0 → s'.lost = false → s'.sink = s.sink ++ s.pend ∧ s'.pend = []

theorem Flushed.before {h : Nat} {cf cf' : CtxFile} {a b c : Strm} (st : Step a b)
    (eq : h ≠ 0 → b = a) (f : Flushed h cf cf' b c) : Flushed h cf cf' a c where
  good := fun g => f.good (st.good g)
  error := f.error
  lost := fun x => by
    rcases f.lost x with y | y | y
    · rcases st.lost y with z | z
      · exact Or.inl z
      · exact Or.inr (f.err z)
    · exact Or.inr (Or.inl y)
    · exact Or.inr (Or.inr y)
  err := fun x => f.err (st.err x)
  given := fun x => by rw [f.given x, eq x]
  done := fun x y => by rw [← eq x]; exact f.done x y

theorem Flushed.after {h : Nat} {cf cf' : CtxFile} {a b c : Strm} (f : Flushed h cf cf' a b)
    (st : Step b c) (eq : h ≠ 0 → c = b) : Flushed h cf cf' a c where
  good := fun g => st.good (f.good g)
  error := f.error
  lost := fun x => by
    rcases st.lost x with y | y
    · rcases f.lost y with z | z | z
      · exact Or.inl z
      · exact Or.inr (Or.inl (st.err z))
      · exact Or.inr (Or.inr z)
    · exact Or.inr (Or.inl y)
  err := fun x => (f.err x).elim (fun y => Or.inl (st.err y)) Or.inr
  given := fun x => by rw [eq x, f.given x]
  done := fun x y => by rw [eq x] at y ⊢; exact f.done x y

theorem complain_ok {x : Option Nat} {w : W} (b : Base x w) (cf : CtxFile) (m : Msg) :
    ∃ w', complain w cf m = .ok w' ∧ Said w w' := by
  unfold complain
  by_cases h : named w cf = true
  · rw [if_pos h]; exact message_ok b m
  · rw [if_neg h]; exact ⟨w, rfl, Said.refl w⟩

theorem flushOne_ok {w : W} (b : Base none w) {id : FileId} {cf : CtxFile}
    (hm : (id, some cf) ∈ w.files) (o : FlushIo) : ∃ w' cf', flushOne w cf o = .ok (w', cf') ∧
      Keeps w w' ∧ w'.ret = w.ret ∧
      (cf'.cfile = cf.cfile ∧ cf'.path = cf.path ∧ cf'.hook = cf.hook) ∧
      (∀ (h : Nat) (s s' : Strm), w.strms[h]? = some s → w'.strms[h]? = some s' →
        (h ≠ cf.cfile → Step s s' ∧ (h ≠ 0 → s' = s)) ∧
        (h = cf.cfile → Flushed h cf cf' s s')) ∧
      (o.flush.Fine → cf' = cf ∧ ∀ (h : Nat) (s s' : Strm), w.strms[h]? = some s →
        w'.strms[h]? = some s' → s'.err = s.err ∧ s'.lost = s.lost) := by
  obtain ⟨c, s, g1, g2, g3, g4, g5, _⟩ := b.tracked _ hm
  cases g1
  have hlt := get_lt g2
  have fs := fflush_step s o.flush
  unfold flushOne
  rw [cffile_ok g2 g4 g5, ok_bind]
  cases ho : o.flush with
  | done k =>
    have h0 : (fflush s (.done k)).2 = 0 := rfl
    rw [if_pos h0]
    rw [ho] at fs
    refine ⟨_, cf, rfl, keeps_put g2 fs.shape, rfl, ⟨rfl, rfl, rfl⟩, fun h x x' ex ex' => ?_,
      fun _ => ⟨rfl, fun h x x' ex ex' => ?_⟩⟩
    · rw [put_get w _ _ _ hlt] at ex'
      refine ⟨fun hh => ?_, fun hh => ?_⟩
      · rw [if_neg hh, ex] at ex'
        cases ex'
        exact ⟨Step.refl x, fun _ => rfl⟩
      · rw [if_pos hh] at ex'
        cases ex'
        rw [hh, g2] at ex
        cases ex
        exact ⟨fs.good, fun y => y, Or.inl, Or.inl, fun _ => rfl, fun _ _ => ⟨rfl, rfl⟩⟩
    · rw [put_get w _ _ _ hlt] at ex'
      by_cases hh : h = cf.cfile
      · rw [if_pos hh] at ex'
        cases ex'
        rw [hh, g2] at ex
        cases ex
        exact ⟨rfl, rfl⟩
      · rw [if_neg hh, ex] at ex'
        cases ex'
        exact ⟨rfl, rfl⟩
  | fail k keep er =>
    rw [ho] at fs
    have hne : (fflush s (.fail k keep er)).2 ≠ 0 := by simp [fflush]
    rw [if_neg hne]
    have kp : Keeps w (w.put cf.cfile { (fflush s (.fail k keep er)).1 with err := false }) :=
      keeps_put g2 ⟨rfl, rfl, rfl, rfl, rfl⟩
    obtain ⟨w1, h1, s1⟩ := complain_ok (b.keeps kp) cf o.msg
    rw [h1, ok_bind]
    refine ⟨_, _, rfl, kp.trans s1.keeps, s1.ret, ⟨rfl, rfl, rfl⟩, fun h x x' ex ex' => ?_,
      fun hf => hf.elim⟩
    have hget := put_get w cf.cfile h { (fflush s (.fail k keep er)).1 with err := false } hlt
    refine ⟨fun hh => ?_, fun hh => ?_⟩
    · rw [if_neg hh, ex] at hget
      obtain ⟨y, ey, p, q⟩ := s1.step h x hget
      have : w1.strms[h]? = some x' := ex'
      rw [this] at ey
      cases ey
      exact ⟨p, q⟩
    · rw [if_pos hh] at hget
      rw [hh, g2] at ex
      cases ex
      obtain ⟨y, ey, p, q⟩ := s1.step h _ hget
      have : w1.strms[h]? = some x' := ex'
      rw [this] at ey
      cases ey
      refine Flushed.after (b := { (fflush s (.fail k keep er)).1 with err := false })
        ⟨fs.good, fun _ => hne, fun _ => Or.inr (Or.inr hne), fun _ => Or.inr hne,
        fun _ => rfl, fun _ y => ?_⟩ p q
      simp [fflush] at y

theorem flushLoop_ok (o : Nat → FlushIo) (fs : List (FileId × Option CtxFile)) :
    ∀ {w : W}, Base none w → (∀ en ∈ fs, en ∈ w.files) → (fs.map (·.1)).Nodup →
    ∃ w' fs', flushLoop o w fs = .ok (w', fs') ∧ Keeps w w' ∧ w'.ret = w.ret ∧
      core fs' = core fs ∧
      (∀ (h : Nat) (s s' : Strm), w.strms[h]? = some s → w'.strms[h]? = some s' →
        (∀ id cf, (id, some cf) ∈ fs → cf.cfile ≠ h) → Step s s' ∧ (h ≠ 0 → s' = s)) ∧
      (∀ (id : FileId) (cf cf' : CtxFile) (s s' : Strm), (id, some cf) ∈ fs →
        (id, some cf') ∈ fs' → w.strms[cf.cfile]? = some s → w'.strms[cf.cfile]? = some s' →
        Flushed cf.cfile cf cf' s s') ∧
      ((∀ h, (o h).flush.Fine) → fs' = fs ∧ ∀ (h : Nat) (s s' : Strm), w.strms[h]? = some s →
        w'.strms[h]? = some s' → s'.err = s.err ∧ s'.lost = s.lost) := by
  induction fs with
  | nil =>
    intro w b _ _
    refine ⟨w, [], rfl, Keeps.refl w, rfl, rfl, fun h s s' e e' _ => ?_,
      fun _ _ _ _ _ hm => (List.not_mem_nil hm).elim, fun _ => ⟨rfl, fun h s s' e e' => ?_⟩⟩
    · rw [e] at e'; cases e'
      exact ⟨Step.refl s, fun _ => rfl⟩
    · rw [e] at e'; cases e'
      exact ⟨rfl, rfl⟩
  | cons en rest ih =>
    intro w b hsub nd
    obtain ⟨id, v⟩ := en
    obtain ⟨cf, s0, hv, hs0, hid0, _⟩ := b.tracked _ (hsub _ List.mem_cons_self)
    simp only at hv
    subst hv
    rw [List.map_cons, List.nodup_cons] at nd
    obtain ⟨w1, cf1, h1, k1, r1, c1, x1, f1⟩ := flushOne_ok b (hsub _ List.mem_cons_self)
      (o cf.cfile)
    obtain ⟨w2, fs2, h2, k2, r2, c2, y2, z2, f2⟩ := ih (b.keeps k1)
      (fun e he => by rw [k1.files]; exact hsub e (List.mem_cons_of_mem _ he)) nd.2
    have huniq : ∀ id' cf', (id', some cf') ∈ rest → cf'.cfile ≠ cf.cfile := by
      intro id' cf' hm hc
      obtain ⟨c, t, hc', ht, hid', _⟩ := b.tracked _ (hsub _ (List.mem_cons_of_mem _ hm))
      cases hc'
      rw [hc] at ht
      rw [hs0] at ht
      cases ht
      have : id = id' := hid0.symm.trans hid'
      subst this
      exact nd.1 (List.mem_map.mpr ⟨_, hm, rfl⟩)
    refine ⟨w2, (id, some cf1) :: fs2, ?_, k1.trans k2, r2.trans r1, ?_, ?_, ?_, ?_⟩
    · show (flushOne w cf (o cf.cfile) >>= _) = _
      rw [h1, ok_bind, h2, ok_bind]
    · show (id, some (cf1.cfile, cf1.path, cf1.hook)) :: core fs2 =
        (id, some (cf.cfile, cf.path, cf.hook)) :: core rest
      rw [c2, c1.1, c1.2.1, c1.2.2]
    · intro h s s' e e' hn
      obtain ⟨t, et, _⟩ := k1.shape h s e
      obtain ⟨p, q⟩ := (x1 h s t e et).1 (fun x => hn id cf List.mem_cons_self x.symm)
      obtain ⟨p', q'⟩ := y2 h t s' et e' (fun i c hm => hn i c (List.mem_cons_of_mem _ hm))
      exact ⟨p.trans p', fun x => (q' x).trans (q x)⟩
    · intro i c c' s s' hm hm' e e'
      obtain ⟨t, et, _⟩ := k1.shape _ s e
      rcases List.mem_cons.mp hm with hm | hm
      · cases hm
        have hc' : c' = cf1 := by
          rcases List.mem_cons.mp hm' with hm' | hm'
          · cases hm'; rfl
          · exfalso
            apply nd.1
            show id ∈ rest.map (·.1)
            rw [← core_keys c2]
            exact List.mem_map.mpr ⟨_, hm', rfl⟩
        subst hc'
        obtain ⟨p', q'⟩ := y2 _ t s' et e' (fun i c hm => huniq i c hm)
        exact ((x1 _ s t e et).2 rfl).after p' q'
      · have hne : i ≠ id := fun x => nd.1 (x ▸ List.mem_map.mpr ⟨_, hm, rfl⟩)
        have hm'' : (i, some c') ∈ fs2 := by
          rcases List.mem_cons.mp hm' with hm' | hm'
          · cases hm'; exact absurd rfl hne
          · exact hm'
        obtain ⟨p, q⟩ := (x1 _ s t e et).1 (huniq i c hm)
        exact (z2 i c c' t s' hm hm'' et e').before p q
    · intro hf
      obtain ⟨g1, g2⟩ := f1 (hf _)
      obtain ⟨g3, g4⟩ := f2 hf
      refine ⟨by rw [g1, g3], fun h s s' e e' => ?_⟩
      obtain ⟨t, et, _⟩ := k1.shape h s e
      obtain ⟨a1, a2⟩ := g2 h s t e et
      obtain ⟨a3, a4⟩ := g4 h t s' et e'
      exact ⟨a3.trans a1, a4.trans a2⟩

/-- `bfs_ctx_flush()`. -/
theorem ctxFlush_ok {w : W} (b : Base none w) (o : Nat → FlushIo) :
    ∃ w', ctxFlush w o = .ok w' ∧ Trans w w' False (fun _ => []) ∧ w'.ret = w.ret ∧
      (∀ (id : FileId) (cf : CtxFile) (s s' : Strm), (id, some cf) ∈ w.files → cf.cfile ≠ 0 →
        w.strms[cf.cfile]? = some s → w'.strms[cf.cfile]? = some s' → s'.lost = false →
        s'.sink = s.sink ++ s.pend ∧ s'.pend = []) ∧
      ((∀ h, (o h).flush.Fine) → w'.files = w.files ∧ ∀ (h : Nat) (s s' : Strm),
        w.strms[h]? = some s → w'.strms[h]? = some s' → s'.err = s.err ∧ s'.lost = s.lost) := by
  obtain ⟨w1, fs, h1, k1, r1, c1, y1, z1, f1⟩ := flushLoop_ok o w.files b (fun _ h => h) b.keys
  unfold ctxFlush
  rw [h1, ok_bind]
  refine ⟨_, rfl, ⟨c1, k1.cout, k1.cerr, k1.nfiles, k1.ignore, k1.hooks, k1.acts, k1.len,
    k1.shape, fun h s e h0 ht => ?_, fun id cf cf' s s' hm hm' e e' => ?_, fun f => f.elim⟩, r1,
    fun id cf s s' hm h0 e e' hl => ?_, f1⟩
  · obtain ⟨s', e', _⟩ := k1.shape h s e
    have := (y1 h s s' e e' (fun id cf hm x => ht ⟨id, cf, hm, x⟩)).2 h0
    rw [← this]
    exact e'
  · have z := z1 id cf cf' s s' hm hm' e e'
    exact ⟨z.good, fun h0 => by rw [z.given h0]; simp, z.error,
      fun x => (z.lost x).elim Or.inl (fun y => Or.inr (y.elim Or.inl (fun u => Or.inr (Or.inl u)))),
      fun x => (z.err x).elim Or.inl (fun y => Or.inr (Or.inl y))⟩
  · obtain ⟨cf', hm', _⟩ := core_mem c1.symm hm
    exact (z1 id cf cf' s s' hm hm' e e').done h0 hl

/-! ### All steps -/

theorem trans_ret {w : W} (b : Base none w) (n : Nat) :
    Trans w { w with ret := n } False (fun _ => []) where
  files := rfl
  cout := rfl
  cerr := rfl
  nfiles := rfl
  ignore := rfl
  hooks := rfl
  acts := rfl
  len := rfl
  shape := fun _ s e => ⟨s, e, Shape.refl s⟩
  idle := fun _ _ e _ _ => e
  used := ((Said.refl w).trans' b).used
  failed := fun f => f.elim

/-- The exit status changes, and then there is a diagnostic. -/
theorem trans_ret_said {w w' : W} (b : Base none w) (n : Nat)
    (k : Said { w with ret := n } w') : Trans w w' False (fun _ => []) := by
  have t := k.trans' (b.setRet n)
  exact ⟨t.files, t.cout, t.cerr, t.nfiles, t.ignore, t.hooks, t.acts, t.len, t.shape, t.idle,
    t.used, fun f => f.elim⟩

/-- The stream of an action is the one of its file. -/
theorem act_stream_iff {e : Env} {w : W} (i : Inv e w) {a : Act} (ha : a ∈ w.acts) {id : FileId}
    {cf : CtxFile} (hm : (id, some cf) ∈ w.files) : cf.cfile = a.cfile ↔ a.id = id := by
  obtain ⟨cfa, s, h1, h2, h3, _⟩ := act_stream i ha
  constructor
  · intro h
    obtain ⟨c, t, g1, g2, g3, _⟩ := i.base.tracked _ hm
    cases g1
    obtain ⟨c', t', g1', g2', g3', _⟩ := i.base.tracked _ h1
    cases g1'
    rw [h, ← h2, g2'] at g2
    cases g2
    exact g3'.symm.trans g3
  · intro h
    rw [h] at h1
    have : cf = cfa := Option.some.inj (mem_unique i.base.keys hm h1)
    rw [this]
    exact h2

/-- Nothing has gone wrong so far. -/
structure Clean (w : W) : Prop where
  ret : w.ret = EXIT_SUCCESS
  files : ∀ (id : FileId) (cf : CtxFile), (id, some cf) ∈ w.files → cf.error = 0
  strms : ∀ (h : Nat) (s : Strm), w.strms[h]? = some s → Tracked w h → s.err = false ∧ s.lost = false

/-- What a step prints to a stream. -/
def stepData (w : W) (op : EOp) (h : Nat) : Bytes :=
  match op with
  | .print i chunks _ =>
    ((w.acts[i]?).elim [] fun a => if h = a.cfile then chunks.flatMap (·.1) else [])
  | .show_ d _ => if h = 1 then d else []
  | _ => []

theorem stepData_printed {e : Env} {w : W} (i : Inv e w) (op : EOp) {id : FileId} {cf : CtxFile}
    (hm : (id, some cf) ∈ w.files) : stepData w op cf.cfile = printedBy w.acts e.stdout id op := by
  cases op with
  | print n cs m =>
    unfold stepData printedBy
    dsimp only
    cases ha : w.acts[n]? with
    | none => rfl
    | some a =>
      have hin : a ∈ w.acts := List.mem_of_getElem? ha
      simp only [Option.elim_some]
      by_cases h : cf.cfile = a.cfile
      · rw [if_pos h, if_pos ((act_stream_iff i hin hm).mp h)]
      · rw [if_neg h, if_neg (fun x => h ((act_stream_iff i hin hm).mpr x))]
  | show_ d io =>
    unfold stepData printedBy
    dsimp only
    obtain ⟨co, h1, h2⟩ := i.outT
    by_cases h : cf.cfile = 1
    · rw [if_pos h, if_pos]
      obtain ⟨c, t, g1, g2, g3, _⟩ := i.base.tracked _ hm
      cases g1
      obtain ⟨c', t', g1', g2', g3', _⟩ := i.base.tracked _ h1
      cases g1'
      rw [h, ← h2, g2'] at g2
      cases g2
      exact g3'.symm.trans g3
    · rw [if_neg h, if_neg]
      intro x
      rw [x] at h1
      have : cf = co := Option.some.inj (mem_unique i.base.keys hm h1)
      rw [this] at h
      exact h h2
  | fail m => rfl
  | note m => rfl
  | flush o => rfl
  | exit n => rfl
  | fatal m => rfl

/-- A step during which an action could not print. -/
def Fails (w : W) (op : EOp) : Prop :=
  ∃ i cs m, op = .print i cs m ∧ w.acts[i]? ≠ none ∧ ∃ c ∈ cs, Chunk.Fails c

theorem said_clean {w w' : W} (b : Base none w) (c : Clean w) (k : Said w w')
    (hf : ∀ s s', w.strms[0]? = some s → w'.strms[0]? = some s' → s'.err = s.err ∧ s'.lost = s.lost) :
    Clean w' := by
  refine ⟨k.ret.trans c.ret, by rw [k.keeps.files]; exact c.files, fun h s' es' ht => ?_⟩
  obtain ⟨s, es, _⟩ := k.keeps.back es'
  have hc := c.strms h s es ((tracked_keeps k.keeps).mp ht)
  by_cases h0 : h = 0
  · subst h0
    obtain ⟨p, q⟩ := hf s s' es es'
    rw [p, q]
    exact hc
  · obtain ⟨t, et, _, p⟩ := k.step h s es
    rw [es'] at et
    cases et
    rw [p h0]
    exact hc

theorem showOut_eq {w : W} {c : Nat} {s : Strm} (h : w.cout = some c)
    (e : w.cffile c = .ok s) (d : Bytes) (io : Io) :
    showOut w d io = .ok (w.put c (fwrite s d io).1) := by
  unfold showOut
  rw [h]
  dsimp only
  rw [e, ok_bind]

theorem evalStep_ok {e : Env} {w : W} (i : Inv e w) (op : EOp) :
    ∃ w', evalStep w op = .ok w' ∧ Trans w w' (Fails w op) (stepData w op) ∧
      (w.ret ≠ EXIT_SUCCESS → op ≠ EOp.exit 0 → w'.ret ≠ EXIT_SUCCESS) ∧
      (Clean w → op.Fine → Clean w') := by
  have noF : ∀ {op : EOp}, (∀ n cs m, op ≠ .print n cs m) → ∀ {w w' : W} {G : Nat → Bytes},
      Trans w w' False G → Trans w w' (Fails w op) G := by
    intro op hop w w' G t
    refine ⟨t.files, t.cout, t.cerr, t.nfiles, t.ignore, t.hooks, t.acts, t.len, t.shape, t.idle,
      fun a b c d f g h k l => ?_, fun x => ?_⟩
    · obtain ⟨u1, u2, u3, u4, u5⟩ := t.used a b c d f g h k l
      exact ⟨u1, u2, u3, fun x => (u4 x).imp id (fun y => y.imp id (fun z => z.imp id False.elim)),
        fun x => (u5 x).imp id (fun y => y.imp id False.elim)⟩
    · obtain ⟨n, cs, m, hx, _⟩ := x
      exact absurd hx (hop n cs m)
  cases op with
  | print n cs m =>
    show ∃ w', (match w.acts[n]? with | some a => evalPrint w a cs m | none => Out.ok w) = _ ∧ _
    cases ha : w.acts[n]? with
    | none =>
      dsimp only
      refine ⟨w, rfl, ?_, fun h _ => h, fun c _ => c⟩
      have t := (Said.refl w).trans' i.base
      have hg : stepData w (.print n cs m) = fun _ => [] := by
        funext h
        simp [stepData, ha]
      rw [hg]
      refine ⟨t.files, t.cout, t.cerr, t.nfiles, t.ignore, t.hooks, t.acts, t.len, t.shape,
        t.idle, fun a b c d f g h k l => ?_, fun x => ?_⟩
      · obtain ⟨u1, u2, u3, u4, u5⟩ := t.used a b c d f g h k l
        exact ⟨u1, u2, u3, fun x => (u4 x).imp id (fun y => y.imp id (fun z => z.imp id False.elim)),
          fun x => (u5 x).imp id (fun y => y.imp id False.elim)⟩
      · obtain ⟨n', _, _, hx, hy, _⟩ := x
        cases hx
        exact absurd ha hy
    | some a =>
      dsimp only
      have hin : a ∈ w.acts := List.mem_of_getElem? ha
      obtain ⟨w', h1, t, r, f⟩ := evalPrint_ok i hin cs m
      have hg : stepData w (.print n cs m) = fun h => if h = a.cfile then cs.flatMap (·.1) else [] := by
        funext h
        simp [stepData, ha]
      have hF : Fails w (.print n cs m) ↔ ∃ c ∈ cs, Chunk.Fails c := by
        constructor
        · rintro ⟨_, _, _, hx, _, hy⟩
          cases hx
          exact hy
        · exact fun h => ⟨n, cs, m, rfl, by rw [ha]; simp, h⟩
      rw [hg, hF]
      refine ⟨w', h1, t, fun h _ => r h, fun c hf => ?_⟩
      obtain ⟨f1, f2, f3⟩ := f hf
      refine ⟨f1.trans c.ret, by rw [f2]; exact c.files, fun h s' es' ht => ?_⟩
      obtain ⟨s, es, p, q⟩ := f3 h s' es'
      rw [p, q]
      exact c.strms h s es ((t.tracked h).mp ht)
  | show_ d io =>
    obtain ⟨co, hm1, hc1⟩ := i.outT
    obtain ⟨c, s, g1, g2, g3, g4, g5, _⟩ := i.base.tracked _ hm1
    cases g1
    rw [hc1] at g2
    have hlt := get_lt g2
    have st := fwrite_step s d io
    have kp : Keeps w (w.put 1 (fwrite s d io).1) := keeps_put g2 st.shape
    refine ⟨_, showOut_eq i.cout (cffile_ok g2 g4 g5) d io,
      noF (by intro _ _ _ h; cases h) ⟨rfl, rfl, rfl, rfl, rfl, rfl, rfl, kp.len, kp.shape,
      fun h x ex _ ht => ?_, fun fid cf cf' x x' hm hm' ex ex' => ?_, fun f => f.elim⟩,
      fun h _ => h, fun c hf => ⟨c.ret, c.files, fun h x' ex' ht => ?_⟩⟩
    · rw [put_get w _ _ _ hlt, if_neg (fun y => ht ⟨_, co, hm1, hc1.trans y.symm⟩)]
      exact ex
    · have : cf = cf' := Option.some.inj (mem_unique i.base.keys hm hm')
      subst this
      rw [put_get w _ _ _ hlt] at ex'
      unfold stepData
      dsimp only
      by_cases hh : cf.cfile = 1
      · rw [if_pos hh] at ex' ⊢
        cases ex'
        rw [hh, g2] at ex
        cases ex
        refine ⟨st.good, fun _ => ?_, fun y => y, fun y => ?_, fun y => Or.inl (st.err y)⟩
        · cases io <;> rfl
        · exact (st.lost y).imp id Or.inl
      · rw [if_neg hh] at ex' ⊢
        rw [ex] at ex'
        cases ex'
        exact ⟨fun y => y, fun _ => by simp, fun y => y, Or.inl, Or.inl⟩
    · rw [put_get w _ _ _ hlt] at ex'
      by_cases hh : h = 1
      · rw [if_pos hh] at ex'
        cases ex'
        have := c.strms h s (by rw [hh]; exact g2) ht
        cases io with
        | done k => exact this
        | fail => exact hf.elim
      · rw [if_neg hh] at ex'
        exact c.strms h x' ex' ht
  | fail m =>
    obtain ⟨w', h1, s1, r1, r2⟩ := evalError_ok i.base m
    refine ⟨w', h1, noF (by intro _ _ _ h; cases h) (trans_ret_said i.base _ s1), fun h _ => ?_, fun _ hf => hf.elim⟩
    by_cases hi : w.ignore = true
    · rw [r1 hi]; exact h
    · rw [r2 (Bool.eq_false_iff.mpr hi)]; decide
  | note m =>
    obtain ⟨w', h1, s1⟩ := message_ok i.base m
    refine ⟨w', h1, noF (by intro _ _ _ h; cases h) (s1.trans' i.base), fun h _ => by rw [s1.ret]; exact h,
      fun c hf => said_clean i.base c s1 (message_fine i.base m hf h1)⟩
  | flush o =>
    obtain ⟨w', h1, t, r, _, f⟩ := ctxFlush_ok i.base o
    refine ⟨w', h1, noF (by intro _ _ _ h; cases h) t, fun h _ => by rw [r]; exact h, fun c hf => ?_⟩
    obtain ⟨f1, f2⟩ := f (fun h => (hf h).1)
    refine ⟨r.trans c.ret, by rw [f1]; exact c.files, fun h s' es' ht => ?_⟩
    obtain ⟨s, es, _⟩ := t.back es'
    obtain ⟨p, q⟩ := f2 h s s' es es'
    rw [p, q]
    exact c.strms h s es ((t.tracked h).mp ht)
  | exit n =>
    refine ⟨_, rfl, noF (by intro _ _ _ h; cases h) (trans_ret i.base n), fun _ hn h => hn ?_,
      fun c hf => ⟨hf, c.files, c.strms⟩⟩
    have : n = 0 := h
    rw [this]
  | fatal m =>
    obtain ⟨w', h1, s1⟩ := message_ok (i.base.setRet EXIT_FAILURE) m
    refine ⟨w', h1, noF (by intro _ _ _ h; cases h) (trans_ret_said i.base _ s1), fun _ _ => ?_, fun _ hf => hf.elim⟩
    rw [s1.ret]
    show EXIT_FAILURE ≠ EXIT_SUCCESS
    decide

/-- The whole evaluation. -/
theorem evalAll_ok {e : Env} (eops : List EOp) : ∀ {w : W} {hist : List EOp}, EInv e w hist →
    ∃ w', evalAll w eops = .ok w' ∧ EInv e w' (hist ++ eops) ∧ w'.acts = w.acts ∧
      (Acc w eops → Unforgiven e eops → Acc w' []) ∧
      (Clean w → (∀ op ∈ eops, op.Fine) → Clean w') := by
  induction eops with
  | nil =>
    intro w hist v
    exact ⟨w, rfl, by rw [List.append_nil]; exact v, rfl, fun a _ => a, fun c _ => c⟩
  | cons op rest ih =>
    intro w hist v
    obtain ⟨w1, h1, t1, r1, f1⟩ := evalStep_ok v.inv op
    have v1 := v.trans' (op := op) t1 (fun id cf hm _ => stepData_printed v.inv op hm)
    obtain ⟨w2, h2, v2, a2, c2, f2⟩ := ih v1
    refine ⟨w2, ?_, ?_, a2.trans t1.acts, fun a hu => ?_, fun c hf => ?_⟩
    · show (evalStep w op >>= _) = _
      rw [h1, ok_bind, h2]
    · rw [List.append_assoc] at v2
      exact v2
    · refine c2 (a.trans' v.inv.base t1 (fun hF => ?_) r1) ?_
      · obtain ⟨n, cs, m, hop, _, hc⟩ := hF
        obtain ⟨p, q⟩ := hu [] n cs m rest (by rw [hop]; rfl) hc
        exact ⟨by rw [v.inv.ignore]; exact p, q⟩
      · intro l n cs m r hr hc
        exact hu (op :: l) n cs m r (by rw [hr]; rfl) hc
    · exact f2 (f1 c (hf op List.mem_cons_self)) (fun x hx => hf x (List.mem_cons_of_mem _ hx))

end Verif.Files
