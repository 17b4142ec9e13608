import Verif.Lemmas.FilesFree
import Verif.Lemmas.FilesSetup
/-! # Output files: failures are reported -/
namespace Verif.Files

variable {b : UInt8}

/-- The byte `b` was written to stderr. -/
def Spoke (b : UInt8) (w : W) : Prop := ∃ s, w.strms[0]? = some s ∧ b ∈ s.given

/-- There is a name for every file. -/
def Known (w : W) : Prop := ∀ id cf, (id, some cf) ∈ w.files → cf.path.isSome = true ∨ w.cout = some cf.cfile ∨ w.cerr = some cf.cfile

/-- What is written to stderr stays. -/
structure Grows (w w' : W) : Prop where
  cout : w'.cout = w.cout
  cerr : w'.cerr = w.cerr
  given : ∀ s, w.strms[0]? = some s → ∃ s', w'.strms[0]? = some s' ∧ (∀ b ∈ s.given, b ∈ s'.given)

theorem Grows.refl (w : W) : Grows w w := ⟨rfl, rfl, fun s h => ⟨s, h, fun _ x => x⟩⟩

theorem Grows.trans {a b c : W} (h : Grows a b) (g : Grows b c) : Grows a c where
  cout := g.cout.trans h.cout
  cerr := g.cerr.trans h.cerr
  given := fun s hs => by
    obtain ⟨s1, h1, k1⟩ := h.given s hs
    obtain ⟨s2, h2, k2⟩ := g.given s1 h1
    exact ⟨s2, h2, fun b x => k2 b (k1 b x)⟩

theorem Grows.spoke {w w' : W} (h : Grows w w') (k : Spoke b w) : Spoke b w' := by
  obtain ⟨s, h1, h2⟩ := k
  obtain ⟨s', h3, h4⟩ := h.given s h1
  exact ⟨s', h3, h4 b h2⟩

theorem cffile_get {w : W} {h : Nat} {s : Strm} (k : w.cffile h = .ok s) : w.strms[h]? = some s := by
  unfold W.cffile at k
  obtain ⟨_, _, k⟩ := Out.bind_eq_ok.1 k
  unfold W.file at k
  split at k
  · next s' hs =>
    split at k
    · cases k; exact hs
    · cases k
  · cases k

theorem file_get {w : W} {h : Nat} {s : Strm} (k : w.file h = .ok s) : w.strms[h]? = some s := by
  unfold W.file at k
  split at k
  · next s' hs =>
    split at k
    · cases k; exact hs
    · cases k
  · cases k

theorem cfile_get {w : W} {h : Nat} {s : Strm} (k : w.cfile h = .ok s) : w.strms[h]? = some s := by
  unfold W.cfile at k
  split at k
  · next s' hs =>
    split at k
    · cases k; exact hs
    · cases k
  · cases k

theorem grows_put {w : W} {h : Nat} {s s' : Strm} (e : w.strms[h]? = some s) (g : ∀ b ∈ s.given, b ∈ s'.given) : Grows w (w.put h s') := by
  refine ⟨rfl, rfl, fun t ht => ?_⟩
  rw [put_get w h 0 s' (get_lt e)]
  by_cases h0 : 0 = h
  · subst h0
    rw [e] at ht
    cases ht
    exact ⟨s', if_pos rfl, g⟩
  · exact ⟨t, by rw [if_neg h0]; exact ht, fun _ x => x⟩

theorem fwrite_given (s : Strm) (d : Bytes) (io : Io) : (fwrite s d io).1.given = s.given ++ d := by cases io <;> rfl

theorem fflush_given (s : Strm) (io : Io) : (fflush s io).1.given = s.given := by cases io <;> rfl

theorem writeAll_given : ∀ (m : Msg) (s : Strm), (writeAll s m).given = s.given ++ m.flatMap (·.1)
  | [], s => by simp [writeAll]
  | (d, io) :: rest, s => by
    rw [writeAll, writeAll_given rest, fwrite_given]
    simp

theorem append_ne {a l : Bytes} (h : b ∈ a) : b ∈ a ++ l := List.mem_append_left _ h

theorem message_grows {w w' : W} {m : Msg} (h : message w m = .ok w') : Grows w w' ∧ w'.files = w.files ∧ w'.ret = w.ret ∧ w'.ignore = w.ignore ∧
    (w.cerr = some 0 → b ∈ m.flatMap (·.1) → Spoke b w') := by
  unfold message at h
  split at h
  · next hc => cases h; exact ⟨.refl _, rfl, rfl, rfl, fun x => by rw [hc] at x; cases x⟩
  · next c hc =>
    obtain ⟨s, h1, h⟩ := Out.bind_eq_ok.1 h
    have hs := cffile_get h1
    cases h
    refine ⟨grows_put hs (fun b x => by rw [writeAll_given]; exact append_ne x), rfl, rfl, rfl, fun hz hm => ?_⟩
    rw [hc] at hz
    cases hz
    refine ⟨_, by rw [put_get w 0 0 _ (get_lt hs)]; exact if_pos rfl, ?_⟩
    rw [writeAll_given]
    exact List.mem_append_right _ hm

theorem complain_grows {w w' : W} {cf : CtxFile} {m : Msg} (h : complain w cf m = .ok w') : Grows w w' ∧ w'.files = w.files ∧ w'.ret = w.ret ∧ w'.ignore = w.ignore := by
  unfold complain at h
  split at h
  · obtain ⟨a, a', c, d, _⟩ := message_grows (b := 0) h
    exact ⟨a, a', c, d⟩
  · cases h; exact ⟨.refl _, rfl, rfl, rfl⟩

theorem Grows.len {w w' : W} (g : Grows w w') (h : 0 < w.strms.length) : 0 < w'.strms.length := by
  obtain ⟨s', h1, _⟩ := g.given _ (List.getElem?_eq_getElem h)
  exact get_lt h1

/-! ## Flushing and closing -/

theorem flushOne_grows {w : W} {cf : CtxFile} {o : FlushIo} {r : W × CtxFile} (h : flushOne w cf o = .ok r) :
    Grows w r.1 ∧ r.1.ret = w.ret ∧ r.1.ignore = w.ignore ∧ r.2.path = cf.path ∧ r.2.cfile = cf.cfile := by
  unfold flushOne at h
  obtain ⟨s, h1, h⟩ := Out.bind_eq_ok.1 h
  have hs := cffile_get h1
  split at h
  · cases h
    exact ⟨grows_put hs (fun b x => by rw [fflush_given]; exact x), rfl, rfl, rfl, rfl⟩
  · obtain ⟨w1, h2, h⟩ := Out.bind_eq_ok.1 h
    cases h
    obtain ⟨a, b, c, d⟩ := complain_grows h2
    exact ⟨(grows_put hs (fun b x => by show b ∈ (fflush s o.flush).1.given; rw [fflush_given]; exact x)).trans a, c, d, rfl, rfl⟩

theorem flushLoop_grows {o : Nat → FlushIo} : ∀ {fs : List (FileId × Option CtxFile)} {w : W} {r : W × List (FileId × Option CtxFile)}, flushLoop o w fs = .ok r →
    Grows w r.1 ∧ r.1.ret = w.ret ∧ r.1.ignore = w.ignore ∧ ∀ id cf, (id, some cf) ∈ r.2 → ∃ cf0, (id, some cf0) ∈ fs ∧ cf.path = cf0.path ∧ cf.cfile = cf0.cfile
  | [], w, r, h => by cases h; exact ⟨.refl _, rfl, rfl, fun _ _ x => by cases x⟩
  | (id, none) :: fs, w, r, h => by cases h
  | (id, some cf) :: fs, w, r, h => by
    unfold flushLoop at h
    obtain ⟨r1, h1, h⟩ := Out.bind_eq_ok.1 h
    obtain ⟨r2, h2, h⟩ := Out.bind_eq_ok.1 h
    cases h
    obtain ⟨a1, a2, a3, a4, a5⟩ := flushOne_grows h1
    obtain ⟨b1, b2, b3, b4⟩ := flushLoop_grows h2
    refine ⟨a1.trans b1, b2.trans a2, b3.trans a3, fun id' cf' hm => ?_⟩
    rcases List.mem_cons.1 hm with hm | hm
    · injection hm with h1 h2
      injection h2 with h2
      subst h1; subst h2
      exact ⟨cf, List.mem_cons_self, a4, a5⟩
    · obtain ⟨cf0, k1, k2⟩ := b4 id' cf' hm
      exact ⟨cf0, List.mem_cons_of_mem _ k1, k2⟩

theorem ctxFlush_grows {w w' : W} {o : Nat → FlushIo} (h : ctxFlush w o = .ok w') : Grows w w' ∧ w'.ret = w.ret ∧ w'.ignore = w.ignore ∧ (Known w → Known w') := by
  unfold ctxFlush at h
  obtain ⟨r, h1, h⟩ := Out.bind_eq_ok.1 h
  cases h
  obtain ⟨a1, a2, a3, a4⟩ := flushLoop_grows h1
  refine ⟨⟨a1.cout, a1.cerr, a1.given⟩, a2, a3, fun hk id cf hm => ?_⟩
  obtain ⟨cf0, k1, k2, k3⟩ := a4 id cf hm
  have := hk id cf0 k1
  show _ ∨ r.1.cout = _ ∨ r.1.cerr = _
  rw [k2, k3, a1.cout, a1.cerr]
  exact this

theorem cfclose_grows {w : W} {h : Nat} {io : Io} {r : W × Nat} (k : cfclose w h io = .ok r) : Grows w r.1 ∧ r.1.files = w.files ∧ r.1.ret = w.ret ∧ r.1.ignore = w.ignore := by
  unfold cfclose at k
  obtain ⟨s, h1, k⟩ := Out.bind_eq_ok.1 k
  have hs := cfile_get h1
  split at k
  · cases k
  · split at k
    · obtain ⟨f, h2, k⟩ := Out.bind_eq_ok.1 k
      have hf := file_get h2
      cases k
      exact ⟨grows_put hf (fun b x => by show b ∈ (fflush f io).1.given; rw [fflush_given]; exact x), rfl, rfl, rfl⟩
    · cases k
      exact ⟨grows_put hs (fun _ x => x), rfl, rfl, rfl⟩

theorem ctxFclose_grows {w : W} {cf : CtxFile} {o : FlushIo} {r : W × Bool} (h : ctxFclose w cf o = .ok r)
    (hk : cf.path.isSome = true ∨ w.cout = some cf.cfile ∨ w.cerr = some cf.cfile) (hc : w.cerr = some 0) (hm : b ∈ o.msg.flatMap (·.1)) :
    Grows w r.1 ∧ (r.2 = true → Spoke b r.1) := by
  unfold ctxFclose at h
  obtain ⟨s, h1, h⟩ := Out.bind_eq_ok.1 h
  have hs := cffile_get h1
  dsimp only at h
  obtain ⟨⟨w1, b1⟩, h2, h⟩ := Out.bind_eq_ok.1 h
  have g1 : Grows w (unhook (w.put cf.cfile (ctxFflush s o.flush).1) cf) := by
    have := grows_put (s' := (ctxFflush s o.flush).1) hs (fun b x => by show b ∈ (fflush s o.flush).1.given; rw [fflush_given]; exact x)
    unfold unhook
    split
    · exact ⟨this.cout, this.cerr, this.given⟩
    · exact this
  have g2 : Grows (unhook (w.put cf.cfile (ctxFflush s o.flush).1) cf) w1 := by
    unfold closeOwned at h2
    split at h2
    · obtain ⟨q, h3, h2⟩ := Out.bind_eq_ok.1 h2
      have := (cfclose_grows h3).1
      cases h2
      exact this
    · cases h2; exact .refl _
  have g12 := g1.trans g2
  obtain ⟨w2, h3, h⟩ := Out.bind_eq_ok.1 h
  cases h
  dsimp only at h3 ⊢
  unfold reportClose at h3
  split at h3
  · next hb =>
    have hb := (Bool.and_eq_true _ _ ▸ hb).1
    refine ⟨g12.trans (complain_grows h3).1, fun _ => ?_⟩
    unfold complain at h3
    split at h3
    · exact (message_grows h3).2.2.2.2 (g12.cerr.trans hc) hm
    · next hn =>
      exfalso
      apply hn
      unfold named
      rw [Bool.or_eq_true]
      rcases hk with hk | hk | hk
      · exact .inl hk
      · right; rw [g12.cout, hk]; simp
      · by_cases hp : cf.path.isSome = true
        · exact .inl hp
        · exfalso
          have hp : cf.path.isNone = true := by
            cases hh : cf.path with
            | none => rfl
            | some p => rw [hh] at hp; exact absurd rfl hp
          rw [hk, hp] at hb
          simp at hb
  · next hb =>
    cases h3
    refine ⟨g12, fun ht => ?_⟩
    rw [ht, g12.cerr, hc] at hb
    exact absurd rfl hb

theorem freeLoop_grows {o : Nat → FlushIo} (ho : ∀ h, b ∈ (o h).msg.flatMap (·.1)) : ∀ {fs : List (FileId × Option CtxFile)} {w : W} {r : W × Bool}, freeLoop o w fs = .ok r →
    (∀ id cf, (id, some cf) ∈ fs → cf.path.isSome = true ∨ w.cout = some cf.cfile ∨ w.cerr = some cf.cfile) → w.cerr = some 0 → Grows w r.1 ∧ (r.2 = true → Spoke b r.1)
  | [], w, r, h, _, _ => by cases h; exact ⟨.refl _, fun x => by cases x⟩
  | (_, none) :: _, w, r, h, _, _ => by cases h
  | (id, some cf) :: fs, w, r, h, hk, hc => by
    unfold freeLoop at h
    obtain ⟨r1, h1, h⟩ := Out.bind_eq_ok.1 h
    obtain ⟨r2, h2, h⟩ := Out.bind_eq_ok.1 h
    cases h
    obtain ⟨a1, a2⟩ := ctxFclose_grows h1 (hk id cf List.mem_cons_self) hc (ho _)
    obtain ⟨b1, b2⟩ := freeLoop_grows ho h2 (fun id' cf' hm => by rw [a1.cout, a1.cerr]; exact hk id' cf' (List.mem_cons_of_mem _ hm)) (a1.cerr.trans hc)
    refine ⟨a1.trans b1, fun ht => ?_⟩
    dsimp only at ht
    rw [Bool.or_eq_true] at ht
    rcases ht with ht | ht
    · exact b1.spoke (a2 ht)
    · exact b2 ht

theorem cfcloseOpt_grows {w w' : W} {h : Option Nat} {io : Io} (k : cfcloseOpt w h io = .ok w') : Grows w w' := by
  unfold cfcloseOpt at k
  split at k
  · cases k; exact .refl _
  · obtain ⟨r, h1, k⟩ := Out.bind_eq_ok.1 k
    cases k
    exact (cfclose_grows h1).1

theorem ctxFree_grows {w : W} {o : Nat → FlushIo} (ho : ∀ h, b ∈ (o h).msg.flatMap (·.1)) {r : W × Bool} (h : ctxFree w o = .ok r) (hk : Known w) (hc : w.cerr = some 0) :
    Grows w r.1 ∧ (r.2 = true → Spoke b r.1) := by
  unfold ctxFree at h
  obtain ⟨r1, h1, h⟩ := Out.bind_eq_ok.1 h
  obtain ⟨w1, h2, h⟩ := Out.bind_eq_ok.1 h
  obtain ⟨w2, h3, h⟩ := Out.bind_eq_ok.1 h
  cases h
  obtain ⟨a1, a2⟩ := freeLoop_grows ho h1 hk hc
  have g2 := cfcloseOpt_grows h2
  have g3 := cfcloseOpt_grows h3
  have g : Grows r1.1 w2 := Grows.trans ⟨g2.cout, g2.cerr, g2.given⟩ g3
  exact ⟨a1.trans g, fun ht => g.spoke (a2 ht)⟩

/-! ## The evaluation -/

/-- The invariant: failures were reported. -/
structure Told (b : UInt8) (w : W) : Prop where
  cerr : w.cerr = some 0
  known : Known w
  told : w.ret ≠ EXIT_SUCCESS → Spoke b w
  len : 0 < w.strms.length

theorem Told.keep {w w' : W} (t : Told b w) (g : Grows w w') (hf : w'.files = w.files) (hr : w'.ret = w.ret) : Told b w' where
  cerr := g.cerr.trans t.cerr
  known := fun id cf hm => by rw [g.cout, g.cerr]; exact t.known id cf (hf ▸ hm)
  told := fun hn => g.spoke (t.told (hr ▸ hn))
  len := g.len t.len

theorem Told.fails {w w' : W} {m : Msg} (t : Told b w) (hm : b ∈ m.flatMap (·.1)) (h : message { w with ret := EXIT_FAILURE } m = .ok w') : Told b w' := by
  obtain ⟨g, h1, _, _, h2⟩ := message_grows h
  refine ⟨g.cerr.trans t.cerr, fun id cf hx => ?_, fun _ => h2 t.cerr hm, g.len t.len⟩
  rw [g.cout, g.cerr]
  exact t.known id cf (h1 ▸ hx)

theorem writeChunks_given : ∀ (cs : List Chunk) (s : Strm), ∃ l, (writeChunks s cs).1.given = s.given ++ l
  | [], s => ⟨[], by simp [writeChunks]⟩
  | (d, some io) :: rest, s => by
    unfold writeChunks
    split
    · obtain ⟨l, hl⟩ := writeChunks_given rest (fwrite s d io).1
      exact ⟨d ++ l, by rw [hl, fwrite_given, List.append_assoc]⟩
    · exact ⟨d ++ rest.flatMap (·.1), by show (fwrite s d io).1.given ++ _ = _; rw [fwrite_given, List.append_assoc]⟩
  | (d, none) :: rest, s => ⟨d ++ rest.flatMap (·.1), by unfold writeChunks; show s.given ++ d ++ _ = _; rw [List.append_assoc]⟩

theorem Told.evalError {w w' : W} {m : Msg} (t : Told b w) (hm : b ∈ m.flatMap (·.1)) (h : Files.evalError w m = .ok w') : Told b w' := by
  unfold Files.evalError at h
  split at h
  · cases h; exact t
  · exact t.fails hm h

theorem Told.evalStep {w w' : W} {op : EOp} (t : Told b w) (hm : op.Audible b) (h : Files.evalStep w op = .ok w') : Told b w' := by
  cases op with
  | print i chunks m =>
    unfold Files.evalStep at h
    dsimp only at h
    split at h
    · next a ha =>
      unfold evalPrint at h
      obtain ⟨s, h1, h⟩ := Out.bind_eq_ok.1 h
      have hs := cffile_get h1
      dsimp only at h
      obtain ⟨l, hl⟩ := writeChunks_given chunks s
      have g := grows_put (s' := (writeChunks s chunks).1) hs (fun b x => by rw [hl]; exact append_ne x)
      have t1 := t.keep g rfl rfl
      split at h
      · cases h; exact t1
      · unfold evalIoError at h
        obtain ⟨w1, h2, h⟩ := Out.bind_eq_ok.1 h
        have t2 := t1.evalError hm h2
        unfold clearerr at h
        obtain ⟨s2, h3, h⟩ := Out.bind_eq_ok.1 h
        cases h
        exact t2.keep (grows_put (cffile_get h3) (fun _ x => x)) rfl rfl
    · cases h; exact t
  | show_ d io =>
    have h : showOut w d io = .ok w' := h
    unfold showOut at h
    split at h
    · cases h
    · obtain ⟨s, h1, h⟩ := Out.bind_eq_ok.1 h
      cases h
      exact t.keep (grows_put (cffile_get h1) (fun b x => by rw [fwrite_given]; exact append_ne x)) rfl rfl
  | fail m => exact t.evalError hm h
  | note m =>
    obtain ⟨g, h1, h2, _⟩ := message_grows (b := b) (show message w m = .ok w' from h)
    exact t.keep g h1 h2
  | flush o =>
    obtain ⟨g, h1, _, h3⟩ := ctxFlush_grows (show ctxFlush w o = .ok w' from h)
    exact ⟨g.cerr.trans t.cerr, h3 t.known, fun hn => g.spoke (t.told (h1 ▸ hn)), g.len t.len⟩
  | exit n =>
    have h : Out.ok { w with ret := n } = .ok w' := h
    cases h
    exact ⟨t.cerr, t.known, fun hn => absurd (show n = 0 from hm) hn, t.len⟩
  | fatal m => exact t.fails hm h

theorem Told.evalAll : ∀ {eops : List EOp} {w w' : W}, Told b w → (∀ op ∈ eops, op.Audible b) → Files.evalAll w eops = .ok w' → Told b w'
  | [], w, w', t, _, h => by cases h; exact t
  | op :: rest, w, w', t, hm, h => by
    unfold Files.evalAll at h
    obtain ⟨w1, h1, h⟩ := Out.bind_eq_ok.1 h
    exact (t.evalStep (hm op List.mem_cons_self) h1).evalAll (fun x hx => hm x (List.mem_cons_of_mem _ hx)) h

/-! ## The command line -/

theorem cfwrap_grows {w : W} {h : Nat} {tty close mem : Bool} {r : W × Bool} (k : cfwrap w h tty close mem = .ok r) : Grows w r.1 ∧ r.1.files = w.files ∧ r.1.ret = w.ret := by
  unfold cfwrap at k
  obtain ⟨s, h1, k⟩ := Out.bind_eq_ok.1 k
  split at k
  · cases k; exact ⟨grows_put (file_get h1) (fun _ x => x), rfl, rfl⟩
  · cases k; exact ⟨.refl _, rfl, rfl⟩

theorem dedupNew_told {w : W} {h : Nat} {s : Strm} {path : Option String} {o : DedupIo} (t : Told b w) (hp : path.isSome = true ∨ w.cout = some h ∨ w.cerr = some h) :
    Told b (dedupNew w h s path o).1 := by
  have key : ∀ (id : FileId) (cf : CtxFile) (hook : Bool), (id, some cf) ∈ setLeaf w.files s.id (some ⟨h, path, hook, 0⟩) →
      cf.path.isSome = true ∨ w.cout = some cf.cfile ∨ w.cerr = some cf.cfile := by
    intro id cf hook hm
    unfold setLeaf at hm
    obtain ⟨x, hx, hm⟩ := List.mem_map.1 hm
    split at hm
    · cases hm; exact hp
    · subst hm; exact t.known id cf hx
  unfold dedupNew
  split
  · split
    · split
      · exact ⟨t.cerr, fun id cf hm => key id cf true hm, t.told, t.len⟩
      · exact ⟨t.cerr, fun id cf hm => t.known id cf ((List.mem_filter.1 hm).1), t.told, t.len⟩
    · exact ⟨t.cerr, fun id cf hm => key id cf false hm, t.told, t.len⟩
  · exact ⟨t.cerr, fun id cf hm => t.known id cf ((List.mem_filter.1 hm).1), t.told, t.len⟩

theorem lookup_mem {files : List (FileId × Option CtxFile)} {id : FileId} {v : Option CtxFile} (h : lookup files id = some v) : (id, v) ∈ files := by
  unfold lookup at h
  cases hf : files.find? (fun e => decide (e.1 = id)) with
  | none => rw [hf] at h; cases h
  | some x =>
    rw [hf] at h
    cases h
    have h1 := List.find?_some hf
    have h2 := List.mem_of_find?_eq_some hf
    simp only [decide_eq_true_eq] at h1
    rw [← h1]
    exact h2

theorem Told.dedup {w : W} {h : Nat} {path : Option String} {o : DedupIo} {r : W × Option Nat} (t : Told b w) (hp : path.isSome = true ∨ w.files = [] ∨
      ∀ id cf, (id, some cf) ∈ w.files → w.cout = some cf.cfile ∨ w.cerr = some cf.cfile) (hq : path.isSome = true ∨ w.cout = some h ∨ w.cerr = some h)
    (k : Files.dedup w h path o = .ok r) : Told b r.1 := by
  unfold Files.dedup at k
  obtain ⟨s, h1, k⟩ := Out.bind_eq_ok.1 k
  split at k
  · split at k
    · next cf hl =>
      cases k
      refine ⟨t.cerr, fun id cf' hm => ?_, t.told, t.len⟩
      unfold setLeaf at hm
      obtain ⟨x, hx, hm⟩ := List.mem_map.1 hm
      split at hm
      · cases hm
        have hmem := lookup_mem hl
        rcases hp with hp | hp | hp
        · exact .inl hp
        · rw [hp] at hmem; cases hmem
        · exact .inr (hp _ cf hmem)
      · subst hm; exact t.known id cf' hx
    · cases k; exact dedupNew_told t hq
    · split at k
      · cases k
        refine dedupNew_told ⟨t.cerr, fun id cf hm => ?_, t.told, t.len⟩ hq
        rcases List.mem_append.1 hm with hm | hm
        · exact t.known id cf hm
        · simp at hm
      · cases k; exact t
  · cases k; exact t

theorem Told.said {w w' : W} {m : Msg} (t : Told b w) (h : message w m = .ok w') : Told b w' ∧ (b ∈ m.flatMap (·.1) → Spoke b w') := by
  obtain ⟨g, h1, h2, _, h3⟩ := message_grows h
  exact ⟨t.keep g h1 h2, h3 t.cerr⟩

theorem Told.exprOpen {w : W} {path : String} {o : OpenIo} {r : W × Bool} (t : Told b w) (hm : b ∈ o.msg.flatMap (·.1)) (h : Files.exprOpen w path o = .ok r) :
    Told b r.1 ∧ (r.2 = false → Spoke b r.1) := by
  unfold Files.exprOpen at h
  split at h
  · obtain ⟨w1, h1, h⟩ := Out.bind_eq_ok.1 h
    cases h
    obtain ⟨t1, s1⟩ := t.said h1
    exact ⟨t1, fun _ => s1 hm⟩
  · next id hid =>
    obtain ⟨r1, h1, h⟩ := Out.bind_eq_ok.1 h
    obtain ⟨g1, f1, q1⟩ := cfwrap_grows h1
    have t0 : Told b { w with strms := w.strms ++ [{ id := id }] } := by
      refine ⟨t.cerr, t.known, fun hn => ?_, by show 0 < (w.strms ++ _).length; rw [List.length_append]; exact Nat.lt_of_lt_of_le t.len (Nat.le_add_right _ _)⟩
      obtain ⟨s, k1, k2⟩ := t.told hn
      refine ⟨s, ?_, k2⟩
      show (w.strms ++ _)[0]? = _
      rw [List.getElem?_append_left t.len]
      exact k1
    have t1 := t0.keep g1 f1 q1
    unfold openWrapped at h
    split at h
    · obtain ⟨r2, h2, h⟩ := Out.bind_eq_ok.1 h
      have t2 := t1.dedup (.inl rfl) (.inl rfl) h2
      unfold openDone at h
      split at h
      · next d hd =>
        split at h
        · obtain ⟨r3, h3, h⟩ := Out.bind_eq_ok.1 h
          obtain ⟨g3, f3, q3, _⟩ := cfclose_grows h3
          cases h
          have t3 := t2.keep g3 f3 q3
          exact ⟨⟨t3.cerr, t3.known, t3.told, t3.len⟩, fun x => by cases x⟩
        · cases h
          exact ⟨⟨t2.cerr, t2.known, t2.told, t2.len⟩, fun x => by cases x⟩
      · obtain ⟨w3, h3, h⟩ := Out.bind_eq_ok.1 h
        obtain ⟨r4, h4, h⟩ := Out.bind_eq_ok.1 h
        cases h
        obtain ⟨t3, s3⟩ := t2.said h3
        obtain ⟨g4, f4, q4, _⟩ := cfclose_grows h4
        exact ⟨t3.keep g4 f4 q4, fun _ => g4.spoke (s3 hm)⟩
    · obtain ⟨w3, h3, h⟩ := Out.bind_eq_ok.1 h
      obtain ⟨f, h4, h⟩ := Out.bind_eq_ok.1 h
      cases h
      obtain ⟨t3, s3⟩ := t1.said h3
      have g4 := grows_put (s' := (fclose f o.close).1) (file_get h4) (fun b x => by show b ∈ (fflush f o.close).1.given; rw [fflush_given]; exact x)
      exact ⟨t3.keep g4 rfl rfl, fun _ => g4.spoke (s3 hm)⟩

theorem Told.parseStep {w : W} {op : POp} {r : W × Bool} (t : Told b w) (hm : op.Audible b) (h : Files.parseStep w op = .ok r) : Told b r.1 ∧ (r.2 = false → Spoke b r.1) := by
  cases op with
  | fopen path o => exact t.exprOpen hm h
  | print =>
    obtain ⟨w1, h1, h⟩ := Out.bind_eq_ok.1 (show (initPrint w).bind _ = _ from h)
    cases h
    unfold initPrint at h1
    split at h1
    · cases h1
    · obtain ⟨s, h2, h1⟩ := Out.bind_eq_ok.1 h1
      cases h1
      exact ⟨⟨t.cerr, t.known, t.told, t.len⟩, fun x => by cases x⟩
  | note m =>
    obtain ⟨w1, h1, h⟩ := Out.bind_eq_ok.1 (show (message w m).bind _ = _ from h)
    cases h
    exact ⟨(t.said h1).1, fun x => by cases x⟩
  | invalid m =>
    obtain ⟨w1, h1, h⟩ := Out.bind_eq_ok.1 (show (message w m).bind _ = _ from h)
    cases h
    exact ⟨(t.said h1).1, fun _ => (t.said h1).2 hm⟩

theorem Told.parseAll : ∀ {pops : List POp} {w : W} {r : W × Bool}, Told b w → (∀ op ∈ pops, op.Audible b) → Files.parseAll w pops = .ok r → Told b r.1 ∧ (r.2 = false → Spoke b r.1)
  | [], w, r, t, _, h => by cases h; exact ⟨t, fun x => by cases x⟩
  | op :: rest, w, r, t, hm, h => by
    unfold Files.parseAll at h
    obtain ⟨r1, h1, h⟩ := Out.bind_eq_ok.1 h
    obtain ⟨t1, s1⟩ := t.parseStep (hm op List.mem_cons_self) h1
    split at h
    · exact t1.parseAll (fun x hx => hm x (List.mem_cons_of_mem _ hx)) h
    · cases h; exact ⟨t1, s1⟩

theorem dedup_std {w : W} {h : Nat} {path : Option String} {o : DedupIo} {r : W × Option Nat} (k : Files.dedup w h path o = .ok r) :
    r.1.cout = w.cout ∧ r.1.cerr = w.cerr ∧ ∀ id cf, (id, some cf) ∈ r.1.files → (∃ cf0, (id, some cf0) ∈ w.files ∧ cf.cfile = cf0.cfile) ∨ cf.cfile = h := by
  have key : ∀ (fs : List (FileId × Option CtxFile)) (id0 : FileId) (v cf : CtxFile) (id : FileId), (id, some cf) ∈ setLeaf fs id0 (some v) → (id, some cf) ∈ fs ∨ (id = id0 ∧ cf = v) := by
    intro fs id0 v cf id hm
    unfold setLeaf at hm
    obtain ⟨x, hx, hm⟩ := List.mem_map.1 hm
    split at hm
    · cases hm; exact .inr ⟨rfl, rfl⟩
    · subst hm; exact .inl hx
  have new : ∀ (w : W) (s : Strm), (dedupNew w h s path o).1.cout = w.cout ∧ (dedupNew w h s path o).1.cerr = w.cerr ∧
      ∀ id cf, (id, some cf) ∈ (dedupNew w h s path o).1.files → (id, some cf) ∈ w.files ∨ cf.cfile = h := by
    intro w s
    unfold dedupNew
    split
    · split
      · split
        · exact ⟨rfl, rfl, fun id cf hm => (key _ _ _ _ _ hm).imp_right fun x => by rw [x.2]⟩
        · exact ⟨rfl, rfl, fun id cf hm => .inl (List.mem_filter.1 hm).1⟩
      · exact ⟨rfl, rfl, fun id cf hm => (key _ _ _ _ _ hm).imp_right fun x => by rw [x.2]⟩
    · exact ⟨rfl, rfl, fun id cf hm => .inl (List.mem_filter.1 hm).1⟩
  unfold Files.dedup at k
  obtain ⟨s, h1, k⟩ := Out.bind_eq_ok.1 k
  split at k
  · split at k
    · next cf hl =>
      cases k
      refine ⟨rfl, rfl, fun id cf' hm => .inl ?_⟩
      rcases key _ _ _ _ _ hm with hm | ⟨rfl, rfl⟩
      · exact ⟨cf', hm, rfl⟩
      · exact ⟨cf, lookup_mem hl, rfl⟩
    · cases k
      obtain ⟨a, b, c⟩ := new w s
      exact ⟨a, b, fun id cf hm => (c id cf hm).imp_left fun x => ⟨cf, x, rfl⟩⟩
    · split at k
      · cases k
        obtain ⟨a, b, c⟩ := new { w with files := w.files ++ [(s.id, none)] } s
        refine ⟨a, b, fun id cf hm => (c id cf hm).imp_left fun x => ⟨cf, ?_, rfl⟩⟩
        rcases List.mem_append.1 x with x | x
        · exact x
        · simp at x
      · cases k; exact ⟨rfl, rfl, fun id cf hm => .inl ⟨cf, hm, rfl⟩⟩
  · cases k; exact ⟨rfl, rfl, fun id cf hm => .inl ⟨cf, hm, rfl⟩⟩

theorem setup_told {e : Env} (he : e.Audible b) {r : W × Bool} (h : setup e = .ok r) : Told b r.1 ∧ (r.2 = false → Spoke b r.1) := by
  have fl : ∀ {w : W} {r : W × Bool}, Told b w → ((message w e.msg).bind fun w => .ok (w, false)) = .ok r → Told b r.1 ∧ (r.2 = false → Spoke b r.1) := by
    intro w r t h
    obtain ⟨w1, h1, h⟩ := Out.bind_eq_ok.1 h
    cases h
    exact ⟨(t.said h1).1, fun _ => (t.said h1).2 he.msg⟩
  unfold setup at h
  obtain ⟨r1, h1, h⟩ := Out.bind_eq_ok.1 h
  have hr1 : r1.2 = true := by
    unfold cfwrap at h1
    obtain ⟨s, _, h1⟩ := Out.bind_eq_ok.1 h1
    rw [he.memory, if_pos rfl] at h1
    cases h1
    rfl
  obtain ⟨g1, f1, q1⟩ := cfwrap_grows h1
  rw [if_pos hr1] at h
  have t1 : Told b { r1.1 with cerr := some 0 } :=
    ⟨rfl, fun id cf hm => (by rw [show ({ r1.1 with cerr := some 0 } : W).files = [] from f1] at hm; cases hm), fun hn => absurd (show r1.1.ret = 0 from q1) hn,
      g1.len (by show 0 < 2; omega)⟩
  unfold setupOut at h
  obtain ⟨r2, h2, h⟩ := Out.bind_eq_ok.1 h
  obtain ⟨g2, f2, q2⟩ := cfwrap_grows h2
  have t2 := t1.keep g2 f2 q2
  have e2 : r2.1.files = [] := f2.trans f1
  split at h
  · have t3 : Told b { r2.1 with cout := some 1 } :=
      ⟨t2.cerr, fun id cf hm => (by rw [show ({ r2.1 with cout := some 1 } : W).files = [] from e2] at hm; cases hm), t2.told, t2.len⟩
    unfold setupDedup at h
    obtain ⟨r3, h3, h⟩ := Out.bind_eq_ok.1 h
    have t4 := t3.dedup (.inr (.inl e2)) (.inr (.inl rfl)) h3
    obtain ⟨c1, c2, c3⟩ := dedup_std h3
    split at h
    · obtain ⟨r4, h4, h⟩ := Out.bind_eq_ok.1 h
      have t5 := t4.dedup (.inr (.inr fun id cf hm => ?_)) (.inr (.inr t4.cerr)) h4
      · split at h
        · cases h; exact ⟨t5, fun x => by cases x⟩
        · exact fl t5 h
      · left
        rcases c3 id cf hm with ⟨cf0, k, _⟩ | k
        · rw [show ({ r2.1 with cout := some 1 } : W).files = [] from e2] at k; cases k
        · rw [c1, k]
    · exact fl t4 h
  · exact fl t2 h

theorem parseCmdline_told {e : Env} (he : e.Audible b) {pops : List POp} (hm : ∀ op ∈ pops, op.Audible b) {r : W × Bool} (h : parseCmdline e pops = .ok r) : Told b r.1 ∧ (r.2 = false → Spoke b r.1) := by
  unfold parseCmdline at h
  obtain ⟨r1, h1, h⟩ := Out.bind_eq_ok.1 h
  obtain ⟨t1, s1⟩ := setup_told he h1
  split at h
  · exact t1.parseAll hm h
  · cases h; exact ⟨t1, s1⟩

end Verif.Files
