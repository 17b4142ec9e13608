import Verif.Lemmas.Files

namespace Verif.Files

/-! ## Parsing the command line -/

/-- The invariant once the standard streams are set up. -/
structure Inv (e : Env) (w : W) : Prop where
  base : Base none w
  cout : w.cout = some 1
  cerr : w.cerr = some 0
  errId : ∃ s, w.strms[0]? = some s ∧ s.id = e.stderr
  outT : ∃ cf, (e.stdout, some cf) ∈ w.files ∧ cf.cfile = 1
  errT : (∃ cf, (e.stderr, some cf) ∈ w.files ∧ cf.cfile = 0) ∨ e.stderr = e.stdout
  acts : ∀ a ∈ w.acts, ∃ cf, (a.id, some cf) ∈ w.files ∧ cf.cfile = a.cfile ∧
    (a.cfile = 0 → cf.path.isSome = true)
  ignore : w.ignore = e.noerror
  count : w.nfiles = ((w.strms.drop 2).map (·.isOpen)).count true

/-- Nothing was written yet, but diagnostics. -/
structure Fresh (w : W) : Prop where
  given : ∀ (h : Nat) (s : Strm), w.strms[h]? = some s → h ≠ 0 → s.given = [] ∧ s.sink = []
  clean : ∀ (h : Nat) (s : Strm), w.strms[h]? = some s → h ≠ 0 → Tracked w h →
    s.pend = [] ∧ s.lost = false ∧ s.err = false
  good : ∀ s, w.strms[0]? = some s → Good s ∧ (s.lost = true → s.err = true)
  error : ∀ (id : FileId) (cf : CtxFile), (id, some cf) ∈ w.files → cf.error = 0
  ret : w.ret = EXIT_SUCCESS

theorem map_isOpen_keeps {w w' : W} (k : Keeps w w') :
    w'.strms.map (·.isOpen) = w.strms.map (·.isOpen) := by
  refine List.ext_getElem? fun i => ?_
  rw [List.getElem?_map, List.getElem?_map]
  by_cases h : i < w.strms.length
  · have e := List.getElem?_eq_getElem h
    obtain ⟨s', e', p⟩ := k.shape i _ e
    rw [e, e']
    exact congrArg some p.isOpen
  · rw [List.getElem?_eq_none (by rw [k.len]; omega), List.getElem?_eq_none (by omega)]

theorem Inv.keeps {e : Env} {w w' : W} (i : Inv e w) (k : Keeps w w') : Inv e w' where
  base := i.base.keeps k
  cout := k.cout.trans i.cout
  cerr := k.cerr.trans i.cerr
  errId := by
    obtain ⟨s, h1, h2⟩ := i.errId
    obtain ⟨s', h3, p⟩ := k.shape 0 s h1
    exact ⟨s', h3, p.id.trans h2⟩
  outT := by rw [k.files]; exact i.outT
  errT := by rw [k.files]; exact i.errT
  acts := by rw [k.files, k.acts]; exact i.acts
  ignore := k.ignore.trans i.ignore
  count := by
    rw [k.nfiles, List.map_drop, map_isOpen_keeps k, ← List.map_drop]
    exact i.count

theorem Fresh.said {w w' : W} (f : Fresh w) (k : Said w w') : Fresh w' := by
  have back : ∀ (h : Nat) (s : Strm), w'.strms[h]? = some s → h ≠ 0 → w.strms[h]? = some s := by
    intro h s e hh
    obtain ⟨t, et, _⟩ := k.keeps.back e
    obtain ⟨t', et', _, p⟩ := k.step h t et
    rw [e] at et'
    cases et'
    rw [p hh]
    exact et
  refine ⟨fun h s e hh => f.given h s (back h s e hh) hh,
    fun h s e hh ht => f.clean h s (back h s e hh) hh ((tracked_keeps k.keeps).mp ht),
    fun s e => ?_, by rw [k.keeps.files]; exact f.error, k.ret.trans f.ret⟩
  obtain ⟨t, et, _⟩ := k.keeps.back e
  obtain ⟨t', et', st, _⟩ := k.step 0 t et
  rw [e] at et'
  cases et'
  obtain ⟨g1, g2⟩ := f.good t et
  exact ⟨st.good g1, fun x => (st.lost x).elim (fun y => st.err (g2 y)) (fun y => y)⟩

/-- The table of streams with one more. -/
theorem push_put (w : W) (s s' : Strm) :
    ({ w with strms := w.strms ++ [s] } : W).put w.strms.length s' =
      { w with strms := w.strms ++ [s'] } := by
  simp [W.put]

theorem push_get_last (l : List Strm) (s : Strm) : (l ++ [s])[l.length]? = some s := by simp

/-- A stream that was opened and closed again. -/
theorem closed_again {e : Env} {w : W} (i : Inv e w) (s s' : Strm) (l : s'.live = false)
    (o : s'.isOpen = false) : Inv e ({ w with strms := w.strms ++ [s'] } : W) := by
  have b : Base none ({ w with strms := w.strms ++ [s'] } : W) := by
    have b1 := i.base.push s
    have := b1.drop (s := s) (s' := s') (h := w.strms.length) i.base.len (push_get_last _ _)
      (not_tracked_new i.base (Nat.le_refl _)) l o
    rw [push_put] at this
    exact this
  refine ⟨b, i.cout, i.cerr, ?_, i.outT, i.errT, i.acts, i.ignore, ?_⟩
  · obtain ⟨t, et, h⟩ := i.errId
    exact ⟨t, by dsimp only; rw [List.getElem?_append_left (get_lt et)]; exact et, h⟩
  · dsimp only
    rw [i.count, List.drop_append_of_le_length i.base.len, List.map_append, List.count_append]
    simp [o]

theorem fresh_closed_again {w : W} (f : Fresh w) (hlen : 2 ≤ w.strms.length) (b : Base none w)
    (s' : Strm) (g : s'.given = []) (k : s'.sink = []) :
    Fresh ({ w with strms := w.strms ++ [s'] } : W) := by
  have get : ∀ (h : Nat) (s : Strm), (w.strms ++ [s'])[h]? = some s →
      w.strms[h]? = some s ∨ (h = w.strms.length ∧ s = s') := by
    intro h s e
    rw [List.getElem?_append] at e
    by_cases hlt : h < w.strms.length
    · rw [if_pos hlt] at e; exact Or.inl e
    · rw [if_neg hlt] at e
      obtain ⟨h1, h2⟩ := List.getElem?_eq_some_iff.mp e
      simp only [List.length_singleton] at h1
      exact Or.inr ⟨by omega, by simpa using h2.symm⟩
  refine ⟨fun h s e hh => ?_, fun h s e hh ht => ?_, fun s e => ?_, f.error, f.ret⟩
  · rcases get h s e with e | ⟨_, e⟩
    · exact f.given h s e hh
    · rw [e]; exact ⟨g, k⟩
  · rcases get h s e with e | ⟨e, _⟩
    · exact f.clean h s e hh ht
    · exact absurd ht (not_tracked_new b (by omega))
  · rcases get 0 s e with e | ⟨e, _⟩
    · exact f.good s e
    · omega

theorem fclose_live (s : Strm) (io : Io) : (fclose s io).1.live = s.live :=
  (fflush_step s io).shape.live

theorem fclose_isOpen (s : Strm) (io : Io) : (fclose s io).1.isOpen = false := rfl

theorem fclose_empty {s : Strm} (h : s.given = []) (k : s.sink = []) (p : s.pend = []) (io : Io) :
    (fclose s io).1.given = [] ∧ (fclose s io).1.sink = [] := by
  unfold fclose
  cases io <;> simp [fflush, h, k, p]

/-- The stream that `expr_open()` creates. -/
def newStrm (id : FileId) (tty : Bool) : Strm :=
  { id := id, colors := tty, close := true, live := true }

/-- Pushing a stream and saying something. -/
theorem said_push {w v : W} {s : Strm} (hlen : 2 ≤ w.strms.length)
    (k : Said { w with strms := w.strms ++ [s] } v) :
    ∃ w', Said w w' ∧ v = { w' with strms := w'.strms ++ [s] } := by
  obtain ⟨t, et, _, hs⟩ := k.step w.strms.length s (push_get_last _ _)
  have hne : w.strms.length ≠ 0 := by omega
  have ht : t = s := hs hne
  have hvl : v.strms.length = w.strms.length + 1 := by
    have := k.keeps.len
    simpa using this
  have hv : v.strms = v.strms.take w.strms.length ++ [s] := by
    have hlt : w.strms.length < v.strms.length := by omega
    have := List.take_append_getElem hlt
    have hg : v.strms[w.strms.length] = s := by
      have := List.getElem?_eq_some_iff.mp et
      obtain ⟨_, h⟩ := this
      rw [h, ht]
    rw [hg] at this
    have h2 : v.strms.take (w.strms.length + 1) = v.strms := List.take_of_length_le (by omega)
    rw [h2] at this
    exact this.symm
  have hget : ∀ (h : Nat) (x : Strm), w.strms[h]? = some x →
      ∃ x', (v.strms.take w.strms.length)[h]? = some x' ∧ Step x x' ∧ (h ≠ 0 → x' = x) := by
    intro h x ex
    have hlt := get_lt ex
    obtain ⟨x', e', p, q⟩ := k.step h x (by
      show (w.strms ++ [s])[h]? = some x
      rw [List.getElem?_append_left hlt]; exact ex)
    refine ⟨x', ?_, p, q⟩
    rw [List.getElem?_take, if_pos hlt]
    exact e'
  refine ⟨{ v with strms := v.strms.take w.strms.length }, ⟨⟨k.keeps.files, k.keeps.cout,
    k.keeps.cerr, k.keeps.nfiles, k.keeps.ignore, k.keeps.hooks, k.keeps.acts, ?_,
    fun h x ex => ?_⟩, k.ret, fun h x ex => hget h x ex⟩, ?_⟩
  · simp; omega
  · obtain ⟨x', e', p, _⟩ := hget h x ex
    exact ⟨x', e', p.shape⟩
  · obtain ⟨a, b, c, d, e, f, g, h, i⟩ := v
    dsimp only at hv ⊢
    rw [← hv]

/-- `expr_open()` keeps the invariants. -/
theorem exprOpen_ok {e : Env} {w : W} (i : Inv e w) (f : Fresh w) (path : String) (o : OpenIo) :
    ∃ w' b, exprOpen w path o = .ok (w', b) ∧ Inv e w' ∧ Fresh w' ∧
      (b = true → w'.strms[0]? = w.strms[0]? ∧
        ∃ id d, o.file = some id ∧ w'.acts = w.acts ++ [⟨d, some path, id⟩]) ∧
      (b = false → w'.acts = w.acts) := by
  unfold exprOpen
  cases hf : o.file with
  | none =>
    dsimp only
    obtain ⟨w1, h1, s1⟩ := message_ok i.base o.msg
    rw [h1, ok_bind]
    exact ⟨w1, false, rfl, i.keeps s1.keeps, f.said s1, fun x => absurd x (by simp),
      fun _ => s1.keeps.acts⟩
  | some id =>
    dsimp only
    have hlen := i.base.len
    unfold cfwrap
    rw [file_ok (s := { id := id }) (push_get_last _ _) rfl, ok_bind]
    by_cases hm : o.mem = true
    case neg =>
      rw [if_neg hm, ok_bind]
      unfold openWrapped
      rw [if_neg (by simp)]
      obtain ⟨w1, h1, s1⟩ := message_ok (i.base.push { id := id }) o.msg
      rw [h1, ok_bind]
      obtain ⟨w2, s2, hw2⟩ := said_push hlen s1
      subst hw2
      have hl2 : w2.strms.length = w.strms.length := s2.keeps.len
      rw [← hl2, file_ok (s := { id := id }) (push_get_last _ _) rfl, ok_bind, push_put]
      refine ⟨_, false, rfl, closed_again (i.keeps s2.keeps) { id := id } _ ?_ rfl,
        fresh_closed_again (f.said s2) (by rw [hl2]; exact hlen) (i.base.keeps s2.keeps) _ ?_ ?_,
        fun x => absurd x (by simp), fun _ => s2.keeps.acts⟩
      · rw [fclose_live]
      · exact (fclose_empty rfl rfl rfl _).1
      · exact (fclose_empty rfl rfl rfl _).2
    rw [if_pos hm, ok_bind, push_put]
    unfold openWrapped
    rw [if_pos rfl]
    show ∃ w' b, (dedup { w with strms := w.strms ++ [newStrm id o.tty] } w.strms.length
      (some path) o.dedup >>= fun r => openDone r.1 w.strms.length path id o r.2) = _ ∧ _
    have b1 : Base (some w.strms.length) ({ w with strms := w.strms ++ [newStrm id o.tty] } : W) :=
      i.base.push _
    have nt : ¬ Tracked w w.strms.length := not_tracked_new i.base (Nat.le_refl _)
    rcases dedup_cases b1 (s := newStrm id o.tty) (push_get_last _ _) rfl (some path) o.dedup with
      hd | ⟨hn, hd⟩ | ⟨cf, hmem, hd⟩
    · -- failure
      rw [hd, ok_bind]
      unfold openDone
      dsimp only
      obtain ⟨w1, h1, s1⟩ := message_ok b1 o.msg
      rw [h1, ok_bind]
      obtain ⟨w2, s2, hw2⟩ := said_push hlen s1
      subst hw2
      have hl2 : w2.strms.length = w.strms.length := s2.keeps.len
      have nh : w2.strms.length ∉ w2.hooks := by
        rw [hl2, s2.keeps.hooks]
        exact fun x => nt (i.base.hooked _ x)
      rw [← hl2, cfclose_owned (s := newStrm id o.tty)
        (w := { w2 with strms := w2.strms ++ [newStrm id o.tty] }) (push_get_last _ _) rfl rfl rfl
        nh, ok_bind, push_put]
      refine ⟨_, false, rfl, closed_again (i.keeps s2.keeps) { id := id } _ rfl rfl,
        fresh_closed_again (f.said s2) (by rw [hl2]; exact hlen) (i.base.keeps s2.keeps) _ ?_ ?_,
        fun x => absurd x (by simp), fun _ => s2.keeps.acts⟩
      · exact (fclose_empty (s := newStrm id o.tty) rfl rfl rfl _).1
      · exact (fclose_empty (s := newStrm id o.tty) rfl rfl rfl _).2
    · -- a new file
      rw [hd, ok_bind]
      unfold openDone
      dsimp only
      rw [if_neg (by simp)]
      have b2 := b1.add (push_get_last _ _) rfl rfl (fun _ => rfl) (Or.inr rfl) nt hn (some path)
      refine ⟨_, true, rfl, ?_, ?_, fun _ => ⟨?_, id, w.strms.length, rfl, rfl⟩,
        fun x => absurd x (by simp)⟩
      · refine ⟨⟨b2.len, b2.cout, b2.cerr, b2.keys, b2.tracked, b2.std, b2.other, b2.nodup,
          b2.hooked⟩, i.cout, i.cerr, ?_, ?_, ?_, ?_, i.ignore, ?_⟩
        · obtain ⟨t, et, h⟩ := i.errId
          refine ⟨t, ?_, h⟩
          show (w.strms ++ [newStrm id o.tty])[0]? = some t
          rw [List.getElem?_append_left (get_lt et)]
          exact et
        · obtain ⟨cf, h1, h2⟩ := i.outT
          exact ⟨cf, List.mem_append_left _ h1, h2⟩
        · rcases i.errT with ⟨cf, h1, h2⟩ | h
          · exact Or.inl ⟨cf, List.mem_append_left _ h1, h2⟩
          · exact Or.inr h
        · intro a ha
          rcases List.mem_append.mp ha with ha | ha
          · obtain ⟨cf, h1, h2⟩ := i.acts a ha
            exact ⟨cf, List.mem_append_left _ h1, h2⟩
          · rw [List.mem_singleton] at ha
            subst ha
            exact ⟨_, List.mem_append_right _ (List.mem_singleton.mpr rfl), rfl, fun _ => rfl⟩
        · show countFile _ _ = (((w.strms ++ [newStrm id o.tty]).drop 2).map (·.isOpen)).count true
          unfold countFile
          have c1 : w.cout ≠ some w.strms.length ∧ w.cerr ≠ some w.strms.length := by
            rw [i.cout, i.cerr]
            exact ⟨fun x => by have := Option.some.inj x; omega,
              fun x => by have := Option.some.inj x; omega⟩
          rw [if_pos c1, List.drop_append_of_le_length hlen, List.map_append, List.count_append]
          show w.nfiles + 1 = _
          rw [i.count]
          rfl
      · have f2 := fresh_closed_again f hlen i.base (newStrm id o.tty) rfl rfl
        refine ⟨f2.given, fun h s es hh ht => ?_, f2.good, fun x cf hx => ?_, f.ret⟩
        · rcases tracked_add.mp (⟨ht.choose, ht.choose_spec⟩ : Tracked (addFile _ _ _ _) h)
            with hk | hk
          · exact f2.clean h s es hh hk
          · subst hk
            have : s = newStrm id o.tty :=
              Option.some.inj (es.symm.trans (push_get_last w.strms (newStrm id o.tty)))
            subst this
            exact ⟨rfl, rfl, rfl⟩
        · rcases List.mem_append.mp hx with hx | hx
          · exact f.error x cf hx
          · rw [List.mem_singleton] at hx
            cases hx
            rfl
      · show (w.strms ++ [newStrm id o.tty])[0]? = _
        rw [List.getElem?_append_left (by omega)]
    · -- an old file
      rw [hd, ok_bind]
      have hmem : ((newStrm id o.tty).id, some cf) ∈ w.files := hmem
      have hne : cf.cfile ≠ w.strms.length := fun x => nt ⟨_, cf, hmem, x⟩
      unfold openDone
      dsimp only
      rw [if_pos hne]
      have nh : w.strms.length ∉ w.hooks := fun x => nt (i.base.hooked _ x)
      rw [cfclose_owned (s := newStrm id o.tty) (w := setPath { w with
        strms := w.strms ++ [newStrm id o.tty] } (newStrm id o.tty).id cf (some path)) (push_get_last _ _) rfl rfl
        rfl nh, ok_bind]
      refine ⟨_, true, rfl, ?_, ?_, fun _ => ⟨?_, id, cf.cfile, rfl, rfl⟩,
        fun x => absurd x (by simp)⟩
      · have i2 := closed_again i (newStrm id o.tty)
          { (fclose (newStrm id o.tty) o.close).1 with live := false } rfl rfl
        have b2 := i2.base.setPath (cf := cf) hmem (some path)
        have hstr : (w.strms ++ [newStrm id o.tty]).set w.strms.length
            { (fclose (newStrm id o.tty) o.close).1 with live := false } = w.strms ++
            [{ (fclose (newStrm id o.tty) o.close).1 with live := false }] := by simp
        refine ⟨?_, i.cout, i.cerr, ?_, ?_, ?_, ?_, i.ignore, ?_⟩
        · have b3 : Base none ({ setPath ({ w with strms := w.strms ++
              [{ (fclose (newStrm id o.tty) o.close).1 with live := false }] } : W) id cf
              (some path) with acts := w.acts ++ [⟨cf.cfile, some path, id⟩] } : W) :=
            ⟨b2.len, b2.cout, b2.cerr, b2.keys, b2.tracked, b2.std, b2.other, b2.nodup, b2.hooked⟩
          rw [← hstr] at b3
          exact b3
        · obtain ⟨t, et, h⟩ := i2.errId
          refine ⟨t, ?_, h⟩
          show ((w.strms ++ [newStrm id o.tty]).set w.strms.length _)[0]? = some t
          rw [hstr]
          exact et
        · obtain ⟨c, h1, h2⟩ := i.outT
          by_cases hid : e.stdout = id
          · have : cf = c := Option.some.inj (mem_unique i.base.keys hmem (by
              show (id, some c) ∈ _; rw [← hid]; exact h1))
            subst this
            refine ⟨{ cf with path := some path }, mem_setLeaf.mpr (Or.inr ⟨?_, _, hmem⟩), h2⟩
            rw [hid]; rfl
          · exact ⟨c, mem_setLeaf.mpr (Or.inl ⟨hid, h1⟩), h2⟩
        · rcases i.errT with ⟨c, h1, h2⟩ | h
          · by_cases hid : e.stderr = id
            · have : cf = c := Option.some.inj (mem_unique i.base.keys hmem (by
                show (id, some c) ∈ _; rw [← hid]; exact h1))
              subst this
              refine Or.inl ⟨{ cf with path := some path }, mem_setLeaf.mpr (Or.inr ⟨?_, _, hmem⟩), h2⟩
              rw [hid]; rfl
            · exact Or.inl ⟨c, mem_setLeaf.mpr (Or.inl ⟨hid, h1⟩), h2⟩
          · exact Or.inr h
        · intro a ha
          rcases List.mem_append.mp ha with ha | ha
          · obtain ⟨c, h1, h2, h3⟩ := i.acts a ha
            by_cases hid : a.id = id
            · have : cf = c := Option.some.inj (mem_unique i.base.keys hmem (by
                show (id, some c) ∈ _; rw [← hid]; exact h1))
              subst this
              refine ⟨{ cf with path := some path }, mem_setLeaf.mpr (Or.inr ⟨?_, _, hmem⟩), h2, fun _ => rfl⟩
              rw [hid]; rfl
            · exact ⟨c, mem_setLeaf.mpr (Or.inl ⟨hid, h1⟩), h2, h3⟩
          · rw [List.mem_singleton] at ha
            subst ha
            exact ⟨_, mem_setLeaf.mpr (Or.inr ⟨rfl, _, hmem⟩), rfl, fun _ => rfl⟩
        · show w.nfiles = ((((w.strms ++ [newStrm id o.tty]).set w.strms.length _).drop 2).map
            (·.isOpen)).count true
          rw [hstr]
          exact i2.count
      · have f2 := fresh_closed_again f hlen i.base
          { (fclose (newStrm id o.tty) o.close).1 with live := false }
          (fclose_empty (s := newStrm id o.tty) rfl rfl rfl _).1
          (fclose_empty (s := newStrm id o.tty) rfl rfl rfl _).2
        have hstr : (w.strms ++ [newStrm id o.tty]).set w.strms.length
            { (fclose (newStrm id o.tty) o.close).1 with live := false } = w.strms ++
            [{ (fclose (newStrm id o.tty) o.close).1 with live := false }] := by simp
        refine ⟨fun h s es hh => ?_, fun h s es hh ht => ?_, fun s es => ?_, fun x c hx => ?_, f.ret⟩
        · refine f2.given h s ?_ hh
          rw [← hstr]; exact es
        · refine f2.clean h s ?_ hh ?_
          · rw [← hstr]; exact es
          · exact (tracked_setPath (w := w) (path := some path) i.base.keys hmem).mp
              ⟨ht.choose, ht.choose_spec⟩
        · refine f2.good s ?_
          rw [← hstr]; exact es
        · rcases mem_setLeaf.mp hx with ⟨_, y⟩ | ⟨y, _⟩
          · exact f.error x c y
          · cases y
            exact f.error _ cf hmem
      · show ((w.strms ++ [newStrm id o.tty]).set w.strms.length _)[0]? = _
        rw [List.getElem?_set, if_neg (by omega), List.getElem?_append_left (by omega)]

end Verif.Files
