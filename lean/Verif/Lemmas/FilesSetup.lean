import Verif.Lemmas.FilesOpen

namespace Verif.Files

theorem base_init {w : W} {s0 s1 : Strm} (hs : w.strms = [s0, s1]) (hf : w.files = [])
    (hh : w.hooks = []) (o0 : s0.isOpen = true) (o1 : s1.isOpen = true)
    (hc : w.cout = none ∨ w.cout = some 1) (he : w.cerr = none ∨ w.cerr = some 0)
    (l0 : s0.live = true ↔ w.cerr = some 0) (l1 : s1.live = true ↔ w.cout = some 1)
    (c0 : s0.live = true → s0.close = false) (c1 : s1.live = true → s1.close = false) :
    Base none w := by
  refine ⟨by rw [hs]; simp, hc, he, by rw [hf]; simp, by rw [hf]; simp, fun h s e hlt => ?_,
    fun h s e hge _ => ?_, by rw [hh]; simp, by rw [hh]; simp⟩
  · rw [hs] at e
    rcases h with _ | _ | h
    · have : s0 = s := Option.some.inj e
      subst this
      refine ⟨o0, ?_, c0⟩
      rw [l0]
      refine ⟨Or.inr, fun x => x.elim (fun y => ?_) id⟩
      rcases hc with hc | hc <;> rw [hc] at y <;> cases y
    · have : s1 = s := Option.some.inj e
      subst this
      refine ⟨o1, ?_, c1⟩
      rw [l1]
      refine ⟨Or.inl, fun x => x.elim id (fun y => ?_)⟩
      rcases he with he | he <;> rw [he] at y <;> cases y
    · omega
  · rw [hs] at e
    have := (List.getElem?_eq_some_iff.mp e).1
    simp at this
    omega

/-- Stderr, wrapped. -/
def errStrm (e : Env) : Strm :=
  { id := e.stderr, colors := e.errTty, close := false, live := true }

/-- Stdout, wrapped. -/
def outStrm (e : Env) : Strm :=
  { id := e.stdout, colors := e.outTty, close := false, live := true }

/-- The state after stderr was wrapped. -/
def half (e : Env) : W :=
  { strms := [errStrm e, { id := e.stdout }], cerr := some 0, ignore := e.noerror }

/-- The streams after both standard streams were wrapped. -/
def ready (e : Env) : W :=
  { strms := [errStrm e, outStrm e]
    cout := some 1
    cerr := some 0
    ignore := e.noerror }

theorem ready_base (e : Env) : Base none (ready e) :=
  base_init rfl rfl rfl rfl rfl (Or.inr rfl) (Or.inr rfl) ⟨fun _ => rfl, fun _ => rfl⟩
    ⟨fun _ => rfl, fun _ => rfl⟩ (fun _ => rfl) (fun _ => rfl)

theorem ready_untracked (e : Env) (h : Nat) : ¬ Tracked (ready e) h := by
  rintro ⟨_, _, hm, _⟩
  cases hm

/-- No diagnostic got lost. -/
def Calm (w : W) : Prop := ∀ s, w.strms[0]? = some s → s.err = false ∧ s.lost = false

theorem writeAll_fine (m : Msg) (hf : m.Fine) : ∀ s : Strm,
    (writeAll s m).err = s.err ∧ (writeAll s m).lost = s.lost := by
  induction m with
  | nil => exact fun s => ⟨rfl, rfl⟩
  | cons c rest ih =>
    intro s
    obtain ⟨d, io⟩ := c
    have h1 : io.Fine := hf _ List.mem_cons_self
    obtain ⟨p, q⟩ := ih (fun c hc => hf c (List.mem_cons_of_mem _ hc)) (fwrite s d io).1
    cases io with
    | done k => exact ⟨p, q⟩
    | fail => exact h1.elim

theorem message_fine {x : Option Nat} {w w' : W} (b : Base x w) (m : Msg) (hf : m.Fine)
    (h : message w m = .ok w') (s s' : Strm) (e : w.strms[0]? = some s)
    (e' : w'.strms[0]? = some s') : s'.err = s.err ∧ s'.lost = s.lost := by
  unfold message at h
  rcases b.cerr with hc | hc
  · rw [hc] at h
    cases h
    rw [e] at e'
    cases e'
    exact ⟨rfl, rfl⟩
  · rw [hc] at h
    dsimp only at h
    have hlt := get_lt e
    obtain ⟨h1, h2, h3⟩ := b.std 0 _ e (by omega)
    rw [cffile_ok e (h2.mpr (Or.inr hc)) h1, ok_bind] at h
    cases h
    rw [put_get w 0 0 _ hlt, if_pos rfl] at e'
    cases e'
    exact writeAll_fine m hf s

theorem message_calm {w w' : W} (b : Base none w) (k : Said w w') {m : Msg} (hf : m.Fine)
    (h : message w m = .ok w') (c : Calm w) : Calm w' := by
  intro s' e'
  obtain ⟨s, e, _⟩ := k.keeps.back e'
  obtain ⟨p, q⟩ := message_fine b m hf h s s' e e'
  rw [p, q]
  exact c s e

theorem setupDedup_ok (e : Env) : ∃ w b, setupDedup (ready e) e = .ok (w, b) ∧ Base none w ∧
    (b = true → Inv e w ∧ Fresh w ∧ w.acts = [] ∧ Calm w) := by
  have b0 := ready_base e
  have e0 : (ready e).strms[0]? =
      some (errStrm e) := rfl
  have e1 : (ready e).strms[1]? =
      some (outStrm e) := rfl
  unfold setupDedup
  rcases dedup_cases b0 e1 rfl none e.outDedup with hd | ⟨hn, hd⟩ | ⟨cf, hm, _⟩
  · rw [hd, ok_bind, if_neg (by simp)]
    obtain ⟨w1, h1, s1⟩ := message_ok b0 e.msg
    rw [h1, ok_bind]
    exact ⟨w1, false, rfl, b0.keeps s1.keeps, fun x => absurd x (by simp)⟩
  · rw [hd, ok_bind, if_pos (by simp)]
    have b1 := b0.add e1 rfl rfl (fun h => by omega) (Or.inl rfl) (ready_untracked e 1) hn none
    have e0' : (addFile (ready e) 1 (outStrm e) none).strms[0]? =
      some (errStrm e) := rfl
    have nt : ¬ Tracked (addFile (ready e) 1 (outStrm e) none) 0 := by
      rw [tracked_add]
      exact fun x => x.elim (ready_untracked e 0) (by omega)
    rcases dedup_cases b1 e0' rfl none e.errDedup with hd2 | ⟨hn2, hd2⟩ | ⟨cf, hm, hd2⟩
    · rw [hd2, ok_bind, if_neg (by simp)]
      obtain ⟨w1, h1, s1⟩ := message_ok b1 e.msg
      rw [h1, ok_bind]
      exact ⟨w1, false, rfl, b1.keeps s1.keeps, fun x => absurd x (by simp)⟩
    · rw [hd2, ok_bind, if_pos (by simp)]
      have b2 := b1.add e0' rfl rfl (fun h => by omega) (Or.inl rfl) nt hn2 none
      refine ⟨_, true, rfl, b2, fun _ => ⟨⟨b2, rfl, rfl, ⟨_, e0, rfl⟩,
        ⟨⟨1, none, e.outTty, 0⟩, ?_, rfl⟩, Or.inl ⟨⟨0, none, e.errTty, 0⟩, ?_, rfl⟩, by simp [addFile, ready], rfl, rfl⟩, ⟨?_, ?_, ?_, ?_, rfl⟩, rfl,
        fun s es => by cases es; exact ⟨rfl, rfl⟩⟩⟩
      · exact List.mem_append_left _ (List.mem_append_right _ (List.mem_singleton.mpr rfl))
      · exact List.mem_append_right _ (List.mem_singleton.mpr rfl)
      · intro h s es hh
        rcases h with _ | _ | h
        · exact absurd rfl hh
        · cases es; exact ⟨rfl, rfl⟩
        · exact absurd (get_lt es) (by simp [addFile, ready, outStrm])
      · intro h s es hh _
        rcases h with _ | _ | h
        · exact absurd rfl hh
        · cases es; exact ⟨rfl, rfl, rfl⟩
        · exact absurd (get_lt es) (by simp [addFile, ready, outStrm])
      · intro s es
        cases es
        exact ⟨fun _ => rfl, fun x => absurd x (by simp [errStrm])⟩
      · intro id cf hm
        rcases List.mem_append.mp hm with hm | hm
        · rcases List.mem_append.mp hm with hm | hm
          · cases hm
          · rw [List.mem_singleton] at hm; cases hm; rfl
        · rw [List.mem_singleton] at hm; cases hm; rfl
    · have hm' : (e.stderr, some cf) ∈ [(e.stdout, some (⟨1, none, e.outTty, 0⟩ : CtxFile))] := hm
      rw [List.mem_singleton] at hm'
      have hid : e.stderr = e.stdout := congrArg Prod.fst hm'
      have hcf : cf = ⟨1, none, e.outTty, 0⟩ := Option.some.inj (congrArg Prod.snd hm')
      subst hcf
      rw [hd2, ok_bind, if_pos (by simp)]
      have b2 := b1.setPath hm none
      have hfiles : (setPath (addFile (ready e) 1 (outStrm e) none) (errStrm e).id ⟨1, none, e.outTty, 0⟩ none).files =
          [(e.stdout, some (⟨1, none, e.outTty, 0⟩ : CtxFile))] := by
        simp [setPath, setLeaf, addFile, ready, errStrm, outStrm, hid]
      refine ⟨_, true, rfl, b2, fun _ => ⟨⟨b2, rfl, rfl, ⟨_, e0, rfl⟩, ⟨⟨1, none, e.outTty, 0⟩, ?_, rfl⟩,
        Or.inr hid, by simp [addFile, setPath, ready], rfl, rfl⟩, ⟨?_, ?_, ?_, ?_, rfl⟩, rfl,
        fun s es => by cases es; exact ⟨rfl, rfl⟩⟩⟩
      · show _ ∈ (setPath _ _ _ _).files
        rw [hfiles]; simp
      · intro h s es hh
        rcases h with _ | _ | h
        · exact absurd rfl hh
        · cases es; exact ⟨rfl, rfl⟩
        · exact absurd (get_lt es) (by simp [addFile, ready, setPath])
      · intro h s es hh _
        rcases h with _ | _ | h
        · exact absurd rfl hh
        · cases es; exact ⟨rfl, rfl, rfl⟩
        · exact absurd (get_lt es) (by simp [addFile, ready, setPath])
      · intro s es
        cases es
        exact ⟨fun _ => rfl, fun x => absurd x (by simp [errStrm])⟩
      · intro id cf hm
        have hm : (id, some cf) ∈ (setPath _ _ _ _).files := hm
        rw [hfiles, List.mem_singleton] at hm
        cases hm
        rfl
  · cases hm

theorem setup_ok (e : Env) : ∃ w b, setup e = .ok (w, b) ∧ Base none w ∧
    (b = true → Inv e w ∧ Fresh w ∧ w.acts = [] ∧ Calm w) := by
  unfold setup cfwrap
  have f0 : (start e).file 0 = .ok { id := e.stderr } := rfl
  rw [f0, ok_bind]
  by_cases hm : e.errMem = true
  case neg =>
    rw [if_neg hm, ok_bind, if_neg (by simp)]
    exact ⟨_, false, rfl, base_init rfl rfl rfl rfl rfl (Or.inl rfl) (Or.inl rfl)
      (by simp [start]) (by simp [start]) (by simp) (by simp), fun x => absurd x (by simp)⟩
  rw [if_pos hm, ok_bind, if_pos rfl]
  unfold setupOut cfwrap
  have f1 : (half e).file 1 = .ok { id := e.stdout } := rfl
  show ∃ w b, (((half e).file 1 >>= _) >>= _) = _ ∧ _
  rw [f1, ok_bind]
  by_cases hm : e.outMem = true
  case neg =>
    rw [if_neg hm, ok_bind, if_neg (by simp)]
    have b1 : Base none (half e) :=
      base_init rfl rfl rfl rfl rfl (Or.inl rfl) (Or.inr rfl) ⟨fun _ => rfl, fun _ => rfl⟩
        (by simp [half]) (fun _ => rfl) (by simp)
    obtain ⟨w1, h1, s1⟩ := message_ok b1 e.msg
    show ∃ w b, (message (half e) e.msg >>= _) = _ ∧ _
    rw [h1, ok_bind]
    exact ⟨w1, false, rfl, b1.keeps s1.keeps, fun x => absurd x (by simp)⟩
  rw [if_pos hm, ok_bind, if_pos rfl]
  exact setupDedup_ok e

theorem initPrint_eq {w : W} {c : Nat} {s : Strm} (h : w.cout = some c)
    (e : w.cfile c = .ok s) : initPrint w = .ok { w with
      acts := w.acts ++ [⟨c, none, s.id⟩] } := by
  unfold initPrint
  split
  · next x => rw [h] at x; cases x
  · next d x =>
    rw [h] at x
    cases x
    rw [e, ok_bind]

theorem parseAll_ok (e : Env) (pops : List POp) : ∀ {w : W}, Inv e w → Fresh w →
    ∃ w' b, parseAll w pops = .ok (w', b) ∧ Inv e w' ∧ Fresh w' ∧
      (b = true → w'.acts.map (fun a => (a.path, a.id)) =
        w.acts.map (fun a => (a.path, a.id)) ++ wanted e pops) ∧
      (b = true → (∀ op ∈ pops, op.Fine) → Calm w → Calm w') := by
  induction pops with
  | nil => exact fun i f => ⟨_, true, rfl, i, f, fun _ => by simp [wanted], fun _ _ c => c⟩
  | cons op rest ih =>
    intro w i f
    show ∃ w' b, (parseStep w op >>= fun r => if r.2 = true then parseAll r.1 rest else .ok r) = _ ∧ _
    cases op with
    | fopen path o =>
      show ∃ w' b, (exprOpen w path o >>= _) = _ ∧ _
      obtain ⟨w1, b1, h1, i1, f1, ht, hf⟩ := exprOpen_ok i f path o
      rw [h1, ok_bind]
      cases b1 with
      | false =>
        rw [if_neg (by simp)]
        exact ⟨w1, false, rfl, i1, f1, fun x => absurd x (by simp), fun x => absurd x (by simp)⟩
      | true =>
        rw [if_pos rfl]
        obtain ⟨h0, id, d, hid, ha⟩ := ht rfl
        obtain ⟨w2, b2, h2, i2, f2, hw, hcm⟩ := ih i1 f1
        refine ⟨w2, b2, h2, i2, f2, fun x => ?_, fun x hf c => hcm x
          (fun op ho => hf op (List.mem_cons_of_mem _ ho)) (by unfold Calm; rw [h0]; exact c)⟩
        rw [hw x, ha]
        simp [wanted, hid]
    | print =>
      show ∃ w' b, ((initPrint w >>= _) >>= _) = _ ∧ _
      obtain ⟨cf, hm, hc⟩ := i.outT
      obtain ⟨cf', s, p1, p2, p3, p4, p5, p6⟩ := i.base.tracked _ hm
      cases p1
      rw [hc] at p2
      rw [initPrint_eq i.cout (cfile_ok p2 p4), ok_bind, ok_bind, if_pos rfl]
      have hid : s.id = e.stdout := p3
      have i1 : Inv e { w with acts := w.acts ++ [⟨1, none, s.id⟩] } := by
        refine ⟨⟨i.base.len, i.base.cout, i.base.cerr, i.base.keys, i.base.tracked, i.base.std,
          i.base.other, i.base.nodup, i.base.hooked⟩, i.cout, i.cerr, i.errId, i.outT, i.errT,
          fun a ha => ?_, i.ignore, i.count⟩
        rcases List.mem_append.mp ha with ha | ha
        · exact i.acts a ha
        · rw [List.mem_singleton] at ha
          subst ha
          refine ⟨cf, ?_, hc, fun x => absurd x (by simp)⟩
          show (s.id, some cf) ∈ _
          rw [hid]
          exact hm
      have f1 : Fresh { w with acts := w.acts ++ [⟨1, none, s.id⟩] } :=
        ⟨f.given, f.clean, f.good, f.error, f.ret⟩
      obtain ⟨w2, b2, h2, i2, f2, hw, hcm⟩ := ih i1 f1
      refine ⟨w2, b2, h2, i2, f2, fun x => ?_, fun x hf c => hcm x
        (fun op ho => hf op (List.mem_cons_of_mem _ ho)) c⟩
      rw [hw x]
      simp [wanted, hid]
    | note m =>
      show ∃ w' b, ((message w m >>= _) >>= _) = _ ∧ _
      obtain ⟨w1, h1, s1⟩ := message_ok i.base m
      rw [h1, ok_bind, ok_bind, if_pos rfl]
      obtain ⟨w2, b2, h2, i2, f2, hw, hcm⟩ := ih (i.keeps s1.keeps) (f.said s1)
      refine ⟨w2, b2, h2, i2, f2, fun x => ?_, fun x hf c => hcm x
        (fun op ho => hf op (List.mem_cons_of_mem _ ho))
        (message_calm i.base s1 (hf _ List.mem_cons_self) h1 c)⟩
      rw [hw x, s1.keeps.acts]
      rfl
    | invalid m =>
      show ∃ w' b, ((message w m >>= _) >>= _) = _ ∧ _
      obtain ⟨w1, h1, s1⟩ := message_ok i.base m
      rw [h1, ok_bind, ok_bind, if_neg (by simp)]
      exact ⟨w1, false, rfl, i.keeps s1.keeps, f.said s1, fun x => absurd x (by simp),
        fun x => absurd x (by simp)⟩

theorem parseCmdline_ok (e : Env) (pops : List POp) : ∃ w b, parseCmdline e pops = .ok (w, b) ∧
    Base none w ∧ (b = true → Inv e w ∧ Fresh w ∧
      w.acts.map (fun a => (a.path, a.id)) = wanted e pops ∧
      ((∀ op ∈ pops, op.Fine) → Calm w)) := by
  unfold parseCmdline
  obtain ⟨w, b, h, hb, hi⟩ := setup_ok e
  rw [h, ok_bind]
  cases b with
  | false =>
    rw [if_neg (by simp)]
    exact ⟨w, false, rfl, hb, fun x => absurd x (by simp)⟩
  | true =>
    rw [if_pos rfl]
    obtain ⟨i, f, ha, hc⟩ := hi rfl
    obtain ⟨w2, b2, h2, i2, f2, hw, hcm⟩ := parseAll_ok e pops i f
    refine ⟨w2, b2, h2, i2.base, fun x => ⟨i2, f2, ?_, fun hf => hcm x hf hc⟩⟩
    rw [hw x, ha]
    rfl

end Verif.Files
