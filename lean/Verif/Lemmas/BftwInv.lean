import Verif.Lemmas.BftwCore
/-! # The invariant of a walk -/
namespace Verif.Bftw

/-- The references that are in the queues. -/
def base (s : State) : Pos → Nat := fun p => s.fileq.content.count p + s.dirq.content.count p

/-- The number of roots that have been looked at. -/
def rootsDone (e : Env) : Pc → Nat
  | .roots i => i
  | _ => e.roots

/-- The number of entries of a directory that have been read, if it is the current one. -/
def curDone (e : Env) (p : Pos) : Pc → Nat
  | .dir => 0
  | .read k => k
  | _ => e.entries p

open Classical in
/-- The number of entries of a directory that have been read. -/
noncomputable def prog (e : Env) (s : State) (p : Pos) : Nat :=
  if p ∈ s.dirq.content then 0 else if p = s.file then curDone e p s.pc else e.entries p

/-- Is the current file a directory that is being read? -/
def dirPc : Pc → Prop
  | .dir => True
  | .read _ => True
  | _ => False

/-- May files be in the buffers? -/
def bufPc : Pc → Prop
  | .roots _ => True
  | .read _ => True
  | _ => False

/-- The invariant, while the walk goes on; `G` are the files that have been seen. -/
structure Live (e : Env) (G : List Pos) (s : State) : Prop where
  core : Core e G (plus (base s) s.file) true s
  going : s.pc ≠ .stopped
  rprev : ∀ i, s.pc = .roots i → s.prev = []
  groot : ∀ i, [i] ∈ G ↔ i < rootsDone e s.pc
  gent : ∀ j p, p ≠ [] → (j :: p ∈ G ↔ p ∈ entered s.trace ∧ j < prog e s p)
  seen : ∀ p ∈ G, p ∈ visits .pre s.trace ∨ e.skipped p = true ∨ p ∈ s.fileq.content ∨ (s.pc = .file ∧ p = s.file)
  fnew : ∀ p ∈ s.fileq.content, p ∉ visits .pre s.trace
  dent : ∀ p ∈ s.dirq.content, p ∈ entered s.trace
  curFile : s.pc = .file → s.file ∈ G ∧ s.file ∉ visits .pre s.trace ∧ s.file ∉ s.fileq.content
  curDir : dirPc s.pc → s.file ∈ entered s.trace ∧ s.file ∉ s.dirq.content
  curNone : s.pc ≠ .file → ¬ dirPc s.pc → s.file = []
  fserv : ∀ p ∈ s.fileq.service, p ∈ G
  dserv : ∀ p ∈ s.dirq.service, p ∈ entered s.trace
  fok : s.fileq.Ok
  dok : s.dirq.Ok
  buf : ¬ bufPc s.pc → s.fileq.buffer = [] ∧ s.dirq.buffer = []
  errs : ∀ p ∈ visits .err s.trace, p ∉ s.dirq.content ∧ p ≠ s.file
  errs' : ∀ p ∈ entered s.trace, e.broken p = true → p ∈ visits .err s.trace ∨ p ∈ s.dirq.content ∨ (p = s.file ∧ dirPc s.pc)

/-- The invariant, after the walk was stopped. -/
structure Dead (e : Env) (s : State) : Prop where
  stopped : s.pc = .stopped
  legal : Legal e s.trace
  bad : s.bad = false
  fok : s.fileq.Ok
  dok : s.dirq.Ok

def Inv (e : Env) (s : State) : Prop := Dead e s ∨ ∃ G, Live e G s

variable {e : Env} {G : List Pos} {s : State}

theorem need_true {p : Bool} (s : State) (h : p = true) : s.need p = s := by
  unfold State.need; rw [h]; simp

theorem Live.fmem (h : Live e G s) {p : Pos} (hp : p ∈ s.fileq.content) : p ∈ G := by
  refine Classical.byContradiction fun hn => ?_
  have := h.core.hold0 p hn
  unfold plus base at this
  have h2 := List.count_pos_iff.2 hp
  omega

theorem base_congr {s s' : State} (h1 : s'.fileq.content.Perm s.fileq.content) (h2 : s'.dirq.content.Perm s.dirq.content) : base s' = base s := by
  funext p; unfold base; rw [h1.count_eq, h2.count_eq]

/-- Moving files around in the queues changes nothing. -/
theorem Live.queues (h : Live e G s) {q1 q2 : Queue} (h1 : q1.Ok) (h2 : q2.Ok) (p1 : q1.content.Perm s.fileq.content) (p2 : q2.content.Perm s.dirq.content)
    (s1 : ∀ f ∈ q1.service, f ∈ s.fileq.service ∨ f ∈ s.fileq.content) (s2 : ∀ f ∈ q2.service, f ∈ s.dirq.service ∨ f ∈ s.dirq.content)
    (b1 : s.fileq.buffer = [] → q1.buffer = []) (b2 : s.dirq.buffer = [] → q2.buffer = []) : Live e G { s with fileq := q1, dirq := q2 } := by
  have hb : base { s with fileq := q1, dirq := q2 } = base s := base_congr p1 p2
  have hprog : ∀ p, prog e { s with fileq := q1, dirq := q2 } p = prog e s p := by
    intro p; unfold prog
    simp only [p2.mem_iff]
  exact
    { core := by rw [hb]; exact { h.core with }
      going := h.going, rprev := h.rprev, groot := h.groot
      gent := fun j p hp => by rw [hprog]; exact h.gent j p hp
      seen := fun p hp => by
        have := h.seen p hp
        rw [← p1.mem_iff] at this; exact this
      fnew := fun p hp => h.fnew p (p1.mem_iff.1 hp)
      dent := fun p hp => h.dent p (p2.mem_iff.1 hp)
      curFile := fun hp => ⟨(h.curFile hp).1, (h.curFile hp).2.1, fun hh => (h.curFile hp).2.2 (p1.mem_iff.1 hh)⟩
      curDir := fun hp => ⟨(h.curDir hp).1, fun hh => (h.curDir hp).2 (p2.mem_iff.1 hh)⟩
      curNone := h.curNone
      fserv := fun p hp => (s1 p hp).elim (h.fserv p) h.fmem
      dserv := fun p hp => (s2 p hp).elim (h.dserv p) (h.dent p)
      fok := h1, dok := h2
      buf := fun hp => ⟨b1 (h.buf hp).1, b2 (h.buf hp).2⟩
      errs := fun p hp => ⟨fun hh => (h.errs p hp).1 (p2.mem_iff.1 hh), (h.errs p hp).2⟩
      errs' := fun p hp hbr => by
        have := h.errs' p hp hbr
        rw [← p2.mem_iff] at this; exact this }

theorem Live.dead (h : Live e G s) : Dead e { s with pc := .stopped } := ⟨rfl, h.core.legal, h.core.bad, h.fok, h.dok⟩

/-- The queues after `bftw_flush()`. -/
theorem flush_spec (e : Env) {s : State} (h1 : s.fileq.Ok) (h2 : s.dirq.Ok) :
    (s.flush e).fileq.Ok ∧ (s.flush e).dirq.Ok ∧ (s.flush e).fileq.content.Perm s.fileq.content ∧ (s.flush e).dirq.content.Perm s.dirq.content ∧
      (s.flush e).fileq.service = s.fileq.service ∧ (s.flush e).dirq.service = s.dirq.service ∧
      (s.flush e).fileq.buffer = [] ∧ (s.flush e).dirq.buffer = [] := by
  have key : ∀ q : Queue, q.Ok → q.content.Perm s.fileq.content → q.service = s.fileq.service →
      q.flush.Ok ∧ q.flush.content.Perm s.fileq.content ∧ q.flush.service = s.fileq.service ∧ q.flush.buffer = [] := by
    intro q hq hc hs
    exact ⟨Queue.flush_ok hq, q.flush_content.trans hc, q.flush_service.trans hs, Queue.flush_buffer hq⟩
  have hd := h2
  unfold State.flush
  dsimp only
  split
  · have hs := Queue.sort_ok h1 (listSort_perm (le := e.le) (name := e.name) s.fileq.buffer)
    obtain ⟨k1, k2, k3, k4⟩ := key _ hs.1 hs.2 rfl
    exact ⟨k1, Queue.flush_ok h2, k2, s.dirq.flush_content, k3, s.dirq.flush_service, k4, Queue.flush_buffer h2⟩
  · obtain ⟨k1, k2, k3, k4⟩ := key _ h1 (List.Perm.refl _) rfl
    exact ⟨k1, Queue.flush_ok h2, k2, s.dirq.flush_content, k3, s.dirq.flush_service, k4, Queue.flush_buffer h2⟩

/-- `bftw_flush()` when there is no current file. -/
theorem Live.flush (h : Live e G s) (hf : s.file = []) (hpc : (∃ i, s.pc = .roots i ∧ ¬ i < e.roots) ∨ s.pc = .top) : Live e G { s.flush e with pc := .top } := by
  obtain ⟨h1, h2, h3, h4, h5, h6, h7, h8⟩ := flush_spec e h.fok h.dok
  have hq := h.queues h1 h2 h3 h4 (fun f hf => Or.inl (h5 ▸ hf)) (fun f hf => Or.inl (h6 ▸ hf)) (fun _ => h7) (fun _ => h8)
  have hndir : ¬ dirPc s.pc := by
    rcases hpc with ⟨i, hpc, _⟩ | hpc <;> rw [hpc] <;> exact id
  have hprog : ∀ p, p ≠ [] → prog e { s.flush e with pc := .top } p = prog e { s with fileq := (s.flush e).fileq, dirq := (s.flush e).dirq } p := by
    intro p hp
    unfold prog
    have e1 : p ≠ s.file := fun hh => hp (hh.trans hf)
    have e2 : (s.flush e).file = s.file := rfl
    simp only [e2, e1, if_false]
  exact
    { core := { hq.core with }
      going := by simp
      rprev := fun i hh => by cases hh
      groot := fun i => by
        rw [hq.groot i]
        show i < rootsDone e s.pc ↔ i < e.roots
        rcases hpc with ⟨k, hpc, hk⟩ | hpc
        · refine ⟨fun hh => ?_, fun hh => ?_⟩
          · exact h.core.ginb _ ((h.groot i).2 hh)
          · rw [hpc]; show i < k; omega
        · rw [hpc]; exact Iff.rfl
      gent := fun j p hp => by rw [hprog p hp]; exact hq.gent j p hp
      seen := fun p hp => by
        rcases hq.seen p hp with h | h | h | h
        · exact Or.inl h
        · exact Or.inr (Or.inl h)
        · exact Or.inr (Or.inr (Or.inl h))
        · exfalso
          have h : s.pc = .file := h.1
          rcases hpc with ⟨i, hpc, _⟩ | hpc <;> rw [hpc] at h <;> cases h
      fnew := hq.fnew, dent := hq.dent
      curFile := fun h => by cases h
      curDir := fun h => by cases h
      curNone := fun _ _ => hf
      fserv := hq.fserv, dserv := hq.dserv, fok := hq.fok, dok := hq.dok
      buf := fun _ => ⟨h7, h8⟩
      errs := hq.errs
      errs' := fun p hp hb => by
        rcases hq.errs' p hp hb with h | h | h
        · exact Or.inl h
        · exact Or.inr (Or.inl h)
        · exact absurd h.2 hndir }

/-- What `bftw_visit()` does with an entry, if the walk goes on. -/
structure Saw (e : Env) (s : State) (t : Pos) (s' : State) : Prop where
  file : s'.file = s.file
  prev : s'.prev = s.prev ∨ s'.prev = s.file
  ent : ∀ p, p ∈ entered s'.trace ↔ p ∈ entered s.trace ∨ (p = t ∧ t ∈ s'.dirq.content)
  dirq : ∀ p, p ≠ t → (p ∈ s'.dirq.content ↔ p ∈ s.dirq.content)
  fileq : ∀ p, p ≠ t → (p ∈ s'.fileq.content ↔ p ∈ s.fileq.content)
  pre : ∀ p, p ≠ t → (p ∈ visits .pre s'.trace ↔ p ∈ visits .pre s.trace)
  handled : t ∈ visits .pre s'.trace ∨ e.skipped t = true ∨ t ∈ s'.fileq.content
  fresh : t ∈ s'.fileq.content → t ∉ visits .pre s'.trace
  err : visits .err s'.trace = visits .err s.trace
  fserv : s'.fileq.service = s.fileq.service
  dserv : s'.dirq.service = s.dirq.service
  fok : s'.fileq.Ok
  dok : s'.dirq.Ok

theorem adjust_stop {v : Visit} {t : Pos} {a : Action} : e.adjust v t a = .stop ↔ a = .stop := by
  cases a
  · unfold Env.adjust; dsimp only; split
    · simp
    · split <;> simp
  · simp [Env.adjust]
  · simp [Env.adjust]

theorem callBack_refs (e : Env) (s : State) (f : Pos → Nat) (b : Bool) (n : Option Nat) (v : Visit) :
    State.callBack e { s with refs := f } n v = (fun x : State × Action => ({ x.1 with refs := f }, x.2)) (State.callBack e s n v) := by
  unfold State.callBack
  dsimp only [State.buildPath, State.need]
  split
  · rfl
  · split <;> rfl

theorem Core.reHold {hold hold' : Pos → Nat} {live : Bool} (h : Core e G hold live s) (hb : hold = hold') : Core e G hold' live s := hb ▸ h

theorem visitName_spec (hN : e.Named) (h : Core e G (plus (base s) s.file) true s) {j : Nat} (ht : j :: s.file ∉ G) (hi : e.inb (j :: s.file))
    (hpar : s.file = [] ∨ s.file ∈ entered s.trace) (hal : s.file = [] ∨ s.refs s.file > 0) (hprev : s.prev = [] ∨ s.file ≠ [])
    (hfm : ∀ p ∈ s.fileq.content, p ∈ G) (hdm : ∀ p ∈ s.dirq.content, p ∈ G) (hfs : ∀ p ∈ s.fileq.service, p ∈ G) (hds : ∀ p ∈ s.dirq.service, p ∈ G)
    (hfok : s.fileq.Ok) (hdok : s.dirq.Ok) (b : Bool) :
    ((s.visitName e j b).2 = false ∧ Core e ((j :: s.file) :: G) (plus (base (s.visitName e j b).1) s.file) true (s.visitName e j b).1 ∧
      Saw e s (j :: s.file) (s.visitName e j b).1) ∨
    ((s.visitName e j b).2 = true ∧ Legal e (s.visitName e j b).1.trace ∧ (s.visitName e j b).1.bad = false ∧
      (s.visitName e j b).1.fileq.Ok ∧ (s.visitName e j b).1.dirq.Ok) := by
  have htne : j :: s.file ≠ s.file := fun hh => by have := congrArg List.length hh; simp at this
  have htpre : j :: s.file ∉ visits .pre s.trace := fun hh => ht (h.gvis _ hh)
  have hpb : ∀ s' : State, s'.fileq.content.Perm ((j :: s.file) :: s.fileq.content) → s'.dirq = s.dirq →
      plus (plus (base s) s.file) (j :: s.file) = plus (base s') s.file := by
    intro s' h1 h2
    funext p
    unfold plus base
    rw [h2, h1.count_eq, List.count_cons]
    by_cases hp : p = j :: s.file
    · simp [hp]; omega
    · have : ¬ (j :: s.file) = p := fun hh => hp hh.symm
      simp [hp, this]
  have hpb' : ∀ s' : State, s'.dirq.content.Perm ((j :: s.file) :: s.dirq.content) → s'.fileq = s.fileq →
      plus (plus (base s) s.file) (j :: s.file) = plus (base s') s.file := by
    intro s' h1 h2
    funext p
    unfold plus base
    rw [h2, h1.count_eq, List.count_cons]
    by_cases hp : p = j :: s.file
    · simp [hp]; omega
    · have : ¬ (j :: s.file) = p := fun hh => hp hh.symm
      simp [hp, this]
  cases b
  · have hcb := callBack_spec (s := s) (e := e) (name := some j) (v := .pre) (by simp [target]) (h.chain' hN hpar) hprev h.path
    rw [if_neg (by simp)] at hcb
    have hsee := (h.see ht hi hpar).setPath (t := j :: s.file) hal (List.suffix_cons _ _)
    by_cases hsk : e.skipped (target s.file (some j)) = true
    · rw [if_pos hsk] at hcb
      have hsk : e.skipped (j :: s.file) = true := hsk
      left
      have hx : s.visitName e j false = ({ s with path := e.fullPath (j :: s.file), prev := s.file }, false) := by
        unfold State.visitName
        rw [if_neg (by simp), hcb]
        rfl
      rw [hx]
      refine ⟨rfl, hsee, ?_⟩
      exact
        { file := rfl
          prev := Or.inr rfl
          ent := fun p => ⟨Or.inl, fun hh => hh.elim id fun hh => absurd (hdm _ hh.2) ht⟩
          dirq := fun _ _ => Iff.rfl, fileq := fun _ _ => Iff.rfl, pre := fun _ _ => Iff.rfl
          handled := Or.inr (Or.inl hsk)
          fresh := fun hh => absurd (hfm _ hh) ht
          err := rfl, fserv := rfl, dserv := rfl, fok := hfok, dok := hdok }
    · rw [if_neg hsk] at hcb
      have hsk : ¬ e.skipped (j :: s.file) = true := hsk
      dsimp only [target] at hcb
      generalize ha : e.adjust .pre (j :: s.file) (e.callback s.trace .pre (j :: s.file) (e.fullPath (j :: s.file))) = a at hcb
      have hok : EvOk e s.trace ⟨.pre, j :: s.file, e.fullPath (j :: s.file), a⟩ :=
        { running := h.run rfl, path := rfl, action := ha.symm, inb := hi, parent := hpar
          fresh := htpre
          dir := fun hh => absurd rfl hh
          done := fun q hq hs => by
            have hqe := h.legal.post_entered .post (by simp) q hq
            have hqG := h.ent hqe
            have hq0 := h.posted q hq
            rcases List.suffix_cons_iff.1 hs with hs | hs
            · exact ht (hs ▸ hqG)
            · rcases hal with hal | hal
              · rw [hal] at hs
                exact inb_ne (h.ginb q hqG) (List.suffix_nil.1 hs)
              · have := h.alive_up hs (inb_ne (h.ginb q hqG)) hal
                omega
          mount := by simpa using hsk
          post := fun hh => by cases hh
          broken := fun hh => by cases hh }
      cases a with
      | stop =>
        right
        have hx : s.visitName e j false = ({ s with path := e.fullPath (j :: s.file), prev := s.file, trace := ⟨.pre, j :: s.file, e.fullPath (j :: s.file), .stop⟩ :: s.trace }, true) := by
          unfold State.visitName
          rw [if_neg (by simp), hcb]
        rw [hx]
        exact ⟨rfl, ⟨hok, h.legal⟩, h.bad, hfok, hdok⟩
      | prune =>
        left
        have hx : s.visitName e j false = ({ s with path := e.fullPath (j :: s.file), prev := s.file, trace := ⟨.pre, j :: s.file, e.fullPath (j :: s.file), .prune⟩ :: s.trace }, false) := by
          unfold State.visitName
          rw [if_neg (by simp), hcb]
        rw [hx]
        have hc := hsee.event hok List.mem_cons_self (fun hh => by cases hh) (fun _ hh => by cases hh)
        refine ⟨rfl, hc, ?_⟩
        have hen : entered (⟨.pre, j :: s.file, e.fullPath (j :: s.file), .prune⟩ :: s.trace) = entered s.trace := by
          rw [entered_cons, if_neg (by simp)]
        have hvi : visits .pre (⟨.pre, j :: s.file, e.fullPath (j :: s.file), .prune⟩ :: s.trace) = (j :: s.file) :: visits .pre s.trace := by
          rw [visits_cons, if_pos rfl]
        exact
          { file := rfl
            prev := Or.inr rfl
            ent := fun p => by
              show p ∈ entered (_ :: _) ↔ _
              rw [hen]
              exact ⟨Or.inl, fun hh => hh.elim id fun hh => absurd (hdm _ hh.2) ht⟩
            dirq := fun _ _ => Iff.rfl, fileq := fun _ _ => Iff.rfl
            pre := fun p hp => by
              show p ∈ visits .pre (_ :: _) ↔ _
              rw [hvi]; simp [hp]
            handled := Or.inl (by show _ ∈ visits .pre (_ :: _); rw [hvi]; exact List.mem_cons_self)
            fresh := fun hh => absurd (hfm _ hh) ht
            err := by show visits .err (_ :: _) = _; rw [visits_cons, if_neg (by simp)]
            fserv := rfl, dserv := rfl, fok := hfok, dok := hdok }
      | cont =>
        left
        have hdir : e.isDir (j :: s.file) = true := (adjust_cont ha).1
        have hx : s.visitName e j false = ({ s.new j with path := e.fullPath (j :: s.file), prev := s.file, trace := ⟨.pre, j :: s.file, e.fullPath (j :: s.file), .cont⟩ :: s.trace, dirq := s.dirq.push (j :: s.file) }, false) := by
          unfold State.visitName
          rw [if_neg (by simp), hcb]
          dsimp only
          rw [need_true _ (p := e.isDir (j :: (State.new { s with path := e.fullPath (j :: s.file), prev := s.file, trace := ⟨.pre, j :: s.file, e.fullPath (j :: s.file), .cont⟩ :: s.trace } j).file)) hdir]
          rfl
        rw [hx]
        have hnew := h.new ht hi hpar hal
        have hr1 : (s.new j).refs (j :: s.file) = 1 := upd_self _ (j :: s.file) 1
        have hsp : Core e ((j :: s.file) :: G) (plus (plus (base s) s.file) (j :: s.file)) true { s.new j with path := e.fullPath (j :: s.file), prev := s.file } :=
          { hnew with
            prev := by
              rcases hal with hal | hal
              · exact Or.inl hal
              · right
                show (s.new j).refs s.file > 0
                show upd (if s.file = [] then s.refs else upd s.refs s.file (s.refs s.file + 1)) (j :: s.file) 1 s.file > 0
                rw [upd_ne _ _ (fun hh => htne hh.symm)]
                split
                · exact hal
                · rw [upd_self]; omega
            path := fullPath_prefix e (List.suffix_cons _ _) }
        have hc := hsp.event (ev := ⟨.pre, j :: s.file, e.fullPath (j :: s.file), .cont⟩) hok List.mem_cons_self (fun hh => by cases hh) (fun _ _ => by show (s.new j).refs (j :: s.file) > 0; rw [hr1]; omega)
        have hpc := s.dirq.push_content (j :: s.file)
        have hen : entered (⟨.pre, j :: s.file, e.fullPath (j :: s.file), .cont⟩ :: s.trace) = (j :: s.file) :: entered s.trace := by
          rw [entered_cons, if_pos ⟨rfl, rfl⟩]
        have hvi : visits .pre (⟨.pre, j :: s.file, e.fullPath (j :: s.file), .cont⟩ :: s.trace) = (j :: s.file) :: visits .pre s.trace := by
          rw [visits_cons, if_pos rfl]
        refine ⟨rfl, ?_, ?_⟩
        · exact Core.reHold (hold := plus (plus (base s) s.file) (j :: s.file)) { hc with } (hpb' _ hpc rfl)
        · exact
            { file := rfl
              prev := Or.inr rfl
              ent := fun p => by
                show p ∈ entered (_ :: _) ↔ _ ∨ (_ ∧ _ ∈ (s.dirq.push (j :: s.file)).content)
                rw [hen, hpc.mem_iff, List.mem_cons]
                constructor
                · rintro (h | h)
                  · exact Or.inr ⟨h, List.mem_cons_self⟩
                  · exact Or.inl h
                · rintro (h | h)
                  · exact Or.inr h
                  · exact Or.inl h.1
              dirq := fun p hp => by
                show p ∈ (s.dirq.push (j :: s.file)).content ↔ _
                rw [hpc.mem_iff, List.mem_cons]
                exact ⟨fun hh => hh.resolve_left hp, Or.inr⟩
              fileq := fun _ _ => Iff.rfl
              pre := fun p hp => by
                show p ∈ visits .pre (_ :: _) ↔ _
                rw [hvi]; simp [hp]
              handled := Or.inl (by show _ ∈ visits .pre (_ :: _); rw [hvi]; exact List.mem_cons_self)
              fresh := fun hh => absurd (hfm _ hh) ht
              err := by show visits .err (_ :: _) = _; rw [visits_cons, if_neg (by simp)]
              fserv := rfl
              dserv := s.dirq.push_service _
              fok := hfok
              dok := Queue.push_ok hdok (fun hh => ht (hdm _ hh)) (fun hh => ht (hds _ hh)) }
  · left
    have hx : s.visitName e j true = ({ s.new j with fileq := s.fileq.push (j :: s.file) }, false) := rfl
    rw [hx]
    have hnew := h.new ht hi hpar hal
    have hpc := s.fileq.push_content (j :: s.file)
    refine ⟨rfl, ?_, ?_⟩
    · exact Core.reHold (hold := plus (plus (base s) s.file) (j :: s.file)) { hnew with } (hpb _ hpc rfl)
    · exact
        { file := rfl
          prev := Or.inl rfl
          ent := fun p => ⟨Or.inl, fun hh => hh.elim id fun hh => absurd (hdm _ hh.2) ht⟩
          dirq := fun _ _ => Iff.rfl
          fileq := fun p hp => by
            show p ∈ (s.fileq.push (j :: s.file)).content ↔ _
            rw [hpc.mem_iff, List.mem_cons]
            exact ⟨fun hh => hh.resolve_left hp, Or.inr⟩
          pre := fun _ _ => Iff.rfl
          handled := Or.inr (Or.inr (by show _ ∈ (s.fileq.push (j :: s.file)).content; rw [hpc.mem_iff]; exact List.mem_cons_self))
          fresh := fun _ => htpre
          err := rfl
          fserv := s.fileq.push_service _
          dserv := rfl
          fok := Queue.push_ok hfok (fun hh => ht (hfm _ hh)) (fun hh => ht (hfs _ hh))
          dok := hdok }

/-- Going on to the next root or entry. -/
theorem Live.visitName (hN : e.Named) (h : Live e G s) {j : Nat} {pc' : Pc} (b : Bool)
    (hpc : (s.pc = .roots j ∧ j < e.roots ∧ pc' = .roots (j + 1)) ∨ (s.pc = .read j ∧ j < e.entries s.file ∧ pc' = .read (j + 1))) :
    Dead e (State.go (s.visitName e j b) pc') ∨ Live e ((j :: s.file) :: G) (State.go (s.visitName e j b) pc') := by
  have hfile : (s.file = [] ∧ s.pc = .roots j ∧ pc' = .roots (j + 1)) ∨ (s.file ≠ [] ∧ s.file ∈ entered s.trace ∧ s.file ∉ s.dirq.content ∧ s.pc = .read j ∧ pc' = .read (j + 1)) := by
    rcases hpc with ⟨h1, _, h2⟩ | ⟨h1, _, h2⟩
    · left
      exact ⟨h.curNone (by rw [h1]; simp) (by rw [h1]; exact id), h1, h2⟩
    · right
      have := h.curDir (by rw [h1]; trivial)
      exact ⟨inb_ne (h.core.ginb _ (h.core.ent this.1)), this.1, this.2, h1, h2⟩
  have hpar : s.file = [] ∨ s.file ∈ entered s.trace := hfile.elim (fun h => Or.inl h.1) fun h => Or.inr h.2.1
  have hi : e.inb (j :: s.file) := by
    rcases hpc with ⟨h1, h2, _⟩ | ⟨h1, h2, _⟩
    · rcases hfile with hf | hf
      · rw [hf.1]; exact h2
      · rw [h1] at hf; cases hf.2.2.2.1
    · rcases hfile with hf | hf
      · rw [h1] at hf; cases hf.2.1
      · cases hff : s.file with
        | nil => exact absurd hff hf.1
        | cons a p => show j < e.entries (a :: p); rw [← hff]; exact h2
  have ht : j :: s.file ∉ G := by
    rcases hfile with ⟨h1, h2, _⟩ | ⟨h1, h2, h3, h4, _⟩
    · rw [h1, h.groot, h2]; exact Nat.lt_irrefl _
    · rw [h.gent j _ h1]
      unfold prog
      rw [if_neg h3, if_pos rfl, h4]
      exact fun hh => Nat.lt_irrefl _ hh.2
  have hal : s.file = [] ∨ s.refs s.file > 0 := by
    by_cases hf : s.file = []
    · exact Or.inl hf
    · right
      rw [h.core.refs _ (h.core.ent (hpar.resolve_left hf))]
      unfold plus
      rw [if_pos ⟨rfl, hf⟩]; omega
  have hprev : s.prev = [] ∨ s.file ≠ [] := by
    rcases hfile with ⟨h1, h2, _⟩ | ⟨h1, _⟩
    · exact Or.inl (h.rprev _ h2)
    · exact Or.inr h1
  rcases visitName_spec hN h.core ht hi hpar hal hprev (fun p hp => h.fmem hp) (fun p hp => h.core.ent (h.dent p hp)) h.fserv (fun p hp => h.core.ent (h.dserv p hp)) h.fok h.dok b with ⟨h1, h2, h3⟩ | ⟨h1, h2, h3, h4, h5⟩
  · right
    unfold State.go
    rw [h1]
    generalize s.visitName e j b = x at h2 h3
    have hjG : ∀ {p}, p ∈ (j :: s.file) :: G ↔ p = j :: s.file ∨ p ∈ G := List.mem_cons
    have htne : j :: s.file ≠ s.file := fun hh => by have := congrArg List.length hh; simp at this
    have hprog : ∀ p, p ≠ [] → p ≠ s.file → p ≠ j :: s.file → prog e { x.1 with pc := if False then .stopped else pc' } p = prog e s p := by
      intro p _ hp1 hp2
      unfold prog
      simp only [h3.dirq p hp2, h3.file, hp1, if_false]
    simp only [if_false, Bool.false_eq_true] at hprog ⊢
    exact
      { core := by
          show Core e _ (plus (base x.1) x.1.file) true _
          rw [h3.file]
          exact { h2 with }
        going := by
          rcases hfile with ⟨_, _, hh⟩ | ⟨_, _, _, _, hh⟩ <;> rw [hh] <;> simp
        rprev := fun i hh => by
          rcases hfile with ⟨hf, hp, hh'⟩ | ⟨_, _, _, _, hh'⟩
          · rcases h3.prev with hp' | hp'
            · exact hp'.trans (h.rprev _ hp)
            · exact hp'.trans hf
          · have hh : pc' = .roots i := hh
            rw [hh'] at hh; cases hh
        groot := fun i => by
          rw [hjG, h.groot]
          rcases hfile with ⟨hf, hp, hh'⟩ | ⟨hf, _, _, hp, hh'⟩
          · rw [hf, hp, hh']
            show [i] = [j] ∨ i < j ↔ i < j + 1
            constructor
            · rintro (h | h)
              · cases h; omega
              · omega
            · intro h
              rcases Nat.lt_succ_iff_lt_or_eq.1 h with h | h
              · exact Or.inr h
              · exact Or.inl (by rw [h])
          · rw [hp, hh']
            show [i] = j :: s.file ∨ i < e.roots ↔ i < e.roots
            refine ⟨fun h => h.elim (fun h => ?_) id, Or.inr⟩
            cases hfl : s.file with
            | nil => exact absurd hfl hf
            | cons a q => rw [hfl] at h; cases h
        gent := fun k p hp => by
          rw [hjG, h.gent k p hp]
          show _ ↔ p ∈ entered x.1.trace ∧ _
          by_cases hpt : p = j :: s.file
          · subst hpt
            constructor
            · rintro (hh | hh)
              · exact absurd (List.cons.inj hh).2 htne
              · exact absurd (h.core.ent hh.1) ht
            · rintro ⟨hh, hk⟩
              rcases (h3.ent _).1 hh with hh | hh
              · exact absurd (h.core.ent hh) ht
              · exfalso
                unfold prog at hk
                rw [if_pos hh.2] at hk
                omega
          · have hent : p ∈ entered x.1.trace ↔ p ∈ entered s.trace := by
              rw [h3.ent]
              exact ⟨fun hh => hh.resolve_right fun hh => hpt hh.1, Or.inl⟩
            rw [hent]
            by_cases hpf : p = s.file
            · rcases hfile with ⟨hf, hpp, hh'⟩ | ⟨hf, hfe, hfd, hpp, hh'⟩
              · exact absurd (hpf.trans hf) hp
              · have hfd' : s.file ∉ x.1.dirq.content := fun hh => hfd ((h3.dirq _ (fun hh => htne hh.symm)).1 hh)
                subst hpf
                unfold prog
                simp only [if_neg hfd, if_neg hfd', h3.file, if_true]
                rw [hpp, hh']
                simp only [curDone]
                constructor
                · rintro (hh | hh)
                  · cases hh; exact ⟨hfe, by omega⟩
                  · exact ⟨hh.1, by omega⟩
                · rintro ⟨hh, hk⟩
                  rcases Nat.lt_succ_iff_lt_or_eq.1 hk with hk | hk
                  · exact Or.inr ⟨hh, hk⟩
                  · exact Or.inl (by rw [hk])
            · rw [hprog p hp hpf hpt]
              refine ⟨fun hh => hh.resolve_left fun hh => ?_, Or.inr⟩
              cases hh; exact hpf rfl
        seen := fun p hp => by
          by_cases hpt : p = j :: s.file
          · rw [hpt]
            rcases h3.handled with h | h | h
            · exact Or.inl h
            · exact Or.inr (Or.inl h)
            · exact Or.inr (Or.inr (Or.inl h))
          · rcases h.seen p ((hjG.1 hp).resolve_left hpt) with hh | hh | hh | hh
            · exact Or.inl ((h3.pre p hpt).2 hh)
            · exact Or.inr (Or.inl hh)
            · exact Or.inr (Or.inr (Or.inl ((h3.fileq p hpt).2 hh)))
            · exfalso
              rcases hfile with ⟨_, hp, _⟩ | ⟨_, _, _, hp, _⟩ <;> rw [hp] at hh <;> cases hh.1
        fnew := fun p hp => by
          by_cases hpt : p = j :: s.file
          · subst hpt; exact h3.fresh hp
          · exact fun hh => h.fnew p ((h3.fileq p hpt).1 hp) ((h3.pre p hpt).1 hh)
        dent := fun p hp => by
          show p ∈ entered x.1.trace
          rw [h3.ent]
          by_cases hpt : p = j :: s.file
          · right; exact ⟨hpt, hpt ▸ hp⟩
          · left; exact h.dent p ((h3.dirq p hpt).1 hp)
        curFile := fun hh => by
          exfalso
          have hh : pc' = .file := hh
          rcases hfile with ⟨_, _, hp⟩ | ⟨_, _, _, _, hp⟩ <;> rw [hp] at hh <;> cases hh
        curDir := fun hh => by
          rcases hfile with ⟨_, _, hp⟩ | ⟨_, hfe, hfd, _, hp⟩
          · have hh : dirPc pc' := hh
            rw [hp] at hh; cases hh
          · show x.1.file ∈ entered x.1.trace ∧ x.1.file ∉ x.1.dirq.content
            rw [h3.file, h3.ent, h3.dirq _ (fun hh => htne hh.symm)]
            exact ⟨Or.inl hfe, hfd⟩
        curNone := fun h1 h2 => by
          rcases hfile with ⟨hf, _, hp⟩ | ⟨_, hfe, hfd, _, hp⟩
          · exact h3.file.trans hf
          · have h2 : ¬ dirPc pc' := h2
            rw [hp] at h2; exact absurd trivial h2
        fserv := fun p hp => by
          have hp : p ∈ x.1.fileq.service := hp
          rw [h3.fserv] at hp
          exact List.mem_cons_of_mem _ (h.fserv p hp)
        dserv := fun p hp => by
          have hp : p ∈ x.1.dirq.service := hp
          rw [h3.dserv] at hp
          exact (h3.ent p).2 (Or.inl (h.dserv p hp))
        fok := h3.fok, dok := h3.dok
        buf := fun hh => by
          have hh : ¬ bufPc pc' := hh
          rcases hfile with ⟨_, _, hp⟩ | ⟨_, _, _, _, hp⟩ <;> rw [hp] at hh <;> exact absurd trivial hh
        errs := fun p hp => by
          have hp : p ∈ visits .err x.1.trace := hp
          rw [h3.err] at hp
          have := h.errs p hp
          have hpt : p ≠ j :: s.file := fun hh => ht (hh ▸ h.core.ent (h.core.legal.post_entered .err (by simp) p hp))
          exact ⟨fun hh => this.1 ((h3.dirq p hpt).1 hh), fun hh => this.2 (hh.trans h3.file)⟩
        errs' := fun p hp hb => by
          show p ∈ visits .err x.1.trace ∨ p ∈ x.1.dirq.content ∨ (p = x.1.file ∧ dirPc pc')
          rw [h3.err, h3.file]
          rcases (h3.ent p).1 hp with hp | hp
          · have hpt : p ≠ j :: s.file := fun hh => ht (hh ▸ h.core.ent hp)
            rcases h.errs' p hp hb with h | h | h
            · exact Or.inl h
            · exact Or.inr (Or.inl ((h3.dirq p hpt).2 h))
            · refine Or.inr (Or.inr ⟨h.1, ?_⟩)
              rcases hfile with ⟨_, hp, _⟩ | ⟨_, _, _, _, hp⟩
              · rw [hp] at h; exact absurd h.2 id
              · rw [hp]; trivial
          · exact Or.inr (Or.inl (hp.1 ▸ hp.2)) }
  · left
    unfold State.go
    rw [h1]
    exact ⟨rfl, h2, h3, h4, h5⟩

/-- Only the place in the code changes. -/
theorem Live.setPc (h : Live e G s) {pc' : Pc} (hf : s.file = []) (h1 : rootsDone e pc' = rootsDone e s.pc) (h2 : ¬ dirPc pc') (h3 : pc' ≠ .file)
    (h4 : s.pc ≠ .file) (h5 : ¬ dirPc s.pc) (h6 : pc' ≠ .stopped) (h7 : bufPc s.pc → bufPc pc') (h8 : ∀ i, pc' ≠ .roots i) : Live e G { s with pc := pc' } := by
  have hprog : ∀ p, p ≠ [] → prog e { s with pc := pc' } p = prog e s p := by
    intro p hp
    unfold prog
    have e1 : p ≠ s.file := fun hh => hp (hh.trans hf)
    simp only [e1, if_false]
  exact
    { core := { h.core with }
      going := h6
      rprev := fun i hh => absurd hh (h8 i)
      groot := fun i => by show _ ↔ i < rootsDone e pc'; rw [h1]; exact h.groot i
      gent := fun j p hp => by rw [hprog p hp]; exact h.gent j p hp
      seen := fun p hp => by
        rcases h.seen p hp with h | h | h | h
        · exact Or.inl h
        · exact Or.inr (Or.inl h)
        · exact Or.inr (Or.inr (Or.inl h))
        · exact absurd h.1 h4
      fnew := h.fnew, dent := h.dent
      curFile := fun hh => absurd hh h3
      curDir := fun hh => absurd hh h2
      curNone := fun _ _ => hf
      fserv := h.fserv, dserv := h.dserv, fok := h.fok, dok := h.dok
      buf := fun hh => h.buf (fun hb => hh (h7 hb))
      errs := h.errs
      errs' := fun p hp hb => by
        rcases h.errs' p hp hb with h | h | h
        · exact Or.inl h
        · exact Or.inr (Or.inl h)
        · exact absurd h.2 h5 }

/-- A directory has been taken from the queue. -/
theorem Live.popDir (h : Live e G s) (hpc : s.pc = .popDir) {f : Pos} {q : Queue} (hp : s.dirq.pop = (some f, q)) :
    Live e G { s with dirq := q, file := f, pc := .dir } := by
  have hb := h.buf (by rw [hpc]; exact id)
  have hf := h.curNone (by rw [hpc]; simp) (by rw [hpc]; exact id)
  obtain ⟨h1, h2, h3, h4⟩ := Queue.pop_spec h.dok hb.2 hp
  have hfm : f ∈ s.dirq.content := h2.mem_iff.2 List.mem_cons_self
  have hfe := h.dent f hfm
  have hfG := h.core.ent hfe
  have hfne := inb_ne (h.core.ginb f hfG)
  have hfq : f ∉ q.content := by
    have := h2.nodup_iff.1 h.dok.nodup
    exact (List.nodup_cons.1 this).1
  have hmem : ∀ p, p ≠ f → (p ∈ q.content ↔ p ∈ s.dirq.content) := by
    intro p hp
    rw [h2.mem_iff, List.mem_cons]
    exact ⟨Or.inr, fun hh => hh.resolve_left hp⟩
  have hbase : plus (base s) s.file = plus (base { s with dirq := q, file := f, pc := .dir }) f := by
    rw [hf, plus_nil]
    funext p
    unfold plus base
    dsimp only
    rw [h2.count_eq, List.count_cons]
    by_cases hpf : p = f
    · simp [hpf, hfne]; omega
    · have : ¬ f = p := fun hh => hpf hh.symm
      simp [hpf, this]
  exact
    { core := Core.reHold (hold := plus (base s) s.file) { h.core with } hbase
      going := by simp
      rprev := fun i hh => by cases hh
      groot := fun i => by
        rw [h.groot i, hpc]; exact Iff.rfl
      gent := fun j p hp => by
        rw [h.gent j p hp]
        have : prog e { s with dirq := q, file := f, pc := .dir } p = prog e s p := by
          unfold prog
          by_cases hpf : p = f
          · subst hpf
            simp only [hfq, hfm, if_true, if_false]
            rfl
          · have e1 : p ≠ s.file := fun hh => hp (hh.trans hf)
            simp only [hmem p hpf, hpf, e1, if_false]
        rw [this]
      seen := fun p hp => by
        rcases h.seen p hp with h | h | h | h
        · exact Or.inl h
        · exact Or.inr (Or.inl h)
        · exact Or.inr (Or.inr (Or.inl h))
        · rw [hpc] at h; cases h.1
      fnew := h.fnew
      dent := fun p hp => h.dent p (h2.mem_iff.2 (List.mem_cons_of_mem _ hp))
      curFile := fun hh => by cases hh
      curDir := fun _ => ⟨hfe, hfq⟩
      curNone := fun _ hh => absurd trivial hh
      fserv := h.fserv
      dserv := fun p hp => h.dserv p (h3 ▸ hp)
      fok := h.fok, dok := h1
      buf := fun _ => ⟨hb.1, h4⟩
      errs := fun p hp => by
        have := h.errs p hp
        refine ⟨fun hh => this.1 (h2.mem_iff.2 (List.mem_cons_of_mem _ hh)), fun hh => ?_⟩
        exact this.1 (hh ▸ hfm)
      errs' := fun p hp hbr => by
        rcases h.errs' p hp hbr with h | h | h
        · exact Or.inl h
        · by_cases hpf : p = f
          · exact Or.inr (Or.inr ⟨hpf, trivial⟩)
          · exact Or.inr (Or.inl ((hmem p hpf).2 h))
        · rw [hpc] at h; exact absurd h.2 id }

/-- A file has been taken from the queue. -/
theorem Live.popFile (h : Live e G s) (hpc : s.pc = .popFile) {f : Pos} {q : Queue} (hp : s.fileq.pop = (some f, q)) :
    Live e G { s with fileq := q, file := f, pc := .file } := by
  have hb := h.buf (by rw [hpc]; exact id)
  have hf := h.curNone (by rw [hpc]; simp) (by rw [hpc]; exact id)
  obtain ⟨h1, h2, h3, h4⟩ := Queue.pop_spec h.fok hb.1 hp
  have hfm : f ∈ s.fileq.content := h2.mem_iff.2 List.mem_cons_self
  have hfG := h.fmem hfm
  have hfne := inb_ne (h.core.ginb f hfG)
  have hfnew := h.fnew f hfm
  have hfent : f ∉ entered s.trace := fun hh => hfnew (entered_sub _ f hh)
  have hmem : ∀ p, p ≠ f → (p ∈ q.content ↔ p ∈ s.fileq.content) := by
    intro p hp
    rw [h2.mem_iff, List.mem_cons]
    exact ⟨Or.inr, fun hh => hh.resolve_left hp⟩
  have hbase : plus (base s) s.file = plus (base { s with fileq := q, file := f, pc := .file }) f := by
    rw [hf, plus_nil]
    funext p
    unfold plus base
    dsimp only
    rw [h2.count_eq, List.count_cons]
    by_cases hpf : p = f
    · simp [hpf, hfne]; omega
    · have : ¬ f = p := fun hh => hpf hh.symm
      simp [hpf, this]
  exact
    { core := Core.reHold (hold := plus (base s) s.file) { h.core with } hbase
      going := by simp
      rprev := fun i hh => by cases hh
      groot := fun i => by
        rw [h.groot i, hpc]; exact Iff.rfl
      gent := fun j p hp => by
        rw [h.gent j p hp]
        refine and_congr_right fun hpe => ?_
        have : prog e { s with fileq := q, file := f, pc := .file } p = prog e s p := by
          unfold prog
          have e1 : p ≠ s.file := fun hh => hp (hh.trans hf)
          have e2 : p ≠ f := fun hh => hfent (hh ▸ hpe)
          simp only [e1, e2, if_false]
        rw [this]
      seen := fun p hp => by
        rcases h.seen p hp with h | h | h | h
        · exact Or.inl h
        · exact Or.inr (Or.inl h)
        · by_cases hpf : p = f
          · exact Or.inr (Or.inr (Or.inr ⟨rfl, hpf⟩))
          · exact Or.inr (Or.inr (Or.inl ((hmem p hpf).2 h)))
        · rw [hpc] at h; cases h.1
      fnew := fun p hp => h.fnew p (h2.mem_iff.2 (List.mem_cons_of_mem _ hp))
      dent := h.dent
      curFile := fun _ => ⟨hfG, hfnew, (List.nodup_cons.1 (h2.nodup_iff.1 h.fok.nodup)).1⟩
      curDir := fun hh => absurd hh id
      curNone := fun hh => absurd rfl hh
      fserv := fun p hp => h.fserv p (h3 ▸ hp)
      dserv := h.dserv
      fok := h1, dok := h.dok
      buf := fun _ => ⟨h4, hb.2⟩
      errs := fun p hp => by
        have := h.errs p hp
        have hpe := h.core.legal.post_entered .err (by simp) p hp
        refine ⟨this.1, fun hh => ?_⟩
        have hh : p = f := hh
        exact hfent (hh ▸ hpe)
      errs' := fun p hp hbr => by
        rcases h.errs' p hp hbr with h | h | h
        · exact Or.inl h
        · exact Or.inr (Or.inl h)
        · rw [hpc] at h; exact absurd h.2 id }

/-- The current file is referenced. -/
theorem Live.cur_alive (h : Live e G s) (hf : s.file ∈ G) : s.refs s.file > 0 := by
  rw [h.core.refs _ hf]
  unfold plus
  rw [if_pos ⟨rfl, inb_ne (h.core.ginb _ hf)⟩]; omega

/-- A directory is opened. -/
theorem Live.open_ (hN : e.Named) (h : Live e G s) (hpc : s.pc = .dir) (b : Bool) : Live e G { (if b then s.buildPath e none else s) with pc := .read 0 } := by
  have hd := h.curDir (by rw [hpc]; trivial)
  have hG := h.core.ent hd.1
  have hne := inb_ne (h.core.ginb _ hG)
  have key : ∀ s' : State, Core e G (plus (base s) s.file) true s' → s'.trace = s.trace → s'.file = s.file → s'.fileq = s.fileq → s'.dirq = s.dirq → Live e G { s' with pc := .read 0 } := by
    intro s' hc ht hf h1 h2
    rcases s' with ⟨r, fq, dq, fl, pv, pa, pcc, tr, bd⟩
    simp only at ht hf h1 h2
    subst ht; subst hf; subst h1; subst h2
    exact
      { core := { hc with }
        going := by simp
        rprev := fun i hh => by cases hh
        groot := fun i => by rw [h.groot i, hpc]; exact Iff.rfl
        gent := fun j p hp => by
          rw [h.gent j p hp]
          unfold prog
          rw [hpc]; rfl
        seen := fun p hp => by
          rcases h.seen p hp with h | h | h | h
          · exact Or.inl h
          · exact Or.inr (Or.inl h)
          · exact Or.inr (Or.inr (Or.inl h))
          · rw [hpc] at h; cases h.1
        fnew := h.fnew, dent := h.dent
        curFile := fun hh => by cases hh
        curDir := fun _ => hd
        curNone := fun _ hh => absurd trivial hh
        fserv := h.fserv, dserv := h.dserv, fok := h.fok, dok := h.dok
        buf := fun hh => absurd trivial hh
        errs := h.errs
        errs' := fun p hp hbr => by
          rcases h.errs' p hp hbr with h | h | h
          · exact Or.inl h
          · exact Or.inr (Or.inl h)
          · exact Or.inr (Or.inr ⟨h.1, trivial⟩) }
  cases b
  · exact key s h.core rfl rfl rfl rfl
  · rw [if_pos rfl, buildPath_spec (name := none) rfl hne (h.core.chain hN hG) (Or.inr hne) h.core.path]
    exact key _ (h.core.setPath (Or.inr (h.cur_alive hG)) (List.suffix_refl _)) rfl rfl rfl rfl

/-- The current file is done with. -/
theorem Live.after (h : Live e G s) {s' : State} (hfG : s.file ∈ G) (hc : Core e G (base s') true s') (hf : s'.file = []) (hpc' : s'.pc = .top)
    (f1 : s'.fileq.content.Perm s.fileq.content) (f2 : s'.fileq.service = s.fileq.service) (f3 : s'.fileq.Ok) (f4 : s'.fileq.buffer = [])
    (d2 : s'.dirq.service = s.dirq.service) (d3 : s'.dirq.Ok) (d4 : s'.dirq.buffer = [])
    (hent : ∀ p, p ∈ entered s'.trace ↔ p ∈ entered s.trace ∨ (p = s.file ∧ p ∈ s'.dirq.content))
    (hpre : ∀ p, p ≠ s.file → (p ∈ visits .pre s'.trace ↔ p ∈ visits .pre s.trace))
    (hpref : s.file ∈ visits .pre s'.trace ∨ e.skipped s.file = true)
    (hcase : (s.pc = .file ∧ visits .err s'.trace = visits .err s.trace ∧ (s'.dirq.content.Perm s.dirq.content ∨ s'.dirq.content.Perm (s.file :: s.dirq.content))) ∨
      (∃ k, s.pc = .read k ∧ ¬ k < e.entries s.file ∧ s'.dirq.content.Perm s.dirq.content ∧
        (∀ p, p ≠ s.file → (p ∈ visits .err s'.trace ↔ p ∈ visits .err s.trace)) ∧ (e.broken s.file = true → s.file ∈ visits .err s'.trace))) : Live e G s' := by
  have hne := inb_ne (h.core.ginb _ hfG)
  have hdm : ∀ p, p ≠ s.file → (p ∈ s'.dirq.content ↔ p ∈ s.dirq.content) := by
    intro p hp
    rcases hcase with ⟨_, _, h1 | h1⟩ | ⟨_, _, _, h1, _⟩
    · exact h1.mem_iff
    · rw [h1.mem_iff, List.mem_cons]
      exact ⟨fun hh => hh.resolve_left hp, Or.inr⟩
    · exact h1.mem_iff
  have hroots : rootsDone e s'.pc = rootsDone e s.pc := by
    rw [hpc']
    rcases hcase with ⟨h1, _⟩ | ⟨_, h1, _⟩ <;> rw [h1] <;> rfl
  have hfq : s.file ∉ s.fileq.content := by
    rcases hcase with ⟨h1, _⟩ | ⟨_, h1, _⟩
    · exact (h.curFile h1).2.2
    · intro hh
      exact h.fnew _ hh (entered_sub _ _ (h.curDir (by rw [h1]; trivial)).1)
  have hprog : ∀ p, p ≠ [] → prog e s' p = if p ∈ s'.dirq.content then 0 else e.entries p := by
    intro p hp
    unfold prog
    have : p ≠ s'.file := fun hh => hp (hh.trans hf)
    rw [if_neg this]
  exact
    { core := by rw [hf, plus_nil]; exact hc
      going := by rw [hpc']; simp
      rprev := fun i hh => by rw [hpc'] at hh; cases hh
      groot := fun i => by rw [hroots]; exact h.groot i
      gent := fun j p hp => by
        rw [hprog p hp]
        by_cases hpf : p = s.file
        · subst hpf
          rcases hcase with ⟨h1, _⟩ | ⟨k, h1, h2, h3, _⟩
          · have hn : s.file ∉ entered s.trace := fun hh => (h.curFile h1).2.1 (entered_sub _ _ hh)
            rw [h.gent j _ hp, hent]
            constructor
            · intro hh; exact absurd hh.1 hn
            · rintro ⟨h4 | h4, h5⟩
              · exact absurd h4 hn
              · rw [if_pos h4.2] at h5; cases h5
          · have hd := h.curDir (by rw [h1]; trivial)
            have hd' : s.file ∉ s'.dirq.content := fun hh => hd.2 (h3.mem_iff.1 hh)
            rw [if_neg hd']
            constructor
            · intro hh
              have := h.core.ginb _ hh
              refine ⟨(hent _).2 (Or.inl hd.1), ?_⟩
              revert this hne
              cases s.file with
              | nil => intro h1; exact absurd rfl h1
              | cons i q => intro _ hh; exact hh
            · rintro ⟨_, hh⟩
              rw [h.gent j _ hp]
              refine ⟨hd.1, ?_⟩
              unfold prog
              rw [if_neg hd.2, if_pos rfl, h1]
              show j < k; omega
        · rw [h.gent j p hp, hent]
          have e1 : prog e s p = if p ∈ s'.dirq.content then 0 else e.entries p := by
            unfold prog
            rw [if_neg hpf]
            simp only [hdm p hpf]
          rw [e1]
          exact ⟨fun hh => ⟨Or.inl hh.1, hh.2⟩, fun hh => ⟨hh.1.elim id fun hh => absurd hh.1 hpf, hh.2⟩⟩
      seen := fun p hp => by
        by_cases hpf : p = s.file
        · subst hpf
          exact hpref.imp id Or.inl
        · rcases h.seen p hp with h | h | h | h
          · exact Or.inl ((hpre p hpf).2 h)
          · exact Or.inr (Or.inl h)
          · exact Or.inr (Or.inr (Or.inl (f1.mem_iff.2 h)))
          · exact absurd h.2 hpf
      fnew := fun p hp => by
        have hp := f1.mem_iff.1 hp
        have hpf : p ≠ s.file := fun hh => hfq (hh ▸ hp)
        rw [hpre p hpf]; exact h.fnew p hp
      dent := fun p hp => by
        rw [hent]
        by_cases hpf : p = s.file
        · exact Or.inr ⟨hpf, hp⟩
        · exact Or.inl (h.dent p ((hdm p hpf).1 hp))
      curFile := fun hh => by rw [hpc'] at hh; cases hh
      curDir := fun hh => by rw [hpc'] at hh; cases hh
      curNone := fun _ _ => hf
      fserv := fun p hp => h.fserv p (f2 ▸ hp)
      dserv := fun p hp => (hent p).2 (Or.inl (h.dserv p (d2 ▸ hp)))
      fok := f3
      dok := d3
      buf := fun _ => ⟨f4, d4⟩
      errs := fun p hp => by
        have hpne : p ≠ [] := by
          rintro rfl
          exact inb_ne (h.core.ginb [] (by
            obtain ⟨ev, _, _⟩ := hc.legal.visit_mem hp
            exact hc.ent (hc.legal.post_entered .err (by simp) _ hp))) rfl
        refine ⟨?_, fun hh => hpne (hh.trans hf)⟩
        rcases hcase with ⟨h1, h2, _⟩ | ⟨k, h1, _, h3, h4, _⟩
        · rw [h2] at hp
          have := h.errs p hp
          rw [hdm p this.2]; exact this.1
        · rw [h3.mem_iff]
          by_cases hpf : p = s.file
          · rw [hpf]; exact (h.curDir (by rw [h1]; trivial)).2
          · exact (h.errs p ((h4 p hpf).1 hp)).1
      errs' := fun p hp hbr => by
        by_cases hpf : p = s.file
        · subst hpf
          rcases hcase with ⟨h1, _⟩ | ⟨k, _, _, _, _, h5⟩
          · rcases (hent _).1 hp with hp | hp
            · exact absurd (entered_sub _ _ hp) (h.curFile h1).2.1
            · exact Or.inr (Or.inl hp.2)
          · exact Or.inl (h5 hbr)
        · have hp := ((hent p).1 hp).resolve_right (fun hh => hpf hh.1)
          rcases h.errs' p hp hbr with h6 | h6 | h6
          · left
            rcases hcase with ⟨_, h2, _⟩ | ⟨_, _, _, _, h4, _⟩
            · rw [h2]; exact h6
            · exact (h4 p hpf).2 h6
          · exact Or.inr (Or.inl ((hdm p hpf).2 h6))
          · exact absurd h6.1 hpf }

theorem visits_posts {evs tr : List Event} (h : ∀ ev ∈ evs, ev.visit = .post) {v : Visit} (hv : v ≠ .post) : visits v (evs ++ tr) = visits v tr := by
  induction evs with
  | nil => rfl
  | cons ev evs ih =>
    rw [List.cons_append, visits_cons, h ev List.mem_cons_self, if_neg (fun hh => hv hh.symm)]
    exact ih fun x hx => h x (List.mem_cons_of_mem _ hx)

theorem entered_posts {evs tr : List Event} (h : ∀ ev ∈ evs, ev.visit = .post) : entered (evs ++ tr) = entered tr := by
  induction evs with
  | nil => rfl
  | cons ev evs ih =>
    rw [List.cons_append, entered_cons, h ev List.mem_cons_self, if_neg (by simp)]
    exact ih fun x hx => h x (List.mem_cons_of_mem _ hx)

theorem flush_core {hold : Pos → Nat} {live : Bool} (h : Core e G hold live s) {pc : Pc} : Core e G hold live { s.flush e with pc := pc } := { h with }

theorem dead_of {hold : Pos → Nat} {live : Bool} (h : Core e G hold live s) (h1 : s.fileq.Ok) (h2 : s.dirq.Ok) : Dead e { s with pc := .stopped } :=
  ⟨rfl, h.legal, h.bad, h1, h2⟩

/-- A directory is closed. -/
theorem Live.close (hN : e.Named) (h : Live e G s) {k : Nat} (hpc : s.pc = .read k) (hk : ¬ k < e.entries s.file) :
    Dead e (State.goFlush e (s.gc e (e.broken s.file) true true)) ∨ Live e G (State.goFlush e (s.gc e (e.broken s.file) true true)) := by
  obtain ⟨hen, hdq⟩ := h.curDir (by rw [hpc]; trivial)
  have hG := h.core.ent hen
  have hne := inb_ne (h.core.ginb _ hG)
  have hal := h.cur_alive hG
  have hsk : e.skipped s.file = false := by
    obtain ⟨_, _, _, _, h1, _⟩ := h.core.legal.visit_mem (entered_sub _ _ hen)
    exact h1
  -- what happens after the error was reported
  have key : ∀ s1 : State, Core e G (plus (base s) s.file) true s1 → s1.file = s.file → s1.fileq = s.fileq → s1.dirq = s.dirq →
      entered s1.trace = entered s.trace → visits .pre s1.trace = visits .pre s.trace →
      (∀ p, p ≠ s.file → (p ∈ visits .err s1.trace ↔ p ∈ visits .err s.trace)) → (e.broken s.file = true → s.file ∈ visits .err s1.trace) →
      Dead e (State.goFlush e (State.gcLoop e s.file s1 true true)) ∨ Live e G (State.goFlush e (State.gcLoop e s.file s1 true true)) := by
    intro s1 hc hf1 hfq1 hdq1 hen1 hpre1 herr1 herr2
    obtain ⟨r1, r2, r3, r4, evs, r5, r6⟩ := gcLoop_spec (e := e) (G := G) hN s.file s1 (base s) true true true (fun _ => hG) hc (fun _ => rfl) (fun hh => by cases hh)
      (fun _ => Or.inl ⟨fun _ => by rw [hen1]; exact hen, fun _ => rfl⟩)
    generalize State.gcLoop e s.file s1 true true = x at r1 r2 r3 r4 r5
    obtain ⟨s2, stop⟩ := x
    dsimp only at r1 r2 r3 r4 r5
    cases stop
    · right
      show Live e G { s2.flush e with pc := .top }
      have ho1 : s2.fileq.Ok := by rw [r3, hfq1]; exact h.fok
      have ho2 : s2.dirq.Ok := by rw [r4, hdq1]; exact h.dok
      obtain ⟨q1, q2, q3, q4, q5, q6, q7, q8⟩ := flush_spec e ho1 ho2
      rw [r3, hfq1] at q3 q5
      rw [r4, hdq1] at q4 q6
      have hb : base { s2.flush e with pc := .top } = base s := base_congr q3 q4
      have htr : entered s2.trace = entered s.trace := by rw [r5, entered_posts r6, hen1]
      have hpr : visits .pre s2.trace = visits .pre s.trace := by rw [r5, visits_posts r6 (by simp), hpre1]
      have her : visits .err s2.trace = visits .err s1.trace := by rw [r5, visits_posts r6 (by simp)]
      refine h.after (s' := { s2.flush e with pc := .top }) hG (by rw [hb]; exact flush_core r1) r2 rfl q3 q5 q1 q7 q6 q2 q8 ?_ ?_ ?_ (Or.inr ⟨k, hpc, hk, q4, ?_, ?_⟩)
      · intro p
        show p ∈ entered s2.trace ↔ _
        rw [htr]
        refine ⟨Or.inl, fun hh => hh.elim id fun hh => ?_⟩
        exact absurd (q4.mem_iff.1 hh.2) (hh.1 ▸ hdq)
      · intro p _
        show p ∈ visits .pre s2.trace ↔ _
        rw [hpr]
      · left
        show _ ∈ visits .pre s2.trace
        rw [hpr]; exact entered_sub _ _ hen
      · intro p hp
        show p ∈ visits .err s2.trace ↔ _
        rw [her]; exact herr1 p hp
      · intro hb
        show _ ∈ visits .err s2.trace
        rw [her]; exact herr2 hb
    · left
      exact ⟨rfl, r1.legal, r1.bad, by show s2.fileq.Ok; rw [r3, hfq1]; exact h.fok, by show s2.dirq.Ok; rw [r4, hdq1]; exact h.dok⟩
  cases hb : e.broken s.file
  · have hx : s.gc e false true true = State.gcLoop e s.file s true true := rfl
    rw [hx]
    exact key s h.core rfl rfl rfl rfl rfl (fun _ _ => Iff.rfl) (fun hh => by rw [hb] at hh; cases hh)
  · have hcb := callBack_spec (s := s) (e := e) (name := none) (v := .err) hne (h.core.chain hN hG) (Or.inr hne) h.core.path
    rw [if_neg (by simp), if_neg (by show ¬ e.skipped s.file = true; rw [hsk]; simp)] at hcb
    dsimp only [target] at hcb
    have hnerr : s.file ∉ visits .err s.trace := fun hh => (h.errs _ hh).2 rfl
    have hok : EvOk e s.trace ⟨.err, s.file, e.fullPath s.file, e.adjust .err s.file (e.callback s.trace .err s.file (e.fullPath s.file))⟩ :=
      { running := h.core.run rfl, path := rfl, action := rfl, inb := h.core.ginb _ hG, parent := h.core.gparent _ hG
        fresh := hnerr
        dir := fun _ => hen
        done := fun q hq hs => by
          have h1 := h.core.alive_up hs (inb_ne (h.core.ginb q (h.core.ent (h.core.legal.post_entered .post (by simp) q hq)))) hal
          have := h.core.posted q hq
          omega
        mount := hsk
        post := fun hh => by cases hh
        broken := fun _ => hb }
    have hsp := h.core.setPath (t := s.file) (Or.inr hal) (List.suffix_refl _)
    have hx : s.gc e true true true = 
        if e.adjust .err s.file (e.callback s.trace .err s.file (e.fullPath s.file)) = .stop
        then ((State.gcLoop e s.file (s.callBack e none .err).1 false false).1, true) else State.gcLoop e s.file (s.callBack e none .err).1 true true := by
      unfold State.gc State.errVisit
      rw [if_pos rfl, hcb]
    rw [hx, hcb]
    dsimp only
    by_cases ha : e.adjust .err s.file (e.callback s.trace .err s.file (e.fullPath s.file)) = .stop
    · rw [if_pos ha]
      left
      have hc : Core e G (plus (base s) s.file) false { s with path := e.fullPath s.file, prev := s.file, trace := ⟨.err, s.file, e.fullPath s.file, e.adjust .err s.file (e.callback s.trace .err s.file (e.fullPath s.file))⟩ :: s.trace } :=
        { hsp with
          gparent := fun p hp => (hsp.gparent p hp).imp id mem_entered_cons
          gvis := fun p hp => by
            have hp : p ∈ visits .pre (_ :: _) := hp
            rw [visits_cons, if_neg (by simp)] at hp; exact h.core.gvis p hp
          legal := ⟨hok, h.core.legal⟩
          run := fun hh => by cases hh
          posted := fun p hp => by
            have hp : p ∈ visits .post (_ :: _) := hp
            rw [visits_cons, if_neg (by simp)] at hp; exact h.core.posted p hp
          posts := fun hh => by cases hh }
      obtain ⟨r1, r2, r3, r4, _⟩ := gcLoop_spec (e := e) (G := G) hN s.file _ (base s) false false false (fun _ => hG) hc (fun hh => by cases hh) (fun _ => ⟨rfl, rfl⟩) (fun hh => by cases hh)
      exact dead_of r1 (r3.symm ▸ h.fok) (r4.symm ▸ h.dok)
    · rw [if_neg ha]
      have hc := hsp.event hok hG (fun hh => by cases hh) (fun hv => by cases hv)
      rw [show ((Event.mk .err s.file (e.fullPath s.file) (e.adjust .err s.file (e.callback s.trace .err s.file (e.fullPath s.file)))).action != .stop) = true by simpa using ha] at hc
      refine key _ hc rfl rfl rfl ?_ ?_ ?_ ?_
      · show entered (_ :: _) = _
        rw [entered_cons, if_neg (by simp)]
      · show visits .pre (_ :: _) = _
        rw [visits_cons, if_neg (by simp)]
      · intro p hp
        show p ∈ visits .err (_ :: _) ↔ _
        rw [visits_cons, if_pos rfl, List.mem_cons]
        exact ⟨fun hh => hh.resolve_left hp, Or.inr⟩
      · intro _
        show _ ∈ visits .err (_ :: _)
        rw [visits_cons, if_pos rfl]; exact List.mem_cons_self

/-- A file from the queue is visited. -/
theorem Live.visit (hN : e.Named) (h : Live e G s) (hpc : s.pc = .file) :
    Dead e (State.goFlush e (s.visitFile e)) ∨ Live e G (State.goFlush e (s.visitFile e)) := by
  obtain ⟨hG, hnew, hnq⟩ := h.curFile hpc
  have hne := inb_ne (h.core.ginb _ hG)
  have hal := h.cur_alive hG
  have hnen : s.file ∉ entered s.trace := fun hh => hnew (entered_sub _ _ hh)
  have hndq : s.file ∉ s.dirq.content := fun hh => hnen (h.dent _ hh)
  have hsp := h.core.setPath (t := s.file) (Or.inr hal) (List.suffix_refl _)
  have hcb := callBack_spec (s := s) (e := e) (name := none) (v := .pre) hne (h.core.chain hN hG) (Or.inr hne) h.core.path
  rw [if_neg (by simp)] at hcb
  -- it is not a directory to go into
  have key : ∀ s1 : State, Core e G (plus (base s) s.file) true s1 → s1.file = s.file → s1.fileq = s.fileq → s1.dirq = s.dirq →
      entered s1.trace = entered s.trace → (∀ p, p ≠ s.file → (p ∈ visits .pre s1.trace ↔ p ∈ visits .pre s.trace)) →
      visits .err s1.trace = visits .err s.trace → (s.file ∈ visits .pre s1.trace ∨ e.skipped s.file = true) →
      Dead e (State.goFlush e (State.gcLoop e s.file s1 false true)) ∨ Live e G (State.goFlush e (State.gcLoop e s.file s1 false true)) := by
    intro s1 hc hf1 hfq1 hdq1 hen1 hpre1 herr1 hpre2
    obtain ⟨r1, r2, r3, r4, evs, r5, r6⟩ := gcLoop_spec (e := e) (G := G) hN s.file s1 (base s) true false true (fun _ => hG) hc (fun _ => rfl) (fun hh => by cases hh)
      (fun _ => Or.inl ⟨fun hh => (by cases hh), fun hh => absurd (hen1 ▸ hh) hnen⟩)
    generalize State.gcLoop e s.file s1 false true = x at r1 r2 r3 r4 r5
    obtain ⟨s2, stop⟩ := x
    dsimp only at r1 r2 r3 r4 r5
    have ho1 : s2.fileq.Ok := by rw [r3, hfq1]; exact h.fok
    have ho2 : s2.dirq.Ok := by rw [r4, hdq1]; exact h.dok
    cases stop
    · right
      show Live e G { s2.flush e with pc := .top }
      obtain ⟨q1, q2, q3, q4, q5, q6, q7, q8⟩ := flush_spec e ho1 ho2
      rw [r3, hfq1] at q3 q5
      rw [r4, hdq1] at q4 q6
      have hb : base { s2.flush e with pc := .top } = base s := base_congr q3 q4
      have htr : entered s2.trace = entered s.trace := by rw [r5, entered_posts r6, hen1]
      have hpr : visits .pre s2.trace = visits .pre s1.trace := by rw [r5, visits_posts r6 (by simp)]
      have her : visits .err s2.trace = visits .err s.trace := by rw [r5, visits_posts r6 (by simp), herr1]
      refine h.after (s' := { s2.flush e with pc := .top }) hG (by rw [hb]; exact flush_core r1) r2 rfl q3 q5 q1 q7 q6 q2 q8 ?_ ?_ ?_ (Or.inl ⟨hpc, her, Or.inl q4⟩)
      · intro p
        show p ∈ entered s2.trace ↔ _
        rw [htr]
        refine ⟨Or.inl, fun hh => hh.elim id fun hh => ?_⟩
        exact absurd (q4.mem_iff.1 hh.2) (hh.1 ▸ hndq)
      · intro p hp
        show p ∈ visits .pre s2.trace ↔ _
        rw [hpr]; exact hpre1 p hp
      · show _ ∈ visits .pre s2.trace ∨ _
        rw [hpr]; exact hpre2
    · left
      exact dead_of r1 ho1 ho2
  by_cases hsk : e.skipped (target s.file none) = true
  · rw [if_pos hsk] at hcb
    have hx : s.visitFile e = State.gcLoop e s.file { s with path := e.fullPath s.file, prev := s.file } false true := by
      unfold State.visitFile
      rw [hcb]; rfl
    rw [hx]
    exact key _ hsp rfl rfl rfl rfl (fun _ _ => Iff.rfl) rfl (Or.inr hsk)
  · rw [if_neg hsk] at hcb
    have hsk : e.skipped s.file = false := by simpa [target] using hsk
    dsimp only [target] at hcb
    generalize ha : e.adjust .pre s.file (e.callback s.trace .pre s.file (e.fullPath s.file)) = a at hcb
    have hok : EvOk e s.trace ⟨.pre, s.file, e.fullPath s.file, a⟩ :=
      { running := h.core.run rfl, path := rfl, action := ha.symm, inb := h.core.ginb _ hG, parent := h.core.gparent _ hG
        fresh := hnew
        dir := fun hh => absurd rfl hh
        done := fun q hq hs => by
          have h1 := h.core.alive_up hs (inb_ne (h.core.ginb q (h.core.ent (h.core.legal.post_entered .post (by simp) q hq)))) hal
          have := h.core.posted q hq
          omega
        mount := hsk
        post := fun hh => by cases hh
        broken := fun hh => by cases hh }
    have hc := hsp.event hok hG (fun hh => by cases hh) (fun _ _ => hal)
    have hpre : ∀ p, p ∈ visits .pre (⟨.pre, s.file, e.fullPath s.file, a⟩ :: s.trace) ↔ p = s.file ∨ p ∈ visits .pre s.trace := by
      intro p
      rw [visits_cons, if_pos rfl, List.mem_cons]
    have herr : visits .err (⟨.pre, s.file, e.fullPath s.file, a⟩ :: s.trace) = visits .err s.trace := by
      rw [visits_cons, if_neg (by simp)]
    cases a with
    | stop =>
      left
      have hx : s.visitFile e = ((State.gcLoop e s.file { s with path := e.fullPath s.file, prev := s.file, trace := ⟨.pre, s.file, e.fullPath s.file, .stop⟩ :: s.trace } false false).1, true) := by
        unfold State.visitFile
        rw [hcb]; rfl
      rw [hx]
      obtain ⟨r1, r2, r3, r4, _⟩ := gcLoop_spec (e := e) (G := G) hN s.file _ (base s) false false false (fun _ => hG) hc (fun hh => by cases hh) (fun _ => ⟨rfl, rfl⟩) (fun hh => by cases hh)
      exact dead_of r1 (r3.symm ▸ h.fok) (r4.symm ▸ h.dok)
    | prune =>
      have hx : s.visitFile e = State.gcLoop e s.file { s with path := e.fullPath s.file, prev := s.file, trace := ⟨.pre, s.file, e.fullPath s.file, .prune⟩ :: s.trace } false true := by
        unfold State.visitFile
        rw [hcb]; rfl
      rw [hx]
      refine key _ hc rfl rfl rfl ?_ ?_ herr (Or.inl ((hpre _).2 (Or.inl rfl)))
      · show entered (_ :: _) = _
        rw [entered_cons, if_neg (by simp)]
      · intro p hp
        exact (hpre p).trans ⟨fun hh => hh.resolve_left hp, Or.inr⟩
    | cont =>
      right
      have hdir : e.isDir s.file = true := (adjust_cont ha).1
      have hx : s.visitFile e = ({ s with path := e.fullPath s.file, prev := s.file, trace := ⟨.pre, s.file, e.fullPath s.file, .cont⟩ :: s.trace, file := [], dirq := s.dirq.push s.file }, false) := by
        unfold State.visitFile
        rw [hcb]
        dsimp only
        rw [need_true _ (p := e.isDir s.file) hdir]
      rw [hx]
      generalize hs2 : ({ s with path := e.fullPath s.file, prev := s.file, trace := ⟨.pre, s.file, e.fullPath s.file, .cont⟩ :: s.trace, file := [], dirq := s.dirq.push s.file } : State) = s2
      show Live e G { s2.flush e with pc := .top }
      have hfq2 : s2.fileq = s.fileq := by rw [← hs2]
      have hdq2 : s2.dirq = s.dirq.push s.file := by rw [← hs2]
      have htr2 : s2.trace = ⟨.pre, s.file, e.fullPath s.file, .cont⟩ :: s.trace := by rw [← hs2]
      have hf2 : s2.file = [] := by rw [← hs2]
      have hc2 : Core e G (plus (base s) s.file) true s2 := by rw [← hs2]; exact { hc with }
      have hpc := Queue.push_content s.dirq s.file
      have ho1 : s2.fileq.Ok := by rw [hfq2]; exact h.fok
      have ho2 : s2.dirq.Ok := by
        rw [hdq2]
        exact Queue.push_ok h.dok hndq (fun hh => hnen (h.dserv _ hh))
      obtain ⟨q1, q2, q3, q4, q5, q6, q7, q8⟩ := flush_spec e ho1 ho2
      rw [hfq2] at q3 q5
      rw [hdq2, Queue.push_service] at q6
      rw [hdq2] at q4
      have q4 := q4.trans hpc
      have hb : plus (base s) s.file = base { s2.flush e with pc := .top } := by
        funext p
        unfold plus base
        have e1 : State.fileq { s2.flush e with pc := .top } = (s2.flush e).fileq := rfl
        have e2 : State.dirq { s2.flush e with pc := .top } = (s2.flush e).dirq := rfl
        rw [e1, e2, q3.count_eq, q4.count_eq, List.count_cons]
        by_cases hp : p = s.file
        · simp [hp, hne]; omega
        · have : ¬ s.file = p := fun hh => hp hh.symm
          simp [hp, this]
      have hfin : s.file ∈ (s2.flush e).dirq.content := q4.mem_iff.2 List.mem_cons_self
      refine h.after (s' := { s2.flush e with pc := .top }) hG (Core.reHold (flush_core hc2) hb) hf2 rfl q3 q5 q1 q7 q6 q2 q8 ?_ ?_ ?_ (Or.inl ⟨by assumption, ?_, Or.inr q4⟩)
      · intro p
        show p ∈ entered s2.trace ↔ _
        rw [htr2, entered_cons, if_pos ⟨rfl, rfl⟩, List.mem_cons]
        constructor
        · rintro (hh | hh)
          · exact Or.inr ⟨hh, hh ▸ hfin⟩
          · exact Or.inl hh
        · rintro (hh | hh)
          · exact Or.inr hh
          · exact Or.inl hh.1
      · intro p hp
        show p ∈ visits .pre s2.trace ↔ _
        rw [htr2]
        exact (hpre p).trans ⟨fun hh => hh.resolve_left hp, Or.inr⟩
      · left
        show _ ∈ visits .pre s2.trace
        rw [htr2]
        exact (hpre _).2 (Or.inl rfl)
      · show visits .err s2.trace = _
        rw [htr2]; exact herr

/-! ## All steps -/

theorem init_live (e : Env) : Live e [] (State.init e) := by
  have c1 : ∀ a b c, (Queue.init a b c).content = [] := Queue.content_init
  have hb : base (State.init e) = fun _ => 0 := by
    funext p; unfold base State.init; dsimp only; rw [c1, c1]; rfl
  exact
    { core :=
        { gnodup := List.nodup_nil
          ginb := fun p hp => by cases hp
          gparent := fun p hp => by cases hp
          gvis := fun p hp => by cases hp
          refs := fun p hp => by cases hp
          refs0 := fun p _ => rfl
          hold0 := fun p _ => by rw [hb]; unfold plus State.init; simp
          legal := trivial
          run := fun _ x hx => by cases hx
          posted := fun p hp => by cases hp
          posts := fun _ _ p hp => by cases hp
          prev := Or.inl rfl
          path := List.nil_prefix
          bad := rfl }
      going := by unfold State.init; simp
      rprev := fun _ _ => rfl
      groot := fun i => by
        show [i] ∈ [] ↔ i < 0
        simp
      gent := fun j p _ => by
        show j :: p ∈ [] ↔ p ∈ [] ∧ _
        simp
      seen := fun p hp => by cases hp
      fnew := fun p hp => by
        have hp : p ∈ Queue.content (Queue.init _ _ _) := hp
        rw [c1] at hp; cases hp
      dent := fun p hp => by
        have hp : p ∈ Queue.content (Queue.init _ _ _) := hp
        rw [c1] at hp; cases hp
      curFile := fun hh => by cases hh
      curDir := fun hh => by cases hh
      curNone := fun _ _ => rfl
      fserv := fun p hp => by cases hp
      dserv := fun p hp => by cases hp
      fok := Queue.init_ok _ _ _
      dok := Queue.init_ok _ _ _
      buf := fun hh => absurd trivial hh
      errs := fun p hp => by cases hp
      errs' := fun p hp => by cases hp }

theorem Inv.fok (h : Inv e s) : s.fileq.Ok := h.elim Dead.fok fun ⟨_, h⟩ => h.fok
theorem Inv.dok (h : Inv e s) : s.dirq.Ok := h.elim Dead.dok fun ⟨_, h⟩ => h.dok
theorem Inv.bad (h : Inv e s) : s.bad = false := h.elim Dead.bad fun ⟨_, h⟩ => h.core.bad
theorem Inv.legal (h : Inv e s) : Legal e s.trace := h.elim Dead.legal fun ⟨_, h⟩ => h.core.legal

theorem Inv.live (h : Inv e s) (hpc : s.pc ≠ .stopped) : ∃ G, Live e G s := h.resolve_left fun hh => hpc hh.stopped

theorem Inv.queues (h : Inv e s) {q1 q2 : Queue} (h1 : q1.Ok) (h2 : q2.Ok) (p1 : q1.content.Perm s.fileq.content) (p2 : q2.content.Perm s.dirq.content)
    (s1 : ∀ f ∈ q1.service, f ∈ s.fileq.service ∨ f ∈ s.fileq.content) (s2 : ∀ f ∈ q2.service, f ∈ s.dirq.service ∨ f ∈ s.dirq.content)
    (b1 : s.fileq.buffer = [] → q1.buffer = []) (b2 : s.dirq.buffer = [] → q2.buffer = []) : Inv e { s with fileq := q1, dirq := q2 } := by
  rcases h with h | ⟨G, h⟩
  · exact Or.inl ⟨h.stopped, h.legal, h.bad, h1, h2⟩
  · exact Or.inr ⟨G, h.queues h1 h2 p1 p2 s1 s2 b1 b2⟩

theorem Inv.step (hN : e.Named) (h : Inv e s) {s' : State} (hs : Step e s s') : Inv e s' := by
  cases hs with
  | stat f _ hf =>
    obtain ⟨k1, k2, k3⟩ := Queue.next_facts h.fok hf
    obtain ⟨q1, q2, q3, q4⟩ := Queue.detach_spec h.fok hf
    rw [need_true _ k3]
    exact h.queues q1 h.dok q2 (List.Perm.refl _) (fun g hg => by
      rw [q3] at hg
      rcases List.mem_append.1 hg with hg | hg
      · exact Or.inl hg
      · rw [List.mem_singleton.1 hg]; exact Or.inr k1) (fun _ => Or.inl) q4 id
  | skip f hf =>
    obtain ⟨k1, k2, k3⟩ := Queue.next_facts h.fok hf
    obtain ⟨q1, q2, q3, q4⟩ := Queue.skip_spec h.fok hf
    rw [need_true _ k3]
    exact h.queues q1 h.dok q2 (List.Perm.refl _) (fun g hg => Or.inl (q3 ▸ hg)) (fun _ => Or.inl) q4 id
  | opendir f _ hf =>
    obtain ⟨k1, k2, k3⟩ := Queue.next_facts h.dok hf
    obtain ⟨q1, q2, q3, q4⟩ := Queue.detach_spec h.dok hf
    rw [need_true _ k3]
    exact h.queues h.fok q1 (List.Perm.refl _) q2 (fun _ => Or.inl) (fun g hg => by
      rw [q3] at hg
      rcases List.mem_append.1 hg with hg | hg
      · exact Or.inl hg
      · rw [List.mem_singleton.1 hg]; exact Or.inr k1) id q4
  | statDone f hf =>
    obtain ⟨q1, q2, q3, q4⟩ := Queue.attach_spec h.fok hf
    exact h.queues q1 h.dok q2 (List.Perm.refl _) (fun g hg => Or.inl (List.mem_of_mem_erase (q3 ▸ hg))) (fun _ => Or.inl) (fun hb => q4.trans hb) id
  | opendirDone f hf =>
    obtain ⟨q1, q2, q3, q4⟩ := Queue.attach_spec h.dok hf
    exact h.queues h.fok q1 (List.Perm.refl _) q2 (fun _ => Or.inl) (fun g hg => Or.inl (List.mem_of_mem_erase (q3 ▸ hg))) id (fun hb => q4.trans hb)
  | root i b hpc hi _ =>
    obtain ⟨G, h⟩ := h.live (by rw [hpc]; simp)
    exact (h.visitName hN b (Or.inl ⟨hpc, hi, rfl⟩)).imp id fun h => ⟨_, h⟩
  | rooted i hpc hi =>
    obtain ⟨G, h⟩ := h.live (by rw [hpc]; simp)
    exact Or.inr ⟨G, h.flush (h.curNone (by rw [hpc]; simp) (by rw [hpc]; exact id)) (Or.inl ⟨i, hpc, hi⟩)⟩
  | choose hpc =>
    obtain ⟨G, h⟩ := h.live (by rw [hpc]; simp)
    have hf := h.curNone (by rw [hpc]; simp) (by rw [hpc]; exact id)
    rw [need_true _ (by simpa using hf)]
    refine Or.inr ⟨G, ?_⟩
    split
    · exact h.setPc hf (by rw [hpc]; rfl) id (by simp) (by rw [hpc]; simp) (by rw [hpc]; exact id) (by simp) (by rw [hpc]; exact id) (by simp)
    · exact h.setPc hf (by rw [hpc]; rfl) id (by simp) (by rw [hpc]; simp) (by rw [hpc]; exact id) (by simp) (by rw [hpc]; exact id) (by simp)
  | noDir hpc _ =>
    obtain ⟨G, h⟩ := h.live (by rw [hpc]; simp)
    have hf := h.curNone (by rw [hpc]; simp) (by rw [hpc]; exact id)
    exact Or.inr ⟨G, h.setPc hf (by rw [hpc]; rfl) id (by simp) (by rw [hpc]; simp) (by rw [hpc]; exact id) (by simp) (by rw [hpc]; exact id) (by simp)⟩
  | popDir hpc hn hc =>
    obtain ⟨G, h⟩ := h.live (by rw [hpc]; simp)
    have hb := (h.buf (by rw [hpc]; exact id)).2
    obtain ⟨f, q, hp⟩ := Queue.pop_some h.dok hb hn hc
    rw [need_true _ (by rw [hb]; rfl), hp]
    exact Or.inr ⟨G, h.popDir hpc hp⟩
  | open_ path hpc _ =>
    obtain ⟨G, h⟩ := h.live (by rw [hpc]; simp)
    exact Or.inr ⟨G, h.open_ hN hpc path⟩
  | entry k b hpc hk _ =>
    obtain ⟨G, h⟩ := h.live (by rw [hpc]; simp)
    exact (h.visitName hN b (Or.inr ⟨hpc, hk, rfl⟩)).imp id fun h => ⟨_, h⟩
  | close k hpc hk =>
    obtain ⟨G, h⟩ := h.live (by rw [hpc]; simp)
    exact (h.close hN hpc hk).imp id fun h => ⟨_, h⟩
  | noFile hpc _ =>
    obtain ⟨G, h⟩ := h.live (by rw [hpc]; simp)
    have hf := h.curNone (by rw [hpc]; simp) (by rw [hpc]; exact id)
    exact Or.inr ⟨G, h.setPc hf (by rw [hpc]; rfl) id (by simp) (by rw [hpc]; simp) (by rw [hpc]; exact id) (by simp) (by rw [hpc]; exact id) (by simp)⟩
  | popFile hpc hn hc =>
    obtain ⟨G, h⟩ := h.live (by rw [hpc]; simp)
    have hb := (h.buf (by rw [hpc]; exact id)).1
    obtain ⟨f, q, hp⟩ := Queue.pop_some h.fok hb hn hc
    rw [need_true _ (by rw [hb]; rfl), hp]
    exact Or.inr ⟨G, h.popFile hpc hp⟩
  | visit hpc _ =>
    obtain ⟨G, h⟩ := h.live (by rw [hpc]; simp)
    exact (h.visit hN hpc).imp id fun h => ⟨_, h⟩

theorem inv_reach (hN : e.Named) (h : Reach e s) : Inv e s := by
  induction h with
  | init => exact Or.inr ⟨[], init_live e⟩
  | step _ hs ih => exact ih.step hN hs
  | fail _ _ hs ih =>
    obtain ⟨G, h⟩ := ih.live hs
    exact Or.inl h.dead

end Verif.Bftw
