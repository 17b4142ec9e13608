import Verif.Model.Main

/-! # `-mount` makes `-xdev` redundant (C96) -/
namespace Verif.Bftw

/-- The same without `-xdev`. -/
def Env.noXdev (e : Env) : Env := { e with pruneMounts := false }

variable {e : Env}

theorem noXdev_nameoff : ∀ p, e.noXdev.nameoff p = e.nameoff p
  | [] => rfl
  | [_] => rfl
  | _ :: j :: p => by
    unfold Env.nameoff
    rw [noXdev_nameoff (j :: p)]
    rfl

theorem noXdev_writeUp : ∀ (a b : Pos) (c : Bytes), e.noXdev.writeUp a b c = e.writeUp a b c := by
  have hn : e.noXdev.name = e.name := rfl
  intro a
  induction a with
  | nil => intro b c; rfl
  | cons i a ih =>
    intro b c
    unfold Env.writeUp
    simp only [ih, noXdev_nameoff, hn]

theorem noXdev_build (s : State) (name : Option Nat) : s.buildPath e.noXdev name = s.buildPath e name := by
  have hn : e.noXdev.name = e.name := rfl
  have hj : e.noXdev.junk = e.junk := rfl
  unfold State.buildPath
  simp only [noXdev_writeUp, noXdev_nameoff, hn, hj]

theorem noXdev_call (h : e.skipMounts = true) (s : State) (name : Option Nat) (v : Visit) : s.callBack e.noXdev name v = s.callBack e name v := by
  unfold State.callBack
  dsimp only
  rw [noXdev_build]
  have h1 : e.noXdev.post = e.post := rfl
  have h2 : e.noXdev.skipMounts = e.skipMounts := rfl
  have h3 : e.noXdev.isMount = e.isMount := rfl
  have h4 : e.noXdev.callback = e.callback := rfl
  rw [h1, h2, h3, h4]
  by_cases hp : (v = .post && !e.post) = true
  · rw [if_pos hp, if_pos hp]
  · rw [if_neg hp, if_neg hp]
    by_cases hm : (e.skipMounts && e.isMount (target s.file name)) = true
    · rw [if_pos hm, if_pos hm]
    · rw [if_neg hm, if_neg hm]
      have hm' : e.isMount (target s.file name) = false := by simpa [h] using hm
      have ha : ∀ a, e.noXdev.adjust v (target s.file name) a = e.adjust v (target s.file name) a := by
        intro a
        cases a with
        | cont => unfold Env.adjust; simp only [h3, hm', Bool.and_false]; rfl
        | prune => rfl
        | stop => rfl
      rw [ha]

theorem noXdev_gcLoop (h : e.skipMounts = true) : ∀ (p : Pos) (s : State) (a b : Bool), State.gcLoop e.noXdev p s a b = State.gcLoop e p s a b := by
  intro p
  induction p with
  | nil => intro s a b; rfl
  | cons i p ih =>
    intro s a b
    have hv : ∀ (s : State) (b : Bool), s.postVisit e.noXdev b = s.postVisit e b := by
      intro s b
      unfold State.postVisit
      rw [noXdev_call h]
    unfold State.gcLoop
    simp only [hv, ih]

theorem noXdev_gc (h : e.skipMounts = true) (s : State) (a b c : Bool) : s.gc e.noXdev a b c = s.gc e a b c := by
  unfold State.gc State.errVisit
  simp only [noXdev_call h, noXdev_gcLoop h]

theorem noXdev_visitName (h : e.skipMounts = true) (s : State) (j : Nat) (b : Bool) : s.visitName e.noXdev j b = s.visitName e j b := by
  unfold State.visitName
  simp only [noXdev_call h]
  rfl

theorem noXdev_visitFile (h : e.skipMounts = true) (s : State) : s.visitFile e.noXdev = s.visitFile e := by
  unfold State.visitFile
  simp only [noXdev_call h, noXdev_gc h]
  rfl

theorem noXdev_goFlush (x : State × Bool) : State.goFlush e.noXdev x = State.goFlush e x := rfl

theorem noXdev_step (h : e.skipMounts = true) (s s' : State) : Step e.noXdev s s' ↔ Step e s s' := by
  constructor
  · intro hs
    cases hs with
    | stat f h1 h2 => exact .stat f h1 h2
    | skip f h1 => exact .skip f h1
    | opendir f h1 h2 => exact .opendir f h1 h2
    | statDone f h1 => exact .statDone f h1
    | opendirDone f h1 => exact .opendirDone f h1
    | root i b h1 h2 h3 => rw [noXdev_visitName h]; exact .root i b h1 h2 h3
    | rooted i h1 h2 => exact .rooted i h1 h2
    | choose h1 => exact .choose h1
    | noDir h1 h2 => exact .noDir h1 h2
    | popDir h1 h2 h3 => exact .popDir h1 h2 h3
    | open_ p h1 h2 => rw [noXdev_build]; exact .open_ p h1 h2
    | entry k b h1 h2 h3 => rw [noXdev_visitName h]; exact .entry k b h1 h2 h3
    | close k h1 h2 => rw [noXdev_gc h, noXdev_goFlush]; exact .close k h1 h2
    | noFile h1 h2 => exact .noFile h1 h2
    | popFile h1 h2 h3 => exact .popFile h1 h2 h3
    | visit h1 h2 => rw [noXdev_visitFile h, noXdev_goFlush]; exact .visit h1 h2
  · intro hs
    cases hs with
    | stat f h1 h2 => exact .stat f h1 h2
    | skip f h1 => exact .skip f h1
    | opendir f h1 h2 => exact .opendir f h1 h2
    | statDone f h1 => exact .statDone f h1
    | opendirDone f h1 => exact .opendirDone f h1
    | root i b h1 h2 h3 => rw [← noXdev_visitName h]; exact .root i b h1 h2 h3
    | rooted i h1 h2 => exact .rooted i h1 h2
    | choose h1 => exact .choose h1
    | noDir h1 h2 => exact .noDir h1 h2
    | popDir h1 h2 h3 => exact .popDir h1 h2 h3
    | open_ p h1 h2 => rw [← noXdev_build]; exact .open_ p h1 h2
    | entry k b h1 h2 h3 => rw [← noXdev_visitName h]; exact .entry k b h1 h2 h3
    | close k h1 h2 => rw [← noXdev_gc h, ← noXdev_goFlush]; exact .close k h1 h2
    | noFile h1 h2 => exact .noFile h1 h2
    | popFile h1 h2 h3 => exact .popFile h1 h2 h3
    | visit h1 h2 => rw [← noXdev_visitFile h, ← noXdev_goFlush]; exact .visit h1 h2

theorem noXdev_reach (h : e.skipMounts = true) (s : State) : Reach e.noXdev s ↔ Reach e s := by
  constructor
  · intro hr
    induction hr with
    | init => exact .init
    | step _ hs ih => exact .step ih ((noXdev_step h _ _).1 hs)
    | fail _ h1 h2 ih => exact .fail ih h1 h2
  · intro hr
    induction hr with
    | init => exact .init
    | step _ hs ih => exact .step ih ((noXdev_step h _ _).2 hs)
    | fail _ h1 h2 ih => exact .fail ih h1 h2

theorem noXdev_idsCall : Ids.call e.noXdev = Ids.call e := rfl

theorem noXdev_after (st : Ids) : ∀ tr, Ids.after e.noXdev st tr = Ids.after e st tr
  | [] => rfl
  | ev :: tr => by
    unfold Ids.after
    rw [noXdev_after st tr, noXdev_idsCall]

theorem noXdev_idsEnv (st : Ids) (buf : Bytes) (junk : Nat → Nat → UInt8) (post : Bool) : Ids.env e.noXdev st buf junk post = (Ids.env e st buf junk post).noXdev := by
  unfold Ids.env Env.noXdev
  have : ∀ tr, Ids.after { e with pruneMounts := false } st tr = Ids.after e st tr := noXdev_after st
  simp only [this]
  rfl

theorem noXdev_idsReach (h : e.skipMounts = true) (st : Ids) (buf : Bytes) (junk : Nat → Nat → UInt8) (post : Bool) (s : State) :
    Reach (Ids.env e.noXdev st buf junk post) s ↔ Reach (Ids.env e st buf junk post) s := by
  rw [noXdev_idsEnv]
  exact noXdev_reach (e := Ids.env e st buf junk post) h s

theorem noXdev_pass (h : e.skipMounts = true) (post : Bool) (st : Ids) (buf : Bytes) (st' : Ids) (buf' : Bytes) :
    Pass e.noXdev post st buf st' buf' ↔ Pass e post st buf st' buf' := by
  unfold Pass
  simp only [noXdev_idsReach h, noXdev_after]

theorem noXdev_search (h : e.skipMounts = true) {next : Ids → Ids} {st : Ids} {buf : Bytes} : Search e.noXdev next st buf ↔ Search e next st buf := by
  constructor
  · intro hs
    induction hs with
    | init => exact .init
    | pass _ h1 h2 ih => exact .pass ih h1 ((noXdev_pass h _ _ _ _ _).1 h2)
  · intro hs
    induction hs with
    | init => exact .init
    | pass _ h1 h2 ih => exact .pass ih h1 ((noXdev_pass h _ _ _ _ _).2 h2)

theorem noXdev_idsPost (h : e.skipMounts = true) {st : Ids} {buf : Bytes} : IdsPost e.noXdev st buf ↔ IdsPost e st buf := by
  constructor
  · intro hs
    induction hs with
    | init h1 h2 h3 => exact .init ((noXdev_search h).1 h1) h2 h3
    | pass _ h1 h2 ih => exact .pass ih h1 ((noXdev_pass h _ _ _ _ _).1 h2)
  · intro hs
    induction hs with
    | init h1 h2 h3 => exact .init ((noXdev_search h).2 h1) h2 h3
    | pass _ h1 h2 ih => exact .pass ih h1 ((noXdev_pass h _ _ _ _ _).2 h2)

theorem noXdev_edsPost (h : e.skipMounts = true) {st : Ids} : EdsPost e.noXdev st ↔ EdsPost e st := by
  constructor
  · rintro ⟨h1, h2, h3, h4⟩
    exact .pass ((noXdev_search h).1 h1) h2 h3 ((noXdev_pass h _ _ _ _ _).1 h4)
  · rintro ⟨h1, h2, h3, h4⟩
    exact .pass ((noXdev_search h).2 h1) h2 h3 ((noXdev_pass h _ _ _ _ _).2 h4)

theorem noXdev_deepened (h : e.skipMounts = true) {st : Ids} : Deepened e.noXdev st ↔ Deepened e st := by
  constructor
  · intro hd
    cases hd with
    | ids h1 h2 h3 h4 => exact .ids h1 h2 ((noXdev_search h).1 h3) h4
    | eds h1 h2 h3 h4 => exact .eds h1 h2 ((noXdev_search h).1 h3) h4
    | idsPost h1 h2 h3 => exact .idsPost h1 ((noXdev_idsPost h).1 h2) h3
    | edsPost h1 h2 => exact .edsPost h1 ((noXdev_edsPost h).1 h2)
  · intro hd
    cases hd with
    | ids h1 h2 h3 h4 => exact .ids h1 h2 ((noXdev_search h).2 h3) h4
    | eds h1 h2 h3 h4 => exact .eds h1 h2 ((noXdev_search h).2 h3) h4
    | idsPost h1 h2 h3 => exact .idsPost h1 ((noXdev_idsPost h).2 h2) h3
    | edsPost h1 h2 => exact .edsPost h1 ((noXdev_edsPost h).2 h2)

theorem noXdev_midway (h : e.skipMounts = true) {st : Ids} : Midway e.noXdev st ↔ Midway e st := by
  constructor
  · intro hd
    cases hd with
    | ids h1 h2 h3 h4 => rw [noXdev_after]; exact .ids h1 ((noXdev_search h).1 h2) h3 ((noXdev_idsReach h _ _ _ _ _).1 h4)
    | eds h1 h2 h3 h4 => rw [noXdev_after]; exact .eds h1 ((noXdev_search h).1 h2) h3 ((noXdev_idsReach h _ _ _ _ _).1 h4)
    | idsPost h1 h2 h3 h4 => rw [noXdev_after]; exact .idsPost h1 ((noXdev_idsPost h).1 h2) h3 ((noXdev_idsReach h _ _ _ _ _).1 h4)
    | edsPost h1 h2 h3 h4 h5 => rw [noXdev_after]; exact .edsPost h1 ((noXdev_search h).1 h2) h3 h4 ((noXdev_idsReach h _ _ _ _ _).1 h5)
  · intro hd
    cases hd with
    | ids h1 h2 h3 h4 => rw [← noXdev_after]; exact .ids h1 ((noXdev_search h).2 h2) h3 ((noXdev_idsReach h _ _ _ _ _).2 h4)
    | eds h1 h2 h3 h4 => rw [← noXdev_after]; exact .eds h1 ((noXdev_search h).2 h2) h3 ((noXdev_idsReach h _ _ _ _ _).2 h4)
    | idsPost h1 h2 h3 h4 => rw [← noXdev_after]; exact .idsPost h1 ((noXdev_idsPost h).2 h2) h3 ((noXdev_idsReach h _ _ _ _ _).2 h4)
    | edsPost h1 h2 h3 h4 h5 => rw [← noXdev_after]; exact .edsPost h1 ((noXdev_search h).2 h2) h3 h4 ((noXdev_idsReach h _ _ _ _ _).2 h5)

theorem noXdev_walked (h : e.skipMounts = true) {tr : List Event} {complete : Bool} : Main.Walked e.noXdev tr complete ↔ Main.Walked e tr complete := by
  constructor
  · intro hw
    cases hw with
    | walk h1 h2 => exact .walk h1 ((noXdev_reach h _).1 h2)
    | deepened h1 => exact .deepened ((noXdev_deepened h).1 h1)
    | midway h1 => exact .midway ((noXdev_midway h).1 h1)
  · intro hw
    cases hw with
    | walk h1 h2 => exact .walk h1 ((noXdev_reach h _).2 h2)
    | deepened h1 => exact .deepened ((noXdev_deepened h).2 h1)
    | midway h1 => exact .midway ((noXdev_midway h).2 h1)

end Verif.Bftw
