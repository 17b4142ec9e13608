import Verif.Lemmas.BftwInv

/-!
# A walk only depends on the answers that the callback gives during it
-/
namespace Verif.Bftw

/-- The other callback gives the same answers to the same calls. -/
def Agrees (e : Env) (cb : List Event → Visit → Pos → Bytes → Action) (tr : List Event) : Prop :=
  ∀ later ev earlier, tr = later ++ ev :: earlier →
    cb earlier ev.visit ev.pos ev.path = e.callback earlier ev.visit ev.pos ev.path

variable {e : Env} {cb : List Event → Visit → Pos → Bytes → Action}

theorem Agrees.suffix {l tr : List Event} (h : Agrees e cb (l ++ tr)) : Agrees e cb tr := by
  intro l' ev r ht
  exact h (l ++ l') ev r (by rw [ht, List.append_assoc])

theorem Agrees.of_suffix {tr tr' : List Event} (h : Agrees e cb tr') (hs : tr <:+ tr') : Agrees e cb tr := by
  obtain ⟨l, rfl⟩ := hs
  exact h.suffix

/-- The walk with the other callback. -/
abbrev Env.with (e : Env) (cb : List Event → Visit → Pos → Bytes → Action) : Env := { e with callback := cb }

theorem nameoff_with (p : Pos) : (e.with cb).nameoff p = e.nameoff p := by
  induction p with
  | nil => rfl
  | cons i p ih =>
    cases p with
    | nil => rfl
    | cons j p => show childOff _ _ = childOff _ _; rw [ih]

theorem writeUp_with (p anc : Pos) (buf : Bytes) : (e.with cb).writeUp p anc buf = e.writeUp p anc buf := by
  induction p generalizing anc buf with
  | nil => rfl
  | cons i p ih =>
    unfold Env.writeUp
    rw [nameoff_with]
    split
    · rfl
    · exact ih _ _

theorem buildPath_with (s : State) (name : Option Nat) : s.buildPath (e.with cb) name = s.buildPath e name := by
  unfold State.buildPath
  simp only [nameoff_with, writeUp_with]

theorem buildPath_trace (s : State) (name : Option Nat) : (s.buildPath e name).trace = s.trace := rfl

theorem callBack_trace (s : State) (name : Option Nat) (v : Visit) : s.trace <:+ (s.callBack e name v).1.trace := by
  unfold State.callBack
  dsimp only
  split
  · exact List.suffix_refl _
  · split
    · exact List.suffix_refl _
    · exact List.suffix_cons _ _

theorem callBack_with (s : State) (name : Option Nat) (v : Visit) (h : Agrees e cb (s.callBack e name v).1.trace) :
    s.callBack (e.with cb) name v = s.callBack e name v := by
  unfold State.callBack at h ⊢
  rw [buildPath_with]
  dsimp only at h ⊢
  by_cases h1 : (decide (v = Visit.post) && !e.post) = true
  · rw [if_pos h1, if_pos h1]
  · rw [if_neg h1] at h ⊢
    rw [if_neg h1]
    have hm : (e.with cb).isMount = e.isMount := rfl
    rw [hm]
    by_cases h2 : (e.skipMounts && e.isMount (target s.file name)) = true
    · rw [if_pos h2, if_pos h2]
    · rw [if_neg h2] at h ⊢
      rw [if_neg h2]
      have := h [] _ _ rfl
      dsimp only at this
      have ha : (e.with cb).adjust = e.adjust := rfl
      rw [ha, this]

theorem gcLoop_trace (p : Pos) (s : State) (v q : Bool) : s.trace <:+ (State.gcLoop e p s v q).1.trace := by
  induction p generalizing s v q with
  | nil => exact List.suffix_refl _
  | cons i p ih =>
    unfold State.gcLoop
    dsimp only
    split
    · exact List.suffix_refl _
    · have hv : ∀ (s : State) (v : Bool), s.trace <:+ (s.postVisit e v).1.trace := by
        intro s v
        unfold State.postVisit
        split
        · exact callBack_trace _ _ _
        · exact List.suffix_refl _
      have hv' := hv { s.need (decide (s.refs (i :: p) > 0)) with refs := upd s.refs (i :: p) (s.refs (i :: p) - 1), file := i :: p } v
      split
      · refine List.IsSuffix.trans ?_ (ih _ _ _)
        exact hv'
      · refine List.IsSuffix.trans ?_ (ih _ _ _)
        exact hv'

theorem postVisit_with (s : State) (v : Bool) (h : Agrees e cb (s.postVisit e v).1.trace) :
    s.postVisit (e.with cb) v = s.postVisit e v := by
  unfold State.postVisit at h ⊢
  cases v with
  | false => rfl
  | true =>
    rw [if_pos rfl] at h
    rw [if_pos rfl, if_pos rfl]
    exact callBack_with _ _ _ h

theorem errVisit_with (s : State) (v : Bool) (h : Agrees e cb (s.errVisit e v).1.trace) :
    s.errVisit (e.with cb) v = s.errVisit e v := by
  unfold State.errVisit at h ⊢
  cases v with
  | false => rfl
  | true =>
    rw [if_pos rfl] at h
    rw [if_pos rfl, if_pos rfl]
    exact callBack_with _ _ _ h

theorem gcLoop_with (p : Pos) (s : State) (v q : Bool) (h : Agrees e cb (State.gcLoop e p s v q).1.trace) :
    State.gcLoop (e.with cb) p s v q = State.gcLoop e p s v q := by
  induction p generalizing s v q with
  | nil => rfl
  | cons i p ih =>
    unfold State.gcLoop at h ⊢
    dsimp only at h ⊢
    split
    · rfl
    · rename_i hr
      rw [if_neg hr] at h
      have hp := postVisit_with (e := e) (cb := cb)
        { s.need (decide (s.refs (i :: p) > 0)) with refs := upd s.refs (i :: p) (s.refs (i :: p) - 1), file := i :: p } v ?_
      · rw [hp]
        split
        · rename_i ha
          rw [if_pos ha] at h
          rw [ih _ _ _ h]
        · rename_i ha
          rw [if_neg ha] at h
          exact ih _ _ _ h
      · split at h
        all_goals
          have h' := Agrees.of_suffix h (gcLoop_trace p _ _ _)
          exact h'

theorem gc_trace (s : State) (a b c : Bool) : s.trace <:+ (s.gc e a b c).1.trace := by
  have hv : s.trace <:+ (s.errVisit e a).1.trace := by
    unfold State.errVisit
    split
    · exact callBack_trace _ _ _
    · exact List.suffix_refl _
  unfold State.gc
  dsimp only
  split
  · exact hv.trans (gcLoop_trace _ _ _ _)
  · exact hv.trans (gcLoop_trace _ _ _ _)

theorem gc_with (s : State) (a b c : Bool) (h : Agrees e cb (s.gc e a b c).1.trace) :
    s.gc (e.with cb) a b c = s.gc e a b c := by
  unfold State.gc at h ⊢
  dsimp only at h ⊢
  have hp := errVisit_with (e := e) (cb := cb) s a ?_
  · rw [hp]
    split
    · rename_i ha
      rw [if_pos ha] at h
      rw [gcLoop_with _ _ _ _ h]
    · rename_i ha
      rw [if_neg ha] at h
      exact gcLoop_with _ _ _ _ h
  · split at h
    · exact h.of_suffix (gcLoop_trace _ _ _ _)
    · exact h.of_suffix (gcLoop_trace _ _ _ _)

theorem visitName_with (s : State) (j : Nat) (b : Bool) (h : Agrees e cb (s.visitName e j b).1.trace) :
    s.visitName (e.with cb) j b = s.visitName e j b := by
  unfold State.visitName at h ⊢
  dsimp only at h ⊢
  cases b with
  | true => rfl
  | false =>
    rw [if_neg (by simp)] at h
    rw [if_neg (by simp), if_neg (by simp)]
    have hp := callBack_with (e := e) (cb := cb) s (some j) .pre (by split at h <;> exact h)
    rw [hp]

theorem visitName_trace (s : State) (j : Nat) (b : Bool) : s.trace <:+ (s.visitName e j b).1.trace := by
  unfold State.visitName
  dsimp only
  split
  · exact List.suffix_refl _
  · have := callBack_trace (e := e) s (some j) .pre
    split <;> exact this

theorem visitFile_trace (s : State) : s.trace <:+ (s.visitFile e).1.trace := by
  have := callBack_trace (e := e) s none .pre
  unfold State.visitFile
  dsimp only
  split
  · exact this
  · exact this.trans (gc_trace _ _ _ _)
  · exact this.trans (gc_trace _ _ _ _)

theorem visitFile_with (s : State) (h : Agrees e cb (s.visitFile e).1.trace) :
    s.visitFile (e.with cb) = s.visitFile e := by
  unfold State.visitFile at h ⊢
  dsimp only at h ⊢
  have hp := callBack_with (e := e) (cb := cb) s none .pre (by
    split at h
    · exact h
    · exact h.of_suffix (gc_trace _ _ _ _)
    · exact h.of_suffix (gc_trace _ _ _ _))
  rw [hp]
  split
  · rfl
  · rename_i ha
    rw [ha] at h
    exact gc_with _ _ _ _ h
  · rename_i ha
    rw [ha] at h
    rw [gc_with _ _ _ _ h]

theorem step_trace {s s' : State} (h : Step e s s') : s.trace <:+ s'.trace := by
  cases h with
  | root i b h1 h2 h3 => exact visitName_trace _ _ _
  | entry i b h1 h2 h3 => exact visitName_trace _ _ _
  | popDir h1 h2 h3 => split <;> exact List.suffix_refl _
  | popFile h1 h2 h3 => split <;> exact List.suffix_refl _
  | open_ path h1 h2 => cases path <;> exact List.suffix_refl _
  | close k h1 h2 =>
    unfold State.goFlush
    split <;> exact gc_trace _ _ _ _
  | visit h1 h2 =>
    unfold State.goFlush
    split <;> exact visitFile_trace _
  | _ => exact List.suffix_refl _

theorem goFlush_trace (x : State × Bool) : (State.goFlush e x).trace = x.1.trace := by
  unfold State.goFlush
  split <;> rfl

theorem step_with {s s' : State} (h : Step e s s') (ha : Agrees e cb s'.trace) : Step (e.with cb) s s' := by
  cases h with
  | stat f h1 h2 => exact Step.stat (e := e.with cb) f h1 h2
  | skip f h1 => exact Step.skip (e := e.with cb) f h1
  | opendir f h1 h2 => exact Step.opendir (e := e.with cb) f h1 h2
  | statDone f h1 => exact Step.statDone (e := e.with cb) f h1
  | opendirDone f h1 => exact Step.opendirDone (e := e.with cb) f h1
  | root i b h1 h2 h3 =>
    have hv := visitName_with (e := e) (cb := cb) s i b ha
    rw [← hv]
    exact Step.root (e := e.with cb) i b h1 h2 h3
  | rooted i h1 h2 => exact Step.rooted (e := e.with cb) i h1 h2
  | choose h1 => exact Step.choose (e := e.with cb) h1
  | noDir h1 h2 => exact Step.noDir (e := e.with cb) h1 h2
  | popDir h1 h2 h3 => exact Step.popDir (e := e.with cb) h1 h2 h3
  | open_ path h1 h2 =>
    have hb := buildPath_with (e := e) (cb := cb) s none
    rw [← hb]
    exact Step.open_ (e := e.with cb) path h1 h2
  | entry k b h1 h2 h3 =>
    have hv := visitName_with (e := e) (cb := cb) s k b ha
    rw [← hv]
    exact Step.entry (e := e.with cb) k b h1 h2 h3
  | close k h1 h2 =>
    rw [goFlush_trace] at ha
    have hv := gc_with (e := e) (cb := cb) s _ _ _ ha
    rw [← hv]
    exact Step.close (e := e.with cb) k h1 h2
  | noFile h1 h2 => exact Step.noFile (e := e.with cb) h1 h2
  | popFile h1 h2 h3 => exact Step.popFile (e := e.with cb) h1 h2 h3
  | visit h1 h2 =>
    rw [goFlush_trace] at ha
    have hv := visitFile_with (e := e) (cb := cb) s ha
    rw [← hv]
    exact Step.visit (e := e.with cb) h1 h2

/-- A walk is also a walk with any other callback that would have given the same answers. -/
theorem reach_with {s : State} (h : Reach e s) (ha : Agrees e cb s.trace) : Reach (e.with cb) s := by
  induction h with
  | init => exact Reach.init (e := e.with cb)
  | step _ hst ih => exact Reach.step (ih (ha.of_suffix (step_trace hst))) (step_with hst ha)
  | fail _ h1 h2 ih => exact Reach.fail (ih ha) h1 h2

end Verif.Bftw
