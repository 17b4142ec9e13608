import Verif.Lemmas.OptPasses
import Verif.Spec.Opt
/-!
# The driver loop at levels 0 and 1, and bridges from the specification vocabulary
-/
namespace Verif.Opt
open Verif.Spec.Opt
variable {T W : Type} {sem : Leaf → W → Res W} (E : Env T)

theorem WFs_iff {cs : List (Expr T)} : WFs cs ↔ ∀ c ∈ cs, WF c := by
  induction cs with
  | nil => simp [WFs]
  | cons c cs ih => simp [WFs, ih]

theorem WF_arity : ∀ e : Expr T, WF e → Arity e := by
  intro e
  induction e using Expr.ind with
  | hl a l => intro _; simp [Arity]
  | hn a o cs ih =>
    intro h
    rw [WF, WFs_iff] at h
    rw [Arity, Aritys_iff]
    refine ⟨?_, fun c hc => ih c hc (h.2 c hc)⟩
    have := h.1
    cases o <;> simpa [arityOK, operandsOK] using this

theorem _root_.Verif.Spec.Opt.LeafLaws.semOK (h : LeafLaws sem) : SemOK sem where
  true_ := h.true_
  false_ := h.false_
  at_ := by
    intro l w hl hq
    unfold atLeaf at hl
    split at hl
    · simp [h.true_]
    · exact h.returns _ w hq
    · rw [h.noReturn] at hq; simp at hq
    · simp at hl
  af := by
    intro l w hl hq
    unfold afLeaf at hl
    split at hl
    · simp [h.false_]
    · rw [h.noReturn] at hq; simp at hq
    · simp at hl

theorem _root_.Verif.Spec.Opt.PureTests.pureSem {level : Nat} (h : PureTests level sem) : PureSem level sem := by
  intro l hl
  apply h l
  · intro k i hk; subst hk; simp [pureLeaf] at hl
  · by_cases h4 : 4 ≤ level
    · exact .inl h4
    · refine .inr ⟨?_, ?_⟩
      · intro hk; subst hk; simp [pureLeaf, h4] at hl
      · intro m hk; subst hk; simp [pureLeaf, h4] at hl

theorem logged_laws (h : LeafLaws sem) : LeafLaws (logged sem) where
  true_ := by intro w; simp [logged, logs, h.true_]
  false_ := by intro w; simp [logged, logs, h.false_]
  returns := by intro i w; simpa [logged] using h.returns i w.1
  noReturn := by intro i w; simpa [logged] using h.noReturn i w.1

/-- What an optimized tree has to satisfy with respect to the tree it came from. -/
structure Step (E : Env T) (sem : Leaf → W → Res W) (ign : Bool) (e e' : Expr T) (w : W) : Prop where
  v : V sem ign e' w
  eqv : Eqv ign (eval sem e w) (eval sem e' w)

theorem Step.trans {ign : Bool} {e e' e'' : Expr T} {w : W} (h : Step E sem ign e e' w)
    (h' : Step E sem ign e' e'' w) : Step E sem ign e e'' w :=
  ⟨h'.v, h.eqv.trans h'.eqv⟩

theorem canon_step (hs : SemOK sem) {ign : Bool} {e : Expr T} {w : W} (hg : Good E.level e) (hv : V sem ign e w) :
    Step E sem ign e (canonicalize E ign e) w :=
  ⟨(canonicalize_sound E hs ign e w hg hv).1, (canonicalize_sound E hs ign e w hg hv).2⟩

theorem simp_step (hs : SemOK sem) (hp : 2 ≤ E.level → PureSem E.level sem) {ign : Bool} {e : Expr T} {w : W}
    (hg : Good E.level e) (hv : V sem ign e w) :
    Step E sem ign e (simplify E ign e) w :=
  ⟨(simplify_sound E hs hp ign e w hg hv).1, (simplify_sound E hs hp ign e w hg hv).2⟩

theorem round_low (hl : E.level ≤ 1) (hs : SemOK sem) (i : Nat) (ign : Bool) (b m : Dom) (e : Expr T) (a : After) (w : W)
    (hg : Good E.level e) (hv : V sem ign e w) :
    Good E.level (optRound E i ign b m e a).e ∧ Step E sem ign e (optRound E i ign b m e a).e w := by
  have h2 : ¬ 2 ≤ E.level := by omega
  have h3 : ¬ 3 ≤ E.level := by omega
  unfold optRound
  simp only [h2, h3, decide_false, Bool.false_and, Bool.false_eq_true, if_false]
  by_cases h1 : 1 ≤ E.level
  · simp only [h1, if_true]
    have s1 := canon_step E hs hg hv
    have g1 := canonicalize_good E ign e hg
    exact ⟨simplify_good E ign _ g1, s1.trans E (simp_step E hs (fun h => absurd h h2) g1 s1.v)⟩
  · simp only [h1, if_false]
    exact ⟨hg, hv, Eqv.refl _⟩

theorem loop_low (hl : E.level ≤ 1) (hs : SemOK sem) (ign : Bool) (b m : Dom) (w : W) :
    ∀ (n i : Nat) (r : Flow T), Good E.level r.e → V sem ign r.e w →
      Step E sem ign r.e (optLoop E ign b m n i r).e w := by
  intro n
  induction n with
  | zero => intro i r hg hv; exact ⟨hv, Eqv.refl _⟩
  | succ n ih =>
    intro i r hg hv
    obtain ⟨g1, s1⟩ := round_low E hl hs i ign b m r.e r.a w hg hv
    rw [optLoop]
    split
    · exact s1.trans E (ih _ _ g1 s1.v)
    · exact s1

theorem optimize_low (hl : E.level ≤ 1) (hs : SemOK sem) (ign : Bool) (b m : Dom) (e : Expr T) (h : WF e) (w : W) :
    Eqv ign (eval sem e w) (eval sem (optimize E ign b m e).e w) := by
  unfold optimize
  have := loop_low E hl hs ign b m w 3 0 ⟨annotate E e, ⟨dfTop, dfTop⟩, m⟩
    (annotate_good E e (WF_arity e h)) (annotate_V E hs e ign w (WF_arity e h))
  have h2 := this.eqv
  rwa [eval_annotate] at h2

end Verif.Opt
