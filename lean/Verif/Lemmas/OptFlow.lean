import Verif.Lemmas.OptDom
/-!
# Soundness of the data flow visitor
-/
namespace Verif.Opt
open Verif.Spec.Opt
variable {T W : Type} (E : Env T) {sem : Leaf → W → Res W}

theorem NoCommas_iff {cs : List (Expr T)} : NoCommas cs ↔ ∀ c ∈ cs, NoComma c := by
  induction cs with
  | nil => simp [NoCommas]
  | cons c cs ih => simp [NoCommas, ih]

theorem NoComma_node {a : Ann T} {o : Op} {cs : List (Expr T)} :
    NoComma (.node a o cs) ↔ o ≠ .comma ∧ ∀ c ∈ cs, NoComma c := by rw [NoComma, NoCommas_iff]

theorem AllLeavesL_iff {P : Leaf → Prop} {cs : List (Expr T)} : AllLeavesL P cs ↔ ∀ c ∈ cs, AllLeaves P c := by
  induction cs with
  | nil => simp [AllLeavesL]
  | cons c cs ih => simp [AllLeavesL, ih]

theorem AllLeaves_node {P : Leaf → Prop} {a : Ann T} {o : Op} {cs : List (Expr T)} :
    AllLeaves P (.node a o cs) ↔ ∀ c ∈ cs, AllLeaves P c := by rw [AllLeaves, AllLeavesL_iff]

theorem AllLeaves_leaf {P : Leaf → Prop} {a : Ann T} {l : Leaf} :
    AllLeaves P (.leaf a l : Expr T) ↔ P l := by rw [AllLeaves]

/-- The static side conditions of the data flow theorems. -/
structure Shape (level : Nat) (P : Leaf → Prop) (e : Expr T) : Prop where
  good : Good level e
  nc : NoComma e
  lv : AllLeaves P e

theorem Shape_node {level : Nat} {P : Leaf → Prop} {a : Ann T} {o : Op} {cs : List (Expr T)} :
    Shape level P (.node a o cs) ↔ arityOK o cs ∧ a.pure = cs.all Expr.pure ∧ o ≠ .comma ∧ ∀ c ∈ cs, Shape level P c := by
  constructor
  · intro ⟨h1, h2, h3⟩
    rw [Good_node] at h1; rw [NoComma_node] at h2; rw [AllLeaves_node] at h3
    exact ⟨h1.1, h1.2.1, h2.1, fun c hc => ⟨h1.2.2 c hc, h2.2 c hc, h3 c hc⟩⟩
  · intro ⟨h1, h2, h3, h4⟩
    exact ⟨Good_node.2 ⟨h1, h2, fun c hc => (h4 c hc).good⟩, NoComma_node.2 ⟨h3, fun c hc => (h4 c hc).nc⟩,
      AllLeaves_node.2 fun c hc => (h4 c hc).lv⟩

theorem Shape_leaf {level : Nat} {P : Leaf → Prop} {a : Ann T} {l : Leaf} :
    Shape level P (.leaf a l : Expr T) ↔ a.pure = pureLeaf level l ∧ P l := by
  constructor
  · intro ⟨h1, h2, h3⟩
    exact ⟨Good_leaf.1 h1, AllLeaves_leaf.1 h3⟩
  · intro ⟨h1, h3⟩
    exact ⟨Good_leaf.2 h1, by simp [NoComma], AllLeaves_leaf.2 h3⟩

theorem Shape_constE {P : Leaf → Prop} (h1 : P .true_) (h2 : P .false_) (b : Bool) : Shape E.level P (constE E b) := by
  unfold constE
  rw [Shape_leaf]
  cases b <;> simp [leafAnn, h1, h2]

/-- Changing annotations other than purity. -/
theorem Shape_setAnn {level : Nat} {P : Leaf → Prop} {e : Expr T} {b : Ann T} (hb : b.pure = e.pure)
    (h : Shape level P e) : Shape level P (e.setAnn b) := by
  cases e with
  | leaf a l =>
    simp only [Expr.setAnn, Shape_leaf] at *
    exact ⟨hb.trans h.1, h.2⟩
  | node a o cs =>
    simp only [Expr.setAnn, Shape_node] at *
    exact ⟨h.1, hb.trans h.2.1, h.2.2⟩

@[simp] theorem eval_setAnn (e : Expr T) (b : Ann T) : eval sem (e.setAnn b) = eval sem e := by
  cases e <;> simp [Expr.setAnn]
@[simp] theorem ann_setAnn (e : Expr T) (b : Ann T) : (e.setAnn b).ann = b := by
  cases e <;> simp [Expr.setAnn, Expr.ann]
@[simp] theorem isTrue_setAnn (e : Expr T) (b : Ann T) : (e.setAnn b).isTrue = e.isTrue := by
  cases e with
  | leaf a l => cases l <;> simp [Expr.setAnn, Expr.isTrue]
  | node a o cs => simp [Expr.setAnn, Expr.isTrue]
@[simp] theorem isFalse_setAnn (e : Expr T) (b : Ann T) : (e.setAnn b).isFalse = e.isFalse := by
  cases e with
  | leaf a l => cases l <;> simp [Expr.setAnn, Expr.isFalse]
  | node a o cs => simp [Expr.setAnn, Expr.isFalse]
@[simp] theorem isParent_setAnn (e : Expr T) (b : Ann T) : (e.setAnn b).isParent = e.isParent := by
  cases e <;> simp [Expr.setAnn, Expr.isParent]

theorem V_setAnn {e : Expr T} {b : Ann T} {i : Bool} {w : W} (h : V sem i e w)
    (hb : e.isParent = false ∨ i = false → flagsOK b (eval sem e w)) : V sem i (e.setAnn b) w := by
  cases e with
  | leaf a l => simpa [Expr.setAnn] using hb (Or.inl rfl)
  | node a o cs =>
    rw [V_node] at h
    simp only [Expr.setAnn, V_node]
    exact ⟨fun hi => by simpa using hb (Or.inr hi), h.2⟩

theorem V_own {e : Expr T} {i : Bool} {w : W} (h : V sem i e w) (hb : e.isParent = false ∨ i = false) :
    flagsOK e.ann (eval sem e w) := by
  cases e with
  | leaf a l => simpa [Expr.ann] using h
  | node a o cs =>
    rw [V_node] at h
    simp [Expr.isParent] at hb
    simpa [Expr.ann] using h.1 hb

/-- A change of the cost annotation only. -/
def costE (e : Expr T) (x : T) : Expr T := e.setAnn { e.ann with cost := x }

theorem costE_self (e : Expr T) : costE e e.ann.cost = e := by cases e <;> rfl
theorem costE_costE (e : Expr T) (x y : T) : costE (costE e x) y = costE e y := by cases e <;> rfl
@[simp] theorem pure_costE (e : Expr T) (x : T) : (costE e x).pure = e.pure := by simp [costE, Expr.pure]
@[simp] theorem at_costE (e : Expr T) (x : T) : (costE e x).at_ = e.at_ := by simp [costE, Expr.at_]
@[simp] theorem af_costE (e : Expr T) (x : T) : (costE e x).af = e.af := by simp [costE, Expr.af]
@[simp] theorem eval_costE (e : Expr T) (x : T) : eval sem (costE e x) = eval sem e := by simp [costE]
@[simp] theorem isParent_costE (e : Expr T) (x : T) : (costE e x).isParent = e.isParent := by simp [costE]
@[simp] theorem isTrue_costE (e : Expr T) (x : T) : (costE e x).isTrue = e.isTrue := by simp [costE]
@[simp] theorem isFalse_costE (e : Expr T) (x : T) : (costE e x).isFalse = e.isFalse := by simp [costE]
theorem V_costE {e : Expr T} {i : Bool} {w : W} (x : T) (h : V sem i e w) : V sem i (costE e x) w :=
  V_setAnn h (fun hb => V_own h hb)
theorem Shape_costE {level : Nat} {P : Leaf → Prop} {e : Expr T} (x : T) (h : Shape level P e) :
    Shape level P (costE e x) := Shape_setAnn rfl h

theorem leaveProb_cost (e : Expr T) : ∃ x, leaveProb E e = costE e x := by
  unfold leaveProb
  have key : ∀ (b : Bool) (y : T) (e : Expr T), ∃ x,
      (if b then e.setAnn { e.ann with cost := y } else e) = costE e x := by
    intro b y e
    cases b
    · exact ⟨e.ann.cost, by simp [costE_self]⟩
    · exact ⟨y, by simp [costE]⟩
  dsimp only
  obtain ⟨x, hx⟩ := key e.at_ (E.costs.setProb true e.ann.cost) e
  rw [hx]
  obtain ⟨y, hy⟩ := key (costE e x).af (E.costs.setProb false (costE e x).ann.cost) (costE e x)
  exact ⟨y, by rw [hy, costE_costE]⟩

theorem transferE_cost (before : Dom) (e : Expr T) (a : After) : ∃ x, (transferE E before e a).1 = costE e x := by
  cases e with
  | leaf b l => exact ⟨_, rfl⟩
  | node b o cs => exact ⟨b.cost, rfl⟩

section leave
variable {P : Leaf → Prop} (hP1 : P .true_) (hP2 : P .false_)
include hP1 hP2

theorem leaveTrue_shape {e : Expr T} (a : After) (h : Shape E.level P e) : Shape E.level P (leaveTrue E e a) := by
  unfold leaveTrue
  split
  · split
    · exact Shape_setAnn rfl h
    · split
      · exact Shape_constE E hP1 hP2 _
      · exact h
  · exact h

theorem leaveFalse_shape {e : Expr T} (a : After) (h : Shape E.level P e) : Shape E.level P (leaveFalse E e a) := by
  unfold leaveFalse
  split
  · split
    · exact Shape_setAnn rfl h
    · split
      · exact Shape_constE E hP1 hP2 _
      · exact h
  · exact h

theorem leave_shape {e : Expr T} (a : After) (h : Shape E.level P e) : Shape E.level P (leave E e a).1 := by
  unfold leave
  obtain ⟨x, hx⟩ := leaveProb_cost E e
  dsimp only
  rw [hx]
  exact leaveFalse_shape E hP1 hP2 _ (leaveTrue_shape E hP1 hP2 _ (Shape_costE x h))

theorem flowFinish_shape {e : Expr T} (ign : Bool) (before : Dom) (a : After) (imp : Dom) (h : Shape E.level P e) :
    Shape E.level P (flowFinish E ign before e a imp).e := by
  unfold flowFinish
  dsimp only
  have h1 : Shape E.level P (flowVisit E ign before e) := by
    unfold flowVisit; dsimp only
    split
    · exact Shape_constE E hP1 hP2 _
    · split
      · exact Shape_constE E hP1 hP2 _
      · exact h
  obtain ⟨x, hx⟩ := transferE_cost E before (flowVisit E ign before e) a
  rw [hx]
  exact leave_shape E hP1 hP2 _ (Shape_costE x h1)

end leave

theorem V_constE (hs : SemOK sem) (b i : Bool) (w : W) : V sem i (constE E b) w := by
  unfold constE
  rw [V_leaf]
  cases b
  · simp [flagsOK, leafAnn, atLeaf, afLeaf, hs.false_]
  · simp [flagsOK, leafAnn, atLeaf, afLeaf, hs.true_]

theorem eval_constE' (hs : SemOK sem) (b : Bool) (w : W) : eval sem (constE E b) w = ⟨b, false, w⟩ := by
  unfold constE
  cases b <;> simp [hs.false_, hs.true_]

section sound
variable {o : Owners} {f : File} {u : Nat}

/-- The facts hold after the result, unless evaluation stopped. -/
def After.ok (f : File) (u : Nat) (a : After) (x : Res W) : Prop := x.q = false → Facts f u a x.r

theorem leaveFacts_ok {e : Expr T} {a : After} {x : Res W} (h : a.ok f u x) (hf : flagsOK e.ann x) :
    (leaveFacts e a).ok f u x := by
  intro hq
  have hf := hf hq
  have h := h hq
  refine ⟨fun hr => ?_, fun hr => ?_⟩
  · simp only [leaveFacts]
    split
    · rename_i haf
      have := hf.2 haf
      simp [hr] at this
    · exact h.1 hr
  · simp only [leaveFacts]
    split
    · rename_i hat
      have := hf.1 hat
      simp [hr] at this
    · exact h.2 hr

theorem leaveTrue_sound (hs : SemOK sem) (hp : PureSem E.level sem) {e : Expr T} {a : After} {i : Bool} {w : W}
    (hg : Good E.level e) (hv : V sem i e w) (ha : a.ok f u (eval sem e w)) :
    V sem i (leaveTrue E e a) w ∧ Eqv false (eval sem e w) (eval sem (leaveTrue E e a) w) := by
  unfold leaveTrue
  by_cases hb : dfIsBottom a.f = true
  · have hr : (eval sem e w).q = false → (eval sem e w).r = true := by
      intro hq
      cases hr : (eval sem e w).r
      · exact absurd ((ha hq).2 hr) (InDom.of_bottom hb)
      · rfl
    rw [if_pos hb]
    by_cases hpu : e.pure = true
    · simp only [hpu, Bool.not_true, Bool.false_eq_true, if_false]
      by_cases ht : e.isTrue = true
      · simp only [ht, Bool.not_true, Bool.false_eq_true, if_false]
        exact ⟨hv, Eqv.refl _⟩
      · simp only [Bool.not_eq_true] at ht
        simp only [ht, Bool.not_false, if_true]
        refine ⟨V_constE E hs _ _ _, ?_⟩
        obtain ⟨b, hb'⟩ := pure_eval hp e hg hpu
        rw [hb', eval_constE' E hs]
        rw [hb'] at hr
        have := hr rfl
        simp only at this
        rw [this]
        exact Eqv.refl _
    · simp only [Bool.not_eq_true] at hpu
      simp only [hpu, Bool.not_false, if_true, eval_setAnn]
      refine ⟨V_setAnn hv (fun h => ?_), Eqv.refl _⟩
      have := V_own hv h
      intro hq
      simp only
      have hr := hr hq
      exact ⟨fun _ => hr, fun haf => (this hq).2 haf⟩
  · simp only [Bool.not_eq_true] at hb
    simp only [hb, Bool.false_eq_true, if_false]
    exact ⟨hv, Eqv.refl _⟩

theorem leaveTrue_ign (hs : SemOK sem) (hp : PureSem E.level sem) {e : Expr T} {a : After} {w : W}
    (hg : Good E.level e) (hv : V sem true e w) (hl : e.isParent = true ∨ e.pure = true) :
    V sem true (leaveTrue E e a) w ∧ Eqv true (eval sem e w) (eval sem (leaveTrue E e a) w) ∧
    ((leaveTrue E e a).isParent = true ∨ (leaveTrue E e a).pure = true) := by
  unfold leaveTrue
  by_cases hb : dfIsBottom a.f = true
  · rw [if_pos hb]
    by_cases hpu : e.pure = true
    · simp only [hpu, Bool.not_true, Bool.false_eq_true, if_false]
      by_cases ht : e.isTrue = true
      · simp only [ht, Bool.not_true, Bool.false_eq_true, if_false]
        exact ⟨hv, Eqv.refl _, Or.inr hpu⟩
      · simp only [Bool.not_eq_true] at ht
        simp only [ht, Bool.not_false, if_true]
        refine ⟨V_constE E hs _ _ _, ?_, Or.inr (constE_pure E _)⟩
        obtain ⟨b, hb'⟩ := pure_eval hp e hg hpu
        rw [hb', eval_constE' E hs]
        exact ⟨rfl, rfl, fun h => by simp at h⟩
    · have hpa : e.isParent = true := by simpa [hpu] using hl
      simp only [Bool.not_eq_true] at hpu
      simp only [hpu, Bool.not_false, if_true, eval_setAnn]
      refine ⟨V_setAnn hv (fun h => ?_), Eqv.refl _, Or.inl ?_⟩
      · simp [hpa] at h
      · simp [hpa]
  · simp only [Bool.not_eq_true] at hb
    simp only [hb, Bool.false_eq_true, if_false]
    exact ⟨hv, Eqv.refl _, hl⟩

theorem leaveTrue_good {e : Expr T} {a : After} (h : Good E.level e) : Good E.level (leaveTrue E e a) := by
  unfold leaveTrue
  split
  · split
    · cases e with
      | leaf b l => simpa [Expr.setAnn, Expr.ann, Good_leaf] using h
      | node b o cs => simpa [Expr.setAnn, Expr.ann, Good_node] using h
    · split
      · exact constE_good E _
      · exact h
  · exact h

theorem leaveFalse_sound (hs : SemOK sem) (hp : PureSem E.level sem) {e : Expr T} {a : After} {i : Bool} {w : W}
    (hg : Good E.level e) (hv : V sem i e w) (ha : a.ok f u (eval sem e w)) :
    V sem i (leaveFalse E e a) w ∧ Eqv false (eval sem e w) (eval sem (leaveFalse E e a) w) := by
  unfold leaveFalse
  by_cases hb : dfIsBottom a.t = true
  · have hr : (eval sem e w).q = false → (eval sem e w).r = false := by
      intro hq
      cases hr : (eval sem e w).r
      · rfl
      · exact absurd ((ha hq).1 hr) (InDom.of_bottom hb)
    rw [if_pos hb]
    by_cases hpu : e.pure = true
    · simp only [hpu, Bool.not_true, Bool.false_eq_true, if_false]
      by_cases ht : e.isFalse = true
      · simp only [ht, Bool.not_true, Bool.false_eq_true, if_false]
        exact ⟨hv, Eqv.refl _⟩
      · simp only [Bool.not_eq_true] at ht
        simp only [ht, Bool.not_false, if_true]
        refine ⟨V_constE E hs _ _ _, ?_⟩
        obtain ⟨b, hb'⟩ := pure_eval hp e hg hpu
        rw [hb', eval_constE' E hs]
        rw [hb'] at hr
        have := hr rfl
        simp only at this
        rw [this]
        exact Eqv.refl _
    · simp only [Bool.not_eq_true] at hpu
      simp only [hpu, Bool.not_false, if_true, eval_setAnn]
      refine ⟨V_setAnn hv (fun h => ?_), Eqv.refl _⟩
      have := V_own hv h
      intro hq
      simp only
      have hr := hr hq
      exact ⟨fun hat => (this hq).1 hat, fun _ => hr⟩
  · simp only [Bool.not_eq_true] at hb
    simp only [hb, Bool.false_eq_true, if_false]
    exact ⟨hv, Eqv.refl _⟩

theorem leaveFalse_ign (hs : SemOK sem) (hp : PureSem E.level sem) {e : Expr T} {a : After} {w : W}
    (hg : Good E.level e) (hv : V sem true e w) (hl : e.isParent = true ∨ e.pure = true) :
    V sem true (leaveFalse E e a) w ∧ Eqv true (eval sem e w) (eval sem (leaveFalse E e a) w) ∧
    ((leaveFalse E e a).isParent = true ∨ (leaveFalse E e a).pure = true) := by
  unfold leaveFalse
  by_cases hb : dfIsBottom a.t = true
  · rw [if_pos hb]
    by_cases hpu : e.pure = true
    · simp only [hpu, Bool.not_true, Bool.false_eq_true, if_false]
      by_cases ht : e.isFalse = true
      · simp only [ht, Bool.not_true, Bool.false_eq_true, if_false]
        exact ⟨hv, Eqv.refl _, Or.inr hpu⟩
      · simp only [Bool.not_eq_true] at ht
        simp only [ht, Bool.not_false, if_true]
        refine ⟨V_constE E hs _ _ _, ?_, Or.inr (constE_pure E _)⟩
        obtain ⟨b, hb'⟩ := pure_eval hp e hg hpu
        rw [hb', eval_constE' E hs]
        exact ⟨rfl, rfl, fun h => by simp at h⟩
    · have hpa : e.isParent = true := by simpa [hpu] using hl
      simp only [Bool.not_eq_true] at hpu
      simp only [hpu, Bool.not_false, if_true, eval_setAnn]
      refine ⟨V_setAnn hv (fun h => ?_), Eqv.refl _, Or.inl ?_⟩
      · simp [hpa] at h
      · simp [hpa]
  · simp only [Bool.not_eq_true] at hb
    simp only [hb, Bool.false_eq_true, if_false]
    exact ⟨hv, Eqv.refl _, hl⟩

theorem leaveFalse_good {e : Expr T} {a : After} (h : Good E.level e) : Good E.level (leaveFalse E e a) := by
  unfold leaveFalse
  split
  · split
    · cases e with
      | leaf b l => simpa [Expr.setAnn, Expr.ann, Good_leaf] using h
      | node b o cs => simpa [Expr.setAnn, Expr.ann, Good_node] using h
    · split
      · exact constE_good E _
      · exact h
  · exact h

theorem After.ok.congr {a : After} {x y : Res W} (h : a.ok f u x) (h' : Eqv false x y) : a.ok f u y := by
  intro hq
  rw [← h'.1] at hq
  rw [← h'.2.2 rfl hq]
  exact h hq

theorem Good_costE {e : Expr T} {level : Nat} (x : T) (h : Good level e) : Good level (costE e x) := by
  cases e with
  | leaf b l => simpa [costE, Expr.ann, Expr.setAnn, Good_leaf] using h
  | node b o cs => simpa [costE, Expr.ann, Expr.setAnn, Good_node] using h

/-- `data_flow_leave()` when the facts hold. -/
theorem leave_sound (hs : SemOK sem) (hp : PureSem E.level sem) {e : Expr T} {a : After} {i : Bool} {w : W}
    (hg : Good E.level e) (hv : V sem i e w) (hfl : flagsOK e.ann (eval sem e w)) (ha : a.ok f u (eval sem e w)) :
    V sem i (leave E e a).1 w ∧ Eqv false (eval sem e w) (eval sem (leave E e a).1 w) ∧
      (leave E e a).2.ok f u (eval sem e w) := by
  have h0 := leaveFacts_ok ha hfl
  obtain ⟨x, hx⟩ := leaveProb_cost E e
  unfold leave
  dsimp only
  rw [hx]
  generalize leaveFacts e a = a' at h0
  have g1 := Good_costE x hg
  have v1 := V_costE x hv
  have e1 : eval sem (costE e x) = eval sem e := eval_costE e x
  rw [← e1] at h0 ⊢
  generalize costE e x = e' at *
  obtain ⟨v2, q2⟩ := leaveTrue_sound E hs hp g1 v1 h0
  have g2 := leaveTrue_good E (a := a') g1
  obtain ⟨v3, q3⟩ := leaveFalse_sound E hs hp g2 v2 (h0.congr q2)
  exact ⟨v3, q2.trans q3, h0⟩

/-- `data_flow_leave()` when the result is ignored. -/
theorem leave_ign (hs : SemOK sem) (hp : PureSem E.level sem) {e : Expr T} {a : After} {w : W}
    (hg : Good E.level e) (hv : V sem true e w) (hl : e.isParent = true ∨ e.pure = true) :
    V sem true (leave E e a).1 w ∧ Eqv true (eval sem e w) (eval sem (leave E e a).1 w) := by
  obtain ⟨x, hx⟩ := leaveProb_cost E e
  unfold leave
  dsimp only
  rw [hx]
  generalize leaveFacts e a = a'
  have g1 := Good_costE x hg
  have v1 := V_costE x hv
  have e1 : eval sem (costE e x) = eval sem e := eval_costE e x
  have l1 : (costE e x).isParent = true ∨ (costE e x).pure = true := by simpa using hl
  rw [← e1]
  generalize costE e x = e' at *
  obtain ⟨v2, q2, l2⟩ := leaveTrue_ign E hs hp (a := a') g1 v1 l1
  have g2 := leaveTrue_good E (a := a') g1
  obtain ⟨v3, q3, _⟩ := leaveFalse_ign E hs hp (a := a') g2 v2 l2
  exact ⟨v3, q2.trans q3⟩

/-- `visit`, transfer and `leave` on a node whose children have been visited. -/
theorem finish_node (hs : SemOK sem) (hp : PureSem E.level sem) {b : Ann T} {o : Op} {cs : List (Expr T)} {a : After}
    {ign : Bool} {before imp : Dom} {w : W} (hbef : InDom f u before)
    (hg : Good E.level (.node b o cs)) (hv : V sem ign (.node b o cs) w)
    (ha : ign = false → a.ok f u (eval sem (.node b o cs) w)) :
    V sem ign (flowFinish E ign before (.node b o cs) a imp).e w ∧
    Eqv ign (eval sem (.node b o cs) w) (eval sem (flowFinish E ign before (.node b o cs) a imp).e w) ∧
    (ign = false → (flowFinish E ign before (.node b o cs) a imp).a.ok f u (eval sem (.node b o cs) w)) := by
  unfold flowFinish flowVisit
  dsimp only
  simp only [hbef.not_bottom, Bool.false_eq_true, if_false]
  cases ign with
  | false =>
    simp only [Bool.false_and, Bool.false_eq_true, if_false]
    have : transferE E before (.node b o cs) a = (.node b o cs, a) := rfl
    rw [this]
    obtain ⟨h1, h2, h3⟩ := leave_sound E hs hp hg hv (V_flags hv) (ha rfl)
    exact ⟨h1, h2, fun _ => h3⟩
  | true =>
    simp only [Bool.true_and]
    by_cases hpu : (Expr.node b o cs).pure = true
    · simp only [hpu, if_true]
      obtain ⟨x, hx⟩ := transferE_cost E before (constE E false) a
      rw [hx]
      have := leave_ign E hs hp (a := (transferE E before (constE E false) a).2) (Good_costE x (constE_good E false)) (V_costE x (V_constE E hs false true w))
        (Or.inr (by rw [pure_costE, constE_pure]))
      refine ⟨this.1, ?_, by simp⟩
      refine Eqv.trans ?_ this.2
      obtain ⟨b', hb'⟩ := pure_eval hp _ hg hpu
      rw [hb', eval_costE, eval_constE' E hs]
      exact ⟨rfl, rfl, fun h => by simp at h⟩
    · simp only [hpu, Bool.false_eq_true, if_false]
      have h : transferE E before (.node b o cs) a = (.node b o cs, a) := rfl
      rw [h]
      have := leave_ign E hs hp (a := a) hg hv (Or.inl rfl)
      exact ⟨this.1, this.2, by simp⟩

/-- `visit`, transfer and `leave` on a leaf. -/
theorem finish_leaf (hu : 0 < u) (hf : FileOK E o f) (hon : OnFile f E.level sem) (hs : SemOK sem) (hp : PureSem E.level sem) {b : Ann T} {l : Leaf}
    {ign : Bool} {before imp : Dom} {w : W} (hbef : InDom f u before)
    (hg : Shape E.level (LeafOK o f u) (.leaf b l)) (hv : V sem ign (.leaf b l) w) :
    V sem ign (flowFinish E ign before (.leaf b l) ⟨before, before⟩ imp).e w ∧
    Eqv ign (eval sem (.leaf b l) w) (eval sem (flowFinish E ign before (.leaf b l) ⟨before, before⟩ imp).e w) ∧
    (ign = false → (flowFinish E ign before (.leaf b l) ⟨before, before⟩ imp).a.ok f u (eval sem (.leaf b l) w)) := by
  unfold flowFinish flowVisit
  dsimp only
  simp only [hbef.not_bottom, Bool.false_eq_true, if_false]
  by_cases hc : (ign && (Expr.leaf b l).pure) = true
  · simp only [hc, if_true]
    simp only [Bool.and_eq_true] at hc
    obtain ⟨rfl, hpu⟩ := hc
    obtain ⟨x, hx⟩ := transferE_cost E before (constE E false) ⟨before, before⟩
    rw [hx]
    have := leave_ign E hs hp (a := (transferE E before (constE E false) ⟨before, before⟩).2) (Good_costE x (constE_good E false)) (V_costE x (V_constE E hs false true w))
      (Or.inr (by rw [pure_costE, constE_pure]))
    refine ⟨this.1, ?_, by simp⟩
    refine Eqv.trans ?_ this.2
    obtain ⟨b', hb'⟩ := pure_eval hp _ hg.good hpu
    rw [hb', eval_costE, eval_constE' E hs]
    exact ⟨rfl, rfl, fun h => by simp at h⟩
  · simp only [hc, Bool.false_eq_true, if_false]
    obtain ⟨x, hx⟩ := transferE_cost E before (.leaf b l) ⟨before, before⟩
    rw [hx]
    have h2 : (transferE E before (.leaf b l) ⟨before, before⟩).2 = transfer E before l ⟨before, before⟩ := rfl
    rw [h2]
    have hfl : flagsOK (costE (.leaf b l) x).ann (eval sem (costE (.leaf b l) x) w) := V_own (V_costE x hv) (Or.inl rfl)
    have hfa : (transfer E before l ⟨before, before⟩).ok f u (eval sem (costE (.leaf b l) x) w) := by
      intro hq
      rw [eval_costE, eval_leaf]
      apply transfer_facts E hu hf hbef l (Shape_leaf.1 hg).2
      cases ht : test f l with
      | none => exact Or.inr rfl
      | some b' => exact Or.inl (by rw [(hon.result l b' ht w).1])
    obtain ⟨h1, h2, h3⟩ := leave_sound E hs hp (Good_costE x hg.good) (V_costE x hv) hfl hfa
    rw [eval_costE] at h2 h3
    refine ⟨h1, ⟨h2.1, h2.2.1, fun _ => h2.2.2 rfl⟩, fun _ => h3⟩

theorem finish_impure (ign : Bool) (before : Dom) (e : Expr T) (a : After) (imp : Dom) :
    (flowFinish E ign before e a imp).impure = imp := rfl

/-- Soundness of the visitor on one expression. -/
structure FlowOK (o : Owners) (f : File) (u : Nat) (E : Env T) (sem : Leaf → W → Res W) (ign : Bool) (before impure : Dom) (e : Expr T) (r : Flow T) : Prop where
  shape : Shape E.level (LeafOK o f u) r.e
  imp : InDom f u impure → InDom f u r.impure
  dyn : ∀ w, InDom f u before → V sem ign e w →
    V sem ign r.e w ∧ Eqv ign (eval sem e w) (eval sem r.e w) ∧ (ign = false → r.a.ok f u (eval sem e w)) ∧
    (¬ InDom f u r.impure → (eval sem e w).q = false ∧ (eval sem e w).w = w)

/-- Soundness of the `-and` loop. -/
structure FlowAndOK (o : Owners) (f : File) (u : Nat) (E : Env T) (sem : Leaf → W → Res W) (ign : Bool) (before impure acc : Dom) (cs : List (Expr T)) (r : Flows T) : Prop where
  shape : ∀ c ∈ r.es, Shape E.level (LeafOK o f u) c
  len : r.es.length = cs.length
  imp : InDom f u impure → InDom f u r.impure
  acc : InDom f u acc → InDom f u r.a.f
  dyn : ∀ w, InDom f u before → Vs sem .and ign cs w →
    Vs sem .and ign r.es w ∧ Eqv ign (evalAnd (evals sem cs) w) (evalAnd (evals sem r.es) w) ∧
    (ign = false → r.a.ok f u (evalAnd (evals sem cs) w)) ∧
    (¬ InDom f u r.impure → (evalAnd (evals sem cs) w).q = false ∧ (evalAnd (evals sem cs) w).w = w)

theorem flowAnd_ok {cs : List (Expr T)}
    (ih : ∀ c ∈ cs, ∀ ign before impure, FlowOK o f u E sem ign before impure c (dataFlow E ign before impure c)) :
    ∀ (ign : Bool) (before impure acc : Dom), FlowAndOK o f u E sem ign before impure acc cs (flowAnd E ign before impure acc cs) := by
  induction cs with
  | nil =>
    intro ign before impure acc
    rw [flowAnd]
    refine ⟨by simp, rfl, id, id, fun w hb _ => ⟨by simp, Eqv.refl _, fun _ _ => ?_, fun _ => by simp [evalAnd]⟩⟩
    simp [Facts, evalAnd, hb]
  | cons c cs ihl =>
    intro ign before impure acc
    rw [flowAnd]
    have hc := ih c (by simp) (childIgn .and ign cs.isEmpty) before impure
    generalize hr : dataFlow E (childIgn .and ign cs.isEmpty) before impure c = r at hc
    have hcs := ihl (fun d hd => ih d (by simp [hd])) ign r.a.t r.impure (dfJoin acc r.a.f)
    generalize hrs : flowAnd E ign r.a.t r.impure (dfJoin acc r.a.f) cs = rs at hcs
    have hem : rs.es.isEmpty = cs.isEmpty := by
      have := hcs.len
      cases h1 : rs.es <;> cases h2 : cs <;> simp_all
    refine ⟨?_, by simp [hcs.len], fun h => hcs.imp (hc.imp h), fun h => hcs.acc (InDom.join (Or.inl h)), ?_⟩
    · intro d hd
      rcases List.mem_cons.1 hd with rfl | hd
      · exact hc.shape
      · exact hcs.shape d hd
    · intro w hbef hv
      rw [Vs_cons] at hv
      obtain ⟨v1, q1, a1, i1⟩ := hc.dyn w hbef hv.1
      have himp : ¬ InDom f u rs.impure → ¬ InDom f u r.impure := fun h h' => h (hcs.imp h')
      simp only [evals_cons, Vs_cons, evalAnd_cons, hem]
      cases cs with
      | nil =>
        rw [flowAnd] at hrs
        subst hrs
        simp only [List.isEmpty_nil, childIgn, if_true] at *
        refine ⟨⟨v1, by simp⟩, ?_, ?_, ?_⟩
        · obtain ⟨e1, e2, e3⟩ := q1
          cases hq : (eval sem c w).q with
          | true =>
            have hq' := e1; rw [hq] at hq'
            simp [cont, hq, ← hq', Eqv, e2]
          | false =>
            have hq' := e1; rw [hq] at hq'
            have e3 := fun h => e3 h hq
            cases ign with
            | true =>
              refine ⟨?_, ?_, by simp⟩
              · cases h1 : (eval sem c w).r <;> cases h2 : (eval sem r.e w).r <;> simp [h1, h2, cont, hq, ← hq', evalAnd]
              · cases h1 : (eval sem c w).r <;> cases h2 : (eval sem r.e w).r <;> simp [h1, h2, cont, hq, ← hq', evalAnd, e2]
            | false =>
              have e3 := e3 rfl
              cases hr' : (eval sem c w).r <;> rw [hr'] at e3 <;> simp [← e3, cont, hq, ← hq', evalAnd, Eqv, e2, hr']
        · intro hi hq
          have a1 := a1 hi
          cases hq1 : (eval sem c w).q with
          | true => simp [cont, hq1] at hq
          | false =>
            have a1 := a1 hq1
            cases hr' : (eval sem c w).r with
            | false => 
              simp only [cont, hr', hq1, Bool.and_self, Bool.not_true, Bool.not_false, Bool.and_true, Bool.and_false, Bool.false_and, Bool.false_eq_true, if_false]
              exact ⟨fun h => by simp at h ⊢, fun h => by simp at h ⊢; exact InDom.join (Or.inr (a1.2 hr'))⟩
            | true =>
              simp only [cont, hr', hq1, Bool.and_self, Bool.not_false, Bool.not_true, if_true, evals_nil, evalAnd]
              exact ⟨fun h => by simp at h ⊢; exact a1.1 hr', fun h => by simp at h ⊢⟩
        · intro h
          obtain ⟨h1, h2⟩ := i1 h
          cases h3 : (eval sem c w).r <;> simp [h3, cont, h1, h2, evalAnd]
      | cons d ds =>
        simp only [List.isEmpty_cons, childIgn, Bool.false_eq_true, if_false] at *
        rw [← q1.cont]
        by_cases hct : cont .and (eval sem c w) = true
        · have hqr : (eval sem c w).r = true ∧ (eval sem c w).q = false := by simpa [cont] using hct
          have hin : InDom f u r.a.t := (a1 trivial hqr.2).1 hqr.1
          obtain ⟨v2, q2, a2, i2⟩ := hcs.dyn (eval sem c w).w hin (hv.2 hct)
          rw [if_pos hct, if_pos hct, ← q1.2.1]
          refine ⟨⟨v1, fun _ => v2⟩, q2, a2, fun h => ?_⟩
          obtain ⟨h1, h2⟩ := i2 h
          obtain ⟨h3, h4⟩ := i1 (himp h)
          rw [h4] at h1 h2 ⊢
          exact ⟨h1, h2⟩
        · rw [if_neg hct, if_neg hct]
          refine ⟨⟨v1, fun h => absurd h hct⟩, ⟨q1.1, q1.2.1, fun _ _ => rfl⟩, ?_, fun h => i1 (himp h)⟩
          intro _ hq
          have hq : (eval sem c w).q = false := hq
          have hr' : (eval sem c w).r = false := by
            cases h : (eval sem c w).r <;> simp_all [cont]
          refine ⟨fun h => ?_, fun h => ?_⟩ <;> simp only at h
          · simp at h
          · exact hcs.acc (InDom.join (Or.inr ((a1 trivial hq).2 hr')))

/-- Soundness of the `-or` loop. -/
structure FlowOrOK (o : Owners) (f : File) (u : Nat) (E : Env T) (sem : Leaf → W → Res W) (ign : Bool) (before impure acc : Dom) (cs : List (Expr T)) (r : Flows T) : Prop where
  shape : ∀ c ∈ r.es, Shape E.level (LeafOK o f u) c
  len : r.es.length = cs.length
  imp : InDom f u impure → InDom f u r.impure
  acc : InDom f u acc → InDom f u r.a.t
  dyn : ∀ w, InDom f u before → Vs sem .or ign cs w →
    Vs sem .or ign r.es w ∧ Eqv ign (evalOr (evals sem cs) w) (evalOr (evals sem r.es) w) ∧
    (ign = false → r.a.ok f u (evalOr (evals sem cs) w)) ∧
    (¬ InDom f u r.impure → (evalOr (evals sem cs) w).q = false ∧ (evalOr (evals sem cs) w).w = w)

theorem flowOr_ok {cs : List (Expr T)}
    (ih : ∀ c ∈ cs, ∀ ign before impure, FlowOK o f u E sem ign before impure c (dataFlow E ign before impure c)) :
    ∀ (ign : Bool) (before impure acc : Dom), FlowOrOK o f u E sem ign before impure acc cs (flowOr E ign before impure acc cs) := by
  induction cs with
  | nil =>
    intro ign before impure acc
    rw [flowOr]
    refine ⟨by simp, rfl, id, id, fun w hb _ => ⟨by simp, Eqv.refl _, fun _ _ => ?_, fun _ => by simp [evalOr]⟩⟩
    simp [Facts, evalOr, hb]
  | cons c cs ihl =>
    intro ign before impure acc
    rw [flowOr]
    have hc := ih c (by simp) (childIgn .or ign cs.isEmpty) before impure
    generalize hr : dataFlow E (childIgn .or ign cs.isEmpty) before impure c = r at hc
    have hcs := ihl (fun d hd => ih d (by simp [hd])) ign r.a.f r.impure (dfJoin acc r.a.t)
    generalize hrs : flowOr E ign r.a.f r.impure (dfJoin acc r.a.t) cs = rs at hcs
    have hem : rs.es.isEmpty = cs.isEmpty := by
      have := hcs.len
      cases h1 : rs.es <;> cases h2 : cs <;> simp_all
    refine ⟨?_, by simp [hcs.len], fun h => hcs.imp (hc.imp h), fun h => hcs.acc (InDom.join (Or.inl h)), ?_⟩
    · intro d hd
      rcases List.mem_cons.1 hd with rfl | hd
      · exact hc.shape
      · exact hcs.shape d hd
    · intro w hbef hv
      rw [Vs_cons] at hv
      obtain ⟨v1, q1, a1, i1⟩ := hc.dyn w hbef hv.1
      have himp : ¬ InDom f u rs.impure → ¬ InDom f u r.impure := fun h h' => h (hcs.imp h')
      simp only [evals_cons, Vs_cons, evalOr_cons, hem]
      cases cs with
      | nil =>
        rw [flowOr] at hrs
        subst hrs
        simp only [List.isEmpty_nil, childIgn, if_true] at *
        refine ⟨⟨v1, by simp⟩, ?_, ?_, ?_⟩
        · obtain ⟨e1, e2, e3⟩ := q1
          cases hq : (eval sem c w).q with
          | true =>
            have hq' := e1; rw [hq] at hq'
            simp [cont, hq, ← hq', Eqv, e2]
          | false =>
            have hq' := e1; rw [hq] at hq'
            have e3 := fun h => e3 h hq
            cases ign with
            | true =>
              refine ⟨?_, ?_, by simp⟩
              · cases h1 : (eval sem c w).r <;> cases h2 : (eval sem r.e w).r <;> simp [h1, h2, cont, hq, ← hq', evalOr]
              · cases h1 : (eval sem c w).r <;> cases h2 : (eval sem r.e w).r <;> simp [h1, h2, cont, hq, ← hq', evalOr, e2]
            | false =>
              have e3 := e3 rfl
              cases hr' : (eval sem c w).r <;> rw [hr'] at e3 <;> simp [← e3, cont, hq, ← hq', evalOr, Eqv, e2, hr']
        · intro hi hq
          have a1 := a1 hi
          cases hq1 : (eval sem c w).q with
          | true => simp [cont, hq1] at hq
          | false =>
            have a1 := a1 hq1
            cases hr' : (eval sem c w).r with
            | true => 
              simp only [cont, hr', hq1, Bool.and_self, Bool.not_true, Bool.not_false, Bool.and_true, Bool.and_false, Bool.false_and, Bool.false_eq_true, if_false]
              exact ⟨fun h => by simp at h ⊢; exact InDom.join (Or.inr (a1.1 hr')), fun h => by simp at h ⊢⟩
            | false =>
              simp only [cont, hr', hq1, Bool.and_self, Bool.not_false, Bool.not_true, if_true, evals_nil, evalOr]
              exact ⟨fun h => by simp at h ⊢, fun h => by simp at h ⊢; exact a1.2 hr'⟩
        · intro h
          obtain ⟨h1, h2⟩ := i1 h
          cases h3 : (eval sem c w).r <;> simp [h3, cont, h1, h2, evalOr]
      | cons d ds =>
        simp only [List.isEmpty_cons, childIgn, Bool.false_eq_true, if_false] at *
        rw [← q1.cont]
        by_cases hct : cont .or (eval sem c w) = true
        · have hqr : (eval sem c w).r = false ∧ (eval sem c w).q = false := by simpa [cont] using hct
          have hin : InDom f u r.a.f := (a1 trivial hqr.2).2 hqr.1
          obtain ⟨v2, q2, a2, i2⟩ := hcs.dyn (eval sem c w).w hin (hv.2 hct)
          rw [if_pos hct, if_pos hct, ← q1.2.1]
          refine ⟨⟨v1, fun _ => v2⟩, q2, a2, fun h => ?_⟩
          obtain ⟨h1, h2⟩ := i2 h
          obtain ⟨h3, h4⟩ := i1 (himp h)
          rw [h4] at h1 h2 ⊢
          exact ⟨h1, h2⟩
        · rw [if_neg hct, if_neg hct]
          refine ⟨⟨v1, fun h => absurd h hct⟩, ⟨q1.1, q1.2.1, fun _ _ => rfl⟩, ?_, fun h => i1 (himp h)⟩
          intro _ hq
          have hq : (eval sem c w).q = false := hq
          have hr' : (eval sem c w).r = true := by
            cases h : (eval sem c w).r <;> simp_all [cont]
          refine ⟨fun h => ?_, fun h => ?_⟩ <;> simp only at h
          · exact hcs.acc (InDom.join (Or.inr ((a1 trivial hq).1 hr')))
          · simp at h

/-- Soundness of the data flow visitor for a file. -/
theorem dataFlow_ok (hu : 0 < u) (hf : FileOK E o f) (hon : OnFile f E.level sem) (hs : SemOK sem) (hp : PureSem E.level sem) :
    ∀ e : Expr T, Shape E.level (LeafOK o f u) e →
      ∀ ign before impure, FlowOK o f u E sem ign before impure e (dataFlow E ign before impure e) := by
  intro e
  induction e using Expr.ind with
  | hl b l =>
    intro hg ign before impure
    rw [dataFlow]
    refine ⟨flowFinish_shape E trivial trivial _ _ _ _ hg, ?_, ?_⟩
    · intro h
      rw [finish_impure]
      unfold enterImpure
      dsimp only
      split
      · exact h
      · exact InDom.join (Or.inl h)
    · intro w hbef hv
      obtain ⟨h1, h2, h3⟩ := finish_leaf E hu hf hon hs hp (imp := enterImpure (.leaf b l : Expr T) before impure) hbef hg hv
      refine ⟨h1, h2, h3, ?_⟩
      rw [finish_impure]
      unfold enterImpure
      dsimp only
      split
      · rename_i hpu
        intro _
        obtain ⟨b', hb'⟩ := pure_eval hp _ hg.good (by simpa [Expr.pure, Expr.ann] using hpu)
        rw [hb']; simp
      · intro h
        exact absurd (InDom.join (Or.inr hbef)) h
  | hn b o cs ih =>
    intro hg ign before impure
    rw [dataFlow.eq_def]
    dsimp only
    have hg' := Shape_node.1 hg
    have ih' := fun c hc => ih c hc (hg'.2.2.2 c hc)
    cases o with
    | comma => exact absurd rfl hg'.2.2.1
    | not =>
      obtain ⟨c, rfl⟩ : ∃ c, cs = [c] := by
        have := hg'.1
        simp only [arityOK] at this
        match cs, this with
        | [c], _ => exact ⟨c, rfl⟩
      dsimp only
      rw [flowNot]
      have hc := ih' c (by simp) ign before impure
      generalize dataFlow E ign before impure c = r at hc
      dsimp only
      have hsh : Shape E.level (LeafOK o f u) (rebuild b .not [r.e]) :=
        Shape_node.2 ⟨by simp [arityOK], rfl, by simp, by simpa using hc.shape⟩
      refine ⟨flowFinish_shape E trivial trivial _ _ _ _ hsh, by simpa [finish_impure] using hc.imp, ?_⟩
      intro w hbef hv
      rw [V_node, Vs_cons] at hv
      obtain ⟨v1, q1, a1, i1⟩ := hc.dyn w hbef hv.2.1
      have hEq : Eqv ign (eval sem (.node b .not [c]) w) (eval sem (rebuild b .not [r.e]) w) := by
        refine ⟨?_, ?_, fun hi hq => ?_⟩
        · simpa [rebuild, evalOp, evalNot] using q1.1
        · simpa [rebuild, evalOp, evalNot] using q1.2.1
        · simp only [eval_node, evalOp, evals_cons, evals_nil, evalNot] at hq
          have := q1.2.2 hi hq
          simp [rebuild, evalOp, evalNot, this]
      have hV : V sem ign (rebuild b .not [r.e]) w := by
        rw [rebuild, V_node, Vs_cons]
        refine ⟨fun hi => ?_, ⟨v1, by simp [cont]⟩⟩
        have h1 := hv.1 hi
        have : evalOp .not (evals sem [c]) w = eval sem (.node b .not [c]) w := by simp
        rw [this] at h1
        have h2 : evalOp .not (evals sem [r.e]) w = eval sem (rebuild b .not [r.e]) w := by simp [rebuild]
        rw [h2]
        intro hq
        rw [← hEq.1] at hq
        rw [← hEq.2.2 hi hq]
        exact h1 hq
      have hA : ign = false → (After.mk r.a.f r.a.t).ok f u (eval sem (rebuild b .not [r.e]) w) := by
        intro hi hq
        have hq0 := hq; rw [← hEq.1] at hq0
        rw [← hEq.2.2 hi hq0]
        simp only [eval_node, evalOp, evals_cons, evals_nil, evalNot] at hq0 ⊢
        have := a1 hi hq0
        exact ⟨fun h => this.2 (by simpa using h), fun h => this.1 (by simpa using h)⟩
      obtain ⟨h1, h2, h3⟩ := finish_node E hs hp (imp := r.impure) hbef hsh.good hV hA
      refine ⟨h1, hEq.trans h2, fun hi => ?_, ?_⟩
      · intro hq
        have := hEq.2.2 hi hq
        rw [this]
        exact h3 hi (hEq.1 ▸ hq)
      · intro h
        simpa [evalOp, evalNot] using i1 h
    | and =>
      dsimp only
      have hc := flowAnd_ok E ih' ign before impure dfBottom
      generalize flowAnd E ign before impure dfBottom cs = r at hc
      have hne : r.es ≠ [] := by
        have h1 := hg'.1
        have h2 := hc.len
        simp only [arityOK] at h1
        intro h
        rw [h] at h2
        exact h1 (List.length_eq_zero_iff.1 h2.symm)
      have hsh : Shape E.level (LeafOK o f u) (rebuild b .and r.es) :=
        Shape_node.2 ⟨by simpa [arityOK] using hne, rfl, by simp, hc.shape⟩
      refine ⟨flowFinish_shape E trivial trivial _ _ _ _ hsh, by simpa [finish_impure] using hc.imp, ?_⟩
      intro w hbef hv
      rw [V_node] at hv
      obtain ⟨v1, q1, a1, i1⟩ := hc.dyn w hbef hv.2
      have hEq : Eqv ign (eval sem (.node b .and cs) w) (eval sem (rebuild b .and r.es) w) := by
        simpa [rebuild, evalOp] using q1
      have hV : V sem ign (rebuild b .and r.es) w := by
        rw [rebuild, V_node]
        refine ⟨fun hi => ?_, v1⟩
        have h1 := hv.1 hi
        simp only [evalOp] at h1 ⊢
        intro hq
        rw [← q1.1] at hq
        rw [← q1.2.2 hi hq]
        exact h1 hq
      have hA : ign = false → r.a.ok f u (eval sem (rebuild b .and r.es) w) := by
        intro hi hq
        have hq0 := hq; rw [← hEq.1] at hq0
        rw [← hEq.2.2 hi hq0]
        simp only [eval_node, evalOp] at hq0 ⊢
        exact a1 hi hq0
      obtain ⟨h1, h2, h3⟩ := finish_node E hs hp (imp := r.impure) hbef hsh.good hV hA
      refine ⟨h1, hEq.trans h2, fun hi => ?_, ?_⟩
      · intro hq
        have := hEq.2.2 hi hq
        rw [this]
        exact h3 hi (hEq.1 ▸ hq)
      · intro h
        simpa [evalOp] using i1 h
    | or =>
      dsimp only
      have hc := flowOr_ok E ih' ign before impure dfBottom
      generalize flowOr E ign before impure dfBottom cs = r at hc
      have hne : r.es ≠ [] := by
        have h1 := hg'.1
        have h2 := hc.len
        simp only [arityOK] at h1
        intro h
        rw [h] at h2
        exact h1 (List.length_eq_zero_iff.1 h2.symm)
      have hsh : Shape E.level (LeafOK o f u) (rebuild b .or r.es) :=
        Shape_node.2 ⟨by simpa [arityOK] using hne, rfl, by simp, hc.shape⟩
      refine ⟨flowFinish_shape E trivial trivial _ _ _ _ hsh, by simpa [finish_impure] using hc.imp, ?_⟩
      intro w hbef hv
      rw [V_node] at hv
      obtain ⟨v1, q1, a1, i1⟩ := hc.dyn w hbef hv.2
      have hEq : Eqv ign (eval sem (.node b .or cs) w) (eval sem (rebuild b .or r.es) w) := by
        simpa [rebuild, evalOp] using q1
      have hV : V sem ign (rebuild b .or r.es) w := by
        rw [rebuild, V_node]
        refine ⟨fun hi => ?_, v1⟩
        have h1 := hv.1 hi
        simp only [evalOp] at h1 ⊢
        intro hq
        rw [← q1.1] at hq
        rw [← q1.2.2 hi hq]
        exact h1 hq
      have hA : ign = false → r.a.ok f u (eval sem (rebuild b .or r.es) w) := by
        intro hi hq
        have hq0 := hq; rw [← hEq.1] at hq0
        rw [← hEq.2.2 hi hq0]
        simp only [eval_node, evalOp] at hq0 ⊢
        exact a1 hi hq0
      obtain ⟨h1, h2, h3⟩ := finish_node E hs hp (imp := r.impure) hbef hsh.good hV hA
      refine ⟨h1, hEq.trans h2, fun hi => ?_, ?_⟩
      · intro hq
        have := hEq.2.2 hi hq
        rw [this]
        exact h3 hi (hEq.1 ▸ hq)
      · intro h
        simpa [evalOp] using i1 h
end sound
end Verif.Opt
