import Verif.Model.Opt
/-!
# Invariants of expression trees and the generic visitor
-/
namespace Verif.Opt
variable {T W : Type}

theorem Expr.ind {P : Expr T → Prop} (hl : ∀ a l, P (.leaf a l))
    (hn : ∀ a o cs, (∀ c ∈ cs, P c) → P (.node a o cs)) : ∀ e, P e := by
  intro e
  apply Expr.rec (motive_1 := P) (motive_2 := fun cs => ∀ c ∈ cs, P c)
  · exact hl
  · intro a o cs h; exact hn a o cs h
  · simp
  · intro c cs hc hcs d hd
    rcases List.mem_cons.1 hd with rfl | h
    · exact hc
    · exact hcs d h

@[simp] theorem evals_nil (sem : Leaf → W → Res W) : evals (T := T) sem [] = [] := by rw [evals]
@[simp] theorem evals_cons (sem : Leaf → W → Res W) (c : Expr T) (cs : List (Expr T)) :
    evals sem (c :: cs) = eval sem c :: evals sem cs := by rw [evals]
@[simp] theorem eval_leaf (sem : Leaf → W → Res W) (a : Ann T) (l : Leaf) :
    eval sem (.leaf a l) = sem l := by rw [eval]
@[simp] theorem eval_node (sem : Leaf → W → Res W) (a : Ann T) (o : Op) (cs : List (Expr T)) :
    eval sem (.node a o cs) = evalOp o (evals sem cs) := by rw [eval]

theorem evals_eq_map (sem : Leaf → W → Res W) (cs : List (Expr T)) :
    evals sem cs = cs.map (eval sem) := by
  induction cs with
  | nil => simp
  | cons c cs ih => simp [ih]

/-- What is assumed of the meaning of leaves: `-true`/`-false` do nothing else, and the
leaves of the always-true/always-false tables behave as listed unless they quit. -/
structure SemOK (sem : Leaf → W → Res W) : Prop where
  true_ : ∀ w, sem .true_ w = ⟨true, false, w⟩
  false_ : ∀ w, sem .false_ w = ⟨false, false, w⟩
  at_ : ∀ l w, atLeaf l = true → (sem l w).q = false → (sem l w).r = true
  af : ∀ l w, afLeaf l = true → (sem l w).q = false → (sem l w).r = false

/-- Pure leaves have no effect, never quit, and a result that does not depend on what other
parts of the expression did. -/
def PureSem (level : Nat) (sem : Leaf → W → Res W) : Prop :=
  ∀ l, pureLeaf level l = true → ∃ b, ∀ w, sem l w = ⟨b, false, w⟩

/-- Operators have the number of operands the parser gives them. -/
def arityOK (o : Op) (cs : List (Expr T)) : Prop :=
  match o with
  | .not => cs.length = 1
  | _ => cs ≠ []

mutual
/-- Well-formed trees: arities, and purity flags that say what they should. -/
def Good (level : Nat) : Expr T → Prop
  | .leaf a l => a.pure = pureLeaf level l
  | .node a o cs => arityOK o cs ∧ a.pure = cs.all Expr.pure ∧ Goods level cs
/-- All trees of a list are well-formed. -/
def Goods (level : Nat) : List (Expr T) → Prop
  | [] => True
  | c :: cs => Good level c ∧ Goods level cs
end

theorem Goods_iff {level : Nat} {cs : List (Expr T)} : Goods level cs ↔ ∀ c ∈ cs, Good level c := by
  induction cs with
  | nil => simp [Goods]
  | cons c cs ih => simp [Goods, ih]

theorem Good_node {level : Nat} {a : Ann T} {o : Op} {cs : List (Expr T)} :
    Good level (.node a o cs) ↔ arityOK o cs ∧ a.pure = cs.all Expr.pure ∧ ∀ c ∈ cs, Good level c := by
  rw [Good, Goods_iff]

theorem Good_leaf {level : Nat} {a : Ann T} {l : Leaf} :
    Good level (.leaf a l) ↔ a.pure = pureLeaf level l := by
  rw [Good]

/-- Whether evaluation of a child list goes on after this result. -/
def cont (o : Op) (x : Res W) : Bool :=
  match o with
  | .not => false
  | .and => x.r && !x.q
  | .or => !x.r && !x.q
  | .comma => !x.q

/-- The `always_true`/`always_false` flags agree with a result. -/
def flagsOK (a : Ann T) (x : Res W) : Prop :=
  x.q = false → (a.at_ = true → x.r = true) ∧ (a.af = true → x.r = false)

mutual
/-- Along the evaluation of the tree from state `w`, every flag that is looked at agrees
with the result.  (Flags of operators whose result is ignored are not constrained.) -/
def V (sem : Leaf → W → Res W) (ign : Bool) : Expr T → W → Prop
  | .leaf a l => fun w => flagsOK a (sem l w)
  | .node a o cs => fun w =>
    (ign = false → flagsOK a (evalOp o (evals sem cs) w)) ∧ Vs sem o ign cs w
/-- Children are only visited while evaluation continues. -/
def Vs (sem : Leaf → W → Res W) (o : Op) (ign : Bool) : List (Expr T) → W → Prop
  | [] => fun _ => True
  | c :: cs => fun w => V sem (childIgn o ign cs.isEmpty) c w ∧
      (cont o (eval sem c w) = true → Vs sem o ign cs (eval sem c w).w)
end

section
variable {sem : Leaf → W → Res W}

@[simp] theorem V_leaf {ign : Bool} {a : Ann T} {l : Leaf} {w : W} :
    V sem ign (.leaf a l) w ↔ flagsOK a (sem l w) := by rw [V]
@[simp] theorem V_node {ign : Bool} {a : Ann T} {o : Op} {cs : List (Expr T)} {w : W} :
    V sem ign (.node a o cs) w ↔
      (ign = false → flagsOK a (evalOp o (evals sem cs) w)) ∧ Vs sem o ign cs w := by rw [V]
@[simp] theorem Vs_nil {o : Op} {ign : Bool} {w : W} : Vs (T := T) sem o ign [] w ↔ True := by rw [Vs]
@[simp] theorem Vs_cons {o : Op} {ign : Bool} {c : Expr T} {cs : List (Expr T)} {w : W} :
    Vs sem o ign (c :: cs) w ↔ V sem (childIgn o ign cs.isEmpty) c w ∧
      (cont o (eval sem c w) = true → Vs sem o ign cs (eval sem c w).w) := by rw [Vs]

theorem V_flags {e : Expr T} {w : W} (h : V sem false e w) : flagsOK e.ann (eval sem e w) := by
  cases e with
  | leaf a l => simpa [Expr.ann] using h
  | node a o cs => simpa [Expr.ann] using (V_node.1 h).1 rfl

theorem Vs_weaken_of {cs : List (Expr T)} (o : Op)
    (ih : ∀ c ∈ cs, ∀ (i j : Bool), (i = true → j = true) → ∀ w, V sem i c w → V sem j c w)
    {i j : Bool} (hij : i = true → j = true) : ∀ {w : W}, Vs sem o i cs w → Vs sem o j cs w := by
  induction cs with
  | nil => intro w _; simp
  | cons c cs ihl =>
    intro w h
    rw [Vs_cons] at h ⊢
    refine ⟨ih c (by simp) _ _ ?_ _ h.1, fun hc => ihl (fun d hd => ih d (by simp [hd])) (h.2 hc)⟩
    cases o <;> cases cs <;> simp_all [childIgn]

theorem V_weaken : ∀ (e : Expr T) (i j : Bool), (i = true → j = true) → ∀ w, V sem i e w → V sem j e w := by
  intro e
  induction e using Expr.ind with
  | hl a l => intro i j _ w h; simpa using h
  | hn a o cs ih =>
    intro i j hij w h
    rw [V_node] at h ⊢
    refine ⟨fun hj => h.1 (by cases i <;> simp_all), Vs_weaken_of o ih hij h.2⟩

theorem Vs_weaken {o : Op} {cs : List (Expr T)} {i j : Bool} {w : W} (hij : i = true → j = true)
    (h : Vs sem o i cs w) : Vs sem o j cs w :=
  Vs_weaken_of o (fun c _ => V_weaken c) hij h

/-- Pure trees have no effect and a fixed result. -/
theorem pure_eval {level : Nat} (hp : PureSem level sem) :
    ∀ e : Expr T, Good level e → e.pure = true → ∃ b, ∀ w, eval sem e w = ⟨b, false, w⟩ := by
  intro e
  induction e using Expr.ind with
  | hl a l =>
    intro hg hpu
    rw [Good_leaf] at hg
    obtain ⟨b, hb⟩ := hp l (by simpa [Expr.pure, Expr.ann, hg] using hpu)
    exact ⟨b, by simpa using hb⟩
  | hn a o cs ih =>
    intro hg hpu
    rw [Good_node] at hg
    obtain ⟨har, hap, hgs⟩ := hg
    have hall : ∀ c ∈ cs, c.pure = true := by
      simp only [Expr.pure, Expr.ann] at hpu
      rw [hap, List.all_eq_true] at hpu
      exact hpu
    have key : ∀ c ∈ cs, ∃ b, ∀ w, eval sem c w = ⟨b, false, w⟩ := fun c hc => ih c hc (hgs c hc) (hall c hc)
    clear ih hgs hall hap hpu har
    simp only [eval_node]
    cases o with
    | not =>
      cases cs with
      | nil => exact ⟨true, by simp [evalOp, evalNot]⟩
      | cons c cs =>
        obtain ⟨b, hb⟩ := key c (by simp)
        exact ⟨!b, by simp [evalOp, evalNot, hb]⟩
    | and =>
      induction cs with
      | nil => exact ⟨true, by simp [evalOp, evalAnd]⟩
      | cons c cs ihl =>
        obtain ⟨b, hb⟩ := key c (by simp)
        obtain ⟨b', hb'⟩ := ihl (fun d hd => key d (by simp [hd]))
        refine ⟨b && b', fun w => ?_⟩
        simp only [evalOp] at hb'
        cases b <;> simp [evalOp, evalAnd, hb, hb']
    | or =>
      induction cs with
      | nil => exact ⟨false, by simp [evalOp, evalOr]⟩
      | cons c cs ihl =>
        obtain ⟨b, hb⟩ := key c (by simp)
        obtain ⟨b', hb'⟩ := ihl (fun d hd => key d (by simp [hd]))
        refine ⟨b || b', fun w => ?_⟩
        simp only [evalOp] at hb'
        cases b <;> simp [evalOp, evalOr, hb, hb']
    | comma =>
      induction cs with
      | nil => exact ⟨false, by simp [evalOp, evalComma]⟩
      | cons c cs ihl =>
        obtain ⟨b, hb⟩ := key c (by simp)
        obtain ⟨b', hb'⟩ := ihl (fun d hd => key d (by simp [hd]))
        simp only [evalOp] at hb'
        cases cs with
        | nil => exact ⟨b, fun w => by simp [evalOp, evalComma, hb]⟩
        | cons d ds => exact ⟨b', fun w => by simpa [evalOp, evalComma, hb] using hb' w⟩

/-- Agreement of two evaluations: the same effects and the same `quit`, and the same result
unless it is ignored (or evaluation is being abandoned). -/
def Eqv (ign : Bool) (x y : Res W) : Prop :=
  x.q = y.q ∧ x.w = y.w ∧ (ign = false → x.q = false → x.r = y.r)

theorem Eqv.refl {ign : Bool} (x : Res W) : Eqv ign x x := ⟨rfl, rfl, fun _ _ => rfl⟩

theorem Eqv.trans {ign : Bool} {x y z : Res W} (h : Eqv ign x y) (h' : Eqv ign y z) : Eqv ign x z :=
  ⟨h.1.trans h'.1, h.2.1.trans h'.2.1, fun hi hq => (h.2.2 hi hq).trans (h'.2.2 hi (h.1 ▸ hq))⟩

theorem Eqv.of_eq {ign : Bool} {x y : Res W} (h : x = y) : Eqv ign x y := h ▸ Eqv.refl x

theorem Eqv.cont {o : Op} {x y : Res W} (h : Eqv false x y) : cont o x = cont o y := by
  obtain ⟨h1, _, h3⟩ := h
  cases hq : x.q with
  | true => rw [hq] at h1; cases o <;> simp [Opt.cont, hq, ← h1]
  | false =>
    have h3 := h3 rfl hq
    rw [hq] at h1
    cases o <;> simp [Opt.cont, hq, ← h1, h3]

theorem evalAnd_cons (c : W → Res W) (cs : List (W → Res W)) (w : W) :
    evalAnd (c :: cs) w = if cont .and (c w) then evalAnd cs (c w).w else { c w with r := false } := by
  cases hr : (c w).r <;> cases hq : (c w).q <;> simp [evalAnd, cont, hr, hq]

theorem evalOr_cons (c : W → Res W) (cs : List (W → Res W)) (w : W) :
    evalOr (c :: cs) w = if cont .or (c w) then evalOr cs (c w).w else { c w with r := true } := by
  cases hr : (c w).r <;> cases hq : (c w).q <;> simp [evalOr, cont, hr, hq]

theorem evalComma_cons (c d : W → Res W) (cs : List (W → Res W)) (w : W) :
    evalComma (c :: d :: cs) w = if cont .comma (c w) then evalComma (d :: cs) (c w).w else c w := by
  cases hq : (c w).q <;> simp [evalComma, cont, hq]

theorem visits_isEmpty (g : Bool → Expr T → Expr T) (o : Op) (ign : Bool) (cs : List (Expr T)) :
    (visits g o ign cs).isEmpty = cs.isEmpty := by
  cases cs <;> simp [visits]

theorem visits_length (g : Bool → Expr T → Expr T) (o : Op) (ign : Bool) (cs : List (Expr T)) :
    (visits g o ign cs).length = cs.length := by
  induction cs with
  | nil => simp [visits]
  | cons c cs ih => simp [visits, ih]

/-- The generic visitor preserves behaviour if it does so on the children. -/
theorem visits_sound (g : Bool → Expr T → Expr T) (o : Op) (ign : Bool) :
    ∀ (cs : List (Expr T)),
      (∀ c ∈ cs, ∀ i w, V sem i c w → V sem i (visit g i c) w ∧ Eqv i (eval sem c w) (eval sem (visit g i c) w)) →
      ∀ w, Vs sem o ign cs w → Vs sem o ign (visits g o ign cs) w ∧
        Eqv ign (evalOp o (evals sem cs) w) (evalOp o (evals sem (visits g o ign cs)) w) := by
  intro cs
  induction cs with
  | nil => intro _ w _; rw [visits]; exact ⟨by simp, Eqv.refl _⟩
  | cons c cs ih =>
    intro hc w hv
    rw [Vs_cons] at hv
    obtain ⟨hvc, hvs⟩ := hv
    obtain ⟨hv', heq⟩ := hc c (by simp) _ w hvc
    rw [visits]
    have ih' := ih (fun d hd => hc d (by simp [hd]))
    rw [Vs_cons, visits_isEmpty]
    cases cs with
    | nil =>
      have hci : childIgn o ign true = ign := by cases o <;> rfl
      simp only [List.isEmpty_nil, hci] at *
      refine ⟨⟨hv', fun _ => by rw [visits]; simp⟩, ?_⟩
      rw [visits]
      obtain ⟨e1, e2, e3⟩ := heq
      simp only [evals_cons, evals_nil]
      cases o with
      | not => exact ⟨e1, e2, fun hi hq => by simp [evalOp, evalNot, e3 hi hq]⟩
      | comma => exact ⟨e1, e2, e3⟩
      | and =>
        simp only [evalOp, evalAnd_cons, evalAnd]
        cases hq : (eval sem c w).q with
        | true =>
          have : (eval sem (visit g ign c) w).q = true := by rw [← e1, hq]
          simp [cont, hq, this, Eqv, e2]
        | false =>
          have hq' : (eval sem (visit g ign c) w).q = false := by rw [← e1, hq]
          refine ⟨?_, ?_, ?_⟩
          · simp only [cont, hq, hq']; split <;> split <;> simp_all
          · simp only [cont, hq, hq']; split <;> split <;> simp_all
          · intro hi _
            have := e3 hi hq
            simp only [cont, hq, hq', this]; split <;> simp_all
      | or =>
        simp only [evalOp, evalOr_cons, evalOr]
        cases hq : (eval sem c w).q with
        | true =>
          have : (eval sem (visit g ign c) w).q = true := by rw [← e1, hq]
          simp [cont, hq, this, Eqv, e2]
        | false =>
          have hq' : (eval sem (visit g ign c) w).q = false := by rw [← e1, hq]
          refine ⟨?_, ?_, ?_⟩
          · simp only [cont, hq, hq']; split <;> split <;> simp_all
          · simp only [cont, hq, hq']; split <;> split <;> simp_all
          · intro hi _
            have := e3 hi hq
            simp only [cont, hq, hq', this]; split <;> simp_all
    | cons d ds =>
      simp only [List.isEmpty_cons] at *
      cases o with
      | not => 
        refine ⟨⟨hv', fun h => by simp [cont] at h⟩, ?_⟩
        obtain ⟨e1, e2, e3⟩ := heq
        exact ⟨e1, e2, fun hi hq => by
          have := e3 hi hq
          simp only [childIgn] at this
          simp [evalOp, evalNot, this, childIgn]⟩
      | and =>
        have hcc : cont .and (eval sem c w) = cont .and (eval sem (visit g (childIgn .and ign false) c) w) :=
          Eqv.cont heq
        refine ⟨⟨hv', fun h => ?_⟩, ?_⟩
        · rw [← hcc] at h; rw [← heq.2.1]; exact (ih' _ (hvs h)).1
        · simp only [evalOp]
          rw [evals_cons sem c, evals_cons sem (visit g _ c), evalAnd_cons, evalAnd_cons]
          rw [← hcc]
          split
          · rename_i h
            rw [← heq.2.1]; exact (ih' _ (hvs h)).2
          · exact ⟨heq.1, heq.2.1, fun _ _ => rfl⟩
      | or =>
        have hcc : cont .or (eval sem c w) = cont .or (eval sem (visit g (childIgn .or ign false) c) w) :=
          Eqv.cont heq
        refine ⟨⟨hv', fun h => ?_⟩, ?_⟩
        · rw [← hcc] at h; rw [← heq.2.1]; exact (ih' _ (hvs h)).1
        · simp only [evalOp]
          rw [evals_cons sem c, evals_cons sem (visit g _ c), evalOr_cons, evalOr_cons]
          rw [← hcc]
          split
          · rename_i h
            rw [← heq.2.1]; exact (ih' _ (hvs h)).2
          · exact ⟨heq.1, heq.2.1, fun _ _ => rfl⟩
      | comma =>
        have hcc : cont .comma (eval sem c w) = cont .comma (eval sem (visit g (childIgn .comma ign false) c) w) := by
          simp [cont, heq.1]
        refine ⟨⟨hv', fun h => ?_⟩, ?_⟩
        · rw [← hcc] at h; rw [← heq.2.1]; exact (ih' _ (hvs h)).1
        · have hd : visits g .comma ign (d :: ds) = visit g (childIgn .comma ign ds.isEmpty) d :: visits g .comma ign ds := by
            rw [visits]
          have ih2 := fun h => (ih' _ (hvs h)).2
          rw [hd] at ih2 ⊢
          simp only [evals_cons, evalOp, evalComma_cons] at ih2 ⊢
          rw [← hcc]
          split
          · rename_i h
            rw [← heq.2.1]; exact ih2 h
          · rename_i h
            refine ⟨heq.1, heq.2.1, fun _ hq => ?_⟩
            simp [cont, hq] at h

/-- Static well-formedness under the generic visitor. -/
theorem visit_good {level : Nat} (g : Bool → Expr T → Expr T)
    (hg : ∀ ign e, Good level e → Good level (g ign e)) :
    ∀ (e : Expr T) (ign : Bool), Good level e → Good level (visit g ign e) := by
  intro e
  induction e using Expr.ind with
  | hl a l => intro ign h; rw [visit]; exact h
  | hn a o cs ih =>
    intro ign h
    rw [visit]
    apply hg
    rw [Good_node] at h
    rw [rebuild, Good_node]
    refine ⟨?_, rfl, ?_⟩
    · have := visits_length g o ign cs
      cases o <;> simp only [arityOK] at h ⊢
      · rw [this]; exact h.1
      all_goals
        intro hnil; rw [hnil] at this; exact h.1 (List.length_eq_zero_iff.1 this.symm)
    · have hcs := h.2.2
      clear h
      induction cs with
      | nil => intro c hc; rw [visits] at hc; simp at hc
      | cons c cs ihl =>
        intro d hd
        rw [visits] at hd
        rcases List.mem_cons.1 hd with rfl | hd
        · exact ih c (by simp) _ (hcs c (by simp))
        · exact ihl (fun x hx => ih x (by simp [hx])) (fun x hx => hcs x (by simp [hx])) d hd

/-- Behaviour under the generic visitor. -/
theorem visit_sound {level : Nat} (g : Bool → Expr T → Expr T)
    (hgood : ∀ ign e, Good level e → Good level (g ign e))
    (hg : ∀ ign e w, Good level e → V sem ign e w →
      V sem ign (g ign e) w ∧ Eqv ign (eval sem e w) (eval sem (g ign e) w)) :
    ∀ (e : Expr T) (ign : Bool) (w : W), Good level e → V sem ign e w →
      V sem ign (visit g ign e) w ∧ Eqv ign (eval sem e w) (eval sem (visit g ign e) w) := by
  intro e
  induction e using Expr.ind with
  | hl a l => intro ign w _ h; rw [visit]; exact ⟨h, Eqv.refl _⟩
  | hn a o cs ih =>
    intro ign w hgd h
    have hgd' := Good_node.1 hgd
    rw [visit]
    obtain ⟨hfl, hvs⟩ := V_node.1 h
    obtain ⟨h1, h2⟩ := visits_sound g o ign cs (fun c hc i w hv => ih c hc i w (hgd'.2.2 c hc) hv) w hvs
    have hrb : Good level (rebuild a o (visits g o ign cs)) := by
      rw [rebuild, Good_node]
      refine ⟨?_, rfl, ?_⟩
      · have := visits_length g o ign cs
        have h0 := hgd'.1
        cases o <;> simp only [arityOK] at h0 ⊢
        · rw [this]; exact h0
        all_goals
          intro hnil; rw [hnil] at this; exact h0 (List.length_eq_zero_iff.1 this.symm)
      · have hcs := hgd'.2.2
        clear h1 h2 hvs hfl hgd hgd' h ih
        induction cs with
        | nil => intro c hc; rw [visits] at hc; simp at hc
        | cons c cs ihl =>
          intro d hd
          rw [visits] at hd
          rcases List.mem_cons.1 hd with rfl | hd
          · exact visit_good g hgood _ _ (hcs c (by simp))
          · exact ihl (fun x hx => hcs x (by simp [hx])) d hd
    have hv' : V sem ign (rebuild a o (visits g o ign cs)) w := by
      rw [rebuild, V_node]
      refine ⟨fun hi hq => ?_, h1⟩
      have hq0 : (evalOp o (evals sem cs) w).q = false := by rw [h2.1]; exact hq
      have := hfl hi hq0
      rw [← h2.2.2 hi hq0]
      exact this
    obtain ⟨h3, h4⟩ := hg ign _ w hrb hv'
    refine ⟨h3, Eqv.trans ?_ h4⟩
    simpa [rebuild] using h2

end
end Verif.Opt
