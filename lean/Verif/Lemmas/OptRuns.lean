import Verif.Lemmas.OptLoop
/-!
# The evaluator against the big-step semantics
-/
namespace Verif.Opt
open Verif.Spec.Opt
variable {T W : Type}

theorem runsAnd_iff (sem : Leaf → W → Res W) (cs : List (Expr T))
    (ih : ∀ c ∈ cs, ∀ w x, Runs sem c w x ↔ eval sem c w = x) :
    ∀ w x, RunsAnd sem cs w x ↔ evalAnd (evals sem cs) w = x := by
  induction cs with
  | nil =>
    intro w x
    simp only [evals_nil, evalAnd]
    constructor
    · intro h; cases h; rfl
    · rintro rfl; exact .done
  | cons c cs ihl =>
    intro w x
    have ihl' := ihl (fun d hd => ih d (by simp [hd]))
    have hc := ih c (by simp)
    simp only [evals_cons, evalAnd]
    constructor
    · intro h
      cases h with
      | isFalse h1 h2 h3 => rw [hc] at h1; subst h1; simp [h2, h3]
      | quit h1 h2 => rw [hc] at h1; subst h1; simp [h2]
      | next h1 h2 h3 h4 => rw [hc] at h1; subst h1; rw [ihl'] at h4; simp [h2, h3, h4]
    · intro h
      have h1 := (hc w _).2 rfl
      cases hq : (eval sem c w).q with
      | true => rw [hq] at h; simp at h; subst h; exact .quit h1 hq
      | false =>
        cases hr : (eval sem c w).r with
        | true => simp [hq, hr] at h; exact .next h1 hq hr ((ihl' _ _).2 h)
        | false => simp [hq, hr] at h; subst h; exact .isFalse h1 hq hr

theorem runsOr_iff (sem : Leaf → W → Res W) (cs : List (Expr T))
    (ih : ∀ c ∈ cs, ∀ w x, Runs sem c w x ↔ eval sem c w = x) :
    ∀ w x, RunsOr sem cs w x ↔ evalOr (evals sem cs) w = x := by
  induction cs with
  | nil =>
    intro w x
    simp only [evals_nil, evalOr]
    constructor
    · intro h; cases h; rfl
    · rintro rfl; exact .done
  | cons c cs ihl =>
    intro w x
    have ihl' := ihl (fun d hd => ih d (by simp [hd]))
    have hc := ih c (by simp)
    simp only [evals_cons, evalOr]
    constructor
    · intro h
      cases h with
      | isTrue h1 h2 h3 => rw [hc] at h1; subst h1; simp [h2, h3]
      | quit h1 h2 => rw [hc] at h1; subst h1; simp [h2]
      | next h1 h2 h3 h4 => rw [hc] at h1; subst h1; rw [ihl'] at h4; simp [h2, h3, h4]
    · intro h
      have h1 := (hc w _).2 rfl
      cases hq : (eval sem c w).q with
      | true => rw [hq] at h; simp at h; subst h; exact .quit h1 hq
      | false =>
        cases hr : (eval sem c w).r with
        | false => simp [hq, hr] at h; exact .next h1 hq hr ((ihl' _ _).2 h)
        | true => simp [hq, hr] at h; subst h; exact .isTrue h1 hq hr

theorem runsComma_iff (sem : Leaf → W → Res W) (cs : List (Expr T)) (hne : cs ≠ [])
    (ih : ∀ c ∈ cs, ∀ w x, Runs sem c w x ↔ eval sem c w = x) :
    ∀ w x, RunsComma sem cs w x ↔ evalComma (evals sem cs) w = x := by
  induction cs with
  | nil => simp at hne
  | cons c cs ihl =>
    intro w x
    have hc := ih c (by simp)
    cases cs with
    | nil =>
      simp only [evals_cons, evals_nil, evalComma]
      rw [← hc]
      constructor
      · intro h
        cases h with
        | last h => exact h
        | quit h => simp at h
        | next h => simp at h
      · exact .last
    | cons d ds =>
      have ihl' := ihl (by simp) (fun d hd => ih d (by simp [hd]))
      simp only [evals_cons, evalComma] at ihl' ⊢
      constructor
      · intro h
        cases h with
        | quit h0 h1 h2 => rw [hc] at h1; subst h1; simp [h2]
        | next h0 h1 h2 h4 => rw [hc] at h1; subst h1; rw [ihl'] at h4; simp [h2, h4]
      · intro h
        have h1 := (hc w _).2 rfl
        cases hq : (eval sem c w).q with
        | true => rw [hq] at h; simp at h; subst h; exact .quit (by simp) h1 hq
        | false => simp only [hq, Bool.false_eq_true, if_false] at h; exact .next (by simp) h1 hq ((ihl' _ _).2 h)

theorem runs_iff (sem : Leaf → W → Res W) : ∀ (e : Expr T), WF e → ∀ (w : W) (x : Res W),
    Runs sem e w x ↔ eval sem e w = x := by
  intro e
  induction e using Expr.ind with
  | hl a l =>
    intro _ w x
    simp only [eval_leaf]
    constructor
    · intro h; cases h; rfl
    · rintro rfl; exact .leaf
  | hn a o cs ih =>
    intro h w x
    rw [WF, WFs_iff] at h
    have ih' := fun c hc => ih c hc (h.2 c hc)
    simp only [eval_node]
    cases o with
    | not =>
      match cs, h.1 with
      | [c], _ =>
        simp only [evals_cons, evals_nil, evalOp, evalNot]
        have hc := ih' c (by simp)
        constructor
        · intro h; cases h with | not h => rw [hc] at h; subst h; rfl
        · rintro rfl; exact .not ((hc _ _).2 rfl)
    | and =>
      rw [evalOp, ← runsAnd_iff sem cs ih']
      exact ⟨fun h => by cases h; assumption, .and⟩
    | or =>
      rw [evalOp, ← runsOr_iff sem cs ih']
      exact ⟨fun h => by cases h; assumption, .or⟩
    | comma =>
      rw [evalOp, ← runsComma_iff sem cs h.1 ih']
      exact ⟨fun h => by cases h; assumption, .comma⟩

/-- Shape of the log written by an evaluation. -/
def LogOK (f : W × List (Leaf × W × Bool × Bool) → Res (W × List (Leaf × W × Bool × Bool))) : Prop :=
  ∀ w, ∃ log, (f w).w.2 = w.2 ++ log ∧
    (∀ l₁ x l₂, log = l₁ ++ x :: l₂ → ∀ y ∈ l₁, y.2.2.2 = false) ∧
    ((f w).q = true ↔ ∃ x, log.getLast? = some x ∧ x.2.2.2 = true)

theorem LogOK.seq {f g : W × List (Leaf × W × Bool × Bool) → Res (W × List (Leaf × W × Bool × Bool))}
    (hf : LogOK f) (hg : LogOK g) (w : W × List (Leaf × W × Bool × Bool)) (hq : (f w).q = false) :
    ∃ log, (g (f w).w).w.2 = w.2 ++ log ∧
    (∀ l₁ x l₂, log = l₁ ++ x :: l₂ → ∀ y ∈ l₁, y.2.2.2 = false) ∧
    ((g (f w).w).q = true ↔ ∃ x, log.getLast? = some x ∧ x.2.2.2 = true) := by
  obtain ⟨l1, a1, b1, c1⟩ := hf w
  obtain ⟨l2, a2, b2, c2⟩ := hg (f w).w
  have all1 : ∀ y ∈ l1, y.2.2.2 = false := by
    intro y hy
    rcases List.eq_nil_or_concat l1 with rfl | ⟨l, z, rfl⟩
    · simp at hy
    · have hz : z.2.2.2 = false := by
        cases h : z.2.2.2 with
        | false => rfl
        | true => rw [c1.2 ⟨z, by simp, h⟩] at hq; simp at hq
      rw [List.concat_eq_append] at hy
      rcases List.mem_append.1 hy with h | h
      · exact b1 l z [] (by simp) y h
      · simp at h; subst h; exact hz
  refine ⟨l1 ++ l2, by rw [a2, a1, List.append_assoc], ?_, ?_⟩
  · intro p x s hl y hy
    rcases List.append_eq_append_iff.1 hl with ⟨a, h1, h2⟩ | ⟨a, h1, h2⟩
    · rw [h1] at hy
      rcases List.mem_append.1 hy with h | h
      · exact all1 y h
      · exact b2 a x s h2 y h
    · exact all1 y (by rw [h1]; exact List.mem_append_left _ hy)
  · rw [c2]
    rcases List.eq_nil_or_concat l2 with rfl | ⟨l, z, rfl⟩
    · simp only [List.getLast?_nil, List.append_nil]
      constructor
      · rintro ⟨x, hx, _⟩; simp at hx
      · rintro ⟨x, hx, hxq⟩
        have := all1 x (List.mem_of_getLast? hx)
        simp [this] at hxq
    · simp

theorem log_quit (sem : Leaf → W → Res W) (hs : LeafLaws sem) : ∀ (e : Expr T), LogOK (eval (logged sem) e) := by
  intro e
  induction e using Expr.ind with
  | hl a l =>
    intro w
    simp only [eval_leaf, logged]
    by_cases hl : logs l = true
    · refine ⟨[(l, w.1, (sem l w.1).r, (sem l w.1).q)], by simp [hl], ?_, by simp⟩
      intro l₁ x l₂ h y hy
      cases l₁ with
      | nil => simp at hy
      | cons _ t => simp at h
    · refine ⟨[], by simp [hl], by simp, ?_⟩
      have : (sem l w.1).q = false := by
        unfold logs at hl
        split at hl
        · simp [hs.true_]
        · simp [hs.false_]
        · simp at hl
      simp [this]
  | hn a o cs ih =>
    simp only [eval_node]
    cases o with
    | not =>
      cases cs with
      | nil => intro w; exact ⟨[], by simp [evalOp, evalNot]⟩
      | cons c cs => intro w; simpa [evalOp, evalNot] using ih c (by simp) w
    | and =>
      induction cs with
      | nil => intro w; exact ⟨[], by simp [evalOp, evalAnd]⟩
      | cons c cs ihl =>
        intro w
        have h1 := ih c (by simp)
        have h2 := ihl (fun d hd => ih d (by simp [hd]))
        simp only [evals_cons, evalOp, evalAnd_cons]
        split
        · rename_i hc
          simp only [cont, Bool.and_eq_true, Bool.not_eq_true'] at hc
          exact LogOK.seq h1 h2 w hc.2
        · exact h1 w
    | or =>
      induction cs with
      | nil => intro w; exact ⟨[], by simp [evalOp, evalOr]⟩
      | cons c cs ihl =>
        intro w
        have h1 := ih c (by simp)
        have h2 := ihl (fun d hd => ih d (by simp [hd]))
        simp only [evals_cons, evalOp, evalOr_cons]
        split
        · rename_i hc
          simp only [cont, Bool.and_eq_true, Bool.not_eq_true'] at hc
          exact LogOK.seq h1 h2 w hc.2
        · exact h1 w
    | comma =>
      induction cs with
      | nil => intro w; exact ⟨[], by simp [evalOp, evalComma]⟩
      | cons c cs ihl =>
        intro w
        have h1 := ih c (by simp)
        have h2 := ihl (fun d hd => ih d (by simp [hd]))
        cases cs with
        | nil => simpa [evalOp, evalComma] using h1 w
        | cons d ds =>
          simp only [evals_cons, evalOp, evalComma_cons] at h2 ⊢
          split
          · rename_i hc
            simp only [cont, Bool.not_eq_true'] at hc
            exact LogOK.seq h1 h2 w hc
          · exact h1 w

end Verif.Opt
