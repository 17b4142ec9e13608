import Verif.Lemmas.OptTop
/-!
# The optimizer on an empty disjunction
-/
namespace Verif.Opt
open Verif.Spec.Opt
variable {T W : Type} {sem : Leaf → W → Res W} (E : Env T) {o : Owners} {f : File} {u : Nat}

theorem top_not_bottom : dfIsBottom dfTop = false := by decide

theorem round_empty (m : Dom) (a : Ann T) (aft : After) :
    let r := optRound E 0 false dfTop m (annotate E (.node a .or [])) aft
    (1 ≤ E.level → r.e = constE E false) ∧ (E.level < 1 → r.e = annotate E (.node a .or [])) ∧
      r.impure = m ∧ (2 ≤ E.level → r.a = ⟨dfBottom, dfTop⟩) := by
  have hann : annotate E (.node a .or []) = .node (nodeAnn E .or []) .or [] := by simp [annotate, annotates]
  have hat : (nodeAnn E .or ([] : List (Expr T))).at_ = false := rfl
  have haf : (nodeAnn E .or ([] : List (Expr T))).af = true := rfl
  have hpu : (nodeAnn E .or ([] : List (Expr T))).pure = true := rfl
  have hc : canonicalize E false (.node (nodeAnn E .or []) .or []) = .node (nodeAnn E .or []) .or [] := by
    simp [canonicalize, visit, visits, rebuild, canonLocal, annotate1, flatten]
  have hs : simplify E false (.node (nodeAnn E .or []) .or []) = constE E false := by
    simp [simplify, visit, visits, rebuild, simpLocal, orKeep, dropIgnorable]
  have hs' : simplify E false (constE E false) = constE E false := by
    simp [simplify, constE, visit]
  have hd : dataFlow E false dfTop m (.node (nodeAnn E .or []) .or []) = ⟨constE E false, ⟨dfBottom, dfTop⟩, m⟩ := by
    have h1 : leaveFacts (.node (nodeAnn E .or []) .or [] : Expr T) ⟨dfBottom, dfTop⟩ = ⟨dfBottom, dfTop⟩ := by
      simp [leaveFacts, Expr.at_, Expr.af, Expr.ann, hat, haf]
    have h2 : dfIsBottom dfBottom = true := by decide
    have h3 : (rebuild (nodeAnn E .or []) .or [] : Expr T) = .node (nodeAnn E .or []) .or [] := rfl
    rw [dataFlow.eq_def]
    dsimp only
    rw [flowOr]
    dsimp only
    rw [h3]
    simp only [flowFinish, flowVisit, top_not_bottom, Bool.false_and, Bool.false_eq_true, if_false, transferE, leave, h1]
    simp [leaveTrue, leaveFalse, top_not_bottom, h2, leaveProb, Expr.at_, Expr.af, Expr.ann, hat, haf, Expr.setAnn, Expr.pure, hpu, Expr.isFalse]
  rw [hann]
  intro r
  have hr : r = optRound E 0 false dfTop m (.node (nodeAnn E .or []) .or []) aft := rfl
  simp only [optRound, ne_eq, not_true_eq_false, decide_false, Bool.and_false, Bool.false_eq_true, if_false] at hr
  by_cases h1 : 1 ≤ E.level
  · simp only [h1, if_true, hc] at hr
    by_cases h2 : 2 ≤ E.level
    · simp only [h2, if_true, hd, hs'] at hr
      rw [hr]
      exact ⟨fun _ => rfl, fun h => by omega, rfl, fun _ => rfl⟩
    · simp only [h2, if_false, hs] at hr
      rw [hr]
      exact ⟨fun _ => rfl, fun h => by omega, rfl, fun h => by omega⟩
  · have h2 : ¬ 2 ≤ E.level := by omega
    simp only [h1, h2, if_false] at hr
    rw [hr]
    exact ⟨fun h => by omega, fun _ => rfl, rfl, fun h => by omega⟩

/-- Nothing is excluded. -/
theorem optimize_empty (hs : SemOK sem) (m : Dom) (a : Ann T) :
    let r := optimize E false dfTop m (.node a .or [])
    (∀ w, eval sem r.e w = ⟨false, false, w⟩) ∧ r.impure = m ∧ (2 ≤ E.level → r.a = ⟨dfBottom, dfTop⟩) := by
  have h := fun aft => round_empty E m a aft
  intro r
  have hev : ∀ w, eval sem (annotate E (.node a .or [])) w = ⟨false, false, w⟩ := by
    intro w; rw [eval_annotate]; rfl
  by_cases h1 : 1 ≤ E.level
  · have hr : r = optRound E 0 false dfTop m (annotate E (.node a .or [])) ⟨dfTop, dfTop⟩ := by
      show optLoop E false dfTop m 3 0 _ = _
      rw [optLoop]
      dsimp only
      rw [(h ⟨dfTop, dfTop⟩).1 h1]
      rfl
    rw [hr]
    obtain ⟨k1, k2, k3, k4⟩ := h ⟨dfTop, dfTop⟩
    refine ⟨fun w => ?_, k3, k4⟩
    rw [k1 h1]
    exact hs.false_ w
  · have hround : ∀ i aft, optRound E i false dfTop m (annotate E (.node a .or [])) aft = ⟨annotate E (.node a .or []), aft, m⟩ := by
      intro i aft
      have h2 : ¬ 2 ≤ E.level := by omega
      have h3 : ¬ 3 ≤ E.level := by omega
      simp [optRound, h1, h2, h3]
    have hr : r = ⟨annotate E (.node a .or []), ⟨dfTop, dfTop⟩, m⟩ := by
      show optLoop E false dfTop m 3 0 _ = _
      have hp : (annotate E (.node a .or []) : Expr T).isParent = true := rfl
      rw [optLoop]; dsimp only; rw [hround, if_pos hp, optLoop]; dsimp only
      rw [hround, if_pos hp, optLoop]; dsimp only
      rw [hround, if_pos hp, optLoop]
    rw [hr]
    exact ⟨hev, rfl, fun h => by omega⟩

/-- `optimize_low` for what is excluded. -/
theorem exclude_low (hl : E.level ≤ 1) (hs : SemOK sem) (e : Expr T) (h : WFExclude e) (w : W) :
    Eqv false (eval sem e w) (eval sem (optimize E false dfTop dfBottom e).e w) := by
  rcases h with h | ⟨a, rfl⟩
  · exact optimize_low E hl hs false dfTop dfBottom e h w
  · rw [(optimize_empty E hs dfBottom a).1 w]
    exact ⟨rfl, rfl, fun _ _ => rfl⟩

/-- `optimize_ok` for what is excluded. -/
theorem exclude_ok (hO : Possible o) (h2 : 2 ≤ E.level) (hu : 0 < u) (hf : FileOK E o f) (hon : OnFile f E.level sem) (hs : SemOK sem)
    (hp : PureSem E.level sem) (e : Expr T) (h : WFExclude e) (hnc : NoComma e) (hl : AllLeaves (LP o f u E.level) e) (w : W) :
      (Owned E o (optimize E false dfTop dfBottom e).a.f ∧ ∃ e' : Expr T, AllLeaves (LP o f u E.level) e' ∧
        ∀ (sem' : Leaf → W → Res W), SemOK sem' → ∀ w, eval sem' (optimize E false dfTop dfBottom e).e w = eval sem' e' w) ∧
      Eqv false (eval sem e w) (eval sem (optimize E false dfTop dfBottom e).e w) ∧
      ((optimize E false dfTop dfBottom e).a.ok f u (eval sem e w)) ∧
      (¬ InDom f u (optimize E false dfTop dfBottom e).impure → (eval sem e w).q = false ∧ (eval sem e w).w = w) := by
  rcases h with h | ⟨a, rfl⟩
  · obtain ⟨⟨k4, k5⟩, _, k⟩ := optimize_ok E hO h2 hu hf hon hs hp false dfTop dfBottom e h hnc hl (Owned.top hO)
    obtain ⟨k1, k2, k3⟩ := k w (InDom.top hu hf.toRealFile)
    exact ⟨⟨k4, _, k5, fun _ _ _ => rfl⟩, k1, k2 rfl, k3⟩
  · obtain ⟨k1, k2, k3⟩ := optimize_empty E hs dfBottom a
    refine ⟨⟨?_, .node a .or [], hl, fun sem' hs' w => (optimize_empty E hs' dfBottom a).1 w⟩, ?_, ?_, fun _ => ⟨rfl, rfl⟩⟩
    · rw [k3 h2]; exact Owned.top hO
    · rw [k1 w]
      exact ⟨rfl, rfl, fun _ _ => rfl⟩
    · rw [k3 h2]
      intro _
      exact ⟨fun hh => (by cases hh), fun _ => InDom.top hu hf.toRealFile⟩

end Verif.Opt
