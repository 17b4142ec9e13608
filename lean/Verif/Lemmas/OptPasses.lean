import Verif.Lemmas.OptEval
/-!
# annotate, canonicalize and simplify preserve behaviour
-/
namespace Verif.Opt
variable {T W : Type} {sem : Leaf → W → Res W} (E : Env T)

theorem childIgn_last (o : Op) (ign : Bool) : childIgn o ign true = ign := by cases o <;> rfl

/-- Structural flags are valid when the children's are. -/
theorem nodeAnn_flagsOK (o : Op) : ∀ (cs : List (Expr T)) (w : W), arityOK o cs →
    Vs sem o false cs w → flagsOK (nodeAnn E o cs) (evalOp o (evals sem cs) w) := by
  intro cs
  cases o with
  | not =>
    intro w har hv
    match cs, har with
    | [c], _ =>
      have hf := V_flags (Vs_cons.1 hv).1
      intro hq
      have := hf (by simpa [evalOp, evalNot] using hq)
      simp only [nodeAnn, evalOp, evals_cons, evals_nil, evalNot, Expr.af, Expr.at_]
      exact ⟨fun h => by simp [this.2 h], fun h => by simp [this.1 h]⟩
  | and =>
    intro w har
    clear har
    induction cs generalizing w with
    | nil => intro _ _; simp [nodeAnn, evalOp, evalAnd]
    | cons c cs ih =>
      intro hv hq
      obtain ⟨hvc, hvs⟩ := Vs_cons.1 hv
      have hvc : V sem false c w := by
        have : childIgn .and false cs.isEmpty = false := by cases cs <;> rfl
        rwa [this] at hvc
      have hf := V_flags hvc
      simp only [evalOp, evals_cons, evalAnd_cons] at hq ⊢
      simp only [nodeAnn, List.all_cons, List.any_cons, Bool.and_eq_true, Bool.or_eq_true]
      split at hq
      · rename_i hc
        rw [if_pos hc]
        have hcq : (eval sem c w).q = false ∧ (eval sem c w).r = true := by
          simp only [cont, Bool.and_eq_true] at hc; simp_all
        have := ih _ (hvs hc) hq
        simp only [nodeAnn] at this
        refine ⟨fun h => this.1 h.2, fun h => ?_⟩
        rcases h with h | h
        · have := (hf hcq.1).2 h; simp [hcq.2] at this
        · exact this.2 h
      · rename_i hc
        rw [if_neg hc]
        have hcr : (eval sem c w).r = false := by
          simp only [cont] at hc; simp only at hq; simp_all
        refine ⟨fun h => ?_, fun _ => rfl⟩
        have := (hf hq).1 h.1; simp [hcr] at this
  | or =>
    intro w har
    clear har
    induction cs generalizing w with
    | nil => intro _ _; simp [nodeAnn, evalOp, evalOr]
    | cons c cs ih =>
      intro hv hq
      obtain ⟨hvc, hvs⟩ := Vs_cons.1 hv
      have hvc : V sem false c w := by
        have : childIgn .or false cs.isEmpty = false := by cases cs <;> rfl
        rwa [this] at hvc
      have hf := V_flags hvc
      simp only [evalOp, evals_cons, evalOr_cons] at hq ⊢
      simp only [nodeAnn, List.all_cons, List.any_cons, Bool.and_eq_true, Bool.or_eq_true]
      split at hq
      · rename_i hc
        rw [if_pos hc]
        have hcq : (eval sem c w).q = false ∧ (eval sem c w).r = false := by
          simp only [cont, Bool.and_eq_true] at hc; simp_all
        have := ih _ (hvs hc) hq
        simp only [nodeAnn] at this
        refine ⟨fun h => ?_, fun h => this.2 h.2⟩
        rcases h with h | h
        · have := (hf hcq.1).1 h; simp [hcq.2] at this
        · exact this.1 h
      · rename_i hc
        rw [if_neg hc]
        have hcr : (eval sem c w).r = true := by
          simp only [cont] at hc; simp only at hq; simp_all
        refine ⟨fun _ => rfl, fun h => ?_⟩
        have := (hf hq).2 h.1; simp [hcr] at this
  | comma =>
    intro w har
    induction cs generalizing w with
    | nil => simp [arityOK] at har
    | cons c cs ih =>
      intro hv hq
      obtain ⟨hvc, hvs⟩ := Vs_cons.1 hv
      cases cs with
      | nil =>
        have hf := V_flags (e := c) (w := w) (sem := sem) (by simpa [childIgn] using hvc)
        simpa [nodeAnn, evalOp, evalComma, Expr.at_, Expr.af] using hf (by simpa [evalOp, evalComma] using hq)
      | cons d ds =>
        simp only [evalOp, evals_cons, evalComma_cons] at hq ⊢
        split at hq
        · rename_i hc
          rw [if_pos hc]
          have := ih _ (by simp [arityOK]) (hvs hc) (by simpa [evalOp] using hq)
          simpa [nodeAnn, evalOp, List.getLast?_cons_cons] using this
        · rename_i hc
          simp [cont, hq] at hc

theorem annotate1_V (a : Ann T) (o : Op) (cs : List (Expr T)) (ign : Bool) (w : W) (har : arityOK o cs)
    (hv : Vs sem o ign cs w) : V sem ign (annotate1 E (.node a o cs)) w := by
  rw [annotate1, V_node]
  exact ⟨fun hi => by subst hi; exact nodeAnn_flagsOK E o cs w har hv, hv⟩

theorem nodeAnn_pure (o : Op) (cs : List (Expr T)) (har : arityOK o cs) :
    (nodeAnn E o cs).pure = cs.all Expr.pure := by
  cases o with
  | not => match cs, har with
    | [c], _ => simp [nodeAnn]
  | _ => rfl

theorem annotate1_good (a : Ann T) (o : Op) (cs : List (Expr T)) (har : arityOK o cs)
    (hg : ∀ c ∈ cs, Good E.level c) : Good E.level (annotate1 E (.node a o cs)) := by
  rw [annotate1, Good_node]
  exact ⟨har, nodeAnn_pure E o cs har, hg⟩

@[simp] theorem eval_annotate1 (e : Expr T) : eval sem (annotate1 E e) = eval sem e := by
  cases e <;> simp [annotate1]

theorem constE_good (b : Bool) : Good E.level (constE E b) := by
  cases b <;> simp [constE, Good_leaf, leafAnn]

theorem constE_V (hs : SemOK sem) (b : Bool) (ign : Bool) (w : W) : V sem ign (constE E b) w := by
  cases b <;> simp [constE, flagsOK, leafAnn, atLeaf, afLeaf, hs.true_, hs.false_]

theorem eval_constE (hs : SemOK sem) (b : Bool) (w : W) : eval sem (constE E b) w = ⟨b, false, w⟩ := by
  cases b <;> simp [constE, hs.true_, hs.false_]

theorem constE_pure (b : Bool) : (constE E b).pure = true := by
  cases b <;> simp [constE, Expr.pure, Expr.ann, leafAnn, pureLeaf]

/-! ### pass 0: annotate -/

theorem annotates_eq_map (cs : List (Expr T)) : annotates E cs = cs.map (annotate E) := by
  induction cs with
  | nil => simp [annotates]
  | cons c cs ih => simp [annotates, ih]

theorem eval_annotate : ∀ e : Expr T, eval sem (annotate E e) = eval sem e := by
  intro e
  induction e using Expr.ind with
  | hl a l => simp [annotate]
  | hn a o cs ih =>
    simp only [annotate, eval_node, annotates_eq_map, evals_eq_map, List.map_map]
    congr 1
    apply List.map_congr_left
    intro c hc
    exact ih c hc

mutual
/-- Operators have the right number of operands, everywhere in the tree. -/
def Arity : Expr T → Prop
  | .leaf _ _ => True
  | .node _ o cs => arityOK o cs ∧ Aritys cs
/-- `Arity` for all children. -/
def Aritys : List (Expr T) → Prop
  | [] => True
  | c :: cs => Arity c ∧ Aritys cs
end

theorem Aritys_iff {cs : List (Expr T)} : Aritys cs ↔ ∀ c ∈ cs, Arity c := by
  induction cs with
  | nil => simp [Aritys]
  | cons c cs ih => simp [Aritys, ih]

theorem annotate_good : ∀ e : Expr T, Arity e → Good E.level (annotate E e) := by
  intro e
  induction e using Expr.ind with
  | hl a l => intro _; simp [annotate, Good_leaf, leafAnn]
  | hn a o cs ih =>
    intro h
    rw [Arity, Aritys_iff] at h
    have har : arityOK o (annotates E cs) := by
      rw [annotates_eq_map]
      have := h.1
      cases o <;> simp_all [arityOK]
    rw [annotate, Good_node]
    refine ⟨har, nodeAnn_pure E o _ har, ?_⟩
    rw [annotates_eq_map]
    intro c hc
    obtain ⟨d, hd, rfl⟩ := List.mem_map.1 hc
    exact ih d hd (h.2 d hd)

theorem annotate_V (hs : SemOK sem) : ∀ (e : Expr T) (ign : Bool) (w : W), Arity e →
    V sem ign (annotate E e) w := by
  intro e
  induction e using Expr.ind with
  | hl a l =>
    intro ign w _
    simp only [annotate, V_leaf]
    intro hq
    exact ⟨fun h => hs.at_ l w (by simpa [leafAnn] using h) hq, fun h => hs.af l w (by simpa [leafAnn] using h) hq⟩
  | hn a o cs ih =>
    intro ign w h
    rw [Arity, Aritys_iff] at h
    have har : arityOK o (annotates E cs) := by
      rw [annotates_eq_map]
      have := h.1
      cases o <;> simp_all [arityOK]
    have := annotate1_V (sem := sem) E a o (annotates E cs) ign w har (by
      rw [annotates_eq_map]
      have hcs := h.2
      clear h har
      induction cs generalizing w with
      | nil => simp
      | cons c cs ihl =>
        simp only [List.map_cons, Vs_cons]
        exact ⟨ih c (by simp) _ _ (hcs c (by simp)),
          fun _ => ihl (fun d hd => ih d (by simp [hd])) _ (fun d hd => hcs d (by simp [hd]))⟩)
    simpa [annotate, annotate1] using this

/-! ### Negation -/

/-- The second result is the negation of the first. -/
def Neg (ign : Bool) (x y : Res W) : Prop :=
  x.q = y.q ∧ x.w = y.w ∧ (ign = false → x.q = false → y.r = !x.r)

theorem negate_good (e : Expr T) (h : Good E.level e) : Good E.level (negate E e) := by
  unfold negate
  split
  · rw [Good_node] at h; exact h.2.2 _ (by simp)
  · exact constE_good E _
  · exact constE_good E _
  · exact annotate1_good E _ _ _ (by simp [arityOK]) (by simpa using h)

theorem negate_sound (hs : SemOK sem) (ign : Bool) (e : Expr T) (w : W) (hg : Good E.level e)
    (h : V sem ign e w) :
    V sem ign (negate E e) w ∧ Neg ign (eval sem e w) (eval sem (negate E e) w) := by
  unfold negate
  split
  · rename_i a c cs
    rw [Good_node] at hg
    have hcs : cs = [] := by
      have := hg.1; simp [arityOK] at this; exact this
    subst hcs
    obtain ⟨_, hv⟩ := V_node.1 h
    refine ⟨by simpa [childIgn] using (Vs_cons.1 hv).1, ?_⟩
    exact ⟨rfl, rfl, fun _ _ => by simp [evalOp, evalNot]⟩
  · exact ⟨constE_V E hs _ _ _, by simp [Neg, eval_constE E hs, hs.true_]⟩
  · exact ⟨constE_V E hs _ _ _, by simp [Neg, eval_constE E hs, hs.false_]⟩
  · refine ⟨annotate1_V E _ _ _ _ _ (by simp [arityOK]) ?_, ?_⟩
    · simp only [Vs_cons, childIgn]; exact ⟨h, fun hc => by simp [cont] at hc⟩
    · exact ⟨by simp [evalOp, evalNot], by simp [evalOp, evalNot], fun _ _ => by simp [evalOp, evalNot]⟩

theorem Neg.cont {o : Op} (ho : o = .and ∨ o = .or) {x y : Res W} (h : Neg false x y) :
    Opt.cont o x = Opt.cont o.flip y := by
  obtain ⟨h1, _, h3⟩ := h
  cases hq : x.q with
  | true => rw [hq] at h1; rcases ho with rfl | rfl <;> simp [Opt.cont, Op.flip, hq, ← h1]
  | false =>
    have h3 := h3 rfl hq
    rw [hq] at h1
    rcases ho with rfl | rfl <;> simp [Opt.cont, Op.flip, hq, ← h1, h3]

/-- De Morgan's laws. -/
theorem demorgan (hs : SemOK sem) (o : Op) (ho : o = .and ∨ o = .or) (ign : Bool) :
    ∀ (cs : List (Expr T)) (w : W), (∀ c ∈ cs, Good E.level c) → Vs sem o ign cs w →
      Vs sem o.flip ign (cs.map (negate E)) w ∧
      Neg ign (evalOp o (evals sem cs) w) (evalOp o.flip (evals sem (cs.map (negate E))) w) := by
  intro cs
  induction cs with
  | nil => intro w _ _; rcases ho with rfl | rfl <;> simp [Neg, Op.flip, evalOp, evalAnd, evalOr]
  | cons c cs ih =>
    intro w hg hv
    obtain ⟨hvc, hvs⟩ := Vs_cons.1 hv
    obtain ⟨hv', hn⟩ := negate_sound E hs _ c w (hg c (by simp)) hvc
    have hci : ∀ l, childIgn o ign l = childIgn o.flip ign l := by
      rcases ho with rfl | rfl <;> intro l <;> rfl
    have ih' := fun w => ih w (fun d hd => hg d (by simp [hd]))
    rw [hci] at hv' hn
    simp only [List.map_cons, Vs_cons, evals_cons]
    have hemp : (cs.map (negate E)).isEmpty = cs.isEmpty := by cases cs <;> rfl
    rw [hemp]
    cases cs with
    | nil =>
      refine ⟨⟨hv', by simp⟩, ?_⟩
      simp only [List.isEmpty_nil, childIgn_last] at hn
      obtain ⟨e1, e2, e3⟩ := hn
      rcases ho with rfl | rfl <;> simp only [Op.flip, evalOp, List.map_nil, evals_nil, evalAnd_cons, evalOr_cons, evalAnd, evalOr]
      all_goals
        cases hq : (eval sem c w).q with
        | true =>
          have : (eval sem (negate E c) w).q = true := by rw [← e1, hq]
          simp [cont, hq, this, Neg, e2]
        | false =>
          have hq' : (eval sem (negate E c) w).q = false := by rw [← e1, hq]
          refine ⟨?_, ?_, ?_⟩
          · simp only [cont, hq, hq']; split <;> split <;> simp_all
          · simp only [cont, hq, hq']; split <;> split <;> simp_all
          · intro hi _
            have := e3 hi hq
            simp only [cont, hq, hq', this]; cases (eval sem c w).r <;> simp
    | cons d ds =>
      have hf : childIgn o.flip ign (d :: ds).isEmpty = false := by rcases ho with rfl | rfl <;> rfl
      rw [hf] at hn hv' ⊢
      have hcc : cont o (eval sem c w) = cont o.flip (eval sem (negate E c) w) := Neg.cont ho hn
      refine ⟨⟨hv', fun h => ?_⟩, ?_⟩
      · rw [← hcc] at h; rw [← hn.2.1]; exact (ih' _ (hvs h)).1
      · have ih2 := fun h => (ih' _ (hvs h)).2
        generalize d :: ds = l at ih2 ⊢
        rcases ho with rfl | rfl <;> simp only [Op.flip, evalOp, evalAnd_cons, evalOr_cons] at *
        all_goals
          rw [← hcc]
          split
          · rename_i h
            rw [← hn.2.1]; exact ih2 h
          · exact ⟨hn.1, hn.2.1, fun _ _ => rfl⟩

theorem negateLast_sound (hs : SemOK sem) (ign : Bool) :
    ∀ (cs : List (Expr T)) (w : W), cs ≠ [] → (∀ c ∈ cs, Good E.level c) → Vs sem .comma ign cs w →
      Vs sem .comma ign (negateLast E cs) w ∧
      Neg ign (evalComma (evals sem cs) w) (evalComma (evals sem (negateLast E cs)) w) := by
  intro cs
  induction cs with
  | nil => intro w h; simp at h
  | cons c cs ih =>
    intro w _ hg hv
    obtain ⟨hvc, hvs⟩ := Vs_cons.1 hv
    cases cs with
    | nil =>
      obtain ⟨hv', hn⟩ := negate_sound E hs _ c w (hg c (by simp)) hvc
      simp only [List.isEmpty_nil, childIgn_last] at hv' hn
      simp only [negateLast, Vs_cons, evals_cons, evals_nil, evalComma]
      exact ⟨⟨by simpa [childIgn_last] using hv', by simp⟩, hn⟩
    | cons d ds =>
      have ih' := fun h => ih _ (by simp) (fun x hx => hg x (by simp [hx])) (hvs h)
      rw [negateLast.eq_def]
      dsimp only
      have hne : ∃ y ys, negateLast E (d :: ds) = y :: ys := by
        cases ds <;> simp [negateLast]
      obtain ⟨y, ys, hy⟩ := hne
      rw [hy] at ih' ⊢
      rw [Vs_cons]
      refine ⟨⟨by simpa using hvc, fun h => (ih' h).1⟩, ?_⟩
      have ih2 := fun h => (ih' h).2
      simp only [evals_cons, evalComma_cons] at ih2 ⊢
      split
      · rename_i h; exact ih2 h
      · rename_i h
        refine ⟨rfl, rfl, fun _ hq => ?_⟩
        simp [cont, hq] at h

theorem negateLast_good : ∀ (cs : List (Expr T)), (∀ c ∈ cs, Good E.level c) →
    ∀ c ∈ negateLast E cs, Good E.level c := by
  intro cs
  induction cs with
  | nil => simp [negateLast]
  | cons c cs ih =>
    intro h
    cases cs with
    | nil => simp only [negateLast, List.mem_singleton, forall_eq]; exact negate_good E c (h c (by simp))
    | cons d ds =>
      rw [negateLast.eq_def]
      dsimp only
      intro x hx
      rcases List.mem_cons.1 hx with rfl | hx
      · exact h _ (by simp)
      · exact ih (fun y hy => h y (by simp [hy])) x hx

theorem negateLast_ne_nil {cs : List (Expr T)} (h : cs ≠ []) : negateLast E cs ≠ [] := by
  match cs, h with
  | [c], _ => simp [negateLast]
  | c :: d :: ds, _ => simp [negateLast]

/-! ### canonicalize -/

theorem flatten_good (level : Nat) (o : Op) : ∀ (cs : List (Expr T)), (∀ c ∈ cs, Good level c) →
    ∀ c ∈ flatten o cs, Good level c := by
  intro cs
  induction cs with
  | nil => simp [flatten]
  | cons c cs ih =>
    intro h x hx
    have ih' := ih (fun y hy => h y (by simp [hy]))
    cases c with
    | leaf b l =>
      rw [flatten] at hx
      rcases List.mem_cons.1 hx with rfl | hx
      · exact h _ (by simp)
      · exact ih' x hx
    | node b o' ds =>
      rw [flatten] at hx
      split at hx
      · rcases List.mem_append.1 hx with hx | hx
        · exact (Good_node.1 (h _ (List.mem_cons_self ..))).2.2 x hx
        · exact ih' x hx
      · rcases List.mem_cons.1 hx with rfl | hx
        · exact h _ (by simp)
        · exact ih' x hx

theorem flatten_ne_nil (level : Nat) (o : Op) (ho : o ≠ .not) {cs : List (Expr T)}
    (hg : ∀ c ∈ cs, Good level c) (h : cs ≠ []) : flatten o cs ≠ [] := by
  match cs, h with
  | .leaf b l :: cs, _ => simp [flatten]
  | .node b o' ds :: cs, _ =>
    rw [flatten]
    split
    · rename_i heq
      have := (Good_node.1 (hg _ (List.mem_cons_self ..))).1
      subst heq
      cases o' <;> simp_all [arityOK]
    · simp

/-- Evaluation of a concatenation. -/
theorem evalAnd_append (xs ys : List (W → Res W)) (w : W) :
    evalAnd (xs ++ ys) w = if cont .and (evalAnd xs w) then evalAnd ys (evalAnd xs w).w else evalAnd xs w := by
  induction xs generalizing w with
  | nil => simp [evalAnd, cont]
  | cons x xs ih =>
    simp only [List.cons_append, evalAnd_cons]
    split
    · exact ih _
    · rename_i h; simp [cont]

theorem evalOr_append (xs ys : List (W → Res W)) (w : W) :
    evalOr (xs ++ ys) w = if cont .or (evalOr xs w) then evalOr ys (evalOr xs w).w else evalOr xs w := by
  induction xs generalizing w with
  | nil => simp [evalOr, cont]
  | cons x xs ih =>
    simp only [List.cons_append, evalOr_cons]
    split
    · exact ih _
    · rename_i h; simp [cont]

theorem evalComma_append (xs ys : List (W → Res W)) (hx : xs ≠ []) (hy : ys ≠ []) (w : W) :
    evalComma (xs ++ ys) w = if cont .comma (evalComma xs w) then evalComma ys (evalComma xs w).w else evalComma xs w := by
  induction xs generalizing w with
  | nil => simp at hx
  | cons x xs ih =>
    cases xs with
    | nil =>
      match ys, hy with
      | y :: ys, _ => rw [List.cons_append, List.nil_append, evalComma_cons]; rfl
    | cons z zs =>
      have := fun w => ih (by simp) w
      simp only [List.cons_append, evalComma_cons] at this ⊢
      split
      · exact this _
      · rename_i h; simp [h]

theorem evals_append (xs ys : List (Expr T)) : evals sem (xs ++ ys) = evals sem xs ++ evals sem ys := by
  simp [evals_eq_map]

/-- Flattening does not change the evaluation at all. -/
theorem flatten_eval (level : Nat) (o : Op) (ho : o ≠ .not) : ∀ (cs : List (Expr T)),
    (∀ c ∈ cs, Good level c) → ∀ w, evalOp o (evals sem (flatten o cs)) w = evalOp o (evals sem cs) w := by
  intro cs
  induction cs with
  | nil => intro _ w; simp [flatten]
  | cons c cs ih =>
    intro hg w
    have ih' := ih (fun y hy => hg y (by simp [hy]))
    have hemp : (flatten o cs = [] ↔ cs = []) := by
      constructor
      · intro h
        cases cs with
        | nil => rfl
        | cons d ds => exact absurd h (flatten_ne_nil level o ho (fun y hy => hg y (by simp [hy])) (by simp))
      · intro h; subst h; simp [flatten]
    have step : ∀ (c : Expr T), evalOp o (evals sem (c :: flatten o cs)) w = evalOp o (evals sem (c :: cs)) w := by
      intro c
      cases o with
      | not => exact absurd rfl ho
      | and => simp only [evalOp, evals_cons, evalAnd_cons] at ih' ⊢; simp only [ih']
      | or => simp only [evalOp, evals_cons, evalOr_cons] at ih' ⊢; simp only [ih']
      | comma =>
        cases cs with
        | nil => simp [flatten]
        | cons d ds =>
          cases hfl : flatten .comma (d :: ds) with
          | nil => exact absurd hfl (fun h => by simpa using hemp.1 h)
          | cons y ys =>
            rw [hfl] at ih'
            simp only [evalOp, evals_cons, evalComma_cons] at ih' ⊢
            simp only [ih']
    cases c with
    | leaf b l => rw [flatten]; exact step _
    | node b o' ds =>
      rw [flatten]
      split
      · rename_i heq
        subst heq
        rw [← step (.node b o' ds), evals_append, evals_cons, eval_node]
        cases o' with
        | not => exact absurd rfl ho
        | and =>
          simp only [evalOp, evalAnd_append, evalAnd_cons]
          split
          · rfl
          · rename_i h
            have hr : ∀ x : List (W → Res W), ∀ w, cont .and (evalAnd x w) ≠ true → (evalAnd x w).r = false := by
              intro x
              induction x with
              | nil => simp [evalAnd, cont]
              | cons y ys ihy =>
                intro w; simp only [evalAnd_cons]; split
                · exact ihy _
                · simp
            rw [← hr _ _ h]
        | or =>
          simp only [evalOp, evalOr_append, evalOr_cons]
          split
          · rfl
          · rename_i h
            have hr : ∀ x : List (W → Res W), ∀ w, cont .or (evalOr x w) ≠ true → (evalOr x w).r = true := by
              intro x
              induction x with
              | nil => simp [evalOr, cont]
              | cons y ys ihy =>
                intro w; simp only [evalOr_cons]; split
                · exact ihy _
                · simp
            rw [← hr _ _ h]
        | comma =>
          have hds := (Good_node.1 (hg _ (List.mem_cons_self ..))).1
          simp only [arityOK] at hds
          cases hfl : flatten .comma cs with
          | nil => simp [evalOp, evalComma]
          | cons y ys =>
            simp only [evals_cons, evalOp, evalComma_cons]
            rw [evalComma_append _ _ (by simp [evals_eq_map, hds]) (by simp)]
      · exact step _

/-- Splicing keeps the flags valid. -/
theorem Vs_append (o : Op) (ho : o ≠ .not) (ign : Bool) : ∀ (ds rest : List (Expr T)) (w : W), ds ≠ [] →
    Vs sem o (childIgn o ign rest.isEmpty) ds w →
    (cont o (evalOp o (evals sem ds) w) = true → Vs sem o ign rest (evalOp o (evals sem ds) w).w) →
    Vs sem o ign (ds ++ rest) w := by
  intro ds
  induction ds with
  | nil => intro rest w h; simp at h
  | cons d ds ih =>
    intro rest w _ hv hr
    obtain ⟨hvd, hvs⟩ := Vs_cons.1 hv
    rw [List.cons_append, Vs_cons]
    cases ds with
    | nil =>
      rw [List.nil_append]
      refine ⟨by simpa [childIgn_last] using hvd, fun h => ?_⟩
      have := hr
      cases o with
      | not => exact absurd rfl ho
      | comma => simpa [evalOp, evalComma] using hr (by simpa [evalOp, evalComma] using h)
      | and =>
        simp only [evalOp, evals_cons, evals_nil, evalAnd_cons, if_pos h, evalAnd] at hr
        exact hr (by simp [cont])
      | or =>
        simp only [evalOp, evals_cons, evals_nil, evalOr_cons, if_pos h, evalOr] at hr
        exact hr (by simp [cont])
    | cons e es =>
      refine ⟨?_, fun h => ih rest _ (by simp) (hvs h) ?_⟩
      · have : childIgn o (childIgn o ign rest.isEmpty) (e :: es).isEmpty = childIgn o ign ((e :: es) ++ rest).isEmpty := by
          cases o <;> cases rest <;> simp_all [childIgn]
        rw [← this]; exact hvd
      · intro h2
        cases o with
        | not => exact absurd rfl ho
        | and =>
          rw [evals_cons] at hr
          simp only [evalOp, evalAnd_cons (eval sem d), if_pos h] at hr h2
          exact hr h2
        | or =>
          rw [evals_cons] at hr
          simp only [evalOp, evalOr_cons (eval sem d), if_pos h] at hr h2
          exact hr h2
        | comma =>
          simp only [evals_cons, evalOp, evalComma_cons (eval sem d), if_pos h] at hr h2 ⊢
          exact hr h2

theorem flatten_Vs (level : Nat) (o : Op) (ho : o ≠ .not) (ign : Bool) : ∀ (cs : List (Expr T)) (w : W),
    (∀ c ∈ cs, Good level c) → Vs sem o ign cs w → Vs sem o ign (flatten o cs) w := by
  intro cs
  induction cs with
  | nil => intro w _ _; simp [flatten]
  | cons c cs ih =>
    intro w hg hv
    have ih' := fun w => ih w (fun y hy => hg y (by simp [hy]))
    obtain ⟨hvc, hvs⟩ := Vs_cons.1 hv
    have hemp : (flatten o cs).isEmpty = cs.isEmpty := by
      cases cs with
      | nil => simp [flatten]
      | cons d ds =>
        have := flatten_ne_nil level o ho (fun y hy => hg y (List.mem_cons_of_mem _ hy)) (List.cons_ne_nil d ds)
        cases hfl : flatten o (d :: ds) with
        | nil => exact absurd hfl this
        | cons _ _ => rfl
    have step : Vs sem o ign (c :: flatten o cs) w := by
      rw [Vs_cons, hemp]; exact ⟨hvc, fun h => ih' _ (hvs h)⟩
    cases c with
    | leaf b l => rw [flatten]; exact step
    | node b o' ds =>
      rw [flatten]
      split
      · rename_i heq
        subst heq
        have hds := (Good_node.1 (hg _ (List.mem_cons_self ..))).1
        refine Vs_append o' ho ign ds _ w ?_ ?_ ?_
        · cases o' <;> simp_all [arityOK]
        · rw [hemp]; exact (V_node.1 hvc).2
        · intro h
          have := hvs (by rw [eval_node]; exact h)
          rw [eval_node] at this
          exact ih' _ this
      · exact step

theorem canonLocal_good (ign : Bool) (e : Expr T) (h : Good E.level e) : Good E.level (canonLocal E ign e) := by
  match e, h with
  | .leaf a l, h => simpa [canonLocal] using h
  | .node a .not [], h => simpa [canonLocal] using h
  | .node a .not (c :: d :: ds), h => simpa [canonLocal] using h
  | .node a .not [c], h =>
    have hc := (Good_node.1 h).2.2 c (by simp)
    simp only [canonLocal]
    unfold canonNot
    split
    · exact (Good_node.1 hc).2.2 _ (by simp)
    · rename_i b ds
      have hc := Good_node.1 hc
      exact annotate1_good E _ _ _ (by have := hc.1; simp_all [arityOK])
        (by intro x hx; obtain ⟨y, hy, rfl⟩ := List.mem_map.1 hx; exact negate_good E y (hc.2.2 y hy))
    · rename_i b ds
      have hc := Good_node.1 hc
      exact annotate1_good E _ _ _ (by have := hc.1; simp_all [arityOK])
        (by intro x hx; obtain ⟨y, hy, rfl⟩ := List.mem_map.1 hx; exact negate_good E y (hc.2.2 y hy))
    · rename_i b ds
      have hc := Good_node.1 hc
      exact annotate1_good E _ _ _ (negateLast_ne_nil E hc.1) (negateLast_good E ds hc.2.2)
    · exact constE_good E _
    · exact constE_good E _
    · exact h
  | .node a .and cs, h =>
    have h := Good_node.1 h
    simp only [canonLocal]
    exact annotate1_good E _ _ _ (flatten_ne_nil E.level .and (by simp) h.2.2 h.1) (flatten_good _ _ _ h.2.2)
  | .node a .or cs, h =>
    have h := Good_node.1 h
    simp only [canonLocal]
    exact annotate1_good E _ _ _ (flatten_ne_nil E.level .or (by simp) h.2.2 h.1) (flatten_good _ _ _ h.2.2)
  | .node a .comma cs, h =>
    have h := Good_node.1 h
    simp only [canonLocal]
    exact annotate1_good E _ _ _ (flatten_ne_nil E.level .comma (by simp) h.2.2 h.1) (flatten_good _ _ _ h.2.2)

theorem canonNot_sound (hs : SemOK sem) (ign : Bool) (a : Ann T) (c : Expr T) (w : W)
    (h : Good E.level c) (hv : V sem ign (.node a .not [c]) w) :
    V sem ign (canonNot E a c) w ∧ Eqv ign (eval sem (.node a .not [c]) w) (eval sem (canonNot E a c) w) := by
  have hvc : V sem ign c w := by simpa [childIgn] using (Vs_cons.1 (V_node.1 hv).2).1
  have hn : eval sem (.node a .not [c]) w = { eval sem c w with r := !(eval sem c w).r } := by
    simp [evalOp, evalNot]
  rw [hn]
  unfold canonNot
  split
  · rename_i b d ds
    have hg := Good_node.1 h
    have hds : ds = [] := by have := hg.1; simpa [arityOK] using this
    subst hds
    have := (V_node.1 hvc).2
    refine ⟨by simpa [childIgn] using (Vs_cons.1 this).1, Eqv.of_eq ?_⟩
    simp [evalOp, evalNot]
  · rename_i b ds
    have hg := Good_node.1 h
    obtain ⟨h1, h2⟩ := demorgan E hs .and (by simp) ign ds w hg.2.2 (V_node.1 hvc).2
    refine ⟨annotate1_V E _ _ _ _ _ (by have := hg.1; simp_all [arityOK]) h1, ?_⟩
    simp only [eval_annotate1, eval_node]
    exact ⟨h2.1, h2.2.1, fun hi hq => (h2.2.2 hi hq).symm⟩
  · rename_i b ds
    have hg := Good_node.1 h
    obtain ⟨h1, h2⟩ := demorgan E hs .or (by simp) ign ds w hg.2.2 (V_node.1 hvc).2
    refine ⟨annotate1_V E _ _ _ _ _ (by have := hg.1; simp_all [arityOK]) h1, ?_⟩
    simp only [eval_annotate1, eval_node]
    exact ⟨h2.1, h2.2.1, fun hi hq => (h2.2.2 hi hq).symm⟩
  · rename_i b ds
    have hg := Good_node.1 h
    obtain ⟨h1, h2⟩ := negateLast_sound E hs ign ds w hg.1 hg.2.2 (V_node.1 hvc).2
    refine ⟨annotate1_V E _ _ _ _ _ (negateLast_ne_nil E hg.1) h1, ?_⟩
    simp only [eval_annotate1, eval_node]
    exact ⟨h2.1, h2.2.1, fun hi hq => (h2.2.2 hi hq).symm⟩
  · exact ⟨constE_V E hs _ _ _, by simp [eval_constE E hs, hs.true_, Eqv]⟩
  · exact ⟨constE_V E hs _ _ _, by simp [eval_constE E hs, hs.false_, Eqv]⟩
  · exact ⟨hv, by rw [hn]; exact Eqv.refl _⟩

theorem canonLocal_sound (hs : SemOK sem) (ign : Bool) (e : Expr T) (w : W) (h : Good E.level e)
    (hv : V sem ign e w) :
    V sem ign (canonLocal E ign e) w ∧ Eqv ign (eval sem e w) (eval sem (canonLocal E ign e) w) := by
  match e, h, hv with
  | .leaf a l, h, hv => simp only [canonLocal]; exact ⟨hv, Eqv.refl _⟩
  | .node a .not [], h, hv => simp only [canonLocal]; exact ⟨hv, Eqv.refl _⟩
  | .node a .not (c :: d :: ds), h, hv => simp only [canonLocal]; exact ⟨hv, Eqv.refl _⟩
  | .node a .not [c], h, hv =>
    simp only [canonLocal]
    exact canonNot_sound E hs ign a c w ((Good_node.1 h).2.2 c (by simp)) hv
  | .node a .and cs, h, hv =>
    have h := Good_node.1 h
    simp only [canonLocal]
    refine ⟨annotate1_V E _ _ _ _ _ (flatten_ne_nil E.level .and (by simp) h.2.2 h.1)
      (flatten_Vs E.level .and (by simp) ign cs w h.2.2 (V_node.1 hv).2), Eqv.of_eq ?_⟩
    simp only [eval_annotate1, eval_node]
    exact (flatten_eval E.level .and (by simp) cs h.2.2 w).symm
  | .node a .or cs, h, hv =>
    have h := Good_node.1 h
    simp only [canonLocal]
    refine ⟨annotate1_V E _ _ _ _ _ (flatten_ne_nil E.level .or (by simp) h.2.2 h.1)
      (flatten_Vs E.level .or (by simp) ign cs w h.2.2 (V_node.1 hv).2), Eqv.of_eq ?_⟩
    simp only [eval_annotate1, eval_node]
    exact (flatten_eval E.level .or (by simp) cs h.2.2 w).symm
  | .node a .comma cs, h, hv =>
    have h := Good_node.1 h
    simp only [canonLocal]
    refine ⟨annotate1_V E _ _ _ _ _ (flatten_ne_nil E.level .comma (by simp) h.2.2 h.1)
      (flatten_Vs E.level .comma (by simp) ign cs w h.2.2 (V_node.1 hv).2), Eqv.of_eq ?_⟩
    simp only [eval_annotate1, eval_node]
    exact (flatten_eval E.level .comma (by simp) cs h.2.2 w).symm

theorem canonicalize_good (ign : Bool) (e : Expr T) (h : Good E.level e) : Good E.level (canonicalize E ign e) :=
  visit_good _ (canonLocal_good E) e ign h

theorem canonicalize_sound (hs : SemOK sem) (ign : Bool) (e : Expr T) (w : W) (h : Good E.level e)
    (hv : V sem ign e w) :
    V sem ign (canonicalize E ign e) w ∧ Eqv ign (eval sem e w) (eval sem (canonicalize E ign e) w) :=
  visit_sound _ (canonLocal_good E) (canonLocal_sound E hs) e ign w h hv

/-! ### simplify -/

theorem cutPure_and (hp : PureSem E.level sem) : ∀ (cs : List (Expr T)) (w : W),
    (∀ c ∈ cs, Good E.level c) → Vs sem .and true cs w →
      Vs sem .and true (cutPure cs) w ∧
      Eqv true (evalAnd (evals sem cs) w) (evalAnd (evals sem (cutPure cs)) w) := by
  intro cs
  induction cs with
  | nil => intro w _ _; rw [cutPure]; exact ⟨by simp, Eqv.refl _⟩
  | cons c cs ih =>
    intro w hg hv
    obtain ⟨hvc, hvs⟩ := Vs_cons.1 hv
    have ih' := fun w => ih w (fun d hd => hg d (by simp [hd]))
    rw [cutPure]
    split
    · rename_i h
      rw [Bool.and_eq_true, List.isEmpty_iff] at h
      obtain ⟨b, hb⟩ := pure_eval hp c (hg c (by simp)) h.2
      refine ⟨by simp, ?_⟩
      rw [evals_cons, evalAnd_cons]
      split
      · rename_i hc
        have h2 := (ih' _ (hvs hc)).2
        rw [h.1] at h2
        rw [hb] at h2 ⊢
        simpa [Eqv, evalAnd] using h2
      · simp [hb, Eqv, evalAnd]
    · refine ⟨?_, ?_⟩
      · rw [Vs_cons]
        refine ⟨V_weaken c _ _ ?_ w hvc, fun h => (ih' _ (hvs h)).1⟩
        cases cs with
        | nil => simp [cutPure]
        | cons d ds => simp [childIgn]
      · rw [evals_cons, evals_cons, evalAnd_cons, evalAnd_cons]
        split
        · rename_i hc; exact (ih' _ (hvs hc)).2
        · exact Eqv.refl _

theorem andKeep_sound (hs : SemOK sem) (ign : Bool) : ∀ (cs : List (Expr T)) (w : W),
    Vs sem .and ign cs w →
      Vs sem .and ign (andKeep cs) w ∧
      Eqv ign (evalAnd (evals sem cs) w) (evalAnd (evals sem (andKeep cs)) w) := by
  intro cs
  induction cs with
  | nil => intro w _; rw [andKeep]; exact ⟨by simp, Eqv.refl _⟩
  | cons c cs ih =>
    intro w hv
    obtain ⟨hvc, hvs⟩ := Vs_cons.1 hv
    rw [andKeep]
    split
    · rename_i h
      have hc : eval sem c w = ⟨true, false, w⟩ := by
        unfold Expr.isTrue at h
        split at h
        · simpa using hs.true_ w
        · simp at h
      have hcc : cont .and (eval sem c w) = true := by simp [hc, cont]
      have := ih _ (hvs hcc)
      rw [hc] at this
      refine ⟨this.1, ?_⟩
      rw [evals_cons, evalAnd_cons, if_pos hcc, hc]
      exact this.2
    · split
      · rename_i h
        cases cs with
        | nil => exact ⟨hv, Eqv.refl _⟩
        | cons d ds =>
          have hvc : V sem false c w := by simpa [childIgn] using hvc
          refine ⟨by rw [Vs_cons]; exact ⟨V_weaken c _ _ (by simp) w hvc, fun _ => by simp⟩, ?_⟩
          have hf := V_flags hvc
          have hcc : cont .and (eval sem c w) = false := by
            cases hq : (eval sem c w).q with
            | true => simp [cont, hq]
            | false =>
              have := (hf hq).2 h
              simp [cont, this]
          rw [evals_cons, evals_cons sem c [], evalAnd_cons, evalAnd_cons, hcc]
          exact Eqv.refl _
      · refine ⟨?_, ?_⟩
        · rw [Vs_cons]
          refine ⟨V_weaken c _ _ ?_ w hvc, fun h => (ih _ (hvs h)).1⟩
          cases cs with
          | nil => simp [andKeep]
          | cons d ds => simp [childIgn]
        · rw [evals_cons, evals_cons, evalAnd_cons, evalAnd_cons]
          split
          · rename_i hc; exact (ih _ (hvs hc)).2
          · exact Eqv.refl _

theorem evalAnd_single (c : W → Res W) (ign : Bool) (w : W) : Eqv ign (evalAnd [c] w) (c w) := by
  rw [evalAnd_cons]
  cases hr : (c w).r <;> cases hq : (c w).q <;> simp [cont, hr, hq, Eqv, evalAnd]

theorem mem_andKeep {cs : List (Expr T)} {c : Expr T} (h : c ∈ andKeep cs) : c ∈ cs := by
  induction cs with
  | nil => simp [andKeep] at h
  | cons d ds ih =>
    rw [andKeep] at h
    split at h
    · exact List.mem_cons_of_mem _ (ih h)
    · split at h
      · rw [List.mem_singleton] at h; simp [h]
      · rcases List.mem_cons.1 h with rfl | h
        · simp
        · exact List.mem_cons_of_mem _ (ih h)

theorem dropIgnorable_and (hp : 2 ≤ E.level → PureSem E.level sem) (ign : Bool) (cs : List (Expr T)) (w : W)
    (hg : ∀ c ∈ cs, Good E.level c) (hv : Vs sem .and ign cs w) :
    Vs sem .and ign (dropIgnorable E.level ign cs) w ∧
      Eqv ign (evalAnd (evals sem cs) w) (evalAnd (evals sem (dropIgnorable E.level ign cs)) w) := by
  unfold dropIgnorable
  split
  · exact ⟨hv, Eqv.refl _⟩
  · rename_i h
    have hi : ign = true := by cases ign <;> simp_all
    have hl : 2 ≤ E.level := by
      simp only [Bool.or_eq_true, decide_eq_true_eq, not_or] at h; omega
    subst hi
    exact cutPure_and E (hp hl) cs w hg hv

theorem cutPure_or (hp : PureSem E.level sem) : ∀ (cs : List (Expr T)) (w : W),
    (∀ c ∈ cs, Good E.level c) → Vs sem .or true cs w →
      Vs sem .or true (cutPure cs) w ∧
      Eqv true (evalOr (evals sem cs) w) (evalOr (evals sem (cutPure cs)) w) := by
  intro cs
  induction cs with
  | nil => intro w _ _; rw [cutPure]; exact ⟨by simp, Eqv.refl _⟩
  | cons c cs ih =>
    intro w hg hv
    obtain ⟨hvc, hvs⟩ := Vs_cons.1 hv
    have ih' := fun w => ih w (fun d hd => hg d (by simp [hd]))
    rw [cutPure]
    split
    · rename_i h
      rw [Bool.and_eq_true, List.isEmpty_iff] at h
      obtain ⟨b, hb⟩ := pure_eval hp c (hg c (by simp)) h.2
      refine ⟨by simp, ?_⟩
      rw [evals_cons, evalOr_cons]
      split
      · rename_i hc
        have h2 := (ih' _ (hvs hc)).2
        rw [h.1] at h2
        rw [hb] at h2 ⊢
        simpa [Eqv, evalOr] using h2
      · simp [hb, Eqv, evalOr]
    · refine ⟨?_, ?_⟩
      · rw [Vs_cons]
        refine ⟨V_weaken c _ _ ?_ w hvc, fun h => (ih' _ (hvs h)).1⟩
        cases cs with
        | nil => simp [cutPure]
        | cons d ds => simp [childIgn]
      · rw [evals_cons, evals_cons, evalOr_cons, evalOr_cons]
        split
        · rename_i hc; exact (ih' _ (hvs hc)).2
        · exact Eqv.refl _

theorem orKeep_sound (hs : SemOK sem) (ign : Bool) : ∀ (cs : List (Expr T)) (w : W),
    Vs sem .or ign cs w →
      Vs sem .or ign (orKeep cs) w ∧
      Eqv ign (evalOr (evals sem cs) w) (evalOr (evals sem (orKeep cs)) w) := by
  intro cs
  induction cs with
  | nil => intro w _; rw [orKeep]; exact ⟨by simp, Eqv.refl _⟩
  | cons c cs ih =>
    intro w hv
    obtain ⟨hvc, hvs⟩ := Vs_cons.1 hv
    rw [orKeep]
    split
    · rename_i h
      have hc : eval sem c w = ⟨false, false, w⟩ := by
        unfold Expr.isFalse at h
        split at h
        · simpa using hs.false_ w
        · simp at h
      have hcc : cont .or (eval sem c w) = true := by simp [hc, cont]
      have := ih _ (hvs hcc)
      rw [hc] at this
      refine ⟨this.1, ?_⟩
      rw [evals_cons, evalOr_cons, if_pos hcc, hc]
      exact this.2
    · split
      · rename_i h
        cases cs with
        | nil => exact ⟨hv, Eqv.refl _⟩
        | cons d ds =>
          have hvc : V sem false c w := by simpa [childIgn] using hvc
          refine ⟨by rw [Vs_cons]; exact ⟨V_weaken c _ _ (by simp) w hvc, fun _ => by simp⟩, ?_⟩
          have hf := V_flags hvc
          have hcc : cont .or (eval sem c w) = false := by
            cases hq : (eval sem c w).q with
            | true => simp [cont, hq]
            | false =>
              have := (hf hq).1 h
              simp [cont, this]
          rw [evals_cons, evals_cons sem c [], evalOr_cons, evalOr_cons, hcc]
          exact Eqv.refl _
      · refine ⟨?_, ?_⟩
        · rw [Vs_cons]
          refine ⟨V_weaken c _ _ ?_ w hvc, fun h => (ih _ (hvs h)).1⟩
          cases cs with
          | nil => simp [orKeep]
          | cons d ds => simp [childIgn]
        · rw [evals_cons, evals_cons, evalOr_cons, evalOr_cons]
          split
          · rename_i hc; exact (ih _ (hvs hc)).2
          · exact Eqv.refl _

theorem evalOr_single (c : W → Res W) (ign : Bool) (w : W) : Eqv ign (evalOr [c] w) (c w) := by
  rw [evalOr_cons]
  cases hr : (c w).r <;> cases hq : (c w).q <;> simp [cont, hr, hq, Eqv, evalOr]

theorem mem_orKeep {cs : List (Expr T)} {c : Expr T} (h : c ∈ orKeep cs) : c ∈ cs := by
  induction cs with
  | nil => simp [orKeep] at h
  | cons d ds ih =>
    rw [orKeep] at h
    split at h
    · exact List.mem_cons_of_mem _ (ih h)
    · split at h
      · rw [List.mem_singleton] at h; simp [h]
      · rcases List.mem_cons.1 h with rfl | h
        · simp
        · exact List.mem_cons_of_mem _ (ih h)

theorem dropIgnorable_or (hp : 2 ≤ E.level → PureSem E.level sem) (ign : Bool) (cs : List (Expr T)) (w : W)
    (hg : ∀ c ∈ cs, Good E.level c) (hv : Vs sem .or ign cs w) :
    Vs sem .or ign (dropIgnorable E.level ign cs) w ∧
      Eqv ign (evalOr (evals sem cs) w) (evalOr (evals sem (dropIgnorable E.level ign cs)) w) := by
  unfold dropIgnorable
  split
  · exact ⟨hv, Eqv.refl _⟩
  · rename_i h
    have hi : ign = true := by cases ign <;> simp_all
    have hl : 2 ≤ E.level := by
      simp only [Bool.or_eq_true, decide_eq_true_eq, not_or] at h; omega
    subst hi
    exact cutPure_or E (hp hl) cs w hg hv

theorem mem_cutPure {cs : List (Expr T)} {c : Expr T} (h : c ∈ cutPure cs) : c ∈ cs := by
  induction cs with
  | nil => simp [cutPure] at h
  | cons d ds ih =>
    rw [cutPure] at h
    split at h
    · simp at h
    · rcases List.mem_cons.1 h with rfl | h
      · simp
      · exact List.mem_cons_of_mem _ (ih h)

theorem mem_dropIgnorable {level : Nat} {ign : Bool} {cs : List (Expr T)} {c : Expr T}
    (h : c ∈ dropIgnorable level ign cs) : c ∈ cs := by
  unfold dropIgnorable at h
  split at h
  · exact h
  · exact mem_cutPure h

theorem mem_commaKeep {level : Nat} {cs : List (Expr T)} {c : Expr T}
    (h : c ∈ commaKeep level cs) : c ∈ cs := by
  induction cs with
  | nil => simp [commaKeep] at h
  | cons d ds ih =>
    rw [commaKeep] at h
    split at h
    · exact List.mem_cons_of_mem _ (ih h)
    · rcases List.mem_cons.1 h with rfl | h
      · simp
      · exact List.mem_cons_of_mem _ (ih h)

theorem commaKeep_ne_nil {level : Nat} {cs : List (Expr T)} (h : cs ≠ []) : commaKeep level cs ≠ [] := by
  induction cs with
  | nil => simp at h
  | cons d ds ih =>
    rw [commaKeep]
    split
    · rename_i hc
      apply ih
      intro hn; simp [hn] at hc
    · simp

theorem commaKeep_sound (hp : 2 ≤ E.level → PureSem E.level sem) (ign : Bool) : ∀ (cs : List (Expr T)) (w : W),
    (∀ c ∈ cs, Good E.level c) → Vs sem .comma ign cs w →
      Vs sem .comma ign (commaKeep E.level cs) w ∧
      Eqv ign (evalComma (evals sem cs) w) (evalComma (evals sem (commaKeep E.level cs)) w) := by
  intro cs
  induction cs with
  | nil => intro w _ _; rw [commaKeep]; exact ⟨by simp, Eqv.refl _⟩
  | cons c cs ih =>
    intro w hg hv
    obtain ⟨hvc, hvs⟩ := Vs_cons.1 hv
    have ih' := fun w => ih w (fun d hd => hg d (by simp [hd]))
    rw [commaKeep]
    cases cs with
    | nil => simp only [List.isEmpty_nil, Bool.not_true, Bool.and_false, Bool.false_eq_true, if_false]
             rw [commaKeep]; exact ⟨hv, Eqv.refl _⟩
    | cons d ds =>
      split
      · rename_i h
        simp only [Bool.and_eq_true, decide_eq_true_eq] at h
        obtain ⟨b, hb⟩ := pure_eval (hp h.1.1) c (hg c (by simp)) h.1.2
        have hcc : cont .comma (eval sem c w) = true := by simp [hb, cont]
        have h2 := ih' _ (hvs hcc)
        rw [hb] at h2
        refine ⟨h2.1, ?_⟩
        have h3 := h2.2
        rw [evals_cons sem d] at h3
        rw [evals_cons, evals_cons, evalComma_cons, if_pos hcc, hb]
        exact h3
      · have hne := commaKeep_ne_nil (level := E.level) (List.cons_ne_nil d ds)
        cases hk : commaKeep E.level (d :: ds) with
        | nil => exact absurd hk hne
        | cons y ys =>
          rw [hk] at ih'
          refine ⟨?_, ?_⟩
          · rw [Vs_cons]; exact ⟨hvc, fun h => (ih' _ (hvs h)).1⟩
          · have ih2 := fun h => (ih' _ (hvs h)).2
            simp only [evals_cons, evalComma_cons] at ih2 ⊢
            split
            · rename_i h; exact ih2 h
            · exact Eqv.refl _

theorem liftNot_good (a : Ann T) (o : Op) (ho : o = .and ∨ o = .or) (cs : List (Expr T)) (hne : cs ≠ [])
    (hg : ∀ c ∈ cs, Good E.level c) : Good E.level (liftNot E a o cs) := by
  have ar : ∀ l : List (Expr T), l ≠ [] → arityOK o l ∧ arityOK o.flip l := by
    rcases ho with rfl | rfl <;> simp [arityOK, Op.flip]
  unfold liftNot; dsimp only
  split
  · exact annotate1_good E _ _ _ (ar cs hne).1 hg
  · refine negate_good E _ (annotate1_good E _ _ _ (ar _ (by simpa using hne)).2 ?_)
    intro c hc
    obtain ⟨d, hd, rfl⟩ := List.mem_map.1 hc
    exact negate_good E d (hg d hd)

theorem liftNot_sound (hs : SemOK sem) (a : Ann T) (o : Op) (ho : o = .and ∨ o = .or) (ign : Bool)
    (cs : List (Expr T)) (w : W) (hne : cs ≠ []) (hg : ∀ c ∈ cs, Good E.level c) (hv : Vs sem o ign cs w) :
    V sem ign (liftNot E a o cs) w ∧ Eqv ign (evalOp o (evals sem cs) w) (eval sem (liftNot E a o cs) w) := by
  have ar : ∀ l : List (Expr T), l ≠ [] → arityOK o l ∧ arityOK o.flip l := by
    rcases ho with rfl | rfl <;> simp [arityOK, Op.flip]
  unfold liftNot; dsimp only
  split
  · exact ⟨annotate1_V E _ _ _ _ _ (ar cs hne).1 hv, by simp [Eqv.refl]⟩
  · obtain ⟨h1, h2⟩ := demorgan E hs o ho ign cs w hg hv
    have hg' : ∀ c ∈ cs.map (negate E), Good E.level c := by
      intro c hc
      obtain ⟨d, hd, rfl⟩ := List.mem_map.1 hc
      exact negate_good E d (hg d hd)
    have har := (ar (cs.map (negate E)) (by simpa using hne)).2
    obtain ⟨h3, h4⟩ := negate_sound E hs ign _ w
      (annotate1_good E a _ _ har hg') (annotate1_V E a _ _ _ _ har h1)
    refine ⟨h3, ?_⟩
    simp only [eval_annotate1, eval_node] at h4
    refine ⟨h2.1.trans h4.1, h2.2.1.trans h4.2.1, fun hi hq => ?_⟩
    rw [h4.2.2 hi (h2.1 ▸ hq), h2.2.2 hi hq, Bool.not_not]

theorem simpLocal_good (ign : Bool) (e : Expr T) (h : Good E.level e) : Good E.level (simpLocal E ign e) := by
  match e, h with
  | .leaf a l, h => simpa [simpLocal] using h
  | .node a .not [], h => simpa [simpLocal] using h
  | .node a .not (c :: d :: ds), h => simpa [simpLocal] using h
  | .node a .not [c], h =>
    simp only [simpLocal]
    split
    · exact (Good_node.1 h).2.2 c (by simp)
    · exact h
  | .node a .and cs, h =>
    have h := Good_node.1 h
    have hk : ∀ c ∈ andKeep (dropIgnorable E.level ign cs), Good E.level c :=
      fun c hc => h.2.2 c (mem_dropIgnorable (mem_andKeep hc))
    simp only [simpLocal]
    split
    · exact constE_good E _
    · rename_i heq; exact hk _ (by simp [heq])
    · rename_i heq1 heq2
      exact liftNot_good E a .and (by simp) _ heq1 hk
  | .node a .or cs, h =>
    have h := Good_node.1 h
    have hk : ∀ c ∈ orKeep (dropIgnorable E.level ign cs), Good E.level c :=
      fun c hc => h.2.2 c (mem_dropIgnorable (mem_orKeep hc))
    simp only [simpLocal]
    split
    · exact constE_good E _
    · rename_i heq; exact hk _ (by simp [heq])
    · rename_i heq1 heq2
      exact liftNot_good E a .or (by simp) _ heq1 hk
  | .node a .comma cs, h =>
    have h := Good_node.1 h
    have hk : ∀ c ∈ commaKeep E.level cs, Good E.level c :=
      fun c hc => h.2.2 c (mem_commaKeep hc)
    simp only [simpLocal]
    split
    · rename_i heq; exact hk _ (by simp [heq])
    · rw [rebuild, Good_node]
      exact ⟨commaKeep_ne_nil h.1, rfl, hk⟩

theorem simpLocal_sound (hs : SemOK sem) (hp : 2 ≤ E.level → PureSem E.level sem)
    (ign : Bool) (e : Expr T) (w : W) (h : Good E.level e)
    (hv : V sem ign e w) :
    V sem ign (simpLocal E ign e) w ∧ Eqv ign (eval sem e w) (eval sem (simpLocal E ign e) w) := by
  match e, h, hv with
  | .leaf a l, h, hv => simp only [simpLocal]; exact ⟨hv, Eqv.refl _⟩
  | .node a .not [], h, hv => simp only [simpLocal]; exact ⟨hv, Eqv.refl _⟩
  | .node a .not (c :: d :: ds), h, hv => simp only [simpLocal]; exact ⟨hv, Eqv.refl _⟩
  | .node a .not [c], h, hv =>
    simp only [simpLocal]
    split
    · rename_i hi
      subst hi
      have := (Vs_cons.1 (V_node.1 hv).2).1
      refine ⟨by simpa [childIgn] using this, ?_⟩
      simp [evalOp, evalNot, Eqv]
    · exact ⟨hv, Eqv.refl _⟩
  | .node a .and cs, h, hv =>
    have h := Good_node.1 h
    have hv := (V_node.1 hv).2
    have hk : ∀ c ∈ andKeep (dropIgnorable E.level ign cs), Good E.level c :=
      fun c hc => h.2.2 c (mem_dropIgnorable (mem_andKeep hc))
    obtain ⟨h1, h2⟩ := dropIgnorable_and E hp ign cs w h.2.2 hv
    obtain ⟨h3, h4⟩ := andKeep_sound hs ign _ w h1
    have h5 := h2.trans h4
    simp only [simpLocal, eval_node, evalOp]
    split
    · rename_i heq
      rw [heq] at h5
      refine ⟨constE_V E hs _ _ _, h5.trans ?_⟩
      simp [eval_constE E hs, evalAnd, Eqv]
    · rename_i c heq
      rw [heq] at h3 h5
      refine ⟨by simpa [childIgn_last] using (Vs_cons.1 h3).1, h5.trans ?_⟩
      rw [evals_cons, evals_nil]
      exact evalAnd_single _ _ _
    · rename_i heq1 heq2
      obtain ⟨h6, h7⟩ := liftNot_sound E hs a .and (by simp) ign _ w heq1 hk h3
      exact ⟨h6, h5.trans h7⟩
  | .node a .or cs, h, hv =>
    have h := Good_node.1 h
    have hv := (V_node.1 hv).2
    have hk : ∀ c ∈ orKeep (dropIgnorable E.level ign cs), Good E.level c :=
      fun c hc => h.2.2 c (mem_dropIgnorable (mem_orKeep hc))
    obtain ⟨h1, h2⟩ := dropIgnorable_or E hp ign cs w h.2.2 hv
    obtain ⟨h3, h4⟩ := orKeep_sound hs ign _ w h1
    have h5 := h2.trans h4
    simp only [simpLocal, eval_node, evalOp]
    split
    · rename_i heq
      rw [heq] at h5
      refine ⟨constE_V E hs _ _ _, h5.trans ?_⟩
      simp [eval_constE E hs, evalOr, Eqv]
    · rename_i c heq
      rw [heq] at h3 h5
      refine ⟨by simpa [childIgn_last] using (Vs_cons.1 h3).1, h5.trans ?_⟩
      rw [evals_cons, evals_nil]
      exact evalOr_single _ _ _
    · rename_i heq1 heq2
      obtain ⟨h6, h7⟩ := liftNot_sound E hs a .or (by simp) ign _ w heq1 hk h3
      exact ⟨h6, h5.trans h7⟩
  | .node a .comma cs, h, hv =>
    have h := Good_node.1 h
    have hv := V_node.1 hv
    obtain ⟨h1, h2⟩ := commaKeep_sound E hp ign cs w h.2.2 hv.2
    simp only [simpLocal, eval_node, evalOp]
    split
    · rename_i c heq
      rw [heq] at h1 h2
      refine ⟨by simpa [childIgn_last] using (Vs_cons.1 h1).1, h2.trans ?_⟩
      rw [evals_cons, evals_nil]
      exact Eqv.refl _
    · rw [rebuild, V_node]
      refine ⟨⟨fun hi hq => ?_, h1⟩, by simpa [evalOp] using h2⟩
      have hq' : (evalComma (evals sem cs) w).q = false := by rw [h2.1]; exact hq
      have := hv.1 hi hq'
      rw [show evalOp .comma = evalComma from rfl, h2.2.2 hi hq'] at this
      exact this

theorem simplify_good (ign : Bool) (e : Expr T) (h : Good E.level e) : Good E.level (simplify E ign e) :=
  visit_good _ (simpLocal_good E) e ign h

theorem simplify_sound (hs : SemOK sem) (hp : 2 ≤ E.level → PureSem E.level sem)
    (ign : Bool) (e : Expr T) (w : W) (h : Good E.level e)
    (hv : V sem ign e w) :
    V sem ign (simplify E ign e) w ∧ Eqv ign (eval sem e w) (eval sem (simplify E ign e) w) :=
  visit_sound _ (simpLocal_good E) (simpLocal_sound E hs hp) e ign w h hv

end Verif.Opt
