import Verif.Lemmas.OptLoop
/-!
# Flags of pure expressions, and the reorder pass

`SP` says that the flags of side-effect free nodes follow from the constants below them, so
they hold no matter when the node is evaluated.  That is what reordering needs.
-/
namespace Verif.Opt
variable {T W : Type} {sem : Leaf → W → Res W} (E : Env T)

/-- Constant propagation through an operator. -/
def cpOp (o : Op) (xs : List (Option Bool)) : Option Bool :=
  match o with
  | .not => (xs.head?.getD none).map not
  | .and => if xs.any (· == some false) then some false else if xs.all (· == some true) then some true else none
  | .or => if xs.any (· == some true) then some true else if xs.all (· == some false) then some false else none
  | .comma => xs.getLast?.getD none

mutual
/-- The value of a tree as far as it follows from `-true` and `-false` alone. -/
def cp : Expr T → Option Bool
  | .leaf _ .true_ => some true
  | .leaf _ .false_ => some false
  | .leaf _ _ => none
  | .node _ o cs => cpOp o (cps cs)
/-- `cp` of all children. -/
def cps : List (Expr T) → List (Option Bool)
  | [] => []
  | c :: cs => cp c :: cps cs
end

@[simp] theorem cps_eq_map (cs : List (Expr T)) : cps cs = cs.map cp := by
  induction cs with
  | nil => simp [cps]
  | cons c cs ih => simp [cps, ih]

@[simp] theorem cp_node (a : Ann T) (o : Op) (cs : List (Expr T)) : cp (.node a o cs) = cpOp o (cs.map cp) := by
  rw [cp, cps_eq_map]

/-- The flags of a pure node follow from constants. -/
def SP1 (e : Expr T) : Prop :=
  e.pure = true → (e.at_ = true → cp e = some true) ∧ (e.af = true → cp e = some false)

mutual
/-- `SP1` everywhere. -/
def SP : Expr T → Prop
  | .leaf a l => SP1 (.leaf a l)
  | .node a o cs => SP1 (.node a o cs) ∧ SPs cs
/-- `SP` for all children. -/
def SPs : List (Expr T) → Prop
  | [] => True
  | c :: cs => SP c ∧ SPs cs
end

theorem SPs_iff {cs : List (Expr T)} : SPs cs ↔ ∀ c ∈ cs, SP c := by
  induction cs with
  | nil => simp [SPs]
  | cons c cs ih => simp [SPs, ih]

theorem SP_node {a : Ann T} {o : Op} {cs : List (Expr T)} :
    SP (.node a o cs) ↔ SP1 (.node a o cs) ∧ ∀ c ∈ cs, SP c := by rw [SP, SPs_iff]

theorem SP_leaf {a : Ann T} {l : Leaf} : SP (.leaf a l) ↔ SP1 (.leaf a l : Expr T) := by rw [SP]

theorem SP.sp1 {e : Expr T} (h : SP e) : SP1 e := by
  cases e with
  | leaf a l => exact SP_leaf.1 h
  | node a o cs => exact (SP_node.1 h).1

/-- The value of a pure tree in every state. -/
def Val (sem : Leaf → W → Res W) (e : Expr T) (b : Bool) : Prop := ∀ w, eval sem e w = ⟨b, false, w⟩

theorem pure_children {level : Nat} {a : Ann T} {o : Op} {cs : List (Expr T)} (hg : Good level (.node a o cs))
    (hp : (Expr.node a o cs).pure = true) : ∀ c ∈ cs, c.pure = true := by
  have := (Good_node.1 hg).2.1
  simp only [Expr.pure, Expr.ann] at hp
  rw [hp] at this
  exact List.all_eq_true.1 this.symm

theorem evalAnd_vals (cs : List (Expr T)) (b : Expr T → Bool) (h : ∀ c ∈ cs, Val sem c (b c)) (w : W) :
    evalAnd (evals sem cs) w = ⟨cs.all b, false, w⟩ := by
  induction cs generalizing w with
  | nil => simp [evalAnd]
  | cons c cs ih =>
    have hc := h c (by simp) w
    rw [evals_cons, evalAnd_cons, hc]
    cases hb : b c
    · simp [cont, hb]
    · simp [cont, hb, ih (fun d hd => h d (by simp [hd]))]

theorem evalOr_vals (cs : List (Expr T)) (b : Expr T → Bool) (h : ∀ c ∈ cs, Val sem c (b c)) (w : W) :
    evalOr (evals sem cs) w = ⟨cs.any b, false, w⟩ := by
  induction cs generalizing w with
  | nil => simp [evalOr]
  | cons c cs ih =>
    have hc := h c (by simp) w
    rw [evals_cons, evalOr_cons, hc]
    cases hb : b c
    · simp [cont, hb, ih (fun d hd => h d (by simp [hd]))]
    · simp [cont, hb]

theorem evalComma_vals (cs : List (Expr T)) (b : Expr T → Bool) (h : ∀ c ∈ cs, Val sem c (b c)) (w : W) :
    evalComma (evals sem cs) w = ⟨(cs.getLast?.map b).getD false, false, w⟩ := by
  induction cs generalizing w with
  | nil => simp [evalComma]
  | cons c cs ih =>
    have hc := h c (by simp) w
    cases cs with
    | nil => simp [evalComma, hc]
    | cons d ds =>
      have := ih (fun d hd => h d (by simp [hd])) w
      rw [evals_cons] at this
      rw [evals_cons, evals_cons, evalComma_cons, hc]
      simp only [cont, Bool.not_false, if_true]
      rw [this, List.getLast?_cons_cons]

/-- A choice of values for pure trees. -/
theorem exists_vals {level : Nat} (hp : PureSem level sem) :
    ∃ b : Expr T → Bool, ∀ e, Good level e → e.pure = true → Val sem e (b e) := by
  classical
  refine ⟨fun e => if h : ∃ b, Val sem e b then h.choose else false, fun e hg hpu => ?_⟩
  have h := pure_eval hp e hg hpu
  have h' : ∃ b, Val sem e b := h
  simp only [h', dite_true]
  exact h'.choose_spec

theorem Val.unique {e : Expr T} {b b' : Bool} [h : Nonempty W] (h1 : Val sem e b) (h2 : Val sem e b') : b = b' := by
  obtain ⟨w⟩ := h
  have := (h1 w).symm.trans (h2 w)
  simpa using this

/-- Constant propagation is right about pure trees. -/
theorem cp_val {level : Nat} (hs : SemOK sem) (hp : PureSem level sem) :
    ∀ (e : Expr T), Good level e → e.pure = true → ∀ b, cp e = some b → Val sem e b := by
  obtain ⟨v, hv⟩ := exists_vals (T := T) hp
  intro e
  induction e using Expr.ind with
  | hl a l =>
    intro hg hpu b hb w
    rw [eval_leaf]
    cases l <;> simp [cp] at hb
    · rw [hs.true_, hb]
    · rw [hs.false_, hb]
  | hn a o cs ih =>
    intro hg hpu b hb w
    have hpc := pure_children hg hpu
    have hgc := (Good_node.1 hg).2.2
    have hval : ∀ c ∈ cs, Val sem c (v c) := fun c hc => hv c (hgc c hc) (hpc c hc)
    have key : ∀ c ∈ cs, ∀ b, cp c = some b → v c = b := fun c hc b hb =>
      Val.unique (h := ⟨w⟩) (hval c hc) (ih c hc (hgc c hc) (hpc c hc) b hb)
    rw [cp_node] at hb
    rw [eval_node]
    cases o with
    | not =>
      match cs, (Good_node.1 hg).1 with
      | [c], _ =>
        simp only [cpOp, List.map_cons, List.head?_cons, Option.getD_some, Option.map_eq_some_iff] at hb
        obtain ⟨x, hx, rfl⟩ := hb
        have := key c (by simp) x hx
        have hc := hval c (by simp) w
        simp [evalOp, evalNot, hc, this]
    | and =>
      rw [evalOp, evalAnd_vals cs v hval]
      simp only [cpOp] at hb
      congr 1
      split at hb
      · rename_i h
        simp only [List.any_map, List.any_eq_true, Function.comp, beq_iff_eq] at h
        obtain ⟨c, hc, h⟩ := h
        simp only [Option.some.injEq] at hb; subst hb
        rw [List.all_eq_false]
        exact ⟨c, hc, by simp [key c hc _ h]⟩
      · split at hb
        · rename_i h
          simp only [List.all_map, List.all_eq_true, Function.comp, beq_iff_eq] at h
          simp only [Option.some.injEq] at hb; subst hb
          rw [List.all_eq_true]
          exact fun c hc => key c hc _ (h c hc)
        · simp at hb
    | or =>
      rw [evalOp, evalOr_vals cs v hval]
      simp only [cpOp] at hb
      congr 1
      split at hb
      · rename_i h
        simp only [List.any_map, List.any_eq_true, Function.comp, beq_iff_eq] at h
        obtain ⟨c, hc, h⟩ := h
        simp only [Option.some.injEq] at hb; subst hb
        rw [List.any_eq_true]
        exact ⟨c, hc, by simp [key c hc _ h]⟩
      · split at hb
        · rename_i h
          simp only [List.all_map, List.all_eq_true, Function.comp, beq_iff_eq] at h
          simp only [Option.some.injEq] at hb; subst hb
          rw [List.any_eq_false]
          exact fun c hc => by simp [key c hc _ (h c hc)]
        · simp at hb
    | comma =>
      rw [evalOp, evalComma_vals cs v hval]
      simp only [cpOp, List.getLast?_map] at hb
      congr 1
      cases hl : cs.getLast? with
      | none => simp [hl] at hb
      | some c =>
        simp [hl] at hb
        simp [key c (List.mem_of_getLast? hl) b hb]

/-- Pure trees have valid flags everywhere. -/
theorem SP_V {level : Nat} (hs : SemOK sem) (hp : PureSem level sem) :
    ∀ (e : Expr T), Good level e → e.pure = true → SP e → ∀ i w, V sem i e w := by
  intro e
  have fl : ∀ (e : Expr T), Good level e → e.pure = true → SP1 e → ∀ w, flagsOK e.ann (eval sem e w) := by
    intro e hg hpu hsp w _
    have := hsp hpu
    refine ⟨fun h => ?_, fun h => ?_⟩
    · rw [cp_val hs hp e hg hpu _ (this.1 h) w]
    · rw [cp_val hs hp e hg hpu _ (this.2 h) w]
  induction e using Expr.ind with
  | hl a l =>
    intro hg hpu hsp i w
    simpa [Expr.ann] using fl _ hg hpu hsp.sp1 w
  | hn a o cs ih =>
    intro hg hpu hsp i w
    rw [V_node]
    refine ⟨fun _ => by simpa [Expr.ann] using fl _ hg hpu hsp.sp1 w, ?_⟩
    have hpc := pure_children hg hpu
    have hgc := (Good_node.1 hg).2.2
    have hsc := (SP_node.1 hsp).2
    clear hg hpu hsp
    induction cs generalizing w with
    | nil => simp
    | cons c cs ihl =>
      rw [Vs_cons]
      exact ⟨ih c (by simp) (hgc c (by simp)) (hpc c (by simp)) (hsc c (by simp)) _ _,
        fun _ => ihl (fun d hd => ih d (by simp [hd])) _ (fun d hd => hpc d (by simp [hd]))
          (fun d hd => hgc d (by simp [hd])) (fun d hd => hsc d (by simp [hd]))⟩

/-! ### `SP` is established by annotation -/

theorem annotate1_SP1 (a : Ann T) (o : Op) (cs : List (Expr T)) (har : arityOK o cs) (h : ∀ c ∈ cs, SP c) :
    SP1 (annotate1 E (.node a o cs)) := by
  intro hpu
  have hpc : ∀ c ∈ cs, c.pure = true := by
    simp only [annotate1, Expr.pure, Expr.ann] at hpu
    rw [nodeAnn_pure E o cs har] at hpu
    exact List.all_eq_true.1 hpu
  have k := fun c hc => (h c hc).sp1 (hpc c hc)
  simp only [annotate1, cp_node, Expr.at_, Expr.af, Expr.ann]
  cases o with
  | not =>
    match cs, har with
    | [c], _ =>
      have := k c (by simp)
      simp only [nodeAnn, cpOp, List.map_cons, List.head?_cons, Option.getD_some]
      exact ⟨fun h => by simp [this.2 h], fun h => by simp [this.1 h]⟩
  | and =>
    simp only [nodeAnn, cpOp]
    refine ⟨fun h => ?_, fun h => ?_⟩
    · rw [List.all_eq_true] at h
      have h1 : ∀ c ∈ cs, cp c = some true := fun c hc => (k c hc).1 (h c hc)
      rw [if_neg, if_pos]
      · simpa using h1
      · simp only [List.any_map, List.any_eq_true, not_exists, Function.comp, beq_iff_eq]
        rintro c ⟨hc, h2⟩; rw [h1 c hc] at h2; simp at h2
    · rw [List.any_eq_true] at h
      obtain ⟨c, hc, h⟩ := h
      rw [if_pos]
      simp only [List.any_map, List.any_eq_true, Function.comp, beq_iff_eq]
      exact ⟨c, hc, (k c hc).2 h⟩
  | or =>
    simp only [nodeAnn, cpOp]
    refine ⟨fun h => ?_, fun h => ?_⟩
    · rw [List.any_eq_true] at h
      obtain ⟨c, hc, h⟩ := h
      rw [if_pos]
      simp only [List.any_map, List.any_eq_true, Function.comp, beq_iff_eq]
      exact ⟨c, hc, (k c hc).1 h⟩
    · rw [List.all_eq_true] at h
      have h1 : ∀ c ∈ cs, cp c = some false := fun c hc => (k c hc).2 (h c hc)
      rw [if_neg, if_pos]
      · simpa using h1
      · simp only [List.any_map, List.any_eq_true, not_exists, Function.comp, beq_iff_eq]
        rintro c ⟨hc, h2⟩; rw [h1 c hc] at h2; simp at h2
  | comma =>
    simp only [nodeAnn, cpOp, List.getLast?_map]
    cases hl : cs.getLast? with
    | none => simp
    | some c =>
      have := k c (List.mem_of_getLast? hl)
      simp only [Option.map_some, Option.getD_some]
      exact this

theorem annotate1_SP (a : Ann T) (o : Op) (cs : List (Expr T)) (har : arityOK o cs) (h : ∀ c ∈ cs, SP c) :
    SP (annotate1 E (.node a o cs)) := by
  have := annotate1_SP1 E a o cs har h
  rw [annotate1] at this ⊢
  exact SP_node.2 ⟨this, h⟩

theorem leafAnn_SP (l : Leaf) : SP (.leaf (leafAnn E l) l) := by
  rw [SP_leaf]
  intro hpu
  simp only [Expr.pure, Expr.ann, Expr.at_, Expr.af, leafAnn] at hpu ⊢
  cases l with
  | action k i => simp [pureLeaf] at hpu
  | true_ => simp [atLeaf, afLeaf, cp]
  | false_ => simp [atLeaf, afLeaf, cp]
  | _ => simp [atLeaf, afLeaf]

theorem annotate_SP : ∀ e : Expr T, Arity e → SP (annotate E e) := by
  intro e
  induction e using Expr.ind with
  | hl a l => intro _; simp only [annotate]; exact leafAnn_SP E l
  | hn a o cs ih =>
    intro h
    rw [Arity, Aritys_iff] at h
    have har : arityOK o (annotates E cs) := by
      rw [annotates_eq_map]
      have := h.1
      cases o <;> simp_all [arityOK]
    have := annotate1_SP E a o (annotates E cs) har (by
      rw [annotates_eq_map]
      intro c hc
      obtain ⟨d, hd, rfl⟩ := List.mem_map.1 hc
      exact ih d hd (h.2 d hd))
    simpa [annotate, annotate1] using this

theorem constE_SP (b : Bool) : SP (constE E b) := by
  unfold constE; exact leafAnn_SP E _

theorem cp_constE (b : Bool) : cp (constE E b) = some b := by
  cases b <;> simp [constE, cp]

/-! ### Static preservation through the passes that keep purity -/

/-- The second tree satisfies the static invariants and agrees with the first on purity and
constants. -/
structure Rel (level : Nat) (e e' : Expr T) : Prop where
  good : Good level e'
  sp : SP e'
  pure : e'.pure = e.pure
  cp : cp e' = cp e

theorem Rel.refl {level : Nat} {e : Expr T} (h : Good level e) (h' : SP e) : Rel level e e := ⟨h, h', rfl, rfl⟩

theorem Rel.trans {level : Nat} {e e' e'' : Expr T} (h : Rel level e e') (h' : Rel level e' e'') : Rel level e e'' :=
  ⟨h'.good, h'.sp, h'.pure.trans h.pure, h'.cp.trans h.cp⟩

/-- Pointwise relation of two lists. -/
inductive All2 (R : Expr T → Expr T → Prop) : List (Expr T) → List (Expr T) → Prop
  | nil : All2 R [] []
  | cons {c d cs ds} : R c d → All2 R cs ds → All2 R (c :: cs) (d :: ds)

theorem All2.length_eq {R : Expr T → Expr T → Prop} {cs ds : List (Expr T)} (h : All2 R cs ds) :
    cs.length = ds.length := by
  induction h with
  | nil => rfl
  | cons _ _ ih => simp [ih]

theorem rebuild_rel {level : Nat} (a : Ann T) (o : Op) (cs cs' : List (Expr T)) (hg : Good level (.node a o cs))
    (hsp : SP (.node a o cs)) (h : All2 (Rel level) cs cs') :
    Rel level (.node a o cs) (rebuild a o cs') := by
  have hp : cs'.all Expr.pure = cs.all Expr.pure := by
    clear hg hsp
    induction h with
    | nil => rfl
    | cons h _ ih => simp [h.pure, ih]
  have hc : cs'.map cp = cs.map cp := by
    clear hg hsp hp
    induction h with
    | nil => rfl
    | cons h _ ih => simp [h.cp, ih]
  have hall : ∀ c ∈ cs', Good level c ∧ SP c := by
    clear hg hsp hp hc
    induction h with
    | nil => simp
    | cons h _ ih => simp only [List.mem_cons]; rintro c (rfl | hc); exact ⟨h.good, h.sp⟩; exact ih c hc
  have hlen : cs'.length = cs.length := h.length_eq.symm
  have hap := (Good_node.1 hg).2.1
  have hpure : (rebuild a o cs').pure = (Expr.node a o cs).pure := by
    simp only [rebuild, Expr.pure, Expr.ann]; rw [hap]; exact hp
  refine ⟨?_, ?_, hpure, ?_⟩
  · rw [rebuild, Good_node]
    refine ⟨?_, rfl, fun c h => (hall c h).1⟩
    have := (Good_node.1 hg).1
    cases o <;> simp only [arityOK] at this ⊢
    · rw [hlen]; exact this
    all_goals intro hn; rw [hn] at hlen; exact this (List.length_eq_zero_iff.1 hlen.symm)
  · rw [rebuild, SP_node]
    refine ⟨?_, fun c h => (hall c h).2⟩
    intro hpu
    have := hsp.sp1 (by rw [← hpure]; exact hpu)
    simpa [Expr.at_, Expr.af, Expr.ann, hc] using this
  · simp [rebuild, hc]

theorem visits_forall (g : Bool → Expr T → Expr T) (R : Expr T → Expr T → Prop) (o : Op) (ign : Bool) (cs : List (Expr T))
    (h : ∀ c ∈ cs, ∀ i, R c (visit g i c)) : All2 R cs (visits g o ign cs) := by
  induction cs with
  | nil => rw [visits]; exact .nil
  | cons c cs ih => rw [visits]; exact .cons (h c (by simp) _) (ih (fun d hd => h d (by simp [hd])))

theorem visit_rel {level : Nat} (g : Bool → Expr T → Expr T)
    (hg : ∀ ign e, Good level e → SP e → Rel level e (g ign e)) :
    ∀ (e : Expr T) (ign : Bool), Good level e → SP e → Rel level e (visit g ign e) := by
  intro e
  induction e using Expr.ind with
  | hl a l => intro ign h h'; rw [visit]; exact Rel.refl h h'
  | hn a o cs ih =>
    intro ign h h'
    rw [visit]
    have hr := rebuild_rel a o cs (visits g o ign cs) h h'
      (visits_forall g _ o ign cs (fun c hc i => ih c hc i ((Good_node.1 h).2.2 c hc) ((SP_node.1 h').2 c hc)))
    exact hr.trans (hg ign _ hr.good hr.sp)

/-- Behaviour under the generic visitor, with a static invariant. -/
theorem visit_sound' (I : Expr T → Prop) (g : Bool → Expr T → Expr T)
    (hchild : ∀ a o cs, I (.node a o cs) → ∀ c ∈ cs, I c)
    (hreb : ∀ ign a o cs, I (.node a o cs) → I (rebuild a o (visits g o ign cs)))
    (hg : ∀ ign e w, I e → V sem ign e w →
      V sem ign (g ign e) w ∧ Eqv ign (eval sem e w) (eval sem (g ign e) w)) :
    ∀ (e : Expr T) (ign : Bool) (w : W), I e → V sem ign e w →
      V sem ign (visit g ign e) w ∧ Eqv ign (eval sem e w) (eval sem (visit g ign e) w) := by
  intro e
  induction e using Expr.ind with
  | hl a l => intro ign w _ h; rw [visit]; exact ⟨h, Eqv.refl _⟩
  | hn a o cs ih =>
    intro ign w hgd h
    rw [visit]
    obtain ⟨hfl, hvs⟩ := V_node.1 h
    obtain ⟨h1, h2⟩ := visits_sound g o ign cs (fun c hc i w hv => ih c hc i w (hchild a o cs hgd c hc) hv) w hvs
    have hv' : V sem ign (rebuild a o (visits g o ign cs)) w := by
      rw [rebuild, V_node]
      refine ⟨fun hi hq => ?_, h1⟩
      have hq0 : (evalOp o (evals sem cs) w).q = false := by rw [h2.1]; exact hq
      have := hfl hi hq0
      rw [← h2.2.2 hi hq0]
      exact this
    obtain ⟨h3, h4⟩ := hg ign _ w (hreb ign a o cs hgd) hv'
    refine ⟨h3, Eqv.trans ?_ h4⟩
    simpa [rebuild] using h2

/-! ### canonicalize keeps `SP` -/

theorem negate_SP (e : Expr T) (h : SP e) : SP (negate E e) := by
  unfold negate
  split
  · exact (SP_node.1 h).2 _ (by simp)
  · exact constE_SP E _
  · exact constE_SP E _
  · exact annotate1_SP E _ _ _ (by simp [arityOK]) (by simpa using h)

theorem negate_pure {level : Nat} (e : Expr T) (h : Good level e) : (negate E e).pure = e.pure := by
  unfold negate
  split
  · rename_i a c cs
    have := Good_node.1 h
    have hcs : cs = [] := by have := this.1; simpa [arityOK] using this
    subst hcs
    have := this.2.1
    simp only [Expr.pure, Expr.ann] at *
    rw [this]; simp [Expr.pure, Expr.ann]
  · rename_i a
    have := Good_leaf.1 h
    rw [constE_pure]; simp [Expr.pure, Expr.ann, this, pureLeaf]
  · rename_i a
    have := Good_leaf.1 h
    rw [constE_pure]; simp [Expr.pure, Expr.ann, this, pureLeaf]
  · simp [annotate1, nodeAnn, Expr.pure, Expr.ann]

theorem negate_cp (e : Expr T) : cp (negate E e) = (cp e).map not := by
  unfold negate
  split
  · rename_i a c cs
    simp only [cp_node, cpOp, List.map_cons, List.head?_cons, Option.getD_some, Option.map_map]
    cases cp c <;> simp
  · simp [cp_constE, cp]
  · simp [cp_constE, cp]
  · simp [annotate1, cpOp]

theorem demorgan_cp (o : Op) (ho : o = .and ∨ o = .or) (xs : List (Option Bool)) :
    cpOp o.flip (xs.map (Option.map not)) = (cpOp o xs).map not := by
  have e1 : ∀ x : Option Bool, (x.map not == some true) = (x == some false) := by
    intro x; rcases x with _ | _ | _ <;> rfl
  have e2 : ∀ x : Option Bool, (x.map not == some false) = (x == some true) := by
    intro x; rcases x with _ | _ | _ <;> rfl
  rcases ho with rfl | rfl <;> simp only [Op.flip, cpOp, List.any_map, List.all_map, Function.comp_def, e1, e2]
  all_goals split
  all_goals try rfl
  all_goals split <;> rfl

theorem map_negate_cp (cs : List (Expr T)) : (cs.map (negate E)).map cp = (cs.map cp).map (Option.map not) := by
  rw [List.map_map, List.map_map]
  apply List.map_congr_left
  intro c _
  exact negate_cp E c

theorem map_negate_pure {level : Nat} (cs : List (Expr T)) (h : ∀ c ∈ cs, Good level c) :
    (cs.map (negate E)).all Expr.pure = cs.all Expr.pure := by
  induction cs with
  | nil => rfl
  | cons c cs ih =>
    simp only [List.map_cons, List.all_cons]
    rw [negate_pure E c (h c (by simp)), ih (fun d hd => h d (by simp [hd]))]

theorem negateLast_cp (cs : List (Expr T)) :
    cpOp .comma ((negateLast E cs).map cp) = (cpOp .comma (cs.map cp)).map not := by
  induction cs with
  | nil => simp [negateLast, cpOp]
  | cons c cs ih =>
    cases cs with
    | nil => simp [negateLast, cpOp, negate_cp]
    | cons d ds =>
      rw [negateLast.eq_def]
      dsimp only
      have hne := negateLast_ne_nil E (List.cons_ne_nil d ds)
      cases hk : negateLast E (d :: ds) with
      | nil => exact absurd hk hne
      | cons y ys =>
        rw [hk] at ih
        simpa [cpOp, List.getLast?_cons_cons] using ih

theorem negateLast_pure {level : Nat} (cs : List (Expr T)) (h : ∀ c ∈ cs, Good level c) :
    (negateLast E cs).all Expr.pure = cs.all Expr.pure := by
  induction cs with
  | nil => rfl
  | cons c cs ih =>
    cases cs with
    | nil => simp [negateLast, negate_pure E c (h c (by simp))]
    | cons d ds =>
      rw [negateLast.eq_def]
      dsimp only
      rw [List.all_cons, ih (fun x hx => h x (by simp [hx])), List.all_cons (l := d :: ds)]

theorem negateLast_SP : ∀ (cs : List (Expr T)), (∀ c ∈ cs, SP c) → ∀ c ∈ negateLast E cs, SP c := by
  intro cs
  induction cs with
  | nil => simp [negateLast]
  | cons c cs ih =>
    intro h
    cases cs with
    | nil => simp only [negateLast, List.mem_singleton, forall_eq]; exact negate_SP E c (h c (by simp))
    | cons d ds =>
      rw [negateLast.eq_def]
      dsimp only
      intro x hx
      rcases List.mem_cons.1 hx with rfl | hx
      · exact h _ (by simp)
      · exact ih (fun y hy => h y (by simp [hy])) x hx

theorem flatten_SP (o : Op) : ∀ (cs : List (Expr T)), (∀ c ∈ cs, SP c) → ∀ c ∈ flatten o cs, SP c := by
  intro cs
  induction cs with
  | nil => simp [flatten]
  | cons c cs ih =>
    intro h x hx
    have ih' := ih (fun y hy => h y (by simp [hy]))
    cases c with
    | leaf b l =>
      rw [flatten] at hx
      rcases List.mem_cons.1 hx with rfl | hx
      · exact h _ (by simp)
      · exact ih' x hx
    | node b o' ds =>
      rw [flatten] at hx
      split at hx
      · rcases List.mem_append.1 hx with hx | hx
        · exact (SP_node.1 (h _ (List.mem_cons_self ..))).2 x hx
        · exact ih' x hx
      · rcases List.mem_cons.1 hx with rfl | hx
        · exact h _ (by simp)
        · exact ih' x hx

theorem flatten_pure {level : Nat} (o : Op) : ∀ (cs : List (Expr T)), (∀ c ∈ cs, Good level c) →
    (flatten o cs).all Expr.pure = cs.all Expr.pure := by
  intro cs
  induction cs with
  | nil => intro _; simp [flatten]
  | cons c cs ih =>
    intro h
    have ih' := ih (fun y hy => h y (by simp [hy]))
    cases c with
    | leaf b l => rw [flatten, List.all_cons, List.all_cons, ih']
    | node b o' ds =>
      rw [flatten]
      split
      · rw [List.all_append, ih', List.all_cons]
        congr 1
        exact (Good_node.1 (h _ (List.mem_cons_self ..))).2.1.symm
      · rw [List.all_cons, List.all_cons, ih']

theorem cpOp_cons_congr (o : Op) (ho : o ≠ .not) (x : Option Bool) (xs ys : List (Option Bool))
    (hn : xs = [] ↔ ys = []) (h : cpOp o xs = cpOp o ys) : cpOp o (x :: xs) = cpOp o (x :: ys) := by
  cases o with
  | not => exact absurd rfl ho
  | and =>
    simp only [cpOp, List.any_cons, List.all_cons, Bool.or_eq_true, Bool.and_eq_true] at h ⊢
    by_cases h1 : (x == some false) = true
    · simp [h1]
    · by_cases h2 : (x == some true) = true
      · simpa [h1, h2] using h
      · simp only [h1, h2, Bool.false_eq_true, false_or, false_and, if_false]
        revert h
        generalize xs.any _ = A1; generalize xs.all _ = A2; generalize ys.any _ = B1; generalize ys.all _ = B2
        intro h
        cases A1 <;> cases A2 <;> cases B1 <;> cases B2 <;> simp at h ⊢
  | or =>
    simp only [cpOp, List.any_cons, List.all_cons, Bool.or_eq_true, Bool.and_eq_true] at h ⊢
    by_cases h1 : (x == some true) = true
    · simp [h1]
    · by_cases h2 : (x == some false) = true
      · simpa [h1, h2] using h
      · simp only [h1, h2, Bool.false_eq_true, false_or, false_and, if_false]
        revert h
        generalize xs.any _ = A1; generalize xs.all _ = A2; generalize ys.any _ = B1; generalize ys.all _ = B2
        intro h
        cases A1 <;> cases A2 <;> cases B1 <;> cases B2 <;> simp at h ⊢
  | comma =>
    cases xs with
    | nil => rw [hn.1 rfl]
    | cons y ys' =>
      cases ys with
      | nil => simp at hn
      | cons z zs => simpa [cpOp, List.getLast?_cons_cons] using h

theorem cpOp_append (o : Op) (ho : o ≠ .not) (xs ys : List (Option Bool)) (hx : xs ≠ []) :
    cpOp o (xs ++ ys) = cpOp o (cpOp o xs :: ys) := by
  cases o with
  | not => exact absurd rfl ho
  | and =>
    simp only [cpOp, List.any_append, List.all_append, List.any_cons, List.all_cons]
    by_cases h1 : xs.any (· == some false) = true
    · simp [h1]
    · by_cases h2 : xs.all (· == some true) = true
      · simp [h1, h2]
      · simp [h1, h2]
  | or =>
    simp only [cpOp, List.any_append, List.all_append, List.any_cons, List.all_cons]
    by_cases h1 : xs.any (· == some true) = true
    · simp [h1]
    · by_cases h2 : xs.all (· == some false) = true
      · simp [h1, h2]
      · simp [h1, h2]
  | comma =>
    cases ys with
    | nil =>
      simp only [cpOp, List.append_nil, List.getLast?_singleton, Option.getD_some]
    | cons y ys =>
      simp [cpOp, List.getLast?_append, List.getLast?_cons_cons]
      cases h : (y :: ys).getLast? <;> simp_all

theorem flatten_cp (level : Nat) (o : Op) (ho : o ≠ .not) : ∀ (cs : List (Expr T)), (∀ c ∈ cs, Good level c) →
    cpOp o ((flatten o cs).map cp) = cpOp o (cs.map cp) := by
  intro cs
  induction cs with
  | nil => intro _; simp [flatten]
  | cons c cs ih =>
    intro h
    have ih' := ih (fun y hy => h y (by simp [hy]))
    have hn : (flatten o cs).map cp = [] ↔ cs.map cp = [] := by
      simp only [List.map_eq_nil_iff]
      constructor
      · intro hf
        cases cs with
        | nil => rfl
        | cons d ds => exact absurd hf (flatten_ne_nil level o ho (fun y hy => h y (by simp [hy])) (by simp))
      · rintro rfl; simp [flatten]
    cases c with
    | leaf b l =>
      rw [flatten, List.map_cons, List.map_cons]
      exact cpOp_cons_congr o ho _ _ _ hn ih'
    | node b o' ds =>
      rw [flatten]
      split
      · rename_i heq
        subst heq
        have hne : ds.map cp ≠ [] := by
          have := (Good_node.1 (h _ (List.mem_cons_self ..))).1
          cases o' <;> simp_all [arityOK]
        rw [List.map_append, cpOp_append o' ho _ _ hne, List.map_cons, cp_node]
        exact cpOp_cons_congr o' ho _ _ _ hn ih'
      · rw [List.map_cons, List.map_cons]
        exact cpOp_cons_congr o ho _ _ _ hn ih'

theorem canonLocal_rel (ign : Bool) (e : Expr T) (h : Good E.level e) (h' : SP e) :
    Rel E.level e (canonLocal E ign e) := by
  have hgood := canonLocal_good E ign e h
  have ann_pure : ∀ (b : Ann T) (o : Op) (cs : List (Expr T)), arityOK o cs →
      (annotate1 E (.node b o cs)).pure = cs.all Expr.pure := by
    intro b o cs har; rw [annotate1]; exact nodeAnn_pure E o cs har
  have ann_cp : ∀ (b : Ann T) (o : Op) (cs : List (Expr T)), cp (annotate1 E (.node b o cs)) = cpOp o (cs.map cp) := by
    intro b o cs; rw [annotate1, cp_node]
  match e, h, h', hgood with
  | .leaf a l, h, h', _ => simp only [canonLocal]; exact Rel.refl h h'
  | .node a .not [], h, h', _ => simp only [canonLocal]; exact Rel.refl h h'
  | .node a .not (c :: d :: ds), h, h', _ => simp only [canonLocal]; exact Rel.refl h h'
  | .node a .not [c], h, h', hgood =>
    have hc := (Good_node.1 h).2.2 c (by simp)
    have hsc := (SP_node.1 h').2 c (by simp)
    have hpe : (Expr.node a .not [c]).pure = c.pure := by
      have := (Good_node.1 h).2.1
      simp only [Expr.pure, Expr.ann] at this ⊢
      rw [this]; simp [Expr.pure, Expr.ann]
    have hce : cp (Expr.node a .not [c]) = (cp c).map not := by simp [cpOp]
    simp only [canonLocal] at hgood ⊢
    have main : SP (canonNot E a c) ∧ (canonNot E a c).pure = c.pure ∧ cp (canonNot E a c) = (cp c).map not := by
      unfold canonNot
      split
      · rename_i b d ds
        have hg := Good_node.1 hc
        have hds : ds = [] := by have := hg.1; simpa [arityOK] using this
        subst hds
        refine ⟨(SP_node.1 hsc).2 _ (by simp), ?_, ?_⟩
        · have := hg.2.1
          simp only [Expr.pure, Expr.ann] at this ⊢
          rw [this]; simp [Expr.pure, Expr.ann]
        · simp [cpOp]
          cases cp d <;> simp
      · rename_i b ds
        have hg := Good_node.1 hc
        have har : arityOK .or (ds.map (negate E)) := by have := hg.1; simp_all [arityOK]
        refine ⟨annotate1_SP E _ _ _ har ?_, ?_, ?_⟩
        · intro x hx; obtain ⟨y, hy, rfl⟩ := List.mem_map.1 hx; exact negate_SP E y ((SP_node.1 hsc).2 y hy)
        · rw [ann_pure _ _ _ har, map_negate_pure E ds hg.2.2]; exact hg.2.1.symm
        · rw [ann_cp, map_negate_cp, cp_node]; exact demorgan_cp .and (by simp) _
      · rename_i b ds
        have hg := Good_node.1 hc
        have har : arityOK .and (ds.map (negate E)) := by have := hg.1; simp_all [arityOK]
        refine ⟨annotate1_SP E _ _ _ har ?_, ?_, ?_⟩
        · intro x hx; obtain ⟨y, hy, rfl⟩ := List.mem_map.1 hx; exact negate_SP E y ((SP_node.1 hsc).2 y hy)
        · rw [ann_pure _ _ _ har, map_negate_pure E ds hg.2.2]; exact hg.2.1.symm
        · rw [ann_cp, map_negate_cp, cp_node]; exact demorgan_cp .or (by simp) _
      · rename_i b ds
        have hg := Good_node.1 hc
        have har : arityOK .comma (negateLast E ds) := negateLast_ne_nil E hg.1
        refine ⟨annotate1_SP E _ _ _ har (negateLast_SP E ds (SP_node.1 hsc).2), ?_, ?_⟩
        · rw [ann_pure _ _ _ har, negateLast_pure E ds hg.2.2]; exact hg.2.1.symm
        · rw [ann_cp, negateLast_cp, cp_node]
      · rename_i b
        have := Good_leaf.1 hc
        exact ⟨constE_SP E _, by rw [constE_pure]; simp [Expr.pure, Expr.ann, this, pureLeaf], by simp [cp_constE, cp]⟩
      · rename_i b
        have := Good_leaf.1 hc
        exact ⟨constE_SP E _, by rw [constE_pure]; simp [Expr.pure, Expr.ann, this, pureLeaf], by simp [cp_constE, cp]⟩
      · exact ⟨h', hpe, hce⟩
    exact ⟨hgood, main.1, main.2.1.trans hpe.symm, main.2.2.trans hce.symm⟩
  | .node a .and cs, h, h', hgood =>
    have hg := Good_node.1 h
    simp only [canonLocal] at hgood ⊢
    have har : arityOK .and (flatten .and cs) := flatten_ne_nil E.level .and (by simp) hg.2.2 hg.1
    refine ⟨hgood, annotate1_SP E _ _ _ har (flatten_SP _ _ (SP_node.1 h').2), ?_, ?_⟩
    · rw [ann_pure _ _ _ har, flatten_pure .and cs hg.2.2]; exact hg.2.1.symm
    · rw [ann_cp, cp_node, flatten_cp E.level .and (by simp) cs hg.2.2]
  | .node a .or cs, h, h', hgood =>
    have hg := Good_node.1 h
    simp only [canonLocal] at hgood ⊢
    have har : arityOK .or (flatten .or cs) := flatten_ne_nil E.level .or (by simp) hg.2.2 hg.1
    refine ⟨hgood, annotate1_SP E _ _ _ har (flatten_SP _ _ (SP_node.1 h').2), ?_, ?_⟩
    · rw [ann_pure _ _ _ har, flatten_pure .or cs hg.2.2]; exact hg.2.1.symm
    · rw [ann_cp, cp_node, flatten_cp E.level .or (by simp) cs hg.2.2]
  | .node a .comma cs, h, h', hgood =>
    have hg := Good_node.1 h
    simp only [canonLocal] at hgood ⊢
    have har : arityOK .comma (flatten .comma cs) := flatten_ne_nil E.level .comma (by simp) hg.2.2 hg.1
    refine ⟨hgood, annotate1_SP E _ _ _ har (flatten_SP _ _ (SP_node.1 h').2), ?_, ?_⟩
    · rw [ann_pure _ _ _ har, flatten_pure .comma cs hg.2.2]; exact hg.2.1.symm
    · rw [ann_cp, cp_node, flatten_cp E.level .comma (by simp) cs hg.2.2]

theorem canonicalize_rel (ign : Bool) (e : Expr T) (h : Good E.level e) (h' : SP e) :
    Rel E.level e (canonicalize E ign e) :=
  visit_rel _ (canonLocal_rel E) e ign h h'

/-! ### reorder -/

theorem mergeE_perm (le : Expr T → Expr T → Bool) (a b : List (Expr T)) : (mergeE le a b).Perm (a ++ b) := by
  fun_induction mergeE le a b with
  | case1 rs => simp
  | case2 ls h => simp
  | case3 l ls r rs h ih => exact (ih.cons l)
  | case4 l ls r rs h ih =>
    refine (ih.cons r).trans ?_
    exact List.perm_middle.symm

theorem sortE_perm (le : Expr T → Expr T → Bool) (n : Nat) (es : List (Expr T)) : (sortE le n es).Perm es := by
  induction n generalizing es with
  | zero => simp [sortE]
  | succ n ih =>
    rw [sortE]
    split
    · exact .refl _
    · refine (mergeE_perm le _ _).trans ?_
      have := (ih (es.take (es.length / 2))).append (ih (es.drop (es.length / 2)))
      rwa [List.take_append_drop] at this

theorem reorderLoop_perm (le : Expr T → Expr T → Bool) (P cs : List (Expr T)) :
    (reorderLoop le P cs).Perm (P ++ cs) := by
  induction cs generalizing P with
  | nil => rw [reorderLoop, List.append_nil]; exact sortE_perm le _ _
  | cons c cs ih =>
    rw [reorderLoop]
    split
    · exact (ih _).trans (by simp)
    · exact (sortE_perm le _ _).append ((ih []).cons c)

theorem cpOp_perm (o : Op) (ho : o = .and ∨ o = .or) {xs ys : List (Option Bool)} (h : xs.Perm ys) :
    cpOp o xs = cpOp o ys := by
  have e1 : ∀ p : Option Bool → Bool, xs.any p = ys.any p := fun p => by
    rw [Bool.eq_iff_iff, List.any_eq_true, List.any_eq_true]; simp [h.mem_iff]
  have e2 : ∀ p : Option Bool → Bool, xs.all p = ys.all p := fun p => by
    rw [Bool.eq_iff_iff, List.all_eq_true, List.all_eq_true]; simp [h.mem_iff]
  rcases ho with rfl | rfl <;> simp [cpOp, e1, e2]

theorem Vs_pure_and (hs : SemOK sem) (hp : PureSem E.level sem) (ign : Bool) (P rest : List (Expr T)) (w : W)
    (hP : ∀ c ∈ P, Good E.level c ∧ SP c ∧ c.pure = true) :
    Vs sem .and ign (P ++ rest) w ↔
      (cont .and (evalAnd (evals sem P) w) = true → Vs sem .and ign rest w) := by
  induction P with
  | nil => simp [evalAnd, cont]
  | cons c P ih =>
    have ih' := ih (fun d hd => hP d (by simp [hd]))
    obtain ⟨hg, hsp, hpu⟩ := hP c (by simp)
    obtain ⟨b, hb⟩ := pure_eval hp c hg hpu
    rw [List.cons_append, Vs_cons, evals_cons, evalAnd_cons, hb]
    have hv := SP_V hs hp c hg hpu hsp
    cases b <;> simp [cont] at ih' ⊢
    all_goals simp [hv, ih']

theorem evalAnd_pure_w (hp : PureSem E.level sem) (P : List (Expr T)) (w : W)
    (hP : ∀ c ∈ P, Good E.level c ∧ SP c ∧ c.pure = true) :
    (evalAnd (evals sem P) w).w = w := by
  obtain ⟨v, hv⟩ := exists_vals (T := T) hp
  rw [evalAnd_vals P v (fun c hc => hv c (hP c hc).1 (hP c hc).2.2)]

theorem evalAnd_perm (hp : PureSem E.level sem) (P Q : List (Expr T)) (h : P.Perm Q)
    (hP : ∀ c ∈ P, Good E.level c ∧ SP c ∧ c.pure = true) (w : W) :
    evalAnd (evals sem P) w = evalAnd (evals sem Q) w := by
  obtain ⟨v, hv⟩ := exists_vals (T := T) hp
  have h1 : ∀ c ∈ P, Val sem c (v c) := fun c hc => hv c (hP c hc).1 (hP c hc).2.2
  rw [evalAnd_vals P v h1, evalAnd_vals Q v (fun c hc => h1 c (h.mem_iff.2 hc))]
  congr 1
  rw [Bool.eq_iff_iff, List.all_eq_true, List.all_eq_true]; simp [h.mem_iff]

theorem reorderLoop_and (hs : SemOK sem) (hp : PureSem E.level sem) (ign : Bool) (le : Expr T → Expr T → Bool) :
    ∀ (cs P : List (Expr T)) (w : W), (∀ c ∈ P, Good E.level c ∧ SP c ∧ c.pure = true) →
      (∀ c ∈ cs, Good E.level c ∧ SP c) →
      evalAnd (evals sem (reorderLoop le P cs)) w = evalAnd (evals sem (P ++ cs)) w ∧
      (Vs sem .and ign (P ++ cs) w → Vs sem .and ign (reorderLoop le P cs) w) := by
  intro cs
  induction cs with
  | nil =>
    intro P w hP _
    rw [reorderLoop, List.append_nil]
    have hperm := sortE_perm le P.length P
    have hP' : ∀ c ∈ sortE le P.length P, Good E.level c ∧ SP c ∧ c.pure = true :=
      fun c hc => hP c (hperm.mem_iff.1 hc)
    refine ⟨evalAnd_perm E hp _ _ hperm hP' w, fun _ => ?_⟩
    have := (Vs_pure_and E hs hp ign (sortE le P.length P) [] w hP').2 (by simp)
    simpa using this
  | cons c cs ih =>
    intro P w hP hcs
    have hcs' : ∀ d ∈ cs, Good E.level d ∧ SP d := fun d hd => hcs d (by simp [hd])
    rw [reorderLoop]
    split
    · rename_i hpu
      have := ih (P ++ [c]) w (by
        intro d hd
        rcases List.mem_append.1 hd with h | h
        · exact hP d h
        · simp at h; subst h; exact ⟨(hcs _ (by simp)).1, (hcs _ (by simp)).2, hpu⟩) hcs'
      simpa using this
    · have hperm := sortE_perm le P.length P
      have hP' : ∀ c ∈ sortE le P.length P, Good E.level c ∧ SP c ∧ c.pure = true :=
        fun c hc => hP c (hperm.mem_iff.1 hc)
      have he := evalAnd_perm E hp _ _ hperm hP' w
      have ih' := fun w => ih [] w (by simp) hcs'
      simp only [List.nil_append] at ih'
      have step : ∀ w, evalAnd (evals sem (c :: reorderLoop le [] cs)) w = evalAnd (evals sem (c :: cs)) w := by
        intro w
        rw [evals_cons, evals_cons, evalAnd_cons, evalAnd_cons]
        split
        · exact (ih' _).1
        · rfl
      refine ⟨?_, fun hv => ?_⟩
      · rw [evals_append, evals_append, evalAnd_append, evalAnd_append, he, step]
      · rw [Vs_pure_and E hs hp ign _ _ w hP']
        rw [Vs_pure_and E hs hp ign P _ w hP] at hv
        rw [he]
        intro hc
        have hv := Vs_cons.1 (hv hc)
        rw [Vs_cons]
        have hemp : (reorderLoop le [] cs).isEmpty = cs.isEmpty := by
          have := (reorderLoop_perm le [] cs).length_eq
          simp only [List.nil_append] at this
          rw [Bool.eq_iff_iff, List.isEmpty_iff_length_eq_zero, List.isEmpty_iff_length_eq_zero, this]
        rw [hemp]
        exact ⟨hv.1, fun h => (ih' _).2 (hv.2 h)⟩

theorem Vs_pure_or (hs : SemOK sem) (hp : PureSem E.level sem) (ign : Bool) (P rest : List (Expr T)) (w : W)
    (hP : ∀ c ∈ P, Good E.level c ∧ SP c ∧ c.pure = true) :
    Vs sem .or ign (P ++ rest) w ↔
      (cont .or (evalOr (evals sem P) w) = true → Vs sem .or ign rest w) := by
  induction P with
  | nil => simp [evalOr, cont]
  | cons c P ih =>
    have ih' := ih (fun d hd => hP d (by simp [hd]))
    obtain ⟨hg, hsp, hpu⟩ := hP c (by simp)
    obtain ⟨b, hb⟩ := pure_eval hp c hg hpu
    rw [List.cons_append, Vs_cons, evals_cons, evalOr_cons, hb]
    have hv := SP_V hs hp c hg hpu hsp
    cases b <;> simp [cont] at ih' ⊢
    all_goals simp [hv, ih']

theorem evalOr_pure_w (hp : PureSem E.level sem) (P : List (Expr T)) (w : W)
    (hP : ∀ c ∈ P, Good E.level c ∧ SP c ∧ c.pure = true) :
    (evalOr (evals sem P) w).w = w := by
  obtain ⟨v, hv⟩ := exists_vals (T := T) hp
  rw [evalOr_vals P v (fun c hc => hv c (hP c hc).1 (hP c hc).2.2)]

theorem evalOr_perm (hp : PureSem E.level sem) (P Q : List (Expr T)) (h : P.Perm Q)
    (hP : ∀ c ∈ P, Good E.level c ∧ SP c ∧ c.pure = true) (w : W) :
    evalOr (evals sem P) w = evalOr (evals sem Q) w := by
  obtain ⟨v, hv⟩ := exists_vals (T := T) hp
  have h1 : ∀ c ∈ P, Val sem c (v c) := fun c hc => hv c (hP c hc).1 (hP c hc).2.2
  rw [evalOr_vals P v h1, evalOr_vals Q v (fun c hc => h1 c (h.mem_iff.2 hc))]
  congr 1
  rw [Bool.eq_iff_iff, List.any_eq_true, List.any_eq_true]; simp [h.mem_iff]

theorem reorderLoop_or (hs : SemOK sem) (hp : PureSem E.level sem) (ign : Bool) (le : Expr T → Expr T → Bool) :
    ∀ (cs P : List (Expr T)) (w : W), (∀ c ∈ P, Good E.level c ∧ SP c ∧ c.pure = true) →
      (∀ c ∈ cs, Good E.level c ∧ SP c) →
      evalOr (evals sem (reorderLoop le P cs)) w = evalOr (evals sem (P ++ cs)) w ∧
      (Vs sem .or ign (P ++ cs) w → Vs sem .or ign (reorderLoop le P cs) w) := by
  intro cs
  induction cs with
  | nil =>
    intro P w hP _
    rw [reorderLoop, List.append_nil]
    have hperm := sortE_perm le P.length P
    have hP' : ∀ c ∈ sortE le P.length P, Good E.level c ∧ SP c ∧ c.pure = true :=
      fun c hc => hP c (hperm.mem_iff.1 hc)
    refine ⟨evalOr_perm E hp _ _ hperm hP' w, fun _ => ?_⟩
    have := (Vs_pure_or E hs hp ign (sortE le P.length P) [] w hP').2 (by simp)
    simpa using this
  | cons c cs ih =>
    intro P w hP hcs
    have hcs' : ∀ d ∈ cs, Good E.level d ∧ SP d := fun d hd => hcs d (by simp [hd])
    rw [reorderLoop]
    split
    · rename_i hpu
      have := ih (P ++ [c]) w (by
        intro d hd
        rcases List.mem_append.1 hd with h | h
        · exact hP d h
        · simp at h; subst h; exact ⟨(hcs _ (by simp)).1, (hcs _ (by simp)).2, hpu⟩) hcs'
      simpa using this
    · have hperm := sortE_perm le P.length P
      have hP' : ∀ c ∈ sortE le P.length P, Good E.level c ∧ SP c ∧ c.pure = true :=
        fun c hc => hP c (hperm.mem_iff.1 hc)
      have he := evalOr_perm E hp _ _ hperm hP' w
      have ih' := fun w => ih [] w (by simp) hcs'
      simp only [List.nil_append] at ih'
      have step : ∀ w, evalOr (evals sem (c :: reorderLoop le [] cs)) w = evalOr (evals sem (c :: cs)) w := by
        intro w
        rw [evals_cons, evals_cons, evalOr_cons, evalOr_cons]
        split
        · exact (ih' _).1
        · rfl
      refine ⟨?_, fun hv => ?_⟩
      · rw [evals_append, evals_append, evalOr_append, evalOr_append, he, step]
      · rw [Vs_pure_or E hs hp ign _ _ w hP']
        rw [Vs_pure_or E hs hp ign P _ w hP] at hv
        rw [he]
        intro hc
        have hv := Vs_cons.1 (hv hc)
        rw [Vs_cons]
        have hemp : (reorderLoop le [] cs).isEmpty = cs.isEmpty := by
          have := (reorderLoop_perm le [] cs).length_eq
          simp only [List.nil_append] at this
          rw [Bool.eq_iff_iff, List.isEmpty_iff_length_eq_zero, List.isEmpty_iff_length_eq_zero, this]
        rw [hemp]
        exact ⟨hv.1, fun h => (ih' _).2 (hv.2 h)⟩

theorem reorderLocal_rel (ign : Bool) (e : Expr T) (h : Good E.level e) (h' : SP e) :
    Rel E.level e (reorderLocal E ign e) := by
  have main : ∀ (a : Ann T) (o : Op) (cs : List (Expr T)) (le : Expr T → Expr T → Bool), (o = .and ∨ o = .or) →
      Good E.level (.node a o cs) → SP (.node a o cs) →
      Rel E.level (.node a o cs) (annotate1 E (.node a o (reorderLoop le [] cs))) := by
    intro a o cs le ho h h'
    have hperm := reorderLoop_perm le [] cs
    simp only [List.nil_append] at hperm
    have hg := Good_node.1 h
    have har : arityOK o (reorderLoop le [] cs) := by
      have := hg.1
      have hne : cs ≠ [] := by rcases ho with rfl | rfl <;> simpa [arityOK] using this
      have hne' : reorderLoop le [] cs ≠ [] := fun h0 => hne (by
        have := hperm.length_eq; rw [h0] at this; exact List.length_eq_zero_iff.1 this.symm)
      rcases ho with rfl | rfl <;> simpa [arityOK] using hne'
    refine ⟨annotate1_good E a _ _ har (fun c hc => hg.2.2 c (hperm.mem_iff.1 hc)),
      annotate1_SP E a _ _ har (fun c hc => (SP_node.1 h').2 c (hperm.mem_iff.1 hc)), ?_, ?_⟩
    · rw [annotate1]
      show (nodeAnn E o (reorderLoop le [] cs)).pure = a.pure
      rw [nodeAnn_pure E _ _ har, hg.2.1]
      rw [Bool.eq_iff_iff, List.all_eq_true, List.all_eq_true]; simp [hperm.mem_iff]
    · rw [annotate1, cp_node, cp_node]
      exact cpOp_perm o ho (hperm.map cp)
  match e, h, h' with
  | .leaf a l, h, h' => simp only [reorderLocal]; exact Rel.refl h h'
  | .node a .not cs, h, h' => simp only [reorderLocal]; exact Rel.refl h h'
  | .node a .comma cs, h, h' => simp only [reorderLocal]; exact Rel.refl h h'
  | .node a .and cs, h, h' => simp only [reorderLocal]; exact main a .and cs _ (by simp) h h'
  | .node a .or cs, h, h' => simp only [reorderLocal]; exact main a .or cs _ (by simp) h h'

theorem reorder_rel (ign : Bool) (e : Expr T) (h : Good E.level e) (h' : SP e) :
    Rel E.level e (reorder E ign e) :=
  visit_rel _ (reorderLocal_rel E) e ign h h'

theorem reorderLocal_sound (hs : SemOK sem) (hp : PureSem E.level sem) (ign : Bool) (e : Expr T) (w : W)
    (h : Good E.level e) (h' : SP e) (hv : V sem ign e w) :
    V sem ign (reorderLocal E ign e) w ∧ Eqv ign (eval sem e w) (eval sem (reorderLocal E ign e) w) := by
  have har : ∀ (cs : List (Expr T)) (le : Expr T → Expr T → Bool), cs ≠ [] → reorderLoop le [] cs ≠ [] := by
    intro cs le hne h0
    have hperm := reorderLoop_perm le [] cs
    simp only [List.nil_append] at hperm
    have := hperm.length_eq; rw [h0] at this; exact hne (List.length_eq_zero_iff.1 this.symm)
  match e, h, h', hv with
  | .leaf a l, h, h', hv => simp only [reorderLocal]; exact ⟨hv, Eqv.refl _⟩
  | .node a .not cs, h, h', hv => simp only [reorderLocal]; exact ⟨hv, Eqv.refl _⟩
  | .node a .comma cs, h, h', hv => simp only [reorderLocal]; exact ⟨hv, Eqv.refl _⟩
  | .node a .and cs, h, h', hv =>
    have hg := Good_node.1 h
    have hsp := (SP_node.1 h').2
    have := reorderLoop_and E hs hp ign (fun x y => E.costs.le .and x.ann.cost y.ann.cost) cs [] w (by simp)
      (fun c hc => ⟨hg.2.2 c hc, hsp c hc⟩)
    simp only [reorderLocal]
    exact ⟨annotate1_V E _ _ _ _ _ (har _ _ hg.1) (this.2 (V_node.1 hv).2),
      Eqv.of_eq (by simpa [evalOp] using this.1.symm)⟩
  | .node a .or cs, h, h', hv =>
    have hg := Good_node.1 h
    have hsp := (SP_node.1 h').2
    have := reorderLoop_or E hs hp ign (fun x y => E.costs.le .or x.ann.cost y.ann.cost) cs [] w (by simp)
      (fun c hc => ⟨hg.2.2 c hc, hsp c hc⟩)
    simp only [reorderLocal]
    exact ⟨annotate1_V E _ _ _ _ _ (har _ _ hg.1) (this.2 (V_node.1 hv).2),
      Eqv.of_eq (by simpa [evalOp] using this.1.symm)⟩

theorem reorder_sound (hs : SemOK sem) (hp : PureSem E.level sem) (ign : Bool) (e : Expr T) (w : W)
    (h : Good E.level e) (h' : SP e) (hv : V sem ign e w) :
    V sem ign (reorder E ign e) w ∧ Eqv ign (eval sem e w) (eval sem (reorder E ign e) w) := by
  refine visit_sound' (fun e => Good E.level e ∧ SP e) _ ?_ ?_ ?_ e ign w ⟨h, h'⟩ hv
  · intro a o cs ⟨h, h'⟩ c hc
    exact ⟨(Good_node.1 h).2.2 c hc, (SP_node.1 h').2 c hc⟩
  · intro ign a o cs ⟨h, h'⟩
    have := rebuild_rel a o cs (visits (reorderLocal E) o ign cs) h h'
      (visits_forall _ _ o ign cs (fun c hc i => reorder_rel E i c ((Good_node.1 h).2.2 c hc) ((SP_node.1 h').2 c hc)))
    exact ⟨this.good, this.sp⟩
  · intro ign e w ⟨h, h'⟩ hv
    exact reorderLocal_sound E hs hp ign e w h h' hv

end Verif.Opt
