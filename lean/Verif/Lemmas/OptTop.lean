import Verif.Lemmas.OptStatic2
/-!
# The driver loop at every level, on comma-free trees
-/
namespace Verif.Opt
open Verif.Spec.Opt
variable {T W : Type} {sem : Leaf → W → Res W} (E : Env T) {o : Owners} {f : File} {u : Nat}

section
variable {P : Leaf → Prop} (hP1 : P .true_) (hP2 : P .false_)
include hP1 hP2

theorem dataFlow_shape : ∀ e : Expr T, Shape E.level P e → ∀ ign before impure, Shape E.level P (dataFlow E ign before impure e).e := by
  intro e
  induction e using Expr.ind with
  | hl b l =>
    intro hg ign before impure
    rw [dataFlow]
    exact flowFinish_shape E hP1 hP2 _ _ _ _ hg
  | hn a o cs ih =>
    intro hg ign before impure
    have hsh := Shape_node.1 hg
    have ih' := fun c hc => ih c hc (hsh.2.2.2 c hc)
    clear ih
    match o, cs, hsh.1 with
    | .comma, cs, _ => exact absurd rfl hsh.2.2.1
    | .not, [c], _ =>
      rw [dataFlow.eq_def]; dsimp only; rw [flowNot]
      refine flowFinish_shape E hP1 hP2 _ _ _ _ (Shape_node.2 ⟨by simp [arityOK], rfl, by simp, ?_⟩)
      simpa using ih' c (by simp) _ _ _
    | .and, cs, hne =>
      rw [dataFlow.eq_def]; dsimp only
      refine flowFinish_shape E hP1 hP2 _ _ _ _ (Shape_node.2 ⟨?_, rfl, by simp, ?_⟩)
      · have := flowAnd_len E cs ign before impure dfBottom
        intro h
        rw [h] at this
        exact hne (List.length_eq_zero_iff.1 this.symm)
      · suffices ∀ ign before imp acc, ∀ c ∈ (flowAnd E ign before imp acc cs).es, Shape E.level P c from this _ _ _ _
        clear hsh hg hne
        induction cs with
        | nil => intro ign before imp acc; rw [flowAnd]; simp
        | cons c cs ihl =>
          intro ign before imp acc d hd
          rw [flowAnd] at hd
          rcases List.mem_cons.1 hd with rfl | hd
          · exact ih' c (by simp) _ _ _
          · exact ihl (fun x hx => ih' x (by simp [hx])) _ _ _ _ d hd
    | .or, cs, hne =>
      rw [dataFlow.eq_def]; dsimp only
      refine flowFinish_shape E hP1 hP2 _ _ _ _ (Shape_node.2 ⟨?_, rfl, by simp, ?_⟩)
      · have := flowOr_len E cs ign before impure dfBottom
        intro h
        rw [h] at this
        exact hne (List.length_eq_zero_iff.1 this.symm)
      · suffices ∀ ign before imp acc, ∀ c ∈ (flowOr E ign before imp acc cs).es, Shape E.level P c from this _ _ _ _
        clear hsh hg hne
        induction cs with
        | nil => intro ign before imp acc; rw [flowOr]; simp
        | cons c cs ihl =>
          intro ign before imp acc d hd
          rw [flowOr] at hd
          rcases List.mem_cons.1 hd with rfl | hd
          · exact ih' c (by simp) _ _ _
          · exact ihl (fun x hx => ih' x (by simp [hx])) _ _ _ _ d hd

end

/-- The leaf conditions for all passes. -/
def LP (o : Owners) (f : File) (u level : Nat) (l : Leaf) : Prop := LeafOK o f u l ∧ NBLeaf o level l

/-- The invariant of the driver loop. -/
structure Inv (E : Env T) (o : Owners) (f : File) (u : Nat) (e : Expr T) : Prop where
  good : Good E.level e
  ncl : NCL (LP o f u E.level) e
  sw : SW E.level e

theorem AllLeaves.mono {P Q : Leaf → Prop} (h : ∀ l, P l → Q l) : ∀ e : Expr T, AllLeaves P e → AllLeaves Q e := by
  intro e
  induction e using Expr.ind with
  | hl a l => intro hp; exact AllLeaves_leaf.2 (h l (AllLeaves_leaf.1 hp))
  | hn a o cs ih => intro hp; exact AllLeaves_node.2 (fun c hc => ih c hc (AllLeaves_node.1 hp c hc))

theorem NCL.mono {P Q : Leaf → Prop} (h : ∀ l, P l → Q l) {e : Expr T} (hp : NCL P e) : NCL Q e :=
  ⟨hp.1, AllLeaves.mono h e hp.2⟩

/-- What one round achieves. -/
structure RoundOK (o : Owners) (f : File) (u : Nat) (E : Env T) (sem : Leaf → W → Res W) (ign : Bool) (before impure : Dom) (e : Expr T) (r : Flow T) : Prop where
  inv : Inv E o f u r.e
  own : Owned E o r.a.t ∧ Owned E o r.a.f
  imp : InDom f u impure → InDom f u r.impure
  dyn : ∀ w, InDom f u before → V sem ign e w →
    V sem ign r.e w ∧ Eqv ign (eval sem e w) (eval sem r.e w) ∧ (ign = false → r.a.ok f u (eval sem e w)) ∧
    (¬ InDom f u r.impure → (eval sem e w).q = false ∧ (eval sem e w).w = w)

section
variable (hO : Possible o) (h2 : 2 ≤ E.level) (hu : 0 < u) (hf : FileOK E o f) (hon : OnFile f E.level sem) (hs : SemOK sem) (hp : PureSem E.level sem)
include hO h2 hu hf hon hs hp

theorem ok_eqv {ign : Bool} {a : After} {x y : Res W} (h : Eqv ign x y) (hi : ign = false) (hy : a.ok f u y) : a.ok f u x := by
  intro hq
  rw [h.2.2 hi hq]
  exact hy (h.1 ▸ hq)

theorem round_ok (i : Nat) (ign : Bool) (before impure : Dom) (e : Expr T) (a : After) (hi : Inv E o f u e) (hw : Owned E o before) :
    RoundOK o f u E sem ign before impure e (optRound E i ign before impure e a) := by
  have h1 : 1 ≤ E.level := by omega
  unfold optRound
  simp only [h1, h2, if_true]
  have hT : LP o f u E.level .true_ := ⟨trivial, trivial⟩
  have hF : LP o f u E.level .false_ := ⟨trivial, trivial⟩
  have c1 := canonicalize_ST E e ign hi.good hi.ncl.1 hi.sw
  have c2 := canonicalize_good E ign e hi.good
  have c3 := NCL_canonicalize E hT hF ign e hi.ncl
  have c4 := fun w hv => canonicalize_sound E hs ign e w hi.good hv
  generalize canonicalize E ign e = e1 at *
  have c1 := c1.st
  -- reordering
  have key : ∃ e2, (if (decide (3 ≤ E.level) && decide (i ≠ 0)) = true then reorder E ign e1 else e1) = e2 ∧
      ST e2 ∧ Good E.level e2 ∧ NCL (LP o f u E.level) e2 ∧
      ∀ w, V sem ign e1 w → V sem ign e2 w ∧ Eqv ign (eval sem e1 w) (eval sem e2 w) := by
    refine ⟨_, rfl, ?_⟩
    split
    · have hsp := ST_SP E e1 c2 c3.1 c1
      exact ⟨(reorder_ST E e1 ign c2 c3.1 c1).st, (reorder_rel E ign e1 c2 hsp).good, NCL_reorder E ign e1 c3,
        fun w hv => reorder_sound E hs hp ign e1 w c2 hsp hv⟩
    · exact ⟨c1, c2, c3, fun w hv => ⟨hv, Eqv.refl _⟩⟩
  obtain ⟨e2, he2, d1, d2, d3, d4⟩ := key
  rw [he2]
  have f1 := dataFlow_ok E hu hf hon hs hp e2 (Shape_iff.2 ⟨d2, d3.mono fun l h => h.1⟩) ign before impure
  have f2 := (dataFlow_cl E hO e2 d2 (d3.mono fun l h => h.2) d1 ign before impure).2.sw hw
  have f4 := dataFlow_owned E hO e2 d2 (d3.mono fun l h => h.2) ign before impure hw
  have f3 := dataFlow_shape E hT hF e2 (Shape_iff.2 ⟨d2, d3⟩) ign before impure
  have g1 := simplify_good E ign _ f3.good
  have g2 := NCL_simplify E hT hF ign _ (Shape_iff.1 f3).2
  refine ⟨⟨g1, g2, f2⟩, f4, f1.imp, ?_⟩
  intro w hb hv
  obtain ⟨v1, q1⟩ := c4 w hv
  obtain ⟨v2, q2⟩ := d4 w v1
  obtain ⟨v3, q3, q4, q5⟩ := f1.dyn w hb v2
  obtain ⟨v4, q6⟩ := simplify_sound E hs (fun _ => hp) ign _ w f3.good v3
  have q12 := q1.trans q2
  refine ⟨v4, (q12.trans q3).trans q6, fun h => ok_eqv E hO h2 hu hf hon hs hp q12 h (q4 h), ?_⟩
  intro hn
  obtain ⟨k1, k2⟩ := q5 hn
  exact ⟨q12.1.trans k1, q12.2.1.trans k2⟩

theorem loop_ok (ign : Bool) (before impure : Dom) (hw : Owned E o before) : ∀ (n i : Nat) (r : Flow T), Inv E o f u r.e →
    RoundOK o f u E sem ign before impure r.e (optLoop E ign before impure (n + 1) i r) := by
  intro n
  induction n with
  | zero =>
    intro i r hi
    have h := round_ok E hO h2 hu hf hon hs hp i ign before impure r.e r.a hi hw
    rw [optLoop]
    split
    · rw [optLoop]; exact h
    · exact h
  | succ n ih =>
    intro i r hi
    have h := round_ok E hO h2 hu hf hon hs hp i ign before impure r.e r.a hi hw
    rw [optLoop]
    split
    · have h' := ih (i + 1) _ h.inv
      refine ⟨h'.inv, h'.own, h'.imp, ?_⟩
      intro w hb hv
      obtain ⟨v1, q1, _, _⟩ := h.dyn w hb hv
      obtain ⟨v2, q2, q3, q4⟩ := h'.dyn w hb v1
      refine ⟨v2, q1.trans q2, fun hi => ok_eqv E hO h2 hu hf hon hs hp q1 hi (q3 hi), fun hn => ?_⟩
      obtain ⟨k1, k2⟩ := q4 hn
      exact ⟨q1.1.trans k1, q1.2.1.trans k2⟩
    · exact h

/-- The optimizer on one expression. -/
theorem optimize_ok (ign : Bool) (before impure : Dom) (e : Expr T) (hwf : WF e) (hnc : NoComma e)
    (hl : AllLeaves (LP o f u E.level) e) (hw : Owned E o before) :
    (Owned E o (optimize E ign before impure e).a.f ∧ AllLeaves (LP o f u E.level) (optimize E ign before impure e).e) ∧
    (InDom f u impure → InDom f u (optimize E ign before impure e).impure) ∧
    ∀ w, InDom f u before →
      Eqv ign (eval sem e w) (eval sem (optimize E ign before impure e).e w) ∧
      (ign = false → (optimize E ign before impure e).a.ok f u (eval sem e w)) ∧
      (¬ InDom f u (optimize E ign before impure e).impure → (eval sem e w).q = false ∧ (eval sem e w).w = w) := by
  have hg := annotate_good E e (WF_arity e hwf)
  have hi : Inv E o f u (annotate E e) :=
    ⟨hg, NCL_annotate E e ⟨hnc, hl⟩, ST_SW _ hg (annotate_ST E e)⟩
  have h := loop_ok E hO h2 hu hf hon hs hp ign before impure hw 2 0 ⟨annotate E e, ⟨dfTop, dfTop⟩, impure⟩ hi
  unfold optimize
  refine ⟨⟨h.own.2, h.inv.ncl.2⟩, h.imp, fun w hb => ?_⟩
  have := (h.dyn w hb (annotate_V E hs e ign w (WF_arity e hwf))).2
  rwa [eval_annotate] at this

end

end Verif.Opt
