import Verif.Lemmas.OptEmpty
import Verif.Lemmas.OptLoop
/-!
# Tests for the owner

The optimizer derives from `-uid n` that the file has (or does not have) a known user, and gets
the second half of this wrong (src/opt.c:1652-1663, 1726-1737).  If only one user is asked for,
and `-nouser` is not used, then nothing depends on the wrong fact: it is right about a file that
differs in what `-nouser` says.
-/
namespace Verif.Opt
open Verif.Spec.Opt
variable {T W : Type} {sem : Leaf → W → Res W} (E : Env T) {o : Owners} {f : File} {u : Nat}

/-- Ids that cannot be asked for do not matter. -/
def clean (o : Owners) : Owners :=
  ⟨o.user.filter fun n => decide (0 ≤ n) && decide (n < llMax), o.group.filter fun n => decide (0 ≤ n) && decide (n < llMax)⟩

theorem clean_possible (o : Owners) : Possible (clean o) := by
  constructor <;> intro n h
  all_goals
    simp only [clean, Option.filter_eq_some_iff, Bool.and_eq_true, decide_eq_true_eq] at h
    exact h.2

theorem clean_tame : ∀ l, Tame o f u E.level l → LP (clean o) f u E.level l := by
  intro l h
  cases l with
  | cmp r _ _ _ =>
    cases r with
    | gid | uid =>
      obtain ⟨h1, h2, h3, h4⟩ := h
      refine ⟨⟨h1, ?_⟩, h1, ?_, h3, h4⟩ <;> simp [clean, h2, h3, h4, llMax]
    | size => exact ⟨h, trivial⟩
    | _ => exact ⟨trivial, trivial⟩
  | pred p =>
    cases p with
    | empty => exact ⟨trivial, h⟩
    | nogroup => exact ⟨trivial, by show (clean o).group = none; simp [clean, show o.group = none from h]⟩
    | nouser => exact ⟨trivial, by show (clean o).user = none; simp [clean, show o.user = none from h]⟩
    | _ => exact ⟨trivial, trivial⟩
  | samefile _ _ => exact ⟨h, trivial⟩
  | _ => exact ⟨trivial, trivial⟩

/-- What `-nouser` must say for the derived facts to be right. -/
def fitPred (want : Option Int) (lookup : Int → Option Bool) (id : Int) (real : Bool) : Bool :=
  match want with
  | none => real
  | some n => match lookup n with
    | none => real
    | some v => if id = n then v else !v

/-- The file about which the derived facts are right. -/
def fit (o : Owners) (f : File) : File :=
  { f with pred := fun p => match p with
    | .nouser => fitPred o.user E.noUser (f.num .uid) (f.pred .nouser)
    | .nogroup => fitPred o.group E.noGroup (f.num .gid) (f.pred .nogroup)
    | p => f.pred p }

theorem fit_ok (h : RealFile f) : FileOK E o (fit E o f) where
  num := h.num
  type := h.type
  xtype := h.xtype
  empty := h.empty
  size0 := h.size0
  user n v h1 h2 := by
    show fitPred o.user E.noUser (f.num .uid) (f.pred .nouser) = _
    unfold fitPred; rw [h1]; dsimp only; rw [h2]; rfl
  group n v h1 h2 := by
    show fitPred o.group E.noGroup (f.num .gid) (f.pred .nogroup) = _
    unfold fitPred; rw [h1]; dsimp only; rw [h2]; rfl

/-- The behaviour on that file. -/
def fitSem (o : Owners) (f : File) (sem : Leaf → W → Res W) : Leaf → W → Res W
  | .pred .nouser => fun w => ⟨(fit E o f).pred .nouser, false, w⟩
  | .pred .nogroup => fun w => ⟨(fit E o f).pred .nogroup, false, w⟩
  | l => sem l

theorem fit_test : ∀ l, l ≠ .pred .nouser → l ≠ .pred .nogroup → test (fit E o f) l = test f l := by
  intro l h1 h2
  cases l with
  | pred p =>
    cases p with
    | nouser => exact absurd rfl h1
    | nogroup => exact absurd rfl h2
    | _ => rfl
  | cmp r _ _ _ => cases r <;> rfl
  | _ => rfl

theorem fitSem_other : ∀ l, l ≠ .pred .nouser → l ≠ .pred .nogroup → fitSem E o f sem l = sem l := by
  intro l h1 h2
  cases l with
  | pred p =>
    cases p with
    | nouser => exact absurd rfl h1
    | nogroup => exact absurd rfl h2
    | _ => rfl
  | _ => rfl

theorem fit_on {level : Nat} (h : OnFile f level sem) : OnFile (fit E o f) level (fitSem E o f sem) where
  laws := ⟨h.laws.true_, h.laws.false_, h.laws.returns, h.laws.noReturn⟩
  result l b hb w := by
    by_cases h1 : l = .pred .nouser
    · subst h1; exact ⟨Option.some.inj hb, rfl⟩
    · by_cases h2 : l = .pred .nogroup
      · subst h2; exact ⟨Option.some.inj hb, rfl⟩
      · rw [fit_test E l h1 h2] at hb
        rw [fitSem_other E l h1 h2]
        exact h.result l b hb w
  quiet l b hb hq w := by
    by_cases h1 : l = .pred .nouser
    · subst h1; rfl
    · by_cases h2 : l = .pred .nogroup
      · subst h2; rfl
      · rw [fit_test E l h1 h2] at hb
        rw [fitSem_other E l h1 h2]
        exact h.quiet l b hb hq w

theorem fitSem_eq (hon : OnFile f E.level sem) : ∀ l, LP o f u E.level l → fitSem E o f sem l = sem l := by
  intro l hl
  have pure : ∀ p, p = .nouser ∨ p = .nogroup → (fun w => (⟨f.pred p, false, w⟩ : Res W)) = sem (.pred p) := by
    intro p hp
    funext w
    have h1 := hon.result (.pred p) (f.pred p) rfl w
    have h2 := hon.quiet (.pred p) (f.pred p) rfl (Or.inr ⟨by rintro ⟨⟩; simp at hp, by simp⟩) w
    generalize sem (.pred p) w = x at *
    cases x
    simp_all
  by_cases h1 : l = .pred .nouser
  · subst h1
    have h0 : o.user = none := hl.2
    rw [← pure .nouser (Or.inl rfl)]
    show (fun w => (⟨fitPred o.user E.noUser (f.num .uid) (f.pred .nouser), false, w⟩ : Res W)) = _
    rw [h0]; rfl
  · by_cases h2 : l = .pred .nogroup
    · subst h2
      have h0 : o.group = none := hl.2
      rw [← pure .nogroup (Or.inr rfl)]
      show (fun w => (⟨fitPred o.group E.noGroup (f.num .gid) (f.pred .nogroup), false, w⟩ : Res W)) = _
      rw [h0]; rfl
    · exact fitSem_other E l h1 h2

theorem eval_congr {P : Leaf → Prop} {sem sem' : Leaf → W → Res W} (h : ∀ l, P l → sem l = sem' l) : ∀ e : Expr T, AllLeaves P e → eval sem e = eval sem' e := by
  intro e
  induction e using Expr.ind with
  | hl a l => intro hp; exact h l (AllLeaves_leaf.1 hp)
  | hn a op cs ih =>
    intro hp
    replace hp := AllLeaves_node.1 hp
    have : evals sem cs = evals sem' cs := by
      clear h
      induction cs with
      | nil => rfl
      | cons c cs i =>
        show eval sem c :: evals sem cs = eval sem' c :: evals sem' cs
        rw [ih c (by simp) (hp c (by simp)), i (fun d hd => ih d (by simp [hd])) (fun d hd => hp d (by simp [hd]))]
    show evalOp op (evals sem cs) = evalOp op (evals sem' cs)
    rw [this]

theorem onFile_pureSem {level : Nat} (h : OnFile f level sem) : PureSem level sem := by
  apply Verif.Spec.Opt.PureTests.pureSem
  intro l hl hq
  have : ∃ b, test f l = some b := by
    cases l with
    | action k i => exact absurd rfl (hl k i)
    | cmp r _ _ _ => cases r <;> exact ⟨_, rfl⟩
    | _ => exact ⟨_, rfl⟩
  obtain ⟨b, hb⟩ := this
  refine ⟨b, fun w => ?_⟩
  have h1 := h.result l b hb w
  have h2 := h.quiet l b hb hq w
  generalize sem l w = y at *
  cases y
  simp_all

theorem LP_fit : ∀ l, LP o f u E.level l → LP o (fit E o f) u E.level l := by
  intro l h
  cases l with
  | cmp r _ _ _ => cases r <;> exact h
  | pred p => cases p <;> exact h
  | _ => exact h

theorem LP_unfit : ∀ l, LP o (fit E o f) u E.level l → LP o f u E.level l := by
  intro l h
  cases l with
  | cmp r _ _ _ => cases r <;> exact h
  | pred p => cases p <;> exact h
  | _ => exact h

section
variable (h2 : 2 ≤ E.level) (hu : 0 < u) (hf : RealFile f) (hon : OnFile f E.level sem)
include h2 hu hf hon

/-- `optimize_ok` for real files. -/
theorem optimize_real (ign : Bool) (before impure : Dom) (e : Expr T) (hwf : WF e) (hnc : NoComma e)
    (hl : AllLeaves (Tame o f u E.level) e) (hw : Owned E (clean o) before) :
    (InDom (fit E (clean o) f) u impure → InDom (fit E (clean o) f) u (optimize E ign before impure e).impure) ∧
    ∀ w, InDom (fit E (clean o) f) u before →
      Eqv ign (eval sem e w) (eval sem (optimize E ign before impure e).e w) ∧
      (ign = false → (optimize E ign before impure e).a.ok (fit E (clean o) f) u (eval sem e w)) ∧
      (¬ InDom (fit E (clean o) f) u (optimize E ign before impure e).impure → (eval sem e w).q = false ∧ (eval sem e w).w = w) := by
  have hl' := AllLeaves.mono (clean_tame E) e hl
  have hon' := fit_on E (o := clean o) hon
  have h := optimize_ok E (clean_possible o) h2 hu (fit_ok E hf) hon' hon'.laws.semOK (onFile_pureSem hon') ign before impure e hwf hnc
    (AllLeaves.mono (LP_fit E) e hl') hw
  rw [eval_congr (fitSem_eq E hon) e hl', eval_congr (fitSem_eq E hon) _ (AllLeaves.mono (LP_unfit E) _ h.1.2)] at h
  exact h.2

/-- `exclude_ok` for real files. -/
theorem exclude_real (e : Expr T) (h : WFExclude e) (hnc : NoComma e) (hl : AllLeaves (Tame o f u E.level) e) (w : W) :
      Owned E (clean o) (optimize E false dfTop dfBottom e).a.f ∧
      Eqv false (eval sem e w) (eval sem (optimize E false dfTop dfBottom e).e w) ∧
      ((optimize E false dfTop dfBottom e).a.ok (fit E (clean o) f) u (eval sem e w)) ∧
      (¬ InDom (fit E (clean o) f) u (optimize E false dfTop dfBottom e).impure → (eval sem e w).q = false ∧ (eval sem e w).w = w) := by
  have hl' := AllLeaves.mono (clean_tame E) e hl
  have hon' := fit_on E (o := clean o) hon
  obtain ⟨⟨k1, e', k2, k3⟩, k4⟩ := exclude_ok E (clean_possible o) h2 hu (fit_ok E hf) hon' hon'.laws.semOK (onFile_pureSem hon') e h hnc
    (AllLeaves.mono (LP_fit E) e hl') w
  rw [eval_congr (fitSem_eq E hon) e hl', k3 _ hon'.laws.semOK, eval_congr (fitSem_eq E hon) e' (AllLeaves.mono (LP_unfit E) _ k2),
    ← k3 _ hon.laws.semOK] at k4
  exact ⟨k1, k4⟩

end

/-- Depth bounds say nothing about owners. -/
theorem exprBefore_owned {c : Ctx T} {d : Dom} (h : Owned E o d) : Owned E o (exprBefore c d) := by
  unfold exprBefore
  dsimp only
  apply h.congr <;> intro _ <;> split <;> split <;> exact ⟨rfl, rfl⟩

end Verif.Opt
