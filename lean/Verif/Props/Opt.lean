import Verif.Lemmas.OptLoop
import Verif.Lemmas.OptRuns
import Verif.Lemmas.OptTop
import Verif.Lemmas.OptEmpty
import Verif.Lemmas.OptOwner
/-!
# C01-C04, C49: the expression optimizer and evaluator
-/
namespace Verif.Props
open Verif.Opt Verif.Spec.Opt
variable {T W : Type}

/-- The observable outcome of handling a file: whether the search is to stop, and the state
of the world. -/
def outcome (x : Res W) : Bool × W := (x.q, x.w)

/-- C01: at -O0 and -O1, for arbitrary (even stateful, failing or impure) leaves, handling
any file with the optimized expressions has exactly the effects of handling it with the
original ones. -/
theorem C01_same_effects (E : Env T) (hl : E.level ≤ 1) (sem : Leaf → W → Res W) (hs : LeafLaws sem)
    (c : Ctx T) (hx : WFExclude c.exclude) (he : WF c.expr) (depth : Nat) (w : W) :
    outcome (evalCallback sem (bfsOptimize E c) depth w) = outcome (evalCallback sem c depth w) := by
  have h1 := exclude_low E hl hs.semOK c.exclude hx w
  have h2 := fun b m w => optimize_low E hl hs.semOK true b m c.expr he w
  have hmin : ∀ i m, newMindepth E.level i m = m := by
    intro i m; unfold newMindepth; rw [if_neg]; omega
  have hmax : ∀ i m, newMaxdepth E.level i m = m := by
    intro i m; unfold newMaxdepth; rw [if_neg]; omega
  unfold evalCallback bfsOptimize
  simp only [hmin, hmax]
  obtain ⟨e1, e2, e3⟩ := h1
  cases hq : (eval sem c.exclude w).q with
  | true =>
    have hq' := e1; rw [hq] at hq'
    simp [← hq', outcome, e2, hq]
  | false =>
    have hq' := e1; rw [hq] at hq'
    have hr := e3 rfl hq
    simp only [← hr, ← hq', Bool.or_false]
    split
    · simp [outcome, ← hq', hq, e2]
    · split
      · have := h2 (exprBefore c (optimize E false dfTop dfBottom c.exclude).a.f)
          (optimize E false dfTop dfBottom c.exclude).impure (eval sem c.exclude w).w
        rw [← e2]
        simp [outcome, this.1, this.2.1]
      · simp [outcome, ← hq', hq, e2]

/-- C01: the same leaves (other than the constants `-true` and `-false`) are evaluated in the
same order, each seeing the same state and giving the same result. -/
theorem C01_same_sequence (E : Env T) (hl : E.level ≤ 1) (sem : Leaf → W → Res W) (hs : LeafLaws sem)
    (c : Ctx T) (hx : WFExclude c.exclude) (he : WF c.expr) (depth : Nat) (w : W) :
    (evalCallback (logged sem) (bfsOptimize E c) depth (w, [])).w =
      (evalCallback (logged sem) c depth (w, [])).w := by
  have := C01_same_effects E hl (logged sem) (logged_laws hs) c hx he depth (w, [])
  simp only [outcome, Prod.mk.injEq] at this
  exact this.2

/-- C01: where the result matters (`-exclude`), it is unchanged. -/
theorem C01_same_result (E : Env T) (hl : E.level ≤ 1) (sem : Leaf → W → Res W) (hs : LeafLaws sem)
    (c : Ctx T) (hx : WFExclude c.exclude) (w : W) (hq : (eval sem c.exclude w).q = false) :
    eval sem (bfsOptimize E c).exclude w = eval sem c.exclude w := by
  obtain ⟨e1, e2, e3⟩ := exclude_low E hl hs.semOK c.exclude hx w
  have e3 := e3 rfl hq
  unfold bfsOptimize
  dsimp only
  generalize eval sem (optimize E false dfTop dfBottom c.exclude).e w = y at *
  cases y
  cases hz : eval sem c.exclude w
  simp_all

/-! ### C49: the evaluator -/

/-- C49: evaluation is exactly left-to-right short-circuit evaluation that stops at `-quit`. -/
theorem C49_eval_iff_runs (sem : Leaf → W → Res W) (e : Expr T) (h : WF e) (w : W) (x : Res W) :
    Runs sem e w x ↔ eval sem e w = x := runs_iff sem e h w x

/-- C49: nothing at all is evaluated after a leaf that quits, and the expression as a whole
quits exactly when its last evaluated leaf did. -/
theorem C49_nothing_after_quit (sem : Leaf → W → Res W) (hs : LeafLaws sem) (e : Expr T) (w : W) :
    ∃ log, (eval (logged sem) e (w, [])).w.2 = log ∧
      (∀ l₁ x l₂, log = l₁ ++ x :: l₂ → x.2.2.2 = true → l₂ = []) ∧
      ((eval (logged sem) e (w, [])).q = true ↔ ∃ l₁ x, log = l₁ ++ [x] ∧ x.2.2.2 = true) := by
  obtain ⟨log, h1, h2, h3⟩ := log_quit sem hs e (w, [])
  refine ⟨log, by simpa using h1, ?_, ?_⟩
  · intro l₁ x l₂ hl hx
    cases l₂ with
    | nil => rfl
    | cons y ys =>
      have := h2 (l₁ ++ [x]) y ys (by simp [hl]) x (by simp)
      simp [hx] at this
  · rw [h3]
    constructor
    · intro ⟨x, hx, hxq⟩
      obtain ⟨l, rfl⟩ := List.getLast?_eq_some_iff.1 hx
      exact ⟨l, x, rfl, hxq⟩
    · rintro ⟨l, x, rfl, hx⟩
      exact ⟨x, by simp, hx⟩

/-! ### A concrete instance -/

/-- Trivial cost model. -/
def unitCosts : Costs Unit := ⟨fun _ => (), fun _ _ => (), fun _ _ _ => (), fun _ _ => (), fun _ _ _ => true⟩
/-- An optimizer environment in which every user and group exists. -/
def exEnv (level : Nat) : Env Unit := ⟨unitCosts, level, fun _ => some false, fun _ => some false⟩
/-- A leaf. -/
def lf (l : Leaf) : Expr Unit := .leaf ⟨false, false, false, ()⟩ l
/-- A node. -/
def nd (o : Op) (cs : List (Expr Unit)) : Expr Unit := .node ⟨false, false, false, ()⟩ o cs
/-- `-print` is action 0: it appends to the output.  `-quit` is action 1.  Action 2 is a
command that fails every other time. -/
def exSem (f : File) : Leaf → List Nat → Res (List Nat)
  | .action .returnsTrue i, w => ⟨true, false, w ++ [i]⟩
  | .action .noReturn i, w => ⟨true, true, w ++ [i]⟩
  | .action .plain i, w => ⟨decide (w.length % 2 = 0), false, w ++ [i]⟩
  | l, w => ⟨(test f l).getD false, false, w⟩

/-- The example behaviour is a legal one. -/
theorem exSem_laws (f : File) : LeafLaws (exSem f) :=
  ⟨fun _ => rfl, fun _ => rfl, fun _ _ _ => rfl, fun _ _ => rfl⟩

/-- `-exclude -false ! ( ! -type d -a ( -true -o -print ) )`, and so on. -/
def exCtx : Ctx Unit :=
  { exclude := lf .false_
    expr := nd .not [nd .and [nd .not [lf (.type 8)], nd .or [lf .true_, lf (.action .returnsTrue 0)],
      nd .and [lf (.action .plain 2), lf (.action .noReturn 1)]]]
    mindepth := 0, maxdepth := intMax }

example : WFExclude exCtx.exclude ∧ WF exCtx.expr ∧ (exEnv 1).level ≤ 1 := by
  simp [exCtx, lf, nd, WFExclude, WF, WFs, operandsOK, exEnv]

/-- Without `-exclude`. -/
example : WFExclude (nd .or []) := Or.inr ⟨_, rfl⟩

/-! ### C02-C04: -O2 and above -/

theorem onFile_pure {f : File} {level : Nat} {sem : Leaf → W → Res W} (h : OnFile f level sem) : PureTests level sem := by
  intro l hl hq
  have : ∃ b, test f l = some b := by
    cases l with
    | action k i => exact absurd rfl (hl k i)
    | cmp r _ _ _ => cases r <;> exact ⟨_, rfl⟩
    | _ => exact ⟨_, rfl⟩
  obtain ⟨b, hb⟩ := this
  refine ⟨b, fun w => ?_⟩
  have h1 := h.result l b hb w
  have h2 := h.quiet l b hb hq w
  generalize sem l w = y at *
  cases y
  simp_all

theorem exprBefore_in {f : File} {u : Nat} {c : Ctx T} {d : Dom} (h : InDom f u d) {depth : Nat}
    (hd : f.num .depth = depth) (h1 : c.mindepth ≤ depth) (h2 : (depth : Int) ≤ c.maxdepth) : InDom f u (exprBefore c d) := by
  have key : ∀ (d : Dom), InDom f u d → InDom f u (if c.maxdepth < intMax then d.setRange .depth (constrainMax (d.ranges .depth) c.maxdepth) else d) := by
    intro d h
    split
    · apply h.setRange
      have := h.ranges .depth
      simp only [fnum, hd] at this ⊢
      simp only [constrainMax, minValue]
      split <;> constructor <;> first | exact this.1 | exact this.2 | exact h2
    · exact h
  unfold exprBefore
  dsimp only
  apply key
  split
  · apply h.setRange
    have := h.ranges .depth
    simp only [fnum, hd] at this ⊢
    simp only [constrainMin, maxValue]
    split <;> constructor <;> first | exact this.1 | exact this.2 | exact h1
  · exact h

/-- The conditions on the two expressions under which -O2 and above are proved right. -/
def TameCtx (o : Owners) (f : File) (unit level : Nat) (c : Ctx T) : Prop :=
  (WFExclude c.exclude ∧ NoComma c.exclude ∧ AllLeaves (Tame o f unit level) c.exclude) ∧
  (WF c.expr ∧ NoComma c.expr ∧ AllLeaves (Tame o f unit level) c.expr)

theorem new_bounds {f : File} {u : Nat} {d : Dom} {level depth : Nat} {lo hi : Int} (hd : f.num .depth = depth)
    (hmin : 0 ≤ lo) (hlo : lo ≤ depth) (hhi : (depth : Int) ≤ hi)
    (hin : newMindepth level d lo > depth ∨ newMaxdepth level d hi < depth) : ¬ InDom f u d := by
  intro h
  have := h.ranges .depth
  simp only [fnum, hd] at this
  rcases hin with hin | hin
  · unfold newMindepth at hin
    split at hin
    · split at hin <;> omega
    · omega
  · unfold newMaxdepth at hin
    split at hin
    · split at hin
      · have : intMin < 0 := by decide
        omega
      · omega
    · omega

theorem inBounds_iff {lo hi : Int} {d : Nat} (h : 0 ≤ lo) :
    inBounds lo hi d = true ↔ lo ≤ d ∧ (d : Int) ≤ toSize hi := by
  have : toSize lo = lo := by unfold toSize; rw [if_neg (by omega)]
  rw [inBounds, this, Bool.and_eq_true, decide_eq_true_iff, decide_eq_true_iff]

theorem toSize_ge {n : Int} {d : Nat} (h : ¬ (d : Int) ≤ toSize n) : n < d := by
  unfold toSize at h
  by_cases h0 : n < 0
  · omega
  · rw [if_neg h0] at h; omega

theorem newMin_ge {level : Nat} {d : Dom} {lo : Int} (h : lo ≤ intMax) : lo ≤ newMindepth level d lo := by
  unfold newMindepth
  split
  · split <;> omega
  · omega

section
variable (E : Env T) (h2 : 2 ≤ E.level) {f : File} (hf : RealFile f) {unit : Nat} (hu : 0 < unit) {o : Owners}
    (sem : Leaf → W → Res W) (hon : OnFile f E.level sem) (c : Ctx T) (hc : TameCtx o f unit E.level c)
    (hmin : 0 ≤ c.mindepth ∧ c.mindepth ≤ intMax) (depth : Nat) (hd : f.num .depth = depth) (hmax : (depth : Int) ≤ c.maxdepth)
include h2 hf hu hon hc hmin hd hmax

/-- C04 (partial: comma-free expressions over `Tame` leaves): if an inferred depth bound makes
bfs skip the expression on a file that was not excluded, evaluating it there would have had no
effect. -/
theorem C04_skipped_has_no_effect_partial (w : W) (hb : inBounds c.mindepth c.maxdepth depth = true)
    (hb' : inBounds (bfsOptimize E c).mindepth (bfsOptimize E c).maxdepth depth = false)
    (hx : (eval sem c.exclude w).r = false) (hq : (eval sem c.exclude w).q = false) :
    (eval sem c.expr (eval sem c.exclude w).w).q = false ∧
    (eval sem c.expr (eval sem c.exclude w).w).w = (eval sem c.exclude w).w := by
  obtain ⟨⟨x1, x2, x3⟩, e1, e2, e3⟩ := hc
  have ox := exclude_real E h2 hu hf hon c.exclude x1 x2 x3 w
  obtain ⟨ow, ox⟩ := ox
  obtain ⟨_, k2, _⟩ := ox
  have k2 := (k2 hq).2 hx
  have hlo : c.mindepth ≤ depth := ((inBounds_iff hmin.1).1 hb).1
  have k3 := exprBefore_in (c := c) k2 hd hlo hmax
  have oe := optimize_real E h2 hu hf hon true
    (exprBefore c (optimize E false dfTop dfBottom c.exclude).a.f) (optimize E false dfTop dfBottom c.exclude).impure c.expr e1 e2 e3 (exprBefore_owned E ow)
  refine (oe.2 _ k3).2.2 (new_bounds (level := E.level) hd hmin.1 hlo hmax ?_)
  have hge : c.mindepth ≤ (bfsOptimize E c).mindepth := newMin_ge hmin.2
  rw [← Bool.not_eq_true, inBounds_iff (by omega)] at hb'
  by_cases hlt : (bfsOptimize E c).mindepth > depth
  · exact Or.inl hlt
  · exact Or.inr (toSize_ge (fun h => hb' ⟨by omega, h⟩))

/-- C02 (partial: comma-free expressions over `Tame` leaves): at every level from -O2 up,
handling any file within the depth bounds with the optimized expressions and inferred depth
bounds has exactly the effects of handling it with the original ones. -/
theorem C02_same_effects_partial (w : W) :
    outcome (evalCallback sem (bfsOptimize E c) depth w) = outcome (evalCallback sem c depth w) := by
  have skip := C04_skipped_has_no_effect_partial E h2 hf hu sem hon c hc hmin depth hd hmax w
  obtain ⟨⟨x1, x2, x3⟩, e1, e2, e3⟩ := hc
  have ox := exclude_real E h2 hu hf hon c.exclude x1 x2 x3 w
  obtain ⟨ow, ox⟩ := ox
  obtain ⟨⟨k1, k2, k3⟩, k4, _⟩ := ox
  have oe := optimize_real E h2 hu hf hon true
    (exprBefore c (optimize E false dfTop dfBottom c.exclude).a.f) (optimize E false dfTop dfBottom c.exclude).impure c.expr e1 e2 e3 (exprBefore_owned E ow)
  have hx' : (bfsOptimize E c).exclude = (optimize E false dfTop dfBottom c.exclude).e := rfl
  have he' : (bfsOptimize E c).expr = (optimize E true (exprBefore c (optimize E false dfTop dfBottom c.exclude).a.f)
    (optimize E false dfTop dfBottom c.exclude).impure c.expr).e := rfl
  unfold evalCallback
  rw [hx']
  dsimp only
  cases hq : (eval sem c.exclude w).q with
  | true =>
    rw [hq] at k1
    simp [outcome, ← k1, k2, hq]
  | false =>
    have k1' := k1
    rw [hq] at k1'
    have k3 := k3 rfl hq
    simp only [← k1', ← k3, ← k2, Bool.or_false]
    cases hr : (eval sem c.exclude w).r with
    | true => simp [outcome, ← k1', k2, hq]
    | false =>
      simp only [Bool.false_eq_true, if_false]
      cases hb : inBounds c.mindepth c.maxdepth depth with
      | true =>
        have hlo : c.mindepth ≤ depth := ((inBounds_iff hmin.1).1 hb).1
        have k5 := exprBefore_in (c := c) ((k4 hq).2 hr) hd hlo hmax
        cases hb' : inBounds (bfsOptimize E c).mindepth (bfsOptimize E c).maxdepth depth with
        | true =>
          obtain ⟨⟨m1, m2, _⟩, _⟩ := oe.2 (eval sem c.exclude w).w k5
          rw [he']
          simp [outcome, m1, m2]
        | false =>
          obtain ⟨m1, m2⟩ := skip hb hb' hr hq
          simp [outcome, m1, m2, ← k1', ← k2]
      | false =>
        have hb' : inBounds (bfsOptimize E c).mindepth (bfsOptimize E c).maxdepth depth = false := by
          have hge : c.mindepth ≤ (bfsOptimize E c).mindepth := newMin_ge hmin.2
          rw [← Bool.not_eq_true, inBounds_iff (by omega)] at hb ⊢
          have : (depth : Int) ≤ toSize c.maxdepth := by
            unfold toSize
            rw [if_neg (by omega)]
            exact hmax
          intro hb'
          exact hb ⟨by omega, this⟩
        simp [hb', outcome, ← k1', ← k2, hq]

/-- C04 (partial, as above): if the optimized search does not descend below some depth, the
deeper files that the original search would have visited have no effect whatsoever. -/
theorem C04_pruned_has_no_effect_partial (w : W) (d₀ : Nat) (hlt : d₀ < depth)
    (hp : prunes (bfsOptimize E c) d₀ = true) : outcome (evalCallback sem c depth w) = (false, w) := by
  obtain ⟨⟨x1, x2, x3⟩, e1, e2, e3⟩ := hc
  have ox := exclude_real E h2 hu hf hon c.exclude x1 x2 x3 w
  obtain ⟨ow, ox⟩ := ox
  have oe := optimize_real E h2 hu hf hon true
    (exprBefore c (optimize E false dfTop dfBottom c.exclude).a.f) (optimize E false dfTop dfBottom c.exclude).impure c.expr e1 e2 e3 (exprBefore_owned E ow)
  have hnew : (bfsOptimize E c).maxdepth < depth := by
    by_cases h0 : (bfsOptimize E c).maxdepth < 0
    · omega
    · have : toSize (bfsOptimize E c).maxdepth = (bfsOptimize E c).maxdepth := by unfold toSize; rw [if_neg h0]
      rw [prunes, this, Bool.or_eq_true, decide_eq_true_iff, decide_eq_true_iff] at hp
      omega
  have hn := new_bounds (f := fit E (clean o) f) (u := unit) (lo := 0) hd (Int.le_refl _) (by omega) hmax (Or.inr hnew)
  obtain ⟨_, k4, k5⟩ := ox
  obtain ⟨k5, k6⟩ := k5 (fun h => hn (oe.1 h))
  have k4 := k4 k5
  unfold evalCallback
  dsimp only
  cases hr : (eval sem c.exclude w).r with
  | true => simp [outcome, k5, k6]
  | false =>
    simp only [k5, Bool.or_self, Bool.false_eq_true, if_false]
    cases hb : inBounds c.mindepth c.maxdepth depth with
    | false => simp [outcome, k5, k6]
    | true =>
      have hlo : c.mindepth ≤ depth := ((inBounds_iff hmin.1).1 hb).1
      have := (oe.2 (eval sem c.exclude w).w (exprBefore_in (c := c) (k4.2 hr) hd hlo hmax)).2.2 hn
      rw [k6] at this
      simp [outcome, this.1, this.2, k6]
end

/-! ### C03: reordering -/

/-- C03: whatever the cost model (and hence whatever order the sort picks), sorting the
operands of an annotated and canonicalized expression keeps its effects, and its result where
that matters; tests must not depend on what actions did. -/
theorem C03_reorder_same_effects (E : Env T) (sem : Leaf → W → Res W) (hs : LeafLaws sem) (hp : PureTests E.level sem)
    (ign : Bool) (e : Expr T) (h : WF e) (w : W) :
    outcome (eval sem (reorder E ign (canonicalize E ign (annotate E e))) w) = outcome (eval sem e w) ∧
    (ign = false → (eval sem e w).q = false →
      (eval sem (reorder E ign (canonicalize E ign (annotate E e))) w).r = (eval sem e w).r) := by
  have ha := WF_arity e h
  have hg := annotate_good E e ha
  have hsp := annotate_SP E e ha
  have hv := annotate_V E hs.semOK e ign w ha
  have c1 := canonicalize_sound E hs.semOK ign _ w hg hv
  have c2 := canonicalize_rel E ign _ hg hsp
  have c3 := reorder_sound E hs.semOK hp.pureSem ign _ w c2.good c2.sp c1.1
  have q := c1.2.trans c3.2
  rw [eval_annotate] at q
  refine ⟨?_, fun hi hq => (q.2.2 hi hq).symm⟩
  simp [outcome, q.1, q.2.1]

theorem loggedActions_laws {sem : Leaf → W → Res W} (h : LeafLaws sem) : LeafLaws (loggedActions sem) where
  true_ := by intro w; simp [loggedActions, h.true_]
  false_ := by intro w; simp [loggedActions, h.false_]
  returns := by intro i w; simpa [loggedActions] using h.returns i w.1
  noReturn := by intro i w; simpa [loggedActions] using h.noReturn i w.1

theorem loggedActions_pure {level : Nat} {sem : Leaf → W → Res W} (h : PureTests level sem) :
    PureTests level (loggedActions sem) := by
  intro l hl hq
  obtain ⟨b, hb⟩ := h l hl hq
  refine ⟨b, fun w => ?_⟩
  cases l <;> first | exact absurd rfl (hl _ _) | simp [loggedActions, hb]

/-- C03: the same actions run, in the same order, each seeing the same state and giving the
same result. -/
theorem C03_reorder_same_actions (E : Env T) (sem : Leaf → W → Res W) (hs : LeafLaws sem) (hp : PureTests E.level sem)
    (ign : Bool) (e : Expr T) (h : WF e) (w : W) :
    (eval (loggedActions sem) (reorder E ign (canonicalize E ign (annotate E e))) (w, [])).w =
      (eval (loggedActions sem) e (w, [])).w := by
  have := (C03_reorder_same_effects E _ (loggedActions_laws hs) (loggedActions_pure hp) ign e h (w, [])).1
  simp only [outcome, Prod.mk.injEq] at this
  exact this.2

/-! ### Witnesses and counterexamples -/

/-- A regular file of 1 MiB at depth 1 with uid 1, gid 1, inode 5 on device 2. -/
def exFile : File :=
  { pred := fun p => match p with | .readable => true | _ => false
    num := fun r => match r with | .depth => 1 | .gid => 1 | .inum => 5 | .links => 1 | .size => 1048576 | .uid => 1
    dev := 2, type := 8, xtype := 8, lname := fun _ => false, other := fun i => decide (i = 7) }

theorem exFile_real : RealFile exFile where
  num := by intro r; cases r <;> decide
  type := by decide
  xtype := by decide
  empty := by decide
  size0 := by decide

theorem exSem_onFile (level : Nat) : OnFile exFile level (exSem exFile) where
  laws := exSem_laws exFile
  result := by
    intro l b h w
    cases l with
    | action k i => simp [test] at h
    | _ => simp only [exSem, h]; simp
  quiet := by
    intro l b h _ w
    cases l with
    | action k i => simp [test] at h
    | _ => rfl

/-- `-exclude -hidden -depth -3 ! ( -size +1M -o -print ) -size -4M ! -samefile x -other
-user 1 -quit` -/
def exCtx2 : Ctx Unit :=
  { exclude := lf (.pred .hidden)
    expr := nd .and [lf (.cmp .depth 0 .lt 3), nd .not [nd .or [lf (.cmp .size 1048576 .gt 1), lf (.action .returnsTrue 0)]],
      lf (.cmp .size 1048576 .lt 4), nd .not [lf (.samefile 2 6)], lf (.other 7), lf (.cmp .uid 0 .eq 1), lf (.action .noReturn 1)]
    mindepth := 0, maxdepth := intMax }

example : RealFile exFile ∧ OnFile exFile 3 (exSem exFile) ∧ TameCtx ⟨some 1, none⟩ exFile 1048576 3 exCtx2 ∧
    exFile.num .depth = ((1 : Nat) : Int) ∧ ((1 : Nat) : Int) ≤ exCtx2.maxdepth ∧ 0 ≤ exCtx2.mindepth ∧ exCtx2.mindepth ≤ intMax := by
  refine ⟨exFile_real, exSem_onFile 3, ?_, rfl, by decide, by decide, by decide⟩
  simp [TameCtx, exCtx2, lf, nd, WFExclude, WF, WFs, operandsOK, NoComma, NoCommas, AllLeaves, AllLeavesL, Tame, exFile]

/-- `-depth +3 -print` at -O2: the minimum depth is raised to 4. -/
example : (bfsOptimize (exEnv 2) ⟨lf .false_, nd .and [lf (.cmp .depth 0 .gt 3), lf (.action .returnsTrue 0)], 0, intMax⟩).mindepth = 4 := by
  decide +kernel
/-- `-depth -3 -print` at -O4: the maximum depth is lowered to 2. -/
example : (bfsOptimize (exEnv 4) ⟨lf .false_, nd .and [lf (.cmp .depth 0 .lt 3), lf (.action .returnsTrue 0)], 0, intMax⟩).maxdepth = 2 := by
  decide +kernel

example : PureTests 3 (exSem exFile) := onFile_pure (exSem_onFile 3)

/-- Handling `exFile` with the optimized context and with the original one differs. -/
def Differs (level : Nat) (c : Ctx Unit) : Prop :=
  RealFile exFile ∧ OnFile exFile level (exSem exFile) ∧ WF c.exclude ∧ WF c.expr ∧
  outcome (evalCallback (exSem exFile) (bfsOptimize (exEnv level) c) 1 []) ≠ outcome (evalCallback (exSem exFile) c 1 [])

/-- The unrestricted C02 is false: `-size 1M -size 1048576c -print` prints nothing at -O2. -/
theorem C02_counterexample_size_units : Differs 2
    ⟨lf .false_, nd .and [lf (.cmp .size 1048576 .eq 1), lf (.cmp .size 1 .eq 1048576), lf (.action .returnsTrue 0)], 0, intMax⟩ := by
  refine ⟨exFile_real, exSem_onFile 2, trivial, by simp [nd, lf, WF, WFs, operandsOK], by decide +kernel⟩

/-- The unrestricted C02 is false: `( -uid 0 -o -uid 1 ) -print`, where both users exist,
prints nothing at -O2 for a file with uid 1. -/
theorem C02_counterexample_uid : Differs 2
    ⟨lf .false_, nd .and [nd .or [lf (.cmp .uid 0 .eq 0), lf (.cmp .uid 0 .eq 1)], lf (.action .returnsTrue 0)], 0, intMax⟩ := by
  refine ⟨exFile_real, exSem_onFile 2, trivial, by simp [nd, lf, WF, WFs, operandsOK], by decide +kernel⟩

/-- The unrestricted C02 is false: `! -uid 0 ! -nouser -print`, where both users exist, prints
nothing at -O2 for a file with uid 1. -/
theorem C02_counterexample_nouser : Differs 2
    ⟨lf .false_, nd .and [nd .not [lf (.cmp .uid 0 .eq 0)], nd .not [lf (.pred .nouser)], lf (.action .returnsTrue 0)], 0, intMax⟩ := by
  refine ⟨exFile_real, exSem_onFile 2, trivial, by simp [nd, lf, WF, WFs, operandsOK], by decide +kernel⟩

/-- The unrestricted C02 is false: `-inum 5 ! -samefile x -print` misses a file with inode 5 on
another device than `x`. -/
theorem C02_counterexample_samefile : Differs 2
    ⟨lf .false_, nd .and [lf (.cmp .inum 0 .eq 5), nd .not [lf (.samefile 1 5)], lf (.action .returnsTrue 0)], 0, intMax⟩ := by
  refine ⟨exFile_real, exSem_onFile 2, trivial, by simp [nd, lf, WF, WFs, operandsOK], by decide +kernel⟩

/-- The unrestricted C02 is false: `! -type f , -print` prints nothing at -O2. -/
theorem C02_counterexample_comma_not : Differs 2
    ⟨lf .false_, nd .comma [nd .not [lf (.type 256)], lf (.action .returnsTrue 0)], 0, intMax⟩ := by
  refine ⟨exFile_real, exSem_onFile 2, trivial, by simp [nd, lf, WF, WFs, operandsOK], by decide +kernel⟩

/-- The unrestricted C02 is false: `-print -true , -print` prints only once at -O2. -/
theorem C02_counterexample_comma_true : Differs 2
    ⟨lf .false_, nd .comma [nd .and [lf (.action .returnsTrue 0), lf .true_], lf (.action .returnsTrue 1)], 0, intMax⟩ := by
  refine ⟨exFile_real, exSem_onFile 2, trivial, by simp [nd, lf, WF, WFs, operandsOK], by decide +kernel⟩

end Verif.Props
