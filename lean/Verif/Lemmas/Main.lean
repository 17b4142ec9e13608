import Verif.Spec.Main
import Verif.Props.Search
import Verif.Props.Opt
import Verif.Props.Cmdline

/-! # From the arguments to the output -/
namespace Verif.Main
open Verif.Bftw

variable {T : Type} (b : Behaviour) (a : Opt.Ann T) (o : Settings) (e : Env)

/-- The meaning of a leaf with a path. -/
def Behaviour.lm (b : Behaviour) (p : Pos) (path : Bytes) (l : Cmdline.Leaf) : Meaning :=
  ⟨b.resultOf p (b.leafOf l), quits (b.leafOf l), b.effectsOf p path (b.leafOf l)⟩

/-- The result does not matter if the search is at an end. -/
def Agrees (w : List Effect) (x : Opt.Res (List Effect)) (m : Meaning) : Prop :=
  x.q = m.quit ∧ x.w = w ++ m.effects ∧ (m.quit = false → x.r = m.value)

theorem eval_build (p : Pos) (path : Bytes) (x : Cmdline.E) (w : List Effect) :
    Agrees w (Opt.eval (b.sem p path) (b.build a x) w) (meaning (b.lm p path) x) := by
  induction x generalizing w with
  | leaf l => exact ⟨rfl, rfl, fun _ => rfl⟩
  | not x ih =>
    obtain ⟨h1, h2, h3⟩ := ih w
    refine ⟨h1, h2, fun hq => ?_⟩
    show (!_) = !_
    rw [h3 hq]
  | and x y ihx ihy =>
    obtain h := ihx w
    obtain k := ihy (Opt.eval (b.sem p path) (b.build a x) w).w
    show Agrees w (Opt.evalAnd [_, _] w) _
    simp only [Opt.evalAnd, meaning]
    generalize Opt.eval (b.sem p path) (b.build a y) (Opt.eval (b.sem p path) (b.build a x) w).w = Y at *
    generalize Opt.eval (b.sem p path) (b.build a x) w = X at *
    generalize meaning (b.lm p path) x = m at *
    generalize meaning (b.lm p path) y = n at *
    obtain ⟨r, q, v⟩ := X
    obtain ⟨r', q', v'⟩ := Y
    obtain ⟨mr, mq, mf⟩ := m
    obtain ⟨nr, nq, nf⟩ := n
    obtain ⟨h1, h2, h3⟩ := h
    obtain ⟨k1, k2, k3⟩ := k
    dsimp only at h1 h2 h3 k1 k2 k3
    subst h1 h2 k1 k2
    cases q with
    | true => exact ⟨by simp, by simp, by simp⟩
    | false =>
      cases h3 rfl
      cases q' with
      | true => cases r <;> exact ⟨by simp, by simp, by simp⟩
      | false =>
        cases k3 rfl
        cases r <;> cases r' <;> exact ⟨by simp, by simp, by simp⟩
  | or x y ihx ihy =>
    obtain h := ihx w
    obtain k := ihy (Opt.eval (b.sem p path) (b.build a x) w).w
    show Agrees w (Opt.evalOr [_, _] w) _
    simp only [Opt.evalOr, meaning]
    generalize Opt.eval (b.sem p path) (b.build a y) (Opt.eval (b.sem p path) (b.build a x) w).w = Y at *
    generalize Opt.eval (b.sem p path) (b.build a x) w = X at *
    generalize meaning (b.lm p path) x = m at *
    generalize meaning (b.lm p path) y = n at *
    obtain ⟨r, q, v⟩ := X
    obtain ⟨r', q', v'⟩ := Y
    obtain ⟨mr, mq, mf⟩ := m
    obtain ⟨nr, nq, nf⟩ := n
    obtain ⟨h1, h2, h3⟩ := h
    obtain ⟨k1, k2, k3⟩ := k
    dsimp only at h1 h2 h3 k1 k2 k3
    subst h1 h2 k1 k2
    cases q with
    | true => exact ⟨by simp, by simp, by simp⟩
    | false =>
      cases h3 rfl
      cases q' with
      | true => cases r <;> exact ⟨by simp, by simp, by simp⟩
      | false =>
        cases k3 rfl
        cases r <;> cases r' <;> exact ⟨by simp, by simp, by simp⟩
  | comma x y ihx ihy =>
    obtain h := ihx w
    obtain k := ihy (Opt.eval (b.sem p path) (b.build a x) w).w
    show Agrees w (Opt.evalComma [_, _] w) _
    simp only [Opt.evalComma, meaning]
    generalize Opt.eval (b.sem p path) (b.build a y) (Opt.eval (b.sem p path) (b.build a x) w).w = Y at *
    generalize Opt.eval (b.sem p path) (b.build a x) w = X at *
    generalize meaning (b.lm p path) x = m at *
    generalize meaning (b.lm p path) y = n at *
    obtain ⟨r, q, v⟩ := X
    obtain ⟨r', q', v'⟩ := Y
    obtain ⟨mr, mq, mf⟩ := m
    obtain ⟨nr, nq, nf⟩ := n
    obtain ⟨h1, h2, h3⟩ := h
    obtain ⟨k1, k2, k3⟩ := k
    dsimp only at h1 h2 h3 k1 k2 k3
    subst h1 h2 k1 k2
    cases q with
    | true => exact ⟨by simp, by simp, by simp⟩
    | false =>
      cases h3 rfl
      cases q' with
      | true => cases r <;> exact ⟨by simp, by simp, by simp⟩
      | false =>
        cases k3 rfl
        cases r <;> cases r' <;> exact ⟨by simp, by simp, by simp⟩

/-! ## What is excluded -/

/-- There are only tests in it. -/
def Behaviour.Quiet (b : Behaviour) : Cmdline.E → Prop
  | .leaf l => ∀ k i, b.leafOf l ≠ .action k i
  | .not x => b.Quiet x
  | .and x y => b.Quiet x ∧ b.Quiet y
  | .or x y => b.Quiet x ∧ b.Quiet y
  | .comma x y => b.Quiet x ∧ b.Quiet y

theorem quiet_meaning (p : Pos) (path : Bytes) (x : Cmdline.E) (h : b.Quiet x) :
    (meaning (b.lm p path) x).quit = false ∧ (meaning (b.lm p path) x).effects = [] := by
  induction x with
  | leaf l =>
    show quits (b.leafOf l) = false ∧ b.effectsOf p path (b.leafOf l) = []
    have h : ∀ k i, b.leafOf l ≠ .action k i := h
    cases hl : b.leafOf l with
    | action k i => exact absurd hl (h k i)
    | _ => exact ⟨rfl, rfl⟩
  | not x ih => exact ih h
  | and x y ihx ihy =>
    obtain ⟨h1, h2⟩ := ihx h.1
    obtain ⟨k1, k2⟩ := ihy h.2
    simp only [meaning, h1, h2, k1, k2]
    split <;> simp
  | or x y ihx ihy =>
    obtain ⟨h1, h2⟩ := ihx h.1
    obtain ⟨k1, k2⟩ := ihy h.2
    simp only [meaning, h1, h2, k1, k2]
    split <;> simp
  | comma x y ihx ihy =>
    obtain ⟨h1, h2⟩ := ihx h.1
    obtain ⟨k1, k2⟩ := ihy h.2
    simp [meaning, h1, h2, k1, k2]

theorem quiet_value (p : Pos) (path path' : Bytes) (x : Cmdline.E) (h : b.Quiet x) :
    (meaning (b.lm p path) x).value = (meaning (b.lm p path') x).value := by
  induction x with
  | leaf l => rfl
  | not x ih =>
    show (!_) = !_
    rw [ih h]
  | and x y ihx ihy =>
    simp only [meaning, (quiet_meaning b p path x h.1).1, (quiet_meaning b p path' x h.1).1, ihx h.1, ihy h.2]
    split <;> rfl
  | or x y ihx ihy =>
    simp only [meaning, (quiet_meaning b p path x h.1).1, (quiet_meaning b p path' x h.1).1, ihx h.1, ihy h.2]
    split <;> rfl
  | comma x y ihx ihy =>
    simp only [meaning, (quiet_meaning b p path x h.1).1, (quiet_meaning b p path' x h.1).1, ihy h.2]
    rfl

theorem quiet_main (ht : b.Tests) : ∀ (t : Cmdline.Tree), t.Allowed true → b.Quiet t.main := by
  intro t
  induction t with
  | leaf p =>
    intro h
    refine ht p ?_
    cases hp : p.action with
    | false => rfl
    | true => exact absurd ⟨hp, rfl⟩ h
  | not t ih => exact ih
  | exclude t _ => intro h; cases h.1
  | and t u i1 i2 => exact fun h => ⟨i1 h.1, i2 h.2⟩
  | or t u i1 i2 => exact fun h => ⟨i1 h.1, i2 h.2⟩
  | comma t u i1 i2 => exact fun h => ⟨i1 h.1, i2 h.2⟩

theorem quiet_excluded (ht : b.Tests) : ∀ (ex : Bool) (t : Cmdline.Tree), t.Allowed ex → ∀ x ∈ t.excluded, b.Quiet x := by
  intro ex t
  induction t generalizing ex with
  | leaf p =>
    intro _ x hx
    unfold Cmdline.Tree.excluded at hx
    split at hx
    · rcases List.mem_singleton.1 hx with rfl
      intro k i hh
      cases hh
    · cases hx
  | not t ih => exact ih ex
  | exclude t ih =>
    intro h x hx
    rcases List.mem_append.1 hx with hx | hx
    · exact ih true h.2 x hx
    · rcases List.mem_singleton.1 hx with rfl
      exact quiet_main b ht t h.2
  | and t u i1 i2 => exact fun h x hx => (List.mem_append.1 hx).elim (i1 ex h.1 x) (i2 ex h.2 x)
  | or t u i1 i2 => exact fun h x hx => (List.mem_append.1 hx).elim (i1 ex h.1 x) (i2 ex h.2 x)
  | comma t u i1 i2 => exact fun h x hx => (List.mem_append.1 hx).elim (i1 ex h.1 x) (i2 ex h.2 x)

theorem parsed_quiet (ht : b.Tests) {prim : List Cmdline.Arg → Out Cmdline.Prim} {args : List Cmdline.Arg} {cmd : Cmdline.Cmd}
    (h : Cmdline.Parsed prim args cmd) : ∀ x ∈ cmd.excludes, b.Quiet x := by
  obtain ⟨toks, paths, _, _, _, h⟩ := h
  rcases h with ⟨_, _, h⟩ | ⟨t, hg, h, _⟩
  · rw [h]; intro x hx; cases hx
  · rw [h]
    exact quiet_excluded b ht false t ((Props.C45_expressible false t).1 ⟨toks, hg⟩)

theorem eval_excludes (p : Pos) (path : Bytes) : ∀ (es : List Cmdline.E) (w : List Effect), (∀ x ∈ es, b.Quiet x) →
    Opt.eval (b.sem p path) (.node a .or (es.map (b.build a))) w =
      ⟨es.any fun x => (meaning (b.lm p path) x).value, false, w⟩ := by
  intro es w
  show _ → Opt.evalOr (Opt.evals (b.sem p path) (es.map (b.build a))) w = _
  induction es with
  | nil => intro _; rfl
  | cons x es ih =>
    intro h
    have hx := quiet_meaning b p path x (h x List.mem_cons_self)
    obtain ⟨h1, h2, h3⟩ := eval_build b a p path x w
    rw [hx.1] at h1
    rw [hx.2, List.append_nil] at h2
    have h3 := h3 hx.1
    show Opt.evalOr (Opt.eval (b.sem p path) (b.build a x) :: _) w = _
    rw [Opt.evalOr, List.any_cons, h1, h2, h3]
    cases (meaning (b.lm p path) x).value with
    | true => simp [h1, h2]
    | false => exact ih fun y hy => h y (List.mem_cons_of_mem _ hy)

/-! ## The optimizer -/

theorem build_wf : ∀ x : Cmdline.E, Spec.Opt.WF (b.build a x) := by
  intro x
  induction x with
  | leaf l => trivial
  | not x ih => exact ⟨rfl, ih, trivial⟩
  | and x y i1 i2 => exact ⟨(by show _ ≠ []; simp), i1, i2, trivial⟩
  | or x y i1 i2 => exact ⟨(by show _ ≠ []; simp), i1, i2, trivial⟩
  | comma x y i1 i2 => exact ⟨(by show _ ≠ []; simp), i1, i2, trivial⟩

theorem ctx_wf (cmd : Cmdline.Cmd) : Spec.Opt.WFExclude (b.ctx a o cmd).exclude ∧ Spec.Opt.WF (b.ctx a o cmd).expr := by
  refine ⟨?_, build_wf b a _⟩
  show Spec.Opt.WFExclude (.node a .or (cmd.excludes.map (b.build a)))
  cases hx : cmd.excludes with
  | nil => exact Or.inr ⟨a, rfl⟩
  | cons x xs =>
    refine Or.inl ⟨(by show _ ≠ []; simp), ?_⟩
    rw [Opt.WFs_iff]
    intro y hy
    obtain ⟨z, _, rfl⟩ := List.mem_map.1 hy
    exact build_wf b a z

theorem sem_laws (p : Pos) (path : Bytes) : Spec.Opt.LeafLaws (b.sem p path) where
  true_ := by intro w; simp [Behaviour.sem, Behaviour.resultOf, quits, Behaviour.effectsOf]
  false_ := by intro w; simp [Behaviour.sem, Behaviour.resultOf, quits, Behaviour.effectsOf]
  returns := by intro i w _; rfl
  noReturn := by intro i w; rfl

/-- What is known about the optimized context. -/
structure Agree (b : Behaviour) (a : Opt.Ann T) (o : Settings) (cmd : Cmdline.Cmd) (c : Opt.Ctx T) : Prop where
  lo : o.mindepth ≤ c.mindepth
  lo1 : c.mindepth < 2 ^ 31
  hi : c.maxdepth ≤ o.maxdepth
  exclude : ∀ p path, (depth p : Int) ≤ o.maxdepth → (Opt.eval (b.sem p path) c.exclude []).r =
    cmd.excludes.any fun x => (meaning (b.lm p path) x).value
  same : ∀ p path, (cmd.excludes.any fun x => (meaning (b.lm p path) x).value) = false →
    o.mindepth ≤ depth p → (depth p : Int) ≤ o.maxdepth →
    (Opt.eval (b.sem p path) c.expr []).w = (meaning (b.lm p path) cmd.expr).effects
  skip : ∀ p path, (cmd.excludes.any fun x => (meaning (b.lm p path) x).value) = false →
    o.mindepth ≤ depth p → (depth p : Int) ≤ o.maxdepth → ¬ (c.mindepth ≤ depth p ∧ (depth p : Int) ≤ c.maxdepth) →
    (meaning (b.lm p path) cmd.expr).effects = []

theorem low_bounds (E : Opt.Env T) (hl : E.level ≤ 1) (c : Opt.Ctx T) :
    (Opt.bfsOptimize E c).mindepth = c.mindepth ∧ (Opt.bfsOptimize E c).maxdepth = c.maxdepth := by
  constructor
  · show Opt.newMindepth _ _ _ = _
    unfold Opt.newMindepth; rw [if_neg]; omega
  · show Opt.newMaxdepth _ _ _ = _
    unfold Opt.newMaxdepth; rw [if_neg]; omega

theorem agree_low (E : Opt.Env T) (hl : E.level ≤ 1) (ho : o.Sane) (cmd : Cmdline.Cmd) (hq : ∀ x ∈ cmd.excludes, b.Quiet x) :
    Agree b a o cmd (Opt.bfsOptimize E (b.ctx a o cmd)) := by
  obtain ⟨hmin, hmax⟩ := low_bounds E hl (b.ctx a o cmd)
  have hmin : (Opt.bfsOptimize E (b.ctx a o cmd)).mindepth = o.mindepth := hmin
  have hmax : (Opt.bfsOptimize E (b.ctx a o cmd)).maxdepth = o.maxdepth := hmax
  refine ⟨by rw [hmin]; exact Int.le_refl _, by rw [hmin]; exact ho.min1, by rw [hmax]; exact Int.le_refl _, ?_, ?_, ?_⟩
  · intro p path _
    have h := Opt.exclude_low E hl (sem_laws b p path).semOK (b.ctx a o cmd).exclude (ctx_wf b a o cmd).1 []
    have hx := eval_excludes b a p path cmd.excludes [] hq
    have h3 := h.2.2 rfl (by show (Opt.eval (b.sem p path) (.node a .or (cmd.excludes.map (b.build a))) []).q = false; rw [hx])
    rw [show (Opt.bfsOptimize E (b.ctx a o cmd)).exclude = (Opt.optimize E false Opt.dfTop Opt.dfBottom (b.ctx a o cmd).exclude).e from rfl, ← h3]
    rw [show (b.ctx a o cmd).exclude = .node a .or (cmd.excludes.map (b.build a)) from rfl, hx]
  · intro p path _ _ _
    have h := Opt.optimize_low E hl (sem_laws b p path).semOK true
      (Opt.exprBefore (b.ctx a o cmd) (Opt.optimize E false Opt.dfTop Opt.dfBottom (b.ctx a o cmd).exclude).a.f)
      (Opt.optimize E false Opt.dfTop Opt.dfBottom (b.ctx a o cmd).exclude).impure (b.ctx a o cmd).expr (ctx_wf b a o cmd).2 []
    have h2 := (eval_build b a p path cmd.expr []).2.1
    rw [List.nil_append] at h2
    rw [← h2]
    exact h.2.1.symm
  · intro p path _ h1 h2 h3
    rw [hmin, hmax] at h3
    exact absurd ⟨h1, h2⟩ h3

theorem files_on {level : Nat} {cmd : Cmdline.Cmd} {f : Pos → Spec.Opt.File} {unit : Nat} (h : Attributes b level o cmd f unit)
    (p : Pos) (path : Bytes) : Spec.Opt.OnFile (f p) level (b.sem p path) where
  laws := sem_laws b p path
  result := by
    intro l v hv w
    have hr := h.result p l v hv
    cases l with
    | action k i => cases hv
    | true_ => cases hv; exact ⟨rfl, rfl⟩
    | false_ => cases hv; exact ⟨rfl, rfl⟩
    | _ => exact ⟨hr, rfl⟩
  quiet := by
    intro l v hv _ w
    cases l with
    | action k i => cases hv
    | _ => exact List.append_nil w

theorem build_tame {w : Spec.Opt.Owners} {f : Spec.Opt.File} {unit level : Nat} (x : Cmdline.E) (h : b.Tame w f unit level x) :
    Spec.Opt.NoComma (b.build a x) ∧ Spec.Opt.AllLeaves (Spec.Opt.Tame w f unit level) (b.build a x) := by
  induction x with
  | leaf l => exact ⟨trivial, h⟩
  | not x ih => exact ⟨⟨by simp, (ih h).1, trivial⟩, (ih h).2, trivial⟩
  | and x y i1 i2 => exact ⟨⟨by simp, (i1 h.1).1, (i2 h.2).1, trivial⟩, (i1 h.1).2, (i2 h.2).2, trivial⟩
  | or x y i1 i2 => exact ⟨⟨by simp, (i1 h.1).1, (i2 h.2).1, trivial⟩, (i1 h.1).2, (i2 h.2).2, trivial⟩
  | comma x y _ _ => exact h.elim

theorem ctx_tame {w : Spec.Opt.Owners} {f : Spec.Opt.File} {unit level : Nat} {cmd : Cmdline.Cmd}
    (h : b.Tame w f unit level cmd.expr ∧ ∀ x ∈ cmd.excludes, b.Tame w f unit level x) :
    Props.TameCtx w f unit level (b.ctx a o cmd) := by
  obtain ⟨h1, h2⟩ := ctx_wf b a o cmd
  have h3 := build_tame b a cmd.expr h.1
  refine ⟨⟨h1, ⟨(by show (.or : Opt.Op) ≠ .comma; simp), ?_⟩, ?_⟩, h2, h3.1, h3.2⟩
  · have key : ∀ es : List Cmdline.E, (∀ x ∈ es, b.Tame w f unit level x) → Spec.Opt.NoCommas (es.map (b.build a)) := by
      intro es
      induction es with
      | nil => intro _; trivial
      | cons x es ih => exact fun hh => ⟨(build_tame b a x (hh x (by simp))).1, ih fun y hy => hh y (by simp [hy])⟩
    exact key _ h.2
  · have key : ∀ es : List Cmdline.E, (∀ x ∈ es, b.Tame w f unit level x) → Spec.Opt.AllLeavesL (Spec.Opt.Tame w f unit level) (es.map (b.build a)) := by
      intro es
      induction es with
      | nil => intro _; trivial
      | cons x es ih => exact fun hh => ⟨(build_tame b a x (hh x (by simp))).2, ih fun y hy => hh y (by simp [hy])⟩
    exact key _ h.2

theorem agree_high (E : Opt.Env T) (h2 : 2 ≤ E.level) (ho : o.Sane) (cmd : Cmdline.Cmd) (hq : ∀ x ∈ cmd.excludes, b.Quiet x)
    {f : Pos → Spec.Opt.File} {unit : Nat} (hf : Attributes b E.level o cmd f unit) :
    Agree b a o cmd (Opt.bfsOptimize E (b.ctx a o cmd)) := by
  have hm31 : Opt.intMax = 2 ^ 31 - 1 := by decide
  have hlo : o.mindepth ≤ (Opt.bfsOptimize E (b.ctx a o cmd)).mindepth := Props.newMin_ge (by have := ho.min1; show o.mindepth ≤ _; omega)
  have hlo1 : (Opt.bfsOptimize E (b.ctx a o cmd)).mindepth < 2 ^ 31 := by
    show Opt.newMindepth _ _ o.mindepth < _
    have := ho.min1
    unfold Opt.newMindepth
    split
    · split <;> omega
    · exact this
  have hhi : (Opt.bfsOptimize E (b.ctx a o cmd)).maxdepth ≤ o.maxdepth := by
    show Opt.newMaxdepth _ _ o.maxdepth ≤ _
    have hmin : Opt.intMin < 0 := by decide
    have := ho.max0
    unfold Opt.newMaxdepth
    split
    · split <;> omega
    · exact Int.le_refl _
  obtain ⟨w, ht⟩ := hf.tame
  have hexcl : ∀ p path, (depth p : Int) ≤ o.maxdepth → _ := fun p path hp =>
    Opt.exclude_real E h2 hf.pos (hf.real p hp) (files_on b o hf p path)
      (b.ctx a o cmd).exclude (ctx_tame b a o (ht p)).1.1 (ctx_tame b a o (ht p)).1.2.1 (ctx_tame b a o (ht p)).1.2.2 []
  have hX : ∀ p path, Opt.eval (b.sem p path) (b.ctx a o cmd).exclude [] = ⟨cmd.excludes.any fun x => (meaning (b.lm p path) x).value, false, []⟩ :=
    fun p path => eval_excludes b a p path cmd.excludes [] hq
  have hexpr : ∀ p path, (depth p : Int) ≤ o.maxdepth → (cmd.excludes.any fun x => (meaning (b.lm p path) x).value) = false →
      o.mindepth ≤ depth p →
      (Opt.eval (b.sem p path) (Opt.bfsOptimize E (b.ctx a o cmd)).expr []).w = (meaning (b.lm p path) cmd.expr).effects ∧
      (¬ ((Opt.bfsOptimize E (b.ctx a o cmd)).mindepth ≤ depth p ∧ (depth p : Int) ≤ (Opt.bfsOptimize E (b.ctx a o cmd)).maxdepth) →
        (meaning (b.lm p path) cmd.expr).effects = []) := by
    intro p path hp hx hlo'
    have hon := files_on b o hf p path
    obtain ⟨_, e1, e2, e3⟩ := ctx_tame b a o (ht p)
    have k2 := ((hexcl p path hp).2.2.1 (by rw [hX])).2 (by rw [hX]; exact hx)
    have k3 := Props.exprBefore_in (c := b.ctx a o cmd) k2 (hf.depth p) hlo' hp
    have oe := (Opt.optimize_real E h2 hf.pos (hf.real p hp) hon true
      (Opt.exprBefore (b.ctx a o cmd) (Opt.optimize E false Opt.dfTop Opt.dfBottom (b.ctx a o cmd).exclude).a.f)
      (Opt.optimize E false Opt.dfTop Opt.dfBottom (b.ctx a o cmd).exclude).impure (b.ctx a o cmd).expr e1 e2 e3
      (Opt.exprBefore_owned E (hexcl p path hp).1)).2 [] k3
    have e2 := (eval_build b a p path cmd.expr []).2.1
    rw [List.nil_append] at e2
    rw [← e2]
    refine ⟨oe.1.2.1.symm, fun hr => (oe.2.2 (Props.new_bounds (f := Opt.fit E (Opt.clean w) (f p)) (level := E.level) (hf.depth p) ho.min0 hlo' hp ?_)).2⟩
    rw [Classical.not_and_iff_not_or_not, Int.not_le, Int.not_le] at hr
    exact hr
  refine ⟨hlo, hlo1, hhi, ?_, fun p path hx h1 h2 => (hexpr p path h2 hx h1).1, fun p path hx h1 h2 => (hexpr p path h2 hx h1).2⟩
  intro p path hp
  have h3 := (hexcl p path hp).2.1.2.2 rfl (by rw [hX])
  rw [show (Opt.bfsOptimize E (b.ctx a o cmd)).exclude = (Opt.optimize E false Opt.dfTop Opt.dfBottom (b.ctx a o cmd).exclude).e from rfl, ← h3, hX]

/-! ## The path matters only for what is printed -/

theorem meaning_path (p : Pos) (path path' : Bytes) (x : Cmdline.E) :
    (meaning (b.lm p path) x).value = (meaning (b.lm p path') x).value ∧
    (meaning (b.lm p path) x).quit = (meaning (b.lm p path') x).quit := by
  induction x with
  | leaf l => exact ⟨rfl, rfl⟩
  | not x ih => exact ⟨congrArg (!·) ih.1, ih.2⟩
  | and x y i1 i2 =>
    simp only [meaning, i1.1, i1.2]
    split
    · exact ⟨rfl, rfl⟩
    · exact i2
  | or x y i1 i2 =>
    simp only [meaning, i1.1, i1.2]
    split
    · exact ⟨rfl, rfl⟩
    · exact i2
  | comma x y i1 i2 =>
    simp only [meaning, i1.2]
    split
    · exact i1
    · exact i2

theorem effectsOf_path (p : Pos) (path path' : Bytes) (l : Opt.Leaf) (f : Effect) (hf : ∀ s, f ≠ .write s) :
    (b.effectsOf p path l).contains f = (b.effectsOf p path' l).contains f := by
  unfold Behaviour.effectsOf
  split <;> first | rfl | (have h1 := hf (path ++ [10]); have h2 := hf (path' ++ [10]); have h3 := hf (path ++ [0]); have h4 := hf (path' ++ [0]); simp [h1, h2, h3, h4])

theorem effects_path (p : Pos) (path path' : Bytes) (x : Cmdline.E) (f : Effect) (hf : ∀ s, f ≠ .write s) :
    (meaning (b.lm p path) x).effects.contains f = (meaning (b.lm p path') x).effects.contains f := by
  induction x with
  | leaf l => exact effectsOf_path b p path path' _ f hf
  | not x ih => exact ih
  | and x y i1 i2 =>
    have h := meaning_path b p path path' x
    simp only [meaning, h.1, h.2]
    split
    · exact i1
    · simp only [List.contains_eq_mem, List.mem_append, Bool.decide_or] at i1 i2 ⊢; rw [i1, i2]
  | or x y i1 i2 =>
    have h := meaning_path b p path path' x
    simp only [meaning, h.1, h.2]
    split
    · exact i1
    · simp only [List.contains_eq_mem, List.mem_append, Bool.decide_or] at i1 i2 ⊢; rw [i1, i2]
  | comma x y i1 i2 =>
    have h := meaning_path b p path path' x
    simp only [meaning, h.2]
    split
    · exact i1
    · simp only [List.contains_eq_mem, List.mem_append, Bool.decide_or] at i1 i2 ⊢; rw [i1, i2]

theorem actionOf_path (p : Pos) (path path' : Bytes) (x : Cmdline.E) :
    actionOf (meaning (b.lm p path) x).effects = actionOf (meaning (b.lm p path') x).effects := by
  unfold actionOf
  rw [effects_path b p path path' x .stop (by simp), effects_path b p path path' x .prune (by simp)]

/-! ## The two searches -/

section
variable {b a o e} {cmd : Cmdline.Cmd} {c : Opt.Ctx T}

theorem lm_eq (p : Pos) : b.leafMeaning e p = b.lm p (e.fullPath p) := by
  have hp : ∀ l, b.primMeaning p (e.fullPath p) l = ⟨b.resultOf p l, quits l, b.effectsOf p (e.fullPath p) l⟩ := by
    intro l
    cases l with
    | action k i =>
      cases k with
      | returnsTrue =>
        match i with
        | 0 => rfl
        | 1 => rfl
        | 2 => rfl
        | _ + 3 => rfl
      | _ => rfl
    | _ => rfl
  funext l
  cases l with
  | prim q => exact hp _
  | _ => rfl

theorem plain_eq (p : Pos) : b.plain e cmd p = (meaning (b.lm p (e.fullPath p)) cmd.expr).effects := by
  unfold Behaviour.plain
  rw [lm_eq]

theorem asked_exclude (p : Pos) (path : Bytes) : (b.asked o e cmd).exclude p = cmd.excludes.any fun x => (meaning (b.lm p path) x).value := by
  show (cmd.excludes.any fun x => (meaning (b.leafMeaning e p) x).value) = _
  rw [lm_eq]
  congr 1
  funext x
  exact (meaning_path b p _ _ x).1

theorem cfg_exclude (h : Agree b a o cmd c) {p : Pos} (hp : (depth p : Int) ≤ o.maxdepth) :
    (b.cfg o c).exclude p = (b.asked o e cmd).exclude p := by
  rw [asked_exclude p []]
  exact h.exclude p [] hp

theorem cfg_expr (h : Agree b a o cmd c) {p : Pos} (hx : (b.asked o e cmd).exclude p = false) (hr : (b.cfg o c).InRange p) :
    (b.cfg o c).expr p = (b.asked o e cmd).expr p ∧ (b.cfg o c).exprError p = (b.asked o e cmd).exprError p ∧
      ∀ path, (Opt.eval (b.sem p path) c.expr []).w = (meaning (b.lm p path) cmd.expr).effects := by
  have hs : ∀ path, (Opt.eval (b.sem p path) c.expr []).w = (meaning (b.lm p path) cmd.expr).effects :=
    fun path => h.same p path (by rw [← asked_exclude (o := o) (e := e)]; exact hx) (Int.le_trans h.lo hr.1) (Int.le_trans hr.2 h.hi)
  refine ⟨?_, ?_, hs⟩
  · show actionOf (Opt.eval (b.sem p []) c.expr []).w = actionOf (b.plain e cmd p)
    rw [plain_eq]
    rw [hs, actionOf_path b p [] (e.fullPath p)]
  · show (Opt.eval (b.sem p []) c.expr []).w.contains .error = (b.plain e cmd p).contains .error
    rw [plain_eq]
    rw [hs]
    exact effects_path b p _ _ _ _ (by simp)

theorem range_mono (h : Agree b a o cmd c) {p : Pos} (hr : (b.cfg o c).InRange p) : (b.asked o e cmd).InRange p :=
  ⟨Int.le_trans h.lo hr.1, Int.le_trans hr.2 h.hi⟩

theorem plain_skip (h : Agree b a o cmd c) {p : Pos} (hx : (b.asked o e cmd).exclude p = false) (hr : (b.asked o e cmd).InRange p)
    (hn : ¬ (b.cfg o c).InRange p) : b.plain e cmd p = [] := by
  rw [plain_eq]
  exact h.skip p (e.fullPath p) (by rw [← asked_exclude (o := o) (e := e)]; exact hx) hr.1 hr.2 hn

theorem cfg_allowed (h : Agree b a o cmd c) {p : Pos} (hp : (depth p : Int) ≤ o.maxdepth) :
    (b.cfg o c).Allowed e p ↔ (b.asked o e cmd).Allowed e p := by
  unfold Cfg.Allowed
  rw [cfg_exclude (e := e) h hp]
  exact Iff.rfl

theorem cfg_enters (h : Agree b a o cmd c) (p : Pos) :
    (b.cfg o c).Enters e p ↔ (b.asked o e cmd).Enters e p ∧ (depth p : Int) < c.maxdepth := by
  have hhi := h.hi
  constructor
  · intro hh
    have hlt : (depth p : Int) < c.maxdepth := hh.shallow
    have hal := (cfg_allowed h (by omega)).1 hh.allowed
    refine ⟨⟨hh.dir, hal, ?_, hh.here, hh.shown, fun hp hr => ?_⟩, hlt⟩
    · show (depth p : Int) < o.maxdepth
      omega
    · by_cases hr' : (b.cfg o c).InRange p
      · rw [← (cfg_expr h hal.1 hr').1]; exact hh.pruned hp hr'
      · show actionOf (b.plain e cmd p) = _
        rw [plain_skip h hal.1 hr hr']
        rfl
  · rintro ⟨hh, hlt⟩
    refine ⟨hh.dir, (cfg_allowed h (by omega)).2 hh.allowed, hlt, hh.here, hh.shown, fun hp hr => ?_⟩
    rw [(cfg_expr h hh.allowed.1 hr).1]
    exact hh.pruned hp (range_mono h hr)

theorem cfg_found (h : Agree b a o cmd c) (h0 : 0 ≤ c.maxdepth) (p : Pos) :
    Found e ((b.cfg o c).Enters e) p ↔ Found e ((b.asked o e cmd).Enters e) p ∧ (depth p : Int) ≤ c.maxdepth := by
  constructor
  · intro hf
    induction hf with
    | root i hi => exact ⟨.root i hi, by simpa [depth] using h0⟩
    | entry p j hp hin hj ih =>
      obtain ⟨k1, k2⟩ := (cfg_enters h p).1 hin
      refine ⟨.entry p j ih.1 k1 hj, ?_⟩
      cases p with
      | nil => cases hp
      | cons i p => simp only [depth, List.length_cons, Nat.add_sub_cancel] at k2 ⊢; omega
  · rintro ⟨hf, hd⟩
    induction hf with
    | root i hi => exact .root i hi
    | entry p j hp hin hj ih =>
      have : (depth p : Int) < c.maxdepth := by
        cases p with
        | nil => cases hp
        | cons i p => simp only [depth, List.length_cons, Nat.add_sub_cancel] at hd ⊢; omega
      exact .entry p j (ih (by omega)) ((cfg_enters h p).2 ⟨hin, this⟩) hj

theorem cfg_target (h : Agree b a o cmd c) (h0 : 0 ≤ c.maxdepth) (p : Pos) :
    (b.cfg o c).Target e p ↔ (b.asked o e cmd).Target e p ∧ (b.cfg o c).InRange p := by
  have hhi := h.hi
  constructor
  · intro hh
    have hr := hh.range
    have : (depth p : Int) ≤ c.maxdepth := hr.2
    exact ⟨⟨((cfg_found h h0 p).1 hh.found).1, hh.shown, hh.known, (cfg_allowed h (by omega)).1 hh.allowed, range_mono h hr⟩, hr⟩
  · rintro ⟨hh, hr⟩
    have : (depth p : Int) ≤ c.maxdepth := hr.2
    exact ⟨(cfg_found h h0 p).2 ⟨hh.found, hr.2⟩, hh.shown, hh.known, (cfg_allowed h (by omega)).2 hh.allowed, hr⟩

theorem cfg_sane (h : Agree b a o cmd c) (ho : o.Sane) (h0 : 0 ≤ c.maxdepth) : (b.cfg o c).Sane :=
  ⟨Int.le_trans ho.min0 h.lo, h.lo1, h0, by have := ho.max1; have := h.hi; show c.maxdepth < _; omega⟩

theorem calls_fst (c : Cfg) (e : Env) (tr : List Event) : (calls c e tr).map (·.1) = (c.evaluations e tr).reverse := by
  unfold calls Cfg.evaluations
  rw [List.map_reverse, List.map_map]
  rfl

theorem mem_calls {c : Cfg} {e : Env} {tr : List Event} {x : Pos × Bytes} (h : x ∈ calls c e tr) :
    ∃ ev ∈ tr, x = (ev.pos, ev.path) := by
  unfold calls at h
  rw [List.mem_reverse] at h
  obtain ⟨y, h1, h2⟩ := List.mem_map.1 h
  obtain ⟨l, r, h3, _⟩ := mem_verdicts.1 (List.mem_filter.1 h1).1
  exact ⟨y.1, by rw [h3]; simp, h2.symm⟩

/-- What is known about a search, whatever the strategy is. -/
structure Facts (c : Cfg) (e : Env) (tr : List Event) (complete : Bool) : Prop where
  path : ∀ ev ∈ tr, ev.path = e.fullPath ev.pos
  once : (c.evaluations e tr).Nodup
  sound : ∀ p, p ∈ c.evaluations e tr → c.Target e p
  pre : e.post = false → (c.evaluations e tr).Pairwise fun later earlier => ¬ later <:+ earlier
  post : e.post = true → (c.evaluations e tr).Pairwise fun later earlier => ¬ earlier <:+ later
  stop : ∀ p, p ∈ c.evaluations e tr → c.expr p = .stop → (c.evaluations e tr).head? = some p
  unstopped : complete = true → ∀ p, p ∈ c.evaluations e tr → c.expr p ≠ .stop
  exact_ : complete = true → ∀ p, c.Target e p → p ∈ c.evaluations e tr
  status : complete = true → (c.status e tr = 0 ↔ (c.ignoreErrors = true ∨ ∀ p, ¬ c.Trouble e p))

theorem cfg_distinct {c : Cfg} (he : Ordinary e) (hd : Deepening e) : c.Distinct e := fun p q hp hq h =>
  he.distinct hd p q (Props.found_mono (fun _ _ h => h.dir) hp) (Props.found_mono (fun _ _ h => h.dir) hq) h

theorem deepened_strategy {st : Ids} (h : Deepened e st) : Deepening e := by
  cases h with
  | ids h => exact Or.inl h
  | eds h => exact Or.inr h
  | idsPost h => exact Or.inl h
  | edsPost h => exact Or.inr h

theorem midway_strategy {st : Ids} (h : Midway e st) : Deepening e := by
  cases h with
  | ids h => exact Or.inl h
  | eds h => exact Or.inr h
  | idsPost h => exact Or.inl h
  | edsPost h => exact Or.inr h

theorem facts {c : Cfg} (hs : c.Sane) (hu : c.unique = false) (he : Ordinary e) {tr : List Event} {complete : Bool}
    (h : Walked (c.env e) tr complete) : Facts c e tr complete := by
  cases h with
  | @walk s hst h =>
    have hi : e.strategy ≠ .ids := by
      have hst : e.strategy = .bfs ∨ e.strategy = .dfs := hst
      intro hh
      rw [hh] at hst
      simp at hst
    have hord := Props.C70_order hs he.named hi h
    refine ⟨Props.search_path he.named h, Props.C70_once hs he.named h, fun p hp => Props.C70_sound hs hu he.named hi he.errors h hp, hord.1, hord.2,
      fun p hp hx => (Props.C70_stop he.named h hp hx).1, fun hd p hp hx => ?_, fun hd p hp => ?_, fun hd => ?_⟩
    · have hd : s.pc = .done := by simpa using hd
      have := (Props.C70_stop he.named h hp hx).2
      rw [hd] at this
      cases this
    · have hd : s.pc = .done := by simpa using hd
      refine (Props.C70_exact_partial hs hu he.named hi he.errors h hd p).2 ⟨hp, ?_⟩
      rintro ⟨h1, h2, _⟩
      have := he.mounts h1
      rw [h2.1] at this
      cases this
    · exact Props.C70_status_partial hs hu he.named hi he.errors he.mounts h (by simpa using hd)
  | @deepened st h =>
    have hdeep : Deepening e := deepened_strategy (e := c.env e) h
    have hD := cfg_distinct (c := c) he hdeep
    obtain ⟨h1, h2, h3, h4, h5⟩ := Props.C70_deepened_partial hs hu he.named he.errors hD he.mounts h
    have h6 := (Props.C20_calls_partial (Props.search_tame hu he.named he.errors) (Props.distinct_wanted hs hu he.errors hD) h).1
    exact ⟨fun ev hev => (by rw [h6 ev hev, Props.search_fullPath]), h1, fun p hp => (h2 p).1 hp, h3, h4,
      fun p hp hx => absurd hx (Props.deepened_unstopped hs hu he.named he.errors hD h hp), fun _ p hp => Props.deepened_unstopped hs hu he.named he.errors hD h hp, fun _ p hp => (h2 p).2 hp, fun _ => h5⟩
  | @midway st h =>
    have hD := cfg_distinct (c := c) he (midway_strategy (e := c.env e) h)
    obtain ⟨h1, h2, h3, h4, h5, h6⟩ := Props.C70_anytime_partial hs hu he.named he.errors hD h
    exact ⟨h1, h2, h3, h4, h5, h6, fun hc => (by cases hc), fun hc => (by cases hc), fun hc => (by cases hc)⟩

/-- Only the roots are looked at if the inferred maximal depth is negative. -/
theorem negative_calls (h0 : ¬ 0 ≤ c.maxdepth) (he : Ordinary e) {tr : List Event} {complete : Bool}
    (hr : Walked ((b.cfg o c).env e) tr complete) :
    (∀ ev ∈ tr, ∃ i, i < e.roots ∧ ev.pos = [i]) ∧ (∀ ev ∈ tr, ev.path = e.fullPath ev.pos) ∧ ∀ ev ∈ tr, ev.visit = .err → e.error ev.pos = true := by
  have nocont : ∀ (tr : List Event) v p path, ((b.cfg o c).verdict e tr v p path).action ≠ .cont := by
    intro tr v p path
    have hneg : (b.cfg o c).maxdepth < 0 := Int.not_le.1 h0
    unfold Cfg.verdict Cfg.examine Cfg.evaluate Cfg.failed
    simp only [hneg, true_or, if_true]
    repeat' split
    all_goals simp_all
  have hw : ∀ p, Wanted ((b.cfg o c).env e) (Props.Cfg.answer (b.cfg o c) e) p → ∃ i, i < e.roots ∧ p = [i] := by
    rintro p ⟨hf, -⟩
    cases hf with
    | root i hi => exact ⟨i, hi, rfl⟩
    | entry p j hp hin hj => exact absurd hin.2.1 (nocont _ _ _ _)
  have dist : Deepening e → Distinct ((b.cfg o c).env e) (Props.Cfg.answer (b.cfg o c) e) := by
    intro hdeep p q hp hq hpath
    rw [Props.search_fullPath, Props.search_fullPath] at hpath
    exact he.distinct hdeep p q (Props.search_found hp.1 fun _ _ h => h.1) (Props.search_found hq.1 fun _ _ h => h.1) hpath
  cases hr with
  | @walk s _ hr =>
    have noent : ∀ p, p ∉ entered s.trace := by
      intro p hp
      obtain ⟨l, ev, r, h1, h2, h3, h4⟩ := Props.entered_split hp
      exact nocont _ _ _ _ ((Props.C21_decision (e := (b.cfg o c).env e) he.named hr h1).2.1 h3).1
    refine ⟨fun ev hev => ?_, fun ev hev => Props.search_path he.named hr ev hev, fun ev hev hv => ?_⟩
    · have := Props.C18_sound (e := (b.cfg o c).env e) he.named hr (v := ev.visit) (p := ev.pos) (Props.visits_iff.2 ⟨ev, hev, rfl, rfl⟩)
      generalize ev.pos = q at this
      cases this with
      | root i hi => exact ⟨i, hi, rfl⟩
      | entry p j hp hin hj => exact absurd hin (noent p)
    · exact absurd ((inv_reach (e := (b.cfg o c).env e) he.named hr).legal.post_entered .err (by simp) _ (Props.visits_iff.2 ⟨ev, hev, hv, rfl⟩)) (noent _)
  | @deepened st hr =>
    obtain ⟨h1, h2, h3, h4⟩ := Props.C20_calls_partial (Props.search_tame rfl he.named he.errors) (dist (deepened_strategy (e := (b.cfg o c).env e) hr)) hr
    refine ⟨fun ev hev => hw _ ?_, fun ev hev => (by rw [h1 ev hev, Props.search_fullPath]), fun ev hev hv => ?_⟩
    · cases hv : ev.visit with
      | pre => exact ((h2 _).1 (Props.visits_iff.2 ⟨ev, hev, hv, rfl⟩)).1
      | post => exact h3 _ (Props.visits_iff.2 ⟨ev, hev, hv, rfl⟩)
      | err => exact ((h4 _).1 (Props.visits_iff.2 ⟨ev, hev, hv, rfl⟩)).1
    · rcases ((h4 _).1 (Props.visits_iff.2 ⟨ev, hev, hv, rfl⟩)).2 with hh | hh
      · exact absurd hh.1.2.1 (nocont _ _ _ _)
      · exact hh
  | @midway st hr =>
    obtain ⟨⟨-, h2, -⟩, ⟨-, h3, -⟩, h1, h4, -⟩ :=
      Props.C20_anytime_partial (Props.search_tame rfl he.named he.errors) (dist (midway_strategy (e := (b.cfg o c).env e) hr)) hr
    refine ⟨fun ev hev => hw _ ?_, fun ev hev => (by rw [h1 ev hev, Props.search_fullPath]), fun ev hev hv => ?_⟩
    · cases hv : ev.visit with
      | pre => exact (h2 _ (Props.visits_iff.2 ⟨ev, hev, hv, rfl⟩)).1
      | post => exact (h3 _ (Props.visits_iff.2 ⟨ev, hev, hv, rfl⟩)).1
      | err => exact (h4 _ (Props.visits_iff.2 ⟨ev, hev, hv, rfl⟩)).1
    · rcases (h4 _ (Props.visits_iff.2 ⟨ev, hev, hv, rfl⟩)).2 with hh | hh
      · exact absurd hh.1.2.1 (nocont _ _ _ _)
      · exact hh

/-- Nothing is done at all if the inferred maximal depth is negative. -/
theorem search_negative (h : Agree b a o cmd c) (ho : o.Sane) (h0 : ¬ 0 ≤ c.maxdepth) (he : Ordinary e) {tr : List Event} {complete : Bool}
    (hr : Walked ((b.cfg o c).env e) tr complete) :
    ∃ files, Right b o e cmd files (b.output o c e tr) ∧ (complete = true → Complete b o e cmd files) := by
  have none : ∀ p, (b.asked o e cmd).exclude p = false → (b.asked o e cmd).InRange p → b.plain e cmd p = [] := fun p hx hr =>
    plain_skip h hx hr (fun hh => by have := hh.2; have : (depth p : Int) ≤ c.maxdepth := this; omega)
  have seen : ∀ tr v p path, depth p = 0 → ((b.cfg o c).verdict e tr v p path).evaluated = true →
      (b.asked o e cmd).exclude p = false ∧ (b.asked o e cmd).InRange p := by
    intro tr v p path hd h2
    have hdm : (depth p : Int) ≤ o.maxdepth := by have := ho.max0; omega
    have hv : (b.cfg o c).exclude p = false ∧ (depth p : Nat) ≥ toSize c.mindepth := by
      revert h2
      unfold Cfg.verdict Cfg.examine Cfg.evaluate Cfg.failed
      dsimp only
      repeat' split
      all_goals simp_all [Behaviour.cfg]
    have hmin : c.mindepth ≤ depth p := by
      have := toSize_eq (Int.le_trans ho.min0 h.lo) h.lo1
      omega
    exact ⟨by rw [← cfg_exclude (e := e) h hdm]; exact hv.1, Int.le_trans h.lo hmin, hdm⟩
  have root : ∀ ev ∈ tr, ev.path = e.fullPath ev.pos ∧ depth ev.pos = 0 := by
    obtain ⟨h1, h2, -⟩ := negative_calls h0 he hr
    intro ev hev
    obtain ⟨i, -, hp⟩ := h1 ev hev
    exact ⟨h2 ev hev, by rw [hp]; rfl⟩
  have hout : b.output o c e tr = [] := by
    unfold Behaviour.output
    rw [List.flatMap_eq_nil_iff]
    intro x hx
    unfold calls at hx
    rw [List.mem_reverse] at hx
    obtain ⟨y, h1, rfl⟩ := List.mem_map.1 hx
    obtain ⟨h1, h2⟩ := List.mem_filter.1 h1
    obtain ⟨l, r, h3, h4⟩ := mem_verdicts.1 h1
    have hev : y.1 ∈ tr := by rw [h3]; simp
    obtain ⟨hp, hd⟩ := root _ hev
    rw [h4] at h2
    obtain ⟨hx, hin⟩ := seen _ _ _ _ hd h2
    rw [h.same _ _ (by rw [← asked_exclude (o := o) (e := e)]; exact hx) hin.1 hin.2, hp]
    show (meaning (b.lm y.1.pos (e.fullPath y.1.pos)) cmd.expr).effects = []
    rw [← plain_eq]
    exact none _ hx hin
  refine ⟨[], ⟨List.nodup_nil, by simp, by rw [hout]; rfl, fun _ => .nil, fun _ => .nil, by simp⟩, fun _ p hp hne => ?_⟩
  exact absurd (none p hp.allowed.1 hp.range) hne

/-- The search with the optimized expressions does what was asked for. -/
theorem search_output (h : Agree b a o cmd c) (ho : o.Sane) (h0 : 0 ≤ c.maxdepth) (he : Ordinary e) {tr : List Event} {complete : Bool}
    (hr : Walked ((b.cfg o c).env e) tr complete) :
    b.output o c e tr = ((calls (b.cfg o c) e tr).map (·.1)).flatMap (b.plain e cmd) := by
  have hs := cfg_sane h ho h0
  have hf := facts hs rfl he hr
  show (calls (b.cfg o c) e tr).flatMap _ = _
  rw [List.flatMap_map]
  have key : ∀ x ∈ calls (b.cfg o c) e tr, (Opt.eval (b.sem x.1 x.2) c.expr []).w = b.plain e cmd x.1 := by
    intro x hx
    obtain ⟨ev, h1, rfl⟩ := mem_calls hx
    have hp := hf.path ev h1
    have ht := hf.sound ev.pos (by
      have : ev.pos ∈ (calls (b.cfg o c) e tr).map (·.1) := List.mem_map.2 ⟨_, hx, rfl⟩
      rwa [calls_fst, List.mem_reverse] at this)
    obtain ⟨k1, k2⟩ := (cfg_target h h0 ev.pos).1 ht
    rw [hp, plain_eq]
    exact (cfg_expr (e := e) h k1.allowed.1 k2).2.2 _
  generalize calls (b.cfg o c) e tr = l at key
  induction l with
  | nil => rfl
  | cons x l ih =>
    rw [List.flatMap_cons, List.flatMap_cons, key x (by simp), ih fun y hy => key y (by simp [hy])]

/-- A search that is complete was not stopped. -/
theorem search_unstopped (h : Agree b a o cmd c) (ho : o.Sane) (h0 : 0 ≤ c.maxdepth) (he : Ordinary e) {tr : List Event}
    (hr : Walked ((b.cfg o c).env e) tr true) : .stop ∉ b.output o c e tr := by
  intro hst
  have hs := cfg_sane h ho h0
  have hf := facts hs rfl he hr
  rw [search_output h ho h0 he hr] at hst
  obtain ⟨p, hp, hst⟩ := List.mem_flatMap.1 hst
  rw [calls_fst, List.mem_reverse] at hp
  obtain ⟨k1, k2⟩ := (cfg_target h h0 p).1 (hf.sound p hp)
  have hx := (cfg_expr (e := e) h k1.allowed.1 k2).1
  refine hf.unstopped rfl p hp ?_
  rw [hx]
  show actionOf (b.plain e cmd p) = .stop
  unfold actionOf
  rw [if_pos (by simpa using hst)]

theorem exitStatus_unstopped {out : List Effect} (h : .stop ∉ out) (status : Nat) : exitStatus out status = status := by
  unfold exitStatus
  rw [if_neg (by simpa using h)]

theorem search_right (h : Agree b a o cmd c) (ho : o.Sane) (h0 : 0 ≤ c.maxdepth) (he : Ordinary e) {tr : List Event} {complete : Bool}
    (hr : Walked ((b.cfg o c).env e) tr complete) :
    ∃ files, Right b o e cmd files (b.output o c e tr) ∧ (complete = true → Complete b o e cmd files) := by
  have hs := cfg_sane h ho h0
  have hf := facts hs rfl he hr
  refine ⟨(calls (b.cfg o c) e tr).map (·.1), ⟨?_, ?_, ?_, ?_, ?_, ?_⟩, ?_⟩
  · rw [calls_fst]
    exact List.pairwise_reverse.2 (hf.once.imp fun h => Ne.symm h)
  · intro p hp
    rw [calls_fst, List.mem_reverse] at hp
    exact ((cfg_target h h0 p).1 (hf.sound p hp)).1
  · exact search_output h ho h0 he hr
  · intro hp
    rw [calls_fst, List.pairwise_reverse]
    exact hf.pre hp
  · intro hp
    rw [calls_fst, List.pairwise_reverse]
    exact hf.post hp
  · intro p hp hst
    rw [calls_fst, List.mem_reverse] at hp
    obtain ⟨k1, k2⟩ := (cfg_target h h0 p).1 (hf.sound p hp)
    have hx := (cfg_expr (e := e) h k1.allowed.1 k2).1
    rw [calls_fst, List.getLast?_reverse]
    refine hf.stop p hp ?_
    rw [hx]
    show actionOf (b.plain e cmd p) = .stop
    unfold actionOf
    rw [if_pos (by simpa using hst)]
  · intro hd p hp hne
    rw [calls_fst, List.mem_reverse]
    refine hf.exact_ hd p ((cfg_target h h0 p).2 ⟨hp, ?_⟩)
    by_cases hh : (b.cfg o c).InRange p
    · exact hh
    · exact absurd (plain_skip h hp.allowed.1 hp.range hh) hne

theorem search_status (h : Agree b a o cmd c) (ho : o.Sane) (h0 : 0 ≤ c.maxdepth) (he : Ordinary e)
    (hmax : c.maxdepth = o.maxdepth) {tr : List Event}
    (hr : Walked ((b.cfg o c).env e) tr true) :
    (b.cfg o c).status e tr = 0 ↔ (o.ignoreErrors = true ∨ ∀ p, ¬ (b.asked o e cmd).Trouble e p) := by
  have hs := cfg_sane h ho h0
  rw [(facts hs rfl he hr).status rfl]
  have htr : ∀ p, (b.cfg o c).Trouble e p ↔ (b.asked o e cmd).Trouble e p := by
    intro p
    have hen := cfg_enters (e := e) h p
    have hfo := cfg_found (e := e) h h0 p
    have hta := cfg_target (e := e) h h0 p
    have hdep : Found e ((b.asked o e cmd).Enters e) p → (depth p : Int) ≤ c.maxdepth := by
      intro hf
      cases hf with
      | root i hi => simpa [depth] using h0
      | entry p j hp hin hj =>
        have := hin.shallow
        have : (depth p : Int) < o.maxdepth := this
        cases p with
        | nil => cases hp
        | cons i p => simp only [depth, List.length_cons, Nat.add_sub_cancel] at this ⊢; omega
    unfold Cfg.Trouble
    constructor
    · rintro ⟨h1, h2, h3⟩
      obtain ⟨f1, f2⟩ := hfo.1 h1
      refine ⟨f1, h2, ?_⟩
      rcases h3 with h3 | ⟨h3, h4⟩ | ⟨h3, h4, h5⟩ | ⟨h3, h4⟩
      · exact Or.inl h3
      · exact Or.inr (Or.inl ⟨(hen.1 h3).1, h4⟩)
      · rw [cfg_exclude (e := e) h (by rw [← hmax]; exact f2)] at h4
        exact Or.inr (Or.inr (Or.inl ⟨h3, h4, h5⟩))
      · obtain ⟨k1, k2⟩ := hta.1 h3
        rw [(cfg_expr (e := e) h k1.allowed.1 k2).2.1] at h4
        exact Or.inr (Or.inr (Or.inr ⟨k1, h4⟩))
    · rintro ⟨h1, h2, h3⟩
      have f2 := hdep h1
      refine ⟨hfo.2 ⟨h1, f2⟩, h2, ?_⟩
      rcases h3 with h3 | ⟨h3, h4⟩ | ⟨h3, h4, h5⟩ | ⟨h3, h4⟩
      · exact Or.inl h3
      · exact Or.inr (Or.inl ⟨hen.2 ⟨h3, by rw [hmax]; exact h3.shallow⟩, h4⟩)
      · rw [← cfg_exclude (c := c) (e := e) h (by rw [← hmax]; exact f2)] at h4
        exact Or.inr (Or.inr (Or.inl ⟨h3, h4, h5⟩))
      · have k2 : (b.cfg o c).InRange p := Classical.byContradiction fun hh => by
          have h4 : (b.plain e cmd p).contains .error = true := h4
          rw [plain_skip h h3.allowed.1 h3.range hh] at h4
          cases h4
        rw [← (cfg_expr (e := e) h h3.allowed.1 k2).2.1] at h4
        exact Or.inr (Or.inr (Or.inr ⟨hta.2 ⟨h3, k2⟩, h4⟩))
  exact or_congr Iff.rfl ⟨fun hh p hp => hh p ((htr p).2 hp), fun hh p hp => hh p ((htr p).1 hp)⟩

/-- The exit status if the inferred depths may be other ones. -/
theorem search_status_bounds (h : Agree b a o cmd c) (ho : o.Sane) (h0 : 0 ≤ c.maxdepth) (he : Ordinary e) {tr : List Event}
    (hr : Walked ((b.cfg o c).env e) tr true) :
    ((o.ignoreErrors = true ∨ ∀ p, ¬ (b.asked o e cmd).Trouble e p) → (b.cfg o c).status e tr = 0) ∧
    ((b.cfg o c).status e tr = 0 → o.ignoreErrors = true ∨
      ((∀ p, (b.asked o e cmd).Target e p → .error ∉ b.plain e cmd p) ∧ ∀ p, (b.asked o e cmd).Trouble e p → Idle (b.asked o e cmd) (b.plain e cmd) p)) := by
  have hs := cfg_sane h ho h0
  have hhi := h.hi
  rw [(facts hs rfl he hr).status rfl]
  have hen := cfg_enters (e := e) h
  have hfo := cfg_found (e := e) h h0
  have hta := cfg_target (e := e) h h0
  constructor
  · refine Or.imp_right fun hh p hp => hh p ?_
    obtain ⟨h1, h2, h3⟩ := hp
    obtain ⟨f1, f2⟩ := (hfo p).1 h1
    refine ⟨f1, h2, ?_⟩
    rcases h3 with h3 | ⟨h3, h4⟩ | ⟨h3, h4, h5⟩ | ⟨h3, h4⟩
    · exact Or.inl h3
    · exact Or.inr (Or.inl ⟨((hen p).1 h3).1, h4⟩)
    · rw [cfg_exclude (e := e) h (by omega)] at h4
      exact Or.inr (Or.inr (Or.inl ⟨h3, h4, h5⟩))
    · obtain ⟨k1, k2⟩ := (hta p).1 h3
      rw [(cfg_expr (e := e) h k1.allowed.1 k2).2.1] at h4
      exact Or.inr (Or.inr (Or.inr ⟨k1, h4⟩))
  · refine Or.imp_right fun hh => ?_
    have noerr : ∀ p, (b.asked o e cmd).Target e p → .error ∉ b.plain e cmd p := by
      intro p ht hm
      by_cases hin : (b.cfg o c).InRange p
      · have k := (hta p).2 ⟨ht, hin⟩
        refine hh p ⟨k.found, k.shown, Or.inr (Or.inr (Or.inr ⟨k, ?_⟩))⟩
        rw [(cfg_expr (e := e) h ht.allowed.1 hin).2.1]
        exact List.contains_iff_mem.2 hm
      · rw [plain_skip h ht.allowed.1 ht.range hin] at hm
        cases hm
    refine ⟨noerr, fun p ⟨h1, h2, h3⟩ q hq hx hin => ?_⟩
    by_cases hd : (depth p : Int) < c.maxdepth
    · refine absurd ⟨(hfo p).2 ⟨h1, by omega⟩, h2, ?_⟩ (hh p)
      rcases h3 with h3 | ⟨h3, h4⟩ | ⟨h3, h4, h5⟩ | ⟨h3, h4⟩
      · exact Or.inl h3
      · exact Or.inr (Or.inl ⟨(hen p).2 ⟨h3, hd⟩, h4⟩)
      · rw [← cfg_exclude (c := c) (e := e) h (by omega)] at h4
        exact Or.inr (Or.inr (Or.inl ⟨h3, h4, h5⟩))
      · exact absurd (List.contains_iff_mem.1 h4) (noerr p h3)
    · refine plain_skip h hx hin fun hh => ?_
      have : (depth q : Int) ≤ c.maxdepth := hh.2
      omega

/-- The exit status if the inferred maximal depth is negative. -/
theorem search_status_negative (h : Agree b a o cmd c) (ho : o.Sane) (h0 : ¬ 0 ≤ c.maxdepth) (he : Ordinary e) {tr : List Event}
    (hr : Walked ((b.cfg o c).env e) tr true) :
    ((o.ignoreErrors = true ∨ ∀ p, ¬ (b.asked o e cmd).Trouble e p) → (b.cfg o c).status e tr = 0) ∧
    ((∀ p, (b.asked o e cmd).Target e p → .error ∉ b.plain e cmd p) ∧ ∀ p, (b.asked o e cmd).Trouble e p → Idle (b.asked o e cmd) (b.plain e cmd) p) := by
  have none : ∀ p, (b.asked o e cmd).exclude p = false → (b.asked o e cmd).InRange p → b.plain e cmd p = [] := fun p hx hr =>
    plain_skip h hx hr (fun hh => by have := hh.2; have : (depth p : Int) ≤ c.maxdepth := this; omega)
  refine ⟨?_, fun p hp => (by rw [none p hp.allowed.1 hp.range]; simp), fun p _ q _ hx hin => none q hx hin⟩
  obtain ⟨hroot, hpath, herr⟩ := negative_calls h0 he hr
  rintro (hi | hh)
  · unfold Cfg.status
    rw [show (b.cfg o c).ignoreErrors = true from hi]
    simp
  · unfold Cfg.status
    rw [if_neg]
    rw [Bool.and_eq_true, List.any_eq_true]
    rintro ⟨⟨⟨ev, r⟩, h1, h2⟩, -⟩
    obtain ⟨l, r', h3, h4⟩ := mem_verdicts.1 h1
    dsimp only at h2 h3 h4
    have hm : ev ∈ tr := by rw [h3]; simp
    obtain ⟨i, hi, hp⟩ := hroot ev hm
    have hd : depth ev.pos = 0 := by rw [hp]; rfl
    have hdm : (depth ev.pos : Int) ≤ o.maxdepth := by have := ho.max0; omega
    have hf : Found e ((b.asked o e cmd).Enters e) ev.pos := by rw [hp]; exact .root i hi
    have hk : e.skipped ev.pos = false := by rw [hp]; simp [Env.skipped, Env.isMount]
    refine hh ev.pos ⟨hf, hk, ?_⟩
    rw [h4, hpath ev hm] at h2
    unfold Cfg.verdict at h2
    split at h2
    · rename_i hv
      have he : e.error ev.pos = true := by
        rw [Bool.or_eq_true] at hv
        exact hv.elim (fun hv => herr ev hm (by simpa using hv)) id
      refine Or.inl ⟨he, fun hc => ?_⟩
      have := hc.2.2
      omega
    · rename_i hv
      have hv : e.error ev.pos = false := by
        cases hx : e.error ev.pos with
        | true => rw [hx] at hv; simp at hv
        | false => rfl
      split at h2
      · cases h2
      · unfold Cfg.examine at h2
        split at h2
        · cases h2
        · rename_i hx
          have hx : (b.asked o e cmd).exclude ev.pos = false := by rw [← cfg_exclude (e := e) h hdm]; simpa using hx
          split at h2
          · rename_i hq
            rw [Bool.and_eq_true] at hq
            obtain ⟨y, hb1, hb2⟩ := List.any_eq_true.1 hq.2
            exact Or.inr (Or.inr (Or.inl ⟨hv, hx, hq.1, y, hb1, List.contains_iff_mem.1 hb2⟩))
          · unfold Cfg.evaluate at h2
            dsimp only at h2
            split at h2
            · rename_i hin
              have hmin : c.mindepth ≤ depth ev.pos := by
                have := toSize_eq (Int.le_trans ho.min0 h.lo) h.lo1
                have : depth ev.pos ≥ toSize c.mindepth := hin.2.1
                omega
              have hin : (b.asked o e cmd).InRange ev.pos := ⟨Int.le_trans h.lo hmin, hdm⟩
              have hn := none ev.pos hx hin
              have hsame := h.same ev.pos [] (by rw [← asked_exclude (o := o) (e := e)]; exact hx) hin.1 hin.2
              have : ((Opt.eval (b.sem ev.pos []) c.expr []).w.contains .error) = true := h2
              rw [hsame] at this
              rw [plain_eq] at hn
              have hc := effects_path b ev.pos [] (e.fullPath ev.pos) cmd.expr .error (by simp)
              rw [hc, hn] at this
              cases this
            · cases h2
end

end Verif.Main
