import Verif.Lemmas.Main
import Verif.Lemmas.BftwAuto

/-! # C74: from the arguments to the output -/
namespace Verif.Props
open Verif.Main Verif.Bftw

variable {T : Type} {env : Cmdline.Env} {b : Behaviour} {E : Opt.Env T} {a : Opt.Ann T} {o : Settings} {e : Env}
    {args : List Cmdline.Arg} {cmd : Cmdline.Cmd} {tr : List Event} {complete : Bool} {out : List Effect} {status : Nat}

/-- **C74 (output).** Without optimizations, or with `-O1`: the command line is read as the manual says
(`Parsed`), and at any time, the output is that of the expression, evaluated from left to right on files
below the given paths that are in range, not excluded and not below a pruned directory, on each at most
once, in order, and on nothing after `-quit`. When the search is complete, no file is missing. -/
theorem C74_output (hl : E.level ≤ 1) (ht : b.Tests) (ho : o.Sane) (he : Ordinary e)
    (h : Ran env b E a o e args cmd tr complete out status) :
    Cmdline.Parsed (Cmdline.prim env) args cmd ∧
    ∃ files, Right b o e cmd files out ∧ (complete = true → Complete b o e cmd files) := by
  have hp := (C45_iff env args cmd).1 h.parsed
  refine ⟨hp, ?_⟩
  have hag := agree_low b a o E hl ho cmd (parsed_quiet b ht hp)
  rw [h.out_eq]
  exact search_right hag ho (by rw [(low_bounds E hl _).2]; exact ho.max0) he h.walk

/-- **C74 (output), partial.** The same with more optimizations, also if they change the expression, and
the depths that are searched; for the expressions for which these are right (see C02). -/
theorem C74_output_optimized_partial (hl : 2 ≤ E.level) (ht : b.Tests) (ho : o.Sane) (he : Ordinary e)
    {f : Pos → Spec.Opt.File} {unit : Nat} (hf : Attributes b E.level o cmd f unit)
    (h : Ran env b E a o e args cmd tr complete out status) :
    Cmdline.Parsed (Cmdline.prim env) args cmd ∧
    ∃ files, Right b o e cmd files out ∧ (complete = true → Complete b o e cmd files) := by
  have hp := (C45_iff env args cmd).1 h.parsed
  refine ⟨hp, ?_⟩
  have hag := agree_high b a o E hl ho cmd (parsed_quiet b ht hp) hf
  rw [h.out_eq]
  by_cases h0 : 0 ≤ (Opt.bfsOptimize E (b.ctx a o cmd)).maxdepth
  · exact search_right hag ho h0 he h.walk
  · exact search_negative hag ho h0 he h.walk

/-- **C74 (status).** Without optimizations, or with `-O1`: a complete search succeeds if and only if
there was no trouble, or errors are to be ignored. -/
theorem C74_status (hl : E.level ≤ 1) (ht : b.Tests) (ho : o.Sane) (he : Ordinary e)
    (h : Ran env b E a o e args cmd tr true out status) :
    status = 0 ↔ (o.ignoreErrors = true ∨ ∀ p, ¬ (b.asked o e cmd).Trouble e p) := by
  have hp := (C45_iff env args cmd).1 h.parsed
  have hag := agree_low b a o E hl ho cmd (parsed_quiet b ht hp)
  have h2 := (low_bounds E hl (b.ctx a o cmd)).2
  have hm : 0 ≤ (Opt.bfsOptimize E (b.ctx a o cmd)).maxdepth := by rw [h2]; exact ho.max0
  rw [h.status_eq, h.out_eq, exitStatus_unstopped (search_unstopped hag ho hm he h.walk)]
  exact search_status hag ho hm he h2 h.walk

/-- **C74 (status), partial.** The same with `-O2` and `-O3`, the default, for the expressions for which these are right. -/
theorem C74_status_default_partial (hl : 2 ≤ E.level) (hl3 : E.level ≤ 3) (ht : b.Tests) (ho : o.Sane) (he : Ordinary e)
    {f : Pos → Spec.Opt.File} {unit : Nat} (hf : Attributes b E.level o cmd f unit)
    (h : Ran env b E a o e args cmd tr true out status) :
    status = 0 ↔ (o.ignoreErrors = true ∨ ∀ p, ¬ (b.asked o e cmd).Trouble e p) := by
  have hp := (C45_iff env args cmd).1 h.parsed
  have hag := agree_high b a o E hl ho cmd (parsed_quiet b ht hp) hf
  have h2 : (Opt.bfsOptimize E (b.ctx a o cmd)).maxdepth = o.maxdepth := by
    show Opt.newMaxdepth _ _ _ = _
    unfold Opt.newMaxdepth
    rw [if_neg (by omega)]
    rfl
  have hm : 0 ≤ (Opt.bfsOptimize E (b.ctx a o cmd)).maxdepth := by rw [h2]; exact ho.max0
  rw [h.status_eq, h.out_eq, exitStatus_unstopped (search_unstopped hag ho hm he h.walk)]
  exact search_status hag ho hm he h2 h.walk

/-- **C74 (status), partial.** With `-O4`, which may limit the depths that are searched: without trouble, a complete search succeeds. If it
succeeds, no action failed, and if there was any trouble, it was so deep that nothing could have been done deeper still. So the output is never incomplete without a nonzero exit status.

Missing: whether trouble is seen that cannot make a difference to the output. -/
theorem C74_status_optimized_partial (hl : 2 ≤ E.level) (ht : b.Tests) (ho : o.Sane) (he : Ordinary e)
    {f : Pos → Spec.Opt.File} {unit : Nat} (hf : Attributes b E.level o cmd f unit)
    (h : Ran env b E a o e args cmd tr true out status) :
    ((o.ignoreErrors = true ∨ ∀ p, ¬ (b.asked o e cmd).Trouble e p) → status = 0) ∧
    (status = 0 → o.ignoreErrors = true ∨
      ((∀ p, (b.asked o e cmd).Target e p → .error ∉ b.plain e cmd p) ∧
        ∀ p, (b.asked o e cmd).Trouble e p → Idle (b.asked o e cmd) (b.plain e cmd) p)) := by
  have hp := (C45_iff env args cmd).1 h.parsed
  have hag := agree_high b a o E hl ho cmd (parsed_quiet b ht hp) hf
  rw [h.status_eq, h.out_eq]
  by_cases h0 : 0 ≤ (Opt.bfsOptimize E (b.ctx a o cmd)).maxdepth
  · rw [exitStatus_unstopped (search_unstopped hag ho h0 he h.walk)]
    exact search_status_bounds hag ho h0 he h.walk
  · obtain ⟨h1, h2⟩ := search_status_negative hag ho h0 he h.walk
    rw [exitStatus_unstopped]
    · exact ⟨h1, fun _ => Or.inr h2⟩
    · obtain ⟨files, h3, -⟩ := search_negative hag ho h0 he h.walk
      rw [h3.output]
      intro hm
      obtain ⟨p, hp, hm⟩ := List.mem_flatMap.1 hm
      have ht := h3.sound p hp
      rw [plain_skip hag ht.allowed.1 ht.range (fun hh => h0 (Int.le_trans (Int.natCast_nonneg _) hh.2))] at hm
      cases hm

/-- Only tests. -/
theorem noActions_quiet (ht : b.Tests) : ∀ x, NoActions x → b.Quiet x := by
  intro x
  induction x with
  | leaf l =>
    cases l with
    | prim p => exact fun h => ht p h
    | print => exact fun h => h.elim
    | yes => intro _ k i hh; cases hh
    | hidden => intro _ k i hh; cases hh
  | not x ih => exact ih
  | and x y i1 i2 => exact fun h => ⟨i1 h.1, i2 h.2⟩
  | or x y i1 i2 => exact fun h => ⟨i1 h.1, i2 h.2⟩
  | comma x y i1 i2 => exact fun h => ⟨i1 h.1, i2 h.2⟩

theorem print_plain (ht : b.Tests) {x : Cmdline.E} (hx : NoActions x) (hc : cmd.expr = .and x (.leaf .print)) (p : Pos) :
    b.plain e cmd p = if (meaning (b.leafMeaning e p) x).value then [.write (e.fullPath p ++ [10])] else [] := by
  have hq := quiet_meaning b p (e.fullPath p) x (noActions_quiet ht x hx)
  rw [← lm_eq] at hq
  unfold Behaviour.plain
  rw [hc]
  simp only [meaning, hq.1, hq.2, Bool.false_or]
  cases (meaning (b.leafMeaning e p) x).value <;> rfl

theorem right_lines (ht : b.Tests) {x : Cmdline.E} (hx : NoActions x) (hc : cmd.expr = .and x (.leaf .print))
    {files : List Pos} (hr : Right b o e cmd files out) (hco : Complete b o e cmd files) :
    ∃ lines : List Pos, out = lines.map (fun p => .write (e.fullPath p ++ [10])) ∧ lines.Nodup ∧
      (∀ p, p ∈ lines ↔ (b.asked o e cmd).Target e p ∧ (meaning (b.leafMeaning e p) x).value = true) ∧
      (e.post = false → lines.Pairwise fun earlier later => ¬ later <:+ earlier) ∧
      (e.post = true → lines.Pairwise fun earlier later => ¬ earlier <:+ later) := by
  have hpl := fun p => print_plain (b := b) (e := e) (cmd := cmd) ht hx hc p
  have hsub := List.filter_sublist (p := fun p => (meaning (b.leafMeaning e p) x).value) (l := files)
  refine ⟨files.filter fun p => (meaning (b.leafMeaning e p) x).value, ?_, hr.once.sublist hsub, fun p => ?_,
    fun hp => (hr.pre hp).sublist hsub, fun hp => (hr.post hp).sublist hsub⟩
  · rw [hr.output]
    clear hr hco hsub
    induction files with
    | nil => rfl
    | cons p files ih =>
      rw [List.flatMap_cons, ih, hpl p, List.filter_cons]
      cases (meaning (b.leafMeaning e p) x).value <;> rfl
  · rw [List.mem_filter]
    constructor
    · rintro ⟨h1, h2⟩
      exact ⟨hr.sound p h1, h2⟩
    · rintro ⟨h1, h2⟩
      exact ⟨hco p h1 (by rw [hpl, if_pos h2]; simp), h2⟩

/-- **C74 (tests).** If there are only tests in the expression, so that `-print` is implied, a complete
search prints exactly one line for each file in question for which the tests say yes. -/
theorem C74_lines (hl : E.level ≤ 1) (ht : b.Tests) (ho : o.Sane) (he : Ordinary e)
    (h : Ran env b E a o e args cmd tr true out status)
    {x : Cmdline.E} (hx : NoActions x) (hc : cmd.expr = .and x (.leaf .print)) :
    ∃ lines : List Pos, out = lines.map (fun p => .write (e.fullPath p ++ [10])) ∧ lines.Nodup ∧
      (∀ p, p ∈ lines ↔ (b.asked o e cmd).Target e p ∧ (meaning (b.leafMeaning e p) x).value = true) ∧
      (e.post = false → lines.Pairwise fun earlier later => ¬ later <:+ earlier) ∧
      (e.post = true → lines.Pairwise fun earlier later => ¬ earlier <:+ later) := by
  obtain ⟨_, files, h1, h2⟩ := C74_output hl ht ho he h
  exact right_lines ht hx hc h1 (h2 rfl)

/-- **C74 (tests), partial.** The same with more optimizations. -/
theorem C74_lines_optimized_partial (hl : 2 ≤ E.level) (ht : b.Tests) (ho : o.Sane) (he : Ordinary e)
    {f : Pos → Spec.Opt.File} {unit : Nat} (hf : Attributes b E.level o cmd f unit)
    (h : Ran env b E a o e args cmd tr true out status)
    {x : Cmdline.E} (hx : NoActions x) (hc : cmd.expr = .and x (.leaf .print)) :
    ∃ lines : List Pos, out = lines.map (fun p => .write (e.fullPath p ++ [10])) ∧ lines.Nodup ∧
      (∀ p, p ∈ lines ↔ (b.asked o e cmd).Target e p ∧ (meaning (b.leafMeaning e p) x).value = true) ∧
      (e.post = false → lines.Pairwise fun earlier later => ¬ later <:+ earlier) ∧
      (e.post = true → lines.Pairwise fun earlier later => ¬ earlier <:+ later) := by
  obtain ⟨_, files, h1, h2⟩ := C74_output_optimized_partial hl ht ho he hf h
  exact right_lines ht hx hc h1 (h2 rfl)

/-! ## The hypotheses are met -/

/-- `-prune`, `-quit`, `-type d`; any other test is `-name x`. -/
def mainLeaf (p : Cmdline.Prim) : Opt.Leaf :=
  if p.action then
    if p.calls.map (·.2) = [[Cmdline.A "-prune"]] then pruneLeaf
    else if p.calls.map (·.2) = [[Cmdline.A "-quit"]] then .action .noReturn 7
    else printLeaf
  else if p.calls.map (·.2) = [[Cmdline.A "-type", Cmdline.A "d"]] then .type 8
  else .other 0

/-- The files of `walkEnv`: directories are of type 3, and `a/x` is the one called `x`. -/
def mainFile (p : Pos) : Spec.Opt.File :=
  { pred := fun _ => false
    num := fun r => match r with | .depth => depth p | _ => 1
    dev := 1, type := if walkEnv.isDir p then 3 else 8, xtype := 8, lname := fun _ => false, other := fun _ => decide (p = [1, 0]) }

def mainBehaviour : Behaviour :=
  { leaf := mainLeaf
    result := fun p l => (Spec.Opt.test (mainFile p) l).getD false
    effects := fun _ _ => [] }

def mainSettings : Settings :=
  { mindepth := 0, maxdepth := 2147483647, xargsSafe := false, ignoreRaces := false, ignoreErrors := false, gone := fun _ => false }

def mainCmd (args : List String) : Cmdline.Cmd :=
  match Cmdline.whole (Cmdline.prim cmdEnv) (args.map Cmdline.A) with
  | .ok c => c
  | _ => ⟨.leaf .yes, [], [], []⟩

/-- Is it parsed? -/
def mainOk (args : List String) : Bool :=
  match Cmdline.whole (Cmdline.prim cmdEnv) (args.map Cmdline.A) with
  | .ok c => decide (c.roots = [Cmdline.A "a"])
  | _ => false

def mainAnn : Opt.Ann Unit := ⟨false, false, false, ()⟩

def mainCtx (level : Nat) (args : List String) : Opt.Ctx Unit :=
  Opt.bfsOptimize (exEnv level) (mainBehaviour.ctx mainAnn mainSettings (mainCmd args))

def mainEnd (level : Nat) (args : List String) : State :=
  walk ((mainBehaviour.cfg mainSettings (mainCtx level args)).env { walkEnv with post := false }) 100

/-- The calls of a search that is ended during the first phase, for examples. -/
def stopRun (e : Env) (next : Ids → Ids) : Option (List Event × Bool) := ((List.range 10).reverse.findSome? fun k => midAuto e next k 100).map fun st => (st.calls, false)

/-- The calls of a search with any of the strategies, and whether it is complete, for examples. -/
def wholeRun (e : Env) : Option (List Event × Bool) :=
  match e.strategy, e.post with
  | .ids, false => ((firstPhase e idsNext).map fun x => (x.1.calls, true)) <|> stopRun e idsNext
  | .eds, false => ((firstPhase e edsNext).map fun x => (x.1.calls, true)) <|> stopRun e edsNext
  | .ids, true => (idsWhole e).map fun x => (x.1.calls, true)
  | .eds, true => (edsWhole e).map fun x => (x.calls, true)
  | _, _ => some ((walk e 100).trace, decide ((walk e 100).pc = .done))

theorem stop_walked {e : Env} {next : Ids → Ids} (hn : (e.strategy = .ids ∧ next = idsNext) ∨ (e.strategy = .eds ∧ next = edsNext)) {x : List Event × Bool} (h : stopRun e next = some x) : Walked e x.1 x.2 := by
  unfold stopRun at h
  obtain ⟨st, h1, rfl⟩ := Option.map_eq_some_iff.1 h
  obtain ⟨k, -, h2⟩ := List.exists_of_findSome?_eq_some h1
  obtain ⟨st', h3, h4⟩ := mid_ok (f := fun st => st.calls) (calls := st.calls) hn (by rw [h2]; rfl)
  show Walked e st.calls false
  rw [← h4]
  exact .midway h3

theorem wholeRun_walked {e : Env} {x : List Event × Bool} (h : wholeRun e = some x) : Walked e x.1 x.2 := by
  obtain ⟨tr, complete⟩ := x
  unfold wholeRun at h
  have split : ∀ {a b : Option (List Event × Bool)}, (a <|> b) = some (tr, complete) → a = some (tr, complete) ∨ b = some (tr, complete) := by
    intro a b h
    cases a with
    | none => exact Or.inr h
    | some y => exact Or.inl h
  split at h
  · next hs hp =>
    rcases split h with h | h
    · obtain ⟨st, buf, h1, h2, h3⟩ := first_ok (f := fun st => (st.calls, true)) h
      cases h3
      exact .deepened (.ids hs hp h1 h2)
    · exact stop_walked (Or.inl ⟨hs, rfl⟩) h
  · next hs hp =>
    rcases split h with h | h
    · obtain ⟨st, buf, h1, h2, h3⟩ := first_ok (f := fun st => (st.calls, true)) h
      cases h3
      exact .deepened (.eds hs hp h1 h2)
    · exact stop_walked (Or.inr ⟨hs, rfl⟩) h
  · next hs hp =>
    obtain ⟨st, buf, h1, h2, h3⟩ := ids_ok (f := fun st => (st.calls, true)) hp h
    cases h3
    exact .deepened (.idsPost hs h1 h2)
  · next hs hp =>
    obtain ⟨st, h1, h3⟩ := eds_ok (f := fun st => (st.calls, true)) hp h
    cases h3
    exact .deepened (.edsPost hs h1)
  · next h1 h2 h3 h4 =>
    have hst : e.strategy = .bfs ∨ e.strategy = .dfs := by
      cases hs : e.strategy with
      | bfs => exact Or.inl rfl
      | dfs => exact Or.inr rfl
      | ids => cases hp : e.post with
        | false => exact absurd hp (h1 hs)
        | true => exact absurd hp (h3 hs)
      | eds => cases hp : e.post with
        | false => exact absurd hp (h2 hs)
        | true => exact absurd hp (h4 hs)
    cases h
    exact .walk hst (walk_reach e 100)

theorem main_ran (level : Nat) (args : List String) (h : mainOk args = true) :
    Ran cmdEnv mainBehaviour (exEnv level) mainAnn mainSettings { walkEnv with post := false } (args.map Cmdline.A) (mainCmd args)
      (mainEnd level args).trace (decide ((mainEnd level args).pc = .done)) (mainBehaviour.output mainSettings (mainCtx level args) { walkEnv with post := false } (mainEnd level args).trace)
      (exitStatus (mainBehaviour.output mainSettings (mainCtx level args) { walkEnv with post := false } (mainEnd level args).trace)
        ((mainBehaviour.cfg mainSettings (mainCtx level args)).status { walkEnv with post := false } (mainEnd level args).trace)) := by
  have key : Cmdline.whole (Cmdline.prim cmdEnv) (args.map Cmdline.A) = .ok (mainCmd args) ∧ (mainCmd args).roots = [Cmdline.A "a"] := by
    unfold mainOk at h
    unfold mainCmd
    split at h
    · next c hc => rw [hc]; exact ⟨rfl, by simpa using h⟩
    · cases h
  refine ⟨key.1, by rw [key.2]; rfl, fun i root hi => ?_, .walk (Or.inl rfl) (walk_reach _ 100), rfl, rfl⟩
  rw [key.2] at hi
  match i, hi with
  | 0, hi => cases hi; rfl

theorem main_tests : mainBehaviour.Tests := by
  intro p hp k i
  show mainLeaf p ≠ _
  unfold mainLeaf
  rw [hp, if_neg (by simp)]
  split <;> simp

theorem main_leaf (p : Cmdline.Prim) : (∃ k i, mainLeaf p = .action k i) ∨ mainLeaf p = .type 8 ∨ mainLeaf p = .other 0 := by
  unfold mainLeaf
  repeat' split
  all_goals first | exact Or.inl ⟨_, _, rfl⟩ | exact Or.inr (Or.inl rfl) | exact Or.inr (Or.inr rfl)

/-- Are there no commas? -/
def commaFree : Cmdline.E → Bool
  | .leaf _ => true
  | .not x => commaFree x
  | .and x y => commaFree x && commaFree y
  | .or x y => commaFree x && commaFree y
  | .comma _ _ => false

theorem main_attributes (level : Nat) (args : List String) (h : (commaFree (mainCmd args).expr && (mainCmd args).excludes.all commaFree) = true) :
    Attributes mainBehaviour level mainSettings (mainCmd args) mainFile 1 where
  pos := by decide
  real := by
    intro p hp
    have hp : (depth p : Int) ≤ 2147483647 := hp
    refine ⟨fun r => ?_, ?_, (by decide : (8 : Nat) < 32), fun h => (by cases h), fun _ => ⟨fun h => (by cases h), fun h => (by cases h)⟩⟩
    · cases r
      case depth => show 0 ≤ (depth p : Int) ∧ (depth p : Int) ≤ _; omega
      all_goals (show (0 : Int) ≤ 1 ∧ (1 : Int) ≤ 9223372036854775807; decide)
    · show (if walkEnv.isDir p then 3 else 8) < 32
      split <;> decide
  depth := fun _ => rfl
  result := by
    intro p l v h
    show (Spec.Opt.test (mainFile p) l).getD false = v
    rw [h]
    rfl
  tame := by
    refine ⟨⟨none, none⟩, fun p => ?_⟩
    have key : ∀ x, commaFree x = true → mainBehaviour.Tame ⟨none, none⟩ (mainFile p) 1 level x := by
      intro x
      induction x with
      | leaf l =>
        intro _
        show Spec.Opt.Tame _ _ _ _ (mainBehaviour.leafOf l)
        cases l with
        | prim q =>
          rcases main_leaf q with ⟨k, i, hq⟩ | hq | hq <;> (show Spec.Opt.Tame _ _ _ _ (mainLeaf q); rw [hq]; trivial)
        | _ => trivial
      | not x ih => exact ih
      | and x y i1 i2 => intro h; simp only [commaFree, Bool.and_eq_true] at h; exact ⟨i1 h.1, i2 h.2⟩
      | or x y i1 i2 => intro h; simp only [commaFree, Bool.and_eq_true] at h; exact ⟨i1 h.1, i2 h.2⟩
      | comma x y _ _ => intro h; cases h
    simp only [Bool.and_eq_true, List.all_eq_true] at h
    exact ⟨key _ h.1, fun x hx => key _ (h.2 x hx)⟩

theorem main_ordinary : Ordinary { walkEnv with post := false } :=
  ⟨walkEnv_named, (fun h => by rcases h with h | h <;> cases h), (fun _ h => by cases h), (fun h => by cases h)⟩

theorem main_sane : mainSettings.Sane := ⟨by decide, by decide, by decide, by decide⟩

/-- What comes of it. -/
def mainOut (level : Nat) (args : List String) : List Effect :=
  mainBehaviour.output mainSettings (mainCtx level args) { walkEnv with post := false } (mainEnd level args).trace

/-- The hypotheses of the theorems. -/
theorem main_hypotheses (level : Nat) (args : List String) (h : mainOk args = true) (hd : (mainEnd level args).pc = .done)
    (hc : (commaFree (mainCmd args).expr && (mainCmd args).excludes.all commaFree) = true) :
    ∃ status, Ran cmdEnv mainBehaviour (exEnv level) mainAnn mainSettings { walkEnv with post := false } (args.map Cmdline.A) (mainCmd args)
      (mainEnd level args).trace true (mainOut level args) status ∧ mainBehaviour.Tests ∧ mainSettings.Sane ∧
      Ordinary { walkEnv with post := false } ∧ Attributes mainBehaviour level mainSettings (mainCmd args) mainFile 1 :=
  ⟨_, by have := main_ran level args h; rw [hd] at this; exact this, main_tests, main_sane, main_ordinary, main_attributes level args hc⟩

/-- The files are `a`, `a/y`, `a/x` and `a/y/z`. -/
def mainCase (level : Nat) (args : List String) (lines : List String) : Bool :=
  mainOk args && decide ((mainEnd level args).pc = .done) && commaFree (mainCmd args).expr && (mainCmd args).excludes.all commaFree &&
    decide ((mainOut level args).filter (· ≠ .prune) = lines.map fun l => .write (Cmdline.A l ++ [10]))

example : mainCase 0 ["a"] ["a", "a/x", "a/y", "a/y/z"] = true := by decide +kernel
example : mainCase 1 ["a", "-name", "x"] ["a/x"] = true := by decide +kernel
example : mainCase 1 ["a", "!", "-name", "x", "-type", "d"] ["a", "a/y"] = true := by decide +kernel
example : mainCase 1 ["-exclude", "-name", "x", "a"] ["a", "a/y", "a/y/z"] = true := by decide +kernel
example : mainCase 3 ["a", "-type", "d", "-print", "-o", "-name", "x"] ["a", "a/y"] = true := by decide +kernel
example : mainCase 4 ["a", "-name", "x"] ["a/x"] = true := by decide +kernel

/-- `-quit` ends the search. -/
example : mainOk ["a", "-print", "-type", "d", "-quit"] = true ∧ (mainEnd 1 ["a", "-print", "-type", "d", "-quit"]).pc = .stopped ∧
    mainOut 1 ["a", "-print", "-type", "d", "-quit"] = [.write (Cmdline.A "a\n"), .stop] := by decide +kernel

/-- Only tests. -/
example : ∃ x, NoActions x ∧ (mainCmd ["a", "-name", "x"]).expr = .and x (.leaf .print) :=
  ⟨.leaf (.prim ⟨[(72, [Cmdline.A "-name", Cmdline.A "x"])], 2, true, false, false, false, [], false⟩), rfl, by decide +kernel⟩

/-! ## Trouble that makes no difference -/

/-- All tests are `-false`. -/
def falseBehaviour : Behaviour := { mainBehaviour with leaf := fun p => if p.action then mainLeaf p else .false_ }

/-- The directory `a` cannot be read. -/
def lockedEnv : Env := { walkEnv with post := false, broken := fun p => p = [0], entries := fun _ => 0 }

def lockedCtx (level : Nat) : Opt.Ctx Unit := Opt.bfsOptimize (exEnv level) (falseBehaviour.ctx mainAnn mainSettings (mainCmd ["a", "-false"]))

def lockedEnd (level : Nat) : State := walk ((falseBehaviour.cfg mainSettings (lockedCtx level)).env lockedEnv) 100

def lockedStatus (level : Nat) : Nat :=
  exitStatus (falseBehaviour.output mainSettings (lockedCtx level) lockedEnv (lockedEnd level).trace) ((falseBehaviour.cfg mainSettings (lockedCtx level)).status lockedEnv (lockedEnd level).trace)

theorem locked_ran (level : Nat) (hd : (lockedEnd level).pc = .done) :
    Ran cmdEnv falseBehaviour (exEnv level) mainAnn mainSettings lockedEnv [Cmdline.A "a", Cmdline.A "-false"] (mainCmd ["a", "-false"]) (lockedEnd level).trace true
      (falseBehaviour.output mainSettings (lockedCtx level) lockedEnv (lockedEnd level).trace) (lockedStatus level) := by
  have key : mainOk ["a", "-false"] = true := by decide +kernel
  have h := main_ran level ["a", "-false"] key
  have hroots : (mainCmd ["a", "-false"]).roots = [Cmdline.A "a"] := by decide +kernel
  refine ⟨h.parsed, by rw [hroots]; rfl, fun i root hi => ?_, ?_, rfl, rfl⟩
  · rw [hroots] at hi
    match i, hi with
    | 0, hi => cases hi; rfl
  · have := Walked.walk (e := (falseBehaviour.cfg mainSettings (lockedCtx level)).env lockedEnv) (Or.inl rfl) (walk_reach _ 100)
    rw [show decide ((walk ((falseBehaviour.cfg mainSettings (lockedCtx level)).env lockedEnv) 100).pc = .done) = true from decide_eq_true hd] at this
    exact this

/-- **C74 (status), counterexample.** With `-O4` the exit status can be 0 although there was trouble: `bfs a -false` does not even try to read `a` at `-O4`. At `-O0` it does,
and fails. -/
theorem C74_status_counterexample :
    (∃ tr out, Ran cmdEnv falseBehaviour (exEnv 0) mainAnn mainSettings lockedEnv [Cmdline.A "a", Cmdline.A "-false"] (mainCmd ["a", "-false"]) tr true out 1) ∧
    ∃ tr out, Ran cmdEnv falseBehaviour (exEnv 4) mainAnn mainSettings lockedEnv [Cmdline.A "a", Cmdline.A "-false"] (mainCmd ["a", "-false"]) tr true out 0 := by
  have h0 := locked_ran 0 (by decide +kernel)
  have h2 := locked_ran 4 (by decide +kernel)
  rw [show lockedStatus 0 = 1 by decide +kernel] at h0
  rw [show lockedStatus 4 = 0 by decide +kernel] at h2
  exact ⟨⟨_, _, h0⟩, _, _, h2⟩

end Verif.Props
