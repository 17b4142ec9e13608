import Verif.Lemmas.OptionsStep
import Verif.Props.Main

/-! # C75: the settings are what the flags and options say -/
namespace Verif.Props
open Verif.Options Verif.Cmdline

/-- Cycles are looked for when all symbolic links are followed, unless `-unique` does that already; apart from this, the settings are `o`. -/
def WithCycles (o o' : Options.Options) : Prop :=
  (has o'.flags DETECT_CYCLES = true ↔ has o.flags FOLLOW_ALL = true ∧ o.unique = false) ∧ o = { o' with flags := o'.flags &&& ~~~DETECT_CYCLES }

theorem others_cycles {x : BitVec 32} (h : x &&& ~~~ALLBITS = 0#32) : has x DETECT_CYCLES = false ∧ x &&& ~~~DETECT_CYCLES = x := by
  have hz : x.getLsbD 5 = false := by
    have h1 : (x &&& ~~~ALLBITS).getLsbD 5 = false := by rw [h]; decide
    rw [BitVec.getLsbD_and, BitVec.getLsbD_not] at h1
    have h2 : ALLBITS.getLsbD 5 = false := by decide
    rw [h2] at h1
    simpa using h1
  have h1 : has x DETECT_CYCLES = false := by
    have := has_bit x (k := 5) (by decide)
    rw [hz] at this
    exact this
  refine ⟨h1, BitVec.eq_of_getLsbD_eq fun i hi => ?_⟩
  rw [BitVec.getLsbD_and, BitVec.getLsbD_not]
  by_cases hi5 : i = 5
  · subst hi5; rw [hz]; rfl
  · have key : ∀ i : Fin 32, i.1 ≠ 5 → DETECT_CYCLES.getLsbD i.1 = false := by decide +kernel
    rw [key ⟨i, hi⟩ hi5]
    simp [hi]

theorem or_cycles {x : BitVec 32} (h : x &&& ~~~ALLBITS = 0#32) : has (x ||| DETECT_CYCLES) DETECT_CYCLES = true ∧ (x ||| DETECT_CYCLES) &&& ~~~DETECT_CYCLES = x := by
  constructor
  · rw [has_or]
    have : has DETECT_CYCLES DETECT_CYCLES = true := by decide
    rw [this, Bool.or_true]
  · rw [BitVec.and_comm, BitVec.and_or_distrib_left]
    have : ~~~DETECT_CYCLES &&& DETECT_CYCLES = 0#32 := by decide
    rw [this, BitVec.or_zero, BitVec.and_comm]
    exact (others_cycles h).2

theorem detectCycles_iff {sys : Sys} {cs : List Call} {o : Options.Options} (h : Meets sys cs o) (o' : Options.Options) : o' = detectCycles o ↔ WithCycles o o' := by
  have key : WithCycles o (detectCycles o) := by
    unfold detectCycles
    by_cases hc : (has o.flags FOLLOW_ALL && !o.unique) = true
    · rw [if_pos hc]
      simp only [Bool.and_eq_true, Bool.not_eq_true'] at hc
      obtain ⟨h1, h2⟩ := or_cycles h.others
      exact ⟨⟨fun _ => hc, fun _ => h1⟩, by cases o; dsimp only at *; rw [h2]⟩
    · rw [if_neg hc]
      simp only [Bool.and_eq_true, Bool.not_eq_true'] at hc
      obtain ⟨h1, h2⟩ := others_cycles h.others
      exact ⟨⟨fun h => absurd h (by rw [h1]; decide), fun h => absurd h hc⟩, by cases o; dsimp only at *; rw [h2]⟩
  constructor
  · rintro rfl; exact key
  · rintro ⟨h1, h2⟩
    obtain ⟨k1, k2⟩ := key
    have hb : has o'.flags DETECT_CYCLES = has (detectCycles o).flags DETECT_CYCLES := bool_eq h1 k1
    have hf : o'.flags = (detectCycles o).flags := by
      have e1 : o'.flags &&& ~~~DETECT_CYCLES = (detectCycles o).flags &&& ~~~DETECT_CYCLES := by
        have a1 := congrArg Options.Options.flags h2
        have a2 := congrArg Options.Options.flags k2
        exact a1.symm.trans a2
      refine BitVec.eq_of_getLsbD_eq fun i hi => ?_
      by_cases hi5 : i = 5
      · subst hi5
        have b1 := has_bit o'.flags (k := 5) (by decide)
        have b2 := has_bit (detectCycles o).flags (k := 5) (by decide)
        rw [← b1, ← b2]; exact hb
      · have key : ∀ i : Fin 32, i.1 ≠ 5 → DETECT_CYCLES.getLsbD i.1 = false := by decide +kernel
        have := congrArg (fun y => y.getLsbD i) e1
        simp only [BitVec.getLsbD_and, BitVec.getLsbD_not, key ⟨i, hi⟩ hi5, hi, decide_true, Bool.not_false, Bool.and_true] at this
        exact this
    have hall : ({ o' with flags := o'.flags &&& ~~~DETECT_CYCLES } : Options.Options) = { detectCycles o with flags := (detectCycles o).flags &&& ~~~DETECT_CYCLES } := h2.symm.trans k2
    generalize detectCycles o = p at *
    cases o'
    cases p
    simp only [Options.Options.mk.injEq] at hall
    simp only at hf
    simp only [Options.Options.mk.injEq]
    exact ⟨hf, hall.2⟩

/-- **C75.** A command line is accepted with these settings if and only if it has the right syntax (C45), all values of flags and options are acceptable, and
the settings are what the last of the flags and options that contradict each other say, wherever they are, and the defaults for all others. -/
theorem C75_iff (env : Cmdline.Env) (sys : Sys) (args : List Arg) (cmd : Cmd) (o : Options.Options) :
    parseCmdline env sys args = .ok (cmd, o) ↔
      Parsed (prim env) args cmd ∧ (∀ c ∈ cmd.calls, Acceptable sys c) ∧ ∃ o1, Meets sys cmd.calls o1 ∧ WithCycles o1 o := by
  unfold parseCmdline
  rw [obind_iff]
  constructor
  · rintro ⟨cmd1, h1, h2⟩
    obtain ⟨o1, h3, h4⟩ := obind_iff.1 h2
    cases h4
    have hp := (C45_iff env args cmd).1 h1
    have hm := parsed_made hp
    have hmeets := meets cmd.calls o1 (fun c hc => by obtain ⟨_, _, _, _, h, _⟩ := hm c hc; exact h) h3
    exact ⟨hp, (configure_accepts cmd.calls (defaults sys) hm).1 ⟨o1, h3⟩, o1, hmeets, (detectCycles_iff hmeets _).1 rfl⟩
  · rintro ⟨hp, ha, o1, h1, h2⟩
    have hm := parsed_made hp
    obtain ⟨o2, h3⟩ := (configure_accepts cmd.calls (defaults sys) hm).2 ha
    have hmeets := meets cmd.calls o2 (fun c hc => by obtain ⟨_, _, _, _, h, _⟩ := hm c hc; exact h) h3
    have he := meets_eq h1 hmeets
    subst he
    refine ⟨cmd, (C45_iff env args cmd).2 hp, obind_iff.2 ⟨o1, h3, ?_⟩⟩
    rw [(detectCycles_iff h1 o).2 h2]

/-- **C75.** Any command line is either accepted or rejected; no assertion fails. -/
theorem C75_total (env : Cmdline.Env) (sys : Sys) (args : List Arg) :
    (∃ cmd o, parseCmdline env sys args = .ok (cmd, o)) ∨ ∃ e, parseCmdline env sys args = .err e := by
  have hub : parseCmdline env sys args ≠ .ub := by
    unfold parseCmdline
    refine bind_noub (whole_ub (prim_ok env) args) fun cmd hcmd => ?_
    refine bind_noub (configure_noub cmd.calls _ (parsed_made ((C45_iff env args cmd).1 hcmd))) fun o _ h => ?_
    cases h
  cases h : parseCmdline env sys args with
  | ok x => exact .inl ⟨x.1, x.2, rfl⟩
  | err e => exact .inr ⟨e, rfl⟩
  | ub => exact absurd h hub

/-- **C75.** If the syntax is right and all values are acceptable, there are settings; there is only one set of settings for a command line. -/
theorem C75_settings (sys : Sys) (env : Cmdline.Env) (args : List Arg) (cmd : Cmd) (h : Parsed (prim env) args cmd) :
    ((∀ c ∈ cmd.calls, Acceptable sys c) → ∃ o, Meets sys cmd.calls o) ∧ ∀ o o', Meets sys cmd.calls o → Meets sys cmd.calls o' → o = o' := by
  refine ⟨fun ha => ?_, fun o o' => meets_eq⟩
  have hm := parsed_made h
  obtain ⟨o, ho⟩ := (configure_accepts cmd.calls (defaults sys) hm).2 ha
  exact ⟨o, meets cmd.calls o (fun c hc => by obtain ⟨_, _, _, _, h, _⟩ := hm c hc; exact h) ho⟩

/-- **C75.** What the parser knows when it comes to a test, like the syntax for `-regex`, or whether to follow links in `-newer`, is what flags and options before
it say; those that come later do not matter for it. -/
theorem C75_before (env : Cmdline.Env) (sys : Sys) (args : List Arg) (cmd : Cmd) (o : Options.Options) (h : parseCmdline env sys args = .ok (cmd, o))
    (before after : List Call) (hc : cmd.calls = before ++ after) : ∃ o1, configure sys before (defaults sys) = .ok o1 ∧ Meets sys before o1 := by
  obtain ⟨hp, ha, _⟩ := (C75_iff env sys args cmd o).1 h
  have hm := parsed_made hp
  have hm' : ∀ c ∈ before, Made c := fun c hx => hm c (by rw [hc]; exact List.mem_append_left _ hx)
  obtain ⟨o1, h1⟩ := (configure_accepts before (defaults sys) hm').2 (fun c hx => ha c (by rw [hc]; exact List.mem_append_left _ hx))
  exact ⟨o1, h1, meets before o1 (fun c hc => by obtain ⟨_, _, _, _, h, _⟩ := hm' c hc; exact h) h1⟩

theorem meets_congr {sys : Sys} {cs cs' : List Call} {o : Options.Options} (hl : ∀ L ∈ contradictory, last L cs = last L cs') (hm : ∀ c, c ∈ cs ↔ c ∈ cs')
    (h : Meets sys cs o) : Meets sys cs' o := by
  have hg : ∀ L, Given L cs ↔ Given L cs' := fun L => ⟨fun ⟨c, h1, h2⟩ => ⟨c, (hm c).1 h1, h2⟩, fun ⟨c, h1, h2⟩ => ⟨c, (hm c).2 h1, h2⟩⟩
  simp only [contradictory, List.forall_mem_cons] at hl
  obtain ⟨l1, l2, l3, l4, l5, l6, l7, l8, l9, l10, l11, _⟩ := hl
  constructor
  · rw [← l1]; exact h.followRoots
  · rw [← l1]; exact h.followAll
  · rw [h.post, hg]
    constructor
    · rintro (h | ⟨c, h1, h2⟩)
      · exact Or.inl h
      · exact Or.inr ⟨c, (hm c).1 h1, h2⟩
    · rintro (h | ⟨c, h1, h2⟩)
      · exact Or.inl h
      · exact Or.inr ⟨c, (hm c).2 h1, h2⟩
  · rw [← hg]; exact h.mount
  · rw [← hg]; exact h.xdev
  · rw [← hg]; exact h.sort
  · exact h.recover
  · exact h.others
  · rw [← hg]; exact h.xargsSafe
  · rw [← hg]; exact h.unique
  · rw [← hg]; exact h.status
  · rw [← hg]; exact h.ignoreErrors
  · rw [← hg]; exact h.dangerous
  · rw [← l2]; exact h.ignoreRaces
  · rw [← l3]; exact h.warn
  · rw [← l4]; exact h.color
  · rw [← l5]; exact h.mindepth
  · rw [← l6]; exact h.maxdepth
  · rw [← l7]; exact h.strategy
  · rw [← l8]; exact h.optlevel
  · rw [← l9]; exact h.threads
  · rw [← l10]; exact h.regex
  · rw [← l11]; exact h.files0
  · intro bit
    rw [h.debug]
    constructor
    · rintro ⟨c, h1, h2⟩; exact ⟨c, (hm c).1 h1, h2⟩
    · rintro ⟨c, h1, h2⟩; exact ⟨c, (hm c).2 h1, h2⟩

/-- **C75.** The order of two flags or options that do not contradict each other does not matter, wherever they are. -/
theorem C75_order (sys : Sys) (before after : List Call) (c d : Call) (o : Options.Options) (h : ∀ L ∈ contradictory, ¬ (c.is L = true ∧ d.is L = true)) :
    Meets sys (before ++ c :: d :: after) o ↔ Meets sys (before ++ d :: c :: after) o := by
  have hl : ∀ L ∈ contradictory, last L (before ++ c :: d :: after) = last L (before ++ d :: c :: after) := by
    intro L hL
    have := h L hL
    unfold last
    simp only [List.filter_append, List.filter_cons]
    cases hc : c.is L <;> cases hd : d.is L <;> simp_all
  have hm : ∀ x, x ∈ before ++ c :: d :: after ↔ x ∈ before ++ d :: c :: after := by
    intro x
    simp only [List.mem_append, List.mem_cons]
    constructor <;> rintro (h | h | h | h) <;> simp [h]
  exact ⟨meets_congr hl hm, meets_congr (fun L hL => (hl L hL).symm) fun x => (hm x).symm⟩

/-! ## The search -/

section search
open Verif.Main

variable {T : Type} {env : Cmdline.Env} {sys : Sys} {b : Behaviour} {E : Opt.Env T} {a : Opt.Ann T} {gone : Bftw.Pos → Bool} {e : Bftw.Env}
    {args : List Arg} {cmd : Cmd} {o : Options.Options} {tr : List Bftw.Event} {complete : Bool} {out : List Effect} {status : Nat}

theorem cycles_meets {o1 o : Options.Options} (hc : WithCycles o1 o) :
    (∀ m ∈ [POST_ORDER, SORT, SKIP_MOUNTS, PRUNE_MOUNTS], has o.flags m = has o1.flags m) ∧ o1.mindepth = o.mindepth ∧ o1.maxdepth = o.maxdepth ∧
      o1.xargsSafe = o.xargsSafe ∧ o1.ignoreRaces = o.ignoreRaces ∧ o1.ignoreErrors = o.ignoreErrors ∧ o1.optlevel = o.optlevel ∧ o1.strategy = o.strategy ∧
      o1.threads = o.threads ∧ o1.unique = o.unique ∧ o1.files0 = o.files0 := by
  have := hc.2
  refine ⟨?_, ?_⟩
  · intro m hm
    rw [this]
    show has o.flags m = has (o.flags &&& ~~~DETECT_CYCLES) m
    rw [has_and]
    simp only [List.mem_cons, List.not_mem_nil, or_false] at hm
    rcases hm with rfl | rfl | rfl | rfl <;> rfl
  · rw [this]
    exact ⟨rfl, rfl, rfl, rfl, rfl, rfl, rfl, rfl, rfl, rfl⟩

/-- What the command line says about the search. -/
structure Asked (sys : Sys) (calls : List Call) (e : Bftw.Env) (level : Nat) (o : Settings) : Prop where
  /-- directories come last -/
  post : e.post = true ↔ Given ["-d", "-delete", "-rm"] calls ∨ ∃ c ∈ calls, c.is ["-depth"] = true ∧ c.2.length = 1
  sort : e.sort = true ↔ Given ["-s"] calls
  mount : e.skipMounts = true ↔ Given ["-mount"] calls
  xdev : e.pruneMounts = true ↔ Given ["-x", "-xdev"] calls
  strategy : (last ["-S"] calls = none ∧ e.strategy = .bfs) ∨ ∃ c v, last ["-S"] calls = some c ∧ LetterValue 83 c v ∧ StrategyName v e.strategy
  /-- one of the threads is the main thread -/
  threads : (last ["-j"] calls = none ∧ (e.nthreads : Int) = min sys.nproc 8 - 1) ∨ ∃ c v, last ["-j"] calls = some c ∧ LetterValue 106 c v ∧ Natural v (e.nthreads + 1)
  level : (last ["-O"] calls = none ∧ level = 3) ∨ ∃ c v, last ["-O"] calls = some c ∧ LetterValue 79 c v ∧ Level v level
  mindepth : (last ["-mindepth"] calls = none ∧ o.mindepth = 0) ∨ ∃ c v, last ["-mindepth"] calls = some c ∧ NextValue c v ∧ Natural v o.mindepth
  maxdepth : (last ["-maxdepth"] calls = none ∧ o.maxdepth = 2 ^ 31 - 1) ∨ ∃ c v, last ["-maxdepth"] calls = some c ∧ NextValue c v ∧ Natural v o.maxdepth
  xargsSafe : o.xargsSafe = true ↔ Given ["-X"] calls
  ignoreErrors : o.ignoreErrors = true ↔ Given ["-noerror"] calls
  ignoreRaces : o.ignoreRaces = true ↔
    ∃ c, last ["-ignore_readdir_race", "-noignore_readdir_race"] calls = some c ∧ c.is ["-ignore_readdir_race"] = true

theorem natural_range {v : Arg} {n : Int} (h : Natural v n) : 0 ≤ n ∧ n < 2 ^ 31 := ⟨h.2.1, h.2.2⟩

theorem level_nonneg {v : Arg} {n : Int} (h : Level v n) : 0 ≤ n := by
  cases h with
  | fast => decide
  | number _ _ h => exact h.2.1

theorem asked_of (hset : parseCmdline env sys args = .ok (cmd, o)) (hlevel : E.level = o.optlevel.toNat) (hpost : e.post = has o.flags POST_ORDER)
    (hsort : e.sort = has o.flags SORT) (hskip : e.skipMounts = has o.flags SKIP_MOUNTS) (hprune : e.pruneMounts = has o.flags PRUNE_MOUNTS)
    (hstrat : e.strategy = o.strategy) (hthr : (e.nthreads : Int) = o.threads - 1) :
    Parsed (prim env) args cmd ∧ Asked sys cmd.calls e E.level (o.search gone) ∧ (o.search gone).Sane := by
  obtain ⟨hp, _, o1, hm, hc⟩ := (C75_iff env sys args cmd o).1 hset
  obtain ⟨hf, hmin, hmax, hx, hr, hi, hlev, hst, hth, _⟩ := cycles_meets hc
  have fl := fun m (hm : m ∈ [POST_ORDER, SORT, SKIP_MOUNTS, PRUNE_MOUNTS]) => hf m hm
  refine ⟨hp, ?_, ?_⟩
  · constructor
    · rw [hpost, fl _ (by simp)]; exact hm.post
    · rw [hsort, fl _ (by simp)]; exact hm.sort
    · rw [hskip, fl _ (by simp)]; exact hm.mount
    · rw [hprune, fl _ (by simp)]; exact hm.xdev
    · rw [hstrat, ← hst]; exact hm.strategy
    · rcases hm.threads with ⟨h1, h2⟩ | ⟨c, v, h1, h2, h3, _⟩
      · exact Or.inl ⟨h1, by rw [hthr, ← hth, h2]⟩
      · refine Or.inr ⟨c, v, h1, h2, ?_⟩
        have : (e.nthreads : Int) + 1 = o1.threads := by rw [hthr, hth]; omega
        rw [this]; exact h3
    · rcases hm.optlevel with ⟨h1, h2⟩ | ⟨c, v, h1, h2, h3⟩
      · exact Or.inl ⟨h1, by rw [hlevel, ← hlev, h2]; rfl⟩
      · refine Or.inr ⟨c, v, h1, h2, ?_⟩
        have : (E.level : Int) = o1.optlevel := by
          have := level_nonneg h3
          rw [hlevel, ← hlev]
          omega
        rw [this]; exact h3
    · show (_ ∧ o.mindepth = 0) ∨ ∃ c v, _ ∧ _ ∧ Natural v o.mindepth
      rw [← hmin]; exact hm.mindepth
    · show (_ ∧ o.maxdepth = _) ∨ ∃ c v, _ ∧ _ ∧ Natural v o.maxdepth
      rw [← hmax]; exact hm.maxdepth
    · show o.xargsSafe = true ↔ _
      rw [← hx]; exact hm.xargsSafe
    · show o.ignoreErrors = true ↔ _
      rw [← hi]; exact hm.ignoreErrors
    · show o.ignoreRaces = true ↔ _
      rw [← hr]; exact hm.ignoreRaces
  · have key1 : 0 ≤ o1.mindepth ∧ o1.mindepth < 2 ^ 31 := by
      rcases hm.mindepth with ⟨_, h2⟩ | ⟨_, _, _, _, h2⟩
      · rw [h2]; decide
      · exact natural_range h2
    have key2 : 0 ≤ o1.maxdepth ∧ o1.maxdepth < 2 ^ 31 := by
      rcases hm.maxdepth with ⟨_, h2⟩ | ⟨_, _, _, _, h2⟩
      · rw [h2]; decide
      · exact natural_range h2
    rw [hmin] at key1
    rw [hmax] at key2
    exact ⟨key1.1, key1.2, key2.1, key2.2⟩

theorem started_asked (h : Started env sys b E a gone e args cmd o tr complete out status) :
    Parsed (prim env) args cmd ∧ Asked sys cmd.calls e E.level (o.search gone) ∧ (o.search gone).Sane :=
  asked_of h.settings h.level h.post h.sort h.skipMounts h.pruneMounts h.strategy h.nthreads

/-- **C75 (search).** With `-O0` or `-O1`, the whole program: the depths, the order, the strategy, what happens at mount points, and the treatment of errors are
what the command line says (`Asked`), and the output is that of the expression on the files that are asked for (`Right`, C74). -/
theorem C75_search (h : Started env sys b E a gone e args cmd o tr complete out status) (hl : E.level ≤ 1) (ht : b.Tests) (he : Ordinary e) :
    Parsed (prim env) args cmd ∧ ∃ settings, Asked sys cmd.calls e E.level settings ∧
      ∃ files, Right b settings e cmd files out ∧ (complete = true → Complete b settings e cmd files ∧
        (status = 0 ↔ (settings.ignoreErrors = true ∨ ∀ p, ¬ (b.asked settings e cmd).Trouble e p))) := by
  obtain ⟨hp, ha, hs⟩ := started_asked h
  obtain ⟨_, files, h1, h2⟩ := C74_output hl ht hs he h.ran
  exact ⟨hp, _, ha, files, h1, fun hd => ⟨h2 hd, by subst hd; exact C74_status hl ht hs he h.ran⟩⟩

/-- **C75 (search), partial.** The same with more optimizations, like the default, `-O3`; for the expressions for which these are right (see C02). -/
theorem C75_search_optimized_partial (h : Started env sys b E a gone e args cmd o tr complete out status) (hl : 2 ≤ E.level) (ht : b.Tests) (he : Ordinary e)
    {f : Bftw.Pos → Spec.Opt.File} {unit : Nat} (hf : ∀ settings, Asked sys cmd.calls e E.level settings → Attributes b E.level settings cmd f unit) :
    Parsed (prim env) args cmd ∧ ∃ settings, Asked sys cmd.calls e E.level settings ∧
      ∃ files, Right b settings e cmd files out ∧ (complete = true → Complete b settings e cmd files ∧
        (E.level ≤ 3 → (status = 0 ↔ (settings.ignoreErrors = true ∨ ∀ p, ¬ (b.asked settings e cmd).Trouble e p))) ∧
        ((settings.ignoreErrors = true ∨ ∀ p, ¬ (b.asked settings e cmd).Trouble e p) → status = 0) ∧
        (status = 0 → settings.ignoreErrors = true ∨
          ((∀ p, (b.asked settings e cmd).Target e p → .error ∉ b.plain e cmd p) ∧
            ∀ p, (b.asked settings e cmd).Trouble e p → Idle (b.asked settings e cmd) (b.plain e cmd) p))) := by
  obtain ⟨hp, ha, hs⟩ := started_asked h
  obtain ⟨_, files, h1, h2⟩ := C74_output_optimized_partial hl ht hs he (hf _ ha) h.ran
  exact ⟨hp, _, ha, files, h1, fun hd => ⟨h2 hd, fun h3 => (by subst hd; exact C74_status_default_partial hl h3 ht hs he (hf _ ha) h.ran),
    (by subst hd; exact C74_status_optimized_partial hl ht hs he (hf _ ha) h.ran)⟩⟩

/-! ## The hypotheses are met -/

def startSys : Sys :=
  { colors := true, noColor := false, posixlyCorrect := false, stdinTty := true, stdoutTty := true, stderrTty := false, nproc := 4, oniguruma := false }

/-- All flags and options are true. -/
def startLeaf (p : Prim) : Opt.Leaf :=
  if p.action || p.calls.any (fun c => c.2.head? = some (A "-name") || c.2.head? = some (A "-type")) then mainLeaf p else .true_

def startBehaviour : Behaviour := { mainBehaviour with leaf := startLeaf }

theorem start_tests : startBehaviour.Tests := by
  intro p hp k i
  show startLeaf p ≠ _
  unfold startLeaf
  split
  · exact main_tests p hp k i
  · intro h; cases h

/-- Is it accepted with these settings, and the path `a`? -/
def startOk (args : List String) (o : Options.Options) : Bool :=
  match parseCmdline cmdEnv startSys (args.map A) with
  | .ok (c, o') => decide (c.roots = [A "a"]) && decide (o' = o)
  | _ => false

/-- The files are `a`, `a/y`, `a/x` and `a/y/z`. -/
def startEnv (o : Options.Options) : Bftw.Env :=
  { walkEnv with
    post := has o.flags POST_ORDER, sort := has o.flags SORT, skipMounts := has o.flags SKIP_MOUNTS
    pruneMounts := has o.flags PRUNE_MOUNTS, strategy := o.strategy, nthreads := (o.threads - 1).toNat }

def startCtx (args : List String) (o : Options.Options) : Opt.Ctx Unit :=
  Opt.bfsOptimize (exEnv o.optlevel.toNat) (startBehaviour.ctx mainAnn (o.search fun _ => false) (mainCmd args))

def startRun (args : List String) (o : Options.Options) : Option (List Bftw.Event × Bool) :=
  wholeRun ((startBehaviour.cfg (o.search fun _ => false) (startCtx args o)).env (startEnv o))

def startOut (args : List String) (o : Options.Options) : List Effect :=
  startBehaviour.output (o.search fun _ => false) (startCtx args o) (startEnv o) ((startRun args o).getD ([], false)).1

/-- The search is one that C74 is about. -/
def startPlain (o : Options.Options) : Bool :=
  decide (o.files0 = none) && !o.unique && decide (0 < o.threads) && !(has o.flags POST_ORDER && has o.flags PRUNE_MOUNTS)

theorem start_named (o : Options.Options) : (startEnv o).Named := walkEnv_named

theorem start_found (o : Options.Options) (inside : Bftw.Pos → Prop) {p : Bftw.Pos} (h : Bftw.Found (startEnv o) inside p) :
    p = [0] ∨ p = [0, 0] ∨ p = [1, 0] ∨ p = [0, 0, 0] := by
  induction h with
  | root i h =>
    have : i < 1 := h
    obtain rfl : i = 0 := by omega
    exact .inl rfl
  | entry p j _ _ hj ih =>
    rcases ih with rfl | rfl | rfl | rfl
    · have : j < 2 := hj
      match j, this with
      | 0, _ => exact .inr (.inl rfl)
      | 1, _ => exact .inr (.inr (.inl rfl))
    · have : j < 1 := hj
      match j, this with
      | 0, _ => exact .inr (.inr (.inr rfl))
    · exact absurd hj (Nat.not_lt_zero _)
    · exact absurd hj (Nat.not_lt_zero _)

theorem start_distinct (o : Options.Options) {inside : Bftw.Pos → Prop} {p q : Bftw.Pos} (hp : Bftw.Found (startEnv o) inside p) (hq : Bftw.Found (startEnv o) inside q)
    (h : (startEnv o).fullPath p = (startEnv o).fullPath q) : p = q := by
  have k1 : (startEnv o).fullPath [0] = [97] := rfl
  have k2 : (startEnv o).fullPath [0, 0] = [97, 47, 121] := rfl
  have k3 : (startEnv o).fullPath [1, 0] = [97, 47, 120] := rfl
  have k4 : (startEnv o).fullPath [0, 0, 0] = [97, 47, 121, 47, 122] := rfl
  rcases start_found o _ hp with rfl | rfl | rfl | rfl <;> rcases start_found o _ hq with rfl | rfl | rfl | rfl <;>
    first | rfl | (simp [k1, k2, k3, k4] at h)

theorem start_started (args : List String) (o : Options.Options) (h : startOk args o = true) (hp : startPlain o = true) (hd : (startRun args o).isSome = true) :
    Started cmdEnv startSys startBehaviour (exEnv o.optlevel.toNat) mainAnn (fun _ => false) (startEnv o) (args.map A) (mainCmd args)
      o ((startRun args o).getD ([], false)).1 ((startRun args o).getD ([], false)).2 (startOut args o)
      (Main.exitStatus (startOut args o) ((startBehaviour.cfg (o.search fun _ => false) (startCtx args o)).status (startEnv o) ((startRun args o).getD ([], false)).1)) := by
  have key : ∃ c, parseCmdline cmdEnv startSys (args.map A) = .ok (c, o) ∧ c.roots = [A "a"] := by
    unfold startOk at h
    split at h
    · next c o' hc =>
      simp only [Bool.and_eq_true, decide_eq_true_eq] at h
      exact ⟨c, by rw [hc, ← h.2], h.1⟩
    · cases h
  simp only [startPlain, Bool.and_eq_true, decide_eq_true_eq, bne_iff_ne, Bool.not_eq_true', Bool.and_eq_false_iff] at hp
  obtain ⟨c, k1, k2⟩ := key
  have hw : whole (prim cmdEnv) (args.map A) = .ok c := (C45_iff _ _ _).2 ((C75_iff _ _ _ _ _).1 k1).1
  have hc : mainCmd args = c := by unfold mainCmd; rw [hw]
  have hf : o.files0 = none ∧ o.unique = false ∧ 0 < o.threads := ⟨hp.1.1.1, hp.1.1.2, hp.1.2⟩
  refine ⟨?_, hf.1, hf.2.1, rfl, rfl, rfl, rfl, rfl, rfl, ?_, ?_⟩
  · rw [hc]; exact k1
  · show (((o.threads - 1).toNat : Nat) : Int) = _
    have := hf.2.2
    omega
  · refine ⟨?_, ?_, ?_, ?_, rfl, rfl⟩
    · rw [hc]; exact hw
    · rw [hc, k2]; rfl
    · intro i root hi
      rw [hc, k2] at hi
      match i, hi with
      | 0, hi => cases hi; rfl
    · obtain ⟨tr, htr⟩ := Option.isSome_iff_exists.1 hd
      rw [htr]
      exact wholeRun_walked htr

theorem start_ordinary (o : Options.Options) (hp : startPlain o = true) : startBehaviour.Tests ∧ Ordinary (startEnv o) := by
  simp only [startPlain, Bool.and_eq_true, decide_eq_true_eq, bne_iff_ne, Bool.not_eq_true', Bool.and_eq_false_iff] at hp
  refine ⟨start_tests, start_named o, fun _ p q h1 h2 h => start_distinct o h1 h2 h, (fun _ h => by cases h), fun hpost => ?_⟩
  rcases hp.2 with h2 | h2
  · exact absurd (show has o.flags POST_ORDER = true from hpost) (by rw [h2]; decide)
  · exact h2

/-- The defaults, with `-O1`. -/
def startOpts : Options.Options :=
  { flags := RECOVER, strategy := .bfs, threads := 4, optlevel := 1, debug := 0, mindepth := 0, maxdepth := 2147483647
    xargsSafe := false, ignoreRaces := false, ignoreErrors := false, unique := false, status := false, warn := true, dangerous := false
    coutColors := true, cerrColors := false, regex := .posixBasic, files0 := none }

/-- The hypotheses of the theorems hold, and the search comes to this end, complete or not. -/
def startEnds (args : List String) (o : Options.Options) (out : List Effect) (complete : Bool) : Bool :=
  startOk args o && startPlain o && decide ((startRun args o).map (·.2) = some complete) && decide (startOut args o = out)

def startCase (args : List String) (o : Options.Options) (lines : List String) : Bool := startEnds args o (lines.map fun l => .write (A l ++ [10])) true

example : startCase ["-O1", "a"] startOpts ["a", "a/y", "a/x", "a/y/z"] = true := by decide +kernel
example : startCase ["a", "-O0", "-depth"] { startOpts with optlevel := 0, flags := RECOVER ||| POST_ORDER } ["a/x", "a/y/z", "a/y", "a"] = true := by decide +kernel
example : startCase ["-maxdepth", "7", "a", "-O1", "-mindepth", "1", "-name", "x", "-maxdepth", "1"] { startOpts with mindepth := 1, maxdepth := 1 } ["a/x"] = true := by
  decide +kernel

example : startCase ["a", "-sO1", "-j3"] { startOpts with threads := 3, flags := RECOVER ||| SORT } ["a", "a/x", "a/y", "a/y/z"] = true := by decide +kernel

example : startCase ["a", "-O1", "-S", "ids"] { startOpts with strategy := .ids } ["a", "a/y", "a/x", "a/y/z"] = true := by decide +kernel
example : startCase ["a", "-O1", "-S", "eds"] { startOpts with strategy := .eds } ["a", "a/y", "a/x", "a/y/z"] = true := by decide +kernel
example : startCase ["a", "-O1", "-S", "eds", "-depth"] { startOpts with strategy := .eds, flags := RECOVER ||| POST_ORDER } ["a/x", "a/y/z", "a/y", "a"] = true := by decide +kernel
example : startCase ["a", "-O1", "-S", "ids", "-depth", "-name", "x"] { startOpts with strategy := .ids, flags := RECOVER ||| POST_ORDER } ["a/x"] = true := by decide +kernel

/-- `-quit` ends the search, with any strategy. -/
example : startEnds ["a", "-O1", "-print", "-name", "x", "-quit"] startOpts [.write (A "a\n"), .write (A "a/y\n"), .write (A "a/x\n"), .stop] false = true := by decide +kernel
example : startEnds ["a", "-O1", "-S", "ids", "-print", "-name", "x", "-quit"] { startOpts with strategy := .ids }
    [.write (A "a\n"), .write (A "a/y\n"), .write (A "a/x\n"), .stop] false = true := by decide +kernel
example : startEnds ["a", "-O1", "-S", "eds", "-print", "-name", "x", "-quit"] { startOpts with strategy := .eds }
    [.write (A "a\n"), .write (A "a/y\n"), .write (A "a/x\n"), .stop] false = true := by decide +kernel

end search

/-- Many options, in some order. -/
example : startOk ["-LXD", "tree,stat", "-H", "a", "-maxdepth", "3", "-L", "-j2", "-nowarn", "-regextype", "sed", "-E", "-S", "eds", "-depth", "-noerror"]
    { startOpts with
      flags := RECOVER ||| FOLLOW_ALL ||| POST_ORDER ||| DETECT_CYCLES, strategy := .eds, threads := 2, optlevel := 3, debug := 96, maxdepth := 3
      xargsSafe := true, ignoreErrors := true, warn := false, regex := .posixExtended } = true := by decide +kernel

/-- Which values are not accepted? -/
def startRejected (args : List String) : Bool := match parseCmdline cmdEnv startSys (args.map A) with | .err _ => true | _ => false

example : startRejected ["-j0"] = true ∧ startRejected ["-maxdepth", "-1"] = true ∧ startRejected ["-maxdepth", "2147483648"] = true ∧ startRejected ["-Sbreadth"] = true ∧
    startRejected ["-regextype", "emacs"] = true ∧ startRejected ["-Ofaster"] = true ∧ startRejected ["-D", "tree,help"] = true ∧ startRejected ["-D", "tree,what"] = false := by
  decide +kernel

end Verif.Props
