import Verif.Lemmas.WholeOpt
import Verif.Lemmas.Numbering
import Verif.Props.Options
/-!
# The whole program: the theorems

C82: what is written when a command line is run, by what the manual says about its options, operators, tests and actions.
-/
namespace Verif.Props
open Verif Verif.Cmdline Verif.Whole
open Verif.Tests (Setting Test parseTest evalTest ArgsSane)
open Verif.Glob (Locale Ascii)
open Verif.Options (Started Sys Call)
open Verif.Main (Meaning Effect Ordinary NoActions)
open Verif.Num (SizeUnit)

/-- What is taken for granted: the locale, the files and the arguments are sane (see C76, C80 and C81), and the actions are those that are modelled. There is no support for
`-context`. -/
structure Usual (s : Setting) (w : Tests.World) (l : Locale) (pr : Printer) (e : Bftw.Env) (file : Bftw.Pos → Tests.File) (calls : List Call) : Prop where
  setting : s.Sane
  context : s.canContext = false
  ascii : Ascii l
  fnmatch : Fnmatches l w.libc
  files : Depicts e w pr file
  args : ∀ c ∈ calls, ArgsSane s w l c.2
  actions : OnlyThese calls
  /-- What `-delete` knows is what the options say. -/
  races : pr.ignoreRaces = true ↔ ∃ c, Options.last ["-ignore_readdir_race", "-noignore_readdir_race"] calls = some c ∧ c.is ["-ignore_readdir_race"] = true

section
variable {T : Type} {base : Cmdline.Env} {sys : Sys} {E : Opt.Env T} {a : Opt.Ann T} {gone : Bftw.Pos → Bool} {e : Bftw.Env} {args : List Arg} {cmd : Cmd} {o : Options.Options}
    {tr : List Bftw.Event} {complete : Bool} {out : List Effect} {status : Nat} {s : Setting} {N : Numbering} {w : Tests.World} {l : Locale} {pr : Printer} {file : Bftw.Pos → Tests.File}
    {never : Bftw.Pos → Opt.Leaf → Bool}

theorem whole_usable (hp : Parsed (prim (env s pr base)) args cmd) (hu : Usual s w l pr e file cmd.calls) :
    All (Usable s N w l pr) cmd.expr ∧ ∀ x ∈ cmd.excludes, All (Usable s N w l pr) x :=
  all_parsed hp fun _ _ _ h hc => ⟨what_prim h, fun c hm => hu.args c (hc c hm), fun c hm => hu.actions c (hc c hm)⟩

theorem whole_path (hu : Usual s w l pr e file cmd.calls) {p : Bftw.Pos} (hp : Exists e p) : (file p).buf.path = e.fullPath p := by
  rw [hu.files.buf p hp]
  exact bufAt_path e p (found_ne hp.1)

theorem whole_says (hp : Parsed (prim (env s pr base)) args cmd) (hu : Usual s w l pr e file cmd.calls) :
    Says s w l pr e file cmd (fun p => Main.meaning ((behaviour s N w pr file never).leafMeaning e p) cmd.expr)
      (fun p => cmd.excludes.any fun x => (Main.meaning ((behaviour s N w pr file never).leafMeaning e p) x).value) := by
  obtain ⟨h1, h2⟩ := whole_usable (N := N) hp hu
  constructor
  · intro p hpe
    exact expr_does hu.setting hu.ascii hu.fnmatch (hu.files.tests p hpe) (hu.files.printf p hpe) (whole_path hu hpe) _ h1
  · intro p hpe
    rw [List.any_eq_true]
    constructor
    · rintro ⟨x, hx, hv⟩
      exact ⟨x, hx, _, expr_does hu.setting hu.ascii hu.fnmatch (hu.files.tests p hpe) (hu.files.printf p hpe) (whole_path hu hpe) x (h2 x hx), hv⟩
    · rintro ⟨x, hx, m, hm, hv⟩
      refine ⟨x, hx, ?_⟩
      rw [← expr_unique hu.setting hu.ascii hu.fnmatch (hu.files.tests p hpe) (hu.files.printf p hpe) (whole_path hu hpe) x (h2 x hx) m hm]
      exact hv

theorem whole_right {b : Main.Behaviour} {o : Main.Settings} {files : List Bftw.Pos} (h : Main.Right b o e cmd files out) :
    Whole.Right (searchFor o (fun p => Main.meaning (b.leafMeaning e p) cmd.expr) (fun p => cmd.excludes.any fun x => (Main.meaning (b.leafMeaning e p) x).value)) e
      (fun p => Main.meaning (b.leafMeaning e p) cmd.expr) files out :=
  ⟨h.once, h.sound, h.output, h.pre, h.post, h.quit⟩

/-- Only the last thing that is done on a file can end the search. -/
theorem does_exit {p : Bftw.Pos} {f : Tests.File} {x : Cmdline.E} {m : Meaning} (h : Does s w l pr p f x m) :
    (m.quit = false → m.effects.filterMap Main.exitOf = []) ∧ ∀ n, .exit n ∈ m.effects → m.effects.filterMap Main.exitOf = [n] ∧ .stop ∈ m.effects := by
  have both : ∀ {m n : Meaning}, m.quit = false → ((m.quit = false → m.effects.filterMap Main.exitOf = []) ∧ ∀ k, .exit k ∈ m.effects → m.effects.filterMap Main.exitOf = [k] ∧ .stop ∈ m.effects) →
      ((n.quit = false → n.effects.filterMap Main.exitOf = []) ∧ ∀ k, .exit k ∈ n.effects → n.effects.filterMap Main.exitOf = [k] ∧ .stop ∈ n.effects) →
      (n.quit = false → (m.effects ++ n.effects).filterMap Main.exitOf = []) ∧ ∀ k, .exit k ∈ m.effects ++ n.effects → (m.effects ++ n.effects).filterMap Main.exitOf = [k] ∧ .stop ∈ m.effects ++ n.effects := by
    intro m n hq h1 h2
    have e := h1.1 hq
    rw [List.filterMap_append, e, List.nil_append]
    refine ⟨h2.1, fun k hk => ?_⟩
    rcases List.mem_append.1 hk with hk | hk
    · have := (h1.2 k hk).1
      rw [e] at this
      cases this
    · exact ⟨(h2.2 k hk).1, List.mem_append_right _ (h2.2 k hk).2⟩
  have plain : ∀ {out : List Effect}, (∀ x ∈ out, Main.exitOf x = none) → ∀ {quit : Bool}, (quit = false → out.filterMap Main.exitOf = []) ∧
      ∀ n, .exit n ∈ out → out.filterMap Main.exitOf = [n] ∧ .stop ∈ out := fun ho => ⟨fun _ => List.filterMap_eq_nil_iff.2 ho, fun n hn => by cases ho _ hn⟩
  induction h with
  | printf => exact plain (by intro x hx; revert hx; split <;> simp <;> (intro h; rcases h with rfl | rfl <;> rfl))
  | fprintf => exact plain (by intro x hx; revert hx; split <;> simp <;> (intro h; rcases h with rfl | rfl <;> rfl))
  | exit => exact ⟨(fun h => by cases h), fun n hn => (by simp at hn; subst hn; exact ⟨rfl, by simp⟩)⟩
  | exitWith => exact ⟨(fun h => by cases h), fun n hn => (by simp at hn; subst hn; exact ⟨rfl, by simp⟩)⟩
  | @deleteFails q i rm e effects h1 h2 h3 h4 h5 =>
    refine plain ?_
    by_cases hu : Unimportant pr f e
    · rw [h4 hu]; simp
    · rw [h5 hu]; simp [Main.exitOf]
  | not _ ih => exact ih
  | andNo _ hq _ ih => exact ⟨fun _ => ih.1 hq, ih.2⟩
  | andQuit _ hq ih => exact ⟨(fun h => by cases h), ih.2⟩
  | and _ hq _ _ ih1 ih2 => exact both hq ih1 ih2
  | orYes _ hq _ ih => exact ⟨fun _ => ih.1 hq, ih.2⟩
  | orQuit _ hq ih => exact ⟨(fun h => by cases h), ih.2⟩
  | or _ hq _ _ ih1 ih2 => exact both hq ih1 ih2
  | commaQuit _ hq ih => exact ih
  | comma _ hq _ ih1 ih2 => exact both hq ih1 ih2
  | _ => exact plain (by simp [Main.exitOf])

/-- The status of `-exit`. -/
theorem whole_exit {c : Bftw.Cfg} {does : Bftw.Pos → Meaning} {excluded : Bftw.Pos → Bool} {files : List Bftw.Pos} (hs : Says s w l pr e file cmd does excluded)
    (hr : Whole.Right c e does files out) (status : Nat) (n : Nat) (hn : .exit n ∈ out) : Main.exitStatus out status = n := by
  have hx : ∀ p ∈ files, _ := fun p hp => does_exit (hs.does p ⟨found_all (hr.sound p hp).found, (hr.sound p hp).known⟩)
  have hout := hr.output
  rw [hout] at hn
  obtain ⟨p, hp, hn⟩ := List.mem_flatMap.1 hn
  obtain ⟨k1, k2⟩ := (hx p hp).2 n hn
  have hlast := hr.quit p hp k2
  obtain ⟨init, hi⟩ : ∃ init, files = init ++ [p] := by
    obtain ⟨l, hl⟩ := List.getLast?_eq_some_iff.1 hlast
    exact ⟨l, hl⟩
  have hstop : .stop ∈ out := by rw [hout]; exact List.mem_flatMap.2 ⟨p, hp, k2⟩
  unfold Main.exitStatus
  rw [if_pos (by simpa using hstop), hout, hi, List.flatMap_append, List.filterMap_append]
  rw [List.flatMap_cons, List.flatMap_nil, List.append_nil, k1, List.getLast?_append]
  rfl

/-- **C82.** With `-O0` or `-O1`: the command line is read as the grammar says; the search is the one that its options ask for; and what is written, file by file, is what the manual
says that the expression does on these files. At the end of the search, nothing is missing; and if all tests have answers, the exit status is 0 unless there was trouble. If `-exit`
ended the search, the exit status is the one that it asked for. -/
theorem C82_output (h : Started (env s pr base) sys (behaviour s N w pr file never) E a gone e args cmd o tr complete out status) (hl : E.level ≤ 1) (he : Ordinary e)
    (hu : Usual s w l pr e file cmd.calls) :
    Parsed (prim (env s pr base)) args cmd ∧ ∃ settings, Asked sys cmd.calls e E.level settings ∧ ∃ does excluded, Says s w l pr e file cmd does excluded ∧
      ∃ files, Whole.Right (searchFor settings does excluded) e does files out ∧
        (complete = true → (∀ p, (searchFor settings does excluded).Target e p → (does p).effects ≠ [] → p ∈ files) ∧
          (Answered s w l e file cmd.calls → (status = 0 ↔ settings.ignoreErrors = true ∨ ∀ p, ¬ (searchFor settings does excluded).Trouble e p))) ∧
        ∀ n, .exit n ∈ out → status = n := by
  obtain ⟨hp, settings, h1, files, h2, h3⟩ := C75_search h hl behaviour_tests he
  refine ⟨hp, settings, h1, _, _, whole_says hp hu, files, whole_right h2, fun hd => ⟨(h3 hd).1, fun _ => (h3 hd).2⟩, fun n hn => ?_⟩
  rw [h.ran.status_eq]
  exact whole_exit (whole_says hp hu) (whole_right h2) _ n hn

/-- **C82 (optimized), partial.** The same with more optimizations, as by default, for the expressions for which these are right (see C02), if no test fails. Up to
`-O3`, the default, the exit status is 0 unless there was trouble. With `-O4` it is 0 without trouble; and if it is 0, no action has failed, and any trouble was so deep that nothing could
have been done deeper still (see `C74_status_counterexample`). -/
theorem C82_output_optimized_partial (h : Started (env s pr base) sys (behaviour s N w pr file (fallback s N w file)) E a gone e args cmd o tr complete out status) (hl : 2 ≤ E.level)
    (he : Ordinary e) (hu : Usual s w l pr e file cmd.calls) (hf : ∀ p, Regular w (file p)) (hd : ∀ p, (file p).buf.depth = Bftw.depth p) {unit : SizeUnit} {owners : Spec.Opt.Owners}
    (hs : ∀ c ∈ cmd.calls, ∀ t n, parseTest s c.2 = .ok (t, n) → Safe owners file unit E.level t) (hc : CommaFree cmd.expr ∧ ∀ x ∈ cmd.excludes, CommaFree x) :
    Parsed (prim (env s pr base)) args cmd ∧ ∃ settings, Asked sys cmd.calls e E.level settings ∧ ∃ does excluded, Says s w l pr e file cmd does excluded ∧
      ∃ files, Whole.Right (searchFor settings does excluded) e does files out ∧
        (complete = true → (∀ p, (searchFor settings does excluded).Target e p → (does p).effects ≠ [] → p ∈ files) ∧
          (E.level ≤ 3 → (status = 0 ↔ settings.ignoreErrors = true ∨ ∀ p, ¬ (searchFor settings does excluded).Trouble e p)) ∧
          ((settings.ignoreErrors = true ∨ ∀ p, ¬ (searchFor settings does excluded).Trouble e p) → status = 0) ∧
          (status = 0 → settings.ignoreErrors = true ∨
            ((∀ p, (searchFor settings does excluded).Target e p → .error ∉ (does p).effects) ∧
              ∀ p, (searchFor settings does excluded).Trouble e p → Main.Idle (searchFor settings does excluded) (fun q => (does q).effects) p))) ∧
        ∀ n, .exit n ∈ out → status = n := by
  obtain ⟨hp, _, hsane⟩ := started_asked h
  have hsafe : All (SafeCall owners s file unit E.level) cmd.expr ∧ ∀ x ∈ cmd.excludes, All (SafeCall owners s file unit E.level) x :=
    all_parsed hp fun _ _ _ _ hcalls c hm t n ht => hs c (hcalls c hm) t n ht
  obtain ⟨hp, settings, h1, files, h2, h3⟩ := C75_search_optimized_partial h hl behaviour_tests he (f := fun p => attributes s N w (file p)) (unit := unitBytes unit) fun settings hset => by
    have hmax : settings.maxdepth < 2 ^ 31 := by
      rcases hset.maxdepth with ⟨_, h2⟩ | ⟨_, _, _, _, h2⟩
      · rw [h2]; decide
      · exact (natural_range h2).2
    exact have_attributes hmax hf hd hsafe hc
  refine ⟨hp, settings, h1, _, _, whole_says hp hu, files, whole_right h2, h3, fun n hn => ?_⟩
  rw [h.ran.status_eq]
  exact whole_exit (whole_says hp hu) (whole_right h2) _ n hn

/-- **C82 (unique).** What the manual says has one meaning only: whether an expression is true of a file, whether the search ends there, and what is done are determined. -/
theorem C82_unique (hp : Parsed (prim (env s pr base)) args cmd) (hu : Usual s w l pr e file cmd.calls) (p : Bftw.Pos) (hpe : Exists e p) (x : Cmdline.E) (hx : x = cmd.expr ∨ x ∈ cmd.excludes) :
    ∃ m, Does s w l pr p (file p) x m ∧ ∀ m', Does s w l pr p (file p) x m' → m' = m := by
  obtain ⟨N⟩ : Nonempty Numbering := ⟨numbering⟩
  obtain ⟨h1, h2⟩ := whole_usable (N := N) hp hu
  have hall : All (Usable s N w l pr) x := by
    rcases hx with rfl | hx
    · exact h1
    · exact h2 x hx
  exact ⟨_, expr_does (never := fun _ _ => false) hu.setting hu.ascii hu.fnmatch (hu.files.tests p hpe) (hu.files.printf p hpe) (whole_path hu hpe) x hall,
    fun m hm => expr_unique (never := fun _ _ => false) (e := e) hu.setting hu.ascii hu.fnmatch (hu.files.tests p hpe) (hu.files.printf p hpe) (whole_path hu hpe) x hall m hm⟩

theorem whole_lines {b : Main.Behaviour} {settings : Main.Settings} (ht : b.Tests) {x : Cmdline.E} (hx : NoActions x) (hc : cmd.expr = .and x (.leaf .print)) {P : Bftw.Pos → Prop}
    (hP : ∀ p, Exists e p → (P p ↔ (Main.meaning (b.leafMeaning e p) x).value = true)) {files : List Bftw.Pos} (hr : Main.Right b settings e cmd files out) (hco : Main.Complete b settings e cmd files) :
    ∃ lines : List Bftw.Pos, out = lines.map (fun p => .write (e.fullPath p ++ [10])) ∧ lines.Nodup ∧ (∀ p, p ∈ lines ↔ (b.asked settings e cmd).Target e p ∧ P p) ∧
      (e.post = false → lines.Pairwise fun earlier later => ¬ later <:+ earlier) ∧ (e.post = true → lines.Pairwise fun earlier later => ¬ earlier <:+ later) := by
  obtain ⟨lines, h1, h2, h3, h4⟩ := right_lines ht hx hc hr hco
  refine ⟨lines, h1, h2, fun p => ?_, h4⟩
  rw [h3]
  constructor
  · rintro ⟨k1, k2⟩
    exact ⟨k1, (hP p ⟨found_all k1.found, k1.known⟩).2 k2⟩
  · rintro ⟨k1, k2⟩
    exact ⟨k1, (hP p ⟨found_all k1.found, k1.known⟩).1 k2⟩

/-- **C82 (tests).** If there are only tests in the expression, a complete search prints exactly one line for each file that was asked for and of which the tests are true, by the
manual. -/
theorem C82_lines (h : Started (env s pr base) sys (behaviour s N w pr file never) E a gone e args cmd o tr true out status) (hl : E.level ≤ 1) (he : Ordinary e)
    (hu : Usual s w l pr e file cmd.calls) {x : Cmdline.E} (hx : NoActions x) (hc : cmd.expr = .and x (.leaf .print)) :
    ∃ settings, Asked sys cmd.calls e E.level settings ∧ ∃ does excluded, Says s w l pr e file cmd does excluded ∧
      ∃ lines : List Bftw.Pos, out = lines.map (fun p => .write (e.fullPath p ++ [10])) ∧ lines.Nodup ∧
        (∀ p, p ∈ lines ↔ (searchFor settings does excluded).Target e p ∧ Holds s w l (file p) x) ∧
        (e.post = false → lines.Pairwise fun earlier later => ¬ later <:+ earlier) ∧ (e.post = true → lines.Pairwise fun earlier later => ¬ earlier <:+ later) := by
  obtain ⟨hp, settings, h1, files, h2, h3⟩ := C75_search h hl behaviour_tests he
  have hall := (whole_usable (N := N) hp hu).1
  rw [hc] at hall
  exact ⟨settings, h1, _, _, whole_says hp hu, whole_lines behaviour_tests hx hc (P := fun p => Holds s w l (file p) x)
    (fun p hpe => expr_holds hu.setting hu.ascii hu.fnmatch (hu.files.tests p hpe) x hall.1 hx) h2 (h3 rfl).1⟩

/-- **C82 (tests), partial.** The same with more optimizations. -/
theorem C82_lines_optimized_partial (h : Started (env s pr base) sys (behaviour s N w pr file (fallback s N w file)) E a gone e args cmd o tr true out status) (hl : 2 ≤ E.level)
    (he : Ordinary e) (hu : Usual s w l pr e file cmd.calls) (hf : ∀ p, Regular w (file p)) (hdepth : ∀ p, (file p).buf.depth = Bftw.depth p) {unit : SizeUnit} {owners : Spec.Opt.Owners}
    (hs : ∀ c ∈ cmd.calls, ∀ t n, parseTest s c.2 = .ok (t, n) → Safe owners file unit E.level t) (hcf : CommaFree cmd.expr ∧ ∀ x ∈ cmd.excludes, CommaFree x)
    {x : Cmdline.E} (hx : NoActions x) (hc : cmd.expr = .and x (.leaf .print)) :
    ∃ settings, Asked sys cmd.calls e E.level settings ∧ ∃ does excluded, Says s w l pr e file cmd does excluded ∧
      ∃ lines : List Bftw.Pos, out = lines.map (fun p => .write (e.fullPath p ++ [10])) ∧ lines.Nodup ∧
        (∀ p, p ∈ lines ↔ (searchFor settings does excluded).Target e p ∧ Holds s w l (file p) x) ∧
        (e.post = false → lines.Pairwise fun earlier later => ¬ later <:+ earlier) ∧ (e.post = true → lines.Pairwise fun earlier later => ¬ earlier <:+ later) := by
  obtain ⟨hp, _, hsane⟩ := started_asked h
  have hsafe : All (SafeCall owners s file unit E.level) cmd.expr ∧ ∀ x ∈ cmd.excludes, All (SafeCall owners s file unit E.level) x :=
    all_parsed hp fun _ _ _ _ hcalls c hm t n ht => hs c (hcalls c hm) t n ht
  obtain ⟨hp, settings, h1, files, h2, h3⟩ := C75_search_optimized_partial h hl behaviour_tests he (f := fun p => attributes s N w (file p)) (unit := unitBytes unit) fun settings hset => by
    have hmax : settings.maxdepth < 2 ^ 31 := by
      rcases hset.maxdepth with ⟨_, h2⟩ | ⟨_, _, _, _, h2⟩
      · rw [h2]; decide
      · exact (natural_range h2).2
    exact have_attributes hmax hf hdepth hsafe hcf
  have hall := (whole_usable (N := N) hp hu).1
  rw [hc] at hall
  exact ⟨settings, h1, _, _, whole_says hp hu, whole_lines behaviour_tests hx hc (P := fun p => Holds s w l (file p) x)
    (fun p hpe => expr_holds hu.setting hu.ascii hu.fnmatch (hu.files.tests p hpe) x hall.1 hx) h2 (h3 rfl).1⟩

end

/-! ## The hypotheses are met -/

/-- Commands fail for `a/y/z`; `false` cannot be run. `a/x` cannot be deleted. -/
def printer82 : Printer where
  env := ⟨true, true⟩
  w := w76
  target := fun _ => .ok .reg
  entry := fun p => .ok (if walkEnv.isDir p then .dir else .reg)
  run := fun p _ argv => if argv.head? = some (A "false") then .error 2 else .ran (p != [0, 0, 0])
  unlink := fun p _ => if p = [1, 0] then .error 13 else .ok ()
  ignoreRaces := false

/-- The files are `a`, `a/y`, `a/x` and `a/y/z`. All are small but `a/x`. -/
def file82 (p : Bftw.Pos) : Tests.File :=
  { file80 (.ok (sb80 (if p = [1, 0] then 2000 else 10) 7)) with
    buf := if p = [] then Path.rootBuf [97] else bufAt walkEnv p, type := if walkEnv.isDir p then .dir else .reg, other := .ok (if walkEnv.isDir p then .dir else .reg) }

theorem file82_found {o : Options.Options} {p : Bftw.Pos} (h : Bftw.Found (startEnv o) (fun _ => True) p) : p = [0] ∨ p = [0, 0] ∨ p = [1, 0] ∨ p = [0, 0, 0] :=
  start_found o _ h

theorem name82 (p : Bftw.Pos) : walkEnv.name p ≠ [] ∧ 47 ∉ walkEnv.name p := by
  simp only [walkEnv]
  split <;> simp

theorem file82_walked : ∀ p, p ≠ [] → Path.Walked (bufAt walkEnv p) ∧ (bufAt walkEnv p).depth = Bftw.depth p
  | [], h => absurd rfl h
  | [i], _ => ⟨.root _ (name82 [i]).1, rfl⟩
  | i :: j :: p, _ => by
    have ih := file82_walked (j :: p) (by simp)
    refine ⟨.child _ _ ih.1 (name82 _).1 (name82 _).2, ?_⟩
    · show (bufAt walkEnv (j :: p)).depth + 1 = _
      rw [ih.2]
      rfl

theorem file82_buf (p : Bftw.Pos) : Path.Walked (file82 p).buf ∧ (file82 p).buf.depth = Bftw.depth p := by
  show Path.Walked (if p = [] then _ else _) ∧ (if p = [] then _ else _ : Path.Buf).depth = _
  by_cases h : p = []
  · subst h; exact ⟨.root _ (by simp), rfl⟩
  · rw [if_neg h]; exact file82_walked p h

theorem file82_sane (w : Tests.World) (hu : ∀ n, ∃ b, w.user n = .ok b) (hg : ∀ n, ∃ b, w.group n = .ok b) (p : Bftw.Pos) : (file82 p).Sane w where
  walked := (file82_buf p).1
  slash := by
    rw [(file82_buf p).2]
    match p with
    | [] => intro _; show (some (97 : UInt8)) ≠ _; decide
    | [i] => intro _ h; exact (name82 [i]).2 (List.mem_of_getLast? h)
    | i :: j :: p => intro h; exact absurd h (Nat.succ_ne_zero _)
  type := by
    show (if walkEnv.isDir p = true then Stat.FType.dir else .reg) ≠ .error ∧ ∀ t, Except.ok (if walkEnv.isDir p = true then Stat.FType.dir else .reg) = .ok t → t ≠ .error
    have h : (if walkEnv.isDir p = true then Stat.FType.dir else .reg) ≠ .error := by split <;> decide
    exact ⟨h, fun t ht => by injection ht with ht; rw [← ht]; exact h⟩
  ino := fun sb h => by injection h with h; subst h; show (7 : Nat) < _; decide
  nlink := fun sb h => by injection h with h; subst h; show (1 : Nat) < _; decide
  mode := fun sb h => by injection h with h; subst h; show (0o100644 : Nat) < _; decide
  size := fun sb h => by
    injection h with h
    subst h
    show 0 ≤ (if p = [1, 0] then 2000 else 10 : Int) ∧ (if p = [1, 0] then 2000 else 10 : Int) ≤ _
    split <;> decide
  times := fun sb x h _ => by injection h with h; subst h; show Tests.Recent ⟨1700000000, 5⟩; unfold Tests.Recent; decide
  user := fun sb _ => hu _
  group := fun sb _ => hg _

theorem file82_regular (w : Tests.World) (hu : ∀ n, ∃ b, w.user n = .ok b) (hg : ∀ n, ∃ b, w.group n = .ok b) (p : Bftw.Pos) : Regular w (file82 p) :=
  ⟨file82_sane w hu hg p, ⟨_, rfl, by show (1000 : Nat) < 2 ^ 63; decide, by show (100 : Nat) < 2 ^ 63; decide⟩, .inl ⟨_, rfl⟩⟩

theorem file82_printf {o : Options.Options} {p : Bftw.Pos} (h : Bftw.Found (startEnv o) (fun _ => True) p) : Directive.Sane printer82.w (asPrinted printer82 p (file82 p)) where
  root := by rcases file82_found h with rfl | rfl | rfl | rfl <;> decide
  nameoff := by rcases file82_found h with rfl | rfl | rfl | rfl <;> decide
  slash := by rcases file82_found h with rfl | rfl | rfl | rfl <;> decide
  dev := fun sb h => by injection h with h; subst h; show (1 : Nat) < _ ∧ (7 : Nat) < _ ∧ (1 : Nat) < _ ∧ (100 : Nat) < _ ∧ (1000 : Nat) < _; decide
  size := fun sb h => by
    injection h with h
    subst h
    show 0 ≤ (if p = [1, 0] then 2000 else 10 : Int) ∧ (if p = [1, 0] then 2000 else 10 : Int) < _ ∧ 0 ≤ (8 : Int) ∧ 512 * (8 : Int) < _
    split <;> decide
  time := fun sb field h _ => by
    injection h with h
    subst h
    show -2 ^ 63 ≤ (1700000000 : Int) ∧ (1700000000 : Int) < 2 ^ 63 ∧ 0 ≤ (5 : Int) ∧ (5 : Int) < 1000000000
    decide
  tm := sane76.tm
  strftime := sane76.strftime

theorem depicts82 (o : Options.Options) (w : Tests.World) (hu : ∀ n, ∃ b, w.user n = .ok b) (hg : ∀ n, ∃ b, w.group n = .ok b) : Depicts (startEnv o) w printer82 file82 where
  buf := fun p h => by rcases file82_found h.1 with rfl | rfl | rfl | rfl <;> rfl
  tests := fun p _ => file82_sane w hu hg p
  printf := fun _ h => file82_printf h.1

/-- Arguments like these are sane. -/
def args82 (args : List Tests.Bytes) : Bool :=
  (match args[1]? with
    | none => true
    | some a => decide ((Num.parseTime a).map (·.2.2) ≠ some .seconds) && (match Date.xgetdate setting80.xmktime a with | .err _ => true | _ => false) && (match Perm.parsePerm 0o022 a with | .err _ => true | _ => false)) &&
  (match args[0]? with | none => true | some name => decide (name ∉ [A "-iname", A "-ipath", A "-iwholename", A "-ilname"]))

theorem args82_sane (w : Tests.World) (args : List Tests.Bytes) (h : args82 args = true) : ArgsSane setting80 w posix81 args := by
  unfold args82 at h
  rw [Bool.and_eq_true] at h
  obtain ⟨h1, h2⟩ := h
  refine ⟨?_, ?_, ?_, ?_⟩
  · intro a cmp body n ha k1 k2
    rw [ha] at h1
    simp only [Bool.and_eq_true, decide_eq_true_eq] at h1
    have := (C34_argument_partial a cmp (if n < 2 ^ 63 then (n : Int) else Num.toI64 n) .seconds).2 ⟨body, k1, .inr ⟨rfl, n, k2, fun h => if_pos h, fun h => if_neg (by omega)⟩⟩
    rw [this] at h1
    exact absurd rfl h1.1.1
  · intro a t ha k
    rw [ha] at h1
    simp only [Bool.and_eq_true, decide_eq_true_eq] at h1
    rw [Tests.instant_ok k] at h1
    cases h1.1.2
  · intro a cmp c cs ha k
    exfalso
    rw [ha] at h1
    simp only [Bool.and_eq_true, decide_eq_true_eq] at h1
    obtain ⟨file, dir, hm⟩ : ∃ file dir, Perm.parseMode 0o022 (Perm.text c cs) = .ok (file, dir) := (C35_grammar 0o022 _ (C35_disjoint c cs)).2 ⟨c, cs, rfl⟩
    rw [(C36_prefix 0o022 a cmp file dir).2 ⟨_, Tests.comparison_iff.2 k, hm⟩] at h1
    cases h1.2
  · intro name g hn hm
    rw [hn] at h2
    simp only [decide_eq_true_eq] at h2
    exact absurd hm h2

def only82 (calls : List Call) : Bool :=
  calls.all fun c => match Cmdline.table[c.1]? with
    | none => true
    | some e => decide (e.kind ≠ .action) || c.is ["-print", "-print0", "-printf", "-printx", "-fprint", "-fprint0", "-fprintf", "-prune", "-quit", "-exit", "-delete", "-rm"] ||
        (c.is ["-exec", "-execdir"] && decide (c.2.getLast? = some (A ";")))

theorem only82_these {calls : List Call} (h : only82 calls = true) : OnlyThese calls := by
  intro c hc e he hk
  have := List.all_eq_true.1 h c hc
  rw [he] at this
  simp only [hk, Bool.or_eq_true, Bool.and_eq_true, decide_eq_true_eq] at this
  rcases this with (h | h) | h
  · exact absurd rfl h
  · exact .inl h
  · exact .inr h

def cmd82 (args : List String) : Cmd :=
  match whole (prim (env setting80 printer82 cmdEnv)) (args.map A) with
  | .ok c => c
  | _ => ⟨.leaf .yes, [], [], []⟩

def ok82 (args : List String) (o : Options.Options) : Bool :=
  match Options.parseCmdline (env setting80 printer82 cmdEnv) startSys (args.map A) with
  | .ok (c, o') => decide (c.roots = [A "a"]) && decide (o' = o)
  | _ => false

/-- The hypotheses about a command line and its settings. -/
def fine82 (args : List String) (o : Options.Options) : Bool :=
  ok82 args o && startPlain o && (Options.last ["-ignore_readdir_race", "-noignore_readdir_race"] (cmd82 args).calls).isNone && only82 (cmd82 args).calls && (cmd82 args).calls.all fun c => args82 c.2

noncomputable section

def behaviour82 : Main.Behaviour := behaviour setting80 numbering world80 printer82 file82 (fallback setting80 numbering world80 file82)

def ctx82 (args : List String) (o : Options.Options) : Opt.Ctx Unit := Opt.bfsOptimize (exEnv o.optlevel.toNat) (behaviour82.ctx mainAnn (o.search fun _ => false) (cmd82 args))

def run82 (args : List String) (o : Options.Options) : Option (List Bftw.Event × Bool) := wholeRun ((behaviour82.cfg (o.search fun _ => false) (ctx82 args o)).env (startEnv o))

def out82 (args : List String) (o : Options.Options) : List Effect := behaviour82.output (o.search fun _ => false) (ctx82 args o) (startEnv o) ((run82 args o).getD ([], false)).1

def status82 (args : List String) (o : Options.Options) : Nat :=
  Main.exitStatus (out82 args o) ((behaviour82.cfg (o.search fun _ => false) (ctx82 args o)).status (startEnv o) ((run82 args o).getD ([], false)).1)

theorem started82 (args : List String) (o : Options.Options) (h : fine82 args o = true) (hd : (run82 args o).isSome = true) :
    Started (env setting80 printer82 cmdEnv) startSys behaviour82 (exEnv o.optlevel.toNat) mainAnn (fun _ => false) (startEnv o) (args.map A) (cmd82 args) o ((run82 args o).getD ([], false)).1 ((run82 args o).getD ([], false)).2 (out82 args o)
      (status82 args o) ∧
    Ordinary (startEnv o) ∧ Usual setting80 world80 posix81 printer82 (startEnv o) file82 (cmd82 args).calls ∧ (∀ p, Regular world80 (file82 p)) ∧
    ∀ p, (file82 p).buf.depth = Bftw.depth p := by
  unfold fine82 at h
  rw [Bool.and_eq_true, Bool.and_eq_true, Bool.and_eq_true, Bool.and_eq_true] at h
  obtain ⟨⟨⟨⟨h, hp⟩, hr⟩, ho⟩, ha⟩ := h
  have hu : ∀ n, ∃ b, world80.user n = .ok b := fun n => ⟨true, rfl⟩
  have hg : ∀ n, ∃ b, world80.group n = .ok b := fun n => ⟨true, rfl⟩
  refine ⟨?_, (start_ordinary o hp).2, ⟨setting80_sane, rfl, posix81_ascii, libc81_fnmatches _ _, depicts82 o world80 hu hg, fun c hc => args82_sane _ _ (List.all_eq_true.1 ha c hc),
    only82_these ho, ⟨(fun h => by cases h), (fun ⟨c, hc, _⟩ => by rw [hc] at hr; cases hr)⟩⟩, file82_regular world80 hu hg, fun p => (file82_buf p).2⟩
  have key : ∃ c, Options.parseCmdline (env setting80 printer82 cmdEnv) startSys (args.map A) = .ok (c, o) ∧ c.roots = [A "a"] := by
    unfold ok82 at h
    split at h
    · next c o' hc =>
      simp only [Bool.and_eq_true, decide_eq_true_eq] at h
      exact ⟨c, by rw [hc, ← h.2], h.1⟩
    · cases h
  simp only [startPlain, Bool.and_eq_true, decide_eq_true_eq, bne_iff_ne, Bool.not_eq_true', Bool.and_eq_false_iff] at hp
  obtain ⟨c, k1, k2⟩ := key
  have hw : whole (prim (env setting80 printer82 cmdEnv)) (args.map A) = .ok c := (C45_iff _ _ _).2 ((C75_iff _ _ _ _ _).1 k1).1
  have hc : cmd82 args = c := by unfold cmd82; rw [hw]
  have hf : o.files0 = none ∧ o.unique = false ∧ 0 < o.threads := ⟨hp.1.1.1, hp.1.1.2, hp.1.2⟩
  refine ⟨?_, hf.1, hf.2.1, rfl, rfl, rfl, rfl, rfl, rfl, ?_, ?_⟩
  · rw [hc]; exact k1
  · show (((o.threads - 1).toNat : Nat) : Int) = _
    have := hf.2.2
    omega
  · refine ⟨?_, ?_, ?_, ?_, rfl, rfl⟩
    · rw [hc]; exact hw
    · rw [hc, k2]; rfl
    · intro i root hi
      rw [hc, k2] at hi
      match i, hi with
      | 0, hi => cases hi; rfl
    · obtain ⟨tr, htr⟩ := Option.isSome_iff_exists.1 hd
      rw [htr]
      exact wholeRun_walked htr

/-- The hypotheses hold, and the search comes to this end. -/
def ends82 (args : List String) (o : Options.Options) (out : List Effect) (status : Nat) (complete : Bool := true) : Bool :=
  fine82 args o && decide ((run82 args o).map (·.2) = some complete) && decide (out82 args o = out) && decide (status82 args o = status)

def case82 (args : List String) (o : Options.Options) (lines : List String) : Bool := ends82 args o (lines.map fun l => .write (A l ++ [10])) 0

example : case82 ["-O1", "a", "-size", "+1k", "-o", "-type", "d", "-printf", "%s %p\n"] startOpts ["10 a", "10 a/y"] = true := by decide +kernel
example : case82 ["a", "-O1", "-size", "+1k"] startOpts ["a/x"] = true := by decide +kernel
/-- Commands, in the directory where bfs runs, or in those of the files. The last fails, so it is not printed. -/
example : ends82 ["-O1", "a", "-type", "f", "-exec", "rm", "-v{}", "{}", ";", "-print0"] { startOpts with dangerous := true }
    [.run [A "rm", A "-va/x", A "a/x"] none, .write (A "a/x" ++ [0]), .run [A "rm", A "-va/y/z", A "a/y/z"] none] 0 = true := by decide +kernel
example : ends82 ["-O1", "a", "-type", "f", "-execdir", "rm", "{}", ";"] { startOpts with dangerous := true }
    [.run [A "rm", A "./x"] (some (A "a/")), .run [A "rm", A "./z"] (some (A "a/y/"))] 0 = true := by decide +kernel
example : ends82 ["-O1", "a", "-size", "+1k", "-exec", "false", ";", "-o", "-type", "f", "-print0"] { startOpts with dangerous := true }
    [.error, .write (A "a/x" ++ [0]), .write (A "a/y/z" ++ [0])] 1 = true := by decide +kernel
/-- From the bottom up. -/
example : ends82 ["-O1", "a", "-delete"] { startOpts with dangerous := true, flags := startOpts.flags ||| Options.POST_ORDER }
    [.error, .unlink (A "a/y/z") false, .unlink (A "a/y") true, .unlink (A "a") true] 1 = true := by decide +kernel
/-- By iterative and exponential deepening. -/
example : ends82 ["-O1", "a", "-delete", "-S", "ids"] { startOpts with dangerous := true, flags := startOpts.flags ||| Options.POST_ORDER, strategy := .ids }
    [.unlink (A "a/y/z") false, .unlink (A "a/y") true, .error, .unlink (A "a") true] 1 = true := by decide +kernel
example : case82 ["a", "-O1", "-S", "eds", "-printf", "%s %p\n"] { startOpts with strategy := .eds } ["10 a", "10 a/y", "2000 a/x", "10 a/y/z"] = true := by decide +kernel
/-- `-quit` ends it. -/
example : ends82 ["-O1", "a", "-S", "ids", "-type", "f", "-print0", "-quit"] { startOpts with strategy := .ids } [.write (A "a/x" ++ [0]), .stop] 0 (complete := false) = true := by decide +kernel
/-- With a status. -/
example : ends82 ["-O1", "a", "-printx", "-type", "f", "-exit", "9"] startOpts [.write (A "a" ++ [10]), .write (A "a/y" ++ [10]), .write (A "a/x" ++ [10]), .exit 9, .stop] 9 (complete := false) = true := by
  decide +kernel
example : ends82 ["-O1", "a", "-size", "+1k", "-exec", "false", ";", "-o", "-type", "f", "-exit"] { startOpts with dangerous := true } [.error, .exit 0, .stop] 0 (complete := false) = true := by
  decide +kernel
/-- To files. -/
example : ends82 ["-O1", "a", "-size", "+1k", "-fprint", "x", "-fprint0", "y", "-fprintf", "z", "%s\n"] startOpts
    [.writeTo (A "x") (A "a/x" ++ [10]), .writeTo (A "y") (A "a/x" ++ [0]), .writeTo (A "z") (A "2000" ++ [10])] 0 = true := by decide +kernel
/-- With the usual optimizations. -/
example : case82 ["a", "-user", "me", "-printf", "%f %s\n"] { startOpts with optlevel := 3 } ["a 10", "y 10", "x 2000", "z 10"] = true := by decide +kernel
example : case82 ["a", "-O2", "-user", "me", "!", "-size", "+1k", "-printf", "%f %s\n"] { startOpts with optlevel := 2 } ["a 10", "y 10", "z 10"] = true := by decide +kernel
example : case82 ["a", "!", "-size", "+1k", "-printf", "%f %s\n"] { startOpts with optlevel := 3 } ["a 10", "y 10", "z 10"] = true := by decide +kernel

def owners82 : Spec.Opt.Owners := ⟨some 1000, none⟩

/-- Which tests are safe? -/
def safe82 (args : List String) : Bool := (cmd82 args).calls.all fun c => match parseTest setting80 c.2 with
  | .ok (.size _ _ u, _) => decide (u = .kb)
  | .ok (.type _, _) => true
  | .ok (.uid cmp n, _) => decide (cmp = .eq) && decide (n = 1000)
  | .ok _ => false
  | _ => true

theorem safe82_safe {args : List String} (h : safe82 args = true) (level : Nat) :
    ∀ c ∈ (cmd82 args).calls, ∀ t n, parseTest setting80 c.2 = .ok (t, n) → Safe owners82 file82 .kb level t := by
  intro c hc t n ht
  have := List.all_eq_true.1 h c hc
  rw [ht] at this
  cases t with
  | uid cmp k =>
    simp only [Bool.and_eq_true, decide_eq_true_eq] at this
    obtain ⟨rfl, rfl⟩ := this
    exact ⟨rfl, rfl, by decide, by decide⟩
  | _ => first | trivial | (simpa [Safe] using this) | (cases this)

example : safe82 ["a", "-user", "me", "-printf", "%f %s\n"] = true := by decide +kernel
example : safe82 ["a", "-O2", "-user", "me", "!", "-size", "+1k", "-printf", "%f %s\n"] = true := by decide +kernel
example : safe82 ["a", "!", "-size", "+1k", "-printf", "%f %s\n"] = true := by decide +kernel

end

end Verif.Props
