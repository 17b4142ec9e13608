import Verif.Spec.Roots
import Verif.Lemmas.CmdMain
import Verif.Lemmas.Io
import Verif.Props.Options
import Verif.Props.Io
/-!
# C106 — where the search begins
-/
namespace Verif.Props
open Verif.Roots
open Verif.Cmdline
open Verif.Options (Sys Call last NextValue parseCmdline configure defaults detectCycles)

variable {env : Env} {sys : Sys} {w : Files} {args : List Arg} {cmd : Cmd} {o : Options.Options}

theorem whole106 (pr : List Arg → Out Prim) (args : List Arg) : whole pr args = (toEnd pr args).bind fun r => finish r.1 r.2 := by
  unfold whole toEnd
  by_cases h : (skipPaths (start args)).args = []
  · rw [if_pos h, if_pos h]; rfl
  · rw [if_neg h, if_neg h]

theorem toEnd106 {pr : List Arg → Out Prim} (hp : PrimOk pr) {e : E} {st : St} (h : toEnd pr args = .ok (e, st)) (ha : st.args = []) : ∃ toks, Lex pr false args toks st.roots := by
  have hsk : (skipPaths (start args)).args = (skipArgs false args).2 := rfl
  have hsr : (skipPaths (start args)).roots = (skipArgs false args).1 := rfl
  unfold toEnd at h
  by_cases hn : (skipPaths (start args)).args = []
  · rw [if_pos hn] at h
    cases h
    have : Lex pr false (skipArgs false args).2 [] [] := by rw [hsk] at hn; rw [hn]; exact .done false
    have := lex_unskip this
    rw [List.append_nil] at this; exact ⟨_, this⟩
  · rw [if_neg hn] at h
    obtain ⟨us, t, ps, l, g, hm, f⟩ := (sound hp _).expr _ _ _ h [] [] (by rw [ha]; exact .done _)
    rw [List.append_nil] at l
    have l' := lex_unskip (args := args) (s := false) l
    have hroots := f.roots
    rw [List.append_nil, hsr] at hroots
    exact ⟨us, by rw [← hroots]; exact l'⟩

theorem openFrom106 (w : Files) (hw : w.Sane) (name : Arg) (st : St) (roots : List Arg) :
    parseFiles0 w name st = .ok roots ↔ st.roots = [] ∧ ∃ data, Contains w name data ∧ roots = Io.names [] data := by
  have key : ∀ s : Io.Stream, s.error ≠ some 0 → ((Io.files0Roots s).bind (fun r => match r with | .inr _ => .err "" | .inl roots => .ok (st.roots ++ roots)) = .ok roots ↔
      s.error = none ∧ roots = st.roots ++ Io.names [] s.data) := by
    intro s hs
    rw [Io.files0Roots, Io.files0Loop_ok _ _ _ (by omega)]
    cases he : s.error with
    | none => exact ⟨fun h => by cases h; exact ⟨rfl, rfl⟩, fun h => by rw [h.2]; rfl⟩
    | some n =>
      cases n with
      | zero => exact absurd he hs
      | succ n => exact ⟨fun h => (by cases h), fun h => (by cases h.1)⟩
  unfold parseFiles0
  by_cases hr : st.roots ≠ []
  · rw [if_pos hr]; exact ⟨fun h => (by cases h), fun h => absurd h.1 hr⟩
  · rw [if_neg hr]
    have hr' := Decidable.not_not.1 hr
    rw [hr'] at key ⊢
    unfold openFrom Contains
    by_cases hd : name = A "-"
    · rw [if_pos hd]
      refine (key w.stdin hw.1).trans ?_
      constructor
      · rintro ⟨h1, h2⟩
        exact ⟨rfl, w.stdin.data, .inl ⟨hd, by rw [← h1]⟩, h2⟩
      · rintro ⟨_, data, ⟨_, h1⟩ | ⟨h1, _⟩, h2⟩
        · rw [h1]; exact ⟨rfl, h2⟩
        · exact absurd hd h1
    · rw [if_neg hd]
      cases ho : w.opens name with
      | none =>
        refine ⟨fun h => (by cases h), ?_⟩
        rintro ⟨_, data, ⟨h1, _⟩ | ⟨_, h1⟩, _⟩
        · exact absurd h1 hd
        · cases h1
      | some s =>
        refine (key s (hw.2 name s ho)).trans ?_
        constructor
        · rintro ⟨h1, h2⟩
          exact ⟨rfl, s.data, .inr ⟨hd, by rw [← h1]⟩, h2⟩
        · rintro ⟨_, data, ⟨h1, _⟩ | ⟨_, h1⟩, h2⟩
          · exact absurd h1 hd
          · cases h1; exact ⟨rfl, h2⟩

theorem begins106 {calls : List Call} {st : St} {o1 : Options.Options} (hw : w.Sane) (hm : Options.Meets sys calls o1) (roots : List Arg) :
    parseRoots w o1 st = .ok roots ↔ BeginsAt w calls st.roots roots := by
  unfold parseRoots BeginsAt
  rcases hm.files0 with ⟨h1, h2⟩ | ⟨c, v, h1, h2, h3⟩
  · rw [h1, h2]
    dsimp only
    by_cases hr : st.roots = []
    · rw [if_pos hr, hr]
      constructor
      · intro h; cases h; exact .inl ⟨rfl, .inl ⟨rfl, rfl⟩⟩
      · rintro (⟨_, ⟨_, rfl⟩ | ⟨h, _⟩⟩ | ⟨_, _, _, h, _⟩)
        · rfl
        · exact absurd rfl h
        · cases h
    · rw [if_neg hr]
      constructor
      · intro h; cases h; exact .inl ⟨rfl, .inr ⟨hr, rfl⟩⟩
      · rintro (⟨_, ⟨h, _⟩ | ⟨_, rfl⟩⟩ | ⟨_, _, _, h, _⟩)
        · exact absurd h hr
        · rfl
        · cases h
  · rw [h1, h3]
    dsimp only
    rw [openFrom106 w hw]
    constructor
    · rintro ⟨a, data, b, d⟩
      exact .inr ⟨c, v, data, rfl, h2, a, b, d⟩
    · rintro (⟨h, _⟩ | ⟨c', v', data, hc, hv, a, b, d⟩)
      · cases h
      · cases hc
        unfold NextValue at h2 hv
        rw [h2] at hv
        cases hv
        exact ⟨a, data, b, d⟩

/-- **C106.** A command line is accepted if and only if it would be without regard to the roots, and these are the paths on it, or the current directory if there are none; or, with `-files0-from`, there is
no path on it, the file can be read, and the roots are the names in it. Nothing else depends on the file. -/
theorem C106_iff (hw : w.Sane) : Roots.parse env sys w args = .ok (cmd, o) ↔
    ∃ cmd0 toks paths, parseCmdline env sys args = .ok (cmd0, o) ∧ Lex (prim env) false args toks paths ∧ cmd = { cmd0 with roots := cmd.roots } ∧
      BeginsAt w cmd0.calls paths cmd.roots := by
  have hC := C75_iff env sys args
  unfold Roots.parse
  unfold parseCmdline at *
  rw [whole106] at *
  constructor
  · intro h
    obtain ⟨⟨e, st⟩, h1, h⟩ := Out.bind_eq_ok.1 h
    dsimp only at h
    by_cases ha : st.args ≠ []
    · rw [if_pos ha] at h; cases h
    · rw [if_neg ha] at h
      obtain ⟨o1, h2, h⟩ := Out.bind_eq_ok.1 h
      obtain ⟨roots, h3, h⟩ := Out.bind_eq_ok.1 h
      obtain ⟨cmd0, h4, h⟩ := Out.bind_eq_ok.1 h
      cases h
      have hc : cmd0.calls = st.calls := (finish_ok.1 h4).2.2.2.1
      have hv : ((toEnd (prim env) args).bind fun r => finish r.1 r.2).bind (fun cmd => (configure sys cmd.calls (defaults sys)).bind fun o => .ok (cmd, detectCycles o)) =
          .ok (cmd0, detectCycles o1) := by
        rw [h1]
        dsimp only [Out.bind]
        rw [h4]
        dsimp only [Out.bind]
        rw [hc, h2]
      obtain ⟨toks, hl⟩ := toEnd106 (prim_ok env) h1 (Decidable.not_not.1 ha)
      refine ⟨cmd0, toks, st.roots, hv, hl, rfl, ?_⟩
      obtain ⟨hp, _⟩ := (hC cmd0 (detectCycles o1)).1 hv
      have hm := Options.meets cmd0.calls o1 (fun c hc => by obtain ⟨_, _, _, _, h, _⟩ := Options.parsed_made hp c hc; exact h) (by rw [hc]; exact h2)
      exact (begins106 hw hm roots).1 h3
  · rintro ⟨cmd0, toks, paths, h, hl, hcmd, hb⟩
    obtain ⟨hp, _⟩ := (hC cmd0 o).1 h
    obtain ⟨c, h1, h⟩ := Out.bind_eq_ok.1 h
    obtain ⟨o1, h2, h⟩ := Out.bind_eq_ok.1 h
    cases h
    obtain ⟨⟨e, st⟩, h3, h4⟩ := Out.bind_eq_ok.1 h1
    obtain ⟨ha, _, _, hc, _⟩ := finish_ok.1 h4
    obtain ⟨toks', hl'⟩ := toEnd106 (prim_ok env) h3 ha
    obtain ⟨_, hpe⟩ := lex_unique hl hl'
    have hm := Options.meets cmd0.calls o1 (fun c hc => by obtain ⟨_, _, _, _, h, _⟩ := Options.parsed_made hp c hc; exact h) h2
    rw [h3]
    dsimp only [Out.bind]
    rw [if_neg (by rw [ha]; simp), ← hc, h2]
    dsimp only
    rw [(begins106 hw hm cmd.roots).2 (by rw [← hpe]; exact hb)]
    dsimp only
    rw [h4]
    dsimp only
    rw [← hcmd]

/-- C106 (no surprises). With `-files0-from`, the current directory isn't searched because there are no names in the file; nothing is. -/
theorem C106_empty (hw : w.Sane) (h : Roots.parse env sys w args = .ok (cmd, o)) (c : Call) (name : Arg) (hc : last ["-files0-from"] cmd.calls = some c) (hn : NextValue c name)
    (he : Contains w name []) : cmd.roots = [] := by
  obtain ⟨cmd0, toks, paths, _, _, h3, h4⟩ := (C106_iff hw).1 h
  have hcc : cmd.calls = cmd0.calls := by rw [h3]
  rw [hcc] at hc
  rcases h4 with ⟨h4, _⟩ | ⟨c', name', data, h4, h5, _, h6, h7⟩
  · rw [hc] at h4; cases h4
  · rw [hc] at h4
    cases h4
    unfold NextValue at hn h5
    rw [hn] at h5
    cases h5
    rw [h7]
    unfold Contains at he h6
    rcases he with ⟨e1, e2⟩ | ⟨e1, e2⟩ <;> rcases h6 with ⟨e3, e4⟩ | ⟨e3, e4⟩
    · rw [e2] at e4; cases e4; rfl
    · exact absurd e1 e3
    · exact absurd e3 e1
    · rw [e2] at e4; cases e4; rfl

/-- C106 (any name). Names in the file may be anything: whatever they look like, they are roots, in their order. -/
theorem C106_any_name (hw : w.Sane) (h : Roots.parse env sys w args = .ok (cmd, o)) (c : Call) (name : Arg) (hc : last ["-files0-from"] cmd.calls = some c) (hn : NextValue c name)
    (names : List Arg) (h0 : ∀ p ∈ names, ∀ b ∈ p, b ≠ 0) (he : Contains w name (names.map (· ++ [0])).flatten) : cmd.roots = names := by
  obtain ⟨cmd0, toks, paths, _, _, h3, h4⟩ := (C106_iff hw).1 h
  have hcc : cmd.calls = cmd0.calls := by rw [h3]
  rw [hcc] at hc
  rcases h4 with ⟨h4, _⟩ | ⟨c', name', data, h4, h5, _, h6, h7⟩
  · rw [hc] at h4; cases h4
  · rw [hc] at h4
    cases h4
    unfold NextValue at hn h5
    rw [hn] at h5
    cases h5
    have hd : data = (names.map (· ++ [0])).flatten := by
      unfold Contains at he h6
      rcases he with ⟨e1, e2⟩ | ⟨e1, e2⟩ <;> rcases h6 with ⟨e3, e4⟩ | ⟨e3, e4⟩
      · rw [e2] at e4; cases e4; rfl
      · exact absurd e1 e3
      · exact absurd e3 e1
      · rw [e2] at e4; cases e4; rfl
    rw [h7, hd]
    have := C64_round_trip names h0
    rw [C64_files0] at this
    injection this with this
    injection this

/-- C106 (one or the other). Paths on the command line and `-files0-from` are refused together, wherever they are. -/
theorem C106_conflict (hw : w.Sane) (toks : List Tok) (paths : List Arg) (hl : Lex (prim env) false args toks paths) (hp : paths ≠ [])
    (h : Roots.parse env sys w args = .ok (cmd, o)) : last ["-files0-from"] cmd.calls = none := by
  obtain ⟨cmd0, toks', paths', _, h2, h3, h4⟩ := (C106_iff hw).1 h
  have hcc : cmd.calls = cmd0.calls := by rw [h3]
  rw [hcc]
  rcases h4 with ⟨h4, _⟩ | ⟨_, _, _, _, _, h5, _⟩
  · exact h4
  · rw [(lex_unique hl h2).2] at hp; exact absurd h5 hp

section search
open Verif.Main

variable {T : Type} {b : Behaviour} {E : Opt.Env T} {a : Opt.Ann T} {gone : Bftw.Pos → Bool} {e : Bftw.Env} {tr : List Bftw.Event} {complete : Bool} {out : List Effect} {status : Nat}

/-- **C106 (search).** With `-O0` or `-O1`, the whole program, with or without `-files0-from`: the search begins at these roots, and the settings and the output are, as in C75, what the command line says. -/
theorem C106_search (hw : w.Sane) (h : Roots.Started env sys w b E a gone e args cmd o tr complete out status) (hl : E.level ≤ 1) (ht : b.Tests) (he : Ordinary e) :
    ∃ cmd0 toks paths settings, Parsed (prim env) args cmd0 ∧ Lex (prim env) false args toks paths ∧ cmd = { cmd0 with roots := cmd.roots } ∧ BeginsAt w cmd.calls paths cmd.roots ∧
      e.roots = cmd.roots.length ∧ (∀ i root, cmd.roots[i]? = some root → e.name [i] = root) ∧ Asked sys cmd.calls e E.level settings ∧
      ∃ files, Right b settings e cmd files out ∧ (complete = true → Complete b settings e cmd files ∧
        (status = 0 ↔ (settings.ignoreErrors = true ∨ ∀ p, ¬ (b.asked settings e cmd).Trouble e p))) := by
  obtain ⟨cmd0, toks, paths, h1, h2, h3, h4⟩ := (C106_iff hw).1 h.settings
  obtain ⟨hp, ha, hs⟩ := asked_of (E := E) (gone := gone) h1 h.level h.post h.sort h.skipMounts h.pruneMounts h.strategy h.nthreads
  have hcc : cmd.calls = cmd0.calls := by rw [h3]
  refine ⟨cmd0, toks, paths, _, hp, h2, h3, by rw [hcc]; exact h4, h.roots, h.names, by rw [hcc]; exact ha, ?_⟩
  have hwalk := h.walk
  have hout := h.out_eq
  have hstatus := h.status_eq
  have hag := agree_low b a (o.search gone) E hl hs cmd0 (parsed_quiet b ht hp)
  have hx : b.ctx a (o.search gone) cmd = b.ctx a (o.search gone) cmd0 := by rw [h3]; rfl
  rw [hx] at hwalk hout hstatus
  have hb := (low_bounds E hl (b.ctx a (o.search gone) cmd0)).2
  have hm : 0 ≤ (Opt.bfsOptimize E (b.ctx a (o.search gone) cmd0)).maxdepth := by rw [hb]; exact hs.max0
  obtain ⟨files, r1, r2⟩ := search_right hag hs hm he hwalk
  rw [h3]
  refine ⟨files, by rw [hout]; exact ⟨r1.once, r1.sound, r1.output, r1.pre, r1.post, r1.quit⟩, fun hd => ⟨r2 hd, ?_⟩⟩
  subst hd
  rw [hstatus, hout, exitStatus_unstopped (search_unstopped hag hs hm he hwalk)]
  exact search_status hag hs hm he hb hwalk

/-- **C106 (search), partial.** The same with `-O2` and `-O3`, the default.

Missing: the expressions for which these optimizations are not right (see C02), and `-O4`. -/
theorem C106_search_default_partial (hw : w.Sane) (h : Roots.Started env sys w b E a gone e args cmd o tr complete out status) (hl : 2 ≤ E.level) (hl3 : E.level ≤ 3) (ht : b.Tests) (he : Ordinary e)
    {f : Bftw.Pos → Spec.Opt.File} {unit : Nat} (hf : ∀ settings, Asked sys cmd.calls e E.level settings → Attributes b E.level settings cmd f unit) :
    ∃ cmd0 toks paths settings, Parsed (prim env) args cmd0 ∧ Lex (prim env) false args toks paths ∧ cmd = { cmd0 with roots := cmd.roots } ∧ BeginsAt w cmd.calls paths cmd.roots ∧
      e.roots = cmd.roots.length ∧ (∀ i root, cmd.roots[i]? = some root → e.name [i] = root) ∧ Asked sys cmd.calls e E.level settings ∧
      ∃ files, Right b settings e cmd files out ∧ (complete = true → Complete b settings e cmd files ∧
        (status = 0 ↔ (settings.ignoreErrors = true ∨ ∀ p, ¬ (b.asked settings e cmd).Trouble e p))) := by
  obtain ⟨cmd0, toks, paths, h1, h2, h3, h4⟩ := (C106_iff hw).1 h.settings
  obtain ⟨hp, ha, hs⟩ := asked_of (E := E) (gone := gone) h1 h.level h.post h.sort h.skipMounts h.pruneMounts h.strategy h.nthreads
  have hcc : cmd.calls = cmd0.calls := by rw [h3]
  have hq : ∀ x ∈ cmd.excludes, b.Quiet x := by
    have := parsed_quiet b ht hp
    rw [h3]; exact this
  have hag := agree_high b a (o.search gone) E hl hs cmd hq (hf _ (by rw [hcc]; exact ha))
  refine ⟨cmd0, toks, paths, _, hp, h2, h3, by rw [hcc]; exact h4, h.roots, h.names, by rw [hcc]; exact ha, ?_⟩
  have hb : (Opt.bfsOptimize E (b.ctx a (o.search gone) cmd)).maxdepth = (o.search gone).maxdepth := by
    show Opt.newMaxdepth _ _ _ = _
    unfold Opt.newMaxdepth
    rw [if_neg (by omega)]
    rfl
  have hm : 0 ≤ (Opt.bfsOptimize E (b.ctx a (o.search gone) cmd)).maxdepth := by rw [hb]; exact hs.max0
  obtain ⟨files, r1, r2⟩ := search_right hag hs hm he h.walk
  refine ⟨files, by rw [h.out_eq]; exact r1, fun hd => ⟨r2 hd, ?_⟩⟩
  subst hd
  rw [h.status_eq, h.out_eq, exitStatus_unstopped (search_unstopped hag hs hm he h.walk)]
  exact search_status hag hs hm he hb h.walk

end search

/-! ## Examples -/

/-- A file that can't be opened, a file that can't be read to its end, and others. -/
def files106 : Files := { opens := fun n => if n = A "list" then some ⟨A "-x" ++ [0] ++ A "(", none⟩ else if n = A "one" then some ⟨A "a" ++ [0], none⟩ else if n = A "empty" then some ⟨[], none⟩ else if n = A "bad" then some ⟨A "x", some 5⟩ else none,
                          stdin := ⟨A "in" ++ [0], none⟩ }

def roots106 (args : List String) : Out (List Arg) := (Roots.parse cmdEnv startSys files106 (args.map A)).bind fun r => .ok r.1.roots

theorem sane106 : files106.Sane := by
  refine ⟨by decide, fun name s h => ?_⟩
  unfold files106 at h
  dsimp only at h
  split at h
  · cases h; decide
  · split at h
    · cases h; decide
    · split at h
      · cases h; decide
      · split at h
        · cases h; decide
        · cases h

/-- The hypotheses are met. -/
example : roots106 ["-files0-from", "list", "-print"] = .ok [A "-x", A "("] ∧ roots106 ["-files0-from", "empty"] = .ok [] ∧ roots106 ["-files0-from", "-"] = .ok [A "in"] ∧
    roots106 ["a", "-print", "b"] = .ok [A "a", A "b"] ∧ roots106 ["-print"] = .ok [A "."] := by decide +kernel

example : roots106 ["a", "-files0-from", "list"] = .err "cannot combine -files0-from with explicit root paths" ∧
    roots106 ["-files0-from", "none"] = .err "can't open" ∧ roots106 ["-files0-from", "none", "-files0-from", "list"] = .ok [A "-x", A "("] := by decide +kernel

/-- C106 (Finding 86). If the file can't be read, as is the case for a directory, the command line is refused, but nothing is said about why: the message is empty. -/
theorem C106_silent (hw : w.Sane) (st : St) (hr : st.roots = []) (name : Arg) (s : Io.Stream) (ho : openFrom w name = .ok s) (he : s.error ≠ none) : parseFiles0 w name st = .err "" := by
  have hs : s.error ≠ some 0 := by
    unfold openFrom at ho
    by_cases hd : name = A "-"
    · rw [if_pos hd] at ho; cases ho; exact hw.1
    · rw [if_neg hd] at ho
      cases hn : w.opens name with
      | none => rw [hn] at ho; cases ho
      | some s' => rw [hn] at ho; cases ho; exact hw.2 name s hn
  unfold parseFiles0
  rw [if_neg (by rw [hr]; simp), ho]
  dsimp only [Out.bind]
  rw [Io.files0Roots, Io.files0Loop_ok _ _ _ (by omega)]
  cases hq : s.error with
  | none => exact absurd hq he
  | some n =>
    cases n with
    | zero => exact absurd hq hs
    | succ n => rfl

example : roots106 ["-files0-from", "bad"] = .err "" := by decide +kernel

/-- The defaults, with `-O1` and `-files0-from one`. -/
def opts106 : Options.Options := { startOpts with files0 := some (A "one") }

def args106 : List Arg := ["-O1", "-files0-from", "one"].map A

def cmd106 : Cmd := match Roots.parse cmdEnv startSys files106 args106 with | .ok (c, _) => c | _ => ⟨.leaf .yes, [], [], []⟩

def ctx106 : Opt.Ctx Unit := Opt.bfsOptimize (exEnv 1) (startBehaviour.ctx mainAnn (opts106.search fun _ => false) cmd106)

def run106 : List Bftw.Event × Bool := (wholeRun ((startBehaviour.cfg (opts106.search fun _ => false) ctx106).env (startEnv opts106))).getD ([], false)

/-- The hypotheses of `C106_search` are met: the root is in the file, and all files below it are printed. -/
example : ∃ status, Roots.Started cmdEnv startSys files106 startBehaviour (exEnv 1) mainAnn (fun _ => false) (startEnv opts106) args106 cmd106 opts106 run106.1 true
    (["a", "a/y", "a/x", "a/y/z"].map fun l => .write (A l ++ [10])) status ∧ files106.Sane ∧ startBehaviour.Tests ∧ Main.Ordinary (startEnv opts106) := by
  have hp : Roots.parse cmdEnv startSys files106 args106 = .ok (cmd106, opts106) := by
    have h : (match Roots.parse cmdEnv startSys files106 args106 with | .ok (_, o) => decide (o = opts106) | _ => false) = true := by decide +kernel
    unfold cmd106
    split at h
    · next c o hc =>
      rw [hc]
      simp only [decide_eq_true_eq] at h
      rw [h]
    · cases h
  have hr : cmd106.roots = [A "a"] := by decide +kernel
  have hrun : (wholeRun ((startBehaviour.cfg (opts106.search fun _ => false) ctx106).env (startEnv opts106))).isSome = true ∧ run106.2 = true := by decide +kernel
  refine ⟨_, ⟨hp, rfl, rfl, rfl, rfl, rfl, rfl, rfl, rfl, by rw [hr]; rfl, fun i root hi => ?_, ?_, ?_, rfl⟩, sane106, start_tests, ?_⟩
  · rw [hr] at hi
    match i, hi with
    | 0, hi => cases hi; rfl
  · obtain ⟨tr, htr⟩ := Option.isSome_iff_exists.1 hrun.1
    have h2 := wholeRun_walked htr
    have h3 : run106 = tr := by unfold run106; rw [htr]; rfl
    rw [← h3, hrun.2] at h2
    exact h2
  · have : startBehaviour.output (opts106.search fun _ => false) ctx106 (startEnv opts106) run106.1 = ["a", "a/y", "a/x", "a/y/z"].map fun l => .write (A l ++ [10]) := by decide +kernel
    exact this.symm
  · exact (start_ordinary startOpts (by decide +kernel)).2

/-- The attributes of the files of the example are those that the tests see. -/
theorem start_attributes (level : Nat) (settings : Main.Settings) (hmax : settings.maxdepth ≤ 2 ^ 31 - 1) (cmd : Cmd) (h : (commaFree cmd.expr && cmd.excludes.all commaFree) = true) :
    Main.Attributes startBehaviour level settings cmd mainFile 1 where
  pos := by decide
  real := by
    intro p hp
    have hp : (Bftw.depth p : Int) ≤ 2147483647 := by omega
    refine ⟨fun r => ?_, ?_, (by decide : (8 : Nat) < 32), fun h => (by cases h), fun _ => ⟨fun h => (by cases h), fun h => (by cases h)⟩⟩
    · cases r
      case depth => show 0 ≤ (Bftw.depth p : Int) ∧ (Bftw.depth p : Int) ≤ _; omega
      all_goals (show (0 : Int) ≤ 1 ∧ (1 : Int) ≤ 9223372036854775807; decide)
    · show (if walkEnv.isDir p then 3 else 8) < 32
      split <;> decide
  depth := fun _ => rfl
  result := by
    intro p l v h
    show (Spec.Opt.test (mainFile p) l).getD false = v
    rw [h]
    rfl
  tame := by
    refine ⟨⟨none, none⟩, fun p => ?_⟩
    have key : ∀ x, commaFree x = true → startBehaviour.Tame ⟨none, none⟩ (mainFile p) 1 level x := by
      intro x
      induction x with
      | leaf l =>
        intro _
        show Spec.Opt.Tame _ _ _ _ (startBehaviour.leafOf l)
        cases l with
        | prim q =>
          show Spec.Opt.Tame _ _ _ _ (startLeaf q)
          unfold startLeaf
          split
          · rcases main_leaf q with ⟨k, i, hq⟩ | hq | hq <;> (rw [hq]; trivial)
          · trivial
        | _ => trivial
      | not x ih => exact ih
      | and x y i1 i2 => intro h; simp only [commaFree, Bool.and_eq_true] at h; exact ⟨i1 h.1, i2 h.2⟩
      | or x y i1 i2 => intro h; simp only [commaFree, Bool.and_eq_true] at h; exact ⟨i1 h.1, i2 h.2⟩
      | comma x y _ _ => intro h; cases h
    simp only [Bool.and_eq_true, List.all_eq_true] at h
    exact ⟨key _ h.1, fun x hx => key _ (h.2 x hx)⟩

theorem asked_max {calls : List Call} {e : Bftw.Env} {level : Nat} {settings : Main.Settings} (h : Asked sys calls e level settings) : settings.maxdepth ≤ 2 ^ 31 - 1 := by
  rcases h.maxdepth with ⟨_, h⟩ | ⟨_, _, _, _, h⟩
  · omega
  · have := h.2.2; omega

/-- The defaults, with `-files0-from one`. -/
def opts106d : Options.Options := { opts106 with optlevel := 3 }

def args106d : List Arg := ["-files0-from", "one", "-name", "x"].map A

def cmd106d : Cmd := match Roots.parse cmdEnv startSys files106 args106d with | .ok (c, _) => c | _ => ⟨.leaf .yes, [], [], []⟩

def ctx106d : Opt.Ctx Unit := Opt.bfsOptimize (exEnv 3) (startBehaviour.ctx mainAnn (opts106d.search fun _ => false) cmd106d)

def run106d : List Bftw.Event × Bool := (wholeRun ((startBehaviour.cfg (opts106d.search fun _ => false) ctx106d).env (startEnv opts106d))).getD ([], false)

/-- The hypotheses of `C106_search_default_partial` are met. -/
example : ∃ status, Roots.Started cmdEnv startSys files106 startBehaviour (exEnv 3) mainAnn (fun _ => false) (startEnv opts106d) args106d cmd106d opts106d run106d.1 true
    [.write (A "a/x\n")] status ∧ files106.Sane ∧ startBehaviour.Tests ∧ Main.Ordinary (startEnv opts106d) ∧
    ∀ settings, Asked startSys cmd106d.calls (startEnv opts106d) 3 settings → Main.Attributes startBehaviour 3 settings cmd106d mainFile 1 := by
  have hp : Roots.parse cmdEnv startSys files106 args106d = .ok (cmd106d, opts106d) := by
    have h : (match Roots.parse cmdEnv startSys files106 args106d with | .ok (_, o) => decide (o = opts106d) | _ => false) = true := by decide +kernel
    unfold cmd106d
    split at h
    · next c o hc =>
      rw [hc]
      simp only [decide_eq_true_eq] at h
      rw [h]
    · cases h
  have hr : cmd106d.roots = [A "a"] := by decide +kernel
  have hrun : (wholeRun ((startBehaviour.cfg (opts106d.search fun _ => false) ctx106d).env (startEnv opts106d))).isSome = true ∧ run106d.2 = true := by decide +kernel
  refine ⟨_, ⟨hp, rfl, rfl, rfl, rfl, rfl, rfl, rfl, rfl, by rw [hr]; rfl, fun i root hi => ?_, ?_, ?_, rfl⟩, sane106, start_tests, ?_,
    fun settings h => start_attributes 3 settings (asked_max h) cmd106d (by decide +kernel)⟩
  · rw [hr] at hi
    match i, hi with
    | 0, hi => cases hi; rfl
  · obtain ⟨tr, htr⟩ := Option.isSome_iff_exists.1 hrun.1
    have h2 := wholeRun_walked htr
    have h3 : run106d = tr := by unfold run106d; rw [htr]; rfl
    rw [← h3, hrun.2] at h2
    exact h2
  · have : startBehaviour.output (opts106d.search fun _ => false) ctx106d (startEnv opts106d) run106d.1 = [.write (A "a/x\n")] := by decide +kernel
    exact this.symm
  · exact (start_ordinary startOpts (by decide +kernel)).2

/-- And so are those of `C75_search_optimized_partial`, with the root on the command line. -/
example : startEnds ["a", "-name", "x"] { startOpts with optlevel := 3 } [.write (A "a/x\n")] true = true ∧
    ∀ settings, Asked startSys (mainCmd ["a", "-name", "x"]).calls (startEnv { startOpts with optlevel := 3 }) 3 settings →
      Main.Attributes startBehaviour 3 settings (mainCmd ["a", "-name", "x"]) mainFile 1 :=
  ⟨by decide +kernel, fun settings h => start_attributes 3 settings (asked_max h) _ (by decide +kernel)⟩

end Verif.Props
