import Verif.Lemmas.DumpLine
import Verif.Lemmas.Mount
import Verif.Props.Main

/-! # C96: the command line that `-D` shows means the same as the one that was given -/
namespace Verif.Props
open Verif.Options Verif.Cmdline Verif.Dump

theorem lex_space : ∀ (m : Spec.Quote.Mode) (t w x : Arg), Spec.Quote.lex m t = some w → Spec.Quote.lex m (t ++ 32 :: x) = none := by
  intro m t w x h
  fun_induction Spec.Quote.lex m t generalizing w 
  all_goals try (simp_all [Spec.Quote.lex]; done)
  case case1 => 
    unfold Spec.Quote.lex
    split <;> simp_all [Spec.Quote.special]
  all_goals
    obtain ⟨w', hw, -⟩ := Option.map_eq_some_iff.1 h
    rename_i ih1
    have hi := ih1 _ hw
    simp only [List.cons_append] at hi ⊢
  case case7 => rw [Spec.Quote.lex]; simp_all
  case case9 c r h1 h2 h3 h4 h5 =>
    have e1 : c ≠ 36 := fun e => h5 (by rw [e]; decide)
    have e2 : c ≠ 92 := fun e => h5 (by rw [e]; decide)
    rw [Spec.Quote.lex] <;> simp_all
  case case11 => rw [Spec.Quote.lex] <;> simp_all
  case case14 => rw [Spec.Quote.lex] <;> simp_all
  case case16 => rw [Spec.Quote.lex] ; simp_all
  case case17 => rw [Spec.Quote.lex] ; simp_all
  case case19 c r h1 b h2 =>
    have e1 : c ≠ 120 := by rintro rfl; revert h2; simp [Spec.Quote.simpleEsc]
    rw [Spec.Quote.lex] <;> simp_all
  case case22 c r h1 h2 h3 h4 =>
    have e1 : c ≠ 92 := by
      intro e
      cases r with
      | nil => exact h4 e rfl
      | cons d r => exact h3 d r e rfl
    rw [Spec.Quote.lex] <;> simp_all

theorem reads_split {t u rest rest' w w' : Arg} {ws ws' : List Arg} (h : Spec.Quote.oneWord t = some w) (h' : Spec.Quote.oneWord u = some w')
    (hr : Reads rest ws) (hr' : Reads rest' ws') (he : t ++ rest = u ++ rest') : t = u := by
  have hl : ∀ {t w : Arg}, Spec.Quote.oneWord t = some w → Spec.Quote.lex .bare t = some w := by
    intro t w h
    unfold Spec.Quote.oneWord at h
    split at h
    · cases h
    · exact h
  have key : ∀ {t u rest rest' w w' : Arg} {ws : List Arg}, Spec.Quote.oneWord t = some w → Spec.Quote.oneWord u = some w' → Reads rest ws → t ++ rest = u ++ rest' →
      ∀ a, u = t ++ a → a = [] := by
    intro t u rest rest' w w' ws h h' hr he a ha
    cases a with
    | nil => rfl
    | cons c a =>
      subst ha
      rw [List.append_assoc] at he
      have he := List.append_cancel_left he
      cases hr with
      | nil => cases he
      | word t2 w2 rest2 ws2 =>
        injection he with hc _
        subst hc
        have := lex_space .bare t w a (hl h)
        rw [hl h'] at this
        cases this
  rcases List.append_eq_append_iff.1 he with ⟨a, h1, h2⟩ | ⟨a, h1, h2⟩
  · have := key h h' hr he a h1
    rw [h1, this, List.append_nil]
  · have := key h' h hr' he.symm a h1
    rw [h1, this, List.append_nil]

/-- **C96.** A shell can read a line in one way only. -/
theorem C96_unambiguous (text : Arg) (ws ws' : List Arg) (h : Reads text ws) (h' : Reads text ws') : ws = ws' := by
  induction h generalizing ws' with
  | nil =>
    generalize hx : ([] : Arg) = x at h'
    cases h' with
    | nil => rfl
    | word => cases hx
  | word t w rest ws hw hr ih =>
    generalize hx : 32 :: t ++ rest = x at h'
    cases h' with
    | nil => cases hx
    | word t' w' rest' ws'' hw' hr' =>
      have he : t ++ rest = t' ++ rest' := (List.cons.inj hx).2
      have ht := reads_split hw hw' hr hr' he
      subst ht
      have hrest := List.append_cancel_left he
      subst hrest
      rw [hw] at hw'
      cases hw'
      rw [ih _ hr']

/-- The settings that the line shows: `-noerror`, warnings, whether files may be changed, the syntax of regular expressions and `-files0-from` are not shown, colors are
those of the standard output, and `-xdev` is left out if there is `-mount`. -/
def Displayed (sys : Sys) (o : Options.Options) : Options.Options :=
  { o with
    flags := if has o.flags SKIP_MOUNTS then o.flags &&& ~~~PRUNE_MOUNTS else o.flags
    cerrColors := o.coutColors
    ignoreErrors := false
    warn := !sys.posixlyCorrect && sys.stdinTty
    dangerous := false
    regex := .posixBasic
    files0 := none }

/-- **C96.** Whatever the command line was, the line that `-D` shows is a command line; a shell makes these words out of it, and they are accepted, with the same
paths, wherever they come from and whatever bytes they consist of, and the same settings. -/
theorem C96_round_trip (env : Cmdline.Env) (hv : Dump.Valid env) (sys : Sys) (hn : 1 ≤ sys.nproc) (L : Quote.Locale) (hL : L.OK) (hB : L.Hides false fun c => c = 9 ∨ c = 10)
    (args : List Arg) (cmd : Cmd) (o : Options.Options) (h : parseCmdline env sys args = .ok (cmd, o)) (paths : List Arg) (hp : paths ≠ []) :
    ∃ text words cmd', line L o paths = .ok text ∧ Reads text words ∧ parseCmdline env sys words = .ok (cmd', Displayed sys o) ∧ cmd'.roots = paths ∧ cmd'.excludes = [] :=
  line_ok hv L hL hB (bounds h hn) hp

/-- **C96.** So the same line is only shown for the same settings and the same paths. -/
theorem C96_distinct (env : Cmdline.Env) (hv : Dump.Valid env) (sys : Sys) (hn : 1 ≤ sys.nproc) (L : Quote.Locale) (hL : L.OK) (hB : L.Hides false fun c => c = 9 ∨ c = 10)
    (args args' : List Arg) (cmd cmd' : Cmd) (o o' : Options.Options) (h : parseCmdline env sys args = .ok (cmd, o)) (h' : parseCmdline env sys args' = .ok (cmd', o'))
    (paths paths' : List Arg) (hp : paths ≠ []) (hp' : paths' ≠ []) (hl : line L o paths = line L o' paths') : Displayed sys o = Displayed sys o' ∧ paths = paths' := by
  obtain ⟨t, ws, c, h1, h2, h3, h4, -⟩ := C96_round_trip env hv sys hn L hL hB args cmd o h paths hp
  obtain ⟨t', ws', c', h1', h2', h3', h4', -⟩ := C96_round_trip env hv sys hn L hL hB args' cmd' o' h' paths' hp'
  rw [hl, h1'] at h1
  cases h1
  have := C96_unambiguous t ws ws' h2 h2'
  subst this
  rw [h3] at h3'
  injection h3' with h3'
  injection h3' with e1 e2
  exact ⟨e2, by rw [← h4, ← h4', e1]⟩

theorem displayed_has {f m : BitVec 32} (hm : ~~~PRUNE_MOUNTS &&& m = m) : has (if has f SKIP_MOUNTS then f &&& ~~~PRUNE_MOUNTS else f) m = has f m := by
  split
  · rw [has_and, hm]
  · rfl

/-- **C96.** With the line as its command line, `bfs` shows the same line again. -/
theorem C96_again (L : Quote.Locale) (sys : Sys) (o : Options.Options) (paths : List Arg) : line L (Displayed sys o) paths = line L o paths := by
  have e1 : (Displayed sys o).flags &&& (SKIP_MOUNTS ||| PRUNE_MOUNTS) = PRUNE_MOUNTS ↔ o.flags &&& (SKIP_MOUNTS ||| PRUNE_MOUNTS) = PRUNE_MOUNTS := by
    unfold Displayed
    dsimp only
    cases hs : has o.flags SKIP_MOUNTS with
    | false => simp
    | true =>
      have key : ∀ x : BitVec 32, has x SKIP_MOUNTS = true → x &&& (SKIP_MOUNTS ||| PRUNE_MOUNTS) ≠ PRUNE_MOUNTS := by
        intro x hx he
        have h1 : (x &&& (SKIP_MOUNTS ||| PRUNE_MOUNTS)).getLsbD 6 = true := by
          rw [BitVec.getLsbD_and, ← has_bit x (by decide), show has x (1#32 <<< 6) = true from hx]
          decide
        rw [he] at h1
        revert h1; decide
      have hs' : has (o.flags &&& ~~~PRUNE_MOUNTS) SKIP_MOUNTS = true := by
        rw [has_and, show ~~~PRUNE_MOUNTS &&& SKIP_MOUNTS = SKIP_MOUNTS by decide]; exact hs
      simp only [if_true]
      exact ⟨fun h => absurd h (key _ hs'), fun h => absurd h (key _ hs)⟩
  have h1 : has (Displayed sys o).flags FOLLOW_ALL = has o.flags FOLLOW_ALL := displayed_has (by decide)
  have h2 : has (Displayed sys o).flags FOLLOW_ROOTS = has o.flags FOLLOW_ROOTS := displayed_has (by decide)
  have h3 : has (Displayed sys o).flags SORT = has o.flags SORT := displayed_has (by decide)
  have h4 : has (Displayed sys o).flags POST_ORDER = has o.flags POST_ORDER := displayed_has (by decide)
  have h5 : has (Displayed sys o).flags SKIP_MOUNTS = has o.flags SKIP_MOUNTS := displayed_has (by decide)
  unfold line flagsText optionsText follow
  rw [h1, h2, h3, h4, h5]
  simp only [e1]
  rfl

/-! ## Examples -/

/-- Four processors, no terminal. -/
def dumpSys : Sys := { colors := true, noColor := false, posixlyCorrect := false, stdinTty := false, stdoutTty := false, stderrTty := false, nproc := 4, oniguruma := false }

/-- What is shown for these arguments. -/
def shownFor (args : List String) : Option Arg :=
  match parseCmdline cmdEnv dumpSys (args.map A) with
  | .ok (cmd, o) => match line cLocale o cmd.roots with
    | .ok t => some t
    | _ => none
  | _ => none

example : Dump.Valid cmdEnv := fun _ _ _ _ _ => rfl
example : 1 ≤ dumpSys.nproc := by decide
example (args : List Arg) (cmd : Cmd) (o : Options.Options) (h : parseCmdline cmdEnv dumpSys args = .ok (cmd, o)) (hp : cmd.roots ≠ []) :
    ∃ text words cmd', line cLocale o cmd.roots = .ok text ∧ Reads text words ∧ parseCmdline cmdEnv dumpSys words = .ok (cmd', Displayed dumpSys o) ∧
      cmd'.roots = cmd.roots ∧ cmd'.excludes = [] :=
  C96_round_trip cmdEnv (fun _ _ _ _ _ => rfl) dumpSys (by decide) cLocale cLocale_ok cLocale_hides args cmd o h cmd.roots hp

example : shownFor ["-D", "opt,tree", "-j3", "-S", "dfs", "a b", "-f", "-x", "-depth", "-mount", "-xdev", "-maxdepth", "3", "-name", "y"] =
    some (A " -P -j3 -S dfs -D opt,tree \"a b\" -f -x -nocolor -depth -maxdepth 3 -mount") := by decide +kernel
example : shownFor ["-LX", "-s", "-O2", "-D", "all", "-color", "-unique", "-status", "-x", "-mindepth", "1", "-ignore_readdir_race"] =
    some (A " -L -X -s -j4 -O2 -S bfs -D all . -color -ignore_readdir_race -mindepth 1 -status -unique -xdev") := by decide +kernel

/-- **C96.** `-noerror` is not shown: with and without it the line is the same, although only with it errors are ignored. -/
theorem C96_noerror_hidden : shownFor ["-D", "tree", "-noerror"] = shownFor ["-D", "tree"] ∧
    (∃ cmd o, parseCmdline cmdEnv dumpSys [A "-D", A "tree", A "-noerror"] = .ok (cmd, o) ∧ o.ignoreErrors = true) ∧
    ∃ cmd o, parseCmdline cmdEnv dumpSys [A "-D", A "tree"] = .ok (cmd, o) ∧ o.ignoreErrors = false := by
  have h1 : (match parseCmdline cmdEnv dumpSys [A "-D", A "tree", A "-noerror"] with | .ok (_, o) => o.ignoreErrors | _ => false) = true := by decide +kernel
  have h2 : (match parseCmdline cmdEnv dumpSys [A "-D", A "tree"] with | .ok (_, o) => !o.ignoreErrors | _ => false) = true := by decide +kernel
  refine ⟨by decide +kernel, ?_, ?_⟩
  · split at h1
    · rename_i cmd o h; exact ⟨cmd, o, h, h1⟩
    · cases h1
  · split at h2
    · rename_i cmd o h; exact ⟨cmd, o, h, by simpa using h2⟩
    · cases h2

/-- **C96.** Beside `-mount`, `-xdev` is redundant, as the line supposes: for every callback, every tree and every strategy, the searches
with and without it make the same calls and get equally far. -/
theorem C96_mount_xdev {e : Bftw.Env} (h : e.skipMounts = true) (x y : Bool) {tr : List Bftw.Event} {complete : Bool} :
    Main.Walked { e with pruneMounts := x } tr complete ↔ Main.Walked { e with pruneMounts := y } tr complete :=
  (Bftw.noXdev_walked (e := { e with pruneMounts := x }) h).symm.trans (Bftw.noXdev_walked (e := { e with pruneMounts := y }) h)

/-- A tree with a mount point, searched with `-mount -xdev`. -/
def bothEnv : Bftw.Env := { mountEnv with skipMounts := true }
example : ∃ tr, tr ≠ [] ∧ Main.Walked { bothEnv with pruneMounts := true } tr true ∧ Main.Walked { bothEnv with pruneMounts := false } tr true :=
  have h := wholeRun_walked (e := { bothEnv with pruneMounts := true }) (x := ((Bftw.walk bothEnv 100).trace, true)) (by decide +kernel)
  ⟨_, by decide +kernel, h, (C96_mount_xdev rfl true false).1 h⟩
-- without `-mount` it is not redundant
example : (Bftw.walk { bothEnv with skipMounts := false } 100).trace ≠ (Bftw.walk { bothEnv with skipMounts := false, pruneMounts := false } 100).trace := by decide +kernel

end Verif.Props
