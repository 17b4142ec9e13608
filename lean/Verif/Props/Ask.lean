import Verif.Lemmas.Ask
import Verif.Props.Options
import Verif.Props.Prompt
/-!
# C104 — who reads standard input, and what is asked before the search
-/
namespace Verif.Props
open Verif.Ask
open Verif.Options
open Verif.Cmdline (A Arg Cmd Env Prim Parsed prim table tableLookup isFlagGroup callParse)
open Verif.Prompt (Locale Console ynprompt lines affirmative)

variable {env : Env} {x : Texts} {sys : Sys} {l : Locale} {args : List Arg} {t t' : Console} {cmd : Cmd} {o : Options.Options}

theorem goOn104 (t : Console) (ht : t.input.error = none) :
    (¬ (sys.stdinTty = true ∧ sys.stderrTty = true) ∧ goOn x sys l t = .ok t) ∨
    ((sys.stdinTty = true ∧ sys.stderrTty = true) ∧ SaysYes l t ∧
      goOn x sys l t = .ok { (t.print x.goOn).2 with input := { t.input with data := (lines t.input.data).tail.flatten } }) ∨
    ((sys.stdinTty = true ∧ sys.stderrTty = true) ∧ ¬ SaysYes l t ∧ ∃ m, goOn x sys l t = .err m) := by
  have hi := (print_input t x.goOn).1
  have hy := ynprompt_saysYes l (t.print x.goOn).2
  have hl := (Prompt.ynprompt_line l (t.print x.goOn).2).2
  rw [hi] at hl
  have hs : SaysYes l (t.print x.goOn).2 ↔ SaysYes l t := by unfold SaysYes; rw [hi]
  unfold goOn interactive
  by_cases htt : (sys.stdinTty && sys.stderrTty) = true
  · rw [if_pos htt]
    rw [Bool.and_eq_true] at htt
    refine .inr ?_
    by_cases h : SaysYes l t
    · have := hy.2 (hs.2 h)
      rw [if_neg (by omega), hl]
      exact .inl ⟨htt, h, rfl⟩
    · have : ¬ 0 < (ynprompt l (t.print x.goOn).2).1 := fun h' => h (hs.1 (hy.1 h'))
      rw [if_pos (by omega)]
      exact .inr ⟨htt, h, _, rfl⟩
  · rw [if_neg htt]
    rw [Bool.and_eq_true] at htt
    exact .inl ⟨htt, rfl⟩

theorem files104 (h : parseCmdline env sys args = .ok (cmd, o)) : o.files0 = some (A "-") ↔ FromStdin cmd.calls := by
  obtain ⟨_, _, o1, hm, hw⟩ := (C75_iff env sys args cmd o).1 h
  have hf : o1.files0 = o.files0 := (cycles_meets hw).2.2.2.2.2.2.2.2.2.2
  rw [← hf]
  unfold FromStdin
  rcases hm.files0 with ⟨h1, h2⟩ | ⟨c, v, h1, h2, h3⟩
  · rw [h1, h2]; simp
  · rw [h1, h3]
    unfold NextValue at *
    constructor
    · intro hv; cases hv; exact ⟨c, rfl, h2⟩
    · rintro ⟨_, hc, hv⟩
      cases hc
      rw [h2] at hv; exact hv

/-- Everything that can happen. -/
theorem asking104 (h : parseCmdline env sys args = .ok (cmd, o)) (ht : t.input.error = none) :
    (∃ t', parseAsking env x sys l args t = .ok (cmd, o, t') ∧ (∃ n, Readers cmd.calls n ∧ n ≤ 1) ∧
      (MustAsk sys o.warn cmd.calls → ¬ FromStdin cmd.calls ∧ SaysYes l t ∧ t'.input = { t.input with data := (lines t.input.data).tail.flatten }) ∧
      (¬ MustAsk sys o.warn cmd.calls → (FromStdin cmd.calls → t'.input.data = []) ∧ (¬ FromStdin cmd.calls → t'.input = t.input)) ∧
      ((∀ n, t.broken n = false) → ∃ a b c d, t'.shown = t.shown ++ a ++ b ++ c ++ d ∧
        (Given ["-mount"] cmd.calls ∧ Given ["-x", "-xdev"] cmd.calls ∧ o.warn = true → a = x.redundant) ∧
        (¬ (Given ["-mount"] cmd.calls ∧ Given ["-x", "-xdev"] cmd.calls ∧ o.warn = true) → a = []) ∧
        (UselessPrune cmd.calls ∧ o.warn = true → b = x.useless ∧ d = [10]) ∧ (¬ (UselessPrune cmd.calls ∧ o.warn = true) → b = [] ∧ d = []) ∧
        (MustAsk sys o.warn cmd.calls → c = x.goOn) ∧ (¬ MustAsk sys o.warn cmd.calls → c = []))) ∨
    ((∃ m, parseAsking env x sys l args t = .err m) ∧
      ((∃ n, Readers cmd.calls n ∧ 2 ≤ n) ∨ (MustAsk sys o.warn cmd.calls ∧ (FromStdin cmd.calls ∨ ¬ SaysYes l t)))) := by
  obtain ⟨hp, _, _⟩ := (C75_iff env sys args cmd o).1 h
  have hm : ∀ c ∈ cmd.calls, table[c.1]? ≠ none := fun c hc => by obtain ⟨e, _, h, _⟩ := parsed_made hp c hc; rw [h]; simp
  have hf := files104 h
  unfold parseAsking
  rw [h]
  dsimp only [Out.bind]
  rcases rememberAll_cases cmd.calls {} hm with ⟨a1, _, m, a3⟩ | ⟨a1, p, a3, a4, a5, a6, a7, a8⟩
  · rw [a3]
    refine .inr ⟨⟨m, rfl⟩, .inl ?_⟩
    by_cases hs : FromStdin cmd.calls
    · exact ⟨_, .inl ⟨hs, rfl⟩, Nat.le_succ_of_le a1⟩
    · exact ⟨_, .inr ⟨hs, rfl⟩, a1⟩
  · rw [a3]
    dsimp only [Out.bind]
    simp only [Option.isSome_none, Bool.false_or, Bool.toNat_false, Nat.add_zero] at a1 a4 a5 a6 a7 a8
    have hn : cmd.calls.countP (fun c : Call => c.is ["-ok", "-okdir"]) ≤ 1 := by omega
    have hany : cmd.calls.any (fun c : Call => c.is ["-ok", "-okdir"]) = true ↔ 0 < cmd.calls.countP (fun c : Call => c.is ["-ok", "-okdir"]) := by
      rw [List.countP_pos_iff, List.any_eq_true]
    have hu : (p.depth.isSome = true ∧ p.prune.isSome = true) ↔ UselessPrune cmd.calls := by
      rw [a5, a6, any_depth, any_given]; rfl
    have hx : (p.mount.isSome = true ∧ p.xdev.isSome = true) ↔ (Given ["-mount"] cmd.calls ∧ Given ["-x", "-xdev"] cmd.calls) := by
      rw [a7, a8, any_given, any_given]
    -- `-files0-from`
    have hfiles : (∃ t1 : Console, files0 o p t = .ok t1 ∧ (∃ n, Readers cmd.calls n ∧ n ≤ 1) ∧ t1.shown = t.shown ∧ t1.broken = t.broken ∧ t1.input.error = none ∧
        (FromStdin cmd.calls → t1.input.data = []) ∧ (¬ FromStdin cmd.calls → t1 = t)) ∨
        (∃ m, files0 o p t = .err m) ∧ ∃ n, Readers cmd.calls n ∧ 2 ≤ n := by
      unfold files0
      by_cases hs : FromStdin cmd.calls
      · rw [if_pos (hf.2 hs)]
        unfold consumeStdin
        cases hst : p.stdin with
        | some c =>
          refine .inr ⟨⟨_, rfl⟩, _, .inl ⟨hs, rfl⟩, ?_⟩
          have := hany.1 (by rw [← a4, hst]; rfl)
          omega
        | none =>
          have h0 : ¬ 0 < cmd.calls.countP (fun c : Call => c.is ["-ok", "-okdir"]) := fun h0 => by
            have := hany.2 h0
            rw [← a4, hst] at this
            cases this
          dsimp only [Out.bind]
          rw [Io.files0Roots, Io.files0Loop_ok _ _ _ (by omega), ht]
          exact .inl ⟨_, rfl, ⟨_, .inl ⟨hs, rfl⟩, by omega⟩, rfl, rfl, by first | rfl | exact ht, fun _ => rfl, fun h => absurd hs h⟩
      · rw [if_neg (fun h => hs (hf.1 h))]
        exact .inl ⟨t, rfl, ⟨_, .inr ⟨hs, rfl⟩, hn⟩, rfl, rfl, ht, fun h => absurd h hs, fun _ => rfl⟩
    rcases hfiles with ⟨t1, b1, b2, b3, b4, b5, b6, b7⟩ | ⟨⟨m, b1⟩, b2⟩
    · rw [b1]
      dsimp only [Out.bind]
      -- `-mount` and `-xdev`
      obtain ⟨c1, c2, c3⟩ : (warnMount x o p t1).input = t1.input ∧ (warnMount x o p t1).broken = t1.broken ∧ ((∀ n, t.broken n = false) → ∃ a, (warnMount x o p t1).shown = t1.shown ++ a ∧
          (Given ["-mount"] cmd.calls ∧ Given ["-x", "-xdev"] cmd.calls ∧ o.warn = true → a = x.redundant) ∧
          (¬ (Given ["-mount"] cmd.calls ∧ Given ["-x", "-xdev"] cmd.calls ∧ o.warn = true) → a = [])) := by
        unfold warnMount
        by_cases hg : p.mount.isSome = true ∧ p.xdev.isSome = true
        · rw [if_pos hg]
          by_cases hw : o.warn = true
          · rw [if_pos hw]
            refine ⟨(print_input _ _).1, (print_input _ _).2, fun hb => ⟨x.redundant, ?_, fun _ => rfl, fun hc => absurd ⟨(hx.1 hg).1, (hx.1 hg).2, hw⟩ hc⟩⟩
            rw [print_ok (by rw [b4]; exact hb)]
          · rw [if_neg hw]
            exact ⟨rfl, rfl, fun _ => ⟨[], by simp, fun hc => absurd hc.2.2 hw, fun _ => rfl⟩⟩
        · rw [if_neg hg]
          exact ⟨rfl, rfl, fun _ => ⟨[], by simp, fun hc => absurd (hx.2 ⟨hc.1, hc.2.1⟩) hg, fun _ => rfl⟩⟩
      generalize hT : warnMount x o p t1 = T at c1 c2 c3 ⊢
      unfold askPrune
      by_cases hq : o.warn = true ∧ p.depth.isSome = true ∧ p.prune.isSome = true
      · rw [if_pos hq]
        have hU : UselessPrune cmd.calls := hu.1 hq.2
        have hpi := print_input T x.useless
        have hsy : SaysYes l (T.print x.useless).2 ↔ SaysYes l t1 := by unfold SaysYes; rw [hpi.1, c1]
        rcases goOn104 (x := x) (sys := sys) (l := l) (T.print x.useless).2 (by rw [hpi.1, c1]; exact b5) with ⟨g1, g2⟩ | ⟨g1, g2, g3⟩ | ⟨g1, g2, m, g3⟩
        · rw [g2]
          dsimp only [Out.bind]
          have hna : ¬ MustAsk sys o.warn cmd.calls := fun h => g1 ⟨h.2.2.1, h.2.2.2⟩
          refine .inl ⟨_, rfl, b2, fun h => absurd h hna, fun _ => ⟨fun hs => ?_, fun hs => ?_⟩, fun hb => ?_⟩
          · rw [(print_input _ _).1, hpi.1, c1]; exact b6 hs
          · rw [(print_input _ _).1, hpi.1, c1, b7 hs]
          · obtain ⟨a, e1, e2, e3⟩ := c3 hb
            refine ⟨a, x.useless, [], [10], ?_, e2, e3, fun _ => ⟨rfl, rfl⟩, fun hc => absurd ⟨hU, hq.1⟩ hc, fun hc => absurd hc hna, fun _ => rfl⟩
            rw [print_ok (by rw [hpi.2, c2, b4]; exact hb)]
            dsimp only
            rw [print_ok (by rw [c2, b4]; exact hb)]
            dsimp only
            rw [e1, b3, List.append_nil]
        · rw [g3]
          dsimp only [Out.bind]
          have hma : MustAsk sys o.warn cmd.calls := ⟨hU, hq.1, g1⟩
          have hnf : ¬ FromStdin cmd.calls := by
            intro hs
            have := hsy.1 g2
            unfold SaysYes at this
            rw [b6 hs] at this
            cases this
          have ht1 := b7 hnf
          subst ht1
          refine .inl ⟨_, rfl, b2, fun _ => ⟨hnf, hsy.1 g2, ?_⟩, fun hc => absurd hma hc, fun hb => ?_⟩
          · rw [(print_input _ _).1, hpi.1, c1]
          · obtain ⟨a, e1, e2, e3⟩ := c3 hb
            refine ⟨a, x.useless, x.goOn, [10], ?_, e2, e3, fun _ => ⟨rfl, rfl⟩, fun hc => absurd ⟨hU, hq.1⟩ hc, fun _ => rfl, fun hc => absurd hma hc⟩
            have hb2 : ∀ n, (T.print x.useless).2.broken n = false := by rw [hpi.2, c2]; exact hb
            have hb3 : ∀ n, ((T.print x.useless).2.print x.goOn).2.broken n = false := by rw [(print_input _ _).2]; exact hb2
            rw [print_ok (by exact hb3)]
            dsimp only
            rw [print_ok hb2]
            dsimp only
            rw [print_ok (by rw [c2]; exact hb)]
            dsimp only
            rw [e1]
        · rw [g3]
          refine .inr ⟨⟨m, rfl⟩, .inr ⟨⟨hU, hq.1, g1⟩, ?_⟩⟩
          by_cases hs : FromStdin cmd.calls
          · exact .inl hs
          · rw [hsy, b7 hs] at g2; exact .inr g2
      · rw [if_neg hq]
        have hna : ¬ (UselessPrune cmd.calls ∧ o.warn = true) := fun hc => hq ⟨hc.2, hu.2 hc.1⟩
        have hna' : ¬ MustAsk sys o.warn cmd.calls := fun hc => hna ⟨hc.1, hc.2.1⟩
        refine .inl ⟨T, rfl, b2, fun h => absurd h hna', fun _ => ⟨fun hs => ?_, fun hs => ?_⟩, fun hb => ?_⟩
        · rw [c1]; exact b6 hs
        · rw [c1, b7 hs]
        · obtain ⟨a, e1, e2, e3⟩ := c3 hb
          exact ⟨a, [], [], [], by rw [e1, b3]; simp, e2, e3, fun h => absurd h hna, fun _ => ⟨rfl, rfl⟩, fun h => absurd h hna', fun _ => rfl⟩
    · rw [b1]
      exact .inr ⟨⟨m, rfl⟩, .inl b2⟩

theorem readers104 {calls : List Call} {m n : Nat} (h : Readers calls m) (h' : Readers calls n) : m = n := by
  rcases h with ⟨h1, rfl⟩ | ⟨h1, rfl⟩ <;> rcases h' with ⟨h2, rfl⟩ | ⟨h2, rfl⟩
  · rfl
  · exact absurd h1 h2
  · exact absurd h2 h1
  · rfl

theorem parsed104 (h : parseAsking env x sys l args t = .ok (cmd, o, t')) : parseCmdline env sys args = .ok (cmd, o) := by
  unfold parseAsking at h
  obtain ⟨r, h1, h⟩ := Out.bind_eq_ok.1 h
  obtain ⟨p, _, h⟩ := Out.bind_eq_ok.1 h
  obtain ⟨t1, _, h⟩ := Out.bind_eq_ok.1 h
  obtain ⟨t2, _, h⟩ := Out.bind_eq_ok.1 h
  cases h
  exact h1

/-- **C104.** A command line that is right otherwise is accepted if and only if it has no more than one reader of standard input, and the user, if they must be asked, says yes; they can't if
everything in standard input was a root. -/
theorem C104_accepted (h : parseCmdline env sys args = .ok (cmd, o)) (ht : t.input.error = none) :
    (∃ t', parseAsking env x sys l args t = .ok (cmd, o, t')) ↔
      (∃ n, Readers cmd.calls n ∧ n ≤ 1) ∧ (MustAsk sys o.warn cmd.calls → ¬ FromStdin cmd.calls ∧ SaysYes l t) := by
  rcases asking104 (x := x) (l := l) h ht with ⟨t', h1, h2, h3, _⟩ | ⟨⟨m, h1⟩, h2⟩
  · exact ⟨fun _ => ⟨h2, fun hm => ⟨(h3 hm).1, (h3 hm).2.1⟩⟩, fun _ => ⟨t', h1⟩⟩
  · constructor
    · rintro ⟨t', h3⟩; rw [h1] at h3; cases h3
    · rintro ⟨⟨n, hn, hle⟩, hy⟩
      rcases h2 with ⟨n', hn', hle'⟩ | ⟨hm, hs | hs⟩
      · rw [readers104 hn hn'] at hle; omega
      · exact absurd hs (hy hm).1
      · exact absurd (hy hm).2 hs

/-- C104 (and otherwise it is an error: nothing is searched). -/
theorem C104_total (ht : t.input.error = none) : (∃ r, parseAsking env x sys l args t = .ok r) ∨ ∃ m, parseAsking env x sys l args t = .err m := by
  rcases C75_total env sys args with ⟨cmd, o, h⟩ | ⟨m, h⟩
  · rcases asking104 (x := x) (l := l) h ht with ⟨t', h1, _⟩ | ⟨h1, _⟩
    · exact .inl ⟨_, h1⟩
    · exact .inr h1
  · exact .inr ⟨m, by unfold parseAsking; rw [h]; rfl⟩

/-- C104 (consent). If `-prune` is useless, the user is at a terminal, and warnings are wanted, then the search begins only after they were asked, and said yes; that line is used up, and no more. -/
theorem C104_consent (h : parseAsking env x sys l args t = .ok (cmd, o, t')) (ht : t.input.error = none) (hb : ∀ n, t.broken n = false) (hm : MustAsk sys o.warn cmd.calls) :
    SaysYes l t ∧ t'.input.data = (lines t.input.data).tail.flatten ∧ ∃ a, t'.shown = t.shown ++ a ++ x.useless ++ x.goOn ++ [10] := by
  have hp := parsed104 h
  rcases asking104 (x := x) (l := l) hp ht with ⟨t1, h1, _, h3, _, h5⟩ | ⟨⟨m, h1⟩, _⟩
  · rw [h] at h1
    cases h1
    obtain ⟨a, b, c, d, e1, _, _, e4, _, e6, _⟩ := h5 hb
    refine ⟨(h3 hm).2.1, by rw [(h3 hm).2.2], a, ?_⟩
    rw [e1, (e4 ⟨hm.1, hm.2.1⟩).1, (e4 ⟨hm.1, hm.2.1⟩).2, e6 hm]
  · rw [h] at h1; cases h1

/-- C104 (no questions otherwise). Nothing is read from the terminal unless it is for a question, or for the roots. -/
theorem C104_unasked (h : parseAsking env x sys l args t = .ok (cmd, o, t')) (ht : t.input.error = none) (hm : ¬ MustAsk sys o.warn cmd.calls) (hf : ¬ FromStdin cmd.calls) :
    t'.input = t.input := by
  rcases asking104 (x := x) (l := l) (parsed104 h) ht with ⟨t1, h1, _, _, h4, _⟩ | ⟨⟨m, h1⟩, _⟩
  · rw [h] at h1; cases h1; exact (h4 hm).2 hf
  · rw [h] at h1; cases h1

/-- C104 (no warnings otherwise). Nothing is shown if warnings aren't wanted, or if there is no reason for one. -/
theorem C104_silent (h : parseAsking env x sys l args t = .ok (cmd, o, t')) (ht : t.input.error = none) (hb : ∀ n, t.broken n = false)
    (hq : o.warn = false ∨ (¬ UselessPrune cmd.calls ∧ ¬ (Given ["-mount"] cmd.calls ∧ Given ["-x", "-xdev"] cmd.calls))) : t'.shown = t.shown := by
  rcases asking104 (x := x) (l := l) (parsed104 h) ht with ⟨t1, h1, _, _, _, h5⟩ | ⟨⟨m, h1⟩, _⟩
  · rw [h] at h1
    cases h1
    obtain ⟨a, b, c, d, e1, _, e3, _, e5, _, e7⟩ := h5 hb
    have hw : o.warn = true → ¬ UselessPrune cmd.calls ∧ ¬ (Given ["-mount"] cmd.calls ∧ Given ["-x", "-xdev"] cmd.calls) := fun hw => by
      rcases hq with hq | hq
      · rw [hw] at hq; cases hq
      · exact hq
    rw [e1, e3 (fun hc => (hw hc.2.2).2 ⟨hc.1, hc.2.1⟩), (e5 fun hc => (hw hc.2).1 hc.1).1, (e5 fun hc => (hw hc.2).1 hc.1).2, e7 (fun hc => (hw hc.2.1).1 hc.1)]
    simp
  · rw [h] at h1; cases h1

/-- C104 (warnings). If they are wanted, one is shown for each of the two conflicts. -/
theorem C104_warned (h : parseAsking env x sys l args t = .ok (cmd, o, t')) (ht : t.input.error = none) (hb : ∀ n, t.broken n = false) (hw : o.warn = true) :
    (Given ["-mount"] cmd.calls → Given ["-x", "-xdev"] cmd.calls → ∃ s, t'.shown = t.shown ++ x.redundant ++ s) ∧
    (UselessPrune cmd.calls → ∃ a s, t'.shown = t.shown ++ a ++ x.useless ++ s) := by
  rcases asking104 (x := x) (l := l) (parsed104 h) ht with ⟨t1, h1, _, _, _, h5⟩ | ⟨⟨m, h1⟩, _⟩
  · rw [h] at h1
    cases h1
    obtain ⟨a, b, c, d, e1, e2, _, e4, _⟩ := h5 hb
    refine ⟨fun h1 h2 => ⟨b ++ c ++ d, ?_⟩, fun h1 => ⟨a, c ++ d, ?_⟩⟩
    · rw [e1, e2 ⟨h1, h2, hw⟩]; simp
    · rw [e1, (e4 ⟨h1, hw⟩).1]; simp
  · rw [h] at h1; cases h1

/-- C104 (two readers). Two commands that ask can't be on the same command line: the second would read the answers of the first. -/
theorem C104_two_readers (h : parseCmdline env sys args = .ok (cmd, o)) (ht : t.input.error = none) (before between after : List Call) (c d : Call)
    (hc : cmd.calls = before ++ c :: between ++ d :: after) (h1 : c.is ["-ok", "-okdir"] = true) (h2 : d.is ["-ok", "-okdir"] = true) :
    ∃ m, parseAsking env x sys l args t = .err m := by
  rcases asking104 (x := x) (l := l) h ht with ⟨t', _, ⟨n, h3, h4⟩, _⟩ | ⟨h3, _⟩
  · exfalso
    have : 2 ≤ cmd.calls.countP (fun c : Call => c.is ["-ok", "-okdir"]) := by
      rw [hc, List.countP_append, List.countP_append, List.countP_cons, List.countP_cons, if_pos h1, if_pos h2]
      omega
    rcases h3 with ⟨_, rfl⟩ | ⟨_, rfl⟩ <;> omega
  · exact h3

/-! ## Ignored results -/

def sys104 : Sys := { startSys with stdinTty := true, stderrTty := true }

def texts104 : Texts := { unknown := fun a b => a ++ [63] ++ b, redundant := [82], useless := [85], goOn := [71], ignored := [73] }

/-- Someone types this. -/
def console104 (s : String) : Console := ⟨⟨A s, none⟩, [], 0, fun _ => false⟩

theorem optIgnore104 (t : Console) (e : Ignored) (ht : t.input.error = none) :
    (Pointless e && o.warn) = false ∧ optIgnore x sys l o e t = .ok t ∨
    (Pointless e && o.warn) = true ∧ ¬ (o.dangerous = true ∧ sys.stdinTty = true ∧ sys.stderrTty = true) ∧ (∃ t', optIgnore x sys l o e t = .ok t' ∧ t'.input = t.input) ∨
    (Pointless e && o.warn) = true ∧ (o.dangerous = true ∧ sys.stdinTty = true ∧ sys.stderrTty = true) ∧
      (SaysYes l t ∧ (∃ t', optIgnore x sys l o e t = .ok t' ∧ t'.input = { t.input with data := (lines t.input.data).tail.flatten }) ∨ ¬ SaysYes l t ∧ ∃ m, optIgnore x sys l o e t = .err m) := by
  unfold optIgnore optWarning Pointless
  cases h1 : e.test <;> cases h2 : e.parent <;> cases h3 : e.const <;> cases h4 : e.given <;> cases h5 : o.warn <;> try (exact .inl ⟨rfl, rfl⟩)
  refine .inr ?_
  have hpi := (print_input t x.ignored).1
  cases hd : o.dangerous with
  | false => exact .inl ⟨rfl, fun h => (by cases h.1), _, rfl, by rw [(print_input _ _).1, hpi]⟩
  | true =>
    have hsy : SaysYes l (t.print x.ignored).2 ↔ SaysYes l t := by unfold SaysYes; rw [hpi]
    simp only [Bool.not_true, Bool.false_eq_true, if_false, Bool.or_self, Bool.not_false, Bool.and_self, if_true]
    rcases goOn104 (x := x) (sys := sys) (l := l) (t.print x.ignored).2 (by rw [hpi]; exact ht) with ⟨g1, g2⟩ | ⟨g1, g2, g3⟩ | ⟨g1, g2, m, g3⟩
    · rw [g2]
      exact .inl ⟨trivial, fun h => g1 h.2, _, rfl, by rw [(print_input _ _).1, hpi]⟩
    · rw [g3]
      exact .inr ⟨trivial, ⟨trivial, g1⟩, .inl ⟨hsy.1 g2, _, rfl, by rw [(print_input _ _).1, hpi]⟩⟩
    · rw [g3]
      exact .inr ⟨trivial, ⟨trivial, g1⟩, .inr ⟨fun h => g2 (hsy.2 h), m, rfl⟩⟩

/-- C104 (ignored results). If files may be changed, the user is at a terminal, and warnings are wanted, then the search begins only if they say yes for each test whose result is ignored, in one line each;
nothing else is read. -/
theorem C104_ignored (hw : o.warn = true) (hd : o.dangerous = true) (hi : sys.stdinTty = true ∧ sys.stderrTty = true) : ∀ (es : List Ignored) (t : Console), t.input.error = none →
    ((∃ t', optIgnoreAll x sys l o es t = .ok t') ↔ ∀ i < (es.filter Pointless).length, affirmative l (lines t.input.data)[i]? = true) ∧
    (∀ t', optIgnoreAll x sys l o es t = .ok t' → t'.input.data = ((lines t.input.data).drop (es.filter Pointless).length).flatten) ∧
    ((∃ t', optIgnoreAll x sys l o es t = .ok t') ∨ ∃ m, optIgnoreAll x sys l o es t = .err m) := by
  intro es
  induction es with
  | nil =>
    intro t _
    exact ⟨⟨fun _ i h => absurd h (Nat.not_lt_zero _), fun _ => ⟨t, rfl⟩⟩, fun t' h => by cases h; simp [Prompt.lines_flatten], .inl ⟨t, rfl⟩⟩
  | cons e es ih =>
    intro t ht
    unfold optIgnoreAll
    rcases optIgnore104 (x := x) (sys := sys) (l := l) (o := o) t e ht with ⟨h1, h2⟩ | ⟨_, h2, _⟩ | ⟨h1, _, h3⟩
    · rw [hw, Bool.and_true] at h1
      rw [h2, List.filter_cons_of_neg (by rw [h1]; simp)]
      exact ih t ht
    · exact absurd ⟨hd, hi⟩ h2
    · rw [hw, Bool.and_true] at h1
      rw [List.filter_cons_of_pos h1, List.length_cons]
      rcases h3 with ⟨hy, t1, h3, h4⟩ | ⟨hy, m, h3⟩
      · rw [h3]
        dsimp only [Out.bind]
        have hl : lines t1.input.data = (lines t.input.data).drop 1 := by
          rw [h4]
          have := Prompt.lines_drop t.input.data 1
          rwa [List.drop_one] at this ⊢
        obtain ⟨i1, i2, i3⟩ := ih t1 (by rw [h4]; exact ht)
        rw [hl] at i1 i2
        refine ⟨i1.trans ⟨fun h i hlt => ?_, fun h i hlt => ?_⟩, fun t' h => ?_, i3⟩
        · cases i with
          | zero => unfold SaysYes at hy; rwa [List.head?_eq_getElem?] at hy
          | succ i =>
            have := h i (by omega)
            rwa [List.getElem?_drop, Nat.add_comm] at this
        · rw [List.getElem?_drop, Nat.add_comm]
          exact h (i + 1) (by omega)
        · rw [i2 t' h, List.drop_drop, Nat.add_comm]
      · rw [h3]
        refine ⟨⟨fun h => (by obtain ⟨_, h⟩ := h; cases h), fun h => ?_⟩, fun t' h => (by cases h), .inr ⟨m, rfl⟩⟩
        have := h 0 (by omega)
        rw [← List.head?_eq_getElem?] at this
        exact absurd this hy

theorem shown104 (t t' : Console) (e : Ignored) (hb : ∀ n, t.broken n = false) (h : optIgnore x sys l o e t = .ok t') :
    t'.broken = t.broken ∧ t'.shown = t.shown ++ (if Pointless e && o.warn then x.ignored ++ (if o.dangerous ∧ sys.stdinTty = true ∧ sys.stderrTty = true then x.goOn else []) ++ [10] else []) := by
  have hy : ∀ t : Console, (ynprompt l t).2.broken = t.broken ∧ (ynprompt l t).2.shown = t.shown := by
    intro t; unfold ynprompt; split <;> exact ⟨rfl, rfl⟩
  have hp : ∀ (t : Console) (y : List UInt8), (∀ n, t.broken n = false) → (t.print y).2.broken = t.broken ∧ (t.print y).2.shown = t.shown ++ y := by
    intro t y hb; rw [print_ok hb]; exact ⟨rfl, rfl⟩
  unfold optIgnore optWarning at h
  unfold Pointless
  cases h1 : e.test <;> cases h2 : e.parent <;> cases h3 : e.const <;> cases h4 : e.given <;> cases h5 : o.warn <;> rw [h1, h2, h3, h4, h5] at h <;>
    try (cases h; exact ⟨rfl, by simp⟩)
  simp only [Bool.not_true, Bool.false_eq_true, if_false, Bool.or_self, Bool.not_false, Bool.and_self, if_true] at h ⊢
  obtain ⟨p1, p2⟩ := hp t x.ignored hb
  obtain ⟨t1, h6, h7⟩ := Out.bind_eq_ok.1 h
  cases h7
  have key : t1.broken = t.broken ∧ t1.shown = t.shown ++ x.ignored ++ (if o.dangerous ∧ sys.stdinTty = true ∧ sys.stderrTty = true then x.goOn else []) := by
    cases hd : o.dangerous with
    | false => rw [hd] at h6; cases h6; rw [p1, p2]; simp
    | true =>
      rw [hd, if_pos rfl] at h6
      unfold goOn interactive at h6
      by_cases hi : (sys.stdinTty && sys.stderrTty) = true
      · rw [if_pos hi] at h6
        have hi' : sys.stdinTty = true ∧ sys.stderrTty = true := by simpa using hi
        split at h6
        · cases h6
        · cases h6
          obtain ⟨q1, q2⟩ := hp (t.print x.ignored).2 x.goOn (by rw [p1]; exact hb)
          rw [(hy _).1, (hy _).2, q1, q2, p1, p2, if_pos ⟨rfl, hi'⟩]
          exact ⟨rfl, rfl⟩
      · rw [if_neg hi] at h6
        cases h6
        rw [p1, p2, if_neg (fun hh => hi (by simp [hh.2]))]
        simp
  obtain ⟨q1, q2⟩ := hp t1 [10] (by rw [key.1]; exact hb)
  rw [q1, q2, key.1, key.2]
  exact ⟨rfl, by simp⟩

/-- C104 (what is said about ignored results). If warnings are wanted, there is one for each test whose result is ignored, with the question only if it is asked; otherwise nothing is shown. -/
theorem C104_ignored_shown : ∀ (es : List Ignored) (t t' : Console), (∀ n, t.broken n = false) → optIgnoreAll x sys l o es t = .ok t' →
    t'.shown = t.shown ++ (if o.warn then ((es.filter Pointless).map fun _ =>
      x.ignored ++ (if o.dangerous ∧ sys.stdinTty = true ∧ sys.stderrTty = true then x.goOn else []) ++ [10]).flatten else []) := by
  intro es
  induction es with
  | nil => intro t t' _ h; cases h; cases o.warn <;> simp
  | cons e es ih =>
    intro t t' hb h
    unfold optIgnoreAll at h
    obtain ⟨t1, h1, h2⟩ := Out.bind_eq_ok.1 h
    obtain ⟨s1, s2⟩ := shown104 t t1 e hb h1
    rw [ih t1 t' (by rw [s1]; exact hb) h2, s2]
    cases hp : Pointless e with
    | false => rw [List.filter_cons_of_neg (by rw [hp]; simp)]; cases o.warn <;> simp
    | true => rw [List.filter_cons_of_pos hp]; cases o.warn <;> simp

/-- C104 (and otherwise there is no question). -/
theorem C104_ignored_unasked (hn : ¬ (o.warn = true ∧ o.dangerous = true ∧ sys.stdinTty = true ∧ sys.stderrTty = true)) : ∀ (es : List Ignored) (t : Console), t.input.error = none →
    ∃ t', optIgnoreAll x sys l o es t = .ok t' ∧ t'.input = t.input := by
  intro es
  induction es with
  | nil => intro t _; exact ⟨t, rfl, rfl⟩
  | cons e es ih =>
    intro t ht
    unfold optIgnoreAll
    rcases optIgnore104 (x := x) (sys := sys) (l := l) (o := o) t e ht with ⟨_, h2⟩ | ⟨_, _, t1, h2, h3⟩ | ⟨h1, h2, _⟩
    · rw [h2]; exact ih t ht
    · rw [h2]
      obtain ⟨t', h4, h5⟩ := ih t1 (by rw [h3]; exact ht)
      exact ⟨t', h4, by rw [h5, h3]⟩
    · exact absurd ⟨(Bool.and_eq_true _ _ ▸ h1).2, h2⟩ hn

/-- Two ignored tests, and an operator. -/
example : ((optIgnoreAll texts104 sys104 english83 { defaults sys104 with dangerous := true } [⟨true, false, false, true⟩, ⟨false, true, false, true⟩, ⟨true, false, false, true⟩]
      (console104 "y\ny\nz\n")).bind fun t => .ok (t.input.data, t.shown)) = .ok (A "z\n", A "IG\nIG\n") ∧ (defaults sys104).warn = true ∧
    ((optIgnoreAll texts104 sys104 english83 { defaults sys104 with dangerous := true } [⟨true, false, false, true⟩, ⟨true, false, false, true⟩]
      (console104 "y\nn\n")).bind fun t => .ok (t.input.data, t.shown)) = .err "NULL" := by decide +kernel

/-! ## Misspelled arguments -/

/-- C104 (known arguments). No question is asked about an argument that is known, or that can't be one. -/
theorem C104_known (hk : (args.headD []).head? ≠ some 45 ∨ tableLookup (args.headD []) ≠ none ∨ isFlagGroup (args.headD []) = true) :
    parsePrimary env x sys l args t = (prim env args, t) := by
  unfold parsePrimary prim
  dsimp only
  by_cases h1 : (args.headD []).head? ≠ some 45
  · rw [if_pos h1, if_pos h1]
  · rw [if_neg h1, if_neg h1]
    cases h2 : tableLookup (args.headD []) with
    | some i =>
      dsimp only
      cases h3 : table[i]?.bind fun e => e.parse <;> rfl
    | none =>
      dsimp only
      have h3 : isFlagGroup (args.headD []) = true := by
        rcases hk with hk | hk | hk
        · exact absurd hk h1
        · exact absurd h2 hk
        · exact hk
      rw [if_pos h3, if_pos h3]

/-- C104 (misspelled arguments). The suggestion is one of the known arguments, and none is more similar. If the user is at a terminal, it isn't an operator, and they say yes, it is as if they had written
that; otherwise, the argument is refused, whatever else it says. -/
theorem C104_misspelled (hd : (args.headD []).head? = some 45) (hn : tableLookup (args.headD []) = none) (hg : isFlagGroup (args.headD []) = false) (hb : ∀ n, t.broken n = false) :
    ∃ e ∈ table, (∀ e' ∈ table, Typo.typoDistance (args.headD []) e.arg ≤ Typo.typoDistance (args.headD []) e'.arg) ∧
      ((sys.stdinTty = true ∧ sys.stderrTty = true ∧ e.parse ≠ none ∧ SaysYes l t →
        (parsePrimary env x sys l args t).1 = prim env (e.arg :: args.tail)) ∧
      (¬ (sys.stdinTty = true ∧ sys.stderrTty = true ∧ e.parse ≠ none ∧ SaysYes l t) → ∃ m, (parsePrimary env x sys l args t).1 = .err m) ∧
      (∃ s, (parsePrimary env x sys l args t).2.shown = t.shown ++ x.unknown (args.headD []) e.arg ++ s) ∧
      (sys.stdinTty = true ∧ sys.stderrTty = true ∧ e.parse ≠ none → (parsePrimary env x sys l args t).2.input.data = (lines t.input.data).tail.flatten) ∧
      (¬ (sys.stdinTty = true ∧ sys.stderrTty = true ∧ e.parse ≠ none) → (parsePrimary env x sys l args t).2.input = t.input)) := by
  obtain ⟨i, e, h1, h2, h3⟩ := fuzzy_first (args.headD [])
  have hi : tableLookup e.arg = some i := lookup_first h2 fun j e' hj hlt heq => by
    have := (h3 j e' hj).2 hlt
    rw [heq] at this
    exact absurd this (Nat.lt_irrefl _)
  have h45 : e.parse ≠ none → e.arg.head? = some 45 := by
    have hall : table.all (fun e => e.parse.isNone || e.arg.head? == some 45) = true := by decide +kernel
    have := List.all_eq_true.1 hall e (List.mem_of_getElem? h2)
    intro hp
    cases hpe : e.parse with
    | none => exact absurd hpe hp
    | some p => rw [hpe] at this; simpa using this
  have hv : parsePrimary env x sys l args t = suggest env x sys l args t i e := by
    unfold parsePrimary
    dsimp only
    rw [if_neg (by rw [hd]; simp), hn]
    dsimp only
    rw [if_neg (by rw [hg]; simp), h1, Option.bind_some, h2]
    rfl
  rw [hv]
  refine ⟨e, List.mem_of_getElem? h2, fun e' he' => ?_, ?_⟩
  · obtain ⟨j, hj⟩ := List.getElem?_of_mem he'
    exact (h3 j e' hj).1
  · generalize hu : x.unknown (args.headD []) e.arg = u
    have hs : suggest env x sys l args t i e = match e.parse with
        | none => (.err "unknown argument", ((t.print u).2.print [10]).2)
        | some p =>
          if !interactive sys then (.err "unknown argument", ((t.print u).2.print [10]).2)
          else if (ynprompt l ((t.print u).2.print [32]).2).1 ≤ 0 then (.err "unknown argument", (ynprompt l ((t.print u).2.print [32]).2).2)
          else (callParse env i p (e.arg :: args.tail), ((ynprompt l ((t.print u).2.print [32]).2).2.print [10]).2) := by
      unfold suggest; rw [hu]; cases e.parse <;> rfl
    have hb2 : ∀ y n, ((t.print u).2.print y).2.broken n = false := fun y n => by rw [(print_input _ _).2, (print_input _ _).2]; exact hb n
    have hin : ∀ y, ((t.print u).2.print y).2.input = t.input := fun y => by rw [(print_input _ _).1, (print_input _ _).1]
    have hsh : ∀ y, ((t.print u).2.print y).2.shown = t.shown ++ u ++ y := fun y => by
      rw [print_ok (by rw [(print_input _ _).2]; exact hb), print_ok hb]
    have hy := ynprompt_saysYes l ((t.print u).2.print [32]).2
    have hl := (Prompt.ynprompt_line l ((t.print u).2.print [32]).2).2
    have hsy : SaysYes l ((t.print u).2.print [32]).2 ↔ SaysYes l t := by unfold SaysYes; rw [hin]
    rw [hs]
    cases hp : e.parse with
    | none =>
      dsimp only
      exact ⟨fun h => absurd rfl h.2.2.1, fun _ => ⟨_, rfl⟩, ⟨[10], hsh _⟩, fun h => absurd rfl h.2.2, fun _ => hin _⟩
    | some p =>
      dsimp only
      by_cases htt : interactive sys = true
      · have htt' : sys.stdinTty = true ∧ sys.stderrTty = true := by unfold interactive at htt; rwa [Bool.and_eq_true] at htt
        rw [if_neg (by rw [htt]; simp)]
        by_cases hyes : SaysYes l t
        · have := hy.2 (hsy.2 hyes)
          rw [if_neg (by omega)]
          dsimp only
          refine ⟨fun _ => ?_, fun h => absurd ⟨htt'.1, htt'.2, by simp, hyes⟩ h, ⟨[32] ++ [10], ?_⟩, fun _ => ?_, fun h => absurd ⟨htt'.1, htt'.2, by simp⟩ h⟩
          · have h45' := h45 (by rw [hp]; simp)
            unfold prim
            simp only [List.headD_cons]
            simp only [h45', ne_eq, not_true_eq_false, if_false, hi, h2, Option.bind_some, hp]
          · rw [hl, print_ok (by exact hb2 _)]
            dsimp only
            rw [hsh, List.append_assoc]
          · rw [(print_input _ _).1, hl]
            dsimp only
            rw [hin]
        · have : ¬ 0 < (ynprompt l ((t.print u).2.print [32]).2).1 := fun h => hyes (hsy.1 (hy.1 h))
          rw [if_pos (by omega)]
          dsimp only
          refine ⟨fun h => absurd h.2.2.2 hyes, fun _ => ⟨_, rfl⟩, ⟨[32], ?_⟩, fun _ => ?_, fun h => absurd ⟨htt'.1, htt'.2, by simp⟩ h⟩
          · rw [hl]; exact hsh _
          · rw [hl]
            dsimp only
            rw [hin]
      · have htt' : ¬ (sys.stdinTty = true ∧ sys.stderrTty = true) := by unfold interactive at htt; rwa [Bool.and_eq_true] at htt
        rw [if_pos (by simpa using htt)]
        exact ⟨fun h => absurd ⟨h.1, h.2.1⟩ htt', fun _ => ⟨_, rfl⟩, ⟨[10], hsh _⟩, fun h => absurd ⟨h.1, h.2.1⟩ htt', fun _ => hin _⟩

/-! ## Examples -/

/-- What is left of the input, and what was shown. -/
def seen104 (r : Cmd × Options.Options × Console) : List UInt8 × List UInt8 := (r.2.2.input.data, r.2.2.shown)

def run104 (args : List String) (s : String) : Out (List UInt8 × List UInt8) :=
  (parseAsking cmdEnv texts104 sys104 english83 (args.map A) (console104 s)).bind fun r => .ok (seen104 r)

/-- The hypotheses of the theorems above are met, with `-depth` and `-prune`: the answers are yes, and no; `-nowarn`, or `-depth 3`, and there is no question. -/
example : run104 ["-prune", "-o", "-depth", "-print"] "yes\nok\n" = .ok (A "ok\n", A "UG\n") ∧ run104 ["-prune", "-o", "-depth", "-print"] "no\n" = .err "NULL" ∧
    run104 ["-prune", "-o", "-depth", "-print", "-nowarn"] "no\n" = .ok (A "no\n", []) ∧ run104 ["-prune", "-o", "-depth", "3", "-print"] "no\n" = .ok (A "no\n", []) ∧
    run104 ["-x", "-mount"] "no\n" = .ok (A "no\n", A "R") := by decide +kernel

/-- Readers of standard input: one, two, and one that doesn't count. -/
example : run104 ["-ok", "a", ";"] "y\n" = .ok (A "y\n", []) ∧ run104 ["-ok", "a", ";", "-o", "-okdir", "b", ";"] "y\n" = .err "can't both use standard input" ∧
    run104 ["-files0-from", "-", "-ok", "a", ";"] "y\n" = .err "can't both use standard input" ∧
    run104 ["-files0-from", "-", "-ok", "a", ";", "-files0-from", "f"] "y\n" = .ok (A "y\n", []) ∧ run104 ["-files0-from", "-"] "y\n" = .ok ([], []) := by decide +kernel

/-- With the roots from a terminal, the question can't be answered. -/
example : run104 ["-files0-from", "-", "-prune", "-delete"] "y\ny\n" = .err "NULL" := by decide +kernel

def prim104 (args : List String) (s : String) : Option (List (Nat × List Arg)) × List UInt8 × List UInt8 :=
  let r := parsePrimary cmdEnv texts104 sys104 english83 (args.map A) (console104 s)
  (match r.1 with | .ok p => some p.calls | _ => none, r.2.input.data, r.2.shown)

/-- `-nmae` is corrected to `-name` after a yes. The hypotheses of `C104_misspelled` and of `C104_known` are met. -/
example : (A "-nmae").head? = some 45 ∧ tableLookup (A "-nmae") = none ∧ isFlagGroup (A "-nmae") = false ∧ tableLookup (A "-name") ≠ none ∧
    prim104 ["-nmae", "a"] "y\n" = ((tableLookup (A "-name")).map fun i => [(i, [A "-name", A "a"])], [], A "-nmae?-name \n") ∧
    prim104 ["-nmae", "a"] "\n" = (none, [], A "-nmae?-name ") ∧
    prim104 ["-name", "a"] "y\n" = ((tableLookup (A "-name")).map fun i => [(i, [A "-name", A "a"])], A "y\n", []) := by
  refine ⟨?_, ?_, ?_, ?_, ?_, ?_, ?_⟩ <;> decide +kernel

end Verif.Props
