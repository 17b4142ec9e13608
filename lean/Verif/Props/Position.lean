import Verif.Lemmas.Position
import Verif.Props.Options
import Verif.Props.Daystart
/-!
# C103 — which flags and options count for a test
-/
namespace Verif.Props
open Verif.Position Verif.Spec.Position
open Verif.Options
open Verif.Cmdline (A Arg Cmd Tree Gram Parsed prim)
open Verif.Tests (Setting Test ParseFn callFn)
open Verif.Time (Timespec)
open Verif.Daystart (parseDaystart Clock)
open Verif.Spec.Daystart

variable {env : Cmdline.Env} {x : Outside} {args : List Arg} {cmd : Cmd} {o : Options.Options} {now : Timespec} {ts : List Test}

/-- **C103.** A test is parsed with the settings that the flags and options to the left of it say. It is where it should be among the tests. -/
theorem C103_position (h : parseCmdline env x.sys args = .ok (cmd, o)) (ht : tests x now cmd.calls = .ok ts) (before after : List Call) (c : Call) (fn : ParseFn)
    (hc : cmd.calls = before ++ c :: after) (hf : IsTest c fn) :
    ∃ s t n, SettingFor x now before s ∧ callFn s fn c.2 = .ok (t, n) ∧ ts[(before.filter fun c => (testFn c).isSome).length]? = some t := by
  obtain ⟨hp, _, _⟩ := (C75_iff env x.sys args cmd o).1 h
  have hm := parsed_made hp
  unfold tests at ht
  rw [hc] at ht
  obtain ⟨p1, ts1, ts2, a1, a2, a3, a4, a5⟩ := reached before (c :: after) _ ts ht
  have hs := setting_for (x := x) (now := now) (before := before) (p := p1) (fun d hd => hm d (by rw [hc]; exact List.mem_append_left _ hd)) a1 a2
  obtain ⟨r, h1, h2⟩ := Out.bind_eq_ok.1 a3
  obtain ⟨ts', h3, h4⟩ := Out.bind_eq_ok.1 h2
  cases h4
  obtain ⟨tc, k1, k2⟩ := Out.bind_eq_ok.1 h1
  obtain ⟨o', k3, k4⟩ := Out.bind_eq_ok.1 k2
  obtain ⟨nw, k5, k6⟩ := Out.bind_eq_ok.1 k4
  cases k6
  rcases callTest_ok k1 with ⟨f, _⟩ | ⟨fn', t, n, f, g, rfl⟩
  · rw [(testFn_iff c fn).2 hf] at f; cases f
  · rw [(testFn_iff c fn).2 hf] at f
    cases f
    refine ⟨_, t, n, hs, g, ?_⟩
    rw [← List.countP_eq_length_filter, a4, ← a5, List.getElem?_append_right (Nat.le_refl _), Nat.sub_self]
    rfl

/-- **C103 (tests).** The tests are those on the command line, no more and no fewer; what is a test does not depend on anything else. -/
theorem C103_tests (ht : tests x now cmd.calls = .ok ts) :
    ts.length = (cmd.calls.filter fun c => (testFn c).isSome).length ∧ ∀ c, (testFn c).isSome = true ↔ ∃ fn, IsTest c fn := by
  constructor
  · have ht' : parseCalls x (cmd.calls ++ []) ⟨defaults x.sys, now⟩ = .ok ts := by rw [List.append_nil]; exact ht
    obtain ⟨p1, ts1, ts2, a1, a2, a3, a4, a5⟩ := reached cmd.calls [] _ ts ht'
    cases a3
    rw [a4, List.append_nil, a5, List.countP_eq_length_filter]
  · intro c
    rw [Option.isSome_iff_exists]
    exact ⟨fun ⟨fn, h⟩ => ⟨fn, (testFn_iff c fn).1 h⟩, fun ⟨fn, h⟩ => ⟨fn, (testFn_iff c fn).2 h⟩⟩

/-- **C103 (settings).** What is to the left determines the settings. -/
theorem C103_determined (before : List Call) (s s' : Setting) (h : SettingFor x now before s) (h' : SettingFor x now before s') : s = s' := settingFor_unique h h'

/-- **C103 (acceptance).** The tests are accepted if and only if each of them is, with its own settings, and the end of the day is known wherever `-daystart` is. -/
theorem C103_accepts (h : parseCmdline env x.sys args = .ok (cmd, o)) :
    (∃ ts, tests x now cmd.calls = .ok ts) ↔
      (∀ (before : List Call) (c : Call) (after : List Call), cmd.calls = before ++ c :: after → c.is ["-daystart"] = true →
        ∀ u, Daystarts x.clock (before.countP fun c => c.is ["-daystart"]) now u → ∃ v, parseDaystart x.clock u = .ok v) ∧
      ∀ (before : List Call) (c : Call) (after : List Call) (fn : ParseFn), cmd.calls = before ++ c :: after → IsTest c fn → ∀ s, SettingFor x now before s → ∃ r, callFn s fn c.2 = .ok r := by
  obtain ⟨hp, ha, _⟩ := (C75_iff env x.sys args cmd o).1 h
  have hm := parsed_made hp
  constructor
  · rintro ⟨ts, ht⟩
    constructor
    · intro before c after hc hd u hu
      unfold tests at ht
      rw [hc] at ht
      obtain ⟨p1, ts1, ts2, a1, a2, a3, _, _⟩ := reached before (c :: after) _ ts ht
      obtain ⟨r, h1, _⟩ := Out.bind_eq_ok.1 a3
      obtain ⟨tc, k1, k2⟩ := Out.bind_eq_ok.1 h1
      obtain ⟨o', k3, k4⟩ := Out.bind_eq_ok.1 k2
      obtain ⟨nw, k5, k6⟩ := Out.bind_eq_ok.1 k4
      rw [hu.unique a2]
      have := callNow_ok k5
      rw [List.countP_singleton, if_pos hd] at this
      cases this with
      | succ _ _ w _ a b => cases a; exact ⟨_, b⟩
    · intro before c after fn hc hf s hs
      obtain ⟨s', t, n, hs', k, _⟩ := C103_position h ht before after c fn hc hf
      rw [settingFor_unique hs hs']
      exact ⟨_, k⟩
  · rintro ⟨h1, h2⟩
    exact accepted hm ha h1 (fun b c a fn hc hf s hs => h2 b c a fn hc ((testFn_iff c fn).1 hf) s hs) cmd.calls [] ⟨defaults x.sys, now⟩ rfl rfl (.zero _)

/-- **C103 (what is to the right).** If two command lines begin with the same flags, options, tests and actions, then these tests are the same, whatever follows, and whatever paths, operators and parentheses are
in between. -/
theorem C103_right {args' : List Arg} {cmd' : Cmd} {o' : Options.Options} {ts' : List Test} (h : parseCmdline env x.sys args = .ok (cmd, o)) (h' : parseCmdline env x.sys args' = .ok (cmd', o'))
    (ht : tests x now cmd.calls = .ok ts) (ht' : tests x now cmd'.calls = .ok ts') (before after after' : List Call) (hc : cmd.calls = before ++ after) (hc' : cmd'.calls = before ++ after') :
    ts.take (before.filter fun c => (testFn c).isSome).length = ts'.take (before.filter fun c => (testFn c).isSome).length := by
  have key : ∀ (before after after' : List Call) (p : Parser) (ts ts' : List Test), parseCalls x (before ++ after) p = .ok ts → parseCalls x (before ++ after') p = .ok ts' →
      ts.take (before.countP fun c => (testFn c).isSome) = ts'.take (before.countP fun c => (testFn c).isSome) := by
    intro before
    induction before with
    | nil => intro _ _ _ _ _ _ _; simp
    | cons c before ih =>
      intro after after' p ts ts' h h'
      obtain ⟨r, h1, h2⟩ := Out.bind_eq_ok.1 h
      obtain ⟨u, h3, h4⟩ := Out.bind_eq_ok.1 h2
      obtain ⟨r', h1', h2'⟩ := Out.bind_eq_ok.1 h'
      obtain ⟨u', h3', h4'⟩ := Out.bind_eq_ok.1 h2'
      rw [h1] at h1'
      cases h1'
      cases h4
      cases h4'
      have := ih after after' r.1 u u' h3 h3'
      obtain ⟨tc, k1, k2⟩ := Out.bind_eq_ok.1 h1
      obtain ⟨o', k3, k4⟩ := Out.bind_eq_ok.1 k2
      obtain ⟨nw, k5, k6⟩ := Out.bind_eq_ok.1 k4
      cases k6
      rw [List.countP_cons]
      rcases callTest_ok k1 with ⟨f, rfl⟩ | ⟨fn, t, n, f, _, rfl⟩
      · simp [f, this]
      · simp [f, this]
  rw [← List.countP_eq_length_filter]
  unfold tests at ht ht'
  rw [hc] at ht
  rw [hc'] at ht'
  exact key before after after' _ ts ts' ht ht'

/-- **C103 (order).** To the left means: earlier on the command line. In the expression, the primaries are in this order, too, from left to right, whatever the operators. -/
theorem C103_order (toks : List Cmdline.Tok) (l : Cmdline.Level) (ex : Bool) (t : Tree) (h : Gram l ex toks t) : toks.flatMap Cmdline.Tok.calls = t.prims.flatMap fun p => p.calls := gram_calls h

/-- **C103 (other tests).** Only the tests about ages, regular expressions and other files depend on this. -/
theorem C103_others (before before' : List Call) (s s' : Setting) (h : SettingFor x now before s) (h' : SettingFor x now before' s') (fn : ParseFn) (hf : ¬ Depends fn) (a : List Arg) :
    callFn s fn a = callFn s' fn a := by
  have e1 := h.others
  have e2 := h'.others
  generalize s.now = n1 at e1
  generalize s.followRoots = n2 at e1
  generalize s.followAll = n3 at e1
  generalize s.regcomp = n4 at e1
  generalize s'.now = m1 at e2
  generalize s'.followRoots = m2 at e2
  generalize s'.followAll = m3 at e2
  generalize s'.regcomp = m4 at e2
  subst e1 e2
  cases fn <;> first | rfl | exact absurd trivial hf

/-- **C103 (other files).** `-newer`, `-newerXY`, `-samefile` and the like look at the file that a link points to if the last of `-P`, `-H`, `-L` and `-follow` to the left is not `-P`; otherwise, and if there is none of them,
they look at the link. -/
theorem C103_files (before : List Call) (s : Setting) (h : SettingFor x now before s) :
    ∃ flags, ((∃ c, last ["-P", "-H", "-L", "-follow"] before = some c ∧ c.is ["-P"] = false) → flags = Stat.TRYFOLLOW) ∧
      ((∀ c, last ["-P", "-H", "-L", "-follow"] before = some c → c.is ["-P"] = true) → flags = Stat.NOFOLLOW) ∧
      ∀ name arg sb, x.setting.stat flags arg = .ok sb →
        callFn s .samefile [name, arg] = .ok (.samefile sb.dev sb.ino, 2) ∧
        (sb.has .mtime = true → ∀ field, callFn s (.newer field) [name, arg] = .ok (.newer field (sb.time .mtime), 2)) ∧
        ∀ a b fa fb, Tests.newerField a = some fa → Tests.newerField b = some fb → sb.has fb = true →
          callFn s .newerxy [A "-newer" ++ [a, b], arg] = .ok (.newer fa (sb.time fb), 2) := by
  have hst : s.stat = x.setting.stat := by rw [h.others]
  have hlast : ∀ c, last ["-P", "-H", "-L", "-follow"] before = some c → c.is ["-P"] = false → c.is ["-H"] = true ∨ c.is ["-L", "-follow"] = true := by
    intro c hc hp
    have hin : c.is ["-P", "-H", "-L", "-follow"] = true := by
      unfold last at hc
      exact (List.mem_filter.1 (List.mem_of_getLast? hc)).2
    unfold Call.is at hin hp ⊢
    cases he : Cmdline.table[c.1]? with
    | none => rw [he] at hin; cases hin
    | some e =>
      rw [he] at hin hp
      simp only [List.map_cons, List.map_nil, List.contains_cons, List.contains_nil, Bool.or_false, Bool.or_eq_true, beq_iff_eq, beq_eq_false_iff_ne] at hin hp ⊢
      rcases hin with k | k | k | k
      · exact absurd k hp
      · exact .inl k
      · exact .inr (.inl k)
      · exact .inr (.inr k)
  refine ⟨if s.followRoots || s.followAll then Stat.TRYFOLLOW else Stat.NOFOLLOW, ?_, ?_, ?_⟩
  · rintro ⟨c, hc, hp⟩
    rw [if_pos]
    rw [Bool.or_eq_true, h.followRoots, h.followAll]
    rcases hlast c hc hp with k | k
    · exact .inl ⟨c, hc, k⟩
    · exact .inr ⟨c, hc, k⟩
  · intro hp
    rw [if_neg]
    rw [Bool.or_eq_true, h.followRoots, h.followAll]
    have hno : ∀ c : Call, c.is ["-P"] = true → c.is ["-H"] = false ∧ c.is ["-L", "-follow"] = false := by
      intro c k
      unfold Call.is at k ⊢
      cases he : Cmdline.table[c.1]? with
      | none => rw [he] at k; cases k
      | some e =>
        rw [he] at k
        simp only [List.map_cons, List.map_nil, List.contains_cons, List.contains_nil, Bool.or_false, beq_iff_eq] at k ⊢
        rw [k]
        decide
    rintro (⟨c, hc, k⟩ | ⟨c, hc, k⟩)
    · rw [(hno c (hp c hc)).1] at k; cases k
    · rw [(hno c (hp c hc)).2] at k; cases k
  · intro name arg sb hsb
    have hs' : Tests.statArg s arg = .ok sb := by unfold Tests.statArg; rw [hst]; exact hsb
    refine ⟨?_, ?_, ?_⟩
    · show (Tests.parseSamefile s arg).bind _ = _
      unfold Tests.parseSamefile
      rw [hs']
      rfl
    · intro hm field
      show (Tests.parseNewer s field arg).bind _ = _
      unfold Tests.parseNewer
      rw [hs']
      dsimp only
      rw [if_pos hm]
      rfl
    · intro a b fa fb ha hb hh
      have hx : Tests.parseNewerxy s (A "-newer" ++ [a, b]) arg = .ok (.newer fa (sb.time fb)) := by
        unfold Tests.parseNewerxy
        have g1 : (A "-newer" ++ [a, b])[6]? = some a := rfl
        have g2 : (A "-newer" ++ [a, b])[7]? = some b := rfl
        have hbt : (some b : Option UInt8) ≠ some 116 := by
          intro hc
          cases hc
          rw [show Tests.newerField 116 = none by decide] at hb
          cases hb
        rw [g1, g2, Option.bind_some, Option.bind_some, ha, hb]
        dsimp only
        rw [if_neg hbt]
        unfold Tests.refFile
        rw [hs']
        dsimp only
        rw [if_pos hh]
      show (if (A "-newer" ++ [a, b]).length ≠ 8 then (.err "expected -newerXY" : Out (Test × Nat)) else (Tests.parseNewerxy s (A "-newer" ++ [a, b]) arg).bind _) = _
      rw [if_neg (by simp [A]), hx]
      rfl

/-- **C103 (regular expressions).** `-regex` and `-iregex` have the syntax that is said to the left. -/
theorem C103_regex (before : List Call) (s : Setting) (h : SettingFor x now before s) (r : Regex) (hr : Syntax x.sys.oniguruma before r) (icase : Bool) (name pattern : Arg) :
    (∀ m, x.regcomp r icase pattern = some m → callFn s (.regex icase) [name, pattern] = .ok (.regex m, 2)) ∧
    (x.regcomp r icase pattern = none → ∃ e, callFn s (.regex icase) [name, pattern] = .err e) := by
  obtain ⟨r', a, b⟩ := h.regex
  rw [syntax_unique a hr] at b
  have e : callFn s (.regex icase) [name, pattern] = (match x.regcomp r icase pattern with | none => (.err "regex" : Out Test) | some m => .ok (.regex m)).bind fun t => .ok (t, 2) := by
    show (Tests.parseRegex s icase pattern).bind _ = _
    unfold Tests.parseRegex
    rw [b]
    cases x.regcomp r icase pattern <;> rfl
  rw [e]
  constructor
  · intro m hm; rw [hm]; rfl
  · intro hm; rw [hm]; exact ⟨_, rfl⟩

/-- **C103 (ages).** `-mmin`, `-mtime` and the like are measured at the time that is said to the left. -/
theorem C103_ages (before : List Call) (s : Setting) (h : SettingFor x now before s) (a : List Arg) (fn : ParseFn) (cmp : Num.Cmp) (num : Int) (field : Printf.Field) (unit : Num.TimeUnit) (t : Timespec) (n : Nat)
    (hp : callFn s fn a = .ok (.time cmp num field unit t, n)) : Daystarts x.clock (before.countP fun c => c.is ["-daystart"]) now t := by
  have : t = s.now := by
    have hq := callFn_measured s s.now fn a
    rw [show { s with now := s.now } = s from rfl, hp] at hq
    injection hq with hq
    injection hq with hq
    injection hq
  rw [this]
  exact h.daystart

/-- **C103 (`-daystart`).** If clocks are not changed before the end of today, then ages are measured now in tests without a `-daystart` to the left, and at the first midnight from now on in all others,
no matter how many there are. -/
theorem C103_daystart {z : Zone} (hK : Keeps x.clock z) (h1 : 0 ≤ now.nsec) (h2 : now.nsec < 1000000000) (h3 : -2 ^ 54 < now.sec) (h4 : now.sec < 2 ^ 54 - 86400)
    (hz : ∀ t, now.sec ≤ t → t ≤ now.sec + 86400 → z.isSummer t = z.isSummer now.sec) (before : List Call) (s : Setting) (hs : SettingFor x now before s) :
    (¬ Given ["-daystart"] before ∧ s.now = now) ∨
      (Given ["-daystart"] before ∧ s.now.nsec = 0 ∧ z.Midnight s.now.sec ∧ inNanos now ≤ s.now.sec * 1000000000 ∧ ∀ t, inNanos now ≤ t * 1000000000 → t < s.now.sec → ¬ z.Midnight t) := by
  have hd := hs.daystart
  obtain ⟨e, e1, e2, e3, e4⟩ := C90_reference hK now h1 h2 h3 (by omega)
  have hb : now.sec ≤ e ∧ e ≤ now.sec + 86400 := by unfold inNanos at e2 e3; omega
  have hse : z.isSummer e = z.isSummer now.sec := hz e hb.1 hb.2
  obtain ⟨f1, f2⟩ := e4 fun t a b => hz t a (by omega)
  have again : parseDaystart x.clock ⟨e, 0⟩ = .ok ⟨e, 0⟩ := C90_twice_partial hK now ⟨e, 0⟩ h1 h2 h3 h4 e1 hse
  have all : ∀ n u v, Daystarts x.clock n u v → u = now → n ≠ 0 → v = ⟨e, 0⟩ := by
    intro n u v h
    induction h with
    | zero => intro _ h; exact absurd rfl h
    | succ n u w v k1 k2 ih =>
      intro hu _
      by_cases hn : n = 0
      · subst hn
        cases k1
        rw [hu, e1] at k2
        cases k2
        rfl
      · rw [ih hu hn, again] at k2
        cases k2
        rfl
  have hg : Given ["-daystart"] before ↔ (before.countP fun c => c.is ["-daystart"]) ≠ 0 := by
    rw [← Nat.pos_iff_ne_zero, List.countP_pos_iff]
    rfl
  by_cases h0 : (before.countP fun c => c.is ["-daystart"]) = 0
  · refine .inl ⟨fun h => hg.1 h h0, ?_⟩
    rw [h0] at hd
    generalize s.now = w at hd
    cases hd
    rfl
  · right
    rw [all _ _ _ hd rfl h0]
    exact ⟨hg.2 h0, rfl, f1, e2, f2⟩

/-- **C103 (first things first).** Whatever is between that is none of these flags and options does not change the settings. So if they all come first, then all tests after them have the same settings. -/
theorem C103_first (before between : List Call) (hb : ∀ c ∈ between, c.is ["-daystart", "-E", "-regextype", "-P", "-H", "-L", "-follow"] = false) (s : Setting) :
    SettingFor x now (before ++ between) s ↔ SettingFor x now before s := by
  have sub : ∀ L : List String, (∀ n ∈ L, n ∈ ["-daystart", "-E", "-regextype", "-P", "-H", "-L", "-follow"]) → ∀ c ∈ between, c.is L = false := by
    intro L hL c hc
    have := hb c hc
    unfold Call.is at this ⊢
    cases he : Cmdline.table[c.1]? with
    | none => rfl
    | some e =>
      rw [he] at this
      dsimp only at this ⊢
      rw [Bool.eq_false_iff] at this ⊢
      intro h
      apply this
      simp only [List.contains_iff_mem, List.mem_map] at h ⊢
      obtain ⟨n, h1, h2⟩ := h
      exact ⟨n, hL n h1, h2⟩
  have hl : ∀ L : List String, (∀ n ∈ L, n ∈ ["-daystart", "-E", "-regextype", "-P", "-H", "-L", "-follow"]) → last L (before ++ between) = last L before := by
    intro L hL
    unfold last
    have h0 : between.filter (fun c => c.is L) = [] := List.filter_eq_nil_iff.2 fun c hc => by rw [sub L hL c hc]; simp
    rw [List.filter_append, h0, List.append_nil]
  have hc : (before ++ between).countP (fun c => c.is ["-daystart"]) = before.countP fun c => c.is ["-daystart"] := by
    have h0 : between.countP (fun c => c.is ["-daystart"]) = 0 := List.countP_eq_zero.2 fun c hc => by rw [sub ["-daystart"] (by simp) c hc]; simp
    rw [List.countP_append, h0, Nat.add_zero]
  have l1 := hl ["-P", "-H", "-L", "-follow"] (by simp)
  have l2 := hl ["-E", "-regextype"] (by simp)
  have hy : ∀ r, Syntax x.sys.oniguruma (before ++ between) r ↔ Syntax x.sys.oniguruma before r := by
    intro r
    constructor
    · rintro (a | ⟨c, a, b⟩ | ⟨c, v, r, a, b, d, e⟩)
      · exact .default (l2 ▸ a)
      · exact .extended c (l2 ▸ a) b
      · exact .named c v r (l2 ▸ a) b d e
    · rintro (a | ⟨c, a, b⟩ | ⟨c, v, r, a, b, d, e⟩)
      · exact .default (l2.trans a)
      · exact .extended c (l2.trans a) b
      · exact .named c v r (l2.trans a) b d e
  constructor
  · intro h
    exact ⟨hc ▸ h.daystart, l1 ▸ h.followRoots, l1 ▸ h.followAll, by obtain ⟨r, a, b⟩ := h.regex; exact ⟨r, (hy r).1 a, b⟩, h.others⟩
  · intro h
    refine ⟨by rw [hc]; exact h.daystart, by rw [l1]; exact h.followRoots, by rw [l1]; exact h.followAll, ?_, h.others⟩
    obtain ⟨r, a, b⟩ := h.regex
    exact ⟨r, (hy r).2 a, b⟩

/-! ## Examples -/

def outside103 : Outside where
  sys := startSys
  setting := setting80
  regcomp r icase pattern := if r = .posixExtended then some fun text => .ok (text == pattern && !icase) else none
  clock := clock90 zone90

/-- What of a test can be compared. -/
def seen103 : Test → Option (Timespec × Bool)
  | .time _ _ _ _ now => some (now, false)
  | .regex m => some (⟨0, 0⟩, match m [97] with | .ok b => b | .error _ => false)
  | _ => none

/-- `a -mtime 0 ( ! -daystart -o -mtime 1 ) , -daystart -E -regex a -name a` at noon, in the zone. -/
def calls103 : Cmd := match parseCmdline cmdEnv startSys (["a", "-mtime", "0", "(", "!", "-daystart", "-o", "-mtime", "1", ")", ",", "-daystart", "-E", "-regex", "a", "-name", "a"].map A) with
  | .ok (c, _) => c
  | _ => { expr := .leaf .yes, roots := [], excludes := [], calls := [] }

example : (parseCmdline cmdEnv startSys (["a", "-mtime", "0", "(", "!", "-daystart", "-o", "-mtime", "1", ")", ",", "-daystart", "-E", "-regex", "a", "-name", "a"].map A)).bind (fun r => .ok r.1) = .ok calls103 := by decide +kernel

example : (tests outside103 ⟨300 * 86400 + 11 * 3600, 0⟩ calls103.calls).bind (fun ts => .ok (ts.map seen103)) =
    .ok [some (⟨300 * 86400 + 11 * 3600, 0⟩, false), some (⟨301 * 86400 - 3600, 0⟩, false), some (⟨0, 0⟩, true), none] := by decide +kernel

def ix103 (name : String) : Nat := (Cmdline.tableLookup (A name)).getD 0

/-- Without `-E`, or with `-E` too late, this regular expression is not accepted (by this library). -/
example : (tests outside103 ⟨0, 0⟩ [(ix103 "-E", [A "-E"]), (ix103 "-regex", [A "-regex", A "a"])]).bind (fun ts => .ok ts.length) = .ok 1 ∧
    (tests outside103 ⟨0, 0⟩ [(ix103 "-regex", [A "-regex", A "a"]), (ix103 "-E", [A "-E"])]).bind (fun ts => .ok ts.length) = .err "regex" := by decide +kernel

/-- The hypotheses of `C103_daystart` are met, with and without `-daystart`. -/
example : Keeps outside103.clock zone90 ∧ (∀ t : Int, 300 * 86400 + 11 * 3600 ≤ t → t ≤ 300 * 86400 + 11 * 3600 + 86400 → zone90.isSummer t = zone90.isSummer (300 * 86400 + 11 * 3600)) :=
  ⟨keeps90 _ (by decide), fun t h1 _ => by
    show decide (t < 200 * 86400 + 3600) = decide ((300 * 86400 + 11 * 3600 : Int) < 200 * 86400 + 3600)
    rw [decide_eq_decide]
    constructor <;> intro h <;> omega⟩

end Verif.Props
