import Verif.Spec.Position
import Verif.Lemmas.OptionsStep
/-!
# Lemmas about the settings that a test is parsed with
-/
namespace Verif.Position
open Verif.Spec.Position
open Verif.Options
open Verif.Cmdline (A table Arg Tok Tree Gram)
open Verif.Tests (Setting Test ParseFn callFn fnOf)
open Verif.Time (Timespec)
open Verif.Daystart (Clock parseDaystart)

theorem is_one {c : Call} {n : String} {e : Cmdline.Entry} (h : table[c.1]? = some e) : c.is [n] = decide (e.arg = A n) := by
  unfold Call.is
  rw [h]
  simp [List.contains_cons]

theorem depth_fn : ∀ e ∈ table, fnOf e = some .depthN ↔ e.arg = A "-depth" := by
  have h : table.all (fun e => decide (fnOf e = some .depthN) == decide (e.arg = A "-depth")) = true := by decide +kernel
  intro e he
  have := List.all_eq_true.1 h e he
  simp only [beq_iff_eq, decide_eq_decide] at this
  exact this

theorem testFn_iff (c : Call) (fn : ParseFn) : testFn c = some fn ↔ IsTest c fn := by
  unfold testFn IsTest
  cases he : table[c.1]? with
  | none => simp
  | some e =>
    have hd := depth_fn e (List.mem_of_getElem? he)
    simp only [Option.bind_some, is_one he, decide_eq_true_eq, Option.some.injEq, exists_eq_left']
    by_cases hx : fnOf e = some .depthN
    · rw [hx]
      dsimp only
      by_cases hl : c.2.length = 1
      · rw [if_pos hl]
        simp [hd.1 hx, hl]
      · rw [if_neg hl]
        simp [hl]
    · have hn : e.arg ≠ A "-depth" := fun h => hx (hd.2 h)
      split
      · rename_i h; exact absurd h hx
      · simp [hn]

theorem _root_.Verif.Spec.Position.Daystarts.cons {c : Clock} {n : Nat} {t u v : Timespec} (h : parseDaystart c t = .ok u) (h2 : Daystarts c n u v) : Daystarts c (n + 1) t v := by
  induction h2 with
  | zero => exact .succ 0 _ _ _ (.zero _) h
  | succ n _ w z _ k ih => exact .succ (n + 1) _ _ _ (ih h) k

theorem _root_.Verif.Spec.Position.Daystarts.unique {c : Clock} {n : Nat} {t u v : Timespec} (h : Daystarts c n t u) (h2 : Daystarts c n t v) : u = v := by
  induction h generalizing v with
  | zero => cases h2; rfl
  | succ n _ w z _ k ih =>
    cases h2 with
    | succ _ _ w' _ a b =>
      rw [← ih a, k] at b
      cases b
      rfl

theorem callNow_ok {x : Outside} {c : Call} {t u : Timespec} (h : callNow x c t = .ok u) : Daystarts x.clock ([c].countP fun c => c.is ["-daystart"]) t u := by
  unfold callNow at h
  cases he : table[c.1]? with
  | none => rw [he] at h; cases h
  | some e =>
    rw [he] at h
    dsimp only at h
    rw [List.countP_singleton, is_one he]
    by_cases hd : e.arg = A "-daystart"
    · rw [if_pos hd] at h
      rw [if_pos (by simpa using hd)]
      exact .succ 0 _ _ _ (.zero _) h
    · rw [if_neg hd] at h
      rw [if_neg (by simpa using hd)]
      cases h
      exact .zero _

theorem _root_.Verif.Spec.Position.Daystarts.append {c : Clock} {m n : Nat} {t u v : Timespec} (h : Daystarts c m t u) (h2 : Daystarts c n u v) : Daystarts c (m + n) t v := by
  induction h2 with
  | zero => exact h
  | succ n _ w z _ k ih => exact .succ (m + n) _ _ _ (ih h) k

theorem callTest_ok {x : Outside} {c : Call} {p : Parser} {ts : List Test} (h : callTest x c p = .ok ts) :
    (testFn c = none ∧ ts = []) ∨ ∃ fn t n, testFn c = some fn ∧ callFn (p.setting x) fn c.2 = .ok (t, n) ∧ ts = [t] := by
  unfold callTest at h
  cases hf : testFn c with
  | none => rw [hf] at h; cases h; exact .inl ⟨rfl, rfl⟩
  | some fn =>
    rw [hf] at h
    obtain ⟨r, h1, h2⟩ := Out.bind_eq_ok.1 h
    cases h2
    exact .inr ⟨fn, r.1, r.2, rfl, h1, rfl⟩

/-- What holds after some of the calls. -/
theorem reached {x : Outside} : ∀ (before rest : List Call) (p : Parser) (ts : List Test), parseCalls x (before ++ rest) p = .ok ts →
    ∃ p1 ts1 ts2, configure x.sys before p.opts = .ok p1.opts ∧ Daystarts x.clock (before.countP fun c => c.is ["-daystart"]) p.now p1.now ∧
      parseCalls x rest p1 = .ok ts2 ∧ ts = ts1 ++ ts2 ∧ ts1.length = before.countP fun c => (testFn c).isSome := by
  intro before
  induction before with
  | nil => intro rest p ts h; exact ⟨p, [], ts, rfl, .zero _, h, rfl, rfl⟩
  | cons c before ih =>
    intro rest p ts h
    obtain ⟨r, h1, h2⟩ := Out.bind_eq_ok.1 h
    obtain ⟨ts', h3, h4⟩ := Out.bind_eq_ok.1 h2
    cases h4
    obtain ⟨tc, k1, k2⟩ := Out.bind_eq_ok.1 h1
    obtain ⟨o, k3, k4⟩ := Out.bind_eq_ok.1 k2
    obtain ⟨nw, k5, k6⟩ := Out.bind_eq_ok.1 k4
    cases k6
    obtain ⟨p1, ts1, ts2, a1, a2, a3, a4, a5⟩ := ih rest _ _ h3
    refine ⟨p1, tc ++ ts1, ts2, ?_, ?_, a3, ?_, ?_⟩
    · show (apply x.sys c p.opts).bind _ = _
      rw [k3]
      exact a1
    · have := (callNow_ok k5).append a2
      rw [show c :: before = [c] ++ before from rfl, List.countP_append]
      exact this
    · rw [a4, List.append_assoc]
    · rw [List.length_append, a5, show c :: before = [c] ++ before from rfl, List.countP_append, List.countP_singleton]
      rcases callTest_ok k1 with ⟨f, rfl⟩ | ⟨fn, t, n, f, _, rfl⟩ <;> simp [f]

theorem setting_for {x : Outside} {now : Timespec} {before : List Call} {p : Parser} (hm : ∀ c ∈ before, Made c) (h1 : configure x.sys before (defaults x.sys) = .ok p.opts)
    (h2 : Daystarts x.clock (before.countP fun c => c.is ["-daystart"]) now p.now) : SettingFor x now before (p.setting x) := by
  have hM := meets before p.opts (fun c hc => by obtain ⟨_, _, _, _, h, _⟩ := hm c hc; exact h) h1
  refine ⟨h2, hM.followRoots, hM.followAll, ⟨p.opts.regex, ?_, rfl⟩, rfl⟩
  rcases hM.regex with ⟨a, b⟩ | ⟨c, a, b, d⟩ | ⟨c, v, a, b, d, e⟩
  · rw [b]; exact .default a
  · rw [d]; exact .extended c a b
  · exact .named c v _ a b d e

theorem regexName_unique {lib : Bool} {v : List UInt8} {r r' : Regex} (h : RegexName lib v r) (h' : RegexName lib v r') : r = r' := by
  generalize hv : v = w at h'
  cases h <;> cases h' <;> first | rfl | exact absurd hv (by decide)

theorem syntax_unique {lib : Bool} {cs : List Call} {r r' : Regex} (h : Syntax lib cs r) (h' : Syntax lib cs r') : r = r' := by
  have hc : ∀ c : Call, c.is ["-E"] = true → c.is ["-regextype"] = true → False := by
    intro c a b
    cases he : table[c.1]? with
    | none => unfold Call.is at a; rw [he] at a; cases a
    | some e =>
      rw [is_one he, decide_eq_true_eq] at a b
      rw [a] at b
      exact absurd b (by decide)
  cases h with
  | default a =>
    cases h' with
    | default => rfl
    | extended c b _ => rw [a] at b; cases b
    | named c v _ b _ _ _ => rw [a] at b; cases b
  | extended c a d =>
    cases h' with
    | default b => rw [a] at b; cases b
    | extended => rfl
    | named c' v _ b e _ _ => rw [a] at b; cases b; exact (hc c d e).elim
  | named c v _ a d f g =>
    cases h' with
    | default b => rw [a] at b; cases b
    | extended c' b e => rw [a] at b; cases b; exact (hc c e d).elim
    | named c' v' _ b _ f' g' =>
      rw [a] at b
      cases b
      unfold NextValue at f f'
      rw [f] at f'
      cases f'
      exact regexName_unique g g'

theorem settingFor_unique {x : Outside} {now : Timespec} {before : List Call} {s s' : Setting} (h : SettingFor x now before s) (h' : SettingFor x now before s') : s = s' := by
  have e1 : s.now = s'.now := h.daystart.unique h'.daystart
  have e2 : s.followRoots = s'.followRoots := by rw [Bool.eq_iff_iff, h.followRoots, h'.followRoots]
  have e3 : s.followAll = s'.followAll := by rw [Bool.eq_iff_iff, h.followAll, h'.followAll]
  have e4 : s.regcomp = s'.regcomp := by
    obtain ⟨r, a, b⟩ := h.regex
    obtain ⟨r', a', b'⟩ := h'.regex
    rw [b, b', syntax_unique a a']
  rw [h.others, h'.others, e1, e2, e3, e4]

/-- Enough for success. -/
theorem accepted {x : Outside} {now : Timespec} {calls : List Call} (hm : ∀ c ∈ calls, Made c) (ha : ∀ c ∈ calls, Acceptable x.sys c)
    (hd : ∀ before c after, calls = before ++ c :: after → c.is ["-daystart"] = true →
      ∀ u, Daystarts x.clock (before.countP fun c => c.is ["-daystart"]) now u → ∃ v, parseDaystart x.clock u = .ok v)
    (ht : ∀ before c after fn, calls = before ++ c :: after → testFn c = some fn → ∀ s, SettingFor x now before s → ∃ r, callFn s fn c.2 = .ok r) :
    ∀ (rest before : List Call) (p : Parser), calls = before ++ rest → configure x.sys before (defaults x.sys) = .ok p.opts →
      Daystarts x.clock (before.countP fun c => c.is ["-daystart"]) now p.now → ∃ ts, parseCalls x rest p = .ok ts := by
  intro rest
  induction rest with
  | nil => intro _ _ _ _ _; exact ⟨[], rfl⟩
  | cons c rest ih =>
    intro before p hc h1 h2
    have hmb : ∀ c ∈ before, Made c := fun d hx => hm d (by rw [hc]; exact List.mem_append_left _ hx)
    have hmem : c ∈ calls := by rw [hc]; simp
    have hs := setting_for hmb h1 h2
    -- the test
    obtain ⟨tc, k1⟩ : ∃ tc, callTest x c p = .ok tc := by
      unfold callTest
      cases hf : testFn c with
      | none => exact ⟨_, rfl⟩
      | some fn =>
        obtain ⟨r, hr⟩ := ht before c rest fn hc hf _ hs
        exact ⟨[r.1], by dsimp only; rw [hr]; rfl⟩
    -- the option
    have hc' : calls = (before ++ [c]) ++ rest := by rw [hc, List.append_assoc]; rfl
    obtain ⟨o, k2⟩ := (configure_accepts (sys := x.sys) (before ++ [c]) (defaults x.sys) (fun d hx => hm d (by rw [hc']; exact List.mem_append_left _ hx))).2
      (fun d hx => ha d (by rw [hc']; exact List.mem_append_left _ hx))
    have k3 : apply x.sys c p.opts = .ok o := by
      have := k2
      rw [configure_snoc, h1] at this
      exact this
    -- the time
    obtain ⟨nw, k4⟩ : ∃ nw, callNow x c p.now = .ok nw := by
      obtain ⟨e, _, he, _⟩ := hm c hmem
      unfold callNow
      rw [he]
      dsimp only
      by_cases hx : e.arg = A "-daystart"
      · rw [if_pos hx]
        exact hd before c rest hc (by rw [is_one he, decide_eq_true_eq]; exact hx) _ h2
      · rw [if_neg hx]; exact ⟨_, rfl⟩
    have h3 : Daystarts x.clock ((before ++ [c]).countP fun c => c.is ["-daystart"]) now nw := by
      rw [List.countP_append]
      exact h2.append (callNow_ok k4)
    obtain ⟨ts, h4⟩ := ih (before ++ [c]) ⟨o, nw⟩ hc' k2 h3
    refine ⟨tc ++ ts, ?_⟩
    show ((callTest x c p).bind _).bind _ = _
    rw [k1]
    show ((apply x.sys c p.opts).bind _).bind _ = _
    rw [k3]
    show ((callNow x c p.now).bind _).bind _ = _
    rw [k4]
    show (parseCalls x rest ⟨o, nw⟩).bind _ = _
    rw [h4]
    rfl

/-- The primaries in the tree are those of the tokens, in the same order. -/
theorem gram_calls {l : Cmdline.Level} {ex : Bool} {toks : List Tok} {t : Tree} (h : Gram l ex toks t) : toks.flatMap Tok.calls = t.prims.flatMap fun p => p.calls := by
  induction h with
  | paren ex ts t _ ih => simp [Tok.calls, ih]
  | not ex ts t _ ih => simp [Tok.calls, ih, Tree.prims]
  | exclude ts t _ ih => simp [Tok.calls, ih, Tree.prims]
  | prim ex p _ => simp [Tok.calls, Tree.prims]
  | factor _ _ _ _ ih => exact ih
  | juxt ex ts us t u _ _ ih ih' => simp [ih, ih', Tree.prims]
  | and ex ts us t u _ _ ih ih' => simp [Tok.calls, ih, ih', Tree.prims]
  | term _ _ _ _ ih => exact ih
  | or ex ts us t u _ _ ih ih' => simp [Tok.calls, ih, ih', Tree.prims]
  | clause _ _ _ _ ih => exact ih
  | comma ex ts us t u _ _ ih ih' => simp [Tok.calls, ih, ih', Tree.prims]

end Verif.Position
