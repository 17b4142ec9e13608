import Verif.Lemmas.ExecRun
/-!
# `-exec` never trips an assertion or leaves an array, and other small facts
-/
namespace Verif.Exec

/-- No working directory is remembered without being open. -/
def WdOpen (x : Exec) : Prop := x.wdPath.isSome = true → x.wdFd.isSome = true

theorem openwd_total (multi : Bool) (x : Exec) (f : File) (h1 : x.wdFd = none) (h2 : x.wdPath = none) (hf : f.openOk = true) :
    ∃ b x', openwd multi x f = .ok (b, x') ∧ WdOpen x' := by
  unfold openwd
  rw [if_neg (by simp [h1, h2]), hf]
  dsimp only
  repeat' split
  all_goals refine ⟨_, _, rfl, ?_⟩
  all_goals simp_all [WdOpen]

theorem multiOpen_total (x : Exec) (f : File) (hx : x.chdir = true → WdOpen x) (hf : x.chdir = false ∨ f.openOk = true) :
    ∃ b x', multiOpen x f = .ok (b, x') ∧ (x.chdir = true → WdOpen x') := by
  unfold multiOpen
  split
  · next h =>
    have hc : x.chdir = true := by simp at h; exact h.1
    have hn : x.wdFd = none := by simp at h; exact h.2
    have hp : x.wdPath = none := by
      cases hp : x.wdPath with
      | none => rfl
      | some d =>
        have := hx hc (by rw [hp]; rfl)
        rw [hn] at this; exact absurd this (by simp)
    obtain ⟨b, x', e1, e2⟩ := openwd_total true x f hn hp (by rcases hf with h | h <;> simp_all)
    exact ⟨b, x', e1, fun _ => e2⟩
  · exact ⟨_, _, rfl, hx⟩

theorem Inv.step_total {fixed c x0 w0 fs x w cf} (h : Inv fixed c x0 w0 fs x w cf) (f : File) (ht : c = true → WdOpen x)
    (hf : c = false ∨ f.openOk = true) : ∃ x' w', execMulti x w f = .ok (x', w') ∧ (c = true → WdOpen x') := by
  obtain ⟨gap, tail, hr⟩ := h.rep
  unfold execMulti multi
  by_cases hfmt : f.formatOk = true
  · rw [if_neg (by simp [hfmt]), h.chdir]
    obtain ⟨bad, x1, cur1, new, x2, p1, p2, p3, p4, p5⟩ := preFlush_spec fixed w f (formatPath c f) hr h.min_max
    obtain ⟨cf1, rfl, hs, hI⟩ := h.prog p2
    dsimp only
    rw [p1]
    simp only [Out.bind]
    have hx1 : x1.wdFd = x.wdFd ∧ x1.wdPath = x.wdPath ∧ x1.wdLen = x.wdLen ∧ x1.chdir = x.chdir ∧ x1.failed = x.failed := by
      rw [p2.upd]; exact ⟨rfl, rfl, rfl, rfl, rfl⟩
    obtain ⟨q1, q2, q3, q4, q5⟩ := hx1
    have hx2 : x2 = { x1 with wdFd := x2.wdFd, wdPath := x2.wdPath, wdLen := x2.wdLen } := by
      rcases p3 with ⟨_, rfl, _⟩ | ⟨_, rfl⟩
      · exact closewd_wd x1
      · rfl
    have hc2 : x2.chdir = c := by rw [hx2]; show x1.chdir = c; rw [q4, h.chdir]
    have ht2 : c = true → WdOpen x2 := by
      intro hc
      rcases p3 with ⟨_, rfl, _⟩ | ⟨_, rfl⟩
      · unfold closewd WdOpen
        split
        · simp
        · next hn => intro hh; exact absurd hh hn
      · unfold WdOpen; rw [q1, q2]; exact ht hc
    obtain ⟨b, x3, ho, ht3⟩ := multiOpen_total x2 f (by rw [hc2]; exact ht2) (by rw [hc2]; exact hf)
    rw [hc2] at ht3
    rw [ho]
    have hx3 : x3 = { x1 with wdFd := x3.wdFd, wdPath := x3.wdPath, wdLen := x3.wdLen } := by
      have := multiOpen_wd ho
      rw [this, hx2]
    obtain ⟨gap1, tail1, hr1⟩ := hI.rep
    have hr3 : Rep fixed x3 (cf1.map (formatPath c)) gap1 [] tail1 := by
      rw [hx3]; exact ⟨hr1.argv, hr1.argc, hr1.tmpl, hr1.size⟩
    cases b with
    | false => exact ⟨_, _, rfl, ht3⟩
    | true =>
      simp only [Bool.not_true, Bool.false_eq_true, if_false]
      rcases push_spec fixed (formatPath c f) f.reallocOk hr3 with ⟨argv', h1, gap', tail', h2⟩ | ⟨hre, argv', h1, gap', tail', h2⟩
      · rw [h1]
        refine ⟨_, _, rfl, ?_⟩
        intro hc
        cases bad
        · exact ht3 hc
        · exact ht3 hc
      · rw [h1]
        exact ⟨_, _, rfl, ht3⟩
  · rw [if_pos (by simp [hfmt])]
    exact ⟨_, _, rfl, ht⟩

theorem Inv.all_total {fixed c x0 w0} : ∀ (gs fs : List File) {x w cf}, Inv fixed c x0 w0 fs x w cf → (c = true → WdOpen x) →
    (c = false ∨ ∀ f ∈ gs, f.openOk = true) → ∃ x' w', execAll gs x w = .ok (x', w')
  | [], fs, x, w, cf, h, _, _ => ⟨x, w, rfl⟩
  | f :: gs, fs, x, w, cf, h, ht, hg => by
    obtain ⟨x1, w1, h1, ht1⟩ := h.step_total f ht (hg.imp id (fun hg => hg f (by simp)))
    obtain ⟨cf1, h2⟩ := h.step f h1
    obtain ⟨x2, w2, h3⟩ := Inv.all_total gs (fs ++ [f]) h2 ht1 (hg.imp id (fun hg g hgg => hg g (by simp [hgg])))
    exact ⟨x2, w2, by rw [execAll, h1]; exact h3⟩

/-- What `bfs_exec_parse()` accepts. -/
theorem parseLoop_multi {confirm : Bool} : ∀ {args tmpl t}, parseLoop confirm tmpl args = .multi t →
    confirm = false ∧ t.getLast? = some [123, 125] ∧ ∃ rest, tmpl ++ args = t ++ [43] :: rest
  | [], tmpl, t, h => by simp [parseLoop] at h
  | arg :: rest, tmpl, t, h => by
    rw [parseLoop] at h
    split at h
    · exact absurd h (by simp)
    · split at h
      · next hc =>
        simp only [Parsed.multi.injEq] at h
        subst h
        exact ⟨by simpa using hc.2.2.1, hc.2.2.2, rest, by rw [hc.2.1]⟩
      · obtain ⟨h1, h2, r, h3⟩ := parseLoop_multi h
        exact ⟨h1, h2, r, by simpa using h3⟩

theorem parse_multi {confirm c : Bool} {am : List Bytes → Nat} {args : List Bytes} {x : Exec} (h : parse confirm c am args = .ok (true, x)) :
    ∃ fixed rest, args = fixed ++ [123, 125] :: [43] :: rest ∧ (∀ a ∈ fixed, strstr a = none) ∧
      x = { chdir := c, tmpl := fixed ++ [[123, 125]], argv := fixed.map some ++ [none, none], argc := fixed.length, argSize := 0,
            argMax := am fixed, argMin := am fixed } := by
  unfold parse at h
  split at h
  · exact absurd h (by simp)
  · split at h <;> simp at h
  · next tmpl hm =>
    obtain ⟨_, h2, r, h3⟩ := parseLoop_multi hm
    split at h
    · exact absurd h (by simp)
    · split at h
      · exact absurd h (by simp)
      · next hn =>
        have ht : tmpl = tmpl.dropLast ++ [[123, 125]] := by
          obtain ⟨ys, rfl⟩ := List.getLast?_eq_some_iff.1 h2
          simp
        refine ⟨tmpl.dropLast, r, ?_, ?_, ?_⟩
        · rw [List.nil_append] at h3
          rw [h3]
          conv => lhs; rw [ht]
          simp
        · intro a ha
          rw [List.any_eq_true] at hn
          cases hs : strstr a with
          | none => rfl
          | some v => exact absurd ⟨a, ha, by rw [hs]; rfl⟩ hn
        · simp only [Out.ok.injEq, Prod.mk.injEq, true_and] at h
          rw [← h, ← ht]
          simp

theorem parse_inv {confirm c : Bool} {am : List Bytes → Nat} {args : List Bytes} {x : Exec} (w : World) (hw : w.log = [])
    (h : parse confirm c am args = .ok (true, x)) : Inv x.tmpl.dropLast c x w [] x w [] ∧ WdOpen x ∧ ∀ K, Lim K x := by
  obtain ⟨fixed, rest, _, _, rfl⟩ := parse_multi h
  refine ⟨?_, by simp [WdOpen], fun K => by simp [Lim]⟩
  simp only [List.dropLast_concat]
  refine ⟨⟨none, [none], by simp, by simp, by simp, by simp [total]⟩, Nat.le_refl _, Nat.le_refl _, rfl, rfl, List.Sublist.refl _,
    by simp [hw], by simp [hw], ⟨fun _ _ => Or.inl ⟨rfl, rfl, rfl, by simp⟩, fun _ => rfl⟩, by simp [hw, deliv], fun _ => by simp [hw, deliv], by simp, by simp [hw],
    fun K _ _ hl => ⟨hl, by simp [hw, deliv]⟩⟩

/-! ## Substitution -/

theorem strstr_none (path : Bytes) : ∀ {a : Bytes}, strstr a = none → substBraces path a = a := by
  intro a
  fun_induction substBraces path a with
  | case1 r ih => intro h; simp [strstr] at h
  | case2 c r hne ih =>
    intro h
    have : strstr (c :: r) = (strstr r).map fun x => (c :: x.1, x.2) := by
      rw [strstr.eq_def]
      split
      · next e => injection e with e1 e2; exact absurd e2 (hne _ e1)
      · next e => injection e with e1 e2; subst e1 e2; rfl
      · next e => exact absurd e (by simp)
    rw [this] at h
    rw [ih (by simpa using h)]
  | case3 => intro _; rfl

theorem strstr_some (path : Bytes) : ∀ {a b r : Bytes}, strstr a = some (b, r) →
    substBraces path a = b ++ path ++ substBraces path r ∧ r.length + 2 ≤ a.length := by
  intro a
  fun_induction substBraces path a with
  | case1 q ih =>
    intro b r h
    simp only [strstr, Option.some.injEq, Prod.mk.injEq] at h
    obtain ⟨rfl, rfl⟩ := h
    exact ⟨by simp, by simp⟩
  | case2 c q hne ih =>
    intro b r h
    have : strstr (c :: q) = (strstr q).map fun x => (c :: x.1, x.2) := by
      rw [strstr.eq_def]
      split
      · next e => injection e with e1 e2; exact absurd e2 (hne _ e1)
      · next e => injection e with e1 e2; subst e1 e2; rfl
      · next e => exact absurd e (by simp)
    rw [this] at h
    cases hq : strstr q with
    | none => rw [hq] at h; exact absurd h (by simp)
    | some v =>
      obtain ⟨b', r'⟩ := v
      rw [hq] at h
      simp only [Option.map_some, Option.some.injEq, Prod.mk.injEq] at h
      obtain ⟨rfl, rfl⟩ := h
      obtain ⟨h1, h2⟩ := ih hq
      exact ⟨by rw [h1]; simp, by simp; omega⟩
  | case3 => intro b r h; simp [strstr] at h

theorem formatLoop_eq (path : Bytes) : ∀ (fuel : Nat) (ret a : Bytes), a.length < fuel → formatLoop path fuel ret a = ret ++ substBraces path a
  | 0, _, _, h => by omega
  | fuel + 1, ret, a, h => by
    rw [formatLoop]
    split
    · next b r hs =>
      obtain ⟨h1, h2⟩ := strstr_some path hs
      rw [formatLoop_eq path fuel _ r (by omega), h1]
      simp
    · next hs => rw [strstr_none path hs]

theorem formatArg_eq (arg path : Bytes) : formatArg arg path = substBraces path arg := by
  unfold formatArg
  split
  · next h => rw [strstr_none path h]
  · rw [formatLoop_eq path _ _ _ (by omega)]; simp

theorem formatAll_eq (path : Bytes) : ∀ (ts : List Bytes) (pre : List (Option Bytes)) (mid tail : List (Option Bytes)), mid.length = ts.length + 1 →
    formatAll path ts pre.length (pre ++ mid ++ tail) = .ok (pre ++ (ts.map fun t => some (substBraces path t)) ++ none :: tail)
  | [], pre, mid, tail, h => by
    match mid, h with
    | [m], _ =>
      simp [formatAll, store]
  | t :: ts, pre, mid, tail, h => by
    match mid, h with
    | m :: mid, h =>
      rw [formatAll]
      have : store (pre ++ (m :: mid) ++ tail) pre.length (some (formatArg t path)) = .ok (pre ++ [some (substBraces path t)] ++ mid ++ tail) := by
        unfold store
        rw [if_pos (by simp)]
        simp [formatArg_eq]
      rw [this]
      simp only [Out.bind]
      have := formatAll_eq path ts (pre ++ [some (substBraces path t)]) mid tail (by simpa using h)
      rw [List.length_append, List.length_cons, List.length_nil] at this
      rw [this]
      simp

theorem cArgv_map (l : List Bytes) (t : List (Option Bytes)) : cArgv (l.map some ++ none :: t) = .ok l := by
  induction l with
  | nil => rfl
  | cons a l ih => simp [cArgv, ih]

theorem formatPath_eq (c : Bool) (f : File) : formatPath c f = argOf c f := by
  unfold formatPath argOf
  cases c with
  | false => rfl
  | true =>
    dsimp only
    cases h : f.path.drop f.nameoff with
    | nil => simp
    | cons a l =>
      by_cases ha : a = 47
      · subst ha; simp
      · simp only [Bool.not_true, Bool.false_eq_true, if_false, List.head?_cons, Option.some.injEq, ha]
        split
        · next e => exact absurd e (by simp)
        · next e => injection e with e _; exact absurd e ha
        · next e => simp_all

theorem parseLoop_single {confirm : Bool} : ∀ {args tmpl t}, parseLoop confirm tmpl args = .single t → ∃ rest, tmpl ++ args = t ++ [59] :: rest
  | [], tmpl, t, h => by simp [parseLoop] at h
  | arg :: rest, tmpl, t, h => by
    rw [parseLoop] at h
    split at h
    · next ha =>
      simp only [Parsed.single.injEq] at h
      subst h
      exact ⟨rest, by rw [ha]⟩
    · split at h
      · exact absurd h (by simp)
      · obtain ⟨r, h3⟩ := parseLoop_single h
        exact ⟨r, by simpa using h3⟩

/-- Between two files. -/
def Ready (c : Bool) (tmpl : List Bytes) (x : Exec) : Prop :=
  x.chdir = c ∧ x.tmpl = tmpl ∧ x.argv.length = tmpl.length + 1 ∧ x.wdFd = none ∧ x.wdPath = none

theorem parse_single {confirm c : Bool} {am : List Bytes → Nat} {args : List Bytes} {x : Exec} (h : parse confirm c am args = .ok (false, x)) :
    ∃ tmpl rest, args = tmpl ++ [59] :: rest ∧ tmpl ≠ [] ∧ Ready c tmpl x := by
  unfold parse at h
  split at h
  · exact absurd h (by simp)
  · next tmpl hm =>
    split at h
    · exact absurd h (by simp)
    · next hn =>
      obtain ⟨r, h3⟩ := parseLoop_single hm
      simp only [Out.ok.injEq, Prod.mk.injEq, true_and] at h
      subst h
      exact ⟨tmpl, r, by simpa using h3, hn, rfl, rfl, by simp, rfl, rfl⟩
  · split at h
    · exact absurd h (by simp)
    · split at h
      · exact absurd h (by simp)
      · simp at h

theorem openwd_single {x : Exec} {f : File} (h1 : x.wdFd = none) (h2 : x.wdPath = none) (hf : f.fine) (hfd : f.atFd = true → 0 < f.nameoff) :
    ∃ x', openwd false x f = .ok (true, x') ∧ x'.wdFd = dirOf f := by
  obtain ⟨_, g2, g3, g4, _⟩ := hf
  unfold openwd
  rw [if_neg (by simp [h1, h2]), g2, g3, g4]
  unfold dirOf
  by_cases hat : f.atFd = true
  · have := hfd hat
    simp [hat]
    omega
  · simp only [hat, Bool.false_eq_true, false_and, if_false]
    by_cases h0 : f.nameoff = 0
    · by_cases hh : f.path.head? = some 47
      · have ht : f.path.take 1 = [47] := by
          cases hp : f.path with
          | nil => rw [hp] at hh; exact absurd hh (by simp)
          | cons a l => rw [hp] at hh; simp at hh; subst hh; rfl
        simp [h0, hh, ht]
      · simp [h0, hh]
    · simp [h0]

theorem single_ok {c : Bool} {tmpl : List Bytes} {x : Exec} (w : World) {f : File} (hx : Ready c tmpl x) (hf : f.fine) (hfd : f.atFd = true → 0 < f.nameoff) :
    ∃ x' r, single x w f = .ok (r = .ran true, x', { w with log := w.log ++ [⟨tmpl.map (substBraces (argOf c f)), if c then dirOf f else none, r⟩] }) ∧
      r = w.answer w.log (tmpl.map (substBraces (argOf c f))) ∧ Ready c tmpl x' := by
  obtain ⟨h1, h2, h3, h4, h5⟩ := hx
  unfold single
  rw [if_neg (by simp [hf.1])]
  have hfa := formatAll_eq (formatPath x.chdir f) x.tmpl [] x.argv [] (by rw [h3, h2])
  simp only [List.nil_append, List.append_nil, List.length_nil] at hfa
  rw [hfa]
  simp only [Out.bind]
  have hargv : ∀ y : Exec, y.argv = x.tmpl.map (fun t => some (substBraces (formatPath x.chdir f) t)) ++ [none] →
      spawn y w = .ok (w.answer w.log (tmpl.map (substBraces (argOf c f))),
        { w with log := w.log ++ [⟨tmpl.map (substBraces (argOf c f)), y.wdFd, w.answer w.log (tmpl.map (substBraces (argOf c f)))⟩] }) := by
    intro y hy
    unfold spawn
    have : x.tmpl.map (fun t => some (substBraces (formatPath x.chdir f) t)) = (tmpl.map (substBraces (argOf c f))).map some := by
      rw [h2, h1, formatPath_eq, List.map_map]; rfl
    rw [hy, this, cArgv_map]
  have hready : ∀ y : Exec, y.chdir = c → y.tmpl = tmpl → y.argv.length = tmpl.length + 1 → Ready c tmpl (closewd y) := by
    intro y e1 e2 e3
    unfold closewd
    split
    · exact ⟨e1, e2, e3, rfl, rfl⟩
    · next hn => exact ⟨e1, e2, e3, rfl, by simpa using hn⟩
  cases c with
  | true =>
    rw [if_pos h1]
    obtain ⟨x', o1, o2⟩ := openwd_single (x := { x with argv := x.tmpl.map (fun t => some (substBraces (formatPath x.chdir f) t)) ++ [none], argc := x.tmplArgc })
      h4 h5 hf hfd
    have hx' := openwd_wd o1
    rw [o1]
    simp only [Bool.not_true, Bool.false_eq_true, if_false]
    rw [hargv x' (by rw [hx'])]
    refine ⟨closewd x', _, ?_, rfl, hready x' (by rw [hx']; exact h1) (by rw [hx']; exact h2) (by rw [hx']; simp [h2])⟩
    rw [o2]; rfl
  | false =>
    rw [if_neg (by simp [h1])]
    simp only [Bool.not_true, Bool.false_eq_true, if_false]
    rw [hargv _ rfl]
    refine ⟨closewd { x with argv := x.tmpl.map (fun t => some (substBraces (formatPath x.chdir f) t)) ++ [none], argc := x.tmplArgc }, _, ?_, rfl,
      hready { x with argv := x.tmpl.map (fun t => some (substBraces (formatPath x.chdir f) t)) ++ [none], argc := x.tmplArgc } h1 h2 (by simp [h2])⟩
    dsimp only
    rw [h4]

theorem singleAll_ok {c : Bool} {tmpl : List Bytes} : ∀ (fs : List File) {x : Exec} (w : World), Ready c tmpl x →
    (∀ f ∈ fs, f.fine ∧ (f.atFd = true → 0 < f.nameoff)) →
    ∃ x' w', singleAll fs x w = .ok (x', w') ∧ w'.answer = w.answer ∧
      w'.log.map (fun e => (e.args, e.cwd)) = w.log.map (fun e => (e.args, e.cwd)) ++
        fs.map (fun f => (tmpl.map (substBraces (argOf c f)), if c then dirOf f else none))
  | [], x, w, _, _ => ⟨x, w, rfl, rfl, by simp⟩
  | f :: fs, x, w, hx, hf => by
    obtain ⟨x1, r, h1, h2, h3⟩ := single_ok w hx (hf f (by simp)).1 (hf f (by simp)).2
    obtain ⟨x2, w2, h4, h5, h6⟩ := singleAll_ok fs { w with log := w.log ++ [⟨tmpl.map (substBraces (argOf c f)), if c then dirOf f else none, r⟩] } h3
      (fun g hg => hf g (by simp [hg]))
    refine ⟨x2, w2, by rw [singleAll, h1]; exact h4, h5, ?_⟩
    rw [h6]; simp

theorem foldl_total (l : List Bytes) : ∀ a : Int, l.foldl (fun (a : Int) e => a - sizeOfArg e) a = a - total l := by
  induction l with
  | nil => intro a; simp [total]
  | cons x l ih => intro a; rw [List.foldl_cons, ih]; simp only [total]; omega

/-- Everything about a finished run. -/
theorem run_inv {confirm c : Bool} {am : List Bytes → Nat} {args : List Bytes} {x : Exec} {w : World} (hw : w.log = [])
    (h : parse confirm c am args = .ok (true, x)) {fs : List File} {failed : Bool} {w' : World} (hr : runMulti x w fs = .ok (failed, w')) :
    ∃ x', x'.failed = failed ∧ Inv x.tmpl.dropLast c x w fs x' w' [] := by
  obtain ⟨hI, _, _⟩ := parse_inv w hw h
  unfold runMulti at hr
  cases he : execAll fs x w with
  | err e => rw [he] at hr; exact absurd hr (by simp [Out.bind])
  | ub => rw [he] at hr; exact absurd hr (by simp [Out.bind])
  | ok r =>
    obtain ⟨x1, w1⟩ := r
    rw [he] at hr
    obtain ⟨cf, h1⟩ := hI.all fs [] he
    obtain ⟨bad, w2, x2, g1, g2, g3⟩ := h1.fin
    have hr' : finish x1 w1 = .ok (failed, w') := hr
    rw [g1] at hr'
    simp only [Out.ok.injEq, Prod.mk.injEq] at hr'
    obtain ⟨rfl, rfl⟩ := hr'
    exact ⟨x2, g2, by simpa using g3⟩

end Verif.Exec
