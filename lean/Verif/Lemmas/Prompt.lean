import Verif.Spec.Prompt
import Verif.Spec.Spawn
import Verif.Lemmas.ExecTotal
/-! # Lemmas about `-ok` -/
namespace Verif.Prompt
open Verif.Exec (Bytes Exec World File Res formatAll formatPath openwd closewd cArgv spawn Ready substBraces argOf dirOf)
open Verif.Io (Stream)

theorem lines_cons (c : UInt8) (s : Bytes) : lines (c :: s) = (if c = 10 then [10] :: lines s else match lines s with | [] => [[c]] | x :: xs => (c :: x) :: xs) := rfl

theorem lines_eq_nil {s : Bytes} : lines s = [] ↔ s = [] := by
  constructor
  · intro h
    cases s with
    | nil => rfl
    | cons c s =>
      rw [lines_cons] at h
      split at h
      · cases h
      · split at h <;> cases h
  · rintro rfl; rfl

theorem lines_flatten : ∀ s : Bytes, (lines s).flatten = s
  | [] => rfl
  | c :: s => by
    have ih := lines_flatten s
    rw [lines_cons]
    split
    · next h => subst h; simp [ih]
    · split
      · next h => rw [lines_eq_nil.1 h]; rfl
      · next x xs h =>
        rw [h] at ih
        simp only [List.flatten_cons, List.cons_append] at ih ⊢
        rw [ih]

/-- `getdelim()` reads a line. -/
theorem getdelim_line (s : Bytes) (e : Option Nat) : Io.getdelim 10 ⟨s, e⟩ = ((lines s).head?, ⟨(lines s).tail.flatten, e⟩) := by
  have key : ∀ s : Bytes, s ≠ [] → ∃ x xs, lines s = x :: xs ∧
      (match s.findIdx? (· == 10) with | some i => s.take (i + 1) = x ∧ s.drop (i + 1) = xs.flatten | none => s = x ∧ xs = []) := by
    intro s
    induction s with
    | nil => intro h; exact absurd rfl h
    | cons c s ih =>
      intro _
      rw [lines_cons, List.findIdx?_cons]
      by_cases hc : c = 10
      · subst hc
        rw [if_pos rfl]
        refine ⟨[10], lines s, rfl, ?_⟩
        simp [lines_flatten]
      · rw [if_neg hc]
        have hb : (c == 10) = false := by simpa using hc
        rw [hb]
        cases hs : s with
        | nil => exact ⟨[c], [], rfl, by simp⟩
        | cons d r =>
          obtain ⟨x, xs, h1, h2⟩ := ih (by rw [hs]; simp)
          rw [← hs, h1]
          refine ⟨c :: x, xs, rfl, ?_⟩
          simp only [Bool.false_eq_true, if_false]
          cases hf : s.findIdx? (· == 10) with
          | none => rw [hf] at h2; simp only [Option.map_none]; exact ⟨by rw [← h2.1], h2.2⟩
          | some i => rw [hf] at h2; simp only [Option.map_some]; exact ⟨by simp [h2.1], by simp [h2.2]⟩
  cases s with
  | nil => rfl
  | cons b s =>
    obtain ⟨x, xs, h1, h2⟩ := key (b :: s) (by simp)
    unfold Io.getdelim
    dsimp only
    rw [h1]
    cases hf : (b :: s).findIdx? (· == 10) with
    | none => rw [hf] at h2; dsimp only at h2 ⊢; rw [h2.2, ← h2.1]; rfl
    | some i => rw [hf] at h2; dsimp only at h2 ⊢; rw [h2.1, h2.2]; rfl

theorem cstr_snoc (l : Bytes) : Io.cstr (l ++ [0]) = Io.cstr l := by
  induction l with
  | nil => rfl
  | cons b l ih =>
    unfold Io.cstr at ih ⊢
    rw [List.cons_append, List.takeWhile_cons, List.takeWhile_cons, ih]

theorem xgetdelim_line (s : Bytes) (e : Option Nat) :
    Io.xgetdelim 10 ⟨s, e⟩ = ((match (lines s).head? with | some line => .inl (Io.cstr line) | none => .inr (match e with | some e => e | none => 0)), ⟨(lines s).tail.flatten, e⟩) := by
  unfold Io.xgetdelim
  rw [getdelim_line]
  cases (lines s).head? with
  | none => rfl
  | some line =>
    dsimp only
    rw [if_neg (by simp), cstr_snoc]

/-- The answer is positive if, and only if, it is affirmative. -/
theorem xrpmatch_pos (l : Locale) (line : Bytes) : 0 < xrpmatch l (Io.cstr line) ↔ affirmative l (some line) = true := by
  have hhead : ∀ b : UInt8, b ≠ 0 → ((Io.cstr line).headD 0 = b ↔ line.head? = some b) := by
    intro b hb
    cases line with
    | nil => simp [Io.cstr]; exact fun h => hb h.symm
    | cons c r =>
      by_cases hc : c = 0
      · subst hc; simp [Io.cstr]
      · simp [Io.cstr, hc]
  unfold xrpmatch affirmative
  dsimp only
  generalize hr : Io.cstr line = r at hhead ⊢
  cases hn : l.no r with
  | none => simp [xrpregex, hn]
  | some b =>
    cases b with
    | true => simp [xrpregex, hn]
    | false =>
      have e1 : xrpregex l.no r = 0 := by simp [xrpregex, hn]
      rw [e1]
      simp only [gt_iff_lt, Int.lt_irrefl, if_false]
      unfold affirm
      cases hy : l.yes r with
      | none => simp [xrpregex, hy]
      | some b =>
        cases b with
        | true => simp [xrpregex, hy]
        | false =>
          have e2 : xrpregex l.yes r = 0 := by simp [xrpregex, hy]
          rw [e2]
          simp only [gt_iff_lt, Int.lt_irrefl, if_false]
          unfold failsafe
          have h1 := hhead 121 (by decide)
          have h2 := hhead 89 (by decide)
          simp only
          by_cases k : r.headD 0 = 110 ∨ r.headD 0 = 78
          · rw [if_pos k]
            have k1 : line.head? ≠ some 121 := fun h => by
              have := h1.2 h
              rcases k with k | k <;> rw [k] at this <;> exact absurd this (by decide)
            have k2 : line.head? ≠ some 89 := fun h => by
              have := h2.2 h
              rcases k with k | k <;> rw [k] at this <;> exact absurd this (by decide)
            simp [k1, k2]
          · rw [if_neg k]
            by_cases k3 : r.headD 0 = 121 ∨ r.headD 0 = 89
            · rw [if_pos k3, h1, h2] at *
              simp
              exact k3
            · rw [if_neg k3, h1, h2] at *
              simpa using k3

theorem ynprompt_line (l : Locale) (t : Console) :
    (0 < (ynprompt l t).1 ↔ affirmative l (lines t.input.data).head? = true) ∧ (ynprompt l t).2 = { t with input := { t.input with data := (lines t.input.data).tail.flatten } } := by
  unfold ynprompt
  rw [show t.input = ⟨t.input.data, t.input.error⟩ from rfl, xgetdelim_line]
  cases (lines t.input.data).head? with
  | none => exact ⟨by simp [affirmative], rfl⟩
  | some line => exact ⟨xrpmatch_pos l line, rfl⟩

theorem showArgs_ok (l : List Bytes) : ∀ t : Console, (showArgs l t).1 = true →
    (showArgs l t).2 = { t with shown := t.shown ++ l.flatMap (fun a => a ++ [32]), calls := t.calls + l.length } := by
  induction l with
  | nil => intro t _; simp [showArgs]
  | cons a as ih =>
    intro t h
    unfold showArgs at h ⊢
    unfold Console.print at h ⊢
    by_cases hb : t.broken t.calls = true
    · rw [if_pos hb] at h; cases h
    · rw [if_neg hb] at h ⊢
      dsimp only at h ⊢
      rw [if_pos rfl] at h ⊢
      rw [ih _ h]
      simp [Nat.add_assoc, Nat.add_comm 1]

theorem showArgs_works (l : List Bytes) : ∀ t : Console, (∀ n, t.broken n = false) → (showArgs l t).1 = true := by
  induction l with
  | nil => intro t _; rfl
  | cons a as ih =>
    intro t h
    unfold showArgs Console.print
    have e : t.broken t.calls ≠ true := by rw [h]; decide
    rw [if_neg e]
    dsimp only
    rw [if_pos rfl]
    exact ih _ h

/-- The next line is read. -/
def Console.asked (t : Console) (args : List Bytes) : Console :=
  { t with input := { t.input with data := (lines t.input.data).tail.flatten }, shown := t.shown ++ question args, calls := t.calls + args.length + 1 }

theorem confirm_cases (l : Locale) (args : List Bytes) (t : Console) :
    (confirm l args t = ((if affirmative l (lines t.input.data).head? then .yes else .no), t.asked args)) ∨ ((confirm l args t).1 = .error ∧ ¬ ∀ n, t.broken n = false) := by
  unfold confirm
  by_cases h1 : (showArgs args t).1 = false
  · rw [if_pos h1]
    exact .inr ⟨rfl, fun h => by rw [showArgs_works args t h] at h1; cases h1⟩
  · rw [if_neg h1]
    have e := showArgs_ok args t (by simpa using h1)
    by_cases h2 : ((showArgs args t).2.print [63, 32]).1 = false
    · rw [if_pos h2]
      refine .inr ⟨rfl, fun h => ?_⟩
      rw [e] at h2
      unfold Console.print at h2
      dsimp only at h2
      rw [if_neg (by rw [h]; decide)] at h2
      cases h2
    · rw [if_neg h2]
      have e2 : ((showArgs args t).2.print [63, 32]).2 = { t with shown := t.shown ++ question args, calls := t.calls + args.length + 1 } := by
        rw [e] at h2 ⊢
        unfold Console.print at h2 ⊢
        dsimp only at h2 ⊢
        split at h2
        · exact absurd rfl h2
        · next hb => rw [if_neg hb]; simp [question]
      rw [e2]
      obtain ⟨y1, y2⟩ := ynprompt_line l { t with shown := t.shown ++ question args, calls := t.calls + args.length + 1 }
      left
      rw [y2]
      by_cases h3 : affirmative l (lines t.input.data).head? = true
      · have := y1.2 h3
        rw [if_neg (by omega), if_pos h3]
        rfl
      · have : ¬ (0 : Int) < _ := fun h => h3 (y1.1 h)
        rw [if_pos (by omega), if_neg h3]
        rfl

/-- What a file's command is, and where it is run. -/
def command (c : Bool) (tmpl : List Bytes) (f : File) : List Bytes := tmpl.map (substBraces (argOf c f))

theorem singleOk_ok {c : Bool} {tmpl : List Bytes} {x : Exec} (l : Locale) (w : World) (t : Console) {f : File} (hx : Ready c tmpl x) (hf : f.fine) (hfd : f.atFd = true → 0 < f.nameoff) :
    ∃ x', Ready c tmpl x' ∧ singleOk l x w t f = .ok (match confirm l (command c tmpl f) t with
      | (.yes, t') => (w.answer w.log (command c tmpl f) = .ran true, x',
          { w with log := w.log ++ [⟨command c tmpl f, if c then dirOf f else none, w.answer w.log (command c tmpl f)⟩] }, t')
      | (_, t') => (false, x', w, t')) := by
  obtain ⟨h1, h2, h3, h4, h5⟩ := hx
  unfold singleOk
  rw [if_neg (by simp [hf.1])]
  have hfa := Exec.formatAll_eq (formatPath x.chdir f) x.tmpl [] x.argv [] (by rw [h3, h2])
  simp only [List.nil_append, List.append_nil, List.length_nil] at hfa
  rw [hfa]
  simp only [Out.bind]
  have hargv : ∀ y : Exec, y.argv = x.tmpl.map (fun t => some (substBraces (formatPath x.chdir f) t)) ++ [none] →
      spawnOk l y w t = .ok (match confirm l (command c tmpl f) t with
        | (.yes, t') => (w.answer w.log (command c tmpl f), { w with log := w.log ++ [⟨command c tmpl f, y.wdFd, w.answer w.log (command c tmpl f)⟩] }, t')
        | (.no, t') => (.ran false, w, t')
        | (.error, t') => (.error EIO, w, t')) := by
    intro y hy
    have hm : x.tmpl.map (fun t => some (substBraces (formatPath x.chdir f) t)) = (command c tmpl f).map some := by
      unfold command
      rw [h2, h1, Exec.formatPath_eq, List.map_map]; rfl
    have hc : cArgv y.argv = .ok (command c tmpl f) := by rw [hy, hm, Exec.cArgv_map]
    unfold spawnOk
    rw [hc]
    show (match confirm l (command c tmpl f) t with
      | (.yes, t) => (spawn y w).bind fun r => .ok (r.1, r.2, t)
      | (.no, t) => .ok (.ran false, w, t)
      | (.error, t) => .ok (.error EIO, w, t) : Out (Res × World × Console)) = _
    rcases confirm l (command c tmpl f) t with ⟨a, t'⟩
    cases a with
    | yes => dsimp only; unfold spawn; rw [hc]; rfl
    | no => rfl
    | error => rfl
  have hready : ∀ y : Exec, y.chdir = c → y.tmpl = tmpl → y.argv.length = tmpl.length + 1 → Ready c tmpl (closewd y) := by
    intro y e1 e2 e3
    unfold closewd
    split
    · exact ⟨e1, e2, e3, rfl, rfl⟩
    · next hn => exact ⟨e1, e2, e3, rfl, by simpa using hn⟩
  cases c with
  | true =>
    rw [if_pos h1]
    obtain ⟨x', o1, o2⟩ := Exec.openwd_single (x := { x with argv := x.tmpl.map (fun t => some (substBraces (formatPath x.chdir f) t)) ++ [none], argc := x.tmplArgc })
      h4 h5 hf hfd
    have hx' := Exec.openwd_wd o1
    rw [o1]
    simp only [Bool.not_true, Bool.false_eq_true, if_false]
    rw [hargv x' (by rw [hx'])]
    refine ⟨closewd x', hready x' (by rw [hx']; exact h1) (by rw [hx']; exact h2) (by rw [hx']; simp [h2]), ?_⟩
    rw [o2]
    rcases confirm l (command true tmpl f) t with ⟨a, t'⟩
    cases a <;> rfl
  | false =>
    rw [if_neg (by simp [h1])]
    simp only [Bool.not_true, Bool.false_eq_true, if_false]
    rw [hargv _ rfl]
    refine ⟨closewd { x with argv := x.tmpl.map (fun t => some (substBraces (formatPath x.chdir f) t)) ++ [none], argc := x.tmplArgc },
      hready { x with argv := x.tmpl.map (fun t => some (substBraces (formatPath x.chdir f) t)) ++ [none], argc := x.tmplArgc } h1 h2 (by simp [h2]), ?_⟩
    dsimp only
    rw [h4]
    rcases confirm l (command false tmpl f) t with ⟨a, t'⟩
    cases a <;> rfl

theorem lines_drop (s : Bytes) (n : Nat) : lines ((lines s).drop n).flatten = (lines s).drop n := by
  have h1 : ∀ s : Bytes, lines (lines s).tail.flatten = (lines s).tail := by
    intro s
    induction s with
    | nil => rfl
    | cons c s ih =>
      rw [lines_cons]
      split
      · show lines (lines s).flatten = lines s; rw [lines_flatten]
      · split
        · rfl
        · next x xs h => rw [h] at ih; exact ih
  induction n generalizing s with
  | zero => rw [List.drop_zero, lines_flatten]
  | succ n ih =>
    have := ih (lines s).tail.flatten
    rw [h1] at this
    rw [← List.drop_tail] 
    exact this

theorem singleAllOk_ok {c : Bool} {tmpl : List Bytes} (l : Locale) : ∀ (fs : List File) {x : Exec} (w : World) (t : Console), Ready c tmpl x → (∀ n, t.broken n = false) →
    (∀ f ∈ fs, f.fine ∧ (f.atFd = true → 0 < f.nameoff)) →
    ∃ results x' w' t', singleAllOk l fs x w t = .ok (results, x', w', t') ∧ w'.answer = w.answer ∧ results.length = fs.length ∧
      w'.log.map (fun e => (e.args, e.cwd)) = w.log.map (fun e => (e.args, e.cwd)) ++
        ((fs.zipIdx).filter fun fi => affirmative l (lines t.input.data)[fi.2]?).map (fun fi => (command c tmpl fi.1, if c then dirOf fi.1 else none)) ∧
      t'.shown = t.shown ++ fs.flatMap (fun f => question (command c tmpl f)) ∧ t'.input = { t.input with data := ((lines t.input.data).drop fs.length).flatten } ∧
      (w'.log.drop w.log.length).map (fun e => decide (e.res = .ran true)) =
        ((results.zipIdx).filter fun ri => affirmative l (lines t.input.data)[ri.2]?).map (fun ri => ri.1) ∧
      (∀ i : Nat, affirmative l (lines t.input.data)[i]? = false → results[i]? ≠ some true) ∧ (∃ rest, w'.log = w.log ++ rest)
  | [], x, w, t, _, _, _ => ⟨[], x, w, t, rfl, rfl, rfl, by simp, by simp, by simp [lines_flatten], by simp, by simp, [], by simp⟩
  | f :: fs, x, w, t, hx, hb, hf => by
    obtain ⟨x1, k1, k2⟩ := singleOk_ok l w t hx (hf f (by simp)).1 (hf f (by simp)).2
    rcases confirm_cases l (command c tmpl f) t with k3 | ⟨_, k3⟩
    case inr => exact absurd hb k3
    rw [k3] at k2
    have hlines : lines (t.asked (command c tmpl f)).input.data = (lines t.input.data).drop 1 := by
      show lines (lines t.input.data).tail.flatten = _
      rw [← List.drop_one, lines_drop]
    have hidx : ∀ i, (lines (t.asked (command c tmpl f)).input.data)[i]? = (lines t.input.data)[i + 1]? := by
      intro i; rw [hlines, List.getElem?_drop, Nat.add_comm]
    have hz : ∀ {α β : Type} (g : α × Nat → β) (a : α) (as : List α) (P : Nat → Bool), (((a :: as).zipIdx).filter fun fi => P fi.2).map g =
        (if P 0 then [g (a, 0)] else []) ++ ((as.zipIdx).filter fun fi => P (fi.2 + 1)).map (fun fi => g (fi.1, fi.2 + 1)) := by
      intro α β g a as P
      rw [List.zipIdx_cons, List.filter_cons]
      have : (as.zipIdx (0 + 1)).filter (fun fi => P fi.2) = ((as.zipIdx).filter fun fi => P (fi.2 + 1)).map (fun fi => (fi.1, fi.2 + 1)) := by
        rw [Nat.zero_add, List.zipIdx_succ, List.filter_map]
        rfl
      rw [this]
      split <;> simp [List.map_map, Function.comp_def]
    have hh : (lines t.input.data).head? = (lines t.input.data)[0]? := by rw [List.head?_eq_getElem?]
    have hdrop : ∀ n, ((lines (t.asked (command c tmpl f)).input.data).drop n).flatten = ((lines t.input.data).drop (n + 1)).flatten := by
      intro n; rw [hlines, List.drop_drop, Nat.add_comm]
    by_cases ha : affirmative l (lines t.input.data)[0]? = true
    · rw [hh, if_pos ha] at k2
      obtain ⟨results, x2, w2, t2, j1, j2, j0, j3, j4, j5, j6, j7, j8⟩ := singleAllOk_ok (c := c) (tmpl := tmpl) l fs
        { w with log := w.log ++ [⟨command c tmpl f, if c then dirOf f else none, w.answer w.log (command c tmpl f)⟩] } (t.asked (command c tmpl f)) k1 hb
        (fun g hg => hf g (by simp [hg]))
      refine ⟨decide (w.answer w.log (command c tmpl f) = .ran true) :: results, x2, w2, t2, ?_, j2, ?_, ?_, ?_, ?_, ?_, ?_, ?_⟩
      · unfold singleAllOk; rw [k2]; show (singleAllOk l fs x1 _ _).bind _ = _; rw [j1]; rfl
      · simp [j0]
      · rw [j3, hz (fun fi => (command c tmpl fi.1, if c then dirOf fi.1 else none)) f fs (fun i => affirmative l (lines t.input.data)[i]?), if_pos ha]
        simp [hidx]
      · rw [j4]; simp [Console.asked]
      · rw [j5]; show Stream.mk _ _ = _; rw [hdrop]; rfl
      · rw [hz (fun ri => ri.1) (decide (w.answer w.log (command c tmpl f) = .ran true)) results (fun i => affirmative l (lines t.input.data)[i]?), if_pos ha]
        simp only [hidx] at j6
        rw [← j6]
        have hlog : ∃ rest, w2.log = w.log ++ ⟨command c tmpl f, if c then dirOf f else none, w.answer w.log (command c tmpl f)⟩ :: rest := by
          obtain ⟨rest, hr⟩ := j8
          exact ⟨rest, by rw [hr]; simp⟩
        obtain ⟨rest, hr⟩ := hlog
        rw [hr]
        simp
      · intro i hi
        match i with
        | 0 => rw [ha] at hi; cases hi
        | i + 1 => rw [← hidx] at hi; exact j7 i hi
      · obtain ⟨rest, hr⟩ := j8
        exact ⟨_, by rw [hr, List.append_assoc]⟩
    · rw [hh, if_neg ha] at k2
      obtain ⟨results, x2, w2, t2, j1, j2, j0, j3, j4, j5, j6, j7, j8⟩ := singleAllOk_ok (c := c) (tmpl := tmpl) l fs w (t.asked (command c tmpl f)) k1 hb (fun g hg => hf g (by simp [hg]))
      refine ⟨false :: results, x2, w2, t2, ?_, j2, ?_, ?_, ?_, ?_, ?_, ?_, ?_⟩
      · unfold singleAllOk; rw [k2]; show (singleAllOk l fs x1 _ _).bind _ = _; rw [j1]; rfl
      · simp [j0]
      · rw [j3, hz (fun fi => (command c tmpl fi.1, if c then dirOf fi.1 else none)) f fs (fun i => affirmative l (lines t.input.data)[i]?), if_neg ha]
        simp [hidx]
      · rw [j4]; simp [Console.asked]
      · rw [j5]; show Stream.mk _ _ = _; rw [hdrop]; rfl
      · rw [hz (fun ri => ri.1) false results (fun i => affirmative l (lines t.input.data)[i]?), if_neg ha]
        simp only [hidx] at j6
        rw [← j6]
        simp
      · intro i hi
        match i with
        | 0 => simp
        | i + 1 => rw [← hidx] at hi; exact j7 i hi
      · exact j8

/-! ## Whatever goes wrong -/

theorem spawnOk_cases {l : Locale} {x : Exec} {w w' : World} {t t' : Console} {r : Res} (h : spawnOk l x w t = .ok (r, w', t')) :
    (w' = w ∧ r ≠ .ran true) ∨ ∃ args, w' = { w with log := w.log ++ [⟨args, x.wdFd, r⟩] } ∧ affirmative l (lines t.input.data).head? = true ∧ t' = t.asked args := by
  unfold spawnOk at h
  cases hc : cArgv x.argv with
  | ok args =>
    rw [hc] at h
    simp only [Out.bind] at h
    rcases confirm_cases l args t with k | ⟨k, _⟩
    · rw [k] at h
      by_cases ha : affirmative l (lines t.input.data).head? = true
      · rw [if_pos ha] at h
        dsimp only at h
        unfold spawn at h
        rw [hc] at h
        simp only [Out.bind] at h
        cases h
        exact .inr ⟨args, rfl, ha, rfl⟩
      · rw [if_neg ha] at h
        cases h
        exact .inl ⟨rfl, by decide⟩
    · generalize confirm l args t = q at h k
      obtain ⟨a, t1⟩ := q
      dsimp only at k
      subst k
      cases h
      exact .inl ⟨rfl, by decide⟩
  | err e => rw [hc] at h; cases h
  | ub => rw [hc] at h; cases h

theorem singleOk_cases {l : Locale} {x x' : Exec} {w w' : World} {t t' : Console} {f : File} {r : Bool} (h : singleOk l x w t f = .ok (r, x', w', t')) :
    (w' = w ∧ r = false) ∨ ∃ e, w' = { w with log := w.log ++ [e] } ∧ affirmative l (lines t.input.data).head? = true ∧ t' = t.asked e.args ∧ (r = true ↔ e.res = .ran true) := by
  unfold singleOk at h
  split at h
  · cases h; exact .inl ⟨rfl, rfl⟩
  · obtain ⟨argv, _, h⟩ := Out.bind_eq_ok.1 h
    obtain ⟨q, _, h⟩ := Out.bind_eq_ok.1 h
    split at h
    · cases h; exact .inl ⟨rfl, rfl⟩
    · obtain ⟨⟨r1, w1, t1⟩, hs, h⟩ := Out.bind_eq_ok.1 h
      cases h
      rcases spawnOk_cases hs with ⟨rfl, h2⟩ | ⟨args, rfl, h2, rfl⟩
      · exact .inl ⟨rfl, by simpa using h2⟩
      · exact .inr ⟨_, rfl, h2, rfl, by simp⟩

theorem singleOk_consent {l : Locale} {x x' : Exec} {w w' : World} {t t' : Console} {f : File} {r : Bool} (h : singleOk l x w t f = .ok (r, x', w', t')) (hne : w'.log ≠ w.log) :
    ∃ e, w'.log = w.log ++ [e] ∧ t'.shown = t.shown ++ question e.args ∧ affirmative l (lines t.input.data).head? = true ∧
      t'.input.data = (lines t.input.data).tail.flatten ∧ (r = true ↔ e.res = .ran true) := by
  rcases singleOk_cases h with ⟨rfl, _⟩ | ⟨e, rfl, h2, rfl, h3⟩
  · exact absurd rfl hne
  · exact ⟨e, rfl, rfl, h2, rfl, h3⟩

theorem singleOk_refused {l : Locale} {x x' : Exec} {w w' : World} {t t' : Console} {f : File} {r : Bool} (h : singleOk l x w t f = .ok (r, x', w', t')) (hne : w'.log = w.log) : r = false := by
  rcases singleOk_cases h with ⟨_, h2⟩ | ⟨e, rfl, h2, rfl, h3⟩
  · exact h2
  · exact absurd hne (by simp)

/-! ## The question -/

theorem question_inj : ∀ (a b : List Bytes), (∀ w ∈ a, (32 : UInt8) ∉ w) → (∀ w ∈ b, (32 : UInt8) ∉ w) →
    a.flatMap (fun a => a ++ [32]) = b.flatMap (fun a => a ++ [32]) → a = b
  | [], [], _, _, _ => rfl
  | [], b :: bs, _, _, h => by simp at h
  | a :: as, [], _, _, h => by simp at h
  | a :: as, b :: bs, ha, hb, h => by
    rw [List.flatMap_cons, List.flatMap_cons, List.append_assoc, List.append_assoc] at h
    have key : ∀ (x y : Bytes) (s t : Bytes), (32 : UInt8) ∉ x → (32 : UInt8) ∉ y → x ++ 32 :: s = y ++ 32 :: t → x = y ∧ s = t := by
      intro x
      induction x with
      | nil =>
        intro y s t _ hy e
        cases y with
        | nil => injection e with _ e; exact ⟨rfl, e⟩
        | cons d y => injection e with e _; exact absurd (by rw [← e]; simp) hy
      | cons d x ih =>
        intro y s t hx hy e
        cases y with
        | nil => injection e with e _; exact absurd (by rw [e]; simp) hx
        | cons d' y =>
          injection e with e1 e2
          obtain ⟨i1, i2⟩ := ih y s t (fun h => hx (by simp [h])) (fun h => hy (by simp [h])) e2
          exact ⟨by rw [e1, i1], i2⟩
    obtain ⟨k1, k2⟩ := key a b _ _ (ha a (by simp)) (hb b (by simp)) h
    rw [k1, question_inj as bs (fun w hw => ha w (by simp [hw])) (fun w hw => hb w (by simp [hw])) k2]

/-! ## `$PATH` -/

theorem entries_dropWhile (p : Bytes) : Spec.Spawn.entries p = match p.dropWhile (· ≠ 58) with
    | [] => [p]
    | _ :: rest => p.takeWhile (· ≠ 58) :: Spec.Spawn.entries rest := by
  induction p with
  | nil => rfl
  | cons c p ih =>
    have e : Spec.Spawn.entries (c :: p) = if c = 58 then [] :: Spec.Spawn.entries p else match Spec.Spawn.entries p with
        | [] => [[c]]
        | x :: xs => (c :: x) :: xs := rfl
    rw [e]
    by_cases hc : c = 58
    · rw [if_pos hc, List.dropWhile_cons, if_neg (by simp [hc]), List.takeWhile_cons, if_neg (by simp [hc])]
    · rw [if_neg hc, List.dropWhile_cons, if_pos (by simp [hc]), List.takeWhile_cons, if_pos (by simp [hc]), ih]
      generalize p.dropWhile (· ≠ 58) = q
      cases q <;> rfl

theorem relativeLoop_eq : ∀ (fuel : Nat) (p : Bytes), p.length < fuel → relativeLoop fuel p = !Spec.Spawn.absolute p
  | 0, p, h => by omega
  | fuel + 1, p, h => by
    unfold relativeLoop Spec.Spawn.absolute
    rw [entries_dropWhile]
    have hlen : (p.dropWhile (· ≠ 58)).length ≤ p.length := (List.dropWhile_sublist _).length_le
    have hhead : (p.takeWhile (· ≠ 58)).head? = some 47 ↔ p.head? = some 47 := by
      cases p with
      | nil => rfl
      | cons c p =>
        rw [List.takeWhile_cons]
        split
        · rfl
        · next h => simp at h; subst h; simp
    have hd : (p.headD 0 != 47) = !decide (p.head? = some 47) := by
      cases p with
      | nil => rfl
      | cons c p => simp [bne]; rfl
    generalize hq : p.dropWhile (· ≠ 58) = q at hlen ⊢
    cases q with
    | nil => dsimp only; rw [hd]; simp
    | cons d q =>
      have := relativeLoop_eq fuel q (by simp at hlen; omega)
      dsimp only
      rw [this, hd]
      unfold Spec.Spawn.absolute
      rw [List.all_cons]
      have : decide ((p.takeWhile (· ≠ 58)).head? = some 47) = decide (p.head? = some 47) := by simp only [hhead]
      rw [this]
      cases decide (p.head? = some 47) <;> simp

end Verif.Prompt
