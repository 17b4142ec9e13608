import Verif.Spec.Exec
import Verif.Lemmas.Trie
/-!
# Lemmas about the `-exec ... +` buffer
-/
namespace Verif.Exec

theorem total_append (a b : List Bytes) : total (a ++ b) = total a + total b := by
  induction a with
  | nil => simp [total]
  | cons x xs ih => simp [total, ih]; omega

theorem sizeOfArg_pos (a : Bytes) : 0 < sizeOfArg a := by unfold sizeOfArg; omega

theorem total_pos {l : List Bytes} (h : l ≠ []) : 0 < total l := by
  cases l with
  | nil => exact absurd rfl h
  | cons a as => have := sizeOfArg_pos a; simp [total]; omega

theorem store_mid (a : List (Option Bytes)) (g p : Option Bytes) (b : List (Option Bytes)) (i : Nat) (hi : i = a.length) :
    store (a ++ g :: b) i p = .ok (a ++ p :: b) := by
  subst hi
  unfold store
  rw [if_pos (by simp)]
  congr 1
  rw [List.set_append_right _ _ (Nat.le_refl _)]
  simp

theorem load_mid (a : List (Option Bytes)) (g : Option Bytes) (b : List (Option Bytes)) (i : Nat) (hi : i = a.length) :
    load (a ++ g :: b) i = .ok g := by
  subst hi
  unfold load
  simp

theorem cArgv_eq (l : List Bytes) (t : List (Option Bytes)) : cArgv (l.map some ++ none :: t) = .ok l := by
  induction l with
  | nil => rfl
  | cons a as ih => simp only [List.map_cons, List.cons_append, cArgv, ih]

/-- What the array looks like: the fixed arguments, the pending ones, an unused slot, arguments
already taken off the end, and the rest. -/
structure Rep (fixed : List Bytes) (x : Exec) (cur : List Bytes) (gap : Option Bytes) (rest : List Bytes)
    (tail : List (Option Bytes)) : Prop where
  argv : x.argv = fixed.map some ++ cur.map some ++ gap :: (rest.map some ++ tail)
  argc : x.argc = fixed.length + cur.length
  tmpl : x.tmpl.length = fixed.length + 1
  size : x.argSize = total cur

theorem Rep.remain {fixed x cur gap rest tail} (h : Rep fixed x cur gap rest tail) : argsRemain x = true ↔ cur ≠ [] := by
  unfold argsRemain Exec.tmplArgc
  rw [h.argc, h.tmpl]
  cases cur <;> simp <;> omega

theorem shrink_spec (fixed : List Bytes) (newMax : Nat) : ∀ (n : Nat) (cur rest : List Bytes) (gap : Option Bytes) (tail : List (Option Bytes))
    (fuel : Nat) (x : Exec), cur.length = n → n ≤ fuel → Rep fixed x cur gap rest tail →
    ∃ cur' popped gap' argv', cur = cur' ++ popped ∧ total cur' ≤ newMax ∧
      (newMax < total cur → popped ≠ []) ∧
      (∀ a t, cur = a :: t → sizeOfArg a ≤ newMax → cur' ≠ []) ∧
      shrink newMax fuel x = .ok { x with argv := argv', argSize := total cur', argc := fixed.length + cur'.length } ∧
      Rep fixed { x with argv := argv', argSize := total cur', argc := fixed.length + cur'.length } cur' gap' (popped ++ rest) tail := by
  intro n
  induction n with
  | zero =>
    intro cur rest gap tail fuel x hn hf hr
    have : cur = [] := List.length_eq_zero_iff.1 hn
    subst this
    have hx : ({ x with argv := x.argv, argSize := total [], argc := fixed.length + ([] : List Bytes).length } : Exec) = x := by
      have := hr.size; have := hr.argc; cases x; simp_all
    refine ⟨[], [], gap, x.argv, rfl, by simp [total], by simp [total], by simp, ?_, ?_⟩
    · rw [hx]
      have := hr.size
      cases fuel with
      | zero => rw [shrink, if_neg (by simp [this, total])]
      | succ f => rw [shrink, if_neg (by simp [this, total])]
    · rw [hx]; exact hr
  | succ n ih =>
    intro cur rest gap tail fuel x hn hf hr
    have hsz := hr.size
    by_cases hlt : newMax < total cur
    · obtain ⟨init, a, rfl⟩ : ∃ init a, cur = init ++ [a] :=
        ⟨cur.dropLast, cur.getLast (by intro h; simp [h] at hn), (List.dropLast_concat_getLast _).symm⟩
      have hn' : init.length = n := by simpa using hn
      obtain ⟨f, rfl⟩ : ∃ f, fuel = f + 1 := ⟨fuel - 1, by omega⟩
      rw [shrink, if_pos (by omega)]
      have hargc := hr.argc
      rw [if_neg (by rw [hargc]; simp)]
      have e1 : x.argv = (fixed.map some ++ init.map some) ++ some a :: (gap :: (rest.map some ++ tail)) := by
        rw [hr.argv]; simp
      rw [show load x.argv (x.argc - 1) = .ok (some a) from by
        rw [e1]; apply load_mid; simp [hargc]]
      simp only [Out.bind]
      have e2 : x.argv = (fixed.map some ++ init.map some ++ [some a]) ++ gap :: (rest.map some ++ tail) := by
        rw [hr.argv]; simp
      rw [show store x.argv x.argc (some a) = .ok ((fixed.map some ++ init.map some ++ [some a]) ++ some a :: (rest.map some ++ tail)) from by
        rw [e2]; apply store_mid; simp [hargc]]
      simp only [sizeOfPtr]
      obtain ⟨cur', popped, gap', argv', h1, h2, h3, h4, h5, h6⟩ := ih init (a :: rest) (some a) tail f
        { x with argv := (fixed.map some ++ init.map some ++ [some a]) ++ some a :: (rest.map some ++ tail), argSize := x.argSize - sizeOfArg a, argc := x.argc - 1 } hn' (by omega)
        ⟨by simp, by simp [hargc], hr.tmpl, by simp [hsz, total_append, total]⟩
      refine ⟨cur', popped ++ [a], gap', argv', by rw [h1]; simp, h2, by simp, ?_, h5, ?_⟩
      · intro b t hb hle
        cases init with
        | nil =>
          simp at hb
          rw [hb.1] at hlt
          simp [total] at hlt
          omega
        | cons c cs =>
          simp at hb
          exact h4 c cs rfl (by rw [hb.1]; exact hle)
      · have := h6
        simp only [List.append_assoc, List.singleton_append] at this ⊢
        exact this
    · have hx : ({ x with argv := x.argv, argSize := total cur, argc := fixed.length + cur.length } : Exec) = x := by
        have := hr.argc; cases x; simp_all
      refine ⟨cur, [], gap, x.argv, by simp, by omega, fun h => absurd h hlt, ?_, ?_, ?_⟩
      · intro a t h _; rw [h]; simp
      · rw [hx]
        obtain ⟨f, rfl⟩ : ∃ f, fuel = f + 1 := ⟨fuel - 1, by omega⟩
        rw [shrink, if_neg (by omega)]
      · rw [hx]; exact hr

theorem updateMax_lt {x : Exec} (hm : x.argMin ≤ x.argMax) (hs : 0 < x.argSize) :
    estimateMax (updateMax x) < x.argSize ∧ (updateMax x).argMin ≤ (updateMax x).argMax ∧ (updateMax x).argMax ≤ x.argMax ∧
    (16 * x.argMax ≥ 15 * x.argSize → 16 * (updateMax x).argMax ≥ 15 * x.argSize) ∧
    (16 * x.argMax < 15 * x.argSize → (updateMax x).argMax = x.argMax) ∧
    updateMax x = { x with argMin := (updateMax x).argMin, argMax := (updateMax x).argMax } := by
  unfold updateMax estimateMax
  dsimp only
  split <;> split <;> (try split) <;> simp_all <;> omega

theorem estimate_ge (x : Exec) (hm : x.argMin ≤ x.argMax) : x.argMax ≤ 2 * estimateMax x + 1 := by
  unfold estimateMax; omega

theorem estimate_le (x : Exec) (hm : x.argMin ≤ x.argMax) : estimateMax x ≤ x.argMax := by
  unfold estimateMax; omega

theorem updateMin_spec {x : Exec} (hm : x.argMin ≤ x.argMax) :
    (updateMin x).argMin ≤ (updateMin x).argMax ∧ x.argMin ≤ (updateMin x).argMin ∧
    updateMin x = { x with argMin := (updateMin x).argMin } := by
  unfold updateMin
  split
  · dsimp only
    refine ⟨?_, ?_, rfl⟩ <;> split <;> omega
  · exact ⟨hm, Nat.le_refl _, rfl⟩

/-- An attempt failed because of its size. -/
def Entry.tooBig (e : Entry) : Prop := e.res = .error E2BIG

/-- The entry is an attempt with these arguments after the fixed ones, in this directory. -/
def Entry.of (e : Entry) (fixed : List Bytes) (cwd : Option Bytes) (seg : List Bytes) : Prop :=
  e.args = fixed ++ seg ∧ e.cwd = cwd

/-- The adjustable part of the state. -/
def Exec.upd (x : Exec) (argv : List (Option Bytes)) (argc size mx mn : Nat) : Exec :=
  { x with argv, argc, argSize := size, argMax := mx, argMin := mn }

/-- No E2BIG can be a surprise: the limit is large compared to `K`, or the arguments fit. -/
def Lim (K : Nat) (x : Exec) : Prop := 15 * K ≤ 16 * x.argMax ∨ x.argSize ≤ K

/-- What `flushLoop` does to `cur`, the pending arguments. -/
structure FlushLoop (fixed : List Bytes) (tail : List (Option Bytes)) (x : Exec) (w : World) (last : Option Res) (cur rest : List Bytes)
    (x' : Exec) (cur' popped : List Bytes) (new : List Entry) (last' : Option Res) : Prop where
  calm : (∀ e ∈ new, ¬ e.tooBig) → popped = []
  split : cur = cur' ++ popped
  rep : ∃ gap', Rep fixed x' cur' gap' (popped ++ rest) tail
  upd : x' = x.upd x'.argv x'.argc x'.argSize x'.argMax x'.argMin
  min_max : x'.argMin ≤ x'.argMax
  max_le : x'.argMax ≤ x.argMax
  dec : new.Pairwise fun a b => b.args.length < a.args.length
  segs : ∀ e ∈ new, ∃ seg, seg <+: cur ∧ e.of fixed x.wdFd seg
  ans : ∀ e ∈ new, ∃ log, e.res = w.answer log e.args
  cases : (cur = [] ∧ new = [] ∧ last' = last) ∨
    (cur ≠ [] ∧ cur' = [] ∧ last' = some (.error E2BIG) ∧ ∀ e ∈ new, e.tooBig) ∨
    (cur' ≠ [] ∧ ∃ big e, new = big ++ [e] ∧ (∀ e ∈ big, e.tooBig) ∧ e.of fixed x.wdFd cur' ∧ last' = some e.res ∧ e.res ≠ .error E2BIG)
  lim : ∀ K, Accepts K fixed w → (∀ a ∈ cur, 16 * sizeOfArg a ≤ 7 * K) → Lim K x →
    (cur = [] ∨ cur' ≠ []) ∧ (15 * K ≤ 16 * x'.argMax ∨ popped = [] ∧ x'.argMax = x.argMax)

theorem spawn_eq {fixed : List Bytes} {x : Exec} {w : World} {cur rest : List Bytes} {tail : List (Option Bytes)}
    (h : Rep fixed x cur none rest tail) :
    spawn x w = .ok (w.answer w.log (fixed ++ cur), { w with log := w.log ++ [⟨fixed ++ cur, x.wdFd, w.answer w.log (fixed ++ cur)⟩] }) := by
  unfold spawn
  have : x.argv = (fixed ++ cur).map some ++ none :: (rest.map some ++ tail) := by rw [h.argv]; simp
  rw [this, cArgv_eq]

theorem flushLoop_spec (fixed : List Bytes) (tail : List (Option Bytes)) : ∀ (n : Nat) (cur rest : List Bytes) (gap : Option Bytes)
    (fuel : Nat) (x : Exec) (w : World) (last : Option Res), cur.length ≤ n → n < fuel →
    Rep fixed x cur gap rest tail → x.argMin ≤ x.argMax →
    ∃ x' cur' popped new last', flushLoop fuel x w last = .ok (x', { w with log := w.log ++ new }, last') ∧
      FlushLoop fixed tail x w last cur rest x' cur' popped new last' := by
  intro n
  induction n with
  | zero =>
    intro cur rest gap fuel x w last hn hf hr hm
    have : cur = [] := List.length_eq_zero_iff.1 (by omega)
    subst this
    obtain ⟨f, rfl⟩ : ∃ f, fuel = f + 1 := ⟨fuel - 1, by omega⟩
    refine ⟨x, [], [], [], last, ?_, ?_⟩
    · rw [flushLoop, if_neg (by rw [hr.remain]; simp)]; simp
    · exact ⟨fun _ => rfl, rfl, ⟨gap, hr⟩, rfl, hm, Nat.le_refl _, List.Pairwise.nil, by simp, by simp, Or.inl ⟨rfl, rfl, rfl⟩, by simp⟩
  | succ n ih =>
    intro cur rest gap fuel x w last hn hf hr hm
    obtain ⟨f, rfl⟩ : ∃ f, fuel = f + 1 := ⟨fuel - 1, by omega⟩
    by_cases hc : cur = []
    · subst hc
      refine ⟨x, [], [], [], last, ?_, ?_⟩
      · rw [flushLoop, if_neg (by rw [hr.remain]; simp)]; simp
      · exact ⟨fun _ => rfl, rfl, ⟨gap, hr⟩, rfl, hm, Nat.le_refl _, List.Pairwise.nil, by simp, by simp, Or.inl ⟨rfl, rfl, rfl⟩, by simp⟩
    · have hst : store x.argv x.argc none = .ok (fixed.map some ++ cur.map some ++ none :: (rest.map some ++ tail)) := by
        rw [hr.argv]; apply store_mid; simp [hr.argc]
      have hr0 : Rep fixed { x with argv := fixed.map some ++ cur.map some ++ none :: (rest.map some ++ tail) } cur none rest tail :=
        ⟨rfl, hr.argc, hr.tmpl, hr.size⟩
      have hsp := spawn_eq (w := w) hr0
      have hpos := total_pos hc
      generalize hx0 : ({ x with argv := fixed.map some ++ cur.map some ++ none :: (rest.map some ++ tail) } : Exec) = x0 at hr0 hsp
      have hx0f : x0 = x.upd x0.argv x0.argc x0.argSize x0.argMax x0.argMin ∧ x0.argMax = x.argMax ∧ x0.argMin = x.argMin ∧ x0.wdFd = x.wdFd := by
        subst hx0; exact ⟨rfl, rfl, rfl, rfl⟩
      obtain ⟨hu0, hmx0, hmn0, hwd0⟩ := hx0f
      have hunf : flushLoop (f + 1) x w last = (match w.answer w.log (fixed ++ cur) with
        | .ran true => .ok (updateMin x0, { w with log := w.log ++ [⟨fixed ++ cur, x.wdFd, w.answer w.log (fixed ++ cur)⟩] }, some (w.answer w.log (fixed ++ cur)))
        | .ran false => .ok (x0, { w with log := w.log ++ [⟨fixed ++ cur, x.wdFd, w.answer w.log (fixed ++ cur)⟩] }, some (w.answer w.log (fixed ++ cur)))
        | .error e => if e ≠ E2BIG then .ok (x0, { w with log := w.log ++ [⟨fixed ++ cur, x.wdFd, w.answer w.log (fixed ++ cur)⟩] }, some (w.answer w.log (fixed ++ cur)))
          else (shrink (estimateMax (updateMax x0)) (updateMax x0).argc (updateMax x0)).bind fun x =>
            flushLoop f x { w with log := w.log ++ [⟨fixed ++ cur, x0.wdFd, w.answer w.log (fixed ++ cur)⟩] } (some (w.answer w.log (fixed ++ cur)))) := by
        rw [flushLoop, if_pos (hr.remain.2 hc), hst]
        simp only [Out.bind]
        rw [hx0, hsp]
        simp only [hwd0]
        rfl
      rw [hunf]
      have hran : ∀ r, w.answer w.log (fixed ++ cur) = r → r ≠ .error E2BIG → ∀ x1, x1.argMin ≤ x1.argMax → x1 = x0.upd x1.argv x1.argc x1.argSize x1.argMax x1.argMin →
          x1.argMax = x0.argMax → x1.argv = x0.argv → x1.argc = x0.argc → x1.argSize = x0.argSize →
          FlushLoop fixed tail x w last cur rest x1 cur [] [⟨fixed ++ cur, x.wdFd, r⟩] (some r) := by
        intro r hr' hne x1 h1 h2 h3 h4 h5 h6
        refine ⟨fun _ => rfl, by simp, ⟨none, ?_⟩, ?_, h1, by omega, by simp, ?_, ?_, Or.inr (Or.inr ⟨hc, [], _, rfl, by simp, ⟨rfl, rfl⟩, rfl, hne⟩), ?_⟩
        · refine ⟨by rw [h4]; exact hr0.argv, by rw [h5]; exact hr0.argc, ?_, by rw [h6]; exact hr0.size⟩
          rw [h2]; exact hr0.tmpl
        · rw [h2, hu0]; rfl
        · intro e he
          simp at he; subst he
          exact ⟨cur, List.prefix_rfl, rfl, rfl⟩
        · intro e he
          simp at he; subst he
          exact ⟨w.log, hr'.symm⟩
        · intro K _ _ _
          exact ⟨Or.inr hc, Or.inr ⟨rfl, by omega⟩⟩
      cases hans : w.answer w.log (fixed ++ cur) with
      | ran b =>
        cases b with
        | true =>
          obtain ⟨g1, g2, g3⟩ := updateMin_spec (x := x0) (by omega)
          refine ⟨updateMin x0, cur, [], [⟨fixed ++ cur, x.wdFd, .ran true⟩], some (.ran true), rfl, ?_⟩
          apply hran _ hans (by simp) _ g1
          · rw [g3]; rfl
          all_goals rw [g3]
        | false =>
          refine ⟨x0, cur, [], [⟨fixed ++ cur, x.wdFd, .ran false⟩], some (.ran false), rfl, ?_⟩
          exact hran _ hans (by simp) _ (by omega) rfl rfl rfl rfl rfl
      | error e =>
        dsimp only
        by_cases he : e = E2BIG
        · rw [if_neg (by simpa using he)]
          obtain ⟨u1, u2, u3, u4, u6, u5⟩ := updateMax_lt (x := x0) (by omega) (by rw [hr0.size]; exact hpos)
          have hr1 : Rep fixed (updateMax x0) cur none rest tail := by
            rw [u5]; exact ⟨hr0.argv, hr0.argc, hr0.tmpl, hr0.size⟩
          have hc1 : (updateMax x0).argc = fixed.length + cur.length := hr1.argc
          obtain ⟨cur1, popped1, gap1, argv1, s1, s2, s3, s4, s5, s6⟩ := shrink_spec fixed (estimateMax (updateMax x0)) cur.length cur rest none tail
            (updateMax x0).argc (updateMax x0) rfl (by omega) hr1
          rw [s5]
          simp only [Out.bind]
          have hp1 := s3 (by have := hr0.size; omega)
          have hlen1 : cur1.length < cur.length := by
            rw [s1, List.length_append]
            have := List.length_pos_iff.2 hp1
            omega
          generalize hx1 : ({ updateMax x0 with argv := argv1, argSize := total cur1, argc := fixed.length + cur1.length } : Exec) = x1 at s6
          have hx1f : x1 = x.upd x1.argv x1.argc x1.argSize x1.argMax x1.argMin ∧ x1.argMax = (updateMax x0).argMax ∧ x1.argMin = (updateMax x0).argMin ∧ x1.wdFd = x.wdFd ∧ x1.argSize = total cur1 := by
            subst hx1
            refine ⟨?_, rfl, rfl, ?_, rfl⟩
            · rw [u5, hu0]; rfl
            · rw [u5]; exact hwd0
          obtain ⟨v1, v2, v3, v4, v5⟩ := hx1f
          obtain ⟨x', cur', popped, new, last', h1, h2⟩ := ih cur1 (popped1 ++ rest) gap1 f x1
            { w with log := w.log ++ [⟨fixed ++ cur, x0.wdFd, .error e⟩] } (some (.error e)) (by omega) (by omega) s6 (by omega)
          refine ⟨x', cur', popped ++ popped1, ⟨fixed ++ cur, x0.wdFd, .error e⟩ :: new, last', ?_, ?_⟩
          · rw [h1]; simp
          · obtain ⟨gap', hrep⟩ := h2.rep
            refine ⟨fun hn => absurd (congrArg Res.error he) (hn _ (List.mem_cons_self ..)), by rw [s1, h2.split]; simp, ⟨gap', by simpa using hrep⟩, ?_, h2.min_max, ?_, ?_, ?_, ?_, ?_, ?_⟩
            · rw [h2.upd, v1]; rfl
            · have := h2.max_le; omega
            · rw [List.pairwise_cons]
              refine ⟨?_, h2.dec⟩
              intro e' he'
              obtain ⟨seg, hseg, hof⟩ := h2.segs e' he'
              have := hseg.length_le
              rw [hof.1]
              simp; omega
            · intro e' he'
              rcases List.mem_cons.1 he' with rfl | he'
              · exact ⟨cur, List.prefix_rfl, rfl, hwd0⟩
              · obtain ⟨seg, hseg, hof⟩ := h2.segs e' he'
                exact ⟨seg, hseg.trans ⟨popped1, s1.symm⟩, by rw [← v4]; exact hof⟩
            · intro e' he'
              rcases List.mem_cons.1 he' with rfl | he'
              · exact ⟨w.log, hans.symm⟩
              · exact h2.ans e' he'
            · right
              rcases h2.cases with ⟨g1, g2, g3⟩ | ⟨g1, g2, g3, g4⟩ | ⟨g1, big, e1, g2, g3, g4, g5, g6⟩
              · left
                refine ⟨hc, ?_, by rw [g3, he], ?_⟩
                · have := h2.split; rw [g1] at this; simp at this; exact this.1
                · rw [g2]; intro e' he'; simp at he'; subst he'; exact congrArg Res.error he
              · left
                refine ⟨hc, g2, g3, ?_⟩
                intro e' he'
                rcases List.mem_cons.1 he' with rfl | he'
                · exact congrArg Res.error he
                · exact g4 e' he'
              · right
                refine ⟨g1, ⟨fixed ++ cur, x0.wdFd, .error e⟩ :: big, e1, by rw [g2]; simp, ?_, by rw [← v4]; exact g4, g5, g6⟩
                intro e' he'
                rcases List.mem_cons.1 he' with rfl | he'
                · exact congrArg Res.error he
                · exact g3 e' he'
            · intro K hK hall hlim
              have hbig := (hK _ _ _ hans).2
              have h15 : 15 * K ≤ 16 * (updateMax x0).argMax := by
                have := hr0.size
                have := hr.size
                rcases hlim with h | h
                · by_cases hcmp : 16 * x0.argMax ≥ 15 * x0.argSize
                  · have := u4 hcmp; omega
                  · have e1 := u6 (by omega)
                    omega
                · omega
              have hne : cur1 ≠ [] := by
                cases cur with
                | nil => exact absurd rfl hc
                | cons a t =>
                  apply s4 a t rfl
                  have ha := hall a (by simp)
                  have := estimate_ge (updateMax x0) u2
                  have : 9 ≤ sizeOfArg a := by unfold sizeOfArg; omega
                  omega
              have := h2.lim K hK (fun a ha => hall a (by rw [s1]; simp [ha])) (Or.inl (by omega))
              refine ⟨Or.inr ?_, ?_⟩
              · rcases this.1 with h | h
                · exact absurd h hne
                · exact h
              · rcases this.2 with h | h
                · exact Or.inl h
                · left; rw [h.2]; omega
        · rw [if_pos he]
          refine ⟨x0, cur, [], [⟨fixed ++ cur, x.wdFd, .error e⟩], some (.error e), rfl, ?_⟩
          exact hran _ hans (by simpa using he) _ (by omega) rfl rfl rfl rfl rfl

theorem requeue_spec (tail : List (Option Bytes)) : ∀ (rest : List Bytes) (pre mid : List (Option Bytes)) (x : Exec) (i : Nat),
    mid ≠ [] → x.argv = pre ++ mid ++ (rest.map some ++ tail) → x.argc = pre.length → i = pre.length + mid.length →
    ∃ mid', mid'.length = mid.length ∧
      requeue rest.length i x = .ok { x with argv := pre ++ rest.map some ++ (mid' ++ tail), argSize := x.argSize + total rest, argc := x.argc + rest.length } := by
  intro rest
  induction rest with
  | nil =>
    intro pre mid x i hm ha hc hi
    refine ⟨mid, rfl, ?_⟩
    rw [List.length_nil]
    unfold requeue
    simp only [List.map_nil, List.nil_append, List.append_assoc] at ha
    cases x
    simp_all [total]
  | cons a r ih =>
    intro pre mid x i hm ha hc hi
    cases mid with
    | nil => exact absurd rfl hm
    | cons m0 ms =>
      rw [show (a :: r).length = r.length + 1 from rfl, requeue.eq_2]
      have e1 : x.argv = (pre ++ m0 :: ms) ++ some a :: (r.map some ++ tail) := by rw [ha]; simp
      have e2 : x.argv = pre ++ m0 :: (ms ++ some a :: (r.map some ++ tail)) := by rw [ha]; simp
      rw [show load x.argv i = .ok (some a) from by rw [e1]; apply load_mid; simp [hi]]
      simp only [Out.bind]
      rw [show store x.argv x.argc (some a) = .ok (pre ++ some a :: (ms ++ some a :: (r.map some ++ tail))) from by
        rw [e2]; apply store_mid; exact hc]
      simp only [sizeOfPtr]
      obtain ⟨mid', h1, h2⟩ := ih (pre ++ [some a]) (ms ++ [some a])
        { x with argv := pre ++ some a :: (ms ++ some a :: (r.map some ++ tail)), argSize := x.argSize + sizeOfArg a, argc := x.argc + 1 } (i + 1)
        (by simp) (by simp) (by simp [hc]) (by simp at hi ⊢; omega)
      refine ⟨mid', by simpa using h1, ?_⟩
      rw [h2]
      simp [total, Nat.add_assoc, Nat.add_comm 1]

theorem deliv_append (n : Nat) (a b : List Entry) : deliv n (a ++ b) = deliv n a ++ deliv n b := by
  simp [deliv]

theorem deliv_errors {n : Nat} {l : List Entry} (h : ∀ e ∈ l, ∃ k, e.res = .error k) : deliv n l = [] := by
  unfold deliv
  rw [List.filter_eq_nil_iff.2]
  · rfl
  · intro e he
    obtain ⟨k, hk⟩ := h e he
    simp [Entry.ran, hk]

/-- What `flush` does to `cur`, the pending arguments. -/
structure Flush (fixed : List Bytes) (x : Exec) (w : World) (cur : List Bytes)
    (bad : Bool) (x' : Exec) (cur' : List Bytes) (new : List Entry) : Prop where
  calm : (∀ e ∈ new, ¬ e.tooBig) → cur' = []
  early : ∀ e ∈ new.dropLast, e.tooBig
  rep : ∃ gap tail, Rep fixed x' cur' gap [] tail
  upd : x' = x.upd x'.argv x'.argc x'.argSize x'.argMax x'.argMin
  min_max : x'.argMin ≤ x'.argMax
  max_le : x'.argMax ≤ x.argMax
  dec : new.Pairwise fun a b => b.args.length < a.args.length
  segs : ∀ e ∈ new, ∃ seg, seg <+: cur ∧ e.of fixed x.wdFd seg
  ans : ∀ e ∈ new, ∃ log, e.res = w.answer log e.args
  cases : (cur = [] ∧ cur' = [] ∧ new = [] ∧ bad = false) ∨
    (bad = true ∧ (∃ lost, lost ≠ [] ∧ cur = lost ++ cur') ∧ ∀ e ∈ new, ∃ n, e.res = .error n) ∨
    (∃ big sent b, cur = sent ++ cur' ∧ sent ≠ [] ∧ new = big ++ [⟨fixed ++ sent, x.wdFd, .ran b⟩] ∧ (∀ e ∈ big, e.tooBig) ∧ bad = !b)
  lim : ∀ K, Accepts K fixed w → (∀ a ∈ cur, 16 * sizeOfArg a ≤ 7 * K) → Lim K x →
    Lim K x' ∧ deliv fixed.length new ++ cur' = cur ∧ (15 * K ≤ 16 * x'.argMax ∨ cur' = [] ∧ x'.argMax = x.argMax)

theorem FlushLoop.early {fixed tail x w last cur rest x' cur' popped new last'} (h : FlushLoop fixed tail x w last cur rest x' cur' popped new last') :
    ∀ e ∈ new.dropLast, e.tooBig := by
  intro e he
  rcases h.cases with ⟨_, g2, _⟩ | ⟨_, _, _, g4⟩ | ⟨_, big, e1, g2, g3, _⟩
  · rw [g2] at he; exact absurd he (by simp)
  · exact g4 e ((List.dropLast_sublist _).subset he)
  · rw [g2] at he; simp at he; exact g3 e he

theorem deliv_sent {fixed : List Bytes} {cwd : Option Bytes} {big : List Entry} {sent : List Bytes} {b : Bool} (h : ∀ e ∈ big, e.tooBig) :
    deliv fixed.length (big ++ [⟨fixed ++ sent, cwd, .ran b⟩]) = sent := by
  rw [deliv_append, deliv_errors (fun e he => ⟨_, h e he⟩)]
  simp [deliv, show Entry.ran ⟨fixed ++ sent, cwd, .ran b⟩ = true from rfl]

theorem flush_spec (fixed : List Bytes) (tail : List (Option Bytes)) (gap : Option Bytes) (cur : List Bytes) (x : Exec) (w : World)
    (hr : Rep fixed x cur gap [] tail) (hm : x.argMin ≤ x.argMax) :
    ∃ bad x' cur' new, flush x w = .ok (bad, x', { w with log := w.log ++ new }) ∧ Flush fixed x w cur bad x' cur' new := by
  obtain ⟨x1, cur1, popped, new, last, h1, h2⟩ := flushLoop_spec fixed tail cur.length cur [] gap (x.argc + 1) x w none (Nat.le_refl _)
    (by rw [hr.argc]; omega) hr hm
  obtain ⟨gap1, hr1⟩ := h2.rep
  rw [List.append_nil] at hr1
  have htm : x.tmplArgc - 1 = fixed.length := by unfold Exec.tmplArgc; rw [hr.tmpl]; omega
  have hargc1 := hr1.argc
  unfold flush
  rw [h1]
  simp only [Out.bind]
  rw [htm]
  by_cases herr : errorOf last = 0
  · rw [if_pos herr]
    have hn : x.argc - x1.argc = popped.length := by
      rw [hr.argc, hargc1, h2.split]; simp; omega
    rw [hn]
    obtain ⟨mid', hm1, hm2⟩ := requeue_spec tail popped (fixed.map some) (cur1.map some ++ [gap1])
      { x1 with argc := fixed.length, argSize := 0 } (x1.argc + 1) (by simp) (by simp [hr1.argv]) (by simp) (by simp [hargc1]; omega)
    rw [hm2]
    simp only [List.append_assoc]
    obtain ⟨g, ms, rfl⟩ : ∃ g ms, mid' = g :: ms := by
      cases mid' with
      | nil => simp at hm1
      | cons g ms => exact ⟨g, ms, rfl⟩
    refine ⟨retOf last, _, popped, new, rfl, ?_⟩
    refine ⟨h2.calm, h2.early, ⟨g, ms ++ tail, by simp, by simp, ?_, by simp⟩, ?_, h2.min_max, h2.max_le, h2.dec, h2.segs, h2.ans, ?_, ?_⟩
    · exact hr1.tmpl
    · rw [h2.upd]; rfl
    · rcases h2.cases with ⟨g1, g2, g3⟩ | ⟨g1, g2, g3, g4⟩ | ⟨g1, big, e1, g2, g3, g4, g5, g6⟩
      · left
        have := h2.split; rw [g1] at this; simp at this
        exact ⟨g1, this.2, g2, by rw [g3]; rfl⟩
      · rw [g3] at herr; simp [errorOf, E2BIG] at herr
      · right
        obtain ⟨a1, c1, r1⟩ := e1
        obtain ⟨ga, gc⟩ := g4
        dsimp only at ga gc g5 g6
        subst ga gc
        cases r1 with
        | ran b =>
          right
          exact ⟨big, cur1, b, h2.split, g1, g2, g3, by rw [g5]; cases b <;> rfl⟩
        | error n =>
          left
          refine ⟨by rw [g5]; rfl, ⟨cur1, g1, h2.split⟩, ?_⟩
          rw [g2]
          intro e he
          rcases List.mem_append.1 he with he | he
          · exact ⟨_, g3 e he⟩
          · simp at he; subst he; exact ⟨n, rfl⟩
    · intro K hK hall hlim
      obtain ⟨k1, k2⟩ := h2.lim K hK hall hlim
      refine ⟨?_, ?_, ?_⟩
      · rcases k2 with h | h
        · exact Or.inl h
        · right; show 0 + total popped ≤ K; rw [h.1]; simp [total]
      · rcases h2.cases with ⟨g1, g2, g3⟩ | ⟨g1, g2, g3, g4⟩ | ⟨g1, big, e1, g2, g3, g4, g5, g6⟩
        · have := h2.split; rw [g1] at this; simp at this
          rw [g2, this.2, g1]; rfl
        · rcases k1 with h | h
          · exact absurd h g1
          · exact absurd g2 h
        · obtain ⟨a1, c1, r1⟩ := e1
          obtain ⟨ga, gc⟩ := g4
          dsimp only at ga gc g5 g6
          subst ga gc
          cases r1 with
          | ran b => rw [g2, deliv_sent g3]; exact h2.split.symm
          | error n =>
            obtain ⟨log, hl⟩ := h2.ans ⟨fixed ++ cur1, x.wdFd, .error n⟩ (by rw [g2]; simp)
            have := (hK _ _ _ hl.symm).1
            exact absurd (congrArg Res.error this) g6
      · exact k2
  · rw [if_neg herr]
    refine ⟨retOf last, _, [], new, rfl, ?_⟩
    have hnot1 : ¬ (cur = [] ∧ new = [] ∧ last = none) := by
      rintro ⟨_, _, h⟩
      rw [h] at herr
      exact herr rfl
    refine ⟨fun _ => rfl, h2.early, ?_, ?_, h2.min_max, h2.max_le, h2.dec, h2.segs, h2.ans, ?_, ?_⟩
    · have e : x1.argv = fixed.map some ++ (cur1.map some ++ gap1 :: (popped.map some ++ tail)) := by rw [hr1.argv]; simp
      cases hc1 : cur1 with
      | nil => exact ⟨gap1, popped.map some ++ tail, by rw [e, hc1]; simp, by simp, hr1.tmpl, rfl⟩
      | cons a t => exact ⟨some a, t.map some ++ gap1 :: (popped.map some ++ tail), by rw [e, hc1]; simp, by simp, hr1.tmpl, rfl⟩
    · rw [h2.upd]; rfl
    · right; left
      rcases h2.cases with h | ⟨g1, g2, g3, g4⟩ | ⟨g1, big, e1, g2, g3, g4, g5, g6⟩
      · exact absurd h hnot1
      · exact ⟨by rw [g3]; rfl, ⟨cur, g1, by simp⟩, fun e he => ⟨_, g4 e he⟩⟩
      · have hcur : cur ≠ [] := by rw [h2.split]; simp [g1]
        obtain ⟨a1, c1, r1⟩ := e1
        dsimp only at g5 g6
        cases r1 with
        | ran b => rw [g5] at herr; exact absurd rfl herr
        | error n =>
          refine ⟨by rw [g5]; rfl, ⟨cur, hcur, by simp⟩, ?_⟩
          rw [g2]
          intro e he
          rcases List.mem_append.1 he with he | he
          · exact ⟨_, g3 e he⟩
          · simp at he; subst he; exact ⟨n, rfl⟩
    · intro K hK hall hlim
      obtain ⟨k1, k2⟩ := h2.lim K hK hall hlim
      exfalso
      rcases h2.cases with h | ⟨g1, g2, g3, g4⟩ | ⟨g1, big, e1, g2, g3, g4, g5, g6⟩
      · exact hnot1 h
      · rcases k1 with h | h
        · exact g1 h
        · exact h g2
      · obtain ⟨a1, c1, r1⟩ := e1
        obtain ⟨ga, gc⟩ := g4
        dsimp only at ga gc g5 g6
        subst ga gc
        cases r1 with
        | ran b => rw [g5] at herr; exact herr rfl
        | error n =>
          obtain ⟨log, hl⟩ := h2.ans ⟨fixed ++ cur1, x.wdFd, .error n⟩ (by rw [g2]; simp)
          have := (hK _ _ _ hl.symm).1
          exact g6 (congrArg Res.error this)

end Verif.Exec
