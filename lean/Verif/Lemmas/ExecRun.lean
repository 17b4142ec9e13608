import Verif.Lemmas.Exec
/-!
# Whole runs of `-exec ... +`
-/
namespace Verif.Exec

/-- What a number of flushes do to `cur`, the pending arguments. -/
structure Prog (fixed : List Bytes) (x : Exec) (w : World) (cur : List Bytes)
    (bad : Bool) (x' : Exec) (cur' : List Bytes) (new : List Entry) : Prop where
  rep : ∃ gap tail, Rep fixed x' cur' gap [] tail
  upd : x' = x.upd x'.argv x'.argc x'.argSize x'.argMax x'.argMin
  min_max : x'.argMin ≤ x'.argMax
  max_le : x'.argMax ≤ x.argMax
  suff : cur' <:+ cur
  segs : ∀ e ∈ new, ∃ seg, seg <:+: cur ∧ e.of fixed x.wdFd seg
  ans : ∀ e ∈ new, ∃ log, e.res = w.answer log e.args
  sub : (deliv fixed.length new ++ cur').Sublist cur
  good : bad = false → deliv fixed.length new ++ cur' = cur ∧ ∀ e ∈ new, e.res = .ran true ∨ e.tooBig
  blame : deliv fixed.length new ++ cur' = cur → bad = true → ∃ e ∈ new, e.res = .ran false
  lim : ∀ K, Accepts K fixed w → (∀ a ∈ cur, 16 * sizeOfArg a ≤ 7 * K) → Lim K x →
    Lim K x' ∧ deliv fixed.length new ++ cur' = cur ∧ (15 * K ≤ 16 * x'.argMax ∨ cur' = [] ∨ (new = [] ∧ x'.argMax = x.argMax))

theorem Prog.refl {fixed x cur gap tail} (w : World) (h : Rep fixed x cur gap [] tail) (hm : x.argMin ≤ x.argMax) : Prog fixed x w cur false x cur [] :=
  ⟨⟨gap, tail, h⟩, rfl, hm, Nat.le_refl _, List.suffix_rfl, by simp, by simp, by simp [deliv], by simp [deliv], by simp,
    fun K _ _ hl => ⟨hl, by simp [deliv], Or.inr (Or.inr ⟨rfl, rfl⟩)⟩⟩

theorem Flush.suff {fixed x w cur bad x' cur' new} (h : Flush fixed x w cur bad x' cur' new) : cur' <:+ cur := by
  rcases h.cases with ⟨h1, h2, _⟩ | ⟨_, ⟨lost, _, h⟩, _⟩ | ⟨_, sent, _, h, _⟩
  · rw [h1, h2]; exact List.suffix_rfl
  · exact ⟨lost, h.symm⟩
  · exact ⟨sent, h.symm⟩

theorem Flush.shorter {fixed x w cur bad x' cur' new} (h : Flush fixed x w cur bad x' cur' new) (hc : cur ≠ []) : cur'.length < cur.length := by
  rcases h.cases with ⟨h1, _⟩ | ⟨_, ⟨lost, hl, h⟩, _⟩ | ⟨_, sent, _, h, hl, _⟩
  · exact absurd h1 hc
  · have := List.length_pos_iff.2 hl; rw [h]; simp; omega
  · have := List.length_pos_iff.2 hl; rw [h]; simp; omega

theorem Flush.prog {fixed x w cur bad x' cur' new} (h : Flush fixed x w cur bad x' cur' new) : Prog fixed x w cur bad x' cur' new := by
  refine ⟨h.rep, h.upd, h.min_max, h.max_le, h.suff, ?_, h.ans, ?_, ?_, ?_, ?_⟩
  · intro e he
    obtain ⟨seg, h1, h2⟩ := h.segs e he
    exact ⟨seg, h1.isInfix, h2⟩
  · rcases h.cases with ⟨h1, h2, h3, _⟩ | ⟨_, ⟨lost, _, h⟩, he⟩ | ⟨big, sent, b, h, _, h3, h4, _⟩
    · rw [h1, h2, h3]; simp [deliv]
    · rw [deliv_errors he, h]; exact List.sublist_append_right ..
    · rw [h3, deliv_sent h4, h]; exact List.Sublist.refl _
  · intro hb
    rcases h.cases with ⟨h1, h2, h3, _⟩ | ⟨h1, _⟩ | ⟨big, sent, b, h, _, h3, h4, h5⟩
    · rw [h1, h2, h3]; simp [deliv]
    · rw [hb] at h1; exact absurd h1 (by simp)
    · rw [h3, deliv_sent h4, h]
      refine ⟨rfl, ?_⟩
      have : b = true := by rw [hb] at h5; cases b with
        | true => rfl
        | false => exact absurd h5 (by decide)
      intro e he
      rcases List.mem_append.1 he with he | he
      · exact Or.inr (h4 e he)
      · simp at he; subst he; rw [this]; exact Or.inl rfl
  · intro hd hb
    rcases h.cases with ⟨_, _, _, h4⟩ | ⟨_, ⟨lost, hl, h⟩, he⟩ | ⟨big, sent, b, h, _, h3, h4, h5⟩
    · rw [hb] at h4; exact absurd h4 (by simp)
    · rw [deliv_errors he, h, List.nil_append] at hd
      have l1 := congrArg List.length hd
      have l2 := List.length_pos_iff.2 hl
      rw [List.length_append] at l1; omega
    · refine ⟨⟨fixed ++ sent, x.wdFd, .ran b⟩, by rw [h3]; simp, ?_⟩
      have : b = false := by rw [hb] at h5; cases b with
        | true => exact absurd h5 (by decide)
        | false => rfl
      rw [this]
  · intro K h1 h2 h3
    obtain ⟨k1, k2, k3⟩ := h.lim K h1 h2 h3
    exact ⟨k1, k2, k3.imp id (fun h => Or.inl h.1)⟩

theorem Accepts.log {K : Nat} {n : List Bytes} {w : World} (h : Accepts K n w) (l : List Entry) : Accepts K n { w with log := l } := h

theorem Prog.trans {fixed x w cur b1 x1 cur1 new1 b2 x2 cur2 new2} (h1 : Prog fixed x w cur b1 x1 cur1 new1)
    (h2 : Prog fixed x1 { w with log := w.log ++ new1 } cur1 b2 x2 cur2 new2) :
    Prog fixed x w cur (b1 || b2) x2 cur2 (new1 ++ new2) := by
  have hwd : x1.wdFd = x.wdFd := by rw [h1.upd]; rfl
  refine ⟨h2.rep, ?_, h2.min_max, Nat.le_trans h2.max_le h1.max_le, h2.suff.trans h1.suff, ?_, ?_, ?_, ?_, ?_, ?_⟩
  · rw [h2.upd, h1.upd]; rfl
  · intro e he
    rcases List.mem_append.1 he with he | he
    · exact h1.segs e he
    · obtain ⟨seg, g1, g2⟩ := h2.segs e he
      exact ⟨seg, g1.trans h1.suff.isInfix, by rw [← hwd]; exact g2⟩
  · intro e he
    rcases List.mem_append.1 he with he | he
    · exact h1.ans e he
    · exact h2.ans e he
  · rw [deliv_append, List.append_assoc]
    exact (List.Sublist.append_left h2.sub _).trans h1.sub
  · intro hb
    obtain ⟨hb1, hb2⟩ := Bool.or_eq_false_iff.1 hb
    obtain ⟨g1, g2⟩ := h1.good hb1
    obtain ⟨g3, g4⟩ := h2.good hb2
    refine ⟨by rw [deliv_append, List.append_assoc, g3, g1], ?_⟩
    intro e he
    rcases List.mem_append.1 he with he | he
    · exact g2 e he
    · exact g4 e he
  · intro hd hb
    rw [deliv_append, List.append_assoc] at hd
    have l1 := h1.sub.length_le
    have l2 := h2.sub.length_le
    have l3 := congrArg List.length hd
    have e2 : deliv fixed.length new2 ++ cur2 = cur1 := h2.sub.eq_of_length (by simp at *; omega)
    have e1 : deliv fixed.length new1 ++ cur1 = cur := by rw [e2] at hd; exact hd
    rcases Bool.or_eq_true_iff.1 hb with hb | hb
    · obtain ⟨e, he, hr⟩ := h1.blame e1 hb; exact ⟨e, by simp [he], hr⟩
    · obtain ⟨e, he, hr⟩ := h2.blame e2 hb; exact ⟨e, by simp [he], hr⟩
  · intro K hK hall hlim
    obtain ⟨k1, k2, k3⟩ := h1.lim K hK hall hlim
    obtain ⟨j1, j2, j3⟩ := h2.lim K (hK.log _) (fun a ha => hall a (h1.suff.subset ha)) k1
    refine ⟨j1, by rw [deliv_append, List.append_assoc, j2, k2], ?_⟩
    rcases j3 with h | h | h
    · exact Or.inl h
    · exact Or.inr (Or.inl h)
    · obtain ⟨h, hmx⟩ := h
      subst h
      simp only [List.append_nil]
      have e2 : cur2 = cur1 := by simpa [deliv] using j2
      rcases k3 with g | g | g
      · exact Or.inl (by rw [hmx]; exact g)
      · exact Or.inr (Or.inl (by rw [e2, g]))
      · exact Or.inr (Or.inr ⟨g.1, by rw [hmx, g.2]⟩)

theorem flushAll_spec (fixed : List Bytes) : ∀ (n : Nat) (cur : List Bytes) (gap : Option Bytes) (tail : List (Option Bytes)) (fuel : Nat)
    (ret : Bool) (x : Exec) (w : World), cur.length ≤ n → n < fuel → Rep fixed x cur gap [] tail → x.argMin ≤ x.argMax →
    ∃ bad x' new, flushAll fuel ret x w = .ok (ret || bad, x', { w with log := w.log ++ new }) ∧ Prog fixed x w cur bad x' [] new := by
  intro n
  induction n with
  | zero =>
    intro cur gap tail fuel ret x w hn hf hr hm
    have : cur = [] := List.length_eq_zero_iff.1 (by omega)
    subst this
    obtain ⟨f, rfl⟩ : ∃ f, fuel = f + 1 := ⟨fuel - 1, by omega⟩
    refine ⟨false, x, [], ?_, Prog.refl w hr hm⟩
    rw [flushAll, if_neg (by rw [hr.remain]; simp)]; simp
  | succ n ih =>
    intro cur gap tail fuel ret x w hn hf hr hm
    obtain ⟨f, rfl⟩ : ∃ f, fuel = f + 1 := ⟨fuel - 1, by omega⟩
    by_cases hc : cur = []
    · subst hc
      refine ⟨false, x, [], ?_, Prog.refl w hr hm⟩
      rw [flushAll, if_neg (by rw [hr.remain]; simp)]; simp
    · rw [flushAll, if_pos (hr.remain.2 hc)]
      obtain ⟨b1, x1, cur1, new1, h1, h2⟩ := flush_spec fixed tail gap cur x w hr hm
      rw [h1]
      simp only [Out.bind]
      obtain ⟨gap1, tail1, hr1⟩ := h2.rep
      have := h2.shorter hc
      obtain ⟨b2, x2, new2, h3, h4⟩ := ih cur1 gap1 tail1 f (ret || b1) x1 { w with log := w.log ++ new1 } (by omega) (by omega) hr1 h2.min_max
      refine ⟨b1 || b2, x2, new1 ++ new2, ?_, h2.prog.trans h4⟩
      rw [h3, Bool.or_assoc]
      simp

theorem preFlush_spec (fixed : List Bytes) {cur : List Bytes} {gap : Option Bytes} {tail : List (Option Bytes)} {x : Exec} (w : World) (f : File)
    (arg : Bytes) (hr : Rep fixed x cur gap [] tail) (hm : x.argMin ≤ x.argMax) :
    ∃ bad x1 cur1 new x2, preFlush x w f arg = .ok (bad, x2, { w with log := w.log ++ new }) ∧ Prog fixed x w cur bad x1 cur1 new ∧
      ((changedDirs x f = true ∧ x2 = closewd x1 ∧ cur1 = []) ∨ (changedDirs x f = false ∧ x2 = x1)) ∧
      (∀ K, Accepts K fixed w → (∀ a ∈ cur, 16 * sizeOfArg a ≤ 7 * K) → Lim K x → 16 * sizeOfArg arg ≤ 7 * K →
        15 * K ≤ 16 * x1.argMax ∨ x1.argSize + sizeOfArg arg ≤ K) ∧
      ((∀ e ∈ new, ¬ e.tooBig) → cur1 = [] ∨ x1.argSize + sizeOfArg arg ≤ x.argMax) := by
  unfold preFlush
  by_cases hc : changedDirs x f = true
  · rw [if_pos hc]
    obtain ⟨b, x1, new, h1, h2⟩ := flushAll_spec fixed cur.length cur gap tail (x.argc + 1) false x w (Nat.le_refl _) (by rw [hr.argc]; omega) hr hm
    rw [h1]
    simp only [Out.bind, Bool.false_or]
    refine ⟨b, x1, [], new, _, rfl, h2, Or.inl ⟨hc, rfl, rfl⟩, ?_, fun _ => Or.inl rfl⟩
    intro K hK hall hlim harg
    obtain ⟨g, t, hr1⟩ := h2.rep
    have := hr1.size
    simp only [total] at this
    right; omega
  · rw [if_neg hc]
    by_cases ho : wouldOverflow x arg = true
    · rw [if_pos ho]
      obtain ⟨b, x1, cur1, new, h1, h2⟩ := flush_spec fixed tail gap cur x w hr hm
      refine ⟨b, x1, cur1, new, x1, h1, h2.prog, Or.inr ⟨by simpa using hc, rfl⟩, ?_, fun hn => Or.inl (h2.calm hn)⟩
      intro K hK hall hlim harg
      obtain ⟨k1, k2, k3⟩ := h2.lim K hK hall hlim
      rcases k3 with h | h
      · exact Or.inl h
      · obtain ⟨g, t, hr1⟩ := h2.rep
        have := hr1.size
        rw [h.1] at this
        simp only [total] at this
        right; omega
    · rw [if_neg ho]
      unfold wouldOverflow at ho
      simp at ho
      have := estimate_le x hm
      refine ⟨false, x, cur, [], x, by simp, Prog.refl w hr hm, Or.inr ⟨by simpa using hc, rfl⟩, ?_, fun _ => Or.inr (by omega)⟩
      intro K hK hall hlim harg
      omega

theorem push_spec (fixed : List Bytes) {cur : List Bytes} {gap : Option Bytes} {tail : List (Option Bytes)} {x : Exec} (arg : Bytes) (ok : Bool)
    (hr : Rep fixed x cur gap [] tail) :
    (∃ argv', push x arg ok = .ok (true, { x with argv := argv', argc := x.argc + 1, argSize := x.argSize + sizeOfArg arg }) ∧
      ∃ gap' tail', Rep fixed { x with argv := argv', argc := x.argc + 1, argSize := x.argSize + sizeOfArg arg } (cur ++ [arg]) gap' [] tail') ∨
    (ok = false ∧ ∃ argv', push x arg ok = .ok (false, { x with argv := argv' }) ∧ ∃ gap' tail', Rep fixed { x with argv := argv' } cur gap' [] tail') := by
  have hst : store x.argv x.argc (some arg) = .ok (fixed.map some ++ cur.map some ++ some arg :: tail) := by
    rw [hr.argv]; apply store_mid; simp [hr.argc]
  unfold push
  rw [hst]
  simp only [Out.bind]
  by_cases h : x.argc + 1 ≥ (fixed.map some ++ cur.map some ++ some arg :: tail).length
  · rw [if_pos h]
    have ht : tail = [] := by
      rw [hr.argc] at h; simp at h
      exact List.length_eq_zero_iff.1 (by omega)
    subst ht
    cases ok with
    | false =>
      right
      refine ⟨rfl, _, rfl, some arg, [], by simp, hr.argc, hr.tmpl, hr.size⟩
    | true =>
      left
      refine ⟨_, rfl, none, List.replicate (fixed.length + cur.length) none, ?_, ?_, hr.tmpl, ?_⟩
      · simp
        rw [show fixed.length + (cur.length + 1) = (fixed.length + cur.length) + 1 by omega, List.replicate_succ]
      · simp [hr.argc]; omega
      · simp [hr.size, total_append, total]
  · rw [if_neg h]
    cases tail with
    | nil => rw [hr.argc] at h; simp at h; omega
    | cons g t =>
      left
      refine ⟨_, rfl, g, t, by simp, ?_, hr.tmpl, ?_⟩
      · simp [hr.argc]; omega
      · simp [hr.size, total_append, total]

theorem openwd_wd {multi : Bool} {x x' : Exec} {f : File} {b : Bool} (h : openwd multi x f = .ok (b, x')) :
    x' = { x with wdFd := x'.wdFd, wdPath := x'.wdPath, wdLen := x'.wdLen } := by
  unfold openwd at h
  split at h
  · exact absurd h (by simp)
  · dsimp only at h
    repeat' (split at h)
    all_goals (simp only [Out.ok.injEq, Prod.mk.injEq] at h; obtain ⟨_, rfl⟩ := h; rfl)

theorem closewd_wd (x : Exec) : closewd x = { x with wdFd := (closewd x).wdFd, wdPath := (closewd x).wdPath, wdLen := (closewd x).wdLen } := by
  unfold closewd; split <;> rfl

theorem multiOpen_wd {x x' : Exec} {f : File} {b : Bool} (h : multiOpen x f = .ok (b, x')) :
    x' = { x with wdFd := x'.wdFd, wdPath := x'.wdPath, wdLen := x'.wdLen } := by
  unfold multiOpen at h
  split at h
  · exact openwd_wd h
  · simp only [Out.ok.injEq, Prod.mk.injEq] at h; obtain ⟨_, rfl⟩ := h; rfl

/-- A representation does not depend on the working directory or result. -/
theorem Rep.wd {fixed x cur gap rest tail} (h : Rep fixed x cur gap rest tail) (fd p : Option Bytes) (l : Nat) (b : Bool) :
    Rep fixed { x with wdFd := fd, wdPath := p, wdLen := l, failed := b } cur gap rest tail :=
  ⟨h.argv, h.argc, h.tmpl, h.size⟩

/-- Some attempt to run the command on files of `fs`. -/
def Entry.files (e : Entry) (fixed : List Bytes) (c : Bool) (fs : List File) (gs : List File) : Prop :=
  gs.Sublist fs ∧ e.args = fixed ++ gs.map (formatPath c)

/-- The working directory and the pending files are consistent, if all paths are plain. -/
def WdOk (x : Exec) (cf : List File) : Prop :=
  (x.wdFd = none ∧ x.wdPath = none ∧ x.wdLen = 0 ∧ ∀ f ∈ cf, dirOf f = none) ∨
  (∃ d : Bytes, 0 < d.length ∧ d[d.length - 1]? = some 47 ∧ x.wdFd = some d ∧ x.wdPath = some d ∧ x.wdLen = d.length ∧ ∀ f ∈ cf, dirOf f = some d) ∨
  (∃ d : Bytes, 0 < d.length ∧ x.wdFd = none ∧ x.wdPath = some d ∧ x.wdLen = d.length ∧ cf = [])

/-- The state after `fs` have been handled: `cf` are the files whose paths are pending. -/
structure Inv (fixed : List Bytes) (c : Bool) (x0 : Exec) (w0 : World) (fs : List File) (x : Exec) (w : World) (cf : List File) : Prop where
  rep : ∃ gap tail, Rep fixed x (cf.map (formatPath c)) gap [] tail
  min_max : x.argMin ≤ x.argMax
  max_le : x.argMax ≤ x0.argMax
  chdir : x.chdir = c
  answer : w.answer = w0.answer
  pend : cf.Sublist fs
  ans : ∀ e ∈ w.log, ∃ log, e.res = w0.answer log e.args
  files : ∀ e ∈ w.log, ∃ gs, e.files fixed c fs gs ∧ ((∀ f ∈ fs, f.plain ∧ f.strndupOk = true) → c = true → ∀ f ∈ gs, dirOf f = e.cwd) ∧ (c = false → e.cwd = none)
  wd : ((∀ f ∈ fs, f.plain ∧ f.strndupOk = true) → c = true → WdOk x cf) ∧ (c = false → x.wdFd = none)
  sub : (deliv fixed.length w.log ++ cf.map (formatPath c)).Sublist (fs.map (formatPath c))
  good : x.failed = false → deliv fixed.length w.log ++ cf.map (formatPath c) = fs.map (formatPath c) ∧ ∀ e ∈ w.log, e.res = .ran true ∨ e.tooBig
  blame : deliv fixed.length w.log ++ cf.map (formatPath c) = fs.map (formatPath c) → x.failed = true → ∃ e ∈ w.log, e.res = .ran false
  calm : (∀ e ∈ w.log, ¬ e.tooBig) → (cf.length ≤ 1 ∨ total (cf.map (formatPath c)) ≤ x0.argMax) ∧
    ∀ e ∈ w.log, e.args.length ≤ fixed.length + 1 ∨ total (e.args.drop fixed.length) ≤ x0.argMax
  lim : ∀ K, Accepts K fixed w0 → (∀ f ∈ fs, f.fine ∧ 16 * sizeOfArg (formatPath c f) ≤ 7 * K) → Lim K x0 →
    Lim K x ∧ deliv fixed.length w.log ++ cf.map (formatPath c) = fs.map (formatPath c)

theorem suffix_map {α β : Type} {g : α → β} {l : List α} {m : List β} (h : m <:+ l.map g) : ∃ l', l' <:+ l ∧ m = l'.map g := by
  obtain ⟨t, ht⟩ := h
  refine ⟨l.drop t.length, List.drop_suffix .., ?_⟩
  rw [List.map_drop, ← ht]; simp

theorem infix_map {α β : Type} {g : α → β} {l : List α} {m : List β} (h : m <:+: l.map g) : ∃ l', l' <:+: l ∧ m = l'.map g := by
  obtain ⟨s, t, ht⟩ := h
  refine ⟨(l.drop s.length).take m.length, (List.take_prefix ..).isInfix.trans (List.drop_suffix ..).isInfix, ?_⟩
  rw [List.map_take, List.map_drop, ← ht]; simp

theorem infix_small {M : Nat} {a b : List Bytes} (h : a <:+: b) (hb : b.length ≤ 1 ∨ total b ≤ M) : a.length ≤ 1 ∨ total a ≤ M := by
  obtain ⟨s, t, rfl⟩ := h
  simp only [List.length_append, total_append] at hb
  omega

/-- Several flushes preserve the invariant. -/
theorem Inv.prog {fixed c x0 w0 fs x w cf} (h : Inv fixed c x0 w0 fs x w cf) {bad x' cur' new}
    (hp : Prog fixed x w (cf.map (formatPath c)) bad x' cur' new) :
    ∃ cf', cur' = cf'.map (formatPath c) ∧ cf' <:+ cf ∧ Inv fixed c x0 w0 fs { x' with failed := x.failed || bad } { w with log := w.log ++ new } cf' := by
  obtain ⟨cf', hs, rfl⟩ := suffix_map hp.suff
  obtain ⟨gap, tail, hr⟩ := hp.rep
  have hw : x'.wdFd = x.wdFd ∧ x'.wdPath = x.wdPath ∧ x'.wdLen = x.wdLen ∧ x'.chdir = x.chdir := by
    rw [hp.upd]; exact ⟨rfl, rfl, rfl, rfl⟩
  obtain ⟨hw1, hw2, hw3, hw4⟩ := hw
  refine ⟨cf', rfl, hs, ⟨gap, tail, hr.argv, hr.argc, hr.tmpl, hr.size⟩, hp.min_max, Nat.le_trans hp.max_le h.max_le, by rw [← h.chdir, ← hw4],
    h.answer, hs.sublist.trans h.pend, ?_, ?_, ?_, ?_, ?_, ?_, ?_, ?_⟩
  · intro e he
    rcases List.mem_append.1 he with he | he
    · exact h.ans e he
    · rw [← h.answer]; exact hp.ans e he
  · intro e he
    rcases List.mem_append.1 he with he | he
    · exact h.files e he
    · obtain ⟨seg, h1, h2, h3⟩ := hp.segs e he
      obtain ⟨gs, hg, rfl⟩ := infix_map h1
      refine ⟨gs, ⟨hg.sublist.trans h.pend, h2⟩, ?_, ?_⟩
      · intro hfs hc f hf
        have hfc := hg.subset hf
        rw [h3]
        rcases h.wd.1 hfs hc with ⟨g1, _, _, g⟩ | ⟨d, _, _, g1, _, _, g⟩ | ⟨d, _, _, _, _, g⟩
        · rw [g1]; exact g f hfc
        · rw [g1]; exact g f hfc
        · rw [g] at hfc; simp at hfc
      · intro hc; rw [h3]; exact h.wd.2 hc
  · refine ⟨?_, fun hc => by rw [← h.wd.2 hc, ← hw1]⟩
    intro hfs hc
    unfold WdOk
    dsimp only
    rw [hw1, hw2, hw3]
    rcases h.wd.1 hfs hc with ⟨g1, g2, g3, g⟩ | ⟨d, g0, gs, g1, g2, g3, g⟩ | ⟨d, g0, g1, g2, g3, g⟩
    · exact Or.inl ⟨g1, g2, g3, fun f hf => g f (hs.subset hf)⟩
    · exact Or.inr (Or.inl ⟨d, g0, gs, g1, g2, g3, fun f hf => g f (hs.subset hf)⟩)
    · refine Or.inr (Or.inr ⟨d, g0, g1, g2, g3, ?_⟩)
      rw [g] at hs; exact List.suffix_nil.1 hs
  · rw [deliv_append, List.append_assoc]
    exact (List.Sublist.append_left hp.sub _).trans h.sub
  · intro hb
    obtain ⟨hb1, hb2⟩ := Bool.or_eq_false_iff.1 hb
    obtain ⟨g1, g2⟩ := h.good hb1
    obtain ⟨g3, g4⟩ := hp.good hb2
    refine ⟨by rw [deliv_append, List.append_assoc, g3, g1], ?_⟩
    intro e he
    rcases List.mem_append.1 he with he | he
    · exact g2 e he
    · exact g4 e he
  · intro hd hb
    rw [deliv_append, List.append_assoc] at hd
    have l1 := h.sub.length_le
    have l2 := hp.sub.length_le
    have l3 := congrArg List.length hd
    have e2 : deliv fixed.length new ++ cf'.map (formatPath c) = cf.map (formatPath c) := hp.sub.eq_of_length (by simp at *; omega)
    have e1 : deliv fixed.length w.log ++ cf.map (formatPath c) = fs.map (formatPath c) := by rw [e2] at hd; exact hd
    rcases Bool.or_eq_true_iff.1 hb with hb | hb
    · obtain ⟨e, he, hr⟩ := h.blame e1 hb; exact ⟨e, by simp [he], hr⟩
    · obtain ⟨e, he, hr⟩ := hp.blame e2 hb; exact ⟨e, by simp [he], hr⟩
  · intro hn
    obtain ⟨c1, c2⟩ := h.calm (fun e he => hn e (List.mem_append_left _ he))
    have c1' : (cf.map (formatPath c)).length ≤ 1 ∨ total (cf.map (formatPath c)) ≤ x0.argMax := by simpa using c1
    refine ⟨?_, ?_⟩
    · simpa using infix_small hp.suff.isInfix c1'
    · intro e he
      rcases List.mem_append.1 he with he | he
      · exact c2 e he
      · obtain ⟨seg, h1, h2, h3⟩ := hp.segs e he
        rw [h2]
        have := infix_small h1 c1'
        simp; omega
  · intro K hK hall hlim
    obtain ⟨k1, k2⟩ := h.lim K hK hall hlim
    obtain ⟨j1, j2, j3⟩ := hp.lim K (by unfold Accepts; rw [h.answer]; exact hK) (by
      intro a ha
      obtain ⟨f, hf, rfl⟩ := List.mem_map.1 ha
      exact (hall f (h.pend.subset hf)).2) k1
    exact ⟨j1, by rw [deliv_append, List.append_assoc, j2, k2]⟩

/-- A file is skipped because of an error. -/
theorem Inv.skip {fixed c x0 w0 fs x w cf} (h : Inv fixed c x0 w0 fs x w cf) (f : File) (hf : ¬ f.fine) {x' : Exec}
    (hx : x' = { x with wdFd := x'.wdFd, wdPath := x'.wdPath, wdLen := x'.wdLen, argv := x'.argv, failed := true })
    (hr : ∃ gap tail, Rep fixed x' (cf.map (formatPath c)) gap [] tail)
    (hwd : (∀ g ∈ fs ++ [f], g.plain ∧ g.strndupOk = true) → c = true → WdOk x' cf) (hc : c = false → x'.wdFd = none) :
    Inv fixed c x0 w0 (fs ++ [f]) x' w cf := by
  have e : x'.argMin = x.argMin ∧ x'.argMax = x.argMax ∧ x'.chdir = x.chdir ∧ x'.failed = true := by
    rw [hx]; exact ⟨rfl, rfl, rfl, rfl⟩
  obtain ⟨e5, e6, e7, e8⟩ := e
  have hsub : fs.Sublist (fs ++ [f]) := List.sublist_append_left ..
  refine ⟨hr, by rw [e5, e6]; exact h.min_max, by rw [e6]; exact h.max_le, by rw [e7]; exact h.chdir, h.answer, h.pend.trans hsub, h.ans, ?_, ?_, ?_, ?_, ?_, h.calm, ?_⟩
  · intro e he
    obtain ⟨gs, ⟨h1, h2⟩, h3, h4⟩ := h.files e he
    exact ⟨gs, ⟨h1.trans hsub, h2⟩, fun hfs => h3 (fun g hg => hfs g (by simp [hg])), h4⟩
  · exact ⟨hwd, hc⟩
  · exact h.sub.trans (hsub.map _)
  · intro hb; rw [e8] at hb; exact absurd hb (by simp)
  · intro hd _
    have l1 := h.sub.length_le
    have l3 := congrArg List.length hd
    simp at l1 l3; omega
  · intro K hK hall _
    exact absurd (hall f (by simp)).1 hf

/-- A file's path is added. -/
theorem Inv.add {fixed c x0 w0 fs x w cf} (h : Inv fixed c x0 w0 fs x w cf) (f : File) {x' : Exec}
    (hx : x' = { x with wdFd := x'.wdFd, wdPath := x'.wdPath, wdLen := x'.wdLen, argv := x'.argv, argc := x.argc + 1, argSize := x.argSize + sizeOfArg (formatPath c f) })
    (hr : ∃ gap tail, Rep fixed x' (cf.map (formatPath c) ++ [formatPath c f]) gap [] tail)
    (hwd : (∀ g ∈ fs ++ [f], g.plain ∧ g.strndupOk = true) → c = true → WdOk x' (cf ++ [f])) (hc : c = false → x'.wdFd = none)
    (hlim : ∀ K, Accepts K fixed w0 → (∀ g ∈ fs ++ [f], g.fine ∧ 16 * sizeOfArg (formatPath c g) ≤ 7 * K) → Lim K x0 →
      15 * K ≤ 16 * x.argMax ∨ x.argSize + sizeOfArg (formatPath c f) ≤ K)
    (hcalm : (∀ e ∈ w.log, ¬ e.tooBig) → cf = [] ∨ x.argSize + sizeOfArg (formatPath c f) ≤ x0.argMax) :
    Inv fixed c x0 w0 (fs ++ [f]) x' w (cf ++ [f]) := by
  have e : x'.argSize = x.argSize + sizeOfArg (formatPath c f) ∧ x'.argMin = x.argMin ∧ x'.argMax = x.argMax ∧ x'.chdir = x.chdir ∧ x'.failed = x.failed := by
    rw [hx]; exact ⟨rfl, rfl, rfl, rfl, rfl⟩
  obtain ⟨e4, e5, e6, e7, e8⟩ := e
  have hsub : fs.Sublist (fs ++ [f]) := List.sublist_append_left ..
  refine ⟨by simpa using hr, by rw [e5, e6]; exact h.min_max, by rw [e6]; exact h.max_le, by rw [e7]; exact h.chdir, h.answer,
    List.Sublist.append h.pend (List.Sublist.refl _), h.ans, ?_, ?_, ?_, ?_, ?_, ?_, ?_⟩
  · intro e he
    obtain ⟨gs, ⟨h1, h2⟩, h3, h4⟩ := h.files e he
    exact ⟨gs, ⟨h1.trans hsub, h2⟩, fun hfs => h3 (fun g hg => hfs g (by simp [hg])), h4⟩
  · exact ⟨hwd, hc⟩
  · rw [List.map_append, List.map_append, ← List.append_assoc]
    exact List.Sublist.append h.sub (List.Sublist.refl _)
  · intro hb
    rw [e8] at hb
    obtain ⟨g1, g2⟩ := h.good hb
    refine ⟨?_, g2⟩
    rw [List.map_append, List.map_append, ← List.append_assoc, g1]
  · intro hd hb
    rw [e8] at hb
    refine h.blame ?_ hb
    have l1 := congrArg List.length hd
    exact h.sub.eq_of_length (by simp at *; omega)
  · intro hn
    obtain ⟨c1, c2⟩ := h.calm hn
    refine ⟨?_, c2⟩
    rcases hcalm hn with rfl | hh
    · left; simp
    · right
      obtain ⟨gap, tail, hr0⟩ := h.rep
      rw [List.map_append, total_append, ← hr0.size]
      simpa [total] using hh
  · intro K hK hall hl
    obtain ⟨k1, k2⟩ := h.lim K hK (fun g hg => hall g (by simp [hg])) hl
    refine ⟨by unfold Lim; rw [e4, e6]; exact hlim K hK hall hl, ?_⟩
    rw [List.map_append, List.map_append, ← List.append_assoc, k2]

theorem plain_len {f : File} (h : f.plain) : f.nameoff ≤ f.path.length := by
  by_cases h0 : f.nameoff = 0
  · omega
  · have := h.slash (by omega)
    have := (List.getElem?_eq_some_iff.1 this).1
    omega

/-- After `openwd` from a clean state. -/
theorem openwd_clean {x x' : Exec} {f : File} {b : Bool} (h1 : x.wdFd = none) (h2 : x.wdPath = none) (h3 : x.wdLen = 0) (hf : f.plain)
    (hs : f.strndupOk = true) (h : openwd true x f = .ok (b, x')) :
    (f.nameoff = 0 → b = true ∧ x' = x ∧ dirOf f = none) ∧
    (0 < f.nameoff → WdOk x' [] ∧ (b = true → WdOk x' [f])) := by
  unfold openwd at h
  rw [if_neg (by simp [h1, h2])] at h
  dsimp only at h
  constructor
  · intro h0
    have ha : f.atFd = false := by
      cases hat : f.atFd with
      | false => rfl
      | true => have := hf.fd hat; omega
    have hh : f.path.head? ≠ some 47 := by
      intro hh
      have := hf.name
      rw [h0, List.drop_zero] at this
      exact this (List.mem_of_mem_head? (by rw [hh]; rfl))
    rw [ha, h0] at h
    simp only [Bool.false_eq_true, false_and, if_false] at h
    rw [if_pos ⟨trivial, hh⟩] at h
    simp only [Out.ok.injEq, Prod.mk.injEq] at h
    refine ⟨h.1.symm, ?_, ?_⟩
    · rw [← h.2]; cases x; simp_all
    · unfold dirOf; rw [if_pos h0, if_neg hh]
  · intro h0
    have hl := plain_len hf
    have hlen : (f.path.take f.nameoff).length = f.nameoff := by rw [List.length_take]; omega
    have hlast : (f.path.take f.nameoff)[(f.path.take f.nameoff).length - 1]? = some 47 := by
      rw [hlen, List.getElem?_take]
      rw [if_pos (by omega)]
      exact hf.slash h0
    have hd : dirOf f = some (f.path.take f.nameoff) := by unfold dirOf; rw [if_neg (by omega)]
    have w1 : ∀ x : Exec, x.wdFd = some (f.path.take f.nameoff) → x.wdPath = some (f.path.take f.nameoff) → x.wdLen = f.nameoff →
        WdOk x [] ∧ (true = true → WdOk x [f]) := by
      intro x g1 g2 g3
      refine ⟨Or.inr (Or.inl ⟨_, by omega, hlast, g1, g2, by omega, by simp⟩), fun _ => Or.inr (Or.inl ⟨_, by omega, hlast, g1, g2, by omega, ?_⟩)⟩
      intro g hg; simp at hg; subst hg; exact hd
    rw [if_neg (show ¬ (f.nameoff = 0 ∧ f.path.head? ≠ some 47) by omega), hs] at h
    simp only [if_neg (show ¬ f.nameoff = 0 by omega), Bool.not_true, Bool.false_eq_true, and_false, if_false] at h
    cases hat : f.atFd with
    | true =>
      rw [hat] at h
      cases hdup : f.dupOk with
      | true =>
        simp [hdup] at h
        obtain ⟨rfl, rfl⟩ := h
        exact w1 _ rfl rfl rfl
      | false =>
        simp [hdup] at h
        obtain ⟨rfl, rfl⟩ := h
        exact ⟨Or.inl ⟨h1, h2, h3, by simp⟩, fun h => absurd h (by simp)⟩
    | false =>
      rw [hat] at h
      cases hop : f.openOk with
      | true =>
        simp [hop] at h
        obtain ⟨rfl, rfl⟩ := h
        exact w1 _ rfl rfl rfl
      | false =>
        simp [hop] at h
        obtain ⟨rfl, rfl⟩ := h
        exact ⟨Or.inr (Or.inr ⟨_, by omega, rfl, rfl, hlen.symm, rfl⟩), fun h => absurd h (by simp)⟩

/-- The working directory after a possible flush and reopening. -/
theorem wd_step {x x1 x2 x3 : Exec} {f : File} {cf cf1 : List File} {b : Bool} (hw : WdOk x cf) (hc : x.chdir = true) (hf : f.plain) (hs : f.strndupOk = true)
    (hfd : x1.wdFd = x.wdFd) (hp : x1.wdPath = x.wdPath) (hl : x1.wdLen = x.wdLen) (hc1 : x1.chdir = true) (hcf : cf1 <:+ cf)
    (hch : (changedDirs x f = true ∧ x2 = closewd x1 ∧ cf1 = []) ∨ (changedDirs x f = false ∧ x2 = x1))
    (ho : multiOpen x2 f = .ok (b, x3)) : WdOk x3 cf1 ∧ (b = true → WdOk x3 (cf1 ++ [f])) := by
  rcases hch with ⟨h1, rfl, rfl⟩ | ⟨h1, rfl⟩
  · -- flushed and closed
    have hcl : (closewd x1).wdFd = none ∧ (closewd x1).wdPath = none ∧ (closewd x1).wdLen = 0 ∧ (closewd x1).chdir = true := by
      unfold closewd
      rcases hw with ⟨g1, g2, g3, _⟩ | ⟨d, _, _, g1, g2, g3, _⟩ | ⟨d, _, g1, g2, g3, _⟩
      · rw [hp, g2]; simp only [Option.isSome_none, Bool.false_eq_true, if_false]; exact ⟨trivial, trivial, by rw [hl]; exact g3, hc1⟩
      · rw [hp, g2]; exact ⟨rfl, rfl, rfl, hc1⟩
      · rw [hp, g2]; exact ⟨rfl, rfl, rfl, hc1⟩
    obtain ⟨c1, c2, c3, c4⟩ := hcl
    unfold multiOpen at ho
    rw [if_pos (by simp [c1, c4])] at ho
    obtain ⟨o1, o2⟩ := openwd_clean c1 c2 c3 hf hs ho
    by_cases h0 : f.nameoff = 0
    · obtain ⟨_, rfl, hd⟩ := o1 h0
      refine ⟨Or.inl ⟨c1, c2, c3, by simp⟩, fun _ => Or.inl ⟨c1, c2, c3, ?_⟩⟩
      intro g hg; simp at hg; subst hg; exact hd
    · exact o2 (by omega)
  · unfold changedDirs at h1
    rw [hc] at h1
    simp only [Bool.true_and, Bool.or_eq_false_iff, decide_eq_false_iff_not] at h1
    obtain ⟨h1, h2⟩ := h1
    rcases hw with ⟨g1, g2, g3, g⟩ | ⟨d, g0, gl, g1, g2, g3, g⟩ | ⟨d, g0, g1, g2, g3, g⟩
    · unfold multiOpen at ho
      rw [if_pos (by simp [hc1, hfd, g1])] at ho
      obtain ⟨o1, o2⟩ := openwd_clean (by rw [hfd, g1]) (by rw [hp, g2]) (by rw [hl, g3]) hf hs ho
      obtain ⟨_, rfl, hd⟩ := o1 (by omega)
      refine ⟨Or.inl ⟨by rw [hfd, g1], by rw [hp, g2], by rw [hl, g3], fun f hf => g f (hcf.subset hf)⟩,
        fun _ => Or.inl ⟨by rw [hfd, g1], by rw [hp, g2], by rw [hl, g3], ?_⟩⟩
      intro k hk
      rcases List.mem_append.1 hk with hk | hk
      · exact g k (hcf.subset hk)
      · simp at hk; subst hk; exact hd
    · unfold multiOpen at ho
      rw [if_neg (by simp [hfd, g1])] at ho
      simp only [Out.ok.injEq, Prod.mk.injEq] at ho
      obtain ⟨rfl, rfl⟩ := ho
      rw [g2, g3] at h2
      simp only [bne_eq_false_iff_eq] at h2
      have hno : f.nameoff = d.length := by
        by_cases hlt : f.nameoff < d.length
        · exfalso
          apply hf.name
          rw [← h2, List.getElem?_take] at gl
          split at gl
          · have e : f.path[(List.take d.length f.path).length - 1]? = (f.path.drop f.nameoff)[(List.take d.length f.path).length - 1 - f.nameoff]? := by
              rw [List.getElem?_drop]
              congr 1
              rw [h2]; omega
            rw [e] at gl
            exact List.mem_of_getElem? gl
          · exact absurd gl (by simp)
        · omega
      have hd : dirOf f = some d := by
        unfold dirOf
        rw [if_neg (by omega), hno, h2]
      refine ⟨Or.inr (Or.inl ⟨d, g0, gl, by rw [hfd, g1], by rw [hp, g2], by rw [hl, g3], fun f hf => g f (hcf.subset hf)⟩),
        fun _ => Or.inr (Or.inl ⟨d, g0, gl, by rw [hfd, g1], by rw [hp, g2], by rw [hl, g3], ?_⟩)⟩
      intro k hk
      rcases List.mem_append.1 hk with hk | hk
      · exact g k (hcf.subset hk)
      · simp at hk; subst hk; exact hd
    · unfold multiOpen at ho
      rw [if_pos (by simp [hc1, hfd, g1])] at ho
      unfold openwd at ho
      rw [if_pos (by simp [hp, g2])] at ho
      exact absurd ho (by simp)

theorem openwd_fail {multi : Bool} {x x' : Exec} {f : File} (h : openwd multi x f = .ok (false, x')) : ¬ f.fine := by
  rintro ⟨_, h2, h3, h4, _⟩
  unfold openwd at h
  rw [h2, h3, h4] at h
  split at h
  · exact absurd h (by simp)
  · simp only [Bool.not_true, Bool.false_eq_true, and_false, if_false, if_true] at h
    repeat' (split at h)
    all_goals exact absurd h (by simp)

theorem multiOpen_fail {x x' : Exec} {f : File} (h : multiOpen x f = .ok (false, x')) : ¬ f.fine := by
  unfold multiOpen at h
  split at h
  · exact openwd_fail h
  · exact absurd h (by simp)

/-- One file. -/
theorem Inv.step {fixed c x0 w0 fs x w cf} (h : Inv fixed c x0 w0 fs x w cf) (f : File) {x' w'} (he : execMulti x w f = .ok (x', w')) :
    ∃ cf', Inv fixed c x0 w0 (fs ++ [f]) x' w' cf' := by
  obtain ⟨gap, tail, hr⟩ := h.rep
  unfold execMulti multi at he
  by_cases hfmt : f.formatOk = true
  · rw [if_neg (by simp [hfmt]), h.chdir] at he
    obtain ⟨bad, x1, cur1, new, x2, p1, p2, p3, p4, p5⟩ := preFlush_spec fixed w f (formatPath c f) hr h.min_max
    obtain ⟨cf1, rfl, hs, hI⟩ := h.prog p2
    dsimp only at he
    rw [p1] at he
    simp only [Out.bind] at he
    cases ho : multiOpen x2 f with
    | err e => rw [ho] at he; exact absurd he (by simp)
    | ub => rw [ho] at he; exact absurd he (by simp)
    | ok o =>
      obtain ⟨b, x3⟩ := o
      rw [ho] at he
      have hx1 : x1.wdFd = x.wdFd ∧ x1.wdPath = x.wdPath ∧ x1.wdLen = x.wdLen ∧ x1.chdir = x.chdir ∧ x1.failed = x.failed := by
        rw [p2.upd]; exact ⟨rfl, rfl, rfl, rfl, rfl⟩
      obtain ⟨q1, q2, q3, q4, q5⟩ := hx1
      have hx2 : x2 = { x1 with wdFd := x2.wdFd, wdPath := x2.wdPath, wdLen := x2.wdLen } := by
        rcases p3 with ⟨_, rfl, _⟩ | ⟨_, rfl⟩
        · exact closewd_wd x1
        · rfl
      have hx3 : x3 = { x1 with wdFd := x3.wdFd, wdPath := x3.wdPath, wdLen := x3.wdLen } := by
        have := multiOpen_wd ho
        rw [this, hx2]
      have hwd : (∀ g ∈ fs ++ [f], g.plain ∧ g.strndupOk = true) → c = true → WdOk x3 cf1 ∧ (b = true → WdOk x3 (cf1 ++ [f])) := by
        intro hfs hc
        have hff := hfs f (by simp)
        refine wd_step (h.wd.1 (fun g hg => hfs g (by simp [hg])) hc) (by rw [h.chdir, hc]) hff.1 hff.2 q1 q2 q3 (by rw [q4, h.chdir, hc]) hs ?_ ho
        rcases p3 with ⟨g1, g2, g3⟩ | g
        · exact Or.inl ⟨g1, g2, List.map_eq_nil_iff.1 g3⟩
        · exact Or.inr g
      have hfd : c = false → x3.wdFd = none := by
        intro hc
        have hx2c : x2.chdir = false := by rw [hx2]; show x1.chdir = false; rw [q4, h.chdir, hc]
        unfold multiOpen at ho
        rw [if_neg (by simp [hx2c])] at ho
        simp only [Out.ok.injEq, Prod.mk.injEq] at ho
        obtain ⟨_, rfl⟩ := ho
        rcases p3 with ⟨_, rfl, _⟩ | ⟨_, rfl⟩
        · unfold closewd; split <;> rfl
        · rw [q1]; exact h.wd.2 hc
      obtain ⟨gap1, tail1, hr1⟩ := hI.rep
      have hr3 : Rep fixed x3 (cf1.map (formatPath c)) gap1 [] tail1 := by
        rw [hx3]; exact ⟨hr1.argv, hr1.argc, hr1.tmpl, hr1.size⟩
      cases b with
      | false =>
        simp only [Bool.not_false, if_true, Out.ok.injEq, Prod.mk.injEq] at he
        obtain ⟨rfl, rfl⟩ := he
        refine ⟨cf1, hI.skip f (multiOpen_fail ho) ?_ ⟨gap1, tail1, hr3.argv, hr3.argc, hr3.tmpl, hr3.size⟩ (fun hfs hc => (hwd hfs hc).1) hfd⟩
        generalize hy : ({ x3 with failed := true } : Exec) = y
        subst hy
        rw [hx3]
      | true =>
        simp only [Bool.not_true, Bool.false_eq_true, if_false] at he
        rcases push_spec fixed (formatPath c f) f.reallocOk hr3 with ⟨argv', h1, gap', tail', h2⟩ | ⟨hre, argv', h1, gap', tail', h2⟩
        · rw [h1] at he
          simp only [Bool.not_true, Bool.false_eq_true, if_false, Out.ok.injEq, Prod.mk.injEq] at he
          obtain ⟨hx', rfl⟩ := he
          have hx'' : x' = { x3 with argv := argv', argc := x3.argc + 1, argSize := x3.argSize + sizeOfArg (formatPath c f), failed := x.failed || bad } := by
            rw [← hx']
            have : x3.failed = x.failed := by rw [hx3]; exact q5
            cases bad with
            | true => simp
            | false => simp [← this]
          refine ⟨cf1 ++ [f], hI.add f ?_ ⟨gap', tail', ?_⟩ ?_ ?_ ?_ ?_⟩
          · subst hx''; rw [hx3]
          · subst hx''; exact ⟨h2.argv, h2.argc, h2.tmpl, h2.size⟩
          · intro hfs hc; subst hx''; exact (hwd hfs hc).2 rfl
          · intro hc; subst hx''; exact hfd hc
          · intro K hK hall hl
            obtain ⟨k1, k2⟩ := h.lim K hK (fun g hg => hall g (by simp [hg])) hl
            refine p4 K ?_ ?_ k1 (hall f (by simp)).2
            · intro log args e hh; rw [h.answer] at hh; exact hK log args e hh
            · intro a ha
              obtain ⟨g, hg, rfl⟩ := List.mem_map.1 ha
              exact (hall g (by simp [h.pend.subset hg])).2
          · intro hn
            rcases p5 (fun e he => hn e (List.mem_append_right _ he)) with h | hh
            · exact Or.inl (List.map_eq_nil_iff.1 h)
            · exact Or.inr (Nat.le_trans hh h.max_le)
        · rw [h1] at he
          simp only [Bool.not_false, if_true, Out.ok.injEq, Prod.mk.injEq] at he
          obtain ⟨rfl, rfl⟩ := he
          refine ⟨cf1, hI.skip f (by rintro ⟨_, _, _, _, h5⟩; rw [hre] at h5; exact absurd h5 (by simp)) ?_ ⟨gap', tail', h2.argv, h2.argc, h2.tmpl, h2.size⟩
            (fun hfs hc => (hwd hfs hc).1) hfd⟩
          generalize hy : ({ x3 with argv := argv', failed := true } : Exec) = y
          subst hy
          rw [hx3]
  · rw [if_pos (by simp [hfmt])] at he
    simp only [Out.bind, if_true, Out.ok.injEq, Prod.mk.injEq] at he
    obtain ⟨rfl, rfl⟩ := he
    exact ⟨cf, h.skip f (fun hh => hfmt hh.1) rfl ⟨gap, tail, hr.argv, hr.argc, hr.tmpl, hr.size⟩
      (fun hfs hc => h.wd.1 (fun g hg => hfs g (by simp [hg])) hc) h.wd.2⟩

theorem Inv.all {fixed c x0 w0} : ∀ (gs fs : List File) {x w cf x' w'}, Inv fixed c x0 w0 fs x w cf → execAll gs x w = .ok (x', w') →
    ∃ cf', Inv fixed c x0 w0 (fs ++ gs) x' w' cf'
  | [], fs, x, w, cf, x', w', h, he => by
    simp only [execAll, Out.ok.injEq, Prod.mk.injEq] at he
    obtain ⟨rfl, rfl⟩ := he
    exact ⟨cf, by simpa using h⟩
  | f :: gs, fs, x, w, cf, x', w', h, he => by
    rw [execAll] at he
    cases hm : execMulti x w f with
    | err e => rw [hm] at he; exact absurd he (by simp [Out.bind])
    | ub => rw [hm] at he; exact absurd he (by simp [Out.bind])
    | ok r =>
      obtain ⟨x1, w1⟩ := r
      rw [hm] at he
      obtain ⟨cf1, h1⟩ := h.step f hm
      obtain ⟨cf2, h2⟩ := Inv.all gs (fs ++ [f]) h1 he
      exact ⟨cf2, by simpa using h2⟩

/-- Finishing always works, and nothing stays queued. -/
theorem Inv.fin {fixed c x0 w0 fs x w cf} (h : Inv fixed c x0 w0 fs x w cf) :
    ∃ bad w' x', finish x w = .ok (bad, w') ∧ x'.failed = bad ∧ Inv fixed c x0 w0 fs x' w' [] := by
  obtain ⟨gap, tail, hr⟩ := h.rep
  obtain ⟨b, x1, new, h1, h2⟩ := flushAll_spec fixed (cf.map (formatPath c)).length _ gap tail (x.argc + 1) x.failed x w (Nat.le_refl _) (by rw [hr.argc]; omega) hr h.min_max
  obtain ⟨cf', e1, _, hI⟩ := h.prog h2
  obtain rfl := List.map_eq_nil_iff.1 e1.symm
  unfold finish
  rw [h1]
  exact ⟨_, _, _, rfl, rfl, hI⟩

end Verif.Exec
