import Verif.Lemmas.Ctable
import Verif.Props.Path
/-!
# C71 and C72: colored output

`Spec/Cprint.lean` says what a format means as a list of texts and colors, how a path is split into
parts, and which color each part has.
-/
namespace Verif.Props
open Verif Verif.Cprint
open Verif.Color (Setting LsColors getExt useful Applies)

/-! ## C71: formats -/

/-- Whatever the format, its arguments and the color table, what is appended to the buffer is what
the format means, colors and texts in this order, each color only if it is in use and each reset only
if a color is on. It fails only if memory runs out, or a link that is to be printed cannot be read.
There is no undefined behavior either way. -/
theorem C71_format (L : Quote.Locale) (t : Option Table) (hg : ∀ x, t = some x → x.Good) (ds : List Dir) (as : List Arg)
    (ops : List Op) (hok : ∀ d ∈ ds, d.Ok) (has : ∀ a ∈ as, a.Ok) (hm : meaning L t ds as = some ops) (b : Cprint.Buf) :
    ∃ b' ok, cvbuff L t b (render ds) as = .ok (b', ok) ∧
      (ok = true → b'.out = b.out ++ (pieces t.isSome b.needReset ops).1.flatMap (bytesOf t) ∧
        b'.needReset = (pieces t.isSome b.needReset ops).2) ∧
      ((Dir.L ∈ ds → ∀ a ∈ as, a.Readable) → (∀ a ∈ b.mem, a = true) → ok = true) := by
  obtain ⟨b', ok, h1, h2, h3⟩ := prints_format hg hok has hm b
  exact ⟨b', ok, h1, h2, fun x y => (h3 x y).1⟩

theorem plain_text (on : Bool) (ops : List Op) : (pieces false on ops).1.flatMap (bytesOf none) = textOf ops ∧
    (pieces false on ops).2 = on := by
  induction ops with
  | nil => exact ⟨rfl, rfl⟩
  | cons o ops ih =>
    cases o with
    | txt s => exact ⟨by simp [pieces, bytesOf, textOf, ih.1], by simp [pieces, ih.2]⟩
    | esc p => cases p <;> exact ⟨by simp [pieces, textOf, ih.1], by simp [pieces, ih.2]⟩
    | rs => exact ⟨by simp [pieces, textOf, ih.1], by simp [pieces, ih.2]⟩

/-- Without colors, only the text is printed. -/
theorem C71_plain (L : Quote.Locale) (ds : List Dir) (as : List Arg) (ops : List Op) (hok : ∀ d ∈ ds, d.Ok)
    (has : ∀ a ∈ as, a.Ok) (hm : meaning L none ds as = some ops) (b b' : Cprint.Buf)
    (h : cvbuff L none b (render ds) as = .ok (b', true)) : b'.out = b.out ++ textOf ops ∧ b'.needReset = b.needReset := by
  obtain ⟨b2, ok, h1, h2, _⟩ := C71_format L none (fun x hx => (by cases hx)) ds as ops hok has hm b
  rw [h] at h1
  cases h1
  obtain ⟨h3, h4⟩ := h2 rfl
  rw [h3, h4]
  exact ⟨congrArg _ (plain_text _ _).1, (plain_text _ _).2⟩

/-- In particular, paths are printed as they are, whatever bytes they contain. -/
theorem C71_plain_path (L : Quote.Locale) (f : Ftw) (hf : f.Framed) (b b' : Cprint.Buf)
    (h : cvbuff L none b (render [.P]) [.ftw f] = .ok (b', true)) : b'.out = b.out ++ f.path := by
  have := (C71_plain L [.P] [.ftw f] [.txt f.path] (by simp [Dir.Ok]) (by simpa [Arg.Ok] using hf) rfl b b' h).1
  rw [this]
  simp [textOf]

/-- If every color in the format is ended by the format, no color is left on, and in the output, every
color is followed by the reset sequence. -/
theorem C71_closed (L : Quote.Locale) (t : Option Table) (ds : List Dir) (as : List Arg) (ops : List Op)
    (hm : meaning L t ds as = some ops) (hc : Closed ds) :
    (pieces t.isSome false ops).2 = false ∧
      ∀ a p b, (pieces t.isSome false ops).1 = a ++ .color p :: b → Piece.reset ∈ b := by
  have h := ended_off (c := t.isSome) (ended_meaning hm hc)
  exact ⟨h, (reset_after h).2⟩

/-- The names of files, their paths and the targets of links are ended in the same way. -/
theorem C71_closed_files (L : Quote.Locale) (t : Option Table) (f : Ftw) (ops : List Op)
    (h : ops = nameMeaning L t f ∨ ops = pathMeaning L t f ∨ ops = linkMeaning L t f) :
    (pieces t.isSome false ops).2 = false := by
  apply ended_off
  rcases h with rfl | rfl | rfl
  · exact ended_name _ _ _
  · exact ended_pathM _ _ _
  · exact ended_link _ _ _

/-- Each call writes all of its output with a single write, or reports an error: then it has written a
part of it, or nothing at all if it failed before. The buffer is empty again afterwards. -/
theorem C71_atomic (L : Quote.Locale) (t : Option Table) (hg : ∀ x, t = some x → x.Good) (ds : List Dir) (as : List Arg)
    (ops : List Op) (hok : ∀ d ∈ ds, d.Ok) (has : ∀ a ∈ as, a.Ok) (hm : meaning L t ds as = some ops) (b : Cprint.Buf)
    (hb : b.out = []) (fwrite : Bytes → Nat) :
    ∃ w b' ok, cvfprintf L t b (render ds) as fwrite = .ok (w, b', ok) ∧ b'.out = [] ∧
      (ok = true → w = (pieces t.isSome b.needReset ops).1.flatMap (bytesOf t) ∧
        b'.needReset = (pieces t.isSome b.needReset ops).2) ∧
      w <+: (pieces t.isSome b.needReset ops).1.flatMap (bytesOf t) ∧
      ((Dir.L ∈ ds → ∀ a ∈ as, a.Readable) → (∀ a ∈ b.mem, a = true) → (∀ s, fwrite s = s.length) → ok = true) := by
  obtain ⟨b', ok, h1, h2, h3⟩ := C71_format L t hg ds as ops hok has hm b
  unfold cvfprintf
  rw [if_pos hb, h1]
  cases ok with
  | false =>
    refine ⟨[], { b' with out := [] }, false, ?_, rfl, fun h => (by cases h), List.nil_prefix, fun x y _ => h3 x y⟩
    show Out.ok (b'.out.take 0, _, _) = _
    rw [List.take_zero]
    rfl
  | true =>
    obtain ⟨h4, h5⟩ := h2 rfl
    rw [hb, List.nil_append] at h4
    refine ⟨b'.out.take (min (fwrite b'.out) b'.out.length), { b' with out := [] },
      decide (min (fwrite b'.out) b'.out.length = b'.out.length), ?_, rfl, fun h => ?_, ?_, fun _ _ hf => ?_⟩
    · show Out.ok (_, _, true && _) = _
      rw [Bool.true_and]
      rfl
    · rw [of_decide_eq_true h, List.take_length]
      exact ⟨h4, h5⟩
    · rw [← h4]
      exact List.take_prefix _ _
    · rw [hf, Nat.min_self]
      exact decide_eq_true rfl

/-! ## C72: names and paths -/

theorem quoted_printable {L : Quote.Locale} {s : Bytes} (hs : s ≠ []) (h : ∀ c ∈ s, c < 128 ∧ L.isprint c = true) :
    quoted L false s = s := by
  have ha : Quote.asciinlen s = s.length := by
    rw [(C58_ascii_prefix s).1, takeWhile_all fun c hc => by simpa using (h c hc).1]
  have hp : Quote.printableLen L false s = s.length := by
    have hw : s.takeWhile (Quote.wescIsprint L false) = s := by
      apply takeWhile_all
      intro c hc
      unfold Quote.wescIsprint
      rw [(h c hc).2]
      rfl
    unfold Quote.printableLen
    dsimp only
    rw [ha, List.take_length, hw, if_neg (Nat.lt_irrefl _), List.drop_length]
    show s.length + Quote.mbPrintable L false (s.length + 1) L.init [] = s.length
    rw [Quote.mbPrintable, if_pos rfl]
    rfl
  unfold quoted
  rw [Quote.escape_eq]
  have : Quote.wordStr L false s = s := by
    unfold Quote.wordStr
    rw [hp, if_neg (Nat.lt_irrefl _), if_pos (by simp)]
  show Quote.wordStr' L false s = s
  unfold Quote.wordStr'
  rw [this, if_neg hs]

theorem textOf_append (a b : List Op) : textOf (a ++ b) = textOf a ++ textOf b := by
  induction a with
  | nil => rfl
  | cons o a ih => cases o <;> simp [textOf, ih]

theorem textOf_colored {L : Quote.Locale} {p : Option Ptr} {s : Bytes} (h : ∀ c ∈ s, c < 128 ∧ L.isprint c = true) :
    textOf (coloredText L p s) = s := by
  unfold coloredText
  by_cases hs : s = []
  · rw [if_pos hs, hs]; rfl
  · rw [if_neg hs]
    simp [textOf, quoted_printable hs h]

/-- The parts are in order. -/
theorem split_le (own : Bool) (path : Bytes) (f : Ftw) (flags : Follow) (hf : f.Framed) (hown : own = true → path = f.path) :
    (split own path f flags).nameoff ≤ (split own path f flags).valid ∧ (split own path f flags).valid ≤ path.length := by
  have hs : ∀ v, nameStart path v ≤ v := fun v => Nat.sub_le _ _
  unfold split
  split
  · exact ⟨(Path.baseoff_slash path).2, Nat.le_refl _⟩
  · split
    · rename_i h
      refine ⟨hs _, ?_⟩
      show f.nameoff ≤ path.length
      rw [hf.1, hown h.1]
      exact (Path.baseoff_slash _).2
    · refine ⟨hs _, ?_⟩
      dsimp only [splitAt]
      unfold existing
      cases h : List.find? _ _ with
      | none => exact Nat.zero_le _
      | some k =>
        have := List.mem_of_find?_eq_some h
        rw [List.mem_reverse, List.mem_range] at this
        exact Nat.le_of_lt this

/-- However a path is split into colored parts, its text is the path itself, if it is printable. -/
theorem C72_text (L : Quote.Locale) (t : Option Table) (f : Ftw) (hf : f.Framed)
    (h : ∀ c ∈ f.path, c < 128 ∧ L.isprint c = true) :
    textOf (pathMeaning L t f) = f.path ∧ textOf (nameMeaning L t f) = f.path.drop f.nameoff := by
  cases t with
  | none => exact ⟨by simp [pathMeaning, textOf], by simp [nameMeaning, textOf, baseName]⟩
  | some t =>
    constructor
    · have hle := split_le true f.path f (flagsOf t f) hf fun _ => rfl
      show textOf (pathOps L t f.path (split true f.path f (flagsOf t f))) = _
      generalize split true f.path f (flagsOf t f) = s at *
      unfold pathOps
      dsimp only
      have key : ∀ n, n ≤ s.valid → ∀ p, textOf (coloredText L (firstOf t [(true, .di)]) (f.path.take n) ++
          coloredText L p ((f.path.drop n).take (s.valid - n)) ++
          coloredText L (missingColor t) (f.path.drop s.valid)) = f.path := by
        intro n hn p
        rw [textOf_append, textOf_append, textOf_colored fun c hc => h c (List.mem_of_mem_take hc),
          textOf_colored fun c hc => h c (List.mem_of_mem_drop (List.mem_of_mem_take hc)),
          textOf_colored fun c hc => h c (List.mem_of_mem_drop hc)]
        have e : s.valid = n + (s.valid - n) := by omega
        generalize s.valid - n = m at *
        rw [e, ← List.drop_drop, List.append_assoc, List.take_append_drop, List.take_append_drop]
      generalize (if s.nameoff < s.valid then color t s.view else none) = col
      by_cases hc : s.nameoff < s.valid ∧ col = firstOf t [(true, .di)]
      · rw [if_pos hc]
        exact key _ (Nat.le_refl _) _
      · rw [if_neg hc]
        exact key _ hle.1 _
    · exact textOf_colored fun c hc => h c (List.mem_of_mem_drop hc)

/-- Control characters never reach the terminal in colored names, paths and link targets: no text in
them contains a byte that the locale never considers printable or white space. -/
theorem C72_no_control (L : Quote.Locale) (hL : L.OK) (bad : UInt8 → Prop) (hbad : ∀ c, bad c → c < 32 ∨ 126 < c)
    (hB : L.Hides true bad) (t : Table) (f : Ftw) (ops : List Op)
    (h : ops = nameMeaning L (some t) f ∨ ops = pathMeaning L (some t) f ∨ ops = linkMeaning L (some t) f) :
    ∀ s, .txt s ∈ ops → ∀ c ∈ s, ¬ bad c := by
  have key : ∀ (p : Option Ptr) (s x : Bytes), .txt x ∈ coloredText L p s → ∀ c ∈ x, ¬ bad c := by
    intro p s x hx
    unfold coloredText at hx
    split at hx
    · cases hx
    · simp at hx
      subst hx
      obtain ⟨out, ho, _⟩ := C14_never_truncated L false s
      unfold quoted
      rw [ho]
      exact C58_no_control L hL false bad hbad hB s out ho
  have parts : ∀ path sp x, .txt x ∈ pathOps L t path sp → ∀ c ∈ x, ¬ bad c := by
    intro path sp x hx
    unfold pathOps at hx
    rw [List.mem_append, List.mem_append] at hx
    rcases hx with (hx | hx) | hx
    · exact key _ _ _ hx
    · exact key _ _ _ hx
    · exact key _ _ _ hx
  intro s hs
  rcases h with rfl | rfl | rfl
  · exact key _ _ _ hs
  · exact parts _ _ _ hs
  · exact parts _ _ _ hs

/-- What does not exist of a broken path begins after the longest part that does. -/
theorem C72_existing (stat : Bytes → Option St) (path : Bytes) :
    (existing stat path = 0 ∨ (boundary path (existing stat path) = true ∧ (stat (path.take (existing stat path))).isSome = true)) ∧
      ∀ k, boundary path k = true → (stat (path.take k)).isSome = true → k ≤ existing stat path := by
  unfold existing
  cases hf : (List.range path.length).reverse.find? (fun k => boundary path k && (stat (path.take k)).isSome) with
  | none =>
    refine ⟨.inl rfl, fun k h1 h2 => ?_⟩
    rw [List.find?_eq_none] at hf
    refine absurd ?_ (hf k ?_)
    · rw [h1, h2]; rfl
    · rw [List.mem_reverse, List.mem_range]
      exact (boundary_iff.1 h1).2.1
  | some v =>
    obtain ⟨hk, as, bs, hab, hno⟩ := List.find?_eq_some_iff_append.1 hf
    rw [Bool.and_eq_true] at hk
    refine ⟨.inr hk, fun k h1 h2 => ?_⟩
    show k ≤ v
    have hm : k ∈ (List.range path.length).reverse := by
      rw [List.mem_reverse, List.mem_range]
      exact (boundary_iff.1 h1).2.1
    rw [hab, List.mem_append, List.mem_cons] at hm
    rcases hm with hm | hm | hm
    · have := hno k hm
      rw [h1, h2] at this
      cases this
    · omega
    · have hp : (List.range path.length).reverse.Pairwise (fun a b => b < a) := by
        rw [List.pairwise_reverse]
        exact List.pairwise_lt_range
      rw [hab, List.pairwise_append] at hp
      have := (List.pairwise_cons.1 hp.2.1).1 k hm
      omega

/-- The files that the walk presents are as `C71_format` asks. -/
theorem C72_framed (b : Path.Buf) (h : Path.Walked b) (f : Ftw) (h1 : f.path = b.path) (h2 : f.nameoff = b.nameoff)
    (h3 : f.depth = b.depth) : f.Framed := by
  unfold Ftw.Framed
  rw [h1, h2, h3]
  cases h with
  | root r hr => exact ⟨rfl, fun h => absurd h (Nat.lt_irrefl 0)⟩
  | child dir name _ hn hs =>
    have hlast : ∀ d : Bytes, (d ++ name).getLast? ≠ some 47 := by
      intro d hh
      rw [List.getLast?_append, List.getLast?_eq_some_getLast hn, Option.some_or] at hh
      injection hh with hh
      exact hs (hh ▸ List.getLast_mem hn)
    show (if dir.path.getLast? = some 47 then dir.path.length else dir.path.length + 1) =
      Path.xbaseoff (Bftw.join dir.path name) ∧ (_ → (Bftw.join dir.path name).getLast? ≠ some 47)
    unfold Bftw.join
    by_cases hl : dir.path.getLast? = some 47
    · rw [if_pos hl, if_pos hl]
      exact ⟨(C39_base _ dir.path name [] ⟨by simp, ⟨hn, hs⟩, by simp, .inr hl⟩).2.symm, fun _ => hlast _⟩
    · rw [if_neg hl, if_neg hl]
      have e : dir.path ++ 47 :: name = (dir.path ++ [47]) ++ name := by simp
      rw [e]
      refine ⟨?_, fun _ => hlast _⟩
      rw [(C39_base _ (dir.path ++ [47]) name [] ⟨by simp, ⟨hn, hs⟩, by simp, .inr (by simp)⟩).2]
      simp

/-- The table: well-formed variables give a usable one, in which every color has the value of the last
setting for it (`$BFS_COLORS` after `$LS_COLORS`), or its default. `ln=target` is special, and the
reset sequence is made of others by default. Extensions are as in C41. -/
theorem C72_table (K : Nat) (ls bfs : Option Bytes) (l1 l2 : List Setting) (h1 : Denotes ls l1) (h2 : Denotes bfs l2) :
    ∃ t, parseColors K ls bfs = .ok t ∧ t.Good ∧
      (∀ f, f ≠ .ln → f ≠ .ec → t.esc f = valueOf (l1 ++ l2) f) ∧
      (t.linkAsTarget = true ↔ valueOf (l1 ++ l2) .ln = some TARGET) ∧
      t.esc .ln = (if t.linkAsTarget then some [] else valueOf (l1 ++ l2) .ln) ∧
      t.esc .ec = ((valueOf (l1 ++ l2) .ec).or (do
        let l ← valueOf (l1 ++ l2) .lc
        let r ← valueOf (l1 ++ l2) .rs
        let c ← valueOf (l1 ++ l2) .rc
        some (l ++ r ++ c))) ∧
      ∀ name color, (∃ p, extOf t name = some p ∧ t.seq p = some color) ↔
        ∃ i e, (useful (extArgs (l1 ++ l2)))[i]? = some e ∧ e.2 = color ∧ Applies (useful (extArgs (l1 ++ l2))) name i ∧
          ∀ j, Applies (useful (extArgs (l1 ++ l2))) name j → j ≤ i := by
  obtain ⟨c, _, hb, _⟩ := C41_color K (extArgs (l1 ++ l2)) []
  have hkeep : ∀ k, Setting.esc k none ∈ l1 ++ l2 → k ≠ Field.rs.name ∧ k ≠ Field.lc.name ∧ k ≠ Field.rc.name ∧ k ≠ Field.ec.name := by
    intro k hk
    rcases List.mem_append.1 hk with hk | hk
    · exact denotes_keeps h1 k hk
    · exact denotes_keeps h2 k hk
  obtain ⟨vr, er⟩ := Option.isSome_iff_exists.1 (valueOf_some (f := .rs) rfl fun h => (hkeep _ h).1 rfl)
  obtain ⟨vl, el⟩ := Option.isSome_iff_exists.1 (valueOf_some (f := .lc) rfl fun h => (hkeep _ h).2.1 rfl)
  obtain ⟨vc, ec⟩ := Option.isSome_iff_exists.1 (valueOf_some (f := .rc) rfl fun h => (hkeep _ h).2.2.1 rfl)
  have hfold : (l1 ++ l2).foldl applyEsc Field.default = valueOf (l1 ++ l2) := funext fun f => fold_eq _ f
  generalize hE : (if valueOf (l1 ++ l2) .ln = some TARGET then fun g => if g = .ln then some [] else valueOf (l1 ++ l2) g
    else valueOf (l1 ++ l2)) = E
  have hEo : ∀ g, g ≠ .ln → E g = valueOf (l1 ++ l2) g := by
    intro g hg
    rw [← hE]
    split
    · exact if_neg hg
    · rfl
  have hEl : E .ln = if valueOf (l1 ++ l2) .ln = some TARGET then some [] else valueOf (l1 ++ l2) .ln := by
    rw [← hE]
    split <;> rfl
  obtain ⟨E', hE', hE1, hE2⟩ : ∃ E', endcode E = .ok E' ∧ (∀ g, g ≠ .ec → E' g = E g) ∧
      E' .ec = (valueOf (l1 ++ l2) .ec).or (some (vl ++ vr ++ vc)) := by
    unfold endcode
    rw [hEo .ec (by decide), hEo .lc (by decide), hEo .rs (by decide), hEo .rc (by decide), el, er, ec]
    cases hv : valueOf (l1 ++ l2) .ec with
    | some v => exact ⟨E, rfl, fun _ _ => rfl, by rw [hEo .ec (by decide), hv]; rfl⟩
    | none => exact ⟨_, rfl, fun g hg => if_neg hg, if_pos rfl⟩
  refine ⟨{ esc := E', linkAsTarget := decide (valueOf (l1 ++ l2) .ln = some TARGET), exts := c }, ?_, ⟨?_, ?_, ?_, ?_⟩, ?_, ?_, ?_, ?_, ?_⟩
  · unfold parseColors
    rw [settingsOf_ok h1, settingsOf_ok h2]
    show ((Color.build K (extArgs (l1 ++ l2))).bind fun exts => _) = _
    rw [hb]
    show ((endcode (if (l1 ++ l2).foldl applyEsc Field.default .ln = some TARGET then
      fun g => if g = .ln then some [] else (l1 ++ l2).foldl applyEsc Field.default g else (l1 ++ l2).foldl applyEsc Field.default)).bind fun esc => _) = _
    rw [hfold, hE, hE']
    rfl
  · show (E' .lc).isSome = true
    rw [hE1 _ (by decide), hEo _ (by decide), el]
    rfl
  · show (E' .rc).isSome = true
    rw [hE1 _ (by decide), hEo _ (by decide), ec]
    rfl
  · show (E' .ec).isSome = true
    rw [hE2]
    cases valueOf (l1 ++ l2) .ec <;> rfl
  · intro name
    obtain ⟨e, g1, g2, _⟩ := exts_good hb name
    exact ⟨e, g1, g2⟩
  · intro f hf1 hf2
    show E' f = _
    rw [hE1 f hf2, hEo f hf1]
  · simp
  · show E' .ln = _
    rw [hE1 _ (by decide), hEl]
    simp
  · show E' .ec = _
    rw [hE2, el, er, ec]
    rfl
  · intro name color
    obtain ⟨c', r, g1, g2, _, g4⟩ := C41_color K (extArgs (l1 ++ l2)) name
    rw [hb] at g1
    cases g1
    rw [← g4 color]
    obtain ⟨e, x1, x2, x3⟩ := exts_good hb name
    rw [g2] at x3
    injection x3 with x3
    rw [x3]
    unfold extOf
    dsimp only
    rw [x1]
    cases e with
    | none => simp
    | some i =>
      constructor
      · rintro ⟨p, hp, hs⟩
        cases hp
        exact hs
      · intro hs
        exact ⟨.ext i, rfl, hs⟩

/-- What `%pF` prints of a file with a color: the color, the escaped name, and the reset sequence. -/
theorem C72_name (L : Quote.Locale) (t : Table) (hg : t.Good) (f : Ftw) (p : Ptr) (hp : color t (nameView f (flagsOf t f)) = some p)
    (hn : f.path.drop f.nameoff ≠ []) (hf : f.Framed) (b : Cprint.Buf) (hm : ∀ a ∈ b.mem, a = true) :
    ∃ b' lc rc ec esc, t.esc .lc = some lc ∧ t.esc .rc = some rc ∧ t.esc .ec = some ec ∧ t.seq p = some esc ∧
      cvbuff L (some t) b (render [.F]) [.ftw f] = .ok (b', true) ∧ b'.needReset = false ∧
      b'.out = b.out ++ (lc ++ esc ++ rc) ++ quoted L false (f.path.drop f.nameoff) ++ ec := by
  obtain ⟨b', ok, h1, h2, h3⟩ := C71_format L (some t) (fun x hx => by cases hx; exact hg) [.F] [.ftw f]
    (coloredText L (some p) (f.path.drop f.nameoff)) (by simp [Dir.Ok]) (by simpa [Arg.Ok] using hf)
    (by simp [meaning, nameMeaning, hp, baseName]) b
  have hok := h3 (by simp) hm
  subst hok
  obtain ⟨h4, h5⟩ := h2 rfl
  obtain ⟨lc, e1⟩ := Option.isSome_iff_exists.1 hg.lc
  obtain ⟨rc, e2⟩ := Option.isSome_iff_exists.1 hg.rc
  obtain ⟨ec, e3⟩ := Option.isSome_iff_exists.1 hg.ec
  obtain ⟨esc, e4⟩ := Option.isSome_iff_exists.1 (printable_color hg _ p hp).1
  refine ⟨b', lc, rc, ec, esc, e1, e2, e3, e4, h1, ?_, ?_⟩
  · rw [h5]
    unfold coloredText
    rw [if_neg hn]
    rfl
  · rw [h4]
    unfold coloredText
    rw [if_neg hn]
    simp [pieces, bytesOf, Table.bytes, e1, e2, e3, e4]

/-- Malformed variables are an error, not undefined behavior. -/
theorem C72_malformed (K : Nat) (ls bfs : Option Bytes) (h : ¬ ∃ l1 l2, Denotes ls l1 ∧ Denotes bfs l2) :
    ∃ e, parseColors K ls bfs = .err e := by
  have key : ∀ v, (∃ l, Denotes v l) ∨ ∃ e, settingsOf v = .err e := by
    intro v
    cases v with
    | none => exact .inl ⟨[], rfl⟩
    | some s =>
      by_cases hs : ∃ l, LsColors s l
      · exact .inl hs
      · exact .inr (C40_settings_rejects s hs)
  unfold parseColors
  rcases key ls with ⟨l1, h1⟩ | ⟨e, h1⟩
  · rcases key bfs with ⟨l2, h2⟩ | ⟨e, h2⟩
    · exact absurd ⟨l1, l2, h1, h2⟩ h
    · refine ⟨e, ?_⟩
      rw [settingsOf_ok h1]
      show (settingsOf bfs).bind _ = _
      rw [h2]
      rfl
  · exact ⟨e, by rw [h1]; rfl⟩

/-! ## Examples -/

/-- `di=34:*.c=35:ln=target:mi=41` -/
def exCColors : Bytes :=
  [100, 105, 61, 51, 52, 58, 42, 46, 99, 61, 51, 53, 58, 108, 110, 61, 116, 97, 114, 103, 101, 116, 58, 109, 105, 61, 52, 49]

def exCDenotes : Denotes (some exCColors) [.esc [100, 105] (some [51, 52]), .ext [46, 99] [51, 53],
    .esc [108, 110] (some TARGET), .esc [109, 105] (some [52, 49])] := by
  have : Color.settings exCColors = .ok [.esc [100, 105] (some [51, 52]), .ext [46, 99] [51, 53],
    .esc [108, 110] (some TARGET), .esc [109, 105] (some [52, 49])] := by decide +kernel
  exact (C40_settings _ _).1 this

example : ∃ t, parseColors 8 none (some exCColors) = .ok t ∧ t.Good ∧ t.linkAsTarget = true ∧ t.esc .di = some [51, 52] ∧
    t.esc .ec = some [27, 91, 48, 109] := by
  obtain ⟨t, h1, h2, h3, h4, _, h6, _⟩ := C72_table 8 none (some exCColors) [] _ rfl exCDenotes
  exact ⟨t, h1, h2, h4.2 (by decide), by rw [h3 _ (by decide) (by decide)]; decide, by rw [h6]; decide⟩

/-- `*.gz` has no value. -/
example : ∃ e, parseColors 8 (some [42, 46, 103, 122]) none = .err e :=
  C72_malformed 8 _ none fun ⟨l1, _, h, _⟩ => by
    have h := (C40_settings _ l1).2 h
    rw [show Color.settings [42, 46, 103, 122] = .err "EINVAL" by decide +kernel] at h
    cases h

/-- That table. -/
def exCTable : Table :=
  match parseColors 8 none (some exCColors) with
  | .ok t => t
  | _ => ⟨fun _ => none, false, ⟨[], 0, Trie.empty, Trie.empty⟩⟩

theorem exCTable_good : exCTable.Good := by
  obtain ⟨t, h1, h2, _⟩ := C72_table 8 none (some exCColors) [] _ rfl exCDenotes
  unfold exCTable
  rw [h1]
  exact h2

/-- `d/x.c`, a regular file. -/
def exCFile : Ftw where
  path := [100, 47, 120, 46, 99]
  nameoff := 2
  depth := 1
  type := .reg
  flags := .nofollow
  atCwd := true
  typeOf _ := .reg
  statOf _ := some ⟨.reg, 0o644, 1⟩
  caps := false
  access := true
  statAt _ _ := none
  target := none

/-- `d/f/y` as the target of a link, where `d/f` is a regular file and thus `d/f/y` does not exist. -/
def exCLink : Ftw where
  path := [108]
  nameoff := 0
  depth := 0
  type := .lnk
  flags := .nofollow
  atCwd := true
  typeOf
    | .follow => .error
    | _ => .lnk
  statOf
    | .follow => none
    | _ => some ⟨.lnk, 0o777, 1⟩
  caps := false
  access := false
  statAt _ p := if p = [100, 47, 102] then some ⟨.reg, 0o755, 1⟩ else if p = [100, 47] ∨ p = [100] then some ⟨.dir, 0o755, 2⟩ else none
  target := some [100, 47, 102, 47, 121]

theorem exCFile_framed : exCFile.Framed := by
  refine C72_framed (Path.childBuf (Path.rootBuf [100]) [120, 46, 99]) (.child _ _ (.root _ (by simp)) (by simp) (by decide)) _ ?_ ?_ ?_ <;> decide

/-- `${bld}x%%${rs} %pP` and `%pL`: the directory and the name have their own colors, as have the three
parts of the broken target: `d/` is a directory, `f` is executable, and `/y` is missing. -/
example : cvbuff cLocale (some exCTable) ⟨[], false, []⟩ (render [.color .bld, .lit [120], .percent, .reset, .lit [32], .P]) [.ftw exCFile] =
    .ok (⟨[27, 91, 48, 49, 59, 51, 57, 109, 120, 37, 27, 91, 48, 109, 32,
      27, 91, 51, 52, 109, 100, 47, 27, 91, 48, 109, 27, 91, 51, 53, 109, 120, 46, 99, 27, 91, 48, 109], false, []⟩, true) := by
  decide +kernel

example : cvbuff cLocale (some exCTable) ⟨[], false, []⟩ (render [.L]) [.ftw exCLink] =
    .ok (⟨[27, 91, 51, 52, 109, 100, 47, 27, 91, 48, 109, 27, 91, 48, 49, 59, 51, 50, 109, 102, 27, 91, 48, 109,
      27, 91, 52, 49, 109, 47, 121, 27, 91, 48, 109], false, []⟩, true) := by
  decide +kernel

example : ∃ b', cvbuff cLocale (some exCTable) ⟨[], false, []⟩ (render [.color .bld, .P, .reset]) [.ftw exCFile] = .ok (b', true) := by
  obtain ⟨b', ok, h1, _, h3⟩ := C71_format cLocale (some exCTable) (fun x hx => by cases hx; exact exCTable_good)
    [.color .bld, .P, .reset] [.ftw exCFile] _ (by simp [Dir.Ok]) (by simpa [Arg.Ok] using exCFile_framed) rfl ⟨[], false, []⟩
  have := h3 (by simp) (by simp)
  subst this
  exact ⟨b', h1⟩

/-- The colors of that format are ended by it. -/
example : Closed [.color .bld, .P, .reset] := by
  intro a f b h
  match a, h with
  | [], h => injection h with _ h; rw [← h]; simp
  | [_], h => simp at h
  | [_, _], h => simp at h
  | _ :: _ :: _ :: a, h => simp at h

/-- The text of `d/x.c` in colors is `d/x.c`. -/
example : textOf (pathMeaning cLocale (some exCTable) exCFile) = [100, 47, 120, 46, 99] :=
  (C72_text cLocale (some exCTable) exCFile exCFile_framed (by decide)).1

/-- `%pe` shows `(-a (-n "x "))`. -/
example : cvbuff cLocale none ⟨[], false, []⟩ (render [.e])
    [.expr (some (.mk .red [[45, 97]] [[], [], [], []] [.mk .blu [[45, 110], [120, 32]] [[], [], [], []] []]))] =
    .ok (⟨[40, 45, 97, 32, 40, 45, 110, 32, 34, 120, 32, 34, 41, 41], false, []⟩, true) := by
  decide +kernel

end Verif.Props
