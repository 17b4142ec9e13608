import Verif.Model.Bar
import Verif.Spec.Bar
import Verif.Lemmas.Cfmt
/-! Lemmas about the status bar. -/
namespace Verif.Bar
open Verif.Spec.Bar
open Verif.Num (Digits)

/-! ## Numbers -/

theorem digs_ok' : ∀ f n, 0 < f → n < 10 ^ f → Digits 10 (Cfmt.digs 10 f n) n
  | 0, _, h, _ => absurd h (by omega)
  | f + 1, n, _, h => by
    unfold Cfmt.digs
    by_cases hn : n < 10
    · rw [if_pos hn]
      exact .one _ _ (by simp; omega) hn
    · rw [if_neg hn]
      have hf : 0 < f := by
        rcases Nat.eq_zero_or_pos f with h0 | h0
        · subst h0; simp at h; omega
        · exact h0
      have e : n = 10 * (n / 10) + n % 10 := by omega
      have := Digits.more _ _ (UInt8.ofNat (48 + n % 10)) (n % 10) (digs_ok' f (n / 10) hf (Nat.div_lt_of_lt_mul (by rw [Nat.pow_succ] at h; omega)))
        (by simp; omega) (Nat.mod_lt _ (by omega))
      rw [← e] at this
      exact this

theorem digs_len : ∀ f n, (Cfmt.digs 10 f n).length ≤ f
  | 0, _ => by simp [Cfmt.digs]
  | f + 1, n => by
    unfold Cfmt.digs
    split
    · simp
    · have := digs_len f (n / 10)
      simp
      omega

theorem itoaLoop_eq : ∀ (f g : Nat) (buf : Bytes) (c n : Nat), n < 10 ^ (g + 1) → g + 1 ≤ f → g + 1 ≤ c → c ≤ buf.length →
    itoaLoop f buf c n = .ok (buf.take (c - (Cfmt.digs 10 (g + 1) n).length) ++ Cfmt.digs 10 (g + 1) n ++ buf.drop c, c - (Cfmt.digs 10 (g + 1) n).length) := by
  intro f
  induction f with
  | zero => intro g buf c n _ hf; omega
  | succ f ih =>
    intro g buf c n hn hf hc hb
    have hc0 : c ≠ 0 := by omega
    have hs : c - 1 < buf.length := by omega
    have e : itoaLoop (f + 1) buf c n =
        if n / 10 = 0 then .ok (buf.set (c - 1) (UInt8.ofNat (48 + n % 10)), c - 1) else itoaLoop f (buf.set (c - 1) (UInt8.ofNat (48 + n % 10))) (c - 1) (n / 10) := by
      rw [itoaLoop, if_neg hc0, store, if_pos hs]
      rfl
    have hset : ∀ x : UInt8, buf.set (c - 1) x = buf.take (c - 1) ++ [x] ++ buf.drop c := by
      intro x
      rw [List.set_eq_take_append_cons_drop, if_pos hs]
      simp [show c - 1 + 1 = c by omega]
    rw [e]
    by_cases h : n / 10 = 0
    · rw [if_pos h]
      have hd : Cfmt.digs 10 (g + 1) n = [UInt8.ofNat (48 + n)] := by
        unfold Cfmt.digs
        rw [if_pos (by omega)]
      rw [hd, show n % 10 = n by omega, hset]
      rfl
    · rw [if_neg h]
      have hg : 1 ≤ g := by
        rcases Nat.eq_zero_or_pos g with h0 | h0
        · subst h0; simp at hn; omega
        · exact h0
      obtain ⟨g', rfl⟩ : ∃ g', g = g' + 1 := ⟨g - 1, by omega⟩
      rw [ih g' _ (c - 1) (n / 10) (Nat.div_lt_of_lt_mul (by rw [Nat.pow_succ] at hn; omega)) (by omega) (by omega) (by simp; omega)]
      have hd : Cfmt.digs 10 (g' + 1 + 1) n = Cfmt.digs 10 (g' + 1) (n / 10) ++ [UInt8.ofNat (48 + n % 10)] := by
        rw [Cfmt.digs, if_neg (by omega)]
      have hl := digs_len (g' + 1) (n / 10)
      rw [hd, List.length_append, List.length_singleton, hset]
      have ec : c - ((Cfmt.digs 10 (g' + 1) (n / 10)).length + 1) = c - 1 - (Cfmt.digs 10 (g' + 1) (n / 10)).length := by omega
      rw [ec]
      congr 1
      congr 1
      generalize Cfmt.digs 10 (g' + 1) (n / 10) = D at *
      have e1 : (buf.take (c - 1) ++ [UInt8.ofNat (48 + n % 10)] ++ buf.drop c).take (c - 1 - D.length) = buf.take (c - 1 - D.length) := by
        rw [List.append_assoc, List.take_append_of_le_length (by simp; omega), List.take_take]
        congr 1
        omega
      have e2 : (buf.take (c - 1) ++ [UInt8.ofNat (48 + n % 10)] ++ buf.drop c).drop (c - 1) = UInt8.ofNat (48 + n % 10) :: buf.drop c := by
        rw [List.append_assoc, List.drop_append_of_le_length (by simp; omega)]
        simp
      rw [e1, e2]
      simp

/-- What `ass_itoa()` leaves in an array with room: digits, and more bytes after them. -/
theorem assItoa_eq (a rest : Bytes) (n : Nat) (hn : n < 10 ^ 6) (hr : 7 ≤ rest.length) :
    ∃ ds junk : Bytes, Digits 10 ds n ∧ ds.length ≤ 6 ∧ junk.length + ds.length = rest.length ∧ assItoa (a ++ rest) a.length n = .ok (a ++ ds ++ junk, a.length + ds.length) := by
  have hd := digs_ok' 6 n (by omega) hn
  have hl := digs_len 6 n
  have hs : a.length + itoaDigits < (a ++ rest).length := by simp [itoaDigits]; omega
  have h1 := itoaLoop_eq 20 5 ((a ++ rest).set (a.length + itoaDigits) 0) (a.length + itoaDigits) n hn (by omega) (by simp [itoaDigits]) (by simp; simp [itoaDigits]; omega)
  generalize Cfmt.digs 10 (5 + 1) n = D at *
  have hi : itoaDigits = 6 := rfl
  rw [hi] at hs h1
  have hset : (a ++ rest).set (a.length + 6) 0 = a ++ rest.set 6 0 := by
    rw [List.set_append_right _ _ (by omega)]
    simp
  rw [hset] at h1
  have et : (a ++ rest.set 6 0).take (a.length + 6 - D.length) = a ++ (rest.set 6 0).take (6 - D.length) := by
    rw [show a.length + 6 - D.length = a.length + (6 - D.length) by omega, List.take_length_add_append]
  have ed : (a ++ rest.set 6 0).drop (a.length + 6) = 0 :: rest.drop 7 := by
    rw [List.drop_append]
    simp
    rw [List.set_eq_take_append_cons_drop, if_pos (by omega), List.drop_append_of_le_length (by simp; omega)]
    simp
  rw [et, ed] at h1
  refine ⟨D, [0] ++ ((a ++ (rest.set 6 0).take (6 - D.length) ++ D ++ 0 :: rest.drop 7).drop (a.length + (D.length + 1))), hd, hl, ?_, ?_⟩
  · simp
    omega
  · unfold assItoa
    rw [hi, store, if_pos hs]
    show (itoaLoop 20 ((a ++ rest).set (a.length + 6) 0) (a.length + 6) n).bind _ = _
    rw [hset, h1]
    show (memmove _ a.length _ _).bind _ = _
    dsimp only
    have el : (a ++ (rest.set 6 0).take (6 - D.length) ++ D ++ 0 :: rest.drop 7).length = a.length + rest.length := by
      simp; omega
    have ek : a.length + 6 - (a.length + 6 - D.length) = D.length := by omega
    rw [ek, memmove, el, if_pos ⟨by omega, by omega⟩]
    show Out.ok _ = _
    congr 1
    congr 1
    have e1 : (a ++ (rest.set 6 0).take (6 - D.length) ++ D ++ 0 :: rest.drop 7).take a.length = a := by
      rw [List.append_assoc, List.append_assoc, List.take_append_of_le_length (by omega), List.take_length]
    have e2 : ((a ++ (rest.set 6 0).take (6 - D.length) ++ D ++ 0 :: rest.drop 7).drop (a.length + 6 - D.length)).take (D.length + 1) = D ++ [0] := by
      rw [List.append_assoc, List.drop_append_of_le_length (by simp; omega), List.drop_of_length_le (by simp; omega), List.nil_append,
        show D ++ 0 :: rest.drop 7 = (D ++ [0]) ++ rest.drop 7 by simp, List.take_append_of_le_length (by simp)]
      exact List.take_of_length_le (by simp)
    rw [e1, e2]
    simp only [List.append_assoc]

theorem resize_small {b : Bar} (h : b.height < 3) (junk : UInt8) : resize junk b = .ok reset := if_pos h

theorem resize_eq (b : Bar) (junk : UInt8) (h : 3 ≤ b.height) (hb : b.height < 65536) :
    ∃ ds, Digits 10 ds (b.height - 1) ∧ resize junk b = .ok (prefix_ ++ ds ++ suffix_) := by
  obtain ⟨ds, more, hd, hl, hm, he⟩ := assItoa_eq prefix_ ([0] ++ List.replicate 13 junk) (b.height - 1) (by omega) (by simp)
  refine ⟨ds, hd, ?_⟩
  unfold resize
  rw [if_neg (by unfold minHeight; omega)]
  have e1 : stpcpy (List.replicate (prefix_.length + 1 + itoaDigits + (suffix_.length + 1)) junk) 0 prefix_ = .ok (prefix_ ++ ([0] ++ List.replicate 13 junk), prefix_.length) := by
    rfl
  rw [e1]
  show (assItoa _ _ _).bind _ = _
  dsimp only
  rw [he]
  show (stpcpy _ _ _).bind _ = _
  dsimp only
  have hp : prefix_.length = 11 := rfl
  have hs : suffix_.length = 6 := rfl
  simp at hm
  unfold stpcpy
  rw [if_pos (by simp only [List.length_append, hp, hs]; omega)]
  show Out.ok _ = _
  congr 1
  have e2 : (prefix_ ++ ds ++ more).take (prefix_.length + ds.length) = prefix_ ++ ds := by
    rw [List.take_append_of_le_length (by simp)]
    exact List.take_of_length_le (by simp)
  rw [e2]
  rw [List.append_assoc (prefix_ ++ ds ++ suffix_), List.take_append_of_le_length (by simp; omega), List.take_of_length_le (by simp; omega)]
/-! ## The terminal -/

theorem run_append (t : Term) (a b : Bytes) : run t (a ++ b) = run (run t a) b := by simp [run]

theorem run_cons (t : Term) (c : UInt8) (b : Bytes) : run t (c :: b) = run (feed t c) b := rfl

theorem run_save (t : Term) (h : t.mode = .ground) : run t [27, 55] = { t with saved := (t.cursor, t.rev) } := by
  cases t; cases h; rfl

theorem run_restore (t : Term) (h : t.mode = .ground) : run t [27, 56] = { t with cursor := t.saved.1, rev := t.saved.2 } := by
  cases t; cases h; rfl

theorem index_setMode (t : Term) (m : Mode) : index { t with mode := m } = { index t with mode := m } := by
  unfold index
  dsimp only
  split
  · rfl
  · split <;> rfl

theorem run_index (t : Term) (h : t.mode = .ground) : run t [27, 68] = index t := by
  obtain ⟨rows, cols, cells, history, cursor, rev, bot, saved, mode⟩ := t
  cases h
  show { index { (⟨rows, cols, cells, history, cursor, rev, bot, saved, .ground⟩ : Term) with mode := .esc } with mode := Mode.ground } = _
  rw [index_setMode]
  show _ = index { (⟨rows, cols, cells, history, cursor, rev, bot, saved, .ground⟩ : Term) with mode := .ground }
  rw [index_setMode]

theorem run_up (t : Term) (h : t.mode = .ground) : run t [27, 91, 49, 65] = { t with cursor := { t.cursor with row := t.cursor.row - 1, wrap := false } } := by
  cases t; cases h; rfl

theorem run_erase (t : Term) (h : t.mode = .ground) : run t [27, 91, 74] = eraseBelow t := by
  cases t; cases h; rfl

theorem run_eraseLine (t : Term) (h : t.mode = .ground) : run t [27, 91, 75] = eraseLine t := by
  cases t; cases h; rfl

theorem run_region (t : Term) (h : t.mode = .ground) : run t [27, 91, 114] = { t with bot := t.rows - 1, cursor := ⟨0, 0, false⟩ } := by
  cases t; cases h; rfl

theorem run_reverse (t : Term) (h : t.mode = .ground) : run t [27, 91, 55, 109] = { t with rev := true } := by
  cases t; cases h; rfl

theorem run_plain (t : Term) (h : t.mode = .ground) : run t [27, 91, 50, 55, 109] = { t with rev := false } := by
  cases t; cases h; rfl

theorem feed_digit (t : Term) (done : List Nat) (cur d : Nat) (c : UInt8) (h : t.mode = .csi done cur) (hc : c.toNat = 48 + d) (hd : d < 10) :
    feed t c = { t with mode := .csi done (10 * cur + d) } := by
  have h1 : 48 ≤ c ∧ c ≤ 57 := by
    rw [UInt8.le_iff_toNat_le, UInt8.le_iff_toNat_le, hc]
    exact ⟨by show 48 ≤ 48 + d; omega, by show 48 + d ≤ 57; omega⟩
  unfold feed
  rw [h]
  dsimp only
  rw [if_pos h1, hc, Nat.add_sub_cancel_left]

theorem run_digits {ds : Bytes} {n : Nat} (h : Digits 10 ds n) : ∀ (t : Term) (done : List Nat), t.mode = .csi done 0 →
    run t ds = { t with mode := .csi done n } := by
  induction h with
  | one c d hc hd =>
    intro t done ht
    rw [run_cons, feed_digit t done 0 d c ht hc hd]
    simp [run]
  | more s n c d _ hc hd ih =>
    intro t done ht
    rw [run_append, ih t done ht, run_cons, feed_digit _ done n d c rfl hc hd]
    rfl

theorem run_reset (t : Term) (h : t.mode = .ground) :
    run t reset = eraseBelow { t with bot := t.rows - 1, saved := (t.cursor, t.rev) } := by
  unfold reset
  rw [run_append, run_append, run_append, run_save t h, run_region _ (by exact h), run_restore _ (by exact h), run_erase _ (by exact h)]

theorem index_mode (t : Term) : (index t).mode = t.mode := by
  unfold index
  split
  · rfl
  · split <;> rfl

theorem index_rows (t : Term) : (index t).rows = t.rows := by
  unfold index
  split
  · rfl
  · split <;> rfl

/-- What is left after the region is set, before the rest is erased. -/
def shrunk (t : Term) (h : Nat) : Term :=
  { index t with
    cursor := { (index t).cursor with row := (index t).cursor.row - 1, wrap := false }
    bot := h - 2
    saved := ({ (index t).cursor with row := (index t).cursor.row - 1, wrap := false }, (index t).rev) }

theorem run_resize (t : Term) (h : t.mode = .ground) (height : Nat) (h3 : 3 ≤ height) (hr : height ≤ t.rows) {ds : Bytes} (hd : Digits 10 ds (height - 1)) :
    run t (prefix_ ++ ds ++ suffix_) = eraseBelow (shrunk t height) := by
  have hm : (index t).mode = .ground := (index_mode t).trans h
  have e : prefix_ ++ ds ++ suffix_ = [27, 68] ++ ([27, 91, 49, 65] ++ ([27, 55] ++ ([27, 91, 59] ++ (ds ++ ([114] ++ ([27, 56] ++ [27, 91, 74])))))) := by
    simp [prefix_, suffix_]
  rw [e, run_append, run_append, run_append, run_append, run_append, run_append, run_append, run_index t h, run_up _ hm, run_save _ (by exact hm)]
  have e1 : ∀ u : Term, u.mode = .ground → run u [27, 91, 59] = { u with mode := .csi [0] 0 } := by
    intro u hu
    cases u; cases hu; rfl
  rw [e1 _ (by exact hm), run_digits hd _ [0] (by rfl)]
  have e2 : ∀ u : Term, u.mode = .csi [0] (height - 1) → height ≤ u.rows → run u [114] = { u with bot := height - 2, cursor := ⟨0, 0, false⟩, mode := .ground } := by
    intro u hu hr
    show feed u 114 = _
    unfold feed
    rw [hu]
    show { (if height - 1 = 0 ∨ u.rows < height - 1 then _ else if height - 1 = 1 then u else { u with bot := height - 1 - 1, cursor := ⟨0, 0, false⟩ }) with mode := Mode.ground } = _
    rw [if_neg (by omega), if_neg (by omega)]
    rfl
  rw [e2 _ (by rfl) (by show height ≤ (index t).rows; rw [index_rows]; exact hr)]
  rw [run_restore _ (by rfl), run_erase _ (by rfl)]
  congr 1
  unfold shrunk
  cases hi : index t
  rw [hi] at hm
  cases hm
  rfl

/-! ## The bar's row -/

/-- Nothing but the last row differs. -/
structure Lower (t u : Term) : Prop where
  rows : u.rows = t.rows
  cols : u.cols = t.cols
  cells : ∀ r c, r + 1 < t.rows → u.cells r c = t.cells r c
  history : u.history = t.history
  bot : u.bot = t.bot
  saved : u.saved = t.saved
  rev : u.rev = t.rev
  row : u.cursor.row + 1 = t.rows
  mode : u.mode = .ground

theorem lower_index {t u : Term} (h : Lower t u) (hb : t.bot + 1 < t.rows) : Lower t (index u) := by
  have e : index u = { u with cursor := { u.cursor with wrap := false } } := by
    unfold index
    rw [if_neg (by have := h.row; have := h.bot; omega), if_neg (by have := h.row; have := h.rows; omega)]
  rw [e]
  exact ⟨h.rows, h.cols, h.cells, h.history, h.bot, h.saved, h.rev, h.row, h.mode⟩

theorem lower_home {t u : Term} (h : Lower t u) : Lower t (home u) :=
  ⟨h.rows, h.cols, h.cells, h.history, h.bot, h.saved, h.rev, h.row, h.mode⟩

theorem lower_place {t u : Term} (h : Lower t u) (b : UInt8) : Lower t (place u b) := by
  refine ⟨h.rows, h.cols, ?_, h.history, h.bot, h.saved, h.rev, ?_, h.mode⟩
  · intro r c hr
    show (if r = u.cursor.row ∧ c = u.cursor.col then _ else _) = _
    rw [if_neg (by have := h.row; omega)]
    exact h.cells r c hr
  · unfold place
    dsimp only
    split <;> exact h.row

theorem lower_feed {t u : Term} (h : Lower t u) (hb : t.bot + 1 < t.rows) (b : UInt8) (hne : b ≠ 27) : Lower t (feed u b) := by
  unfold feed
  rw [h.mode]
  dsimp only
  rw [if_neg hne]
  split
  · exact lower_index (lower_home h) hb
  · split
    · exact lower_index h hb
    · split
      · exact lower_home h
      · split
        · exact h
        · unfold text
          apply lower_place
          split
          · exact lower_index (lower_home h) hb
          · exact h

theorem lower_run {t : Term} (hb : t.bot + 1 < t.rows) : ∀ (s : Bytes) {u : Term}, Lower t u → (27 : UInt8) ∉ s → Lower t (run u s)
  | [], _, h, _ => h
  | b :: s, u, h, hs => by
    rw [run_cons]
    exact lower_run hb s (lower_feed h hb b (by intro e; exact hs (by simp [e]))) (by intro e; exact hs (by simp [e]))

/-- The last row, empty, with the cursor at its beginning, in reverse video. -/
def barRow (t : Term) : Term :=
  { t with
    cells := fun r c => if r = t.rows - 1 ∧ 0 ≤ c then blank else t.cells r c
    cursor := ⟨t.rows - 1, 0, false⟩
    rev := true
    saved := (t.cursor, t.rev) }

theorem run_update (t : Term) (h : t.mode = .ground) (hr : 3 ≤ t.rows) (hc : 0 < t.cols) (b : Bar) (hh : b.height = t.rows) (s : Bytes) :
    run t (update b s) = run (run (run (barRow t) s) [27, 91, 50, 55, 109]) [27, 56] := by
  unfold update
  rw [if_neg (by unfold minHeight; omega)]
  rw [run_append, run_append, run_append, run_append, run_append, run_append, run_append, run_append, run_save t h]
  have e1 : ∀ u : Term, u.mode = .ground → run u [27, 91] = { u with mode := .csi [] 0 } := by
    intro u hu
    cases u; cases hu; rfl
  rw [e1 _ (by exact h), run_digits (Cfmt.numeral_ok 10 b.height (by omega) (by omega)) _ [] (by rfl)]
  have e2 : ∀ u : Term, u.mode = .csi [] b.height → run u [59, 48, 102] = { u with cursor := ⟨line u.rows b.height, line u.cols 0, false⟩, mode := .ground } := by
    intro u hu
    cases u; cases hu; rfl
  rw [e2 _ (by rfl), run_eraseLine _ (by rfl), run_reverse _ (by rfl)]
  congr 3
  unfold eraseLine barRow line
  have e3 : min (t.rows - 1) (b.height - 1) = t.rows - 1 := by omega
  have e4 : min (t.cols - 1) (0 - 1) = 0 := by omega
  dsimp only
  rw [e3, e4]
  cases t
  cases h
  rfl

theorem lower_bar (t : Term) (h : t.mode = .ground) (hr : 0 < t.rows) : Lower { t with saved := (t.cursor, t.rev), rev := true } (barRow t) := by
  refine ⟨rfl, rfl, ?_, rfl, rfl, rfl, rfl, ?_, h⟩
  · intro r c hlt
    show (if _ then _ else _) = _
    rw [if_neg (by show ¬ (r = t.rows - 1 ∧ 0 ≤ c); have : r + 1 < t.rows := hlt; omega)]
  · show t.rows - 1 + 1 = t.rows
    omega

/-- Updating the bar changes nothing but the last row (and the saved cursor). -/
theorem update_keeps (t : Term) (h : t.mode = .ground) (hr : 3 ≤ t.rows) (hc : 0 < t.cols) (hb : t.bot + 1 < t.rows) (b : Bar) (hh : b.height = t.rows) (s : Bytes) (hs : (27 : UInt8) ∉ s) :
    ∃ cells, (∀ r c, r + 1 < t.rows → cells r c = t.cells r c) ∧
      run t (update b s) = { t with cells := cells, saved := (t.cursor, t.rev) } ∧ (∀ c, cells (t.rows - 1) c = (run (barRow t) s).cells (t.rows - 1) c) := by
  have hl := lower_run (t := { t with saved := (t.cursor, t.rev), rev := true }) hb s (lower_bar t h (by omega)) hs
  rw [run_update t h hr hc b hh s]
  generalize run (barRow t) s = u at hl
  refine ⟨u.cells, hl.cells, ?_, fun _ => rfl⟩
  rw [run_plain _ hl.mode, run_restore _ (by exact hl.mode)]
  obtain ⟨rows, cols, cells, history, cursor, rev, bot, saved, mode⟩ := u
  have h1 := hl.rows; have h2 := hl.cols; have h3 := hl.history; have h4 := hl.bot; have h5 := hl.saved; have h6 := hl.mode
  dsimp only at h1 h2 h3 h4 h5 h6
  subst h1 h2 h3 h4 h5 h6
  rw [← h]

/-- Text shows up. -/
theorem bar_text (t : Term) : ∀ (s p : Bytes) (u : Term), (∀ c ∈ s, 32 ≤ c ∧ c ≠ 127) → p.length + s.length ≤ t.cols → u.cols = t.cols → u.mode = .ground → u.rev = true →
    u.cursor = (if p.length < t.cols then ⟨t.rows - 1, p.length, false⟩ else ⟨t.rows - 1, t.cols - 1, true⟩) →
    (∀ c, u.cells (t.rows - 1) c = match p[c]? with | some b => ⟨b, true⟩ | none => blank) →
    (∀ c, (run u s).cells (t.rows - 1) c = match (p ++ s)[c]? with | some b => ⟨b, true⟩ | none => blank)
  | [], p, u, _, _, _, _, _, _, hcells => by
    intro c
    rw [List.append_nil]
    exact hcells c
  | b :: s, p, u, hs, hlen, hcols, hmode, hrev, hcur, hcells => by
    have hp : p.length < t.cols := by simp at hlen; omega
    rw [if_pos hp] at hcur
    have hb := hs b (by simp)
    have e : feed u b = place u b := by
      unfold feed
      rw [hmode]
      dsimp only
      have h32 : ¬ b < 32 := by rw [UInt8.not_lt]; exact hb.1
      have k : ∀ x : UInt8, x < 32 → b ≠ x := by
        intro x hx e
        subst e
        exact h32 hx
      rw [if_neg (k _ (by decide)), if_neg (k _ (by decide)), if_neg (by simp [k 11 (by decide), k 12 (by decide)]), if_neg (k _ (by decide)), if_neg (by simp [h32, hb.2])]
      unfold text
      rw [hcur]
      rfl
    rw [run_cons, e]
    have := bar_text t s (p ++ [b]) (place u b) (fun c hc => hs c (by simp [hc])) (by simp at *; omega) hcols hmode hrev ?_ ?_
    · intro c
      rw [this c]
      simp
    · unfold place
      dsimp only
      rw [hcur, hcols]
      dsimp only
      simp only [List.length_append, List.length_singleton]
      split
      · rfl
      · congr 1
        omega
    · intro c
      show (if t.rows - 1 = u.cursor.row ∧ c = u.cursor.col then (⟨b, u.rev⟩ : Cell) else u.cells (t.rows - 1) c) = _
      rw [hcur, hrev]
      dsimp only
      by_cases hc : c = p.length
      · subst hc
        simp
      · rw [if_neg (by simp [hc]), hcells c]
        by_cases hlt : c < p.length
        · rw [List.getElem?_append_left hlt]
        · rw [List.getElem?_append_right (by omega), List.getElem?_eq_none (by omega), List.getElem?_eq_none (by simp; omega)]

/-! ## Output above the bar -/

/-- The program's terminal above the bar, and one without the bar. -/
structure Same (t u : Term) : Prop where
  rows : t.rows = u.rows + 1
  cols : t.cols = u.cols
  cells : ∀ r c, r < u.rows → t.cells r c = u.cells r c
  history : t.history = u.history
  cursor : t.cursor = u.cursor
  rev : t.rev = u.rev
  bot : t.bot = u.bot
  end_ : u.bot + 1 = u.rows
  row : u.cursor.row ≤ u.bot
  mode : t.mode = u.mode

theorem same_index {t u : Term} (h : Same t u) : Same (index t) (index u) := by
  unfold index
  have hr := h.row
  have he := h.end_
  have hrows := h.rows
  rw [h.cursor, h.bot]
  by_cases hb : u.cursor.row = u.bot
  · rw [if_pos hb, if_pos hb]
    refine ⟨h.rows, h.cols, ?_, ?_, rfl, h.rev, h.bot, h.end_, h.row, h.mode⟩
    · intro r c hlt
      show (if r < t.bot then t.cells (r + 1) c else if r = t.bot then blank else t.cells r c) = (if r < u.bot then u.cells (r + 1) c else if r = u.bot then blank else u.cells r c)
      have hlt : r < u.rows := hlt
      rw [h.bot]
      split
      · exact h.cells _ _ (by omega)
      · split
        · rfl
        · exact h.cells _ _ hlt
    · show t.history ++ [t.cells 0] = u.history ++ [u.cells 0]
      rw [h.history]
      congr 2
      funext c
      exact h.cells 0 c (by omega)
  · rw [if_neg hb, if_neg hb, if_pos (by omega), if_pos (by omega)]
    exact ⟨h.rows, h.cols, h.cells, h.history, rfl, h.rev, rfl, h.end_, by show u.cursor.row + 1 ≤ u.bot; omega, h.mode⟩

theorem same_home {t u : Term} (h : Same t u) : Same (home t) (home u) :=
  ⟨h.rows, h.cols, h.cells, h.history, by unfold home; rw [h.cursor], h.rev, h.bot, h.end_, h.row, h.mode⟩

theorem same_place {t u : Term} (h : Same t u) (b : UInt8) : Same (place t b) (place u b) := by
  refine ⟨h.rows, h.cols, ?_, h.history, ?_, h.rev, h.bot, h.end_, ?_, h.mode⟩
  · intro r c hlt
    show (if r = t.cursor.row ∧ c = t.cursor.col then (⟨b, t.rev⟩ : Cell) else t.cells r c) = (if r = u.cursor.row ∧ c = u.cursor.col then (⟨b, u.rev⟩ : Cell) else u.cells r c)
    rw [h.cursor, h.rev, h.cells r c hlt]
  · unfold place
    dsimp only
    rw [h.cursor, h.cols]
  · unfold place
    dsimp only
    split <;> exact h.row

theorem same_text {t u : Term} (h : Same t u) (b : UInt8) : Same (text t b) (text u b) := by
  unfold text
  apply same_place
  rw [h.cursor]
  split
  · exact same_index (same_home h)
  · exact h

theorem same_mode {t u : Term} (h : Same t u) (m : Mode) : Same { t with mode := m } { u with mode := m } :=
  ⟨h.rows, h.cols, h.cells, h.history, h.cursor, h.rev, h.bot, h.end_, h.row, rfl⟩

theorem same_sgr {t u : Term} (h : Same t u) (n : Nat) : Same (sgr t n) (sgr u n) := by
  unfold sgr
  split
  · exact ⟨h.rows, h.cols, h.cells, h.history, h.cursor, rfl, h.bot, h.end_, h.row, h.mode⟩
  · split
    · exact ⟨h.rows, h.cols, h.cells, h.history, h.cursor, rfl, h.bot, h.end_, h.row, h.mode⟩
    · exact h

theorem same_sgrs : ∀ (ns : List Nat) {t u : Term}, Same t u → Same (ns.foldl sgr t) (ns.foldl sgr u)
  | [], _, _, h => h
  | n :: ns, _, _, h => same_sgrs ns (same_sgr h n)

/-- The numbers of a color keep the terminal waiting. -/
theorem same_params : ∀ (s : Bytes) {t u : Term} {d : List Nat} {k : Nat}, (∀ c ∈ s, (48 ≤ c ∧ c ≤ 57) ∨ c = 59) → Same t u → u.mode = .csi d k →
    Same (run t s) (run u s) ∧ ∃ d k, (run u s).mode = .csi d k
  | [], _, _, d, k, _, h, hm => ⟨h, d, k, hm⟩
  | c :: s, t, u, d, k, hs, h, hm => by
    rw [run_cons, run_cons]
    have ht := h.mode.trans hm
    have key : ∃ d' k', feed t c = { t with mode := .csi d' k' } ∧ feed u c = { u with mode := .csi d' k' } := by
      unfold feed
      rw [ht, hm]
      dsimp only
      by_cases hd : 48 ≤ c ∧ c ≤ 57
      · rw [if_pos hd, if_pos hd]
        exact ⟨_, _, rfl, rfl⟩
      · have e : c = 59 := (hs c (by simp)).resolve_left hd
        rw [if_neg hd, if_neg hd, if_pos e, if_pos e]
        exact ⟨_, _, rfl, rfl⟩
    obtain ⟨d', k', e1, e2⟩ := key
    rw [e1, e2]
    exact same_params s (d := d') (k := k') (fun c hc => hs c (by simp [hc])) (same_mode h _) rfl

theorem same_piece {t u : Term} (h : Same t u) (hm : u.mode = .ground) (p : Piece) : Same (run t p.bytes) (run u p.bytes) ∧ (run u p.bytes).mode = .ground := by
  have ht := h.mode.trans hm
  cases p with
  | char b hb =>
    have e : ∀ v : Term, v.mode = .ground → run v [b] = text v b := by
      intro v hv
      show feed v b = _
      unfold feed
      rw [hv]
      dsimp only
      have h32 : ¬ b < 32 := by rw [UInt8.not_lt]; exact hb.1
      have k : ∀ x : UInt8, x < 32 → b ≠ x := by
        intro x hx e
        subst e
        exact h32 hx
      rw [if_neg (k _ (by decide)), if_neg (k _ (by decide)), if_neg (by simp [k 11 (by decide), k 12 (by decide)]), if_neg (k _ (by decide)), if_neg (by simp [h32, hb.2])]
    show Same (run t [b]) (run u [b]) ∧ (run u [b]).mode = .ground
    rw [e t ht, e u hm]
    refine ⟨same_text h b, ?_⟩
    unfold text place
    dsimp only
    split
    · exact (index_mode _).trans hm
    · exact hm
  | newline =>
    have e : ∀ v : Term, v.mode = .ground → run v [10] = index (home v) := by
      intro v hv
      show feed v 10 = _
      unfold feed
      rw [hv]
      rfl
    show Same (run t [10]) (run u [10]) ∧ (run u [10]).mode = .ground
    rw [e t ht, e u hm]
    exact ⟨same_index (same_home h), (index_mode _).trans hm⟩
  | color s hs =>
    have e1 : ∀ v : Term, v.mode = .ground → run v [27, 91] = { v with mode := .csi [] 0 } := by
      intro v hv
      cases v; cases hv; rfl
    show Same (run t ([27, 91] ++ s ++ [109])) (run u ([27, 91] ++ s ++ [109])) ∧ (run u ([27, 91] ++ s ++ [109])).mode = .ground
    rw [run_append, run_append, run_append, run_append, e1 t ht, e1 u hm]
    obtain ⟨h1, d, k, h2⟩ := same_params s (d := []) (k := 0) hs (same_mode h (.csi [] 0)) rfl
    generalize run { t with mode := .csi [] 0 } s = t' at h1
    generalize run { u with mode := .csi [] 0 } s = u' at h1 h2
    have e2 : ∀ v : Term, v.mode = .csi d k → run v [109] = { (d ++ [k]).foldl sgr v with mode := .ground } := by
      intro v hv
      show feed v 109 = _
      unfold feed
      rw [hv]
      show { Spec.Bar.control v (d ++ [k]) 109 with mode := Mode.ground } = _
      rfl
    rw [e2 t' (h1.mode.trans h2), e2 u' h2]
    exact ⟨same_mode (same_sgrs _ h1) _, rfl⟩

/-! ## Showing and hiding -/

theorem index_cols (t : Term) : (index t).cols = t.cols := by
  unfold index
  split
  · rfl
  · split <;> rfl

theorem index_col (t : Term) : (index t).cursor.col = t.cursor.col := by
  unfold index
  split
  · rfl
  · split <;> rfl

theorem index_row (t : Term) (h : t.cursor.row < t.rows) : (index t).cursor.row < t.rows ∧ ((index t).cursor.row = t.cursor.row + 1 ∨ (index t).cursor.row = t.cursor.row ∧ (t.cursor.row = t.bot ∨ t.cursor.row + 1 = t.rows)) := by
  unfold index
  by_cases hb : t.cursor.row = t.bot
  · rw [if_pos hb]
    exact ⟨h, .inr ⟨rfl, .inl hb⟩⟩
  · rw [if_neg hb]
    by_cases hr : t.cursor.row + 1 < t.rows
    · rw [if_pos hr]
      exact ⟨hr, .inl rfl⟩
    · rw [if_neg hr]
      exact ⟨h, .inr ⟨rfl, .inr (by omega)⟩⟩

theorem shown_ok (t : Term) (hR : Ready t) (h3 : 3 ≤ t.rows) :
    let u := eraseBelow (shrunk t t.rows)
    Ready u ∧ u.rows = t.rows ∧ u.cols = t.cols ∧ u.bot + 2 = u.rows ∧ u.cursor.row ≤ u.bot ∧ u.cursor.wrap = false ∧ u.rev = t.rev ∧ BlankAfter u := by
  intro u
  have hrow := index_row t hR.row
  have hrow' : u.cursor.row = (index t).cursor.row - 1 := rfl
  have hbot : u.bot = t.rows - 2 := rfl
  have hrows : u.rows = t.rows := index_rows t
  have hcols : u.cols = t.cols := index_cols t
  refine ⟨⟨?_, ?_, ?_, ?_, (index_mode t).trans hR.mode⟩, hrows, hcols, by omega, by omega, rfl, ?_, ?_⟩
  · rw [hcols]; exact hR.cols
  · omega
  · rw [hcols]
    show (index t).cursor.col < t.cols
    rw [index_col]
    exact hR.col
  · omega
  · show (index t).rev = t.rev
    unfold index
    split
    · rfl
    · split <;> rfl
  · intro r c h
    show (if r = u.cursor.row ∧ u.cursor.col ≤ c ∨ u.cursor.row < r then blank else _) = blank
    rw [if_pos (by rcases h with h | h; exact .inr h; exact .inl h)]

theorem erase_lines (t : Term) : linesBefore (eraseBelow t) = linesBefore t := by
  unfold linesBefore
  show t.history ++ _ = _
  congr 1
  apply List.map_congr_left
  intro r hr
  funext c
  have hr : r < t.cursor.row := List.mem_range.1 hr
  show (if _ then _ else _) = _
  rw [if_neg (by omega)]

theorem shown_keeps (t : Term) (hR : Ready t) (hw : t.cursor.wrap = false) (hb : 0 < t.bot) (hin : t.cursor.row ≤ t.bot) (height : Nat) : Keeps t (eraseBelow (shrunk t height)) := by
  refine ⟨?_, index_col t, ?_⟩
  · rw [erase_lines]
    unfold linesBefore shrunk index
    by_cases h : t.cursor.row = t.bot
    · rw [if_pos h]
      show (t.history ++ [t.cells 0]) ++ (List.range (t.cursor.row - 1)).map (fun r c => if r < t.bot then t.cells (r + 1) c else if r = t.bot then blank else t.cells r c) = _
      obtain ⟨k, hk⟩ : ∃ k, t.cursor.row = k + 1 := ⟨t.cursor.row - 1, by omega⟩
      rw [hk, List.range_succ_eq_map, List.map_cons, List.map_map, List.append_assoc]
      congr 1
      show t.cells 0 :: _ = _
      congr 1
      apply List.map_congr_left
      intro r hr
      have hr : r < k := by simpa using hr
      funext c
      show (if r < t.bot then t.cells (r + 1) c else _) = t.cells (r + 1) c
      rw [if_pos (by omega)]
    · rw [if_neg h, if_pos (by have := hR.bot; omega)]
      rfl
  · intro c hc
    rcases hc with hc | ⟨h, _⟩
    · have e : (eraseBelow (shrunk t height)).cells (eraseBelow (shrunk t height)).cursor.row c = (index t).cells ((index t).cursor.row - 1) c := by
        show (if _ then _ else _) = _
        rw [if_neg]
        · rfl
        · rintro (⟨_, h⟩ | h)
          · have : (index t).cursor.col ≤ c := h
            rw [index_col] at this
            omega
          · exact absurd h (Nat.lt_irrefl _)
      rw [e]
      unfold index
      by_cases h : t.cursor.row = t.bot
      · rw [if_pos h]
        show (if t.cursor.row - 1 < t.bot then t.cells (t.cursor.row - 1 + 1) c else _) = _
        rw [if_pos (by omega), Nat.sub_add_cancel (by omega)]
      · rw [if_neg h, if_pos (by have := hR.bot; omega)]
        rfl
    · rw [hw] at h
      cases h

theorem reset_keeps (t u : Term) (hw : u.cursor.wrap = false) (hl : linesBefore u = linesBefore t) (hc : u.cursor = t.cursor)
    (hcell : ∀ c, u.cells t.cursor.row c = t.cells t.cursor.row c) (bot : Nat) (saved : Cursor × Bool) :
    Keeps t (eraseBelow { u with bot := bot, saved := saved }) := by
  refine ⟨?_, congrArg Cursor.col hc, ?_⟩
  · rw [erase_lines]
    exact hl
  · intro c h
    rcases h with h | ⟨h, _⟩
    · show (if u.cursor.row = u.cursor.row ∧ u.cursor.col ≤ c ∨ u.cursor.row < u.cursor.row then blank else u.cells u.cursor.row c) = _
      rw [if_neg (by rw [hc]; omega), hc, hcell]
    · rw [← hc, hw] at h
      cases h

/-! ## The bar's row stays -/

theorem sgrs_size : ∀ (ns : List Nat) (t : Term), (ns.foldl sgr t).rows = t.rows ∧ (ns.foldl sgr t).cols = t.cols
  | [], _ => ⟨rfl, rfl⟩
  | n :: ns, t => by
    have h := sgrs_size ns (sgr t n)
    have e : (sgr t n).rows = t.rows ∧ (sgr t n).cols = t.cols := by
      unfold sgr
      split
      · exact ⟨rfl, rfl⟩
      · split <;> exact ⟨rfl, rfl⟩
    exact ⟨h.1.trans e.1, h.2.trans e.2⟩

theorem control_size (t : Term) (args : List Nat) (f : UInt8) : (Spec.Bar.control t args f).rows = t.rows ∧ (Spec.Bar.control t args f).cols = t.cols := by
  unfold Spec.Bar.control
  split
  · exact ⟨rfl, rfl⟩
  · exact ⟨rfl, rfl⟩
  · exact ⟨rfl, rfl⟩
  · exact ⟨rfl, rfl⟩
  · exact sgrs_size _ _
  · exact ⟨rfl, rfl⟩
  · split
    · exact ⟨rfl, rfl⟩
    · split <;> exact ⟨rfl, rfl⟩
  · exact ⟨rfl, rfl⟩

theorem feed_size (t : Term) (b : UInt8) : (feed t b).rows = t.rows ∧ (feed t b).cols = t.cols := by
  unfold feed
  split
  · split
    · exact ⟨rfl, rfl⟩
    split
    · exact ⟨index_rows _, index_cols _⟩
    split
    · exact ⟨index_rows _, index_cols _⟩
    split
    · exact ⟨rfl, rfl⟩
    split
    · exact ⟨rfl, rfl⟩
    unfold text place
    dsimp only
    split
    · exact ⟨index_rows _, index_cols _⟩
    · exact ⟨rfl, rfl⟩
  · split
    · exact ⟨rfl, rfl⟩
    split
    · exact ⟨rfl, rfl⟩
    split
    · exact ⟨rfl, rfl⟩
    split
    · exact ⟨index_rows _, index_cols _⟩
    split
    · exact ⟨rfl, rfl⟩
    · exact ⟨rfl, rfl⟩
  · split
    · exact ⟨rfl, rfl⟩
    split
    · exact ⟨rfl, rfl⟩
    split
    · exact ⟨rfl, rfl⟩
    · exact control_size _ _ _

theorem run_size : ∀ (s : Bytes) (t : Term), (run t s).rows = t.rows ∧ (run t s).cols = t.cols
  | [], _ => ⟨rfl, rfl⟩
  | b :: s, t => by
    rw [run_cons]
    exact ⟨(run_size s _).1.trans (feed_size t b).1, (run_size s _).2.trans (feed_size t b).2⟩

/-- The cursor is above the last row, which does not scroll and reads `last`. -/
structure Up (last : Nat → Cell) (t : Term) : Prop where
  bot : t.bot + 2 = t.rows
  row : t.cursor.row ≤ t.bot
  last : ∀ c, t.cells (t.rows - 1) c = last c

theorem up_index {last : Nat → Cell} {t : Term} (h : Up last t) : Up last (index t) := by
  have hb := h.bot
  have hr := h.row
  unfold index
  by_cases e : t.cursor.row = t.bot
  · rw [if_pos e]
    refine ⟨h.bot, h.row, ?_⟩
    intro c
    show (if t.rows - 1 < t.bot then _ else if t.rows - 1 = t.bot then blank else t.cells (t.rows - 1) c) = _
    rw [if_neg (by omega), if_neg (by omega)]
    exact h.last c
  · rw [if_neg e, if_pos (by omega)]
    exact ⟨h.bot, by show t.cursor.row + 1 ≤ t.bot; omega, h.last⟩

theorem up_home {last : Nat → Cell} {t : Term} (h : Up last t) : Up last (home t) := ⟨h.bot, h.row, h.last⟩

theorem up_mode {last : Nat → Cell} {t : Term} (h : Up last t) (m : Mode) : Up last { t with mode := m } := ⟨h.bot, h.row, h.last⟩

theorem up_place {last : Nat → Cell} {t : Term} (h : Up last t) (b : UInt8) : Up last (place t b) := by
  have hb := h.bot
  have hr := h.row
  refine ⟨h.bot, ?_, ?_⟩
  · unfold place
    dsimp only
    split <;> exact h.row
  · intro c
    show (if t.rows - 1 = t.cursor.row ∧ c = t.cursor.col then (⟨b, t.rev⟩ : Cell) else t.cells (t.rows - 1) c) = _
    rw [if_neg (by omega)]
    exact h.last c

theorem up_sgrs {last : Nat → Cell} : ∀ (ns : List Nat) {t : Term}, Up last t → Up last (ns.foldl sgr t)
  | [], _, h => h
  | n :: ns, t, h => by
    refine up_sgrs ns ?_
    unfold sgr
    split
    · exact ⟨h.bot, h.row, h.last⟩
    · split
      · exact ⟨h.bot, h.row, h.last⟩
      · exact h

theorem up_params {last : Nat → Cell} : ∀ (s : Bytes) {t : Term} {d : List Nat} {k : Nat}, (∀ c ∈ s, (48 ≤ c ∧ c ≤ 57) ∨ c = 59) → Up last t → t.mode = .csi d k →
    Up last (run t s) ∧ ∃ d k, (run t s).mode = .csi d k
  | [], _, d, k, _, h, hm => ⟨h, d, k, hm⟩
  | c :: s, t, d, k, hs, h, hm => by
    rw [run_cons]
    have key : ∃ d' k', feed t c = { t with mode := .csi d' k' } := by
      unfold feed
      rw [hm]
      dsimp only
      by_cases hd : 48 ≤ c ∧ c ≤ 57
      · rw [if_pos hd]
        exact ⟨_, _, rfl⟩
      · have e : c = 59 := (hs c (by simp)).resolve_left hd
        rw [if_neg hd, if_pos e]
        exact ⟨_, _, rfl⟩
    obtain ⟨d', k', e1⟩ := key
    rw [e1]
    exact up_params s (d := d') (k := k') (fun c hc => hs c (by simp [hc])) (up_mode h _) rfl

theorem up_piece {last : Nat → Cell} {t : Term} (h : Up last t) (hm : t.mode = .ground) (p : Piece) : Up last (run t p.bytes) ∧ (run t p.bytes).mode = .ground := by
  cases p with
  | char b hb =>
    have e : run t [b] = text t b := by
      show feed t b = _
      unfold feed
      rw [hm]
      dsimp only
      have h32 : ¬ b < 32 := by rw [UInt8.not_lt]; exact hb.1
      have k : ∀ x : UInt8, x < 32 → b ≠ x := by
        intro x hx e
        subst e
        exact h32 hx
      rw [if_neg (k _ (by decide)), if_neg (k _ (by decide)), if_neg (by simp [k 11 (by decide), k 12 (by decide)]), if_neg (k _ (by decide)), if_neg (by simp [h32, hb.2])]
    show Up last (run t [b]) ∧ (run t [b]).mode = .ground
    rw [e]
    unfold text
    constructor
    · apply up_place
      split
      · exact up_index (up_home h)
      · exact h
    · unfold place
      dsimp only
      split
      · exact (index_mode _).trans hm
      · exact hm
  | newline =>
    have e : run t [10] = index (home t) := by
      show feed t 10 = _
      unfold feed
      rw [hm]
      rfl
    show Up last (run t [10]) ∧ (run t [10]).mode = .ground
    rw [e]
    exact ⟨up_index (up_home h), (index_mode _).trans hm⟩
  | color s hs =>
    have e1 : run t [27, 91] = { t with mode := .csi [] 0 } := by
      cases t; cases hm; rfl
    show Up last (run t ([27, 91] ++ s ++ [109])) ∧ (run t ([27, 91] ++ s ++ [109])).mode = .ground
    rw [run_append, run_append, e1]
    obtain ⟨h1, d, k, h2⟩ := up_params s (d := []) (k := 0) hs (up_mode h (.csi [] 0)) rfl
    generalize run { t with mode := .csi [] 0 } s = t' at h1 h2
    have e2 : run t' [109] = { (d ++ [k]).foldl sgr t' with mode := .ground } := by
      show feed t' 109 = _
      unfold feed
      rw [h2]
      show { Spec.Bar.control t' (d ++ [k]) 109 with mode := Mode.ground } = _
      rfl
    rw [e2]
    exact ⟨up_mode (up_sgrs _ h1) _, rfl⟩

theorem up_pieces {last : Nat → Cell} : ∀ (ps : List Piece) {t : Term}, Up last t → t.mode = .ground →
    Up last (run t (ps.map Piece.bytes).flatten) ∧ (run t (ps.map Piece.bytes).flatten).mode = .ground
  | [], _, h, hm => ⟨h, hm⟩
  | p :: ps, t, h, hm => by
    show Up last (run t (p.bytes ++ _)) ∧ (run t (p.bytes ++ _)).mode = .ground
    rw [run_append]
    have := up_piece h hm p
    exact up_pieces ps this.1 this.2

/-! ## Sessions -/

/-- What reaches the terminal. -/
def sessionBytes (b : Bar) : List Event → Bytes
  | [] => []
  | .out p :: es => p.bytes ++ sessionBytes b es
  | .status s _ :: es => update b s ++ sessionBytes b es

theorem same_above (t : Term) (hbot : t.bot + 2 = t.rows) (hrow : t.cursor.row ≤ t.bot) : Same t (above t) :=
  ⟨by show t.rows = t.rows - 1 + 1; omega, rfl, fun _ _ _ => rfl, rfl, rfl, rfl, by show t.bot = t.rows - 2; omega, by show t.rows - 2 + 1 = t.rows - 1; omega,
    by show t.cursor.row ≤ t.rows - 2; omega, rfl⟩

theorem same_session (b : Bar) : ∀ (es : List Event) {t u : Term}, Same t u → u.mode = .ground → b.height = t.rows → 3 ≤ t.rows → 0 < t.cols →
    Same (run t (sessionBytes b es)) (run u (outputs es)) ∧ (run u (outputs es)).mode = .ground
  | [], _, _, h, hm, _, _, _ => ⟨h, hm⟩
  | .out p :: es, t, u, h, hm, hh, h3, hc => by
    show Same (run t (p.bytes ++ sessionBytes b es)) (run u (p.bytes ++ outputs es)) ∧ (run u (p.bytes ++ outputs es)).mode = .ground
    rw [run_append, run_append]
    obtain ⟨h1, h2⟩ := same_piece h hm p
    have key := run_size p.bytes t
    exact same_session b es h1 h2 (by rw [key.1]; exact hh) (by rw [key.1]; exact h3) (by rw [key.2]; exact hc)
  | .status s hs :: es, t, u, h, hm, hh, h3, hc => by
    show Same (run t (update b s ++ sessionBytes b es)) (run u (outputs es)) ∧ (run u (outputs es)).mode = .ground
    rw [run_append]
    have hb : t.bot + 1 < t.rows := by rw [h.bot, h.rows, h.end_]; omega
    obtain ⟨cells, h1, h2, _⟩ := update_keeps t (h.mode.trans hm) h3 hc hb b hh s hs
    rw [h2]
    refine same_session b es ⟨h.rows, h.cols, ?_, h.history, h.cursor, h.rev, h.bot, h.end_, h.row, h.mode⟩ hm hh h3 hc
    intro r c hr
    exact (h1 r c (by rw [h.rows]; omega)).trans (h.cells r c hr)

/-! ## Characters -/

theorem chars_exists {L : Quote.Locale} (hL : L.OK) : ∀ (k : Nat) (s : Bytes) (st : L.σ), s.length ≤ k → ∃ cs, Chars L st s cs
  | _, [], st, _ => ⟨[], .nil st⟩
  | 0, b :: s, _, h => absurd h (by simp)
  | k + 1, b :: s, st, h => by
    cases e : L.mbrtowc st (b :: s) with
    | none =>
      obtain ⟨cs, hcs⟩ := chars_exists hL k s L.init (by simpa using h)
      exact ⟨_, .bad e hcs⟩
    | some r =>
      obtain ⟨n, wc, st'⟩ := r
      have hp := hL.progress st (b :: s) n wc st' (by simp) e
      obtain ⟨cs, hcs⟩ := chars_exists hL k ((b :: s).drop n) st' (by simp at *; omega)
      have e2 : (b :: s).take n ++ (b :: s).drop n = b :: s := List.take_append_drop n _
      have hl : ((b :: s).take n).length = n := by rw [List.length_take]; omega
      refine ⟨((b :: s).take n, some wc) :: cs, ?_⟩
      have := Chars.good (L := L) (st := st) (st' := st') (c := (b :: s).take n) (rest := (b :: s).drop n) (wc := wc) (cs := cs)
        (by intro h0; rw [h0] at hl; simp at hl; omega) (by rw [e2, hl]; exact e) hcs
      rw [e2] at this
      exact this

theorem chars_bytes {L : Quote.Locale} {st : L.σ} {s : Bytes} {cs : List (Bytes × Option Nat)} (h : Chars L st s cs) : bytes cs = s := by
  induction h with
  | nil => rfl
  | bad _ _ ih => rw [← ih]; simp [bytes]
  | good _ _ _ ih => rw [← ih]; simp [bytes]

theorem fitLoop_eq {L : Quote.Locale} (wcwidth : Wcwidth) (max : Nat) {st : L.σ} {s : Bytes} {cs : List (Bytes × Option Nat)} (h : Chars L st s cs) :
    ∀ (fuel len width : Nat), s.length < fuel → width ≤ max → ∃ k, k ≤ cs.length ∧
      fitLoop L wcwidth max fuel st s len width = (len + (bytes (cs.take k)).length, width + total wcwidth (cs.take k)) ∧
      width + total wcwidth (cs.take k) ≤ max ∧ (k < cs.length → max < width + total wcwidth (cs.take (k + 1))) := by
  induction h with
  | nil st =>
    intro fuel len width hf hw
    cases fuel with
    | zero => simp at hf
    | succ f => exact ⟨0, by simp, by simp [fitLoop, bytes, total], by simpa [total] using hw, by simp⟩
  | @bad st b rest cs hm _ ih =>
    intro fuel len width hf hw
    cases fuel with
    | zero => simp at hf
    | succ f =>
      have e : fitLoop L wcwidth max (f + 1) st (b :: rest) len width =
          if width + 1 > max then (len, width) else fitLoop L wcwidth max f L.init rest (len + 1) (width + 1) := by
        rw [fitLoop, if_neg (by simp), Quote.xmbrtowc, hm]
        rfl
      rw [e]
      by_cases hmax : width + 1 > max
      · rw [if_pos hmax]
        exact ⟨0, by simp, by simp [bytes, total], by simpa [total] using hw, fun _ => by simp [total, columns]; omega⟩
      · rw [if_neg hmax]
        obtain ⟨k, h1, h2, h3, h4⟩ := ih f (len + 1) (width + 1) (by simp at hf; omega) (by omega)
        refine ⟨k + 1, by simp; omega, ?_, ?_, ?_⟩
        · rw [h2]
          simp [bytes, total, columns]
          omega
        · simp [total, columns] at *
          omega
        · intro hk
          have := h4 (by simpa using hk)
          simp [total, columns] at *
          omega
  | @good st st' c rest wc cs hne hm _ ih =>
    intro fuel len width hf hw
    cases fuel with
    | zero => simp at hf
    | succ f =>
      have e : fitLoop L wcwidth max (f + 1) st (c ++ rest) len width =
          if width + (wcwidth wc).toNat > max then (len, width) else fitLoop L wcwidth max f st' rest (len + c.length) (width + (wcwidth wc).toNat) := by
        rw [fitLoop, if_neg (by simp [hne]), Quote.xmbrtowc, hm]
        show (if width + (wcwidth wc).toNat > max then (len, width) else fitLoop L wcwidth max f st' ((c ++ rest).drop c.length) (len + c.length) (width + (wcwidth wc).toNat)) = _
        rw [List.drop_left]
      rw [e]
      have hcl : 0 < c.length := by
        cases c with
        | nil => exact absurd rfl hne
        | cons a l => simp
      by_cases hmax : width + (wcwidth wc).toNat > max
      · rw [if_pos hmax]
        exact ⟨0, by simp, by simp [bytes, total], by simpa [total] using hw, fun _ => by simp [total, columns]; omega⟩
      · rw [if_neg hmax]
        obtain ⟨k, h1, h2, h3, h4⟩ := ih f (len + c.length) (width + (wcwidth wc).toNat) (by simp at hf; omega) (by omega)
        refine ⟨k + 1, by simp; omega, ?_, ?_, ?_⟩
        · rw [h2]
          simp [bytes, total, columns]
          omega
        · simp [total, columns] at *
          omega
        · intro hk
          have := h4 (by simpa using hk)
          simp [total, columns] at *
          omega

theorem bytes_take {L : Quote.Locale} {st : L.σ} {s : Bytes} {cs : List (Bytes × Option Nat)} (h : Chars L st s cs) (k : Nat) : s.take (bytes (cs.take k)).length = bytes (cs.take k) := by
  have e : bytes cs = bytes (cs.take k) ++ bytes (cs.drop k) := by
    unfold bytes
    rw [← List.flatten_append, ← List.map_append, List.take_append_drop]
  rw [← chars_bytes h, e, List.take_left]

theorem widthLoop_eq {L : Quote.Locale} (wcwidth : Wcwidth) {st : L.σ} {s : Bytes} {cs : List (Bytes × Option Nat)} (h : Chars L st s cs) :
    ∀ (fuel ret : Nat), s.length < fuel → widthLoop L wcwidth fuel st s ret = ret + total wcwidth cs := by
  induction h with
  | nil st =>
    intro fuel ret hf
    cases fuel with
    | zero => simp at hf
    | succ f => simp [widthLoop, total]
  | @bad st b rest cs hm _ ih =>
    intro fuel ret hf
    cases fuel with
    | zero => simp at hf
    | succ f =>
      have e : widthLoop L wcwidth (f + 1) st (b :: rest) ret = widthLoop L wcwidth f L.init rest (ret + 1) := by
        rw [widthLoop, if_neg (by simp), Quote.xmbrtowc, hm]
        rfl
      rw [e, ih f _ (by simp at hf; omega)]
      simp [total, columns]
      omega
  | @good st st' c rest wc cs hne hm _ ih =>
    intro fuel ret hf
    cases fuel with
    | zero => simp at hf
    | succ f =>
      have hcl : 0 < c.length := by
        cases c with
        | nil => exact absurd rfl hne
        | cons a l => simp
      have e : widthLoop L wcwidth (f + 1) st (c ++ rest) ret = widthLoop L wcwidth f st' rest (if wcwidth wc > 0 then ret + (wcwidth wc).toNat else ret) := by
        rw [widthLoop, if_neg (by simp [hne]), Quote.xmbrtowc, hm]
        show widthLoop L wcwidth f st' ((c ++ rest).drop c.length) _ = _
        rw [List.drop_left]
      rw [e, ih f _ (by simp at hf; omega)]
      have e2 : (if wcwidth wc > 0 then ret + (wcwidth wc).toNat else ret) = ret + (wcwidth wc).toNat := by
        split
        · rfl
        · omega
      rw [e2]
      simp [total, columns]
      omega

theorem chars_one {L : Quote.Locale} {st st' : L.σ} {b : UInt8} {s : Bytes} {wc : Nat} {cs : List (Bytes × Option Nat)} (h : Chars L st (b :: s) cs)
    (hm : L.mbrtowc st (b :: s) = some (1, wc, st')) : ∃ cs', cs = ([b], some wc) :: cs' ∧ Chars L st' s cs' := by
  generalize hx : b :: s = x at h hm
  cases h with
  | nil => cases hx
  | bad h1 _ => rw [h1] at hm; cases hm
  | @good _ st'' c rest wc' cs' hne h1 h2 =>
    rw [h1] at hm
    simp only [Option.some.injEq, Prod.mk.injEq] at hm
    obtain ⟨hl, rfl, rfl⟩ := hm
    obtain ⟨a, rfl⟩ : ∃ a, c = [a] := by
      cases c with
      | nil => exact absurd rfl hne
      | cons a l => cases l with
        | nil => exact ⟨a, rfl⟩
        | cons _ _ => simp at hl
    simp only [List.singleton_append, List.cons.injEq] at hx
    obtain ⟨rfl, rfl⟩ := hx
    exact ⟨cs', rfl, h2⟩

theorem ascii_total {L : Quote.Locale} {wcwidth : Wcwidth} (hA : Ascii L wcwidth) : ∀ (s : Bytes) {cs cs' : List (Bytes × Option Nat)}, Chars L L.init s cs →
    Chars L L.init (s.dropWhile (· < 128)) cs' → (s.takeWhile (· < 128)).countP L.isprint + total wcwidth cs' = total wcwidth cs
  | [], cs, cs', h, h' => by
    have e1 := widthLoop_eq wcwidth h 1 0 (by simp)
    have e2 := widthLoop_eq wcwidth h' 1 0 (by simp)
    simp [widthLoop] at e1 e2
    simp [← e1, ← e2]
  | b :: s, cs, cs', h, h' => by
    by_cases hb : b < 128
    · obtain ⟨cs1, rfl, h1⟩ := chars_one h (hA.decode b s hb)
      rw [List.dropWhile_cons_of_pos (by simpa using hb)] at h'
      have := ascii_total hA s h1 h'
      rw [List.takeWhile_cons_of_pos (by simpa using hb), List.countP_cons]
      have hw := hA.width b hb
      have e : columns wcwidth ([b], some b.toNat) = if L.isprint b = true then 1 else 0 := by
        unfold columns
        dsimp only
        cases hp : L.isprint b with
        | true => rw [hw.1 hp]; rfl
        | false => have := hw.2 hp; simp; omega
      show _ = columns wcwidth ([b], some b.toNat) + total wcwidth cs1
      rw [e]
      omega
    · rw [List.dropWhile_cons_of_neg (by simpa using hb)] at h'
      rw [List.takeWhile_cons_of_neg (by simpa using hb)]
      have := widthLoop_eq wcwidth h ((b :: s).length + 1) 0 (by omega)
      have := widthLoop_eq wcwidth h' ((b :: s).length + 1) 0 (by omega)
      simp
      omega

end Verif.Bar
