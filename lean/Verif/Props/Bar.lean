import Verif.Lemmas.Bar
import Verif.Props.Quote
/-!
# C87: the status bar keeps to the last line of the terminal
-/
namespace Verif.Props
open Verif.Bar
open Verif.Spec.Bar hiding Bytes
open Verif.Num (Digits)

/-- A terminal of 4 rows and 20 columns, for the examples, with some text and the cursor in its last row. -/
def exampleTerm : Term :=
  { rows := 4, cols := 20, cells := fun r c => if c < 3 then ⟨97 + UInt8.ofNat r, false⟩ else blank, history := [], cursor := ⟨3, 3, false⟩, rev := false, bot := 3,
    saved := (⟨0, 0, false⟩, false), mode := .ground }

theorem exampleTerm_ready : Ready exampleTerm := ⟨by decide, by decide, by decide, by decide, rfl⟩

/-- C87: setting up the bar (or adapting it to a new size) on any terminal of at least three rows: no array bound is crossed; the last row no longer scrolls, is empty, and the cursor is above it. -/
theorem C87_setup (b : Bar) (junk : UInt8) (t : Term) (hR : Ready t) (hh : b.height = t.rows) (h3 : 3 ≤ b.height) (hb : b.height < 65536) :
    ∃ out, resize junk b = .ok out ∧ Ready (run t out) ∧ (run t out).rows = t.rows ∧ (run t out).cols = t.cols ∧ (run t out).bot + 2 = t.rows ∧
      (run t out).cursor.row + 1 < t.rows ∧ (run t out).rev = t.rev ∧ BlankAfter (run t out) := by
  obtain ⟨ds, hd, he⟩ := resize_eq b junk h3 hb
  have e := run_resize t hR.mode b.height h3 (by omega) hd
  have key := shown_ok t hR (by omega)
  rw [← hh, ← e] at key
  refine ⟨_, he, ?_⟩
  dsimp only at key
  obtain ⟨h1, h2, h3, h4, h5, _, h7, h8⟩ := key
  exact ⟨h1, h2.trans hh, h3, by omega, by omega, h7, h8⟩

example : ∃ out, resize 0 ⟨20, 4⟩ = .ok out ∧ (run exampleTerm out).bot = 2 ∧ (run exampleTerm out).cursor = ⟨2, 3, false⟩ ∧ (run exampleTerm out).history.length = 1 :=
  ⟨[27, 68, 27, 91, 49, 65, 27, 55, 27, 91, 59, 51, 114, 27, 56, 27, 91, 74], by rfl, by rfl, by rfl, by rfl⟩

/-- C87: nothing that was printed before is lost when the bar is set up, unless the last column has just been filled. -/
theorem C87_setup_keeps (b : Bar) (junk : UInt8) (t : Term) (hR : Ready t) (hh : b.height = t.rows) (h3 : 3 ≤ b.height) (hb : b.height < 65536)
    (hw : t.cursor.wrap = false) (hbot : 0 < t.bot) (hin : t.cursor.row ≤ t.bot) (out : Bytes) (ho : resize junk b = .ok out) : Keeps t (run t out) := by
  obtain ⟨ds, hd, he⟩ := resize_eq b junk h3 hb
  rw [he] at ho
  cases ho
  rw [run_resize t hR.mode b.height h3 (by omega) hd]
  exact shown_keeps t hR hw hbot hin b.height

example : exampleTerm.cursor.wrap = false ∧ 0 < exampleTerm.bot ∧ exampleTerm.cursor.row ≤ exampleTerm.bot := by decide

/-- C87: on a terminal of less than three rows there is no bar: the whole screen scrolls, the cursor stays, and updates write nothing. -/
theorem C87_small (b : Bar) (junk : UInt8) (t : Term) (hR : Ready t) (h3 : b.height < 3) (s : Bytes) :
    update b s = [] ∧ ∃ out, resize junk b = .ok out ∧ (run t out).bot + 1 = t.rows ∧ (run t out).cursor = t.cursor := by
  refine ⟨if_pos h3, reset, resize_small h3 junk, ?_, ?_⟩ <;> rw [run_reset t hR.mode]
  · show t.rows - 1 + 1 = t.rows
    have := hR.row
    omega
  · rfl

/-- C87: whatever text without escapes the bar shows, only the last row changes: not the rows above, not the cursor, not the colors, not the scrolling region. -/
theorem C87_update (b : Bar) (t : Term) (hR : Ready t) (hh : b.height = t.rows) (h3 : 3 ≤ t.rows) (hbot : t.bot + 2 = t.rows) (s : Bytes) (hs : (27 : UInt8) ∉ s) :
    (∀ r c, r + 1 < t.rows → (run t (update b s)).cells r c = t.cells r c) ∧ (run t (update b s)).cursor = t.cursor ∧ (run t (update b s)).rev = t.rev ∧
      (run t (update b s)).bot = t.bot ∧ (run t (update b s)).history = t.history ∧ (run t (update b s)).rows = t.rows ∧ (run t (update b s)).cols = t.cols ∧
      (run t (update b s)).mode = t.mode := by
  obtain ⟨cells, h1, h2, _⟩ := update_keeps t hR.mode h3 hR.cols (by omega) b hh s hs
  rw [h2]
  exact ⟨h1, rfl, rfl, rfl, rfl, rfl, rfl, rfl⟩

/-- C87: printable text that fits is what the last row then shows, in reverse video. -/
theorem C87_shows (b : Bar) (t : Term) (hR : Ready t) (hh : b.height = t.rows) (h3 : 3 ≤ t.rows) (hbot : t.bot + 2 = t.rows) (s : Bytes)
    (hs : ∀ c ∈ s, 32 ≤ c ∧ c ≠ 127) (hlen : s.length ≤ t.cols) : Shows (run t (update b s)) (t.rows - 1) s := by
  have h27 : (27 : UInt8) ∉ s := fun h => absurd (hs 27 h).1 (by decide)
  obtain ⟨cells, _, h2, h3'⟩ := update_keeps t hR.mode h3 hR.cols (by omega) b hh s h27
  have key := bar_text t s [] (barRow t) hs (by simpa using hlen) rfl hR.mode rfl
    (by rw [if_pos (by simpa using hR.cols)]; rfl) (by intro c; show (if t.rows - 1 = t.rows - 1 ∧ 0 ≤ c then blank else _) = _; rw [if_pos ⟨rfl, by omega⟩]; rfl)
  intro c _
  rw [h2]
  show cells (t.rows - 1) c = _
  rw [h3' c, key c]
  rfl

/-- C87: it stays there, whatever the program prints. -/
theorem C87_stays (t : Term) (hR : Ready t) (hbot : t.bot + 2 = t.rows) (hrow : t.cursor.row + 1 < t.rows) (ps : List Piece) :
    ∀ c, (run t (ps.map Piece.bytes).flatten).cells (t.rows - 1) c = t.cells (t.rows - 1) c := by
  have h := (up_pieces (last := t.cells (t.rows - 1)) ps ⟨hbot, by omega, fun _ => rfl⟩ hR.mode).1
  intro c
  have := h.last c
  rw [(run_size _ t).1] at this
  exact this

/-- C87: what the program prints comes out, and scrolls away, as it would on a terminal with one row less and no bar, however often the bar is updated in between. -/
theorem C87_transparent (b : Bar) (t : Term) (hR : Ready t) (hh : b.height = t.rows) (h3 : 3 ≤ t.rows) (hbot : t.bot + 2 = t.rows) (hrow : t.cursor.row + 1 < t.rows)
    (es : List Event) : Looks (above (run t (sessionBytes b es))) (run (above t) (outputs es)) := by
  obtain ⟨h, _⟩ := same_session b es (same_above t hbot (by omega)) hR.mode hh h3 hR.cols
  have hr := h.rows
  have he := h.end_
  exact ⟨by show (run t (sessionBytes b es)).rows - 1 = _; omega, h.cols, fun r c hlt => h.cells r c (by have : r < (run t (sessionBytes b es)).rows - 1 := hlt; omega), h.history, h.cursor, h.rev,
    by show (run t (sessionBytes b es)).rows - 2 = _; omega, h.mode⟩

/-- C87: hiding the bar, or a deadly signal, makes the whole screen scroll again; the cursor stays, everything after it is empty (so the bar is gone), and nothing before it is lost, unless the last column has just been filled. -/
theorem C87_hide (bar : Bar) (held : Held) (t : Term) (hR : Ready t) :
    let u := run t (hide (some bar) held).1
    Ready u ∧ u.bot + 1 = u.rows ∧ u.cursor = t.cursor ∧ u.rev = t.rev ∧ BlankAfter u ∧ (t.cursor.wrap = false → Keeps t u) := by
  intro u
  have e : u = eraseBelow { t with bot := t.rows - 1, saved := (t.cursor, t.rev) } := run_reset t hR.mode
  rw [e]
  have hr := hR.row
  refine ⟨⟨hR.cols, hR.row, hR.col, by show t.rows - 1 < t.rows; omega, hR.mode⟩, by show t.rows - 1 + 1 = t.rows; omega, rfl, rfl, ?_, ?_⟩
  · intro r c h
    show (if r = t.cursor.row ∧ t.cursor.col ≤ c ∨ t.cursor.row < r then blank else _) = blank
    rw [if_pos (by rcases h with h | h; exact .inr h; exact .inl h)]
  · intro hw
    exact reset_keeps t t hw rfl rfl (fun _ => rfl) _ _

/-- C87: a whole life of the bar. What is on the screen and in the history in the end is what was there when the bar appeared and what the program printed, on a terminal with one row less. -/
theorem C87_life (b : Bar) (junk : UInt8) (held : Held) (t : Term) (hR : Ready t) (hh : b.height = t.rows) (h3 : 3 ≤ b.height) (hb : b.height < 65536)
    (hw : t.cursor.wrap = false) (hbot : 0 < t.bot) (hin : t.cursor.row ≤ t.bot) (out : Bytes) (ho : resize junk b = .ok out) (es : List Event) :
    let shown := run t out
    let plain := run (above shown) (outputs es)
    let done := run t (out ++ sessionBytes b es ++ (hide (some b) held).1)
    Keeps t shown ∧ (plain.cursor.wrap = false → Keeps plain done) ∧ done.cursor = plain.cursor ∧ done.bot + 1 = done.rows ∧ BlankAfter done := by
  intro shown plain done
  obtain ⟨out', ho', h1, h2, hc, h4, h5, h6, _⟩ := C87_setup b junk t hR hh h3 hb
  rw [ho] at ho'
  cases ho'
  obtain ⟨hs, hm⟩ := same_session b es (t := shown) (same_above shown (by show (run t out).bot + 2 = (run t out).rows; omega) (by show (run t out).cursor.row ≤ (run t out).bot; omega)) h1.mode
    (by show b.height = (run t out).rows; omega) (by show 3 ≤ (run t out).rows; omega) (by rw [show shown.cols = t.cols from hc]; exact hR.cols)
  have e : done = eraseBelow { run shown (sessionBytes b es) with bot := (run shown (sessionBytes b es)).rows - 1, saved := ((run shown (sessionBytes b es)).cursor, (run shown (sessionBytes b es)).rev) } := by
    show run t (out ++ sessionBytes b es ++ reset) = _
    rw [run_append, run_append]
    exact run_reset _ (hs.mode.trans hm)
  have hrow := hs.row
  have hend := hs.end_
  have hrows := hs.rows
  refine ⟨C87_setup_keeps b junk t hR hh h3 hb hw hbot hin out ho, ?_, ?_, ?_, ?_⟩
  · intro hpw
    rw [e]
    refine reset_keeps plain _ (by rw [hs.cursor]; exact hpw) ?_ hs.cursor ?_ _ _
    · unfold linesBefore
      rw [hs.history, hs.cursor]
      congr 1
      apply List.map_congr_left
      intro r hr
      have hr : r < plain.cursor.row := List.mem_range.1 hr
      funext c
      exact hs.cells r c (by show r < plain.rows; have : plain.cursor.row ≤ plain.bot := hrow; have : plain.bot + 1 = plain.rows := hend; omega)
    · intro c
      exact hs.cells _ c (by show plain.cursor.row < plain.rows; have : plain.cursor.row ≤ plain.bot := hrow; have : plain.bot + 1 = plain.rows := hend; omega)
  · rw [e]
    exact hs.cursor
  · rw [e]
    show (run shown (sessionBytes b es)).rows - 1 + 1 = (run shown (sessionBytes b es)).rows
    omega
  · rw [e]
    intro r c h
    show (if r = (run shown (sessionBytes b es)).cursor.row ∧ (run shown (sessionBytes b es)).cursor.col ≤ c ∨ (run shown (sessionBytes b es)).cursor.row < r then blank else _) = blank
    rw [if_pos (by rcases h with h | h; exact .inr h; exact .inl h)]

/-- C87: false of the code without the proviso: when the last column has just been filled, erasing "from the cursor" takes that character away. -/
theorem C87_hide_counterexample : ∃ (t : Term), Ready t ∧ t.cells 0 1 = ⟨98, false⟩ ∧ (run t (hide (some ⟨2, 4⟩) {}).1).cells 0 1 = blank ∧
    ∃ t0, t = run t0 [97, 98] :=
  ⟨run { rows := 4, cols := 2, cells := fun _ _ => blank, history := [], cursor := ⟨0, 0, false⟩, rev := false, bot := 2, saved := (⟨0, 0, false⟩, false), mode := .ground } [97, 98],
    ⟨by decide, by decide, by decide, by decide, rfl⟩, by decide, by decide, _, rfl⟩

/-- C87: whatever fails while the bar is set up, nothing is left behind; if nothing fails, hiding it gives everything back. -/
theorem C87_held (junk : UInt8) (alrm : Bool) (l : Luck) (timer : Bool) (h : Held) :
    ∃ s out h', evalShow junk alrm l timer {} h = .ok (s, out, h') ∧ (s.bar = none → s = {} ∧ h' = h) ∧ (s.bar ≠ none → s.alrm = true ∧ s.timer = true) ∧
      (evalHide s h').1 = {} ∧ (evalHide s h').2.2 = h := by
  obtain ⟨fds, hooks, objects, timers⟩ := h
  obtain ⟨al, op, size, ex, wi⟩ := l
  have hz : ∀ b : Bar, b.height < 65536 → ∃ out, resize junk b = .ok out := by
    intro b hb
    by_cases h3 : b.height < 3
    · exact ⟨_, resize_small h3 junk⟩
    · obtain ⟨ds, _, he⟩ := resize_eq b junk (by omega) hb
      exact ⟨_, he⟩
  cases alrm
  · exact ⟨_, _, _, rfl, fun _ => ⟨rfl, rfl⟩, fun h => absurd rfl h, rfl, rfl⟩
  cases al
  · exact ⟨_, _, _, rfl, fun _ => ⟨rfl, rfl⟩, fun h => absurd rfl h, rfl, rfl⟩
  cases op
  · exact ⟨_, _, _, rfl, fun _ => ⟨rfl, rfl⟩, fun h => absurd rfl h, rfl, rfl⟩
  cases size with
  | none => exact ⟨_, _, _, rfl, fun _ => ⟨rfl, rfl⟩, fun h => absurd rfl h, rfl, rfl⟩
  | some ws =>
    obtain ⟨col, row⟩ := ws
    cases ex
    · exact ⟨_, _, _, rfl, fun _ => ⟨rfl, rfl⟩, fun h => absurd rfl h, rfl, rfl⟩
    cases wi
    · exact ⟨_, _, _, rfl, fun _ => ⟨rfl, rfl⟩, fun h => absurd rfl h, rfl, rfl⟩
    obtain ⟨out, ho⟩ := hz ⟨col.toNat, row.toNat⟩ (by simpa using row.toNat_lt)
    have e : evalShow junk true ⟨true, true, some (col, row), true, true⟩ timer {} ⟨fds, hooks, objects, timers⟩ =
        .ok (showTimer timer { alrm := true } (some ⟨col.toNat, row.toNat⟩, out, ⟨fds + 1, hooks + 1 + 1 + 1, objects + 1, timers⟩)) := by
      show ((resize junk ⟨col.toNat, row.toNat⟩).bind _).bind _ = _
      rw [ho]
      rfl
    rw [e]
    cases timer
    · exact ⟨_, _, _, rfl, fun _ => ⟨rfl, rfl⟩, fun h => absurd rfl h, rfl, rfl⟩
    · exact ⟨_, _, _, rfl, fun h => (by cases h), fun _ => ⟨rfl, rfl⟩, rfl, rfl⟩

/-! ## What it says -/

/-- C87: strings are measured in columns. -/
theorem C87_columns (L : Quote.Locale) (wcwidth : Wcwidth) (hA : Ascii L wcwidth) (hL : L.OK) (s : Bytes) (cs : List (Bytes × Option Nat)) (h : Chars L L.init s cs) :
    xstrwidth L wcwidth s = total wcwidth cs := by
  obtain ⟨cs', h'⟩ := chars_exists hL _ (s.dropWhile (· < 128)) L.init (Nat.le_refl _)
  have hlen := (List.dropWhile_sublist (l := s) (fun c : UInt8 => decide (c < 128))).length_le
  unfold xstrwidth
  rw [widthLoop_eq wcwidth h' _ _ (by omega)]
  exact ascii_total hA s h h'

example : Ascii cLocale fun c => if 32 ≤ c ∧ c ≤ 126 then 1 else -1 where
  decode b rest h := by
    show (if b < 128 then some (1, b.toNat, ()) else none) = _
    rw [if_pos h]
    rfl
  width b _ := by
    have e : cLocale.isprint b = (decide (32 ≤ b.toNat) && decide (b.toNat ≤ 126)) := rfl
    rw [e]
    constructor
    · intro h
      rw [if_pos (by simpa using h)]
    · intro h
      rw [if_neg (by simpa using h)]
      decide

/-- C87: the bar shows as many of the characters of the escaped path as fit, three dots, and the counts at the right end if they fit as well: exactly as many columns as the terminal has. -/
theorem C87_line (L : Quote.Locale) (wcwidth : Wcwidth) (width : Nat) (hw : 3 ≤ width) (escaped rhs : Bytes) (cs : List (Bytes × Option Nat)) (h : Chars L L.init escaped cs) :
    ∃ (k n : Nat) (right : Bytes), k ≤ cs.length ∧
      statusLine L wcwidth width escaped (statusRight L wcwidth width rhs) = bytes (cs.take k) ++ [46, 46, 46] ++ List.replicate n 32 ++ right ∧
      total wcwidth (cs.take k) + 3 + n + (if right = [] then 0 else xstrwidth L wcwidth right) = width ∧
      (k < cs.length → width < total wcwidth (cs.take (k + 1)) + 3 + (if right = [] then 0 else xstrwidth L wcwidth right)) ∧
      (right = rhs ∧ 3 + xstrwidth L wcwidth rhs ≤ width ∨ right = [] ∧ width < 3 + xstrwidth L wcwidth rhs) := by
  have key : ∀ right : Bytes × Nat, 3 + right.2 ≤ width → ∃ k n, k ≤ cs.length ∧
      statusLine L wcwidth width escaped right = bytes (cs.take k) ++ [46, 46, 46] ++ List.replicate n 32 ++ right.1 ∧
      total wcwidth (cs.take k) + 3 + n + right.2 = width ∧ (k < cs.length → width < total wcwidth (cs.take (k + 1)) + 3 + right.2) := by
    intro right hr
    obtain ⟨k, h1, h2, h3, h4⟩ := fitLoop_eq wcwidth (width - right.2 - 3) h (escaped.length + 1) 0 0 (by omega) (by omega)
    refine ⟨k, width - right.2 - 3 - total wcwidth (cs.take k), h1, ?_, by omega, fun hk => by have := h4 hk; omega⟩
    unfold statusLine
    dsimp only
    rw [h2]
    dsimp only
    rw [Nat.zero_add, Nat.zero_add, bytes_take h k]
  have e0 : xstrwidth L wcwidth [] = 0 := rfl
  by_cases hr : 3 + xstrwidth L wcwidth rhs > width
  · obtain ⟨k, n, h1, h2, h3, h4⟩ := key ([], 0) hw
    refine ⟨k, n, [], h1, ?_, h3, h4, .inr ⟨rfl, hr⟩⟩
    unfold statusRight
    rw [if_pos hr]
    exact h2
  · obtain ⟨k, n, h1, h2, h3, h4⟩ := key (rhs, xstrwidth L wcwidth rhs) (by show 3 + _ ≤ _; omega)
    have e : (if rhs = [] then 0 else xstrwidth L wcwidth rhs) = xstrwidth L wcwidth rhs := by
      by_cases h0 : rhs = []
      · rw [if_pos h0, h0, e0]
      · rw [if_neg h0]
    refine ⟨k, n, rhs, h1, ?_, by rw [e]; exact h3, by rw [e]; exact h4, .inl ⟨rfl, by omega⟩⟩
    unfold statusRight
    rw [if_neg hr]
    exact h2

example : statusLine cLocale (fun _ => 1) 10 [97, 98, 99, 100, 101, 102, 103, 104] ([32, 49], 2) = [97, 98, 99, 100, 101, 46, 46, 46, 32, 49] := by decide +kernel

/-- C87: no file name, however strange, lets the status leave the last row of the terminal. -/
theorem C87_contained (L : Quote.Locale) (hL : L.OK) (hB : L.Hides true fun c => c = 27) (wcwidth : Wcwidth) (b : Bar) (t : Term) (hR : Ready t) (hh : b.height = t.rows) (h3 : 3 ≤ t.rows)
    (hbot : t.bot + 2 = t.rows) (path : Bytes) (nameoff depth : Nat) (rhs : Bytes) (hrhs : (27 : UInt8) ∉ rhs) :
    ∃ out, evalStatus L wcwidth b path nameoff depth rhs = .ok out ∧ (∀ r c, r + 1 < t.rows → (run t out).cells r c = t.cells r c) ∧ (run t out).cursor = t.cursor ∧
      (run t out).rev = t.rev ∧ (run t out).bot = t.bot ∧ (run t out).history = t.history ∧ (run t out).mode = t.mode := by
  unfold evalStatus
  by_cases hw : b.width < 3
  · rw [if_pos hw]
    exact ⟨_, rfl, fun _ _ _ => rfl, rfl, rfl, rfl, rfl, rfl⟩
  · rw [if_neg hw]
    obtain ⟨esc, he, _⟩ := C14_never_truncated L false (statusPath path nameoff depth)
    have hclean := C58_no_control L hL false (fun c => c = 27) (by rintro c rfl; left; decide) hB _ _ he
    rw [he]
    refine ⟨_, rfl, ?_⟩
    have hno : (27 : UInt8) ∉ statusLine L wcwidth b.width esc (statusRight L wcwidth b.width rhs) := by
      unfold statusLine statusRight
      dsimp only
      simp only [List.mem_append, not_or]
      refine ⟨⟨⟨fun h => hclean 27 (List.mem_of_mem_take h) rfl, by decide⟩, by simp⟩, ?_⟩
      split
      · simp
      · exact hrhs
    obtain ⟨h1, h2, h3, h4, h5, _, _, h8⟩ := C87_update b t hR hh h3 hbot _ hno
    exact ⟨h1, h2, h3, h4, h5, h8⟩

example : cLocale.Hides true fun c => c = 27 where
  byte c hc := by subst hc; decide
  wide st rest n wc st' h hc := by
    obtain ⟨c, cs, rfl, rfl, rfl⟩ := cLocale_byte st rest n wc st' h
    simp at hc
    subst hc
    decide

/-- C87: false of the code that the bar always shows the beginning of the path: white space like a newline is not escaped, so what comes after it overwrites what came before. -/
theorem C87_newline_counterexample : ∃ out t, Ready t ∧ t.bot + 2 = t.rows ∧ evalStatus cLocale (fun c => if 32 ≤ c then 1 else -1) ⟨20, 4⟩ [97, 10, 98, 47, 99] 4 1 [] = .ok out ∧
    (run t out).cells 3 0 = ⟨98, true⟩ :=
  ⟨update ⟨20, 4⟩ ([97, 10, 98, 47] ++ [46, 46, 46] ++ List.replicate 14 32), { exampleTerm with bot := 2, cursor := ⟨0, 0, false⟩ }, ⟨by decide, by decide, by decide, by decide, rfl⟩, rfl, by decide +kernel, by rfl⟩

end Verif.Props
