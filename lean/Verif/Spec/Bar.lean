import Verif.Spec.Num
import Verif.Model.Quote
/-!
# A terminal

What a VT100-like terminal does with bytes: ECMA-48 and DEC STD 070, as far as src/bar.c relies on it. Rows and columns are counted from zero. The kernel's line discipline turns `\n` into `\r\n`; tabs and other control characters that do not change the row are left out; every byte that is not a control character takes one column. Lines that leave the screen at the top go to the history.
-/
namespace Verif.Spec.Bar
abbrev Bytes := List UInt8

/-- A character on the screen, maybe in reverse video. -/
structure Cell where
  byte : UInt8
  rev : Bool
  deriving DecidableEq, Repr

def blank : Cell := ⟨32, false⟩

/-- Where in an escape sequence the terminal is: outside, after `ESC`, or after `ESC [` with the numbers so far and the one being read (0 if there is none). -/
inductive Mode
  | ground
  | esc
  | csi (done : List Nat) (cur : Nat)
  deriving DecidableEq, Repr

/-- The cursor: `wrap` is set when the last column has been filled and the next character goes to the next line. -/
structure Cursor where
  row : Nat
  col : Nat
  wrap : Bool
  deriving DecidableEq, Repr

/-- A terminal. Rows `0 … bot` scroll (the bar never moves the upper end of that region). -/
structure Term where
  rows : Nat
  cols : Nat
  cells : Nat → Nat → Cell
  history : List (Nat → Cell)
  cursor : Cursor
  rev : Bool
  bot : Nat
  saved : Cursor × Bool
  mode : Mode

/-- The region scrolls by one line. -/
def scroll (t : Term) : Term :=
  { t with
    history := t.history ++ [t.cells 0]
    cells := fun r c => if r < t.bot then t.cells (r + 1) c else if r = t.bot then blank else t.cells r c }

/-- Down one line, scrolling at the end of the region, stopping at the end of the screen. -/
def index (t : Term) : Term :=
  if t.cursor.row = t.bot then { scroll t with cursor := { t.cursor with wrap := false } }
  else if t.cursor.row + 1 < t.rows then { t with cursor := { t.cursor with row := t.cursor.row + 1, wrap := false } }
  else { t with cursor := { t.cursor with wrap := false } }

/-- To the first column. -/
def home (t : Term) : Term := { t with cursor := { t.cursor with col := 0, wrap := false } }

/-- Put a character at the cursor, and move on. -/
def place (t : Term) (b : UInt8) : Term :=
  { t with
    cells := fun r c => if r = t.cursor.row ∧ c = t.cursor.col then ⟨b, t.rev⟩ else t.cells r c
    cursor := if t.cursor.col + 1 < t.cols then { t.cursor with col := t.cursor.col + 1 } else { t.cursor with wrap := true } }

/-- A character: first to the next line, if the last column was filled. -/
def text (t : Term) (b : UInt8) : Term := place (if t.cursor.wrap then index (home t) else t) b

/-- Erase from the cursor to the end of the line. -/
def eraseLine (t : Term) : Term :=
  { t with cells := fun r c => if r = t.cursor.row ∧ t.cursor.col ≤ c then blank else t.cells r c }

/-- Erase from the cursor to the end of the screen. -/
def eraseBelow (t : Term) : Term :=
  { t with cells := fun r c => if r = t.cursor.row ∧ t.cursor.col ≤ c ∨ t.cursor.row < r then blank else t.cells r c }

/-- The first line and the first column are number 1, and 0 means the same. -/
def line (limit n : Nat) : Nat := min (limit - 1) (n - 1)

/-- Select graphic rendition: 7 is reverse video, 27 turns it off, 0 turns everything off; colors are not kept. -/
def sgr (t : Term) (n : Nat) : Term :=
  if n = 7 then { t with rev := true } else if n = 27 ∨ n = 0 then { t with rev := false } else t

/-- A complete control sequence: its numbers and its last byte. -/
def control (t : Term) (args : List Nat) (final : UInt8) : Term :=
  match final, args with
  | 65, n :: _ => { t with cursor := { t.cursor with row := t.cursor.row - max 1 n, wrap := false } }
  | 74, [0] => eraseBelow t
  | 75, [0] => eraseLine t
  | 102, [r, c] => { t with cursor := ⟨line t.rows r, line t.cols c, false⟩ }
  | 109, args => args.foldl sgr t
  | 114, [0] => { t with bot := t.rows - 1, cursor := ⟨0, 0, false⟩ }
  | 114, [0, b] => if b = 0 ∨ t.rows < b then { t with bot := t.rows - 1, cursor := ⟨0, 0, false⟩ } else if b = 1 then t else { t with bot := b - 1, cursor := ⟨0, 0, false⟩ }
  | _, _ => t

/-- One byte. `ESC` always begins a new escape sequence, also within one. -/
def feed (t : Term) (b : UInt8) : Term :=
  match t.mode with
  | .ground =>
    if b = 27 then { t with mode := .esc }
    else if b = 10 then index (home t)
    else if b = 11 ∨ b = 12 then index t
    else if b = 13 then home t
    else if b < 32 ∨ b = 127 then t
    else text t b
  | .esc =>
    if b = 91 then { t with mode := .csi [] 0 }
    else if b = 55 then { t with saved := (t.cursor, t.rev), mode := .ground }
    else if b = 56 then { t with cursor := t.saved.1, rev := t.saved.2, mode := .ground }
    else if b = 68 then { index t with mode := .ground }
    else if b = 27 then t
    else { t with mode := .ground }
  | .csi done cur =>
    if 48 ≤ b ∧ b ≤ 57 then { t with mode := .csi done (10 * cur + (b.toNat - 48)) }
    else if b = 59 then { t with mode := .csi (done ++ [cur]) 0 }
    else if b = 27 then { t with mode := .esc }
    else { control t (done ++ [cur]) b with mode := .ground }

/-- A terminal reads bytes. -/
def run (t : Term) (s : Bytes) : Term := s.foldl feed t

/-- A terminal between two outputs: it has a size, the cursor is on the screen, and no escape sequence is unfinished. -/
structure Ready (t : Term) : Prop where
  cols : 0 < t.cols
  row : t.cursor.row < t.rows
  col : t.cursor.col < t.cols
  bot : t.bot < t.rows
  mode : t.mode = .ground

/-! ## What the program prints -/

/-- What the program itself writes: text, line breaks, and colors. -/
inductive Piece
  | char (b : UInt8) (h : 32 ≤ b ∧ b ≠ 127)
  | newline
  | color (s : Bytes) (h : ∀ c ∈ s, (48 ≤ c ∧ c ≤ 57) ∨ c = 59)

def Piece.bytes : Piece → Bytes
  | .char b _ => [b]
  | .newline => [10]
  | .color s _ => [27, 91] ++ s ++ [109]

/-- What the program writes, and updates of the bar in between. -/
inductive Event
  | out (p : Piece)
  | status (s : Bytes) (h : (27 : UInt8) ∉ s)

/-- What it would write without the bar. -/
def outputs : List Event → Bytes
  | [] => []
  | .out p :: es => p.bytes ++ outputs es
  | .status _ _ :: es => outputs es

/-- The screen without its last row. -/
def above (t : Term) : Term := { t with rows := t.rows - 1, bot := t.rows - 2 }

/-- Two terminals look the same: same size, same text now and in the history, same cursor, colors and region. -/
structure Looks (t u : Term) : Prop where
  rows : t.rows = u.rows
  cols : t.cols = u.cols
  cells : ∀ r c, r < t.rows → t.cells r c = u.cells r c
  history : t.history = u.history
  cursor : t.cursor = u.cursor
  rev : t.rev = u.rev
  bot : t.bot = u.bot
  mode : t.mode = u.mode

/-- The lines before the one the cursor is in. -/
def linesBefore (t : Term) : List (Nat → Cell) := t.history ++ (List.range t.cursor.row).map t.cells

/-- Nothing that was printed is lost: the lines before the cursor, and the cursor's line up to the cursor (to its end, if it is full). -/
structure Keeps (t u : Term) : Prop where
  lines : linesBefore u = linesBefore t
  col : u.cursor.col = t.cursor.col
  line : ∀ c, c < t.cursor.col ∨ (t.cursor.wrap = true ∧ c = t.cursor.col) → u.cells u.cursor.row c = t.cells t.cursor.row c

/-- Nothing from the cursor on. -/
def BlankAfter (t : Term) : Prop := ∀ r c, t.cursor.row < r ∨ (r = t.cursor.row ∧ t.cursor.col ≤ c) → t.cells r c = blank

/-- A row shows a line of text in reverse video, starting at the left. -/
def Shows (t : Term) (row : Nat) (s : Bytes) : Prop :=
  ∀ c, c < t.cols → t.cells row c = match s[c]? with
    | some b => ⟨b, true⟩
    | none => blank

/-! ## Characters and their widths -/

/-- A string taken apart into characters: their bytes, and what they are, if they are anything (the locale decides, from the left; a byte that is no character stands alone). -/
inductive Chars (L : Quote.Locale) : L.σ → Bytes → List (Bytes × Option Nat) → Prop
  | nil (st : L.σ) : Chars L st [] []
  | bad {st : L.σ} {b : UInt8} {rest : Bytes} {cs : List (Bytes × Option Nat)} :
      L.mbrtowc st (b :: rest) = none → Chars L L.init rest cs → Chars L st (b :: rest) (([b], none) :: cs)
  | good {st st' : L.σ} {c rest : Bytes} {wc : Nat} {cs : List (Bytes × Option Nat)} :
      c ≠ [] → L.mbrtowc st (c ++ rest) = some (c.length, wc, st') → Chars L st' rest cs → Chars L st (c ++ rest) ((c, some wc) :: cs)

/-- The columns a character takes: one for what is no character, none for what has no width. -/
def columns (wcwidth : Nat → Int) : Bytes × Option Nat → Nat
  | (_, none) => 1
  | (_, some wc) => (wcwidth wc).toNat

/-- The columns of a string. -/
def total (wcwidth : Nat → Int) (cs : List (Bytes × Option Nat)) : Nat := (cs.map (columns wcwidth)).sum

/-- A locale in which ASCII bytes are characters on their own, and the printing ones take one column. -/
structure Ascii (L : Quote.Locale) (wcwidth : Nat → Int) : Prop where
  decode : ∀ (b : UInt8) (rest : Bytes), b < 128 → L.mbrtowc L.init (b :: rest) = some (1, b.toNat, L.init)
  width : ∀ b : UInt8, b < 128 → (L.isprint b = true → wcwidth b.toNat = 1) ∧ (L.isprint b = false → wcwidth b.toNat ≤ 0)

/-- The bytes of characters. -/
def bytes (cs : List (Bytes × Option Nat)) : Bytes := (cs.map Prod.fst).flatten

end Verif.Spec.Bar
