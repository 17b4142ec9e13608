import Verif.Model.C
import Verif.Model.Quote
import Verif.Model.Cfmt
/-!
# The status bar

src/bar.c, and what `eval_status()` of src/eval.c shows in it. What is written is a string of bytes; writes are complete (see C38 for `xwrite()`).
-/
namespace Verif.Bar
abbrev Bytes := List UInt8

/-- `width` and `height` of `struct bfs_bar`, src/bar.c:24-31. -/
structure Bar where
  width : Nat
  height : Nat
  deriving DecidableEq, Repr

/-- `bfs_bar_getsize()`, src/bar.c:34-43: columns and rows, which are `unsigned short`, if the terminal tells. -/
def getsize (b : Bar) (ws : Option (UInt16 × UInt16)) : Bar × Bool :=
  match ws with
  | some (col, row) => (⟨col.toNat, row.toNat⟩, true)
  | none => (b, false)

/-- `ITOA_DIGITS`, src/bar.c:56. -/
def itoaDigits : Nat := (16 + 2) / 3

/-- Storing a byte in an array. -/
def store (buf : Bytes) (i : Nat) (c : UInt8) : Out Bytes := if i < buf.length then .ok (buf.set i c) else .ub

/-- The loop of `ass_itoa()`, src/bar.c:59-72: `*--c = '0' + (n % 10)`. The first argument bounds the iterations. -/
def itoaLoop : Nat → Bytes → Nat → Nat → Out (Bytes × Nat)
  | 0, _, _, _ => .ub
  | fuel + 1, buf, c, n =>
    if c = 0 then .ub
    else (store buf (c - 1) (UInt8.ofNat (48 + n % 10))).bind fun buf => if n / 10 = 0 then .ok (buf, c - 1) else itoaLoop fuel buf (c - 1) (n / 10)

/-- `memmove(dest, src, n)` within an array. -/
def memmove (buf : Bytes) (dest src n : Nat) : Out Bytes :=
  if src + n ≤ buf.length ∧ dest + n ≤ buf.length then .ok (buf.take dest ++ (buf.drop src).take n ++ buf.drop (dest + n)) else .ub

/-- `ass_itoa()`, src/bar.c:59-72, at an offset in an array: the array and the offset of the end. -/
def assItoa (buf : Bytes) (str n : Nat) : Out (Bytes × Nat) :=
  (store buf (str + itoaDigits) 0).bind fun buf =>
    (itoaLoop 20 buf (str + itoaDigits) n).bind fun r =>
      (memmove r.1 str r.2 (str + itoaDigits - r.2 + 1)).bind fun buf => .ok (buf, str + (str + itoaDigits - r.2))

/-- `bfs_bar_reset()`, src/bar.c:75-82: save the cursor, reset the scrollable region, restore the cursor, erase from the cursor to the end. -/
def reset : Bytes := [27, 55] ++ [27, 91, 114] ++ [27, 56] ++ [27, 91, 74]

/-- `PREFIX`, src/bar.c:94-98. -/
def prefix_ : Bytes := [27, 68] ++ [27, 91, 49, 65] ++ [27, 55] ++ [27, 91, 59]

/-- `SUFFIX`, src/bar.c:99-102. -/
def suffix_ : Bytes := [114] ++ [27, 56] ++ [27, 91, 74]

/-- `stpcpy()` into an array: the bytes and a NUL. -/
def stpcpy (buf : Bytes) (at_ : Nat) (s : Bytes) : Out (Bytes × Nat) :=
  if at_ + s.length + 1 ≤ buf.length then .ok (buf.take at_ ++ s ++ [0] ++ buf.drop (at_ + s.length + 1), at_ + s.length) else .ub

/-- `BFS_BAR_MIN_HEIGHT`, src/bar.c:85. -/
def minHeight : Nat := 3

/-- `bfs_bar_resize()`, src/bar.c:88-112: what is written. The array is uninitialized. -/
def resize (junk : UInt8) (b : Bar) : Out Bytes :=
  if b.height < minHeight then .ok reset
  else
    (stpcpy (List.replicate (prefix_.length + 1 + itoaDigits + (suffix_.length + 1)) junk) 0 prefix_).bind fun r =>
      (assItoa r.1 r.2 (b.height - 1)).bind fun r =>
        (stpcpy r.1 r.2 suffix_).bind fun r => .ok (r.1.take r.2)

/-- `bfs_bar_update()`, src/bar.c:189-206: save the cursor, move to the last row, erase it, and show the string in reverse video. -/
def update (b : Bar) (str : Bytes) : Bytes :=
  if b.height < minHeight then []
  else [27, 55] ++ ([27, 91] ++ Cfmt.numeral 10 b.height ++ [59, 48, 102]) ++ [27, 91, 75] ++ [27, 91, 55, 109] ++ str ++ [27, 91, 50, 55, 109] ++ [27, 56]

/-- What the program holds: descriptors, signal hooks, objects, and timers. -/
structure Held where
  fds : Nat := 0
  hooks : Nat := 0
  objects : Nat := 0
  timers : Nat := 0
  deriving DecidableEq, Repr

/-- What may fail in `bfs_bar_show()`. -/
structure Luck where
  alloc : Bool
  openTerm : Bool
  size : Option (UInt16 × UInt16)
  exitHook : Bool
  winchHook : Bool

/-- `bfs_bar_show()`, src/bar.c:146-183: the bar, what is written, and what is held. -/
def show_ (junk : UInt8) (l : Luck) (h : Held) : Out (Option Bar × Bytes × Held) :=
  if !l.alloc then .ok (none, [], h)
  else
    let h1 := { h with objects := h.objects + 1 }
    if !l.openTerm then .ok (none, [], { h1 with objects := h1.objects - 1 })
    else
      let h2 := { h1 with fds := h1.fds + 1 }
      if !(getsize ⟨0, 0⟩ l.size).2 then .ok (none, [], { h2 with fds := h2.fds - 1, objects := h2.objects - 1 })
      else if !l.exitHook then .ok (none, [], { h2 with fds := h2.fds - 1, objects := h2.objects - 1 })
      else
        let h3 := { h2 with hooks := h2.hooks + 1 }
        if !l.winchHook then .ok (none, [], { h3 with hooks := h3.hooks - 1, fds := h3.fds - 1, objects := h3.objects - 1 })
        else (resize junk (getsize ⟨0, 0⟩ l.size).1).bind fun out => .ok (some (getsize ⟨0, 0⟩ l.size).1, out, { h3 with hooks := h3.hooks + 1 })

/-- `bfs_bar_hide()`, src/bar.c:208-220. -/
def hide (bar : Option Bar) (h : Held) : Bytes × Held :=
  match bar with
  | none => ([], h)
  | some _ => (reset, { h with fds := h.fds - 1, hooks := h.hooks - 2, objects := h.objects - 1 })

/-- `bfs_bar_sigwinch()`, src/bar.c:116-120. -/
def sigwinch (junk : UInt8) (b : Bar) (ws : Option (UInt16 × UInt16)) : Out (Bar × Bytes) :=
  (resize junk (getsize b ws).1).bind fun out => .ok ((getsize b ws).1, out)

/-- What `struct callback_args` keeps about the bar, src/eval.c:1372-1393. -/
structure Shown where
  alrm : Bool := false
  bar : Option Bar := none
  timer : Bool := false
  deriving DecidableEq, Repr

/-- `sigunhook()` of a hook or `NULL`, src/sighook.c:662-675. -/
def sigunhook (hook : Bool) (h : Held) : Held := if hook then { h with hooks := h.hooks - 1 } else h

/-- The failure path of `eval_show_bar()`, src/eval.c:1409-1440. -/
def showFailed (s : Shown) (h : Held) : Shown × Bytes × Held :=
  ({ s with bar := none, alrm := false }, (hide s.bar h).1, sigunhook s.alrm (hide s.bar h).2)

/-- `eval_show_bar()` after `bfs_bar_show()`, src/eval.c:1416-1430. -/
def showTimer (timer : Bool) (s : Shown) (r : Option Bar × Bytes × Held) : Shown × Bytes × Held :=
  match r.1 with
  | none => ((showFailed s r.2.2).1, r.2.1 ++ (showFailed s r.2.2).2.1, (showFailed s r.2.2).2.2)
  | some bar =>
    if timer then ({ s with bar := some bar, timer := true }, r.2.1, { r.2.2 with timers := r.2.2.timers + 1 })
    else ((showFailed { s with bar := some bar } r.2.2).1, r.2.1 ++ (showFailed { s with bar := some bar } r.2.2).2.1, (showFailed { s with bar := some bar } r.2.2).2.2)

/-- `eval_show_bar()`, src/eval.c:1409-1440: `alrm` and `timer` say whether `sighook()` and `xtimer_start()` succeed. The warning is left out. -/
def evalShow (junk : UInt8) (alrm : Bool) (l : Luck) (timer : Bool) (s : Shown) (h : Held) : Out (Shown × Bytes × Held) :=
  if !alrm then .ok (showFailed { s with alrm := false } h)
  else (show_ junk l { h with hooks := h.hooks + 1 }).bind fun r => .ok (showTimer timer { s with alrm := true } r)

/-- `eval_hide_bar()`, src/eval.c:1443-1452. -/
def evalHide (s : Shown) (h : Held) : Shown × Bytes × Held :=
  let h1 := if s.timer then { h with timers := h.timers - 1 } else h
  ({}, (hide s.bar (sigunhook s.alrm h1)).1, (hide s.bar (sigunhook s.alrm h1)).2)

/-! ## The line -/

/-- `xwcwidth()`. -/
abbrev Wcwidth := Nat → Int

/-- How wide the next character is, src/eval.c:1184-1193. -/
def cwidth (wc : Option Nat) (wcwidth : Wcwidth) : Nat :=
  match wc with
  | none => 1
  | some c => (wcwidth c).toNat

/-- The second loop of `xstrwidth()`, src/bfstd.c:1006-1035. The first argument bounds the iterations. -/
def widthLoop (L : Quote.Locale) (wcwidth : Wcwidth) : Nat → L.σ → Bytes → Nat → Nat
  | 0, _, _, ret => ret
  | fuel + 1, st, rest, ret =>
    if rest = [] then ret
    else
      match Quote.xmbrtowc L st rest with
      | (none, n, st') => widthLoop L wcwidth fuel st' (rest.drop n) (ret + 1)
      | (some c, n, st') => widthLoop L wcwidth fuel st' (rest.drop n) (if wcwidth c > 0 then ret + (wcwidth c).toNat else ret)

/-- `xstrwidth()`, src/bfstd.c:1006-1035. `asciinlen()` is the length of the ASCII prefix (C58_asciilen). -/
def xstrwidth (L : Quote.Locale) (wcwidth : Wcwidth) (s : Bytes) : Nat :=
  widthLoop L wcwidth (s.length + 1) L.init (s.dropWhile (· < 128)) ((s.takeWhile (· < 128)).countP L.isprint)

/-- The loop of `eval_status()`, src/eval.c:1145-1227: how many bytes fit, and how wide they are. The first argument bounds the iterations. -/
def fitLoop (L : Quote.Locale) (wcwidth : Wcwidth) (pathmax : Nat) : Nat → L.σ → Bytes → Nat → Nat → Nat × Nat
  | 0, _, _, lhslen, pathwidth => (lhslen, pathwidth)
  | fuel + 1, st, rest, lhslen, pathwidth =>
    if rest = [] then (lhslen, pathwidth)
    else
      match Quote.xmbrtowc L st rest with
      | (wc, n, st') =>
        if pathwidth + cwidth wc wcwidth > pathmax then (lhslen, pathwidth)
        else fitLoop L wcwidth pathmax fuel st' (rest.drop n) (lhslen + n) (pathwidth + cwidth wc wcwidth)

/-- The text on the right if it fits, and its width, src/eval.c:1160-1164. -/
def statusRight (L : Quote.Locale) (wcwidth : Wcwidth) (width : Nat) (rhs : Bytes) : Bytes × Nat :=
  if 3 + xstrwidth L wcwidth rhs > width then ([], 0) else (rhs, xstrwidth L wcwidth rhs)

/-- The part of the path that is shown, src/eval.c:1171-1175: the directory, or all of a root. -/
def statusPath (path : Bytes) (nameoff depth : Nat) : Bytes := if depth = 0 then path else path.take nameoff

/-- What `eval_status()` puts together, src/eval.c:1177-1216. -/
def statusLine (L : Quote.Locale) (wcwidth : Wcwidth) (width : Nat) (escaped : Bytes) (right : Bytes × Nat) : Bytes :=
  let pathmax := width - right.2 - 3
  let fit := fitLoop L wcwidth pathmax (escaped.length + 1) L.init escaped 0 0
  escaped.take fit.1 ++ [46, 46, 46] ++ List.replicate (pathmax - fit.2) 32 ++ right.1

/-- `eval_status()`, src/eval.c:1145-1227: what it writes to the terminal. `rhs` is what `dstrprintf(" (visited: %'zu; depth: %2zu)")` makes in the locale; allocations succeed. -/
def evalStatus (L : Quote.Locale) (wcwidth : Wcwidth) (b : Bar) (path : Bytes) (nameoff depth : Nat) (rhs : Bytes) : Out Bytes :=
  if b.width < 3 then .ok []
  else (Quote.escape L false (statusPath path nameoff depth)).bind fun escaped =>
    .ok (update b (statusLine L wcwidth b.width escaped (statusRight L wcwidth b.width rhs)))

end Verif.Bar
