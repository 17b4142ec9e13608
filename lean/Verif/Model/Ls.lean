import Verif.Model.Directive
/-!
# `-ls` (src/eval.c)

Colors are off (`C71` is about them), and writing to the stream succeeds (`C54` is about failures).
-/
namespace Verif.Ls
open Verif.Directive
open Verif.Printf (Effect)

/-- The system: `w` as for `-printf`; `strwidth` is `xstrwidth()`, `major` and `minor` are `xmajor()` and `xminor()`, `posix` is `ctx->posixly_correct`, `now` is `ctx->now.tv_sec`. -/
structure Sys where
  w : World
  strwidth : Bytes → Nat
  major : Nat → Int
  minor : Nat → Int
  posix : Bool
  now : Int

/-- A file, and whether `bfs_check_acl() > 0`. -/
structure Item where
  file : File
  acl : Bool

/-- `print_owner()`, src/eval.c:686-701: what is printed, and the new width.  (That `xstrwidth()` fits an `int` is assumed.) -/
def printOwner (strwidth : Bytes → Nat) (name : Option Bytes) (id : Nat) (width : Nat) : Bytes × Nat :=
  match name with
  | some b =>
    let len := strwidth b
    let width := if width < len then len else width
    ([32] ++ b ++ Cfmt.str { width := width - len } [], width)
  | none =>
    let text := [32] ++ Cfmt.uint { left := true, width := width } id
    (text, if width < text.length - 1 then text.length - 1 else width)

/-- `strftime(time_str, sizeof(time_str), "%b %e  %Y", &tm)`; 0 stands for a text that does not fit. -/
def oldText (w : World) (tm : Tm) : Bytes := w.strftime 98 tm ++ [32] ++ w.strftime 101 tm ++ [32, 32] ++ w.strftime 89 tm

/-- The same with `"%b %e %H:%M"`. -/
def recentText (w : World) (tm : Tm) : Bytes := w.strftime 98 tm ++ [32] ++ w.strftime 101 tm ++ [32] ++ w.strftime 72 tm ++ [58] ++ w.strftime 77 tm

/-- The choice at src/eval.c:715-719. -/
def timeText (w : World) (time sixMonthsAgo tomorrow : Int) (tm : Tm) : Bytes :=
  if time ≤ sixMonthsAgo ∨ tomorrow ≤ time then oldText w tm else recentText w tm

/-- `print_time()`, src/eval.c:704-729. -/
def printTime (w : World) (time now : Int) : Out Bytes :=
  match w.localtime time with
  | .error _ => .ok ([32] ++ plain time)
  | .ok tm => do
    let sixMonthsAgo ← i64 (now - 6 * 30 * 24 * 60 * 60)
    let tomorrow ← i64 (now + 24 * 60 * 60)
    .ok (if (timeText w time sixMonthsAgo tomorrow tm).length < 256 then [32] ++ timeText w time sixMonthsAgo tomorrow tm else [32] ++ plain time)

/-- The number of blocks, src/eval.c:751-752. -/
def lsBlocks (posix : Bool) (sb : Sb) : Nat := blocksIn (if posix then 512 else 1024) sb

/-- Inode, blocks, mode and links, src/eval.c:750-759. -/
def lsHead (s : Sys) (it : Item) (sb : Sb) : Bytes :=
  Cfmt.uint { width := 9 } sb.ino ++ [32] ++ Cfmt.uint { width := 6 } (lsBlocks s.posix sb) ++ [32] ++ (Strmode.xstrmode sb.mode).map (fun c => UInt8.ofNat c.toNat) ++
    [if it.acl then 43 else 32] ++ [32] ++ Cfmt.uint { width := 2 } sb.nlink

/-- Device numbers or size, src/eval.c:773-784. -/
def lsSize (s : Sys) (it : Item) (sb : Sb) : Bytes :=
  if it.file.type = .blk ∨ it.file.type = .chr then [32] ++ Cfmt.int { width := 3 } (s.major sb.rdev) ++ [44, 32] ++ Cfmt.int { width := 3 } (s.minor sb.rdev)
  else [32] ++ Cfmt.uint { width := 8 } (Num.toU64 sb.size)

/-- The path, the target and the end of the line, src/eval.c:792-804: if the target cannot be read, the line is not ended. -/
def lsTail (it : Item) : Effect :=
  if it.file.type = .lnk then
    match it.file.link with
    | .error e => ⟨[32] ++ it.file.buf.path, some e⟩
    | .ok b => ⟨[32] ++ it.file.buf.path ++ [32, 45, 62, 32] ++ b ++ [10], none⟩
  else ⟨[32] ++ it.file.buf.path ++ [10], none⟩

/-- `statbuf->mtime.tv_sec`, src/eval.c:786: nobody asks whether the file system has this time, and if not, the variable has no value. -/
def mtime (sb : Sb) : Out Int := if sb.has .mtime then .ok (sb.time .mtime).sec else .ub

/-- The rest of `eval_fls()`, src/eval.c:734-811.  `uwidth` and `gwidth` are the static variables. -/
def lsLine (s : Sys) (it : Item) (sb : Sb) (uwidth gwidth : Nat) : Out (Effect × Nat × Nat) := do
  let user := printOwner s.strwidth (s.w.user sb.uid) sb.uid uwidth
  let group := printOwner s.strwidth (s.w.group sb.gid) sb.gid gwidth
  let t ← mtime sb
  let time ← printTime s.w t s.now
  .ok (⟨lsHead s it sb ++ user.1 ++ group.1 ++ lsSize s it sb ++ time ++ (lsTail it).bytes, (lsTail it).error⟩, user.2, group.2)

/-- `eval_fls()`, src/eval.c:734-811. -/
def evalFls (s : Sys) (it : Item) (uwidth gwidth : Nat) : Out (Effect × Nat × Nat) :=
  match it.file.stat with
  | .error e => .ok (⟨[], some e⟩, uwidth, gwidth)
  | .ok sb => lsLine s it sb uwidth gwidth

/-- The files of a search, one after the other. -/
def lsRun (s : Sys) : List Item → Nat → Nat → Out (List Effect)
  | [], _, _ => .ok []
  | it :: its, uwidth, gwidth => do
    let (e, uwidth, gwidth) ← evalFls s it uwidth gwidth
    let es ← lsRun s its uwidth gwidth
    .ok (e :: es)

/-- The whole search: `static int uwidth = 8`, src/eval.c:762, and `gwidth`, src/eval.c:768. -/
def lsAll (s : Sys) (its : List Item) : Out (List Effect) := lsRun s its 8 8

end Verif.Ls
