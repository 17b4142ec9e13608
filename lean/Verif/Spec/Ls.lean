import Verif.Model.Ls
import Verif.Spec.Directive
/-! # What `-ls` prints -/
namespace Verif.Ls
open Verif.Directive
open Verif.Stat (FType)

/-- A number, right-aligned in a column of at least `k` characters. -/
def RightCol (k : Nat) (v : Bytes) (n : Int) : Prop := Aligned k v n

/-- `owner` or a group is shown by this text: a name, or else a number. -/
inductive OwnerText (name : Nat → Option Bytes) (id : Nat) : Bytes → Prop
  | name (b : Bytes) : name id = some b → OwnerText name id b
  | number (v : Bytes) : name id = none → Dec v id → OwnerText name id v

/-- How many columns of the screen it takes.  The digits of numbers take one each. -/
inductive OwnerWidth (s : Sys) (name : Nat → Option Bytes) (id : Nat) : Nat → Prop
  | name (b : Bytes) : name id = some b → OwnerWidth s name id (s.strwidth b)
  | number (v : Bytes) : name id = none → Dec v id → OwnerWidth s name id v.length

/-- Left-aligned in a column of `width`. -/
def LeftCol (s : Sys) (name : Nat → Option Bytes) (id : Nat) (width : Nat) (v : Bytes) : Prop :=
  ∃ text n spaces, OwnerText name id text ∧ OwnerWidth s name id n ∧ (∀ c ∈ spaces, c = 32) ∧ n + spaces.length = width ∧ v = text ++ spaces

/-- The time of modification: the day with the time of the day if it is within the last 180 days and before tomorrow, otherwise with the year.  If this is impossible, the number of seconds. -/
inductive LsTime (s : Sys) (t : Int) : Bytes → Prop
  | recent (tm : Tm) (b e h m : Bytes) : s.w.localtime t = .ok tm → s.now - 180 * 86400 < t → t < s.now + 86400 → b = s.w.strftime 98 tm → e = s.w.strftime 101 tm → h = s.w.strftime 72 tm →
      m = s.w.strftime 77 tm → LsTime s t (b ++ ascii " " ++ e ++ ascii " " ++ h ++ ascii ":" ++ m)
  | old (tm : Tm) (b e y : Bytes) : s.w.localtime t = .ok tm → t ≤ s.now - 180 * 86400 ∨ s.now + 86400 ≤ t → b = s.w.strftime 98 tm → e = s.w.strftime 101 tm → y = s.w.strftime 89 tm →
      LsTime s t (b ++ ascii " " ++ e ++ ascii "  " ++ y)
  | number (e : Nat) (v : Bytes) : s.w.localtime t = .error e → SDec v t → LsTime s t v

/-- The size, or the numbers of a device. -/
inductive LsSize (s : Sys) (type : FType) (sb : Sb) : Bytes → Prop
  | device (a b : Bytes) : type = .blk ∨ type = .chr → RightCol 3 a (s.major sb.rdev) → RightCol 3 b (s.minor sb.rdev) → LsSize s type sb (a ++ ascii ", " ++ b)
  | size (v : Bytes) : ¬ (type = .blk ∨ type = .chr) → RightCol 8 v sb.size → LsSize s type sb v

/-- The path, and the target of a link. -/
inductive LsName (f : File) : Bytes → Prop
  | plain : f.type ≠ .lnk → LsName f f.buf.path
  | link (b : Bytes) : f.type = .lnk → f.link = .ok b → LsName f (f.buf.path ++ ascii " -> " ++ b)

/-- Blocks of 1024 bytes (512 if `POSIXLY_CORRECT` is set), rounded up. -/
def LsBlocks (s : Sys) (sb : Sb) (n : Nat) : Prop :=
  512 * sb.blocks ≤ (if s.posix then 512 else 1024) * (n : Int) ∧ (if s.posix then 512 else 1024) * (n : Int) < 512 * sb.blocks + (if s.posix then 512 else 1024)

/-- The mode as `ls -l` shows it. -/
def ModeText (mode : Nat) (v : Bytes) : Prop :=
  ∃ cs c rest, v = cs.map (fun c : Char => UInt8.ofNat c.toNat) ∧ cs = c :: rest ∧ cs.length = 10 ∧ Spec.Strmode.readPerm cs = some (Spec.Strmode.permBits mode) ∧
    (if Spec.Strmode.KnownType (Spec.Strmode.typeBits mode) then Spec.Strmode.readType c = some (Spec.Strmode.typeBits mode) else c = '?')

/-- What comes before the name: inode, blocks, mode (and `+` if there are access control lists), links, owner, group, size, time.  `uw` and `gw` are the widths of the columns for owner and group. -/
def LsInfo (s : Sys) (it : Item) (sb : Sb) (uw gw : Nat) (v : Bytes) : Prop :=
  ∃ ino blocks n mode nlink user group size time, RightCol 9 ino sb.ino ∧ LsBlocks s sb n ∧ RightCol 6 blocks n ∧ ModeText sb.mode mode ∧ RightCol 2 nlink sb.nlink ∧
    LeftCol s s.w.user sb.uid uw user ∧ LeftCol s s.w.group sb.gid gw group ∧ LsSize s it.file.type sb size ∧ LsTime s (sb.time .mtime).sec time ∧
    v = ino ++ ascii " " ++ blocks ++ ascii " " ++ mode ++ ascii (if it.acl then "+" else " ") ++ ascii " " ++ nlink ++ ascii " " ++ user ++ ascii " " ++ group ++ ascii " " ++ size ++ ascii " " ++ time ++ ascii " "

/-- `m` is the greatest of some numbers, and at least 8. -/
def Widest (P : Nat → Prop) (m : Nat) : Prop := (m = 8 ∨ P m) ∧ 8 ≤ m ∧ ∀ n, P n → n ≤ m

/-- `n` is the width of the owner of one of these files. -/
def UserAmong (s : Sys) (its : List Item) (n : Nat) : Prop := ∃ it ∈ its, ∃ sb, it.file.stat = .ok sb ∧ OwnerWidth s s.w.user sb.uid n
def GroupAmong (s : Sys) (its : List Item) (n : Nat) : Prop := ∃ it ∈ its, ∃ sb, it.file.stat = .ok sb ∧ OwnerWidth s s.w.group sb.gid n

/-- `Listed s pre it e`: `e` is what `-ls` rightly does for the file `it`; `pre` are the files up to this one.  The columns for owner and group are as wide as the widest so far.  A file that cannot be examined is an error and prints
nothing; a link that cannot be read is an error, and its line is not finished. -/
inductive Listed (s : Sys) (pre : List Item) (it : Item) : Printf.Effect → Prop
  | line (sb : Sb) (uw gw : Nat) (info name : Bytes) : it.file.stat = .ok sb → Widest (UserAmong s pre) uw → Widest (GroupAmong s pre) gw → LsInfo s it sb uw gw info → LsName it.file name →
      Listed s pre it ⟨info ++ name ++ ascii "\n", none⟩
  | missing (e : Nat) : it.file.stat = .error e → Listed s pre it ⟨[], some e⟩
  | broken (sb : Sb) (uw gw : Nat) (info : Bytes) (e : Nat) : it.file.stat = .ok sb → Widest (UserAmong s pre) uw → Widest (GroupAmong s pre) gw → LsInfo s it sb uw gw info →
      it.file.type = .lnk → it.file.link = .error e → Listed s pre it ⟨info ++ it.file.buf.path, some e⟩

/-- What systems and files are like. -/
structure Sane (s : Sys) (it : Item) : Prop where
  sane : Directive.Sane s.w it.file
  /-- The file system has times of modification; see `C79_mtime_counterexample`. -/
  mtime : ∀ sb, it.file.stat = .ok sb → sb.has .mtime = true
  /-- The clock does not show the end of the time. -/
  now : -2 ^ 62 ≤ s.now ∧ s.now < 2 ^ 62
  /-- Each part of a time, in the locale's language, is shorter than 50 bytes. -/
  strftime : ∀ c tm, (s.w.strftime c tm).length < 50

end Verif.Ls
