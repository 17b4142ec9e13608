import Verif.Spec.Directive
/-! # Times that can be sorted, and times that are numbers -/
namespace Verif.Directive
open Verif.Num (Digits)

/-- The order of texts, byte by byte, as `LC_ALL=C sort` sorts them. -/
def Sorts (v v' : Bytes) : Prop := List.Lex (fun a b : UInt8 => a.toNat < b.toNat) v v'

/-- What a calendar and a clock show, from the year to the nanoseconds. -/
def shown (tm : Tm) (nsec : Int) : List Int := [tm.year, tm.mon, tm.mday, tm.hour, tm.min, tm.sec, nsec]

/-- What they show is earlier. -/
def Earlier (tm : Tm) (nsec : Int) (tm' : Tm) (nsec' : Int) : Prop := List.Lex (fun a b : Int => a < b) (shown tm nsec) (shown tm' nsec')

/-- `Reads v x`: `v` is a decimal fraction with ten digits after the point, worth `x` times 10⁻¹⁰. -/
inductive Reads : Bytes → Int → Prop
  | pos (a f : Bytes) (m n : Nat) : Digits 10 a m → Digits 10 f n → f.length = 10 → Reads (a ++ [46] ++ f) (10000000000 * m + n)
  | neg (a f : Bytes) (m n : Nat) : Digits 10 a m → Digits 10 f n → f.length = 10 → Reads (45 :: (a ++ [46] ++ f)) (-(10000000000 * m + n))

/-- `TimeOf x field`: the letter for a time in a format: `%A`, `%B`, `%C`, `%T`, `%W`. -/
inductive TimeOf : UInt8 → Printf.Field → Prop
  | A : TimeOf 65 .atime
  | B : TimeOf 66 .btime
  | C : TimeOf 67 .ctime
  | T : TimeOf 84 .mtime
  | W : TimeOf 87 .btime

/-- `-printf format` succeeds for a file and prints `v`. -/
def Prints (env : Printf.Env) (w : World) (f : File) (format v : Bytes) : Prop :=
  ∃ fmts, Printf.parse env format = .ok fmts ∧ bfsPrintf w none f fmts = .ok (v, 0, 0)

/-- A file has a time, and it has this local time. -/
def HasTime (w : World) (f : File) (field : Printf.Field) (ts : Time.Timespec) (tm : Tm) : Prop :=
  ∃ sb, f.stat = .ok sb ∧ sb.has field = true ∧ sb.time field = ts ∧ w.localtime ts.sec = .ok tm

end Verif.Directive
