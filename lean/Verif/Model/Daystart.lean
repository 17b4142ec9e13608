import Verif.Model.Tests
/-!
# `-daystart` (src/parse.c, src/xtime.c)
-/
namespace Verif.Daystart
open Verif.Time (Timespec Tm)
open Verif.Tests (Setting Test parseTest)

abbrev Bytes := List UInt8

/-- `struct tm`, with `tm_isdst`. -/
structure LocalTm extends Tm where
  isdst : Int
  deriving DecidableEq, Repr

/-- The functions of the C library. -/
structure Clock where
  /-- `localtime_r()`; none if it fails. -/
  localtime : Int → Option LocalTm
  /-- `mktime()`: what it makes of `*tm`, and what it returns. -/
  mktime : LocalTm → LocalTm × Int

/-- `xmktime()`, src/xtime.c:18-39. -/
def xmktime (c : Clock) (tm : LocalTm) : Out Int :=
  if (c.mktime tm).2 = -1 then
    match c.localtime (-1) with
    | none => .err "localtime_r(-1)"
    | some tmp =>
      if (c.mktime tm).1.year ≠ tmp.year ∨ (c.mktime tm).1.yday ≠ tmp.yday ∨ (c.mktime tm).1.hour ≠ tmp.hour ∨ (c.mktime tm).1.min ≠ tmp.min ∨ (c.mktime tm).1.sec ≠ tmp.sec then .err "mktime"
      else .ok (c.mktime tm).2
  else .ok (c.mktime tm).2

/-- `if (tm.tm_hour || …) ++tm.tm_mday`, src/parse.c:1155-1157. -/
def nextDay (tm : LocalTm) (nsec : Int) : LocalTm :=
  if tm.hour ≠ 0 ∨ tm.min ≠ 0 ∨ tm.sec ≠ 0 ∨ nsec ≠ 0 then { tm with mday := tm.mday + 1 } else tm

/-- `parse_daystart()`, src/parse.c:1148-1172: the new `parser->now`. -/
def parseDaystart (c : Clock) (now : Timespec) : Out Timespec :=
  match c.localtime now.sec with
  | none => .err "localtime_r()"
  | some tm => (xmktime c { nextDay tm now.nsec with hour := 0, min := 0, sec := 0 }).bind fun time => .ok ⟨time, 0⟩

/-- A part of the expression, from left to right: `-daystart`, or a test with its arguments. Operators are left out: they do not matter here. -/
inductive Item
  | daystart
  | test (args : List Bytes)

/-- `parse_primary()`, src/parse.c:3277-3338, for one of these: `parser->now`, and the tests, change. -/
def parseItem (c : Clock) (s : Setting) : Item → Out (Setting × List Test)
  | .daystart => (parseDaystart c s.now).bind fun now => .ok ({ s with now := now }, [])
  | .test args => (parseTest s args).bind fun r => .ok (s, [r.1])

/-- The calls of `parse_primary()`, one after the other. -/
def parseItems (c : Clock) (s : Setting) : List Item → Out (List Test)
  | [] => .ok []
  | i :: rest => (parseItem c s i).bind fun r => (parseItems c r.1 rest).bind fun ts => .ok (r.2 ++ ts)

end Verif.Daystart
