import Verif.Model.Daystart
import Verif.Spec.Time
/-!
# Days in a time zone
-/
namespace Verif.Spec.Daystart
open Verif.Daystart Verif.Spec.Time
open Verif.Time (Timespec)
open Verif.Tests (Test)

/-- A time zone: how far clocks are ahead of UTC in winter and in summer, in seconds, and when it is summer. -/
structure Zone where
  winter : Int
  summer : Int
  isSummer : Int → Bool

def Zone.offset (z : Zone) (t : Int) : Int := if z.isSummer t then z.summer else z.winter

/-- What clocks in the zone show, in seconds since they showed 1970-01-01 00:00:00. -/
def Zone.clock (z : Zone) (t : Int) : Int := t + z.offset t

/-- Clocks show 00:00:00. -/
def Zone.Midnight (z : Zone) (t : Int) : Prop := z.clock t % 86400 = 0

/-- In nanoseconds. -/
def inNanos (t : Timespec) : Int := t.sec * 1000000000 + t.nsec

/-- The number of the day of `t`. A day begins right *after* midnight, and ends with the next midnight. -/
def Zone.day (z : Zone) (t : Timespec) : Int := -(-(inNanos t + z.offset t.sec * 1000000000) / (86400 * 1000000000))

/-- The number of the day of `t` in the usual sense: it begins at midnight. -/
def Zone.usualDay (z : Zone) (t : Timespec) : Int := (inNanos t + z.offset t.sec * 1000000000) / (86400 * 1000000000)

/-- What the fields of a `struct tm` say. -/
def fields (tm : LocalTm) : Int := epochSeconds (tm.year + 1900) tm.mon tm.mday tm.hour tm.min tm.sec

/-- The C library knows the time zone (for 2^55 seconds in both directions, more than a billion years). `mktime()` takes `tm_isdst` at its word: it is winter or summer time that the fields are in. -/
structure Keeps (c : Clock) (z : Zone) : Prop where
  bounds : -86400 < z.winter ∧ z.winter < 86400 ∧ -86400 < z.summer ∧ z.summer < 86400
  localtime : ∀ t, -2 ^ 55 < t → t < 2 ^ 55 → ∃ tm, c.localtime t = some tm ∧ fields tm = z.clock t ∧ tm.isdst = (if z.isSummer t then 1 else 0) ∧
    (0 ≤ tm.hour ∧ tm.hour < 24) ∧ (0 ≤ tm.min ∧ tm.min < 60) ∧ (0 ≤ tm.sec ∧ tm.sec < 60)
  mktime : ∀ tm t, -2 ^ 55 < t → t < 2 ^ 55 → (tm.isdst = 0 ∧ fields tm = t + z.winter) ∨ (tm.isdst = 1 ∧ fields tm = t + z.summer) →
    (c.mktime tm).2 = t ∧ c.localtime t = some (c.mktime tm).1

/-- The same test, but ages are measured at `now`. -/
def measuredAt (now : Timespec) : Test → Test
  | .time cmp num field unit _ => .time cmp num field unit now
  | t => t

end Verif.Spec.Daystart
