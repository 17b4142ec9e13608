import Verif.Model.C
/-!
# Calendar and timespec arithmetic (src/xtime.c)
-/
namespace Verif.Time

/-- The fields of `struct tm` used by `xtimegm()`. All are C `int`s. -/
structure Tm where
  sec : Int
  min : Int
  hour : Int
  mday : Int
  mon : Int
  year : Int
  yday : Int := 0
  wday : Int := 0
  deriving DecidableEq, Repr

/-- src/xtime.c:69-82 `safe_add`: `*value += delta` or fail. -/
def safeAdd (value delta : Int) : Out Int :=
  if value ≥ 0 then do
    let room ← i32 (INT_MAX - value)
    if delta > room then .err "EOVERFLOW" else i32 (value + delta)
  else do
    let room ← i32 (INT_MIN - value)
    if delta < room then .err "EOVERFLOW" else i32 (value + delta)

/-- src/xtime.c:84-87 `floor_div`. C `/` truncates, i.e. `Int.tdiv`. -/
def floorDiv (n d : Int) : Out Int := do
  let a : Int := if n < 0 then 1 else 0
  let s ← i32 (n + a)
  i32 (s.tdiv d - a)

/-- src/xtime.c:89-93 `wrap`; returns the new `(*value, *next)`. -/
def wrap (value max next : Int) : Out (Int × Int) := do
  let carry ← floorDiv value max
  let prod ← i32 (carry * max)
  let value ← i32 (value - prod)
  let next ← safeAdd next carry
  return (value, next)

/-- src/xtime.c:96 `month_lengths[]`. -/
def monthLengths : List Int := [31, 28, 31, 30, 31, 30, 31, 31, 30, 31, 30, 31]

/-- src/xtime.c:95-102 `month_length`; `year` counts from 1900. An index outside
the table is undefined behaviour. -/
def monthLength (year month : Int) : Out Int :=
  if 0 ≤ month then
    match monthLengths[month.toNat]? with
    | none => .ub
    | some ret =>
      if month = 1 ∧ year.tmod 4 = 0 then
        if year.tmod 100 ≠ 0 then .ok (ret + 1)
        else do
          let y ← i32 (year + 300)
          if y.tmod 400 = 0 then .ok (ret + 1) else .ok ret
      else .ok ret
  else .ub

/-- src/xtime.c:125-132, the `do … while (mday < 1)` loop.  `fuel` bounds the
number of iterations; running out is `ub` (and proved not to happen). -/
def backLoop : Nat → Int → Int → Int → Out (Int × Int × Int)
  | 0, _, _, _ => .ub
  | fuel + 1, mday, mon, year => do
    let mon ← i32 (mon - 1)
    let (mon, year) ← wrap mon 12 year
    let len ← monthLength year mon
    let mday ← i32 (mday + len)
    if mday < 1 then backLoop fuel mday mon year else return (mday, mon, year)

/-- src/xtime.c:134-146, the `while (true)` loop. -/
def fwdLoop : Nat → Int → Int → Int → Out (Int × Int × Int)
  | 0, _, _, _ => .ub
  | fuel + 1, mday, mon, year => do
    let days ← monthLength year mon
    if mday ≤ days then return (mday, mon, year)
    else do
      let mday ← i32 (mday - days)
      let mon ← i32 (mon + 1)
      let (mon, year) ← wrap mon 12 year
      fwdLoop fuel mday mon year

/-- src/xtime.c:124-147, choosing between the two loops. -/
def wrapDays (mday mon year : Int) : Out (Int × Int × Int) :=
  if mday < 1 then backLoop (mday.natAbs + 1) mday mon year
  else fwdLoop (mday.natAbs + 1) mday mon year

/-- src/xtime.c:149-152, `for (i = 0; i < mon; ++i) yday += month_length(year, i)`,
starting from accumulator `acc` at index `i`, `n` iterations left. -/
def ydayLoop (year : Int) : Nat → Int → Int → Out Int
  | 0, _, acc => .ok acc
  | n + 1, i, acc => do
    let len ← monthLength year i
    let acc ← i32 (acc + len)
    ydayLoop year n (i + 1) acc

/-- src/xtime.c:154-160 `leap_days`. -/
def leapDays (year : Int) : Out Int :=
  if year ≥ 0 then do
    let a ← floorDiv (year - 69) 4
    let b ← floorDiv (year - 1) 100
    let c ← floorDiv (year - 101) 400
    let ab ← i32 (a - b)
    let abc ← i32 (ab + c)
    i32 (abc + 1)
  else do
    let a ← floorDiv (year + 3) 4
    let b ← floorDiv (year + 99) 100
    let c ← floorDiv (year + 299) 400
    let ab ← i32 (a - b)
    let abc ← i32 (ab + c)
    i32 (abc - 17)

/-- src/xtime.c:104-181, the fallback `xtimegm()`, with 64-bit `time_t` (so the
cast at 169-172 never loses bits).  Returns the normalised `struct tm` and the time.
`tm_isdst` is omitted. -/
def xtimegm (tm : Tm) : Out (Tm × Int) := do
  let (sec, min) ← wrap tm.sec 60 tm.min
  let (min, hour) ← wrap min 60 tm.hour
  let (hour, mday) ← wrap hour 24 tm.mday
  let (mon, year) ← wrap tm.mon 12 tm.year
  let (mday, mon, year) ← wrapDays mday mon year
  let yday ← ydayLoop year mon.toNat 0 0
  let yday ← i32 (yday + (mday - 1))
  let leap ← leapDays year
  let y70 ← i32 (year - 70)
  let epochDays ← i64 (365 * y70 + leap + yday)
  let wday := (epochDays + 4).tmod 7
  let wday := if wday < 0 then wday + 7 else wday
  let time ← i64 (sec + 60 * (min + 60 * (hour + 24 * epochDays)))
  return ({ sec, min, hour, mday, mon, year, yday, wday }, time)

/-- `struct timespec` -/
structure Timespec where
  sec : Int
  nsec : Int
  deriving DecidableEq, Repr

/-- src/xtime.c:358 `NS` -/
def NS : Int := 1000 * 1000 * 1000

/-- src/xtime.c:360-367 `timespec_add` (64-bit `time_t` and `long`). -/
def Timespec.add (lhs rhs : Timespec) : Out Timespec := do
  let sec ← i64 (lhs.sec + rhs.sec)
  let nsec ← i64 (lhs.nsec + rhs.nsec)
  if nsec ≥ NS then
    let sec ← i64 (sec + 1)
    return { sec, nsec := nsec - NS }
  else
    return { sec, nsec }

/-- src/xtime.c:369-376 `timespec_sub`. -/
def Timespec.sub (lhs rhs : Timespec) : Out Timespec := do
  let sec ← i64 (lhs.sec - rhs.sec)
  let nsec ← i64 (lhs.nsec - rhs.nsec)
  if nsec < 0 then
    let sec ← i64 (sec - 1)
    return { sec, nsec := nsec + NS }
  else
    return { sec, nsec }

/-- src/xtime.c:378-392 `timespec_cmp`. -/
def Timespec.cmp (lhs rhs : Timespec) : Int :=
  if lhs.sec < rhs.sec then -1
  else if lhs.sec > rhs.sec then 1
  else if lhs.nsec < rhs.nsec then -1
  else if lhs.nsec > rhs.nsec then 1
  else 0

/-- src/xtime.c:394-398 `timespec_min`. -/
def Timespec.tmin (dest src : Timespec) : Timespec :=
  if src.cmp dest < 0 then src else dest

/-- src/xtime.c:400-404 `timespec_max`. -/
def Timespec.tmax (dest src : Timespec) : Timespec :=
  if src.cmp dest > 0 then src else dest

end Verif.Time
