import Verif.Model.Num
/-!
# Timestamps (src/xtime.c)

Strings are lists of bytes without the terminating NUL, so that `*str` is the head of the list, or zero.
-/
namespace Verif.Date
open Verif.Num Verif.Time

/-- `xgetdigit()`, src/xtime.c:186-193.  Bytes from 128 are negative if `char` is signed, but they are no
digits either way. -/
def xgetdigit (c : UInt8) : Int :=
  let ret : Int := c.toNat - 48
  if ret < 0 ∨ ret > 9 then -1 else ret

/-- `xgetpart()`, src/xtime.c:196-209: the result, and where `*str` points to then.  The result cannot
overflow, because `n` is at most four. -/
def xgetpartFrom (result : Int) : Nat → Bytes → Option (Int × Bytes)
  | 0, str => some (result, str)
  | _ + 1, [] => none
  | n + 1, c :: str =>
    let dig := xgetdigit c
    if dig < 0 then none else xgetpartFrom (result * 10 + dig) n str

/-- `xgetpart()`, src/xtime.c:196-209. -/
def xgetpart (str : Bytes) (n : Nat) : Option (Int × Bytes) := xgetpartFrom 0 n str

/-- The local variables of `xgetdate()`, src/xtime.c:230-237. -/
structure Vars where
  tm : Tm := { sec := 0, min := 0, hour := 0, mday := 0, mon := 0, year := 0 }
  tzHour : Int := 0
  tzMin : Int := 0
  tzNegative : Bool := false
  loc : Bool := true
  deriving DecidableEq, Repr

/-- `if (*str == c) ++str`, as in src/xtime.c:246-248. -/
def skip (c : UInt8) : Bytes → Bytes
  | [] => []
  | x :: str => if x = c then str else x :: str

/-- `if (*str) goto invalid`, src/xtime.c:322-324. -/
def finished (v : Vars) : Bytes → Option Vars
  | [] => some v
  | _ :: _ => none

/-- The minutes of the offset, src/xtime.c:312-315. -/
def offsetMinutes (v : Vars) (str : Bytes) : Option Vars :=
  match xgetpart str 2 with
  | none => none
  | some (m, str) => finished { v with tzMin := m } str

/-- The offset, src/xtime.c:300-315. -/
def offset (v : Vars) (str : Bytes) : Option Vars :=
  match xgetpart str 2 with
  | none => none
  | some (h, []) => some { v with tzHour := h }
  | some (h, str) => offsetMinutes { v with tzHour := h } (skip 58 str)

/-- From the label `zone`, src/xtime.c:290-324. -/
def zone (v : Vars) : Bytes → Option Vars
  | [] => some v
  | 90 :: str => finished { v with loc := false } str
  | 43 :: str => offset { v with loc := false, tzNegative := false } str
  | 45 :: str => offset { v with loc := false, tzNegative := true } str
  | _ => none

/-- The seconds, src/xtime.c:286-288. -/
def secondPart (v : Vars) (str : Bytes) : Option Vars :=
  match xgetpart str 2 with
  | none => none
  | some (s, str) => zone { v with tm := { v.tm with sec := s } } str

/-- From `// ss`, src/xtime.c:278-288. -/
def seconds (v : Vars) : Bytes → Option Vars
  | [] => some v
  | c :: str =>
    if c = 58 then secondPart v str
    else if xgetdigit c < 0 then zone v (c :: str)
    else secondPart v (c :: str)

/-- The minutes, src/xtime.c:274-276. -/
def minutePart (v : Vars) (str : Bytes) : Option Vars :=
  match xgetpart str 2 with
  | none => none
  | some (m, str) => seconds { v with tm := { v.tm with min := m } } str

/-- From `// mm`, src/xtime.c:266-276. -/
def minutes (v : Vars) : Bytes → Option Vars
  | [] => some v
  | c :: str =>
    if c = 58 then minutePart v str
    else if xgetdigit c < 0 then zone v (c :: str)
    else minutePart v (c :: str)

/-- From `// hh`, src/xtime.c:261-264. -/
def hourPart (v : Vars) (str : Bytes) : Option Vars :=
  match xgetpart str 2 with
  | none => none
  | some (h, str) => minutes { v with tm := { v.tm with hour := h } } str

/-- The separator of the date and the time, src/xtime.c:255-259. -/
def time (v : Vars) : Bytes → Option Vars
  | [] => some v
  | c :: str => if c = 84 ∨ c = 32 then hourPart v str else hourPart v (c :: str)

/-- The date, src/xtime.c:239-259, and what follows it. -/
def dateTime (str : Bytes) : Option Vars :=
  match xgetpart str 4 with
  | none => none
  | some (y, str) =>
    match xgetpart (skip 45 str) 2 with
    | none => none
    | some (m, str) =>
      match xgetpart (skip 45 str) 2 with
      | none => none
      | some (d, str) => time { tm := { sec := 0, min := 0, hour := 0, mday := d, mon := m - 1, year := y - 1900 } } str

/-- From the label `end`, src/xtime.c:326-346.  `xmktime` is `xmktime()`, which depends on the local time
zone; `xtimegm()` is the program's own version. -/
def finish (xmktime : Tm → Out Int) (v : Vars) : Out Timespec :=
  if v.loc then do
    let sec ← xmktime v.tm
    return { sec, nsec := 0 }
  else do
    let (_, sec) ← xtimegm v.tm
    let off ← i32 ((v.tzHour * 60 + v.tzMin) * 60)
    let sec ← if v.tzNegative then i64 (sec + off) else i64 (sec - off)
    return { sec, nsec := 0 }

/-- `@epochseconds`, src/xtime.c:213-228, with a `time_t` of 64 bits. -/
def epoch (str : Bytes) : Out Timespec :=
  match xstrtoll str true 10 with
  | .error .einval => .err "EINVAL"
  | .error .erange => .err "ERANGE"
  | .ok (value, _) => .ok { sec := value, nsec := 0 }

/-- `xgetdate()`, src/xtime.c:211-356. -/
def xgetdate (xmktime : Tm → Out Int) (str : Bytes) : Out Timespec :=
  match str with
  | 64 :: str => epoch str
  | _ =>
    match dateTime str with
    | none => .err "EINVAL"
    | some v => finish xmktime v

end Verif.Date
