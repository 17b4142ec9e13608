import Verif.Model.Time
/-!
# Numeric arguments (src/parse.c, src/bfstd.c, src/eval.c)

Strings are lists of bytes without the terminating NUL, so that `*endptr == '\0'` is the end of the
list.
-/
namespace Verif.Num
open Verif.Time

abbrev Bytes := List UInt8

/-- `isspace()`, used by `xisspace()` (src/bfstd.h:41), in the C locale. -/
def isSpace (c : UInt8) : Bool := c == 32 || (9 ≤ c && c ≤ 13)

/-- The value of a digit, for a base up to ten (the program uses only 8 and 10). -/
def digit (base : Nat) (c : UInt8) : Option Nat :=
  if 48 ≤ c.toNat ∧ c.toNat < 48 + base then some (c.toNat - 48) else none

/-- The C library's `strtoll()`: converting as many digits as there are. -/
def strtoDigits (base : Nat) : Nat → Bytes → Nat × Bytes
  | acc, [] => (acc, [])
  | acc, c :: s =>
    match digit base c with
    | some d => strtoDigits base (acc * base + d) s
    | none => (acc, c :: s)

/-- The C library's `strtoll()`: the sign. -/
def strtoSign : Bytes → Bool × Bytes
  | 45 :: s => (true, s)
  | 43 :: s => (false, s)
  | s => (false, s)

/-- The result of a conversion, and whether `errno` is `ERANGE`. -/
structure Conv where
  value : Int
  rest : Bytes
  range : Bool
  deriving DecidableEq, Repr

/-- The C library's `strtoll()`: the number is cut off at the limits of a `long long`. -/
def clamp (n : Int) (rest : Bytes) : Conv :=
  if n < LLONG_MIN then ⟨LLONG_MIN, rest, true⟩
  else if n > LLONG_MAX then ⟨LLONG_MAX, rest, true⟩
  else ⟨n, rest, false⟩

/-- The C library's `strtoll()` (C11 7.22.1.4), for bases up to ten. -/
def strtoll (base : Nat) (str : Bytes) : Conv :=
  let (neg, s) := strtoSign (str.dropWhile isSpace)
  match s with
  | [] => ⟨0, str, false⟩
  | c :: _ =>
    if (digit base c).isSome then
      let (n, rest) := strtoDigits base 0 s
      clamp (if neg then -(n : Int) else n) rest
    else ⟨0, str, false⟩

/-- `errno` -/
inductive Errno where
  | einval
  | erange
  deriving DecidableEq, Repr

/-- `xstrtox_prologue()`, src/bfstd.c:208-217. -/
def xstrtoxPrologue (str : Bytes) : Bool :=
  match str with
  | [] => true
  | c :: _ => !isSpace c

/-- `xstrtoll()`, src/bfstd.c:278-286, with `xstrtox_epilogue()`, src/bfstd.c:220-236.  `whole` means
that `end` is `NULL`.  `endp == str` is that nothing was consumed. -/
def xstrtoll (str : Bytes) (whole : Bool) (base : Nat) : Except Errno (Int × Bytes) :=
  if !xstrtoxPrologue str then .error .einval
  else
    let c := strtoll base str
    if c.range then .error .erange
    else if c.rest.length = str.length || (whole && c.rest != []) then .error .einval
    else .ok (c.value, c.rest)

/-- `IF_SIZE_MASK`, src/parse.c:489-499. -/
inductive IntSize where
  | int
  | long
  | longLong
  deriving DecidableEq, Repr

/-- `enum int_flags`, src/parse.c:489-499, without `IF_QUIET`, which only concerns messages. -/
structure IntFlags where
  base : Nat := 0
  size : IntSize
  unsigned : Bool := false
  partialOk : Bool := false
  deriving DecidableEq, Repr

/-- The messages of `parse_int()`. -/
inductive IntError where
  | bad
  | negative
  | range
  deriving DecidableEq, Repr

/-- The `switch` in `parse_int()`, src/parse.c:504-571 (a `long` has 64 bits). -/
def storeInt (size : IntSize) (value : Int) (rest : Bytes) : Except IntError (Int × Bytes) :=
  match size with
  | .int => if value < INT_MIN ∨ value > INT_MAX then .error .range else .ok (value, rest)
  | .long => if value < LLONG_MIN ∨ value > LLONG_MAX then .error .range else .ok (value, rest)
  | .longLong => .ok (value, rest)

/-- `parse_int()`, src/parse.c:504-571: the number, and where it ended. -/
def parseInt (str : Bytes) (flags : IntFlags) : Except IntError (Int × Bytes) :=
  match xstrtoll str false (if flags.base = 0 then 10 else flags.base) with
  | .error .erange => .error .range
  | .error .einval => .error .bad
  | .ok (value, rest) =>
    if !flags.partialOk && rest != [] then .error .bad
    else if flags.unsigned && value < 0 then .error .negative
    else storeInt flags.size value rest

/-- `enum bfs_int_cmp`, src/expr.h:45-52. -/
inductive Cmp where
  | eq
  | lt
  | gt
  deriving DecidableEq, Repr

/-- The sign in `parse_icmp()`, src/parse.c:576-594. -/
def icmpSign : Bytes → Cmp × Bytes
  | 45 :: s => (.lt, s)
  | 43 :: s => (.gt, s)
  | s => (.eq, s)

/-- `parse_icmp()`, src/parse.c:576-594. -/
def parseIcmp (str : Bytes) (partialOk : Bool) : Except IntError (Cmp × Int × Bytes) :=
  let (cmp, s) := icmpSign str
  match parseInt s { size := .longLong, unsigned := true, partialOk } with
  | .ok (num, rest) => .ok (cmp, num, rest)
  | .error e => .error e

/-- `looks_like_icmp()`, src/parse.c:599-610. -/
def looksLikeIcmp (str : Bytes) : Bool :=
  let sign (c : UInt8) : Bool := c == 45 || c == 43
  let isDigit : Bytes → Bool
    | [] => false
    | c :: _ => 48 ≤ c && c ≤ 57
  match str with
  | a :: b :: s => if sign a then (if sign b then isDigit s else isDigit (b :: s)) else isDigit (a :: b :: s)
  | [a] => if sign a then false else isDigit [a]
  | [] => false

/-- `bfs_expr_cmp()`, src/eval.c:145-157. -/
def exprCmp (cmp : Cmp) (num n : Int) : Bool :=
  match cmp with
  | .eq => n = num
  | .lt => n < num
  | .gt => n > num

/-! ## -size -/

/-- `enum bfs_size_unit`, src/expr.h:81-99. -/
inductive SizeUnit where
  | blocks
  | bytes
  | words
  | kb
  | mb
  | gb
  | tb
  | pb
  deriving DecidableEq, Repr

/-- The unit in `parse_size()`, src/parse.c:2414-2463. -/
def sizeUnit : Bytes → Option SizeUnit
  | [] => some .blocks
  | [98] => some .blocks
  | [99] => some .bytes
  | [119] => some .words
  | [107] => some .kb
  | [77] => some .mb
  | [71] => some .gb
  | [84] => some .tb
  | [80] => some .pb
  | _ => none

/-- `parse_size()`, src/parse.c:2414-2463. -/
def parseSize (str : Bytes) : Option (Cmp × Int × SizeUnit) :=
  match parseIcmp str true with
  | .error _ => none
  | .ok (cmp, num, rest) => (sizeUnit rest).map fun u => (cmp, num, u)

/-- `scales`, src/eval.c:954-963. -/
def scale : SizeUnit → Int
  | .blocks => 512
  | .bytes => 1
  | .words => 2
  | .kb => 2 ^ 10
  | .mb => 2 ^ 20
  | .gb => 2 ^ 30
  | .tb => 2 ^ 40
  | .pb => 2 ^ 50

/-- `eval_size()`, src/eval.c:948-968, for a file whose size is known: the number of units.  The sum is
computed from left to right, and division truncates. -/
def sizeUnits (size : Int) (unit : SizeUnit) : Out Int := do
  let sum ← i64 (size + scale unit)
  let sum ← i64 (sum - 1)
  return sum.tdiv (scale unit)

/-- `eval_size()`, src/eval.c:948-968. -/
def evalSize (cmp : Cmp) (num : Int) (unit : SizeUnit) (size : Int) : Out Bool := do
  let n ← sizeUnits size unit
  return exprCmp cmp num n

/-- `eval_sparse()`, src/eval.c:973-981, with blocks of 512 bytes. -/
def evalSparse (size blocks : Int) : Out Bool := do
  let sum ← i64 (size + 512)
  let sum ← i64 (sum - 1)
  return blocks < sum.tdiv 512

/-! ## -mtime and the like -/

/-- `enum bfs_time_unit`, src/expr.h:69-76. -/
inductive TimeUnit where
  | seconds
  | minutes
  | days
  deriving DecidableEq, Repr

/-- The fallthrough `switch` in `parse_time()`, src/parse.c:972-1033: what a number with this unit is
multiplied with. -/
def timeUnit : UInt8 → Option Nat
  | 119 => some (7 * 24 * 60 * 60)
  | 100 => some (24 * 60 * 60)
  | 104 => some (60 * 60)
  | 109 => some 60
  | 115 => some 1
  | _ => none

/-- Conversion to `unsigned long long`. -/
def toU64 (n : Int) : Nat := (n % 2 ^ 64).toNat
/-- Conversion from `unsigned long long` to `long long`: two's complement. -/
def toI64 (n : Nat) : Int := if n % 2 ^ 64 < 2 ^ 63 then (n % 2 ^ 64 : Nat) else ((n % 2 ^ 64 : Nat) : Int) - 2 ^ 64

/-- The loop in `parse_time()`, src/parse.c:972-1033: `time` is the number before `tail`, `num` is
`expr->num`.  The loop consumes at least a character each time; `fuel` bounds the number of times. -/
def timeLoop : Nat → Int → Nat → Bytes → Option Int
  | 0, _, _, _ => none
  | fuel + 1, num, time, tail =>
    match tail with
    | [] => none
    | c :: tail =>
      match timeUnit c with
      | none => none
      | some k =>
        let num := toI64 (toU64 num + (time * k) % 2 ^ 64)
        match tail with
        | [] => some num
        | _ :: _ =>
          match parseInt tail { size := .longLong, unsigned := true, partialOk := true } with
          | .error _ => none
          | .ok (time, tail) => if tail = [] then none else timeLoop fuel num (toU64 time) tail

/-- `parse_time()`, src/parse.c:972-1033. -/
def parseTime (str : Bytes) : Option (Cmp × Int × TimeUnit) :=
  match parseIcmp str true with
  | .error _ => none
  | .ok (cmp, num, tail) =>
    if tail = [] then some (cmp, num, .days)
    else (timeLoop tail.length 0 (toU64 num) tail).map fun n => (cmp, n, .seconds)

/-- `timespec_diff()`, src/eval.c:139-143. -/
def timespecDiff (lhs rhs : Timespec) : Out Int := do
  let diff ← lhs.sub rhs
  return diff.sec

/-- The `switch` in `eval_time()`, src/eval.c:267-291. -/
def divUnit (unit : TimeUnit) (diff : Int) : Int :=
  match unit with
  | .days => (diff.tdiv (60 * 24)).tdiv 60
  | .minutes => diff.tdiv 60
  | .seconds => diff

/-- `eval_time()`, src/eval.c:267-291, for a file whose timestamp is known: the number of units. -/
def timeUnits (reftime time : Timespec) (unit : TimeUnit) : Out Int := do
  let diff ← timespecDiff reftime time
  return divUnit unit diff

/-- `eval_time()`, src/eval.c:267-291. -/
def evalTime (cmp : Cmp) (num : Int) (unit : TimeUnit) (reftime time : Timespec) : Out Bool := do
  let diff ← timeUnits reftime time unit
  return exprCmp cmp num diff

/-- `eval_newer()`, src/eval.c:250-262. -/
def evalNewer (reftime time : Timespec) : Bool := time.cmp reftime > 0

/-- The end of `eval_used()`, src/eval.c:296-316. -/
def usedDays (diff : Int) : Out Int := do
  let sum ← i64 (diff + 60 * 60 * 24)
  let sum ← i64 (sum - 1)
  return sum.tdiv (60 * 60 * 24)

/-- `eval_used()`, src/eval.c:296-316. -/
def evalUsed (cmp : Cmp) (num : Int) (atime ctime : Timespec) : Out Bool := do
  let diff ← timespecDiff atime ctime
  if diff < 0 then return false
  else
    let days ← usedDays diff
    return exprCmp cmp num days

end Verif.Num
