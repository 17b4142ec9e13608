import Verif.Model.C
/-!
# Format strings (src/printf.c)

Format strings are lists of bytes, without the terminating NUL and without any other NUL: `c = *++i` at the end of the list is the NUL. Failing allocations are not modelled. The errors carry only a short tag, not the whole message.
-/
namespace Verif.Printf

abbrev Bytes := List UInt8

/-- The time stamps among `enum bfs_stat_field`, src/stat.h:56-59. -/
inductive Field
  | atime | btime | ctime | mtime
  deriving DecidableEq, Repr

/-- The functions that print a directive (`bfs_fmt::fn`, src/printf.c:112-577), with the fields `stat_field` and `c` of `struct bfs_fmt`
for those that use them. -/
inductive Fn
  | ctime (f : Field)
  | strftime (f : Field) (c : UInt8)
  | b | d | D | f | F | g | G | h | H | i | k | l | m | M | n | p | P | s | S | u | U | y | Y | Z
  deriving DecidableEq, Repr

/-- `struct bfs_fmt`, src/printf.c:40-51.  `lit` is `bfs_printf_literal()`, and `flush` is `bfs_printf_flush()`. -/
inductive Fmt
  | lit (str : Bytes)
  | flush
  | dir (fn : Fn) (str : Bytes)
  deriving DecidableEq, Repr

/-- What the platform and the state of the process contribute: can the mount table be read (src/printf.c:771-778), and are security contexts
supported (src/printf.c:846-854). -/
structure Env where
  mtab : Bool
  context : Bool
  deriving DecidableEq, Repr

/-- `append_literal()`, src/printf.c:580-601. -/
def appendLiteral (fmts : List Fmt) (literal : Bytes) : List Fmt :=
  if literal.length = 0 then fmts else fmts ++ [.lit literal]

/-- `append_directive()`, src/printf.c:606-619.  The literal is empty afterwards. -/
def appendDirective (fmts : List Fmt) (literal : Bytes) (fmt : Fmt) : List Fmt :=
  appendLiteral fmts literal ++ [fmt]

/-- `*i >= '0' && *i < '8'`, src/printf.c:641-643. -/
def isOct (c : UInt8) : Bool := 48 ≤ c && c < 56

/-- The loop over octal digits, src/printf.c:643-646: `j` counts down.  `c` is a `char`, so its arithmetic is modulo 256. -/
def octal : Nat → UInt8 → Bytes → UInt8 × Bytes
  | 0, c, s => (c, s)
  | _ + 1, c, [] => (c, [])
  | j + 1, c, x :: s => if isOct x then octal j (c * 8 + (x - 48)) s else (c, x :: s)

/-- The escapes of one letter, src/printf.c:651-659. -/
def simpleEscape (c : UInt8) : Option UInt8 :=
  if c = 97 then some 7
  else if c = 98 then some 8
  else if c = 102 then some 12
  else if c = 110 then some 10
  else if c = 114 then some 13
  else if c = 116 then some 9
  else if c = 118 then some 11
  else if c = 92 then some 92
  else none

/-- The loop over flags, src/printf.c:700-726.  `str` is `fmt.str`, and `num` is `must_be_numeric`. -/
def flags : Bytes → Bool → Bytes → Out (Bytes × Bool × Bytes)
  | str, num, [] => .ok (str, num, [])
  | str, num, c :: s =>
    if c = 35 ∨ c = 48 ∨ c = 43 ∨ c = 32 then
      if c ∈ str then .err "duplicate flag" else flags (str ++ [c]) true s
    else if c = 45 then
      if c ∈ str then .err "duplicate flag" else flags (str ++ [c]) num s
    else .ok (str, num, c :: s)

/-- `while (c >= '0' && c <= '9')`, src/printf.c:729-735 and 739-745. -/
def digits : Bytes → Bytes → Bytes × Bytes
  | str, [] => (str, [])
  | str, c :: s => if 48 ≤ c ∧ c ≤ 57 then digits (str ++ [c]) s else (str, c :: s)

/-- The precision, src/printf.c:737-746. -/
def precision : Bytes → Bytes → Bytes × Bytes
  | str, [] => (str, [])
  | str, c :: s => if c = 46 then digits (str ++ [c]) s else (str, c :: s)

/-- `"%+@aAbBcCdDeFgGhHIjklmMnprRsStTuUVwWxXyYzZ"`, src/printf.c:877. -/
def timeSpecs : Bytes :=
  [37, 43, 64, 97, 65, 98, 66, 99, 67, 100, 68, 101, 70, 103, 71, 104, 72, 73, 106, 107, 108, 109, 77, 110, 112, 114, 82, 115, 83, 116, 84,
   117, 85, 86, 119, 87, 120, 88, 121, 89, 122, 90]

/-- `fmt_strftime:`, src/printf.c:870-884. -/
def timeSpec (f : Field) : Bytes → Out (Fn × Bytes × Bytes)
  | [] => .err "incomplete time specifier"
  | c :: s => if c ∈ timeSpecs then .ok (.strftime f c, [115], s) else .err "unrecognized time specifier"

/-- The switch over the conversion, src/printf.c:748-895: the function, the specifier (`"s"` unless changed), and what is left. -/
def conversion (env : Env) : Bytes → Out (Fn × Bytes × Bytes)
  | [] => .err "incomplete format specifier"
  | c :: s =>
    if c = 97 then .ok (.ctime .atime, [115], s)
    else if c = 98 then .ok (.b, [115], s)
    else if c = 99 then .ok (.ctime .ctime, [115], s)
    else if c = 100 then .ok (.d, [106, 100], s)
    else if c = 68 then .ok (.D, [115], s)
    else if c = 102 then .ok (.f, [115], s)
    else if c = 70 then (if env.mtab then .ok (.F, [115], s) else .err "no mount table")
    else if c = 103 then .ok (.g, [115], s)
    else if c = 71 then .ok (.G, [115], s)
    else if c = 104 then .ok (.h, [115], s)
    else if c = 72 then .ok (.H, [115], s)
    else if c = 105 then .ok (.i, [115], s)
    else if c = 107 then .ok (.k, [115], s)
    else if c = 108 then .ok (.l, [115], s)
    else if c = 109 then .ok (.m, [111], s)
    else if c = 77 then .ok (.M, [115], s)
    else if c = 110 then .ok (.n, [115], s)
    else if c = 112 then .ok (.p, [115], s)
    else if c = 80 then .ok (.P, [115], s)
    else if c = 115 then .ok (.s, [115], s)
    else if c = 83 then .ok (.S, [103], s)
    else if c = 116 then .ok (.ctime .mtime, [115], s)
    else if c = 117 then .ok (.u, [115], s)
    else if c = 85 then .ok (.U, [115], s)
    else if c = 119 then .ok (.ctime .btime, [115], s)
    else if c = 121 then .ok (.y, [115], s)
    else if c = 89 then .ok (.Y, [115], s)
    else if c = 90 then (if env.context then .ok (.Z, [115], s) else .err "missing platform support")
    else if c = 65 then timeSpec .atime s
    else if c = 66 ∨ c = 87 then timeSpec .btime s
    else if c = 67 then timeSpec .ctime s
    else if c = 84 then timeSpec .mtime s
    else .err "unrecognized format specifier"

/-- After the flags: src/printf.c:728-906. -/
def finish (env : Env) (str : Bytes) (num : Bool) (s : Bytes) : Out (Fmt × Bytes) :=
  let (str, s) := digits str s
  let (str, s) := precision str s
  match conversion env s with
  | .ok (fn, spec, s) => if num ∧ spec = [115] then .err "invalid flags" else .ok (.dir fn (str ++ spec), s)
  | .err e => .err e
  | .ub => .ub

/-- A directive, src/printf.c:687-917, from what comes after the `%`. -/
def directive (env : Env) (s : Bytes) : Out (Fmt × Bytes) :=
  match flags [37] false s with
  | .ok (str, num, s) => finish env str num s
  | .err e => .err e
  | .ub => .ub

/-- What one round of the loop adds: a byte to the literal, or a directive. -/
inductive Step
  | byte (c : UInt8) (rest : Bytes)
  | fmt (fmt : Fmt) (rest : Bytes)
  | stop
  | fail (e : String)
  | bad
  deriving DecidableEq, Repr

/-- After a backslash, src/printf.c:639-680. -/
def escape : Bytes → Step
  | [] => .fail "incomplete escape sequence"
  | c :: s =>
    if isOct c then
      let (c, s) := octal 3 0 (c :: s)
      .byte c s
    else match simpleEscape c with
      | some b => .byte b s
      | none => if c = 99 then .stop else .fail "unrecognized escape sequence"

/-- After a percent sign, src/printf.c:681-918. -/
def percent (env : Env) (s : Bytes) : Step :=
  if s.head? = some 37 then .byte 37 s.tail
  else match directive env s with
    | .ok (fmt, s) => .fmt fmt s
    | .err e => .fail e
    | .ub => .bad

/-- One round of the loop, src/printf.c:635-924. -/
def step (env : Env) (c : UInt8) (s : Bytes) : Step :=
  if c = 92 then escape s
  else if c = 37 then percent env s
  else .byte c s

/-- The loop of `bfs_printf_parse()`, from src/printf.c:634 to src/printf.c:930.  The first argument is a bound for the number of rounds; running out of it is
`ub`. -/
def loop (env : Env) : Nat → List Fmt → Bytes → Bytes → Out (List Fmt)
  | _, fmts, literal, [] => .ok (appendLiteral fmts literal)
  | 0, _, _, _ :: _ => .ub
  | n + 1, fmts, literal, c :: s =>
    match step env c s with
    | .byte b rest => loop env n fmts (literal ++ [b]) rest
    | .fmt fmt rest => loop env n (appendDirective fmts literal fmt) [] rest
    | .stop => .ok (appendLiteral (appendDirective fmts literal .flush) [])
    | .fail e => .err e
    | .bad => .ub

/-- `bfs_printf_parse()`, src/printf.c:621-938. -/
def parse (env : Env) (format : Bytes) : Out (List Fmt) := loop env format.length [] [] format

/-- The `fake` format that the function of a directive (src/printf.c:112-577) passes to `bfs_fprintf()`, src/printf.c:103-109. -/
def Fn.fake : Fn → Bytes
  | .d => [37, 106, 100]
  | .m => [37, 111]
  | .S => [37, 103]
  | _ => [37, 115]

/-- The assertion in `dyn_fmt()`, src/printf.c:95-99: `str + strlen(str) - strlen(fake) + 1` is the end of `str`, as long as `fake` without
its first byte. -/
def dynFmt (str fake : Bytes) : Bool :=
  fake.length ≤ str.length + 1 && str.drop (str.length + 1 - fake.length) == fake.drop 1

/-- What a directive does when it is printed: bytes go to the stream, and it succeeds or fails with some `errno`. -/
structure Effect where
  bytes : Bytes
  error : Option Nat
  deriving DecidableEq, Repr

/-- `fmt->fn(cfile, fmt, ftwbuf)`, src/printf.c:65-77.  What the directives write is a parameter, and so is what happens to a literal:
`write` says how `fwrite()` of these bytes ends.  `fflush()` adds no bytes. -/
def runFmt (write : Bytes → Effect) (flush : Effect) (dir : Fn → Bytes → Effect) : Fmt → Effect
  | .lit str => write str
  | .flush => flush
  | .dir fn str => dir fn str

/-- `bfs_printf()`, src/printf.c:940-953: the bytes written, the value, and `errno`. -/
def printf (run : Fmt → Effect) : List Fmt → Bytes × Int × Nat → Bytes × Int × Nat
  | [], st => st
  | fmt :: rest, (out, ret, error) =>
    let e := run fmt
    match e.error with
    | some n => printf run rest (out ++ e.bytes, -1, n)
    | none => printf run rest (out ++ e.bytes, ret, error)

end Verif.Printf
