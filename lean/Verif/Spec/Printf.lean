import Verif.Model.Printf
/-!
# What format strings mean

A format string is a sequence of bytes to print as they are, escapes, and directives (`Format`). It denotes a list of elements. Backslash is 92, `%` is 37, `.` is 46, and the digits are 48 to 57.
-/
namespace Verif.Printf

/-- What a part of a format string denotes: one byte, a directive with the format string for `printf(3)`, or flushing the output. -/
inductive Elem
  | byte (b : UInt8)
  | dir (fn : Fn) (str : Bytes)
  | flush
  deriving DecidableEq, Repr

/-- The escapes, by letter: `\a`, `\b`, `\f`, `\n`, `\r`, `\t`, `\v`, `\\`. -/
inductive Escape : UInt8 → UInt8 → Prop
  | a : Escape 97 7
  | b : Escape 98 8
  | f : Escape 102 12
  | n : Escape 110 10
  | r : Escape 114 13
  | t : Escape 116 9
  | v : Escape 118 11
  | backslash : Escape 92 92

def OctDigit (c : UInt8) : Prop := 48 ≤ c.toNat ∧ c.toNat ≤ 55
def DecDigit (c : UInt8) : Prop := 48 ≤ c.toNat ∧ c.toNat ≤ 57

/-- The number that octal digits denote. -/
def octValue (ds : Bytes) : Nat := ds.foldl (fun n c => 8 * n + (c.toNat - 48)) 0

/-- `#`, `0`, `+`, space, and `-`. -/
def FlagChar (c : UInt8) : Prop := c = 35 ∨ c = 48 ∨ c = 43 ∨ c = 32 ∨ c = 45

/-- Flags, none of them twice. -/
def Flags (fl : Bytes) : Prop := (∀ c ∈ fl, FlagChar c) ∧ fl.Nodup

/-- A width is a number that does not begin with `0`. -/
def Width (w : Bytes) : Prop := (∀ c ∈ w, DecDigit c) ∧ w.head? ≠ some 48

/-- A precision is a dot and digits. -/
def Precision (p : Bytes) : Prop := p = [] ∨ ∃ ds, p = 46 :: ds ∧ ∀ c ∈ ds, DecDigit c

/-- The letters after `%A`, `%B`, `%C`, `%T` and `%W`: `%+@aAbBcCdDeFgGhHIjklmMnprRsStTuUVwWxXyYzZ`. -/
def TimeLetter (c : UInt8) : Prop := c ∈ "%+@aAbBcCdDeFgGhHIjklmMnprRsStTuUVwWxXyYzZ".toList.map (fun x => UInt8.ofNat x.toNat)

/-- The conversions: text, function, and the specifier for `printf(3)` that suits the value. -/
inductive Conv (env : Env) : Bytes → Fn → Bytes → Prop
  | a : Conv env [97] (.ctime .atime) [115]
  | c : Conv env [99] (.ctime .ctime) [115]
  | t : Conv env [116] (.ctime .mtime) [115]
  | w : Conv env [119] (.ctime .btime) [115]
  | A (x : UInt8) : TimeLetter x → Conv env [65, x] (.strftime .atime x) [115]
  | B (x : UInt8) : TimeLetter x → Conv env [66, x] (.strftime .btime x) [115]
  | W (x : UInt8) : TimeLetter x → Conv env [87, x] (.strftime .btime x) [115]
  | C (x : UInt8) : TimeLetter x → Conv env [67, x] (.strftime .ctime x) [115]
  | T (x : UInt8) : TimeLetter x → Conv env [84, x] (.strftime .mtime x) [115]
  | b : Conv env [98] .b [115]
  | d : Conv env [100] .d [106, 100]
  | D : Conv env [68] .D [115]
  | f : Conv env [102] .f [115]
  | F : env.mtab = true → Conv env [70] .F [115]
  | g : Conv env [103] .g [115]
  | G : Conv env [71] .G [115]
  | h : Conv env [104] .h [115]
  | H : Conv env [72] .H [115]
  | i : Conv env [105] .i [115]
  | k : Conv env [107] .k [115]
  | l : Conv env [108] .l [115]
  | m : Conv env [109] .m [111]
  | M : Conv env [77] .M [115]
  | n : Conv env [110] .n [115]
  | p : Conv env [112] .p [115]
  | P : Conv env [80] .P [115]
  | s : Conv env [115] .s [115]
  | S : Conv env [83] .S [103]
  | u : Conv env [117] .u [115]
  | U : Conv env [85] .U [115]
  | y : Conv env [121] .y [115]
  | Y : Conv env [89] .Y [115]
  | Z : env.context = true → Conv env [90] .Z [115]

/-- A directive: flags, width, precision and conversion.  Flags other than `-` need a number. -/
def Directive (env : Env) (text : Bytes) (fn : Fn) (str : Bytes) : Prop :=
  ∃ fl w p cv spec : Bytes, text = fl ++ w ++ p ++ cv ∧ Flags fl ∧ Width w ∧ Precision p ∧ Conv env cv fn spec ∧
    (spec = [115] → ∀ c ∈ fl, c = 45) ∧ str = 37 :: (fl ++ w ++ p ++ spec)

/-- `Format s es`: the format string `s` denotes `es`. -/
inductive Format (env : Env) : Bytes → List Elem → Prop
  | done : Format env [] []
  | plain (c : UInt8) (s : Bytes) (es : List Elem) : c ≠ 92 → c ≠ 37 → Format env s es → Format env (c :: s) (.byte c :: es)
  | escape (c b : UInt8) (s : Bytes) (es : List Elem) : Escape c b → Format env s es → Format env (92 :: c :: s) (.byte b :: es)
  /-- One, two or three octal digits, as many as there are; the number is taken modulo 256. -/
  | octal (ds s : Bytes) (es : List Elem) : ds ≠ [] → ds.length ≤ 3 → (∀ c ∈ ds, OctDigit c) →
      (ds.length = 3 ∨ ∀ c, s.head? = some c → ¬ OctDigit c) → Format env s es →
      Format env (92 :: (ds ++ s)) (.byte (UInt8.ofNat (octValue ds)) :: es)
  /-- `\c`: flush, and ignore the rest. -/
  | stop (s : Bytes) : Format env (92 :: 99 :: s) [.flush]
  | percent (s : Bytes) (es : List Elem) : Format env s es → Format env (37 :: 37 :: s) (.byte 37 :: es)
  | dir (text s : Bytes) (es : List Elem) (fn : Fn) (str : Bytes) : Directive env text fn str → Format env s es →
      Format env (37 :: (text ++ s)) (.dir fn str :: es)

/-- The elements of a parsed format string: a literal is so many bytes. -/
def elems : List Fmt → List Elem
  | [] => []
  | .lit str :: rest => str.map .byte ++ elems rest
  | .flush :: rest => .flush :: elems rest
  | .dir fn str :: rest => .dir fn str :: elems rest

/-- What an element prints, given what the directives print. -/
def Elem.print (dir : Fn → Bytes → Bytes) : Elem → Bytes
  | .byte b => [b]
  | .dir fn str => dir fn str
  | .flush => []

end Verif.Printf
