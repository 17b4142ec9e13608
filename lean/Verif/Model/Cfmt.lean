import Verif.Model.C
/-!
# `printf(3)`

What the C library makes of one conversion (C17 7.21.6.1): flags, field width, precision, and the conversions `s`, `d`, `u`, `o` and `c` that bfs uses. This is not code of bfs; src/printf.c and src/eval.c call it. Floating point numbers are left to a parameter where they occur.
-/
namespace Verif.Cfmt

abbrev Bytes := List UInt8

/-- The digits of a number, most significant first.  The first argument bounds their number. -/
def digs (base : Nat) : Nat → Nat → Bytes
  | 0, _ => []
  | f + 1, n => if n < base then [UInt8.ofNat (48 + n)] else digs base f (n / base) ++ [UInt8.ofNat (48 + n % base)]

/-- A number without sign, as `%ju` or `%o` prints it. -/
def numeral (base n : Nat) : Bytes := digs base (n + 1) n

/-- The flags, the field width (0 if there is none) and the precision of a conversion. -/
structure Spec where
  left : Bool := false
  plus : Bool := false
  space : Bool := false
  alt : Bool := false
  zero : Bool := false
  width : Nat := 0
  prec : Option Nat := none
  deriving DecidableEq, Repr

/-- Fill up with spaces. -/
def pad (sp : Spec) (s : Bytes) : Bytes :=
  if sp.left then s ++ List.replicate (sp.width - s.length) 32
  else List.replicate (sp.width - s.length) 32 ++ s

/-- `%s`: at most as many bytes as the precision says. -/
def str (sp : Spec) (s : Bytes) : Bytes :=
  pad sp (match sp.prec with
    | some p => s.take p
    | none => s)

/-- The digits with at least as many of them as the precision says.  Zero with precision zero has none. -/
def digitsOf (base : Nat) (sp : Spec) (n : Nat) : Bytes :=
  match sp.prec with
  | none => numeral base n
  | some p =>
    if p = 0 ∧ n = 0 then []
    else List.replicate (p - (numeral base n).length) 48 ++ numeral base n

/-- Width, with zeros after the sign if the flag `0` says so and neither `-` nor a precision prevents it. -/
def number (sp : Spec) (sign body : Bytes) : Bytes :=
  if sp.zero && !sp.left && sp.prec.isNone then
    sign ++ List.replicate (sp.width - (sign.length + body.length)) 48 ++ body
  else pad sp (sign ++ body)

/-- The sign of a signed conversion. -/
def sign (sp : Spec) (n : Int) : Bytes :=
  if n < 0 then [45] else if sp.plus then [43] else if sp.space then [32] else []

/-- `%d`. -/
def int (sp : Spec) (n : Int) : Bytes := number sp (sign sp n) (digitsOf 10 sp n.natAbs)

/-- `%u`. -/
def uint (sp : Spec) (n : Nat) : Bytes := number sp [] (digitsOf 10 sp n)

/-- `%#o`: the first digit is to be a zero. -/
def altOctal (sp : Spec) (ds : Bytes) : Bytes := if sp.alt && ds.head? ≠ some 48 then 48 :: ds else ds

/-- `%o`. -/
def oct (sp : Spec) (n : Nat) : Bytes := number sp [] (altOctal sp (digitsOf 8 sp n))

/-- A flag. -/
def isFlag (c : UInt8) : Bool := c = 35 || c = 48 || c = 43 || c = 32 || c = 45

def isDigit (c : UInt8) : Bool := 48 ≤ c && c ≤ 57

/-- A number in a format. -/
def decimal (ds : Bytes) : Nat := ds.foldl (fun n c => 10 * n + (c.toNat - 48)) 0

/-- The precision, and the conversion after it. -/
def parsePrec : Bytes → Option Nat × Bytes
  | 46 :: s => (some (decimal (s.takeWhile isDigit)), s.dropWhile isDigit)
  | s => (none, s)

/-- What comes after `%`: the flags, the width, the precision, and the conversion. -/
def parse (s : Bytes) : Spec × Bytes :=
  let fl := s.takeWhile isFlag
  let s := s.dropWhile isFlag
  let w := s.takeWhile isDigit
  let s := s.dropWhile isDigit
  ({ left := fl.contains 45
     plus := fl.contains 43
     space := fl.contains 32
     alt := fl.contains 35
     zero := fl.contains 48
     width := decimal w
     prec := (parsePrec s).1 }, (parsePrec s).2)

/-- An argument of `printf()`.  `g` stands for the quotient of two integers, as a `double`. -/
inductive Value
  | s (b : Bytes)
  | d (n : Int)
  | o (n : Nat)
  | g (num den : Int)
  deriving DecidableEq, Repr

def EOVERFLOW : Nat := 75

/-- Whether width and precision are `int`s. -/
def Spec.fits (sp : Spec) : Bool := (sp.width : Int) ≤ INT_MAX && sp.prec.all fun (p : Nat) => (p : Int) ≤ INT_MAX

/-- One conversion.  It is undefined if the argument does not fit it. -/
def convert (real : Spec → Int → Int → Bytes) (sp : Spec) (conv : Bytes) : Value → Out (Except Nat Bytes)
  | .s b => if conv = [115] then .ok (.ok (str sp b)) else .ub
  | .d n => if conv = [106, 100] then .ok (.ok (int sp n)) else .ub
  | .o n => if conv = [111] then .ok (.ok (oct sp n)) else .ub
  | .g x y => if conv = [103] then .ok (.ok (real sp x y)) else .ub

/-- `fprintf()` with a format of one conversion, `%…s`, `%…jd`, `%…o` or `%…g`.  A width or precision that does not fit in an `int` is an error. -/
def fprintf (real : Spec → Int → Int → Bytes) (format : Bytes) (v : Value) : Out (Except Nat Bytes) :=
  if format.head? = some 37 then
    let (sp, conv) := parse format.tail
    if !sp.fits then .ok (.error EOVERFLOW) else convert real sp conv v
  else .ub

end Verif.Cfmt
