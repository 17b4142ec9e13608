import Verif.Model.C
/-!
# Mode strings (src/bfstd.c)
-/
namespace Verif.Strmode

/-- `type_char()`, src/bfstd.c:500-531. The types that do not exist on Linux (doors, ports, whiteouts) are left out. -/
def typeChar (mode : Nat) : Char :=
  let t := mode &&& 0o170000
  if t = 0o100000 then '-'
  else if t = 0o060000 then 'b'
  else if t = 0o020000 then 'c'
  else if t = 0o040000 then 'd'
  else if t = 0o120000 then 'l'
  else if t = 0o010000 then 'p'
  else if t = 0o140000 then 's'
  else '?'

/-- `if (cond) { str[i] = c; }`. -/
def setIf (cond : Bool) (i : Nat) (c : Char) (str : List Char) : List Char := if cond then str.set i c else str

/-- The three branches for the execute character of a class, src/bfstd.c:544-550, 558-564 and 572-578. -/
def setX (mode special x : Nat) (i : Nat) (upper lower : Char) (str : List Char) : List Char :=
  if mode &&& (special ||| x) = special then str.set i upper
  else if mode &&& special ≠ 0 then str.set i lower
  else if mode &&& x ≠ 0 then str.set i 'x'
  else str

/-- `xstrmode()`, src/bfstd.c:533-579: the characters before the final NUL. -/
def xstrmode (mode : Nat) : List Char :=
  let str := ['-', '-', '-', '-', '-', '-', '-', '-', '-', '-']
  let str := str.set 0 (typeChar mode)
  let str := setIf (mode &&& 0o400 ≠ 0) 1 'r' str
  let str := setIf (mode &&& 0o200 ≠ 0) 2 'w' str
  let str := setX mode 0o4000 0o100 3 'S' 's' str
  let str := setIf (mode &&& 0o040 ≠ 0) 4 'r' str
  let str := setIf (mode &&& 0o020 ≠ 0) 5 'w' str
  let str := setX mode 0o2000 0o010 6 'S' 's' str
  let str := setIf (mode &&& 0o004 ≠ 0) 7 'r' str
  let str := setIf (mode &&& 0o002 ≠ 0) 8 'w' str
  setX mode 0o1000 0o001 9 'T' 't' str

end Verif.Strmode
