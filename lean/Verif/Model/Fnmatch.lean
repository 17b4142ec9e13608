import Verif.Model.C
/-!
# Patterns: `-name` and the like (src/parse.c, src/eval.c)
-/
namespace Verif.Fnmatch

abbrev Bytes := List UInt8

/-- The functions of the C library that are used: `fnmatch()` with or without `FNM_CASEFOLD` (does it return 0?), and `tolower()` for `strcasecmp()`. -/
structure Libc where
  fnmatch : Bool → Bytes → Bytes → Bool
  tolower : UInt8 → UInt8

/-- `strcasecmp() == 0`. -/
def strcaseeq (c : Libc) (a b : Bytes) : Bool := a.map c.tolower = b.map c.tolower

/-- The fields of `struct bfs_expr`, src/expr.h:175-183: `casefold` is whether `fnm_flags` is `FNM_CASEFOLD`. -/
structure Pattern where
  pattern : Bytes
  casefold : Bool
  literal : Bool
  deriving DecidableEq, Repr

/-- The loop in `parse_fnmatch()`, src/parse.c:1080-1123, over the pattern from its end: how many backslashes (92) there are. -/
def backslashes : Bytes → Nat
  | [] => 0
  | c :: rest => if c ≠ 92 then 0 else backslashes rest + 1

/-- `strcspn(pattern, "?*\\[")`. -/
def plainLength : Bytes → Nat
  | [] => 0
  | c :: rest => if c = 63 ∨ c = 42 ∨ c = 92 ∨ c = 91 then 0 else plainLength rest + 1

/-- `parse_fnmatch()`, src/parse.c:1080-1123. No pattern: the test becomes `-false`. -/
def parseFnmatch (hasCasefold : Bool) (pattern : Bytes) (casefold : Bool) : Out (Option Pattern) :=
  if casefold && !hasCasefold then .err "missing platform support"
  else if backslashes pattern.reverse % 2 ≠ 0 then .ok none
  else .ok (some { pattern, casefold, literal := plainLength pattern = pattern.length })

/-- `eval_fnmatch()`, src/eval.c:160-171. -/
def evalFnmatch (c : Libc) (p : Pattern) (str : Bytes) : Bool :=
  if p.literal then (if p.casefold then strcaseeq c p.pattern str else p.pattern = str)
  else c.fnmatch p.casefold p.pattern str

end Verif.Fnmatch
