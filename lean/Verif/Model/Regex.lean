/-!
# Regular expressions

`bfs_regcomp()` and `bfs_regexec()` of src/xregex.c, in both configurations. The libraries are parameters; for Oniguruma there is also a small backtracking matcher.
-/
namespace Verif.Regex
abbrev Bytes := List UInt8

/-! ## With `<regex.h>` -/

/-- What `regexec()` returns: the offsets `rm_so` and `rm_eo`, `REG_NOMATCH`, or an error. -/
inductive Posix where
  | found (so eo : Nat)
  | missing
  | error (code : Nat)
  deriving DecidableEq, Repr

/-- `bfs_regexec()`, src/xregex.c:286-310, without Oniguruma; `regexec` is given the string. The result and `regex->err`, if that is set. -/
def posixExec (regexec : Bytes → Posix) (anchor : Bool) (str : Bytes) : Int × Option Nat :=
  match regexec str with
  | .found so eo => if anchor then ((if so = 0 ∧ eo = str.length then 1 else 0), none) else (1, none)
  | .missing => (0, none)
  | .error code => (-1, some code)

/-! ## With Oniguruma -/

/-- What `onig_match()` and `onig_search()` return: a length or an offset, `ONIG_MISMATCH`, or another negative number. -/
inductive Onig where
  | found (n : Nat)
  | mismatch
  | error (code : Nat)
  deriving DecidableEq, Repr

/-- The library: is a string valid in the encoding, match at the beginning, and search. -/
structure OnigLib where
  valid : Bytes → Bool
  matches_ : Bytes → Onig
  search : Bytes → Onig

/-- The library function that is called, src/xregex.c:267-272. -/
def onigCall (lib : OnigLib) (anchor : Bool) (str : Bytes) : Onig :=
  if anchor then lib.matches_ str else lib.search str

/-- `bfs_regexec()`, src/xregex.c:256-285, with Oniguruma. -/
def onigExec (lib : OnigLib) (anchor : Bool) (str : Bytes) : Int × Option Nat :=
  if !lib.valid str then (0, none)
  else
    match onigCall lib anchor str with
    | .found n => if anchor then ((if n = str.length then 1 else 0), none) else (1, none)
    | .mismatch => (0, none)
    | .error code => (-1, some code)

/-- What `eval_regex()`, src/eval.c:916-931, makes of a result of `bfs_regexec()`: negative ones are errors, positive ones are true. -/
def outcome (ret : Int × Option Nat) : Except Nat Bool :=
  if ret.1 < 0 then .error (ret.2.getD 0) else .ok (decide (ret.1 > 0))

/-- `eval_regex()`, src/eval.c:916-931, calls `bfs_regexec()` with `BFS_REGEX_ANCHOR`. This is the matcher that is a parameter of Model/Tests.lean. -/
def matcher (exec : Bool → Bytes → Int × Option Nat) (path : Bytes) : Except Nat Bool := outcome (exec true path)

/-! ## A backtracking matcher

How Oniguruma matches (not code of bfs): alternatives from left to right, repetitions as often as possible, and the first way that works is taken. A loop stops if an iteration matches nothing. -/

/-- Regular expressions. -/
inductive Re where
  | empty
  | set (p : UInt8 → Bool)
  | cat (a b : Re)
  | alt (a b : Re)
  | star (a : Re)
  | eol

/-- All ways to continue after some iterations, most iterations first. -/
def iterate (step : Bytes → List Bytes) : Nat → Bytes → List Bytes
  | 0, s => [s]
  | fuel + 1, s => ((step s).filter fun t => t.length < s.length).flatMap (iterate step fuel) ++ [s]

/-- What may remain of a string after a match, in the order in which a backtracking matcher tries. -/
def Re.ends : Re → Bytes → List Bytes
  | .empty, s => [s]
  | .set _, [] => []
  | .set p, c :: s => if p c then [s] else []
  | .cat a b, s => (a.ends s).flatMap b.ends
  | .alt a b, s => a.ends s ++ b.ends s
  | .star a, s => iterate a.ends s.length s
  | .eol, s => if s = [] then [s] else []

/-- The match at the beginning that is found first. -/
def Re.backtrack (r : Re) (s : Bytes) : Onig :=
  match r.ends s with
  | [] => .mismatch
  | t :: _ => .found (s.length - t.length)

/-! ## Options

Only the syntax types that matter: the ones that are library constants, and those that `bfs_onig_once()` computes. -/

/-- `ONIG_OPTION_IGNORECASE` and `ONIG_OPTION_MULTILINE`. -/
structure Opts where
  ignorecase : Bool := false
  multiline : Bool := false
  deriving DecidableEq, Repr

/-- Bitwise or. -/
def Opts.or (a b : Opts) : Opts := ⟨a.ignorecase || b.ignorecase, a.multiline || b.multiline⟩

/-- `enum bfs_regex_type`, src/xregex.h. -/
inductive Type_ where
  | posixBasic | posixExtended | awk | gnuAwk | emacs | grep | egrep | gnuFind
  deriving DecidableEq, Repr

/-- The options of the syntax types; the static ones are zero before `bfs_onig_once()` was called, src/xregex.c:42-46,141-142. The options of the library's constants are a parameter. -/
def syntaxOptions (lib : Type_ → Opts) (initialized : Bool) : Type_ → Opts
  | .gnuFind => if initialized then { lib .emacs with multiline := true } else {}
  | .awk => if initialized then lib .posixExtended else {}
  | .gnuAwk => if initialized then lib .posixExtended else {}
  | .emacs => if initialized then lib .emacs else {}
  | .egrep => if initialized then lib .posixExtended else {}
  | t => lib t

/-- `bfs_regcomp()`, src/xregex.c:175-219: the options that are passed to `onig_new()`, which are read from the syntax before `bfs_onig_initialize()`; afterwards it is initialized. -/
def regcompOptions (lib : Type_ → Opts) (initialized : Bool) (t : Type_) (icase : Bool) : Opts × Bool :=
  ((syntaxOptions lib initialized t).or { ignorecase := icase }, true)

/-- The options of the compiled expression: does `onig_new()` add those of the syntax by itself? -/
def compiledOptions (libAdds : Bool) (lib : Type_ → Opts) (initialized : Bool) (t : Type_) (icase : Bool) : Opts :=
  if libAdds then (regcompOptions lib initialized t icase).1.or (syntaxOptions lib true t) else (regcompOptions lib initialized t icase).1

/-- The options of all expressions of a command line, in order. -/
def compileAll (libAdds : Bool) (lib : Type_ → Opts) : Bool → List (Type_ × Bool) → List Opts
  | _, [] => []
  | init, (t, icase) :: rest => compiledOptions libAdds lib init t icase :: compileAll libAdds lib (regcompOptions lib init t icase).2 rest

end Verif.Regex
