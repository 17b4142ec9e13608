import Verif.Model.Position
import Verif.Spec.Options
/-!
# Which flags and options count for a test
-/
namespace Verif.Spec.Position
open Verif.Position
open Verif.Options
open Verif.Tests (Setting ParseFn)
open Verif.Time (Timespec)
open Verif.Daystart (Clock parseDaystart)

/-- What the time becomes after that many `-daystart`. -/
inductive Daystarts (c : Clock) : Nat → Timespec → Timespec → Prop
  | zero (t : Timespec) : Daystarts c 0 t t
  | succ (n : Nat) (t u v : Timespec) : Daystarts c n t u → parseDaystart c u = .ok v → Daystarts c (n + 1) t v

/-- The syntax of regular expressions: by the last `-E` or `-regextype`; otherwise it is POSIX's basic one. -/
inductive Syntax (library : Bool) (calls : List Call) : Regex → Prop
  | default : last ["-E", "-regextype"] calls = none → Syntax library calls .posixBasic
  | extended (c : Call) : last ["-E", "-regextype"] calls = some c → c.is ["-E"] = true → Syntax library calls .posixExtended
  | named (c : Call) (v : List UInt8) (r : Regex) : last ["-E", "-regextype"] calls = some c → c.is ["-regextype"] = true → NextValue c v → RegexName library v r → Syntax library calls r

/-- What a test is parsed with, if these flags, options, tests and actions are to the left of it. -/
structure SettingFor (x : Outside) (now : Timespec) (before : List Call) (s : Setting) : Prop where
  /-- `-daystart` -/
  daystart : Daystarts x.clock (before.countP fun c => c.is ["-daystart"]) now s.now
  /-- `-P`, `-H`, `-L` and `-follow`: the last one counts. -/
  followRoots : s.followRoots = true ↔ ∃ c, last ["-P", "-H", "-L", "-follow"] before = some c ∧ c.is ["-H"] = true
  followAll : s.followAll = true ↔ ∃ c, last ["-P", "-H", "-L", "-follow"] before = some c ∧ c.is ["-L", "-follow"] = true
  /-- `-E` and `-regextype` -/
  regex : ∃ r, Syntax x.sys.oniguruma before r ∧ s.regcomp = x.regcomp r
  /-- Nothing else changes. -/
  others : s = { x.setting with now := s.now, followRoots := s.followRoots, followAll := s.followAll, regcomp := s.regcomp }

/-- The call is a test, and this function of the table parses it. `-depth` without a number is no test. -/
def IsTest (c : Call) (fn : ParseFn) : Prop := ∃ e, Cmdline.table[c.1]? = some e ∧ Tests.fnOf e = some fn ∧ (c.is ["-depth"] = true → c.2.length ≠ 1)

/-- Tests about ages, regular expressions, and other files. -/
def Depends : ParseFn → Prop
  | .min _ | .time _ => True
  | .regex _ => True
  | .newer _ | .newerxy | .samefile => True
  | _ => False

end Verif.Spec.Position
