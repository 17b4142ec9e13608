import Verif.Model.Options
import Verif.Model.Daystart
/-!
# Flags and options change how later tests are parsed (src/parse.c)

`struct bfs_parser` and `struct bfs_ctx` are passed along while the expression is parsed from left to right, so a test is parsed with whatever the flags and options before it have set.
-/
namespace Verif.Position
open Verif.Cmdline (Arg A table)
open Verif.Options (Options Sys Regex has FOLLOW_ROOTS FOLLOW_ALL apply)
open Verif.Tests (Setting Test ParseFn callFn fnOf)
open Verif.Time (Timespec)
open Verif.Daystart (Clock parseDaystart)

/-- What does not change while the command line is parsed: the system, with `bfs_regcomp()` for all syntaxes, and the clock. (`now`, `followRoots`, `followAll` and `regcomp` of the setting are not used.) -/
structure Outside where
  sys : Sys
  setting : Setting
  regcomp : Regex → Bool → List UInt8 → Option (List UInt8 → Except Nat Bool)
  clock : Clock

/-- The parts of `struct bfs_parser`, src/parse.c:69-115, and of `struct bfs_ctx` that primaries change; `parser->now` is apart from the others. -/
structure Parser where
  opts : Options
  now : Timespec

/-- What a test is parsed with: `parse_time()`, src/parse.c:972-1033, and `parse_min()`, src/parse.c:957-967, use `parser->now`; `stat_arg()`, src/parse.c:377-388, uses `ctx->flags`;
`parse_regex()`, src/parse.c:2221-2244, uses `parser->regex_type`. -/
def Parser.setting (x : Outside) (p : Parser) : Setting :=
  { x.setting with now := p.now, followRoots := has p.opts.flags FOLLOW_ROOTS, followAll := has p.opts.flags FOLLOW_ALL, regcomp := x.regcomp p.opts.regex }

/-- The function that parses a test, from `parse_table`, src/parse.c:3037-3160. `parse_depth_n()`, src/parse.c:1210-1217: `-depth` without a number is an option. -/
def testFn (c : Nat × List Arg) : Option ParseFn :=
  match (table[c.1]?).bind fnOf with
  | some .depthN => if c.2.length = 1 then none else some .depthN
  | f => f

/-- `parse_daystart()`, src/parse.c:1148-1172, if that is what is called. -/
def callNow (x : Outside) (c : Nat × List Arg) (now : Timespec) : Out Timespec :=
  match table[c.1]? with
  | none => .ub
  | some e => if e.arg = A "-daystart" then parseDaystart x.clock now else .ok now

/-- The test, if it is one. -/
def callTest (x : Outside) (c : Nat × List Arg) (p : Parser) : Out (List Test) :=
  match testFn c with
  | none => .ok []
  | some fn => (callFn (p.setting x) fn c.2).bind fun r => .ok [r.1]

/-- A call through `entry->parse`, in `parse_primary()`, src/parse.c:3277-3338, or `parse_flag_group()`, src/parse.c:3227-3254. -/
def step (x : Outside) (c : Nat × List Arg) (p : Parser) : Out (Parser × List Test) :=
  (callTest x c p).bind fun ts => (apply x.sys c p.opts).bind fun o => (callNow x c p.now).bind fun now => .ok (⟨o, now⟩, ts)

/-- All calls that are made while the expression is parsed, and the tests that they return, in their order. -/
def parseCalls (x : Outside) : List (Nat × List Arg) → Parser → Out (List Test)
  | [], _ => .ok []
  | c :: cs, p => (step x c p).bind fun r => (parseCalls x cs r.1).bind fun ts => .ok (r.2 ++ ts)

/-- The tests on a command line; `parser->now` is set at the beginning, src/parse.c:3893-3910. -/
def tests (x : Outside) (now : Timespec) (calls : List (Nat × List Arg)) : Out (List Test) := parseCalls x calls ⟨Options.defaults x.sys, now⟩

end Verif.Position
