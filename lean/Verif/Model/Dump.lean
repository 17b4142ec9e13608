import Verif.Model.Options
import Verif.Model.Cfmt
import Verif.Model.Quote

/-!
# The settings, as `-D` shows them (src/parse.c)

The first line that `bfs_ctx_dump()` prints, after the name of the program, without colors and without the newline at its end. The expressions in the next lines are
printed by `print_expr()`, see Model/Cprint.lean.
-/
namespace Verif.Dump
open Verif.Options Verif.Cmdline

/-- `%d`. -/
def decimal (n : Int) : Arg := Cfmt.int {} n

/-- A space, and a word. -/
def sp (w : Arg) : Arg := 32 :: w

/-- `bftw_strategy_name()`, src/parse.c:3669-3683. -/
def strategyName : Bftw.Strategy → Arg
  | .bfs => A "bfs"
  | .dfs => A "dfs"
  | .ids => A "ids"
  | .eds => A "eds"

/-- How links are followed, in `bfs_ctx_dump()`, src/parse.c:3731-3737. -/
def follow (flags : BitVec 32) : Arg :=
  if has flags FOLLOW_ALL then A "-L" else if has flags FOLLOW_ROOTS then A "-H" else A "-P"

/-- The loop over the debugging flags in `bfs_ctx_dump()`, src/parse.c:3760-3768, from the `i`th one on; `debug_flag_name()`, src/diag.c:46-69. -/
def debugLoop : List Arg → Nat → BitVec 32 → Arg
  | [], _, _ => []
  | name :: names, i, debug =>
    if has debug (1#32 <<< i) then
      name ++ (if debug ^^^ (1#32 <<< i) ≠ 0 then [44] else []) ++ debugLoop names (i + 1) (debug ^^^ (1#32 <<< i))
    else debugLoop names (i + 1) debug

/-- The debugging flags in `bfs_ctx_dump()`, src/parse.c:3755-3769. -/
def debugText (debug : BitVec 32) : Arg :=
  if debug = DEBUG_ALL then sp (A "-D") ++ sp (A "all")
  else if debug ≠ 0 then sp (A "-D") ++ sp (debugLoop debugNames 0 debug)
  else []

/-- The flags in `bfs_ctx_dump()`, src/parse.c:3731-3769. -/
def flagsText (o : Options) : Arg :=
  sp (follow o.flags) ++
  (if o.xargsSafe then sp (A "-X") else []) ++
  (if has o.flags SORT then sp (A "-s") else []) ++
  sp (A "-j" ++ decimal o.threads) ++
  (if o.optlevel ≠ 3 then sp (A "-O" ++ decimal o.optlevel) else []) ++
  (sp (A "-S") ++ sp (strategyName o.strategy)) ++
  debugText o.debug

/-- Must there be `-f`? In `bfs_ctx_dump()`, src/parse.c:3773-3776. -/
def needsF (path : Arg) : Bool :=
  match path with
  | [] => false
  | c :: _ => c == 45 || c == 40 || c == 41 || c == 33 || c == 44

/-- One of the paths in `bfs_ctx_dump()`, src/parse.c:3771-3778. -/
def rootText (L : Quote.Locale) (path : Arg) : Out Arg :=
  (Quote.escape L true path).bind fun quoted => .ok ((if needsF path then sp (A "-f") else []) ++ sp quoted)

/-- The paths in `bfs_ctx_dump()`, src/parse.c:3771-3778. -/
def rootsText (L : Quote.Locale) : List Arg → Out Arg
  | [] => .ok []
  | path :: rest => (rootText L path).bind fun t => (rootsText L rest).bind fun ts => .ok (t ++ ts)

/-- The options in `bfs_ctx_dump()`, src/parse.c:3780-3808. -/
def optionsText (o : Options) : Arg :=
  sp (if o.coutColors then A "-color" else A "-nocolor") ++
  (if has o.flags POST_ORDER then sp (A "-depth") else []) ++
  (if o.ignoreRaces then sp (A "-ignore_readdir_race") else []) ++
  (if o.mindepth ≠ 0 then sp (A "-mindepth") ++ sp (decimal o.mindepth) else []) ++
  (if o.maxdepth ≠ INT_MAX then sp (A "-maxdepth") ++ sp (decimal o.maxdepth) else []) ++
  (if has o.flags SKIP_MOUNTS then sp (A "-mount") else []) ++
  (if o.status then sp (A "-status") else []) ++
  (if o.unique then sp (A "-unique") else []) ++
  (if o.flags &&& (SKIP_MOUNTS ||| PRUNE_MOUNTS) = PRUNE_MOUNTS then sp (A "-xdev") else [])

/-- `bfs_ctx_dump()`, src/parse.c:3722-3816: the line that shows the settings. -/
def line (L : Quote.Locale) (o : Options) (paths : List Arg) : Out Arg :=
  (rootsText L paths).bind fun r => .ok (flagsText o ++ r ++ optionsText o)

end Verif.Dump
