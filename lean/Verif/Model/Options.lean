import Verif.Model.Cmdline
import Verif.Model.Num
import Verif.Model.Bftw
import Verif.Model.Main

/-!
# Flags and options (src/parse.c)

What the functions in `parse_table` do to `struct bfs_ctx` and `struct bfs_parser`, when they are called one after the other. How arguments are divided up is in
Model/Cmdline.lean. Messages and warnings are left out. `-daystart`, and what tests and actions make of their own values, are not modelled here.
-/
namespace Verif.Options
open Verif.Cmdline

/-! ## `enum bftw_flags` -/

/-- `BFTW_RECOVER`, src/bftw.h:145. -/
def RECOVER : BitVec 32 := 1#32 <<< 1
/-- `BFTW_POST_ORDER`, src/bftw.h:147. -/
def POST_ORDER : BitVec 32 := 1#32 <<< 2
/-- `BFTW_FOLLOW_ROOTS`, src/bftw.h:149. -/
def FOLLOW_ROOTS : BitVec 32 := 1#32 <<< 3
/-- `BFTW_FOLLOW_ALL`, src/bftw.h:151. -/
def FOLLOW_ALL : BitVec 32 := 1#32 <<< 4
/-- `BFTW_DETECT_CYCLES`, src/bftw.h:153. -/
def DETECT_CYCLES : BitVec 32 := 1#32 <<< 5
/-- `BFTW_SKIP_MOUNTS`, src/bftw.h:155. -/
def SKIP_MOUNTS : BitVec 32 := 1#32 <<< 6
/-- `BFTW_PRUNE_MOUNTS`, src/bftw.h:157. -/
def PRUNE_MOUNTS : BitVec 32 := 1#32 <<< 7
/-- `BFTW_SORT`, src/bftw.h:159. -/
def SORT : BitVec 32 := 1#32 <<< 8

/-- `flags & mask`, as a condition. -/
def has (flags mask : BitVec 32) : Bool := flags &&& mask != 0#32

/-- `enum bfs_regex_type`, src/xregex.h:15-24. -/
inductive Regex
  | posixBasic | posixExtended | awk | gnuAwk | emacs | grep | egrep | gnuFind
  deriving DecidableEq, Repr

/-- The settings in `struct bfs_ctx`, src/ctx.h:27-149, and in `struct bfs_parser`, src/parse.c:69-115. -/
structure Options where
  flags : BitVec 32
  strategy : Bftw.Strategy
  threads : Int
  optlevel : Int
  /-- `enum debug_flags` -/
  debug : BitVec 32
  mindepth : Int
  maxdepth : Int
  xargsSafe : Bool
  ignoreRaces : Bool
  ignoreErrors : Bool
  unique : Bool
  status : Bool
  warn : Bool
  dangerous : Bool
  /-- `ctx->cout->colors` is not null -/
  coutColors : Bool
  /-- `ctx->cerr->colors` is not null -/
  cerrColors : Bool
  regex : Regex
  /-- the value of `parser->files0_expr` -/
  files0 : Option Arg
  deriving DecidableEq, Repr

/-- The system. -/
structure Sys where
  /-- `parse_colors()` succeeds. -/
  colors : Bool
  /-- `NO_COLOR` is set, and not empty. -/
  noColor : Bool
  posixlyCorrect : Bool
  stdinTty : Bool
  stdoutTty : Bool
  stderrTty : Bool
  /-- `nproc()` -/
  nproc : Int
  /-- `BFS_WITH_ONIGURUMA` -/
  oniguruma : Bool
  deriving DecidableEq, Repr

/-- `bfs_ctx_new()`, src/ctx.c:27-77. -/
def defaultThreads (nproc : Int) : Int := if nproc > 8 then 8 else nproc

/-- `cfwrap()`, src/color.c:729-753: are there colors? -/
def wrapColors (sys : Sys) (tty : Bool) : Bool := !sys.noColor && sys.colors && tty

/-- `bfs_ctx_new()`, src/ctx.c:27-77, and the beginning of `bfs_parse_cmdline()`, src/parse.c:3827-3951. -/
def defaults (sys : Sys) : Options where
  flags := RECOVER
  strategy := .bfs
  threads := defaultThreads sys.nproc
  optlevel := 3
  debug := 0
  mindepth := 0
  maxdepth := INT_MAX
  xargsSafe := false
  ignoreRaces := false
  ignoreErrors := false
  unique := false
  status := false
  warn := !sys.posixlyCorrect && sys.stdinTty
  dangerous := false
  coutColors := wrapColors sys sys.stdoutTty
  cerrColors := wrapColors sys sys.stderrTty
  regex := .posixBasic
  files0 := none

/-- The functions in `parse_table`, with `arg1`, as far as they change settings. -/
inductive Setter
  | debug | extended | follow (flags : BitVec 32) | optlevel | strategy | xargsSafe | color (on : Bool) | depth | delete | depthN | exec | files0
  | ignoreRaces (on : Bool) | jobs | depthLimit (isMin : Bool) | mount | noerror | warn (on : Bool) | regextype | sort | status | unique | xdev
  | nothing
  deriving DecidableEq, Repr

/-- The functions in `parse_table`, src/parse.c:3037-3160, by the names of the entries. -/
def setter (name : Arg) : Setter :=
  if name = A "-D" then .debug
  else if name = A "-E" then .extended
  else if name = A "-H" then .follow FOLLOW_ROOTS
  else if name = A "-L" then .follow FOLLOW_ALL
  else if name = A "-O" then .optlevel
  else if name = A "-P" then .follow 0
  else if name = A "-S" then .strategy
  else if name = A "-X" then .xargsSafe
  else if name = A "-color" then .color true
  else if name = A "-d" then .depth
  else if name = A "-delete" then .delete
  else if name = A "-depth" then .depthN
  else if name = A "-exec" then .exec
  else if name = A "-execdir" then .exec
  else if name = A "-files0-from" then .files0
  else if name = A "-follow" then .follow FOLLOW_ALL
  else if name = A "-ignore_readdir_race" then .ignoreRaces true
  else if name = A "-j" then .jobs
  else if name = A "-maxdepth" then .depthLimit false
  else if name = A "-mindepth" then .depthLimit true
  else if name = A "-mount" then .mount
  else if name = A "-nocolor" then .color false
  else if name = A "-noerror" then .noerror
  else if name = A "-noignore_readdir_race" then .ignoreRaces false
  else if name = A "-nowarn" then .warn false
  else if name = A "-regextype" then .regextype
  else if name = A "-rm" then .delete
  else if name = A "-s" then .sort
  else if name = A "-status" then .status
  else if name = A "-unique" then .unique
  else if name = A "-warn" then .warn true
  else if name = A "-x" then .xdev
  else if name = A "-xdev" then .xdev
  else .nothing

/-- The value in `parse_prefix_flag()`, src/parse.c:646-664. `strchr()` returning null is undefined behaviour. -/
def prefixValue (flag : UInt8) (args : List Arg) : Out Arg :=
  match (args.headD []).dropWhile (· ≠ flag) with
  | [] => .ub
  | _ :: suffix =>
    if suffix ≠ [] then .ok suffix
    else match args[1]? with
      | some v => .ok v
      | none => .err "needs a value"

/-- `parse_int(..., IF_INT | IF_UNSIGNED)`, src/parse.c:504-571. -/
def unsignedInt (v : Arg) : Out Int :=
  match Num.parseInt v { size := .int, unsigned := true } with
  | .ok (n, _) => .ok n
  | .error _ => .err "not a number"

/-- `debug_flag_name()`, src/diag.c:46-69, and `enum debug_flags`, src/diag.h:147-164. -/
def debugNames : List Arg := [A "cost", A "exec", A "opt", A "rates", A "search", A "stat", A "tree"]

/-- `DEBUG_ALL`, src/diag.h:163. -/
def DEBUG_ALL : BitVec 32 := (1#32 <<< 7) - 1

/-- One flag in `parse_debug()`, src/parse.c:808-863; unknown ones are only warned about. -/
def debugFlag (flag : Arg) (debug : BitVec 32) : Out (BitVec 32) :=
  if flag = A "help" then .err "just_info"
  else if flag = A "all" then .ok DEBUG_ALL
  else match debugNames.findIdx? (fun name => decide (flag = name)) with
    | some i => .ok (debug ||| (1#32 <<< i))
    | none => .ok debug

/-- The loop of `parse_debug()`, src/parse.c:808-863: `flag` is what has been read since the last comma, backwards. -/
def debugLoop : Arg → Arg → BitVec 32 → Out (BitVec 32)
  | [], flag, debug => debugFlag flag.reverse debug
  | c :: rest, flag, debug =>
    if c = 44 then (debugFlag flag.reverse debug).bind fun debug => debugLoop rest [] debug
    else debugLoop rest (c :: flag) debug

/-- `parse_search_strategy()`, src/parse.c:2355-2392. -/
def strategyOf (v : Arg) : Out Bftw.Strategy :=
  if v = A "bfs" then .ok .bfs
  else if v = A "dfs" then .ok .dfs
  else if v = A "ids" then .ok .ids
  else if v = A "eds" then .ok .eds
  else if v = A "help" then .err "just_info"
  else .err "unrecognized search strategy"

/-- The types with Oniguruma in `parse_regextype()`, src/parse.c:2257-2323. -/
def onigType (v : Arg) : Out Regex :=
  if v = A "awk" ∨ v = A "posix-awk" then .ok .awk
  else if v = A "gnu-awk" then .ok .gnuAwk
  else if v = A "emacs" then .ok .emacs
  else if v = A "grep" then .ok .grep
  else if v = A "egrep" ∨ v = A "posix-egrep" then .ok .egrep
  else if v = A "findutils-default" then .ok .gnuFind
  else .err "unsupported regex type"

/-- `parse_regextype()`, src/parse.c:2257-2323. -/
def regexType (oniguruma : Bool) (v : Arg) : Out Regex :=
  if v = A "posix-basic" ∨ v = A "posix-minimal-basic" ∨ v = A "ed" ∨ v = A "sed" then .ok .posixBasic
  else if v = A "posix-extended" then .ok .posixExtended
  else if oniguruma then onigType v
  else .err "unsupported regex type"

/-- `parse_optlevel()`, src/parse.c:868-888. -/
def optlevelOf (v : Arg) : Out Int := if v = A "fast" then .ok 4 else unsignedInt v

/-- `expr->argv[1]`. -/
def value (args : List Arg) : Out Arg :=
  match args[1]? with
  | some v => .ok v
  | none => .err "needs a value"

/-- `parse_depth()`, src/parse.c:1194-1205. -/
def setDepth (o : Options) : Options := { o with flags := o.flags ||| POST_ORDER }

/-- `parse_jobs()`, src/parse.c:1605-1624. -/
def setJobs (o : Options) (n : Int) : Out Options := if n = 0 then .err "not enough threads" else .ok { o with threads := n }

/-- `parse_depth_limit()`, src/parse.c:1222-1236. -/
def setLimit (isMin : Bool) (o : Options) (n : Int) : Options := if isMin then { o with mindepth := n } else { o with maxdepth := n }

/-- `parse_color()`, src/parse.c:1050-1075. -/
def setColor (sys : Sys) (on : Bool) (o : Options) : Out Options :=
  if on then
    if !sys.colors then .err "error parsing $LS_COLORS"
    else .ok { o with coutColors := sys.colors, cerrColors := sys.colors }
  else .ok { o with coutColors := false, cerrColors := false }

/-- Calling one of the functions with the arguments it takes: `parse_debug()`, src/parse.c:808-863, `parse_regex_extended()`, src/parse.c:2249-2252,
`parse_follow()`, src/parse.c:893-902, `parse_xargs_safe()`, src/parse.c:907-910, `parse_delete()`, src/parse.c:1177-1189, `parse_depth_n()`, src/parse.c:1210-1217,
`parse_exec()`, src/parse.c:1253-1312 (`dangerous` only), `parse_files0_from()`, src/parse.c:1358-1372, `parse_ignore_races()`, src/parse.c:1590-1593,
`parse_mount()`, src/parse.c:1672-1681, `parse_noerror()`, src/parse.c:1824-1827, `parse_warn()`, src/parse.c:2553-2556, `parse_s()`, src/parse.c:2328-2331,
`parse_status()`, src/parse.c:2475-2478, `parse_unique()`, src/parse.c:1540-1543, `parse_xdev()`, src/parse.c:2585-2594. -/
def call (sys : Sys) (f : Setter) (args : List Arg) (o : Options) : Out Options :=
  match f with
  | .debug => (prefixValue 68 args).bind fun v => (debugLoop v [] o.debug).bind fun d => .ok { o with debug := d }
  | .extended => .ok { o with regex := .posixExtended }
  | .follow flags => .ok { o with flags := (o.flags &&& ~~~(FOLLOW_ROOTS ||| FOLLOW_ALL)) ||| flags }
  | .optlevel => (prefixValue 79 args).bind fun v => (optlevelOf v).bind fun n => .ok { o with optlevel := n }
  | .strategy => (prefixValue 83 args).bind fun v => (strategyOf v).bind fun s => .ok { o with strategy := s }
  | .xargsSafe => .ok { o with xargsSafe := true }
  | .color on => setColor sys on o
  | .depth => .ok (setDepth o)
  | .delete => .ok { o with flags := o.flags ||| POST_ORDER, dangerous := true }
  | .depthN => if args[1]? = none then .ok (setDepth o) else .ok o
  | .exec => .ok { o with dangerous := true }
  | .files0 => (value args).bind fun v => .ok { o with files0 := some v }
  | .ignoreRaces on => .ok { o with ignoreRaces := on }
  | .jobs => (prefixValue 106 args).bind fun v => (unsignedInt v).bind fun n => setJobs o n
  | .depthLimit isMin => (value args).bind fun v => (unsignedInt v).bind fun n => .ok (setLimit isMin o n)
  | .mount => .ok { o with flags := o.flags ||| SKIP_MOUNTS }
  | .noerror => .ok { o with ignoreErrors := true }
  | .warn on => .ok { o with warn := on }
  | .regextype => (value args).bind fun v => (regexType sys.oniguruma v).bind fun r => .ok { o with regex := r }
  | .sort => .ok { o with flags := o.flags ||| SORT }
  | .status => .ok { o with status := true }
  | .unique => .ok { o with unique := true }
  | .xdev => .ok { o with flags := o.flags ||| PRUNE_MOUNTS }
  | .nothing => .ok o

/-- A call through `entry->parse`, in `parse_primary()`, src/parse.c:3277-3338, or `parse_flag_group()`, src/parse.c:3227-3254. -/
def apply (sys : Sys) (c : Nat × List Arg) (o : Options) : Out Options :=
  match table[c.1]? with
  | none => .ub
  | some e => call sys (setter e.arg) c.2 o

/-- All calls, in the order of the arguments. (In the code they are made while the expression is parsed; this only matters for which error is reported.) -/
def configure (sys : Sys) : List (Nat × List Arg) → Options → Out Options
  | [], o => .ok o
  | c :: cs, o => (apply sys c o).bind (configure sys cs)

/-- The end of `bfs_parse_cmdline()`, src/parse.c:3827-3951. -/
def detectCycles (o : Options) : Options :=
  if has o.flags FOLLOW_ALL && !o.unique then { o with flags := o.flags ||| DETECT_CYCLES } else o

/-- `bfs_parse_cmdline()`, src/parse.c:3827-3951, without `bfs_optimize()`. -/
def parseCmdline (env : Cmdline.Env) (sys : Sys) (args : List Arg) : Out (Cmd × Options) :=
  (whole (prim env) args).bind fun cmd => (configure sys cmd.calls (defaults sys)).bind fun o => .ok (cmd, detectCycles o)

/-- What `eval_callback()`, src/eval.c:1457-1551, uses of the settings; `gone` are the files that are no longer there when an error is reported. -/
def Options.search (o : Options) (gone : Bftw.Pos → Bool) : Main.Settings :=
  { mindepth := o.mindepth, maxdepth := o.maxdepth, xargsSafe := o.xargsSafe, ignoreRaces := o.ignoreRaces, ignoreErrors := o.ignoreErrors, gone }

/-- `main()`, src/main.c:117-152, with the settings from the command line: `bfs_optimize()`, src/opt.c:2258-2280, uses `ctx->optlevel`, and `bfs_eval()`,
src/eval.c:1698-1796, passes on the flags, the strategy, and one thread less than there are. Without `-files0-from` and `-unique`. -/
structure Started {T : Type} (env : Cmdline.Env) (sys : Sys) (b : Main.Behaviour) (E : Opt.Env T) (a : Opt.Ann T) (gone : Bftw.Pos → Bool) (e : Bftw.Env)
    (args : List Arg) (cmd : Cmd) (o : Options) (tr : List Bftw.Event) (complete : Bool) (out : List Main.Effect) (status : Nat) : Prop where
  settings : parseCmdline env sys args = .ok (cmd, o)
  nofiles : o.files0 = none
  notUnique : o.unique = false
  level : E.level = o.optlevel.toNat
  post : e.post = has o.flags POST_ORDER
  sort : e.sort = has o.flags SORT
  skipMounts : e.skipMounts = has o.flags SKIP_MOUNTS
  pruneMounts : e.pruneMounts = has o.flags PRUNE_MOUNTS
  strategy : e.strategy = o.strategy
  nthreads : (e.nthreads : Int) = o.threads - 1
  ran : Main.Ran env b E a (o.search gone) e args cmd tr complete out status

end Verif.Options
