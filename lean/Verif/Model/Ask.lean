import Verif.Model.Options
import Verif.Model.Prompt
import Verif.Model.Typo
/-!
# Who reads standard input, and what is asked before the search (src/parse.c)

`consume_stdin()`, the questions at the end of `parse_whole_expr()`, and the one about misspelled arguments in `parse_primary()`. The texts of messages are parameters.
-/
namespace Verif.Ask
open Verif.Cmdline (Arg A Entry Env Prim Cmd table tableLookup isFlagGroup parseFlagGroup callParse)
open Verif.Options (Options Sys)
open Verif.Prompt (Locale Console ynprompt)

/-- The messages: that an argument is unknown, and which one was perhaps meant; that `-xdev` is redundant; that `-prune` doesn't work; whether to go on; that a result is ignored. -/
structure Texts where
  unknown : Arg → Arg → List UInt8
  redundant : List UInt8
  useless : List UInt8
  goOn : List UInt8
  ignored : List UInt8

/-- The fields of `struct bfs_parser`, src/parse.c:69-115, that remember an expression. -/
structure Exprs where
  depth : Option (Nat × List Arg) := none
  prune : Option (Nat × List Arg) := none
  mount : Option (Nat × List Arg) := none
  xdev : Option (Nat × List Arg) := none
  stdin : Option (Nat × List Arg) := none

/-- `consume_stdin()`, src/parse.c:272-282. -/
def consumeStdin (c : Nat × List Arg) (p : Exprs) : Out Exprs :=
  match p.stdin with
  | some _ => .err "can't both use standard input"
  | none => .ok { p with stdin := some c }

/-- What a call through `entry->parse` remembers: `parse_exec()`, src/parse.c:1303-1309 (`BFS_EXEC_CONFIRM` is from `parse_table`, src/parse.c:3123-3124), `parse_delete()`, src/parse.c:1177-1189,
`parse_depth()`, src/parse.c:1194-1205, `parse_depth_n()`, src/parse.c:1210-1217, `parse_prune()`, src/parse.c:2201-2209, `parse_mount()`, src/parse.c:1672-1681,
`parse_xdev()`, src/parse.c:2585-2594. -/
def remember (c : Nat × List Arg) (p : Exprs) : Out Exprs :=
  match table[c.1]? with
  | none => .ub
  | some e =>
    if e.arg = A "-ok" ∨ e.arg = A "-okdir" then consumeStdin c p
    else if e.arg = A "-delete" ∨ e.arg = A "-rm" ∨ e.arg = A "-d" then .ok { p with depth := some c }
    else if e.arg = A "-depth" then .ok (if c.2.length = 1 then { p with depth := some c } else p)
    else if e.arg = A "-prune" then .ok { p with prune := some c }
    else if e.arg = A "-mount" then .ok { p with mount := some c }
    else if e.arg = A "-x" ∨ e.arg = A "-xdev" then .ok { p with xdev := some c }
    else .ok p

/-- All calls that are made while the expression is parsed. -/
def rememberAll : List (Nat × List Arg) → Exprs → Out Exprs
  | [], p => .ok p
  | c :: cs, p => (remember c p).bind fun p => rememberAll cs p

/-- `parse_files0_roots()`, src/parse.c:3523-3587, if it reads standard input: up to its end. (Other files are opened, which has nothing to do with the terminal; explicit roots are an error.) -/
def files0 (o : Options) (p : Exprs) (t : Console) : Out Console :=
  if o.files0 = some (A "-") then
    (consumeStdin (0, []) p).bind fun _ =>
      (Io.files0Roots t.input).bind fun r =>
        match r with
        | .inr _ => .err "read error"
        | .inl _ => .ok { t with input := { t.input with data := [] } }
  else .ok t

/-- `ctx->interactive`, src/parse.c:3891. -/
def interactive (sys : Sys) : Bool := sys.stdinTty && sys.stderrTty

/-- `parse_conflict_warning()`, src/parse.c:233-249, for `-mount` and `-xdev` at the end of `parse_whole_expr()`, src/parse.c:3645-3649. -/
def warnMount (x : Texts) (o : Options) (p : Exprs) (t : Console) : Console :=
  if p.mount.isSome ∧ p.xdev.isSome then (if o.warn then (t.print x.redundant).2 else t) else t

/-- The question in `parse_whole_expr()`, src/parse.c:3656-3661. -/
def goOn (x : Texts) (sys : Sys) (l : Locale) (t : Console) : Out Console :=
  if interactive sys then
    if (ynprompt l (t.print x.goOn).2).1 ≤ 0 then .err "NULL" else .ok (ynprompt l (t.print x.goOn).2).2
  else .ok t

/-- The end of `parse_whole_expr()`, src/parse.c:3651-3664. -/
def askPrune (x : Texts) (sys : Sys) (l : Locale) (o : Options) (p : Exprs) (t : Console) : Out Console :=
  if o.warn ∧ p.depth.isSome ∧ p.prune.isSome then
    (goOn x sys l (t.print x.useless).2).bind fun t => .ok (t.print [10]).2
  else .ok t

/-- `bfs_parse_cmdline()`, src/parse.c:3827-3951, with the terminal. Misspelled arguments are never corrected here. -/
def parseAsking (env : Env) (x : Texts) (sys : Sys) (l : Locale) (args : List Arg) (t : Console) : Out (Cmd × Options × Console) :=
  (Options.parseCmdline env sys args).bind fun r =>
    (rememberAll r.1.calls {}).bind fun p =>
      (files0 r.2 p t).bind fun t =>
        (askPrune x sys l r.2 p (warnMount x r.2 p t)).bind fun t => .ok (r.1, r.2, t)

/-! ## Ignored results -/

/-- An expression whose result is ignored: whether it is a test, an operator, `-true` or `-false`, and whether it is on the command line (otherwise there is nothing to point at). -/
structure Ignored where
  test : Bool
  parent : Bool
  const : Bool
  given : Bool

/-- `opt_warning()`, src/opt.c:622-641, with `bfs_expr_warning()`, src/diag.c:284-291: is there a warning? `opt->warn` is `ctx->warn`, until `optimize()`, src/opt.c:2175-2183, turns it off for the rest of the passes, from the first reordering on: what is ignored after that is not in the list. -/
def optWarning (o : Options) (e : Ignored) : Bool := !(e.parent || e.const) && (o.warn && e.given)

/-- `opt_ignore()`, src/opt.c:1807-1839, without what becomes of the expression (which is in Model/Opt.lean). -/
def optIgnore (x : Texts) (sys : Sys) (l : Locale) (o : Options) (e : Ignored) (t : Console) : Out Console :=
  if !e.test then .ok t
  else if !optWarning o e then .ok t
  else
    (if o.dangerous then goOn x sys l (t.print x.ignored).2 else .ok (t.print x.ignored).2).bind fun t => .ok (t.print [10]).2

/-- All calls of `opt_ignore()` in `bfs_optimize()`, src/opt.c:2258-2352; NULL is passed on to `bfs_parse_cmdline()`, src/parse.c:3930-3935. -/
def optIgnoreAll (x : Texts) (sys : Sys) (l : Locale) (o : Options) : List Ignored → Console → Out Console
  | [], t => .ok t
  | e :: es, t => (optIgnore x sys l o e t).bind fun t => optIgnoreAll x sys l o es t

/-! ## Misspelled arguments -/

/-- The loop in `table_lookup_fuzzy()`, src/parse.c:3261-3267, with the entries themselves: the index of the best so far, and its distance. -/
def fuzzyLoop (arg : Arg) : List Entry → Nat → Option (Nat × Nat) → Option (Nat × Nat)
  | [], _, best => best
  | e :: es, i, best =>
    fuzzyLoop arg es (i + 1)
      (match best with
        | none => some (i, Typo.typoDistance arg e.arg)
        | some (b, d) => if Typo.typoDistance arg e.arg < d then some (i, Typo.typoDistance arg e.arg) else some (b, d))

/-- `table_lookup_fuzzy()`, src/parse.c:3257-3270. -/
def tableLookupFuzzy (arg : Arg) : Option Nat := (fuzzyLoop arg table 0 none).map (·.1)

/-- `parse_primary()`, src/parse.c:3299-3327, with the entry that was found: the suggestion, and the call if it is accepted. -/
def suggest (env : Env) (x : Texts) (sys : Sys) (l : Locale) (args : List Arg) (t : Console) (i : Nat) (e : Entry) : Out Prim × Console :=
  let t := (t.print (x.unknown (args.headD []) e.arg)).2
  match e.parse with
  | none => (.err "unknown argument", (t.print [10]).2)
  | some p =>
    if !interactive sys then (.err "unknown argument", (t.print [10]).2)
    else if (ynprompt l (t.print [32]).2).1 ≤ 0 then (.err "unknown argument", (ynprompt l (t.print [32]).2).2)
    else (callParse env i p (e.arg :: args.tail), ((ynprompt l (t.print [32]).2).2.print [10]).2)

/-- `parse_primary()`, src/parse.c:3277-3338, with the terminal. -/
def parsePrimary (env : Env) (x : Texts) (sys : Sys) (l : Locale) (args : List Arg) (t : Console) : Out Prim × Console :=
  let arg := args.headD []
  if arg.head? ≠ some 45 then (.err "expected a predicate", t)
  else match tableLookup arg with
    | some i => match table[i]?.bind fun e => e.parse with
      | some p => (callParse env i p args, t)
      | none => (.err "expected a predicate", t)
    | none =>
      if isFlagGroup arg then (parseFlagGroup env args, t)
      else match (tableLookupFuzzy arg).bind fun i => table[i]?.map fun e => (i, e) with
        | none => (.ub, t)
        | some (i, e) => suggest env x sys l args t i e

end Verif.Ask
