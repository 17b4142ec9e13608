import Verif.Model.C
/-!
# Parsing the command line (src/parse.c)

Arguments are lists of bytes. Failing allocations, error messages, warnings and prompts are not modelled here (see Model/Ask.lean): the interactive correction of a misspelled argument is always refused. Neither is `-files0-from`. Whether the values that an argument takes are acceptable (`valid`) is a parameter; how many of them there are is not.
-/
namespace Verif.Cmdline

abbrev Arg := List UInt8

/-- A string literal of the code. -/
def A (s : String) : Arg := s.toList.map fun c => UInt8.ofNat c.toNat

/-- `enum bfs_kind`, src/expr.h:19-36. -/
inductive Kind
  | flag | option | test | action | operator
  deriving DecidableEq, Repr

/-- What `parse_primary()` leaves behind. -/
structure Prim where
  /-- Which entries of the table were used, and the arguments they took. -/
  calls : List (Nat × List Arg)
  /-- The number of arguments used up. -/
  argc : Nat
  /-- Whether it starts the expression: anything but a flag does. -/
  starts : Bool
  action : Bool
  /-- An action that suppresses the implicit `-print`. -/
  loud : Bool
  /-- `-limit`. -/
  limit : Bool
  /-- The paths of `-f`. -/
  roots : List Arg
  /-- `-nohidden`. -/
  nohidden : Bool
  deriving DecidableEq, Repr

/-- Leaves of expressions. -/
inductive Leaf
  | prim (p : Prim)
  /-- The `-true` that stands for `-exclude ...`, or for no expression at all. -/
  | yes
  /-- The `-hidden` of `-nohidden`. -/
  | hidden
  /-- The implicit `-print`. -/
  | print
  deriving DecidableEq, Repr

/-- `struct bfs_expr`, src/expr.h:92-223: `eval_not`, `eval_and`, `eval_or` and `eval_comma`, with the children that `new_unary_expr()` and
`new_binary_expr()`, src/parse.c:298-322, give them. -/
inductive E
  | leaf (l : Leaf)
  | not (e : E)
  | and (a b : E)
  | or (a b : E)
  | comma (a b : E)
  deriving DecidableEq, Repr

/-- `struct bfs_parser`, src/parse.c:69-115, and the parts of `struct bfs_ctx` that it fills in. -/
structure St where
  args : List Arg
  started : Bool
  excluding : Bool
  implicitPrint : Bool
  limit : Bool
  roots : List Arg
  excludes : List E
  /-- The entries of the table that have been used, oldest first, with their arguments. What they do to the settings is in Model/Options.lean. -/
  calls : List (Nat × List Arg)
  deriving DecidableEq, Repr

/-- `parser_advance(parser, BFS_OPERATOR, 1)`, src/parse.c:398-415. -/
def advance (st : St) : St := { st with args := st.args.drop 1, started := true }

/-- `skip_paths()`, src/parse.c:441-487: the paths, and what is left. -/
def skipArgs (started : Bool) : List Arg → List Arg × List Arg
  | [] => ([], [])
  | a :: rest =>
    if a.head? = some 45 ∧ a = A "--" then skipArgs started rest
    else if a.head? = some 45 ∧ a ≠ A "-" then ([], a :: rest)
    else if a = A "(" ∨ a = A "!" then ([], a :: rest)
    else if started ∧ (a = A ")" ∨ a = A ",") then ([], a :: rest)
    else (a :: (skipArgs started rest).1, (skipArgs started rest).2)

/-- `skip_paths()`, src/parse.c:441-487. -/
def skipPaths (st : St) : St := { st with args := (skipArgs st.started st.args).2, roots := st.roots ++ (skipArgs st.started st.args).1 }

/-- The effects of a primary on the parser. -/
def usePrim (st : St) (p : Prim) : St :=
  { st with
    args := st.args.drop p.argc
    started := st.started || p.starts
    implicitPrint := st.implicitPrint && !p.loud
    limit := st.limit || p.limit
    roots := st.roots ++ p.roots
    excludes := st.excludes ++ (if p.nohidden then [E.leaf .hidden] else [])
    calls := st.calls ++ p.calls }

/-- `parse_primary()`, src/parse.c:3277-3338; actions are refused within `-exclude`, src/parse.c:727-740. -/
def primary (prim : List Arg → Out Prim) (st : St) : Out (E × St) :=
  (prim st.args).bind fun p =>
    if p.action ∧ st.excluding then .err "not supported within -exclude"
    else .ok (.leaf (.prim p), usePrim st p)

/-- The end of `parse_factor()` for parentheses, src/parse.c:3364-3376. -/
def closeParen (e : E) (st : St) : Out (E × St) :=
  let st := skipPaths st
  match st.args with
  | [] => .err "expected a )"
  | a :: _ => if a = A ")" then .ok (e, advance st) else .err "expected a )"

/-- The end of `parse_factor()` for `-exclude`, src/parse.c:3391-3394. -/
def excluded (f : E) (st : St) : E × St := (.leaf .yes, { st with excluding := false, excludes := st.excludes ++ [f] })

/-- Skip an `-a` or `-and`, src/parse.c:3434-3437. -/
def skipAnd (a : Arg) (st : St) : St := if a = A "-a" ∨ a = A "-and" then advance st else st

/- The first argument bounds the depth of the recursion and the length of the loops; running out of it is `ub`. -/
mutual

/-- `parse_factor()`, src/parse.c:3346-3407. -/
def factor (prim : List Arg → Out Prim) : Nat → St → Out (E × St)
  | 0, _ => .ub
  | n + 1, st =>
    match (skipPaths st).args with
    | [] => .err "expression terminated prematurely"
    | a :: _ =>
      if a = A "(" then (expr prim n (advance (skipPaths st))).bind fun r => closeParen r.1 r.2
      else if a = A "-exclude" then
        if st.excluding then .err "not supported within -exclude"
        else (factor prim n { advance (skipPaths st) with excluding := true }).bind fun r => .ok (excluded r.1 r.2)
      else if a = A "!" ∨ a = A "-not" then (factor prim n (advance (skipPaths st))).bind fun r => .ok (.not r.1, r.2)
      else primary prim (skipPaths st)

/-- `parse_term()`, src/parse.c:3415-3449. -/
def term (prim : List Arg → Out Prim) : Nat → St → Out (E × St)
  | 0, _ => .ub
  | n + 1, st => (factor prim n st).bind fun r => termLoop prim n r.1 r.2

/-- The loop of `parse_term()`, src/parse.c:3415-3449. -/
def termLoop (prim : List Arg → Out Prim) : Nat → E → St → Out (E × St)
  | 0, _, _ => .ub
  | n + 1, lhs, st =>
    match (skipPaths st).args with
    | [] => .ok (lhs, skipPaths st)
    | a :: _ =>
      if a = A "-o" ∨ a = A "-or" ∨ a = A "," ∨ a = A ")" then .ok (lhs, skipPaths st)
      else (factor prim n (skipAnd a (skipPaths st))).bind fun r => termLoop prim n (.and lhs r.1) r.2

/-- `parse_clause()`, src/parse.c:3456-3485. -/
def clause (prim : List Arg → Out Prim) : Nat → St → Out (E × St)
  | 0, _ => .ub
  | n + 1, st => (term prim n st).bind fun r => clauseLoop prim n r.1 r.2

/-- The loop of `parse_clause()`, src/parse.c:3456-3485. -/
def clauseLoop (prim : List Arg → Out Prim) : Nat → E → St → Out (E × St)
  | 0, _, _ => .ub
  | n + 1, lhs, st =>
    match (skipPaths st).args with
    | [] => .ok (lhs, skipPaths st)
    | a :: _ =>
      if a ≠ A "-o" ∧ a ≠ A "-or" then .ok (lhs, skipPaths st)
      else (term prim n (advance (skipPaths st))).bind fun r => clauseLoop prim n (.or lhs r.1) r.2

/-- `parse_expr()`, src/parse.c:3491-3520. -/
def expr (prim : List Arg → Out Prim) : Nat → St → Out (E × St)
  | 0, _ => .ub
  | n + 1, st => (clause prim n st).bind fun r => exprLoop prim n r.1 r.2

/-- The loop of `parse_expr()`, src/parse.c:3491-3520. -/
def exprLoop (prim : List Arg → Out Prim) : Nat → E → St → Out (E × St)
  | 0, _, _ => .ub
  | n + 1, lhs, st =>
    match (skipPaths st).args with
    | [] => .ok (lhs, skipPaths st)
    | a :: _ =>
      if a ≠ A "," then .ok (lhs, skipPaths st)
      else (clause prim n (advance (skipPaths st))).bind fun r => exprLoop prim n (.comma lhs r.1) r.2

end

/-- A parsed command line. -/
structure Cmd where
  expr : E
  roots : List Arg
  excludes : List E
  calls : List (Nat × List Arg)
  deriving DecidableEq, Repr

/-- The end of `parse_whole_expr()`, src/parse.c:3592-3667, without `-files0-from`. -/
def finish (e : E) (st : St) : Out Cmd :=
  if st.args ≠ [] then .err "unexpected argument"
  else if st.implicitPrint ∧ st.limit then .err "you must specify an action explicitly"
  else .ok
    { expr := if st.implicitPrint then .and e (.leaf .print) else e
      roots := if st.roots = [] then [A "."] else st.roots
      excludes := st.excludes
      calls := st.calls }

/-- Initially; src/parse.c:3893-3906. -/
def start (args : List Arg) : St :=
  { args, started := false, excluding := false, implicitPrint := true, limit := false, roots := [], excludes := [], calls := [] }

/-- `parse_whole_expr()`, src/parse.c:3592-3667. -/
def whole (prim : List Arg → Out Prim) (args : List Arg) : Out Cmd :=
  if (skipPaths (start args)).args = [] then finish (.leaf .yes) (skipPaths (start args))
  else (expr prim (4 * args.length + 4) (skipPaths (start args))).bind fun r => finish r.1 r.2

/-! ## Primaries -/

/-- How many arguments a primary takes. -/
inductive Shape
  | nullary
  | unary
  /-- `parse_prefix_flag()`: whether the value may be in the next argument. -/
  | prefixed (flag : UInt8) (separate : Bool)
  /-- `parse_depth_n()`. -/
  | depth
  /-- `parse_exec()`: whether it is `-ok` or `-okdir`. -/
  | exec (confirm : Bool)
  /-- `parse_exit()`. -/
  | exit
  /-- `parse_fprintf()`. -/
  | fprintf
  /-- `parse_newerxy()`. -/
  | newerxy
  /-- `parse_help()` and `parse_version()`. -/
  | info
  deriving DecidableEq, Repr

/-- A function of type `parse_fn`. -/
structure Parser where
  shape : Shape
  /-- The kind passed to `parser_advance()`. -/
  kind : Kind
  /-- `eval_limit`, `eval_prune` and `eval_quit` do not suppress the implicit `-print`. -/
  quiet : Bool := false
  limit : Bool := false
  root : Bool := false
  nohidden : Bool := false
  deriving DecidableEq, Repr

/-- `struct table_entry`, src/parse.c:3024-3032. -/
structure Entry where
  arg : Arg
  kind : Kind
  parse : Option Parser
  pre : Bool := false
  needsArg : Bool := false
  deriving DecidableEq, Repr

def nf : Option Parser := some { shape := .nullary, kind := .flag }
def no : Option Parser := some { shape := .nullary, kind := .option }
def nt : Option Parser := some { shape := .nullary, kind := .test }
def na : Option Parser := some { shape := .nullary, kind := .action }
def uo : Option Parser := some { shape := .unary, kind := .option }
def ut : Option Parser := some { shape := .unary, kind := .test }
def ua : Option Parser := some { shape := .unary, kind := .action }
def ex (confirm : Bool) : Option Parser := some { shape := .exec confirm, kind := .action }
def info : Option Parser := some { shape := .info, kind := .action }

/-- `parse_table`, src/parse.c:3037-3160. -/
def table : List Entry := [
  ⟨A "--", .flag, none, false, false⟩,
  ⟨A "--help", .action, info, false, false⟩,
  ⟨A "--version", .action, info, false, false⟩,
  ⟨A "-Bmin", .test, ut, false, false⟩,
  ⟨A "-Bnewer", .test, ut, false, false⟩,
  ⟨A "-Bsince", .test, ut, false, false⟩,
  ⟨A "-Btime", .test, ut, false, false⟩,
  ⟨A "-D", .flag, some { shape := .prefixed 68 true, kind := .flag }, true, false⟩,
  ⟨A "-E", .flag, nf, false, false⟩,
  ⟨A "-H", .flag, nf, false, false⟩,
  ⟨A "-L", .flag, nf, false, false⟩,
  ⟨A "-O", .flag, some { shape := .prefixed 79 false, kind := .flag }, true, false⟩,
  ⟨A "-P", .flag, nf, false, false⟩,
  ⟨A "-S", .flag, some { shape := .prefixed 83 true, kind := .flag }, true, false⟩,
  ⟨A "-X", .flag, nf, false, false⟩,
  ⟨A "-a", .operator, none, false, false⟩,
  ⟨A "-acl", .test, nt, false, false⟩,
  ⟨A "-amin", .test, ut, false, false⟩,
  ⟨A "-and", .operator, none, false, false⟩,
  ⟨A "-anewer", .test, ut, false, false⟩,
  ⟨A "-asince", .test, ut, false, false⟩,
  ⟨A "-atime", .test, ut, false, false⟩,
  ⟨A "-capable", .test, nt, false, false⟩,
  ⟨A "-cmin", .test, ut, false, false⟩,
  ⟨A "-cnewer", .test, ut, false, false⟩,
  ⟨A "-color", .option, no, false, false⟩,
  ⟨A "-context", .test, ut, false, false⟩,
  ⟨A "-csince", .test, ut, false, false⟩,
  ⟨A "-ctime", .test, ut, false, false⟩,
  ⟨A "-d", .flag, nf, false, false⟩,
  ⟨A "-daystart", .option, no, false, false⟩,
  ⟨A "-delete", .action, na, false, false⟩,
  ⟨A "-depth", .option, some { shape := .depth, kind := .option }, false, false⟩,
  ⟨A "-empty", .test, nt, false, false⟩,
  ⟨A "-exclude", .operator, none, false, false⟩,
  ⟨A "-exec", .action, ex false, false, false⟩,
  ⟨A "-execdir", .action, ex false, false, false⟩,
  ⟨A "-executable", .test, nt, false, false⟩,
  ⟨A "-exit", .action, some { shape := .exit, kind := .action }, false, false⟩,
  ⟨A "-f", .flag, some { shape := .unary, kind := .flag, root := true }, false, true⟩,
  ⟨A "-false", .test, nt, false, false⟩,
  ⟨A "-files0-from", .option, uo, false, false⟩,
  ⟨A "-flags", .test, ut, false, false⟩,
  ⟨A "-fls", .action, ua, false, false⟩,
  ⟨A "-follow", .option, no, false, false⟩,
  ⟨A "-fprint", .action, ua, false, false⟩,
  ⟨A "-fprint0", .action, ua, false, false⟩,
  ⟨A "-fprintf", .action, some { shape := .fprintf, kind := .action }, false, false⟩,
  ⟨A "-fstype", .test, ut, false, false⟩,
  ⟨A "-gid", .test, ut, false, false⟩,
  ⟨A "-group", .test, ut, false, false⟩,
  ⟨A "-help", .action, info, false, false⟩,
  ⟨A "-hidden", .test, nt, false, false⟩,
  ⟨A "-ignore_readdir_race", .option, no, false, false⟩,
  ⟨A "-ilname", .test, ut, false, false⟩,
  ⟨A "-iname", .test, ut, false, false⟩,
  ⟨A "-inum", .test, ut, false, false⟩,
  ⟨A "-ipath", .test, ut, false, false⟩,
  ⟨A "-iregex", .test, ut, false, false⟩,
  ⟨A "-iwholename", .test, ut, false, false⟩,
  ⟨A "-j", .flag, some { shape := .prefixed 106 false, kind := .flag }, true, false⟩,
  ⟨A "-limit", .action, some { shape := .unary, kind := .action, quiet := true, limit := true }, false, false⟩,
  ⟨A "-links", .test, ut, false, false⟩,
  ⟨A "-lname", .test, ut, false, false⟩,
  ⟨A "-ls", .action, na, false, false⟩,
  ⟨A "-maxdepth", .option, uo, false, false⟩,
  ⟨A "-mindepth", .option, uo, false, false⟩,
  ⟨A "-mmin", .test, ut, false, false⟩,
  ⟨A "-mnewer", .test, ut, false, false⟩,
  ⟨A "-mount", .option, no, false, false⟩,
  ⟨A "-msince", .test, ut, false, false⟩,
  ⟨A "-mtime", .test, ut, false, false⟩,
  ⟨A "-name", .test, ut, false, false⟩,
  ⟨A "-newer", .test, ut, false, false⟩,
  ⟨A "-newer", .test, some { shape := .newerxy, kind := .test }, true, false⟩,
  ⟨A "-nocolor", .option, no, false, false⟩,
  ⟨A "-noerror", .option, no, false, false⟩,
  ⟨A "-nogroup", .test, nt, false, false⟩,
  ⟨A "-nohidden", .test, some { shape := .nullary, kind := .option, nohidden := true }, false, false⟩,
  ⟨A "-noignore_readdir_race", .option, no, false, false⟩,
  ⟨A "-noleaf", .option, no, false, false⟩,
  ⟨A "-not", .operator, none, false, false⟩,
  ⟨A "-nouser", .test, nt, false, false⟩,
  ⟨A "-nowarn", .option, no, false, false⟩,
  ⟨A "-o", .operator, none, false, false⟩,
  ⟨A "-ok", .action, ex true, false, false⟩,
  ⟨A "-okdir", .action, ex true, false, false⟩,
  ⟨A "-or", .operator, none, false, false⟩,
  ⟨A "-path", .test, ut, false, false⟩,
  ⟨A "-perm", .test, ut, false, false⟩,
  ⟨A "-print", .action, na, false, false⟩,
  ⟨A "-print0", .action, na, false, false⟩,
  ⟨A "-printf", .action, ua, false, false⟩,
  ⟨A "-printx", .action, na, false, false⟩,
  ⟨A "-prune", .action, some { shape := .nullary, kind := .action, quiet := true }, false, false⟩,
  ⟨A "-quit", .action, some { shape := .nullary, kind := .action, quiet := true }, false, false⟩,
  ⟨A "-readable", .test, nt, false, false⟩,
  ⟨A "-regex", .test, ut, false, false⟩,
  ⟨A "-regextype", .option, uo, false, false⟩,
  ⟨A "-rm", .action, na, false, false⟩,
  ⟨A "-s", .flag, nf, false, false⟩,
  ⟨A "-samefile", .test, ut, false, false⟩,
  ⟨A "-since", .test, ut, false, false⟩,
  ⟨A "-size", .test, ut, false, false⟩,
  ⟨A "-sparse", .test, nt, false, false⟩,
  ⟨A "-status", .option, no, false, false⟩,
  ⟨A "-true", .test, nt, false, false⟩,
  ⟨A "-type", .test, ut, false, false⟩,
  ⟨A "-uid", .test, ut, false, false⟩,
  ⟨A "-unique", .option, no, false, false⟩,
  ⟨A "-used", .test, ut, false, false⟩,
  ⟨A "-user", .test, ut, false, false⟩,
  ⟨A "-version", .action, info, false, false⟩,
  ⟨A "-warn", .option, no, false, false⟩,
  ⟨A "-wholename", .test, ut, false, false⟩,
  ⟨A "-writable", .test, nt, false, false⟩,
  ⟨A "-x", .flag, no, false, false⟩,
  ⟨A "-xattr", .test, nt, false, false⟩,
  ⟨A "-xattrname", .test, ut, false, false⟩,
  ⟨A "-xdev", .option, no, false, false⟩,
  ⟨A "-xtype", .test, ut, false, false⟩]

/-- The test of `table_lookup()`, src/parse.c:3163-3177. -/
def entryMatches (arg : Arg) (e : Entry) : Bool := if e.pre then decide (e.arg <+: arg) else decide (arg = e.arg)

/-- `table_lookup()`, src/parse.c:3163-3177: the index of the entry. -/
def tableLookup (arg : Arg) : Option Nat := table.findIdx? (entryMatches arg)

/-- `flag_lookup()`, src/parse.c:3180-3189. -/
def flagLookup (flag : UInt8) : Option Nat := table.findIdx? fun e => decide (e.kind = .flag) && decide (e.arg[1]? = some flag) && decide (e.arg[2]? = none)

/-- `looks_like_icmp()`, src/parse.c:599-610. -/
def looksLikeIcmp (s : Arg) : Bool :=
  let sign (c : UInt8) : Bool := c == 45 || c == 43
  let s := match s with
    | a :: b :: t => if sign a then (if sign b then t else b :: t) else a :: b :: t
    | [a] => if sign a then [] else [a]
    | [] => []
  match s with
  | c :: _ => 48 ≤ c && c ≤ 57
  | [] => false

/-- The loop of `bfs_exec_parse()`, src/exec.c:129-199, over `tmpl_argv`: `tmpl_argc`.  `i` is the number of arguments seen, and `prev` the last. -/
def execLoop (confirm : Bool) : Nat → Arg → List Arg → Option Nat
  | _, _, [] => none
  | i, prev, arg :: rest =>
    if arg = A ";" then some i
    else if i > 0 ∧ arg = A "+" ∧ ¬ confirm ∧ prev = A "{}" then some i
    else execLoop confirm (i + 1) arg rest

/-- `bfs_exec_parse()`, src/exec.c:129-199, as far as counting arguments goes. -/
def execArgc (confirm : Bool) (args : List Arg) : Option Nat :=
  match execLoop confirm 0 [] (args.drop 1) with
  | none => none
  | some 0 => none
  | some n => some (n + 2)

/-- The choices that do not depend on the number of arguments. -/
structure Env where
  /-- `parse_exit()`: is it a number? -/
  isStatus : Arg → Bool
  /-- Are the values acceptable to this entry? -/
  valid : Nat → List Arg → Bool

/-- The number of arguments that a `parse_fn` uses up, or none if it fails for lack of them; see `Shape` for the functions. -/
def argc (env : Env) (sh : Shape) (args : List Arg) : Out Nat :=
  match sh with
  | .nullary => .ok 1
  | .unary => if args[1]? = none then .err "needs a value" else .ok 2
  | .prefixed c separate =>
    match (args.headD []).dropWhile (· ≠ c) with
    | [] => .ub
    | _ :: suffix => if suffix ≠ [] then .ok 1 else if separate ∧ args[1]? ≠ none then .ok 2 else .err "needs a value"
  | .depth => if (args[1]?.map looksLikeIcmp) = some true then .ok 2 else .ok 1
  | .exec confirm => match execArgc confirm args with
    | some n => .ok n
    | none => .err "expected '... ;' or '... {} +'"
  | .exit => if (args[1]?.map env.isStatus) = some true then .ok 2 else .ok 1
  | .fprintf => if args[1]? = none then .err "needs a file" else if args[2]? = none then .err "needs a format string" else .ok 3
  | .newerxy => if (args.headD []).length ≠ 8 then .err "expected -newerXY" else if args[1]? = none then .err "needs a value" else .ok 2
  | .info => .err "just_info"

/-- A call through `entry->parse`. -/
def callParse (env : Env) (i : Nat) (p : Parser) (args : List Arg) : Out Prim :=
  (argc env p.shape args).bind fun n =>
    if env.valid i (args.take n) then .ok
      { calls := [(i, args.take n)]
        argc := n
        starts := p.kind ≠ .flag
        action := p.kind = .action
        loud := p.kind = .action ∧ ¬ p.quiet
        limit := p.limit
        roots := if p.root then (args.take n).drop 1 else []
        nohidden := p.nohidden }
    else .err "invalid value"

/-- The loop of `is_flag_group()`, src/parse.c:3192-3224, from the second character on. -/
def isGroupLoop : Bool → Bool → Arg → Bool
  | upper, _, [] => upper
  | upper, needsArg, c :: rest =>
    let upper := upper || (65 ≤ c && c ≤ 90)
    if needsArg then false
    else match (flagLookup c).bind fun i => table[i]? with
      | none => false
      | some e =>
        if e.parse = none then false
        else if e.pre then upper
        else isGroupLoop upper (needsArg || e.needsArg) rest

/-- `is_flag_group()`, src/parse.c:3192-3224. -/
def isFlagGroup (arg : Arg) : Bool := isGroupLoop false false (arg.drop 1)

/-- Two flags one after the other. -/
def Prim.join (p q : Prim) : Prim :=
  { calls := p.calls ++ q.calls, argc := q.argc, starts := p.starts || q.starts, action := p.action || q.action, loud := p.loud || q.loud
    limit := p.limit || q.limit, roots := p.roots ++ q.roots, nohidden := p.nohidden || q.nohidden }

/-- The end of `parse_flag_group()`, src/parse.c:3227-3254, with the assertion. -/
def groupEnd (end_ : Nat) : Option Prim → Out Prim
  | none => .err "NULL"
  | some p => if p.argc = end_ then .ok p else .ub

def joinOpt : Option Prim → Prim → Prim
  | none, q => q
  | some p, q => p.join q

/-- The loop of `parse_flag_group()`, src/parse.c:3227-3254: `end_` is `end - start`, and the last argument is what has been parsed already. -/
def groupLoop (env : Env) (args : List Arg) : Arg → Nat → Option Prim → Out Prim
  | [], end_, acc => groupEnd end_ acc
  | c :: rest, end_, acc =>
    match (flagLookup c).bind fun i => (table[i]?).bind fun e => e.parse.map fun p => (i, e, p) with
    | none => .ub
    | some (i, e, p) =>
      (callParse env i p args).bind fun q =>
        if e.pre then groupEnd (Nat.max end_ q.argc) (some (joinOpt acc q))
        else groupLoop env args rest (Nat.max end_ q.argc) (some (joinOpt acc q))

/-- `parse_flag_group()`, src/parse.c:3227-3254. -/
def parseFlagGroup (env : Env) (args : List Arg) : Out Prim := groupLoop env args ((args.headD []).drop 1) 0 none

/-- `parse_primary()`, src/parse.c:3277-3338. -/
def prim (env : Env) (args : List Arg) : Out Prim :=
  let arg := args.headD []
  if arg.head? ≠ some 45 then .err "expected a predicate"
  else match tableLookup arg with
    | some i => match table[i]?.bind fun e => e.parse with
      | some p => callParse env i p args
      | none => .err "expected a predicate"
    | none => if isFlagGroup arg then parseFlagGroup env args else .err "unknown argument"

end Verif.Cmdline
