import Verif.Model.Bar
import Verif.Model.Path
/-!
# Messages about the command line (src/diag.c)

A warning or an error about some arguments repeats the command line, and underlines these arguments.
-/
namespace Verif.Diag
abbrev Bytes := List UInt8

/-- What `cfprintf()` is asked to write: text, or a color such as `${err}`. Simplified: colors are symbols here (C60 has what becomes of them). -/
inductive Tok where
  | color (name : String)
  | text (b : Bytes)
  deriving DecidableEq, Repr

/-- The parts of `struct bfs_ctx` that are used (src/ctx.h:27-149): the command line, and `warn`. -/
structure Ctx where
  argv : List Bytes
  warn : Bool

/-- The parts of `struct bfs_expr` that are used (src/expr.h:152-225): where the arguments of the expression begin in `ctx->argv` (`none` if they are not from the command line, as for an implicit
`-print`), how many these are, and the children. -/
inductive Expr where
  | node (argv : Option Nat) (argc : Nat) (children : List Expr)

/-- The loops in `highlight_expr_recursive()`, src/diag.c:149-172, and `highlight_args()`, src/parse.c:130-136: `args[i + j] = true` for `j < argc`; the first number is how many of these are left. -/
def setLoop (n i : Nat) : Nat → Nat → List Bool → Out (List Bool)
  | 0, _, args => .ok args
  | left + 1, j, args => if i + j < n then setLoop n i left (j + 1) (args.set (i + j) true) else .ub

/-- `init_highlight()`, src/parse.c:123-127, and the loop in `highlight_expr()`, src/diag.c:175-181. -/
def initHighlight (n : Nat) : List Bool := List.replicate n false

/-- `highlight_args()`, src/parse.c:130-136. -/
def highlightArgs (n argv argc : Nat) (args : List Bool) : Out (List Bool) := setLoop n argv argc 0 args

/-- The first loop of `highlight_expr_recursive()`, src/diag.c:149-172. -/
def highlightOwn (n : Nat) (argv : Option Nat) (argc : Nat) (args : List Bool) : Out (Bool × List Bool) :=
  match argv with
  | none => .ok (false, args)
  | some i => if i < n then (setLoop n i argc 0 args).bind fun args => .ok (decide (0 < argc), args) else .ok (false, args)

mutual
/-- `highlight_expr_recursive()`, src/diag.c:149-172. -/
def highlightRec (n : Nat) : Expr → List Bool → Out (Bool × List Bool)
  | .node argv argc children, args => (highlightOwn n argv argc args).bind fun r => highlightAll n children r.1 r.2
/-- Its second loop, over the children. -/
def highlightAll (n : Nat) : List Expr → Bool → List Bool → Out (Bool × List Bool)
  | [], ret, args => .ok (ret, args)
  | x :: rest, ret, args => (highlightRec n x args).bind fun r => highlightAll n rest (ret || r.1) r.2
end

/-- `highlight_expr()`, src/diag.c:175-181. -/
def highlightExpr (n : Nat) (x : Expr) : Out (Bool × List Bool) := highlightRec n x (initHighlight n)

/-- `bfs_cmd()`, src/diag.c:122-124. -/
def cmd (ctx : Ctx) : Bytes := (ctx.argv.headD []).drop (Path.xbaseoff (ctx.argv.headD []))

/-- `bfs_error_prefix()`, src/diag.c:126-128. -/
def errorPrefix (ctx : Ctx) : List Tok :=
  [.color "bld", .text (cmd ctx), .text [58], .color "rs", .text [32], .color "err", .text [101, 114, 114, 111, 114, 58], .color "rs", .text [32]]

/-- `bfs_warning_prefix()`, src/diag.c:130-137. -/
def warningPrefix (ctx : Ctx) : List Tok :=
  if ctx.warn then [.color "bld", .text (cmd ctx), .text [58], .color "rs", .text [32], .color "wrn", .text [119, 97, 114, 110, 105, 110, 103, 58], .color "rs", .text [32]] else []

/-- `if (warning) …`, src/diag.c:185-189. -/
def linePrefix (ctx : Ctx) (warning : Bool) : List Tok := if warning then warningPrefix ctx else errorPrefix ctx

/-- The arguments as shell words, src/diag.c:196-200. Simplified: allocations succeed. -/
def words (L : Quote.Locale) : List Bytes → Out (List Bytes)
  | [] => .ok []
  | a :: rest => (Quote.escape L true a).bind fun w => (words L rest).bind fun ws => .ok (w :: ws)

/-- One argument in the first line, src/diag.c:203-214. -/
def showArg (ws : List Bytes) (args : List Bool) (i : Nat) : List Tok :=
  (if 0 < i then [.text [32]] else []) ++ if args.getD i false then [.color "bld", .text (ws.getD i []), .color "rs"] else [.text (ws.getD i [])]

/-- `max_argc`, src/diag.c:202-210: one more than the number of the last highlighted argument below `n`. -/
def maxArgc (args : List Bool) : Nat → Nat
  | 0 => 0
  | i + 1 => if args.getD i false then i + 1 else maxArgc args i

/-- What is between two arguments in the second line, src/diag.c:225-231. -/
def underGap (args : List Bool) (i : Nat) : List Tok :=
  if 0 < i then [.text (if args.getD (i - 1) false && args.getD i false then [126] else [32])] else []

/-- The color of the underline, src/diag.c:233-239. -/
def underColor (warning : Bool) (args : List Bool) (i : Nat) : List Tok :=
  if args.getD i false && (i == 0 || !args.getD (i - 1) false) then [.color (if warning then "wrn" else "err")] else []

/-- What is below one argument, src/diag.c:241-248. -/
def underArg (width : Bytes → Nat) (ws : List Bytes) (args : List Bool) (i : Nat) : List Tok :=
  List.replicate (width (ws.getD i [])) (.text (if args.getD i false then [126] else [32]))

/-- The end of the color, src/diag.c:250-252. -/
def underReset (args : List Bool) (max i : Nat) : List Tok :=
  if args.getD i false && (decide (max ≤ i + 1) || !args.getD (i + 1) false) then [.color "rs"] else []

/-- One round of the loop for the second line, src/diag.c:224-253. -/
def under (width : Bytes → Nat) (warning : Bool) (ws : List Bytes) (args : List Bool) (max i : Nat) : List Tok :=
  underGap args i ++ underColor warning args i ++ underArg width ws args i ++ underReset args max i

/-- `bfs_argv_diag()`, src/diag.c:184-262. -/
def argvDiag (L : Quote.Locale) (wcwidth : Bar.Wcwidth) (ctx : Ctx) (args : List Bool) (warning : Bool) : Out (List Tok) :=
  (words L ctx.argv).bind fun ws =>
    let n := ctx.argv.length
    let max := maxArgc args n
    .ok (linePrefix ctx warning ++ (List.range n).flatMap (showArg ws args) ++ [.text [10]] ++
      linePrefix ctx warning ++ (List.range max).flatMap (under (Bar.xstrwidth L wcwidth) warning ws args max) ++ [.text [10]])

/-- `bfs_argv_error()`, src/diag.c:264-266. -/
def argvError (L : Quote.Locale) (wcwidth : Bar.Wcwidth) (ctx : Ctx) (args : List Bool) : Out (List Tok) := argvDiag L wcwidth ctx args false

/-- `bfs_argv_warning()`, src/diag.c:275-282. -/
def argvWarning (L : Quote.Locale) (wcwidth : Bar.Wcwidth) (ctx : Ctx) (args : List Bool) : Out (List Tok) :=
  if !ctx.warn then .ok [] else argvDiag L wcwidth ctx args true

/-- `bfs_expr_error()`, src/diag.c:268-273. -/
def exprError (L : Quote.Locale) (wcwidth : Bar.Wcwidth) (ctx : Ctx) (x : Expr) : Out (List Tok) :=
  (highlightExpr ctx.argv.length x).bind fun r => if r.1 then argvError L wcwidth ctx r.2 else .ok []

/-- `bfs_expr_warning()`, src/diag.c:284-291. -/
def exprWarning (L : Quote.Locale) (wcwidth : Bar.Wcwidth) (ctx : Ctx) (x : Expr) : Out (List Tok) :=
  (highlightExpr ctx.argv.length x).bind fun r => if r.1 then argvWarning L wcwidth ctx r.2 else .ok []

/-- `parse_argv_error()`, src/parse.c:160-172, up to the message. -/
def parseArgvError (L : Quote.Locale) (wcwidth : Bar.Wcwidth) (ctx : Ctx) (argv argc : Nat) : Out (List Tok) :=
  (highlightArgs ctx.argv.length argv argc (initHighlight ctx.argv.length)).bind fun args => argvError L wcwidth ctx args

/-- `parse_conflict_error()`, src/parse.c:178-191, up to the message. -/
def parseConflictError (L : Quote.Locale) (wcwidth : Bar.Wcwidth) (ctx : Ctx) (argv1 argc1 argv2 argc2 : Nat) : Out (List Tok) :=
  (highlightArgs ctx.argv.length argv1 argc1 (initHighlight ctx.argv.length)).bind fun args =>
    (highlightArgs ctx.argv.length argv2 argc2 args).bind fun args => argvError L wcwidth ctx args

end Verif.Diag
