import Verif.Model.Cmdline
/-!
# What a command line means

A command line is a sequence of tokens, with paths anywhere between them (`Lex`). The tokens have to form an expression according to the grammar in the comments of src/parse.c (`Gram`). `prim` is the parser for primaries, like `-name foo`; it says what it makes of the arguments from a certain one on.
-/
namespace Verif.Cmdline

inductive Tok
  | lparen | rparen | not | exclude | and | or | comma
  | prim (p : Prim)

/-- The spellings of the operators. -/
inductive Operator : Arg → Tok → Prop
  | lparen : Operator (A "(") .lparen
  | rparen : Operator (A ")") .rparen
  | bang : Operator (A "!") .not
  | not : Operator (A "-not") .not
  | exclude : Operator (A "-exclude") .exclude
  | a : Operator (A "-a") .and
  | and : Operator (A "-and") .and
  | o : Operator (A "-o") .or
  | or : Operator (A "-or") .or
  | comma : Operator (A ",") .comma

/-- `-`, and everything that neither begins with a dash nor is an operator, is a path; `)` and `,` are paths too before the expression has started. -/
def IsPath (started : Bool) (a : Arg) : Prop :=
  a = A "-" ∨ (a.head? ≠ some 45 ∧ a ≠ A "(" ∧ a ≠ A "!" ∧ (started = true → a ≠ A ")" ∧ a ≠ A ","))

/-- `Lex prim started args toks paths`: the arguments are these tokens, and these paths. -/
inductive Lex (prim : List Arg → Out Prim) : Bool → List Arg → List Tok → List Arg → Prop
  | done (started : Bool) : Lex prim started [] [] []
  /-- `--` is ignored. -/
  | dashes (started : Bool) (rest : List Arg) (toks : List Tok) (paths : List Arg) : Lex prim started rest toks paths → Lex prim started (A "--" :: rest) toks paths
  | path (started : Bool) (a : Arg) (rest : List Arg) (toks : List Tok) (paths : List Arg) : IsPath started a → Lex prim started rest toks paths →
      Lex prim started (a :: rest) toks (a :: paths)
  | op (started : Bool) (a : Arg) (t : Tok) (rest : List Arg) (toks : List Tok) (paths : List Arg) : ¬ IsPath started a → Operator a t → Lex prim true rest toks paths →
      Lex prim started (a :: rest) (t :: toks) paths
  /-- A primary takes some arguments.  All but flags start the expression.  `-f` takes a path. -/
  | prim (started : Bool) (a : Arg) (rest : List Arg) (p : Prim) (toks : List Tok) (paths : List Arg) : ¬ IsPath started a → a ≠ A "--" → (∀ t, ¬ Operator a t) →
      prim (a :: rest) = .ok p → Lex prim (started || p.starts) ((a :: rest).drop p.argc) toks paths → Lex prim started (a :: rest) (.prim p :: toks) (p.roots ++ paths)

/-- The syntax tree. -/
inductive Tree
  | leaf (p : Prim)
  | not (t : Tree)
  | exclude (t : Tree)
  | and (t u : Tree)
  | or (t u : Tree)
  | comma (t u : Tree)

/-- The nonterminals. -/
inductive Level
  | factor | term | clause | expr

/-- The grammar.  The second argument is whether this is within `-exclude`, where neither actions nor another `-exclude` are allowed. -/
inductive Gram : Level → Bool → List Tok → Tree → Prop
  -- FACTOR : "(" EXPR ")" | "!" FACTOR | "-not" FACTOR | "-exclude" FACTOR | PRIMARY
  | paren (ex : Bool) (ts : List Tok) (t : Tree) : Gram .expr ex ts t → Gram .factor ex (.lparen :: ts ++ [.rparen]) t
  | not (ex : Bool) (ts : List Tok) (t : Tree) : Gram .factor ex ts t → Gram .factor ex (.not :: ts) (.not t)
  | exclude (ts : List Tok) (t : Tree) : Gram .factor true ts t → Gram .factor false (.exclude :: ts) (.exclude t)
  | prim (ex : Bool) (p : Prim) : ¬ (p.action = true ∧ ex = true) → Gram .factor ex [.prim p] (.leaf p)
  -- TERM : FACTOR | TERM FACTOR | TERM "-a" FACTOR | TERM "-and" FACTOR
  | factor (ex : Bool) (ts : List Tok) (t : Tree) : Gram .factor ex ts t → Gram .term ex ts t
  | juxt (ex : Bool) (ts us : List Tok) (t u : Tree) : Gram .term ex ts t → Gram .factor ex us u → Gram .term ex (ts ++ us) (.and t u)
  | and (ex : Bool) (ts us : List Tok) (t u : Tree) : Gram .term ex ts t → Gram .factor ex us u → Gram .term ex (ts ++ .and :: us) (.and t u)
  -- CLAUSE : TERM | CLAUSE "-o" TERM | CLAUSE "-or" TERM
  | term (ex : Bool) (ts : List Tok) (t : Tree) : Gram .term ex ts t → Gram .clause ex ts t
  | or (ex : Bool) (ts us : List Tok) (t u : Tree) : Gram .clause ex ts t → Gram .term ex us u → Gram .clause ex (ts ++ .or :: us) (.or t u)
  -- EXPR : CLAUSE | EXPR "," CLAUSE
  | clause (ex : Bool) (ts : List Tok) (t : Tree) : Gram .clause ex ts t → Gram .expr ex ts t
  | comma (ex : Bool) (ts us : List Tok) (t u : Tree) : Gram .expr ex ts t → Gram .clause ex us u → Gram .expr ex (ts ++ .comma :: us) (.comma t u)

/-- What is evaluated for each file: `-exclude ...` counts as true. -/
def Tree.main : Tree → E
  | leaf p => .leaf (.prim p)
  | not t => .not t.main
  | exclude _ => .leaf .yes
  | and t u => .and t.main u.main
  | or t u => .or t.main u.main
  | comma t u => .comma t.main u.main

/-- What is excluded. -/
def Tree.excluded : Tree → List E
  | leaf p => if p.nohidden then [.leaf .hidden] else []
  | not t => t.excluded
  | exclude t => t.excluded ++ [t.main]
  | and t u => t.excluded ++ u.excluded
  | or t u => t.excluded ++ u.excluded
  | comma t u => t.excluded ++ u.excluded

/-- The primaries, from left to right. -/
def Tree.prims : Tree → List Prim
  | leaf p => [p]
  | not t => t.prims
  | exclude t => t.prims
  | and t u => t.prims ++ u.prims
  | or t u => t.prims ++ u.prims
  | comma t u => t.prims ++ u.prims

/-- What is used of the table, from left to right. -/
def Tok.calls : Tok → List (Nat × List Arg)
  | prim p => p.calls
  | _ => []

/-- Neither actions nor `-exclude` are allowed within `-exclude`. -/
def Tree.Allowed : Bool → Tree → Prop
  | ex, leaf p => ¬ (p.action = true ∧ ex = true)
  | ex, not t => t.Allowed ex
  | ex, exclude t => ex = false ∧ t.Allowed true
  | ex, and t u => t.Allowed ex ∧ u.Allowed ex
  | ex, or t u => t.Allowed ex ∧ u.Allowed ex
  | ex, comma t u => t.Allowed ex ∧ u.Allowed ex

/-- The flags without a value. -/
def plainFlags : List UInt8 := A "EHLPXdsx"

/-- The command line means this.  No paths means `.`; without an action (other than `-prune` and the like), `-print` is implied, and then there must not be a `-limit`. -/
def Parsed (prim : List Arg → Out Prim) (args : List Arg) (c : Cmd) : Prop :=
  ∃ toks paths, Lex prim false args toks paths ∧ c.roots = (if paths = [] then [A "."] else paths) ∧ c.calls = toks.flatMap Tok.calls ∧
    ((toks = [] ∧ c.expr = .and (.leaf .yes) (.leaf .print) ∧ c.excludes = []) ∨
      ∃ t, Gram .expr false toks t ∧ c.excludes = t.excluded ∧
        (((∃ p ∈ t.prims, p.loud = true) ∧ c.expr = t.main) ∨
          ((∀ p ∈ t.prims, p.loud = false ∧ p.limit = false) ∧ c.expr = .and t.main (.leaf .print))))

/-- What `parse_primary()` can be relied on for: it never fails an assertion, and uses up at least one argument, but no more than there are. -/
structure PrimOk (prim : List Arg → Out Prim) : Prop where
  noub : ∀ a rest, prim (a :: rest) ≠ .ub
  argc : ∀ a rest p, prim (a :: rest) = .ok p → 0 < p.argc ∧ p.argc ≤ (a :: rest).length
  /-- Operators, and whatever does not begin with a dash, are no primaries. -/
  op : ∀ a rest t p, Operator a t → prim (a :: rest) ≠ .ok p
  dash : ∀ a rest p, a.head? ≠ some 45 → prim (a :: rest) ≠ .ok p

end Verif.Cmdline
