import Verif.Model.C
/-!
# The life of the context (src/main.c, src/ctx.c, src/parse.c, src/expr.c)

Everything that has to be given back is in a list. Giving back something that is not in it is undefined. Streams, expressions and paths have numbers; numbers are not used twice.
-/
namespace Verif.CtxLife
open Verif

/-- What can be held: memory, open files and signal hooks. Simplified: a cache or a table with all that it contains is one thing, and so is the buffer of a stream with the stream. -/
inductive Obj where
  | ctx
  | users
  | groups
  | argv
  | kinds
  | colors
  | mtab
  /-- A `CFILE`. -/
  | stream (k : Nat)
  /-- The `FILE` of a stream that was opened by bfs. -/
  | file (k : Nat)
  /-- A leaf of `ctx->files`, the `struct bfs_ctx_file` of it, and its signal hook. -/
  | leaf (k : Nat)
  | entry (k : Nat)
  | hook (k : Nat)
  | expr (k : Nat)
  /-- What an expression points to, for `-exec`, `-printf` and `-regex`. -/
  | payload (k : Nat)
  /-- The array of paths, and a path. -/
  | paths
  | path (k : Nat)
  deriving DecidableEq, Repr

/-- `struct bfs_ctx_file`, src/ctx.c:97-106, with the file that it is for (`bfs_file_id`) and the number of its leaf. -/
structure Rec where
  id : Nat
  leaf : Nat
  stream : Nat
  path : Bool
  hook : Bool
  deriving DecidableEq, Repr

/-- `struct bfs_ctx`: its pointers. The expressions have their numbers, and say whether they have a payload. -/
structure Ctx where
  users : Bool := false
  groups : Bool := false
  argv : Bool := false
  kinds : Bool := false
  colors : Bool := false
  mtab : Bool := false
  mtabError : Bool := false
  cout : Option Nat := none
  cerr : Option Nat := none
  files : List Rec := []
  exprs : List (Nat × Bool) := []
  paths : Bool := false
  path : List Nat := []

/-- The context, what is held, and the next number. -/
structure St where
  ctx : Ctx
  live : List Obj
  next : Nat

/-- Get something. -/
def take (o : Obj) (s : St) : St := { s with live := o :: s.live }

/-- Give something back. -/
def give (o : Obj) (s : St) : Out St :=
  if o ∈ s.live then .ok { s with live := s.live.erase o } else .ub

/-- Give something back if there is a pointer to it: `free(NULL)` does nothing. -/
def giveIf (b : Bool) (o : Obj) (s : St) : Out St := if b then give o s else .ok s

/-- A new number. -/
def tick (s : St) : St := { s with next := s.next + 1 }

/-- Change the context. -/
def upd (f : Ctx → Ctx) (s : St) : St := { s with ctx := f s.ctx }

/-! ## Freeing -/

/-- `cfclose()`, src/color.c:755-769: the file of a stream is closed too, unless it is a standard one. -/
def cfclose (k : Option Nat) (own : Bool) (s : St) : Out St :=
  match k with
  | none => .ok s
  | some k => (giveIf own (.file k) s).bind (give (.stream k))

/-- `bfs_ctx_fclose()`, src/ctx.c:208-253, and whether it returns 0. `lost` says whether flushing or closing the stream of a file fails, or failed before. -/
def ctxFclose (lost : Nat → Bool) (r : Rec) (s : St) : Out (Bool × St) :=
  let silent := some r.stream = s.ctx.cerr && !r.path
  (giveIf r.hook (.hook r.leaf) s).bind fun s =>
  let std := some r.stream = s.ctx.cout ∨ some r.stream = s.ctx.cerr
  (if std then .ok s else cfclose (some r.stream) true s).bind fun s =>
  (give (.entry r.leaf) s).bind fun s =>
  .ok (silent || !lost r.id, s)

/-- The loop over `ctx->files` in `bfs_ctx_free()`, src/ctx.c:267-272. -/
def fcloseAll (lost : Nat → Bool) : List Rec → Bool → St → Out (Bool × St)
  | [], ok, s => .ok (ok, s)
  | r :: rs, ok, s => (ctxFclose lost r s).bind fun a => fcloseAll lost rs (ok && a.1) a.2

/-- `trie_destroy(&ctx->files)`, src/ctx.c:273. -/
def trieDestroy : List Rec → St → Out St
  | [], s => .ok s
  | r :: rs, s => (give (.leaf r.leaf) s).bind (trieDestroy rs)

/-- The loop over the expressions with `bfs_expr_clear()`, src/ctx.c:279-281 and src/expr.c:81-89. -/
def clearAll : List (Nat × Bool) → St → Out St
  | [], s => .ok s
  | e :: es, s => (giveIf e.2 (.payload e.1) s).bind (clearAll es)

/-- `arena_destroy(&ctx->expr_arena)`, src/ctx.c:282. -/
def arenaDestroy : List (Nat × Bool) → St → Out St
  | [], s => .ok s
  | e :: es, s => (give (.expr e.1) s).bind (arenaDestroy es)

/-- The loop over the paths, src/ctx.c:284-286. -/
def freePaths : List Nat → St → Out St
  | [], s => .ok s
  | p :: ps, s => (give (.path p) s).bind (freePaths ps)

/-- `bfs_ctx_free()`, src/ctx.c:255-295, and whether it returns 0. -/
def ctxFree (lost : Nat → Bool) (s : St) : Out (Bool × St) :=
  let c := s.ctx
  (giveIf c.mtab .mtab s).bind fun s =>
  (giveIf c.groups .groups s).bind fun s =>
  (giveIf c.users .users s).bind fun s =>
  (fcloseAll lost c.files true s).bind fun a =>
  (trieDestroy c.files a.2).bind fun s =>
  (cfclose c.cout false s).bind fun s =>
  (cfclose c.cerr false s).bind fun s =>
  (giveIf c.colors .colors s).bind fun s =>
  (clearAll c.exprs s).bind fun s =>
  (arenaDestroy c.exprs s).bind fun s =>
  (freePaths c.path s).bind fun s =>
  (giveIf c.paths .paths s).bind fun s =>
  (giveIf c.kinds .kinds s).bind fun s =>
  (giveIf c.argv .argv s).bind fun s =>
  (give .ctx s).bind fun s =>
  .ok (a.1, s)

/-! ## Creating -/

/-- What may fail in `bfs_ctx_new()`. -/
structure NewLuck where
  ctx : Bool
  rlimit : Bool
  users : Bool
  groups : Bool
  clock : Bool
  deriving DecidableEq, Repr

/-- The label `fail` of `bfs_ctx_new()`, src/ctx.c:27-77, and of `bfs_parse_cmdline()`, src/parse.c:3827-3951. -/
def failWith (lost : Nat → Bool) (s : St) : Out (Option St × List Obj) :=
  (ctxFree lost s).bind fun a => .ok (none, a.2.live)

/-- `bfs_ctx_new()`, src/ctx.c:27-77: the context, or nothing and what is still held then. -/
def ctxNew (l : NewLuck) : Out (Option St × List Obj) :=
  if !l.ctx then .ok (none, [])
  else
    let s : St := ⟨{}, [.ctx], 0⟩
    if !l.rlimit then failWith (fun _ => false) s
    else if !l.users then failWith (fun _ => false) s
    else
      let s := upd (fun c => { c with users := true }) (take .users s)
      if !l.groups then failWith (fun _ => false) s
      else
        let s := upd (fun c => { c with groups := true }) (take .groups s)
        if !l.clock then failWith (fun _ => false) s
        else .ok (some s, s.live)

/-- What may fail in `bfs_ctx_dedup()`. -/
structure DedupLuck where
  stat : Bool
  leaf : Bool
  entry : Bool
  hook : Bool
  deriving DecidableEq, Repr

/-- `bfs_ctx_dedup()`, src/ctx.c:113-160, for stream `k` of the file `id`: the stream to use, or nothing for `NULL`. That the trie finds files by their identity is C05. -/
def dedup (d : DedupLuck) (k id : Nat) (colors path : Bool) (s : St) : Out (Option Nat × St) :=
  if !d.stat then .ok (none, s)
  else
    match s.ctx.files.find? (·.id = id) with
    | some r =>
      .ok (some r.stream,
        upd (fun c => { c with files := c.files.map fun q => if q.id = id then { q with path := path } else q }) s)
    | none =>
      if !d.leaf then .ok (none, s)
      else
        let n := s.next
        let s := tick (take (.leaf n) s)
        if !d.entry then (give (.leaf n) s).bind fun s => .ok (none, s)
        else
          let s := take (.entry n) s
          if colors && !d.hook then
            (give (.leaf n) s).bind fun s => (give (.entry n) s).bind fun s => .ok (none, s)
          else
            let s := if colors then take (.hook n) s else s
            .ok (some k, upd (fun c => { c with files := c.files ++ [⟨id, n, k, path, colors⟩] }) s)

/-- What may fail in `expr_open()`, and whether the file is a terminal that gets colors. -/
structure OpenLuck where
  fopen : Bool
  cfwrap : Bool
  colors : Bool
  dedup : DedupLuck
  deriving DecidableEq, Repr

/-- The end of `expr_open()`, src/parse.c:335-372. -/
def opened (k : Nat) (r : Option Nat × St) : Out (Bool × St) :=
  match r.1 with
  | none => (cfclose (some k) true r.2).bind fun s => .ok (false, s)
  | some j => if j ≠ k then (cfclose (some k) true r.2).bind fun s => .ok (true, s) else .ok (true, r.2)

/-- `expr_open()`, src/parse.c:335-372, and whether it returns 0. -/
def exprOpen (o : OpenLuck) (id : Nat) (s : St) : Out (Bool × St) :=
  if !o.fopen then .ok (false, s)
  else
    let k := s.next
    let s := tick (take (.file k) s)
    if !o.cfwrap then (give (.file k) s).bind fun s => .ok (false, s)
    else
      let s := take (.stream k) s
      (dedup o.dedup k id o.colors true s).bind (opened k)

/-- `bfs_expr_new()`, src/expr.c:17-38: the new expression has number `k` and no payload. -/
def exprNew (k : Nat) (s : St) : St := upd (fun c => { c with exprs := (k, false) :: c.exprs }) (take (.expr k) s)

/-- Set the payload pointer of expression `k`. -/
def attach (k : Nat) (s : St) : St :=
  upd (fun c => { c with exprs := c.exprs.map fun e => if e.1 = k then (k, true) else e }) s

/-- What happens while the command line is parsed. `ok` says whether an argument is accepted in the end. -/
inductive Op where
  /-- An expression without a payload. -/
  | plain (alloc ok : Bool)
  /-- `parse_exec()`. -/
  | exec (buf alloc ok : Bool)
  /-- `bfs_printf_parse()` for a new expression. -/
  | printf (alloc buf ok : Bool)
  /-- `parse_regex()`. -/
  | regex (alloc buf ok : Bool)
  /-- `-fprint` and so on, for a file. Simplified: `-fprintf` is this and then `printf`, with one more expression. -/
  | output (alloc : Bool) (id : Nat) (o : OpenLuck)
  /-- `parse_root()`. -/
  | root (reserve dup : Bool)
  /-- `bfs_ctx_mtab()`. -/
  | mtab (ok : Bool)
  deriving DecidableEq, Repr

/-- `bfs_ctx_mtab()`, src/ctx.c:79-92. -/
def ctxMtab (ok : Bool) (s : St) : St :=
  if s.ctx.mtabError then s
  else if !s.ctx.mtab then
    if ok then upd (fun c => { c with mtab := true }) (take .mtab s)
    else upd (fun c => { c with mtabError := true }) s
  else s

/-- `parse_root()`, src/parse.c:420-436. `RESERVE()` allocates the array if there is none. -/
def parseRoot (reserve dup : Bool) (s : St) : Bool × St :=
  if !reserve then (false, s)
  else
    let s := if s.ctx.paths then s else upd (fun c => { c with paths := true }) (take .paths s)
    if !dup then (false, s)
    else
      let k := s.next
      (true, upd (fun c => { c with path := c.path ++ [k] }) (tick (take (.path k) s)))

/-- `parse_exec()`, src/parse.c:1253-1312. -/
def parseExec (buf alloc ok : Bool) (s : St) : Out (Bool × St) :=
  if !buf then .ok (false, s)
  else
    let k := s.next
    let s := tick (take (.payload k) s)
    if !alloc then (give (.payload k) s).bind fun s => .ok (false, s)
    else .ok (ok, attach k (exprNew k s))

/-- `bfs_printf_parse()`, src/printf.c:621-938, for the new expression of `parse_printf()`, src/parse.c:2172-2185. -/
def parsePrintf (alloc buf ok : Bool) (s : St) : Out (Bool × St) :=
  if !alloc then .ok (false, s)
  else
    let k := s.next
    let s := exprNew k (tick s)
    if !buf then .ok (false, s)
    else
      let s := take (.payload k) s
      if !ok then (give (.payload k) s).bind fun s => .ok (false, s)
      else .ok (true, attach k s)

/-- `parse_regex()`, src/parse.c:2221-2244: if the expression is not valid, the object stays, for its message. -/
def parseRegex (alloc buf ok : Bool) (s : St) : Out (Bool × St) :=
  if !alloc then .ok (false, s)
  else
    let k := s.next
    let s := exprNew k (tick s)
    if !buf then .ok (false, s)
    else .ok (ok, attach k (take (.payload k) s))

/-- One step of the parser, and whether it goes on. -/
def step (op : Op) (s : St) : Out (Bool × St) :=
  match op with
  | .plain alloc ok => if !alloc then .ok (false, s) else .ok (ok, exprNew s.next (tick s))
  | .exec buf alloc ok => parseExec buf alloc ok s
  | .printf alloc buf ok => parsePrintf alloc buf ok s
  | .regex alloc buf ok => parseRegex alloc buf ok s
  | .output alloc id o => if !alloc then .ok (false, s) else exprOpen o id (exprNew s.next (tick s))
  | .root reserve dup => .ok (parseRoot reserve dup s)
  | .mtab ok =>
    let s := ctxMtab ok s
    .ok (s.ctx.mtab, s)

/-- `parse_whole_expr()` and `bfs_optimize()`, which creates expressions too: some steps, until one fails. -/
def steps : List Op → St → Out (Bool × St)
  | [], s => .ok (true, s)
  | op :: ops, s => (step op s).bind fun a => if a.1 then steps ops a.2 else .ok (false, a.2)

/-- How parsing ends if no step fails: with an expression, with `-help` or `-version`, or with an error. -/
inductive Ending where
  | good
  | info
  | bad
  deriving DecidableEq, Repr

/-- What may fail in `bfs_parse_cmdline()`, and what happens in it. `outId` and `errId` are the files that standard output and standard error are, `outColors` and `errColors` say whether they are terminals that get colors. -/
structure CmdLuck where
  new : NewLuck
  argv : Bool
  kinds : Bool
  colors : Bool
  cerr : Bool
  cout : Bool
  outId : Nat
  errId : Nat
  outColors : Bool
  errColors : Bool
  outDedup : DedupLuck
  errDedup : DedupLuck
  ops : List Op
  ending : Ending
  opt : List Op
  lost : Nat → Bool

/-- The last part of `bfs_parse_cmdline()`, src/parse.c:3912-3951. The second component says whether there is an expression. -/
def parseExprs (l : CmdLuck) (s : St) : Out ((Option St × List Obj) × Bool) :=
  (steps l.ops s).bind fun a =>
  let fail := (failWith l.lost a.2).bind fun r => .ok (r, false)
  if !a.1 then fail
  else
    match l.ending with
    | .info => .ok ((some a.2, a.2.live), false)
    | .bad => fail
    | .good =>
      (steps l.opt a.2).bind fun b =>
      if !b.1 then (failWith l.lost b.2).bind fun r => .ok (r, false)
      else .ok ((some b.2, b.2.live), true)

/-- The middle part of `bfs_parse_cmdline()`, src/parse.c:3865-3880: the standard streams. -/
def parseStreams (l : CmdLuck) (s : St) : Out ((Option St × List Obj) × Bool) :=
  let fail := fun s => (failWith l.lost s).bind fun r => .ok (r, false)
  if !l.cerr then fail s
  else
    let e := s.next
    let s := upd (fun c => { c with cerr := some e }) (tick (take (.stream e) s))
    if !l.cout then fail s
    else
      let o := s.next
      let s := upd (fun c => { c with cout := some o }) (tick (take (.stream o) s))
      (dedup l.outDedup o l.outId l.outColors false s).bind fun a =>
      if a.1.isNone then fail a.2
      else
        (dedup l.errDedup e l.errId l.errColors false a.2).bind fun a =>
        if a.1.isNone then fail a.2
        else parseExprs l a.2

/-- `bfs_parse_cmdline()`, src/parse.c:3827-3951. -/
def parseCmdline (l : CmdLuck) : Out ((Option St × List Obj) × Bool) :=
  (ctxNew l.new).bind fun a =>
  match a.1 with
  | none => .ok (a, false)
  | some s =>
    let fail := fun s => (failWith l.lost s).bind fun r => .ok (r, false)
    if !l.argv then fail s
    else
      let s := upd (fun c => { c with argv := true }) (take .argv s)
      if !l.kinds then fail s
      else
        let s := upd (fun c => { c with kinds := true }) (take .kinds s)
        let s := if l.colors then upd (fun c => { c with colors := true }) (take .colors s) else s
        parseStreams l s

/-- What happens in `main()`: whether the standard streams can be opened (C88), the command line, what `bfs_eval()` returns, and how its calls of `bfs_ctx_mtab()` end. -/
structure Luck where
  std : Bool
  cmd : CmdLuck
  ret : Nat
  mtab : List Bool

/-- `bfs_eval()` as far as the context is concerned: it returns `EXIT_SUCCESS` if there is no expression. -/
def evalCtx (l : Luck) (expr : Bool) (s : St) : Nat × St :=
  if !expr then (0, s) else (l.ret, l.mtab.foldl (fun s ok => ctxMtab ok s) s)

/-- `main()`, src/main.c:117-152: the exit status, and what is still held. -/
def main (l : Luck) : Out (Nat × List Obj) :=
  if !l.std then .ok (1, [])
  else
    (parseCmdline l.cmd).bind fun a =>
    match a.1.1 with
    | none => .ok (1, a.1.2)
    | some s =>
      let r := evalCtx l a.2 s
      (ctxFree l.cmd.lost r.2).bind fun b =>
      .ok (if !b.1 && r.1 = 0 then 1 else r.1, b.2.live)

end Verif.CtxLife
