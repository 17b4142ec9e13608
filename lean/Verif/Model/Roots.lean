import Verif.Model.Options
import Verif.Model.Io
/-!
# Where the search begins (src/parse.c)

`parse_whole_expr()` again, as in Model/Cmdline.lean, but with `-files0-from`.
-/
namespace Verif.Roots
open Verif.Cmdline (Arg A E St Cmd Prim skipPaths start expr finish)
open Verif.Options (Options Sys configure detectCycles)
open Verif.Io (Stream files0Roots)

/-- What can be read: `xfopen()` of a file, which may fail, and standard input. -/
structure Files where
  opens : Arg → Option Stream
  stdin : Stream

/-- `parse_whole_expr()`, src/parse.c:3592-3606: up to the end of the expression. -/
def toEnd (prim : List Arg → Out Prim) (args : List Arg) : Out (E × St) :=
  if (skipPaths (start args)).args = [] then .ok (.leaf .yes, skipPaths (start args))
  else expr prim (4 * args.length + 4) (skipPaths (start args))

/-- `parse_files0_roots()`, src/parse.c:3543-3557: which file is read. (Who else reads standard input is in Model/Ask.lean.) -/
def openFrom (w : Files) (name : Arg) : Out Stream :=
  if name = A "-" then .ok w.stdin
  else match w.opens name with
    | none => .err "can't open"
    | some s => .ok s

/-- `parse_files0_roots()`, src/parse.c:3523-3587. After a read error, `goto fail` prints no message at all: hence the empty one. -/
def parseFiles0 (w : Files) (name : Arg) (st : St) : Out (List Arg) :=
  if st.roots ≠ [] then .err "cannot combine -files0-from with explicit root paths"
  else (openFrom w name).bind fun s => (files0Roots s).bind fun r =>
    match r with
    | .inr _ => .err ""
    | .inl roots => .ok (st.roots ++ roots)

/-- The roots, `parse_whole_expr()`, src/parse.c:3613-3621. -/
def parseRoots (w : Files) (o : Options) (st : St) : Out (List Arg) :=
  match o.files0 with
  | some name => parseFiles0 w name st
  | none => .ok (if st.roots = [] then st.roots ++ [A "."] else st.roots)

/-- `bfs_parse_cmdline()`, src/parse.c:3827-3951, with `parse_whole_expr()`, src/parse.c:3592-3667. (`finish` has the implicit `-print`; its roots are not used.) -/
def parse (env : Cmdline.Env) (sys : Sys) (w : Files) (args : List Arg) : Out (Cmd × Options) :=
  (toEnd (Cmdline.prim env) args).bind fun r =>
    if r.2.args ≠ [] then .err "unexpected argument"
    else
      (configure sys r.2.calls (Options.defaults sys)).bind fun o =>
        (parseRoots w o r.2).bind fun roots =>
          (finish r.1 r.2).bind fun cmd => .ok ({ cmd with roots }, detectCycles o)

/-- `main()`, src/main.c:117-152: parse, optimize, search, as in `Options.Started` and `Main.Ran`, but with `-files0-from`; `-unique` is not given. The roots that `bfs_eval()`, src/eval.c:1732-1771, passes
to `bftw()` are those that were parsed. -/
structure Started {T : Type} (env : Cmdline.Env) (sys : Sys) (w : Files) (b : Main.Behaviour) (E : Opt.Env T) (a : Opt.Ann T) (gone : Bftw.Pos → Bool) (e : Bftw.Env)
    (args : List Arg) (cmd : Cmd) (o : Options) (tr : List Bftw.Event) (complete : Bool) (out : List Main.Effect) (status : Nat) : Prop where
  settings : parse env sys w args = .ok (cmd, o)
  notUnique : o.unique = false
  level : E.level = o.optlevel.toNat
  post : e.post = Options.has o.flags Options.POST_ORDER
  sort : e.sort = Options.has o.flags Options.SORT
  skipMounts : e.skipMounts = Options.has o.flags Options.SKIP_MOUNTS
  pruneMounts : e.pruneMounts = Options.has o.flags Options.PRUNE_MOUNTS
  strategy : e.strategy = o.strategy
  nthreads : (e.nthreads : Int) = o.threads - 1
  roots : e.roots = cmd.roots.length
  names : ∀ i root, cmd.roots[i]? = some root → e.name [i] = root
  walk : Main.Walked ((b.cfg (o.search gone) (Opt.bfsOptimize E (b.ctx a (o.search gone) cmd))).env e) tr complete
  out_eq : out = b.output (o.search gone) (Opt.bfsOptimize E (b.ctx a (o.search gone) cmd)) e tr
  status_eq : status = Main.exitStatus out ((b.cfg (o.search gone) (Opt.bfsOptimize E (b.ctx a (o.search gone) cmd))).status e tr)

end Verif.Roots
