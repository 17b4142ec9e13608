import Verif.Model.Exec
/-!
# What users expect of `-exec`
-/
namespace Verif.Exec

/-- Replace every `{}`, left to right. -/
def substBraces (path : Bytes) : Bytes → Bytes
  | 123 :: 125 :: r => path ++ substBraces path r
  | c :: r => c :: substBraces path r
  | [] => []

/-- Total size of some arguments. -/
def total : List Bytes → Nat
  | [] => 0
  | a :: as => sizeOfArg a + total as

/-- Did the command run? -/
def Entry.ran (e : Entry) : Bool :=
  match e.res with
  | .ran _ => true
  | .error _ => false

/-- The arguments, beyond the first `n`, of all the commands that ran, one after the other. -/
def deliv (n : Nat) (log : List Entry) : List Bytes := (log.filter Entry.ran).flatMap fun e => e.args.drop n

/-- How a system answers if it accepts all argument lists with up to `K` bytes beyond these fixed
arguments, and nothing but `E2BIG` ever goes wrong. -/
def Accepts (K : Nat) (fixed : List Bytes) (w : World) : Prop :=
  ∀ log args e, w.answer log (fixed ++ args) = .error e → e = E2BIG ∧ K < total args

/-- No library call made for this file fails. -/
def File.fine (f : File) : Prop :=
  f.formatOk = true ∧ f.dupOk = true ∧ f.strndupOk = true ∧ f.openOk = true ∧ f.reallocOk = true

/-- The directory that contains a file, `none` for the one bfs runs in. -/
def dirOf (f : File) : Option Bytes :=
  if f.nameoff = 0 then (if f.path.head? = some 47 then some [47] else none) else some (f.path.take f.nameoff)

/-- What `{}` stands for: the path, or in the file's own directory `./name` (or `/`). -/
def argOf (chdir : Bool) (f : File) : Bytes :=
  match chdir, f.path.drop f.nameoff with
  | false, _ => f.path
  | true, 47 :: name => 47 :: name
  | true, name => 46 :: 47 :: name

/-- A path whose last component has no slashes after it (and is not made of them). -/
structure File.plain (f : File) : Prop where
  name : (47 : UInt8) ∉ f.path.drop f.nameoff
  slash : 0 < f.nameoff → f.path[f.nameoff - 1]? = some 47
  fd : f.atFd = true → 0 < f.nameoff

end Verif.Exec
