import Verif.Spec.Search
import Verif.Spec.Opt
import Verif.Spec.Num
import Verif.Model.Quota

/-!
# What `-limit` should do
-/
namespace Verif.Quota
open Verif.Bftw

variable {T W : Type}

/-- What is known about the other primaries: tests do not end the search, actions end it by asking the
walk to stop, and nothing else asks for that. -/
structure Primaries.Laws (S : Primaries W) : Prop where
  tests : ∀ p path l x, (∀ k i, l ≠ .action k i) → (S.other p path l x).q = false
  stops : ∀ p path l x, x.1 ≠ .stop → ((S.other p path l x).w.1 = .stop ↔ (S.other p path l x).q = true)

/-- All the limits are numbers that `parse_limit()` accepts, see `C91_parse`. -/
def Primaries.Valid (S : Primaries W) : Prop := ∀ i n, S.num i = some n → 1 ≤ n ∧ n < 2 ^ 63

/-- How often the action was evaluated, according to the log. -/
def times (l : Opt.Leaf) (log : List (Pos × Opt.Leaf)) : Nat := (log.filter fun x => x.2 = l).length

/-- The files on which the action was evaluated, newest first. -/
def files (l : Opt.Leaf) (log : List (Pos × Opt.Leaf)) : List Pos := (log.filter fun x => x.2 = l).map (·.1)

/-- `-limit`, the `i`th action. -/
def limitLeaf (i : Nat) : Opt.Leaf := .action .returnsTrue i

/-- What the search did so far: the actions that were evaluated, newest first. -/
def Search.log (q : Search T W) (e : Env) (tr : List Event) : List (Pos × Opt.Leaf) := (q.world e tr).log

/-- What the expression said about the files it was evaluated on. -/
def Search.said (q : Search T W) (e : Env) : List Event → Pos → Action
  | [], _ => .cont
  | ev :: tr, p =>
    if (q.verdict e (q.world e tr) tr ev.visit ev.pos ev.path).evaluated = true ∧ ev.pos = p then
      (q.evaluate ev.pos ev.path (q.world e tr)).w.action
    else q.said e tr p

/-- The options, and what the expression said about the files it was evaluated on. -/
def Search.frozen (q : Search T W) (e : Env) (tr : List Event) : Cfg := { q.cfg with expr := q.said e tr }

/-- The options, for an expression that does not say anything about where to go. -/
def Search.plain (q : Search T W) : Cfg := { q.cfg with expr := fun _ => .cont }

/-- With `-S ids` and `-S eds`, no two of the files have the same path, and `-depth` is not combined with
`-xdev`. -/
def Search.Apart (q : Search T W) (e : Env) : Prop :=
  e.strategy = .ids ∨ e.strategy = .eds → q.plain.Distinct e ∧ (e.post = true → e.pruneMounts = false)

/-- `TESTS ACTION -limit N`, as the parser builds it. -/
def counted (a b c d : Opt.Ann T) (tests : Opt.Expr T) (act : Opt.Leaf) (i : Nat) : Opt.Expr T :=
  .node a .and [.node b .and [tests, .leaf c act], .leaf d (limitLeaf i)]

/-- An expression that does nothing but test the file. -/
def Primaries.Tests (S : Primaries W) (tests : Opt.Expr T) (holds : Pos → Bool) : Prop :=
  ∀ p path w, Opt.eval (S.leaf p path) tests w = ⟨holds p, false, w⟩

/-- An action other than `-limit` that returns true and does not interfere with the search, such as
`-print`. -/
def Primaries.Plain (S : Primaries W) : Opt.Leaf → Prop
  | .action k j => S.limit (.action k j) = none ∧
      ∀ p path a w, ∃ w', S.other p path (.action k j) (a, w) = ⟨true, false, (a, w')⟩
  | _ => False

end Verif.Quota
