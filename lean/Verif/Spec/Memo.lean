import Verif.Model.Memo
/-!
# What the caches should do
-/
namespace Verif.Spec.Memo
open Verif Verif.Memo

/-! ## -unique -/

/-- The files that were seen before a visit: those that could be examined. -/
def seenIn (vs : List Visit) : List Stat := vs.filterMap fun v => if v.memory then v.stat else none

/-- What should happen to a file after some others: it is evaluated if it was not seen before; if it was, it is skipped with all its contents. A file that can't be examined, or that can't be remembered for lack of memory, is skipped, but not its contents. -/
def verdict (before : List Visit) (v : Visit) : Bool × Action :=
  match v.stat with
  | none => (false, .continue)
  | some st => if st ∈ seenIn before then (false, .prune) else (v.memory, .continue)

/-- Numbers that fit in the fields of `struct stat`. -/
def Fits (v : Visit) : Prop := ∀ st, v.stat = some st → st.dev < 2 ^ 64 ∧ st.ino < 2 ^ 64

/-! ## Lookups -/

/-- An operation on the cache. -/
inductive Op (E : Type) where
  | look (l : Lookup) (w : World E)
  | flush

/-- The lookups that make sense. -/
def Valid {E : Type} : Op E → Prop
  | .look (.name s) _ => (0 : UInt8) ∉ s
  | .look (.id n) _ => n < 2 ^ 32
  | .flush => True

/-- The buffer was big enough. -/
def bigEnough {E : Type} : Reply E → Bool
  | .erange => false
  | _ => true

/-- What a lookup finds without a cache: the answer for the first buffer that is big enough. -/
def uncached {E : Type} (w : World E) : Reply E :=
  ((w.sizes.map w.reply).find? bigEnough).getD (.error ENOMEM)

/-- What is remembered about a lookup: nothing, or only that it was tried (so that no memory is needed to remember its result), or what was found, or that there is nothing to be found. -/
inductive Note (E : Type) where
  | none
  | tried
  | absent
  | entry (e : E)

abbrev Known (E : Type) := Lookup → Note E

/-- What can be remembered of an answer. Errors are not remembered. -/
def noteOf {E : Type} : Reply E → Note E
  | .found e => .entry e
  | .notFound => .absent
  | _ => .tried

/-- The result for an answer. -/
def resultOf {E : Type} : Reply E → Res E
  | .found e => .entry e
  | .notFound => .null 0
  | .erange => .null ENOMEM
  | .error n => .null n

/-- The result of a lookup, and what is then remembered about it. What was found or not found the first time is the answer from then on. -/
def answer {E : Type} (note : Note E) (w : World E) : Res E × Note E :=
  match note with
  | .entry e => (.entry e, .entry e)
  | .absent => (.null 0, .absent)
  | .tried => (resultOf (uncached w), noteOf (uncached w))
  | .none => if w.leaf then (resultOf (uncached w), noteOf (uncached w)) else (.null ENOMEM, .none)

/-- What is remembered after an operation; other lookups are not affected. -/
def learn {E : Type} (k : Known E) : Op E → Known E
  | .flush => fun _ => .none
  | .look l w => fun x => if x = l then (answer (k l) w).2 else k x

/-- All results. -/
def answers {E : Type} (k : Known E) : List (Op E) → List (Res E)
  | [] => []
  | .flush :: ops => answers (learn k .flush) ops
  | .look l w :: ops => (answer (k l) w).1 :: answers (learn k (.look l w)) ops

/-- Doing it with the cache. -/
def runOps {E : Type} (K : Nat) (c : Cache E) : List (Op E) → Out (List (Res E) × Cache E)
  | [] => .ok ([], c)
  | .flush :: ops => runOps K (flush c) ops
  | .look l w :: ops => (lookupCache K c w l).bind fun r => (runOps K r.2 ops).bind fun q => .ok (r.1 :: q.1, q.2)

end Verif.Spec.Memo
