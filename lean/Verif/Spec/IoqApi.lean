import Verif.Model.IoqApi
/-!
# Histories of API calls
-/
namespace Verif.Ioq

/-- The entries that are waiting in a batch. -/
def Batch.content (b : Batch) : List W := (b.entries.take b.tail).drop b.head

/-- The entries, without null pointers. -/
def nonNull (l : List W) : List W := l.filter (· ≠ 0#64)

/-- All that a client may do with a queue.  `flight`: the requests that have been accepted and not
been freed; `accepted`: all requests that were accepted, in order. -/
inductive Hist (B depth : Nat) (stop : Stop) : Api → (flight accepted : List W) → Prop
  | create : Hist B depth stop (Api.create B depth) [] []
  /-- a request is accepted -/
  | accept {a a' : Api} {fl acc : List W} (e : W) (xbuf : Bool) : Hist B depth stop a fl acc →
      a.call B (some e) xbuf = .ok (a', none) → Hist B depth stop a' (fl ++ [e]) (acc ++ [e])
  /-- a request is refused -/
  | refuse {a a' : Api} {fl acc : List W} (ent : Option W) (xbuf : Bool) (errno : String) : Hist B depth stop a fl acc →
      a.call B ent xbuf = .ok (a', some errno) → Hist B depth stop a' fl acc
  | submit {a : Api} {fl acc : List W} : Hist B depth stop a fl acc → Hist B depth stop a.submit fl acc
  | pop {a a' : Api} {fl acc : List W} (block : Bool) (got : List W) (e : W) : Hist B depth stop a fl acc → got.length = B →
      a.pop B block got = .ok (a', e) → Hist B depth stop a' fl acc
  /-- only requests in flight can be freed -/
  | free {a a' : Api} {fl acc : List W} (e : W) : Hist B depth stop a fl acc → e ∈ fl → a.free = .ok a' →
      Hist B depth stop a' (fl.erase e) acc
  | cancel {a a' : Api} {fl acc : List W} : Hist B depth stop a fl acc → a.cancel B stop = .ok a' → Hist B depth stop a' fl acc

/-- All that a worker does until it is told to stop.  `received`: the entries it took from the
pending queue; a blocking pop gets at least one. -/
inductive WHist (B : Nat) (stop : Stop) (closes : Closes) : Worker → (received : List W) → Prop
  | start : WHist B stop closes (Worker.start B) []
  | iter {w w' : Worker} {rcv : List W} (got : List W) (cancelled : Bool) : WHist B stop closes w rcv →
      got.length = B → (∀ p ∈ got.head?, p ≠ 0#64) → w.iter B stop closes got cancelled = .ok (w', false) →
      WHist B stop closes w' (if w.pending.content = [] then rcv ++ nonNull got else rcv)

end Verif.Ioq
