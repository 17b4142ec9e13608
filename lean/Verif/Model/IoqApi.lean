import Verif.Model.Ioq
/-!
# The API of the I/O queue and its worker threads, src/ioq.c

These run in one thread each, so they are ordinary functions.  `ioqq_push_batch()` and
`ioqq_pop_batch()` (`Verif.Model.Ioq`) appear as the list of entries handed over, and as a list
of entries (or null pointers) obtained.  For `io_uring` see `Verif.Model.Uring`.
-/
namespace Verif.Ioq

/-- `struct ioq_batch`, src/ioq.c:466-473.  `B` is `IOQ_BATCH`, src/ioq.c:461. -/
structure Batch where
  head : Nat
  tail : Nat
  entries : List W
  deriving DecidableEq, Repr

/-- `ioq_batch_reset()`, src/ioq.c:476-478 -/
def Batch.reset (b : Batch) : Batch := { b with head := 0, tail := 0 }

/-- `ioq_batch_empty()`, src/ioq.c:481-483 -/
def Batch.isEmpty (b : Batch) : Bool := b.tail ≤ b.head

/-- `ioq_batch_flush()`, src/ioq.c:486-491, with the entries that it passes to
`ioqq_push_batch()`. -/
def Batch.flush (b : Batch) : Batch × List W :=
  if 0 < b.tail then (b.reset, b.entries.take b.tail) else (b, [])

/-- `ioq_batch_push()`, src/ioq.c:494-500.  Writing past the end of the array is undefined. -/
def Batch.push (B : Nat) (b : Batch) (ent : W) : Out (Batch × List W) :=
  if b.tail < B then
    let b := { b with entries := b.entries.set b.tail ent, tail := b.tail + 1 }
    .ok (if B ≤ b.tail then b.flush else (b, []))
  else .ub

/-- The loop of `ioq_batch_fill()` (src/ioq.c:507-512), from `i`, with `n` iterations to go. -/
def Batch.fillLoop (b : Batch) (i : Nat) : Nat → Batch
  | 0 => b
  | n + 1 =>
    let ent := b.entries.getD i 0#64
    fillLoop (if ent ≠ 0#64 then { b with entries := b.entries.set b.tail ent, tail := b.tail + 1 } else b) (i + 1) n

/-- `ioq_batch_fill()`, src/ioq.c:503-515; `got` is what `ioqq_pop_batch()` stored. -/
def Batch.fill (B : Nat) (b : Batch) (got : List W) : Batch :=
  { b with entries := got }.reset.fillLoop 0 B

/-- `ioq_batch_pop()`, src/ioq.c:518-535; `got` is used if it calls `ioqq_pop_batch()`. -/
def Batch.pop (B : Nat) (b : Batch) (block : Bool) (got : List W) : Batch × W :=
  if b.isEmpty then
    if !block && decide (b.head < B) then ({ b with head := b.head + 1 }, 0#64)
    else
      let b := b.fill B got
      if 0 < b.tail then ({ b with head := b.head + 1 }, b.entries.getD b.head 0#64) else (b, 0#64)
  else ({ b with head := b.head + 1 }, b.entries.getD b.head 0#64)

/-- The part of `struct ioq`, src/ioq.c:571-597, that the client thread uses.  `sent` records
the entries handed to the pending queue. -/
structure Api where
  depth : Nat
  size : Nat
  cancelled : Bool
  pending : Batch
  ready : Batch
  sent : List W
  deriving DecidableEq, Repr

/-- `ioq_create()`, src/ioq.c:1130-1169 (the memory is zeroed). -/
def Api.create (B depth : Nat) : Api :=
  { depth, size := 0, cancelled := false, pending := ⟨0, 0, List.replicate B 0#64⟩, ready := ⟨0, 0, List.replicate B 0#64⟩, sent := [] }

/-- `&IOQ_STOP`, src/ioq.c:538, some address. -/
abbrev Stop := W

/-- `ioq_capacity()`, src/ioq.c:1171-1173. -/
def Api.capacity (a : Api) : Nat := a.depth - a.size

/-- `ioq_batch_push(ioq->pending, &ioq->pending_batch, ent)` -/
def Api.enqueue (B : Nat) (a : Api) (ent : W) : Out Api := do
  let (b, l) ← a.pending.push B ent
  .ok { a with pending := b, sent := a.sent ++ l }

/-- `ioq_request()`, src/ioq.c:1175-1195; `ent` is what `arena_alloc()` returns. -/
def Api.request (a : Api) (ent : Option W) : Out (Api × W) :=
  if a.cancelled then .err "EINTR"
  else if a.size ≥ a.depth then .err "EAGAIN"
  else match ent with
    | none => .err "ENOMEM"
    | some e => .ok ({ a with size := a.size + 1 }, e)

/-- `ioq_free()`, src/ioq.c:1288-1299. -/
def Api.free (a : Api) : Out Api := if 0 < a.size then .ok { a with size := a.size - 1 } else .ub

/-- `ioq_nop()`, `ioq_close()`, `ioq_opendir()`, `ioq_closedir()` and `ioq_stat()`
(src/ioq.c:1197-1271).  `xbuf`: could the buffer for `statx()` be allocated (always true for the
others)?  The result is the state, and the error number, if any. -/
def Api.call (B : Nat) (a : Api) (ent : Option W) (xbuf : Bool) : Out (Api × Option String) :=
  match a.request ent with
  | .ok (a, e) =>
    if xbuf then (a.enqueue B e).bind fun a => .ok (a, none)
    else a.free.bind fun a => .ok (a, some "ENOMEM")
  | .err e => .ok (a, some e)
  | .ub => .ub

/-- `ioq_submit()`, src/ioq.c:1273-1275. -/
def Api.submit (a : Api) : Api :=
  let (b, l) := a.pending.flush
  { a with pending := b, sent := a.sent ++ l }

/-- `ioq_pop()`, src/ioq.c:1277-1286. -/
def Api.pop (B : Nat) (a : Api) (block : Bool) (got : List W) : Out (Api × W) :=
  if a.pending.isEmpty then
    if a.size = 0 then .ok (a, 0#64)
    else
      let (b, e) := a.ready.pop B block got
      .ok ({ a with ready := b }, e)
  else .ub

/-- `ioq_cancel()`, src/ioq.c:1301-1306. -/
def Api.cancel (B : Nat) (a : Api) (stop : Stop) : Out Api :=
  if a.cancelled then .ok a
  else ({ a with cancelled := true }.enqueue B stop).bind fun a => .ok a.submit

/-! ## The worker -/

/-- `enum ioq_op`, as far as it matters to `ioq_check_cancel()`: is it `IOQ_CLOSE` or
`IOQ_CLOSEDIR`? -/
abbrev Closes := W → Bool

/-- The local variables of `ioq_sync_work()`, src/ioq.c:941-967; `sent` records what it handed to
the ready queue, `performed` what it passed to `ioq_dispatch_sync()`, `refused` what got
`-EINTR` instead. -/
structure Worker where
  pending : Batch
  ready : Batch
  sent : List W
  performed : List W
  refused : List W
  deriving DecidableEq, Repr

/-- src/ioq.c:944-946 -/
def Worker.start (B : Nat) : Worker := ⟨⟨0, 0, List.replicate B 0#64⟩, ⟨0, 0, List.replicate B 0#64⟩, [], [], []⟩

/-- `ioq_batch_flush(ioq->ready, &ready)` -/
def Worker.flush (w : Worker) : Worker :=
  let (b, l) := w.ready.flush
  { w with ready := b, sent := w.sent ++ l }

/-- `ioq_check_cancel()`, src/ioq.c:600-612, and `ioq_dispatch_sync()`, :615-651 (which performs
the system call of the request). -/
def Worker.perform (closes : Closes) (cancelled : Bool) (w : Worker) (ent : W) : Worker :=
  if cancelled && !closes ent then { w with refused := w.refused ++ [ent] }
  else { w with performed := w.performed ++ [ent] }

/-- src/ioq.c:949-951 -/
def Worker.top (w : Worker) : Worker := if w.pending.isEmpty then w.flush else w

/-- One iteration of the loop, src/ioq.c:948-963: the new state, and whether it is done. -/
def Worker.iter (B : Nat) (stop : Stop) (closes : Closes) (w : Worker) (got : List W) (cancelled : Bool) : Out (Worker × Bool) :=
  let w := w.top
  let (p, ent) := w.pending.pop B true got
  let w := { w with pending := p }
  if ent = stop then .ok (w, true)
  else
    let w := w.perform closes cancelled ent
    (w.ready.push B ent).bind fun (r, l) => .ok ({ w with ready := r, sent := w.sent ++ l }, false)

/-- src/ioq.c:965-966: a failed assertion is undefined. -/
def Worker.finish (w : Worker) : Out Worker := if w.pending.isEmpty then .ok w.flush else .ub

end Verif.Ioq
