import Verif.Spec.IoqApi
/-!
# Batches
-/
namespace Verif.Ioq

theorem empty_content {b : Batch} (h : b.isEmpty = true) : b.content = [] := by
  unfold Batch.isEmpty at h
  simp at h
  unfold Batch.content
  rw [List.drop_eq_nil_iff, List.length_take]
  omega

theorem content_length {B : Nat} {b : Batch} (hl : b.entries.length = B) (ht : b.tail ≤ B) : b.content.length = b.tail - b.head := by
  unfold Batch.content
  rw [List.length_drop, List.length_take]
  omega

theorem empty_iff {B : Nat} {b : Batch} (hl : b.entries.length = B) (ht : b.tail ≤ B) : b.isEmpty = true ↔ b.content = [] := by
  refine ⟨empty_content, ?_⟩
  intro h
  have := content_length hl ht
  rw [h] at this
  simp at this
  unfold Batch.isEmpty
  simp; omega

/-- A batch of outgoing entries. -/
structure OutB (B : Nat) (b : Batch) : Prop where
  len : b.entries.length = B
  head : b.head = 0
  tail : b.tail < B

theorem flush_spec {B : Nat} {b : Batch} (hB : 0 < B) (hl : b.entries.length = B) (hh : b.head = 0) (_ht : b.tail ≤ B) :
    OutB B b.flush.1 ∧ b.flush.1.content = [] ∧ b.flush.2 = b.content := by
  unfold Batch.flush
  by_cases h : 0 < b.tail
  · rw [if_pos h]
    refine ⟨⟨hl, rfl, hB⟩, ?_, ?_⟩
    · simp [Batch.content, Batch.reset]
    · simp [Batch.content, hh]
  · rw [if_neg h]
    refine ⟨⟨hl, hh, show b.tail < B from by omega⟩, ?_, ?_⟩
    · apply empty_content; simp [Batch.isEmpty]; omega
    · symm; apply empty_content; simp [Batch.isEmpty]; omega

theorem take_set_succ {α : Type} (l : List α) (n : Nat) (a : α) (h : n < l.length) : (l.set n a).take (n + 1) = l.take n ++ [a] := by
  rw [List.take_add_one, List.take_set_of_le (Nat.le_refl n)]
  simp [h]

theorem push_spec' {B : Nat} {b : Batch} (hB : 0 < B) (h : OutB B b) (e : W) :
    ∃ b' l, b.push B e = .ok (b', l) ∧ OutB B b' ∧ l ++ b'.content = b.content ++ [e] := by
  have hl := h.len
  have hh := h.head
  have ht := h.tail
  unfold Batch.push
  rw [if_pos h.tail]
  dsimp only
  have hc : (b.entries.set b.tail e).take (b.tail + 1) = b.entries.take b.tail ++ [e] := take_set_succ _ _ _ (by omega)
  by_cases hf : B ≤ b.tail + 1
  · rw [if_pos hf]
    obtain ⟨h1, h2, h3⟩ := flush_spec (B := B) (b := { b with entries := b.entries.set b.tail e, tail := b.tail + 1 }) hB (by simp [hl]) hh (by simp; omega)
    refine ⟨({ b with entries := b.entries.set b.tail e, tail := b.tail + 1 } : Batch).flush.1,
      ({ b with entries := b.entries.set b.tail e, tail := b.tail + 1 } : Batch).flush.2, rfl, h1, ?_⟩
    rw [h2, h3]
    simp [Batch.content, hc, hh]
  · rw [if_neg hf]
    refine ⟨_, _, rfl, ⟨by simp [hl], hh, by simp; omega⟩, ?_⟩
    simp [Batch.content, hc, hh]

theorem fillLoop_spec {B : Nat} (got : List W) (hg : got.length = B) (n : Nat) : ∀ (i : Nat) (b : Batch), i + n = B → b.entries.length = B → b.head = 0 →
    b.tail ≤ i → b.entries.take b.tail = nonNull (got.take i) → b.entries.drop i = got.drop i →
    (b.fillLoop i n).entries.length = B ∧ (b.fillLoop i n).head = 0 ∧ (b.fillLoop i n).tail ≤ B ∧
      (b.fillLoop i n).entries.take (b.fillLoop i n).tail = nonNull got := by
  induction n with
  | zero =>
    intro i b hi hl hh ht htk hd
    simp only [Batch.fillLoop]
    refine ⟨hl, hh, by omega, ?_⟩
    rw [htk, List.take_of_length_le (by omega)]
  | succ n ih =>
    intro i b hi hl hh ht htk hd
    simp only [Batch.fillLoop]
    have hil : i < got.length := by omega
    have hgi : b.entries.getD i 0#64 = got[i] := by
      rw [List.getD_eq_getElem?_getD]
      have h1 : b.entries[i]? = got[i]? := by
        have := congrArg (fun l => l[0]?) hd
        simpa using this
      rw [h1, List.getElem?_eq_getElem hil]; rfl
    have htk1 : got.take (i + 1) = got.take i ++ [got[i]] := by
      rw [List.take_add_one, List.getElem?_eq_getElem hil]; rfl
    have hd1 : b.entries.drop (i + 1) = got.drop (i + 1) := by
      have := congrArg (List.drop 1) hd
      simpa [List.drop_drop, Nat.add_comm] using this
    by_cases h0 : b.entries.getD i 0#64 ≠ 0#64
    · rw [if_pos h0]
      refine ih (i + 1) _ (by omega) (by simp [hl]) hh (by simp; omega) ?_ ?_
      · rw [htk1]
        unfold nonNull
        rw [List.filter_append, List.filter_cons_of_pos (by rw [hgi] at h0; simpa using h0), List.filter_nil]
        show (b.entries.set b.tail _).take (b.tail + 1) = _
        rw [take_set_succ _ _ _ (by omega), htk, hgi]
        rfl
      · show (b.entries.set b.tail _).drop (i + 1) = _
        rw [List.drop_set_of_lt (by omega)]; exact hd1
    · rw [if_neg h0]
      refine ih (i + 1) _ (by omega) hl hh (by omega) ?_ hd1
      rw [htk1]
      unfold nonNull
      rw [List.filter_append, List.filter_cons_of_neg (by rw [hgi] at h0; simpa using h0), List.filter_nil, List.append_nil]
      exact htk

theorem fill_spec {B : Nat} (b : Batch) (got : List W) (hg : got.length = B) :
    (b.fill B got).entries.length = B ∧ (b.fill B got).head = 0 ∧ (b.fill B got).tail ≤ B ∧ (b.fill B got).content = nonNull got := by
  have h := fillLoop_spec got hg B 0 ({ b with entries := got }.reset) (by omega) hg rfl (Nat.le_refl _) rfl rfl
  refine ⟨h.1, h.2.1, h.2.2.1, ?_⟩
  unfold Batch.content Batch.fill
  rw [h.2.2.2, h.2.1]; rfl

/-- A batch of incoming entries. -/
structure InB (B : Nat) (b : Batch) : Prop where
  len : b.entries.length = B
  tail : b.tail ≤ B

theorem content_cons {B : Nat} {b : Batch} (h : InB B b) (hlt : b.head < b.tail) :
    b.content = b.entries.getD b.head 0#64 :: { b with head := b.head + 1 }.content := by
  have hl := h.len
  have ht := h.tail
  unfold Batch.content
  dsimp only
  rw [List.drop_eq_getElem_cons (by rw [List.length_take]; omega), List.getElem_take, List.getD_eq_getElem?_getD,
    List.getElem?_eq_getElem (by omega)]
  rfl

/-- `ioq_batch_pop()` returns what is waiting, in order, and then what it gets from the queue. -/
theorem pop_spec' {B : Nat} {b : Batch} (h : InB B b) (block : Bool) {got : List W} (hg : got.length = B) :
    InB B (b.pop B block got).1 ∧
    (b.content ≠ [] → (b.pop B block got).2 :: (b.pop B block got).1.content = b.content) ∧
    (b.content = [] → block = false → b.head < B → (b.pop B block got).2 = 0#64 ∧ (b.pop B block got).1.content = []) ∧
    (b.content = [] → (block = true ∨ B ≤ b.head) → nonNull got ≠ [] → (b.pop B block got).2 :: (b.pop B block got).1.content = nonNull got) ∧
    (b.content = [] → (block = true ∨ B ≤ b.head) → nonNull got = [] → (b.pop B block got).2 = 0#64 ∧ (b.pop B block got).1.content = []) := by
  have hem := empty_iff h.len h.tail
  unfold Batch.pop
  by_cases he : b.isEmpty = true
  · rw [if_pos he]
    have hc := hem.1 he
    by_cases hb : (!block && decide (b.head < B)) = true
    · rw [if_pos hb]
      simp at hb
      have : ({ b with head := b.head + 1 } : Batch).content = [] := by
        apply empty_content
        simp [Batch.isEmpty] at he ⊢; omega
      refine ⟨⟨h.len, h.tail⟩, fun h' => absurd hc h', fun _ _ _ => ⟨rfl, this⟩, ?_, ?_⟩
      · intro _ h2; rcases h2 with h2 | h2
        · rw [h2] at hb; exact absurd hb.1 (by simp)
        · omega
      · intro _ h2; rcases h2 with h2 | h2
        · rw [h2] at hb; exact absurd hb.1 (by simp)
        · omega
    · rw [if_neg hb]
      have hno : ¬ (block = false ∧ b.head < B) := by simpa using hb
      obtain ⟨f1, f2, f3, f4⟩ := fill_spec b got hg
      dsimp only
      have hin : InB B (b.fill B got) := ⟨f1, f3⟩
      have hlen := content_length f1 f3
      by_cases h0 : 0 < (b.fill B got).tail
      · rw [if_pos h0]
        have hcc := content_cons hin (by rw [f2]; exact h0)
        have hnn : nonNull got ≠ [] := by
          intro e; rw [f4, e, f2] at hlen; simp at hlen; omega
        refine ⟨⟨f1, f3⟩, fun h' => absurd hc h', fun _ h2 h3 => absurd ⟨h2, h3⟩ hno, ?_, fun _ _ h3 => absurd h3 hnn⟩
        intro _ _ _
        rw [← f4, hcc]
      · rw [if_neg h0]
        have hnn : nonNull got = [] := by
          rw [← f4]; apply empty_content; simp [Batch.isEmpty]; omega
        refine ⟨⟨f1, f3⟩, fun h' => absurd hc h', fun _ h2 h3 => absurd ⟨h2, h3⟩ hno, fun _ _ h3 => absurd hnn h3, ?_⟩
        intro _ _ _
        exact ⟨rfl, by rw [f4, hnn]⟩
  · rw [if_neg he]
    have hne : b.content ≠ [] := fun e => he (hem.2 e)
    have hlt : b.head < b.tail := by
      unfold Batch.isEmpty at he; simp at he; exact he
    refine ⟨⟨h.len, h.tail⟩, fun _ => (content_cons h hlt).symm, fun e => absurd e hne, fun e => absurd e hne, fun e => absurd e hne⟩

/-! ## The API -/

/-- The invariant of the API. -/
structure ApiInv (B depth : Nat) (stop : Stop) (a : Api) (fl acc : List W) : Prop where
  dep : a.depth = depth
  size : a.size = fl.length
  le : fl.length ≤ depth
  out : OutB B a.pending
  inb : InB B a.ready
  order : a.sent ++ a.pending.content = acc ++ (if a.cancelled then [stop] else [])

theorem api_create (B depth : Nat) (stop : Stop) (hB : 0 < B) : ApiInv B depth stop (Api.create B depth) [] [] := by
  refine ⟨rfl, rfl, Nat.zero_le _, ⟨by simp [Api.create], rfl, hB⟩, ⟨by simp [Api.create], Nat.zero_le _⟩, ?_⟩
  simp [Api.create, Batch.content]

theorem enqueue_spec {B depth : Nat} {stop : Stop} {a : Api} {fl acc : List W} (hB : 0 < B) (h : OutB B a.pending) (e : W) :
    ∃ a', a.enqueue B e = .ok a' ∧ a'.depth = a.depth ∧ a'.size = a.size ∧ a'.cancelled = a.cancelled ∧ OutB B a'.pending ∧ a'.ready = a.ready ∧
      a'.sent ++ a'.pending.content = a.sent ++ a.pending.content ++ [e] := by
  obtain ⟨b', l, h1, h2, h3⟩ := push_spec' hB h e
  refine ⟨{ a with pending := b', sent := a.sent ++ l }, ?_, rfl, rfl, rfl, h2, rfl, ?_⟩
  · unfold Api.enqueue; rw [h1]; rfl
  · simp only [List.append_assoc]; rw [h3]

/-- Every call is either accepted or refused, and this is how. -/
theorem call_cases {B depth : Nat} {stop : Stop} {a : Api} {fl acc : List W} (hB : 0 < B) (h : ApiInv B depth stop a fl acc) (ent : Option W) (xbuf : Bool) :
    (a.cancelled = true ∧ a.call B ent xbuf = .ok (a, some "EINTR")) ∨
    (a.cancelled = false ∧ fl.length = depth ∧ a.call B ent xbuf = .ok (a, some "EAGAIN")) ∨
    (a.cancelled = false ∧ fl.length < depth ∧ (ent = none ∨ xbuf = false) ∧ a.call B ent xbuf = .ok (a, some "ENOMEM")) ∨
    (∃ e a', a.cancelled = false ∧ fl.length < depth ∧ ent = some e ∧ xbuf = true ∧ a.call B ent xbuf = .ok (a', none) ∧
      ApiInv B depth stop a' (fl ++ [e]) (acc ++ [e])) := by
  have hd := h.dep
  have hsz := h.size
  have hle := h.le
  unfold Api.call Api.request
  by_cases hc : a.cancelled = true
  · left; rw [if_pos hc]; exact ⟨hc, rfl⟩
  · right
    have hcf : a.cancelled = false := by simpa using hc
    rw [if_neg hc]
    by_cases hf : a.size ≥ a.depth
    · left; rw [if_pos hf]; exact ⟨hcf, by omega, rfl⟩
    · right
      rw [if_neg hf]
      cases ent with
      | none => left; exact ⟨hcf, by omega, Or.inl rfl, rfl⟩
      | some e =>
        cases xbuf with
        | false =>
          left
          refine ⟨hcf, by omega, Or.inr rfl, ?_⟩
          simp only [Bool.false_eq_true, if_false, Api.free]
          rw [if_pos (by simp)]
          rfl
        | true =>
          right
          have hin : OutB B ({ a with size := a.size + 1 } : Api).pending := h.out
          obtain ⟨a', e1, e2, e3, e4, e5, e6, e7⟩ := enqueue_spec (depth := depth) (stop := stop) (fl := fl) (acc := acc) hB hin e
          refine ⟨e, a', hcf, by omega, rfl, rfl, ?_, ⟨by rw [e2]; exact hd, ?_, ?_, e5, by rw [e6]; exact h.inb, ?_⟩⟩
          · simp only [if_true]
            rw [e1]; rfl
          · rw [e3]; simp; omega
          · simp; omega
          · rw [e7, e4]
            have := h.order
            rw [hcf] at this
            simp only [Bool.false_eq_true, if_false, List.append_nil] at this
            dsimp only
            rw [hcf, this]; simp

theorem submit_inv {B depth : Nat} {stop : Stop} {a : Api} {fl acc : List W} (hB : 0 < B) (h : ApiInv B depth stop a fl acc) :
    ApiInv B depth stop a.submit fl acc ∧ a.submit.pending.content = [] := by
  obtain ⟨h1, h2, h3⟩ := flush_spec hB h.out.len h.out.head (Nat.le_of_lt h.out.tail)
  have e : a.submit = { a with pending := a.pending.flush.1, sent := a.sent ++ a.pending.flush.2 } := rfl
  rw [e]
  refine ⟨⟨h.dep, h.size, h.le, h1, h.inb, ?_⟩, h2⟩
  dsimp only
  rw [h2, h3, List.append_nil]; exact h.order

theorem cancel_inv {B depth : Nat} {stop : Stop} {a : Api} {fl acc : List W} (hB : 0 < B) (h : ApiInv B depth stop a fl acc) :
    ∃ a', a.cancel B stop = .ok a' ∧ ApiInv B depth stop a' fl acc ∧ a'.cancelled = true ∧ (a.cancelled = false → a'.pending.content = []) := by
  unfold Api.cancel
  by_cases hc : a.cancelled = true
  · rw [if_pos hc]; exact ⟨a, rfl, h, hc, fun h' => by rw [hc] at h'; cases h'⟩
  · rw [if_neg hc]
    have hcf : a.cancelled = false := by simpa using hc
    have hin : OutB B ({ a with cancelled := true } : Api).pending := h.out
    obtain ⟨a', e1, e2, e3, e4, e5, e6, e7⟩ := enqueue_spec (depth := depth) (stop := stop) (fl := fl) (acc := acc) hB hin stop
    have hi : ApiInv B depth stop a' fl acc := by
      refine ⟨by rw [e2]; exact h.dep, by rw [e3]; exact h.size, h.le, e5, by rw [e6]; exact h.inb, ?_⟩
      rw [e7, e4]
      have := h.order
      rw [hcf] at this
      simp only [Bool.false_eq_true, if_false, List.append_nil] at this
      simp [this]
    refine ⟨a'.submit, by rw [e1]; rfl, (submit_inv hB hi).1, ?_, fun _ => (submit_inv hB hi).2⟩
    show a'.cancelled = true
    rw [e4]

theorem pop_inv {B depth : Nat} {stop : Stop} {a a' : Api} {fl acc : List W} {block : Bool} {got : List W} {e : W} (h : ApiInv B depth stop a fl acc)
    (hg : got.length = B) (hp : a.pop B block got = .ok (a', e)) : ApiInv B depth stop a' fl acc := by
  unfold Api.pop at hp
  split at hp
  · split at hp
    · cases hp; exact h
    · dsimp only at hp
      cases hp
      exact ⟨h.dep, h.size, h.le, h.out, (pop_spec' h.inb block hg).1, h.order⟩
  · cases hp

theorem free_inv {B depth : Nat} {stop : Stop} {a : Api} {fl acc : List W} {e : W} (h : ApiInv B depth stop a fl acc) (he : e ∈ fl) :
    ∃ a', a.free = .ok a' ∧ ApiInv B depth stop a' (fl.erase e) acc := by
  have hlen := List.length_pos_of_mem he
  have hsz := h.size
  have hle := h.le
  have hel := List.length_erase_of_mem he
  refine ⟨{ a with size := a.size - 1 }, ?_, ⟨h.dep, ?_, ?_, h.out, h.inb, h.order⟩⟩
  · unfold Api.free; rw [if_pos (by omega)]
  · dsimp only; omega
  · omega

theorem hist_inv {B depth : Nat} {stop : Stop} {a : Api} {fl acc : List W} (hB : 0 < B) (h : Hist B depth stop a fl acc) : ApiInv B depth stop a fl acc := by
  induction h with
  | create => exact api_create B depth stop hB
  | accept e xbuf _ hc ih =>
    rcases call_cases hB ih (some e) xbuf with ⟨_, h1⟩ | ⟨_, _, h1⟩ | ⟨_, _, _, h1⟩ | ⟨e', a', _, _, he, _, h1, h2⟩
    · rw [h1] at hc; cases hc
    · rw [h1] at hc; cases hc
    · rw [h1] at hc; cases hc
    · rw [h1] at hc; cases hc; cases he; exact h2
  | refuse ent xbuf errno _ hc ih =>
    rcases call_cases hB ih ent xbuf with ⟨_, h1⟩ | ⟨_, _, h1⟩ | ⟨_, _, _, h1⟩ | ⟨e', a', _, _, he, _, h1, h2⟩
    · rw [h1] at hc; cases hc; exact ih
    · rw [h1] at hc; cases hc; exact ih
    · rw [h1] at hc; cases hc; exact ih
    · rw [h1] at hc; cases hc
  | submit _ ih => exact (submit_inv hB ih).1
  | pop block got e _ hg hp ih => exact pop_inv ih hg hp
  | free e _ he hf ih =>
    obtain ⟨a', h1, h2⟩ := free_inv ih he
    rw [h1] at hf; cases hf; exact h2
  | cancel _ hc ih =>
    obtain ⟨a', h1, h2, _⟩ := cancel_inv hB ih
    rw [h1] at hc; cases hc; exact h2

/-! ## The worker -/

structure WInv (B : Nat) (closes : Closes) (w : Worker) (rcv : List W) : Prop where
  out : OutB B w.ready
  inb : InB B w.pending
  order : w.sent ++ w.ready.content ++ w.pending.content = rcv
  once : (w.performed ++ w.refused).Perm (w.sent ++ w.ready.content)
  closed : ∀ p ∈ w.refused, closes p = false

theorem top_inv {B : Nat} {closes : Closes} {w : Worker} {rcv : List W} (hB : 0 < B) (h : WInv B closes w rcv) :
    WInv B closes w.top rcv ∧ w.top.pending = w.pending ∧ w.top.performed = w.performed ∧ w.top.refused = w.refused ∧ (w.pending.isEmpty = true → w.top.ready.content = []) := by
  unfold Worker.top
  by_cases he : w.pending.isEmpty = true
  · rw [if_pos he]
    obtain ⟨h1, h2, h3⟩ := flush_spec hB h.out.len h.out.head (Nat.le_of_lt h.out.tail)
    have e : w.flush = { w with ready := w.ready.flush.1, sent := w.sent ++ w.ready.flush.2 } := rfl
    rw [e]
    refine ⟨⟨h1, h.inb, ?_, ?_, h.closed⟩, rfl, rfl, rfl, fun _ => h2⟩
    · dsimp only; rw [h2, h3, List.append_nil]; exact h.order
    · dsimp only; rw [h2, h3, List.append_nil]; exact h.once
  · rw [if_neg he]; exact ⟨h, rfl, rfl, rfl, fun h' => absurd h' he⟩

/-- One iteration: takes the next entry; stops, or deals with it. -/
theorem iter_cases {B : Nat} {stop : Stop} {closes : Closes} {w : Worker} {rcv : List W} (hB : 0 < B) (h : WInv B closes w rcv) {got : List W}
    (hg : got.length = B) (hf : ∀ p ∈ got.head?, p ≠ 0#64) (cancelled : Bool) :
    ∃ ent rest, ent :: rest = (if w.pending.content = [] then nonNull got else w.pending.content) ∧
      ((ent = stop ∧ ∃ w', w.iter B stop closes got cancelled = .ok (w', true) ∧ OutB B w'.ready ∧ InB B w'.pending ∧
          w'.pending.content = rest ∧ (w'.sent ++ w'.ready.content) = w.sent ++ w.ready.content ∧
          w'.performed = w.performed ∧ w'.refused = w.refused) ∨
       (ent ≠ stop ∧ ∃ w', w.iter B stop closes got cancelled = .ok (w', false) ∧ w'.pending.content = rest ∧
          WInv B closes w' (if w.pending.content = [] then rcv ++ nonNull got else rcv) ∧
          w'.performed = w.performed ++ (if cancelled && !closes ent then [] else [ent]) ∧
          w'.refused = w.refused ++ (if cancelled && !closes ent then [ent] else []))) := by
  obtain ⟨ht, hp1, hp2, hp3, _⟩ := top_inv hB h
  have hinp : InB B w.pending := h.inb
  have hps := pop_spec' hinp true hg
  have hnn : nonNull got ≠ [] := by
    cases got with
    | nil => simp at hg; omega
    | cons g gs =>
      have := hf g (by simp)
      unfold nonNull
      rw [List.filter_cons_of_pos (by simpa using this)]
      simp
  have hpop : (w.pending.pop B true got).2 :: (w.pending.pop B true got).1.content =
      (if w.pending.content = [] then nonNull got else w.pending.content) := by
    by_cases hc : w.pending.content = []
    · rw [if_pos hc]; exact hps.2.2.2.1 hc (Or.inl rfl) hnn
    · rw [if_neg hc]; exact hps.2.1 hc
  refine ⟨(w.pending.pop B true got).2, (w.pending.pop B true got).1.content, hpop, ?_⟩
  generalize hpe : w.pending.pop B true got = pe at *
  obtain ⟨p, ent⟩ := pe
  have hord : w.top.sent ++ w.top.ready.content = w.sent ++ w.ready.content := by
    have h1 := ht.order
    have h2 := h.order
    rw [hp1] at h1
    exact List.append_cancel_right (h1.trans h2.symm)
  unfold Worker.iter
  dsimp only
  rw [hp1, hpe]
  dsimp only
  by_cases hst : ent = stop
  · left
    rw [if_pos hst]
    exact ⟨hst, _, rfl, ht.out, hps.1, rfl, hord, hp2, hp3⟩
  · right
    rw [if_neg hst]
    refine ⟨hst, ?_⟩
    generalize hw2 : Worker.perform closes cancelled { w.top with pending := p } ent = w2
    have hw2r : w2.ready = w.top.ready ∧ w2.sent = w.top.sent ∧ w2.pending = p ∧
        w2.performed = w.performed ++ (if cancelled && !closes ent then [] else [ent]) ∧
        w2.refused = w.refused ++ (if cancelled && !closes ent then [ent] else []) := by
      subst hw2
      unfold Worker.perform
      by_cases hcl : (cancelled && !closes ent) = true
      · rw [if_pos hcl, if_pos hcl, if_pos hcl]
        exact ⟨rfl, rfl, rfl, by simp [hp2], by simp [hp3]⟩
      · rw [if_neg hcl, if_neg hcl, if_neg hcl]
        exact ⟨rfl, rfl, rfl, by simp [hp2], by simp [hp3]⟩
    obtain ⟨r1, r2, r3, r4, r5⟩ := hw2r
    obtain ⟨b', l, q1, q2, q3⟩ := push_spec' hB ht.out ent
    refine ⟨{ w2 with ready := b', sent := w2.sent ++ l }, ?_, by dsimp only; rw [r3], ⟨q2, ?_, ?_, ?_, ?_⟩, r4, r5⟩
    · rw [r1, q1]; rfl
    · dsimp only; rw [r3]; exact hps.1
    · dsimp only
      rw [r3, r2]
      have : w.top.sent ++ l ++ b'.content ++ p.content = w.sent ++ w.ready.content ++ (ent :: p.content) := by
        rw [List.append_assoc w.top.sent, q3, ← List.append_assoc w.top.sent, hord]; simp
      rw [this, hpop]
      have ho := h.order
      by_cases hc : w.pending.content = []
      · rw [if_pos hc, if_pos hc]
        rw [hc, List.append_nil] at ho; rw [ho]
      · rw [if_neg hc, if_neg hc]; exact ho
    · dsimp only
      rw [r4, r5, r2]
      have : w.top.sent ++ l ++ b'.content = w.sent ++ w.ready.content ++ [ent] := by
        rw [List.append_assoc w.top.sent, q3, ← List.append_assoc w.top.sent, hord]
      rw [this]
      have ho := h.once
      rw [List.perm_iff_count] at ho ⊢
      intro a
      have := ho a
      simp only [List.count_append] at this ⊢
      by_cases hcl : (cancelled && !closes ent) = true
      · simp only [hcl, if_true, List.count_nil]; omega
      · simp only [hcl, Bool.false_eq_true, if_false, List.count_nil]; omega
    · dsimp only
      rw [r5]
      intro q hq
      rcases List.mem_append.1 hq with hq | hq
      · exact h.closed q hq
      · by_cases hcl : (cancelled && !closes ent) = true
        · rw [if_pos hcl] at hq
          simp only [List.mem_singleton] at hq
          subst hq
          simp at hcl; exact hcl.2
        · rw [if_neg hcl] at hq; simp at hq

theorem whist_inv {B : Nat} {stop : Stop} {closes : Closes} {w : Worker} {rcv : List W} (hB : 0 < B) (h : WHist B stop closes w rcv) : WInv B closes w rcv := by
  induction h with
  | start =>
    refine ⟨⟨by simp [Worker.start], rfl, hB⟩, ⟨by simp [Worker.start], Nat.zero_le _⟩, ?_, ?_, by simp [Worker.start]⟩
    · simp [Worker.start, Batch.content]
    · simp [Worker.start, Batch.content]
  | iter got cancelled _ hg hf hi ih =>
    obtain ⟨ent, rest, _, h2⟩ := iter_cases (stop := stop) hB ih hg hf cancelled
    rcases h2 with ⟨_, w2, h3, _⟩ | ⟨_, w2, h3, _, h4, _⟩
    · rw [h3] at hi; simp at hi
    · rw [h3] at hi; cases hi; exact h4

end Verif.Ioq
