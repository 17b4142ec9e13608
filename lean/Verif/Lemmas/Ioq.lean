import Verif.Lemmas.IoqWord
/-!
# Invariants of the queue: conservation of entries and balance of slots
-/
namespace Verif.Ioq

/-! ## Sums -/

def sumBy {α : Type} (f : α → Nat) (l : List α) : Nat := (l.map f).sum

theorem sumBy_set {α : Type} (f : α → Nat) {l : List α} {t : Nat} {a : α} (b : α) (h : l[t]? = some a) :
    sumBy f (l.set t b) + f a = sumBy f l + f b := by
  induction l generalizing t with
  | nil => simp at h
  | cons x xs ih =>
    cases t with
    | zero =>
      simp only [List.getElem?_cons_zero, Option.some.injEq] at h
      subst h
      simp [sumBy]; omega
    | succ t =>
      simp only [List.getElem?_cons_succ] at h
      have := ih h
      simp only [sumBy, List.set_cons_succ, List.map_cons, List.sum_cons] at this ⊢
      omega

theorem count_flatMap_sum {α : Type} (f : α → List W) (l : List α) (p : W) :
    (l.flatMap f).count p = sumBy (fun a => (f a).count p) l := by
  rw [List.count_flatMap]
  rfl

theorem count_flatMap_set {α : Type} (f : α → List W) {l : List α} {t : Nat} {a : α} (b : α) (h : l[t]? = some a) (p : W) :
    ((l.set t b).flatMap f).count p + (f a).count p = (l.flatMap f).count p + (f b).count p := by
  rw [count_flatMap_sum, count_flatMap_sum]
  exact sumBy_set (fun a => (f a).count p) b h

theorem le_sumBy {α : Type} (f : α → Nat) {l : List α} {t : Nat} {a : α} (h : l[t]? = some a) : f a ≤ sumBy f l := by
  induction l generalizing t with
  | nil => simp at h
  | cons x xs ih =>
    cases t with
    | zero =>
      simp only [List.getElem?_cons_zero, Option.some.injEq] at h
      subst h; simp [sumBy]
    | succ t =>
      simp only [List.getElem?_cons_succ] at h
      have := ih h
      simp only [sumBy, List.map_cons, List.sum_cons] at this ⊢
      omega

theorem sumBy_zero {α : Type} (f : α → Nat) {l : List α} (h : ∀ a ∈ l, f a = 0) : sumBy f l = 0 := by
  induction l with
  | nil => rfl
  | cons x xs ih =>
    simp only [sumBy, List.map_cons, List.sum_cons] at ih ⊢
    rw [h x (by simp), ih (fun a ha => h a (by simp [ha]))]

/-! ## Tickets -/

/-- How many of the tickets `i .. i + n` are for slot `k`? -/
def rng (c : Cfg) (i n k : Nat) : Nat := (List.range' i n).countP (fun j => j % c.size == k)

theorem rng_zero (c : Cfg) (i k : Nat) : rng c i 0 k = 0 := rfl

theorem rng_succ (c : Cfg) (i n k : Nat) : rng c i (n + 1) k = (if i % c.size = k then 1 else 0) + rng c (i + 1) n k := by
  unfold rng
  rw [List.range'_succ, List.countP_cons]
  by_cases h : i % c.size = k <;> simp [h]; omega

theorem rng_add (c : Cfg) (i n m k : Nat) : rng c i (n + m) k = rng c i n k + rng c (i + n) m k := by
  unfold rng
  rw [← List.range'_append_1, List.countP_append]

theorem rng_le (c : Cfg) (i n k : Nat) : rng c i n k ≤ n := by
  unfold rng
  have := List.countP_le_length (l := List.range' i n) (p := fun j => j % c.size == k)
  simpa using this

/-- Tickets for slot `k` that this thread still has to use up. -/
def pendPush (c : Cfg) (k : Nat) : Op → Nat
  | .push i n _ => rng c i n k
  | _ => 0

def pendPop (c : Cfg) (k : Nat) : Op → Nat
  | .pop i n _ _ => rng c i n k
  | _ => 0

/-! ## The invariant -/

/-- What holds of the thing a thread is doing. -/
def Op.Ok (c : Cfg) (head tail : Nat) : Op → Prop
  | .push i n ents => i + n ≤ head ∧ n ≤ ents.length ∧ ∀ p ∈ ents, isPtr p
  | .pop i n got _ => i + n ≤ tail ∧ got.length + n = c.batch
  | _ => True

/-- A blocking pop gets something. -/
def Op.First : Op → Prop
  | .pop _ _ got block => block = true → ∀ p ∈ got.head?, p ≠ 0#64
  | _ => True

structure Core (c : Cfg) (s : State) (ops : List Op) : Prop where
  len : s.slots.length = c.size
  cons : ∀ p, s.submitted.count p = s.returned.count p + (ops.flatMap Op.hand).count p + s.queued.count p + (ops.flatMap Op.unsent).count p
  pushes : ∀ k, sumBy (pendPush c k) ops ≤ rng c 0 s.head k
  pops : ∀ k, sumBy (pendPop c k) ops ≤ rng c 0 s.tail k
  bal : ∀ k, k < c.size → cnt (s.slot k) =
    ((rng c 0 s.head k : Int) - sumBy (pendPush c k) ops) - ((rng c 0 s.tail k : Int) - sumBy (pendPop c k) ops)

theorem Op.Ok.mono {c : Cfg} {h h' t t' : Nat} {op : Op} (ok : op.Ok c h t) (hh : h ≤ h') (ht : t ≤ t') : op.Ok c h' t' := by
  cases op with
  | push i n ents => exact ⟨by have := ok.1; omega, ok.2⟩
  | pop i n got block => exact ⟨by have := ok.1; omega, ok.2⟩
  | _ => trivial

/-- Changing one thing in the list of operations. -/
theorem core_ops {c : Cfg} {s : State} {ops : List Op} {t : Nat} {a : Op} (b : Op) (h : Core c s ops) (ht : ops[t]? = some a)
    (hu : b.unsent = a.unsent) (hd : b.hand = a.hand) (hp : ∀ k, pendPush c k b = pendPush c k a) (hq : ∀ k, pendPop c k b = pendPop c k a) :
    Core c s (ops.set t b) := by
  have h1 : ∀ k, sumBy (pendPush c k) (ops.set t b) = sumBy (pendPush c k) ops := by
    intro k; have := sumBy_set (pendPush c k) b ht; rw [hp] at this; omega
  have h2 : ∀ k, sumBy (pendPop c k) (ops.set t b) = sumBy (pendPop c k) ops := by
    intro k; have := sumBy_set (pendPop c k) b ht; rw [hq] at this; omega
  refine ⟨h.len, ?_, ?_, ?_, ?_⟩
  · intro p
    have := count_flatMap_set Op.unsent b ht p
    rw [hu] at this
    have h5 := count_flatMap_set Op.hand b ht p
    rw [hd] at h5
    have := h.cons p
    omega
  · intro k; rw [h1]; exact h.pushes k
  · intro k; rw [h2]; exact h.pops k
  · intro k hk; rw [h1, h2]; exact h.bal k hk

/-- Changes that the invariant does not see. -/
theorem core_congr {c : Cfg} {s s' : State} {ops : List Op} (h : Core c s ops) (h1 : s'.slots = s.slots) (h2 : s'.submitted = s.submitted)
    (h3 : s'.returned = s.returned) (h4 : s'.head = s.head) (h5 : s'.tail = s.tail) : Core c s' ops := by
  refine ⟨by rw [h1]; exact h.len, ?_, by rw [h4]; exact h.pushes, by rw [h5]; exact h.pops, ?_⟩
  · unfold State.queued
    rw [h1, h2, h3]; exact h.cons
  · intro k hk
    unfold State.slot
    rw [h1, h4, h5]; exact h.bal k hk

theorem slot_getElem {s : State} {k : Nat} (hk : k < s.slots.length) : s.slots[k]? = some (s.slot k) := by
  unfold State.slot
  rw [List.getD_eq_getElem?_getD, List.getElem?_eq_getElem hk]; rfl

theorem slot_set {l : List W} {i k : Nat} (w : W) (hi : i < l.length) :
    (l.set i w).getD k 0#64 = if k = i then w else l.getD k 0#64 := by
  rw [List.getD_eq_getElem?_getD, List.getD_eq_getElem?_getD, List.getElem?_set]
  by_cases h : i = k
  · subst h; simp [hi]
  · rw [if_neg h, if_neg (by omega)]

/-- Setting `IOQ_BLOCKED`. -/
theorem core_mark {c : Cfg} {s : State} {ops : List Op} {i : Nat} {w : W} (h : Core c s ops) (hi : i < c.size)
    (hb : bits w = bits (s.slot i)) : Core c { s with slots := s.slots.set i w } ops := by
  have hl : i < s.slots.length := by rw [h.len]; exact hi
  have hc := cnt_of_bits hb
  refine ⟨by simp [h.len], ?_, h.pushes, h.pops, ?_⟩
  · intro p
    have := count_flatMap_set (fun w => (held w).toList) w (slot_getElem hl) p
    have h2 := h.cons p
    simp only [State.queued] at h2 ⊢
    rw [hc.2] at this
    omega
  · intro k hk
    simp only [State.slot]
    rw [slot_set _ hl]
    have := h.bal k hk
    split
    · next e => subst e; rw [hc.1]; exact this
    · exact this

theorem core_startPush {c : Cfg} {s : State} {ops : List Op} {t : Nat} {ents : List W} (h : Core c s ops) (ht : ops[t]? = some .idle) :
    Core c { s with submitted := s.submitted ++ ents } (ops.set t (.push 0 0 ents)) := by
  have h1 : ∀ k, sumBy (pendPush c k) (ops.set t (.push 0 0 ents)) = sumBy (pendPush c k) ops := by
    intro k; have := sumBy_set (pendPush c k) (.push 0 0 ents) ht; simp only [pendPush, rng_zero] at this; omega
  have h2 : ∀ k, sumBy (pendPop c k) (ops.set t (.push 0 0 ents)) = sumBy (pendPop c k) ops := by
    intro k; have := sumBy_set (pendPop c k) (.push 0 0 ents) ht; simp only [pendPop] at this; omega
  refine ⟨h.len, ?_, ?_, ?_, ?_⟩
  · intro p
    have h3 := count_flatMap_set Op.unsent (.push 0 0 ents) ht p
    have h5 := count_flatMap_set Op.hand (.push 0 0 ents) ht p
    have := h.cons p
    simp only [Op.unsent, Op.hand, List.count_nil, List.count_append, State.queued] at h3 h5 this ⊢
    omega
  · intro k; rw [h1]; exact h.pushes k
  · intro k; rw [h2]; exact h.pops k
  · intro k hk; rw [h1, h2]; exact h.bal k hk

theorem core_claimPush {c : Cfg} {s : State} {ops : List Op} {t i : Nat} {ents : List W} (n : Nat) (h : Core c s ops)
    (ht : ops[t]? = some (.push i 0 ents)) : Core c { s with head := s.head + n } (ops.set t (.push s.head n ents)) := by
  have h1 : ∀ k, sumBy (pendPush c k) (ops.set t (.push s.head n ents)) = sumBy (pendPush c k) ops + rng c s.head n k := by
    intro k; have := sumBy_set (pendPush c k) (.push s.head n ents) ht; simp only [pendPush, rng_zero] at this; omega
  have h2 : ∀ k, sumBy (pendPop c k) (ops.set t (.push s.head n ents)) = sumBy (pendPop c k) ops := by
    intro k; have := sumBy_set (pendPop c k) (.push s.head n ents) ht; simp only [pendPop] at this; omega
  have h3 : ∀ k, rng c 0 (s.head + n) k = rng c 0 s.head k + rng c s.head n k := by
    intro k; rw [rng_add]; simp
  refine ⟨h.len, ?_, ?_, ?_, ?_⟩
  · intro p
    have h3 := count_flatMap_set Op.unsent (.push s.head n ents) ht p
    have h5 := count_flatMap_set Op.hand (.push s.head n ents) ht p
    have := h.cons p
    simp only [Op.unsent, Op.hand, State.queued] at h3 h5 this ⊢
    omega
  · intro k; rw [h1, h3]; have := h.pushes k; omega
  · intro k; rw [h2]; exact h.pops k
  · intro k hk; rw [h1, h2, h3]; have := h.bal k hk; simp only [State.slot] at this ⊢; omega

theorem core_claimPop {c : Cfg} {s : State} {ops : List Op} {t : Nat} {block : Bool} (n : Nat) (h : Core c s ops)
    (ht : ops[t]? = some (.popStart block)) : Core c { s with tail := s.tail + n } (ops.set t (.pop s.tail n [] block)) := by
  have h1 : ∀ k, sumBy (pendPush c k) (ops.set t (.pop s.tail n [] block)) = sumBy (pendPush c k) ops := by
    intro k; have := sumBy_set (pendPush c k) (.pop s.tail n [] block) ht; simp only [pendPush] at this; omega
  have h2 : ∀ k, sumBy (pendPop c k) (ops.set t (.pop s.tail n [] block)) = sumBy (pendPop c k) ops + rng c s.tail n k := by
    intro k; have := sumBy_set (pendPop c k) (.pop s.tail n [] block) ht; simp only [pendPop] at this; omega
  have h3 : ∀ k, rng c 0 (s.tail + n) k = rng c 0 s.tail k + rng c s.tail n k := by
    intro k; rw [rng_add]; simp
  refine ⟨h.len, ?_, ?_, ?_, ?_⟩
  · intro p
    have h3 := count_flatMap_set Op.unsent (.pop s.tail n [] block) ht p
    have h5 := count_flatMap_set Op.hand (.pop s.tail n [] block) ht p
    have := h.cons p
    simp only [Op.unsent, Op.hand, State.queued, List.filter_nil] at h3 h5 this ⊢
    omega
  · intro k; rw [h1]; exact h.pushes k
  · intro k; rw [h2, h3]; have := h.pops k; omega
  · intro k hk; rw [h1, h2, h3]; have := h.bal k hk; simp only [State.slot] at this ⊢; omega

/-- A slot cannot be skipped more often than there were pops. -/
theorem cnt_lower {c : Cfg} {s : State} {ops : List Op} {t i n : Nat} {got : List W} {block : Bool} (h : Core c s ops)
    (ht : ops[t]? = some (.pop i (n + 1) got block)) (hs : 0 < c.size) (hb : s.tail ≤ 2 ^ 62) :
    -(2 ^ 62) + 1 ≤ cnt (s.slot (i % c.size)) := by
  have h1 := h.bal _ (Nat.mod_lt i hs)
  have h2 := h.pushes (i % c.size)
  have h3 := le_sumBy (pendPop c (i % c.size)) ht
  have h4 := rng_le c 0 s.tail (i % c.size)
  have h5 : 1 ≤ pendPop c (i % c.size) (.pop i (n + 1) got block) := by
    simp only [pendPop, rng_succ]; simp
  omega

theorem core_push {c : Cfg} {s : State} {ops : List Op} {t i n : Nat} {e : W} {es : List W} (h : Core c s ops)
    (ht : ops[t]? = some (.push i (n + 1) (e :: es))) (hs : 0 < c.size) (hp : isPtr e) (hf : pushFull (s.slot (i % c.size)) = false) :
    Core c { s with slots := s.slots.set (i % c.size) (pushNext (s.slot (i % c.size)) e) }
      (ops.set t (.push (i + 1) n (if pushed (s.slot (i % c.size)) then es else e :: es))) := by
  have hi := Nat.mod_lt i hs
  have hl : i % c.size < s.slots.length := by rw [h.len]; exact hi
  obtain ⟨hc, -, hh, hh', -⟩ := push_spec hf hp
  generalize hb : Op.push (i + 1) n (if pushed (s.slot (i % c.size)) then es else e :: es) = b
  have h1 : ∀ k, sumBy (pendPush c k) (ops.set t b) + (if i % c.size = k then 1 else 0) = sumBy (pendPush c k) ops := by
    intro k; have := sumBy_set (pendPush c k) b ht; subst hb; simp only [pendPush, rng_succ] at this; omega
  have h2 : ∀ k, sumBy (pendPop c k) (ops.set t b) = sumBy (pendPop c k) ops := by
    intro k; have := sumBy_set (pendPop c k) b ht; subst hb; simp only [pendPop] at this; omega
  refine ⟨by simp [h.len], ?_, ?_, ?_, ?_⟩
  · intro p
    have h3 := count_flatMap_set Op.unsent b ht p
    have h5 := count_flatMap_set Op.hand b ht p
    have h4 := count_flatMap_set (fun w => (held w).toList) (pushNext (s.slot (i % c.size)) e) (slot_getElem hl) p
    have := h.cons p
    rw [hh, hh'] at h4
    subst hb
    simp only [Op.unsent, Op.hand, State.queued] at h3 h5 this ⊢
    by_cases hpd : pushed (s.slot (i % c.size)) = true
    · rw [hpd] at h3 h4 h5 ⊢
      simp only [if_true, Option.toList_some, Option.toList_none, List.count_nil, List.count_cons] at h3 h4 h5 ⊢
      omega
    · rw [if_neg hpd] at h3 h4 h5 ⊢
      simp only [Option.toList_none, List.count_nil] at h4
      omega
  · intro k; have := h1 k; have := h.pushes k; show _ ≤ rng c 0 s.head k; omega
  · intro k; rw [h2]; exact h.pops k
  · intro k hk
    rw [h2]
    have h3 := h1 k
    have h4 := h.bal k hk
    show cnt ((s.slots.set _ _).getD k 0#64) = (rng c 0 s.head k : Int) - _ - (rng c 0 s.tail k - _)
    rw [slot_set _ hl]
    by_cases hk2 : k = i % c.size
    · subst hk2
      rw [if_pos rfl, hc]
      rw [if_pos rfl] at h3
      omega
    · rw [if_neg hk2]
      rw [if_neg (by omega)] at h3
      show cnt (s.slot k) = _
      omega

theorem core_donePop {c : Cfg} {s : State} {ops : List Op} {t i : Nat} {got : List W} {block : Bool} (h : Core c s ops)
    (ht : ops[t]? = some (.pop i 0 got block)) :
    Core c { s with returned := s.returned ++ (Op.pop i 0 got block).hand } (ops.set t .idle) := by
  have h1 : ∀ k, sumBy (pendPush c k) (ops.set t .idle) = sumBy (pendPush c k) ops := by
    intro k; have := sumBy_set (pendPush c k) .idle ht; simp only [pendPush] at this; omega
  have h2 : ∀ k, sumBy (pendPop c k) (ops.set t .idle) = sumBy (pendPop c k) ops := by
    intro k; have := sumBy_set (pendPop c k) .idle ht; simp only [pendPop, rng_zero] at this; omega
  refine ⟨h.len, ?_, ?_, ?_, ?_⟩
  · intro p
    have h3 := count_flatMap_set Op.unsent .idle ht p
    have h5 := count_flatMap_set Op.hand .idle ht p
    have := h.cons p
    simp only [Op.unsent, State.queued, List.count_append, show Op.hand Op.idle = [] from rfl, List.count_nil] at h3 h5 this ⊢
    omega
  · intro k; rw [h1]; exact h.pushes k
  · intro k; rw [h2]; exact h.pops k
  · intro k hk; rw [h1, h2]; exact h.bal k hk

theorem core_pop {c : Cfg} {s : State} {ops : List Op} {t i n : Nat} {got : List W} {block : Bool} (h : Core c s ops)
    (ht : ops[t]? = some (.pop i (n + 1) got block)) (hs : 0 < c.size) (hb : s.tail ≤ 2 ^ 62) :
    Core c { s with slots := s.slots.set (i % c.size) (popNext (s.slot (i % c.size))) }
      (ops.set t (.pop (i + 1) n (got ++ [popPtr (s.slot (i % c.size))]) block)) := by
  have hi := Nat.mod_lt i hs
  have hl : i % c.size < s.slots.length := by rw [h.len]; exact hi
  obtain ⟨hc, hh', -, hh, -, -⟩ := pop_spec (cnt_lower h ht hs hb)
  generalize hb : Op.pop (i + 1) n (got ++ [popPtr (s.slot (i % c.size))]) block = b
  have h1 : ∀ k, sumBy (pendPush c k) (ops.set t b) = sumBy (pendPush c k) ops := by
    intro k; have := sumBy_set (pendPush c k) b ht; subst hb; simp only [pendPush] at this; omega
  have h2 : ∀ k, sumBy (pendPop c k) (ops.set t b) + (if i % c.size = k then 1 else 0) = sumBy (pendPop c k) ops := by
    intro k; have := sumBy_set (pendPop c k) b ht; subst hb; simp only [pendPop, rng_succ] at this; omega
  refine ⟨by simp [h.len], ?_, ?_, ?_, ?_⟩
  · intro p
    have h3 := count_flatMap_set Op.unsent b ht p
    have h5 := count_flatMap_set Op.hand b ht p
    have h4 := count_flatMap_set (fun w => (held w).toList) (popNext (s.slot (i % c.size))) (slot_getElem hl) p
    have := h.cons p
    rw [hh, hh'] at h4
    subst hb
    simp only [Op.unsent, Op.hand, State.queued, List.filter_append, List.count_append] at h3 h5 this ⊢
    by_cases hpd : popPtr (s.slot (i % c.size)) = 0#64
    · rw [if_pos hpd] at h4
      rw [hpd] at h3 h5 ⊢
      simp only [Option.toList_none, List.count_nil, ne_eq, not_true, decide_false, Bool.false_eq_true, not_false_eq_true, List.filter_cons_of_neg, List.filter_nil] at h4 h5 ⊢
      omega
    · rw [if_neg hpd] at h4
      rw [List.filter_cons_of_pos (by simpa using hpd)] at h5
      simp only [Option.toList_none, Option.toList_some, List.count_nil, List.filter_nil] at h4 h5 ⊢
      omega
  · intro k; rw [h1]; exact h.pushes k
  · intro k; have := h2 k; have := h.pops k; show _ ≤ rng c 0 s.tail k; omega
  · intro k hk
    rw [h1]
    have h3 := h2 k
    have h4 := h.bal k hk
    show cnt ((s.slots.set _ _).getD k 0#64) = (rng c 0 s.head k : Int) - _ - (rng c 0 s.tail k - _)
    rw [slot_set _ hl]
    by_cases hk2 : k = i % c.size
    · subst hk2
      rw [if_pos rfl, hc]
      rw [if_pos rfl] at h3
      omega
    · rw [if_neg hk2]
      rw [if_neg (by omega)] at h3
      show cnt (s.slot k) = _
      omega

end Verif.Ioq
