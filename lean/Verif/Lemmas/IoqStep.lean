import Verif.Lemmas.Ioq
/-!
# Every step keeps the invariants
-/
namespace Verif.Ioq

theorem pushFull_bits {a b : W} (h : bits a = bits b) : pushFull a = pushFull b := by
  have := (cnt_of_bits h).1
  rw [Bool.eq_iff_iff, pushFull_iff, pushFull_iff, this]

theorem popNext_bits {a b : W} (h : bits a = bits b) : popNext a = popNext b := by
  unfold bits at h
  apply BitVec.eq_of_toNat_eq
  unfold popNext
  dsimp only
  rw [blend_toNat, blend_toNat]
  have h1 := add_skip a
  have h2 := add_skip b
  have ha := a.isLt
  have hb := b.isLt
  by_cases hx : 2 ^ 63 ≤ (a + SKIP_ONE).toNat
  · rw [if_pos hx, if_pos (by omega)]; omega
  · rw [if_neg hx, if_neg (by omega)]

theorem waits_bits {a b : W} (op : Op) (h : bits a = bits b) : op.waits a = op.waits b := by
  cases op with
  | push i n e => exact pushFull_bits h
  | pop i n g bl => unfold Op.waits; rw [popNext_bits h]
  | _ => rfl

/-! ## Threads -/

def pcOk (c : Cfg) (op : Op) : Pc → Prop
  | .go => True
  | .try_ _ => op.active = true
  | .lock p => op.active = true ∧ op.waits p = true
  | .check p => op.active = true ∧ op.waits p = true
  | .cas p => op.active = true ∧ op.waits p = true ∧ blocked p = false
  | .sleepy v => op.active = true ∧ op.waits v = true ∧ blocked v = true
  | .asleep v => op.active = true ∧ op.waits v = true ∧ blocked v = true
  | .woken v => op.active = true ∧ op.waits v = true ∧ blocked v = true
  | .recheck v => op.active = true ∧ op.waits v = true ∧ blocked v = true
  | .unlock _ => op.active = true
  | .wlock i => i < c.size
  | .wunlock i => i < c.size
  | .wcast i => i < c.size

def Thread.Ok (c : Cfg) (head tail : Nat) (th : Thread) : Prop := th.op.Ok c head tail ∧ pcOk c th.op th.pc

def Threads (c : Cfg) (s : State) : Prop := ∀ th ∈ s.threads, th.Ok c s.head s.tail

theorem Thread.Ok.mono {c : Cfg} {h h' t t' : Nat} {th : Thread} (ok : th.Ok c h t) (hh : h ≤ h') (ht : t ≤ t') : th.Ok c h' t' :=
  ⟨ok.1.mono hh ht, ok.2⟩

theorem threads_put {c : Cfg} {s s' : State} {t : Nat} {th' : Thread} (h : Threads c s) (h1 : s'.threads = s.threads.set t th')
    (hh : s.head ≤ s'.head) (ht : s.tail ≤ s'.tail) (ok : th'.Ok c s'.head s'.tail) : Threads c s' := by
  intro th hth
  rw [h1] at hth
  rcases List.mem_or_eq_of_mem_set hth with hm | rfl
  · exact (h th hm).mono hh ht
  · exact ok

theorem Op.slot_lt {c : Cfg} (hs : 0 < c.size) (op : Op) : op.slot c < c.size := by
  cases op <;> simp only [Op.slot] <;> first | exact hs | exact Nat.mod_lt _ hs

theorem Op.Ok.advance {c : Cfg} {h t : Nat} {op : Op} {prev : W} (ok : op.Ok c h t) (ha : op.active = true) : (op.advance prev).Ok c h t := by
  cases op with
  | idle => exact absurd ha (by simp [Op.active])
  | popStart b => exact absurd ha (by simp [Op.active])
  | push i n ents =>
    cases ents with
    | nil => exact ok
    | cons e es =>
      cases n with
      | zero => exact absurd ha (by simp [Op.active])
      | succ n =>
        obtain ⟨h1, h2, h3⟩ := ok
        simp only [Op.advance, Op.Ok, Nat.add_sub_cancel]
        refine ⟨by omega, ?_, ?_⟩
        · simp only [List.length_cons] at h2; split
          · omega
          · simp; omega
        · intro p hp
          apply h3
          split at hp
          · exact List.mem_cons_of_mem _ hp
          · exact hp
  | pop i n got bl =>
    cases n with
    | zero => exact absurd ha (by simp [Op.active])
    | succ n =>
      obtain ⟨h1, h2⟩ := ok
      simp only [Op.advance, Op.Ok, Nat.add_sub_cancel, List.length_append, List.length_cons, List.length_nil]
      omega

theorem threads_step {c : Cfg} {s s' : State} {t : Nat} (hs : 0 < c.size) (h : Threads c s) (st : Step c s t s') : Threads c s' := by
  have get : ∀ {th : Thread}, s.threads[t]? = some th → th.Ok c s.head s.tail := fun h' => h _ (List.mem_of_getElem? h')
  cases st with
  | startPush ents h1 h2 => exact threads_put h rfl (Nat.le_refl _) (Nat.le_refl _) ⟨⟨Nat.zero_le _, Nat.zero_le _, h2⟩, trivial⟩
  | startPop block h1 => exact threads_put h rfl (Nat.le_refl _) (Nat.le_refl _) ⟨trivial, trivial⟩
  | claimPush i ents h1 h2 =>
    exact threads_put h rfl (Nat.le_add_right _ _) (Nat.le_refl _) ⟨⟨Nat.le_refl _, Nat.le_refl _, (get h1).1.2.2⟩, trivial⟩
  | donePush i h1 => exact threads_put h rfl (Nat.le_refl _) (Nat.le_refl _) ⟨trivial, trivial⟩
  | claimPop block h1 =>
    exact threads_put h rfl (Nat.le_refl _) (Nat.le_add_right _ _) ⟨⟨Nat.le_refl _, by simp⟩, trivial⟩
  | donePop i got block h1 => exact threads_put h rfl (Nat.le_refl _) (Nat.le_refl _) ⟨trivial, trivial⟩
  | load op h1 h2 => exact threads_put h rfl (Nat.le_refl _) (Nat.le_refl _) ⟨(get h1).1, h2⟩
  | wait op prev h1 h2 => exact threads_put h rfl (Nat.le_refl _) (Nat.le_refl _) ⟨(get h1).1, (get h1).2, h2⟩
  | update op prev h1 h2 h3 =>
    refine threads_put h rfl (Nat.le_refl _) (Nat.le_refl _) ⟨(get h1).1.advance (get h1).2, ?_⟩
    show pcOk c _ (if blocked prev = true then Pc.wlock (op.slot c) else Pc.go)
    split
    · exact Op.slot_lt hs op
    · trivial
  | retry op prev h1 h2 => exact threads_put h rfl (Nat.le_refl _) (Nat.le_refl _) ⟨(get h1).1, (get h1).2⟩
  | spin op prev h1 h2 => exact threads_put h rfl (Nat.le_refl _) (Nat.le_refl _) ⟨(get h1).1, (get h1).2.1⟩
  | lock op prev h1 h2 => exact threads_put h rfl (Nat.le_refl _) (Nat.le_refl _) ⟨(get h1).1, (get h1).2⟩
  | checkChanged op prev h1 h2 => exact threads_put h rfl (Nat.le_refl _) (Nat.le_refl _) ⟨(get h1).1, (get h1).2.1⟩
  | checkSame op prev h1 h2 =>
    refine threads_put h rfl (Nat.le_refl _) (Nat.le_refl _) ⟨(get h1).1, ?_⟩
    have := (get h1).2
    by_cases hb : blocked prev = true
    · simp only [hb, if_true]; exact ⟨this.1, this.2, hb⟩
    · simp only [hb]; exact ⟨this.1, this.2, by simpa using hb⟩
  | casOk op prev h1 h2 =>
    refine threads_put h rfl (Nat.le_refl _) (Nat.le_refl _) ⟨(get h1).1, ?_⟩
    have h3 := (get h1).2
    refine ⟨h3.1, ?_, ?_⟩
    · rw [waits_bits op (bits_or_blocked prev h3.2.2)]; exact h3.2.1
    · rw [blocked_iff, or_blocked prev h3.2.2]
      have : ¬ blocked prev = true := by simp [h3.2.2]
      rw [blocked_iff] at this; omega
  | casFail op prev h1 h2 => exact threads_put h rfl (Nat.le_refl _) (Nat.le_refl _) ⟨(get h1).1, (get h1).2.1⟩
  | sleep op v h1 => exact threads_put h rfl (Nat.le_refl _) (Nat.le_refl _) ⟨(get h1).1, (get h1).2⟩
  | spurious op v h1 => exact threads_put h rfl (Nat.le_refl _) (Nat.le_refl _) ⟨(get h1).1, (get h1).2⟩
  | relock op v h1 h2 => exact threads_put h rfl (Nat.le_refl _) (Nat.le_refl _) ⟨(get h1).1, (get h1).2⟩
  | recheck op v h1 =>
    refine threads_put h rfl (Nat.le_refl _) (Nat.le_refl _) ⟨(get h1).1, ?_⟩
    by_cases hb : s.slot (op.slot c) = v
    · simp only [hb, if_true]; exact (get h1).2
    · simp only [hb, if_false]; exact (get h1).2.1
  | unlock op ret h1 => exact threads_put h rfl (Nat.le_refl _) (Nat.le_refl _) ⟨(get h1).1, (get h1).2⟩
  | wlock op i h1 h2 => exact threads_put h rfl (Nat.le_refl _) (Nat.le_refl _) ⟨(get h1).1, (get h1).2⟩
  | wunlock op i h1 => exact threads_put h rfl (Nat.le_refl _) (Nat.le_refl _) ⟨(get h1).1, (get h1).2⟩
  | wcast op i h1 =>
    have hm : Threads c { s with threads := s.threads.map (wake c (c.mon i)) } := by
      intro th hth
      obtain ⟨th0, h0, rfl⟩ := List.mem_map.1 hth
      have := h th0 h0
      unfold wake
      split
      · next v hv =>
        split
        · refine ⟨this.1, ?_⟩
          have h2 := this.2
          rw [hv] at h2
          exact h2
        · exact this
      · exact this
    exact threads_put hm rfl (Nat.le_refl _) (Nat.le_refl _) ⟨(get h1).1, trivial⟩

/-! ## Entries -/

def State.ops (s : State) : List Op := s.threads.map Thread.op

theorem ops_set (l : List Thread) (t : Nat) (th : Thread) : (l.set t th).map Thread.op = (l.map Thread.op).set t th.op := by
  rw [List.map_set]

theorem ops_get {s : State} {t : Nat} {th : Thread} (h : s.threads[t]? = some th) : s.ops[t]? = some th.op := by
  unfold State.ops; rw [List.getElem?_map, h]; rfl

theorem ops_same {s : State} {t : Nat} {th : Thread} (h : s.threads[t]? = some th) (pc : Pc) :
    (s.threads.set t ⟨th.op, pc⟩).map Thread.op = s.ops := by
  rw [ops_set]
  apply List.ext_getElem?
  intro k
  rw [List.getElem?_set]
  have := ops_get h
  split
  · next e =>
    subst e
    split
    · rw [this]
    · next hl => exact absurd (List.getElem?_eq_some_iff.1 this).1 hl
  · rfl

def First (s : State) : Prop := ∀ op ∈ s.ops, op.First

theorem first_set {ops : List Op} {t : Nat} {b : Op} (h : ∀ op ∈ ops, op.First) (hb : b.First) : ∀ op ∈ ops.set t b, op.First := by
  intro op hop
  rcases List.mem_or_eq_of_mem_set hop with hm | rfl
  · exact h op hm
  · exact hb

theorem tail_mono {c : Cfg} {s s' : State} {t : Nat} (st : Step c s t s') : s.tail ≤ s'.tail := by
  cases st <;> first | exact Nat.le_refl _ | exact Nat.le_add_right _ _

theorem wake_op (c : Cfg) (m : Nat) (th : Thread) : (wake c m th).op = th.op := by
  unfold wake; split
  · split <;> rfl
  · rfl

theorem core_step {c : Cfg} {s s' : State} {t : Nat} (hs : 0 < c.size) (hT : Threads c s) (h : Core c s s.ops) (hf : First s)
    (st : Step c s t s') (hb : s.tail ≤ 2 ^ 62) : Core c s' s'.ops ∧ First s' := by
  have get : ∀ {th : Thread}, s.threads[t]? = some th → th.Ok c s.head s.tail := fun h' => hT _ (List.mem_of_getElem? h')
  have same : ∀ {s1 : State} {th : Thread} {pc : Pc}, s.threads[t]? = some th → s1.threads = s.threads.set t ⟨th.op, pc⟩ → s1.slots = s.slots →
      s1.submitted = s.submitted → s1.returned = s.returned → s1.head = s.head → s1.tail = s.tail → Core c s1 s1.ops ∧ First s1 := by
    intro s1 th pc h1 h2 h3 h4 h5 h6 h7
    have e : s1.ops = s.ops := by unfold State.ops; rw [h2]; exact ops_same h1 pc
    refine ⟨?_, by unfold First; rw [e]; exact hf⟩
    rw [e]
    exact core_congr h h3 h4 h5 h6 h7
  cases st with
  | startPush ents h1 h2 =>
    refine ⟨?_, ?_⟩
    · have := core_startPush (ents := ents) h (ops_get h1)
      have e : State.ops (State.put { s with submitted := s.submitted ++ ents } t ⟨.push 0 0 ents, .go⟩) = s.ops.set t (.push 0 0 ents) := ops_set _ _ _
      rw [e]; exact core_congr this rfl rfl rfl rfl rfl
    · unfold First State.ops State.put; rw [ops_set]; exact first_set hf trivial
  | startPop block h1 =>
    refine ⟨?_, ?_⟩
    · have := core_ops (.popStart block) h (ops_get h1) rfl rfl (fun _ => rfl) (fun _ => rfl)
      have e : State.ops (State.put s t ⟨.popStart block, .go⟩) = s.ops.set t (.popStart block) := ops_set _ _ _
      rw [e]; exact core_congr this rfl rfl rfl rfl rfl
    · unfold First State.ops State.put; rw [ops_set]; exact first_set hf trivial
  | claimPush i ents h1 h2 =>
    refine ⟨?_, ?_⟩
    · have := core_claimPush ents.length h (ops_get h1)
      have e : State.ops (State.put { s with head := s.head + ents.length } t ⟨.push s.head ents.length ents, .go⟩) = s.ops.set t (.push s.head ents.length ents) := ops_set _ _ _
      rw [e]; exact core_congr this rfl rfl rfl rfl rfl
    · unfold First State.ops State.put; rw [ops_set]; exact first_set hf trivial
  | donePush i h1 =>
    refine ⟨?_, ?_⟩
    · have := core_ops .idle h (ops_get h1) rfl rfl (fun _ => rfl) (fun _ => rfl)
      have e : State.ops (State.put s t ⟨.idle, .go⟩) = s.ops.set t .idle := ops_set _ _ _
      rw [e]; exact core_congr this rfl rfl rfl rfl rfl
    · unfold First State.ops State.put; rw [ops_set]; exact first_set hf trivial
  | claimPop block h1 =>
    refine ⟨?_, ?_⟩
    · have := core_claimPop c.batch h (ops_get h1)
      have e : State.ops (State.put { s with tail := s.tail + c.batch } t ⟨.pop s.tail c.batch [] block, .go⟩) = s.ops.set t (.pop s.tail c.batch [] block) := ops_set _ _ _
      rw [e]; exact core_congr this rfl rfl rfl rfl rfl
    · unfold First State.ops State.put; rw [ops_set]; exact first_set hf (fun _ p hp => absurd hp (by simp))
  | donePop i got block h1 =>
    refine ⟨?_, ?_⟩
    · have := core_donePop h (ops_get h1)
      have e : State.ops (State.put { s with returned := s.returned ++ (Op.pop i 0 got block).hand } t ⟨.idle, .go⟩) = s.ops.set t .idle := ops_set _ _ _
      rw [e]; exact core_congr this rfl rfl rfl rfl rfl
    · unfold First State.ops State.put; rw [ops_set]; exact first_set hf trivial
  | update op prev h1 h2 h3 =>
    have ok := get h1
    have ha : op.active = true := ok.2
    have hop := ops_get h1
    have e : ∀ (s1 : State) (b : Op) (pc : Pc) (hh : s1.threads = s.threads), State.ops (State.put s1 t ⟨b, pc⟩) = s.ops.set t b := by
      intro s1 b pc hh; unfold State.ops State.put; dsimp only; rw [hh]; exact ops_set _ _ _
    subst h3
    cases op with
    | idle => exact absurd ha (by simp [Op.active])
    | popStart b => exact absurd ha (by simp [Op.active])
    | push i n ents =>
      cases n with
      | zero => exact absurd ha (by simp [Op.active])
      | succ n =>
        cases ents with
        | nil => have := ok.1.2.1; simp at this
        | cons x es =>
          have hc := core_push h hop hs (ok.1.2.2 x (by simp)) h2
          refine ⟨?_, ?_⟩
          · rw [e]
            · exact core_congr hc rfl rfl rfl rfl rfl
            · rfl
          · unfold First
            rw [e]
            · exact first_set hf trivial
            · rfl
    | pop i n got bl =>
      cases n with
      | zero => exact absurd ha (by simp [Op.active])
      | succ n =>
        have hc := core_pop h hop hs hb
        refine ⟨?_, ?_⟩
        · rw [e]
          · exact core_congr hc rfl rfl rfl rfl rfl
          · rfl
        · unfold First
          rw [e]
          rotate_left
          · rfl
          refine first_set hf ?_
          intro hbl p hp
          have hold := hf _ (List.mem_of_getElem? hop) hbl
          cases got with
          | cons g gs => exact hold p (by simpa using hp)
          | nil =>
            simp only [List.nil_append, List.head?_cons, Option.mem_def, Option.some.injEq] at hp
            subst hp
            have hsp := pop_spec (cnt_lower h hop hs hb)
            simp only [Op.waits, hbl, List.isEmpty_nil, Bool.and_self, Bool.true_and, bne_eq_false_iff_eq] at h2
            intro hz
            exact hsp.2.2.1.2 (hsp.2.2.2.2.1.1 hz) h2
  | casOk op prev h1 h2 =>
    have hub : blocked prev = false := (get h1).2.2.2
    have hc := core_mark (w := prev ||| BLOCKED) h (Op.slot_lt hs op) (by rw [h2]; exact bits_or_blocked prev hub)
    have e : State.ops (State.put { s with slots := s.slots.set (op.slot c) (prev ||| BLOCKED) } t ⟨op, .sleepy (prev ||| BLOCKED)⟩) = s.ops := ops_same h1 _
    refine ⟨?_, by unfold First; rw [e]; exact hf⟩
    rw [e]
    exact core_congr hc rfl rfl rfl rfl rfl
  | wcast op i h1 =>
    have e : State.ops (State.put { s with threads := s.threads.map (wake c (c.mon i)) } t ⟨op, .go⟩) = s.ops := by
      unfold State.ops State.put
      dsimp only
      rw [ops_set, List.map_map, show (Thread.op ∘ wake c (c.mon i)) = Thread.op from funext (wake_op c _), ← ops_set]
      exact ops_same h1 _
    refine ⟨?_, by unfold First; rw [e]; exact hf⟩
    rw [e]
    exact core_congr h rfl rfl rfl rfl rfl
  | load op h1 h2 => exact same h1 rfl rfl rfl rfl rfl rfl
  | wait op prev h1 h2 => exact same h1 rfl rfl rfl rfl rfl rfl
  | retry op prev h1 h2 => exact same h1 rfl rfl rfl rfl rfl rfl
  | spin op prev h1 h2 => exact same h1 rfl rfl rfl rfl rfl rfl
  | lock op prev h1 h2 => exact same h1 rfl rfl rfl rfl rfl rfl
  | checkChanged op prev h1 h2 => exact same h1 rfl rfl rfl rfl rfl rfl
  | checkSame op prev h1 h2 => exact same h1 rfl rfl rfl rfl rfl rfl
  | casFail op prev h1 h2 => exact same h1 rfl rfl rfl rfl rfl rfl
  | sleep op v h1 => exact same h1 rfl rfl rfl rfl rfl rfl
  | spurious op v h1 => exact same h1 rfl rfl rfl rfl rfl rfl
  | relock op v h1 h2 => exact same h1 rfl rfl rfl rfl rfl rfl
  | recheck op v h1 => exact same h1 rfl rfl rfl rfl rfl rfl
  | unlock op ret h1 => exact same h1 rfl rfl rfl rfl rfl rfl
  | wlock op i h1 h2 => exact same h1 rfl rfl rfl rfl rfl rfl
  | wunlock op i h1 => exact same h1 rfl rfl rfl rfl rfl rfl

end Verif.Ioq
