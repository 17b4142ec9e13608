import Verif.Lemmas.BftwInv
/-! # A walk gets to its end -/
namespace Verif.Bftw

variable {e : Env} {G : List Pos} {s : State}

/-! ## Sizes -/

theorem Queue.size_of_perm {q q' : Queue} (h : q.Ok) (h' : q'.Ok) (hp : q'.content.Perm q.content) : q'.size = q.size := by
  rw [h'.size, h.size, hp.length_eq]

theorem Queue.ready_size {q : Queue} (h : q.Ok) (hr : q.ready ≠ []) : q.size ≠ 0 := by
  rw [h.size]
  have := List.length_pos_iff.2 hr
  unfold Queue.content
  split <;> simp only [List.length_append] <;> omega

theorem Queue.empty_of_size {q : Queue} (h : q.Ok) (hs : q.size = 0) : q.content = [] := by
  rw [h.size] at hs
  exact List.eq_nil_of_length_eq_zero hs

/-- At the end, the queues are empty. -/
structure Sized (s : State) : Prop where
  popFile : s.pc = .popFile → s.dirq.size = 0 ∨ s.fileq.size ≠ 0
  done : s.pc = .done → s.dirq.size = 0 ∧ s.fileq.size = 0

theorem Sized.of_pc {s : State} (h1 : s.pc ≠ .popFile) (h2 : s.pc ≠ .done) : Sized s := ⟨fun h => absurd h h1, fun h => absurd h h2⟩

theorem Sized.queues (h : Sized s) {q1 q2 : Queue} (h1 : q1.size = s.fileq.size) (h2 : q2.size = s.dirq.size) : Sized { s with fileq := q1, dirq := q2 } :=
  ⟨fun hp => by rw [show State.dirq { s with fileq := q1, dirq := q2 } = q2 from rfl, show State.fileq { s with fileq := q1, dirq := q2 } = q1 from rfl, h1, h2]; exact h.popFile hp,
   fun hp => by rw [show State.dirq { s with fileq := q1, dirq := q2 } = q2 from rfl, show State.fileq { s with fileq := q1, dirq := q2 } = q1 from rfl, h1, h2]; exact h.done hp⟩

theorem go_pc (x : State × Bool) (pc : Pc) : (State.go x pc).pc = .stopped ∨ (State.go x pc).pc = pc := by
  unfold State.go; cases x.2
  · exact Or.inr rfl
  · exact Or.inl rfl

theorem goFlush_pc (e : Env) (x : State × Bool) : (State.goFlush e x).pc = .stopped ∨ (State.goFlush e x).pc = .top := by
  unfold State.goFlush; cases x.2
  · exact Or.inr rfl
  · exact Or.inl rfl

theorem Sized.step (hN : e.Named) (hi : Inv e s) (h : Sized s) {s' : State} (hs : Step e s s') : Sized s' := by
  cases hs with
  | stat f _ hf =>
    obtain ⟨k1, k2, k3⟩ := Queue.next_facts hi.fok hf
    obtain ⟨q1, q2, q3, q4⟩ := Queue.detach_spec hi.fok hf
    rw [need_true _ k3]
    exact h.queues (Queue.size_of_perm hi.fok q1 q2) rfl
  | skip f hf =>
    obtain ⟨k1, k2, k3⟩ := Queue.next_facts hi.fok hf
    obtain ⟨q1, q2, q3, q4⟩ := Queue.skip_spec hi.fok hf
    rw [need_true _ k3]
    exact h.queues (Queue.size_of_perm hi.fok q1 q2) rfl
  | opendir f _ hf =>
    obtain ⟨k1, k2, k3⟩ := Queue.next_facts hi.dok hf
    obtain ⟨q1, q2, q3, q4⟩ := Queue.detach_spec hi.dok hf
    rw [need_true _ k3]
    exact h.queues rfl (Queue.size_of_perm hi.dok q1 q2)
  | statDone f hf =>
    obtain ⟨q1, q2, q3, q4⟩ := Queue.attach_spec hi.fok hf
    exact h.queues (Queue.size_of_perm hi.fok q1 q2) rfl
  | opendirDone f hf =>
    obtain ⟨q1, q2, q3, q4⟩ := Queue.attach_spec hi.dok hf
    exact h.queues rfl (Queue.size_of_perm hi.dok q1 q2)
  | root i b hpc _ _ =>
    apply Sized.of_pc <;> rcases go_pc (s.visitName e i b) (.roots (i + 1)) with h | h <;> rw [h] <;> simp
  | rooted i hpc _ => exact Sized.of_pc (by simp) (by simp)
  | choose hpc =>
    refine ⟨fun hp => ?_, fun hp => ?_⟩
    · right
      have hp : (if s.prefersFiles e then Pc.popFile else Pc.popDir) = .popFile := hp
      show s.fileq.size ≠ 0
      refine Queue.ready_size hi.fok ?_
      cases hb : s.prefersFiles e with
      | false => rw [hb] at hp; cases hp
      | true =>
        unfold State.prefersFiles at hb
        intro hr
        rw [hr] at hb
        split at hb <;> simp at hb
    · have hp : (if s.prefersFiles e then Pc.popFile else Pc.popDir) = .done := hp
      split at hp <;> cases hp
  | noDir hpc hz => exact ⟨fun _ => Or.inl hz, fun hh => by cases hh⟩
  | popDir hpc hn hc =>
    obtain ⟨G, hl⟩ := hi.live (by rw [hpc]; simp)
    have hb := (hl.buf (by rw [hpc]; exact id)).2
    obtain ⟨f, q, hp⟩ := Queue.pop_some hl.dok hb hn hc
    rw [need_true _ (by rw [hb]; rfl), hp]
    exact Sized.of_pc (by simp) (by simp)
  | open_ path hpc _ => exact Sized.of_pc (by simp) (by simp)
  | entry k b hpc _ _ =>
    apply Sized.of_pc <;> rcases go_pc (s.visitName e k b) (.read (k + 1)) with h | h <;> rw [h] <;> simp
  | close k hpc _ =>
    apply Sized.of_pc <;> rcases goFlush_pc e (s.gc e (e.broken s.file) true true) with h | h <;> rw [h] <;> simp
  | noFile hpc hz =>
    refine ⟨fun hh => (by cases hh), fun _ => ?_⟩
    rcases h.popFile hpc with h | h
    · exact ⟨h, hz⟩
    · exact absurd hz h
  | popFile hpc hn hc =>
    obtain ⟨G, hl⟩ := hi.live (by rw [hpc]; simp)
    have hb := (hl.buf (by rw [hpc]; exact id)).1
    obtain ⟨f, q, hp⟩ := Queue.pop_some hl.fok hb hn hc
    rw [need_true _ (by rw [hb]; rfl), hp]
    exact Sized.of_pc (by simp) (by simp)
  | visit hpc _ =>
    apply Sized.of_pc <;> rcases goFlush_pc e (s.visitFile e) with h | h <;> rw [h] <;> simp

theorem sized_reach (hN : e.Named) (h : Reach e s) : Sized s := by
  induction h with
  | init => exact Sized.of_pc (by simp [State.init]) (by simp [State.init])
  | step hr hs ih => exact ih.step hN (inv_reach hN hr) hs
  | fail _ _ _ _ => exact Sized.of_pc (by simp) (by simp)

/-! ## At the end -/

theorem final (hN : e.Named) (h : Reach e s) (hd : s.pc = .done) :
    ∃ G, Live e G s ∧ s.fileq.content = [] ∧ s.dirq.content = [] ∧ s.file = [] := by
  obtain ⟨G, hl⟩ := (inv_reach hN h).live (by rw [hd]; simp)
  have hz := (sized_reach hN h).done hd
  exact ⟨G, hl, Queue.empty_of_size hl.fok hz.2, Queue.empty_of_size hl.dok hz.1, hl.curNone (by rw [hd]; simp) (by rw [hd]; exact id)⟩

/-- What has been seen is what there is below the directories that were entered. -/
theorem Live.found_of (h : Live e G s) : ∀ p ∈ G, Found e (· ∈ entered s.trace) p
  | [], hp => absurd rfl (inb_ne (h.core.ginb _ hp))
  | [i], hp => Found.root i (h.core.ginb _ hp)
  | j :: i :: p, hp => by
    have hpar := (h.core.gparent _ hp).resolve_left (by simp)
    exact Found.entry _ j (Live.found_of h _ (h.core.ent hpar)) hpar (h.core.ginb _ hp)

theorem final_mem (hd : s.pc = .done) (h : Live e G s) (hdq : s.dirq.content = []) (hf : s.file = []) {p : Pos} :
    p ∈ G ↔ Found e (· ∈ entered s.trace) p := by
  refine ⟨h.found_of p, fun hp => ?_⟩
  induction hp with
  | root i hi => rw [h.groot, hd]; exact hi
  | entry p j hp hent hj ih =>
    have hne := inb_ne (h.core.ginb p ih)
    rw [h.gent j p hne]
    refine ⟨hent, ?_⟩
    unfold prog
    rw [if_neg (by rw [hdq]; simp), if_neg (by rw [hf]; exact hne)]
    exact hj

/-- No file is referenced at the end. -/
theorem final_refs (h : Live e G s) (hfq : s.fileq.content = []) (hdq : s.dirq.content = []) (hf : s.file = []) : ∀ p, s.refs p = 0 := by
  have hrefs : ∀ p ∈ G, s.refs p = kids G s.refs p := by
    intro p hp
    rw [h.core.refs p hp, hf, plus_nil]
    unfold base
    rw [hfq, hdq]; simp
  have hbound : ∃ n, ∀ p ∈ G, p.length ≤ n := by
    clear hrefs h hfq hdq hf
    induction G with
    | nil => exact ⟨0, fun p hp => by cases hp⟩
    | cons q G ih =>
      obtain ⟨n, hn⟩ := ih
      refine ⟨max n q.length, fun p hp => ?_⟩
      rcases List.mem_cons.1 hp with rfl | hp
      · exact Nat.le_max_right _ _
      · exact Nat.le_trans (hn p hp) (Nat.le_max_left _ _)
  obtain ⟨n, hn⟩ := hbound
  have key : ∀ k p, p.length + k > n → s.refs p = 0 := by
    intro k
    induction k with
    | zero =>
      intro p hp
      refine h.core.refs0 p fun hm => ?_
      have := hn p hm; omega
    | succ k ih =>
      intro p hp
      by_cases hm : p ∈ G
      · rw [hrefs p hm]
        refine Nat.eq_zero_of_not_pos fun hk => ?_
        obtain ⟨q, hq, hqq⟩ := List.countP_pos_iff.1 hk
        simp only [Bool.and_eq_true, beq_iff_eq, decide_eq_true_eq] at hqq
        have hqne := inb_ne (h.core.ginb q hq)
        have hl : 0 < q.length := List.length_pos_iff.2 hqne
        have := ih q (by
          have : q.tail.length = p.length := by rw [hqq.1]
          rw [List.length_tail] at this
          omega)
        omega
      · exact h.core.refs0 p hm
  intro p
  exact key (n + 1) p (by omega)

/-! ## No deadlock -/

theorem mayBuffer_ex (e : Env) : ∃ b, e.mayBuffer b := by
  refine ⟨e.buffering, fun h => h, fun h _ => h⟩

theorem progress (hN : e.Named) (h : Reach e s) (h1 : s.pc ≠ .done) (h2 : s.pc ≠ .stopped) : ∃ s', Step e s s' := by
  obtain ⟨G, hl⟩ := (inv_reach hN h).live h2
  obtain ⟨b, hb⟩ := mayBuffer_ex e
  cases hpc : s.pc with
  | roots i =>
    by_cases hi : i < e.roots
    · exact ⟨_, .root i b hpc hi hb⟩
    · exact ⟨_, .rooted i hpc hi⟩
  | top => exact ⟨_, .choose hpc⟩
  | popDir =>
    by_cases hz : s.dirq.size = 0
    · exact ⟨_, .noDir hpc hz⟩
    · by_cases hc : s.dirq.canPop = true
      · exact ⟨_, .popDir hpc hz hc⟩
      · cases hs : s.dirq.service with
        | nil => exact absurd (by simp [Queue.canPop, hs]) hc
        | cons f l => exact ⟨_, .opendirDone f (by rw [hs]; exact List.mem_cons_self)⟩
  | dir =>
    by_cases hs : s.file ∈ s.dirq.service
    · exact ⟨_, .opendirDone _ hs⟩
    · exact ⟨_, .open_ true hpc hs⟩
  | read k =>
    by_cases hk : k < e.entries s.file
    · exact ⟨_, .entry k b hpc hk hb⟩
    · exact ⟨_, .close k hpc hk⟩
  | popFile =>
    by_cases hz : s.fileq.size = 0
    · exact ⟨_, .noFile hpc hz⟩
    · by_cases hc : s.fileq.canPop = true
      · exact ⟨_, .popFile hpc hz hc⟩
      · cases hs : s.fileq.service with
        | nil => exact absurd (by simp [Queue.canPop, hs]) hc
        | cons f l => exact ⟨_, .statDone f (by rw [hs]; exact List.mem_cons_self)⟩
  | file =>
    by_cases hs : s.file ∈ s.fileq.service
    · exact ⟨_, .statDone _ hs⟩
    · exact ⟨_, .visit hpc hs⟩
  | done => exact absurd hpc h1
  | stopped => exact absurd hpc h2

/-! ## Termination -/

/-- The requests that can still be made for files in a queue. -/
def Queue.todo (q : Queue) : Nat := 2 * (q.buffer.length + q.waiting.length) + q.service.length

theorem Queue.todo_detach {q : Queue} (hq : q.Ok) {f : Pos} (h : q.next = some f) : (q.detach f true).todo + 1 = q.todo ∧ (q.detach f false).todo + 2 = q.todo := by
  have hc := (Queue.next_facts hq h).2.2
  unfold Queue.canDetach at hc
  rw [Bool.and_eq_true_iff] at hc
  rcases q with ⟨qb, lf, od, b, w, r, s, n⟩
  unfold Queue.detach Queue.todo
  dsimp only at hc ⊢
  by_cases hb : b.head? = some f
  · rw [if_pos hb]
    cases b with
    | nil => cases hb
    | cons x b => simp; omega
  · rw [if_neg hb] at hc ⊢
    cases w with
    | nil => simp at hc
    | cons x w => simp; omega

theorem Queue.todo_attach {q : Queue} {f : Pos} : (q.attach f).todo = 2 * (q.buffer.length + q.waiting.length) + (q.service.erase f).length := by
  rcases q with ⟨qb, lf, od, b, w, r, s, n⟩
  cases od <;> rfl

theorem Queue.todo_done {q : Queue} {f : Pos} (h : f ∈ q.service) : (q.attach f).todo + 1 = q.todo := by
  rw [Queue.todo_attach, List.length_erase_of_mem h]
  have := List.length_pos_of_mem h
  unfold Queue.todo; omega

theorem Queue.todo_skip {q : Queue} (hq : q.Ok) {f : Pos} (h : q.next = some f) : ((q.detach f false).attach f).todo + 2 ≤ q.todo := by
  have := (Queue.todo_detach hq h).2
  rw [Queue.todo_attach]
  have h2 : ((q.detach f false).service.erase f).length ≤ (q.detach f false).service.length := List.length_erase_le
  unfold Queue.todo at this ⊢; omega

theorem Queue.todo_push (q : Queue) (f : Pos) : (q.push f).todo = q.todo + 2 ∧ (q.push f).size = q.size + 1 := by
  rcases q with ⟨qb, lf, od, b, w, r, s, n⟩
  cases qb <;> cases lf <;> cases od <;> simp [Queue.push, Queue.insert, Queue.todo] <;> omega

theorem Queue.todo_flush (q : Queue) : q.flush.todo = q.todo ∧ q.flush.size = q.size := by
  rcases q with ⟨qb, lf, od, b, w, r, s, n⟩
  cases qb <;> cases lf <;> simp [Queue.flush, Queue.todo] <;> omega

theorem Queue.todo_pop {q q' : Queue} {f : Pos} (h : q.pop = (some f, q')) : q'.todo ≤ q.todo ∧ q'.size = q.size - 1 := by
  rcases q with ⟨qb, lf, od, b, w, r, s, n⟩
  unfold Queue.pop at h
  cases r with
  | cons g r =>
    dsimp only at h
    split at h
    · cases h; simp [Queue.todo]; omega
    · cases h; simp [Queue.todo]
  | nil =>
    dsimp only at h
    cases w with
    | cons g w => cases h; simp [Queue.todo]; omega
    | nil => cases h

/-- How much there is to do with what is in the queues. -/
def queued (s : State) : Nat := 11 * s.fileq.size + s.fileq.todo + (5 * s.dirq.size + s.dirq.todo)

theorem queued_flush (e : Env) (s : State) : queued (s.flush e) = queued s := by
  unfold queued State.flush
  dsimp only
  rw [s.dirq.todo_flush.1, s.dirq.todo_flush.2]
  split
  · rw [(Queue.todo_flush _).1, (Queue.todo_flush _).2]
    unfold Queue.todo
    dsimp only
    rw [(listSort_perm s.fileq.buffer).length_eq]
  · rw [(Queue.todo_flush _).1, (Queue.todo_flush _).2]

/-- The steps of the main thread until the next file is taken from a queue. -/
def rank : Pc → Nat
  | .roots _ => 4
  | .top => 3
  | .popDir => 2
  | .dir => 5
  | .read _ => 4
  | .popFile => 1
  | .file => 11
  | .done => 0
  | .stopped => 0

/-- The number of files that have not been seen yet, and all the rest. -/
def Budget (e : Env) (U : List Pos) (B : Nat) (s : State) : Prop :=
  (Dead e s ∧ queued s ≤ B) ∨ ∃ G, Live e G s ∧ 14 * (U.length - G.length) + queued s + rank s.pc ≤ B

theorem Live.found_dir (h : Live e G s) : ∀ p ∈ G, Found e (fun q => e.isDir q = true) p
  | [], hp => absurd rfl (inb_ne (h.core.ginb _ hp))
  | [i], hp => Found.root i (h.core.ginb _ hp)
  | j :: i :: p, hp => by
    have hpar := (h.core.gparent _ hp).resolve_left (by simp)
    exact Found.entry _ j (Live.found_dir h _ (h.core.ent hpar)) (h.core.legal.entered_dir hpar) (h.core.ginb _ hp)

theorem length_le_of_subset {α : Type} [DecidableEq α] : ∀ {l U : List α}, l.Nodup → (∀ x ∈ l, x ∈ U) → l.length ≤ U.length
  | [], _, _, _ => Nat.zero_le _
  | x :: l, U, hn, hs => by
    have hn := List.nodup_cons.1 hn
    have hx := hs x List.mem_cons_self
    have := length_le_of_subset (l := l) (U := U.erase x) hn.2 fun y hy => by
      have hyx : y ≠ x := fun hh => hn.1 (hh ▸ hy)
      exact (List.mem_erase_of_ne hyx).2 (hs y (List.mem_cons_of_mem _ hy))
    rw [List.length_erase_of_mem hx] at this
    have := List.length_pos_of_mem hx
    simp only [List.length_cons]; omega

theorem buildPath_queued (e : Env) (s : State) (n : Option Nat) : (s.buildPath e n).fileq = s.fileq ∧ (s.buildPath e n).dirq = s.dirq := ⟨rfl, rfl⟩

theorem callBack_queued (e : Env) (s : State) (n : Option Nat) (v : Visit) : (s.callBack e n v).1.fileq = s.fileq ∧ (s.callBack e n v).1.dirq = s.dirq := by
  unfold State.callBack
  dsimp only
  split
  · exact ⟨rfl, rfl⟩
  · split <;> exact ⟨rfl, rfl⟩

theorem gcLoop_queued (e : Env) : ∀ (p : Pos) (s : State) (v w : Bool), (State.gcLoop e p s v w).1.fileq = s.fileq ∧ (State.gcLoop e p s v w).1.dirq = s.dirq
  | [], s, v, w => ⟨rfl, rfl⟩
  | i :: p, s, v, w => by
    have hpv : ∀ s : State, (s.postVisit e v).1.fileq = s.fileq ∧ (s.postVisit e v).1.dirq = s.dirq := by
      intro s
      unfold State.postVisit
      split
      · exact callBack_queued e s none .post
      · exact ⟨rfl, rfl⟩
    unfold State.gcLoop
    dsimp only
    split
    · exact ⟨rfl, rfl⟩
    · split
      · have h1 := hpv { s.need (s.refs (i :: p) > 0) with refs := upd s.refs (i :: p) (s.refs (i :: p) - 1), file := i :: p }
        have h2 := gcLoop_queued e p { (State.postVisit e { s.need (s.refs (i :: p) > 0) with refs := upd s.refs (i :: p) (s.refs (i :: p) - 1), file := i :: p } v).1 with prev := if (State.postVisit e { s.need (s.refs (i :: p) > 0) with refs := upd s.refs (i :: p) (s.refs (i :: p) - 1), file := i :: p } v).1.prev = i :: p then p else (State.postVisit e { s.need (s.refs (i :: p) > 0) with refs := upd s.refs (i :: p) (s.refs (i :: p) - 1), file := i :: p } v).1.prev } false false
        exact ⟨h2.1.trans h1.1, h2.2.trans h1.2⟩
      · have h1 := hpv { s.need (s.refs (i :: p) > 0) with refs := upd s.refs (i :: p) (s.refs (i :: p) - 1), file := i :: p }
        have h2 := gcLoop_queued e p { (State.postVisit e { s.need (s.refs (i :: p) > 0) with refs := upd s.refs (i :: p) (s.refs (i :: p) - 1), file := i :: p } v).1 with prev := if (State.postVisit e { s.need (s.refs (i :: p) > 0) with refs := upd s.refs (i :: p) (s.refs (i :: p) - 1), file := i :: p } v).1.prev = i :: p then p else (State.postVisit e { s.need (s.refs (i :: p) > 0) with refs := upd s.refs (i :: p) (s.refs (i :: p) - 1), file := i :: p } v).1.prev } w w
        exact ⟨h2.1.trans h1.1, h2.2.trans h1.2⟩

theorem gc_queued (e : Env) (s : State) (a b c : Bool) : queued (s.gc e a b c).1 = queued s := by
  have h1 : (s.errVisit e a).1.fileq = s.fileq ∧ (s.errVisit e a).1.dirq = s.dirq := by
    unfold State.errVisit
    split
    · exact callBack_queued e s none .err
    · exact ⟨rfl, rfl⟩
  unfold State.gc queued
  dsimp only
  split
  · rw [(gcLoop_queued e _ _ _ _).1, (gcLoop_queued e _ _ _ _).2, h1.1, h1.2]
  · rw [(gcLoop_queued e _ _ _ _).1, (gcLoop_queued e _ _ _ _).2, h1.1, h1.2]

theorem visitName_queued (e : Env) (s : State) (j : Nat) (b : Bool) :
    queued (s.visitName e j b).1 ≤ queued s + 13 ∧ ((s.visitName e j b).2 = true → queued (s.visitName e j b).1 = queued s) := by
  have hcb := callBack_queued e s (some j) .pre
  unfold State.visitName
  cases b
  · rw [if_neg (by simp)]
    generalize s.callBack e (some j) .pre = x at hcb
    obtain ⟨x, a⟩ := x
    dsimp only at hcb ⊢
    cases a with
    | cont =>
      refine ⟨?_, fun hh => by cases hh⟩
      have := Queue.todo_push x.dirq (j :: x.file)
      show 11 * x.fileq.size + x.fileq.todo + (5 * (x.dirq.push (j :: x.file)).size + (x.dirq.push (j :: x.file)).todo) ≤ _
      unfold queued
      rw [this.1, this.2, hcb.1, hcb.2]; omega
    | prune => unfold queued; dsimp only; rw [hcb.1, hcb.2]; exact ⟨by omega, fun _ => rfl⟩
    | stop => unfold queued; dsimp only; rw [hcb.1, hcb.2]; exact ⟨by omega, fun _ => rfl⟩
  · rw [if_pos rfl]
    refine ⟨?_, fun hh => by cases hh⟩
    have := Queue.todo_push s.fileq (j :: s.file)
    show 11 * (s.fileq.push (j :: s.file)).size + (s.fileq.push (j :: s.file)).todo + (5 * s.dirq.size + s.dirq.todo) ≤ _
    unfold queued
    rw [this.1, this.2]; omega

theorem visitFile_queued (e : Env) (s : State) : queued (s.visitFile e).1 ≤ queued s + 7 := by
  have hcb := callBack_queued e s none .pre
  unfold State.visitFile
  dsimp only
  generalize s.callBack e none .pre = x at hcb
  obtain ⟨x, a⟩ := x
  dsimp only at hcb ⊢
  have hq : queued x = queued s := by unfold queued; rw [hcb.1, hcb.2]
  cases a with
  | cont =>
    have := Queue.todo_push x.dirq s.file
    show 11 * x.fileq.size + x.fileq.todo + (5 * (x.dirq.push s.file).size + (x.dirq.push s.file).todo) ≤ _
    rw [← hq]
    unfold queued
    rw [this.1, this.2]; omega
  | prune => dsimp only; rw [gc_queued, hq]; omega
  | stop => dsimp only; rw [gc_queued, hq]; omega

theorem goFlush_queued (e : Env) (x : State × Bool) : queued (State.goFlush e x) = queued x.1 := by
  unfold State.goFlush
  split
  · rfl
  · exact queued_flush e x.1

theorem Budget.step (hN : e.Named) {U : List Pos} {B : Nat} (h : Budget e U B s) {s' : State} (hU : ∀ G, Live e G s' → ∀ p ∈ G, p ∈ U)
    (hs : Step e s s') : ∃ B', B = B' + 1 ∧ Budget e U B' s' := by
  have hi : Inv e s := by
    rcases h with ⟨h, _⟩ | ⟨G, h, _⟩
    · exact Or.inl h
    · exact Or.inr ⟨G, h⟩
  have hi' := hi.step hN hs
  -- steps in the background
  have back : ∀ q1 q2 : Queue, s' = { s with fileq := q1, dirq := q2 } → (∀ G, Live e G s → Live e G s') → queued s' + 1 ≤ queued s → ∃ B', B = B' + 1 ∧ Budget e U B' s' := by
    intro q1 q2 he hl hq
    have hpc : s'.pc = s.pc := by rw [he]
    rcases h with ⟨h, hb⟩ | ⟨G, h, hb⟩
    · refine ⟨B - 1, by omega, Or.inl ⟨?_, by omega⟩⟩
      exact hi'.elim id fun ⟨G, hh⟩ => absurd (hpc.trans h.stopped) hh.going
    · exact ⟨B - 1, by omega, Or.inr ⟨G, hl G h, by rw [hpc]; omega⟩⟩
  -- steps of the main thread
  have main : s.pc ≠ .stopped → (∀ G, Live e G s → 14 * (U.length - G.length) + queued s + rank s.pc ≤ B →
      (Dead e s' ∧ queued s' + 1 ≤ queued s + rank s.pc) ∨ ∃ G', Live e G' s' ∧ 14 * (U.length - G'.length) + queued s' + rank s'.pc + 1 ≤ 14 * (U.length - G.length) + queued s + rank s.pc) →
      ∃ B', B = B' + 1 ∧ Budget e U B' s' := by
    intro hpc hh
    rcases h with ⟨h, hb⟩ | ⟨G, h, hb⟩
    · exact absurd h.stopped hpc
    · rcases hh G h hb with ⟨h1, h2⟩ | ⟨G', h1, h2⟩
      · exact ⟨B - 1, by omega, Or.inl ⟨h1, by omega⟩⟩
      · exact ⟨B - 1, by omega, Or.inr ⟨G', h1, by omega⟩⟩
  cases hs with
  | stat f _ hf =>
    obtain ⟨k1, k2, k3⟩ := Queue.next_facts hi.fok hf
    obtain ⟨q1, q2, q3, q4⟩ := Queue.detach_spec hi.fok hf
    rw [need_true _ k3] at back ⊢
    refine back _ _ rfl (fun G h => ?_) ?_
    · exact h.queues q1 h.dok q2 (List.Perm.refl _) (fun g hg => by
        rw [q3] at hg
        rcases List.mem_append.1 hg with hg | hg
        · exact Or.inl hg
        · rw [List.mem_singleton.1 hg]; exact Or.inr k1) (fun _ => Or.inl) q4 id
    · have := (Queue.todo_detach hi.fok hf).1
      have := Queue.size_of_perm hi.fok q1 q2
      unfold queued; dsimp only; omega
  | skip f hf =>
    obtain ⟨k1, k2, k3⟩ := Queue.next_facts hi.fok hf
    obtain ⟨q1, q2, q3, q4⟩ := Queue.skip_spec hi.fok hf
    rw [need_true _ k3] at back ⊢
    refine back _ _ rfl (fun G h => ?_) ?_
    · exact h.queues q1 h.dok q2 (List.Perm.refl _) (fun g hg => Or.inl (q3 ▸ hg)) (fun _ => Or.inl) q4 id
    · have := Queue.todo_skip hi.fok hf
      have := Queue.size_of_perm hi.fok q1 q2
      unfold queued; dsimp only; omega
  | opendir f _ hf =>
    obtain ⟨k1, k2, k3⟩ := Queue.next_facts hi.dok hf
    obtain ⟨q1, q2, q3, q4⟩ := Queue.detach_spec hi.dok hf
    rw [need_true _ k3] at back ⊢
    refine back _ _ rfl (fun G h => ?_) ?_
    · exact h.queues h.fok q1 (List.Perm.refl _) q2 (fun _ => Or.inl) (fun g hg => by
        rw [q3] at hg
        rcases List.mem_append.1 hg with hg | hg
        · exact Or.inl hg
        · rw [List.mem_singleton.1 hg]; exact Or.inr k1) id q4
    · have := (Queue.todo_detach hi.dok hf).1
      have := Queue.size_of_perm hi.dok q1 q2
      unfold queued; dsimp only; omega
  | statDone f hf =>
    obtain ⟨q1, q2, q3, q4⟩ := Queue.attach_spec hi.fok hf
    refine back _ _ rfl (fun G h => ?_) ?_
    · exact h.queues q1 h.dok q2 (List.Perm.refl _) (fun g hg => Or.inl (List.mem_of_mem_erase (q3 ▸ hg))) (fun _ => Or.inl) (fun hb => q4.trans hb) id
    · have := Queue.todo_done hf
      have := Queue.size_of_perm hi.fok q1 q2
      unfold queued; dsimp only; omega
  | opendirDone f hf =>
    obtain ⟨q1, q2, q3, q4⟩ := Queue.attach_spec hi.dok hf
    refine back _ _ rfl (fun G h => ?_) ?_
    · exact h.queues h.fok q1 (List.Perm.refl _) q2 (fun _ => Or.inl) (fun g hg => Or.inl (List.mem_of_mem_erase (q3 ▸ hg))) id (fun hb => q4.trans hb)
    · have := Queue.todo_done hf
      have := Queue.size_of_perm hi.dok q1 q2
      unfold queued; dsimp only; omega
  | root i b hpc hii hb =>
    refine main (by rw [hpc]; simp) fun G h hB => ?_
    have hq := visitName_queued e s i b
    have hq' : queued (State.go (s.visitName e i b) (.roots (i + 1))) = queued (s.visitName e i b).1 := rfl
    rcases h.visitName hN b (Or.inl ⟨hpc, hii, rfl⟩) with hh | hh
    · refine Or.inl ⟨hh, ?_⟩
      have hst : (s.visitName e i b).2 = true := by
        have := hh.stopped
        unfold State.go at this
        cases hst : (s.visitName e i b).2 with
        | true => rfl
        | false => rw [hst] at this; cases this
      rw [hq', hq.2 hst, hpc]; show _ ≤ _ + 4; omega
    · refine Or.inr ⟨_, hh, ?_⟩
      have hlen := length_le_of_subset hh.core.gnodup (hU _ hh)
      have hpc' : (State.go (s.visitName e i b) (.roots (i + 1))).pc = .roots (i + 1) := (go_pc _ _).resolve_left hh.going
      rw [hq', hpc, hpc']
      simp only [List.length_cons] at hlen ⊢
      show _ + _ + 4 + 1 ≤ _ + _ + 4
      omega
  | rooted i hpc hii =>
    refine main (by rw [hpc]; simp) fun G h hB => Or.inr ⟨G, h.flush (h.curNone (by rw [hpc]; simp) (by rw [hpc]; exact id)) (Or.inl ⟨i, hpc, hii⟩), ?_⟩
    have hq : queued { s.flush e with pc := .top } = queued s := queued_flush e s
    rw [hq, hpc]; show _ + _ + 3 + 1 ≤ _ + _ + 4; omega
  | choose hpc =>
    refine main (by rw [hpc]; simp) fun G h hB => ?_
    have hf := h.curNone (by rw [hpc]; simp) (by rw [hpc]; exact id)
    rw [need_true _ (by simpa using hf)]
    have hq : queued { s with pc := if s.prefersFiles e then Pc.popFile else .popDir } = queued s := rfl
    refine Or.inr ⟨G, ?_, ?_⟩
    · split
      · exact h.setPc hf (by rw [hpc]; rfl) id (by simp) (by rw [hpc]; simp) (by rw [hpc]; exact id) (by simp) (by rw [hpc]; exact id) (by simp)
      · exact h.setPc hf (by rw [hpc]; rfl) id (by simp) (by rw [hpc]; simp) (by rw [hpc]; exact id) (by simp) (by rw [hpc]; exact id) (by simp)
    · rw [hq, hpc]
      dsimp only
      split <;> simp only [rank] <;> omega
  | noDir hpc _ =>
    refine main (by rw [hpc]; simp) fun G h hB => Or.inr ⟨G, ?_, ?_⟩
    · have hf := h.curNone (by rw [hpc]; simp) (by rw [hpc]; exact id)
      exact h.setPc hf (by rw [hpc]; rfl) id (by simp) (by rw [hpc]; simp) (by rw [hpc]; exact id) (by simp) (by rw [hpc]; exact id) (by simp)
    · rw [hpc]; show _ + queued s + 1 + 1 ≤ _ + _ + 2; omega
  | popDir hpc hn hc =>
    refine main (by rw [hpc]; simp) fun G h hB => ?_
    have hb := (h.buf (by rw [hpc]; exact id)).2
    obtain ⟨f, q, hp⟩ := Queue.pop_some h.dok hb hn hc
    rw [need_true _ (by rw [hb]; rfl), hp]
    refine Or.inr ⟨G, h.popDir hpc hp, ?_⟩
    have := Queue.todo_pop hp
    rw [hpc]
    show _ + (11 * s.fileq.size + s.fileq.todo + (5 * q.size + q.todo)) + 5 + 1 ≤ _ + (11 * s.fileq.size + s.fileq.todo + (5 * s.dirq.size + s.dirq.todo)) + 2
    omega
  | open_ path hpc _ =>
    refine main (by rw [hpc]; simp) fun G h hB => Or.inr ⟨G, h.open_ hN hpc path, ?_⟩
    have hq : queued { (if path then s.buildPath e none else s) with pc := .read 0 } = queued s := by cases path <;> rfl
    rw [hq, hpc]; show _ + _ + 4 + 1 ≤ _ + _ + 5; omega
  | entry k b hpc hii hb =>
    refine main (by rw [hpc]; simp) fun G h hB => ?_
    have hq := visitName_queued e s k b
    have hq' : queued (State.go (s.visitName e k b) (.read (k + 1))) = queued (s.visitName e k b).1 := rfl
    rcases h.visitName hN b (Or.inr ⟨hpc, hii, rfl⟩) with hh | hh
    · refine Or.inl ⟨hh, ?_⟩
      have hst : (s.visitName e k b).2 = true := by
        have := hh.stopped
        unfold State.go at this
        cases hst : (s.visitName e k b).2 with
        | true => rfl
        | false => rw [hst] at this; cases this
      rw [hq', hq.2 hst, hpc]; show _ ≤ _ + 4; omega
    · refine Or.inr ⟨_, hh, ?_⟩
      have hlen := length_le_of_subset hh.core.gnodup (hU _ hh)
      have hpc' : (State.go (s.visitName e k b) (.read (k + 1))).pc = .read (k + 1) := (go_pc _ _).resolve_left hh.going
      rw [hq', hpc, hpc']
      simp only [List.length_cons] at hlen ⊢
      show _ + _ + 4 + 1 ≤ _ + _ + 4
      omega
  | close k hpc hk =>
    refine main (by rw [hpc]; simp) fun G h hB => ?_
    have hq := goFlush_queued e (s.gc e (e.broken s.file) true true)
    rw [gc_queued] at hq
    rcases h.close hN hpc hk with hh | hh
    · refine Or.inl ⟨hh, ?_⟩
      rw [hq, hpc]; show _ ≤ _ + 4; omega
    · refine Or.inr ⟨_, hh, ?_⟩
      rw [hq, hpc, (goFlush_pc e _).resolve_left hh.going]
      show _ + _ + 3 + 1 ≤ _ + _ + 4; omega
  | noFile hpc _ =>
    refine main (by rw [hpc]; simp) fun G h hB => Or.inr ⟨G, ?_, ?_⟩
    · have hf := h.curNone (by rw [hpc]; simp) (by rw [hpc]; exact id)
      exact h.setPc hf (by rw [hpc]; rfl) id (by simp) (by rw [hpc]; simp) (by rw [hpc]; exact id) (by simp) (by rw [hpc]; exact id) (by simp)
    · rw [hpc]; show _ + queued s + 0 + 1 ≤ _ + _ + 1; omega
  | popFile hpc hn hc =>
    refine main (by rw [hpc]; simp) fun G h hB => ?_
    have hb := (h.buf (by rw [hpc]; exact id)).1
    obtain ⟨f, q, hp⟩ := Queue.pop_some h.fok hb hn hc
    rw [need_true _ (by rw [hb]; rfl), hp]
    refine Or.inr ⟨G, h.popFile hpc hp, ?_⟩
    have := Queue.todo_pop hp
    rw [hpc]
    show _ + (11 * q.size + q.todo + (5 * s.dirq.size + s.dirq.todo)) + 11 + 1 ≤ _ + (11 * s.fileq.size + s.fileq.todo + (5 * s.dirq.size + s.dirq.todo)) + 1
    omega
  | visit hpc _ =>
    refine main (by rw [hpc]; simp) fun G h hB => ?_
    have hq := goFlush_queued e (s.visitFile e)
    have hq2 := visitFile_queued e s
    rcases h.visit hN hpc with hh | hh
    · refine Or.inl ⟨hh, ?_⟩
      rw [hq, hpc]; show _ ≤ _ + 11; omega
    · refine Or.inr ⟨_, hh, ?_⟩
      rw [hq, hpc, (goFlush_pc e _).resolve_left hh.going]
      show _ + _ + 3 + 1 ≤ _ + _ + 11; omega

theorem Budget.fail {U : List Pos} {B : Nat} (h : Budget e U B s) (h1 : s.pc ≠ .done) (h2 : s.pc ≠ .stopped) :
    ∃ B', B = B' + 1 ∧ Budget e U B' { s with pc := .stopped } := by
  rcases h with ⟨h, hb⟩ | ⟨G, h, hb⟩
  · exact absurd h.stopped h2
  · have hr : 1 ≤ rank s.pc := by
      revert h1 h2
      cases s.pc <;> simp [rank]
    refine ⟨B - 1, by omega, Or.inl ⟨h.dead, ?_⟩⟩
    show queued s ≤ _
    omega

theorem Budget.init (e : Env) (U : List Pos) : Budget e U (14 * U.length + 4) (State.init e) := by
  refine Or.inr ⟨[], init_live e, ?_⟩
  have hq : queued (State.init e) = 0 := rfl
  rw [hq]; show _ + 0 + 4 ≤ _; simp

end Verif.Bftw
