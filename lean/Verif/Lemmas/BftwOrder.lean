import Verif.Lemmas.BftwRun
/-! # With `BFTW_SORT`, the files in a directory are visited in order -/
namespace Verif.Bftw

variable {e : Env} {G : List Pos} {s : State}

theorem callBack_pre (e : Env) (s : State) (n : Option Nat) (v : Visit) :
    visits .pre (s.callBack e n v).1.trace = visits .pre s.trace ∨ (v = .pre ∧ visits .pre (s.callBack e n v).1.trace = target s.file n :: visits .pre s.trace) := by
  unfold State.callBack
  dsimp only
  split
  · exact Or.inl rfl
  · split
    · exact Or.inl rfl
    · dsimp only
      rw [visits_cons]
      by_cases hv : v = .pre
      · rw [if_pos hv]; exact Or.inr ⟨hv, rfl⟩
      · rw [if_neg hv]; exact Or.inl rfl

theorem gcLoop_pre (e : Env) : ∀ (p : Pos) (s : State) (v w : Bool), visits .pre (State.gcLoop e p s v w).1.trace = visits .pre s.trace
  | [], s, v, w => rfl
  | i :: p, s, v, w => by
    have hpv : ∀ s : State, visits .pre (s.postVisit e v).1.trace = visits .pre s.trace := by
      intro s
      unfold State.postVisit
      split
      · exact (callBack_pre e s none .post).resolve_right fun hh => by cases hh.1
      · rfl
    unfold State.gcLoop
    dsimp only
    split
    · rfl
    · split
      · exact (gcLoop_pre e p _ false false).trans (hpv _)
      · exact (gcLoop_pre e p _ w w).trans (hpv _)

theorem gc_pre (e : Env) (s : State) (a b c : Bool) : visits .pre (s.gc e a b c).1.trace = visits .pre s.trace := by
  have h1 : visits .pre (s.errVisit e a).1.trace = visits .pre s.trace := by
    unfold State.errVisit
    split
    · exact (callBack_pre e s none .err).resolve_right fun hh => by cases hh.1
    · rfl
  unfold State.gc
  dsimp only
  split
  · rw [gcLoop_pre, h1]
  · rw [gcLoop_pre, h1]

theorem gc_fileq (e : Env) (s : State) (a b c : Bool) : (s.gc e a b c).1.fileq = s.fileq := by
  have h1 : (s.errVisit e a).1.fileq = s.fileq := by
    unfold State.errVisit
    split
    · exact (callBack_queued e s none .err).1
    · rfl
  unfold State.gc
  dsimp only
  split
  · rw [(gcLoop_queued e _ _ _ _).1, h1]
  · rw [(gcLoop_queued e _ _ _ _).1, h1]

theorem visitFile_pre (e : Env) (s : State) :
    (visits .pre (s.visitFile e).1.trace = visits .pre s.trace ∨ visits .pre (s.visitFile e).1.trace = s.file :: visits .pre s.trace) ∧
      (s.visitFile e).1.fileq = s.fileq := by
  have hcb := callBack_pre e s none .pre
  have hq := (callBack_queued e s none .pre).1
  unfold State.visitFile
  dsimp only
  generalize s.callBack e none .pre = x at hcb hq
  obtain ⟨x, a⟩ := x
  dsimp only [target] at hcb hq ⊢
  cases a with
  | cont => exact ⟨hcb.imp id fun h => h.2, hq⟩
  | prune => dsimp only; rw [gc_pre, gc_fileq]; exact ⟨hcb.imp id fun h => h.2, hq⟩
  | stop => dsimp only; rw [gc_pre, gc_fileq]; exact ⟨hcb.imp id fun h => h.2, hq⟩

/-- Sorting gives a list in which every file comes before the others. -/
theorem sort_before (ht : ∀ a b, e.le a b = true ∨ e.le b a = true) (hr : ∀ a b c, e.le a b = true → e.le b c = true → e.le a c = true)
    (k : Nat) (p : Pos) : (listSort e.le e.name ((List.range k).map (· :: p))).Pairwise (Before e) := by
  obtain ⟨h1, h2⟩ := sortFuel_spec (le := e.le) (name := e.name) ht hr ((List.range k).map (· :: p)).length ((List.range k).map (· :: p)) (Nat.le_refl _)
  have hl : ((List.range k).map (· :: p)).Pairwise fun a b => a.headD 0 < b.headD 0 :=
    List.pairwise_map.2 (List.pairwise_lt_range.imp fun h => h)
  unfold listSort
  refine List.pairwise_iff_forall_sublist.2 fun {a b} hab => ?_
  intro _
  have hle : e.le (e.name a) (e.name b) = true := List.pairwise_iff_forall_sublist.1 h1 hab
  refine ⟨hle, fun hge => ?_⟩
  have hsub := hab.filter (same e.le e.name (e.name a))
  rw [h2] at hsub
  have hrefl : e.le (e.name a) (e.name a) = true := by rcases ht (e.name a) (e.name a) with h | h <;> exact h
  have hf : [a, b].filter (same e.le e.name (e.name a)) = [a, b] := by
    rw [List.filter_eq_self]
    intro x hx
    unfold same
    rcases List.mem_cons.1 hx with rfl | hx
    · rw [hrefl]; rfl
    · rw [List.mem_singleton.1 hx, hle, hge]; rfl
  rw [hf] at hsub
  exact List.pairwise_iff_forall_sublist.1 (hl.sublist List.filter_sublist) hsub

/-- The files that have been visited or will be, in order. -/
def line (s : State) : List Pos := (visits .pre s.trace).reverse ++ ((if s.pc = .file then [s.file] else []) ++ s.fileq.ready)

structure Ord (e : Env) (s : State) : Prop where
  visited : (visits .pre s.trace).reverse.Pairwise (Before e)
  line : s.pc ≠ .stopped → (line s).Pairwise (Before e)
  order : s.fileq.order = true
  qbuffer : s.fileq.qbuffer = true
  roots : ∀ k, s.pc = .roots k → s.fileq.buffer = (List.range k).map (· :: s.file)
  read : ∀ k, s.pc = .read k → s.fileq.buffer = (List.range k).map (· :: s.file)

/-- Nothing in line is in a directory that is being read. -/
theorem line_other (h : Live e G s) (ho : s.fileq.order = true) {k : Nat} (hpc : s.pc = .roots k ∨ s.pc = .read k)
    (hb : s.fileq.buffer = (List.range k).map (· :: s.file)) : ∀ x ∈ line s, x.tail ≠ s.file := by
  intro x hx hxt
  have hcont : s.fileq.content = s.fileq.buffer ++ s.fileq.ready := by unfold Queue.content; rw [if_pos ho]
  have hnf : s.pc ≠ .file := by rcases hpc with h | h <;> rw [h] <;> simp
  unfold line at hx
  rw [if_neg hnf, List.nil_append, List.mem_append, List.mem_reverse] at hx
  have hxG : x ∈ G := by
    rcases hx with hx | hx
    · exact h.core.gvis x hx
    · exact h.fmem (by rw [hcont]; exact List.mem_append_right _ hx)
  have hxne := inb_ne (h.core.ginb x hxG)
  have hxb : x ∈ s.fileq.buffer := by
    rw [hb]
    cases x with
    | nil => exact absurd rfl hxne
    | cons j p =>
      have hxt : p = s.file := hxt
      subst hxt
      refine List.mem_map.2 ⟨j, List.mem_range.2 ?_, rfl⟩
      rcases hpc with hpc | hpc
      · have hf := h.curNone (by rw [hpc]; simp) (by rw [hpc]; exact id)
        rw [hf, h.groot, hpc] at hxG
        exact hxG
      · have hd := h.curDir (by rw [hpc]; trivial)
        rw [h.gent j _ (inb_ne (h.core.ginb _ (h.core.ent hd.1)))] at hxG
        have := hxG.2
        unfold prog at this
        rw [if_neg hd.2, if_pos rfl, hpc] at this
        exact this
  rcases hx with hx | hx
  · exact h.fnew x (by rw [hcont]; exact List.mem_append_left _ hxb) hx
  · have hn := h.fok.nodup
    rw [hcont] at hn
    exact (List.nodup_append.1 hn).2.2 x hxb x hx rfl

theorem Ord.same (h : Ord e s) {q1 q2 : Queue} (h1 : q1.ready = s.fileq.ready) (h2 : q1.buffer = s.fileq.buffer) (h3 : q1.order = s.fileq.order)
    (h4 : q1.qbuffer = s.fileq.qbuffer) : Ord e { s with fileq := q1, dirq := q2 } where
  visited := h.visited
  line := fun hp => by
    show List.Pairwise _ (_ ++ (_ ++ q1.ready))
    rw [h1]; exact h.line hp
  order := h3.trans h.order
  qbuffer := h4.trans h.qbuffer
  roots := fun k hk => h2.trans (h.roots k hk)
  read := fun k hk => h2.trans (h.read k hk)

theorem detach_order {q : Queue} (hq : q.Ok) (ho : q.order = true) {f : Pos} (h : q.next = some f) (a : Bool) :
    (q.detach f a).ready = q.ready ∧ (q.detach f a).buffer = q.buffer ∧ (q.detach f a).order = q.order ∧ (q.detach f a).qbuffer = q.qbuffer := by
  have hc := (Queue.next_facts hq h).2.2
  unfold Queue.canDetach at hc
  rw [Bool.and_eq_true_iff] at hc
  rcases q with ⟨qb, lf, od, b, w, r, s, n⟩
  dsimp only at ho hc
  subst ho
  unfold Queue.detach
  dsimp only
  by_cases hb : b.head? = some f
  · rw [if_pos hb] at hc; simp at hc
  · rw [if_neg hb]
    cases a <;> exact ⟨rfl, rfl, rfl, rfl⟩

theorem attach_order {q : Queue} (ho : q.order = true) (f : Pos) :
    (q.attach f).ready = q.ready ∧ (q.attach f).buffer = q.buffer ∧ (q.attach f).order = q.order ∧ (q.attach f).qbuffer = q.qbuffer := by
  unfold Queue.attach
  dsimp only
  rw [ho, if_pos rfl]
  exact ⟨rfl, rfl, rfl.trans ho.symm ▸ ho, rfl⟩

theorem flush_order (hs : e.sort = true) (ho : s.fileq.order = true) (hq : s.fileq.qbuffer = true) :
    ((s.flush e).fileq.ready = s.fileq.ready ++ listSort e.le e.name s.fileq.buffer ∨ (s.flush e).fileq.ready = listSort e.le e.name s.fileq.buffer ++ s.fileq.ready) ∧
      (s.flush e).fileq.buffer = [] ∧ (s.flush e).fileq.order = true ∧ (s.flush e).fileq.qbuffer = true := by
  unfold State.flush Queue.flush
  dsimp only
  rw [if_pos hs]
  dsimp only
  rw [hq, ho]
  cases s.fileq.lifo
  · exact ⟨Or.inl rfl, rfl, rfl, rfl⟩
  · exact ⟨Or.inr rfl, rfl, rfl, rfl⟩

/-- A directory has been read. -/
theorem flush_ord (hs : e.sort = true) (ht : ∀ a b, e.le a b = true ∨ e.le b a = true) (hr : ∀ a b c, e.le a b = true → e.le b c = true → e.le a c = true)
    {s' : State} (ho : s'.fileq.order = true) (hq : s'.fileq.qbuffer = true) {V : List Pos} (hV : visits .pre s'.trace = V)
    {k : Nat} {p : Pos} (hb : s'.fileq.buffer = (List.range k).map (· :: p)) (hl : (V.reverse ++ s'.fileq.ready).Pairwise (Before e))
    (hn : ∀ x ∈ V.reverse ++ s'.fileq.ready, x.tail ≠ p) : Ord e { s'.flush e with pc := .top } := by
  obtain ⟨h1, h2, h3, h4⟩ := flush_order (e := e) hs ho hq
  have hsb := sort_before (e := e) ht hr k p
  rw [← hb] at hsb
  have htail : ∀ x ∈ listSort e.le e.name s'.fileq.buffer, x.tail = p := by
    intro x hx
    have hx := (listSort_perm s'.fileq.buffer).mem_iff.1 hx
    rw [hb] at hx
    obtain ⟨j, _, rfl⟩ := List.mem_map.1 hx
    rfl
  rw [List.pairwise_append] at hl
  exact
    { visited := by show (visits .pre s'.trace).reverse.Pairwise _; rw [hV]; exact hl.1
      line := fun _ => by
        show ((visits .pre s'.trace).reverse ++ ([] ++ (s'.flush e).fileq.ready)).Pairwise _
        rw [hV, List.nil_append]
        have k1 : ∀ a ∈ s'.fileq.ready, ∀ b ∈ listSort e.le e.name s'.fileq.buffer, Before e a b ∧ Before e b a := by
          intro a ha b hb
          have := hn a (List.mem_append_right _ ha)
          rw [← htail b hb] at this
          exact ⟨fun hh => absurd hh this, fun hh => absurd hh.symm this⟩
        have k2 : ∀ a ∈ V.reverse, ∀ b ∈ listSort e.le e.name s'.fileq.buffer, Before e a b := by
          intro a ha b hb
          have := hn a (List.mem_append_left _ ha)
          rw [← htail b hb] at this
          exact fun hh => absurd hh this
        rcases h1 with h1 | h1
        · rw [h1]
          refine List.pairwise_append.2 ⟨hl.1, List.pairwise_append.2 ⟨hl.2.1, hsb, fun a ha b hb => (k1 a ha b hb).1⟩, fun a ha b hb => ?_⟩
          rcases List.mem_append.1 hb with hb | hb
          · exact hl.2.2 a ha b hb
          · exact k2 a ha b hb
        · rw [h1]
          refine List.pairwise_append.2 ⟨hl.1, List.pairwise_append.2 ⟨hsb, hl.2.1, fun a ha b hb => (k1 b hb a ha).2⟩, fun a ha b hb => ?_⟩
          rcases List.mem_append.1 hb with hb | hb
          · exact k2 a ha b hb
          · exact hl.2.2 a ha b hb
      order := h3
      qbuffer := h4
      roots := fun k hk => by cases hk
      read := fun k hk => by cases hk }

theorem Ord.setPc (h : Ord e s) {pc : Pc} (h1 : s.pc ≠ .file) (h2 : pc ≠ .file) (h3 : s.pc ≠ .stopped) (h4 : ∀ k, pc ≠ .roots k) (h5 : ∀ k, pc ≠ .read k) :
    Ord e { s with pc := pc } where
  visited := h.visited
  line := fun _ => by
    have := h.line h3
    unfold Bftw.line at this ⊢
    rw [if_neg h1] at this
    show ((visits .pre s.trace).reverse ++ ((if pc = .file then [s.file] else []) ++ s.fileq.ready)).Pairwise _
    rw [if_neg h2]
    exact this
  order := h.order
  qbuffer := h.qbuffer
  roots := fun k hk => absurd hk (h4 k)
  read := fun k hk => absurd hk (h5 k)

theorem Ord.name (hs : e.sort = true) (h : Ord e s) {j : Nat} {b : Bool} {pc' : Pc} (hb : e.mayBuffer b)
    (hpc : (s.pc = .roots j ∧ pc' = .roots (j + 1)) ∨ (s.pc = .read j ∧ pc' = .read (j + 1))) : Ord e (State.go (s.visitName e j b) pc') := by
  have hbt : b = true := hb.1 (by unfold Env.buffering Env.mustBuffer; rw [hs]; simp)
  subst hbt
  have hx : State.go (s.visitName e j true) pc' = { s.new j with fileq := s.fileq.push (j :: s.file), pc := pc' } := by
    unfold State.visitName State.go
    rw [if_pos rfl]
    rfl
  have hp : s.fileq.push (j :: s.file) = { s.fileq with buffer := s.fileq.buffer ++ [j :: s.file], size := s.fileq.size + 1 } := by
    unfold Queue.push Queue.insert
    rw [if_pos h.qbuffer]
  rw [hx, hp]
  have hbuf : s.fileq.buffer = (List.range j).map (· :: s.file) := by
    rcases hpc with ⟨h1, _⟩ | ⟨h1, _⟩
    · exact h.roots j h1
    · exact h.read j h1
  have hbuf' : s.fileq.buffer ++ [j :: s.file] = (List.range (j + 1)).map (· :: s.file) := by
    rw [List.range_succ, List.map_append, ← hbuf]; rfl
  exact
    { visited := h.visited
      line := fun _ => by
        have := h.line (by rcases hpc with ⟨h1, _⟩ | ⟨h1, _⟩ <;> rw [h1] <;> simp)
        unfold Bftw.line at this
        rw [if_neg (by rcases hpc with ⟨h1, _⟩ | ⟨h1, _⟩ <;> rw [h1] <;> simp)] at this
        show ((visits .pre s.trace).reverse ++ ((if pc' = .file then [s.file] else []) ++ s.fileq.ready)).Pairwise _
        rw [if_neg (by rcases hpc with ⟨_, h1⟩ | ⟨_, h1⟩ <;> rw [h1] <;> simp)]
        exact this
      order := h.order
      qbuffer := h.qbuffer
      roots := fun k hk => by
        have hk : pc' = .roots k := hk
        rcases hpc with ⟨_, h1⟩ | ⟨_, h1⟩ <;> rw [h1] at hk <;> cases hk
        exact hbuf'
      read := fun k hk => by
        have hk : pc' = .read k := hk
        rcases hpc with ⟨_, h1⟩ | ⟨_, h1⟩ <;> rw [h1] at hk <;> cases hk
        exact hbuf' }

theorem Ord.step (hN : e.Named) (hs : e.sort = true) (ht : ∀ a b, e.le a b = true ∨ e.le b a = true) (hr : ∀ a b c, e.le a b = true → e.le b c = true → e.le a c = true)
    (hi : Inv e s) (h : Ord e s) {s' : State} (hst : Step e s s') : Ord e s' := by
  cases hst with
  | stat f _ hf =>
    obtain ⟨k1, k2, k3⟩ := Queue.next_facts hi.fok hf
    rw [need_true _ k3]
    obtain ⟨q1, q2, q3, q4⟩ := detach_order hi.fok h.order hf true
    exact h.same q1 q2 q3 q4
  | skip f hf =>
    obtain ⟨k1, k2, k3⟩ := Queue.next_facts hi.fok hf
    rw [need_true _ k3]
    obtain ⟨q1, q2, q3, q4⟩ := detach_order hi.fok h.order hf false
    obtain ⟨r1, r2, r3, r4⟩ := attach_order (q3.trans h.order) f
    exact h.same (r1.trans q1) (r2.trans q2) (r3.trans q3) (r4.trans q4)
  | opendir f _ hf =>
    obtain ⟨k1, k2, k3⟩ := Queue.next_facts hi.dok hf
    rw [need_true _ k3]
    exact h.same rfl rfl rfl rfl
  | statDone f hf =>
    obtain ⟨r1, r2, r3, r4⟩ := attach_order h.order f
    exact h.same r1 r2 r3 r4
  | opendirDone f hf => exact h.same rfl rfl rfl rfl
  | root i b hpc hii hb => exact h.name hs hb (Or.inl ⟨hpc, rfl⟩)
  | rooted i hpc hii =>
    obtain ⟨G, hl⟩ := hi.live (by rw [hpc]; simp)
    have hb := h.roots i hpc
    have hline := h.line hl.going
    have hother := line_other hl h.order (Or.inl hpc) hb
    unfold Bftw.line at hline hother
    rw [if_neg (by rw [hpc]; simp), List.nil_append] at hline hother
    exact flush_ord hs ht hr h.order h.qbuffer rfl hb hline hother
  | choose hpc =>
    obtain ⟨G, hl⟩ := hi.live (by rw [hpc]; simp)
    have hf := hl.curNone (by rw [hpc]; simp) (by rw [hpc]; exact id)
    rw [need_true _ (by simpa using hf)]
    have := h.setPc (pc := if s.prefersFiles e then .popFile else .popDir) (by rw [hpc]; simp) (by split <;> simp) hl.going (fun k => by split <;> simp) (fun k => by split <;> simp)
    exact this
  | noDir hpc _ => exact h.setPc (by rw [hpc]; simp) (by simp) (by rw [hpc]; simp) (by simp) (by simp)
  | popDir hpc hn hc =>
    obtain ⟨G, hl⟩ := hi.live (by rw [hpc]; simp)
    have hb := (hl.buf (by rw [hpc]; exact id)).2
    obtain ⟨f, q, hp⟩ := Queue.pop_some hl.dok hb hn hc
    rw [need_true _ (by rw [hb]; rfl), hp]
    exact
      { visited := h.visited
        line := fun _ => by
          have := h.line hl.going
          unfold Bftw.line at this
          rw [if_neg (by rw [hpc]; simp)] at this
          exact this
        order := h.order
        qbuffer := h.qbuffer
        roots := fun k hk => by cases hk
        read := fun k hk => by cases hk }
  | open_ path hpc _ =>
    obtain ⟨G, hl⟩ := hi.live (by rw [hpc]; simp)
    have hb := hl.buf (by rw [hpc]; exact id)
    have key : ∀ s1 : State, s1.trace = s.trace → s1.fileq = s.fileq → Ord e { s1 with pc := .read 0 } := by
      intro s1 ht1 hq1
      exact
        { visited := by show (visits .pre s1.trace).reverse.Pairwise _; rw [ht1]; exact h.visited
          line := fun _ => by
            show ((visits .pre s1.trace).reverse ++ ([] ++ s1.fileq.ready)).Pairwise _
            rw [ht1, hq1]
            have := h.line hl.going
            unfold Bftw.line at this
            rw [if_neg (by rw [hpc]; simp)] at this
            exact this
          order := by show s1.fileq.order = true; rw [hq1]; exact h.order
          qbuffer := by show s1.fileq.qbuffer = true; rw [hq1]; exact h.qbuffer
          roots := fun k hk => by cases hk
          read := fun k hk => by
            cases hk
            show s1.fileq.buffer = []
            rw [hq1]; exact hb.1 }
    cases path
    · exact key s rfl rfl
    · exact key _ rfl rfl
  | entry k b hpc hk hb => exact h.name hs hb (Or.inr ⟨hpc, rfl⟩)
  | close k hpc hk =>
    obtain ⟨G, hl⟩ := hi.live (by rw [hpc]; simp)
    have hb := h.read k hpc
    have hline := h.line hl.going
    have hother := line_other hl h.order (Or.inr hpc) hb
    unfold Bftw.line at hline hother
    rw [if_neg (by rw [hpc]; simp), List.nil_append] at hline hother
    have e1 := gc_pre e s (e.broken s.file) true true
    have e2 := gc_fileq e s (e.broken s.file) true true
    generalize s.gc e (e.broken s.file) true true = x at e1 e2
    unfold State.goFlush
    split
    · exact
        { visited := by show (visits .pre x.1.trace).reverse.Pairwise _; rw [e1]; exact h.visited
          line := fun hh => absurd rfl hh
          order := by show x.1.fileq.order = true; rw [e2]; exact h.order
          qbuffer := by show x.1.fileq.qbuffer = true; rw [e2]; exact h.qbuffer
          roots := fun k hk => by cases hk
          read := fun k hk => by cases hk }
    · exact flush_ord hs ht hr (by rw [e2]; exact h.order) (by rw [e2]; exact h.qbuffer) e1 (by rw [e2]; exact hb) (by rw [e2]; exact hline) (by rw [e2]; exact hother)
  | noFile hpc _ => exact h.setPc (by rw [hpc]; simp) (by simp) (by rw [hpc]; simp) (by simp) (by simp)
  | popFile hpc hn hc =>
    obtain ⟨G, hl⟩ := hi.live (by rw [hpc]; simp)
    have hb := (hl.buf (by rw [hpc]; exact id)).1
    obtain ⟨f, q, hp⟩ := Queue.pop_some hl.fok hb hn hc
    rw [need_true _ (by rw [hb]; rfl), hp]
    have hready : s.fileq.ready = f :: q.ready ∧ q.order = s.fileq.order ∧ q.qbuffer = s.fileq.qbuffer := by
      have hsub := hl.fok.sub h.order
      unfold Queue.pop at hp
      revert hp
      cases hrd : s.fileq.ready with
      | cons g r =>
        dsimp only
        split
        · intro hp; cases hp; exact ⟨rfl, rfl, rfl⟩
        · intro hp; cases hp; exact ⟨rfl, rfl, rfl⟩
      | nil =>
        rw [hrd] at hsub
        rw [List.sublist_nil.1 hsub]
        intro hp; cases hp
    exact
      { visited := h.visited
        line := fun _ => by
          have := h.line hl.going
          unfold Bftw.line at this
          rw [if_neg (by rw [hpc]; simp), hready.1] at this
          exact this
        order := hready.2.1.trans h.order
        qbuffer := hready.2.2.trans h.qbuffer
        roots := fun k hk => by cases hk
        read := fun k hk => by cases hk }
  | visit hpc _ =>
    obtain ⟨G, hl⟩ := hi.live (by rw [hpc]; simp)
    have hb := (hl.buf (by rw [hpc]; exact id)).1
    have hline := h.line hl.going
    unfold Bftw.line at hline
    rw [if_pos hpc] at hline
    obtain ⟨e1, e2⟩ := visitFile_pre e s
    generalize s.visitFile e = x at e1 e2
    have hsub : ((visits .pre x.1.trace).reverse ++ s.fileq.ready).Pairwise (Before e) := by
      rcases e1 with e1 | e1
      · rw [e1]
        refine hline.sublist ?_
        exact List.Sublist.append_left (List.sublist_append_right _ _) _
      · rw [e1, List.reverse_cons, List.append_assoc]; exact hline
    have hvis : (visits .pre x.1.trace).reverse.Pairwise (Before e) := (List.pairwise_append.1 hsub).1
    unfold State.goFlush
    split
    · exact
        { visited := hvis
          line := fun hh => absurd rfl hh
          order := by show x.1.fileq.order = true; rw [e2]; exact h.order
          qbuffer := by show x.1.fileq.qbuffer = true; rw [e2]; exact h.qbuffer
          roots := fun k hk => by cases hk
          read := fun k hk => by cases hk }
    · obtain ⟨f1, f2, f3, f4⟩ := flush_order (e := e) (s := x.1) hs (by rw [e2]; exact h.order) (by rw [e2]; exact h.qbuffer)
      have hemp : listSort e.le e.name x.1.fileq.buffer = [] := by rw [e2, hb]; rfl
      rw [hemp, e2] at f1
      have hrd : (x.1.flush e).fileq.ready = s.fileq.ready := by
        rcases f1 with f1 | f1 <;> rw [f1] <;> simp
      exact
        { visited := hvis
          line := fun _ => by
            show ((visits .pre x.1.trace).reverse ++ ([] ++ (x.1.flush e).fileq.ready)).Pairwise _
            rw [hrd, List.nil_append]; exact hsub
          order := f3
          qbuffer := f4
          roots := fun k hk => by cases hk
          read := fun k hk => by cases hk }

theorem ord_reach (hN : e.Named) (hs : e.sort = true) (ht : ∀ a b, e.le a b = true ∨ e.le b a = true)
    (hr : ∀ a b c, e.le a b = true → e.le b c = true → e.le a c = true) (h : Reach e s) : Ord e s := by
  induction h with
  | init =>
    exact
      { visited := List.Pairwise.nil
        line := fun _ => List.Pairwise.nil
        order := hs
        qbuffer := by
          show (decide (e.strategy ≠ .bfs) || e.buffering) = true
          unfold Env.buffering Env.mustBuffer; rw [hs]; simp
        roots := fun k hk => by
          have hk : Pc.roots 0 = .roots k := hk
          cases hk; rfl
        read := fun k hk => by
          have hk : Pc.roots 0 = .read k := hk
          cases hk }
  | step hrr hst ih => exact ih.step hN hs ht hr (inv_reach hN hrr) hst
  | fail hrr h1 h2 ih =>
    exact
      { visited := ih.visited
        line := fun hh => absurd rfl hh
        order := ih.order
        qbuffer := ih.qbuffer
        roots := fun k hk => by cases hk
        read := fun k hk => by cases hk }

end Verif.Bftw
