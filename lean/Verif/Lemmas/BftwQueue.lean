import Verif.Lemmas.BftwSort
/-! # Queues of files -/
namespace Verif.Bftw

/-- The files in a queue. -/
def Queue.content (q : Queue) : List Pos :=
  if q.order then q.buffer ++ q.ready else q.buffer ++ (q.waiting ++ (q.ready ++ q.service))

structure Queue.Ok (q : Queue) : Prop where
  nodup : q.content.Nodup
  size : q.size = q.content.length
  plain : q.qbuffer = false → q.buffer = []
  sub : q.order = true → q.waiting.Sublist q.ready
  serv : ∀ f ∈ q.service, f ∉ q.buffer ∧ f ∉ q.waiting
  servNodup : q.service.Nodup

theorem Queue.init_ok (a b c : Bool) : (Queue.init a b c).Ok := by
  cases c <;> exact ⟨by simp [Queue.init, Queue.content], rfl, fun _ => rfl, fun _ => List.Sublist.refl _, by simp [Queue.init], by simp [Queue.init]⟩

theorem Queue.content_init (a b c : Bool) : (Queue.init a b c).content = [] := by cases c <;> rfl

theorem content_of_perm {q q' : Queue} (h : q'.content.Perm q.content) (hq : q.Ok) :
    q'.content.Nodup ∧ q.size = q'.content.length :=
  ⟨h.nodup_iff.2 hq.nodup, by rw [hq.size, h.length_eq]⟩

theorem Queue.insert_content (q : Queue) (f : Pos) : (q.insert f).content.Perm (f :: q.content) := by
  rcases q with ⟨qb, lf, od, b, w, r, s, n⟩
  cases qb <;> cases lf <;> cases od <;> simp only [Queue.insert, Queue.content, if_true, if_false, Bool.false_eq_true]
  · simp only [List.append_assoc, List.singleton_append]
    refine (List.Perm.append_left b ?_).trans List.perm_middle
    exact List.perm_middle
  · rw [← List.append_assoc]
    exact List.perm_append_singleton f (b ++ r)
  · exact List.perm_middle
  · exact List.perm_middle
  · simp only [List.append_assoc, List.singleton_append]; exact List.perm_middle
  · simp only [List.append_assoc, List.singleton_append]; exact List.perm_middle
  · simp only [List.append_assoc, List.singleton_append]; exact List.perm_middle
  · simp only [List.append_assoc, List.singleton_append]; exact List.perm_middle

theorem Queue.push_content (q : Queue) (f : Pos) : (q.push f).content.Perm (f :: q.content) := q.insert_content f

theorem Queue.push_service (q : Queue) (f : Pos) : (q.push f).service = q.service := by
  rcases q with ⟨qb, lf, od, b, w, r, s, n⟩
  cases qb <;> cases lf <;> cases od <;> rfl

theorem Queue.push_ok {q : Queue} (h : q.Ok) {f : Pos} (h1 : f ∉ q.content) (h2 : f ∉ q.service) : (q.push f).Ok where
  nodup := (q.push_content f).nodup_iff.2 (List.nodup_cons.2 ⟨h1, h.nodup⟩)
  size := by rw [(q.push_content f).length_eq]; simp [Queue.push, h.size]
  plain := by
    intro hp
    have : q.qbuffer = false := by
      rcases q with ⟨qb, lf, od, b, w, r, s, n⟩
      cases qb <;> cases lf <;> cases od <;> first | rfl | exact hp
    simp only [Queue.push, Queue.insert, this, if_false, Bool.false_eq_true]
    split <;> exact h.plain this
  sub := by
    intro ho
    have hs := h.sub
    rcases q with ⟨qb, lf, od, b, w, r, s, n⟩
    cases qb <;> cases lf <;> cases od <;> simp [Queue.push, Queue.insert] at ho hs ⊢ <;> first | exact hs | skip
  serv := by
    intro g hg
    rw [q.push_service f] at hg
    have hs := h.serv g hg
    have hne : g ≠ f := fun hh => h2 (hh ▸ hg)
    rcases q with ⟨qb, lf, od, b, w, r, s, n⟩
    cases qb <;> cases lf <;> cases od <;> simp [Queue.push, Queue.insert, hne, hs] at hs ⊢
  servNodup := by rw [q.push_service f]; exact h.servNodup

theorem Queue.flush_service (q : Queue) : q.flush.service = q.service := by
  unfold Queue.flush; split <;> rfl

theorem Queue.flush_content (q : Queue) : q.flush.content.Perm q.content := by
  rcases q with ⟨qb, lf, od, b, w, r, s, n⟩
  cases qb
  · exact List.Perm.refl _
  cases lf <;> cases od <;> simp only [Queue.flush, Queue.content, if_true, if_false, Bool.false_eq_true, Bool.not_true, List.nil_append, List.append_assoc]
  · rw [← List.append_assoc, ← List.append_assoc b]
    exact List.Perm.append_right _ List.perm_append_comm
  · exact List.perm_append_comm
  · exact List.Perm.refl _
  · exact List.Perm.refl _

theorem Queue.flush_ok {q : Queue} (h : q.Ok) : q.flush.Ok := by
  have hc := q.flush_content
  have hn := content_of_perm hc h
  refine ⟨hn.1, ?_, ?_, ?_, ?_, by rw [q.flush_service]; exact h.servNodup⟩
  · rw [← hn.2]; unfold Queue.flush; split <;> rfl
  · intro hp
    unfold Queue.flush at hp ⊢
    split
    · rename_i hq; exact h.plain (by simpa using hq)
    · rfl
  · intro ho
    have hs := h.sub
    have hp := h.plain
    rcases q with ⟨qb, lf, od, b, w, r, s, n⟩
    cases qb <;> cases lf <;> cases od <;> simp [Queue.flush] at ho hs ⊢ <;> first | exact hs | exact hs.append (List.Sublist.refl _) | skip
  · intro f hf
    rw [q.flush_service] at hf
    have hs := h.serv f hf
    rcases q with ⟨qb, lf, od, b, w, r, s, n⟩
    cases qb <;> cases lf <;> cases od <;> simp [Queue.flush, hs] at hs ⊢ 

theorem Queue.flush_buffer {q : Queue} (h : q.Ok) : q.flush.buffer = [] := by
  unfold Queue.flush
  split
  · rename_i hq; exact h.plain (by simpa using hq)
  · rfl

theorem Queue.sort_ok {q : Queue} (h : q.Ok) {b : List Pos} (hb : b.Perm q.buffer) :
    ({ q with buffer := b } : Queue).Ok ∧ ({ q with buffer := b } : Queue).content.Perm q.content := by
  have hc : ({ q with buffer := b } : Queue).content.Perm q.content := by
    unfold Queue.content
    split <;> exact hb.append_right _
  have hn := content_of_perm hc h
  refine ⟨⟨hn.1, hn.2, ?_, h.sub, ?_, h.servNodup⟩, hc⟩
  · intro hp
    have := h.plain hp
    rw [this] at hb
    exact hb.eq_nil
  · intro f hf
    exact ⟨fun hh => (h.serv f hf).1 (hb.mem_iff.1 hh), (h.serv f hf).2⟩

theorem head?_some {α} {l : List α} {a : α} (h : l.head? = some a) : l = a :: l.tail := by
  cases l with
  | nil => cases h
  | cons b l => cases h; rfl

/-- What is next is at the head of one of the lists. -/
theorem Queue.next_cases {q : Queue} (hq : q.Ok) {f : Pos} (h : q.next = some f) :
    (q.order = false ∧ ∃ b, q.buffer = f :: b) ∨ (f ∉ q.buffer ∧ ∃ w, q.waiting = f :: w) ∨
      (q.order = true ∧ q.buffer.head? ≠ some f ∧ ∃ w, q.waiting = f :: w) := by
  by_cases hb : q.buffer.head? = some f
  · have e := head?_some hb
    cases ho : q.order
    · exact Or.inl ⟨rfl, _, e⟩
    · have hw : q.waiting.head? = some f := by
        unfold Queue.next at h
        rw [if_pos (by simp [ho])] at h
        exact h
      have ew := head?_some hw
      exfalso
      have hm : f ∈ q.ready := (hq.sub ho).subset (by rw [ew]; exact List.mem_cons_self)
      have hn := hq.nodup
      unfold Queue.content at hn
      rw [if_pos ho, e] at hn
      simp at hn
      exact hn.1.2 hm
  · have hw : q.waiting.head? = some f := by
      unfold Queue.next at h
      split at h
      · exact h
      · split at h
        · cases hbb : q.buffer with
          | nil => rw [hbb] at h; exact h
          | cons x y => rw [hbb] at h hb; exact absurd h hb
        · cases hww : q.waiting with
          | nil => rw [hww] at h; exact absurd h hb
          | cons x y => rw [hww] at h; exact h
    have ew := head?_some hw
    cases ho : q.order
    · right; left
      refine ⟨fun hm => ?_, _, ew⟩
      have hn := hq.nodup
      unfold Queue.content at hn
      rw [if_neg (by simp [ho]), ew] at hn
      have := (List.nodup_append.1 hn).2.2 f hm f (by simp)
      exact this rfl
    · exact Or.inr (Or.inr ⟨rfl, hb, _, ew⟩)

theorem Queue.next_facts {q : Queue} (hq : q.Ok) {f : Pos} (h : q.next = some f) :
    f ∈ q.content ∧ f ∉ q.service ∧ q.canDetach f = true := by
  have hc : f ∈ q.content := by
    rcases Queue.next_cases hq h with ⟨ho, b, e⟩ | ⟨hb, w, e⟩ | ⟨ho, hb, w, e⟩
    · unfold Queue.content; rw [if_neg (by simp [ho]), e]; simp
    · unfold Queue.content
      split
      · rename_i ho
        exact List.mem_append.2 (Or.inr ((hq.sub ho).subset (by rw [e]; simp)))
      · rw [e]; simp
    · unfold Queue.content
      rw [if_pos ho]
      exact List.mem_append.2 (Or.inr ((hq.sub ho).subset (by rw [e]; simp)))
  have hs : f ∉ q.service := by
    intro hs
    have := hq.serv f hs
    rcases Queue.next_cases hq h with ⟨ho, b, e⟩ | ⟨hb, w, e⟩ | ⟨ho, hb, w, e⟩
    · exact this.1 (by rw [e]; simp)
    · exact this.2 (by rw [e]; simp)
    · exact this.2 (by rw [e]; simp)
  refine ⟨hc, hs, ?_⟩
  unfold Queue.canDetach
  rw [Bool.and_eq_true_iff]
  refine ⟨by simpa using hs, ?_⟩
  rcases Queue.next_cases hq h with ⟨ho, b, e⟩ | ⟨hb, w, e⟩ | ⟨ho, hb, w, e⟩
  · rw [if_pos (by rw [e]; rfl), ho]; rfl
  · rw [if_neg (fun hh => hb (by rw [head?_some hh]; simp)), e]; simp
  · rw [if_neg hb, e]; simp

theorem Queue.detach_spec {q : Queue} (hq : q.Ok) {f : Pos} (h : q.next = some f) :
    (q.detach f true).Ok ∧ (q.detach f true).content.Perm q.content ∧ (q.detach f true).service = q.service ++ [f] ∧
      (q.buffer = [] → (q.detach f true).buffer = []) := by
  obtain ⟨hc, hs, _⟩ := Queue.next_facts hq h
  have hnd : (q.service ++ [f]).Nodup := by
    rw [List.nodup_append]
    exact ⟨hq.servNodup, by simp, fun a ha b hb => by simp at hb; subst hb; exact fun hh => hs (hh ▸ ha)⟩
  have hn0 := hq.nodup
  rcases q with ⟨qb, lf, od, b, w, r, s, n⟩
  rcases Queue.next_cases hq h with ⟨ho, b', e⟩ | ⟨hb, w', e⟩ | ⟨ho, hb, w', e⟩ <;> simp only at *
  · subst ho; subst e
    have he : (Queue.mk qb lf false (f :: b') w r s n).detach f true = Queue.mk qb lf false b' w r (s ++ [f]) n := by
      simp [Queue.detach]
    rw [he]
    have hp : (Queue.mk qb lf false b' w r (s ++ [f]) n).content.Perm (Queue.mk qb lf false (f :: b') w r s n).content := by
      simp only [Queue.content, if_false, Bool.false_eq_true, List.cons_append]
      rw [show b' ++ (w ++ (r ++ (s ++ [f]))) = (b' ++ (w ++ (r ++ s))) ++ [f] by simp]
      exact List.perm_append_singleton _ _
    have hn := content_of_perm hp hq
    refine ⟨⟨hn.1, hn.2, fun hp => (by have := hq.plain hp; cases this), (fun h => by cases h), ?_, hnd⟩, hp, rfl, (fun h => by cases h)⟩
    intro g hg
    simp only [Queue.content, if_false, Bool.false_eq_true] at hn0
    simp only [List.cons_append, List.nodup_cons, List.mem_append, not_or] at hn0
    rcases List.mem_append.1 hg with hg | hg
    · have := hq.serv g hg
      exact ⟨fun hh => this.1 (List.mem_cons_of_mem _ hh), this.2⟩
    · simp at hg; subst hg; exact ⟨hn0.1.1, hn0.1.2.1⟩
  · subst e
    have he : (Queue.mk qb lf od b (f :: w') r s n).detach f true = Queue.mk qb lf od b w' r (s ++ [f]) n := by
      have : b.head? ≠ some f := fun hh => hb (by rw [head?_some hh]; simp)
      simp [Queue.detach, this]
    rw [he]
    have hp : (Queue.mk qb lf od b w' r (s ++ [f]) n).content.Perm (Queue.mk qb lf od b (f :: w') r s n).content := by
      cases od
      · simp only [Queue.content, if_false, Bool.false_eq_true]
        refine List.Perm.append_left _ ?_
        rw [show w' ++ (r ++ (s ++ [f])) = (w' ++ (r ++ s)) ++ [f] by simp]
        exact List.perm_append_singleton _ _
      · exact List.Perm.refl _
    have hn := content_of_perm hp hq
    refine ⟨⟨hn.1, hn.2, hq.plain, ?_, ?_, hnd⟩, hp, rfl, id⟩
    · intro ho; exact (List.sublist_cons_self _ _).trans (hq.sub ho)
    · intro g hg
      rcases List.mem_append.1 hg with hg | hg
      · have := hq.serv g hg
        exact ⟨this.1, fun hh => this.2 (List.mem_cons_of_mem _ hh)⟩
      · simp at hg; subst hg
        refine ⟨hb, ?_⟩
        cases od
        · simp only [Queue.content, if_false, Bool.false_eq_true] at hn0
          have := (List.nodup_append.1 hn0).2.1
          simp only [List.cons_append, List.nodup_cons, List.mem_append, not_or] at this
          exact this.1.1
        · have h1 : r.Nodup := (List.nodup_append.1 hn0).2.1
          exact (List.nodup_cons.1 (h1.sublist (hq.sub rfl))).1
  · subst ho; subst e
    have he : (Queue.mk qb lf true b (f :: w') r s n).detach f true = Queue.mk qb lf true b w' r (s ++ [f]) n := by
      simp [Queue.detach, hb]
    rw [he]
    have hp : (Queue.mk qb lf true b w' r (s ++ [f]) n).content.Perm (Queue.mk qb lf true b (f :: w') r s n).content := List.Perm.refl _
    have hn := content_of_perm hp hq
    refine ⟨⟨hn.1, hn.2, hq.plain, ?_, ?_, hnd⟩, hp, rfl, id⟩
    · intro ho; exact (List.sublist_cons_self _ _).trans (hq.sub ho)
    · intro g hg
      rcases List.mem_append.1 hg with hg | hg
      · have := hq.serv g hg
        exact ⟨this.1, fun hh => this.2 (List.mem_cons_of_mem _ hh)⟩
      · simp at hg; subst hg
        have h1 : r.Nodup := (List.nodup_append.1 hn0).2.1
        refine ⟨fun hh => ?_, (List.nodup_cons.1 (h1.sublist (hq.sub rfl))).1⟩
        exact (List.nodup_append.1 hn0).2.2 g hh g ((hq.sub rfl).subset (by simp)) rfl

theorem Queue.attach_spec {q : Queue} (hq : q.Ok) {f : Pos} (h : f ∈ q.service) :
    (q.attach f).Ok ∧ (q.attach f).content.Perm q.content ∧ (q.attach f).service = q.service.erase f ∧ (q.attach f).buffer = q.buffer := by
  have hn0 := hq.nodup
  rcases q with ⟨qb, lf, od, b, w, r, s, n⟩
  have hes : ∀ g ∈ s.erase f, g ∈ s := fun g hg => List.mem_of_mem_erase hg
  cases od
  · have he : (Queue.mk qb lf false b w r s n).attach f = Queue.mk qb lf false b w (r ++ [f]) (s.erase f) n := rfl
    rw [he]
    have hp : (Queue.mk qb lf false b w (r ++ [f]) (s.erase f) n).content.Perm (Queue.mk qb lf false b w r s n).content := by
      simp only [Queue.content, if_false, Bool.false_eq_true, List.append_assoc, List.singleton_append]
      refine List.Perm.append_left _ (List.Perm.append_left _ (List.Perm.append_left _ ?_))
      exact (List.perm_cons_erase h).symm
    have hn := content_of_perm hp hq
    exact ⟨⟨hn.1, hn.2, hq.plain, (fun h => by cases h), fun g hg => hq.serv g (hes g hg), hq.servNodup.erase _⟩, hp, rfl, rfl⟩
  · have he : (Queue.mk qb lf true b w r s n).attach f = Queue.mk qb lf true b w r (s.erase f) n := rfl
    rw [he]
    have hp : (Queue.mk qb lf true b w r (s.erase f) n).content.Perm (Queue.mk qb lf true b w r s n).content := List.Perm.refl _
    have hn := content_of_perm hp hq
    exact ⟨⟨hn.1, hn.2, hq.plain, hq.sub, fun g hg => hq.serv g (hes g hg), hq.servNodup.erase _⟩, hp, rfl, rfl⟩

theorem Queue.skip_eq (q : Queue) {f : Pos} (hs : f ∉ q.service) : (q.detach f false).attach f = (q.detach f true).attach f := by
  have e1 : ∀ s : List Pos, f ∉ s → s.erase f = (s ++ [f]).erase f := by
    intro s hs
    rw [List.erase_append_right _ hs, List.erase_of_not_mem hs]; simp
  rcases q with ⟨qb, lf, od, b, w, r, s, n⟩
  cases od <;> by_cases hb : b.head? = some f <;> simp only [Queue.detach, Queue.attach, hb, if_true, if_false, Bool.false_eq_true] <;> rw [e1 s hs]

theorem Queue.skip_spec {q : Queue} (hq : q.Ok) {f : Pos} (h : q.next = some f) :
    ((q.detach f false).attach f).Ok ∧ ((q.detach f false).attach f).content.Perm q.content ∧
      ((q.detach f false).attach f).service = q.service ∧ (q.buffer = [] → ((q.detach f false).attach f).buffer = []) := by
  obtain ⟨hc, hs, _⟩ := Queue.next_facts hq h
  obtain ⟨h1, h2, h3, h4⟩ := Queue.detach_spec hq h
  obtain ⟨k1, k2, k3, k4⟩ := Queue.attach_spec h1 (f := f) (by rw [h3]; simp)
  rw [Queue.skip_eq q hs]
  refine ⟨k1, k2.trans h2, ?_, fun hb => k4.trans (h4 hb)⟩
  rw [k3, h3, List.erase_append_right _ hs]; simp

theorem Queue.pop_spec {q : Queue} (hq : q.Ok) (hb : q.buffer = []) {f : Pos} {q' : Queue} (h : q.pop = (some f, q')) :
    q'.Ok ∧ q.content.Perm (f :: q'.content) ∧ q'.service = q.service ∧ q'.buffer = [] := by
  have hn0 := hq.nodup
  have hsz := hq.size
  rcases q with ⟨qb, lf, od, b, w, r, s, n⟩
  simp only at hb; subst hb
  unfold Queue.pop at h
  cases r with
  | cons g r =>
    dsimp only at h
    by_cases hw : w.head? = some g
    · rw [if_pos hw] at h
      cases h
      have ew := head?_some hw
      cases od
      · exfalso
        simp only [Queue.content, if_false, Bool.false_eq_true, List.nil_append] at hn0
        rw [ew] at hn0
        simp at hn0
      · rw [ew] at hq hn0 hsz ⊢
        simp only [Queue.content, if_true, List.nil_append] at hn0 hsz
        refine ⟨⟨(List.nodup_cons.1 hn0).2, by simp [Queue.content] at hsz ⊢; omega, fun _ => rfl, fun _ => ?_, ?_, hq.servNodup⟩, List.Perm.refl _, rfl, rfl⟩
        · exact List.cons_sublist_cons.1 (hq.sub rfl)
        · intro x hx
          exact ⟨by simp, fun hh => (hq.serv x hx).2 (List.mem_cons_of_mem _ hh)⟩
    · rw [if_neg hw] at h
      cases h
      cases od
      · simp only [Queue.content, if_false, Bool.false_eq_true, List.nil_append, List.cons_append] at hn0 hsz
        have hp : (Queue.mk qb lf false [] w (f :: r) s n).content.Perm (f :: (Queue.mk qb lf false [] w r s (n - 1)).content) := by
          simp only [Queue.content, if_false, Bool.false_eq_true, List.nil_append, List.cons_append]
          exact List.perm_middle
        have hn := hp.nodup_iff.1 hq.nodup
        refine ⟨⟨(List.nodup_cons.1 hn).2, ?_, fun _ => rfl, (fun h => by cases h), hq.serv, hq.servNodup⟩, hp, rfl, rfl⟩
        simp [Queue.content] at hsz ⊢; omega
      · simp only [Queue.content, if_true, List.nil_append] at hn0 hsz
        refine ⟨⟨(List.nodup_cons.1 hn0).2, by simp [Queue.content] at hsz ⊢; omega, fun _ => rfl, fun _ => ?_, ?_, hq.servNodup⟩, List.Perm.refl _, rfl, rfl⟩
        · have := hq.sub rfl
          simp only at this
          rcases List.sublist_cons_iff.1 this with h | ⟨x, h, _⟩
          · exact h
          · rw [h] at hw; exact absurd rfl hw
        · exact hq.serv
  | nil =>
    dsimp only at h
    cases w with
    | nil => cases h
    | cons g w =>
      cases h
      cases od
      · simp only [Queue.content, if_false, Bool.false_eq_true, List.nil_append, List.cons_append] at hn0 hsz
        refine ⟨⟨(List.nodup_cons.1 hn0).2, by simp [Queue.content] at hsz ⊢; omega, fun _ => rfl, (fun h => by cases h), ?_, hq.servNodup⟩, List.Perm.refl _, rfl, rfl⟩
        intro x hx
        exact ⟨by simp, fun hh => (hq.serv x hx).2 (List.mem_cons_of_mem _ hh)⟩
      · have := hq.sub rfl
        simp at this

/-- `bftw_pop()` finds a file if there is one. -/
theorem Queue.pop_some {q : Queue} (hq : q.Ok) (hb : q.buffer = []) (hn : q.size ≠ 0) (hc : q.canPop = true) :
    ∃ f q', q.pop = (some f, q') := by
  have hsz := hq.size
  rcases q with ⟨qb, lf, od, b, w, r, s, n⟩
  simp only at hb; subst hb
  unfold Queue.pop
  cases r with
  | cons g r => dsimp only; split <;> exact ⟨_, _, rfl⟩
  | nil =>
    cases w with
    | cons g w => exact ⟨_, _, rfl⟩
    | nil =>
      exfalso
      simp only [Queue.canPop, List.isEmpty_nil, Bool.not_true, Bool.or_false, Bool.false_or, List.isEmpty_iff] at hc
      subst hc
      apply hn
      rw [hsz]; cases od <;> rfl

end Verif.Bftw
