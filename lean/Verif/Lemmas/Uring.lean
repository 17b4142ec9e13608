import Verif.Spec.Uring
import Verif.Lemmas.IoqApi
/-!
# The invariant of a thread that uses `io_uring`
-/
namespace Verif.Uring

open Verif.Ioq (W Batch nonNull InB OutB)

/-- What holds all the time; `x` is an answer that is about to be pushed. -/
structure Inv (c : Cfg) (e : Env) (x : List (W × Int)) (s : State) : Prop where
  inb : InB c.B s.pending
  out : OutB c.B s.ready
  prepped : s.prepped = s.sq.length
  submitted : s.submitted = s.flight.length + s.cq.length + s.seen
  space : s.sq.length ≤ c.entries
  bound : s.prepped + s.submitted ≤ 2 * c.entries
  once : ∀ p, s.received.count p = s.sent.count p + s.ready.content.count p + s.sq.count p + s.flight.count p + (s.cq.map Prod.fst).count p +
    s.hand.count p + s.pending.content.count p + s.returned.count p + (x.map Prod.fst).count p
  ans : s.answers.map Prod.fst = s.sent ++ s.ready.content
  ways : ∀ p, (s.answers.map Prod.fst).count p + (x.map Prod.fst).count p + s.sq.count p + s.flight.count p + (s.cq.map Prod.fst).count p =
    s.refused.count p + (s.synced.map Prod.fst).count p + s.queued.count p
  kern : ∀ p, s.queued.count p = s.sq.count p + s.flight.count p + (s.completed.map Prod.fst).count p
  refusedOk : ∀ p ∈ s.refused, Refusable (c.op p)
  queuedOk : ∀ p ∈ s.queued, async c (c.op p) = true
  syncedOk : ∀ y ∈ s.synced, async c (c.op y.1) = false
  fds : ∀ y, (s.completed.filter (isFd c)).count y = (s.cq.filter (isFd c)).count y + s.kept.count y + s.closed.count y
  cqOk : ∀ y ∈ s.cq, y ∈ s.completed
  expl : ∀ y ∈ s.answers ++ x, Explained c e s y.1 y.2
  orig : s.pending.content = [] ∨ ∃ t pre, nonNull (e.got t) = pre ++ s.pending.content ∨ nonNull (e.tryGot t) = pre ++ s.pending.content
  ret : ∀ p ∈ s.returned, p = c.stop
  retStop : s.returned = if s.stop then [c.stop] else []

/-- A function returns as it should, or goes on properly. -/
def Post {α : Type} (c : Cfg) (e : Env) (P : α → Prop) : Res α → Prop
  | .done a => P a
  | .more s => Inv c e [] s
  | .ub => False

theorem Post.andThen {α β : Type} {c : Cfg} {e : Env} {P : α → Prop} {Q : β → Prop} {r : Res α} {f : α → Res β} (h : Post c e P r)
    (hf : ∀ a, P a → Post c e Q (f a)) : Post c e Q (r.andThen f) := by
  cases r with
  | done a => exact hf a h
  | more s => exact h
  | ub => exact h

theorem Post.mono {α : Type} {c : Cfg} {e : Env} {P Q : α → Prop} {r : Res α} (h : Post c e P r) (hf : ∀ a, P a → Q a) : Post c e Q r := by
  cases r with
  | done a => exact hf a h
  | more s => exact h
  | ub => exact h

/-! ## Pushing answers -/

theorem push_inv {c : Cfg} {e : Env} (hc : c.Good) {s : State} {ent : W} {r : Int} (h : Inv c e [(ent, r)] s) :
    ∃ s', s.push c ent r = .done s' ∧ Inv c e [] s' ∧ s'.sq = s.sq ∧ s'.flight = s.flight ∧ s'.cq = s.cq ∧ s'.prepped = s.prepped ∧
      s'.submitted = s.submitted ∧ s'.seen = s.seen ∧ s'.hand = s.hand ∧ s'.stop = s.stop ∧ s'.pending = s.pending ∧ s'.now = s.now := by
  obtain ⟨b, l, h1, h2, h3⟩ := Ioq.push_spec' hc.batch h.out ent
  refine ⟨{ s with ready := b, sent := s.sent ++ l, answers := s.answers ++ [(ent, r)] }, ?_, ?_, rfl, rfl, rfl, rfl, rfl, rfl, rfl, rfl, rfl, rfl⟩
  · unfold State.push; rw [h1]
  · have hcount : ∀ p, l.count p + b.content.count p = s.ready.content.count p + [ent].count p := by
      intro p
      rw [← List.count_append, h3, List.count_append]
    refine { inb := h.inb, out := h2, prepped := h.prepped, submitted := h.submitted, space := h.space, bound := h.bound, once := ?_, ans := ?_, ways := ?_,
             kern := h.kern, refusedOk := h.refusedOk, queuedOk := h.queuedOk, syncedOk := h.syncedOk, fds := h.fds, cqOk := h.cqOk, expl := ?_, orig := h.orig,
             ret := h.ret, retStop := h.retStop }
    · intro p
      have h5 := h.once p
      have h6 := hcount p
      simp only [List.count_append, List.map_cons, List.map_nil, List.count_nil] at h5 h6 ⊢
      omega
    · have h5 := h.ans
      simp only [List.map_append, List.map_cons, List.map_nil, List.append_assoc]
      rw [h3, h5]; simp
    · intro p
      have h5 := h.ways p
      simp only [List.map_append, List.count_append, List.map_cons, List.map_nil, List.count_nil] at h5 ⊢
      omega
    · intro y hy
      rw [List.append_nil] at hy
      exact h.expl y hy

theorem flush_inv {c : Cfg} {e : Env} (hc : c.Good) {s : State} (h : Inv c e [] s) : Inv c e [] s.flush ∧ s.flush.ready.isEmpty = true := by
  obtain ⟨h1, h2, h3⟩ := Ioq.flush_spec hc.batch h.out.len h.out.head (Nat.le_of_lt h.out.tail)
  refine ⟨{ inb := h.inb, out := h1, prepped := h.prepped, submitted := h.submitted, space := h.space, bound := h.bound, once := ?_, ans := ?_, ways := h.ways,
            kern := h.kern, refusedOk := h.refusedOk, queuedOk := h.queuedOk, syncedOk := h.syncedOk, fds := h.fds, cqOk := h.cqOk, expl := h.expl, orig := h.orig,
            ret := h.ret, retStop := h.retStop }, ?_⟩
  · intro p
    have h5 := h.once p
    show _ = (s.sent ++ s.ready.flush.2).count p + s.ready.flush.1.content.count p + _ + _ + _ + _ + _ + _ + _
    rw [h3, h2, List.count_append, List.count_nil]
    exact h5
  · show s.answers.map Prod.fst = (s.sent ++ s.ready.flush.2) ++ s.ready.flush.1.content
    rw [h3, h2, List.append_nil]
    exact h.ans
  · exact (Ioq.empty_iff h1.len (Nat.le_of_lt h1.tail)).2 h2

/-! ## The kernel -/

theorem count_eraseIdx {α : Type} [BEq α] [LawfulBEq α] {l : List α} {i : Nat} {a : α} (h : l[i]? = some a) (p : α) :
    l.count p = (l.eraseIdx i).count p + [a].count p := by
  induction l generalizing i with
  | nil => simp at h
  | cons b l ih =>
    cases i with
    | zero =>
      simp at h
      subst h
      simp only [List.eraseIdx_zero, List.tail_cons, List.count_cons, List.count_nil]
      omega
    | succ i =>
      simp only [List.getElem?_cons_succ] at h
      have := ih h
      simp only [List.eraseIdx_cons_succ, List.count_cons, List.count_nil] at this ⊢
      omega

theorem length_eraseIdx' {α : Type} {l : List α} {i : Nat} {a : α} (h : l[i]? = some a) : l.length = (l.eraseIdx i).length + 1 := by
  obtain ⟨hi, _⟩ := List.getElem?_eq_some_iff.1 h
  rw [List.length_eraseIdx_of_lt hi]
  omega

/-- Explanations stay valid when more is recorded. -/
theorem Explained.mono {c : Cfg} {e : Env} {s s' : State} {ent : W} {r : Int} (h : Explained c e s ent r) (h1 : ∀ p ∈ s.refused, p ∈ s'.refused)
    (h2 : ∀ y ∈ s.synced, y ∈ s'.synced) (h3 : ∀ y ∈ s.completed, y ∈ s'.completed) (h4 : ∀ y ∈ s.kept, y ∈ s'.kept)
    (h5 : ∀ y ∈ s.closed, y ∈ s'.closed) : Explained c e s' ent r := by
  rcases h with ⟨a, b, t, d⟩ | h | ⟨said, a, b⟩
  · exact .inl ⟨a, h1 _ b, t, d⟩
  · exact .inr (.inl (h2 _ h))
  · refine .inr (.inr ⟨said, h3 _ a, ?_⟩)
    unfold Answer at b ⊢
    by_cases hn : said < 0
    · rw [if_pos hn] at b ⊢; exact b
    · rw [if_neg hn] at b ⊢
      cases ho : c.op ent with
      | opendir =>
        rw [ho] at b
        rcases b with ⟨b1, b2, b3⟩ | ⟨b1, b2, b3⟩
        · exact .inl ⟨b1, b2, h4 _ b3⟩
        · exact .inr ⟨b1, b2, h5 _ b3⟩
      | _ => rw [ho] at b; exact b

/-- What a completion leaves alone. -/
structure Same (s s' : State) : Prop where
  sq : s'.sq = s.sq
  prepped : s'.prepped = s.prepped
  submitted : s'.submitted = s.submitted
  stop : s'.stop = s.stop
  pending : s'.pending = s.pending
  hand : s'.hand = s.hand

theorem Same.refl (s : State) : Same s s := ⟨rfl, rfl, rfl, rfl, rfl, rfl⟩
theorem Same.trans {a b c : State} (h : Same a b) (h' : Same b c) : Same a c :=
  ⟨h'.sq.trans h.sq, h'.prepped.trans h.prepped, h'.submitted.trans h.submitted, h'.stop.trans h.stop, h'.pending.trans h.pending, h'.hand.trans h.hand⟩

theorem completeAll_inv {c : Cfg} {e : Env} (l : List (Nat × Int)) : ∀ {s : State}, Inv c e [] s → Inv c e [] (s.completeAll l) ∧ Same s (s.completeAll l) ∧
    (s.completeAll l).seen = s.seen ∧ (s.completeAll l).ready = s.ready := by
  induction l with
  | nil => intro s h; exact ⟨h, .refl s, rfl, rfl⟩
  | cons y l ih =>
    intro s h
    obtain ⟨i, r⟩ := y
    unfold State.completeAll
    cases hf : s.flight[i]? with
    | none => dsimp only; exact ih h
    | some ent =>
      dsimp only
      have hlen := length_eraseIdx' hf
      have hi : Inv c e [] { s with flight := s.flight.eraseIdx i, cq := s.cq ++ [(ent, r)], completed := s.completed ++ [(ent, r)] } := by
        refine { inb := h.inb, out := h.out, prepped := h.prepped, submitted := ?_, space := h.space, bound := h.bound, once := ?_, ans := h.ans, ways := ?_,
                 kern := ?_, refusedOk := h.refusedOk, queuedOk := h.queuedOk, syncedOk := h.syncedOk, fds := ?_, cqOk := ?_, expl := ?_, orig := h.orig,
                 ret := h.ret, retStop := h.retStop }
        · have := h.submitted
          simp only [List.length_append, List.length_cons, List.length_nil]
          omega
        · intro p
          have h5 := h.once p
          have h6 := count_eraseIdx hf p
          simp only [List.map_append, List.count_append, List.map_cons, List.map_nil] at h5 ⊢
          omega
        · intro p
          have h5 := h.ways p
          have h6 := count_eraseIdx hf p
          simp only [List.map_append, List.count_append, List.map_cons, List.map_nil] at h5 ⊢
          omega
        · intro p
          have h5 := h.kern p
          have h6 := count_eraseIdx hf p
          simp only [List.map_append, List.count_append, List.map_cons, List.map_nil] at h5 ⊢
          omega
        · intro y
          have h5 := h.fds y
          simp only [List.filter_append, List.count_append] at h5 ⊢
          omega
        · intro y hy
          rcases List.mem_append.1 hy with hy | hy
          · exact List.mem_append_left _ (h.cqOk y hy)
          · exact List.mem_append_right _ hy
        · intro y hy
          exact (h.expl y hy).mono (fun _ h => h) (fun _ h => h) (fun _ h => List.mem_append_left _ h) (fun _ h => h) (fun _ h => h)
      obtain ⟨a1, a2, a3, a4⟩ := ih hi
      exact ⟨a1, ⟨a2.sq, a2.prepped, a2.submitted, a2.stop, a2.pending, a2.hand⟩, a3, a4⟩

theorem Inv.now {c : Cfg} {e : Env} {x : List (W × Int)} {s : State} (h : Inv c e x s) (t : Nat) : Inv c e x { s with now := t } :=
  { inb := h.inb, out := h.out, prepped := h.prepped, submitted := h.submitted, space := h.space, bound := h.bound, once := h.once, ans := h.ans, ways := h.ways,
    kern := h.kern, refusedOk := h.refusedOk, queuedOk := h.queuedOk, syncedOk := h.syncedOk, fds := h.fds, cqOk := h.cqOk, expl := h.expl, orig := h.orig,
    ret := h.ret, retStop := h.retStop }

theorem kernel_inv {c : Cfg} {e : Env} {s : State} (h : Inv c e [] s) : Inv c e [] (s.kernel e) ∧ Same s (s.kernel e) ∧ (s.kernel e).seen = s.seen ∧
    (s.kernel e).ready = s.ready := by
  obtain ⟨a1, a2, a3, a4⟩ := completeAll_inv (e.complete s.now) h
  exact ⟨a1.now _, ⟨a2.sq, a2.prepped, a2.submitted, a2.stop, a2.pending, a2.hand⟩, a3, a4⟩

/-! ## Reaping -/

/-- An entry leaves the completion queue, with an answer that can be explained. -/
theorem reap_pre {c : Cfg} {e : Env} {s : State} {ent : W} {said r : Int} {l : List (W × Int)} (h : Inv c e [] s) (hq : s.cq = (ent, said) :: l)
    (t : Nat) (k cl : List (W × Int)) (hk : ∀ y, ([(ent, said)].filter (isFd c)).count y = k.count y + cl.count y)
    (ha : Answer c e { s with cq := l, seen := s.seen + 1, now := t, kept := s.kept ++ k, closed := s.closed ++ cl } ent said r) :
    Inv c e [(ent, r)] { s with cq := l, seen := s.seen + 1, now := t, kept := s.kept ++ k, closed := s.closed ++ cl } := by
  refine { inb := h.inb, out := h.out, prepped := h.prepped, submitted := ?_, space := h.space, bound := h.bound, once := ?_, ans := h.ans, ways := ?_,
           kern := h.kern, refusedOk := h.refusedOk, queuedOk := h.queuedOk, syncedOk := h.syncedOk, fds := ?_, cqOk := ?_, expl := ?_, orig := h.orig,
           ret := h.ret, retStop := h.retStop }
  · have := h.submitted
    rw [hq, List.length_cons] at this
    dsimp only
    omega
  · intro p
    have h5 := h.once p
    rw [hq] at h5
    simp only [List.map_cons, List.map_nil, List.count_nil, List.count_cons] at h5 ⊢
    omega
  · intro p
    have h5 := h.ways p
    rw [hq] at h5
    simp only [List.map_cons, List.map_nil, List.count_nil, List.count_cons] at h5 ⊢
    omega
  · intro y
    have h5 := h.fds y
    have h6 := hk y
    rw [hq, show (ent, said) :: l = [(ent, said)] ++ l from rfl, List.filter_append, List.count_append] at h5
    simp only [List.count_append]
    omega
  · intro y hy
    exact h.cqOk y (by rw [hq]; exact List.mem_cons_of_mem _ hy)
  · intro y hy
    rcases List.mem_append.1 hy with hy | hy
    · exact (h.expl y (by simpa using hy)).mono (fun _ h => h) (fun _ h => h) (fun _ h => h) (fun _ h => List.mem_append_left _ h) (fun _ h => List.mem_append_left _ h)
    · have he : y = (ent, r) := by simpa using hy
      subst he
      exact .inr (.inr ⟨said, h.cqOk _ (by rw [hq]; exact List.mem_cons_self), ha⟩)

theorem reap_inv {c : Cfg} {e : Env} (hc : c.Good) {s : State} {ent : W} {said : Int} {l : List (W × Int)} (h : Inv c e [] s) (hq : s.cq = (ent, said) :: l) :
    ∃ s', reap c e { s with cq := l, seen := s.seen + 1 } ent said = .done s' ∧ Inv c e [] s' ∧ Same s s' ∧ s'.cq = l ∧ s'.seen = s.seen + 1 ∧
      s'.flight = s.flight := by
  have close : ∀ (t : Nat) (k cl : List (W × Int)) (r : Int), (∀ y, ([(ent, said)].filter (isFd c)).count y = k.count y + cl.count y) →
      Answer c e { s with cq := l, seen := s.seen + 1, now := t, kept := s.kept ++ k, closed := s.closed ++ cl } ent said r →
      ∃ s', { s with cq := l, seen := s.seen + 1, now := t, kept := s.kept ++ k, closed := s.closed ++ cl }.push c ent r = .done s' ∧ Inv c e [] s' ∧ Same s s' ∧
        s'.cq = l ∧ s'.seen = s.seen + 1 ∧ s'.flight = s.flight := by
    intro t k cl r hk ha
    obtain ⟨s', h1, h2, h3, h4, h5, h6, h7, h8, h9, h10, h11, h12⟩ := push_inv hc (reap_pre h hq t k cl hk ha)
    exact ⟨s', h1, h2, ⟨h3, h6, h7, h10, h11, h9⟩, h5, h8, h4⟩
  unfold reap
  by_cases hn : said < 0
  · rw [if_pos hn]
    have hk : ∀ y, ([(ent, said)].filter (isFd c)).count y = ([] : List (W × Int)).count y + ([] : List (W × Int)).count y := by
      intro y
      have : isFd c (ent, said) = false := by
        unfold isFd; simp; intro _; omega
      simp [this]
    have := close s.now [] [] said hk (by unfold Answer; rw [if_pos hn])
    simpa only [List.append_nil] using this
  · rw [if_neg hn]
    have hnil : c.op ent ≠ .opendir → ∀ y, ([(ent, said)].filter (isFd c)).count y = ([] : List (W × Int)).count y + ([] : List (W × Int)).count y := by
      intro ho y
      have : isFd c (ent, said) = false := by
        unfold isFd; simp [ho]
      simp [this]
    cases ho : c.op ent with
    | opendir =>
      dsimp only
      have hfd : [(ent, said)].filter (isFd c) = [(ent, said)] := by
        have : isFd c (ent, said) = true := by unfold isFd; simp [ho]; omega
        simp [this]
      unfold reapOpendir
      by_cases hx : checkCancel c e { s with cq := l, seen := s.seen + 1 } ent = true
      · rw [if_pos hx]
        have := close (s.now + 1) [] [(ent, said)] (-EINTR) (by intro y; rw [hfd]; simp)
          (by unfold Answer; rw [if_neg hn, ho]; refine .inr ⟨by decide, .inl rfl, ?_⟩; exact List.mem_append_right _ List.mem_cons_self)
        simpa only [List.append_nil] using this
      · rw [if_neg hx]
        dsimp only
        by_cases hr : 0 ≤ e.result s.now
        · rw [if_pos hr]
          have := close (s.now + 1) [(ent, said)] [] (e.result s.now) (by intro y; rw [hfd]; simp)
            (by unfold Answer; rw [if_neg hn, ho]; refine .inl ⟨hr, ⟨_, rfl⟩, ?_⟩; exact List.mem_append_right _ List.mem_cons_self)
          simpa only [List.append_nil] using this
        · rw [if_neg hr]
          have := close (s.now + 1) [] [(ent, said)] (e.result s.now) (by intro y; rw [hfd]; simp)
            (by unfold Answer; rw [if_neg hn, ho]; refine .inr ⟨by omega, .inr ⟨_, rfl⟩, ?_⟩; exact List.mem_append_right _ List.mem_cons_self)
          simpa only [List.append_nil] using this
    | stat =>
      dsimp only
      by_cases hu : c.useStatx = true
      · rw [if_pos hu]
        have := close (s.now + 1) [] [] (e.result s.now) (hnil (by rw [ho]; decide)) (by unfold Answer; rw [if_neg hn, ho]; dsimp only; rw [if_pos hu]; exact ⟨_, rfl⟩)
        simpa only [List.append_nil] using this
      · rw [if_neg hu]
        have := close s.now [] [] said (hnil (by rw [ho]; decide)) (by unfold Answer; rw [if_neg hn, ho]; dsimp only; rw [if_neg hu])
        simpa only [List.append_nil] using this
    | nop v =>
      have := close s.now [] [] said (hnil (by rw [ho]; exact fun h => by cases h)) (by unfold Answer; rw [if_neg hn, ho])
      simpa only [List.append_nil] using this
    | close =>
      have := close s.now [] [] said (hnil (by rw [ho]; decide)) (by unfold Answer; rw [if_neg hn, ho])
      simpa only [List.append_nil] using this
    | closedir =>
      have := close s.now [] [] said (hnil (by rw [ho]; decide)) (by unfold Answer; rw [if_neg hn, ho])
      simpa only [List.append_nil] using this

theorem reapAll_inv {c : Cfg} {e : Env} (hc : c.Good) (l : List (W × Int)) : ∀ {s : State}, Inv c e [] s → s.cq = l →
    ∃ s', reapAll c e l s = .done s' ∧ Inv c e [] s' ∧ Same s s' ∧ s'.cq = [] ∧ s'.seen = s.seen + l.length ∧ s'.flight = s.flight := by
  induction l with
  | nil => intro s h hq; exact ⟨s, rfl, h, .refl s, hq, by simp, rfl⟩
  | cons y l ih =>
    intro s h hq
    obtain ⟨ent, said⟩ := y
    obtain ⟨s1, a1, a2, a3, a4, a5, a6⟩ := reap_inv hc h hq
    obtain ⟨s2, b1, b2, b3, b4, b5, b6⟩ := ih a2 a4
    refine ⟨s2, ?_, b2, a3.trans b3, b4, ?_, b6.trans a6⟩
    · unfold reapAll; rw [a1]; exact b1
    · rw [b5, a5, List.length_cons]; omega

end Verif.Uring
