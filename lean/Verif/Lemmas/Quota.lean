import Verif.Props.Search
import Verif.Lemmas.IdsFree
import Verif.Lemmas.OptEval
import Verif.Spec.Quota

namespace Verif.Quota
open Verif.Bftw Verif.Main Verif.Props

variable {T W V : Type}

/-! ## Evaluation -/

mutual
/-- Invariants of the evaluation. -/
theorem eval_inv {sem : Opt.Leaf → V → Opt.Res V} (I J : V → Prop)
    (h : ∀ l w, I w → ((sem l w).q = false → I (sem l w).w) ∧ ((sem l w).q = true → J (sem l w).w)) :
    ∀ (x : Opt.Expr T) (w : V), I w →
      ((Opt.eval sem x w).q = false → I (Opt.eval sem x w).w) ∧ ((Opt.eval sem x w).q = true → J (Opt.eval sem x w).w)
  | .leaf a l, w, hw => by
    rw [Opt.eval_leaf]
    exact h l w hw
  | .node a o cs, w, hw => by
    rw [Opt.eval_node]
    exact evalOp_inv I J h cs o w hw
theorem evalOp_inv {sem : Opt.Leaf → V → Opt.Res V} (I J : V → Prop)
    (h : ∀ l w, I w → ((sem l w).q = false → I (sem l w).w) ∧ ((sem l w).q = true → J (sem l w).w)) :
    ∀ (cs : List (Opt.Expr T)) (o : Opt.Op) (w : V), I w →
      ((Opt.evalOp o (Opt.evals sem cs) w).q = false → I (Opt.evalOp o (Opt.evals sem cs) w).w) ∧
      ((Opt.evalOp o (Opt.evals sem cs) w).q = true → J (Opt.evalOp o (Opt.evals sem cs) w).w)
  | [], o, w, hw => by
    rw [Opt.evals_nil]
    cases o <;> exact ⟨fun _ => hw, fun hh => by cases hh⟩
  | c :: cs, o, w, hw => by
    have hc := eval_inv I J h c w hw
    rw [Opt.evals_cons]
    cases o with
    | not => exact hc
    | and =>
      show ((Opt.evalAnd _ w).q = false → I (Opt.evalAnd _ w).w) ∧ ((Opt.evalAnd _ w).q = true → J (Opt.evalAnd _ w).w)
      rw [Opt.evalAnd]
      split
      · exact hc
      · rename_i hh
        have hq : (Opt.eval sem c w).q = false := by
          cases hq : (Opt.eval sem c w).q <;> simp_all
        exact evalOp_inv I J h cs .and _ (hc.1 hq)
    | or =>
      show ((Opt.evalOr _ w).q = false → I (Opt.evalOr _ w).w) ∧ ((Opt.evalOr _ w).q = true → J (Opt.evalOr _ w).w)
      rw [Opt.evalOr]
      split
      · exact hc
      · rename_i hh
        have hq : (Opt.eval sem c w).q = false := by
          cases hq : (Opt.eval sem c w).q <;> simp_all
        exact evalOp_inv I J h cs .or _ (hc.1 hq)
    | comma =>
      show ((Opt.evalComma _ w).q = false → I (Opt.evalComma _ w).w) ∧ ((Opt.evalComma _ w).q = true → J (Opt.evalComma _ w).w)
      cases cs with
      | nil => exact hc
      | cons d ds =>
        rw [Opt.evals_cons, Opt.evalComma]
        · split
          · exact hc
          · rename_i hh
            have hq : (Opt.eval sem c w).q = false := by simpa using hh
            have := evalOp_inv I J h (d :: ds) .comma _ (hc.1 hq)
            rw [Opt.evals_cons] at this
            exact this
        · simp
end

theorem evalComma_cons2 (c d : V → Opt.Res V) (cs : List (V → Opt.Res V)) (w : V) :
    Opt.evalComma (c :: d :: cs) w = if (c w).q then c w else Opt.evalComma (d :: cs) (c w).w := rfl

mutual
/-- Primaries that only differ when they end the search. -/
theorem eval_same {sem sem' : Opt.Leaf → V → Opt.Res V} (h : ∀ l w, (sem l w).q = false → sem' l w = sem l w) :
    ∀ (x : Opt.Expr T) (w : V), (Opt.eval sem x w).q = false → Opt.eval sem' x w = Opt.eval sem x w
  | .leaf a l, w, hw => by
    rw [Opt.eval_leaf] at hw ⊢
    rw [Opt.eval_leaf]
    exact h l w hw
  | .node a o cs, w, hw => by
    rw [Opt.eval_node] at hw ⊢
    rw [Opt.eval_node]
    exact evalOp_same h cs o w hw
theorem evalOp_same {sem sem' : Opt.Leaf → V → Opt.Res V} (h : ∀ l w, (sem l w).q = false → sem' l w = sem l w) :
    ∀ (cs : List (Opt.Expr T)) (o : Opt.Op) (w : V), (Opt.evalOp o (Opt.evals sem cs) w).q = false →
      Opt.evalOp o (Opt.evals sem' cs) w = Opt.evalOp o (Opt.evals sem cs) w
  | [], o, w, hw => by
    rw [Opt.evals_nil, Opt.evals_nil]
  | c :: cs, o, w, hw => by
    have hc := eval_same h c w
    rw [Opt.evals_cons] at hw ⊢
    rw [Opt.evals_cons]
    cases o with
    | not =>
      have := hc hw
      show ({ Opt.eval sem' c w with r := !(Opt.eval sem' c w).r } : Opt.Res V) = _
      rw [this]
      rfl
    | and =>
      change (Opt.evalAnd _ w).q = false at hw
      show Opt.evalAnd _ w = Opt.evalAnd _ w
      rw [Opt.evalAnd] at hw
      rw [Opt.evalAnd, Opt.evalAnd]
      by_cases hh : (!(Opt.eval sem c w).r || (Opt.eval sem c w).q) = true
      · rw [if_pos hh] at hw
        rw [hc hw]
        simp only [if_pos hh]
      · rw [if_neg hh] at hw
        have hq : (Opt.eval sem c w).q = false := by
          cases hq : (Opt.eval sem c w).q <;> simp_all
        rw [hc hq]
        simp only [if_neg hh]
        exact evalOp_same h cs .and _ hw
    | or =>
      change (Opt.evalOr _ w).q = false at hw
      show Opt.evalOr _ w = Opt.evalOr _ w
      rw [Opt.evalOr] at hw
      rw [Opt.evalOr, Opt.evalOr]
      by_cases hh : ((Opt.eval sem c w).r || (Opt.eval sem c w).q) = true
      · rw [if_pos hh] at hw
        rw [hc hw]
        simp only [if_pos hh]
      · rw [if_neg hh] at hw
        have hq : (Opt.eval sem c w).q = false := by
          cases hq : (Opt.eval sem c w).q <;> simp_all
        rw [hc hq]
        simp only [if_neg hh]
        exact evalOp_same h cs .or _ hw
    | comma =>
      change (Opt.evalComma _ w).q = false at hw
      show Opt.evalComma _ w = Opt.evalComma _ w
      cases cs with
      | nil =>
        rw [Opt.evals_nil] at hw ⊢
        exact hc hw
      | cons d ds =>
        have ih := evalOp_same h (d :: ds) .comma
        rw [Opt.evals_cons] at hw ⊢
        rw [Opt.evals_cons]
        rw [Opt.evals_cons, Opt.evals_cons] at ih
        rw [evalComma_cons2] at hw
        rw [evalComma_cons2, evalComma_cons2]
        by_cases hq : (Opt.eval sem c w).q = true
        · rw [if_pos hq] at hw
          rw [hq] at hw
          cases hw
        · rw [if_neg hq] at hw
          have hq' : (Opt.eval sem c w).q = false := by simpa using hq
          rw [hc hq']
          simp only [if_neg hq]
          exact ih _ hw
end

/-! ## A search with memory is like one without, afterwards -/

theorem verdict_congr (c : Cfg) (f g : Pos → Action) {e : Env} {tr : List Event} {v : Visit} {p : Pos}
    {path : Bytes} (h : (({ c with expr := f } : Cfg).verdict e tr v p path).evaluated = true → g p = f p) :
    ({ c with expr := g } : Cfg).verdict e tr v p path = ({ c with expr := f } : Cfg).verdict e tr v p path := by
  revert h
  unfold Cfg.verdict Cfg.examine Cfg.evaluate Cfg.failed Cfg.expected Cfg.seen
  dsimp only
  repeat' split
  all_goals first
    | (intro _; rfl)
    | (intro h; have := h rfl; simp_all)

theorem verdict_evaluated_congr (c : Cfg) (f : Pos → Action) (e : Env) (tr : List Event) (v : Visit) (p : Pos) (path : Bytes) :
    (({ c with expr := f } : Cfg).verdict e tr v p path).evaluated = (c.verdict e tr v p path).evaluated := by
  unfold Cfg.verdict Cfg.examine Cfg.evaluate Cfg.failed Cfg.expected Cfg.seen
  dsimp only
  repeat' split
  all_goals rfl

variable {q : Search T W} {e : Env} {tr : List Event}

theorem evaluated_eq (f : Pos → Action) (tr : List Event) :
    q.evaluated e tr = ({ q.cfg with expr := f } : Cfg).evaluations e tr := by
  induction tr with
  | nil => rfl
  | cons ev tr ih =>
    rw [evaluations_cons, ← ih]
    show (if _ then _ else _) = _
    have : (q.verdict e (q.world e tr) tr ev.visit ev.pos ev.path).evaluated =
        (({ q.cfg with expr := f } : Cfg).verdict e tr ev.visit ev.pos ev.path).evaluated := by
      unfold Search.verdict Search.now
      rw [verdict_evaluated_congr q.cfg _, verdict_evaluated_congr q.cfg f]
    rw [this]

theorem quota_fullPath (q : Search T W) (e : Env) (p : Pos) : (q.env e).fullPath p = e.fullPath p := by
  induction p with
  | nil => rfl
  | cons j p ih =>
    cases p with
    | nil => rfl
    | cons i p => show join _ _ = join _ _; rw [ih]; rfl

theorem quota_path (h : Orderly (q.env e) tr) : ∀ ev ∈ tr, ev.path = e.fullPath ev.pos := by
  intro ev hev
  rw [h.path ev hev, quota_fullPath]

/-- Was the expression evaluated at this call? -/
def Search.hit (q : Search T W) (e : Env) (tr : List Event) (ev : Event) : Bool :=
  (q.verdict e (q.world e tr) tr ev.visit ev.pos ev.path).evaluated

theorem hit_expected {ev : Event} (h : q.hit e tr ev = true) : ev.visit = q.cfg.expected e ev.pos := by
  unfold Search.hit Search.verdict Search.now at h
  rw [verdict_evaluated_congr] at h
  revert h
  unfold Cfg.verdict Cfg.examine Cfg.evaluate Cfg.failed
  dsimp only
  repeat' split
  all_goals first
    | (intro h; cases h; done)
    | (intro _; simp_all; done)

/-- No file is evaluated twice. -/
theorem hit_once (h : Orderly (q.env e) tr) {l m r : List Event} {x y : Event}
    (ht : tr = l ++ x :: (m ++ y :: r)) (hx : q.hit e (m ++ y :: r) x = true) (hy : q.hit e r y = true) :
    x.pos ≠ y.pos := by
  intro heq
  have h1 := hit_expected hx
  have h2 := hit_expected hy
  have hv : y.visit = x.visit := by rw [h1, h2, heq]
  have := h.once x.visit (by rw [h1]; unfold Cfg.expected; split <;> simp)
  rw [ht, visits_append, visits_cons, if_pos rfl, visits_append, visits_cons, if_pos hv, heq] at this
  exact (List.nodup_cons.1 (List.nodup_append.1 this).2.1).1 (by simp)

theorem said_at (h : Orderly (q.env e) tr) {l r : List Event} {ev : Event} (ht : tr = l ++ ev :: r)
    (hev : q.hit e r ev = true) : q.said e tr ev.pos = (q.evaluate ev.pos ev.path (q.world e r)).w.action := by
  have key : ∀ l' l'', tr = l'' ++ (l' ++ ev :: r) →
      q.said e (l' ++ ev :: r) ev.pos = (q.evaluate ev.pos ev.path (q.world e r)).w.action := by
    intro l'
    induction l' with
    | nil =>
      intro l'' _
      show (if _ then _ else _) = _
      rw [if_pos ⟨hev, rfl⟩]
    | cons x l' ih =>
      intro l'' ht
      show (if _ then _ else _) = _
      rw [if_neg]
      · exact ih (l'' ++ [x]) (by rw [ht]; simp)
      · rintro ⟨h1, h2⟩
        exact hit_once h (l := l'') (x := x) (m := l') (y := ev) (r := r) (by rw [ht]; simp) h1 hev h2
  rw [ht]
  exact key l [] (by rw [ht]; rfl)

/-- Looking back, the search is one without memory. -/
theorem frozen_agrees (h : Orderly (q.env e) tr) : Agrees (q.env e) ((q.frozen e tr).env e).callback tr := by
  intro l ev r ht
  show ((q.frozen e tr).verdict e r ev.visit ev.pos ev.path).action = ((q.now (q.world e r) ev.path).verdict e r ev.visit ev.pos ev.path).action
  unfold Search.frozen Search.now
  rw [verdict_congr q.cfg (fun p => (q.evaluate p ev.path (q.world e r)).w.action) (q.said e tr)]
  intro hh
  exact said_at h ht hh

theorem frozen_walked (hN : e.Named) (hE : ∀ p, e.error p = true → e.isDir p = false) {complete : Bool} (h : Walked (q.env e) tr complete) :
    Walked ((q.frozen e tr).env e) tr complete :=
  walked_with (e := q.env e) h (frozen_agrees (walked_orderly (e := q.env e) hN hE h))

theorem frozen_evaluations (tr' : List Event) : (q.frozen e tr).evaluations e tr' = q.evaluated e tr' :=
  (evaluated_eq _ _).symm

/-! ## Counting -/

theorem toLongLong_small {n : Nat} (h : n < 2 ^ 63) : toLongLong n = n := by
  unfold toLongLong
  rw [Int.bmod_def]
  omega

/-- No limit has been reached. -/
def Primaries.Open (S : Primaries W) (w : World W) : Prop :=
  ∀ i n, S.num i = some n → times (limitLeaf i) w.log = w.evaluations i ∧ (w.evaluations i : Int) < n

/-- The search has been ended by the evaluation of something on `p`. -/
structure Primaries.Ended (S : Primaries W) (p : Pos) (w : World W) : Prop where
  stop : w.action = .stop
  counts : ∀ i n, S.num i = some n → times (limitLeaf i) w.log = w.evaluations i ∧ (w.evaluations i : Int) ≤ n
  last : ∀ i n, S.num i = some n → (w.evaluations i : Int) = n → ∃ log, w.log = (p, limitLeaf i) :: log
  cause : ∃ l log, w.log = (p, l) :: log ∧
    ((∃ i n, l = limitLeaf i ∧ S.num i = some n ∧ (w.evaluations i : Int) = n) ∨ S.limit l = none)

theorem times_cons (l : Opt.Leaf) (x : Pos × Opt.Leaf) (log : List (Pos × Opt.Leaf)) :
    times l (x :: log) = (if x.2 = l then 1 else 0) + times l log := by
  unfold times
  rw [List.filter_cons]
  by_cases h : x.2 = l
  · simp [h]; omega
  · simp [h]

theorem limit_some {S : Primaries W} {l : Opt.Leaf} {i : Nat} {n : Int} (h : S.limit l = some (i, n)) :
    l = limitLeaf i ∧ S.num i = some n := by
  unfold Primaries.limit at h
  split at h
  · rename_i j
    cases hj : S.num j with
    | none => rw [hj] at h; cases h
    | some m =>
      rw [hj] at h
      simp only [Option.map_some, Option.some.injEq, Prod.mk.injEq] at h
      obtain ⟨h1, h2⟩ := h
      subst h1
      subst h2
      exact ⟨rfl, hj⟩
  · cases h

theorem limit_none {S : Primaries W} {l : Opt.Leaf} (h : S.limit l = none) {i : Nat} {n : Int} (hn : S.num i = some n) :
    l ≠ limitLeaf i := by
  rintro rfl
  unfold Primaries.limit limitLeaf at h
  simp [hn] at h

theorem small_of {m : Nat} {n : Int} (h1 : (m : Int) < n) (h2 : n < 2 ^ 63) : m + 1 < 2 ^ 63 := by omega

/-- After a limit has been evaluated. -/
def bumped (p : Pos) (i : Nat) (a : Action) (w : World W) : World W :=
  ⟨fun j => if j = i then w.evaluations i + 1 else w.evaluations j, a, (p, limitLeaf i) :: w.log, w.rest⟩

theorem reached_small {n : Int} {m : Nat} (h : m + 1 < 2 ^ 63) : reached n m = decide (((m + 1 : Nat) : Int) ≥ n) := by
  unfold reached
  rw [toLongLong_small h]

theorem evalLimit_small {w : World W} {n : Int} {i : Nat} (h : w.evaluations i + 1 < 2 ^ 63) :
    evalLimit n i w = if ((w.evaluations i + 1 : Nat) : Int) ≥ n then ⟨true, true, { w with action := .stop }⟩ else ⟨true, false, w⟩ := by
  unfold evalLimit
  rw [reached_small h]
  by_cases hh : ((w.evaluations i + 1 : Nat) : Int) ≥ n
  · rw [if_pos hh, decide_eq_true hh]; rfl
  · rw [if_neg hh, decide_eq_false hh]; rfl

theorem note_evaluations (w : World W) (p : Pos) (l : Opt.Leaf) : (w.note p l).evaluations = w.evaluations := by
  cases l <;> rfl

theorem leaf_limit' {S : Primaries W} {l : Opt.Leaf} {i : Nat} {n : Int} (hl : S.limit l = some (i, n)) (w : World W)
    (p : Pos) (path : Bytes) :
    S.leaf p path l w = ⟨(evalLimit n i (w.note p l)).r, (evalLimit n i (w.note p l)).q, (evalLimit n i (w.note p l)).w.count i⟩ := by
  unfold Primaries.leaf
  rw [hl]

theorem leaf_other {S : Primaries W} {l : Opt.Leaf} (hl : S.limit l = none) (w : World W) (p : Pos) (path : Bytes) :
    S.leaf p path l w = S.others p path l (w.note p l) := by
  unfold Primaries.leaf
  rw [hl]

theorem leaf_limit {S : Primaries W} {l : Opt.Leaf} {i : Nat} {n : Int} (hl : S.limit l = some (i, n)) {w : World W}
    (h : w.evaluations i + 1 < 2 ^ 63) (p : Pos) (path : Bytes) :
    S.leaf p path l w = if ((w.evaluations i + 1 : Nat) : Int) ≥ n then ⟨true, true, bumped p i .stop w⟩
      else ⟨true, false, bumped p i w.action w⟩ := by
  obtain ⟨rfl, _⟩ := limit_some hl
  unfold Primaries.leaf
  rw [hl]
  dsimp only
  rw [evalLimit_small (by rw [note_evaluations]; exact h), note_evaluations]
  split <;> rfl

theorem leaf_step {S : Primaries W} (hS : S.Laws) (hV : S.Valid) (p : Pos) (path : Bytes) (l : Opt.Leaf) (w : World W)
    (h : w.action ≠ .stop ∧ S.Open w) :
    ((S.leaf p path l w).q = false → (S.leaf p path l w).w.action ≠ .stop ∧ S.Open (S.leaf p path l w).w) ∧
    ((S.leaf p path l w).q = true → S.Ended p (S.leaf p path l w).w) := by
  cases hl : S.limit l with
  | some x =>
    obtain ⟨i, n⟩ := x
    obtain ⟨rfl, hn⟩ := limit_some hl
    obtain ⟨h1, h2⟩ := h.2 i n hn
    have other : ∀ j m, S.num j = some m → j ≠ i → times (limitLeaf j) ((p, limitLeaf i) :: w.log) = times (limitLeaf j) w.log := by
      intro j m _ hj
      rw [times_cons, if_neg]
      · omega
      · simp [limitLeaf]; omega
    have same : times (limitLeaf i) ((p, limitLeaf i) :: w.log) = w.evaluations i + 1 := by
      rw [times_cons, if_pos rfl, h1]; omega
    rw [leaf_limit hl (small_of h2 (hV i n hn).2)]
    by_cases hge : ((w.evaluations i + 1 : Nat) : Int) ≥ n
    · rw [if_pos hge]
      refine ⟨fun hh => (by cases hh), fun _ => ⟨rfl, ?_, ?_, ?_⟩⟩
      · intro j m hm
        show times (limitLeaf j) ((p, limitLeaf i) :: w.log) = (if j = i then w.evaluations i + 1 else w.evaluations j) ∧
          (((if j = i then w.evaluations i + 1 else w.evaluations j : Nat) : Int) ≤ m)
        by_cases hj : j = i
        · subst hj
          rw [hn] at hm
          cases hm
          rw [if_pos rfl, same]
          exact ⟨rfl, by omega⟩
        · rw [if_neg hj, other j m hm hj]
          obtain ⟨a, b⟩ := h.2 j m hm
          exact ⟨a, by omega⟩
      · intro j m hm hx
        change ((if j = i then w.evaluations i + 1 else w.evaluations j : Nat) : Int) = m at hx
        by_cases hj : j = i
        · subst hj
          exact ⟨w.log, rfl⟩
        · rw [if_neg hj] at hx
          have := (h.2 j m hm).2
          omega
      · refine ⟨limitLeaf i, w.log, rfl, Or.inl ⟨i, n, rfl, hn, ?_⟩⟩
        show ((if i = i then w.evaluations i + 1 else w.evaluations i : Nat) : Int) = n
        rw [if_pos rfl]
        omega
    · rw [if_neg hge]
      refine ⟨fun _ => ⟨h.1, ?_⟩, fun hh => (by cases hh)⟩
      intro j m hm
      show times (limitLeaf j) ((p, limitLeaf i) :: w.log) = (if j = i then w.evaluations i + 1 else w.evaluations j) ∧
        (((if j = i then w.evaluations i + 1 else w.evaluations j : Nat) : Int) < m)
      by_cases hj : j = i
      · subst hj
        rw [hn] at hm
        cases hm
        rw [if_pos rfl, same]
        exact ⟨rfl, by omega⟩
      · rw [if_neg hj, other j m hm hj]
        exact h.2 j m hm
  | none =>
    have heq : S.leaf p path l w = S.others p path l (w.note p l) := by
      unfold Primaries.leaf
      rw [hl]
    rw [heq]
    clear heq
    have hact : ∀ l', (w.note p l').action = w.action := by intro l'; cases l' <;> rfl
    have hrest : ∀ l', (w.note p l').rest = w.rest := by intro l'; cases l' <;> rfl
    have hev : ∀ l', (w.note p l').evaluations = w.evaluations := by intro l'; cases l' <;> rfl
    have hlog : ∀ i n, S.num i = some n → times (limitLeaf i) (w.note p l).log = times (limitLeaf i) w.log := by
      intro i n hn
      have hne := limit_none hl hn
      cases l with
      | action k j =>
        show times (limitLeaf i) ((p, .action k j) :: w.log) = _
        rw [times_cons, if_neg hne]
        omega
      | _ => rfl
    unfold Primaries.others
    dsimp only
    have hst := hS.stops p path l ((w.note p l).action, (w.note p l).rest) (by rw [hact]; exact h.1)
    refine ⟨fun hq => ⟨?_, ?_⟩, fun hq => ⟨hst.2 hq, ?_, ?_, ?_⟩⟩
    · intro hh
      rw [hst.1 hh] at hq
      cases hq
    · intro i n hn
      show times (limitLeaf i) (w.note p l).log = (w.note p l).evaluations i ∧ ((w.note p l).evaluations i : Int) < n
      rw [hlog i n hn, hev]
      exact h.2 i n hn
    · intro i n hn
      show times (limitLeaf i) (w.note p l).log = (w.note p l).evaluations i ∧ ((w.note p l).evaluations i : Int) ≤ n
      rw [hlog i n hn, hev]
      obtain ⟨a, b⟩ := h.2 i n hn
      exact ⟨a, by omega⟩
    · intro i n hn hx
      change ((w.note p l).evaluations i : Int) = n at hx
      rw [hev] at hx
      have := (h.2 i n hn).2
      omega
    · cases l with
      | action k j => exact ⟨.action k j, w.log, rfl, Or.inr hl⟩
      | _ =>
        rw [hS.tests _ _ _ _ (by simp)] at hq
        cases hq

theorem verdict_stop {c : Cfg} {tr : List Event} {v : Visit} {p : Pos} {path : Bytes} :
    (c.verdict e tr v p path).action = .stop ↔ (c.verdict e tr v p path).evaluated = true ∧ c.expr p = .stop := by
  unfold Cfg.verdict Cfg.examine Cfg.evaluate Cfg.failed
  dsimp only
  repeat' split
  all_goals simp_all

theorem callback_stop {ev : Event} :
    (q.env e).callback tr ev.visit ev.pos ev.path = .stop ↔
      q.hit e tr ev = true ∧ (q.evaluate ev.pos ev.path (q.world e tr)).w.action = .stop :=
  verdict_stop

theorem world_cons (tr : List Event) (ev : Event) :
    q.world e (ev :: tr) = if q.hit e tr ev then (q.evaluate ev.pos ev.path (q.world e tr)).w else q.world e tr := rfl

theorem evaluate_inv (hS : q.prims.Laws) (hV : q.prims.Valid) (p : Pos) (path : Bytes) (w : World W) (h : q.prims.Open w) :
    ((q.evaluate p path w).q = false → (q.evaluate p path w).w.action ≠ .stop ∧ q.prims.Open (q.evaluate p path w).w) ∧
    ((q.evaluate p path w).q = true → q.prims.Ended p (q.evaluate p path w).w) :=
  eval_inv (sem := q.prims.leaf p path) (fun w : World W => w.action ≠ .stop ∧ q.prims.Open w) (q.prims.Ended p)
    (fun l w hw => leaf_step hS hV p path l w hw) q.expr { w with action := .cont } ⟨by simp, h⟩

/-- As long as the search goes on, no limit has been reached. -/
theorem world_open (hS : q.prims.Laws) (hV : q.prims.Valid) (h : Orderly (q.env e) tr) :
    ∀ r l, tr = l ++ r → (∀ ev ∈ r, ev.action ≠ .stop) → q.prims.Open (q.world e r)
  | [], _, _, _ => by
    intro i n hn
    exact ⟨rfl, by have := (hV i n hn).1; show (0 : Int) < n; omega⟩
  | ev :: r, l, ht, hns => by
    have ih := world_open hS hV h r (l ++ [ev]) (by rw [ht]; simp) (fun x hx => hns x (List.mem_cons_of_mem _ hx))
    rw [world_cons]
    split
    · rename_i hh
      have hd := h.answer ht
      have hi := evaluate_inv hS hV ev.pos ev.path _ ih
      cases hq : (q.evaluate ev.pos ev.path (q.world e r)).q with
      | false => exact (hi.1 hq).2
      | true => exact absurd (hd.2 (callback_stop.2 ⟨hh, (hi.2 hq).stop⟩)) (hns ev List.mem_cons_self)
    · exact ih

theorem world_ended (hS : q.prims.Laws) (hV : q.prims.Valid) (h : Orderly (q.env e) tr) {ev : Event}
    {r : List Event} (ht : tr = ev :: r) (ha : ev.action = .stop) :
    q.hit e r ev = true ∧ q.prims.Ended ev.pos (q.world e tr) := by
  have ho := world_open hS hV h r [ev] (by rw [ht]; rfl) (h.last (l := []) ht)
  have hd := h.answer (l := []) ht
  obtain ⟨h1, h2⟩ := callback_stop.1 (hd.1 ha)
  refine ⟨h1, ?_⟩
  rw [ht, world_cons, if_pos h1]
  have hi := evaluate_inv hS hV ev.pos ev.path _ ho
  cases hq : (q.evaluate ev.pos ev.path (q.world e r)).q with
  | false => exact absurd h2 (hi.1 hq).1
  | true => exact hi.2 hq

/-- Either the search was ended by the last evaluation, or it goes on. -/
theorem world_cases (hS : q.prims.Laws) (hV : q.prims.Valid) (h : Orderly (q.env e) tr) :
    ((∀ ev ∈ tr, ev.action ≠ .stop) ∧ q.prims.Open (q.world e tr)) ∨
    (∃ ev r, tr = ev :: r ∧ ev.action = .stop ∧ q.hit e r ev = true ∧
      q.prims.Ended ev.pos (q.world e tr)) := by
  cases ht : tr with
  | nil =>
    left
    exact ⟨by simp, world_open hS hV h [] [] (by rw [ht]; rfl) (by simp)⟩
  | cons ev r =>
    by_cases ha : ev.action = .stop
    · right
      obtain ⟨h1, h2⟩ := world_ended hS hV h ht ha
      rw [ht] at h2
      exact ⟨ev, r, rfl, ha, h1, h2⟩
    · left
      have hall : ∀ x ∈ ev :: r, x.action ≠ .stop := by
        intro x hx
        rcases List.mem_cons.1 hx with rfl | hx
        · exact ha
        · exact h.last (l := []) ht x hx
      exact ⟨hall, world_open hS hV h (ev :: r) [] ht hall⟩

end Verif.Quota
