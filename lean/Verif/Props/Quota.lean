import Verif.Lemmas.Quota
import Verif.Lemmas.OptLoop
import Verif.Props.Num

/-!
# C91: `-limit N` ends the search at its Nth evaluation; C70 for expressions that remember
-/
namespace Verif.Props
open Verif Verif.Bftw Verif.Main Verif.Quota

variable {T W : Type} {q : Search T W} {e : Env} {tr : List Event} {complete : Bool}

/-! ## C70, for expressions that remember what happened before -/

theorem enters_mono {c1 c2 : Cfg} (h : c2 = { c1 with expr := c2.expr }) (hx : ∀ p, c2.expr p = .cont) {p : Pos}
    (he : c1.Enters e p) : c2.Enters e p := by
  obtain ⟨h1, h2, h3, h4, h5, _⟩ := he
  refine ⟨h1, ?_, ?_, h4, h5, fun _ _ => hx p⟩
  · rw [h]; exact h2
  · rw [h]; exact h3

theorem frozen_found {p : Pos} (h : Found e ((q.frozen e tr).Enters e) p) : Found e (q.plain.Enters e) p :=
  found_mono (fun _ _ hh => enters_mono (c1 := q.frozen e tr) (c2 := q.plain) rfl (fun _ => rfl) hh) h

theorem frozen_distinct (h : q.plain.Distinct e) : (q.frozen e tr).Distinct e :=
  fun x y hx hy => h x y (frozen_found hx) (frozen_found hy)

theorem frozen_sane (hs : q.cfg.Sane) : (q.frozen e tr).Sane := ⟨hs.min0, hs.min1, hs.max0, hs.max1⟩

/-- **C70 (with memory).** At any time, with every search strategy, the expression has been evaluated at most
once on each file, even if what it does depends on earlier evaluations. -/
theorem C70_memory_once (hs : q.cfg.Sane) (hN : e.Named) (hE : ∀ p, e.error p = true → e.isDir p = false)
    (h : Walked (q.env e) tr complete) : (q.evaluated e tr).Nodup := by
  have ho := walked_orderly (e := q.env e) hN hE h
  rw [← frozen_evaluations (tr := tr)]
  refine evaluations_nodup (frozen_sane hs) (quota_path ho) fun p => ho.once _ ?_
  rcases expected_cases (q.frozen e tr) e p with hx | hx <;> rw [hx] <;> simp

/-- **C70 (with memory), partial.** It has only been evaluated on files that it should be evaluated on, given
what it said about directories (with `-prune`) when it was evaluated on them, and in the right order.

Missing: `-unique`; deepening with roots under which different files have the same paths, or with
`-xdev -depth`. -/
theorem C70_memory_sound_partial (hs : q.cfg.Sane) (hu : q.cfg.unique = false) (hN : e.Named)
    (hE : ∀ p, e.error p = true → e.isDir p = false) (hD : q.Apart e) (h : Walked (q.env e) tr complete) :
    (∀ p ∈ q.evaluated e tr, (q.frozen e tr).Target e p) ∧
    (e.post = false → (q.evaluated e tr).Pairwise fun later earlier => ¬ later <:+ earlier) ∧
    (e.post = true → (q.evaluated e tr).Pairwise fun later earlier => ¬ earlier <:+ later) := by
  have hf := frozen_walked hN hE h
  rw [← frozen_evaluations (tr := tr)]
  generalize hc : q.frozen e tr = c at hf ⊢
  have hcs : c.Sane := hc ▸ frozen_sane hs
  have hcu : c.unique = false := by rw [← hc]; exact hu
  have hdis : q.plain.Distinct e → c.Distinct e := fun hh => hc ▸ frozen_distinct hh
  cases hf with
  | walk hstr hw =>
    have hi : e.strategy ≠ .ids := by
      have hstr : e.strategy = .bfs ∨ e.strategy = .dfs := hstr
      rcases hstr with hh | hh <;> rw [hh] <;> simp
    obtain ⟨k1, k2⟩ := C70_order hcs hN hi hw
    exact ⟨fun p hp => C70_sound hcs hcu hN hi hE hw hp, k1, k2⟩
  | deepened hw =>
    obtain ⟨d1, d2⟩ := hD (deepened_strategy (e := c.env e) hw)
    obtain ⟨_, k1, k2, k3, _⟩ := C70_deepened_partial hcs hcu hN hE (hdis d1) d2 hw
    exact ⟨fun p hp => (k1 p).1 hp, k2, k3⟩
  | midway hw =>
    obtain ⟨d1, d2⟩ := hD (midway_strategy (e := c.env e) hw)
    obtain ⟨_, _, k1, k2, k3, _⟩ := C70_anytime_partial hcs hcu hN hE (hdis d1) hw
    exact ⟨k1, k2, k3⟩

/-- **C70 (with memory), partial.** When the search is complete, it has been evaluated exactly on them.
Missing: as in `C70_exact_partial` and `C70_deepened_partial`. -/
theorem C70_memory_exact_partial (hs : q.cfg.Sane) (hu : q.cfg.unique = false) (hN : e.Named)
    (hE : ∀ p, e.error p = true → e.isDir p = false) (hD : q.Apart e) (h : Walked (q.env e) tr true) (p : Pos) :
    p ∈ q.evaluated e tr ↔ (q.frozen e tr).Target e p ∧
      ¬ (e.post = true ∧ e.barrier p ∧ e.isDir p = true ∧ (depth p : Int) < q.cfg.maxdepth) := by
  have hf := frozen_walked hN hE h
  rw [← frozen_evaluations (tr := tr)]
  show _ ↔ _ ∧ ¬ (_ ∧ _ ∧ _ ∧ _ < (q.frozen e tr).maxdepth)
  generalize hc : q.frozen e tr = c at hf ⊢
  have hcs : c.Sane := hc ▸ frozen_sane hs
  have hcu : c.unique = false := by rw [← hc]; exact hu
  have hdis : q.plain.Distinct e → c.Distinct e := fun hh => hc ▸ frozen_distinct hh
  generalize hb : true = complete at hf
  cases hf with
  | walk hstr hw =>
    have hi : e.strategy ≠ .ids := by
      have hstr : e.strategy = .bfs ∨ e.strategy = .dfs := hstr
      rcases hstr with hh | hh <;> rw [hh] <;> simp
    have := C70_exact_partial hcs hcu hN hi hE hw (of_decide_eq_true hb.symm) p
    rw [← hb]
    exact this
  | deepened hw =>
    obtain ⟨d1, d2⟩ := hD (deepened_strategy (e := c.env e) hw)
    obtain ⟨_, k1, _⟩ := C70_deepened_partial hcs hcu hN hE (hdis d1) d2 hw
    rw [k1 p, and_iff_left]
    rintro ⟨b1, b2, _⟩
    have := b2.1
    rw [d2 b1] at this
    cases this
  | midway hw => cases hb

/-! ## C91 -/

/-- **C91 (numbers).** `-limit` accepts exactly the numbers from 1 to 2⁶³-1. -/
theorem C91_parse (arg : List UInt8) (n : Int) :
    parseLimit arg = some n ↔ Num.Numeral 10 arg n ∧ 1 ≤ n ∧ n < 2 ^ 63 := by
  have h31 := fun v => C31_int 10 (by decide) .longLong false arg v
  have hb : Num.parseInt arg { size := .longLong } = Num.parseInt arg { base := 10, size := .longLong } := C31_base _ _ rfl
  unfold parseLimit
  rw [hb]
  constructor
  · intro h
    split at h
    · rename_i num rest hp
      have hrest : rest = [] := by
        have := hp
        unfold Num.parseInt at this
        split at this
        · cases this
        · cases this
        · rename_i v r hx
          split at this
          · cases this
          · rename_i hz
            simp only [Bool.not_false, Bool.true_and, bne_iff_ne, ne_eq, Decidable.not_not] at hz
            simp [Num.storeInt] at this
            rw [← this.2]
            exact hz
      rw [hrest] at hp
      obtain ⟨h1, h2, _⟩ := (h31 num).1 hp
      split at h
      · cases h
      · cases h
        unfold Num.Fits at h2
        exact ⟨h1, by omega, by omega⟩
    · cases h
  · rintro ⟨h1, h2, h3⟩
    rw [(h31 n).2 ⟨h1, ⟨by omega, by omega⟩, by simp⟩]
    dsimp only
    rw [if_neg (by omega)]

/-- **C91 (the end).** Whatever the search strategy, when the expression ends the search, nothing is done
after that, and the search is not complete. -/
theorem C91_over (hN : e.Named) (hE : ∀ p, e.error p = true → e.isDir p = false) (h : Walked (q.env e) tr complete)
    {l r : List Event} {ev : Event} (ht : tr = l ++ ev :: r) (ha : ev.action = .stop) : l = [] ∧ complete = false := by
  have ho := walked_orderly (e := q.env e) hN hE h
  constructor
  · cases l with
    | nil => rfl
    | cons x l => exact absurd ha (ho.last (l := []) (ev := x) (r := l ++ ev :: r) ht ev (by simp))
  · cases complete with
    | false => rfl
    | true => exact absurd ha (walked_unstopped (e := q.env e) hN h ev (by rw [ht]; simp))

/-- **C91 (never more).** Whatever the expression and the search strategy, at any time, a `-limit N` has been
evaluated at most N times. Once it has been evaluated N times, the search has been stopped, and that was the last
thing to be evaluated, on any file. -/
theorem C91_at_most (hS : q.prims.Laws) (hV : q.prims.Valid) (hN : e.Named) (hE : ∀ p, e.error p = true → e.isDir p = false)
    (h : Walked (q.env e) tr complete) {i : Nat} {n : Int} (hn : q.prims.num i = some n) :
    (times (limitLeaf i) (q.log e tr) : Int) ≤ n ∧
    ((times (limitLeaf i) (q.log e tr) : Int) = n → ∃ ev r, tr = ev :: r ∧ ev.action = .stop ∧
      (∃ log, q.log e tr = (ev.pos, limitLeaf i) :: log) ∧ (q.evaluated e tr).head? = some ev.pos) := by
  have h := walked_orderly (e := q.env e) hN hE h
  rcases world_cases hS hV h with ⟨_, ho⟩ | ⟨ev, r, ht, hst, hh, hend⟩
  · obtain ⟨h1, h2⟩ := ho i n hn
    unfold Search.log
    rw [h1]
    exact ⟨by omega, fun hx => by omega⟩
  · obtain ⟨h1, h2⟩ := hend.counts i n hn
    refine ⟨?_, fun hx => ⟨ev, r, ht, hst, ?_⟩⟩
    · unfold Search.log
      rw [h1]
      exact h2
    · unfold Search.log at hx ⊢
      rw [h1] at hx
      obtain ⟨log, hl⟩ := hend.last i n hn hx
      refine ⟨⟨log, hl⟩, ?_⟩
      have hev : q.evaluated e (ev :: r) = if q.hit e r ev then ev.pos :: q.evaluated e r else q.evaluated e r := rfl
      rw [ht, hev, if_pos hh]
      rfl

/-- **C91 (no less).** The search is not ended by the expression before that: the last action to be
evaluated is a `-limit N` evaluated for the Nth time, or it is not a `-limit` (but `-quit`, say). -/
theorem C91_reason (hS : q.prims.Laws) (hV : q.prims.Valid) (hN : e.Named) (hE : ∀ p, e.error p = true → e.isDir p = false)
    (h : Walked (q.env e) tr complete) {ev : Event} {r : List Event} (ht : tr = ev :: r) (ha : ev.action = .stop) :
    ∃ l log, q.log e tr = (ev.pos, l) :: log ∧
      ((∃ i n, l = limitLeaf i ∧ q.prims.num i = some n ∧ (times (limitLeaf i) (q.log e tr) : Int) = n) ∨
        q.prims.limit l = none) := by
  obtain ⟨_, hend⟩ := world_ended hS hV (walked_orderly (e := q.env e) hN hE h) ht ha
  obtain ⟨l, log, h1, h2⟩ := hend.cause
  refine ⟨l, log, h1, h2.imp_left ?_⟩
  rintro ⟨i, n, a, b, c⟩
  refine ⟨i, n, a, b, ?_⟩
  unfold Search.log
  rw [(hend.counts i n b).1, c]

/-- The same search with another number in one of the limits. -/
def withLimit (q : Search T W) (i : Nat) (m : Int) : Search T W :=
  { q with prims := { q.prims with num := fun j => if j = i then some m else q.prims.num j } }

theorem reached_raise {k : Nat} {n m : Int} (hm : n ≤ m) (hq : reached n k = false) : reached m k = false := by
  unfold reached at hq ⊢
  generalize toLongLong (k + 1) = x at hq ⊢
  have := of_decide_eq_false hq
  exact decide_eq_false (by omega)

theorem evalLimit_raise {i : Nat} {n m : Int} (hm : n ≤ m) {w : World W} (hq : (evalLimit n i w).q = false) :
    evalLimit m i w = evalLimit n i w := by
  have h1 : reached n (w.evaluations i) = false := hq
  unfold evalLimit
  rw [h1, reached_raise hm h1]

theorem evalLimit_true (n : Int) (i : Nat) (w : World W) : (evalLimit n i w).r = true := rfl

theorem leaf_raise {S : Primaries W} {i : Nat} {n m : Int} (hn : S.num i = some n) (hm : n ≤ m)
    (p : Pos) (path : Bytes) (l : Opt.Leaf) (w : World W) (hq : (S.leaf p path l w).q = false) :
    ({ S with num := fun j => if j = i then some m else S.num j } : Primaries W).leaf p path l w = S.leaf p path l w := by
  have hlim : (∃ j k, j ≠ i ∧ S.limit l = some (j, k) ∧ ({ S with num := fun j => if j = i then some m else S.num j } : Primaries W).limit l = some (j, k)) ∨
      (S.limit l = some (i, n) ∧ ({ S with num := fun j => if j = i then some m else S.num j } : Primaries W).limit l = some (i, m)) ∨
      (S.limit l = none ∧ ({ S with num := fun j => if j = i then some m else S.num j } : Primaries W).limit l = none) := by
    unfold Primaries.limit
    split
    · rename_i j
      dsimp only
      by_cases hj : j = i
      · subst hj
        right; left
        rw [hn, if_pos rfl]
        exact ⟨rfl, rfl⟩
      · rw [if_neg hj]
        cases hk : S.num j with
        | none => exact Or.inr (Or.inr ⟨rfl, rfl⟩)
        | some k => exact Or.inl ⟨j, k, hj, rfl, rfl⟩
    · exact Or.inr (Or.inr ⟨rfl, rfl⟩)
  rcases hlim with ⟨j, k, _, h1, h2⟩ | ⟨h1, h2⟩ | ⟨h1, h2⟩
  · rw [leaf_limit' h1, leaf_limit' h2]
  · rw [leaf_limit' h1] at hq ⊢
    rw [leaf_limit' h2]
    rw [evalLimit_raise hm hq]
  · rw [leaf_other h1, leaf_other h2]
    rfl

/-- **C91 (nothing else).** Until it ends the search, `-limit N` makes no difference: with a larger number,
the same search is possible, and the same actions are evaluated. -/
theorem C91_raise (hS : q.prims.Laws) (hV : q.prims.Valid) (hN : e.Named) (hE : ∀ p, e.error p = true → e.isDir p = false)
    (h : Walked (q.env e) tr complete) {i : Nat} {n m : Int} (hn : q.prims.num i = some n) (hm : n ≤ m) (hgo : ∀ ev ∈ tr, ev.action ≠ .stop) :
    Walked ((withLimit q i m).env e) tr complete ∧ (withLimit q i m).log e tr = q.log e tr := by
  have ho := walked_orderly (e := q.env e) hN hE h
  have same : ∀ p path w, (q.evaluate p path w).q = false → (withLimit q i m).evaluate p path w = q.evaluate p path w := by
    intro p path w hq
    exact eval_same (fun l w => leaf_raise hn hm p path l w) q.expr _ hq
  -- none of the evaluations ended the search
  have quits : ∀ tr' l, tr = l ++ tr' → ∀ ev r, tr' = ev :: r → q.hit e r ev = true →
      (q.evaluate ev.pos ev.path (q.world e r)).q = false := by
    intro tr' l ht ev r hr hh
    have ho' := world_open hS hV ho r (l ++ [ev]) (by rw [ht, hr]; simp) (fun x hx => hgo x (by rw [ht, hr]; simp [hx]))
    have hi := evaluate_inv hS hV ev.pos ev.path _ ho'
    cases hq : (q.evaluate ev.pos ev.path (q.world e r)).q with
    | false => rfl
    | true =>
      have hd := ho.answer (l := l) (ev := ev) (r := r) (by rw [ht, hr])
      exact absurd (hd.2 (callback_stop.2 ⟨hh, (hi.2 hq).stop⟩)) (hgo ev (by rw [ht, hr]; simp))
  have hit : ∀ tr (ev : Event), (withLimit q i m).hit e tr ev = q.hit e tr ev := by
    intro tr ev
    unfold Search.hit Search.verdict Search.now
    rw [verdict_evaluated_congr (withLimit q i m).cfg _, verdict_evaluated_congr q.cfg _]
    rfl
  have worlds : ∀ tr' l, tr = l ++ tr' → (withLimit q i m).world e tr' = q.world e tr' := by
    intro tr'
    induction tr' with
    | nil => intro _ _; rfl
    | cons ev tr' ih =>
      intro l ht
      rw [world_cons, world_cons, hit, ih (l ++ [ev]) (by rw [ht]; simp)]
      split
      · rename_i hh
        rw [same _ _ _ (quits _ l ht ev tr' rfl hh)]
      · rfl
  refine ⟨?_, by unfold Search.log; rw [worlds tr [] rfl]⟩
  refine walked_with (e := q.env e) (cb := ((withLimit q i m).env e).callback) h ?_
  intro l ev r ht
  show (((withLimit q i m).now ((withLimit q i m).world e r) ev.path).verdict e r ev.visit ev.pos ev.path).action =
    ((q.now (q.world e r) ev.path).verdict e r ev.visit ev.pos ev.path).action
  rw [worlds r (l ++ [ev]) (by rw [ht]; simp)]
  unfold Search.now
  show (({ q.cfg with expr := _ } : Cfg).verdict e r ev.visit ev.pos ev.path).action = _
  rw [verdict_congr q.cfg (fun p => (q.evaluate p ev.path (q.world e r)).w.action)]
  intro hh
  rw [same _ _ _ (quits (ev :: r) l ht ev r rfl hh)]

/-! ### `TESTS ACTION -limit N` -/

section
variable {a b c d : Opt.Ann T} {tests : Opt.Expr T} {act : Opt.Leaf} {i : Nat} {n : Int} {holds : Pos → Bool}

theorem counted_evaluate (hx : q.expr = counted a b c d tests act i) (hn : q.prims.num i = some n)
    (ht : q.prims.Tests tests holds) (ha : q.prims.Plain act) (p : Pos) (path : Bytes) (w : World W)
    (hsmall : w.evaluations i + 1 < 2 ^ 63) :
    if holds p = true then
      ∃ w2 : World W, w2.evaluations = w.evaluations ∧ w2.log = (p, act) :: w.log ∧ w2.action = .cont ∧
        q.evaluate p path w = if ((w.evaluations i + 1 : Nat) : Int) ≥ n then ⟨false, true, bumped p i .stop w2⟩
          else ⟨true, false, bumped p i .cont w2⟩
    else q.evaluate p path w = ⟨false, false, { w with action := .cont }⟩ := by
  have hl : q.prims.limit (limitLeaf i) = some (i, n) := by
    unfold Primaries.limit limitLeaf
    simp [hn]
  unfold Search.evaluate
  rw [hx]
  unfold counted
  rw [Opt.eval_node, Opt.evals_cons, Opt.evals_cons, Opt.evals_nil, Opt.eval_leaf, Opt.eval_node, Opt.evals_cons,
    Opt.evals_cons, Opt.evals_nil, Opt.eval_leaf]
  by_cases hh : holds p = true
  · rw [if_pos hh]
    cases act with
    | action k j =>
      obtain ⟨hl1, hpl⟩ := ha
      obtain ⟨w', hw'⟩ := hpl p path .cont w.rest
      have hact : q.prims.leaf p path (.action k j) { w with action := .cont } =
          ⟨true, false, ⟨w.evaluations, .cont, (p, .action k j) :: w.log, w'⟩⟩ := by
        unfold Primaries.leaf
        rw [hl1]
        show q.prims.others p path _ _ = _
        unfold Primaries.others World.note
        dsimp only
        rw [hw']
      refine ⟨⟨w.evaluations, .cont, (p, .action k j) :: w.log, w'⟩, rfl, rfl, rfl, ?_⟩
      have hlim := leaf_limit (S := q.prims) hl (w := ⟨w.evaluations, .cont, (p, .action k j) :: w.log, w'⟩) hsmall p path
      show Opt.evalAnd [fun w => Opt.evalAnd _ w, _] _ = _
      have h1 : Opt.evalAnd [Opt.eval (q.prims.leaf p path) tests, q.prims.leaf p path (.action k j)] { w with action := .cont } =
          ⟨true, false, ⟨w.evaluations, .cont, (p, .action k j) :: w.log, w'⟩⟩ := by
        rw [Opt.evalAnd, ht p path, hh]
        show Opt.evalAnd [q.prims.leaf p path (.action k j)] { w with action := .cont } = _
        rw [Opt.evalAnd, hact]
        rfl
      rw [Opt.evalAnd]
      rw [h1]
      show Opt.evalAnd [q.prims.leaf p path (limitLeaf i)] _ = _
      rw [Opt.evalAnd, hlim]
      dsimp only
      split <;> rfl
    | _ => cases ha
  · rw [if_neg hh]
    have hf : holds p = false := by simpa using hh
    show Opt.evalAnd [fun w => Opt.evalAnd _ w, _] _ = _
    rw [Opt.evalAnd, Opt.evalAnd, ht p path, hf]
    rfl

theorem files_cons (l : Opt.Leaf) (x : Pos × Opt.Leaf) (log : List (Pos × Opt.Leaf)) :
    files l (x :: log) = if x.2 = l then x.1 :: files l log else files l log := by
  unfold files
  rw [List.filter_cons]
  by_cases h : x.2 = l <;> simp [h]

theorem act_ne (hn : q.prims.num i = some n) (ha : q.prims.Plain act) : limitLeaf i ≠ act := by
  cases act with
  | action k j => exact fun hh => limit_none ha.1 hn hh.symm
  | _ => cases ha

theorem counted_small (hS : q.prims.Laws) (hV : q.prims.Valid) (hn : q.prims.num i = some n)
    (h : Orderly (q.env e) tr) {l r : List Event} {ev : Event} (hst : tr = l ++ ev :: r) :
    ((q.world e r).evaluations i : Int) < n ∧ (q.world e r).evaluations i + 1 < 2 ^ 63 := by
  have ho := world_open hS hV h r (l ++ [ev]) (by rw [hst]; simp) (h.last hst)
  have := (ho i n hn).2
  exact ⟨this, small_of this (hV i n hn).2⟩

theorem counted_files (hS : q.prims.Laws) (hV : q.prims.Valid)
    (hx : q.expr = counted a b c d tests act i) (hn : q.prims.num i = some n) (ht : q.prims.Tests tests holds)
    (ha : q.prims.Plain act) (h : Orderly (q.env e) tr) :
    ∀ r l, tr = l ++ r → files act (q.world e r).log = (q.evaluated e r).filter holds ∧
      (q.world e r).evaluations i = (files act (q.world e r).log).length
  | [], _, _ => ⟨rfl, rfl⟩
  | ev :: r, l, hst => by
    have ih := counted_files hS hV hx hn ht ha h r (l ++ [ev]) (by rw [hst]; simp)
    have hsm := counted_small hS hV hn h hst
    have hc := counted_evaluate hx hn ht ha ev.pos ev.path (q.world e r) hsm.2
    rw [world_cons]
    have hev : q.evaluated e (ev :: r) = if q.hit e r ev then ev.pos :: q.evaluated e r else q.evaluated e r := rfl
    rw [hev]
    by_cases hh : q.hit e r ev = true
    · rw [if_pos hh, if_pos hh, List.filter_cons]
      by_cases hp : holds ev.pos = true
      · rw [if_pos hp] at hc
        rw [if_pos hp]
        obtain ⟨w2, w1, w3, w4, hc⟩ := hc
        have key : ∀ a, files act (bumped ev.pos i a w2).log = ev.pos :: files act (q.world e r).log ∧
            (bumped ev.pos i a w2).evaluations i = (files act (bumped ev.pos i a w2).log).length := by
          intro a
          have : files act (bumped ev.pos i a w2).log = ev.pos :: files act (q.world e r).log := by
            show files act ((ev.pos, limitLeaf i) :: w2.log) = _
            rw [files_cons, if_neg (act_ne hn ha), w3, files_cons, if_pos (by rfl)]
          refine ⟨this, ?_⟩
          rw [this, List.length_cons, ← ih.2, ← w1]
          show (if i = i then _ else _) = _
          rw [if_pos rfl]
        rw [hc]
        split
        · rw [← ih.1]; exact key _
        · rw [← ih.1]; exact key _
      · rw [if_neg hp] at hc
        rw [if_neg hp, hc]
        exact ih
    · rw [if_neg hh, if_neg hh]
      exact ih

theorem target_plain {p : Pos} (h : (q.frozen e tr).Target e p) : q.plain.Target e p :=
  ⟨frozen_found h.found, h.shown, h.known, h.allowed, h.range⟩

/-- **C91 (results).** `bfs ... TESTS -print -limit N`, also with another action instead of `-print`: at
any time, the action has been evaluated on at most N files, on each at most once, and only on files that
match, among those that the expression should be evaluated on. They are the first ones to be examined: all
files that were examined and match are among them. -/
theorem C91_results (hs : q.cfg.Sane) (hu : q.cfg.unique = false) (hS : q.prims.Laws) (hV : q.prims.Valid)
    (hN : e.Named) (hE : ∀ p, e.error p = true → e.isDir p = false) (hD : q.Apart e)
    (hx : q.expr = counted a b c d tests act i) (hn : q.prims.num i = some n) (ht : q.prims.Tests tests holds)
    (ha : q.prims.Plain act) (h : Walked (q.env e) tr complete) :
    ((files act (q.log e tr)).length : Int) ≤ n ∧ (files act (q.log e tr)).Nodup ∧
      files act (q.log e tr) = (q.evaluated e tr).filter holds ∧
      ∀ p ∈ files act (q.log e tr), q.plain.Target e p ∧ holds p = true := by
  have ho := walked_orderly (e := q.env e) hN hE h
  obtain ⟨h1, h2⟩ := counted_files hS hV hx hn ht ha ho tr [] rfl
  refine ⟨?_, ?_, h1, ?_⟩
  · show ((files act (q.world e tr).log).length : Int) ≤ n
    rw [← h2]
    rcases world_cases hS hV ho with ⟨_, ho⟩ | ⟨ev, r, _, _, _, hend⟩
    · have := (ho i n hn).2; omega
    · exact (hend.counts i n hn).2
  · show (files act (q.world e tr).log).Nodup
    rw [h1]
    exact (C70_memory_once hs hN hE h).filter _
  · intro p hp
    change p ∈ files act (q.world e tr).log at hp
    rw [h1] at hp
    obtain ⟨h3, h4⟩ := List.mem_filter.1 hp
    exact ⟨target_plain ((C70_memory_sound_partial hs hu hN hE hD h).1 p h3), h4⟩

/-- **C91 (exactly), partial.** If the search is ended by the expression, then the action has been
evaluated on N files. If it is complete, then there are fewer than N files to be found that match, and the action
has been evaluated on all of them.

Missing: `-unique`, `-depth` with `-xdev` (where mount points are left out), and deepening with roots under which
different files have the same paths. -/
theorem C91_exact_partial (hs : q.cfg.Sane) (hu : q.cfg.unique = false) (hS : q.prims.Laws) (hV : q.prims.Valid)
    (hN : e.Named) (hE : ∀ p, e.error p = true → e.isDir p = false) (hD : q.Apart e)
    (hm : e.post = false ∨ e.pruneMounts = false)
    (hx : q.expr = counted a b c d tests act i) (hn : q.prims.num i = some n) (ht : q.prims.Tests tests holds)
    (ha : q.prims.Plain act) (h : Walked (q.env e) tr complete) :
    ((∃ ev ∈ tr, ev.action = .stop) → ((files act (q.log e tr)).length : Int) = n) ∧
    (complete = true → ((files act (q.log e tr)).length : Int) < n ∧
      ∀ p, p ∈ files act (q.log e tr) ↔ q.plain.Target e p ∧ holds p = true) := by
  have ho := walked_orderly (e := q.env e) hN hE h
  obtain ⟨h1, h2⟩ := counted_files hS hV hx hn ht ha ho tr [] rfl
  constructor
  · rintro ⟨ev, hev, hst⟩
    obtain ⟨l, r, hl⟩ := List.append_of_mem hev
    have hl0 := (C91_over hN hE h hl hst).1
    subst hl0
    show ((files act (q.world e tr).log).length : Int) = n
    rw [← h2]
    obtain ⟨hh, hend⟩ := world_ended hS hV ho hl hst
    have hsm := counted_small hS hV hn ho (l := []) hl
    have hc := counted_evaluate hx hn ht ha ev.pos ev.path (q.world e r) hsm.2
    have hstop := hend.stop
    have hle := (hend.counts i n hn).2
    rw [hl, List.nil_append, world_cons, if_pos hh] at hstop hle ⊢
    split at hc
    · obtain ⟨w2, w1, _, _, hc⟩ := hc
      rw [hc] at hstop hle ⊢
      split at hstop
      · rename_i hge
        rw [if_pos hge] at hle ⊢
        have : (bumped ev.pos i .stop w2).evaluations i = (q.world e r).evaluations i + 1 := by
          show (if i = i then _ else _) = _
          rw [if_pos rfl, w1]
        rw [this] at hle ⊢
        omega
      · cases hstop
    · rw [hc] at hstop
      cases hstop
  · intro hd
    subst hd
    have hgo := walked_unstopped (e := q.env e) hN h
    have hop := world_open hS hV ho tr [] rfl hgo
    refine ⟨?_, fun p => ?_⟩
    · show ((files act (q.world e tr).log).length : Int) < n
      rw [← h2]
      exact (hop i n hn).2
    · -- it said nothing about where to go
      have said : ∀ r l, tr = l ++ r → ∀ p, q.said e r p = .cont := by
        intro r
        induction r with
        | nil => intro _ _ _; rfl
        | cons ev r ih =>
          intro l hl p
          have ih := ih (l ++ [ev]) (by rw [hl]; simp)
          show (if q.hit e r ev = true ∧ ev.pos = p then _ else _) = _
          by_cases hh : q.hit e r ev = true ∧ ev.pos = p
          · rw [if_pos hh]
            have hsm := counted_small hS hV hn ho hl
            have hc := counted_evaluate hx hn ht ha ev.pos ev.path (q.world e r) hsm.2
            have hns : (q.evaluate ev.pos ev.path (q.world e r)).w.action ≠ .stop := by
              intro hst
              have hdn := ho.answer hl
              exact hgo ev (by rw [hl]; simp) (hdn.2 (callback_stop.2 ⟨hh.1, hst⟩))
            split at hc
            · obtain ⟨w2, _, _, _, hc⟩ := hc
              rw [hc] at hns ⊢
              split at hns
              · exact absurd rfl hns
              · rename_i hlt
                rw [if_neg hlt]
                rfl
            · rw [hc]
          · rw [if_neg hh]
            exact ih p
      have hfr : q.frozen e tr = q.plain := by
        unfold Search.frozen Search.plain
        rw [show q.said e tr = fun _ => .cont from funext (said tr [] rfl)]
      have hex := C70_memory_exact_partial hs hu hN hE hD h p
      rw [hfr] at hex
      show p ∈ files act (q.world e tr).log ↔ _
      rw [h1, List.mem_filter, hex]
      have hnb : ¬ (e.post = true ∧ e.barrier p ∧ e.isDir p = true ∧ (depth p : Int) < q.cfg.maxdepth) := by
        rintro ⟨b1, b2, _⟩
        rcases hm with hm | hm
        · rw [hm] at b1; cases b1
        · have := b2.1; rw [hm] at this; cases this
      rw [and_iff_left hnb]

end

/-- **C91 (optimizer).** At `-O0` and `-O1`, the optimizer does not change what a search with `-limit` does. -/
theorem C91_optimized (E : Opt.Env T) (hl : E.level ≤ 1) (hL : ∀ p path, Spec.Opt.LeafLaws (q.prims.other p path))
    (ctx : Opt.Ctx T) (hc : ctx.expr = q.expr) (hw : Spec.Opt.WF q.expr) :
    ({ q with expr := (Opt.bfsOptimize E ctx).expr } : Search T W).env e = q.env e ∧
    ∀ tr, ({ q with expr := (Opt.bfsOptimize E ctx).expr } : Search T W).world e tr = q.world e tr := by
  have laws : ∀ p path, Spec.Opt.LeafLaws (q.prims.leaf p path) := by
    intro p path
    refine ⟨fun w => ?_, fun w => ?_, fun i w hq => ?_, fun i w => ?_⟩
    · rw [leaf_other (by rfl)]
      show q.prims.others p path .true_ w = _
      unfold Primaries.others
      rw [(hL p path).true_]
    · rw [leaf_other (by rfl)]
      show q.prims.others p path .false_ w = _
      unfold Primaries.others
      rw [(hL p path).false_]
    · cases hlim : q.prims.limit (.action .returnsTrue i) with
      | some x =>
        rw [leaf_limit' hlim]
        rfl
      | none =>
        rw [leaf_other hlim] at hq ⊢
        exact (hL p path).returns i _ hq
    · rw [leaf_other (by rfl)]
      exact (hL p path).noReturn i _
  have same : ∀ p path w, (({ q with expr := (Opt.bfsOptimize E ctx).expr } : Search T W).evaluate p path w).w = (q.evaluate p path w).w := by
    intro p path w
    have := Opt.optimize_low E hl (laws p path).semOK true
      (Opt.exprBefore ctx (Opt.optimize E false Opt.dfTop Opt.dfBottom ctx.exclude).a.f)
      (Opt.optimize E false Opt.dfTop Opt.dfBottom ctx.exclude).impure q.expr hw { w with action := .cont }
    have := this.2.1.symm
    rw [← hc] at this
    unfold Search.evaluate
    rw [← hc]
    exact this
  have now : ∀ w path, ({ q with expr := (Opt.bfsOptimize E ctx).expr } : Search T W).now w path = q.now w path := by
    intro w path
    unfold Search.now
    dsimp only
    congr 1
    funext p
    rw [same]
  have worlds : ∀ tr, ({ q with expr := (Opt.bfsOptimize E ctx).expr } : Search T W).world e tr = q.world e tr := by
    intro tr
    induction tr with
    | nil => rfl
    | cons ev tr ih =>
      unfold Search.world Search.verdict
      rw [ih, now, same]
  refine ⟨?_, worlds⟩
  unfold Search.env Search.verdict
  congr 1
  funext tr v p path
  rw [worlds, now]

/-! ## Examples -/

/-- Primaries: `-print`, `-prune` on `a/y`, `-quit`, `-limit 2` (number 5) and `-limit 3` (number 6). -/
def quotaPrims : Primaries (List Pos) where
  num := fun i => if i = 5 then some 2 else if i = 6 then some 3 else none
  other := fun p _ l x => match l with
    | .true_ => ⟨true, false, x⟩
    | .false_ => ⟨false, false, x⟩
    | .action .returnsTrue 2 => ⟨true, false, (if p = [0, 0] then .prune else x.1, x.2)⟩
    | .action .returnsTrue _ => ⟨true, false, (x.1, x.2 ++ [p])⟩
    | .action .noReturn _ => ⟨true, true, (.stop, x.2)⟩
    | _ => ⟨p.length = 2, false, x⟩

theorem quotaPrims_laws : quotaPrims.Laws := by
  refine ⟨fun p path l x h => ?_, fun p path l x h => ?_⟩
  · cases l with
    | action k i => exact absurd rfl (h k i)
    | _ => rfl
  · unfold quotaPrims
    dsimp only
    split
    · exact ⟨fun hh => absurd hh h, fun hh => (by cases hh)⟩
    · exact ⟨fun hh => absurd hh h, fun hh => (by cases hh)⟩
    · refine ⟨fun hh => ?_, fun hh => (by cases hh)⟩
      dsimp only at hh
      split at hh
      · cases hh
      · exact absurd hh h
    · exact ⟨fun hh => absurd hh h, fun hh => (by cases hh)⟩
    · exact ⟨fun _ => rfl, fun _ => rfl⟩
    · exact ⟨fun hh => absurd hh h, fun hh => (by cases hh)⟩

theorem quotaPrims_valid : quotaPrims.Valid := by
  intro i n h
  unfold quotaPrims at h
  dsimp only at h
  split at h
  · cases h; decide
  · split at h
    · cases h; decide
    · cases h

theorem quotaPrims_leafLaws (p : Pos) (path : Bytes) : Spec.Opt.LeafLaws (quotaPrims.other p path) := by
  refine ⟨fun _ => rfl, fun _ => rfl, fun i w _ => ?_, fun _ _ => rfl⟩
  unfold quotaPrims
  dsimp only
  split <;> simp_all

/-- Annotations are not used. -/
def quotaAnn : Opt.Ann Nat := ⟨false, false, false, 0⟩

/-- `bfs a TEST -print -limit 2` -/
def quotaSearch (tests : Opt.Leaf) (i : Nat) : Search Nat (List Pos) where
  cfg := { searchCfg with mindepth := 0, exclude := fun _ => false }
  expr := counted quotaAnn quotaAnn quotaAnn quotaAnn (.leaf quotaAnn tests) (.action .returnsTrue 0) i
  prims := quotaPrims
  start := []

/-- The hypotheses can be met: there are four files, and the first two are printed. -/
example : ∃ tr, Walked ((quotaSearch .true_ 5).env walkEnv) tr false ∧ (tr.head?.map (·.action)) = some .stop ∧
    (files (.action .returnsTrue 0) ((quotaSearch .true_ 5).log walkEnv tr)).reverse = [[1, 0], [0, 0, 0]] ∧
    times (limitLeaf 5) ((quotaSearch .true_ 5).log walkEnv tr) = 2 :=
  ⟨(walk ((quotaSearch .true_ 5).env walkEnv) 100).trace, by
    have := Walked.walk (Or.inl (by decide)) (walk_reach ((quotaSearch .true_ 5).env walkEnv) 100)
    rw [show decide ((walk ((quotaSearch .true_ 5).env walkEnv) 100).pc = .done) = false by decide +kernel] at this
    exact this, by decide +kernel, by decide +kernel, by decide +kernel⟩

/-- Only two of them match; the search is completed. -/
example : ∃ tr, Walked ((quotaSearch (.other 0) 6).env walkEnv) tr true ∧
    (files (.action .returnsTrue 0) ((quotaSearch (.other 0) 6).log walkEnv tr)).reverse = [[1, 0], [0, 0]] ∧
    (∀ ev ∈ tr, ev.action ≠ .stop) ∧ times (limitLeaf 6) ((quotaSearch (.other 0) 6).log walkEnv tr) = 2 :=
  ⟨(walk ((quotaSearch (.other 0) 6).env walkEnv) 100).trace, by
    have := Walked.walk (Or.inl (by decide)) (walk_reach ((quotaSearch (.other 0) 6).env walkEnv) 100)
    rw [show decide ((walk ((quotaSearch (.other 0) 6).env walkEnv) 100).pc = .done) = true by decide +kernel] at this
    exact this, by decide +kernel, by decide +kernel, by decide +kernel⟩

/-- With `-S eds`, the search is stopped in the second pass. -/
example : ∃ tr, Walked ((quotaSearch .true_ 6).env { walkEnv with strategy := .eds, post := false }) tr false ∧
    (files (.action .returnsTrue 0) ((quotaSearch .true_ 6).log { walkEnv with strategy := .eds, post := false } tr)).reverse = [[0], [1, 0], [0, 0]] := by
  obtain ⟨st, h1, h2⟩ := mid_ok (e := (quotaSearch .true_ 6).env { walkEnv with strategy := .eds, post := false }) (next := edsNext) (k := 1) (m := 100)
    (f := fun st => (files (.action .returnsTrue 0) ((quotaSearch .true_ 6).log { walkEnv with strategy := .eds, post := false } st.calls)).reverse)
    (calls := [[0], [1, 0], [0, 0]]) (Or.inr ⟨rfl, rfl⟩) (by decide +kernel)
  exact ⟨st.calls, .midway h1, h2⟩

/-- With `-S ids -depth`, it is completed. -/
example : ∃ tr, Walked ((quotaSearch (.other 0) 6).env { walkEnv with strategy := .ids, post := true }) tr true ∧
    (files (.action .returnsTrue 0) ((quotaSearch (.other 0) 6).log { walkEnv with strategy := .ids, post := true } tr)).reverse = [[1, 0], [0, 0]] := by
  obtain ⟨st, buf, h1, h2, h3⟩ := ids_ok (e := (quotaSearch (.other 0) 6).env { walkEnv with strategy := .ids, post := true })
    (f := fun st => (files (.action .returnsTrue 0) ((quotaSearch (.other 0) 6).log { walkEnv with strategy := .ids, post := true } st.calls)).reverse) rfl
    (calls := [[1, 0], [0, 0]]) (by decide +kernel)
  exact ⟨st.calls, .deepened (.idsPost rfl h1 h2), h3⟩

example : (quotaSearch (.other 0) 6).cfg.Sane ∧ (quotaSearch (.other 0) 6).cfg.unique = false ∧
    quotaPrims.Tests (.leaf quotaAnn (.other 0)) (fun p => decide (p.length = 2)) ∧ quotaPrims.Plain (.action .returnsTrue 0) ∧
    quotaPrims.num 6 = some 3 ∧ Spec.Opt.WF (quotaSearch (.other 0) 6).expr := by
  refine ⟨⟨by decide, by decide, by decide, by decide⟩, rfl, fun p path w => rfl, ⟨rfl, fun p path a w => ⟨_, rfl⟩⟩, rfl, ?_⟩
  simp [quotaSearch, counted, Spec.Opt.WF, Spec.Opt.WFs, Spec.Opt.operandsOK]

example (q : Search Nat (List Pos)) (str : Strategy) (post : Bool) : q.Apart { walkEnv with strategy := str, post := post } :=
  fun _ => ⟨deep_distinct _ str post, fun _ => rfl⟩

/-- `-limit 2 , -limit 3 -prune`: several limits, and an expression that does not use the result. -/
def quotaTwo : Search Nat (List Pos) := Search.mk (quotaSearch .true_ 5).cfg (.node quotaAnn .comma [.leaf quotaAnn (limitLeaf 6),
    .node quotaAnn .and [.leaf quotaAnn (.other 0), .leaf quotaAnn (limitLeaf 5)]]) quotaPrims []

example : ∃ tr complete, Walked (quotaTwo.env walkEnv) tr complete ∧ (tr.head?.map (·.action)) = some .stop :=
  ⟨_, _, .walk (Or.inl (by decide)) (walk_reach _ 100), by decide +kernel⟩

example : parseLimit [49, 48] = some 10 ∧ parseLimit [48] = none ∧ parseLimit [45, 49] = none ∧ parseLimit [49, 120] = none := by
  decide +kernel

end Verif.Props
