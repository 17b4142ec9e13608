import Verif.Lemmas.OptStatic
/-!
# Data flow followed by simplify keeps the weak static invariant
-/
namespace Verif.Opt
open Verif.Spec.Opt
variable {T W : Type} (E : Env T)

/-! ### Impossible facts -/

theorem bot_bottom : dfIsBottom dfBottom = true := by decide

theorem mem_allRanges (r : Range) : r ∈ allRanges := by cases r <;> simp [allRanges]
theorem mem_allPreds (p : Pred) : p ∈ allPreds := by cases p <;> simp [allPreds]

theorem nb_iff {d : Dom} : dfIsBottom d = false ↔
    (∀ r, (d.ranges r).min ≤ (d.ranges r).max) ∧ (∀ p, d.preds p ≠ ⟨false, false⟩) ∧ d.types ≠ 0 ∧ d.xtypes ≠ 0 := by
  simp only [dfIsBottom, Bool.or_eq_false_iff, List.any_eq_false, rngIsBottom, decide_eq_true_eq, beq_eq_false_iff_ne, beq_iff_eq]
  constructor
  · intro ⟨⟨h1, h2⟩, h3⟩
    exact ⟨fun r => by have := h1 r (mem_allRanges r); omega, fun p => h2 p (mem_allPreds p), h3⟩
  · intro ⟨h1, h2, h3⟩
    exact ⟨⟨fun r _ => by have := h1 r; omega, fun p _ => h2 p⟩, h3⟩

theorem nb_join {a b : Dom} (h : dfIsBottom a = false ∨ dfIsBottom b = false) : dfIsBottom (dfJoin a b) = false := by
  rw [nb_iff]
  rcases h with h | h
  all_goals
    rw [nb_iff] at h
    obtain ⟨h1, h2, h3, h4⟩ := h
    refine ⟨fun r => ?_, fun p => ?_, ?_, ?_⟩
    · have := h1 r
      simp only [dfJoin, rangeJoin, minValue, maxValue]
      split <;> split <;> omega
    · have := h2 p
      simp only [dfJoin, predJoin, ne_eq, DfPred.mk.injEq, Bool.or_eq_false_iff]
      intro h
      apply this
      obtain ⟨⟨x1, x2⟩, x3, x4⟩ := h
      generalize a.preds p = ap at *
      generalize b.preds p = bp at *
      cases ap; cases bp; simp_all
    · intro h
      simp only [dfJoin] at h
      have := BitVec.or_eq_zero_iff.1 h
      simp_all
    · intro h
      simp only [dfJoin] at h
      have := BitVec.or_eq_zero_iff.1 h
      simp_all

theorem nb_setPred {d : Dom} (h : dfIsBottom d = false) {p : Pred} {v : DfPred}
    (hv : dfIsBottom (d.setPred p v) = true) : v = ⟨false, false⟩ := by
  refine Decidable.byContradiction fun hne => ?_
  have : dfIsBottom (d.setPred p v) = false := by
    rw [nb_iff] at h ⊢
    refine ⟨h.1, fun q => ?_, h.2.2⟩
    simp only [Dom.setPred]
    split
    · exact hne
    · exact h.2.1 q
  simp [this] at hv

theorem nb_setRange {d : Dom} (h : dfIsBottom d = false) {r : Range} {v : Rng}
    (hv : dfIsBottom (d.setRange r v) = true) : v.min > v.max := by
  refine Decidable.byContradiction fun hne => ?_
  have : dfIsBottom (d.setRange r v) = false := by
    rw [nb_iff] at h ⊢
    refine ⟨fun q => ?_, h.2⟩
    simp only [Dom.setRange]
    split
    · omega
    · exact h.1 q
  simp [this] at hv

theorem nb_types {d : Dom} (h : dfIsBottom d = false) {m : BitVec 32}
    (hv : dfIsBottom { d with types := m } = true) : m = 0 := by
  refine Decidable.byContradiction fun hne => ?_
  have : dfIsBottom { d with types := m } = false := by
    rw [nb_iff] at h ⊢
    exact ⟨h.1, h.2.1, hne, h.2.2.2⟩
  simp [this] at hv

theorem nb_xtypes {d : Dom} (h : dfIsBottom d = false) {m : BitVec 32}
    (hv : dfIsBottom { d with xtypes := m } = true) : m = 0 := by
  refine Decidable.byContradiction fun hne => ?_
  have : dfIsBottom { d with xtypes := m } = false := by
    rw [nb_iff] at h ⊢
    exact ⟨h.1, h.2.1, h.2.2.1, hne⟩
  simp [this] at hv

theorem rangeRemove_bot {r : Rng} {v : Int} (h : r.min ≤ r.max) (hb : (rangeRemove r v).min > (rangeRemove r v).max) :
    r.min = v ∨ r.max = v := by
  refine Decidable.byContradiction fun hne => ?_
  have h1 : r.min ≠ v := fun h => hne (Or.inl h)
  have h2 : r.max ≠ v := fun h => hne (Or.inr h)
  unfold rangeRemove removeMin at hb
  rw [if_neg h1] at hb
  unfold removeMax at hb
  rw [if_neg h2] at hb
  omega

/-- Leaves whose transfer function cannot contradict both outcomes. -/
def NBLeaf (o : Owners) (level : Nat) : Leaf → Prop
  | .pred .empty => level < 4
  | .pred .nogroup => o.group = none
  | .pred .nouser => o.user = none
  | .cmp .gid _ c n => c = .eq ∧ o.group = some n ∧ 0 ≤ n ∧ n < llMax
  | .cmp .uid _ c n => c = .eq ∧ o.user = some n ∧ 0 ≤ n ∧ n < llMax
  | _ => True

/-- Whether a predicate may have a value. -/
def DfPred.may (p : DfPred) (v : Bool) : Bool := if v then p.t else p.f

/-- What the facts about an owner can be when only `n` was asked for, and looking `n` up gave
`v`. -/
def OwnerFacts (n : Int) (v : Bool) (r : Rng) (p : DfPred) : Prop :=
  if n = 0 then (p.may v = true ∧ r.min = 0 ∧ 0 ≤ r.max) ∨ (p.may v = false ∧ 1 ≤ r.min)
  else 0 < n ∧ n < llMax ∧ (p.may v = true → r.min ≤ n ∧ n ≤ r.max) ∧ (p.may (!v) = true → r.min ≤ 0 ∧ llMax ≤ r.max)

theorem predJoin_may (a b : DfPred) (v : Bool) : (predJoin a b).may v = (a.may v || b.may v) := by cases v <;> rfl
theorem constrainPred_may (a : DfPred) (v x : Bool) : (constrainPred a v).may x = (a.may x && (v == x)) := by
  cases v <;> cases x <;> simp [constrainPred, DfPred.may]

theorem OwnerFacts.join {n : Int} {v : Bool} {r1 r2 : Rng} {p1 p2 : DfPred} (h1 : OwnerFacts n v r1 p1) (h2 : OwnerFacts n v r2 p2) :
    OwnerFacts n v (rangeJoin r1 r2) (predJoin p1 p2) := by
  unfold OwnerFacts at *
  have hmin : (rangeJoin r1 r2).min ≤ r1.min ∧ (rangeJoin r1 r2).min ≤ r2.min ∧ ((rangeJoin r1 r2).min = r1.min ∨ (rangeJoin r1 r2).min = r2.min) := by
    simp only [rangeJoin, minValue]; split <;> omega
  have hmax : r1.max ≤ (rangeJoin r1 r2).max ∧ r2.max ≤ (rangeJoin r1 r2).max := by
    simp only [rangeJoin, maxValue]; split <;> omega
  generalize rangeJoin r1 r2 = r at *
  simp only [predJoin_may, Bool.or_eq_true, Bool.or_eq_false_iff]
  by_cases hn : n = 0
  · rw [if_pos hn] at *
    rcases h1 with ⟨a1, a2⟩ | ⟨a1, a2⟩ <;> rcases h2 with ⟨b1, b2⟩ | ⟨b1, b2⟩ <;> simp only [a1, b1] <;> simp <;> omega
  · rw [if_neg hn] at *
    obtain ⟨h0, hM, a1, a2⟩ := h1
    obtain ⟨_, _, b1, b2⟩ := h2
    refine ⟨h0, hM, ?_, ?_⟩
    · rintro (h | h)
      · have := a1 h; omega
      · have := b1 h; omega
    · rintro (h | h)
      · have := a2 h; omega
      · have := b2 h; omega

theorem OwnerFacts.top {n : Int} {v : Bool} (h0 : 0 ≤ n) (hM : n < llMax) : OwnerFacts n v rngTop ⟨true, true⟩ := by
  have : ∀ v, DfPred.may ⟨true, true⟩ v = true := by intro v; cases v <;> rfl
  simp only [OwnerFacts, rngTop, this]
  simp
  split <;> simp [llMax] at * <;> omega

theorem OwnerFacts.bottom {n : Int} {v : Bool} (h0 : 0 ≤ n) (hM : n < llMax) : OwnerFacts n v rngBottom ⟨false, false⟩ := by
  have : ∀ v, DfPred.may ⟨false, false⟩ v = false := by intro v; cases v <;> rfl
  simp only [OwnerFacts, rngBottom, this]
  simp
  split <;> simp [llMax] at * <;> omega

theorem rangeRemove_ends {r : Rng} {n : Int} (h0 : 0 ≤ n) (hM : n < llMax) :
    (rangeRemove r n).min = (if r.min = n then n + 1 else r.min) ∧ (rangeRemove r n).max = (if r.max = n then n - 1 else r.max) := by
  unfold rangeRemove
  have h1 : removeMin r n = ⟨if r.min = n then n + 1 else r.min, r.max⟩ := by
    unfold removeMin
    by_cases h : r.min = n
    · rw [if_pos h, if_neg (by omega), if_pos h, h]
    · rw [if_neg h, if_neg h]
  rw [h1]
  unfold removeMax
  dsimp only
  by_cases h : r.max = n
  · rw [if_pos h, if_neg (by unfold llMin; omega)]
    exact ⟨rfl, by rw [if_pos h, h]⟩
  · rw [if_neg h, if_neg h]
    exact ⟨rfl, rfl⟩

theorem constrainRange_ends (r : Rng) (n : Int) :
    (constrainRange r n).min = (if r.min > n then r.min else n) ∧ (constrainRange r n).max = (if r.max < n then r.max else n) := by
  simp [constrainRange, constrainMax, constrainMin, minValue, maxValue]

/-- When the range has the asked id. -/
theorem OwnerFacts.fired {n : Int} {v : Bool} {r : Rng} {p : DfPred} (h : OwnerFacts n v r p) (h0 : 0 ≤ n) (hM : n < llMax)
    (hr : r.min ≤ n ∧ n ≤ r.max) :
    OwnerFacts n v (constrainRange r n) (constrainPred p v) ∧ OwnerFacts n v (rangeRemove r n) (constrainPred p (!v)) := by
  obtain ⟨e1, e2⟩ := rangeRemove_ends (r := r) h0 hM
  obtain ⟨e3, e4⟩ := constrainRange_ends r n
  unfold OwnerFacts at *
  rw [if_neg (by omega)] at e3 e4
  have s1 : (v == v) = true := by cases v <;> rfl
  have s2 : (v == !v) = false := by cases v <;> rfl
  have s3 : ((!v) == v) = false := by cases v <;> rfl
  have s4 : ((!v) == (!v)) = true := by cases v <;> rfl
  simp only [constrainPred_may, e1, e2, e3, e4, s1, s2, s3, s4, Bool.and_true, Bool.and_false]
  by_cases hn : n = 0
  · rw [if_pos hn] at *
    rw [if_pos hn]
    rcases h with ⟨a1, a2⟩ | ⟨a1, a2⟩
    · refine ⟨Or.inl ⟨a1, by omega, by omega⟩, Or.inr ⟨by trivial, ?_⟩⟩
      rw [if_pos (by omega)]; omega
    · omega
  · rw [if_neg hn] at *
    rw [if_neg hn]
    obtain ⟨b0, bM, a1, a2⟩ := h
    refine ⟨⟨b0, bM, fun _ => by omega, fun h => (by cases h)⟩, b0, bM, fun h => (by cases h), fun h => ?_⟩
    have := a2 h
    rw [if_neg (by omega), if_neg (by omega)]
    exact this

/-- When it does not. -/
theorem OwnerFacts.unfired {n : Int} {v : Bool} {r : Rng} {p : DfPred} (h : OwnerFacts n v r p) (h0 : 0 ≤ n) (hM : n < llMax)
    (hr : ¬ (r.min ≤ n ∧ n ≤ r.max)) : OwnerFacts n v (constrainRange r n) p ∧ OwnerFacts n v (rangeRemove r n) p := by
  obtain ⟨e1, e2⟩ := rangeRemove_ends (r := r) h0 hM
  obtain ⟨e3, e4⟩ := constrainRange_ends r n
  unfold OwnerFacts at *
  simp only [e1, e2, e3, e4]
  by_cases hn : n = 0
  · rw [if_pos hn] at *
    rw [if_pos hn]
    rcases h with ⟨a1, a2⟩ | ⟨a1, a2⟩
    · omega
    · refine ⟨Or.inr ⟨a1, ?_⟩, Or.inr ⟨a1, ?_⟩⟩
      · rw [if_pos (by omega)]; exact a2
      · rw [if_neg (by omega)]; exact a2
  · rw [if_neg hn] at *
    rw [if_neg hn]
    obtain ⟨b0, bM, a1, a2⟩ := h
    have n1 : p.may v = true → False := fun h => hr (a1 h)
    have n2 : p.may (!v) = true → False := fun h => by have := a2 h; exact hr ⟨by omega, by omega⟩
    exact ⟨⟨b0, bM, fun h => (n1 h).elim, fun h => (n2 h).elim⟩, b0, bM, fun h => (n1 h).elim, fun h => (n2 h).elim⟩

/-- What the facts can be when the only owners asked for are `o`. -/
structure Owned (E : Env T) (o : Owners) (d : Dom) : Prop where
  user : ∀ n v, o.user = some n → E.noUser n = some v → OwnerFacts n v (d.ranges .uid) (d.preds .nouser)
  group : ∀ n v, o.group = some n → E.noGroup n = some v → OwnerFacts n v (d.ranges .gid) (d.preds .nogroup)

/-- The ids asked for are possible ones. -/
def Possible (o : Owners) : Prop := (∀ n, o.user = some n → 0 ≤ n ∧ n < llMax) ∧ ∀ n, o.group = some n → 0 ≤ n ∧ n < llMax

theorem Owned.top {E : Env T} {o : Owners} (h : Possible o) : Owned E o dfTop :=
  ⟨fun n _ hn _ => OwnerFacts.top (h.1 n hn).1 (h.1 n hn).2, fun n _ hn _ => OwnerFacts.top (h.2 n hn).1 (h.2 n hn).2⟩
theorem Owned.bottom {E : Env T} {o : Owners} (h : Possible o) : Owned E o dfBottom :=
  ⟨fun n _ hn _ => OwnerFacts.bottom (h.1 n hn).1 (h.1 n hn).2, fun n _ hn _ => OwnerFacts.bottom (h.2 n hn).1 (h.2 n hn).2⟩
theorem Owned.join {E : Env T} {o : Owners} {a b : Dom} (ha : Owned E o a) (hb : Owned E o b) : Owned E o (dfJoin a b) :=
  ⟨fun n v h1 h2 => (ha.user n v h1 h2).join (hb.user n v h1 h2), fun n v h1 h2 => (ha.group n v h1 h2).join (hb.group n v h1 h2)⟩

theorem flowId_eq {d : Dom} {lookup : Int → Option Bool} {r : Range} {p : Pred} {n : Int} (h0 : 0 ≤ n) (hM : n < llMax) :
    flowId lookup r p (flowCmp ⟨d, d⟩ r .eq n) =
      if (d.ranges r).min ≤ n ∧ n ≤ (d.ranges r).max then
        match lookup n with
        | some v => flowPred (flowCmp ⟨d, d⟩ r .eq n) p v
        | none => flowCmp ⟨d, d⟩ r .eq n
      else flowCmp ⟨d, d⟩ r .eq n := by
  unfold flowId
  have e : (flowCmp ⟨d, d⟩ r .eq n).t.ranges r = constrainRange (d.ranges r) n := by simp [flowCmp, Dom.setRange]
  rw [e]
  obtain ⟨e3, e4⟩ := constrainRange_ends (d.ranges r) n
  by_cases h : (d.ranges r).min ≤ n ∧ n ≤ (d.ranges r).max
  · have e3 : (constrainRange (d.ranges r) n).min = n := by rw [e3, if_neg (by omega)]
    have e4 : (constrainRange (d.ranges r) n).max = n := by rw [e4, if_neg (by omega)]
    rw [if_pos h, e3, e4, if_pos rfl]
    rfl
  · rw [if_neg h, if_neg]
    rw [e3, e4]
    by_cases h1 : (d.ranges r).min > n <;> by_cases h2 : (d.ranges r).max < n <;> simp only [h1, h2, if_true, if_false] <;> omega

/-- The owner facts after a test for the owner. -/
theorem flowId_owner {d : Dom} {lookup : Int → Option Bool} {r : Range} {p : Pred} {n : Int} (h0 : 0 ≤ n) (hM : n < llMax)
    {v : Bool} (hv : lookup n = some v) (h : OwnerFacts n v (d.ranges r) (d.preds p)) :
    OwnerFacts n v ((flowId lookup r p (flowCmp ⟨d, d⟩ r .eq n)).t.ranges r) ((flowId lookup r p (flowCmp ⟨d, d⟩ r .eq n)).t.preds p) ∧
    OwnerFacts n v ((flowId lookup r p (flowCmp ⟨d, d⟩ r .eq n)).f.ranges r) ((flowId lookup r p (flowCmp ⟨d, d⟩ r .eq n)).f.preds p) := by
  rw [flowId_eq h0 hM]
  by_cases hr : (d.ranges r).min ≤ n ∧ n ≤ (d.ranges r).max
  · rw [if_pos hr, hv]
    have := h.fired h0 hM hr
    simpa [flowPred, flowCmp, Dom.setPred, Dom.setRange] using this
  · rw [if_neg hr]
    have := h.unfired h0 hM hr
    simpa [flowCmp, Dom.setRange] using this

theorem flowId_other {d : Dom} {lookup : Int → Option Bool} {r r' : Range} {p p' : Pred} {n : Int} (hr : r' ≠ r) (hp : p' ≠ p) :
    (flowId lookup r p (flowCmp ⟨d, d⟩ r .eq n)).t.ranges r' = d.ranges r' ∧ (flowId lookup r p (flowCmp ⟨d, d⟩ r .eq n)).t.preds p' = d.preds p' ∧
    (flowId lookup r p (flowCmp ⟨d, d⟩ r .eq n)).f.ranges r' = d.ranges r' ∧ (flowId lookup r p (flowCmp ⟨d, d⟩ r .eq n)).f.preds p' = d.preds p' := by
  unfold flowId
  split
  · split <;> simp [flowPred, flowCmp, Dom.setPred, Dom.setRange, hr, hp]
  · simp [flowCmp, Dom.setRange, hr]

theorem flowCmp_nb {d : Dom} (h : dfIsBottom d = false) (r : Range) (c : Cmp) (n : Int)
    (h1 : dfIsBottom (flowCmp ⟨d, d⟩ r c n).t = true) (h2 : dfIsBottom (flowCmp ⟨d, d⟩ r c n).f = true) : False := by
  have hr := (nb_iff.1 h).1 r
  cases c with
  | eq =>
    simp only [flowCmp] at h1 h2
    have h1 := nb_setRange h h1
    have h2 := rangeRemove_bot hr (nb_setRange h h2)
    simp only [constrainRange, constrainMin, constrainMax, minValue, maxValue] at h1
    by_cases c1 : (d.ranges r).max < n <;> by_cases c2 : (d.ranges r).min > n <;> simp only [c1, c2, if_true, if_false] at h1 <;> omega
  | lt =>
    simp only [flowCmp] at h1 h2
    have h1 := nb_setRange h h1
    have h2 := nb_setRange h h2
    simp only [constrainMin, maxValue] at h2
    have hn : n > (d.ranges r).max := by split at h2 <;> omega
    have heq : constrainMax (d.ranges r) n = d.ranges r := by
      simp only [constrainMax, minValue]; rw [if_pos (by omega)]
    rw [heq] at h1
    have := rangeRemove_bot hr h1
    omega
  | gt =>
    simp only [flowCmp] at h1 h2
    have h1 := nb_setRange h h1
    have h2 := nb_setRange h h2
    simp only [constrainMax, minValue] at h2
    have hn : n < (d.ranges r).min := by split at h2 <;> omega
    have heq : constrainMin (d.ranges r) n = d.ranges r := by
      simp only [constrainMin, maxValue]; rw [if_pos (by omega)]
    rw [heq] at h1
    have := rangeRemove_bot hr h1
    omega

theorem flowPred_nb {d : Dom} (h : dfIsBottom d = false) (p : Pred)
    (h1 : dfIsBottom (flowPred ⟨d, d⟩ p true).t = true) (h2 : dfIsBottom (flowPred ⟨d, d⟩ p true).f = true) : False := by
  simp only [flowPred] at h1 h2
  have h1 := nb_setPred h h1
  have h2 := nb_setPred h h2
  have h3 := (nb_iff.1 h).2.1 p
  apply h3
  simp only [constrainPred] at h1 h2
  generalize d.preds p = x at *
  cases x; simp_all

theorem flowId_nb {d : Dom} (h : dfIsBottom d = false) {lookup : Int → Option Bool} {r : Range} {p : Pred} {n : Int} (h0 : 0 ≤ n) (hM : n < llMax)
    (ho : ∀ v, lookup n = some v → OwnerFacts n v (d.ranges r) (d.preds p))
    (h1 : dfIsBottom (flowId lookup r p (flowCmp ⟨d, d⟩ r .eq n)).t = true) (h2 : dfIsBottom (flowId lookup r p (flowCmp ⟨d, d⟩ r .eq n)).f = true) : False := by
  rw [flowId_eq h0 hM] at h1 h2
  have hbase := flowCmp_nb h r .eq n
  have hrn := (nb_iff.1 h).1 r
  have hpn := (nb_iff.1 h).2.1 p
  by_cases hr : (d.ranges r).min ≤ n ∧ n ≤ (d.ranges r).max
  · rw [if_pos hr] at h1 h2
    cases hv : lookup n with
    | none => rw [hv] at h1 h2; exact hbase h1 h2
    | some v =>
      rw [hv] at h1 h2
      have ho := ho v hv
      have e1 : dfIsBottom (flowCmp ⟨d, d⟩ r .eq n).t = false := by
        cases hh : dfIsBottom (flowCmp ⟨d, d⟩ r .eq n).t with
        | false => rfl
        | true =>
          have := nb_setRange h hh
          obtain ⟨e3, e4⟩ := constrainRange_ends (d.ranges r) n
          rw [e3, e4, if_neg (by omega), if_neg (by omega)] at this
          omega
      have h1 := nb_setPred e1 h1
      have mv : (d.preds p).may v = false := by
        have : (constrainPred (d.preds p) v).may v = false := by
          have e : (flowCmp ⟨d, d⟩ r .eq n).t.preds p = d.preds p := rfl
          rw [e] at h1
          rw [h1]; cases v <;> rfl
        rw [constrainPred_may] at this
        cases v <;> simpa using this
      have mn : (d.preds p).may (!v) = true := by
        generalize d.preds p = q at *
        cases q with
        | mk a b => cases v <;> cases a <;> cases b <;> simp_all [DfPred.may]
      unfold OwnerFacts at ho
      by_cases hn : n = 0
      · rw [if_pos hn] at ho
        rcases ho with ⟨a1, _⟩ | ⟨_, a2⟩
        · rw [mv] at a1; cases a1
        · omega
      · rw [if_neg hn] at ho
        obtain ⟨_, _, _, a2⟩ := ho
        have a2 := a2 mn
        have e2 : dfIsBottom (flowCmp ⟨d, d⟩ r .eq n).f = false := by
          cases hh : dfIsBottom (flowCmp ⟨d, d⟩ r .eq n).f with
          | false => rfl
          | true =>
            have := nb_setRange h hh
            obtain ⟨e3, e4⟩ := rangeRemove_ends (r := d.ranges r) h0 hM
            rw [e3, e4, if_neg (by omega), if_neg (by omega)] at this
            omega
        have h2 := nb_setPred e2 h2
        have : (constrainPred (d.preds p) (!v)).may (!v) = false := by
          have e : (flowCmp ⟨d, d⟩ r .eq n).f.preds p = d.preds p := rfl
          rw [e] at h2
          rw [h2]; cases v <;> rfl
        rw [constrainPred_may, mn] at this
        cases v <;> simp at this
  · rw [if_neg hr] at h1 h2
    exact hbase h1 h2

theorem transfer_nb {o : Owners} {d : Dom} (h : dfIsBottom d = false) (hw : Owned E o d) (l : Leaf) (hl : NBLeaf o E.level l) (hp : pureLeaf E.level l = true) :
    ¬ (dfIsBottom (transfer E d l ⟨d, d⟩).t = true ∧ dfIsBottom (transfer E d l ⟨d, d⟩).f = true) := by
  rintro ⟨h1, h2⟩
  have hid : dfIsBottom d = true → False := fun h' => by simp [h] at h'
  cases l with
  | true_ => exact hid h1
  | false_ => exact hid h1
  | other i => exact hid h1
  | action k i => exact hid h1
  | pred p =>
    cases p
    case empty =>
      simp only [NBLeaf] at hl
      simp only [pureLeaf, decide_eq_true_eq] at hp
      omega
    all_goals exact flowPred_nb h _ h1 h2
  | cmp r u c n =>
    cases r with
    | gid =>
      obtain ⟨rfl, hl, h0, hM⟩ := hl
      exact flowId_nb h h0 hM (fun v hv => hw.group n v hl hv) h1 h2
    | uid =>
      obtain ⟨rfl, hl, h0, hM⟩ := hl
      exact flowId_nb h h0 hM (fun v hv => hw.user n v hl hv) h1 h2
    | _ => exact flowCmp_nb h _ c n h1 h2
  | lname i => exact hid h2
  | samefile dev ino => exact flowCmp_nb h .inum .eq ino h1 h2
  | type m =>
    have h1 := nb_types h h1
    have h2 := nb_types h h2
    apply (nb_iff.1 h).2.2.1
    have : d.types = (d.types &&& m) ||| (d.types &&& ~~~m) := by
      ext i hi; simp [← Bool.and_or_distrib_left]
    rw [this, h1, h2]; simp
  | xtype m =>
    have h1 := nb_xtypes h h1
    have h2 := nb_xtypes h h2
    apply (nb_iff.1 h).2.2.2
    have : d.xtypes = (d.xtypes &&& m) ||| (d.xtypes &&& ~~~m) := by
      ext i hi; simp [← Bool.and_or_distrib_left]
    rw [this, h1, h2]; simp

theorem Owned.congr {E : Env T} {o : Owners} {d d' : Dom} (h : Owned E o d)
    (hu : o.user ≠ none → d'.ranges .uid = d.ranges .uid ∧ d'.preds .nouser = d.preds .nouser)
    (hg : o.group ≠ none → d'.ranges .gid = d.ranges .gid ∧ d'.preds .nogroup = d.preds .nogroup) : Owned E o d' where
  user n v h1 h2 := by
    obtain ⟨e1, e2⟩ := hu (by rw [h1]; simp)
    rw [e1, e2]; exact h.user n v h1 h2
  group n v h1 h2 := by
    obtain ⟨e1, e2⟩ := hg (by rw [h1]; simp)
    rw [e1, e2]; exact h.group n v h1 h2

theorem transfer_owned {o : Owners} {d : Dom} (hw : Owned E o d) (l : Leaf) (hl : NBLeaf o E.level l) :
    Owned E o (transfer E d l ⟨d, d⟩).t ∧ Owned E o (transfer E d l ⟨d, d⟩).f := by
  have same : ∀ d', d'.ranges .uid = d.ranges .uid → d'.preds .nouser = d.preds .nouser → d'.ranges .gid = d.ranges .gid →
      d'.preds .nogroup = d.preds .nogroup → Owned E o d' := fun d' h1 h2 h3 h4 => hw.congr (fun _ => ⟨h1, h2⟩) fun _ => ⟨h3, h4⟩
  cases l with
  | true_ => exact ⟨hw, hw⟩
  | false_ => exact ⟨hw, hw⟩
  | other i => exact ⟨hw, hw⟩
  | action k i => exact ⟨hw, hw⟩
  | pred p =>
    cases p with
    | nogroup =>
      have hl : o.group = none := hl
      exact ⟨hw.congr (fun _ => ⟨rfl, rfl⟩) fun h => absurd hl h, hw.congr (fun _ => ⟨rfl, rfl⟩) fun h => absurd hl h⟩
    | nouser =>
      have hl : o.user = none := hl
      exact ⟨hw.congr (fun h => absurd hl h) fun _ => ⟨rfl, rfl⟩, hw.congr (fun h => absurd hl h) fun _ => ⟨rfl, rfl⟩⟩
    | empty =>
      simp only [transfer, flowEmpty]
      split <;> exact ⟨same _ rfl rfl rfl rfl, same _ rfl rfl rfl rfl⟩
    | _ => exact ⟨same _ rfl rfl rfl rfl, same _ rfl rfl rfl rfl⟩
  | cmp r u c n =>
    cases r with
    | gid =>
      obtain ⟨rfl, hl, h0, hM⟩ := hl
      have ho := flowId_other (d := d) (lookup := E.noGroup) (r := .gid) (r' := .uid) (p := .nogroup) (p' := .nouser) (n := n) (by simp) (by simp)
      have hk := fun v hv => flowId_owner (d := d) (lookup := E.noGroup) (r := .gid) (p := .nogroup) h0 hM (v := v) hv (hw.group n v hl hv)
      simp only [transfer]
      refine ⟨⟨fun m v h1 h2 => ?_, fun m v h1 h2 => ?_⟩, fun m v h1 h2 => ?_, fun m v h1 h2 => ?_⟩
      · rw [ho.1, ho.2.1]; exact hw.user m v h1 h2
      · cases hl.symm.trans h1; exact (hk v h2).1
      · rw [ho.2.2.1, ho.2.2.2]; exact hw.user m v h1 h2
      · cases hl.symm.trans h1; exact (hk v h2).2
    | uid =>
      obtain ⟨rfl, hl, h0, hM⟩ := hl
      have ho := flowId_other (d := d) (lookup := E.noUser) (r := .uid) (r' := .gid) (p := .nouser) (p' := .nogroup) (n := n) (by simp) (by simp)
      have hk := fun v hv => flowId_owner (d := d) (lookup := E.noUser) (r := .uid) (p := .nouser) h0 hM (v := v) hv (hw.user n v hl hv)
      simp only [transfer]
      refine ⟨⟨fun m v h1 h2 => ?_, fun m v h1 h2 => ?_⟩, fun m v h1 h2 => ?_, fun m v h1 h2 => ?_⟩
      · cases hl.symm.trans h1; exact (hk v h2).1
      · rw [ho.1, ho.2.1]; exact hw.group m v h1 h2
      · cases hl.symm.trans h1; exact (hk v h2).2
      · rw [ho.2.2.1, ho.2.2.2]; exact hw.group m v h1 h2
    | _ => cases c <;> exact ⟨same _ rfl rfl rfl rfl, same _ rfl rfl rfl rfl⟩
  | lname i => exact ⟨same _ rfl rfl rfl rfl, hw⟩
  | samefile dev ino => exact ⟨same _ rfl rfl rfl rfl, same _ rfl rfl rfl rfl⟩
  | type m => exact ⟨same _ rfl rfl rfl rfl, same _ rfl rfl rfl rfl⟩
  | xtype m => exact ⟨same _ rfl rfl rfl rfl, same _ rfl rfl rfl rfl⟩

/-! ### data_flow_leave -/

theorem LF_const {e : Expr T} {a : Ann T} {l : Leaf} {level : Nat} (he : e = .leaf a l) (hg : Good level e)
    (hst : SW level e) :
    (l = .true_ → e.pure = true ∧ e.at_ = true ∧ e.af = false) ∧
    (l = .false_ → e.pure = true ∧ e.at_ = false ∧ e.af = true) := by
  subst he
  rw [Good_leaf] at hg
  rw [SW_leaf] at hst
  constructor <;> rintro rfl
  all_goals
    have hp : a.pure = true := by rw [hg]; simp [pureLeaf]
    have := hst hp
    simp_all [Expr.pure, Expr.at_, Expr.af, Expr.ann]

/-- Constants have constant flags. -/
def ConstFlags (e : Expr T) : Prop :=
  (e.isTrue = true → e.pure = true ∧ e.at_ = true ∧ e.af = false) ∧
  (e.isFalse = true → e.pure = true ∧ e.at_ = false ∧ e.af = true)

theorem constFlags_of {e : Expr T} {level : Nat} (hg : Good level e) (hst : SW level e) : ConstFlags e := by
  cases e with
  | node a o cs => simp [ConstFlags, Expr.isTrue, Expr.isFalse]
  | leaf a l =>
    have := LF_const rfl hg hst
    constructor
    · intro h; apply this.1; cases l <;> simp_all [Expr.isTrue]
    · intro h; apply this.2; cases l <;> simp_all [Expr.isFalse]

theorem constFlags_costE {e : Expr T} (x : T) (h : ConstFlags e) : ConstFlags (costE e x) := by
  simpa [ConstFlags] using h

@[simp] theorem setAnn_setAnn (e : Expr T) (b c : Ann T) : (e.setAnn b).setAnn c = e.setAnn c := by cases e <;> rfl
theorem setAnn_self (e : Expr T) : e.setAnn e.ann = e := by cases e <;> rfl

@[simp] theorem constE_isTrue (b : Bool) : (constE E b).isTrue = b := by cases b <;> rfl
@[simp] theorem constE_isFalse (b : Bool) : (constE E b).isFalse = !b := by cases b <;> rfl
@[simp] theorem constE_pure' (b : Bool) : (constE E b).pure = true := constE_pure E b
@[simp] theorem constE_at (b : Bool) : (constE E b).at_ = b := by cases b <;> rfl
@[simp] theorem constE_af (b : Bool) : (constE E b).af = !b := by cases b <;> rfl

theorem leave_cases {e : Expr T} (a : After) (hc : ConstFlags e) :
    (∃ b x, (leave E e a).1 = costE (constE E b) x ∧ e.pure = true ∧
      (if b then dfIsBottom (leave E e a).2.f = true ∧ dfIsBottom (leave E e a).2.t = false
       else dfIsBottom (leave E e a).2.t = true)) ∨
    (∃ b, (leave E e a).1 = e.setAnn b ∧ b.pure = e.pure ∧ (e.pure = true → b.at_ = e.at_ ∧ b.af = e.af) ∧
      b.at_ = dfIsBottom (leave E e a).2.f ∧ b.af = dfIsBottom (leave E e a).2.t) := by
  obtain ⟨x, hx⟩ := leaveProb_cost E e
  unfold leave
  dsimp only
  rw [hx]
  have hf1 : e.at_ = true → dfIsBottom (leaveFacts e a).f = true := by
    intro h; simp [leaveFacts, h, bot_bottom]
  have hf2 : e.af = true → dfIsBottom (leaveFacts e a).t = true := by
    intro h; simp [leaveFacts, h, bot_bottom]
  generalize leaveFacts e a = a' at *
  have hc' := constFlags_costE x hc
  have e1 : e.pure = (costE e x).pure := by simp
  have e2 : e.at_ = (costE e x).at_ := by simp
  have e3 : e.af = (costE e x).af := by simp
  have e4 : ∀ b, e.setAnn b = (costE e x).setAnn b := by intro b; simp [costE]
  simp only [e1, e2, e3, e4] at *
  generalize costE e x = e' at *
  clear hx e1 e2 e3 e4 hc
  cases hp : e'.pure with
  | false =>
    right
    have h1 : e'.isTrue = false := by
      cases h : e'.isTrue
      · rfl
      · have := (hc'.1 h).1; simp [hp] at this
    cases hbf : dfIsBottom a'.f <;> cases hbt : dfIsBottom a'.t
    · refine ⟨e'.ann, ?_, hp, by simp, ?_, ?_⟩
      · simp [leaveTrue, leaveFalse, hbf, hbt, setAnn_self]
      · cases h : e'.at_
        · exact h
        · simp [hf1 h] at hbf
      · cases h : e'.af
        · exact h
        · simp [hf2 h] at hbt
    · refine ⟨{ e'.ann with af := true, cost := E.costs.setProb false e'.ann.cost }, ?_, hp, by simp, ?_, rfl⟩
      · simp [leaveTrue, leaveFalse, hbf, hbt, hp]
      · cases h : e'.at_
        · exact h
        · simp [hf1 h] at hbf
    · refine ⟨{ e'.ann with at_ := true, cost := E.costs.setProb true e'.ann.cost }, ?_, hp, by simp, rfl, ?_⟩
      · simp [leaveTrue, leaveFalse, hbf, hbt, hp]
      · cases h : e'.af
        · exact h
        · simp [hf2 h] at hbt
    · refine ⟨{ e'.ann with at_ := true, af := true, cost := E.costs.setProb false (E.costs.setProb true e'.ann.cost) }, ?_, hp, by simp, rfl, rfl⟩
      have hp2 : (e'.setAnn { e'.ann with at_ := true, cost := E.costs.setProb true e'.ann.cost }).pure = false := by
        simp only [Expr.pure, ann_setAnn]; exact hp
      simp [leaveTrue, leaveFalse, hbf, hbt, hp, hp2]
  | true =>
    cases hbf : dfIsBottom a'.f <;> cases hbt : dfIsBottom a'.t
    · right
      refine ⟨e'.ann, ?_, hp, fun _ => ⟨rfl, rfl⟩, ?_, ?_⟩
      · simp [leaveTrue, leaveFalse, hbf, hbt, setAnn_self]
      · cases h : e'.at_
        · exact h
        · simp [hf1 h] at hbf
      · cases h : e'.af
        · exact h
        · simp [hf2 h] at hbt
    · cases hF : e'.isFalse with
      | false =>
        left
        refine ⟨false, (constE E false).ann.cost, ?_, rfl, ?_⟩
        · rw [costE_self]; simp [leaveTrue, leaveFalse, hbf, hbt, hp, hF]
        · simp
      | true =>
        right
        have := hc'.2 hF
        refine ⟨e'.ann, ?_, hp, fun _ => ⟨rfl, rfl⟩, this.2.1, this.2.2⟩
        simp [leaveTrue, leaveFalse, hbf, hbt, hp, hF, setAnn_self]
    · cases hT : e'.isTrue with
      | false =>
        left
        refine ⟨true, (constE E true).ann.cost, ?_, rfl, ?_⟩
        · rw [costE_self]; simp [leaveTrue, leaveFalse, hbf, hbt, hp, hT]
        · simp
      | true =>
        right
        have := hc'.1 hT
        refine ⟨e'.ann, ?_, hp, fun _ => ⟨rfl, rfl⟩, this.2.1, this.2.2⟩
        simp [leaveTrue, leaveFalse, hbf, hbt, hp, hT, setAnn_self]
    · left
      refine ⟨false, (constE E false).ann.cost, ?_, rfl, by simp⟩
      rw [costE_self]
      simp only [leaveTrue, hbf, hp, if_true, Bool.not_true, Bool.false_eq_true, if_false]
      cases hT : e'.isTrue with
      | false => simp [leaveFalse, hbt]
      | true =>
        have hF : e'.isFalse = false := by
          cases h : e'.isFalse
          · rfl
          · have h1 := (hc'.1 hT).2.1
            have h2 := (hc'.2 h).2.1
            simp [h1] at h2
        simp [leaveFalse, hbt, hp, hF]

/-- The result of `flowFinish`: a constant, or the expression with flags that say exactly
which facts are impossible. -/
theorem finish_cases {e : Expr T} (ign : Bool) (before : Dom) (a : After) (imp : Dom) (hc : ConstFlags e) :
    (∃ b x, (flowFinish E ign before e a imp).e = costE (constE E b) x ∧
      (ign = false → dfIsBottom before = false → e.pure = true ∧
        (if b then dfIsBottom (flowFinish E ign before e a imp).a.f = true ∧ dfIsBottom (flowFinish E ign before e a imp).a.t = false
         else dfIsBottom (flowFinish E ign before e a imp).a.t = true))) ∨
    (∃ b, (flowFinish E ign before e a imp).e = e.setAnn b ∧ b.pure = e.pure ∧ (e.pure = true → b.at_ = e.at_ ∧ b.af = e.af) ∧
      dfIsBottom before = false ∧
      b.at_ = dfIsBottom (flowFinish E ign before e a imp).a.f ∧ b.af = dfIsBottom (flowFinish E ign before e a imp).a.t) := by
  have key : ∀ e1, ConstFlags e1 → flowVisit E ign before e = e1 →
    (∃ b x, (flowFinish E ign before e a imp).e = costE (constE E b) x ∧ e1.pure = true ∧
      (if b then dfIsBottom (flowFinish E ign before e a imp).a.f = true ∧ dfIsBottom (flowFinish E ign before e a imp).a.t = false
         else dfIsBottom (flowFinish E ign before e a imp).a.t = true)) ∨
    (∃ b, (flowFinish E ign before e a imp).e = e1.setAnn b ∧ b.pure = e1.pure ∧ (e1.pure = true → b.at_ = e1.at_ ∧ b.af = e1.af) ∧
      b.at_ = dfIsBottom (flowFinish E ign before e a imp).a.f ∧ b.af = dfIsBottom (flowFinish E ign before e a imp).a.t) := by
    intro e1 hc1 h1
    unfold flowFinish
    dsimp only
    rw [h1]
    obtain ⟨x, hx⟩ := transferE_cost E before e1 a
    rw [hx]
    rcases leave_cases E (transferE E before e1 a).2 (constFlags_costE x hc1) with h | ⟨b, h⟩
    · simp only [pure_costE] at h
      exact Or.inl h
    · right
      simp only [pure_costE, at_costE, af_costE] at h
      exact ⟨b, by rw [h.1, costE, setAnn_setAnn], h.2⟩
  have hcc : ConstFlags (constE E false) := by simp [ConstFlags]
  by_cases hb : dfIsBottom before = true
  · left
    have : flowVisit E ign before e = constE E false := by simp [flowVisit, hb]
    rcases key _ hcc this with ⟨b, x, h, _⟩ | ⟨b, h, h2, h3, _⟩
    · exact ⟨b, x, h, fun _ h' => by simp [hb] at h'⟩
    · refine ⟨false, b.cost, ?_, fun _ h' => by simp [hb] at h'⟩
      rw [h]
      have h3 := h3 (by simp)
      cases b
      simp only [Expr.pure] at h2 h3 ⊢
      unfold costE
      congr 1
      simp only [Ann.mk.injEq, and_true]
      refine ⟨h2, h3.1, h3.2⟩
  · simp only [Bool.not_eq_true] at hb
    by_cases hi : (ign && e.pure) = true
    · left
      have : flowVisit E ign before e = constE E false := by simp [flowVisit, hb, hi]
      have hi' : ign = true := by simp at hi; exact hi.1
      rcases key _ hcc this with ⟨b, x, h, _⟩ | ⟨b, h, h2, h3, _⟩
      · exact ⟨b, x, h, fun h' => by simp [hi'] at h'⟩
      · refine ⟨false, b.cost, ?_, fun h' => by simp [hi'] at h'⟩
        rw [h]
        have h3 := h3 (by simp)
        cases b
        simp only [Expr.pure] at h2 h3 ⊢
        unfold costE
        congr 1
        simp only [Ann.mk.injEq, and_true]
        refine ⟨h2, h3.1, h3.2⟩
    · have : flowVisit E ign before e = e := by
        simp only [Bool.not_eq_true] at hi
        simp [flowVisit, hb, hi]
      rcases key _ hc this with ⟨b, x, h, h2⟩ | ⟨b, h, h2, h3, h4⟩
      · exact Or.inl ⟨b, x, h, fun _ _ => h2⟩
      · exact Or.inr ⟨b, h, h2, h3, hb, h4⟩

theorem finish_facts {e : Expr T} {before : Dom} (a : After) (imp : Dom) (hb : dfIsBottom before = false) :
    (flowFinish E false before e a imp).a = leaveFacts e (transferE E before e a).2 := by
  unfold flowFinish
  dsimp only
  have : flowVisit E false before e = e := by simp [flowVisit, hb]
  rw [this]
  obtain ⟨x, hx⟩ := transferE_cost E before e a
  rw [hx]
  simp [leave, leaveFacts]

/-! ### Owners through the whole flow -/

theorem leaveFacts_owned {o : Owners} (hO : Possible o) (e : Expr T) {a : After} (h : Owned E o a.t ∧ Owned E o a.f) :
    Owned E o (leaveFacts e a).t ∧ Owned E o (leaveFacts e a).f := by
  unfold leaveFacts
  constructor <;> dsimp only <;> split
  · exact Owned.bottom hO
  · exact h.1
  · exact Owned.bottom hO
  · exact h.2

theorem flowVisit_or (ign : Bool) (before : Dom) (e : Expr T) : flowVisit E ign before e = e ∨ flowVisit E ign before e = constE E false := by
  unfold flowVisit
  dsimp only
  split
  · exact Or.inr rfl
  · split
    · exact Or.inr rfl
    · exact Or.inl rfl

theorem finish_owned {o : Owners} (hO : Possible o) (ign : Bool) (before : Dom) (e : Expr T) (a : After) (imp : Dom)
    (h : Owned E o a.t ∧ Owned E o a.f) (hl : ∀ b l, e = .leaf b l → Owned E o (transfer E before l a).t ∧ Owned E o (transfer E before l a).f) :
    Owned E o (flowFinish E ign before e a imp).a.t ∧ Owned E o (flowFinish E ign before e a imp).a.f := by
  unfold flowFinish leave
  dsimp only
  apply leaveFacts_owned E hO
  rcases flowVisit_or E ign before e with h1 | h1 <;> rw [h1]
  · cases e with
    | leaf b l => exact hl b l rfl
    | node b op cs => exact h
  · exact h

theorem flowAnd_owned {o : Owners} {cs : List (Expr T)}
    (ih : ∀ c ∈ cs, ∀ ign before imp, Owned E o before → Owned E o (dataFlow E ign before imp c).a.t ∧ Owned E o (dataFlow E ign before imp c).a.f) :
    ∀ (ign : Bool) (before imp acc : Dom), Owned E o before → Owned E o acc →
      Owned E o (flowAnd E ign before imp acc cs).a.t ∧ Owned E o (flowAnd E ign before imp acc cs).a.f := by
  induction cs with
  | nil => intro ign before imp acc h1 h2; rw [flowAnd]; exact ⟨h1, h2⟩
  | cons c cs ihl =>
    intro ign before imp acc h1 h2
    rw [flowAnd]
    have hc := fun ign => ih c (by simp) ign before imp h1
    exact ihl (fun d hd => ih d (by simp [hd])) _ _ _ _ (hc _).1 (h2.join (hc _).2)

theorem flowOr_owned {o : Owners} {cs : List (Expr T)}
    (ih : ∀ c ∈ cs, ∀ ign before imp, Owned E o before → Owned E o (dataFlow E ign before imp c).a.t ∧ Owned E o (dataFlow E ign before imp c).a.f) :
    ∀ (ign : Bool) (before imp acc : Dom), Owned E o before → Owned E o acc →
      Owned E o (flowOr E ign before imp acc cs).a.t ∧ Owned E o (flowOr E ign before imp acc cs).a.f := by
  induction cs with
  | nil => intro ign before imp acc h1 h2; rw [flowOr]; exact ⟨h2, h1⟩
  | cons c cs ihl =>
    intro ign before imp acc h1 h2
    rw [flowOr]
    have hc := fun ign => ih c (by simp) ign before imp h1
    exact ihl (fun d hd => ih d (by simp [hd])) _ _ _ _ (hc _).2 (h2.join (hc _).1)

theorem dataFlow_owned {o : Owners} (hO : Possible o) : ∀ e : Expr T, Good E.level e → NCL (NBLeaf o E.level) e →
    ∀ ign before imp, Owned E o before → Owned E o (dataFlow E ign before imp e).a.t ∧ Owned E o (dataFlow E ign before imp e).a.f := by
  intro e
  induction e using Expr.ind with
  | hl a l =>
    intro _ hnc ign before imp h
    rw [dataFlow]
    exact finish_owned E hO _ _ _ _ _ ⟨h, h⟩ (fun b l' hl => by cases hl; exact transfer_owned E h l (NCL_leaf.1 hnc))
  | hn a op cs ih =>
    intro hg hnc ign before imp h
    have hgn := Good_node.1 hg
    have ih' := fun c hc => ih c hc (hgn.2.2 c hc) ((NCL_node.1 hnc).2 c hc)
    have nl : ∀ (es : List (Expr T)) (x : After), ∀ b l, rebuild a op es = .leaf b l → Owned E o (transfer E before l x).t ∧ Owned E o (transfer E before l x).f :=
      fun es x b l hl => by simp [rebuild] at hl
    match op, cs, hgn.1 with
    | .comma, cs, _ => exact absurd rfl (NCL_node.1 hnc).1
    | .and, cs, _ =>
      have hd : dataFlow E ign before imp (.node a .and cs) =
          flowFinish E ign before (rebuild a .and (flowAnd E ign before imp dfBottom cs).es)
            (flowAnd E ign before imp dfBottom cs).a (flowAnd E ign before imp dfBottom cs).impure := by
        rw [dataFlow.eq_def]
      rw [hd]
      exact finish_owned E hO _ _ _ _ _ (flowAnd_owned E ih' _ _ _ _ h (Owned.bottom hO)) (nl _ _)
    | .or, cs, _ =>
      have hd : dataFlow E ign before imp (.node a .or cs) =
          flowFinish E ign before (rebuild a .or (flowOr E ign before imp dfBottom cs).es)
            (flowOr E ign before imp dfBottom cs).a (flowOr E ign before imp dfBottom cs).impure := by
        rw [dataFlow.eq_def]
      rw [hd]
      exact finish_owned E hO _ _ _ _ _ (flowOr_owned E ih' _ _ _ _ h (Owned.bottom hO)) (nl _ _)
    | .not, [c], _ =>
      have hd : dataFlow E ign before imp (.node a .not [c]) =
          flowFinish E ign before (rebuild a .not [(dataFlow E ign before imp c).e])
            ⟨(dataFlow E ign before imp c).a.f, (dataFlow E ign before imp c).a.t⟩ (dataFlow E ign before imp c).impure := by
        rw [dataFlow.eq_def]; dsimp only; rw [flowNot]
      rw [hd]
      have := ih' c (by simp) ign before imp h
      exact finish_owned E hO _ _ _ _ _ ⟨this.2, this.1⟩ (nl _ _)

/-! ### The combined invariant -/

/-- What is known about a subtree whose result matters, reached with possible facts. -/
structure NB (E : Env T) (o : Owners) (e : Expr T) (r : Flow T) (s : Expr T) : Prop where
  at_ : e.at_ = true → dfIsBottom r.a.f = true
  af : e.af = true → dfIsBottom r.a.t = true
  n : r.e.pure = true → ¬ (dfIsBottom r.a.t = true ∧ dfIsBottom r.a.f = true)
  bt : s.isTrue = true → dfIsBottom r.a.t = false
  bf : s.isFalse = true → dfIsBottom r.a.f = false
  cr : ∀ l, core s = some l → pureLeaf E.level l = true →
    dfIsBottom r.a.t = false ∧ dfIsBottom r.a.f = false ∧ s.at_ = false ∧ s.af = false
  owned : Owned E o r.a.t ∧ Owned E o r.a.f

/-- Data flow and simplify on a subtree. -/
structure CL (E : Env T) (o : Owners) (ign : Bool) (before imp : Dom) (e : Expr T) : Prop where
  own : Owned E o before → Owned E o (dataFlow E ign before imp e).a.t ∧ Owned E o (dataFlow E ign before imp e).a.f
  sw : Owned E o before → SW E.level (simplify E ign (dataFlow E ign before imp e).e)
  nb : ign = false → dfIsBottom before = false → Owned E o before →
    NB E o e (dataFlow E ign before imp e) (simplify E ign (dataFlow E ign before imp e).e)

theorem constE_SW (b : Bool) (x : T) : SW E.level (costE (constE E b) x) := by
  cases b <;> simp [constE, costE, Expr.setAnn, Expr.ann, SW_leaf, LF1, leafAnn, atLeaf, afLeaf]

theorem simplify_costConst (ign : Bool) (b : Bool) (x : T) :
    simplify E ign (costE (constE E b) x) = costE (constE E b) x := by
  cases b <;> simp [constE, costE, Expr.setAnn, Expr.ann, simplify, visit]

theorem core_costConst (b : Bool) (x : T) : core (costE (constE E b) x) = none := by
  cases b <;> simp [constE, costE, Expr.setAnn, Expr.ann, core]

theorem andKeep_nil {cs : List (Expr T)} (h : andKeep cs = []) : ∀ c ∈ cs, c.isTrue = true := by
  induction cs with
  | nil => simp
  | cons c cs ih =>
    rw [andKeep] at h
    split at h
    · rename_i hc
      intro d hd
      rcases List.mem_cons.1 hd with rfl | hd
      · exact hc
      · exact ih h d hd
    · split at h <;> simp at h

/-- The `-and` loop followed by simplify of the children. -/
structure CLAnd (E : Env T) (o : Owners) (before acc : Dom) (cs : List (Expr T)) (rs : Flows T) (ks : List (Expr T)) : Prop where
  acc : dfIsBottom acc = false → dfIsBottom rs.a.f = false
  k1 : dfIsBottom before = false → Owned E o before → (∀ k ∈ ks, k.isTrue = true) →
    dfIsBottom rs.a.t = false ∧ ∀ c ∈ cs, c.af = false
  k3 : dfIsBottom before = false → Owned E o before → ∀ z, andKeep ks = [z] → z.isFalse = true →
    dfIsBottom rs.a.f = false ∧ ∃ c ∈ cs, c.at_ = false
  k4 : dfIsBottom before = false → Owned E o before → ∀ z l, andKeep ks = [z] → core z = some l → pureLeaf E.level l = true →
    dfIsBottom rs.a.t = false ∧ dfIsBottom rs.a.f = false ∧ (∃ c ∈ cs, c.at_ = false) ∧ (∀ c ∈ cs, c.af = false) ∧
    z.at_ = false ∧ z.af = false
  k6 : dfIsBottom before = false → Owned E o before → (∀ e ∈ rs.es, e.pure = true) → (dfIsBottom rs.a.t = true ∨ ∃ c ∈ cs, c.af = true) →
    dfIsBottom rs.a.f = false ∧ ∃ c ∈ cs, c.at_ = false

theorem flowAnd_len : ∀ (cs : List (Expr T)) (ign : Bool) (before imp acc : Dom),
    (flowAnd E ign before imp acc cs).es.length = cs.length := by
  intro cs
  induction cs with
  | nil => intros; rw [flowAnd]
  | cons c cs ih => intros; rw [flowAnd]; simp [ih]

theorem flowAnd_empty (cs : List (Expr T)) (ign : Bool) (before imp acc : Dom) :
    (flowAnd E ign before imp acc cs).es.isEmpty = cs.isEmpty := by
  have := flowAnd_len E cs ign before imp acc
  cases h : (flowAnd E ign before imp acc cs).es <;> cases cs <;> simp_all

theorem flowAnd_sw {o : Owners} {cs : List (Expr T)} (ih : ∀ c ∈ cs, ∀ ign before imp, CL E o ign before imp c) :
    ∀ (ign : Bool) (before imp acc : Dom), Owned E o before → ∀ k ∈ visits (simpLocal E) .and ign (flowAnd E ign before imp acc cs).es,
      SW E.level k := by
  induction cs with
  | nil => intro ign before imp acc _; rw [flowAnd]; simp [visits]
  | cons c cs ihl =>
    intro ign before imp acc hw k hk
    rw [flowAnd] at hk
    simp only [visits, List.mem_cons, flowAnd_empty] at hk
    rcases hk with rfl | hk
    · exact (ih c (by simp) _ _ _).sw hw
    · exact ihl (fun d hd => ih d (by simp [hd])) _ _ _ _ ((ih c (by simp) _ _ _).own hw).1 k hk

theorem flowAnd_cl {o : Owners} {cs : List (Expr T)} (ih : ∀ c ∈ cs, ∀ ign before imp, CL E o ign before imp c) :
    ∀ (before imp acc : Dom), CLAnd E o before acc cs (flowAnd E false before imp acc cs)
      (visits (simpLocal E) .and false (flowAnd E false before imp acc cs).es) := by
  induction cs with
  | nil =>
    intro before imp acc
    rw [flowAnd]
    refine ⟨id, fun h _ _ => ⟨h, by simp⟩, fun _ _ z h => by simp [visits, andKeep] at h, fun _ _ z l h => by simp [visits, andKeep] at h, ?_⟩
    intro h _ _ h'
    simp [h] at h'
  | cons c cs ihl =>
    intro before imp acc
    rw [flowAnd]
    simp only [visits, flowAnd_empty]
    have hci : childIgn .and false cs.isEmpty = false := by simp [childIgn]
    rw [hci]
    have hc := ih c (by simp) false before imp
    have hcs := ihl (fun d hd => ih d (by simp [hd])) (dataFlow E false before imp c).a.t (dataFlow E false before imp c).impure
      (dfJoin acc (dataFlow E false before imp c).a.f)
    have hcn := hc.nb rfl
    rw [simplify] at hcn
    clear hc ih ihl
    generalize dataFlow E false before imp c = r at *
    generalize hk : visit (simpLocal E) false r.e = k at *
    generalize flowAnd E false r.a.t r.impure (dfJoin acc r.a.f) cs = rs at *
    generalize visits (simpLocal E) .and false rs.es = ks at *
    have hNot : ∀ b : Bool, ¬ (b = true) → b = false := by intro b; cases b <;> simp
    refine ⟨fun h => hcs.acc (nb_join (Or.inl h)), ?_, ?_, ?_, ?_⟩
    · intro hb hw hall
      have hn := hcn hb hw
      have h1 := hn.bt (hall k (by simp))
      obtain ⟨h2, h3⟩ := hcs.k1 h1 hn.owned.1 (fun x hx => hall x (by simp [hx]))
      refine ⟨h2, fun d hd => ?_⟩
      rcases List.mem_cons.1 hd with rfl | hd
      · exact hNot _ (fun h => by have := hn.af h; simp [h1] at this)
      · exact h3 d hd
    · intro hb hw z hz hzF
      have hn := hcn hb hw
      have hk' : k = z → dfIsBottom rs.a.f = false ∧ ∃ d ∈ c :: cs, d.at_ = false := by
        rintro rfl
        have h1 := hn.bf hzF
        exact ⟨hcs.acc (nb_join (Or.inr h1)), c, by simp, hNot _ (fun h => by have := hn.at_ h; simp [h1] at this)⟩
      rw [andKeep] at hz
      split at hz
      · rename_i hT
        obtain ⟨h2, d, hd, h3⟩ := hcs.k3 (hn.bt hT) hn.owned.1 z hz hzF
        exact ⟨h2, d, by simp [hd], h3⟩
      · split at hz
        · exact hk' (by simpa using hz)
        · exact hk' (by simp at hz; exact hz.1)
    · intro hb hw z l hz hcr hpl
      have hn := hcn hb hw
      rw [andKeep] at hz
      split at hz
      · rename_i hT
        have h1 := hn.bt hT
        obtain ⟨h2, h3, ⟨d, hd, h4⟩, h5, h6⟩ := hcs.k4 h1 hn.owned.1 z l hz hcr hpl
        refine ⟨h2, h3, ⟨d, by simp [hd], h4⟩, ?_, h6⟩
        intro x hx
        rcases List.mem_cons.1 hx with rfl | hx
        · exact hNot _ (fun h => by have := hn.af h; simp [h1] at this)
        · exact h5 x hx
      · split at hz
        · rename_i hT haf
          simp at hz
          subst hz
          have := hn.cr l hcr hpl
          simp [this] at haf
        · simp only [List.cons.injEq] at hz
          obtain ⟨rfl, hz⟩ := hz
          obtain ⟨c1, c2, c3, c4⟩ := hn.cr l hcr hpl
          obtain ⟨h2, h3⟩ := hcs.k1 c1 hn.owned.1 (andKeep_nil hz)
          refine ⟨h2, hcs.acc (nb_join (Or.inr c2)), ⟨c, by simp, hNot _ (fun h => by have := hn.at_ h; simp [c1, c2] at this)⟩, ?_, c3, c4⟩
          intro x hx
          rcases List.mem_cons.1 hx with rfl | hx
          · exact hNot _ (fun h => by have := hn.af h; simp [c1, c2] at this)
          · exact h3 x hx
    · intro hb hw hall h
      have hn := hcn hb hw
      cases hbt : dfIsBottom r.a.t with
      | true =>
        have h1 : dfIsBottom r.a.f = false := hNot _ (fun h => hn.n (hall r.e (by simp)) ⟨hbt, h⟩)
        exact ⟨hcs.acc (nb_join (Or.inr h1)), c, by simp, hNot _ (fun h => by have := hn.at_ h; simp [h1] at this)⟩
      | false =>
        obtain ⟨h2, d, hd, h3⟩ := hcs.k6 hbt hn.owned.1 (fun x hx => hall x (by simp [hx])) (by
          rcases h with h | ⟨d, hd, h⟩
          · exact Or.inl h
          · rcases List.mem_cons.1 hd with rfl | hd
            · have := hn.af h; simp [hbt] at this
            · exact Or.inr ⟨d, hd, h⟩)
        exact ⟨h2, d, by simp [hd], h3⟩

theorem orKeep_nil {cs : List (Expr T)} (h : orKeep cs = []) : ∀ c ∈ cs, c.isFalse = true := by
  induction cs with
  | nil => simp
  | cons c cs ih =>
    rw [orKeep] at h
    split at h
    · rename_i hc
      intro d hd
      rcases List.mem_cons.1 hd with rfl | hd
      · exact hc
      · exact ih h d hd
    · split at h <;> simp at h

/-- The `-or` loop followed by simplify of the children. -/
structure CLOr (E : Env T) (o : Owners) (before acc : Dom) (cs : List (Expr T)) (rs : Flows T) (ks : List (Expr T)) : Prop where
  acc : dfIsBottom acc = false → dfIsBottom rs.a.t = false
  k1 : dfIsBottom before = false → Owned E o before → (∀ k ∈ ks, k.isFalse = true) →
    dfIsBottom rs.a.f = false ∧ ∀ c ∈ cs, c.at_ = false
  k3 : dfIsBottom before = false → Owned E o before → ∀ z, orKeep ks = [z] → z.isTrue = true →
    dfIsBottom rs.a.t = false ∧ ∃ c ∈ cs, c.af = false
  k4 : dfIsBottom before = false → Owned E o before → ∀ z l, orKeep ks = [z] → core z = some l → pureLeaf E.level l = true →
    dfIsBottom rs.a.f = false ∧ dfIsBottom rs.a.t = false ∧ (∃ c ∈ cs, c.af = false) ∧ (∀ c ∈ cs, c.at_ = false) ∧
    z.at_ = false ∧ z.af = false
  k6 : dfIsBottom before = false → Owned E o before → (∀ e ∈ rs.es, e.pure = true) → (dfIsBottom rs.a.f = true ∨ ∃ c ∈ cs, c.at_ = true) →
    dfIsBottom rs.a.t = false ∧ ∃ c ∈ cs, c.af = false

theorem flowOr_len : ∀ (cs : List (Expr T)) (ign : Bool) (before imp acc : Dom),
    (flowOr E ign before imp acc cs).es.length = cs.length := by
  intro cs
  induction cs with
  | nil => intros; rw [flowOr]
  | cons c cs ih => intros; rw [flowOr]; simp [ih]

theorem flowOr_empty (cs : List (Expr T)) (ign : Bool) (before imp acc : Dom) :
    (flowOr E ign before imp acc cs).es.isEmpty = cs.isEmpty := by
  have := flowOr_len E cs ign before imp acc
  cases h : (flowOr E ign before imp acc cs).es <;> cases cs <;> simp_all

theorem flowOr_sw {o : Owners} {cs : List (Expr T)} (ih : ∀ c ∈ cs, ∀ ign before imp, CL E o ign before imp c) :
    ∀ (ign : Bool) (before imp acc : Dom), Owned E o before → ∀ k ∈ visits (simpLocal E) .or ign (flowOr E ign before imp acc cs).es,
      SW E.level k := by
  induction cs with
  | nil => intro ign before imp acc _; rw [flowOr]; simp [visits]
  | cons c cs ihl =>
    intro ign before imp acc hw k hk
    rw [flowOr] at hk
    simp only [visits, List.mem_cons, flowOr_empty] at hk
    rcases hk with rfl | hk
    · exact (ih c (by simp) _ _ _).sw hw
    · exact ihl (fun d hd => ih d (by simp [hd])) _ _ _ _ ((ih c (by simp) _ _ _).own hw).2 k hk

theorem flowOr_cl {o : Owners} {cs : List (Expr T)} (ih : ∀ c ∈ cs, ∀ ign before imp, CL E o ign before imp c) :
    ∀ (before imp acc : Dom), CLOr E o before acc cs (flowOr E false before imp acc cs)
      (visits (simpLocal E) .or false (flowOr E false before imp acc cs).es) := by
  induction cs with
  | nil =>
    intro before imp acc
    rw [flowOr]
    refine ⟨id, fun h _ _ => ⟨h, by simp⟩, fun _ _ z h => by simp [visits, orKeep] at h, fun _ _ z l h => by simp [visits, orKeep] at h, ?_⟩
    intro h _ _ h'
    simp [h] at h'
  | cons c cs ihl =>
    intro before imp acc
    rw [flowOr]
    simp only [visits, flowOr_empty]
    have hci : childIgn .or false cs.isEmpty = false := by simp [childIgn]
    rw [hci]
    have hc := ih c (by simp) false before imp
    have hcs := ihl (fun d hd => ih d (by simp [hd])) (dataFlow E false before imp c).a.f (dataFlow E false before imp c).impure
      (dfJoin acc (dataFlow E false before imp c).a.t)
    have hcn := hc.nb rfl
    rw [simplify] at hcn
    clear hc ih ihl
    generalize dataFlow E false before imp c = r at *
    generalize hk : visit (simpLocal E) false r.e = k at *
    generalize flowOr E false r.a.f r.impure (dfJoin acc r.a.t) cs = rs at *
    generalize visits (simpLocal E) .or false rs.es = ks at *
    have hNot : ∀ b : Bool, ¬ (b = true) → b = false := by intro b; cases b <;> simp
    refine ⟨fun h => hcs.acc (nb_join (Or.inl h)), ?_, ?_, ?_, ?_⟩
    · intro hb hw hall
      have hn := hcn hb hw
      have h1 := hn.bf (hall k (by simp))
      obtain ⟨h2, h3⟩ := hcs.k1 h1 hn.owned.2 (fun x hx => hall x (by simp [hx]))
      refine ⟨h2, fun d hd => ?_⟩
      rcases List.mem_cons.1 hd with rfl | hd
      · exact hNot _ (fun h => by have := hn.at_ h; simp [h1] at this)
      · exact h3 d hd
    · intro hb hw z hz hzF
      have hn := hcn hb hw
      have hk' : k = z → dfIsBottom rs.a.t = false ∧ ∃ d ∈ c :: cs, d.af = false := by
        rintro rfl
        have h1 := hn.bt hzF
        exact ⟨hcs.acc (nb_join (Or.inr h1)), c, by simp, hNot _ (fun h => by have := hn.af h; simp [h1] at this)⟩
      rw [orKeep] at hz
      split at hz
      · rename_i hT
        obtain ⟨h2, d, hd, h3⟩ := hcs.k3 (hn.bf hT) hn.owned.2 z hz hzF
        exact ⟨h2, d, by simp [hd], h3⟩
      · split at hz
        · exact hk' (by simpa using hz)
        · exact hk' (by simp at hz; exact hz.1)
    · intro hb hw z l hz hcr hpl
      have hn := hcn hb hw
      rw [orKeep] at hz
      split at hz
      · rename_i hT
        have h1 := hn.bf hT
        obtain ⟨h2, h3, ⟨d, hd, h4⟩, h5, h6⟩ := hcs.k4 h1 hn.owned.2 z l hz hcr hpl
        refine ⟨h2, h3, ⟨d, by simp [hd], h4⟩, ?_, h6⟩
        intro x hx
        rcases List.mem_cons.1 hx with rfl | hx
        · exact hNot _ (fun h => by have := hn.at_ h; simp [h1] at this)
        · exact h5 x hx
      · split at hz
        · rename_i hT haf
          simp at hz
          subst hz
          have := hn.cr l hcr hpl
          simp [this] at haf
        · simp only [List.cons.injEq] at hz
          obtain ⟨rfl, hz⟩ := hz
          obtain ⟨c1, c2, c3, c4⟩ := hn.cr l hcr hpl
          obtain ⟨h2, h3⟩ := hcs.k1 c2 hn.owned.2 (orKeep_nil hz)
          refine ⟨h2, hcs.acc (nb_join (Or.inr c1)), ⟨c, by simp, hNot _ (fun h => by have := hn.af h; simp [c1, c2] at this)⟩, ?_, c3, c4⟩
          intro x hx
          rcases List.mem_cons.1 hx with rfl | hx
          · exact hNot _ (fun h => by have := hn.at_ h; simp [c1, c2] at this)
          · exact h3 x hx
    · intro hb hw hall h
      have hn := hcn hb hw
      cases hbt : dfIsBottom r.a.f with
      | true =>
        have h1 : dfIsBottom r.a.t = false := hNot _ (fun h => hn.n (hall r.e (by simp)) ⟨h, hbt⟩)
        exact ⟨hcs.acc (nb_join (Or.inr h1)), c, by simp, hNot _ (fun h => by have := hn.af h; simp [h1] at this)⟩
      | false =>
        obtain ⟨h2, d, hd, h3⟩ := hcs.k6 hbt hn.owned.2 (fun x hx => hall x (by simp [hx])) (by
          rcases h with h | ⟨d, hd, h⟩
          · exact Or.inl h
          · rcases List.mem_cons.1 hd with rfl | hd
            · have := hn.at_ h; simp [hbt] at this
            · exact Or.inr ⟨d, hd, h⟩)
        exact ⟨h2, d, by simp [hd], h3⟩

theorem andKeep_not {cs : List (Expr T)} : ∀ c ∈ andKeep cs, c.isTrue = false := by
  induction cs with
  | nil => simp [andKeep]
  | cons c cs ih =>
    intro d hd
    rw [andKeep] at hd
    split at hd
    · exact ih d hd
    · rename_i hc
      split at hd
      · simp at hd; subst hd; simpa using hc
      · rcases List.mem_cons.1 hd with rfl | hd
        · simpa using hc
        · exact ih d hd

theorem orKeep_not {cs : List (Expr T)} : ∀ c ∈ orKeep cs, c.isFalse = false := by
  induction cs with
  | nil => simp [orKeep]
  | cons c cs ih =>
    intro d hd
    rw [orKeep] at hd
    split at hd
    · exact ih d hd
    · rename_i hc
      split at hd
      · simp at hd; subst hd; simpa using hc
      · rcases List.mem_cons.1 hd with rfl | hd
        · simpa using hc
        · exact ih d hd

theorem dropIgn_false (level : Nat) (cs : List (Expr T)) : dropIgnorable level false cs = cs := by
  simp [dropIgnorable]

theorem negate_SW {e : Expr T} (hg : Good E.level e) (h : SW E.level e) : SW E.level (negate E e) := by
  unfold negate
  split
  · exact (SW_node.1 h).2 _ (by simp)
  · have := constE_SW E false (constE E false).ann.cost; rwa [costE_self] at this
  · have := constE_SW E true (constE E true).ann.cost; rwa [costE_self] at this
  · rename_i x1 x2 x3
    rw [annotate1, SW_node]
    refine ⟨?_, by simpa using h⟩
    intro _ c l hc hcr hpl
    simp only [List.cons.injEq, and_true] at hc
    subst hc
    cases e with
    | node a o cs =>
      match o, cs, hcr with
      | .not, [c], _ => exact absurd rfl (x1 _ _ _)
    | leaf a l' =>
      obtain ⟨rfl, h1, h2⟩ := core_leaf hcr
      have := SW_leaf.1 h (by rw [Good_leaf.1 hg, hpl])
      simp [nodeAnn, Expr.at_, Expr.af, Expr.ann, this, h1, h2]

theorem annotate1_SW {a : Ann T} {o : Op} (ho : o ≠ .not) {cs : List (Expr T)} (h : ∀ c ∈ cs, SW E.level c) :
    SW E.level (annotate1 E (.node a o cs)) := by
  rw [annotate1, SW_node]
  exact ⟨fun h => absurd h ho, h⟩

theorem liftNot_SW (a : Ann T) (o : Op) (ho : o = .and ∨ o = .or) (cs : List (Expr T)) (hne : cs ≠ [])
    (hg : ∀ c ∈ cs, Good E.level c) (h : ∀ c ∈ cs, SW E.level c) : SW E.level (liftNot E a o cs) := by
  have ar : ∀ l : List (Expr T), l ≠ [] → arityOK o l ∧ arityOK o.flip l := by
    rcases ho with rfl | rfl <;> simp [arityOK, Op.flip]
  have ho1 : o ≠ .not ∧ o.flip ≠ .not := by rcases ho with rfl | rfl <;> simp [Op.flip]
  unfold liftNot; dsimp only
  split
  · exact annotate1_SW E ho1.1 h
  · apply negate_SW
    · refine annotate1_good E _ _ _ (ar _ (by simpa using hne)).2 ?_
      intro c hc
      obtain ⟨d, hd, rfl⟩ := List.mem_map.1 hc
      exact negate_good E d (hg d hd)
    · refine annotate1_SW E ho1.2 ?_
      intro c hc
      obtain ⟨d, hd, rfl⟩ := List.mem_map.1 hc
      exact negate_SW E (hg d hd) (h d hd)

theorem liftNot_core (a : Ann T) (o : Op) (ho : o = .and ∨ o = .or) (cs : List (Expr T)) :
    core (liftNot E a o cs) = none ∧ (liftNot E a o cs).isTrue = false ∧ (liftNot E a o cs).isFalse = false := by
  have key : ∀ o, o = .and ∨ o = .or → ∀ cs : List (Expr T), core (annotate1 E (.node a o cs)) = none := by
    rintro o (rfl | rfl) cs <;> simp [annotate1, core]
  have ho1 : o.flip = .and ∨ o.flip = .or := by rcases ho with rfl | rfl <;> simp [Op.flip]
  unfold liftNot; dsimp only
  split
  · exact ⟨key o ho cs, by simp [annotate1, Expr.isTrue], by simp [annotate1, Expr.isFalse]⟩
  · have h := key o.flip ho1 (cs.map (negate E))
    generalize hx : annotate1 E (.node a o.flip (cs.map (negate E))) = x at h
    have hx2 : ∃ b, x = .node b o.flip (cs.map (negate E)) := ⟨_, hx.symm⟩
    obtain ⟨b, rfl⟩ := hx2
    generalize hof : o.flip = o' at *
    have : negate E (.node b o' (cs.map (negate E))) = annotate1 E (.node (newAnn E) .not [.node b o' (cs.map (negate E))]) := by
      rcases ho1 with rfl | rfl <;> rfl
    rw [this]
    refine ⟨?_, by simp [annotate1, Expr.isTrue], by simp [annotate1, Expr.isFalse]⟩
    rw [annotate1, core]
    exact h

theorem simplify_node (ign : Bool) (a : Ann T) (o : Op) (cs : List (Expr T)) :
    simplify E ign (.node a o cs) = simpLocal E ign (rebuild a o (visits (simpLocal E) o ign cs)) := by
  rw [simplify, visit]

variable {f : File} {u : Nat}

theorem finish_at {e : Expr T} {before : Dom} (a : After) (imp : Dom) (hb : dfIsBottom before = false) :
    (e.at_ = true → dfIsBottom (flowFinish E false before e a imp).a.f = true) ∧
    (e.af = true → dfIsBottom (flowFinish E false before e a imp).a.t = true) := by
  rw [finish_facts E a imp hb]
  constructor <;> intro h <;> simp [leaveFacts, h, bot_bottom]

theorem visits_good {o : Op} {ign : Bool} {cs : List (Expr T)} (h : ∀ c ∈ cs, Good E.level c) :
    ∀ k ∈ visits (simpLocal E) o ign cs, Good E.level k :=
  visits_mem _ _ _ _ _ (fun c hc i => simplify_good E i c (h c hc))

theorem dataFlow_cl {o : Owners} (hO : Possible o) : ∀ e : Expr T, Good E.level e → NCL (NBLeaf o E.level) e → ST e →
    ∀ ign before imp, Good E.level (dataFlow E ign before imp e).e ∧ CL E o ign before imp e := by
  intro e
  induction e using Expr.ind with
  | hl a l =>
    intro hg hnc hst ign before imp
    have hown := fun hw => dataFlow_owned E hO (.leaf a l) hg hnc ign before imp hw
    have hsw : SW E.level (.leaf a l : Expr T) := SW_leaf.2 (ST_leaf.1 hst)
    have hcf := constFlags_of hg hsw
    have hshape := flowFinish_shape E (P := fun _ => True) trivial trivial ign before ⟨before, before⟩
      (enterImpure (.leaf a l : Expr T) before imp) (Shape_leaf.2 ⟨Good_leaf.1 hg, trivial⟩)
    have hd : dataFlow E ign before imp (.leaf a l) =
      flowFinish E ign before (.leaf a l) ⟨before, before⟩ (enterImpure (.leaf a l : Expr T) before imp) := by rw [dataFlow]
    rw [← hd] at hshape
    refine ⟨hshape.good, ?_⟩
    have hcases := finish_cases E ign before ⟨before, before⟩ (enterImpure (.leaf a l : Expr T) before imp) hcf
    have hN : ign = false → dfIsBottom before = false → Owned E o before → (Expr.leaf a l : Expr T).pure = true →
        ¬ (dfIsBottom (dataFlow E ign before imp (.leaf a l)).a.t = true ∧ dfIsBottom (dataFlow E ign before imp (.leaf a l)).a.f = true) := by
      rintro rfl hb hw hp
      rw [hd, finish_facts E _ _ hb]
      have ht := transfer_nb E hb hw l (NCL_leaf.1 hnc) (by rw [← Good_leaf.1 hg]; exact hp)
      have hlf := ST_leaf.1 hst hp
      rw [transferE]
      simp only [leaveFacts, Expr.at_, Expr.af, Expr.ann, hlf, decide_eq_true_eq]
      by_cases h1 : l = .true_
      · subst h1
        simp [transfer, hb]
      · by_cases h2 : l = .false_
        · subst h2
          simp [transfer, hb]
        · simp only [h1, h2, if_false]
          exact ht
    rw [← hd] at hcases
    have hat := fun hb => finish_at E (e := .leaf a l) (before := before) ⟨before, before⟩ (enterImpure (.leaf a l : Expr T) before imp) hb
    rcases hcases with ⟨b, x, h1, h2⟩ | ⟨b, h1, h2, h3, h4, h5, h6⟩
    · refine ⟨hown, fun _ => by rw [h1, simplify_costConst]; exact constE_SW E b x, ?_⟩
      rintro rfl hb hw
      rw [← hd] at hat
      have h2 := h2 rfl hb
      refine ⟨(hat hb).1, (hat hb).2, fun _ => hN rfl hb hw h2.1, ?_, ?_, ?_, hown hw⟩
      · rw [h1, simplify_costConst]
        intro h
        simp at h
        subst h
        exact h2.2.2
      · rw [h1, simplify_costConst]
        intro h
        simp at h
        subst h
        have := hN rfl hb hw h2.1
        have h2 := h2.2
        simp only [Bool.false_eq_true, if_false] at h2
        simpa [h2] using this
      · rw [h1, simplify_costConst, core_costConst]
        intro l h
        simp at h
    · have hs : simplify E ign (dataFlow E ign before imp (.leaf a l)).e = .leaf b l := by
        rw [h1]; simp [Expr.setAnn, simplify, visit]
      rw [h1] at hshape
      have hgb : b.pure = pureLeaf E.level l := by
        have := hshape.good
        rw [Expr.setAnn] at this
        exact Good_leaf.1 this
      have hlf : LF1 b l := by
        intro hp
        have hpe : (Expr.leaf a l : Expr T).pure = true := by rw [← h2]; exact hp
        rw [(h3 hpe).1, (h3 hpe).2]
        exact ST_leaf.1 hst hpe
      refine ⟨hown, fun _ => by rw [hs]; exact SW_leaf.2 hlf, ?_⟩
      rintro rfl hb hw
      rw [← hd] at hat
      refine ⟨(hat hb).1, (hat hb).2, ?_, ?_, ?_, ?_, hown hw⟩
      · intro hp
        apply hN rfl hb hw
        rw [h1] at hp
        rw [← h2]; simpa [Expr.pure] using hp
      · rw [hs]
        intro h
        have : l = .true_ := by cases l <;> simp_all [Expr.isTrue]
        subst this
        rw [← h6]
        have := hlf (by rw [hgb]; rfl)
        simp [this]
      · rw [hs]
        intro h
        have : l = .false_ := by cases l <;> simp_all [Expr.isFalse]
        subst this
        rw [← h5]
        have := hlf (by rw [hgb]; rfl)
        simp [this]
      · rw [hs]
        intro m hm hpm
        obtain ⟨rfl, e1, e2⟩ := core_leaf hm
        have := hlf (by rw [hgb, hpm])
        simp only [e1, e2, decide_false] at this
        rw [← h5, ← h6]
        exact ⟨this.2, this.1, this.1, this.2⟩
  | hn a op cs ih =>
    intro hg hnc hst ign before imp
    have hgn := Good_node.1 hg
    have ih' := fun c hc => ih c hc (hgn.2.2 c hc) ((NCL_node.1 hnc).2 c hc) ((ST_node.1 hst).2 c hc)
    have hst1 := (ST_node.1 hst).1
    clear ih
    have hown := fun hw => dataFlow_owned E hO (.node a op cs) hg hnc ign before imp hw
    match op, cs, hgn.1 with
    | .comma, cs, _ => exact absurd rfl (NCL_node.1 hnc).1
    | .and, cs, hne =>
      have hcl := fun c hc ign before imp => (ih' c hc ign before imp).2
      have hsw := flowAnd_sw E hcl ign before imp dfBottom
      have hK := flowAnd_cl E hcl before imp dfBottom
      have hd : dataFlow E ign before imp (.node a .and cs) =
          flowFinish E ign before (rebuild a .and (flowAnd E ign before imp dfBottom cs).es)
            (flowAnd E ign before imp dfBottom cs).a (flowAnd E ign before imp dfBottom cs).impure := by
        rw [dataFlow.eq_def]
      have hges : ∀ c ∈ (flowAnd E ign before imp dfBottom cs).es, Good E.level c := by
        clear hown hsw hK hd hst1 hgn hst hnc hg hne hcl
        suffices ∀ ign before imp acc, ∀ c ∈ (flowAnd E ign before imp acc cs).es, Good E.level c from this _ _ _ _
        induction cs with
        | nil => intro ign before imp acc; rw [flowAnd]; simp
        | cons c cs ihl =>
          intro ign before imp acc d hd
          rw [flowAnd] at hd
          rcases List.mem_cons.1 hd with rfl | hd
          · exact (ih' c (by simp) _ _ _).1
          · exact ihl (fun x hx => ih' x (by simp [hx])) _ _ _ _ d hd
      have hne' : (flowAnd E ign before imp dfBottom cs).es ≠ [] := by
        have := flowAnd_len E cs ign before imp dfBottom
        intro h
        rw [h] at this
        exact hne (List.length_eq_zero_iff.1 this.symm)
      have hrs : ign = false → flowAnd E false before imp dfBottom cs = flowAnd E ign before imp dfBottom cs := by
        rintro rfl; rfl
      have hK : ign = false → CLAnd E o before dfBottom cs (flowAnd E ign before imp dfBottom cs)
          (visits (simpLocal E) .and ign (flowAnd E ign before imp dfBottom cs).es) := by
        rintro rfl; exact hK
      clear hrs
      generalize flowAnd E ign before imp dfBottom cs = rs at *
      have hcf : ConstFlags (rebuild a .and rs.es) := by simp [ConstFlags, rebuild, Expr.isTrue, Expr.isFalse]
      have hcases := finish_cases E ign before rs.a rs.impure hcf
      have hfacts := fun hb => finish_facts E (e := rebuild a .and rs.es) (before := before) rs.a rs.impure hb
      have hat := fun hb => finish_at E (e := rebuild a .and rs.es) (before := before) rs.a rs.impure hb
      rw [← hd] at hcases
      have hshape : Good E.level (dataFlow E ign before imp (.node a .and cs)).e := by
        rcases hcases with ⟨b', x, h1, _⟩ | ⟨b', h1, h2, _⟩
        · rw [h1]; exact Good_costE x (constE_good E _)
        · rw [h1, rebuild, Expr.setAnn]
          exact Good_node.2 ⟨by simpa [arityOK] using hne', h2, hges⟩
      refine ⟨hshape, ?_⟩
      -- the facts after the node
      have hT0 : ign = false → dfIsBottom before = false → dfIsBottom rs.a.t = false → (∀ c ∈ cs, c.af = false) →
          dfIsBottom (dataFlow E ign before imp (.node a .and cs)).a.t = false := by
        rintro rfl hb h1 h2
        rw [hd, hfacts hb]
        have : a.af = false := by
          rw [hst1.2]; simpa using h2
        simp [leaveFacts, rebuild, transferE, Expr.at_, Expr.af, Expr.ann, this, h1]
      have hF0 : ign = false → dfIsBottom before = false → dfIsBottom rs.a.f = false → (∃ c ∈ cs, c.at_ = false) →
          dfIsBottom (dataFlow E ign before imp (.node a .and cs)).a.f = false := by
        rintro rfl hb h1 ⟨c, hc, h2⟩
        rw [hd, hfacts hb]
        have : a.at_ = false := by
          rw [hst1.1, List.all_eq_false]; exact ⟨c, hc, by simp [h2]⟩
        simp [leaveFacts, rebuild, transferE, Expr.at_, Expr.af, Expr.ann, this, h1]
      have hN : ign = false → dfIsBottom before = false → Owned E o before → (∀ e ∈ rs.es, e.pure = true) →
          ¬ (dfIsBottom (dataFlow E ign before imp (.node a .and cs)).a.t = true ∧
             dfIsBottom (dataFlow E ign before imp (.node a .and cs)).a.f = true) := by
        rintro rfl hb hw hp ⟨k1, k2⟩
        have hor : dfIsBottom rs.a.t = true ∨ ∃ c ∈ cs, c.af = true := by
          refine Decidable.byContradiction fun hno => ?_
          have n1 : dfIsBottom rs.a.t = false := by
            cases h : dfIsBottom rs.a.t
            · rfl
            · exact absurd (Or.inl h) hno
          have n2 : ∀ c ∈ cs, c.af = false := by
            intro c hc
            cases h : c.af
            · rfl
            · exact absurd (Or.inr ⟨c, hc, h⟩) hno
          have := hT0 rfl hb n1 n2
          simp [k1, k2] at this
        obtain ⟨m1, m2⟩ := (hK rfl).k6 hb hw hp hor
        have := hF0 rfl hb m1 m2
        simp [k1, k2] at this
      rcases hcases with ⟨b, x, h1, h2⟩ | ⟨b, h1, h2, h3, h4, h5, h6⟩
      · refine ⟨hown, fun _ => by rw [h1, simplify_costConst]; exact constE_SW E b x, ?_⟩
        rintro rfl hb hw
        rw [← hd] at hat
        have h2 := h2 rfl hb
        have hp : ∀ e ∈ rs.es, e.pure = true := by simpa [rebuild, Expr.pure, Expr.ann] using h2.1
        refine ⟨(hat hb).1, (hat hb).2, fun _ => hN rfl hb hw hp, ?_, ?_, ?_, hown hw⟩
        · rw [h1, simplify_costConst]
          intro h
          simp at h
          subst h
          exact h2.2.2
        · rw [h1, simplify_costConst]
          intro h
          simp at h
          subst h
          have := hN rfl hb hw hp
          have h2 := h2.2
          simp only [Bool.false_eq_true, if_false] at h2
          simpa [h2] using this
        · rw [h1, simplify_costConst, core_costConst]
          intro l h
          simp at h
      · have hs : simplify E ign (dataFlow E ign before imp (.node a .and cs)).e =
            match andKeep (dropIgnorable E.level ign (visits (simpLocal E) .and ign rs.es)) with
            | [] => constE E true
            | [c] => c
            | cs => liftNot E { b with pure := (visits (simpLocal E) .and ign rs.es).all Expr.pure } .and cs := by
          rw [h1, rebuild, Expr.setAnn, simplify_node]
          simp only [rebuild, simpLocal]
          rfl
        have hgk := visits_good E (o := .and) (ign := ign) hges
        generalize visits (simpLocal E) .and ign rs.es = ks at *
        refine ⟨hown, fun hw => ?_, ?_⟩
        · rw [hs]
          have hk : ∀ c ∈ andKeep (dropIgnorable E.level ign ks), SW E.level c ∧ Good E.level c :=
            fun c hc => ⟨hsw hw c (mem_dropIgnorable (mem_andKeep hc)), hgk c (mem_dropIgnorable (mem_andKeep hc))⟩
          split
          · have := constE_SW E true (constE E true).ann.cost; rwa [costE_self] at this
          · rename_i c heq
            exact (hk c (by simp [heq])).1
          · rename_i x1 x2
            exact liftNot_SW E _ _ (by simp) _ (fun h => x1 h) (fun c hc => (hk c hc).2) (fun c hc => (hk c hc).1)
        · rintro rfl hb hw
          have hK := hK rfl
          rw [← hd] at hat
          rw [dropIgn_false] at hs
          refine ⟨(hat hb).1, (hat hb).2, ?_, ?_, ?_, ?_, hown hw⟩
          · intro hp
            apply hN rfl hb hw
            rw [h1] at hp
            simp only [Expr.pure, ann_setAnn, h2, rebuild] at hp
            simpa [Expr.pure, Expr.ann] using hp
          · rw [hs]
            intro h
            split at h
            · rename_i heq
              obtain ⟨m1, m2⟩ := hK.k1 hb hw (andKeep_nil heq)
              exact hT0 rfl hb m1 m2
            · rename_i c heq
              exact absurd h (by rw [andKeep_not c (by rw [heq]; simp)]; simp)
            · rw [(liftNot_core E _ _ (by simp) _).2.1] at h
              simp at h
          · rw [hs]
            intro h
            split at h
            · simp at h
            · rename_i c heq
              obtain ⟨m1, m2⟩ := hK.k3 hb hw c heq h
              exact hF0 rfl hb m1 m2
            · rw [(liftNot_core E _ _ (by simp) _).2.2] at h
              simp at h
          · rw [hs]
            intro l hcr hpl
            split at hcr
            · simp [core, constE] at hcr
            · rename_i c heq
              obtain ⟨m1, m2, m3, m4, m5, m6⟩ := hK.k4 hb hw c l heq hcr hpl
              exact ⟨hT0 rfl hb m1 m4, hF0 rfl hb m2 m3, m5, m6⟩
            · rw [(liftNot_core E _ _ (by simp) _).1] at hcr
              simp at hcr
    | .or, cs, hne =>
      have hcl := fun c hc ign before imp => (ih' c hc ign before imp).2
      have hsw := flowOr_sw E hcl ign before imp dfBottom
      have hK := flowOr_cl E hcl before imp dfBottom
      have hd : dataFlow E ign before imp (.node a .or cs) =
          flowFinish E ign before (rebuild a .or (flowOr E ign before imp dfBottom cs).es)
            (flowOr E ign before imp dfBottom cs).a (flowOr E ign before imp dfBottom cs).impure := by
        rw [dataFlow.eq_def]
      have hges : ∀ c ∈ (flowOr E ign before imp dfBottom cs).es, Good E.level c := by
        clear hown hsw hK hd hst1 hgn hst hnc hg hne hcl
        suffices ∀ ign before imp acc, ∀ c ∈ (flowOr E ign before imp acc cs).es, Good E.level c from this _ _ _ _
        induction cs with
        | nil => intro ign before imp acc; rw [flowOr]; simp
        | cons c cs ihl =>
          intro ign before imp acc d hd
          rw [flowOr] at hd
          rcases List.mem_cons.1 hd with rfl | hd
          · exact (ih' c (by simp) _ _ _).1
          · exact ihl (fun x hx => ih' x (by simp [hx])) _ _ _ _ d hd
      have hne' : (flowOr E ign before imp dfBottom cs).es ≠ [] := by
        have := flowOr_len E cs ign before imp dfBottom
        intro h
        rw [h] at this
        exact hne (List.length_eq_zero_iff.1 this.symm)
      have hrs : ign = false → flowOr E false before imp dfBottom cs = flowOr E ign before imp dfBottom cs := by
        rintro rfl; rfl
      have hK : ign = false → CLOr E o before dfBottom cs (flowOr E ign before imp dfBottom cs)
          (visits (simpLocal E) .or ign (flowOr E ign before imp dfBottom cs).es) := by
        rintro rfl; exact hK
      clear hrs
      generalize flowOr E ign before imp dfBottom cs = rs at *
      have hcf : ConstFlags (rebuild a .or rs.es) := by simp [ConstFlags, rebuild, Expr.isTrue, Expr.isFalse]
      have hcases := finish_cases E ign before rs.a rs.impure hcf
      have hfacts := fun hb => finish_facts E (e := rebuild a .or rs.es) (before := before) rs.a rs.impure hb
      have hat := fun hb => finish_at E (e := rebuild a .or rs.es) (before := before) rs.a rs.impure hb
      rw [← hd] at hcases
      have hshape : Good E.level (dataFlow E ign before imp (.node a .or cs)).e := by
        rcases hcases with ⟨b', x, h1, _⟩ | ⟨b', h1, h2, _⟩
        · rw [h1]; exact Good_costE x (constE_good E _)
        · rw [h1, rebuild, Expr.setAnn]
          exact Good_node.2 ⟨by simpa [arityOK] using hne', h2, hges⟩
      refine ⟨hshape, ?_⟩
      -- the facts after the node
      have hT0 : ign = false → dfIsBottom before = false → dfIsBottom rs.a.f = false → (∀ c ∈ cs, c.at_ = false) →
          dfIsBottom (dataFlow E ign before imp (.node a .or cs)).a.f = false := by
        rintro rfl hb h1 h2
        rw [hd, hfacts hb]
        have : a.at_ = false := by
          rw [hst1.1]; simpa using h2
        simp [leaveFacts, rebuild, transferE, Expr.at_, Expr.af, Expr.ann, this, h1]
      have hF0 : ign = false → dfIsBottom before = false → dfIsBottom rs.a.t = false → (∃ c ∈ cs, c.af = false) →
          dfIsBottom (dataFlow E ign before imp (.node a .or cs)).a.t = false := by
        rintro rfl hb h1 ⟨c, hc, h2⟩
        rw [hd, hfacts hb]
        have : a.af = false := by
          rw [hst1.2, List.all_eq_false]; exact ⟨c, hc, by simp [h2]⟩
        simp [leaveFacts, rebuild, transferE, Expr.at_, Expr.af, Expr.ann, this, h1]
      have hN : ign = false → dfIsBottom before = false → Owned E o before → (∀ e ∈ rs.es, e.pure = true) →
          ¬ (dfIsBottom (dataFlow E ign before imp (.node a .or cs)).a.t = true ∧
             dfIsBottom (dataFlow E ign before imp (.node a .or cs)).a.f = true) := by
        rintro rfl hb hw hp ⟨k1, k2⟩
        have hor : dfIsBottom rs.a.f = true ∨ ∃ c ∈ cs, c.at_ = true := by
          refine Decidable.byContradiction fun hno => ?_
          have n1 : dfIsBottom rs.a.f = false := by
            cases h : dfIsBottom rs.a.f
            · rfl
            · exact absurd (Or.inl h) hno
          have n2 : ∀ c ∈ cs, c.at_ = false := by
            intro c hc
            cases h : c.at_
            · rfl
            · exact absurd (Or.inr ⟨c, hc, h⟩) hno
          have := hT0 rfl hb n1 n2
          simp [k1, k2] at this
        obtain ⟨m1, m2⟩ := (hK rfl).k6 hb hw hp hor
        have := hF0 rfl hb m1 m2
        simp [k1, k2] at this
      rcases hcases with ⟨b, x, h1, h2⟩ | ⟨b, h1, h2, h3, h4, h5, h6⟩
      · refine ⟨hown, fun _ => by rw [h1, simplify_costConst]; exact constE_SW E b x, ?_⟩
        rintro rfl hb hw
        rw [← hd] at hat
        have h2 := h2 rfl hb
        have hp : ∀ e ∈ rs.es, e.pure = true := by simpa [rebuild, Expr.pure, Expr.ann] using h2.1
        refine ⟨(hat hb).1, (hat hb).2, fun _ => hN rfl hb hw hp, ?_, ?_, ?_, hown hw⟩
        · rw [h1, simplify_costConst]
          intro h
          simp at h
          subst h
          exact h2.2.2
        · rw [h1, simplify_costConst]
          intro h
          simp at h
          subst h
          have := hN rfl hb hw hp
          have h2 := h2.2
          simp only [Bool.false_eq_true, if_false] at h2
          simpa [h2] using this
        · rw [h1, simplify_costConst, core_costConst]
          intro l h
          simp at h
      · have hs : simplify E ign (dataFlow E ign before imp (.node a .or cs)).e =
            match orKeep (dropIgnorable E.level ign (visits (simpLocal E) .or ign rs.es)) with
            | [] => constE E false
            | [c] => c
            | cs => liftNot E { b with pure := (visits (simpLocal E) .or ign rs.es).all Expr.pure } .or cs := by
          rw [h1, rebuild, Expr.setAnn, simplify_node]
          simp only [rebuild, simpLocal]
          rfl
        have hgk := visits_good E (o := .or) (ign := ign) hges
        generalize visits (simpLocal E) .or ign rs.es = ks at *
        refine ⟨hown, fun hw => ?_, ?_⟩
        · rw [hs]
          have hk : ∀ c ∈ orKeep (dropIgnorable E.level ign ks), SW E.level c ∧ Good E.level c :=
            fun c hc => ⟨hsw hw c (mem_dropIgnorable (mem_orKeep hc)), hgk c (mem_dropIgnorable (mem_orKeep hc))⟩
          split
          · have := constE_SW E false (constE E false).ann.cost; rwa [costE_self] at this
          · rename_i c heq
            exact (hk c (by simp [heq])).1
          · rename_i x1 x2
            exact liftNot_SW E _ _ (by simp) _ (fun h => x1 h) (fun c hc => (hk c hc).2) (fun c hc => (hk c hc).1)
        · rintro rfl hb hw
          have hK := hK rfl
          rw [← hd] at hat
          rw [dropIgn_false] at hs
          refine ⟨(hat hb).1, (hat hb).2, ?_, ?_, ?_, ?_, hown hw⟩
          · intro hp
            apply hN rfl hb hw
            rw [h1] at hp
            simp only [Expr.pure, ann_setAnn, h2, rebuild] at hp
            simpa [Expr.pure, Expr.ann] using hp
          · rw [hs]
            intro h
            split at h
            · simp at h
            · rename_i c heq
              obtain ⟨m1, m2⟩ := hK.k3 hb hw c heq h
              exact hF0 rfl hb m1 m2
            · rw [(liftNot_core E _ _ (by simp) _).2.1] at h
              simp at h
          · rw [hs]
            intro h
            split at h
            · rename_i heq
              obtain ⟨m1, m2⟩ := hK.k1 hb hw (orKeep_nil heq)
              exact hT0 rfl hb m1 m2
            · rename_i c heq
              exact absurd h (by rw [orKeep_not c (by rw [heq]; simp)]; simp)
            · rw [(liftNot_core E _ _ (by simp) _).2.2] at h
              simp at h
          · rw [hs]
            intro l hcr hpl
            split at hcr
            · simp [core, constE] at hcr
            · rename_i c heq
              obtain ⟨m1, m2, m3, m4, m5, m6⟩ := hK.k4 hb hw c l heq hcr hpl
              exact ⟨hF0 rfl hb m2 m3, hT0 rfl hb m1 m4, m5, m6⟩
            · rw [(liftNot_core E _ _ (by simp) _).1] at hcr
              simp at hcr
    | .not, [c], _ =>
      have hc := ih' c (by simp) ign before imp
      have hd : dataFlow E ign before imp (.node a .not [c]) =
          flowFinish E ign before (rebuild a .not [(dataFlow E ign before imp c).e])
            ⟨(dataFlow E ign before imp c).a.f, (dataFlow E ign before imp c).a.t⟩ (dataFlow E ign before imp c).impure := by
        rw [dataFlow.eq_def]; dsimp only; rw [flowNot]
      have hgc := (Good_node.1 hg).2.2 c (by simp)
      -- an impure leaf below the negation stays one
      have himp : ign = false → dfIsBottom before = false → c.isParent = false → c.pure = false →
          ∃ b l, (dataFlow E ign before imp c).e = .leaf b l ∧ pureLeaf E.level l = false := by
        rintro rfl hb hpar hpu
        cases c with
        | node b o' ds => simp [Expr.isParent] at hpar
        | leaf b l =>
          have hcf := constFlags_of hgc (SW_leaf.2 (ST_leaf.1 ((ST_node.1 hst).2 (.leaf b l) (by simp))))
          have := finish_cases E false before ⟨before, before⟩ (enterImpure (.leaf b l : Expr T) before imp) hcf
          have hd' : dataFlow E false before imp (.leaf b l) =
            flowFinish E false before (.leaf b l) ⟨before, before⟩ (enterImpure (.leaf b l : Expr T) before imp) := by rw [dataFlow]
          rw [← hd'] at this
          rcases this with ⟨b', x, h1, h2⟩ | ⟨b', h1, h2, _⟩
          · have := (h2 rfl hb).1; simp [hpu] at this
          · refine ⟨b', l, h1, ?_⟩
            rw [← Good_leaf.1 hgc]; exact hpu
      obtain ⟨hc1, _, hsw, hnb⟩ := hc
      generalize dataFlow E ign before imp c = r at *
      have hgr : Good E.level (rebuild a .not [r.e]) := Good_node.2 ⟨by simp [arityOK], rfl, by simpa using hc1⟩
      have hcf : ConstFlags (rebuild a .not [r.e]) := by simp [ConstFlags, rebuild, Expr.isTrue, Expr.isFalse]
      have hshape : Good E.level (dataFlow E ign before imp (.node a .not [c])).e := by
        rw [hd]
        have := finish_cases E ign before ⟨r.a.f, r.a.t⟩ r.impure hcf
        rcases this with ⟨b', x, h1, _⟩ | ⟨b', h1, h2, _⟩
        · rw [h1]; exact Good_costE x (constE_good E _)
        · rw [h1, rebuild, Expr.setAnn]
          exact Good_node.2 ⟨by simp [arityOK], h2, by simpa using hc1⟩
      refine ⟨hshape, ?_⟩
      have hcases := finish_cases E ign before ⟨r.a.f, r.a.t⟩ r.impure hcf
      have hfacts := fun hb => finish_facts E (e := rebuild a .not [r.e]) (before := before) ⟨r.a.f, r.a.t⟩ r.impure hb
      have hat := fun hb => finish_at E (e := rebuild a .not [r.e]) (before := before) ⟨r.a.f, r.a.t⟩ r.impure hb
      rw [← hd] at hcases
      have hN : ign = false → dfIsBottom before = false → Owned E o before → r.e.pure = true →
          ¬ (dfIsBottom (dataFlow E ign before imp (.node a .not [c])).a.t = true ∧
             dfIsBottom (dataFlow E ign before imp (.node a .not [c])).a.f = true) := by
        rintro rfl hb hw hp
        have hcn := hnb rfl hb hw
        have hn := hcn.n hp
        rw [hd, hfacts hb]
        have hst2 : a.at_ = c.af ∧ a.af = c.at_ := by
          rcases hst1 c rfl with h | h
          · exact h
          · obtain ⟨b, l, h1, h2⟩ := himp rfl hb h.1 h.2
            have hg1 := hc1
            rw [h1] at hp hg1
            simp only [Expr.pure, Expr.ann] at hp
            rw [Good_leaf.1 hg1, h2] at hp
            simp at hp
        have g1 := hcn.at_
        have g2 := hcn.af
        rw [← hst2.2] at g1
        rw [← hst2.1] at g2
        simp only [leaveFacts, rebuild, transferE, Expr.at_, Expr.af, Expr.ann]
        rintro ⟨k1, k2⟩
        apply hn
        refine ⟨?_, ?_⟩
        · by_cases h : a.at_ = true
          · exact g2 h
          · simpa [h] using k2
        · by_cases h : a.af = true
          · exact g1 h
          · simpa [h] using k1
      rcases hcases with ⟨b, x, h1, h2⟩ | ⟨b, h1, h2, h3, h4, h5, h6⟩
      · refine ⟨hown, fun _ => by rw [h1, simplify_costConst]; exact constE_SW E b x, ?_⟩
        rintro rfl hb hw
        rw [← hd] at hat
        have h2 := h2 rfl hb
        have hp : r.e.pure = true := by simpa [rebuild, Expr.pure, Expr.ann] using h2.1
        refine ⟨(hat hb).1, (hat hb).2, fun _ => hN rfl hb hw hp, ?_, ?_, ?_, hown hw⟩
        · rw [h1, simplify_costConst]
          intro h
          simp at h
          subst h
          exact h2.2.2
        · rw [h1, simplify_costConst]
          intro h
          simp at h
          subst h
          have := hN rfl hb hw hp
          have h2 := h2.2
          simp only [Bool.false_eq_true, if_false] at h2
          simpa [h2] using this
        · rw [h1, simplify_costConst, core_costConst]
          intro l h
          simp at h
      · have hs : simplify E ign (dataFlow E ign before imp (.node a .not [c])).e =
            if ign then simplify E ign r.e else .node { b with pure := (simplify E ign r.e).pure } .not [simplify E ign r.e] := by
          rw [h1, rebuild, Expr.setAnn, simplify_node]
          simp [visits, rebuild, simpLocal, childIgn, simplify]
        have hflags : ign = false → dfIsBottom before = false → Owned E o before → ∀ l, core (simplify E ign r.e) = some l → pureLeaf E.level l = true →
            dfIsBottom (dataFlow E ign before imp (.node a .not [c])).a.t = false ∧
            dfIsBottom (dataFlow E ign before imp (.node a .not [c])).a.f = false := by
          rintro rfl hb hw l hcr hpl
          have hcn := hnb rfl hb hw
          obtain ⟨c1, c2, c3, c4⟩ := hcn.cr l hcr hpl
          rw [hd, hfacts hb]
          have hst2 : a.at_ = c.af ∧ a.af = c.at_ := by
            rcases hst1 c rfl with h | h
            · exact h
            · obtain ⟨b, l', e1, e2⟩ := himp rfl hb h.1 h.2
              rw [e1, simplify, visit] at hcr
              obtain ⟨rfl, _, _⟩ := core_leaf hcr
              simp [hpl] at e2
          have z1 : c.af = false := by
            cases h : c.af
            · rfl
            · have := hcn.af h; simp [c1] at this
          have z2 : c.at_ = false := by
            cases h : c.at_
            · rfl
            · have := hcn.at_ h; simp [c2] at this
          have y1 : a.at_ = false := hst2.1.trans z1
          have y2 : a.af = false := hst2.2.trans z2
          simp [leaveFacts, rebuild, transferE, Expr.at_, Expr.af, Expr.ann, y1, y2, c1, c2]
        refine ⟨hown, fun hw => ?_, ?_⟩
        · rw [hs]
          cases hi : ign with
          | true => subst hi; simpa using hsw hw
          | false =>
            subst hi
            simp only [Bool.false_eq_true, if_false]
            rw [SW_node]
            refine ⟨?_, by simpa using hsw hw⟩
            intro _ c' l hc' hcr hpl
            simp only [List.cons.injEq, and_true] at hc'
            subst hc'
            have := hflags rfl h4 hw l hcr hpl
            simp only [h5, h6, this]
            exact ⟨trivial, trivial⟩
        · rintro rfl hb hw
          rw [← hd] at hat
          refine ⟨(hat hb).1, (hat hb).2, ?_, ?_, ?_, ?_, hown hw⟩
          · intro hp
            apply hN rfl hb hw
            rw [h1] at hp
            simp only [Expr.pure, ann_setAnn, h2, rebuild] at hp
            simpa [Expr.pure, Expr.ann] using hp
          · rw [hs]; simp [Expr.isTrue]
          · rw [hs]; simp [Expr.isFalse]
          · rw [hs]
            simp only [Bool.false_eq_true, if_false]
            intro l hcr hpl
            rw [core] at hcr
            have := hflags rfl hb hw l hcr hpl
            refine ⟨this.1, this.2, ?_, ?_⟩
            · simp only [Expr.at_, Expr.ann, h5, this]
            · simp only [Expr.af, Expr.ann, h6, this]

end Verif.Opt
