import Verif.Lemmas.OptReorder
/-!
# Soundness of the data flow domain and its transfer functions
-/
namespace Verif.Opt
open Verif.Spec.Opt
variable {T W : Type} (E : Env T)

/-- The number compared by `-size` when the unit is `u`, and by the other tests. -/
def fnum (f : File) (u : Nat) : Range → Int
  | .size => units (f.num .size) u
  | r => f.num r

/-- The file is one of those described by the facts. -/
structure InDom (f : File) (u : Nat) (d : Dom) : Prop where
  preds : ∀ p, (if f.pred p then (d.preds p).t else (d.preds p).f) = true
  ranges : ∀ r, (d.ranges r).min ≤ fnum f u r ∧ fnum f u r ≤ (d.ranges r).max
  types : d.types.getLsbD f.type = true
  xtypes : d.xtypes.getLsbD f.xtype = true

theorem units_nonneg {b : Int} {u : Nat} (hu : 0 < u) (hb : 0 ≤ b) : 0 ≤ units b u := by
  unfold units
  have : (-b) / (u : Int) ≤ 0 := by
    apply Int.ediv_nonpos_of_nonpos_of_neg <;> omega
  omega

theorem units_le {b : Int} {u : Nat} (hu : 0 < u) (hb : 0 ≤ b) : units b u ≤ b := by
  unfold units
  have : (-b) ≤ (-b) / (u : Int) := by
    rw [Int.le_ediv_iff_mul_le (by omega)]
    have : (1 : Int) ≤ u := by omega
    have := Int.mul_le_mul_of_nonneg_left this hb
    rw [Int.neg_mul]; omega
  omega

theorem units_eq_zero {b : Int} {u : Nat} (hu : 0 < u) (hb : 0 ≤ b) : units b u = 0 ↔ b = 0 := by
  constructor
  · intro h
    unfold units at h
    have h0 : (-b) / (u : Int) = 0 := by omega
    have := Int.emod_add_mul_ediv (-b) u
    rw [h0] at this
    have h2 := Int.emod_nonneg (-b) (show (u : Int) ≠ 0 by omega)
    omega
  · rintro rfl; simp [units]

theorem fnum_range {f : File} {u : Nat} (hu : 0 < u) (hf : RealFile f) (r : Range) :
    0 ≤ fnum f u r ∧ fnum f u r ≤ llMax := by
  have := hf.num r
  unfold llMax
  cases r <;> simp only [fnum] <;> try exact this
  have h1 := units_nonneg hu this.1
  have h2 := units_le hu this.1
  omega

theorem InDom.not_bottom {f : File} {u : Nat} {d : Dom} (h : InDom f u d) : dfIsBottom d = false := by
  rw [Bool.eq_false_iff]
  intro hb
  simp only [dfIsBottom, Bool.or_eq_true, List.any_eq_true] at hb
  rcases hb with (⟨r, _, hr⟩ | ⟨p, _, hp⟩) | (h1 | h1)
  · have := h.ranges r
    simp only [rngIsBottom, decide_eq_true_eq] at hr
    omega
  · have := h.preds p
    simp only [beq_iff_eq] at hp
    rw [hp] at this
    split at this <;> simp at this
  · have := h.types
    simp only [beq_iff_eq] at h1
    simp [h1] at this
  · have := h.xtypes
    simp only [beq_iff_eq] at h1
    simp [h1] at this

theorem InDom.of_bottom {f : File} {u : Nat} {d : Dom} (h : dfIsBottom d = true) : ¬ InDom f u d := by
  intro h'; rw [h'.not_bottom] at h; simp at h

theorem InDom.top {f : File} {u : Nat} (hu : 0 < u) (hf : RealFile f) : InDom f u dfTop where
  preds := by intro p; simp [dfTop]
  ranges := fun r => fnum_range hu hf r
  types := by simp only [dfTop, BitVec.getLsbD_allOnes, hf.type, decide_true]
  xtypes := by simp only [dfTop, BitVec.getLsbD_allOnes, hf.xtype, decide_true]

theorem InDom.join {f : File} {u : Nat} {a b : Dom} (h : InDom f u a ∨ InDom f u b) : InDom f u (dfJoin a b) := by
  constructor
  · intro p
    rcases h with h | h <;> have := h.preds p <;> simp only [dfJoin, predJoin] <;> split <;> simp_all
  · intro r
    simp only [dfJoin, rangeJoin, minValue, maxValue]
    rcases h with h | h
    all_goals
      have := h.ranges r
      constructor <;> split <;> omega
  · rcases h with h | h <;> simp [dfJoin, h.types]
  · rcases h with h | h <;> simp [dfJoin, h.xtypes]

theorem InDom.setPred {f : File} {u : Nat} {d : Dom} (h : InDom f u d) (p : Pred) (v : DfPred)
    (hv : (if f.pred p then v.t else v.f) = true) : InDom f u (d.setPred p v) where
  preds := by
    intro q
    simp only [Dom.setPred]
    by_cases hq : q = p
    · subst hq; simpa using hv
    · simpa [hq] using h.preds q
  ranges := h.ranges
  types := h.types
  xtypes := h.xtypes

theorem InDom.setRange {f : File} {u : Nat} {d : Dom} (h : InDom f u d) (r : Range) (v : Rng)
    (hv : v.min ≤ fnum f u r ∧ fnum f u r ≤ v.max) : InDom f u (d.setRange r v) where
  preds := h.preds
  ranges := by
    intro q
    simp only [Dom.setRange]
    by_cases hq : q = r
    · subst hq; simpa using hv
    · simpa [hq] using h.ranges q
  types := h.types
  xtypes := h.xtypes

theorem InDom.constrainPred {f : File} {u : Nat} {d : Dom} (h : InDom f u d) (p : Pred) (v : Bool)
    (hv : f.pred p = v) : InDom f u (d.setPred p (constrainPred (d.preds p) v)) := by
  apply h.setPred
  have := h.preds p
  rw [hv] at this ⊢
  cases v <;> simpa [Opt.constrainPred] using this

theorem inRange_constrainMin {r : Rng} {v x : Int} (h : r.min ≤ x ∧ x ≤ r.max) (hx : v ≤ x) :
    (constrainMin r v).min ≤ x ∧ x ≤ (constrainMin r v).max := by
  simp only [constrainMin, maxValue]; constructor
  · split <;> omega
  · exact h.2

theorem inRange_constrainMax {r : Rng} {v x : Int} (h : r.min ≤ x ∧ x ≤ r.max) (hx : x ≤ v) :
    (constrainMax r v).min ≤ x ∧ x ≤ (constrainMax r v).max := by
  simp only [constrainMax, minValue]; constructor
  · exact h.1
  · split <;> omega

theorem inRange_constrain {r : Rng} {v x : Int} (h : r.min ≤ x ∧ x ≤ r.max) (hx : x = v) :
    (constrainRange r v).min ≤ x ∧ x ≤ (constrainRange r v).max :=
  inRange_constrainMax (inRange_constrainMin h (by omega)) (by omega)

theorem inRange_remove {r : Rng} {v x : Int} (h : r.min ≤ x ∧ x ≤ r.max) (hx : x ≠ v) (h0 : 0 ≤ x)
    (h1 : x ≤ llMax) : (rangeRemove r v).min ≤ x ∧ x ≤ (rangeRemove r v).max := by
  unfold llMax at h1
  have h2 : (removeMin r v).min ≤ x ∧ x ≤ (removeMin r v).max := by
    unfold removeMin llMax llMin
    by_cases h1 : r.min = v
    · rw [if_pos h1]
      by_cases h2 : r.min = 9223372036854775807
      · omega
      · rw [if_neg h2]; dsimp only; omega
    · rw [if_neg h1]; exact h
  simp only [rangeRemove]
  generalize removeMin r v = r' at *
  unfold removeMax llMax llMin
  by_cases h1 : r'.max = v
  · rw [if_pos h1]
    by_cases h3 : r'.max = -9223372036854775808
    · omega
    · rw [if_neg h3]; dsimp only; omega
  · rw [if_neg h1]; exact h2

/-- What a leaf may look like for its transfer function to be right about the file `f`. -/
def LeafOK (o : Owners) (f : File) (u : Nat) : Leaf → Prop
  | .cmp .size unit _ _ => unit = u
  | .cmp .gid _ c n => c = .eq ∧ o.group = some n
  | .cmp .uid _ c n => c = .eq ∧ o.user = some n
  | .samefile dev ino => f.num .inum = ino → f.dev = dev
  | _ => True

/-- A file for which the facts that the optimizer derives from the owner are right. -/
structure FileOK (E : Env T) (o : Owners) (f : File) : Prop extends RealFile f where
  user : ∀ n v, o.user = some n → E.noUser n = some v → f.pred .nouser = if f.num .uid = n then v else !v
  group : ∀ n v, o.group = some n → E.noGroup n = some v → f.pred .nogroup = if f.num .gid = n then v else !v

/-- The facts describe the file after a result `b`. -/
def Facts (f : File) (u : Nat) (a : After) (b : Bool) : Prop :=
  (b = true → InDom f u a.t) ∧ (b = false → InDom f u a.f)

theorem flowPred_facts {f : File} {u : Nat} {d : Dom} (h : InDom f u d) (p : Pred) :
    Facts f u (flowPred ⟨d, d⟩ p true) (f.pred p) :=
  ⟨fun hb => h.constrainPred p true hb, fun hb => h.constrainPred p false hb⟩

theorem flowCmp_facts {f : File} {u : Nat} (hu : 0 < u) (hf : RealFile f) {d : Dom} (h : InDom f u d) (r : Range) (c : Cmp) (n : Int) :
    Facts f u (flowCmp ⟨d, d⟩ r c n) (cmpHolds c (fnum f u r) n) := by
  have hr := h.ranges r
  have hr0 := fnum_range hu hf r
  cases c with
  | eq =>
    simp only [flowCmp, cmpHolds]
    refine ⟨fun hb => h.setRange r _ (inRange_constrain hr (by simpa using hb)),
      fun hb => h.setRange r _ (inRange_remove hr (by simpa using hb) hr0.1 hr0.2)⟩
  | lt =>
    simp only [flowCmp, cmpHolds]
    refine ⟨fun hb => ?_, fun hb => ?_⟩
    · have hb : fnum f u r < n := by simpa using hb
      exact h.setRange r _ (inRange_remove (inRange_constrainMax hr (by omega)) (by omega) hr0.1 hr0.2)
    · have hb : n ≤ fnum f u r := by simpa using hb
      exact h.setRange r _ (inRange_constrainMin hr hb)
  | gt =>
    simp only [flowCmp, cmpHolds]
    refine ⟨fun hb => ?_, fun hb => ?_⟩
    · have hb : fnum f u r > n := by simpa using hb
      exact h.setRange r _ (inRange_remove (inRange_constrainMin hr (by omega)) (by omega) hr0.1 hr0.2)
    · have hb : fnum f u r ≤ n := by simpa using hb
      exact h.setRange r _ (inRange_constrainMax hr hb)

theorem InDom.types_and {f : File} {u : Nat} {d : Dom} (h : InDom f u d) (m : BitVec 32)
    (hm : m.getLsbD f.type = true) : InDom f u { d with types := d.types &&& m } :=
  ⟨h.preds, h.ranges, by simp [h.types, hm], h.xtypes⟩

theorem InDom.xtypes_and {f : File} {u : Nat} {d : Dom} (h : InDom f u d) (m : BitVec 32)
    (hm : m.getLsbD f.xtype = true) : InDom f u { d with xtypes := d.xtypes &&& m } :=
  ⟨h.preds, h.ranges, h.types, by simp [h.xtypes, hm]⟩

theorem typeBit_get {n m : Nat} (hn : n < 32) : (typeBit n).getLsbD m = decide (m = n) := by
  simp [typeBit, hn, eq_comm]

theorem empty_facts {f : File} {u : Nat} (hu : 0 < u) (hf : RealFile f) {d : Dom} (h : InDom f u d) :
    Facts f u (flowEmpty d (flowPred ⟨d, d⟩ .empty true)) (f.pred .empty) := by
  have hp := flowPred_facts h .empty
  have hbit : f.pred .empty = true → (typeBit BFS_REG ||| typeBit BFS_DIR).getLsbD f.type = true := by
    intro he
    rw [BitVec.getLsbD_or, typeBit_get (by simp [BFS_REG]), typeBit_get (by simp [BFS_DIR])]
    rcases hf.empty he with h | h <;> simp [h, BFS_REG, BFS_DIR]
  simp only [flowEmpty]
  generalize hA : flowPred ⟨d, d⟩ .empty true = A at hp
  split
  · rename_i hreg
    have ht : f.type = 8 := by
      have := h.types
      rw [hreg, typeBit_get (by simp [BFS_REG])] at this
      exact of_decide_eq_true this
    have h0 := hf.size0 ht
    have hz : fnum f u .size = 0 ↔ f.num .size = 0 := units_eq_zero hu (hf.num .size).1
    refine ⟨fun hb => ?_, fun hb => ?_⟩
    · have h1 := (hp.1 hb).types_and _ (hbit hb)
      exact h1.setRange .size _ (inRange_constrain (h1.ranges .size) (hz.2 (h0.1 hb)))
    · have h1 := hp.2 hb
      have hr0 := fnum_range hu hf .size
      refine h1.setRange .size _ (inRange_remove (h1.ranges .size) ?_ hr0.1 hr0.2)
      rw [Ne, hz, ← h0]
      simp [hb]
  · exact ⟨fun hb => (hp.1 hb).types_and _ (hbit hb), hp.2⟩

theorem constrainRange_single {r : Rng} {n : Int} (h : (constrainRange r n).min = (constrainRange r n).max) : (constrainRange r n).min = n := by
  simp only [constrainRange, constrainMax, constrainMin, minValue, maxValue] at h ⊢
  by_cases h1 : r.min > n <;> by_cases h2 : r.max < n <;> simp only [h1, h2, if_true, if_false] at h ⊢ <;> omega

theorem flowId_facts {f : File} {u : Nat} (hu : 0 < u) (hf : RealFile f) {d : Dom} (h : InDom f u d) {lookup : Int → Option Bool} {r : Range} {p : Pred}
    {n : Int} (hl : ∀ v, lookup n = some v → f.pred p = if fnum f u r = n then v else !v) :
    Facts f u (flowId lookup r p (flowCmp ⟨d, d⟩ r .eq n)) (cmpHolds .eq (fnum f u r) n) := by
  have h1 := flowCmp_facts hu hf h r .eq n
  have he : ((flowCmp ⟨d, d⟩ r .eq n).t.ranges r).min = ((flowCmp ⟨d, d⟩ r .eq n).t.ranges r).max →
      ((flowCmp ⟨d, d⟩ r .eq n).t.ranges r).min = n := by
    simp only [flowCmp, Dom.setRange, if_true]
    exact constrainRange_single
  generalize flowCmp ⟨d, d⟩ r .eq n = a at *
  unfold flowId
  by_cases hs : (a.t.ranges r).min = (a.t.ranges r).max
  · rw [if_pos hs, he hs]
    cases hv : lookup n with
    | none => exact h1
    | some v =>
      have hl := hl v hv
      refine ⟨fun hb => (h1.1 hb).constrainPred p v ?_, fun hb => (h1.2 hb).constrainPred p (!v) ?_⟩
      · rw [hl, if_pos (by simpa [cmpHolds] using hb)]
      · rw [hl, if_neg (by simpa [cmpHolds] using hb)]
  · rw [if_neg hs]; exact h1

/-- The transfer functions are sound. -/
theorem transfer_facts {o : Owners} {f : File} {u : Nat} (hu : 0 < u) (hfo : FileOK E o f) {d : Dom} (h : InDom f u d) (l : Leaf)
    (hl : LeafOK o f u l) (b : Bool) (hb : test f l = some b ∨ test f l = none) :
    Facts f u (transfer E d l ⟨d, d⟩) b := by
  have hf := hfo.toRealFile
  have hid : Facts f u ⟨d, d⟩ b := ⟨fun _ => h, fun _ => h⟩
  cases l with
  | true_ => exact hid
  | false_ => exact hid
  | other i => exact hid
  | action k i => exact hid
  | pred p =>
    simp [test] at hb; subst hb
    cases p <;> first | exact empty_facts hu hf h | exact flowPred_facts h _
  | cmp r unit c n =>
    have main : test f (.cmp r unit c n) = some (cmpHolds c (fnum f u r) n) := by
      cases r <;> simp [test, fnum]
      simp only [LeafOK] at hl; subst hl; rfl
    have hb' : cmpHolds c (fnum f u r) n = b := by
      rw [main] at hb
      simpa using hb
    subst hb'
    cases r with
    | gid =>
      obtain ⟨rfl, hl⟩ := hl
      exact flowId_facts hu hf h fun v hv => hfo.group n v hl hv
    | uid =>
      obtain ⟨rfl, hl⟩ := hl
      exact flowId_facts hu hf h fun v hv => hfo.user n v hl hv
    | _ => exact flowCmp_facts hu hf h _ c n
  | lname i =>
    simp [test] at hb
    refine ⟨fun hb' => ?_, fun hb' => h⟩
    subst hb'
    simp at hb
    exact h.types_and _ (by rw [typeBit_get (by simp [BFS_LNK])]; simp [hb.1, BFS_LNK])
  | samefile dev ino =>
    simp [test] at hb
    simp only [LeafOK] at hl
    refine ⟨fun hb' => ?_, fun hb' => ?_⟩
    · subst hb'; simp at hb
      exact h.setRange .inum _ (inRange_constrain (h.ranges .inum) hb.2)
    · subst hb'; simp at hb
      have hr0 := fnum_range hu hf .inum
      refine h.setRange .inum _ (inRange_remove (h.ranges .inum) ?_ hr0.1 hr0.2)
      intro heq
      exact hb (hl heq) heq
  | type m =>
    simp [test] at hb
    refine ⟨fun hb' => h.types_and _ (by rw [hb, hb']), fun hb' => h.types_and _ ?_⟩
    rw [BitVec.getLsbD_not, hb, hb']; simp [hf.type]
  | xtype m =>
    simp [test] at hb
    refine ⟨fun hb' => h.xtypes_and _ (by rw [hb, hb']), fun hb' => h.xtypes_and _ ?_⟩
    rw [BitVec.getLsbD_not, hb, hb']; simp [hf.xtype]

end Verif.Opt
