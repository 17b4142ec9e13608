import Verif.Lemmas.OptShape
/-!
# Static invariants of the flags between the passes

`SW` holds at the start of each round, `ST` after canonicalize and reorder.
-/
namespace Verif.Opt
open Verif.Spec.Opt
variable {T W : Type} (E : Env T)

/-- The leaf under a chain of negations, if it is not a constant. -/
def core : Expr T → Option Leaf
  | .leaf _ .true_ => none
  | .leaf _ .false_ => none
  | .leaf _ l => some l
  | .node _ .not [c] => core c
  | .node _ _ _ => none

/-- Flags of pure leaves. -/
def LF1 (a : Ann T) (l : Leaf) : Prop :=
  a.pure = true → a.at_ = decide (l = .true_) ∧ a.af = decide (l = .false_)

/-- Flags of negations of pure leaves. -/
def SW1 (level : Nat) (a : Ann T) (o : Op) (cs : List (Expr T)) : Prop :=
  o = .not → ∀ c l, cs = [c] → core c = some l → pureLeaf level l = true → a.at_ = false ∧ a.af = false

mutual
/-- Weak static invariant. -/
def SW (level : Nat) : Expr T → Prop
  | .leaf a l => LF1 a l
  | .node a o cs => SW1 level a o cs ∧ SWs level cs
/-- `SW` for a list. -/
def SWs (level : Nat) : List (Expr T) → Prop
  | [] => True
  | c :: cs => SW level c ∧ SWs level cs
end

theorem SWs_iff {level : Nat} {cs : List (Expr T)} : SWs level cs ↔ ∀ c ∈ cs, SW level c := by
  induction cs with
  | nil => simp [SWs]
  | cons c cs ih => simp [SWs, ih]

theorem SW_node {level : Nat} {a : Ann T} {o : Op} {cs : List (Expr T)} :
    SW level (.node a o cs) ↔ SW1 level a o cs ∧ ∀ c ∈ cs, SW level c := by rw [SW, SWs_iff]
theorem SW_leaf {level : Nat} {a : Ann T} {l : Leaf} : SW level (.leaf a l : Expr T) ↔ LF1 a l := by rw [SW]

/-- The flags are those computed by annotate, except on negations of impure leaves. -/
def ST1 (a : Ann T) (o : Op) (cs : List (Expr T)) : Prop :=
  match o with
  | .not => ∀ c, cs = [c] → (a.at_ = c.af ∧ a.af = c.at_) ∨ (c.isParent = false ∧ c.pure = false)
  | .and => a.at_ = cs.all Expr.at_ ∧ a.af = cs.any Expr.af
  | .or => a.at_ = cs.any Expr.at_ ∧ a.af = cs.all Expr.af
  | .comma => True

mutual
/-- Strong static invariant. -/
def ST : Expr T → Prop
  | .leaf a l => LF1 a l
  | .node a o cs => ST1 a o cs ∧ STs cs
/-- `ST` for a list. -/
def STs : List (Expr T) → Prop
  | [] => True
  | c :: cs => ST c ∧ STs cs
end

theorem STs_iff {cs : List (Expr T)} : STs cs ↔ ∀ c ∈ cs, ST c := by
  induction cs with
  | nil => simp [STs]
  | cons c cs ih => simp [STs, ih]

theorem ST_node {a : Ann T} {o : Op} {cs : List (Expr T)} :
    ST (.node a o cs) ↔ ST1 a o cs ∧ ∀ c ∈ cs, ST c := by rw [ST, STs_iff]
theorem ST_leaf {a : Ann T} {l : Leaf} : ST (.leaf a l : Expr T) ↔ LF1 a l := by rw [ST]

theorem leafAnn_LF1 (l : Leaf) : LF1 (leafAnn E l) l := by
  intro h
  cases l <;> simp_all [leafAnn, pureLeaf, atLeaf, afLeaf]

theorem constE_ST (b : Bool) : ST (constE E b) := by
  unfold constE; rw [ST_leaf]; exact leafAnn_LF1 E _

theorem annotate1_ST {a : Ann T} {o : Op} {cs : List (Expr T)} (h : ∀ c ∈ cs, ST c) :
    ST (annotate1 E (.node a o cs)) := by
  rw [annotate1, ST_node]
  refine ⟨?_, h⟩
  cases o with
  | not =>
    intro c hc
    subst hc
    left
    exact ⟨rfl, rfl⟩
  | and => exact ⟨rfl, rfl⟩
  | or => exact ⟨rfl, rfl⟩
  | comma => trivial

theorem annotate_ST : ∀ e : Expr T, ST (annotate E e) := by
  intro e
  induction e using Expr.ind with
  | hl a l => rw [annotate, ST_leaf]; exact leafAnn_LF1 E l
  | hn a o cs ih =>
    rw [annotate]
    have h := annotate1_ST E (a := a) (o := o) (cs := annotates E cs) (by
      rw [annotates_eq_map]
      intro c hc
      obtain ⟨d, hd, rfl⟩ := List.mem_map.1 hc
      exact ih d hd)
    rwa [annotate1] at h

/-- A leaf core that is pure. -/
theorem core_leaf {a : Ann T} {l m : Leaf} (h : core (.leaf a l : Expr T) = some m) :
    l = m ∧ l ≠ .true_ ∧ l ≠ .false_ := by
  cases l <;> simp [core] at h <;> exact ⟨h, by simp, by simp⟩

theorem ST_flags {level : Nat} : ∀ e : Expr T, Good level e → ST e → ∀ l, core e = some l → pureLeaf level l = true →
    e.at_ = false ∧ e.af = false := by
  intro e
  induction e using Expr.ind with
  | hl a l =>
    intro hg hst m hm hpm
    obtain ⟨rfl, h1, h2⟩ := core_leaf hm
    have := ST_leaf.1 hst (by rw [Good_leaf.1 hg, hpm])
    simpa [Expr.at_, Expr.af, Expr.ann, h1, h2] using this
  | hn a o cs ih =>
    intro hg hst m hm hpm
    match o, cs, hm with
    | .not, [c], hm =>
      rw [core] at hm
      have hgc := (Good_node.1 hg).2.2 c (by simp)
      have := ih c (by simp) hgc ((ST_node.1 hst).2 c (by simp)) m hm hpm
      rcases (ST_node.1 hst).1 c rfl with h | h
      · exact ⟨h.1.trans this.2, h.2.trans this.1⟩
      · exfalso
        cases c with
        | node b o' ds => simp [Expr.isParent] at h
        | leaf b l' =>
          obtain ⟨rfl, _, _⟩ := core_leaf hm
          have h2 := h.2
          simp only [Expr.pure, Expr.ann] at h2
          rw [Good_leaf.1 hgc, hpm] at h2
          simp at h2

theorem ST_SW {level : Nat} : ∀ e : Expr T, Good level e → ST e → SW level e := by
  intro e
  induction e using Expr.ind with
  | hl a l => intro _ h; rw [SW_leaf]; exact ST_leaf.1 h
  | hn a o cs ih =>
    intro hg h
    rw [SW_node]
    refine ⟨?_, fun c hc => ih c hc ((Good_node.1 hg).2.2 c hc) ((ST_node.1 h).2 c hc)⟩
    rintro rfl c l rfl hc hp
    have := ST_flags (.node a .not [c]) hg h l (by rw [core]; exact hc) hp
    simpa [Expr.at_, Expr.af, Expr.ann] using this

theorem AllTrue : ∀ e : Expr T, AllLeaves (fun _ => True) e := by
  intro e
  induction e using Expr.ind with
  | hl a l => simp [AllLeaves]
  | hn a o cs ih => exact AllLeaves_node.2 ih

include E in
/-- The strong invariant implies that flags of pure trees are constants propagated upwards. -/
theorem ST_SP {level : Nat} : ∀ e : Expr T, Good level e → NoComma e → ST e → SP e := by
  intro e
  induction e using Expr.ind with
  | hl a l =>
    intro hg _ h
    rw [SP_leaf]
    have := ST_leaf.1 h
    intro hp
    have := this (by simpa [Expr.pure, Expr.ann] using hp)
    simp only [Expr.at_, Expr.af, Expr.ann, this, decide_eq_true_eq]
    constructor <;> rintro rfl <;> simp [cp]
  | hn a o cs ih =>
    intro hg hnc h
    rw [SP_node]
    have hsp : ∀ c ∈ cs, SP c := fun c hc => ih c hc ((Good_node.1 hg).2.2 c hc) ((NoComma_node.1 hnc).2 c hc) ((ST_node.1 h).2 c hc)
    refine ⟨?_, hsp⟩
    have h1 := annotate1_SP1 E a o cs (Good_node.1 hg).1 hsp
    have hst := (ST_node.1 h).1
    have hpure := (Good_node.1 hg).2.1
    intro hp
    have hp' : a.pure = true := hp
    have hflags : (nodeAnn E o cs).at_ = a.at_ ∧ (nodeAnn E o cs).af = a.af := by
      match o, cs, (Good_node.1 hg).1, hst with
      | .not, [c], _, hst =>
        rcases hst c rfl with h | h
        · exact ⟨h.1.symm, h.2.symm⟩
        · rw [hpure] at hp'
          simp [h.2] at hp'
      | .and, cs, _, hst => exact ⟨hst.1.symm, hst.2.symm⟩
      | .or, cs, _, hst => exact ⟨hst.1.symm, hst.2.symm⟩
      | .comma, cs, _, _ => exact absurd rfl (NoComma_node.1 hnc).1
    have h2 := h1 (by
      simp only [annotate1, Expr.pure, Expr.ann]
      rw [nodeAnn_pure E o cs (Good_node.1 hg).1, ← hpure]
      exact hp')
    simp only [annotate1, Expr.at_, Expr.af, Expr.ann, hflags, cp_node] at h2 ⊢
    exact h2

/-! ### canonicalize -/

theorem negate_ST {e : Expr T} (h : ST e) : ST (negate E e) := by
  unfold negate
  split
  · exact (ST_node.1 h).2 _ (by simp)
  · exact constE_ST E _
  · exact constE_ST E _
  · exact annotate1_ST E (by simpa using h)

theorem flatten_ST (o : Op) : ∀ (cs : List (Expr T)), (∀ c ∈ cs, ST c) → ∀ c ∈ flatten o cs, ST c := by
  intro cs
  induction cs with
  | nil => simp [flatten]
  | cons c cs ih =>
    intro h x hx
    have ih' := ih (fun y hy => h y (by simp [hy]))
    cases c with
    | leaf b l =>
      rw [flatten] at hx
      rcases List.mem_cons.1 hx with rfl | hx
      · exact h _ (by simp)
      · exact ih' x hx
    | node b o' ds =>
      rw [flatten] at hx
      split at hx
      · rcases List.mem_append.1 hx with hx | hx
        · exact (ST_node.1 (h (.node b o' ds) (by simp))).2 x hx
        · exact ih' x hx
      · rcases List.mem_cons.1 hx with rfl | hx
        · exact h _ (by simp)
        · exact ih' x hx

/-- What canonicalize gives: flags as annotated, and negations at the top only of leaves. -/
structure CanonOK (level : Nat) (e e' : Expr T) : Prop where
  st : ST e'
  leaf : ∀ a l, e' = .leaf a l → l ≠ .true_ → l ≠ .false_ → core e = some l
  not : ∀ a cs, e' = .node a .not cs → ∃ b l, cs = [.leaf b l] ∧ l ≠ .true_ ∧ l ≠ .false_ ∧ core e = some l

theorem canonicalize_ST : ∀ (e : Expr T) (ign : Bool), Good E.level e → NoComma e → SW E.level e →
    CanonOK E.level e (canonicalize E ign e) := by
  intro e
  induction e using Expr.ind with
  | hl a l =>
    intro ign hg hnc h
    rw [canonicalize, visit]
    refine ⟨ST_leaf.2 (SW_leaf.1 h), ?_, by simp⟩
    intro b m heq h1 h2
    simp only [Expr.leaf.injEq] at heq
    obtain ⟨rfl, rfl⟩ := heq
    cases l <;> simp_all [core]
  | hn a o cs ih =>
    intro ign hg hnc h
    have ih' := fun c hc i => ih c hc i ((Good_node.1 hg).2.2 c hc) ((NoComma_node.1 hnc).2 c hc) ((SW_node.1 h).2 c hc)
    have hvs : ∀ c ∈ visits (canonLocal E) o ign cs, ST c := by
      clear hg hnc h ih
      induction cs with
      | nil => simp [visits]
      | cons c cs ihl =>
        intro d hd
        rw [visits] at hd
        rcases List.mem_cons.1 hd with rfl | hd
        · exact (ih' c (by simp) _).st
        · exact ihl (fun x hx => ih' x (by simp [hx])) d hd
    rw [canonicalize, visit, rebuild]
    match o, cs, (Good_node.1 hg).1 with
    | .comma, cs, _ => exact absurd rfl (NoComma_node.1 hnc).1
    | .and, cs, _ =>
      simp only [canonLocal]
      exact ⟨annotate1_ST E (flatten_ST _ _ hvs), by simp [annotate1], by simp [annotate1]⟩
    | .or, cs, _ =>
      simp only [canonLocal]
      exact ⟨annotate1_ST E (flatten_ST _ _ hvs), by simp [annotate1], by simp [annotate1]⟩
    | .not, [c], _ =>
      have hc := ih' c (by simp) (childIgn .not ign true)
      have hgc : Good E.level (visit (canonLocal E) (childIgn .not ign true) c) :=
        canonicalize_good E _ c ((Good_node.1 hg).2.2 c (by simp))
      have hsw := (SW_node.1 h).1 rfl c
      simp only [visits, List.isEmpty_nil, canonLocal]
      rw [canonicalize] at hc
      generalize hr : visit (canonLocal E) (childIgn .not ign true) c = r at *
      have hcore : core (.node a .not [c]) = core c := by rw [core]
      unfold canonNot
      split
      · rename_i b d ds
        obtain ⟨b', l, hl, h1, h2, h3⟩ := hc.not _ _ rfl
        simp only [List.cons.injEq] at hl
        obtain ⟨rfl, rfl⟩ := hl
        refine ⟨(ST_node.1 hc.st).2 _ (by simp), ?_, by simp⟩
        intro a' l' heq _ _
        simp only [Expr.leaf.injEq] at heq
        rw [hcore, h3, heq.2]
      · refine ⟨annotate1_ST E ?_, by simp [annotate1], by simp [annotate1]⟩
        intro x hx
        obtain ⟨d, hd, rfl⟩ := List.mem_map.1 hx
        exact negate_ST E ((ST_node.1 hc.st).2 d hd)
      · refine ⟨annotate1_ST E ?_, by simp [annotate1], by simp [annotate1]⟩
        intro x hx
        obtain ⟨d, hd, rfl⟩ := List.mem_map.1 hx
        exact negate_ST E ((ST_node.1 hc.st).2 d hd)
      · rename_i b ds
        have hn := (NCL_canonicalize E (P := fun _ => True) trivial trivial (childIgn .not ign true) c
          ⟨(NoComma_node.1 hnc).2 c (by simp), (AllTrue c)⟩).1
        rw [canonicalize, hr] at hn
        exact absurd rfl (NoComma_node.1 hn).1
      · exact ⟨constE_ST E _, by simp [constE], by simp [constE]⟩
      · exact ⟨constE_ST E _, by simp [constE], by simp [constE]⟩
      · rename_i x1 x2 x3 x4 x5 x6
        cases r with
        | node b o' ds =>
          exfalso
          cases o' with
          | comma => exact x4 _ _ rfl
          | and => exact x2 _ _ rfl
          | or => exact x3 _ _ rfl
          | not =>
            cases ds with
            | nil => have := (Good_node.1 hgc).1; simp [arityOK] at this
            | cons d ds => exact x1 _ _ _ rfl
        | leaf b l =>
          have h1 : l ≠ .true_ := fun h => x5 b (by rw [h])
          have h2 : l ≠ .false_ := fun h => x6 b (by rw [h])
          have h3 := hc.leaf b l rfl h1 h2
          refine ⟨?_, by simp, ?_⟩
          · rw [ST_node]
            refine ⟨?_, by simpa using hc.st⟩
            intro c' hc'
            simp only [List.cons.injEq, and_true] at hc'
            subst hc'
            cases hp : pureLeaf E.level l with
            | true =>
              left
              obtain ⟨f1, f2⟩ := hsw l rfl h3 hp
              have := ST_leaf.1 hc.st (by rw [Good_leaf.1 hgc, hp])
              simp [f1, f2, Expr.at_, Expr.af, Expr.ann, this, h1, h2]
            | false =>
              right
              simp [Expr.isParent, Expr.pure, Expr.ann, Good_leaf.1 hgc, hp]
          · intro a' cs' heq
            simp only [Expr.node.injEq, true_and] at heq
            exact ⟨b, l, heq.2.symm, h1, h2, by rw [hcore, h3]⟩

/-! ### reorder -/

theorem all_perm {p : Expr T → Bool} {l₁ l₂ : List (Expr T)} (h : l₁.Perm l₂) : l₁.all p = l₂.all p := by
  rw [Bool.eq_iff_iff, List.all_eq_true, List.all_eq_true]
  exact ⟨fun k x hx => k x (h.mem_iff.2 hx), fun k x hx => k x (h.mem_iff.1 hx)⟩

theorem any_perm {p : Expr T → Bool} {l₁ l₂ : List (Expr T)} (h : l₁.Perm l₂) : l₁.any p = l₂.any p := by
  rw [Bool.eq_iff_iff, List.any_eq_true, List.any_eq_true]
  exact ⟨fun ⟨x, hx, k⟩ => ⟨x, h.mem_iff.1 hx, k⟩, fun ⟨x, hx, k⟩ => ⟨x, h.mem_iff.2 hx, k⟩⟩

theorem visits_flags (g : Bool → Expr T → Expr T) (o : Op) (ign : Bool) (p : Expr T → Bool) (cs : List (Expr T))
    (h : ∀ c ∈ cs, ∀ i, p (visit g i c) = p c) :
    (visits g o ign cs).all p = cs.all p ∧ (visits g o ign cs).any p = cs.any p := by
  induction cs with
  | nil => simp [visits]
  | cons c cs ih =>
    have := ih (fun d hd => h d (by simp [hd]))
    simp [visits, h c (by simp), this]

theorem visits_mem (g : Bool → Expr T → Expr T) (o : Op) (ign : Bool) (Q : Expr T → Prop) (cs : List (Expr T))
    (h : ∀ c ∈ cs, ∀ i, Q (visit g i c)) : ∀ c ∈ visits g o ign cs, Q c := by
  induction cs with
  | nil => simp [visits]
  | cons c cs ih =>
    intro d hd
    rw [visits] at hd
    rcases List.mem_cons.1 hd with rfl | hd
    · exact h c (by simp) _
    · exact ih (fun x hx => h x (by simp [hx])) d hd

/-- Reordering keeps the strong invariant, and the flags. -/
structure ReorderOK (e e' : Expr T) : Prop where
  st : ST e'
  at_ : e'.at_ = e.at_
  af : e'.af = e.af
  par : e'.isParent = e.isParent
  pure : e'.pure = e.pure

theorem reorder_ST : ∀ (e : Expr T) (ign : Bool), Good E.level e → NoComma e → ST e →
    ReorderOK e (reorder E ign e) := by
  intro e
  induction e using Expr.ind with
  | hl a l =>
    intro ign hg hnc h
    rw [reorder, visit]
    exact ⟨h, rfl, rfl, rfl, rfl⟩
  | hn a o cs ih =>
    intro ign hg hnc h
    have ih' : ∀ c ∈ cs, ∀ i, ReorderOK c (visit (reorderLocal E) i c) :=
      fun c hc i => ih c hc i ((Good_node.1 hg).2.2 c hc) ((NoComma_node.1 hnc).2 c hc) ((ST_node.1 h).2 c hc)
    have hvs := visits_mem (reorderLocal E) o ign ST cs (fun c hc i => (ih' c hc i).st)
    have hat := visits_flags (reorderLocal E) o ign Expr.at_ cs (fun c hc i => (ih' c hc i).at_)
    have haf := visits_flags (reorderLocal E) o ign Expr.af cs (fun c hc i => (ih' c hc i).af)
    have hpu := visits_flags (reorderLocal E) o ign Expr.pure cs (fun c hc i => (ih' c hc i).pure)
    have hst := (ST_node.1 h).1
    have hp := (Good_node.1 hg).2.1
    rw [reorder, visit, rebuild]
    match o, cs, (Good_node.1 hg).1 with
    | .comma, cs, _ => exact absurd rfl (NoComma_node.1 hnc).1
    | .and, cs, _ =>
      simp only [reorderLocal]
      generalize hL : reorderLoop (fun x y => E.costs.le Op.and x.ann.cost y.ann.cost) [] (visits (reorderLocal E) .and ign cs) = L
      have hperm : L.Perm (visits (reorderLocal E) .and ign cs) := by
        rw [← hL]; simpa using reorderLoop_perm _ [] (visits (reorderLocal E) .and ign cs)
      refine ⟨annotate1_ST E (fun c hc => hvs c (hperm.mem_iff.1 hc)), ?_, ?_, rfl, ?_⟩
      · simp only [annotate1, Expr.at_, Expr.ann, hst.1]
        exact (all_perm hperm).trans hat.1
      · simp only [annotate1, Expr.af, Expr.ann, hst.2]
        exact (any_perm hperm).trans haf.2
      · simp only [annotate1, Expr.pure, Expr.ann, hp]
        exact (all_perm hperm).trans hpu.1
    | .or, cs, _ =>
      simp only [reorderLocal]
      generalize hL : reorderLoop (fun x y => E.costs.le Op.or x.ann.cost y.ann.cost) [] (visits (reorderLocal E) .or ign cs) = L
      have hperm : L.Perm (visits (reorderLocal E) .or ign cs) := by
        rw [← hL]; simpa using reorderLoop_perm _ [] (visits (reorderLocal E) .or ign cs)
      refine ⟨annotate1_ST E (fun c hc => hvs c (hperm.mem_iff.1 hc)), ?_, ?_, rfl, ?_⟩
      · simp only [annotate1, Expr.at_, Expr.ann, hst.1]
        exact (any_perm hperm).trans hat.2
      · simp only [annotate1, Expr.af, Expr.ann, hst.2]
        exact (all_perm hperm).trans haf.1
      · simp only [annotate1, Expr.pure, Expr.ann, hp]
        exact (all_perm hperm).trans hpu.1
    | .not, [c], _ =>
      have hc := ih' c (by simp) (childIgn .not ign true)
      simp only [visits, List.isEmpty_nil, reorderLocal]
      refine ⟨?_, rfl, rfl, rfl, ?_⟩
      · rw [ST_node]
        refine ⟨?_, by simpa using hc.st⟩
        intro c' hc'
        simp only [List.cons.injEq, and_true] at hc'
        subst hc'
        rw [hc.at_, hc.af, hc.par, hc.pure]
        exact hst c rfl
      · simp [Expr.pure, Expr.ann] at hp ⊢
        rw [hp]
        exact hc.pure

end Verif.Opt
