import Verif.Lemmas.OptFlow
/-!
# The passes keep trees comma-free and introduce no new leaves
-/
namespace Verif.Opt
open Verif.Spec.Opt
variable {T W : Type} (E : Env T) {sem : Leaf → W → Res W} {P : Leaf → Prop}

/-- Comma-free, with leaves satisfying `P`. -/
def NCL (P : Leaf → Prop) (e : Expr T) : Prop := NoComma e ∧ AllLeaves P e

theorem NCL_node {a : Ann T} {o : Op} {cs : List (Expr T)} :
    NCL P (.node a o cs) ↔ o ≠ .comma ∧ ∀ c ∈ cs, NCL P c := by
  unfold NCL
  rw [NoComma_node, AllLeaves_node]
  constructor
  · intro ⟨h1, h2⟩; exact ⟨h1.1, fun c hc => ⟨h1.2 c hc, h2 c hc⟩⟩
  · intro ⟨h1, h2⟩; exact ⟨⟨h1, fun c hc => (h2 c hc).1⟩, fun c hc => (h2 c hc).2⟩

theorem NCL_leaf {a : Ann T} {l : Leaf} : NCL P (.leaf a l : Expr T) ↔ P l := by
  unfold NCL
  rw [AllLeaves_leaf]
  simp [NoComma]

theorem Shape_iff {level : Nat} {e : Expr T} : Shape level P e ↔ Good level e ∧ NCL P e :=
  ⟨fun h => ⟨h.good, h.nc, h.lv⟩, fun h => ⟨h.1, h.2.1, h.2.2⟩⟩

theorem NCL_annotate1 {e : Expr T} (h : NCL P e) : NCL P (annotate1 E e) := by
  cases e with
  | leaf a l => simpa [annotate1, NCL_leaf] using h
  | node a o cs => simpa [annotate1, NCL_node] using h

theorem NCL_annotate : ∀ e : Expr T, NCL P e → NCL P (annotate E e) := by
  intro e
  induction e using Expr.ind with
  | hl a l => intro h; simpa [annotate, NCL_leaf] using h
  | hn a o cs ih =>
    intro h
    rw [NCL_node] at h
    rw [annotate, NCL_node, annotates_eq_map]
    refine ⟨h.1, fun c hc => ?_⟩
    obtain ⟨d, hd, rfl⟩ := List.mem_map.1 hc
    exact ih d hd (h.2 d hd)

section
variable (hP1 : P .true_) (hP2 : P .false_)
include hP1 hP2

theorem NCL_constE (b : Bool) : NCL P (constE E b) := by
  unfold constE
  rw [NCL_leaf]
  cases b <;> simp [hP1, hP2]

theorem NCL_negate {e : Expr T} (h : NCL P e) : NCL P (negate E e) := by
  unfold negate
  split
  · exact (NCL_node.1 h).2 _ (by simp)
  · exact NCL_constE E hP1 hP2 _
  · exact NCL_constE E hP1 hP2 _
  · exact NCL_annotate1 E (NCL_node.2 ⟨by simp, by simpa using h⟩)

theorem NCL_negates {cs : List (Expr T)} (h : ∀ c ∈ cs, NCL P c) : ∀ c ∈ cs.map (negate E), NCL P c := by
  intro c hc
  obtain ⟨d, hd, rfl⟩ := List.mem_map.1 hc
  exact NCL_negate E hP1 hP2 (h d hd)

omit hP1 hP2 in
theorem NCL_flatten (o : Op) : ∀ (cs : List (Expr T)), (∀ c ∈ cs, NCL P c) → ∀ c ∈ flatten o cs, NCL P c := by
  intro cs
  induction cs with
  | nil => simp [flatten]
  | cons c cs ih =>
    intro h x hx
    have ih' := ih (fun y hy => h y (by simp [hy]))
    cases c with
    | leaf b l =>
      rw [flatten] at hx
      rcases List.mem_cons.1 hx with rfl | hx
      · exact h _ (by simp)
      · exact ih' x hx
    | node b o' ds =>
      rw [flatten] at hx
      split at hx
      · rcases List.mem_append.1 hx with hx | hx
        · exact (NCL_node.1 (h (.node b o' ds) (by simp))).2 x hx
        · exact ih' x hx
      · rcases List.mem_cons.1 hx with rfl | hx
        · exact h _ (by simp)
        · exact ih' x hx

theorem NCL_canonLocal (ign : Bool) (e : Expr T) (h : NCL P e) : NCL P (canonLocal E ign e) := by
  match e, h with
  | .leaf a l, h => simpa [canonLocal] using h
  | .node a .not [], h => simpa [canonLocal] using h
  | .node a .not (c :: d :: ds), h => simpa [canonLocal] using h
  | .node a .not [c], h =>
    have hc := (NCL_node.1 h).2 c (by simp)
    simp only [canonLocal]
    unfold canonNot
    split
    · exact (NCL_node.1 hc).2 _ (by simp)
    · exact NCL_annotate1 E (NCL_node.2 ⟨by simp, NCL_negates E hP1 hP2 (NCL_node.1 hc).2⟩)
    · exact NCL_annotate1 E (NCL_node.2 ⟨by simp, NCL_negates E hP1 hP2 (NCL_node.1 hc).2⟩)
    · exact absurd rfl (NCL_node.1 hc).1
    · exact NCL_constE E hP1 hP2 _
    · exact NCL_constE E hP1 hP2 _
    · exact NCL_node.2 ⟨by simp, by simpa using hc⟩
  | .node a .and cs, h =>
    simp only [canonLocal]
    exact NCL_annotate1 E (NCL_node.2 ⟨by simp, NCL_flatten _ _ (NCL_node.1 h).2⟩)
  | .node a .or cs, h =>
    simp only [canonLocal]
    exact NCL_annotate1 E (NCL_node.2 ⟨by simp, NCL_flatten _ _ (NCL_node.1 h).2⟩)
  | .node a .comma cs, h => exact absurd rfl (NCL_node.1 h).1

omit hP1 hP2 in
theorem NCL_visit (g : Bool → Expr T → Expr T) (hg : ∀ ign e, NCL P e → NCL P (g ign e)) :
    ∀ (e : Expr T) (ign : Bool), NCL P e → NCL P (visit g ign e) := by
  intro e
  induction e using Expr.ind with
  | hl a l => intro ign h; rw [visit]; exact h
  | hn a o cs ih =>
    intro ign h
    rw [visit]
    apply hg
    rw [NCL_node] at h
    rw [rebuild, NCL_node]
    refine ⟨h.1, ?_⟩
    have h2 := h.2
    clear h
    induction cs with
    | nil => simp [visits]
    | cons c cs ihl =>
      intro d hd
      rw [visits] at hd
      rcases List.mem_cons.1 hd with rfl | hd
      · exact ih c (by simp) _ (h2 c (by simp))
      · exact ihl (fun x hx => ih x (by simp [hx])) (fun x hx => h2 x (by simp [hx])) d hd

theorem NCL_canonicalize (ign : Bool) (e : Expr T) (h : NCL P e) : NCL P (canonicalize E ign e) :=
  NCL_visit _ (NCL_canonLocal E hP1 hP2) e ign h

theorem NCL_liftNot (a : Ann T) (o : Op) (ho : o = .and ∨ o = .or) (cs : List (Expr T))
    (hg : ∀ c ∈ cs, NCL P c) : NCL P (liftNot E a o cs) := by
  unfold liftNot; dsimp only
  split
  · exact NCL_annotate1 E (NCL_node.2 ⟨by rcases ho with rfl | rfl <;> simp, hg⟩)
  · exact NCL_negate E hP1 hP2 (NCL_annotate1 E (NCL_node.2
      ⟨by rcases ho with rfl | rfl <;> simp [Op.flip], NCL_negates E hP1 hP2 hg⟩))

theorem NCL_simpLocal (ign : Bool) (e : Expr T) (h : NCL P e) : NCL P (simpLocal E ign e) := by
  match e, h with
  | .leaf a l, h => simpa [simpLocal] using h
  | .node a .not [], h => simpa [simpLocal] using h
  | .node a .not (c :: d :: ds), h => simpa [simpLocal] using h
  | .node a .not [c], h =>
    simp only [simpLocal]
    split
    · exact (NCL_node.1 h).2 c (by simp)
    · exact h
  | .node a .and cs, h =>
    have hk : ∀ c ∈ andKeep (dropIgnorable E.level ign cs), NCL P c :=
      fun c hc => (NCL_node.1 h).2 c (mem_dropIgnorable (mem_andKeep hc))
    simp only [simpLocal]
    split
    · exact NCL_constE E hP1 hP2 _
    · rename_i c heq; exact hk c (by simp [heq])
    · exact NCL_liftNot E hP1 hP2 _ _ (Or.inl rfl) _ hk
  | .node a .or cs, h =>
    have hk : ∀ c ∈ orKeep (dropIgnorable E.level ign cs), NCL P c :=
      fun c hc => (NCL_node.1 h).2 c (mem_dropIgnorable (mem_orKeep hc))
    simp only [simpLocal]
    split
    · exact NCL_constE E hP1 hP2 _
    · rename_i c heq; exact hk c (by simp [heq])
    · exact NCL_liftNot E hP1 hP2 _ _ (Or.inr rfl) _ hk
  | .node a .comma cs, h => exact absurd rfl (NCL_node.1 h).1

theorem NCL_simplify (ign : Bool) (e : Expr T) (h : NCL P e) : NCL P (simplify E ign e) :=
  NCL_visit _ (NCL_simpLocal E hP1 hP2) e ign h

end

theorem NCL_reorderLocal (ign : Bool) (e : Expr T) (h : NCL P e) : NCL P (reorderLocal E ign e) := by
  match e, h with
  | .leaf a l, h => simpa [reorderLocal] using h
  | .node a .not cs, h => simpa [reorderLocal] using h
  | .node a .comma cs, h => simpa [reorderLocal] using h
  | .node a .and cs, h =>
    simp only [reorderLocal]
    refine NCL_annotate1 E (NCL_node.2 ⟨by simp, fun c hc => (NCL_node.1 h).2 c ?_⟩)
    simpa using (reorderLoop_perm _ _ _).mem_iff.1 hc
  | .node a .or cs, h =>
    simp only [reorderLocal]
    refine NCL_annotate1 E (NCL_node.2 ⟨by simp, fun c hc => (NCL_node.1 h).2 c ?_⟩)
    simpa using (reorderLoop_perm _ _ _).mem_iff.1 hc

theorem NCL_reorder (ign : Bool) (e : Expr T) (h : NCL P e) : NCL P (reorder E ign e) :=
  NCL_visit _ (NCL_reorderLocal E) e ign h

end Verif.Opt
