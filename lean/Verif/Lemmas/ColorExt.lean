import Verif.Spec.Color
import Verif.Lemmas.TrieTop
/-! Lemmas about the extensions in `$LS_COLORS`: the tries. -/
namespace Verif.Color
open Verif.Trie
open Verif.Spec.Trie (IsStr)

/-! ## Reversing -/

theorem reverseLoop_get (l0 : Bytes) : ∀ (n i j : Nat) (l : Bytes), i + j + 1 = l0.length → l.length = l0.length → j ≤ i + n →
    (∀ k, k < l0.length → l[k]? = if k < i ∨ j < k then l0[l0.length - 1 - k]? else l0[k]?) →
    ∀ k, k < l0.length → (reverseLoop n i j l)[k]? = l0[l0.length - 1 - k]? := by
  intro n
  induction n with
  | zero =>
    intro i j l h1 h2 h3 h k hk
    show l[k]? = _
    rw [h k hk]
    by_cases hc : k < i ∨ j < k
    · rw [if_pos hc]
    · rw [if_neg hc]; congr 1; omega
  | succ n ih =>
    intro i j l h1 h2 h3 h k hk
    rw [reverseLoop]
    by_cases hij : i < j
    · rw [if_pos hij]
      refine ih (i + 1) (j - 1) _ (by omega) (by simp [h2]) (by omega) ?_ k hk
      intro m hm
      have hi := h i (by omega)
      have hj := h j (by omega)
      rw [if_neg (by omega)] at hi hj
      by_cases h5 : m = j
      · subst h5
        rw [List.getElem?_set_self (by simp; omega), if_pos (by omega), List.getD_eq_getElem?_getD, hi]
        have : i = l0.length - 1 - m := by omega
        rw [← this]
        rw [List.getElem?_eq_getElem (by omega)]; rfl
      · rw [List.getElem?_set_ne (by omega)]
        by_cases h6 : m = i
        · subst h6
          rw [List.getElem?_set_self (by omega), if_pos (by omega), List.getD_eq_getElem?_getD, hj]
          have : j = l0.length - 1 - m := by omega
          rw [← this]
          rw [List.getElem?_eq_getElem (by omega)]; rfl
        · rw [List.getElem?_set_ne (by omega), h m hm]
          by_cases h7 : m < i ∨ j < m
          · rw [if_pos h7, if_pos (by omega)]
          · rw [if_neg h7, if_neg (by omega)]
    · rw [if_neg hij, h k hk]
      by_cases hc : k < i ∨ j < k
      · rw [if_pos hc]
      · rw [if_neg hc]; congr 1; omega

theorem reverseLoop_length : ∀ (n i j : Nat) (l : Bytes), (reverseLoop n i j l).length = l.length := by
  intro n
  induction n with
  | zero => intro i j l; rfl
  | succ n ih =>
    intro i j l
    rw [reverseLoop]
    by_cases hij : i < j
    · rw [if_pos hij, ih]; simp
    · rw [if_neg hij]

theorem extReverse_eq (l : Bytes) : extReverse l = l.reverse := by
  unfold extReverse
  by_cases h : l.length ≠ 0
  · rw [if_pos h]
    apply List.ext_getElem?
    intro k
    by_cases hk : k < l.length
    · rw [reverseLoop_get l l.length 0 (l.length - 1) l (by omega) rfl (by omega) ?_ k hk, List.getElem?_reverse hk]
      intro m hm
      rw [if_neg (by omega)]
    · rw [List.getElem?_eq_none (by rw [reverseLoop_length]; omega), List.getElem?_eq_none (by simp; omega)]
  · rw [if_neg h]
    have : l = [] := List.length_eq_zero_iff.1 (by omega)
    subst this; rfl

theorem extTolower_eq (l : Bytes) : extTolower l = lower l := by
  unfold extTolower lower
  apply List.map_congr_left
  intro c _
  have h : (65 ≤ c ∧ c ≤ 90) ↔ (65 ≤ c.toNat ∧ c.toNat ≤ 90) := by
    rw [UInt8.le_iff_toNat_le, UInt8.le_iff_toNat_le]; exact Iff.rfl
  by_cases hc : 65 ≤ c ∧ c ≤ 90
  · rw [if_pos hc, if_pos (h.1 hc)]
    apply UInt8.toNat_inj.1
    rw [UInt8.toNat_add]
    simp only [UInt8.toNat_ofNat']
    rfl
  · rw [if_neg hc, if_neg (fun h' => hc (h.2 h'))]

theorem lower_length (l : Bytes) : (lower l).length = l.length := by unfold lower; simp
theorem lower_reverse (l : Bytes) : lower l.reverse = (lower l).reverse := by unfold lower; rw [List.map_reverse]

theorem lower_nul {l : Bytes} (h : 0 ∉ l) : 0 ∉ lower l := by
  unfold lower
  intro hm
  obtain ⟨c, hc, he⟩ := List.mem_map.1 hm
  by_cases hu : 65 ≤ c.toNat ∧ c.toNat ≤ 90
  · rw [if_pos hu] at he
    have := congrArg UInt8.toNat he
    simp only [UInt8.toNat_ofNat'] at this
    have h0 : (0 : UInt8).toNat = 0 := rfl
    rw [h0] at this
    omega
  · rw [if_neg hu] at he
    subst he; exact h hc

/-! ## Searching a trie -/

section
variable {V : Type}

theorem findPostfix_wf {K : Nat} {t : Trie V} (h : WF K t) (q : Bytes) : ∃ r, findPostfix t.root q = .ok r ∧
    (∀ k, r = some k → k ∈ t.leaves.map (·.1) ∧ q <+: k) ∧ (r = none → ∀ k ∈ t.leaves.map (·.1), ¬ q <+: k) := by
  have hroot := h.root
  have hiff : ∀ r : List UInt8, (r.length ≥ q.length && r.take q.length == q) = true ↔ q <+: r := by
    intro r
    rw [List.prefix_iff_eq_take]
    simp only [Bool.and_eq_true, decide_eq_true_eq, beq_iff_eq]
    constructor
    · intro h; exact h.2.symm
    · intro h
      refine ⟨?_, h.symm⟩
      have := congrArg List.length h
      simp at this
      omega
  cases hr : t.root with
  | none =>
    rw [hr] at hroot
    dsimp only at hroot
    refine ⟨none, rfl, by simp, ?_⟩
    rw [hroot]; simp
  | some p =>
    rw [hr] at hroot
    dsimp only at hroot
    obtain ⟨hI, hk⟩ := hroot
    by_cases hex : ∃ k ∈ Verif.Trie.keys p, q <+: k
    · obtain ⟨r, hr1, hr2, hr3⟩ := rep_prefix (K := K) (List.prefix_append q [0]) p 0 hI hex
      refine ⟨some r, ?_, ?_, by simp⟩
      · rw [findPostfix, hr3]
        simp only [Out.bind_ok', (hiff r).2 hr2, if_true]
      · intro k hk'
        injection hk' with hk'
        subst hk'
        exact ⟨(hk r).1 hr1, hr2⟩
    · obtain ⟨r, hr1, hr3⟩ := rep_mem (q ++ [0]) p 0 hI
      refine ⟨none, ?_, by simp, ?_⟩
      · rw [findPostfix, hr3]
        have : ¬ (r.length ≥ q.length && r.take q.length == q) = true := by
          rw [hiff]; intro h; exact hex ⟨r, hr1, h⟩
        simp only [Out.bind_ok', this, Bool.false_eq_true, if_false]
      · intro _ k hk' hq
        exact hex ⟨k, (hk k).2 hk', hq⟩

theorem findPrefix_wf {K : Nat} {t : Trie V} (h : WF K t) (hs : ∀ k ∈ t.leaves.map (·.1), IsStr k) (q : Bytes) : ∃ r, findPrefix t.root q = .ok r ∧
    (∀ k, r = some k → ∃ s, k = s ++ [0] ∧ k ∈ t.leaves.map (·.1) ∧ s <+: q ∧ ∀ s', s' ++ [0] ∈ t.leaves.map (·.1) → s' <+: q → s'.length ≤ s.length) ∧
    (r = none → ∀ s, s ++ [0] ∈ t.leaves.map (·.1) → ¬ s <+: q) := by
  have hroot := h.root
  cases hr : t.root with
  | none =>
    rw [hr] at hroot
    dsimp only at hroot
    refine ⟨none, rfl, by simp, ?_⟩
    rw [hroot]; simp
  | some p =>
    rw [hr] at hroot
    dsimp only at hroot
    obtain ⟨hI, hk⟩ := hroot
    have hstr : ∀ k ∈ Verif.Trie.keys p, IsStr k := fun k hkp => hs k ((hk k).1 hkp)
    obtain ⟨res, e1, e2⟩ := prefixLoop_ok (K := K) (q := q) p 0 none 0 hI hstr (by
      intro k hkp
      obtain ⟨s, _, rfl⟩ := hstr k hkp
      simp)
    refine ⟨res, by rw [findPrefix, e1], ?_, ?_⟩
    · intro k hres
      rcases e2 with ⟨e, _⟩ | ⟨k', hk1, ⟨s, rfl, hg⟩, e, hmax⟩
      · rw [e] at hres; exact absurd hres (by simp)
      · rw [e] at hres
        injection hres with hres
        subst hres
        refine ⟨s, rfl, (hk _).1 hk1, hg, ?_⟩
        intro s' hs' hp
        have := hmax (s' ++ [0]) ((hk _).2 hs') ⟨s', rfl, hp⟩
        simpa using this
    · intro hres s hs' hp
      rcases e2 with ⟨e, hno⟩ | ⟨k', _, _, e, _⟩
      · exact hno (s ++ [0]) ((hk _).2 hs') ⟨s, rfl, hp⟩
      · rw [e] at hres; exact absurd hres (by simp)

end

/-! ## Inserting an extension -/

theorem removePostfixes_ok {K : Nat} (e : Bytes) : ∀ (n : Nat) (t : Trie Nat), WF K t → t.leaves.length < n →
    ∃ t', removePostfixes K n t e = .ok t' ∧ WF K t' ∧ t'.leaves = t.leaves.filter (fun x => decide (¬ e <+: x.1)) := by
  intro n
  induction n with
  | zero => intro t _ h; omega
  | succ n ih =>
    intro t hw hl
    obtain ⟨r, h1, h2, h3⟩ := findPostfix_wf hw e
    rw [removePostfixes, h1]
    cases r with
    | none =>
      refine ⟨t, rfl, hw, ?_⟩
      symm
      rw [List.filter_eq_self]
      intro x hx
      simp only [decide_eq_true_eq]
      exact h3 rfl x.1 (List.mem_map_of_mem hx)
    | some k =>
      obtain ⟨hk, hp⟩ := h2 k rfl
      obtain ⟨t1, g1, g2, g3⟩ := remove_ok hw hk
      have hlt : t1.leaves.length < t.leaves.length := by
        rw [g3]
        obtain ⟨x, hx, rfl⟩ := List.mem_map.1 hk
        have := List.length_filter_lt_length_iff_exists (p := fun y : Key × Nat => decide (y.1 ≠ x.1)) (l := t.leaves)
        exact this.2 ⟨x, hx, by simp⟩
      obtain ⟨t2, q1, q2, q3⟩ := ih t1 g2 (by omega)
      refine ⟨t2, ?_, q2, ?_⟩
      · show (remove K t k).bind _ = _
        rw [g1]
        exact q1
      · rw [q3, g3, List.filter_filter]
        apply List.filter_congr
        intro x _
        by_cases hx : e <+: x.1
        · simp [hx]
        · have : x.1 ≠ k := by rintro rfl; exact hx hp
          simp [hx, this]

/-- Two strings of which one is a prefix of the other, terminators included, are equal. -/
theorem str_prefix {a b : Bytes} (ha : 0 ∉ a) (h : b ++ [0] <+: a ++ [0]) : b = a := by
  obtain ⟨r, hr⟩ := h
  by_cases hr0 : r = []
  · subst hr0
    rw [List.append_nil] at hr
    exact List.append_cancel_right hr
  · exfalso
    apply ha
    obtain ⟨x, y, rfl⟩ : ∃ x y, r = x ++ [y] := by
      rcases List.eq_nil_or_concat r with h | ⟨x, y, h⟩
      · exact absurd h hr0
      · exact ⟨x, y, by rw [h, List.concat_eq_append]⟩
    rw [← List.append_assoc] at hr
    have := List.append_inj' hr rfl
    rw [← this.1]
    simp

theorem setValue_append {V : Type} (l : List (Key × V)) (k : Key) (v0 v : V) (h : k ∉ l.map (·.1)) : setValue k v (l ++ [(k, v0)]) = l ++ [(k, v)] := by
  unfold setValue
  rw [List.map_append]
  congr 1
  · conv => rhs; rw [← List.map_id l]
    apply List.map_congr_left
    intro x hx
    rw [if_neg]
    · rfl
    · rintro rfl; exact h (List.mem_map_of_mem hx)
  · simp

theorem insertExt_ok {K : Nat} {t : Trie Nat} (hw : WF K t) (hs : ∀ k ∈ t.leaves.map (·.1), IsStr k) {e : Bytes} (he : 0 ∉ e) (i : Nat) :
    ∃ t', insertExt K t e i = .ok t' ∧ WF K t' ∧ t'.leaves = t.leaves.filter (fun x => decide (¬ e <+: x.1)) ++ [(e ++ [0], i)] := by
  obtain ⟨t1, h1, h2, h3⟩ := removePostfixes_ok e (t.leaves.length + 1) t hw (Nat.lt_succ_self _)
  have hno : e ++ [0] ∉ t1.leaves.map (·.1) := by
    rw [h3]
    intro hm
    obtain ⟨x, hx, hxe⟩ := List.mem_map.1 hm
    have := (List.mem_filter.1 hx).2
    simp only [decide_eq_true_eq] at this
    rw [hxe] at this
    exact this (List.prefix_append _ _)
  obtain ⟨t2, g1, g2, g3⟩ := setMem_ok (v0 := 0) (v := i) h2 (key := e ++ [0]) (by simp) (by
    intro k hk
    rw [h3] at hk
    obtain ⟨x, hx, rfl⟩ := List.mem_map.1 hk
    obtain ⟨hx1, hx2⟩ := List.mem_filter.1 hx
    simp only [decide_eq_true_eq] at hx2
    obtain ⟨s, hs0, hse⟩ := hs x.1 (List.mem_map_of_mem hx1)
    rw [hse]
    constructor
    · intro hp; rw [str_prefix he hp]
    · intro hp
      rw [hse] at hx2
      exact absurd ((List.prefix_append e [0]).trans hp) hx2)
  refine ⟨t2, ?_, g2, ?_⟩
  · unfold insertExt; rw [h1]; exact g1
  · rw [g3, if_neg hno, setValue_append _ _ _ _ hno, h3]

/-! ## Lists of extensions -/

abbrev Item' := Bytes × Nat

/-- A later extension overrides those that it is a prefix of. -/
def addE (A : List Item') (x : Item') : List Item' := A.filter (fun y => decide (¬ x.1 <+: y.1)) ++ [x]

def survivors (X : List Item') : List Item' := X.foldl addE []

theorem survivors_snoc (X : List Item') (x : Item') : survivors (X ++ [x]) = addE (survivors X) x := by
  unfold survivors; rw [List.foldl_append]; rfl

theorem snocInd {α : Type} {P : List α → Prop} (h0 : P []) (h1 : ∀ l x, P l → P (l ++ [x])) (l : List α) : P l := by
  have : ∀ r : List α, P r.reverse := by
    intro r
    induction r with
    | nil => exact h0
    | cons x r ih => rw [List.reverse_cons]; exact h1 _ _ ih
  have h := this l.reverse
  rwa [List.reverse_reverse] at h

theorem survivors_sublist (X : List Item') : (survivors X).Sublist X := by
  induction X using snocInd with
  | h0 => exact List.Sublist.refl _
  | h1 X x ih =>
    rw [survivors_snoc]
    exact List.Sublist.append (List.filter_sublist.trans ih) (List.Sublist.refl _)

theorem survivors_pairwise (X : List Item') : (survivors X).Pairwise fun a b => ¬ b.1 <+: a.1 := by
  induction X using snocInd with
  | h0 => exact List.Pairwise.nil
  | h1 X x ih =>
    rw [survivors_snoc]
    unfold addE
    rw [List.pairwise_append]
    refine ⟨ih.sublist List.filter_sublist, List.pairwise_singleton _ _, ?_⟩
    intro a ha b hb
    have : b = x := by simpa using hb
    subst this
    have := (List.mem_filter.1 ha).2
    simpa using this

theorem survivors_last (X : List Item') (q : Bytes) :
    ((survivors X).filter fun x => decide (x.1 <+: q)).getLast? = (X.filter fun x => decide (x.1 <+: q)).getLast? := by
  induction X using snocInd with
  | h0 => rfl
  | h1 X x ih =>
    rw [survivors_snoc]
    unfold addE
    rw [List.filter_append, List.filter_append]
    by_cases hx : x.1 <+: q
    · have : [x].filter (fun x : Item' => decide (x.1 <+: q)) = [x] := by simp [hx]
      rw [this, List.getLast?_append, List.getLast?_append]; rfl
    · have : [x].filter (fun x : Item' => decide (x.1 <+: q)) = [] := by simp [hx]
      rw [this, List.append_nil, List.append_nil, ← ih, List.filter_filter]
      congr 1
      apply List.filter_congr
      intro y _
      by_cases hy : y.1 <+: q
      · have : ¬ x.1 <+: y.1 := fun h => hx (h.trans hy)
        simp [hy, this]
      · simp [hy]

/-- The leaves of a trie of extensions. -/
def withNul (A : List Item') : List (Key × Nat) := A.map fun x => (x.1 ++ [0], x.2)

theorem withNul_filter (A : List Item') (e : Bytes) (he : 0 ∉ e) :
    (withNul A).filter (fun x => decide (¬ e <+: x.1)) = withNul (A.filter fun y => decide (¬ e <+: y.1)) := by
  unfold withNul
  rw [List.filter_map]
  congr 1
  apply List.filter_congr
  intro y _
  simp only [Function.comp]
  have : e <+: y.1 ++ [0] ↔ e <+: y.1 := by
    constructor
    · intro h
      obtain ⟨r, hr⟩ := h
      rcases List.eq_nil_or_concat r with h | ⟨x, z, h⟩
      · subst h
        rw [List.append_nil] at hr
        exact absurd (by rw [hr]; simp) he
      · rw [h, List.concat_eq_append, ← List.append_assoc] at hr
        exact ⟨x, (List.append_inj' hr rfl).1⟩
    · intro h; exact h.trans (List.prefix_append _ _)
  rw [decide_eq_decide]
  exact not_congr this

theorem withNul_str {A : List Item'} (h : ∀ x ∈ A, 0 ∉ x.1) : ∀ k ∈ (withNul A).map (·.1), IsStr k := by
  intro k hk
  unfold withNul at hk
  rw [List.map_map] at hk
  obtain ⟨x, hx, rfl⟩ := List.mem_map.1 hk
  exact ⟨x.1, h x hx, rfl⟩

theorem value_of_mem {V : Type} {l : List (Bytes × V)} (hn : (l.map (·.1)).Nodup) {k : Bytes} {v : V} (h : (k, v) ∈ l) : value l k = some v := by
  induction l with
  | nil => cases h
  | cons x l ih =>
    unfold value
    rw [List.map_cons, List.nodup_cons] at hn
    rcases List.mem_cons.1 h with h | h
    · subst h
      rw [List.find?_cons]
      simp
    · have hx : x.1 ≠ k := by rintro rfl; exact hn.1 (List.mem_map.2 ⟨(x.1, v), h, rfl⟩)
      rw [List.find?_cons]
      have : (x.1 == k) = false := by simpa using hx
      rw [this]
      exact ih hn.2 h

/-- Searching for a prefix finds the last extension that is one. -/
theorem find_last {K : Nat} {t : Trie Nat} (hw : WF K t) (A : List Item') (hl : t.leaves = withNul A) (h0 : ∀ x ∈ A, 0 ∉ x.1)
    (hp : A.Pairwise fun a b => ¬ b.1 <+: a.1) (q : Bytes) :
    ∃ r, findPrefix t.root q = .ok r ∧ leafValue t r = ((A.filter fun x => decide (x.1 <+: q)).getLast?).map (·.2) := by
  obtain ⟨r, h1, h2, h3⟩ := findPrefix_wf hw (by rw [hl]; exact withNul_str h0) q
  refine ⟨r, h1, ?_⟩
  have hmem : ∀ s, s ++ [0] ∈ t.leaves.map (·.1) ↔ ∃ x ∈ A, x.1 = s := by
    intro s
    rw [hl]
    unfold withNul
    rw [List.map_map]
    constructor
    · intro h
      obtain ⟨x, hx, he⟩ := List.mem_map.1 h
      exact ⟨x, hx, List.append_cancel_right he⟩
    · rintro ⟨x, hx, rfl⟩
      exact List.mem_map.2 ⟨x, hx, rfl⟩
  cases r with
  | none =>
    have : A.filter (fun x => decide (x.1 <+: q)) = [] := by
      rw [List.filter_eq_nil_iff]
      intro x hx
      simp only [decide_eq_true_eq]
      exact h3 rfl x.1 ((hmem x.1).2 ⟨x, hx, rfl⟩)
    rw [this]; rfl
  | some k =>
    obtain ⟨s, rfl, hk, hsq, hmax⟩ := h2 k rfl
    obtain ⟨x, hx, rfl⟩ := (hmem s).1 hk
    -- the last match
    have hne : (A.filter fun x => decide (x.1 <+: q)) ≠ [] := by
      intro h
      rw [List.filter_eq_nil_iff] at h
      exact h x hx (by simpa using hsq)
    obtain ⟨B, y, hB⟩ : ∃ B y, (A.filter fun x => decide (x.1 <+: q)) = B ++ [y] := by
      rcases List.eq_nil_or_concat (A.filter fun x => decide (x.1 <+: q)) with h | ⟨B, y, h⟩
      · exact absurd h hne
      · exact ⟨B, y, by rw [h, List.concat_eq_append]⟩
    have hy : y ∈ A.filter fun x => decide (x.1 <+: q) := by rw [hB]; simp
    obtain ⟨hyA, hyq⟩ := List.mem_filter.1 hy
    simp only [decide_eq_true_eq] at hyq
    have hlen := hmax y.1 ((hmem y.1).2 ⟨y, hyA, rfl⟩) hyq
    have hyx : y.1 <+: x.1 := List.prefix_of_prefix_length_le hyq hsq hlen
    have hpf : (B ++ [y]).Pairwise fun a b => ¬ b.1 <+: a.1 := by rw [← hB]; exact hp.sublist List.filter_sublist
    have hxB : x ∈ B ++ [y] := by rw [← hB]; exact List.mem_filter.2 ⟨hx, by simpa using hsq⟩
    have hxy : x = y := by
      rcases List.mem_append.1 hxB with h | h
      · rw [List.pairwise_append] at hpf
        exact absurd hyx (hpf.2.2 x h y (by simp))
      · simpa using h
    subst hxy
    rw [hB, List.getLast?_append]
    show value t.leaves (x.1 ++ [0]) = some x.2
    -- keys are distinct
    have hnd := hw.nodup
    rw [hl] at hnd ⊢
    exact value_of_mem hnd (List.mem_map.2 ⟨x, hx, rfl⟩)

end Verif.Color
