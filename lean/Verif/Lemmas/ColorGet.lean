import Verif.Lemmas.ColorCase
/-! Lemmas about `get_ext()`: the color of a file name. -/
namespace Verif.Color
open Verif.Trie
open Verif.Spec.Trie (IsStr)

theorem last_spec (A : List Item') (hs : (A.map (·.2)).Pairwise (· < ·)) (q : Bytes) (r : Option Nat)
    (h : r = ((A.filter fun x => decide (x.1 <+: q)).getLast?).map (·.2)) :
    (r = none → ∀ x ∈ A, ¬ x.1 <+: q) ∧ (∀ i, r = some i → ∃ x ∈ A, x.2 = i ∧ x.1 <+: q ∧ ∀ y ∈ A, y.1 <+: q → y.2 ≤ i) := by
  constructor
  · intro hr x hx hp
    rw [hr] at h
    have h1 := Option.map_eq_none_iff.1 h.symm
    rw [List.getLast?_eq_none_iff, List.filter_eq_nil_iff] at h1
    exact h1 x hx (by simpa using hp)
  · intro i hr
    rw [hr] at h
    obtain ⟨x, hx, hxi⟩ := Option.map_eq_some_iff.1 h.symm
    obtain ⟨B, hB⟩ := List.getLast?_eq_some_iff.1 hx
    have hx' : x ∈ A.filter fun x => decide (x.1 <+: q) := by rw [hB]; simp
    obtain ⟨h1, h2⟩ := List.mem_filter.1 hx'
    refine ⟨x, h1, hxi, by simpa using h2, ?_⟩
    intro y hy hyp
    have hy' : y ∈ B ++ [x] := by rw [← hB]; exact List.mem_filter.2 ⟨hy, by simpa using hyp⟩
    have hs' : ((B ++ [x]).map (·.2)).Pairwise (· < ·) := by rw [← hB]; exact hs.sublist (List.filter_sublist.map _)
    rw [List.map_append, List.pairwise_append] at hs'
    rcases List.mem_append.1 hy' with hm | hm
    · have := hs'.2.2 y.2 (List.mem_map.2 ⟨y, hm, rfl⟩) x.2 (by simp)
      omega
    · have : y = x := by simpa using hm
      subst this; omega

theorem items_sorted (U : Entries) : ((items U).map (·.2)).Pairwise (· < ·) := by
  induction U using snocInd with
  | h0 => exact List.Pairwise.nil
  | h1 U e ih =>
    rw [items_snoc, List.map_append, List.pairwise_append]
    refine ⟨ih, List.pairwise_singleton _ _, ?_⟩
    intro a ha b hb
    have : b = U.length := by simpa using hb
    subst this
    obtain ⟨x, hx, rfl⟩ := List.mem_map.1 ha
    obtain ⟨e', he, _⟩ := mem_items hx
    exact (List.getElem?_eq_some_iff.1 he).1

theorem lower_inj_rev {a b : Bytes} : lower a.reverse = lower b.reverse ↔ lower a = lower b := by
  rw [lower_reverse, lower_reverse, List.reverse_inj]

theorem sameExt_iff {U : Entries} {i : Nat} (hi : i ∈ order U) (a : Nat) : SameExt U i a ↔ a ∈ order U ∧ keyOf U a = keyOf U i := by
  unfold SameExt
  rw [← mem_order, ← mem_order]
  constructor
  · rintro ⟨_, h, e, f, he, hf, hl⟩
    exact ⟨h, by rw [keyOf_some he, keyOf_some hf, lower_inj_rev]; exact hl.symm⟩
  · rintro ⟨h, hk⟩
    obtain ⟨e, he, _⟩ := (mem_order U i).1 hi
    obtain ⟨f, hf, _⟩ := (mem_order U a).1 h
    rw [keyOf_some he, keyOf_some hf, lower_inj_rev] at hk
    exact ⟨hi, h, e, f, he, hf, hk.symm⟩

theorem cs_iff {U : Entries} {i : Nat} (hi : i ∈ order U) : CS U (order U) i ↔ CaseSensitive U i := by
  unfold CS CaseSensitive
  constructor
  · rintro ⟨a, b, ha, hb, ka, kb, hab, hc, hm⟩
    obtain ⟨e, he, _⟩ := (mem_order U a).1 ha
    obtain ⟨f, hf, _⟩ := (mem_order U b).1 hb
    rw [colOf_some he, colOf_some hf] at hc
    refine ⟨a, b, e, f, (sameExt_iff hi a).2 ⟨ha, ka⟩, (sameExt_iff hi b).2 ⟨hb, kb⟩, hab, he, hf, hc, ?_⟩
    intro c hsc hic
    obtain ⟨h1, h2⟩ := (sameExt_iff hi c).1 hsc
    exact hm c h1 h2 hic
  · rintro ⟨a, b, e, f, ha, hb, hab, he, hf, hc, hm⟩
    obtain ⟨ha, ka⟩ := (sameExt_iff hi a).1 ha
    obtain ⟨hb, kb⟩ := (sameExt_iff hi b).1 hb
    refine ⟨a, b, ha, hb, ka, kb, hab, by rw [colOf_some he, colOf_some hf]; exact hc, ?_⟩
    intro c h1 h2 hic
    exact hm c ((sameExt_iff hi c).2 ⟨h1, h2⟩) hic

/-- What `build` leaves. -/
structure Built (K : Nat) (U : Entries) (c : Colors) (cs : Nat → Bool) : Prop where
  wf : WF K c.extTrie
  leaves : c.extTrie.leaves = withNul (survivors (items U))
  nul : ∀ e ∈ U, 0 ∉ e.1
  len : ∀ e ∈ U, e.1.length ≤ c.extLen
  esc : ∀ (j : Nat), (c.exts[j]?).map (fun x : Ext => x.esc) = (U[j]?).map (fun e : Bytes × Bytes => e.2)
  iwf : WF K c.iextTrie
  ileaves : c.iextTrie.leaves = withNul (survivors (((order U).filter fun i => !cs i).map fun i => (keyOf U i, i)))
  cs : ∀ j, cs j = true ↔ j ∈ order U ∧ CaseSensitive U j

theorem build_ok (K : Nat) (entries : Entries) : ∃ c cs, build K entries = .ok c ∧ Built K (useful entries) c cs := by
  obtain ⟨c, h1, h2, _⟩ := setAll_ok (K := K) entries _ [] (setInv_empty K)
  rw [List.nil_append] at h2
  generalize hU : useful entries = U at h2 ⊢
  have horder : c.extTrie.leaves.map (·.2) = order U := by
    rw [h2.leaves]; unfold withNul order; rw [List.map_map]; rfl
  have hent : ∀ i ∈ order U, ∃ e, U[i]? = some e ∧ 0 ∉ e.1 := by
    intro i hi
    obtain ⟨e, he, _⟩ := (mem_order U i).1 hi
    exact ⟨e, he, h2.nul e (List.mem_of_getElem? he)⟩
  have h0 : CaseInv K U [] c.exts Trie.empty (fun _ => false) := by
    refine ⟨?_, wf_empty K, by simp [Trie.empty], ?_, ?_⟩
    · intro j; rw [h2.exts, List.getElem?_map]; simp
    · intro k; rfl
    · intro j; simp
  obtain ⟨exts', t', cs', g1, g2⟩ := caseLoop_ok (order U) [] _ _ _ h0 hent (by rw [List.nil_append]; exact order_sorted U)
  rw [List.nil_append] at g2
  obtain ⟨t2, k1, k2, k3⟩ := iextLoop_ok (K := K) (U := U) (exts := exts') (cs := cs') (order U) Trie.empty [] (wf_empty K) rfl (by simp) (by
    intro i hi
    obtain ⟨e, he, h0⟩ := hent i hi
    refine ⟨e, he, h0, ?_⟩
    rw [g2.exts i, he, Option.map_some, if_pos hi])
  refine ⟨{ c with exts := exts', iextTrie := t2 }, cs', ?_, ⟨h2.wf, h2.leaves, h2.nul, h2.len, ?_, k2, ?_, ?_⟩⟩
  · unfold build buildIextTrie
    rw [h1]
    show (caseLoop K c.exts Trie.empty (c.extTrie.leaves.map (·.2))).bind _ = _
    rw [horder, g1]
    show (iextLoop K exts' Trie.empty (order U)).bind _ = _
    rw [k1]; rfl
  · intro j
    dsimp only
    rw [g2.exts j, Option.map_map]; rfl
  · dsimp only; rw [k3, List.nil_append]
  · intro j
    rw [g2.cs j]
    constructor
    · rintro ⟨h, h'⟩; exact ⟨h, (cs_iff h).1 h'⟩
    · rintro ⟨h, h'⟩; exact ⟨h, (cs_iff h).2 h'⟩

theorem copy_eq (name : Bytes) (n : Nat) : extReverse (name.drop (name.length - (if name.length < n then name.length else n))) = name.reverse.take n := by
  rw [extReverse_eq]
  by_cases h : name.length < n
  · rw [if_pos h, Nat.sub_self, List.drop_zero, List.take_of_length_le (by rw [List.length_reverse]; omega)]
  · rw [if_neg h, List.take_reverse]

theorem getExtIndex_ok {K : Nat} {U : Entries} {c : Colors} {cs : Nat → Bool} (h : Built K U c cs) (name : Bytes) :
    ∃ r, getExtIndex c name = .ok r ∧ (r = none → ∀ i, ¬ Applies U name i) ∧ (∀ i, r = some i → Applies U name i ∧ ∀ j, Applies U name j → j ≤ i) := by
  obtain ⟨l1, f1, v1⟩ := find_last h.wf _ h.leaves (survivors_nul h.nul) (survivors_pairwise _) (name.reverse.take c.extLen)
  have hnul : ∀ x ∈ survivors (((order U).filter fun i => !cs i).map fun i => (keyOf U i, i)), 0 ∉ x.1 := by
    intro x hx
    obtain ⟨i, hi, rfl⟩ := List.mem_map.1 ((survivors_sublist _).subset hx)
    obtain ⟨e, he, _⟩ := (mem_order U i).1 (List.mem_filter.1 hi).1
    dsimp only
    rw [keyOf_some he]
    exact lower_nul (by rw [List.mem_reverse]; exact h.nul e (List.mem_of_getElem? he))
  obtain ⟨l2, f2, v2⟩ := find_last h.iwf _ h.ileaves hnul (survivors_pairwise _) (lower (name.reverse.take c.extLen))
  rw [survivors_last] at v1 v2
  have hcs : ∀ i, i ∈ order U → (cs i = false ↔ ¬ CaseSensitive U i) := by
    intro i hi
    have := h.cs i
    cases hc : cs i with
    | false =>
      rw [hc] at this
      simp only [true_iff]
      intro hx; have := this.2 ⟨hi, hx⟩; cases this
    | true =>
      rw [hc] at this
      constructor
      · intro hx; cases hx
      · intro hx; exact absurd (this.1 rfl).2 hx
  obtain ⟨a1, a2⟩ := last_spec _ (items_sorted U) _ _ v1
  obtain ⟨b1, b2⟩ := last_spec _ (by
    rw [List.map_map]
    show (((order U).filter fun i => !cs i).map id).Pairwise _
    rw [List.map_id]
    exact (order_sorted U).sublist List.filter_sublist) _ _ v2
  -- hits of the first trie
  have hex : ∀ (i : Nat) (e : Bytes × Bytes), U[i]? = some e → e.1 <:+ name → (e.1.reverse, i) ∈ items U ∧ e.1.reverse <+: name.reverse.take c.extLen := by
    intro i e he hs
    refine ⟨List.mem_of_getElem? (i := i) (by rw [items_get, he]; rfl), List.prefix_take_iff.2 ⟨List.reverse_prefix.2 hs, ?_⟩⟩
    rw [List.length_reverse]; exact h.len e (List.mem_of_getElem? he)
  have hlow : lower (name.reverse.take c.extLen) = (lower name).reverse.take c.extLen := by
    unfold lower; rw [List.map_take, List.map_reverse]
  have hie : ∀ (i : Nat) (e : Bytes × Bytes), U[i]? = some e → InForce U i → ¬ CaseSensitive U i → lower e.1 <:+ lower name →
      (keyOf U i, i) ∈ ((order U).filter fun i => !cs i).map (fun i => (keyOf U i, i)) ∧ keyOf U i <+: lower (name.reverse.take c.extLen) := by
    intro i e he hf hc hs
    have ho := (mem_order U i).2 hf
    refine ⟨List.mem_map.2 ⟨i, List.mem_filter.2 ⟨ho, by simp [(hcs i ho).2 hc]⟩, rfl⟩, ?_⟩
    rw [hlow, keyOf_some he, lower_reverse]
    refine List.prefix_take_iff.2 ⟨List.reverse_prefix.2 hs, ?_⟩
    rw [List.length_reverse, lower_length]; exact h.len e (List.mem_of_getElem? he)
  -- and back
  have hex' : ∀ x ∈ items U, x.1 <+: name.reverse.take c.extLen → ∃ e, U[x.2]? = some e ∧ e.1 <:+ name := by
    intro x hx hp
    obtain ⟨e, he, h1⟩ := mem_items hx
    refine ⟨e, he, ?_⟩
    rw [h1] at hp
    exact List.reverse_prefix.1 (List.prefix_take_iff.1 hp).1
  have hie' : ∀ x ∈ ((order U).filter fun i => !cs i).map (fun i => (keyOf U i, i)), x.1 <+: lower (name.reverse.take c.extLen) → Applies U name x.2 := by
    intro x hx hp
    obtain ⟨i, hi, rfl⟩ := List.mem_map.1 hx
    obtain ⟨ho, hc⟩ := List.mem_filter.1 hi
    obtain ⟨e, he, hf⟩ := (mem_order U i).1 ho
    refine ⟨⟨e, he, hf⟩, e, he, Or.inr ⟨(hcs i ho).1 (by simpa using hc), ?_⟩⟩
    dsimp only at hp
    rw [hlow, keyOf_some he, lower_reverse] at hp
    exact List.reverse_prefix.1 (List.prefix_take_iff.1 hp).1
  have hexA : ∀ i, leafValue c.extTrie l1 = some i → Applies U name i := by
    intro i hi
    obtain ⟨x, hx, rfl, hp, hm⟩ := a2 i hi
    obtain ⟨e, he, hs⟩ := hex' x hx hp
    refine ⟨⟨e, he, ?_⟩, e, he, Or.inl hs⟩
    intro j f hj hf hfs
    obtain ⟨p1, p2⟩ := hex j f hf (hfs.trans hs)
    have := hm _ p1 p2
    dsimp only at this
    omega
  have hieA : ∀ i, leafValue c.iextTrie l2 = some i → Applies U name i := by
    intro i hi
    obtain ⟨x, hx, rfl, hp, _⟩ := b2 i hi
    exact hie' x hx hp
  have hmax : ∀ j, Applies U name j → (∃ i, leafValue c.extTrie l1 = some i ∧ j ≤ i) ∨ ∃ i, leafValue c.iextTrie l2 = some i ∧ j ≤ i := by
    rintro j ⟨hf, e, he, hs | ⟨hc, hs⟩⟩
    · left
      obtain ⟨p1, p2⟩ := hex j e he hs
      cases hv : leafValue c.extTrie l1 with
      | none => exact absurd p2 (a1 hv _ p1)
      | some i =>
        obtain ⟨x, _, _, _, hm⟩ := a2 i hv
        exact ⟨i, rfl, hm _ p1 p2⟩
    · right
      obtain ⟨p1, p2⟩ := hie j e he hf hc hs
      cases hv : leafValue c.iextTrie l2 with
      | none => exact absurd p2 (b1 hv _ p1)
      | some i =>
        obtain ⟨x, _, _, _, hm⟩ := b2 i hv
        exact ⟨i, rfl, hm _ p1 p2⟩
  have hcopy := copy_eq name c.extLen
  unfold getExtIndex
  dsimp only
  rw [hcopy, f1]
  show ∃ r, (findPrefix c.iextTrie.root (extTolower (name.reverse.take c.extLen))).bind _ = .ok r ∧ _
  rw [extTolower_eq, f2]
  refine ⟨_, rfl, ?_, ?_⟩
  · intro hr j hj
    rcases hmax j hj with ⟨i, hi, _⟩ | ⟨i, hi, _⟩
    · rw [hi] at hr
      cases h2 : leafValue c.iextTrie l2 with
      | none => rw [h2] at hr; cases hr
      | some i' => rw [h2] at hr; dsimp only at hr; split at hr <;> cases hr
    · rw [hi] at hr
      cases h2 : leafValue c.extTrie l1 with
      | none => rw [h2] at hr; cases hr
      | some i' => rw [h2] at hr; dsimp only at hr; split at hr <;> cases hr
  · intro i hr
    cases h1 : leafValue c.extTrie l1 with
    | none =>
      cases h2 : leafValue c.iextTrie l2 with
      | none => rw [h1, h2] at hr; cases hr
      | some i' =>
        rw [h1, h2] at hr
        injection hr with hr
        subst hr
        refine ⟨hieA _ h2, ?_⟩
        intro j hj
        rcases hmax j hj with ⟨x, hx, hl⟩ | ⟨x, hx, hl⟩
        · rw [h1] at hx; cases hx
        · rw [h2] at hx; injection hx with hx; omega
    | some e =>
      cases h2 : leafValue c.iextTrie l2 with
      | none =>
        rw [h1, h2] at hr
        injection hr with hr
        subst hr
        refine ⟨hexA _ h1, ?_⟩
        intro j hj
        rcases hmax j hj with ⟨x, hx, hl⟩ | ⟨x, hx, hl⟩
        · rw [h1] at hx; injection hx with hx; omega
        · rw [h2] at hx; cases hx
      | some i' =>
        rw [h1, h2] at hr
        dsimp only at hr
        by_cases hlt : e < i'
        · rw [if_pos hlt] at hr
          injection hr with hr
          subst hr
          refine ⟨hieA _ h2, ?_⟩
          intro j hj
          rcases hmax j hj with ⟨x, hx, hl⟩ | ⟨x, hx, hl⟩
          · rw [h1] at hx; injection hx with hx; omega
          · rw [h2] at hx; injection hx with hx; omega
        · rw [if_neg hlt] at hr
          injection hr with hr
          subst hr
          refine ⟨hexA _ h1, ?_⟩
          intro j hj
          rcases hmax j hj with ⟨x, hx, hl⟩ | ⟨x, hx, hl⟩
          · rw [h1] at hx; injection hx with hx; omega
          · rw [h2] at hx; injection hx with hx; omega

theorem getExt_ok {K : Nat} {U : Entries} {c : Colors} {cs : Nat → Bool} (h : Built K U c cs) (name : Bytes) :
    ∃ r, getExt c name = .ok r ∧ (r = none → ∀ i, ¬ Applies U name i) ∧
      (∀ esc, r = some esc → ∃ i e, U[i]? = some e ∧ e.2 = esc ∧ Applies U name i ∧ ∀ j, Applies U name j → j ≤ i) := by
  obtain ⟨r, h1, h2, h3⟩ := getExtIndex_ok h name
  unfold getExt
  rw [h1]
  cases r with
  | none => exact ⟨none, rfl, fun _ => h2 rfl, by intro esc hh; cases hh⟩
  | some i =>
    obtain ⟨g1, g2⟩ := h3 i rfl
    obtain ⟨e, he, _⟩ := g1.1
    have := h.esc i
    rw [he] at this
    cases hx : c.exts[i]? with
    | none => rw [hx] at this; cases this
    | some x =>
      rw [hx] at this
      refine ⟨some x.esc, ?_, by (intro hh; cases hh), ?_⟩
      · show (match c.exts[i]? with | some e => Out.ok (some e.esc) | none => .ub) = _
        rw [hx]
      · intro esc hh
        injection hh with hh
        injection this with this
        exact ⟨i, e, he, by rw [← hh]; exact this.symm, g1, g2⟩

end Verif.Color
