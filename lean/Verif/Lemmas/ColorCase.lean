import Verif.Lemmas.ColorExt
/-! Lemmas about the extensions in `$LS_COLORS`: which of them are in force, and which are case-sensitive. -/
namespace Verif.Color
open Verif.Trie
open Verif.Spec.Trie (IsStr)

abbrev Entries := List (Bytes × Bytes)

/-! ## The entries in force -/

def items (U : Entries) : List Item' := U.mapIdx fun i e => (e.1.reverse, i)

theorem items_snoc (U : Entries) (e : Bytes × Bytes) : items (U ++ [e]) = items U ++ [(e.1.reverse, U.length)] := by
  unfold items; rw [List.mapIdx_concat]

theorem items_get (U : Entries) (j : Nat) : (items U)[j]? = (U[j]?).map fun e => (e.1.reverse, j) := by
  unfold items; rw [List.getElem?_mapIdx]

theorem mem_items {U : Entries} {x : Item'} (h : x ∈ items U) : ∃ e, U[x.2]? = some e ∧ x.1 = e.1.reverse := by
  obtain ⟨j, hj⟩ := List.mem_iff_getElem?.1 h
  rw [items_get] at hj
  cases he : U[j]? with
  | none => rw [he] at hj; cases hj
  | some e =>
    rw [he] at hj
    injection hj with hj
    subst hj
    exact ⟨e, he, rfl⟩

theorem mem_survivors (X : List Item') (y : Item') : y ∈ survivors X ↔ ∃ A B, X = A ++ y :: B ∧ ∀ z ∈ B, ¬ z.1 <+: y.1 := by
  induction X using snocInd with
  | h0 => simp [survivors]
  | h1 X x ih =>
    rw [survivors_snoc]
    unfold addE
    rw [List.mem_append, List.mem_filter, ih]
    simp only [decide_eq_true_eq, List.mem_singleton]
    constructor
    · rintro (⟨⟨A, B, h1, h2⟩, h3⟩ | h)
      · refine ⟨A, B ++ [x], by rw [h1]; simp, ?_⟩
        intro z hz
        rcases List.mem_append.1 hz with hz | hz
        · exact h2 z hz
        · have : z = x := by simpa using hz
          subst this; exact h3
      · subst h; exact ⟨X, [], rfl, by simp⟩
    · rintro ⟨A, B, h1, h2⟩
      rcases List.eq_nil_or_concat B with h | ⟨B', b, h⟩
      · subst h
        right
        exact (List.singleton_inj.1 (List.append_inj' h1 rfl).2).symm
      · left
        rw [h, List.concat_eq_append] at h1 h2
        have h1' : X ++ [x] = (A ++ y :: B') ++ [b] := by rw [h1]; simp
        obtain ⟨g1, g2⟩ := List.append_inj' h1' rfl
        have g2' := List.singleton_inj.1 g2
        subst g2'
        exact ⟨⟨A, B', g1, fun z hz => h2 z (by simp [hz])⟩, h2 x (by simp)⟩

/-- The order in which the first trie is walked. -/
def order (U : Entries) : List Nat := (survivors (items U)).map (·.2)

theorem order_sorted (U : Entries) : (order U).Pairwise (· < ·) := by
  have h1 : ((items U).map (·.2)).Pairwise (· < ·) := by
    induction U using snocInd with
    | h0 => exact List.Pairwise.nil
    | h1 U e ih =>
      rw [items_snoc, List.map_append, List.pairwise_append]
      refine ⟨ih, List.pairwise_singleton _ _, ?_⟩
      intro a ha b hb
      have : b = U.length := by simpa using hb
      subst this
      obtain ⟨x, hx, rfl⟩ := List.mem_map.1 ha
      obtain ⟨e', he, _⟩ := mem_items hx
      exact (List.getElem?_eq_some_iff.1 he).1
  exact h1.sublist ((survivors_sublist (items U)).map _)

theorem mem_order (U : Entries) (i : Nat) : i ∈ order U ↔ InForce U i := by
  unfold order InForce
  constructor
  · intro h
    obtain ⟨y, hy, rfl⟩ := List.mem_map.1 h
    obtain ⟨e, he, h1⟩ := mem_items ((survivors_sublist _).subset hy)
    obtain ⟨A, B, h2, h3⟩ := (mem_survivors _ _).1 hy
    refine ⟨e, he, ?_⟩
    intro j f hj hf hs
    have hA : A.length = y.2 := by
      have hg : (items U)[A.length]? = some y := by rw [h2]; simp
      rw [items_get] at hg
      cases hu : U[A.length]? with
      | none => rw [hu] at hg; cases hg
      | some u => rw [hu] at hg; injection hg with hg; rw [← hg]
    have hz : (f.1.reverse, j) ∈ B := by
      have hg : (items U)[j]? = some (f.1.reverse, j) := by rw [items_get, hf]; rfl
      rw [h2, List.getElem?_append_right (by omega)] at hg
      obtain ⟨m, hm⟩ : ∃ m, j - A.length = m + 1 := ⟨j - A.length - 1, by omega⟩
      rw [hm, List.getElem?_cons_succ] at hg
      exact List.mem_of_getElem? hg
    refine h3 _ hz ?_
    rw [h1]
    exact List.reverse_prefix.2 hs
  · rintro ⟨e, he, h⟩
    refine List.mem_map.2 ⟨(e.1.reverse, i), ?_, rfl⟩
    rw [mem_survivors]
    have hg : (items U)[i]? = some (e.1.reverse, i) := by rw [items_get, he]; rfl
    obtain ⟨hlt, hge⟩ := List.getElem?_eq_some_iff.1 hg
    refine ⟨(items U).take i, (items U).drop (i + 1), ?_, ?_⟩
    · rw [← hge, List.getElem_cons_drop, List.take_append_drop]
    · intro z hz hp
      obtain ⟨m, hm⟩ := List.mem_iff_getElem?.1 hz
      rw [List.getElem?_drop, items_get] at hm
      cases hu : U[i + 1 + m]? with
      | none => rw [hu] at hm; cases hm
      | some f =>
        rw [hu] at hm
        injection hm with hm
        subst hm
        exact h (i + 1 + m) f (by omega) hu (List.reverse_prefix.1 hp)

/-! ## `set_ext()` -/

structure SetInv (K : Nat) (c : Colors) (U : Entries) : Prop where
  wf : WF K c.extTrie
  leaves : c.extTrie.leaves = withNul (survivors (items U))
  exts : c.exts = U.map fun e => { esc := e.2, caseSensitive := false, ext := e.1.reverse }
  nul : ∀ e ∈ U, 0 ∉ e.1
  len : ∀ e ∈ U, e.1.length ≤ c.extLen

theorem survivors_nul {U : Entries} (h : ∀ e ∈ U, 0 ∉ e.1) : ∀ x ∈ survivors (items U), 0 ∉ x.1 := by
  intro x hx
  obtain ⟨e, he, h1⟩ := mem_items ((survivors_sublist _).subset hx)
  rw [h1, List.mem_reverse]
  exact h e (List.mem_of_getElem? he)

theorem setExt_ok {K : Nat} {c : Colors} {U : Entries} (h : SetInv K c U) (k v : Bytes) :
    ∃ c', setExt K c k v = .ok c' ∧ SetInv K c' (U ++ useful [(k, v)]) ∧ c'.iextTrie = c.iextTrie := by
  unfold setExt useful
  by_cases hk : 0 ∈ k
  · rw [if_pos hk]
    refine ⟨c, rfl, ?_, rfl⟩
    have : [(k, v)].filter (fun e : Bytes × Bytes => decide (0 ∉ e.1)) = [] := by simp [hk]
    rw [this, List.append_nil]; exact h
  · rw [if_neg hk]
    have : [(k, v)].filter (fun e : Bytes × Bytes => decide (0 ∉ e.1)) = [(k, v)] := by simp [hk]
    rw [this, extReverse_eq]
    have hk' : 0 ∉ k.reverse := by rw [List.mem_reverse]; exact hk
    obtain ⟨t', h1, h2, h3⟩ := insertExt_ok h.wf (by rw [h.leaves]; exact withNul_str (survivors_nul h.nul)) hk' c.exts.length
    rw [h1]
    refine ⟨_, rfl, ⟨h2, ?_, ?_, ?_, ?_⟩, rfl⟩
    · dsimp only
      rw [h3, h.leaves, withNul_filter _ _ hk', items_snoc, survivors_snoc]
      unfold addE withNul
      rw [List.map_append]
      have : c.exts.length = U.length := by rw [h.exts]; simp
      rw [this]; rfl
    · dsimp only; rw [h.exts, List.map_append]; rfl
    · intro e he
      rcases List.mem_append.1 he with he | he
      · exact h.nul e he
      · have : e = (k, v) := by simpa using he
        subst this; exact hk
    · intro e he
      dsimp only
      rcases List.mem_append.1 he with he | he
      · have := h.len e he
        split <;> omega
      · have : e = (k, v) := by simpa using he
        subst this
        dsimp only
        split <;> omega

theorem setAll_ok {K : Nat} : ∀ (entries : Entries) (c : Colors) (U : Entries), SetInv K c U →
    ∃ c', setAll K c entries = .ok c' ∧ SetInv K c' (U ++ useful entries) ∧ c'.iextTrie = c.iextTrie := by
  intro entries
  induction entries with
  | nil => intro c U h; exact ⟨c, rfl, by unfold useful; simpa using h, rfl⟩
  | cons x rest ih =>
    intro c U h
    obtain ⟨k, v⟩ := x
    obtain ⟨c1, h1, h2, h3⟩ := setExt_ok h k v
    obtain ⟨c2, g1, g2, g3⟩ := ih c1 _ h2
    refine ⟨c2, ?_, ?_, by rw [g3, h3]⟩
    · rw [setAll, h1]; exact g1
    · have : U ++ useful ((k, v) :: rest) = U ++ useful [(k, v)] ++ useful rest := by
        unfold useful
        rw [List.append_assoc, ← List.filter_append]; rfl
      rw [this]; exact g2

theorem setInv_empty (K : Nat) : SetInv K ⟨[], 0, Trie.empty, Trie.empty⟩ [] :=
  ⟨wf_empty K, rfl, rfl, by simp, by simp⟩

/-! ## Case -/

def keyOf (U : Entries) (j : Nat) : Bytes := lower ((U[j]?).map fun e => e.1.reverse).get!
def colOf (U : Entries) (j : Nat) : Bytes := ((U[j]?).map (·.2)).get!

theorem keyOf_some {U : Entries} {j : Nat} {e : Bytes × Bytes} (h : U[j]? = some e) : keyOf U j = lower e.1.reverse := by
  unfold keyOf; rw [h]; rfl
theorem colOf_some {U : Entries} {j : Nat} {e : Bytes × Bytes} (h : U[j]? = some e) : colOf U j = e.2 := by
  unfold colOf; rw [h]; rfl

def lastWith (U : Entries) (P : List Nat) (k : Bytes) : Option Nat := (P.filter fun j => decide (keyOf U j = k)).getLast?

theorem lastWith_none {U : Entries} {P : List Nat} {k : Bytes} (h : lastWith U P k = none) : ∀ j ∈ P, keyOf U j ≠ k := by
  intro j hj hk
  unfold lastWith at h
  rw [List.getLast?_eq_none_iff, List.filter_eq_nil_iff] at h
  exact h j hj (by simpa using hk)

theorem lastWith_some {U : Entries} {P : List Nat} (hs : P.Pairwise (· < ·)) {k : Bytes} {p : Nat} (h : lastWith U P k = some p) :
    p ∈ P ∧ keyOf U p = k ∧ ∀ j ∈ P, keyOf U j = k → j ≤ p := by
  unfold lastWith at h
  obtain ⟨B, hB⟩ := List.getLast?_eq_some_iff.1 h
  have hp : p ∈ P.filter fun j => decide (keyOf U j = k) := by rw [hB]; simp
  obtain ⟨h1, h2⟩ := List.mem_filter.1 hp
  refine ⟨h1, by simpa using h2, ?_⟩
  intro j hj hk
  have hj' : j ∈ B ++ [p] := by rw [← hB]; exact List.mem_filter.2 ⟨hj, by simpa using hk⟩
  have hs' : (B ++ [p]).Pairwise (· < ·) := by rw [← hB]; exact hs.sublist List.filter_sublist
  rcases List.mem_append.1 hj' with hm | hm
  · rw [List.pairwise_append] at hs'
    exact Nat.le_of_lt (hs'.2.2 j hm p (by simp))
  · have : j = p := by simpa using hm
    omega

theorem lastWith_snoc (U : Entries) (P : List Nat) (i : Nat) (k : Bytes) : lastWith U (P ++ [i]) k = if keyOf U i = k then some i else lastWith U P k := by
  unfold lastWith
  rw [List.filter_append]
  by_cases h : keyOf U i = k
  · rw [if_pos h]
    have : [i].filter (fun j => decide (keyOf U j = k)) = [i] := by simp [h]
    rw [this, List.getLast?_append]; rfl
  · rw [if_neg h]
    have : [i].filter (fun j => decide (keyOf U j = k)) = [] := by simp [h]
    rw [this, List.append_nil]

/-- Case-sensitive among those seen so far. -/
def CS (U : Entries) (P : List Nat) (j : Nat) : Prop :=
  ∃ a b, a ∈ P ∧ b ∈ P ∧ keyOf U a = keyOf U j ∧ keyOf U b = keyOf U j ∧ a < b ∧ colOf U a ≠ colOf U b ∧ ∀ c ∈ P, keyOf U c = keyOf U j → j < c → b ≤ c

theorem cs_snoc (U : Entries) (P : List Nat) (i : Nat) (hs : (P ++ [i]).Pairwise (· < ·)) (j : Nat) (hj : j ∈ P ++ [i]) :
    CS U (P ++ [i]) j ↔ (j ∈ P ∧ CS U P j) ∨
      ((j = i ∨ lastWith U P (keyOf U i) = some j) ∧ ∃ p, lastWith U P (keyOf U i) = some p ∧ (CS U P p ∨ colOf U p ≠ colOf U i)) := by
  have hsP : P.Pairwise (· < ·) := hs.sublist (List.sublist_append_left _ _)
  have hlt : ∀ x ∈ P, x < i := by
    intro x hx
    rw [List.pairwise_append] at hs
    exact hs.2.2 x hx i (by simp)
  have hmem : ∀ x, x ∈ P ++ [i] → x ∈ P ∨ x = i := by
    intro x hx
    rcases List.mem_append.1 hx with h | h
    · exact Or.inl h
    · exact Or.inr (by simpa using h)
  have hinP : ∀ x, x ∈ P → x ∈ P ++ [i] := fun x hx => List.mem_append_left _ hx
  constructor
  · rintro ⟨a, b, ha, hb, ka, kb, hab, hc, hmin⟩
    rcases hmem b hb with hbP | rfl
    · have haP : a ∈ P := by
        rcases hmem a ha with h | rfl
        · exact h
        · have := hlt b hbP; omega
      rcases hmem j hj with hjP | rfl
      · exact Or.inl ⟨hjP, a, b, haP, hbP, ka, kb, hab, hc, fun c hc' => hmin c (hinP c hc')⟩
      · right
        refine ⟨Or.inl rfl, ?_⟩
        cases hl : lastWith U P (keyOf U j) with
        | none => exact absurd ka (lastWith_none hl a haP)
        | some p =>
          obtain ⟨p1, p2, p3⟩ := lastWith_some hsP hl
          refine ⟨p, rfl, Or.inl ⟨a, b, haP, hbP, by rw [ka, p2], by rw [kb, p2], hab, hc, ?_⟩⟩
          intro c hc' kc hpc
          have := p3 c hc' (by rw [kc, p2])
          omega
    · have haP : a ∈ P := by
        rcases hmem a ha with h | rfl
        · exact h
        · omega
      cases hl : lastWith U P (keyOf U b) with
      | none => exact absurd (by rw [ka, kb]) (lastWith_none hl a haP)
      | some p =>
        obtain ⟨p1, p2, p3⟩ := lastWith_some hsP hl
        have htest : CS U P p ∨ colOf U p ≠ colOf U b := by
          by_cases hcp : colOf U p = colOf U b
          · left
            have hap : a ≤ p := p3 a haP (by rw [ka, kb])
            have hne : a ≠ p := by rintro rfl; exact hc hcp
            refine ⟨a, p, haP, p1, by rw [ka, p2, kb], rfl, by omega, by rw [hcp]; exact hc, ?_⟩
            intro c _ _ h; omega
          · exact Or.inr hcp
        right
        refine ⟨?_, p, rfl, htest⟩
        rcases hmem j hj with hjP | rfl
        · right
          have h1 : j ≤ p := p3 j hjP kb.symm
          have h2 : ¬ j < p := by
            intro h
            have := hmin p (hinP p p1) (by rw [p2, kb]) h
            have := hlt p p1
            omega
          congr 1; omega
        · exact Or.inl rfl
  · rintro (⟨hjP, a, b, ha, hb, ka, kb, hab, hc, hmin⟩ | ⟨hj', p, hl, htest⟩)
    · refine ⟨a, b, hinP a ha, hinP b hb, ka, kb, hab, hc, ?_⟩
      intro c hc' kc hjc
      rcases hmem c hc' with h | rfl
      · exact hmin c h kc hjc
      · exact Nat.le_of_lt (hlt b hb)
    · obtain ⟨p1, p2, p3⟩ := lastWith_some hsP hl
      have hpi := hlt p p1
      have kj : keyOf U j = keyOf U i := by
        rcases hj' with rfl | h
        · rfl
        · exact (lastWith_some hsP h).2.1
      have hjp : p ≤ j := by
        rcases hj' with rfl | h
        · omega
        · rw [hl] at h; injection h with h; omega
      rcases htest with ⟨a, b, ha, hb, ka, kb, hab, hc, _⟩ | hc
      · have hbp := p3 b hb (by rw [kb, p2])
        refine ⟨a, b, hinP a ha, hinP b hb, by rw [ka, p2, kj], by rw [kb, p2, kj], hab, hc, ?_⟩
        intro c _ _ hjc; omega
      · refine ⟨p, i, hinP p p1, by simp, by rw [p2, kj], kj.symm, hpi, hc, ?_⟩
        intro c hc' kc hjc
        rcases hmem c hc' with h | rfl
        · have := p3 c h (by rw [kc, kj]); omega
        · exact Nat.le_refl _

/-- What the first loop has done so far. -/
structure CaseInv (K : Nat) (U : Entries) (P : List Nat) (exts : List Ext) (t : Trie (Option Nat)) (cs : Nat → Bool) : Prop where
  exts : ∀ j, exts[j]? = (U[j]?).map fun e => ({ esc := e.2, caseSensitive := cs j, ext := if j ∈ P then lower e.1.reverse else e.1.reverse } : Ext)
  wf : WF K t
  str : ∀ k ∈ t.leaves.map (·.1), IsStr k
  value : ∀ k, (Trie.value t.leaves (k ++ [0])).join = lastWith U P k
  cs : ∀ j, cs j = true ↔ j ∈ P ∧ CS U P j

theorem strings_free {k k' : Bytes} (h : IsStr k) (h' : IsStr k') : (k <+: k' → k = k') ∧ (k' <+: k → k = k') := by
  obtain ⟨s, h0, rfl⟩ := h
  obtain ⟨s', h0', rfl⟩ := h'
  constructor
  · intro hp; rw [str_prefix h0' hp]
  · intro hp; rw [str_prefix h0 hp]

theorem modify_get (exts : List Ext) (i : Nat) (f : Ext → Ext) (j : Nat) : (exts.modify i f)[j]? = (exts[j]?).map fun e => if i = j then f e else e := by
  rw [List.getElem?_modify]; rfl

theorem caseStep_ok {K : Nat} {U : Entries} {P : List Nat} {exts : List Ext} {t : Trie (Option Nat)} {cs : Nat → Bool} (h : CaseInv K U P exts t cs)
    (i : Nat) (e : Bytes × Bytes) (he : U[i]? = some e) (h0 : 0 ∉ e.1) (hs : (P ++ [i]).Pairwise (· < ·)) :
    ∃ exts' t' cs', caseStep K exts t i = .ok (exts', t') ∧ CaseInv K U (P ++ [i]) exts' t' cs' := by
  have hki := keyOf_some he
  have hlt : ∀ x ∈ P, x < i := by
    intro x hx
    rw [List.pairwise_append] at hs
    exact hs.2.2 x hx i (by simp)
  have hiP : i ∉ P := fun hi => by have := hlt i hi; omega
  have hsP : P.Pairwise (· < ·) := hs.sublist (List.sublist_append_left _ _)
  -- lowered
  have hx1 : ∀ j, (exts.modify i fun x => { x with ext := extTolower x.ext })[j]? =
      (U[j]?).map fun e => ({ esc := e.2, caseSensitive := cs j, ext := if j ∈ P ++ [i] then lower e.1.reverse else e.1.reverse } : Ext) := by
    intro j
    rw [modify_get, h.exts j, Option.map_map]
    congr 1
    funext e'
    simp only [Function.comp]
    by_cases hij : i = j
    · subst hij
      rw [if_pos rfl, if_neg hiP, if_pos (by simp), extTolower_eq]
    · rw [if_neg hij]
      have : j ∈ P ++ [i] ↔ j ∈ P := by
        simp only [List.mem_append, List.mem_singleton]
        constructor
        · rintro (h | h)
          · exact h
          · exact absurd h.symm hij
        · exact Or.inl
      by_cases hj : j ∈ P
      · rw [if_pos hj, if_pos (this.2 hj)]
      · rw [if_neg hj, if_neg (fun h => hj (this.1 h))]
  have hi1 := hx1 i
  rw [he] at hi1
  have hi1' : (exts.modify i fun x => { x with ext := extTolower x.ext })[i]? = some { esc := e.2, caseSensitive := cs i, ext := lower e.1.reverse } := by
    rw [hi1]; simp
  have hk0 : 0 ∉ lower e.1.reverse := lower_nul (by rw [List.mem_reverse]; exact h0)
  have hkstr : IsStr (lower e.1.reverse ++ [0]) := ⟨_, hk0, rfl⟩
  obtain ⟨t1, g1, g2, g3⟩ := insertMem_ok (v0 := none) h.wf (key := lower e.1.reverse ++ [0]) (by simp) (fun k hk => strings_free (h.str k hk) hkstr)
  have hcsi : cs i = false := by
    cases hc : cs i with
    | false => rfl
    | true => exact absurd ((h.cs i).1 hc).1 hiP
  -- the previous one
  have hval : ∀ k, (Trie.value t1.leaves (k ++ [0])).join = lastWith U P k := by
    intro k
    rw [← h.value k, g3]
    by_cases hm : lower e.1.reverse ++ [0] ∈ t.leaves.map (·.1)
    · rw [if_pos hm]
    · rw [if_neg hm, value_append _ _ _ _ hm]
      by_cases hk : k ++ [0] = lower e.1.reverse ++ [0]
      · rw [if_pos hk, hk]
        have : Trie.value t.leaves (lower e.1.reverse ++ [0]) = none := by
          cases hv : Trie.value t.leaves (lower e.1.reverse ++ [0]) with
          | none => rfl
          | some v => exact absurd ((value_isSome _ _).1 (by rw [hv]; rfl)) hm
        rw [this]; rfl
      · rw [if_neg hk]
  have hprev : (Trie.value t1.leaves (lower e.1.reverse ++ [0])).join = lastWith U P (keyOf U i) := by rw [hval, hki]
  have hkeys : t1.leaves.map (·.1) = if lower e.1.reverse ++ [0] ∈ t.leaves.map (·.1) then t.leaves.map (·.1) else t.leaves.map (·.1) ++ [lower e.1.reverse ++ [0]] := by
    rw [g3]
    by_cases hm : lower e.1.reverse ++ [0] ∈ t.leaves.map (·.1)
    · rw [if_pos hm, if_pos hm]
    · rw [if_neg hm, if_neg hm]; simp
  have hin : lower e.1.reverse ++ [0] ∈ t1.leaves.map (·.1) := by
    rw [hkeys]
    by_cases hm : lower e.1.reverse ++ [0] ∈ t.leaves.map (·.1)
    · rw [if_pos hm]; exact hm
    · rw [if_neg hm]; simp
  -- the new state of the trie
  have hT : WF K (⟨t1.root, setValue (lower e.1.reverse ++ [0]) (some i) t1.leaves⟩ : Trie (Option Nat)) := by
    refine ⟨by rw [setValue_keys]; exact g2.nodup, ?_⟩
    have := g2.root
    cases hr : t1.root with
    | none => rw [hr] at this; dsimp only at this ⊢; rw [this]; rfl
    | some p => rw [hr] at this; dsimp only at this ⊢; rw [setValue_keys]; exact this
  have hT2 : ∀ k ∈ (setValue (lower e.1.reverse ++ [0]) (some i) t1.leaves).map (·.1), IsStr k := by
    rw [setValue_keys, hkeys]
    intro k hk
    by_cases hm : lower e.1.reverse ++ [0] ∈ t.leaves.map (·.1)
    · rw [if_pos hm] at hk; exact h.str k hk
    · rw [if_neg hm] at hk
      rcases List.mem_append.1 hk with hk | hk
      · exact h.str k hk
      · have : k = lower e.1.reverse ++ [0] := by simpa using hk
        rw [this]; exact hkstr
  have hT3 : ∀ k, (Trie.value (setValue (lower e.1.reverse ++ [0]) (some i) t1.leaves) (k ++ [0])).join = lastWith U (P ++ [i]) k := by
    intro k
    rw [value_setValue, lastWith_snoc, hki]
    by_cases hk : k ++ [0] = lower e.1.reverse ++ [0]
    · rw [if_pos hk, if_pos (List.append_cancel_right hk).symm, hk]
      cases hv : Trie.value t1.leaves (lower e.1.reverse ++ [0]) with
      | none =>
        have := (value_isSome t1.leaves _).2 hin
        rw [hv] at this; cases this
      | some v => rfl
    · rw [if_neg hk, if_neg (fun h => hk (by rw [h])), hval]
  -- the test
  have htest : extCaseSensitive { esc := e.2, caseSensitive := cs i, ext := lower e.1.reverse }
      ((lastWith U P (keyOf U i)).bind fun p => (exts.modify i fun x => { x with ext := extTolower x.ext })[p]?) = true ↔
        ∃ p, lastWith U P (keyOf U i) = some p ∧ (CS U P p ∨ colOf U p ≠ colOf U i) := by
    cases hl : lastWith U P (keyOf U i) with
    | none => simp [extCaseSensitive]
    | some p =>
      obtain ⟨p1, p2, p3⟩ := lastWith_some hsP hl
      show extCaseSensitive _ ((exts.modify i fun x => { x with ext := extTolower x.ext })[p]?) = true ↔ _
      have hpU : ∃ f, U[p]? = some f := by
        have := (List.getElem?_eq_some_iff.1 he).1
        have := hlt p p1
        exact ⟨U[p], List.getElem?_eq_getElem (by omega)⟩
      obtain ⟨f, hf⟩ := hpU
      rw [hx1 p, hf]
      simp only [Option.map_some, extCaseSensitive, Option.some.injEq, exists_eq_left']
      rw [colOf_some he, colOf_some hf]
      have hcp := h.cs p
      cases hc : cs p with
      | true =>
        rw [hc] at hcp
        simp only [if_true, true_iff]
        exact Or.inl (hcp.1 rfl).2
      | false =>
        rw [hc] at hcp
        have hn : ¬ CS U P p := fun h => by have := hcp.2 ⟨p1, h⟩; cases this
        by_cases hfe : f.2 = e.2
        · simp [hfe, hn]
        · simp [hfe]
  refine ⟨?_, ?_, ?_⟩
  · exact if extCaseSensitive { esc := e.2, caseSensitive := cs i, ext := lower e.1.reverse }
      ((lastWith U P (keyOf U i)).bind fun p => (exts.modify i fun x => { x with ext := extTolower x.ext })[p]?) then
      (match lastWith U P (keyOf U i) with
        | some p => markCase (markCase (exts.modify i fun x => { x with ext := extTolower x.ext }) i) p
        | none => exts.modify i fun x => { x with ext := extTolower x.ext }) else exts.modify i fun x => { x with ext := extTolower x.ext }
  · exact ⟨t1.root, setValue (lower e.1.reverse ++ [0]) (some i) t1.leaves⟩
  refine ⟨fun j => cs j || (extCaseSensitive { esc := e.2, caseSensitive := cs i, ext := lower e.1.reverse }
      ((lastWith U P (keyOf U i)).bind fun p => (exts.modify i fun x => { x with ext := extTolower x.ext })[p]?) &&
        (decide (j = i) || decide (lastWith U P (keyOf U i) = some j))), ?_, ⟨?_, hT, hT2, hT3, ?_⟩⟩
  · unfold caseStep
    dsimp only
    rw [hi1']
    dsimp only
    rw [g1]
    show Out.ok _ = Out.ok _
    dsimp only
    rw [hprev]
    cases lastWith U P (keyOf U i) <;> rfl
  · intro j
    generalize hB : extCaseSensitive { esc := e.2, caseSensitive := cs i, ext := lower e.1.reverse }
      ((lastWith U P (keyOf U i)).bind fun p => (exts.modify i fun x => { x with ext := extTolower x.ext })[p]?) = B at *
    cases B with
    | false =>
      rw [if_neg (by decide), hx1 j]
      simp
    | true =>
      rw [if_pos rfl]
      obtain ⟨p, hp, _⟩ := htest.1 rfl
      rw [hp]
      dsimp only
      unfold markCase
      rw [modify_get, modify_get, hx1 j, Option.map_map, Option.map_map]
      congr 1
      funext e'
      simp only [Function.comp, Bool.true_and]
      by_cases h1 : i = j
      · subst h1
        by_cases h2 : p = i <;> simp [h2]
      · by_cases h2 : p = j
        · subst h2; simp [h1]
        · have h1' : ¬ j = i := fun h => h1 h.symm
          simp [h1, h2, h1']
  · intro j
    simp only [Bool.or_eq_true, Bool.and_eq_true, decide_eq_true_eq]
    rw [htest, h.cs j]
    constructor
    · intro hh
      have hj : j ∈ P ++ [i] := by
        rcases hh with hh | ⟨_, hh | hh⟩
        · exact List.mem_append_left _ hh.1
        · rw [hh]; simp
        · exact List.mem_append_left _ (lastWith_some hsP hh).1
      refine ⟨hj, (cs_snoc U P i hs j hj).2 ?_⟩
      rcases hh with hh | ⟨hh, hh'⟩
      · exact Or.inl hh
      · exact Or.inr ⟨hh', hh⟩
    · rintro ⟨hj, hc⟩
      rcases (cs_snoc U P i hs j hj).1 hc with hh | ⟨hh, hh'⟩
      · exact Or.inl hh
      · exact Or.inr ⟨hh', hh⟩

theorem caseLoop_ok {K : Nat} {U : Entries} : ∀ (Q P : List Nat) (exts : List Ext) (t : Trie (Option Nat)) (cs : Nat → Bool), CaseInv K U P exts t cs →
    (∀ i ∈ Q, ∃ e, U[i]? = some e ∧ 0 ∉ e.1) → (P ++ Q).Pairwise (· < ·) →
    ∃ exts' t' cs', caseLoop K exts t Q = .ok exts' ∧ CaseInv K U (P ++ Q) exts' t' cs' := by
  intro Q
  induction Q with
  | nil => intro P exts t cs h _ _; exact ⟨exts, t, cs, rfl, by rw [List.append_nil]; exact h⟩
  | cons i Q ih =>
    intro P exts t cs h hq hs
    obtain ⟨e, he, h0⟩ := hq i (by simp)
    have hs' : (P ++ [i] ++ Q).Pairwise (· < ·) := by rw [List.append_assoc]; exact hs
    obtain ⟨exts1, t1, cs1, g1, g2⟩ := caseStep_ok h i e he h0 (hs'.sublist (List.sublist_append_left _ _))
    obtain ⟨exts2, t2, cs2, q1, q2⟩ := ih (P ++ [i]) exts1 t1 cs1 g2 (fun j hj => hq j (by simp [hj])) hs'
    refine ⟨exts2, t2, cs2, ?_, by rw [List.append_assoc] at q2; exact q2⟩
    rw [caseLoop, g1]
    exact q1

/-! ## The second loop -/

theorem iextLoop_ok {K : Nat} {U : Entries} {exts : List Ext} {cs : Nat → Bool} : ∀ (Q : List Nat) (t : Trie Nat) (Y : List Item'), WF K t →
    t.leaves = withNul (survivors Y) → (∀ y ∈ Y, 0 ∉ y.1) →
    (∀ i ∈ Q, ∃ e, U[i]? = some e ∧ 0 ∉ e.1 ∧ exts[i]? = some { esc := e.2, caseSensitive := cs i, ext := lower e.1.reverse }) →
    ∃ t', iextLoop K exts t Q = .ok t' ∧ WF K t' ∧
      t'.leaves = withNul (survivors (Y ++ (Q.filter fun i => !cs i).map fun i => (keyOf U i, i))) := by
  intro Q
  induction Q with
  | nil => intro t Y hw hl _ _; exact ⟨t, rfl, hw, by simpa using hl⟩
  | cons i Q ih =>
    intro t Y hw hl hY hq
    obtain ⟨e, he, h0, hx⟩ := hq i (by simp)
    rw [iextLoop, hx]
    dsimp only
    cases hc : cs i with
    | true =>
      rw [if_pos rfl]
      obtain ⟨t', h1, h2, h3⟩ := ih t Y hw hl hY (fun j hj => hq j (by simp [hj]))
      refine ⟨t', h1, h2, ?_⟩
      rw [h3]
      simp [hc]
    | false =>
      rw [if_neg (by decide)]
      have hk0 : 0 ∉ lower e.1.reverse := lower_nul (by rw [List.mem_reverse]; exact h0)
      obtain ⟨t1, g1, g2, g3⟩ := insertExt_ok hw (by
        rw [hl]
        exact withNul_str fun x hx => hY x ((survivors_sublist Y).subset hx)) hk0 i
      rw [g1]
      show ∃ t', iextLoop K exts t1 Q = .ok t' ∧ _
      have hki := keyOf_some he
      obtain ⟨t', h1, h2, h3⟩ := ih t1 (Y ++ [(keyOf U i, i)]) g2 (by
        rw [g3, hl, withNul_filter _ _ hk0, survivors_snoc, hki]
        unfold addE withNul
        rw [List.map_append]; rfl) (by
        intro y hy
        rcases List.mem_append.1 hy with hy | hy
        · exact hY y hy
        · have : y = (keyOf U i, i) := by simpa using hy
          subst this
          rw [hki]; exact hk0) (fun j hj => hq j (by simp [hj]))
      refine ⟨t', h1, h2, ?_⟩
      rw [h3]
      simp [hc]

end Verif.Color
