import Verif.Lemmas.TrieMismatch
import Verif.Spec.Trie
/-!
# Whole-trie operations and the prefix searches
-/
namespace Verif.Trie
open Verif.Spec.Trie (IsStr PrefixFree Op denote live)

variable {V : Type}

/-- The invariant of a trie. -/
structure WF (K : Nat) (t : Trie V) : Prop where
  nodup : (t.leaves.map (·.1)).Nodup
  root : match t.root with
    | none => t.leaves = []
    | some p => Inv K 0 p ∧ ∀ k, k ∈ keys p ↔ k ∈ t.leaves.map (·.1)

theorem wf_empty (K : Nat) : WF K (empty : Trie V) := ⟨by simp [empty], by simp [empty]⟩

theorem findMem_ok {K : Nat} {t : Trie V} (h : WF K t) (key : Key) :
    findMem t.root key = .ok (if key ∈ t.leaves.map (·.1) then some key else none) := by
  have hr := h.root
  cases e : t.root with
  | none => rw [e] at hr; dsimp only at hr; rw [hr]; simp [findMem]
  | some p =>
    rw [e] at hr
    dsimp only at hr
    rw [findMem_spec hr.1]
    simp only [hr.2 key]

theorem insertMem_ok {K : Nat} {t : Trie V} (h : WF K t) {key : Key} {v0 : V} (hne : key ≠ [])
    (hpf : ∀ k ∈ t.leaves.map (·.1), (k <+: key → k = key) ∧ (key <+: k → k = key)) :
    ∃ t', insertMem K t key v0 = .ok (key, t') ∧ WF K t' ∧
      t'.leaves = if key ∈ t.leaves.map (·.1) then t.leaves else t.leaves ++ [(key, v0)] := by
  have hr := h.root
  unfold insertMem
  have nd : key ∉ t.leaves.map (·.1) → ((t.leaves ++ [(key, v0)]).map (·.1)).Nodup := by
    intro hn
    rw [List.map_append, List.nodup_append]
    refine ⟨h.nodup, by simp, ?_⟩
    intro a ha b hb
    simp at hb
    subst hb
    rintro rfl
    exact hn ha
  cases e : t.root with
  | none =>
    rw [e] at hr
    dsimp only at hr ⊢
    have : ¬ 0 ≥ key.length := by
      cases key with
      | nil => exact absurd rfl hne
      | cons => simp
    rw [if_neg this]
    have hn : key ∉ t.leaves.map (·.1) := by rw [hr]; simp
    refine ⟨_, rfl, ⟨nd hn, ?_⟩, by rw [if_neg hn]⟩
    dsimp only
    refine ⟨by rw [Inv]; trivial, ?_⟩
    intro k; rw [hr]; simp [keys]
  | some p =>
    rw [e] at hr
    dsimp only at hr ⊢
    obtain ⟨hI, hk⟩ := hr
    by_cases hm : key ∈ t.leaves.map (·.1)
    · rw [rep_self key p 0 hI ((hk key).2 hm)]
      simp only [Out.bind_ok', mismatch64_eq]
      have hmm : mismatch key key = 2 * key.length := by
        have := mismatch_eq key [] []
        simpa [mismatch] using this
      rw [hmm, if_pos (by omega), if_pos hm]
      exact ⟨t, rfl, h, rfl⟩
    · obtain ⟨r, hr, h1⟩ := rep_mem key p 0 hI
      rw [h1]
      simp only [Out.bind_ok', mismatch64_eq]
      have hrm := (hk r).1 hr
      have hrk : r ≠ key := fun e => hm (e ▸ hrm)
      have c1 : ¬ mismatch r key / 2 ≥ key.length := by
        intro hge
        have := mismatch_prefix (a := key) (b := r) (by rw [mismatch_comm]; omega)
        exact hrk ((hpf r hrm).2 this)
      have c2 : ¬ mismatch r key / 2 ≥ r.length := by
        intro hge
        have := mismatch_prefix (a := r) (b := key) (by omega)
        exact hrk ((hpf r hrm).1 this)
      rw [if_neg c1, if_neg c2, if_neg hm]
      obtain ⟨p', e1, e2, e3, _⟩ := insertAt_ok (K := K) (key := key) (r := r) (mm := mismatch r key) (by omega) (by omega)
        (mismatch_agree r key) (mismatch_differ r key (by omega) (by omega)) p 0 hI (Nat.zero_le _) hr h1
      rw [e1]
      refine ⟨_, rfl, ⟨nd hm, ?_⟩, rfl⟩
      dsimp only
      refine ⟨e2, ?_⟩
      intro k
      rw [e3, hk, List.map_append, List.mem_append]
      simp [or_comm]

theorem setValue_keys (k : Key) (v : V) (l : List (Key × V)) : (setValue k v l).map (·.1) = l.map (·.1) := by
  unfold setValue
  rw [List.map_map]
  apply List.map_congr_left
  intro x _
  simp only [Function.comp]
  split <;> rfl

theorem setMem_ok {K : Nat} {t : Trie V} (h : WF K t) {key : Key} {v0 v : V} (hne : key ≠ [])
    (hpf : ∀ k ∈ t.leaves.map (·.1), (k <+: key → k = key) ∧ (key <+: k → k = key)) :
    ∃ t', setMem K t key v0 v = .ok t' ∧ WF K t' ∧
      t'.leaves = setValue key v (if key ∈ t.leaves.map (·.1) then t.leaves else t.leaves ++ [(key, v0)]) := by
  obtain ⟨t1, e1, e2, e3⟩ := insertMem_ok h (v0 := v0) hne hpf
  unfold setMem
  rw [e1]
  refine ⟨_, rfl, ⟨?_, ?_⟩, by simp only [e3]⟩
  · rw [setValue_keys]; exact e2.nodup
  · have := e2.root
    cases hr : t1.root with
    | none => rw [hr] at this; dsimp only at this ⊢; rw [this]; rfl
    | some p => rw [hr] at this; dsimp only at this ⊢; rw [setValue_keys]; exact this

theorem mem_eraseP_keys {l : List (Key × V)} (h : (l.map (·.1)).Nodup) (key : Key) :
    l.eraseP (fun x => x.1 == key) = l.filter (fun x => x.1 ≠ key) := by
  induction l with
  | nil => rfl
  | cons x xs ih =>
    rw [List.map_cons, List.nodup_cons] at h
    by_cases e : x.1 = key
    · rw [List.eraseP_cons_of_pos (by simp [e]), List.filter_cons, if_neg (by simp [e])]
      symm
      rw [List.filter_eq_self]
      intro y hy
      simp only [ne_eq, decide_eq_true_eq]
      rintro rfl
      apply h.1
      rw [e]
      exact List.mem_map_of_mem hy
    · rw [List.eraseP_cons_of_neg (by simp [e]), List.filter_cons, if_pos (by simp [e]), ih h.2]

theorem remove_ok {K : Nat} {t : Trie V} (h : WF K t) {key : Key} (hm : key ∈ t.leaves.map (·.1)) :
    ∃ t', remove K t key = .ok t' ∧ WF K t' ∧ t'.leaves = t.leaves.filter (fun x => x.1 ≠ key) := by
  have hr := h.root
  unfold remove
  have hle := mem_eraseP_keys h.nodup key
  have hmap : (t.leaves.filter (fun x => x.1 ≠ key)).map (·.1) = (t.leaves.map (·.1)).filter (fun x => x ≠ key) := by
    rw [List.filter_map]; rfl
  have nd : ((t.leaves.filter (fun x => x.1 ≠ key)).map (·.1)).Nodup := by
    rw [hmap]; exact h.nodup.filter _
  cases e : t.root with
  | none => rw [e] at hr; dsimp only at hr; rw [hr] at hm; simp at hm
  | some p =>
    rw [e] at hr
    dsimp only at hr ⊢
    obtain ⟨hI, hk⟩ := hr
    obtain ⟨x, e1, e2⟩ := removeAt_ok p 0 hI ((hk key).2 hm)
    rw [e1]
    simp only [Out.bind_ok']
    rw [hle]
    cases x with
    | gone =>
      refine ⟨_, rfl, ⟨nd, ?_⟩, rfl⟩
      dsimp only
      rw [List.filter_eq_nil_iff]
      intro y hy
      have := (e2 y.1).1 ((hk y.1).2 (List.mem_map_of_mem hy))
      simp [this]
    | kept p' =>
      refine ⟨_, rfl, ⟨nd, ?_⟩, rfl⟩
      dsimp only
      refine ⟨e2.1, ?_⟩
      intro k
      rw [e2.2.1, hk, hmap]
      simp

theorem removeKey_ok {K : Nat} {t : Trie V} (h : WF K t) (key : Key) :
    ∃ t', removeKey K t key = .ok t' ∧ WF K t' ∧ t'.leaves = t.leaves.filter (fun x => x.1 ≠ key) := by
  unfold removeKey
  rw [findMem_ok h key]
  simp only [Out.bind_ok']
  by_cases hm : key ∈ t.leaves.map (·.1)
  · simp only [hm, if_true]
    exact remove_ok h hm
  · simp only [hm, if_false]
    refine ⟨t, rfl, h, ?_⟩
    symm
    rw [List.filter_eq_self]
    intro y hy
    simp only [ne_eq, decide_eq_true_eq]
    rintro rfl
    exact hm (List.mem_map_of_mem hy)

/-! ### Values -/

theorem value_setValue (l : List (Key × V)) (k k' : Key) (v : V) :
    value (setValue k v l) k' = if k' = k then (value l k').map (fun _ => v) else value l k' := by
  induction l with
  | nil => simp [value, setValue]
  | cons x xs ih =>
    have hs : setValue k v (x :: xs) = (if x.1 = k then (x.1, v) else x) :: setValue k v xs := rfl
    unfold value at ih ⊢
    rw [hs, List.find?_cons, List.find?_cons]
    by_cases hx : x.1 = k'
    · by_cases hk : k' = k
      · simp [hx, hk]
      · have : ¬ x.1 = k := fun e => hk (hx ▸ e)
        simp [hx, hk]
    · by_cases hk : x.1 = k
      · have h1 : ¬ k = k' := fun e => hx (hk.trans e)
        have h2 : (k == k') = false := by simpa using h1
        simp only [hk, if_true, h2]
        exact ih
      · have h2 : (x.1 == k') = false := by simpa using hx
        simp only [hk, if_false, h2]
        exact ih

theorem value_append (l : List (Key × V)) (k k' : Key) (v : V) (hk : k ∉ l.map (·.1)) :
    value (l ++ [(k, v)]) k' = if k' = k then some v else value l k' := by
  unfold value
  rw [List.find?_append]
  by_cases h : k' = k
  · subst h
    have : l.find? (fun x => x.1 == k') = none := by
      rw [List.find?_eq_none]
      intro x hx
      simp only [beq_iff_eq]
      rintro rfl
      exact hk (List.mem_map_of_mem hx)
    simp [this]
  · have : (k == k') = false := by simpa using (fun e : k = k' => h e.symm)
    simp [h, this]

theorem value_filter (l : List (Key × V)) (k k' : Key) :
    value (l.filter (fun x => x.1 ≠ k)) k' = if k' = k then none else value l k' := by
  unfold value
  by_cases h : k' = k
  · subst h
    rw [if_pos rfl]
    have : (l.filter (fun x => x.1 ≠ k')).find? (fun x => x.1 == k') = none := by
      rw [List.find?_eq_none]
      intro x hx
      simp at hx
      simpa using hx.2
    rw [this]; rfl
  · rw [if_neg h, List.find?_filter]
    congr 2
    funext x
    by_cases hx : x.1 = k'
    · have : x.1 ≠ k := fun e => h (hx ▸ e)
      simp [hx, h]
    · have : (x.1 == k') = false := by simpa using hx
      simp [this]

theorem value_isSome (l : List (Key × V)) (k : Key) : (value l k).isSome = true ↔ k ∈ l.map (·.1) := by
  unfold value
  rw [Option.isSome_map, List.find?_isSome]
  simp

/-! ### Histories -/

theorem step_ok {K : Nat} {v0 : V} {t : Trie V} (h : WF K t) (op : Op V) (S : Key → Prop) (hS : PrefixFree S)
    (hsub : ∀ k ∈ t.leaves.map (·.1), S k) (hk : S op.key) (hne : op.key ≠ []) :
    ∃ t', step K v0 t op = .ok t' ∧ WF K t' ∧ (∀ k ∈ t'.leaves.map (·.1), S k) ∧
      (∀ k, value t'.leaves k = Op.apply (value t.leaves) op k) ∧
      t'.leaves.map (·.1) = Op.live (t.leaves.map (·.1)) op := by
  cases op with
  | set k v =>
    simp only [Op.key] at hk hne
    obtain ⟨t', e1, e2, e3⟩ := setMem_ok h (v0 := v0) (v := v) hne (fun k' hk' =>
      ⟨fun hp => hS k' k (hsub k' hk') hk hp, fun hp => (hS k k' hk (hsub k' hk') hp).symm⟩)
    refine ⟨t', e1, e2, ?_, ?_, ?_⟩
    · intro k' hk'
      rw [e3, setValue_keys] at hk'
      split at hk'
      · exact hsub k' hk'
      · rw [List.map_append, List.mem_append] at hk'
        rcases hk' with hk' | hk'
        · exact hsub k' hk'
        · simp at hk'; rw [hk']; exact hk
    · intro k'
      rw [e3, value_setValue]
      show _ = if k' = k then some v else value t.leaves k'
      by_cases hm : k ∈ t.leaves.map (·.1)
      · rw [if_pos hm]
        by_cases e : k' = k
        · subst e
          rw [if_pos rfl, if_pos rfl]
          have := (value_isSome t.leaves k').2 hm
          cases hv : value t.leaves k' with
          | none => rw [hv] at this; simp at this
          | some x => rfl
        · rw [if_neg e, if_neg e]
      · rw [if_neg hm, value_append _ _ _ _ hm]
        by_cases e : k' = k
        · simp [e]
        · simp [e]
    · rw [e3, setValue_keys, Op.live]
      split
      · rfl
      · simp
  | remove k =>
    obtain ⟨t', e1, e2, e3⟩ := removeKey_ok h k
    have hmap : t'.leaves.map (·.1) = (t.leaves.map (·.1)).filter (· ≠ k) := by
      rw [e3, List.filter_map]; rfl
    refine ⟨t', e1, e2, ?_, ?_, hmap⟩
    · intro k' hk'
      rw [hmap, List.mem_filter] at hk'
      exact hsub k' hk'.1
    · intro k'
      rw [e3, value_filter, Op.apply]

theorem run_ok {K : Nat} {v0 : V} (S : Key → Prop) (hS : PrefixFree S) : ∀ (ops : List (Op V)) (t : Trie V), WF K t →
    (∀ k ∈ t.leaves.map (·.1), S k) → (∀ op ∈ ops, S op.key ∧ op.key ≠ []) →
    ∃ t', run K v0 t ops = .ok t' ∧ WF K t' ∧ (∀ k ∈ t'.leaves.map (·.1), S k) ∧
      (∀ k, value t'.leaves k = ops.foldl Op.apply (value t.leaves) k) ∧
      t'.leaves.map (·.1) = ops.foldl Op.live (t.leaves.map (·.1)) := by
  intro ops
  induction ops with
  | nil => intro t h hs _; exact ⟨t, rfl, h, hs, fun _ => rfl, rfl⟩
  | cons op ops ih =>
    intro t h hs ho
    obtain ⟨h1, h2⟩ := ho op (by simp)
    obtain ⟨t1, e1, e2, e3, e4, e5⟩ := step_ok (v0 := v0) h op S hS hs h1 h2
    obtain ⟨t2, f1, f2, f3, f4, f5⟩ := ih t1 e2 e3 (fun o ho' => ho o (by simp [ho']))
    refine ⟨t2, ?_, f2, f3, ?_, ?_⟩
    · rw [run, e1]; exact f1
    · intro k
      rw [f4, List.foldl_cons]
      have : value t1.leaves = Op.apply (value t.leaves) op := funext e4
      rw [this]
    · rw [f5, e5, List.foldl_cons]

/-! ### Postfix search -/

theorem nib_prefix {k key : Key} (h : key <+: k) {i : Nat} (hi : i < 2 * key.length) : nib k i = nib key i := by
  obtain ⟨r, rfl⟩ := h
  apply nib_take (n := key.length) _ hi
  simp

/-- The representative of a prefix of a stored key starts with it. -/
theorem rep_prefix {K : Nat} {key q : Key} (hq : key <+: q) : ∀ (p : Ptr) (off : Nat), Inv K off p →
    (∃ k ∈ keys p, key <+: k) → ∃ r ∈ keys p, key <+: r ∧ rep q off p = .ok r := by
  intro p
  induction p using Ptr.ind with
  | hl k0 =>
    rintro off _ ⟨k, hk, hp⟩
    simp [keys] at hk
    subst hk
    exact ⟨k, by simp [keys], hp, by rw [rep]⟩
  | hn m o cs ih =>
    rintro off h ⟨k, hk, hp⟩
    have h0 := h
    rw [inv_node] at h
    obtain ⟨_, hne, hlen, hag, hL⟩ := h
    rw [keys] at hk
    by_cases hlt : off + o < 2 * key.length
    · have hql : off + o < 2 * q.length := by
        have := hq.length_le
        omega
      have hkq : nib k (off + o) = nib q (off + o) := by
        rw [nib_prefix hp hlt, nib_prefix hq hlt]
      have hhas : has m (nib q (off + o)) = true := (has_iff (nib_lt _ _)).2 (hkq ▸ InvL_nib hL k hk)
      obtain ⟨A, B, X, c, Y, hb, rfl, hXi, hAX, hX, ⟨hc, hcp⟩, hci, hY, _, hA, hB⟩ := child_split (nib_lt q (off + o)) hL hhas
      obtain ⟨X', c', Y', e, h1', _, h2', h4⟩ := rep_has hL hql hhas
      obtain ⟨rfl, e''⟩ := List.append_inj e (by omega)
      simp only [List.cons.injEq] at e''
      obtain ⟨rfl, rfl⟩ := e''
      have hkc : k ∈ keys c := by
        rcases mem_mid.1 hk with hx | hx | hx
        · exact absurd hkq (hA _ (InvL_nib hX k hx))
        · exact hx
        · exact absurd hkq (hB _ (InvL_nib hY k hx))
      obtain ⟨r, hr, hr1, hr2⟩ := ih c (by simp) (off + o) hci ⟨k, hkc, hp⟩
      exact ⟨r, by rw [keys]; exact mem_keysL_mid hr, hr1, h4.trans hr2⟩
    · obtain ⟨r, hr, hr1⟩ := rep_mem q _ _ h0
      refine ⟨r, hr, ?_, hr1⟩
      rw [keys] at hr
      have e1 := hlen r hr
      have e2 := hlen k hk
      rw [List.prefix_iff_eq_take] at hp ⊢
      rw [hp]
      have : (k.take key.length).length = key.length := by simp; omega
      rw [this]
      exact take_of_nib (by omega) (by omega) (fun i hi => hag k hk r hr i (by omega))

/-! ### Prefix search -/

/-- `t` is a string whose characters start the query. -/
def Good (q t : Key) : Prop := ∃ s, t = s ++ [0] ∧ s <+: q

theorem nib_nul {s : Key} {i : Nat} (h : 2 * s.length ≤ i) (h2 : i < 2 * s.length + 2) : nib (s ++ [0]) i = 0 := by
  unfold nib
  have : i / 2 = s.length := by omega
  rw [this]
  simp

theorem good_nib {q s : Key} (h : s <+: q) {i : Nat} (hi : i < 2 * s.length) : nib (s ++ [0]) i = nib (q ++ [0]) i := by
  rw [nib_prefix (List.prefix_append s [0]) hi, nib_prefix (h.trans (List.prefix_append q [0])) hi]

theorem checkPrefix_ok {q s : Key} {skip : Nat} (h1 : skip ≤ s.length) (h2 : (s ++ [0]).take skip = (q ++ [0]).take skip) :
    ∃ b, checkPrefix (some (s ++ [0])) skip (q ++ [0]) = .ok b ∧ (b = true ↔ s <+: q) := by
  unfold checkPrefix
  dsimp only
  by_cases hl : (s ++ [0]).length ≤ (q ++ [0]).length
  · rw [if_pos hl, if_pos (by simp; omega)]
    refine ⟨_, rfl, ?_⟩
    simp at hl
    have e : (s ++ [0]).length - skip - 1 = s.length - skip := by simp; omega
    rw [e, beq_iff_eq, List.prefix_iff_eq_take]
    have ts : (s ++ [(0 : UInt8)]).take s.length = s := by simp
    have tq : (q ++ [(0 : UInt8)]).take s.length = q.take s.length := by
      rw [List.take_append_of_le_length (by omega)]
    have d : ∀ l : Key, l.take s.length = l.take skip ++ (l.drop skip).take (s.length - skip) := by
      intro l
      have : s.length = skip + (s.length - skip) := by omega
      conv => lhs; rw [this, List.take_add]
    constructor
    · intro h
      rw [← tq, d (q ++ [0]), h, ← h2, ← d, ts]
    · intro h
      have h3 : (s ++ [(0 : UInt8)]).take s.length = (q ++ [(0 : UInt8)]).take s.length := by rw [ts, tq, ← h]
      rw [d (s ++ [0]), d (q ++ [0]), h2] at h3
      exact (List.append_cancel_left h3).symm
  · rw [if_neg hl]
    refine ⟨false, rfl, ?_⟩
    simp at hl
    constructor
    · intro h; exact absurd h (by simp)
    · intro h; have := h.length_le; omega

theorem zero_split {K off : Nat} {map : BitVec 16} {cs : List Ptr} (h : InvL K off (bits map) cs) (hz : map.getLsbD 0 = true) :
    ∃ B c Y, bits map = 0 :: B ∧ cs = c :: Y ∧ ((∀ k ∈ keys c, nib k off = 0) ∧ Pos c) ∧ Inv K off c ∧ InvL K off B Y ∧ ∀ m ∈ B, 0 < m := by
  obtain ⟨A, B, _, _, hA, hB, h2, _⟩ := bits_split map (n := 0) (by decide)
  have hA0 : A = [] := by
    cases A with
    | nil => rfl
    | cons a A => exact absurd (hA a (by simp)) (by omega)
  subst hA0
  have hb := h2 (by rw [has_eq (by decide)]; exact hz)
  rw [List.nil_append] at hb
  rw [hb] at h
  obtain ⟨c, Y, rfl, e4, e5, e6⟩ := InvL_cons h
  exact ⟨B, c, Y, hb, rfl, e4, e5, e6, hB⟩

theorem terminalLeaf_node (n : Nat) (m : BitVec 16) (o : Nat) (c : Ptr) (cs : List Ptr) :
    terminalLeaf (n + 1) (.node m o (c :: cs)) = if m.getLsbD 0 then
      (match c with
      | .leaf k => some k
      | .node m o cs => terminalLeaf n (.node m o cs))
    else none := by
  rw [terminalLeaf.eq_def]; rfl

/-- The terminal leaf is the first key in order. -/
theorem terminal_min {K : Nat} : ∀ (n : Nat) (p : Ptr) (off : Nat), Inv K off p → ∀ t, terminalLeaf n p = some t →
    t ∈ keys p ∧ ∀ s ∈ keys p, s ≠ t → ∃ i, i < 2 * s.length ∧ i < 2 * t.length ∧ nib t i < nib s i ∧ ∀ j < i, nib t j = nib s j := by
  intro n
  induction n with
  | zero => intro p off _ t h; simp [terminalLeaf] at h
  | succ n ih =>
    intro p off h t ht
    cases p with
    | leaf k => simp [terminalLeaf] at ht
    | node m o cs =>
      rw [inv_node] at h
      obtain ⟨_, hne, hlen, hag, hL⟩ := h
      cases cs with
      | nil => exact absurd rfl hne
      | cons c0 cs0 =>
      rw [terminalLeaf_node] at ht
      split at ht
      · rename_i hz
        obtain ⟨B, c, Y, hb, e, ⟨hc, hcp⟩, hci, hY, hB⟩ := zero_split hL hz
        injection e with e1 e2
        subst e1 e2
        have hsub : ∀ s ∈ keysL cs0, t ∈ keys c0 → ∃ i, i < 2 * s.length ∧ i < 2 * t.length ∧ nib t i < nib s i ∧ ∀ j < i, nib t j = nib s j := by
          intro s hs htc
          have hs' : s ∈ keysL (c0 :: cs0) := by rw [keysL]; simp [hs]
          have ht' : t ∈ keysL (c0 :: cs0) := by rw [keysL]; simp [htc]
          refine ⟨off + o, hlen s hs', hlen t ht', ?_, fun j hj => hag t ht' s hs' j hj⟩
          rw [hc t htc]
          exact hB _ (InvL_nib hY s hs)
        cases c0 with
        | leaf k =>
          simp only [Option.some.injEq] at ht
          subst ht
          refine ⟨by simp [keys, keysL], ?_⟩
          intro s hs hst
          rw [keys, keysL, List.mem_append] at hs
          rcases hs with hs | hs
          · simp [keys] at hs; exact absurd hs hst
          · exact hsub s hs (by simp [keys])
        | node m' o' cs' =>
          dsimp only at ht
          obtain ⟨g1, g2⟩ := ih _ _ hci t ht
          refine ⟨by rw [keys, keysL]; simp [g1], ?_⟩
          intro s hs hst
          rw [keys, keysL, List.mem_append] at hs
          rcases hs with hs | hs
          · exact g2 s hs hst
          · exact hsub s hs g1
      · exact absurd ht (by simp)

/-- Strings that end at a node are found by looking for the terminal leaf. -/
theorem terminal_find {K off o : Nat} {m : BitVec 16} {cs : List Ptr} (h : Inv K off (.node m o cs))
    (hstr : ∀ t ∈ keysL cs, IsStr t) {s : Key} (hs : s ++ [0] ∈ keysL cs) (he : 2 * s.length ≤ off + o) :
    terminalLeaf 2 (.node m o cs) = some (s ++ [0]) := by
  have key : ∀ (m : BitVec 16) (o off : Nat) (cs : List Ptr), Inv K off (.node m o cs) → s ++ [0] ∈ keysL cs → 2 * s.length ≤ off + o →
      (∀ t ∈ keysL cs, IsStr t) →
      ∃ c Y, cs = c :: Y ∧ m.getLsbD 0 = true ∧ s ++ [0] ∈ keys c ∧ Inv K (off + o) c ∧ Pos c ∧
        ((c = .leaf (s ++ [0])) ∨ (∃ m' o' cs', c = .node m' o' cs' ∧ off + o = 2 * s.length ∧ off + o + o' = 2 * s.length + 1)) := by
    intro m o off cs h hs he hstr
    rw [inv_node] at h
    obtain ⟨_, hne, hlen, hag, hL⟩ := h
    have hl := hlen _ hs
    simp at hl
    have hn : nib (s ++ [0]) (off + o) = 0 := nib_nul he (by omega)
    have hz : m.getLsbD 0 = true := by
      have := InvL_nib hL _ hs
      rw [hn, mem_bits] at this
      exact this.2
    obtain ⟨B, c, Y, hb, rfl, ⟨hc, hcp⟩, hci, hY, hB⟩ := zero_split hL hz
    have hsc : s ++ [0] ∈ keys c := by
      rw [keysL, List.mem_append] at hs
      rcases hs with hs | hs
      · exact hs
      · exact absurd hn (Nat.ne_of_gt (hB _ (InvL_nib hY _ hs)))
    refine ⟨c, Y, rfl, hz, hsc, hci, hcp, ?_⟩
    cases c with
    | leaf k => simp [keys] at hsc; rw [hsc]; exact Or.inl rfl
    | node m' o' cs' =>
      right
      rw [Pos] at hcp
      rw [inv_node] at hci
      rw [keys] at hsc
      have := hci.2.2.1 _ hsc
      simp at this
      exact ⟨m', o', cs', rfl, by omega, by omega⟩
  obtain ⟨c, Y, rfl, hz, hsc, hci, hcp, hcase⟩ := key m o off cs h hs he hstr
  rw [terminalLeaf_node, if_pos hz]
  rcases hcase with rfl | ⟨m', o', cs', rfl, e1, e2⟩
  · rfl
  · dsimp only
    rw [keys] at hsc
    obtain ⟨c, Y', rfl, hz', hsc', hci', hcp', hcase'⟩ := key m' o' (off + o) cs' hci hsc (by omega)
      (fun t ht => hstr t (by rw [keysL, keys]; simp [ht]))
    rw [terminalLeaf_node, if_pos hz']
    rcases hcase' with rfl | ⟨m'', o'', cs'', rfl, e1', e2'⟩
    · rfl
    · omega

theorem prefixNth_append (key : Key) (best : Option Key) (skip off : Nat) (X Y : List Ptr) (c : Ptr) :
    prefixNth key best skip off (X ++ c :: Y) X.length = prefixLoop key best skip off c := by
  induction X with
  | nil => rw [List.nil_append, List.length_nil, prefixNth]
  | cons d X ih => rw [List.cons_append, List.length_cons, prefixNth]; exact ih

theorem good_min {q t s : Key} (ht : Good q t) (hs : Good q s)
    (h : ∃ i, i < 2 * s.length ∧ i < 2 * t.length ∧ nib t i < nib s i ∧ ∀ j < i, nib t j = nib s j) : t.length ≤ s.length := by
  obtain ⟨t0, rfl, ht⟩ := ht
  obtain ⟨s0, rfl, hs⟩ := hs
  obtain ⟨i, h1, h2, h3, _⟩ := h
  simp at h1 h2 ⊢
  rcases Nat.lt_or_ge s0.length t0.length with hlt | hge
  · exfalso
    by_cases hi : i < 2 * s0.length
    · rw [good_nib ht (by omega), good_nib hs hi] at h3; omega
    · rw [nib_nul (s := s0) (by omega) (by omega)] at h3; omega
  · exact hge

theorem prefixLoop_ok {K : Nat} {q : Key} : ∀ (p : Ptr) (off : Nat) (best : Option Key) (skip : Nat), Inv K off p →
    (∀ t ∈ keys p, IsStr t) → (∀ t ∈ keys p, skip < t.length ∧ t.take skip = (q ++ [0]).take skip) →
    ∃ res, prefixLoop (q ++ [0]) best skip off p = .ok res ∧
      ((res = best ∧ ∀ t ∈ keys p, ¬ Good q t) ∨
        (∃ t ∈ keys p, Good q t ∧ res = some t ∧ ∀ s ∈ keys p, Good q s → s.length ≤ t.length)) := by
  intro p
  have good_iff : ∀ s, Good q (s ++ [0]) ↔ s <+: q := by
    intro s
    constructor
    · rintro ⟨s', e, h⟩
      have := List.append_cancel_right e
      rw [this]; exact h
    · intro h; exact ⟨s, rfl, h⟩
  induction p using Ptr.ind with
  | hl k =>
    intro off best skip _ hstr hskip
    obtain ⟨s, h0, rfl⟩ := hstr k (by simp [keys])
    obtain ⟨hs1, hs2⟩ := hskip (s ++ [0]) (by simp [keys])
    simp at hs1
    obtain ⟨b, e1, e2⟩ := checkPrefix_ok (q := q) (s := s) (by omega) hs2
    rw [prefixLoop, e1]
    simp only [Out.bind_ok']
    refine ⟨_, rfl, ?_⟩
    cases b with
    | false =>
      left
      refine ⟨by simp, ?_⟩
      intro t ht
      simp [keys] at ht
      rw [ht, good_iff]
      intro h
      exact absurd (e2.2 h) (by simp)
    | true =>
      right
      refine ⟨s ++ [0], by simp [keys], (good_iff s).2 (e2.1 rfl), by simp, ?_⟩
      intro t ht _
      simp [keys] at ht
      rw [ht]; exact Nat.le_refl _
  | hn m o cs ih =>
    intro off best skip h hstr hskip
    have h0 := h
    rw [inv_node] at h
    obtain ⟨_, hne, hlen, hag, hL⟩ := h
    rw [prefixLoop]
    by_cases hbig : off + o ≥ 2 * (q ++ [0]).length
    · rw [if_pos hbig]
      refine ⟨best, rfl, Or.inl ⟨rfl, ?_⟩⟩
      rintro t ht ⟨s, rfl, hs⟩
      rw [keys] at ht
      have := hlen _ ht
      have := hs.length_le
      simp at *
      omega
    · rw [if_neg hbig]
      -- the terminal leaf and its check
      have hT : ∃ ok, checkPrefix (terminalLeaf 2 (.node m o cs)) skip (q ++ [0]) = .ok ok ∧
          (ok = true → ∃ t ∈ keys (.node m o cs), terminalLeaf 2 (.node m o cs) = some t ∧ Good q t) ∧
          (ok = false → ∀ t, terminalLeaf 2 (.node m o cs) = some t → ¬ Good q t) := by
        cases hT : terminalLeaf 2 (.node m o cs) with
        | none => exact ⟨false, rfl, by simp, by simp⟩
        | some t =>
          obtain ⟨ht, _⟩ := terminal_min 2 _ off h0 t hT
          obtain ⟨s, _, rfl⟩ := hstr t ht
          obtain ⟨hs1, hs2⟩ := hskip _ ht
          simp at hs1
          obtain ⟨b, e1, e2⟩ := checkPrefix_ok (q := q) (s := s) (by omega) hs2
          refine ⟨b, e1, ?_, ?_⟩
          · intro hb; exact ⟨s ++ [0], ht, rfl, (good_iff s).2 (e2.1 hb)⟩
          · intro hb t ht
            injection ht with ht
            rw [← ht, good_iff, ← e2, hb]; simp
      obtain ⟨ok, eok, hok1, hok2⟩ := hT
      rw [eok, nibble_eq (by omega)]
      simp only [Out.bind_ok']
      -- good strings that leave the path end here
      have hleave : ∀ s ∈ keysL cs, Good q s → nib s (off + o) ≠ nib (q ++ [0]) (off + o) → terminalLeaf 2 (.node m o cs) = some s := by
        rintro s hs ⟨s0, rfl, hg⟩ hd
        apply terminal_find h0 (by intro t ht; exact hstr t (by rw [keys]; exact ht)) hs
        rcases Nat.lt_or_ge (off + o) (2 * s0.length) with hlt | hge
        · exact absurd (good_nib hg hlt) hd
        · exact hge
      have hmin : ∀ t, terminalLeaf 2 (.node m o cs) = some t → Good q t → ∀ s ∈ keysL cs, Good q s → t.length ≤ s.length := by
        intro t ht hgt s hs hgs
        obtain ⟨_, h2⟩ := terminal_min 2 _ off h0 t ht
        by_cases e : s = t
        · rw [e]; exact Nat.le_refl _
        · exact good_min hgt hgs (h2 s (by rw [keys]; exact hs) e)
      have hmax : ∀ (inC : Key → Prop), (∀ s ∈ keysL cs, ¬ inC s → nib s (off + o) ≠ nib (q ++ [0]) (off + o)) →
          (∀ s ∈ keysL cs, inC s → ¬ Good q s) →
          ((if ok = true then terminalLeaf 2 (.node m o cs) else best) = best ∧ ∀ t ∈ keysL cs, ¬ Good q t) ∨
          (∃ t ∈ keysL cs, Good q t ∧ (if ok = true then terminalLeaf 2 (.node m o cs) else best) = some t ∧
            ∀ s ∈ keysL cs, Good q s → s.length ≤ t.length) := by
        intro inC h1 h2
        cases ok with
        | false =>
          left
          refine ⟨by simp, ?_⟩
          intro t ht hg
          by_cases hi : inC t
          · exact h2 t ht hi hg
          · exact hok2 rfl t (hleave t ht hg (h1 t ht hi)) hg
        | true =>
          right
          obtain ⟨t, ht, hT, hg⟩ := hok1 rfl
          rw [keys] at ht
          refine ⟨t, ht, hg, by simp [hT], ?_⟩
          intro s hs hgs
          by_cases hi : inC s
          · exact absurd hgs (h2 s hs hi)
          · have := hleave s hs hgs (h1 s hs hi)
            rw [hT] at this
            injection this with this
            rw [this]; exact Nat.le_refl _
      by_cases hp : has m (nib (q ++ [0]) (off + o)) = true
      · rw [if_pos hp]
        obtain ⟨A, B, X, c, Y, hb, rfl, hXi, hAX, hX, ⟨hc, hcp⟩, hci, hY, _, hA, hB⟩ := child_split (nib_lt _ _) hL hp
        rw [← hXi, prefixNth_append]
        have hsub : ∀ t ∈ keys c, t ∈ keysL (X ++ c :: Y) := fun t ht => mem_keysL_mid ht
        have hskip' : ∀ t ∈ keys c, (if ok = true then (off + o) / 2 else skip) < t.length ∧
            t.take (if ok = true then (off + o) / 2 else skip) = (q ++ [0]).take (if ok = true then (off + o) / 2 else skip) := by
          intro t ht
          have ht' := hsub t ht
          cases ok with
          | false =>
            simp only [Bool.false_eq_true, if_false]
            exact hskip t (by rw [keys]; exact ht')
          | true =>
            simp only [if_true]
            obtain ⟨u, hu, _, u0, rfl, hg⟩ := hok1 rfl
            rw [keys] at hu
            have l1 := hlen t ht'
            have l2 := hlen _ hu
            simp at l2
            refine ⟨by omega, ?_⟩
            apply take_of_nib (by omega) (by omega)
            intro i hi
            rw [hag t ht' _ hu i (by omega)]
            exact good_nib hg (by omega)
        obtain ⟨res, e1, e2⟩ := ih c (by simp) (off + o) (if ok = true then terminalLeaf 2 (.node m o (X ++ c :: Y)) else best) _ hci
          (fun t ht => hstr t (by rw [keys]; exact hsub t ht)) hskip'
        refine ⟨res, e1, ?_⟩
        have hout : ∀ s ∈ keysL (X ++ c :: Y), s ∉ keys c → nib s (off + o) ≠ nib (q ++ [0]) (off + o) := by
          intro s hs hsc
          rcases mem_mid.1 hs with hs | hs | hs
          · exact hA _ (InvL_nib hX s hs)
          · exact absurd hs hsc
          · exact hB _ (InvL_nib hY s hs)
        rw [keys]
        rcases e2 with ⟨rfl, hno⟩ | ⟨t, ht, hg, rfl, hmx⟩
        · exact hmax (· ∈ keys c) hout (fun s _ h => hno s h)
        · right
          refine ⟨t, hsub t ht, hg, rfl, ?_⟩
          intro s hs hgs
          by_cases hsc : s ∈ keys c
          · exact hmx s hsc hgs
          · exact hmin s (hleave s hs hgs (hout s hs hsc)) hgs t (hsub t ht) hg
      · rw [if_neg hp]
        refine ⟨_, rfl, ?_⟩
        rw [keys]
        apply hmax (fun _ => False)
        · intro s hs _ e
          apply hp
          rw [has_iff (nib_lt _ _), ← e]
          exact InvL_nib hL s hs
        · intro s _ h; exact absurd h id

end Verif.Trie
