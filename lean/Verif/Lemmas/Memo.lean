import Verif.Spec.Memo
import Verif.Lemmas.TrieTop
/-! # Lemmas about caches -/
namespace Verif.Memo
open Verif Verif.Trie Verif.Spec.Trie Verif.Spec.Memo

theorem bytesOf_length (k n : Nat) : (bytesOf k n).length = k := by
  induction k generalizing n with
  | zero => rfl
  | succ k ih => rw [bytesOf, List.length_cons, ih]

theorem bytesOf_inj {k a b : Nat} (ha : a < 256 ^ k) (hb : b < 256 ^ k) (h : bytesOf k a = bytesOf k b) : a = b := by
  induction k generalizing a b with
  | zero => simp at ha hb; omega
  | succ k ih =>
    rw [bytesOf, bytesOf] at h
    obtain ⟨h1, h2⟩ := List.cons.inj h
    have e := ih (Nat.div_lt_of_lt_mul (by rw [Nat.pow_succ, Nat.mul_comm] at ha; exact ha)) (Nat.div_lt_of_lt_mul (by rw [Nat.pow_succ, Nat.mul_comm] at hb; exact hb)) h2
    have e2 := congrArg UInt8.toNat h1
    rw [UInt8.toNat_ofNat', UInt8.toNat_ofNat'] at e2
    omega

/-- What a trie of memos stands for. -/
structure Holds {V : Type} (K : Nat) (S : List UInt8 → Prop) (t : Trie V) (m : List UInt8 → Option V) : Prop where
  wf : WF K t
  sub : ∀ k ∈ t.leaves.map (·.1), S k
  val : ∀ k, value t.leaves k = m k

theorem holds_empty {V : Type} (K : Nat) (S : List UInt8 → Prop) : Holds K S (empty : Trie V) fun _ => none := ⟨wf_empty K, by simp [empty], fun _ => rfl⟩

theorem withLeaf_ok {V R : Type} {K : Nat} {v0 : V} {S : List UInt8 → Prop} (hS : PrefixFree S) {t : Trie V} {m : List UInt8 → Option V} (h : Holds K S t m) {key : List UInt8} (hk : S key) (hne : key ≠ []) (memory : Bool) (fail : R) (f : V → R × V) :
    ∃ t', withLeaf K v0 t key memory fail f = .ok (if memory || (m key).isSome then (f ((m key).getD v0)).1 else fail, t') ∧
      Holds K S t' (fun x => if x = key ∧ (memory || (m key).isSome) = true then some (f ((m key).getD v0)).2 else m x) := by
  have hmem : ((if key ∈ t.leaves.map (·.1) then some key else none).isSome) = (m key).isSome := by
    rw [← h.val key, Bool.eq_iff_iff, value_isSome]
    split <;> simp_all
  unfold withLeaf
  rw [findMem_ok h.wf key]
  simp only [Out.bind_ok']
  rw [hmem]
  cases hc : (memory || (m key).isSome) with
  | false => exact ⟨t, rfl, h.wf, h.sub, fun k => by rw [if_neg (by simp)]; exact h.val k⟩
  | true =>
    rw [if_pos rfl, if_pos rfl]
    have hpf : ∀ k ∈ t.leaves.map (·.1), (k <+: key → k = key) ∧ (key <+: k → k = key) := fun k hk' =>
      ⟨fun hp => hS k key (h.sub k hk') hk hp, fun hp => (hS key k hk (h.sub k hk') hp).symm⟩
    obtain ⟨t1, i1, i2, i3⟩ := insertMem_ok h.wf (v0 := v0) hne hpf
    have hv : value t1.leaves key = some ((m key).getD v0) := by
      rw [i3]
      split
      · rename_i hin
        have := (value_isSome t.leaves key).2 hin
        rw [h.val] at this ⊢
        cases hm : m key with
        | none => rw [hm] at this; cases this
        | some v => rfl
      · rename_i hin
        rw [value_append _ _ _ _ hin, if_pos rfl, ← h.val key]
        have : value t.leaves key = none := by
          cases hv : value t.leaves key with
          | none => rfl
          | some v => exact absurd ((value_isSome t.leaves key).1 (by rw [hv]; rfl)) hin
        rw [this]
        rfl
    obtain ⟨t2, s1, s2, s3, s4, s5⟩ := step_ok (v0 := v0) h.wf (.set key (f ((m key).getD v0)).2) S hS h.sub hk hne
    refine ⟨t2, ?_, s2, s3, ?_⟩
    · rw [i1]
      show (match value t1.leaves key with | none => Out.ub | some v => Out.ok ((f v).1, (⟨t1.root, setValue key (f v).2 t1.leaves⟩ : Trie V))) = _
      rw [hv]
      rw [step, setMem, i1] at s1
      have : (⟨t1.root, setValue key (f ((m key).getD v0)).2 t1.leaves⟩ : Trie V) = t2 := by
        injection s1
      show Out.ok (_, (⟨t1.root, setValue key (f ((m key).getD v0)).2 t1.leaves⟩ : Trie V)) = _
      rw [this]
    · intro k
      rw [s4]
      show (if k = key then _ else _) = _
      by_cases hkk : k = key
      · simp [hkk]
      · simp [hkk, h.val]

theorem fixed_prefix_free (n : Nat) : PrefixFree fun k : List UInt8 => k.length = n := by
  intro k k' h1 h2 hp
  exact hp.eq_of_length (by rw [h1, h2])

theorem str_prefix_free : PrefixFree IsStr := by
  intro k k' hk hk' hp
  obtain ⟨s, h0, rfl⟩ := hk
  obtain ⟨s', h0', rfl⟩ := hk'
  by_cases hl : s.length < s'.length
  · exfalso
    rw [List.prefix_iff_eq_take, List.take_append_of_le_length (by simp; omega)] at hp
    apply h0'
    have : (0 : UInt8) ∈ s'.take (s ++ [0]).length := by rw [← hp]; simp
    exact List.mem_of_mem_take this
  · have := hp.length_le
    simp at this
    exact hp.eq_of_length (by simp; omega)

/-! ## -unique -/

theorem statId_length (st : Stat) : (statId st).length = 16 := by
  rw [statId, List.length_append, bytesOf_length, bytesOf_length]

theorem statId_inj {a b : Stat} (ha : a.dev < 2 ^ 64 ∧ a.ino < 2 ^ 64) (hb : b.dev < 2 ^ 64 ∧ b.ino < 2 ^ 64) (h : statId a = statId b) : a = b := by
  obtain ⟨h1, h2⟩ := List.append_inj h (by rw [bytesOf_length, bytesOf_length])
  cases a
  cases b
  congr
  · exact bytesOf_inj (k := 8) ha.1 hb.1 h1
  · exact bytesOf_inj (k := 8) ha.2 hb.2 h2

/-- The trie remembers the files. -/
structure Seen (K : Nat) (t : Trie Bool) (before : List Visit) : Prop where
  holds : Holds K (fun k => k.length = 16) t (value t.leaves)
  yes : ∀ st ∈ seenIn before, value t.leaves (statId st) = some true
  no : ∀ k, (∀ st ∈ seenIn before, statId st ≠ k) → value t.leaves k = none

theorem seenIn_append (a b : List Visit) : seenIn (a ++ b) = seenIn a ++ seenIn b := List.filterMap_append ..

theorem mem_seenIn_fits {vs : List Visit} (h : ∀ v ∈ vs, Fits v) {st : Stat} (hs : st ∈ seenIn vs) : st.dev < 2 ^ 64 ∧ st.ino < 2 ^ 64 := by
  obtain ⟨v, hv, e⟩ := List.mem_filterMap.1 hs
  cases hm : v.memory with
  | false => rw [hm] at e; cases e
  | true => rw [hm] at e; exact h v hv st e

theorem fileUnique_ok {K : Nat} {t : Trie Bool} {before : List Visit} (h : Seen K t before) (hf : ∀ v ∈ before, Fits v) {v : Visit} (hv : Fits v) :
    ∃ t', fileUnique K t v = .ok (verdict before v, t') ∧ Seen K t' (before ++ [v]) := by
  unfold fileUnique verdict
  cases hs : v.stat with
  | none =>
    refine ⟨t, rfl, h.holds, ?_, ?_⟩
    · rw [seenIn_append]
      simpa [seenIn, hs] using h.yes
    · rw [seenIn_append]
      simpa [seenIn, hs] using h.no
  | some st =>
    dsimp only
    obtain ⟨t', w1, w2⟩ := withLeaf_ok (R := Bool × Action) (v0 := false) (fixed_prefix_free 16) h.holds (key := statId st) (statId_length st) (by intro e; have := statId_length st; rw [e] at this; cases this)
      v.memory (false, .continue) fun value => if value then ((false, .prune), value) else ((true, .continue), true)
    refine ⟨t', ?_, ?_⟩
    · rw [w1]
      congr 2
      by_cases hin : st ∈ seenIn before
      · rw [if_pos hin, h.yes st hin]
        simp
      · rw [if_neg hin, h.no (statId st) (fun st' h' e => hin (statId_inj (mem_seenIn_fits hf h') (hv st hs) e ▸ h'))]
        cases v.memory <;> rfl
    · have hval := w2.val
      refine ⟨⟨w2.wf, w2.sub, fun _ => rfl⟩, ?_, ?_⟩
      · intro st' hst'
        rw [seenIn_append] at hst'
        rw [hval]
        by_cases hin : st' ∈ seenIn before
        · have hy := h.yes st' hin
          by_cases he : statId st' = statId st
          · rw [he] at hy ⊢
            simp [hy]
          · rw [if_neg (fun hc => he hc.1)]; exact hy
        · have hst' : v.memory = true ∧ st' = st := by
            rcases List.mem_append.1 hst' with h' | h'
            · exact absurd h' hin
            · simp only [seenIn, List.filterMap_cons, hs, List.filterMap_nil] at h'
              cases hm : v.memory with
              | false => rw [hm] at h'; cases h'
              | true =>
                rw [hm] at h'
                simp at h'
                exact ⟨rfl, h'⟩
          obtain ⟨hm, rfl⟩ := hst'
          rw [h.no (statId st') (fun st2 h2 e => hin (statId_inj (mem_seenIn_fits hf h2) (hv st' hs) e ▸ h2))]
          simp [hm]
      · intro k hk
        rw [seenIn_append] at hk
        have hkb : ∀ st ∈ seenIn before, statId st ≠ k := fun st h' => hk st (List.mem_append.2 (.inl h'))
        have hno := h.no k hkb
        rw [hval]
        rw [if_neg]
        · exact hno
        · rintro ⟨rfl, hc⟩
          rw [hno] at hc
          simp at hc
          refine hk st ?_ rfl
          refine List.mem_append.2 (.inr ?_)
          simp [seenIn, hs, hc]

theorem uniques_ok {K : Nat} (vs before : List Visit) (hf : ∀ v ∈ before ++ vs, Fits v) {t : Trie Bool} (h : Seen K t before) :
    ∃ t', uniques K t vs = .ok ((List.range vs.length).map (fun i => verdict (before ++ vs.take i) (vs[i]?.getD ⟨none, false⟩)), t') ∧ Seen K t' (before ++ vs) := by
  induction vs generalizing before t with
  | nil => exact ⟨t, rfl, by rw [List.append_nil]; exact h⟩
  | cons v vs ih =>
    obtain ⟨t1, u1, u2⟩ := fileUnique_ok h (fun x hx => hf x (List.mem_append.2 (.inl hx))) (hf v (List.mem_append.2 (.inr (List.mem_cons_self ..))))
    obtain ⟨t2, r1, r2⟩ := ih (before ++ [v]) (by rw [List.append_assoc]; exact hf) u2
    refine ⟨t2, ?_, by rw [List.append_assoc] at r2; exact r2⟩
    rw [uniques, u1]
    show (uniques K t1 vs).bind _ = _
    rw [r1]
    show Out.ok (_ :: _, t2) = _
    congr 2
    rw [List.length_cons, List.range_succ_eq_map, List.map_cons, List.map_map]
    congr 1
    · simp
    · apply List.map_congr_left
      intro i _
      simp

/-! ## Users and groups -/

/-- A note in the cache. -/
def toVal {E : Type} : Note E → Option (Val E)
  | .none => none
  | .tried => some .null
  | .absent => some .missing
  | .entry e => some (.entry e)

def noteVal {E : Type} : Reply E → Val E
  | .found e => .entry e
  | .notFound => .missing
  | _ => .null

theorem getentLoop_ok {E : Type} (w : World E) : getentLoop w.reply w.sizes = (resultOf (uncached w), noteVal (uncached w)) := by
  unfold uncached
  generalize w.sizes = sizes
  induction sizes with
  | nil => rfl
  | cons n sizes ih =>
    rw [getentLoop, List.map_cons, List.find?_cons]
    cases hr : w.reply n with
    | found e => rfl
    | notFound => rfl
    | erange => exact ih
    | error n => rfl

theorem toVal_noteOf {E : Type} (r : Reply E) : toVal (noteOf r) = some (noteVal r) := by
  cases r <;> rfl

theorem getent_ok {E : Type} (note : Note E) (w : World E) :
    (if (w.leaf || (toVal note).isSome) = true then (getent w ((toVal note).getD .null)).1 else .null ENOMEM) = (answer note w).1 ∧
    (if (w.leaf || (toVal note).isSome) = true then some (getent w ((toVal note).getD .null)).2 else toVal note) = toVal (answer note w).2 := by
  cases note with
  | none =>
    cases hl : w.leaf with
    | false => simp [toVal, answer, hl]
    | true =>
      simp only [toVal, answer, hl, Bool.true_or, if_true, Option.getD_none, getent, getentLoop_ok, toVal_noteOf]
      exact ⟨trivial, (toVal_noteOf _).symm⟩
  | tried =>
    simp only [toVal, answer, Option.isSome_some, Bool.or_true, if_true, Option.getD_some, getent, getentLoop_ok, toVal_noteOf]
    exact ⟨trivial, (toVal_noteOf _).symm⟩
  | absent => simp [toVal, answer, getent]
  | entry e => simp [toVal, answer, getent]

structure CInv {E : Type} (K : Nat) (c : Cache E) (k : Known E) : Prop where
  names : Holds K IsStr c.byName (value c.byName.leaves)
  ids : Holds K (fun k => k.length = 4) c.byId (value c.byId.leaves)
  nval : ∀ s, (0 : UInt8) ∉ s → value c.byName.leaves (s ++ [0]) = toVal (k (.name s))
  ival : ∀ n, n < 2 ^ 32 → value c.byId.leaves (bytesOf 4 n) = toVal (k (.id n))

theorem cinv_empty {E : Type} (K : Nat) : CInv (E := E) K ⟨empty, empty⟩ fun _ => .none where
  names := ⟨wf_empty K, by simp [empty], fun _ => rfl⟩
  ids := ⟨wf_empty K, by simp [empty], fun _ => rfl⟩
  nval := fun _ _ => rfl
  ival := fun _ _ => rfl

theorem lookup_ok {E : Type} {K : Nat} {c : Cache E} {k : Known E} (h : CInv K c k) (l : Lookup) (w : World E) (hv : Valid (.look l w)) :
    ∃ c', lookupCache K c w l = .ok ((answer (k l) w).1, c') ∧ CInv K c' (learn k (.look l w)) := by
  cases l with
  | name s =>
    have hs : (0 : UInt8) ∉ s := hv
    obtain ⟨t', w1, w2⟩ := withLeaf_ok (R := Res E) (v0 := Val.null) str_prefix_free h.names (key := s ++ [0]) ⟨s, hs, rfl⟩ (by simp) w.leaf (.null ENOMEM) (getent w)
    have hold := h.nval s hs
    obtain ⟨g1, g2⟩ := getent_ok (k (.name s)) w
    refine ⟨⟨t', c.byId⟩, ?_, ?_⟩
    · rw [lookupCache, w1]
      rw [hold, g1]
      rfl
    · refine ⟨⟨w2.wf, w2.sub, fun _ => rfl⟩, h.ids, ?_, fun n hn => h.ival n hn⟩
      intro s' hs'
      show value t'.leaves _ = _
      rw [w2.val]
      by_cases he : s' = s
      · subst he
        show _ = toVal (if Lookup.name s' = Lookup.name s' then _ else _)
        rw [if_pos rfl, ← g2, hold]
        cases hc : (w.leaf || (toVal (k (.name s'))).isSome) <;> simp
      · have h1 : ¬ s' ++ [0] = s ++ [0] := fun e => he (List.append_cancel_right e)
        rw [if_neg (fun hc => h1 hc.1)]
        show _ = toVal (if Lookup.name s' = Lookup.name s then _ else _)
        rw [if_neg (fun e => he (by injection e))]
        exact h.nval s' hs'
  | id n =>
    have hn : n < 2 ^ 32 := hv
    obtain ⟨t', w1, w2⟩ := withLeaf_ok (R := Res E) (v0 := Val.null) (fixed_prefix_free 4) h.ids (key := bytesOf 4 n) (bytesOf_length 4 n) (by intro e; have := bytesOf_length 4 n; rw [e] at this; cases this) w.leaf (.null ENOMEM) (getent w)
    have hold := h.ival n hn
    obtain ⟨g1, g2⟩ := getent_ok (k (.id n)) w
    refine ⟨⟨c.byName, t'⟩, ?_, ?_⟩
    · rw [lookupCache, w1]
      rw [hold, g1]
      rfl
    · refine ⟨h.names, ⟨w2.wf, w2.sub, fun _ => rfl⟩, fun s hs => h.nval s hs, ?_⟩
      intro n' hn'
      show value t'.leaves _ = _
      rw [w2.val]
      by_cases he : n' = n
      · subst he
        show _ = toVal (if Lookup.id n' = Lookup.id n' then _ else _)
        rw [if_pos rfl, ← g2, hold]
        cases hc : (w.leaf || (toVal (k (.id n'))).isSome) <;> simp
      · have h1 : ¬ bytesOf 4 n' = bytesOf 4 n := fun e => he (bytesOf_inj (k := 4) hn' hn e)
        rw [if_neg (fun hc => h1 hc.1)]
        show _ = toVal (if Lookup.id n' = Lookup.id n then _ else _)
        rw [if_neg (fun e => he (by injection e))]
        exact h.ival n' hn'

theorem runOps_ok {E : Type} {K : Nat} (ops : List (Spec.Memo.Op E)) (hv : ∀ op ∈ ops, Valid op) {c : Cache E} {k : Known E} (h : CInv K c k) : ∃ c', runOps K c ops = .ok (answers k ops, c') := by
  induction ops generalizing c k with
  | nil => exact ⟨c, rfl⟩
  | cons op ops ih =>
    cases op with
    | flush => exact ih (fun o ho => hv o (List.mem_cons_of_mem _ ho)) (cinv_empty K)
    | look l w =>
      obtain ⟨c1, l1, l2⟩ := lookup_ok h l w (hv _ (List.mem_cons_self ..))
      obtain ⟨c2, r1⟩ := ih (fun o ho => hv o (List.mem_cons_of_mem _ ho)) l2
      refine ⟨c2, ?_⟩
      rw [runOps, l1]
      show (runOps K c1 ops).bind _ = _
      rw [r1]
      rfl

end Verif.Memo
