import Verif.Model.Trie
/-!
# Invariants of the trie
-/
namespace Verif.Trie

theorem Ptr.ind {P : Ptr → Prop} (hl : ∀ k, P (.leaf k))
    (hn : ∀ m o cs, (∀ c ∈ cs, P c) → P (.node m o cs)) : ∀ p, P p := by
  intro p
  apply Ptr.rec (motive_1 := P) (motive_2 := fun cs => ∀ c ∈ cs, P c)
  · exact hl
  · intro m o cs h; exact hn m o cs h
  · simp
  · intro c cs hc hcs d hd
    rcases List.mem_cons.1 hd with rfl | h
    · exact hc
    · exact hcs d h

@[simp] theorem Out.bind_ok' {α β} (a : α) (f : α → Out β) : Out.bind (.ok a) f = f a := rfl

/-! ### Bitmaps -/

/-- The nibbles present in a bitmap, in order. -/
def bits (map : BitVec 16) : List Nat := (List.range 16).filter fun i => map.getLsbD i

theorem countOnes_eq (map : BitVec 16) : countOnes map = (bits map).length := by
  simp [countOnes, bits, List.countP_eq_length_filter]

theorem getLsbD_bit : ∀ n < 16, ∀ i < 16, (bit n).getLsbD i = decide (i = n) := by decide
theorem getLsbD_below : ∀ n < 16, ∀ i < 16, (bit n - 1).getLsbD i = decide (i < n) := by decide

theorem has_eq {map : BitVec 16} {n : Nat} (hn : n < 16) : has map n = map.getLsbD n := by
  unfold has
  cases h : map.getLsbD n with
  | true =>
    simp only [ne_eq, decide_eq_true_eq]
    intro h0
    have : (map &&& bit n).getLsbD n = (0 : BitVec 16).getLsbD n := by rw [h0]
    simp [getLsbD_bit n hn n hn, h] at this
  | false =>
    simp only [ne_eq, decide_eq_false_iff_not, Decidable.not_not]
    apply BitVec.eq_of_getLsbD_eq
    intro i hi
    rw [BitVec.getLsbD_and, getLsbD_bit n hn i hi]
    by_cases hin : i = n
    · subst hin; simp [h]
    · simp [hin]

theorem mem_bits {map : BitVec 16} {n : Nat} : n ∈ bits map ↔ n < 16 ∧ map.getLsbD n = true := by
  simp [bits]

theorem has_iff {map : BitVec 16} {n : Nat} (hn : n < 16) : has map n = true ↔ n ∈ bits map := by
  rw [has_eq hn, mem_bits]; simp [hn]

theorem range_split {n : Nat} (hn : n < 16) : List.range 16 = List.range n ++ n :: (List.range' (n + 1) (15 - n)) := by
  revert hn; revert n; decide

theorem bits_split (map : BitVec 16) {n : Nat} (hn : n < 16) :
    ∃ A B, A.length = index map n ∧ A.length = index (map ||| bit n) n ∧ (∀ m ∈ A, m < n) ∧ (∀ m ∈ B, n < m) ∧
      (has map n = true → bits map = A ++ n :: B) ∧ (has map n = false → bits map = A ++ B) ∧
      bits (map ||| bit n) = A ++ n :: B ∧ bits (map &&& ~~~ bit n) = A ++ B := by
  refine ⟨(List.range n).filter (fun i => map.getLsbD i), (List.range' (n + 1) (15 - n)).filter (fun i => map.getLsbD i),
    ?_, ?_, ?_, ?_, ?_, ?_, ?_, ?_⟩
  · unfold index countOnes
    rw [range_split hn, List.countP_append, List.countP_cons, List.countP_eq_length_filter]
    have h1 : (List.range n).filter (fun i => (map &&& (bit n - 1)).getLsbD i) = (List.range n).filter (fun i => map.getLsbD i) := by
      apply List.filter_congr
      intro i hi
      have : i < n := List.mem_range.1 hi
      rw [BitVec.getLsbD_and, getLsbD_below n hn i (by omega)]
      simp [this]
    have h2 : (List.range' (n + 1) (15 - n)).countP (fun i => (map &&& (bit n - 1)).getLsbD i) = 0 := by
      rw [List.countP_eq_zero]
      intro i hi
      rw [List.mem_range'_1] at hi
      rw [BitVec.getLsbD_and, getLsbD_below n hn i (by omega)]
      simp; omega
    have h3 : (map &&& (bit n - 1)).getLsbD n = false := by
      rw [BitVec.getLsbD_and, getLsbD_below n hn n hn]; simp
    rw [h1, h2, h3]; simp
  · unfold index countOnes
    rw [range_split hn, List.countP_append, List.countP_cons, List.countP_eq_length_filter]
    have h1 : (List.range n).filter (fun i => ((map ||| bit n) &&& (bit n - 1)).getLsbD i) = (List.range n).filter (fun i => map.getLsbD i) := by
      apply List.filter_congr
      intro i hi
      have : i < n := List.mem_range.1 hi
      rw [BitVec.getLsbD_and, BitVec.getLsbD_or, getLsbD_below n hn i (by omega), getLsbD_bit n hn i (by omega)]
      have h' : i ≠ n := by omega
      simp [this, h']
    have h2 : (List.range' (n + 1) (15 - n)).countP (fun i => ((map ||| bit n) &&& (bit n - 1)).getLsbD i) = 0 := by
      rw [List.countP_eq_zero]
      intro i hi
      rw [List.mem_range'_1] at hi
      rw [BitVec.getLsbD_and, getLsbD_below n hn i (by omega)]
      have : ¬ i < n := by omega
      simp [this]
    have h3 : ((map ||| bit n) &&& (bit n - 1)).getLsbD n = false := by
      rw [BitVec.getLsbD_and, getLsbD_below n hn n hn]; simp
    rw [h1, h2, h3]; simp
  · intro m hm; simp at hm; exact hm.1
  · intro m hm; simp [List.mem_range'_1] at hm; omega
  · intro h
    rw [has_eq hn] at h
    unfold bits
    rw [range_split hn, List.filter_append, List.filter_cons, if_pos h]
  · intro h
    rw [has_eq hn] at h
    unfold bits
    rw [range_split hn, List.filter_append, List.filter_cons, if_neg (by simp [h])]
  · unfold bits
    rw [range_split hn, List.filter_append, List.filter_cons, if_pos (by simp [getLsbD_bit n hn n hn])]
    congr 1
    · apply List.filter_congr
      intro i hi
      have : i < n := List.mem_range.1 hi
      have h' : i ≠ n := by omega
      rw [BitVec.getLsbD_or, getLsbD_bit n hn i (by omega)]; simp [h']
    · congr 1
      apply List.filter_congr
      intro i hi
      rw [List.mem_range'_1] at hi
      have h' : i ≠ n := by omega
      rw [BitVec.getLsbD_or, getLsbD_bit n hn i (by omega)]; simp [h']
  · have key : ∀ i, i < 16 → i ≠ n → (map &&& ~~~ bit n).getLsbD i = map.getLsbD i := by
      intro i hi h'
      rw [BitVec.getLsbD_and, BitVec.getLsbD_not, getLsbD_bit n hn i hi]; simp [h', hi]
    unfold bits
    rw [range_split hn, List.filter_append, List.filter_cons, if_neg (by simp [BitVec.getLsbD_not, getLsbD_bit n hn n hn])]
    congr 1
    · apply List.filter_congr
      intro i hi
      have : i < n := List.mem_range.1 hi
      exact key i (by omega) (by omega)
    · apply List.filter_congr
      intro i hi
      rw [List.mem_range'_1] at hi
      exact key i (by omega) (by omega)

theorem bits_bit : ∀ n < 16, bits (bit n) = [n] := by decide
theorem bits_pair {a b : Nat} (ha : a < 16) (hb : b < 16) (h : a ≠ b) :
    bits (bit a ||| bit b) = if a > b then [b, a] else [a, b] := by
  revert h; revert hb; revert b; revert ha; revert a; decide

/-! ### Nibbles -/

/-- The nibble at an offset (0 beyond the end). -/
def nib (k : Key) (o : Nat) : Nat := ((k.getD (o / 2) 0).toNat >>> (4 * ((o + 1) % 2))) % 16

theorem nib_lt (k : Key) (o : Nat) : nib k o < 16 := Nat.mod_lt _ (by decide)

theorem nibble_eq {k : Key} {o : Nat} (h : o < 2 * k.length) : nibble k o = .ok (nib k o) := by
  unfold nibble nib
  have : o / 2 < k.length := by omega
  simp [this]

/-- Two nibbles determine a byte. -/
theorem byte_eq {a b : UInt8} (h1 : (a.toNat >>> 4) % 16 = (b.toNat >>> 4) % 16) (h0 : (a.toNat >>> 0) % 16 = (b.toNat >>> 0) % 16) : a = b := by
  apply UInt8.toNat_inj.1
  have := a.toNat_lt
  have := b.toNat_lt
  simp only [Nat.shiftRight_eq_div_pow] at h1 h0
  omega

theorem nib_even (k : Key) (j : Nat) : nib k (2 * j) = ((k.getD j 0).toNat >>> 4) % 16 := by
  unfold nib
  have h1 : 2 * j / 2 = j := by omega
  have h2 : (2 * j + 1) % 2 = 1 := by omega
  rw [h1, h2]

theorem nib_odd (k : Key) (j : Nat) : nib k (2 * j + 1) = ((k.getD j 0).toNat >>> 0) % 16 := by
  unfold nib
  have h1 : (2 * j + 1) / 2 = j := by omega
  have h2 : (2 * j + 1 + 1) % 2 = 0 := by omega
  rw [h1, h2]

/-- Keys that agree on nibbles agree on bytes. -/
theorem getD_of_nib {k k' : Key} {n j : Nat} (h : ∀ i < 2 * n, nib k i = nib k' i) (hj : j < n) : k.getD j 0 = k'.getD j 0 := by
  apply byte_eq
  · rw [← nib_even, ← nib_even]; exact h _ (by omega)
  · rw [← nib_odd, ← nib_odd]; exact h _ (by omega)

theorem take_of_nib {k k' : Key} {n : Nat} (hk : n ≤ k.length) (hk' : n ≤ k'.length) (h : ∀ i < 2 * n, nib k i = nib k' i) :
    k.take n = k'.take n := by
  apply List.ext_getElem
  · simp; omega
  · intro i h1 h2
    simp at h1 h2 ⊢
    have := getD_of_nib h (j := i) (by omega)
    have g1 : i < k.length := by omega
    have g2 : i < k'.length := by omega
    simpa [List.getD_eq_getElem?_getD, List.getElem?_eq_getElem g1, List.getElem?_eq_getElem g2] using this

theorem nib_take {k k' : Key} {n i : Nat} (h : k.take n = k'.take n) (hi : i < 2 * n) : nib k i = nib k' i := by
  unfold nib
  have hi' : i / 2 < n := by omega
  have : k[i / 2]? = k'[i / 2]? := by
    have := congrArg (fun l => l[i / 2]?) h
    simpa [List.getElem?_take, hi'] using this
  simp [List.getD_eq_getElem?_getD, this]

theorem eq_of_nib {k k' : Key} (hl : k.length = k'.length) (h : ∀ i < 2 * k.length, nib k i = nib k' i) : k = k' := by
  have := take_of_nib (n := k.length) (Nat.le_refl _) (by omega) h
  rwa [List.take_length, hl, List.take_length] at this

/-! ### mismatch -/

/-- The first differing nibble, one byte at a time. -/
def mismatch : Key → Key → Nat
  | a :: as, b :: bs =>
    if a = b then 2 + mismatch as bs
    else if a.toNat / 16 = b.toNat / 16 then 1 else 0
  | _, _ => 0

theorem mismatch_agree : ∀ (a b : Key) (i : Nat), i < mismatch a b → nib a i = nib b i := by
  intro a
  induction a with
  | nil => intro b i h; simp [mismatch] at h
  | cons x xs ih =>
    intro b i h
    cases b with
    | nil => simp [mismatch] at h
    | cons y ys =>
      rw [mismatch] at h
      split at h
      · rename_i hxy
        subst hxy
        by_cases hi : i < 2
        · unfold nib
          have : i / 2 = 0 := by omega
          rw [this]; simp
        · have := ih ys (i - 2) (by omega)
          unfold nib at this ⊢
          have h1 : i / 2 = (i - 2) / 2 + 1 := by omega
          have h2 : (i + 1) % 2 = (i - 2 + 1) % 2 := by omega
          rw [h1, h2]
          simpa using this
      · split at h
        · rename_i hd
          have : i = 0 := by omega
          subst this
          have h1 := x.toNat_lt
          have h2 := y.toNat_lt
          simp only [nib, Nat.shiftRight_eq_div_pow]
          simp
          omega
        · omega

theorem mismatch_le : ∀ (a b : Key), mismatch a b ≤ 2 * a.length ∧ mismatch a b ≤ 2 * b.length := by
  intro a
  induction a with
  | nil => intro b; simp [mismatch]
  | cons x xs ih =>
    intro b
    cases b with
    | nil => simp [mismatch]
    | cons y ys =>
      have := ih ys
      rw [mismatch]
      simp only [List.length_cons]
      split
      · omega
      · split <;> omega

/-- Within both keys the mismatch is a real difference; otherwise one is a prefix of the other. -/
theorem mismatch_differ : ∀ (a b : Key),
    (mismatch a b < 2 * a.length → mismatch a b < 2 * b.length → nib a (mismatch a b) ≠ nib b (mismatch a b)) := by
  intro a
  induction a with
  | nil => intro b h; simp at h
  | cons x xs ih =>
    intro b h1 h2
    cases b with
    | nil => simp at h2
    | cons y ys =>
      rw [mismatch] at h1 h2 ⊢
      simp only [List.length_cons] at h1 h2
      split
      · rename_i hxy
        rw [if_pos hxy] at h1 h2
        have := ih ys (by omega) (by omega)
        unfold nib at this ⊢
        have e1 : (2 + mismatch xs ys) / 2 = mismatch xs ys / 2 + 1 := by omega
        have e2 : (2 + mismatch xs ys + 1) % 2 = (mismatch xs ys + 1) % 2 := by omega
        rw [e1, e2]
        simpa using this
      · rename_i hxy
        split
        · rename_i hd
          intro h
          apply hxy
          apply UInt8.toNat_inj.1
          simp only [nib, Nat.shiftRight_eq_div_pow] at h
          simp at h
          omega
        · rename_i hd
          have h1 := x.toNat_lt
          have h2 := y.toNat_lt
          simp only [nib, Nat.shiftRight_eq_div_pow]
          simp
          omega

theorem mismatch_prefix {a b : Key} (h : mismatch a b ≥ 2 * a.length) : a <+: b := by
  have h1 := mismatch_le a b
  rw [List.prefix_iff_eq_take]
  have := take_of_nib (k := a) (k' := b) (n := a.length) (Nat.le_refl _) (by omega) (fun i hi => mismatch_agree a b i (by omega))
  rwa [List.take_length] at this

theorem mismatch_comm : ∀ (a b : Key), mismatch a b = mismatch b a := by
  intro a
  induction a with
  | nil => intro b; cases b <;> rfl
  | cons x xs ih =>
    intro b
    cases b with
    | nil => rfl
    | cons y ys =>
      rw [mismatch, mismatch, ih ys]
      by_cases h : x = y
      · simp [h]
      · have h' : y ≠ x := fun e => h e.symm
        rw [if_neg h, if_neg h']
        by_cases h2 : x.toNat / 16 = y.toNat / 16
        · rw [if_pos h2, if_pos h2.symm]
        · rw [if_neg h2, if_neg (fun e => h2 e.symm)]

/-! ### The invariant -/

mutual
/-- The keys of the leaves below a pointer. -/
def keys : Ptr → List Key
  | .leaf k => [k]
  | .node _ _ cs => keysL cs
/-- The keys below several pointers. -/
def keysL : List Ptr → List Key
  | [] => []
  | c :: cs => keys c ++ keysL cs
end

theorem keysL_append (a b : List Ptr) : keysL (a ++ b) = keysL a ++ keysL b := by
  induction a with
  | nil => simp [keysL]
  | cons c cs ih => simp [keysL, ih]

/-- Below the root, node offsets are positive. -/
def Pos : Ptr → Prop
  | .leaf _ => True
  | .node _ o _ => 0 < o

mutual
/-- The structural invariant of a subtrie hanging off a node at absolute offset `off`. -/
def Inv (K : Nat) : Nat → Ptr → Prop
  | _, .leaf _ => True
  | off, .node map o cs => o ≤ K + 1 ∧ cs ≠ [] ∧
      (∀ k ∈ keysL cs, off + o < 2 * k.length) ∧
      (∀ k ∈ keysL cs, ∀ k' ∈ keysL cs, ∀ i < off + o, nib k i = nib k' i) ∧
      InvL K (off + o) (bits map) cs
/-- Each child holds keys with its nibble. -/
def InvL (K : Nat) : Nat → List Nat → List Ptr → Prop
  | _, [], [] => True
  | off, n :: ns, c :: cs => ((∀ k ∈ keys c, nib k off = n) ∧ Pos c) ∧ Inv K off c ∧ InvL K off ns cs
  | _, _, _ => False
end

theorem InvL_append {K off : Nat} {A B : List Nat} {cs : List Ptr} (h : InvL K off (A ++ B) cs) :
    ∃ X Y, cs = X ++ Y ∧ X.length = A.length ∧ InvL K off A X ∧ InvL K off B Y := by
  induction A generalizing cs with
  | nil => exact ⟨[], cs, rfl, rfl, by simp [InvL], h⟩
  | cons n ns ih =>
    cases cs with
    | nil => simp [InvL] at h
    | cons c cs =>
      rw [List.cons_append, InvL] at h
      obtain ⟨X, Y, rfl, h1, h2, h3⟩ := ih h.2.2
      exact ⟨c :: X, Y, rfl, by simp [h1], by rw [InvL]; exact ⟨h.1, h.2.1, h2⟩, h3⟩

theorem InvL_append' {K off : Nat} {A B : List Nat} {X Y : List Ptr} (h1 : InvL K off A X) (h2 : InvL K off B Y) :
    InvL K off (A ++ B) (X ++ Y) := by
  induction A generalizing X with
  | nil =>
    cases X with
    | nil => exact h2
    | cons => simp [InvL] at h1
  | cons n ns ih =>
    cases X with
    | nil => simp [InvL] at h1
    | cons c cs =>
      rw [InvL] at h1
      rw [List.cons_append, List.cons_append, InvL]
      exact ⟨h1.1, h1.2.1, ih h1.2.2⟩

theorem InvL_cons {K off n : Nat} {B : List Nat} {cs : List Ptr} (h : InvL K off (n :: B) cs) :
    ∃ c Y, cs = c :: Y ∧ ((∀ k ∈ keys c, nib k off = n) ∧ Pos c) ∧ Inv K off c ∧ InvL K off B Y := by
  cases cs with
  | nil => simp [InvL] at h
  | cons c cs => rw [InvL] at h; exact ⟨c, cs, rfl, h⟩

theorem InvL_len {K off : Nat} {ns : List Nat} {cs : List Ptr} (h : InvL K off ns cs) : cs.length = ns.length := by
  induction ns generalizing cs with
  | nil => cases cs with
    | nil => rfl
    | cons => simp [InvL] at h
  | cons n ns ih =>
    obtain ⟨c, Y, rfl, _, _, h⟩ := InvL_cons h
    simp [ih h]

theorem InvL_nib {K off : Nat} {ns : List Nat} {cs : List Ptr} (h : InvL K off ns cs) : ∀ k ∈ keysL cs, nib k off ∈ ns := by
  induction ns generalizing cs with
  | nil => cases cs with
    | nil => simp [keysL]
    | cons => simp [InvL] at h
  | cons n ns ih =>
    obtain ⟨c, Y, rfl, h1, _, h⟩ := InvL_cons h
    intro k hk
    rw [keysL, List.mem_append] at hk
    rcases hk with hk | hk
    · simp [h1.1 k hk]
    · simp [ih h k hk]

theorem InvL_mem {K off : Nat} {ns : List Nat} {cs : List Ptr} (h : InvL K off ns cs) : ∀ c ∈ cs, Inv K off c := by
  induction ns generalizing cs with
  | nil => cases cs with
    | nil => simp
    | cons => simp [InvL] at h
  | cons n ns ih =>
    obtain ⟨c, Y, rfl, h1, h2, h⟩ := InvL_cons h
    intro d hd
    rcases List.mem_cons.1 hd with rfl | hd
    · exact h2
    · exact ih h d hd

/-- The child selected by a present nibble. -/
theorem child_split {K off n : Nat} {map : BitVec 16} {cs : List Ptr} (hn : n < 16) (h : InvL K off (bits map) cs)
    (hp : has map n = true) :
    ∃ A B X c Y, bits map = A ++ n :: B ∧ cs = X ++ c :: Y ∧ X.length = index map n ∧ X.length = A.length ∧
      InvL K off A X ∧ ((∀ k ∈ keys c, nib k off = n) ∧ Pos c) ∧ Inv K off c ∧ InvL K off B Y ∧
      bits (map &&& ~~~ bit n) = A ++ B ∧ (∀ m ∈ A, m ≠ n) ∧ (∀ m ∈ B, m ≠ n) := by
  obtain ⟨A, B, h1, _, hA, hB, h2, _, _, h4⟩ := bits_split map hn
  rw [h2 hp] at h
  obtain ⟨X, Z, rfl, e1, e2, e3⟩ := InvL_append h
  obtain ⟨c, Y, rfl, e4, e5, e6⟩ := InvL_cons e3
  refine ⟨A, B, X, c, Y, h2 hp, rfl, by omega, e1, e2, e4, e5, e6, h4, ?_, ?_⟩
  · intro m hm; have := hA m hm; omega
  · intro m hm; have := hB m hm; omega

theorem keys_ne {K : Nat} : ∀ (p : Ptr) (off : Nat), Inv K off p → keys p ≠ [] := by
  intro p
  induction p using Ptr.ind with
  | hl k => intro off _; simp [keys]
  | hn m o cs ih =>
    intro off h
    rw [Inv] at h
    cases cs with
    | nil => exact absurd rfl h.2.1
    | cons c cs =>
      rw [keys, keysL]
      have := ih c (by simp) (off + o) (InvL_mem h.2.2.2.2 c (by simp))
      simp [this]

/-! ### trie_representative -/

theorem repNth_append (key : Key) (off : Nat) (X Y : List Ptr) (c : Ptr) :
    repNth key off (X ++ c :: Y) X.length = rep key off c := by
  induction X with
  | nil => rw [List.nil_append, List.length_nil, repNth]
  | cons d X ih => rw [List.cons_append, List.length_cons, repNth]; exact ih

theorem rep_has {K off o : Nat} {map : BitVec 16} {cs : List Ptr} {key : Key} (h : InvL K (off + o) (bits map) cs)
    (hl : off + o < 2 * key.length) (hp : has map (nib key (off + o)) = true) :
    ∃ X c Y, cs = X ++ c :: Y ∧ X.length = index map (nib key (off + o)) ∧ Inv K (off + o) c ∧
      (∀ k ∈ keys c, nib k (off + o) = nib key (off + o)) ∧ rep key off (.node map o cs) = rep key (off + o) c := by
  obtain ⟨A, B, X, c, Y, _, rfl, h1, _, _, h2, h3, _⟩ := child_split (nib_lt key (off + o)) h hp
  refine ⟨X, c, Y, rfl, h1, h3, h2.1, ?_⟩
  rw [rep, repIndex, if_pos hl, nibble_eq hl]
  simp only [Out.bind_ok']
  rw [if_pos hp, ← h1]
  exact repNth_append key _ X Y c

theorem rep_else {K off o : Nat} {map : BitVec 16} {cs : List Ptr} {key : Key} (h : InvL K (off + o) (bits map) cs)
    (hne : cs ≠ []) (hp : off + o < 2 * key.length → has map (nib key (off + o)) = false) :
    ∃ c Y, cs = c :: Y ∧ Inv K (off + o) c ∧ rep key off (.node map o cs) = rep key (off + o) c := by
  cases cs with
  | nil => exact absurd rfl hne
  | cons c Y =>
    refine ⟨c, Y, rfl, InvL_mem h c (by simp), ?_⟩
    rw [rep, repIndex]
    split
    · rename_i hl
      rw [nibble_eq hl]
      simp only [Out.bind_ok', hp hl, Bool.false_eq_true, if_false]
      rw [repNth]
    · simp only [Out.bind_ok']
      rw [repNth]

theorem mem_keysL_mid {X Y : List Ptr} {c : Ptr} {k : Key} (h : k ∈ keys c) : k ∈ keysL (X ++ c :: Y) := by
  rw [keysL_append, keysL]; simp [h]

/-- The representative exists and is one of the keys. -/
theorem rep_mem {K : Nat} (key : Key) : ∀ (p : Ptr) (off : Nat), Inv K off p → ∃ r ∈ keys p, rep key off p = .ok r := by
  intro p
  induction p using Ptr.ind with
  | hl k => intro off _; exact ⟨k, by simp [keys], by rw [rep]⟩
  | hn m o cs ih =>
    intro off h
    rw [Inv] at h
    obtain ⟨_, hne, _, _, h⟩ := h
    by_cases hp : off + o < 2 * key.length ∧ has m (nib key (off + o)) = true
    · obtain ⟨X, c, Y, rfl, _, h1, _, h2⟩ := rep_has h hp.1 hp.2
      obtain ⟨r, hr, h3⟩ := ih c (by simp) (off + o) h1
      exact ⟨r, by rw [keys]; exact mem_keysL_mid hr, h2.trans h3⟩
    · obtain ⟨c, Y, rfl, h1, h2⟩ := rep_else (key := key) h hne (fun hl => by
        cases hh : has m (nib key (off + o))
        · rfl
        · exact absurd ⟨hl, hh⟩ hp)
      obtain ⟨r, hr, h3⟩ := ih c (by simp) (off + o) h1
      exact ⟨r, by rw [keys, keysL]; simp [hr], h2.trans h3⟩

/-- A stored key is its own representative. -/
theorem rep_self {K : Nat} (key : Key) : ∀ (p : Ptr) (off : Nat), Inv K off p → key ∈ keys p → rep key off p = .ok key := by
  intro p
  induction p using Ptr.ind with
  | hl k => intro off _ hk; simp [keys] at hk; rw [rep, hk]
  | hn m o cs ih =>
    intro off h hk
    rw [Inv] at h
    obtain ⟨_, hne, hlen, _, h⟩ := h
    rw [keys] at hk
    have hp : has m (nib key (off + o)) = true := (has_iff (nib_lt _ _)).2 (InvL_nib h key hk)
    obtain ⟨A, B, X, c, Y, hb, rfl, h1, hAX, hX, h2, h3, hY, _, hA, hB⟩ := child_split (nib_lt key (off + o)) h hp
    obtain ⟨X', c', Y', e, h1', h3', h2', h4⟩ := rep_has h (hlen key hk) hp
    have e' := List.append_inj e (by omega)
    obtain ⟨rfl, e''⟩ := e'
    simp only [List.cons.injEq] at e''
    obtain ⟨rfl, rfl⟩ := e''
    rw [h4]
    apply ih c (by simp) _ h3
    rw [keysL_append, keysL] at hk
    simp only [List.mem_append] at hk
    rcases hk with hk | hk | hk
    · exact absurd rfl (hA _ (InvL_nib hX key hk))
    · exact hk
    · exact absurd rfl (hB _ (InvL_nib hY key hk))

/-- Stored keys that agree on all nibbles of one are equal. -/
theorem findMem_spec {K : Nat} {p : Ptr} (h : Inv K 0 p) (key : Key) :
    findMem (some p) key = .ok (if key ∈ keys p then some key else none) := by
  unfold findMem
  by_cases hk : key ∈ keys p
  · simp [rep_self key p 0 h hk, hk]
  · obtain ⟨r, hr, h1⟩ := rep_mem key p 0 h
    simp only [h1, Out.bind_ok', hk, if_false]
    have : r ≠ key := fun e => hk (e ▸ hr)
    simp [this]

/-! ### Insertion -/

theorem inv_node {K off o : Nat} {m : BitVec 16} {cs : List Ptr} :
    Inv K off (.node m o cs) ↔ (o ≤ K + 1 ∧ cs ≠ [] ∧
      (∀ k ∈ keysL cs, off + o < 2 * k.length) ∧
      (∀ k ∈ keysL cs, ∀ k' ∈ keysL cs, ∀ i < off + o, nib k i = nib k' i) ∧
      InvL K (off + o) (bits m) cs) := by rw [Inv]

theorem shift_inv {K off mm : Nat} {p : Ptr} (h : Inv K off p) (h1 : off ≤ mm)
    (h2 : ∀ m o cs, p = .node m o cs → mm < off + o) :
    Inv K mm (shiftNode (mm - off) p) ∧ keys (shiftNode (mm - off) p) = keys p ∧ Pos (shiftNode (mm - off) p) := by
  cases p with
  | leaf k => exact ⟨by rw [shiftNode, Inv]; trivial, rfl, by rw [shiftNode, Pos]; trivial⟩
  | node m o cs =>
    have h3 := h2 m o cs rfl
    rw [inv_node] at h
    have e : mm + (o - (mm - off)) = off + o := by omega
    refine ⟨?_, by rw [shiftNode, keys, keys], by rw [shiftNode, Pos]; omega⟩
    rw [shiftNode, inv_node, e]
    exact ⟨by omega, h.2⟩

theorem split_ok {K off mm : Nat} {p : Ptr} {key r : Key} (h : Inv K off p) (h1 : off ≤ mm) (h2 : mm - off ≤ K + 1)
    (h3 : ∀ m o cs, p = .node m o cs → mm < off + o)
    (hk : ∀ k ∈ keys p, mm < 2 * k.length ∧ ∀ i ≤ mm, nib k i = nib r i)
    (hr : mm < 2 * r.length) (hkey : mm < 2 * key.length)
    (ha : ∀ i < mm, nib r i = nib key i) (hd : nib r mm ≠ nib key mm) :
    ∃ p', split p key r off mm = .ok p' ∧ Inv K off p' ∧ (∀ k, k ∈ keys p' ↔ k = key ∨ k ∈ keys p) ∧ (off < mm → Pos p') := by
  obtain ⟨s1, s2, s3⟩ := shift_inv h h1 h3
  unfold split
  rw [nibble_eq hr, nibble_eq hkey]
  simp only [Out.bind_ok', if_neg (Ne.symm hd)]
  refine ⟨_, rfl, ?_, ?_, ?_⟩
  · rw [inv_node, bits_pair (nib_lt _ _) (nib_lt _ _) (Ne.symm hd)]
    have e : off + (mm - off) = mm := by omega
    rw [e]
    refine ⟨h2, by split <;> simp, ?_, ?_, ?_⟩
    · intro k hk'
      have : k ∈ keys p ∨ k = key := by
        split at hk' <;> simpa [keysL, keys, s2, or_comm] using hk'
      rcases this with h | rfl
      · exact (hk k h).1
      · exact hkey
    · have key' : ∀ k, k ∈ keysL (if nib key mm > nib r mm then [shiftNode (mm - off) p, .leaf key] else [.leaf key, shiftNode (mm - off) p]) →
          ∀ i < mm, nib k i = nib r i := by
        intro k hk' i hi
        have : k ∈ keys p ∨ k = key := by
          split at hk' <;> simpa [keysL, keys, s2, or_comm] using hk'
        rcases this with h | rfl
        · exact (hk k h).2 i (by omega)
        · exact (ha i hi).symm
      intro k hk1 k' hk2 i hi
      rw [key' k hk1 i hi, key' k' hk2 i hi]
    · have c1 : (∀ k ∈ keys (shiftNode (mm - off) p), nib k mm = nib r mm) ∧ Pos (shiftNode (mm - off) p) := by
        refine ⟨?_, s3⟩
        rw [s2]
        intro k h; exact (hk k h).2 mm (by omega)
      have c2 : (∀ k ∈ keys (.leaf key), nib k mm = nib key mm) ∧ Pos (.leaf key) := by
        refine ⟨?_, by rw [Pos]; trivial⟩
        intro k h
        simp [keys] at h
        rw [h]
      have c3 : Inv K mm (.leaf key) := by rw [Inv]; trivial
      have c4 : InvL K mm [] [] := by rw [InvL]; trivial
      split
      · rw [InvL]; refine ⟨c1, s1, ?_⟩; rw [InvL]; exact ⟨c2, c3, c4⟩
      · rw [InvL]; refine ⟨c2, c3, ?_⟩; rw [InvL]; exact ⟨c1, s1, c4⟩
  · intro k
    rw [keys]
    split <;> simp [keysL, keys, s2, or_comm]
  · intro h; rw [Pos]; omega

theorem jump_ok {K : Nat} {leaf key : Key} {mm : Nat} (hr : mm < 2 * leaf.length) (hkey : mm < 2 * key.length)
    (ha : ∀ i < mm, nib leaf i = nib key i) (hd : nib leaf mm ≠ nib key mm) :
    ∀ (n off : Nat), mm - off = n → off ≤ mm →
    ∃ p', jump K leaf key off mm = .ok p' ∧ Inv K off p' ∧ (∀ k, k ∈ keys p' ↔ k = key ∨ k = leaf) ∧ (off < mm → Pos p') := by
  intro n
  induction n using Nat.strongRecOn with
  | _ n ih =>
    intro off hn hle
    rw [jump]
    by_cases hg : mm - off > K + 1
    · rw [if_pos hg, nibble_eq (by omega)]
      simp only [Out.bind_ok']
      obtain ⟨p, e1, e2, e3, e4⟩ := ih (mm - (off + (K + 1))) (by omega) (off + (K + 1)) rfl (by omega)
      rw [e1]
      simp only [Out.bind_ok']
      have hks : ∀ k ∈ keysL [p], k = key ∨ k = leaf := by
        intro k hk
        simp only [keysL, List.append_nil] at hk
        exact (e3 k).1 hk
      have hag : ∀ k ∈ keysL [p], ∀ i < mm, nib k i = nib leaf i := by
        intro k hk i hi
        rcases hks k hk with rfl | rfl
        · exact (ha i hi).symm
        · rfl
      refine ⟨_, rfl, ?_, ?_, ?_⟩
      · rw [inv_node, bits_bit _ (nib_lt _ _)]
        refine ⟨Nat.le_refl _, by simp, ?_, ?_, ?_⟩
        · intro k hk
          rcases hks k hk with rfl | rfl <;> omega
        · intro k hk k' hk' i hi
          rw [hag k hk i (by omega), hag k' hk' i (by omega)]
        · rw [InvL]
          refine ⟨⟨?_, e4 (by omega)⟩, e2, by rw [InvL]; trivial⟩
          intro k hk
          exact hag k (by simpa [keysL] using hk) _ (by omega)
      · intro k
        simp only [keys, keysL, List.append_nil]
        exact e3 k
      · intro _; rw [Pos]; omega
    · rw [if_neg hg]
      obtain ⟨p', e1, e2, e3, e4⟩ := split_ok (K := K) (off := off) (mm := mm) (p := .leaf leaf) (key := key) (r := leaf)
        (by rw [Inv]; trivial) hle (by omega) (by intro _ _ _ h; exact absurd h (by simp))
        (by intro k hk; simp [keys] at hk; rw [hk]; exact ⟨hr, fun _ _ => rfl⟩) hr hkey ha hd
      refine ⟨p', e1, e2, ?_, e4⟩
      intro k; rw [e3]; simp [keys]

theorem insertNth_append (K : Nat) (key r : Key) (mm off : Nat) (X Y : List Ptr) (c c' : Ptr)
    (h : insertAt K key r mm off c = .ok c') :
    insertNth K key r mm off (X ++ c :: Y) X.length = .ok (X ++ c' :: Y) := by
  induction X with
  | nil => rw [List.nil_append, List.length_nil, insertNth, h]; rfl
  | cons d X ih => rw [List.cons_append, List.length_cons, insertNth, ih]; rfl

theorem mem_mid {X Y : List Ptr} {c : Ptr} {k : Key} : k ∈ keysL (X ++ c :: Y) ↔ k ∈ keysL X ∨ k ∈ keys c ∨ k ∈ keysL Y := by
  rw [keysL_append, keysL]; simp

/-- The descent of an insertion. -/
theorem insertAt_ok {K : Nat} {key r : Key} {mm : Nat} (hr : mm < 2 * r.length) (hkey : mm < 2 * key.length)
    (ha : ∀ i < mm, nib r i = nib key i) (hd : nib r mm ≠ nib key mm) :
    ∀ (p : Ptr) (off : Nat), Inv K off p → off ≤ mm → r ∈ keys p → rep key off p = .ok r →
      ∃ p', insertAt K key r mm off p = .ok p' ∧ Inv K off p' ∧ (∀ k, k ∈ keys p' ↔ k = key ∨ k ∈ keys p) ∧
        (off < mm → Pos p → Pos p') := by
  intro p
  induction p using Ptr.ind with
  | hl k =>
    intro off _ hle hm _
    simp [keys] at hm
    subst hm
    obtain ⟨p', e1, e2, e3, e4⟩ := jump_ok (K := K) hr hkey ha hd _ off rfl hle
    exact ⟨p', by rw [insertAt, e1], e2, by simpa [keys] using e3, fun h _ => e4 h⟩
  | hn m o cs ih =>
    intro off h hle hm hrep
    have h0 := h
    rw [inv_node] at h
    obtain ⟨ho, hne, hlen, hag, hL⟩ := h
    rw [keys] at hm
    by_cases hgt : off + o > mm
    · obtain ⟨p', e1, e2, e3, e4⟩ := split_ok (key := key) (r := r) h0 hle (by omega)
        (by intro m' o' cs' e; injection e with _ e _; omega)
        (by intro k hk; rw [keys] at hk; have := hlen k hk; exact ⟨by omega, fun i hi => hag k hk r hm i (by omega)⟩)
        hr hkey ha hd
      refine ⟨p', ?_, e2, e3, fun h _ => e4 h⟩
      rw [insertAt, if_pos hgt, if_neg (by omega), e1]
    · have hn := nib_lt key (off + o)
      by_cases hp : has m (nib key (off + o)) = true
      · obtain ⟨A, B, X, c, Y, hb, rfl, hXi, hAX, hX, ⟨hc, hcp⟩, hci, hY, _, hA, hB⟩ := child_split hn hL hp
        obtain ⟨X', c', Y', e, h1', _, h2', h4⟩ := rep_has hL (by omega : off + o < 2 * key.length) hp
        have e' := List.append_inj e (by omega)
        obtain ⟨rfl, e''⟩ := e'
        simp only [List.cons.injEq] at e''
        obtain ⟨rfl, rfl⟩ := e''
        rw [h4] at hrep
        have hrc : r ∈ keys c := by
          obtain ⟨r', hr', e⟩ := rep_mem (K := K) key c (off + o) hci
          rw [hrep] at e
          injection e with e
          rw [e]; exact hr'
        have hlt : off + o < mm := by
          rcases Nat.lt_or_ge (off + o) mm with h | h
          · exact h
          · have : off + o = mm := by omega
            exact absurd (this ▸ hc r hrc) hd
        obtain ⟨c', e1, e2, e3, e4⟩ := ih c (by simp) (off + o) hci (by omega) hrc hrep
        have hmem : ∀ k, k ∈ keysL (X ++ c' :: Y) ↔ k = key ∨ k ∈ keysL (X ++ c :: Y) := by
          intro k
          rw [mem_mid, mem_mid, e3]
          constructor
          · rintro (h | (h | h) | h) <;> simp [h]
          · rintro (h | h | h | h) <;> simp [h]
        have hagr : ∀ k ∈ keysL (X ++ c' :: Y), ∀ i < off + o, nib k i = nib r i := by
          intro k hk i hi
          rcases (hmem k).1 hk with rfl | hk
          · exact (ha i (by omega)).symm
          · exact hag k hk r hm i hi
        refine ⟨.node m o (X ++ c' :: Y), ?_, ?_, ?_, fun _ h => h⟩
        · rw [insertAt, if_neg hgt, nibble_eq (by omega)]
          simp only [Out.bind_ok']
          rw [if_pos hp, if_pos hlt, ← hXi, insertNth_append _ _ _ _ _ _ _ _ _ e1]
          rfl
        · rw [inv_node]
          refine ⟨ho, by simp, ?_, ?_, ?_⟩
          · intro k hk
            rcases (hmem k).1 hk with rfl | hk
            · omega
            · exact hlen k hk
          · intro k hk k' hk' i hi
            rw [hagr k hk i hi, hagr k' hk' i hi]
          · rw [hb]
            refine InvL_append' hX ?_
            rw [InvL]
            refine ⟨⟨?_, e4 hlt hcp⟩, e2, hY⟩
            intro k hk
            rcases (e3 k).1 hk with rfl | hk
            · rfl
            · exact hc k hk
        · intro k; rw [keys, keys]; exact hmem k
      · have hp' : has m (nib key (off + o)) = false := by simpa using hp
        have heq : off + o = mm := by
          rcases Nat.lt_or_ge (off + o) mm with h | h
          · exfalso
            apply hp
            rw [has_iff hn, ← ha _ h]
            exact InvL_nib hL r hm
          · omega
        obtain ⟨A, B, h1, h1', hA, hB, _, h2, h3, h4⟩ := bits_split m hn
        rw [h2 hp'] at hL
        obtain ⟨X, Y, rfl, hXl, hX, hY⟩ := InvL_append hL
        have hins : (X ++ Y).insertIdx (index (m ||| bit (nib key (off + o))) (nib key (off + o))) (.leaf key) = X ++ .leaf key :: Y := by
          have : index (m ||| bit (nib key (off + o))) (nib key (off + o)) = X.length := by omega
          rw [this]
          clear this hX hY hXl hrep hm hL hag hlen hne h0 ih
          induction X with
          | nil => simp
          | cons x X ih => simp [ih]
        have hmem : ∀ k, k ∈ keysL (X ++ .leaf key :: Y) ↔ k = key ∨ k ∈ keysL (X ++ Y) := by
          intro k
          rw [mem_mid, keysL_append, keys]
          simp
          constructor
          · rintro (h | h | h) <;> simp [h]
          · rintro (h | h | h) <;> simp [h]
        have hagr : ∀ k ∈ keysL (X ++ .leaf key :: Y), ∀ i < off + o, nib k i = nib r i := by
          intro k hk i hi
          rcases (hmem k).1 hk with rfl | hk
          · exact (ha i (by omega)).symm
          · exact hag k hk r hm i hi
        refine ⟨.node (m ||| bit (nib key (off + o))) o (X ++ .leaf key :: Y), ?_, ?_, ?_, fun _ h => h⟩
        · rw [insertAt, if_neg hgt, nibble_eq (by omega)]
          simp only [Out.bind_ok']
          rw [if_neg hp, if_pos heq, nodeInsert, if_neg hp, hins]
        · rw [inv_node]
          refine ⟨ho, by simp, ?_, ?_, ?_⟩
          · intro k hk
            rcases (hmem k).1 hk with rfl | hk
            · omega
            · exact hlen k hk
          · intro k hk k' hk' i hi
            rw [hagr k hk i hi, hagr k' hk' i hi]
          · rw [h3]
            refine InvL_append' hX ?_
            rw [InvL]
            refine ⟨⟨?_, by rw [Pos]; trivial⟩, by rw [Inv]; trivial, hY⟩
            intro k hk
            simp [keys] at hk
            rw [hk]
        · intro k; rw [keys, keys]; exact hmem k

/-! ### Distinct keys -/

/-- Stored keys differ at a nibble that both have. -/
theorem inv_differ {K : Nat} : ∀ (p : Ptr) (off : Nat), Inv K off p → ∀ k ∈ keys p, ∀ k' ∈ keys p, k ≠ k' →
    ∃ i, i < 2 * k.length ∧ i < 2 * k'.length ∧ nib k i ≠ nib k' i := by
  intro p
  induction p using Ptr.ind with
  | hl k0 =>
    intro off _ k hk k' hk' hne
    simp [keys] at hk hk'
    exact absurd (hk.trans hk'.symm) hne
  | hn m o cs ih =>
    intro off h k hk k' hk' hne
    rw [inv_node] at h
    obtain ⟨ho, _, hlen, hag, hL⟩ := h
    rw [keys] at hk hk'
    by_cases hd : nib k (off + o) = nib k' (off + o)
    · have hp : has m (nib k (off + o)) = true := (has_iff (nib_lt _ _)).2 (InvL_nib hL k hk)
      obtain ⟨A, B, X, c, Y, hb, rfl, hXi, hAX, hX, ⟨hc, hcp⟩, hci, hY, _, hA, hB⟩ := child_split (nib_lt _ _) hL hp
      have key : ∀ x ∈ keysL (X ++ c :: Y), nib x (off + o) = nib k (off + o) → x ∈ keys c := by
        intro x hx hxn
        rcases mem_mid.1 hx with hx | hx | hx
        · exact absurd hxn (hA _ (InvL_nib hX x hx))
        · exact hx
        · exact absurd hxn (hB _ (InvL_nib hY x hx))
      exact ih c (by simp) (off + o) hci k (key k hk rfl) k' (key k' hk' hd.symm) hne
    · exact ⟨off + o, hlen k hk, hlen k' hk', hd⟩

/-! ### Removal -/

theorem removeNth_append (K : Nat) (key : Key) (off : Nat) (X Y : List Ptr) (c : Ptr) :
    removeNth K key off (X ++ c :: Y) X.length = removeAt K key off c := by
  induction X with
  | nil => rw [List.nil_append, List.length_nil, removeNth]
  | cons d X ih => rw [List.cons_append, List.length_cons, removeNth]; exact ih

theorem collapse_ok {K off o : Nat} {p p' : Ptr} (h : Inv K (off + o) p) (hp : Pos p) (hc : collapse K o p = some p') :
    Inv K off p' ∧ keys p' = keys p ∧ Pos p' := by
  cases p with
  | leaf k =>
    simp only [collapse, Option.some.injEq] at hc
    subst hc
    exact ⟨by rw [Inv]; trivial, rfl, hp⟩
  | node m o' cs =>
    rw [collapse] at hc
    split at hc
    · injection hc with hc
      subst hc
      rw [inv_node] at h
      rw [Pos] at hp
      refine ⟨?_, by rw [keys, keys], by rw [Pos]; omega⟩
      rw [inv_node]
      have e : off + (o' + o) = off + o + o' := by omega
      rw [e]
      exact ⟨by assumption, h.2⟩
    · exact absurd hc (by simp)

/-- What a removal leaves. -/
def RemOK (K off : Nat) (p : Ptr) (key : Key) : Removed → Prop
  | .gone => ∀ k, k ∈ keys p ↔ k = key
  | .kept p' => Inv K off p' ∧ (∀ k, k ∈ keys p' ↔ k ∈ keys p ∧ k ≠ key) ∧ (Pos p → Pos p')

/-- Dropping a child. -/
theorem removeChild_ok {K off o : Nat} {m : BitVec 16} {cs : List Ptr} {key : Key} {n : Nat} (hn : n < 16)
    (h : Inv K off (.node m o cs)) (h1 : countOnes m ≠ 1) (hp : has m n = true)
    (hc : ∀ c, cs[index m n]? = some c → ∀ k, k ∈ keys c ↔ k = key) (hkn : nib key (off + o) = n) :
    RemOK K off (.node m o cs) key (.kept (removeChild K m o cs n)) := by
  rw [inv_node] at h
  obtain ⟨ho, _, hlen, hag, hL⟩ := h
  obtain ⟨A, B, X, c, Y, hb, rfl, hXi, hAX, hX, ⟨hcn, hcp⟩, hci, hY, hb', hA, hB⟩ := child_split hn hL hp
  have hck : ∀ k, k ∈ keys c ↔ k = key := hc c (by rw [← hXi]; simp)
  have hnot : ∀ k, k ∈ keysL (X ++ Y) ↔ k ∈ keysL (X ++ c :: Y) ∧ k ≠ key := by
    intro k
    rw [mem_mid, keysL_append, List.mem_append, hck]
    constructor
    · rintro (h | h)
      · refine ⟨Or.inl h, ?_⟩
        rintro rfl
        exact hA _ (InvL_nib hX k h) hkn
      · refine ⟨Or.inr (Or.inr h), ?_⟩
        rintro rfl
        exact hB _ (InvL_nib hY k h) hkn
    · rintro ⟨h | h | h, hne⟩
      · exact Or.inl h
      · exact absurd h hne
      · exact Or.inr h
  have herase : (X ++ c :: Y).eraseIdx (index m n) = X ++ Y := by
    rw [← hXi, List.eraseIdx_append_of_length_le (Nat.le_refl _)]; simp
  have hcount : countOnes m = X.length + Y.length + 1 := by
    rw [countOnes_eq, ← InvL_len hL]; simp; omega
  have hrest : RemOK K off (.node m o (X ++ c :: Y)) key (.kept (.node (m &&& ~~~ bit n) o (X ++ Y))) := by
    refine ⟨?_, ?_, fun h => h⟩
    · rw [inv_node, hb']
      refine ⟨ho, ?_, ?_, ?_, InvL_append' hX hY⟩
      · intro h
        rw [List.append_eq_nil_iff] at h
        rw [h.1, h.2] at hcount
        exact h1 hcount
      · intro k hk; exact hlen k ((hnot k).1 hk).1
      · intro k hk k' hk' i hi; exact hag k ((hnot k).1 hk).1 k' ((hnot k').1 hk').1 i hi
    · intro k; rw [keys, keys]; exact hnot k
  unfold removeChild
  dsimp only
  rw [herase]
  by_cases h2 : countOnes m = 2
  · rw [if_pos h2]
    -- one other child
    have hother : ∃ d, X ++ Y = [d] ∧ (X ++ c :: Y)[index m n ^^^ 1]? = some d ∧ Pos d ∧ Inv K (off + o) d := by
      rw [← hXi]
      rcases X with _ | ⟨x, X⟩
      · rcases Y with _ | ⟨y, Y⟩
        · simp at hcount; omega
        · have : Y = [] := by
            simp at hcount
            exact List.length_eq_zero_iff.1 (by omega)
          subst this
          refine ⟨y, rfl, rfl, ?_, InvL_mem hY y (by simp)⟩
          cases B with
          | nil => simp [InvL] at hY
          | cons b B => rw [InvL] at hY; exact hY.1.2
      · have hX' : X = [] := by
          simp at hcount
          exact List.length_eq_zero_iff.1 (by omega)
        have hY' : Y = [] := by
          simp at hcount
          exact List.length_eq_zero_iff.1 (by omega)
        subst hX' hY'
        refine ⟨x, rfl, by simp, ?_, InvL_mem hX x (by simp)⟩
        cases A with
        | nil => simp [InvL] at hX
        | cons b B => rw [InvL] at hX; exact hX.1.2
    obtain ⟨d, hd1, hd2, hd3, hd4⟩ := hother
    rw [hd2]
    dsimp only
    cases hcl : collapse K o d with
    | none => simpa using hrest
    | some p' =>
      obtain ⟨e1, e2, e3⟩ := collapse_ok hd4 hd3 hcl
      simp only [Option.getD_some]
      refine ⟨e1, ?_, fun _ => e3⟩
      intro k
      rw [e2, keys, ← hnot, hd1]
      simp [keysL]
  · rw [if_neg h2]
    exact hrest

theorem removeAt_ok {K : Nat} {key : Key} : ∀ (p : Ptr) (off : Nat), Inv K off p → key ∈ keys p →
    ∃ x, removeAt K key off p = .ok x ∧ RemOK K off p key x := by
  intro p
  induction p using Ptr.ind with
  | hl k =>
    intro off _ hm
    simp [keys] at hm
    subst hm
    exact ⟨.gone, by rw [removeAt, if_pos rfl], by intro k; simp [keys]⟩
  | hn m o cs ih =>
    intro off h hm
    have h0 := h
    rw [inv_node] at h
    obtain ⟨ho, _, hlen, hag, hL⟩ := h
    rw [keys] at hm
    have hn := nib_lt key (off + o)
    have hp : has m (nib key (off + o)) = true := (has_iff (nib_lt _ _)).2 (InvL_nib hL key hm)
    obtain ⟨A, B, X, c, Y, hb, rfl, hXi, hAX, hX, ⟨hc, hcp⟩, hci, hY, hb', hA, hB⟩ := child_split hn hL hp
    have hmc : key ∈ keys c := by
      rcases mem_mid.1 hm with hx | hx | hx
      · exact absurd rfl (hA _ (InvL_nib hX key hx))
      · exact hx
      · exact absurd rfl (hB _ (InvL_nib hY key hx))
    obtain ⟨x, e1, e2⟩ := ih c (by simp) (off + o) hci hmc
    refine ⟨removeStep K m o (X ++ c :: Y) (nib key (off + o)) x, ?_, ?_⟩
    · rw [removeAt, nibble_eq (hlen key hm)]
      simp only [Out.bind_ok']
      rw [if_pos hp, ← hXi, removeNth_append, e1]
      rfl
    · have hget : (X ++ c :: Y)[index m (nib key (off + o))]? = some c := by rw [← hXi]; simp
      cases x with
      | gone =>
        rw [removeStep]
        by_cases h1 : countOnes m = 1
        · rw [if_pos h1]
          have : X = [] ∧ Y = [] := by
            rw [countOnes_eq, ← InvL_len hL] at h1
            simp at h1
            constructor <;> exact List.length_eq_zero_iff.1 (by omega)
          obtain ⟨rfl, rfl⟩ := this
          intro k
          rw [keys]
          simpa [keysL] using e2 k
        · rw [if_neg h1]
          exact removeChild_ok hn h0 h1 hp (by intro c' hc'; rw [hget] at hc'; injection hc' with hc'; subst hc'; exact e2) rfl
      | kept c' =>
        obtain ⟨g1, g2, g3⟩ := e2
        rw [removeStep]
        have hset : (X ++ c :: Y).set (index m (nib key (off + o))) c' = X ++ c' :: Y := by
          rw [← hXi]; simp
        rw [hset]
        have hmem : ∀ k, k ∈ keysL (X ++ c' :: Y) ↔ k ∈ keysL (X ++ c :: Y) ∧ k ≠ key := by
          intro k
          rw [mem_mid, mem_mid, g2]
          constructor
          · rintro (h | h | h)
            · refine ⟨Or.inl h, ?_⟩
              rintro rfl
              exact hA _ (InvL_nib hX k h) rfl
            · exact ⟨Or.inr (Or.inl h.1), h.2⟩
            · refine ⟨Or.inr (Or.inr h), ?_⟩
              rintro rfl
              exact hB _ (InvL_nib hY k h) rfl
          · rintro ⟨h | h | h, hne⟩
            · exact Or.inl h
            · exact Or.inr (Or.inl ⟨h, hne⟩)
            · exact Or.inr (Or.inr h)
        refine ⟨?_, ?_, fun h => h⟩
        · rw [inv_node]
          refine ⟨ho, by simp, ?_, ?_, ?_⟩
          · intro k hk; exact hlen k ((hmem k).1 hk).1
          · intro k hk k' hk' i hi; exact hag k ((hmem k).1 hk).1 k' ((hmem k').1 hk').1 i hi
          · rw [hb]
            refine InvL_append' hX ?_
            rw [InvL]
            refine ⟨⟨?_, g3 hcp⟩, g1, hY⟩
            intro k hk
            exact hc k ((g2 k).1 hk).1
        · intro k; rw [keys, keys]; exact hmem k

end Verif.Trie
