import Verif.Lemmas.TrieTop
/-!
# C05–C08: the byte-string trie

`run K v0 empty ops` executes a history of updates with the code of src/trie.c, starting from
an empty trie; `K + 1` is `OFFSET_MAX` (48 bits wide on 64-bit machines, 16 bits on 32-bit
ones), and the theorems hold for every value of it.  `denote ops` is the finite map the
history denotes and `live ops` its live keys in insertion order (`Verif.Spec.Trie`).  The
outcome `.ok` also says that no assertion fails and no key is read out of bounds.
-/
namespace Verif.Props
open Verif.Trie Verif.Spec.Trie

/-- **C05.** Over any prefix-free set of nonempty keys, after any history of assignments and
removals, looking up any key at all gives what the finite map gives. -/
theorem C05_trie_is_finite_map {V : Type} (K : Nat) (v0 : V) (ops : List (Op V))
    (hpf : PrefixFree fun k => ∃ op ∈ ops, op.key = k) (hne : ∀ op ∈ ops, op.key ≠ []) :
    ∃ t, run K v0 empty ops = .ok t ∧ ∀ k, getMem t k = .ok (denote ops k) := by
  obtain ⟨t, h1, h2, h3, h4, h5⟩ := run_ok (K := K) (v0 := v0) _ hpf ops empty (wf_empty K) (by simp [empty])
    (fun op ho => ⟨⟨op, ho, rfl⟩, hne op ho⟩)
  refine ⟨t, h1, ?_⟩
  intro k
  have hv : value (empty : Trie V).leaves = fun _ => none := by funext x; rfl
  have h4' := h4 k
  rw [hv] at h4'
  unfold getMem
  rw [findMem_ok h2 k]
  simp only [Out.bind_ok']
  by_cases hm : k ∈ t.leaves.map (·.1)
  · simp only [hm, if_true]; rw [h4']; rfl
  · simp only [hm, if_false]
    have : value t.leaves k = none := by
      cases hx : value t.leaves k with
      | none => rfl
      | some x =>
        have := (value_isSome t.leaves k).1 (by rw [hx]; rfl)
        exact absurd this hm
    rw [h4'] at this
    rw [denote, this]

/-- NUL-terminated strings are prefix-free. -/
theorem strings_prefix_free (S : List UInt8 → Prop) (h : ∀ k, S k → IsStr k) : PrefixFree S := by
  intro k k' hk hk' hp
  obtain ⟨s, h0, rfl⟩ := h k hk
  obtain ⟨s', h0', rfl⟩ := h k' hk'
  by_cases hl : s.length < s'.length
  · exfalso
    rw [List.prefix_iff_eq_take, List.take_append_of_le_length (by simp; omega)] at hp
    apply h0'
    have : (0 : UInt8) ∈ s'.take (s ++ [0]).length := by rw [← hp]; simp
    exact List.mem_of_mem_take this
  · have := hp.length_le
    simp at this
    exact hp.eq_of_length (by simp; omega)

/-- **C05**, for C strings: the keys need no further condition. -/
theorem C05_trie_is_finite_map_strings {V : Type} (K : Nat) (v0 : V) (ops : List (Op V))
    (hs : ∀ op ∈ ops, IsStr op.key) :
    ∃ t, run K v0 empty ops = .ok t ∧ ∀ k, getMem t k = .ok (denote ops k) := by
  apply C05_trie_is_finite_map
  · apply strings_prefix_free
    rintro k ⟨op, ho, rfl⟩
    exact hs op ho
  · intro op ho
    obtain ⟨s, _, e⟩ := hs op ho
    rw [e]; simp

/-- **C05**, for keys of one fixed size, such as the file identities of `-unique`. -/
theorem C05_trie_is_finite_map_fixed {V : Type} (K : Nat) (v0 : V) (ops : List (Op V)) (n : Nat) (hn : 0 < n)
    (hs : ∀ op ∈ ops, op.key.length = n) :
    ∃ t, run K v0 empty ops = .ok t ∧ ∀ k, getMem t k = .ok (denote ops k) := by
  apply C05_trie_is_finite_map
  · rintro k k' ⟨op, ho, rfl⟩ ⟨op', ho', rfl⟩ hp
    exact hp.eq_of_length (by rw [hs op ho, hs op' ho'])
  · intro op ho h
    have := hs op ho
    rw [h] at this
    simp at this
    omega

/-- A lookup as a plain value, for the examples. -/
def lookup (r : Out (Trie Nat)) (k : List UInt8) : Out (Option Nat) := r.bind fun t => getMem t k

/-- The history of the examples: "ab", "abc", "b" and "abd" are set, "abc" is removed, "ab" is
set again. -/
def exTrieOps : List (Op Nat) :=
  [.set [97, 98, 0] 1, .set [97, 98, 99, 0] 2, .set [98, 0] 3, .set [97, 98, 100, 0] 4, .remove [97, 98, 99, 0], .set [97, 98, 0] 5]

theorem exTrieOps_str : ∀ op ∈ exTrieOps, IsStr op.key := by
  intro op ho
  simp only [exTrieOps, List.mem_cons, List.not_mem_nil, or_false] at ho
  rcases ho with rfl | rfl | rfl | rfl | rfl | rfl
  · exact ⟨[97, 98], by decide, rfl⟩
  · exact ⟨[97, 98, 99], by decide, rfl⟩
  · exact ⟨[98], by decide, rfl⟩
  · exact ⟨[97, 98, 100], by decide, rfl⟩
  · exact ⟨[97, 98, 99], by decide, rfl⟩
  · exact ⟨[97, 98], by decide, rfl⟩

example : ∃ t, run K64 0 empty exTrieOps = .ok t ∧ getMem t [97, 98, 0] = .ok (some 5) ∧
    getMem t [97, 98, 99, 0] = .ok none ∧ getMem t [98, 0] = .ok (some 3) := by
  obtain ⟨t, h1, h2⟩ := C05_trie_is_finite_map_strings K64 0 exTrieOps exTrieOps_str
  exact ⟨t, h1, (h2 _).trans (by decide), (h2 _).trans (by decide), (h2 _).trans (by decide)⟩

example : ∃ t, run K64 0 empty [Op.set [1, 2] 7, .set [1, 3] 8, .remove [1, 2]] = .ok t ∧ getMem t [1, 3] = .ok (some 8) := by
  obtain ⟨t, h1, h2⟩ := C05_trie_is_finite_map_fixed K64 0 [Op.set [1, 2] 7, .set [1, 3] 8, .remove [1, 2]] 2 (by decide) (by decide)
  exact ⟨t, h1, (h2 _).trans (by decide)⟩

/-- Prefix-freeness is needed: setting a proper prefix of a stored key silently overwrites the
value of the longer key, and the shorter one is not found. -/
theorem C05_counterexample_prefix :
    ∃ t, run K64 0 empty [Op.set [1, 2] 7, .set [1] 8] = .ok t ∧
      getMem t [1, 2] = .ok (some 8) ∧ getMem t [1] = .ok none := by
  refine ⟨⟨some (.leaf [1, 2]), [([1, 2], 8)]⟩, ?_, ?_, ?_⟩
  · have h : mismatch64 [1, 2] [1] = 2 := by rw [mismatch64_eq]; rfl
    show (step K64 0 ⟨some (.leaf [1, 2]), [([1, 2], 7)]⟩ (.set [1] 8)).bind _ = _
    simp [step, setMem, insertMem, rep, h, run, setValue]
  · simp [getMem, findMem, rep, value]
  · simp [getMem, findMem, rep]

/-- The live keys are exactly the ones the map is defined on. -/
theorem live_spec {V : Type} (ops : List (Op V)) :
    (live ops).Nodup ∧ ∀ k, k ∈ live ops ↔ denote ops k ≠ none := by
  have key : ∀ (ops : List (Op V)) (l : List (List UInt8)) (m : List UInt8 → Option V), l.Nodup → (∀ k, k ∈ l ↔ m k ≠ none) →
      (ops.foldl Op.live l).Nodup ∧ ∀ k, k ∈ ops.foldl Op.live l ↔ ops.foldl Op.apply m k ≠ none := by
    intro ops
    induction ops with
    | nil => intro l m h1 h2; exact ⟨h1, h2⟩
    | cons op ops ih =>
      intro l m h1 h2
      rw [List.foldl_cons, List.foldl_cons]
      cases op with
      | set k v =>
        refine ih _ _ ?_ ?_
        · rw [Op.live]
          split
          · exact h1
          · rename_i hk
            rw [List.nodup_append]
            refine ⟨h1, by simp, ?_⟩
            intro a ha b hb
            simp at hb
            subst hb
            rintro rfl
            exact hk ha
        · intro x
          show _ ↔ (if x = k then some v else m x) ≠ none
          rw [Op.live]
          by_cases e : x = k
          · subst e
            by_cases hx : x ∈ l <;> simp [hx]
          · by_cases hx : k ∈ l <;> simp [hx, e, h2]
      | remove k =>
        refine ih _ _ ?_ ?_
        · rw [Op.live]; exact h1.filter _
        · intro x
          show _ ↔ (if x = k then none else m x) ≠ none
          rw [Op.live]
          by_cases e : x = k <;> simp [e, h2]
  exact key ops [] (fun _ => none) (by simp) (by simp)

/-- **C08.** `for_trie()` walks the leaf list: it holds each live key exactly once (`live_spec`),
oldest insertion first, with its current value. -/
theorem C08_iteration_in_insertion_order {V : Type} (K : Nat) (v0 : V) (ops : List (Op V))
    (hpf : PrefixFree fun k => ∃ op ∈ ops, op.key = k) (hne : ∀ op ∈ ops, op.key ≠ []) :
    ∃ t, run K v0 empty ops = .ok t ∧ t.leaves.map (·.1) = live ops ∧ (live ops).Nodup ∧
      (∀ k, k ∈ live ops ↔ denote ops k ≠ none) ∧ ∀ x ∈ t.leaves, denote ops x.1 = some x.2 := by
  obtain ⟨t, h1, h2, h3, h4, h5⟩ := run_ok (K := K) (v0 := v0) _ hpf ops empty (wf_empty K) (by simp [empty])
    (fun op ho => ⟨⟨op, ho, rfl⟩, hne op ho⟩)
  refine ⟨t, h1, h5, (live_spec ops).1, (live_spec ops).2, ?_⟩
  intro x hx
  have hv : value (empty : Trie V).leaves = fun _ => none := by funext x; rfl
  have h4' := h4 x.1
  rw [hv] at h4'
  rw [denote, ← h4', value]
  have hnd := h2.nodup
  clear h1 h2 h3 h4 h5 h4'
  generalize t.leaves = l at hx hnd
  induction l with
  | nil => simp at hx
  | cons y ys ih =>
    rw [List.map_cons, List.nodup_cons] at hnd
    rw [List.find?_cons]
    rcases List.mem_cons.1 hx with rfl | hx
    · simp
    · have : y.1 ≠ x.1 := by
        intro e
        apply hnd.1
        rw [e]
        exact List.mem_map_of_mem hx
      have hb : (y.1 == x.1) = false := by simpa using this
      rw [hb]
      exact ih hx hnd.2

example : live exTrieOps = [[97, 98, 0], [98, 0], [97, 98, 100, 0]] := by decide

example : ∃ t, run K64 0 empty exTrieOps = .ok t ∧ t.leaves.map (·.1) = [[97, 98, 0], [98, 0], [97, 98, 100, 0]] := by
  have hpf : PrefixFree fun k => ∃ op ∈ exTrieOps, op.key = k :=
    strings_prefix_free _ (by rintro k ⟨op, ho, rfl⟩; exact exTrieOps_str op ho)
  obtain ⟨t, h1, h2, _⟩ := C08_iteration_in_insertion_order K64 0 exTrieOps hpf (by decide)
  exact ⟨t, h1, h2⟩

/-- **C07.** `trie_find_postfix()` returns a live key that starts with the query if there is
one, and nothing otherwise. -/
theorem C07_postfix_search {V : Type} (K : Nat) (v0 : V) (ops : List (Op V))
    (hpf : PrefixFree fun k => ∃ op ∈ ops, op.key = k) (hne : ∀ op ∈ ops, op.key ≠ []) (q : List UInt8) :
    ∃ t r, run K v0 empty ops = .ok t ∧ findPostfix t.root q = .ok r ∧
      (∀ k, r = some k → denote ops k ≠ none ∧ q <+: k) ∧
      (r = none → ∀ k, denote ops k ≠ none → ¬ q <+: k) := by
  obtain ⟨t, h1, h2, h3, h4, h5⟩ := run_ok (K := K) (v0 := v0) _ hpf ops empty (wf_empty K) (by simp [empty])
    (fun op ho => ⟨⟨op, ho, rfl⟩, hne op ho⟩)
  have h5' : t.leaves.map (·.1) = live ops := h5
  have hl := (live_spec ops).2
  have hroot := h2.root
  have hiff : ∀ r : List UInt8, (r.length ≥ q.length && r.take q.length == q) = true ↔ q <+: r := by
    intro r
    rw [List.prefix_iff_eq_take]
    simp only [Bool.and_eq_true, decide_eq_true_eq, beq_iff_eq]
    constructor
    · intro h; exact h.2.symm
    · intro h
      refine ⟨?_, h.symm⟩
      have := congrArg List.length h
      simp at this
      omega
  cases hr : t.root with
  | none =>
    rw [hr] at hroot
    dsimp only at hroot
    refine ⟨t, none, h1, by rw [hr]; rfl, by simp, ?_⟩
    intro _ k hk
    rw [← hl, ← h5', hroot] at hk
    simp at hk
  | some p =>
    rw [hr] at hroot
    dsimp only at hroot
    obtain ⟨hI, hk⟩ := hroot
    have hk' : ∀ k, k ∈ Verif.Trie.keys p ↔ denote ops k ≠ none := by
      intro k; rw [hk, h5', hl]
    by_cases hex : ∃ k ∈ Verif.Trie.keys p, q <+: k
    · obtain ⟨r, hr1, hr2, hr3⟩ := rep_prefix (K := K) (List.prefix_append q [0]) p 0 hI hex
      refine ⟨t, some r, h1, ?_, ?_, by simp⟩
      · rw [hr, findPostfix, hr3]
        simp only [Out.bind_ok', (hiff r).2 hr2, if_true]
      · intro k hk
        injection hk with hk
        subst hk
        exact ⟨(hk' r).1 hr1, hr2⟩
    · obtain ⟨r, hr1, hr3⟩ := rep_mem (q ++ [0]) p 0 hI
      refine ⟨t, none, h1, ?_, by simp, ?_⟩
      · rw [hr, findPostfix, hr3]
        have : ¬ (r.length ≥ q.length && r.take q.length == q) = true := by
          rw [hiff]; intro h; exact hex ⟨r, hr1, h⟩
        simp only [Out.bind_ok', this, Bool.false_eq_true, if_false]
      · intro _ k hk hq
        exact hex ⟨k, (hk' k).2 hk, hq⟩

example : ∃ t r, run K64 0 empty exTrieOps = .ok t ∧ findPostfix t.root [97] = .ok r ∧ r ≠ none := by
  have hpf : PrefixFree fun k => ∃ op ∈ exTrieOps, op.key = k :=
    strings_prefix_free _ (by rintro k ⟨op, ho, rfl⟩; exact exTrieOps_str op ho)
  obtain ⟨t, r, h1, h2, _, h3⟩ := C07_postfix_search K64 0 exTrieOps hpf (by decide) [97]
  exact ⟨t, r, h1, h2, fun e => h3 e [97, 98, 0] (by decide) (by decide)⟩

/-- The comment on `trie_find_postfix()` (src/trie.h) promises the *shortest* such leaf; the
code returns the one it reaches first.  With "abcd" and "abe" stored, searching for "a" gives
"abcd". -/
theorem C07_counterexample_shortest :
    ∃ t, run K64 0 empty [Op.set [97, 98, 99, 100, 0] 1, .set [97, 98, 101, 0] 2] = .ok t ∧
      findPostfix t.root [97] = .ok (some [97, 98, 99, 100, 0]) := by
  have h : mismatch64 [97, 98, 99, 100, 0] [97, 98, 101, 0] = 5 := by rw [mismatch64_eq]; rfl
  have hj : jump K64 [97, 98, 99, 100, 0] [97, 98, 101, 0] 0 5 =
      .ok (.node (bit 5 ||| bit 3) 5 [.leaf [97, 98, 99, 100, 0], .leaf [97, 98, 101, 0]]) := by
    rw [jump, if_neg (by decide)]; rfl
  refine ⟨⟨some (.node (bit 5 ||| bit 3) 5 [.leaf [97, 98, 99, 100, 0], .leaf [97, 98, 101, 0]]),
    [([97, 98, 99, 100, 0], 1), ([97, 98, 101, 0], 2)]⟩, ?_, by rfl⟩
  show (step K64 0 ⟨some (.leaf [97, 98, 99, 100, 0]), [([97, 98, 99, 100, 0], 1)]⟩ (.set [97, 98, 101, 0] 2)).bind _ = _
  simp [step, setMem, insertMem, rep, h, run, insertAt, hj, setValue]

/-- **C06.** Among C strings, `trie_find_prefix()` returns the longest live string that is a
prefix of the query, and nothing if no live string is. -/
theorem C06_longest_prefix {V : Type} (K : Nat) (v0 : V) (ops : List (Op V)) (hs : ∀ op ∈ ops, IsStr op.key) (q : List UInt8) :
    ∃ t r, run K v0 empty ops = .ok t ∧ findPrefix t.root q = .ok r ∧
      (∀ k, r = some k → ∃ s, k = s ++ [0] ∧ denote ops k ≠ none ∧ s <+: q ∧
        ∀ s', denote ops (s' ++ [0]) ≠ none → s' <+: q → s'.length ≤ s.length) ∧
      (r = none → ∀ s, denote ops (s ++ [0]) ≠ none → ¬ s <+: q) := by
  have hpf : PrefixFree fun k => ∃ op ∈ ops, op.key = k :=
    strings_prefix_free _ (by rintro k ⟨op, ho, rfl⟩; exact hs op ho)
  have hne : ∀ op ∈ ops, op.key ≠ [] := by
    intro op ho
    obtain ⟨s, _, e⟩ := hs op ho
    rw [e]; simp
  obtain ⟨t, h1, h2, h3, h4, h5⟩ := run_ok (K := K) (v0 := v0) _ hpf ops empty (wf_empty K) (by simp [empty])
    (fun op ho => ⟨⟨op, ho, rfl⟩, hne op ho⟩)
  have h5' : t.leaves.map (·.1) = live ops := h5
  have hl := (live_spec ops).2
  have hroot := h2.root
  cases hr : t.root with
  | none =>
    rw [hr] at hroot
    dsimp only at hroot
    refine ⟨t, none, h1, by rw [hr]; rfl, by simp, ?_⟩
    intro _ k hk
    rw [← hl, ← h5', hroot] at hk
    simp at hk
  | some p =>
    rw [hr] at hroot
    dsimp only at hroot
    obtain ⟨hI, hk⟩ := hroot
    have hk' : ∀ k, k ∈ Verif.Trie.keys p ↔ denote ops k ≠ none := by
      intro k; rw [hk, h5', hl]
    have hstr : ∀ k ∈ Verif.Trie.keys p, IsStr k := by
      intro k hkp
      obtain ⟨op, ho, e⟩ := h3 k ((hk k).1 hkp)
      rw [← e]; exact hs op ho
    obtain ⟨res, e1, e2⟩ := prefixLoop_ok (K := K) (q := q) p 0 none 0 hI hstr (by
      intro k hkp
      obtain ⟨s, _, rfl⟩ := hstr k hkp
      simp)
    refine ⟨t, res, h1, by rw [hr, findPrefix, e1], ?_, ?_⟩
    · intro k hres
      rcases e2 with ⟨e, _⟩ | ⟨k', hk1, ⟨s, rfl, hg⟩, e, hmax⟩
      · rw [e] at hres; exact absurd hres (by simp)
      · rw [e] at hres
        injection hres with hres
        subst hres
        refine ⟨s, rfl, (hk' _).1 hk1, hg, ?_⟩
        intro s' hs' hp
        have := hmax (s' ++ [0]) ((hk' _).2 hs') ⟨s', rfl, hp⟩
        simpa using this
    · intro hres s hs' hp
      rcases e2 with ⟨e, hno⟩ | ⟨k', _, _, e, _⟩
      · exact hno (s ++ [0]) ((hk' _).2 hs') ⟨s, rfl, hp⟩
      · rw [e] at hres; exact absurd hres (by simp)

/-- With "ab", "b" and "abd" live, the longest prefix of "abc" is "ab". -/
example : ∃ t, run K64 0 empty exTrieOps = .ok t ∧ findPrefix t.root [97, 98, 99] = .ok (some [97, 98, 0]) := by
  obtain ⟨t, r, h1, h2, h3, h4⟩ := C06_longest_prefix K64 0 exTrieOps exTrieOps_str [97, 98, 99]
  cases r with
  | none => exact absurd (by decide : [(97 : UInt8), 98] <+: [97, 98, 99]) (h4 rfl [97, 98] (by decide))
  | some k =>
    obtain ⟨s, rfl, hd, hp, hmax⟩ := h3 k rfl
    refine ⟨t, h1, ?_⟩
    rw [h2]
    have h5 := hmax [97, 98] (by decide) (by decide)
    have h6 := hp.length_le
    simp at h5 h6
    rw [List.prefix_iff_eq_take] at hp
    rcases (by omega : s.length = 2 ∨ s.length = 3) with hl | hl
    · rw [hl] at hp; rw [hp]; rfl
    · rw [hl] at hp
      rw [hp] at hd
      exact absurd (by decide : denote exTrieOps ([97, 98, 99].take 3 ++ [0]) = none) hd

end Verif.Props
