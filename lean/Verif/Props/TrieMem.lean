import Verif.Lemmas.TrieMem
import Verif.Props.Trie
/-!
# C95: the byte-string trie when memory runs out

`runM K v0 empty ops` executes a history of updates with the code of src/trie.c, like `run` in
C05–C08; here every update comes with the answers of the memory allocator to the requests it
makes, and the result also says which updates reported success.  `succeeded ops ok` are those
updates, and `denote`/`live` the map and the live keys they denote (`Verif.Spec.Trie`).
-/
namespace Verif.Props
open Verif.Trie Verif.Spec.Trie

/-- **C95.** However memory runs out in the course of a history, lookups give what the updates
that reported success denote, and iteration visits their live keys in insertion order. -/
theorem C95_contents {V : Type} (K : Nat) (v0 : V) (ops : List (Op V × Mem))
    (hpf : PrefixFree fun k => ∃ x ∈ ops, x.1.key = k) (hne : ∀ x ∈ ops, x.1.key ≠ []) :
    ∃ t ok, runM K v0 empty ops = .ok (t, ok) ∧ ok.length = ops.length ∧
      (∀ k, getMem t k = .ok (denote (succeeded ops ok) k)) ∧
      t.leaves.map (·.1) = live (succeeded ops ok) := by
  obtain ⟨t, ok, h1, hl, h2, h3, h4, h5⟩ := runM_ok (K := K) (v0 := v0) _ hpf ops empty (wf_empty K) (by simp [empty])
    (fun op ho => ⟨⟨op, ho, rfl⟩, hne op ho⟩)
  refine ⟨t, ok, h1, hl, ?_, h5⟩
  intro k
  have hv : value (empty : Trie V).leaves = fun _ => none := by funext x; rfl
  have h4' := h4 k
  rw [hv] at h4'
  unfold getMem
  rw [findMem_ok h2 k]
  simp only [Out.bind_ok']
  by_cases hm : k ∈ t.leaves.map (·.1)
  · simp only [hm, if_true]; rw [h4']; rfl
  · simp only [hm, if_false]
    have : value t.leaves k = none := by
      cases hx : value t.leaves k with
      | none => rfl
      | some x =>
        have := (value_isSome t.leaves k).1 (by rw [hx]; rfl)
        exact absurd this hm
    rw [h4'] at this
    rw [denote, this]

/-- **C95**, which updates fail: after any such history, an update fails only if it assigns to a
key that is not live and some request for memory is refused; removals and assignments to live
keys always succeed. -/
theorem C95_failures {V : Type} (K : Nat) (v0 : V) (ops : List (Op V × Mem)) (op : Op V) (mem : Mem)
    (hpf : PrefixFree fun k => ∃ x ∈ ops ++ [(op, mem)], x.1.key = k) (hne : ∀ x ∈ ops ++ [(op, mem)], x.1.key ≠ []) :
    ∃ t ok t' b, runM K v0 empty ops = .ok (t, ok) ∧ stepM K v0 t mem op = .ok (t', b) ∧
      (b = false → (∃ k v, op = .set k v ∧ denote (succeeded ops ok) k = none) ∧ (∃ i, mem i = false) ∧
        (∀ k, getMem t' k = getMem t k) ∧ t'.leaves = t.leaves) := by
  obtain ⟨t, ok, h1, hl, h2, h3, h4, h5⟩ := runM_ok (K := K) (v0 := v0) _ hpf ops empty (wf_empty K) (by simp [empty])
    (fun x hx => ⟨⟨x, List.mem_append_left _ hx, rfl⟩, hne x (List.mem_append_left _ hx)⟩)
  obtain ⟨t', b, e1, e2⟩ := stepM_ok (v0 := v0) (mem := mem) h2 op _ hpf h3 ⟨(op, mem), by simp, rfl⟩
    (hne (op, mem) (by simp))
  refine ⟨t, ok, t', b, h1, e1, ?_⟩
  rintro rfl
  rcases e2 with ⟨hf, _⟩ | ⟨_, f1, f2, f3, ⟨v, f4⟩, f5⟩
  · cases hf
  refine ⟨⟨op.key, v, f4, ?_⟩, ?_, ?_, f2⟩
  · have hv : value (empty : Trie V).leaves = fun _ => none := by funext x; rfl
    have h4' := h4 op.key
    rw [hv] at h4'
    rw [denote, ← h4']
    cases hx : value t.leaves op.key with
    | none => rfl
    | some x =>
      have := (value_isSome t.leaves op.key).1 (by rw [hx]; rfl)
      exact absurd this f3
  · apply Classical.byContradiction
    intro hno
    apply f5
    intro i
    cases hi : mem i with
    | true => rfl
    | false => exact absurd ⟨i, hi⟩ hno
  · intro k
    unfold getMem
    rw [findMem_ok f1, findMem_ok h2, f2]

/-- **C95**, the other direction: an assignment to a new key does need memory, and fails without. -/
theorem C95_refused {V : Type} (K : Nat) (v0 : V) (ops : List (Op V × Mem)) (k : List UInt8) (v : V) (mem : Mem)
    (hpf : PrefixFree fun k' => ∃ x ∈ ops ++ [(Op.set k v, mem)], x.1.key = k')
    (hne : ∀ x ∈ ops ++ [(Op.set k v, mem)], x.1.key ≠ []) (hmem : ∀ i, mem i = false) :
    ∃ t ok, runM K v0 empty ops = .ok (t, ok) ∧
      (denote (succeeded ops ok) k = none → ∃ t', stepM K v0 t mem (.set k v) = .ok (t', false)) := by
  obtain ⟨t, ok, h1, hl, h2, h3, h4, h5⟩ := runM_ok (K := K) (v0 := v0) _ hpf ops empty (wf_empty K) (by simp [empty])
    (fun x hx => ⟨⟨x, List.mem_append_left _ hx, rfl⟩, hne x (List.mem_append_left _ hx)⟩)
  refine ⟨t, ok, h1, ?_⟩
  intro hden
  obtain ⟨t', b, e1, e2⟩ := stepM_ok (v0 := v0) (mem := mem) h2 (.set k v) _ hpf h3 ⟨(.set k v, mem), by simp, rfl⟩
    (hne (.set k v, mem) (by simp))
  rcases e2 with ⟨rfl, _⟩ | ⟨rfl, _⟩
  · exfalso
    obtain ⟨t1, g1, _⟩ := insertMem_ok (v0 := v0) h2 (hne (.set k v, mem) (by simp)) (fun k' hk' =>
      ⟨fun hp => hpf k' k (h3 k' hk') ⟨(.set k v, mem), by simp, rfl⟩ hp,
       fun hp => (hpf k k' ⟨(.set k v, mem), by simp, rfl⟩ (h3 k' hk') hp).symm⟩)
    have hm : k ∉ t.leaves.map (·.1) := by
      intro hm
      have h5' : t.leaves.map (·.1) = live (succeeded ops ok) := h5
      rw [h5', (live_spec _).2] at hm
      exact hm hden
    have hni := insertMemM_refused (mem := mem) (v0 := v0) h2 (hne (.set k v, mem) (by simp)) hm g1 (hmem 0)
    rw [stepM, setMemM] at e1
    rw [show insertMemM K mem t k v0 = .ok (none, t) from hni] at e1
    simp [assignM] at e1
  · exact ⟨t', e1⟩

/-- **C95**, searches by prefix: whatever failed before, a longest-prefix search and a search for
a key that starts with the query give what they give on the keys that are live. -/
theorem C95_searches {V : Type} (K : Nat) (v0 : V) (ops : List (Op V × Mem)) (hs : ∀ x ∈ ops, IsStr x.1.key) (q : List UInt8) :
    ∃ t ok r r', runM K v0 empty ops = .ok (t, ok) ∧ findPrefix t.root q = .ok r ∧ findPostfix t.root q = .ok r' ∧
      (∀ k, r = some k → ∃ s, k = s ++ [0] ∧ k ∈ live (succeeded ops ok) ∧ s <+: q ∧
        ∀ s', s' ++ [0] ∈ live (succeeded ops ok) → s' <+: q → s'.length ≤ s.length) ∧
      (r = none → ∀ s, s ++ [0] ∈ live (succeeded ops ok) → ¬ s <+: q) ∧
      (∀ k, r' = some k → k ∈ live (succeeded ops ok) ∧ q <+: k) ∧
      (r' = none → ∀ k ∈ live (succeeded ops ok), ¬ q <+: k) := by
  have hpf : PrefixFree fun k => ∃ x ∈ ops, x.1.key = k :=
    strings_prefix_free _ (by rintro k ⟨x, hx, rfl⟩; exact hs x hx)
  obtain ⟨t, ok, h1, hl, h2, h3, h4, h5⟩ := runM_ok (K := K) (v0 := v0) _ hpf ops empty (wf_empty K) (by simp [empty])
    (fun x hx => ⟨⟨x, hx, rfl⟩, by obtain ⟨s, _, e⟩ := hs x hx; rw [e]; simp⟩)
  have h5' : t.leaves.map (·.1) = live (succeeded ops ok) := h5
  obtain ⟨r, a1, a2, a3⟩ := findPrefix_ok h2 (fun k hk => by obtain ⟨x, hx, e⟩ := h3 k hk; rw [← e]; exact hs x hx) q
  obtain ⟨r', b1, b2, b3⟩ := findPostfix_ok h2 q
  rw [h5'] at a2 a3 b2 b3
  exact ⟨t, ok, r, r', h1, a1, b1, a2, a3, b2, b3⟩

/-! ### Examples -/

/-- Offsets of at most one nibble, so that jump nodes are needed: "ab" is stored, storing "ac"
fails for want of the second jump node, removing and storing then work. -/
def exOom : List (Op Nat × Mem) :=
  [(.set [97, 98, 0] 1, fun _ => true), (.set [97, 99, 0] 2, fun i => i ≠ 2), (.set [97, 98, 0] 3, fun _ => false),
   (.set [97, 99, 0] 4, fun _ => true), (.remove [97, 98, 0], fun _ => false)]

theorem exOom_str : ∀ x ∈ exOom, IsStr x.1.key := by
  intro x hx
  simp only [exOom, List.mem_cons, List.not_mem_nil, or_false] at hx
  rcases hx with rfl | rfl | rfl | rfl | rfl
  · exact ⟨[97, 98], by decide, rfl⟩
  · exact ⟨[97, 99], by decide, rfl⟩
  · exact ⟨[97, 98], by decide, rfl⟩
  · exact ⟨[97, 99], by decide, rfl⟩
  · exact ⟨[97, 98], by decide, rfl⟩

theorem exOom_free : PrefixFree fun k => ∃ x ∈ exOom, x.1.key = k :=
  strings_prefix_free _ (by rintro k ⟨x, hx, rfl⟩; exact exOom_str x hx)

/-- After the failure a jump node is left behind. -/
theorem exOom_leftover : ∃ t, runM 0 0 empty (exOom.take 2) = .ok (t, [true, false]) ∧
    t.root = some (.node (bit 1) 1 [.leaf [97, 98, 0]]) := by
  have h : mismatch64 [97, 98, 0] [97, 99, 0] = 3 := by rw [mismatch64_eq]; rfl
  have hj : jumpM 0 (fun i => i ≠ 2) [97, 98, 0] [97, 99, 0] 0 3 1 =
      .ok (.node (bit 1) 1 [.leaf [97, 98, 0]], false) := by
    rw [jumpM, if_pos (by decide), if_pos (by decide)]
    have : jumpM 0 (fun i => i ≠ 2) [97, 98, 0] [97, 99, 0] (0 + (0 + 1)) 3 (1 + 1) = .ok (.leaf [97, 98, 0], false) := by
      rw [jumpM, if_pos (by decide), if_neg (by decide)]
    rw [this]; rfl
  refine ⟨⟨some (.node (bit 1) 1 [.leaf [97, 98, 0]]), [([97, 98, 0], 1)]⟩, ?_, rfl⟩
  simp [exOom, stepM, setMemM, insertMemM, rep, h, insertAtM, runM, finishM, assignM, empty, Out.bind, setValue] at hj ⊢
  rw [hj]
  rfl

example : ∃ t ok, runM 0 0 empty exOom = .ok (t, ok) ∧ ok.length = 5 ∧ ∀ k, getMem t k = .ok (denote (succeeded exOom ok) k) := by
  obtain ⟨t, ok, h1, h2, h3, _⟩ := C95_contents 0 0 exOom exOom_free (by decide)
  exact ⟨t, ok, h1, h2, h3⟩

/-- Storing "ac" with a jump node left behind and without memory fails, and "ab" stays. -/
example : ∃ t ok t', runM 0 0 empty (exOom.take 2) = .ok (t, ok) ∧
    stepM 0 0 t (fun _ => false) (.set [97, 99, 0] 5) = .ok (t', false) ∧ getMem t' [97, 98, 0] = .ok (some 1) := by
  have hpf : PrefixFree fun k => ∃ x ∈ exOom.take 2 ++ [(Op.set [97, 99, 0] 5, fun _ => false)], x.1.key = k := by
    apply strings_prefix_free
    rintro k ⟨x, hx, rfl⟩
    simp [exOom] at hx
    rcases hx with rfl | rfl | rfl
    · exact ⟨[97, 98], by decide, rfl⟩
    · exact ⟨[97, 99], by decide, rfl⟩
    · exact ⟨[97, 99], by decide, rfl⟩
  have hne : ∀ x ∈ exOom.take 2 ++ [(Op.set [97, 99, 0] 5, fun _ => false)], x.1.key ≠ [] := by
    intro x hx
    simp [exOom] at hx
    rcases hx with rfl | rfl | rfl <;> simp [Op.key]
  obtain ⟨t0, e0, _⟩ := exOom_leftover
  obtain ⟨t, ok, h1, h2⟩ := C95_refused 0 0 (exOom.take 2) [97, 99, 0] 5 (fun _ => false) hpf hne (fun _ => rfl)
  obtain ⟨t1, ok1, t', b, h3, h4, h5⟩ := C95_failures 0 0 (exOom.take 2) (.set [97, 99, 0] 5) (fun _ => false) hpf hne
  obtain ⟨t2, ok2, h6, _, h7, _⟩ := C95_contents 0 0 (exOom.take 2)
    (fun k k' ⟨x, hx, e⟩ ⟨y, hy, e'⟩ => hpf k k' ⟨x, List.mem_append_left _ hx, e⟩ ⟨y, List.mem_append_left _ hy, e'⟩) (by decide)
  rw [e0] at h1 h3 h6
  injection h1 with h1; injection h1 with h1 h1'; subst h1; subst h1'
  injection h3 with h3; injection h3 with h3 h3'; subst h3; subst h3'
  injection h6 with h6; injection h6 with h6 h6'; subst h6; subst h6'
  obtain ⟨t3, h8⟩ := h2 (by decide)
  rw [h4] at h8
  injection h8 with h8; injection h8 with h8 h8'; subst h8'
  exact ⟨t0, _, t', e0, h4, ((h5 rfl).2.2.1 _).trans ((h7 _).trans (by decide))⟩

/-- A longest-prefix search in such a history. -/
example : ∃ t ok r, runM 0 0 empty exOom = .ok (t, ok) ∧ findPrefix t.root [97, 99, 100] = .ok r ∧
    (∀ k, r = some k → k ∈ live (succeeded exOom ok)) := by
  obtain ⟨t, ok, r, _, h1, h2, _, h3, _⟩ := C95_searches 0 0 exOom exOom_str [97, 99, 100]
  exact ⟨t, ok, r, h1, h2, fun k hk => by obtain ⟨_, _, h, _⟩ := h3 k hk; exact h⟩

end Verif.Props
