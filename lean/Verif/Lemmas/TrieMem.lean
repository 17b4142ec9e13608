import Verif.Model.TrieMem
import Verif.Lemmas.TrieTop
/-!
# The trie when memory runs out
-/
namespace Verif.Trie
open Verif.Spec.Trie (IsStr PrefixFree Op denote live succeeded)

variable {V : Type}

/-- What a part of an insertion with a fallible allocator does: it agrees with the infallible
one, or leaves an equivalent subtrie. -/
structure PartM (K : Nat) (mem : Mem) (mm off : Nat) (p : Ptr) (full : Out Ptr) (x : Ptr × Bool) : Prop where
  done : x.2 = true → full = .ok x.1
  undone : x.2 = false → Inv K off x.1 ∧ (∀ k, k ∈ keys x.1 ↔ k ∈ keys p) ∧ (off < mm → Pos p → Pos x.1)
  enough : (∀ i, mem i = true) → x.2 = true

theorem splitM_ok {K : Nat} {mem : Mem} {off mm i : Nat} {p p' : Ptr} {key r : Key} (hI : Inv K off p)
    (h : split p key r off mm = .ok p') :
    ∃ x, splitM (mem i) p key r off mm = .ok x ∧ PartM K mem mm off p (split p key r off mm) x := by
  unfold splitM
  rw [h]
  simp only [Out.bind_ok']
  refine ⟨_, rfl, ?_⟩
  cases hm : mem i with
  | true => exact ⟨fun _ => rfl, fun h => by simp at h, fun _ => rfl⟩
  | false =>
    refine ⟨fun h => by simp at h, fun _ => ⟨hI, fun _ => Iff.rfl, fun _ h => h⟩, fun h => ?_⟩
    rw [h i] at hm; cases hm

theorem jumpM_ok {K : Nat} {mem : Mem} {leaf key : Key} {mm : Nat} (hr : mm < 2 * leaf.length) (hkey : mm < 2 * key.length)
    (ha : ∀ i < mm, nib leaf i = nib key i) (hd : nib leaf mm ≠ nib key mm) :
    ∀ (n off i : Nat), mm - off = n → off ≤ mm →
    ∃ x, jumpM K mem leaf key off mm i = .ok x ∧ PartM K mem mm off (.leaf leaf) (jump K leaf key off mm) x := by
  intro n
  induction n using Nat.strongRecOn with
  | _ n ih =>
    intro off i hn hle
    rw [jumpM, jump]
    by_cases hg : mm - off > K + 1
    · rw [if_pos hg, if_pos hg, nibble_eq (by omega)]
      simp only [Out.bind_ok']
      obtain ⟨x, e1, e2⟩ := ih (mm - (off + (K + 1))) (by omega) (off + (K + 1)) (i + 1) rfl (by omega)
      rw [e1]
      simp only [Out.bind_ok']
      cases hm : mem i with
      | false =>
        rw [if_neg (by simp)]
        refine ⟨_, rfl, fun h => by simp at h, fun _ => ⟨by rw [Inv]; trivial, fun _ => Iff.rfl, fun _ h => h⟩, fun h => ?_⟩
        rw [h i] at hm; cases hm
      | true =>
        rw [if_pos rfl]
        refine ⟨_, rfl, ?_, ?_, ?_⟩
        · intro h
          rw [e2.done h]; rfl
        · intro h
          obtain ⟨f1, f2, f3⟩ := e2.undone h
          have hks : ∀ k ∈ keysL [x.1], k = leaf := by
            intro k hk
            simp only [keysL, List.append_nil] at hk
            simpa [keys] using (f2 k).1 hk
          refine ⟨?_, ?_, ?_⟩
          · rw [inv_node, bits_bit _ (nib_lt _ _)]
            refine ⟨Nat.le_refl _, by simp, ?_, ?_, ?_⟩
            · intro k hk; rw [hks k hk]; omega
            · intro k hk k' hk' j _; rw [hks k hk, hks k' hk']
            · rw [InvL]
              refine ⟨⟨?_, f3 (by omega) (by rw [Pos]; trivial)⟩, f1, by rw [InvL]; trivial⟩
              intro k hk
              rw [hks k (by simpa [keysL] using hk)]
          · intro k
            simp only [keys, keysL, List.append_nil]
            simpa [keys] using f2 k
          · intro _ _; rw [Pos]; omega
        · intro h; exact e2.enough h
    · rw [if_neg hg, if_neg hg]
      obtain ⟨p', e1, _⟩ := split_ok (K := K) (off := off) (mm := mm) (p := .leaf leaf) (key := key) (r := leaf)
        (by rw [Inv]; trivial) hle (by omega) (by intro _ _ _ h; exact absurd h (by simp))
        (by intro k hk; simp [keys] at hk; rw [hk]; exact ⟨hr, fun _ _ => rfl⟩) hr hkey ha hd
      exact splitM_ok (by rw [Inv]; trivial) e1

theorem insertNthM_append (K : Nat) (mem : Mem) (key r : Key) (mm off : Nat) (X Y : List Ptr) (c : Ptr) (x : Ptr × Bool)
    (h : insertAtM K mem key r mm off c = .ok x) :
    insertNthM K mem key r mm off (X ++ c :: Y) X.length = .ok (X ++ x.1 :: Y, x.2) := by
  induction X with
  | nil => rw [List.nil_append, List.length_nil, insertNthM, h]; rfl
  | cons d X ih => rw [List.cons_append, List.length_cons, insertNthM, ih]; rfl

/-- The descent of an insertion. -/
theorem insertAtM_ok {K : Nat} {mem : Mem} {key r : Key} {mm : Nat} (hr : mm < 2 * r.length) (hkey : mm < 2 * key.length)
    (ha : ∀ i < mm, nib r i = nib key i) (hd : nib r mm ≠ nib key mm) :
    ∀ (p : Ptr) (off : Nat), Inv K off p → off ≤ mm → r ∈ keys p → rep key off p = .ok r →
      ∃ x, insertAtM K mem key r mm off p = .ok x ∧ PartM K mem mm off p (insertAt K key r mm off p) x := by
  intro p
  induction p using Ptr.ind with
  | hl k =>
    intro off _ hle hm _
    simp [keys] at hm
    subst hm
    rw [insertAtM, insertAt]
    exact jumpM_ok hr hkey ha hd _ off 1 rfl hle
  | hn m o cs ih =>
    intro off h hle hm hrep
    have h0 := h
    obtain ⟨p', hfull, _⟩ := insertAt_ok (K := K) hr hkey ha hd (.node m o cs) off h hle hm hrep
    rw [inv_node] at h
    obtain ⟨ho, hne, hlen, hag, hL⟩ := h
    rw [keys] at hm
    by_cases hgt : off + o > mm
    · rw [insertAt, if_pos hgt, if_neg (by omega)] at hfull ⊢
      rw [insertAtM, if_pos hgt, if_neg (by omega)]
      exact splitM_ok h0 hfull
    · have hn := nib_lt key (off + o)
      by_cases hp : has m (nib key (off + o)) = true
      · obtain ⟨A, B, X, c, Y, hb, rfl, hXi, hAX, hX, ⟨hc, hcp⟩, hci, hY, _, hA, hB⟩ := child_split hn hL hp
        obtain ⟨X', c', Y', e, h1', _, h2', h4⟩ := rep_has hL (by omega : off + o < 2 * key.length) hp
        have e' := List.append_inj e (by omega)
        obtain ⟨rfl, e''⟩ := e'
        simp only [List.cons.injEq] at e''
        obtain ⟨rfl, rfl⟩ := e''
        rw [h4] at hrep
        have hrc : r ∈ keys c := by
          obtain ⟨r', hr', e⟩ := rep_mem (K := K) key c (off + o) hci
          rw [hrep] at e
          injection e with e
          rw [e]; exact hr'
        have hlt : off + o < mm := by
          rcases Nat.lt_or_ge (off + o) mm with h | h
          · exact h
          · have : off + o = mm := by omega
            exact absurd (this ▸ hc r hrc) hd
        obtain ⟨x, e1, e2⟩ := ih c (by simp) (off + o) hci (by omega) hrc hrep
        refine ⟨(.node m o (X ++ x.1 :: Y), x.2), ?_, ?_, ?_, e2.enough⟩
        · rw [insertAtM, if_neg hgt, nibble_eq (by omega)]
          simp only [Out.bind_ok']
          rw [if_pos hp, if_pos hlt, ← hXi, insertNthM_append _ _ _ _ _ _ _ _ _ _ e1]
          rfl
        · intro hx
          rw [insertAt, if_neg hgt, nibble_eq (by omega)]
          simp only [Out.bind_ok']
          rw [if_pos hp, if_pos hlt, ← hXi, insertNth_append _ _ _ _ _ _ _ _ _ (e2.done hx)]
          rfl
        · intro hx
          obtain ⟨f1, f2, f3⟩ := e2.undone hx
          have hmem : ∀ k, k ∈ keysL (X ++ x.1 :: Y) ↔ k ∈ keysL (X ++ c :: Y) := by
            intro k; rw [mem_mid, mem_mid, f2]
          refine ⟨?_, ?_, fun _ h => h⟩
          · rw [inv_node]
            refine ⟨ho, by simp, ?_, ?_, ?_⟩
            · intro k hk; exact hlen k ((hmem k).1 hk)
            · intro k hk k' hk' i hi; exact hag k ((hmem k).1 hk) k' ((hmem k').1 hk') i hi
            · rw [hb]
              refine InvL_append' hX ?_
              rw [InvL]
              refine ⟨⟨?_, f3 hlt hcp⟩, f1, hY⟩
              intro k hk
              exact hc k ((f2 k).1 hk)
          · intro k; rw [keys, keys]; exact hmem k
      · have heq : off + o = mm := by
          rcases Nat.lt_or_ge (off + o) mm with h | h
          · exfalso
            apply hp
            rw [has_iff hn, ← ha _ h]
            exact InvL_nib hL r hm
          · omega
        rw [insertAt, if_neg hgt, nibble_eq (by omega)] at hfull ⊢
        rw [insertAtM, if_neg hgt, nibble_eq (by omega)]
        simp only [Out.bind_ok'] at hfull ⊢
        rw [if_neg hp, if_pos heq] at hfull ⊢
        rw [if_neg hp, if_pos heq, nodeInsertM]
        cases hs : (singleBit (countOnes m) && !mem 1) with
        | true =>
          rw [if_pos rfl]
          refine ⟨_, rfl, fun h => by simp at h, fun _ => ⟨h0, fun _ => Iff.rfl, fun _ h => h⟩, fun h => ?_⟩
          rw [h 1] at hs; simp at hs
        | false =>
          rw [if_neg (by simp), hfull]
          exact ⟨_, rfl, fun _ => rfl, fun h => by simp at h, fun _ => rfl⟩

/-- An insertion with a fallible allocator. -/
theorem insertMemM_ok {K : Nat} {mem : Mem} {t : Trie V} (h : WF K t) {key : Key} {v0 : V} (hne : key ≠ [])
    (hpf : ∀ k ∈ t.leaves.map (·.1), (k <+: key → k = key) ∧ (key <+: k → k = key)) :
    ∃ x, insertMemM K mem t key v0 = .ok x ∧
      ((∃ t', x = (some key, t') ∧ insertMem K t key v0 = .ok (key, t')) ∨
       (key ∉ t.leaves.map (·.1) ∧ x.1 = none ∧ WF K x.2 ∧ x.2.leaves = t.leaves ∧ ¬ ∀ i, mem i = true)) := by
  obtain ⟨t', hfull, _⟩ := insertMem_ok (v0 := v0) h hne hpf
  have hr := h.root
  rw [hfull]
  unfold insertMem at hfull
  unfold insertMemM
  cases e : t.root with
  | none =>
    rw [e] at hr hfull
    dsimp only at hr hfull ⊢
    have hl : ¬ 0 ≥ key.length := by
      cases key with
      | nil => exact absurd rfl hne
      | cons => simp
    rw [if_neg hl] at hfull ⊢
    injection hfull with hfull
    injection hfull with _ hfull
    refine ⟨_, rfl, ?_⟩
    cases hm : mem 0 with
    | true => left; exact ⟨t', by rw [if_pos rfl, hfull], rfl⟩
    | false =>
      right
      rw [if_neg (by simp)]
      refine ⟨by rw [hr]; simp, rfl, h, rfl, fun h => ?_⟩
      rw [h 0] at hm; cases hm
  | some p =>
    rw [e] at hr hfull
    dsimp only at hr hfull ⊢
    obtain ⟨hI, hk⟩ := hr
    by_cases hm : key ∈ t.leaves.map (·.1)
    · rw [rep_self key p 0 hI ((hk key).2 hm)] at hfull ⊢
      simp only [Out.bind_ok', mismatch64_eq] at hfull ⊢
      have hmm : mismatch key key = 2 * key.length := by
        have := mismatch_eq key [] []
        simpa [mismatch] using this
      rw [hmm, if_pos (by omega)] at hfull ⊢
      injection hfull with hfull
      injection hfull with _ hfull
      exact ⟨_, rfl, Or.inl ⟨t', by rw [hfull], rfl⟩⟩
    · obtain ⟨r, hr, h1⟩ := rep_mem key p 0 hI
      rw [h1] at hfull ⊢
      simp only [Out.bind_ok', mismatch64_eq] at hfull ⊢
      have hrm := (hk r).1 hr
      have hrk : r ≠ key := fun e => hm (e ▸ hrm)
      have c1 : ¬ mismatch r key / 2 ≥ key.length := by
        intro hge
        have := mismatch_prefix (a := key) (b := r) (by rw [mismatch_comm]; omega)
        exact hrk ((hpf r hrm).2 this)
      have c2 : ¬ mismatch r key / 2 ≥ r.length := by
        intro hge
        have := mismatch_prefix (a := r) (b := key) (by omega)
        exact hrk ((hpf r hrm).1 this)
      rw [if_neg c1, if_neg c2] at hfull ⊢
      cases hm0 : mem 0 with
      | false =>
        rw [if_neg (by simp)]
        refine ⟨_, rfl, Or.inr ⟨hm, rfl, h, rfl, fun h => ?_⟩⟩
        rw [h 0] at hm0; cases hm0
      | true =>
        rw [if_pos rfl]
        obtain ⟨x, e1, e2⟩ := insertAtM_ok (K := K) (mem := mem) (key := key) (r := r) (mm := mismatch r key) (by omega) (by omega)
          (mismatch_agree r key) (mismatch_differ r key (by omega) (by omega)) p 0 hI (Nat.zero_le _) hr h1
        rw [e1]
        simp only [Out.bind_ok']
        refine ⟨_, rfl, ?_⟩
        cases hx : x.2 with
        | true =>
          left
          rw [e2.done hx] at hfull
          simp only [Out.bind_ok'] at hfull
          injection hfull with hfull
          injection hfull with _ hfull
          exact ⟨t', by rw [finishM, hx, if_pos rfl, hfull], rfl⟩
        | false =>
          right
          obtain ⟨f1, f2, _⟩ := e2.undone hx
          rw [finishM, hx, if_neg (by simp)]
          refine ⟨hm, rfl, ⟨h.nodup, ?_⟩, rfl, fun h => ?_⟩
          · exact ⟨f1, fun k => by rw [f2, hk]⟩
          · rw [e2.enough h] at hx; cases hx

/-- Without memory a new key is not inserted. -/
theorem insertMemM_refused {K : Nat} {mem : Mem} {t t' : Trie V} (h : WF K t) {key : Key} {v0 : V} (hne : key ≠ [])
    (hm : key ∉ t.leaves.map (·.1)) (hfull : insertMem K t key v0 = .ok (key, t')) (h0 : mem 0 = false) :
    insertMemM K mem t key v0 = .ok (none, t) := by
  have hr := h.root
  unfold insertMem at hfull
  unfold insertMemM
  cases e : t.root with
  | none =>
    rw [e] at hfull
    dsimp only at hfull ⊢
    have hl : ¬ 0 ≥ key.length := by
      cases key with
      | nil => exact absurd rfl hne
      | cons => simp
    rw [if_neg hl, h0]; rfl
  | some p =>
    rw [e] at hr hfull
    dsimp only at hr hfull ⊢
    obtain ⟨hI, hk⟩ := hr
    obtain ⟨r, hr, h1⟩ := rep_mem key p 0 hI
    rw [h1] at hfull ⊢
    simp only [Out.bind_ok'] at hfull ⊢
    by_cases c1 : mismatch64 r key / 2 ≥ key.length
    · rw [if_pos c1] at hfull
      injection hfull with hfull
      injection hfull with e1 _
      subst e1
      exact absurd ((hk r).1 hr) hm
    · rw [if_neg c1] at hfull ⊢
      by_cases c2 : mismatch64 r key / 2 ≥ r.length
      · rw [if_pos c2] at hfull; cases hfull
      · rw [if_neg c2, h0]; rfl

/-- One update with a fallible allocator: it does what the infallible one does, or it is an
assignment to a new key and changes nothing. -/
theorem stepM_ok {K : Nat} {v0 : V} {t : Trie V} {mem : Mem} (h : WF K t) (op : Op V) (S : Key → Prop) (hS : PrefixFree S)
    (hsub : ∀ k ∈ t.leaves.map (·.1), S k) (hk : S op.key) (hne : op.key ≠ []) :
    ∃ t' b, stepM K v0 t mem op = .ok (t', b) ∧
      ((b = true ∧ step K v0 t op = .ok t') ∨
       (b = false ∧ WF K t' ∧ t'.leaves = t.leaves ∧ op.key ∉ t.leaves.map (·.1) ∧ (∃ v, op = .set op.key v) ∧ ¬ ∀ i, mem i = true)) := by
  cases op with
  | set k v =>
    simp only [Op.key] at hk hne
    obtain ⟨x, e1, e2⟩ := insertMemM_ok (mem := mem) (v0 := v0) h hne (fun k' hk' =>
      ⟨fun hp => hS k' k (hsub k' hk') hk hp, fun hp => (hS k k' hk (hsub k' hk') hp).symm⟩)
    rw [stepM, setMemM, e1]
    rcases e2 with ⟨t', rfl, e3⟩ | ⟨hm, e3, e4, e5, e6⟩
    · refine ⟨⟨t'.root, setValue k v t'.leaves⟩, true, rfl, Or.inl ⟨rfl, ?_⟩⟩
      rw [step, setMem, e3]; rfl
    · obtain ⟨x1, x2⟩ := x
      dsimp only at e3 e4 e5
      subst e3
      exact ⟨x2, false, rfl, Or.inr ⟨rfl, e4, e5, hm, ⟨v, rfl⟩, e6⟩⟩
  | remove k =>
    obtain ⟨t', e1, _⟩ := removeKey_ok h k
    refine ⟨t', true, by rw [stepM, e1]; rfl, Or.inl ⟨rfl, by rw [step, e1]⟩⟩

theorem runM_ok {K : Nat} {v0 : V} (S : Key → Prop) (hS : PrefixFree S) : ∀ (ops : List (Op V × Mem)) (t : Trie V), WF K t →
    (∀ k ∈ t.leaves.map (·.1), S k) → (∀ x ∈ ops, S x.1.key ∧ x.1.key ≠ []) →
    ∃ t' bs, runM K v0 t ops = .ok (t', bs) ∧ bs.length = ops.length ∧ WF K t' ∧ (∀ k ∈ t'.leaves.map (·.1), S k) ∧
      (∀ k, value t'.leaves k = (succeeded ops bs).foldl Op.apply (value t.leaves) k) ∧
      t'.leaves.map (·.1) = (succeeded ops bs).foldl Op.live (t.leaves.map (·.1)) := by
  intro ops
  induction ops with
  | nil => intro t h hs _; exact ⟨t, [], rfl, rfl, h, hs, fun _ => rfl, rfl⟩
  | cons x xs ih =>
    intro t h hs ho
    obtain ⟨h1, h2⟩ := ho x (by simp)
    obtain ⟨t1, b, e1, e2⟩ := stepM_ok (v0 := v0) (mem := x.2) h x.1 S hS hs h1 h2
    rcases e2 with ⟨rfl, e3⟩ | ⟨rfl, f1, f2, _⟩
    · obtain ⟨t1', g1, g2, g3, g4, g5⟩ := step_ok (v0 := v0) h x.1 S hS hs h1 h2
      rw [e3] at g1
      injection g1 with g1
      subst g1
      obtain ⟨t2, bs, f1, fl, f2, f3, f4, f5⟩ := ih t1 g2 g3 (fun o ho' => ho o (by simp [ho']))
      refine ⟨t2, true :: bs, ?_, by simp [fl], f2, f3, ?_, ?_⟩
      · rw [runM, e1]
        simp only [Out.bind_ok']
        rw [f1]; rfl
      · intro k
        rw [f4, succeeded, if_pos rfl, List.foldl_cons]
        have : value t1.leaves = Op.apply (value t.leaves) x.1 := funext g4
        rw [this]
      · rw [f5, succeeded, if_pos rfl, List.foldl_cons, g5]
    · obtain ⟨t2, bs, k1, kl, k2, k3, k4, k5⟩ := ih t1 f1 (by rw [f2]; exact hs) (fun o ho' => ho o (by simp [ho']))
      refine ⟨t2, false :: bs, ?_, by simp [kl], k2, k3, ?_, ?_⟩
      · rw [runM, e1]
        simp only [Out.bind_ok']
        rw [k1]; rfl
      · intro k
        rw [k4, f2, succeeded, if_neg (by simp)]
      · rw [k5, f2, succeeded, if_neg (by simp)]

/-- A postfix search in a well-formed trie. -/
theorem findPostfix_ok {K : Nat} {t : Trie V} (h : WF K t) (q : Key) :
    ∃ r, findPostfix t.root q = .ok r ∧ (∀ k, r = some k → k ∈ t.leaves.map (·.1) ∧ q <+: k) ∧
      (r = none → ∀ k ∈ t.leaves.map (·.1), ¬ q <+: k) := by
  have hroot := h.root
  have hiff : ∀ r : List UInt8, (r.length ≥ q.length && r.take q.length == q) = true ↔ q <+: r := by
    intro r
    rw [List.prefix_iff_eq_take]
    simp only [Bool.and_eq_true, decide_eq_true_eq, beq_iff_eq]
    constructor
    · intro h; exact h.2.symm
    · intro h
      refine ⟨?_, h.symm⟩
      have := congrArg List.length h
      simp at this
      omega
  cases hr : t.root with
  | none =>
    rw [hr] at hroot
    dsimp only at hroot
    refine ⟨none, rfl, by simp, ?_⟩
    intro _ k hk
    rw [hroot] at hk
    simp at hk
  | some p =>
    rw [hr] at hroot
    dsimp only at hroot
    obtain ⟨hI, hk'⟩ := hroot
    by_cases hex : ∃ k ∈ keys p, q <+: k
    · obtain ⟨r, hr1, hr2, hr3⟩ := rep_prefix (K := K) (List.prefix_append q [0]) p 0 hI hex
      refine ⟨some r, ?_, ?_, by simp⟩
      · rw [findPostfix, hr3]
        simp only [Out.bind_ok', (hiff r).2 hr2, if_true]
      · intro k hk
        injection hk with hk
        subst hk
        exact ⟨(hk' r).1 hr1, hr2⟩
    · obtain ⟨r, hr1, hr3⟩ := rep_mem (q ++ [0]) p 0 hI
      refine ⟨none, ?_, by simp, ?_⟩
      · rw [findPostfix, hr3]
        have : ¬ (r.length ≥ q.length && r.take q.length == q) = true := by
          rw [hiff]; intro h; exact hex ⟨r, hr1, h⟩
        simp only [Out.bind_ok', this, Bool.false_eq_true, if_false]
      · intro _ k hk hq
        exact hex ⟨k, (hk' k).2 hk, hq⟩

/-- A prefix search in a well-formed trie of strings. -/
theorem findPrefix_ok {K : Nat} {t : Trie V} (h : WF K t) (hstr : ∀ k ∈ t.leaves.map (·.1), IsStr k) (q : Key) :
    ∃ r, findPrefix t.root q = .ok r ∧
      (∀ k, r = some k → ∃ s, k = s ++ [0] ∧ k ∈ t.leaves.map (·.1) ∧ s <+: q ∧
        ∀ s', s' ++ [0] ∈ t.leaves.map (·.1) → s' <+: q → s'.length ≤ s.length) ∧
      (r = none → ∀ s, s ++ [0] ∈ t.leaves.map (·.1) → ¬ s <+: q) := by
  have hroot := h.root
  cases hr : t.root with
  | none =>
    rw [hr] at hroot
    dsimp only at hroot
    refine ⟨none, rfl, by simp, ?_⟩
    intro _ k hk
    rw [hroot] at hk
    simp at hk
  | some p =>
    rw [hr] at hroot
    dsimp only at hroot
    obtain ⟨hI, hk'⟩ := hroot
    have hstr' : ∀ k ∈ keys p, IsStr k := fun k hkp => hstr k ((hk' k).1 hkp)
    obtain ⟨res, e1, e2⟩ := prefixLoop_ok (K := K) (q := q) p 0 none 0 hI hstr' (by
      intro k hkp
      obtain ⟨s, _, rfl⟩ := hstr' k hkp
      simp)
    refine ⟨res, by rw [findPrefix, e1], ?_, ?_⟩
    · intro k hres
      rcases e2 with ⟨e, _⟩ | ⟨k', hk1, ⟨s, rfl, hg⟩, e, hmax⟩
      · rw [e] at hres; exact absurd hres (by simp)
      · rw [e] at hres
        injection hres with hres
        subst hres
        refine ⟨s, rfl, (hk' _).1 hk1, hg, ?_⟩
        intro s' hs' hp
        have := hmax (s' ++ [0]) ((hk' _).2 hs') ⟨s', rfl, hp⟩
        simpa using this
    · intro hres s hs' hp
      rcases e2 with ⟨e, hno⟩ | ⟨k', _, _, e, _⟩
      · exact hno (s ++ [0]) ((hk' _).2 hs') ⟨s, rfl, hp⟩
      · rw [e] at hres; exact absurd hres (by simp)

end Verif.Trie
