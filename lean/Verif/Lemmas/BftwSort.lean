import Verif.Model.Bftw
/-! # `bftw_list_sort()` -/
namespace Verif.Bftw

theorem splitLoop_spec : ∀ (hare list left : List Pos), hare.length ≤ list.length →
    splitLoop hare list left = (left ++ list.take (hare.length / 2), list.drop (hare.length / 2))
  | a :: b :: hare, x :: list, left, h => by
    rw [splitLoop, splitLoop_spec hare list (left ++ [x]) (by simp at h; omega)]
    have : (a :: b :: hare).length / 2 = hare.length / 2 + 1 := by simp; omega
    rw [this]; simp
  | [], list, left, _ => by simp [splitLoop]
  | [a], list, left, _ => by simp [splitLoop]
  | a :: b :: hare, [], left, h => by simp at h

theorem split_eq (l : List Pos) : splitLoop l l [] = (l.take (l.length / 2), l.drop (l.length / 2)) := by
  rw [splitLoop_spec l l [] (Nat.le_refl _)]; simp

def merge (le : Bytes → Bytes → Bool) (name : Pos → Bytes) : List Pos → List Pos → List Pos
  | l :: ls, r :: rs => if le (name l) (name r) then l :: merge le name ls (r :: rs) else r :: merge le name (l :: ls) rs
  | ls, rs => ls ++ rs
  termination_by ls rs => ls.length + rs.length

variable {le : Bytes → Bytes → Bool} {name : Pos → Bytes}

theorem merge_nil (r : List Pos) : merge le name [] r = r := by
  rw [merge]
  · rfl
  · intros; contradiction

theorem merge_nil' (l : List Pos) : merge le name l [] = l := by
  rw [merge]
  · simp
  · intros; contradiction

theorem merge_cons (l r : Pos) (ls rs : List Pos) :
    merge le name (l :: ls) (r :: rs) = if le (name l) (name r) then l :: merge le name ls (r :: rs) else r :: merge le name (l :: ls) rs := by
  rw [merge]

theorem mergeLoop_eq : ∀ (n : Nat) (ls rs out : List Pos), ls.length + rs.length ≤ n → mergeLoop le name n ls rs out = out ++ merge le name ls rs
  | n, [], rs, out, _ => by
    rw [merge_nil]
    cases n <;> simp [mergeLoop]
  | n, l :: ls, [], out, _ => by
    rw [merge_nil']
    cases n <;> simp [mergeLoop]
  | 0, l :: ls, r :: rs, out, h => by simp at h
  | n + 1, l :: ls, r :: rs, out, h => by
    rw [mergeLoop, merge_cons]
    split
    · rw [mergeLoop_eq n ls (r :: rs) _ (by simp at h ⊢; omega)]; simp
    · rw [mergeLoop_eq n (l :: ls) rs _ (by simp at h ⊢; omega)]; simp

theorem merge_perm : ∀ (l r : List Pos), (merge le name l r).Perm (l ++ r)
  | [], r => by rw [merge_nil]; exact List.Perm.refl _
  | l, [] => by rw [merge_nil']; simp
  | l :: ls, r :: rs => by
    rw [merge_cons]
    split
    · exact (merge_perm ls (r :: rs)).cons l
    · refine ((merge_perm (l :: ls) rs).cons r).trans ?_
      exact List.perm_middle.symm
  termination_by l r => l.length + r.length

/-- The order that `le` gives the files. -/
def Sorted (le : Bytes → Bytes → Bool) (name : Pos → Bytes) (l : List Pos) : Prop := l.Pairwise fun a b => le (name a) (name b) = true

theorem merge_sorted (ht : ∀ a b, le a b = true ∨ le b a = true) (hr : ∀ a b c, le a b = true → le b c = true → le a c = true) :
    ∀ (l r : List Pos), Sorted le name l → Sorted le name r → Sorted le name (merge le name l r)
  | [], r, _, h => by rw [merge_nil]; exact h
  | l, [], h, _ => by rw [merge_nil']; exact h
  | l :: ls, r :: rs, h1, h2 => by
    have k1 := List.pairwise_cons.1 h1
    have k2 := List.pairwise_cons.1 h2
    rw [merge_cons]
    split
    · rename_i h
      refine List.pairwise_cons.2 ⟨?_, merge_sorted ht hr ls (r :: rs) k1.2 h2⟩
      intro x hx
      rcases List.mem_append.1 ((merge_perm ls (r :: rs)).mem_iff.1 hx) with hx | hx
      · exact k1.1 x hx
      · rcases List.mem_cons.1 hx with rfl | hx
        · exact h
        · exact hr _ _ _ h (k2.1 x hx)
    · rename_i h
      have h : le (name r) (name l) = true := (ht _ _).resolve_left h
      refine List.pairwise_cons.2 ⟨?_, merge_sorted ht hr (l :: ls) rs h1 k2.2⟩
      intro x hx
      rcases List.mem_append.1 ((merge_perm (l :: ls) rs).mem_iff.1 hx) with hx | hx
      · rcases List.mem_cons.1 hx with rfl | hx
        · exact h
        · exact hr _ _ _ h (k1.1 x hx)
      · exact k2.1 x hx
  termination_by l r => l.length + r.length

/-- Files whose names compare equal to some name. -/
def same (le : Bytes → Bytes → Bool) (name : Pos → Bytes) (k : Bytes) (x : Pos) : Bool := le k (name x) && le (name x) k

theorem merge_stable (ht : ∀ a b, le a b = true ∨ le b a = true) (hr : ∀ a b c, le a b = true → le b c = true → le a c = true) (k : Bytes) :
    ∀ (l r : List Pos), Sorted le name l → Sorted le name r →
      (merge le name l r).filter (same le name k) = l.filter (same le name k) ++ r.filter (same le name k)
  | [], r, _, _ => by rw [merge_nil]; rfl
  | l, [], _, _ => by rw [merge_nil']; simp
  | l :: ls, r :: rs, h1, h2 => by
    have k1 := List.pairwise_cons.1 h1
    have k2 := List.pairwise_cons.1 h2
    rw [merge_cons]
    split
    · rw [List.filter_cons, merge_stable ht hr k ls (r :: rs) k1.2 h2, List.filter_cons (x := l)]
      split <;> simp
    · rename_i h
      have hrl : le (name r) (name l) = true := (ht _ _).resolve_left h
      rw [List.filter_cons, merge_stable ht hr k (l :: ls) rs h1 k2.2, List.filter_cons (x := r)]
      by_cases hs : same le name k r = true
      · rw [if_pos hs, if_pos hs]
        have hn : (l :: ls).filter (same le name k) = [] := by
          refine List.filter_eq_nil_iff.2 fun x hx hxs => h ?_
          have hs := Bool.and_eq_true_iff.1 hs
          have hxs := Bool.and_eq_true_iff.1 hxs
          have hlx : le (name l) (name x) = true := by
            rcases List.mem_cons.1 hx with rfl | hx
            · rcases ht (name x) (name x) with h | h <;> exact h
            · exact k1.1 x hx
          exact hr _ _ _ (hr _ _ _ hlx hxs.2) hs.1
        rw [hn]; rfl
      · rw [if_neg hs, if_neg hs]
  termination_by l r => l.length + r.length

theorem sortFuel_eq (n : Nat) (x y : Pos) (l : List Pos) 
    (h1 : (sortFuel le name n ((x :: y :: l).take ((x :: y :: l).length / 2))).Perm ((x :: y :: l).take ((x :: y :: l).length / 2)))
    (h2 : (sortFuel le name n ((x :: y :: l).drop ((x :: y :: l).length / 2))).Perm ((x :: y :: l).drop ((x :: y :: l).length / 2))) :
    sortFuel le name (n + 1) (x :: y :: l) =
      merge le name (sortFuel le name n ((x :: y :: l).take ((x :: y :: l).length / 2))) (sortFuel le name n ((x :: y :: l).drop ((x :: y :: l).length / 2))) := by
  rw [sortFuel, split_eq]
  · dsimp only
    rw [mergeLoop_eq, List.nil_append]
    rw [h1.length_eq, h2.length_eq, ← List.length_append, List.take_append_drop]
    exact Nat.le_refl _
  · intro h; cases h
  · intro z h; cases h

theorem sortFuel_perm : ∀ (n : Nat) (l : List Pos), (sortFuel le name n l).Perm l
  | 0, l => List.Perm.refl _
  | n + 1, [] => List.Perm.refl _
  | n + 1, [x] => List.Perm.refl _
  | n + 1, x :: y :: l => by
    rw [sortFuel_eq n x y l (sortFuel_perm n _) (sortFuel_perm n _)]
    refine (merge_perm _ _).trans ?_
    refine ((sortFuel_perm n _).append (sortFuel_perm n _)).trans ?_
    rw [List.take_append_drop]

theorem sortFuel_spec (ht : ∀ a b, le a b = true ∨ le b a = true) (hr : ∀ a b c, le a b = true → le b c = true → le a c = true) :
    ∀ (n : Nat) (l : List Pos), l.length ≤ n → Sorted le name (sortFuel le name n l) ∧
      ∀ k, (sortFuel le name n l).filter (same le name k) = l.filter (same le name k)
  | 0, l, h => by
    cases l with
    | nil => exact ⟨List.Pairwise.nil, fun _ => rfl⟩
    | cons a l => simp at h
  | n + 1, [], h => by rw [sortFuel]; exact ⟨List.Pairwise.nil, fun _ => rfl⟩
  | n + 1, [x], h => by
    rw [sortFuel]; exact ⟨List.pairwise_singleton _ _, fun _ => rfl⟩
  | n + 1, x :: y :: l, h => by
    rw [sortFuel_eq n x y l (sortFuel_perm n _) (sortFuel_perm n _)]
    have h1 := sortFuel_spec ht hr n ((x :: y :: l).take ((x :: y :: l).length / 2)) (by simp at h ⊢; omega)
    have h2 := sortFuel_spec ht hr n ((x :: y :: l).drop ((x :: y :: l).length / 2)) (by simp at h ⊢; omega)
    refine ⟨merge_sorted ht hr _ _ h1.1 h2.1, fun k => ?_⟩
    rw [merge_stable ht hr k _ _ h1.1 h2.1, h1.2, h2.2, ← List.filter_append, List.take_append_drop]

theorem listSort_perm (l : List Pos) : (listSort le name l).Perm l := sortFuel_perm _ _

end Verif.Bftw
