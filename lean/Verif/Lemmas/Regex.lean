import Verif.Spec.Regex
/-!
# Lemmas for regular expressions
-/
namespace Verif.Regex

theorem iterate_sound {step : Bytes → List Bytes} {a : Re} (h : ∀ s t, t ∈ step s → ∃ u, s = u ++ t ∧ Denotes a u t) : ∀ (n : Nat) (s t : Bytes), t ∈ iterate step n s → ∃ u, s = u ++ t ∧ Denotes (.star a) u t
  | 0, s, t, ht => by
    simp [iterate] at ht; subst ht; exact ⟨[], rfl, .done a t⟩
  | n + 1, s, t, ht => by
    rw [iterate, List.mem_append, List.mem_flatMap] at ht
    rcases ht with ⟨m, hm, ht⟩ | ht
    · obtain ⟨u, rfl, hu⟩ := h s m (List.mem_filter.1 hm).1
      obtain ⟨v, rfl, hv⟩ := iterate_sound h n m t ht
      exact ⟨u ++ v, by simp, .more a u v t hu hv⟩
    · simp at ht; subst ht; exact ⟨[], rfl, .done a t⟩

theorem ends_sound : ∀ (r : Re) (s t : Bytes), t ∈ r.ends s → ∃ u, s = u ++ t ∧ Denotes r u t
  | .empty, s, t, h => by simp [Re.ends] at h; subst h; exact ⟨[], rfl, .empty t⟩
  | .set p, [], t, h => by simp [Re.ends] at h
  | .set p, c :: s, t, h => by
    rw [Re.ends] at h
    split at h
    · next hp => simp at h; subst h; exact ⟨[c], rfl, .set p c t hp⟩
    · cases h
  | .cat a b, s, t, h => by
    rw [Re.ends, List.mem_flatMap] at h
    obtain ⟨m, hm, ht⟩ := h
    obtain ⟨u, rfl, hu⟩ := ends_sound a s m hm
    obtain ⟨v, rfl, hv⟩ := ends_sound b m t ht
    exact ⟨u ++ v, by simp, .cat a b u v t hu hv⟩
  | .alt a b, s, t, h => by
    rw [Re.ends, List.mem_append] at h
    rcases h with h | h
    · obtain ⟨u, e, hu⟩ := ends_sound a s t h; exact ⟨u, e, .left a b u t hu⟩
    · obtain ⟨u, e, hu⟩ := ends_sound b s t h; exact ⟨u, e, .right a b u t hu⟩
  | .star a, s, t, h => iterate_sound (fun s t => ends_sound a s t) s.length s t h
  | .eol, s, t, h => by
    rw [Re.ends] at h
    split at h
    · next hs => simp at h; subst hs; subst h; exact ⟨[], rfl, .eol⟩
    · cases h

theorem iterate_self (step : Bytes → List Bytes) (n : Nat) (s : Bytes) : s ∈ iterate step n s := by
  cases n <;> simp [iterate]

theorem iterate_complete {step : Bytes → List Bytes} {a : Re} (h : ∀ u t, Denotes a u t → t ∈ step (u ++ t)) : ∀ {r : Re} {u t : Bytes}, Denotes r u t → r = .star a → ∀ n, u.length ≤ n → t ∈ iterate step n (u ++ t) := by
  intro r u t hd
  induction hd with
  | empty _ => intro e; cases e
  | set => intro e; cases e
  | cat => intro e; cases e
  | left => intro e; cases e
  | right => intro e; cases e
  | eol => intro e; cases e
  | done b rest => intro _ n _; exact iterate_self _ _ _
  | more b u v rest h1 h2 _ ih2 =>
    intro e n hn
    cases e
    by_cases hu : u = []
    · subst hu; exact ih2 rfl n (by simpa using hn)
    · have hpos : 0 < u.length := by cases u <;> simp_all
      rw [List.length_append] at hn
      cases n with
      | zero => omega
      | succ n =>
        rw [iterate, List.mem_append, List.mem_flatMap]
        left
        refine ⟨v ++ rest, List.mem_filter.2 ⟨by rw [List.append_assoc]; exact h _ _ h1, by simp; omega⟩, ih2 rfl n (by omega)⟩

theorem ends_complete : ∀ (r : Re) (u t : Bytes), Denotes r u t → t ∈ r.ends (u ++ t)
  | .empty, _, _, h => by cases h; simp [Re.ends]
  | .set p, _, _, h => by cases h with | set _ c _ hp => simp [Re.ends, hp]
  | .cat a b, _, t, h => by
    cases h with
    | cat _ _ u v _ h1 h2 =>
      rw [Re.ends, List.mem_flatMap]
      exact ⟨v ++ t, by rw [List.append_assoc]; exact ends_complete a _ _ h1, ends_complete b _ _ h2⟩
  | .alt a b, u, t, h => by
    rw [Re.ends, List.mem_append]
    cases h with
    | left _ _ _ _ h => exact .inl (ends_complete a _ _ h)
    | right _ _ _ _ h => exact .inr (ends_complete b _ _ h)
  | .star a, u, t, h => by
    rw [Re.ends]
    exact iterate_complete (fun u t => ends_complete a u t) h rfl _ (by simp)
  | .eol, _, _, h => by cases h; simp [Re.ends]

theorem ends_iff (r : Re) (s t : Bytes) : t ∈ r.ends s ↔ ∃ u, s = u ++ t ∧ Denotes r u t :=
  ⟨ends_sound r s t, fun ⟨u, e, h⟩ => by rw [e]; exact ends_complete r u t h⟩

end Verif.Regex
