import Verif.Model.Printx
import Verif.Spec.Printx
/-! # Lemmas for `-printx` and `-X` -/
namespace Verif.Xargs
open Verif.Printx

/-- After a backslash. -/
def escape (arg : Option (List UInt8)) : List UInt8 → Option (List (List UInt8))
  | [] => none
  | d :: rest => split none (some (arg.getD [] ++ [d])) rest

theorem split_cons (arg : Option (List UInt8)) (c : UInt8) (rest : List UInt8) : split none arg (c :: rest) =
    if c = 32 ∨ c = 9 ∨ c = 10 then (split none none rest).map (arg.toList ++ ·)
    else if c = 34 ∨ c = 39 then split (some c) (some (arg.getD [])) rest
    else if c = 92 then escape arg rest
    else split none (some (arg.getD [] ++ [c])) rest := by
  cases rest <;> simp only [split, escape]

theorem split_plain (arg : Option (List UInt8)) (c : UInt8) (rest : List UInt8) (h : ¬ Special c) : split none arg (c :: rest) = split none (some (arg.getD [] ++ [c])) rest := by
  unfold Special at h
  rw [split_cons, if_neg (fun k => h (by rcases k with k | k | k <;> simp [k])), if_neg (fun k => h (by rcases k with k | k <;> simp [k])), if_neg (fun k => h (by simp [k]))]

theorem split_escape (arg : Option (List UInt8)) (c : UInt8) (rest : List UInt8) : split none arg (92 :: c :: rest) = split none (some (arg.getD [] ++ [c])) rest := by
  rw [split_cons, if_neg (by decide), if_neg (by decide), if_pos rfl]
  rfl

theorem split_sep (arg : Option (List UInt8)) (c : UInt8) (rest : List UInt8) (h : c = 32 ∨ c = 9 ∨ c = 10) : split none arg (c :: rest) = (split none none rest).map (arg.toList ++ ·) := by
  rw [split_cons, if_pos h]

theorem split_open (arg : Option (List UInt8)) (c : UInt8) (rest : List UInt8) (h : c = 34 ∨ c = 39) : split none arg (c :: rest) = split (some c) (some (arg.getD [])) rest := by
  rw [split_cons, if_neg (by rcases h with rfl | rfl <;> decide), if_pos h]

/-- What is printed for a byte. -/
def esc (c : UInt8) : List UInt8 := if escaped.contains c then [92, c] else [c]

theorem special_escaped {c : UInt8} (h : Special c) : escaped.contains c = true := by
  rcases h with rfl | rfl | rfl | rfl | rfl | rfl <;> decide

theorem split_esc (arg : Option (List UInt8)) (c : UInt8) (rest : List UInt8) : split none arg (esc c ++ rest) = split none (some (arg.getD [] ++ [c])) rest := by
  unfold esc
  by_cases h : escaped.contains c = true
  · rw [if_pos h]; exact split_escape arg c rest
  · rw [if_neg h]; exact split_plain arg c rest fun k => h (special_escaped k)

theorem split_escs : ∀ (t : List UInt8) (arg : Option (List UInt8)) (rest : List UInt8), t ≠ [] ∨ arg.isSome = true →
    split none arg (t.flatMap esc ++ rest) = split none (some (arg.getD [] ++ t)) rest
  | [], arg, rest, h => by
    cases arg with
    | none => simp at h
    | some a => simp
  | c :: t, arg, rest, _ => by
    rw [List.flatMap_cons, List.append_assoc, split_esc, split_escs t _ _ (.inr rfl)]
    simp

theorem split_plains : ∀ (t : List UInt8) (arg : Option (List UInt8)) (rest : List UInt8), (∀ c ∈ t, ¬ Special c) → t ≠ [] ∨ arg.isSome = true →
    split none arg (t ++ rest) = split none (some (arg.getD [] ++ t)) rest
  | [], arg, rest, _, h => by
    cases arg with
    | none => simp at h
    | some a => simp
  | c :: t, arg, rest, hs, _ => by
    rw [List.cons_append, split_plain _ _ _ (hs c (by simp)), split_plains t _ _ (fun d hd => hs d (by simp [hd])) (.inr rfl)]
    simp

theorem flatMap_plain : ∀ (t : List UInt8), (∀ c ∈ t, escaped.contains c = false) → t.flatMap esc = t
  | [], _ => rfl
  | c :: t, h => by
    rw [List.flatMap_cons, flatMap_plain t fun d hd => h d (by simp [hd])]
    unfold esc
    rw [if_neg (by rw [h c (by simp)]; decide)]
    rfl

theorem span_parts (set path : List UInt8) : ∃ a b, path = a ++ b ∧ path.take (span set path) = a ∧ path.drop (span set path) = b ∧ (∀ c ∈ a, set.contains c = false) ∧
    ∀ c rest, b = c :: rest → set.contains c = true := by
  refine ⟨path.takeWhile fun c => !set.contains c, path.dropWhile fun c => !set.contains c, List.takeWhile_append_dropWhile.symm, ?_, ?_, ?_, ?_⟩
  · unfold span
    conv => lhs; arg 2; rw [← List.takeWhile_append_dropWhile (p := fun c => !set.contains c) (l := path)]
    exact List.take_left' rfl
  · unfold span
    conv => lhs; arg 2; rw [← List.takeWhile_append_dropWhile (p := fun c => !set.contains c) (l := path)]
    exact List.drop_left' rfl
  · intro c hc
    have := List.all_takeWhile (p := fun c => !set.contains c) (l := path)
    have := List.all_eq_true.1 this c hc
    simpa using this
  · intro c rest h
    have := List.head?_dropWhile_not (fun c => !set.contains c) path
    rw [h] at this
    simpa using this

theorem printxLoop_eq (path : List UInt8) : printxLoop path = path.flatMap esc := by
  obtain ⟨a, b, h1, h2, h3, h4, h5⟩ := span_parts escaped path
  rw [printxLoop]
  split
  · next hd =>
    rw [h3] at hd
    subst hd
    rw [h2, h1, List.append_nil, flatMap_plain a h4]
  · next c rest hd =>
    have ih := printxLoop_eq rest
    rw [h3] at hd
    subst hd
    rw [h2, ih, h1, List.flatMap_append, flatMap_plain a h4, List.flatMap_cons]
    unfold esc
    rw [if_pos (h5 c rest rfl)]
    simp
termination_by path.length
decreasing_by exact drop_span _ _ (by assumption)

/-- All the bytes of the arguments. -/
def total (l : List (List UInt8)) : Nat := (l.map List.length).sum

/-- At least one byte is lost from a line. -/
theorem split_total : ∀ (t : List UInt8) (q : Option UInt8) (arg : Option (List UInt8)) (l : List (List UInt8)), split q arg (t ++ [10]) = some l →
    total l ≤ (arg.getD []).length + t.length
  | [], none, arg, l, h => by
    rw [List.nil_append, split_sep _ _ _ (by decide)] at h
    simp only [split, Option.map_some, Option.some.injEq] at h
    subst h
    cases arg <;> simp [total]
  | [], some q, arg, l, h => by simp [split] at h
  | c :: t, some q, arg, l, h => by
    rw [List.cons_append, split] at h
    by_cases h1 : c = 10
    · rw [if_pos h1] at h; cases h
    rw [if_neg h1] at h
    by_cases h2 : c = q
    · rw [if_pos h2] at h
      have := split_total t none arg l h
      simp only [List.length_cons]; omega
    · rw [if_neg h2] at h
      have := split_total t (some q) _ l h
      simp only [List.length_cons, Option.getD_some, List.length_append] at this ⊢
      simp at this ⊢; omega
  | c :: t, none, arg, l, h => by
    rw [List.cons_append, split_cons] at h
    by_cases h1 : c = 32 ∨ c = 9 ∨ c = 10
    · rw [if_pos h1] at h
      cases hs : split none none (t ++ [10]) with
      | none => rw [hs] at h; cases h
      | some l' =>
        rw [hs] at h
        cases h
        have := split_total t none none l' hs
        cases arg <;> simp [total] at this ⊢ <;> omega
    rw [if_neg h1] at h
    by_cases h2 : c = 34 ∨ c = 39
    · rw [if_pos h2] at h
      have := split_total t (some c) _ l h
      simp only [List.length_cons, Option.getD_some] at this ⊢; omega
    rw [if_neg h2] at h
    by_cases h3 : c = 92
    · rw [if_pos h3] at h
      match t, h with
      | [], h =>
        simp only [List.nil_append, escape, split, Option.toList, Option.some.injEq] at h
        subst h
        simp [total]
      | d :: t, h =>
        have := split_total t none _ l h
        simp at this ⊢; omega
    · rw [if_neg h3] at h
      have := split_total t none _ l h
      simp at this ⊢; omega

theorem first_special : ∀ (t : List UInt8), (∃ c ∈ t, Special c) → ∃ a c b, t = a ++ c :: b ∧ (∀ d ∈ a, ¬ Special d) ∧ Special c
  | [], h => by simp at h
  | c :: t, h => by
    by_cases hc : Special c
    · exact ⟨[], c, t, rfl, by simp, hc⟩
    · obtain ⟨d, hd, hs⟩ := h
      have : d ∈ t := by
        rcases List.mem_cons.1 hd with rfl | k
        · exact absurd hs hc
        · exact k
      obtain ⟨a, c', b, h1, h2, h3⟩ := first_special t ⟨d, this, hs⟩
      refine ⟨c :: a, c', b, by rw [h1]; rfl, ?_, h3⟩
      intro x hx
      rcases List.mem_cons.1 hx with rfl | k
      · exact hc
      · exact h2 x k

end Verif.Xargs
