import Verif.Lemmas.Typo

/-!
# C30: suggestions for mistyped options use a true edit distance
-/
namespace Verif.Props
open Verif.Typo

/-- The distance is the least that any sequence of changes from one string to the other costs. -/
theorem C30_least (actual expected : Bytes) :
    Edits actual expected (typoDistance actual expected) ∧ ∀ cost, Edits actual expected cost → typoDistance actual expected ≤ cost := by
  rw [typoDistance_eq]
  refine ⟨?_, fun c h => lev_edits h⟩
  have := edits_lev actual.reverse expected.reverse
  rwa [List.reverse_reverse, List.reverse_reverse] at this

/-- It is the same in both directions. -/
theorem C30_symmetric (x y : Bytes) : typoDistance x y = typoDistance y x :=
  Nat.le_antisymm ((C30_least x y).2 _ (C30_least y x).1.symm) ((C30_least y x).2 _ (C30_least x y).1.symm)

/-- It is zero for equal strings. -/
theorem C30_equal (x : Bytes) : typoDistance x x = 0 := Nat.le_zero.1 ((C30_least x x).2 0 (.refl x))

/-- It obeys the triangle inequality. -/
theorem C30_triangle (x y z : Bytes) : typoDistance x z ≤ typoDistance x y + typoDistance y z :=
  (C30_least x z).2 _ ((C30_least x y).1.trans (C30_least y z).1)

/-- All numbers in the computation fit into an `int`, if the strings are not longer than 80 million
characters together: rows contain nothing greater than this. -/
theorem C30_small (actual expected : Bytes) (n : Nat)
    (h : n ∈ rows expected actual ((List.range (expected.length + 1)).map (insertCost * ·))) : n ≤ 12 * (actual.length + expected.length) := by
  have h1 := first_row expected []
  rw [List.length_nil, ← List.range_eq_range'] at h1
  rw [h1, rows_eq] at h
  rcases List.mem_cons.1 h with rfl | h
  · have := lev_bound (actual.reverse ++ []) []
    simp at this ⊢
    omega
  · have := rowOf_bound _ _ _ _ h
    simpa using this

/-- The suggestion is one of the options, and none is closer. -/
theorem C30_suggestion (table : List Bytes) (arg : Bytes) (h : table ≠ []) :
    ∃ best, tableLookupFuzzy table arg = some best ∧ best ∈ table ∧ ∀ option ∈ table, typoDistance arg best ≤ typoDistance arg option := by
  cases table with
  | nil => exact absurd rfl h
  | cons e table =>
    obtain ⟨r, h1, h2, h3⟩ := fuzzyLoop_spec arg table [e] e (by simp) (fun x hx => by rw [List.mem_singleton.1 hx]; exact Nat.le_refl _)
    refine ⟨r, ?_, h2, h3⟩
    unfold tableLookupFuzzy
    rw [fuzzyLoop]
    rw [h1]
    rfl

/-- The converse of `C30_equal` is false: characters that are not on the keyboard are all in the same
place, which is also that of the backquote. -/
theorem C30_zero_counterexample : typoDistance [96] [128] = 0 := by decide

/-- `-nmae` and `-name`: two keys pressed in the wrong order. -/
example : typoDistance [45, 110, 109, 97, 101] [45, 110, 97, 109, 101] = 24 := by decide
/-- `-naem`, `-mame` -/
example : tableLookupFuzzy [[45, 112, 97, 116, 104], [45, 110, 97, 109, 101], [45, 110, 111, 116]] [45, 109, 97, 109, 101] = some [45, 110, 97, 109, 101] := by decide
example : Edits [97, 98] [98] 12 := .step (.refl _) (.delete [] [98] 97)

end Verif.Props
