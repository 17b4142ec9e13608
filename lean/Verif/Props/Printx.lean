import Verif.Lemmas.Printx
/-!
# `-printx` and `-X`: the theorems

C93: what `-printx` prints is read by xargs as the paths, for any paths; and `-X` skips exactly those paths that xargs would misread if they were printed by `-print`.
-/
namespace Verif.Props
open Verif.Printx
open Verif.Bftw (unsafePath)

/-- **C93 (-printx).** Whatever bytes the paths contain, xargs makes exactly these paths of what `-printx` prints for them, in the same order. -/
theorem C93_printx : ∀ (paths : List Bytes), (∀ p ∈ paths, p ≠ []) → Xargs.args (paths.flatMap printx) = some paths
  | [], _ => rfl
  | p :: ps, h => by
    have ih := C93_printx ps fun q hq => h q (by simp [hq])
    unfold Xargs.args at ih ⊢
    rw [List.flatMap_cons, printx, Xargs.printxLoop_eq, List.append_assoc, Xargs.split_escs _ _ _ (.inl (h p (by simp))), List.singleton_append, Xargs.split_sep _ _ _ (by decide), ih]
    rfl

/-- **C93 (-printx, like -print).** Paths without blanks, newlines, backslashes, quotes and dollar signs are printed as they are, on a line. -/
theorem C93_like_print (path : Bytes) (h : ∀ c ∈ path, ¬ Xargs.Special c ∧ c ≠ 36 ∧ c ≠ 96) : printx path = print path := by
  rw [printx, Xargs.printxLoop_eq, Xargs.flatMap_plain, print]
  intro c hc
  obtain ⟨h1, h2, h3⟩ := h c hc
  cases hk : escaped.contains c with
  | false => rfl
  | true =>
    exfalso
    unfold Xargs.Special at h1
    simp only [escaped, List.contains_cons, List.contains_nil, Bool.or_false, Bool.or_eq_true, beq_iff_eq] at hk
    rcases hk with k | k | k | k | k | k | k | k <;> simp [k] at h1 h2 h3

/-- **C93 (-X).** xargs reads what `-print` prints for a path as that path if and only if `-X` does not skip it: there are no unsafe paths that `-X` lets pass, and no safe ones that
it skips. -/
theorem C93_X (path : Bytes) (h : path ≠ []) : Xargs.args (print path) = some [path] ↔ unsafePath path = false := by
  have key : unsafePath path = false ↔ ∀ c ∈ path, ¬ Xargs.Special c := by
    unfold unsafePath Xargs.Special
    rw [List.any_eq_false]
    constructor
    · intro k c hc hs
      apply k c hc
      rcases hs with rfl | rfl | rfl | rfl | rfl | rfl <;> decide
    · intro k c hc hs
      apply k c hc
      simp only [List.contains_cons, List.contains_nil, Bool.or_false, Bool.or_eq_true, beq_iff_eq] at hs
      rcases hs with hs | hs | hs | hs | hs | hs <;> simp [hs]
  rw [key]
  unfold Xargs.args print
  constructor
  · intro hr
    apply Classical.byContradiction
    intro hn
    obtain ⟨a, c, b, rfl, ha, hc⟩ := Xargs.first_special path (by
      apply Classical.byContradiction
      intro k
      exact hn fun c hc hs => k ⟨c, hc, hs⟩)
    rw [List.append_assoc, List.cons_append] at hr
    have htot : Xargs.total [a ++ c :: b] = a.length + b.length + 1 := by simp [Xargs.total]; omega
    have hpre : ∃ arg : Option Bytes, arg.getD [] = a ∧ Xargs.split none none (a ++ (c :: (b ++ [10]))) = Xargs.split none arg (c :: (b ++ [10])) := by
      by_cases hz : a = []
      · exact ⟨none, hz ▸ rfl, by rw [hz]; rfl⟩
      · exact ⟨some a, rfl, by rw [Xargs.split_plains _ _ _ ha (.inl hz)]; rfl⟩
    obtain ⟨arg, harg, he⟩ := hpre
    rw [he] at hr
    rcases hc with hc | hc | hc | hc | hc | hc
    iterate 3
      rw [Xargs.split_sep _ _ _ (by simp [hc])] at hr
      cases hs : Xargs.split none none (b ++ [10]) with
      | none => rw [hs] at hr; cases hr
      | some l =>
        rw [hs] at hr
        injection hr with hr
        have h1 := Xargs.split_total b none none l hs
        have h2 := congrArg Xargs.total hr
        rw [htot] at h2
        have h3 : Xargs.total (arg.toList ++ l) = a.length + Xargs.total l := by
          rw [← harg]
          cases arg <;> simp [Xargs.total]
        rw [h3] at h2
        simp at h1
        omega
    iterate 2
      rw [Xargs.split_open _ _ _ (by simp [hc])] at hr
      have := Xargs.split_total b _ _ _ hr
      rw [htot, Option.getD_some, harg] at this
      omega
    · subst hc
      match b, hr with
      | [], hr =>
        rw [List.nil_append, Xargs.split_escape, harg] at hr
        simp [Xargs.split] at hr
      | d :: b, hr =>
        rw [List.cons_append, Xargs.split_escape] at hr
        have := Xargs.split_total b _ _ _ hr
        rw [htot, Option.getD_some, harg] at this
        simp at this
        omega
  · intro hs
    rw [Xargs.split_plains _ _ _ hs (.inl h), Xargs.split_sep _ _ _ (by decide)]
    rfl

/-- **C93 (-X).** With `-X`, xargs reads the paths that `-print` prints, in the same order. -/
theorem C93_X_all : ∀ (paths : List Bytes), (∀ p ∈ paths, p ≠ [] ∧ unsafePath p = false) → Xargs.args (paths.flatMap print) = some paths
  | [], _ => rfl
  | p :: ps, h => by
    have ih := C93_X_all ps fun q hq => h q (by simp [hq])
    unfold Xargs.args at ih ⊢
    have hs : ∀ c ∈ p, ¬ Xargs.Special c := by
      intro c hc hs
      have := List.any_eq_false.1 (h p (by simp)).2 c hc
      apply this
      rcases hs with rfl | rfl | rfl | rfl | rfl | rfl <;> decide
    rw [List.flatMap_cons, print, List.append_assoc, Xargs.split_plains _ _ _ hs (.inl (h p (by simp)).1), List.singleton_append, Xargs.split_sep _ _ _ (by decide), ih]
    rfl

/-! ## Examples -/

/-- `a b`, `c\`, `it's` and a newline. -/
example : Xargs.args ([[97, 32, 98], [99, 92], [105, 116, 39, 115], [10]].flatMap printx) = some [[97, 32, 98], [99, 92], [105, 116, 39, 115], [10]] :=
  C93_printx _ (by decide)
/-- `a $`: both the space and the dollar sign are escaped. -/
example : printx [97, 32, 36] = [97, 92, 32, 92, 36, 10] := by rw [printx, Xargs.printxLoop_eq]; decide
example : unsafePath [97, 32, 98] = true ∧ unsafePath [97, 47, 98] = false := by decide
example : Xargs.args (print [97, 32, 98]) = some [[97], [98]] := by decide
/-- A backslash at the end makes the newline a part of the argument. -/
example : Xargs.args (print [97, 92]) = some [[97, 10]] := by decide

end Verif.Props
