import Verif.Lemmas.Strmode
/-!
# Mode strings (C53)
-/
namespace Verif.Props
open Verif Verif.Strmode Verif.Spec.Strmode

/-- The twelve permission bits can be read back from the string. -/
theorem C53_permissions (mode : Nat) : readPerm (xstrmode mode) = some (permBits mode) := by
  rw [strmode_eq, readPerm]
  rw [readPlain_eq _ _ (by decide), readPlain_eq _ _ (by decide), readPlain_eq _ _ (by decide), readPlain_eq _ _ (by decide), readPlain_eq _ _ (by decide), readPlain_eq _ _ (by decide)]
  rw [readLast_eq _ _ _ (by decide) (by decide) (by decide) (by decide) (by decide), readLast_eq _ _ _ (by decide) (by decide) (by decide) (by decide) (by decide),
    readLast_eq _ _ _ (by decide) (by decide) (by decide) (by decide) (by decide)]
  simp only [Option.bind_eq_bind, Option.bind_some, Option.pure_def, permBits, Nat.reducePow, Option.some.injEq]
  rw [← sum12]

theorem typeChar_eq (mode : Nat) : typeChar mode = (if typeBits mode = 0o10 then '-' else if typeBits mode = 0o06 then 'b' else if typeBits mode = 0o02 then 'c' else if typeBits mode = 0o04 then 'd'
    else if typeBits mode = 0o12 then 'l' else if typeBits mode = 0o01 then 'p' else if typeBits mode = 0o14 then 's' else '?') := by
  have e : mode &&& 0o170000 = 4096 * typeBits mode := and_type mode
  unfold typeChar
  dsimp only
  rw [e]
  generalize typeBits mode = t
  have h : ∀ k, (4096 * t = 4096 * k) = (t = k) := fun k => propext ⟨fun h => by omega, fun h => by rw [h]⟩
  have h1 := h 0o10; have h2 := h 0o06; have h3 := h 0o02; have h4 := h 0o04; have h5 := h 0o12; have h6 := h 0o01; have h7 := h 0o14
  simp only [Nat.reduceMul] at h1 h2 h3 h4 h5 h6 h7
  simp only [h1, h2, h3, h4, h5, h6, h7]

/-- So can the type, if it is one that exists; any other type is shown as a question mark. -/
theorem C53_type (mode : Nat) : ∃ c rest, xstrmode mode = c :: rest ∧ readType c = (if KnownType (typeBits mode) then some (typeBits mode) else none) ∧ (¬ KnownType (typeBits mode) → c = '?') := by
  rw [strmode_eq]
  refine ⟨_, _, rfl, ?_⟩
  rw [typeChar_eq]
  generalize typeBits mode = t
  unfold KnownType
  by_cases h1 : t = 0o10
  · subst h1; decide
  by_cases h2 : t = 0o06
  · subst h2; decide
  by_cases h3 : t = 0o02
  · subst h3; decide
  by_cases h4 : t = 0o04
  · subst h4; decide
  by_cases h5 : t = 0o12
  · subst h5; decide
  by_cases h6 : t = 0o01
  · subst h6; decide
  by_cases h7 : t = 0o14
  · subst h7; decide
  simp [h1, h2, h3, h4, h5, h6, h7, readType]

/-- The string is always ten characters long, so with the NUL it just fits. -/
theorem C53_length (mode : Nat) : (xstrmode mode).length = 10 := by
  rw [strmode_eq]
  rfl

/-- Two modes have the same string exactly if they have the same permissions and the same type, or both types are unknown. -/
theorem C53_determines (m1 m2 : Nat) : xstrmode m1 = xstrmode m2 ↔
    permBits m1 = permBits m2 ∧ (typeBits m1 = typeBits m2 ∨ (¬ KnownType (typeBits m1) ∧ ¬ KnownType (typeBits m2))) := by
  constructor
  · intro h
    refine ⟨?_, ?_⟩
    · have := C53_permissions m1
      rw [h, C53_permissions m2] at this
      exact (Option.some.inj this).symm
    · obtain ⟨c1, r1, e1, t1, _⟩ := C53_type m1
      obtain ⟨c2, r2, e2, t2, _⟩ := C53_type m2
      rw [e1, e2] at h
      obtain ⟨rfl, rfl⟩ := List.cons.inj h
      rw [t1] at t2
      by_cases k1 : KnownType (typeBits m1)
      · rw [if_pos k1] at t2
        split at t2
        · exact .inl (Option.some.inj t2)
        · cases t2
      · rw [if_neg k1] at t2
        split at t2
        · cases t2
        · rename_i k2; exact .inr ⟨k1, k2⟩
  · rintro ⟨hp, ht⟩
    rw [strmode_eq, strmode_eq]
    have hbit : ∀ k, k < 12 → m1.testBit k = m2.testBit k := by
      intro k hk
      have h1 : (m1 % 2 ^ 12).testBit k = (m2 % 2 ^ 12).testBit k := congrArg (fun n => n.testBit k) hp
      rwa [Nat.testBit_mod_two_pow, Nat.testBit_mod_two_pow, decide_eq_true hk, Bool.true_and, Bool.true_and] at h1
    have htc : typeChar m1 = typeChar m2 := by
      rcases ht with ht | ⟨k1, k2⟩
      · rw [typeChar_eq, typeChar_eq, ht]
      · rw [typeChar_eq, typeChar_eq]
        simp only [KnownType, List.mem_cons, List.not_mem_nil, or_false, not_or] at k1 k2
        simp only [k1, k2, if_false]
    simp only [plainChar, lastChar, htc, hbit 0 (by decide), hbit 1 (by decide), hbit 2 (by decide), hbit 3 (by decide), hbit 4 (by decide), hbit 5 (by decide), hbit 6 (by decide),
      hbit 7 (by decide), hbit 8 (by decide), hbit 9 (by decide), hbit 10 (by decide), hbit 11 (by decide)]

/-! ## Cases -/

example : xstrmode 0o104755 = "-rwsr-xr-x".toList := by decide +kernel
example : xstrmode 0o041777 = "drwxrwxrwt".toList := by decide +kernel
example : xstrmode 0o102644 = "-rw-r-Sr--".toList := by decide +kernel
example : KnownType (typeBits 0o120777) ∧ ¬ KnownType (typeBits 0o070000) := by decide

end Verif.Props
