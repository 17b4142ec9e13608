import Verif.Lemmas.Color
/-! Lemmas about malformed chunks of `$LS_COLORS`. -/
namespace Verif.Color

theorem item_snoc {text rest : Bytes} {b : UInt8} (h : Item text b rest) {c : UInt8} (hc : c = 92 ∨ c = 94) : Item text b (rest ++ [c]) := by
  have hoct : ¬ OctDigit c := by rcases hc with rfl | rfl <;> unfold OctDigit <;> decide
  have hhex : ∀ d, ¬ HexDigit c d := by
    intro d h
    unfold HexDigit at h
    rcases hc with rfl | rfl
    · have : (92 : UInt8).toNat = 92 := rfl
      rw [this] at h; omega
    · have : (94 : UInt8).toNat = 94 := rfl
      rw [this] at h; omega
  cases h with
  | plain _ _ h1 h2 => exact .plain _ _ h1 h2
  | letter c' _ _ h => exact .letter _ _ _ h
  | octal ds _ h1 h2 h3 =>
    refine .octal ds _ h1 h2 ?_
    intro x hx
    cases rest with
    | nil => have : c = x := by simpa using hx
             subst this; exact hoct
    | cons y r => exact h3 x (by simpa using hx)
  | hex x ds _ n h1 h2 h3 =>
    refine .hex x ds _ n h1 h2 ?_
    intro y d hy
    cases rest with
    | nil => have : c = y := by simpa using hy
             subst this; exact hhex d
    | cons z r => exact h3 y d (by simpa using hy)
  | other _ _ h1 h2 h3 h4 => exact .other _ _ h1 h2 h3 h4
  | delete => exact .delete _
  | control c' _ h => exact .control c' _ h

theorem item_unsnoc {text rest : Bytes} {b c : UInt8} (h : Item text b (rest ++ [c])) : Item text b rest := by
  generalize hr : rest ++ [c] = r at h
  have hh : ∀ x, rest.head? = some x → r.head? = some x := by
    intro x hx
    rw [← hr]
    cases rest with
    | nil => cases hx
    | cons y rest => simpa using hx
  cases h with
  | plain _ _ h1 h2 => exact .plain _ _ h1 h2
  | letter c' _ _ h => exact .letter _ _ _ h
  | octal ds _ h1 h2 h3 => exact .octal ds _ h1 h2 fun x hx => h3 x (hh x hx)
  | hex x ds _ n h1 h2 h3 => exact .hex x ds _ n h1 h2 fun y d hy => h3 y d (hh y hy)
  | other _ _ h1 h2 h3 h4 => exact .other _ _ h1 h2 h3 h4
  | delete => exact .delete _
  | control c' _ h => exact .control c' _ h

theorem unescape1_none {c : UInt8} {s : Bytes} (h : unescape1 c s = none) : s = [] ∧ (c = 92 ∨ c = 94) := by
  unfold unescape1 at h
  by_cases h1 : c = 92
  · rw [if_pos h1] at h
    refine ⟨?_, Or.inl h1⟩
    cases s with
    | nil => rfl
    | cons x s =>
      exfalso
      unfold backslash at h
      dsimp only at h
      cases hl : letter x with
      | some b => rw [hl] at h; cases h
      | none =>
        rw [hl] at h
        dsimp only at h
        by_cases h2 : isOct x = true
        · rw [if_pos h2] at h; cases h
        · rw [if_neg h2] at h
          by_cases h3 : x = 88 ∨ x = 120
          · rw [if_pos h3] at h; cases h
          · rw [if_neg h3] at h; cases h
  · rw [if_neg h1] at h
    by_cases h2 : c = 94
    · rw [if_pos h2] at h
      refine ⟨?_, Or.inr h2⟩
      cases s with
      | nil => rfl
      | cons x s =>
        exfalso
        unfold caret at h
        dsimp only at h
        by_cases h3 : x = 63
        · rw [if_pos h3] at h; cases h
        · rw [if_neg h3] at h; cases h
    · rw [if_neg h2] at h; cases h

theorem unescapeLoop_err (stop : UInt8) : ∀ (n : Nat) (str s : Bytes), s.length ≤ n → unescapeLoop n str s stop = .err "EINVAL" →
    ∃ pre bs c, s = pre ++ [c] ∧ (c = 92 ∨ c = 94) ∧ c ≠ stop ∧ Chunk stop pre bs none := by
  intro n
  induction n with
  | zero =>
    intro str s hs h
    cases s with
    | nil => cases h
    | cons c s => simp at hs
  | succ n ih =>
    intro str s hs h
    cases s with
    | nil => cases h
    | cons c s =>
      rw [unescapeLoop_cons] at h
      by_cases hc : c = stop
      · rw [if_pos hc] at h; cases h
      · rw [if_neg hc] at h
        cases hu : unescape1 c s with
        | none =>
          obtain ⟨h1, h2⟩ := unescape1_none hu
          subst h1
          exact ⟨[], [], c, rfl, h2, hc, .done⟩
        | some v =>
          obtain ⟨b, rest⟩ := v
          rw [hu] at h
          obtain ⟨t, h1, h2⟩ := item_sound hu
          have hl : rest.length < (c :: s).length := by rw [h1]; simp; omega
          simp only [List.length_cons] at hs hl
          obtain ⟨pre, bs, c', g1, g2, g3, g4⟩ := ih _ rest (by omega) h
          subst g1
          refine ⟨(c :: t) ++ pre, b :: bs, c', by rw [h1]; simp, g2, g3, ?_⟩
          exact .item (c :: t) pre bs b none (by
            intro h
            have : c = stop := by simpa using h
            exact hc this) (item_unsnoc h2) g4

theorem unescapeLoop_err_of {stop : UInt8} {pre bs : Bytes} {next : Option Bytes} (h : Chunk stop pre bs next) {c : UInt8} (hc : c = 92 ∨ c = 94) (hs : c ≠ stop) :
    next = none → ∀ (n : Nat) (str : Bytes), (pre ++ [c]).length ≤ n → unescapeLoop n str (pre ++ [c]) stop = .err "EINVAL" := by
  induction h with
  | done =>
    intro _ n str hn
    cases n with
    | zero => simp at hn
    | succ n =>
      show unescapeLoop (n + 1) str [c] stop = _
      rw [unescapeLoop_cons, if_neg hs]
      rcases hc with rfl | rfl <;> rfl
  | stop rest => intro h; cases h
  | item text rest bs b next ht hi _ ih =>
    intro h0 n str hn
    obtain ⟨x, s, h1, h2, h3, h4⟩ := item_complete (item_snoc hi hc)
    rw [List.append_assoc] at hn ⊢
    rw [h1] at hn ⊢
    cases n with
    | zero => simp at hn
    | succ n =>
      rw [unescapeLoop_cons, if_neg (fun h => ht (by rw [h2, h])), h4]
      dsimp only
      exact ih h0 n (str ++ [b]) (by simp only [List.length_cons] at hn; omega)

theorem unescape_err (s : Bytes) (stop : UInt8) : unescape (some s) stop = .err "EINVAL" ↔
    ∃ pre bs c, s = pre ++ [c] ∧ (c = 92 ∨ c = 94) ∧ c ≠ stop ∧ Chunk stop pre bs none := by
  constructor
  · exact unescapeLoop_err stop s.length [] s (Nat.le_refl _)
  · rintro ⟨pre, bs, c, rfl, hc, hs, h⟩
    exact unescapeLoop_err_of h hc hs rfl _ [] (Nat.le_refl _)

end Verif.Color
