import Verif.Lemmas.Quote
/-!
# C13, C14, C58: escaping for shells and terminals
-/
namespace Verif.Props
open Verif Verif.Quote Verif.Spec.Quote

/-- The C locale, for the examples. -/
def cLocale : Locale where
  σ := Unit
  init := ()
  isprint c := 32 ≤ c && c ≤ 126
  isspace c := c == 32 || (9 ≤ c && c ≤ 13)
  mbrtowc _ rest := match rest with
    | [] => none
    | c :: _ => if c < 128 then some (1, c.toNat, ()) else none
  iswprint c := 32 ≤ c && c ≤ 126
  iswspace c := c == 32 || (9 ≤ c && c ≤ 13)

theorem cLocale_ok : cLocale.OK where
  progress st rest n wc st' hr h := by
    unfold cLocale at h
    cases rest with
    | nil => exact absurd rfl hr
    | cons c cs =>
      simp only at h
      split at h
      · simp only [Option.some.injEq, Prod.mk.injEq] at h
        simp; omega
      · exact absurd h (by simp)

theorem cLocale_byte (st : Unit) (rest : Bytes) (n wc : Nat) (st' : Unit) (h : cLocale.mbrtowc st rest = some (n, wc, st')) :
    ∃ c cs, rest = c :: cs ∧ n = 1 ∧ wc = c.toNat := by
  unfold cLocale at h
  cases rest with
  | nil => exact absurd h (by simp)
  | cons c cs =>
    simp only at h
    split at h
    · simp only [Option.some.injEq, Prod.mk.injEq] at h
      exact ⟨c, cs, rfl, h.1.symm, h.2.1.symm⟩
    · exact absurd h (by simp)

theorem cLocale_hides : cLocale.Hides false fun c => c = 9 ∨ c = 10 where
  byte c hc := by rcases hc with rfl | rfl <;> exact ⟨by decide, by simp⟩
  wide st rest n wc st' h hc := by
    obtain ⟨c, cs, rfl, rfl, rfl⟩ := cLocale_byte st rest n wc st' h
    obtain ⟨x, hx, hc⟩ := hc
    simp at hx
    subst hx
    rcases hc with rfl | rfl <;> exact ⟨by decide, by simp⟩

theorem cLocale_control : cLocale.Hides false fun c => c < 32 ∨ c = 127 where
  byte c hc := by
    refine ⟨?_, by simp⟩
    rcases hc with h | rfl
    · simp only [cLocale, Bool.and_eq_false_iff, decide_eq_false_iff_not]
      left; exact UInt8.not_le.2 h
    · decide
  wide st rest n wc st' h hc := by
    obtain ⟨c, cs, rfl, rfl, rfl⟩ := cLocale_byte st rest n wc st' h
    obtain ⟨x, hx, hc⟩ := hc
    simp at hx
    subst hx
    refine ⟨?_, by simp⟩
    rcases hc with h | rfl
    · simp only [cLocale, Bool.and_eq_false_iff, decide_eq_false_iff_not]
      left
      have : x.toNat < 32 := UInt8.lt_iff_toNat_lt.1 h
      omega
    · decide

/-- C13: whatever the locale considers printable (as long as tabs and newlines are not), the
shell-escaped form of every byte string is one shell word that reads back as that string. -/
theorem C13_shell_round_trip (L : Locale) (hL : L.OK) (hB : L.Hides false fun c => c = 9 ∨ c = 10) (s : Bytes) :
    ∃ out, escape L true s = .ok out ∧ oneWord out = some s := by
  have hlen := wordStr_length L true s
  refine ⟨wordStr' L true s, ?_, ?_⟩
  · exact escape_eq ..
  · have := lex_word hL hB s
    unfold oneWord wordStr'
    by_cases h : wordStr L true s = []
    · rw [h] at this
      simp only [lex, Option.some.injEq] at this
      rw [if_pos h, ← this]; rfl
    · rw [if_neg h, if_neg h]
      exact this

-- `it's`, `a b`, a tab, and the empty string in the C locale
example : escape cLocale true [105, 116, 39, 115] = .ok [34, 105, 116, 39, 115, 34] := by decide +kernel
example : escape cLocale true [36, 39] = .ok [39, 36, 39, 92, 39] := by decide +kernel
example : escape cLocale true [97, 9, 39] = .ok [36, 39, 97, 92, 116, 92, 39, 39] := by decide +kernel
example : escape cLocale true [] = .ok [34, 34] := by decide +kernel
example : oneWord [39, 36, 39, 92, 39] = some [36, 39] := by decide +kernel
example (s : Bytes) : ∃ out, escape cLocale true s = .ok out ∧ oneWord out = some s :=
  C13_shell_round_trip cLocale cLocale_ok cLocale_hides s

/-- C14: the space reserved for an escaped string always suffices, for every locale (even one
that breaks the rules), mode and string. -/
theorem C14_never_truncated (L : Locale) (shell : Bool) (s : Bytes) :
    ∃ out, escape L shell s = .ok out ∧ 0 < out.length ∧ out.length ≤ 4 * s.length + 3 := by
  have hlen := wordStr_length L shell s
  refine ⟨wordStr' L shell s, ?_, ?_, hlen⟩
  · exact escape_eq ..
  · unfold wordStr'
    split
    · simp
    · exact List.length_pos_iff.2 ‹_›

-- the worst case is reached: two control characters take 4 * 2 + 3 bytes
example : escape cLocale true [1, 2] = .ok [36, 39, 92, 120, 48, 49, 92, 120, 48, 50, 39] := by decide +kernel

/-- C14: in a buffer of any size, what is written is the full escaped form if it fits with its
terminating NUL, and otherwise as much of it as does, with the result reporting truncation. -/
theorem C14_any_buffer (L : Locale) (shell : Bool) (s pre : Bytes) (room : Nat) (hr : 0 < room) :
    ∃ out, escape L shell s = .ok out ∧
      wordnesc L shell ⟨pre, room⟩ s =
        if out.length < room then ⟨pre ++ out, room - out.length⟩ else ⟨pre ++ out.take (room - 1), 0⟩ := by
  have hlen := wordStr_length L shell s
  refine ⟨wordStr' L shell s, ?_, ?_⟩
  · exact escape_eq ..
  · rw [wordnesc_eq _ _ _ _ hr]
    rfl

example : wordnesc cLocale true ⟨[], 5⟩ [97, 9] = ⟨[36, 39, 97, 92], 0⟩ := by decide +kernel

/-- C58: bytes outside printing ASCII that the locale never considers printable (nor, without
the shell flag, white space) do not appear in the escaped form, so no control sequences reach
the terminal. -/
theorem C58_no_control (L : Locale) (hL : L.OK) (shell : Bool) (bad : UInt8 → Prop) (hbad : ∀ c, bad c → c < 32 ∨ 126 < c)
    (hB : L.Hides (!shell) bad) (s out : Bytes) (h : escape L shell s = .ok out) : ∀ c ∈ out, ¬ bad c := by
  have hlen := wordStr_length L shell s
  rw [escape_eq] at h
  cases h
  refine wordStr'_clean hL hB ?_ s
  intro c hg hb
  obtain ⟨h1, h2⟩ := hg
  rcases hbad c hb with h | h
  · exact absurd h1 (UInt8.not_le.2 h)
  · exact absurd h2 (UInt8.not_le.2 h)

-- in the C locale the shell-escaped form contains no control character at all
example (s out : Bytes) (h : escape cLocale true s = .ok out) : ∀ c ∈ out, ¬ (c < 32 ∨ c = 127) :=
  C58_no_control cLocale cLocale_ok true _ (fun c h => h.imp id (by rintro rfl; decide)) cLocale_control s out h

/-- The word-at-a-time scan for non-ASCII bytes finds the first one, for both word sizes. -/
theorem C58_ascii_prefix (s : Bytes) :
    asciinlen s = (s.takeWhile (· < 128)).length ∧ asciinlen32 s = (s.takeWhile (· < 128)).length :=
  ⟨asciinlen_eq s, asciinlen32_eq s⟩

example : asciinlen [97, 98, 99, 100, 101, 102, 103, 104, 105, 200, 106] = 9 := by decide +kernel

end Verif.Props
