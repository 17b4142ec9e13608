import Verif.Lemmas.Regex
import Verif.Model.Tests
/-!
# Properties of `-regex` (C85)
-/
namespace Verif.Props
open Verif.Regex

/-- C85 (with the system's regular expressions): `-regex` is true if and only if the expression matches the whole path, whatever other matches there are; errors are reported. -/
theorem C85_posix {R : Meaning} {regexec : Regex.Bytes → Posix} (h : PosixSays R regexec) (path : Regex.Bytes) :
    matcher (posixExec regexec) path = match regexec path with
      | .error code => .error code
      | _ => .ok (@decide (R path 0 path.length) (Classical.propDecidable _)) := by
  unfold matcher
  cases hr : regexec path with
  | error code =>
    have e : posixExec regexec true path = (-1, some code) := by unfold posixExec; rw [hr]
    rw [e]; rfl
  | missing =>
    have := h.missing path hr 0 path.length (by omega) (by omega)
    have e : posixExec regexec true path = (0, none) := by unfold posixExec; rw [hr]
    rw [e]
    simp [outcome, this]
  | found so eo =>
    obtain ⟨h1, h2, h3, h4⟩ := h.found path so eo hr
    have e : posixExec regexec true path = ((if so = 0 ∧ eo = path.length then 1 else 0), none) := by unfold posixExec; rw [hr]; rfl
    rw [e]
    by_cases hR : R path 0 path.length
    · have := h4 0 path.length hR (by omega) (by omega)
      rw [if_pos (by omega)]
      simp [outcome, hR]
    · rw [if_neg (by rintro ⟨rfl, rfl⟩; exact hR h1)]
      simp [outcome, hR]

/-- C85 (the test): `-regex` with the system's regular expressions, on a file. -/
theorem C85_test {R : Meaning} {regexec : Regex.Bytes → Posix} (h : PosixSays R regexec) (f : Tests.File) (hok : ∀ code, regexec f.buf.path ≠ .error code) :
    ∃ b, Tests.evalRegex f (matcher (posixExec regexec)) = .ok (b, []) ∧ (b = true ↔ R f.buf.path 0 f.buf.path.length) := by
  have e := C85_posix h f.buf.path
  unfold Tests.evalRegex
  rw [e]
  generalize hr : regexec f.buf.path = q
  cases q with
  | error code => exact absurd hr (hok code)
  | missing => exact ⟨_, rfl, by simp⟩
  | found so eo => exact ⟨_, rfl, by simp⟩

/-- C85 (and without anchors, as the answers to `-ok` are checked): if and only if any part matches. -/
theorem C85_posix_search {R : Meaning} {regexec : Regex.Bytes → Posix} (h : PosixSays R regexec) (s : Regex.Bytes) (hok : ∀ code, regexec s ≠ .error code) :
    (posixExec regexec false s).1 = 1 ↔ ∃ so eo, so ≤ eo ∧ eo ≤ s.length ∧ R s so eo := by
  unfold posixExec
  cases hr : regexec s with
  | error code => exact absurd hr (hok code)
  | missing =>
    refine ⟨fun e => (by cases e), ?_⟩
    rintro ⟨so, eo, h1, h2, h3⟩
    exact absurd h3 (h.missing s hr so eo h1 h2)
  | found so eo =>
    obtain ⟨h1, h2, h3, _⟩ := h.found s so eo hr
    exact ⟨fun _ => ⟨so, eo, h2, h3, h1⟩, fun _ => rfl⟩

/-- C85 (with Oniguruma, one direction): if `-regex` is true, the expression matches the whole path. -/
theorem C85_onig_partial {R : Meaning} {lib : OnigLib} (h : OnigSays R lib) {path : Regex.Bytes} (ht : matcher (onigExec lib) path = .ok true) : R path 0 path.length := by
  unfold matcher at ht
  cases hv : lib.valid path with
  | false =>
    have e : onigExec lib true path = (0, none) := by unfold onigExec; rw [hv]; rfl
    rw [e] at ht; cases ht
  | true =>
    have e : ∀ n, lib.matches_ path = .found n → onigExec lib true path = ((if n = path.length then 1 else 0), none) := by
      intro n hn; unfold onigExec onigCall; rw [hv, if_pos rfl, hn]; rfl
    cases hm : lib.matches_ path with
    | found n =>
      rw [e n hm] at ht
      by_cases hn : n = path.length
      · subst hn; exact (h.matched path _ hm).1
      · rw [if_neg hn] at ht; cases ht
    | mismatch =>
      have e : onigExec lib true path = (0, none) := by unfold onigExec onigCall; rw [hv, if_pos rfl, hm]; rfl
      rw [e] at ht; cases ht
    | error code =>
      have e : onigExec lib true path = (-1, some code) := by unfold onigExec onigCall; rw [hv, if_pos rfl, hm]; rfl
      rw [e] at ht; cases ht

/-- The meaning of an expression. -/
def meaning (r : Re) : Meaning := fun s so eo => Denotes r ((s.take eo).drop so) (s.drop eo)

/-- Oniguruma, with an expression of `Model/Regex.lean` (searching tries every offset). -/
noncomputable def onig (valid : Regex.Bytes → Bool) (r : Re) : OnigLib where
  valid := valid
  matches_ := r.backtrack
  search s := match (List.range (s.length + 1)).find? (fun i => !(r.ends (s.drop i)).isEmpty) with
    | some i => .found i
    | none => .mismatch

theorem onig_says (valid : Regex.Bytes → Bool) (r : Re) : OnigSays (meaning r) (onig valid r) := by
  have key : ∀ (s : Regex.Bytes) (so eo : Nat), so ≤ eo → eo ≤ s.length → (meaning r s so eo ↔ s.drop eo ∈ r.ends (s.drop so)) := by
    intro s so eo h1 h2
    rw [ends_iff]
    unfold meaning
    have e : s.drop so = (s.take eo).drop so ++ s.drop eo := by
      have h3 : so ≤ (s.take eo).length := by rw [List.length_take]; omega
      have := List.drop_append_of_le_length (l₂ := s.drop eo) h3
      rw [List.take_append_drop] at this
      exact this
    refine ⟨fun h => ⟨_, e, h⟩, ?_⟩
    rintro ⟨u, hu, hd⟩
    have : u = (s.take eo).drop so := by
      rw [e] at hu
      exact (List.append_cancel_right hu).symm
    rw [← this]; exact hd
  have suffix : ∀ (s t : Regex.Bytes), t ∈ r.ends s → t.length ≤ s.length ∧ t = s.drop (s.length - t.length) := by
    intro s t ht
    obtain ⟨u, rfl, _⟩ := ends_sound r s t ht
    refine ⟨by simp, ?_⟩
    rw [List.length_append, Nat.add_sub_cancel, List.drop_left]
  refine ⟨?_, ?_, ?_, ?_⟩
  · intro s n hn
    have hn : r.backtrack s = .found n := hn
    unfold Re.backtrack at hn
    split at hn
    · cases hn
    · next t ts ht =>
      injection hn with hn
      obtain ⟨h1, h2⟩ := suffix s t (by rw [ht]; simp)
      refine ⟨?_, by omega⟩
      rw [key s 0 n (by omega) (by omega), ← hn, ← h2, List.drop_zero, ht]
      simp
  · intro s hs n hn
    have hs : r.backtrack s = .mismatch := hs
    unfold Re.backtrack at hs
    split at hs
    · next ht => rw [key s 0 n (by omega) hn, List.drop_zero, ht]; simp
    · cases hs
  · intro s so hso
    unfold onig at hso
    dsimp only at hso
    split at hso
    · next i hi =>
      injection hso with hso
      subst hso
      have h1 := List.find?_some hi
      have h2 := List.mem_range.1 (List.mem_of_find?_eq_some hi)
      cases ht : r.ends (s.drop i) with
      | nil => rw [ht] at h1; simp at h1
      | cons t ts =>
        obtain ⟨h3, h4⟩ := suffix (s.drop i) t (by rw [ht]; simp)
        rw [List.length_drop] at h3 h4
        refine ⟨s.length - t.length, by omega, by omega, ?_⟩
        rw [key s i _ (by omega) (by omega), ht]
        rw [List.drop_drop] at h4
        have : i + (s.length - i - t.length) = s.length - t.length := by omega
        rw [this] at h4
        rw [← h4]
        simp
    · cases hso
  · intro s hs so eo h1 h2
    unfold onig at hs
    dsimp only at hs
    split at hs
    · cases hs
    · next hf =>
      rw [List.find?_eq_none] at hf
      have := hf so (List.mem_range.2 (by omega))
      simp at this
      rw [key s so eo h1 h2, this]
      simp

/-- C85 (with Oniguruma, the other direction is false): `-regex 'a|ab'` does not match `ab`, because the first alternative is taken; with the system's regular expressions it does. -/
theorem C85_onig_counterexample : ∃ (r : Re) (path : Regex.Bytes), Denotes r path [] ∧ matcher (onigExec (onig (fun _ => true) r)) path = .ok false :=
  ⟨.alt (.set (· == 97)) (.cat (.set (· == 97)) (.set (· == 98))), [97, 98],
    .right _ _ _ _ (.cat _ _ [97] [98] [] (.set _ _ _ rfl) (.set _ _ _ rfl)), rfl⟩

/-- C85 (the way around it): with a `$` at the end, `-regex` is true if and only if the expression matches the whole path, if that is valid in the encoding. -/
theorem C85_onig_dollar (valid : Regex.Bytes → Bool) (r : Re) (path : Regex.Bytes) :
    matcher (onigExec (onig valid (.cat r .eol))) path = .ok true ↔ valid path = true ∧ Denotes r path [] := by
  have he : (Re.cat r .eol).ends path = (r.ends path).filter (fun t => decide (t = [])) := by
    rw [Re.ends]
    induction r.ends path with
    | nil => rfl
    | cons t ts ih =>
      rw [List.flatMap_cons, ih, List.filter_cons, Re.ends]
      by_cases h : t = []
      · simp [h]
      · simp [h]
  have hd : Denotes r path [] ↔ [] ∈ r.ends path := by
    rw [ends_iff]
    exact ⟨fun h => ⟨path, by simp, h⟩, fun ⟨u, e, h⟩ => by rw [List.append_nil] at e; rw [e]; exact h⟩
  unfold matcher
  cases hv : valid path with
  | false =>
    have e : onigExec (onig valid (.cat r .eol)) true path = (0, none) := by
      unfold onigExec; rw [show (onig valid (Re.cat r .eol)).valid path = false from hv]; rfl
    rw [e]; simp [outcome]
  | true =>
    have hb : (onig valid (Re.cat r .eol)).matches_ path = (Re.cat r .eol).backtrack path := rfl
    unfold Re.backtrack at hb
    rw [he] at hb
    rw [hd]
    cases hf : (r.ends path).filter (fun t => decide (t = [])) with
    | nil =>
      rw [hf] at hb
      have e : onigExec (onig valid (.cat r .eol)) true path = (0, none) := by
        unfold onigExec onigCall; rw [show (onig valid (Re.cat r .eol)).valid path = true from hv, if_pos rfl, hb]; rfl
      rw [e]
      rw [List.filter_eq_nil_iff] at hf
      exact ⟨fun h => (by cases h), fun h => absurd (by simp) (hf _ h.2)⟩
    | cons t ts =>
      rw [hf] at hb
      have : t ∈ (r.ends path).filter (fun t => decide (t = [])) := by rw [hf]; simp
      obtain ⟨h1, h2⟩ := List.mem_filter.1 this
      have h2 : t = [] := by simpa using h2
      subst h2
      have e : onigExec (onig valid (.cat r .eol)) true path = (1, none) := by
        unfold onigExec onigCall; rw [show (onig valid (Re.cat r .eol)).valid path = true from hv, if_pos rfl, hb]; simp
      rw [e]
      exact ⟨fun _ => ⟨rfl, h1⟩, fun _ => rfl⟩

/-- C85 (files whose names are not valid in the encoding never match, not even `.*`). -/
theorem C85_invalid (valid : Regex.Bytes → Bool) (r : Re) (path : Regex.Bytes) (h : valid path = false) : matcher (onigExec (onig valid r)) path = .ok false := by
  unfold matcher outcome onigExec onig
  simp [h]

/-- C85 (the same expression means the same wherever it is on the command line): if the library adds the options of the syntax by itself, an expression's options are those of its type and `-iregex`. -/
theorem C85_options (lib : Type_ → Opts) (init : Bool) (res : List (Type_ × Bool)) :
    compileAll true lib init res = res.map fun r => (syntaxOptions lib true r.1).or { ignorecase := r.2 } := by
  induction res generalizing init with
  | nil => rfl
  | cons r res ih =>
    obtain ⟨t, icase⟩ := r
    rw [compileAll, ih, List.map_cons]
    congr 1
    unfold compiledOptions regcompOptions
    rw [if_pos rfl]
    cases init with
    | true => cases syntaxOptions lib true t; simp [Opts.or, Bool.or_comm, Bool.or_left_comm, Bool.or_assoc]
    | false =>
      cases t <;> simp only [syntaxOptions, Bool.false_eq_true, if_false, if_true, Opts.or, Bool.false_or] <;> simp [Bool.or_comm, Bool.or_left_comm, Bool.or_assoc]

/-- C85: it relies on the library for that, since the options that it passes are read before the syntaxes are initialized: of two equal expressions, the second would have other options. -/
theorem C85_options_counterexample : compileAll false (fun _ => {}) false [(.gnuFind, false), (.gnuFind, false)] = [{}, { multiline := true }] := rfl

example : ∃ (R : Meaning) (regexec : Regex.Bytes → Posix), PosixSays R regexec ∧ regexec [97, 97] = .found 0 2 ∧ matcher (posixExec regexec) [97, 97] = .ok true ∧
    regexec [98, 97] = .found 1 2 ∧ matcher (posixExec regexec) [98, 97] = .ok false :=
  ⟨fun s so eo => eo = s.length ∧ so = s.length - (s.reverse.takeWhile (· == 97)).length, fun s => .found (s.length - (s.reverse.takeWhile (· == 97)).length) s.length,
    ⟨by
      intro s so eo h
      injection h with h1 h2
      refine ⟨⟨h2.symm, h1.symm⟩, by omega, by omega, ?_⟩
      rintro so' eo' ⟨rfl, rfl⟩ _ _
      exact .inr ⟨h1.symm, by omega⟩, by intro s h; cases h⟩, rfl, rfl, rfl, rfl⟩

end Verif.Props
