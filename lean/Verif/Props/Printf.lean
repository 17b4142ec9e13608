import Verif.Lemmas.Printf
/-!
# C38: format strings

`Spec/Printf.lean` gives the grammar of format strings: `Format env s es` says that the format string `s` denotes the list of elements `es`, where an element is a byte to print, a directive, or a flush.
-/
namespace Verif.Props
open Verif.Printf

/-- A format string is accepted only if it is in the grammar, and then it is parsed into what it denotes. -/
theorem C38_sound (env : Env) (s : Bytes) (fmts : List Fmt) (h : parse env s = .ok fmts) : Format env s (elems fmts) := by
  rcases loop_sound env s.length [] [] s (Nat.le_refl _) with ⟨out, es, h1, h2, h3⟩ | ⟨e, he⟩
  · have h1' : parse env s = .ok out := h1
    rw [h] at h1'
    injection h1' with h1'
    subst h1'
    rw [h3]
    exact h2
  · have : parse env s = .err e := he
    rw [h] at this; cases this

/-- Every format string of the grammar is accepted, and parsed into what it denotes. -/
theorem C38_complete (env : Env) (s : Bytes) (es : List Elem) (h : Format env s es) : ∃ fmts, parse env s = .ok fmts ∧ elems fmts = es :=
  loop_complete h s.length [] [] (Nat.le_refl _)

/-- All others are rejected with an error. -/
theorem C38_rejects (env : Env) (s : Bytes) (h : ¬ ∃ es, Format env s es) : ∃ e, parse env s = .err e := by
  rcases loop_sound env s.length [] [] s (Nat.le_refl _) with ⟨out, es, h1, h2, h3⟩ | ⟨e, he⟩
  · exact absurd ⟨es, h2⟩ h
  · exact ⟨e, he⟩

/-- A format string has one meaning. -/
theorem C38_unambiguous (env : Env) (s : Bytes) (es es' : List Elem) (h : Format env s es) (h' : Format env s es') : es = es' := by
  obtain ⟨f, h1, h2⟩ := C38_complete env s es h
  obtain ⟨f', h1', h2'⟩ := C38_complete env s es' h'
  rw [h1] at h1'
  injection h1' with h1'
  rw [← h2, ← h2', h1']

/-- `%-5p\t%#m\101\n`: the path, padded; a tab; the permissions in octal; `A`; and a newline. -/
def exFormat : Bytes := [37, 45, 53, 112, 92, 116, 37, 35, 109, 92, 49, 48, 49, 92, 110]

theorem exFormat_ok : Format ⟨true, true⟩ exFormat [.dir .p [37, 45, 53, 115], .byte 9, .dir .m [37, 35, 111], .byte 65, .byte 10] := by
  refine .dir [45, 53, 112] _ _ _ _ ⟨[45], [53], [], [112], [115], rfl, ⟨?_, by decide⟩, ⟨?_, by decide⟩, Or.inl rfl, .p, ?_, rfl⟩ ?_
  · simp [FlagChar]
  · simp [DecDigit]
  · simp
  refine .escape 116 9 _ _ .t ?_
  refine .dir [35, 109] _ _ _ _ ⟨[35], [], [], [109], [111], rfl, ⟨?_, by decide⟩, ⟨by simp, by decide⟩, Or.inl rfl, .m, by decide, rfl⟩ ?_
  · simp [FlagChar]
  refine .octal [49, 48, 49] _ _ (by decide) (by decide) ?_ (Or.inl rfl) ?_
  · simp [OctDigit]
  exact .escape 110 10 _ _ .n .done

example : parse ⟨true, true⟩ exFormat = .ok [.dir .p [37, 45, 53, 115], .lit [9], .dir .m [37, 35, 111], .lit [65, 10]] := by decide +kernel

/-- `%5`, `\q`, `%--p` and `%#p` are rejected. -/
example : parse ⟨true, true⟩ [37, 53] = .err "incomplete format specifier" ∧ parse ⟨true, true⟩ [92, 113] = .err "unrecognized escape sequence" ∧
    parse ⟨true, true⟩ [37, 45, 45, 112] = .err "duplicate flag" ∧ parse ⟨true, true⟩ [37, 35, 112] = .err "invalid flags" := by decide +kernel

/-- Text without backslashes and percent signs is printed as it is. -/
theorem C38_verbatim (env : Env) (s : Bytes) (h1 : 92 ∉ s) (h2 : 37 ∉ s) : ∃ fmts, parse env s = .ok fmts ∧ elems fmts = s.map .byte := by
  refine C38_complete env s _ ?_
  induction s with
  | nil => exact .done
  | cons c s ih =>
    exact .plain c s _ (fun h => h1 (by simp [h])) (fun h => h2 (by simp [h])) (ih (fun h => h1 (by simp [h])) (fun h => h2 (by simp [h])))

example : parse ⟨true, true⟩ [104, 105, 10] = .ok [.lit [104, 105, 10]] := by decide +kernel

/-- Nothing after `\c` matters. -/
theorem C38_stop (env : Env) (s t : Bytes) (h1 : 92 ∉ s) (h2 : 37 ∉ s) :
    ∃ fmts, parse env (s ++ 92 :: 99 :: t) = .ok fmts ∧ elems fmts = s.map .byte ++ [.flush] := by
  refine C38_complete env _ _ ?_
  induction s with
  | nil => exact .stop t
  | cons c s ih =>
    exact .plain c _ _ (fun h => h1 (by simp [h])) (fun h => h2 (by simp [h])) (ih (fun h => h1 (by simp [h])) (fun h => h2 (by simp [h])))

example : parse ⟨true, true⟩ [104, 105, 92, 99, 37] = .ok [.lit [104, 105], .flush] := by decide +kernel

/-- Printing a format writes what its elements denote, in order: the bytes as they are, and for each directive what it prints. -/
theorem C38_output (env : Env) (s : Bytes) (es : List Elem) (h : Format env s es) (write : Bytes → Effect) (flush : Effect) (dir : Fn → Bytes → Effect)
    (hw : ∀ b, (write b).bytes = b) (hf : flush.bytes = []) : ∃ fmts, parse env s = .ok fmts ∧
      (printf (runFmt write flush dir) fmts ([], 0, 0)).1 = es.flatMap (Elem.print fun fn str => (dir fn str).bytes) := by
  obtain ⟨fmts, h1, h2⟩ := C38_complete env s es h
  refine ⟨fmts, h1, ?_⟩
  rw [printf_bytes, ← h2, List.nil_append]
  clear h1 h2
  induction fmts with
  | nil => rfl
  | cons f fs ih =>
    rw [List.map_cons, List.flatten_cons, ih]
    cases f with
    | lit str =>
      show (write str).bytes ++ _ = (str.map Elem.byte ++ elems fs).flatMap _
      rw [List.flatMap_append, hw]
      congr 1
      induction str with
      | nil => rfl
      | cons b str ih => rw [List.map_cons, List.flatMap_cons, ← ih]; rfl
    | flush =>
      show flush.bytes ++ _ = (Elem.flush :: elems fs).flatMap _
      rw [List.flatMap_cons, hf]; rfl
    | dir fn str =>
      show (dir fn str).bytes ++ _ = (Elem.dir fn str :: elems fs).flatMap _
      rw [List.flatMap_cons]; rfl

/-- Every directive is printed, even if an earlier one fails.  The result is failure if one of them failed, with the `errno` of the last that did. -/
theorem C38_failures (run : Fmt → Effect) (fmts : List Fmt) :
    (printf run fmts ([], 0, 0)).1 = (fmts.map fun f => (run f).bytes).flatten ∧
    ((printf run fmts ([], 0, 0)).2.1 = -1 ↔ ∃ f ∈ fmts, (run f).error ≠ none) ∧
    ((printf run fmts ([], 0, 0)).2.1 = 0 ↔ ∀ f ∈ fmts, (run f).error = none) ∧
    (∀ e, (fmts.filterMap fun f => (run f).error).getLast? = some e → (printf run fmts ([], 0, 0)).2.2 = e) := by
  rw [printf_bytes, printf_ret]
  refine ⟨rfl, ?_, ?_, ?_⟩
  · by_cases h : ∃ f ∈ fmts, (run f).error ≠ none
    · dsimp only; rw [if_pos h]; exact ⟨fun _ => h, fun _ => rfl⟩
    · dsimp only; rw [if_neg h]; exact ⟨fun h' => (by cases h'), fun h' => absurd h' h⟩
  · by_cases h : ∃ f ∈ fmts, (run f).error ≠ none
    · dsimp only; rw [if_pos h]
      obtain ⟨f, hf, hn⟩ := h
      exact ⟨fun h' => (by cases h'), fun h' => absurd (h' f hf) hn⟩
    · dsimp only; rw [if_neg h]
      exact ⟨fun _ f hf => Classical.byContradiction fun hn => h ⟨f, hf, hn⟩, fun _ => rfl⟩
  · intro e he
    dsimp only
    rw [he]; rfl

/-- The directives get the specifier that fits the value they print, so that the assertion in `dyn_fmt()` holds. -/
theorem C38_specifier (env : Env) (s : Bytes) (fmts : List Fmt) (h : parse env s = .ok fmts) (fn : Fn) (str : Bytes) (hm : Elem.dir fn str ∈ elems fmts) :
    dynFmt str fn.fake = true := by
  have hf := C38_sound env s fmts h
  clear h
  generalize elems fmts = es at hf hm
  have key : ∀ (a b : Bytes), dynFmt (a ++ b) (37 :: b) = true := by
    intro a b
    unfold dynFmt
    simp only [List.length_cons, List.length_append, Bool.and_eq_true, decide_eq_true_eq, beq_iff_eq]
    refine ⟨by omega, ?_⟩
    rw [show a.length + b.length + 1 - (b.length + 1) = a.length by omega, List.drop_left]
    rfl
  induction hf with
  | done => cases hm
  | plain c s es _ _ _ ih => exact ih (by simpa using hm)
  | escape c b s es _ _ ih => exact ih (by simpa using hm)
  | octal ds s es _ _ _ _ _ ih => exact ih (by simpa using hm)
  | stop s => simp at hm
  | percent s es _ ih => exact ih (by simpa using hm)
  | dir text s es fn' str' hd _ ih =>
    rcases List.mem_cons.1 hm with hm | hm
    · injection hm with h1 h2
      subst h1 h2
      obtain ⟨fl, w, p, cv, spec, _, _, _, _, hc, _, rfl⟩ := hd
      rw [show 37 :: (fl ++ w ++ p ++ spec) = (37 :: (fl ++ w ++ p)) ++ spec by simp]
      have : fn.fake = 37 :: spec := by cases hc <;> rfl
      rw [this]
      exact key _ _
    · exact ih hm

end Verif.Props
