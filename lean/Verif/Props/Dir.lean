import Verif.Lemmas.Dir
/-!
# C56: every entry of a directory is read exactly once

`contents w ds` (in `Verif.Spec.Dir`) is what a user expects to see of a directory whose entries are `ds`: their names and types in order, without `.`, `..` and (unless `w`) whiteouts.
-/
namespace Verif.Props
open Verif Verif.Dir Verif.Spec.Dir

/-- **C56.** Whatever sequence of polls and reads is performed on a directory, however the kernel splits the entries among its answers, and wherever errors occur: nothing goes wrong, and the entries that were read are a prefix of the contents of the directory. -/
theorem C56_prefix (wht w : Bool) (junk : Mem) (k : Kernel) (hk : Valid k.rest) (ops : List Op) :
    ∃ rs d' k' others, run wht ops (opendir w junk) k = .ok (rs, d', k') ∧
      entriesOf rs ++ others = contents (w || !wht) k.rest := by
  obtain ⟨rs, d', k', L', h1, _, _, h4⟩ := run_spec wht ops (inv_open w junk hk)
  exact ⟨rs, d', k', _, h1, h4.symm⟩

/-- **C56.** A read reports the end only once every entry was returned, even if there were errors. -/
theorem C56_end (wht w : Bool) (junk : Mem) (k : Kernel) (hk : Valid k.rest) (ops : List Op) {rs d' k' d'' k''}
    (hr : run wht ops (opendir w junk) k = .ok (rs, d', k')) (hend : readdir wht d' k' = .ok (.ok none, d'', k'')) :
    entriesOf rs = contents (w || !wht) k.rest := by
  obtain ⟨rs1, d1, k1, L1, h1, h2, h3, h4⟩ := run_spec wht ops (inv_open w junk hk)
  rw [h1] at hr
  simp only [Out.ok.injEq, Prod.mk.injEq] at hr
  obtain ⟨e1, e2, e3⟩ := hr
  subst e1; subst e2; subst e3
  obtain ⟨r, d2, k2, L2, g1, _, _, g4⟩ := readdir_spec wht h2
  rw [g1] at hend
  simp only [Out.ok.injEq, Prod.mk.injEq] at hend
  rw [hend.1] at g4
  rw [h3] at g4
  have h4' : contents (w || !wht) k.rest = entriesOf rs1 ++ contents (w || !wht) (L1 ++ k1.rest) := h4
  have g5 : contents (w || !wht) (L1 ++ k1.rest) = [] := g4.1
  rw [h4', g5, List.append_nil]

/-- **C56.** After the end, no entry is ever returned. -/
theorem C56_end_final (wht w : Bool) (junk : Mem) (k : Kernel) (hk : Valid k.rest) (ops ops' : List Op) {rs d' k' d'' k''}
    (hr : run wht ops (opendir w junk) k = .ok (rs, d', k')) (hend : readdir wht d' k' = .ok (.ok none, d'', k'')) :
    ∃ rs' x, run wht ops' d'' k'' = .ok (rs', x) ∧ entriesOf rs' = [] := by
  obtain ⟨rs1, d1, k1, L1, h1, h2, h3, h4⟩ := run_spec wht ops (inv_open w junk hk)
  rw [h1] at hr
  simp only [Out.ok.injEq, Prod.mk.injEq] at hr
  obtain ⟨e1, e2, e3⟩ := hr
  subst e1; subst e2; subst e3
  obtain ⟨r, d2, k2, L2, g1, g2, _, g4⟩ := readdir_spec wht h2
  rw [g1] at hend
  simp only [Out.ok.injEq, Prod.mk.injEq] at hend
  obtain ⟨e1, e2, e3⟩ := hend
  subst e1; subst e2; subst e3
  obtain ⟨rs', d3, k3, L3, f1, _, _, f4⟩ := run_spec wht ops' g2
  rw [g4.2, contents_nil] at f4
  exact ⟨rs', _, f1, (List.append_eq_nil_iff.1 f4.symm).1⟩

/-- **C56.** If the kernel reports no errors, then reading until the end returns exactly the contents. -/
theorem C56_complete (wht w : Bool) (junk : Mem) (k : Kernel) (hk : Valid k.rest) (hn : ∀ e, Answer.error e ∉ k.script) :
    ∃ d' k', run wht (List.replicate ((contents (w || !wht) k.rest).length + 1) .read) (opendir w junk) k =
      .ok ((contents (w || !wht) k.rest).map (fun e => .ok (some e)) ++ [.ok none], d', k') :=
  run_complete wht _ (inv_open w junk hk) hn rfl

/-- **C56.** `-empty` is true of a directory exactly if it has no entries, if the kernel reports no errors. -/
theorem C56_empty (wht : Bool) (junk : Mem) (k : Kernel) (hk : Valid k.rest) (hn : ∀ e, Answer.error e ∉ k.script) :
    ∃ b, isEmpty wht k junk = .ok (.ok b) ∧ (b = true ↔ contents (!wht) k.rest = []) := by
  obtain ⟨r, d2, k2, L2, g1, _, _, g4⟩ := readdir_spec wht (inv_open false junk hk)
  obtain ⟨⟨o, ho⟩, _⟩ := readLoop_ok wht _ (inv_open false junk hk) hn g1
  subst ho
  unfold isEmpty
  rw [g1, Alloc.ok_bind]
  cases o with
  | none => exact ⟨true, rfl, fun _ => g4.1, fun _ => rfl⟩
  | some e =>
    refine ⟨false, rfl, (by intro h; cases h), ?_⟩
    intro h
    have g5 : contents (!wht) k.rest = e :: contents (!wht) (L2 ++ k2.rest) := g4
    rw [h] at g5; cases g5

/-- **C56.** With errors, `-empty` never gives a wrong answer. -/
theorem C56_empty_error (wht : Bool) (junk : Mem) (k : Kernel) (hk : Valid k.rest) :
    (∃ b, isEmpty wht k junk = .ok (.ok b) ∧ (b = true ↔ contents (!wht) k.rest = [])) ∨
    ∃ e, isEmpty wht k junk = .ok (.error e) := by
  obtain ⟨r, d2, k2, L2, g1, _, _, g4⟩ := readdir_spec wht (inv_open false junk hk)
  unfold isEmpty
  rw [g1, Alloc.ok_bind]
  cases r with
  | error e => right; exact ⟨e, rfl⟩
  | ok o =>
    left
    cases o with
    | none => exact ⟨true, rfl, fun _ => g4.1, fun _ => rfl⟩
    | some e =>
      refine ⟨false, rfl, (by intro h; cases h), ?_⟩
      intro h
      have g5 : contents (!wht) k.rest = e :: contents (!wht) (L2 ++ k2.rest) := g4
      rw [h] at g5; cases g5

/-- **C56.** The same where the C library's `readdir()` is used (it knows nothing of whiteouts): the entries that were read are a prefix of the contents. -/
theorem C56_readdir_prefix (w : Bool) (s : Stream) (hs : ∀ de ∈ s.filterMap streamDent, de.type < 16) (ops : List Op) :
    ∃ rs d' s' others, run2 ops ⟨false, w, none⟩ s = .ok (rs, d', s') ∧
      entriesOf rs ++ others = contents true (s.filterMap streamDent) := by
  obtain ⟨rs, d', s', h1, _, h3⟩ := run2_spec ops (d := ⟨false, w, none⟩) (s := s) ⟨(by intro h; cases h), hs⟩
  exact ⟨rs, d', s', _, h1, h3.symm⟩

/-- **C56.** The same where the C library's `readdir()` is used: the end is only reported once every entry was returned. -/
theorem C56_readdir_end (w : Bool) (s : Stream) (hs : ∀ de ∈ s.filterMap streamDent, de.type < 16) (ops : List Op) {rs d' s' d'' s''}
    (hr : run2 ops ⟨false, w, none⟩ s = .ok (rs, d', s')) (hend : readdir2 d' s' = .ok (.ok none, d'', s'')) :
    entriesOf rs = contents true (s.filterMap streamDent) := by
  obtain ⟨rs1, d1, s1, h1, h2, h3⟩ := run2_spec ops (d := ⟨false, w, none⟩) (s := s) ⟨(by intro h; cases h), hs⟩
  rw [h1] at hr
  simp only [Out.ok.injEq, Prod.mk.injEq] at hr
  obtain ⟨e1, e2, e3⟩ := hr
  subst e1; subst e2; subst e3
  obtain ⟨r, d2, s2, g1, _, _, g4⟩ := readdir2_spec h2
  rw [g1] at hend
  simp only [Out.ok.injEq, Prod.mk.injEq] at hend
  rw [hend.1] at g4
  have h3' : contents true (s.filterMap streamDent) = _ := h3
  rw [h3', g4.1, List.append_nil]

/-! ## Examples -/

/-- A directory with `.`, `..`, a file `a`, a directory `..b` and a whiteout. -/
def exampleDents : List Dent :=
  [⟨24, 4, [46]⟩, ⟨24, 4, [46, 46]⟩, ⟨24, 8, [97]⟩, ⟨32, 4, [46, 46, 98]⟩, ⟨24, 14, [99]⟩]

example : Valid exampleDents := by
  intro d hd
  revert d
  decide

/-- What the operations return. -/
def dirResults (o : Out (List (Except String (Option (Type' × List UInt8))) × Dir × Kernel)) : Option (List (Option (Option (Type' × List UInt8)))) :=
  match o with
  | .ok (rs, _) => some (rs.map fun r => match r with
    | .ok o => some o
    | .error _ => none)
  | _ => none

/-- The kernel returns one entry, then two entries (to the eager check), then fails, then returns the others. -/
example : dirResults (run true [.read, .read, .poll, .read, .read, .read] (opendir false fun _ => none)
    ⟨exampleDents, [.entries 0, .entries 1, .error "EIO"]⟩) =
    some [some (some (.reg, [97])), none, some (some (.dir, [46, 46, 98])), some none, some none] := by decide +kernel

example : contents false exampleDents = [(.reg, [97]), (.dir, [46, 46, 98])] := by
  unfold contents exampleDents Visible
  rw [dotString, dotdotString]
  simp [typeOf]

example : dirResults (run true [.read, .read, .read, .read] (opendir true fun _ => none) ⟨exampleDents, []⟩) =
    some [some (some (.reg, [97])), some (some (.dir, [46, 46, 98])), some (some (.wht, [99])), some none] := by decide +kernel

example : (match isEmpty true ⟨exampleDents.take 2, [.entries 0]⟩ (fun _ => none) with
    | .ok (.ok b) => some b
    | _ => none) = some true := by decide +kernel

end Verif.Props
