import Verif.Lemmas.Mtab
/-!
# C57: the types of file systems
-/
namespace Verif.Props
open Verif Verif.Mtab Verif.Spec.Mtab Verif.Path Verif.Memo

/-- **C57.** If there is enough memory, then the mount table can be read; if there isn't, that may fail, but nothing worse happens. -/
theorem C57_parse (K : Nat) (ms : List (Mount × AddMem)) (h0 : ∀ x ∈ ms, (0 : UInt8) ∉ x.1.path) :
    ∃ r, parse K ms = .ok r ∧ ((∀ x ∈ ms, x.2.mount = true ∧ x.2.array = true ∧ x.2.name = true) → r ≠ none) := by
  obtain ⟨r, h1, h2, _⟩ := parse_ok (K := K) ms h0
  exact ⟨r, h1, h2⟩

/-- **C57.** A file might be a mount point exactly if its name is the last part of the path of one. -/
theorem C57_names (K : Nat) (ms : List (Mount × AddMem)) (h0 : ∀ x ∈ ms, (0 : UInt8) ∉ x.1.path) {t : Mtab} (ht : parse K ms = .ok (some t)) (name : Bytes) :
    ∃ b, mightBeMount t name = .ok b ∧ (b = true ↔ ∃ x ∈ ms, x.1.path.drop (xbaseoff x.1.path) = name) := by
  obtain ⟨r, h1, h2, h3⟩ := parse_ok (K := K) ms h0
  rw [h1] at ht
  simp only [Out.ok.injEq] at ht
  obtain ⟨hn, hm⟩ := h3 t ht
  unfold mightBeMount
  rw [Trie.findMem_ok hn.holds.wf, Alloc.ok_bind]
  refine ⟨_, rfl, ?_⟩
  have e : (if strKey name ∈ t.names.leaves.map (·.1) then some (strKey name) else none).isSome = true ↔ strKey name ∈ t.names.leaves.map (·.1) := by
    split <;> simp_all
  rw [e, ← Trie.value_isSome, hn.holds.val, hm]
  constructor
  · intro h
    split at h
    · rename_i hin
      simp only [List.map_map, List.mem_map, Function.comp_apply] at hin
      obtain ⟨x, hx, he⟩ := hin
      refine ⟨x, hx, ?_⟩
      unfold baseKey strKey at he
      exact List.append_cancel_right he
    · cases h
  · rintro ⟨x, hx, he⟩
    have hin : strKey name ∈ (ms.map (·.1)).map baseKey := by
      simp only [List.map_map, List.mem_map, Function.comp_apply]
      exact ⟨x, hx, by unfold baseKey; rw [he]⟩
    rw [if_pos hin]; rfl

/-- Any lookups: nothing goes wrong, and the answers are right or failures. -/
theorem lookups_ok {K : Nat} {w : World} (hw : Honest w) (hf : Fits w) {ms : List Mount} : ∀ (ls : List (Nat × List FillMem)) {t : Mtab} (fds : Nat), Good K w ms t → (∀ l ∈ ls, l.1 < 2 ^ 64) →
    ∃ rs t', lookups K w ls t fds = .ok (rs, t', fds) ∧ rs.length = ls.length ∧
      ∀ (i : Nat) (r : Option Bytes) (l : Nat × List FillMem), rs[i]? = some r → ls[i]? = some l → r = none ∨ r = some (typeOf w ms l.1)
  | [], t, fds, h, _ => ⟨[], t, rfl, rfl, fun i r l h => by simp at h⟩
  | (id, mem) :: ls, t, fds, h, hl => by
    obtain ⟨r, t1, f1, f2, f3, _⟩ := fstype_ok hw hf h mem fds (hl (id, mem) (by simp))
    obtain ⟨rs, t', g1, g2, g3⟩ := lookups_ok hw hf ls fds f2 (fun l h => hl l (by simp [h]))
    refine ⟨r :: rs, t', ?_, by simp [g2], ?_⟩
    · rw [lookups, f1, Alloc.ok_bind]
      dsimp only
      rw [g1, Alloc.ok_bind]
    · intro i r' l h1 h2
      cases i with
      | zero => simp at h1 h2; subst h1; subst h2; exact f3
      | succ i => exact g3 i r' l (by simpa using h1) (by simpa using h2)

theorem good_of_parse {K : Nat} {ms : List (Mount × AddMem)} (h0 : ∀ x ∈ ms, (0 : UInt8) ∉ x.1.path) {t : Mtab} (ht : parse K ms = .ok (some t)) (w : World) :
    Good K w (ms.map (·.1)) t := by
  obtain ⟨r, h1, h2, h3⟩ := parse_ok (K := K) ms h0
  rw [h1] at ht
  simp only [Out.ok.injEq] at ht
  obtain ⟨hn, hm⟩ := h3 t ht
  have hh := hn.holds
  rw [hm] at hh
  refine ⟨hm, hh, fun _ => none, ?_⟩
  rw [hn.types, hn.filled]
  exact ⟨holds_empty K _, (by intro k v h; cases h), fun id _ ty h => by rw [if_neg (by simp)] at h; rw [lastType_nil] at h; cases h⟩

/-- **C57.** Whatever lookups were made before, and however often memory was short: the type of a file system is that of the last entry of the mount table that is still mounted and has its ID, or `unknown` if there is none; or the lookup fails. No descriptor is left open. -/
theorem C57_type (K : Nat) (ms : List (Mount × AddMem)) (h0 : ∀ x ∈ ms, (0 : UInt8) ∉ x.1.path) {t : Mtab} (ht : parse K ms = .ok (some t))
    (w : World) (hw : Honest w) (hf : Fits w) (ls : List (Nat × List FillMem)) (hl : ∀ l ∈ ls, l.1 < 2 ^ 64) (fds : Nat) :
    ∃ rs t', lookups K w ls t fds = .ok (rs, t', fds) ∧ rs.length = ls.length ∧
      ∀ (i : Nat) (r : Option Bytes) (l : Nat × List FillMem), rs[i]? = some r → ls[i]? = some l → r = none ∨ r = some (typeOf w (ms.map (·.1)) l.1) :=
  lookups_ok hw hf ls fds (good_of_parse h0 ht w) hl

/-- **C57.** A lookup fails only if it runs out of memory itself, and not if a lookup succeeded before. -/
theorem C57_succeeds (K : Nat) (ms : List (Mount × AddMem)) (h0 : ∀ x ∈ ms, (0 : UInt8) ∉ x.1.path) {t : Mtab} (ht : parse K ms = .ok (some t))
    (w : World) (hw : Honest w) (hf : Fits w) (ls : List (Nat × List FillMem)) (hl : ∀ l ∈ ls, l.1 < 2 ^ 64) (fds : Nat) {rs : List (Option Bytes)} {t' : Mtab} {fds' : Nat}
    (hr : lookups K w ls t fds = .ok (rs, t', fds')) (mem : List FillMem) (id : Nat) (hid : id < 2 ^ 64)
    (h : (∃ r ∈ rs, r ≠ none) ∨ ∀ x ∈ mem, x.dirname = true ∧ x.leaf = true) :
    ∃ t'', fstype K w mem t' fds' id = .ok (some (typeOf w (ms.map (·.1)) id), t'', fds') := by
  have key : ∀ (ls : List (Nat × List FillMem)) (t : Mtab) (fds : Nat) (rs : List (Option Bytes)) (t' : Mtab) (fds' : Nat), Good K w (ms.map (·.1)) t → (∀ l ∈ ls, l.1 < 2 ^ 64) →
      lookups K w ls t fds = .ok (rs, t', fds') → Good K w (ms.map (·.1)) t' ∧ ((t.filled = true ∨ ∃ r ∈ rs, r ≠ none) → t'.filled = true) := by
    intro ls
    induction ls with
    | nil =>
      intro t fds rs t' fds' hg _ hr
      simp only [lookups, Out.ok.injEq, Prod.mk.injEq] at hr
      obtain ⟨e1, e2, _⟩ := hr
      subst e1; subst e2
      refine ⟨hg, ?_⟩
      rintro (h | ⟨r, hr, _⟩)
      · exact h
      · cases hr
    | cons l ls ih =>
      intro t fds rs t' fds' hg hl hr
      obtain ⟨id, mem⟩ := l
      obtain ⟨r, t1, f1, f2, f3, f4, f5⟩ := fstype_ok hw hf hg mem fds (hl (id, mem) (by simp))
      rw [lookups, f1, Alloc.ok_bind] at hr
      dsimp only at hr
      cases hq : lookups K w ls t1 fds with
      | ok q =>
        obtain ⟨q1, q2, q3⟩ := q
        rw [hq, Alloc.ok_bind] at hr
        simp only [Out.ok.injEq, Prod.mk.injEq] at hr
        obtain ⟨e1, e2, e3⟩ := hr
        subst e1; subst e2; subst e3
        obtain ⟨i1, i2⟩ := ih t1 fds q1 q2 q3 f2 (fun l h => hl l (by simp [h])) hq
        refine ⟨i1, ?_⟩
        rintro (h | ⟨r', hr', hne⟩)
        · exact i2 (Or.inl (f5 (f4 (Or.inl h))))
        · rcases List.mem_cons.1 hr' with e | e
          · subst e; exact i2 (Or.inl (f5 hne))
          · exact i2 (Or.inr ⟨r', e, hne⟩)
      | err e => rw [hq] at hr; cases hr
      | ub => rw [hq] at hr; cases hr
  obtain ⟨g1, g2⟩ := key ls t fds rs t' fds' (good_of_parse h0 ht w) hl hr
  obtain ⟨r, t'', f1, f2, f3, f4, f5⟩ := fstype_ok hw hf g1 mem fds' hid
  have hne := f4 (h.elim (fun h => Or.inl (g2 (Or.inr h))) Or.inr)
  rcases f3 with f3 | f3
  · exact absurd f3 hne
  · subst f3; exact ⟨t'', f1⟩

/-! ## An example

Two file systems: `/` and `/proc` are mounted; `/mnt/a` was mounted, but isn't anymore; and something was mounted over `/proc`. -/

def exampleMounts : List Mount :=
  [⟨[47], [101, 120, 116]⟩, ⟨[47, 112, 114, 111, 99], [112, 114, 111, 99]⟩, ⟨[47, 109, 110, 116, 47, 97], [120]⟩,
   ⟨[47, 112, 114, 111, 99], [116, 109, 112]⟩]

/-- The files in two directories: `/` is descriptor 3, and `/mnt` is descriptor 4. -/
def exampleFiles (fd : Nat) (name : Bytes) : Option Sb :=
  if fd = 3 ∧ name = [47] then some ⟨1, 2, 10⟩
  else if fd = 3 ∧ name = [112, 114, 111, 99] then some ⟨7, 1, 11⟩
  else if fd = 4 ∧ name = [97] then some ⟨1, 51, 10⟩
  else none

def exampleOpen (d : Bytes) : Option Nat := if d = [47] then some 3 else if d = [47, 109, 110, 116] then some 4 else none

def exampleWorld : Mtab.World where
  openDir := exampleOpen
  statFd fd := if fd = 3 then some ⟨1, 2, 10⟩ else if fd = 4 then some ⟨1, 50, 10⟩ else none
  statAt fd path :=
    match fd with
    | some fd => exampleFiles fd path
    | none => (exampleOpen (xdirname path)).bind fun fd => exampleFiles fd (path.drop (xbaseoff path))

theorem exampleWorld_honest : Honest exampleWorld := by
  intro path fd h
  have h' : exampleOpen (xdirname path) = some fd := h
  show exampleFiles fd _ = (exampleOpen (xdirname path)).bind _
  rw [h']; rfl

theorem exampleFiles_fits (fd : Nat) (name : Bytes) {sb : Sb} (h : exampleFiles fd name = some sb) : sb.mntId < 2 ^ 64 := by
  unfold exampleFiles at h
  split at h
  · cases h; decide
  · split at h
    · cases h; decide
    · split at h
      · cases h; decide
      · cases h

theorem exampleWorld_fits : Fits exampleWorld := by
  intro fd path sb h
  cases fd with
  | some fd => exact exampleFiles_fits fd path h
  | none =>
    cases ho : exampleOpen (xdirname path) with
    | none =>
      have : (exampleOpen (xdirname path)).bind (fun fd => exampleFiles fd (path.drop (xbaseoff path))) = some sb := h
      rw [ho] at this; cases this
    | some fd =>
      have : (exampleOpen (xdirname path)).bind (fun fd => exampleFiles fd (path.drop (xbaseoff path))) = some sb := h
      rw [ho] at this
      exact exampleFiles_fits fd _ this

/-- The last entry for a mount point counts, entries for what isn't mounted anymore don't, and other IDs are unknown. -/
example : [10, 11, 12].map (typeOf exampleWorld exampleMounts) =
    [[101, 120, 116], [116, 109, 112], "unknown".toUTF8.toList] := by decide +kernel

example : (parse Trie.K64 (exampleMounts.map fun m => (m, ⟨true, true, true⟩))) ≠ .ok none := by
  obtain ⟨r, h1, h2⟩ := C57_parse Trie.K64 (exampleMounts.map fun m => (m, ⟨true, true, true⟩)) (by
    intro x hx
    obtain ⟨m, hm, e⟩ := List.mem_map.1 hx
    have : ∀ m ∈ exampleMounts, (0 : UInt8) ∉ m.path := by decide
    rw [← e]
    exact this m hm)
  rw [h1]
  intro h
  simp only [Out.ok.injEq] at h
  refine h2 ?_ h
  intro x hx
  obtain ⟨m, _, e⟩ := List.mem_map.1 hx
  subst e
  exact ⟨rfl, rfl, rfl⟩

end Verif.Props
