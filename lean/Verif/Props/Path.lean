import Verif.Lemmas.Path
/-!
# C37, C39, C62: parts of paths

`Spec/Path.lean` says what the last name of a path is (`LastName p d c s`: `p` is `d`, then the name `c`, then the slashes `s`), and when two paths lead to the same file (`SameFile`). `Walked b` are the files that the walk presents: roots, and entries of directories. A slash is 47, and a dot is 46.
-/
namespace Verif.Props
open Verif.Path

/-! ## C39 -/

/-- Every path has a last name, or is nothing but slashes. -/
theorem C39_cases (p : Bytes) : NoName p ∨ ∃ d c s, LastName p d c s := last_exists p

/-- The base name is the last name, and it begins where `xbaseoff()` says. -/
theorem C39_base (p d c s : Bytes) (h : LastName p d c s) : xbasename p = c ∧ xbaseoff p = d.length := ⟨h.base, h.off⟩

/-- The directory is what comes before, without trailing slashes; if that is only slashes, the root, and if it is nothing, `.`. -/
theorem C39_dir (p d c s e t : Bytes) (h : LastName p d c s) (hd : d = e ++ t) (ht : NoName t) (he : e.getLast? ≠ some 47) :
    xdirname p = if e ≠ [] then e else if d ≠ [] then [47] else [46] := h.dir hd ht he

/-- Only slashes: both are the root.  (Nothing at all: both are `.`.) -/
theorem C39_slashes (p : Bytes) (h : NoName p) :
    (p = [] → xbasename p = [46] ∧ xdirname p = [46] ∧ xbaseoff p = 0) ∧ (p ≠ [] → xbasename p = [47] ∧ xdirname p = [47] ∧ xbaseoff p + 1 = p.length) := by
  obtain ⟨h1, h2⟩ := h.parts
  have h3 := h.off
  constructor
  · rintro rfl; exact ⟨rfl, rfl, rfl⟩
  · intro hp
    rw [if_neg hp] at h1 h2
    have := len_pos hp
    exact ⟨h1, h2, by omega⟩

/-- The base name has no slashes inside. -/
theorem C39_no_slash (p : Bytes) : xbasename p = [47] ∨ 47 ∉ xbasename p := by
  rcases last_exists p with h | ⟨d, c, s, h⟩
  · rw [h.parts.1]
    by_cases hp : p = []
    · rw [if_pos hp]; right; decide
    · rw [if_neg hp]; left; rfl
  · rw [h.base]; exact Or.inr h.name.2

/-- The directory, a slash and the base name lead to the same file. -/
theorem C39_recombine (p : Bytes) (hp : p ≠ []) : SameFile (xdirname p ++ 47 :: xbasename p) p := by
  rcases last_exists p with h | ⟨d, c, s, h⟩
  · obtain ⟨h1, h2⟩ := h.parts
    rw [if_neg hp] at h1 h2
    rw [h1, h2]
    refine ⟨?_, by rw [comps_slashes h]; decide⟩
    cases p with
    | nil => exact absurd rfl hp
    | cons x p => simp [h x (by simp)]
  · obtain ⟨e, t, h1, h2, h3⟩ := splitLast (fun x => x == 47) d
    have ht : NoName t := fun x hx => by simpa using h2 x hx
    have he : e.getLast? ≠ some 47 := fun hh => by simpa using h3 47 hh
    rw [h.base, h.dir h1 ht he]
    have hcd : components d = components e := by rw [h1]; exact comps_append_slashes e ht
    constructor
    · by_cases h0 : e = []
      · subst h0
        rw [List.nil_append] at h1
        by_cases hd0 : d = []
        · obtain ⟨hc, h47⟩ := h.name
          rw [h.eq, hd0]
          cases c with
          | nil => exact absurd rfl hc
          | cons x c =>
            have : x ≠ 47 := fun hx => h47 (by simp [hx])
            simp [this]
        · rw [h.eq]
          cases d with
          | nil => exact absurd rfl hd0
          | cons x d =>
            have : x = 47 := ht x (by rw [← h1]; simp)
            simp [this]
      · rw [if_pos h0, h.eq, h1]
        cases e with
        | nil => exact absurd rfl h0
        | cons x e => simp
    · rw [comps_slash, h.comps, hcd]
      congr 1
      by_cases h0 : e = []
      · subst h0
        rw [if_neg (by simp)]
        by_cases hd0 : d = []
        · rw [if_neg (by simpa using hd0), comps_dot, comps_nil]
        · rw [if_pos hd0, comps_root, comps_nil]
      · rw [if_pos h0]

/-- `a//b/`: the last name is `b`. -/
example : LastName [97, 47, 47, 98, 47] [97, 47, 47] [98] [47] := ⟨rfl, by decide, by decide, Or.inr rfl⟩
example : xbasename [97, 47, 47, 98, 47] = [98] ∧ xdirname [97, 47, 47, 98, 47] = [97] := by decide
example : NoName [47, 47] ∧ xbasename [47, 47] = [47] := ⟨by unfold NoName; decide, by decide⟩

/-! ## C37 -/

/-- `%h`, a slash and `%f` are the path.  The exceptions are files in `/`, where `%h` ends with the slash already, and those whose
path is just a name. -/
theorem C37_directory (b : Buf) (h : Walked b) :
    printf_h b ++ 47 :: printf_f b = b.path ∨
    (printf_h b = [47] ∧ 47 :: printf_f b = b.path) ∨
    (printf_f b = b.path ∧ printf_h b = if b.path.head? = some 47 then [47] else [46]) := by
  obtain ⟨h1, h2, h3, _⟩ := h.fine
  unfold printf_h printf_f
  dsimp only
  by_cases h0 : b.nameoff = 0
  · right; right
    rw [if_neg (by omega), h0]
    refine ⟨rfl, ?_⟩
    rw [List.head?_eq_getElem?]
  · rw [if_pos (by omega)]
    have hs := h1.resolve_left h0
    by_cases h1' : b.nameoff = 1
    · right; left
      rw [h1'] at hs ⊢
      cases hp : b.path with
      | nil => exact absurd hp h3
      | cons x p =>
        rw [hp] at hs
        simp at hs
        subst hs
        simp
    · left
      rw [if_pos (by omega)]
      have hlt : b.nameoff - 1 < b.path.length := by omega
      have hx : b.path[b.nameoff - 1] = 47 := by
        rw [List.getElem?_eq_getElem hlt] at hs
        injection hs
      have hd := List.drop_eq_getElem_cons hlt
      rw [hx, show b.nameoff - 1 + 1 = b.nameoff by omega] at hd
      rw [← hd, List.take_append_drop]

/-- In any case they lead to the same file. -/
theorem C37_same_file (b : Buf) (h : Walked b) : SameFile (printf_h b ++ 47 :: printf_f b) b.path := by
  have hne := h.fine.ne
  rcases C37_directory b h with h1 | ⟨h1, h2⟩ | ⟨h1, h2⟩
  · rw [h1]; exact ⟨Iff.rfl, rfl⟩
  · rw [h1, ← h2]
    refine ⟨by simp, ?_⟩
    rw [comps_slash, comps_root, List.nil_append]
    have := comps_slash [] (printf_f b)
    rw [List.nil_append, comps_nil, List.nil_append] at this
    exact this.symm
  · rw [h1, h2]
    by_cases h0 : b.path.head? = some 47
    · rw [if_pos h0]
      exact ⟨by simp [h0], by rw [comps_slash, comps_root, List.nil_append]⟩
    · rw [if_neg h0]
      exact ⟨by simp [h0], by rw [comps_slash, comps_dot, List.nil_append]⟩

/-- `%f` is the name in the directory; for a root, it is the last name with the trailing slashes. -/
theorem C37_name (b : Buf) (name : Bytes) : printf_f (childBuf b name) = name := childBuf_name b name

theorem C37_root_name (p d c s : Bytes) (h : LastName p d c s) : printf_f (rootBuf p) = c ++ s := by
  unfold printf_f rootBuf
  dsimp only
  rw [h.off, h.eq]
  simp

/-- `%H`, a slash unless there is one, and `%P` are the path; for a root, `%P` is empty. -/
theorem C37_root (b : Buf) (h : Walked b) :
    (b.depth = 0 → printf_P b = [] ∧ printf_H b = b.path) ∧
    (0 < b.depth → printf_P b ≠ [] ∧ (printf_P b).head? ≠ some 47 ∧
      b.path = if (printf_H b).getLast? = some 47 then printf_H b ++ printf_P b else printf_H b ++ 47 :: printf_P b) := by
  rcases h.prefix with ⟨h1, h2⟩ | ⟨r, h1, h2, h3, h4⟩
  · refine ⟨fun _ => ⟨?_, h2.symm⟩, fun h' => by omega⟩
    unfold printf_P
    dsimp only
    rw [h2]
    simp
  · refine ⟨fun h' => by omega, fun _ => ?_⟩
    have hP : printf_P b = r := by
      unfold printf_P
      dsimp only
      rw [h4]
      by_cases hl : b.root.getLast? = some 47
      · rw [if_pos hl]
        have : (b.root ++ r)[b.root.length]? = r.head? := by
          rw [List.getElem?_append_right (by omega), Nat.sub_self, List.head?_eq_getElem?]
        rw [this, if_neg h3]
        simp
      · rw [if_neg hl]
        simp
    rw [hP]
    exact ⟨h2, h3, h4⟩

/-- `a/x` in the root `a/`. -/
example : Walked (childBuf (rootBuf [97, 47]) [120]) ∧ printf_H (childBuf (rootBuf [97, 47]) [120]) = [97, 47] ∧ printf_P (childBuf (rootBuf [97, 47]) [120]) = [120] ∧
    printf_h (childBuf (rootBuf [97, 47]) [120]) = [97] ∧ printf_f (childBuf (rootBuf [97, 47]) [120]) = [120] :=
  ⟨.child _ _ (.root _ (by simp)) (by simp) (by decide), by decide, by decide, by decide, by decide⟩

/-! ## C62 -/

/-- `-name` matches the name in the directory. -/
theorem C62_name (b : Buf) (name : Bytes) : nameFor (childBuf b name) = name := by
  unfold nameFor
  rw [childBuf_name]
  exact if_neg (Nat.succ_ne_zero _)

/-- For roots, it matches the last name, without trailing slashes, or `/`. -/
theorem C62_root (p : Bytes) (hp : p ≠ []) :
    (∀ d c s, LastName p d c s → nameFor (rootBuf p) = c) ∧ (NoName p → nameFor (rootBuf p) = [47]) := by
  have hn : nameFor (rootBuf p) = xbasename (p.drop (xbaseoff p)) := rfl
  rw [hn]
  constructor
  · intro d c s h
    rw [h.off]
    have : LastName (p.drop d.length) [] c s := ⟨by rw [h.eq]; simp, h.name, h.slashes, Or.inl rfl⟩
    exact this.base
  · intro h
    have hd : NoName (p.drop (xbaseoff p)) := fun x hx => h x (List.mem_of_mem_drop hx)
    rw [hd.parts.1, if_neg]
    rw [h.off]
    intro h0
    have := List.drop_eq_nil_iff.1 h0
    have := len_pos hp
    omega

/-- Hidden files are those whose name begins with a dot; `.` and `..` do not count.  What is missing: roots with
trailing slashes, see `C62_hidden_counterexample`. -/
theorem C62_hidden_partial (b : Buf) (c : Bytes) (h : (∃ dir, b = childBuf dir c) ∨ ∃ p d, b = rootBuf p ∧ LastName p d c []) :
    evalHidden b = true ↔ c.head? = some 46 ∧ c ≠ [46] ∧ c ≠ [46, 46] := by
  have hd : b.path.drop b.nameoff = c := by
    rcases h with ⟨dir, rfl⟩ | ⟨p, d, rfl, h⟩
    · exact childBuf_name dir c
    · have := C37_root_name p d c [] h
      rw [List.append_nil] at this
      exact this
  unfold evalHidden
  rw [hd, List.head?_eq_getElem?]
  simp [and_assoc]

/-- The root `./` is hidden, so that `-nohidden` leaves nothing, although `.` is not. -/
theorem C62_hidden_counterexample : evalHidden (rootBuf [46, 47]) = true ∧ LastName [46, 47] [] [46] [47] ∧ evalHidden (rootBuf [46]) = false :=
  ⟨by decide, ⟨rfl, by decide, by decide, Or.inl rfl⟩, by decide⟩

example : LastName [97, 47, 46, 98] [97, 47] [46, 98] [] ∧ evalHidden (rootBuf [97, 47, 46, 98]) = true :=
  ⟨⟨rfl, by decide, by decide, Or.inr rfl⟩, by decide⟩

end Verif.Props
