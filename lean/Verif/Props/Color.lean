import Verif.Lemmas.ColorBad
import Verif.Lemmas.ColorGet
/-!
# C40 and C41: `$LS_COLORS`

`Spec/Color.lean` gives the grammar of `$LS_COLORS`, and says which entry decides the color of a file name.
-/
namespace Verif.Props
open Verif.Color

/-! ## C40: escapes -/

/-- A chunk decodes to what it denotes, and the parser goes on after the separator. -/
theorem C40_decode (s bs : Bytes) (next : Option Bytes) (stop : UInt8) : unescape (some s) stop = .ok (bs, next) ↔ Chunk stop s bs next :=
  unescape_iff s bs next stop

/-- The only malformed chunks are those that end in the middle of an escape: all others decode, without undefined behavior. -/
theorem C40_malformed (s : Bytes) (stop : UInt8) : (¬ ∃ bs next, unescape (some s) stop = .ok (bs, next)) ↔
    ∃ pre bs c, s = pre ++ [c] ∧ (c = 92 ∨ c = 94) ∧ c ≠ stop ∧ Chunk stop pre bs none := by
  rw [← unescape_err]
  constructor
  · intro h
    rcases unescape_or s stop with ⟨bs, next, h1, _⟩ | h1
    · exact absurd ⟨bs, next, h1⟩ h
    · exact h1
  · rintro h ⟨bs, next, h'⟩
    rw [h] at h'; cases h'

/-- A chunk that is malformed is an error. -/
theorem C40_error (s : Bytes) (stop : UInt8) : (∃ bs next, unescape (some s) stop = .ok (bs, next)) ∨ unescape (some s) stop = .err "EINVAL" := by
  rcases unescape_or s stop with ⟨bs, next, h1, _⟩ | h1
  · exact Or.inl ⟨bs, next, h1⟩
  · exact Or.inr h1

/-- A chunk has one meaning. -/
theorem C40_unambiguous (stop : UInt8) (s bs bs' : Bytes) (next next' : Option Bytes) (h : Chunk stop s bs next) (h' : Chunk stop s bs' next') :
    bs = bs' ∧ next = next' := by
  have h1 := (C40_decode _ _ _ _).2 h
  rw [(C40_decode _ _ _ _).2 h'] at h1
  injection h1 with h1
  injection h1 with h1 h2
  exact ⟨h1.symm, h2.symm⟩

/-- Everything but backslashes, carets and the separator is literal. -/
theorem C40_literal (stop : UInt8) (s : Bytes) (h1 : 92 ∉ s) (h2 : 94 ∉ s) (h3 : stop ∉ s) :
    unescape (some s) stop = .ok (s, none) ∧ ∀ t, unescape (some (s ++ stop :: t)) stop = .ok (s, some t) := by
  have h : ∀ (s t : Bytes) (n : Option Bytes), 92 ∉ s → 94 ∉ s → stop ∉ s → Chunk stop t [] n → Chunk stop (s ++ t) s n := by
    intro s
    induction s with
    | nil => intro t n _ _ _ h; exact h
    | cons c s ih =>
      intro t n h1 h2 h3 h
      exact .item [c] (s ++ t) s c n (fun hh => h3 (by simp at hh; simp [hh])) (.plain c _ (fun hh => h1 (by simp [hh])) (fun hh => h2 (by simp [hh])))
        (ih t n (fun hh => h1 (by simp [hh])) (fun hh => h2 (by simp [hh])) (fun hh => h3 (by simp [hh])) h)
  constructor
  · have := h s [] none h1 h2 h3 .done
    rw [List.append_nil] at this
    exact (C40_decode _ _ _ _).2 this
  · intro t
    exact (C40_decode _ _ _ _).2 (h s _ _ h1 h2 h3 (.stop t))

/-- `\e[\x4aq\0107^A\::rest` -/
def exChunk : Bytes := [92, 101, 91, 92, 120, 52, 97, 113, 92, 48, 49, 48, 55, 94, 65, 92, 58, 58, 114]

theorem exChunk_ok : Chunk 58 exChunk [27, 91, 74, 113, 71, 1, 58] (some [114]) := by
  refine .item [92, 101] _ _ _ _ (by decide) (.letter _ _ _ .e) ?_
  refine .item [91] _ _ _ _ (by decide) (.plain _ _ (by decide) (by decide)) ?_
  refine .item [92, 120, 52, 97] _ _ _ _ (by decide) (.hex 120 [52, 97] _ 74 (Or.inl rfl) ?_ ?_) ?_
  · exact .more [52] 4 97 10 (.more [] 0 52 4 .none (Or.inl (by decide))) (Or.inr (Or.inr (by decide)))
  · intro c d h
    have : c = 113 := by simpa using h.symm
    subst this
    unfold HexDigit
    have : (113 : UInt8).toNat = 113 := rfl
    omega
  refine .item [113] _ _ _ _ (by decide) (.plain _ _ (by decide) (by decide)) ?_
  refine .item [92, 48, 49, 48, 55] _ _ _ _ (by decide) (.octal [48, 49, 48, 55] _ (by decide) (by unfold OctDigit; decide) ?_) ?_
  · intro c h
    have : c = 94 := by simpa using h.symm
    subst this
    unfold OctDigit; decide
  refine .item [94, 65] _ _ _ _ (by decide) (.control 65 _ (by decide)) ?_
  refine .item [92, 58] _ _ _ _ (by decide) (.other 58 _ ?_ (by unfold OctDigit; decide) (by decide) (by decide)) ?_
  · intro b h; cases h
  exact .stop _

example : unescape (some exChunk) 58 = .ok ([27, 91, 74, 113, 71, 1, 58], some [114]) := (C40_decode _ _ _ _).2 exChunk_ok
example : unescape (some exChunk) 58 = .ok ([27, 91, 74, 113, 71, 1, 58], some [114]) := by decide +kernel
/-- `a\` and `a^` are malformed. -/
example : unescape (some [97, 92]) 58 = .err "EINVAL" ∧ unescape (some [97, 94]) 58 = .err "EINVAL" := by decide +kernel
example : unescape (some [48, 59, 51]) 58 = .ok ([48, 59, 51], none) := (C40_literal 58 [48, 59, 51] (by decide) (by decide) (by decide)).1

/-- `$LS_COLORS` is split into the settings that it denotes. -/
theorem C40_settings (s : Bytes) (l : List Setting) : settings s = .ok l ↔ LsColors s l := by
  constructor
  · intro h
    rcases settingsLoop_or (s.length + 1) s (Nat.lt_succ_self _) with ⟨l', h1, h2⟩ | ⟨e, h1⟩
    · have h1' : settings s = .ok l' := h1
      rw [h] at h1'
      injection h1' with h1'
      subst h1'; exact h2
    · have h1' : settings s = .err e := h1
      rw [h] at h1'; cases h1'
  · intro h
    exact settingsLoop_complete h _ (Nat.lt_succ_self _)

/-- Anything else is an error, not undefined behavior. -/
theorem C40_settings_rejects (s : Bytes) (h : ¬ ∃ l, LsColors s l) : ∃ e, settings s = .err e := by
  rcases settingsLoop_or (s.length + 1) s (Nat.lt_succ_self _) with ⟨l', h1, h2⟩ | ⟨e, h1⟩
  · exact absurd ⟨l', h2⟩ h
  · exact ⟨e, h1⟩

/-- `di=01:*.gz=31:rs=0:ex=00` -/
def exLsColors : Bytes := [100, 105, 61, 48, 49, 58, 42, 46, 103, 122, 61, 51, 49, 58, 114, 115, 61, 48, 58, 101, 120, 61, 48, 48]

theorem exLsColors_ok : LsColors exLsColors [.esc [100, 105] (some [48, 49]), .ext [46, 103, 122] [51, 49], .esc [114, 115] (some [48]), .esc [101, 120] none] := by
  refine .esc [100, 105] [48, 49] _ [42, 46, 103, 122, 61, 51, 49, 58, 114, 115, 61, 48, 58, 101, 120, 61, 48, 48] _ (by decide) (by decide) ((C40_decode _ _ _ _).1 (by decide +kernel)) ?_
  refine .ext _ [46, 103, 122] [51, 49] [51, 49, 58, 114, 115, 61, 48, 58, 101, 120, 61, 48, 48] [114, 115, 61, 48, 58, 101, 120, 61, 48, 48] _ ((C40_decode _ _ _ _).1 (by decide +kernel)) ((C40_decode _ _ _ _).1 (by decide +kernel)) ?_
  refine .esc [114, 115] [48] _ [101, 120, 61, 48, 48] _ (by decide) (by decide) ((C40_decode _ _ _ _).1 (by decide +kernel)) ?_
  exact .escLast [101, 120] [48, 48] _ (by decide) (by decide) ((C40_decode _ _ _ _).1 (by decide +kernel))

example : settings exLsColors = .ok [.esc [100, 105] (some [48, 49]), .ext [46, 103, 122] [51, 49], .esc [114, 115] (some [48]), .esc [101, 120] none] :=
  (C40_settings _ _).2 exLsColors_ok

/-- An extension without a value, like `*.gz`, makes the whole variable malformed. -/
example : settings [42, 46, 103, 122] = .err "EINVAL" := by decide +kernel

/-! ## C41: extensions -/

/-- The color of a file name is that of the last entry that applies to it, if there is any. -/
theorem C41_color (K : Nat) (entries : List (Bytes × Bytes)) (name : Bytes) : ∃ c r, build K entries = .ok c ∧ getExt c name = .ok r ∧
    (r = none ↔ ∀ i, ¬ Applies (useful entries) name i) ∧
    ∀ color, r = some color ↔
      ∃ i e, (useful entries)[i]? = some e ∧ e.2 = color ∧ Applies (useful entries) name i ∧ ∀ j, Applies (useful entries) name j → j ≤ i := by
  obtain ⟨c, cs, h1, h2⟩ := build_ok K entries
  obtain ⟨r, g1, g2, g3⟩ := getExt_ok h2 name
  refine ⟨c, r, h1, g1, ⟨g2, ?_⟩, ?_⟩
  · intro h
    cases r with
    | none => rfl
    | some esc =>
      obtain ⟨i, _, _, _, ha, _⟩ := g3 esc rfl
      exact absurd ha (h i)
  · intro color
    refine ⟨g3 color, ?_⟩
    rintro ⟨i, e, he, hc, ha, hm⟩
    cases r with
    | none => exact absurd ha (g2 rfl i)
    | some esc =>
      obtain ⟨i', e', he', hc', ha', hm'⟩ := g3 esc rfl
      have : i = i' := Nat.le_antisymm (hm' i ha) (hm i' ha')
      subst this
      rw [he] at he'
      injection he' with he'
      rw [← hc', ← hc, he']

/-- An entry whose extension is a suffix of the name, up to case. -/
def CiMatch (E : List (Bytes × Bytes)) (name : Bytes) (i : Nat) (e : Bytes × Bytes) : Prop := E[i]? = some e ∧ lower e.1 <:+ lower name

theorem lower_suffix {a b : Bytes} (h : a <:+ b) : lower a <:+ lower b := by
  obtain ⟨p, rfl⟩ := h
  exact ⟨lower p, by unfold lower; rw [List.map_append]⟩

/-- Let `i` be the last entry that matches the name up to case.  If it matches exactly, or is not case-sensitive, then it decides the color. -/
theorem C41_last (K : Nat) (entries : List (Bytes × Bytes)) (name : Bytes) (i : Nat) (e : Bytes × Bytes) (h : CiMatch (useful entries) name i e)
    (hlast : ∀ j f, CiMatch (useful entries) name j f → j ≤ i) (hc : e.1 <:+ name ∨ ¬ CaseSensitive (useful entries) i) :
    ∃ c, build K entries = .ok c ∧ getExt c name = .ok (some e.2) := by
  obtain ⟨c, r, h1, h2, _, h4⟩ := C41_color K entries name
  have hf : InForce (useful entries) i := by
    refine ⟨e, h.1, ?_⟩
    intro j f hj hf hs
    have := hlast j f ⟨hf, (lower_suffix hs).trans h.2⟩
    omega
  have : r = some e.2 := (h4 e.2).2 ⟨i, e, h.1, rfl, ⟨hf, e, h.1, hc.imp id fun hc => ⟨hc, h.2⟩⟩, by
    rintro j ⟨_, f, hf, hs | ⟨_, hs⟩⟩
    · exact hlast j f ⟨hf, lower_suffix hs⟩
    · exact hlast j f ⟨hf, hs⟩⟩
  exact ⟨c, h1, by rw [h2, this]⟩

/-- A name that no entry matches even up to case has no color. -/
theorem C41_none (K : Nat) (entries : List (Bytes × Bytes)) (name : Bytes) (h : ∀ i e, ¬ CiMatch (useful entries) name i e) :
    ∃ c, build K entries = .ok c ∧ getExt c name = .ok none := by
  obtain ⟨c, r, h1, h2, h3, _⟩ := C41_color K entries name
  have : r = none := h3.2 (by
    rintro i ⟨_, e, he, hs | ⟨_, hs⟩⟩
    · exact h i e ⟨he, lower_suffix hs⟩
    · exact h i e ⟨he, hs⟩)
  exact ⟨c, h1, by rw [h2, this]⟩

/-- The last entry that matches the name exactly decides, unless a later one matches only up to case. -/
theorem C41_exact (K : Nat) (entries : List (Bytes × Bytes)) (name : Bytes) (i : Nat) (e : Bytes × Bytes) (he : (useful entries)[i]? = some e)
    (hs : e.1 <:+ name) (hlast : ∀ j f, i < j → (useful entries)[j]? = some f → ¬ f.1 <:+ name)
    (hcs : ∀ j f, i < j → CiMatch (useful entries) name j f → CaseSensitive (useful entries) j) :
    ∃ c, build K entries = .ok c ∧ getExt c name = .ok (some e.2) := by
  obtain ⟨c, r, h1, h2, _, h4⟩ := C41_color K entries name
  have : r = some e.2 := (h4 e.2).2 ⟨i, e, he, rfl, ⟨⟨e, he, fun j f hj hf h => hlast j f hj hf (h.trans hs)⟩, e, he, Or.inl hs⟩, by
    rintro j ⟨_, f, hf, hs' | ⟨hc, hs'⟩⟩
    · by_cases hij : i < j
      · exact absurd hs' (hlast j f hij hf)
      · omega
    · by_cases hij : i < j
      · exact absurd (hcs j f hij ⟨hf, hs'⟩) hc
      · omega⟩
  exact ⟨c, h1, by rw [h2, this]⟩

/-- An extension that is given in two cases with two colors, and no more, is case-sensitive. -/
theorem C41_two_cases (E : List (Bytes × Bytes)) (a b : Nat) (e f : Bytes × Bytes) (h : SameExt E a b) (hab : a < b) (he : E[a]? = some e) (hf : E[b]? = some f)
    (hc : e.2 ≠ f.2) (hnext : ∀ c, SameExt E a c → a < c → b ≤ c) : CaseSensitive E a ∧ CaseSensitive E b := by
  obtain ⟨h1, h2, x, y, hx, hy, hl⟩ := h
  have haa : SameExt E a a := ⟨h1, h1, e, e, he, he, rfl⟩
  have hbb : SameExt E b b := ⟨h2, h2, f, f, hf, hf, rfl⟩
  have hba : SameExt E b a := ⟨h2, h1, y, x, hy, hx, hl.symm⟩
  exact ⟨⟨a, b, e, f, haa, ⟨h1, h2, x, y, hx, hy, hl⟩, hab, he, hf, hc, hnext⟩, ⟨a, b, e, f, hba, hbb, hab, he, hf, hc, fun c _ h => Nat.le_of_lt h⟩⟩

/-- The whole way from `$LS_COLORS` to the color of a file name. -/
def extEntries (l : List Setting) : List (Bytes × Bytes) := l.filterMap fun
  | .ext k v => some (k, v)
  | .esc _ _ => none

theorem C41_ls_colors (K : Nat) (s : Bytes) (l : List Setting) (h : LsColors s l) (name : Bytes) : ∃ c r, settings s = .ok l ∧ build K (extEntries l) = .ok c ∧
    getExt c name = .ok r ∧ ∀ color, r = some color ↔
      ∃ i e, (useful (extEntries l))[i]? = some e ∧ e.2 = color ∧ Applies (useful (extEntries l)) name i ∧ ∀ j, Applies (useful (extEntries l)) name j → j ≤ i := by
  obtain ⟨c, r, h1, h2, _, h4⟩ := C41_color K (extEntries l) name
  exact ⟨c, r, (C40_settings s l).2 h, h1, h2, h4⟩

/-- `*.gz=1:*.tar.gz=2:*.TXT=3` -/
def exExts : List (Bytes × Bytes) := [([46, 103, 122], [49]), ([46, 116, 97, 114, 46, 103, 122], [50]), ([46, 84, 88, 84], [51])]

/-- `a.tar.gz` has color 2, and `a.txt` color 3. -/
example : ∃ c, build 5 exExts = .ok c ∧ getExt c [97, 46, 116, 97, 114, 46, 103, 122] = .ok (some [50]) :=
  C41_last 5 exExts _ 1 _ ⟨rfl, by decide⟩ (by
    rintro j f ⟨hf, hs⟩
    by_cases hj : j ≤ 1
    · exact hj
    · exfalso
      by_cases hj2 : j = 2
      · subst hj2
        have : f = ([46, 84, 88, 84], [51]) := by injection hf with hf; exact hf.symm
        subst this
        revert hs; decide
      · have : (useful exExts)[j]? = none := List.getElem?_eq_none (by show 3 ≤ j; omega)
        rw [this] at hf; cases hf) (Or.inl (by decide))

def getExt' (entries : List (Bytes × Bytes)) (name : Bytes) : Out (Option Bytes) := (build 5 entries).bind fun c => getExt c name

example : getExt' exExts [97, 46, 116, 120, 116] = .ok (some [51]) := by decide +kernel
example : getExt' exExts [97, 46, 122] = .ok none := by decide +kernel

/-- `*.tar.gz=2:*.gz=1`: the later entry overrides the longer one. -/
example : getExt' [([46, 116, 97, 114, 46, 103, 122], [50]), ([46, 103, 122], [49])] [97, 46, 116, 97, 114, 46, 103, 122] = .ok (some [49]) := by decide +kernel

/-- `*.c=1:*.C=2` is case-sensitive. -/
example : getExt' [([46, 99], [49]), ([46, 67], [50])] [97, 46, 99] = .ok (some [49]) ∧ getExt' [([46, 99], [49]), ([46, 67], [50])] [97, 46, 67] = .ok (some [50]) := by
  decide +kernel

/-- It is not true that the colors of an extension, given in several cases, being different makes all of them case-sensitive: with
`*.gz=1:*.GZ=1:*.Gz=2`, the first entry stays case-insensitive, and decides the color of `a.gZ`. -/
theorem C41_smart_case_counterexample :
    getExt' [([46, 103, 122], [49]), ([46, 71, 90], [49]), ([46, 71, 122], [50])] [97, 46, 103, 90] = .ok (some [49]) ∧
    -- without the middle entry, it is none of them
    getExt' [([46, 103, 122], [49]), ([46, 71, 122], [50])] [97, 46, 103, 90] = .ok none := by decide +kernel

/-- An entry that is overridden by a case-sensitive one does not apply any more, even to names to which the other does not: with
`*.tar.gz=1:*.gz=2:*.GZ=3`, `a.tar.Gz` has no color, although it has color 1 without the other two. -/
theorem C41_override_counterexample :
    getExt' [([46, 116, 97, 114, 46, 103, 122], [49]), ([46, 103, 122], [50]), ([46, 71, 90], [51])] [97, 46, 116, 97, 114, 46, 71, 122] = .ok none ∧
    getExt' [([46, 116, 97, 114, 46, 103, 122], [49])] [97, 46, 116, 97, 114, 46, 71, 122] = .ok (some [49]) := by decide +kernel

end Verif.Props
