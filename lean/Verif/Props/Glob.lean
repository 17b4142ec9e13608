import Verif.Lemmas.Glob
/-!
# C81: patterns match what the shell's patterns match

`-name`, `-path`, `-lname`, `-context` and the versions that ignore case, with the shortcut for patterns that have no wildcards.
-/
namespace Verif.Props
open Verif.Glob
open Verif.Fnmatch (Libc Pattern parseFnmatch evalFnmatch)

/-- The C library's `fnmatch()` is right about patterns that do not end with an unescaped backslash. -/
def Fnmatches (l : Locale) (c : Libc) : Prop := ∀ icase p name, ¬ Dangling p → (c.fnmatch icase p name = true ↔ Matches l icase p name)

/-- The value of the test: without a pattern, it is `-false`. -/
def patternTest (c : Libc) (p : Option Pattern) (name : List UInt8) : Bool :=
  match p with
  | none => false
  | some p => evalFnmatch c p name

/-- A name passes the test if, and only if, it matches the pattern.  Missing: ignoring case, for patterns without wildcards, in locales where
characters have several bytes; see `C81_counterexample`. -/
theorem C81_matches_partial (l : Locale) (c : Libc) (hl : Ascii l) (hc : Fnmatches l c) (hasCasefold : Bool) (pattern : List UInt8) (icase : Bool)
    (hi : icase = true → ¬ Wildless pattern ∨ Bytewise l c.tolower) (p : Option Pattern) (hp : parseFnmatch hasCasefold pattern icase = .ok p) (name : List UInt8) :
    patternTest c p name = true ↔ Matches l icase pattern name := by
  unfold parseFnmatch at hp
  split at hp
  · cases hp
  · split at hp
    · rename_i h
      injection hp with hp
      subst hp
      have := dangling_nothing hl (icase := icase) (name := name) ((dangling_iff pattern).2 h)
      simp [patternTest, this]
    · rename_i h
      injection hp with hp
      subst hp
      have hd : ¬ Dangling pattern := fun h' => h ((dangling_iff pattern).1 h')
      unfold patternTest evalFnmatch
      dsimp only
      by_cases hw : Wildless pattern
      · rw [if_pos (by simpa using (wildless_iff pattern).1 hw), wildless_self hl hw]
        cases icase
        · simp
        · simp only [if_true, Verif.Fnmatch.strcaseeq, decide_eq_true_eq]
          rcases hi rfl with h | h
          · exact absurd hw h
          · exact h _ _
      · rw [if_neg (by simpa using fun h => hw ((wildless_iff pattern).2 h))]
        exact hc icase pattern name hd

/-- Without wildcards, and minding case, only the name itself matches. -/
theorem C81_literal (l : Locale) (c : Libc) (hl : Ascii l) (hc : Fnmatches l c) (hasCasefold : Bool) (pattern : List UInt8) (hw : Wildless pattern)
    (p : Option Pattern) (hp : parseFnmatch hasCasefold pattern false = .ok p) (name : List UInt8) : patternTest c p name = true ↔ name = pattern := by
  rw [C81_matches_partial l c hl hc hasCasefold pattern false (fun h => by cases h) p hp name, wildless_self hl hw]
  simp [eq_comm]

/-- A pattern with an unescaped backslash at its end matches nothing, whatever `fnmatch()` says. -/
theorem C81_dangling (c : Libc) (hasCasefold : Bool) (pattern : List UInt8) (h : Dangling pattern) (icase : Bool) (p : Option Pattern)
    (hp : parseFnmatch hasCasefold pattern icase = .ok p) (name : List UInt8) : patternTest c p name = false := by
  unfold parseFnmatch at hp
  split at hp
  · cases hp
  · rw [if_pos ((dangling_iff pattern).1 h)] at hp
    injection hp with hp
    subst hp
    rfl

/-- Every pattern is accepted, if the C library can ignore case or need not. -/
theorem C81_accepts (hasCasefold : Bool) (pattern : List UInt8) (icase : Bool) (h : icase = true → hasCasefold = true) :
    ∃ p, parseFnmatch hasCasefold pattern icase = .ok p := by
  unfold parseFnmatch
  rw [if_neg (by cases icase <;> simp_all)]
  split <;> exact ⟨_, rfl⟩

/-! ## The C locale -/

/-- `A` to `Z`. -/
def lower81 (n : Nat) : Nat := if 65 ≤ n ∧ n ≤ 90 then n + 32 else n
def lowerByte81 (b : UInt8) : UInt8 := UInt8.ofNat (lower81 b.toNat)

/-- One byte per character, and bracket expressions that list characters: `[abc]`. -/
def posix81 : Locale where
  decode := fun b => b.map UInt8.toNat
  fold := lower81
  bracket := fun b _ => 93 ∉ b.dropLast ∧ b.getLast? = some 93 ∧ 2 ≤ b.length
  member := fun icase b x => ∃ y ∈ b.dropLast, if icase then lower81 y = lower81 x else y = x

theorem map_toNat_inj81 : ∀ a b : List UInt8, a.map UInt8.toNat = b.map UInt8.toNat → a = b := by
  intro a
  induction a with
  | nil => intro b h; cases b with
    | nil => rfl
    | cons => simp at h
  | cons x a ih => intro b h; cases b with
    | nil => simp at h
    | cons y b =>
      simp only [List.map_cons, List.cons.injEq] at h
      rw [UInt8.toNat.inj h.1, ih b h.2]

theorem posix81_ascii : Ascii posix81 where
  nil := rfl
  split := fun a c b _ => by simp [posix81]
  high := fun a h n hn => by
    simp only [posix81, List.mem_map] at hn
    obtain ⟨c, hc, rfl⟩ := hn
    exact UInt8.le_iff_toNat_le.1 (h c hc)
  inj := map_toNat_inj81
  closed := fun _ _ h => h.2.1

theorem posix81_bytewise : Bytewise posix81 lowerByte81 := by
  have h : ∀ c : UInt8, (lowerByte81 c).toNat = lower81 c.toNat := by
    intro c
    unfold lowerByte81
    rw [UInt8.toNat_ofNat']
    have := c.toNat_lt
    unfold lower81
    split <;> omega
  intro a b
  have e : ∀ a : List UInt8, (a.map UInt8.toNat).map lower81 = (a.map lowerByte81).map UInt8.toNat := by
    intro a; simp only [List.map_map]; congr 1; funext c; exact (h c).symm
  show _ ↔ (a.map UInt8.toNat).map lower81 = (b.map UInt8.toNat).map lower81
  rw [e, e]
  exact ⟨fun h => by rw [h], map_toNat_inj81 _ _⟩

open Classical in
/-- A C library that is right. -/
noncomputable def libc81 (l : Locale) (tolower : UInt8 → UInt8) : Libc := ⟨fun icase p name => decide (Matches l icase p name), tolower⟩

theorem libc81_fnmatches (l : Locale) (t : UInt8 → UInt8) : Fnmatches l (libc81 l t) := fun _ _ _ _ => by simp [libc81]

/-- `-iname '*.[ch]'` finds `A.C`. -/
example : ∃ p, parseFnmatch true [42, 46, 91, 99, 104, 93] true = .ok p ∧ patternTest (libc81 posix81 lowerByte81) p [65, 46, 67] = true := by
  refine ⟨_, rfl, ?_⟩
  rw [C81_matches_partial posix81 (libc81 posix81 lowerByte81) posix81_ascii (libc81_fnmatches _ _) true [42, 46, 91, 99, 104, 93] true (fun _ => .inr posix81_bytewise) _ rfl]
  show Glob posix81 true [42, 46, 91, 99, 104, 93] ([65] ++ [46, 67])
  refine .star (.char ⟨by decide, by decide, by decide, by decide⟩ (by rfl) ?_)
  exact .set (b := [99, 104, 93]) (p := []) ⟨by decide, by decide, by decide⟩ ⟨99, by decide, by decide⟩ .done

/-- `a\` dangles, and `a\\` does not. -/
example : Dangling [97, 92] ∧ ¬ Dangling [97, 92, 92] := ⟨(dangling_iff _).2 (by decide), fun h => absurd ((dangling_iff _).1 h) (by decide)⟩

/-! ## A locale with longer characters -/

/-- A part of UTF-8: 195 followed by one of 128 to 191 is a character from 192 to 255.  Other bytes above 127 are no characters, and stand for themselves. -/
def decode81 : List UInt8 → List Nat
  | [] => []
  | [b] => [if b < 128 then b.toNat else 65536 + b.toNat]
  | b :: c :: t =>
    if b = 195 ∧ 128 ≤ c ∧ c < 192 then (c.toNat + 64) :: decode81 t
    else (if b < 128 then b.toNat else 65536 + b.toNat) :: decode81 (c :: t)

/-- `É` (201) is the upper case of `é` (233), and so on. -/
def fold81 (n : Nat) : Nat := if (65 ≤ n ∧ n ≤ 90) ∨ (192 ≤ n ∧ n ≤ 222 ∧ n ≠ 215) then n + 32 else n

def utf81 : Locale := { posix81 with decode := decode81, fold := fold81 }

theorem decode81_cons (b : UInt8) (t : List UInt8) : (∃ c u, t = c :: u ∧ b = 195 ∧ 128 ≤ c ∧ c < 192 ∧ decode81 (b :: t) = (c.toNat + 64) :: decode81 u) ∨
    ((∀ c u, t = c :: u → ¬ (b = 195 ∧ 128 ≤ c ∧ c < 192)) ∧ decode81 (b :: t) = (if b < 128 then b.toNat else 65536 + b.toNat) :: decode81 t) := by
  cases t with
  | nil => exact .inr ⟨by simp, rfl⟩
  | cons c u =>
    by_cases h : b = 195 ∧ 128 ≤ c ∧ c < 192
    · exact .inl ⟨c, u, rfl, h.1, h.2.1, h.2.2, by show (if _ then _ else _) = _; rw [if_pos h]⟩
    · exact .inr ⟨fun c' u' e => by cases e; exact h, by show (if _ then _ else _) = _; rw [if_neg h]⟩

theorem utf81_ascii : Ascii utf81 where
  nil := rfl
  split := by
    show ∀ a c b, c < 128 → decode81 (a ++ c :: b) = decode81 a ++ c.toNat :: decode81 b
    intro a
    induction hk : a.length using Nat.strongRecOn generalizing a with
    | _ k ih =>
      intro c b hc
      cases a with
      | nil =>
        rcases decode81_cons c b with ⟨d, u, _, h, _⟩ | ⟨_, h⟩
        · subst h; exact absurd hc (by decide)
        · show decode81 (c :: b) = _; rw [h, if_pos hc]; rfl
      | cons x a =>
        rcases decode81_cons x a with ⟨d, u, rfl, h1, h2, h3, h4⟩ | ⟨h1, h2⟩
        · rw [h4]
          rcases decode81_cons x (d :: u ++ c :: b) with ⟨d', u', e, _, _, _, h⟩ | ⟨h, _⟩
          · cases e
            show decode81 (x :: (d :: u ++ c :: b)) = _
            rw [h]
            show _ :: decode81 (u ++ c :: b) = _
            rw [ih u.length (by subst hk; simp; omega) u rfl c b hc]; rfl
          · exact absurd ⟨h1, h2, h3⟩ (h d _ rfl)
        · rw [h2]
          rcases decode81_cons x (a ++ c :: b) with ⟨d', u', e, h3, h4, h5, h⟩ | ⟨_, h⟩
          · cases a with
            | nil => cases e; exact absurd (UInt8.lt_of_lt_of_le hc h4) (UInt8.lt_irrefl c)
            | cons y a' =>
              injection e with e1 e2
              subst e1
              exact absurd ⟨h3, h4, h5⟩ (h1 y a' rfl)
          · show decode81 (x :: (a ++ c :: b)) = _
            rw [h, ih a.length (by subst hk; simp) a rfl c b hc]; rfl
  high := by
    show ∀ a : List UInt8, (∀ c ∈ a, 128 ≤ c) → ∀ n ∈ decode81 a, 128 ≤ n
    intro a
    induction hk : a.length using Nat.strongRecOn generalizing a with
    | _ k ih =>
      intro ha n hn
      cases a with
      | nil => cases hn
      | cons x a =>
        rcases decode81_cons x a with ⟨d, u, rfl, h1, h2, h3, h4⟩ | ⟨h1, h2⟩
        · rw [h4, List.mem_cons] at hn
          rcases hn with rfl | hn
          · have := UInt8.le_iff_toNat_le.1 h2; simp at this; omega
          · exact ih u.length (by subst hk; simp; omega) u rfl (fun c hc => ha c (by simp [hc])) n hn
        · rw [h2, List.mem_cons] at hn
          rcases hn with rfl | hn
          · have := ha x (by simp)
            rw [if_neg (UInt8.not_lt.2 this)]; omega
          · exact ih a.length (by subst hk; simp) a rfl (fun c hc => ha c (by simp [hc])) n hn
  inj := by
    show ∀ a b, decode81 a = decode81 b → a = b
    intro a
    induction hk : a.length using Nat.strongRecOn generalizing a with
    | _ k ih =>
      intro b he
      have one : ∀ x : UInt8, (if x < 128 then x.toNat else 65536 + x.toNat) < 128 ∨ 65536 + 128 ≤ (if x < 128 then x.toNat else 65536 + x.toNat) := by
        intro x
        split
        · rename_i h; exact .inl (UInt8.lt_iff_toNat_lt.1 h)
        · rename_i h; have := UInt8.le_iff_toNat_le.1 (UInt8.not_lt.1 h); simp at this; exact .inr (by omega)
      have two : ∀ d : UInt8, 128 ≤ d → d < 192 → 192 ≤ d.toNat + 64 ∧ d.toNat + 64 < 256 := by
        intro d h1 h2
        have h1 := UInt8.le_iff_toNat_le.1 h1
        have h2 := UInt8.lt_iff_toNat_lt.1 h2
        simp at h1 h2; omega
      cases a with
      | nil =>
        cases b with
        | nil => rfl
        | cons y b =>
          rcases decode81_cons y b with ⟨d, u, _, _, _, _, h⟩ | ⟨_, h⟩ <;> rw [h] at he <;> cases he
      | cons x a =>
        cases b with
        | nil => rcases decode81_cons x a with ⟨d, u, _, _, _, _, h⟩ | ⟨_, h⟩ <;> rw [h] at he <;> cases he
        | cons y b =>
          rcases decode81_cons x a with ⟨d, u, rfl, h1, h2, h3, h4⟩ | ⟨h1, h2⟩
          · rcases decode81_cons y b with ⟨d', u', rfl, g1, g2, g3, g4⟩ | ⟨g1, g2⟩
            · rw [h4, g4] at he
              injection he with e1 e2
              rw [h1, g1, ih u.length (by subst hk; simp; omega) u rfl u' e2, UInt8.toNat.inj (Nat.add_right_cancel e1)]
            · rw [h4, g2] at he
              injection he with e1 e2
              have := two d h2 h3
              rcases one y with h | h <;> omega
          · rcases decode81_cons y b with ⟨d', u', rfl, g1, g2, g3, g4⟩ | ⟨g1, g2⟩
            · rw [h2, g4] at he
              injection he with e1 e2
              have := two d' g2 g3
              rcases one x with h | h <;> omega
            · rw [h2, g2] at he
              injection he with e1 e2
              rw [ih a.length (by subst hk; simp) a rfl b e2]
              have : x.toNat = y.toNat := by
                have hx := x.toNat_lt
                have hy := y.toNat_lt
                split at e1 <;> split at e1 <;> omega
              rw [UInt8.toNat.inj this]
  closed := fun _ _ h => h.2.1

/-- `-iname É` does not find `é`, although `-iname 'É*'` does: without wildcards, only bytes are compared. -/
theorem C81_counterexample :
    (∃ p, parseFnmatch true [195, 137] true = .ok p ∧ patternTest (libc81 utf81 lowerByte81) p [195, 169] = false ∧ Matches utf81 true [195, 137] [195, 169]) ∧
    ∃ p, parseFnmatch true [195, 137, 42] true = .ok p ∧ patternTest (libc81 utf81 lowerByte81) p [195, 169] = true := by
  refine ⟨⟨_, rfl, by decide, ?_⟩, _, rfl, ?_⟩
  · show Glob utf81 true [201] [233]
    exact .char ⟨by decide, by decide, by decide, by decide⟩ (by show fold81 201 = fold81 233; decide) .done
  · rw [C81_matches_partial utf81 (libc81 utf81 lowerByte81) utf81_ascii (libc81_fnmatches _ _) true [195, 137, 42] true (fun _ => .inl fun h => absurd rfl (h 42 (by decide)).2.1) _ rfl]
    show Glob utf81 true [201, 42] [233]
    exact .char ⟨by decide, by decide, by decide, by decide⟩ (by show fold81 201 = fold81 233; decide) (.star (t := []) .done)

end Verif.Props
