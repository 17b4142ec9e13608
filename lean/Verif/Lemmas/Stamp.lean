import Verif.Spec.Stamp
import Verif.Lemmas.Directive
/-! # Lemmas about times that can be sorted -/
namespace Verif.Directive
open Verif.Num (Digits)

theorem lex_append {α : Type} {r : α → α → Prop} (hr : ∀ a, ¬ r a a) : ∀ (a b s t : List α), a.length = b.length → (List.Lex r (a ++ s) (b ++ t) ↔ List.Lex r a b ∨ a = b ∧ List.Lex r s t)
  | [], [], s, t, _ => ⟨fun h => .inr ⟨rfl, h⟩, fun h => by rcases h with h | h; cases h; exact h.2⟩
  | x :: a, y :: b, s, t, h => by
    have ih := lex_append hr a b s t (Nat.succ.inj h)
    constructor
    · intro h
      cases h with
      | rel h => exact .inl (.rel h)
      | cons h =>
        rcases ih.1 h with h' | ⟨rfl, h'⟩
        · exact .inl (.cons h')
        · exact .inr ⟨rfl, h'⟩
    · rintro (h | ⟨h, h'⟩)
      · cases h with
        | rel h => exact .rel h
        | cons h => exact .cons (ih.2 (.inl h))
      · cases h
        exact .cons (ih.2 (.inr ⟨rfl, h'⟩))

theorem lex_irrefl {α : Type} {r : α → α → Prop} (hr : ∀ a, ¬ r a a) : ∀ a, ¬ List.Lex r a a
  | [], h => by cases h
  | x :: a, h => by
    cases h with
    | rel h => exact hr _ h
    | cons h => exact lex_irrefl hr a h

theorem Digits_length {s : Bytes} {n : Nat} (h : Digits 10 s n) : 0 < s.length := by cases h <;> simp

theorem Digits_lt {s : Bytes} {n : Nat} (h : Digits 10 s n) : n < 10 ^ s.length := by
  induction h with
  | one c d _ h => simpa using h
  | more s n c d _ _ hd ih =>
    rw [List.length_append, List.length_singleton, Nat.pow_succ]
    omega

theorem Digits_head {s : Bytes} {n : Nat} (h : Digits 10 s n) : ∃ c t, s = c :: t ∧ 48 ≤ c.toNat := by
  induction h with
  | one c d h => exact ⟨c, [], rfl, by omega⟩
  | more s n c d _ _ _ ih =>
    obtain ⟨c', t, rfl, h⟩ := ih
    exact ⟨c', _, rfl, h⟩

theorem Digits_ge {s : Bytes} {n : Nat} (h : Digits 10 s n) (h0 : s.head? ≠ some 48) : 10 ^ (s.length - 1) ≤ n := by
  induction h with
  | one c d h hd =>
    have : d ≠ 0 := by
      intro e
      subst e
      exact h0 (congrArg some (UInt8.toNat_inj.1 h))
    simp; omega
  | more s n c d hs h hd ih =>
    have hl := Digits_length hs
    rw [Cfmt.head_append (by intro e; rw [e] at hl; exact absurd hl (Nat.lt_irrefl _))] at h0
    have := ih h0
    have e : (s ++ [c]).length - 1 = s.length - 1 + 1 := by simp; omega
    rw [e, Nat.pow_succ]
    omega

theorem byte_irrefl (a : UInt8) : ¬ a.toNat < a.toNat := Nat.lt_irrefl _

/-- Numerals of the same length sort like the numbers. -/
theorem Digits_sort {s s' : Bytes} {n n' : Nat} (h : Digits 10 s n) (h' : Digits 10 s' n') (hl : s.length = s'.length) :
    (Sorts s s' ↔ n < n') ∧ (s = s' ↔ n = n') := by
  induction h generalizing s' n' with
  | one c d hc hd =>
    cases h' with
    | one c' d' hc' hd' =>
      refine ⟨⟨fun h => ?_, fun h => .rel (by omega)⟩, fun h => ?_, fun h => ?_⟩
      · cases h with
        | rel h => omega
        | cons h => cases h
      · injection h with e; subst e; omega
      · rw [UInt8.toNat_inj.1 (show c.toNat = c'.toNat by omega)]
    | more t m c' d' ht _ _ => have := Digits_length ht; simp only [List.length_append, List.length_singleton] at hl; omega
  | more t m c d ht hc hd ih =>
    cases h' with
    | one c' d' _ _ => have := Digits_length ht; simp only [List.length_append, List.length_singleton] at hl; omega
    | more t' m' c' d' ht' hc' hd' =>
      have hl' : t.length = t'.length := by simpa using hl
      obtain ⟨i1, i2⟩ := ih ht' hl'
      have e1 : Sorts [c] [c'] ↔ d < d' := by
        constructor
        · intro h
          cases h with
          | rel h => omega
          | cons h => cases h
        · intro h
          exact .rel (by omega)
      constructor
      · unfold Sorts at i1 e1 ⊢
        rw [lex_append byte_irrefl t t' [c] [c'] hl', i1, i2, e1]
        omega
      · constructor
        · intro h
          have := List.append_inj h hl'
          have e2 := i2.1 this.1
          injection this.2 with e3
          subst e3
          omega
        · intro h
          have : m = m' := by omega
          rw [i2.2 this, UInt8.toNat_inj.1 (show c.toNat = c'.toNat by omega)]

theorem fixed_sort {k : Nat} {v v' : Bytes} {n n' : Int} (h : Fixed k v n) (h' : Fixed k v' n') : (Sorts v v' ↔ n < n') ∧ (v = v' ↔ n = n') := by
  have := Digits_sort h.2.1 h'.2.1 (h.2.2.trans h'.2.2.symm)
  have h1 := h.1
  have h2 := h'.1
  exact ⟨this.1.trans (by omega), this.2.trans (by omega)⟩

theorem dec_of {v : Bytes} {n : Int} (h : SDec v n) (h0 : 0 ≤ n) : Dec v n.toNat := by
  rcases h with h | h
  · exact h.2
  · omega

theorem dec_len {v : Bytes} {n : Nat} (h : Dec v n) {k : Nat} (hn : n < 10 ^ k) (hk : 0 < k) : v.length ≤ k := by
  by_cases e : v.head? = some 48
  · rw [h.2 e]; exact hk
  · have h1 := Digits_ge h.1 e
    have h2 := Digits_length h.1
    have h3 : v.length - 1 < k := (Nat.pow_lt_pow_iff_right (by decide : 1 < 10)).1 (Nat.lt_of_le_of_lt h1 hn)
    omega

theorem replicate_split {k a b : Nat} (h : a < b) (hb : b ≤ k) : List.replicate (k - a) (32 : UInt8) = List.replicate (k - b) 32 ++ 32 :: List.replicate (b - a - 1) 32 := by
  rw [← List.replicate_succ, List.replicate_append_replicate]
  congr 1
  omega

theorem shorter_sort {k : Nat} {d d' : Bytes} {n n' : Nat} (h : Dec d n) (h' : Dec d' n') (hk : d'.length ≤ k) (hlt : d.length < d'.length) :
    Sorts (List.replicate (k - d.length) 32 ++ d) (List.replicate (k - d'.length) 32 ++ d') ∧ n < n' := by
  constructor
  · rw [replicate_split hlt hk, List.append_assoc]
    unfold Sorts
    rw [lex_append byte_irrefl _ _ _ _ rfl]
    refine .inr ⟨rfl, ?_⟩
    obtain ⟨c, t, rfl, hc⟩ := Digits_head h'.1
    exact .rel (by show (32 : Nat) < c.toNat; omega)
  · have h1 := Digits_lt h.1
    have h2 := Digits_length h.1
    have h3 : d'.head? ≠ some 48 := by
      intro e
      have : d'.length = 1 := by rw [h'.2 e]; rfl
      omega
    have h4 := Digits_ge h'.1 h3
    have h5 : 10 ^ d.length ≤ 10 ^ (d'.length - 1) := Nat.pow_le_pow_right (by decide) (by omega)
    omega

theorem dec_unique {v v' : Bytes} {n : Nat} (h : Dec v n) (h' : Dec v' n) : v = v' := by
  rcases Nat.lt_trichotomy v.length v'.length with hl | hl | hl
  · exact absurd (shorter_sort h h' (Nat.le_refl _) hl).2 (Nat.lt_irrefl _)
  · exact (Digits_sort h.1 h'.1 hl).2.2 rfl
  · exact absurd (shorter_sort h' h (Nat.le_refl _) hl).2 (Nat.lt_irrefl _)

theorem lex_asymm : ∀ {a b : Bytes}, Sorts a b → ¬ Sorts b a
  | _, _, .nil, h => by cases h
  | _, _, .rel h, h' => by
    cases h' with
    | rel h' => omega
    | cons h' => exact byte_irrefl _ h
  | _, _, .cons h, h' => by
    cases h' with
    | rel h' => exact byte_irrefl _ h'
    | cons h' => exact lex_asymm h h'

theorem lexInt_asymm : ∀ {a b : List Int}, List.Lex (fun a b : Int => a < b) a b → ¬ List.Lex (fun a b : Int => a < b) b a
  | _, _, .nil, h => by cases h
  | _, _, .rel h, h' => by
    cases h' with
    | rel h' => omega
    | cons h' => exact Int.lt_irrefl _ h
  | _, _, .cons h, h' => by
    cases h' with
    | rel h' => exact Int.lt_irrefl _ h'
    | cons h' => exact lexInt_asymm h h'

theorem sorts_ne {a b : Bytes} (h : Sorts a b) : a ≠ b := fun e => lex_irrefl byte_irrefl _ (e ▸ h)

theorem aligned_sort {k : Nat} {v v' : Bytes} {n n' : Int} (hk : 0 < k) (h : Aligned k v n) (h' : Aligned k v' n') (h0 : 0 ≤ n) (h0' : 0 ≤ n') (hn : n < 10 ^ k) (hn' : n' < 10 ^ k) :
    (Sorts v v' ↔ n < n') ∧ (v = v' ↔ n = n') ∧ v.length = k := by
  obtain ⟨d, hd, rfl⟩ := h
  obtain ⟨d', hd', rfl⟩ := h'
  have e := dec_of hd h0
  have e' := dec_of hd' h0'
  have hp : ∀ m : Int, 0 ≤ m → m < 10 ^ k → m.toNat < 10 ^ k := by
    intro m h0 hm
    have : ((10 ^ k : Nat) : Int) = (10 : Int) ^ k := by simp
    omega
  have l := dec_len e (hp n h0 hn) hk
  have l' := dec_len e' (hp n' h0' hn') hk
  refine ⟨?_, ?_, by simp; omega⟩
  · rcases Nat.lt_trichotomy d.length d'.length with hlt | heq | hgt
    · obtain ⟨a, b⟩ := shorter_sort e e' l' hlt
      exact ⟨fun _ => by omega, fun _ => a⟩
    · unfold Sorts
      rw [heq, lex_append byte_irrefl _ _ _ _ rfl]
      have := Digits_sort e.1 e'.1 heq
      constructor
      · rintro (h | ⟨_, h⟩)
        · exact absurd h (lex_irrefl byte_irrefl _)
        · have := this.1.1 h; omega
      · intro h
        exact .inr ⟨rfl, this.1.2 (by omega)⟩
    · obtain ⟨a, b⟩ := shorter_sort e' e l hgt
      exact ⟨fun h => absurd h (lex_asymm a), fun h => by omega⟩
  · rcases Nat.lt_trichotomy d.length d'.length with hlt | heq | hgt
    · obtain ⟨a, b⟩ := shorter_sort e e' l' hlt
      exact ⟨fun h => absurd h (sorts_ne a), fun h => by omega⟩
    · rw [heq]
      have := Digits_sort e.1 e'.1 heq
      constructor
      · intro h
        have := this.2.1 (List.append_cancel_left h)
        omega
      · intro h
        rw [this.2.2 (by omega)]
    · obtain ⟨a, b⟩ := shorter_sort e' e l hgt
      exact ⟨fun h => absurd h.symm (sorts_ne a), fun h => by omega⟩

/-- A field and what follows it. -/
theorem field_sort {a a' s s' sep : Bytes} {n n' : Int} {r r' : List Int} (hl : a.length = a'.length) (ha : (Sorts a a' ↔ n < n') ∧ (a = a' ↔ n = n'))
    (hs : (Sorts s s' ↔ List.Lex (fun a b : Int => a < b) r r') ∧ (s = s' ↔ r = r')) :
    (Sorts (a ++ sep ++ s) (a' ++ sep ++ s') ↔ List.Lex (fun a b : Int => a < b) (n :: r) (n' :: r')) ∧ (a ++ sep ++ s = a' ++ sep ++ s' ↔ n :: r = n' :: r') := by
  constructor
  · unfold Sorts at *
    rw [List.append_assoc, List.append_assoc, lex_append byte_irrefl _ _ _ _ hl, lex_append byte_irrefl sep sep _ _ rfl, ha.1, ha.2, hs.1]
    constructor
    · rintro (h | ⟨rfl, h | ⟨_, h⟩⟩)
      · exact .rel h
      · exact absurd h (lex_irrefl byte_irrefl _)
      · exact .cons h
    · intro h
      cases h with
      | rel h => exact .inl h
      | cons h => exact .inr ⟨rfl, .inr ⟨rfl, h⟩⟩
  · constructor
    · intro h
      rw [List.append_assoc, List.append_assoc] at h
      have h1 := List.append_inj h hl
      rw [ha.2.1 h1.1, hs.2.1 (List.append_cancel_left h1.2)]
    · intro h
      injection h with e1 e2
      rw [ha.2.2 e1, hs.2.2 e2]

theorem last_sort {v v' : Bytes} {n n' : Int} (h : Fixed 10 v (10 * n)) (h' : Fixed 10 v' (10 * n')) :
    (Sorts v v' ↔ List.Lex (fun a b : Int => a < b) [n] [n']) ∧ (v = v' ↔ [n] = [n']) := by
  have := fixed_sort h h'
  constructor
  · rw [this.1]
    constructor
    · intro h; exact .rel (by omega)
    · intro h
      cases h with
      | rel h => omega
      | cons h => cases h
  · rw [this.2]
    constructor
    · intro h; rw [show n = n' by omega]
    · intro h; injection h with e; omega

theorem stamp_sort {v v' : Bytes} {tm tm' : Tm} {nsec nsec' : Int} (h : Stamp v tm nsec) (h' : Stamp v' tm' nsec')
    (hy : 0 ≤ 1900 + tm.year ∧ 1900 + tm.year ≤ 9999) (hy' : 0 ≤ 1900 + tm'.year ∧ 1900 + tm'.year ≤ 9999) :
    (Sorts v v' ↔ Earlier tm nsec tm' nsec') ∧ (v = v' ↔ shown tm nsec = shown tm' nsec') := by
  obtain ⟨y, m, d, c, h1, h2, h3, ⟨hh, mi, s, h4, h5, ⟨ss, fr, h6, h7, rfl⟩, rfl⟩, rfl⟩ := h
  obtain ⟨y', m', d', c', h1', h2', h3', ⟨hh', mi', s', h4', h5', ⟨ss', fr', h6', h7', rfl⟩, rfl⟩, rfl⟩ := h'
  have e0 := last_sort h7 h7'
  have e1 := field_sort (sep := [46]) (h6.2.2.trans h6'.2.2.symm) (fixed_sort h6 h6') e0
  have e2 := field_sort (sep := [58]) (h5.2.2.trans h5'.2.2.symm) (fixed_sort h5 h5') e1
  have e3 := field_sort (sep := [58]) (h4.2.2.trans h4'.2.2.symm) (fixed_sort h4 h4') e2
  have e4 := field_sort (sep := [43]) (h3.2.2.trans h3'.2.2.symm) (fixed_sort h3 h3') e3
  have f5 := fixed_sort h2 h2'
  have e5 := field_sort (sep := [45]) (n := tm.mon) (n' := tm'.mon) (h2.2.2.trans h2'.2.2.symm) ⟨f5.1.trans (by omega), f5.2.trans (by omega)⟩ e4
  have f6 := aligned_sort (by decide) h1 h1' hy.1 hy'.1 (by show _ < (10000 : Int); omega) (by show _ < (10000 : Int); omega)
  have f6' := aligned_sort (by decide) h1' h1 hy'.1 hy.1 (by show _ < (10000 : Int); omega) (by show _ < (10000 : Int); omega)
  have e6 := field_sort (sep := [45]) (n := tm.year) (n' := tm'.year) (f6.2.2.trans f6'.2.2.symm) ⟨f6.1.trans (by omega), f6.2.1.trans (by omega)⟩ e5
  have r : ∀ (y m d h mi s f : Bytes), y ++ [45] ++ m ++ [45] ++ d ++ [43] ++ (h ++ [58] ++ mi ++ [58] ++ (s ++ [46] ++ f)) =
      y ++ [45] ++ (m ++ [45] ++ (d ++ [43] ++ (h ++ [58] ++ (mi ++ [58] ++ (s ++ [46] ++ f))))) := by
    intros
    simp only [List.append_assoc]
  rw [r, r]
  exact e6

theorem reads_unique {v : Bytes} {x y : Int} (h : Reads v x) (h' : Reads v y) : x = y := by
  have key : ∀ {a f a' f' : Bytes} {m n m' n' : Nat}, Digits 10 a m → Digits 10 f n → f.length = 10 → Digits 10 a' m' → Digits 10 f' n' → f'.length = 10 →
      a ++ [46] ++ f = a' ++ [46] ++ f' → m = m' ∧ n = n' := by
    intro a f a' f' m n m' n' h1 h2 h3 h1' h2' h3' e
    have e1 := List.append_inj' e (h3.trans h3'.symm)
    have e2 := List.append_cancel_right e1.1
    subst e2
    obtain ⟨-, e3⟩ := e1
    subst e3
    exact ⟨(Digits_sort h1 h1' rfl).2.1 rfl, (Digits_sort h2 h2' rfl).2.1 rfl⟩
  have no : ∀ {a f t : Bytes} {m : Nat}, Digits 10 a m → a ++ [46] ++ f = 45 :: t → False := by
    intro a f t m h e
    obtain ⟨c, t', rfl, hc⟩ := Digits_head h
    injection e with e1 _
    subst e1
    exact absurd hc (by decide)
  cases h with
  | pos a f m n h1 h2 h3 =>
    generalize hv : a ++ [46] ++ f = v at h'
    cases h' with
    | pos a' f' m' n' h1' h2' h3' =>
      obtain ⟨rfl, rfl⟩ := key h1 h2 h3 h1' h2' h3' hv
      rfl
    | neg a' f' m' n' h1' h2' h3' => exact (no h1 hv).elim
  | neg a f m n h1 h2 h3 =>
    generalize hv : 45 :: (a ++ [46] ++ f) = v at h'
    cases h' with
    | pos a' f' m' n' h1' h2' h3' => exact (no h1' hv.symm).elim
    | neg a' f' m' n' h1' h2' h3' =>
      injection hv with _ hv
      obtain ⟨rfl, rfl⟩ := key h1 h2 h3 h1' h2' h3' hv
      rfl

end Verif.Directive
