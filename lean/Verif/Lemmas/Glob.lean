import Verif.Model.Fnmatch
import Verif.Spec.Glob
/-! # Lemmas about patterns -/
namespace Verif.Glob
open Verif.Fnmatch

/-- How many backslashes a pattern ends with. -/
def trail : List Nat → Nat
  | [] => 0
  | c :: p => if trail p = p.length ∧ c = 92 then p.length + 1 else trail p

theorem trail_le (p : List Nat) : trail p ≤ p.length := by
  induction p with
  | nil => simp [trail]
  | cons c p ih => unfold trail; split <;> simp <;> omega

theorem trail_cons (c : Nat) (p : List Nat) : trail (c :: p) = if trail p = p.length ∧ c = 92 then p.length + 1 else trail p := rfl

theorem trail_other {c : Nat} (h : c ≠ 92) (p : List Nat) : trail (c :: p) = trail p := by
  rw [trail_cons, if_neg (fun h' => h h'.2)]

theorem trail_append {c : Nat} (h : c ≠ 92) (a p : List Nat) : trail (a ++ c :: p) = trail p := by
  induction a with
  | nil => exact trail_other h p
  | cons x a ih =>
    show trail (x :: (a ++ c :: p)) = _
    rw [trail_cons, if_neg, ih]
    rintro ⟨h1, _⟩
    rw [ih] at h1
    have := trail_le p
    simp at h1; omega

theorem trail_replicate (n : Nat) : trail (List.replicate n 92) = n := by
  induction n with
  | zero => rfl
  | succ n ih => rw [List.replicate_succ]; rw [trail_cons, if_pos ⟨by rw [ih]; simp, rfl⟩]; simp

theorem glob_even {l : Locale} (hl : Ascii l) {icase : Bool} {p s : List Nat} (h : Glob l icase p s) : trail p % 2 = 0 := by
  induction h with
  | done => rfl
  | char hc _ _ ih => rw [trail_other hc.2.2.2]; exact ih
  | @escaped c x p s _ _ ih =>
    have hle := trail_le p
    by_cases h1 : trail p = p.length
    · by_cases h2 : c = 92
      · subst h2
        have e1 : trail (92 :: p) = p.length + 1 := by rw [trail_cons, if_pos ⟨h1, rfl⟩]
        have e2 : trail (92 :: 92 :: p) = p.length + 2 := by
          show (if trail (92 :: p) = (92 :: p).length ∧ 92 = 92 then _ else _) = _
          rw [if_pos ⟨by rw [e1]; rfl, rfl⟩]; rfl
        rw [e2]; omega
      · have e1 : trail (c :: p) = trail p := trail_other h2 p
        have e2 : trail (92 :: c :: p) = trail (c :: p) := by
          show (if trail (c :: p) = (c :: p).length ∧ 92 = 92 then _ else _) = _
          rw [if_neg]; rintro ⟨h, _⟩; rw [e1] at h; simp at h; omega
        rw [e2, e1]; exact ih
    · have e1 : trail (c :: p) = trail p := by rw [trail_cons, if_neg (fun h' => h1 h'.1)]
      have e2 : trail (92 :: c :: p) = trail (c :: p) := by
        show (if trail (c :: p) = (c :: p).length ∧ 92 = 92 then _ else _) = _
        rw [if_neg]; rintro ⟨h, _⟩; rw [e1] at h; simp at h; omega
      rw [e2, e1]; exact ih
  | any _ ih => rw [trail_other (by decide)]; exact ih
  | star _ ih => rw [trail_other (by decide)]; exact ih
  | @set b p s x hb _ _ ih =>
    have := hl.closed b p hb
    rw [List.getLast?_eq_some_iff] at this
    obtain ⟨b', rfl⟩ := this
    have e : 91 :: (b' ++ [93] ++ p) = (91 :: b') ++ 93 :: p := by simp
    rw [e, trail_append (by decide)]; exact ih
  | unclosed _ _ _ ih => rw [trail_other (by decide)]; exact ih

/-- Ordinary characters match only themselves. -/
theorem glob_plain {l : Locale} {icase : Bool} {p : List Nat} (hp : ∀ c ∈ p, Ordinary c) (s : List Nat) :
    Glob l icase p s ↔ if icase then p.map l.fold = s.map l.fold else p = s := by
  induction p generalizing s with
  | nil =>
    constructor
    · intro h; cases h; split <;> rfl
    · intro h
      have : s = [] := by
        cases icase
        · exact h.symm
        · simpa using h
      subst this; exact .done
  | cons c p ih =>
    have hc := hp c (by simp)
    have hp' : ∀ c ∈ p, Ordinary c := fun x hx => hp x (List.mem_cons_of_mem _ hx)
    constructor
    · intro h
      cases h with
      | char h1 h2 h3 =>
        have := (ih hp' _).1 h3
        unfold Same at h2
        cases icase
        · simp at h2 this ⊢; exact ⟨h2, this⟩
        · simp at h2 this ⊢; exact ⟨h2, this⟩
      | escaped => exact absurd rfl hc.2.2.2
      | any => exact absurd rfl hc.1
      | star => exact absurd rfl hc.2.1
      | set => exact absurd rfl hc.2.2.1
      | unclosed => exact absurd rfl hc.2.2.1
    · intro h
      cases s with
      | nil => cases icase <;> simp at h
      | cons x s =>
        cases icase
        · simp at h; exact .char hc (by simp [Same, h.1]) ((ih hp' s).2 (by simp [h.2]))
        · simp at h; exact .char hc (by simp [Same, h.1]) ((ih hp' s).2 (by simp [h.2]))

/-- The last ASCII byte, if there is any. -/
theorem last_ascii (q : Bytes) : (∀ c ∈ q, 128 ≤ c) ∨ ∃ r c h, q = r ++ c :: h ∧ c < 128 ∧ ∀ x ∈ h, 128 ≤ x := by
  induction q with
  | nil => exact .inl (by simp)
  | cons c q ih =>
    rcases ih with h | ⟨r, d, h, rfl, h1, h2⟩
    · by_cases hc : c < 128
      · exact .inr ⟨[], c, q, rfl, hc, h⟩
      · refine .inl fun x hx => ?_
        rcases List.mem_cons.1 hx with rfl | hx
        · exact UInt8.not_lt.1 hc
        · exact h x hx
    · exact .inr ⟨c :: r, d, h, rfl, h1, h2⟩

theorem decode_mem {l : Locale} (hl : Ascii l) : ∀ (k : Nat) (q : Bytes), q.length ≤ k → ∀ n ∈ l.decode q, 128 ≤ n ∨ ∃ c ∈ q, n = c.toNat := by
  intro k
  induction k with
  | zero =>
    intro q hq n hn
    have : q = [] := List.eq_nil_of_length_eq_zero (by omega)
    subst this; rw [hl.nil] at hn; cases hn
  | succ k ih =>
    intro q hq n hn
    rcases last_ascii q with h | ⟨r, c, h, rfl, h1, h2⟩
    · exact .inl (hl.high q h n hn)
    · rw [hl.split r c h h1, List.mem_append, List.mem_cons] at hn
      rcases hn with hn | hn | hn
      · rcases ih r (by simp at hq; omega) n hn with h3 | ⟨x, hx, e⟩
        · exact .inl h3
        · exact .inr ⟨x, by simp [hx], e⟩
      · exact .inr ⟨c, by simp, hn⟩
      · exact .inl (hl.high h h2 n hn)

theorem decode_plain {l : Locale} (hl : Ascii l) {q : Bytes} (hq : Wildless q) : ∀ n ∈ l.decode q, Ordinary n := by
  intro n hn
  rcases decode_mem hl q.length q (Nat.le_refl _) n hn with h | ⟨c, hc, rfl⟩
  · refine ⟨?_, ?_, ?_, ?_⟩ <;> omega
  · obtain ⟨h1, h2, h3, h4⟩ := hq c hc
    refine ⟨fun h => h1 ?_, fun h => h2 ?_, fun h => h3 ?_, fun h => h4 ?_⟩ <;> exact UInt8.toNat.inj h

theorem decode_replicate {l : Locale} (hl : Ascii l) (q : Bytes) (n : Nat) : l.decode (q ++ List.replicate n 92) = l.decode q ++ List.replicate n 92 := by
  induction n generalizing q with
  | zero => simp
  | succ n ih =>
    rw [List.replicate_succ, hl.split q 92 _ (by decide)]
    have := ih []
    simp only [List.nil_append, hl.nil] at this
    rw [this]
    rfl

theorem decode_last {l : Locale} (hl : Ascii l) (q : Bytes) (h : q.getLast? ≠ some 92) : l.decode q = [] ∨ ∃ a c, l.decode q = a ++ [c] ∧ c ≠ 92 := by
  have hhigh : ∀ g : Bytes, (∀ c ∈ g, 128 ≤ c) → l.decode g = [] ∨ ∃ a c, l.decode g = a ++ [c] ∧ c ≠ 92 := by
    intro g hg
    cases hd : (l.decode g).getLast? with
    | none => exact .inl (List.getLast?_eq_none_iff.1 hd)
    | some c =>
      obtain ⟨a, ha⟩ := List.getLast?_eq_some_iff.1 hd
      refine .inr ⟨a, c, ha, ?_⟩
      have := hl.high g hg c (by rw [ha]; simp)
      omega
  rcases last_ascii q with hq | ⟨r, c, g, rfl, h1, h2⟩
  · exact hhigh q hq
  · refine .inr ?_
    rw [hl.split r c g h1]
    rcases hhigh g h2 with hg | ⟨a, x, ha, hx⟩
    · have : g = [] := hl.inj g [] (by rw [hg, hl.nil])
      subst this
      refine ⟨l.decode r, c.toNat, by rw [hl.nil], fun he => h ?_⟩
      have : c = 92 := UInt8.toNat.inj he
      subst this; simp
    · exact ⟨l.decode r ++ c.toNat :: a, x, by rw [ha]; simp, hx⟩

theorem backslashes_spec (r : Bytes) : ∃ t, r = List.replicate (backslashes r) 92 ++ t ∧ t.head? ≠ some 92 := by
  induction r with
  | nil => exact ⟨[], rfl, by simp⟩
  | cons c r ih =>
    by_cases h : c = 92
    · subst h
      obtain ⟨t, h1, h2⟩ := ih
      refine ⟨t, ?_, h2⟩
      have : backslashes (92 :: r) = backslashes r + 1 := rfl
      rw [this, List.replicate_succ, List.cons_append, ← h1]
    · refine ⟨c :: r, ?_, by simpa using h⟩
      have : backslashes (c :: r) = 0 := by unfold backslashes; rw [if_pos h]
      rw [this]; rfl

theorem replicate_head {n m : Nat} {t u : Bytes} (h : List.replicate n (92 : UInt8) ++ t = List.replicate m 92 ++ u) (ht : t.head? ≠ some 92) (hu : u.head? ≠ some 92) : n = m := by
  induction n generalizing m with
  | zero =>
    cases m with
    | zero => rfl
    | succ m => rw [List.replicate_succ] at h; simp at h; subst h; simp at ht
  | succ n ih =>
    cases m with
    | zero => rw [List.replicate_succ] at h; simp at h; subst h; simp at hu
    | succ m =>
      rw [List.replicate_succ, List.replicate_succ] at h
      simp only [List.cons_append, List.cons.injEq, true_and] at h
      rw [ih h]

theorem dangling_iff (p : Bytes) : Dangling p ↔ backslashes p.reverse % 2 ≠ 0 := by
  obtain ⟨t, h1, h2⟩ := backslashes_spec p.reverse
  constructor
  · rintro ⟨q, k, rfl, hq⟩
    rw [List.reverse_append, List.reverse_replicate] at h1
    have := replicate_head h1 (by rw [List.head?_reverse]; exact hq) h2
    rw [List.reverse_append, List.reverse_replicate, ← this]; omega
  · intro h
    refine ⟨t.reverse, backslashes p.reverse / 2, ?_, by rw [List.getLast?_reverse]; exact h2⟩
    have e : 2 * (backslashes p.reverse / 2) + 1 = backslashes p.reverse := by omega
    rw [e]
    have := congrArg List.reverse h1
    rw [List.reverse_reverse, List.reverse_append, List.reverse_replicate] at this
    exact this

theorem wildless_iff (p : Bytes) : Wildless p ↔ plainLength p = p.length := by
  have hle : ∀ p : Bytes, plainLength p ≤ p.length := by
    intro p
    induction p with
    | nil => simp [plainLength]
    | cons c p ih => unfold plainLength; split <;> simp; exact ih
  induction p with
  | nil => simp [Wildless, plainLength]
  | cons c p ih =>
    unfold plainLength
    by_cases h : c = 63 ∨ c = 42 ∨ c = 92 ∨ c = 91
    · rw [if_pos h]
      constructor
      · intro hw
        have := hw c (by simp)
        rcases h with h | h | h | h <;> simp [h] at this
      · intro h; simp at h
    · rw [if_neg h]
      simp only [not_or] at h
      constructor
      · intro hw
        have := ih.1 fun x hx => hw x (List.mem_cons_of_mem _ hx)
        simp [this]
      · intro he x hx
        rcases List.mem_cons.1 hx with rfl | hx
        · exact ⟨h.1, h.2.1, h.2.2.2, h.2.2.1⟩
        · exact ih.2 (by simpa using he) x hx

theorem dangling_nothing {l : Locale} (hl : Ascii l) {icase : Bool} {p name : Bytes} (h : Dangling p) : ¬ Matches l icase p name := by
  rintro hg
  obtain ⟨q, k, rfl, hq⟩ := h
  have h1 := glob_even hl hg
  rw [decode_replicate hl] at h1
  have h2 : trail (l.decode q ++ List.replicate (2 * k + 1) 92) = 2 * k + 1 := by
    rcases decode_last hl q hq with h | ⟨a, c, h, hc⟩
    · rw [h, List.nil_append, trail_replicate]
    · rw [h, List.append_assoc, List.singleton_append, trail_append hc, trail_replicate]
  omega

theorem wildless_self {l : Locale} (hl : Ascii l) {icase : Bool} {p name : Bytes} (h : Wildless p) :
    Matches l icase p name ↔ if icase then (l.decode p).map l.fold = (l.decode name).map l.fold else p = name := by
  unfold Matches
  rw [glob_plain (decode_plain hl h)]
  cases icase
  · simp only [Bool.false_eq_true, if_false]
    exact ⟨fun h => hl.inj _ _ h, fun h => by rw [h]⟩
  · rfl

end Verif.Glob
