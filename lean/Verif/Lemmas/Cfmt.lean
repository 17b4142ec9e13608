import Verif.Lemmas.Num
import Verif.Lemmas.Printf
import Verif.Spec.Directive
/-! # Lemmas about `printf(3)` -/
namespace Verif.Cfmt
open Verif.Num (Digits)

theorem ofNat_digit {d : Nat} (h : d < 10) : (UInt8.ofNat (48 + d)).toNat = 48 + d := by
  rw [UInt8.toNat_ofNat']; omega

theorem digs_ok (base : Nat) (hb : 2 ≤ base) (hb' : base ≤ 10) : ∀ f n, n < f → Digits base (digs base f n) n
  | 0, n, h => by omega
  | f + 1, n, h => by
    unfold digs
    by_cases hn : n < base
    · rw [if_pos hn]
      exact .one _ n (ofNat_digit (by omega)) hn
    · rw [if_neg hn]
      have hm : n % base < base := Nat.mod_lt _ (by omega)
      have hd : n / base < n := Nat.div_lt_self (by omega) (by omega)
      have := Digits.more _ _ (UInt8.ofNat (48 + n % base)) (n % base) (digs_ok base hb hb' f (n / base) (by omega)) (ofNat_digit (by omega)) hm
      rw [Nat.div_add_mod] at this
      exact this

theorem numeral_ok (base n : Nat) (hb : 2 ≤ base) (hb' : base ≤ 10) : Digits base (numeral base n) n := digs_ok base hb hb' _ _ (by omega)

theorem digs_ne (base : Nat) : ∀ f n, 0 < f → digs base f n ≠ []
  | 0, _, h => by omega
  | f + 1, n, _ => by unfold digs; split <;> simp

theorem head_append {a b : Bytes} (h : a ≠ []) : (a ++ b).head? = a.head? := by
  cases a with
  | nil => exact absurd rfl h
  | cons x a => rfl

/-- No needless zeros. -/
theorem digs_head (base : Nat) (hb : 2 ≤ base) (hb' : base ≤ 10) : ∀ f n, n < f → 0 < n → (digs base f n).head? ≠ some 48
  | 0, n, h, _ => by omega
  | f + 1, n, h, h0 => by
    unfold digs
    by_cases hn : n < base
    · rw [if_pos hn]
      intro he
      have : (UInt8.ofNat (48 + n)).toNat = 48 := by
        have := Option.some.inj he
        rw [this]; rfl
      rw [ofNat_digit (by omega)] at this
      omega
    · rw [if_neg hn]
      have hd : n / base < n := Nat.div_lt_self (by omega) (by omega)
      have hp : 0 < n / base := Nat.div_pos (by omega) (by omega)
      rw [head_append (digs_ne base f _ (by omega))]
      exact digs_head base hb hb' f _ (by omega) hp

theorem numeral_zero (base : Nat) (hb : 2 ≤ base) : numeral base 0 = [48] := by
  unfold numeral digs
  rw [if_pos (by omega)]
  rfl

theorem numeral_head (base n : Nat) (hb : 2 ≤ base) (hb' : base ≤ 10) : (numeral base n).head? = some 48 → numeral base n = [48] := by
  intro h
  by_cases h0 : n = 0
  · rw [h0]; exact numeral_zero base hb
  · exact absurd h (digs_head base hb hb' _ _ (by omega) (by omega))

theorem digs_length (base : Nat) (hb : 2 ≤ base) : ∀ k f n, n < f → n < base ^ (k + 1) → (digs base f n).length ≤ k + 1
  | k, 0, n, h, _ => by omega
  | k, f + 1, n, h, hk => by
    unfold digs
    by_cases hn : n < base
    · rw [if_pos hn]; simp
    · rw [if_neg hn, List.length_append]
      cases k with
      | zero => rw [Nat.pow_one] at hk; exact absurd hk hn
      | succ k =>
        have hd : n / base < n := Nat.div_lt_self (by omega) (by omega)
        have := digs_length base hb k f (n / base) (by omega) (Nat.div_lt_of_lt_mul (by rw [Nat.pow_succ] at hk; rw [Nat.mul_comm]; exact hk))
        simp
        omega

theorem numeral_length (base n k : Nat) (hb : 2 ≤ base) (h : n < base ^ (k + 1)) : (numeral base n).length ≤ k + 1 := digs_length base hb k _ _ (by omega) h

theorem numeral_pos (base n : Nat) : 0 < (numeral base n).length := by
  have := digs_ne base (n + 1) n (by omega)
  unfold numeral
  cases h : digs base (n + 1) n with
  | nil => exact absurd h this
  | cons x l => simp

/-- Zeros at the front do not matter. -/
theorem Digits_zeros {base : Nat} {s : Bytes} {n : Nat} (h : Digits base s n) (hb : 0 < base) : ∀ k, Digits base (List.replicate k 48 ++ s) n := by
  intro k
  induction h with
  | one c d hc hd =>
    induction k with
    | zero => exact .one c d hc hd
    | succ k ih =>
      have : ∀ k, Digits base (List.replicate (k + 1) 48) 0 := by
        intro k
        induction k with
        | zero => exact .one 48 0 rfl hb
        | succ k ih =>
          rw [List.replicate_succ']
          have := Digits.more _ _ 48 0 ih rfl hb
          simpa using this
      have := Digits.more _ _ c d (this k) hc hd
      rw [Nat.mul_zero, Nat.zero_add] at this
      exact this
  | more s n c d _ hc hd ih =>
    rw [← List.append_assoc]
    exact .more _ _ c d ih hc hd

/-- The number that digits mean. -/
theorem decimal_digits {ds : Bytes} {n : Nat} (h : Digits 10 ds n) : decimal ds = n := by
  induction h with
  | one c d hc hd => unfold decimal; simp; omega
  | more s n c d _ hc hd ih =>
    unfold decimal at ih ⊢
    rw [List.foldl_append, ih]
    simp
    omega

theorem decimal_field {ds : Bytes} {n : Nat} (h : Directive.FieldNumber ds n) : decimal ds = n := by
  rcases h with ⟨rfl, rfl⟩ | h
  · rfl
  · exact decimal_digits h

theorem field_decimal {ds : Bytes} (h : ∀ c ∈ ds, Printf.DecDigit c) : Directive.FieldNumber ds (decimal ds) := by
  have key : ∀ (ds : Bytes), ds ≠ [] → (∀ c ∈ ds, Printf.DecDigit c) → Digits 10 ds (decimal ds) := by
    intro ds hn h
    have := Num.digits_of (base := 10) ds hn fun c hc => by
      have := h c hc
      unfold Printf.DecDigit at this
      unfold Num.IsDigit
      omega
    rw [decimal_digits this]
    exact this
  by_cases hn : ds = []
  · left; exact ⟨hn, by rw [hn]; rfl⟩
  · right; exact key ds hn h

/-! ## Parsing -/

theorem isFlag_iff (c : UInt8) : isFlag c = true ↔ Printf.FlagChar c := by
  unfold isFlag Printf.FlagChar
  simp [or_assoc]

theorem isDigit_iff (c : UInt8) : isDigit c = true ↔ Printf.DecDigit c := by
  unfold isDigit
  rw [Bool.and_eq_true, decide_eq_true_eq, decide_eq_true_eq]
  exact Printf.dec_iff c

theorem span_eq {p : UInt8 → Bool} : ∀ (a b : Bytes), (∀ c ∈ a, p c = true) → (∀ c, b.head? = some c → p c = false) →
    (a ++ b).takeWhile p = a ∧ (a ++ b).dropWhile p = b
  | [], [], _, _ => ⟨rfl, rfl⟩
  | [], x :: b, _, h => by simp [h x rfl]
  | x :: a, b, h, hb => by
    have := span_eq a b (fun c hc => h c (by simp [hc])) hb
    simp [h x (by simp), this]

/-- The parts of a directive are found again. -/
theorem parse_eq (fl w p spec : Bytes) (hf : Printf.Flags fl) (hw : Printf.Width w) (hp : Printf.Precision p)
    (hs : ∀ c, spec.head? = some c → ¬ Printf.FlagChar c ∧ ¬ Printf.DecDigit c ∧ c ≠ 46) :
    parse (fl ++ w ++ p ++ spec) = ({ left := fl.contains 45, plus := fl.contains 43, space := fl.contains 32, alt := fl.contains 35, zero := fl.contains 48, width := decimal w, prec := if p = [] then none else some (decimal p.tail) }, spec) := by
  have headP : ∀ c, (p ++ spec).head? = some c → ¬ Printf.FlagChar c ∧ ¬ Printf.DecDigit c := by
    intro c hc
    rcases hp with rfl | ⟨ds, rfl, _⟩
    · exact ⟨(hs c hc).1, (hs c hc).2.1⟩
    · have : c = 46 := (Option.some.inj hc).symm
      subst this
      unfold Printf.FlagChar Printf.DecDigit
      exact ⟨by decide, by decide⟩
  have headW : ∀ c, (w ++ (p ++ spec)).head? = some c → isFlag c = false := by
    intro c hc
    rw [Bool.eq_false_iff]
    intro hi
    rw [isFlag_iff] at hi
    cases hw' : w with
    | nil => rw [hw'] at hc; exact (headP c hc).1 hi
    | cons x w' =>
      rw [hw'] at hc
      have : c = x := (Option.some.inj hc).symm
      subst this
      have h1 := hw.1 c (by rw [hw']; simp)
      have h2 := hw.2
      rw [hw'] at h2
      exact Printf.flagChar_not_digit hi (fun h => h2 (by rw [h]; rfl)) h1
  have e : fl ++ w ++ p ++ spec = fl ++ (w ++ (p ++ spec)) := by simp
  obtain ⟨t1, d1⟩ := span_eq fl (w ++ (p ++ spec)) (fun c hc => (isFlag_iff c).2 (hf.1 c hc)) headW
  obtain ⟨t2, d2⟩ := span_eq (p := isDigit) w (p ++ spec) (fun c hc => (isDigit_iff c).2 (hw.1 c hc))
    (fun c hc => by rw [Bool.eq_false_iff]; intro hi; exact (headP c hc).2 ((isDigit_iff c).1 hi))
  have pp : parsePrec (p ++ spec) = (if p = [] then none else some (decimal p.tail), spec) := by
    rcases hp with rfl | ⟨ds, rfl, hds⟩
    · cases spec with
      | nil => rfl
      | cons x s =>
        have := (hs x rfl).2.2
        rw [List.nil_append, if_pos rfl]
        unfold parsePrec
        split
        · rename_i s' he
          cases he
          exact absurd rfl this
        · rfl
    · obtain ⟨t3, d3⟩ := span_eq (p := isDigit) ds spec (fun c hc => (isDigit_iff c).2 (hds c hc))
        (fun c hc => by rw [Bool.eq_false_iff]; intro hi; exact (hs c hc).2.1 ((isDigit_iff c).1 hi))
      show (some (decimal ((ds ++ spec).takeWhile isDigit)), (ds ++ spec).dropWhile isDigit) = _
      rw [t3, d3, if_neg (by simp)]
      rfl
  rw [e]
  unfold parse
  dsimp only
  rw [t1, d1, t2, d2, pp]

/-! ## Layout -/

theorem fits_small {w p : Bytes} (hw : Printf.Width w) (hp : Printf.Precision p) (h : Directive.Small w p) (a b c d e : Bool) :
    (⟨a, b, c, d, e, decimal w, if p = [] then none else some (decimal p.tail)⟩ : Spec).fits = true := by
  unfold Spec.fits
  dsimp only
  have h1 := h.1 _ (field_decimal hw.1)
  have h1' : (decimal w : Int) ≤ INT_MAX := by unfold INT_MAX; omega
  rcases hp with rfl | ⟨ds, rfl, hds⟩
  · rw [if_pos rfl]
    simp [h1']
  · have h2 := h.2 ds _ rfl (field_decimal hds)
    have h2' : (decimal ds : Int) ≤ INT_MAX := by unfold INT_MAX; omega
    rw [if_neg (by simp)]
    simp [h1', h2']

theorem laid_str {fl w p : Bytes} (hw : Printf.Width w) (hp : Printf.Precision p) (v : Bytes) (b c d e : Bool) :
    Directive.Laid fl w p v (str ⟨fl.contains 45, b, c, d, e, decimal w, if p = [] then none else some (decimal p.tail)⟩ v) := by
  have hpad : ∀ cut : Bytes, ∀ pr, pad ⟨fl.contains 45, b, c, d, e, decimal w, pr⟩ cut =
      if 45 ∈ fl then cut ++ List.replicate (decimal w - cut.length) 32 else List.replicate (decimal w - cut.length) 32 ++ cut := by
    intro cut pr
    unfold pad
    by_cases h : 45 ∈ fl
    · rw [if_pos h]; dsimp only; rw [if_pos (by simpa using h)]
    · rw [if_neg h]; dsimp only; rw [if_neg (by simpa using h)]
  rcases hp with rfl | ⟨ds, rfl, hds⟩
  · exact ⟨v, List.replicate (decimal w - v.length) 32, decimal w, .inl ⟨rfl, rfl⟩, field_decimal hw.1, fun c hc => List.eq_of_mem_replicate hc, by simp, hpad v _⟩
  · exact ⟨v.take (decimal ds), List.replicate (decimal w - (v.take (decimal ds)).length) 32, decimal w, .inr ⟨ds, _, rfl, field_decimal hds, rfl⟩, field_decimal hw.1,
      fun c hc => List.eq_of_mem_replicate hc, by simp, hpad _ _⟩

end Verif.Cfmt
