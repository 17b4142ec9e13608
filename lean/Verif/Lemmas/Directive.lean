import Verif.Lemmas.Cfmt
import Verif.Props.Strmode
/-! # Lemmas about the directives of `-printf` -/
namespace Verif.Directive
open Verif Verif.Cfmt
open Verif.Printf (Fn Field Effect Flags Width Precision Conv DecDigit FlagChar)
open Verif.Time (Timespec)
open Verif.Stat (FType)
open Verif.Num (Digits)

/-! ## Numbers -/

theorem numeral_dec (n : Nat) : Dec (numeral 10 n) n := ⟨numeral_ok 10 n (by omega) (by omega), numeral_head 10 n (by omega) (by omega)⟩

theorem uint_plain (n : Nat) : uint {} n = numeral 10 n := by
  unfold uint number digitsOf pad
  simp

theorem unsigned_dec {n : Nat} (h : n < 2 ^ 64) : Dec (unsigned n) n := by
  unfold unsigned
  rw [Num.toU64_nonneg h, uint_plain]
  exact numeral_dec n

theorem unsigned_int_dec {n : Int} (h0 : 0 ≤ n) (h : n < 2 ^ 64) : Dec (unsigned n) n.toNat := by
  have := unsigned_dec (n := n.toNat) (by omega)
  rw [show ((n.toNat : Nat) : Int) = n by omega] at this
  exact this

theorem unsigned_short (n : Int) : (unsigned n).length < 256 := by
  unfold unsigned
  rw [uint_plain]
  have := numeral_length 10 (Num.toU64 n) 19 (by omega) (by unfold Num.toU64; omega)
  omega

theorem int_eq (n : Int) : int {} n = sign {} n ++ numeral 10 n.natAbs := by
  unfold int number digitsOf pad
  simp

theorem int_plain (n : Int) : SDec (plain n) n := by
  unfold plain
  by_cases h : n < 0
  · right
    refine ⟨h, numeral 10 n.natAbs, ?_, ?_⟩
    · rw [int_eq]
      unfold sign
      rw [if_pos h]; rfl
    · rw [show (-n).toNat = n.natAbs by omega]
      exact numeral_dec _
  · left
    refine ⟨by omega, ?_⟩
    have : int {} n = numeral 10 n.natAbs := by
      rw [int_eq]
      unfold sign
      rw [if_neg h]; rfl
    rw [this, show n.toNat = n.natAbs by omega]
    exact numeral_dec _

theorem int_width (k : Nat) (n : Int) : int { width := k } n = List.replicate (k - (plain n).length) 32 ++ plain n := by
  unfold plain
  rw [int_eq]
  rfl

theorem aligned (k : Nat) (n : Int) : Aligned k (int { width := k } n) n := ⟨plain n, int_plain n, int_width k n⟩

theorem plain_length {n : Int} (h1 : -2 ^ 63 ≤ n) (h2 : n < 2 ^ 63) : (plain n).length ≤ 20 := by
  unfold plain
  rw [int_eq, List.length_append]
  have := numeral_length 10 n.natAbs 18 (by omega) (by omega)
  have : (sign {} n).length ≤ 1 := by unfold sign; dsimp only; split <;> simp
  omega

theorem width_length {k : Nat} {n : Int} (h1 : -2 ^ 63 ≤ n) (h2 : n < 2 ^ 63) : (int { width := k } n).length ≤ k + 20 := by
  rw [int_width, List.length_append, List.length_replicate]
  have := plain_length h1 h2
  omega

theorem fixed_two {n : Int} (h0 : 0 ≤ n) (h : n ≤ 99) : Fixed 2 (zz n) n := by
  have e : zz n = List.replicate (2 - (numeral 10 n.natAbs).length) 48 ++ numeral 10 n.natAbs := by
    unfold zz int
    have : sign { prec := some 2 } n = [] := by
      unfold sign
      rw [if_neg (by omega)]; rfl
    rw [this]
    unfold number digitsOf
    dsimp only
    rw [if_neg (by simp), if_neg (by omega)]
    unfold pad
    simp
  refine ⟨h0, ?_, ?_⟩
  · rw [e, show n.toNat = n.natAbs by omega]
    exact Digits_zeros (numeral_ok 10 _ (by omega) (by omega)) (by omega) _
  · rw [e, List.length_append, List.length_replicate]
    have := numeral_length 10 n.natAbs 1 (by omega) (by omega)
    omega

theorem fixed_nano {n : Int} (h0 : 0 ≤ n) (h : n < 1000000000) : Fixed 10 (nano n) (10 * n) := by
  have e : nano n = (List.replicate (9 - (numeral 10 n.natAbs).length) 48 ++ numeral 10 n.natAbs) ++ [48] := by
    unfold nano int
    have : sign { zero := true, width := 9 } n = [] := by
      unfold sign
      rw [if_neg (by omega)]; rfl
    rw [this]
    unfold number digitsOf
    dsimp only
    rw [if_pos (by rfl)]
    simp
  have hd := Digits_zeros (numeral_ok 10 n.natAbs (by omega) (by omega)) (by omega) (9 - (numeral 10 n.natAbs).length)
  refine ⟨by omega, ?_, ?_⟩
  · rw [e]
    have := Digits.more _ _ 48 0 hd rfl (by omega)
    rw [show (10 * n).toNat = 10 * n.natAbs + 0 by omega]
    exact this
  · rw [e, List.length_append, List.length_append, List.length_replicate]
    have := numeral_length 10 n.natAbs 8 (by omega) (by omega)
    simp
    omega

/-! ## Times -/

theorem fixed_length {k : Nat} {v : Bytes} {n : Int} (h : Fixed k v n) : v.length = k := h.2.2

/-- What `Sane` says about a broken-down time. -/
def TmOk (tm : Tm) : Prop := 0 ≤ tm.sec ∧ tm.sec ≤ 60 ∧ 0 ≤ tm.min ∧ tm.min ≤ 59 ∧ 0 ≤ tm.hour ∧ tm.hour ≤ 23 ∧ 1 ≤ tm.mday ∧ tm.mday ≤ 31 ∧
    0 ≤ tm.mon ∧ tm.mon ≤ 11 ∧ 0 ≤ tm.wday ∧ tm.wday ≤ 6 ∧ -2147483648 ≤ tm.year ∧ 1900 + tm.year ≤ 2147483647

theorem seconds_ok {tm : Tm} {nsec : Int} (h : TmOk tm) (h0 : 0 ≤ nsec) (h1 : nsec < 1000000000) : Seconds (zz tm.sec ++ [46] ++ nano nsec) tm.sec nsec :=
  ⟨_, _, fixed_two h.1 (by have := h.2.1; omega), fixed_nano h0 h1, rfl⟩

theorem clock_ok {tm : Tm} {nsec : Int} (h : TmOk tm) (h0 : 0 ≤ nsec) (h1 : nsec < 1000000000) :
    Clock (zz tm.hour ++ [58] ++ zz tm.min ++ [58] ++ zz tm.sec ++ [46] ++ nano nsec) tm nsec := by
  have hs := seconds_ok h h0 h1
  obtain ⟨_, _, h1', h2', h3, h4, _⟩ := h
  exact ⟨_, _, _, fixed_two h3 (by omega), fixed_two h1' (by omega), hs, by simp⟩

theorem clock_length {tm : Tm} {nsec : Int} (h : TmOk tm) (h0 : 0 ≤ nsec) (h1 : nsec < 1000000000) :
    (zz tm.hour ++ [58] ++ zz tm.min ++ [58] ++ zz tm.sec ++ [46] ++ nano nsec).length = 19 := by
  obtain ⟨a, b, h1', h2', h3, h4, _⟩ := h
  have e1 := fixed_length (fixed_two h3 (by omega))
  have e2 := fixed_length (fixed_two h1' (by omega))
  have e3 := fixed_length (fixed_two a (by omega))
  have e4 := fixed_length (fixed_nano h0 h1)
  simp only [List.length_append, List.length_cons, List.length_nil, e1, e2, e3, e4]

theorem index_ok {names : List String} {table : List Bytes} (ht : table = names.map ascii) {i : Int} (h0 : 0 ≤ i) (h : i < names.length) :
    ∃ s, names[i.toNat]? = some s ∧ index table i = .ok (ascii s) := by
  have hlt : i.toNat < names.length := by omega
  refine ⟨names[i.toNat], List.getElem?_eq_getElem hlt, ?_⟩
  unfold index
  rw [if_neg (by omega), ht, List.getElem?_map, List.getElem?_eq_getElem hlt]
  rfl

theorem ctime_ok {ts : Timespec} {tm : Tm} (h : TmOk tm) (h0 : 0 ≤ ts.nsec) (h1 : ts.nsec < 1000000000) :
    ∃ v, ctimeText ts tm = .ok v ∧ Ctime v tm ts.nsec ∧ v.length < 256 := by
  have hc := clock_ok h h0 h1
  have hl := clock_length h h0 h1
  obtain ⟨a1, a2, a3, a4, a5, a6, a7, a8, a9, a10, a11, a12, a13, a14⟩ := h
  obtain ⟨day, hd, hd'⟩ := index_ok (names := dayNames) (table := days) rfl a11 (by show _ < (7 : Int); omega)
  obtain ⟨mon, hm, hm'⟩ := index_ok (names := monthNames) (table := months) rfl a9 (by show _ < (12 : Int); omega)
  have hy : i32 (1900 + tm.year) = .ok (1900 + tm.year) := i32_ok ⟨by unfold INT_MIN; omega, by unfold INT_MAX; omega⟩
  have ld : (ascii day).length = 3 := by
    have : ∀ s ∈ dayNames, (ascii s).length = 3 := by decide
    exact this day (List.mem_of_getElem? hd)
  have lm : (ascii mon).length = 3 := by
    have : ∀ s ∈ monthNames, (ascii s).length = 3 := by decide
    exact this mon (List.mem_of_getElem? hm)
  have e : ctimeText ts tm = .ok (ascii day ++ [32] ++ ascii mon ++ [32] ++ two tm.mday ++ [32] ++ zz tm.hour ++ [58] ++ zz tm.min ++ [58] ++ zz tm.sec ++ [46] ++ nano ts.nsec ++ [32] ++ four (1900 + tm.year)) := by
    unfold ctimeText
    rw [hd', hm', hy]
    rfl
  refine ⟨_, e, ⟨day, mon, two tm.mday, _, four (1900 + tm.year), a11, hd, a9, hm, aligned 2 _, hc, aligned 4 _, by simp⟩, ?_⟩
  have l1 : (two tm.mday).length ≤ 2 + 20 := width_length (by omega) (by omega)
  have l2 : (four (1900 + tm.year)).length ≤ 4 + 20 := width_length (by omega) (by omega)
  simp only [List.length_append, List.length_cons, List.length_nil] at hl ⊢
  omega

theorem iso_ok {ts : Timespec} {tm : Tm} (h : TmOk tm) (h0 : 0 ≤ ts.nsec) (h1 : ts.nsec < 1000000000) :
    ∃ v, isoText ts tm = .ok v ∧ Stamp v tm ts.nsec ∧ v.length < 256 := by
  have hc := clock_ok h h0 h1
  have hl := clock_length h h0 h1
  obtain ⟨a1, a2, a3, a4, a5, a6, a7, a8, a9, a10, a11, a12, a13, a14⟩ := h
  have hy : i32 (1900 + tm.year) = .ok (1900 + tm.year) := i32_ok ⟨by unfold INT_MIN; omega, by unfold INT_MAX; omega⟩
  have hm : i32 (tm.mon + 1) = .ok (tm.mon + 1) := i32_ok ⟨by unfold INT_MIN; omega, by unfold INT_MAX; omega⟩
  have e : isoText ts tm = .ok (four (1900 + tm.year) ++ [45] ++ zz (tm.mon + 1) ++ [45] ++ zz tm.mday ++ [43] ++ zz tm.hour ++ [58] ++ zz tm.min ++ [58] ++ zz tm.sec ++ [46] ++ nano ts.nsec) := by
    unfold isoText
    rw [hy, hm]
    rfl
  have f1 : Fixed 2 (zz (tm.mon + 1)) (tm.mon + 1) := fixed_two (by omega) (by omega)
  have f2 : Fixed 2 (zz tm.mday) tm.mday := fixed_two (by omega) (by omega)
  refine ⟨_, e, ⟨four (1900 + tm.year), _, _, _, aligned 4 _, f1, f2, hc, by simp⟩, ?_⟩
  have l2 : (four (1900 + tm.year)).length ≤ 4 + 20 := width_length (by omega) (by omega)
  have l3 := fixed_length f1
  have l4 := fixed_length f2
  simp only [List.length_append, List.length_cons, List.length_nil] at hl ⊢
  omega

theorem strftime_ok {w : World} {ts : Timespec} {tm : Tm} (c : UInt8) (h : TmOk tm) (h0 : 0 ≤ ts.nsec) (h1 : ts.nsec < 1000000000)
    (hs : -2 ^ 63 ≤ ts.sec ∧ ts.sec < 2 ^ 63) (hw : ∀ c tm, (w.strftime c tm).length < 256) :
    ∃ v, strftimeText w c ts tm = .ok v ∧ TimeShows w ts tm c v ∧ v.length < 256 := by
  have hl := clock_length h h0 h1
  have hc := clock_ok h h0 h1
  have hsec := seconds_ok h h0 h1
  have ln := fixed_length (fixed_nano h0 h1)
  have lp := plain_length hs.1 hs.2
  unfold strftimeText
  by_cases c1 : c = 64
  · subst c1
    refine ⟨_, if_pos rfl, .at _ _ (int_plain _) (fixed_nano h0 h1), ?_⟩
    simp only [List.length_append, List.length_cons, List.length_nil]
    omega
  rw [if_neg c1]
  by_cases c2 : c = 43
  · subst c2
    obtain ⟨v, h1, h2, h3⟩ := iso_ok h h0 h1
    exact ⟨v, by rw [if_pos rfl]; exact h1, .plus v h2, h3⟩
  rw [if_neg c2]
  by_cases c3 : c = 107
  · subst c3
    refine ⟨_, if_pos rfl, .k _ (aligned 2 _), ?_⟩
    have : (two tm.hour).length ≤ 2 + 20 := width_length (by have := h.2.2.2.2; omega) (by have := h.2.2.2.2; omega)
    omega
  rw [if_neg c3]
  by_cases c4 : c = 108
  · subst c4
    have hh := h.2.2.2.2
    have e : hour12 tm = .ok (two (clock12 tm.hour)) := by
      unfold hour12
      rw [i32_ok ⟨by unfold INT_MIN; omega, by unfold INT_MAX; omega⟩]
      show Out.ok (two ((tm.hour + 11).tmod 12 + 1)) = _
      have : (tm.hour + 11).tmod 12 + 1 = clock12 tm.hour := by
        rw [Int.tmod_eq_emod_of_nonneg (by omega)]
        unfold clock12
        split
        · omega
        · split <;> omega
      rw [this]
    refine ⟨two (clock12 tm.hour), by rw [if_pos rfl]; exact e, .l _ (aligned 2 _), ?_⟩
    have : -2 ^ 63 ≤ clock12 tm.hour ∧ clock12 tm.hour < 2 ^ 63 := by unfold clock12; split; omega; split <;> omega
    exact Nat.lt_of_le_of_lt (width_length this.1 this.2) (by omega)
  rw [if_neg c4]
  by_cases c5 : c = 115
  · subst c5
    exact ⟨_, if_pos rfl, .s _ (int_plain _), by omega⟩
  rw [if_neg c5]
  by_cases c6 : c = 83
  · subst c6
    refine ⟨_, if_pos rfl, .S _ hsec, ?_⟩
    simp only [List.length_append, List.length_cons, List.length_nil] at hl ⊢
    omega
  rw [if_neg c6]
  by_cases c7 : c = 84
  · subst c7
    refine ⟨_, if_pos rfl, .T _ hc, ?_⟩
    omega
  rw [if_neg c7]
  refine ⟨_, rfl, .posix c ?_, hw c tm⟩
  have e : ascii "@+klsST" = [64, 43, 107, 108, 115, 83, 84] := by decide
  rw [e]
  simp [c1, c2, c3, c4, c5, c6, c7]

/-! ## Output -/

theorem dynFmt_ok (a b : Bytes) : Printf.dynFmt (a ++ b) (37 :: b) = true := by
  unfold Printf.dynFmt
  simp only [List.length_cons, List.length_append, Bool.and_eq_true, decide_eq_true_eq, beq_iff_eq]
  refine ⟨by omega, ?_⟩
  rw [show a.length + b.length + 1 - (b.length + 1) = a.length by omega, List.drop_left]
  rfl

theorem dynFmt_spec (fl wd p spec : Bytes) : Printf.dynFmt (37 :: (fl ++ wd ++ p ++ spec)) (37 :: spec) = true := dynFmt_ok (37 :: (fl ++ wd ++ p)) spec

/-- How a format with a given specifier is understood. -/
theorem fprintf_parse (real : Spec → Int → Int → Bytes) {fl wd p spec : Bytes} (hf : Flags fl) (hw : Width wd) (hp : Precision p)
    (hs : spec = [115] ∨ spec = [106, 100] ∨ spec = [111] ∨ spec = [103]) (v : Value) :
    fprintf real (37 :: (fl ++ wd ++ p ++ spec)) v =
      if !(specOf fl wd p).fits then .ok (.error EOVERFLOW) else convert real (specOf fl wd p) spec v := by
  unfold fprintf
  rw [if_pos (by rfl)]
  show (if !(parse (fl ++ wd ++ p ++ spec)).1.fits then _ else convert real (parse (fl ++ wd ++ p ++ spec)).1 (parse (fl ++ wd ++ p ++ spec)).2 v) = _
  rw [parse_eq fl wd p spec hf hw hp (by
    intro c hc
    have : c = 115 ∨ c = 106 ∨ c = 111 ∨ c = 103 := by
      rcases hs with rfl | rfl | rfl | rfl <;> (have := Option.some.inj hc; simp [← this])
    unfold FlagChar DecDigit
    rcases this with rfl | rfl | rfl | rfl <;> decide)]
  rfl

theorem out_wide {w : World} {fn : Fn} {fl wd p spec : Bytes} (hf : Flags fl) (hw : Width wd) (hp : Precision p) (hk : fn.fake = 37 :: spec)
    (hs : spec = [115] ∨ spec = [106, 100] ∨ spec = [111] ∨ spec = [103]) (v : Value) (hn : (specOf fl wd p).fits = false) :
    out w fn (37 :: (fl ++ wd ++ p ++ spec)) v = .ok ⟨[], some EOVERFLOW⟩ := by
  unfold out
  rw [hk, if_pos (dynFmt_spec fl wd p spec), fprintf_parse _ hf hw hp hs, hn]
  rfl

theorem out_str {w : World} {fn : Fn} {fl wd p : Bytes} (hf : Flags fl) (hw : Width wd) (hp : Precision p) (hk : fn.fake = [37, 115])
    (hn : (specOf fl wd p).fits = true) (v : Bytes) :
    out w fn (37 :: (fl ++ wd ++ p ++ [115])) (.s v) = .ok ⟨str (specOf fl wd p) v, none⟩ := by
  unfold out
  rw [hk, if_pos (dynFmt_spec fl wd p [115]), fprintf_parse _ hf hw hp (.inl rfl), hn]
  rfl

theorem small_fits {wd p : Bytes} (hw : Width wd) (hp : Precision p) (h : Small wd p) (fl : Bytes) : (specOf fl wd p).fits = true := fits_small hw hp h _ _ _ _ _

theorem fits_of {wd p : Bytes} (fl : Bytes) (h : (specOf fl wd p).fits = true) : Small wd p := by
  unfold Spec.fits specOf at h
  dsimp only at h
  rw [Bool.and_eq_true, decide_eq_true_eq] at h
  unfold INT_MAX at h
  constructor
  · intro n hn
    have := decimal_field hn
    omega
  · intro ds n hp hn
    subst hp
    have := h.2
    rw [if_neg (by simp)] at this
    simp only [Option.all_some, decide_eq_true_eq, List.tail_cons] at this
    rw [decimal_field hn] at this
    have h2 : (n : Int) ≤ 2147483647 := this
    omega

theorem out_dec {w : World} {fl wd p : Bytes} (hf : Flags fl) (hw : Width wd) (hp : Precision p)
    (hn : (specOf fl wd p).fits = true) (n : Int) :
    out w .d (37 :: (fl ++ wd ++ p ++ [106, 100])) (.d n) = .ok ⟨int (specOf fl wd p) n, none⟩ := by
  unfold out
  rw [show Fn.fake .d = 37 :: [106, 100] from rfl, if_pos (dynFmt_spec fl wd p [106, 100]), fprintf_parse _ hf hw hp (.inr (.inl rfl)), hn]
  rfl

theorem out_oct {w : World} {fl wd p : Bytes} (hf : Flags fl) (hw : Width wd) (hp : Precision p)
    (hn : (specOf fl wd p).fits = true) (n : Nat) :
    out w .m (37 :: (fl ++ wd ++ p ++ [111])) (.o n) = .ok ⟨oct (specOf fl wd p) n, none⟩ := by
  unfold out
  rw [show Fn.fake .m = 37 :: [111] from rfl, if_pos (dynFmt_spec fl wd p [111]), fprintf_parse _ hf hw hp (.inr (.inr (.inl rfl))), hn]
  rfl

theorem out_real {w : World} {fl wd p : Bytes} (hf : Flags fl) (hw : Width wd) (hp : Precision p)
    (hn : (specOf fl wd p).fits = true) (x y : Int) :
    out w .S (37 :: (fl ++ wd ++ p ++ [103])) (.g x y) = .ok ⟨w.real (specOf fl wd p) x y, none⟩ := by
  unfold out
  rw [show Fn.fake .S = 37 :: [103] from rfl, if_pos (dynFmt_spec fl wd p [103]), fprintf_parse _ hf hw hp (.inr (.inr (.inr rfl))), hn]
  rfl

theorem contains_iff (fl : Bytes) (c : UInt8) : fl.contains c = true ↔ c ∈ fl := by simp

/-- Numbers are laid out as they should be. -/
theorem number_ok (base : Nat) {fl wd p : Bytes} (hw : Width wd) (hp : Precision p) (n least : Nat) (sign digits : Bytes)
    (h1 : if n = 0 ∧ p ≠ [] then digits = [] else Short base digits n)
    (h2 : p = [] → least = 0) (h3 : ∀ ds, p = 46 :: ds → FieldNumber ds least) :
    IntLaid base fl wd p n sign (number (specOf fl wd p) sign
      (List.replicate (max (least - digits.length) (if 35 ∈ fl ∧ base = 8 ∧ digits.head? ≠ some 48 then 1 else 0)) 48 ++ digits)) := by
  have hwd := field_decimal hw.1
  have hz : ((specOf fl wd p).zero && !(specOf fl wd p).left && (specOf fl wd p).prec.isNone) = true ↔ (48 ∈ fl ∧ 45 ∉ fl) ∧ p = [] := by
    show (fl.contains 48 && !fl.contains 45 && (if p = [] then none else some (decimal p.tail)).isNone) = true ↔ _
    rw [Bool.and_eq_true, Bool.and_eq_true, contains_iff, Bool.not_eq_true', ← Bool.not_eq_true, contains_iff]
    by_cases hp : p = []
    · rw [if_pos hp]; simp [hp]
    · rw [if_neg hp]; simp [hp]
  have hl : (specOf fl wd p).left = true ↔ 45 ∈ fl := contains_iff fl 45
  have hwidth : (specOf fl wd p).width = decimal wd := rfl
  generalize hk : (if 35 ∈ fl ∧ base = 8 ∧ digits.head? ≠ some 48 then 1 else 0) = k
  unfold number
  by_cases h : (48 ∈ fl ∧ 45 ∉ fl) ∧ p = []
  · rw [if_pos (hz.2 h), hwidth]
    have h0 := h2 h.2
    subst h0
    refine ⟨[], List.replicate (decimal wd - (sign.length + (List.replicate (max (0 - digits.length) k) 48 ++ digits).length)) 48 ++ List.replicate (max (0 - digits.length) k) 48,
      digits, decimal wd, decimal wd - sign.length, hwd, h1, fun _ => (if_pos h.1).symm, fun ds e => by (rw [h.2] at e; cases e), ?_, ?_, by simp, ?_, ?_⟩
    · intro c hc
      rcases List.mem_append.1 hc with hc | hc <;> exact List.eq_of_mem_replicate hc
    · rw [hk]
      simp only [List.length_append, List.length_replicate]
      omega
    · simp only [List.length_append, List.length_replicate, List.length_nil]
      omega
    · rw [if_neg h.1.2]
      simp only [List.nil_append, List.append_assoc]
  · rw [if_neg (fun e => h (hz.1 e))]
    unfold pad
    rw [hwidth]
    refine ⟨List.replicate (decimal wd - (sign ++ (List.replicate (max (least - digits.length) k) 48 ++ digits)).length) 32, List.replicate (max (least - digits.length) k) 48,
      digits, decimal wd, least, hwd, h1, fun e => ?_, h3, fun c hc => List.eq_of_mem_replicate hc, by rw [hk, List.length_replicate], fun c hc => List.eq_of_mem_replicate hc, by simp, ?_⟩
    · rw [h2 e, if_neg (fun h' => h ⟨h', e⟩)]
    · by_cases h5 : 45 ∈ fl
      · rw [if_pos (hl.2 h5), if_pos h5]; simp
      · rw [if_neg (fun e => h5 (hl.1 e)), if_neg h5]; simp

/-- The digits, for the precision. -/
theorem digitsOf_ok (base : Nat) (hb : 2 ≤ base) (hb' : base ≤ 10) {fl wd p : Bytes} (hp : Precision p) (n : Nat) :
    ∃ least digits, digitsOf base (specOf fl wd p) n = List.replicate (least - digits.length) 48 ++ digits ∧ (if n = 0 ∧ p ≠ [] then digits = [] else Short base digits n) ∧
      (p = [] → least = 0) ∧ (∀ ds, p = 46 :: ds → FieldNumber ds least) := by
  have hnum : Short base (numeral base n) n := ⟨numeral_ok base n hb hb', numeral_head base n hb hb'⟩
  rcases hp with rfl | ⟨ds, rfl, hds⟩
  · refine ⟨0, numeral base n, ?_, ?_, fun _ => rfl, fun ds h => by (cases h)⟩
    · have e : digitsOf base (specOf fl wd []) n = numeral base n := rfl
      rw [e]; simp
    · rw [if_neg (by simp)]; exact hnum
  · have hd := field_decimal hds
    have e : digitsOf base (specOf fl wd (46 :: ds)) n = if decimal ds = 0 ∧ n = 0 then [] else List.replicate (decimal ds - (numeral base n).length) 48 ++ numeral base n := rfl
    rw [e]
    by_cases h0 : n = 0
    · subst h0
      refine ⟨decimal ds, [], ?_, by rw [if_pos (by simp)], fun h => by (cases h), fun ds' h => by (injection h with _ h; subst h; exact hd)⟩
      rw [numeral_zero base hb]
      by_cases h : decimal ds = 0
      · rw [if_pos ⟨h, rfl⟩, h]; rfl
      · rw [if_neg (fun e => h e.1)]
        have : decimal ds = (decimal ds - 1) + 1 := by omega
        simp only [List.length_cons, List.length_nil, Nat.sub_zero, List.append_nil, Nat.zero_add]
        rw [show List.replicate (decimal ds) (48 : UInt8) = List.replicate (decimal ds - 1 + 1) 48 by rw [← this], List.replicate_succ']
    · refine ⟨decimal ds, numeral base n, by rw [if_neg (fun e => h0 e.2)], by rw [if_neg (fun e => h0 e.1)]; exact hnum, fun h => by (cases h), fun ds' h => by (injection h with _ h; subst h; exact hd)⟩

theorem int_laid {fl wd p : Bytes} (hw : Width wd) (hp : Precision p) (n : Nat) : IntLaid 10 fl wd p n (signOf fl) (int (specOf fl wd p) n) := by
  have e : sign (specOf fl wd p) (n : Int) = signOf fl := by
    unfold sign signOf
    rw [if_neg (by omega)]
    show (if fl.contains 43 = true then _ else if fl.contains 32 = true then _ else _) = _
    by_cases h1 : 43 ∈ fl
    · rw [if_pos h1, if_pos ((contains_iff fl 43).2 h1)]
    · rw [if_neg h1, if_neg (fun h => h1 ((contains_iff fl 43).1 h))]
      by_cases h2 : 32 ∈ fl
      · rw [if_pos h2, if_pos ((contains_iff fl 32).2 h2)]
      · rw [if_neg h2, if_neg (fun h => h2 ((contains_iff fl 32).1 h))]
  unfold int
  rw [e, show ((n : Int)).natAbs = n by omega]
  obtain ⟨least, digits, h1, h2, h3, h4⟩ := digitsOf_ok 10 (by omega) (by omega) (fl := fl) (wd := wd) hp n
  have h := number_ok 10 (fl := fl) hw hp n least (signOf fl) digits h2 h3 h4
  rw [if_neg (by simp), Nat.max_zero, ← h1] at h
  exact h

theorem oct_laid {fl wd p : Bytes} (hw : Width wd) (hp : Precision p) (n : Nat) : IntLaid 8 fl wd p n [] (oct (specOf fl wd p) n) := by
  unfold oct
  obtain ⟨least, digits, h1, h2, h3, h4⟩ := digitsOf_ok 8 (by omega) (by omega) (fl := fl) (wd := wd) hp n
  have h := number_ok 8 (fl := fl) hw hp n least [] digits h2 h3 h4
  have halt : (specOf fl wd p).alt = true ↔ 35 ∈ fl := contains_iff fl 35
  have e : altOctal (specOf fl wd p) (digitsOf 8 (specOf fl wd p) n) =
      List.replicate (max (least - digits.length) (if 35 ∈ fl ∧ 8 = 8 ∧ digits.head? ≠ some 48 then 1 else 0)) 48 ++ digits := by
    unfold altOctal
    rw [h1]
    generalize hd : least - digits.length = d
    by_cases ha : 35 ∈ fl
    · cases d with
      | zero =>
        by_cases hh : digits.head? = some 48
        · rw [if_neg (by simp [hh]), if_neg (by simp [hh])]; simp
        · rw [if_pos (by simp [hh, halt, ha]), if_pos ⟨ha, rfl, hh⟩]; rfl
      | succ d =>
        rw [if_neg (by simp [List.replicate_succ])]
        congr 2
        split <;> omega
    · rw [if_neg (by simp [halt, ha]), if_neg (fun e => ha e.1), Nat.max_zero]
  rw [e]
  exact h


end Verif.Directive
