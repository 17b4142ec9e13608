import Verif.Lemmas.Stamp
/-! # What a format writes is determined -/
namespace Verif.Directive
open Verif.Printf (Fn Field Flags Width Precision FlagChar DecDigit)
open Verif.Num (Digits)
open Verif.Time (Timespec)
open Verif.Cfmt (numeral digs decimal)

/-! ## Numbers -/

theorem digs_fuel (base : Nat) (hb : 2 ≤ base) : ∀ (n f : Nat), n < f → digs base f n = digs base (n + 1) n := by
  intro n
  induction n using Nat.strongRecOn with
  | _ n ih =>
    intro f hf
    cases f with
    | zero => omega
    | succ f =>
      show (if n < base then _ else _) = (if n < base then _ else _)
      by_cases h : n < base
      · rw [if_pos h, if_pos h]
      · rw [if_neg h, if_neg h]
        have hlt : n / base < n := Nat.div_lt_self (by omega) (by omega)
        rw [ih _ hlt f (by omega), ih _ hlt n hlt]

theorem numeral_small {base n : Nat} (h : n < base) : numeral base n = [UInt8.ofNat (48 + n)] := if_pos h

theorem numeral_more {base m d : Nat} (hb : 2 ≤ base) (hm : 0 < m) (hd : d < base) : numeral base (base * m + d) = numeral base m ++ [UInt8.ofNat (48 + d)] := by
  have h1 : base ≤ base * m := Nat.le_mul_of_pos_right base hm
  have h2 : (base * m + d) / base = m := by
    rw [Nat.mul_add_div (by omega), Nat.div_eq_of_lt hd, Nat.add_zero]
  have h3 : (base * m + d) % base = d := by rw [Nat.mul_add_mod, Nat.mod_eq_of_lt hd]
  unfold numeral
  show (if base * m + d < base then _ else digs base (base * m + d) ((base * m + d) / base) ++ [UInt8.ofNat (48 + (base * m + d) % base)]) = _
  have h4 : 2 * m ≤ base * m := Nat.mul_le_mul_right m hb
  rw [if_neg (by omega), h2, h3, digs_fuel base hb m _ (by omega)]

/-- Digits are zeros and the shortest numeral. -/
theorem digits_numeral {base : Nat} (hb : 2 ≤ base) {v : Bytes} {n : Nat} (h : Digits base v n) : ∃ k, v = List.replicate k 48 ++ numeral base n := by
  have hc : ∀ {c : UInt8} {d : Nat}, c.toNat = 48 + d → UInt8.ofNat (48 + d) = c := by
    intro c d h
    rw [← h, UInt8.ofNat_toNat]
  induction h with
  | one c d h1 h2 => exact ⟨0, by rw [numeral_small h2, hc h1]; rfl⟩
  | more s m c d _ h1 h2 ih =>
    obtain ⟨k, rfl⟩ := ih
    rcases Nat.eq_zero_or_pos m with rfl | hm
    · refine ⟨k + 1, ?_⟩
      rw [Cfmt.numeral_zero base hb, Nat.mul_zero, Nat.zero_add, numeral_small h2, hc h1, List.replicate_succ']
    · refine ⟨k, ?_⟩
      rw [numeral_more hb hm h2, hc h1, List.append_assoc]

theorem short_numeral {base : Nat} (hb : 2 ≤ base) {v : Bytes} {n : Nat} (h : Short base v n) : v = numeral base n := by
  obtain ⟨k, e⟩ := digits_numeral hb h.1
  cases k with
  | zero => simpa using e
  | succ k =>
    have h1 := h.2 (by rw [e]; rfl)
    have h2 := Cfmt.numeral_pos base n
    have : v.length = k + 1 + (numeral base n).length := by rw [e]; simp
    rw [h1] at this
    simp at this
    omega

theorem field_unique {ds : Bytes} {n n' : Nat} (h : FieldNumber ds n) (h' : FieldNumber ds n') : n = n' := by
  rw [← Cfmt.decimal_field h, ← Cfmt.decimal_field h']

theorem sdec_unique {v v' : Bytes} {n : Int} (h : SDec v n) (h' : SDec v' n) : v = v' := by
  rcases h with ⟨h0, h⟩ | ⟨h0, d, rfl, h⟩ <;> rcases h' with ⟨h0', h'⟩ | ⟨h0', d', rfl, h'⟩
  · exact dec_unique h h'
  · omega
  · omega
  · rw [dec_unique h h']

theorem fixed_unique {k : Nat} {v v' : Bytes} {n : Int} (h : Fixed k v n) (h' : Fixed k v' n) : v = v' := (fixed_sort h h').2.2 rfl

theorem aligned_unique {k : Nat} {v v' : Bytes} {n : Int} (h : Aligned k v n) (h' : Aligned k v' n) : v = v' := by
  obtain ⟨d, h, rfl⟩ := h
  obtain ⟨d', h', rfl⟩ := h'
  rw [sdec_unique h h']

/-! ## Times -/

theorem seconds_unique {v v' : Bytes} {s n : Int} (h : Seconds v s n) (h' : Seconds v' s n) : v = v' := by
  obtain ⟨a, b, h1, h2, rfl⟩ := h
  obtain ⟨a', b', h1', h2', rfl⟩ := h'
  rw [fixed_unique h1 h1', fixed_unique h2 h2']

theorem clock_unique {v v' : Bytes} {tm : Tm} {n : Int} (h : Clock v tm n) (h' : Clock v' tm n) : v = v' := by
  obtain ⟨a, b, c, h1, h2, h3, rfl⟩ := h
  obtain ⟨a', b', c', h1', h2', h3', rfl⟩ := h'
  rw [fixed_unique h1 h1', fixed_unique h2 h2', seconds_unique h3 h3']

theorem ctime_unique {v v' : Bytes} {tm : Tm} {n : Int} (h : Ctime v tm n) (h' : Ctime v' tm n) : v = v' := by
  obtain ⟨day, mon, d, c, y, _, h1, _, h2, h3, h4, h5, rfl⟩ := h
  obtain ⟨day', mon', d', c', y', _, h1', _, h2', h3', h4', h5', rfl⟩ := h'
  rw [h1] at h1'
  rw [h2] at h2'
  cases h1'
  cases h2'
  rw [aligned_unique h3 h3', clock_unique h4 h4', aligned_unique h5 h5']

theorem stamp_unique {v v' : Bytes} {tm : Tm} {n : Int} (h : Stamp v tm n) (h' : Stamp v' tm n) : v = v' := by
  obtain ⟨y, m, d, c, h1, h2, h3, h4, rfl⟩ := h
  obtain ⟨y', m', d', c', h1', h2', h3', h4', rfl⟩ := h'
  rw [aligned_unique h1 h1', fixed_unique h2 h2', fixed_unique h3 h3', clock_unique h4 h4']

theorem time_unique {w : World} {ts : Timespec} {tm : Tm} {c : UInt8} {v v' : Bytes} (h : TimeShows w ts tm c v) (h' : TimeShows w ts tm c v') : v = v' := by
  cases h with
  | «at» s f h1 h2 =>
    cases h' with
    | «at» s' f' h1' h2' => rw [sdec_unique h1 h1', fixed_unique h2 h2']
    | posix _ h => exact absurd (by decide) h
  | plus _ h =>
    cases h' with
    | plus _ h' => exact stamp_unique h h'
    | posix _ h => exact absurd (by decide) h
  | k _ h =>
    cases h' with
    | k _ h' => exact aligned_unique h h'
    | posix _ h => exact absurd (by decide) h
  | l _ h =>
    cases h' with
    | l _ h' => exact aligned_unique h h'
    | posix _ h => exact absurd (by decide) h
  | s _ h =>
    cases h' with
    | s _ h' => exact sdec_unique h h'
    | posix _ h => exact absurd (by decide) h
  | S _ h =>
    cases h' with
    | S _ h' => exact seconds_unique h h'
    | posix _ h => exact absurd (by decide) h
  | T _ h =>
    cases h' with
    | T _ h' => exact clock_unique h h'
    | posix _ h => exact absurd (by decide) h
  | posix _ h =>
    cases h' with
    | posix => rfl
    | _ => exact absurd (by decide) h

/-! ## Modes -/

theorem readPlain_inj {c c' yes : Char} {n : Nat} (h : Spec.Strmode.readPlain c yes = some n) (h' : Spec.Strmode.readPlain c' yes = some n) : c = c' := by
  unfold Spec.Strmode.readPlain at h h'
  split at h <;> split at h' <;> try split at h <;> try split at h'
  all_goals (try split at h') <;> simp_all
  all_goals (try (cases h; simp_all))

theorem type_inj {c c' : Char} {n : Nat} (h : Spec.Strmode.readType c = some n) (h' : Spec.Strmode.readType c' = some n) : c = c' := by
  unfold Spec.Strmode.readType at h h'
  split at h <;> split at h' <;> simp_all <;> omega

theorem plain_le {c yes : Char} {n : Nat} (h : Spec.Strmode.readPlain c yes = some n) : n ≤ 1 := by
  unfold Spec.Strmode.readPlain at h
  repeat' split at h
  all_goals (simp_all <;> try omega)

theorem last_le {c u l : Char} {n : Nat × Nat} (h : Spec.Strmode.readLast c u l = some n) : n.1 ≤ 1 ∧ n.2 ≤ 1 := by
  unfold Spec.Strmode.readLast at h
  repeat' split at h
  all_goals (first | (cases h; done) | (injection h with h; subst h; decide))

theorem last_inj {c c' u l : Char} {n : Nat × Nat} (h : Spec.Strmode.readLast c u l = some n) (h' : Spec.Strmode.readLast c' u l = some n) : c = c' := by
  unfold Spec.Strmode.readLast at h h'
  repeat' split at h
  all_goals repeat' split at h'
  all_goals (first | (simp_all; done) | (injection h with h; subst h; injection h' with h'; injection h' with h1 h2; first | (simp_all; done) | omega))

theorem perm_inj {cs cs' : List Char} {n : Nat} (h : Spec.Strmode.readPerm cs = some n) (h' : Spec.Strmode.readPerm cs' = some n) : cs.tail = cs'.tail := by
  match cs, h with
  | [_, a1, a2, a3, a4, a5, a6, a7, a8, a9], h =>
  match cs', h' with
  | [_, b1, b2, b3, b4, b5, b6, b7, b8, b9], h' =>
    simp only [Spec.Strmode.readPerm, Option.bind_eq_bind, Option.bind_eq_some_iff, Option.pure_def, Option.some.injEq] at h h'
    obtain ⟨x1, h1, x2, h2, x3, h3, x4, h4, x5, h5, x6, h6, x7, h7, x8, h8, x9, h9, e⟩ := h
    obtain ⟨y1, k1, y2, k2, y3, k3, y4, k4, y5, k5, y6, k6, y7, k7, y8, k8, y9, k9, e'⟩ := h'
    have := plain_le h1; have := plain_le h2; have := last_le h3
    have := plain_le h4; have := plain_le h5; have := last_le h6
    have := plain_le h7; have := plain_le h8; have := last_le h9
    have := plain_le k1; have := plain_le k2; have := last_le k3
    have := plain_le k4; have := plain_le k5; have := last_le k6
    have := plain_le k7; have := plain_le k8; have := last_le k9
    have e1 : x1 = y1 := by omega
    have e2 : x2 = y2 := by omega
    have e3 : x3 = y3 := Prod.ext (by omega) (by omega)
    have e4 : x4 = y4 := by omega
    have e5 : x5 = y5 := by omega
    have e6 : x6 = y6 := Prod.ext (by omega) (by omega)
    have e7 : x7 = y7 := by omega
    have e8 : x8 = y8 := by omega
    have e9 : x9 = y9 := Prod.ext (by omega) (by omega)
    subst e1 e2 e3 e4 e5 e6 e7 e8 e9
    rw [readPlain_inj h1 k1, readPlain_inj h2 k2, last_inj h3 k3, readPlain_inj h4 k4, readPlain_inj h5 k5, last_inj h6 k6, readPlain_inj h7 k7, readPlain_inj h8 k8, last_inj h9 k9]
    rfl

theorem letter_unique {t : Stat.FType} {s s' : String} (h : TypeLetter t s) (h' : TypeLetter t s') : s = s' := by
  cases h <;> cases h' <;> rfl

/-! ## Values -/

theorem stat_eq {f : File} {sb sb' : Sb} (h : f.stat = .ok sb) (h' : f.stat = .ok sb') : sb' = sb := by
  rw [h] at h'; injection h' with h'; exact h'.symm

theorem shows_unique {w : World} {f : File} {fn : Fn} {v v' : Bytes} (h : Shows w f fn v) (h' : Shows w f fn v') : v = v' := by
  cases h with
  | ctime field sb tm _ h1 h2 h3 h4 =>
    cases h' with
    | ctime _ sb' tm' _ h1' h2' h3' h4' =>
      have e := stat_eq h1 h1'
      subst e
      rw [h3] at h3'
      injection h3' with h3'
      subst h3'
      exact ctime_unique h4 h4'
  | strftime field c sb tm _ h1 h2 h3 h4 =>
    cases h' with
    | strftime _ _ sb' tm' _ h1' h2' h3' h4' =>
      have e := stat_eq h1 h1'
      subst e
      rw [h3] at h3'
      injection h3' with h3'
      subst h3'
      exact time_unique h4 h4'
  | b sb _ h1 h2 => cases h' with | b sb' _ h1' h2' => rw [stat_eq h1 h1'] at h2'; exact dec_unique h2 h2'
  | k sb _ n h1 h2 h3 h4 =>
    cases h' with
    | k sb' _ n' h1' h2' h3' h4' =>
      have e := stat_eq h1 h1'
      subst e
      have : n = n' := by omega
      subst this
      exact dec_unique h2 h2'
  | D sb _ h1 h2 => cases h' with | D sb' _ h1' h2' => rw [stat_eq h1 h1'] at h2'; exact dec_unique h2 h2'
  | f d _ h1 h2 => cases h' with | f d' _ h1' h2' => exact (List.append_inj (h1.symm.trans h1') (h2.trans h2'.symm)).2
  | F sb _ h1 h2 => cases h' with | F sb' _ h1' h2' => rw [h2] at h2'; injection h2'
  | g sb _ h1 h2 =>
    cases h' with
    | g sb' _ h1' h2' => rw [stat_eq h1 h1', h2] at h2'; injection h2'
    | gid sb' _ h1' h2' => rw [stat_eq h1 h1', h2] at h2'; cases h2'
  | gid sb _ h1 h2 h3 =>
    cases h' with
    | g sb' _ h1' h2' => rw [stat_eq h1 h1', h2] at h2'; cases h2'
    | gid sb' _ h1' h2' h3' => rw [stat_eq h1 h1'] at h3'; exact dec_unique h3 h3'
  | G sb _ h1 h2 => cases h' with | G sb' _ h1' h2' => rw [stat_eq h1 h1'] at h2'; exact dec_unique h2 h2'
  | h _ name h1 h2 h3 =>
    have := List.length_pos_iff.2 h3
    cases h' with
    | h _ name' h1' h2' h3' => exact (List.append_inj (h1.symm.trans h1') (by omega)).1
    | hslash name' h1' h2' => omega
    | hdot h1' h2' => omega
  | hslash name h1 h2 =>
    cases h' with
    | h _ name' h1' h2' h3' => have := List.length_pos_iff.2 h3'; omega
    | hslash name' h1' h2' => rfl
    | hdot h1' h2' => exact absurd (by rw [h1]; rfl) h1'
  | hdot h1 h2 =>
    cases h' with
    | h _ name' h1' h2' h3' => have := List.length_pos_iff.2 h3'; omega
    | hslash name' h1' h2' => exact absurd (by rw [h1']; rfl) h1
    | hdot h1' h2' => rfl
  | H => cases h'; rfl
  | i sb _ h1 h2 => cases h' with | i sb' _ h1' h2' => rw [stat_eq h1 h1'] at h2'; exact dec_unique h2 h2'
  | l _ h1 h2 =>
    cases h' with
    | l _ h1' h2' => rw [h2] at h2'; injection h2'
    | nolink h => exact absurd h1 h
  | nolink h =>
    cases h' with
    | l _ h1' h2' => exact absurd h1' h
    | nolink h => rfl
  | M sb cs c rest h1 h2 h3 h4 h5 =>
    cases h' with
    | M sb' cs' c' rest' h1' h2' h3' h4' h5' =>
      have e := stat_eq h1 h1'
      subst e
      have h6 := perm_inj h4 h4'
      subst h2 h2'
      have h7 : c = c' := by
        split at h5
        · rename_i hk
          rw [if_pos hk] at h5'
          exact type_inj h5 h5'
        · rename_i hk
          rw [if_neg hk] at h5'
          rw [h5, h5']
      have h8 : rest = rest' := h6
      rw [h7, h8]
  | n sb _ h1 h2 => cases h' with | n sb' _ h1' h2' => rw [stat_eq h1 h1'] at h2'; exact dec_unique h2 h2'
  | p => cases h'; rfl
  | P _ h1 =>
    cases h' with
    | P _ h1' => have := List.append_cancel_left (h1.symm.trans h1'); injection this
    | Pdirect _ h1' h2' => exact absurd (by rw [← List.append_cancel_left (h1.symm.trans h1')]; rfl) h2'
  | Pdirect _ h1 h2 =>
    cases h' with
    | P _ h1' => exact absurd (by rw [List.append_cancel_left (h1.symm.trans h1')]; rfl) h2
    | Pdirect _ h1' h2' => exact List.append_cancel_left (h1.symm.trans h1')
  | s sb _ h1 h2 => cases h' with | s sb' _ h1' h2' => rw [stat_eq h1 h1'] at h2'; exact dec_unique h2 h2'
  | u sb _ h1 h2 =>
    cases h' with
    | u sb' _ h1' h2' => rw [stat_eq h1 h1', h2] at h2'; injection h2'
    | uid sb' _ h1' h2' => rw [stat_eq h1 h1', h2] at h2'; cases h2'
  | uid sb _ h1 h2 h3 =>
    cases h' with
    | u sb' _ h1' h2' => rw [stat_eq h1 h1', h2] at h2'; cases h2'
    | uid sb' _ h1' h2' h3' => rw [stat_eq h1 h1'] at h3'; exact dec_unique h3 h3'
  | U sb _ h1 h2 => cases h' with | U sb' _ h1' h2' => rw [stat_eq h1 h1'] at h2'; exact dec_unique h2 h2'
  | y s h => cases h' with | y s' h' => rw [letter_unique h h']
  | Y t s h1 h2 =>
    cases h' with
    | Y t' s' h1' h2' => rw [h1] at h1'; injection h1' with h1'; subst h1'; rw [letter_unique h2 h2']
    | Yloop h1' => rw [h1] at h1'; cases h1'
    | Ynone e h1' _ => rw [h1] at h1'; cases h1'
  | Yloop h1 =>
    cases h' with
    | Y t' s' h1' h2' => rw [h1] at h1'; cases h1'
    | Yloop h1' => rfl
    | Ynone e h1' he => rw [h1] at h1'; injection h1' with h1'; omega
  | Ynone e h1 he =>
    cases h' with
    | Y t' s' h1' h2' => rw [h1] at h1'; cases h1'
    | Yloop h1' => rw [h1] at h1'; injection h1' with h1'; omega
    | Ynone e h1' he => rfl
  | Z _ h => cases h' with | Z _ h' => rw [h] at h'; injection h'

/-- What is shown can be found out. -/
theorem shows_not_missing {w : World} {f : File} {fn : Fn} {v : Bytes} {e : Nat} (h : Shows w f fn v) (h' : Missing w f fn e) : False := by
  cases h' with
  | stat _ _ h1 h2 => cases h <;> first | exact h1 | simp_all
  | time _ field sb h1 h2 h3 =>
    cases h1 with
    | ctime =>
      cases h with
      | ctime _ sb' tm _ h4 h5 => rw [stat_eq h2 h4, h3] at h5; cases h5
    | strftime _ c =>
      cases h with
      | strftime _ _ sb' tm _ h4 h5 => rw [stat_eq h2 h4, h3] at h5; cases h5
  | localtime _ field sb _ h1 h2 h3 h6 =>
    cases h1 with
    | ctime =>
      cases h with
      | ctime _ sb' tm _ h4 h5 h7 => rw [stat_eq h2 h4, h6] at h7; cases h7
    | strftime _ c =>
      cases h with
      | strftime _ _ sb' tm _ h4 h5 h7 => rw [stat_eq h2 h4, h6] at h7; cases h7
  | link _ h1 h2 => cases h <;> simp_all
  | fstype sb _ h1 h2 => cases h; simp_all
  | context _ h1 => cases h; simp_all

theorem shows_not_unreachable {w : World} {f : File} {v : Bytes} {e : Nat} (h : Shows w f .Y v) (h' : Unreachable f e) : False := by
  obtain ⟨h1, h2, h3, h4⟩ := h'
  cases h with
  | Y _ _ h => rw [h1] at h; cases h
  | Yloop h => rw [h1] at h; injection h with h; exact h2 h
  | Ynone e' h he => rw [h1] at h; injection h with h; omega

theorem missing_not_unreachable {w : World} {f : File} {e : Nat} (h : Missing w f .Y e) : False := by
  cases h with
  | stat _ _ h1 _ => exact h1
  | time _ _ _ h => cases h
  | localtime _ _ _ _ h => cases h

/-! ## Layouts -/

theorem spaces_eq {a b : Bytes} {c : UInt8} (h : ∀ x ∈ a, x = c) (h' : ∀ x ∈ b, x = c) (hl : a.length = b.length) : a = b := by
  rw [List.eq_replicate_of_mem h, List.eq_replicate_of_mem h', hl]

theorem laid_unique {fl wd p v o o' : Bytes} (h : Laid fl wd p v o) (h' : Laid fl wd p v o') : o = o' := by
  obtain ⟨cut, sp, width, h1, h2, h3, h4, rfl⟩ := h
  obtain ⟨cut', sp', width', h1', h2', h3', h4', rfl⟩ := h'
  have e := field_unique h2 h2'
  subst e
  have e : cut = cut' := by
    rcases h1 with ⟨hp, rfl⟩ | ⟨ds, n, hp, hn, rfl⟩ <;> rcases h1' with ⟨hp', rfl⟩ | ⟨ds', n', hp', hn', rfl⟩
    · rfl
    · rw [hp] at hp'; cases hp'
    · rw [hp] at hp'; cases hp'
    · rw [hp] at hp'
      injection hp' with _ hp'
      subst hp'
      rw [field_unique hn hn']
  subst e
  rw [spaces_eq h3 h3' (by omega)]

theorem int_unique {base : Nat} (hb : 2 ≤ base) {fl wd p : Bytes} (hp : Precision p) {n : Nat} {sign o o' : Bytes} (h : IntLaid base fl wd p n sign o) (h' : IntLaid base fl wd p n sign o') : o = o' := by
  obtain ⟨sp, z, d, width, least, h1, h2, h3, h4, h5, h6, h7, h8, rfl⟩ := h
  obtain ⟨sp', z', d', width', least', h1', h2', h3', h4', h5', h6', h7', h8', rfl⟩ := h'
  have e := field_unique h1 h1'
  subst e
  have e : d = d' := by
    split at h2
    · rename_i h
      rw [if_pos h] at h2'
      rw [h2, h2']
    · rename_i h
      rw [if_neg h] at h2'
      rw [short_numeral hb h2, short_numeral hb h2']
  subst e
  have e : least = least' := by
    rcases hp with hp | ⟨ds, hp, _⟩
    · rw [h3 hp, h3' hp]
    · exact field_unique (h4 ds hp) (h4' ds hp)
  subst e
  have e := spaces_eq h5 h5' (h6.trans h6'.symm)
  subst e
  rw [spaces_eq h7 h7' (h8.trans h8'.symm)]

theorem conv_head {s : Bytes} (hs : s ∈ [ascii "s", ascii "jd", ascii "o", ascii "g"]) : ∃ c t, s = c :: t ∧ ¬ FlagChar c ∧ ¬ DecDigit c ∧ c ≠ 46 := by
  simp only [List.mem_cons, List.not_mem_nil, or_false] at hs
  unfold FlagChar DecDigit
  rcases hs with rfl | rfl | rfl | rfl
  · exact ⟨115, [], rfl, by decide, by decide, by decide⟩
  · exact ⟨106, [100], rfl, by decide, by decide, by decide⟩
  · exact ⟨111, [], rfl, by decide, by decide, by decide⟩
  · exact ⟨103, [], rfl, by decide, by decide, by decide⟩

theorem layout_spans {fl wd p s : Bytes} (h : Layout fl wd p) (hs : s ∈ [ascii "s", ascii "jd", ascii "o", ascii "g"]) :
    (fl ++ wd ++ p ++ s).takeWhile Cfmt.isFlag = fl ∧ ((fl ++ wd ++ p ++ s).dropWhile Cfmt.isFlag).takeWhile Cfmt.isDigit = wd ∧ ((fl ++ wd ++ p ++ s).dropWhile Cfmt.isFlag).dropWhile Cfmt.isDigit = p ++ s := by
  obtain ⟨hf, hw, hp⟩ := h
  obtain ⟨x, t, e, hx1, hx2, hx3⟩ := conv_head hs
  have headP : ∀ c, (p ++ s).head? = some c → ¬ FlagChar c ∧ ¬ DecDigit c := by
    intro c hc
    rcases hp with rfl | ⟨ds, rfl, _⟩
    · rw [e] at hc
      have : x = c := Option.some.inj hc
      subst this
      exact ⟨hx1, hx2⟩
    · have : c = 46 := (Option.some.inj hc).symm
      subst this
      unfold FlagChar DecDigit
      exact ⟨by decide, by decide⟩
  have headW : ∀ c, (wd ++ (p ++ s)).head? = some c → Cfmt.isFlag c = false := by
    intro c hc
    rw [Bool.eq_false_iff]
    intro hi
    rw [Cfmt.isFlag_iff] at hi
    cases hw' : wd with
    | nil => rw [hw'] at hc; exact (headP c hc).1 hi
    | cons x w' =>
      rw [hw'] at hc
      have : c = x := (Option.some.inj hc).symm
      subst this
      have h1 := hw.1 c (by rw [hw']; simp)
      have h2 := hw.2
      rw [hw'] at h2
      exact Printf.flagChar_not_digit hi (fun h => h2 (by rw [h]; rfl)) h1
  have e : fl ++ wd ++ p ++ s = fl ++ (wd ++ (p ++ s)) := by simp
  obtain ⟨t1, d1⟩ := Cfmt.span_eq fl (wd ++ (p ++ s)) (fun c hc => (Cfmt.isFlag_iff c).2 (hf.1 c hc)) headW
  obtain ⟨t2, d2⟩ := Cfmt.span_eq (p := Cfmt.isDigit) wd (p ++ s) (fun c hc => (Cfmt.isDigit_iff c).2 (hw.1 c hc))
    (fun c hc => by rw [Bool.eq_false_iff]; intro hi; exact (headP c hc).2 ((Cfmt.isDigit_iff c).1 hi))
  rw [e, t1, d1, t2, d2]
  exact ⟨rfl, rfl, rfl⟩

theorem prec_unique {p s p' s' : Bytes} (hp : Precision p) (hp' : Precision p') (hs : s ∈ [ascii "s", ascii "jd", ascii "o", ascii "g"]) (hs' : s' ∈ [ascii "s", ascii "jd", ascii "o", ascii "g"])
    (e : p ++ s = p' ++ s') : p = p' ∧ s = s' := by
  obtain ⟨x, t, es, hx1, hx2, hx3⟩ := conv_head hs
  obtain ⟨x', t', es', hx1', hx2', hx3'⟩ := conv_head hs'
  have stop : ∀ {s x t}, s = x :: t → ¬ DecDigit x → ∀ c, List.head? s = some c → Cfmt.isDigit c = false := by
    intro s x t es hx c hc
    rw [es] at hc
    have : x = c := Option.some.inj hc
    subst this
    rw [Bool.eq_false_iff]
    intro hi
    exact hx ((Cfmt.isDigit_iff x).1 hi)
  rcases hp with rfl | ⟨ds, rfl, hds⟩ <;> rcases hp' with rfl | ⟨ds', rfl, hds'⟩
  · exact ⟨rfl, e⟩
  · rw [es] at e
    injection e with e _
    exact absurd e hx3
  · rw [es'] at e
    injection e with e _
    exact absurd e.symm hx3'
  · injection e with _ e
    obtain ⟨t1, d1⟩ := Cfmt.span_eq (p := Cfmt.isDigit) ds s (fun c hc => (Cfmt.isDigit_iff c).2 (hds c hc)) (stop es hx2)
    obtain ⟨t2, d2⟩ := Cfmt.span_eq (p := Cfmt.isDigit) ds' s' (fun c hc => (Cfmt.isDigit_iff c).2 (hds' c hc)) (stop es' hx2')
    have e : ds ++ s = ds' ++ s' := e
    rw [e] at t1 d1
    rw [t1] at t2
    rw [d1] at d2
    exact ⟨by rw [t2], d2⟩

/-- A format is read in one way. -/
theorem layout_unique {fl wd p s fl' wd' p' s' : Bytes} (h : Layout fl wd p) (h' : Layout fl' wd' p')
    (hs : s ∈ [ascii "s", ascii "jd", ascii "o", ascii "g"]) (hs' : s' ∈ [ascii "s", ascii "jd", ascii "o", ascii "g"]) (e : fl ++ wd ++ p ++ s = fl' ++ wd' ++ p' ++ s') :
    fl = fl' ∧ wd = wd' ∧ p = p' ∧ s = s' := by
  obtain ⟨h1, h2, h3⟩ := layout_spans h hs
  obtain ⟨h1', h2', h3'⟩ := layout_spans h' hs'
  rw [← e] at h1' h2' h3'
  obtain ⟨h4, h5⟩ := prec_unique h.2.2 h'.2.2 hs hs' (h3.symm.trans h3')
  exact ⟨h1.symm.trans h1', h2.symm.trans h2', h4, h5⟩

theorem right_unique {w : World} {f : File} {fn : Fn} {fl wd p : Bytes} {eff eff' : Printf.Effect} (h : Right w f fn fl wd p (.ok eff)) (h' : Right w f fn fl wd p (.ok eff')) :
    eff.bytes = eff'.bytes ∧ eff.error.isSome = eff'.error.isSome := by
  rcases h with ⟨v, o, h1, h2, e⟩ | ⟨n, h1, e⟩ | ⟨n, o, hfn, h1, h2, e⟩ <;> rcases h' with ⟨v', o', h1', h2', e'⟩ | ⟨n', h1', e'⟩ | ⟨n', o', hfn', h1', h2', e'⟩ <;>
    (injection e with e; injection e' with e'; subst e e')
  · have := shows_unique h1 h1'
    subst this
    exact ⟨laid_unique h2 h2', rfl⟩
  · exact (shows_not_missing h1 h1').elim
  · subst hfn'; exact (shows_not_unreachable h1 h1').elim
  · exact (shows_not_missing h1' h1).elim
  · exact ⟨rfl, rfl⟩
  · subst hfn'; exact (missing_not_unreachable h1).elim
  · subst hfn; exact (shows_not_unreachable h1' h1).elim
  · subst hfn; exact (missing_not_unreachable h1').elim
  · exact ⟨laid_unique h2 h2', rfl⟩

/-- How the format of a directive is laid out. -/
inductive PartOf (w : World) (f : File) (fl wd p s : Bytes) : Fn → Printf.Effect → Prop
  | text (fn : Fn) (eff : Printf.Effect) : s = ascii "s" → Small wd p → Right w f fn fl wd p (.ok eff) → PartOf w f fl wd p s fn eff
  | depth (o : Bytes) : s = ascii "jd" → Small wd p → IntLaid 10 fl wd p f.buf.depth (signOf fl) o → PartOf w f fl wd p s .d ⟨o, none⟩
  | mode (o : Bytes) (sb : Sb) : s = ascii "o" → Small wd p → f.stat = .ok sb → IntLaid 8 fl wd p (sb.mode % 0o10000) [] o → PartOf w f fl wd p s .m ⟨o, none⟩
  | sparse (sb : Sb) (num den : Int) : s = ascii "g" → Small wd p → f.stat = .ok sb → (sb.size = 0 ∧ sb.blocks = 0 → num = 1 ∧ den = 1) →
      (¬ (sb.size = 0 ∧ sb.blocks = 0) → num = 512 * sb.blocks ∧ den = sb.size) → PartOf w f fl wd p s .S ⟨w.real (specOf fl wd p) num den, none⟩
  | missing (fn : Fn) (e : Nat) : fn = .m ∨ fn = .S → f.stat = .error e → PartOf w f fl wd p s fn ⟨[], some e⟩
  | wide (fn : Fn) (e : Nat) : ¬ Small wd p → PartOf w f fl wd p s fn ⟨[], some e⟩

theorem part_of {w : World} {f : File} {fn : Fn} {fl wd p s : Bytes} {eff : Printf.Effect} (hl : Layout fl wd p) (hs : s ∈ [ascii "s", ascii "jd", ascii "o", ascii "g"])
    (h : Part w f fn (37 :: (fl ++ wd ++ p ++ s)) eff) : PartOf w f fl wd p s fn eff := by
  generalize hx : 37 :: (fl ++ wd ++ p ++ s) = str at h
  cases h with
  | text _ fl' wd' p' _ hl' h1 h2 =>
    injection hx with _ hx
    obtain ⟨rfl, rfl, rfl, rfl⟩ := layout_unique hl hl' hs (by simp) hx
    exact .text fn eff rfl h1 h2
  | depth fl' wd' p' _ hl' h1 h2 =>
    injection hx with _ hx
    obtain ⟨rfl, rfl, rfl, rfl⟩ := layout_unique hl hl' hs (by simp) hx
    exact .depth _ rfl h1 h2
  | mode fl' wd' p' _ sb hl' h1 h2 h3 =>
    injection hx with _ hx
    obtain ⟨rfl, rfl, rfl, rfl⟩ := layout_unique hl hl' hs (by simp) hx
    exact .mode _ sb rfl h1 h2 h3
  | sparse fl' wd' p' sb num den hl' h1 h2 h3 h4 =>
    injection hx with _ hx
    obtain ⟨rfl, rfl, rfl, rfl⟩ := layout_unique hl hl' hs (by simp) hx
    exact .sparse sb num den rfl h1 h2 h3 h4
  | missing _ _ e h1 h2 => exact .missing fn e h1 h2
  | wide _ fl' wd' p' s' e hl' hs' h1 =>
    injection hx with _ hx
    obtain ⟨rfl, rfl, rfl, rfl⟩ := layout_unique hl hl' hs hs' hx
    exact .wide fn e h1

theorem text_missing {w : World} {f : File} {fn : Fn} {fl wd p : Bytes} {eff : Printf.Effect} (hfn : fn = .m ∨ fn = .S) (h : Right w f fn fl wd p (.ok eff)) :
    eff.bytes = [] ∧ eff.error.isSome = true := by
  rcases h with ⟨v, o, h1, _⟩ | ⟨n, _, e⟩ | ⟨n, o, h, _⟩
  · rcases hfn with rfl | rfl <;> cases h1
  · injection e with e
    subst e
    exact ⟨rfl, rfl⟩
  · rcases hfn with rfl | rfl <;> cases h

theorem partOf_unique {w : World} {f : File} {fn : Fn} {fl wd p s : Bytes} {eff eff' : Printf.Effect} (hp : Precision p) (h : PartOf w f fl wd p s fn eff) (h' : PartOf w f fl wd p s fn eff') :
    eff.bytes = eff'.bytes ∧ eff.error.isSome = eff'.error.isSome := by
  cases h with
  | text _ _ e h1 h2 =>
    cases h' with
    | text _ _ e' h1' h2' => exact right_unique h2 h2'
    | depth _ e' => rw [e] at e'; exact absurd e' (by decide)
    | mode _ _ e' => rw [e] at e'; exact absurd e' (by decide)
    | sparse _ _ _ e' => rw [e] at e'; exact absurd e' (by decide)
    | missing _ n hfn _ => exact text_missing hfn h2
    | wide _ _ h => exact absurd h1 h
  | depth o e h1 h2 =>
    cases h' with
    | text _ _ e' => rw [e] at e'; exact absurd e' (by decide)
    | depth o' e' h1' h2' => exact ⟨int_unique (by decide) hp h2 h2', rfl⟩
    | missing _ n hfn _ => rcases hfn with h | h <;> cases h
    | wide _ _ h => exact absurd h1 h
  | mode o sb e h1 h2 h3 =>
    cases h' with
    | text _ _ e' => rw [e] at e'; exact absurd e' (by decide)
    | mode o' sb' e' h1' h2' h3' =>
      have := stat_eq h2 h2'
      subst this
      exact ⟨int_unique (by decide) hp h3 h3', rfl⟩
    | missing _ n hfn h => rw [h2] at h; cases h
    | wide _ _ h => exact absurd h1 h
  | sparse sb num den e h1 h2 h3 h4 =>
    cases h' with
    | text _ _ e' => rw [e] at e'; exact absurd e' (by decide)
    | sparse sb' num' den' e' h1' h2' h3' h4' =>
      have := stat_eq h2 h2'
      subst this
      by_cases h0 : sb'.size = 0 ∧ sb'.blocks = 0
      · rw [(h3 h0).1, (h3 h0).2, (h3' h0).1, (h3' h0).2]; exact ⟨rfl, rfl⟩
      · rw [(h4 h0).1, (h4 h0).2, (h4' h0).1, (h4' h0).2]; exact ⟨rfl, rfl⟩
    | missing _ n hfn h => rw [h2] at h; cases h
    | wide _ _ h => exact absurd h1 h
  | missing _ n hfn h =>
    cases h' with
    | text _ _ e' h1' h2' => have := text_missing hfn h2'; exact ⟨this.1.symm, this.2.symm⟩
    | depth => rcases hfn with h | h <;> cases h
    | mode _ _ _ _ h2 => rw [h] at h2; cases h2
    | sparse _ _ _ _ _ h2 => rw [h] at h2; cases h2
    | missing => exact ⟨rfl, rfl⟩
    | wide => exact ⟨rfl, rfl⟩
  | wide _ n h =>
    cases h' with
    | text _ _ _ h1 => exact absurd h1 h
    | depth _ _ h1 => exact absurd h1 h
    | mode _ _ _ h1 => exact absurd h1 h
    | sparse _ _ _ _ h1 => exact absurd h1 h
    | missing => exact ⟨rfl, rfl⟩
    | wide => exact ⟨rfl, rfl⟩

/-- Directives of a format have formats for `printf(3)` that can be taken apart. -/
theorem directive_layout {env : Printf.Env} {text str : Bytes} {fn : Fn} (h : Printf.Directive env text fn str) :
    ∃ fl wd p s, str = 37 :: (fl ++ wd ++ p ++ s) ∧ Layout fl wd p ∧ s ∈ [ascii "s", ascii "jd", ascii "o", ascii "g"] := by
  obtain ⟨fl, wd, p, cv, spec, _, hf, hw, hp, hc, _, rfl⟩ := h
  exact ⟨fl, wd, p, spec, rfl, ⟨hf, hw, hp⟩, by cases hc <;> simp [ascii]⟩

theorem part_unique {w : World} {f : File} {env : Printf.Env} {text str : Bytes} {fn : Fn} (hd : Printf.Directive env text fn str) {eff eff' : Printf.Effect} (h : Part w f fn str eff) (h' : Part w f fn str eff') :
    eff.bytes = eff'.bytes ∧ eff.error.isSome = eff'.error.isSome := by
  obtain ⟨fl, wd, p, s, rfl, hl, hs⟩ := directive_layout hd
  exact partOf_unique hl.2.2 (part_of hl hs h) (part_of hl hs h')

theorem written_unique {w : World} {f : File} {env : Printf.Env} {s : Bytes} {es : List Printf.Elem} (hf : Printf.Format env s es) {out out' : Bytes} {err err' : Option Nat}
    (h : Written w f es out err) (h' : Written w f es out' err') : out = out' ∧ err.isSome = err'.isSome := by
  have byteStep : ∀ {b : UInt8} {es : List Printf.Elem}, (∀ {out out' : Bytes} {err err' : Option Nat}, Written w f es out err → Written w f es out' err' → out = out' ∧ err.isSome = err'.isSome) →
      ∀ {out out' : Bytes} {err err' : Option Nat}, Written w f (.byte b :: es) out err → Written w f (.byte b :: es) out' err' → out = out' ∧ err.isSome = err'.isSome := by
    intro b es ih out out' err err' h h'
    cases h with
    | byte _ _ o _ h =>
      cases h' with
      | byte _ _ o' _ h' =>
        obtain ⟨e1, e2⟩ := ih h h'
        exact ⟨by rw [e1], e2⟩
  induction hf generalizing out out' err err' with
  | done => cases h; cases h'; exact ⟨rfl, rfl⟩
  | plain c s es _ _ _ ih => exact byteStep ih h h'
  | escape c b s es _ _ ih => exact byteStep ih h h'
  | octal ds s es _ _ _ _ _ ih => exact byteStep ih h h'
  | stop s =>
    cases h with
    | flush _ _ _ h =>
      cases h' with
      | flush _ _ _ h' => cases h; cases h'; exact ⟨rfl, rfl⟩
  | percent s es _ ih => exact byteStep ih h h'
  | dir text s es fn str hd _ ih =>
    cases h with
    | dir _ _ o e _ out err h1 h2 =>
      cases h' with
      | dir _ _ o' e' _ out' err' h1' h2' =>
        obtain ⟨e1, e2⟩ := part_unique hd h1 h1'
        obtain ⟨e3, e4⟩ := ih h2 h2'
        dsimp only at e1 e2
        refine ⟨by rw [e1, e3], ?_⟩
        rw [← e4]
        split
        · rename_i hs
          rw [hs, ← e4, hs]
        · exact e2

end Verif.Directive
