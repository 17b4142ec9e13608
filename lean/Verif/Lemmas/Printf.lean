import Verif.Spec.Printf
/-! Lemmas about format strings. -/
namespace Verif.Printf

/-! ## Octal escapes -/

theorem isOct_iff (c : UInt8) : isOct c = true ↔ OctDigit c := by
  unfold isOct OctDigit
  simp only [Bool.and_eq_true, decide_eq_true_eq, UInt8.le_iff_toNat_le, UInt8.lt_iff_toNat_lt]
  have h1 : (48 : UInt8).toNat = 48 := rfl
  have h2 : (56 : UInt8).toNat = 56 := rfl
  omega

def octFrom (n : Nat) (ds : Bytes) : Nat := ds.foldl (fun n c => 8 * n + (c.toNat - 48)) n

theorem oct_step (n : Nat) (x : UInt8) (h : OctDigit x) : UInt8.ofNat n * 8 + (x - 48) = UInt8.ofNat (8 * n + (x.toNat - 48)) := by
  unfold OctDigit at h
  apply UInt8.toNat_inj.1
  have h48 : (x - 48).toNat = x.toNat - 48 := by
    rw [UInt8.toNat_sub_of_le]
    · rfl
    · rw [UInt8.le_iff_toNat_le]; exact h.1
  rw [UInt8.toNat_add, UInt8.toNat_mul, h48]
  have h8 : (8 : UInt8).toNat = 8 := rfl
  rw [h8]
  simp only [UInt8.toNat_ofNat']
  omega

/-- The loop reads as many octal digits as there are, at most `j`. -/
theorem octal_spec (j : Nat) : ∀ (n : Nat) (s : Bytes), ∃ ds rest, s = ds ++ rest ∧ octal j (UInt8.ofNat n) s = (UInt8.ofNat (octFrom n ds), rest) ∧
    ds.length ≤ j ∧ (∀ c ∈ ds, OctDigit c) ∧ (ds.length = j ∨ ∀ c, rest.head? = some c → ¬ OctDigit c) := by
  induction j with
  | zero => intro n s; exact ⟨[], s, rfl, rfl, Nat.le_refl _, by simp, Or.inl rfl⟩
  | succ j ih =>
    intro n s
    cases s with
    | nil => exact ⟨[], [], rfl, rfl, Nat.zero_le _, by simp, Or.inr (by simp)⟩
    | cons x s =>
      by_cases hx : isOct x = true
      · have ho := (isOct_iff x).1 hx
        obtain ⟨ds, rest, h1, h2, h3, h4, h5⟩ := ih (8 * n + (x.toNat - 48)) s
        refine ⟨x :: ds, rest, by rw [h1]; rfl, ?_, by simp; omega, ?_, ?_⟩
        · show (if isOct x = true then octal j (UInt8.ofNat n * 8 + (x - 48)) s else (UInt8.ofNat n, x :: s)) = _
          rw [if_pos hx, oct_step n x ho, h2]; rfl
        · intro c hc
          rcases List.mem_cons.1 hc with rfl | hc
          · exact ho
          · exact h4 c hc
        · rcases h5 with h5 | h5
          · left; simp [h5]
          · right; exact h5
      · refine ⟨[], x :: s, rfl, ?_, Nat.zero_le _, by simp, Or.inr ?_⟩
        · show (if isOct x = true then octal j (UInt8.ofNat n * 8 + (x - 48)) s else (UInt8.ofNat n, x :: s)) = _
          rw [if_neg hx]; rfl
        · intro c hc
          have : x = c := by simpa using hc
          subst this
          intro h; exact hx ((isOct_iff x).2 h)

/-- A given run of digits is read. -/
theorem octal_run (ds : Bytes) : ∀ (j n : Nat) (s : Bytes), ds.length ≤ j → (∀ c ∈ ds, OctDigit c) → (ds.length = j ∨ ∀ c, s.head? = some c → ¬ OctDigit c) →
    octal j (UInt8.ofNat n) (ds ++ s) = (UInt8.ofNat (octFrom n ds), s) := by
  induction ds with
  | nil =>
    intro j n s _ _ h
    rcases h with h | h
    · have : j = 0 := by simpa using h.symm
      subst this; rfl
    · cases j with
      | zero => rfl
      | succ j =>
        cases s with
        | nil => rfl
        | cons x s =>
          have hx : ¬ isOct x = true := fun hx => h x rfl ((isOct_iff x).1 hx)
          show (if isOct x = true then octal j (UInt8.ofNat n * 8 + (x - 48)) s else (UInt8.ofNat n, x :: s)) = _
          rw [if_neg hx]; rfl
  | cons x ds ih =>
    intro j n s hl hd h
    cases j with
    | zero => simp at hl
    | succ j =>
      have ho := hd x (by simp)
      show (if isOct x = true then octal j (UInt8.ofNat n * 8 + (x - 48)) (ds ++ s) else (UInt8.ofNat n, x :: (ds ++ s))) = _
      rw [if_pos ((isOct_iff x).2 ho), oct_step n x ho, ih j _ s (by simpa using hl) (fun c hc => hd c (by simp [hc])) (by simpa using h)]
      rfl

theorem simpleEscape_iff (c b : UInt8) : simpleEscape c = some b ↔ Escape c b := by
  constructor
  · intro h
    unfold simpleEscape at h
    repeat' split at h
    all_goals (try (injection h with h; subst_vars; constructor))
    cases h
  · rintro ⟨⟩ <;> rfl

/-! ## Directives -/

theorem flagChar_not_digit {c : UInt8} (h : FlagChar c) (hn : c ≠ 48) : ¬ DecDigit c := by
  unfold DecDigit
  rcases h with rfl | rfl | rfl | rfl | rfl
  · decide
  · exact absurd rfl hn
  · decide
  · decide
  · decide

theorem flags_cons (str : Bytes) (num : Bool) (c : UInt8) (s : Bytes) (h : FlagChar c) :
    flags str num (c :: s) = if c ∈ str then .err "duplicate flag" else flags (str ++ [c]) (num || (c != 45)) s := by
  have hu : flags str num (c :: s) = if c = 35 ∨ c = 48 ∨ c = 43 ∨ c = 32 then
      if c ∈ str then .err "duplicate flag" else flags (str ++ [c]) true s
    else if c = 45 then
      if c ∈ str then .err "duplicate flag" else flags (str ++ [c]) num s
    else .ok (str, num, c :: s) := rfl
  rw [hu]
  by_cases h1 : c = 35 ∨ c = 48 ∨ c = 43 ∨ c = 32
  · rw [if_pos h1]
    have : (num || (c != 45)) = true := by
      rcases h1 with rfl | rfl | rfl | rfl <;> simp
    rw [this]
  · rw [if_neg h1]
    have h2 : c = 45 := by
      rcases h with h | h | h | h | h
      · exact absurd (Or.inl h) h1
      · exact absurd (Or.inr (Or.inl h)) h1
      · exact absurd (Or.inr (Or.inr (Or.inl h))) h1
      · exact absurd (Or.inr (Or.inr (Or.inr h))) h1
      · exact h
    rw [if_pos h2]
    subst h2
    simp

theorem flags_stop (str : Bytes) (num : Bool) (s : Bytes) (h : ∀ c, s.head? = some c → ¬ FlagChar c) :
    flags str num s = .ok (str, num, s) := by
  cases s with
  | nil => rfl
  | cons c s =>
    have hc := h c rfl
    unfold FlagChar at hc
    have hu : flags str num (c :: s) = if c = 35 ∨ c = 48 ∨ c = 43 ∨ c = 32 then
        if c ∈ str then .err "duplicate flag" else flags (str ++ [c]) true s
      else if c = 45 then
        if c ∈ str then .err "duplicate flag" else flags (str ++ [c]) num s
      else .ok (str, num, c :: s) := rfl
    rw [hu, if_neg (fun h => hc (by rcases h with h | h | h | h <;> simp [h])), if_neg (fun h => hc (by simp [h]))]

/-- Flags are read as far as there are any. -/
theorem flags_run (fl : Bytes) : ∀ (str : Bytes) (num : Bool) (s : Bytes), (∀ c ∈ fl, FlagChar c) → fl.Nodup → (∀ c ∈ fl, c ∉ str) →
    (∀ c, s.head? = some c → ¬ FlagChar c) → flags str num (fl ++ s) = .ok (str ++ fl, num || fl.any (· != 45), s) := by
  induction fl with
  | nil => intro str num s _ _ _ h; rw [List.nil_append, flags_stop str num s h]; simp
  | cons c fl ih =>
    intro str num s h1 h2 h3 h4
    rw [List.cons_append, flags_cons str num c _ (h1 c (by simp)), if_neg (h3 c (by simp))]
    rw [ih (str ++ [c]) _ s (fun x hx => h1 x (by simp [hx])) (List.nodup_cons.1 h2).2 ?_ h4]
    · simp [Bool.or_assoc]
    · intro x hx hm
      rcases List.mem_append.1 hm with hm | hm
      · exact h3 x (by simp [hx]) hm
      · have : x = c := by simpa using hm
        subst this
        exact (List.nodup_cons.1 h2).1 hx

theorem flags_spec : ∀ (s str : Bytes) (num : Bool) (str' : Bytes) (num' : Bool) (rest : Bytes), flags str num s = .ok (str', num', rest) →
    ∃ fl, s = fl ++ rest ∧ str' = str ++ fl ∧ num' = (num || fl.any (· != 45)) ∧ (∀ c ∈ fl, FlagChar c) ∧ fl.Nodup ∧ (∀ c ∈ fl, c ∉ str) ∧
      (∀ c, rest.head? = some c → ¬ FlagChar c) := by
  intro s
  induction s with
  | nil =>
    intro str num str' num' rest h
    injection h with h
    injection h with h1 h
    injection h with h2 h3
    subst h1 h2 h3
    exact ⟨[], rfl, by simp, by simp, by simp, by simp, by simp, by simp⟩
  | cons c s ih =>
    intro str num str' num' rest h
    by_cases hc : FlagChar c
    · rw [flags_cons _ _ _ _ hc] at h
      by_cases hm : c ∈ str
      · rw [if_pos hm] at h; cases h
      · rw [if_neg hm] at h
        obtain ⟨fl, h1, h2, h3, h4, h5, h6, h7⟩ := ih _ _ _ _ _ h
        refine ⟨c :: fl, by rw [h1]; rfl, by rw [h2]; simp, by rw [h3]; simp [Bool.or_assoc], ?_, ?_, ?_, h7⟩
        · intro x hx
          rcases List.mem_cons.1 hx with rfl | hx
          · exact hc
          · exact h4 x hx
        · refine List.nodup_cons.2 ⟨fun hx => h6 c hx (by simp), h5⟩
        · intro x hx
          rcases List.mem_cons.1 hx with rfl | hx
          · exact hm
          · exact fun hs => h6 x hx (by simp [hs])
    · have hh : ∀ x, (c :: s).head? = some x → ¬ FlagChar x := by
        intro x hx
        have : c = x := by simpa using hx
        subst this; exact hc
      rw [flags_stop _ _ _ hh] at h
      injection h with h
      injection h with h1 h
      injection h with h2 h3
      subst h1 h2 h3
      exact ⟨[], rfl, by simp, by simp, by simp, by simp, by simp, hh⟩

theorem flags_ne_ub : ∀ (s str : Bytes) (num : Bool), flags str num s ≠ .ub := by
  intro s
  induction s with
  | nil => intro str num h; cases h
  | cons c s ih =>
    intro str num
    by_cases hc : FlagChar c
    · rw [flags_cons _ _ _ _ hc]
      by_cases hm : c ∈ str
      · rw [if_pos hm]; intro h; cases h
      · rw [if_neg hm]; exact ih _ _
    · rw [flags_stop]
      · intro h; cases h
      · intro x hx
        have : c = x := by simpa using hx
        subst this; exact hc

theorem dec_iff (c : UInt8) : (48 ≤ c ∧ c ≤ 57) ↔ DecDigit c := by
  unfold DecDigit
  rw [UInt8.le_iff_toNat_le, UInt8.le_iff_toNat_le]
  exact Iff.rfl

theorem digits_cons (str : Bytes) (c : UInt8) (s : Bytes) : digits str (c :: s) = if 48 ≤ c ∧ c ≤ 57 then digits (str ++ [c]) s else (str, c :: s) := rfl

theorem digits_stop (str s : Bytes) (h : ∀ c, s.head? = some c → ¬ DecDigit c) : digits str s = (str, s) := by
  cases s with
  | nil => rfl
  | cons c s => rw [digits_cons, if_neg (fun hc => h c rfl ((dec_iff c).1 hc))]

theorem digits_run (ds : Bytes) : ∀ (str s : Bytes), (∀ c ∈ ds, DecDigit c) → (∀ c, s.head? = some c → ¬ DecDigit c) → digits str (ds ++ s) = (str ++ ds, s) := by
  induction ds with
  | nil => intro str s _ h; rw [List.nil_append, digits_stop str s h, List.append_nil]
  | cons c ds ih =>
    intro str s h1 h2
    rw [List.cons_append, digits_cons, if_pos ((dec_iff c).2 (h1 c (by simp))), ih _ _ (fun x hx => h1 x (by simp [hx])) h2]
    simp

theorem digits_spec : ∀ (s str : Bytes), ∃ ds rest, s = ds ++ rest ∧ digits str s = (str ++ ds, rest) ∧ (∀ c ∈ ds, DecDigit c) ∧ (∀ c, rest.head? = some c → ¬ DecDigit c) := by
  intro s
  induction s with
  | nil => intro str; exact ⟨[], [], rfl, by simp [digits], by simp, by simp⟩
  | cons c s ih =>
    intro str
    by_cases hc : 48 ≤ c ∧ c ≤ 57
    · obtain ⟨ds, rest, h1, h2, h3, h4⟩ := ih (str ++ [c])
      refine ⟨c :: ds, rest, by rw [h1]; rfl, ?_, ?_, h4⟩
      · rw [digits_cons, if_pos hc, h2]; simp
      · intro x hx
        rcases List.mem_cons.1 hx with rfl | hx
        · exact (dec_iff _).1 hc
        · exact h3 x hx
    · refine ⟨[], c :: s, rfl, by rw [digits_cons, if_neg hc]; simp, by simp, ?_⟩
      intro x hx
      have : c = x := by simpa using hx
      subst this
      exact fun h => hc ((dec_iff _).2 h)

theorem precision_spec (s str : Bytes) : ∃ p rest, s = p ++ rest ∧ precision str s = (str ++ p, rest) ∧ Precision p := by
  cases s with
  | nil => exact ⟨[], [], rfl, by simp [precision], Or.inl rfl⟩
  | cons c s =>
    by_cases hc : c = 46
    · obtain ⟨ds, rest, h1, h2, h3, _⟩ := digits_spec s (str ++ [c])
      refine ⟨c :: ds, rest, by rw [h1]; rfl, ?_, Or.inr ⟨ds, by rw [hc], h3⟩⟩
      show (if c = 46 then digits (str ++ [c]) s else (str, c :: s)) = _
      rw [if_pos hc, h2]; simp
    · refine ⟨[], c :: s, rfl, ?_, Or.inl rfl⟩
      show (if c = 46 then digits (str ++ [c]) s else (str, c :: s)) = _
      rw [if_neg hc]; simp

theorem precision_run (p str s : Bytes) (hp : Precision p) (h : ∀ c, s.head? = some c → ¬ DecDigit c) (h46 : s.head? ≠ some 46) :
    precision str (p ++ s) = (str ++ p, s) := by
  rcases hp with rfl | ⟨ds, rfl, hd⟩
  · cases s with
    | nil => simp [precision]
    | cons c s =>
      show (if c = 46 then digits (str ++ [c]) s else (str, c :: s)) = _
      rw [if_neg (by intro hc; apply h46; rw [hc]; rfl)]; simp
  · have hu : precision str (46 :: ds ++ s) = digits (str ++ [46]) (ds ++ s) := rfl
    rw [hu, digits_run ds _ s hd h]; simp

theorem timeLetter_iff (c : UInt8) : c ∈ timeSpecs ↔ TimeLetter c := by
  unfold TimeLetter
  have : timeSpecs = "%+@aAbBcCdDeFgGhHIjklmMnprRsStTuUVwWxXyYzZ".toList.map (fun x => UInt8.ofNat x.toNat) := by decide
  rw [this]

theorem timeSpec_or (f : Field) (s : Bytes) : (∃ x r, s = x :: r ∧ TimeLetter x ∧ timeSpec f s = .ok (.strftime f x, [115], r)) ∨ ∃ e, timeSpec f s = .err e := by
  cases s with
  | nil => exact Or.inr ⟨_, rfl⟩
  | cons c s =>
    by_cases hc : c ∈ timeSpecs
    · refine Or.inl ⟨c, s, rfl, (timeLetter_iff c).1 hc, ?_⟩
      show (if c ∈ timeSpecs then _ else _) = _
      rw [if_pos hc]
    · exact Or.inr ⟨"unrecognized time specifier", if_neg hc⟩

theorem timeSpec_ok {f : Field} {s : Bytes} {fn : Fn} {spec r : Bytes} (h : timeSpec f s = .ok (fn, spec, r)) :
    ∃ x, s = x :: r ∧ TimeLetter x ∧ fn = .strftime f x ∧ spec = [115] := by
  rcases timeSpec_or f s with ⟨x, r', h1, h2, h3⟩ | ⟨e, he⟩
  · rw [h3] at h
    injection h with h
    injection h with g1 h
    injection h with g2 g3
    subst g1 g2 g3
    exact ⟨x, h1, h2, rfl, rfl⟩
  · rw [he] at h; cases h

theorem timeSpec_run' (f : Field) (x : UInt8) (r s : Bytes) (hs : s = x :: r) (h : TimeLetter x) : timeSpec f s = .ok (.strftime f x, [115], r) := by
  subst hs
  show (if x ∈ timeSpecs then _ else _) = _
  rw [if_pos ((timeLetter_iff x).2 h)]

theorem time_class {env : Env} {t : Bytes} {Q : Prop} {s : Bytes} (h : ∀ x r, s = x :: r → TimeLetter x → Q) (f : Field) (hc : conversion env t = timeSpec f s) : Q ∨ ∃ e, conversion env t = .err e := by
  rcases timeSpec_or f s with ⟨x, r, h1, h2, h3⟩ | ⟨e, h4⟩
  · exact Or.inl (h x r h1 h2)
  · exact Or.inr ⟨e, by rw [hc, h4]⟩

theorem conversion_or (env : Env) (s : Bytes) : (∃ cv r fn spec, s = cv ++ r ∧ Conv env cv fn spec ∧ conversion env s = .ok (fn, spec, r)) ∨ ∃ e, conversion env s = .err e := by
  cases s with
  | nil => exact Or.inr ⟨_, rfl⟩
  | cons c s =>
    by_cases h97 : c = 97
    · subst h97; exact Or.inl ⟨[97], s, _, _, rfl, .a, rfl⟩
    by_cases h98 : c = 98
    · subst h98; exact Or.inl ⟨[98], s, _, _, rfl, .b, rfl⟩
    by_cases h99 : c = 99
    · subst h99; exact Or.inl ⟨[99], s, _, _, rfl, .c, rfl⟩
    by_cases h100 : c = 100
    · subst h100; exact Or.inl ⟨[100], s, _, _, rfl, .d, rfl⟩
    by_cases h68 : c = 68
    · subst h68; exact Or.inl ⟨[68], s, _, _, rfl, .D, rfl⟩
    by_cases h102 : c = 102
    · subst h102; exact Or.inl ⟨[102], s, _, _, rfl, .f, rfl⟩
    by_cases h70 : c = 70
    · subst h70
      by_cases hm : env.mtab = true
      · exact Or.inl ⟨[70], s, _, _, rfl, .F hm, if_pos hm⟩
      · exact Or.inr ⟨_, if_neg hm⟩
    by_cases h103 : c = 103
    · subst h103; exact Or.inl ⟨[103], s, _, _, rfl, .g, rfl⟩
    by_cases h71 : c = 71
    · subst h71; exact Or.inl ⟨[71], s, _, _, rfl, .G, rfl⟩
    by_cases h104 : c = 104
    · subst h104; exact Or.inl ⟨[104], s, _, _, rfl, .h, rfl⟩
    by_cases h72 : c = 72
    · subst h72; exact Or.inl ⟨[72], s, _, _, rfl, .H, rfl⟩
    by_cases h105 : c = 105
    · subst h105; exact Or.inl ⟨[105], s, _, _, rfl, .i, rfl⟩
    by_cases h107 : c = 107
    · subst h107; exact Or.inl ⟨[107], s, _, _, rfl, .k, rfl⟩
    by_cases h108 : c = 108
    · subst h108; exact Or.inl ⟨[108], s, _, _, rfl, .l, rfl⟩
    by_cases h109 : c = 109
    · subst h109; exact Or.inl ⟨[109], s, _, _, rfl, .m, rfl⟩
    by_cases h77 : c = 77
    · subst h77; exact Or.inl ⟨[77], s, _, _, rfl, .M, rfl⟩
    by_cases h110 : c = 110
    · subst h110; exact Or.inl ⟨[110], s, _, _, rfl, .n, rfl⟩
    by_cases h112 : c = 112
    · subst h112; exact Or.inl ⟨[112], s, _, _, rfl, .p, rfl⟩
    by_cases h80 : c = 80
    · subst h80; exact Or.inl ⟨[80], s, _, _, rfl, .P, rfl⟩
    by_cases h115 : c = 115
    · subst h115; exact Or.inl ⟨[115], s, _, _, rfl, .s, rfl⟩
    by_cases h83 : c = 83
    · subst h83; exact Or.inl ⟨[83], s, _, _, rfl, .S, rfl⟩
    by_cases h116 : c = 116
    · subst h116; exact Or.inl ⟨[116], s, _, _, rfl, .t, rfl⟩
    by_cases h117 : c = 117
    · subst h117; exact Or.inl ⟨[117], s, _, _, rfl, .u, rfl⟩
    by_cases h85 : c = 85
    · subst h85; exact Or.inl ⟨[85], s, _, _, rfl, .U, rfl⟩
    by_cases h119 : c = 119
    · subst h119; exact Or.inl ⟨[119], s, _, _, rfl, .w, rfl⟩
    by_cases h121 : c = 121
    · subst h121; exact Or.inl ⟨[121], s, _, _, rfl, .y, rfl⟩
    by_cases h89 : c = 89
    · subst h89; exact Or.inl ⟨[89], s, _, _, rfl, .Y, rfl⟩
    by_cases h90 : c = 90
    · subst h90
      by_cases hm : env.context = true
      · exact Or.inl ⟨[90], s, _, _, rfl, .Z hm, if_pos hm⟩
      · exact Or.inr ⟨_, if_neg hm⟩
    by_cases h65 : c = 65
    · subst h65; exact time_class (fun x r hs hx => ⟨[65, x], r, _, _, by rw [hs]; rfl, .A x hx, timeSpec_run' .atime x r s hs hx⟩) .atime rfl
    by_cases h66 : c = 66
    · subst h66; exact time_class (fun x r hs hx => ⟨[66, x], r, _, _, by rw [hs]; rfl, .B x hx, timeSpec_run' .btime x r s hs hx⟩) .btime rfl
    by_cases h87 : c = 87
    · subst h87; exact time_class (fun x r hs hx => ⟨[87, x], r, _, _, by rw [hs]; rfl, .W x hx, timeSpec_run' .btime x r s hs hx⟩) .btime rfl
    by_cases h67 : c = 67
    · subst h67; exact time_class (fun x r hs hx => ⟨[67, x], r, _, _, by rw [hs]; rfl, .C x hx, timeSpec_run' .ctime x r s hs hx⟩) .ctime rfl
    by_cases h84 : c = 84
    · subst h84; exact time_class (fun x r hs hx => ⟨[84, x], r, _, _, by rw [hs]; rfl, .T x hx, timeSpec_run' .mtime x r s hs hx⟩) .mtime rfl
    refine Or.inr ⟨"unrecognized format specifier", ?_⟩
    unfold conversion
    dsimp only
    rw [if_neg h97, if_neg h98, if_neg h99, if_neg h100, if_neg h68, if_neg h102, if_neg h70, if_neg h103, if_neg h71, if_neg h104, if_neg h72, if_neg h105, if_neg h107, if_neg h108, if_neg h109, if_neg h77, if_neg h110, if_neg h112, if_neg h80, if_neg h115, if_neg h83, if_neg h116, if_neg h117, if_neg h85, if_neg h119, if_neg h121, if_neg h89, if_neg h90, if_neg h65, if_neg (show ¬ (c = 66 ∨ c = 87) from fun h => h.elim h66 h87), if_neg h67, if_neg h84]

theorem timeSpec_run (f : Field) (x : UInt8) (s : Bytes) (h : TimeLetter x) : timeSpec f (x :: s) = .ok (.strftime f x, [115], s) := by
  show (if x ∈ timeSpecs then _ else _) = _
  rw [if_pos ((timeLetter_iff x).2 h)]

theorem conversion_run {env : Env} {cv : Bytes} {fn : Fn} {spec : Bytes} (h : Conv env cv fn spec) (s : Bytes) : conversion env (cv ++ s) = .ok (fn, spec, s) := by
  cases h with
  | A x hx => exact timeSpec_run .atime x s hx
  | B x hx => exact timeSpec_run .btime x s hx
  | W x hx => exact timeSpec_run .btime x s hx
  | C x hx => exact timeSpec_run .ctime x s hx
  | T x hx => exact timeSpec_run .mtime x s hx
  | F hx => show (if env.mtab = true then _ else _) = _; rw [if_pos hx]; rfl
  | Z hx => show (if env.context = true then _ else _) = _; rw [if_pos hx]; rfl
  | _ => rfl

/-- Conversions begin with letters. -/
theorem Conv.head {env : Env} {cv : Bytes} {fn : Fn} {spec : Bytes} (h : Conv env cv fn spec) :
    ∃ c r, cv = c :: r ∧ ¬ FlagChar c ∧ ¬ DecDigit c ∧ c ≠ 46 ∧ c ≠ 37 := by
  cases h <;> exact ⟨_, _, rfl, by unfold FlagChar; decide, by unfold DecDigit; decide, by decide, by decide⟩

theorem head_not {cv s : Bytes} {c : UInt8} {r : Bytes} (h : cv = c :: r) {P : UInt8 → Prop} (hc : ¬ P c) : ∀ x, (cv ++ s).head? = some x → ¬ P x := by
  subst h
  intro x hx
  have : c = x := by simpa using hx
  subst this; exact hc

theorem any_flags (fl : Bytes) : fl.any (· != 45) = false ↔ ∀ c ∈ fl, c = 45 := by
  induction fl with
  | nil => simp
  | cons c fl ih => simp only [List.any_cons, Bool.or_eq_false_iff, ih, List.forall_mem_cons]; simp

/-- A directive of the grammar is read. -/
theorem directive_run {env : Env} {text : Bytes} {fn : Fn} {str : Bytes} (h : Directive env text fn str) (s : Bytes) :
    directive env (text ++ s) = .ok (.dir fn str, s) ∧ (text ++ s).head? ≠ some 37 := by
  obtain ⟨fl, w, p, cv, spec, rfl, hf, hw, hp, hc, hn, rfl⟩ := h
  obtain ⟨c, r, hcv, h1, h2, h3, h4⟩ := hc.head
  have hpd : ∀ x, (p ++ (cv ++ s)).head? = some x → ¬ DecDigit x := by
    rcases hp with rfl | ⟨ds, rfl, _⟩
    · exact head_not hcv h2
    · intro x hx
      have : (46 : UInt8) = x := by simpa using hx
      subst this; unfold DecDigit; decide
  have hpf : ∀ x, (p ++ (cv ++ s)).head? = some x → ¬ FlagChar x ∧ x ≠ 37 := by
    rcases hp with rfl | ⟨ds, rfl, _⟩
    · intro x hx; exact ⟨head_not hcv h1 x hx, head_not (P := fun x => x = 37) hcv h4 x hx⟩
    · intro x hx
      have : (46 : UInt8) = x := by simpa using hx
      subst this; unfold FlagChar; decide
  have hwf : ∀ x, (w ++ (p ++ (cv ++ s))).head? = some x → ¬ FlagChar x ∧ x ≠ 37 := by
    cases w with
    | nil => exact hpf
    | cons d w =>
      intro x hx
      have : d = x := by simpa using hx
      subst this
      have hd := hw.1 d (by simp)
      have h0 : d ≠ 48 := fun h => hw.2 (by rw [h]; rfl)
      refine ⟨fun hfl => flagChar_not_digit hfl h0 hd, ?_⟩
      rintro rfl
      unfold DecDigit at hd
      revert hd; decide
  constructor
  · unfold directive
    have hfr := flags_run fl [37] false (w ++ (p ++ (cv ++ s))) hf.1 hf.2 (by
      intro x hx hm
      have : x = 37 := by simpa using hm
      subst this
      have := hf.1 37 hx
      unfold FlagChar at this
      revert this; decide) (fun x hx => (hwf x hx).1)
    have he : fl ++ w ++ p ++ cv ++ s = fl ++ (w ++ (p ++ (cv ++ s))) := by simp
    rw [he, hfr]
    dsimp only
    unfold finish
    rw [digits_run w _ _ hw.1 hpd]
    dsimp only
    rw [precision_run p _ _ hp (head_not hcv h2) (by
      rw [hcv]
      intro h
      have : c = 46 := by simpa using h
      exact h3 this)]
    dsimp only
    rw [conversion_run hc s]
    dsimp only
    rw [if_neg]
    · simp
    · rintro ⟨ha, hs⟩
      have := (any_flags fl).2 (hn hs)
      rw [this] at ha
      revert ha; decide
  · have he : fl ++ w ++ p ++ cv ++ s = fl ++ (w ++ (p ++ (cv ++ s))) := by simp
    rw [he]
    cases fl with
    | nil => intro h; exact (hwf 37 h).2 rfl
    | cons x fl =>
      intro h
      have : x = 37 := by simpa using h
      subst this
      have := hf.1 37 (by simp)
      unfold FlagChar at this
      revert this; decide

theorem finish_or (env : Env) (str : Bytes) (num : Bool) (s : Bytes) (hs : ∀ c, s.head? = some c → ¬ FlagChar c) :
    (∃ w p cv spec fn r, s = w ++ p ++ cv ++ r ∧ Width w ∧ Precision p ∧ Conv env cv fn spec ∧ ¬ (num = true ∧ spec = [115]) ∧
      finish env str num s = .ok (.dir fn (str ++ w ++ p ++ spec), r)) ∨ ∃ e, finish env str num s = .err e := by
  obtain ⟨w, s1, h1, h2, h3, _⟩ := digits_spec s str
  obtain ⟨p, s2, h4, h5, h6⟩ := precision_spec s1 (str ++ w)
  unfold finish
  rw [h2]
  dsimp only
  rw [h5]
  dsimp only
  rcases conversion_or env s2 with ⟨cv, r, fn, spec, h7, h8, h9⟩ | ⟨e, he⟩
  · rw [h9]
    dsimp only
    by_cases hn : num = true ∧ spec = [115]
    · right; rw [if_pos hn]; exact ⟨_, rfl⟩
    · left
      refine ⟨w, p, cv, spec, fn, r, ?_, ⟨h3, ?_⟩, h6, h8, hn, by rw [if_neg hn]⟩
      · rw [h1, h4, h7]; simp
      · intro hw
        apply hs 48
        · rw [h1]
          cases w with
          | nil => cases hw
          | cons x w => simpa using hw
        · unfold FlagChar; decide
  · right; rw [he]; exact ⟨e, rfl⟩

theorem directive_or (env : Env) (s : Bytes) :
    (∃ text fn str r, s = text ++ r ∧ Directive env text fn str ∧ directive env s = .ok (.dir fn str, r)) ∨ ∃ e, directive env s = .err e := by
  unfold directive
  cases hf : flags [37] false s with
  | ub => exact absurd hf (flags_ne_ub _ _ _)
  | err e => exact Or.inr ⟨e, rfl⟩
  | ok v =>
    obtain ⟨str, num, rest⟩ := v
    obtain ⟨fl, h1, h2, h3, h4, h5, _, h7⟩ := flags_spec _ _ _ _ _ _ hf
    dsimp only
    rcases finish_or env str num rest h7 with ⟨w, p, cv, spec, fn, r, g1, g2, g3, g4, g5, g6⟩ | ⟨e, he⟩
    · left
      refine ⟨fl ++ w ++ p ++ cv, fn, str ++ w ++ p ++ spec, r, by rw [h1, g1]; simp, ⟨fl, w, p, cv, spec, rfl, ⟨h4, h5⟩, g2, g3, g4, ?_, by rw [h2]; simp⟩, g6⟩
      intro hs
      refine (any_flags fl).1 ?_
      rw [h3] at g5
      cases ha : fl.any (· != 45) with
      | false => rfl
      | true => exact absurd ⟨by rw [ha]; rfl, hs⟩ g5
    · exact Or.inr ⟨e, he⟩

/-! ## The loop -/

/-- What one round means. -/
inductive StepOk (env : Env) (c : UInt8) (s : Bytes) : Step → Prop
  | byte (b : UInt8) (rest : Bytes) : rest.length ≤ s.length → (∀ es, Format env rest es → Format env (c :: s) (.byte b :: es)) → StepOk env c s (.byte b rest)
  | fmt (fn : Fn) (str rest : Bytes) : rest.length ≤ s.length → (∀ es, Format env rest es → Format env (c :: s) (.dir fn str :: es)) → StepOk env c s (.fmt (.dir fn str) rest)
  | stop : Format env (c :: s) [.flush] → StepOk env c s .stop
  | fail (e : String) : StepOk env c s (.fail e)

theorem step_ok (env : Env) (c : UInt8) (s : Bytes) : StepOk env c s (step env c s) := by
  unfold step
  by_cases h1 : c = 92
  · rw [if_pos h1]
    subst h1
    cases s with
    | nil => exact .fail _
    | cons c s =>
      unfold escape
      dsimp only
      by_cases ho : isOct c = true
      · rw [if_pos ho]
        obtain ⟨ds, rest, g1, g2, g3, g4, g5⟩ := octal_spec 3 0 (c :: s)
        have g2' : octal 3 0 (c :: s) = (UInt8.ofNat (octFrom 0 ds), rest) := g2
        rw [g2']
        refine .byte _ _ ?_ fun es he => ?_
        · dsimp only
          have := congrArg List.length g1
          rw [List.length_append] at this
          omega
        · rw [g1]
          refine .octal ds rest es ?_ g3 g4 g5 he
          rintro rfl
          rcases g5 with g5 | g5
          · cases g5
          · rw [List.nil_append] at g1
            exact g5 c (by rw [← g1]; rfl) ((isOct_iff c).1 ho)
      · rw [if_neg ho]
        cases he : simpleEscape c with
        | some b =>
          refine .byte _ _ (by simp) fun es h => .escape c b s es ((simpleEscape_iff c b).1 he) h
        | none =>
          dsimp only
          by_cases hc : c = 99
          · rw [if_pos hc]; subst hc; exact .stop (.stop s)
          · rw [if_neg hc]; exact .fail _
  · rw [if_neg h1]
    by_cases h2 : c = 37
    · rw [if_pos h2]
      subst h2
      unfold percent
      by_cases h3 : s.head? = some 37
      · rw [if_pos h3]
        cases s with
        | nil => cases h3
        | cons x s =>
          have : x = 37 := by simpa using h3
          subst this
          exact .byte _ _ (by simp) fun es h => .percent s es h
      · rw [if_neg h3]
        rcases directive_or env s with ⟨text, fn, str, r, g1, g2, g3⟩ | ⟨e, he⟩
        · rw [g3]
          refine .fmt _ _ _ ?_ fun es h => ?_
          · rw [g1]; simp
          · rw [g1]; exact .dir text r es fn str g2 h
        · rw [he]; exact .fail _
    · rw [if_neg h2]
      exact .byte _ _ (Nat.le_refl _) fun es h => .plain c s es h1 h2 h

theorem elems_append (a b : List Fmt) : elems (a ++ b) = elems a ++ elems b := by
  induction a with
  | nil => rfl
  | cons x a ih => cases x <;> simp [elems, ih]

theorem elems_literal (fmts : List Fmt) (l : Bytes) : elems (appendLiteral fmts l) = elems fmts ++ l.map .byte := by
  unfold appendLiteral
  by_cases h : l.length = 0
  · rw [if_pos h, List.length_eq_zero_iff.1 h]; simp
  · rw [if_neg h, elems_append]; simp [elems]

/-- If parsing succeeds, the string is a format. -/
theorem loop_sound (env : Env) : ∀ (n : Nat) (fmts : List Fmt) (l s : Bytes), s.length ≤ n →
    (∃ out es, loop env n fmts l s = .ok out ∧ Format env s es ∧ elems out = elems fmts ++ l.map .byte ++ es) ∨ ∃ e, loop env n fmts l s = .err e := by
  intro n
  induction n with
  | zero =>
    intro fmts l s hs
    cases s with
    | nil => exact Or.inl ⟨_, [], rfl, .done, by rw [elems_literal, List.append_nil]⟩
    | cons c s => simp at hs
  | succ n ih =>
    intro fmts l s hs
    cases s with
    | nil => exact Or.inl ⟨_, [], rfl, .done, by rw [elems_literal, List.append_nil]⟩
    | cons c s =>
      have hl : s.length ≤ n := by simpa using hs
      have hst := step_ok env c s
      unfold loop
      cases hst' : step env c s with
      | byte b rest =>
        rw [hst'] at hst
        cases hst with
        | byte _ _ h1 h2 =>
          rcases ih fmts (l ++ [b]) rest (by omega) with ⟨out, es, g1, g2, g3⟩ | ⟨e, he⟩
          · exact Or.inl ⟨out, _, g1, h2 es g2, by rw [g3]; simp⟩
          · exact Or.inr ⟨e, he⟩
      | fmt f rest =>
        rw [hst'] at hst
        cases hst with
        | fmt fn str _ h1 h2 =>
          rcases ih (appendDirective fmts l (.dir fn str)) [] rest (by omega) with ⟨out, es, g1, g2, g3⟩ | ⟨e, he⟩
          · refine Or.inl ⟨out, _, g1, h2 es g2, ?_⟩
            rw [g3]; unfold appendDirective; rw [elems_append, elems_literal]; simp [elems]
          · exact Or.inr ⟨e, he⟩
      | stop =>
        rw [hst'] at hst
        cases hst with
        | stop h =>
          refine Or.inl ⟨_, _, rfl, h, ?_⟩
          rw [elems_literal]; unfold appendDirective; rw [elems_append, elems_literal]; simp [elems]
      | fail e => exact Or.inr ⟨e, rfl⟩
      | bad => rw [hst'] at hst; cases hst

/-- One round, on a string of the grammar. -/
theorem loop_complete {env : Env} {s : Bytes} {es : List Elem} (h : Format env s es) : ∀ (n : Nat) (fmts : List Fmt) (l : Bytes), s.length ≤ n →
    ∃ out, loop env n fmts l s = .ok out ∧ elems out = elems fmts ++ l.map .byte ++ es := by
  induction h with
  | done =>
    intro n fmts l _
    exact ⟨appendLiteral fmts l, by unfold loop; cases n <;> rfl, by rw [elems_literal, List.append_nil]⟩
  | plain c s es h1 h2 _ ih =>
    intro n fmts l hn
    cases n with
    | zero => simp at hn
    | succ n =>
      obtain ⟨out, g1, g2⟩ := ih n fmts (l ++ [c]) (by simpa using hn)
      refine ⟨out, ?_, by rw [g2]; simp⟩
      have : step env c s = .byte c s := by unfold step; rw [if_neg h1, if_neg h2]
      unfold loop; rw [this]; exact g1
  | escape c b s es he _ ih =>
    intro n fmts l hn
    cases n with
    | zero => simp at hn
    | succ n =>
      obtain ⟨out, g1, g2⟩ := ih n fmts (l ++ [b]) (by simp at hn; omega)
      refine ⟨out, ?_, by rw [g2]; simp⟩
      have : step env 92 (c :: s) = .byte b s := by cases he <;> rfl
      unfold loop; rw [this]; exact g1
  | octal ds s es h1 h2 h3 h4 _ ih =>
    intro n fmts l hn
    cases n with
    | zero => simp at hn
    | succ n =>
      obtain ⟨out, g1, g2⟩ := ih n fmts (l ++ [UInt8.ofNat (octValue ds)]) (by simp at hn; omega)
      refine ⟨out, ?_, by rw [g2]; simp⟩
      have : step env 92 (ds ++ s) = .byte (UInt8.ofNat (octValue ds)) s := by
        cases ds with
        | nil => exact absurd rfl h1
        | cons c ds =>
          show escape (c :: (ds ++ s)) = _
          unfold escape
          dsimp only
          rw [if_pos ((isOct_iff c).2 (h3 c (by simp)))]
          have := octal_run (c :: ds) 3 0 s h2 h3 h4
          have h' : octal 3 0 (c :: (ds ++ s)) = (UInt8.ofNat (octFrom 0 (c :: ds)), s) := this
          rw [h']; rfl
      unfold loop; rw [this]; exact g1
  | stop s =>
    intro n fmts l hn
    cases n with
    | zero => simp at hn
    | succ n =>
      refine ⟨_, rfl, ?_⟩
      rw [elems_literal]; unfold appendDirective; rw [elems_append, elems_literal]; simp [elems]
  | percent s es _ ih =>
    intro n fmts l hn
    cases n with
    | zero => simp at hn
    | succ n =>
      obtain ⟨out, g1, g2⟩ := ih n fmts (l ++ [37]) (by simp at hn; omega)
      exact ⟨out, g1, by rw [g2]; simp⟩
  | dir text s es fn str hd _ ih =>
    intro n fmts l hn
    cases n with
    | zero => simp at hn
    | succ n =>
      obtain ⟨out, g1, g2⟩ := ih n (appendDirective fmts l (.dir fn str)) [] (by simp at hn; omega)
      obtain ⟨h1, h2⟩ := directive_run hd s
      refine ⟨out, ?_, ?_⟩
      · have : step env 37 (text ++ s) = .fmt (.dir fn str) s := by
          show percent env (text ++ s) = _
          unfold percent
          rw [if_neg h2, h1]
        unfold loop; rw [this]; exact g1
      · rw [g2]; unfold appendDirective; rw [elems_append, elems_literal]; simp [elems]

/-! ## Printing -/

theorem printf_cons (run : Fmt → Effect) (f : Fmt) (fs : List Fmt) (out : Bytes) (ret : Int) (err : Nat) :
    printf run (f :: fs) (out, ret, err) =
      printf run fs (out ++ (run f).bytes, if (run f).error = none then ret else -1, (run f).error.getD err) := by
  rw [printf]
  cases h : (run f).error <;> simp

theorem printf_bytes (run : Fmt → Effect) (fs : List Fmt) : ∀ (out : Bytes) (ret : Int) (err : Nat),
    (printf run fs (out, ret, err)).1 = out ++ (fs.map fun f => (run f).bytes).flatten := by
  induction fs with
  | nil => intro out ret err; simp [printf]
  | cons f fs ih => intro out ret err; rw [printf_cons, ih]; simp

theorem printf_ret (run : Fmt → Effect) (fs : List Fmt) : ∀ (out : Bytes) (ret : Int) (err : Nat),
    (printf run fs (out, ret, err)).2 =
      (if ∃ f ∈ fs, (run f).error ≠ none then -1 else ret, ((fs.filterMap fun f => (run f).error).getLast?).getD err) := by
  induction fs with
  | nil => intro out ret err; simp [printf]
  | cons f fs ih =>
    intro out ret err
    rw [printf_cons, ih]
    cases h : (run f).error with
    | none => simp [h]
    | some e =>
      have h1 : ∃ g ∈ f :: fs, (run g).error ≠ none := ⟨f, by simp, by rw [h]; simp⟩
      rw [if_pos h1]
      refine Prod.ext ?_ ?_
      · by_cases h2 : ∃ g ∈ fs, (run g).error ≠ none
        · dsimp only; rw [if_pos h2]
        · dsimp only; rw [if_neg h2]; simp
      · dsimp only
        rw [List.filterMap_cons, h]
        dsimp only
        rw [List.getLast?_cons]
        simp

end Verif.Printf
