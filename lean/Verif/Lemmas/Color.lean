import Verif.Spec.Color
/-! Lemmas about the escapes in `$LS_COLORS`. -/
namespace Verif.Color

theorem shift_or (k : Nat) (hk : k = 3 ∨ k = 4) (n : Nat) (d : UInt8) (hd : d.toNat < 2 ^ k) :
    (UInt8.ofNat n <<< UInt8.ofNat k) ||| d = UInt8.ofNat (2 ^ k * n + d.toNat) := by
  apply UInt8.toNat_inj.1
  rw [UInt8.toNat_or, UInt8.toNat_shiftLeft]
  simp only [UInt8.toNat_ofNat']
  have h : ((n % 2 ^ 8) <<< (k % 2 ^ 8 % 8)) % 2 ^ 8 = (n % 2 ^ (8 - k)) <<< k := by
    rcases hk with rfl | rfl
    · have e : 2 ^ (3 % 2 ^ 8 % 8) = 8 := by decide
      simp only [Nat.shiftLeft_eq, e]; omega
    · have e : 2 ^ (4 % 2 ^ 8 % 8) = 16 := by decide
      simp only [Nat.shiftLeft_eq, e]; omega
  rw [h, ← Nat.shiftLeft_add_eq_or_of_lt hd, Nat.shiftLeft_eq]
  rcases hk with rfl | rfl
  · omega
  · omega

/-! ## Octal -/

theorem isOct_iff (c : UInt8) : isOct c = true ↔ OctDigit c := by
  unfold isOct OctDigit
  simp only [Bool.and_eq_true, decide_eq_true_eq, UInt8.le_iff_toNat_le]
  exact Iff.rfl

def octFrom (n : Nat) (ds : Bytes) : Nat := ds.foldl (fun n c => 8 * n + (c.toNat - 48)) n

theorem oct_step (n : Nat) (x : UInt8) (h : OctDigit x) : (UInt8.ofNat n <<< 3) ||| (x - 48) = UInt8.ofNat (8 * n + (x.toNat - 48)) := by
  unfold OctDigit at h
  have h48 : (x - 48).toNat = x.toNat - 48 := by
    rw [UInt8.toNat_sub_of_le]
    · rfl
    · rw [UInt8.le_iff_toNat_le]; exact h.1
  have := shift_or 3 (Or.inl rfl) n (x - 48) (by rw [h48]; omega)
  rw [h48] at this
  exact this

theorem octal_spec : ∀ (s : Bytes) (n : Nat) (x : UInt8), OctDigit x → ∃ ds rest, s = ds ++ rest ∧ (∀ c ∈ ds, OctDigit c) ∧ (∀ c, rest.head? = some c → ¬ OctDigit c) ∧
    octal (UInt8.ofNat n) x s = (UInt8.ofNat (octFrom n (x :: ds)), rest) := by
  intro s
  induction s with
  | nil =>
    intro n x hx
    exact ⟨[], [], rfl, by simp, by simp, by rw [octal, oct_step n x hx]; rfl⟩
  | cons y s ih =>
    intro n x hx
    rw [octal]
    by_cases hy : isOct y = true
    · have hy' := (isOct_iff y).1 hy
      obtain ⟨ds, rest, h1, h2, h3, h4⟩ := ih (8 * n + (x.toNat - 48)) y hy'
      refine ⟨y :: ds, rest, by rw [h1]; rfl, ?_, h3, ?_⟩
      · intro c hc
        rcases List.mem_cons.1 hc with rfl | hc
        · exact hy'
        · exact h2 c hc
      · rw [if_pos hy, oct_step n x hx, h4]; rfl
    · refine ⟨[], y :: s, rfl, by simp, ?_, by rw [if_neg hy, oct_step n x hx]; rfl⟩
      intro c hc
      have : y = c := by simpa using hc
      subst this
      exact fun h => hy ((isOct_iff y).2 h)

theorem octal_run : ∀ (ds : Bytes) (n : Nat) (x : UInt8) (rest : Bytes), OctDigit x → (∀ c ∈ ds, OctDigit c) → (∀ c, rest.head? = some c → ¬ OctDigit c) →
    octal (UInt8.ofNat n) x (ds ++ rest) = (UInt8.ofNat (octFrom n (x :: ds)), rest) := by
  intro ds
  induction ds with
  | nil =>
    intro n x rest hx _ hr
    cases rest with
    | nil => rw [List.nil_append, octal, oct_step n x hx]; rfl
    | cons y s =>
      rw [List.nil_append, octal, if_neg (fun h => hr y rfl ((isOct_iff y).1 h)), oct_step n x hx]; rfl
  | cons y ds ih =>
    intro n x rest hx hd hr
    have hy := hd y (by simp)
    rw [List.cons_append, octal, if_pos ((isOct_iff y).2 hy), oct_step n x hx, ih _ y rest hy (fun c hc => hd c (by simp [hc])) hr]; rfl

/-! ## Hexadecimal -/

theorem hexDigit_some {c d : UInt8} (h : hexDigit c = some d) : HexDigit c d.toNat := by
  unfold hexDigit at h
  unfold HexDigit
  simp only [UInt8.le_iff_toNat_le] at h
  have e48 : (48 : UInt8).toNat = 48 := rfl
  have e57 : (57 : UInt8).toNat = 57 := rfl
  have e65 : (65 : UInt8).toNat = 65 := rfl
  have e70 : (70 : UInt8).toNat = 70 := rfl
  have e97 : (97 : UInt8).toNat = 97 := rfl
  have e102 : (102 : UInt8).toNat = 102 := rfl
  have e10 : (10 : UInt8).toNat = 10 := rfl
  rw [e48, e57, e65, e70, e97, e102] at h
  by_cases h1 : 48 ≤ c.toNat ∧ c.toNat ≤ 57
  · rw [if_pos h1] at h
    injection h with h
    subst h
    left
    rw [UInt8.toNat_sub_of_le _ _ (by rw [UInt8.le_iff_toNat_le, e48]; exact h1.1), e48]
    exact ⟨h1.1, h1.2, rfl⟩
  · rw [if_neg h1] at h
    by_cases h2 : 65 ≤ c.toNat ∧ c.toNat ≤ 70
    · rw [if_pos h2] at h
      injection h with h
      subst h
      right; left
      refine ⟨h2.1, h2.2, ?_⟩
      rw [UInt8.toNat_add, UInt8.toNat_sub_of_le _ _ (by rw [UInt8.le_iff_toNat_le, e65]; exact h2.1), e65, e10]
      omega
    · rw [if_neg h2] at h
      by_cases h3 : 97 ≤ c.toNat ∧ c.toNat ≤ 102
      · rw [if_pos h3] at h
        injection h with h
        subst h
        right; right
        refine ⟨h3.1, h3.2, ?_⟩
        rw [UInt8.toNat_add, UInt8.toNat_sub_of_le _ _ (by rw [UInt8.le_iff_toNat_le, e97]; exact h3.1), e97, e10]
        omega
      · rw [if_neg h3] at h; cases h

theorem HexDigit.unique {c : UInt8} {a b : Nat} (h : HexDigit c a) (h' : HexDigit c b) : a = b := by
  unfold HexDigit at h h'; omega

theorem HexDigit.lt {c : UInt8} {a : Nat} (h : HexDigit c a) : a < 16 := by
  unfold HexDigit at h; omega

theorem hexDigit_of {c : UInt8} {n : Nat} (h : HexDigit c n) : ∃ d, hexDigit c = some d ∧ d.toNat = n := by
  cases hd : hexDigit c with
  | some d => exact ⟨d, rfl, (hexDigit_some hd).unique h⟩
  | none =>
    exfalso
    unfold hexDigit at hd
    simp only [UInt8.le_iff_toNat_le] at hd
    have e48 : (48 : UInt8).toNat = 48 := rfl
    have e57 : (57 : UInt8).toNat = 57 := rfl
    have e65 : (65 : UInt8).toNat = 65 := rfl
    have e70 : (70 : UInt8).toNat = 70 := rfl
    have e97 : (97 : UInt8).toNat = 97 := rfl
    have e102 : (102 : UInt8).toNat = 102 := rfl
    rw [e48, e57, e65, e70, e97, e102] at hd
    unfold HexDigit at h
    rcases h with ⟨h1, h2, _⟩ | ⟨h1, h2, _⟩ | ⟨h1, h2, _⟩
    · rw [if_pos ⟨h1, h2⟩] at hd; cases hd
    · rw [if_neg (by omega), if_pos ⟨h1, h2⟩] at hd; cases hd
    · rw [if_neg (by omega), if_neg (by omega), if_pos ⟨h1, h2⟩] at hd; cases hd

theorem hex_step (n : Nat) (d : UInt8) (h : d.toNat < 16) : (UInt8.ofNat n <<< 4) ||| d = UInt8.ofNat (16 * n + d.toNat) :=
  shift_or 4 (Or.inr rfl) n d h

theorem hex_cons (c x : UInt8) (s : Bytes) : hex c (x :: s) = match hexDigit x with
    | some d => hex ((c <<< 4) ||| d) s
    | none => (c, x :: s) := rfl

theorem hex_spec : ∀ (s pre : Bytes) (n : Nat), HexNumber pre n → ∃ ds m rest, s = ds ++ rest ∧ HexNumber (pre ++ ds) m ∧
    hex (UInt8.ofNat n) s = (UInt8.ofNat m, rest) ∧ (∀ c d, rest.head? = some c → ¬ HexDigit c d) := by
  intro s
  induction s with
  | nil => intro pre n hp; exact ⟨[], n, [], rfl, by rw [List.append_nil]; exact hp, rfl, by simp⟩
  | cons x s ih =>
    intro pre n hp
    rw [hex_cons]
    cases hd : hexDigit x with
    | some d =>
      have h := hexDigit_some hd
      obtain ⟨ds, m, rest, h1, h2, h3, h4⟩ := ih (pre ++ [x]) (16 * n + d.toNat) (.more pre n x _ hp h)
      refine ⟨x :: ds, m, rest, by rw [h1]; rfl, ?_, ?_, h4⟩
      · rw [List.append_assoc] at h2; exact h2
      · dsimp only; rw [hex_step n d h.lt, h3]
    | none =>
      refine ⟨[], n, x :: s, rfl, by rw [List.append_nil]; exact hp, rfl, ?_⟩
      intro c d hc hh
      have : x = c := by simpa using hc
      subst this
      obtain ⟨d', h', _⟩ := hexDigit_of hh
      rw [hd] at h'; cases h'

theorem hex_digits {ds : Bytes} {n : Nat} (h : HexNumber ds n) : ∀ s, hex 0 (ds ++ s) = hex (UInt8.ofNat n) s := by
  induction h with
  | none => intro s; rfl
  | more ds n c d _ hd ih =>
    intro s
    rw [List.append_assoc, ih, List.singleton_append, hex_cons]
    obtain ⟨d', h1, h2⟩ := hexDigit_of hd
    rw [h1]
    dsimp only
    rw [hex_step n d' (by rw [h2]; exact hd.lt), h2]

theorem hex_stop (n : UInt8) (s : Bytes) (h : ∀ c d, s.head? = some c → ¬ HexDigit c d) : hex n s = (n, s) := by
  cases s with
  | nil => rfl
  | cons x s =>
    rw [hex_cons]
    cases hd : hexDigit x with
    | some d => exact absurd (hexDigit_some hd) (h x _ rfl)
    | none => rfl

/-! ## Items -/

theorem letter_iff (c b : UInt8) : letter c = some b ↔ Letter c b := by
  constructor
  · intro h
    unfold letter at h
    repeat' split at h
    all_goals (try (injection h with h; subst_vars; constructor))
    cases h
  · rintro ⟨⟩ <;> rfl

theorem octFrom_zero (ds : Bytes) : octFrom 0 ds = octValue ds := rfl

theorem item_sound {c : UInt8} {s : Bytes} {b : UInt8} {rest : Bytes} (h : unescape1 c s = some (b, rest)) :
    ∃ t, c :: s = (c :: t) ++ rest ∧ Item (c :: t) b rest := by
  unfold unescape1 at h
  by_cases h1 : c = 92
  · rw [if_pos h1] at h
    subst h1
    cases s with
    | nil => cases h
    | cons x s =>
      unfold backslash at h
      dsimp only at h
      cases hl : letter x with
      | some y =>
        rw [hl] at h
        injection h with h
        injection h with h2 h3
        subst h2 h3
        exact ⟨[x], rfl, .letter x y s ((letter_iff x y).1 hl)⟩
      | none =>
        rw [hl] at h
        dsimp only at h
        have hnl : ∀ y, ¬ Letter x y := by
          intro y hy
          rw [(letter_iff x y).2 hy] at hl; cases hl
        by_cases ho : isOct x = true
        · rw [if_pos ho] at h
          have ho' := (isOct_iff x).1 ho
          obtain ⟨ds, r, g1, g2, g3, g4⟩ := octal_spec s 0 x ho'
          have g4' : octal 0 x s = (UInt8.ofNat (octFrom 0 (x :: ds)), r) := g4
          rw [g4'] at h
          injection h with h
          injection h with h2 h3
          subst h2 h3
          refine ⟨x :: ds, by rw [g1]; simp, .octal (x :: ds) r (by simp) ?_ g3⟩
          intro c hc
          rcases List.mem_cons.1 hc with rfl | hc
          · exact ho'
          · exact g2 c hc
        · rw [if_neg ho] at h
          by_cases hx : x = 88 ∨ x = 120
          · rw [if_pos hx] at h
            obtain ⟨ds, m, r, g1, g2, g3, g4⟩ := hex_spec s [] 0 .none
            have g3' : hex 0 s = (UInt8.ofNat m, r) := g3
            rw [g3'] at h
            injection h with h
            injection h with h2 h3
            subst h2 h3
            exact ⟨x :: ds, by rw [g1]; simp, .hex x ds r m (hx.symm) g2 g4⟩
          · rw [if_neg hx] at h
            injection h with h
            injection h with h2 h3
            subst h2 h3
            exact ⟨[x], rfl, .other x s hnl (fun h => ho ((isOct_iff x).2 h)) (fun h => hx (Or.inr h)) (fun h => hx (Or.inl h))⟩
  · rw [if_neg h1] at h
    by_cases h2 : c = 94
    · rw [if_pos h2] at h
      subst h2
      cases s with
      | nil => cases h
      | cons x s =>
        unfold caret at h
        dsimp only at h
        by_cases hx : x = 63
        · rw [if_pos hx] at h
          injection h with h
          injection h with h2 h3
          subst h2 h3 hx
          exact ⟨[63], rfl, .delete s⟩
        · rw [if_neg hx] at h
          injection h with h
          injection h with h2 h3
          subst h3
          have e : UInt8.ofNat (x.toNat % 32) = b := by
            rw [← h2]
            apply UInt8.toNat_inj.1
            rw [UInt8.toNat_and]
            simp only [UInt8.toNat_ofNat']
            have : (31 : UInt8).toNat = 2 ^ 5 - 1 := rfl
            rw [this, Nat.and_two_pow_sub_one_eq_mod]
            have := x.toNat_lt
            omega
          rw [← e]
          exact ⟨[x], rfl, .control x s hx⟩
    · rw [if_neg h2] at h
      injection h with h
      injection h with h3 h4
      subst h3 h4
      exact ⟨[], rfl, .plain c s h1 h2⟩

theorem item_complete {t : Bytes} {b : UInt8} {rest : Bytes} (h : Item t b rest) :
    ∃ c s, t ++ rest = c :: s ∧ t.head? = some c ∧ rest.length ≤ s.length ∧ unescape1 c s = some (b, rest) := by
  cases h with
  | plain c _ h1 h2 =>
    refine ⟨b, rest, rfl, rfl, Nat.le_refl _, ?_⟩
    unfold unescape1; rw [if_neg h1, if_neg h2]
  | letter c _ _ hl =>
    refine ⟨92, c :: rest, rfl, rfl, by simp, ?_⟩
    show backslash (c :: rest) = _
    unfold backslash; dsimp only
    rw [(letter_iff c b).2 hl]
  | octal ds _ h1 h2 h3 =>
    cases ds with
    | nil => exact absurd rfl h1
    | cons x ds =>
      refine ⟨92, x :: (ds ++ rest), rfl, rfl, by simp; omega, ?_⟩
      show backslash (x :: (ds ++ rest)) = _
      have hx := h2 x (by simp)
      unfold backslash; dsimp only
      have hn : letter x = none := by
        cases hl : letter x with
        | none => rfl
        | some y =>
          have := (letter_iff x y).1 hl
          unfold OctDigit at hx
          exfalso
          cases this <;> revert hx <;> decide
      rw [hn]
      dsimp only
      rw [if_pos ((isOct_iff x).2 hx)]
      exact congrArg some (octal_run ds 0 x rest hx (fun c hc => h2 c (by simp [hc])) h3)
  | hex x ds _ n hx hn hr =>
    refine ⟨92, x :: (ds ++ rest), rfl, rfl, by simp; omega, ?_⟩
    show backslash (x :: (ds ++ rest)) = _
    unfold backslash; dsimp only
    have hl : letter x = none := by rcases hx with rfl | rfl <;> rfl
    have ho : ¬ isOct x = true := by rcases hx with rfl | rfl <;> decide
    rw [hl]
    dsimp only
    rw [if_neg ho, if_pos hx.symm, hex_digits hn, hex_stop _ _ hr]
  | other c _ h1 h2 h3 h4 =>
    refine ⟨92, b :: rest, rfl, rfl, by simp, ?_⟩
    show backslash (b :: rest) = _
    unfold backslash; dsimp only
    have hl : letter b = none := by
      cases hl : letter b with
      | none => rfl
      | some y => exact absurd ((letter_iff b y).1 hl) (h1 y)
    rw [hl]
    dsimp only
    rw [if_neg (fun h => h2 ((isOct_iff b).1 h)), if_neg (fun h => h.elim h4 h3)]
  | delete _ => exact ⟨94, 63 :: rest, rfl, rfl, by simp, rfl⟩
  | control c _ hc =>
    refine ⟨94, c :: rest, rfl, rfl, by simp, ?_⟩
    show caret (c :: rest) = _
    unfold caret; dsimp only
    rw [if_neg hc]
    congr 2
    apply UInt8.toNat_inj.1
    rw [UInt8.toNat_and]
    simp only [UInt8.toNat_ofNat']
    have : (31 : UInt8).toNat = 2 ^ 5 - 1 := rfl
    rw [this, Nat.and_two_pow_sub_one_eq_mod]
    have := c.toNat_lt
    omega

/-! ## Chunks -/

theorem unescapeLoop_cons (n : Nat) (str : Bytes) (c : UInt8) (s : Bytes) (stop : UInt8) :
    unescapeLoop (n + 1) str (c :: s) stop = if c = stop then .ok (str, some s)
    else match unescape1 c s with
      | some (b, rest) => unescapeLoop n (str ++ [b]) rest stop
      | none => .err "EINVAL" := rfl

theorem unescapeLoop_nil (n : Nat) (str : Bytes) (stop : UInt8) : unescapeLoop n str [] stop = .ok (str, none) := by cases n <;> rfl

theorem unescapeLoop_or (stop : UInt8) : ∀ (n : Nat) (str s : Bytes), s.length ≤ n →
    (∃ bs next, unescapeLoop n str s stop = .ok (str ++ bs, next) ∧ Chunk stop s bs next ∧ (∀ r, next = some r → r.length < s.length)) ∨ unescapeLoop n str s stop = .err "EINVAL" := by
  intro n
  induction n with
  | zero =>
    intro str s hs
    cases s with
    | nil => exact Or.inl ⟨[], none, by rw [unescapeLoop_nil, List.append_nil], .done, by simp⟩
    | cons c s => simp at hs
  | succ n ih =>
    intro str s hs
    cases s with
    | nil => exact Or.inl ⟨[], none, by rw [unescapeLoop_nil, List.append_nil], .done, by simp⟩
    | cons c s =>
      rw [unescapeLoop_cons]
      by_cases hc : c = stop
      · rw [if_pos hc]
        subst hc
        exact Or.inl ⟨[], some s, by rw [List.append_nil], .stop s, by intro r h; injection h with h; subst h; simp⟩
      · rw [if_neg hc]
        cases hu : unescape1 c s with
        | none => exact Or.inr rfl
        | some v =>
          obtain ⟨b, rest⟩ := v
          obtain ⟨t, h1, h2⟩ := item_sound hu
          have hl : rest.length < (c :: s).length := by rw [h1]; simp; omega
          simp only [List.length_cons] at hs hl
          dsimp only
          rcases ih (str ++ [b]) rest (by omega) with ⟨bs, next, g1, g2, g3⟩ | g
          · left
            refine ⟨b :: bs, next, by rw [g1]; simp, ?_, fun r hr => ?_⟩
            · rw [h1]
              exact .item (c :: t) rest bs b next (by
                intro h
                have : c = stop := by simpa using h
                exact hc this) h2 g2
            · have := g3 r hr
              simp only [List.length_cons]; omega
          · exact Or.inr g

theorem chunk_complete {stop : UInt8} {s bs : Bytes} {next : Option Bytes} (h : Chunk stop s bs next) : ∀ (n : Nat) (str : Bytes), s.length ≤ n →
    unescapeLoop n str s stop = .ok (str ++ bs, next) := by
  induction h with
  | done => intro n str _; rw [unescapeLoop_nil, List.append_nil]
  | stop rest =>
    intro n str hn
    cases n with
    | zero => simp at hn
    | succ n => rw [unescapeLoop_cons, if_pos rfl, List.append_nil]
  | item text rest bs b next ht hi _ ih =>
    intro n str hn
    obtain ⟨c, s, h1, h2, h3, h4⟩ := item_complete hi
    rw [h1] at hn ⊢
    cases n with
    | zero => simp at hn
    | succ n =>
      rw [unescapeLoop_cons, if_neg (fun h => ht (by rw [h2, h])), h4]
      dsimp only
      rw [ih n (str ++ [b]) (by simp only [List.length_cons] at hn; omega)]
      simp

theorem unescape_or (s : Bytes) (stop : UInt8) : (∃ bs next, unescape (some s) stop = .ok (bs, next) ∧ Chunk stop s bs next ∧ (∀ r, next = some r → r.length < s.length)) ∨
    unescape (some s) stop = .err "EINVAL" := by
  rcases unescapeLoop_or stop s.length [] s (Nat.le_refl _) with ⟨bs, next, h1, h2, h3⟩ | h
  · exact Or.inl ⟨bs, next, h1, h2, h3⟩
  · exact Or.inr h

theorem unescape_iff (s bs : Bytes) (next : Option Bytes) (stop : UInt8) : unescape (some s) stop = .ok (bs, next) ↔ Chunk stop s bs next := by
  constructor
  · intro h
    rcases unescape_or s stop with ⟨bs', next', h1, h2, _⟩ | h'
    · rw [h] at h1
      injection h1 with h1
      injection h1 with h3 h4
      subst h3 h4
      exact h2
    · rw [h] at h'; cases h'
  · intro h
    exact chunk_complete h s.length [] (Nat.le_refl _)

/-! ## The whole variable -/

theorem escValue_eq (key value : Bytes) : escValue key value = colorOf key value := by
  unfold escValue colorOf
  have h : (value.all (· == 48) = true ∧ key ≠ [114, 115] ∧ key ≠ [108, 99] ∧ key ≠ [114, 99] ∧ key ≠ [101, 99]) ↔
      ((∀ c ∈ value, c = 48) ∧ ¬ (key = [114, 115] ∨ key = [108, 99] ∨ key = [114, 99] ∨ key = [101, 99])) := by
    rw [List.all_eq_true]
    simp only [beq_iff_eq, not_or, ne_eq]
  by_cases hc : value.all (· == 48) = true ∧ key ≠ [114, 115] ∧ key ≠ [108, 99] ∧ key ≠ [114, 99] ∧ key ≠ [101, 99]
  · rw [if_pos hc, if_pos (h.1 hc)]
  · rw [if_neg hc, if_neg (fun h' => hc (h.2 h'))]

theorem split_eq {s : Bytes} (h : 61 ∈ s) : ∃ key rest, s = key ++ 61 :: rest ∧ 61 ∉ key ∧ s.takeWhile (· ≠ 61) = key ∧ s.drop (key.length + 1) = rest := by
  induction s with
  | nil => cases h
  | cons c s ih =>
    by_cases hc : c = 61
    · subst hc
      exact ⟨[], s, rfl, by simp, by simp, by simp⟩
    · obtain ⟨key, rest, h1, h2, h3, h4⟩ := ih (by
        rcases List.mem_cons.1 h with h | h
        · exact absurd h.symm hc
        · exact h)
      refine ⟨c :: key, rest, by rw [h1]; rfl, ?_, ?_, ?_⟩
      · intro hm
        rcases List.mem_cons.1 hm with hm | hm
        · exact hc hm.symm
        · exact h2 hm
      · rw [List.takeWhile_cons, if_pos (by simpa using hc), h3]
      · simpa using h4

theorem split_unique {key rest key' rest' : Bytes} (h : key ++ 61 :: rest = key' ++ 61 :: rest') (h1 : 61 ∉ key) (h2 : 61 ∉ key') : key = key' ∧ rest = rest' := by
  induction key generalizing key' with
  | nil =>
    cases key' with
    | nil => injection h with _ h; exact ⟨rfl, h⟩
    | cons c k => injection h with h _; exact absurd (by rw [← h]; simp) h2
  | cons c key ih =>
    cases key' with
    | nil => injection h with h _; exact absurd (by rw [h]; simp) h1
    | cons c' key' =>
      injection h with h h'
      obtain ⟨g1, g2⟩ := ih h' (fun hm => h1 (by simp [hm])) (fun hm => h2 (by simp [hm]))
      exact ⟨by rw [h, g1], g2⟩

theorem chunk_star (s : Bytes) : chunk (42 :: s) = (unescape (some s) 61).bind fun k =>
    (unescape k.2 58).bind fun v => .ok (some (.ext k.1 v.1, v.2)) := rfl

theorem chunk_other {s : Bytes} (h : s.head? ≠ some 42) : chunk s =
    if 61 ∈ s then
      (unescape (some (s.drop ((s.takeWhile (· ≠ 61)).length + 1))) 58).bind fun v =>
        .ok (some (.esc (s.takeWhile (· ≠ 61)) (escValue (s.takeWhile (· ≠ 61)) v.1), v.2))
    else .ok none := by
  unfold chunk
  split
  · rename_i s'
    exact absurd rfl h
  · rfl

/-- What one chunk can be. -/
inductive ChunkRes (s : Bytes) : Out (Option (Setting × Option Bytes)) → Prop
  | err (e : String) : ChunkRes s (.err e)
  | none : s.head? ≠ some 42 → 61 ∉ s → ChunkRes s (.ok none)
  | ext (t key value rest : Bytes) (next : Option Bytes) : s = 42 :: t → Chunk 61 t key (some rest) → Chunk 58 rest value next → (∀ r, next = some r → r.length < s.length) →
      ChunkRes s (.ok (some (.ext key value, next)))
  | esc (key value rest : Bytes) (next : Option Bytes) : s = key ++ 61 :: rest → key.head? ≠ some 42 → 61 ∉ key → Chunk 58 rest value next → (∀ r, next = some r → r.length < s.length) →
      ChunkRes s (.ok (some (.esc key (colorOf key value), next)))

theorem chunkRes (s : Bytes) : ChunkRes s (chunk s) := by
  by_cases hs : s.head? = some 42
  · cases s with
    | nil => cases hs
    | cons c s =>
      have : c = 42 := by simpa using hs
      subst this
      rw [chunk_star]
      rcases unescape_or s 61 with ⟨key, next, h1, h2, h3⟩ | h
      · rw [h1]
        show ChunkRes _ ((unescape next 58).bind _)
        cases next with
        | none => exact .err _
        | some rest =>
          rcases unescape_or rest 58 with ⟨value, next, g1, g2, g3⟩ | g
          · rw [g1]
            refine .ext s key value rest next rfl h2 g2 fun r hr => ?_
            have := h3 rest rfl
            have := g3 r hr
            simp only [List.length_cons]; omega
          · rw [g]; exact .err _
      · rw [h]; exact .err _
  · rw [chunk_other hs]
    by_cases he : 61 ∈ s
    · rw [if_pos he]
      obtain ⟨key, rest, h1, h2, h3, h4⟩ := split_eq he
      rw [h3, h4]
      rcases unescape_or rest 58 with ⟨value, next, g1, g2, g3⟩ | g
      · rw [g1]
        show ChunkRes s (.ok (some (.esc key (escValue key value), next)))
        rw [escValue_eq]
        refine .esc key value rest next h1 ?_ h2 g2 fun r hr => ?_
        · intro hk
          apply hs
          rw [h1]
          cases key with
          | nil => cases hk
          | cons c k => simpa using hk
        · have := g3 r hr
          rw [h1]; simp; omega
      · rw [g]; exact .err _
    · rw [if_neg he]; exact .none hs he

theorem settingsLoop_succ (n : Nat) (s : Bytes) : settingsLoop (n + 1) s = (chunk s).bind fun
      | none => .ok []
      | some (x, none) => .ok [x]
      | some (x, some s) => (settingsLoop n s).bind fun l => .ok (x :: l) := rfl

theorem settingsLoop_or : ∀ (n : Nat) (s : Bytes), s.length < n → (∃ l, settingsLoop n s = .ok l ∧ LsColors s l) ∨ ∃ e, settingsLoop n s = .err e := by
  intro n
  induction n with
  | zero => intro s hs; omega
  | succ n ih =>
    intro s hs
    rw [settingsLoop_succ]
    have h := chunkRes s
    generalize chunk s = r at h
    cases h with
    | err e => exact Or.inr ⟨e, rfl⟩
    | none h1 h2 => exact Or.inl ⟨[], rfl, .done s h1 h2⟩
    | ext t key value rest next h1 h2 h3 h4 =>
      cases next with
      | none => exact Or.inl ⟨_, rfl, by rw [h1]; exact .extLast t key value rest h2 h3⟩
      | some r =>
        rcases ih r (by have := h4 r rfl; omega) with ⟨l, g1, g2⟩ | ⟨e, g⟩
        · refine Or.inl ⟨.ext key value :: l, ?_, by rw [h1]; exact .ext t key value rest r l h2 h3 g2⟩
          show (settingsLoop n r).bind _ = _
          rw [g1]; rfl
        · refine Or.inr ⟨e, ?_⟩
          show (settingsLoop n r).bind _ = _
          rw [g]; rfl
    | esc key value rest next h1 h2 h3 h4 h5 =>
      cases next with
      | none => exact Or.inl ⟨_, rfl, by rw [h1]; exact .escLast key value rest h2 h3 h4⟩
      | some r =>
        rcases ih r (by have := h5 r rfl; omega) with ⟨l, g1, g2⟩ | ⟨e, g⟩
        · refine Or.inl ⟨.esc key (colorOf key value) :: l, ?_, by rw [h1]; exact .esc key value rest r l h2 h3 h4 g2⟩
          show (settingsLoop n r).bind _ = _
          rw [g1]; rfl
        · refine Or.inr ⟨e, ?_⟩
          show (settingsLoop n r).bind _ = _
          rw [g]; rfl

theorem Chunk.shorter {stop : UInt8} {s bs : Bytes} {next : Option Bytes} (h : Chunk stop s bs next) (r : Bytes) (hr : next = some r) : r.length < s.length := by
  rcases unescape_or s stop with ⟨bs', next', h1, _, h3⟩ | h'
  · rw [(unescape_iff s bs next stop).2 h] at h1
    injection h1 with h1
    injection h1 with _ h1
    subst h1
    exact h3 r hr
  · rw [(unescape_iff s bs next stop).2 h] at h'; cases h'

theorem chunk_ext {t key value rest : Bytes} {next : Option Bytes} (h1 : Chunk 61 t key (some rest)) (h2 : Chunk 58 rest value next) :
    chunk (42 :: t) = .ok (some (.ext key value, next)) := by
  rw [chunk_star, (unescape_iff _ _ _ _).2 h1]
  show (unescape (some rest) 58).bind _ = _
  rw [(unescape_iff _ _ _ _).2 h2]; rfl

theorem head_key {key rest : Bytes} (h : key.head? ≠ some 42) : (key ++ 61 :: rest).head? ≠ some 42 := by
  cases key with
  | nil => simp
  | cons c k => simpa using h

theorem chunk_esc {key value rest : Bytes} {next : Option Bytes} (h : key.head? ≠ some 42) (h1 : 61 ∉ key) (h2 : Chunk 58 rest value next) :
    chunk (key ++ 61 :: rest) = .ok (some (.esc key (colorOf key value), next)) := by
  have hm : 61 ∈ key ++ 61 :: rest := by simp
  obtain ⟨key', rest', g1, g2, g3, g4⟩ := split_eq hm
  obtain ⟨e1, e2⟩ := split_unique g1 h1 g2
  subst e1 e2
  rw [chunk_other (head_key h), if_pos hm, g3, g4, (unescape_iff _ _ _ _).2 h2]
  show Out.ok (some (Setting.esc key (escValue key value), next)) = _
  rw [escValue_eq]

theorem settingsLoop_complete {s : Bytes} {l : List Setting} (h : LsColors s l) : ∀ n, s.length < n → settingsLoop n s = .ok l := by
  induction h with
  | done s h1 h2 =>
    intro n hn
    cases n with
    | zero => omega
    | succ n => rw [settingsLoop_succ, chunk_other h1, if_neg h2]; rfl
  | extLast s key value rest h1 h2 =>
    intro n hn
    cases n with
    | zero => omega
    | succ n => rw [settingsLoop_succ, chunk_ext h1 h2]; rfl
  | ext s key value rest next l h1 h2 _ ih =>
    intro n hn
    cases n with
    | zero => omega
    | succ n =>
      rw [settingsLoop_succ, chunk_ext h1 h2]
      show (settingsLoop n next).bind _ = _
      have g1 := h1.shorter rest rfl
      have g2 := h2.shorter next rfl
      rw [ih n (by simp only [List.length_cons] at hn; omega)]; rfl
  | escLast key value rest h h1 h2 =>
    intro n hn
    cases n with
    | zero => omega
    | succ n => rw [settingsLoop_succ, chunk_esc h h1 h2]; rfl
  | esc key value rest next l h h1 h2 _ ih =>
    intro n hn
    cases n with
    | zero => omega
    | succ n =>
      rw [settingsLoop_succ, chunk_esc h h1 h2]
      show (settingsLoop n next).bind _ = _
      have g2 := h2.shorter next rfl
      rw [ih n (by simp only [List.length_append, List.length_cons] at hn; omega)]; rfl

end Verif.Color
