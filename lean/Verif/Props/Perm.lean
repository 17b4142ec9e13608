import Verif.Lemmas.PermBits
import Verif.Props.Num
/-!
# C35, C36: `-perm`

`parseMode umask s` is `parse_mode()`: `ok (file, dir)` are the modes to compare files and directories with, `err` is the "Invalid mode" error, and `ub` would be anything undefined. `Spec/Perm.lean` has the syntax tree of symbolic modes, their text, and their meaning on sets of permissions.
-/
namespace Verif.Props
open Verif.Perm Verif.Num

/-! ## C35 -/

/-- The argument begins with a digit. -/
def DigitFirst (s : Bytes) : Prop := ∃ c t, s = c :: t ∧ 48 ≤ c.toNat ∧ c.toNat ≤ 57

theorem parseMode_symbolic (umask : Mode) (s : Bytes) (h : ¬ DigitFirst s) : parseMode umask s = modeLoop umask {} s := by
  unfold parseMode
  cases s with
  | nil => rfl
  | cons c t =>
    refine if_neg fun hc => h ⟨c, t, rfl, ?_, ?_⟩
    · exact UInt8.le_iff_toNat_le.1 hc.1
    · exact UInt8.le_iff_toNat_le.1 hc.2

theorem parseMode_digit (umask : Mode) (s : Bytes) (h : DigitFirst s) : parseMode umask s = octalMode s := by
  obtain ⟨c, t, rfl, h1, h2⟩ := h
  exact if_pos ⟨UInt8.le_iff_toNat_le.2 h1, UInt8.le_iff_toNat_le.2 h2⟩

/-- Symbolic modes are exactly the lists of clauses of chmod(1), separated by commas. -/
theorem C35_grammar (umask : Mode) (s : Bytes) (h : ¬ DigitFirst s) :
    (∃ file dir, parseMode umask s = .ok (file, dir)) ↔ ∃ c cs, s = text c cs := by
  rw [parseMode_symbolic umask s h]
  constructor
  · rintro ⟨f, d, h⟩
    exact accepted umask s {} _ h
  · rintro ⟨c, cs, rfl⟩
    exact ⟨_, _, run_text umask c cs⟩

/-- Nothing is undefined, and no state of the parser is left out. -/
theorem C35_defined (umask : Mode) (s : Bytes) : parseMode umask s ≠ .ub := by
  by_cases h : DigitFirst s
  · rw [parseMode_digit umask s h]
    unfold octalMode
    split
    · exact fun h => by cases h
    · split <;> exact fun h => by cases h
  · rw [parseMode_symbolic umask s h]
    exact modeLoop_defined umask s {}

/-- Their meaning. What is missing: a clause that omits who and has more than one action forgets the umask
after the first one, see `C35_umask_counterexample`; so there must be no such clause, or the umask must have
no permissions. -/
theorem C35_symbolic_partial (umask : Mode) (c : Clause) (cs : List Clause) (hd : ¬ DigitFirst (text c cs))
    (h : ∀ x ∈ c :: cs, x.who = [] → x.rest = [] ∨ ∀ w p, umask.getLsbD (Flag.perm w p).bit = false) :
    ∃ file dir, parseMode umask (text c cs) = .ok (file, dir) ∧
      Means file (meaning (fun f => umask.getLsbD f.bit) false (c :: cs)) ∧ Means dir (meaning (fun f => umask.getLsbD f.bit) true (c :: cs)) := by
  refine ⟨_, _, (parseMode_symbolic umask _ hd).trans (run_text umask c cs), ?_, ?_⟩
  · exact run_means false c cs h
  · exact run_means true c cs h

/-- No symbolic mode begins with a digit, so that hypothesis always holds. -/
theorem C35_disjoint (c : Clause) (cs : List Clause) : ¬ DigitFirst (text c cs) := by
  rintro ⟨x, t, h, h1, h2⟩
  obtain ⟨ws, ⟨op, perms⟩, as⟩ := c
  cases ws with
  | nil =>
    simp [text, Clause.text, Action.text] at h
    cases op <;> (rw [← h.1] at h1 h2; simp [Op.char] at h1 h2)
  | cons w ws =>
    simp [text, Clause.text] at h
    cases w <;> (rw [← h.1] at h1 h2; simp [WhoSym.char] at h1 h2)

/-- `u=rw,g=u-w,o+X` -/
def exMode : Clause × List Clause :=
  (⟨[.u], ⟨.equals, .list [.r, .w]⟩, []⟩, [⟨[.g], ⟨.equals, .copy .user⟩, [⟨.minus, .list [.w]⟩]⟩, ⟨[.o], ⟨.plus, .list [.X]⟩, []⟩])

example : text exMode.1 exMode.2 = [117, 61, 114, 119, 44, 103, 61, 117, 45, 119, 44, 111, 43, 88] := by decide
example : parseMode 0o022 (text exMode.1 exMode.2) = .ok (0o640, 0o641) := by decide +kernel
example : ∀ x ∈ exMode.1 :: exMode.2, x.who = [] → x.rest = [] ∨ ∀ w p, (0o022 : Mode).getLsbD (Flag.perm w p).bit = false := by
  intro x hx hw
  simp [exMode] at hx
  rcases hx with rfl | rfl | rfl <;> simp at hw

/-- `=r+w` with the umask 022: chmod(1) adds the right to write for the user only, since the umask protects
the others; the code says 0666. -/
theorem C35_umask_counterexample :
    parseMode 0o022 (text ⟨[], ⟨.equals, .list [.r]⟩, [⟨.plus, .list [.w]⟩]⟩ []) = .ok (0o666, 0o666) ∧
    Means 0o644 (meaning (fun f => (0o022 : Mode).getLsbD f.bit) false [⟨[], ⟨.equals, .list [.r]⟩, [⟨.plus, .list [.w]⟩]⟩]) := by
  refine ⟨by decide +kernel, fun f => ?_, fun i hi => high_const _ 12 (by decide) i hi⟩
  cases f with
  | perm w p => cases w <;> cases p <;> decide
  | _ => decide

/-- `u+s,u=`: in chmod(1), `u=` clears the set-user-ID bit too; here it stays. -/
theorem C35_setuid_counterexample :
    parseMode 0o022 (text ⟨[.u], ⟨.plus, .list [.s]⟩, []⟩ [⟨[.u], ⟨.equals, .list []⟩, []⟩]) = .ok (0o4000, 0o4000) := by
  decide +kernel

/-- An argument that begins with a digit is an octal number up to 7777, and stands for itself. -/
theorem C35_octal (umask : Mode) (s : Bytes) (h : DigitFirst s) (file dir : Mode) :
    parseMode umask s = .ok (file, dir) ↔ ∃ n, Digits 8 s n ∧ n ≤ 0o7777 ∧ file.toNat = n ∧ dir.toNat = n := by
  rw [parseMode_digit umask s h]
  have hnum : ∀ v, Numeral 8 s v → ∃ n : Nat, v = n ∧ Digits 8 s n := by
    intro v hv
    obtain ⟨c, t, rfl, h1, h2⟩ := h
    cases hv with
    | plain hd => exact ⟨_, rfl, hd⟩
    | plus hd => simp at h1
    | minus hd => simp at h1
  have htoNat : ∀ n : Nat, n ≤ 0o7777 → (BitVec.ofInt 32 (n : Int)).toNat = n := by
    intro n hn
    rw [BitVec.ofInt_natCast, BitVec.toNat_ofNat]
    exact Nat.mod_eq_of_lt (by omega)
  unfold octalMode
  constructor
  · intro h'
    cases hp : parseInt s { base := 8, size := .int, unsigned := true } with
    | error e => rw [hp] at h'; cases h'
    | ok r =>
      obtain ⟨v, rest⟩ := r
      have hr : rest = [] := by
        have := (parseInt_iff (f := { base := 8, size := .int, unsigned := true }) (by decide) _ _ _).1 hp
        obtain ⟨_, _, _, _, h5, _⟩ := this
        simpa using h5
      subst hr
      rw [hp] at h'
      obtain ⟨h1, h2, h3⟩ := (C31_int 8 (by decide) _ _ _ _).1 hp
      obtain ⟨n, rfl, hd⟩ := hnum v h1
      dsimp only at h'
      by_cases hn : (n : Int) > 0o7777
      · rw [if_pos hn] at h'; cases h'
      · rw [if_neg hn] at h'
        have hn' : n ≤ 0o7777 := by omega
        injection h' with h'
        injection h' with e1 e2
        exact ⟨n, hd, hn', by rw [← e1]; exact htoNat n hn', by rw [← e2]; exact htoNat n hn'⟩
  · rintro ⟨n, hd, hn, e1, e2⟩
    have hp := (C31_int 8 (by decide) .int true s n).2 ⟨.plain hd, ⟨by omega, by omega⟩, fun _ => by omega⟩
    rw [hp]
    dsimp only
    rw [if_neg (by omega)]
    have : file = BitVec.ofInt 32 (n : Int) := BitVec.eq_of_toNat_eq (by rw [e1, htoNat n hn])
    have : dir = BitVec.ofInt 32 (n : Int) := BitVec.eq_of_toNat_eq (by rw [e2, htoNat n hn])
    simp [*]

example : DigitFirst [54, 52, 52] ∧ Digits 8 [54, 52, 52] 0o644 :=
  ⟨⟨54, _, rfl, by decide, by decide⟩,
    .more [54, 52] 52 52 4 (.more [54] 6 52 4 (.one 54 6 (by decide) (by decide)) (by decide) (by decide)) (by decide) (by decide)⟩

/-! ## C36 -/

/-- The first character: `-` for all bits, `/` for any bit, `+` before a digit for any bit, and otherwise the
whole argument is the mode. -/
inductive Comparison : Bytes → ModeCmp → Bytes → Prop
  | all (s : Bytes) : Comparison (45 :: s) .all s
  | any (s : Bytes) : Comparison (47 :: s) .any s
  | plus (s : Bytes) : DigitFirst s → Comparison (43 :: s) .any s
  | equal (s : Bytes) : (∀ t, s ≠ 45 :: t) → (∀ t, s ≠ 47 :: t) → (∀ t, s = 43 :: t → ¬ DigitFirst t) → Comparison s .equal s

theorem C36_prefix (umask : Mode) (s : Bytes) (cmp : ModeCmp) (file dir : Mode) :
    parsePerm umask s = .ok (cmp, file, dir) ↔ ∃ t, Comparison s cmp t ∧ parseMode umask t = .ok (file, dir) := by
  have hp : ∀ cmp t, permPrefix s = (cmp, t) ↔ Comparison s cmp t := by
    have hdig : ∀ c : UInt8, (48 ≤ c ∧ c ≤ 57) ↔ (48 ≤ c.toNat ∧ c.toNat ≤ 57) := by
      intro c; rw [UInt8.le_iff_toNat_le, UInt8.le_iff_toNat_le]; rfl
    intro cmp t
    constructor
    · intro h
      unfold permPrefix at h
      split at h
      · injection h with h1 h2; subst h1 h2; exact .all _
      · injection h with h1 h2; subst h1 h2; exact .any _
      · rename_i c t'
        by_cases hc : 48 ≤ c ∧ c ≤ 57
        · rw [if_pos hc] at h
          injection h with h1 h2; subst h1 h2
          exact .plus _ ⟨c, _, rfl, ((hdig c).1 hc).1, ((hdig c).1 hc).2⟩
        · rw [if_neg hc] at h
          injection h with h1 h2; subst h1 h2
          refine .equal _ (by simp) (by simp) ?_
          rintro t ht ⟨c', t', h1, h2, h3⟩
          subst h1
          simp at ht
          rw [ht.1] at hc
          exact hc ((hdig _).2 ⟨h2, h3⟩)
      · rename_i n1 n2 n3
        injection h with h1 h2; subst h1 h2
        refine .equal _ (fun t ht => n1 t ht) (fun t ht => n2 t ht) ?_
        rintro t ht ⟨c', t', h1, _, _⟩
        exact n3 c' t' (by rw [ht, h1])
    · intro h
      cases h with
      | all => rfl
      | any => rfl
      | plus s hd =>
        obtain ⟨c, t', rfl, h1, h2⟩ := hd
        exact if_pos ((hdig c).2 ⟨h1, h2⟩)
      | equal s h1 h2 h3 =>
        unfold permPrefix
        split
        · exact absurd rfl (h1 _)
        · exact absurd rfl (h2 _)
        · rename_i c t'
          refine if_neg fun hc => h3 _ rfl ⟨c, t', rfl, ((hdig c).1 hc).1, ((hdig c).1 hc).2⟩
        · rfl
  have hpp : parsePerm umask s = (parseMode umask (permPrefix s).2).bind fun fd => .ok ((permPrefix s).1, fd.1, fd.2) := rfl
  rw [hpp]
  constructor
  · intro h
    refine ⟨(permPrefix s).2, ?_, ?_⟩
    · cases hm : parseMode umask (permPrefix s).2 with
      | ok fd =>
        rw [hm] at h
        injection h with h
        injection h with h1 h2
        rw [← h1]
        exact (hp _ _).1 rfl
      | err e => rw [hm] at h; cases h
      | ub => rw [hm] at h; cases h
    · cases hm : parseMode umask (permPrefix s).2 with
      | ok fd =>
        rw [hm] at h
        injection h with h
        injection h with h1 h2
        injection h2 with h2 h3
        rw [← h2, ← h3]
      | err e => rw [hm] at h; cases h
      | ub => rw [hm] at h; cases h
  · rintro ⟨t, h1, h2⟩
    have := (hp cmp t).2 h1
    rw [this, h2]
    rfl

/-- The test, for any mode `target` of twelve bits, which is what the parser returns. Let `m` be the
permissions of the file, and `want` those of the argument, for directories or for other files. -/
theorem C36_equal (file dir mode : Mode) (isDir : Bool) (want m : Flags) (hw : Means (if isDir then dir else file) want)
    (hm : ∀ f, mode.getLsbD f.bit = m f) : evalPerm .equal file dir isDir mode = true ↔ ∀ f, m f = want f := by
  have hall : ∀ i, i < 12 → ∃ f : Flag, f.bit = i := by
    have : ∀ i : Fin 12, ∃ f ∈ [Flag.setuid, .setgid, .sticky, .perm .user .read, .perm .user .write, .perm .user .exec, .perm .group .read, .perm .group .write,
      .perm .group .exec, .perm .other .read, .perm .other .write, .perm .other .exec], f.bit = i.val := by decide
    intro i hi
    obtain ⟨f, _, h⟩ := this ⟨i, hi⟩
    exact ⟨f, h⟩
  have hlow : ∀ f : Flag, (0o7777 : Mode).getLsbD f.bit = true := by
    intro f
    cases f with
    | perm w p => cases w <;> cases p <;> decide
    | _ => decide
  simp only [evalPerm, decide_eq_true_eq]
  constructor
  · intro h f
    rw [← hm, ← hw.1, ← h, BitVec.getLsbD_and, hlow, Bool.and_true]
  · intro h
    refine BitVec.eq_of_getLsbD_eq fun i hi => ?_
    by_cases h12 : i < 12
    · obtain ⟨f, rfl⟩ := hall i h12
      rw [hw.1, BitVec.getLsbD_and, hlow, Bool.and_true, hm, h]
    · rw [hw.2 i (by omega), BitVec.getLsbD_and, high_const (0o7777 : Mode) 12 (by decide) i (by omega), Bool.and_false]

theorem C36_all (file dir mode : Mode) (isDir : Bool) (want m : Flags) (hw : Means (if isDir then dir else file) want)
    (hm : ∀ f, mode.getLsbD f.bit = m f) : evalPerm .all file dir isDir mode = true ↔ ∀ f, want f = true → m f = true := by
  simp only [evalPerm, decide_eq_true_eq]
  constructor
  · intro h f hf
    have h1 : (mode &&& (if isDir then dir else file)).getLsbD f.bit = true := by rw [h, hw.1, hf]
    rw [BitVec.getLsbD_and, hm] at h1
    simp at h1
    exact h1.1
  · intro h
    refine BitVec.eq_of_getLsbD_eq fun i hi => ?_
    rw [BitVec.getLsbD_and]
    by_cases h12 : i < 12
    · have : ∀ i : Fin 12, ∃ f ∈ [Flag.setuid, .setgid, .sticky, .perm .user .read, .perm .user .write, .perm .user .exec, .perm .group .read, .perm .group .write,
        .perm .group .exec, .perm .other .read, .perm .other .write, .perm .other .exec], f.bit = i.val := by decide
      obtain ⟨f, _, hf⟩ := this ⟨i, h12⟩
      dsimp only at hf
      subst hf
      rw [hw.1, hm]
      cases hf : want f
      · simp
      · rw [h f hf]; rfl
    · rw [hw.2 i (by omega), Bool.and_false]

/-- Some bit is set; but no bits at all, as in `/000`, match every file. -/
theorem C36_any (file dir mode : Mode) (isDir : Bool) (want m : Flags) (hw : Means (if isDir then dir else file) want)
    (hm : ∀ f, mode.getLsbD f.bit = m f) : evalPerm .any file dir isDir mode = true ↔ (∃ f, want f = true ∧ m f = true) ∨ ∀ f, want f = false := by
  have hflag : ∀ i, i < 12 → ∃ f : Flag, f.bit = i := by
    have : ∀ i : Fin 12, ∃ f ∈ [Flag.setuid, .setgid, .sticky, .perm .user .read, .perm .user .write, .perm .user .exec, .perm .group .read, .perm .group .write,
      .perm .group .exec, .perm .other .read, .perm .other .write, .perm .other .exec], f.bit = i.val := by decide
    intro i hi
    obtain ⟨f, _, h⟩ := this ⟨i, hi⟩
    exact ⟨f, h⟩
  have hz : (if isDir then dir else file) = 0 ↔ ∀ f, want f = false := by
    constructor
    · intro h f; rw [← hw.1, h]; simp
    · intro h
      refine BitVec.eq_of_getLsbD_eq fun i hi => ?_
      by_cases h12 : i < 12
      · obtain ⟨f, rfl⟩ := hflag i h12
        rw [hw.1, h]; simp
      · rw [hw.2 i (by omega)]; simp
  have ha : mode &&& (if isDir then dir else file) ≠ 0 ↔ ∃ f, want f = true ∧ m f = true := by
    rw [and_ne_zero]
    constructor
    · rintro ⟨i, h1, h2⟩
      by_cases h12 : i < 12
      · obtain ⟨f, rfl⟩ := hflag i h12
        exact ⟨f, by rw [← hw.1, h2], by rw [← hm, h1]⟩
      · rw [hw.2 i (by omega)] at h2; cases h2
    · rintro ⟨f, h1, h2⟩
      exact ⟨f.bit, by rw [hm, h2], by rw [hw.1, h1]⟩
  simp only [evalPerm]
  rw [← ha, ← hz]
  generalize (if isDir then dir else file) = target
  by_cases h0 : target = 0
  · simp [h0]
  · have e0 : (target != 0) = true := by simpa using h0
    rw [e0]
    by_cases h1 : mode &&& target = 0
    · simp [h1]
      exact h0
    · have e1 : (mode &&& target != 0) = true := by simpa using h1
      rw [e1]
      simp
      exact Or.inl h1

/-- The hypotheses hold for what the parser returns: an octal mode means its own bits. -/
theorem C36_octal_means (umask : Mode) (s : Bytes) (h : DigitFirst s) (file dir : Mode) (hp : parseMode umask s = .ok (file, dir)) (isDir : Bool) :
    Means (if isDir then dir else file) (fun f => file.getLsbD f.bit) := by
  obtain ⟨n, _, hn, h1, h2⟩ := (C35_octal umask s h file dir).1 hp
  have he : dir = file := BitVec.eq_of_toNat_eq (by rw [h1, h2])
  rw [he, ite_self]
  refine ⟨fun _ => rfl, fun i hi => ?_⟩
  rw [BitVec.getLsbD, h1]
  refine Nat.testBit_lt_two_pow (Nat.lt_of_lt_of_le (?_ : n < 2 ^ 12) (Nat.pow_le_pow_right (by decide) hi))
  omega

/-- `-perm -222`, `/222` and `222` on a file with the mode 0664. -/
example : evalPerm .all 0o222 0o222 false 0o100664 = false ∧ evalPerm .any 0o222 0o222 false 0o100664 = true ∧ evalPerm .equal 0o222 0o222 false 0o100664 = false ∧
    evalPerm .any 0 0 false 0o100664 = true := by decide
example : Means (if false then 0o755 else 0o644) (fun f => (0o644 : Mode).getLsbD f.bit) :=
  ⟨fun _ => rfl, fun i hi => high_const _ 12 (by decide) i hi⟩
example : Comparison [43, 54] .any [54] ∧ Comparison [43, 114] .equal [43, 114] :=
  ⟨.plus _ ⟨54, _, rfl, by decide, by decide⟩, .equal _ (by simp) (by simp) (by
    rintro t ht ⟨c, t', h1, h2, h3⟩
    subst h1
    simp at ht
    rw [← ht.1] at h3
    simp at h3)⟩

end Verif.Props
