import Verif.Lemmas.Whole
/-! # The whole program, with optimizations: lemmas -/
namespace Verif.Whole
open Verif.Cmdline
open Verif.Tests (Setting Test File Question Doc parseTest evalTest typeBit)
open Verif.Num (SizeUnit)
open Verif.Main (Behaviour)

variable {s : Setting} {N : Numbering} {pr : Printer} {w : Tests.World} {l : Glob.Locale} {file : Bftw.Pos → File}

theorem cmp_eq (c : Opt.Cmp) (n v : Int) : Num.exprCmp (leafCmp c) n v = Spec.Opt.cmpHolds c v n := by cases c <;> rfl

theorem unit_eq (u : SizeUnit) : unitBytes u = u.inBytes := by cases u <;> rfl

theorem bytesUnit_some {n : Nat} {u : SizeUnit} (h : bytesUnit n = some u) : unitBytes u = n := by
  have := List.find?_some h
  simpa using this

theorem size_value {cmp : Num.Cmp} {n size : Int} {u : SizeUnit} (h0 : 0 ≤ size) (h1 : size ≤ 2 ^ 62) :
    (Num.evalSize cmp n u size).bind Tests.val = .ok (Num.exprCmp cmp n (Spec.Opt.units size (unitBytes u)), []) := by
  obtain ⟨k, ⟨h2, h3⟩, h4⟩ := Props.C33_size_partial size u h0 (by have : u.inBytes ≤ 2 ^ 61 := by cases u <;> decide
                                                                   unfold LLONG_MAX; omega)
  rw [h4]
  have hk : k = Spec.Opt.units size (unitBytes u) := by
    have hpos : (0 : Int) < u.inBytes := by cases u <;> decide
    unfold Spec.Opt.units
    rw [unit_eq]
    generalize (u.inBytes : Int) = U at *
    have e1 := Int.mul_ediv_add_emod (-size) U
    have e2 := Int.emod_nonneg (-size) (Int.ne_of_gt hpos)
    have e3 := Int.emod_lt_of_pos (-size) hpos
    generalize hd : (-size) / U = d at *
    have h5 := h3 (-d) (by rw [Int.neg_mul, Int.mul_comm]; omega)
    refine Int.le_antisymm h5 ?_
    apply Int.not_lt.1
    intro h6
    have h7 : k ≤ -d - 1 := by omega
    have h8 : k * U ≤ (-d - 1) * U := Int.mul_le_mul_of_nonneg_right h7 (Int.le_of_lt hpos)
    have h9 : (-d - 1) * U = -(U * d) - U := by rw [Int.sub_mul, Int.neg_mul, Int.mul_comm d U, Int.one_mul]
    omega
  rw [hk]
  rfl

theorem mask_value {t : Stat.FType} (ht : t ≠ .error) (m : BitVec 32) : Tests.inMask m.toNat t = .ok (m.getLsbD ((typeBit t).getD 0), []) := by
  have key : ∀ b, b < 32 → Tests.val (decide ((1 <<< b) &&& m.toNat ≠ 0)) = .ok (m.getLsbD b, []) := by
    intro b hb
    unfold Tests.val
    refine congrArg (fun x => Out.ok (x, [])) ?_
    rw [Nat.shiftLeft_eq, Nat.one_mul]
    have h1 : m.getLsbD b = m.toNat.testBit b := rfl
    rw [h1]
    cases ht : m.toNat.testBit b with
    | false =>
      have : 2 ^ b &&& m.toNat = 0 := by
        apply Nat.eq_of_testBit_eq
        intro i
        rw [Nat.testBit_and, Nat.testBit_two_pow, Nat.zero_testBit]
        by_cases hi : b = i
        · subst hi; rw [ht]; simp
        · simp [hi]
      simp [this]
    | true =>
      have : 2 ^ b &&& m.toNat ≠ 0 := by
        intro h
        have := congrArg (fun x => x.testBit b) h
        simp [Nat.testBit_and, Nat.testBit_two_pow, ht] at this
      simp [this]
  cases t with
  | error => exact absurd rfl ht
  | _ => exact key _ (by decide)

theorem type_lt (t : Stat.FType) : (typeBit t).getD 0 < 32 := by cases t <;> decide

theorem bit_lnk {t : Stat.FType} : (typeBit t).getD 0 = 6 ↔ t = .lnk := by cases t <;> decide
theorem bit_reg {t : Stat.FType} : (typeBit t).getD 0 = 8 ↔ t = .reg := by cases t <;> decide
theorem bit_dir {t : Stat.FType} : (typeBit t).getD 0 = 3 ↔ t = .dir := by cases t <;> decide

theorem toI64_small {n : Nat} (h : n < 2 ^ 63) : Num.toI64 n = n := by
  unfold Num.toI64
  rw [Nat.mod_eq_of_lt (by omega), if_pos h]

theorem result_eq {p : Bftw.Pos} (hf : Regular w (file p)) (x : Opt.Leaf) (v : Bool) (h : Spec.Opt.test (attributes s N w (file p)) x = some v) :
    (behaviour s N w pr file (fallback s N w file)).result p x = v := by
  have hnone : testOf s N x = none → (∀ k i, x ≠ .action k i) → (behaviour s N w pr file (fallback s N w file)).result p x = v := by
    intro hn hx
    have : (behaviour s N w pr file (fallback s N w file)).result p x = fallback s N w file p x := by
      cases x with
      | action k i => exact absurd rfl (hx k i)
      | _ => unfold behaviour; dsimp only; rw [hn]
    rw [this]
    unfold fallback
    rw [h]
    rfl
  have hsome : ∀ t, testOf s N x = some t → (∀ k i, x ≠ .action k i) → value (evalTest w (file p) t) = v → (behaviour s N w pr file (fallback s N w file)).result p x = v := by
    intro t ht hx hv
    rw [← hv]
    cases x with
    | action k i => exact absurd rfl (hx k i)
    | _ => unfold behaviour; dsimp only; rw [ht]
  obtain ⟨sb, hsb, hu, hg⟩ := hf.stat
  have hsane := hf.sane
  have hno : x ≠ .action .plain 0 := by intro hx; subst hx; cases h
  cases x with
  | action k i => cases h
  | true_ => injection h
  | false_ => injection h
  | pred q => cases q <;> (injection h)
  | cmp r u c n =>
    have hx : ∀ k i, Opt.Leaf.cmp r u c n ≠ .action k i := by intro k i h; cases h
    cases r with
    | depth =>
      injection h with h
      refine hsome _ rfl hx ?_
      rw [← h, ← cmp_eq]; rfl
    | gid =>
      injection h with h
      refine hsome _ rfl hx ?_
      rw [← h, ← cmp_eq]
      unfold evalTest attributes; dsimp only; rw [hsb]; rfl
    | uid =>
      injection h with h
      refine hsome _ rfl hx ?_
      rw [← h, ← cmp_eq]
      unfold evalTest attributes; dsimp only; rw [hsb]; rfl
    | inum =>
      injection h with h
      refine hsome _ rfl hx ?_
      rw [← h, ← cmp_eq]
      unfold evalTest attributes; dsimp only; rw [hsb]
      show Num.exprCmp (leafCmp c) n (Num.toI64 sb.ino) = Num.exprCmp (leafCmp c) n (sb.ino : Int)
      rw [toI64_small (hsane.ino sb hsb)]
    | links =>
      injection h with h
      refine hsome _ rfl hx ?_
      rw [← h, ← cmp_eq]
      unfold evalTest attributes; dsimp only; rw [hsb]
      show Num.exprCmp (leafCmp c) n (Num.toI64 sb.nlink) = Num.exprCmp (leafCmp c) n (sb.nlink : Int)
      rw [toI64_small (hsane.nlink sb hsb)]
    | size =>
      cases hb : bytesUnit u with
      | none => exact hnone (by show (bytesUnit u).map _ = none; rw [hb]; rfl) hx
      | some su =>
        refine hsome (.size (leafCmp c) n su) (by show (bytesUnit u).map _ = _; rw [hb]; rfl) hx ?_
        injection h with h
        rw [← h, ← cmp_eq, ← bytesUnit_some hb]
        unfold evalTest attributes; dsimp only; rw [hsb]
        show value ((Num.evalSize (leafCmp c) n su sb.size).bind Tests.val) = _
        rw [size_value (hsane.size sb hsb).1 (hsane.size sb hsb).2]
        rfl
  | lname id =>
    have hx : ∀ k i, Opt.Leaf.lname id ≠ .action k i := by intro k i h; cases h
    cases ht : testOf s N (.lname id) with
    | none => exact hnone ht hx
    | some t =>
      refine hsome t ht hx ?_
      have hl : ∃ pat, t = .lname pat := by
        unfold testOf at ht
        dsimp only at ht
        split at ht
        · injection ht with ht; exact ⟨_, ht.symm⟩
        · cases ht
      obtain ⟨pat, rfl⟩ := hl
      injection h with h
      rw [← h]
      unfold attributes; dsimp only; rw [ht]
      dsimp only
      by_cases hlnk : (file p).type = .lnk
      · rw [decide_eq_true (bit_lnk.2 hlnk), Bool.true_and]
      · rw [decide_eq_false (fun h => hlnk (bit_lnk.1 h)), Bool.false_and]
        show value (Tests.evalLname w (file p) pat) = false
        unfold Tests.evalLname
        rw [if_pos hlnk]
        rfl
  | samefile dev ino =>
    have hx : ∀ k i, Opt.Leaf.samefile dev ino ≠ .action k i := by intro k i h; cases h
    by_cases hpos : 0 ≤ dev ∧ 0 ≤ ino
    · refine hsome (.samefile dev.toNat ino.toNat) (by unfold testOf; dsimp only; rw [if_pos hpos]) hx ?_
      injection h with h
      rw [← h]
      unfold evalTest attributes; dsimp only; rw [hsb]
      show (decide (sb.dev = dev.toNat) && decide (sb.ino = ino.toNat)) = (decide ((sb.dev : Int) = dev) && decide ((sb.ino : Int) = ino))
      congr 1
      · exact decide_eq_decide.2 (by omega)
      · exact decide_eq_decide.2 (by omega)
    · exact hnone (by unfold testOf; dsimp only; rw [if_neg hpos]) hx
  | type m =>
    refine hsome (.type m.toNat) rfl (by intro k i h; cases h) ?_
    injection h with h
    rw [← h]
    show value (Tests.inMask m.toNat (file p).type) = _
    rw [mask_value hsane.type.1]
    rfl
  | xtype m =>
    refine hsome (.xtype m.toNat) rfl (by intro k i h; cases h) ?_
    injection h with h
    rw [← h]
    show value (Tests.evalXtype w (file p) m.toNat) = _
    unfold Tests.evalXtype attributes
    dsimp only
    rcases hf.other with ⟨t, ht⟩ | ⟨h1, h2⟩
    · have hne := hsane.type.2 t ht
      rw [ht]
      cases t with
      | error => exact absurd rfl hne
      | _ => dsimp only; rw [mask_value hne]; rfl
    · rw [h2, h1]
      dsimp only
      rw [if_pos (by rfl), mask_value (by decide)]
      rfl
  | other id =>
    have hx : ∀ k i, Opt.Leaf.other id ≠ .action k i := by intro k i h; cases h
    cases ht : testOf s N (.other id) with
    | none => exact hnone ht hx
    | some t =>
      refine hsome t ht hx ?_
      injection h with h
      rw [← h]
      unfold attributes; dsimp only; rw [ht]

theorem real_file {p : Bftw.Pos} (hf : Regular w (file p)) (hd : ((file p).buf.depth : Int) < 2 ^ 31) : Spec.Opt.RealFile (attributes s N w (file p)) := by
  obtain ⟨sb, hsb, hu, hg⟩ := hf.stat
  have hsane := hf.sane
  refine ⟨?_, type_lt _, ?_, ?_, ?_⟩
  · intro r
    unfold attributes
    dsimp only
    rw [hsb]
    cases r <;> dsimp only
    · omega
    · omega
    · have := hsane.ino sb hsb; omega
    · have := hsane.nlink sb hsb; omega
    · have := hsane.size sb hsb; omega
    · omega
  · unfold attributes
    dsimp only
    split
    · exact type_lt _
    · decide
  · intro h
    have h : value (Tests.evalEmpty w (file p)) = true := h
    unfold Tests.evalEmpty at h
    split at h
    · next ht => exact .inl (bit_reg.2 ht)
    · split at h
      · next ht => exact .inr (bit_dir.2 ht)
      · cases h
  · intro h
    have ht := bit_reg.1 h
    show value (Tests.evalEmpty w (file p)) = true ↔ _
    unfold Tests.evalEmpty attributes
    dsimp only
    rw [if_pos ht, hsb]
    show decide (sb.size = 0) = true ↔ sb.size = 0
    rw [decide_eq_true_eq]

theorem tame_leaf {ow : Spec.Opt.Owners} {unit : SizeUnit} {level : Nat} {p : Bftw.Pos} (hf : Regular w (file p)) {args : List Arg} {t : Test} (ht : Safe ow file unit level t) :
    Spec.Opt.Tame ow (attributes s N w (file p)) (unitBytes unit) level (leafOf N args t) := by
  obtain ⟨sb, hsb, hu, hg⟩ := hf.stat
  cases t with
  | const b => cases b <;> exact trivial
  | access m =>
    unfold leafOf
    dsimp only
    repeat' split
    all_goals exact trivial
  | type m | xtype m =>
    unfold leafOf
    dsimp only
    split <;> exact trivial
  | gid cmp n | uid cmp n =>
    obtain ⟨h1, h2, h3, h4⟩ := ht
    exact ⟨by rw [h1]; rfl, h2, h3, by omega⟩
  | size cmp n u =>
    show unitBytes u = unitBytes unit
    rw [show u = unit from ht]
  | samefile dev ino =>
    show (attributes s N w (file p)).num .inum = ino → (attributes s N w (file p)).dev = dev
    unfold attributes
    dsimp only
    rw [hsb]
    dsimp only
    intro h
    have := ht p sb hsb (by omega)
    omega
  | empty => exact ht
  | nogroup => exact ht
  | nouser => exact ht
  | _ => exact trivial

/-- What else is needed. -/
def SafeCall (ow : Spec.Opt.Owners) (s : Setting) (file : Bftw.Pos → File) (unit : SizeUnit) (level : Nat) (q : Prim) : Prop :=
  ∀ c ∈ q.calls, ∀ t n, parseTest s c.2 = .ok (t, n) → Safe ow file unit level t

theorem tame_prim {ow : Spec.Opt.Owners} {unit : SizeUnit} {level : Nat} {p : Bftw.Pos} (hf : Regular w (file p)) {q : Prim} (hq : SafeCall ow s file unit level q) :
    Spec.Opt.Tame ow (attributes s N w (file p)) (unitBytes unit) level (leafFor s N q) := by
  have action : ∀ k i, Spec.Opt.Tame ow (attributes s N w (file p)) (unitBytes unit) level (.action k i) := fun _ _ => trivial
  unfold leafFor
  split
  · next i args hc =>
    split
    · cases table[i]? with
      | none => exact action _ _
      | some e =>
        show Spec.Opt.Tame _ _ _ _ (actionLeaf N args e)
        unfold actionLeaf
        repeat' split
        all_goals exact action _ _
    · unfold testLeaf
      split
      · next t n h => exact tame_leaf hf (hq (i, args) (by rw [hc]; exact List.mem_singleton.2 rfl) t n h)
      · exact trivial
  · split <;> exact trivial

theorem tame_expr {ow : Spec.Opt.Owners} {unit : SizeUnit} {level : Nat} {p : Bftw.Pos} (hf : Regular w (file p)) (x : E) (hx : All (SafeCall ow s file unit level) x) (hc : CommaFree x) {never : Bftw.Pos → Opt.Leaf → Bool} :
    (behaviour s N w pr file never).Tame ow (attributes s N w (file p)) (unitBytes unit) level x := by
  induction x with
  | leaf y =>
    cases y with
    | prim q => exact tame_prim hf hx
    | _ => exact trivial
  | not x ih => exact ih hx hc
  | and x y ix iy => exact ⟨ix hx.1 hc.1, iy hx.2 hc.2⟩
  | or x y ix iy => exact ⟨ix hx.1 hc.1, iy hx.2 hc.2⟩
  | comma x y => exact absurd hc id

theorem have_attributes {ow : Spec.Opt.Owners} {unit : SizeUnit} {level : Nat} {o : Main.Settings} {cmd : Cmd} (ho : o.maxdepth < 2 ^ 31) (hf : ∀ p, Regular w (file p)) (hd : ∀ p, (file p).buf.depth = Bftw.depth p)
    (hx : All (SafeCall ow s file unit level) cmd.expr ∧ ∀ x ∈ cmd.excludes, All (SafeCall ow s file unit level) x) (hc : CommaFree cmd.expr ∧ ∀ x ∈ cmd.excludes, CommaFree x) :
    Main.Attributes (behaviour s N w pr file (fallback s N w file)) level o cmd (fun p => attributes s N w (file p)) (unitBytes unit) where
  pos := by cases unit <;> decide
  real := fun p hp => real_file (hf p) (by rw [hd]; omega)
  depth := fun p => by
    show ((file p).buf.depth : Int) = _
    rw [hd]
  result := fun p x v h => result_eq (hf p) x v h
  tame := ⟨ow, fun p => ⟨tame_expr (hf p) _ hx.1 hc.1, fun x hm => tame_expr (hf p) x (hx.2 x hm) (hc.2 x hm)⟩⟩

end Verif.Whole
