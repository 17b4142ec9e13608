import Verif.Lemmas.Perm
/-! # Modes as sets of permissions -/
namespace Verif.Perm
open Verif.Num

theorem high_const (m : Mode) (k : Nat) (h : ∀ i : Fin 32, k ≤ i.val → m.getLsbD i = false) (i : Nat) (hi : k ≤ i) : m.getLsbD i = false := by
  by_cases h32 : i < 32
  · exact h ⟨i, h32⟩ hi
  · exact BitVec.getLsbD_of_ge _ _ (by omega)

theorem whoBits_bit (s : WhoSym) (w : Who) (p : Rwx) : (whoBits s).getLsbD (Flag.perm w p).bit = s.includes w := by
  cases s <;> cases w <;> cases p <;> decide

theorem whoBits_high (s : WhoSym) (i : Nat) (hi : 9 ≤ i) : (whoBits s).getLsbD i = false := by
  cases s <;> exact high_const _ 9 (by decide) i hi

theorem whoFold_bit (i : Nat) : ∀ (ws : List WhoSym) (b : Mode),
    (ws.foldl (fun b w => b ||| whoBits w) b).getLsbD i = (b.getLsbD i || ws.any fun w => (whoBits w).getLsbD i)
  | [], b => by simp
  | w :: ws, b => by
    rw [List.foldl_cons, whoFold_bit i ws, BitVec.getLsbD_or, List.any_cons, Bool.or_assoc]

/-- The bits of who in a clause. -/
def whoOf (ws : List WhoSym) : Mode := ws.foldl (fun b w => b ||| whoBits w) 0

theorem whoOf_bit (ws : List WhoSym) (w : Who) (p : Rwx) : (whoOf ws).getLsbD (Flag.perm w p).bit = ws.any (·.includes w) := by
  unfold whoOf
  rw [whoFold_bit]
  simp only [whoBits_bit]
  simp

theorem whoOf_high (ws : List WhoSym) (i : Nat) (hi : 9 ≤ i) : (whoOf ws).getLsbD i = false := by
  unfold whoOf
  rw [whoFold_bit]
  simp only [whoBits_high _ i hi]
  simp

theorem whoOf_zero (ws : List WhoSym) : whoOf ws = 0 ↔ ws = [] := by
  constructor
  · intro h
    cases ws with
    | nil => rfl
    | cons s ws =>
      exfalso
      have h1 : ∀ w, ((s :: ws).any (·.includes w)) = false := by
        intro w
        rw [← whoOf_bit (s :: ws) w .read, h]
        simp
      cases s
      · have := h1 .user; simp [WhoSym.includes] at this
      · have := h1 .group; simp [WhoSym.includes] at this
      · have := h1 .other; simp [WhoSym.includes] at this
      · have := h1 .user; simp [WhoSym.includes] at this
  · rintro rfl; rfl

/-- The umask as a set. -/
def umaskFlags (umask : Mode) : Flags := fun f => umask.getLsbD f.bit

/-- `who` and `mask` are as the clause says. -/
structure Sel (u : Flags) (ws : List WhoSym) (st : St) : Prop where
  who : ∀ w p, st.who.getLsbD (Flag.perm w p).bit = selected ws w
  mask : ∀ w p, st.mask.getLsbD (Flag.perm w p).bit = (selected ws w && !masked u ws w p)
  whoHigh : ∀ i, 9 ≤ i → st.who.getLsbD i = false
  maskHigh : ∀ i, 9 ≤ i → st.mask.getLsbD i = false

theorem all_bit (w : Who) (p : Rwx) : (0o777 : Mode).getLsbD (Flag.perm w p).bit = true := by
  cases w <;> cases p <;> decide

theorem all_high (i : Nat) (hi : 9 ≤ i) : (0o777 : Mode).getLsbD i = false := high_const _ 9 (by decide) i hi

theorem perm_bit_lt (w : Who) (p : Rwx) : (Flag.perm w p).bit < 9 := by
  cases w <;> cases p <;> decide

/-- The first action of a clause. -/
theorem sel_first (umask : Mode) (ws : List WhoSym) (st : St) (h : st.who = whoOf ws) : Sel (umaskFlags umask) ws (setMask umask st) := by
  unfold setMask
  by_cases h0 : st.who = 0
  · rw [if_pos h0]
    have : ws = [] := (whoOf_zero ws).1 (by rw [← h, h0])
    subst this
    constructor
    · intro w p; exact all_bit w p
    · intro w p
      show ((0o777 : Mode) &&& ~~~umask).getLsbD _ = _
      have := perm_bit_lt w p
      rw [BitVec.getLsbD_and, all_bit, BitVec.getLsbD_not]
      simp [selected, masked, umaskFlags]
      omega
    · exact all_high
    · intro i hi
      show ((0o777 : Mode) &&& ~~~umask).getLsbD _ = _
      rw [BitVec.getLsbD_and, all_high i hi]
      rfl
  · rw [if_neg h0]
    have hne : ws ≠ [] := fun h' => h0 (by rw [h, h']; rfl)
    have he : ws.isEmpty = false := by cases ws <;> simp_all
    constructor
    · intro w p
      show st.who.getLsbD _ = _
      rw [h, whoOf_bit]; simp [selected, he]
    · intro w p
      show st.who.getLsbD _ = _
      rw [h, whoOf_bit]; simp [selected, masked, he]
    · intro i hi
      show st.who.getLsbD i = _
      rw [h]; exact whoOf_high ws i hi
    · intro i hi
      show st.who.getLsbD i = _
      rw [h]; exact whoOf_high ws i hi

/-- The other actions: the umask has been forgotten. -/
theorem sel_next {umask : Mode} {ws : List WhoSym} {st : St} (h : Sel (umaskFlags umask) ws st) (st' : St) (hw : st'.who = st.who)
    (hu : ws = [] → ∀ w p, umask.getLsbD (Flag.perm w p).bit = false) : Sel (umaskFlags umask) ws (setMask umask st') := by
  have hne : st'.who ≠ 0 := by
    rw [hw]
    intro h0
    have h1 : ∀ w, selected ws w = false := by
      intro w
      rw [← h.who w .read, h0]
      simp
    cases ws with
    | nil => have := h1 .user; simp [selected] at this
    | cons s ws =>
      cases s
      · have := h1 .user; simp [selected, WhoSym.includes] at this
      · have := h1 .group; simp [selected, WhoSym.includes] at this
      · have := h1 .other; simp [selected, WhoSym.includes] at this
      · have := h1 .user; simp [selected, WhoSym.includes] at this
  unfold setMask
  rw [if_neg hne]
  constructor
  · intro w p; show st'.who.getLsbD _ = _; rw [hw]; exact h.who w p
  · intro w p
    show st'.who.getLsbD _ = _
    rw [hw, h.who w p]
    cases ws with
    | nil => simp [masked, umaskFlags, hu rfl w p]
    | cons s ws => simp [masked]
  · intro i hi; show st'.who.getLsbD _ = _; rw [hw]; exact h.whoHigh i hi
  · intro i hi; show st'.who.getLsbD _ = _; rw [hw]; exact h.whoHigh i hi

theorem Sel.congr {u : Flags} {ws : List WhoSym} {st : St} (h : Sel u ws st) (st' : St) (hw : st'.who = st.who) (hm : st'.mask = st.mask) : Sel u ws st' := by
  constructor
  · rw [hw]; exact h.who
  · rw [hm]; exact h.mask
  · rw [hw]; exact h.whoHigh
  · rw [hm]; exact h.maskHigh

/-! ## Changes -/

def chg (isDir : Bool) (st : St) : Mode := if isDir then st.dirChange else st.fileChange
def modeOf (isDir : Bool) (st : St) : Mode := if isDir then st.dirMode else st.fileMode

theorem and_ne_zero (x m : Mode) : x &&& m ≠ 0 ↔ ∃ i, x.getLsbD i = true ∧ m.getLsbD i = true := by
  constructor
  · intro h
    refine Classical.byContradiction fun hn => h ?_
    refine BitVec.eq_of_getLsbD_eq fun i hi => ?_
    rw [BitVec.getLsbD_and]
    cases h1 : x.getLsbD i <;> cases h2 : m.getLsbD i <;> simp
    exact hn ⟨i, h1, h2⟩
  · rintro ⟨i, h1, h2⟩ h
    have := congrArg (·.getLsbD i) h
    simp [BitVec.getLsbD_and, h1, h2] at this

theorem who_class {u : Flags} {ws : List WhoSym} {st : St} (h : Sel u ws st) (w : Who) (m : Mode)
    (hm : ∀ i : Fin 32, m.getLsbD i = true ↔ ∃ p, (Flag.perm w p).bit = i.val) : (st.who &&& m ≠ 0) ↔ selected ws w = true := by
  rw [and_ne_zero]
  constructor
  · rintro ⟨i, h1, h2⟩
    have hi : i < 32 := by
      refine Decidable.byContradiction fun h' => ?_
      rw [BitVec.getLsbD_of_ge _ _ (by omega)] at h2
      cases h2
    obtain ⟨p, hp⟩ := (hm ⟨i, hi⟩).1 h2
    rw [← h.who w p, hp]
    exact h1
  · intro h'
    have := perm_bit_lt w .read
    exact ⟨(Flag.perm w .read).bit, by rw [h.who, h'], (hm ⟨_, Nat.lt_trans this (by decide)⟩).2 ⟨.read, rfl⟩⟩

theorem exists_rwx (P : Rwx → Prop) : (∃ p, P p) ↔ P .read ∨ P .write ∨ P .exec := by
  constructor
  · rintro ⟨p, h⟩
    cases p
    · exact Or.inl h
    · exact Or.inr (Or.inl h)
    · exact Or.inr (Or.inr h)
  · rintro (h | h | h)
    · exact ⟨_, h⟩
    · exact ⟨_, h⟩
    · exact ⟨_, h⟩

theorem who_user {u : Flags} {ws : List WhoSym} {st : St} (h : Sel u ws st) : (st.who &&& 0o700 ≠ 0) ↔ selected ws .user = true :=
  who_class h .user _ (by simp only [exists_rwx]; decide)
theorem who_group {u : Flags} {ws : List WhoSym} {st : St} (h : Sel u ws st) : (st.who &&& 0o070 ≠ 0) ↔ selected ws .group = true :=
  who_class h .group _ (by simp only [exists_rwx]; decide)
theorem who_other {u : Flags} {ws : List WhoSym} {st : St} (h : Sel u ws st) : (st.who &&& 0o007 ≠ 0) ↔ selected ws .other = true :=
  who_class h .other _ (by simp only [exists_rwx]; decide)

theorem chg_addBits (isDir : Bool) (st : St) (bits : Mode) (i : Nat) : (chg isDir (addBits st bits)).getLsbD i = ((chg isDir st).getLsbD i || bits.getLsbD i) := by
  cases isDir <;> simp [chg, addBits, BitVec.getLsbD_or]

/-- The bits of a mask that belong to one permission. -/
theorem mask_and {u : Flags} {ws : List WhoSym} {st : St} (h : Sel u ws st) (m : Mode) (q : Rwx)
    (hm : ∀ w p, m.getLsbD (Flag.perm w p).bit = decide (p = q)) (f : Flag) :
    (st.mask &&& m).getLsbD f.bit = (match f with | .perm w p => selected ws w && !masked u ws w p && decide (p = q) | _ => false) := by
  rw [BitVec.getLsbD_and]
  cases f with
  | perm w p => rw [h.mask, hm]
  | setuid => rw [h.maskHigh _ (by decide)]; rfl
  | setgid => rw [h.maskHigh _ (by decide)]; rfl
  | sticky => rw [h.maskHigh _ (by decide)]; rfl

theorem addPerm_bit {u : Flags} {ws : List WhoSym} {st : St} (h : Sel u ws st) (isDir : Bool) (m : Flags) (p : PermSym) (f : Flag) :
    (chg isDir (addPerm st p)).getLsbD f.bit = ((chg isDir st).getLsbD f.bit || change u isDir ws m (.list [p]) f) := by
  cases p with
  | r =>
    rw [addPerm, chg_addBits, mask_and h _ .read (by intro w p; cases w <;> cases p <;> decide)]
    cases f <;> simp [change, PermSym.grants]
  | w =>
    rw [addPerm, chg_addBits, mask_and h _ .write (by intro w p; cases w <;> cases p <;> decide)]
    cases f <;> simp [change, PermSym.grants]
  | x =>
    rw [addPerm, chg_addBits, mask_and h _ .exec (by intro w p; cases w <;> cases p <;> decide)]
    cases f <;> simp [change, PermSym.grants]
  | X =>
    cases isDir with
    | true =>
      have : chg true (addPerm st .X) = chg true st ||| (st.mask &&& 0o111) := rfl
      rw [this, BitVec.getLsbD_or, mask_and h _ .exec (by intro w p; cases w <;> cases p <;> decide)]
      cases f <;> simp [change, PermSym.grants]
    | false =>
      have : chg false (addPerm st .X) = chg false st := rfl
      rw [this]
      cases f <;> simp [change, PermSym.grants]
  | s =>
    have hu := who_user h
    have hg := who_group h
    have e1 : ∀ f : Flag, (0o4000 : Mode).getLsbD f.bit = decide (f = .setuid) := by
      intro f
      cases f with
      | perm w p => cases w <;> cases p <;> decide
      | _ => decide
    have e2 : ∀ f : Flag, (0o2000 : Mode).getLsbD f.bit = decide (f = .setgid) := by
      intro f
      cases f with
      | perm w p => cases w <;> cases p <;> decide
      | _ => decide
    unfold addPerm
    dsimp only
    have key : (chg isDir (if st.who &&& 0o070 ≠ 0 then addBits (if st.who &&& 0o700 ≠ 0 then addBits st 0o4000 else st) 0o2000 else (if st.who &&& 0o700 ≠ 0 then addBits st 0o4000 else st))).getLsbD f.bit =
        ((chg isDir st).getLsbD f.bit || (selected ws .user && decide (f = .setuid)) || (selected ws .group && decide (f = .setgid))) := by
      by_cases h1 : st.who &&& 0o700 ≠ 0
      · rw [if_pos h1]
        by_cases h2 : st.who &&& 0o070 ≠ 0
        · rw [if_pos h2, chg_addBits, chg_addBits, e1, e2, hu.1 h1, hg.1 h2]; simp
        · have h2' : selected ws .group = false := by cases hs : selected ws .group; rfl; exact absurd (hg.2 hs) h2
          rw [if_neg h2, chg_addBits, e1, hu.1 h1, h2']; simp
      · have h1' : selected ws .user = false := by cases hs : selected ws .user; rfl; exact absurd (hu.2 hs) h1
        rw [if_neg h1]
        by_cases h2 : st.who &&& 0o070 ≠ 0
        · rw [if_pos h2, chg_addBits, e2, h1', hg.1 h2]; simp
        · have h2' : selected ws .group = false := by cases hs : selected ws .group; rfl; exact absurd (hg.2 hs) h2
          rw [if_neg h2, h1', h2']; simp
    have hw : (if st.who &&& 0o700 ≠ 0 then addBits st 0o4000 else st).who = st.who := by split <;> rfl
    rw [hw, key]
    cases f <;> simp [change, PermSym.grants]
  | t =>
    have ho := who_other h
    have e1 : ∀ f : Flag, (0o1000 : Mode).getLsbD f.bit = decide (f = .sticky) := by
      intro f
      cases f with
      | perm w p => cases w <;> cases p <;> decide
      | _ => decide
    unfold addPerm
    by_cases h1 : st.who &&& 0o007 ≠ 0
    · rw [if_pos h1, chg_addBits, e1]
      have := ho.1 h1
      cases f <;> simp [change, PermSym.grants, this]
    · have h1' : selected ws .other = false := by cases hs : selected ws .other; rfl; exact absurd (ho.2 hs) h1
      rw [if_neg h1]
      cases f <;> simp [change, PermSym.grants, h1']

theorem change_cons (u : Flags) (isDir : Bool) (ws : List WhoSym) (m : Flags) (p : PermSym) (ps : List PermSym) (f : Flag) :
    change u isDir ws m (.list (p :: ps)) f = (change u isDir ws m (.list [p]) f || change u isDir ws m (.list ps) f) := by
  cases f <;> simp [change, Bool.and_or_distrib_left]

theorem addPerms_bit {u : Flags} {ws : List WhoSym} (isDir : Bool) (m : Flags) (f : Flag) : ∀ (ps : List PermSym) {st : St}, Sel u ws st →
    (chg isDir (ps.foldl addPerm st)).getLsbD f.bit = ((chg isDir st).getLsbD f.bit || change u isDir ws m (.list ps) f)
  | [], st, _ => by cases f <;> simp [change]
  | p :: ps, st, h => by
    rw [List.foldl_cons, addPerms_bit isDir m f ps (h.congr _ (addPerm_who st p) (addPerm_mask st p)), addPerm_bit h isDir m, change_cons u isDir ws m p ps, Bool.or_assoc]

theorem addPerm_high {u : Flags} {ws : List WhoSym} {st : St} (h : Sel u ws st) (isDir : Bool) (p : PermSym) (i : Nat) (hi : 12 ≤ i)
    (h0 : (chg isDir st).getLsbD i = false) : (chg isDir (addPerm st p)).getLsbD i = false := by
  have hm : ∀ m : Mode, (st.mask &&& m).getLsbD i = false := by
    intro m; rw [BitVec.getLsbD_and, h.maskHigh i (by omega)]; rfl
  have c1 : (0o4000 : Mode).getLsbD i = false := high_const _ 12 (by decide) i hi
  have c2 : (0o2000 : Mode).getLsbD i = false := high_const _ 12 (by decide) i hi
  have c3 : (0o1000 : Mode).getLsbD i = false := high_const _ 12 (by decide) i hi
  cases p with
  | r => rw [addPerm, chg_addBits, h0, hm]; rfl
  | w => rw [addPerm, chg_addBits, h0, hm]; rfl
  | x => rw [addPerm, chg_addBits, h0, hm]; rfl
  | X =>
    cases isDir with
    | true =>
      have : chg true (addPerm st .X) = chg true st ||| (st.mask &&& 0o111) := rfl
      rw [this, BitVec.getLsbD_or, h0, hm]; rfl
    | false => exact h0
  | s =>
    unfold addPerm
    dsimp only
    repeat' split
    all_goals simp only [chg_addBits, h0, c1, c2, Bool.or_self]
  | t =>
    unfold addPerm
    by_cases h1 : st.who &&& 0o007 ≠ 0
    · rw [if_pos h1, chg_addBits, h0, c3]; rfl
    · rw [if_neg h1]; exact h0

theorem addPerms_high {u : Flags} {ws : List WhoSym} (isDir : Bool) (i : Nat) (hi : 12 ≤ i) : ∀ (ps : List PermSym) {st : St}, Sel u ws st →
    (chg isDir st).getLsbD i = false → (chg isDir (ps.foldl addPerm st)).getLsbD i = false
  | [], _, _, h => h
  | p :: ps, st, h, h0 => addPerms_high isDir i hi ps (h.congr _ (addPerm_who st p) (addPerm_mask st p)) (addPerm_high h isDir p i hi h0)

/-- Copying permissions. -/
theorem copy_bit {u : Flags} {ws : List WhoSym} {st : St} (h : Sel u ws st) (isDir : Bool) {mode : Mode} {m : Flags} (hm : Means mode m) (from_ : Who) (f : Flag) :
    ((source mode from_ ||| ((source mode from_ <<< 6) ||| (source mode from_ <<< 3))) &&& st.mask).getLsbD f.bit = change u isDir ws m (.copy from_) f := by
  rw [BitVec.getLsbD_and]
  cases f with
  | setuid => rw [h.maskHigh _ (by decide)]; simp [change]
  | setgid => rw [h.maskHigh _ (by decide)]; simp [change]
  | sticky => rw [h.maskHigh _ (by decide)]; simp [change]
  | perm w p =>
    rw [h.mask]
    have hb := hm.1 (.perm from_ p)
    have : (source mode from_ ||| ((source mode from_ <<< 6) ||| (source mode from_ <<< 3))).getLsbD (Flag.perm w p).bit = m (.perm from_ p) := by
      rw [← hb]
      cases from_ <;> cases w <;> cases p <;> simp [source, Flag.bit]
    rw [this]
    simp only [change]
    rw [Bool.and_comm]

/-- The action, then. -/
theorem doAction_means {u : Flags} {ws : List WhoSym} (umask : Mode) {st : St} (h : Sel u ws (setMask umask st)) (a : Action) (isDir : Bool) {m : Flags}
    (hm : Means (modeOf isDir st) m) : Means (modeOf isDir (applyChange (doAction umask st a))) (act u isDir ws m a) ∧ Sel u ws (doAction umask st a) ∧ (applyChange (doAction umask st a)).who = (setMask umask st).who := by
  have hfold : ∀ (ps : List PermSym) (st : St), (ps.foldl addPerm st).who = st.who ∧ (ps.foldl addPerm st).mask = st.mask ∧ (ps.foldl addPerm st).op = st.op ∧
      (ps.foldl addPerm st).fileMode = st.fileMode ∧ (ps.foldl addPerm st).dirMode = st.dirMode := by
    intro ps
    induction ps with
    | nil => intro st; exact ⟨rfl, rfl, rfl, rfl, rfl⟩
    | cons p ps ih =>
      intro st
      rw [List.foldl_cons]
      obtain ⟨h1, h2, h3, h4, h5⟩ := ih (addPerm st p)
      exact ⟨by rw [h1, addPerm_who], by rw [h2, addPerm_mask], by rw [h3, addPerm_op], by rw [h4, addPerm_file], by rw [h5, addPerm_dir]⟩
  have hmode : ∀ isDir, modeOf isDir (setMask umask st) = modeOf isDir st := by
    intro isDir; cases isDir
    · exact setMask_file umask st
    · exact setMask_dir umask st
  -- the state before applying
  have key : (doAction umask st a).who = (setMask umask st).who ∧ (doAction umask st a).mask = (setMask umask st).mask ∧ (doAction umask st a).op = a.op ∧
      modeOf isDir (doAction umask st a) = modeOf isDir st ∧
      (∀ f : Flag, (chg isDir (doAction umask st a)).getLsbD f.bit = change u isDir ws m a.perms f) ∧
      (∀ i, 12 ≤ i → (chg isDir (doAction umask st a)).getLsbD i = false) := by
    obtain ⟨op, perms⟩ := a
    cases perms with
    | list ps =>
      have hs : Sel u ws { setMask umask st with op := op, fileChange := 0, dirChange := 0, state := .perm } := h.congr _ rfl rfl
      obtain ⟨h1, h2, h3, h4, h5⟩ := hfold ps { setMask umask st with op := op, fileChange := 0, dirChange := 0, state := .perm }
      have hz : ∀ i, (chg isDir { setMask umask st with op := op, fileChange := 0, dirChange := 0, state := .perm }).getLsbD i = false := by
        intro i; cases isDir <;> simp [chg]
      refine ⟨h1, h2, h3, ?_, ?_, ?_⟩
      · rw [← hmode isDir]
        cases isDir
        · exact h4
        · exact h5
      · intro f
        have := addPerms_bit isDir m f ps hs
        rw [hz, Bool.false_or] at this
        cases isDir <;> exact this
      · intro i hi
        have := addPerms_high isDir i hi ps hs (hz i)
        cases isDir <;> exact this
    | copy w =>
      have hm' : Means (modeOf isDir (setMask umask st)) m := by rw [hmode]; exact hm
      refine ⟨rfl, rfl, rfl, ?_, ?_, ?_⟩
      · rw [← hmode isDir]
        cases isDir <;> rfl
      · intro f
        have := copy_bit h isDir hm' w f
        cases isDir <;> exact this
      · intro i hi
        have : ∀ x : Mode, (x &&& (setMask umask st).mask).getLsbD i = false := by
          intro x; rw [BitVec.getLsbD_and, h.maskHigh i (by omega), Bool.and_false]
        cases isDir <;> exact this _
  obtain ⟨k1, k2, k3, k4, k5, k6⟩ := key
  refine ⟨?_, h.congr _ k1 k2, by rw [applyChange_who, k1]⟩
  have hwhoHigh : ∀ i, 12 ≤ i → (doAction umask st a).who.getLsbD i = false := by
    intro i hi; rw [k1]; exact h.whoHigh i (by omega)
  have hwho : ∀ f : Flag, (doAction umask st a).who.getLsbD f.bit = cleared ws f := by
    intro f
    rw [k1]
    cases f with
    | perm w p => exact h.who w p
    | setuid => exact h.whoHigh _ (by decide)
    | setgid => exact h.whoHigh _ (by decide)
    | sticky => exact h.whoHigh _ (by decide)
  have hlt : ∀ f : Flag, f.bit < 32 := by
    intro f
    cases f with
    | perm w p => have := perm_bit_lt w p; omega
    | _ => decide
  generalize doAction umask st a = st1 at *
  cases hop : a.op with
  | plus =>
    have : modeOf isDir (applyChange st1) = modeOf isDir st ||| chg isDir st1 := by
      rw [← k4]; unfold applyChange; rw [k3, hop]; cases isDir <;> rfl
    rw [this]
    refine ⟨fun f => ?_, fun i hi => ?_⟩
    · rw [BitVec.getLsbD_or, hm.1, k5]; simp [act, hop]
    · rw [BitVec.getLsbD_or, hm.2 i hi, k6 i hi]; rfl
  | minus =>
    have : modeOf isDir (applyChange st1) = modeOf isDir st &&& ~~~chg isDir st1 := by
      rw [← k4]; unfold applyChange; rw [k3, hop]; cases isDir <;> rfl
    rw [this]
    refine ⟨fun f => ?_, fun i hi => ?_⟩
    · rw [BitVec.getLsbD_and, BitVec.getLsbD_not, hm.1, k5]; simp [act, hop, hlt f]
    · rw [BitVec.getLsbD_and, hm.2 i hi]; rfl
  | equals =>
    have : modeOf isDir (applyChange st1) = (modeOf isDir st &&& ~~~st1.who) ||| chg isDir st1 := by
      rw [← k4]; unfold applyChange; rw [k3, hop]; cases isDir <;> rfl
    rw [this]
    refine ⟨fun f => ?_, fun i hi => ?_⟩
    · rw [BitVec.getLsbD_or, BitVec.getLsbD_and, BitVec.getLsbD_not, hm.1, k5, hwho]; simp [act, hop, hlt f]
    · rw [BitVec.getLsbD_or, BitVec.getLsbD_and, hm.2 i hi, k6 i hi]; rfl

/-- When the umask is used as it should be. -/
def UmaskOk (umask : Mode) (c : Clause) : Prop := c.who = [] → c.rest = [] ∨ ∀ w p, umask.getLsbD (Flag.perm w p).bit = false

theorem doActions_means {umask : Mode} {ws : List WhoSym} (isDir : Bool) (hu : ws = [] → ∀ w p, umask.getLsbD (Flag.perm w p).bit = false) :
    ∀ (as : List Action) {st : St} {m : Flags}, Sel (umaskFlags umask) ws st → Means (modeOf isDir (applyChange st)) m →
      Means (modeOf isDir (applyChange (doActions umask st as))) (as.foldl (act (umaskFlags umask) isDir ws) m)
  | [], _, _, _, h => h
  | a :: as, st, m, hs, h => by
    have h1 := sel_next hs (applyChange st) (applyChange_who st) hu
    obtain ⟨h2, h3, _⟩ := doAction_means umask h1 a isDir h
    exact doActions_means isDir hu as h3 h2

theorem doClause_means {umask : Mode} (isDir : Bool) (c : Clause) (hc : UmaskOk umask c) {st : St} {m : Flags} (h : Means (modeOf isDir st) m) :
    Means (modeOf isDir (applyChange (doClause umask st c))) (c.meaning (umaskFlags umask) isDir m) := by
  have h1 := sel_first umask c.who (startClause st c.who) rfl
  have h' : Means (modeOf isDir (startClause st c.who)) m := by cases isDir <;> exact h
  obtain ⟨h2, h3, _⟩ := doAction_means umask h1 c.first isDir h'
  unfold doClause Clause.meaning
  rw [List.foldl_cons]
  by_cases hr : c.rest = []
  · rw [hr]; exact h2
  · exact doActions_means isDir (fun he => (hc he).resolve_left hr) c.rest h3 h2

theorem doClauses_means {umask : Mode} (isDir : Bool) : ∀ (cs : List Clause) (_ : ∀ c ∈ cs, UmaskOk umask c) {st : St} {m : Flags},
    Means (modeOf isDir (applyChange st)) m → Means (modeOf isDir (applyChange (doClauses umask st cs))) (cs.foldl (Clause.meaning (umaskFlags umask) isDir) m)
  | [], _, _, _, h => h
  | c :: cs, hcs, st, m, h => by
    have hm : Means (modeOf isDir (setMask umask (applyChange st))) m := by
      have : modeOf isDir (setMask umask (applyChange st)) = modeOf isDir (applyChange st) := by
        cases isDir
        · exact setMask_file _ _
        · exact setMask_dir _ _
      rw [this]; exact h
    exact doClauses_means isDir cs (fun x hx => hcs x (by simp [hx])) (doClause_means isDir c (hcs c (by simp)) hm)

theorem run_means {umask : Mode} (isDir : Bool) (c : Clause) (cs : List Clause) (h : ∀ x ∈ c :: cs, UmaskOk umask x) :
    Means (modeOf isDir (applyChange (doClauses umask (doClause umask {} c) cs))) (meaning (umaskFlags umask) isDir (c :: cs)) := by
  unfold meaning
  rw [List.foldl_cons]
  refine doClauses_means isDir cs (fun x hx => h x (by simp [hx])) (doClause_means isDir c (h c (by simp)) ?_)
  constructor
  · intro f; cases isDir <;> simp [modeOf]
  · intro i _; cases isDir <;> simp [modeOf]

end Verif.Perm
