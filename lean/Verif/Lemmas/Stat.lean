import Verif.Spec.Stat
import Verif.Lemmas.Varena
/-!
# Lemmas about `stat()` requests
-/
namespace Verif.Stat
open Verif Verif.Spec.Stat Verif.Alloc

/-- A buffer may still be written. -/
def Writable (s l : Nat) (f : Ftw) (a : Nat) : Prop :=
  (f.bufs.statErr < 0 ∧ a = s) ∨ (f.bufs.lstatErr < 0 ∧ a = l)

/-- The invariant of a visit, whatever happens to the file. -/
structure Inv (s l : Nat) (f : Ftw) : Prop where
  ne : s ≠ l
  sn : f.bufs.statErr < 0 → f.bufs.statBuf = some s
  ln : f.bufs.lstatErr < 0 → f.bufs.lstatBuf = some l
  s0 : f.bufs.statErr = 0 → ∃ a sb, f.bufs.statBuf = some a ∧ f.mem a = some sb ∧ ¬ Writable s l f a
  l0 : f.bufs.lstatErr = 0 → ∃ a sb, f.bufs.lstatBuf = some a ∧ f.mem a = some sb ∧ ¬ Writable s l f a

/-- The number of system calls that may still happen. -/
def left (b : Bufs) : Nat := (if b.statErr < 0 then 1 else 0) + (if b.lstatErr < 0 then 1 else 0)

/-- One state comes after another. -/
structure Ext (s l : Nat) (f g : Ftw) : Prop where
  type : g.type = f.type
  flags : g.statFlags = f.statFlags
  frame : ∀ a, ¬ Writable s l f a → ¬ Writable s l g a ∧ g.mem a = f.mem a
  calls : g.calls + left g.bufs ≤ f.calls + left f.bufs
  lstat : f.bufs.lstatErr ≥ 0 → g.bufs.lstatErr = f.bufs.lstatErr ∧ g.bufs.lstatBuf = f.bufs.lstatBuf
  stat : f.bufs.statErr ≥ 0 → g.bufs.statErr ≥ 0
  both : f.bufs.lstatErr ≥ 0 → f.bufs.statErr ≥ 0 → g = f

theorem Ext.refl (s l : Nat) (f : Ftw) : Ext s l f f :=
  ⟨rfl, rfl, fun _ h => ⟨h, rfl⟩, Nat.le_refl _, fun _ => ⟨rfl, rfl⟩, id, fun _ _ => rfl⟩

theorem Ext.trans {s l : Nat} {f g h : Ftw} (a : Ext s l f g) (b : Ext s l g h) : Ext s l f h where
  type := b.type.trans a.type
  flags := b.flags.trans a.flags
  frame x hx := ⟨(b.frame x (a.frame x hx).1).1, (b.frame x (a.frame x hx).1).2.trans (a.frame x hx).2⟩
  calls := Nat.le_trans b.calls a.calls
  lstat hf := by
    obtain ⟨h1, h2⟩ := a.lstat hf
    obtain ⟨h3, h4⟩ := b.lstat (h1 ▸ hf)
    exact ⟨h3.trans h1, h4.trans h2⟩
  stat hf := b.stat (a.stat hf)
  both h1 h2 := by
    have e := a.both h1 h2
    subst e
    exact b.both h1 h2

/-- A result leads to something that stays. -/
def Good (s l : Nat) (r : Except Nat Nat) (g : Ftw) : Prop :=
  ∀ a, r = .ok a → ¬ Writable s l g a ∧ ∃ sb, g.mem a = some sb

/-- The effective result of `bfs_stat()`. -/
def eff (wht : Bool) (f : Ftw) (r : Except Nat Sb) : Except Nat Sb :=
  match r with
  | .ok sb => .ok sb
  | .error e => if wht && (e = ENOENT && f.type = .wht) then .ok whtSb else .error e

theorem eff_ne {wht : Bool} {f : Ftw} {r : Except Nat Sb} (h : ∀ e, r = .error e → e ≠ 0) {e : Nat} (he : eff wht f r = .error e) : e ≠ 0 := by
  unfold eff at he
  cases r with
  | ok sb => simp at he
  | error e' =>
    dsimp only at he
    split at he
    · simp at he
    · injection he with he
      subst he
      exact h _ rfl

theorem callStat_ok {wht : Bool} {now : Now} {f : Ftw} {flags : Flags} {a : Nat} {sb : Sb} (h : eff wht f (now.stat flags) = .ok sb) :
    callStat wht now f flags (some a) = (cache (write f.mem a (some sb)) f.bufs flags (some a) 0).bind fun b => .ok (.ok a, { f with
      bufs := b
      mem := write f.mem a (some sb)
      calls := f.calls + 1 }) := by
  unfold callStat
  unfold eff at h
  cases hs : now.stat flags with
  | ok sb' =>
    rw [hs] at h
    injection h with h
    subst h
    rfl
  | error e =>
    rw [hs] at h
    dsimp only at h ⊢
    by_cases hc : (wht && (e = ENOENT && f.type = .wht)) = true
    · rw [if_pos hc] at h ⊢
      injection h with h
      subst h
      rfl
    · rw [if_neg hc] at h
      simp at h

theorem callStat_err {wht : Bool} {now : Now} {f : Ftw} {flags : Flags} {a e : Nat} (h : eff wht f (now.stat flags) = .error e) :
    callStat wht now f flags (some a) = (cache (write f.mem a now.junk) f.bufs flags none e).bind fun b => .ok (.error e, { f with
      bufs := b
      mem := write f.mem a now.junk
      calls := f.calls + 1 }) := by
  unfold callStat
  unfold eff at h
  cases hs : now.stat flags with
  | ok sb' =>
    rw [hs] at h
    simp at h
  | error e' =>
    rw [hs] at h
    dsimp only at h ⊢
    by_cases hc : (wht && (e' = ENOENT && f.type = .wht)) = true
    · rw [if_pos hc] at h
      simp at h
    · rw [if_neg hc] at h ⊢
      injection h with h
      subst h
      rfl

theorem write_self (mem : Mem) (a : Nat) (x : Option Sb) : write mem a x a = x := by simp [write]

theorem write_ne {mem : Mem} {a b : Nat} {x : Option Sb} (h : b ≠ a) : write mem a x b = mem b := by simp [write, h]

/-- What `statImpl()` with `FOLLOW` can do. -/
inductive FollowCase (wht : Bool) (now : Now) (f : Ftw) : Except Nat Nat → Ftw → Prop where
  | hit (a : Nat) (h0 : f.bufs.statErr = 0) (hb : f.bufs.statBuf = some a) : FollowCase wht now f (.ok a) f
  | err (h0 : f.bufs.statErr > 0) : FollowCase wht now f (.error f.bufs.statErr.toNat) f
  | ok (a : Nat) (sb : Sb) (h0 : f.bufs.statErr < 0) (hb : f.bufs.statBuf = some a) (he : eff wht f (now.stat FOLLOW) = .ok sb) :
      FollowCase wht now f (.ok a) { f with
        bufs := { f.bufs with
          statBuf := some a
          statErr := 0 }
        mem := write f.mem a (some sb)
        calls := f.calls + 1 }
  | fail (a e : Nat) (h0 : f.bufs.statErr < 0) (hb : f.bufs.statBuf = some a) (he : eff wht f (now.stat FOLLOW) = .error e) :
      FollowCase wht now f (.error e) { f with
        bufs := { f.bufs with
          statBuf := none
          statErr := e }
        mem := write f.mem a now.junk
        calls := f.calls + 1 }

theorem follow_case {wht : Bool} {now : Now} {f : Ftw} {s l : Nat} (inv : Inv s l f) :
    ∃ r g, statImpl wht now f FOLLOW = .ok (r, g) ∧ FollowCase wht now f r g := by
  have e : statImpl wht now f FOLLOW = useCache wht now f FOLLOW f.bufs.statBuf f.bufs.statErr := rfl
  rw [e]
  unfold useCache
  rcases Int.lt_trichotomy f.bufs.statErr 0 with h | h | h
  · rw [if_neg (by omega), if_neg (by omega), inv.sn h]
    cases hs : eff wht f (now.stat FOLLOW) with
    | ok sb =>
      rw [callStat_ok hs]
      exact ⟨_, _, rfl, .ok s sb h (inv.sn h) hs⟩
    | error e =>
      rw [callStat_err hs]
      exact ⟨_, _, rfl, .fail s e h (inv.sn h) hs⟩
  · rw [if_pos h]
    obtain ⟨a, sb, ha, _, _⟩ := inv.s0 h
    rw [ha]
    exact ⟨_, _, rfl, .hit a h ha⟩
  · rw [if_neg (by omega), if_pos h]
    exact ⟨_, _, rfl, .err h⟩

/-- What `statImpl()` with `NOFOLLOW` can do. -/
inductive NofollowCase (wht : Bool) (now : Now) (f : Ftw) : Except Nat Nat → Ftw → Prop where
  | hit (a : Nat) (h0 : f.bufs.lstatErr = 0) (hb : f.bufs.lstatBuf = some a) : NofollowCase wht now f (.ok a) f
  | err (h0 : f.bufs.lstatErr > 0) : NofollowCase wht now f (.error f.bufs.lstatErr.toNat) f
  | link (a : Nat) (sb : Sb) (h0 : f.bufs.lstatErr < 0) (hb : f.bufs.lstatBuf = some a) (he : eff wht f (now.stat NOFOLLOW) = .ok sb) (hl : sb.type = .lnk) :
      NofollowCase wht now f (.ok a) { f with
        bufs := { f.bufs with
          lstatBuf := some a
          lstatErr := 0 }
        mem := write f.mem a (some sb)
        calls := f.calls + 1 }
  | ok (a : Nat) (sb : Sb) (h0 : f.bufs.lstatErr < 0) (hb : f.bufs.lstatBuf = some a) (he : eff wht f (now.stat NOFOLLOW) = .ok sb) (hl : sb.type ≠ .lnk) :
      NofollowCase wht now f (.ok a) { f with
        bufs := ⟨some a, some a, 0, 0⟩
        mem := write f.mem a (some sb)
        calls := f.calls + 1 }
  | fail (a e : Nat) (h0 : f.bufs.lstatErr < 0) (hb : f.bufs.lstatBuf = some a) (he : eff wht f (now.stat NOFOLLOW) = .error e) (hn : e ≠ 0) :
      NofollowCase wht now f (.error e) { f with
        bufs := ⟨none, none, e, e⟩
        mem := write f.mem a now.junk
        calls := f.calls + 1 }

theorem nofollow_case {wht : Bool} {now : Now} {f : Ftw} {s l : Nat} (inv : Inv s l f) (hf : Now.Fails now) :
    ∃ r g, statImpl wht now f NOFOLLOW = .ok (r, g) ∧ NofollowCase wht now f r g := by
  have e : statImpl wht now f NOFOLLOW = useCache wht now f NOFOLLOW f.bufs.lstatBuf f.bufs.lstatErr := rfl
  rw [e]
  unfold useCache
  rcases Int.lt_trichotomy f.bufs.lstatErr 0 with h | h | h
  · rw [if_neg (by omega), if_neg (by omega), inv.ln h]
    cases hs : eff wht f (now.stat NOFOLLOW) with
    | ok sb =>
      rw [callStat_ok hs]
      by_cases hl : sb.type = .lnk
      · refine ⟨_, _, ?_, .link l sb h (inv.ln h) hs hl⟩
        simp [cache, NOFOLLOW, isLink, write_self, hl, Out.bind]
      · refine ⟨_, _, ?_, .ok l sb h (inv.ln h) hs hl⟩
        simp [cache, NOFOLLOW, isLink, write_self, hl, Out.bind]
    | error e =>
      have hn := eff_ne (hf NOFOLLOW) hs
      rw [callStat_err hs]
      refine ⟨_, _, ?_, .fail l e h (inv.ln h) hs hn⟩
      simp [cache, NOFOLLOW, hn, Out.bind]
  · rw [if_pos h]
    obtain ⟨a, sb, ha, _, _⟩ := inv.l0 h
    rw [ha]
    exact ⟨_, _, rfl, .hit a h ha⟩
  · rw [if_neg (by omega), if_pos h]
    exact ⟨_, _, rfl, .err h⟩

theorem follow_ext {wht : Bool} {now : Now} {f g : Ftw} {s l : Nat} {r : Except Nat Nat} (inv : Inv s l f) (hf : Now.Fails now) (c : FollowCase wht now f r g) :
    Inv s l g ∧ Ext s l f g ∧ Good s l r g ∧ g.bufs.statErr ≥ 0 := by
  obtain ⟨ne, sn, ln, s0, l0⟩ := inv
  cases c with
  | hit a h0 hb =>
    refine ⟨⟨ne, sn, ln, s0, l0⟩, Ext.refl _ _ _, ?_, by omega⟩
    intro a' ha'
    injection ha' with ha'
    obtain ⟨b, sb, h1, h2, h3⟩ := s0 h0
    rw [hb] at h1
    injection h1 with h1
    rw [← ha', h1]
    exact ⟨h3, sb, h2⟩
  | err h0 =>
    refine ⟨⟨ne, sn, ln, s0, l0⟩, Ext.refl _ _ _, ?_, by omega⟩
    intro a' ha'
    simp at ha'
  | ok a sb h0 hb he =>
    have ha : a = s := by rw [sn h0] at hb; injection hb with hb; exact hb.symm
    subst ha
    have hw : ¬ Writable a l { f with
        bufs := { f.bufs with
          statBuf := some a
          statErr := 0 }
        mem := write f.mem a (some sb)
        calls := f.calls + 1 } a := by
      intro h
      rcases h with ⟨h, _⟩ | ⟨_, h⟩
      · simp at h
      · exact ne h
    refine ⟨⟨ne, ?_, ln, ?_, ?_⟩, ⟨rfl, rfl, ?_, ?_, ?_, ?_, ?_⟩, ?_, ?_⟩
    · intro h; simp at h
    · intro _; exact ⟨a, sb, rfl, write_self _ _ _, hw⟩
    · intro h
      obtain ⟨b, sb', h1, h2, h3⟩ := l0 h
      have hba : b ≠ a := fun e => h3 (.inl ⟨h0, e⟩)
      refine ⟨b, sb', h1, (write_ne hba).trans h2, ?_⟩
      intro h4
      rcases h4 with ⟨h4, _⟩ | h4
      · simp at h4
      · exact h3 (.inr h4)
    · intro b hb'
      have hba : b ≠ a := fun e => hb' (.inl ⟨h0, e⟩)
      refine ⟨?_, write_ne hba⟩
      intro h4
      rcases h4 with ⟨h4, _⟩ | h4
      · simp at h4
      · exact hb' (.inr h4)
    · simp only [left]
      rw [if_pos h0]
      simp
      omega
    · intro _; exact ⟨rfl, rfl⟩
    · intro h; omega
    · intro _ h; omega
    · intro b hb'
      injection hb' with hb'
      subst hb'
      exact ⟨hw, sb, write_self _ _ _⟩
    · simp
  | fail a e h0 hb he =>
    have ha : a = s := by rw [sn h0] at hb; injection hb with hb; exact hb.symm
    subst ha
    have hne := eff_ne (hf FOLLOW) he
    refine ⟨⟨ne, ?_, ln, ?_, ?_⟩, ⟨rfl, rfl, ?_, ?_, ?_, ?_, ?_⟩, ?_, ?_⟩
    · intro h; simp at h; omega
    · intro h; simp at h; omega
    · intro h
      obtain ⟨b, sb', h1, h2, h3⟩ := l0 h
      have hba : b ≠ a := fun e => h3 (.inl ⟨h0, e⟩)
      refine ⟨b, sb', h1, (write_ne hba).trans h2, ?_⟩
      intro h4
      rcases h4 with ⟨h4, _⟩ | h4
      · simp at h4; omega
      · exact h3 (.inr h4)
    · intro b hb'
      have hba : b ≠ a := fun e => hb' (.inl ⟨h0, e⟩)
      refine ⟨?_, write_ne hba⟩
      intro h4
      rcases h4 with ⟨h4, _⟩ | h4
      · simp at h4; omega
      · exact hb' (.inr h4)
    · simp only [left]
      rw [if_pos h0, if_neg (by omega)]
      omega
    · intro _; exact ⟨rfl, rfl⟩
    · intro h; omega
    · intro _ h; omega
    · intro b hb'
      simp at hb'
    · simp

theorem nofollow_ext {wht : Bool} {now : Now} {f g : Ftw} {s l : Nat} {r : Except Nat Nat} (inv : Inv s l f) (c : NofollowCase wht now f r g) :
    Inv s l g ∧ Ext s l f g ∧ Good s l r g ∧ g.bufs.lstatErr ≥ 0 := by
  obtain ⟨ne, sn, ln, s0, l0⟩ := inv
  cases c with
  | hit a h0 hb =>
    refine ⟨⟨ne, sn, ln, s0, l0⟩, Ext.refl _ _ _, ?_, by omega⟩
    intro a' ha'
    injection ha' with ha'
    obtain ⟨b, sb, h1, h2, h3⟩ := l0 h0
    rw [hb] at h1
    injection h1 with h1
    rw [← ha', h1]
    exact ⟨h3, sb, h2⟩
  | err h0 =>
    refine ⟨⟨ne, sn, ln, s0, l0⟩, Ext.refl _ _ _, ?_, by omega⟩
    intro a' ha'
    simp at ha'
  | link a sb h0 hb he hl =>
    have ha : a = l := by rw [ln h0] at hb; injection hb with hb; exact hb.symm
    subst ha
    have hw : ¬ Writable s a { f with
        bufs := { f.bufs with
          lstatBuf := some a
          lstatErr := 0 }
        mem := write f.mem a (some sb)
        calls := f.calls + 1 } a := by
      intro h
      rcases h with ⟨_, h⟩ | ⟨h, _⟩
      · exact ne h.symm
      · simp at h
    refine ⟨⟨ne, sn, ?_, ?_, ?_⟩, ⟨rfl, rfl, ?_, ?_, ?_, ?_, ?_⟩, ?_, ?_⟩
    · intro h; simp at h
    · intro h
      obtain ⟨b, sb', h1, h2, h3⟩ := s0 h
      have hba : b ≠ a := fun e => h3 (.inr ⟨h0, e⟩)
      refine ⟨b, sb', h1, (write_ne hba).trans h2, ?_⟩
      intro h4
      rcases h4 with h4 | ⟨h4, _⟩
      · exact h3 (.inl h4)
      · simp at h4
    · intro _; exact ⟨a, sb, rfl, write_self _ _ _, hw⟩
    · intro b hb'
      have hba : b ≠ a := fun e => hb' (.inr ⟨h0, e⟩)
      refine ⟨?_, write_ne hba⟩
      intro h4
      rcases h4 with h4 | ⟨h4, _⟩
      · exact hb' (.inl h4)
      · simp at h4
    · simp only [left]
      rw [if_pos h0]
      simp
      omega
    · intro h; omega
    · exact id
    · intro h; omega
    · intro b hb'
      injection hb' with hb'
      subst hb'
      exact ⟨hw, sb, write_self _ _ _⟩
    · simp
  | ok a sb h0 hb he hl =>
    have ha : a = l := by rw [ln h0] at hb; injection hb with hb; exact hb.symm
    subst ha
    have hw : ∀ b, ¬ Writable s a { f with
        bufs := ⟨some a, some a, 0, 0⟩
        mem := write f.mem a (some sb)
        calls := f.calls + 1 } b := by
      intro b h
      rcases h with ⟨h, _⟩ | ⟨h, _⟩ <;> simp at h
    refine ⟨⟨ne, ?_, ?_, ?_, ?_⟩, ⟨rfl, rfl, ?_, ?_, ?_, ?_, ?_⟩, ?_, ?_⟩
    · intro h; simp at h
    · intro h; simp at h
    · intro _; exact ⟨a, sb, rfl, write_self _ _ _, hw a⟩
    · intro _; exact ⟨a, sb, rfl, write_self _ _ _, hw a⟩
    · intro b hb'
      have hba : b ≠ a := fun e => hb' (.inr ⟨h0, e⟩)
      exact ⟨hw b, write_ne hba⟩
    · simp only [left]
      rw [if_pos h0]
      simp
    · intro h; omega
    · simp
    · intro h; omega
    · intro b hb'
      injection hb' with hb'
      subst hb'
      exact ⟨hw _, sb, write_self _ _ _⟩
    · simp
  | fail a e h0 hb he hn =>
    have ha : a = l := by rw [ln h0] at hb; injection hb with hb; exact hb.symm
    subst ha
    have hw : ∀ b, ¬ Writable s a { f with
        bufs := ⟨none, none, e, e⟩
        mem := write f.mem a now.junk
        calls := f.calls + 1 } b := by
      intro b h
      rcases h with ⟨h, _⟩ | ⟨h, _⟩ <;> simp at h <;> omega
    refine ⟨⟨ne, ?_, ?_, ?_, ?_⟩, ⟨rfl, rfl, ?_, ?_, ?_, ?_, ?_⟩, ?_, ?_⟩
    · intro h; simp at h; omega
    · intro h; simp at h; omega
    · intro h; simp at h; omega
    · intro h; simp at h; omega
    · intro b hb'
      have hba : b ≠ a := fun e => hb' (.inr ⟨h0, e⟩)
      exact ⟨hw b, write_ne hba⟩
    · simp only [left]
      rw [if_pos h0, if_neg (by omega)]
      omega
    · intro h; omega
    · simp
    · intro h; omega
    · intro b hb'
      simp at hb'
    · simp


/-! ## Any history -/

theorem impl_ext {wht : Bool} {now : Now} {f : Ftw} {s l : Nat} (flags : Flags) (hv : flags.tryfollow = false) (inv : Inv s l f) (hf : Now.Fails now) :
    ∃ r g, statImpl wht now f flags = .ok (r, g) ∧ Inv s l g ∧ Ext s l f g ∧ Good s l r g := by
  have hcase : flags = FOLLOW ∨ flags = NOFOLLOW := by
    obtain ⟨n, t⟩ := flags
    cases n <;> simp_all [FOLLOW, NOFOLLOW]
  rcases hcase with rfl | rfl
  · obtain ⟨r, g, h, c⟩ := follow_case (wht := wht) (now := now) inv
    obtain ⟨h1, h2, h3, _⟩ := follow_ext inv hf c
    exact ⟨r, g, h, h1, h2, h3⟩
  · obtain ⟨r, g, h, c⟩ := nofollow_case (wht := wht) inv hf
    obtain ⟨h1, h2, h3, _⟩ := nofollow_ext inv c
    exact ⟨r, g, h, h1, h2, h3⟩

theorem stat_ext {wht : Bool} {now later : Now} {f : Ftw} {s l : Nat} (flags : Flags) (inv : Inv s l f) (hf : Now.Fails now) (hg : Now.Fails later) :
    ∃ r g, bftwStat wht now later f flags = .ok (r, g) ∧ Inv s l g ∧ Ext s l f g ∧ Good s l r g := by
  unfold bftwStat
  by_cases ht : flags.tryfollow = true
  · rw [if_pos ht]
    obtain ⟨r, g, h, h1, h2, h3⟩ := impl_ext (wht := wht) FOLLOW rfl inv hf
    rw [h, ok_bind]
    cases r with
    | ok a => exact ⟨_, _, rfl, h1, h2, h3⟩
    | error e =>
      dsimp only
      by_cases he : likeENOENT e = true
      · rw [if_pos he]
        obtain ⟨r', g', h', h1', h2', h3'⟩ := impl_ext (wht := wht) NOFOLLOW rfl h1 hg
        exact ⟨r', g', h', h1', h2.trans h2', h3'⟩
      · rw [if_neg he]
        exact ⟨_, _, rfl, h1, h2, h3⟩
  · rw [if_neg ht]
    exact impl_ext flags (by simpa using ht) inv hf

theorem type_ext {wht : Bool} {now later : Now} {f : Ftw} {s l : Nat} (flags : Flags) (inv : Inv s l f) (hf : Now.Fails now) (hg : Now.Fails later) :
    ∃ r g, bftwType wht now later f flags = .ok (r, g) ∧ Inv s l g ∧ Ext s l f g := by
  unfold bftwType
  cases knownType f flags with
  | some t => exact ⟨_, _, rfl, inv, Ext.refl _ _ _⟩
  | none =>
    obtain ⟨r, g, h, h1, h2, h3⟩ := stat_ext (wht := wht) flags inv hf hg
    dsimp only
    rw [h, ok_bind]
    cases r with
    | error e => exact ⟨_, _, rfl, h1, h2⟩
    | ok a =>
      obtain ⟨_, sb, hsb⟩ := h3 a rfl
      dsimp only
      unfold typeAt
      rw [hsb]
      exact ⟨_, _, rfl, h1, h2⟩

theorem cached_good {f : Ftw} {s l : Nat} (flags : Flags) (inv : Inv s l f) {a : Nat} (h : cachedStat f flags = some a) :
    ¬ Writable s l f a ∧ ∃ sb, f.mem a = some sb := by
  have hl : f.bufs.lstatErr = 0 → f.bufs.lstatBuf = some a → ¬ Writable s l f a ∧ ∃ sb, f.mem a = some sb := by
    intro h0 h1
    obtain ⟨b, sb, h2, h3, h4⟩ := inv.l0 h0
    rw [h1] at h2
    injection h2 with h2
    rw [h2]
    exact ⟨h4, sb, h3⟩
  unfold cachedStat at h
  split at h
  · split at h
    · exact hl ‹_› h
    · simp at h
  · split at h
    · obtain ⟨b, sb, h2, h3, h4⟩ := inv.s0 ‹_›
      rw [h] at h2
      injection h2 with h2
      rw [h2]
      exact ⟨h4, sb, h3⟩
    · split at h
      · split at h
        · exact hl ‹_› h
        · simp at h
      · simp at h

theorem step_ext {wht : Bool} {f : Ftw} {s l : Nat} (st : Step) (inv : Inv s l f) (hf : Now.Fails st.now) (hg : Now.Fails st.later) :
    ∃ r g, step wht f st = .ok (r, g) ∧ Inv s l g ∧ Ext s l f g ∧ (∀ a, ptr r = some a → ¬ Writable s l g a ∧ ∃ sb, g.mem a = some sb) := by
  obtain ⟨op, now, later, errno⟩ := st
  unfold step
  cases op with
  | stat flags =>
    obtain ⟨r, g, h, h1, h2, h3⟩ := stat_ext (wht := wht) flags inv hf hg
    dsimp only at h ⊢
    rw [h, ok_bind]
    refine ⟨_, _, rfl, h1, h2, ?_⟩
    intro a ha
    cases r with
    | ok b =>
      simp only [ptr] at ha
      injection ha with ha
      subst ha
      exact h3 _ rfl
    | error e => simp [ptr] at ha
  | cached flags =>
    refine ⟨_, _, rfl, inv, Ext.refl _ _ _, ?_⟩
    intro a ha
    cases hc : cachedStat f flags with
    | none => rw [hc] at ha; simp [ptr] at ha
    | some b =>
      rw [hc] at ha
      simp only [ptr] at ha
      injection ha with ha
      subst ha
      exact cached_good flags inv hc
  | type flags =>
    obtain ⟨r, g, h, h1, h2⟩ := type_ext (wht := wht) flags inv hf hg
    dsimp only at h ⊢
    rw [h, ok_bind]
    exact ⟨_, _, rfl, h1, h2, by simp [ptr]⟩
  | xtype types =>
    obtain ⟨r, g, h, h1, h2⟩ := type_ext (wht := wht) ⟨!f.statFlags.nofollow, !f.statFlags.tryfollow⟩ inv hf hg
    dsimp only at h ⊢
    unfold evalXtype
    dsimp only
    rw [h, ok_bind]
    dsimp only
    by_cases hc : (if (!f.statFlags.tryfollow) && (r.1 = .error && r.2.getD errno = ELOOP) then .lnk else r.1) = FType.error
    · rw [if_pos hc]
      exact ⟨_, _, rfl, h1, h2, by simp [ptr]⟩
    · rw [if_neg hc]
      exact ⟨_, _, rfl, h1, h2, by simp [ptr]⟩
  | letter =>
    obtain ⟨r, g, h, h1, h2⟩ := type_ext (wht := wht) FOLLOW inv hf hg
    dsimp only at h ⊢
    unfold printfY
    rw [h, ok_bind]
    dsimp only
    by_cases hc : r.1 = .error
    · rw [if_pos hc]
      by_cases hc2 : r.2.getD errno = ELOOP
      · rw [if_pos hc2]
        exact ⟨_, _, rfl, h1, h2, by simp [ptr]⟩
      · rw [if_neg hc2]
        by_cases hc3 : likeENOENT (r.2.getD errno) = true
        · rw [if_pos hc3]
          exact ⟨_, _, rfl, h1, h2, by simp [ptr]⟩
        · rw [if_neg hc3]
          exact ⟨_, _, rfl, h1, h2, by simp [ptr]⟩
    · rw [if_neg hc]
      exact ⟨_, _, rfl, h1, h2, by simp [ptr]⟩
  | mount p =>
    dsimp only
    cases p with
    | none => exact ⟨_, _, rfl, inv, Ext.refl _ _ _, by simp [ptr]⟩
    | some dev =>
      obtain ⟨r, g, h, h1, h2, h3⟩ := stat_ext (wht := wht) f.statFlags inv hf hg
      unfold isMount
      dsimp only at h ⊢
      rw [h, ok_bind]
      cases r with
      | error e => exact ⟨_, _, rfl, h1, h2, by simp [ptr]⟩
      | ok a =>
        obtain ⟨_, sb, hsb⟩ := h3 a rfl
        dsimp only
        rw [hsb]
        exact ⟨_, _, rfl, h1, h2, by simp [ptr]⟩

theorem run_ext {wht : Bool} {s l : Nat} (ss : List Step) {f : Ftw} (inv : Inv s l f) (hf : AllFail ss) :
    ∃ rs g, run wht f ss = .ok (rs, g) ∧ rs.length = ss.length ∧ Inv s l g ∧ Ext s l f g := by
  induction ss generalizing f with
  | nil => exact ⟨_, _, rfl, rfl, inv, Ext.refl _ _ _⟩
  | cons st ss ih =>
    obtain ⟨r, g, h, h1, h2, _⟩ := step_ext (wht := wht) st inv (hf st (.head _)).1 (hf st (.head _)).2
    obtain ⟨rs, g', h', hl, h1', h2'⟩ := ih h1 fun t ht => hf t (.tail _ ht)
    unfold run
    rw [h, ok_bind]
    dsimp only
    rw [h', ok_bind]
    exact ⟨_, _, rfl, by simp [hl], h1', h2.trans h2'⟩

theorem run_cons (wht : Bool) (f : Ftw) (x : Step) (xs : List Step) :
    run wht f (x :: xs) = (step wht f x).bind fun r => (run wht r.2 xs).bind fun q => .ok (r.1 :: q.1, q.2) := rfl

theorem run_append {wht : Bool} (xs ys : List Step) (f : Ftw) :
    run wht f (xs ++ ys) = (run wht f xs).bind fun r => (run wht r.2 ys).bind fun q => .ok (r.1 ++ q.1, q.2) := by
  induction xs generalizing f with
  | nil =>
    show run wht f ys = (run wht f ys).bind _
    cases run wht f ys <;> rfl
  | cons x xs ih =>
    rw [List.cons_append, run_cons, run_cons]
    cases step wht f x with
    | err e => rfl
    | ub => rfl
    | ok r =>
      rw [ok_bind, ok_bind, ih]
      cases run wht r.2 xs with
      | err e => rfl
      | ub => rfl
      | ok q =>
        rw [ok_bind, ok_bind, ok_bind]
        dsimp only
        cases run wht q.2 ys <;> rfl

/-! ## The start -/

theorem inv_start {s l : Nat} (hsl : s ≠ l) (type : FType) (sf : Flags) (mem : Mem) : Inv s l ⟨type, sf, init (some s) (some l), mem, 0⟩ :=
  ⟨hsl, fun _ => rfl, fun _ => rfl, fun h => by simp [init] at h, fun h => by simp [init] at h⟩

/-- The buffers at the start. -/
theorem start_inv {s l : Nat} (hsl : s ≠ l) {sf : Flags} {mem : Mem} {pre : Option (Nat × Except Nat Sb)} (hp : PreOk s l sf pre) :
    ∃ b m, start s l sf mem pre = .ok (b, m) ∧ ∀ type sf', Inv s l ⟨type, sf', b, m, 0⟩ := by
  cases pre with
  | none => exact ⟨_, _, rfl, fun t sf' => inv_start hsl t sf' mem⟩
  | some p =>
    obtain ⟨a, r⟩ := p
    obtain ⟨hsf, hp⟩ := hp
    obtain ⟨h1, h2, h3⟩ := hp a r rfl
    have key : ∀ (b : Bufs) (m : Mem) (sb : Sb), m a = some sb → (b = ⟨some a, some a, 0, 0⟩ ∨ b = ⟨some s, some a, -1, 0⟩ ∨ b = ⟨some a, some l, 0, -1⟩ ∨ (∃ x : Option Nat, b = ⟨x, some a, 2, 0⟩)) → ∀ type sf', Inv s l ⟨type, sf', b, m, 0⟩ := by
      intro b m sb hm hb type sf'
      rcases hb with rfl | rfl | rfl | ⟨x, rfl⟩
      · refine ⟨hsl, by simp, by simp, fun _ => ⟨a, sb, rfl, hm, ?_⟩, fun _ => ⟨a, sb, rfl, hm, ?_⟩⟩ <;> simp [Writable]
      · refine ⟨hsl, by simp, by simp, by simp, fun _ => ⟨a, sb, rfl, hm, ?_⟩⟩
        simp [Writable, h1]
      · refine ⟨hsl, by simp, by simp, fun _ => ⟨a, sb, rfl, hm, ?_⟩, by simp⟩
        simp [Writable, h2]
      · refine ⟨hsl, by simp, by simp, by simp, fun _ => ⟨a, sb, rfl, hm, ?_⟩⟩
        simp [Writable]
    cases r with
    | ok sb =>
      by_cases hl : sb.type = .lnk <;> rcases hsf with rfl | rfl
      · refine ⟨⟨some s, some a, -1, 0⟩, write mem a (some sb), ?_, key _ _ sb (write_self _ _ _) (.inr (.inl rfl))⟩
        simp [start, ioqStat, cache, NOFOLLOW, isLink, write_self, hl, Out.bind, init, fill]
      · refine ⟨⟨none, some a, 2, 0⟩, write mem a (some sb), ?_, key _ _ sb (write_self _ _ _) (.inr (.inr (.inr ⟨_, rfl⟩)))⟩
        simp [start, ioqStat, cache, TRYFOLLOW, isLink, write_self, hl, Out.bind, init, fill, ENOENT]
      · refine ⟨⟨some a, some a, 0, 0⟩, write mem a (some sb), ?_, key _ _ sb (write_self _ _ _) (.inl rfl)⟩
        simp [start, ioqStat, cache, NOFOLLOW, isLink, write_self, hl, Out.bind, init, fill]
      · refine ⟨⟨some a, some l, 0, -1⟩, write mem a (some sb), ?_, key _ _ sb (write_self _ _ _) (.inr (.inr (.inl rfl)))⟩
        simp [start, ioqStat, cache, TRYFOLLOW, isLink, write_self, hl, Out.bind, init, fill]
    | error e =>
      have hn := h3 e rfl
      rcases hsf with rfl | rfl
      · refine ⟨⟨none, none, e, e⟩, mem, ?_, ?_⟩
        · simp [start, ioqStat, cache, NOFOLLOW, hn, Out.bind, init, fill]
        · intro type sf'
          refine ⟨hsl, ?_, ?_, ?_, ?_⟩ <;> intro h <;> simp at h <;> omega
      · refine ⟨⟨none, some l, e, -1⟩, mem, ?_, ?_⟩
        · simp [start, ioqStat, cache, TRYFOLLOW, hn, Out.bind, init, fill]
        · intro type sf'
          refine ⟨hsl, ?_, ?_, ?_, ?_⟩ <;> intro h <;> simp at h <;> first | omega | rfl

/-! ## A file that does not change -/

theorem likeENOENT_iff {e : Nat} : likeENOENT e = true ↔ e = 2 ∨ e = 20 := by
  unfold likeENOENT
  rw [Bool.or_eq_true, decide_eq_true_eq, decide_eq_true_eq]
  rfl

theorem sameErr_like {e e' : Nat} (h : SameErr e e') : (e = 2 ∨ e = 20) ↔ (e' = 2 ∨ e' = 20) := by
  rcases h with rfl | ⟨h1, h2⟩
  · rfl
  · exact ⟨fun _ => h2, fun _ => h1⟩

theorem sameErr_eq {e e' : Nat} (h : SameErr e e') (hn : ¬ (e' = 2 ∨ e' = 20)) : e = e' := by
  rcases h with h | ⟨_, h⟩
  · exact h
  · exact absurd h hn

theorem whiteout_consistent {file : File} (hc : file.Consistent) (wht : Bool) (type : FType) : (file.whiteout wht type).Consistent := by
  obtain ⟨h1, h2, h3, h4, h5, h6, h7⟩ := hc
  have hok : ∀ {r : Except Nat Sb} {sb}, ((match r with
      | .ok sb => .ok sb
      | .error e => if wht = true ∧ type = .wht ∧ e = 2 then .ok ⟨.wht, 0, 0, 0⟩ else .error e) : Except Nat Sb) = .ok sb → r = .ok sb ∨ ((wht = true ∧ type = .wht ∧ r = .error 2) ∧ sb = ⟨.wht, 0, 0, 0⟩) := by
    intro r sb h
    cases r with
    | ok sb' => exact .inl h
    | error e =>
      dsimp only at h
      split at h
      · injection h with h
        obtain ⟨a, b, c⟩ := ‹_ ∧ _›
        subst c
        exact .inr ⟨⟨a, b, rfl⟩, h.symm⟩
      · simp at h
  have herr : ∀ {r : Except Nat Sb} {e}, ((match r with
      | .ok sb => .ok sb
      | .error e => if wht = true ∧ type = .wht ∧ e = 2 then .ok ⟨.wht, 0, 0, 0⟩ else .error e) : Except Nat Sb) = .error e → r = .error e ∧ ¬ (wht = true ∧ type = .wht ∧ e = 2) := by
    intro r e h
    cases r with
    | ok sb' => simp at h
    | error e' =>
      dsimp only at h
      split at h
      · simp at h
      · injection h with h
        subst h
        exact ⟨rfl, ‹_›⟩
  refine ⟨?_, ?_, ?_, ?_, ?_, ?_, ?_⟩
  · intro e h
    obtain ⟨ha, hb⟩ := herr h
    show (match file.stat with
      | .ok sb => .ok sb
      | .error e => if wht = true ∧ type = .wht ∧ e = 2 then .ok ⟨.wht, 0, 0, 0⟩ else .error e) = Except.error e
    rw [h1 e ha]
    exact if_neg hb
  · intro sb h hl
    show (match file.stat with
      | .ok sb => .ok sb
      | .error e => if wht = true ∧ type = .wht ∧ e = 2 then .ok ⟨.wht, 0, 0, 0⟩ else .error e) = Except.ok sb
    rcases hok h with h | ⟨⟨ha, hb, hd⟩, rfl⟩
    · rw [h2 sb h hl]
    · rw [h1 2 hd]
      exact if_pos ⟨ha, hb, rfl⟩
  · intro sb h
    rcases hok h with h | ⟨_, rfl⟩
    · exact h3 sb h
    · simp
  · intro e h
    exact h4 e (herr h).1
  · intro e h
    exact h5 e (herr h).1
  · intro sb h
    rcases hok h with h | ⟨_, rfl⟩
    · exact h6 sb h
    · simp
  · intro sb h
    rcases hok h with h | ⟨_, rfl⟩
    · exact h7 sb h
    · simp

theorem eff_follow (file : File) (wht : Bool) (f : Ftw) : eff wht f (file.answer FOLLOW) = (file.whiteout wht f.type).stat := by
  show eff wht f file.stat = _
  unfold eff File.whiteout
  cases file.stat with
  | ok sb => rfl
  | error e =>
    dsimp only
    by_cases h : wht = true ∧ f.type = .wht ∧ e = 2
    · rw [if_pos h, if_pos (by obtain ⟨a, b, c⟩ := h; subst a; simp [b, c, ENOENT])]
      rfl
    · rw [if_neg h, if_neg (by
        intro hx
        simp only [Bool.and_eq_true, decide_eq_true_eq] at hx
        exact h ⟨hx.1, hx.2.2, hx.2.1⟩)]

theorem eff_nofollow (file : File) (wht : Bool) (f : Ftw) : eff wht f (file.answer NOFOLLOW) = (file.whiteout wht f.type).lstat := by
  show eff wht f file.lstat = _
  unfold eff File.whiteout
  cases file.lstat with
  | ok sb => rfl
  | error e =>
    dsimp only
    by_cases h : wht = true ∧ f.type = .wht ∧ e = 2
    · rw [if_pos h, if_pos (by obtain ⟨a, b, c⟩ := h; subst a; simp [b, c, ENOENT])]
      rfl
    · rw [if_neg h, if_neg (by
        intro hx
        simp only [Bool.and_eq_true, decide_eq_true_eq] at hx
        exact h ⟨hx.1, hx.2.2, hx.2.1⟩)]

/-- The cache is right about the file. -/
structure Know (F : File) (f : Ftw) : Prop where
  s0 : f.bufs.statErr = 0 → ∃ a sb, f.bufs.statBuf = some a ∧ f.mem a = some sb ∧ F.stat = .ok sb
  sp : f.bufs.statErr > 0 → ∃ e, F.stat = .error e ∧ SameErr f.bufs.statErr.toNat e
  l0 : f.bufs.lstatErr = 0 → ∃ a sb, f.bufs.lstatBuf = some a ∧ f.mem a = some sb ∧ F.lstat = .ok sb
  lp : f.bufs.lstatErr > 0 → F.lstat = .error f.bufs.lstatErr.toNat

theorem follow_know {wht : Bool} {now : Now} {F file : File} {f g : Ftw} {s l : Nat} {r : Except Nat Nat} (inv : Inv s l f) (hc : F.Consistent) (hF : file.whiteout wht f.type = F) (hnow : now.stat = file.answer) (k : Know F f) (c : FollowCase wht now f r g) :
    Know F g ∧ Agree g.mem r F.stat := by
  have heff : eff wht f (now.stat FOLLOW) = F.stat := by rw [hnow, ← hF]; exact eff_follow file wht f
  cases c with
  | hit a h0 hb =>
    refine ⟨k, ?_⟩
    obtain ⟨b, sb, h1, h2, h3⟩ := k.s0 h0
    rw [hb] at h1
    injection h1 with h1
    subst h1
    rw [h3]
    exact ⟨a, rfl, h2⟩
  | err h0 =>
    refine ⟨k, ?_⟩
    obtain ⟨e, h1, h2⟩ := k.sp h0
    rw [h1]
    exact ⟨_, rfl, h2⟩
  | ok a sb h0 hb he =>
    have ha : a = s := by rw [inv.sn h0] at hb; injection hb with hb; exact hb.symm
    rw [heff] at he
    refine ⟨⟨fun _ => ⟨a, sb, rfl, write_self _ _ _, he⟩, by simp, ?_, k.lp⟩, ?_⟩
    · intro h
      obtain ⟨b, sb', h1, h2, h3⟩ := k.l0 h
      obtain ⟨b', sb'', h4, h5, h6⟩ := inv.l0 h
      rw [h1] at h4
      injection h4 with h4
      subst h4
      have hba : b ≠ a := fun e => h6 (.inl ⟨h0, e.trans ha⟩)
      exact ⟨b, sb', h1, (write_ne hba).trans h2, h3⟩
    · rw [he]
      exact ⟨a, rfl, write_self _ _ _⟩
  | fail a e h0 hb he =>
    have ha : a = s := by rw [inv.sn h0] at hb; injection hb with hb; exact hb.symm
    rw [heff] at he
    refine ⟨⟨?_, ?_, ?_, k.lp⟩, ?_⟩
    · intro h
      have : e = 0 := by simpa using h
      subst this
      exact absurd rfl (hc.statErrno 0 he)
    · intro h
      exact ⟨e, he, by simp [SameErr]⟩
    · intro h
      obtain ⟨b, sb', h1, h2, h3⟩ := k.l0 h
      obtain ⟨b', sb'', h4, h5, h6⟩ := inv.l0 h
      rw [h1] at h4
      injection h4 with h4
      subst h4
      have hba : b ≠ a := fun e => h6 (.inl ⟨h0, e.trans ha⟩)
      exact ⟨b, sb', h1, (write_ne hba).trans h2, h3⟩
    · rw [he]
      exact ⟨e, rfl, .inl rfl⟩

theorem nofollow_know {wht : Bool} {now : Now} {F file : File} {f g : Ftw} {s l : Nat} {r : Except Nat Nat} (inv : Inv s l f) (hc : F.Consistent) (hF : file.whiteout wht f.type = F) (hnow : now.stat = file.answer) (k : Know F f) (c : NofollowCase wht now f r g) :
    Know F g ∧ Agree g.mem r F.lstat := by
  have heff : eff wht f (now.stat NOFOLLOW) = F.lstat := by rw [hnow, ← hF]; exact eff_nofollow file wht f
  cases c with
  | hit a h0 hb =>
    refine ⟨k, ?_⟩
    obtain ⟨b, sb, h1, h2, h3⟩ := k.l0 h0
    rw [hb] at h1
    injection h1 with h1
    subst h1
    rw [h3]
    exact ⟨a, rfl, h2⟩
  | err h0 =>
    refine ⟨k, ?_⟩
    rw [k.lp h0]
    exact ⟨_, rfl, .inl rfl⟩
  | link a sb h0 hb he hl =>
    have ha : a = l := by rw [inv.ln h0] at hb; injection hb with hb; exact hb.symm
    rw [heff] at he
    refine ⟨⟨?_, k.sp, fun _ => ⟨a, sb, rfl, write_self _ _ _, he⟩, by simp⟩, ?_⟩
    · intro h
      obtain ⟨b, sb', h1, h2, h3⟩ := k.s0 h
      obtain ⟨b', sb'', h4, h5, h6⟩ := inv.s0 h
      rw [h1] at h4
      injection h4 with h4
      subst h4
      have hba : b ≠ a := fun e => h6 (.inr ⟨h0, e.trans ha⟩)
      exact ⟨b, sb', h1, (write_ne hba).trans h2, h3⟩
    · rw [he]
      exact ⟨a, rfl, write_self _ _ _⟩
  | ok a sb h0 hb he hl =>
    rw [heff] at he
    refine ⟨⟨fun _ => ⟨a, sb, rfl, write_self _ _ _, hc.plain sb he hl⟩, by simp, fun _ => ⟨a, sb, rfl, write_self _ _ _, he⟩, by simp⟩, ?_⟩
    rw [he]
    exact ⟨a, rfl, write_self _ _ _⟩
  | fail a e h0 hb he hn =>
    rw [heff] at he
    refine ⟨⟨?_, ?_, ?_, ?_⟩, ?_⟩
    · intro h
      exact absurd (by simpa using h) hn
    · intro h
      exact ⟨e, hc.missing e he, by simp [SameErr]⟩
    · intro h
      exact absurd (by simpa using h) hn
    · intro h
      simpa using he
    · rw [he]
      exact ⟨e, rfl, .inl rfl⟩

theorem answer_fails {file : File} (hc : file.Consistent) {now : Now} (h : now.stat = file.answer) : Now.Fails now := by
  intro flags e he
  rw [h] at he
  unfold File.answer File.tryStat at he
  split at he
  · exact hc.lstatErrno e he
  · split at he
    · cases hs : file.stat with
      | ok sb => rw [hs] at he; simp at he
      | error e' =>
        rw [hs] at he
        dsimp only at he
        split at he
        · exact hc.lstatErrno e he
        · injection he with he
          subst he
          exact hc.statErrno _ hs
    · exact hc.statErrno e he

theorem agree_ok {mem : Mem} {r : Except Nat Nat} {ideal : Except Nat Sb} (h : Agree mem r ideal) {a : Nat} (hr : r = .ok a) : ∃ sb, ideal = .ok sb ∧ mem a = some sb := by
  subst hr
  cases ideal with
  | ok sb =>
    obtain ⟨b, h1, h2⟩ := h
    injection h1 with h1
    subst h1
    exact ⟨sb, rfl, h2⟩
  | error e =>
    obtain ⟨e', h1, _⟩ := h
    simp at h1

theorem agree_err {mem : Mem} {r : Except Nat Nat} {ideal : Except Nat Sb} (h : Agree mem r ideal) {e : Nat} (hr : r = .error e) : ∃ e', ideal = .error e' ∧ SameErr e e' := by
  subst hr
  cases ideal with
  | ok sb =>
    obtain ⟨b, h1, h2⟩ := h
    simp at h1
  | error e' =>
    obtain ⟨e'', h1, h2⟩ := h
    injection h1 with h1
    subst h1
    exact ⟨e', rfl, h2⟩

/-- The visit has asked for this. -/
def Asked (flags : Flags) (f : Ftw) : Prop :=
  if flags.tryfollow then f.bufs.statErr ≥ 0 ∧ (likeENOENT f.bufs.statErr.toNat = true → f.bufs.lstatErr ≥ 0)
  else if flags.nofollow then f.bufs.lstatErr ≥ 0
  else f.bufs.statErr ≥ 0

theorem stat_know {wht : Bool} {now later : Now} {F file : File} {f : Ftw} {s l : Nat} (flags : Flags) (hv : Valid flags) (inv : Inv s l f) (hc : file.Consistent) (hF : file.whiteout wht f.type = F) (hnow : now.stat = file.answer) (hlater : later.stat = file.answer) (k : Know F f) :
    ∃ r g, bftwStat wht now later f flags = .ok (r, g) ∧ Inv s l g ∧ Ext s l f g ∧ Know F g ∧ Agree g.mem r (F.answer flags) ∧ Asked flags g := by
  have hcF : F.Consistent := hF ▸ whiteout_consistent hc wht f.type
  have hf := answer_fails hc hnow
  have hg := answer_fails hc hlater
  rcases hv with rfl | rfl | rfl
  · obtain ⟨r, g, h, c⟩ := follow_case (wht := wht) (now := now) inv
    obtain ⟨h1, h2, _, h3⟩ := follow_ext inv hf c
    obtain ⟨h4, h5⟩ := follow_know inv hcF hF hnow k c
    exact ⟨r, g, h, h1, h2, h4, h5, h3⟩
  · obtain ⟨r, g, h, c⟩ := nofollow_case (wht := wht) inv hf
    obtain ⟨h1, h2, _, h3⟩ := nofollow_ext inv c
    obtain ⟨h4, h5⟩ := nofollow_know inv hcF hF hnow k c
    exact ⟨r, g, h, h1, h2, h4, h5, h3⟩
  · obtain ⟨r, g, h, c⟩ := follow_case (wht := wht) (now := now) inv
    obtain ⟨h1, h2, _, h3⟩ := follow_ext inv hf c
    obtain ⟨h4, h5⟩ := follow_know inv hcF hF hnow k c
    have e0 : bftwStat wht now later f TRYFOLLOW = (statImpl wht now f FOLLOW).bind fun r =>
      match r with
      | (.ok a, f) => .ok (.ok a, f)
      | (.error e, f) => if likeENOENT e then statImpl wht later f NOFOLLOW else .ok (.error e, f) := rfl
    rw [e0, h, ok_bind]
    have ea : F.answer TRYFOLLOW = F.tryStat := rfl
    rw [ea]
    cases r with
    | ok a =>
      obtain ⟨sb, h6, h7⟩ := agree_ok h5 rfl
      refine ⟨_, _, rfl, h1, h2, h4, ?_, ⟨h3, ?_⟩⟩
      · unfold File.tryStat
        rw [h6]
        exact ⟨a, rfl, h7⟩
      · intro hl
        rcases Int.lt_trichotomy g.bufs.statErr 0 with hh | hh | hh
        · omega
        · rw [hh] at hl
          rw [likeENOENT_iff] at hl
          omega
        · obtain ⟨e, h8, _⟩ := h4.sp hh
          rw [h6] at h8
          simp at h8
    | error e =>
      obtain ⟨e', h6, h7⟩ := agree_err h5 rfl
      dsimp only
      by_cases hl : likeENOENT e = true
      · rw [if_pos hl]
        obtain ⟨r', g', h', c'⟩ := nofollow_case (wht := wht) h1 hg
        obtain ⟨h1', h2', _, h3'⟩ := nofollow_ext h1 c'
        obtain ⟨h4', h5'⟩ := nofollow_know h1 hcF (by rw [h2.type]; exact hF) hlater h4 c'
        refine ⟨r', g', h', h1', h2.trans h2', h4', ?_, ⟨h2'.stat h3, fun _ => h3'⟩⟩
        unfold File.tryStat
        rw [h6]
        dsimp only
        rw [if_pos ((sameErr_like h7).mp (likeENOENT_iff.mp hl))]
        exact h5'
      · rw [if_neg hl]
        refine ⟨_, _, rfl, h1, h2, h4, ?_, ⟨h3, ?_⟩⟩
        · unfold File.tryStat
          rw [h6]
          dsimp only
          rw [if_neg fun hx => hl (likeENOENT_iff.mpr ((sameErr_like h7).mpr hx))]
          exact ⟨e, rfl, h7⟩
        · intro hx
          exfalso
          rcases Int.lt_trichotomy g.bufs.statErr 0 with hh | hh | hh
          · omega
          · obtain ⟨_, sb, _, _, h8⟩ := h4.s0 hh
            rw [h6] at h8
            simp at h8
          · obtain ⟨e'', h8, h9⟩ := h4.sp hh
            rw [h6] at h8
            injection h8 with h8
            subst h8
            exact hl (likeENOENT_iff.mpr ((sameErr_like h7).mpr ((sameErr_like h9).mp (likeENOENT_iff.mp hx))))

theorem asked_ext {F : File} {f g : Ftw} {s l : Nat} {flags : Flags} (e : Ext s l f g) (kf : Know F f) (kg : Know F g) (h : Asked flags f) : Asked flags g := by
  unfold Asked at h ⊢
  by_cases ht : flags.tryfollow = true
  · rw [if_pos ht] at h ⊢
    obtain ⟨h1, h2⟩ := h
    refine ⟨e.stat h1, fun hl => ?_⟩
    have key : likeENOENT f.bufs.statErr.toNat = true := by
      rcases Int.lt_trichotomy g.bufs.statErr 0 with hh | hh | hh
      · have := e.stat h1
        omega
      · rw [hh] at hl
        rw [likeENOENT_iff] at hl
        omega
      · obtain ⟨x, h3, h4⟩ := kg.sp hh
        rcases Int.lt_trichotomy f.bufs.statErr 0 with h5 | h5 | h5
        · omega
        · obtain ⟨_, sb, _, _, h6⟩ := kf.s0 h5
          rw [h3] at h6
          simp at h6
        · obtain ⟨y, h6, h7⟩ := kf.sp h5
          rw [h3] at h6
          injection h6 with h6
          subst h6
          exact likeENOENT_iff.mpr ((sameErr_like h7).mpr ((sameErr_like h4).mp (likeENOENT_iff.mp hl)))
    have h3 := h2 key
    rw [(e.lstat h3).1]
    exact h3
  · rw [if_neg ht] at h ⊢
    by_cases hn : flags.nofollow = true
    · rw [if_pos hn] at h ⊢
      rw [(e.lstat h).1]
      exact h
    · rw [if_neg hn] at h ⊢
      exact e.stat h

theorem cached_right {F : File} {f : Ftw} (flags : Flags) (k : Know F f) {a : Nat} (h : cachedStat f flags = some a) :
    ∃ sb, f.mem a = some sb ∧ F.answer flags = .ok sb := by
  have hl : f.bufs.lstatErr = 0 → f.bufs.lstatBuf = some a → ∃ sb, f.mem a = some sb ∧ F.lstat = .ok sb := by
    intro h0 h1
    obtain ⟨b, sb, h2, h3, h4⟩ := k.l0 h0
    rw [h1] at h2
    injection h2 with h2
    rw [h2]
    exact ⟨sb, h3, h4⟩
  unfold cachedStat at h
  unfold File.answer
  by_cases hn : flags.nofollow = true
  · rw [if_pos hn] at h ⊢
    split at h
    · exact hl ‹_› h
    · simp at h
  · rw [if_neg hn] at h ⊢
    by_cases h0 : f.bufs.statErr = 0
    · rw [if_pos h0] at h
      obtain ⟨b, sb, h2, h3, h4⟩ := k.s0 h0
      rw [h] at h2
      injection h2 with h2
      rw [h2]
      refine ⟨sb, h3, ?_⟩
      unfold File.tryStat
      rw [h4]
      simp
    · rw [if_neg h0] at h
      split at h
      · rename_i hc
        rw [Bool.and_eq_true] at hc
        rw [if_pos hc.1]
        split at h
        · obtain ⟨sb, h1, h2⟩ := hl ‹_› h
          have hpos : f.bufs.statErr > 0 := by
            have := likeENOENT_iff.mp hc.2
            omega
          obtain ⟨e, h3, h4⟩ := k.sp hpos
          refine ⟨sb, h1, ?_⟩
          unfold File.tryStat
          rw [h3]
          dsimp only
          rw [if_pos ((sameErr_like h4).mp (likeENOENT_iff.mp hc.2)), h2]
        · simp at h
      · simp at h

theorem cached_complete {F : File} {f : Ftw} (flags : Flags) (hv : Valid flags) (k : Know F f) (ha : Asked flags f) {sb : Sb} (h : F.answer flags = .ok sb) :
    ∃ a, cachedStat f flags = some a ∧ f.mem a = some sb := by
  have key : ∃ a, cachedStat f flags = some a := by
    rcases hv with rfl | rfl | rfl
    · have ha : f.bufs.statErr ≥ 0 := ha
      have h : F.stat = .ok sb := h
      rcases Int.lt_trichotomy f.bufs.statErr 0 with h0 | h0 | h0
      · omega
      · obtain ⟨a, _, h1, _, _⟩ := k.s0 h0
        exact ⟨a, by simp [cachedStat, FOLLOW, h0, h1]⟩
      · obtain ⟨e, h1, _⟩ := k.sp h0
        rw [h] at h1
        simp at h1
    · have ha : f.bufs.lstatErr ≥ 0 := ha
      have h : F.lstat = .ok sb := h
      rcases Int.lt_trichotomy f.bufs.lstatErr 0 with h0 | h0 | h0
      · omega
      · obtain ⟨a, _, h1, _, _⟩ := k.l0 h0
        exact ⟨a, by simp [cachedStat, NOFOLLOW, h0, h1]⟩
      · have h1 := k.lp h0
        rw [h] at h1
        simp at h1
    · obtain ⟨ha, hb⟩ : f.bufs.statErr ≥ 0 ∧ (likeENOENT f.bufs.statErr.toNat = true → f.bufs.lstatErr ≥ 0) := ha
      have h : F.tryStat = .ok sb := h
      unfold File.tryStat at h
      rcases Int.lt_trichotomy f.bufs.statErr 0 with h0 | h0 | h0
      · omega
      · obtain ⟨a, _, h1, _, _⟩ := k.s0 h0
        exact ⟨a, by simp [cachedStat, TRYFOLLOW, h0, h1]⟩
      · obtain ⟨e, h1, h2⟩ := k.sp h0
        rw [h1] at h
        dsimp only at h
        split at h
        · rename_i hl
          have hx := likeENOENT_iff.mpr ((sameErr_like h2).mpr hl)
          have hb := hb hx
          rcases Int.lt_trichotomy f.bufs.lstatErr 0 with h3 | h3 | h3
          · omega
          · obtain ⟨a, _, h4, _, _⟩ := k.l0 h3
            refine ⟨a, ?_⟩
            unfold cachedStat
            rw [if_neg (by simp [TRYFOLLOW]), if_neg (by omega), if_pos (by rw [hx]; rfl), if_pos h3, h4]
          · have h4 := k.lp h3
            rw [h] at h4
            simp at h4
        · simp at h
  obtain ⟨a, hk⟩ := key
  obtain ⟨sb', h1, h2⟩ := cached_right flags k hk
  rw [h] at h2
  injection h2 with h2
  subst h2
  exact ⟨a, hk, h1⟩

end Verif.Stat
