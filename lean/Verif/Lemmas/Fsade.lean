import Verif.Spec.Fsade
/-!
# Lemmas for ACLs and the like
-/
namespace Verif.Fsade

/-- `proc_works` is only 1 if it does. -/
def St.Ok (sys : Sys) (st : St) : Prop := 0 < st.procWorks → ∃ fd, sys.procAccess fd = true

theorem fakeCat_ok {n : Names} {sys : Sys} (h : Honest n sys) (alloc : Nat → Bool) {st : St} (hst : St.Ok sys st) (hl : 0 < st.live) {b : Buf} (hb : Found n b) {fd : Nat} (hfd : b.atFd = some fd)
    (hp : sys.procAccess fd = true) :
    (∀ f, n.byPath f (fakeCat alloc st b (procPath fd)).1 = n.byPath f b.path) ∧ St.Ok sys (fakeCat alloc st b (procPath fd)).2.2 ∧
      (freeFakeAt (fakeCat alloc st b (procPath fd)).2.1 (fakeCat alloc st b (procPath fd)).2.2).live + 1 = st.live := by
  unfold fakeCat
  split
  · exact ⟨fun f => by dsimp only; rw [h.procPath f fd _ hp, hb f fd hfd], hst, by simp [freeFakeAt]; omega⟩
  · exact ⟨fun f => rfl, hst, by simp [freeFakeAt]; omega⟩

theorem fakeAt_ok {n : Names} {sys : Sys} (h : Honest n sys) (alloc : Nat → Bool) {st : St} (hst : St.Ok sys st) {b : Buf} (hb : Found n b) :
    (∀ f, n.byPath f (fakeAt sys alloc st b).1 = n.byPath f b.path) ∧ St.Ok sys (fakeAt sys alloc st b).2.2 ∧
      (freeFakeAt (fakeAt sys alloc st b).2.1 (fakeAt sys alloc st b).2.2).live = st.live := by
  unfold fakeAt
  cases hfd : b.atFd with
  | none => exact ⟨fun _ => rfl, hst, rfl⟩
  | some fd =>
    dsimp only
    by_cases h0 : st.procWorks = 0
    · rw [if_pos h0]; exact ⟨fun _ => rfl, hst, rfl⟩
    · rw [if_neg h0]
      cases ha : alloc st.allocs with
      | false => exact ⟨fun _ => rfl, hst, rfl⟩
      | true =>
        simp only [Bool.not_true, Bool.false_eq_true, if_false]
        unfold fakeProbe
        dsimp only
        by_cases h1 : st.procWorks < 0
        · rw [if_pos h1]
          cases hp : sys.procAccess fd with
          | false =>
            rw [if_neg (by decide)]
            exact ⟨fun _ => rfl, fun h => absurd h (Int.lt_irrefl 0), by simp [freeFakeAt]⟩
          | true =>
            rw [if_pos rfl]
            obtain ⟨k1, k2, k3⟩ := fakeCat_ok h alloc (st := { st with allocs := st.allocs + 1, live := st.live + 1, procWorks := 1 }) (fun _ => ⟨fd, hp⟩) (by simp) hb hfd hp
            exact ⟨k1, k2, by dsimp only at k3; omega⟩
        · rw [if_neg h1]
          obtain ⟨fd', hp'⟩ := hst (by omega)
          have hp := h.proc fd' fd hp'
          obtain ⟨k1, k2, k3⟩ := fakeCat_ok h alloc (st := { st with allocs := st.allocs + 1, live := st.live + 1 }) (fun _ => ⟨fd, hp⟩) (by simp) hb hfd hp
          exact ⟨k1, k2, by dsimp only at k3; omega⟩

theorem freeFakeAt_ok {sys : Sys} {st : St} (h : St.Ok sys st) (owned : Bool) : St.Ok sys (freeFakeAt owned st) := by
  unfold freeFakeAt; split <;> exact h

/-! ## ACLs -/

/-- The last error. -/
def lastError (acl : Acl) : Option Nat := acl.reverse.findSome? fun | .error e => some e | .ok _ => none

theorem posix1e_access (acl : Acl) : ∀ r : Int × Nat, r.1 ≤ 0 →
    (acl.any extra = true → (posix1eLoop true acl r).1 = 1) ∧
    (acl.any extra = false → posix1eLoop true acl r = match lastError acl with | some e => (-1, e) | none => r) := by
  induction acl with
  | nil => intro r _; exact ⟨fun h => by simp at h, fun _ => rfl⟩
  | cons x acl ih =>
    intro r hr
    have hlast : lastError (x :: acl) = (lastError acl).or (match x with | .error e => some e | .ok _ => none) := by
      unfold lastError
      rw [List.reverse_cons, List.findSome?_append]
      cases x <;> rfl
    cases x with
    | error e =>
      have e1 : posix1eLoop true (.error e :: acl) r = posix1eLoop true acl (-1, e) := rfl
      rw [e1, List.any_cons, hlast]
      obtain ⟨i1, i2⟩ := ih (-1, e) (show (-1 : Int) ≤ 0 by decide)
      refine ⟨fun h => i1 (by simpa [extra] using h), fun h => ?_⟩
      rw [i2 (by simpa [extra] using h)]
      cases lastError acl <;> rfl
    | ok tag =>
      rw [List.any_cons, hlast]
      obtain ⟨i1, i2⟩ := ih r hr
      cases tag with
      | userObj =>
        refine ⟨fun h => i1 (by simpa [extra] using h), fun h => ?_⟩
        have := i2 (by simpa [extra] using h)
        show posix1eLoop true acl r = _
        rw [this]; cases lastError acl <;> rfl
      | groupObj =>
        refine ⟨fun h => i1 (by simpa [extra] using h), fun h => ?_⟩
        have := i2 (by simpa [extra] using h)
        show posix1eLoop true acl r = _
        rw [this]; cases lastError acl <;> rfl
      | other =>
        refine ⟨fun h => i1 (by simpa [extra] using h), fun h => ?_⟩
        have := i2 (by simpa [extra] using h)
        show posix1eLoop true acl r = _
        rw [this]; cases lastError acl <;> rfl
      | user => exact ⟨fun _ => rfl, fun h => by simp [extra] at h⟩
      | group => exact ⟨fun _ => rfl, fun h => by simp [extra] at h⟩
      | mask => exact ⟨fun _ => rfl, fun h => by simp [extra] at h⟩

theorem posix1e_default (acl : Acl) (errno : Nat) : (posix1eLoop false acl (0, errno)).1 = if acl.isEmpty then 0 else 1 := by
  cases acl with
  | nil => rfl
  | cons x acl => cases x <;> rfl

theorem isAbsence_eq (e : Nat) : isAbsence e = none? e := rfl

theorem aclLoop_ok (sys : Sys) (path : Bytes) (b : Buf) (m : Meta) (hm : ∀ t, sys.aclGetFile path t = m.acl t) (hl : b.isLnk = false) :
    AclAnswer m b (answer (aclLoop sys path b.isDir [.access, .default] (-1, 0))) := by
  -- the first round
  have h1 : ∃ r : Int × Nat, aclLoop sys path b.isDir [.access, .default] (-1, 0) = aclLoop sys path b.isDir [.default] r ∧
      ((match m.acl .access with | .ok acl => acl.any extra | .error _ => false) = true → r.1 = 1) ∧
      ((match m.acl .access with | .ok acl => acl.any extra | .error _ => false) = false →
        r.1 ≤ 0 ∧ match aclError m with | some e => r = (-1, e) | none => r.1 = 0) := by
    have e0 : aclLoop sys path b.isDir [.access, .default] (-1, 0) = match sys.aclGetFile path .access with
      | .error e => aclLoop sys path b.isDir [.default] ((if isAbsence e then 0 else -1), e)
      | .ok acl => aclLoop sys path b.isDir [.default] (checkAclType acl 0 .access) := rfl
    rw [e0, hm]
    unfold aclError
    cases ha : m.acl .access with
    | error e =>
      refine ⟨_, rfl, fun h => (by cases h), fun _ => ?_⟩
      dsimp only
      rw [isAbsence_eq]
      cases none? e <;> exact ⟨by decide, rfl⟩
    | ok acl =>
      refine ⟨_, rfl, fun h => ?_, fun h => ?_⟩
      · exact (posix1e_access acl (0, 0) (Int.le_refl 0)).1 h
      · have := (posix1e_access acl (0, 0) (Int.le_refl 0)).2 h
        have e2 : checkAclType acl 0 .access = match lastError acl with | some e => (-1, e) | none => (0, 0) := this
        rw [e2]
        show _ ∧ match lastError acl with | some e => _ | none => _
        cases lastError acl with
        | none => exact ⟨Int.le_refl 0, rfl⟩
        | some e => exact ⟨(by decide : (-1 : Int) ≤ 0), rfl⟩
  obtain ⟨r, e1, k1, k2⟩ := h1
  rw [e1]
  have hn : nontrivialAcl m b = ((match m.acl .access with | .ok acl => acl.any extra | .error _ => false) ||
    (b.isDir && match m.acl .default with | .ok acl => !acl.isEmpty | .error _ => false)) := by
    unfold nontrivialAcl; rw [hl]; rfl
  generalize hacc : (match m.acl .access with | .ok acl => acl.any extra | .error _ => false) = acc at k1 k2 hn
  cases acc with
  | true =>
    obtain ⟨r1, r2⟩ := r
    have k1 : r1 = 1 := k1 rfl
    subst k1
    have e2 : aclLoop sys path b.isDir [.default] (1, r2) = (1, r2) := rfl
    have hn : nontrivialAcl m b = true := by rw [hn]; rfl
    rw [e2]
    refine ⟨⟨fun _ => hn, fun _ => rfl⟩, fun h => ?_, fun h => ?_, fun h => ?_⟩
    · rw [hl] at h; cases h
    · rw [hn] at h; cases h
    · rw [hn] at h; cases h
  | false =>
    obtain ⟨k3, k4⟩ := k2 rfl
    obtain ⟨r1, r2⟩ := r
    dsimp only at k3
    rw [Bool.false_or] at hn
    have e2 : aclLoop sys path b.isDir [.default] (r1, r2) =
        if b.isDir = false then (r1, r2) else match m.acl .default with
          | .error e => ((if isAbsence e then 0 else r1), e)
          | .ok acl => checkAclType acl r2 .default := by
      unfold aclLoop
      rw [if_neg (show ¬ r1 > 0 by omega)]
      cases hd : b.isDir with
      | false => rfl
      | true =>
        rw [if_neg (by decide), if_neg (by decide), hm]
        cases m.acl .default <;> rfl
    rw [e2]
    cases hd : b.isDir with
    | false =>
      rw [if_pos rfl]
      have hn : nontrivialAcl m b = false := by rw [hn, hd]; rfl
      cases he : aclError m with
      | none =>
        rw [he] at k4
        have k4 : r1 = 0 := k4
        subst k4
        refine ⟨⟨fun h => (by cases h), fun h => (by rw [hn] at h; cases h)⟩, fun _ => rfl, fun _ _ _ => rfl, fun _ _ _ e h => by rw [he] at h; cases h⟩
      | some e =>
        rw [he] at k4
        have k4 : (r1, r2) = (-1, e) := k4
        rw [k4]
        refine ⟨⟨fun h => (by cases h), fun h => (by rw [hn] at h; cases h)⟩, fun h => (by rw [hl] at h; cases h), fun _ h _ => (by rw [he] at h; cases h),
          fun _ _ _ e' h => by rw [he] at h; cases h; rfl⟩
    | true =>
      rw [if_neg (by decide)]
      rw [hd, Bool.true_and] at hn
      cases hdef : m.acl .default with
      | error e =>
        rw [hdef] at hn
        dsimp only at hn ⊢
        rw [isAbsence_eq]
        refine ⟨⟨fun h => ?_, fun h => (by rw [hn] at h; cases h)⟩, fun h => (by rw [hl] at h; cases h), fun _ h h' => ?_, fun _ _ h => (by rw [hd] at h; cases h)⟩
        · exfalso
          cases hx : none? e with
          | true => rw [hx] at h; cases h
          | false =>
            rw [hx] at h
            unfold answer at h
            have h : (if r1 < 0 then Except.error e else Except.ok (decide (r1 ≠ 0))) = Except.ok true := h
            by_cases h0 : r1 < 0
            · rw [if_pos h0] at h; cases h
            · have : r1 = 0 := by omega
              subst this
              cases h
        · rw [h' e hdef, if_pos rfl]; rfl
      | ok acl =>
        rw [hdef] at hn
        dsimp only at hn ⊢
        have e3 := posix1e_default acl r2
        unfold checkAclType
        dsimp only
        generalize posix1eLoop false acl (0, r2) = q at e3 ⊢
        obtain ⟨q1, q2⟩ := q
        dsimp only at e3
        subst e3
        cases hem : acl.isEmpty with
        | true =>
          rw [hem] at hn
          refine ⟨⟨fun h => (by cases h), fun h => (by rw [hn] at h; cases h)⟩, fun _ => rfl, fun _ _ _ => rfl, fun _ _ h => by rw [hd] at h; cases h⟩
        | false =>
          rw [hem] at hn
          refine ⟨⟨fun _ => hn, fun _ => rfl⟩, fun h => (by rw [hl] at h; cases h), fun h => (by rw [hn] at h; cases h), fun h => by rw [hn] at h; cases h⟩

/-! ## All questions -/

theorem ask_right {n : Names} {sys : Sys} (h : Honest n sys) (alloc : Nat → Bool) {st : St} (hst : St.Ok sys st) {b : Buf} (hb : Found n b) (q : Query) :
    Right n b q (ask sys alloc st b q).1 ∧ St.Ok sys (ask sys alloc st b q).2 ∧ (q ≠ .context → (ask sys alloc st b q).2.live = st.live) := by
  obtain ⟨k1, k2, k3⟩ := fakeAt_ok h alloc hst hb
  have k4 := freeFakeAt_ok k2 (fakeAt sys alloc st b).2.1
  cases q with
  | acl =>
    unfold ask checkAcl
    cases hl : b.isLnk with
    | true =>
      refine ⟨?_, hst, fun _ => rfl⟩
      have hn : nontrivialAcl (visited n b) b = false := by unfold nontrivialAcl; rw [hl]; rfl
      exact ⟨⟨fun h => (by cases h), fun h => (by rw [hn] at h; cases h)⟩, fun _ => rfl, fun _ _ _ => rfl, fun _ h => by rw [hl] at h; cases h⟩
    | false =>
      refine ⟨?_, k4, fun _ => k3⟩
      refine aclLoop_ok sys _ b (visited n b) (fun t => ?_) hl
      rw [h.acl, k1]; unfold visited; rw [hl]; rfl
  | capable =>
    unfold ask checkCapabilities
    cases hl : b.isLnk with
    | true =>
      refine ⟨?_, hst, fun _ => rfl⟩
      show _ = capabilities _ _
      unfold capabilities; rw [hl]; rfl
    | false =>
      refine ⟨?_, k4, fun _ => k3⟩
      show answer (capLoop _) = capabilities _ _
      rw [h.caps, k1]
      unfold capabilities visited capLoop
      rw [hl]
      show _ = match (n.byPath true b.path).caps with | .error e => _ | .ok (.error e) => _ | .ok (.ok text) => _
      rcases (n.byPath true b.path).caps with e | (e | text)
      · dsimp only; rw [isAbsence_eq]; cases none? e <;> rfl
      · rfl
      · cases text <;> rfl
  | xattr =>
    refine ⟨?_, k4, fun _ => k3⟩
    show answer (xattrsAnswer _) = hasXattrs _
    rw [h.xattrs, k1]
    unfold hasXattrs visited xattrsAnswer
    rcases (n.byPath (!b.isLnk) b.path).xattrs with e | len
    · dsimp only
      rw [isAbsence_eq]
      cases none? e with
      | true => rfl
      | false =>
        show answer (if e = 7 then (1, e) else (-1, e)) = if e = 7 then .ok true else .error e
        by_cases he : e = 7
        · rw [if_pos he, if_pos he]; rfl
        · rw [if_neg he, if_neg he]; rfl
    · dsimp only
      cases len <;> rfl
  | xattrname name =>
    refine ⟨?_, k4, fun _ => k3⟩
    show answer (xattrNamedAnswer _) = hasXattr _ _
    rw [h.xattr, k1]
    unfold hasXattr visited xattrNamedAnswer
    rcases (n.byPath (!b.isLnk) b.path).xattr name with e | len
    · dsimp only
      rw [isAbsence_eq]
      cases none? e with
      | true => rfl
      | false =>
        show answer (if e = 7 then (1, e) else (-1, e)) = if e = 7 then .ok true else .error e
        by_cases he : e = 7
        · rw [if_pos he, if_pos he]; rfl
        · rw [if_neg he, if_neg he]; rfl
    · rfl
  | context =>
    refine ⟨?_, k2, fun h => absurd rfl h⟩
    show sys.getfilecon _ _ = _
    rw [h.context, k1]; rfl

end Verif.Fsade
