import Verif.Lemmas.Fsade
/-!
# Properties of `-acl`, `-capable`, `-xattr`, `-xattrname` and `-context` (C86)
-/
namespace Verif.Props
open Verif.Fsade

/-- C86 (the answers of a whole search): for any sequence of questions about any files, whether `/proc` works or not and whichever allocations fail, every answer is about the file that was visited,
and is right. -/
theorem C86_right {n : Names} {sys : Sys} (h : Honest n sys) (alloc : Nat → Bool) (qs : List (Buf × Query)) (hb : ∀ bq ∈ qs, Found n bq.1) :
    (askAll sys alloc {} qs).1.length = qs.length ∧ ∀ (i : Nat) (bq : Buf × Query) (a : Answer), qs[i]? = some bq → (askAll sys alloc {} qs).1[i]? = some a → Right n bq.1 bq.2 a := by
  have key : ∀ (qs : List (Buf × Query)) (st : St), St.Ok sys st → (∀ bq ∈ qs, Found n bq.1) →
      (askAll sys alloc st qs).1.length = qs.length ∧ ∀ (i : Nat) (bq : Buf × Query) (a : Answer), qs[i]? = some bq → (askAll sys alloc st qs).1[i]? = some a → Right n bq.1 bq.2 a := by
    intro qs
    induction qs with
    | nil => intro st _ _; exact ⟨rfl, fun i bq a h => by simp at h⟩
    | cons bq qs ih =>
      intro st hst hb
      obtain ⟨b, q⟩ := bq
      obtain ⟨k1, k2, _⟩ := ask_right h alloc hst (hb (b, q) (by simp)) q
      obtain ⟨i1, i2⟩ := ih (ask sys alloc st b q).2 k2 (fun bq hbq => hb bq (by simp [hbq]))
      refine ⟨by simp [askAll, i1], fun i bq a hi ha => ?_⟩
      cases i with
      | zero =>
        simp [askAll] at hi ha
        subst hi; subst ha
        exact k1
      | succ i =>
        simp [askAll] at hi ha
        exact i2 i bq a hi ha
  exact key qs {} (fun h => absurd h (by decide)) hb

/-- C86 (no memory is lost), except by `-context`. -/
theorem C86_no_leak_partial {n : Names} {sys : Sys} (h : Honest n sys) (alloc : Nat → Bool) (qs : List (Buf × Query)) (hb : ∀ bq ∈ qs, Found n bq.1 ∧ bq.2 ≠ .context) :
    (askAll sys alloc {} qs).2.live = 0 := by
  have key : ∀ (qs : List (Buf × Query)) (st : St), St.Ok sys st → (∀ bq ∈ qs, Found n bq.1 ∧ bq.2 ≠ .context) → (askAll sys alloc st qs).2.live = st.live := by
    intro qs
    induction qs with
    | nil => intro st _ _; rfl
    | cons bq qs ih =>
      intro st hst hb
      obtain ⟨b, q⟩ := bq
      obtain ⟨h1, h2⟩ := hb (b, q) (by simp)
      obtain ⟨_, k2, k3⟩ := ask_right h alloc hst h1 q
      rw [askAll]
      show (askAll sys alloc (ask sys alloc st b q).2 qs).2.live = st.live
      rw [ih _ k2 (fun bq hbq => hb bq (by simp [hbq])), k3 h2]
  exact key qs {} (fun h => absurd h (by decide)) hb

/-- A system on which everything can be read, `/proc` works, and directories have an unreadable default ACL. -/
def meta86 : Meta where
  acl t := match t with | .access => .ok [.ok .userObj, .ok .groupObj, .ok .other] | .default => .error 13
  caps := .error 61
  xattrs := .ok 5
  xattr name := if name = [117] then .ok 1 else .error 61
  context := .ok [115]
def sys86 : Sys where
  procAccess _ := true
  aclGetFile _ t := meta86.acl t
  capGetFile _ := meta86.caps
  listxattr _ _ := meta86.xattrs
  getxattr _ _ := meta86.xattr
  getfilecon _ _ := meta86.context
def names86 : Names := ⟨fun _ _ => meta86, fun _ _ _ => meta86⟩
def dir86 : Buf := { path := [97, 47, 98], atFd := some 3, atPath := [98], isLnk := false, isDir := true }
theorem honest86 : Honest names86 sys86 := ⟨fun _ _ => rfl, fun _ => rfl, fun _ _ => rfl, fun _ _ _ => rfl, fun _ _ => rfl, fun _ _ _ => rfl, fun _ _ _ _ => rfl⟩

example : Honest names86 sys86 ∧ Found names86 dir86 ∧ (fakeAt sys86 (fun _ => true) {} dir86).1 = procPath 3 ++ [98] ∧ procPath 3 = [47, 112, 114, 111, 99, 47, 115, 101, 108, 102, 47, 102, 100, 47, 51, 47] :=
  ⟨honest86, fun _ _ _ => rfl, by decide, by decide⟩

/-- C86 (errors are reported) is false for directories: if the default ACL can't be read, `-acl` is false without an error. -/
theorem C86_acl_error_counterexample : ∃ (n : Names) (sys : Sys) (b : Buf), Honest n sys ∧ Found n b ∧ (visited n b).acl .default = .error 13 ∧ none? 13 = false ∧
    (checkAcl sys (fun _ => true) {} b).1 = .ok false :=
  ⟨names86, sys86, dir86, honest86, fun _ _ _ => rfl, rfl, rfl, rfl⟩

/-- C86 (no memory is lost) is false with `-context`: one string for each file. -/
theorem C86_context_leak : ∃ (n : Names) (sys : Sys) (b : Buf), Honest n sys ∧ Found n b ∧ ∀ k : Nat, (askAll sys (fun _ => true) {} (List.replicate k (b, .context))).2.live = k := by
  refine ⟨names86, sys86, dir86, honest86, fun _ _ _ => rfl, fun k => ?_⟩
  have one : ∀ st : St, st.procWorks ≠ 0 → (ask sys86 (fun _ => true) st dir86 .context).2.procWorks ≠ 0 ∧ (ask sys86 (fun _ => true) st dir86 .context).2.live = st.live + 1 := by
    intro st h0
    unfold ask getFilecon fakeAt fakeProbe fakeCat dir86 sys86
    dsimp only
    rw [if_neg h0]
    simp only [Bool.not_true, Bool.false_eq_true, if_false, if_true]
    split
    · exact ⟨(by decide : (1 : Int) ≠ 0), rfl⟩
    · exact ⟨h0, rfl⟩
  have key : ∀ (k : Nat) (st : St), st.procWorks ≠ 0 → (askAll sys86 (fun _ => true) st (List.replicate k (dir86, .context))).2.live = st.live + k := by
    intro k
    induction k with
    | zero => intro st _; rfl
    | succ k ih =>
      intro st h0
      obtain ⟨k1, k2⟩ := one st h0
      rw [List.replicate_succ, askAll]
      show (askAll sys86 (fun _ => true) (ask sys86 (fun _ => true) st dir86 .context).2 _).2.live = _
      rw [ih _ k1, k2]
      omega
  have := key k {} (by decide)
  simpa using this

end Verif.Props
