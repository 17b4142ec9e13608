import Verif.Lemmas.StatVisit
/-!
# C55, C69: `stat()` requests, links and types
-/
namespace Verif.Props
open Verif Verif.Stat Verif.Spec.Stat
open Verif.Alloc (ok_bind)

/-! ## Examples -/

/-- A symbolic link to a directory, a broken one, and a regular file. -/
def statLink : File := ⟨.ok ⟨.dir, 1, 10, 0⟩, .ok ⟨.lnk, 1, 11, 0⟩⟩
def statBroken : File := ⟨.error 2, .ok ⟨.lnk, 1, 12, 0⟩⟩
def statPlain : File := ⟨.ok ⟨.reg, 1, 13, 5⟩, .ok ⟨.reg, 1, 13, 5⟩⟩

theorem statLink_consistent : statLink.Consistent where
  missing e h := by simp [statLink] at h
  plain sb h hl := by simp [statLink] at h; subst h; simp at hl
  target sb h := by simp [statLink] at h; subst h; simp
  statErrno e h := by simp [statLink] at h
  lstatErrno e h := by simp [statLink] at h
  statType sb h := by simp [statLink] at h; subst h; simp
  lstatType sb h := by simp [statLink] at h; subst h; simp

theorem statBroken_consistent : statBroken.Consistent where
  missing e h := by simp [statBroken] at h
  plain sb h hl := by simp [statBroken] at h; subst h; simp at hl
  target sb h := by simp [statBroken] at h
  statErrno e h := by simp [statBroken] at h; omega
  lstatErrno e h := by simp [statBroken] at h
  statType sb h := by simp [statBroken] at h
  lstatType sb h := by simp [statBroken] at h; subst h; simp

/-- The file system while such a file exists. -/
def statNow (file : File) : Now := ⟨file.answer, none⟩

/-- A visit with `-L` and cycle detection to something that the directory calls a link. -/
def statVisit : Visit := ⟨false, ⟨false, false, true, true, false, false⟩, 1, .lnk, false, [(1, 2)], 100, 101, fun _ => none, none⟩

example : statVisit.Ok ∧ statVisit.Knows statLink ∧ statVisit.Knows statBroken := by
  refine ⟨⟨by decide, .inr rfl, by simp [statVisit]⟩, ⟨⟨by decide, ?_⟩, by simp [PreRight, statVisit]⟩, ⟨⟨by decide, ?_⟩, by simp [PreRight, statVisit]⟩⟩
  · intro sb h; simp [statLink] at h; subst h; exact .inr rfl
  · intro sb h; simp [statBroken] at h; subst h; exact .inr rfl

/-- What a visit comes to: the type, the error, the ancestor, and the number of calls. -/
def statSee (r : Out (Ftw × Nat × Option Nat)) : Option (FType × Nat × Option Nat × Nat) :=
  match r with
  | .ok (g, e, c) => some (g.type, e, c, g.calls)
  | _ => none

example : statSee (statVisit.begin (statNow statLink) (statNow statLink)) = some (.dir, 0, none, 1) := by rfl
example : statSee (statVisit.begin (statNow statBroken) (statNow statBroken)) = some (.lnk, 0, none, 2) := by rfl
example : statSee ({ statVisit with ancestors := [(1, 2), (1, 10)] }.begin (statNow statLink) (statNow statLink)) = some (.error, 40, some 1, 1) := by rfl
example : statSee ({ statVisit with w := ⟨false, false, false, false, false, false⟩ }.begin (statNow statLink) (statNow statLink)) = some (.lnk, 0, none, 0) := by rfl

/-! ## `bfs_stat()` -/

/-- C55: `bfs_stat()` gives the right answer whether or not the kernel has `statx()`, or pretends not to. -/
theorem C55_bfs_stat (sys : Sys) (file : File) (hasStatx : Bool) (flags : Flags)
    (hf : sys.fstatat true = file.lstat ∧ sys.fstatat false = file.stat)
    (hx : ∀ b, sys.statx b = sys.fstatat b ∨ sys.statx b = .error 38 ∨ sys.statx b = .error 1) :
    (bfsStat sys hasStatx flags).1 = file.answer flags := by
  have key : ∀ h b, (statExplicit sys h b).1 = sys.fstatat b := by
    intro h b
    unfold statExplicit
    cases h with
    | false => rfl
    | true =>
      rw [if_pos rfl]
      cases hs : sys.statx b with
      | ok sb =>
        rcases hx b with h | h | h
        · rw [← h, hs]
        · rw [hs] at h; simp at h
        · rw [hs] at h; simp at h
      | error e =>
        dsimp only
        by_cases hl : likeENOSYS e = true
        · rw [if_pos hl]
        · rw [if_neg hl]
          rcases hx b with h | h | h
          · rw [← h, hs]
          · rw [hs] at h
            injection h with h
            subst h
            exact absurd rfl hl
          · rw [hs] at h
            injection h with h
            subst h
            exact absurd rfl hl
  unfold bfsStat
  have k0 := key hasStatx flags.nofollow
  cases hr : statExplicit sys hasStatx flags.nofollow with
  | mk r h =>
    rw [hr] at k0
    have k0 : r = sys.fstatat flags.nofollow := k0
    unfold File.answer File.tryStat
    cases hn : flags.nofollow with
    | true =>
      rw [hn, hf.1] at k0
      cases r with
      | ok sb => exact k0
      | error e => simpa using k0
    | false =>
      rw [hn, hf.2] at k0
      rw [if_neg (by simp), ← k0]
      cases r with
      | ok sb => simp
      | error e =>
        dsimp only
        cases ht : flags.tryfollow with
        | false => simp
        | true =>
          simp only [Bool.not_false, Bool.and_self, Bool.true_and, if_true]
          by_cases hl : likeENOENT e = true
          · rw [if_pos hl, if_pos (likeENOENT_iff.mp hl), key, hf.1]
          · rw [if_neg hl, if_neg fun hx => hl (likeENOENT_iff.mpr hx)]

example : bfsStat ⟨fun _ => .error 1, fun b => if b then statBroken.lstat else statBroken.stat⟩ true TRYFOLLOW = (.ok ⟨.lnk, 1, 12, 0⟩, false) := by rfl

/-! ## The start of a visit -/

/-- C55: a visit starts with the right type or the right error; a directory is a loop exactly if it is one of its own ancestors. -/
theorem C55_start (v : Visit) (hv : v.Ok) (file : File) (hc : file.Consistent) (hk : v.Knows file) (now later : Now) (hnow : now.stat = file.answer) (hlater : later.stat = file.answer) :
    ∃ g e c, v.begin now later = .ok (g, e, c) ∧ g.statFlags = v.flags ∧
      (c = none → e ≠ 0 → g.type = .error ∧ ∃ e', (file.whiteout v.wht v.type).answer v.flags = .error e' ∧ SameErr e e') ∧
      (∀ i, c = some i → e = 40 ∧ g.type = .error ∧ v.w.detectCycles = true ∧ ∃ sb, (file.whiteout v.wht v.type).answer v.flags = .ok sb ∧ sb.type = .dir ∧ v.ancestors[i]? = some (sb.dev, sb.ino)) ∧
      (e = 0 → c = none ∧ ((∃ sb, (file.whiteout v.wht v.type).answer v.flags = .ok sb ∧ g.type = sb.type ∧ (sb.type = .dir → v.w.detectCycles = true → (sb.dev, sb.ino) ∉ v.ancestors)) ∨
        ((∃ e, (file.whiteout v.wht v.type).lstat = .error e) ∧ g.type = v.type))) := by
  obtain ⟨hsl, hp⟩ := hv
  obtain ⟨he, hr⟩ := hk
  obtain ⟨b, m, h1, h2⟩ := start_inv (mem := v.mem) hsl hp
  have h3 := start_know hc hp hr h1 v.type v.flags
  obtain ⟨g, e, c, h4, h5, h6, h7, h8, h9, h10⟩ := init_know (wht := v.wht) (mount := v.mount) (ancestors := v.ancestors) hc he hnow hlater (h2 v.type (statFlags v.w v.depth)) h3
  refine ⟨g, e, c, ?_, h7, ?_⟩
  · unfold Visit.begin
    rw [h1, ok_bind]
    exact h4
  · have hne : ∀ e e', (file.whiteout v.wht v.type).answer v.flags = .error e' → SameErr e e' → e ≠ 0 := by
      intro e e' h hs
      have hcF := whiteout_consistent hc v.wht v.type
      have := answer_fails hcF (now := ⟨(file.whiteout v.wht v.type).answer, none⟩) rfl _ _ h
      rcases hs with hs | ⟨hs, _⟩ <;> omega
    cases h9 with
    | fail _ e' ht h hs =>
      refine ⟨fun _ _ => ⟨ht, e', h, hs⟩, by simp, fun h0 => absurd h0 (hne _ _ h hs)⟩
    | loop i sb ht h hd hw hi =>
      refine ⟨by simp, ?_, by simp⟩
      intro j hj
      injection hj with hj
      subst hj
      exact ⟨rfl, ht, hw, sb, h, hd, hi⟩
    | visit ht ha hn =>
      refine ⟨by simp, by simp, fun _ => ⟨rfl, ?_⟩⟩
      obtain ⟨hsf, ht⟩ := ht
      rw [h7] at ht
      rcases ht with ⟨sb, h, h'⟩ | ⟨h, h', _⟩
      · exact .inl ⟨sb, h, h', fun hd hw => hn (h'.trans hd) hw sb h⟩
      · exact .inr ⟨h, h'⟩

/-- C55: during a visit to a file that does not change, every request gets the right answer, whatever was asked before, and whether or not another thread has looked at the file. -/
theorem C55_answers (v : Visit) (hv : v.Ok) (file : File) (hc : file.Consistent) (hk : v.Knows file) (now later : Now) (hnow : now.stat = file.answer) (hlater : later.stat = file.answer)
    (g : Ftw) (c : Option Nat) (hg : v.begin now later = .ok (g, 0, c))
    (ss : List Step) (hss : ∀ st ∈ ss, Sees file st ∧ ValidOp st.op) (st : Step) (hst : Sees file st) (hop : ValidOp st.op) :
    ∃ rs g1 r g2, run v.wht g ss = .ok (rs, g1) ∧ step v.wht g1 st = .ok (r, g2) ∧
      Right (file.whiteout v.wht v.type) v.flags v.type st.errno g2.mem st.op r := by
  obtain ⟨hsl, hp⟩ := hv
  obtain ⟨he, hr⟩ := hk
  obtain ⟨b, m, h1, h2⟩ := start_inv (mem := v.mem) hsl hp
  have h3 := start_know hc hp hr h1 v.type v.flags
  obtain ⟨g', e, c', h4, h5, h6, h7, h8, h9, h10⟩ := init_know (wht := v.wht) (mount := v.mount) (ancestors := v.ancestors) hc he hnow hlater (h2 v.type (statFlags v.w v.depth)) h3
  have hg' : v.begin now later = .ok (g', e, c') := by
    unfold Visit.begin
    rw [h1, ok_bind]
    exact h4
  rw [hg] at hg'
  injection hg' with hg'
  injection hg' with e1 e2
  injection e2 with e2 e3
  subst e1
  have hF := h10 e2.symm
  have ht : TypeOk (file.whiteout v.wht v.type) v.type g := by
    cases h9 with
    | fail _ e' ht h hs =>
      have hcF := whiteout_consistent hc v.wht v.type
      have := answer_fails hcF (now := ⟨(file.whiteout v.wht v.type).answer, none⟩) rfl _ _ h
      rcases hs with hs | ⟨hs, _⟩ <;> omega
    | loop i sb ht h hd hw hi => simp at e2
    | visit ht ha hn => exact ht
  obtain ⟨rs, g1, h11, h12, h13, h14, h15⟩ := run_know (wht := v.wht) ss (fun st h => (hss st h).2) h5 hc hF (fun st h => (hss st h).1) h6 ht
  obtain ⟨r, g2, h16, _, _, _, h20⟩ := step_know (wht := v.wht) st hop h12 hc (by rw [h13.type]; exact hF) hst h14 h15
  refine ⟨rs, g1, r, g2, h11, h16, ?_⟩
  rw [h13.flags, h7] at h20
  exact h20

/-- With `-L`, the target of a link; without, the link itself. -/
example : ∃ g c, statVisit.begin (statNow statLink) (statNow statLink) = .ok (g, 0, c) ∧
    ∃ r g2, step false g ⟨.stat TRYFOLLOW, statNow statLink, statNow statLink, 0⟩ = .ok (r, g2) ∧ r = .stat (.ok 100) ∧ g2.mem 100 = some ⟨.dir, 1, 10, 0⟩ ∧ g2.calls = 1 :=
  ⟨_, _, rfl, _, _, rfl, rfl, rfl, rfl⟩

/-! ## Files that change -/

/-- C55: even if the file changes during a visit, nothing goes wrong: every request is answered, every buffer that was handed out keeps its contents until the end of the visit, and there are at most two system calls, or one if another thread has looked at the file. -/
theorem C55_pointers (v : Visit) (hv : v.Ok) (now later : Now) (hf : Now.Fails now ∧ Now.Fails later) (xs ys : List Step) (st : Step) (hs : AllFail (xs ++ st :: ys)) :
    ∃ g e c, v.begin now later = .ok (g, e, c) ∧
    ∃ rs g1 r g2 qs g3, run v.wht g xs = .ok (rs, g1) ∧ step v.wht g1 st = .ok (r, g2) ∧ run v.wht g2 ys = .ok (qs, g3) ∧
      run v.wht g (xs ++ st :: ys) = .ok (rs ++ r :: qs, g3) ∧
      (∀ a, ptr r = some a → ∃ sb, g2.mem a = some sb ∧ g3.mem a = some sb) ∧
      g3.calls ≤ 2 ∧ (v.pre ≠ none → g3.calls ≤ 1) := by
  obtain ⟨hsl, hp⟩ := hv
  obtain ⟨b, m, h1, h2⟩ := start_inv (mem := v.mem) hsl hp
  obtain ⟨hl1, hl2⟩ := start_left hp h1
  obtain ⟨g, e, c, h4, h5, h6⟩ := init_ext (wht := v.wht) (mount := v.mount) (ancestors := v.ancestors) hf.1 hf.2 (h2 v.type (statFlags v.w v.depth))
  refine ⟨g, e, c, ?_, ?_⟩
  · unfold Visit.begin
    rw [h1, ok_bind]
    exact h4
  obtain ⟨rs, g1, r1, _, i1, e1⟩ := run_ext (wht := v.wht) xs h5 fun t ht => hs t (List.mem_append_left _ ht)
  obtain ⟨r, g2, r2, i2, e2, p2⟩ := step_ext (wht := v.wht) st i1 (hs st (by simp)).1 (hs st (by simp)).2
  obtain ⟨qs, g3, r3, _, i3, e3⟩ := run_ext (wht := v.wht) ys i2 fun t ht => hs t (List.mem_append_right _ (.tail _ ht))
  refine ⟨rs, g1, r, g2, qs, g3, r1, r2, r3, ?_, ?_, ?_⟩
  · rw [run_append, r1, ok_bind]
    dsimp only
    rw [run_cons, r2, ok_bind]
    dsimp only
    rw [r3]
    rfl
  · intro a ha
    obtain ⟨hw, sb, hsb⟩ := p2 a ha
    exact ⟨sb, hsb, (e3.frame a hw).2.trans hsb⟩
  · have hc := ((e1.trans e2).trans e3).calls
    exact ⟨by omega, fun hp => by have := hl2 hp; omega⟩

/-- Even with several different answers. -/
example : ∃ g e c, statVisit.begin (statNow statLink) (statNow statPlain) = .ok (g, e, c) ∧
    ∃ rs g', run false g [⟨.stat FOLLOW, statNow statPlain, statNow statPlain, 0⟩, ⟨.stat NOFOLLOW, statNow statBroken, statNow statLink, 0⟩, ⟨.stat FOLLOW, statNow statBroken, statNow statBroken, 0⟩] = .ok (rs, g') ∧ g'.calls = 2 ∧ g'.mem 100 = some ⟨.dir, 1, 10, 0⟩ ∧ g'.mem 101 = some ⟨.lnk, 1, 12, 0⟩ :=
  ⟨_, _, _, rfl, _, _, rfl, rfl, rfl, rfl⟩

/-- C55: once a link itself has been asked about, its answer never changes during the visit, and neither does what it leads to, once that is known too. -/
theorem C55_stable (v : Visit) (hv : v.Ok) (now later : Now) (hf : Now.Fails now ∧ Now.Fails later) (g g1 g2 : Ftw) (e : Nat) (c : Option Nat) (hb : v.begin now later = .ok (g, e, c))
    (xs ys : List Step) (rs qs : List Answer) (hx : AllFail xs) (hy : AllFail ys) (n1 n2 n3 n4 l1 l2 l3 l4 : Now)
    (hn : Now.Fails n1 ∧ Now.Fails n2 ∧ Now.Fails n3 ∧ Now.Fails n4)
    (hrun1 : run v.wht g xs = .ok (rs, g1)) (q1 q2 q3 q4 : Except Nat Nat) (h1 h2 h3 h4 : Ftw)
    (s1 : bftwStat v.wht n1 l1 g1 NOFOLLOW = .ok (q1, h1)) (s2 : bftwStat v.wht n2 l2 h1 FOLLOW = .ok (q2, h2)) (hrun2 : run v.wht h2 ys = .ok (qs, g2))
    (s3 : bftwStat v.wht n3 l3 g2 NOFOLLOW = .ok (q3, h3)) (s4 : bftwStat v.wht n4 l4 h3 FOLLOW = .ok (q4, h4)) :
    q3 = q1 ∧ q4 = q2 := by
  obtain ⟨hsl, hp⟩ := hv
  obtain ⟨b, m, k1, k2⟩ := start_inv (mem := v.mem) hsl hp
  obtain ⟨g', e', c', k4, k5, _⟩ := init_ext (wht := v.wht) (mount := v.mount) (ancestors := v.ancestors) hf.1 hf.2 (k2 v.type (statFlags v.w v.depth))
  have hbe : v.begin now later = .ok (g', e', c') := by
    unfold Visit.begin
    rw [k1, ok_bind]
    exact k4
  rw [hb] at hbe
  injection hbe with hbe
  injection hbe with hbe _
  subst hbe
  obtain ⟨_, _, r1, _, i1, e1⟩ := run_ext (wht := v.wht) xs k5 hx
  rw [hrun1] at r1
  injection r1 with r1
  injection r1 with _ r1
  subst r1
  -- The first two requests
  have s1 : statImpl v.wht n1 g1 NOFOLLOW = .ok (q1, h1) := s1
  have s2 : statImpl v.wht n2 h1 FOLLOW = .ok (q2, h2) := s2
  have s3 : statImpl v.wht n3 g2 NOFOLLOW = .ok (q3, h3) := s3
  have s4 : statImpl v.wht n4 h3 FOLLOW = .ok (q4, h4) := s4
  obtain ⟨x1, y1, z1, c1⟩ := nofollow_case (wht := v.wht) i1 hn.1
  rw [s1] at z1
  injection z1 with z1
  injection z1 with z1 z1'
  subst z1 z1'
  obtain ⟨i2, e2, _, p2⟩ := nofollow_ext i1 c1
  obtain ⟨x2, y2, z2, c2⟩ := follow_case (wht := v.wht) (now := n2) i2
  rw [s2] at z2
  injection z2 with z2
  injection z2 with z2 z2'
  subst z2 z2'
  obtain ⟨i3, e3, _, p3⟩ := follow_ext i2 hn.2.1 c2
  have p4 : h2.bufs.lstatErr ≥ 0 := by rw [(e3.lstat p2).1]; exact p2
  obtain ⟨_, _, r2, _, i4, e4⟩ := run_ext (wht := v.wht) ys i3 hy
  rw [hrun2] at r2
  injection r2 with r2
  injection r2 with _ r2
  subst r2
  have hgh : g2 = h2 := e4.both p4 p3
  subst hgh
  obtain ⟨x3, y3, z3, c3⟩ := nofollow_case (wht := v.wht) i4 hn.2.2.1
  rw [s3] at z3
  injection z3 with z3
  injection z3 with z3 z3'
  subst z3 z3'
  obtain ⟨i5, e5, _, _⟩ := nofollow_ext i4 c3
  have hh : h3 = g2 := e5.both p4 p3
  subst hh
  -- What an answer is once it is cached
  have nval : ∀ {now : Now} {f f' : Ftw} {q : Except Nat Nat}, NofollowCase v.wht now f q f' → q = (if f'.bufs.lstatErr = 0 then (match f'.bufs.lstatBuf with | some a => .ok a | none => .error 0) else .error f'.bufs.lstatErr.toNat) := by
    intro now f f' q hc
    cases hc with
    | hit a h0 hb => rw [if_pos h0, hb]
    | err h0 => rw [if_neg (by omega)]
    | link a sb h0 hb he hl => rfl
    | ok a sb h0 hb he hl => rfl
    | fail a e h0 hb he hn => rw [if_neg (by simpa using hn)]; simp
  have fval : ∀ {now : Now} {f f' : Ftw} {q : Except Nat Nat}, Now.Fails now → FollowCase v.wht now f q f' → q = (if f'.bufs.statErr = 0 then (match f'.bufs.statBuf with | some a => .ok a | none => .error 0) else .error f'.bufs.statErr.toNat) := by
    intro now f f' q hfn hc
    cases hc with
    | hit a h0 hb => rw [if_pos h0, hb]
    | err h0 => rw [if_neg (by omega)]
    | ok a sb h0 hb he => rfl
    | fail a e h0 hb he =>
      have := eff_ne (hfn FOLLOW) he
      rw [if_neg (by simpa using this)]
      simp
  refine ⟨?_, ?_⟩
  · rw [nval c3, nval c1, (e3.lstat p2).1, (e3.lstat p2).2]
  · obtain ⟨x4, y4, z4, c4⟩ := follow_case (wht := v.wht) (now := n4) i5
    rw [s4] at z4
    injection z4 with z4
    injection z4 with z4 z4'
    subst z4 z4'
    obtain ⟨i6, e6, _, _⟩ := follow_ext i5 hn.2.2.2 c4
    have hh := e6.both p4 p3
    rw [fval hn.2.2.2 c4, fval hn.2.1 c2, hh]

/-- C55 as first stated is false of a file that changes: what a link leads to may change when the link itself is asked about later. Here a link to a directory becomes a regular file. -/
theorem C55_stable_counterexample :
    ∃ g r1 g1 r2 g2 r3 g3, ({ statVisit with w := ⟨false, false, false, false, false, false⟩ } : Visit).begin (statNow statLink) (statNow statLink) = .ok (g, 0, none) ∧
      bftwStat false (statNow statLink) (statNow statLink) g FOLLOW = .ok (r1, g1) ∧
      bftwStat false (statNow statPlain) (statNow statPlain) g1 NOFOLLOW = .ok (r2, g2) ∧
      bftwStat false (statNow statPlain) (statNow statPlain) g2 FOLLOW = .ok (r3, g3) ∧
      r1 = .ok 100 ∧ r3 = .ok 101 ∧ g3.mem 100 = some ⟨.dir, 1, 10, 0⟩ ∧ g3.mem 101 = some ⟨.reg, 1, 13, 5⟩ :=
  ⟨_, _, _, _, _, _, _, rfl, rfl, rfl, rfl, rfl, rfl, rfl, rfl⟩

/-! ## Which links are followed -/

/-- C55: of `-P`, `-H`, `-L` and `-follow`, the last one decides which links are followed. With `-L`, loops are detected unless `-unique` does it. -/
theorem C55_options (w : WFlags) (hw : w.followRoots = false ∧ w.followAll = false) (opts : List Opt) (depth : Nat) (unique : Bool) :
    (follows opts depth → statFlags (opts.foldl parseFollow w) depth = TRYFOLLOW) ∧
    (¬ follows opts depth → statFlags (opts.foldl parseFollow w) depth = NOFOLLOW) ∧
    (follows opts 0 → argFlags (opts.foldl parseFollow w) = TRYFOLLOW) ∧
    (¬ follows opts 0 → argFlags (opts.foldl parseFollow w) = NOFOLLOW) ∧
    (opts.getLast? = some .L → unique = false → (cycleFlag (opts.foldl parseFollow w) unique).detectCycles = true) ∧
    (opts.getLast? ≠ some .L → cycleFlag (opts.foldl parseFollow w) unique = opts.foldl parseFollow w) := by
  rcases List.eq_nil_or_concat opts with rfl | ⟨os, o, rfl⟩
  · simp [follows, statFlags, argFlags, cycleFlag, hw.1, hw.2]
  · rw [List.concat_eq_append, List.foldl_append]
    simp only [follows, List.getLast?_append, List.getLast?_singleton, Option.some_or, List.foldl_cons, List.foldl_nil]
    cases o <;> simp [statFlags, argFlags, cycleFlag, parseFollow] <;> intros <;> simp_all

example : statFlags ([.L, .H, .P, .H].foldl parseFollow ⟨false, false, false, false, false, false⟩) 0 = TRYFOLLOW := by rfl
example : statFlags ([.L, .H, .P, .H].foldl parseFollow ⟨false, false, false, false, false, false⟩) 1 = NOFOLLOW := by rfl

/-! ## Directories remember who they are -/

/-- C55: if loops or mount points matter, a directory is remembered as what it really is, after any callback. -/
theorem C55_save (v : Visit) (hv : v.Ok) (file : File) (hc : file.Consistent) (hk : v.Knows file) (now later : Now) (hnow : now.stat = file.answer) (hlater : later.stat = file.answer)
    (g : Ftw) (c : Option Nat) (hg : v.begin now later = .ok (g, 0, c)) (hd : g.type = .dir)
    (hw : v.w.detectCycles = true ∨ v.w.skipMounts = true ∨ v.w.pruneMounts = true)
    (ss : List Step) (hss : ∀ st ∈ ss, Sees file st ∧ ValidOp st.op) (sb : Sb) (hsb : (file.whiteout v.wht v.type).answer v.flags = .ok sb) :
    ∃ rs g1, run v.wht g ss = .ok (rs, g1) ∧ saveFtwbuf g1 = .ok (some (sb.dev, sb.ino)) := by
  obtain ⟨hsl, hp⟩ := hv
  obtain ⟨he, hr⟩ := hk
  obtain ⟨b, m, h1, h2⟩ := start_inv (mem := v.mem) hsl hp
  have h3 := start_know hc hp hr h1 v.type v.flags
  obtain ⟨g', e, c', h4, h5, h6, h7, h8, h9, h10⟩ := init_know (wht := v.wht) (mount := v.mount) (ancestors := v.ancestors) hc he hnow hlater (h2 v.type (statFlags v.w v.depth)) h3
  have hg' : v.begin now later = .ok (g', e, c') := by
    unfold Visit.begin
    rw [h1, ok_bind]
    exact h4
  rw [hg] at hg'
  injection hg' with hg'
  injection hg' with e1 e2
  injection e2 with e2 e3
  subst e1
  have hF := h10 e2.symm
  have hsb : (file.whiteout v.wht v.type).answer (statFlags v.w v.depth) = .ok sb := hsb
  have ht : TypeOk (file.whiteout v.wht v.type) v.type g ∧ Asked (statFlags v.w v.depth) g := by
    cases h9 with
    | fail _ e' ht h hs =>
      rw [hsb] at h
      simp at h
    | loop i sb ht h hd hw hi => simp at e2
    | visit ht ha hn => exact ⟨ht, ha hd hw⟩
  obtain ⟨rs, g1, h11, h12, h13, h14, h15⟩ := run_know (wht := v.wht) ss (fun st h => (hss st h).2) h5 hc hF (fun st h => (hss st h).1) h6 ht.1
  have hask := asked_ext h13 h6 h14 ht.2
  have hvf : Valid (statFlags v.w v.depth) := by
    rcases statFlags_cases v.w v.depth with h | h <;> rw [h] <;> simp [Valid]
  obtain ⟨a, h16, h17⟩ := cached_complete _ hvf h14 hask hsb
  refine ⟨rs, g1, h11, ?_⟩
  unfold saveFtwbuf
  rw [h13.flags, h7, h16]
  dsimp only
  rw [h17]

example : ∃ g c, statVisit.begin (statNow statLink) (statNow statLink) = .ok (g, 0, c) ∧ g.type = .dir ∧ saveFtwbuf g = .ok (some (1, 10)) := ⟨_, _, rfl, rfl, rfl⟩

/-! ## Buffers of other threads -/

/-- C55: a buffer that another thread has filled is freed exactly once: at once if it is useless, and otherwise when the file is done with it. -/
theorem C55_recycle (mem : Mem) (flags : Flags) (hf : flags = NOFOLLOW ∨ flags = TRYFOLLOW) (a : Nat) (res : Except Nat Sb) (he : ∀ e, res = .error e → e ≠ 0) :
    ∃ b m freed, ioqStat mem flags a res = .ok (b, m, freed) ∧
      (freed = true → recycle b = (none, init none none)) ∧ (freed = false → recycle b = (some a, init none none)) ∧ recycle (recycle b).2 = (none, init none none) := by
  cases res with
  | ok sb =>
    by_cases hl : sb.type = .lnk <;> rcases hf with rfl | rfl
    · exact ⟨_, _, _, by simp [ioqStat, cache, NOFOLLOW, isLink, write_self, hl, Out.bind, init]; exact ⟨rfl, rfl, rfl⟩, by simp, fun _ => rfl, rfl⟩
    · exact ⟨_, _, _, by simp [ioqStat, cache, TRYFOLLOW, isLink, write_self, hl, Out.bind, init]; exact ⟨rfl, rfl, rfl⟩, by simp, fun _ => rfl, rfl⟩
    · exact ⟨_, _, _, by simp [ioqStat, cache, NOFOLLOW, isLink, write_self, hl, Out.bind, init]; exact ⟨rfl, rfl, rfl⟩, by simp, fun _ => rfl, rfl⟩
    · exact ⟨_, _, _, by simp [ioqStat, cache, TRYFOLLOW, isLink, write_self, hl, Out.bind, init]; exact ⟨rfl, rfl, rfl⟩, by simp, fun _ => rfl, rfl⟩
  | error e =>
    have hn := he e rfl
    rcases hf with rfl | rfl
    · exact ⟨_, _, _, by simp [ioqStat, cache, NOFOLLOW, hn, Out.bind, init]; exact ⟨rfl, rfl, rfl⟩, fun _ => rfl, by simp, rfl⟩
    · exact ⟨_, _, _, by simp [ioqStat, cache, TRYFOLLOW, hn, Out.bind, init]; exact ⟨rfl, rfl, rfl⟩, fun _ => rfl, by simp, rfl⟩

/-! ## C69: the type of the target -/

/-- C69, without `-L` (and `-H` for roots): `%Y` prints the type of what a link leads to, `L` for a loop, `N` if there is nothing, and `?` with the error otherwise. With them, it is right if the link can be followed. The case of a link that cannot be followed is missing: see `C69_counterexample`. -/
theorem C69_letter_partial (v : Visit) (hv : v.Ok) (file : File) (hc : file.Consistent) (hk : v.Knows file) (now later : Now) (hnow : now.stat = file.answer) (hlater : later.stat = file.answer)
    (g : Ftw) (c : Option Nat) (hg : v.begin now later = .ok (g, 0, c))
    (ss : List Step) (hss : ∀ st ∈ ss, Sees file st ∧ ValidOp st.op) (n l : Now) (hn : n.stat = file.answer) (hl : l.stat = file.answer) (errno : Nat)
    (hwht : ¬ (v.wht = true ∧ v.type = .wht)) (hex : ∃ sb, file.lstat = .ok sb) :
    ∃ rs g1 x g2, run v.wht g ss = .ok (rs, g1) ∧ printfY v.wht n l g1 errno = .ok (x, g2) ∧
      (∀ sb, file.stat = .ok sb → x = .type sb.type) ∧
      (∀ e, file.stat = .error e → v.flags = NOFOLLOW → x = if e = 40 then .loop else if e = 2 ∨ e = 20 then .none else .error e) := by
  obtain ⟨rs, g1, r, g2, h1, h2, h3⟩ := C55_answers v hv file hc hk now later hnow hlater g c hg ss hss ⟨.letter, n, l, errno⟩ ⟨hn, hl⟩ trivial
  rw [whiteout_eq hwht] at h3
  have h2 : (printfY v.wht n l g1 errno).bind (fun r => .ok (Answer.letter r.1, r.2)) = .ok (r, g2) := h2
  cases hp : printfY v.wht n l g1 errno with
  | err e => rw [hp] at h2; simp [Out.bind] at h2
  | ub => rw [hp] at h2; simp [Out.bind] at h2
  | ok p =>
    rw [hp, ok_bind] at h2
    injection h2 with h2
    injection h2 with e1 e2
    subst e1 e2
    obtain ⟨x, g2⟩ := p
    refine ⟨rs, g1, x, g2, h1, hp, ?_, ?_⟩
    · intro sb hs
      unfold Right at h3
      dsimp only at h3
      rw [hs] at h3
      exact h3
    · intro e hs hf
      unfold Right at h3
      dsimp only at h3
      rw [hs, hf] at h3
      rcases h3 with h3 | ⟨⟨e', h3⟩, _⟩
      · exact h3
      · obtain ⟨sb, hex⟩ := hex
        rw [hex] at h3
        simp at h3

/-- C69 is false with `-L`: for a broken link, `%Y` depends on what `errno` happens to be. Here it is `EACCES`, from something earlier, and a broken link is printed as `?` with the error "Permission denied" rather than as `N`. -/
theorem C69_counterexample :
    statVisit.Ok ∧ statVisit.Knows statBroken ∧ statBroken.Consistent ∧
    ∃ g c x g', statVisit.begin (statNow statBroken) (statNow statBroken) = .ok (g, 0, c) ∧ statBroken.stat = .error 2 ∧
      printfY false (statNow statBroken) (statNow statBroken) g 13 = .ok (x, g') ∧ x = .error 13 := by
  refine ⟨⟨by decide, .inr rfl, by simp [statVisit]⟩, ⟨⟨by decide, ?_⟩, by simp [PreRight, statVisit]⟩, statBroken_consistent, _, _, _, _, rfl, rfl, rfl, rfl⟩
  intro sb h; simp [statBroken] at h; subst h; exact .inr rfl

/-- C69: `-type` tests the type of the file, or of what the link leads to if links are followed, whatever was asked before. -/
theorem C69_type (v : Visit) (hv : v.Ok) (file : File) (hc : file.Consistent) (hk : v.Knows file) (now later : Now) (hnow : now.stat = file.answer) (hlater : later.stat = file.answer)
    (g : Ftw) (c : Option Nat) (hg : v.begin now later = .ok (g, 0, c)) (ss : List Step) (hss : AllFail ss) (types : FType → Bool)
    (sb : Sb) (hsb : (file.whiteout v.wht v.type).answer v.flags = .ok sb) :
    ∃ rs g1, run v.wht g ss = .ok (rs, g1) ∧ evalType g1 types = types sb.type := by
  obtain ⟨g', e, c', h1, h2, _, _, h5⟩ := C55_start v hv file hc hk now later hnow hlater
  rw [hg] at h1
  injection h1 with h1
  injection h1 with e1 e2
  injection e2 with e2 e3
  subst e1
  obtain ⟨hsl, hp⟩ := hv
  obtain ⟨b, m, k1, k2⟩ := start_inv (mem := v.mem) hsl hp
  obtain ⟨g'', e'', c'', k4, k5, _⟩ := init_ext (wht := v.wht) (mount := v.mount) (ancestors := v.ancestors) (answer_fails hc hnow) (answer_fails hc hlater) (k2 v.type (statFlags v.w v.depth))
  have hbe : v.begin now later = .ok (g'', e'', c'') := by
    unfold Visit.begin
    rw [k1, ok_bind]
    exact k4
  rw [hg] at hbe
  injection hbe with hbe
  injection hbe with hbe _
  subst hbe
  obtain ⟨rs, g1, r1, _, _, e1⟩ := run_ext (wht := v.wht) ss k5 hss
  refine ⟨rs, g1, r1, ?_⟩
  unfold evalType
  rw [e1.type]
  rcases (h5 e2.symm).2 with ⟨sb', h6, h7, _⟩ | ⟨⟨e', h6⟩, _⟩
  · rw [hsb] at h6
    injection h6 with h6
    rw [h7, h6]
  · obtain ⟨_, h7⟩ := lstat_err_stat (whiteout_consistent hc v.wht v.type) h6 v.flags
    rw [hsb] at h7
    simp at h7

/-- C69: `-xtype` tests the type that `-type` would test if links were followed exactly where they are not. A loop counts as a link if it would be followed. -/
theorem C69_xtype (v : Visit) (hv : v.Ok) (file : File) (hc : file.Consistent) (hk : v.Knows file) (now later : Now) (hnow : now.stat = file.answer) (hlater : later.stat = file.answer)
    (g : Ftw) (c : Option Nat) (hg : v.begin now later = .ok (g, 0, c))
    (ss : List Step) (hss : ∀ st ∈ ss, Sees file st ∧ ValidOp st.op) (n l : Now) (hn : n.stat = file.answer) (hl : l.stat = file.answer) (errno : Nat) (types : FType → Bool)
    (hwht : ¬ (v.wht = true ∧ v.type = .wht)) (sb : Sb) (hex : file.lstat = .ok sb) :
    ∃ rs g1 x g2, run v.wht g ss = .ok (rs, g1) ∧ evalXtype v.wht n l g1 types errno = .ok (x, g2) ∧
      (v.flags = TRYFOLLOW → x = .ok (types sb.type)) ∧
      (v.flags = NOFOLLOW → ∀ t, file.stat = .ok t → x = .ok (types t.type)) ∧
      (v.flags = NOFOLLOW → ∀ e, file.stat = .error e → e = 40 → x = .ok (types .lnk)) ∧
      (v.flags = NOFOLLOW → ∀ e, file.stat = .error e → e = 2 ∨ e = 20 → x = .ok (types .lnk)) ∧
      (v.flags = NOFOLLOW → ∀ e, file.stat = .error e → e ≠ 40 → e ≠ 2 → e ≠ 20 → x = .error e) := by
  obtain ⟨rs, g1, r, g2, h1, h2, h3⟩ := C55_answers v hv file hc hk now later hnow hlater g c hg ss hss ⟨.xtype types, n, l, errno⟩ ⟨hn, hl⟩ trivial
  rw [whiteout_eq hwht] at h3
  have hnolerr : ¬ ∃ e, file.lstat = .error e := by
    rintro ⟨e, h⟩
    rw [hex] at h
    simp at h
  have h2 : (evalXtype v.wht n l g1 types errno).bind (fun r => .ok (Answer.test r.1, r.2)) = .ok (r, g2) := h2
  cases hp : evalXtype v.wht n l g1 types errno with
  | err e => rw [hp] at h2; simp [Out.bind] at h2
  | ub => rw [hp] at h2; simp [Out.bind] at h2
  | ok p =>
    rw [hp, ok_bind] at h2
    injection h2 with h2
    injection h2 with e1 e2
    subst e1 e2
    obtain ⟨x, g2⟩ := p
    have h3 : (match (if v.flags.nofollow then file.tryStat else file.lstat) with
      | .ok sb => x = .ok (types sb.type)
      | .error e =>
        (if v.flags.nofollow = true ∧ e = 40 then x = .ok (types .lnk) else ∃ e', x = .error e' ∧ SameErr e' e)
          ∨ (∃ e, file.lstat = .error e) ∧ x = .ok (types v.type)) := h3
    refine ⟨rs, g1, x, g2, h1, hp, ?_, ?_, ?_, ?_, ?_⟩
    · intro hf
      have hq : (if v.flags.nofollow then file.tryStat else file.lstat) = .ok sb := by rw [hf, ← hex]; rfl
      rw [hq] at h3
      exact h3
    all_goals
      intro hf
      have hq : (if v.flags.nofollow then file.tryStat else file.lstat) = file.tryStat := by rw [hf]; rfl
      have hnf : v.flags.nofollow = true := by rw [hf]; rfl
      rw [hq] at h3
      unfold File.tryStat at h3
    · intro t hs
      rw [hs] at h3
      exact h3
    · intro e hs he
      rw [hs] at h3
      subst he
      dsimp only at h3
      rw [if_neg (by decide)] at h3
      rcases h3 with h3 | h3
      · rw [if_pos ⟨hnf, rfl⟩] at h3
        exact h3
      · exact absurd h3.1 hnolerr
    · intro e hs he
      rw [hs] at h3
      dsimp only at h3
      rw [if_pos he, hex] at h3
      have hsl : sb.type = .lnk := by
        by_cases hl : sb.type = .lnk
        · exact hl
        · have := hc.plain sb hex hl
          rw [hs] at this
          simp at this
      rw [← hsl]
      exact h3
    · intro e hs h40 h2 h20
      rw [hs] at h3
      dsimp only at h3
      rw [if_neg (by omega)] at h3
      rcases h3 with h3 | h3
      · rw [if_neg (fun h => h40 h.2)] at h3
        obtain ⟨e', h3, h4⟩ := h3
        rw [h3, sameErr_eq h4 (by omega)]
      · exact absurd h3.1 hnolerr

end Verif.Props
