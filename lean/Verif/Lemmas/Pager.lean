import Verif.Spec.Pager
import Verif.Props.Spawn
import Verif.Lemmas.Path
/-!
# Lemmas about the pager
-/
namespace Verif.Pager
open Verif Verif.Spawn Verif.Spec.Spawn Verif.Spec.Pager

theorem searchPath_eq (w : World) : thePath w = (match searchPath w with | .ok p => some p | _ => none) := by
  unfold thePath searchPath
  cases w.env with
  | some p => rfl
  | none => cases w.confstr <;> rfl

/-- Resolving a name finds the file that it should, or nothing. -/
theorem resolve_locate {pl : Plat} {w : World} (junk : UInt8) (d : Dir) {exe : Str}
    (hpath : ∀ p, thePath w = some p → (0 : UInt8) ∉ p) (hexe : (0 : UInt8) ∉ exe) (hlen : exe.length < 2 ^ 64 - 1) :
    pointer (spawnResolve pl w junk d exe) = .ok (locate w d exe) := by
  unfold locate
  by_cases hx : (47 : UInt8) ∈ exe
  · rw [if_pos hx, Props.C48_resolve_direct pl w junk d hx]
    cases direct w exe d <;> rfl
  · rw [if_neg hx]
    have hskip : canSkipResolve exe none = false := by
      unfold canSkipResolve strchr
      have : (List.findIdx? (fun x => decide (x = 47)) exe).isSome = false := by
        rw [List.findIdx?_isSome, List.any_eq_false]
        intro a ha hb
        exact hx (by have := of_decide_eq_true hb; subst this; exact ha)
      rw [this]; rfl
    have hsp := searchPath_eq w
    cases hs : searchPath w with
    | ub =>
      unfold searchPath at hs
      cases he : w.env with
      | some p => rw [he] at hs; cases hs
      | none =>
        rw [he] at hs
        cases hc : w.confstr <;> (rw [hc] at hs; cases hs)
    | err e =>
      rw [hs] at hsp; dsimp only at hsp
      have : spawnResolve pl w junk d exe = .err e := by
        unfold spawnResolve resolveEarly
        simp only [hskip, hs, Out.bind]
        rfl
      rw [this, hsp]
      cases w.malloc <;> rfl
    | ok path =>
      rw [hs] at hsp; dsimp only at hsp
      rw [hsp]
      cases hm : w.malloc with
      | true =>
        rw [Props.C48_resolve pl w junk d ⟨hpath path hsp, hexe, hlen⟩ hx hs hm]
        rw [if_pos rfl]
        show _ = Out.ok (search w path exe d).toOption
        cases search w path exe d <;> rfl
      | false =>
        have : spawnResolve pl w junk d exe = .err "ENOMEM" := by
          unfold spawnResolve resolveEarly
          simp [hskip, hs, Out.bind, hm]
        rw [this]; rfl

theorem findPager_chosen {pl : Plat} {w : World} (junk : UInt8) (d : Dir) {pager : Option Str}
    (hpath : ∀ p, thePath w = some p → (0 : UInt8) ∉ p)
    (hpager : ∀ p, pager = some p → (0 : UInt8) ∉ p ∧ p.length < 2 ^ 64 - 1) :
    findPager pl w junk d pager = .ok (chosen w d pager) := by
  have hdef : (pointer (spawnResolve pl w junk d less)).bind (fun exe =>
      match exe with
      | some exe => Out.ok (some exe)
      | none => pointer (spawnResolve pl w junk d more)) =
        .ok ((locate w d [108, 101, 115, 115]).or (locate w d [109, 111, 114, 101])) := by
    rw [resolve_locate junk d hpath (exe := less) (by decide) (by decide)]
    rw [resolve_locate junk d hpath (exe := more) (by decide) (by decide)]
    show (match locate w d less with
      | some exe => Out.ok (some exe)
      | none => .ok (locate w d more)) = _
    unfold less more
    cases locate w d [108, 101, 115, 115] <;> rfl
  unfold findPager chosen
  match pager, hpager with
  | none, _ => exact hdef
  | some [], _ => exact hdef
  | some (c :: cs), h =>
    obtain ⟨h1, h2⟩ := h _ rfl
    dsimp only
    rw [resolve_locate junk d hpath h1 h2]
    rfl

/-- The requests for the pager. -/
def reqs (r wr : Nat) : List Req := [.close wr, .dup2 r 0, .close r]

theorem reqs_noOpen (r wr : Nat) : NoOpen (reqs r wr) := by
  intro q hq fd p fl m h; subst h; simp [reqs] at hq

theorem failSpawn_error {e : String} {t : Fds} {pr pw : Int} {b : Bool} {res : Result} (h : failSpawn e t pr pw b = .ok res) :
    ∃ e, res.ret = .error e := by
  unfold failSpawn at h
  cases h1 : xclose t pw with
  | ok t1 =>
    rw [h1] at h
    cases h2 : xclose t1 pr with
    | ok t2 => simp only [Out.bind, h2] at h; cases h; exact ⟨_, rfl⟩
    | err _ => simp only [Out.bind, h2] at h; cases h
    | ub => simp only [Out.bind, h2] at h; cases h
  | err _ => rw [h1] at h; cases h
  | ub => rw [h1] at h; cases h

theorem fork_error {w : World} {r : Resolver} {ctx : Ctx} {self : Child} {e : String} {res : Result} (hf : w.fork = .error e)
    (h : forkSpawn w r ctx self = .ok res) : ∃ e, res.ret = .error e := by
  unfold forkSpawn at h
  cases hp : w.pipe with
  | error e => rw [hp] at h; cases h; exact ⟨_, rfl⟩
  | ok q =>
    rw [hp] at h; dsimp only at h
    cases h1 : w.sigfillset with
    | some e => rw [h1] at h; exact failSpawn_error h
    | none =>
      rw [h1] at h; dsimp only at h
      cases h2 : w.block with
      | some e => rw [h2] at h; exact failSpawn_error h
      | none =>
        rw [h2] at h; dsimp only at h
        cases h3 : w.unblock with
        | some e => rw [h3] at h; cases h
        | none =>
          rw [h3, hf] at h
          exact failSpawn_error h

theorem attempt_ok {α : Type} {f : Option String} {x : Except String α} {a : α} (h : attempt f x = .ok a) : x = .ok a := by
  cases f with
  | none => exact h
  | some e => cases h

theorem become_of_start {w : World} {early : Bool} {find : Dir → Except String Str} {qs : List Req} {self : Child} {p : Program}
    (h : start w early find qs self = .ok p) :
    ∃ c, applyAll w qs self = .ok c ∧ find c.cwd = .ok p.path ∧
      p.fds = inherited c.fds ∧ p.cwd = c.cwd ∧ p.limits = c.limits ∧ p.blocked = false := by
  have h := attempt_ok (attempt_ok (attempt_ok (attempt_ok (attempt_ok h))))
  unfold become at h
  cases hc : applyAll w qs self with
  | error e => rw [hc] at h; cases h
  | ok c =>
    rw [hc] at h; dsimp only at h
    cases hf : find c.cwd with
    | error e => rw [hf] at h; cases h
    | ok q =>
      rw [hf] at h; dsimp only at h
      have h := attempt_ok (attempt_ok (attempt_ok h))
      cases h
      exact ⟨c, rfl, hf, rfl, rfl, rfl, rfl⟩

theorem direct_path {w : World} {exe q : Str} {d : Dir} (h : direct w exe d = .ok q) : q = exe := by
  unfold direct at h
  split at h <;> cases h
  rfl

/-- Starting a program that is not searched for: there is a program as requested, or an error. -/
theorem spawn_either {pl : Plat} {w : World} {self : Child} (hh : Honest w self)
    {libc : Bool → Str → List Action → Child → Result} (hl : Faithful w libc) (junk : UInt8) (exe : Str) (r wr : Nat) :
    ∃ res, spawn pl w libc junk exe (prepare pl false (reqs r wr)) self = .ok res ∧ res.fds = self.fds ∧
      match res.ret with
      | .error _ => res.program = none
      | .ok _ => ∃ p c, res.program = some p ∧ p.path = exe ∧ applyAll w (reqs r wr) self = .ok c ∧
          p.fds = inherited c.fds ∧ p.cwd = c.cwd ∧ p.limits = c.limits ∧ p.blocked = false := by
  have hskip : canSkipResolve exe (some (prepare pl false (reqs r wr))) = true := rfl
  have hctx : (prepare pl false (reqs r wr)).usePosix = pl.posixSpawn := rfl
  have hearly : resolveEarly pl w junk self.cwd exe (some (prepare pl false (reqs r wr))) =
      match xfaccessat w self.cwd exe with
      | none => .ok ⟨exe, false, [], none, 0, true⟩
      | some e => .err e := by
    unfold resolveEarly
    dsimp only
    rw [if_pos hskip]
    cases xfaccessat w self.cwd exe <;> rfl
  cases hp : pl.posixSpawn with
  | true =>
    unfold spawn
    rw [hearly]
    cases xfaccessat w self.cwd exe with
    | some e => exact ⟨_, rfl, rfl, rfl⟩
    | none =>
      refine ⟨libc false exe (prepare pl false (reqs r wr)).actions self, ?_, ?_⟩
      · show spawnImpl _ _ _ _ _ _ = _
        unfold spawnImpl usePosixSpawn
        rw [hctx, hp]
        cases pl.afterFchdir <;> rfl
      · exact hl pl (reqs r wr) exe self (reqs_noOpen r wr)
  | false =>
    rw [hp] at hctx
    cases hfork : w.fork with
    | ok pid =>
      have h := direct_spec (pl := pl) hh libc junk (exe := exe) (Or.inl rfl) (exact := true) hfork (fun _ => reqs_noOpen r wr) hctx (by
        intro c hc
        rw [applyAll_cwd (reqs r wr) hc rfl])
      cases hst : start w true (direct w exe) (reqs r wr) self with
      | error e =>
        rw [hst] at h
        exact ⟨_, h rfl, rfl, rfl⟩
      | ok p =>
        rw [hst] at h
        obtain ⟨p', h1, _, _, _, _, _, h2⟩ := h
        rw [h2 rfl] at h1
        refine ⟨_, h1, rfl, p, ?_⟩
        obtain ⟨c, ha, hf, hc⟩ := become_of_start hst
        exact ⟨c, rfl, direct_path hf, ha, hc⟩
    | error e =>
      unfold spawn
      rw [hearly]
      cases xfaccessat w self.cwd exe with
      | some e => exact ⟨_, rfl, rfl, rfl⟩
      | none =>
        have himpl : spawnImpl pl w libc ⟨exe, false, [], none, 0, true⟩ (prepare pl false (reqs r wr)) self =
            forkSpawn w ⟨exe, false, [], none, 0, true⟩ (prepare pl false (reqs r wr)) self := by
          unfold spawnImpl; rw [hp]; rfl
        show ∃ res, spawnImpl _ _ _ _ _ _ = _ ∧ _
        rw [himpl]
        obtain ⟨res, h1, h2, _, _, h5, _⟩ := fork_any hh (ctx := prepare pl false (reqs r wr)) (total_done (w := w) (res := ⟨exe, false, [], none, 0, true⟩) rfl)
        refine ⟨res, h1, h2, ?_⟩
        obtain ⟨e', he⟩ := fork_error hfork h1
        rw [he]
        rw [he] at h5
        cases hpr : res.program with
        | none => rfl
        | some p => rw [hpr] at h5; obtain ⟨_, h⟩ := h5.1 rfl; cases h

/-- What the program sees. -/
theorem apply_reqs {w : World} {self : Child} {r wr : Nat} {er ew : Entry} {t : Fds}
    (ht : t = (self.fds.set r (some er)).set wr (some ew)) (hne : r ≠ wr) (h0 : (self.fds 0).isSome)
    (hr : self.fds r = none) (hw : self.fds wr = none) :
    applyAll w (reqs r wr) { self with fds := t } =
      .ok { self with fds := self.fds.set 0 (some ⟨er.file, false⟩) } := by
  have hne' : (r : Int) ≠ (wr : Int) := by omega
  have hr0 : (r : Int) ≠ 0 := by intro h; rw [h] at hr; rw [hr] at h0; cases h0
  have hw0 : (wr : Int) ≠ 0 := by intro h; rw [h] at hw; rw [hw] at h0; cases h0
  have hr0' : r ≠ 0 := by omega
  have hw0' : wr ≠ 0 := by omega
  have h1 : t wr = some ew := by subst ht; simp [Fds.set]
  have h2 : t r = some er := by subst ht; simp [Fds.set, hne']
  unfold reqs applyAll apply
  simp only [h1]
  unfold applyAll apply
  simp only [hne', if_false, h2]
  unfold applyAll apply
  have hr0c : ¬((r : Int) = ((0 : Nat) : Int) ∧ r ≠ 0) := by omega
  simp only [if_neg hr0c, if_neg hne', h2, applyAll]
  congr 2
  funext x
  subst ht
  unfold Fds.set
  by_cases hx0 : x = 0
  · subst hx0
    simp [Ne.symm hr0, hr0']
  · by_cases hxr : x = r
    · subst hxr; simp [hr0', hr]
    · by_cases hxw : x = wr
      · subst hxw; simp [hw0', Ne.symm hne', hw]
      · simp [hx0, hxr, hxw]

theorem closeFd_set {t : Fds} {fd : Int} {e : Entry} {objs : List Obj} (h : t fd = some e) :
    closeFd fd ⟨t, objs⟩ = .ok ⟨t.set fd none, objs⟩ := by
  unfold closeFd xclose
  simp only [h]
  rfl

/-- The table while the pipe is open. -/
def tbl (l : Luck) (self : Child) (r wr : Int) : Fds :=
  (self.fds.set r (some ⟨l.readEnd, false⟩)).set wr (some ⟨l.writeEnd, false⟩)

section
variable {l : Luck} {self : Child} {r wr : Int} (hne : r ≠ wr) (hr : self.fds r = none) (hw : self.fds wr = none)
include hne hr hw

theorem tbl_restore : ((tbl l self r wr).set wr none).set r none = self.fds := by
  funext x
  unfold tbl Fds.set
  by_cases h1 : x = r
  · subst h1; simp [hr]
  · by_cases h2 : x = wr
    · subst h2; simp [h1, hw]
    · simp [h1, h2]

theorem tbl_read : ((tbl l self r wr).set wr none) r = some ⟨l.readEnd, false⟩ := by
  unfold tbl Fds.set; simp [hne]

theorem failFile_neg (hr0 : 0 ≤ r) : failFile r (-1) none ⟨(tbl l self r wr).set wr none, [.exe]⟩ = fail ⟨self.fds, []⟩ := by
  show (closeIf (-1) _).bind _ = _
  unfold closeIf
  rw [if_neg (by decide)]
  show (if r ≥ 0 then closeFd r _ else _).bind failExe = _
  rw [if_pos hr0, closeFd_set (tbl_read hne hr hw)]
  rw [tbl_restore hne hr hw]
  rfl

theorem failRet_eq (hr0 : 0 ≤ r) : failRet wr r (-1) none ⟨tbl l self r wr, [.ret, .exe]⟩ = fail ⟨self.fds, []⟩ := by
  unfold failRet cfclose
  rw [closeFd_set (e := ⟨l.writeEnd, false⟩) (by simp [tbl, Fds.set])]
  exact failFile_neg hne hr hw hr0

theorem failCtx_eq (hr0 : 0 ≤ r) : failCtx wr r (-1) none ⟨tbl l self r wr, [.ctx, .ret, .exe]⟩ = fail ⟨self.fds, []⟩ :=
  failRet_eq hne hr hw hr0

theorem failFile_some (hr0 : 0 ≤ r) : failFile r (-1) (some wr) ⟨tbl l self r wr, [.file, .exe]⟩ = fail ⟨self.fds, []⟩ := by
  show (closeFd wr ⟨tbl l self r wr, [.exe]⟩).bind (failPipe r (-1)) = _
  rw [closeFd_set (e := ⟨l.writeEnd, false⟩) (by simp [tbl, Fds.set])]
  exact failFile_neg hne hr hw hr0

theorem failPipe_eq (hr0 : 0 ≤ r) (hw0 : 0 ≤ wr) : failPipe r wr ⟨tbl l self r wr, [.exe]⟩ = fail ⟨self.fds, []⟩ := by
  unfold failPipe closeIf
  rw [if_pos hw0, closeFd_set (e := ⟨l.writeEnd, false⟩) (by simp [tbl, Fds.set])]
  show (if r ≥ 0 then closeFd r _ else _).bind failExe = _
  rw [if_pos hr0, closeFd_set (tbl_read hne hr hw), tbl_restore hne hr hw]
  rfl

theorem success_fds : (tbl l self r wr).set r none = self.fds.set wr (some ⟨l.writeEnd, false⟩) := by
  funext x
  unfold tbl Fds.set
  by_cases h1 : x = r
  · subst h1; simp [hne, hr]
  · by_cases h2 : x = wr
    · subst h2; simp [h1]
    · simp [h1, h2]

theorem wr_restore : (self.fds.set wr (some ⟨l.writeEnd, false⟩)).set wr none = self.fds := by
  funext x
  unfold Fds.set
  by_cases h2 : x = wr
  · subst h2; simp [hw]
  · simp [h2]
end

/-- Whether the executable is `less`. -/
def isLess (exe : Str) : Bool := decide (exe.drop (Path.xbaseoff exe) = less)

/-- The result if the pager is started. -/
def started (l : Luck) (self : Child) (wr : Int) (exe : Str) (pid : Nat) (p : Option Program) : Launched :=
  ⟨some wr, isLess exe, some pid, p, if isLess exe then [exe, lessFlags] else [exe],
    ⟨self.fds.set wr (some ⟨l.writeEnd, false⟩), [.ret]⟩⟩

/-- The end of `launch_pager()`, in terms of the result of `bfs_spawn()`. -/
theorem run_eq {pl : Plat} {w : World} {libc : Bool → Str → List Action → Child → Result} {junk : UInt8} {l : Luck} {self : Child}
    {exe : Str} {r wr : Int} {ctx : Ctx} {res : Result} (hne : r ≠ wr) (hr : self.fds r = none) (hw : self.fds wr = none) (hr0 : 0 ≤ r)
    (hs : spawn pl w libc junk exe ctx { self with fds := tbl l self r wr } = .ok res) (hf : res.fds = tbl l self r wr) :
    run pl w libc junk self exe wr r ctx ⟨tbl l self r wr, [.ctx, .ret, .exe]⟩ =
      match res.ret with
      | .error _ => fail ⟨self.fds, []⟩
      | .ok pid => .ok (started l self wr exe pid res.program) := by
  unfold run
  dsimp only
  rw [hs]
  show (match res.ret with | .error _ => _ | .ok _ => _) = _
  rw [hf]
  cases res.ret with
  | error e => exact failCtx_eq hne hr hw hr0
  | ok pid =>
    dsimp only
    rw [closeFd_set (e := ⟨l.readEnd, false⟩) (by simp [tbl, Fds.set, hne]), success_fds hne hr hw]
    unfold started isLess
    by_cases hl : List.drop (Path.xbaseoff exe) exe = less
    · simp [hl]; rfl
    · simp [hl]; rfl

/-- `launch_pager()` does nothing that remains, or starts the right program. -/
theorem launch_either {pl : Plat} {w : World} {l : Luck} {self : Child} (hn : Normal w l self)
    {libc : Bool → Str → List Action → Child → Result} (hl : Faithful w libc) (junk : UInt8) :
    launchPager pl w libc junk l self = fail ⟨self.fds, []⟩ ∨
      ∃ r wr exe pid p, l.pipe = some (r, wr) ∧ chosen w self.cwd l.pager = some exe ∧
        launchPager pl w libc junk l self = .ok (started l self wr exe pid (some p)) ∧
        p.path = exe ∧ p.fds = inherited (self.fds.set 0 (some ⟨l.readEnd, false⟩)) ∧ p.cwd = self.cwd ∧ p.limits = self.limits ∧
        p.blocked = false := by
  unfold launchPager
  dsimp only
  rw [findPager_chosen junk self.cwd hn.path hn.pager]
  cases hc : chosen w self.cwd l.pager with
  | none => exact Or.inl rfl
  | some exe =>
    show (match l.pipe with | none => _ | some (r, wr) => _) = _ ∨ _
    cases hp : l.pipe with
    | none => exact Or.inl rfl
    | some q =>
      obtain ⟨r, wr⟩ := q
      obtain ⟨hr0, hw0, hne, hr, hw⟩ := hn.pipe r wr hp
      have hh := hn.honest
      unfold piped at hh
      rw [hp] at hh
      have htbl : (fun fd => if fd = wr then some ⟨l.writeEnd, false⟩ else if fd = r then some ⟨l.readEnd, false⟩ else self.fds fd) =
          tbl l self r wr := rfl
      dsimp only at hh
      rw [htbl] at hh
      dsimp only
      cases l.fdopen with
      | false => left; exact failPipe_eq hne hr hw hr0 hw0
      | true =>
        cases l.cfwrap with
        | false => left; exact failFile_some hne hr hw hr0
        | true =>
          show fill pl w libc junk l self exe wr r ⟨tbl l self r wr, [.ret, .exe]⟩ = _ ∨ _
          unfold fill
          cases l.init with
          | false => left; exact failRet_eq hne hr hw hr0
          | true =>
            cases l.addWrite with
            | false => left; exact failCtx_eq hne hr hw hr0
            | true =>
              cases l.addStdin with
              | false => left; exact failCtx_eq hne hr hw hr0
              | true =>
                cases l.addRead with
                | false => left; exact failCtx_eq hne hr hw hr0
                | true =>
                  show run pl w libc junk self exe wr r (addclose (adddup2 (addclose (init pl) wr) r 0) r) ⟨tbl l self r wr, [.ctx, .ret, .exe]⟩ = _ ∨ _
                  obtain ⟨nr, rfl⟩ := Int.eq_ofNat_of_zero_le hr0
                  obtain ⟨nw, rfl⟩ := Int.eq_ofNat_of_zero_le hw0
                  obtain ⟨res, h1, h2, h3⟩ := spawn_either (pl := pl) hh hl junk exe nr nw
                  have hrun := run_eq (ctx := prepare pl false (reqs nr nw)) hne hr hw hr0 h1 h2
                  show run pl w libc junk self exe nw nr (prepare pl false (reqs nr nw)) _ = _ ∨
                    ∃ _ _ _ _ _, _ ∧ _ ∧ run pl w libc junk self exe nw nr (prepare pl false (reqs nr nw)) _ = _ ∧ _
                  rw [hrun]
                  cases hret : res.ret with
                  | error e => exact Or.inl rfl
                  | ok pid =>
                    rw [hret] at h3
                    obtain ⟨p, c, h4, h5, h6, h7, h8, h9, h10⟩ := h3
                    rw [apply_reqs (t := tbl l self nr nw) rfl (by omega) hn.stdin hr hw] at h6
                    cases h6
                    exact Or.inr ⟨nr, nw, exe, pid, p, rfl, rfl, hrun.trans (by rw [hret]; dsimp only; rw [h4]), h5, h7, h8, h9, h10⟩

theorem locate_obstacle {w : World} {d : Dir} {exe p : Str} (h : locate w d exe = some p) : obstacle w d p = none := by
  unfold locate at h
  by_cases hx : (47 : UInt8) ∈ exe
  · rw [if_pos hx] at h
    unfold direct at h
    cases ho : obstacle w d exe with
    | none => rw [ho] at h; cases h; exact ho
    | some e => rw [ho] at h; cases h
  · rw [if_neg hx] at h
    cases hm : w.malloc with
    | false => rw [hm] at h; cases h
    | true =>
      rw [hm, if_pos rfl] at h
      cases ht : thePath w with
      | none => rw [ht] at h; cases h
      | some path =>
        rw [ht] at h
        change (search w path exe d).toOption = some p at h
        unfold search at h
        cases hf : ((entries path).map (under exe)).find? (fun p => obstacle w d p = none) with
        | none => rw [hf] at h; cases h
        | some q =>
          rw [hf] at h
          cases h
          have := List.find?_some hf
          simpa using this

theorem chosen_obstacle {w : World} {d : Dir} {pager : Option Str} {p : Str} (h : chosen w d pager = some p) : obstacle w d p = none := by
  unfold chosen at h
  split at h
  · exact locate_obstacle h
  · rcases Option.or_eq_some_iff.1 h with h | ⟨_, h⟩ <;> exact locate_obstacle h

/-- If nothing fails, the program is started. -/
theorem spawn_works {pl : Plat} {w : World} {self : Child} (hh : Honest w self)
    {libc : Bool → Str → List Action → Child → Result} (hok : Works pl w libc) (junk : UInt8) {exe : Str} {r wr : Nat}
    (hx : obstacle w self.cwd exe = none) {c : Child} (hc : applyAll w (reqs r wr) self = .ok c) :
    ∃ res pid, spawn pl w libc junk exe (prepare pl false (reqs r wr)) self = .ok res ∧ res.ret = .ok pid := by
  have hctx : (prepare pl false (reqs r wr)).usePosix = pl.posixSpawn := rfl
  cases hp : pl.posixSpawn with
  | true =>
    obtain ⟨pid, hpid⟩ := hok.posix hp exe (prepare pl false (reqs r wr)).actions self
    refine ⟨libc false exe (prepare pl false (reqs r wr)).actions self, pid, ?_, hpid⟩
    have hskip : canSkipResolve exe (some (prepare pl false (reqs r wr))) = true := rfl
    unfold spawn resolveEarly
    dsimp only
    rw [if_pos hskip, xfaccessat_eq, hx]
    show spawnImpl _ _ _ _ _ _ = _
    unfold spawnImpl usePosixSpawn
    rw [hctx, hp]
    cases pl.afterFchdir <;> rfl
  | false =>
    obtain ⟨⟨pid, hf⟩, ⟨q, hpipe⟩, h1, h2, h3, h4, h5⟩ := hok.fork hp
    rw [hp] at hctx
    have hcwd : c.cwd = self.cwd := applyAll_cwd (reqs r wr) hc rfl
    have h := direct_spec (pl := pl) hh libc junk (exe := exe) (Or.inl rfl) (exact := true) hf (fun _ => reqs_noOpen r wr) hctx (by
      intro c' hc'
      rw [applyAll_cwd (reqs r wr) hc' rfl])
    have hd : ∀ d, d = self.cwd → direct w exe d = .ok exe := by
      intro d hd; subst hd; unfold direct; rw [hx]
    have hst : ∃ p, start w true (direct w exe) (reqs r wr) self = .ok p := by
      refine ⟨⟨exe, inherited c.fds, c.cwd, c.limits, false⟩, ?_⟩
      unfold start become
      rw [hd self.cwd rfl, hpipe, h1, h2, hf, hc]
      dsimp only
      rw [hd c.cwd hcwd]
      dsimp only
      rw [h3, h4, h5]
      rfl
    obtain ⟨p, hst⟩ := hst
    rw [hst] at h
    obtain ⟨p', h', _⟩ := h
    exact ⟨_, pid, h', rfl⟩

theorem launch_works {pl : Plat} {w : World} {l : Luck} {self : Child} (hn : Normal w l self)
    {libc : Bool → Str → List Action → Child → Result} (hl : Faithful w libc) (hok : Works pl w libc) (hg : l.good) (junk : UInt8)
    {exe : Str} (hc : chosen w self.cwd l.pager = some exe) :
    ∃ a, launchPager pl w libc junk l self = .ok a ∧ a.program.isSome := by
  rcases launch_either (pl := pl) hn hl junk with h | ⟨r, wr, exe, pid, p, _, _, h, _⟩
  · exfalso
    obtain ⟨⟨q, hp⟩, g1, g2, g3, g4, g5, g6⟩ := hg
    obtain ⟨r, wr⟩ := q
    obtain ⟨hr0, hw0, hne, hr, hw⟩ := hn.pipe r wr hp
    have hh := hn.honest
    unfold piped at hh
    rw [hp] at hh
    have htbl : (fun fd => if fd = wr then some ⟨l.writeEnd, false⟩ else if fd = r then some ⟨l.readEnd, false⟩ else self.fds fd) =
        tbl l self r wr := rfl
    dsimp only at hh
    rw [htbl] at hh
    unfold launchPager at h
    dsimp only at h
    rw [findPager_chosen junk self.cwd hn.path hn.pager, hc] at h
    simp only [Out.bind, hp, g1, g2] at h
    unfold fill at h
    simp only [g3, g4, g5, g6] at h
    obtain ⟨nr, rfl⟩ := Int.eq_ofNat_of_zero_le hr0
    obtain ⟨nw, rfl⟩ := Int.eq_ofNat_of_zero_le hw0
    change run pl w libc junk self exe nw nr (prepare pl false (reqs nr nw)) ⟨tbl l self nr nw, [.ctx, .ret, .exe]⟩ = _ at h
    obtain ⟨res, h1, h2, _⟩ := spawn_either (pl := pl) hh hl junk exe nr nw
    obtain ⟨res', pid, h3, h4⟩ := spawn_works hh hok junk (exe := exe) (chosen_obstacle hc)
      (apply_reqs (w := w) (self := self) (t := tbl l self nr nw) rfl (by omega) hn.stdin hr hw)
    rw [h3] at h1; cases h1
    rw [run_eq (ctx := prepare pl false (reqs nr nw)) hne hr hw hr0 h3 h2, h4] at h
    cases h
  · exact ⟨_, h, rfl⟩

theorem isLess_iff (exe : Str) : isLess exe = true ↔ NamedLess exe := by
  unfold isLess NamedLess
  rw [decide_eq_true_iff]
  constructor
  · intro h
    obtain ⟨h1, h2⟩ := Path.baseoff_slash exe
    rcases Nat.eq_zero_or_pos (Path.xbaseoff exe) with h0 | h0
    · rw [h0] at h; exact Or.inl h
    · rcases h1 with h1 | h1
      · omega
      · right
        refine ⟨exe.take (Path.xbaseoff exe - 1), ?_⟩
        have hlt : Path.xbaseoff exe - 1 < exe.length := by omega
        have e1 : exe.drop (Path.xbaseoff exe - 1) = 47 :: less := by
          rw [List.drop_eq_getElem_cons hlt]
          rw [List.getElem?_eq_getElem hlt] at h1
          injection h1 with h1
          rw [h1, show Path.xbaseoff exe - 1 + 1 = Path.xbaseoff exe by omega, h]
        have := List.take_append_drop (Path.xbaseoff exe - 1) exe
        rw [e1] at this
        exact this
  · rintro (h | ⟨d, h⟩)
    · subst h; decide +kernel
    · have hl : Path.LastName exe (d ++ [47]) less [] := ⟨by rw [← h]; simp [less], by decide, by simp, Or.inr (by simp)⟩
      rw [hl.off]
      subst h
      simp [less]

end Verif.Pager
