import Verif.Lemmas.Pager
/-!
# C99: the help is shown, and waiting for the pager ends
-/
namespace Verif.Props
open Verif Verif.Spawn Verif.Pager Verif.Spec.Spawn Verif.Spec.Pager

/-- C99 (whatever is set, found or fails): nothing undefined happens, and afterwards the process has the descriptors that it had before, and nothing else that was not given back. Either there is no program and the help goes to standard output, or there is a program, the help goes to the pipe, the pipe is closed and only then the program is waited for. -/
theorem C99_help {pl : Plat} {w : World} {l : Luck} {self : Child} (hn : Normal w l self)
    {libc : Bool → List UInt8 → List Action → Child → Result} (hl : Faithful w libc) (junk : UInt8) (tty : Bool) :
    ∃ h, parseHelp pl w libc junk l self tty = .ok h ∧ h.st.fds = self.fds ∧ h.st.objs = [] ∧
      match h.program with
      | none => h.events = [.print (self.fds 1) true]
      | some p => tty = true ∧ ∃ fd pid colors,
          h.events = [.print (some ⟨l.writeEnd, false⟩) colors, .close fd, .wait pid self.fds] ∧
          (colors = true ↔ NamedLess p.path) := by
  unfold parseHelp
  cases tty with
  | false => exact ⟨_, rfl, rfl, rfl, rfl⟩
  | true =>
    dsimp only [if_true]
    rcases launch_either (pl := pl) hn hl junk with h | ⟨r, wr, exe, pid, p, hp, _, h, hpath, _⟩
    · rw [h]
      exact ⟨_, rfl, rfl, rfl, rfl⟩
    · obtain ⟨_, _, hne, hr, hw⟩ := hn.pipe r wr hp
      rw [h]
      have hwr : (self.fds.set wr (some ⟨l.writeEnd, false⟩)) wr = some ⟨l.writeEnd, false⟩ := by simp [Fds.set]
      have hfin : finish [.print ((self.fds.set wr (some ⟨l.writeEnd, false⟩)) wr) (isLess exe)] (started l self wr exe pid (some p)) wr =
          .ok ⟨[.print (some ⟨l.writeEnd, false⟩) (isLess exe), .close wr, .wait pid self.fds], some p,
            if isLess exe then [exe, lessFlags] else [exe], ⟨self.fds, []⟩⟩ := by
        show (cfclose wr ⟨self.fds.set wr (some ⟨l.writeEnd, false⟩), [.ret]⟩).bind _ = _
        unfold cfclose
        rw [closeFd_set hwr, wr_restore hne hr hw, hwr]
        rfl
      exact ⟨_, hfin, rfl, rfl, rfl, wr, pid, isLess exe, rfl, by rw [hpath]; exact isLess_iff exe⟩

/-- C99 (the pager): it is the one that should be used; it gets its own path, and options only if it is `less`; it reads from the pipe, and otherwise has what it would have inherited anyway. Neither it nor the waiting process can write to the pipe, so it sees the end of the help. -/
theorem C99_pager {pl : Plat} {w : World} {l : Luck} {self : Child} (hn : Normal w l self)
    {libc : Bool → List UInt8 → List Action → Child → Result} (hl : Faithful w libc) (junk : UInt8) {tty : Bool} {h : Helped}
    (hh : parseHelp pl w libc junk l self tty = .ok h) {p : Program} (hp : h.program = some p) :
    chosen w self.cwd l.pager = some p.path ∧
    ((NamedLess p.path ∧ h.argv = [p.path, [45, 70, 75, 82, 88]]) ∨ (¬NamedLess p.path ∧ h.argv = [p.path])) ∧
    p.fds 0 = some ⟨l.readEnd, false⟩ ∧ (∀ fd, fd ≠ 0 → p.fds fd = inherited self.fds fd) ∧
    p.cwd = self.cwd ∧ p.limits = self.limits ∧ p.blocked = false ∧
    (∀ fd e, p.fds fd = some e → e.file ≠ l.writeEnd) ∧
    ∀ pid t, Event.wait pid t ∈ h.events → ∀ fd e, t fd = some e → e.file ≠ l.writeEnd := by
  obtain ⟨h', e1, _, _, hev⟩ := C99_help (pl := pl) hn hl junk tty
  rw [hh] at e1; cases e1
  rw [hp] at hev
  obtain ⟨htty, fd0, pid0, col, hev, _⟩ := hev
  subst htty
  unfold parseHelp at hh
  dsimp only [if_true] at hh
  rcases launch_either (pl := pl) hn hl junk with h1 | ⟨r, wr, exe, pid, q, hpipe, hc, h1, hpath, hfds, hcwd, hlim, hbl⟩
  · rw [h1] at hh
    cases hh; cases hp
  · rw [h1] at hh
    change finish _ (started l self wr exe pid (some q)) wr = _ at hh
    change (cfclose wr ⟨self.fds.set wr (some ⟨l.writeEnd, false⟩), [.ret]⟩).bind _ = _ at hh
    unfold cfclose at hh
    rw [closeFd_set (e := ⟨l.writeEnd, false⟩) (by simp [Fds.set])] at hh
    cases hh
    cases hp
    subst hpath
    have h0 : p.fds 0 = some ⟨l.readEnd, false⟩ := by rw [hfds]; simp [inherited, Fds.set]
    have hother : ∀ fd, fd ≠ 0 → p.fds fd = inherited self.fds fd := by
      intro fd hfd; rw [hfds]; simp [inherited, Fds.set, hfd]
    refine ⟨hc, ?_, h0, hother, hcwd, hlim, hbl, ?_, ?_⟩
    · cases hle : isLess p.path with
      | true => exact Or.inl ⟨(isLess_iff _).1 hle, by simp [started, hle, lessFlags]⟩
      | false =>
        refine Or.inr ⟨?_, by simp [started, hle]⟩
        intro hx; rw [(isLess_iff _).2 hx] at hle; cases hle
    · intro fd e he
      by_cases hfd : fd = 0
      · subst hfd; rw [h0] at he; cases he; exact hn.files
      · rw [hother fd hfd] at he
        unfold inherited at he
        split at he
        · cases he
        · exact hn.fresh fd e he
    · intro pid' t ht fd e he
      rw [hev] at ht
      simp at ht
      rw [ht.2] at he
      exact hn.fresh fd e he

/-- C99 (when there is a pager): on a terminal, if a pager is found and nothing fails, it is started. -/
theorem C99_works {pl : Plat} {w : World} {l : Luck} {self : Child} (hn : Normal w l self)
    {libc : Bool → List UInt8 → List Action → Child → Result} (hl : Faithful w libc) (hok : Works pl w libc) (hg : l.good) (junk : UInt8)
    {exe : List UInt8} (hc : chosen w self.cwd l.pager = some exe) :
    ∃ h, parseHelp pl w libc junk l self true = .ok h ∧ h.program.isSome := by
  obtain ⟨a, h1, h2⟩ := launch_works (pl := pl) hn hl hok hg junk hc
  obtain ⟨h, h3, _⟩ := C99_help (pl := pl) hn hl junk true
  refine ⟨h, h3, ?_⟩
  unfold parseHelp at h3
  dsimp only [if_true] at h3
  rw [h1] at h3
  change finish _ a _ = _ at h3
  unfold finish at h3
  split at h3
  · cases hb : cfclose (a.out.getD 1) a.st with
    | ok s => rw [hb] at h3; cases h3; exact h2
    | err e => rw [hb] at h3; cases h3
    | ub => rw [hb] at h3; cases h3
  · cases h3; exact h2

/-- A pipe from descriptor 7 to descriptor 6, and `PAGER=x`. -/
def pagerLuck : Luck := ⟨some [120], some (6, 7), 60, 61, true, true, true, true, true, true⟩

/-- A system without `posix_spawn()`. -/
def pagerPlat : Plat := ⟨false, false, false⟩

theorem pagerNormal : Normal spawnWorld pagerLuck spawnSelf where
  stdin := rfl
  pipe r p h := by cases h; decide
  files := by decide
  fresh fd e h := by
    unfold spawnSelf at h
    dsimp only at h
    split at h
    · rename_i hfd
      cases h
      rcases hfd with h | h | h <;> (subst h; decide)
    · split at h
      · cases h; decide
      · cases h
  honest :=
    { spawnWorld_honest with
      finite := ⟨8, by
        intro fd hfd
        have : ∀ n : Int, n < 8 → fd ≠ n := by omega
        simp [piped, pagerLuck, spawnSelf, this 7 (by decide), this 6 (by decide), this 0 (by decide), this 1 (by decide), this 2 (by decide), this 3 (by decide)]⟩
      pipe := by intro r p h; cases h; decide
      pipeFile := by
        intro fd e h
        unfold piped pagerLuck at h
        dsimp only at h
        split at h
        · cases h; exact (by decide : (61 : Nat) ≠ 1000)
        · split at h
          · cases h; exact (by decide : (60 : Nat) ≠ 1000)
          · exact spawnWorld_honest.pipeFile fd e h }
  pager p h := by cases h; decide
  path p h := by cases h; decide

theorem pagerFaithful : Faithful spawnWorld noLibc := by
  intro pl reqs exe self _
  exact ⟨rfl, rfl⟩

/-- The conditions are met: the pager is `/b/x`, which is started. -/
example : Normal spawnWorld pagerLuck spawnSelf ∧ Faithful spawnWorld noLibc ∧ Works pagerPlat spawnWorld noLibc ∧ pagerLuck.good ∧
    chosen spawnWorld spawnSelf.cwd pagerLuck.pager = some [47, 98, 47, 120] :=
  ⟨pagerNormal, pagerFaithful,
   ⟨(by intro h; cases h), fun _ => ⟨⟨42, rfl⟩, ⟨(4, 5), rfl⟩, rfl, rfl, rfl, rfl, fun _ _ => rfl⟩⟩,
   ⟨⟨_, rfl⟩, rfl, rfl, rfl, rfl, rfl, rfl⟩, by decide +kernel⟩

example : ∃ h, parseHelp pagerPlat spawnWorld noLibc 0 pagerLuck spawnSelf true = .ok h ∧ h.program.isSome :=
  C99_works pagerNormal pagerFaithful
    ⟨(by intro h; cases h), fun _ => ⟨⟨42, rfl⟩, ⟨(4, 5), rfl⟩, rfl, rfl, rfl, rfl, fun _ _ => rfl⟩⟩
    ⟨⟨_, rfl⟩, rfl, rfl, rfl, rfl, rfl, rfl⟩ 0 (exe := [47, 98, 47, 120]) (by decide +kernel)

end Verif.Props
