import Verif.Lemmas.ExecTotal
/-!
# Properties of `-exec`, `-execdir` (C09, C10, C11, C12)

Everywhere `x` is what `bfs_exec_parse()` makes of a command line, `w` is any system (it may
answer each attempt to run a command in any way, depending on everything run so far), and `fs` is
any sequence of files.  `deliv n log` is the concatenation of the arguments, after the first `n`,
of all commands that ran.
-/
namespace Verif.Props
open Verif.Exec

/-! ## C09 -/

/-- Whatever happens, the paths passed to commands that ran are the matched files' in their order
with no repetitions (some may be missing), and each attempt is the fixed part of the command
followed by arguments for some of the files, in order. -/
theorem C09_in_order {confirm c : Bool} {am : List Bytes → Nat} {args : List Bytes} {x : Exec} {w w' : World} {fs : List File} {failed : Bool}
    (hp : parse confirm c am args = .ok (true, x)) (hw : w.log = []) (h : runMulti x w fs = .ok (failed, w')) :
    (deliv x.tmpl.dropLast.length w'.log).Sublist (fs.map (argOf c)) ∧
    ∀ e ∈ w'.log, ∃ gs : List File, gs.Sublist fs ∧ e.args = x.tmpl.dropLast ++ gs.map (argOf c) := by
  obtain ⟨x', _, hI⟩ := run_inv hw hp h
  have hfun : formatPath c = argOf c := funext (formatPath_eq c)
  refine ⟨by simpa [hfun] using hI.sub, ?_⟩
  intro e he
  obtain ⟨gs, ⟨h1, h2⟩, _⟩ := hI.files e he
  exact ⟨gs, h1, by rw [h2, hfun]⟩

/-- The exit status is zero exactly if every matched file was passed to a command, each exactly
once and in order, and no command failed. -/
theorem C09_status {confirm c : Bool} {am : List Bytes → Nat} {args : List Bytes} {x : Exec} {w w' : World} {fs : List File} {failed : Bool}
    (hp : parse confirm c am args = .ok (true, x)) (hw : w.log = []) (h : runMulti x w fs = .ok (failed, w')) :
    failed = false ↔ deliv x.tmpl.dropLast.length w'.log = fs.map (argOf c) ∧ ∀ e ∈ w'.log, e.res ≠ .ran false := by
  obtain ⟨x', hx, hI⟩ := run_inv hw hp h
  have hfun : formatPath c = argOf c := funext (formatPath_eq c)
  rw [← hx, ← hfun]
  constructor
  · intro hf
    obtain ⟨h1, h2⟩ := hI.good hf
    refine ⟨by simpa using h1, ?_⟩
    intro e he hr
    rcases h2 e he with h | h
    · rw [h] at hr; exact absurd hr (by simp)
    · rw [show e.res = .error E2BIG from h] at hr; exact absurd hr (by simp)
  · rintro ⟨h1, h2⟩
    cases hf : x'.failed with
    | false => rfl
    | true =>
      obtain ⟨e, he, hr⟩ := hI.blame (by simpa using h1) hf
      exact absurd hr (h2 e he)

/-- If the system accepts all argument lists with up to `K` bytes beyond the fixed arguments,
however it treats longer ones, nothing else goes wrong, and no single path is larger than 7/16 of
that, then every file is passed to a command exactly once and in order.  (Compare
`C09_lost_pair`.) -/
theorem C09_exactly_once_partial {confirm c : Bool} {am : List Bytes → Nat} {args : List Bytes} {x : Exec} {w w' : World} {fs : List File} {failed : Bool}
    (hp : parse confirm c am args = .ok (true, x)) (hw : w.log = []) (h : runMulti x w fs = .ok (failed, w'))
    {K : Nat} (hK : Accepts K x.tmpl.dropLast w) (hfs : ∀ f ∈ fs, f.fine ∧ 16 * sizeOfArg (argOf c f) ≤ 7 * K) :
    deliv x.tmpl.dropLast.length w'.log = fs.map (argOf c) := by
  obtain ⟨x', _, hI⟩ := run_inv hw hp h
  have hfun : formatPath c = argOf c := funext (formatPath_eq c)
  have := (hI.lim K hK (by rw [hfun]; exact hfs) ((parse_inv w hw hp).2.2 K)).2
  simpa [hfun] using this

/-- `echo {} +` -/
def echoPlus : List Bytes := [[101, 99, 104, 111], [123, 125], [43]]

/-- A system that rejects command lines with more than `n` bytes of arguments. -/
def limited (n : Nat) : World := ⟨[], fun _ args => if total args > n then .error E2BIG else .ran true⟩

/-- The paths passed to commands that ran, and the exit status. -/
def execOutcome (chdir : Bool) (argMax n : Nat) (fs : List File) : Option (Bool × List Bytes) :=
  match parse false chdir (fun _ => argMax) echoPlus with
  | .ok (true, x) => match runMulti x (limited n) fs with
    | .ok (failed, w) => some (failed, deliv 1 w.log)
    | _ => none
  | _ => none

/-- Without the assumption on sizes, paths get lost: two of the same size, either of which alone
the system would accept, are both dropped after it rejects the two together. -/
theorem C09_lost_pair :
    execOutcome false 1000 100 [⟨List.replicate 51 97, 0, false, true, true, true, true, true⟩, ⟨List.replicate 51 98, 0, false, true, true, true, true, true⟩] =
      some (true, []) ∧
    (∀ a : UInt8, execOutcome false 1000 100 [⟨List.replicate 51 a, 0, false, true, true, true, true, true⟩] = some (false, [List.replicate 51 a])) := by
  refine ⟨by decide +kernel, ?_⟩
  intro a
  rfl

/-- And a path that is too large takes others with it. -/
theorem C09_lost_with_large :
    execOutcome false 1000 100 [⟨List.replicate 200 98, 0, false, true, true, true, true, true⟩, ⟨[97], 0, false, true, true, true, true, true⟩] =
      some (true, []) := by
  decide +kernel

/-- A run in which the limit has to be learned. -/
example : execOutcome false 1000 100 ((List.range 12).map fun i => ⟨List.replicate (i + 10) 97, 0, false, true, true, true, true, true⟩) =
    some (false, (List.range 12).map fun i => List.replicate (i + 10) 97) := by decide +kernel

/-- `limited` accepts everything small. -/
example : Accepts 87 [[101, 99, 104, 111]] (limited 100) := by
  intro log args e h
  unfold limited at h
  dsimp only at h
  split at h
  · next ht =>
    simp only [Res.error.injEq] at h
    refine ⟨h.symm, ?_⟩
    have : total ([[101, 99, 104, 111]] ++ args) = 13 + total args := by simp [total, sizeOfArg]
    omega
  · exact absurd h (by simp)

/-! ## C10 -/

/-- At every moment the recorded size is that of the queued arguments, these follow the fixed
ones in the array, and the bounds are ordered; the upper one never rises above the initial
value. -/
theorem C10_bookkeeping {confirm c : Bool} {am : List Bytes → Nat} {args : List Bytes} {x x' : Exec} {w w' : World} {fs : List File}
    (hp : parse confirm c am args = .ok (true, x)) (hw : w.log = []) (h : execAll fs x w = .ok (x', w')) :
    ∃ cur, x'.argv.take x'.argc = (x.tmpl.dropLast ++ cur).map some ∧ x'.argSize = total cur ∧ cur.Sublist (fs.map (argOf c)) ∧
      x'.argc < x'.argv.length ∧ x'.argMin ≤ x'.argMax ∧ x'.argMax ≤ x.argMax := by
  obtain ⟨cf, hI⟩ := (parse_inv w hw hp).1.all fs [] h
  obtain ⟨gap, tail, hr⟩ := hI.rep
  have hfun : formatPath c = argOf c := funext (formatPath_eq c)
  rw [hfun] at hr
  refine ⟨cf.map (argOf c), ?_, hr.size, by simpa using hI.pend.map (argOf c), ?_, hI.min_max, hI.max_le⟩
  · rw [hr.argv, hr.argc]
    have : x.tmpl.dropLast.length + (cf.map (argOf c)).length = ((x.tmpl.dropLast ++ cf.map (argOf c)).map some).length := by simp
    rw [this]
    rw [show x.tmpl.dropLast.map some ++ (cf.map (argOf c)).map some ++ gap :: (List.map some [] ++ tail) =
      (x.tmpl.dropLast ++ cf.map (argOf c)).map some ++ gap :: tail by simp, List.take_left]
  · rw [hr.argv, hr.argc]; simp

/-- In any state that can be reached, running the queued command works: each attempt after the
first has strictly fewer arguments than the one before, all but the last were rejected for their
size, and the upper bound does not increase. -/
theorem C10_retry {confirm c : Bool} {am : List Bytes → Nat} {args : List Bytes} {x x' : Exec} {w w' : World} {fs : List File}
    (hp : parse confirm c am args = .ok (true, x)) (hw : w.log = []) (h : execAll fs x w = .ok (x', w')) :
    ∃ bad x'' new, flush x' w' = .ok (bad, x'', { w' with log := w'.log ++ new }) ∧
      new.Pairwise (fun a b => b.args.length < a.args.length) ∧ (∀ e ∈ new.dropLast, e.res = .error E2BIG) ∧
      x''.argMin ≤ x''.argMax ∧ x''.argMax ≤ x'.argMax ∧ (x.tmpl.length ≤ x'.argc → x''.argc < x'.argc) := by
  obtain ⟨cf, hI⟩ := (parse_inv w hw hp).1.all fs [] h
  obtain ⟨gap, tail, hr⟩ := hI.rep
  obtain ⟨bad, x'', cur', new, h1, h2⟩ := flush_spec _ tail gap _ x' w' hr hI.min_max
  refine ⟨bad, x'', new, h1, h2.dec, h2.early, h2.min_max, h2.max_le, ?_⟩
  intro hne
  obtain ⟨g, t, hr2⟩ := h2.rep
  rw [hr.argc, hr2.argc]
  have : (cf.map (formatPath c)) ≠ [] := by
    intro e
    have := hr.argc
    rw [e] at this
    have := (parse_multi hp)
    obtain ⟨fixed, rest, _, _, rfl⟩ := this
    simp at *; omega
  have := h2.shorter this
  omega

/-- A run never hangs, overflows an array or fails an assertion. -/
theorem C10_terminates {confirm c : Bool} {am : List Bytes → Nat} {args : List Bytes} {x : Exec} {w : World} {fs : List File}
    (hp : parse confirm c am args = .ok (true, x)) (hw : w.log = []) (hfs : c = false ∨ ∀ f ∈ fs, f.openOk = true) :
    ∃ failed w', runMulti x w fs = .ok (failed, w') := by
  obtain ⟨hI, ht, _⟩ := parse_inv w hw hp
  obtain ⟨x', w', h⟩ := hI.all_total fs [] (fun _ => ht) hfs
  obtain ⟨cf, h1⟩ := hI.all fs [] h
  obtain ⟨bad, w2, _, h2, _⟩ := h1.fin
  exact ⟨bad, w2, by unfold runMulti; rw [h]; exact h2⟩

/-- As long as the system never rejects a command for its size, no command with more than one
path exceeds the computed limit. -/
theorem C10_batch_limit {confirm c : Bool} {am : List Bytes → Nat} {args : List Bytes} {x : Exec} {w w' : World} {fs : List File} {failed : Bool}
    (hp : parse confirm c am args = .ok (true, x)) (hw : w.log = []) (h : runMulti x w fs = .ok (failed, w'))
    (hn : ∀ e ∈ w'.log, e.res ≠ .error E2BIG) :
    ∀ e ∈ w'.log, e.args.length ≤ x.tmpl.length ∨ total (e.args.drop x.tmpl.dropLast.length) ≤ am x.tmpl.dropLast := by
  obtain ⟨x', _, hI⟩ := run_inv hw hp h
  intro e he
  have := (hI.calm hn).2 e he
  obtain ⟨fixed, rest, _, _, rfl⟩ := parse_multi hp
  simpa using this

/-- The computed limit leaves room for the environment, the fixed arguments, a page, and 2 KiB
more. -/
theorem C10_arg_max (sysArgMax page : Int) (env fixed : List Bytes) (h : 0 < computeArgMax sysArgMax page env fixed) :
    (computeArgMax sysArgMax page env fixed : Int) + total env + 8 + total fixed + 8 + max page 4096 + 2048 ≤
      (if sysArgMax < 0 then 16777216 else sysArgMax) ∧
    computeArgMax sysArgMax page env fixed ≤ 16777216 := by
  unfold computeArgMax at *
  simp only [foldl_total, ARG_CAP] at *
  have hmax : max page 4096 = if page < 4096 then 4096 else page := by
    split <;> omega
  rw [hmax]
  repeat' split at h
  all_goals repeat' split
  all_goals simp at h ⊢
  all_goals omega

example : computeArgMax 2097152 4096 [[65, 61, 49]] [[101, 99, 104, 111]] = 2090967 := by decide +kernel

/-! ## C11 -/

/-- With `-execdir ... {} +`, each command is run in the directory that contains all the files it
is given.  Missing: paths ending in slashes, for which it is false (below), and failures of
`strndup()`. -/
theorem C11_one_directory_partial {confirm : Bool} {am : List Bytes → Nat} {args : List Bytes} {x : Exec} {w w' : World} {fs : List File} {failed : Bool}
    (hp : parse confirm true am args = .ok (true, x)) (hw : w.log = []) (h : runMulti x w fs = .ok (failed, w'))
    (hfs : ∀ f ∈ fs, f.plain ∧ f.strndupOk = true) :
    ∀ e ∈ w'.log, ∃ gs : List File, gs.Sublist fs ∧ e.args = x.tmpl.dropLast ++ gs.map (argOf true) ∧ ∀ f ∈ gs, dirOf f = e.cwd := by
  obtain ⟨x', _, hI⟩ := run_inv hw hp h
  have hfun : formatPath true = argOf true := funext (formatPath_eq true)
  intro e he
  obtain ⟨gs, ⟨h1, h2⟩, h3, _⟩ := hI.files e he
  exact ⟨gs, h1, by rw [h2, hfun], h3 hfs rfl⟩

/-- With `-exec ... {} +` everything is run where bfs was started. -/
theorem C11_exec_cwd {confirm : Bool} {am : List Bytes → Nat} {args : List Bytes} {x : Exec} {w w' : World} {fs : List File} {failed : Bool}
    (hp : parse confirm false am args = .ok (true, x)) (hw : w.log = []) (h : runMulti x w fs = .ok (failed, w')) :
    ∀ e ∈ w'.log, e.cwd = none := by
  obtain ⟨x', _, hI⟩ := run_inv hw hp h
  intro e he
  obtain ⟨gs, _, _, h4⟩ := hI.files e he
  exact h4 rfl

/-- What was run where. -/
def execDirs (fs : List File) : Option (List (List Bytes × Option Bytes)) :=
  match parse false true (fun _ => 1000) echoPlus with
  | .ok (true, x) => match runMulti x (limited 1000) fs with
    | .ok (_, w) => some (w.log.map fun e => (e.args.drop 1, e.cwd))
    | _ => none
  | _ => none

/-- `a/x a/y b/z c` -/
example : execDirs [⟨[97, 47, 120], 2, true, true, true, true, true, true⟩, ⟨[97, 47, 121], 2, true, true, true, true, true, true⟩,
    ⟨[98, 47, 122], 2, true, true, true, true, true, true⟩, ⟨[99], 0, false, true, true, true, true, true⟩] =
    some [([[46, 47, 120], [46, 47, 121]], some [97, 47]), ([[46, 47, 122]], some [98, 47]), ([[46, 47, 99]], none)] := by decide +kernel
example : File.plain ⟨[97, 47, 120], 2, true, true, true, true, true, true⟩ := ⟨by decide, by decide, by decide⟩

/-- `bfs a/x a/ -maxdepth 0 -execdir echo {} +` runs `echo ./x ./a/` in `a`: the second path is
taken to be in the first one's directory. -/
theorem C11_trailing_slash :
    execDirs [⟨[97, 47, 120], 2, false, true, true, true, true, true⟩, ⟨[97, 47], 0, false, true, true, true, true, true⟩] =
      some [([[46, 47, 120], [46, 47, 97, 47]], some [97, 47])] ∧
    dirOf ⟨[97, 47], 0, false, true, true, true, true, true⟩ = none := by decide +kernel

/-- `bfs a / -maxdepth 0 -execdir echo {} +` runs `echo ./a /` in `/`. -/
theorem C11_root :
    execDirs [⟨[97], 0, false, true, true, true, true, true⟩, ⟨[47], 0, false, true, true, true, true, true⟩] =
      some [([[46, 47, 97], [47]], some [47])] ∧
    dirOf ⟨[97], 0, false, true, true, true, true, true⟩ = none := by decide +kernel

/-- If a directory cannot be opened, the next file in it fails an assertion. -/
theorem C11_open_failure :
    execDirs [⟨[97, 47, 120], 2, false, true, true, true, false, true⟩, ⟨[97, 47, 121], 2, false, true, true, true, false, true⟩] = none ∧
    ∃ x, parse false true (fun _ => 1000) echoPlus = .ok (true, x) ∧
      (match runMulti x (limited 1000) [⟨[97, 47, 120], 2, false, true, true, true, false, true⟩, ⟨[97, 47, 121], 2, false, true, true, true, false, true⟩] with
        | .ub => true
        | _ => false) = true := by
  refine ⟨by decide +kernel, _, rfl, by decide +kernel⟩

/-! ## C12 -/

/-- `bfs_exec_format_arg()` replaces every `{}`, left to right, and nothing else. -/
theorem C12_substitution (arg path : Bytes) : formatArg arg path = substBraces path arg := formatArg_eq arg path

/-- `-exec command ;` and `-execdir command ;` run the command once for each file, in order, with
every `{}` in every argument replaced, where bfs was started or in the file's directory. -/
theorem C12_single {confirm c : Bool} {am : List Bytes → Nat} {args : List Bytes} {x : Exec} {w : World} {fs : List File}
    (hp : parse confirm c am args = .ok (false, x)) (hw : w.log = []) (hfs : ∀ f ∈ fs, f.fine ∧ (f.atFd = true → 0 < f.nameoff)) :
    ∃ cmd rest x' w', args = cmd ++ [59] :: rest ∧ cmd ≠ [] ∧ singleAll fs x w = .ok (x', w') ∧
      w'.log.map (fun e => (e.args, e.cwd)) = fs.map (fun f => (cmd.map (substBraces (argOf c f)), if c then dirOf f else none)) := by
  obtain ⟨cmd, rest, h1, h2, h3⟩ := parse_single hp
  obtain ⟨x', w', h4, _, h5⟩ := singleAll_ok fs w h3 hfs
  exact ⟨cmd, rest, x', w', h1, h2, h4, by rw [h5, hw]; rfl⟩

/-- One command is successful exactly if it ran and exited with status zero. -/
theorem C12_single_status {c : Bool} {tmpl : List Bytes} {x : Exec} (w : World) {f : File} (hx : Ready c tmpl x) (hf : f.fine)
    (hfd : f.atFd = true → 0 < f.nameoff) :
    ∃ x' w' e, single x w f = .ok (e.res = .ran true, x', w') ∧ w'.log = w.log ++ [e] ∧ e.args = tmpl.map (substBraces (argOf c f)) ∧ Ready c tmpl x' := by
  obtain ⟨x', r, h1, _, h3⟩ := single_ok w hx hf hfd
  exact ⟨x', _, ⟨_, _, r⟩, h1, rfl, rfl, h3⟩

/-- With `{} +`, the command line is the command, a final `{}` and a `+`, and no other argument
contains `{}`, so that nothing else has to be replaced. -/
theorem C12_multi_template {confirm c : Bool} {am : List Bytes → Nat} {args : List Bytes} {x : Exec} (hp : parse confirm c am args = .ok (true, x)) :
    ∃ rest, args = x.tmpl.dropLast ++ [123, 125] :: [43] :: rest ∧ ∀ a ∈ x.tmpl.dropLast, ∀ path, substBraces path a = a := by
  obtain ⟨fixed, rest, h1, h2, rfl⟩ := parse_multi hp
  refine ⟨rest, by simpa using h1, ?_⟩
  intro a ha path
  simp at ha
  exact strstr_none path (h2 a ha)

/-- `a{}{b}{}` with `{}x` -/
example : formatArg [97, 123, 125, 123, 98, 125, 123, 125] [123, 125, 120] =
    [97, 123, 125, 120, 123, 98, 125, 123, 125, 120] := by decide
example : ∃ x, parse false true (fun _ => 0) [[101], [97, 123, 125], [59], [43]] = .ok (false, x) := ⟨_, rfl⟩

end Verif.Props
