import Verif.Lemmas.Batch
import Verif.Props.Quota

/-!
# C94: `-exec` and `-execdir` in a search
-/
namespace Verif.Props
open Verif Verif.Bftw Verif.Main Verif.Quota Verif.Batch

variable {T V : Type} {b : Job T V} {e : Env} {tr : List Event} {complete : Bool}

/-! ## Any expression -/

/-- **C94 (calls).** Whatever the expression and the search strategy, and also if the search is not complete:
`bfs_exec()` has been called on the files that the command was evaluated on, each time it was evaluated, in that
order; that is all that has happened to its buffer. -/
theorem C94_calls (hN : e.Named) (hE : ∀ p, e.error p = true → e.isDir p = false) (h : Walked ((b.search e).env e) tr complete)
    {i : Nat} {multi : Bool} {x : Exec.Exec} {w : Exec.World} (hc : b.acts.cmd i = some (multi, x, w)) :
    b.cmds e tr i = if multi then Exec.execAll ((b.matched e tr multi i).map (b.file e i)) x w
      else Exec.singleAll ((b.matched e tr multi i).map (b.file e i)) x w :=
  kept (quota_path (walked_orderly (e := (b.search e).env e) hN hE h)) i multi (x, w) hc

theorem outcome_run (hN : e.Named) (hE : ∀ p, e.error p = true → e.isDir p = false) (h : Walked ((b.search e).env e) tr complete)
    {i : Nat} {x : Exec.Exec} {w : Exec.World} (hc : b.acts.cmd i = some (true, x, w)) :
    b.outcome e tr i true = Exec.runMulti x w ((b.matched e tr true i).map (b.file e i)) := by
  unfold Job.outcome
  rw [C94_calls hN hE h hc, if_pos rfl]
  rfl

theorem map_given (hP : Proper e) (c : Bool) (i : Nat) (ps : List Pos) : (ps.map (b.file e i)).map (Exec.argOf c) = ps.map (given e c) := by
  rw [List.map_map]
  exact List.map_congr_left fun p _ => given_eq hP

/-- **C94 (`+`, the end).** `-exec ... {} +` ends well or badly, but it always ends, without undefined behaviour. -/
theorem C94_plus_total (hN : e.Named) (hE : ∀ p, e.error p = true → e.isDir p = false) (h : Walked ((b.search e).env e) tr complete)
    {i : Nat} {x : Exec.Exec} {w : Exec.World} (hc : b.acts.cmd i = some (true, x, w)) {confirm c : Bool} {am : List Bytes → Nat} {args : List Bytes}
    (hp : Exec.parse confirm c am args = .ok (true, x)) (hw : w.log = []) (ho : c = false ∨ ∀ p, (b.acts.calls i p).openOk = true) :
    ∃ failed w', b.outcome e tr i true = .ok (failed, w') := by
  rw [outcome_run hN hE h hc]
  refine C10_terminates hp hw (ho.imp_right fun hh f hf => ?_)
  obtain ⟨p, _, rfl⟩ := List.mem_map.1 hf
  exact hh p

/-- **C94 (`+`, order).** Every run of the command has the fixed arguments, followed by what stands for some
of the files that it was evaluated on. Taken together, the runs have none of them twice, and have them in the order
of evaluation. -/
theorem C94_plus_order (hN : e.Named) (hE : ∀ p, e.error p = true → e.isDir p = false) (hP : Proper e) (h : Walked ((b.search e).env e) tr complete)
    {i : Nat} {x : Exec.Exec} {w w' : Exec.World} (hc : b.acts.cmd i = some (true, x, w)) {confirm c : Bool} {am : List Bytes → Nat} {args : List Bytes}
    (hp : Exec.parse confirm c am args = .ok (true, x)) (hw : w.log = []) {failed : Bool} (hout : b.outcome e tr i true = .ok (failed, w')) :
    (Exec.deliv x.tmpl.dropLast.length w'.log).Sublist ((b.matched e tr true i).map (given e c)) ∧
    ∀ run ∈ w'.log, ∃ ps : List Pos, ps.Sublist (b.matched e tr true i) ∧ run.args = x.tmpl.dropLast ++ ps.map (given e c) := by
  rw [outcome_run hN hE h hc] at hout
  obtain ⟨h1, h2⟩ := C09_in_order hp hw hout
  rw [map_given hP] at h1
  refine ⟨h1, fun run hr => ?_⟩
  obtain ⟨gs, h3, h4⟩ := h2 run hr
  obtain ⟨ps, h5, rfl⟩ := List.sublist_map_iff.1 h3
  exact ⟨ps, h5, by rw [h4, map_given hP]⟩

/-- **C94 (`+`, status).** It ends well exactly if all the files that it was evaluated on have been given to
the command, each once and in that order, and no run of the command has failed. -/
theorem C94_plus_status (hN : e.Named) (hE : ∀ p, e.error p = true → e.isDir p = false) (hP : Proper e) (h : Walked ((b.search e).env e) tr complete)
    {i : Nat} {x : Exec.Exec} {w w' : Exec.World} (hc : b.acts.cmd i = some (true, x, w)) {confirm c : Bool} {am : List Bytes → Nat} {args : List Bytes}
    (hp : Exec.parse confirm c am args = .ok (true, x)) (hw : w.log = []) {failed : Bool} (hout : b.outcome e tr i true = .ok (failed, w')) :
    failed = false ↔ Exec.deliv x.tmpl.dropLast.length w'.log = (b.matched e tr true i).map (given e c) ∧ ∀ run ∈ w'.log, run.res ≠ .ran false := by
  rw [outcome_run hN hE h hc] at hout
  have := C09_status hp hw hout
  rwa [map_given hP] at this

/-- **C94 (`+`, all), partial.** If the system accepts argument lists of some size `K`, and nothing else goes
wrong, then all of them are given to the command, also if the search was ended early by `-quit`, `-limit` and so on.

Missing: as in `C09_exactly_once_partial`, paths that are longer than 7/16 of `K`. -/
theorem C94_plus_all_partial (hN : e.Named) (hE : ∀ p, e.error p = true → e.isDir p = false) (hP : Proper e) (h : Walked ((b.search e).env e) tr complete)
    {i : Nat} {x : Exec.Exec} {w w' : Exec.World} (hc : b.acts.cmd i = some (true, x, w)) {confirm c : Bool} {am : List Bytes → Nat} {args : List Bytes}
    (hp : Exec.parse confirm c am args = .ok (true, x)) (hw : w.log = []) {failed : Bool} (hout : b.outcome e tr i true = .ok (failed, w'))
    (hf : b.Fine i) {K : Nat} (hK : Exec.Accepts K x.tmpl.dropLast w) (hs : ∀ p ∈ b.matched e tr true i, 16 * Exec.sizeOfArg (given e c p) ≤ 7 * K) :
    Exec.deliv x.tmpl.dropLast.length w'.log = (b.matched e tr true i).map (given e c) := by
  rw [outcome_run hN hE h hc] at hout
  have := C09_exactly_once_partial hp hw hout hK fun f hfm => by
    obtain ⟨p, hp', rfl⟩ := List.mem_map.1 hfm
    rw [given_eq hP]
    exact ⟨hf p, hs p hp'⟩
  rwa [map_given hP] at this

/-- **C94 (`+`, where), partial.** `-execdir ... {} +` runs the command in the directory of the files that it is
given, which are all in the same one.

Missing: as in `C11_one_directory_partial`, roots whose paths end in slashes, for which it is false, and failures of
`strndup()`. -/
theorem C94_execdir_partial (hN : e.Named) (hE : ∀ p, e.error p = true → e.isDir p = false) (hP : Proper e) (h : Walked ((b.search e).env e) tr complete)
    {i : Nat} {x : Exec.Exec} {w w' : Exec.World} (hc : b.acts.cmd i = some (true, x, w)) {confirm : Bool} {am : List Bytes → Nat} {args : List Bytes}
    (hp : Exec.parse confirm true am args = .ok (true, x)) (hw : w.log = []) {failed : Bool} (hout : b.outcome e tr i true = .ok (failed, w'))
    (hr : ∀ p ∈ b.matched e tr true i, p.length ≤ 1 → (e.fullPath p) ≠ [] ∧ (e.fullPath p).getLast? ≠ some 47) (hd : ∀ p, (b.acts.calls i p).strndupOk = true) :
    ∀ run ∈ w'.log, ∃ ps : List Pos, ps.Sublist (b.matched e tr true i) ∧ run.args = x.tmpl.dropLast ++ ps.map (given e true) ∧
      ∀ p ∈ ps, run.cwd = home e p := by
  rw [outcome_run hN hE h hc] at hout
  have hpl : ∀ p ∈ b.matched e tr true i, (b.file e i p).plain := by
    intro p hp
    by_cases hl : 1 < p.length
    · exact (inner_plain hP hl).1
    · have := hr p hp (by omega)
      exact root_plain (by omega) this.1 this.2
  intro run hrun
  obtain ⟨gs, h3, h4, h5⟩ := C11_one_directory_partial hp hw hout (fun f hf => by
    obtain ⟨p, hp', rfl⟩ := List.mem_map.1 hf
    exact ⟨hpl p hp', hd p⟩) run hrun
  obtain ⟨ps, h6, rfl⟩ := List.sublist_map_iff.1 h3
  refine ⟨ps, h6, by rw [h4, map_given hP], fun p hp' => ?_⟩
  rw [← h5 _ (List.mem_map_of_mem hp'), home_eq hP]

/-- **C94 (`+`, where).** `-exec ... {} +` runs it where bfs was started. -/
theorem C94_exec_cwd (hN : e.Named) (hE : ∀ p, e.error p = true → e.isDir p = false) (h : Walked ((b.search e).env e) tr complete)
    {i : Nat} {x : Exec.Exec} {w w' : Exec.World} (hc : b.acts.cmd i = some (true, x, w)) {confirm : Bool} {am : List Bytes → Nat} {args : List Bytes}
    (hp : Exec.parse confirm false am args = .ok (true, x)) (hw : w.log = []) {failed : Bool} (hout : b.outcome e tr i true = .ok (failed, w')) :
    ∀ run ∈ w'.log, run.cwd = none := by
  rw [outcome_run hN hE h hc] at hout
  exact C11_exec_cwd hp hw hout

mutual
theorem fails_iff (b : Job T V) (e : Env) (tr : List Event) : ∀ x : Opt.Expr T,
    b.fails e tr x = .ok false ↔ ∀ l ∈ primaries x, b.leafFails e tr l = .ok false
  | .leaf a l => by
    unfold Job.fails primaries
    simp
  | .node a o cs => by
    unfold Job.fails primaries
    exact failsL_iff b e tr cs
theorem failsL_iff (b : Job T V) (e : Env) (tr : List Event) : ∀ xs : List (Opt.Expr T),
    b.failsL e tr xs = .ok false ↔ ∀ l ∈ primariesL xs, b.leafFails e tr l = .ok false
  | [] => by
    unfold Job.failsL primariesL
    simp
  | x :: xs => by
    unfold Job.failsL primariesL
    have h1 := fails_iff b e tr x
    have h2 := failsL_iff b e tr xs
    constructor
    · intro hh l hl
      obtain ⟨y, hy, hh⟩ := Out.bind_eq_ok.1 hh
      obtain ⟨z, hz, hh⟩ := Out.bind_eq_ok.1 hh
      have hyz : (y || z) = false := by injection hh
      have h3 : y = false ∧ z = false := by simpa using hyz
      rw [h3.1] at hy
      rw [h3.2] at hz
      rcases List.mem_append.1 hl with hl | hl
      · exact h1.1 hy l hl
      · exact h2.1 hz l hl
    · intro hh
      rw [h1.2 fun l hl => hh l (List.mem_append.2 (Or.inl hl)), h2.2 fun l hl => hh l (List.mem_append.2 (Or.inr hl))]
      rfl
end

/-- **C94 (exit status).** Nothing makes bfs fail at the end exactly if all commands with `+` in the expression
have ended well, wherever they are in it. -/
theorem C94_status : b.fails e tr b.expr = .ok false ↔
    ∀ l ∈ primaries b.expr, ∀ i multi, b.acts.command l = some (i, multi) → ∃ w', b.outcome e tr i multi = .ok (false, w') := by
  rw [fails_iff]
  refine ⟨fun h l hl i m hc => ?_, fun h l hl => ?_⟩
  · have := h l hl
    unfold Job.leafFails at this
    rw [hc] at this
    obtain ⟨⟨y, w'⟩, hy, hh⟩ := Out.bind_eq_ok.1 this
    have : y = false := by injection hh
    subst this
    exact ⟨w', hy⟩
  · unfold Job.leafFails
    cases hc : b.acts.command l with
    | none => rfl
    | some y =>
      obtain ⟨i, m⟩ := y
      obtain ⟨w', hw⟩ := h l hl i m hc
      dsimp only
      rw [hw]
      rfl

/-- **C94 (`;`).** `-exec ... ;` and `-execdir ... ;` have run the command once for each file that they were
evaluated on, in that order, with every `{}` replaced, and where bfs was started, or in the directory of the file. -/
theorem C94_each (hN : e.Named) (hE : ∀ p, e.error p = true → e.isDir p = false) (hP : Proper e) (h : Walked ((b.search e).env e) tr complete)
    {i : Nat} {x : Exec.Exec} {w : Exec.World} (hc : b.acts.cmd i = some (false, x, w)) {confirm c : Bool} {am : List Bytes → Nat} {args : List Bytes}
    (hp : Exec.parse confirm c am args = .ok (false, x)) (hw : w.log = []) (hf : b.Fine i) :
    ∃ cmd rest w', args = cmd ++ [59] :: rest ∧ cmd ≠ [] ∧ (∃ failed, b.outcome e tr i false = .ok (failed, w')) ∧
      w'.log.map (fun run => (run.args, run.cwd)) =
        (b.matched e tr false i).map fun p => (cmd.map (Exec.substBraces (given e c p)), if c then home e p else none) := by
  obtain ⟨cmd, rest, x', w', h1, h2, h3, h4⟩ := C12_single hp hw (fs := (b.matched e tr false i).map (b.file e i)) fun f hfm => by
    obtain ⟨p, _, rfl⟩ := List.mem_map.1 hfm
    exact ⟨hf p, file_fd⟩
  refine ⟨cmd, rest, w', h1, h2, ⟨x'.failed, ?_⟩, ?_⟩
  · unfold Job.outcome
    rw [C94_calls hN hE h hc, if_neg (by simp), h3]
    rfl
  · rw [h4, List.map_map]
    refine List.map_congr_left fun p _ => ?_
    show (cmd.map (Exec.substBraces (Exec.argOf c (b.file e i p))), if c then Exec.dirOf (b.file e i p) else none) = _
    rw [given_eq hP, home_eq hP]

/-! ## `TESTS -exec ...` -/

section
variable {a c : Opt.Ann T} {tests : Opt.Expr T} {multi : Bool} {i : Nat} {holds : Pos → Bool} {x : Cmd}

theorem each_evaluate (hx : b.expr = each a c tests multi i) (hc : b.acts.cmd i = some (multi, x)) (ht : (b.acts.prims e).Tests tests holds)
    (p : Pos) (path : Bytes) (w : World (Stuff V)) :
    ((b.search e).evaluate p path w).w.action = .cont ∧
    ((b.search e).evaluate p path w).w.log = if holds p = true then (p, cmdLeaf multi i) :: w.log else w.log := by
  have he : (b.search e).evaluate p path w = Opt.evalAnd [Opt.eval ((b.acts.prims e).leaf p path) tests, (b.acts.prims e).leaf p path (cmdLeaf multi i)] { w with action := .cont } := by
    show Opt.eval ((b.acts.prims e).leaf p path) b.expr _ = _
    rw [hx]
    unfold each
    rw [Opt.eval_node, Opt.evals_cons, Opt.evals_cons, Opt.evals_nil, Opt.eval_leaf]
    rfl
  rw [he, Opt.evalAnd, ht p path]
  by_cases hh : holds p = true
  · rw [hh, if_pos rfl]
    show (Opt.evalAnd [(b.acts.prims e).leaf p path (cmdLeaf multi i)] { w with action := .cont }).w.action = _ ∧ _
    have hw : ((b.acts.prims e).leaf p path (cmdLeaf multi i) { w with action := .cont }).w.action = .cont ∧
        ((b.acts.prims e).leaf p path (cmdLeaf multi i) { w with action := .cont }).w.log = (p, cmdLeaf multi i) :: w.log := by
      rw [leaf_other (limit_cmd hc)]
      unfold Primaries.others Actions.prims
      dsimp only
      rw [command_leaf hc]
      exact ⟨rfl, rfl⟩
    have hl : ∀ w' : World (Stuff V), (Opt.evalAnd [(b.acts.prims e).leaf p path (cmdLeaf multi i)] w').w = ((b.acts.prims e).leaf p path (cmdLeaf multi i) w').w := by
      intro w'
      rw [Opt.evalAnd]
      split <;> rfl
    have hr : (if (!true || false) = true then ({ r := false, q := false, w := { w with action := .cont } } : Opt.Res (World (Stuff V)))
        else Opt.evalAnd [(b.acts.prims e).leaf p path (cmdLeaf multi i)] { w with action := .cont }) =
        Opt.evalAnd [(b.acts.prims e).leaf p path (cmdLeaf multi i)] { w with action := .cont } := rfl
    exact ⟨by rw [hl]; exact hw.1, by
      show (Opt.evalAnd [(b.acts.prims e).leaf p path (cmdLeaf multi i)] { w with action := .cont }).w.log = _
      rw [hl]; exact hw.2⟩
  · have hf : holds p = false := by simpa using hh
    rw [hf]
    exact ⟨rfl, rfl⟩

theorem each_files (hx : b.expr = each a c tests multi i) (hc : b.acts.cmd i = some (multi, x)) (ht : (b.acts.prims e).Tests tests holds) :
    ∀ tr, files (cmdLeaf multi i) ((b.search e).world e tr).log = ((b.search e).evaluated e tr).filter holds
  | [] => rfl
  | ev :: tr => by
    have ih := each_files hx hc ht tr
    have hev : (b.search e).evaluated e (ev :: tr) = if (b.search e).hit e tr ev then ev.pos :: (b.search e).evaluated e tr else (b.search e).evaluated e tr := rfl
    rw [world_cons, hev]
    by_cases hh : (b.search e).hit e tr ev = true
    · rw [if_pos hh, if_pos hh, (each_evaluate hx hc ht _ _ _).2, List.filter_cons]
      by_cases hp : holds ev.pos = true
      · rw [if_pos hp, if_pos hp, files_cons, if_pos rfl, ih]
      · rw [if_neg hp, if_neg hp, ih]
    · rw [if_neg hh, if_neg hh, ih]

theorem each_frozen (hx : b.expr = each a c tests multi i) (hc : b.acts.cmd i = some (multi, x)) (ht : (b.acts.prims e).Tests tests holds) :
    (b.search e).frozen e tr = (b.search e).plain := by
  have said : ∀ tr p, (b.search e).said e tr p = .cont := by
    intro tr
    induction tr with
    | nil => intro _; rfl
    | cons ev tr ih =>
      intro p
      show (if _ then _ else _) = _
      split
      · exact (each_evaluate hx hc ht _ _ _).1
      · exact ih p
  unfold Search.frozen Search.plain
  rw [show (b.search e).said e tr = fun _ => .cont from funext (said tr)]

/-- **C94 (`TESTS -exec`), partial.** At any time, the command has been evaluated on files that match, on none
twice, and on all those that the search has come to, in that order. If the search is complete, these are exactly the
files that should be found and that match.

Missing: as in `C70_memory_exact_partial`. -/
theorem C94_matches_partial (hs : b.cfg.Sane) (hu : b.cfg.unique = false) (hN : e.Named) (hE : ∀ p, e.error p = true → e.isDir p = false)
    (hD : (b.search e).Apart e) (hm : e.post = false ∨ e.pruneMounts = false)
    (hx : b.expr = each a c tests multi i) (hc : b.acts.cmd i = some (multi, x)) (ht : (b.acts.prims e).Tests tests holds)
    (h : Walked ((b.search e).env e) tr complete) :
    (b.matched e tr multi i).Nodup ∧ b.matched e tr multi i = ((b.search e).evaluated e tr).reverse.filter holds ∧
    (∀ p ∈ b.matched e tr multi i, (b.search e).plain.Target e p ∧ holds p = true) ∧
    (complete = true → ∀ p, p ∈ b.matched e tr multi i ↔ (b.search e).plain.Target e p ∧ holds p = true) := by
  have hmat : b.matched e tr multi i = ((b.search e).evaluated e tr).reverse.filter holds := by
    show (files (cmdLeaf multi i) ((b.search e).world e tr).log).reverse = _
    rw [each_files hx hc ht, List.filter_reverse]
  have hfr := each_frozen (tr := tr) hx hc ht
  have hq : (b.search e).cfg = b.cfg := rfl
  refine ⟨?_, hmat, ?_, ?_⟩
  · show (files (cmdLeaf multi i) ((b.search e).world e tr).log).reverse.Nodup
    rw [each_files hx hc ht]
    have hn := ((C70_memory_once (q := b.search e) hs hN hE h).filter holds)
    unfold List.Nodup at hn ⊢
    rw [List.pairwise_reverse]
    exact hn.imp fun hab => hab.symm
  · intro p hp
    rw [hmat] at hp
    obtain ⟨h1, h2⟩ := List.mem_filter.1 hp
    have := (C70_memory_sound_partial (q := b.search e) hs hu hN hE hD h).1 p (by simpa using h1)
    rw [hfr] at this
    exact ⟨this, h2⟩
  · intro hd p
    subst hd
    have hex := C70_memory_exact_partial (q := b.search e) hs hu hN hE hD h p
    rw [hfr] at hex
    have hnb : ¬ (e.post = true ∧ e.barrier p ∧ e.isDir p = true ∧ (depth p : Int) < (b.search e).cfg.maxdepth) := by
      rintro ⟨b1, b2, _⟩
      rcases hm with hm | hm
      · rw [hm] at b1; cases b1
      · have := b2.1; rw [hm] at this; cases this
    rw [and_iff_left hnb] at hex
    rw [hmat, List.mem_filter, List.mem_reverse, hex]

/-- **C94 (`bfs ... TESTS -exec ... {} +`), partial.** If the search is complete, the system accepts argument
lists of some size `K`, and nothing else goes wrong, then the command is given exactly the files that should be
found and that match, each once; and bfs fails at the end exactly if a run of the command has failed.

Missing: as in `C94_plus_all_partial` and `C94_matches_partial`. -/
theorem C94_whole_partial {x : Exec.Exec} {w : Exec.World} (hs : b.cfg.Sane) (hu : b.cfg.unique = false) (hN : e.Named) (hE : ∀ p, e.error p = true → e.isDir p = false)
    (hP : Proper e) (hD : (b.search e).Apart e) (hm : e.post = false ∨ e.pruneMounts = false)
    (hx : b.expr = each a c tests true i) (hc : b.acts.cmd i = some (true, x, w)) (ht : (b.acts.prims e).Tests tests holds)
    (hpr : ∀ l ∈ primaries tests, b.acts.command l = none) (h : Walked ((b.search e).env e) tr true)
    {confirm cd : Bool} {am : List Bytes → Nat} {args : List Bytes} (hp : Exec.parse confirm cd am args = .ok (true, x)) (hw : w.log = [])
    (hf : b.Fine i) {K : Nat} (hK : Exec.Accepts K x.tmpl.dropLast w) (hsz : ∀ p ∈ b.matched e tr true i, 16 * Exec.sizeOfArg (given e cd p) ≤ 7 * K) :
    ∃ (ps : List Pos) (w' : Exec.World) (failed : Bool), b.outcome e tr i true = .ok (failed, w') ∧ Exec.deliv x.tmpl.dropLast.length w'.log = ps.map (given e cd) ∧
      ps.Nodup ∧ (∀ p, p ∈ ps ↔ (b.search e).plain.Target e p ∧ holds p = true) ∧
      (b.fails e tr b.expr = .ok false ↔ ∀ run ∈ w'.log, run.res ≠ .ran false) := by
  obtain ⟨failed, w', hout⟩ := C94_plus_total hN hE h hc hp hw (Or.inr fun p => (hf p).2.2.2.1)
  obtain ⟨h1, _, _, h2⟩ := C94_matches_partial hs hu hN hE hD hm hx hc ht h
  have hall := C94_plus_all_partial hN hE hP h hc hp hw hout hf hK hsz
  refine ⟨b.matched e tr true i, w', failed, hout, hall, h1, h2 rfl, ?_⟩
  rw [C94_status]
  have hst := C94_plus_status hN hE hP h hc hp hw hout
  constructor
  · intro hh
    have hin : cmdLeaf true i ∈ primaries b.expr := by
      rw [hx]
      simp [each, primaries, primariesL]
    obtain ⟨w2, h3⟩ := hh _ hin i true (command_leaf hc)
    rw [hout] at h3
    have hff : failed = false := by injection h3 with h3; injection h3
    exact (hst.1 hff).2
  · intro hh l hl j m hcm
    have hff := hst.2 ⟨hall, hh⟩
    subst hff
    rw [hx] at hl
    have : l = cmdLeaf true i := by
      simp only [each, primaries, primariesL, List.append_nil, List.mem_append, List.mem_singleton] at hl
      rcases hl with hl | hl
      · rw [hpr l hl] at hcm; cases hcm
      · exact hl
    subst this
    rw [command_leaf hc] at hcm
    cases hcm
    exact ⟨w', hout⟩

/-! ## `TESTS -exec ... {} + -limit N` -/

theorem cmd_plain (hc : b.acts.cmd i = some (true, x)) : (b.acts.prims e).Plain (cmdLeaf true i) := by
  refine ⟨limit_cmd hc, fun p path a w => ?_⟩
  unfold Actions.prims
  dsimp only
  rw [show (Opt.Leaf.action (if true = true then Opt.Action.returnsTrue else .plain) i) = cmdLeaf true i from rfl, command_leaf hc]
  refine ⟨(evalExec i true (b.acts.file e i p path) (a, w)).w.2, ?_⟩
  show (⟨answer true (again true (w.1 i) (b.acts.file e i p path)), false, (a, _)⟩ : Opt.Res (Action × Stuff V)) = _
  congr 1
  unfold answer
  split
  · rename_i r hr
    unfold again bfsExec at hr
    obtain ⟨y, _, hr⟩ := Out.bind_eq_ok.1 hr
    rw [if_pos rfl] at hr
    obtain ⟨z, _, hr⟩ := Out.bind_eq_ok.1 hr
    have hr : (true, z) = r := by injection hr
    rw [← hr]
  · rfl

/-- What is known about the other primaries, as in `Primaries.Laws`. -/
theorem batch_laws (ht : ∀ p path l x, (∀ k i, l ≠ .action k i) → (b.acts.other p path l x).q = false)
    (hs : ∀ p path l x, x.1 ≠ .stop → ((b.acts.other p path l x).w.1 = .stop ↔ (b.acts.other p path l x).q = true)) :
    (b.acts.prims e).Laws := by
  refine ⟨fun p path l x h => ?_, fun p path l x h => ?_⟩
  · unfold Actions.prims
    dsimp only
    cases hcm : b.acts.command l with
    | none => exact ht p path l (x.1, x.2.2) h
    | some y => rfl
  · unfold Actions.prims
    dsimp only
    cases hcm : b.acts.command l with
    | none => exact hs p path l (x.1, x.2.2) h
    | some y => exact ⟨fun hh => absurd hh h, fun hh => by cases hh⟩

end

/-- **C94 (`-limit`), partial.** With `TESTS -exec ... {} + -limit N`, if the expression ends the search, exactly
N files are given to the command, the first ones to be found that match.

Missing: as in `C94_plus_all_partial` and `C91_exact_partial`. -/
theorem C94_limit_partial {a a2 c d : Opt.Ann T} {tests : Opt.Expr T} {i j : Nat} {n : Int} {holds : Pos → Bool} {x : Exec.Exec} {w w' : Exec.World}
    (hs : b.cfg.Sane) (hu : b.cfg.unique = false) (hS : (b.acts.prims e).Laws) (hV : (b.acts.prims e).Valid)
    (hN : e.Named) (hE : ∀ p, e.error p = true → e.isDir p = false) (hP : Proper e) (hD : (b.search e).Apart e) (hm : e.post = false ∨ e.pruneMounts = false)
    (hx : b.expr = counted a a2 c d tests (cmdLeaf true i) j) (hn : (b.acts.prims e).num j = some n) (ht : (b.acts.prims e).Tests tests holds)
    (hc : b.acts.cmd i = some (true, x, w)) (h : Walked ((b.search e).env e) tr complete) (hstop : ∃ ev ∈ tr, ev.action = .stop)
    {confirm cd : Bool} {am : List Bytes → Nat} {args : List Bytes} (hp : Exec.parse confirm cd am args = .ok (true, x)) (hw : w.log = [])
    {failed : Bool} (hout : b.outcome e tr i true = .ok (failed, w'))
    (hf : b.Fine i) {K : Nat} (hK : Exec.Accepts K x.tmpl.dropLast w) (hsz : ∀ p ∈ b.matched e tr true i, 16 * Exec.sizeOfArg (given e cd p) ≤ 7 * K) :
    ∃ ps : List Pos, Exec.deliv x.tmpl.dropLast.length w'.log = ps.map (given e cd) ∧ (ps.length : Int) = n ∧ ps.Nodup ∧
      ps = ((b.search e).evaluated e tr).reverse.filter holds ∧ ∀ p ∈ ps, (b.search e).plain.Target e p ∧ holds p = true := by
  have hall := C94_plus_all_partial hN hE hP h hc hp hw hout hf hK hsz
  obtain ⟨_, r2, r3, r4⟩ := C91_results (q := b.search e) hs hu hS hV hN hE hD hx hn ht (cmd_plain hc) h
  have r5 := (C91_exact_partial (q := b.search e) hs hu hS hV hN hE hD hm hx hn ht (cmd_plain hc) h).1 hstop
  refine ⟨b.matched e tr true i, hall, ?_, ?_, ?_, ?_⟩
  · unfold Job.matched
    rw [List.length_reverse]
    exact r5
  · unfold Job.matched List.Nodup
    rw [List.pairwise_reverse]
    unfold List.Nodup at r2
    exact r2.imp fun hab => hab.symm
  · unfold Job.matched
    rw [r3, List.filter_reverse]
  · intro p hp'
    unfold Job.matched at hp'
    exact r4 p (List.mem_reverse.1 hp')

/-! ## Examples -/

/-- `echo {} +`, with a system that accepts 1000 bytes. -/
def batchEcho : Option (Bool × Cmd) :=
  match Exec.parse false false (fun _ => 900) echoPlus with
  | .ok (m, x) => some (m, (x, limited 1000))
  | _ => none

/-- `echo {} ;` -/
def batchOnce : Option (Bool × Cmd) :=
  match Exec.parse false true (fun _ => 900) [[101, 99, 104, 111], [123, 125], [59]] with
  | .ok (m, x) => some (m, (x, limited 1000))
  | _ => none

/-- Primaries: `-exec echo {} +` is number 1, `-execdir echo {} ;` number 2, `-limit 2` number 3, and the test is
true for files at depth 1. -/
def batchActs : Actions (List Pos) where
  num := fun i => if i = 3 then some 2 else none
  cmd := fun i => if i = 1 then batchEcho else if i = 2 then batchOnce else none
  calls := fun _ _ => {}
  other := quotaPrims.other

/-- `bfs a TEST -exec echo {} +` -/
def batchPlus (tests : Opt.Leaf) : Job Nat (List Pos) where
  cfg := { searchCfg with mindepth := 0, exclude := fun _ => false }
  expr := each quotaAnn quotaAnn (.leaf quotaAnn tests) true 1
  acts := batchActs
  start := []

/-- `bfs a TEST -execdir echo {} ;` -/
def batchSemi (tests : Opt.Leaf) : Job Nat (List Pos) := { batchPlus tests with expr := each quotaAnn quotaAnn (.leaf quotaAnn tests) false 2 }

/-- `bfs a TEST -exec echo {} + -limit 2` -/
def batchLimit (tests : Opt.Leaf) : Job Nat (List Pos) :=
  { batchPlus tests with expr := counted quotaAnn quotaAnn quotaAnn quotaAnn (.leaf quotaAnn tests) (cmdLeaf true 1) 3 }

/-- What was run, and whether it failed. -/
def ranWith (o : Out (Bool × Exec.World)) : Option (Bool × List (List Bytes × Option Bytes)) :=
  match o with
  | .ok (failed, w) => some (failed, w.log.map fun r => (r.args, r.cwd))
  | _ => none

/-- The hypotheses can be met: `echo a/x a/y` is run. -/
example : ∃ tr, Walked (((batchPlus (.other 0)).search walkEnv).env walkEnv) tr true ∧
    ranWith ((batchPlus (.other 0)).outcome walkEnv tr 1 true) = some (false, [([[101, 99, 104, 111], [97, 47, 120], [97, 47, 121]], none)]) :=
  ⟨(walk (((batchPlus (.other 0)).search walkEnv).env walkEnv) 100).trace, by
    have := Walked.walk (Or.inl (by decide)) (walk_reach (((batchPlus (.other 0)).search walkEnv).env walkEnv) 100)
    rw [show decide ((walk (((batchPlus (.other 0)).search walkEnv).env walkEnv) 100).pc = .done) = true by decide +kernel] at this
    exact this, by decide +kernel⟩

/-- `echo ./x` and `echo ./y` are run in `a/`. -/
example : ∃ tr complete, Walked (((batchSemi (.other 0)).search walkEnv).env walkEnv) tr complete ∧
    ranWith ((batchSemi (.other 0)).outcome walkEnv tr 2 false) =
      some (false, [([[101, 99, 104, 111], [46, 47, 120]], some [97, 47]), ([[101, 99, 104, 111], [46, 47, 121]], some [97, 47])]) :=
  ⟨_, _, .walk (Or.inl (by decide)) (walk_reach _ 100), by decide +kernel⟩

/-- With `-depth -limit 2`, the search is stopped, and `echo a/x a/y/z` is run. -/
example : ∃ tr complete, Walked (((batchLimit .true_).search walkEnv).env walkEnv) tr complete ∧ (∃ ev ∈ tr, ev.action = .stop) ∧
    ranWith ((batchLimit .true_).outcome walkEnv tr 1 true) = some (false, [([[101, 99, 104, 111], [97, 47, 120], [97, 47, 121, 47, 122]], none)]) :=
  ⟨_, _, .walk (Or.inl (by decide)) (walk_reach (((batchLimit .true_).search walkEnv).env walkEnv) 100), by decide +kernel, by decide +kernel⟩

example : (batchPlus (.other 0)).cfg.Sane ∧ (batchPlus (.other 0)).cfg.unique = false ∧ walkEnv.post = true ∧ walkEnv.pruneMounts = false ∧
    (batchActs.prims walkEnv).Tests (.leaf quotaAnn (.other 0)) (fun p => decide (p.length = 2)) ∧ (batchPlus (.other 0)).Fine 1 ∧
    (∀ l ∈ primaries (.leaf quotaAnn (.other 0) : Opt.Expr Nat), batchActs.command l = none) ∧
    (∃ x, batchActs.cmd 1 = some (true, x, limited 1000) ∧ Exec.parse false false (fun _ => 900) echoPlus = .ok (true, x)) ∧
    (batchActs.prims walkEnv).num 3 = some 2 := by
  refine ⟨⟨by decide, by decide, by decide, by decide⟩, rfl, rfl, rfl, fun p path w => rfl, fun p => ⟨rfl, rfl, rfl, rfl, rfl⟩, ?_, ⟨_, rfl, rfl⟩, rfl⟩
  intro l hl
  have : l = .other 0 := by simpa [primaries] using hl
  subst this
  rfl

theorem batchActs_laws : (batchActs.prims walkEnv).Laws :=
  batch_laws (b := batchPlus .true_) quotaPrims_laws.tests quotaPrims_laws.stops

example : (batchActs.prims walkEnv).Valid := by
  intro i n h
  by_cases hi : i = 3
  · subst hi
    change some 2 = some n at h
    cases h
    decide
  · change (if (batchActs.cmd i).isSome = true then none else if i = 3 then some 2 else none) = some n at h
    rw [if_neg hi] at h
    split at h <;> cases h

example : Proper walkEnv := by
  intro p
  unfold walkEnv
  dsimp only
  split <;> exact ⟨by simp, fun _ => by decide⟩

example : (batchPlus (.other 0)).search walkEnv |>.Apart walkEnv := fun h => by
  rcases h with h | h <;> cases h

end Verif.Props
