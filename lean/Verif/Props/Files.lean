import Verif.Lemmas.FilesFree
import Verif.Lemmas.FilesSpoke

/-!
# C54: output files are shared, closed once, and failures reach the exit status
-/

namespace Verif.Props

open Verif Verif.Files

/-- The state in which the evaluation starts. -/
theorem eval_start {e : Env} {w : W} (i : Inv e w) (f : Fresh w) :
    EInv e w [] ∧ ∀ eops, Acc w eops := by
  have tracked : ∀ (id : FileId) (cf : CtxFile), (id, some cf) ∈ w.files → Tracked w cf.cfile :=
    fun id cf hm => ⟨id, cf, hm, rfl⟩
  refine ⟨⟨i, fun id cf s hm es => ?_, fun id cf s hm h0 es => (f.given _ s es h0).1,
    fun h s es h0 _ => f.given h s es h0⟩, fun eops id cf s hm es hl => ?_⟩
  · by_cases h0 : cf.cfile = 0
    · rw [h0] at es
      exact (f.good s es).1
    · intro _
      obtain ⟨g1, g2⟩ := f.given _ s es h0
      rw [g1, g2, (f.clean _ s es h0 (tracked id cf hm)).1]
      rfl
  · by_cases h0 : cf.cfile = 0
    · rw [h0] at es
      exact Or.inl ((f.good s es).2 hl)
    · rw [(f.clean _ s es h0 (tracked id cf hm)).2.1] at hl
      cases hl

/-- **C54 (no misuse).** Whatever files the command line names, whatever is printed and whichever
calls fail, bfs never touches a stream that is closed or freed, never closes a stream twice and
never leaves a signal hook behind that refers to a freed stream; when it exits, exactly the files
it opened itself have been closed. -/
theorem C54_safe (e : Env) (pops : List POp) (eops : List EOp) :
    ∃ status w, run e pops eops = .ok (status, w) ∧ w.hooks = [] ∧ w.files = [] ∧
      ∀ (h : Nat) (s : Strm), w.strms[h]? = some s →
        s.live = false ∧ (s.isOpen = true ↔ h < 2) := by
  obtain ⟨w, b, h1, hb, hi⟩ := parseCmdline_ok e pops
  unfold run
  rw [h1, ok_bind]
  cases b with
  | false =>
    dsimp only
    rw [if_neg (by simp)]
    obtain ⟨w', bad, h2, p, q, r, _⟩ := ctxFree_ok hb e.free
    rw [h2, ok_bind]
    exact ⟨_, _, rfl, q, r, p⟩
  | true =>
    obtain ⟨i, f, _⟩ := hi rfl
    dsimp only
    rw [if_pos rfl]
    obtain ⟨w1, h3, v, _⟩ := evalAll_ok eops (eval_start i f).1
    rw [h3, ok_bind]
    obtain ⟨w', bad, h2, p, q, r, _⟩ := ctxFree_ok v.inv.base e.free
    unfold finish
    rw [h2, ok_bind]
    exact ⟨_, _, rfl, q, r, p⟩

/-- **C54 (sharing).** After the command line was parsed, the actions are the ones on the command
line in that order, each prints to an open stream for the file it names, and two of them print to
the same stream if and only if they name the same file: in particular those that name the file
that is stdout (`-fprint /dev/stdout`) print to stdout's own stream, and those that name the file
that is stderr to stderr's. No other stream is open on the same file. -/
theorem C54_shared (e : Env) (pops : List POp) (w : W) (h : parseCmdline e pops = .ok (w, true)) :
    w.acts.map (fun a => (a.path, a.id)) = wanted e pops ∧
    (∀ a ∈ w.acts, ∃ s, w.strms[a.cfile]? = some s ∧ s.id = a.id ∧ s.isOpen = true) ∧
    (∀ a ∈ w.acts, ∀ a' ∈ w.acts, a.cfile = a'.cfile ↔ a.id = a'.id) ∧
    (∀ a ∈ w.acts, a.cfile = 1 ↔ a.id = e.stdout) ∧
    (e.stderr ≠ e.stdout → ∀ a ∈ w.acts, a.cfile = 0 ↔ a.id = e.stderr) ∧
    (∀ a ∈ w.acts, ∀ (k : Nat) (s : Strm), w.strms[k]? = some s → s.isOpen = true → 2 ≤ k →
      s.id = a.id → k = a.cfile) := by
  obtain ⟨w', b, h1, hb, hi⟩ := parseCmdline_ok e pops
  rw [h] at h1
  cases h1
  obtain ⟨i, f, hw, _⟩ := hi rfl
  refine ⟨hw, fun a ha => ?_, fun a ha a' ha' => ?_, fun a ha => ?_, fun hne a ha => ?_,
    fun a ha k s es ho hk hid => ?_⟩
  · obtain ⟨cf, s, g1, g2, g3, g4, _⟩ := act_stream i ha
    obtain ⟨c, t, k1, k2, k3, k4, k5, _⟩ := i.base.tracked _ g1
    cases k1
    exact ⟨t, by rw [← g2]; exact k2, k3, k5⟩
  · obtain ⟨cf, s, g1, g2, _⟩ := act_stream i ha'
    rw [← g2]
    exact ⟨fun x => (act_stream_iff i ha g1).mp x.symm, fun x => ((act_stream_iff i ha g1).mpr x).symm⟩
  · obtain ⟨cf, g1, g2⟩ := i.outT
    rw [← g2]
    exact ⟨fun x => (act_stream_iff i ha g1).mp x.symm, fun x => ((act_stream_iff i ha g1).mpr x).symm⟩
  · rcases i.errT with ⟨cf, g1, g2⟩ | he
    · rw [← g2]
      exact ⟨fun x => (act_stream_iff i ha g1).mp x.symm,
        fun x => ((act_stream_iff i ha g1).mpr x).symm⟩
    · exact absurd he hne
  · by_cases ht : Tracked w k
    · obtain ⟨fid, cf, hm, hc⟩ := ht
      obtain ⟨c, t, k1, k2, k3, _⟩ := i.base.tracked _ hm
      cases k1
      rw [hc, es] at k2
      cases k2
      rw [← hc]
      exact (act_stream_iff i ha hm).mpr (hid.symm.trans k3)
    · rw [((i.base.other k s es hk (by simp)).2 ht).2] at ho
      cases ho

/-- **C54 (counting).** bfs knows how many files it opened, which it takes into account when it
decides how many directories it can keep open. -/
theorem C54_count (e : Env) (pops : List POp) (w : W) (h : parseCmdline e pops = .ok (w, true)) :
    w.nfiles = (w.strms.drop 2).countP (·.isOpen) := by
  obtain ⟨w', b, h1, hb, hi⟩ := parseCmdline_ok e pops
  rw [h] at h1
  cases h1
  rw [(hi rfl).1.count, List.count, List.countP_map]
  congr 1
  funext s
  simp

/-- **C54 (exit status), partial.** If bfs exits successfully, nothing was lost: every file that an
action prints to, and stdout, contains exactly what was printed to it, in order, no matter how many
actions shared it. Diagnostics are interleaved with it if the file is also stderr; even then
nothing was lost. No other stream wrote anything to that file.

Missing: `Unforgiven`. With `-noerror`, or if `-exit 0` is evaluated after the error, a failure to
print can be forgotten: `C54_noerror_counterexample`, `C54_exit_counterexample`. -/
theorem C54_status_partial (e : Env) (pops : List POp) (eops : List EOp) (w : W)
    (h : run e pops eops = .ok (EXIT_SUCCESS, w)) (hu : Unforgiven e eops) :
    w.acts.map (fun a => (a.path, a.id)) = wanted e pops ∧
    (∃ s, w.strms[1]? = some s ∧ s.id = e.stdout ∧ s.lost = false ∧
      s.sink = printed w.acts e.stdout e.stdout eops) ∧
    ∀ a ∈ w.acts, ∃ s, w.strms[a.cfile]? = some s ∧ s.id = a.id ∧ s.lost = false ∧
      s.sink = s.given ∧
      ((a.id = e.stderr → a.id = e.stdout) → s.sink = printed w.acts e.stdout a.id eops) ∧
      ∀ (k : Nat) (t : Strm), w.strms[k]? = some t → t.id = a.id → k ≠ a.cfile → k ≠ 0 →
        t.sink = [] := by
  obtain ⟨w0, b, h1, hb, hi⟩ := parseCmdline_ok e pops
  unfold run at h
  rw [h1, ok_bind] at h
  cases b with
  | false =>
    dsimp only at h
    rw [if_neg (by simp)] at h
    obtain ⟨w', bad, h2, _⟩ := ctxFree_ok hb e.free
    rw [h2, ok_bind] at h
    cases h
  | true =>
    obtain ⟨i, f, hw, _⟩ := hi rfl
    dsimp only at h
    rw [if_pos rfl] at h
    obtain ⟨v0, a0⟩ := eval_start i f
    obtain ⟨w1, h3, v, hacts, hacc, _⟩ := evalAll_ok eops v0
    have acc := hacc (a0 _) hu
    rw [List.nil_append] at v
    rw [h3, ok_bind] at h
    obtain ⟨w', bad, h2, _, _, _, q4, q5, q6, q7, _⟩ := ctxFree_ok v.inv.base e.free
    unfold finish at h
    rw [h2, ok_bind] at h
    have h' := Out.ok.inj h
    have hw' : w' = w := congrArg Prod.snd h'
    have hst : (if bad = true ∧ w1.ret = EXIT_SUCCESS then EXIT_FAILURE else w1.ret) =
      EXIT_SUCCESS := congrArg Prod.fst h'
    have hret : w1.ret = EXIT_SUCCESS ∧ bad = false := by
      by_cases hc : bad = true ∧ w1.ret = EXIT_SUCCESS
      · rw [if_pos hc] at hst
        cases hst
      · rw [if_neg hc] at hst
        refine ⟨hst, ?_⟩
        cases bad
        · rfl
        · exact absurd ⟨rfl, hst⟩ hc
    subst hw'
    rw [q4]
    -- one tracked stream
    have one : ∀ (id : FileId) (cf : CtxFile), (id, some cf) ∈ w1.files → ¬ Silent w1 cf →
        ∃ s, w'.strms[cf.cfile]? = some s ∧ s.id = id ∧ s.lost = false ∧ s.sink = s.given ∧
          (cf.cfile ≠ 0 → s.sink = printed w1.acts e.stdout id eops) := by
      intro id cf hm hs
      obtain ⟨c, s, k1, k2, k3, _⟩ := v.inv.base.tracked _ hm
      cases k1
      obtain ⟨c1, c2, s', e', c3⟩ := q7 hret.2 id cf s hm hs k2
      have hl : s.lost = false := by
        cases hl : s.lost
        · rfl
        · rcases acc id cf s hm k2 hl with x | x | ⟨x, _⟩
          · rw [c2] at x; cases x
          · exact absurd c1 x
          · exact absurd hret.1 x
      have hsink : s'.sink = s'.given := by
        rw [c3.sink, c3.given]
        exact v.good id cf s hm k2 hl
      refine ⟨s', e', c3.id.trans k3, c3.lost.trans hl, hsink, fun h0 => ?_⟩
      rw [hsink, c3.given]
      exact v.given id cf s hm h0 k2
    refine ⟨by rw [hacts]; exact hw, ?_, fun a ha => ?_⟩
    · obtain ⟨cf, g1, g2⟩ := v.inv.outT
      obtain ⟨s, p1, p2, p3, _, p5⟩ := one _ cf g1 (fun x => by
        have := x.1
        rw [v.inv.cerr, g2] at this
        cases this)
      rw [g2] at p1 p5
      exact ⟨s, p1, p2, p3, p5 (by omega)⟩
    · obtain ⟨cf, g1, g2, g3⟩ := v.inv.acts a ha
      obtain ⟨s, p1, p2, p3, p4, p5⟩ := one _ cf g1 (fun x => by
        have hx := x.1
        rw [v.inv.cerr, g2] at hx
        have := g3 (Option.some.inj hx).symm
        rw [x.2] at this
        cases this)
      rw [g2] at p1 p5
      refine ⟨s, p1, p2, p3, p4, fun hne => p5 (fun h0 => ?_), fun k t et hid hk h0 => ?_⟩
      · -- stderr's stream
        obtain ⟨t, et, hid⟩ := v.inv.errId
        obtain ⟨c, u, k1, k2, k3, _⟩ := v.inv.base.tracked _ g1
        cases k1
        rw [g2, h0, et] at k2
        cases k2
        have hs := hne (k3.symm.trans hid)
        obtain ⟨co, o1, o2⟩ := v.inv.outT
        have := (act_stream_iff v.inv ha o1).mpr hs
        rw [o2, h0] at this
        cases this
      · have hlt : k < w1.strms.length := by rw [← q5]; exact get_lt et
        have ek := List.getElem?_eq_getElem hlt
        by_cases ht : Tracked w1 k
        · obtain ⟨fid, cf', hm, hc⟩ := ht
          have hsil : ¬ Silent w1 cf' := fun x => by
            have := x.1
            rw [v.inv.cerr, hc] at this
            exact h0 (Option.some.inj this).symm
          obtain ⟨s', u1, u2, _⟩ := one _ cf' hm hsil
          rw [hc, et] at u1
          cases u1
          have := (act_stream_iff v.inv ha hm).mpr (hid.symm.trans u2)
          exact absurd (hc.symm.trans this) hk
        · obtain ⟨x', e', _, _, y⟩ := q6 k _ ek h0 ht
          rw [et] at e'
          cases e'
          rw [y]
          exact (v.idle k _ ek h0 ht).2

/-- **C54 (before commands).** Before bfs runs a command, everything that was printed so far is
in the files, unless an error is going to be reported: the command sees it. -/
theorem C54_flush (e : Env) (pops : List POp) (eops : List EOp) (o : Nat → FlushIo) (w w' : W)
    (h : parseCmdline e pops = .ok (w, true)) (h' : evalAll w (eops ++ [.flush o]) = .ok w') :
    ∀ a ∈ w'.acts, (a.id = e.stderr → a.id = e.stdout) → ∃ s, w'.strms[a.cfile]? = some s ∧
      (s.lost = false → s.pend = [] ∧ s.sink = printed w.acts e.stdout a.id eops) := by
  obtain ⟨w0, b, h1, hb, hi⟩ := parseCmdline_ok e pops
  rw [h] at h1
  cases h1
  obtain ⟨i, f, hw, _⟩ := hi rfl
  obtain ⟨w1, h2, v, ha, _⟩ := evalAll_ok eops (eval_start i f).1
  rw [List.nil_append] at v
  have split : ∀ (l : List EOp) (x : W), evalAll x (l ++ [.flush o]) =
      evalAll x l >>= fun y => ctxFlush y o := by
    intro l
    induction l with
    | nil =>
      intro x
      show (ctxFlush x o >>= fun y => Out.ok y) = ctxFlush x o
      cases ctxFlush x o <;> rfl
    | cons op l ih =>
      intro x
      show (evalStep x op >>= fun y => evalAll y (l ++ [.flush o])) =
        (evalStep x op >>= fun y => evalAll y l) >>= _
      cases evalStep x op with
      | ok y => exact ih y
      | err _ => rfl
      | ub => rfl
  rw [split, h2, ok_bind] at h'
  obtain ⟨w2, h3, t, _, hd, _⟩ := ctxFlush_ok v.inv.base o
  rw [h'] at h3
  cases h3
  have v' := v.trans' (op := .flush o) t (fun id cf hm _ => by simp [printedBy])
  intro a hact hne
  have hact1 : a ∈ w1.acts := by rw [← t.acts]; exact hact
  obtain ⟨cf, s, g1, g2, g3, _⟩ := act_stream v.inv hact1
  obtain ⟨c, u, k1, k2, k3, _⟩ := v.inv.base.tracked _ g1
  cases k1
  obtain ⟨s', e', _⟩ := t.shape _ u k2
  have hcf0 : cf.cfile ≠ 0 := fun h0 => by
    obtain ⟨x, ex, hid⟩ := v.inv.errId
    rw [h0, ex] at k2
    cases k2
    have hs := hne (k3.symm.trans hid)
    obtain ⟨co, o1, o2⟩ := v.inv.outT
    have := (act_stream_iff v.inv hact1 o1).mpr hs
    rw [o2, ← g2, h0] at this
    cases this
  refine ⟨s', by rw [← g2]; exact e', fun hl => ?_⟩
  obtain ⟨d1, d2⟩ := hd _ cf u s' g1 hcf0 k2 e' hl
  refine ⟨d2, ?_⟩
  obtain ⟨cf', hm', hcf, _⟩ := core_mem t.files.symm g1
  have gd := v'.good _ cf' s' hm' (by rw [hcf]; exact e') hl
  have gv := v'.given _ cf' s' hm' (by rw [hcf]; exact hcf0) (by rw [hcf]; exact e')
  rw [d2, List.append_nil] at gd
  rw [gd, gv, t.acts, ha]
  simp [printed, printedBy]

/-- **C54 (no false alarm).** If the command line is valid and nothing fails, bfs succeeds. -/
theorem C54_no_false_alarm (e : Env) (pops : List POp) (eops : List EOp) (w : W)
    (h : parseCmdline e pops = .ok (w, true)) (hp : ∀ op ∈ pops, op.Fine)
    (he : ∀ op ∈ eops, op.Fine) (hf : ∀ k, (e.free k).Fine) :
    ∃ w', run e pops eops = .ok (EXIT_SUCCESS, w') := by
  obtain ⟨w0, b, h1, hb, hi⟩ := parseCmdline_ok e pops
  rw [h] at h1
  cases h1
  obtain ⟨i, f, hw, hcalm⟩ := hi rfl
  have cl : Clean w := by
    refine ⟨f.ret, f.error, fun k s es ht => ?_⟩
    by_cases h0 : k = 0
    · rw [h0] at es
      exact hcalm hp s es
    · exact ⟨(f.clean k s es h0 ht).2.2, (f.clean k s es h0 ht).2.1⟩
  obtain ⟨w1, h2, v, _, _, hc⟩ := evalAll_ok eops (eval_start i f).1
  have c1 := hc cl he
  obtain ⟨w2, bad, h3, _, _, _, _, _, _, _, hbad⟩ := ctxFree_ok v.inv.base e.free
  unfold run finish
  rw [h, ok_bind]
  dsimp only
  rw [if_pos rfl, h2, ok_bind, h3, ok_bind, hbad hf c1, c1.ret]
  exact ⟨w2, rfl⟩

/-! ## Examples -/

/-- Nothing fails when the files are closed. -/
def quietFree : Nat → FlushIo := fun _ => ⟨.done 0, .done 0, []⟩

/-- stdout and stderr are two files. -/
def filesEnv (noerror : Bool) : Env :=
  { stdout := (7, 1), stderr := (7, 2), outTty := true, noerror := noerror, free := quietFree }

/-- Open a file without trouble. -/
def openOf (id : FileId) : OpenIo := ⟨some id, false, true, {}, .done 0, []⟩

/-- `bfs -print -fprint a -fprint ./a -fprint /dev/stdout`. -/
def filesCmd : List POp :=
  [.print, .fopen "a" (openOf (7, 9)), .note [([33], .done 0)], .fopen "./a" (openOf (7, 9)),
    .fopen "/dev/stdout" (openOf (7, 1))]

/-- Each action prints one line; a command is run between them. -/
def filesOps : List EOp :=
  [.print 0 [([65], some (.done 0)), ([10], some (.done 1))] [],
    .print 1 [([66], some (.done 0)), ([10], some (.done 0))] [],
    .flush quietFree,
    .print 2 [([67], some (.done 0)), ([10], some (.done 3))] [],
    .print 3 [([68], some (.done 0)), ([10], some (.done 0))] []]

/-- What a run leaves behind: the exit status, and each stream's file and contents. -/
def filesOutcome (r : Out (Nat × W)) : Option (Nat × List (FileId × Bytes × Bool)) :=
  match r with
  | .ok (n, w) => some (n, w.strms.map fun s => (s.id, s.sink, s.isOpen))
  | _ => none

/-- Four actions, two streams: the files contain all lines, in order. -/
example : filesOutcome (run (filesEnv false) filesCmd filesOps) =
    some (0, [((7, 2), [33], true), ((7, 1), [65, 10, 68, 10], true), ((7, 9), [66, 10, 67, 10], false),
      ((7, 9), [], false), ((7, 1), [], false)]) := by decide +kernel

/-- The hypotheses of the theorems hold for it. -/
example : (∃ w, parseCmdline (filesEnv false) filesCmd = .ok (w, true)) ∧
    (∀ op ∈ filesCmd, op.Fine) ∧ (∀ op ∈ filesOps, op.Fine) ∧
    (∀ k, ((filesEnv false).free k).Fine) ∧
    (∃ w, run (filesEnv false) filesCmd filesOps = .ok (EXIT_SUCCESS, w)) := by
  refine ⟨⟨_, rfl⟩, ?_, ?_, fun k => ⟨trivial, trivial⟩, ⟨_, rfl⟩⟩
  · intro op ho
    simp only [filesCmd, List.mem_cons, List.not_mem_nil, or_false] at ho
    rcases ho with rfl | rfl | rfl | rfl | rfl <;>
      simp [POp.Fine, Msg.Fine, Io.Fine, openOf]
  · intro op ho
    simp only [filesOps, List.mem_cons, List.not_mem_nil, or_false] at ho
    rcases ho with rfl | rfl | rfl | rfl | rfl <;>
      simp [EOp.Fine, FlushIo.Fine, Io.Fine, quietFree]

/-- Nothing fails, so nothing has to be forgiven. -/
example : Unforgiven (filesEnv true) filesOps := by
  intro l n cs m r hr ⟨c, hc, hf⟩
  have hm : EOp.print n cs m ∈ filesOps := by rw [hr]; simp
  simp only [filesOps, List.mem_cons, List.not_mem_nil, or_false] at hm
  rcases hm with hm | hm | hm | hm | hm <;> cases hm <;>
    (simp only [List.mem_cons, List.not_mem_nil, or_false] at hc
     rcases hc with rfl | rfl <;> rcases hf with hf | ⟨_, _, _, hf⟩ <;> cases hf)

/-- The disk is full when the second line is printed to the file. -/
def fullOps : List EOp :=
  [.print 1 [([66], some (.done 0)), ([10], some (.done 0))] [],
    .print 2 [([67], some (.done 0)), ([10], some (.fail 2 [] 28))] []]

/-- The error is reported, … -/
example : filesOutcome (run (filesEnv false) filesCmd fullOps) =
    some (1, [((7, 2), [33], true), ((7, 1), [], true), ((7, 9), [66, 10], false),
      ((7, 9), [], false), ((7, 1), [], false)]) := by decide +kernel

/-- … and `Unforgiven` holds. -/
example : Unforgiven (filesEnv false) fullOps := by
  intro l n cs m r hr _
  refine ⟨rfl, fun hx => ?_⟩
  have hm : EOp.exit 0 ∈ fullOps := by rw [hr]; simp [hx]
  simp [fullOps] at hm

/-- The same, when the file is flushed or closed rather than written. -/
example : filesOutcome (run { filesEnv false with
      free := fun k => ⟨.done 0, if k = 2 then .fail 0 [] 28 else .done 0, []⟩ } filesCmd []) =
    some (1, [((7, 2), [33], true), ((7, 1), [], true), ((7, 9), [], false),
      ((7, 9), [], false), ((7, 1), [], false)]) := by decide +kernel

/-- **C54 (not silent).** bfs does not fail silently: if it fails, and not because of `-exit`, there was a message about an error on stderr. Here, `b` is any byte that is in all messages about
errors; it may be one that is in nothing else that is written. -/
theorem C54_not_silent (e : Env) (pops : List POp) (eops : List EOp) (n : Nat) (w : W) (h : run e pops eops = .ok (n, w)) (hn : n ≠ EXIT_SUCCESS)
    (b : UInt8) (he : e.Audible b) (hp : ∀ op ∈ pops, op.Audible b) (hev : ∀ op ∈ eops, op.Audible b) :
    ∃ stderr, w.strms[0]? = some stderr ∧ b ∈ stderr.given := by
  unfold run at h
  obtain ⟨r, h1, h⟩ := Out.bind_eq_ok.1 h
  obtain ⟨t1, s1⟩ := parseCmdline_told he hp h1
  split at h
  · obtain ⟨w1, h2, h⟩ := Out.bind_eq_ok.1 h
    have t2 := t1.evalAll hev h2
    unfold finish at h
    obtain ⟨r3, h3, h⟩ := Out.bind_eq_ok.1 h
    obtain ⟨g3, s3⟩ := ctxFree_grows he.free h3 t2.known t2.cerr
    injection h with h
    injection h with h4 h5
    subst h5
    by_cases hb : r3.2 = true
    · exact s3 hb
    · rw [if_neg (fun x => hb x.1)] at h4
      exact g3.spoke (t2.told (h4 ▸ hn))
  · next hf =>
    obtain ⟨r3, h3, h⟩ := Out.bind_eq_ok.1 h
    injection h with h
    injection h with h4 h5
    subst h5
    exact (ctxFree_grows he.free h3 t1.known t1.cerr).1.spoke (s1 (by simpa using hf))

/-- `E` is in all messages about errors, and nowhere else. -/
def loudEnv : Env := { filesEnv false with
  msg := [([69], .done 0)]
  free := fun k => ⟨.done 0, if k = 2 then .fail 0 [] 28 else .done 0, [([69], .done 0)]⟩ }

/-- The hypotheses hold when `a` cannot be closed. -/
example : (∃ w, run loudEnv [.print, .fopen "a" { openOf (7, 9) with msg := [([69], .done 0)] }] [.show_ [70] (.done 0), .exit 0] = .ok (1, w)) ∧ loudEnv.Audible 69 ∧
    (POp.fopen "a" { openOf (7, 9) with msg := [([69], .done 0)] }).Audible 69 ∧ (EOp.show_ [70] (.done 0)).Audible 69 ∧ (EOp.exit 0).Audible 69 :=
  ⟨⟨_, rfl⟩, ⟨rfl, List.mem_cons_self, fun _ => List.mem_cons_self⟩, List.mem_cons_self, trivial, rfl⟩

/-- **C54, finding.** With `-noerror`, a failure to print is forgotten: half of the output is
missing, and bfs exits successfully. -/
theorem C54_noerror_counterexample :
    filesOutcome (run (filesEnv true) filesCmd fullOps) =
      some (0, [((7, 2), [33], true), ((7, 1), [], true), ((7, 9), [66, 10], false),
        ((7, 9), [], false), ((7, 1), [], false)]) ∧
    (fullOps.flatMap (printedBy [⟨1, none, (7, 1)⟩, ⟨2, some "a", (7, 9)⟩, ⟨2, some "./a", (7, 9)⟩] (7, 1) (7, 9))) =
      [66, 10, 67, 10] := by
  constructor <;> decide +kernel

/-- **C54, finding.** The same if `-exit 0` is evaluated later. -/
theorem C54_exit_counterexample :
    filesOutcome (run (filesEnv false) filesCmd (fullOps ++ [.exit 0])) =
      some (0, [((7, 2), [33], true), ((7, 1), [], true), ((7, 9), [66, 10], false),
        ((7, 9), [], false), ((7, 1), [], false)]) := by
  decide +kernel

end Verif.Props
