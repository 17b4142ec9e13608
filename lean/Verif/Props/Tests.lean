import Verif.Lemmas.TestsDoc
import Verif.Lemmas.TestsKnown
import Verif.Lemmas.TestsDefined
/-!
# C80: tests mean what the manual says

All of them. `Doc s w l args q` in Spec/Tests.lean is the manual: with these arguments the question is `q`. `parseTest` and `evalTest` in Model/Tests.lean are the code.
-/
namespace Verif.Props
open Verif.Tests
open Verif.Glob (Locale Ascii)
open Verif.Cmdline (A)
open Verif.Time (Timespec)
open Verif.Directive (Sb)

/-- The arguments of a test are those in the manual: just as many are taken, whatever comes after them. -/
theorem C80_accepts (s : Setting) (w : World) (l : Locale) (hs : s.Sane) (hl : Ascii l) (hc : Fnmatches l w.libc) (a : List Bytes) (q : Question) (h : Doc s w l a q)
    (rest : List Bytes) : ∃ t, parseTest s (a ++ rest) = .ok (t, a.length) := by
  obtain ⟨t, h1, _⟩ := works (rest := rest) hs hl hc h
  exact ⟨t, h1⟩

/-- Nothing else is accepted. -/
theorem C80_only (s : Setting) (w : World) (l : Locale) (args : List Bytes) (t : Test) (n : Nat) (h : parseTest s args = .ok (t, n)) : ∃ q, Doc s w l (args.take n) q :=
  known args t n h

/-- And nothing is undefined. -/
theorem C80_defined (s : Setting) (hs : s.Sane) (args : List Bytes) : parseTest s args ≠ .ub := by
  show (match fnFor (args.headD []) with | none => (Out.err "not a test" : Out (Test × Nat)) | some fn => callFn s fn args) ≠ .ub
  cases fnFor (args.headD []) with
  | none => simp
  | some fn => exact callFn_ub hs fn args

/-- The value of a test is the answer to the question in the manual; if there is none, it is false and an error is reported. What is missing is what `File.Sane` and `ArgsSane`
exclude; see the counterexamples named there, and those below. -/
theorem C80_means_partial (s : Setting) (w : World) (l : Locale) (hs : s.Sane) (hl : Ascii l) (hc : Fnmatches l w.libc) (args : List Bytes) (ha : ArgsSane s w l args)
    (t : Test) (n : Nat) (hp : parseTest s args = .ok (t, n)) (q : Question) (hq : Doc s w l (args.take n) q) (f : File) (hf : f.Sane w) :
    Answers w f (q f) (evalTest w f t) := by
  obtain ⟨t', h1, h2⟩ := works (rest := args.drop n) hs hl hc hq
  rw [List.take_append_drop] at h1 h2
  rw [hp] at h1
  injection h1 with h1
  injection h1 with h1 _
  subst h1
  exact h2 ha f hf

/-! ## Examples -/

/-- A file that is as large as it says. -/
def sb80 (size : Int) (ino : Nat) : Sb :=
  { mode := 0o100644, dev := 1, ino, nlink := 1, gid := 100, uid := 1000, size, blocks := 8, rdev := 0, has := fun _ => true, time := fun _ => ⟨1700000000, 5⟩ }

def setting80 : Setting where
  now := ⟨1700000100, 0⟩
  user := fun name => .ok (if name = A "me" then some 1000 else none)
  group := fun _ => .ok none
  followRoots := false
  followAll := false
  stat := fun _ _ => .ok (sb80 10 7)
  xmktime := fun _ => .err "EOVERFLOW"
  umask := 0o022
  mtab := true
  regcomp := fun _ _ => none
  fflags := fun _ => none
  casefold := true
  canAcl := true
  canCapable := true
  canContext := false
  canXattr := true

noncomputable def world80 : World := { libc := libc81 posix81 lowerByte81, ignoreRaces := true, user := fun _ => .ok true, group := fun _ => .ok true }

/-- The file `d/a.C`. -/
def file80 (stat : Except Nat Sb) : File where
  buf := Path.childBuf (Path.rootBuf [100]) [97, 46, 67]
  type := .reg
  follows := false
  stat := stat
  attrs := none
  other := .ok .reg
  access := fun m => m ≠ 2
  acl := .ok false
  capable := .ok false
  xattr := .error 95
  xattrNamed := fun _ => .ok false
  context := .error 95
  entry := .error 20
  fstype := .ok [101, 120, 116, 52]
  link := .error 22

theorem setting80_sane : setting80.Sane where
  now := by unfold Recent; decide
  mtime := fun _ _ _ h => by injection h with h; subst h; rfl
  times := fun _ _ _ _ h _ => by injection h with h; subst h; show Recent ⟨1700000000, 5⟩; unfold Recent; decide
  xmktime := fun _ h => by cases h
  regex := fun _ _ _ _ _ h => by cases h

theorem file80_sane (w : World) (hu : ∀ n, ∃ b, w.user n = .ok b) (hg : ∀ n, ∃ b, w.group n = .ok b) (stat : Except Nat Sb)
    (h : ∀ sb, stat = .ok sb → sb = sb80 1025 7) : (file80 stat).Sane w where
  walked := .child _ _ (.root _ (by simp)) (by simp) (by decide)
  slash := fun h => by cases h
  type := ⟨fun h => by (cases h), fun t h => by injection h with h; subst h; exact fun h => by cases h⟩
  ino := fun sb h' => by rw [h sb h']; decide
  nlink := fun sb h' => by rw [h sb h']; decide
  mode := fun sb h' => by rw [h sb h']; decide
  size := fun sb h' => by rw [h sb h']; decide
  times := fun sb x h' _ => by rw [h sb h']; show Recent ⟨1700000000, 5⟩; unfold Recent; decide
  user := fun sb _ => hu _
  group := fun sb _ => hg _

/-- `-size +1k` -/
def args80 : List Bytes := [A "-size", A "+1k"]

theorem args80_sane (w : World) : ArgsSane setting80 w posix81 args80 where
  duration := fun a cmp body n ha h1 h2 => by
    injection ha with ha
    subst ha
    have := (C34_argument_partial (A "+1k") cmp (if n < 2 ^ 63 then (n : Int) else Num.toI64 n) .seconds).2 ⟨body, h1, .inr ⟨rfl, n, h2, fun h => if_pos h, fun h => if_neg (by omega)⟩⟩
    rw [show Num.parseTime (A "+1k") = none by decide +kernel] at this
    cases this
  instant := fun a t ha h => by
    injection ha with ha
    subst ha
    have := instant_ok h
    have e : Date.xgetdate setting80.xmktime (A "+1k") = .err "EINVAL" := by decide +kernel
    rw [e] at this
    cases this
  mode := fun a cmp c cs ha h => by
    injection ha with ha
    subst ha
    exfalso
    have hm : ∃ file dir, Perm.parseMode 0o022 (Perm.text c cs) = .ok (file, dir) := (C35_grammar 0o022 _ (C35_disjoint c cs)).2 ⟨c, cs, rfl⟩
    obtain ⟨file, dir, hm⟩ := hm
    have := (C36_prefix 0o022 (A "+1k") cmp file dir).2 ⟨_, comparison_iff.2 h, hm⟩
    have e : Perm.parsePerm 0o022 (A "+1k") = .err "Invalid mode" := by decide +kernel
    rw [e] at this
    cases this
  pattern := fun name g hn hm => by
    injection hn with hn
    subst hn
    exact absurd hm (by decide +kernel)

theorem doc80 (w : World) : ∃ q, Doc setting80 w posix81 args80 q ∧ q = stats fun sb => ∃ k, Units .kb sb.size k ∧ Compares .gt 1 k :=
  ⟨_, .size ⟨[49, 107], [49], [107], .greater _, rfl, .plain (.one 49 1 rfl (by decide)), .k, by decide, by decide⟩, rfl⟩

/-- A file of 1025 bytes takes more than one kibibyte. -/
example : ∃ t, parseTest setting80 (args80 ++ [A "-print"]) = .ok (t, 2) ∧ evalTest world80 (file80 (.ok (sb80 1025 7))) t = .ok (true, []) :=
  ⟨.size .gt 1 .kb, by rfl, by rfl⟩

/-- All of the hypotheses can be met. -/
example : Answers world80 (file80 (.ok (sb80 1025 7))) (.ok (∃ k, Units .kb 1025 k ∧ Compares .gt 1 k)) (evalTest world80 (file80 (.ok (sb80 1025 7))) (.size .gt 1 .kb)) := by
  obtain ⟨q, h1, rfl⟩ := doc80 world80
  exact C80_means_partial setting80 world80 posix81 setting80_sane posix81_ascii (libc81_fnmatches _ _) args80 (args80_sane _) (.size .gt 1 .kb) 2 (by rfl) _ h1 _
    (file80_sane world80 (fun _ => ⟨_, rfl⟩) (fun _ => ⟨_, rfl⟩) _ fun sb h => by injection h with h; exact h.symm)

/-- If the file is gone (2), no size is known. With `-ignore_readdir_race` no error is reported, without it is. -/
example : evalTest world80 (file80 (.error 2)) (.size .gt 1 .kb) = .ok (false, []) ∧
    evalTest { world80 with ignoreRaces := false } (file80 (.error 2)) (.size .gt 1 .kb) = .ok (false, [2]) := ⟨rfl, rfl⟩

/-! ## What is wrong -/

/-- `-inum -5` finds a file with the inode number 2^63. -/
theorem C80_inum_counterexample : ∃ t, parseTest setting80 [A "-inum", A "-5"] = .ok (t, 2) ∧ evalTest world80 (file80 (.ok (sb80 10 (2 ^ 63)))) t = .ok (true, []) ∧
    ¬ Compares .lt 5 (sb80 10 (2 ^ 63)).ino := ⟨.inum .lt 5, by rfl, by rfl, by show ¬ ((2 ^ 63 : Nat) : Int) < 5; decide⟩

/-- `-newer` with a file that has no modification time uses a variable without a value. -/
theorem C80_newer_counterexample : parseTest { setting80 with stat := fun _ _ => .ok { sb80 10 7 with has := fun _ => false } } [A "-newer", A "x"] = .ub := by rfl

/-- `-nouser` finds a file if the lookup of its owner fails. -/
theorem C80_nouser_counterexample : ∃ t, parseTest setting80 [A "-nouser"] = .ok (t, 1) ∧
    evalTest { world80 with user := fun _ => .error 5 } (file80 (.ok (sb80 10 7))) t = .ok (true, [5]) := ⟨.nouser, by rfl, by rfl⟩

end Verif.Props
