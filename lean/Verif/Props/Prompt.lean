import Verif.Lemmas.Prompt
import Verif.Props.Spawn
/-!
# Properties of `-ok`, `-okdir` and the `$PATH` of `-execdir` (C83, C84)
-/
namespace Verif.Props
open Verif.Exec (Bytes Exec World File parse argOf dirOf substBraces Ready parse_single)
open Verif.Prompt

/-! ## C83 -/

/-- C83 (every question gets its answer). For a command line that is accepted, for any files and any answers: the question for each file is its whole command, in order, with nothing else shown;
the i-th line that was typed is the answer to the i-th question; the commands that are run are those of the files whose answers are affirmative, in order, each in its directory; and each other
file's action is false. All lines beyond are left unread. -/
theorem C83_ok {c : Bool} {am : List Bytes → Nat} {args : List Bytes} {x : Exec} (l : Locale) {w : World} {t : Console} {fs : List File}
    (hp : parse true c am args = .ok (false, x)) (hw : w.log = []) (ht : ∀ n, t.broken n = false) (hfs : ∀ f ∈ fs, f.fine ∧ (f.atFd = true → 0 < f.nameoff)) :
    ∃ cmd rest results x' w' t', args = cmd ++ [59] :: rest ∧ singleAllOk l fs x w t = .ok (results, x', w', t') ∧
      w'.log.map (fun e => (e.args, e.cwd)) =
        (fs.zipIdx.filter fun fi => affirmative l (lines t.input.data)[fi.2]?).map (fun fi => (cmd.map (substBraces (argOf c fi.1)), if c then dirOf fi.1 else none)) ∧
      t'.shown = t.shown ++ fs.flatMap (fun f => question (cmd.map (substBraces (argOf c f)))) ∧
      t'.input.data = ((lines t.input.data).drop fs.length).flatten ∧
      results.length = fs.length ∧
      (results.zipIdx.filter fun ri => affirmative l (lines t.input.data)[ri.2]?).map (fun ri => ri.1) = w'.log.map (fun e => decide (e.res = .ran true)) ∧
      ∀ i : Nat, affirmative l (lines t.input.data)[i]? = false → results[i]? ≠ some true := by
  obtain ⟨cmd, rest, h1, _, h3⟩ := parse_single hp
  obtain ⟨results, x', w', t', h4, _, h0, h5, h6, h7, h8, h9, _⟩ := singleAllOk_ok l fs w t h3 ht hfs
  refine ⟨cmd, rest, results, x', w', t', h1, h4, ?_, h6, by rw [h7], h0, ?_, h9⟩
  · rw [h5, hw]; rfl
  · rw [← h8, hw]; rfl

/-- C83 (no command without consent). Whatever goes wrong – standard error can't be written to, standard input is closed, memory runs out, a directory can't be opened – a command is only run
after it was shown in full and an affirmative line was read in reply. -/
theorem C83_consent {l : Locale} {x x' : Exec} {w w' : World} {t t' : Console} {f : File} {r : Bool} (h : singleOk l x w t f = .ok (r, x', w', t')) (hne : w'.log ≠ w.log) :
    ∃ e, w'.log = w.log ++ [e] ∧ t'.shown = t.shown ++ question e.args ∧ affirmative l (lines t.input.data).head? = true ∧
      t'.input.data = (lines t.input.data).tail.flatten ∧ (r = true ↔ e.res = .ran true) :=
  singleOk_consent h hne

/-- C83 (and if it isn't run, the action is false). -/
theorem C83_refused {l : Locale} {x x' : Exec} {w w' : World} {t t' : Console} {f : File} {r : Bool} (h : singleOk l x w t f = .ok (r, x', w', t')) (hne : w'.log = w.log) : r = false :=
  singleOk_refused h hne

/-- C83 (one at a time). There is no `-ok ... {} +`: each command must be asked for by itself. -/
theorem C83_single {c : Bool} {am : List Bytes → Nat} {args : List Bytes} {x : Exec} {multi : Bool} (h : parse true c am args = .ok (multi, x)) : multi = false := by
  unfold parse at h
  have : ∀ (args tmpl acc : List Bytes), Exec.parseLoop true acc args ≠ .multi tmpl := by
    intro args
    induction args with
    | nil => intro tmpl acc h; cases h
    | cons a as ih =>
      intro tmpl acc h
      unfold Exec.parseLoop at h
      split at h
      · cases h
      · split at h
        · next h2 => simp at h2
        · exact ih _ _ h
  split at h
  · cases h
  · split at h
    · cases h
    · cases h; rfl
  · next tmpl ht => exact absurd ht (this _ _ _)

/-- C83 (what is shown says what will be run), as far as no word of a command contains a space. -/
theorem C83_question_partial {a b : List Bytes} (ha : ∀ w ∈ a, (32 : UInt8) ∉ w) (hb : ∀ w ∈ b, (32 : UInt8) ∉ w) (h : question a = question b) : a = b :=
  question_inj a b ha hb (by unfold question at h; exact List.append_cancel_right h)

/-- C83: in general the words can't be told apart. The question for `rm` with the one file `a /b` is `rm a /b ? `, as for the two files `a` and `/b`. -/
theorem C83_question_counterexample : ∃ a b : List Bytes, a ≠ b ∧ question a = question b :=
  ⟨[[114, 109], [97, 32, 47, 98]], [[114, 109], [97], [47, 98]], by decide, by decide⟩

/-- The usual locale: `^[nN]` and `^[yY]`. -/
def english83 : Locale where
  no r := some (r.head? == some 110 || r.head? == some 78)
  yes r := some (r.head? == some 121 || r.head? == some 89)

/-- Three questions about `rm {}`, to which the replies are `y`, `n` and `yes` (and then there is more). -/
def world83 : World := { log := [], answer := fun _ _ => .ran true }
def console83 : Console := ⟨⟨[121, 10, 110, 10, 121, 101, 115, 10, 109], none⟩, [], 0, fun _ => false⟩
def files83 : List File := [{ path := [97], nameoff := 0, atFd := false }, { path := [98], nameoff := 0, atFd := false }, { path := [99], nameoff := 0, atFd := false }]
example : ∃ x x' w' t', parse true false (fun _ => 0) [[114, 109], [123, 125], [59]] = .ok (false, x) ∧ world83.log = [] ∧ (∀ n, console83.broken n = false) ∧
    (∀ f ∈ files83, f.fine ∧ (f.atFd = true → 0 < f.nameoff)) ∧ singleAllOk english83 files83 x world83 console83 = .ok ([true, false, true], x', w', t') ∧
    w'.log.map (·.args) = [[[114, 109], [97]], [[114, 109], [99]]] ∧ t'.input.data = [109] :=
  ⟨_, _, _, _, rfl, rfl, fun _ => rfl, by intro f hf; simp [files83] at hf; rcases hf with rfl | rfl | rfl <;> simp [Exec.File.fine], rfl, rfl, rfl⟩

/-! ## C84 -/

/-- C84 (which `$PATH`s are accepted): `-execdir` and `-okdir` are rejected if and only if an entry of `$PATH` is not absolute (an empty one, which means the current directory, is not). -/
theorem C84_accepted (p : Bytes) : pathAccepted true (some p) = true ↔ ∀ e ∈ Spec.Spawn.entries p, ∃ s, e = 47 :: s := by
  unfold pathAccepted
  dsimp only
  rw [relativeLoop_eq _ _ (by omega), Bool.not_not]
  unfold Spec.Spawn.absolute
  rw [List.all_eq_true]
  refine ⟨fun h e he => ?_, fun h e he => ?_⟩
  · have := h e he
    cases e with
    | nil => simp at this
    | cons c s => simp at this; exact ⟨s, by rw [this]⟩
  · obtain ⟨s, rfl⟩ := h e he
    simp

/-- C84 (what it is good for): if `-execdir` is accepted, a command without a slash in its name is never looked for in the directory that it is run in: whatever program is started has an absolute
path, from an entry of `$PATH`, and it would be the same one in any other directory. -/
theorem C84_safe {pl : Spawn.Plat} {w : Spawn.World} {self : Spawn.Child} (hh : Spec.Spawn.Honest w self) (hw : Spec.Spawn.Sane w)
    (libc : Bool → List UInt8 → List Spawn.Action → Spawn.Child → Spawn.Result) (junk : UInt8) {path exe : List UInt8}
    (hl : HonestLibc w path libc) (hs : Spec.Spawn.CStrings path exe) (hx : (47 : UInt8) ∉ exe) (henv : w.env = some path) (hm : w.malloc = true)
    (ha : pathAccepted true w.env = true) (reqs : List Spec.Spawn.Req) :
    ∃ r, Spawn.spawn pl w libc junk exe (Spec.Spawn.prepare pl true reqs) self = .ok r ∧
      ∀ p, r.program = some p → (∃ s, (47 :: s) ∈ Spec.Spawn.entries path ∧ p.path = (47 :: s) ++ [47] ++ exe) ∧ ∀ d, Spec.Spawn.search w path exe d = .ok p.path := by
  obtain ⟨r, h1, h2⟩ := C48_search hh hw libc junk hl hs hx (by unfold Spawn.searchPath; rw [henv]) hm reqs (pl := pl)
  rw [henv, C84_accepted] at ha
  refine ⟨r, h1, fun p hp => ?_⟩
  have h3 := h2 p hp
  have habs : Spec.Spawn.absolute path = true := by
    unfold Spec.Spawn.absolute
    rw [List.all_eq_true]
    intro e he
    obtain ⟨s, rfl⟩ := ha e he
    simp
  refine ⟨?_, fun d => by rw [← h3]; exact Spawn.search_absolute hw habs _ _⟩
  unfold Spec.Spawn.search at h3
  split at h3
  · next q hq =>
    cases h3
    obtain ⟨e, he, hep⟩ := List.mem_map.1 (List.mem_of_find?_eq_some hq)
    obtain ⟨s, rfl⟩ := ha e he
    exact ⟨s, he, by rw [← hep, Spec.Spawn.under]; rfl⟩
  · cases h3

/-- C84 (the check is needed): with `$PATH` = `:/b`, the program that is started depends on the directory. -/
example : pathAccepted true (some [58, 47, 98]) = false ∧ pathAccepted false (some [58, 47, 98]) = true ∧ pathAccepted true (some [47, 98, 58, 47, 97]) = true ∧ pathAccepted true none = true := by decide

example : Spec.Spawn.Honest spawnWorld spawnSelf ∧ Spec.Spawn.Sane spawnWorld ∧ HonestLibc spawnWorld [47, 98, 58, 47, 97] noLibc ∧ spawnWorld.env = some [47, 98, 58, 47, 97] ∧
    pathAccepted true spawnWorld.env = true ∧ spawnWorld.malloc = true :=
  ⟨spawnWorld_honest, spawnWorld_sane, ⟨fun _ _ _ _ _ _ h => (by cases h), fun _ _ _ _ _ _ h => (by cases h)⟩, rfl, by rw [show spawnWorld.env = some [47, 98, 58, 47, 97] from rfl]; decide, rfl⟩

end Verif.Props
