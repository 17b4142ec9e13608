import Verif.Props.Main
import Verif.Lemmas.Delete

/-!
# C73: `-delete` removes exactly what it should
-/
namespace Verif.Props

open Verif Verif.Bftw Verif.Delete
open Verif.Main (Walked Ordinary Deepening Facts facts)

variable {F : Type} [DecidableEq F] {w : World F} {c : Cfg} {e : Env} {tr : List Event} {complete : Bool}
  {wants : (F → Bool) → Pos → Bool}

/-- What all of the theorems are about: a search with any of the strategies, which is complete or not.
`-delete` implies `-depth`. -/
structure Deletion (c : Cfg) (e : Env) (tr : List Event) (complete : Bool) : Prop where
  sane : c.Sane
  unique : c.unique = false
  ordinary : Ordinary e
  post : e.post = true
  walk : Walked (c.env e) tr complete

theorem Deletion.facts (h : Deletion c e tr complete) : Facts c e tr complete :=
  Main.facts h.sane h.unique h.ordinary h.walk

theorem deletion_targets (h : Deletion c e tr true) (p : Pos) : p ∈ c.evaluations e tr ↔ c.Target e p :=
  ⟨h.facts.sound p, h.facts.exact_ rfl p⟩

theorem deletion_runs (h : Deletion c e tr complete) :
    run w wants (calls c e tr) = runs w e wants (c.evaluations e tr) := by
  rw [calls_eq h.facts.path, run_eq]

/-- **C73 (at any time).** At any time of a search, whether it is going to be complete or ended by `-quit`, a
file that the expression was evaluated on has been removed iff the tests before `-delete` held, it is not
`.`, its type is known, the system does not refuse to remove it, and if it is a directory, everything in it
has been removed. `-delete` returned true for these, and for `.`; for all others for which the tests held, an
error was reported. -/
theorem C73_anytime (h : Deletion c e tr complete) (hT : w.Tree (c.Target e)) (hL : Local w (c.Target e) wants)
    (p : Pos) (hp : p ∈ c.evaluations e tr) :
    let S := run w wants (calls c e tr)
    (S.present (w.file p) = false ↔ wants S.present p = true ∧ w.Removable e p ∧
      (w.dir (w.file p) = true → ∀ f ∈ w.contents (w.file p), S.present f = false)) ∧
    (p ∈ S.succeeded ↔ S.present (w.file p) = false ∨ (wants S.present p = true ∧ e.fullPath p = [46])) ∧
    (p ∈ S.failed ↔ wants S.present p = true ∧ e.fullPath p ≠ [46] ∧ S.present (w.file p) = true) := by
  rw [deletion_runs h]
  have hf := h.facts
  exact run_spec _ hf.once (hf.post h.post)
    ⟨fun p q hp hq => hT.inj p q (hf.sound p hp) (hf.sound q hq), fun p q hp hq => hT.inside p q (hf.sound p hp) (hf.sound q hq)⟩
    (fun p st st' hp hst => hL p st st' (hf.sound p hp) fun f hq => hst f fun q hqt => hq q (hf.sound q hqt)) p hp

/-- **C73 (exactly).** When the search is complete, a file that the expression should be evaluated on has been
removed iff the tests before `-delete` held, it is not `.`, its type is known, the system does not
refuse to remove it, and if it is a directory, everything in it has been removed. (Since that is about
files further down, it determines which files have been removed.) `-delete` returned true for these, and
for `.`; for all others for which the tests held, an error was reported. -/
theorem C73_exact (h : Deletion c e tr true) (hT : w.Tree (c.Target e)) (hL : Local w (c.Target e) wants)
    (p : Pos) (hp : c.Target e p) :
    let S := run w wants (calls c e tr)
    (S.present (w.file p) = false ↔ wants S.present p = true ∧ w.Removable e p ∧
      (w.dir (w.file p) = true → ∀ f ∈ w.contents (w.file p), S.present f = false)) ∧
    (p ∈ S.succeeded ↔ S.present (w.file p) = false ∨ (wants S.present p = true ∧ e.fullPath p = [46])) ∧
    (p ∈ S.failed ↔ wants S.present p = true ∧ e.fullPath p ≠ [46] ∧ S.present (w.file p) = true) :=
  C73_anytime h hT hL p ((deletion_targets h p).2 hp)

/-- **C73 (nothing else).** At any time, nothing has been removed but files that the expression should be evaluated on, and
errors were reported only for these, whatever the files are and whatever the system answers. -/
theorem C73_only (h : Deletion c e tr complete) :
    let S := run w wants (calls c e tr)
    (∀ f, S.present f = false → ∃ p, c.Target e p ∧ w.file p = f) ∧
    (∀ p ∈ S.succeeded, c.Target e p) ∧ (∀ p ∈ S.failed, c.Target e p) := by
  rw [deletion_runs h]
  have hsub := run_lists_sub (w := w) (e := e) (wants := wants) (c.evaluations e tr)
  refine ⟨fun f hf => ?_, fun p hp => h.facts.sound p (hsub.1 p hp),
    fun p hp => h.facts.sound p (hsub.2 p hp)⟩
  refine Classical.byContradiction fun hn => ?_
  rw [run_other _ _ fun q hq he => hn ⟨q, h.facts.sound q hq, he⟩] at hf
  cases hf

/-- There is a bound for the depth, so one can prove things from the bottom up. -/
theorem bottom_up (hs : c.Sane) {P : Pos → Prop}
    (step : ∀ p, c.Target e p → (∀ q, c.Target e q → Below p q → P q) → P p) (p : Pos) (hp : c.Target e p) : P p := by
  have key : ∀ n p, c.Target e p → c.maxdepth.toNat + 1 - p.length < n → P p := by
    intro n
    induction n with
    | zero => intro p _ h; omega
    | succ n ih =>
      intro p hp hn
      refine step p hp fun q hq hb => ih q hq ?_
      have hlt : p.length < q.length := by
        rcases Nat.lt_or_ge p.length q.length with h | h
        · exact h
        · exact absurd (hb.1.eq_of_length (Nat.le_antisymm hb.1.length_le h)) hb.2
      have hd := hq.range.2
      have := hs.max0
      have hq0 : depth q = q.length - 1 := rfl
      rw [hq0] at hd
      omega
  exact key _ p hp (Nat.lt_succ_self _)

/-- **C73 (whole trees).** If nothing stands in the way, `bfs ... -delete` removes all files, so each
directory is empty when its turn comes, and no error is reported. -/
theorem C73_tree (h : Deletion c e tr true) (hT : w.Tree (c.Target e)) (hW : w.Whole (c.Target e))
    (hR : ∀ p, c.Target e p → w.Removable e p) :
    let S := run w (fun _ _ => true) (calls c e tr)
    (∀ f, S.present f = false ↔ ∃ p, c.Target e p ∧ w.file p = f) ∧ S.failed = [] := by
  intro S
  have hL : Local w (c.Target e) (fun _ _ => true) := fun _ _ _ _ _ => rfl
  have hall : ∀ p, c.Target e p → S.present (w.file p) = false := by
    refine bottom_up h.sane fun p hp ih => ?_
    refine (C73_exact h hT hL p hp).1.2 ⟨rfl, hR p hp, fun hd f hf => ?_⟩
    obtain ⟨q, hq, rfl⟩ := hW p hp hd f hf
    exact ih q hq (hT.inside p q hp hq hd hf)
  refine ⟨fun f => ⟨(C73_only h).1 f, ?_⟩, List.eq_nil_iff_forall_not_mem.2 fun p hp => ?_⟩
  · rintro ⟨p, hp, rfl⟩
    exact hall p hp
  · have ht := (C73_only (w := w) (wants := fun _ _ => true) h).2.2 p hp
    have := ((C73_exact h hT hL p ht).2.2.1 hp).2.2
    rw [hall p ht] at this
    cases this

/-- `-type d -empty` at some time. -/
def emptyDir (w : World F) (st : F → Bool) (p : Pos) : Bool :=
  w.dir (w.file p) && !(w.contents (w.file p)).any st

/-- **C73 (`-type d -empty -delete`).** Directories are looked at after what is in them was deleted: so
all directories are removed in which there are only directories, on all levels. -/
theorem C73_empty (h : Deletion c e tr true) (hT : w.Tree (c.Target e)) (hW : w.Whole (c.Target e))
    (hR : ∀ p, c.Target e p → w.Removable e p)
    (hI : ∀ p j, c.Target e p → c.Target e (j :: p) → w.dir (w.file p) = true ∧
      w.file (j :: p) ∈ w.contents (w.file p))
    (hU : ∀ p j, c.Target e (j :: p) → p ≠ [] → c.Target e p) (p : Pos) (hp : c.Target e p) :
    let S := run w (emptyDir w) (calls c e tr)
    (S.present (w.file p) = false ↔ ∀ q, c.Target e q → p <:+ q → w.dir (w.file q) = true) ∧ S.failed = [] := by
  have hL : Local w (c.Target e) (emptyDir w) := by
    intro p st st' hp hst
    unfold emptyDir
    cases hd : w.dir (w.file p) with
    | false => rfl
    | true =>
      have : (w.contents (w.file p)).any st = (w.contents (w.file p)).any st' := by
        rw [Bool.eq_iff_iff, List.any_eq_true, List.any_eq_true]
        refine exists_congr fun f => and_congr_right fun hf => ?_
        rw [hst f fun q hq he => hT.inside p q hp hq hd (he ▸ hf)]
      rw [this]
  intro S
  have hw : ∀ p, emptyDir w S.present p = true ↔ w.dir (w.file p) = true ∧ ∀ f ∈ w.contents (w.file p), S.present f = false := by
    intro p
    unfold emptyDir
    simp
  have hex : ∀ p, c.Target e p → (S.present (w.file p) = false ↔
      w.dir (w.file p) = true ∧ ∀ f ∈ w.contents (w.file p), S.present f = false) := by
    intro p hp
    rw [(C73_exact h hT hL p hp).1, hw]
    exact ⟨fun hh => hh.1, fun hh => ⟨hh, hR p hp, fun _ => hh.2⟩⟩
  refine ⟨?_, List.eq_nil_iff_forall_not_mem.2 fun p hp => ?_⟩
  · revert p hp
    refine bottom_up h.sane fun p hp ih => ?_
    rw [hex p hp]
    constructor
    · rintro ⟨h1, h2⟩ q hq hs
      by_cases hpq : p = q
      · rw [← hpq]; exact h1
      · -- the entry of `p` on the way to `q`
        have : ∃ j, j :: p <:+ q ∧ c.Target e (j :: p) := by
          clear ih h2 h1
          revert hq hs hpq
          induction q with
          | nil =>
            intro _ hs hpq
            exact absurd (List.eq_nil_of_suffix_nil hs) hpq
          | cons j q ihq =>
            intro hq hs hpq
            rcases List.suffix_cons_iff.1 hs with rfl | hs'
            · exact absurd rfl hpq
            · by_cases he : p = q
              · subst he
                exact ⟨j, List.suffix_refl _, hq⟩
              · have hqn : q ≠ [] := by
                  rintro rfl
                  exact he (List.eq_nil_of_suffix_nil hs')
                obtain ⟨i, hi, hi'⟩ := ihq (hU q j hq hqn) hs' he
                exact ⟨i, List.suffix_cons_iff.2 (Or.inr hi), hi'⟩
        obtain ⟨j, hj, htj⟩ := this
        have hbel : Below p (j :: p) := ⟨List.suffix_cons _ _, by simp⟩
        exact (ih (j :: p) htj hbel).1 (h2 _ (hI p j hp htj).2) q hq hj
    · intro hall
      refine ⟨hall p hp (List.suffix_refl _), fun f hf => ?_⟩
      have hd := hall p hp (List.suffix_refl _)
      obtain ⟨q, hq, rfl⟩ := hW p hp hd f hf
      have hb := hT.inside p q hp hq hd hf
      exact (ih q hq hb).2 fun r hr hs => hall r hr (hb.1.trans hs)
  · have ht := (C73_only (w := w) (wants := emptyDir w) h).2.2 p hp
    obtain ⟨h1, _, h3⟩ := (C73_exact h hT hL p ht).2.2.1 hp
    rw [(hex p ht).2 ((hw p).1 h1)] at h3
    cases h3

/-- **C73 (exit status).** If bfs succeeds (without `-noerror`), everything that should have been deleted
is gone. -/
theorem C73_status (h : Deletion c e tr true) (hT : w.Tree (c.Target e)) (hL : Local w (c.Target e) wants)
    (hn : c.ignoreErrors = false)
    (hx : ∀ p, p ∈ (run w wants (calls c e tr)).failed → c.exprError p = true)
    (h0 : c.status e tr = 0) (p : Pos) (hp : c.Target e p)
    (hw : wants (run w wants (calls c e tr)).present p = true) :
    (run w wants (calls c e tr)).present (w.file p) = false ∨ e.fullPath p = [46] := by
  have hst := (h.facts.status rfl).1 h0
  rcases hst with hst | hst
  · rw [hn] at hst; cases hst
  · by_cases hd : e.fullPath p = [46]
    · exact Or.inr hd
    · left
      cases hpr : (run w wants (calls c e tr)).present (w.file p) with
      | false => rfl
      | true =>
        have := (C73_exact h hT hL p hp).2.2.2 ⟨hw, hd, hpr⟩
        exact absurd ⟨hp.found, hp.shown, Or.inr (Or.inr (Or.inr ⟨hp, hx p this⟩))⟩ (hst p)

/-! ## Examples -/

/-- `bfs a -delete`. -/
def deleteCfg : Cfg := { searchCfg with mindepth := 0, xargsSafe := false, exclude := fun _ => false }

/-- The files of `walkEnv`. -/
def deleteWorld : World Pos where
  dir := walkEnv.isDir
  contents := fun p => (List.range (walkEnv.entries p)).map (· :: p)
  denied := fun _ => false
  file := id
  unknown := fun _ => false

def deleteEnd : List Event := (walk (deleteCfg.env walkEnv) 100).trace

theorem delete_ordinary : Ordinary walkEnv where
  named := walkEnv_named
  errors := fun _ h => by cases h
  mounts := fun _ => rfl
  distinct := fun h => by rcases h with h | h <;> cases h

theorem deletion_ok : Deletion deleteCfg walkEnv deleteEnd true where
  sane := ⟨by decide, by decide, by decide, by decide⟩
  unique := rfl
  ordinary := delete_ordinary
  post := rfl
  walk := by
    have := Walked.walk (Or.inl (by decide)) (walk_reach (deleteCfg.env walkEnv) 100)
    rwa [show decide ((walk (deleteCfg.env walkEnv) 100).pc = .done) = true by decide +kernel] at this

theorem delete_targets (p : Pos) : deleteCfg.Target walkEnv p ↔ p ∈ [[0], [0, 0], [0, 0, 0], [1, 0]] := by
  rw [← deletion_targets deletion_ok, show deleteCfg.evaluations walkEnv deleteEnd = [[0], [0, 0], [0, 0, 0], [1, 0]] by decide +kernel]

theorem delete_tree : deleteWorld.Tree (deleteCfg.Target walkEnv) := by
  refine ⟨fun p q _ _ h => h, fun p q _ _ _ h => ?_⟩
  obtain ⟨j, _, h⟩ := List.mem_map.1 h
  have h : j :: p = q := h
  rw [← h]
  exact ⟨List.suffix_cons _ _, by simp⟩

theorem delete_whole : deleteWorld.Whole (deleteCfg.Target walkEnv) := by
  intro p hp _ f hf
  refine ⟨f, ?_, rfl⟩
  rw [delete_targets] at hp ⊢
  have : ∀ p ∈ [[0], [0, 0], [0, 0, 0], [1, 0]], ∀ f ∈ deleteWorld.contents p, f ∈ [[0], [0, 0], [0, 0, 0], [1, 0]] := by
    decide
  exact this p hp f hf

theorem delete_removable (p : Pos) (hp : deleteCfg.Target walkEnv p) : deleteWorld.Removable walkEnv p := by
  rw [delete_targets] at hp
  refine ⟨?_, rfl, rfl⟩
  have : ∀ p ∈ [[0], [0, 0], [0, 0, 0], [1, 0]], walkEnv.fullPath p ≠ [46] := by decide
  exact this p hp

/-- The hypotheses of `C73_tree`: all four files are deleted. -/
example : (∀ p ∈ [[0], [0, 0], [0, 0, 0], [1, 0]],
      (run deleteWorld (fun _ _ => true) (calls deleteCfg walkEnv deleteEnd)).present p = false) ∧
    (run deleteWorld (fun _ _ => true) (calls deleteCfg walkEnv deleteEnd)).failed = [] := by
  obtain ⟨h1, h2⟩ := C73_tree deletion_ok delete_tree delete_whole delete_removable
  exact ⟨fun p hp => (h1 p).2 ⟨p, (delete_targets p).2 hp, rfl⟩, h2⟩

/-- `bfs a ! -name z -delete`: `a/x` is deleted, and errors are reported for `a/y` and `a`. -/
example : let S := run deleteWorld (fun _ p => p != [0, 0, 0]) (calls deleteCfg walkEnv deleteEnd)
    Local deleteWorld (deleteCfg.Target walkEnv) (fun _ p => p != [0, 0, 0]) ∧ S.present [1, 0] = false ∧
      S.present [0, 0] = true ∧ S.failed = [[0], [0, 0]] :=
  ⟨fun _ _ _ _ _ => rfl, by decide +kernel, by decide +kernel, by decide +kernel⟩

/-- The hypotheses of `C73_empty`: nothing is deleted here, since there are files in both directories. -/
example : (∀ p j, deleteCfg.Target walkEnv p → deleteCfg.Target walkEnv (j :: p) →
      deleteWorld.dir (deleteWorld.file p) = true ∧ deleteWorld.file (j :: p) ∈ deleteWorld.contents (deleteWorld.file p)) ∧
    (∀ p j, deleteCfg.Target walkEnv (j :: p) → p ≠ [] → deleteCfg.Target walkEnv p) := by
  constructor
  · intro p j hp hj
    rw [delete_targets] at hp hj
    simp only [List.mem_cons, List.not_mem_nil, or_false] at hp hj
    rcases hp with rfl | rfl | rfl | rfl <;> simp at hj
    · rcases hj with rfl | rfl <;> decide
    · subst hj; decide
  · intro p j hj hn
    rw [delete_targets] at hj ⊢
    simp only [List.mem_cons, List.not_mem_nil, or_false] at hj
    rcases hj with h | h | h | h <;> simp at h <;> simp [h, hn] at hn ⊢

/-- `bfs a -type d -empty -delete` where `x` and `z` are directories, too. -/
def emptyEnv : Env := { walkEnv with isDir := fun _ => true }

def emptyWorld : World Pos := { deleteWorld with dir := fun _ => true }

def emptyEnd : St Pos :=
  run emptyWorld (emptyDir emptyWorld) (calls deleteCfg emptyEnv (walk (deleteCfg.env emptyEnv) 100).trace)

example : let S := emptyEnd
    (walk (deleteCfg.env emptyEnv) 100).pc = .done ∧ S.succeeded = [[0], [0, 0], [0, 0, 0], [1, 0]] ∧
      S.present [0] = false ∧ S.failed = [] := by
  decide +kernel

/-- `bfs -S ids a -delete` and `bfs -S eds a -delete`: the same files are deleted. -/
def deepDelete (str : Strategy) : Env := { walkEnv with strategy := str }

theorem deep_ordinary (str : Strategy) : Ordinary (deepDelete str) where
  named := walkEnv_named
  errors := fun _ h => by cases h
  mounts := fun _ => rfl
  distinct := fun _ p q hp hq h => by
    have lift : ∀ {r}, Found (deepDelete str) (fun d => (deepDelete str).isDir d = true) r →
        Found walkEnv (Into walkEnv fun _ _ => .cont) r := by
      intro r h
      induction h with
      | root i h => exact Found.root i h
      | entry p j hp hi hj ih => exact Found.entry p j ih ⟨hi, rfl, (fun h => by cases h.1), rfl⟩ hj
    refine walkEnv_distinct p q ⟨lift hp, rfl⟩ ⟨lift hq, rfl⟩ ?_
    have hf : ∀ p, Env.fullPath (deepDelete str) p = walkEnv.fullPath p := by
      intro p
      induction p with
      | nil => rfl
      | cons j p ih =>
        cases p with
        | nil => rfl
        | cons i p => show join _ _ = join _ _; rw [ih]; rfl
    rw [hf, hf] at h
    exact h

def deepEnd (str : Strategy) : List Event := ((wholeRun (deleteCfg.env (deepDelete str))).map (·.1)).getD []

theorem deep_deletion (str : Strategy) (h : (wholeRun (deleteCfg.env (deepDelete str))).map (·.2) = some true) :
    Deletion deleteCfg (deepDelete str) (deepEnd str) true where
  sane := ⟨by decide, by decide, by decide, by decide⟩
  unique := rfl
  ordinary := deep_ordinary str
  post := rfl
  walk := by
    unfold deepEnd
    obtain ⟨x, h1, h2⟩ := Option.map_eq_some_iff.1 h
    rw [h1, ← h2]
    exact wholeRun_walked h1

example : ∀ str, str = .ids ∨ str = .eds → Deletion deleteCfg (deepDelete str) (deepEnd str) true ∧
    let S := run deleteWorld (fun _ _ => true) (calls deleteCfg (deepDelete str) (deepEnd str))
    S.succeeded = [[0], [0, 0], [0, 0, 0], [1, 0]] ∨ S.succeeded = [[0], [0, 0], [1, 0], [0, 0, 0]] := by
  rintro _ (rfl | rfl)
  · exact ⟨deep_deletion _ (by decide +kernel), by decide +kernel⟩
  · exact ⟨deep_deletion _ (by decide +kernel), by decide +kernel⟩

end Verif.Props
