import Verif.Spec.Delete
import Verif.Lemmas.Search

namespace Verif.Delete
open Verif.Bftw

variable {F : Type} [DecidableEq F] {w : World F} {e : Env} {wants : (F → Bool) → Pos → Bool}

/-- An evaluation, by the position of the file. -/
def evals (w : World F) (e : Env) (wants : (F → Bool) → Pos → Bool) (p : Pos) : St F → St F :=
  evaluate w wants (p, e.fullPath p)

/-- All evaluations, by the positions of the files. -/
def runs (w : World F) (e : Env) (wants : (F → Bool) → Pos → Bool) (l : List Pos) : St F :=
  l.foldr (evals w e wants) ⟨fun _ => true, [], []⟩

theorem calls_eq {c : Cfg} {e : Env} {tr : List Event} (h : ∀ ev ∈ tr, ev.path = e.fullPath ev.pos) :
    calls c e tr = (c.evaluations e tr).map fun p => (p, e.fullPath p) := by
  unfold calls Cfg.evaluations
  rw [List.map_map]
  refine List.map_congr_left fun x hx => ?_
  obtain ⟨l, r, h1, _⟩ := mem_verdicts.1 (List.mem_filter.1 hx).1
  show (x.1.pos, x.1.path) = (x.1.pos, e.fullPath x.1.pos)
  rw [h x.1 (by rw [h1]; simp)]

theorem run_eq (l : List Pos) : run w wants (l.map fun p => (p, e.fullPath p)) = runs w e wants l := by
  unfold run runs
  rw [List.foldr_map]
  rfl

/-- When a file is removed. -/
def Goes (w : World F) (e : Env) (wants : (F → Bool) → Pos → Bool) (p : Pos) (st : F → Bool) : Prop :=
  wants st p = true ∧ w.Removable e p ∧ st (w.file p) = true ∧
    (w.dir (w.file p) = true → ∀ f ∈ w.contents (w.file p), st f = false)

theorem unlinkat_some (w : World F) (st : F → Bool) (f : F)
    (h : st f = true ∧ w.denied f = false ∧ (w.dir f = true → ∀ g ∈ w.contents f, st g = false)) :
    w.unlinkat st f (w.dir f) = some fun g => if g = f then false else st g := by
  unfold World.unlinkat
  rw [if_neg (by simp [h.1]), if_neg (by simp)]
  rw [if_neg (by
    intro hh
    rw [Bool.and_eq_true, List.any_eq_true] at hh
    obtain ⟨h1, g, h2, h3⟩ := hh
    rw [h.2.2 h1 g h2] at h3
    cases h3), if_neg (by simp [h.2.1])]

theorem unlinkat_none (w : World F) (st : F → Bool) (f : F)
    (h : ¬ (st f = true ∧ w.denied f = false ∧ (w.dir f = true → ∀ g ∈ w.contents f, st g = false))) :
    w.unlinkat st f (w.dir f) = none := by
  unfold World.unlinkat
  by_cases h1 : st f = true
  · rw [if_neg (by simp [h1]), if_neg (by simp)]
    by_cases h2 : (w.dir f && (w.contents f).any st) = true
    · rw [if_pos h2]
    · rw [if_neg h2]
      by_cases h3 : w.denied f = true
      · rw [if_pos h3]
      · exfalso
        refine h ⟨h1, by simpa using h3, fun hd g hg => ?_⟩
        cases hsg : st g with
        | false => rfl
        | true =>
          refine absurd ?_ h2
          rw [Bool.and_eq_true, List.any_eq_true]
          exact ⟨hd, g, hg, hsg⟩
  · rw [if_pos (by simpa using h1)]

theorem evaluate_goes {p : Pos} {st : St F} (h : Goes w e wants p st.present) :
    evals w e wants p st = ⟨fun g => if g = w.file p then false else st.present g, p :: st.succeeded, st.failed⟩ := by
  obtain ⟨h1, h2, h3, h4⟩ := h
  unfold evals evaluate evalDelete; dsimp only
  rw [if_pos h1, if_neg h2.named, if_neg (by simp [h2.known]), unlinkat_some w _ _ ⟨h3, h2.allowed, h4⟩]

theorem evaluate_dot {p : Pos} {st : St F} (h1 : wants st.present p = true) (h2 : e.fullPath p = [46]) :
    evals w e wants p st = ⟨st.present, p :: st.succeeded, st.failed⟩ := by
  unfold evals evaluate evalDelete; dsimp only
  rw [if_pos h1, if_pos h2]

theorem evaluate_fails {p : Pos} {st : St F} (h : ¬ Goes w e wants p st.present)
    (h1 : wants st.present p = true) (h2 : e.fullPath p ≠ [46]) :
    evals w e wants p st = ⟨st.present, st.succeeded, p :: st.failed⟩ := by
  unfold evals evaluate evalDelete; dsimp only
  rw [if_pos h1, if_neg h2]
  by_cases hu : w.unknown p = true
  · rw [if_pos hu]
  · rw [if_neg hu, unlinkat_none]
    rintro ⟨h3, h4, h5⟩
    exact h ⟨h1, ⟨h2, by simpa using hu, h4⟩, h3, h5⟩

theorem evaluate_not {p : Pos} {st : St F} (h1 : wants st.present p = false) :
    evals w e wants p st = st := by
  unfold evals evaluate
  dsimp only
  rw [if_neg (by simp [h1])]

theorem evaluate_present (p : Pos) (st : St F) :
    (Goes w e wants p st.present ∧
      (evals w e wants p st).present = fun g => if g = w.file p then false else st.present g) ∨
    (¬ Goes w e wants p st.present ∧ (evals w e wants p st).present = st.present) := by
  by_cases hg : Goes w e wants p st.present
  · exact Or.inl ⟨hg, by rw [evaluate_goes hg]⟩
  · refine Or.inr ⟨hg, ?_⟩
    cases hw : wants st.present p with
    | false => rw [evaluate_not hw]
    | true =>
      by_cases hd : e.fullPath p = [46]
      · rw [evaluate_dot hw hd]
      · rw [evaluate_fails hg hw hd]

theorem run_cons (p : Pos) (l : List Pos) : runs w e wants (p :: l) = evals w e wants p (runs w e wants l) := rfl

/-- Nothing but the files that were searched is changed. -/
theorem run_other (l : List Pos) (f : F) (hf : ∀ q ∈ l, w.file q ≠ f) : (runs w e wants l).present f = true := by
  induction l with
  | nil => rfl
  | cons p l ih =>
    have ih := ih fun q hq => hf q (List.mem_cons_of_mem _ hq)
    have hne : f ≠ w.file p := fun h => hf p List.mem_cons_self h.symm
    rw [run_cons]
    rcases evaluate_present (w := w) (e := e) (wants := wants) p (runs w e wants l) with ⟨_, h⟩ | ⟨_, h⟩
    · rw [h]; dsimp only; rw [if_neg hne, ih]
    · rw [h, ih]

theorem run_append (later l : List Pos) (f : F) (hf : ∀ q ∈ later, w.file q ≠ f) :
    (runs w e wants (later ++ l)).present f = (runs w e wants l).present f := by
  induction later with
  | nil => rfl
  | cons p later ih =>
    have ih := ih fun q hq => hf q (List.mem_cons_of_mem _ hq)
    have hne : f ≠ w.file p := fun h => hf p List.mem_cons_self h.symm
    rw [List.cons_append, run_cons]
    rcases evaluate_present (w := w) (e := e) (wants := wants) p (runs w e wants (later ++ l)) with ⟨_, h⟩ | ⟨_, h⟩
    · rw [h]; dsimp only; rw [if_neg hne, ih]
    · rw [h, ih]

theorem run_lists (later l : List Pos) (p : Pos) (hp : p ∉ later) :
    (p ∈ (runs w e wants (later ++ l)).succeeded ↔ p ∈ (runs w e wants l).succeeded) ∧
    (p ∈ (runs w e wants (later ++ l)).failed ↔ p ∈ (runs w e wants l).failed) := by
  induction later with
  | nil => exact ⟨Iff.rfl, Iff.rfl⟩
  | cons q later ih =>
    have ih := ih fun h => hp (List.mem_cons_of_mem _ h)
    have hne : p ≠ q := fun h => hp (h ▸ List.mem_cons_self)
    rw [List.cons_append, run_cons]
    by_cases hg : Goes w e wants q (runs w e wants (later ++ l)).present
    · rw [evaluate_goes hg]; simp [hne, ih]
    · cases hw : wants (runs w e wants (later ++ l)).present q with
      | false => rw [evaluate_not hw]; exact ih
      | true =>
        by_cases hd : e.fullPath q = [46]
        · rw [evaluate_dot hw hd]; simp [hne, ih]
        · rw [evaluate_fails hg hw hd]; simp [hne, ih]

theorem run_lists_sub (l : List Pos) :
    (∀ p ∈ (runs w e wants l).succeeded, p ∈ l) ∧ (∀ p ∈ (runs w e wants l).failed, p ∈ l) := by
  induction l with
  | nil => exact ⟨fun p h => (by cases h), fun p h => (by cases h)⟩
  | cons q l ih =>
    have ih1 : ∀ p ∈ (runs w e wants l).succeeded, p ∈ q :: l := fun p h => List.mem_cons_of_mem _ (ih.1 p h)
    have ih2 : ∀ p ∈ (runs w e wants l).failed, p ∈ q :: l := fun p h => List.mem_cons_of_mem _ (ih.2 p h)
    have c1 : ∀ p ∈ q :: (runs w e wants l).succeeded, p ∈ q :: l := by
      intro p h
      rcases List.mem_cons.1 h with rfl | h
      · exact List.mem_cons_self
      · exact ih1 p h
    have c2 : ∀ p ∈ q :: (runs w e wants l).failed, p ∈ q :: l := by
      intro p h
      rcases List.mem_cons.1 h with rfl | h
      · exact List.mem_cons_self
      · exact ih2 p h
    rw [run_cons]
    by_cases hg : Goes w e wants q (runs w e wants l).present
    · rw [evaluate_goes hg]; exact ⟨c1, ih2⟩
    · cases hw : wants (runs w e wants l).present q with
      | false => rw [evaluate_not hw]; exact ⟨ih1, ih2⟩
      | true =>
        by_cases hd : e.fullPath q = [46]
        · rw [evaluate_dot hw hd]; exact ⟨c1, ih2⟩
        · rw [evaluate_fails hg hw hd]; exact ⟨ih1, c2⟩

/-- The state in which everything ends. -/
theorem run_spec (T : List Pos) (hnd : T.Nodup) (hord : T.Pairwise fun later earlier => ¬ earlier <:+ later)
    (hT : w.Tree (· ∈ T)) (hL : Local w (· ∈ T) wants) (p : Pos) (hp : p ∈ T) :
    let S := runs w e wants T
    (S.present (w.file p) = false ↔ wants S.present p = true ∧ w.Removable e p ∧
      (w.dir (w.file p) = true → ∀ f ∈ w.contents (w.file p), S.present f = false)) ∧
    (p ∈ S.succeeded ↔ S.present (w.file p) = false ∨ (wants S.present p = true ∧ e.fullPath p = [46])) ∧
    (p ∈ S.failed ↔ wants S.present p = true ∧ e.fullPath p ≠ [46] ∧ S.present (w.file p) = true) := by
  intro S
  obtain ⟨later, l, rfl⟩ := List.append_of_mem hp
  have hd := List.nodup_append.1 hnd
  have hpl : p ∉ later := fun h => hd.2.2 p h p List.mem_cons_self rfl
  have hpl' : p ∉ l := (List.nodup_cons.1 hd.2.1).1
  have hord' := List.pairwise_append.1 hord
  -- what is below has been dealt with
  have below : ∀ f, (∀ q, q ∈ later ++ p :: l → w.file q = f → Below p q) →
      S.present f = (runs w e wants l).present f := by
    intro f hf
    show (runs w e wants (later ++ ([p] ++ l))).present f = _
    rw [← List.append_assoc]
    refine run_append _ _ _ fun q hq he => ?_
    have hb := hf q (by
      rw [List.mem_append] at hq ⊢
      rcases hq with h | h
      · exact Or.inl h
      · rw [List.mem_singleton.1 h]; exact Or.inr List.mem_cons_self) he
    rcases List.mem_append.1 hq with h | h
    · exact hord'.2.2 q h p List.mem_cons_self hb.1
    · exact hb.2 (List.mem_singleton.1 h).symm
  have hw : wants S.present p = wants (runs w e wants l).present p := hL p _ _ hp below
  have hc : w.dir (w.file p) = true → ∀ f ∈ w.contents (w.file p), S.present f = (runs w e wants l).present f :=
    fun h f hf => below f fun q hq he => hT.inside p q hp hq h (he ▸ hf)
  have hself : ∀ q ∈ later ++ p :: l, q ≠ p → w.file q ≠ w.file p := fun q hq hne he => hne (hT.inj q p hq hp he)
  have hS : S.present (w.file p) = (runs w e wants (p :: l)).present (w.file p) :=
    run_append _ _ _ fun q hq => hself q (List.mem_append_left _ hq) fun h => hpl (h ▸ hq)
  have h0 : (runs w e wants l).present (w.file p) = true :=
    run_other _ _ fun q hq => hself q (List.mem_append_right _ (List.mem_cons_of_mem _ hq)) fun h => hpl' (h ▸ hq)
  have hls := run_lists (w := w) (e := e) (wants := wants) later (p :: l) p hpl
  have hsub := run_lists_sub (w := w) (e := e) (wants := wants) l
  have hns : p ∉ (runs w e wants l).succeeded := fun h => hpl' (hsub.1 p h)
  have hnf : p ∉ (runs w e wants l).failed := fun h => hpl' (hsub.2 p h)
  have hgo : Goes w e wants p (runs w e wants l).present ↔ wants S.present p = true ∧ w.Removable e p ∧
      (w.dir (w.file p) = true → ∀ f ∈ w.contents (w.file p), S.present f = false) := by
    unfold Goes
    rw [hw]
    constructor
    · rintro ⟨a, b, _, c⟩
      exact ⟨a, b, fun h f hf => by rw [hc h f hf]; exact c h f hf⟩
    · rintro ⟨a, b, c⟩
      exact ⟨a, b, h0, fun h f hf => by rw [← hc h f hf]; exact c h f hf⟩
  rw [← hgo]
  rw [show S.succeeded = (runs w e wants (later ++ p :: l)).succeeded from rfl,
    show S.failed = (runs w e wants (later ++ p :: l)).failed from rfl, hls.1, hls.2, hw, hS, run_cons]
  by_cases hg : Goes w e wants p (runs w e wants l).present
  · rw [evaluate_goes hg]
    simp [hg, hnf]
  · cases hwl : wants (runs w e wants l).present p with
    | false =>
      rw [evaluate_not hwl]
      simp [hg, h0, hns, hnf]
    | true =>
      by_cases hdot : e.fullPath p = [46]
      · rw [evaluate_dot hwl hdot]
        simp [hg, h0, hdot, hnf]
      · rw [evaluate_fails hg hwl hdot]
        simp [hg, h0, hdot, hns]

end Verif.Delete
