import Verif.Spec.Sigdispatch
namespace Verif.Sigdispatch

theorem shouldRun_sig (sig : Nat) (h : Hook) : (shouldRun sig h).2.sig = h.sig ∧ (shouldRun sig h).2.fn = h.fn ∧ (shouldRun sig h).2.oneshot = h.oneshot ∧ (shouldRun sig h).2.cont = h.cont := by
  unfold shouldRun
  split
  · exact ⟨rfl, rfl, rfl, rfl⟩
  · split <;> exact ⟨rfl, rfl, rfl, rfl⟩

theorem runHooks_eq (sig : Nat) (hs : List Hook) :
    runHooks sig hs = ((hs.filter fun h => (shouldRun sig h).1).map (·.fn), (hs.filter fun h => (shouldRun sig h).1).any (·.cont), hs.map fun h => (shouldRun sig h).2) := by
  induction hs with
  | nil => rfl
  | cons h hs ih =>
    simp only [runHooks, ih, List.filter_cons, List.map_cons]
    split <;> simp [*]

/-- The table holds the hooks `hs`, in order. -/
def Table (l : Lists) (hs : List Hook) : Prop := ∀ i, l i = hs.filter fun h => siglist h.sig = i

theorem filter_map_sig (g : Hook → Hook) (hg : ∀ h, (g h).sig = h.sig) (hs : List Hook) (i : Nat) :
    (hs.map g).filter (fun h => siglist h.sig = i) = (hs.filter fun h => siglist h.sig = i).map g := by
  induction hs with
  | nil => rfl
  | cons h hs ih =>
    simp only [List.map_cons, List.filter_cons, hg]
    split <;> simp [ih]

theorem map_filter_if (g : Hook → Hook) (hs : List Hook) (i : Nat) :
    (hs.filter fun h => siglist h.sig = i).map g = (hs.filter fun h => siglist h.sig = i).map (fun h => if siglist h.sig = i then g h else h) := by
  refine List.map_congr_left (fun h hh => ?_)
  have := (List.mem_filter.1 hh).2
  rw [if_pos (by simpa using this)]

/-- Running the hooks of list `i`. -/
def ran (sig i : Nat) (h : Hook) : Hook := if siglist h.sig = i then (shouldRun sig h).2 else h

theorem ran_sig (sig i : Nat) (h : Hook) : (ran sig i h).sig = h.sig ∧ (ran sig i h).fn = h.fn ∧ (ran sig i h).oneshot = h.oneshot ∧ (ran sig i h).cont = h.cont := by
  unfold ran; split
  · exact shouldRun_sig sig h
  · exact ⟨rfl, rfl, rfl, rfl⟩

theorem Table.run {l : Lists} {hs : List Hook} (ht : Table l hs) (sig i : Nat) :
    Table (fun j => if j = i then (l i).map (fun h => (shouldRun sig h).2) else l j) (hs.map (ran sig i)) := by
  intro j
  dsimp only
  rw [filter_map_sig _ (fun h => (ran_sig sig i h).1)]
  split
  · rename_i e
    subst e
    rw [ht j]
    exact map_filter_if _ hs j
  · rename_i e
    rw [ht j]
    symm
    refine (List.map_congr_left (fun h hh => ?_)).trans (List.map_id _)
    have := (List.mem_filter.1 hh).2
    simp only [decide_eq_true_eq] at this
    unfold ran
    rw [if_neg (by omega)]; rfl

theorem Table.register {l : Lists} {hs : List Hook} (ht : Table l hs) (h : Hook) : Table (register l h) (hs ++ [h]) := by
  intro i
  unfold Sigdispatch.register
  rw [List.filter_append]
  split
  · rename_i e
    rw [ht i, e]; simp
  · rename_i e
    rw [ht i]
    have : ¬ siglist h.sig = i := fun e' => e e'.symm
    simp [this]

/-- What the hooks become. -/
theorem dispatch_table (fatal : Nat → Bool) {l : Lists} {hs : List Hook} (ht : Table l hs) (sig : Nat) (fault : Bool) :
    ∃ hs', Table (dispatch fatal l sig fault).lists hs' ∧
      (hs' = hs ∨ hs' = hs.map (ran sig (siglist sig)) ∨ hs' = (hs.map (ran sig (siglist sig))).map (ran sig (siglist 0))) := by
  unfold dispatch
  split
  · exact ⟨hs, ht, Or.inl rfl⟩
  · simp only [runHooks_eq]
    have h1 := ht.run sig (siglist sig)
    split
    · exact ⟨_, h1.run sig (siglist 0), Or.inr (Or.inr rfl)⟩
    · exact ⟨_, h1, Or.inr (Or.inl rfl)⟩

/-! ## One-shot hooks -/

/-- How often function `f` can still be called. -/
def shots (f : Nat) (hs : List Hook) : Nat := hs.countP fun h => h.fn = f && h.armed

theorem ran_shot (f sig i : Nat) (h : Hook) (ho : h.fn = f → h.oneshot = true) :
    (if (decide (siglist h.sig = i) && (shouldRun sig h).1 && decide (h.fn = f)) = true then 1 else 0) + (if ((ran sig i h).fn = f && (ran sig i h).armed) = true then 1 else 0) ≤ (if (h.fn = f && h.armed) = true then 1 else 0 : Nat) := by
  by_cases e : h.fn = f
  · have ho := ho e
    unfold ran shouldRun
    by_cases e1 : siglist h.sig = i
    · by_cases e2 : h.sig ≠ sig ∧ h.sig ≠ 0
      · simp [e1, e2, e]
      · simp only [if_neg e2, ho]
        cases h.armed <;> simp [e1, e]
    · simp [e1, e]
  · simp [e, (ran_sig sig i h).2.1]

theorem run_shots (f sig i : Nat) {hs : List Hook} (ho : ∀ h ∈ hs, h.fn = f → h.oneshot = true) :
    ((((hs.filter fun h => siglist h.sig = i).filter fun h => (shouldRun sig h).1).map (·.fn)).count f) + shots f (hs.map (ran sig i)) ≤ shots f hs := by
  induction hs with
  | nil => simp [shots]
  | cons h hs ih =>
    have ih := ih (fun h' hh => ho h' (List.mem_cons_of_mem _ hh))
    have h1 := ran_shot f sig i h (ho h (by simp))
    unfold shots at ih ⊢
    rw [List.map_cons, List.countP_cons, List.countP_cons]
    have h2 : ((((h :: hs).filter fun h => siglist h.sig = i).filter fun h => (shouldRun sig h).1).map (·.fn)).count f =
        ((((hs.filter fun h => siglist h.sig = i).filter fun h => (shouldRun sig h).1).map (·.fn)).count f) +
        (if (decide (siglist h.sig = i) && (shouldRun sig h).1 && decide (h.fn = f)) = true then 1 else 0) := by
      by_cases e1 : siglist h.sig = i
      · cases e2 : (shouldRun sig h).1
        · simp [List.filter_cons, e1, e2]
        · simp [List.filter_cons, e1, e2, List.count_cons]
      · simp [List.filter_cons, e1]
    omega

theorem dispatch_shots (fatal : Nat → Bool) {l : Lists} {hs : List Hook} (ht : Table l hs) (sig : Nat) (fault : Bool) (f : Nat) (ho : ∀ h ∈ hs, h.fn = f → h.oneshot = true) :
    ∃ hs', Table (dispatch fatal l sig fault).lists hs' ∧ (∀ h ∈ hs', h.fn = f → h.oneshot = true) ∧
      (dispatch fatal l sig fault).calls.count f + shots f hs' ≤ shots f hs := by
  have keep : ∀ (i : Nat) {hs : List Hook}, (∀ h ∈ hs, h.fn = f → h.oneshot = true) → ∀ h ∈ hs.map (ran sig i), h.fn = f → h.oneshot = true := by
    intro i hs ho h hh hf
    obtain ⟨h', h1, h2⟩ := List.mem_map.1 hh
    subst h2
    rw [(ran_sig sig i h').2.2.1]
    exact ho h' h1 ((ran_sig sig i h').2.1 ▸ hf)
  unfold dispatch
  split
  · exact ⟨hs, ht, ho, by simp⟩
  · simp only [runHooks_eq]
    have h1 := ht.run sig (siglist sig)
    have h2 := run_shots f sig (siglist sig) ho
    split
    · refine ⟨_, h1.run sig (siglist 0), keep _ (keep _ ho), ?_⟩
      have h3 := run_shots f sig (siglist 0) (keep (siglist sig) ho)
      dsimp only
      rw [List.count_append, ht (siglist sig)]
      have h4 := h1 (siglist 0)
      dsimp only at h4
      rw [ht (siglist sig)] at h4
      rw [h4]
      omega
    · refine ⟨_, h1, keep _ ho, ?_⟩
      dsimp only
      rw [ht (siglist sig)]
      exact h2

theorem play_shots (fatal : Nat → Bool) (f : Nat) : ∀ (es : List Event) (x : Lists × List Nat) (hs : List Hook), Table x.1 hs → (∀ h ∈ hs, h.fn = f → h.oneshot = true) →
    (∀ h ∈ registered es, h.fn = f → h.oneshot = true) → (play fatal es x).2.count f ≤ x.2.count f + shots f hs + (registered es).countP (fun h => h.fn = f)
  | [], _, _, _, _, _ => by simp [play]; omega
  | .register h :: es, x, hs, ht, h1, h2 => by
    have h2 : ∀ h' ∈ h :: registered es, h'.fn = f → h'.oneshot = true := h2
    have := play_shots fatal f es (register x.1 h, x.2) (hs ++ [h]) (ht.register h) (by
      intro h' hh
      rcases List.mem_append.1 hh with hh | hh
      · exact h1 h' hh
      · exact h2 h' (by simp at hh; simp [hh])) (fun h' hh => h2 h' (List.mem_cons_of_mem _ hh))
    simp only [play, registered, List.countP_cons]
    have h3 : shots f (hs ++ [h]) ≤ shots f hs + (if decide (h.fn = f) = true then 1 else 0) := by
      unfold shots
      rw [List.countP_append, List.countP_singleton]
      by_cases e : h.fn = f
      · simp [e]; split <;> omega
      · simp [e]
    dsimp only at this
    omega
  | .signal sig fault :: es, x, hs, ht, h1, h2 => by
    obtain ⟨hs', h3, h4, h5⟩ := dispatch_shots fatal ht sig fault f h1
    have := play_shots fatal f es ((dispatch fatal x.1 sig fault).lists, x.2 ++ (dispatch fatal x.1 sig fault).calls) hs' h3 h4 h2
    simp only [play, registered]
    dsimp only at this
    rw [List.count_append] at this
    omega

end Verif.Sigdispatch
