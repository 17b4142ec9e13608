import Verif.Lemmas.Cache

/-!
# C24: the cache of open directories

`State.opened` are the directories that are open, `State.flight` are the requests that background
threads work on, `State.closing` is the number of directories that are being closed in the
background, and `State.capacity` is what the cache believes it may still open.
-/
namespace Verif.Props
open Verif.Cache

variable {e : Env} {s t : State}

/-- No assertion fails: nothing is opened twice, closed while it is pinned, unpinned too often, or
removed from a list that it is not in.  (In particular, `bftw_cache_add()` always finds room; its
error path would corrupt the count.) -/
theorem C24_safe (h : Reach e s) : s.bad = false := (inv_reach h).good

/-- The directories that are open, or being opened or closed in the background, and the remaining
capacity, never add up to more than the limit; they add up to exactly the limit unless the system
refused to open that many. -/
theorem C24_capacity (h : Reach e s) :
    s.opened.Nodup ∧
    s.opened.length + (s.flight.filter (·.2 = .opendir)).length + s.closing + s.capacity ≤ e.limit ∧
    (s.emfile = false → s.opened.length + (s.flight.filter (·.2 = .opendir)).length + s.closing + s.capacity = e.limit) := by
  have h := inv_reach h
  have h1 := h.count
  have h2 := h.exact_
  rw [List.countP_eq_length_filter] at h1
  simp only [List.countP_eq_length_filter] at h2
  exact ⟨h.nodup, by omega, fun hh => by have := h2 hh; omega⟩

/-- The directory that is being read, and the directories that a background request refers to, are
open and cannot be evicted. -/
theorem C24_in_use (h : Reach e s) (f : Id) (hf : s.cur = some f ∨ ∃ g op, (g, op) ∈ s.flight ∧ e.parent g = some f) : f ∈ s.opened ∧ f ∉ s.lru := by
  have h := inv_reach h
  have hp : s.pins f > 0 := by
    rw [h.pins]
    rcases hf with hf | ⟨g, op, hg, hpg⟩
    · rw [hf]
      simp
    · have : 0 < s.flight.countP (fun x => e.parent x.1 = some f) := List.countP_pos_iff.2 ⟨_, hg, by simpa using hpg⟩
      omega
  exact ⟨h.pinned f hp, fun hh => by have := ((h.lru f).1 hh).2; omega⟩

/-- Everything else that is open can be evicted. -/
theorem C24_candidates (h : Reach e s) (f : Id) (hf : f ∈ s.opened) (hc : s.cur ≠ some f) (hp : ∀ g op, (g, op) ∈ s.flight → e.parent g ≠ some f) :
    f ∈ s.lru := by
  have h := inv_reach h
  refine (h.lru f).2 ⟨hf, ?_⟩
  rw [h.pins]
  have h1 : s.flight.countP (fun x => e.parent x.1 = some f) = 0 := by
    rw [List.countP_eq_zero]
    intro x hx
    simpa using hp x.1 x.2 hx
  have h2 : s.cur.toList.count f = 0 := by
    cases hh : s.cur with
    | none => rfl
    | some g =>
      have : g ≠ f := by
        rintro rfl
        exact hc hh
      simp [this]
  omega

/-- Something is evicted only if there is no capacity left and nothing in flight that could free
some, unless the system refused to open a file; it was not pinned; and it was a root only if only
roots could be evicted. -/
theorem C24_evictions (h : Reach e s) {v : Eviction} (hv : v ∈ s.log) :
    (s.emfile = true ∨ (v.capacity = 0 ∧ v.flying = 0)) ∧ v.victim ∈ v.candidates ∧
    (e.parent v.victim = none → ∀ g ∈ v.candidates, e.parent g = none) :=
  ⟨(inv_reach h).why v hv, (inv_reach h).log v hv⟩

/-- With a limit of at least two (`bftw()` insists on it), the main thread always finds room to open
a directory relative to any open one, as long as the system allows as many files as it said. -/
theorem C24_room (h : Reach e s) (h2 : e.limit ≥ 2) (hc : s.cur = none) {base : Option Id} (hb : ∀ b, base = some b → b ∈ s.opened)
    (r : Reserve e (s.pinOpt base) t false) (he : s.emfile = false) : False := by
  have hi := (inv_reach h).pinOpt hb
  obtain ⟨r1, r2, r3, r4⟩ := reserve_full hi r
  obtain ⟨i, -, -⟩ := hi.reserve r
  have hem : t.emfile = false := by
    rw [reserve_emfile r, pinOpt_emfile]
    exact he
  have hx := i.exact_ hem
  rw [r1, r2, r3] at hx
  rw [hc] at r4
  have hlen : t.opened.length ≤ base.toList.length := i.nodup.length_le_of_subset (fun f hf => by simpa using r4 f hf)
  have : base.toList.length ≤ 1 := by cases base <;> simp
  simp at hx
  omega

/-- A file that is freed is not open afterwards. -/
theorem C24_freed (h : Reach e s) {f : Id} (hfl : ∀ op, (f, op) ∉ s.flight) (hch : ∀ g op, (g, op) ∈ s.flight → e.parent g ≠ some f)
    (hc : s.cur ≠ some f) (hf : f ∈ s.opened) (r : Close e s f t) : f ∉ t.opened :=
  ((inv_reach h).close (C24_candidates h f hf hc hch) r hfl).2.2

/-- When nothing is open or in flight, the cache is as it was at the start (so the assertions in
`bftw_cache_destroy()` hold). -/
theorem C24_end (h : Reach e s) (ho : s.opened = []) (hf : s.flight = []) (hc : s.closing = 0) :
    s.lru = [] ∧ s.target = none ∧ s.dirs = [] ∧ (s.emfile = false → s.capacity = e.limit) := by
  have h := inv_reach h
  have hl : s.lru = [] := by
    rw [List.eq_nil_iff_forall_not_mem]
    intro f hh
    have := ((h.lru f).1 hh).1
    rw [ho] at this
    cases this
  refine ⟨hl, ?_, ?_, fun he => ?_⟩
  · obtain ⟨a, b, hab, -, -, ht⟩ := h.shape
    rw [hl] at hab
    have := List.append_eq_nil_iff.1 hab.symm
    rw [ht, this.1]
    rfl
  · rw [List.eq_nil_iff_forall_not_mem]
    intro f hh
    have := h.dirs f hh
    rw [ho] at this
    cases this
  · have := h.exact_ he
    rw [ho, hf, hc] at this
    simpa using this

/-- A root with two children, and at most two open files. -/
def cacheEnv : Env := { parent := fun f => if f = 0 then none else some 0, unwrapdir := true, limit := 2 }

private theorem cacheIdle {f : Id} {l : List (Id × Op)} (h : l = []) : ∀ op, (f, op) ∉ l := fun op hh => by
  rw [h] at hh
  cases hh

private theorem cacheIdle' {f : Id} {l : List (Id × Op)} (h : l = []) : ∀ g op, (g, op) ∈ l → cacheEnv.parent g ≠ some f := fun g op hh => by
  rw [h] at hh
  cases hh

private theorem cacheBase {o : Option Id} {l : List Id} (h : o.all l.contains = true) : ∀ b, o = some b → b ∈ l := fun b hb => by
  rw [hb] at h
  simpa using h

/-- To open the second child, the first one is closed, not the root. -/
theorem cacheEnv_run : ∃ s, Reach cacheEnv s ∧ s.opened = [0, 2] ∧ s.lru = [0, 2] ∧ s.log = [⟨1, [1], 0, 0⟩] ∧ s.emfile = false ∧ s.cur = none := by
  have r := Reach.init (e := cacheEnv)
  have r := Reach.step r (.open_ 0 none rfl (by decide) (cacheIdle rfl) (cacheBase (by decide)) (.tried .ok .ok (.now _ (by decide))))
  have r := Reach.step r (.fdopendir 0 (by decide) (by decide))
  have r := Reach.step r (.enter 0 rfl (by decide))
  have r := Reach.step r (.leave 0 rfl)
  have r := Reach.step r (.open_ 1 (some 0) rfl (by decide) (cacheIdle rfl) (cacheBase (by decide)) (.tried .ok .ok (.now _ (by decide))))
  have r := Reach.step r (.open_ 2 (some 0) rfl (by decide) (cacheIdle rfl) (cacheBase (by decide))
    (.tried .ok .ok (.evict (by decide) (.nil _) (by decide) rfl rfl (by decide))))
  exact ⟨_, r, rfl, rfl, by decide, rfl, rfl⟩

/-- A request in the background while the root is being read; then everything is closed again. -/
theorem cacheEnv_flight : (∃ s, Reach cacheEnv s ∧ s.cur = some 0 ∧ s.flight = [(1, .opendir)] ∧ s.capacity = 0) ∧
    ∃ s, Reach cacheEnv s ∧ s.opened = [] ∧ s.flight = [] ∧ s.closing = 0 ∧ s.lru = [] ∧ s.capacity = 2 := by
  have r := Reach.init (e := cacheEnv)
  have r := Reach.step r (.open_ 0 none rfl (by decide) (cacheIdle rfl) (cacheBase (by decide)) (.tried .ok .ok (.now _ (by decide))))
  have r := Reach.step r (.fdopendir 0 (by decide) (by decide))
  have r := Reach.step r (.enter 0 rfl (by decide))
  have r1 := Reach.step r (.opendir 1 true true (cacheIdle rfl) (by decide) (cacheBase (by decide)) (.now _ (by decide)))
  refine ⟨⟨_, r1, rfl, rfl, rfl⟩, ?_⟩
  have r := Reach.step r1 (.response (.failed 1 (by decide)))
  have r := Reach.step r (.leave 0 rfl)
  have r := Reach.step r (.free 0 (cacheIdle rfl) (cacheIdle' rfl) (by decide) (by decide) (.mk (.mk true (.nil _))))
  have r := Reach.step r (.response (.close (by decide)))
  exact ⟨_, r, rfl, rfl, rfl, rfl, rfl⟩

end Verif.Props
