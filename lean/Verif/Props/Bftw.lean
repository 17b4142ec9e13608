import Verif.Lemmas.BftwOrder
/-!
# Walking a file hierarchy

`Reach e s`: the walk can get to `s`, whatever the order in which I/O operations complete, and
wherever memory allocation fails.  `s.trace` are the calls of the callback so far, newest first.
-/
namespace Verif.Props
open Verif.Bftw

variable {e : Env} {s : State}

/-! ## C18 -/

theorem legal_split {ev : Event} {earlier : List Event} : ∀ {later : List Event}, Legal e (later ++ ev :: earlier) → EvOk e earlier ev
  | [], h => h.1
  | _ :: later, h => legal_split (later := later) h.2

theorem legal_suffix {earlier : List Event} : ∀ {later : List Event}, Legal e (later ++ earlier) → Legal e earlier
  | [], h => h
  | _ :: later, h => legal_suffix (later := later) h.2

theorem visits_append (v : Visit) (a b : List Event) : visits v (a ++ b) = visits v a ++ visits v b := by
  unfold visits; rw [List.filter_append, List.map_append]

theorem entered_append (a b : List Event) : entered (a ++ b) = entered a ++ entered b := by
  unfold entered; rw [List.filter_append, List.map_append]

theorem entered_split : ∀ {tr : List Event} {p : Pos}, p ∈ entered tr →
    ∃ later ev earlier, tr = later ++ ev :: earlier ∧ ev.visit = .pre ∧ ev.action = .cont ∧ ev.pos = p
  | [], p, h => by cases h
  | x :: tr, p, h => by
    rw [entered_cons] at h
    have rest : p ∈ entered tr → ∃ later ev earlier, x :: tr = later ++ ev :: earlier ∧ ev.visit = .pre ∧ ev.action = .cont ∧ ev.pos = p := by
      intro h
      obtain ⟨l, ev, r, h1, h2⟩ := entered_split h
      exact ⟨x :: l, ev, r, by rw [h1]; rfl, h2⟩
    split at h
    · rename_i hx
      rcases List.mem_cons.1 h with h | h
      · exact ⟨[], x, tr, rfl, hx.1, hx.2, h.symm⟩
      · exact rest h
    · exact rest h

theorem legal_ancestors : ∀ (tr : List Event) (p q : Pos), Legal e tr → p ∈ entered tr → q <:+ p → q ≠ [] → q ∈ entered tr
  | tr, [], q, _, _, hs, hq => absurd (List.suffix_nil.1 hs) hq
  | tr, i :: p, q, h, hp, hs, hq => by
    rcases List.suffix_cons_iff.1 hs with hs | hs
    · rw [hs]; exact hp
    · obtain ⟨l, ev, r, h1, _, _, h4⟩ := entered_split hp
      subst h1
      have hpar := (legal_split h).parent
      rw [h4] at hpar
      rcases hpar with hpar | hpar
      · have hpar : p = [] := hpar
        rw [hpar] at hs
        exact absurd (List.suffix_nil.1 hs) hq
      · have hpar : p ∈ entered r := hpar
        refine legal_ancestors _ p q h ?_ hs hq
        rw [entered_append, List.mem_append, entered_cons]
        right
        split
        · exact List.mem_cons_of_mem _ hpar
        · exact hpar

theorem visits_iff {v : Visit} {tr : List Event} {p : Pos} : p ∈ visits v tr ↔ ∃ ev ∈ tr, ev.visit = v ∧ ev.pos = p := by
  unfold visits
  rw [List.mem_map]
  constructor
  · rintro ⟨ev, h1, h2⟩
    have h1 := List.mem_filter.1 h1
    exact ⟨ev, h1.1, by simpa using h1.2, h2⟩
  · rintro ⟨ev, h1, h2, h3⟩
    exact ⟨ev, List.mem_filter.2 ⟨h1, by simpa using h2⟩, h3⟩

theorem entered_found (tr : List Event) (h : Legal e tr) : ∀ p, p ∈ entered tr → Found e (· ∈ entered tr) p
  | [], hp => by
    obtain ⟨l, ev, r, h1, _, _, h4⟩ := entered_split hp
    subst h1
    exact absurd h4 (inb_ne (legal_split h).inb)
  | [i], hp => by
    obtain ⟨l, ev, r, h1, _, _, h4⟩ := entered_split hp
    subst h1
    have := (legal_split h).inb
    rw [h4] at this
    exact Found.root i this
  | j :: i :: p, hp => by
    have hpar := legal_ancestors tr _ (i :: p) h hp (List.suffix_cons _ _) (by simp)
    obtain ⟨l, ev, r, h1, _, _, h4⟩ := entered_split hp
    have hi : e.inb ev.pos := by subst h1; exact (legal_split h).inb
    rw [h4] at hi
    exact Found.entry _ j (entered_found tr h _ hpar) hpar hi

/-- In every state that can be reached, no assertion has failed, no file was used after it was
freed, and none was freed twice. -/
theorem C18_safe (hN : e.Named) (h : Reach e s) : s.bad = false := (inv_reach hN h).bad

/-- No file is visited twice. -/
theorem C18_once (hN : e.Named) (h : Reach e s) (v : Visit) : (visits v s.trace).Nodup := (inv_reach hN h).legal.nodup

/-- Before anything in a directory is visited, the directory is, and the callback said to go into
it. -/
theorem C18_directories_first (hN : e.Named) (h : Reach e s) {later earlier : List Event} {ev : Event} (ht : s.trace = later ++ ev :: earlier)
    {dir : Pos} (hd : dir ≠ []) (hne : dir ≠ ev.pos) (hs : dir <:+ ev.pos) : dir ∈ entered earlier := by
  have hl := (inv_reach hN h).legal
  rw [ht] at hl
  have hok := legal_split hl
  have hle := (legal_suffix hl).2
  cases hp : ev.pos with
  | nil => exact absurd hp (inb_ne hok.inb)
  | cons j p =>
    rw [hp] at hs hne
    have hs := (List.suffix_cons_iff.1 hs).resolve_left hne
    have hpar := hok.parent
    rw [hp] at hpar
    rcases hpar with hpar | hpar
    · have hpar : p = [] := hpar
      rw [hpar] at hs
      exact absurd (List.suffix_nil.1 hs) hd
    · exact legal_ancestors earlier p dir hle hpar hs hd

/-- Only files below the roots are visited. -/
theorem C18_sound (hN : e.Named) (h : Reach e s) {v : Visit} {p : Pos} (hp : p ∈ visits v s.trace) : Found e (· ∈ entered s.trace) p := by
  have hl := (inv_reach hN h).legal
  obtain ⟨ev, h1, h2, h3⟩ := visits_iff.1 hp
  obtain ⟨a, b, h4⟩ := List.append_of_mem h1
  rw [h4] at hl
  have hok := legal_split hl
  rw [← h4] at hl
  have hpar := hok.parent
  have hi := hok.inb
  rw [h3] at hpar hi
  match p, hi, hpar with
  | [i], hi, _ => exact Found.root i hi
  | j :: i :: p, hi, hpar =>
    have hpar : i :: p ∈ entered b := hpar.resolve_left (by simp)
    have hpar : i :: p ∈ entered s.trace := by
      rw [h4, entered_append, List.mem_append, entered_cons]
      right
      split
      · exact List.mem_cons_of_mem _ hpar
      · exact hpar
    exact Found.entry _ j (entered_found _ hl _ hpar) hpar hi

/-- When the walk is complete, the files that have been visited are exactly those below the
directories that the callback said to go into, except for mount points with
`BFTW_SKIP_MOUNTS`. -/
theorem C18_complete (hN : e.Named) (h : Reach e s) (hd : s.pc = .done) (p : Pos) :
    p ∈ visits .pre s.trace ↔ Found e (· ∈ entered s.trace) p ∧ e.skipped p = false := by
  obtain ⟨G, hl, hfq, hdq, hf⟩ := final hN h hd
  rw [← final_mem hd hl hdq hf]
  constructor
  · intro hp
    obtain ⟨_, _, _, _, h1, _⟩ := hl.core.legal.visit_mem hp
    exact ⟨hl.core.gvis p hp, h1⟩
  · rintro ⟨hp, hs⟩
    rcases hl.seen p hp with h | h | h | h
    · exact h
    · rw [hs] at h; cases h
    · rw [hfq] at h; cases h
    · rw [hd] at h; cases h.1

theorem found_mono {into into' : Pos → Prop} (hi : ∀ q, Found e into q → into q → into' q) {p : Pos} (h : Found e into p) : Found e into' p := by
  induction h with
  | root i h => exact Found.root i h
  | entry p j hp hi' hj ih => exact Found.entry p j ih (hi p hp hi') hj

/-- A walk that is not pruned or stopped visits everything. -/
theorem C18_everything (hN : e.Named) (hc : ∀ tr v p path, e.callback tr v p path = .cont) (hs : e.skipMounts = false) (hp : e.pruneMounts = false)
    (h : Reach e s) (hd : s.pc = .done) (p : Pos) : p ∈ visits .pre s.trace ↔ Found e (fun q => e.isDir q = true) p := by
  have hl := (inv_reach hN h).legal
  have hsk : ∀ q, e.skipped q = false := fun q => by unfold Env.skipped; rw [hs]; rfl
  rw [C18_complete hN h hd, hsk, and_iff_left rfl]
  constructor
  · exact found_mono fun q _ hq => hl.entered_dir hq
  · intro hf
    induction hf with
    | root i hi => exact Found.root i hi
    | entry p j hpf hdir hj ih =>
      refine Found.entry p j ih ?_ hj
      have hvis : p ∈ visits .pre s.trace := (C18_complete hN h hd p).2 ⟨ih, hsk p⟩
      obtain ⟨ev, h1, h2, h3⟩ := visits_iff.1 hvis
      obtain ⟨a, b, h4⟩ := List.append_of_mem h1
      rw [h4] at hl
      have hact := (legal_split hl).action
      rw [hc, h2, h3] at hact
      unfold Env.adjust at hact
      rw [hdir, hp] at hact
      rw [h4, entered_append, List.mem_append, entered_cons, if_pos ⟨h2, hact⟩, h3]
      exact Or.inr List.mem_cons_self

/-- A walk never hangs: something can always happen, until it is over. -/
theorem C18_progress (hN : e.Named) (h : Reach e s) (h1 : s.pc ≠ .done) (h2 : s.pc ≠ .stopped) : ∃ s', Step e s s' := progress hN h h1 h2

/-- A walk through a finite hierarchy ends: not more than some number of things can happen. -/
theorem C18_terminates (hN : e.Named) (files : List Pos) (hU : ∀ p, Found e (fun q => e.isDir q = true) p → p ∈ files) {n : Nat} (h : Run e n s) :
    n ≤ 14 * files.length + 4 := by
  have key : ∃ B, B + n = 14 * files.length + 4 ∧ Budget e files B s := by
    induction h with
    | init => exact ⟨_, rfl, Budget.init e files⟩
    | step _ hs ih =>
      obtain ⟨B, h1, h2⟩ := ih
      obtain ⟨B', h3, h4⟩ := h2.step hN (fun _ hl p hp => hU p (hl.found_dir p hp)) hs
      exact ⟨B', by omega, h4⟩
    | fail _ h1 h2 ih =>
      obtain ⟨B, h3, h4⟩ := ih
      obtain ⟨B', h5, h6⟩ := h4.fail h1 h2
      exact ⟨B', by omega, h6⟩
  obtain ⟨B, h1, _⟩ := key
  omega

/-! ## C19 -/

/-- After a post-order visit, nothing in that directory is visited, and neither is it. -/
theorem C19_last (hN : e.Named) (h : Reach e s) {later earlier : List Event} {ev : Event} (ht : s.trace = later ++ ev :: earlier)
    (hv : ev.visit = .post) : ∀ x ∈ later, ¬ ev.pos <:+ x.pos := by
  intro x hx
  obtain ⟨a, b, h1⟩ := List.append_of_mem hx
  have hl := (inv_reach hN h).legal
  rw [ht, h1, List.append_assoc, List.cons_append] at hl
  refine (legal_split hl).done ev.pos ?_
  rw [visits_append, List.mem_append, visits_cons, if_pos hv]
  exact Or.inr List.mem_cons_self

/-- When the walk is complete, exactly the directories that were gone into have had their
post-order visits (once, by `C18_once`). -/
theorem C19_exactly (hN : e.Named) (hp : e.post = true) (h : Reach e s) (hd : s.pc = .done) (p : Pos) :
    p ∈ visits .post s.trace ↔ p ∈ entered s.trace := by
  obtain ⟨G, hl, hfq, hdq, hf⟩ := final hN h hd
  exact ⟨hl.core.legal.post_entered .post (by simp) p, fun hh => hl.core.posts rfl hp p hh (final_refs hl hfq hdq hf p)⟩

/-- In particular, the directories that can be gone into, if the walk is not pruned or stopped. -/
theorem C19_everything (hN : e.Named) (hc : ∀ tr v p path, e.callback tr v p path = .cont) (hs : e.skipMounts = false) (hpm : e.pruneMounts = false)
    (hp : e.post = true) (h : Reach e s) (hd : s.pc = .done) (p : Pos) :
    p ∈ visits .post s.trace ↔ Found e (fun q => e.isDir q = true) p ∧ e.isDir p = true := by
  have hl := (inv_reach hN h).legal
  rw [C19_exactly hN hp h hd, ← C18_everything hN hc hs hpm h hd]
  refine ⟨fun hh => ⟨entered_sub _ _ hh, hl.entered_dir hh⟩, fun ⟨h1, h2⟩ => ?_⟩
  obtain ⟨ev, h3, h4, h5⟩ := visits_iff.1 h1
  obtain ⟨a, b, h6⟩ := List.append_of_mem h3
  rw [h6] at hl
  have hact := (legal_split hl).action
  rw [hc, h4, h5] at hact
  unfold Env.adjust at hact
  rw [h2, hpm] at hact
  rw [h6, entered_append, List.mem_append, entered_cons, if_pos ⟨h4, hact⟩, h5]
  exact Or.inr List.mem_cons_self

/-- Without `BFTW_POST_ORDER` there are none. -/
theorem C19_none (hN : e.Named) (hp : e.post = false) (h : Reach e s) : visits .post s.trace = [] := by
  have hl := (inv_reach hN h).legal
  refine List.eq_nil_iff_forall_not_mem.2 fun p hpp => ?_
  obtain ⟨ev, h1, h2, _⟩ := visits_iff.1 hpp
  obtain ⟨a, b, h3⟩ := List.append_of_mem h1
  rw [h3] at hl
  have := (legal_split hl).post h2
  rw [hp] at this; cases this

/-! ## C21 -/

/-- What becomes of the callback's answer: only directories can be gone into, and not those on
other file systems with `BFTW_PRUNE_MOUNTS`. -/
theorem C21_decision (hN : e.Named) (h : Reach e s) {later earlier : List Event} {ev : Event} (ht : s.trace = later ++ ev :: earlier) :
    let answer := e.callback earlier ev.visit ev.pos ev.path
    (ev.action = .stop ↔ answer = .stop) ∧
    (ev.action = .cont ↔ answer = .cont ∧ ev.visit = .pre ∧ e.isDir ev.pos = true ∧ ¬ (e.pruneMounts = true ∧ ev.pos.tail ≠ [] ∧ e.mount ev.pos = true)) := by
  have hl := (inv_reach hN h).legal
  rw [ht] at hl
  have hact := (legal_split hl).action
  intro answer
  rw [hact]
  refine ⟨adjust_stop, ?_⟩
  show e.adjust ev.visit ev.pos answer = .cont ↔ _
  cases answer
  · unfold Env.adjust Env.isMount
    cases ev.visit <;> cases e.isDir ev.pos <;> cases e.pruneMounts <;> cases ev.pos.tail <;> cases e.mount ev.pos <;> simp
  · simp [Env.adjust]
  · simp [Env.adjust]

/-- Nothing below a directory that is not gone into is ever visited. -/
theorem C21_pruned (hN : e.Named) (h : Reach e s) {ev : Event} (hev : ev ∈ s.trace) (hv : ev.visit = .pre) (ha : ev.action ≠ .cont)
    {p : Pos} (hs : ev.pos <:+ p) (hne : p ≠ ev.pos) (v : Visit) : p ∉ visits v s.trace := by
  intro hp
  obtain ⟨x, h1, h2, h3⟩ := visits_iff.1 hp
  obtain ⟨a, b, h4⟩ := List.append_of_mem h1
  have hl := (inv_reach hN h).legal
  have hpne : ev.pos ≠ [] := by
    obtain ⟨c, d, h5⟩ := List.append_of_mem hev
    rw [h5] at hl
    exact inb_ne (legal_split hl).inb
  have hent := C18_directories_first hN h h4 hpne (by rw [h3]; exact fun hh => hne hh.symm) (by rw [h3]; exact hs)
  have hent : ev.pos ∈ entered s.trace := by
    rw [h4, entered_append, List.mem_append, entered_cons]
    right; split
    · exact List.mem_cons_of_mem _ hent
    · exact hent
  -- the event that entered it is another one
  obtain ⟨l, y, r, h5, h6, h7, h8⟩ := entered_split hent
  have hn := C18_once hN h .pre
  rw [h5, visits_append, visits_cons, if_pos h6] at hn
  have hn := List.nodup_append.1 hn
  rw [h5] at hev
  rcases List.mem_append.1 hev with hev | hev
  · exact hn.2.2 _ (visits_iff.2 ⟨ev, hev, hv, rfl⟩) _ List.mem_cons_self h8.symm
  · rcases List.mem_cons.1 hev with hev | hev
    · rw [hev] at ha; exact ha h7
    · exact (List.nodup_cons.1 hn.2.1).1 (visits_iff.2 ⟨ev, hev, hv, h8.symm⟩)

/-- When the walk is complete, all other files have been visited: all the roots, and everything
directly in a directory that was gone into, except for mount points with `BFTW_SKIP_MOUNTS`. -/
theorem C21_exact (hN : e.Named) (h : Reach e s) (hd : s.pc = .done) :
    (∀ i, [i] ∈ visits .pre s.trace ↔ i < e.roots) ∧
    (∀ j p, p ≠ [] → (j :: p ∈ visits .pre s.trace ↔ p ∈ entered s.trace ∧ j < e.entries p ∧ ¬ (e.skipMounts = true ∧ e.mount (j :: p) = true))) := by
  have hl := (inv_reach hN h).legal
  constructor
  · intro i
    rw [C18_complete hN h hd]
    have : e.skipped [i] = false := by simp [Env.skipped, Env.isMount]
    rw [this, and_iff_left rfl]
    constructor
    · intro hh
      cases hh with
      | root _ hi => exact hi
      | entry _ _ hp _ _ => cases hp
    · exact Found.root i
  · intro j p hp
    rw [C18_complete hN h hd]
    have hsk : e.skipped (j :: p) = false ↔ ¬ (e.skipMounts = true ∧ e.mount (j :: p) = true) := by
      unfold Env.skipped Env.isMount
      cases p with
      | nil => exact absurd rfl hp
      | cons a p => cases e.skipMounts <;> cases e.mount (j :: a :: p) <;> simp
    rw [hsk]
    constructor
    · rintro ⟨hf, h2⟩
      cases hf with
      | root _ _ => exact absurd rfl hp
      | entry _ _ _ h3 h4 => exact ⟨h3, h4, h2⟩
    · rintro ⟨h1, h2, h3⟩
      exact ⟨Found.entry p j (entered_found _ hl p h1) h1 h2, h3⟩

/-- After the callback stops the walk, it is not called again, and the walk does not go on. -/
theorem C21_stop (hN : e.Named) (h : Reach e s) {later earlier : List Event} {ev : Event} (ht : s.trace = later ++ ev :: earlier)
    (ha : ev.action = .stop) : later = [] ∧ s.pc = .stopped := by
  have hi := inv_reach hN h
  refine ⟨?_, ?_⟩
  · have hl := hi.legal
    rw [ht] at hl
    cases hlat : later.reverse with
    | nil => simpa using hlat
    | cons x l =>
      have hlat : later = l.reverse ++ [x] := by
        have := congrArg List.reverse hlat
        simpa using this
      rw [hlat, List.append_assoc, List.singleton_append] at hl
      exact absurd ha ((legal_split hl).running ev List.mem_cons_self)
  · refine Classical.byContradiction fun hn => ?_
    obtain ⟨G, hl⟩ := hi.live hn
    exact hl.core.run rfl ev (by rw [ht]; simp) ha

/-! ## C22 -/

/-- Sorting gives a permutation that is sorted, and in which files with equal names stay in
order. -/
theorem C22_sort {le : Bytes → Bytes → Bool} (ht : ∀ a b, le a b = true ∨ le b a = true) (hr : ∀ a b c, le a b = true → le b c = true → le a c = true)
    (name : Pos → Bytes) (l : List Pos) :
    (listSort le name l).Perm l ∧ (listSort le name l).Pairwise (fun a b => le (name a) (name b) = true) ∧
      ∀ k, (listSort le name l).filter (fun x => le k (name x) && le (name x) k) = l.filter (fun x => le k (name x) && le (name x) k) :=
  ⟨listSort_perm l, sortFuel_spec ht hr l.length l (Nat.le_refl _)⟩

/-- With `BFTW_SORT`, at any time the files that have been visited in any directory were visited in
order, whatever the strategy and the number of threads.  (`C21_exact` says which files these are.) -/
theorem C22_visits (hN : e.Named) (hs : e.sort = true) (ht : ∀ a b, e.le a b = true ∨ e.le b a = true)
    (hr : ∀ a b c, e.le a b = true → e.le b c = true → e.le a c = true) (h : Reach e s) : (visits .pre s.trace).reverse.Pairwise (Before e) :=
  (ord_reach hN hs ht hr h).visited

/-! ## C23 -/

/-- The path that the callback is given. -/
theorem C23_path (hN : e.Named) (h : Reach e s) {ev : Event} (hev : ev ∈ s.trace) : ev.path = e.fullPath ev.pos := by
  obtain ⟨a, b, h1⟩ := List.append_of_mem hev
  have hl := (inv_reach hN h).legal
  rw [h1] at hl
  exact (legal_split hl).path

/-- It is that of the directory it is in, a slash if there is none, and the name. -/
theorem C23_join (e : Env) (j : Nat) (p : Pos) (hp : p ≠ []) :
    ∃ slash : Bytes, e.fullPath (j :: p) = e.fullPath p ++ slash ++ e.name (j :: p) ∧ (slash = [] ↔ (e.fullPath p).getLast? = some 47) ∧
      (slash = [] ∨ slash = [47]) := by
  cases p with
  | nil => exact absurd rfl hp
  | cons i p =>
    show ∃ slash : Bytes, join (e.fullPath (i :: p)) (e.name (j :: i :: p)) = _ ∧ _
    unfold join
    by_cases h : (e.fullPath (i :: p)).getLast? = some 47
    · rw [if_pos h]; exact ⟨[], by simp, by simp [h], Or.inl rfl⟩
    · rw [if_neg h]; exact ⟨[47], by simp, by simp [h], Or.inr rfl⟩

/-- Building a path does not depend on the file before: whatever is in the buffer, as long as it
begins with the path of the last file. -/
theorem C23_build {name : Option Nat} (hne : target s.file name ≠ []) (hc : e.Chain (target s.file name)) (hp : s.prev = [] ∨ s.file ≠ [])
    (hpre : e.fullPath s.prev <+: s.path) : (s.buildPath e name).path = e.fullPath (target s.file name) ∧ e.fullPath (s.buildPath e name).prev <+: (s.buildPath e name).path := by
  rw [buildPath_spec rfl hne hc hp hpre]
  refine ⟨rfl, fullPath_prefix e ?_⟩
  cases name with
  | none => exact List.suffix_refl _
  | some j => exact List.suffix_cons _ _

/-! ## C61 -/

/-- When the walk is complete, exactly the directories that could not be read have been reported
(once, by `C18_once`). -/
theorem C61_errors (hN : e.Named) (h : Reach e s) (hd : s.pc = .done) (p : Pos) :
    p ∈ visits .err s.trace ↔ p ∈ entered s.trace ∧ e.broken p = true := by
  obtain ⟨G, hl, hfq, hdq, hf⟩ := final hN h hd
  constructor
  · intro hp
    refine ⟨hl.core.legal.post_entered .err (by simp) p hp, ?_⟩
    obtain ⟨ev, h1, h2, h3⟩ := visits_iff.1 hp
    obtain ⟨a, b, h4⟩ := List.append_of_mem h1
    have hle := hl.core.legal
    rw [h4] at hle
    rw [← h3]; exact (legal_split hle).broken h2
  · rintro ⟨h1, h2⟩
    rcases hl.errs' p h1 h2 with h | h | h
    · exact h
    · rw [hdq] at h; cases h
    · rw [hd] at h; exact absurd h.2 id

/-- When the walk is complete, no memory is left over: the reference counts of all files are 0. -/
theorem C61_freed (hN : e.Named) (h : Reach e s) (hd : s.pc = .done) (p : Pos) : s.refs p = 0 := by
  obtain ⟨G, hl, hfq, hdq, hf⟩ := final hN h hd
  exact final_refs hl hfq hdq hf p

/-! ## Examples -/

/-- A root `a` with a directory `y` and a file `x` in it, and a file `z` in `y`. -/
def walkEnv : Env where
  roots := 1
  name := fun p => match p with
    | [0] => [97]
    | [0, 0] => [121]
    | [1, 0] => [120]
    | _ => [122]
  entries := fun p => match p with
    | [0] => 2
    | [0, 0] => 1
    | _ => 0
  isDir := fun p => match p with
    | [0] => true
    | [0, 0] => true
    | _ => false
  error := fun _ => false
  broken := fun _ => false
  mount := fun _ => false
  callback := fun _ _ _ _ => .cont
  le := fun a b => decide (a ≤ b)
  path0 := []
  junk := fun _ _ => 255
  post := true
  sort := true
  skipMounts := false
  pruneMounts := false
  buffer := false
  stat := false
  strategy := .bfs
  nthreads := 0

theorem walkEnv_named : walkEnv.Named := by
  intro p
  simp only [walkEnv]
  split <;> split <;> simp

theorem walkEnv_run : ∃ s, Reach walkEnv s ∧ s.pc = .done ∧ s.trace.reverse.map (fun ev => (ev.visit, ev.pos, ev.path)) =
    [(.pre, [0], [97]), (.pre, [1, 0], [97, 47, 120]), (.pre, [0, 0], [97, 47, 121]), (.pre, [0, 0, 0], [97, 47, 121, 47, 122]),
     (.post, [0, 0], [97, 47, 121]), (.post, [0], [97])] := by
  have r := Reach.init (e := walkEnv)
  have r := Reach.step r (.root 0 true rfl (by decide) ⟨fun _ => rfl, fun h => by cases h⟩)
  have r := Reach.step r (.rooted 1 rfl (by decide))
  have r := Reach.step r (.choose rfl)
  have r := Reach.step r (.popFile rfl (by decide) rfl)
  have r := Reach.step r (.visit rfl (by decide))
  have r := Reach.step r (.choose rfl)
  have r := Reach.step r (.popDir rfl (by decide) rfl)
  have r := Reach.step r (.open_ true rfl (by decide))
  have r := Reach.step r (.entry 0 true rfl (by decide) ⟨fun _ => rfl, fun h => by cases h⟩)
  have r := Reach.step r (.entry 1 true rfl (by decide) ⟨fun _ => rfl, fun h => by cases h⟩)
  have r := Reach.step r (.close 2 rfl (by decide))
  have r := Reach.step r (.choose rfl)
  have r := Reach.step r (.popFile rfl (by decide) rfl)
  have r := Reach.step r (.visit rfl (by decide))
  have r := Reach.step r (.choose rfl)
  have r := Reach.step r (.popFile rfl (by decide) rfl)
  have r := Reach.step r (.visit rfl (by decide))
  have r := Reach.step r (.choose rfl)
  have r := Reach.step r (.popDir rfl (by decide) rfl)
  have r := Reach.step r (.open_ true rfl (by decide))
  have r := Reach.step r (.entry 0 true rfl (by decide) ⟨fun _ => rfl, fun h => by cases h⟩)
  have r := Reach.step r (.close 1 rfl (by decide))
  have r := Reach.step r (.choose rfl)
  have r := Reach.step r (.popFile rfl (by decide) rfl)
  have r := Reach.step r (.visit rfl (by decide))
  have r := Reach.step r (.choose rfl)
  have r := Reach.step r (.noDir rfl rfl)
  have r := Reach.step r (.noFile rfl rfl)
  exact ⟨_, r, rfl, rfl⟩

/-- So there is a complete walk of which `C18_everything`, `C19_everything`, `C22_visits` and
`C23_path` speak. -/
example : ∃ s, Reach walkEnv s ∧ s.pc = .done ∧ visits .pre s.trace = [[0, 0, 0], [0, 0], [1, 0], [0]] ∧ visits .post s.trace = [[0], [0, 0]] ∧
    Found walkEnv (fun q => walkEnv.isDir q = true) [0, 0, 0] := by
  obtain ⟨s, h1, h2, h3⟩ := walkEnv_run
  have h4 : s.trace.map (fun ev => (ev.visit, ev.pos, ev.path)) = [(.post, [0], [97]), (.post, [0, 0], [97, 47, 121]), (.pre, [0, 0, 0], [97, 47, 121, 47, 122]),
      (.pre, [0, 0], [97, 47, 121]), (.pre, [1, 0], [97, 47, 120]), (.pre, [0], [97])] := by
    have := congrArg List.reverse h3
    rw [← List.map_reverse, List.reverse_reverse] at this
    exact this
  have key : ∀ v, visits v s.trace = ((s.trace.map (fun ev => (ev.visit, ev.pos, ev.path))).filter (fun x => x.1 = v)).map (fun x => x.2.1) := by
    intro v
    unfold visits
    rw [List.filter_map, List.map_map]
    rfl
  refine ⟨s, h1, h2, by rw [key, h4]; rfl, by rw [key, h4]; rfl, ?_⟩
  exact .entry [0, 0] 0 (.entry [0] 0 (.root 0 (by decide)) rfl (by decide)) rfl (by decide)

example : ∀ a b, walkEnv.le a b = true ∨ walkEnv.le b a = true := fun a b => by
  simp only [walkEnv, decide_eq_true_eq]
  exact Std.le_total

/-- Two files that are looked at by two threads, and the callback stops at the second. -/
def threadEnv : Env := 
  { walkEnv with roots := 2, isDir := fun _ => false, sort := false, stat := true, nthreads := 2, callback := fun tr _ _ _ => if tr = [] then .prune else .stop }

/-- Their visits can come in either order. -/
theorem threadEnv_run : ∃ s, Reach threadEnv s ∧ s.pc = .stopped ∧ s.trace.map (fun ev => (ev.pos, ev.action)) = [([0], .stop), ([1], .prune)] := by
  have r := Reach.init (e := threadEnv)
  have r := Reach.step r (.root 0 true rfl (by decide) ⟨fun _ => rfl, fun h => by cases h⟩)
  have r := Reach.step r (.root 1 true rfl (by decide) ⟨fun _ => rfl, fun h => by cases h⟩)
  have r := Reach.step r (.rooted 2 rfl (by decide))
  have r := Reach.step r (.stat [0] (by decide) rfl)
  have r := Reach.step r (.stat [1] (by decide) rfl)
  have r := Reach.step r (.statDone [1] (by decide))
  have r := Reach.step r (.choose rfl)
  have r := Reach.step r (.popFile rfl (by decide) rfl)
  have r := Reach.step r (.visit rfl (by decide))
  have r := Reach.step r (.statDone [0] (by decide))
  have r := Reach.step r (.choose rfl)
  have r := Reach.step r (.popFile rfl (by decide) rfl)
  have r := Reach.step r (.visit rfl (by decide))
  exact ⟨_, r, rfl, rfl⟩

/-- `y` is pruned, and `a` cannot be read to its end. -/
def pruneEnv : Env :=
  { walkEnv with sort := false, callback := fun _ _ p _ => if p = [0, 0] then .prune else .cont, broken := fun p => p = [0] }

theorem pruneEnv_run : ∃ s, Reach pruneEnv s ∧ s.pc = .done ∧ s.trace.map (fun ev => (ev.visit, ev.pos, ev.action)) =
    [(.post, [0], .prune), (.err, [0], .prune), (.pre, [1, 0], .prune), (.pre, [0, 0], .prune), (.pre, [0], .cont)] := by
  have r := Reach.init (e := pruneEnv)
  have r := Reach.step r (.root 0 false rfl (by decide) ⟨fun h => (by cases h), fun _ _ => rfl⟩)
  have r := Reach.step r (.rooted 1 rfl (by decide))
  have r := Reach.step r (.choose rfl)
  have r := Reach.step r (.popDir rfl (by decide) rfl)
  have r := Reach.step r (.open_ true rfl (by decide))
  have r := Reach.step r (.entry 0 false rfl (by decide) ⟨fun h => (by cases h), fun _ _ => rfl⟩)
  have r := Reach.step r (.entry 1 false rfl (by decide) ⟨fun h => (by cases h), fun _ _ => rfl⟩)
  have r := Reach.step r (.close 2 rfl (by decide))
  have r := Reach.step r (.choose rfl)
  have r := Reach.step r (.noDir rfl rfl)
  have r := Reach.step r (.noFile rfl rfl)
  exact ⟨_, r, rfl, rfl⟩

end Verif.Props
