import Verif.Lemmas.BftwPath
/-! # Reference counts, and which calls of the callback are allowed -/
namespace Verif.Bftw

/-- The position exists. -/
def Env.inb (e : Env) : Pos → Prop
  | [] => False
  | [i] => i < e.roots
  | j :: p => j < e.entries p

/-- A call that is allowed after some others. -/
structure EvOk (e : Env) (tr : List Event) (ev : Event) : Prop where
  running : ∀ x ∈ tr, x.action ≠ .stop
  path : ev.path = e.fullPath ev.pos
  action : ev.action = e.adjust ev.visit ev.pos (e.callback tr ev.visit ev.pos ev.path)
  inb : e.inb ev.pos
  parent : ev.pos.tail = [] ∨ ev.pos.tail ∈ entered tr
  fresh : ev.pos ∉ visits ev.visit tr
  dir : ev.visit ≠ .pre → ev.pos ∈ entered tr
  done : ∀ q ∈ visits .post tr, ¬ q <:+ ev.pos
  mount : e.skipped ev.pos = false
  post : ev.visit = .post → e.post = true
  broken : ev.visit = .err → e.broken ev.pos = true

def Legal (e : Env) : List Event → Prop
  | [] => True
  | ev :: tr => EvOk e tr ev ∧ Legal e tr

theorem inb_ne {e : Env} {p : Pos} (h : e.inb p) : p ≠ [] := by
  rintro rfl; exact h

theorem visits_cons (v : Visit) (ev : Event) (tr : List Event) : visits v (ev :: tr) = if ev.visit = v then ev.pos :: visits v tr else visits v tr := by
  unfold visits
  rw [List.filter_cons]
  by_cases h : ev.visit = v <;> simp [h]

theorem entered_cons (ev : Event) (tr : List Event) :
    entered (ev :: tr) = if ev.visit = .pre ∧ ev.action = .cont then ev.pos :: entered tr else entered tr := by
  unfold entered
  rw [List.filter_cons]
  by_cases h : ev.visit = .pre ∧ ev.action = .cont
  · rw [if_pos h, if_pos (by simpa using h)]; rfl
  · rw [if_neg h, if_neg (by simpa using h)]

theorem mem_entered_cons {ev : Event} {tr : List Event} {p : Pos} (h : p ∈ entered tr) : p ∈ entered (ev :: tr) := by
  rw [entered_cons]; split
  · exact List.mem_cons_of_mem _ h
  · exact h

theorem entered_sub (tr : List Event) : ∀ p ∈ entered tr, p ∈ visits .pre tr := by
  intro p hp
  unfold entered at hp; unfold visits
  obtain ⟨ev, h1, h2⟩ := List.mem_map.1 hp
  have h1 := List.mem_filter.1 h1
  exact List.mem_map.2 ⟨ev, List.mem_filter.2 ⟨h1.1, by have := h1.2; simp at this; simp [this.1]⟩, h2⟩

theorem adjust_cont {e : Env} {v : Visit} {t : Pos} {a : Action} (h : e.adjust v t a = .cont) : e.isDir t = true ∧ v = .pre ∧ a = .cont ∧ (e.pruneMounts && e.isMount t) = false := by
  cases a with
  | prune => cases h
  | stop => cases h
  | cont =>
    unfold Env.adjust at h
    dsimp only at h
    split at h
    · cases h
    · rename_i hh
      split at h
      · cases h
      · rename_i h2
        simp at hh
        exact ⟨hh.2, hh.1, rfl, by simpa using h2⟩

theorem Legal.mem {e : Env} : ∀ {tr : List Event}, Legal e tr → ∀ ev ∈ tr, ∃ tr', EvOk e tr' ev
  | [], _, _, h => by cases h
  | x :: tr, hl, ev, h => by
    rcases List.mem_cons.1 h with h | h
    · subst h; exact ⟨tr, hl.1⟩
    · exact hl.2.mem ev h

theorem Legal.visit_mem {e : Env} {tr : List Event} (h : Legal e tr) {v : Visit} {p : Pos} (hp : p ∈ visits v tr) :
    ∃ ev ∈ tr, ev.visit = v ∧ ev.pos = p ∧ e.skipped p = false ∧ e.inb p := by
  obtain ⟨ev, h1, h2⟩ := List.mem_map.1 hp
  obtain ⟨h1, h3⟩ := List.mem_filter.1 h1
  obtain ⟨tr', hk⟩ := h.mem ev h1
  exact ⟨ev, h1, by simpa using h3, h2, h2 ▸ hk.mount, h2 ▸ hk.inb⟩

theorem Legal.entered_dir {e : Env} {tr : List Event} (h : Legal e tr) {p : Pos} (hp : p ∈ entered tr) : e.isDir p = true := by
  obtain ⟨ev, h1, h2⟩ := List.mem_map.1 hp
  obtain ⟨h1, h3⟩ := List.mem_filter.1 h1
  obtain ⟨tr', hk⟩ := h.mem ev h1
  have h3 : ev.visit = .pre ∧ ev.action = .cont := by simpa using h3
  have := hk.action
  rw [h3.2] at this
  exact h2 ▸ (adjust_cont this.symm).1

theorem Legal.nodup {e : Env} {v : Visit} : ∀ {tr : List Event}, Legal e tr → (visits v tr).Nodup
  | [], _ => List.nodup_nil
  | ev :: tr, h => by
    rw [visits_cons]
    split
    · rename_i hv
      exact List.nodup_cons.2 ⟨hv ▸ h.1.fresh, h.2.nodup⟩
    · exact h.2.nodup

theorem Legal.post_entered {e : Env} : ∀ {tr : List Event}, Legal e tr → ∀ v, v ≠ .pre → ∀ p ∈ visits v tr, p ∈ entered tr
  | [], _, _, _, _, h => by cases h
  | ev :: tr, h, v, hv, p, hp => by
    rw [visits_cons] at hp
    split at hp
    · rename_i hh
      rcases List.mem_cons.1 hp with hp | hp
      · rw [hp]; exact mem_entered_cons (h.1.dir (hh ▸ hv))
      · exact mem_entered_cons (h.2.post_entered v hv p hp)
    · exact mem_entered_cons (h.2.post_entered v hv p hp)

/-! ## Reference counts -/

/-- The number of files in a directory that are allocated. -/
def kids (G : List Pos) (refs : Pos → Nat) (p : Pos) : Nat := G.countP fun q => q.tail == p && decide (0 < refs q)

/-- One more reference to a file, if it is not `NULL`. -/
def plus (hold : Pos → Nat) (p : Pos) : Pos → Nat := fun q => hold q + if q = p ∧ p ≠ [] then 1 else 0

theorem plus_nil (hold : Pos → Nat) : plus hold [] = hold := by
  funext q; simp [plus]

/-- The state, while the main thread holds references to some files. -/
structure Core (e : Env) (G : List Pos) (hold : Pos → Nat) (live : Bool) (s : State) : Prop where
  gnodup : G.Nodup
  ginb : ∀ p ∈ G, e.inb p
  gparent : ∀ p ∈ G, p.tail = [] ∨ p.tail ∈ entered s.trace
  gvis : ∀ p ∈ visits .pre s.trace, p ∈ G
  refs : ∀ p ∈ G, s.refs p = hold p + kids G s.refs p
  refs0 : ∀ p, p ∉ G → s.refs p = 0
  hold0 : ∀ p, p ∉ G → hold p = 0
  legal : Legal e s.trace
  run : live = true → ∀ x ∈ s.trace, x.action ≠ .stop
  posted : ∀ p ∈ visits .post s.trace, s.refs p = 0
  posts : live = true → e.post = true → ∀ p ∈ entered s.trace, s.refs p = 0 → p ∈ visits .post s.trace
  prev : s.prev = [] ∨ s.refs s.prev > 0
  path : e.fullPath s.prev <+: s.path
  bad : s.bad = false

variable {e : Env} {G : List Pos} {hold : Pos → Nat} {live : Bool} {s : State}

theorem Core.ent (h : Core e G hold live s) {p : Pos} (hp : p ∈ entered s.trace) : p ∈ G := h.gvis p (entered_sub _ p hp)

theorem Core.alive_mem (h : Core e G hold live s) {p : Pos} (hp : s.refs p > 0) : p ∈ G :=
  Classical.byContradiction fun hn => by rw [h.refs0 p hn] at hp; exact absurd hp (by omega)

theorem Core.tail_mem (h : Core e G hold live s) {p : Pos} (hp : p ∈ G) : p.tail = [] ∨ p.tail ∈ G :=
  (h.gparent p hp).imp id h.ent

theorem kids_pos {G : List Pos} {refs : Pos → Nat} {q : Pos} (h : q ∈ G) (hr : 0 < refs q) : 0 < kids G refs q.tail :=
  List.countP_pos_iff.2 ⟨q, h, by simp [hr]⟩

theorem Core.alive_tail (h : Core e G hold live s) {p : Pos} (hp : s.refs p > 0) : p.tail = [] ∨ s.refs p.tail > 0 := by
  have hm := h.alive_mem hp
  rcases h.tail_mem hm with ht | ht
  · exact Or.inl ht
  · right
    rw [h.refs _ ht]
    have := kids_pos hm hp
    omega

theorem Core.alive_up (h : Core e G hold live s) : ∀ {p q : Pos}, q <:+ p → q ≠ [] → s.refs p > 0 → s.refs q > 0
  | [], q, hs, hq, _ => absurd (List.suffix_nil.1 hs) hq
  | i :: p, q, hs, hq, hp => by
    rcases List.suffix_cons_iff.1 hs with hh | hh
    · rw [hh]; exact hp
    · rcases h.alive_tail hp with ht | ht
      · simp only [List.tail_cons] at ht
        rw [ht] at hh
        exact absurd (List.suffix_nil.1 hh) hq
      · exact h.alive_up hh hq ht

theorem Core.chain (hN : e.Named) (h : Core e G hold live s) : ∀ {p : Pos}, p ∈ G → e.Chain p
  | [], _ => trivial
  | [i], _ => trivial
  | i :: j :: p, hp => by
    have := (h.gparent _ hp).resolve_left (by simp)
    exact ⟨hN _ (h.legal.entered_dir this), Core.chain hN h (h.ent this)⟩

theorem Core.chain' (hN : e.Named) (h : Core e G hold live s) {j : Nat} {p : Pos} (hp : p = [] ∨ p ∈ entered s.trace) : e.Chain (j :: p) := by
  rcases hp with rfl | hp
  · trivial
  · cases p with
    | nil => trivial
    | cons i p => exact ⟨hN _ (h.legal.entered_dir hp), Core.chain hN h (h.ent hp)⟩

/-- What `bftw_call_back()` does. -/
theorem callBack_spec {name : Option Nat} {v : Visit} (hne : target s.file name ≠ [])
    (hc : e.Chain (target s.file name)) (hp : s.prev = [] ∨ s.file ≠ []) (hpre : e.fullPath s.prev <+: s.path) :
    s.callBack e name v =
      if v = .post ∧ e.post = false then (s, .prune)
      else if e.skipped (target s.file name) = true then ({ s with path := e.fullPath (target s.file name), prev := s.file }, .prune)
      else
        let a := e.adjust v (target s.file name) (e.callback s.trace v (target s.file name) (e.fullPath (target s.file name)))
        ({ s with path := e.fullPath (target s.file name), prev := s.file, trace := ⟨v, target s.file name, e.fullPath (target s.file name), a⟩ :: s.trace }, a) := by
  unfold State.callBack
  dsimp only
  rw [buildPath_spec rfl hne hc hp hpre]
  by_cases h1 : v = .post ∧ e.post = false
  · rw [if_pos h1, if_pos (by simp [h1.1, h1.2])]
  · rw [if_neg h1, if_neg (by simpa using h1)]
    unfold Env.skipped
    rfl

/-- A new path. -/
theorem Core.setPath (h : Core e G hold live s) {t : Pos} (hf : s.file = [] ∨ s.refs s.file > 0) (ht : s.file <:+ t) :
    Core e G hold live { s with path := e.fullPath t, prev := s.file } :=
  { h with prev := hf, path := fullPath_prefix e ht }

/-- A call of the callback. -/
theorem Core.event (h : Core e G hold true s) {ev : Event} (hok : EvOk e s.trace ev) (hm : ev.pos ∈ G)
    (hp : ev.visit = .post → s.refs ev.pos = 0) (hc : ev.visit = .pre → ev.action = .cont → s.refs ev.pos > 0) :
    Core e G hold (ev.action != .stop) { s with trace := ev :: s.trace } where
  gnodup := h.gnodup
  ginb := h.ginb
  gparent p hp := (h.gparent p hp).imp id mem_entered_cons
  gvis p hp := by
    rw [visits_cons] at hp
    split at hp
    · rcases List.mem_cons.1 hp with hp | hp
      · rw [hp]; exact hm
      · exact h.gvis p hp
    · exact h.gvis p hp
  refs := h.refs
  refs0 := h.refs0
  hold0 := h.hold0
  legal := ⟨hok, h.legal⟩
  run hl x hx := by
    rcases List.mem_cons.1 hx with hx | hx
    · rw [hx]; simpa using hl
    · exact h.run rfl x hx
  posted p hpp := by
    rw [visits_cons] at hpp
    split at hpp
    · rename_i hv
      rcases List.mem_cons.1 hpp with hpp | hpp
      · rw [hpp]; exact hp hv
      · exact h.posted p hpp
    · exact h.posted p hpp
  posts hl hpo p hpe hr := by
    rw [entered_cons] at hpe
    rw [visits_cons]
    have hold : p ∈ entered s.trace → p ∈ if ev.visit = .post then ev.pos :: visits .post s.trace else visits .post s.trace := by
      intro hpe
      have := h.posts rfl hpo p hpe hr
      split
      · exact List.mem_cons_of_mem _ this
      · exact this
    split at hpe
    · rename_i hv
      rcases List.mem_cons.1 hpe with hpe | hpe
      · have := hc hv.1 hv.2
        have hr : s.refs p = 0 := hr
        rw [hpe] at hr
        omega
      · exact hold hpe
    · exact hold hpe
  prev := h.prev
  path := h.path
  bad := h.bad

/-- A file that has been seen, but not allocated. -/
theorem Core.see (h : Core e G hold live s) {t : Pos} (ht : t ∉ G) (hi : e.inb t) (hpar : t.tail = [] ∨ t.tail ∈ entered s.trace) :
    Core e (t :: G) hold live s := by
  have hr := h.refs0 t ht
  have hk : ∀ p, kids (t :: G) s.refs p = kids G s.refs p := by
    intro p; unfold kids; rw [List.countP_cons]; simp [hr]
  exact { h with
    gnodup := List.nodup_cons.2 ⟨ht, h.gnodup⟩
    ginb := fun p hp => by
      rcases List.mem_cons.1 hp with rfl | hp
      · exact hi
      · exact h.ginb p hp
    gparent := fun p hp => by
      rcases List.mem_cons.1 hp with rfl | hp
      · exact hpar
      · exact h.gparent p hp
    gvis := fun p hp => List.mem_cons_of_mem _ (h.gvis p hp)
    refs := fun p hp => by
      rw [hk p]
      rcases List.mem_cons.1 hp with rfl | hp
      · rw [hr, h.hold0 _ ht]
        have : kids G s.refs p = 0 := by
          unfold kids
          rw [List.countP_eq_zero]
          intro q hq hh
          simp at hh
          rcases h.tail_mem hq with h1 | h1
          · exact inb_ne hi (hh.1 ▸ h1)
          · exact ht (hh.1 ▸ h1)
        omega
      · exact h.refs p hp
    refs0 := fun p hp => h.refs0 p (fun hh => hp (List.mem_cons_of_mem _ hh))
    hold0 := fun p hp => h.hold0 p (fun hh => hp (List.mem_cons_of_mem _ hh)) }

theorem kids_congr {G : List Pos} {r r' : Pos → Nat} {p : Pos} (h : ∀ q ∈ G, q.tail = p → (0 < r q ↔ 0 < r' q)) : kids G r p = kids G r' p := by
  unfold kids
  apply List.countP_congr
  intro q hq
  simp only [Bool.and_eq_true, beq_iff_eq, decide_eq_true_eq]
  constructor
  · rintro ⟨a, b⟩; exact ⟨a, (h q hq a).1 b⟩
  · rintro ⟨a, b⟩; exact ⟨a, (h q hq a).2 b⟩

/-- A file that has been allocated. -/
theorem Core.new (h : Core e G hold live s) {j : Nat} (ht : j :: s.file ∉ G) (hi : e.inb (j :: s.file))
    (hpar : s.file = [] ∨ s.file ∈ entered s.trace) (hal : s.file = [] ∨ s.refs s.file > 0) :
    Core e ((j :: s.file) :: G) (plus hold (j :: s.file)) live (s.new j) := by
  have h' := h.see ht hi hpar
  have hr0 := h.refs0 _ ht
  have hne : s.file ≠ j :: s.file := fun hh => by have := congrArg List.length hh; simp at this
  have hrefs : (s.new j).refs = upd (if s.file = [] then s.refs else upd s.refs s.file (s.refs s.file + 1)) (j :: s.file) 1 := rfl
  have hbad : (s.new j).bad = false := by
    show (s.bad || !decide (s.refs (j :: s.file) = 0)) = false
    rw [h.bad, hr0]; rfl
  have hval : ∀ q, (s.new j).refs q = if q = j :: s.file then 1 else if q = s.file ∧ s.file ≠ [] then s.refs q + 1 else s.refs q := by
    intro q
    rw [hrefs]
    unfold upd
    by_cases h1 : q = j :: s.file
    · rw [if_pos h1, if_pos h1]
    · rw [if_neg h1, if_neg h1]
      by_cases h2 : s.file = []
      · rw [if_pos h2, if_neg (fun hh => hh.2 h2)]
      · rw [if_neg h2]
        by_cases h3 : q = s.file
        · rw [if_pos h3, if_pos ⟨h3, h2⟩, h3]
        · rw [if_neg h3, if_neg (fun hh => h3 hh.1)]
  have hpos : ∀ q, q ≠ j :: s.file → (0 < s.refs q ↔ 0 < (s.new j).refs q) := by
    intro q hq
    rw [hval, if_neg hq]
    split
    · rename_i hh
      have := hal.resolve_left hh.2
      rw [hh.1]; omega
    · exact Iff.rfl
  have hkids : ∀ p, kids ((j :: s.file) :: G) (s.new j).refs p = kids G s.refs p + if p = s.file then 1 else 0 := by
    intro p
    show List.countP _ _ = _
    rw [List.countP_cons]
    have : List.countP (fun q => q.tail == p && decide (0 < (s.new j).refs q)) G = kids G s.refs p :=
      kids_congr fun q hq _ => (hpos q (fun hh => ht (hh ▸ hq))).symm
    rw [this, hval, if_pos rfl]
    by_cases hp : p = s.file
    · simp [hp]
    · have : s.file ≠ p := fun hh => hp hh.symm
      simp [hp, this]
  have hz : ∀ q, (s.new j).refs q = 0 → s.refs q = 0 ∧ q ≠ j :: s.file := by
    intro q hq
    by_cases hh : q = j :: s.file
    · rw [hh, hval, if_pos rfl] at hq; cases hq
    · refine ⟨?_, hh⟩
      have := hpos q hh
      omega
  have hz' : ∀ q, q ∈ G → s.refs q = 0 → (s.new j).refs q = 0 := by
    intro q hq hh
    have := hpos q (fun hh => ht (hh ▸ hq))
    omega
  exact
    { gnodup := h'.gnodup
      ginb := h'.ginb
      gparent := h'.gparent
      gvis := h'.gvis
      refs := by
        intro p hp
        rw [hkids]
        rcases List.mem_cons.1 hp with rfl | hp
        · have := h'.refs (j :: s.file) List.mem_cons_self
          rw [hr0] at this
          have hk : kids G s.refs (j :: s.file) = 0 := by
            have : kids ((j :: s.file) :: G) s.refs (j :: s.file) = kids G s.refs (j :: s.file) := by
              unfold kids; rw [List.countP_cons]; simp [hr0]
            omega
          rw [hval, if_pos rfl, hk, if_neg (fun hh => hne hh.symm)]
          unfold plus
          rw [if_pos ⟨rfl, by simp⟩, h.hold0 _ ht]
        · have hpn : p ≠ j :: s.file := fun hh => ht (hh ▸ hp)
          have hpl : plus hold (j :: s.file) p = hold p := by
            unfold plus; rw [if_neg (fun hh => hpn hh.1)]; rfl
          rw [hval, if_neg hpn, hpl]
          have := h.refs p hp
          have hpne := inb_ne (h.ginb p hp)
          by_cases h3 : p = s.file
          · rw [if_pos ⟨h3, h3 ▸ hpne⟩, if_pos h3]; omega
          · rw [if_neg (fun hh => h3 hh.1), if_neg h3]; omega
      refs0 := by
        intro p hp
        rw [List.mem_cons, not_or] at hp
        rw [hval, if_neg hp.1, if_neg]
        · exact h.refs0 p hp.2
        · rintro ⟨h1, h2⟩
          exact hp.2 (h1 ▸ h.ent (hpar.resolve_left h2))
      hold0 := by
        intro p hp
        rw [List.mem_cons, not_or] at hp
        unfold plus
        rw [if_neg (fun hh => hp.1 hh.1), h.hold0 p hp.2]
      legal := h.legal
      run := h.run
      posted := by
        intro p hp
        exact hz' p (h.ent (h.legal.post_entered .post (by simp) p hp)) (h.posted p hp)
      posts := fun hl hp p hpe hr => h.posts hl hp p hpe (hz p hr).1
      prev := by
        rcases h.prev with hp | hp
        · exact Or.inl hp
        · right
          exact (hpos s.prev (fun hh => ht (hh ▸ h.alive_mem hp))).1 hp
      path := h.path
      bad := hbad }

/-! ## Garbage collection -/

theorem tail_ne {p : Pos} (h : p ≠ []) : p.tail ≠ p := by
  intro hh
  have := congrArg List.length hh
  have : 0 < p.length := List.length_pos_iff.2 h
  simp at *; omega

theorem upd_self (f : Pos → Nat) (p : Pos) (n : Nat) : upd f p n p = n := by simp [upd]
theorem upd_ne (f : Pos → Nat) {p q : Pos} (n : Nat) (h : q ≠ p) : upd f p n q = f q := by simp [upd, h]

theorem kids_kill {G : List Pos} {refs : Pos → Nat} {p : Pos} (hn : G.Nodup) (hp : p ∈ G) (hr : 0 < refs p) (x : Pos) :
    kids G refs x = kids G (upd refs p 0) x + if x = p.tail then 1 else 0 := by
  induction G with
  | nil => cases hp
  | cons q G ih =>
    have hn' := List.nodup_cons.1 hn
    show List.countP _ _ = List.countP _ _ + _
    rw [List.countP_cons, List.countP_cons]
    rcases List.mem_cons.1 hp with rfl | hp
    · have : List.countP (fun q => q.tail == x && decide (0 < refs q)) G = List.countP (fun q => q.tail == x && decide (0 < upd refs p 0 q)) G :=
        kids_congr fun q hq _ => by
          have hqp : q ≠ p := fun hh => hn'.1 (hh ▸ hq)
          rw [upd_ne _ _ hqp]
      rw [this, upd_self]
      by_cases hx : x = p.tail
      · simp [hx, hr]
      · have : p.tail ≠ x := fun hh => hx hh.symm
        simp [hx, this]
    · have hqp : q ≠ p := fun hh => hn'.1 (hh ▸ hp)
      rw [upd_ne _ _ hqp]
      have := ih hn'.2 hp
      unfold kids at this
      omega

/-- A reference is dropped, and it was not the last. -/
theorem Core.release {p : Pos} (h : Core e G (plus hold p) live s) (hp : p ∈ G) (hr : s.refs p - 1 > 0) :
    Core e G hold live { s with refs := upd s.refs p (s.refs p - 1) } := by
  have hne := inb_ne (h.ginb p hp)
  have hpos : ∀ q, 0 < s.refs q ↔ 0 < upd s.refs p (s.refs p - 1) q := by
    intro q
    by_cases hq : q = p
    · rw [hq, upd_self]; omega
    · rw [upd_ne _ _ hq]
  have hz : ∀ q, s.refs q = 0 ↔ upd s.refs p (s.refs p - 1) q = 0 := by
    intro q; have := hpos q; omega
  exact
    { gnodup := h.gnodup, ginb := h.ginb, gparent := h.gparent, gvis := h.gvis
      refs := by
        intro q hq
        show upd s.refs p (s.refs p - 1) q = hold q + kids G (upd s.refs p (s.refs p - 1)) q
        rw [← kids_congr (r := s.refs) fun x _ _ => hpos x]
        have := h.refs q hq
        unfold plus at this
        by_cases hqp : q = p
        · rw [if_pos ⟨hqp, hne⟩] at this
          rw [hqp, upd_self]; rw [hqp] at this; omega
        · rw [if_neg (fun hh => hqp hh.1)] at this
          rw [upd_ne _ _ hqp]; omega
      refs0 := fun q hq => (hz q).1 (h.refs0 q hq)
      hold0 := fun q hq => by have := h.hold0 q hq; unfold plus at this; omega
      legal := h.legal, run := h.run
      posted := fun q hq => (hz q).1 (h.posted q hq)
      posts := fun hl hpo q hq hr => h.posts hl hpo q hq ((hz q).2 hr)
      prev := h.prev.imp id (hpos _).1
      path := h.path, bad := h.bad }

/-- The last reference is dropped, the callback is called, and the file is freed. -/
theorem Core.kill {p : Pos} {tr : List Event} {pa : Bytes} {pr : Pos} {live' : Bool} (h : Core e G (plus hold p) live s) (hp : p ∈ G) (hr : s.refs p = 1)
    (hlv : live' = true → live = true)
    (htr : (tr = s.trace ∧ (live' = true → e.post = true → p ∉ entered s.trace)) ∨ 
      ∃ ev, tr = ev :: s.trace ∧ EvOk e s.trace ev ∧ ev.visit = .post ∧ ev.pos = p ∧ (live' = true → ev.action ≠ .stop))
    (hpr : (pr = s.prev ∧ pa = s.path) ∨ (pr = p ∧ pa = e.fullPath p)) :
    Core e G (plus hold p.tail) live' { s with refs := upd s.refs p 0, trace := tr, path := pa, prev := if pr = p then p.tail else pr } := by
  have hne := inb_ne (h.ginb p hp)
  have hent : entered tr = entered s.trace := by
    rcases htr with ⟨h1, _⟩ | ⟨ev, h1, _, h2, _⟩
    · rw [h1]
    · rw [h1, entered_cons, h2, if_neg (by simp)]
  have hvis : ∀ v, v ≠ .post → visits v tr = visits v s.trace := by
    intro v hv
    rcases htr with ⟨h1, _⟩ | ⟨ev, h1, _, h2, _⟩
    · rw [h1]
    · rw [h1, visits_cons, h2, if_neg (fun hh => hv hh.symm)]
  have hpost : ∀ q, q ∈ visits .post tr → q = p ∨ q ∈ visits .post s.trace := by
    intro q hq
    rcases htr with ⟨h1, _⟩ | ⟨ev, h1, _, h2, h3, _⟩
    · exact Or.inr (h1 ▸ hq)
    · rw [h1, visits_cons, h2, if_pos rfl, h3] at hq
      exact List.mem_cons.1 hq
  have hpost' : ∀ q, q ∈ visits .post s.trace → q ∈ visits .post tr := by
    intro q hq
    rcases htr with ⟨h1, _⟩ | ⟨ev, h1, _, h2, h3, _⟩
    · rw [h1]; exact hq
    · rw [h1, visits_cons, h2, if_pos rfl]; exact List.mem_cons_of_mem _ hq
  exact
    { gnodup := h.gnodup, ginb := h.ginb
      gparent := fun q hq => by
        show _ ∨ _ ∈ entered tr
        rw [hent]; exact h.gparent q hq
      gvis := fun q hq => by
        have hq : q ∈ visits .pre tr := hq
        rw [hvis _ (by simp)] at hq
        exact h.gvis q hq
      refs := by
        intro q hq
        show upd s.refs p 0 q = plus hold p.tail q + kids G (upd s.refs p 0) q
        have hk := kids_kill (refs := s.refs) h.gnodup hp (by omega) q
        have := h.refs q hq
        have hqne := inb_ne (h.ginb q hq)
        unfold plus at this ⊢
        by_cases hqp : q = p
        · subst hqp
          rw [if_pos ⟨rfl, hne⟩] at this
          rw [if_neg (fun hh => tail_ne hne hh.symm)] at hk
          rw [upd_self, if_neg (fun hh => tail_ne hne hh.1.symm)]
          omega
        · rw [if_neg (fun hh => hqp hh.1)] at this
          rw [upd_ne _ _ hqp]
          by_cases hqt : q = p.tail
          · rw [if_pos hqt] at hk
            rw [if_pos ⟨hqt, hqt ▸ hqne⟩]; omega
          · rw [if_neg hqt] at hk
            rw [if_neg (fun hh => hqt hh.1)]; omega
      refs0 := fun q hq => by
        show upd s.refs p 0 q = 0
        have hqp : q ≠ p := fun hh => hq (hh ▸ hp)
        rw [upd_ne _ _ hqp]; exact h.refs0 q hq
      hold0 := fun q hq => by
        have := h.hold0 q hq; unfold plus at this ⊢
        rw [if_neg]
        · omega
        · rintro ⟨h1, h2⟩
          exact hq (h1 ▸ (h.tail_mem hp).resolve_left h2)
      legal := by
        rcases htr with ⟨h1, _⟩ | ⟨ev, h1, h2, _⟩
        · rw [h1]; exact h.legal
        · rw [h1]; exact ⟨h2, h.legal⟩
      run := by
        intro hl x hx
        rcases htr with ⟨h1, _⟩ | ⟨ev, h1, h2, _, _, h3⟩
        · rw [h1] at hx; exact h.run (hlv hl) x hx
        · rw [h1] at hx
          rcases List.mem_cons.1 hx with rfl | hx
          · exact h3 hl
          · exact h.run (hlv hl) x hx
      posted := fun q hq => by
        show upd s.refs p 0 q = 0
        by_cases hqp : q = p
        · rw [hqp, upd_self]
        · rw [upd_ne _ _ hqp]
          exact h.posted q ((hpost q hq).resolve_left hqp)
      posts := by
        intro hl hpo q hq hr
        have hq : q ∈ entered tr := hq
        have hr : upd s.refs p 0 q = 0 := hr
        rw [hent] at hq
        by_cases hqp : q = p
        · rcases htr with ⟨h1, h2⟩ | ⟨ev, h1, _, h2, h3, _⟩
          · exact absurd (hqp ▸ hq) (h2 hl hpo)
          · show q ∈ visits .post tr
            rw [h1, visits_cons, h2, if_pos rfl, h3, hqp]; exact List.mem_cons_self
        · rw [upd_ne _ _ hqp] at hr
          exact hpost' q (h.posts (hlv hl) hpo q hq hr)
      prev := by
        show (if pr = p then p.tail else pr) = [] ∨ upd s.refs p 0 (if pr = p then p.tail else pr) > 0
        by_cases hpp : pr = p
        · rw [if_pos hpp]
          rcases h.alive_tail (p := p) (by omega) with ht | ht
          · exact Or.inl ht
          · right; rw [upd_ne _ _ (tail_ne hne)]; exact ht
        · rw [if_neg hpp]
          have := hpr.resolve_right (fun hh => hpp hh.1)
          rw [upd_ne _ _ hpp, this.1]
          exact h.prev
      path := by
        show e.fullPath (if pr = p then p.tail else pr) <+: pa
        by_cases hpp : pr = p
        · rw [if_pos hpp]
          refine (fullPath_prefix e (List.tail_suffix p)).trans ?_
          rcases hpr with ⟨h1, h2⟩ | ⟨h1, h2⟩
          · rw [h2, ← hpp, h1]; exact h.path
          · rw [h2]; exact List.prefix_refl _
        · rw [if_neg hpp]
          have := hpr.resolve_right (fun hh => hpp hh.1)
          rw [this.1, this.2]; exact h.path
      bad := h.bad }

/-- A directory is done with: the last call for it. -/
theorem Core.post_ok (h : Core e G hold true s) {p : Pos} (hp : p ∈ entered s.trace) (hr : s.refs p > 0) (hpo : e.post = true) (a : Action)
    (ha : a = e.adjust .post p (e.callback s.trace .post p (e.fullPath p))) : EvOk e s.trace ⟨.post, p, e.fullPath p, a⟩ where
  running := h.run rfl
  path := rfl
  action := ha
  inb := h.ginb p (h.ent hp)
  parent := h.gparent p (h.ent hp)
  fresh := fun hh => by have := h.posted p hh; omega
  dir := fun _ => hp
  done := fun q hq hs => by
    have h1 := h.alive_up hs (inb_ne (h.ginb q (h.ent (h.legal.post_entered .post (by simp) q hq)))) hr
    have := h.posted q hq
    omega
  mount := by
    obtain ⟨_, _, _, _, h1, _⟩ := h.legal.visit_mem (entered_sub _ p hp)
    exact h1
  post := fun _ => hpo
  broken := fun hh => by cases hh

theorem postVisit_spec {p : Pos} (hN : e.Named) (h : Core e G (plus hold p) live s) (hp : p ∈ G) (hf : s.file = p) (visit : Bool) :
    s.postVisit e visit = 
      if visit = false ∨ e.post = false then (s, .prune)
      else if e.skipped p = true then ({ s with path := e.fullPath p, prev := p }, .prune)
      else
        let a := e.adjust .post p (e.callback s.trace .post p (e.fullPath p))
        ({ s with path := e.fullPath p, prev := p, trace := ⟨.post, p, e.fullPath p, a⟩ :: s.trace }, a) := by
  subst hf
  unfold State.postVisit
  cases visit
  · simp
  · have := callBack_spec (s := s) (e := e) (name := none) (v := .post) (inb_ne (h.ginb _ hp)) (h.chain hN hp) (Or.inr (inb_ne (h.ginb _ hp))) h.path
    rw [if_pos rfl, this]
    unfold target
    simp only [true_and, Bool.true_eq_false, false_or]

/-- The rest of the loop, after the callback. -/
def gcRest (e : Env) (i : Nat) (p : Pos) (parents : Bool) (x : State × Action) : State × Bool :=
  if x.2 = .stop then ((State.gcLoop e p { x.1 with prev := if x.1.prev = i :: p then p else x.1.prev } false false).1, true)
  else State.gcLoop e p { x.1 with prev := if x.1.prev = i :: p then p else x.1.prev } parents parents

theorem gcLoop_keep {i : Nat} {p : Pos} {visit parents : Bool} (h : s.refs (i :: p) - 1 > 0) :
    State.gcLoop e (i :: p) s visit parents = ({ s with refs := upd s.refs (i :: p) (s.refs (i :: p) - 1), file := [] }, false) := by
  have hneed : (s.bad || !decide (s.refs (i :: p) > 0)) = s.bad := by
    have : s.refs (i :: p) > 0 := by omega
    simp [this]
  unfold State.gcLoop
  simp only [State.need, hneed, upd_self, if_pos h]

theorem gcLoop_free {i : Nat} {p : Pos} {visit parents : Bool} (h : s.refs (i :: p) = 1) :
    State.gcLoop e (i :: p) s visit parents = gcRest e i p parents (State.postVisit e { s with refs := upd s.refs (i :: p) 0, file := i :: p } visit) := by
  have hneed : (s.bad || !decide (1 > 0)) = s.bad := by simp
  conv => lhs; unfold State.gcLoop
  simp only [State.need, h, hneed, upd_self]
  rfl

/-- `bftw_gc()` drops a reference, and frees what is no longer needed. -/
theorem gcLoop_spec (hN : e.Named) : ∀ (p : Pos) (s : State) (hold : Pos → Nat) (live visit parents : Bool),
    (p ≠ [] → p ∈ G) → Core e G (plus hold p) live s → (live = true → parents = true) → (live = false → visit = false ∧ parents = false) →
    (live = true → (visit = true ↔ p ∈ entered s.trace) ∨ p = []) →
    Core e G hold (live && !(State.gcLoop e p s visit parents).2) (State.gcLoop e p s visit parents).1 ∧
    (State.gcLoop e p s visit parents).1.file = [] ∧
    (State.gcLoop e p s visit parents).1.fileq = s.fileq ∧
    (State.gcLoop e p s visit parents).1.dirq = s.dirq ∧
    ∃ evs, (State.gcLoop e p s visit parents).1.trace = evs ++ s.trace ∧ ∀ ev ∈ evs, ev.visit = .post
  | [], s, hold, live, visit, parents, _, h, _, _, _ => by
    rw [plus_nil] at h
    rw [State.gcLoop, Bool.not_false, Bool.and_true]
    exact ⟨{ h with }, rfl, rfl, rfl, [], rfl, fun _ h => by cases h⟩
  | i :: p, s, hold, live, visit, parents, hm, h, h1, h2, h3 => by
    have hm := hm (by simp)
    have h3 : live = true → (visit = true ↔ i :: p ∈ entered s.trace) := fun hl => (h3 hl).resolve_right (by simp)
    have hpos : s.refs (i :: p) > 0 := by
      rw [h.refs _ hm]
      unfold plus
      rw [if_pos ⟨rfl, by simp⟩]; omega
    by_cases hr : s.refs (i :: p) - 1 > 0
    · rw [gcLoop_keep hr, Bool.not_false, Bool.and_true]
      have hc := h.release hm hr
      exact ⟨{ hc with }, rfl, rfl, rfl, [], rfl, fun _ h => by cases h⟩
    · have hr1 : s.refs (i :: p) = 1 := by omega
      rw [gcLoop_free hr1]
      -- the callback
      have hcf : Core e G (plus hold (i :: p)) live { s with file := i :: p } := { h with }
      have hpv := postVisit_spec hN hcf hm rfl visit
      -- what it gives does not depend on the reference counts
      have hpv' : State.postVisit e { s with refs := upd s.refs (i :: p) 0, file := i :: p } visit =
          (fun x : State × Action => ({ x.1 with refs := upd s.refs (i :: p) 0 }, x.2)) (State.postVisit e { s with file := i :: p } visit) := by
        unfold State.postVisit
        cases visit
        · rfl
        · unfold State.callBack
          dsimp only [State.buildPath, State.need]
          simp only [if_true]
          split
          · rfl
          · split <;> rfl
      rw [hpv', hpv]
      have key : ∀ (tr : List Event) (pa : Bytes) (pr : Pos) (live' visit' parents' : Bool) (evs : List Event),
          (live' = true → live = true) →
          ((tr = s.trace ∧ (live' = true → e.post = true → i :: p ∉ entered s.trace)) ∨ 
            ∃ ev, tr = ev :: s.trace ∧ EvOk e s.trace ev ∧ ev.visit = .post ∧ ev.pos = i :: p ∧ (live' = true → ev.action ≠ .stop)) →
          ((pr = s.prev ∧ pa = s.path) ∨ (pr = i :: p ∧ pa = e.fullPath (i :: p))) →
          tr = evs ++ s.trace → (∀ ev ∈ evs, ev.visit = .post) →
          (live' = true → parents' = true) → (live' = false → visit' = false ∧ parents' = false) → (visit' = parents') →
          let s' : State := { s with refs := upd s.refs (i :: p) 0, file := i :: p, trace := tr, path := pa, prev := if pr = i :: p then p else pr }
          Core e G hold (live' && !(State.gcLoop e p s' visit' parents').2) (State.gcLoop e p s' visit' parents').1 ∧
          (State.gcLoop e p s' visit' parents').1.file = [] ∧
          (State.gcLoop e p s' visit' parents').1.fileq = s.fileq ∧
          (State.gcLoop e p s' visit' parents').1.dirq = s.dirq ∧
          ∃ evs, (State.gcLoop e p s' visit' parents').1.trace = evs ++ s.trace ∧ ∀ ev ∈ evs, ev.visit = .post := by
        intro tr pa pr live' visit' parents' evs hl htr hpr hevs hev hpa hpb hvp s'
        have hk := h.kill hm hr1 hl htr hpr
        have hk : Core e G (plus hold p) live' s' := { hk with }
        have hpar : p ≠ [] → p ∈ entered s.trace := fun hh => (h.gparent _ hm).resolve_left hh
        have hent : entered tr = entered s.trace := by
          rcases htr with ⟨h1, _⟩ | ⟨ev, h1, _, h2, _⟩
          · rw [h1]
          · rw [h1, entered_cons, h2, if_neg (by simp)]
        obtain ⟨r1, r2, r3, r4, evs', r5, r6⟩ := gcLoop_spec hN p s' hold live' visit' parents' (fun hh => h.ent (hpar hh)) hk hpa hpb (by
          intro hl
          by_cases hh : p = []
          · exact Or.inr hh
          · left
            rw [hvp]
            refine ⟨fun _ => ?_, fun _ => hpa hl⟩
            show p ∈ entered tr
            rw [hent]; exact hpar hh)
        refine ⟨r1, r2, r3, r4, evs' ++ evs, ?_, ?_⟩
        · rw [r5]; show evs' ++ tr = _; rw [hevs]; simp
        · intro ev hh
          rcases List.mem_append.1 hh with hh | hh
          · exact r6 ev hh
          · exact hev ev hh
      by_cases hv : visit = false ∨ e.post = false
      · rw [if_pos hv]
        unfold gcRest
        dsimp only
        rw [if_neg (by simp)]
        refine key s.trace s.path s.prev live parents parents [] id (Or.inl ⟨rfl, fun hl hpo hh => ?_⟩) (Or.inl ⟨rfl, rfl⟩) rfl (fun _ h => by cases h) h1 (fun hl => ⟨(h2 hl).2, (h2 hl).2⟩) rfl
        rcases hv with hv | hv
        · have := (h3 hl).2 hh
          rw [hv] at this; cases this
        · rw [hv] at hpo; cases hpo
      · rw [if_neg hv]
        rw [not_or] at hv
        have hvt : visit = true := by simpa using hv.1
        have hpo : e.post = true := by simpa using hv.2
        have hl : live = true := by
          cases hll : live
          · rw [(h2 hll).1] at hvt; cases hvt
          · rfl
        subst hl
        have hent := (h3 rfl).1 hvt
        have hsk : e.skipped (i :: p) = false := by
          obtain ⟨_, _, _, _, h1, _⟩ := h.legal.visit_mem (entered_sub _ _ hent)
          exact h1
        rw [if_neg (by simp [hsk])]
        unfold gcRest
        dsimp only
        have hok := h.post_ok hent hpos hpo _ rfl
        by_cases ha : e.adjust .post (i :: p) (e.callback s.trace .post (i :: p) (e.fullPath (i :: p))) = .stop
        · rw [if_pos ha]
          have := key (⟨.post, i :: p, e.fullPath (i :: p), e.adjust .post (i :: p) (e.callback s.trace .post (i :: p) (e.fullPath (i :: p)))⟩ :: s.trace) (e.fullPath (i :: p)) (i :: p) false false false [_]
            (fun h => by cases h) (Or.inr ⟨_, rfl, hok, rfl, rfl, fun h => by cases h⟩) (Or.inr ⟨rfl, rfl⟩) rfl (by simp) (fun h => by cases h) (fun _ => ⟨rfl, rfl⟩) rfl
          refine ⟨?_, this.2⟩
          have := this.1
          simpa using this
        · rw [if_neg ha]
          exact key (⟨.post, i :: p, e.fullPath (i :: p), e.adjust .post (i :: p) (e.callback s.trace .post (i :: p) (e.fullPath (i :: p)))⟩ :: s.trace) (e.fullPath (i :: p)) (i :: p) true parents parents [_]
            (fun _ => rfl) (Or.inr ⟨_, rfl, hok, rfl, rfl, fun _ => ha⟩) (Or.inr ⟨rfl, rfl⟩) rfl (by simp) h1 (fun hl => by cases hl) rfl

end Verif.Bftw
