import Verif.Model.Sighook
import Verif.Lemmas.Ioq
namespace Verif.Sighook
open Verif.Ioq (sumBy sumBy_set le_sumBy sumBy_zero)

@[simp] theorem upd_same {α β : Type} [DecidableEq α] (f : α → β) (a : α) (b : β) : upd f a b a = b := by simp [upd]
theorem upd_ne {α β : Type} [DecidableEq α] (f : α → β) {a z : α} (b : β) (h : z ≠ a) : upd f a b z = f z := by simp [upd, h]
theorem upd_cases {α β : Type} [DecidableEq α] (f : α → β) (a z : α) (b : β) : (z = a ∧ upd f a b z = b) ∨ (z ≠ a ∧ upd f a b z = f z) := by
  by_cases h : z = a
  · subst h; simp
  · right; exact ⟨h, upd_ne f b h⟩

/-- The references a reader has. -/
def RPc.holds : RPc → List Slot
  | .idle => []
  | .active _ prev => prev.toList
  | .get _ _ prev => prev.toList
  | .cas _ _ _ prev => prev.toList
  | .ptr c k prev => (c, k) :: prev.toList
  | .put c k _ h => [(c, k), h]
  | .post c k _ _ => [(c, k)]
  | .visit c k _ => [(c, k)]
  | .fput c k => [(c, k)]
  | .fpost _ _ => []

/-- The semaphore a reader is about to post. -/
def RPc.posts : RPc → List Slot
  | .post _ _ _ h => [h]
  | .fpost c k => [(c, k)]
  | _ => []

def H (rs : List RPc) (sl : Slot) : Nat := sumBy (fun r => r.holds.count sl) rs
def P (rs : List RPc) (sl : Slot) : Nat := sumBy (fun r => r.posts.count sl) rs

/-- The cell that it is reading is the list's, or that of the node it has a reference to. -/
def target (ptr : Slot → Option (Option Nat)) (c : Nat) (prev : Option Slot) : Prop :=
  (c = 0 ∧ prev = none) ∨ ∃ h, prev = some h ∧ ptr h = some (some c)

def RPc.Ok (ptr : Slot → Option (Option Nat)) : RPc → Prop
  | .active c prev => target ptr c prev
  | .get c _ prev => target ptr c prev
  | .cas c _ r prev => target ptr c prev ∧ 0 < r
  | .ptr c _ prev => target ptr c prev
  | .put c k p _ => ptr (c, k) = some p
  | .post c k p _ => ptr (c, k) = some p
  | .visit c k p => ptr (c, k) = some p
  | _ => True

/-- The writer's own references: on the active slot, on both during an update, or none. -/
def owned (w : WPc) (c : Nat) (a k : Bool) : Nat :=
  match w with
  | .run .pub x _ _ _ => if c = x then 1 else if k = a then 1 else 0
  | .run .sub x _ _ (.append _) => if c = x then 1 else if k = a then 1 else 0
  | .run .sub x _ _ (.remove _ _) => if c = x then 1 else if k = a then 1 else 0
  | .run .wait x _ _ (.destroy _) => if c = x then 0 else if k = a then 1 else 0
  | .run .take x _ _ (.destroy _) => if c = x then 0 else if k = a then 1 else 0
  | _ => if k = a then 1 else 0

/-- Is the writer waiting for this slot's semaphore? -/
def WPc.waits (w : WPc) (sl : Slot) : Prop := ∃ v k, w = .run .wait sl.1 sl.2 v k

/-- May this slot have references although it is not active? -/
def WPc.busy (w : WPc) (sl : Slot) : Prop :=
  ∃ x i v k, (w = .run .pub x i v k ∧ sl = (x, !i)) ∨ (w = .run .sub x i v k ∧ sl = (x, i)) ∨ (w = .run .wait x i v k ∧ sl = (x, i))

def Phase.published : Phase → Bool
  | .set => false
  | .ref => false
  | .pub => false
  | _ => true

/-- Cell `c` may point to node `n`. -/
def link (self : Nat → Nat) (w : WPc) (c n : Nat) : Prop :=
  self n = c ∨ (∃ ph x i v X, w = .run ph x i v (.remove X (some n)) ∧ c = x) ∨ (∃ ph i v, w = .run ph c i v (.destroy c))

/-- Node `n` says that cell `c` points to it, but it does not. -/
def exempt (w : WPc) (n : Nat) : Prop :=
  (∃ ph x i v, w = .run ph x i v (.append n) ∧ ph.published = false) ∨
  (∃ ph x i v m, w = .run ph x i v (.remove n m) ∧ ph.published = true) ∨ (∃ ph x i v, w = .run ph x i v (.destroy n))

/-- What the writer knows in the middle of an operation. -/
def WOk (s : State) : WPc → Prop
  | .idle => True
  | .run ph x i v (.append n) => s.alive x = true ∧ s.active x = (if ph.published then !i else i) ∧ s.ptr (x, i) ≠ none ∧
      (ph ≠ .set → s.ptr (x, !i) = some v) ∧ (ph = .take → s.refs (x, i) = 0) ∧
      v = some n ∧ x = s.self n ∧ s.alive n = true ∧ n ≠ 0 ∧ s.tail = n ∧ n ∉ s.hooks ∧ (x ≠ 0 → s.ptr (x, i) = some none)
  | .run ph x i v (.remove X nx) => s.alive x = true ∧ s.active x = (if ph.published then !i else i) ∧ s.ptr (x, i) ≠ none ∧
      (ph ≠ .set → s.ptr (x, !i) = some v) ∧ (ph = .take → s.refs (x, i) = 0) ∧
      v = nx ∧ x = s.self X ∧ s.alive X = true ∧ X ≠ 0 ∧ s.ptr (X, s.active X) = some nx ∧ (x ≠ 0 → s.tail ≠ x) ∧ X ∉ s.hooks ∧
      (ph.published = true → ∀ sl, 0 < s.refs sl → s.alive sl.1 = true → s.ptr sl = some (some X) → sl = (x, i))
  | .run ph x i _ (.destroy X) => x = X ∧ ph.published = true ∧ X ≠ 0 ∧ s.alive X = true ∧ s.active X = i ∧ s.ptr (X, i) ≠ none ∧ s.tail ≠ X ∧ X ∉ s.hooks ∧
      (ph = .take → s.refs (X, i) = 0) ∧
      (∀ n, n ≠ 0 → s.alive n = true → s.self n ≠ X) ∧ (∀ sl, 0 < s.refs sl → s.alive sl.1 = true → s.ptr sl ≠ some (some X))

structure Inv (s : State) : Prop where
  good : s.bad = false
  root : s.alive 0 = true
  fresh : ∀ n, s.alive n = true → n < s.fresh
  refs : ∀ c k, s.alive c = true → s.refs (c, k) = owned s.writer c (s.active c) k + H s.readers (c, k)
  dead : ∀ c k, s.alive c = false → H s.readers (c, k) = 0 ∧ P s.readers (c, k) = 0
  semW : ∀ sl, s.alive sl.1 = true → s.writer.waits sl → (0 < s.refs sl → s.sem sl = 0 ∧ P s.readers sl = 0) ∧ (s.refs sl = 0 → s.sem sl + P s.readers sl = 1)
  semN : ∀ sl, s.alive sl.1 = true → ¬ s.writer.waits sl → s.sem sl = 0 ∧ P s.readers sl = 0
  ptr : ∀ sl, s.alive sl.1 = true → 0 < s.refs sl → ∃ p, s.ptr sl = some p ∧ ∀ n, p = some n → s.alive n = true ∧ sl.1 < n ∧ link s.self s.writer sl.1 n
  self : ∀ n, s.alive n = true → n ≠ 0 → s.self n < n ∧ s.alive (s.self n) = true
  back : ∀ n, s.alive n = true → n ≠ 0 → s.self n ≠ 0 → ¬ exempt s.writer n → s.ptr (s.self n, s.active (s.self n)) = some (some n)
  tail : s.alive s.tail = true ∧ (s.tail ≠ 0 → s.ptr (s.tail, s.active s.tail) = some none)
  idle : ∀ sl, s.alive sl.1 = true → sl.2 ≠ s.active sl.1 → s.writer.busy sl ∨ s.refs sl = 0
  writer : WOk s s.writer
  readers : ∀ r ∈ s.readers, r.Ok s.ptr
  hooks : (∀ n ∈ s.hooks, s.alive n = true ∧ n ≠ 0) ∧ s.hooks.Nodup

theorem H_set {rs : List RPc} {t : Nat} {r : RPc} (r' : RPc) (h : rs[t]? = some r) (sl : Slot) :
    H (rs.set t r') sl + r.holds.count sl = H rs sl + r'.holds.count sl := sumBy_set (fun r => r.holds.count sl) r' h
theorem P_set {rs : List RPc} {t : Nat} {r : RPc} (r' : RPc) (h : rs[t]? = some r) (sl : Slot) :
    P (rs.set t r') sl + r.posts.count sl = P rs sl + r'.posts.count sl := sumBy_set (fun r => r.posts.count sl) r' h
theorem H_le {rs : List RPc} {t : Nat} {r : RPc} (h : rs[t]? = some r) (sl : Slot) : r.holds.count sl ≤ H rs sl := le_sumBy (fun r => r.holds.count sl) h
theorem P_le {rs : List RPc} {t : Nat} {r : RPc} (h : rs[t]? = some r) (sl : Slot) : r.posts.count sl ≤ P rs sl := le_sumBy (fun r => r.posts.count sl) h

variable {s : State}

theorem Inv.held (hI : Inv s) {sl : Slot} (h : 0 < H s.readers sl) : s.alive sl.1 = true ∧ 0 < s.refs sl := by
  obtain ⟨c, k⟩ := sl
  have ha : s.alive c = true := by
    cases hc : s.alive c
    · have := (hI.dead c k hc).1; omega
    · rfl
  have := hI.refs c k ha
  exact ⟨ha, by omega⟩

theorem Inv.dead' (hI : Inv s) (sl : Slot) (h : s.alive sl.1 = false) : H s.readers sl = 0 ∧ P s.readers sl = 0 := hI.dead sl.1 sl.2 h

theorem Inv.post (hI : Inv s) {sl : Slot} (h : 0 < P s.readers sl) : s.alive sl.1 = true ∧ s.writer.waits sl ∧ s.refs sl = 0 ∧ s.sem sl = 0 ∧ P s.readers sl = 1 := by
  obtain ⟨c, k⟩ := sl
  have ha : s.alive c = true := by
    cases hc : s.alive c
    · have := (hI.dead c k hc).2; omega
    · rfl
  refine ⟨ha, ?_⟩
  by_cases hw : s.writer.waits (c, k)
  · have h1 := hI.semW _ ha hw
    have h2 : s.refs (c, k) = 0 := by
      rcases Nat.eq_zero_or_pos (s.refs (c, k)) with h | h'
      · exact h
      · have := (h1.1 h').2; omega
    have := h1.2 h2
    exact ⟨hw, h2, by omega, by omega⟩
  · have := (hI.semN _ ha hw).2; omega

/-- A reader reads only live cells. -/
theorem Inv.target (hI : Inv s) {t c : Nat} {r : RPc} {prev : Option Slot} (ht : s.readers[t]? = some r)
    (hh : ∀ h, prev = some h → h ∈ r.holds) (h : target s.ptr c prev) : s.alive c = true := by
  rcases h with ⟨rfl, _⟩ | ⟨h, hp, hq⟩
  · exact hI.root
  · have h1 := H_le ht h
    have h2 := List.count_pos_iff.2 (hh h hp)
    obtain ⟨h3, h4⟩ := hI.held (sl := h) (by omega)
    obtain ⟨p, h5, h6⟩ := hI.ptr h h3 h4
    rw [hq] at h5
    cases h5
    exact (h6 c rfl).1

/-- Nobody reads the cell of a node that is being destroyed. -/
theorem Inv.not_destroyed (hI : Inv s) {t c : Nat} {r : RPc} {prev : Option Slot} (ht : s.readers[t]? = some r)
    (hh : ∀ h, prev = some h → h ∈ r.holds) (h : Sighook.target s.ptr c prev) {ph : Phase} {x : Nat} {i : Bool} {v : Option Nat} :
    s.writer ≠ .run ph x i v (.destroy c) := by
  intro hw
  have hk := hI.writer
  rw [hw] at hk
  obtain ⟨_, _, hne, _, _, _, _, _, _, _, hp⟩ := hk
  rcases h with ⟨rfl, _⟩ | ⟨h, hq, hq'⟩
  · exact hne rfl
  · have h1 := H_le ht h
    have h2 := List.count_pos_iff.2 (hh h hq)
    obtain ⟨h3, h4⟩ := hI.held (sl := h) (by omega)
    exact hp h h4 h3 hq'

theorem mem_set {α : Type} {l : List α} {t : Nat} {a b : α} (h : a ∈ l.set t b) : a ∈ l ∨ a = b := List.mem_or_eq_of_mem_set h

/-- A reader's step keeps the invariant if it changes only counts, in a consistent way. -/
theorem Inv.reader_step (hI : Inv s) {s' : State} {t : Nat} {r r' : RPc} (ht : s.readers[t]? = some r)
    (hr : s'.readers = s.readers.set t r') (e1 : s'.active = s.active) (e2 : s'.ptr = s.ptr) (e3 : s'.self = s.self) (e4 : s'.tail = s.tail)
    (e5 : s'.alive = s.alive) (e6 : s'.fresh = s.fresh) (e7 : s'.writer = s.writer) (e8 : s'.hooks = s.hooks) (e9 : s'.bad = false)
    (hc : ∀ sl, s'.refs sl + r.holds.count sl = s.refs sl + r'.holds.count sl)
    (hz : ∀ sl, s.alive sl.1 = true → 0 < s'.refs sl → 0 < s.refs sl)
    (hs : ∀ sl, s.alive sl.1 = true → s'.sem sl + P s'.readers sl = s.sem sl + P s.readers sl + (if 0 < s.refs sl ∧ s'.refs sl = 0 then 1 else 0))
    (hd : ∀ sl, s.alive sl.1 = false → r'.holds.count sl = 0 ∧ r'.posts.count sl = 0)
    (hw : ∀ sl, 0 < s.refs sl → s'.refs sl = 0 → s.writer.waits sl)
    (ho : r'.Ok s.ptr) : Inv s' := by
  refine ⟨e9, by rw [e5]; exact hI.root, by rw [e5, e6]; exact hI.fresh, ?_, ?_, ?_, ?_, ?_, by rw [e3, e5]; exact hI.self,
    by rw [e1, e2, e3, e5, e7]; exact hI.back, by rw [e1, e2, e4, e5]; exact hI.tail, ?_, ?_, ?_, by rw [e5, e8]; exact hI.hooks⟩
  · intro c k ha
    rw [e5] at ha
    have h1 := hI.refs c k ha
    have h2 := H_set r' ht (c, k)
    have h3 := hc (c, k)
    rw [e1, e7, hr]; omega
  · intro c k ha
    rw [e5] at ha
    obtain ⟨h1, h2⟩ := hI.dead c k ha
    obtain ⟨h3, h4⟩ := hd (c, k) ha
    have h5 := H_set r' ht (c, k)
    have h6 := P_set r' ht (c, k)
    rw [hr]; omega
  · intro sl ha hwt
    rw [e5] at ha
    rw [e7] at hwt
    obtain ⟨h1, h2⟩ := hI.semW sl ha hwt
    have h3 := hs sl ha
    refine ⟨fun hp => ?_, fun hp => ?_⟩
    · have := h1 (hz sl ha hp)
      rw [if_neg (by omega)] at h3; omega
    · by_cases h4 : 0 < s.refs sl
      · have := h1 h4
        rw [if_pos ⟨h4, hp⟩] at h3; omega
      · have := h2 (by omega)
        rw [if_neg (by omega)] at h3; omega
  · intro sl ha hwt
    rw [e5] at ha
    rw [e7] at hwt
    have h1 := hI.semN sl ha hwt
    have h3 := hs sl ha
    rw [if_neg (fun h => hwt (hw sl h.1 h.2))] at h3; omega
  · intro sl ha hp
    rw [e5] at ha
    rw [e2, e3, e5, e7]
    exact hI.ptr sl ha (hz sl ha hp)
  · intro sl ha hne
    rw [e5] at ha
    rw [e1] at hne
    rw [e7]
    rcases hI.idle sl ha hne with h | h
    · exact Or.inl h
    · right
      rcases Nat.eq_zero_or_pos (s'.refs sl) with h' | h'
      · exact h'
      · have := hz sl ha h'; omega
  · have h := hI.writer
    rw [e7]
    have hz' : ∀ sl, s.alive sl.1 = true → s.refs sl = 0 → s'.refs sl = 0 := by
      intro sl ha h0
      rcases Nat.eq_zero_or_pos (s'.refs sl) with h' | h'
      · exact h'
      · have := hz sl ha h'; omega
    cases hwr : s.writer with
    | idle => trivial
    | run ph x i v k =>
      rw [hwr] at h
      cases k with
      | append n =>
        obtain ⟨a1, a2, a3, a4, a5, a6, a7, a8, a9, a10, a11, a12⟩ := h
        exact ⟨by rw [e5]; exact a1, by rw [e1]; exact a2, by rw [e2]; exact a3, by rw [e2]; exact a4, fun hp => hz' _ a1 (a5 hp), a6,
          by rw [e3]; exact a7, by rw [e5]; exact a8, a9, by rw [e4]; exact a10, by rw [e8]; exact a11, by rw [e2]; exact a12⟩
      | remove X nx =>
        obtain ⟨a1, a2, a3, a4, a5, a6, a7, a8, a9, a10, a11, a12, a13⟩ := h
        refine ⟨by rw [e5]; exact a1, by rw [e1]; exact a2, by rw [e2]; exact a3, by rw [e2]; exact a4, fun hp => hz' _ a1 (a5 hp), a6,
          by rw [e3]; exact a7, by rw [e5]; exact a8, a9, by rw [e1, e2]; exact a10, by rw [e4]; exact a11, by rw [e8]; exact a12, ?_⟩
        intro hp sl h1 h2 h3
        rw [e5] at h2; rw [e2] at h3
        exact a13 hp sl (hz sl h2 h1) h2 h3
      | destroy X =>
        obtain ⟨a1, a2, a3, a4, a5, a6, a7, a8, a9, a10, a11⟩ := h
        refine ⟨a1, a2, a3, by rw [e5]; exact a4, by rw [e1]; exact a5, by rw [e2]; exact a6, by rw [e4]; exact a7, by rw [e8]; exact a8, fun hp => hz' _ a4 (a9 hp),
          by rw [e3, e5]; exact a10, ?_⟩
        intro sl h1 h2
        rw [e5] at h2; rw [e2]
        exact a11 sl (hz sl h2 h1) h2
  · intro q hq
    rw [e2]
    rw [hr] at hq
    rcases mem_set hq with h | h
    · exact hI.readers q h
    · rw [h]; exact ho

/-- A step that does not change any count. -/
theorem Inv.reader_move (hI : Inv s) {s' : State} {t : Nat} {r r' : RPc} (ht : s.readers[t]? = some r) (p : Bool) (hp : p = true)
    (hs : s' = (s.need p).put t r') (hh : ∀ sl, r'.holds.count sl = r.holds.count sl) (hq : ∀ sl, r'.posts.count sl = r.posts.count sl)
    (ho : r'.Ok s.ptr) : Inv s' := by
  subst hs hp
  refine hI.reader_step ht (r' := r') rfl rfl rfl rfl rfl rfl rfl rfl rfl (by show (s.bad || !true) = false; simp [hI.good]) ?_ ?_ ?_ ?_ ?_ ho
  · intro sl; rw [hh]; rfl
  · intro sl _ h; exact h
  · intro sl _
    have := P_set r' ht sl
    have := hq sl
    have h : ¬ (0 < s.refs sl ∧ s.refs sl = 0) := by omega
    show s.sem sl + P (s.readers.set t r') sl = s.sem sl + P s.readers sl + (if 0 < s.refs sl ∧ s.refs sl = 0 then 1 else 0)
    rw [if_neg h]; omega
  · intro sl ha
    obtain ⟨h1, h2⟩ := hI.dead' sl ha
    have := H_le ht sl
    have := P_le ht sl
    rw [hh, hq]; omega
  · intro sl h1 h2; have : s.refs sl = 0 := h2; omega

theorem mem_holds_alive (hI : Inv s) {t : Nat} {r : RPc} (ht : s.readers[t]? = some r) {sl : Slot} (h : sl ∈ r.holds) :
    s.alive sl.1 = true ∧ 0 < s.refs sl := by
  have h1 := H_le ht sl
  have h2 := List.count_pos_iff.2 h
  exact hI.held (by omega)

theorem posts_alive (hI : Inv s) {t : Nat} {r : RPc} (ht : s.readers[t]? = some r) {sl : Slot} (h : sl ∈ r.posts) :
    s.alive sl.1 = true ∧ s.writer.waits sl ∧ s.refs sl = 0 ∧ s.sem sl = 0 ∧ P s.readers sl = 1 := by
  have h1 := P_le ht sl
  have h2 := List.count_pos_iff.2 h
  exact hI.post (by omega)

/-- Readers increment only counts that are already positive, of live cells that are not being
destroyed. -/
theorem Inv.drop_waits (hI : Inv s) {t : Nat} {r : RPc} (ht : s.readers[t]? = some r) {sl : Slot} (h : sl ∈ r.holds) (h1 : s.refs sl = 1) :
    s.writer.waits sl := by
  obtain ⟨ha, hp⟩ := mem_holds_alive hI ht h
  obtain ⟨c, k⟩ := sl
  have h2 := hI.refs c k ha
  have h3 := H_le ht (c, k)
  have h4 := List.count_pos_iff.2 h
  have h5 : owned s.writer c (s.active c) k = 0 := by omega
  -- the slot is not the active one, or the node is being destroyed
  have hw := hI.writer
  by_cases hk : k = s.active c
  · subst hk
    cases hwr : s.writer with
    | idle => rw [hwr] at h5; simp [owned] at h5
    | run ph x i v kk =>
      rw [hwr] at h5 hw
      cases kk with
      | append n => cases ph <;> simp [owned] at h5
      | remove X nx => cases ph <;> simp [owned] at h5
      | destroy X =>
        obtain ⟨a1, a2, a3, a4, a5, a6, a7, a8, a9, a10, a11⟩ := hw
        subst a1
        cases ph <;> simp [owned] at h5
        · subst h5; rw [a5]; exact ⟨v, _, rfl⟩
        · subst h5
          have := a9 rfl
          rw [a5] at h1
          omega
  · rcases hI.idle (c, k) ha hk with ⟨x, i, v, kk, hb⟩ | h0
    · rcases hb with ⟨e1, e2⟩ | ⟨e1, e2⟩ | ⟨e1, e2⟩
      · cases e2
        rw [e1] at h5; simp [owned] at h5
      · cases e2
        rw [e1] at h5 hw
        cases kk with
        | append n => simp [owned] at h5
        | remove X nx => simp [owned] at h5
        | destroy X =>
          obtain ⟨a1, a2, a3, a4, a5, _⟩ := hw
          subst a1; exact absurd a5.symm hk
      · cases e2
        exact ⟨v, kk, e1⟩
    · omega

/-- Dropping a reference. -/
theorem Inv.reader_drop (hI : Inv s) {s' : State} {t : Nat} {r r' : RPc} {h : Slot} (ht : s.readers[t]? = some r) (hm : h ∈ r.holds) (p : Bool) (hp : p = true)
    (hs : s' = ((s.need p).drop h).put t r') (hh : ∀ sl, r'.holds.count sl + (if sl = h then 1 else 0) = r.holds.count sl) (hq0 : r.posts = [])
    (hq : r'.posts = if s.refs h = 1 then [h] else []) (ho : r'.Ok s.ptr) : Inv s' := by
  subst hs hp
  obtain ⟨ha, hpos⟩ := mem_holds_alive hI ht hm
  refine hI.reader_step ht (r' := r') rfl rfl rfl rfl rfl rfl rfl rfl rfl (by show (s.bad || !true) = false; simp [hI.good]) ?_ ?_ ?_ ?_ ?_ ho
  · intro sl
    show upd s.refs h (s.refs h - 1) sl + _ = _
    have := hh sl
    rcases upd_cases s.refs h sl (s.refs h - 1) with ⟨e, e'⟩ | ⟨e, e'⟩
    · rw [e']; subst e; rw [if_pos rfl] at this; omega
    · rw [e', if_neg e] at *; omega
  · intro sl _
    show 0 < upd s.refs h (s.refs h - 1) sl → _
    rcases upd_cases s.refs h sl (s.refs h - 1) with ⟨e, e'⟩ | ⟨e, e'⟩
    · rw [e']; subst e; omega
    · rw [e']; exact id
  · intro sl _
    show s.sem sl + P (s.readers.set t r') sl = s.sem sl + P s.readers sl + (if 0 < s.refs sl ∧ upd s.refs h (s.refs h - 1) sl = 0 then 1 else 0)
    have h1 := P_set r' ht sl
    rw [hq0, hq] at h1
    rcases upd_cases s.refs h sl (s.refs h - 1) with ⟨e, e'⟩ | ⟨e, e'⟩
    · rw [e']; subst e
      by_cases h2 : s.refs sl = 1
      · rw [if_pos h2] at h1
        rw [if_pos (by omega)]
        simp at h1; omega
      · rw [if_neg h2] at h1
        rw [if_neg (by omega)]
        simp at h1; omega
    · rw [e', if_neg (by omega)]
      have h2 : List.count sl (if s.refs h = 1 then [h] else []) = 0 := by
        split
        · rw [List.count_eq_zero]; simpa using e
        · rfl
      rw [h2] at h1; simp at h1; omega
  · intro sl hd
    obtain ⟨h1, h2⟩ := hI.dead' sl hd
    have h3 := H_le ht sl
    have h4 := hh sl
    refine ⟨by omega, ?_⟩
    rw [hq]
    split
    · rw [List.count_eq_zero]; intro hc; simp at hc; subst hc; rw [ha] at hd; cases hd
    · rfl
  · intro sl h1
    show upd s.refs h (s.refs h - 1) sl = 0 → _
    rcases upd_cases s.refs h sl (s.refs h - 1) with ⟨e, e'⟩ | ⟨e, e'⟩
    · rw [e']; subst e; intro h2; exact hI.drop_waits ht hm (by omega)
    · rw [e']; intro h2; omega

/-- Posting a semaphore. -/
theorem Inv.reader_post (hI : Inv s) {s' : State} {t : Nat} {r r' : RPc} {h : Slot} (ht : s.readers[t]? = some r) (hm : r.posts = [h]) (p : Bool) (hp : p = true)
    (hs : s' = ({ s.need p with sem := upd s.sem h (s.sem h + 1) } : State).put t r') (hh : ∀ sl, r'.holds.count sl = r.holds.count sl)
    (hq : r'.posts = []) (ho : r'.Ok s.ptr) : Inv s' := by
  subst hs hp
  refine hI.reader_step ht (r' := r') rfl rfl rfl rfl rfl rfl rfl rfl rfl (by show (s.bad || !true) = false; simp [hI.good]) ?_ ?_ ?_ ?_ ?_ ho
  · intro sl; rw [hh]; rfl
  · intro sl _ h; exact h
  · intro sl _
    show upd s.sem h (s.sem h + 1) sl + P (s.readers.set t r') sl = s.sem sl + P s.readers sl + (if 0 < s.refs sl ∧ s.refs sl = 0 then 1 else 0)
    rw [if_neg (by omega)]
    have h1 := P_set r' ht sl
    rw [hm, hq] at h1
    rcases upd_cases s.sem h sl (s.sem h + 1) with ⟨e, e'⟩ | ⟨e, e'⟩
    · rw [e']; subst e; simp at h1; omega
    · rw [e']
      rw [List.count_eq_zero.2 (by simpa using e)] at h1
      simp at h1; omega
  · intro sl ha
    obtain ⟨h1, _⟩ := hI.dead' sl ha
    have := H_le ht sl
    rw [hh, hq]; exact ⟨by omega, rfl⟩
  · intro sl h1 h2; have : s.refs sl = 0 := h2; omega

theorem count1 (sl a : Slot) : List.count sl [a] = if sl = a then 1 else 0 := by
  by_cases e : sl = a
  · subst e; simp
  · rw [if_neg e, List.count_eq_zero]; simpa using e
theorem count2 (sl a b : Slot) : List.count sl [a, b] = List.count sl [a] + if sl = b then 1 else 0 := by
  rw [← count1, ← List.count_append]; rfl

theorem reader_inv {t : Nat} {s' : State} (hI : Inv s) (st : RStep true s t s') : Inv s' := by
  have ok : ∀ {r : RPc}, s.readers[t]? = some r → r.Ok s.ptr := fun h => hI.readers _ (List.mem_of_getElem? h)
  cases st with
  | start ht =>
    exact hI.reader_move ht (r' := .active 0 none) true rfl (by simp [State.need]) (fun _ => rfl) (fun _ => rfl) (Or.inl ⟨rfl, rfl⟩)
  | active c prev ht =>
    have h := ok ht
    refine hI.reader_move ht _ (hI.target ht (by intro h e; simp [RPc.holds, e]) (ok ht)) rfl (fun _ => rfl) (fun _ => rfl) h
  | get c k prev ht =>
    have h1 : ∀ r, r = afterLoad (s.refs (c, k)) c k prev → r.holds = prev.toList ∧ r.posts = [] ∧ r.Ok s.ptr := by
      intro r hr
      unfold afterLoad at hr
      split at hr
      · have h := ok ht; subst hr; exact ⟨rfl, rfl, h⟩
      · have h := ok ht; subst hr; exact ⟨rfl, rfl, h, by omega⟩
    obtain ⟨h2, h3, h4⟩ := h1 _ rfl
    exact hI.reader_move ht _ (hI.target ht (by intro h e; simp [RPc.holds, e]) (ok ht)) rfl (fun _ => by rw [h2]; rfl) (fun _ => by rw [h3]; rfl) h4
  | casFail c k r prev ht =>
    have h1 : ∀ r, r = afterLoad (s.refs (c, k)) c k prev → r.holds = prev.toList ∧ r.posts = [] ∧ r.Ok s.ptr := by
      intro r hr
      unfold afterLoad at hr
      split at hr
      · subst hr; exact ⟨rfl, rfl, (ok ht).1⟩
      · subst hr; exact ⟨rfl, rfl, (ok ht).1, by omega⟩
    obtain ⟨h2, h3, h4⟩ := h1 _ rfl
    exact hI.reader_move ht _ (hI.target ht (by intro h e; simp [RPc.holds, e]) (ok ht).1) rfl (fun _ => by rw [h2]; rfl) (fun _ => by rw [h3]; rfl) h4
  | casOk c k r prev ht hr =>
    have hal := hI.target ht (by intro h e; simp [RPc.holds, e]) (ok ht).1
    have hr0 := (ok ht).2
    subst hr
    refine hI.reader_step ht (r' := .ptr c k prev) rfl rfl rfl rfl rfl rfl rfl rfl rfl (by show (s.bad || !s.alive c) = false; simp [hI.good, hal]) ?_ ?_ ?_ ?_ ?_ (ok ht).1
    · intro sl
      show upd s.refs (c, k) _ sl + List.count sl prev.toList = s.refs sl + List.count sl ((c, k) :: prev.toList)
      rcases upd_cases s.refs (c, k) sl (s.refs (c, k) + 1) with ⟨e, e'⟩ | ⟨e, e'⟩
      · rw [e', e]; simp; omega
      · rw [e', List.count_cons_of_ne (fun h => e h.symm)]
    · intro sl _
      show 0 < upd s.refs (c, k) _ sl → _
      rcases upd_cases s.refs (c, k) sl (s.refs (c, k) + 1) with ⟨e, e'⟩ | ⟨e, e'⟩
      · rw [e]; intro _; exact hr0
      · rw [e']; exact id
    · intro sl _
      show s.sem sl + P (s.readers.set t _) sl = s.sem sl + P s.readers sl + (if 0 < s.refs sl ∧ upd s.refs (c, k) _ sl = 0 then 1 else 0)
      have h1 := P_set (.ptr c k prev) ht sl
      rw [if_neg (by rcases upd_cases s.refs (c, k) sl (s.refs (c, k) + 1) with ⟨e, e'⟩ | ⟨e, e'⟩ <;> rw [e'] <;> omega)]
      simp only [RPc.posts, List.count_nil] at h1
      omega
    · intro sl hd
      refine ⟨?_, rfl⟩
      have h1 := (hI.dead' sl hd).1
      have h2 := H_le ht sl
      simp only [RPc.holds] at h2 ⊢
      rw [List.count_cons_of_ne]
      · omega
      · intro e; subst e; rw [hal] at hd; cases hd
    · intro sl h1
      show upd s.refs (c, k) _ sl = 0 → _
      rcases upd_cases s.refs (c, k) sl (s.refs (c, k) + 1) with ⟨e, e'⟩ | ⟨e, e'⟩ <;> rw [e'] <;> intro h2 <;> omega
  | ptr c k prev ht =>
    obtain ⟨h1, h2⟩ := mem_holds_alive hI ht (sl := (c, k)) (by simp [RPc.holds])
    obtain ⟨p, h3, h4⟩ := hI.ptr _ h1 h2
    refine hI.reader_move ht _ (by simp [h1, h3]) rfl ?_ ?_ ?_
    · intro sl; cases prev <;> rfl
    · intro sl; cases prev <;> rfl
    · cases prev <;> simp [RPc.Ok, h3]
  | put c k p h ht =>
    obtain ⟨h1, h2⟩ := mem_holds_alive hI ht (sl := h) (by simp [RPc.holds])
    refine hI.reader_drop ht (h := h) (by simp [RPc.holds]) _ (by simp [h1]; exact h2) rfl ?_ rfl ?_ ?_
    · intro sl
      split <;> exact (count2 sl (c, k) h).symm
    · by_cases e : s.refs h = 1 <;> simp [e, RPc.posts]
    · have h' := ok ht
      split <;> exact h'
  | post c k p h ht =>
    obtain ⟨h1, _⟩ := posts_alive hI ht (sl := h) (by simp [RPc.posts])
    have h' := ok ht
    exact hI.reader_post ht rfl _ h1 rfl (fun _ => rfl) rfl h'
  | run c k n ht =>
    obtain ⟨h1, h2⟩ := mem_holds_alive hI ht (sl := (c, k)) (by simp [RPc.holds])
    obtain ⟨p, h3, h4⟩ := hI.ptr _ h1 h2
    have h5 := ok ht
    have h5' : s.ptr (c, k) = some (some n) := h5
    rw [h5'] at h3; cases h3
    exact hI.reader_move ht _ (h4 n rfl).1 rfl (fun _ => rfl) (fun _ => rfl) (Or.inr ⟨_, rfl, h5'⟩)
  | leave c k p ht =>
    exact hI.reader_move ht (r' := .fput c k) true rfl (by simp [State.need]) (fun _ => rfl) (fun _ => rfl) trivial
  | fput c k ht =>
    obtain ⟨h1, h2⟩ := mem_holds_alive hI ht (sl := (c, k)) (by simp [RPc.holds])
    refine hI.reader_drop ht (h := (c, k)) (by simp [RPc.holds]) _ (by simp [h1]; exact h2) rfl ?_ rfl ?_ ?_
    · intro sl
      split <;> simp [RPc.holds, count1]
    · by_cases e : s.refs (c, k) = 1 <;> simp [e, RPc.posts]
    · split <;> trivial
  | fpost c k ht =>
    obtain ⟨h1, _⟩ := posts_alive hI ht (sl := (c, k)) (by simp [RPc.posts])
    exact hI.reader_post ht rfl _ h1 rfl (fun _ => rfl) rfl trivial

end Verif.Sighook
