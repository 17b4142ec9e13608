import Verif.Lemmas.Cprint
import Verif.Lemmas.Path
/-! # Lemmas about the parts of colored paths -/
namespace Verif.Cprint
open Verif
open Verif.Path (backWhile xbaseoff skipLeading)

theorem backWhile_spec (P : UInt8 → Bool) (path : Bytes) (i : Nat) :
    backWhile P path i ≤ i ∧ (∀ j, backWhile P path i ≤ j → j < i → (path[j]?).any P = true) ∧
      (backWhile P path i = 0 ∨ (path[backWhile P path i - 1]?).any P = false) := by
  induction i with
  | zero => exact ⟨Nat.le_refl _, fun j _ h => absurd h (Nat.not_lt_zero _), .inl rfl⟩
  | succ i ih =>
    unfold backWhile
    by_cases h : (path[i]?).any P = true
    · rw [if_pos h]
      refine ⟨Nat.le_succ_of_le ih.1, fun j h1 h2 => ?_, ih.2.2⟩
      rcases Nat.lt_succ_iff_lt_or_eq.1 h2 with h3 | h3
      · exact ih.2.1 j h1 h3
      · rw [h3]; exact h
    · rw [if_neg h]
      refine ⟨Nat.le_refl _, fun j h1 h2 => absurd h2 (by omega), .inr ?_⟩
      simpa using h

theorem nameStart_eq {path : Bytes} : ∀ {v : Nat}, v ≤ path.length →
    nameStart path v = backWhile (fun c => c != 47) path v := by
  intro v
  induction v with
  | zero => intro _; rfl
  | succ v ih =>
    intro h
    have hx : path[v]? = some path[v] := List.getElem?_eq_getElem h
    have ht : path.take (v + 1) = path.take v ++ [path[v]] := by
      rw [List.take_succ, hx]
      rfl
    have ih := ih (Nat.le_of_succ_le h)
    unfold nameStart at ih ⊢
    unfold backWhile
    rw [ht, List.reverse_append, hx]
    show v + 1 - (List.takeWhile _ (path[v] :: (path.take v).reverse)).length = _
    by_cases hs : path[v] = 47
    · rw [List.takeWhile_cons_of_neg (by simp [hs]), if_neg (by simp [hs])]
      simp
    · rw [List.takeWhile_cons_of_pos (by simp [hs]), if_pos (by simp [hs]), ← ih, List.length_cons]
      omega

theorem boundary_iff {path : Bytes} {k : Nat} : boundary path k = true ↔
    0 < k ∧ k < path.length ∧ ((path[k - 1]? = some 47) ↔ ¬ (path[k]? = some 47)) := by
  unfold boundary
  rw [Bool.and_eq_true, Bool.and_eq_true, decide_eq_true_eq, decide_eq_true_eq, and_assoc]
  refine and_congr Iff.rfl (and_congr Iff.rfl ?_)
  have e : ∀ o : Option UInt8, (o == some 47) = decide (o = some 47) := fun o => by
    by_cases h : o = some 47 <;> simp [h]
  rw [e, e]
  by_cases h1 : path[k - 1]? = some 47 <;> by_cases h2 : path[k]? = some 47 <;> simp [h1, h2]

/-- The next place to look at. -/
def lower (path : Bytes) (v : Nat) : Nat :=
  if v > 0 ∧ path[v - 1]? = some 47 then backWhile (fun c => c == 47) path (v - 1)
  else backWhile (fun c => c != 47) path v

theorem any_eq47 (o : Option UInt8) : (o.any fun c => c == 47) = true ↔ o = some 47 := by
  cases o <;> simp

theorem any_ne47 (o : Option UInt8) : (o.any fun c => c != 47) = true ↔ ∃ x, o = some x ∧ x ≠ 47 := by
  cases o <;> simp

theorem lower_spec {path : Bytes} {v : Nat} (hv : v ≤ path.length) :
    lower path v ≤ v ∧ (0 < v → lower path v < v) ∧ (lower path v = 0 ∨ lower path v = v ∨ boundary path (lower path v) = true) ∧
      ∀ k, lower path v < k → k < v → boundary path k = false := by
  unfold lower
  split
  · rename_i h
    obtain ⟨a, b, c⟩ := backWhile_spec (fun c => c == 47) path (v - 1)
    generalize backWhile (fun c => c == 47) path (v - 1) = r at *
    have hall : ∀ j, r ≤ j → j < v → path[j]? = some 47 := by
      intro j h1 h2
      by_cases hj : j = v - 1
      · rw [hj]; exact h.2
      · exact (any_eq47 _).1 (b j h1 (by omega))
    refine ⟨by omega, fun _ => by omega, ?_, fun k h1 h2 => ?_⟩
    · rcases c with c | c
      · exact .inl c
      · by_cases h0 : r = 0
        · exact .inl h0
        · right; right
          rw [boundary_iff]
          refine ⟨by omega, by omega, ?_⟩
          have h2 := hall r (Nat.le_refl _) (by omega)
          have h1 : ¬ path[r - 1]? = some 47 := fun hh => by
            rw [hh] at c
            simp at c
          simp [h1, h2]
    · cases hb : boundary path k with
      | false => rfl
      | true =>
        rw [boundary_iff] at hb
        have := hb.2.2.1 (hall (k - 1) (by omega) (by omega))
        exact absurd (hall k (by omega) h2) this
  · rename_i h
    obtain ⟨a, b, c⟩ := backWhile_spec (fun c => c != 47) path v
    have hlt : 0 < v → backWhile (fun c => c != 47) path v < v := by
      intro h0
      rcases c with c | c
      · omega
      · by_cases he : backWhile (fun c => c != 47) path v = v
        · exfalso
          rw [he] at c
          have hx : path[v - 1]? = some path[v - 1] := List.getElem?_eq_getElem (by omega)
          rw [hx] at c
          have : path[v - 1] = 47 := by simpa using c
          exact h ⟨h0, by rw [hx, this]⟩
        · omega
    generalize backWhile (fun c => c != 47) path v = r at *
    have hall : ∀ j, r ≤ j → j < v → ¬ path[j]? = some 47 := by
      intro j h1 h2 h3
      have := b j h1 h2
      rw [h3] at this
      simp at this
    refine ⟨a, hlt, ?_, fun k h1 h2 => ?_⟩
    · rcases c with c | c
      · exact .inl c
      · by_cases h0 : r = 0
        · exact .inl h0
        · have hrv := hlt (by omega)
          right; right
          rw [boundary_iff]
          refine ⟨by omega, by omega, ?_⟩
          have h2 := hall r (Nat.le_refl _) hrv
          have hx : path[r - 1]? = some path[r - 1] := List.getElem?_eq_getElem (by omega)
          have h1 : path[r - 1]? = some 47 := by
            rw [hx] at c ⊢
            have : path[r - 1] = 47 := by simpa using c
            rw [this]
          simp [h1, h2]
    · cases hb : boundary path k with
      | false => rfl
      | true =>
        rw [boundary_iff] at hb
        exact absurd (hb.2.2.2 (hall k (by omega) h2)) (hall (k - 1) (by omega) (by omega))

theorem back_fixed {path : Bytes} {v : Nat} (h : v = 0 ∨ path[v - 1]? = some 47) :
    backWhile (fun c => c != 47) path v = v := by
  cases v with
  | zero => rfl
  | succ v =>
    have h : path[v]? = some 47 := by simpa using h
    unfold backWhile
    rw [if_neg (by simp [h])]

theorem back_back (path : Bytes) (v : Nat) (hv : v ≤ path.length) :
    backWhile (fun c => c != 47) path (backWhile (fun c => c != 47) path v) = backWhile (fun c => c != 47) path v := by
  apply back_fixed
  obtain ⟨a, b, c⟩ := backWhile_spec (fun c => c != 47) path v
  rcases c with c | c
  · exact .inl c
  · generalize backWhile (fun c => c != 47) path v = r at *
    by_cases h0 : r = 0
    · exact .inl h0
    · right
      have hx : path[r - 1]? = some path[r - 1] := List.getElem?_eq_getElem (by omega)
      rw [hx] at c ⊢
      have : path[r - 1] = 47 := by simpa using c
      rw [this]

/-- The name ends where the valid part does. -/
def Cpath.Named (c : Cpath) : Prop :=
  c.valid ≤ c.path.length ∧ (c.nameoff = backWhile (fun x => x != 47) c.path c.valid ∨ (0 < c.valid ∧ c.path[c.valid - 1]? = some 47))

theorem retreat_eq {c : Cpath} (h : c.Named) : cpathRetreat c =
    { c with valid := lower c.path c.valid, nameoff := backWhile (fun x => x != 47) c.path (lower c.path c.valid) } := by
  unfold cpathRetreat lower
  split
  · rfl
  · rename_i hs
    rcases h.2 with h2 | h2
    · rw [← h2]
      have := back_back c.path c.valid h.1
      rw [← h2] at this
      rw [this]
    · exact absurd h2 hs

theorem lower_le {path : Bytes} {v : Nat} (hv : v ≤ path.length) : lower path v ≤ path.length :=
  Nat.le_trans (lower_spec hv).1 hv

/-- The longest part that exists is found. -/
theorem validLoop_eq (cwd : Bool) (base : Bytes) : ∀ (n : Nat) (c : Cpath), c.valid ≤ c.path.length → c.valid < n →
    c.nameoff = backWhile (fun x => x != 47) c.path c.valid → c.sb = none →
    (c.valid = 0 ∨ boundary c.path c.valid = true) →
    (∀ k, c.valid < k → boundary c.path k = true → c.ftw.statAt cwd (base ++ c.path.take k) = none) →
    ∃ v sb, validLoop cwd base n c = .ok { c with valid := v, nameoff := backWhile (fun x => x != 47) c.path v, sb := sb } ∧
      v ≤ c.path.length ∧ (v = 0 ∨ boundary c.path v = true) ∧
      (∀ k, v < k → boundary c.path k = true → c.ftw.statAt cwd (base ++ c.path.take k) = none) ∧
      (0 < v → sb.isSome = true ∧ sb = c.ftw.statAt cwd (base ++ c.path.take v)) := by
  intro n
  induction n with
  | zero => intro c _ h; omega
  | succ n ih =>
    intro c hv hn hname hsb hb hall
    unfold validLoop
    by_cases h0 : c.valid > 0
    · rw [if_pos h0]
      cases hs : c.ftw.statAt cwd (base ++ c.path.take c.valid) with
      | some sb =>
        exact ⟨c.valid, some sb, by dsimp only; rw [← hname], hv, hb, hall, fun _ => ⟨rfl, hs.symm⟩⟩
      | none =>
        dsimp only
        rw [retreat_eq ⟨hv, .inl hname⟩]
        obtain ⟨l1, l2, l3, l4⟩ := lower_spec hv
        have l2 := l2 h0
        exact ih { c with valid := lower c.path c.valid, nameoff := backWhile (fun x => x != 47) c.path (lower c.path c.valid) }
          (lower_le hv) (by show lower c.path c.valid < n; omega) rfl hsb
          (by
            show lower c.path c.valid = 0 ∨ _
            rcases l3 with l3 | l3 | l3
            · exact .inl l3
            · omega
            · exact .inr l3)
          (by
            intro k hk hbk
            rcases Nat.lt_trichotomy k c.valid with h | h | h
            · exact absurd hbk (by rw [l4 k hk h]; simp)
            · rw [h]; exact hs
            · exact hall k h hbk)
    · rw [if_neg h0]
      have h0 : c.valid = 0 := by omega
      refine ⟨c.valid, c.sb, by rw [← hname], hv, hb, hall, fun h => absurd h (by omega)⟩

/-- `existing` is the last boundary whose part exists. -/
theorem existing_eq {stat : Bytes → Option St} {path : Bytes} {v : Nat} (hv : v ≤ path.length)
    (h1 : v = 0 ∨ boundary path v = true) (h2 : 0 < v → (stat (path.take v)).isSome = true)
    (h3 : ∀ k, v < k → boundary path k = true → stat (path.take k) = none) : existing stat path = v := by
  unfold existing
  cases hf : (List.range path.length).reverse.find? (fun k => boundary path k && (stat (path.take k)).isSome) with
  | none =>
    show 0 = v
    rw [List.find?_eq_none] at hf
    by_cases h0 : v = 0
    · exact h0.symm
    · exfalso
      rcases h1 with h1 | h1
      · exact h0 h1
      · refine hf v ?_ ?_
        · rw [List.mem_reverse, List.mem_range]
          exact (boundary_iff.1 h1).2.1
        · rw [h1, h2 (by omega)]
          rfl
  | some k =>
    show k = v
    obtain ⟨hk, as, bs, hab, hno⟩ := List.find?_eq_some_iff_append.1 hf
    rw [Bool.and_eq_true] at hk
    rcases Nat.lt_trichotomy k v with h | h | h
    · exfalso
      have h1 : boundary path v = true := h1.resolve_left (by omega)
      have hvm : v ∈ (List.range path.length).reverse := by
        rw [List.mem_reverse, List.mem_range]
        exact (boundary_iff.1 h1).2.1
      rw [hab, List.mem_append, List.mem_cons] at hvm
      rcases hvm with hvm | hvm | hvm
      · have := hno v hvm
        rw [h1, h2 (by omega)] at this
        cases this
      · omega
      · have hp : (List.range path.length).reverse.Pairwise (fun a b => b < a) := by
          rw [List.pairwise_reverse]
          exact List.pairwise_lt_range
        rw [hab, List.pairwise_append] at hp
        have := (List.pairwise_cons.1 hp.2.1).1 v hvm
        omega
    · exact h
    · rw [h3 k h hk.1] at hk
      simp at hk

/-- Without a slash at the end, the last name begins after the last slash. -/
theorem xbaseoff_back {path : Bytes} (h : path.getLast? ≠ some 47) :
    xbaseoff path = backWhile (fun x => x != 47) path path.length := by
  unfold xbaseoff
  have e1 : backWhile (fun c => c == 47) path path.length = path.length := by
    cases hl : path.length with
    | zero => rfl
    | succ n =>
      unfold backWhile
      rw [if_neg]
      intro hh
      rw [any_eq47] at hh
      apply h
      rw [List.getLast?_eq_getElem?, hl]
      exact hh
  dsimp only
  rw [e1]
  obtain ⟨a, b, c⟩ := backWhile_spec (fun x => x != 47) path path.length
  generalize backWhile (fun x => x != 47) path path.length = r at *
  cases hl : path.length with
  | zero => rfl
  | succ n =>
    unfold skipLeading
    rw [if_neg]
    rintro ⟨h1, h2⟩
    have := b r (Nat.le_refl _) (by omega)
    rw [h1] at this
    simp at this

/-- What `cpath_init()` should find. -/
structure Found (t : Table) (path : Bytes) (s : Split) (c : Cpath) : Prop where
  path : c.path = path
  nameoff : c.nameoff = s.nameoff
  valid : c.valid = s.valid
  color : s.nameoff < s.valid → fileColor t c = .ok (color t s.view)

theorem found_at {t : Table} (hg : t.Good) {path : Bytes} {f : Ftw} {flags : Follow} {v : Nat} {sb st : Option St}
    (hv : v < path.length ∨ v = 0) (hsb : nameStart path v < v → sb.isSome = true ∧ sb = st) :
    Found t path (splitAt path v st)
      { path, nameoff := nameStart path v, valid := v, ftw := f, flags, sb := sb } := by
  refine ⟨rfl, rfl, rfl, fun h => ?_⟩
  have h : nameStart path v < v := h
  obtain ⟨h1, h2⟩ := hsb h
  obtain ⟨x, hx⟩ := Option.isSome_iff_exists.1 h1
  have hlt : v < path.length := by omega
  have hne : v ≠ path.length := by omega
  refine fileColor_eq hg ?_ ?_ ?_ ?_ ?_
  · unfold cpathType Cpath.len
    dsimp only
    rw [if_neg hne]
    show (match sb with | none => Out.ub | some sb => .ok sb.type) = .ok ((st.map (·.type)).getD .error)
    rw [← h2, hx]
    rfl
  · unfold cpathStat Cpath.len
    dsimp only
    rw [if_neg hne]
    show (match sb with | none => Out.ub | some sb => .ok (some sb)) = .ok st
    rw [← h2, hx]
  · unfold cpathCaps Cpath.len
    dsimp only
    rw [if_neg hne]
    rfl
  · unfold cpathBroken Cpath.len
    dsimp only
    rw [if_pos hlt]
    rfl
  · show (path.drop (nameStart path v)).take (v - nameStart path v) = (path.take v).drop (nameStart path v)
    rw [List.drop_take]

/-- What `cpath_init()` finds. -/
theorem cpathInit_eq {t : Table} (hg : t.Good) {own : Bool} {path : Bytes} {f : Ftw} {flags : Follow} (b : Buf)
    (hf : f.Framed) (hown : own = true → path = f.path) :
    ∃ b' r, cpathInit own b path f flags = .ok (b', r) ∧ b'.out = b.out ∧ b'.needReset = b.needReset ∧
      ((∀ a ∈ b.mem, a = true) → r.isSome = true ∧ ∀ a ∈ b'.mem, a = true) ∧
      ∀ c, r = some c → Found t path (split own path f flags) c := by
  unfold cpathInit split
  dsimp only
  have hn : (if own then f.nameoff else xbaseoff path) = xbaseoff path := by
    cases own with
    | false => rfl
    | true => rw [if_pos rfl, hown rfl, hf.1]
  rw [hn]
  by_cases he : f.typeOf flags ≠ .error
  · rw [if_pos he, if_pos he]
    refine ⟨b, _, rfl, rfl, rfl, fun h => ⟨rfl, h⟩, ?_⟩
    rintro c ⟨⟩
    refine ⟨rfl, rfl, rfl, fun _ => fileColor_eq hg ?_ ?_ ?_ ?_ ?_⟩
    · unfold cpathType
      exact if_pos rfl
    · unfold cpathStat
      exact if_pos rfl
    · unfold cpathCaps
      exact if_pos rfl
    · unfold cpathBroken
      exact if_neg (Nat.lt_irrefl _)
    · show (path.drop _).take (path.length - _) = path.drop _
      apply List.take_of_length_le
      rw [List.length_drop]
      exact Nat.le_refl _
  · rw [if_neg he, if_neg he]
    have hnamed : ({ path, nameoff := xbaseoff path, valid := path.length, ftw := f, flags, sb := none } : Cpath).Named := by
      refine ⟨Nat.le_refl _, ?_⟩
      by_cases hl : path.getLast? = some 47
      · right
        refine ⟨?_, ?_⟩
        · cases path with
          | nil => cases hl
          | cons a l => exact Nat.succ_pos _
        · rw [← hl, List.getLast?_eq_getElem?]
      · left
        exact xbaseoff_back hl
    rw [retreat_eq hnamed]
    dsimp only
    obtain ⟨l1, l2, l3, l4⟩ := lower_spec (Nat.le_refl path.length)
    unfold cpathFind
    dsimp only
    by_cases hd : own = true ∧ f.depth > 0
    · rw [if_pos (by simp [hd.1, hd.2]), if_pos hd]
      refine ⟨b, _, rfl, rfl, rfl, fun h => ⟨rfl, h⟩, ?_⟩
      rintro c ⟨⟩
      have hlast : path.getLast? ≠ some 47 := by
        rw [hown hd.1]
        exact hf.2 hd.2
      have hlow : lower path path.length = f.nameoff := by
        rw [hf.1, ← hown hd.1, xbaseoff_back hlast]
        unfold lower
        rw [if_neg]
        rintro ⟨h1, h2⟩
        exact hlast (by rw [List.getLast?_eq_getElem?]; exact h2)
      have hle : f.nameoff ≤ path.length := hlow ▸ lower_le (Nat.le_refl _)
      have hst : nameStart path f.nameoff = f.nameoff := by
        rw [nameStart_eq hle, hf.1, ← hown hd.1, xbaseoff_back hlast, back_back _ _ (Nat.le_refl _)]
      rw [hlow, ← nameStart_eq hle]
      refine found_at hg ?_ fun h => absurd h (by omega)
      by_cases h0 : 0 < path.length
      · exact .inl (by have := l2 h0; omega)
      · exact .inr (by omega)
    · rw [if_neg (by simpa using hd), if_neg hd]
      by_cases ha : b.alloc.1 = true
      · rw [if_pos ha]
        have hbase : (if own = false ∧ f.atCwd = true ∧ path.head? ≠ some 47 then f.path.take f.nameoff else [])
            = if own then [] else linkBase f path := by
          unfold linkBase
          cases own <;> simp
        rw [hbase]
        generalize hB : (if own then [] else linkBase f path) = base
        have hlen : lower path path.length < path.length ∨ path.length = 0 := by
          by_cases h0 : 0 < path.length
          · exact .inl (l2 h0)
          · exact .inr (by omega)
        obtain ⟨v, sb, e1, e2, e3, e4, e5⟩ := validLoop_eq (own || f.atCwd) base (path.length + 1)
          { path, nameoff := backWhile (fun x => x != 47) path (lower path path.length), valid := lower path path.length,
            ftw := f, flags, sb := none }
          l1 (by show lower path path.length < path.length + 1; omega) rfl rfl
          (by
            show lower path path.length = 0 ∨ _
            rcases l3 with l3 | l3 | l3
            · exact .inl l3
            · left
              omega
            · exact .inr l3)
          (by
            intro k hk hb
            have : boundary path k = true := hb
            exact absurd this (by rw [l4 k hk (boundary_iff.1 this).2.1]; simp))
        rw [e1]
        have hex : existing (fun p => f.statAt (own || f.atCwd) (base ++ p)) path = v :=
          existing_eq e2 e3 (fun h => by have := e5 h; rw [← this.2]; exact this.1) e4
        refine ⟨b.alloc.2, _, rfl, alloc_out b, alloc_needReset b, fun h => ⟨rfl, (alloc_mem h).2⟩, ?_⟩
        rintro c ⟨⟩
        rw [hex]
        dsimp only
        rw [← nameStart_eq e2]
        refine found_at hg ?_ fun h => e5 (by omega)
        rcases e3 with e3 | e3
        · exact .inr e3
        · exact .inl (boundary_iff.1 e3).2.1
      · rw [if_neg ha]
        refine ⟨b.alloc.2, none, rfl, alloc_out b, alloc_needReset b, fun h => absurd (alloc_mem h).1 ha, ?_⟩
        rintro c ⟨⟩

/-! ## Printing paths -/

theorem printable_first {t : Table} {l : List (Bool × Field)} (h : ∀ x ∈ l, x.2 ≠ .rs) : Printable t (firstOf t l) := by
  intro q hq
  obtain ⟨x, h1, rfl, h2, _⟩ := firstOf_field hq
  exact ⟨h2, fun hh => h x h1 (by injection hh)⟩

theorem printable_or {t : Table} {a b : Option Ptr} (ha : Printable t a) (hb : Printable t b) : Printable t (a.or b) := by
  cases a with
  | none => exact hb
  | some a => exact ha

theorem printable_plain {t : Table} (hg : t.Good) {v : View} {p : Option Ptr} (h : plainColor t v = some p) :
    Printable t p := by
  unfold plainColor at h
  split at h
  case h_1 => cases h
  case h_2 =>
    split at h
    · cases h
    · injection h with h
      rw [← h]
      refine printable_or (printable_first ?_) (printable_or (fun q hq => extOf_seq hg hq) (printable_first (by simp)))
      simp [regRules]
  case h_3 =>
    split at h
    · cases h
    · injection h with h
      rw [← h]
      exact printable_first (by simp [dirRules])
  all_goals
    injection h with h
    rw [← h]
    first
      | exact printable_first (by simp)
      | exact fun q hq => (by cases hq)

theorem printable_color {t : Table} (hg : t.Good) (v : View) : Printable t (color t v) := by
  unfold color
  split
  · exact printable_first (by simp)
  · exact fun q hq => (by cases hq)
  · rename_i p hp
    split
    · exact printable_first (by simp)
    · exact printable_plain hg hp

theorem Prints.of_eq {t : Option Table} {f : Prop} {b b' : Buf} {r : R} {ops : List Op} (h : Prints t f b' r ops)
    (h1 : b'.out = b.out) (h2 : b'.needReset = b.needReset) (h3 : (∀ a ∈ b.mem, a = true) → ∀ a ∈ b'.mem, a = true) :
    Prints t f b r ops := by
  obtain ⟨x, ok, e, s, m⟩ := h
  rw [h1, h2] at s
  exact ⟨x, ok, e, s, fun hf hm => m hf (h3 hm)⟩

theorem prints_pathColored {t : Table} (hg : t.Good) (L : Quote.Locale) {own : Bool} {path : Bytes} {f : Ftw}
    {flags : Follow} (b : Buf) (hf : f.Framed) (hown : own = true → path = f.path) :
    Prints (some t) True b (printPathColored L own t b path f flags) (pathOps L t path (split own path f flags)) := by
  obtain ⟨b', r, e, h1, h2, h3, h4⟩ := cpathInit_eq hg (flags := flags) b hf hown
  unfold printPathColored
  rw [e]
  cases r with
  | none =>
    refine ⟨b', false, rfl, fun h => (by cases h), fun _ hm => ?_⟩
    have := (h3 hm).1
    cases this
  | some c =>
    obtain ⟨f1, f2, f3, f4⟩ := h4 c rfl
    generalize split own path f flags = s at *
    have hcol : (if c.nameoff < c.valid then fileColor t c else .ok none)
        = .ok (if s.nameoff < s.valid then color t s.view else none) := by
      rw [f2, f3]
      by_cases h : s.nameoff < s.valid
      · rw [if_pos h, if_pos h, f4 h]
      · rw [if_neg h, if_neg h]
    show Prints _ _ _ (Out.bind (if c.nameoff < c.valid then fileColor t c else .ok none) fun nameColor =>
      printParts L t b' c nameColor) _
    rw [hcol]
    refine Prints.of_eq ?_ h1 h2 fun hm => (h3 hm).2
    unfold pathOps
    show Prints _ _ _ (printParts L t b' c (if s.nameoff < s.valid then color t s.view else none)) _
    have hp : Printable t (if s.nameoff < s.valid then color t s.view else none) := by
      split
      · exact printable_color hg _
      · exact fun q hq => (by cases hq)
    generalize (if s.nameoff < s.valid then color t s.view else none) = col at *
    dsimp only
    unfold printParts
    rw [f1, f2, f3, ptr_eq, errorColor_eq, List.append_assoc]
    exact ((prints_colored hg L (printable_first (by simp)) b' _).then fun b =>
      (prints_colored hg L hp b _).then fun b =>
      prints_colored hg L (printable_first (by simp)) b _).weaken fun _ => ⟨trivial, trivial, trivial⟩

theorem prints_name (L : Quote.Locale) {t : Option Table} (hg : ∀ x, t = some x → x.Good) (b : Buf) (f : Ftw) :
    Prints t True b (printName L t b f) (nameMeaning L t f) := by
  unfold printName nameMeaning
  cases t with
  | none => exact prints_append none b _
  | some t =>
    dsimp only
    unfold printNameColored
    have hl : linkFlags t f = flagsOf t f := by
      unfold linkFlags flagsOf
      simp
    rw [hl]
    have hc : fileColor t (Cpath.mk (f.path.drop f.nameoff) 0 (f.path.drop f.nameoff).length f (flagsOf t f) none) = .ok (color t (nameView f (flagsOf t f))) := by
      refine fileColor_eq (hg t rfl) ?_ ?_ ?_ ?_ ?_
      · unfold cpathType
        exact if_pos rfl
      · unfold cpathStat
        exact if_pos rfl
      · unfold cpathCaps
        exact if_pos rfl
      · unfold cpathBroken
        exact if_neg (Nat.lt_irrefl _)
      · show ((f.path.drop f.nameoff).drop 0).take ((f.path.drop f.nameoff).length - 0) = _
        rw [List.drop_zero, Nat.sub_zero, List.take_length]
        rfl
    dsimp only
    rw [hc]
    exact prints_colored (hg t rfl) L (printable_color (hg t rfl) _) b _

theorem prints_path (L : Quote.Locale) {t : Option Table} (hg : ∀ x, t = some x → x.Good) (b : Buf) {f : Ftw}
    (hf : f.Framed) : Prints t True b (printPath L t b f) (pathMeaning L t f) := by
  unfold printPath pathMeaning
  cases t with
  | none => exact prints_append none b _
  | some t =>
    have hl : linkFlags t f = flagsOf t f := by
      unfold linkFlags flagsOf
      simp
    dsimp only
    rw [hl]
    exact prints_pathColored (hg t rfl) L b hf fun _ => rfl

theorem prints_link (L : Quote.Locale) {t : Option Table} (hg : ∀ x, t = some x → x.Good) (b : Buf) {f : Ftw}
    (hf : f.Framed) : Prints t (f.target.isSome = true) b (printLinkTarget L t b f) (linkMeaning L t f) := by
  unfold printLinkTarget
  cases hx : f.target with
  | none => exact ⟨b, false, rfl, fun h => (by cases h), fun h => (by cases h)⟩
  | some x =>
    have e : x = f.target.getD [] := by rw [hx]; rfl
    cases t with
    | none =>
      show Prints none _ b (append b x) [.txt (f.target.getD [])]
      rw [← e]
      exact (prints_append none b x).weaken fun _ => trivial
    | some t =>
      show Prints (some t) _ b (printPathColored L false t b x f .follow)
        (pathOps L t (f.target.getD []) (split false (f.target.getD []) f .follow))
      rw [← e]
      exact (prints_pathColored (hg t rfl) L b hf (by intro h; cases h)).weaken fun _ => trivial

end Verif.Cprint
