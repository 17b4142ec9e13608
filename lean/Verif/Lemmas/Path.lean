import Verif.Spec.Path
/-! # Splitting paths -/
namespace Verif.Path
open Verif.Bftw (join)

theorem nil_or_snoc (l : Bytes) : l = [] ∨ ∃ l' x, l = l' ++ [x] := by
  rcases List.eq_nil_or_concat l with h | ⟨a, b, h⟩
  · exact Or.inl h
  · exact Or.inr ⟨a, b, by rw [h, List.concat_eq_append]⟩

theorem len_pos {l : Bytes} (h : l ≠ []) : 0 < l.length := List.length_pos_iff.2 h

theorem backWhile_eq (P : UInt8 → Bool) (a b : Bytes) (ha : ∀ x, a.getLast? = some x → P x = false) : ∀ (n : Nat) (m : Bytes), m.length = n → (∀ x ∈ m, P x = true) →
    backWhile P (a ++ (m ++ b)) (a.length + m.length) = a.length := by
  intro n
  induction n generalizing b with
  | zero =>
    intro m hm _
    have : m = [] := List.eq_nil_of_length_eq_zero hm
    subst this
    simp only [List.length_nil, Nat.add_zero, List.nil_append]
    rcases nil_or_snoc a with rfl | ⟨a', x, rfl⟩
    · rfl
    · have hx := ha x (by simp)
      have hl : (a' ++ [x]).length = a'.length + 1 := by simp
      rw [hl]
      unfold backWhile
      simp [hx]
  | succ n ih =>
    intro m hm hall
    rcases nil_or_snoc m with rfl | ⟨m', x, rfl⟩
    · simp at hm
    · have hl : a.length + (m' ++ [x]).length = (a.length + m'.length) + 1 := by simp; omega
      rw [hl]
      have heq : a ++ (m' ++ [x] ++ b) = a ++ (m' ++ ([x] ++ b)) := by simp
      rw [heq]
      unfold backWhile
      have hx : (a ++ (m' ++ ([x] ++ b)))[a.length + m'.length]? = some x := by
        rw [← List.append_assoc, List.getElem?_append_right (by simp)]
        simp
      rw [hx]
      simp only [Option.any_some, hall x (by simp), if_true]
      exact ih ([x] ++ b) m' (by simpa using hm) (fun y hy => hall y (by simp [hy]))

theorem backWhile_all (P : UInt8 → Bool) (m b : Bytes) (h : ∀ x ∈ m, P x = true) : backWhile P (m ++ b) m.length = 0 := by
  have := backWhile_eq P [] b (by simp) m.length m rfl h
  simpa using this

theorem splitLast (P : UInt8 → Bool) (p : Bytes) : ∃ a m, p = a ++ m ∧ (∀ x ∈ m, P x = true) ∧ ∀ x, a.getLast? = some x → P x = false := by
  generalize hr : p.reverse = r
  induction r generalizing p with
  | nil =>
    have : p = [] := by simpa using hr
    subst this
    exact ⟨[], [], rfl, by simp, by simp⟩
  | cons x r ih =>
    have hp : p = r.reverse ++ [x] := by
      have := congrArg List.reverse hr
      simpa using this
    subst hp
    cases hx : P x with
    | true =>
      obtain ⟨a, m, h1, h2, h3⟩ := ih r.reverse (by simp)
      refine ⟨a, m ++ [x], by rw [h1]; simp, ?_, h3⟩
      intro y hy
      rcases List.mem_append.1 hy with hy | hy
      · exact h2 y hy
      · simp at hy; rw [hy]; exact hx
    | false =>
      refine ⟨r.reverse ++ [x], [], by simp, by simp, ?_⟩
      intro y hy
      simp at hy
      rw [← hy]; exact hx

theorem last_exists (p : Bytes) : NoName p ∨ ∃ d c s, LastName p d c s := by
  obtain ⟨a, s, h1, h2, h3⟩ := splitLast (fun x => x == 47) p
  obtain ⟨d, c, h4, h5, h6⟩ := splitLast (fun x => x != 47) a
  by_cases ha : a = []
  · left
    intro x hx
    rw [h1, ha] at hx
    have := h2 x (by simpa using hx)
    simpa using this
  · right
    refine ⟨d, c, s, ⟨by rw [h1, h4, List.append_assoc], ⟨?_, ?_⟩, ?_, ?_⟩⟩
    · rintro rfl
      rw [List.append_nil] at h4
      subst h4
      cases hl : a.getLast? with
      | none => exact ha (List.getLast?_eq_none_iff.1 hl)
      | some x =>
        have e1 := h3 x hl
        have e2 := h6 x hl
        simp at e1 e2
        exact e1 e2
    · intro hm; have := h5 47 hm; simp at this
    · intro x hx; have := h2 x hx; simpa using this
    · rcases nil_or_snoc d with rfl | ⟨d', x, rfl⟩
      · exact Or.inl rfl
      · right
        have := h6 x (by simp)
        simp at this
        simp [this]

theorem LastName.last_ne {p d c s : Bytes} (h : LastName p d c s) : ∀ x, (d ++ c).getLast? = some x → x ≠ 47 := by
  intro x hx h47
  rcases nil_or_snoc c with hc | ⟨c', y, hc⟩
  · exact h.name.1 hc
  · rw [hc, ← List.append_assoc] at hx
    simp at hx
    exact h.name.2 (by rw [hc]; simp [← h47, hx])

theorem LastName.back1 {p d c s : Bytes} (h : LastName p d c s) : backWhile (fun c => c == 47) p p.length = (d ++ c).length := by
  have := backWhile_eq (fun c => c == 47) (d ++ c) [] (fun x hx => by simpa using h.last_ne x hx) s.length s rfl (fun x hx => by simp [h.slashes x hx])
  rw [List.append_nil, List.append_assoc, ← h.eq] at this
  rw [← this]
  congr 1
  rw [h.eq]
  simp
  omega

theorem LastName.back2 {p d c s : Bytes} (h : LastName p d c s) : backWhile (fun c => c != 47) p (d ++ c).length = d.length := by
  have := backWhile_eq (fun c => c != 47) d s (fun x hx => by
    rcases h.before with rfl | hd
    · simp at hx
    · rw [hd] at hx; injection hx with hx; simp [← hx]) c.length c rfl (fun x hx => by
      have : x ≠ 47 := fun e => h.name.2 (by rw [← e]; exact hx)
      simpa using this)
  rw [← h.eq, ← List.length_append] at this
  exact this

theorem LastName.head {p d c s : Bytes} (h : LastName p d c s) : ∃ x, p[d.length]? = some x ∧ x ≠ 47 := by
  obtain ⟨h1, h2⟩ := h.name
  cases c with
  | nil => exact absurd rfl h1
  | cons x c =>
    refine ⟨x, ?_, fun e => h2 (by simp [e])⟩
    rw [h.eq, List.getElem?_append_right (by omega)]
    simp

theorem LastName.off {p d c s : Bytes} (h : LastName p d c s) : xbaseoff p = d.length := by
  unfold xbaseoff
  dsimp only
  rw [h.back1, h.back2]
  obtain ⟨x, hx, hne⟩ := h.head
  cases p.length with
  | zero => rfl
  | succ n =>
    unfold skipLeading
    rw [if_neg]
    rintro ⟨h1, _⟩
    rw [hx] at h1
    injection h1 with h1
    exact hne h1

theorem takeWhile_name {c s : Bytes} (hc : 47 ∉ c) (hs : ∀ x ∈ s, x = 47) : (c ++ s).takeWhile (· ≠ 47) = c := by
  induction c with
  | nil =>
    cases s with
    | nil => rfl
    | cons y s => simp [hs y (by simp)]
  | cons x c ih =>
    have hx : x ≠ 47 := fun e => hc (by simp [e])
    have := ih (fun h => hc (by simp [h]))
    simp [hx]
    simpa using this

theorem LastName.base {p d c s : Bytes} (h : LastName p d c s) : xbasename p = c := by
  unfold xbasename
  dsimp only
  rw [h.off]
  have hd : p.drop d.length = c ++ s := by rw [h.eq]; simp
  rw [hd, takeWhile_name h.name.2 h.slashes, if_pos (len_pos h.name.1)]
  simp

/-- The directory part. -/
theorem LastName.dir {p d c s : Bytes} (h : LastName p d c s) {e t : Bytes} (hd : d = e ++ t) (ht : ∀ x ∈ t, x = 47) (he : e.getLast? ≠ some 47) :
    xdirname p = if e ≠ [] then e else if d ≠ [] then [47] else [46] := by
  unfold xdirname
  dsimp only
  rw [h.off]
  have hb : backWhile (fun c => c == 47) p d.length = e.length := by
    have := backWhile_eq (fun c => c == 47) e (c ++ s) (fun x hx => by
      have : x ≠ 47 := fun e' => he (by rw [hx, e'])
      simpa using this) t.length t rfl (fun x hx => by simp [ht x hx])
    rw [← List.append_assoc, ← hd, ← h.eq, ← List.length_append, ← hd] at this
    exact this
  rw [hb]
  by_cases h0 : e = []
  · subst h0
    simp only [List.length_nil, ne_eq, not_true_eq_false, if_false, Nat.lt_irrefl, gt_iff_lt]
    rw [List.nil_append] at hd
    cases t with
    | nil =>
      subst hd
      obtain ⟨x, hx, hne⟩ := h.head
      simp only [List.length_nil] at hx
      have hn : ¬ (p[0]? = some 47) := by
        rw [hx]; simpa using hne
      rw [if_neg hn]
      simp
    | cons x t =>
      have : x = 47 := ht x (by simp)
      subst this
      rw [hd, h.eq, hd]
      simp
  · rw [if_pos (len_pos h0), if_pos h0, h.eq, hd]
    simp

theorem skipLeading_slashes (p : Bytes) (hp : NoName p) : ∀ (n i : Nat), i < p.length → p.length ≤ n + i + 1 → skipLeading p n i = p.length - 1 := by
  intro n
  induction n with
  | zero => intro i h1 h2; unfold skipLeading; omega
  | succ n ih =>
    intro i h1 h2
    unfold skipLeading
    have hi : p[i]? = some 47 := by
      rw [List.getElem?_eq_getElem h1, hp _ (List.getElem_mem h1)]
    by_cases h : i + 1 < p.length
    · rw [if_pos ⟨hi, h⟩]; exact ih (i + 1) h (by omega)
    · rw [if_neg (fun hh => h hh.2)]; omega

theorem NoName.off {p : Bytes} (h : NoName p) : xbaseoff p = p.length - 1 := by
  unfold xbaseoff
  dsimp only
  have h1 : backWhile (fun c => c == 47) p p.length = 0 := by
    have := backWhile_all (fun c => c == 47) p [] (fun x hx => by simp [h x hx])
    rwa [List.append_nil] at this
  rw [h1]
  have h2 : backWhile (fun c => c != 47) p 0 = 0 := rfl
  rw [h2]
  cases p with
  | nil => rfl
  | cons x p => exact skipLeading_slashes _ h _ _ (by simp) (by omega)

theorem NoName.parts {p : Bytes} (h : NoName p) : xbasename p = (if p = [] then [46] else [47]) ∧ xdirname p = (if p = [] then [46] else [47]) := by
  cases hp : p with
  | nil => exact ⟨rfl, rfl⟩
  | cons y q =>
    rw [← hp]
    have hne : p ≠ [] := by rw [hp]; simp
    have hl : 0 < p.length := len_pos hne
    rw [if_neg hne]
    have hlast : p[p.length - 1]? = some 47 := by
      rw [List.getElem?_eq_getElem (by omega), h _ (List.getElem_mem (by omega))]
    have hdrop : p.drop (p.length - 1) = [47] := by
      rw [List.drop_eq_getElem_cons (by omega), h _ (List.getElem_mem _)]
      congr 1
      exact List.drop_of_length_le (by omega)
    constructor
    · unfold xbasename
      dsimp only
      rw [h.off, hdrop, hlast]
      rfl
    · unfold xdirname
      dsimp only
      rw [h.off]
      have hb : backWhile (fun c => c == 47) p (p.length - 1) = 0 := by
        have := backWhile_all (fun c => c == 47) (p.take (p.length - 1)) (p.drop (p.length - 1)) (fun x hx => by simp [h x (List.mem_of_mem_take hx)])
        rw [List.take_append_drop, List.length_take, Nat.min_eq_left (by omega)] at this
        exact this
      rw [hb, if_neg (by omega), hp]
      have : y = 47 := h y (by rw [hp]; simp)
      simp [this]

/-! ## Components -/

theorem pieces_ne (p : Bytes) : pieces p ≠ [] := by
  cases p with
  | nil => simp [pieces]
  | cons c p =>
    unfold pieces
    split
    · simp
    · split <;> simp

theorem pieces_slash (a b : Bytes) : pieces (a ++ 47 :: b) = pieces a ++ pieces b := by
  induction a with
  | nil => simp [pieces]
  | cons c a ih =>
    show pieces (c :: (a ++ 47 :: b)) = _
    have hcons : ∀ p, pieces (c :: p) = if c = 47 then [] :: pieces p else match pieces p with
      | [] => [[c]]
      | x :: xs => (c :: x) :: xs := fun _ => rfl
    rw [hcons, hcons]
    by_cases hc : c = 47
    · rw [if_pos hc, if_pos hc, ih]; rfl
    · rw [if_neg hc, if_neg hc, ih]
      cases hp : pieces a with
      | nil => exact absurd hp (pieces_ne a)
      | cons x xs => rfl

theorem comps_slash (a b : Bytes) : components (a ++ 47 :: b) = components a ++ components b := by
  unfold components
  rw [pieces_slash, List.filter_append]

theorem comps_nil : components [] = [] := by decide

theorem comps_slashes {s : Bytes} (h : ∀ x ∈ s, x = 47) : components s = [] := by
  induction s with
  | nil => exact comps_nil
  | cons x s ih =>
    have := h x (by simp)
    subst this
    have := comps_slash [] s
    rw [List.nil_append] at this
    rw [this, comps_nil, ih (fun y hy => h y (by simp [hy]))]
    rfl

theorem comps_append_slashes (a : Bytes) {s : Bytes} (h : ∀ x ∈ s, x = 47) : components (a ++ s) = components a := by
  cases s with
  | nil => rw [List.append_nil]
  | cons x s =>
    have := h x (by simp)
    subst this
    have hs : components s = [] := comps_slashes (fun y hy => h y (by simp [hy]))
    rw [comps_slash, hs, List.append_nil]

theorem comps_dot : components [46] = [] := by decide
theorem comps_root : components [47] = [] := by decide

/-- A directory and what is in it. -/
theorem comps_join {d : Bytes} (hd : d = [] ∨ d.getLast? = some 47) (b : Bytes) : components (d ++ b) = components d ++ components b := by
  rcases hd with rfl | hd
  · rw [comps_nil]; rfl
  · rcases nil_or_snoc d with rfl | ⟨e, x, rfl⟩
    · simp at hd
    · simp at hd
      subst hd
      rw [List.append_assoc, List.singleton_append, comps_slash, comps_slash, comps_nil, List.append_nil]

theorem LastName.comps {p d c s : Bytes} (h : LastName p d c s) : components p = components d ++ components c := by
  rw [h.eq, comps_join h.before, comps_append_slashes c h.slashes]

/-! ## Walked files -/

theorem baseoff_slash (r : Bytes) : (xbaseoff r = 0 ∨ r[xbaseoff r - 1]? = some 47) ∧ xbaseoff r ≤ r.length := by
  rcases last_exists r with h | ⟨d, c, s, h⟩
  · rw [h.off]
    refine ⟨?_, by omega⟩
    by_cases hl : r.length - 1 = 0
    · exact Or.inl hl
    · right
      rw [List.getElem?_eq_getElem (by omega), h _ (List.getElem_mem (by omega))]
  · rw [h.off]
    constructor
    · rcases h.before with rfl | hd
      · exact Or.inl rfl
      · right
        rw [List.getLast?_eq_getElem?] at hd
        have hlt : d.length - 1 < d.length := by
          rw [List.getElem?_eq_some_iff] at hd
          exact hd.1
        rw [h.eq, List.getElem?_append_left hlt, hd]
    · rw [h.eq]; simp

structure Fine (b : Buf) : Prop where
  slash : b.nameoff = 0 ∨ b.path[b.nameoff - 1]? = some 47
  bound : b.nameoff ≤ b.path.length
  ne : b.path ≠ []
  root : b.root ≠ []

theorem join_ne (d n : Bytes) (hn : n ≠ []) : join d n ≠ [] := by
  unfold join
  split
  · intro h; exact hn (List.append_eq_nil_iff.1 h).2
  · simp

theorem Walked.fine {b : Buf} (h : Walked b) : Fine b := by
  induction h with
  | root r hr => exact ⟨(baseoff_slash r).1, (baseoff_slash r).2, hr, hr⟩
  | child b name _ hn _ ih =>
    have hne := ih.ne
    have hl := len_pos hne
    unfold childBuf
    by_cases h47 : b.path.getLast? = some 47
    · refine ⟨?_, ?_, join_ne _ _ hn, ih.root⟩
      · right
        dsimp only
        rw [if_pos h47]
        unfold join
        rw [if_pos h47, List.getElem?_append_left (by omega), ← List.getLast?_eq_getElem?, h47]
      · dsimp only
        rw [if_pos h47]
        unfold join
        rw [if_pos h47]; simp
    · refine ⟨?_, ?_, join_ne _ _ hn, ih.root⟩
      · right
        dsimp only
        rw [if_neg h47]
        unfold join
        rw [if_neg h47, List.getElem?_append_right (by omega)]
        simp
      · dsimp only
        rw [if_neg h47]
        unfold join
        rw [if_neg h47]; simp

theorem childBuf_name (b : Buf) (name : Bytes) : (childBuf b name).path.drop (childBuf b name).nameoff = name := by
  unfold childBuf join
  dsimp only
  by_cases h : b.path.getLast? = some 47
  · rw [if_pos h, if_pos h]; simp
  · rw [if_neg h, if_neg h]; simp

/-- The path of a file in a tree. -/
theorem Walked.prefix {b : Buf} (h : Walked b) :
    (b.depth = 0 ∧ b.path = b.root) ∨
    ∃ r, 0 < b.depth ∧ r ≠ [] ∧ r.head? ≠ some 47 ∧ b.path = (if b.root.getLast? = some 47 then b.root ++ r else b.root ++ 47 :: r) := by
  induction h with
  | root r hr => exact Or.inl ⟨rfl, rfl⟩
  | child b name hb hn h47 ih =>
    right
    have hhead : name.head? ≠ some 47 := by
      cases name with
      | nil => simp
      | cons x n => intro h; simp at h; exact h47 (by simp [h])
    rcases ih with ⟨_, h2⟩ | ⟨r, _, h2, h3, h4⟩
    · refine ⟨name, Nat.succ_pos _, hn, hhead, ?_⟩
      unfold childBuf join
      dsimp only
      rw [h2]
    · refine ⟨join r name, Nat.succ_pos _, join_ne _ _ hn, ?_, ?_⟩
      · unfold join
        cases r with
        | nil => exact absurd rfl h2
        | cons x r => split <;> simpa using h3
      · have hlast : b.path.getLast? = r.getLast? := by
          rw [h4]
          rcases nil_or_snoc r with rfl | ⟨r', x, rfl⟩
          · exact absurd rfl h2
          · split
            · rw [← List.append_assoc]; simp
            · rw [show b.root ++ 47 :: (r' ++ [x]) = (b.root ++ 47 :: r') ++ [x] by simp, List.getLast?_concat, List.getLast?_concat]
        unfold childBuf join
        dsimp only
        rw [hlast]
        by_cases hr : b.root.getLast? = some 47
        · rw [if_pos hr] at h4 ⊢
          rw [h4]
          by_cases hl : r.getLast? = some 47
          · rw [if_pos hl, if_pos hl]; simp
          · rw [if_neg hl, if_neg hl]; simp
        · rw [if_neg hr] at h4 ⊢
          rw [h4]
          by_cases hl : r.getLast? = some 47
          · rw [if_pos hl, if_pos hl]; simp
          · rw [if_neg hl, if_neg hl]; simp

end Verif.Path
