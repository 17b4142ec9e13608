import Verif.Spec.Typo
/-! # The distance, by recursion -/
namespace Verif.Typo

theorem charDistance_eq (a b : UInt8) : charDistance a b =
    ((keyCoords a).1 - (keyCoords b).1).natAbs + ((keyCoords a).2.1 - (keyCoords b).2.1).natAbs + ((keyCoords a).2.2 - (keyCoords b).2.2).natAbs := rfl

theorem keyCoords_eq (c : UInt8) : keyCoords c = keyIn (Char.ofNat c.toNat) keyboard := by
  have h : ∀ n : Fin 256, keyCoords (UInt8.ofNat n) = keyIn (Char.ofNat n) keyboard := by decide +kernel
  have := h ⟨c.toNat, c.toNat_lt⟩
  simpa using this

theorem charDistance_apart (a b : UInt8) : charDistance a b = apart a b := by
  unfold apart
  rw [charDistance_eq, keyCoords_eq, keyCoords_eq]

theorem charDistance_self (a : UInt8) : charDistance a a = 0 := by
  rw [charDistance_eq]; omega

theorem charDistance_comm (a b : UInt8) : charDistance a b = charDistance b a := by
  rw [charDistance_eq, charDistance_eq]; omega

theorem charDistance_triangle (a b c : UInt8) : charDistance a c ≤ charDistance a b + charDistance b c := by
  rw [charDistance_eq, charDistance_eq, charDistance_eq]; omega

/-- A row of the table, from the one above it; the strings are reversed. -/
def levAux (f : Bytes → Nat) (a : UInt8) : Bytes → Nat
  | [] => f [] + 12
  | b :: y => min (f y + charDistance a b) (min (f (b :: y) + 12) (levAux f a y + 12))

/-- The distance between two reversed strings. -/
def lev : Bytes → Bytes → Nat
  | [], y => 12 * y.length
  | a :: x, y => levAux (lev x) a y

theorem lev_nil (y : Bytes) : lev [] y = 12 * y.length := rfl
theorem lev_cons_nil (a : UInt8) (x : Bytes) : lev (a :: x) [] = lev x [] + 12 := rfl
theorem lev_cons (a b : UInt8) (x y : Bytes) :
    lev (a :: x) (b :: y) = min (lev x y + charDistance a b) (min (lev x (b :: y) + 12) (lev (a :: x) y + 12)) := rfl

theorem lev_sub : ∀ (x p q : Bytes) (a b : UInt8), lev x (p ++ b :: q) ≤ lev x (p ++ a :: q) + charDistance a b
  | [], p, q, a, b => by
    rw [lev_nil, lev_nil]; simp
  | c :: x, [], q, a, b => by
    have h1 := lev_sub x [] q a b
    have h2 := charDistance_triangle c a b
    simp only [List.nil_append] at h1 ⊢
    rw [lev_cons, lev_cons]
    omega
  | c :: x, e :: p, q, a, b => by
    have h1 := lev_sub x (e :: p) q a b
    have h2 := lev_sub x p q a b
    have h3 := lev_sub (c :: x) p q a b
    simp only [List.cons_append] at h1 ⊢
    rw [lev_cons, lev_cons]
    omega

theorem lev_ins : ∀ (x p q : Bytes) (b : UInt8), lev x (p ++ b :: q) ≤ lev x (p ++ q) + 12
  | [], p, q, b => by
    rw [lev_nil, lev_nil]; simp; omega
  | c :: x, [], q, b => by
    simp only [List.nil_append]
    rw [lev_cons]
    omega
  | c :: x, e :: p, q, b => by
    have h1 := lev_ins x (e :: p) q b
    have h2 := lev_ins x p q b
    have h3 := lev_ins (c :: x) p q b
    simp only [List.cons_append] at h1 ⊢
    rw [lev_cons, lev_cons]
    omega

theorem lev_cons_le (a : UInt8) (x y : Bytes) : lev (a :: x) y ≤ lev x y + 12 := by
  cases y with
  | nil => exact Nat.le_refl _
  | cons b y => rw [lev_cons]; omega

theorem lev_del : ∀ (x p q : Bytes) (b : UInt8), lev x (p ++ q) ≤ lev x (p ++ b :: q) + 12
  | [], p, q, b => by
    rw [lev_nil, lev_nil]; simp; omega
  | c :: x, [], q, b => by
    have h1 := lev_del x [] q b
    have h2 := lev_cons_le c x q
    simp only [List.nil_append] at h1 ⊢
    rw [lev_cons]
    omega
  | c :: x, e :: p, q, b => by
    have h1 := lev_del x (e :: p) q b
    have h2 := lev_del x p q b
    have h3 := lev_del (c :: x) p q b
    simp only [List.cons_append] at h1 ⊢
    rw [lev_cons, lev_cons]
    omega

theorem lev_self (x : Bytes) : lev x x = 0 := by
  induction x with
  | nil => rfl
  | cons a x ih => rw [lev_cons, ih, charDistance_self]; omega

theorem lev_bound : ∀ (x y : Bytes), lev x y ≤ 12 * (x.length + y.length)
  | [], y => by rw [lev_nil]; simp
  | a :: x, y => by
    have := lev_cons_le a x y
    have := lev_bound x y
    simp only [List.length_cons]
    omega

/-- No sequence of changes is cheaper. -/
theorem lev_edits {x y : Bytes} {c : Nat} (h : Edits x y c) : lev x.reverse y.reverse ≤ c := by
  induction h with
  | refl => rw [lev_self]; exact Nat.le_refl _
  | @step y z c c' _ he ih =>
    cases he with
    | replace u v a b =>
      have := lev_sub x.reverse v.reverse u.reverse a b
      rw [charDistance_apart] at this
      simp only [List.reverse_append, List.reverse_cons, List.append_assoc, List.singleton_append] at ih ⊢
      omega
    | delete u v a =>
      have := lev_del x.reverse v.reverse u.reverse a
      simp only [List.reverse_append, List.reverse_cons, List.append_assoc, List.singleton_append] at ih ⊢
      omega
    | insert u v b =>
      have := lev_ins x.reverse v.reverse u.reverse b
      simp only [List.reverse_append, List.reverse_cons, List.append_assoc, List.singleton_append] at ih ⊢
      omega

theorem Edit.append {x y : Bytes} {c : Nat} (h : Edit x y c) (w : Bytes) : Edit (x ++ w) (y ++ w) c := by
  cases h with
  | replace u v a b => rw [List.append_assoc, List.append_assoc]; exact .replace u (v ++ w) a b
  | delete u v a => rw [List.append_assoc, List.append_assoc]; exact .delete u (v ++ w) a
  | insert u v b => rw [List.append_assoc, List.append_assoc]; exact .insert u (v ++ w) b

theorem Edits.append {x y : Bytes} {c : Nat} (h : Edits x y c) (w : Bytes) : Edits (x ++ w) (y ++ w) c := by
  induction h with
  | refl => exact .refl _
  | step _ he ih => exact .step ih (he.append w)

theorem Edits.trans {x y z : Bytes} {c c' : Nat} (h : Edits x y c) (h' : Edits y z c') : Edits x z (c + c') := by
  induction h' with
  | refl => exact h
  | step _ he ih => rw [← Nat.add_assoc]; exact .step ih he

theorem Edit.symm {x y : Bytes} {c : Nat} (h : Edit x y c) : Edit y x c := by
  cases h with
  | replace u v a b =>
    have := charDistance_comm a b
    rw [charDistance_apart, charDistance_apart] at this
    rw [this]
    exact .replace u v b a
  | delete u v a => exact .insert u v a
  | insert u v b => exact .delete u v b

theorem Edits.symm {x y : Bytes} {c : Nat} (h : Edits x y c) : Edits y x c := by
  induction h with
  | refl => exact .refl _
  | step _ he ih =>
    rw [Nat.add_comm]
    have := Edits.step (.refl _) he.symm
    rw [Nat.zero_add] at this
    exact this.trans ih

theorem Edit.insertEnd (u : Bytes) (b : UInt8) : Edit u (u ++ [b]) 12 := by
  have := Edit.insert u [] b
  rwa [List.append_nil] at this

/-- There is a sequence of changes that is as cheap. -/
theorem edits_lev : ∀ (x y : Bytes), Edits x.reverse y.reverse (lev x y)
  | [], [] => .refl _
  | [], b :: y => by
    have h := edits_lev [] y
    have := Edits.step h (.insertEnd y.reverse b)
    rw [lev_nil] at this
    rw [List.reverse_cons, lev_nil]
    exact this
  | a :: x, [] => by
    have h := (edits_lev x []).append [a]
    rw [List.reverse_nil, List.nil_append] at h
    rw [List.reverse_cons, lev_cons_nil]
    exact .step h (.delete [] [] a)
  | a :: x, b :: y => by
    have h1 := (edits_lev x y).append [a]
    have h1 := Edits.step h1 (.replace y.reverse [] a b)
    rw [← charDistance_apart] at h1
    have h2 := (edits_lev x (b :: y)).append [a]
    have h2 := Edits.step h2 (.delete (b :: y).reverse [] a)
    have h3 := Edits.step (edits_lev (a :: x) y) (.insertEnd y.reverse b)
    rw [List.append_nil] at h2
    rw [lev_cons]
    have : min (lev x y + charDistance a b) (min (lev x (b :: y) + 12) (lev (a :: x) y + 12)) = lev x y + charDistance a b ∨
        min (lev x y + charDistance a b) (min (lev x (b :: y) + 12) (lev (a :: x) y + 12)) = lev x (b :: y) + 12 ∨
        min (lev x y + charDistance a b) (min (lev x (b :: y) + 12) (lev (a :: x) y + 12)) = lev (a :: x) y + 12 := by omega
    simp only [List.reverse_cons] at h1 h2 h3 ⊢
    rcases this with h | h | h <;> rw [h]
    · exact h1
    · exact h2
    · exact h3

/-! ## The loops -/

/-- The rest of a row. -/
def rowOf (x : Bytes) : Bytes → Bytes → List Nat
  | _, [] => []
  | pre, b :: expected => lev x (b :: pre) :: rowOf x (b :: pre) expected

theorem rowLoop_eq (a : UInt8) (x : Bytes) : ∀ (expected pre : Bytes),
    rowLoop a (lev x pre) (lev (a :: x) pre) (rowOf x pre expected) expected = rowOf (a :: x) pre expected
  | [], pre => by unfold rowLoop rowOf; rfl
  | b :: expected, pre => by
    have h : ∀ P Q R : Nat, (if R + 12 < (if Q + 12 < P then Q + 12 else P) then R + 12 else (if Q + 12 < P then Q + 12 else P)) = min P (min (Q + 12) (R + 12)) := by
      intro P Q R; split <;> split <;> omega
    have h := h (lev x pre + charDistance a b) (lev x (b :: pre)) (lev (a :: x) pre)
    rw [← lev_cons] at h
    rw [rowOf, rowOf, rowLoop]
    dsimp only [insertCost]
    rw [← rowLoop_eq a x expected (b :: pre), ← h]
    rfl

theorem nextRow_eq (expected : Bytes) (a : UInt8) (x : Bytes) : nextRow expected a (lev x [] :: rowOf x [] expected) = lev (a :: x) [] :: rowOf (a :: x) [] expected := by
  unfold nextRow
  dsimp only
  have h : lev x [] + insertCost = lev (a :: x) [] := rfl
  rw [h, rowLoop_eq]

theorem rows_eq (expected : Bytes) : ∀ (actual x : Bytes), rows expected actual (lev x [] :: rowOf x [] expected) =
    lev (actual.reverse ++ x) [] :: rowOf (actual.reverse ++ x) [] expected
  | [], x => rfl
  | a :: actual, x => by
    rw [rows, nextRow_eq, rows_eq expected actual (a :: x)]
    simp

theorem first_row : ∀ (expected pre : Bytes), (List.range' pre.length (expected.length + 1)).map (insertCost * ·) = lev [] pre :: rowOf [] pre expected
  | [], pre => by simp [List.range', rowOf, lev_nil, insertCost]
  | b :: expected, pre => by
    have h := first_row expected (b :: pre)
    rw [List.length_cons, List.range'_succ, List.map_cons, lev_nil, rowOf]
    simp only [List.length_cons] at h
    rw [h]
    rfl

theorem last_row (x : Bytes) : ∀ (expected pre : Bytes), (lev x pre :: rowOf x pre expected).getLast? = some (lev x (expected.reverse ++ pre))
  | [], pre => rfl
  | b :: expected, pre => by
    rw [rowOf, List.getLast?_cons_cons, last_row x expected (b :: pre)]
    simp

theorem typoDistance_eq (actual expected : Bytes) : typoDistance actual expected = lev actual.reverse expected.reverse := by
  unfold typoDistance
  have h := first_row expected []
  rw [List.length_nil, ← List.range_eq_range'] at h
  rw [h, rows_eq, last_row]
  simp

theorem rowOf_bound (x : Bytes) : ∀ (expected pre : Bytes), ∀ n ∈ rowOf x pre expected, n ≤ 12 * (x.length + (pre.length + expected.length))
  | [], pre, n, h => by cases h
  | b :: expected, pre, n, h => by
    rw [rowOf] at h
    rcases List.mem_cons.1 h with rfl | h
    · have := lev_bound x (b :: pre)
      simp only [List.length_cons] at this ⊢
      omega
    · have := rowOf_bound x expected (b :: pre) n h
      simp only [List.length_cons] at this ⊢
      omega

/-! ## The closest entry -/

theorem fuzzyLoop_spec (arg : Bytes) : ∀ (table : List Bytes) (seen : List Bytes) (b : Bytes), b ∈ seen → (∀ x ∈ seen, typoDistance arg b ≤ typoDistance arg x) →
    ∃ r, fuzzyLoop arg table (some (b, typoDistance arg b)) = some (r, typoDistance arg r) ∧ r ∈ seen ++ table ∧ ∀ x ∈ seen ++ table, typoDistance arg r ≤ typoDistance arg x
  | [], seen, b, h1, h2 => ⟨b, rfl, by simpa using h1, by simpa using h2⟩
  | e :: table, seen, b, h1, h2 => by
    rw [fuzzyLoop]
    by_cases h : typoDistance arg e < typoDistance arg b
    · rw [if_pos h]
      have := fuzzyLoop_spec arg table (seen ++ [e]) e (by simp) (by
        intro x hx
        rcases List.mem_append.1 hx with hx | hx
        · have := h2 x hx; omega
        · rw [List.mem_singleton.1 hx]; exact Nat.le_refl _)
      simpa [List.append_assoc] using this
    · rw [if_neg h]
      have := fuzzyLoop_spec arg table (seen ++ [e]) b (by simp [h1]) (by
        intro x hx
        rcases List.mem_append.1 hx with hx | hx
        · exact h2 x hx
        · rw [List.mem_singleton.1 hx]; omega)
      simpa [List.append_assoc] using this

end Verif.Typo
