import Verif.Lemmas.Dstring
/-!
# C43: dynamic strings behave like byte lists

The sizes of strings and requests are assumed to add up to less than 2^62.
-/
namespace Verif.Props
open Verif.Dstr

/-- The states that a program can reach: a variable starts as `NULL` or as a copy of some bytes, and operations are applied to it, whether they succeed or not. -/
inductive DstrReach (h : Heap) : St → Prop
  | null (k : Nat) : DstrReach h ⟨none, k⟩
  | dup (k : Nat) (l : Bytes) (r : Option DStr) : l.length < 2 ^ 62 → dstrxdup h k l = .ok r → DstrReach h ⟨r, k + 1⟩
  | step (st : St) (op : Op) (b : Bool) (st' : St) : DstrReach h st → op.Allowed (value st) → ((value st).getD []).length + op.size < 2 ^ 62 → op.run h st = .ok (b, st') → DstrReach h st'

theorem value_ne_none {st : St} (h : value st ≠ none) : st.str ≠ none := by
  intro hc; apply h; rw [value, hc]; rfl

theorem dstr_step {h : Heap} {st : St} {op : Op} (hg : GoodSt st) (ha : op.Allowed (value st)) (hs : ((value st).getD []).length + op.size < 2 ^ 62) : StepOk h st op (op.run h st) := by
  cases op with
  | reserve n =>
    have hs : ((value st).getD []).length + n < 2 ^ 62 := hs
    rcases @reserve_good h st n hg (by omega) with ⟨d, k, h1, h2, h3, h4, h5⟩ | ⟨k, h1, h2⟩
    · exact .inl ⟨d, k, h1, h4, h5⟩
    · exact .inr ⟨st.str, k, h1, fun d hd => hg d hd, rfl, h2⟩
  | resize n =>
    have hs : ((value st).getD []).length + n < 2 ^ 62 := hs
    rcases @resize_ok h st n hg (by omega) with ⟨d, k, h1, h2, h3, h4⟩ | ⟨k, h1, h2⟩
    · refine .inl ⟨d, k, h1, h2, ?_, ?_⟩
      · rw [contents_length h2.lt, h3]
      · rw [← oldLen_eq hg, ← h4, DStr.contents, h3, List.take_take]
        congr 1; omega
    · exact .inr ⟨st.str, k, h1, fun d hd => hg d hd, rfl, h2⟩
  | shrink n => exact shrink_ok hg ha
  | cat l => exact cat_ok hg (value_ne_none ha) hs
  | app c => exact @cat_ok h st [c] hg (value_ne_none ha) hs
  | cpy l => exact cpy_ok hg (by have hs : ((value st).getD []).length + l.length < 2 ^ 62 := hs; omega)
  | catf flen f => exact catf_ok hg (value_ne_none ha) hs
  | escat L shell s => exact escat_ok hg hs

theorem dup_ok {h : Heap} {k : Nat} {l : Bytes} (hl : l.length < 2 ^ 62) :
    (∃ d, dstrxdup h k l = .ok (some d) ∧ Good d ∧ d.contents = l) ∨ (dstrxdup h k l = .ok none ∧ h k = none) := by
  unfold dstrxdup
  rw [Nat.mod_eq_of_lt (by omega)]
  rcases @allocImpl_ok h k (l.length + 1) l.length l (by omega) (by omega) rfl with ⟨d, h1, h2, h3, -⟩ | h1
  · exact .inl ⟨d, h1, h2, h3⟩
  · exact .inr h1

theorem reach_good {h : Heap} {st : St} (hr : DstrReach h st) : GoodSt st := by
  induction hr with
  | null k => intro d hd; cases hd
  | dup k l r hl hd =>
    rcases @dup_ok h k l hl with ⟨d, h1, h2, -⟩ | ⟨h1, -⟩
    · rw [h1] at hd; cases hd; intro e he; cases he; exact h2
    · rw [h1] at hd; cases hd; intro e he; cases he
  | step st op b st' _ ha hs hrun ih =>
    rcases @dstr_step h st op ih ha hs with ⟨d, k, h1, h2, -⟩ | ⟨s, k, h1, h2, -⟩
    · rw [h1] at hrun; cases hrun; intro e he; cases he; exact h2
    · rw [h1] at hrun; cases hrun; exact h2

/-- In every reachable state a string's terminator is inside its memory, right after the contents. -/
theorem C43_terminated (h : Heap) (st : St) (hr : DstrReach h st) (d : DStr) (hd : st.str = some d) : d.len < d.mem.length ∧ d.mem[d.len]? = some 0 ∧ dstrlen st.str = .ok d.contents.length := by
  have hg := reach_good hr d hd
  exact ⟨hg.lt, hg.nul, by rw [hd, contents_length hg.lt]; rfl⟩

/-- In every reachable state, every allowed operation is defined: it never leaves its memory nor fails an assertion. If it succeeds, it does to the value what it should. If not, the value is unchanged, and an allocation (or formatting) really failed. -/
theorem C43_step (h : Heap) (st : St) (hr : DstrReach h st) (op : Op) (ha : op.Allowed (value st)) (hs : ((value st).getD []).length + op.size < 2 ^ 62) :
    (∃ st' s', op.run h st = .ok (true, st') ∧ DstrReach h st' ∧ value st' = some s' ∧ op.Effect ((value st).getD []) s') ∨
    (∃ st', op.run h st = .ok (false, st') ∧ DstrReach h st' ∧ value st' = value st ∧ op.MayFail h) := by
  rcases @dstr_step h st op (reach_good hr) ha hs with ⟨d, k, h1, -, h3⟩ | ⟨s, k, h1, -, h3, h4⟩
  · exact .inl ⟨_, _, h1, .step st op _ _ hr ha hs h1, rfl, h3⟩
  · exact .inr ⟨_, h1, .step st op _ _ hr ha hs h1, h3, h4⟩

/-- Two appends in a row. -/
example : ∃ st', ((Op.cat [104, 105]).run (fun _ => some fun _ => 7) ⟨some ⟨[0, 7], 0⟩, 0⟩).bind (fun p => (Op.app 33).run (fun _ => some fun _ => 7) p.2) = .ok (true, st') ∧ value st' = some [104, 105, 33] := by
  refine ⟨⟨some ⟨[104, 105, 33, 0], 3⟩, 1⟩, ?_, ?_⟩ <;> decide +kernel

/-- Formatting, in a string that has to grow after the first attempt. -/
example : (Op.catf 1 ⟨some (List.replicate 20 120), [], true⟩).run (fun _ => some fun _ => 7) ⟨some ⟨[97, 0, 1], 1⟩, 0⟩ = .ok (true, ⟨some ⟨97 :: List.replicate 20 120 ++ 0 :: List.replicate 10 7, 21⟩, 2⟩) := by
  decide +kernel

/-- Formatting that fails when memory runs out leaves the string as it was. -/
example : (Op.catf 1 ⟨some (List.replicate 20 120), [], true⟩).run (fun _ => none) ⟨some ⟨[97, 0, 1], 1⟩, 0⟩ = .ok (false, ⟨some ⟨[97, 0, 0], 1⟩, 2⟩) := by decide +kernel

/-- Copies. -/
theorem C43_dup (h : Heap) (k : Nat) (l : Bytes) (hl : l.length < 2 ^ 62) :
    (∃ d, dstrxdup h k l = .ok (some d) ∧ DstrReach h ⟨some d, k + 1⟩ ∧ d.contents = l) ∨ (dstrxdup h k l = .ok none ∧ h k = none) := by
  rcases @dup_ok h k l hl with ⟨d, h1, -, h3⟩ | h1
  · exact .inl ⟨d, h1, .dup k l _ hl h1, h3⟩
  · exact .inr h1

example : dstrxdup (fun _ => some fun _ => 7) 0 [97, 98] = .ok (some ⟨[97, 98, 0, 7, 7, 7, 7, 7, 7, 7, 7, 7, 7, 7, 7, 7], 2⟩) := by decide +kernel

/-- As a C string, a reachable dynamic string without NULs is its contents. -/
theorem C43_cstring (h : Heap) (st : St) (hr : DstrReach h st) (d : DStr) (hd : st.str = some d) (hnz : ∀ b ∈ d.contents, b ≠ 0) : d.mem.takeWhile (· ≠ 0) = d.contents := by
  have hg := reach_good hr d hd
  obtain ⟨hlt, h0⟩ := List.getElem?_eq_some_iff.1 hg.nul
  have hsplit : d.mem = d.contents ++ 0 :: d.mem.drop (d.len + 1) := by
    conv => lhs; rw [← List.take_append_drop d.len d.mem, List.drop_eq_getElem_cons hlt, h0]
    rfl
  rw [hsplit]
  generalize d.contents = c at hnz
  induction c with
  | nil => simp
  | cons b c ih => rw [List.cons_append, List.takeWhile_cons_of_pos (by simpa using hnz b (by simp)), ih fun x hx => hnz x (by simp [hx])]

example : (⟨[97, 98, 0, 7], 2⟩ : DStr).mem.takeWhile (· ≠ 0) = [97, 98] := by decide

/-- `dstrepeat()` repeats. -/
theorem C43_repeat (h : Heap) (str : Bytes) (n : Nat) (hl : n * str.length < 2 ^ 62) :
    (∃ d, dstrepeat h str n = .ok (some d) ∧ d.Terminated ∧ d.contents = (List.replicate n str).flatten) ∨ (dstrepeat h str n = .ok none ∧ ∃ k, h k = none) := by
  have loop : ∀ (m : Nat) (st : St) (s : Bytes), GoodSt st → value st = some s → s.length + m * str.length < 2 ^ 62 →
      (∃ d, repeatLoop h str m st = .ok (some d) ∧ d.Terminated ∧ d.contents = s ++ (List.replicate m str).flatten) ∨ (repeatLoop h str m st = .ok none ∧ ∃ k, h k = none) := by
    intro m
    induction m with
    | zero =>
      intro st s hg hv _
      obtain ⟨o, k⟩ := st
      cases o with
      | none => cases hv
      | some d =>
        have hv : d.contents = s := by simpa [value] using hv
        exact .inl ⟨d, rfl, (hg d rfl).nul, by simp [hv]⟩
    | succ m ih =>
      intro st s hg hv hlen
      have hgetD : (value st).getD [] = s := by rw [hv]; rfl
      rw [Nat.succ_mul] at hlen
      rw [repeatLoop]
      rcases @dstr_step h st (.cat str) hg (by rw [hv]; simp [Op.Allowed]) (by rw [hgetD]; simp only [Op.size]; omega) with ⟨d, k, h1, h2, h3⟩ | ⟨o, k, h1, -, -, h4⟩
      · have h1 : dstrxcat h st str = _ := h1
        rw [hgetD] at h3
        have h3 : d.contents = s ++ str := h3
        rw [h1]
        rcases ih ⟨some d, k⟩ (s ++ str) (fun e he => by cases he; exact h2) (by rw [← h3]; rfl) (by rw [List.length_append]; omega) with ⟨e, g1, g2, g3⟩ | g1
        · exact .inl ⟨e, g1, g2, by rw [g3]; simp [List.replicate_succ]⟩
        · exact .inr g1
      · have h1 : dstrxcat h st str = _ := h1
        rw [h1]
        exact .inr ⟨rfl, h4⟩
  unfold dstrepeat dstralloc
  rw [Nat.mod_eq_of_lt (show n * str.length < 2 ^ 64 by omega), Nat.mod_eq_of_lt (by omega)]
  rcases @allocImpl_ok h 0 (n * str.length + 1) 0 [] (by omega) (by omega) rfl with ⟨d, h1, h2, h3, -⟩ | ⟨h1, h2⟩
  · rw [h1]
    rcases loop n ⟨some d, 1⟩ [] (fun e he => by cases he; exact h2) (by rw [← h3]; rfl) (by simpa using hl) with ⟨e, g1, g2, g3⟩ | g
    · exact .inl ⟨e, g1, g2, by rw [g3, List.nil_append]⟩
    · exact .inr g
  · rw [h1]; exact .inr ⟨rfl, 0, h2⟩

example : (dstrepeat (fun _ => some fun _ => 7) [97, 98] 3).bind (fun d => .ok (d.map DStr.contents)) = .ok (some [97, 98, 97, 98, 97, 98]) := by decide +kernel

end Verif.Props
