import Verif.Spec.Dstring
import Verif.Props.Bit
import Verif.Props.Quote
/-! # Lemmas about dynamic strings -/
namespace Verif.Dstr
open Verif

/-- The invariant of strings. -/
structure Good (d : DStr) : Prop where
  lt : d.len < d.mem.length
  nul : d.Terminated

/-- The invariant of variables. -/
def GoodSt (st : St) : Prop := ∀ d, st.str = some d → Good d

theorem contents_length {d : DStr} (h : d.len < d.mem.length) : d.contents.length = d.len := by
  rw [DStr.contents, List.length_take]; omega

theorem poke_ok {d : DStr} {i : Nat} {l : Bytes} (h : i + l.length ≤ d.mem.length) : ∃ d', poke d i l = .ok d' ∧ d'.len = d.len ∧ d'.mem.length = d.mem.length ∧
    d'.mem.take i = d.mem.take i ∧ d'.mem.take (i + l.length) = d.mem.take i ++ l ∧ ∀ j : Nat, i + l.length ≤ j → d'.mem[j]? = d.mem[j]? := by
  refine ⟨_, if_pos h, rfl, ?_, ?_, ?_, ?_⟩
  · simp; omega
  · dsimp only
    rw [List.append_assoc, List.take_append_of_le_length (by simp; omega), List.take_take, Nat.min_self]
  · dsimp only
    rw [List.take_append_of_le_length (by simp; omega)]
    exact List.take_of_length_le (by simp; omega)
  · intro j hj
    dsimp only
    rw [List.getElem?_append_right (by simp; omega), List.getElem?_drop]
    congr 1; simp; omega

theorem setLen_ok {d : DStr} {len : Nat} (h : len < d.mem.length) : ∃ d', setLen d len = .ok d' ∧ Good d' ∧ d'.len = len ∧ d'.mem.length = d.mem.length ∧ d'.mem.take len = d.mem.take len := by
  refine ⟨_, if_pos h, ⟨?_, ?_⟩, rfl, ?_, ?_⟩
  · simpa using h
  · show (d.mem.set len 0)[len]? = some 0
    simp [h]
  · simp
  · show (d.mem.set len 0).take len = _
    rw [List.take_set_of_le (Nat.le_refl _)]

theorem allocFlex_ok {h : Heap} {k cap : Nat} (hc : cap ≤ 2 ^ 62) : (∃ m, allocFlex h k cap = some m ∧ m.length = cap) ∨ (allocFlex h k cap = none ∧ h k = none) := by
  have : ¬ sizeofFlex cap > ALLOC_MAX := by
    unfold sizeofFlex ALLOC_MAX
    rw [if_pos (by omega)]
    omega
  unfold allocFlex
  rw [if_neg this]
  cases hk : h k with
  | none => exact .inr ⟨rfl, rfl⟩
  | some g =>
    refine .inl ⟨_, rfl, ?_⟩
    rw [List.length_map, List.length_range]
    unfold sizeofFlex
    rw [if_pos (by omega)]
    omega

theorem smallCap_le {cap : Nat} (h : cap ≤ 2 ^ 62) : smallCap cap ≤ 2 ^ 62 ∧ cap ≤ smallCap cap := by
  unfold smallCap; split <;> omega

theorem allocImpl_ok {h : Heap} {k cap len : Nat} {str : Bytes} (hc : cap ≤ 2 ^ 62) (hl : len < cap) (hs : str.length = len) :
    (∃ d, allocImpl h k cap len str = .ok (some d) ∧ Good d ∧ d.contents = str ∧ cap ≤ d.mem.length) ∨ (allocImpl h k cap len str = .ok none ∧ h k = none) := by
  obtain ⟨hc1, hc2⟩ := smallCap_le hc
  unfold allocImpl
  rcases @allocFlex_ok h k (smallCap cap) hc1 with ⟨m, hm, hml⟩ | ⟨hm, hk⟩
  · rw [hm]
    dsimp only
    obtain ⟨d, e1, e2, e3, e4, -⟩ := @setLen_ok ⟨m, 0⟩ len (by dsimp only; omega)
    dsimp only at e4
    rw [e1]
    show (∃ d_1, (poke d 0 (str.take len)).bind _ = _ ∧ _) ∨ _
    rw [List.take_of_length_le (by omega)]
    obtain ⟨d', f1, f2, f3, -, f4, f5⟩ := @poke_ok d 0 str (by omega)
    rw [f1]
    refine .inl ⟨d', rfl, ⟨by omega, ?_⟩, ?_, by omega⟩
    · rw [DStr.Terminated, f5 _ (by omega), f2]; exact e2.nul
    · rw [DStr.contents, show d'.len = 0 + str.length by omega, f4]; simp
  · rw [hm]; exact .inr ⟨rfl, hk⟩

/-- The old contents and length of a variable, where `NULL` counts as empty. -/
def oldMem (st : St) : Bytes := (st.str.map (·.mem)).getD []
def oldLen (st : St) : Nat := (st.str.map (·.len)).getD 0

theorem reserve_ok {h : Heap} {st : St} {cap : Nat} (hc : cap < 2 ^ 62) :
    (∃ d k, dstreserve h st cap = .ok (true, ⟨some d, k⟩) ∧ cap < d.mem.length ∧ d.len = oldLen st ∧
      (st.str = none → Good d) ∧ ∀ d0, st.str = some d0 → d.mem.take d0.mem.length = d0.mem) ∨
    (∃ k, dstreserve h st cap = .ok (false, ⟨st.str, k⟩) ∧ ∃ k, h k = none) := by
  obtain ⟨str, k⟩ := st
  cases str with
  | none =>
    show (∃ d k', (dstralloc h k cap).bind _ = _ ∧ _) ∨ (∃ k', (dstralloc h k cap).bind _ = _ ∧ _)
    unfold dstralloc
    rw [Nat.mod_eq_of_lt (by omega)]
    rcases @allocImpl_ok h k (cap + 1) 0 [] (by omega) (by omega) rfl with ⟨d, hd, hg, hcont, hlen⟩ | ⟨hd, hk⟩
    · rw [hd]
      refine .inl ⟨d, k + 1, rfl, by omega, ?_, fun _ => hg, fun d0 h0 => by cases h0⟩
      have := contents_length hg.lt
      rw [hcont] at this
      exact this.symm
    · rw [hd]; exact .inr ⟨k + 1, rfl, k, hk⟩
  | some d =>
    unfold dstreserve
    dsimp only
    rw [Nat.mod_eq_of_lt (show cap + 1 < 2 ^ 64 by omega)]
    by_cases hge : d.mem.length ≥ cap + 1
    · rw [if_pos hge]
      exact .inl ⟨d, k, rfl, by omega, rfl, (fun h0 => by cases h0), fun d0 h0 => by cases h0; exact List.take_length⟩
    · rw [if_neg hge]
      obtain ⟨c, hceil, hpow, hle, hmin⟩ := Props.C52_ceil .gnu 64 (cap + 1) (by omega) (by omega)
      rw [hceil]
      have hc62 : c ≤ 2 ^ 62 := hmin 62 (by omega)
      dsimp only [Out.bind]
      unfold reallocFlex
      rcases @allocFlex_ok h k c hc62 with ⟨m, hm, hml⟩ | ⟨hm, hk⟩
      · rw [hm]
        refine .inl ⟨⟨d.mem.take c ++ m.drop d.mem.length, d.len⟩, k + 1, rfl, ?_, rfl, (fun h0 => by cases h0), ?_⟩
        · simp; omega
        · intro d0 h0
          cases h0
          rw [List.take_of_length_le (show d.mem.length ≤ c by omega)]
          dsimp only
          rw [List.take_append_of_le_length (Nat.le_refl _), List.take_length]
      · rw [hm]; exact .inr ⟨k + 1, rfl, k, hk⟩

/-- What is left of the old contents after `dstreserve()`. -/
theorem kept {d d0 : DStr} (h : d.mem.take d0.mem.length = d0.mem) {n : Nat} (hn : n ≤ d0.mem.length) : d.mem.take n = d0.mem.take n := by
  rw [← h, List.take_take, Nat.min_eq_left hn]

theorem kept_get {d d0 : DStr} (h : d.mem.take d0.mem.length = d0.mem) {n : Nat} (hn : n < d0.mem.length) : d.mem[n]? = d0.mem[n]? := by
  rw [← h, List.getElem?_take_of_lt hn]

theorem reserve_good {h : Heap} {st : St} {cap : Nat} (hg : GoodSt st) (hc : cap < 2 ^ 62) :
    (∃ d k, dstreserve h st cap = .ok (true, ⟨some d, k⟩) ∧ cap < d.mem.length ∧ d.len = oldLen st ∧ Good d ∧ d.contents = (value st).getD []) ∨
    (∃ k, dstreserve h st cap = .ok (false, ⟨st.str, k⟩) ∧ ∃ k, h k = none) := by
  rcases @reserve_ok h st cap hc with ⟨d, k, h1, h2, h3, h4, h5⟩ | h1
  · refine .inl ⟨d, k, h1, h2, h3, ?_⟩
    obtain ⟨str, k0⟩ := st
    cases str with
    | none =>
      refine ⟨h4 rfl, ?_⟩
      show d.mem.take d.len = []
      rw [h3]; rfl
    | some d0 =>
      have hgd := hg d0 rfl
      have h3 : d.len = d0.len := h3
      have hk := h5 d0 rfl
      have hlen : d0.mem.length ≤ d.mem.length := by
        have := congrArg List.length hk
        rw [List.length_take] at this
        omega
      have hlt := hgd.lt
      refine ⟨⟨by omega, ?_⟩, ?_⟩
      · rw [DStr.Terminated, h3, kept_get hk hlt]; exact hgd.nul
      · show d.mem.take d.len = d0.mem.take d0.len
        rw [h3, kept hk (by omega)]
  · exact .inr h1

theorem resize_ok {h : Heap} {st : St} {len : Nat} (hg : GoodSt st) (hc : len < 2 ^ 62) :
    (∃ d k, dstresize h st len = .ok (true, ⟨some d, k⟩) ∧ Good d ∧ d.len = len ∧ d.mem.take (min len (oldLen st)) = ((value st).getD []).take (min len (oldLen st))) ∨
    (∃ k, dstresize h st len = .ok (false, ⟨st.str, k⟩) ∧ ∃ k, h k = none) := by
  unfold dstresize
  rcases @reserve_good h st len hg hc with ⟨d, k, h1, h2, h3, h4, h5⟩ | ⟨k, h1, h2⟩
  · rw [h1]
    obtain ⟨d', e1, e2, e3, e4, e5⟩ := setLen_ok h2
    refine .inl ⟨d', k, ?_, e2, e3, ?_⟩
    · show (setLen d len).bind _ = _
      rw [e1]; rfl
    · have : d'.mem.take (min len (oldLen st)) = d.mem.take (min len (oldLen st)) := by
        have hm : ∀ l : Bytes, l.take (min len (oldLen st)) = (l.take len).take (min len (oldLen st)) := fun l => by
          rw [List.take_take]; congr 1; omega
        rw [hm, e5, ← hm]
      rw [this, ← h5, DStr.contents, h3, List.take_take]
      congr 1; omega
  · rw [h1]; exact .inr ⟨k, rfl, h2⟩

theorem oldLen_eq {st : St} (hg : GoodSt st) : oldLen st = ((value st).getD []).length := by
  obtain ⟨str, k⟩ := st
  cases str with
  | none => rfl
  | some d => exact (contents_length (hg d rfl).lt).symm

/-- What every operation has to satisfy. -/
def StepOk (h : Heap) (st : St) (op : Op) (r : Out (Bool × St)) : Prop :=
  (∃ d k, r = .ok (true, ⟨some d, k⟩) ∧ Good d ∧ op.Effect ((value st).getD []) d.contents) ∨
  (∃ s k, r = .ok (false, ⟨s, k⟩) ∧ GoodSt ⟨s, k⟩ ∧ s.map DStr.contents = value st ∧ op.MayFail h)

theorem cat_ok {h : Heap} {st : St} {l : Bytes} (hg : GoodSt st) (hn : st.str ≠ none) (hc : ((value st).getD []).length + l.length < 2 ^ 62) :
    StepOk h st (.cat l) (dstrxcat h st l) := by
  have hold := oldLen_eq hg
  obtain ⟨d0, h0⟩ := Option.ne_none_iff_exists'.1 hn
  have hol : oldLen st = d0.len := by rw [oldLen, h0]; rfl
  unfold dstrxcat
  rw [h0]
  show StepOk h st _ ((dstresize h st ((d0.len + l.length) % 2 ^ 64)).bind _)
  rw [Nat.mod_eq_of_lt (by omega)]
  rcases @resize_ok h st (d0.len + l.length) hg (by omega) with ⟨d, k, h1, h2, h3, h4⟩ | ⟨k, h1, h2⟩
  · rw [h1]
    have hlt := h2.lt
    obtain ⟨d', f1, f2, f3, -, f4, f5⟩ := @poke_ok d d0.len l (by omega)
    refine .inl ⟨d', k, ?_, ⟨by omega, ?_⟩, ?_⟩
    · show (poke d d0.len l).bind _ = _
      rw [f1]; rfl
    · rw [DStr.Terminated, f5 _ (by omega), f2]; exact h2.nul
    · show d'.mem.take d'.len = _
      rw [f2, h3, f4]
      rw [hol, Nat.min_eq_right (by omega)] at h4
      rw [h4, List.take_of_length_le (by omega)]
  · rw [h1]; exact .inr ⟨st.str, k, rfl, fun d hd => hg d hd, rfl, h2⟩

theorem cpy_ok {h : Heap} {st : St} {l : Bytes} (hg : GoodSt st) (hc : l.length < 2 ^ 62) : StepOk h st (.cpy l) (dstrxcpy h st l) := by
  unfold dstrxcpy
  rcases @resize_ok h st l.length hg hc with ⟨d, k, h1, h2, h3, -⟩ | ⟨k, h1, h2⟩
  · rw [h1]
    have hlt := h2.lt
    obtain ⟨d', f1, f2, f3, -, f4, f5⟩ := @poke_ok d 0 l (by omega)
    refine .inl ⟨d', k, ?_, ⟨by omega, ?_⟩, ?_⟩
    · show (poke d 0 l).bind _ = _
      rw [f1]; rfl
    · rw [DStr.Terminated, f5 _ (by omega), f2]; exact h2.nul
    · show d'.mem.take d'.len = l
      rw [f2, h3, show l.length = 0 + l.length by omega, f4]; simp
  · rw [h1]; exact .inr ⟨st.str, k, rfl, fun d hd => hg d hd, rfl, h2⟩

theorem shrink_ok {h : Heap} {st : St} {n : Nat} (hg : GoodSt st) (ha : ∃ s, value st = some s ∧ n ≤ s.length) : StepOk h st (.shrink n) (dstrshrink st n) := by
  obtain ⟨s, hs, hn⟩ := ha
  obtain ⟨str, k⟩ := st
  cases str with
  | none => cases hs
  | some d =>
    have hgd := hg d rfl
    have hlt := hgd.lt
    have hcl := contents_length hlt
    have hs : d.contents = s := by simpa [value] using hs
    obtain ⟨d', e1, e2, e3, e4, e5⟩ := @setLen_ok d n (by rw [← hs] at hn; omega)
    refine .inl ⟨d', k, ?_, e2, ?_⟩
    · show ((if n ≤ d.len then setLen d n else .ub) : Out DStr).bind _ = _
      rw [if_pos (by rw [← hs] at hn; omega), e1]; rfl
    · show d'.mem.take d'.len = (d.mem.take d.len).take n
      rw [e3, e5, List.take_take, Nat.min_eq_left (by rw [← hs] at hn; omega)]

theorem vcatFail_ok {h : Heap} {st : St} {d d0 : DStr} {op : Op} {k : Nat} (h0 : st.str = some d0) (hlen : d.len = d0.len) (hlt : d.len < d.mem.length) (hkeep : d.mem.take d0.len = d0.mem.take d0.len)
    (hf : op.MayFail h) : StepOk h st op (vcatFail d d0.len k) := by
  obtain ⟨d', f1, f2, f3, f4, f5, f6⟩ := @poke_ok d d0.len [0] (by simp; omega)
  refine .inr ⟨some d', k, ?_, ?_, ?_, hf⟩
  · rw [vcatFail, f1]; rfl
  · intro e he
    cases he
    refine ⟨by omega, ?_⟩
    rw [DStr.Terminated, f2, hlen]
    have hl : (d'.mem.take (d0.len + [(0 : UInt8)].length))[d0.len]? = some 0 := by
      rw [f5, List.getElem?_append_right (by rw [List.length_take]; omega), List.length_take, Nat.min_eq_left (by omega)]
      simp
    rwa [List.getElem?_take_of_lt (by simp)] at hl
  · rw [value, h0]
    show some d'.contents = some d0.contents
    rw [DStr.contents, DStr.contents, f2, hlen, f4, hkeep]

theorem vsnprintf_none {d : DStr} {i size : Nat} {junk : Bytes} (h : i + size ≤ d.mem.length) :
    ∃ d', vsnprintf d i size none junk = .ok (none, d') ∧ d'.len = d.len ∧ d'.mem.length = d.mem.length ∧ d'.mem.take i = d.mem.take i := by
  obtain ⟨d', f1, f2, f3, f4, -, -⟩ := @poke_ok d i (junk.take size) (by rw [List.length_take]; omega)
  exact ⟨d', by rw [vsnprintf, f1]; rfl, f2, f3, f4⟩

theorem vsnprintf_some {d : DStr} {i size : Nat} {t junk : Bytes} (hs : 0 < size) (h : i + size ≤ d.mem.length) :
    ∃ d', vsnprintf d i size (some t) junk = .ok (some t.length, d') ∧ d'.len = d.len ∧ d'.mem.length = d.mem.length ∧ d'.mem.take i = d.mem.take i ∧
      (t.length < size → d'.mem.take (i + t.length) = d.mem.take i ++ t ∧ d'.mem[i + t.length]? = some 0) := by
  have hl : (t.take (size - 1) ++ [(0 : UInt8)]).length ≤ size := by rw [List.length_append, List.length_take]; simp; omega
  obtain ⟨d', f1, f2, f3, f4, f5, -⟩ := @poke_ok d i (t.take (size - 1) ++ [0]) (by omega)
  refine ⟨d', by rw [vsnprintf, if_neg (by omega), f1]; rfl, f2, f3, f4, ?_⟩
  intro ht
  rw [List.take_of_length_le (show t.length ≤ size - 1 by omega)] at f5
  rw [List.length_append, List.length_singleton] at f5
  have hil : (d.mem.take i).length = i := by rw [List.length_take]; omega
  constructor
  · have : d'.mem.take (i + t.length) = (d'.mem.take (i + (t.length + 1))).take (i + t.length) := by
      rw [List.take_take, Nat.min_eq_left (by omega)]
    rw [this, f5, ← List.append_assoc, List.take_append_of_le_length (by rw [List.length_append]; omega)]
    exact List.take_of_length_le (by rw [List.length_append]; omega)
  · have : (d'.mem.take (i + (t.length + 1)))[i + t.length]? = some 0 := by
      rw [f5, ← List.append_assoc, List.getElem?_append_right (by rw [List.length_append]; omega), List.length_append, hil]
      simp
    rwa [List.getElem?_take_of_lt (by omega)] at this

theorem addLen_ok {h : Heap} {st : St} {d d0 : DStr} {flen k : Nat} {f : Fmt} {t : Bytes} (h0 : st.str = some d0) (hg : Good d0) (ht : f.text = some t) (hlen : d.len = d0.len)
    (htake : d.mem.take (d0.len + t.length) = d0.mem.take d0.len ++ t) (hnul : d.mem[d0.len + t.length]? = some 0) : StepOk h st (.catf flen f) (addLen d t.length k) := by
  refine .inl ⟨_, k, rfl, ⟨?_, ?_⟩, t, ht, ?_⟩
  · show d.len + t.length < d.mem.length
    rw [hlen]
    exact (List.getElem?_eq_some_iff.1 hnul).1
  · show d.mem[d.len + t.length]? = some 0
    rw [hlen]; exact hnul
  · rw [value, h0]
    show d.mem.take (d.len + t.length) = d0.mem.take d0.len ++ t
    rw [hlen, htake]

theorem catf_ok {h : Heap} {st : St} {flen : Nat} {f : Fmt} (hg : GoodSt st) (hn : st.str ≠ none) (hc : ((value st).getD []).length + (2 * flen + (f.text.getD []).length) < 2 ^ 62) :
    StepOk h st (.catf flen f) (dstrvcatf h st flen f) := by
  have hold := oldLen_eq hg
  obtain ⟨d0, h0⟩ := Option.ne_none_iff_exists'.1 hn
  have hgd := hg d0 h0
  have hlt0 := hgd.lt
  have hol : oldLen st = d0.len := by rw [oldLen, h0]; rfl
  unfold dstrvcatf
  rw [h0]
  show StepOk h st _ ((dstreserve h st ((d0.len + 2 * flen) % 2 ^ 64)).bind _)
  rw [Nat.mod_eq_of_lt (by omega)]
  -- after the first reservation, successful or not
  obtain ⟨b, d, k, hres, hlen, hdlt, hkeep⟩ : ∃ b d k, dstreserve h st (d0.len + 2 * flen) = .ok (b, ⟨some d, k⟩) ∧ d.len = d0.len ∧ d.len < d.mem.length ∧ d.mem.take d0.len = d0.mem.take d0.len := by
    rcases @reserve_ok h st (d0.len + 2 * flen) (by omega) with ⟨d, k, h1, h2, h3, -, h5⟩ | ⟨k, h1, -⟩
    · exact ⟨true, d, k, h1, by omega, by omega, kept (h5 d0 h0) (by omega)⟩
    · exact ⟨false, d0, k, by rw [h1, h0], rfl, hlt0, rfl⟩
  rw [hres]
  show StepOk h st _ ((vsnprintf d d0.len (d.mem.length - d0.len) f.text f.junk).bind _)
  cases ht : f.text with
  | none =>
    obtain ⟨d', v1, v2, v3, v4⟩ := @vsnprintf_none d d0.len (d.mem.length - d0.len) f.junk (by omega)
    rw [v1]
    exact vcatFail_ok h0 (by omega) (by omega) (by rw [v4, hkeep]) (.inl ht)
  | some t =>
    rw [ht] at hc
    have hc : ((value st).getD []).length + (2 * flen + t.length) < 2 ^ 62 := hc
    obtain ⟨d', v1, v2, v3, v4, v5⟩ := @vsnprintf_some d d0.len (d.mem.length - d0.len) t f.junk (by omega) (by omega)
    rw [v1]
    show StepOk h st _ (if t.length ≥ d.mem.length - d0.len then _ else addLen d' t.length k)
    by_cases hge : t.length ≥ d.mem.length - d0.len
    · rw [if_pos hge, Nat.mod_eq_of_lt (by omega)]
      rcases @reserve_ok h ⟨some d', k⟩ (d0.len + t.length) (by omega) with ⟨d2, k2, h1, h2, h3, -, h5⟩ | ⟨k2, h1, h2⟩
      · rw [h1]
        have h3 : d2.len = d'.len := h3
        have hk2 : d2.mem.take d0.len = d0.mem.take d0.len := by
          rw [kept (h5 d' rfl) (by omega), v4, hkeep]
        show StepOk h st _ ((vsnprintf d2 d0.len (t.length + 1) (if f.again then some t else none) f.junk).bind _)
        cases hag : f.again with
        | false =>
          obtain ⟨d3, w1, w2, w3, w4⟩ := @vsnprintf_none d2 d0.len (t.length + 1) f.junk (by omega)
          rw [show (if false = true then some t else none) = none from rfl, w1]
          exact vcatFail_ok h0 (by omega) (by omega) (by rw [w4, hk2]) (.inr (.inl hag))
        | true =>
          obtain ⟨d3, w1, w2, w3, w4, w5⟩ := @vsnprintf_some d2 d0.len (t.length + 1) t f.junk (by omega) (by omega)
          rw [show (if true = true then some t else none) = some t from rfl, w1]
          show StepOk h st _ (if t.length ≠ t.length then _ else addLen d3 t.length k2)
          rw [if_neg (by simp)]
          obtain ⟨w6, w7⟩ := w5 (by omega)
          exact addLen_ok h0 hgd ht (by omega) (by rw [w6, hk2]) w7
      · rw [h1]
        show StepOk h st _ (vcatFail d' d0.len k2)
        exact vcatFail_ok h0 (by omega) (by omega) (by rw [v4, hkeep]) (.inr (.inr h2))
    · rw [if_neg hge]
      obtain ⟨v6, v7⟩ := v5 (by omega)
      exact addLen_ok h0 hgd ht (by omega) (by rw [v6, hkeep]) v7

theorem escat_ok {h : Heap} {st : St} {L : Quote.Locale} {shell : Bool} {s : Bytes} (hg : GoodSt st) (hc : ((value st).getD []).length + (4 * s.length + 3) < 2 ^ 62) :
    StepOk h st (.escat L shell s) (dstrnescat h st L shell s) := by
  have hold := oldLen_eq hg
  obtain ⟨q, hq, -, hql⟩ := Props.C14_never_truncated L shell s
  unfold dstrnescat
  dsimp only
  rw [show (st.str.map (·.len)).getD 0 = oldLen st from rfl, Nat.mod_eq_of_lt (by omega)]
  rcases @reserve_good h st (oldLen st + 4 * s.length + 3) hg (by omega) with ⟨d, k, h1, h2, h3, h4, h5⟩ | ⟨k, h1, h2⟩
  · rw [h1]
    dsimp only [Out.bind]
    rw [show oldLen st + 4 * s.length + 3 + 1 - oldLen st = 4 * s.length + 3 + 1 by omega]
    have hesc : ¬ (Quote.wordnesc L shell ⟨[], 4 * s.length + 3 + 1⟩ s).room = 0 ∧ (Quote.wordnesc L shell ⟨[], 4 * s.length + 3 + 1⟩ s).out = q := by
      unfold Quote.escape at hq
      dsimp only at hq
      split at hq
      · cases hq
      · cases hq; exact ⟨‹_›, rfl⟩
    rw [if_neg hesc.1, hesc.2]
    obtain ⟨d', f1, f2, f3, f4, f5, f6⟩ := @poke_ok d (oldLen st) (q ++ [0]) (by rw [List.length_append]; simp; omega)
    show StepOk h st _ (((poke d (oldLen st) (q ++ [0])).bind _).bind _)
    rw [f1]
    show StepOk h st _ (dstresize h ⟨some d', k⟩ (oldLen st + q.length))
    -- the reservation in `dstresize()` has nothing to do
    have hlen' : d'.mem.length > oldLen st + q.length := by omega
    have hres : dstreserve h ⟨some d', k⟩ (oldLen st + q.length) = .ok (true, ⟨some d', k⟩) := by
      unfold dstreserve
      dsimp only
      rw [Nat.mod_eq_of_lt (by omega), if_pos (by omega)]
    unfold dstresize
    rw [hres]
    obtain ⟨d2, e1, e2, e3, e4, e5⟩ := setLen_ok hlen'
    refine .inl ⟨d2, k, ?_, e2, q, hq, ?_⟩
    · show (setLen d' _).bind _ = _
      rw [e1]; rfl
    · show d2.mem.take d2.len = _
      rw [e3, e5]
      have : d'.mem.take (oldLen st + q.length) = (d'.mem.take (oldLen st + (q ++ [0]).length)).take (oldLen st + q.length) := by
        rw [List.take_take, Nat.min_eq_left (by rw [List.length_append]; omega)]
      rw [this, f5, ← h5, DStr.contents, h3, ← List.append_assoc]
      have hle := h4.lt
      rw [List.take_append_of_le_length (by rw [List.length_append, List.length_take]; omega)]
      exact List.take_of_length_le (by rw [List.length_append, List.length_take]; omega)
  · rw [h1]; exact .inr ⟨st.str, k, rfl, fun d hd => hg d hd, rfl, h2⟩

end Verif.Dstr
