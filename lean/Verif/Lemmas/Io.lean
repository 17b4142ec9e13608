import Verif.Spec.Io
/-! # Lemmas about reading and writing -/
namespace Verif.Io
open Verif

theorem read_lt {n : Nat} {s s' : List RResp} {l : List UInt8} (h : read n s = some (.data l, s')) : l.length ≤ n := by
  cases s with
  | nil => cases h
  | cons r s =>
    cases r with
    | eintr => cases h
    | error e => cases h
    | bytes m =>
      by_cases hm : m.length ≤ n
      · rw [read, if_pos hm] at h; cases h; exact hm
      · rw [read, if_neg hm] at h; cases h; simp; omega

/-- What a finished `xread()` looks like. -/
structure ReadDone (nbytes : Nat) (buf : List UInt8) (count : Nat) (d : List UInt8 × End) (r : Out (Option XRead)) : Prop where
  full : nbytes ≤ count + d.1.length → ∃ st', r = .ok (some st') ∧ st'.count = nbytes ∧ st'.buf = buf.take count ++ d.1.take (nbytes - count) ∧ delivered st'.rest = (d.1.drop (nbytes - count), d.2)
  short : count + d.1.length < nbytes →
    match d.2 with
    | .pending => r = .ok none
    | .eof => ∃ st', r = .ok (some st') ∧ st'.count = count + d.1.length ∧ st'.errno = 0 ∧ st'.buf = buf.take count ++ d.1 ++ buf.drop (count + d.1.length)
    | .error e => ∃ st', r = .ok (some st') ∧ st'.count = count + d.1.length ∧ st'.errno = e ∧ st'.buf = buf.take count ++ d.1 ++ buf.drop (count + d.1.length)

theorem xreadLoop_succ (nbytes fuel : Nat) (st : XRead) : xreadLoop nbytes (fuel + 1) st =
    if st.count < nbytes then
      match read (nbytes - st.count) st.rest with
      | none => .ok none
      | some (.fail e, rest) =>
        if e = EINTR then xreadLoop nbytes fuel { st with errno := e, rest := rest }
        else .ok (some { st with errno := e, rest := rest })
      | some (.data [], rest) => .ok (some { st with errno := 0, rest := rest })
      | some (.data l, rest) =>
        if st.count + l.length ≤ st.buf.length then
          xreadLoop nbytes fuel { st with buf := st.buf.take st.count ++ l ++ st.buf.drop (st.count + l.length), count := st.count + l.length, rest := rest }
        else .ub
    else .ok (some st) := rfl

theorem xreadLoop_done {nbytes : Nat} : ∀ (fuel : Nat) (st : XRead), st.buf.length = nbytes → st.count ≤ nbytes → 1 ≤ fuel → (st.count < nbytes → st.rest.length + 2 ≤ fuel) →
    ReadDone nbytes st.buf st.count (delivered st.rest) (xreadLoop nbytes fuel st) := by
  intro fuel
  induction fuel with
  | zero => intro st _ _ h; omega
  | succ fuel ih =>
    intro st hb hc _ hf
    rw [xreadLoop_succ]
    by_cases hlt : st.count < nbytes
    · have hf := hf hlt
      rw [if_pos hlt]
      obtain ⟨buf, count, errno, rest⟩ := st
      dsimp only at hb hc hlt hf ⊢
      cases rest with
      | nil => exact ⟨fun h => absurd h (by simp [delivered]; omega), fun _ => rfl⟩
      | cons r s =>
        rw [List.length_cons] at hf
        cases r with
        | eintr =>
          exact ih ⟨buf, count, EINTR, s⟩ hb hc (by omega) (fun _ => by dsimp only; omega)
        | error e =>
          by_cases he : e = EINTR
          · subst he
            exact ih ⟨buf, count, EINTR, s⟩ hb hc (by omega) (fun _ => by dsimp only; omega)
          · have hd : delivered (.error e :: s) = ([], .error e) := if_neg he
            rw [hd]
            show ReadDone _ _ _ _ (if e = EINTR then _ else _)
            rw [if_neg he]
            exact ⟨fun h => absurd h (by simp; omega), fun _ => ⟨_, rfl, rfl, rfl, by simp⟩⟩
        | bytes m =>
          cases m with
          | nil =>
            show ReadDone _ _ _ _ (Out.ok _)
            exact ⟨fun h => absurd h (by simp [delivered]; omega), fun _ => ⟨_, rfl, rfl, rfl, by simp [delivered]⟩⟩
          | cons b l =>
            have hd : delivered (.bytes (b :: l) :: s) = (b :: l ++ (delivered s).1, (delivered s).2) := rfl
            rw [hd]
            generalize hm : b :: l = m
            have hpos : 0 < m.length := by rw [← hm]; simp
            by_cases hle : m.length ≤ nbytes - count
            · have hr : read (nbytes - count) (.bytes m :: s) = some (.data m, s) := if_pos hle
              rw [hr, ← hm]
              dsimp only
              rw [hm, if_pos (by omega)]
              have := ih ⟨buf.take count ++ m ++ buf.drop (count + m.length), count + m.length, errno, s⟩ (by simp; omega) (by dsimp only; omega) (by omega) (fun _ => by dsimp only; omega)
              obtain ⟨h1, h2⟩ := this
              dsimp only at h1 h2
              have htake : (buf.take count ++ m ++ buf.drop (count + m.length)).take (count + m.length) = buf.take count ++ m := by
                rw [List.take_append_of_le_length (by simp; omega)]
                exact List.take_of_length_le (by simp; omega)
              have hdrop : ∀ k, (buf.take count ++ m ++ buf.drop (count + m.length)).drop (count + m.length + k) = buf.drop (count + m.length + k) := by
                intro k
                rw [List.drop_append, List.drop_eq_nil_of_le (by simp; omega), List.nil_append, List.drop_drop]
                congr 1; simp; omega
              constructor
              · intro h
                rw [List.length_append] at h
                obtain ⟨st', e1, e2, e3, e4⟩ := h1 (by omega)
                refine ⟨st', e1, e2, ?_, ?_⟩
                · rw [e3, htake, List.take_append, List.take_of_length_le hle, List.append_assoc]
                  congr 3; omega
                · rw [e4, List.drop_append, List.drop_eq_nil_of_le hle, List.nil_append]
                  congr 2; omega
              · intro h
                rw [List.length_append] at h
                have := h2 (by omega)
                dsimp only at h ⊢
                generalize (delivered s).2 = e at this ⊢
                cases e with
                | pending => exact this
                | eof =>
                  obtain ⟨st', e1, e2, e3, e4⟩ := this
                  refine ⟨st', e1, by rw [e2, List.length_append]; omega, e3, ?_⟩
                  rw [e4, htake, hdrop, List.length_append, Nat.add_assoc, List.append_assoc (buf.take count)]
                | error e =>
                  obtain ⟨st', e1, e2, e3, e4⟩ := this
                  refine ⟨st', e1, by rw [e2, List.length_append]; omega, e3, ?_⟩
                  rw [e4, htake, hdrop, List.length_append, Nat.add_assoc, List.append_assoc (buf.take count)]
            · have hr : read (nbytes - count) (.bytes m :: s) = some (.data (m.take (nbytes - count)), .bytes (m.drop (nbytes - count)) :: s) := if_neg hle
              have htl : (m.take (nbytes - count)).length = nbytes - count := by simp; omega
              rw [hr]
              obtain ⟨b', l', hbl⟩ : ∃ b' l', m.take (nbytes - count) = b' :: l' := by
                cases ht : m.take (nbytes - count) with
                | nil => rw [ht] at htl; simp at htl; omega
                | cons x y => exact ⟨x, y, rfl⟩
              rw [hbl]
              dsimp only
              rw [← hbl, htl, if_pos (by omega)]
              cases fuel with
              | zero => omega
              | succ fuel =>
                rw [xreadLoop_succ, if_neg (by dsimp only; omega)]
                constructor
                · intro _
                  refine ⟨_, rfl, by dsimp only; omega, ?_, ?_⟩
                  · dsimp only
                    rw [List.drop_eq_nil_of_le (by omega), List.append_nil, List.take_append, show nbytes - count - m.length = 0 by omega, List.take_zero, List.append_nil]
                  · dsimp only
                    rw [List.drop_append, show nbytes - count - m.length = 0 by omega, List.drop_zero]
                    cases hdr : m.drop (nbytes - count) with
                    | nil => have := congrArg List.length hdr; simp at this; omega
                    | cons x y => rfl
                · intro h
                  rw [List.length_append] at h
                  omega
    · rw [if_neg hlt]
      have hc' : st.count = nbytes := by omega
      constructor
      · intro _
        refine ⟨st, rfl, hc', ?_, ?_⟩
        · rw [hc', Nat.sub_self, List.take_zero, List.append_nil, ← hb, List.take_length]
        · rw [hc', Nat.sub_self, List.drop_zero]
      · intro h; omega

/-- What a finished `xwrite()` looks like. -/
structure WriteDone (buf out : List UInt8) (count : Nat) (a : Nat × End) (r : Option XWrite) : Prop where
  full : buf.length ≤ count + a.1 → ∃ st, r = some st ∧ st.count = buf.length ∧ st.out = out ++ buf.drop count
  short : count + a.1 < buf.length →
    match a.2 with
    | .pending => r = none
    | .eof => ∃ st, r = some st ∧ st.count = count + a.1 ∧ st.errno = 0 ∧ st.out = out ++ (buf.drop count).take a.1
    | .error e => ∃ st, r = some st ∧ st.count = count + a.1 ∧ st.errno = e ∧ st.out = out ++ (buf.drop count).take a.1

theorem xwriteLoop_stop {buf : List UInt8} {script : List WResp} {out : List UInt8} {count errno : Nat} (h : ¬ count < buf.length) :
    xwriteLoop buf script out count errno = some { out := out, count := count, errno := errno, rest := script } := by
  unfold xwriteLoop; exact if_neg h

theorem xwriteLoop_cons {buf : List UInt8} {r : WResp} {s : List WResp} {out : List UInt8} {count errno : Nat} (h : count < buf.length) :
    xwriteLoop buf (r :: s) out count errno = match r with
      | .eintr => xwriteLoop buf s out count EINTR
      | .error e => if e = EINTR then xwriteLoop buf s out count e else some { out := out, count := count, errno := e, rest := s }
      | .accept n =>
        if min n (buf.length - count) = 0 then some { out := out, count := count, errno := 0, rest := s }
        else xwriteLoop buf s (out ++ (buf.drop count).take (min n (buf.length - count))) (count + min n (buf.length - count)) errno := by
  conv => lhs; unfold xwriteLoop
  rw [if_pos h]
  cases r <;> rfl

theorem xwriteLoop_nil {buf : List UInt8} {out : List UInt8} {count errno : Nat} (h : count < buf.length) : xwriteLoop buf [] out count errno = none := by
  unfold xwriteLoop; exact if_pos h

theorem xwriteLoop_done {buf : List UInt8} : ∀ (script : List WResp) (out : List UInt8) (count errno : Nat), count ≤ buf.length →
    WriteDone buf out count (accepted script) (xwriteLoop buf script out count errno) := by
  intro script
  induction script with
  | nil =>
    intro out count errno hc
    by_cases hlt : count < buf.length
    · rw [xwriteLoop_nil hlt]
      exact ⟨fun h => absurd h (by simp [accepted]; omega), fun _ => rfl⟩
    · rw [xwriteLoop_stop hlt]
      exact ⟨fun _ => ⟨_, rfl, by dsimp only; omega, by dsimp only; rw [List.drop_eq_nil_of_le (by omega), List.append_nil]⟩, fun h => by omega⟩
  | cons r s ih =>
    intro out count errno hc
    by_cases hlt : count < buf.length
    · cases r with
      | eintr => rw [xwriteLoop_cons hlt]; exact ih out count EINTR hc
      | error e =>
        rw [xwriteLoop_cons hlt]
        dsimp only
        by_cases he : e = EINTR
        · subst he
          rw [if_pos rfl]
          exact ih out count EINTR hc
        · rw [if_neg he, show accepted (.error e :: s) = (0, .error e) from if_neg he]
          exact ⟨fun h => by dsimp only at h; omega, fun _ => ⟨_, rfl, rfl, rfl, by simp⟩⟩
      | accept n =>
        rw [xwriteLoop_cons hlt]
        dsimp only
        cases n with
        | zero =>
          rw [if_pos (by simp)]
          exact ⟨fun h => absurd h (by simp [accepted]; omega), fun _ => ⟨_, rfl, rfl, rfl, by simp [accepted]⟩⟩
        | succ n =>
          rw [if_neg (by omega)]
          have hd : accepted (.accept (n + 1) :: s) = (n + 1 + (accepted s).1, (accepted s).2) := rfl
          rw [hd]
          generalize hk : min (n + 1) (buf.length - count) = k
          obtain ⟨h1, h2⟩ := ih (out ++ (buf.drop count).take k) (count + k) errno (by omega)
          constructor
          · intro h
            dsimp only at h
            have hx : buf.length ≤ count + k + (accepted s).1 := by omega
            obtain ⟨st, e1, e2, e3⟩ := h1 hx
            refine ⟨st, e1, e2, ?_⟩
            rw [e3, List.append_assoc, ← List.drop_drop, List.take_append_drop]
          · intro h
            dsimp only at h ⊢
            have hk' : k = n + 1 := by
              clear h1 h2 ih
              omega
            subst hk'
            have := h2 (by omega)
            have hjoin : out ++ (buf.drop count).take (n + 1) ++ (buf.drop (count + (n + 1))).take (accepted s).1 = out ++ (buf.drop count).take (n + 1 + (accepted s).1) := by
              rw [List.append_assoc, ← List.drop_drop, ← List.take_add]
            generalize (accepted s).2 = e at this ⊢
            cases e with
            | pending => exact this
            | eof =>
              obtain ⟨st, e1, e2, e3, e4⟩ := this
              exact ⟨st, e1, by omega, e3, by rw [e4, hjoin]⟩
            | error e =>
              obtain ⟨st, e1, e2, e3, e4⟩ := this
              exact ⟨st, e1, by omega, e3, by rw [e4, hjoin]⟩
    · rw [xwriteLoop_stop hlt]
      exact ⟨fun _ => ⟨_, rfl, by dsimp only; omega, by dsimp only; rw [List.drop_eq_nil_of_le (by omega), List.append_nil]⟩, fun h => by omega⟩

/-! ## Links -/

theorem linkLoop_succ (w : LinkWorld) (fuel call size : Nat) : linkLoop w (fuel + 1) call size =
    if size ≤ PTRDIFF_MAX ∧ w.alloc call = true then
      match w.target call with
      | none => .err "readlinkat"
      | some t =>
        if min t.length size ≥ size then linkLoop w fuel (call + 1) (size * 2 % 2 ^ 64)
        else if min t.length size < size then .ok { size := size, name := t.take size, call := call } else .ub
    else .err "realloc" := rfl

theorem linkLoop_ok (w : LinkWorld) : ∀ (fuel call size : Nat), 65 ≤ call + fuel → 2 ^ call ≤ size → 0 < fuel →
    (∃ l, linkLoop w fuel call size = .ok l ∧ w.target l.call = some l.name ∧ l.name.length < l.size) ∨
    (linkLoop w fuel call size = .err "readlinkat" ∧ ∃ c, w.target c = none) ∨
    (linkLoop w fuel call size = .err "realloc" ∧ ((∃ c, w.alloc c = false) ∨ PTRDIFF_MAX < size ∨ ∃ c t, w.target c = some t ∧ 2 ^ 62 ≤ t.length)) := by
  intro fuel
  induction fuel with
  | zero => intro _ _ _ _ h; omega
  | succ fuel ih =>
    intro call size hc hs _
    rw [linkLoop_succ]
    by_cases h : size ≤ PTRDIFF_MAX ∧ w.alloc call = true
    · rw [if_pos h]
      have hcall : call < 63 := by
        apply Nat.lt_of_not_le
        intro hcc
        have := Nat.pow_le_pow_right (show 0 < 2 by omega) hcc
        have := h.1
        unfold PTRDIFF_MAX at this
        omega
      have hdouble : size * 2 % 2 ^ 64 = size * 2 := by
        apply Nat.mod_eq_of_lt
        have := h.1
        unfold PTRDIFF_MAX at this
        omega
      cases ht : w.target call with
      | none => exact .inr (.inl ⟨rfl, call, ht⟩)
      | some t =>
        dsimp only
        by_cases hge : min t.length size ≥ size
        · rw [if_pos hge, hdouble]
          rcases ih (call + 1) (size * 2) (by omega) (by rw [Nat.pow_succ]; omega) (by omega) with h1 | h1 | ⟨h1, h2⟩
          · exact .inl h1
          · exact .inr (.inl h1)
          · refine .inr (.inr ⟨h1, ?_⟩)
            rcases h2 with h2 | h2 | h2
            · exact .inl h2
            · refine .inr (.inr ⟨call, t, ht, ?_⟩)
              unfold PTRDIFF_MAX at h2
              omega
            · exact .inr (.inr h2)
        · rw [if_neg hge, if_pos (by omega)]
          refine .inl ⟨_, rfl, ?_, ?_⟩
          · dsimp only; rw [ht, List.take_of_length_le (by omega)]
          · dsimp only; rw [List.length_take]; omega
    · rw [if_neg h]
      refine .inr (.inr ⟨rfl, ?_⟩)
      by_cases h1 : size ≤ PTRDIFF_MAX
      · left
        refine ⟨call, ?_⟩
        cases ha : w.alloc call with
        | true => exact absurd ⟨h1, ha⟩ h
        | false => rfl
      · exact .inr (.inl (by omega))

/-! ## Names -/

theorem names_append (l : List UInt8) : ∀ (cur rest : List UInt8), (∀ b ∈ l, b ≠ 0) → names cur (l ++ rest) = names (cur ++ l) rest := by
  induction l with
  | nil => intro cur rest _; simp
  | cons b l ih =>
    intro cur rest h
    rw [List.cons_append, names, if_neg (h b (by simp)), ih _ _ (fun c hc => h c (by simp [hc]))]
    simp

theorem findIdx_split {l : List UInt8} {i : Nat} (h : l.findIdx? (· == 0) = some i) : l = l.take i ++ 0 :: l.drop (i + 1) ∧ ∀ b ∈ l.take i, b ≠ 0 := by
  rw [List.findIdx?_eq_some_iff_getElem] at h
  obtain ⟨hi, h0, hlt⟩ := h
  constructor
  · conv => lhs; rw [← List.take_append_drop i l, List.drop_eq_getElem_cons hi]
    rw [show l[i] = 0 by simpa using h0]
  · intro b hb
    rw [List.mem_take_iff_getElem] at hb
    obtain ⟨j, hj, rfl⟩ := hb
    have := hlt j (by omega)
    simpa using this

theorem cstr_of {l rest : List UInt8} (h : ∀ b ∈ l, b ≠ 0) : cstr (l ++ 0 :: rest) = l := by
  induction l with
  | nil => rfl
  | cons b l ih =>
    have hb : b ≠ 0 := h b (by simp)
    rw [cstr, List.cons_append, List.takeWhile_cons_of_pos (by simpa using hb)]
    congr 1
    exact ih fun c hc => h c (by simp [hc])

/-- `xgetdelim()` with a NUL delimiter. -/
theorem xgetdelim_nul {s : Stream} (h : s.data ≠ []) : ∃ p rest, xgetdelim 0 s = (.inl p, { s with data := rest }) ∧ rest.length < s.data.length ∧ (∀ b ∈ p, b ≠ 0) ∧
    names [] s.data = p :: names [] rest := by
  obtain ⟨data, e⟩ := s
  dsimp only at h ⊢
  cases data with
  | nil => exact absurd rfl h
  | cons b l =>
    unfold xgetdelim getdelim
    dsimp only
    generalize hd : b :: l = d
    have hpos : 0 < d.length := by rw [← hd]; simp
    cases hf : d.findIdx? (· == 0) with
    | some i =>
      obtain ⟨hsplit, hnz⟩ := findIdx_split hf
      have hi : i < d.length := by
        rw [List.findIdx?_eq_some_iff_getElem] at hf
        exact hf.1
      dsimp only
      have htake : d.take (i + 1) = d.take i ++ [0] := by
        conv => lhs; rw [hsplit]
        rw [List.take_append, List.take_of_length_le (by simp; omega)]
        simp [show min i d.length = i by omega]
      refine ⟨d.take i, d.drop (i + 1), ?_, by simp; omega, hnz, ?_⟩
      · congr 2
        have hset : (d.take (i + 1) ++ [0]).set (d.take (i + 1)).length 0 = d.take (i + 1) ++ [0] := by simp
        rw [hset, ite_self, htake, List.append_assoc]
        exact cstr_of hnz
      · conv => lhs; rw [hsplit]
        rw [names_append _ _ _ hnz, List.nil_append, names, if_pos rfl]
    | none =>
      dsimp only
      have hnz : ∀ b ∈ d, b ≠ 0 := by
        rw [List.findIdx?_eq_none_iff] at hf
        intro b hb
        simpa using hf b hb
      refine ⟨d, [], ?_, by simpa using hpos, hnz, ?_⟩
      · congr 2
        have hset : (d ++ [0]).set d.length 0 = d ++ [0] := by simp
        rw [hset, ite_self]
        exact cstr_of hnz
      · have := names_append d [] [] hnz
        rw [List.append_nil, List.nil_append] at this
        rw [this, names, if_neg (by intro hc; rw [hc] at hpos; simp at hpos)]
        rfl

theorem files0Loop_ok : ∀ (fuel : Nat) (s : Stream) (roots : List (List UInt8)), s.data.length < fuel → files0Loop fuel s roots =
    .ok (match s.error with | some (e + 1) => .inr (e + 1) | _ => .inl (roots ++ names [] s.data)) := by
  intro fuel
  induction fuel with
  | zero => intro s _ h; omega
  | succ fuel ih =>
    intro s roots hf
    by_cases h : s.data = []
    · obtain ⟨data, err⟩ := s
      dsimp only at h
      subst h
      cases err with
      | none => simp [files0Loop, xgetdelim, getdelim, names]
      | some e => cases e <;> simp [files0Loop, xgetdelim, getdelim, names]
    · obtain ⟨p, rest, hx, hlt, -, hn⟩ := xgetdelim_nul h
      rw [files0Loop, hx]
      dsimp only
      rw [ih _ _ (by dsimp only; omega), hn]
      simp

end Verif.Io
