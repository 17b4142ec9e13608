import Verif.Lemmas.Io
/-!
# C42: full reads and writes; C63: link targets; C64: names from a file; C66: delimited input

`delivered script` is all that can be read before the file ends or an error happens, `accepted script` how much can be written.
-/
namespace Verif.Props
open Verif.Io

/-- If there are enough bytes, `xread()` fills the whole buffer with the first of them, in order and however they arrive, and leaves the others to be read. -/
theorem C42_read_full (errno : Nat) (buf : List UInt8) (script : List RResp) (h : buf.length ≤ (delivered script).1.length) :
    ∃ st, xread errno buf script = .ok (some st) ∧ st.count = buf.length ∧ st.buf = (delivered script).1.take buf.length ∧
      delivered st.rest = ((delivered script).1.drop buf.length, (delivered script).2) := by
  have hd := @xreadLoop_done buf.length (buf.length + script.length + 1) ⟨buf, 0, errno, script⟩ rfl (Nat.zero_le _) (by omega) (fun h => by dsimp only at h ⊢; omega)
  have := hd.full (by dsimp only; omega)
  simpa [xread] using this

example : xread 0 [0, 0, 0, 0] [.bytes [1], .eintr, .bytes [2, 3], .eintr, .bytes [4, 5]] = .ok (some ⟨[1, 2, 3, 4], 4, EINTR, [.bytes [5]]⟩) := by decide

/-- Otherwise `xread()` returns as many bytes as there are and says why: `errno` is 0 at the end of the file and the error otherwise; the rest of the buffer is untouched. As long as neither has happened it waits. -/
theorem C42_read_short (errno : Nat) (buf : List UInt8) (script : List RResp) (h : (delivered script).1.length < buf.length) :
    ((delivered script).2 = .pending → xread errno buf script = .ok none) ∧
    ((delivered script).2 = .eof → ∃ st, xread errno buf script = .ok (some st) ∧ st.count = (delivered script).1.length ∧ st.errno = 0 ∧ st.buf = (delivered script).1 ++ buf.drop (delivered script).1.length) ∧
    (∀ e, (delivered script).2 = .error e → ∃ st, xread errno buf script = .ok (some st) ∧ st.count = (delivered script).1.length ∧ st.errno = e ∧ st.buf = (delivered script).1 ++ buf.drop (delivered script).1.length) := by
  have hd := @xreadLoop_done buf.length (buf.length + script.length + 1) ⟨buf, 0, errno, script⟩ rfl (Nat.zero_le _) (by omega) (fun h => by dsimp only at h ⊢; omega)
  have hs := hd.short (by dsimp only; omega)
  dsimp only at hs
  refine ⟨fun he => ?_, fun he => ?_, fun e he => ?_⟩ <;> rw [he] at hs
  · exact hs
  · simpa [xread] using hs
  · simpa [xread] using hs

example : xread 7 [9, 9, 9, 9] [.bytes [1], .eintr, .bytes [2], .bytes []] = .ok (some ⟨[1, 2, 9, 9], 2, 0, []⟩) ∧
    xread 7 [9, 9, 9, 9] [.bytes [1], .error 5] = .ok (some ⟨[1, 9, 9, 9], 1, 5, []⟩) ∧ xread 7 [9, 9] [.eintr, .bytes [1]] = .ok none := by decide

/-- `xread()` never writes beyond the buffer, nor changes its size, whatever the kernel does. -/
theorem C42_read_safe (errno : Nat) (buf : List UInt8) (script : List RResp) : ∃ r, xread errno buf script = .ok r ∧ ∀ st, r = some st → st.buf.length = buf.length ∧ st.count ≤ buf.length := by
  by_cases h : buf.length ≤ (delivered script).1.length
  · obtain ⟨st, h1, h2, h3, -⟩ := C42_read_full errno buf script h
    exact ⟨_, h1, fun st' hs => by cases hs; exact ⟨by rw [h3]; simp; omega, by omega⟩⟩
  · obtain ⟨h1, h2, h3⟩ := C42_read_short errno buf script (by omega)
    cases he : (delivered script).2 with
    | pending => exact ⟨none, h1 he, fun st hs => by cases hs⟩
    | eof =>
      obtain ⟨st, g1, g2, -, g3⟩ := h2 he
      exact ⟨_, g1, fun st' hs => by cases hs; exact ⟨by rw [g3]; simp; omega, by omega⟩⟩
    | error e =>
      obtain ⟨st, g1, g2, -, g3⟩ := h3 e he
      exact ⟨_, g1, fun st' hs => by cases hs; exact ⟨by rw [g3]; simp; omega, by omega⟩⟩

example : xread 0 [] [] = .ok (some ⟨[], 0, 0, []⟩) := by decide

/-- If the file accepts enough, `xwrite()` writes the whole buffer once, in order. -/
theorem C42_write_full (errno : Nat) (buf out : List UInt8) (script : List WResp) (h : buf.length ≤ (accepted script).1) :
    ∃ st, xwrite errno buf out script = some st ∧ st.count = buf.length ∧ st.out = out ++ buf := by
  have := (xwriteLoop_done (buf := buf) script out 0 errno (Nat.zero_le _)).full (by omega)
  simpa [xwrite] using this

example : xwrite 0 [1, 2, 3, 4] [9] [.accept 1, .eintr, .accept 2, .accept 7] = some ⟨[9, 1, 2, 3, 4], 4, EINTR, []⟩ := by decide

/-- Otherwise `xwrite()` writes as much of the beginning as is accepted, and returns how much that is and why. -/
theorem C42_write_short (errno : Nat) (buf out : List UInt8) (script : List WResp) (h : (accepted script).1 < buf.length) :
    ((accepted script).2 = .pending → xwrite errno buf out script = none) ∧
    ((accepted script).2 = .eof → ∃ st, xwrite errno buf out script = some st ∧ st.count = (accepted script).1 ∧ st.errno = 0 ∧ st.out = out ++ buf.take (accepted script).1) ∧
    (∀ e, (accepted script).2 = .error e → ∃ st, xwrite errno buf out script = some st ∧ st.count = (accepted script).1 ∧ st.errno = e ∧ st.out = out ++ buf.take (accepted script).1) := by
  have hs := (xwriteLoop_done (buf := buf) script out 0 errno (Nat.zero_le _)).short (by omega)
  refine ⟨fun he => ?_, fun he => ?_, fun e he => ?_⟩ <;> rw [he] at hs
  · exact hs
  · simpa [xwrite] using hs
  · simpa [xwrite] using hs

example : xwrite 0 [1, 2, 3, 4] [] [.accept 1, .eintr, .accept 2, .error 28] = some ⟨[1, 2, 3], 3, 28, []⟩ ∧ xwrite 0 [1, 2] [] [.accept 1, .eintr] = none := by decide

/-- `xreadlinkat()` returns a whole target of the link, as it was at one moment, in a buffer with room for the terminator, whatever the size it was told to expect; or an error that really happened. Targets are assumed to be shorter than 2^62. -/
theorem C63_link (w : LinkWorld) (hint : Nat) (hh : hint < PTRDIFF_MAX) (ht : ∀ c t, w.target c = some t → t.length < 2 ^ 62) :
    (∃ l, xreadlinkat w hint = .ok l ∧ w.target l.call = some l.name ∧ l.name.length < l.size) ∨
    (xreadlinkat w hint = .err "readlinkat" ∧ ∃ c, w.target c = none) ∨ (xreadlinkat w hint = .err "realloc" ∧ ∃ c, w.alloc c = false) := by
  have hP : PTRDIFF_MAX = 2 ^ 63 - 1 := rfl
  have hfirst : 1 ≤ firstSize hint ∧ firstSize hint ≤ PTRDIFF_MAX := by
    unfold firstSize
    split
    · rw [hP]; omega
    · rw [Nat.mod_eq_of_lt (by omega)]; omega
  rcases linkLoop_ok w 65 0 (firstSize hint) (by omega) hfirst.1 (by omega) with h | h | ⟨h, h'⟩
  · exact .inl h
  · exact .inr (.inl h)
  · refine .inr (.inr ⟨h, ?_⟩)
    rcases h' with h' | h' | ⟨c, t, h1, h2⟩
    · exact h'
    · omega
    · have := ht c t h1; omega

/-- In particular, a link that does not change is read completely. -/
theorem C63_stable (w : LinkWorld) (hint : Nat) (hh : hint < PTRDIFF_MAX) (t : List UInt8) (hw : ∀ c, w.target c = some t) (hl : t.length < 2 ^ 62) (ha : ∀ c, w.alloc c = true) :
    ∃ l, xreadlinkat w hint = .ok l ∧ l.name = t ∧ t.length < l.size := by
  rcases C63_link w hint hh (fun c t' h => by rw [hw] at h; cases h; exact hl) with ⟨l, h1, h2, h3⟩ | ⟨-, c, h⟩ | ⟨-, c, h⟩
  · rw [hw] at h2
    cases h2
    exact ⟨l, h1, rfl, h3⟩
  · rw [hw] at h; cases h
  · rw [ha] at h; cases h

example : xreadlinkat ⟨fun _ => true, fun _ => some (List.replicate 200 97)⟩ 0 = .ok ⟨256, List.replicate 200 97, 2⟩ := by decide +kernel

/-- With the right expectation one system call is enough. -/
theorem C63_one_call (w : LinkWorld) (t : List UInt8) (hw : w.target 0 = some t) (hpos : t ≠ []) (hl : t.length < PTRDIFF_MAX) (ha : w.alloc 0 = true) :
    xreadlinkat w t.length = .ok ⟨t.length + 1, t, 0⟩ := by
  have hP : PTRDIFF_MAX = 2 ^ 63 - 1 := rfl
  have h0 : t.length ≠ 0 := fun h => hpos (List.length_eq_zero_iff.1 h)
  rw [xreadlinkat, firstSize, if_neg h0, Nat.mod_eq_of_lt (by omega), linkLoop_succ, if_pos ⟨by omega, ha⟩, hw]
  dsimp only
  rw [if_neg (by omega), if_pos (by omega), List.take_of_length_le (by omega)]

example : xreadlinkat ⟨fun _ => true, fun c => if c = 0 then some [97, 98] else none⟩ 2 = .ok ⟨3, [97, 98], 0⟩ := by decide +kernel

/-- `-files0-from` takes exactly the names in the file as roots, in order: the pieces between NULs, without an empty one at the end. -/
theorem C64_files0 (data : List UInt8) : files0Roots ⟨data, none⟩ = .ok (.inl (names [] data)) := by
  rw [files0Roots, files0Loop_ok _ _ _ (by dsimp only; omega)]; rfl

example : files0Roots ⟨[97, 0, 98, 10, 99, 0, 0, 100], none⟩ = .ok (.inl [[97], [98, 10, 99], [], [100]]) := by decide

/-- If the file cannot be read to its end, that is an error. -/
theorem C64_error (data : List UInt8) (e : Nat) (he : e ≠ 0) : files0Roots ⟨data, some e⟩ = .ok (.inr e) := by
  rw [files0Roots, files0Loop_ok _ _ _ (by dsimp only; omega)]
  cases e with
  | zero => exact absurd rfl he
  | succ e => rfl

example : files0Roots ⟨[97, 0, 98], some 5⟩ = .ok (.inr 5) := by decide

/-- Names written with a NUL after each (by `-print0`, say) are read back, for all names without NULs. -/
theorem C64_round_trip (l : List (List UInt8)) (h : ∀ p ∈ l, ∀ b ∈ p, b ≠ 0) : files0Roots ⟨(l.map (· ++ [0])).flatten, none⟩ = .ok (.inl l) := by
  rw [C64_files0]
  congr 2
  induction l with
  | nil => rfl
  | cons p l ih =>
    rw [List.map_cons, List.flatten_cons, List.append_assoc, names_append p [] _ (h p (by simp)), List.nil_append, List.singleton_append, names, if_pos rfl, ih fun q hq => h q (by simp [hq])]

example : files0Roots ⟨[46, 0, 47, 116, 0], none⟩ = .ok (.inl [[46], [47, 116]]) := by decide

/-- `xgetdelim()` is documented to return a chunk without the delimiter. It is, for NUL. -/
theorem C66_chunk_partial (data : List UInt8) (e : Option Nat) (h : data ≠ []) : ∃ p rest, xgetdelim 0 ⟨data, e⟩ = (.inl p, ⟨rest, e⟩) ∧ (∀ b ∈ p, b ≠ 0) ∧ (data = p ++ 0 :: rest ∨ (data = p ∧ rest = [])) := by
  cases data with
  | nil => exact absurd rfl h
  | cons b l =>
    unfold xgetdelim getdelim
    dsimp only
    generalize b :: l = d
    cases hf : d.findIdx? (· == 0) with
    | some i =>
      obtain ⟨hsplit, hnz⟩ := findIdx_split hf
      have hi : i < d.length := by
        rw [List.findIdx?_eq_some_iff_getElem] at hf
        exact hf.1
      dsimp only
      have htake : d.take (i + 1) = d.take i ++ [0] := by
        conv => lhs; rw [hsplit]
        rw [List.take_append, List.take_of_length_le (by simp; omega)]
        simp [show min i d.length = i by omega]
      refine ⟨d.take i, d.drop (i + 1), ?_, hnz, .inl hsplit⟩
      congr 2
      have hset : (d.take (i + 1) ++ [0]).set (d.take (i + 1)).length 0 = d.take (i + 1) ++ [0] := by simp
      rw [hset, ite_self, htake, List.append_assoc]
      exact cstr_of hnz
    | none =>
      dsimp only
      have hnz : ∀ b ∈ d, b ≠ 0 := by
        rw [List.findIdx?_eq_none_iff] at hf
        intro b hb
        simpa using hf b hb
      refine ⟨d, [], ?_, hnz, .inr ⟨rfl, rfl⟩⟩
      congr 2
      have hset : (d ++ [0]).set d.length 0 = d ++ [0] := by simp
      rw [hset, ite_self]
      exact cstr_of hnz

example : xgetdelim 0 ⟨[97, 98, 0, 99], none⟩ = (.inl [97, 98], ⟨[99], none⟩) := by decide

/-- For other delimiters it is not: the function looks for the delimiter one place too far to the right. The line "y\n" is returned with its newline. -/
theorem C66_newline_counterexample : xgetdelim 10 ⟨[121, 10], none⟩ = (.inl [121, 10], ⟨[], none⟩) := by decide

end Verif.Props
