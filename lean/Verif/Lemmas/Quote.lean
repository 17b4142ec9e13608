import Verif.Lemmas.Ascii
import Verif.Spec.Quote
/-!
# Lemmas about escaping
-/
namespace Verif.Quote
open Verif.Spec.Quote

theorem put_nil (d : Dest) : put d [] = d := by
  unfold put
  split
  · simp
  · rename_i h
    have : d.room = 0 := by simpa using h
    cases d
    simp_all

theorem put_put (d : Dest) (a b : Bytes) : put (put d a) b = put d (a ++ b) := by
  unfold put
  simp only [List.length_append]
  by_cases h : a.length < d.room
  · rw [if_pos h]
    dsimp only
    by_cases h2 : b.length < d.room - a.length
    · rw [if_pos h2, if_pos (by omega), List.append_assoc]
      congr 1
      omega
    · rw [if_neg h2, if_neg (by omega), List.append_assoc]
      rw [List.take_append, List.take_of_length_le (i := d.room - 1) (l := a) (by omega)]
      have : d.room - a.length - 1 = d.room - 1 - a.length := by omega
      rw [this]
  · rw [if_neg h]
    dsimp only
    rw [if_neg (by omega), if_neg (by omega)]
    congr 1
    simp
    rw [List.take_append_of_le_length (by omega)]

/-- The escape of one byte. -/
def escStr (b : UInt8) : Bytes :=
  match dollarEsc b with
  | some e => e
  | none => [92, 120, hex (b.toNat / 16), hex (b.toNat % 16)]

theorem escByte_eq (d : Dest) (b : UInt8) : escByte d b = put d (escStr b) := by
  unfold escByte escStr
  cases dollarEsc b with
  | some e => rfl
  | none => dsimp only; rw [put_put, put_put]; rfl

theorem foldl_escByte (l : Bytes) (d : Dest) : l.foldl escByte d = put d (l.flatMap escStr) := by
  induction l generalizing d with
  | nil => simp [put_nil]
  | cons x xs ih => rw [List.foldl_cons, ih, escByte_eq, put_put]; rfl

theorem dollarEsc_cases : ∀ b : UInt8, (∃ c, dollarEsc b = some [92, c] ∧ simpleEsc c = some b ∧ c ≠ 120) ∨ (dollarEsc b = none) := by
  intro b
  unfold dollarEsc
  repeat' split
  all_goals first
    | (left; refine ⟨_, rfl, ?_, by decide⟩; subst_vars; rfl)
    | (right; rfl)

theorem escStr_length (b : UInt8) : (escStr b).length ≤ 4 := by
  unfold escStr
  rcases dollarEsc_cases b with ⟨c, h, _⟩ | h <;> rw [h] <;> simp

/-- The decision not to escape. -/
def safeChunk (L : Locale) (shell : Bool) (wc : Option Nat) (l : Bytes) : Bool :=
  (match wc with
    | some wc => wescIswprint L shell wc
    | none => false) && l.all (fun c => !(c == 39 || c == 92))

/-- One piece of `$'...'`. -/
def piece (L : Locale) (shell : Bool) (wc : Option Nat) (l : Bytes) : Bytes :=
  if safeChunk L shell wc l then l else l.flatMap escStr

/-- The inside of `$'...'`. -/
def dollarBody (L : Locale) (shell : Bool) : Nat → L.σ → Bytes → Bytes
  | 0, _, _ => []
  | fuel + 1, st, rest =>
    if rest = [] then [] else
      piece L shell (xmbrtowc L st rest).1 (rest.take (xmbrtowc L st rest).2.1) ++
        dollarBody L shell fuel (xmbrtowc L st rest).2.2 (rest.drop (xmbrtowc L st rest).2.1)

theorem dollarLoop_eq (L : Locale) (shell : Bool) : ∀ (fuel : Nat) (st : L.σ) (rest : Bytes) (d : Dest),
    dollarLoop L shell fuel st rest d = put d (dollarBody L shell fuel st rest) := by
  intro fuel
  induction fuel with
  | zero => intro st rest d; simp [dollarLoop, dollarBody, put_nil]
  | succ fuel ih =>
    intro st rest d
    rw [dollarLoop, dollarBody]
    split
    · simp [put_nil]
    · obtain ⟨wc, n, st'⟩ := xmbrtowc L st rest
      dsimp only
      rw [ih, foldl_escByte]
      unfold piece
      have key : ∀ b : Bool, put (if b = true then put d (rest.take n) else put d ((rest.take n).flatMap escStr)) (dollarBody L shell fuel st' (rest.drop n))
          = put d ((if b = true then rest.take n else (rest.take n).flatMap escStr) ++ dollarBody L shell fuel st' (rest.drop n)) := by
        intro b; cases b <;> simp [put_put]
      exact key _

/-- The single-quoted form. -/
def sq : Bool → Bytes → Bytes
  | true, [] => [39]
  | false, [] => []
  | isOpen, c :: s =>
    if c = 39 then (if isOpen then [39] else []) ++ [92, 39] ++ sq false s
    else (if isOpen then [] else [39]) ++ [c] ++ sq true s

/-- What is still to be written after a loop. -/
def fin (isOpen : Bool) (s : Bytes) (d : Dest) : Dest := put d (sq isOpen s)

theorem quotesLoop_fin : ∀ (s : Bytes) (isOpen : Bool) (d : Dest),
    fin (quotesLoop isOpen s d).1 (quotesLoop isOpen s d).2.1 (quotesLoop isOpen s d).2.2 = fin isOpen s d ∧
    (quotesLoop isOpen s d).2.1.length ≤ s.length ∧
    (s.head? = some 39 → (quotesLoop isOpen s d).2.1.length < s.length) := by
  intro s
  induction s with
  | nil => intro isOpen d; simp [quotesLoop]
  | cons c s ih =>
    intro isOpen d
    by_cases h : c = 39
    · subst h
      rw [quotesLoop]
      obtain ⟨h1, h2, _⟩ := ih false (put (if isOpen then put d [39] else d) [92, 39])
      refine ⟨?_, by simp; omega, by simp; omega⟩
      rw [h1]
      unfold fin
      rw [sq, if_pos rfl]
      cases isOpen
      · simp [put_put]
      · simp [put_put]
    · rw [quotesLoop.eq_def]
      simp [h]

theorem sq_chunk : ∀ (s : Bytes), sq true s = s.takeWhile (· ≠ 39) ++ sq true (s.drop (s.takeWhile (· ≠ 39)).length) := by
  intro s
  induction s with
  | nil => simp
  | cons c s ih =>
    by_cases h : c = 39
    · subst h; simp
    · rw [sq, if_neg h, List.takeWhile_cons, if_pos (by simpa using h)]
      simpa [h] using ih

theorem takeWhile_head {s : Bytes} (hs : s ≠ []) : (s.takeWhile (· ≠ 39)).length = 0 → s.head? = some 39 := by
  intro h
  cases s with
  | nil => exact absurd rfl hs
  | cons c s =>
    by_cases hc : c = 39
    · simp [hc]
    · rw [List.takeWhile_cons, if_pos (by simpa using hc)] at h
      simp at h

/-- The closing quote. -/
def closeQ (r : Bool × Dest) : Dest := if r.1 then put r.2 [39] else r.2

theorem singleLoop_fin : ∀ (fuel : Nat) (s : Bytes) (isOpen : Bool) (d : Dest), s.length ≤ fuel →
    closeQ (singleLoop (fuel + 1) isOpen s d) = fin isOpen s d := by
  intro fuel
  induction fuel with
  | zero =>
    intro s isOpen d h
    have : s = [] := List.length_eq_zero_iff.1 (by omega)
    subst this
    cases isOpen <;> simp [closeQ, singleLoop, fin, sq, put_nil]
  | succ fuel ih =>
    intro s isOpen d h
    rw [singleLoop]
    by_cases hs : s = []
    · subst hs
      cases isOpen <;> simp [closeQ, fin, sq, put_nil]
    · rw [if_neg hs]
      dsimp only
      by_cases hc : 0 < (s.takeWhile (· ≠ 39)).length
      · rw [if_pos hc]
        obtain ⟨h1, h2, _⟩ := quotesLoop_fin (s.drop (s.takeWhile (· ≠ 39)).length) true (put (if isOpen then d else put d [39]) (s.takeWhile (· ≠ 39)))
        rw [ih]
        · rw [h1]
          unfold fin
          rw [put_put, ← sq_chunk]
          cases isOpen
          · simp only [Bool.false_eq_true, if_false]
            rw [put_put]
            cases s with
            | nil => exact absurd rfl hs
            | cons c s =>
              have hne : c ≠ 39 := by
                intro e
                subst e
                simp at hc
              rw [sq, if_neg hne, sq, if_neg hne]
              simp
          · simp
        · rw [List.length_drop] at h2
          omega
      · rw [if_neg hc]
        obtain ⟨h1, h2, h3⟩ := quotesLoop_fin s isOpen d
        rw [ih, h1]
        have := h3 (takeWhile_head hs (by omega))
        omega

theorem singleQuote_eq (d : Dest) (s : Bytes) : singleQuote d s = put d (sq false s) :=
  singleLoop_fin s.length s false d (Nat.le_refl _)

/-- The escaped string. -/
def wordStr (L : Locale) (shell : Bool) (s : Bytes) : Bytes :=
  if printableLen L shell s < s.length then [36, 39] ++ dollarBody L shell (s.length + 1) L.init s ++ [39]
  else if !shell || bareLen s = s.length then s
  else if quotableLen s = s.length then [34] ++ s ++ [34]
  else sq false s

theorem wordnescBody_eq (L : Locale) (shell : Bool) (d : Dest) (s : Bytes) : wordnescBody L shell d s = put d (wordStr L shell s) := by
  unfold wordnescBody wordStr dollarQuote doubleQuote
  rw [singleQuote_eq]
  simp only [dollarLoop_eq, put_put]
  split
  · simp
  · split
    · rfl
    · split <;> simp

/-- The escaped string, or a pair of quotes if it is empty. -/
def wordStr' (L : Locale) (shell : Bool) (s : Bytes) : Bytes :=
  if wordStr L shell s = [] then [34, 34] else wordStr L shell s

theorem wordnesc_eq (L : Locale) (shell : Bool) (d : Dest) (s : Bytes) (hd : 0 < d.room) :
    wordnesc L shell d s = put d (wordStr' L shell s) := by
  unfold wordnesc wordStr'
  dsimp only
  rw [wordnescBody_eq]
  by_cases h : wordStr L shell s = []
  · rw [h, put_nil, if_pos rfl, if_pos rfl]
  · rw [if_neg h, if_neg]
    unfold put
    have : 0 < (wordStr L shell s).length := List.length_pos_iff.2 h
    split
    · dsimp only; omega
    · dsimp only; omega

/-! ### Lengths -/

theorem flatMap_esc_length (l : Bytes) : (l.flatMap escStr).length ≤ 4 * l.length := by
  induction l with
  | nil => simp
  | cons x xs ih =>
    rw [List.flatMap_cons, List.length_append, List.length_cons]
    have := escStr_length x
    omega

theorem piece_length (L : Locale) (shell : Bool) (wc : Option Nat) (l : Bytes) : (piece L shell wc l).length ≤ 4 * l.length := by
  unfold piece
  split
  · omega
  · exact flatMap_esc_length l

theorem dollarBody_length (L : Locale) (shell : Bool) : ∀ (fuel : Nat) (st : L.σ) (rest : Bytes),
    (dollarBody L shell fuel st rest).length ≤ 4 * rest.length := by
  intro fuel
  induction fuel with
  | zero => intro st rest; simp [dollarBody]
  | succ fuel ih =>
    intro st rest
    rw [dollarBody]
    split
    · simp
    · rw [List.length_append]
      have h1 := piece_length L shell (xmbrtowc L st rest).1 (rest.take (xmbrtowc L st rest).2.1)
      have h2 := ih (xmbrtowc L st rest).2.2 (rest.drop (xmbrtowc L st rest).2.1)
      rw [List.length_take] at h1
      rw [List.length_drop] at h2
      omega

theorem sq_length : ∀ (s : Bytes) (isOpen : Bool), (sq isOpen s).length ≤ 3 * s.length + (if isOpen then 1 else 0) := by
  intro s
  induction s with
  | nil => intro o; cases o <;> simp [sq]
  | cons c s ih =>
    intro o
    have h1 := ih true
    have h2 := ih false
    simp only [if_true, Bool.false_eq_true, if_false] at h1 h2
    rw [sq]
    split <;> cases o <;> simp <;> omega

theorem wordStr_length (L : Locale) (shell : Bool) (s : Bytes) : (wordStr' L shell s).length ≤ 4 * s.length + 3 := by
  unfold wordStr'
  split
  · simp
  · unfold wordStr
    split
    · have := dollarBody_length L shell (s.length + 1) L.init s
      simp; omega
    · split
      · omega
      · split
        · simp; omega
        · have := sq_length s false
          simp at this
          omega

/-! ### Reading back -/

theorem lex_sq : ∀ (s : Bytes), lex .single (sq true s) = some s ∧ lex .bare (sq false s) = some s := by
  intro s
  induction s with
  | nil => simp [sq, lex]
  | cons c s ih =>
    obtain ⟨h1, h2⟩ := ih
    rw [sq, sq]
    by_cases h : c = 39
    · subst h
      simp [lex, h2]
    · simp [h, lex, h1]

theorem lex_double : ∀ (s : Bytes), (∀ c ∈ s, c ∉ quotableSet) → lex .double (s ++ [34]) = some s := by
  intro s
  induction s with
  | nil => intro _; simp [lex]
  | cons c s ih =>
    intro h
    have hc := h c (by simp)
    have ih' := ih (fun x hx => h x (by simp [hx]))
    simp [quotableSet] at hc
    obtain ⟨h1, h2, h3, h4, h5⟩ := hc
    rw [List.cons_append, lex]
    · simp [h1, h2, h3, h5, ih']
    · simpa using h4

theorem lex_bare : ∀ (s : Bytes), (∀ c ∈ s, c ∉ special) → lex .bare s = some s := by
  intro s
  induction s with
  | nil => intro _; rw [lex]
  | cons c s ih =>
    intro h
    have hc := h c (by simp)
    have ih' := ih (fun x hx => h x (by simp [hx]))
    have h' := hc
    simp [special] at h'
    rw [lex]
    · simp [hc, ih']
    · simp [h']
    · simp [h']
    · simp [h']
    · simp [h']

theorem hexVal_hex : ∀ n < 16, hexVal (hex n) = some n := by decide

theorem lex_esc (b : UInt8) (r : Bytes) : lex .dollar (escStr b ++ r) = (lex .dollar r).map (b :: ·) := by
  unfold escStr
  rcases dollarEsc_cases b with ⟨c, h, h2, h3⟩ | h
  · rw [h]
    show lex .dollar (92 :: c :: r) = _
    rw [lex, h2]
    intro h l r' hc
    exact absurd hc h3
  · rw [h]
    show lex .dollar (92 :: 120 :: hex (b.toNat / 16) :: hex (b.toNat % 16) :: r) = _
    have h8 := b.toNat_lt
    rw [lex, hexVal_hex _ (by omega), hexVal_hex _ (by omega)]
    dsimp only
    have : UInt8.ofNat (16 * (b.toNat / 16) + b.toNat % 16) = b := by
      rw [Nat.div_add_mod]; simp
    rw [this]

theorem lex_escs (l r : Bytes) : lex .dollar (l.flatMap escStr ++ r) = (lex .dollar r).map (l ++ ·) := by
  induction l with
  | nil => simp
  | cons x xs ih =>
    rw [List.flatMap_cons, List.append_assoc, lex_esc, ih]
    cases lex .dollar r <;> rfl

theorem lex_plain (l r : Bytes) (h : ∀ c ∈ l, c ≠ 39 ∧ c ≠ 92) : lex .dollar (l ++ r) = (lex .dollar r).map (l ++ ·) := by
  induction l with
  | nil => simp
  | cons x xs ih =>
    obtain ⟨h1, h2⟩ := h x (by simp)
    have ih' := ih (fun c hc => h c (by simp [hc]))
    rw [List.cons_append, lex]
    · rw [ih']
      cases lex .dollar r <;> rfl
    · simp [h1]
    · simp [h2]
    · simp [h2]
    · simp [h2]

theorem lex_piece (L : Locale) (shell : Bool) (wc : Option Nat) (l r : Bytes) :
    lex .dollar (piece L shell wc l ++ r) = (lex .dollar r).map (l ++ ·) := by
  unfold piece
  split
  · rename_i h
    apply lex_plain
    replace h := (Bool.and_eq_true_iff.1 h).2
    replace h := And.intro trivial h
    intro c hc
    have := List.all_eq_true.1 h.2 c hc
    simpa using this
  · exact lex_escs l r

theorem xmbrtowc_progress {L : Locale} (hL : L.OK) (st : L.σ) {rest : Bytes} (h : rest ≠ []) :
    1 ≤ (xmbrtowc L st rest).2.1 ∧ (xmbrtowc L st rest).2.1 ≤ rest.length := by
  unfold xmbrtowc
  split
  · have := List.length_pos_iff.2 h
    dsimp only; omega
  · rename_i n wc st' he
    exact hL.progress st rest n wc st' h he

theorem lex_dollarBody {L : Locale} (hL : L.OK) (shell : Bool) : ∀ (fuel : Nat) (st : L.σ) (rest : Bytes), rest.length ≤ fuel →
    lex .dollar (dollarBody L shell (fuel + 1) st rest ++ [39]) = some rest := by
  intro fuel
  induction fuel with
  | zero =>
    intro st rest h
    have : rest = [] := List.length_eq_zero_iff.1 (by omega)
    subst this
    simp [dollarBody, lex]
  | succ fuel ih =>
    intro st rest h
    rw [dollarBody]
    by_cases hr : rest = []
    · subst hr; simp [lex]
    · rw [if_neg hr, List.append_assoc, lex_piece]
      obtain ⟨h1, h2⟩ := xmbrtowc_progress hL st hr
      rw [ih]
      · simp
      · simp; omega

theorem mbPrintable_le {L : Locale} (hL : L.OK) (shell : Bool) : ∀ (fuel : Nat) (st : L.σ) (rest : Bytes),
    mbPrintable L shell fuel st rest ≤ rest.length := by
  intro fuel
  induction fuel with
  | zero => intro st rest; simp [mbPrintable]
  | succ fuel ih =>
    intro st rest
    rw [mbPrintable]
    split
    · omega
    · rename_i hr
      have hp := xmbrtowc_progress hL st hr
      split
      · omega
      · rename_i wc n st' he
        rw [he] at hp
        split
        · have := ih st' (rest.drop n)
          rw [List.length_drop] at this
          dsimp only at hp
          omega
        · omega

theorem hides_isprint {L : Locale} {shell : Bool} {bad : UInt8 → Prop} (hB : L.Hides (!shell) bad) {c : UInt8} (h : bad c) :
    wescIsprint L shell c = false := by
  obtain ⟨h1, h2⟩ := hB.byte c h
  unfold wescIsprint
  cases shell <;> simp_all

theorem hides_iswprint {L : Locale} {shell : Bool} {bad : UInt8 → Prop} (hB : L.Hides (!shell) bad) {st : L.σ} {rest : Bytes}
    {n wc : Nat} {st' : L.σ} (h : L.mbrtowc st rest = some (n, wc, st')) (hw : wescIswprint L shell wc = true) :
    ∀ c ∈ rest.take n, ¬ bad c := by
  intro c hc hb
  obtain ⟨h1, h2⟩ := hB.wide st rest n wc st' h ⟨c, hc, hb⟩
  unfold wescIswprint at hw
  cases shell <;> simp_all

theorem xmbrtowc_some {L : Locale} {st : L.σ} {rest : Bytes} {n wc : Nat} {st' : L.σ} (he : xmbrtowc L st rest = (some wc, n, st')) :
    L.mbrtowc st rest = some (n, wc, st') := by
  unfold xmbrtowc at he
  split at he
  · simp at he
  · rename_i n' wc' st'' he'
    simp at he
    rw [he', he.1, he.2.1, he.2.2]

theorem mem_split {s : Bytes} (n : Nat) {x : UInt8} (hx : x ∈ s) : x ∈ s.take n ∨ x ∈ s.drop n := by
  rw [← List.take_append_drop n s, List.mem_append] at hx
  exact hx

/-- A completely printable string has none of the hidden bytes. -/
theorem mbPrintable_all {L : Locale} {shell : Bool} {bad : UInt8 → Prop} (hL : L.OK) (hB : L.Hides (!shell) bad) :
    ∀ (fuel : Nat) (st : L.σ) (rest : Bytes),
    mbPrintable L shell fuel st rest = rest.length → ∀ c ∈ rest, ¬ bad c := by
  intro fuel
  induction fuel with
  | zero =>
    intro st rest h
    have : rest = [] := List.length_eq_zero_iff.1 h.symm
    subst this; simp
  | succ fuel ih =>
    intro st rest h
    rw [mbPrintable] at h
    split at h
    · rename_i hr; subst hr; simp
    · rename_i hr
      have hlen := List.length_pos_iff.2 hr
      have hp := xmbrtowc_progress hL st hr
      split at h
      · omega
      · rename_i wc n st' he
        rw [he] at hp
        dsimp only at hp
        split at h
        · rename_i hw
          have hih := ih st' (rest.drop n) (by rw [List.length_drop]; omega)
          have hno := hides_iswprint hB (xmbrtowc_some he) hw
          intro c hc
          rcases mem_split n hc with hx | hx
          · exact hno c hx
          · exact hih c hx
        · omega

theorem takeWhile_len_all {p : UInt8 → Bool} {s : Bytes} (h : (s.takeWhile p).length = s.length) : ∀ c ∈ s, p c = true := by
  induction s with
  | nil => simp
  | cons x xs ih =>
    by_cases hx : p x = true
    · rw [List.takeWhile_cons, if_pos hx] at h
      intro c hc
      rcases List.mem_cons.1 hc with rfl | hc
      · exact hx
      · exact ih (by simpa using h) c hc
    · rw [List.takeWhile_cons, if_neg hx] at h
      simp at h

theorem printable_all {L : Locale} {shell : Bool} {bad : UInt8 → Prop} (hL : L.OK) (hB : L.Hides (!shell) bad) {s : Bytes}
    (h : ¬ printableLen L shell s < s.length) : ∀ c ∈ s, ¬ bad c := by
  unfold printableLen at h
  dsimp only at h
  have ha : asciinlen s ≤ s.length := by
    rw [asciinlen_eq]
    exact (List.takeWhile_sublist _).length_le
  have hle : ((s.take (asciinlen s)).takeWhile (wescIsprint L shell)).length ≤ asciinlen s := by
    have := ((List.takeWhile_sublist (wescIsprint L shell) (l := s.take (asciinlen s)))).length_le
    simp at this ⊢
    omega
  split at h
  · omega
  · have hi : ((s.take (asciinlen s)).takeWhile (wescIsprint L shell)).length = asciinlen s := by omega
    rw [hi] at h
    have hle2 := mbPrintable_le hL shell (s.length + 1) L.init (s.drop (asciinlen s))
    rw [List.length_drop] at hle2
    have hmb := mbPrintable_all hL hB (s.length + 1) L.init (s.drop (asciinlen s)) (by rw [List.length_drop]; omega)
    have htake : ∀ c ∈ s.take (asciinlen s), wescIsprint L shell c = true := by
      apply takeWhile_len_all
      rw [hi, List.length_take]; omega
    intro c hc
    rcases mem_split (asciinlen s) hc with hx | hx
    · intro hb
      have := htake c hx
      rw [hides_isprint hB hb] at this
      exact absurd this (by simp)
    · exact hmb c hx

theorem special_sub : ∀ c ∈ special, c = 9 ∨ c = 10 ∨ c ∈ bareSet := by decide

theorem lex_word {L : Locale} (hL : L.OK) (hB : L.Hides false fun c => c = 9 ∨ c = 10) (s : Bytes) :
    lex .bare (wordStr L true s) = some s := by
  unfold wordStr
  split
  · have := lex_dollarBody hL true s.length L.init s (Nat.le_refl _)
    simp only [List.cons_append, List.nil_append, lex]
    exact this
  · rename_i hp
    have hno := printable_all (shell := true) hL hB hp
    split
    · rename_i hb
      simp at hb
      have hall := takeWhile_len_all hb
      apply lex_bare
      intro c hc hsp
      rcases special_sub c hsp with rfl | rfl | h
      · exact hno _ hc (Or.inl rfl)
      · exact hno _ hc (Or.inr rfl)
      · have := hall c hc
        simp [h] at this
    · split
      · rename_i hq
        have hall := takeWhile_len_all hq
        simp only [List.cons_append, List.nil_append, lex]
        apply lex_double
        intro c hc h
        have := hall c hc
        simp [h] at this
      · exact (lex_sq s).2

/-! ## No hidden bytes in the output -/

/-- The printing ASCII characters. -/
def graphic (c : UInt8) : Prop := 32 ≤ c ∧ c ≤ 126

theorem hex_graphic : ∀ n < 16, graphic (hex n) := by unfold graphic; decide

theorem escStr_graphic (b : UInt8) : ∀ c ∈ escStr b, graphic c := by
  have h1 : ∀ e, dollarEsc b = some e → ∀ c ∈ e, graphic c := by
    intro e he c hc
    unfold dollarEsc at he
    unfold graphic
    repeat' (split at he)
    all_goals first
      | (cases he; simp at hc; rcases hc with rfl | rfl <;> decide)
      | (cases he; simp at hc; subst hc; decide)
      | exact absurd he (by simp)
  unfold escStr
  split
  · rename_i e he; exact h1 e he
  · intro c hc
    simp at hc
    have hlt := b.toNat_lt
    rcases hc with rfl | rfl | rfl | rfl
    · unfold graphic; decide
    · unfold graphic; decide
    · exact hex_graphic _ (by omega)
    · exact hex_graphic _ (by omega)

theorem sq_mem : ∀ (s : Bytes) (o : Bool) (c : UInt8), c ∈ sq o s → c ∈ s ∨ graphic c := by
  intro s
  induction s with
  | nil =>
    intro o c hc
    cases o <;> simp [sq] at hc
    subst hc; right; unfold graphic; decide
  | cons x xs ih =>
    intro o c hc
    have g39 : graphic 39 := by unfold graphic; decide
    have g92 : graphic 92 := by unfold graphic; decide
    by_cases hx : x = 39
    · subst hx
      cases o <;> simp [sq] at hc
      · rcases hc with rfl | rfl | hc
        · exact Or.inr g92
        · exact Or.inr g39
        · rcases ih _ _ hc with h | h
          · exact Or.inl (by simp [h])
          · exact Or.inr h
      · rcases hc with rfl | rfl | rfl | hc
        · exact Or.inr g39
        · exact Or.inr g92
        · exact Or.inr g39
        · rcases ih _ _ hc with h | h
          · exact Or.inl (by simp [h])
          · exact Or.inr h
    · cases o <;> simp [sq, hx] at hc
      · rcases hc with rfl | rfl | hc
        · exact Or.inr g39
        · simp
        · rcases ih _ _ hc with h | h
          · exact Or.inl (by simp [h])
          · exact Or.inr h
      · rcases hc with rfl | hc
        · simp
        · rcases ih _ _ hc with h | h
          · exact Or.inl (by simp [h])
          · exact Or.inr h

theorem dollarBody_clean {L : Locale} {shell : Bool} {bad : UInt8 → Prop} (hB : L.Hides (!shell) bad)
    (hg : ∀ c, graphic c → ¬ bad c) : ∀ (fuel : Nat) (st : L.σ) (rest : Bytes), ∀ c ∈ dollarBody L shell fuel st rest, ¬ bad c := by
  intro fuel
  induction fuel with
  | zero => intro st rest c hc; simp [dollarBody] at hc
  | succ fuel ih =>
    intro st rest c hc
    rw [dollarBody] at hc
    split at hc
    · simp at hc
    · rcases List.mem_append.1 hc with hc | hc
      · unfold piece at hc
        split at hc
        · rename_i hs
          replace hs := (Bool.and_eq_true_iff.1 hs).1
          split at hs
          · rename_i wc hwc
            refine hides_iswprint hB (st := st) (rest := rest) (n := (xmbrtowc L st rest).2.1) (wc := wc) (st' := (xmbrtowc L st rest).2.2) ?_ hs c hc
            apply xmbrtowc_some
            rw [← hwc]
          · exact absurd hs (by simp)
        · obtain ⟨b, _, hb⟩ := List.mem_flatMap.1 hc
          exact hg c (escStr_graphic b c hb)
      · exact ih _ _ c hc

theorem wordStr'_clean {L : Locale} {shell : Bool} {bad : UInt8 → Prop} (hL : L.OK) (hB : L.Hides (!shell) bad)
    (hg : ∀ c, graphic c → ¬ bad c) (s : Bytes) : ∀ c ∈ wordStr' L shell s, ¬ bad c := by
  have h1 : ∀ c ∈ wordStr L shell s, ¬ bad c := by
    intro c hc
    unfold wordStr at hc
    split at hc
    · simp only [List.mem_append, List.mem_cons, List.not_mem_nil, or_false] at hc
      rcases hc with ((rfl | rfl) | hc) | rfl
      · exact hg _ (by unfold graphic; decide)
      · exact hg _ (by unfold graphic; decide)
      · exact dollarBody_clean hB hg _ _ _ c hc
      · exact hg _ (by unfold graphic; decide)
    · rename_i hp
      have hno := printable_all hL hB hp
      split at hc
      · exact hno c hc
      · split at hc
        · simp only [List.mem_append, List.mem_cons, List.not_mem_nil, or_false] at hc
          rcases hc with (rfl | hc) | rfl
          · exact hg _ (by unfold graphic; decide)
          · exact hno c hc
          · exact hg _ (by unfold graphic; decide)
        · rcases sq_mem s _ c hc with h | h
          · exact hno c h
          · exact hg c h
  unfold wordStr'
  split
  · intro c hc
    simp at hc
    subst hc
    exact hg _ (by unfold graphic; decide)
  · exact h1

theorem escape_eq (L : Locale) (shell : Bool) (s : Bytes) : escape L shell s = .ok (wordStr' L shell s) := by
  have hlen := wordStr_length L shell s
  have e : put ⟨[], 4 * s.length + 3 + 1⟩ (wordStr' L shell s)
      = ⟨wordStr' L shell s, 4 * s.length + 3 + 1 - (wordStr' L shell s).length⟩ := by
    unfold put
    rw [if_pos (by dsimp only; omega)]
    rfl
  unfold escape
  rw [wordnesc_eq _ _ _ _ (by simp), e]
  dsimp only
  rw [if_neg (by omega)]

end Verif.Quote
