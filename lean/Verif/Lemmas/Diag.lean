import Verif.Spec.Diag
import Verif.Lemmas.Quote

/-! # Lemmas about columns and underlines -/

namespace Verif.Diag
open Verif.Spec.Diag Verif.Quote

variable {L : Locale} {wcwidth : Bar.Wcwidth}

theorem columns_append {a b : Bytes} {m n : Nat} (h1 : Columns L wcwidth a m) (h2 : Columns L wcwidth b n) : Columns L wcwidth (a ++ b) (m + n) := by
  induction h1 with
  | nil => rw [Nat.zero_add]; exact h2
  | cons ch c rest k h3 h4 h5 _ ih =>
    rw [List.append_assoc, Nat.add_assoc]
    exact .cons ch c _ _ h3 h4 h5 ih

theorem columns_ascii (hL : Usual L wcwidth) {s : Bytes} (h : ∀ b ∈ s, 32 ≤ b ∧ b ≤ 126) : Columns L wcwidth s s.length := by
  induction s with
  | nil => exact .nil
  | cons b s ih =>
    have hb := h b (List.mem_cons_self ..)
    have hlt : b < 128 := Nat.lt_of_le_of_lt (UInt8.le_iff_toNat_le.1 hb.2) (by decide)
    have h0 : b ≠ 0 := by rintro rfl; exact absurd hb.1 (by decide)
    have := Columns.cons (L := L) (wcwidth := wcwidth) [b] b.toNat s s.length (by simp) (hL.ascii b hlt h0 []) ((hL.print b hlt).2.2 hb) (ih fun x hx => h x (List.mem_cons_of_mem _ hx))
    rw [hL.width b hb.1 hb.2] at this
    rw [List.length_cons, Nat.add_comm]
    exact this

/-- All bytes of a character are ASCII, or none are. -/
theorem char_cases (hL : Usual L wcwidth) {ch : Bytes} {c : Nat} (h0 : (0 : UInt8) ∉ ch) (hne : ch ≠ []) (h : L.mbrtowc L.init ch = some (ch.length, c, L.init)) :
    (∃ b, ch = [b] ∧ b < 128 ∧ c = b.toNat) ∨ ∀ x ∈ ch, 128 ≤ x := by
  cases ch with
  | nil => exact absurd rfl hne
  | cons b rest =>
    by_cases hb : b < 128
    · have := hL.ascii b hb (fun e => h0 (by rw [e]; exact List.mem_cons_self ..)) rest
      rw [h] at this
      simp only [List.length_cons, Option.some.injEq, Prod.mk.injEq, and_true] at this
      have hr : rest = [] := List.length_eq_zero_iff.1 (by omega)
      exact .inl ⟨b, by rw [hr], hb, this.2⟩
    · refine .inr fun x hx => hL.wide b (UInt8.not_lt.1 hb) rest _ c _ h x ?_
      rw [List.take_length]
      exact hx

theorem char_take {rest : Bytes} {n c : Nat} {st : L.σ} (hL : Usual L wcwidth) (hne : rest ≠ []) (h : L.mbrtowc L.init rest = some (n, c, st)) :
    rest.take n ≠ [] ∧ L.mbrtowc L.init (rest.take n) = some ((rest.take n).length, c, L.init) := by
  obtain ⟨h1, h2⟩ := hL.ok.progress _ _ _ _ _ hne h
  have h3 := hL.own rest n c st h []
  rw [List.append_nil, hL.init rest n c st h] at h3
  have h4 : (rest.take n).length = n := by rw [List.length_take]; omega
  refine ⟨fun e => ?_, by rw [h4]; exact h3⟩
  rw [e] at h4
  simp at h4
  omega

theorem escStr_ascii (b : UInt8) : ∀ x ∈ escStr b, 32 ≤ x ∧ x ≤ 126 := by
  have key : ∀ n < 256, ∀ x ∈ escStr (UInt8.ofNat n), 32 ≤ x ∧ x ≤ 126 := by decide +kernel
  have := key b.toNat b.toNat_lt
  rwa [UInt8.ofNat_toNat] at this

theorem columns_escaped (hL : Usual L wcwidth) (l : Bytes) : ∃ n, Columns L wcwidth (l.flatMap escStr) n :=
  ⟨_, columns_ascii hL fun x hx => by
    obtain ⟨b, _, hb⟩ := List.mem_flatMap.1 hx
    exact escStr_ascii b x hb⟩

theorem columns_char (hL : Usual L wcwidth) {rest : Bytes} {n c : Nat} {st : L.σ} (hne : rest ≠ []) (h : L.mbrtowc L.init rest = some (n, c, st)) (hp : L.iswprint c = true) {tail : Bytes} {m : Nat}
    (ht : Columns L wcwidth tail m) : ∃ k, Columns L wcwidth (rest.take n ++ tail) k :=
  ⟨_, .cons _ c _ _ (char_take hL hne h).1 (char_take hL hne h).2 hp ht⟩

theorem isw_shell (c : Nat) : wescIswprint L true c = L.iswprint c := by
  unfold wescIswprint
  cases L.iswprint c <;> rfl

theorem is_shell (c : UInt8) : wescIsprint L true c = L.isprint c := by
  unfold wescIsprint
  cases L.isprint c <;> rfl

theorem columns_dollar (hL : Usual L wcwidth) : ∀ (fuel : Nat) (st : L.σ) (rest : Bytes), ∃ n, Columns L wcwidth (dollarBody L true fuel st rest) n := by
  intro fuel
  induction fuel with
  | zero => exact fun _ _ => ⟨0, .nil⟩
  | succ fuel ih =>
    intro st rest
    unfold dollarBody
    by_cases hne : rest = []
    · rw [if_pos hne]; exact ⟨0, .nil⟩
    · rw [if_neg hne]
      obtain ⟨m, hm⟩ := ih (xmbrtowc L st rest).2.2 (rest.drop (xmbrtowc L st rest).2.1)
      unfold piece
      split
      · next h =>
        unfold safeChunk at h
        rw [Bool.and_eq_true] at h
        have h1 := h.1
        cases hd : L.mbrtowc L.init rest with
        | none =>
          have e : (xmbrtowc L st rest).1 = none := by unfold xmbrtowc; rw [hL.stateless, hd]
          rw [e] at h1
          cases h1
        | some r =>
          obtain ⟨n, c, st'⟩ := r
          have e : xmbrtowc L st rest = (some c, n, st') := by unfold xmbrtowc; rw [hL.stateless, hd]
          rw [e] at h1 hm ⊢
          dsimp only at h1
          rw [isw_shell] at h1
          exact columns_char hL hne hd h1 hm
      · obtain ⟨k, hk⟩ := columns_escaped hL (rest.take (xmbrtowc L st rest).2.1)
        exact ⟨_, columns_append hk hm⟩

theorem columns_printable (hL : Usual L wcwidth) : ∀ (fuel : Nat) (rest : Bytes), rest.length ≤ mbPrintable L true fuel L.init rest → ∃ n, Columns L wcwidth rest n := by
  intro fuel
  induction fuel with
  | zero =>
    intro rest h
    have : rest = [] := List.length_eq_zero_iff.1 (Nat.le_zero.1 h)
    exact ⟨0, by rw [this]; exact .nil⟩
  | succ fuel ih =>
    intro rest h
    by_cases hne : rest = []
    · exact ⟨0, by rw [hne]; exact .nil⟩
    · unfold mbPrintable at h
      rw [if_neg hne] at h
      have hpos := List.length_pos_iff.2 hne
      cases hd : L.mbrtowc L.init rest with
      | none =>
        have e : xmbrtowc L L.init rest = (none, 1, L.init) := by unfold xmbrtowc; rw [hd]
        rw [e] at h
        dsimp only at h
        omega
      | some r =>
        obtain ⟨n, c, st'⟩ := r
        obtain rfl := hL.init rest n c st' hd
        have e : xmbrtowc L L.init rest = (some c, n, L.init) := by unfold xmbrtowc; rw [hd]
        rw [e] at h
        dsimp only at h
        rw [isw_shell] at h
        by_cases hp : L.iswprint c = true
        · rw [if_pos hp] at h
          have hn := (hL.ok.progress _ _ _ _ _ hne hd).2
          obtain ⟨m, hm⟩ := ih (rest.drop n) (by rw [List.length_drop]; omega)
          obtain ⟨k, hk⟩ := columns_char hL hne hd hp hm
          rw [List.take_append_drop] at hk
          exact ⟨k, hk⟩
        · rw [if_neg hp] at h
          omega

theorem columns_bare (hL : Usual L wcwidth) {s : Bytes} (h : ¬ printableLen L true s < s.length) : ∃ n, Columns L wcwidth s n := by
  unfold printableLen at h
  dsimp only at h
  rw [asciinlen_eq, show asciiPrefix s = (s.takeWhile (· < 128)).length from rfl] at h
  have e : s.take (s.takeWhile (· < 128)).length = s.takeWhile (· < 128) := by
    conv => lhs; arg 2; rw [← List.takeWhile_append_dropWhile (p := (· < 128)) (l := s)]
    rw [List.take_left]
  rw [e] at h
  have hle := ((List.takeWhile_sublist (l := s.takeWhile (· < 128)) (wescIsprint L true)).length_le)
  by_cases hi : ((s.takeWhile (· < 128)).takeWhile (wescIsprint L true)).length < (s.takeWhile (· < 128)).length
  · rw [if_pos hi] at h
    have := (List.takeWhile_sublist (l := s) (· < 128)).length_le
    omega
  · rw [if_neg hi] at h
    have hall : (s.takeWhile (· < 128)).takeWhile (wescIsprint L true) = s.takeWhile (· < 128) :=
      (List.takeWhile_sublist _).eq_of_length_le (by omega)
    rw [hall] at h
    have hdrop : s.drop (s.takeWhile (· < 128)).length = s.dropWhile (· < 128) := by
      conv => lhs; arg 2; rw [← List.takeWhile_append_dropWhile (p := (· < 128)) (l := s)]
      rw [List.drop_left]
    rw [hdrop] at h
    have hlen : (s.takeWhile (· < 128)).length + (s.dropWhile (· < 128)).length = s.length := by
      rw [← List.length_append, List.takeWhile_append_dropWhile]
    obtain ⟨m, hm⟩ := columns_printable hL (s.length + 1) (s.dropWhile (· < 128)) (by omega)
    have h1 : Columns L wcwidth (s.takeWhile (· < 128)) (s.takeWhile (· < 128)).length := by
      refine columns_ascii hL fun b hb => ?_
      have hlt : b < 128 := by simpa using List.all_eq_true.1 List.all_takeWhile b hb
      rw [← hall] at hb
      have hp := List.all_eq_true.1 List.all_takeWhile b hb
      rw [is_shell, (hL.print b hlt).1] at hp
      exact (hL.print b hlt).2.1 hp
    have := columns_append h1 hm
    rw [List.takeWhile_append_dropWhile] at this
    exact ⟨_, this⟩

theorem sq_chunk' {ch : Bytes} (h : (39 : UInt8) ∉ ch) (hne : ch ≠ []) (o : Bool) (rest : Bytes) : sq o (ch ++ rest) = (if o then [] else [39]) ++ ch ++ sq true rest := by
  induction ch generalizing o with
  | nil => exact absurd rfl hne
  | cons c ch ih =>
    have hc : c ≠ 39 := fun e => h (by rw [e]; exact List.mem_cons_self ..)
    have hch : (39 : UInt8) ∉ ch := fun e => h (List.mem_cons_of_mem _ e)
    rw [List.cons_append]
    have e1 : ∀ o s, sq o (c :: s) = (if o then [] else [39]) ++ [c] ++ sq true s := by
      intro o s
      rw [sq, if_neg hc]
    rw [e1]
    by_cases hn : ch = []
    · subst hn; simp
    · rw [ih hch hn]
      simp

theorem columns_sq (hL : Usual L wcwidth) {s : Bytes} {n : Nat} (h : Columns L wcwidth s n) (h0 : (0 : UInt8) ∉ s) : ∀ o, ∃ k, Columns L wcwidth (sq o s) k := by
  have one : ∀ o : Bool, Columns L wcwidth (if o then [] else [39]) (if o then [] else [39] : Bytes).length := by
    intro o
    cases o <;> exact columns_ascii hL (by decide)
  induction h with
  | nil =>
    intro o
    cases o
    · exact ⟨0, .nil⟩
    · exact ⟨1, columns_ascii hL (by decide)⟩
  | cons ch c rest m h1 h2 h3 h4 ih =>
    intro o
    have hr : (0 : UInt8) ∉ rest := fun e => h0 (List.mem_append_right _ e)
    have hc : (0 : UInt8) ∉ ch := fun e => h0 (List.mem_append_left _ e)
    by_cases hq : (39 : UInt8) ∈ ch
    · rcases char_cases hL hc h1 h2 with ⟨b, rfl, _, _⟩ | hw
      · obtain rfl : 39 = b := List.mem_singleton.1 hq
        obtain ⟨k, hk⟩ := ih hr false
        have e : sq o ([39] ++ rest) = ((if o then [39] else []) ++ [92, 39]) ++ sq false rest := by
          show sq o (39 :: rest) = _
          rw [sq, if_pos rfl]
        rw [e]
        exact ⟨_, columns_append (columns_ascii hL (by cases o <;> decide)) hk⟩
      · exact absurd (hw _ hq) (by decide)
    · obtain ⟨k, hk⟩ := ih hr true
      rw [sq_chunk' hq h1]
      exact ⟨_, columns_append (columns_append (one o) (by simpa using Columns.cons ch c [] 0 h1 h2 h3 .nil)) hk⟩

/-- Every escaped word is made of printable characters. -/
theorem columns_word (hL : Usual L wcwidth) {s : Bytes} (h0 : (0 : UInt8) ∉ s) : ∃ n, Columns L wcwidth (wordStr' L true s) n := by
  unfold wordStr'
  split
  · exact ⟨_, columns_ascii hL (by decide)⟩
  · unfold wordStr
    split
    · obtain ⟨n, hn⟩ := columns_dollar hL (s.length + 1) L.init s
      exact ⟨_, columns_append (columns_append (columns_ascii (s := [36, 39]) hL (by decide)) hn) (columns_ascii (s := [39]) hL (by decide))⟩
    · next h =>
      obtain ⟨n, hn⟩ := columns_bare hL h
      split
      · exact ⟨n, hn⟩
      · split
        · exact ⟨_, columns_append (columns_append (columns_ascii (s := [34]) hL (by decide)) hn) (columns_ascii (s := [34]) hL (by decide))⟩
        · exact columns_sq hL hn h0 false

/-- `xstrwidth()` counts columns. -/
theorem widthLoop_columns (hL : Usual L wcwidth) {s : Bytes} {n : Nat} (h : Columns L wcwidth s n) : ∀ (fuel ret : Nat), s.length < fuel → Bar.widthLoop L wcwidth fuel L.init s ret = ret + n := by
  induction h with
  | nil =>
    intro fuel ret hf
    cases fuel with
    | zero => omega
    | succ fuel => rfl
  | cons ch c rest m h1 h2 h3 h4 ih =>
    intro fuel ret hf
    cases fuel with
    | zero => omega
    | succ fuel =>
      have hne : ch ++ rest ≠ [] := by simp [h1]
      have hd : L.mbrtowc L.init (ch ++ rest) = some (ch.length, c, L.init) := by
        have := hL.own ch ch.length c L.init h2 rest
        rwa [List.take_length] at this
      have e : xmbrtowc L L.init (ch ++ rest) = (some c, ch.length, L.init) := by unfold xmbrtowc; rw [hd]
      unfold Bar.widthLoop
      rw [if_neg hne, e]
      dsimp only
      have hpos := List.length_pos_iff.2 h1
      rw [List.drop_left, ih fuel _ (by rw [List.length_append] at hf; omega)]
      split <;> omega

theorem xstrwidth_columns (hL : Usual L wcwidth) {s : Bytes} {n : Nat} (h : Columns L wcwidth s n) (h0 : (0 : UInt8) ∉ s) : Bar.xstrwidth L wcwidth s = n := by
  have key : ∀ fuel ret, s.length < fuel → Bar.widthLoop L wcwidth fuel L.init (s.dropWhile (· < 128)) (ret + (s.takeWhile (· < 128)).countP L.isprint) = ret + n := by
    induction h with
    | nil =>
      intro fuel ret hf
      cases fuel with
      | zero => omega
      | succ fuel => rfl
    | cons ch c rest m h1 h2 h3 h4 ih =>
      intro fuel ret hf
      have hr : (0 : UInt8) ∉ rest := fun e => h0 (List.mem_append_right _ e)
      rcases char_cases hL (fun e => h0 (List.mem_append_left _ e)) h1 h2 with ⟨b, rfl, hb, rfl⟩ | hw
      · have hp := (hL.print b hb).2.1 h3
        have hi : L.isprint b = true := by rw [(hL.print b hb).1]; exact h3
        have e1 : ([b] ++ rest).dropWhile (· < 128) = rest.dropWhile (· < 128) := by
          show (b :: rest).dropWhile _ = _
          rw [List.dropWhile_cons, if_pos (by simpa using hb)]
        have e2 : ([b] ++ rest).takeWhile (· < 128) = b :: rest.takeWhile (· < 128) := by
          show (b :: rest).takeWhile _ = _
          rw [List.takeWhile_cons, if_pos (by simpa using hb)]
        rw [e1, e2, List.countP_cons, if_pos hi, hL.width b hp.1 hp.2]
        have := ih hr fuel (ret + 1) (by simp at hf; omega)
        show _ = ret + (1 + m)
        rw [← Nat.add_assoc ret 1 m, ← this]
        congr 1
        omega
      · have hall := widthLoop_columns hL (Columns.cons ch c rest m h1 h2 h3 h4) fuel ret hf
        cases ch with
        | nil => exact absurd rfl h1
        | cons b ch =>
          have hb : ¬ b < 128 := UInt8.not_lt.2 (hw b (List.mem_cons_self ..))
          have e1 : ((b :: ch) ++ rest).dropWhile (· < 128) = (b :: ch) ++ rest := by
            show (b :: (ch ++ rest)).dropWhile _ = _
            rw [List.dropWhile_cons, if_neg (by simpa using hb)]
            rfl
          have e2 : ((b :: ch) ++ rest).takeWhile (· < 128) = [] := by
            show (b :: (ch ++ rest)).takeWhile _ = _
            rw [List.takeWhile_cons, if_neg (by simpa using hb)]
          rw [e1, e2]
          exact hall
  have := key (s.length + 1) 0 (by omega)
  rw [Nat.zero_add, Nat.zero_add] at this
  exact this

/-! ## The two lines -/

theorem plain_append (a b : List Tok) : plain (a ++ b) = plain a ++ plain b := by
  induction a with
  | nil => rfl
  | cons x a ih =>
    cases x with
    | color _ => exact ih
    | text t => show t ++ plain (a ++ b) = (t ++ plain a) ++ plain b; rw [ih, List.append_assoc]

theorem plain_flatMap {α : Type} (f : α → List Tok) (l : List α) : plain (l.flatMap f) = l.flatMap fun x => plain (f x) := by
  induction l with
  | nil => rfl
  | cons x l ih => rw [List.flatMap_cons, List.flatMap_cons, plain_append, ih]

theorem plain_replicate (n : Nat) (b : UInt8) : plain (List.replicate n (.text [b])) = List.replicate n b := by
  induction n with
  | zero => rfl
  | succ n ih => rw [List.replicate_succ, List.replicate_succ]; show b :: plain _ = _; rw [ih]

theorem flatMap_words (ws : List Bytes) (f : Bytes → Bytes) : (List.range ws.length).flatMap (fun i => f (ws.getD i [])) = (ws.map f).flatten := by
  induction ws with
  | nil => rfl
  | cons w ws ih =>
    rw [List.length_cons, List.range_succ_eq_map, List.flatMap_cons, List.flatMap_map, List.map_cons, List.flatten_cons, ← ih]
    rfl

theorem spaced_cons (w : Bytes) (ws : List Bytes) : spaced (w :: ws) = w ++ (ws.map ([32] ++ ·)).flatten := by
  induction ws generalizing w with
  | nil => simp [spaced]
  | cons x ws ih =>
    have : spaced (w :: x :: ws) = w ++ ([32] ++ spaced (x :: ws)) := by simp [spaced]
    rw [this, ih, List.map_cons, List.flatten_cons, List.append_assoc]

theorem flatMap_spaced (ws : List Bytes) : (List.range ws.length).flatMap (fun i => (if 0 < i then [32] else []) ++ ws.getD i []) = spaced ws := by
  cases ws with
  | nil => rfl
  | cons w ws =>
    rw [List.length_cons, List.range_succ_eq_map, List.flatMap_cons, List.flatMap_map, spaced_cons, ← flatMap_words]
    rfl

theorem plain_show (ws : List Bytes) (args : List Bool) : plain ((List.range ws.length).flatMap (showArg ws args)) = spaced ws := by
  rw [plain_flatMap, ← flatMap_spaced]
  congr 1
  funext i
  unfold showArg
  rw [plain_append]
  congr 1
  · split <;> rfl
  · split <;> simp [plain]

/-- The mark for an argument. -/
def mark (args : List Bool) (i : Nat) : UInt8 := if args.getD i false then 126 else 32

/-- The mark between two arguments. -/
def gap (args : List Bool) (i : Nat) : UInt8 := if args.getD (i - 1) false && args.getD i false then 126 else 32

/-- What is below one argument. -/
def block (wd : Nat → Nat) (args : List Bool) (i : Nat) : Bytes := (if 0 < i then [gap args i] else []) ++ List.replicate (wd i) (mark args i)

/-- The column in which an argument begins. -/
def leftOf (wd : Nat → Nat) : Nat → Nat
  | 0 => 0
  | i + 1 => leftOf wd i + wd i + 1

/-- The second line. -/
def marksTo (wd : Nat → Nat) (args : List Bool) (m : Nat) : Bytes := (List.range m).flatMap (block wd args)

theorem plain_under (width : Bytes → Nat) (warning : Bool) (ws : List Bytes) (args : List Bool) (max m : Nat) :
    plain ((List.range m).flatMap (under width warning ws args max)) = marksTo (fun i => width (ws.getD i [])) args m := by
  rw [plain_flatMap]
  unfold marksTo
  congr 1
  funext i
  unfold under block
  rw [plain_append, plain_append, plain_append]
  have e1 : plain (underGap args i) = if 0 < i then [gap args i] else [] := by
    unfold underGap gap
    by_cases hi : 0 < i
    · rw [if_pos hi, if_pos hi]
      cases (args.getD (i - 1) false && args.getD i false) <;> rfl
    · rw [if_neg hi, if_neg hi]; rfl
  have e2 : plain (underColor warning args i) = [] := by unfold underColor; split <;> rfl
  have e3 : plain (underReset args max i) = [] := by unfold underReset; split <;> rfl
  have e4 : plain (underArg width ws args i) = List.replicate (width (ws.getD i [])) (mark args i) := by
    unfold underArg mark
    cases args.getD i false <;> exact plain_replicate _ _
  rw [e1, e2, e3, e4, List.append_nil, List.append_nil]

theorem marksTo_succ (wd : Nat → Nat) (args : List Bool) (m : Nat) : marksTo wd args (m + 1) = marksTo wd args m ++ block wd args m := by
  unfold marksTo
  rw [List.range_succ, List.flatMap_append]
  simp

theorem marksTo_length (wd : Nat → Nat) (args : List Bool) (m : Nat) : (marksTo wd args m).length + (if 0 < m then 1 else 0) = leftOf wd m := by
  induction m with
  | zero => rfl
  | succ m ih =>
    rw [marksTo_succ, List.length_append]
    show _ = leftOf wd m + wd m + 1
    rw [← ih]
    unfold block
    rw [List.length_append, List.length_replicate]
    by_cases hm : 0 < m <;> simp [hm] <;> omega

theorem marksTo_get (wd : Nat → Nat) (args : List Bool) (m : Nat) : ∀ i < m, (∀ k < wd i, (marksTo wd args m)[leftOf wd i + k]? = some (mark args i)) ∧
    (0 < i → (marksTo wd args m)[leftOf wd i - 1]? = some (gap args i)) := by
  induction m with
  | zero => exact fun i h => absurd h (Nat.not_lt_zero i)
  | succ m ih =>
    intro i hi
    rw [marksTo_succ]
    have hlen := marksTo_length wd args m
    by_cases him : i = m
    · subst him
      unfold block
      by_cases h0 : 0 < i
      · rw [if_pos h0] at hlen
        rw [if_pos h0]
        refine ⟨fun k hk => ?_, fun _ => ?_⟩
        · rw [List.getElem?_append_right (by omega), List.getElem?_append_right (by simp; omega), List.getElem?_replicate, if_pos (by simp; omega)]
        · rw [List.getElem?_append_right (by omega), show leftOf wd i - 1 - (marksTo wd args i).length = 0 by omega]
          rfl
      · rw [if_neg h0] at hlen
        rw [if_neg h0]
        refine ⟨fun k hk => ?_, fun h => absurd h h0⟩
        rw [List.getElem?_append_right (by omega), List.nil_append, List.getElem?_replicate, if_pos (by omega)]
    · obtain ⟨h1, h2⟩ := ih i (by omega)
      refine ⟨fun k hk => ?_, fun h0 => ?_⟩
      · have := h1 k hk
        rw [List.getElem?_append_left (List.getElem?_eq_some_iff.1 this).1]
        exact this
      · have := h2 h0
        rw [List.getElem?_append_left (List.getElem?_eq_some_iff.1 this).1]
        exact this

theorem marksTo_mem (wd : Nat → Nat) (args : List Bool) (m : Nat) : ∀ b ∈ marksTo wd args m, b = 126 ∨ b = 32 := by
  intro b hb
  obtain ⟨i, _, hi⟩ := List.mem_flatMap.1 hb
  unfold block at hi
  rcases List.mem_append.1 hi with h | h
  · split at h
    · rw [List.mem_singleton.1 h]; unfold gap; split
      · exact .inl rfl
      · exact .inr rfl
    · cases h
  · rw [List.eq_of_mem_replicate h]; unfold mark; split
    · exact .inl rfl
    · exact .inr rfl

theorem leftOf_mono (wd : Nat → Nat) {i j : Nat} (h : i ≤ j) : leftOf wd i ≤ leftOf wd j := by
  induction h with
  | refl => exact Nat.le_refl _
  | step _ ih => exact Nat.le_trans ih (by show leftOf wd _ ≤ leftOf wd _ + wd _ + 1; omega)

theorem maxArgc_spec (args : List Bool) (n : Nat) : maxArgc args n ≤ n ∧ (∀ i < n, maxArgc args n ≤ i → args.getD i false = false) := by
  induction n with
  | zero => exact ⟨Nat.le_refl _, fun i h => absurd h (Nat.not_lt_zero i)⟩
  | succ n ih =>
    unfold maxArgc
    by_cases h : args.getD n false = true
    · rw [if_pos h]
      exact ⟨Nat.le_refl _, fun i h1 h2 => absurd h1 (by omega)⟩
    · rw [if_neg h]
      refine ⟨by omega, fun i h1 h2 => ?_⟩
      by_cases hi : i = n
      · subst hi; simpa using h
      · exact ih.2 i (by omega) h2

theorem columns_left (hL : Usual L wcwidth) (ws : List Bytes) (wd : Nat → Nat) (h : ∀ i < ws.length, Columns L wcwidth (ws.getD i []) (wd i)) :
    ∀ i ≤ ws.length, Columns L wcwidth (((ws.take i).map (· ++ [32])).flatten) (leftOf wd i) := by
  intro i
  induction i with
  | zero => exact fun _ => .nil
  | succ i ih =>
    intro hi
    have e : ws.take (i + 1) = ws.take i ++ [ws.getD i []] := by
      rw [List.take_succ, List.getD_eq_getElem?_getD, List.getElem?_eq_getElem (by omega)]
      rfl
    rw [e, List.map_append, List.flatten_append]
    have h1 := columns_append (h i (by omega)) (columns_ascii (s := [32]) hL (by decide))
    have := columns_append (ih (by omega)) h1
    simpa [leftOf, Nat.add_assoc] using this

theorem words_ok (hL : Usual L wcwidth) : ∀ argv : List Bytes, (∀ a ∈ argv, (0 : UInt8) ∉ a) →
    words L argv = .ok (argv.map (wordStr' L true)) := by
  intro argv
  induction argv with
  | nil => exact fun _ => rfl
  | cons a argv ih =>
    intro h
    show (Quote.escape L true a).bind _ = _
    rw [escape_eq]
    show (words L argv).bind _ = _
    rw [ih fun x hx => h x (List.mem_cons_of_mem _ hx)]
    rfl

theorem dollar_mem : ∀ (fuel : Nat) (st : L.σ) (rest : Bytes), ∀ x ∈ dollarBody L true fuel st rest, x ∈ rest ∨ 32 ≤ x ∧ x ≤ 126 := by
  intro fuel
  induction fuel with
  | zero => intro _ _ x hx; cases hx
  | succ fuel ih =>
    intro st rest x hx
    unfold dollarBody at hx
    split at hx
    · cases hx
    · rcases List.mem_append.1 hx with h | h
      · unfold piece at h
        split at h
        · exact .inl (List.mem_of_mem_take h)
        · obtain ⟨b, _, hb⟩ := List.mem_flatMap.1 h
          exact .inr (escStr_ascii b x hb)
      · exact (ih _ _ x h).imp List.mem_of_mem_drop id

theorem sq_mem : ∀ (s : Bytes) (o : Bool), ∀ x ∈ sq o s, x ∈ s ∨ 32 ≤ x ∧ x ≤ 126 := by
  intro s
  induction s with
  | nil =>
    intro o x hx
    cases o
    · cases hx
    · rw [List.mem_singleton.1 hx]; exact .inr (by decide)
  | cons c s ih =>
    intro o x hx
    rw [sq] at hx
    have h92 : (32 : UInt8) ≤ 92 ∧ (92 : UInt8) ≤ 126 := by decide
    have h39 : (32 : UInt8) ≤ 39 ∧ (39 : UInt8) ≤ 126 := by decide
    split at hx
    · rcases List.mem_append.1 hx with h | h
      · refine .inr ?_
        cases o <;> simp at h
        · rcases h with rfl | rfl
          · exact h92
          · exact h39
        · rcases h with rfl | rfl | rfl
          · exact h39
          · exact h92
          · exact h39
      · exact (ih _ x h).imp (List.mem_cons_of_mem _) id
    · rcases List.mem_append.1 hx with h | h
      · cases o
        · simp at h
          rcases h with rfl | rfl
          · exact .inr h39
          · exact .inl (List.mem_cons_self ..)
        · simp at h
          rw [h]
          exact .inl (List.mem_cons_self ..)
      · exact (ih _ x h).imp (List.mem_cons_of_mem _) id

theorem word_mem (s : Bytes) : ∀ x ∈ wordStr' L true s, x ∈ s ∨ 32 ≤ x ∧ x ≤ 126 := by
  intro x hx
  have h39 : (32 : UInt8) ≤ 39 ∧ (39 : UInt8) ≤ 126 := by decide
  have h34 : (32 : UInt8) ≤ 34 ∧ (34 : UInt8) ≤ 126 := by decide
  have h36 : (32 : UInt8) ≤ 36 ∧ (36 : UInt8) ≤ 126 := by decide
  unfold wordStr' at hx
  split at hx
  · simp at hx; rw [hx]; exact .inr h34
  · unfold wordStr at hx
    split at hx
    · simp only [List.cons_append, List.nil_append, List.mem_cons, List.mem_append, List.not_mem_nil, or_false] at hx
      rcases hx with rfl | rfl | h | rfl
      · exact .inr h36
      · exact .inr h39
      · exact dollar_mem _ _ _ x h
      · exact .inr h39
    · split at hx
      · exact .inl hx
      · split at hx
        · simp only [List.cons_append, List.nil_append, List.mem_cons, List.mem_append, List.not_mem_nil, or_false] at hx
          rcases hx with rfl | h | rfl
          · exact .inr h34
          · exact .inl h
          · exact .inr h34
        · exact sq_mem _ _ x hx

/-! ## What is highlighted -/

theorem setLoop_ok (n i : Nat) : ∀ (left j : Nat) (args : List Bool), args.length = n → i + j + left ≤ n →
    ∃ r, setLoop n i left j args = .ok r ∧ r.length = n ∧ ∀ k, r[k]? = some true ↔ args[k]? = some true ∨ i + j ≤ k ∧ k < i + j + left := by
  intro left
  induction left with
  | zero => exact fun j args hl _ => ⟨args, rfl, hl, fun k => ⟨.inl, fun h => h.elim id fun h => absurd h.2 (by omega)⟩⟩
  | succ left ih =>
    intro j args hl hle
    unfold setLoop
    rw [if_pos (by omega)]
    obtain ⟨r, h1, h2, h3⟩ := ih (j + 1) (args.set (i + j) true) (by rw [List.length_set]; exact hl) (by omega)
    refine ⟨r, h1, h2, fun k => ?_⟩
    rw [h3, List.getElem?_set]
    by_cases hk : i + j = k
    · rw [if_pos hk, if_pos (by omega)]
      exact ⟨fun _ => .inr (by omega), fun _ => .inl rfl⟩
    · rw [if_neg hk]
      constructor
      · rintro (h | h)
        · exact .inl h
        · exact .inr (by omega)
      · rintro (h | h)
        · exact .inl h
        · exact .inr (by omega)

theorem initHighlight_get (n i : Nat) : ¬ (initHighlight n)[i]? = some true := by
  unfold initHighlight
  rw [List.getElem?_replicate]
  split <;> simp

theorem highlightArgs_ok {n argv argc : Nat} (h : argv + argc ≤ n) {args : List Bool} (hl : args.length = n) :
    ∃ r, highlightArgs n argv argc args = .ok r ∧ r.length = n ∧ ∀ k, r[k]? = some true ↔ args[k]? = some true ∨ argv ≤ k ∧ k < argv + argc :=
  setLoop_ok n argv argc 0 args hl (by omega)

theorem highlightOwn_ok {n : Nat} {argv : Option Nat} {argc : Nat} (h : ∀ a, argv = some a → a < n ∧ a + argc ≤ n) {args : List Bool} (hl : args.length = n) :
    ∃ r, highlightOwn n argv argc args = .ok r ∧ r.2.length = n ∧ (∀ k, r.2[k]? = some true ↔ args[k]? = some true ∨ ∃ a, argv = some a ∧ a ≤ k ∧ k < a + argc) ∧
      (r.1 = true ↔ ∃ k a, argv = some a ∧ a ≤ k ∧ k < a + argc) := by
  unfold highlightOwn
  cases argv with
  | none => exact ⟨_, rfl, hl, fun k => ⟨.inl, fun h => h.elim id fun ⟨_, h, _⟩ => by cases h⟩, ⟨fun h => (by cases h), fun ⟨_, _, h, _⟩ => (by cases h)⟩⟩
  | some a =>
    obtain ⟨h1, h2⟩ := h a rfl
    obtain ⟨r, k1, k2, k3⟩ := highlightArgs_ok h2 hl
    unfold highlightArgs at k1
    dsimp only
    rw [if_pos h1, k1]
    refine ⟨_, rfl, k2, fun k => ?_, ?_⟩
    · rw [k3]
      exact or_congr Iff.rfl ⟨fun h => ⟨a, rfl, h⟩, fun ⟨_, e, h⟩ => by cases e; exact h⟩
    · show decide (0 < argc) = true ↔ _
      rw [decide_eq_true_eq]
      exact ⟨fun h => ⟨a, a, rfl, by omega, by omega⟩, fun ⟨k, _, e, h⟩ => by cases e; omega⟩

/-- What came of highlighting some expressions. -/
def Highlighted (n : Nat) (args : List Bool) (ret : Bool) (P : Nat → Prop) (r : Bool × List Bool) : Prop :=
  r.2.length = n ∧ (∀ k, r.2[k]? = some true ↔ args[k]? = some true ∨ P k) ∧ (r.1 = true ↔ ret = true ∨ ∃ k, P k)

mutual
theorem highlightRec_ok (n : Nat) : (x : Expr) → Inside n x → (args : List Bool) → args.length = n → ∃ r, highlightRec n x args = .ok r ∧ Highlighted n args false (Belongs x) r
  | .node argv argc children, hx, args, hl => by
    have hx : (∀ a, argv = some a → a < n ∧ a + argc ≤ n) ∧ ∀ x ∈ children, Inside n x := by cases hx with | node _ _ _ h1 h2 => exact ⟨h1, h2⟩
    obtain ⟨r, h1, h2, h3, h4⟩ := highlightOwn_ok hx.1 hl
    obtain ⟨r', k1, k2, k3, k4⟩ := highlightAll_ok n children hx.2 r.1 r.2 h2
    refine ⟨r', ?_, k2, fun k => ?_, ?_⟩
    · unfold highlightRec
      rw [h1]
      exact k1
    · rw [k3, h3, or_assoc]
      refine or_congr Iff.rfl ⟨?_, ?_⟩
      · rintro (⟨a, rfl, h5, h6⟩ | ⟨x, h5, h6⟩)
        · exact .own a argc children k h5 h6
        · exact .child argv argc children x k h5 h6
      · intro h
        cases h with
        | own a _ _ _ h5 h6 => exact .inl ⟨a, rfl, h5, h6⟩
        | child _ _ _ x _ h5 h6 => exact .inr ⟨x, h5, h6⟩
    · rw [k4, h4]
      constructor
      · rintro (⟨k, a, rfl, h5, h6⟩ | ⟨k, x, h5, h6⟩)
        · exact .inr ⟨k, .own a argc children k h5 h6⟩
        · exact .inr ⟨k, .child argv argc children x k h5 h6⟩
      · rintro (h | ⟨k, h⟩)
        · cases h
        · cases h with
          | own a _ _ _ h5 h6 => exact .inl ⟨k, a, rfl, h5, h6⟩
          | child _ _ _ x _ h5 h6 => exact .inr ⟨k, x, h5, h6⟩
theorem highlightAll_ok (n : Nat) : (l : List Expr) → (∀ x ∈ l, Inside n x) → (ret : Bool) → (args : List Bool) → args.length = n →
    ∃ r, highlightAll n l ret args = .ok r ∧ Highlighted n args ret (fun k => ∃ x ∈ l, Belongs x k) r
  | [], _, ret, args, hl => by
    refine ⟨(ret, args), by unfold highlightAll; rfl, hl, fun k => ⟨.inl, fun h => h.elim id fun ⟨_, h, _⟩ => by cases h⟩, ⟨.inl, fun h => h.elim id fun ⟨_, _, h, _⟩ => by cases h⟩⟩
  | x :: rest, h, ret, args, hl => by
    obtain ⟨r, h1, h2, h3, h4⟩ := highlightRec_ok n x (h x (List.mem_cons_self ..)) args hl
    obtain ⟨r', k1, k2, k3, k4⟩ := highlightAll_ok n rest (fun y hy => h y (List.mem_cons_of_mem _ hy)) (ret || r.1) r.2 h2
    refine ⟨r', ?_, k2, fun k => ?_, ?_⟩
    · unfold highlightAll
      rw [h1]
      exact k1
    · rw [k3, h3, or_assoc]
      refine or_congr Iff.rfl ⟨?_, ?_⟩
      · rintro (h5 | ⟨y, h5, h6⟩)
        · exact ⟨x, List.mem_cons_self .., h5⟩
        · exact ⟨y, List.mem_cons_of_mem _ h5, h6⟩
      · rintro ⟨y, h5, h6⟩
        rcases List.mem_cons.1 h5 with rfl | h5
        · exact .inl h6
        · exact .inr ⟨y, h5, h6⟩
    · rw [k4, Bool.or_eq_true, h4]
      constructor
      · rintro ((h5 | h5 | ⟨k, h5⟩) | ⟨k, y, h5, h6⟩)
        · exact .inl h5
        · cases h5
        · exact .inr ⟨k, x, List.mem_cons_self .., h5⟩
        · exact .inr ⟨k, y, List.mem_cons_of_mem _ h5, h6⟩
      · rintro (h5 | ⟨k, y, h5, h6⟩)
        · exact .inl (.inl h5)
        · rcases List.mem_cons.1 h5 with rfl | h5
          · exact .inl (.inr (.inr ⟨k, h6⟩))
          · exact .inr ⟨k, y, h5, h6⟩
end

theorem highlightExpr_ok {n : Nat} {x : Expr} (hx : Inside n x) :
    ∃ r, highlightExpr n x = .ok r ∧ r.2.length = n ∧ (∀ k, r.2[k]? = some true ↔ Belongs x k) ∧ (r.1 = true ↔ ∃ k, Belongs x k) := by
  obtain ⟨r, h1, h2, h3, h4⟩ := highlightRec_ok n x hx (initHighlight n) (List.length_replicate ..)
  refine ⟨r, h1, h2, fun k => ?_, ?_⟩
  · rw [h3]
    exact ⟨fun h => h.elim (fun h => absurd h (initHighlight_get n k)) id, .inr⟩
  · rw [h4]
    exact ⟨fun h => h.elim (fun h => by cases h) id, .inr⟩

theorem underlined_congr {argv : List Bytes} {P Q : Nat → Prop} (h : ∀ i, P i ↔ Q i) {before out : Bytes} (hu : Underlined L wcwidth argv P before out) : Underlined L wcwidth argv Q before out := by
  rwa [show P = Q from funext fun i => propext (h i)] at hu

/-! ## Colors -/

/-- The color at the end. -/
def after : Option String → List Tok → Option String
  | c, [] => c
  | _, .color name :: rest => after (if name = "rs" then none else some name) rest
  | c, .text _ :: rest => after c rest

theorem paint_append (c : Option String) (a b : List Tok) : paint c (a ++ b) = paint c a ++ paint (after c a) b := by
  induction a generalizing c with
  | nil => rfl
  | cons t a ih => cases t <;> simp [paint, after, ih]

theorem after_append (c : Option String) (a b : List Tok) : after c (a ++ b) = after (after c a) b := by
  induction a generalizing c with
  | nil => rfl
  | cons t a ih => cases t <;> simp [after, ih]

theorem paint_plain (c : Option String) (a : List Tok) : (paint c a).map (·.2) = plain a := by
  induction a generalizing c with
  | nil => rfl
  | cons t a ih => cases t <;> simp [paint, plain, ih, Function.comp_def]

theorem after_prefix (ctx : Ctx) (warning : Bool) : after none (linePrefix ctx warning) = none := by
  unfold linePrefix warningPrefix errorPrefix
  split
  · split <;> rfl
  · rfl

theorem paint_showArg (ws : List Bytes) (args : List Bool) (i : Nat) :
    paint none (showArg ws args i) = (if i = 0 then [] else [(none, 32)]) ++ (ws.getD i []).map (fun x => (if args.getD i false then some "bld" else none, x)) ∧
    after none (showArg ws args i) = none := by
  unfold showArg
  cases i with
  | zero => cases args.getD 0 false <;> simp [paint, after]
  | succ i => cases args.getD (i + 1) false <;> simp [paint, after]

theorem paint_show (ws : List Bytes) (args : List Bool) (l : List Nat) :
    paint none (l.flatMap (showArg ws args)) = l.flatMap (fun i => (if i = 0 then [] else [(none, 32)]) ++ (ws.getD i []).map (fun x => (if args.getD i false then some "bld" else none, x))) ∧
    after none (l.flatMap (showArg ws args)) = none := by
  induction l with
  | nil => exact ⟨rfl, rfl⟩
  | cons i l ih =>
    obtain ⟨h1, h2⟩ := paint_showArg ws args i
    rw [List.flatMap_cons, paint_append, after_append, h2, ih.1, ih.2, h1]
    exact ⟨rfl, rfl⟩

/-- The color of the underline when round `i` begins. -/
def entry (col : String) (args : List Bool) (max i : Nat) : Option String :=
  if decide (0 < i) && args.getD (i - 1) false && args.getD i false && decide (i < max) then some col else none

theorem paint_replicate (c : Option String) (n : Nat) (b : UInt8) : paint c (List.replicate n (.text [b])) = List.replicate n (c, b) := by
  induction n with
  | zero => rfl
  | succ n ih => rw [List.replicate_succ, List.replicate_succ, ← ih]; rfl

theorem after_replicate (c : Option String) (n : Nat) (b : Bytes) : after c (List.replicate n (.text b)) = c := by
  induction n with
  | zero => rfl
  | succ n ih => rw [List.replicate_succ]; exact ih

/-- Every `~` has the color, and nothing else has. -/
def Painted (col : String) (l : List (Option String × UInt8)) : Prop := ∀ p ∈ l, p.1 = if p.2 = 126 then some col else none

theorem painted_append {col : String} {a b : List (Option String × UInt8)} (ha : Painted col a) (hb : Painted col b) : Painted col (a ++ b) :=
  fun p hp => (List.mem_append.1 hp).elim (ha p) (hb p)

theorem paint_under1 (width : Bytes → Nat) (warning : Bool) (ws : List Bytes) (args : List Bool) (max i : Nat) (hi : i < max) (col : String) (hc : col = if warning then "wrn" else "err") :
    Painted col (paint (entry col args max i) (under width warning ws args max i)) ∧
    after (entry col args max i) (under width warning ws args max i) = entry col args max (i + 1) := by
  have hrs : col ≠ "rs" := by rw [hc]; cases warning <;> decide
  unfold under
  have g1 : after (entry col args max i) (underGap args i) = entry col args max i := by
    unfold underGap; split <;> rfl
  have g2 : Painted col (paint (entry col args max i) (underGap args i)) := by
    unfold underGap
    by_cases h0 : 0 < i
    · rw [if_pos h0]
      intro p hp
      cases h : (args.getD (i - 1) false && args.getD i false)
      · rw [h] at hp
        simp [paint] at hp
        subst hp
        simp [entry, h0, hi]
        simpa using h
      · rw [h] at hp
        simp [paint] at hp
        subst hp
        simp only [Bool.and_eq_true] at h
        simp [entry, h0, hi]
        simpa using h
    · rw [if_neg h0]; intro p hp; cases hp
  have c1 : paint (entry col args max i) (underColor warning args i) = [] := by unfold underColor; split <;> rfl
  have c2 : after (entry col args max i) (underColor warning args i) = if args.getD i false then some col else none := by
    unfold underColor entry
    rw [← hc]
    cases i with
    | zero => cases args.getD 0 false <;> simp [after, hrs]
    | succ i =>
      rw [Nat.add_sub_cancel]
      generalize args.getD (i + 1) false = x
      generalize args.getD i false = y
      cases x <;> cases y <;> simp [after, hrs, hi]
  have a1 : Painted col (paint (if args.getD i false then some col else none) (underArg width ws args i)) := by
    unfold underArg
    cases args.getD i false
    · intro p hp
      have := hp
      rw [if_neg (by decide), if_neg (by decide), paint_replicate] at this
      rw [List.eq_of_mem_replicate this]
      simp
    · intro p hp
      have := hp
      rw [if_pos rfl, if_pos rfl, paint_replicate] at this
      rw [List.eq_of_mem_replicate this]
      simp
  have a2 : ∀ c, after c (underArg width ws args i) = c := fun c => after_replicate _ _ _
  have r1 : ∀ c, paint c (underReset args max i) = [] := by intro c; unfold underReset; split <;> rfl
  have r2 : after (if args.getD i false then some col else none) (underReset args max i) = entry col args max (i + 1) := by
    unfold underReset entry
    by_cases hm : i + 1 < max
    · have : ¬ max ≤ i + 1 := by omega
      cases hA : args.getD i false <;> cases hB : args.getD (i + 1) false <;> simp [after, hm, this, hA, hB] <;> simp_all
    · have : max ≤ i + 1 := by omega
      cases hA : args.getD i false <;> simp [after, hm, this]
  refine ⟨?_, ?_⟩
  · rw [paint_append, paint_append, paint_append, after_append, after_append, g1, c1, c2, a2, r1, List.append_nil, List.append_nil]
    exact painted_append g2 a1
  · rw [after_append, after_append, after_append, g1, c2, a2, r2]

theorem paint_under (width : Bytes → Nat) (warning : Bool) (ws : List Bytes) (args : List Bool) (max m : Nat) (hm : m ≤ max) (col : String) (hc : col = if warning then "wrn" else "err") :
    Painted col (paint none ((List.range m).flatMap (under width warning ws args max))) ∧
    after none ((List.range m).flatMap (under width warning ws args max)) = entry col args max m := by
  induction m with
  | zero => exact ⟨(fun p hp => by cases hp), rfl⟩
  | succ m ih =>
    obtain ⟨h1, h2⟩ := ih (by omega)
    obtain ⟨k1, k2⟩ := paint_under1 width warning ws args max m (by omega) col hc
    rw [List.range_succ, List.flatMap_append, paint_append, after_append, h2]
    have : [m].flatMap (under width warning ws args max) = under width warning ws args max m := by simp
    rw [this]
    exact ⟨painted_append h1 k1, k2⟩

end Verif.Diag
