import Verif.Spec.Options
import Verif.Props.Num

/-! Flags and options. -/
namespace Verif.Options
open Verif.Cmdline

theorem obind_iff {α β} {x : Out α} {f : α → Out β} {b : β} : x.bind f = .ok b ↔ ∃ a, x = .ok a ∧ f a = .ok b := by
  cases x <;> simp [Out.bind]

/-! ## Values -/

theorem unsignedInt_iff (v : Arg) (n : Int) : unsignedInt v = .ok n ↔ Natural v n := by
  have key := Props.C31_int 10 ⟨by decide, by decide⟩ .int true v n
  have hb := Props.C31_base v { size := .int, unsigned := true } rfl
  have hfit : Num.Fits .int n ↔ -2 ^ 31 ≤ n ∧ n ≤ 2 ^ 31 - 1 := Iff.rfl
  rw [hfit] at key
  unfold unsignedInt Natural
  rw [hb]
  constructor
  · intro h
    cases hp : Num.parseInt v { base := 10, size := .int, unsigned := true } with
    | error e => rw [hp] at h; cases h
    | ok r =>
      obtain ⟨m, rest⟩ := r
      rw [hp] at h
      cases h
      have hr : rest = [] := by
        unfold Num.parseInt at hp
        split at hp
        · cases hp
        · cases hp
        · next value rest' hx =>
          by_cases hr : rest' = []
          · subst hr
            simp only [bne_self_eq_false, Bool.and_false, Bool.false_eq_true, if_false] at hp
            split at hp
            · cases hp
            · unfold Num.storeInt at hp
              dsimp only at hp
              split at hp <;> cases hp
              rfl
          · rw [if_pos (by simp [hr])] at hp
            cases hp
      subst hr
      obtain ⟨h1, h2, h3⟩ := key.1 hp
      exact ⟨h1, h3 rfl, by omega⟩
  · rintro ⟨h1, h2, h3⟩
    rw [key.2 ⟨h1, by omega, fun _ => h2⟩]

theorem dropWhile_split (letter : UInt8) : ∀ (s : Arg) (x : UInt8) (after : Arg), s.dropWhile (· ≠ letter) = x :: after →
    x = letter ∧ ∃ before, s = before ++ letter :: after ∧ letter ∉ before := by
  intro s
  induction s with
  | nil => intro x after h; cases h
  | cons c s ih =>
    intro x after h
    rw [List.dropWhile_cons] at h
    by_cases hc : c = letter
    · rw [if_neg (by simp [hc])] at h
      cases h
      exact ⟨hc, [], by simp [hc], by simp⟩
    · rw [if_pos (by simp [hc])] at h
      obtain ⟨h1, before, h2, h3⟩ := ih _ _ h
      exact ⟨h1, c :: before, by rw [h2]; rfl, by simp [h3, Ne.symm hc]⟩

theorem dropWhile_at (letter : UInt8) (after : Arg) : ∀ before : Arg, letter ∉ before → (before ++ letter :: after).dropWhile (· ≠ letter) = letter :: after := by
  intro before
  induction before with
  | nil => intro _; simp
  | cons c s ih =>
    intro h
    rw [List.cons_append, List.dropWhile_cons, if_pos (by simp at h; simpa using Ne.symm h.1)]
    exact ih (fun hc => h (List.mem_cons_of_mem _ hc))

theorem prefixValue_iff (letter : UInt8) (c : Call) (v : Arg) : prefixValue letter c.2 = .ok v ↔ LetterValue letter c v := by
  obtain ⟨i, args⟩ := c
  unfold prefixValue LetterValue
  dsimp only
  constructor
  · intro h
    split at h
    · cases h
    · next x after hx =>
      obtain ⟨h1, before, h2, h3⟩ := dropWhile_split letter _ _ _ hx
      cases args with
      | nil => cases before <;> cases h2
      | cons a more =>
        rw [List.headD_cons] at h2
        refine ⟨before, after, more, by rw [h2], h3, ?_⟩
        by_cases ha : after = []
        · rw [if_neg (by simp [ha])] at h
          refine Or.inr ⟨ha, ?_⟩
          cases more with
          | nil => cases h
          | cons b more => cases h; rfl
        · rw [if_pos ha] at h
          cases h
          exact Or.inl ⟨ha, rfl⟩
  · rintro ⟨before, after, more, h1, h2, h3⟩
    subst h1
    rw [List.headD_cons, dropWhile_at letter after before h2]
    dsimp only
    rcases h3 with ⟨h3, rfl⟩ | ⟨rfl, h3⟩
    · rw [if_pos h3]
    · rw [if_neg (by simp)]
      cases more with
      | nil => cases h3
      | cons b more => cases h3; rfl

theorem value_iff (c : Call) (v : Arg) : value c.2 = .ok v ↔ NextValue c v := by
  unfold value NextValue
  cases c.2[1]? <;> simp

theorem optlevel_iff (v : Arg) (n : Int) : optlevelOf v = .ok n ↔ Level v n := by
  unfold optlevelOf
  constructor
  · intro h
    split at h
    · next hv => cases h; rw [hv]; exact .fast
    · exact .number v n ((unsignedInt_iff v n).1 h)
  · intro h
    cases h with
    | fast => rw [if_pos rfl]
    | number _ _ h =>
      split
      · next hv =>
        subst hv
        have := (unsignedInt_iff _ _).2 h
        have e : unsignedInt (A "fast") = .err "not a number" := by decide +kernel
        rw [e] at this
        cases this
      · exact (unsignedInt_iff v n).2 h

theorem strategy_iff (v : Arg) (s : Bftw.Strategy) : strategyOf v = .ok s ↔ StrategyName v s := by
  constructor
  · intro h
    unfold strategyOf at h
    repeat' split at h
    all_goals first | (cases h; done) | (cases h; subst v; first | exact .bfs | exact .dfs | exact .ids | exact .eds)
  · intro h
    cases h <;> decide

theorem onig_name {library : Bool} (hl : library = true) {v : Arg} {r : Regex} (h : onigType v = .ok r) : RegexName library v r := by
  unfold onigType at h
  split at h
  · next hv =>
    cases h
    rcases hv with rfl | rfl
    · exact .awk hl
    · exact .posixAwk hl
  · split at h
    · next hv => cases h; rw [hv]; exact .gnuAwk hl
    · split at h
      · next hv => cases h; rw [hv]; exact .emacs hl
      · split at h
        · next hv => cases h; rw [hv]; exact .grep hl
        · split at h
          · next hv =>
            cases h
            rcases hv with rfl | rfl
            · exact .egrep hl
            · exact .posixEgrep hl
          · split at h
            · next hv => cases h; rw [hv]; exact .findutils hl
            · cases h

theorem regex_iff (library : Bool) (v : Arg) (r : Regex) : regexType library v = .ok r ↔ RegexName library v r := by
  constructor
  · intro h
    unfold regexType at h
    split at h
    · next hv =>
      cases h
      rcases hv with rfl | rfl | rfl | rfl
      · exact .basic
      · exact .minimal
      · exact .ed
      · exact .sed
    · split at h
      · next hv => cases h; rw [hv]; exact .extended
      · split at h
        · next hl => exact onig_name hl h
        · cases h
  · intro h
    cases h <;> first | (cases library <;> decide) | (rename_i hl; subst hl; decide)

/-! ## Debugging flags -/

/-- Splitting at commas. -/
def splitWords : Arg → Arg → List Arg
  | [], w => [w.reverse]
  | c :: rest, w => if c = 44 then w.reverse :: splitWords rest [] else splitWords rest (c :: w)

def debugAll : List Arg → BitVec 32 → Out (BitVec 32)
  | [], d => .ok d
  | w :: ws, d => (debugFlag w d).bind (debugAll ws)

theorem debugLoop_eq : ∀ (v w : Arg) (d : BitVec 32), debugLoop v w d = debugAll (splitWords v w) d := by
  intro v
  induction v with
  | nil =>
    intro w d
    show debugFlag w.reverse d = (debugFlag w.reverse d).bind (debugAll [])
    cases debugFlag w.reverse d <;> rfl
  | cons c v ih =>
    intro w d
    unfold debugLoop splitWords
    split
    · rw [debugAll]
      congr 1
      funext d
      exact ih [] d
    · exact ih _ d

theorem split_words : ∀ (v w : Arg), 44 ∉ w → Words (w.reverse ++ v) (splitWords v w) := by
  intro v
  induction v with
  | nil =>
    intro w hw
    rw [List.append_nil, splitWords]
    exact .one _ (by simpa using hw)
  | cons c v ih =>
    intro w hw
    unfold splitWords
    split
    · next hc =>
      subst hc
      exact .more _ _ _ (by simpa using hw) (ih [] (by simp))
    · next hc =>
      have := ih (c :: w) (by simp [hw, Ne.symm hc])
      rw [List.reverse_cons, List.append_assoc] at this
      exact this

theorem splitWords_nocomma : ∀ (u v w : Arg), 44 ∉ u → splitWords (u ++ v) w = splitWords v (u.reverse ++ w) := by
  intro u
  induction u with
  | nil => intro v w _; rfl
  | cons c u ih =>
    intro v w hu
    rw [List.cons_append, splitWords, if_neg (by rintro rfl; exact hu (by simp)), ih v (c :: w) (by simp at hu; exact hu.2)]
    simp

theorem words_iff (v : Arg) (ws : List Arg) : Words v ws ↔ ws = splitWords v [] := by
  constructor
  · intro h
    induction h with
    | one w hw =>
      have := splitWords_nocomma w [] [] hw
      rw [List.append_nil, List.append_nil] at this
      rw [this]
      simp [splitWords]
    | more w rest ws hw _ ih =>
      rw [splitWords_nocomma w _ [] hw, splitWords, if_pos rfl, ih]
      simp
  · rintro rfl
    exact split_words v [] (by simp)

theorem debugNames_find (w : Arg) : (∃ i, debugNames.findIdx? (fun name => decide (w = name)) = some i ∧ ∃ name, (name, i) ∈ debugBit ∧ w = A name) ∨
    (debugNames.findIdx? (fun name => decide (w = name)) = none ∧ ∀ name i, (name, i) ∈ debugBit → w ≠ A name) := by
  cases h : debugNames.findIdx? (fun name => decide (w = name)) with
  | some i =>
    refine Or.inl ⟨i, rfl, ?_⟩
    obtain ⟨hlt, hw, _⟩ := List.findIdx?_eq_some_iff_getElem.1 h
    have hw := of_decide_eq_true hw
    have hw : debugNames[i]? = some w := by rw [List.getElem?_eq_getElem hlt, hw]
    match i, hw with
    | 0, hw => cases hw; exact ⟨"cost", by simp [debugBit], rfl⟩
    | 1, hw => cases hw; exact ⟨"exec", by simp [debugBit], rfl⟩
    | 2, hw => cases hw; exact ⟨"opt", by simp [debugBit], rfl⟩
    | 3, hw => cases hw; exact ⟨"rates", by simp [debugBit], rfl⟩
    | 4, hw => cases hw; exact ⟨"search", by simp [debugBit], rfl⟩
    | 5, hw => cases hw; exact ⟨"stat", by simp [debugBit], rfl⟩
    | 6, hw => cases hw; exact ⟨"tree", by simp [debugBit], rfl⟩
    | n + 7, hw => cases hw
  | none =>
    refine Or.inr ⟨rfl, ?_⟩
    rw [List.findIdx?_eq_none_iff] at h
    have h : ∀ x ∈ debugNames, w ≠ x := fun x hx => of_decide_eq_false (h x hx)
    intro name i hn
    have : A name ∈ debugNames := by
      simp only [debugBit, List.mem_cons, Prod.mk.injEq, List.not_mem_nil, or_false] at hn
      rcases hn with ⟨rfl, _⟩ | ⟨rfl, _⟩ | ⟨rfl, _⟩ | ⟨rfl, _⟩ | ⟨rfl, _⟩ | ⟨rfl, _⟩ | ⟨rfl, _⟩ <;> decide
    exact h _ this

theorem debug_all_bit (bit : Nat) : DEBUG_ALL.getLsbD bit = decide (bit < 7) := by
  by_cases h : bit < 32
  · have : ∀ b : Fin 32, DEBUG_ALL.getLsbD b = decide (b.val < 7) := by decide
    exact this ⟨bit, h⟩
  · rw [BitVec.getLsbD_of_ge _ _ (by omega)]
    simp; omega

theorem debug_one_bit {i : Nat} (hi : i < 7) (bit : Nat) : (1#32 <<< i).getLsbD bit = decide (bit = i) := by
  by_cases h : bit < 32
  · have : ∀ (i : Fin 7) (b : Fin 32), (1#32 <<< i.val).getLsbD b = decide (b.val = i.val) := by decide
    exact this ⟨i, hi⟩ ⟨bit, h⟩
  · rw [BitVec.getLsbD_of_ge _ _ (by omega)]
    simp; omega

theorem debugBit_lt {name : String} {i : Nat} (h : (name, i) ∈ debugBit) : i < 7 := by
  simp only [debugBit, List.mem_cons, Prod.mk.injEq, List.not_mem_nil, or_false] at h
  omega

theorem debugBit_inj {name name' : String} {i j : Nat} (h : (name, i) ∈ debugBit) (h' : (name', j) ∈ debugBit) (he : A name = A name') : i = j := by
  have key : debugBit.all (fun x => debugBit.all fun y => !(A x.1 == A y.1) || x.2 == y.2) = true := by decide +kernel
  have := List.all_eq_true.1 (List.all_eq_true.1 key _ h) _ h'
  simpa [he] using this

theorem not_all {name : String} {i : Nat} (h : (name, i) ∈ debugBit) : A name ≠ A "all" ∧ A name ≠ A "help" := by
  have key : debugBit.all (fun x => A x.1 != A "all" && A x.1 != A "help") = true := by decide +kernel
  have := List.all_eq_true.1 key _ h
  simpa using this

/-- One word. -/
theorem debugFlag_ok {w : Arg} {d d' : BitVec 32} (hs : ∀ bit, d.getLsbD bit = true → bit < 7) :
    debugFlag w d = .ok d' → w ≠ A "help" ∧ ∀ bit, d'.getLsbD bit = true ↔ (d.getLsbD bit = true ∨ (w = A "all" ∧ bit < 7) ∨ ∃ name, (name, bit) ∈ debugBit ∧ w = A name) := by
  intro h
  unfold debugFlag at h
  by_cases h1 : w = A "help"
  · rw [if_pos h1] at h; cases h
  rw [if_neg h1] at h
  refine ⟨h1, fun bit => ?_⟩
  by_cases h2 : w = A "all"
  · rw [if_pos h2] at h
    cases h
    rw [debug_all_bit]
    simp only [decide_eq_true_eq]
    constructor
    · exact fun hb => Or.inr (Or.inl ⟨h2, hb⟩)
    · rintro (hb | ⟨_, hb⟩ | ⟨name, hn, _⟩)
      · exact hs bit hb
      · exact hb
      · exact debugBit_lt hn
  · rw [if_neg h2] at h
    rcases debugNames_find w with ⟨i, hf, name, hn, hw⟩ | ⟨hf, hn⟩
    · rw [hf] at h
      cases h
      rw [BitVec.getLsbD_or, debug_one_bit (debugBit_lt hn)]
      simp only [Bool.or_eq_true, decide_eq_true_eq]
      constructor
      · rintro (hb | rfl)
        · exact Or.inl hb
        · exact Or.inr (Or.inr ⟨name, hn, hw⟩)
      · rintro (hb | ⟨hb, _⟩ | ⟨name', hn', hw'⟩)
        · exact Or.inl hb
        · exact absurd hb h2
        · exact Or.inr (debugBit_inj hn' hn (hw' ▸ hw ▸ rfl))
    · rw [hf] at h
      cases h
      constructor
      · exact Or.inl
      · rintro (hb | ⟨hb, _⟩ | ⟨name, hn', hw⟩)
        · exact hb
        · exact absurd hb h2
        · exact absurd hw (hn name bit hn')

theorem debugFlag_accepts {w : Arg} (d : BitVec 32) (h : w ≠ A "help") : ∃ d', debugFlag w d = .ok d' := by
  unfold debugFlag
  rw [if_neg h]
  split
  · exact ⟨_, rfl⟩
  · split <;> exact ⟨_, rfl⟩

theorem debugAll_ok : ∀ (ws : List Arg) (d d' : BitVec 32), (∀ bit, d.getLsbD bit = true → bit < 7) → debugAll ws d = .ok d' →
    A "help" ∉ ws ∧ ∀ bit, d'.getLsbD bit = true ↔ (d.getLsbD bit = true ∨ (A "all" ∈ ws ∧ bit < 7) ∨ ∃ name, (name, bit) ∈ debugBit ∧ A name ∈ ws) := by
  intro ws
  induction ws with
  | nil =>
    intro d d' _ h
    cases h
    exact ⟨by simp, fun bit => by simp⟩
  | cons w ws ih =>
    intro d d' hs h
    obtain ⟨d1, h1, h2⟩ := obind_iff.1 h
    obtain ⟨k1, k2⟩ := debugFlag_ok hs h1
    have hs1 : ∀ bit, d1.getLsbD bit = true → bit < 7 := by
      intro bit hb
      rcases (k2 bit).1 hb with hb | ⟨_, hb⟩ | ⟨name, hn, _⟩
      · exact hs bit hb
      · exact hb
      · exact debugBit_lt hn
    obtain ⟨k3, k4⟩ := ih d1 d' hs1 h2
    refine ⟨by simp only [List.mem_cons, not_or]; exact ⟨Ne.symm k1, k3⟩, fun bit => ?_⟩
    rw [k4, k2]
    simp only [List.mem_cons]
    constructor
    · rintro ((h | ⟨h, h'⟩ | ⟨name, h, h'⟩) | ⟨h, h'⟩ | ⟨name, h, h'⟩)
      · exact Or.inl h
      · exact Or.inr (Or.inl ⟨Or.inl h.symm, h'⟩)
      · exact Or.inr (Or.inr ⟨name, h, Or.inl h'.symm⟩)
      · exact Or.inr (Or.inl ⟨Or.inr h, h'⟩)
      · exact Or.inr (Or.inr ⟨name, h, Or.inr h'⟩)
    · rintro (h | ⟨h | h, h'⟩ | ⟨name, h, h' | h'⟩)
      · exact Or.inl (Or.inl h)
      · exact Or.inl (Or.inr (Or.inl ⟨h.symm, h'⟩))
      · exact Or.inr (Or.inl ⟨h, h'⟩)
      · exact Or.inl (Or.inr (Or.inr ⟨name, h, h'.symm⟩))
      · exact Or.inr (Or.inr ⟨name, h, h'⟩)

theorem debugAll_accepts : ∀ (ws : List Arg) (d : BitVec 32), A "help" ∉ ws → ∃ d', debugAll ws d = .ok d' := by
  intro ws
  induction ws with
  | nil => exact fun d _ => ⟨d, rfl⟩
  | cons w ws ih =>
    intro d h
    simp only [List.mem_cons, not_or] at h
    obtain ⟨d1, h1⟩ := debugFlag_accepts d (Ne.symm h.1)
    obtain ⟨d2, h2⟩ := ih d1 h.2
    exact ⟨d2, obind_iff.2 ⟨d1, h1, h2⟩⟩

/-! ## Names -/

theorem is_setter {L : List String} {S : List Setter} (h : (table.all fun e => (L.map A).contains e.arg == S.contains (setter e.arg)) = true)
    {c : Call} {e : Entry} (he : table[c.1]? = some e) : c.is L = S.contains (setter e.arg) := by
  unfold Call.is
  rw [he]
  have := List.all_eq_true.1 h e (List.mem_of_getElem? he)
  exact (beq_iff_eq.1 this)

theorem last_snoc (L : List String) (cs : List Call) (c : Call) : last L (cs ++ [c]) = if c.is L then some c else last L cs := by
  unfold last
  rw [List.filter_append]
  cases h : c.is L <;> simp [List.filter_cons, h]

theorem given_snoc (L : List String) (cs : List Call) (c : Call) : Given L (cs ++ [c]) ↔ Given L cs ∨ c.is L = true := by
  unfold Given
  constructor
  · rintro ⟨x, hx, h⟩
    rcases List.mem_append.1 hx with hx | hx
    · exact Or.inl ⟨x, hx, h⟩
    · rw [List.mem_singleton.1 hx] at h; exact Or.inr h
  · rintro (⟨x, hx, h⟩ | h)
    · exact ⟨x, List.mem_append_left _ hx, h⟩
    · exact ⟨c, List.mem_append_right _ (List.mem_singleton.2 rfl), h⟩

theorem configure_snoc (sys : Sys) (c : Call) : ∀ (cs : List Call) (o : Options),
    configure sys (cs ++ [c]) o = (configure sys cs o).bind (apply sys c) := by
  intro cs
  induction cs with
  | nil =>
    intro o
    show (apply sys c o).bind (configure sys []) = apply sys c o
    cases apply sys c o <;> rfl
  | cons d cs ih =>
    intro o
    show (apply sys d o).bind (configure sys (cs ++ [c])) = ((apply sys d o).bind (configure sys cs)).bind (apply sys c)
    cases apply sys d o with
    | ok o1 => exact ih o1
    | err e => rfl
    | ub => rfl

/-! ## Bits -/

theorem has_or (x y m : BitVec 32) : has (x ||| y) m = (has x m || has y m) := by
  unfold has
  rw [BitVec.and_comm, BitVec.and_or_distrib_left, BitVec.and_comm m x, BitVec.and_comm m y]
  cases h : (x &&& m != 0#32) with
  | true =>
    rw [Bool.true_or, bne_iff_ne]
    rw [bne_iff_ne] at h
    exact fun hc => h (BitVec.or_eq_zero_iff.1 hc).1
  | false =>
    rw [Bool.false_or]
    have : x &&& m = 0#32 := by simpa using h
    rw [this, BitVec.zero_or]

theorem has_and (x y m : BitVec 32) : has (x &&& y) m = has x (y &&& m) := by
  unfold has
  rw [BitVec.and_assoc]

end Verif.Options
