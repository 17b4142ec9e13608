import Verif.Lemmas.Diag
import Verif.Props.Quote

/-!
# C89 — messages underline the arguments that they are about
-/

namespace Verif.Props
open Verif.Diag Verif.Spec.Diag
open Verif.Quote hiding Bytes

section
variable {L : Locale} {wcwidth : Bar.Wcwidth}

/-- **C89.** Whatever the arguments are: the message shows the command line as the shell would read it, and below there is a `~` in exactly the columns of the arguments that it is about, and between
two of them that follow each other. -/
theorem C89_underlined (hL : Usual L wcwidth) (ctx : Ctx) (h0 : ∀ a ∈ ctx.argv, (0 : UInt8) ∉ a) (args : List Bool) (warning : Bool) :
    ∃ out, argvDiag L wcwidth ctx args warning = .ok out ∧ Underlined L wcwidth ctx.argv (fun i => args[i]? = some true) (plain (linePrefix ctx warning)) (plain out) := by
  have hg : ∀ i, args.getD i false = true ↔ args[i]? = some true := by
    intro i
    rw [List.getD_eq_getElem?_getD]
    cases args[i]? with
    | none => simp
    | some b => cases b <;> simp
  refine ⟨_, by unfold argvDiag; rw [words_ok hL ctx.argv h0]; rfl, ⟨ctx.argv.map (wordStr' L true), (marksTo (fun i => Bar.xstrwidth L wcwidth ((ctx.argv.map (wordStr' L true)).getD i [])) args (maxArgc args ctx.argv.length)), ?_, ?_, marksTo_mem _ _ _, ?_⟩⟩
  · rw [plain_append, plain_append, plain_append, plain_append, plain_append, plain_under]
    have : ctx.argv.length = (ctx.argv.map (wordStr' L true)).length := (List.length_map _).symm
    rw [show (List.range ctx.argv.length).flatMap (showArg (ctx.argv.map (wordStr' L true)) args) =
      (List.range (ctx.argv.map (wordStr' L true)).length).flatMap (showArg (ctx.argv.map (wordStr' L true)) args) by rw [← this], plain_show]
    rfl
  · rw [List.map_map]
    refine List.map_congr_left fun a _ => ?_
    obtain ⟨out, h1, h2⟩ := C13_shell_round_trip L hL.ok hL.tabs a
    rw [escape_eq] at h1
    cases h1
    exact h2
  · have hcol : ∀ i < ctx.argv.length, Columns L wcwidth ((ctx.argv.map (wordStr' L true)).getD i []) (Bar.xstrwidth L wcwidth ((ctx.argv.map (wordStr' L true)).getD i [])) := by
      intro i hi
      have e : (ctx.argv.map (wordStr' L true)).getD i [] = wordStr' L true ctx.argv[i] := by
        rw [List.getD_eq_getElem?_getD, List.getElem?_map, List.getElem?_eq_getElem hi]
        rfl
      rw [e]
      obtain ⟨n, hn⟩ := columns_word hL (h0 _ (List.getElem_mem hi))
      have hz : (0 : UInt8) ∉ wordStr' L true ctx.argv[i] := fun hm => (word_mem _ _ hm).elim (h0 _ (List.getElem_mem hi)) fun h => absurd h.1 (by decide)
      rw [xstrwidth_columns hL hn hz]
      exact hn
    intro i hi
    refine ⟨_, _, columns_left hL _ (fun i => Bar.xstrwidth L wcwidth ((ctx.argv.map (wordStr' L true)).getD i [])) (fun i hi => hcol i (by simpa using hi)) i (by rw [List.length_map]; omega),
      hcol i hi, ?_, ?_, ?_⟩
    all_goals
      obtain ⟨hm1, hm2⟩ := maxArgc_spec args ctx.argv.length
      have hlen := marksTo_length (fun i => Bar.xstrwidth L wcwidth ((ctx.argv.map (wordStr' L true)).getD i [])) args (maxArgc args ctx.argv.length)
    · intro k hk
      by_cases him : i < maxArgc args ctx.argv.length
      · rw [(marksTo_get _ args _ i him).1 k hk, ← hg]
        unfold mark
        cases args.getD i false <;> simp
      · rw [← hg, hm2 i hi (by omega)]
        have hmono := leftOf_mono (fun i => Bar.xstrwidth L wcwidth ((ctx.argv.map (wordStr' L true)).getD i [])) (Nat.le_of_not_lt him)
        rw [List.getElem?_eq_none (by omega)]
        simp
    · intro hpos
      by_cases him : i < maxArgc args ctx.argv.length
      · rw [(marksTo_get _ args _ i him).2 hpos, ← hg, ← hg]
        unfold gap
        cases args.getD i false <;> cases args.getD (i - 1) false <;> simp
      · rw [← hg i, hm2 i hi (by omega)]
        have hmono := leftOf_mono (fun i => Bar.xstrwidth L wcwidth ((ctx.argv.map (wordStr' L true)).getD i [])) (Nat.le_of_not_lt him)
        have hnone : (marksTo (fun i => Bar.xstrwidth L wcwidth ((ctx.argv.map (wordStr' L true)).getD i [])) args (maxArgc args ctx.argv.length))[leftOf (fun i => Bar.xstrwidth L wcwidth ((ctx.argv.map (wordStr' L true)).getD i [])) i - 1]? = none := by
          refine List.getElem?_eq_none ?_
          by_cases h : 0 < maxArgc args ctx.argv.length
          · rw [if_pos h] at hlen; omega
          · rw [if_neg h] at hlen
            have : maxArgc args ctx.argv.length = 0 := by omega
            rw [this]
            exact Nat.zero_le _
        rw [hnone]
        simp
    · intro hlast
      have hmono := leftOf_mono (fun i => Bar.xstrwidth L wcwidth ((ctx.argv.map (wordStr' L true)).getD i [])) hm1
      have : leftOf (fun i => Bar.xstrwidth L wcwidth ((ctx.argv.map (wordStr' L true)).getD i [])) ctx.argv.length =
          leftOf (fun i => Bar.xstrwidth L wcwidth ((ctx.argv.map (wordStr' L true)).getD i [])) i + Bar.xstrwidth L wcwidth ((ctx.argv.map (wordStr' L true)).getD i []) + 1 := by
        rw [← hlast]; rfl
      by_cases h : 0 < maxArgc args ctx.argv.length
      · rw [if_pos h] at hlen; omega
      · have : maxArgc args ctx.argv.length = 0 := by omega
        rw [this]
        exact Nat.zero_le _

/-- **C89 (expressions).** A message about an expression underlines exactly the arguments that belong to it. If there are none, as for the `-print` that nobody wrote, there is no message. -/
theorem C89_expression (hL : Usual L wcwidth) (ctx : Ctx) (h0 : ∀ a ∈ ctx.argv, (0 : UInt8) ∉ a) (x : Expr) (hx : Inside ctx.argv.length x) :
    (∃ out, exprError L wcwidth ctx x = .ok out ∧
      ((∃ i, Belongs x i) ∧ Underlined L wcwidth ctx.argv (Belongs x) (plain (errorPrefix ctx)) (plain out) ∨ (¬ ∃ i, Belongs x i) ∧ out = [])) ∧
    ∃ out, exprWarning L wcwidth ctx x = .ok out ∧
      (ctx.warn = true ∧ (∃ i, Belongs x i) ∧ Underlined L wcwidth ctx.argv (Belongs x) (plain (warningPrefix ctx)) (plain out) ∨
        (ctx.warn = false ∨ ¬ ∃ i, Belongs x i) ∧ out = []) := by
  obtain ⟨r, h1, h2, h3, h4⟩ := highlightExpr_ok hx
  unfold exprError exprWarning
  rw [h1]
  show (∃ out, (if r.1 = true then _ else _) = _ ∧ _) ∧ ∃ out, (if r.1 = true then _ else _) = _ ∧ _
  by_cases hr : r.1 = true
  · rw [if_pos hr, if_pos hr]
    refine ⟨?_, ?_⟩
    · obtain ⟨out, k1, k2⟩ := C89_underlined hL ctx h0 r.2 false
      exact ⟨out, k1, .inl ⟨h4.1 hr, underlined_congr h3 k2⟩⟩
    · obtain ⟨out, k1, k2⟩ := C89_underlined hL ctx h0 r.2 true
      unfold argvWarning
      cases hw : ctx.warn with
      | false => exact ⟨[], rfl, .inr ⟨.inl rfl, rfl⟩⟩
      | true => exact ⟨out, k1, .inl ⟨rfl, h4.1 hr, underlined_congr h3 k2⟩⟩
  · rw [if_neg hr, if_neg hr]
    have : ¬ ∃ i, Belongs x i := fun h => hr (h4.2 h)
    exact ⟨⟨[], rfl, .inr ⟨this, rfl⟩⟩, ⟨[], rfl, .inr ⟨.inr this, rfl⟩⟩⟩

/-- **C89 (arguments).** A message about some arguments, or about two conflicting expressions, underlines exactly these. -/
theorem C89_arguments (hL : Usual L wcwidth) (ctx : Ctx) (h0 : ∀ a ∈ ctx.argv, (0 : UInt8) ∉ a) (a m b n : Nat) (ha : a + m ≤ ctx.argv.length) (hb : b + n ≤ ctx.argv.length) :
    (∃ out, parseArgvError L wcwidth ctx a m = .ok out ∧ Underlined L wcwidth ctx.argv (fun i => a ≤ i ∧ i < a + m) (plain (errorPrefix ctx)) (plain out)) ∧
    ∃ out, parseConflictError L wcwidth ctx a m b n = .ok out ∧
      Underlined L wcwidth ctx.argv (fun i => (a ≤ i ∧ i < a + m) ∨ (b ≤ i ∧ i < b + n)) (plain (errorPrefix ctx)) (plain out) := by
  obtain ⟨r, h1, h2, h3⟩ := highlightArgs_ok ha (args := initHighlight ctx.argv.length) (List.length_replicate ..)
  obtain ⟨r', k1, k2, k3⟩ := highlightArgs_ok hb h2
  have e : ∀ i, r[i]? = some true ↔ a ≤ i ∧ i < a + m := fun i => by
    rw [h3]
    exact ⟨fun h => h.elim (fun h => absurd h (initHighlight_get _ i)) id, .inr⟩
  unfold parseArgvError parseConflictError
  rw [h1]
  refine ⟨?_, ?_⟩
  · obtain ⟨out, j1, j2⟩ := C89_underlined hL ctx h0 r false
    exact ⟨out, j1, underlined_congr e j2⟩
  · show ∃ out, (highlightArgs _ b n r).bind _ = _ ∧ _
    rw [k1]
    obtain ⟨out, j1, j2⟩ := C89_underlined hL ctx h0 r' false
    exact ⟨out, j1, underlined_congr (fun i => by rw [k3, e]) j2⟩

/-- **C89 (colors).** If the terminal has colors, the arguments in question are bold, each `~` is in the color of errors or of warnings, and nothing else in these lines is. -/
theorem C89_colors (hL : Usual L wcwidth) (ctx : Ctx) (h0 : ∀ a ∈ ctx.argv, (0 : UInt8) ∉ a) (args : List Bool) (warning : Bool) :
    ∃ out ws marks, argvDiag L wcwidth ctx args warning = .ok out ∧
      paint none out = paint none (linePrefix ctx warning) ++ bold ws (fun i => args.getD i false) ++ [(none, 10)] ++ paint none (linePrefix ctx warning) ++ marks ++ [(none, 10)] ∧
      ws.map Spec.Quote.oneWord = ctx.argv.map some ∧
      ∀ p ∈ marks, (p.2 = 126 ∧ p.1 = some (if warning then "wrn" else "err")) ∨ (p.2 = 32 ∧ p.1 = none) := by
  refine ⟨_, ctx.argv.map (wordStr' L true), paint none ((List.range (maxArgc args ctx.argv.length)).flatMap (under (Bar.xstrwidth L wcwidth) warning (ctx.argv.map (wordStr' L true)) args (maxArgc args ctx.argv.length))),
    by unfold argvDiag; rw [words_ok hL ctx.argv h0]; rfl, ?_, ?_, ?_⟩
  · have hend := (paint_under (Bar.xstrwidth L wcwidth) warning (ctx.argv.map (wordStr' L true)) args (maxArgc args ctx.argv.length) _ (Nat.le_refl _) _ rfl).2
    have : entry (if warning then "wrn" else "err") args (maxArgc args ctx.argv.length) (maxArgc args ctx.argv.length) = none := by simp [entry]
    rw [this] at hend
    simp only [paint_append, after_append, after_prefix, (paint_show _ _ _).2, (paint_show _ _ _).1, after, hend]
    simp [paint, bold]
  · rw [List.map_map]
    refine List.map_congr_left fun a _ => ?_
    obtain ⟨out, h1, h2⟩ := C13_shell_round_trip L hL.ok hL.tabs a
    rw [escape_eq] at h1
    cases h1
    exact h2
  · intro p hp
    have h1 := (paint_under _ _ _ _ _ _ (Nat.le_refl _) _ rfl).1 p hp
    have h2 : p.2 ∈ plain ((List.range (maxArgc args ctx.argv.length)).flatMap (under (Bar.xstrwidth L wcwidth) warning (ctx.argv.map (wordStr' L true)) args (maxArgc args ctx.argv.length))) := by
      rw [← paint_plain none]
      exact List.mem_map_of_mem hp
    rw [plain_under] at h2
    rcases marksTo_mem _ _ _ _ h2 with h | h
    · rw [if_pos h] at h1; exact .inl ⟨h, h1⟩
    · rw [if_neg (by rw [h]; decide)] at h1; exact .inr ⟨h, h1⟩

end

/-! ## The hypotheses are met -/

/-- UTF-8 with two characters beyond ASCII: `é`, and `你`, which takes two columns. -/
def locale89 : Locale where
  σ := Unit
  init := ()
  isprint c := 32 ≤ c && c ≤ 126
  isspace c := c == 32 || (9 ≤ c && c ≤ 13)
  mbrtowc _ s := match s with
    | [] => none
    | b :: rest =>
      if b < 128 then some (1, b.toNat, ())
      else if b = 0xC3 && rest.take 1 = [0xA9] then some (2, 0xE9, ())
      else if b = 0xE4 && rest.take 2 = [0xBD, 0xA0] then some (3, 0x4F60, ())
      else none
  iswprint c := (32 ≤ c && c ≤ 126) || c == 0xE9 || c == 0x4F60
  iswspace c := c == 32 || (9 ≤ c && c ≤ 13)

def width89 : Bar.Wcwidth := fun c => if c = 0x4F60 then 2 else if 32 ≤ c ∧ c ≤ 126 ∨ c = 0xE9 then 1 else -1

theorem locale89_cases (st : Unit) (rest : Bytes) (n c : Nat) (st' : Unit) (h : locale89.mbrtowc st rest = some (n, c, st')) :
    (∃ b r, rest = b :: r ∧ b < 128 ∧ n = 1 ∧ c = b.toNat) ∨ (∃ r, rest = 0xC3 :: 0xA9 :: r ∧ n = 2 ∧ c = 0xE9) ∨ ∃ r, rest = 0xE4 :: 0xBD :: 0xA0 :: r ∧ n = 3 ∧ c = 0x4F60 := by
  cases rest with
  | nil => cases h
  | cons b r =>
    change (if b < 128 then some (1, b.toNat, ()) else if b = 0xC3 && r.take 1 = [0xA9] then some (2, 0xE9, ()) else if b = 0xE4 && r.take 2 = [0xBD, 0xA0] then some (3, 0x4F60, ()) else none) = _ at h
    by_cases h1 : b < 128
    · rw [if_pos h1] at h; cases h; exact .inl ⟨b, r, rfl, h1, rfl, rfl⟩
    · rw [if_neg h1] at h
      by_cases h2 : (b = 0xC3 && r.take 1 = [0xA9]) = true
      · rw [if_pos h2] at h; cases h
        simp only [Bool.and_eq_true, decide_eq_true_eq] at h2
        obtain ⟨rfl, h2⟩ := h2
        match r, h2 with
        | x :: r, h2 => cases h2; exact .inr (.inl ⟨r, rfl, rfl, rfl⟩)
      · rw [if_neg h2] at h
        by_cases h3 : (b = 0xE4 && r.take 2 = [0xBD, 0xA0]) = true
        · rw [if_pos h3] at h; cases h
          simp only [Bool.and_eq_true, decide_eq_true_eq] at h3
          obtain ⟨rfl, h3⟩ := h3
          match r, h3 with
          | x :: y :: r, h3 => cases h3; exact .inr (.inr ⟨r, rfl, rfl, rfl⟩)
        · rw [if_neg h3] at h; cases h

theorem usual89 : Usual locale89 width89 where
  ok := ⟨fun st rest n c st' _ h => by
    rcases locale89_cases st rest n c st' h with ⟨b, r, rfl, _, rfl, _⟩ | ⟨r, rfl, rfl, _⟩ | ⟨r, rfl, rfl, _⟩ <;> simp⟩
  tabs := {
    byte := fun c hc => by rcases hc with rfl | rfl <;> exact ⟨by decide, by simp⟩
    wide := fun st rest n c st' h hc => by
      obtain ⟨x, hx, hb⟩ := hc
      rcases locale89_cases st rest n c st' h with ⟨b, r, rfl, _, rfl, rfl⟩ | ⟨r, rfl, rfl, rfl⟩ | ⟨r, rfl, rfl, rfl⟩
      · simp at hx; subst hx
        rcases hb with rfl | rfl <;> exact ⟨by decide, by simp⟩
      · simp at hx
        rcases hx with rfl | rfl <;> rcases hb with hb | hb <;> exact absurd hb (by decide)
      · simp at hx
        rcases hx with rfl | rfl | rfl <;> rcases hb with hb | hb <;> exact absurd hb (by decide) }
  stateless _ _ := rfl
  init _ _ _ _ _ := rfl
  own rest n c st h more := by
    rcases locale89_cases () rest n c st h with ⟨b, r, rfl, hb, rfl, rfl⟩ | ⟨r, rfl, rfl, rfl⟩ | ⟨r, rfl, rfl, rfl⟩
    · exact if_pos hb
    · rfl
    · rfl
  ascii b hb _ rest := if_pos hb
  wide b hb rest n c st h x hx := by
    rcases locale89_cases () (b :: rest) n c st h with ⟨b', r, he, hb', rfl, rfl⟩ | ⟨r, he, rfl, rfl⟩ | ⟨r, he, rfl, rfl⟩
    · cases he
      exact absurd hb (UInt8.not_le.2 hb')
    · rw [he] at hx
      simp at hx
      rcases hx with rfl | rfl <;> decide
    · rw [he] at hx
      simp at hx
      rcases hx with rfl | rfl | rfl <;> decide
  print b hb := by
    have h : ∀ n < 128, locale89.isprint (UInt8.ofNat n) = locale89.iswprint (UInt8.ofNat n).toNat ∧ (locale89.iswprint (UInt8.ofNat n).toNat = true ↔ 32 ≤ UInt8.ofNat n ∧ UInt8.ofNat n ≤ 126) := by
      decide +kernel
    have := h b.toNat (UInt8.lt_iff_toNat_lt.1 hb)
    rwa [UInt8.ofNat_toNat] at this
  width b h1 h2 := by
    have h : ∀ n < 127, 32 ≤ n → width89 n = 1 := by decide +kernel
    have k1 := UInt8.le_iff_toNat_le.1 h1
    have k2 := UInt8.le_iff_toNat_le.1 h2
    exact h b.toNat (by change b.toNat ≤ 126 at k2; omega) k1

/-- `bfs 你 -name 'a b'`, and the expression `-name 'a b'` inside an expression that nobody wrote. -/
def ctx89 : Ctx := ⟨[[98, 102, 115], [0xE4, 0xBD, 0xA0], [45, 110, 97, 109, 101], [97, 32, 98]], true⟩

def expr89 : Expr := .node none 0 [.node (some 2) 2 [], .node none 0 []]

example : ∀ a ∈ ctx89.argv, (0 : UInt8) ∉ a := by decide +kernel

example : Inside ctx89.argv.length expr89 := by
  refine .node _ _ _ (by simp) fun x hx => ?_
  simp at hx
  rcases hx with rfl | rfl
  · exact .node _ _ _ (by simp [ctx89]) (by simp)
  · exact .node _ _ _ (by simp) (by simp)

/-- The wide character has two columns: `bfs: error: bfs 你 -name "a b"`, and below this `bfs: error:        ~~~~~~~~~~~`. -/
example : (exprError locale89 width89 ctx89 expr89).bind (fun out => .ok (plain out)) =
    .ok ([98, 102, 115, 58, 32, 101, 114, 114, 111, 114, 58, 32] ++ [98, 102, 115, 32, 0xE4, 0xBD, 0xA0, 32, 45, 110, 97, 109, 101, 32, 34, 97, 32, 98, 34] ++ [10] ++
      [98, 102, 115, 58, 32, 101, 114, 114, 111, 114, 58, 32] ++ [32, 32, 32, 32, 32, 32, 32] ++ List.replicate 11 126 ++ [10]) := by
  decide +kernel

end Verif.Props
