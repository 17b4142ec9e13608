import Verif.Spec.Ask
import Verif.Lemmas.Prompt
import Verif.Lemmas.Io
/-! Lemmas about questions. -/
namespace Verif.Ask
open Verif.Cmdline (Arg A Entry Env Prim Cmd prim table tableLookup isFlagGroup parseFlagGroup callParse)
open Verif.Options (Options Sys Call Given last NextValue)
open Verif.Prompt (Locale Console ynprompt lines affirmative)

/-- Is `parser->depth_expr` set? -/
def isDepth (c : Call) : Bool := c.is ["-d", "-delete", "-rm"] || (c.is ["-depth"] && c.2.length == 1)

theorem remember_cases {c : Call} {e : Entry} (h : table[c.1]? = some e) (p : Exprs) :
    (c.is ["-ok", "-okdir"] = true ∧ p.stdin.isSome = true ∧ ∃ m, remember c p = .err m) ∨
    (¬ (c.is ["-ok", "-okdir"] = true ∧ p.stdin.isSome = true) ∧ ∃ p', remember c p = .ok p' ∧
      p'.stdin.isSome = (p.stdin.isSome || c.is ["-ok", "-okdir"]) ∧ p'.depth.isSome = (p.depth.isSome || isDepth c) ∧
      p'.prune.isSome = (p.prune.isSome || c.is ["-prune"]) ∧ p'.mount.isSome = (p.mount.isSome || c.is ["-mount"]) ∧
      p'.xdev.isSome = (p.xdev.isSome || c.is ["-x", "-xdev"])) := by
  have hi : ∀ L : List String, c.is L = (L.map A).contains e.arg := fun L => by unfold Call.is; rw [h]
  unfold isDepth
  simp only [hi]
  unfold remember
  rw [h]
  dsimp only
  generalize e.arg = a
  clear hi h
  by_cases h1 : a = A "-ok" ∨ a = A "-okdir"
  · rw [if_pos h1]
    unfold consumeStdin
    rcases h1 with rfl | rfl <;> (obtain ⟨d, pr, m, x, s⟩ := p; cases s <;> simp (decide := true))
  · rw [if_neg h1]
    refine .inr ?_
    by_cases h2 : a = A "-delete" ∨ a = A "-rm" ∨ a = A "-d"
    · rw [if_pos h2]
      rcases h2 with rfl | rfl | rfl <;> simp (decide := true)
    · rw [if_neg h2]
      by_cases h3 : a = A "-depth"
      · subst h3
        rw [if_pos rfl]
        by_cases h1 : c.2.length = 1
        · rw [if_pos h1]; simp (decide := true) [h1]
        · rw [if_neg h1]; simp (decide := true) [h1]
      · rw [if_neg h3]
        by_cases h4 : a = A "-prune"
        · subst h4; rw [if_pos rfl]; simp (decide := true)
        · rw [if_neg h4]
          by_cases h5 : a = A "-mount"
          · subst h5; rw [if_pos rfl]; simp (decide := true)
          · rw [if_neg h5]
            by_cases h6 : a = A "-x" ∨ a = A "-xdev"
            · rw [if_pos h6]
              rcases h6 with rfl | rfl <;> simp (decide := true)
            · rw [if_neg h6]
              simp only [not_or] at h1 h2 h6
              simp [h1.1, h1.2, h2.1, h2.2.1, h2.2.2, h3, h4, h5, h6.1, h6.2]

theorem rememberAll_cases : ∀ (calls : List Call) (p : Exprs), (∀ c ∈ calls, table[c.1]? ≠ none) →
    (2 ≤ calls.countP (fun c => c.is ["-ok", "-okdir"]) + p.stdin.isSome.toNat ∧ 1 ≤ calls.countP (fun c => c.is ["-ok", "-okdir"]) ∧ ∃ m, rememberAll calls p = .err m) ∨
    ((calls.countP (fun c => c.is ["-ok", "-okdir"]) + p.stdin.isSome.toNat ≤ 1 ∨ calls.countP (fun c => c.is ["-ok", "-okdir"]) = 0) ∧ ∃ p', rememberAll calls p = .ok p' ∧
      p'.stdin.isSome = (p.stdin.isSome || calls.any (fun c => c.is ["-ok", "-okdir"])) ∧ p'.depth.isSome = (p.depth.isSome || calls.any isDepth) ∧
      p'.prune.isSome = (p.prune.isSome || calls.any fun c => c.is ["-prune"]) ∧ p'.mount.isSome = (p.mount.isSome || calls.any fun c => c.is ["-mount"]) ∧
      p'.xdev.isSome = (p.xdev.isSome || calls.any fun c => c.is ["-x", "-xdev"])) := by
  intro calls
  induction calls with
  | nil => intro p _; exact .inr ⟨.inr rfl, p, rfl, by simp⟩
  | cons c cs ih =>
    intro p hm
    obtain ⟨e, he⟩ := Option.ne_none_iff_exists'.1 (hm c (by simp))
    rw [List.countP_cons]
    unfold rememberAll
    rcases remember_cases he p with ⟨h1, h2, m, h3⟩ | ⟨h1, p1, h3, h4, h5, h6, h7, h8⟩
    · rw [h3]
      exact .inl ⟨by rw [h2, if_pos h1]; simp, by rw [if_pos h1]; simp, m, rfl⟩
    · rw [h3]
      show _ ∨ _ ∧ ∃ p', rememberAll cs p1 = _ ∧ _
      have hs : p1.stdin.isSome.toNat = p.stdin.isSome.toNat + (if c.is ["-ok", "-okdir"] = true then 1 else 0) := by
        rw [h4]
        revert h1
        cases p.stdin.isSome <;> cases c.is ["-ok", "-okdir"] <;> simp
      rcases ih p1 (fun c hc => hm c (by simp [hc])) with ⟨i1, i2, m, i3⟩ | ⟨i1, p', i3, i4, i5, i6, i7, i8⟩
      · rw [hs] at i1
        refine .inl ⟨by omega, by omega, m, i3⟩
      · rw [hs] at i1
        refine .inr ⟨?_, p', i3, ?_, ?_, ?_, ?_, ?_⟩
        · rcases i1 with i1 | i1
          · exact .inl (by omega)
          · by_cases hc : c.is ["-ok", "-okdir"] = true
            · have : p.stdin.isSome = false := by
                cases h : p.stdin.isSome with
                | false => rfl
                | true => exact absurd ⟨hc, h⟩ h1
              rw [if_pos hc, this, i1]
              exact .inl (by simp)
            · rw [if_neg hc, i1]; exact .inr rfl
        all_goals simp only [List.any_cons, ← Bool.or_assoc, i4, i5, i6, i7, i8, h4, h5, h6, h7, h8]

theorem any_given {L : List String} {calls : List Call} : (calls.any fun c => c.is L) = true ↔ Given L calls := by
  unfold Given; rw [List.any_eq_true]

theorem any_depth {calls : List Call} : calls.any isDepth = true ↔
    Given ["-d", "-delete", "-rm"] calls ∨ ∃ c ∈ calls, c.is ["-depth"] = true ∧ c.2.length = 1 := by
  unfold Given isDepth
  rw [List.any_eq_true]
  constructor
  · rintro ⟨c, hc, h⟩
    rcases Bool.or_eq_true _ _ ▸ h with h | h
    · exact .inl ⟨c, hc, h⟩
    · rw [Bool.and_eq_true, beq_iff_eq] at h
      exact .inr ⟨c, hc, h⟩
  · rintro (⟨c, hc, h⟩ | ⟨c, hc, h, h'⟩)
    · exact ⟨c, hc, by rw [h]; rfl⟩
    · exact ⟨c, hc, by rw [h, h']; simp⟩

theorem print_ok {t : Console} (ht : ∀ n, t.broken n = false) (x : List UInt8) : (t.print x).2 = { t with calls := t.calls + 1, shown := t.shown ++ x } := by
  unfold Console.print; rw [ht]; rfl

theorem print_input (t : Console) (x : List UInt8) : (t.print x).2.input = t.input ∧ (t.print x).2.broken = t.broken := by
  unfold Console.print; split <;> exact ⟨rfl, rfl⟩

theorem ynprompt_saysYes (l : Locale) (t : Console) : 0 < (ynprompt l t).1 ↔ SaysYes l t := (Prompt.ynprompt_line l t).1

/-! ## Misspelled arguments -/

theorem fuzzyLoop_first (arg : Arg) : ∀ (es before : List Entry) (b d : Nat), (∃ e, before[b]? = some e ∧ Typo.typoDistance arg e.arg = d) →
    (∀ j e, before[j]? = some e → d ≤ Typo.typoDistance arg e.arg ∧ (j < b → d < Typo.typoDistance arg e.arg)) →
    ∃ b' d', fuzzyLoop arg es before.length (some (b, d)) = some (b', d') ∧ (∃ e, (before ++ es)[b']? = some e ∧ Typo.typoDistance arg e.arg = d') ∧
      ∀ j e, (before ++ es)[j]? = some e → d' ≤ Typo.typoDistance arg e.arg ∧ (j < b' → d' < Typo.typoDistance arg e.arg) := by
  intro es
  induction es with
  | nil => intro before b d h1 h2; exact ⟨b, d, rfl, by rwa [List.append_nil], by rwa [List.append_nil]⟩
  | cons x es ih =>
    intro before b d h1 h2
    obtain ⟨e, h1, h1'⟩ := h1
    have hb := (List.getElem?_eq_some_iff.1 h1).1
    have hl : before.length + 1 = (before ++ [x]).length := by simp
    rw [show before ++ x :: es = (before ++ [x]) ++ es by simp]
    unfold fuzzyLoop
    dsimp only
    have hsplit : ∀ j e, (before ++ [x])[j]? = some e → (before[j]? = some e ∧ j < before.length) ∨ (j = before.length ∧ e = x) := by
      intro j e hj
      rcases Nat.lt_trichotomy j before.length with hlt | heq | hgt
      · rw [List.getElem?_append_left hlt] at hj; exact .inl ⟨hj, hlt⟩
      · subst heq
        rw [List.getElem?_append_right (Nat.le_refl _), Nat.sub_self] at hj
        exact .inr ⟨rfl, (Option.some.inj hj).symm⟩
      · rw [List.getElem?_eq_none (by simp; omega)] at hj; cases hj
    by_cases hlt : Typo.typoDistance arg x.arg < d
    · rw [if_pos hlt, hl]
      refine ih _ _ _ ⟨x, by simp, rfl⟩ fun j e hj => ?_
      rcases hsplit j e hj with ⟨hj, hjl⟩ | ⟨rfl, rfl⟩
      · have := (h2 j e hj).1
        exact ⟨by omega, fun _ => by omega⟩
      · exact ⟨Nat.le_refl _, fun h => absurd h (Nat.lt_irrefl _)⟩
    · rw [if_neg hlt, hl]
      refine ih _ _ _ ⟨e, by rw [List.getElem?_append_left hb]; exact h1, h1'⟩ fun j e hj => ?_
      rcases hsplit j e hj with ⟨hj, hjl⟩ | ⟨rfl, rfl⟩
      · exact h2 j e hj
      · exact ⟨by omega, fun h => by omega⟩

theorem fuzzy_first (arg : Arg) : ∃ i e, tableLookupFuzzy arg = some i ∧ table[i]? = some e ∧
    ∀ j e', table[j]? = some e' → Typo.typoDistance arg e.arg ≤ Typo.typoDistance arg e'.arg ∧ (j < i → Typo.typoDistance arg e.arg < Typo.typoDistance arg e'.arg) := by
  unfold tableLookupFuzzy
  cases ht : table with
  | nil => exact absurd (congrArg List.length ht) (by decide)
  | cons x es =>
    obtain ⟨i, d, h1, ⟨e, h2, h3⟩, h4⟩ := fuzzyLoop_first arg es [x] 0 (Typo.typoDistance arg x.arg) ⟨x, rfl, rfl⟩ (by
      intro j e hj
      cases j with
      | zero => cases hj; exact ⟨Nat.le_refl _, fun h => absurd h (Nat.lt_irrefl _)⟩
      | succ j => simp at hj)
    subst h3
    refine ⟨i, e, ?_, h2, h4⟩
    unfold fuzzyLoop
    dsimp only
    rw [show (0 : Nat) + 1 = [x].length from rfl, h1]
    rfl

theorem lookup_first {i : Nat} {e : Entry} (h : table[i]? = some e) (hf : ∀ j e', table[j]? = some e' → j < i → e'.arg ≠ e.arg) : tableLookup e.arg = some i := by
  have hd : (List.range 121).all (fun i => match table[i]? with
    | none => false
    | some e => decide (tableLookup e.arg = some i) || (List.range i).any fun j => match table[j]? with
      | none => false
      | some e' => decide (e'.arg = e.arg)) = true := by decide +kernel
  have hl : table.length = 121 := by decide
  have hi : i < 121 := by rw [← hl]; exact (List.getElem?_eq_some_iff.1 h).1
  have := List.all_eq_true.1 hd i (List.mem_range.2 hi)
  rw [h] at this
  dsimp only at this
  rcases Bool.or_eq_true _ _ ▸ this with h1 | h1
  · exact of_decide_eq_true h1
  · obtain ⟨j, hj, h1⟩ := List.any_eq_true.1 h1
    cases hj' : table[j]? with
    | none => rw [hj'] at h1; cases h1
    | some e' => rw [hj'] at h1; exact absurd (of_decide_eq_true h1) (hf j e' hj' (List.mem_range.1 hj))

end Verif.Ask
