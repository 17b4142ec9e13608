import Verif.Spec.Ls
import Verif.Lemmas.Directive
import Verif.Props.Strmode
/-! # Lemmas about `-ls` -/
namespace Verif.Ls
open Verif.Directive
open Verif.Cfmt (numeral uint)

theorem uint_width (k n : Nat) : uint { width := k } n = List.replicate (k - (numeral 10 n).length) 32 ++ numeral 10 n := rfl

theorem right_col (k n : Nat) : RightCol k (uint { width := k } n) n :=
  ⟨numeral 10 n, .inl ⟨by omega, by simpa using numeral_dec n⟩, uint_width k n⟩

theorem uint_left (k n : Nat) : uint { left := true, width := k } n = numeral 10 n ++ List.replicate (k - (numeral 10 n).length) 32 := rfl

/-- The column after a file: it is as wide as it was, or as wide as the text. -/
theorem owner_ok (s : Sys) (name : Nat → Option Bytes) (id width : Nat) : ∃ n v, OwnerWidth s name id n ∧
    printOwner s.strwidth (name id) id width = (ascii " " ++ v, max width n) ∧ LeftCol s name id (max width n) v := by
  cases h : name id with
  | some b =>
    have e : (if width < s.strwidth b then s.strwidth b else width) = max width (s.strwidth b) := by
      split <;> omega
    refine ⟨s.strwidth b, b ++ List.replicate (max width (s.strwidth b) - s.strwidth b) 32, .name b h, ?_, ?_⟩
    · unfold printOwner
      dsimp only
      rw [e]
      congr 1
      show [32] ++ b ++ (List.replicate _ 32 ++ []) = _
      rw [List.append_nil, List.append_assoc]
      simp [ascii]
    · exact ⟨b, _, _, .name b h, .name b h, fun c hc => (List.mem_replicate.1 hc).2, by simp; omega, rfl⟩
  | none =>
    have hl : ([32] ++ uint { left := true, width := width } id : Bytes).length - 1 = max width (numeral 10 id).length := by
      rw [uint_left]; simp; omega
    refine ⟨(numeral 10 id).length, numeral 10 id ++ List.replicate (width - (numeral 10 id).length) 32, .number _ h (numeral_dec id), ?_, ?_⟩
    · unfold printOwner
      dsimp only
      rw [hl, uint_left]
      congr 1
      split <;> omega
    · exact ⟨_, _, _, .number _ h (numeral_dec id), .number _ h (numeral_dec id), fun c hc => (List.mem_replicate.1 hc).2, by simp; omega, rfl⟩

theorem time_ok (s : Sys) (t : Int) (hn : -2 ^ 62 ≤ s.now ∧ s.now < 2 ^ 62) (hs : ∀ c tm, (s.w.strftime c tm).length < 50) :
    ∃ v, printTime s.w t s.now = .ok (ascii " " ++ v) ∧ LsTime s t v := by
  unfold printTime
  cases h : s.w.localtime t with
  | error e => exact ⟨plain t, rfl, .number e _ h (int_plain t)⟩
  | ok tm =>
    have e1 : i64 (s.now - 6 * 30 * 24 * 60 * 60) = .ok (s.now - 180 * 86400) := by
      rw [i64_ok (by unfold LLONG_MIN LLONG_MAX; omega)]
      congr 1
    have e2 : i64 (s.now + 24 * 60 * 60) = .ok (s.now + 86400) := by
      rw [i64_ok (by unfold LLONG_MIN LLONG_MAX; omega)]
      congr 1
    dsimp only
    rw [e1, e2]
    simp only [Out.bind_ok]
    have a := hs 98 tm
    have b := hs 101 tm
    have c := hs 89 tm
    have d := hs 72 tm
    have e := hs 77 tm
    have hl : (timeText s.w t (s.now - 180 * 86400) (s.now + 86400) tm).length < 256 := by
      unfold timeText oldText recentText
      split <;> simp <;> omega
    rw [if_pos hl]
    refine ⟨_, rfl, ?_⟩
    unfold timeText
    by_cases hc : t ≤ s.now - 180 * 86400 ∨ s.now + 86400 ≤ t
    · rw [if_pos hc]
      exact .old tm _ _ _ h hc rfl rfl rfl
    · rw [if_neg hc]
      exact .recent tm _ _ _ _ h (by omega) (by omega) rfl rfl rfl rfl

theorem size_ok (s : Sys) (it : Item) (sb : Sb) (h0 : 0 ≤ sb.size) (h1 : sb.size < 2 ^ 63) : ∃ v, lsSize s it sb = ascii " " ++ v ∧ LsSize s it.file.type sb v := by
  unfold lsSize
  by_cases h : it.file.type = .blk ∨ it.file.type = .chr
  · rw [if_pos h]
    exact ⟨_, by simp only [List.append_assoc]; rfl, .device _ _ h (aligned 3 _) (aligned 3 _)⟩
  · rw [if_neg h]
    refine ⟨_, rfl, .size _ h ?_⟩
    have := right_col 8 (Num.toU64 sb.size)
    rwa [show ((Num.toU64 sb.size : Nat) : Int) = sb.size by unfold Num.toU64; omega] at this

theorem blocks_ok (s : Sys) (sb : Sb) (h0 : 0 ≤ sb.blocks) (h : 512 * sb.blocks < 2 ^ 63) : LsBlocks s sb (lsBlocks s.posix sb) := by
  unfold LsBlocks lsBlocks blocksIn Num.toU64
  cases s.posix
  · simp only [Bool.false_eq_true, if_false]
    omega
  · simp only [if_true]
    omega

end Verif.Ls
