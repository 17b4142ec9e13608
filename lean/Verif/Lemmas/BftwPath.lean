import Verif.Lemmas.BftwQueue
import Verif.Spec.Bftw
/-! # Building paths -/
namespace Verif.Bftw

/-- All directories on the way to a file have names. -/
def Env.Chain (e : Env) : Pos → Prop
  | [] => True
  | [_] => True
  | _ :: p => e.name p ≠ [] ∧ e.Chain p

theorem Env.Chain.tail {e : Env} {i : Nat} {p : Pos} (h : e.Chain (i :: p)) : e.Chain p := by
  cases p with
  | nil => trivial
  | cons j p => exact h.2

theorem fullPath_cons (e : Env) (i j : Nat) (p : Pos) : e.fullPath (i :: j :: p) = join (e.fullPath (j :: p)) (e.name (i :: j :: p)) := by
  rw [Env.fullPath]; simp

theorem fullPath_last (e : Env) {p : Pos} (hp : p ≠ []) (h : e.name p ≠ []) : (e.fullPath p).getLast? = (e.name p).getLast? := by
  cases p with
  | nil => exact absurd rfl hp
  | cons i p =>
    cases p with
    | nil => rfl
    | cons j p =>
      rw [fullPath_cons]
      unfold join
      split
      · rw [List.getLast?_append]
        cases hh : (e.name (i :: j :: p)).getLast? with
        | none => exact absurd (List.getLast?_eq_none_iff.1 hh) h
        | some x => rfl
      · rw [List.getLast?_append]
        cases hh : (e.name (i :: j :: p)).getLast? with
        | none => exact absurd (List.getLast?_eq_none_iff.1 hh) h
        | some x => rw [List.getLast?_cons]; simp [hh]

/-- What is between the path of a directory and the name of an entry. -/
def sep (e : Env) (p : Pos) : Bytes := if p = [] then [] else if (e.fullPath p).getLast? = some 47 then [] else [47]

theorem fullPath_sep (e : Env) (i : Nat) (p : Pos) : e.fullPath (i :: p) = e.fullPath p ++ (sep e p ++ e.name (i :: p)) := by
  cases p with
  | nil => rfl
  | cons j p =>
    rw [fullPath_cons]
    unfold join sep
    rw [if_neg (show ¬ (j :: p = []) by simp)]
    by_cases h : (e.fullPath (j :: p)).getLast? = some 47
    · rw [if_pos h, if_pos h]; rfl
    · rw [if_neg h, if_neg h]; rfl

theorem fullPath_len {e : Env} : ∀ {p : Pos}, e.Chain p → (e.fullPath p).length = e.nameoff p + (e.name p).length ∨ p = []
  | [], _ => Or.inr rfl
  | [i], _ => Or.inl (by simp [Env.fullPath, Env.nameoff])
  | i :: j :: p, h => by
    left
    have ih := (fullPath_len h.tail).resolve_right (by simp)
    have hl := fullPath_last e (p := j :: p) (by simp) h.1
    rw [fullPath_sep, Env.nameoff]
    unfold childOff sep
    rw [if_neg (by simp), hl]
    simp only [List.length_append, ih]
    split <;> simp <;> omega
    all_goals simp

theorem nameoff_sep {e : Env} {i : Nat} {p : Pos} (h : e.Chain (i :: p)) : e.nameoff (i :: p) = (e.fullPath p).length + (sep e p).length := by
  have h1 := (fullPath_len h).resolve_right (by simp)
  rw [fullPath_sep] at h1
  simp only [List.length_append] at h1
  omega

theorem fullPath_prefix (e : Env) : ∀ {p q : Pos}, q <:+ p → e.fullPath q <+: e.fullPath p
  | [], q, h => by
    have : q = [] := List.suffix_nil.1 h
    rw [this]; exact List.prefix_refl _
  | i :: p, q, h => by
    rcases List.suffix_cons_iff.1 h with h | h
    · rw [h]; exact List.prefix_refl _
    · rw [fullPath_sep]
      exact (fullPath_prefix e h).trans (List.prefix_append _ _)

theorem splice_length {buf : Bytes} {off : Nat} {b : Bytes} (h : off + b.length ≤ buf.length) : (splice buf off b).length = buf.length := by
  simp [splice]; omega

theorem splice_drop {buf : Bytes} {off : Nat} {b : Bytes} (h : off + b.length ≤ buf.length) :
    (splice buf off b).drop off = b ++ buf.drop (off + b.length) := by
  unfold splice
  rw [List.append_assoc, List.drop_append]
  simp
  have : min off buf.length = off := by omega
  simp [this]

theorem splice_take {buf : Bytes} {off : Nat} {b : Bytes} {n : Nat} (h : n ≤ off) (h2 : off ≤ buf.length) : (splice buf off b).take n = buf.take n := by
  unfold splice
  rw [List.append_assoc, List.take_append_of_le_length (by simp; omega), List.take_take]
  rw [Nat.min_eq_left h]

theorem prefix_iff_take {a b : Bytes} : a <+: b ↔ b.take a.length = a := by
  constructor
  · rintro ⟨c, rfl⟩; simp
  · intro h; rw [← h]; exact List.take_prefix _ _

/-- What `bftw_prepend_path()` changes. -/
theorem prepend_spec {e : Env} {i : Nat} {p : Pos} {buf : Bytes} (hc : e.Chain (i :: p)) (hl : (e.fullPath (i :: p)).length ≤ buf.length) :
    (prependPath buf (e.nameoff (i :: p)) (e.name (i :: p))).length = buf.length ∧
    (prependPath buf (e.nameoff (i :: p)) (e.name (i :: p))).drop (e.fullPath p).length = sep e p ++ (e.name (i :: p) ++ buf.drop (e.fullPath (i :: p)).length) ∧
    ∀ q, q ≠ [] → q <:+ p → e.fullPath q <+: buf → e.fullPath q <+: prependPath buf (e.nameoff (i :: p)) (e.name (i :: p)) := by
  have hoff := nameoff_sep hc
  have hlen := (fullPath_len hc).resolve_right (by simp)
  cases p with
  | nil =>
    have h0 : e.nameoff [i] = 0 := rfl
    have hf : (e.fullPath []).length = 0 := rfl
    have hs : sep e [] = [] := rfl
    rw [h0] at hlen ⊢
    rw [hf, hs]
    unfold prependPath
    rw [if_neg (by omega)]
    refine ⟨splice_length (by omega), ?_, ?_⟩
    · rw [splice_drop (by omega), hlen]; rfl
    · intro q hq hqs
      exact absurd (List.suffix_nil.1 hqs) hq
  | cons j p =>
    have hne : e.name (j :: p) ≠ [] := hc.1
    have hpos : 0 < (e.name (j :: p)).length := List.length_pos_iff.2 hne
    have hplen := (fullPath_len hc.tail).resolve_right (by simp)
    by_cases hsl : (e.fullPath (j :: p)).getLast? = some 47
    · have hs : sep e (j :: p) = [] := by unfold sep; rw [if_neg (by simp), if_pos hsl]
      rw [hs] at hoff ⊢
      simp only [List.length_nil, Nat.add_zero] at hoff
      rw [hoff] at hlen ⊢
      unfold prependPath
      rw [if_pos (by omega)]
      have hl1 : (splice buf ((e.fullPath (j :: p)).length - 1) [47]).length = buf.length := splice_length (by simp; omega)
      have hd1 : (splice buf ((e.fullPath (j :: p)).length - 1) [47]).drop (e.fullPath (j :: p)).length = buf.drop (e.fullPath (j :: p)).length := by
        have : (e.fullPath (j :: p)).length = ((e.fullPath (j :: p)).length - 1) + 1 := by omega
        rw [this, ← List.drop_drop, Nat.add_sub_cancel, splice_drop (by simp; omega)]
        simp
      refine ⟨by rw [splice_length (by rw [hl1]; omega), hl1], ?_, ?_⟩
      · rw [splice_drop (by rw [hl1]; omega), hlen, ← List.drop_drop, hd1, List.drop_drop]; rfl
      · intro q hq hqs hpre
        have hql : (e.fullPath q).length ≤ (e.fullPath (j :: p)).length := (fullPath_prefix e hqs).length_le
        rw [prefix_iff_take] at hpre ⊢
        rw [splice_take hql (by rw [hl1]; omega)]
        rcases List.suffix_cons_iff.1 hqs with h | h
        · subst h
          have hn : (e.fullPath (j :: p)).length = ((e.fullPath (j :: p)).length - 1) + 1 := by omega
          have e1 : e.fullPath (j :: p) = (e.fullPath (j :: p)).take ((e.fullPath (j :: p)).length - 1) ++ [47] := by
            rw [← List.dropLast_eq_take]
            obtain ⟨ys, hys⟩ := List.getLast?_eq_some_iff.1 hsl
            rw [hys]; simp
          have e2 : buf.take ((e.fullPath (j :: p)).length - 1) = (e.fullPath (j :: p)).take ((e.fullPath (j :: p)).length - 1) := by
            have := congrArg (List.take ((e.fullPath (j :: p)).length - 1)) hpre
            rw [List.take_take, Nat.min_eq_left (by omega)] at this
            exact this
          unfold splice
          rw [e2, ← e1]
          exact List.take_left
        · have hlt : (e.fullPath q).length ≤ (e.fullPath (j :: p)).length - 1 := by
            have := (fullPath_prefix e h).length_le
            have h2 := fullPath_sep e j p
            have h3 := congrArg List.length h2
            simp only [List.length_append] at h3
            omega
          rw [splice_take hlt (by omega)]
          exact hpre
    · have hs : sep e (j :: p) = [47] := by unfold sep; rw [if_neg (by simp), if_neg hsl]
      rw [hs] at hoff ⊢
      simp only [List.length_cons, List.length_nil, Nat.zero_add] at hoff
      rw [hoff] at hlen ⊢
      unfold prependPath
      rw [if_pos (by omega), Nat.add_sub_cancel]
      have hl1 : (splice buf (e.fullPath (j :: p)).length [47]).length = buf.length := splice_length (by simp; omega)
      refine ⟨by rw [splice_length (by rw [hl1]; omega), hl1], ?_, ?_⟩
      · have hd1 := splice_drop (buf := buf) (off := (e.fullPath (j :: p)).length) (b := [47]) (by simp; omega)
        have hd2 := splice_drop (buf := splice buf (e.fullPath (j :: p)).length [47]) (off := (e.fullPath (j :: p)).length + 1) (b := e.name (i :: j :: p)) (by rw [hl1]; omega)
        have ht : ((splice (splice buf (e.fullPath (j :: p)).length [47]) ((e.fullPath (j :: p)).length + 1) (e.name (i :: j :: p))).drop (e.fullPath (j :: p)).length).take 1 = [47] := by
          rw [List.take_drop, splice_take (Nat.le_refl _) (by rw [hl1]; omega), ← List.take_drop, hd1]
          simp
        rw [← List.take_append_drop 1 (List.drop _ _), ht, List.drop_drop, hd2, hlen]
        congr 2
        have := congrArg (List.drop (1 + (e.name (i :: j :: p)).length)) hd1
        rw [List.drop_drop] at this
        rw [show (e.fullPath (j :: p)).length + 1 + (e.name (i :: j :: p)).length = (e.fullPath (j :: p)).length + (1 + (e.name (i :: j :: p)).length) by omega, this]
        rw [Nat.add_comm 1, List.singleton_append, List.drop_succ_cons, List.length_singleton, List.drop_drop]
        congr 1; omega
      · intro q hq hqs hpre
        have hql : (e.fullPath q).length ≤ (e.fullPath (j :: p)).length := (fullPath_prefix e hqs).length_le
        rw [prefix_iff_take] at hpre ⊢
        rw [splice_take (by omega) (by rw [hl1]; omega), splice_take hql (by omega)]
        exact hpre

theorem climb_suffix : ∀ (p : Pos) (n : Nat), climb p n <:+ p
  | [], _ => List.suffix_refl _
  | i :: p, n => by
    rw [climb]
    split
    · exact (climb_suffix p n).trans (List.suffix_cons _ _)
    · exact List.suffix_refl _

theorem writeUp_spec {e : Env} : ∀ (f anc : Pos) (buf : Bytes), e.Chain f →
    (∀ q, q ≠ [] → q <:+ f → q <:+ anc → e.fullPath q <+: buf) → (e.fullPath f).length ≤ buf.length →
    e.writeUp f anc buf = e.fullPath f ++ buf.drop (e.fullPath f).length
  | [], anc, buf, _, _, _ => by rw [Env.writeUp]; rfl
  | i :: p, anc, buf, hc, hq, hl => by
    rw [Env.writeUp]
    split
    · rename_i h
      have := hq (i :: p) (by simp) (List.suffix_refl _) (by rw [h]; exact List.suffix_refl _)
      obtain ⟨t, ht⟩ := this
      rw [← ht]; simp
    · rename_i h
      obtain ⟨h1, h2, h3⟩ := prepend_spec hc hl
      rw [writeUp_spec p _ _ hc.tail ?_ ?_]
      · rw [h2, fullPath_sep]; simp [List.append_assoc]
      · intro q hqn hqp hqa
        refine h3 q hqn hqp (hq q hqn (hqp.trans (List.suffix_cons _ _)) ?_)
        split at hqa
        · exact hqa.trans (List.tail_suffix _)
        · exact hqa
      · rw [h1]
        exact Nat.le_trans (fullPath_prefix e (List.suffix_cons i p)).length_le hl

/-- `bftw_build_path()` builds the path. -/
theorem buildPath_spec {e : Env} {s : State} {name : Option Nat} {t : Pos}
    (ht : t = target s.file name) (hne : t ≠ [])
    (hc : e.Chain t) (hp : s.prev = [] ∨ s.file ≠ []) (hpre : e.fullPath s.prev <+: s.path) :
    s.buildPath e name = { s with path := e.fullPath t, prev := s.file } := by
  have hlen := (fullPath_len hc).resolve_right hne
  have hft : s.file <:+ t := by
    subst ht; cases name with
    | none => exact List.suffix_refl _
    | some j => exact List.suffix_cons _ _
  have hrl : (resize (e.junk s.trace.length) s.path (e.fullPath t).length).length = (e.fullPath t).length := by
    simp [resize]; omega
  have hrp : ∀ q, q ≠ [] → q <:+ s.file → q <:+ climb s.prev s.file.length → e.fullPath q <+: resize (e.junk s.trace.length) s.path (e.fullPath t).length := by
    intro q hq hqf hqa
    have hqp : e.fullPath q <+: s.path := (fullPath_prefix e (hqa.trans (climb_suffix _ _))).trans hpre
    have hql : (e.fullPath q).length ≤ (e.fullPath t).length := (fullPath_prefix e (hqf.trans hft)).length_le
    rw [prefix_iff_take] at hqp ⊢
    unfold resize
    have : (e.fullPath q).length ≤ s.path.length := by
      have := congrArg List.length hqp
      simp at this; omega
    rw [List.take_append_of_le_length (by simp; omega), List.take_take, Nat.min_eq_left hql, hqp]
  have hbad : (s.bad || !decide (s.prev = [] ∨ s.file ≠ [])) = s.bad := by simp [hp]
  unfold State.buildPath State.need
  rw [hbad]
  dsimp only
  rw [← ht, ← hlen]
  cases name with
  | none =>
    subst ht
    simp only [target] at *
    rw [writeUp_spec _ _ _ hc hrp (by rw [hrl]; exact Nat.le_refl _)]
    rw [List.drop_eq_nil_of_le (by rw [hrl]; exact Nat.le_refl _), List.append_nil]
  | some j =>
    subst ht
    simp only [target] at *
    obtain ⟨h1, h2, h3⟩ := prepend_spec hc (buf := resize (e.junk s.trace.length) s.path (e.fullPath (j :: s.file)).length) (by rw [hrl]; exact Nat.le_refl _)
    have hw := writeUp_spec s.file (climb s.prev s.file.length) (prependPath (resize (e.junk s.trace.length) s.path (e.fullPath (j :: s.file)).length) (e.nameoff (j :: s.file)) (e.name (j :: s.file))) hc.tail
      (fun q hq hqf hqa => h3 q hq hqf (hrp q hq hqf hqa)) (by rw [h1, hrl]; exact (fullPath_prefix e (List.suffix_cons _ _)).length_le)
    rw [hw, h2, List.drop_eq_nil_of_le (by rw [hrl]; exact Nat.le_refl _), List.append_nil, ← fullPath_sep]

end Verif.Bftw
