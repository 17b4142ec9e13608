import Verif.Lemmas.Memo
/-!
# Files are unique (C46), and lookups are remembered (C47)
-/
namespace Verif.Props
open Verif Verif.Memo Verif.Trie
open Verif.Spec.Memo (Fits Valid verdict seenIn uncached Note Known noteOf resultOf answer learn answers runOps)

/-! ## -unique -/

theorem seen_empty (K : Nat) : Seen K (empty : Trie Bool) [] where
  holds := ⟨wf_empty K, by simp [empty], fun _ => rfl⟩
  yes := fun st h => by cases h
  no := fun _ _ => rfl

/-- What happens to every file of a search: it depends only on the files before it, as the specification says. -/
theorem C46_search (K : Nat) (vs : List Visit) (hf : ∀ v ∈ vs, Fits v) :
    ∃ t rs, uniques K empty vs = .ok (rs, t) ∧ rs.length = vs.length ∧ ∀ i (v : Visit), vs[i]? = some v → rs[i]? = some (verdict (vs.take i) v) := by
  obtain ⟨t, u1, _⟩ := uniques_ok vs [] hf (seen_empty K)
  refine ⟨t, _, u1, by simp, ?_⟩
  intro i v hv
  obtain ⟨hi, e⟩ := List.getElem?_eq_some_iff.1 hv
  rw [List.getElem?_map, List.getElem?_range hi]
  simp [hv]

/-- No file is evaluated twice, and the contents of a file that was seen before are skipped. -/
theorem C46_once (K : Nat) (vs : List Visit) (hf : ∀ v ∈ vs, Fits v) {t : Trie Bool} {rs : List (Bool × Action)} (hr : uniques K empty vs = .ok (rs, t))
    {i j : Nat} {v w : Visit} {st : Stat} {a : Action} (hv : vs[i]? = some v) (hw : vs[j]? = some w) (hi : v.stat = some st) (hj : w.stat = some st) (hri : rs[i]? = some (true, a)) (hij : i < j) :
    rs[j]? = some (false, .prune) := by
  obtain ⟨t', rs', r1, r2, r3⟩ := C46_search K vs hf
  rw [r1] at hr
  cases hr
  rw [r3 j w hw]
  rw [r3 i v hv] at hri
  have hmem : v.memory = true := by
    injection hri with hri
    rw [verdict, hi] at hri
    dsimp only at hri
    split at hri
    · cases hri
    · exact (Prod.mk.inj hri).1
  have : st ∈ seenIn (vs.take j) := by
    refine List.mem_filterMap.2 ⟨v, ?_, by rw [hmem]; exact hi⟩
    exact List.mem_of_getElem? (i := i) (by rw [List.getElem?_take_of_lt hij]; exact hv)
  rw [verdict, hj]
  dsimp only
  rw [if_pos this]

/-- Every file that can be examined is evaluated at its first visit, unless memory runs out then. -/
theorem C46_first (K : Nat) (vs : List Visit) (hf : ∀ v ∈ vs, Fits v) {t : Trie Bool} {rs : List (Bool × Action)} (hr : uniques K empty vs = .ok (rs, t))
    {i : Nat} {v : Visit} {st : Stat} (hv : vs[i]? = some v) (hs : v.stat = some st) (hm : v.memory = true) (hfirst : ∀ j (w : Visit), j < i → vs[j]? = some w → w.stat ≠ some st) :
    rs[i]? = some (true, .continue) := by
  obtain ⟨t', rs', r1, r2, r3⟩ := C46_search K vs hf
  rw [r1] at hr
  cases hr
  rw [r3 i v hv, verdict, hs]
  dsimp only
  rw [if_neg, hm]
  intro hin
  obtain ⟨w, hw, e⟩ := List.mem_filterMap.1 hin
  obtain ⟨j, hj⟩ := List.mem_iff_getElem?.1 hw
  have hji : j < i := by
    have h1 := (List.getElem?_eq_some_iff.1 hj).1
    rw [List.length_take] at h1
    omega
  rw [List.getElem?_take_of_lt hji] at hj
  refine hfirst j w hji hj ?_
  cases hm : w.memory with
  | false => rw [hm] at e; cases e
  | true => rw [hm] at e; exact e

/-! ## Lookups -/

/-- Whatever is looked up, in whatever order, and however the database changes: the cache answers as the specification says. -/
theorem C47_history {E : Type} (K : Nat) (ops : List (Spec.Memo.Op E)) (hv : ∀ op ∈ ops, Valid op) :
    ∃ c, runOps K newCache ops = .ok (answers (fun _ => .none) ops, c) :=
  runOps_ok ops hv (cinv_empty K)

theorem answers_append {E : Type} (k : Known E) (a b : List (Spec.Memo.Op E)) : answers k (a ++ b) = answers k a ++ answers (a.foldl learn k) b := by
  induction a generalizing k with
  | nil => rfl
  | cons op a ih =>
    cases op with
    | flush => exact ih _
    | look l w =>
      show _ :: answers _ (a ++ b) = _ :: (answers _ a ++ _)
      rw [ih]
      rfl

/-- The note of a lookup that was answered stays until the next flush. -/
theorem note_stays {E : Type} {l : Lookup} {note : Note E} (hn : note = .absent ∨ ∃ e, note = .entry e) (mid : List (Spec.Memo.Op E)) (hmid : ∀ op ∈ mid, op ≠ .flush) (k : Known E) (hk : k l = note) :
    mid.foldl learn k l = note := by
  induction mid generalizing k with
  | nil => exact hk
  | cons op mid ih =>
    refine ih (fun o ho => hmid o (List.mem_cons_of_mem _ ho)) _ ?_
    cases op with
    | flush => exact absurd rfl (hmid _ (List.mem_cons_self ..))
    | look l' w =>
      show (if l = l' then _ else _) = _
      by_cases he : l = l'
      · rw [if_pos he, ← he, hk]
        rcases hn with rfl | ⟨e, rfl⟩ <;> rfl
      · rw [if_neg he, hk]

/-- A lookup that was answered once gives the same answer until the next flush, whatever happens to the database in between; this includes that there is no such entry. -/
theorem C47_stable {E : Type} (K : Nat) (a mid : List (Spec.Memo.Op E)) (l : Lookup) (w1 w2 : World E) (r : Res E)
    (hv : ∀ op ∈ a ++ .look l w1 :: (mid ++ [.look l w2]), Valid op) (hmid : ∀ op ∈ mid, op ≠ .flush) (hr : r = .null 0 ∨ ∃ e, r = .entry e)
    {c1 : Cache E} {rs : List (Res E)} (h1 : runOps K newCache (a ++ [.look l w1]) = .ok (rs ++ [r], c1)) (h0 : ∀ n, w1.reply n ≠ .error 0) :
    ∃ rs' c2, runOps K newCache (a ++ .look l w1 :: (mid ++ [.look l w2])) = .ok (rs' ++ [r], c2) := by
  obtain ⟨c2, r2⟩ := C47_history K _ hv
  obtain ⟨c1', r1⟩ := C47_history K (a ++ [.look l w1]) (fun op ho => hv op (by
    rcases List.mem_append.1 ho with h | h
    · exact List.mem_append.2 (.inl h)
    · exact List.mem_append.2 (.inr (by rw [List.mem_singleton.1 h]; exact List.mem_cons_self ..))))
  rw [h1, answers_append] at r1
  have hres : (answer (a.foldl learn (fun _ => .none) l) w1).1 = r := by
    injection r1 with r1
    have := (Prod.mk.inj r1).1
    exact (List.singleton_inj.1 (List.append_inj' this rfl).2).symm
  have hnote : (answer (a.foldl learn (fun _ => .none) l) w1).2 = .absent ∧ r = .null 0 ∨ ∃ e, (answer (a.foldl learn (fun _ => .none) l) w1).2 = .entry e ∧ r = .entry e := by
    have herr : uncached w1 ≠ .error 0 := by
      intro he
      unfold uncached at he
      cases hfind : (w1.sizes.map w1.reply).find? Spec.Memo.bigEnough with
      | none => rw [hfind] at he; cases he
      | some x =>
        rw [hfind] at he
        obtain ⟨n, _, e⟩ := List.mem_map.1 (List.mem_of_find?_eq_some hfind)
        exact h0 n (e.trans he)
    have hu : ∀ x : Reply E, x ≠ .error 0 → resultOf x = r → noteOf x = .absent ∧ r = .null 0 ∨ ∃ e, noteOf x = .entry e ∧ r = .entry e := by
      intro x hx hxr
      subst hxr
      cases x with
      | found e => exact .inr ⟨e, rfl, rfl⟩
      | notFound => exact .inl ⟨rfl, rfl⟩
      | erange => rcases hr with h | ⟨e, h⟩ <;> cases h
      | error n =>
        rcases hr with h | ⟨e, h⟩
        · cases h; exact absurd rfl hx
        · cases h
    revert hres
    cases a.foldl learn (fun _ => .none) l with
    | none =>
      unfold answer
      dsimp only
      split
      · exact hu _ herr
      · intro h; subst h; rcases hr with h | ⟨e, h⟩ <;> cases h
    | tried => exact hu _ herr
    | absent => intro h; exact .inl ⟨rfl, h.symm⟩
    | entry e => intro h; exact .inr ⟨e, rfl, h.symm⟩
  have hfold : (a ++ [Spec.Memo.Op.look l w1] ++ mid).foldl learn (fun _ => .none) l = (answer (a.foldl learn (fun _ => .none) l) w1).2 := by
    rw [List.foldl_append, List.foldl_append]
    refine note_stays ?_ mid hmid _ ?_
    · rcases hnote with ⟨h, _⟩ | ⟨e, h, _⟩
      · exact .inl h
      · exact .inr ⟨e, h⟩
    · show (if l = l then _ else _) = _
      rw [if_pos rfl]
  have hsplit : a ++ Spec.Memo.Op.look l w1 :: (mid ++ [.look l w2]) = (a ++ [Spec.Memo.Op.look l w1] ++ mid) ++ [.look l w2] := by simp
  rw [hsplit, answers_append] at r2
  refine ⟨answers (fun _ => .none) (a ++ [Spec.Memo.Op.look l w1] ++ mid), c2, ?_⟩
  rw [hsplit, r2]
  show Out.ok (_ ++ [(answer ((a ++ [Spec.Memo.Op.look l w1] ++ mid).foldl learn (fun _ => .none) l) w2).1], c2) = _
  rw [hfold]
  rcases hnote with ⟨h, h'⟩ | ⟨e, h, h'⟩
  · rw [h, h']; rfl
  · rw [h, h']; rfl

/-- The first lookup after a flush asks the database, even if there are answers from before. -/
theorem C47_fresh {E : Type} (K : Nat) (a : List (Spec.Memo.Op E)) (l : Lookup) (w : World E) (hv : ∀ op ∈ a ++ [.flush, .look l w], Valid op) (hm : w.leaf = true) :
    ∃ rs c, runOps K newCache (a ++ [.flush, .look l w]) = .ok (rs ++ [resultOf (uncached w)], c) := by
  obtain ⟨c, r⟩ := C47_history K _ hv
  rw [answers_append] at r
  refine ⟨answers (fun _ => .none) a, c, r.trans ?_⟩
  show Out.ok (_ ++ [(if w.leaf then _ else _ : Res E × Note E).1], c) = _
  rw [if_pos hm]

/-! ## Cases -/

example : Fits ⟨some ⟨2049, 1234567⟩, true⟩ := by
  intro st h
  cases h
  exact ⟨by decide, by decide⟩

/-- A small database: user 0 needs a big buffer. -/
def exWorld (name : Nat) : World Nat := ⟨fun n => if n < 200 then .erange else .found name, [128, 256], true⟩
def exMissing : World Nat := ⟨fun _ => .notFound, [128], true⟩

example : answers (fun _ => .none) [.look (.id 0) (exWorld 7), .look (.id 0) (exWorld 8), .look (.name [97]) exMissing, .look (.name [97]) (exWorld 1), .flush, .look (.name [97]) (exWorld 1)] =
    [.entry 7, .entry 7, .null 0, .null 0, .entry 1] := by decide +kernel

example : ∀ op ∈ ([.look (.id 0) (exWorld 7), .look (.name [97]) exMissing, .flush] : List (Spec.Memo.Op Nat)), Valid op := by
  intro op h
  simp only [List.mem_cons, List.not_mem_nil, or_false] at h
  rcases h with rfl | rfl | rfl
  · exact (by decide : 0 < 2 ^ 32)
  · exact (by decide : (0 : UInt8) ∉ [97])
  · trivial

end Verif.Props
