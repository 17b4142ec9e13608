import Verif.Spec.Cmdline
/-! Lexing, and what the parser does to its state. -/
namespace Verif.Cmdline
open Classical

theorem not_path_dashes (s : Bool) : ¬ IsPath s (A "--") := by
  rintro (h | ⟨h, _⟩)
  · exact absurd h (by decide)
  · exact h (by decide)

theorem skipArgs_cons (s : Bool) (a : Arg) (rest : List Arg) : skipArgs s (a :: rest) =
    if a = A "--" then skipArgs s rest else if IsPath s a then (a :: (skipArgs s rest).1, (skipArgs s rest).2) else ([], a :: rest) := by
  by_cases h1 : a = A "--"
  · subst h1; rfl
  · rw [if_neg h1]
    show (if a.head? = some 45 ∧ a = A "--" then _ else _) = _
    rw [if_neg (fun h => h1 h.2)]
    by_cases h2 : a.head? = some 45 ∧ a ≠ A "-"
    · rw [if_pos h2, if_neg]
      rintro (h | ⟨h, _⟩)
      · exact h2.2 h
      · exact h h2.1
    · rw [if_neg h2]
      by_cases h3 : a = A "-"
      · subst h3
        rw [if_pos (show IsPath s (A "-") from Or.inl rfl)]
        rw [if_neg (by decide), if_neg (by rintro ⟨_, h⟩; revert h; decide)]
      · have h4 : a.head? ≠ some 45 := fun h => h2 ⟨h, h3⟩
        by_cases h5 : a = A "(" ∨ a = A "!"
        · rw [if_pos h5, if_neg]
          rintro (h | ⟨_, h, h', _⟩)
          · exact h3 h
          · exact h5.elim h h'
        · rw [if_neg h5]
          by_cases h6 : s = true ∧ (a = A ")" ∨ a = A ",")
          · rw [if_pos h6, if_neg]
            rintro (h | ⟨_, _, _, h⟩)
            · exact h3 h
            · exact h6.2.elim (h h6.1).1 (h h6.1).2
          · rw [if_neg h6, if_pos]
            exact Or.inr ⟨h4, fun h => h5 (.inl h), fun h => h5 (.inr h), fun h => ⟨fun h' => h6 ⟨h, .inl h'⟩, fun h' => h6 ⟨h, .inr h'⟩⟩⟩

theorem skip_nil (s : Bool) : skipArgs s [] = ([], []) := rfl

/-- Skipping stops at something that is neither a path nor `--`. -/
theorem skip_head {s : Bool} {args : List Arg} {a : Arg} {rest : List Arg} (h : (skipArgs s args).2 = a :: rest) : a ≠ A "--" ∧ ¬ IsPath s a := by
  induction args with
  | nil => cases h
  | cons b l ih =>
    rw [skipArgs_cons] at h
    by_cases h1 : b = A "--"
    · rw [if_pos h1] at h; exact ih h
    · rw [if_neg h1] at h
      by_cases h2 : IsPath s b
      · rw [if_pos h2] at h; exact ih h
      · rw [if_neg h2] at h
        cases h
        exact ⟨h1, h2⟩

theorem skip_len (s : Bool) (args : List Arg) : (skipArgs s args).2.length ≤ args.length := by
  induction args with
  | nil => exact Nat.le_refl _
  | cons b l ih =>
    rw [skipArgs_cons]
    by_cases h1 : b = A "--"
    · rw [if_pos h1]; exact Nat.le_succ_of_le ih
    · rw [if_neg h1]
      by_cases h2 : IsPath s b
      · rw [if_pos h2]; exact Nat.le_succ_of_le ih
      · rw [if_neg h2]; exact Nat.le_refl _

variable {prim : List Arg → Out Prim}

theorem lex_unskip {s : Bool} {args : List Arg} {toks : List Tok} {ps : List Arg} (h : Lex prim s (skipArgs s args).2 toks ps) :
    Lex prim s args toks ((skipArgs s args).1 ++ ps) := by
  induction args with
  | nil => exact h
  | cons b l ih =>
    rw [skipArgs_cons] at h ⊢
    by_cases h1 : b = A "--"
    · rw [if_pos h1] at h ⊢
      subst h1
      exact .dashes s l toks _ (ih h)
    · rw [if_neg h1] at h ⊢
      by_cases h2 : IsPath s b
      · rw [if_pos h2] at h ⊢
        exact .path s b l toks _ h2 (ih h)
      · rw [if_neg h2] at h ⊢
        exact h

theorem lex_skip {s : Bool} {args : List Arg} {toks : List Tok} {ps : List Arg} (h : Lex prim s args toks ps) :
    ∃ ps', ps = (skipArgs s args).1 ++ ps' ∧ Lex prim s (skipArgs s args).2 toks ps' := by
  induction args generalizing ps with
  | nil => exact ⟨ps, rfl, h⟩
  | cons b l ih =>
    rw [skipArgs_cons]
    cases h with
    | dashes _ _ _ _ h =>
      rw [if_pos rfl]; exact ih h
    | path _ _ _ _ paths hp h =>
      have h1 : b ≠ A "--" := by rintro rfl; exact not_path_dashes s hp
      obtain ⟨ps', e, h'⟩ := ih h
      rw [if_neg h1, if_pos hp]
      exact ⟨ps', by rw [e]; rfl, h'⟩
    | op _ _ t _ toks' _ hp ho h =>
      have h1 : b ≠ A "--" := by rintro rfl; generalize hd : A "--" = d at ho; cases ho <;> revert hd <;> decide
      rw [if_neg h1, if_neg hp]
      exact ⟨ps, rfl, .op s b t l toks' ps hp ho h⟩
    | prim _ _ _ p toks' paths hp hd ho hr h =>
      rw [if_neg hd, if_neg hp]
      exact ⟨_, rfl, .prim s b l p toks' paths hp hd ho hr h⟩

/-- What a sequence of tokens begins with. -/
theorem lex_head {s : Bool} {args : List Arg} {toks : List Tok} {ps : List Arg} (h : Lex prim s args toks ps) :
    ∃ ps', ps = (skipArgs s args).1 ++ ps' ∧
      (((skipArgs s args).2 = [] ∧ toks = [] ∧ ps' = []) ∨
       (∃ a rest t toks', (skipArgs s args).2 = a :: rest ∧ toks = t :: toks' ∧ Operator a t ∧ Lex prim true rest toks' ps') ∨
       (∃ a rest p toks' ps'', (skipArgs s args).2 = a :: rest ∧ toks = .prim p :: toks' ∧ (∀ t, ¬ Operator a t) ∧ prim (a :: rest) = .ok p ∧
          Lex prim (s || p.starts) ((a :: rest).drop p.argc) toks' ps'' ∧ ps' = p.roots ++ ps'')) := by
  obtain ⟨ps', e, h'⟩ := lex_skip h
  refine ⟨ps', e, ?_⟩
  cases hs : (skipArgs s args).2 with
  | nil =>
    rw [hs] at h'
    cases h'
    exact Or.inl ⟨rfl, rfl, rfl⟩
  | cons a rest =>
    have hh := skip_head hs
    rw [hs] at h'
    cases h' with
    | dashes _ _ _ _ _ => exact absurd rfl hh.1
    | path _ _ _ _ _ hp _ => exact absurd hp hh.2
    | op _ _ t _ toks' _ hp ho h => exact Or.inr (Or.inl ⟨a, rest, t, toks', rfl, rfl, ho, h⟩)
    | prim _ _ _ p toks' paths hp hd ho hr h2 => exact Or.inr (Or.inr ⟨a, rest, p, toks', paths, rfl, rfl, ho, hr, h2, rfl⟩)

theorem operator_unique {a : Arg} {t u : Tok} (h : Operator a t) (h' : Operator a u) : t = u := by
  generalize hb : a = b at h'
  cases h <;> cases h' <;> first | rfl | (revert hb; decide)

theorem lex_unique {s : Bool} {args : List Arg} {toks us : List Tok} {ps qs : List Arg} (h : Lex prim s args toks ps) (h' : Lex prim s args us qs) : toks = us ∧ ps = qs := by
  induction h generalizing us qs with
  | done s => cases h'; exact ⟨rfl, rfl⟩
  | dashes s rest toks paths h ih =>
    generalize hb : A "--" = b at h'
    cases h' with
    | dashes _ _ _ _ h' => exact ih h'
    | path _ _ _ _ _ hp _ => subst hb; exact absurd hp (not_path_dashes s)
    | op _ _ t _ _ _ _ ho _ => cases ho <;> exact absurd hb (by decide)
    | prim _ _ _ _ _ _ _ hd _ _ _ => exact absurd hb.symm hd
  | path s a rest toks paths hp h ih =>
    cases h' with
    | dashes _ _ _ _ _ => exact absurd hp (not_path_dashes s)
    | path _ _ _ _ _ _ h' => obtain ⟨e, e'⟩ := ih h'; exact ⟨e, by rw [e']⟩
    | op _ _ _ _ _ _ hn _ _ => exact absurd hp hn
    | prim _ _ _ _ _ _ hn _ _ _ _ => exact absurd hp hn
  | op s a t rest toks paths hn ho h ih =>
    generalize hb : a = b at h'
    cases h' with
    | dashes _ _ _ _ _ => cases ho <;> exact absurd hb (by decide)
    | path _ _ _ _ _ hp _ => exact absurd (hb ▸ hp) hn
    | op _ _ _ _ _ _ _ ho' h' =>
      subst hb
      obtain ⟨e, e'⟩ := ih h'
      exact ⟨by rw [e, operator_unique ho ho'], e'⟩
    | prim _ _ _ _ _ _ _ _ hno _ _ => exact absurd (hb ▸ ho) (hno _)
  | prim s a rest p toks paths hn hd hno hr h ih =>
    generalize hb : a = b at h'
    cases h' with
    | dashes _ _ _ _ _ => exact absurd hb hd
    | path _ _ _ _ _ hp _ => exact absurd (hb ▸ hp) hn
    | op _ _ _ _ _ _ _ ho' h' => exact absurd (hb ▸ ho') (hno _)
    | prim _ _ _ q _ _ _ _ _ hr' h' =>
      subst hb
      rw [hr] at hr'
      cases hr'
      obtain ⟨e, e'⟩ := ih h'
      exact ⟨by rw [e], by rw [e']⟩

/-! ## Effects -/

structure Eff (st : St) (ps : List Arg) (xs : List E) (pr : List Prim) (st' : St) (ps' : List Arg) : Prop where
  roots : st.roots ++ ps = st'.roots ++ ps'
  excluding : st'.excluding = st.excluding
  excludes : st'.excludes = st.excludes ++ xs
  implicitPrint : st'.implicitPrint = (st.implicitPrint && !(pr.any fun p => p.loud))
  limit : st'.limit = (st.limit || pr.any fun p => p.limit)
  calls : st'.calls = st.calls ++ pr.flatMap fun p => p.calls

theorem Eff.refl (st : St) (ps : List Arg) : Eff st ps [] [] st ps :=
  ⟨rfl, rfl, (List.append_nil _).symm, by simp, by simp, by simp⟩

theorem Eff.trans {a b c : St} {p q r : List Arg} {xs ys : List E} {pr qr : List Prim} (h : Eff a p xs pr b q) (h' : Eff b q ys qr c r) :
    Eff a p (xs ++ ys) (pr ++ qr) c r := by
  refine ⟨h.roots.trans h'.roots, h'.excluding.trans h.excluding, ?_, ?_, ?_, ?_⟩
  · rw [h'.excludes, h.excludes, List.append_assoc]
  · rw [h'.implicitPrint, h.implicitPrint, List.any_append, Bool.not_or, Bool.and_assoc]
  · rw [h'.limit, h.limit, List.any_append, Bool.or_assoc]
  · rw [h'.calls, h.calls, List.flatMap_append, List.append_assoc]

theorem Eff.skip (st : St) (ps : List Arg) : Eff st ((skipArgs st.started st.args).1 ++ ps) [] [] (skipPaths st) ps := by
  refine ⟨?_, rfl, (List.append_nil _).symm, by simp [skipPaths], by simp [skipPaths], by simp [skipPaths]⟩
  show _ = (st.roots ++ (skipArgs st.started st.args).1) ++ ps
  rw [List.append_assoc]

theorem Eff.advance (st : St) (ps : List Arg) : Eff st ps [] [] (advance st) ps :=
  ⟨rfl, rfl, (List.append_nil _).symm, by simp [Cmdline.advance], by simp [Cmdline.advance], by simp [Cmdline.advance]⟩

theorem Eff.usePrim (st : St) (p : Prim) (ps : List Arg) : Eff st (p.roots ++ ps) (Tree.leaf p).excluded (Tree.leaf p).prims (usePrim st p) ps := by
  refine ⟨?_, rfl, rfl, ?_, ?_, ?_⟩
  · show _ = (st.roots ++ p.roots) ++ ps
    rw [List.append_assoc]
  · simp [Cmdline.usePrim, Tree.prims]
  · simp [Cmdline.usePrim, Tree.prims]
  · simp [Cmdline.usePrim, Tree.prims]

end Verif.Cmdline
