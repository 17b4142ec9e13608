import Verif.Lemmas.CmdComplete
import Verif.Lemmas.CmdPrim
/-! Whole command lines. -/
namespace Verif.Cmdline

variable {prim : List Arg → Out Prim}

theorem any_false {l : List Prim} {f : Prim → Bool} : l.any f = false ↔ ∀ p ∈ l, f p = false := by
  rw [List.any_eq_false]
  exact ⟨fun h p hp => by have := h p hp; cases hb : f p <;> simp_all, fun h p hp => by rw [h p hp]; decide⟩

/-- The end of `parse_whole_expr()`, when everything has been read. -/
theorem finish_ok {e : E} {st : St} {c : Cmd} : finish e st = .ok c ↔
    st.args = [] ∧ c.roots = (if st.roots = [] then [A "."] else st.roots) ∧ c.excludes = st.excludes ∧ c.calls = st.calls ∧
      ((st.implicitPrint = false ∧ c.expr = e) ∨ (st.implicitPrint = true ∧ st.limit = false ∧ c.expr = .and e (.leaf .print))) := by
  unfold finish
  by_cases h1 : st.args ≠ []
  · rw [if_pos h1]; exact ⟨fun h => (by cases h), fun h => absurd h.1 h1⟩
  · rw [if_neg h1]
    have h1' := Decidable.not_not.1 h1
    cases hi : st.implicitPrint with
    | false =>
      rw [if_neg (by rintro ⟨h, _⟩; cases h), if_neg (by decide)]
      constructor
      · intro h; cases h; exact ⟨h1', rfl, rfl, rfl, .inl ⟨rfl, rfl⟩⟩
      · rintro ⟨_, h2, h3, h5, ⟨_, h4⟩ | ⟨h4, _⟩⟩
        · cases c; cases h2; cases h3; cases h4; cases h5; rfl
        · cases h4
    | true =>
      rw [if_pos rfl]
      cases hl : st.limit with
      | true =>
        rw [if_pos ⟨rfl, rfl⟩]
        refine ⟨fun h => (by cases h), ?_⟩
        rintro ⟨_, _, _, _, ⟨h4, _⟩ | ⟨_, h4, _⟩⟩ <;> cases h4
      | false =>
        rw [if_neg (by rintro ⟨_, h⟩; cases h)]
        constructor
        · intro h; cases h; exact ⟨h1', rfl, rfl, rfl, .inr ⟨rfl, rfl, rfl⟩⟩
        · rintro ⟨_, h2, h3, h5, ⟨h4, _⟩ | ⟨_, _, h4⟩⟩
          · cases h4
          · cases c; cases h2; cases h3; cases h4; cases h5; rfl

theorem finish_ub (e : E) (st : St) : finish e st ≠ .ub := by
  unfold finish
  split
  · intro hc; cases hc
  · split <;> (intro hc; cases hc)

theorem whole_ub (hp : PrimOk prim) (args : List Arg) : whole prim args ≠ .ub := by
  unfold whole
  split
  · exact finish_ub _ _
  · refine bind_ne_ub (((fuel hp _).expr _).1 ?_) (fun _ _ => finish_ub _ _)
    have := size_skip (start args)
    have h2 : size (start args) = args.length := rfl
    omega

/-- The conditions on the tree. -/
theorem effects {t : Tree} {st st' : St} {ps : List Arg} (h : Eff st ps t.excluded t.prims st' []) (h1 : st.implicitPrint = true) (h2 : st.limit = false)
    (h3 : st.excludes = []) (e : E) :
    ((st'.implicitPrint = false ∧ e = t.main) ∨ (st'.implicitPrint = true ∧ st'.limit = false ∧ e = .and t.main (.leaf .print))) ↔
    (((∃ p ∈ t.prims, p.loud = true) ∧ e = t.main) ∨ ((∀ p ∈ t.prims, p.loud = false ∧ p.limit = false) ∧ e = .and t.main (.leaf .print))) := by
  have hi := h.implicitPrint
  have hl := h.limit
  rw [h1, Bool.true_and] at hi
  rw [h2, Bool.false_or] at hl
  rw [hi, hl]
  constructor
  · rintro (⟨a, b⟩ | ⟨a, b, c⟩)
    · have a' : t.prims.any (fun p => p.loud) = true := by simpa using a
      exact .inl ⟨List.any_eq_true.1 a', b⟩
    · have a' : t.prims.any (fun p => p.loud) = false := by simpa using a
      exact .inr ⟨fun p hp => ⟨any_false.1 a' p hp, any_false.1 b p hp⟩, c⟩
  · rintro (⟨a, b⟩ | ⟨a, c⟩)
    · have a' : t.prims.any (fun p => p.loud) = true := List.any_eq_true.2 a
      exact .inl ⟨by rw [a']; rfl, b⟩
    · have a' : t.prims.any (fun p => p.loud) = false := any_false.2 fun p hp => (a p hp).1
      exact .inr ⟨by rw [a']; rfl, any_false.2 fun p hp => (a p hp).2, c⟩

theorem lex_nil {s : Bool} {toks : List Tok} {ps : List Arg} (h : Lex prim s [] toks ps) : toks = [] ∧ ps = [] := by
  cases h; exact ⟨rfl, rfl⟩

theorem gram_nil {l : Level} {ex : Bool} {t : Tree} : ¬ Gram l ex [] t := by
  intro h
  generalize hn : ([] : List Tok) = ts at h
  induction h with
  | paren => cases hn
  | not => cases hn
  | exclude => cases hn
  | prim => cases hn
  | factor _ _ _ _ ih => exact ih hn
  | juxt ex ts us t u _ _ ih _ => exact ih (List.append_eq_nil_iff.1 hn.symm).1.symm
  | and ex ts us t u _ _ ih _ => exact ih (List.append_eq_nil_iff.1 hn.symm).1.symm
  | term _ _ _ _ ih => exact ih hn
  | or ex ts us t u _ _ ih _ => exact ih (List.append_eq_nil_iff.1 hn.symm).1.symm
  | clause _ _ _ _ ih => exact ih hn
  | comma ex ts us t u _ _ ih _ => exact ih (List.append_eq_nil_iff.1 hn.symm).1.symm

theorem gram_calls {l : Level} {ex : Bool} {ts : List Tok} {t : Tree} (h : Gram l ex ts t) :
    ts.flatMap Tok.calls = t.prims.flatMap fun p => p.calls := by
  induction h with
  | paren ex ts t _ ih => rw [List.cons_append, List.flatMap_cons, List.flatMap_append, ih]; simp [Tok.calls]
  | not ex ts t _ ih => rw [List.flatMap_cons, ih]; rfl
  | exclude ts t _ ih => rw [List.flatMap_cons, ih]; rfl
  | prim => simp [Tok.calls, Tree.prims]
  | factor _ _ _ _ ih => exact ih
  | juxt ex ts us t u _ _ i1 i2 => rw [List.flatMap_append, i1, i2, Tree.prims, List.flatMap_append]
  | and ex ts us t u _ _ i1 i2 => rw [List.flatMap_append, List.flatMap_cons, i1, i2, Tree.prims, List.flatMap_append]; rfl
  | term _ _ _ _ ih => exact ih
  | or ex ts us t u _ _ i1 i2 => rw [List.flatMap_append, List.flatMap_cons, i1, i2, Tree.prims, List.flatMap_append]; rfl
  | clause _ _ _ _ ih => exact ih
  | comma ex ts us t u _ _ i1 i2 => rw [List.flatMap_append, List.flatMap_cons, i1, i2, Tree.prims, List.flatMap_append]; rfl

theorem lex_toks_nil {s : Bool} {args : List Arg} {ps : List Arg} (h : Lex prim s args [] ps) : (skipArgs s args).2 = [] ∧ ps = (skipArgs s args).1 := by
  obtain ⟨ps', e, h⟩ := lex_head h
  rcases h with ⟨h1, _, h2⟩ | ⟨_, _, _, _, _, ht, _, _⟩ | ⟨_, _, _, _, _, _, ht, _⟩
  · rw [h2, List.append_nil] at e; exact ⟨h1, e⟩
  · cases ht
  · cases ht

theorem skip_idem (s : Bool) (args : List Arg) : (skipArgs s (skipArgs s args).2).2 = (skipArgs s args).2 := by
  cases h : (skipArgs s args).2 with
  | nil => rfl
  | cons a rest =>
    obtain ⟨h1, h2⟩ := skip_head h
    rw [skipArgs_cons, if_neg h1, if_neg h2]

theorem exprLoop_skipped : ∀ (n : Nat) (e : E) (st : St) (x : E × St), exprLoop prim n e st = .ok x → ∃ st', x.2 = skipPaths st' := by
  intro n
  induction n with
  | zero => intro e st x h; cases h
  | succ n ih =>
    intro e st x h
    cases hs : (skipArgs st.started st.args).2 with
    | nil => rw [exprLoop_nil hs] at h; cases h; exact ⟨st, rfl⟩
    | cons a rest =>
      rw [exprLoop_cons hs] at h
      by_cases hc : a ≠ A ","
      · rw [if_pos hc] at h; cases h; exact ⟨st, rfl⟩
      · rw [if_neg hc] at h
        obtain ⟨y, _, h2⟩ := obind_ok h
        exact ih _ _ _ h2

theorem expr_skipped {n : Nat} {st st' : St} {e : E} (h : expr prim n st = .ok (e, st')) (h' : (skipArgs st'.started st'.args).2 = []) : st'.args = [] := by
  cases n with
  | zero => cases h
  | succ n =>
    rw [expr_succ] at h
    obtain ⟨y, _, h2⟩ := obind_ok h
    obtain ⟨st0, h3⟩ := exprLoop_skipped _ _ _ _ h2
    dsimp only at h3
    subst h3
    have : (skipArgs st0.started (skipArgs st0.started st0.args).2).2 = [] := h'
    rw [skip_idem] at this
    exact this

theorem whole_iff (hp : PrimOk prim) (args : List Arg) (c : Cmd) : whole prim args = .ok c ↔ Parsed prim args c := by
  have hsk : (skipPaths (start args)).args = (skipArgs false args).2 := rfl
  have hsr : (skipPaths (start args)).roots = (skipArgs false args).1 := rfl
  constructor
  · intro h
    unfold whole at h
    by_cases hn : (skipPaths (start args)).args = []
    · rw [if_pos hn] at h
      obtain ⟨_, h2, h3, h5, h4⟩ := finish_ok.1 h
      refine ⟨[], (skipArgs false args).1, ?_, by rw [h2, hsr], h5, .inl ⟨rfl, ?_, h3⟩⟩
      · have : Lex prim false (skipArgs false args).2 [] [] := by rw [hsk] at hn; rw [hn]; exact .done false
        have := lex_unskip this
        rw [List.append_nil] at this; exact this
      · rcases h4 with ⟨h4, _⟩ | ⟨_, _, h4⟩
        · cases h4
        · exact h4
    · rw [if_neg hn] at h
      obtain ⟨⟨e, st⟩, h1, h2⟩ := obind_ok h
      obtain ⟨ha, hr, hx, hc, he⟩ := finish_ok.1 h2
      dsimp only at ha hr hx hc he
      obtain ⟨us, t, ps, l, g, hm, f⟩ := (sound hp _).expr _ _ _ h1 [] [] (by rw [ha]; exact .done _)
      rw [List.append_nil] at l
      have l' := lex_unskip (args := args) (s := false) l
      refine ⟨us, (skipArgs false args).1 ++ ps, l', ?_, by rw [hc, f.calls, gram_calls g]; rfl, .inr ⟨t, g, ?_, ?_⟩⟩
      · have hroots := f.roots
        rw [List.append_nil, hsr] at hroots
        rw [hr, hroots]
      · rw [hx, f.excludes]; rfl
      · rw [hm] at he
        exact (effects f rfl rfl rfl _).1 he
  · rintro ⟨toks, paths, l, hr, hc, h⟩
    rcases h with ⟨rfl, he, hx⟩ | ⟨t, g, hx, he⟩
    · obtain ⟨h1, h2⟩ := lex_toks_nil l
      unfold whole
      rw [if_pos (by rw [hsk]; exact h1)]
      exact finish_ok.2 ⟨by rw [hsk]; exact h1, by rw [hr, hsr, h2], hx, hc, .inr ⟨rfl, rfl, he⟩⟩
    · obtain ⟨n, hn⟩ := tExpr_complete g
      obtain ⟨ps', e, l'⟩ := lex_skip l
      obtain ⟨st, ps, h1, l2, f⟩ := (complete n).expr (skipPaths (start args)) _ _ _ hn ps' l'
      have hne : (skipPaths (start args)).args ≠ [] := by
        intro hc
        rw [hsk] at hc
        rw [hc] at l'
        have := (lex_nil l').1
        subst this
        exact gram_nil g
      have hfuel : expr prim (4 * args.length + 4) (skipPaths (start args)) ≠ .ub := by
        refine ((fuel hp _).expr _).1 ?_
        have := size_skip (start args)
        have h2 : size (start args) = args.length := rfl
        omega
      have heq : expr prim (4 * args.length + 4) (skipPaths (start args)) = .ok (t.main, st) := by
        rcases Nat.le_total n (4 * args.length + 4) with hle | hle
        · rw [expr_stable hle (by rw [h1]; intro hc; cases hc), h1]
        · rw [← expr_stable hle hfuel, h1]
      obtain ⟨hskip, hps⟩ := lex_toks_nil l2
      have hargs : st.args = [] := expr_skipped h1 hskip
      rw [hargs] at l2 hps
      cases hps
      unfold whole
      rw [if_neg hne, heq]
      refine finish_ok.2 ⟨hargs, ?_, ?_, by rw [hc, f.calls, gram_calls g]; rfl, ?_⟩
      · have hroots := f.roots
        rw [hsr, ← e] at hroots
        have : paths = st.roots := by rw [hroots]; exact List.append_nil _
        rw [hr, this]
      · rw [hx, f.excludes]; rfl
      · exact (effects f rfl rfl rfl _).2 he

end Verif.Cmdline
