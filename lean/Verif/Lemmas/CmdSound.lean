import Verif.Lemmas.CmdEqs
/-! Whatever the parser accepts follows the grammar. -/
namespace Verif.Cmdline

variable {prim : List Arg → Out Prim}

/-- `st` begins with some tokens that form this tree, and then comes `st'`. -/
def Reads (prim : List Arg → Out Prim) (l : Level) (st : St) (e : E) (st' : St) : Prop :=
  ∀ r ps', Lex prim st'.started st'.args r ps' →
    ∃ us t ps, Lex prim st.started st.args (us ++ r) ps ∧ Gram l st.excluding us t ∧ e = t.main ∧ Eff st ps t.excluded t.prims st' ps'

/-- The same with something already read. -/
def ReadsMore (prim : List Arg → Out Prim) (l : Level) (e0 : E) (st : St) (e : E) (st' : St) : Prop :=
  ∀ r ps', Lex prim st'.started st'.args r ps' →
    ∃ us ps xs pr, Lex prim st.started st.args (us ++ r) ps ∧ Eff st ps xs pr st' ps' ∧
      ∀ pre t0, Gram l st.excluding pre t0 → e0 = t0.main →
        ∃ t, Gram l st.excluding (pre ++ us) t ∧ e = t.main ∧ t.excluded = t0.excluded ++ xs ∧ t.prims = t0.prims ++ pr

/-- Lexing an operator. -/
theorem lex_op {st : St} {a : Arg} {t : Tok} {rest : List Arg} {r : List Tok} {ps : List Arg} (h : (skipArgs st.started st.args).2 = a :: rest) (ho : Operator a t)
    (hl : Lex prim (advance (skipPaths st)).started (advance (skipPaths st)).args r ps) :
    Lex prim st.started st.args (t :: r) ((skipArgs st.started st.args).1 ++ ps) := by
  apply lex_unskip
  have hl' : Lex prim true ((skipArgs st.started st.args).2.drop 1) r ps := hl
  rw [h] at hl' ⊢
  exact .op _ _ _ _ _ _ (skip_head h).2 ho hl'

theorem eff_op (st : St) (ps : List Arg) : Eff st ((skipArgs st.started st.args).1 ++ ps) [] [] (advance (skipPaths st)) ps :=
  (Eff.skip st ps).trans (Eff.advance _ ps)

theorem readsMore_refl (l : Level) (e : E) (st : St) : ReadsMore prim l e st e (skipPaths st) := by
  intro r ps' hl
  refine ⟨[], _, [], [], lex_unskip hl, Eff.skip st ps', ?_⟩
  intro pre t0 hg he
  exact ⟨t0, by rw [List.append_nil]; exact hg, he, (List.append_nil _).symm, (List.append_nil _).symm⟩

/-- First one, then the rest. -/
theorem reads_more {l l' : Level} {st st1 st2 : St} {e e' : E} (hg : ∀ ex us t, Gram l ex us t → Gram l' ex us t)
    (h : Reads prim l st e st1) (h' : ReadsMore prim l' e st1 e' st2) : Reads prim l' st e' st2 := by
  intro r ps' hl
  obtain ⟨us, ps, xs, pr, hl1, he1, hm⟩ := h' r ps' hl
  obtain ⟨vs, t, qs, hl2, g, he, he2⟩ := h _ _ hl1
  have hx := he2.excluding
  rw [hx] at hm
  obtain ⟨t', g', he', hxs, hpr⟩ := hm vs t (hg _ _ _ g) he
  refine ⟨vs ++ us, t', qs, by rw [List.append_assoc]; exact hl2, g', he', ?_⟩
  rw [hxs, hpr]
  exact he2.trans he1

structure Sound (prim : List Arg → Out Prim) (n : Nat) : Prop where
  factor : ∀ st e st', factor prim n st = .ok (e, st') → Reads prim .factor st e st'
  term : ∀ st e st', term prim n st = .ok (e, st') → Reads prim .term st e st'
  termLoop : ∀ e0 st e st', termLoop prim n e0 st = .ok (e, st') → ReadsMore prim .term e0 st e st'
  clause : ∀ st e st', clause prim n st = .ok (e, st') → Reads prim .clause st e st'
  clauseLoop : ∀ e0 st e st', clauseLoop prim n e0 st = .ok (e, st') → ReadsMore prim .clause e0 st e st'
  expr : ∀ st e st', expr prim n st = .ok (e, st') → Reads prim .expr st e st'
  exprLoop : ∀ e0 st e st', exprLoop prim n e0 st = .ok (e, st') → ReadsMore prim .expr e0 st e st'

theorem sound_factor (hp : PrimOk prim) {n : Nat} (ih : Sound prim n) (st : St) (e : E) (st' : St) (h : factor prim (n + 1) st = .ok (e, st')) : Reads prim .factor st e st' := by
  cases hs : (skipArgs st.started st.args).2 with
  | nil => rw [factor_nil hs] at h; cases h
  | cons a rest =>
    rw [factor_cons hs] at h
    intro r ps' hl
    by_cases h1 : a = A "("
    · rw [if_pos h1] at h
      obtain ⟨⟨e1, st1⟩, hy1, hy2⟩ := obind_ok h
      obtain ⟨rest', hr, hx⟩ := closeParen_ok hy2
      cases hx
      have l1 := lex_op hr .rparen hl
      obtain ⟨us, t, ps, l2, g, he, hf⟩ := ih.expr _ _ _ hy1 _ _ l1
      subst h1
      have l3 := lex_op hs .lparen l2
      refine ⟨.lparen :: us ++ [Tok.rparen], t, (skipArgs st.started st.args).1 ++ ps, ?_, .paren _ us t g, he, ?_⟩
      · have : Tok.lparen :: us ++ [Tok.rparen] ++ r = .lparen :: (us ++ .rparen :: r) := by simp
        rw [this]; exact l3
      · have := ((eff_op st ps).trans hf).trans (eff_op st1 ps')
        rw [List.append_nil, List.append_nil] at this
        exact this
    · rw [if_neg h1] at h
      by_cases h2 : a = A "-exclude"
      · rw [if_pos h2] at h
        by_cases h3 : st.excluding = true
        · rw [if_pos h3] at h; cases h
        · rw [if_neg h3] at h
          obtain ⟨⟨e1, st1⟩, hy1, hy2⟩ := obind_ok h
          cases hy2
          have hl' : Lex prim st1.started st1.args r ps' := hl
          obtain ⟨us, t, ps, l2, g, he, hf⟩ := ih.factor _ _ _ hy1 _ _ hl'
          subst h2
          have l3 := lex_op hs .exclude (r := us ++ r) (ps := ps) l2
          have h3' : st.excluding = false := by cases hb : st.excluding with
            | false => rfl
            | true => exact absurd hb h3
          refine ⟨.exclude :: us, .exclude t, _, l3, by rw [h3']; exact .exclude us t g, rfl, ?_⟩
          subst he
          refine ⟨?_, h3'.symm, ?_, hf.implicitPrint, hf.limit, hf.calls⟩
          · have := hf.roots
            have e1 := (eff_op st ps).roots
            rw [e1]; exact this
          · show st1.excludes ++ [t.main] = st.excludes ++ (t.excluded ++ [t.main])
            rw [hf.excludes, List.append_assoc]; rfl
      · rw [if_neg h2] at h
        by_cases h3 : a = A "!" ∨ a = A "-not"
        · rw [if_pos h3] at h
          obtain ⟨⟨e1, st1⟩, hy1, hy2⟩ := obind_ok h
          cases hy2
          obtain ⟨us, t, ps, l2, g, he, hf⟩ := ih.factor _ _ _ hy1 _ _ hl
          have ho : Operator a .not := h3.elim (fun h => h ▸ .bang) (fun h => h ▸ .not)
          have l3 := lex_op hs ho l2
          exact ⟨.not :: us, .not t, _, l3, .not _ us t g, by rw [he]; rfl, (eff_op st ps).trans hf⟩
        · rw [if_neg h3] at h
          obtain ⟨p, hp1, hp2, hx⟩ := primary_ok h
          cases hx
          have h' : (skipPaths st).args = a :: rest := hs
          rw [h'] at hp1
          have hl' : Lex prim (st.started || p.starts) ((a :: rest).drop p.argc) r ps' := by
            rw [← h']; exact hl
          have hno : ∀ t, ¬ Operator a t := fun t ho => hp.op a rest t p ho hp1
          refine ⟨[.prim p], .leaf p, _, ?_, .prim _ p hp2, rfl, (Eff.skip st _).trans (Eff.usePrim (skipPaths st) p ps')⟩
          apply lex_unskip
          rw [hs]
          exact .prim _ a rest p r ps' (skip_head hs).2 (skip_head hs).1 hno hp1 hl'

theorem sound_termLoop {n : Nat} (ih : Sound prim n) (e0 : E) (st : St) (e : E) (st' : St) (h : termLoop prim (n + 1) e0 st = .ok (e, st')) :
    ReadsMore prim .term e0 st e st' := by
  cases hs : (skipArgs st.started st.args).2 with
  | nil => rw [termLoop_nil hs] at h; cases h; exact readsMore_refl _ _ _
  | cons a rest =>
    rw [termLoop_cons hs] at h
    by_cases hc : a = A "-o" ∨ a = A "-or" ∨ a = A "," ∨ a = A ")"
    · rw [if_pos hc] at h; cases h; exact readsMore_refl _ _ _
    · rw [if_neg hc] at h
      obtain ⟨⟨e1, st1⟩, hy1, hy2⟩ := obind_ok h
      intro r ps' hl
      obtain ⟨us, ps, xs, pr, l1, f1, hm⟩ := ih.termLoop _ _ _ _ hy2 r ps' hl
      obtain ⟨vs, u, qs, l2, g, he, f2⟩ := ih.factor _ _ _ hy1 _ _ l1
      have hx := f2.excluding
      rw [hx] at hm
      unfold skipAnd at l2 g f2 hm
      by_cases ha : a = A "-a" ∨ a = A "-and"
      · rw [if_pos ha] at l2 g f2 hm
        have ho : Operator a .and := ha.elim (fun h => h ▸ .a) (fun h => h ▸ .and)
        have l3 := lex_op hs ho l2
        refine ⟨.and :: vs ++ us, _, u.excluded ++ xs, u.prims ++ pr, by rw [List.cons_append, List.cons_append, List.append_assoc]; exact l3,
          ((eff_op st qs).trans f2).trans f1, ?_⟩
        intro pre t0 g0 he0
        obtain ⟨t, g', he', hxs, hpr⟩ := hm (pre ++ .and :: vs) (.and t0 u) (.and _ _ _ _ _ g0 g) (by rw [he0, he]; rfl)
        refine ⟨t, ?_, he', ?_, ?_⟩
        · rw [List.append_assoc] at g'; exact g'
        · rw [hxs, ← List.append_assoc]; rfl
        · rw [hpr, ← List.append_assoc]; rfl
      · rw [if_neg ha] at l2 g f2 hm
        have l3 : Lex prim st.started st.args (vs ++ (us ++ r)) ((skipArgs st.started st.args).1 ++ qs) := lex_unskip l2
        refine ⟨vs ++ us, _, u.excluded ++ xs, u.prims ++ pr, by rw [List.append_assoc]; exact l3,
          ((Eff.skip st qs).trans f2).trans f1, ?_⟩
        intro pre t0 g0 he0
        obtain ⟨t, g', he', hxs, hpr⟩ := hm (pre ++ vs) (.and t0 u) (.juxt _ _ _ _ _ g0 g) (by rw [he0, he]; rfl)
        refine ⟨t, ?_, he', ?_, ?_⟩
        · rw [List.append_assoc] at g'; exact g'
        · rw [hxs, ← List.append_assoc]; rfl
        · rw [hpr, ← List.append_assoc]; rfl

/-- One round of the other loops. -/
theorem readsMore_step {l l' : Level} {e0 e1 e : E} {st st1 st' : St} {a : Arg} {rest : List Arg} {tok : Tok} {mkE : E → E → E} {mkT : Tree → Tree → Tree}
    (hs : (skipArgs st.started st.args).2 = a :: rest) (ho : Operator a tok)
    (hgram : ∀ ex ts us t u, Gram l' ex ts t → Gram l ex us u → Gram l' ex (ts ++ tok :: us) (mkT t u))
    (hmain : ∀ t u, (mkT t u).main = mkE t.main u.main) (hexc : ∀ t u, (mkT t u).excluded = t.excluded ++ u.excluded) (hprims : ∀ t u, (mkT t u).prims = t.prims ++ u.prims)
    (h1 : Reads prim l (advance (skipPaths st)) e1 st1) (h2 : ReadsMore prim l' (mkE e0 e1) st1 e st') : ReadsMore prim l' e0 st e st' := by
  intro r ps' hl
  obtain ⟨us, ps, xs, pr, l1, f1, hm⟩ := h2 r ps' hl
  obtain ⟨vs, u, qs, l2, g, he, f2⟩ := h1 _ _ l1
  have hx := f2.excluding
  rw [hx] at hm
  have l3 := lex_op hs ho l2
  refine ⟨tok :: vs ++ us, _, u.excluded ++ xs, u.prims ++ pr, by rw [List.cons_append, List.cons_append, List.append_assoc]; exact l3,
    ((eff_op st qs).trans f2).trans f1, ?_⟩
  intro pre t0 g0 he0
  obtain ⟨t, g', he', hxs, hpr⟩ := hm (pre ++ tok :: vs) (mkT t0 u) (hgram _ _ _ _ _ g0 g) (by rw [he0, he, hmain])
  refine ⟨t, ?_, he', ?_, ?_⟩
  · rw [List.append_assoc] at g'; exact g'
  · rw [hxs, hexc, ← List.append_assoc]
  · rw [hpr, hprims, ← List.append_assoc]

theorem sound_succ (hp : PrimOk prim) {n : Nat} (ih : Sound prim n) : Sound prim (n + 1) := by
  constructor
  · exact sound_factor hp ih
  · intro st e st' h
    rw [term_succ] at h
    obtain ⟨⟨e1, st1⟩, hy1, hy2⟩ := obind_ok h
    exact reads_more (fun ex us t g => .factor ex us t g) (ih.factor _ _ _ hy1) (ih.termLoop _ _ _ _ hy2)
  · exact sound_termLoop ih
  · intro st e st' h
    rw [clause_succ] at h
    obtain ⟨⟨e1, st1⟩, hy1, hy2⟩ := obind_ok h
    exact reads_more (fun ex us t g => .term ex us t g) (ih.term _ _ _ hy1) (ih.clauseLoop _ _ _ _ hy2)
  · intro e0 st e st' h
    cases hs : (skipArgs st.started st.args).2 with
    | nil => rw [clauseLoop_nil hs] at h; cases h; exact readsMore_refl _ _ _
    | cons a rest =>
      rw [clauseLoop_cons hs] at h
      by_cases hc : a ≠ A "-o" ∧ a ≠ A "-or"
      · rw [if_pos hc] at h; cases h; exact readsMore_refl _ _ _
      · rw [if_neg hc] at h
        obtain ⟨⟨e1, st1⟩, hy1, hy2⟩ := obind_ok h
        have ho : Operator a .or := by
          by_cases h1 : a = A "-o"
          · exact h1 ▸ .o
          · by_cases h2 : a = A "-or"
            · exact h2 ▸ .or
            · exact absurd ⟨h1, h2⟩ hc
        exact readsMore_step (mkE := E.or) (mkT := Tree.or) hs ho (fun _ _ _ _ _ => .or _ _ _ _ _) (fun _ _ => rfl) (fun _ _ => rfl) (fun _ _ => rfl)
          (ih.term _ _ _ hy1) (ih.clauseLoop _ _ _ _ hy2)
  · intro st e st' h
    rw [expr_succ] at h
    obtain ⟨⟨e1, st1⟩, hy1, hy2⟩ := obind_ok h
    exact reads_more (fun ex us t g => .clause ex us t g) (ih.clause _ _ _ hy1) (ih.exprLoop _ _ _ _ hy2)
  · intro e0 st e st' h
    cases hs : (skipArgs st.started st.args).2 with
    | nil => rw [exprLoop_nil hs] at h; cases h; exact readsMore_refl _ _ _
    | cons a rest =>
      rw [exprLoop_cons hs] at h
      by_cases hc : a ≠ A ","
      · rw [if_pos hc] at h; cases h; exact readsMore_refl _ _ _
      · rw [if_neg hc] at h
        obtain ⟨⟨e1, st1⟩, hy1, hy2⟩ := obind_ok h
        have ho : Operator a .comma := (Decidable.not_not.1 hc) ▸ .comma
        exact readsMore_step (mkE := E.comma) (mkT := Tree.comma) hs ho (fun _ _ _ _ _ => .comma _ _ _ _ _) (fun _ _ => rfl) (fun _ _ => rfl) (fun _ _ => rfl)
          (ih.clause _ _ _ hy1) (ih.exprLoop _ _ _ _ hy2)

theorem sound (hp : PrimOk prim) : ∀ n, Sound prim n := by
  intro n
  induction n with
  | zero => constructor <;> (intros; rename_i h; cases h)
  | succ n ih => exact sound_succ hp ih

end Verif.Cmdline
