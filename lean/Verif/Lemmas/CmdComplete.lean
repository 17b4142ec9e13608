import Verif.Lemmas.CmdSound
/-! The parser accepts whatever follows the grammar. -/
namespace Verif.Cmdline

variable {prim : List Arg → Out Prim}

/-- `st` is lexed to these tokens; this is what the parser returns if it has read `t`, and `r` is left. -/
def Gets (prim : List Arg → Out Prim) (res : St → Out (E × St)) (st : St) (toks : List Tok) (t : Tree) (r : List Tok) : Prop :=
  ∀ ps, Lex prim st.started st.args toks ps →
    ∃ st' ps', res st = .ok (t.main, st') ∧ Lex prim st'.started st'.args r ps' ∧ Eff st ps t.excluded t.prims st' ps'

def GetsMore (prim : List Arg → Out Prim) (res : E → St → Out (E × St)) (t0 : Tree) (st : St) (toks : List Tok) (t : Tree) (r : List Tok) : Prop :=
  ∀ ps, Lex prim st.started st.args toks ps →
    ∃ st' ps' xs pr, res t0.main st = .ok (t.main, st') ∧ Lex prim st'.started st'.args r ps' ∧ Eff st ps xs pr st' ps' ∧
      t.excluded = t0.excluded ++ xs ∧ t.prims = t0.prims ++ pr

theorem no_op {a b : Arg} {t : Tok} (ho : ∀ t, ¬ Operator a t) (h : a = b) (hb : Operator b t) : False := by
  subst h; exact ho t hb

theorem op_eq {a b : Arg} {t u : Tok} (ho : Operator a t) (h : a = b) (hb : Operator b u) : t = u := by
  subst h; exact operator_unique ho hb

structure Complete (prim : List Arg → Out Prim) (n : Nat) : Prop where
  factor : ∀ st ts t r, tFactor n st.excluding ts = .ok (t, r) → Gets prim (factor prim n) st ts t r
  term : ∀ st ts t r, tTerm n st.excluding ts = .ok (t, r) → Gets prim (term prim n) st ts t r
  termLoop : ∀ t0 st ts t r, tTermLoop n st.excluding t0 ts = .ok (t, r) → GetsMore prim (termLoop prim n) t0 st ts t r
  clause : ∀ st ts t r, tClause n st.excluding ts = .ok (t, r) → Gets prim (clause prim n) st ts t r
  clauseLoop : ∀ t0 st ts t r, tClauseLoop n st.excluding t0 ts = .ok (t, r) → GetsMore prim (clauseLoop prim n) t0 st ts t r
  expr : ∀ st ts t r, tExpr n st.excluding ts = .ok (t, r) → Gets prim (expr prim n) st ts t r
  exprLoop : ∀ t0 st ts t r, tExprLoop n st.excluding t0 ts = .ok (t, r) → GetsMore prim (exprLoop prim n) t0 st ts t r

/-- An operator comes first. -/
theorem lex_op_inv {st : St} {tok : Tok} {ts : List Tok} {ps : List Arg} (hn : ∀ p, tok ≠ .prim p) (h : Lex prim st.started st.args (tok :: ts) ps) :
    ∃ a rest ps', (skipArgs st.started st.args).2 = a :: rest ∧ Operator a tok ∧ ps = (skipArgs st.started st.args).1 ++ ps' ∧
      Lex prim (advance (skipPaths st)).started (advance (skipPaths st)).args ts ps' := by
  obtain ⟨ps', e, h⟩ := lex_head h
  rcases h with ⟨_, h, _⟩ | ⟨a, rest, t, toks', hs, ht, ho, hl⟩ | ⟨a, rest, p, toks', ps'', hs, ht, ho, hr, hl, e'⟩
  · cases h
  · cases ht
    refine ⟨a, rest, ps', hs, ho, e, ?_⟩
    show Lex prim true ((skipArgs st.started st.args).2.drop 1) ts ps'
    rw [hs]; exact hl
  · cases ht; exact absurd rfl (hn p)

theorem gets_more {f g : St → Out (E × St)} {loop : E → St → Out (E × St)} {st : St} {ts r r' : List Tok} {t t' : Tree}
    (hg : g st = (f st).bind fun x => loop x.1 x.2) (h : Gets prim f st ts t r)
    (h' : ∀ st', st'.excluding = st.excluding → GetsMore prim loop t st' r t' r') : Gets prim g st ts t' r' := by
  intro ps hl
  obtain ⟨st1, ps1, e1, l1, f1⟩ := h ps hl
  obtain ⟨st2, ps2, xs, pr, e2, l2, f2, hx, hp⟩ := h' st1 f1.excluding ps1 l1
  refine ⟨st2, ps2, ?_, l2, ?_⟩
  · rw [hg, e1]; exact e2
  · rw [hx, hp]; exact f1.trans f2

theorem getsMore_stop {res : E → St → Out (E × St)} {t : Tree} {st : St} {ts : List Tok} (h : ∀ ps, Lex prim st.started st.args ts ps → res t.main st = .ok (t.main, skipPaths st)) :
    GetsMore prim res t st ts t ts := by
  intro ps hl
  obtain ⟨ps', e, hl'⟩ := lex_skip hl
  refine ⟨skipPaths st, ps', [], [], h ps hl, hl', ?_, (List.append_nil _).symm, (List.append_nil _).symm⟩
  rw [e]; exact Eff.skip st ps'

theorem complete_factor {n : Nat} (ih : Complete prim n) (st : St) (ts : List Tok) (t : Tree) (r : List Tok) (h : tFactor (n + 1) st.excluding ts = .ok (t, r)) :
    Gets prim (factor prim (n + 1)) st ts t r := by
  intro ps hl
  rw [tFactor_succ] at h
  cases ts with
  | nil => cases h
  | cons tok ts =>
    cases tok with
    | lparen =>
      dsimp only at h
      obtain ⟨⟨t', s⟩, h1, h2⟩ := obind_ok h
      cases s with
      | nil => cases h2
      | cons b s =>
        cases b <;> try (cases h2)
        obtain ⟨a, rest, ps1, hs, ho, e, l1⟩ := lex_op_inv (by intro p hc; cases hc) hl
        obtain ⟨st2, ps2, e2, l2, f2⟩ := ih.expr (advance (skipPaths st)) _ _ _ h1 ps1 l1
        obtain ⟨b, rest', ps3, hs', ho', e', l3⟩ := lex_op_inv (by intro p hc; cases hc) l2
        refine ⟨advance (skipPaths st2), ps3, ?_, l3, ?_⟩
        · rw [factor_cons hs]
          cases ho
          rw [if_pos rfl, e2]
          cases ho'
          have h' : (skipPaths st2).args = A ")" :: rest' := hs'
          show closeParen _ _ = _
          unfold closeParen
          dsimp only
          rw [h']
          dsimp only
          rw [if_pos rfl]
        · rw [e]
          have := (eff_op st ps1).trans f2
          rw [e'] at this
          have := this.trans (eff_op st2 ps3)
          rw [List.append_nil, List.append_nil] at this
          exact this
    | exclude =>
      dsimp only at h
      by_cases hx : st.excluding = true
      · rw [if_pos hx] at h; cases h
      · rw [if_neg hx] at h
        obtain ⟨⟨t', s⟩, h1, h2⟩ := obind_ok h
        cases h2
        obtain ⟨a, rest, ps1, hs, ho, e, l1⟩ := lex_op_inv (by intro p hc; cases hc) hl
        obtain ⟨st2, ps2, e2, l2, f2⟩ := ih.factor { advance (skipPaths st) with excluding := true } _ _ _ h1 ps1 l1
        refine ⟨{ st2 with excluding := false, excludes := st2.excludes ++ [t'.main] }, ps2, ?_, l2, ?_⟩
        · rw [factor_cons hs]
          cases ho
          rw [if_neg (by decide), if_pos rfl, if_neg hx, e2]
          rfl
        · rw [e]
          refine ⟨?_, ?_, ?_, f2.implicitPrint, f2.limit, f2.calls⟩
          · rw [(eff_op st ps1).roots]; exact f2.roots
          · cases hb : st.excluding with
            | false => rfl
            | true => exact absurd hb hx
          · show st2.excludes ++ [t'.main] = st.excludes ++ (t'.excluded ++ [t'.main])
            rw [f2.excludes, List.append_assoc]; rfl
    | not =>
      dsimp only at h
      obtain ⟨⟨t', s⟩, h1, h2⟩ := obind_ok h
      cases h2
      obtain ⟨a, rest, ps1, hs, ho, e, l1⟩ := lex_op_inv (by intro p hc; cases hc) hl
      obtain ⟨st2, ps2, e2, l2, f2⟩ := ih.factor (advance (skipPaths st)) _ _ _ h1 ps1 l1
      refine ⟨st2, ps2, ?_, l2, ?_⟩
      · rw [factor_cons hs]
        cases ho
        · rw [if_neg (by decide), if_neg (by decide), if_pos (Or.inl rfl), e2]; rfl
        · rw [if_neg (by decide), if_neg (by decide), if_pos (Or.inr rfl), e2]; rfl
      · rw [e]; exact (eff_op st ps1).trans f2
    | prim p =>
      dsimp only at h
      by_cases hc : p.action = true ∧ st.excluding = true
      · rw [if_pos hc] at h; cases h
      · rw [if_neg hc] at h
        cases h
        obtain ⟨ps', e, h⟩ := lex_head hl
        rcases h with ⟨_, h, _⟩ | ⟨a, rest, t, toks', hs, ht, ho, hl'⟩ | ⟨a, rest, q, toks', ps'', hs, ht, ho, hr, hl', e'⟩
        · cases h
        · cases ht; generalize hk : Tok.prim p = k at ho; cases ho <;> cases hk
        · cases ht
          have h' : (skipPaths st).args = a :: rest := hs
          refine ⟨usePrim (skipPaths st) p, ps'', ?_, ?_, ?_⟩
          · rw [factor_cons hs, if_neg, if_neg, if_neg]
            · unfold primary
              rw [h', hr]
              exact if_neg (show ¬ (p.action = true ∧ (skipPaths st).excluding = true) from hc)
            · rintro (h | h)
              · exact no_op ho h .bang
              · exact no_op ho h .not
            · intro h; exact no_op ho h .exclude
            · intro h; exact no_op ho h .lparen
          · show Lex prim (st.started || p.starts) ((skipPaths st).args.drop p.argc) r ps''
            rw [h']; exact hl'
          · rw [e, e']; exact (Eff.skip st _).trans (Eff.usePrim (skipPaths st) p ps'')
    | rparen => cases h
    | and => cases h
    | or => cases h
    | comma => cases h

theorem complete_termLoop {n : Nat} (ih : Complete prim n) (t0 : Tree) (st : St) (ts : List Tok) (t : Tree) (r : List Tok) (h : tTermLoop (n + 1) st.excluding t0 ts = .ok (t, r)) :
    GetsMore prim (termLoop prim (n + 1)) t0 st ts t r := by
  rw [tTermLoop_succ] at h
  by_cases hs : stopTerm ts = true
  · rw [if_pos hs] at h
    cases h
    apply getsMore_stop
    intro ps hl
    obtain ⟨ps', e, h⟩ := lex_head hl
    rcases h with ⟨h, _, _⟩ | ⟨a, rest, tok, toks', hs', ht, ho, hl'⟩ | ⟨a, rest, p, toks', ps'', hs', ht, ho, hr, hl', e'⟩
    · exact termLoop_nil h
    · rw [termLoop_cons hs']
      rw [if_pos]
      subst ht
      generalize hk : tok = k at ho
      cases ho <;> subst hk <;> first | decide | cases hs
    · subst ht; cases hs
  · rw [if_neg hs] at h
    obtain ⟨⟨u, s⟩, h1, h2⟩ := obind_ok h
    intro ps hl
    obtain ⟨ps', e, hh⟩ := lex_head hl
    have key : ∃ a rest ps1, (skipArgs st.started st.args).2 = a :: rest ∧ ¬ (a = A "-o" ∨ a = A "-or" ∨ a = A "," ∨ a = A ")") ∧
        Lex prim (skipAnd a (skipPaths st)).started (skipAnd a (skipPaths st)).args (tSkipAnd ts) ps1 ∧ Eff st ps [] [] (skipAnd a (skipPaths st)) ps1 ∧
        (skipAnd a (skipPaths st)).excluding = st.excluding := by
      rcases hh with ⟨_, h, _⟩ | ⟨a, rest, tok, toks', hs', ht, ho, hl'⟩ | ⟨a, rest, p, toks', ps'', hs', ht, ho, hr, hl', e'⟩
      · subst h; exact absurd rfl hs
      · subst ht
        by_cases hand : tok = .and
        · subst hand
          refine ⟨a, rest, ps', hs', ?_, ?_⟩
          · cases ho <;> decide
          · have ha : a = A "-a" ∨ a = A "-and" := by cases ho <;> decide
            unfold skipAnd
            rw [if_pos ha]
            refine ⟨?_, by rw [e]; exact eff_op st ps', rfl⟩
            show Lex prim true ((skipArgs st.started st.args).2.drop 1) toks' ps'
            rw [hs']; exact hl'
        · have h3 : tSkipAnd (tok :: toks') = tok :: toks' := by
            cases tok <;> first | rfl | exact absurd rfl hand
          have ha : ¬ (a = A "-a" ∨ a = A "-and") := by
            rintro (h | h)
            · exact hand (op_eq ho h .a)
            · exact hand (op_eq ho h .and)
          obtain ⟨ps2, e2, l2⟩ := lex_skip hl
          refine ⟨a, rest, ps2, hs', ?_, ?_⟩
          · generalize hk : tok = k at ho
            cases ho <;> subst hk <;> first | decide | exact absurd rfl hs
          · unfold skipAnd
            rw [if_neg ha, h3]
            exact ⟨l2, by rw [e2]; exact Eff.skip st ps2, rfl⟩
      · subst ht
        have ha : ¬ (a = A "-a" ∨ a = A "-and") := by
          rintro (h | h)
          · exact no_op ho h .a
          · exact no_op ho h .and
        obtain ⟨ps2, e2, l2⟩ := lex_skip hl
        refine ⟨a, rest, ps2, hs', ?_, ?_⟩
        · rintro (h | h | h | h)
          · exact no_op ho h .o
          · exact no_op ho h .or
          · exact no_op ho h .comma
          · exact no_op ho h .rparen
        · unfold skipAnd
          rw [if_neg ha]
          exact ⟨l2, by rw [e2]; exact Eff.skip st ps2, rfl⟩
    obtain ⟨a, rest, ps1, hs', hno, l1, f1, hx⟩ := key
    rw [← hx] at h1
    obtain ⟨st2, ps2, e2, l2, f2⟩ := ih.factor _ _ _ _ h1 ps1 l1
    have h2' : tTermLoop n st2.excluding (.and t0 u) s = .ok (t, r) := by
      rw [f2.excluding, hx]; exact h2
    obtain ⟨st3, ps3, xs, pr, e3, l3, f3, hxs, hpr⟩ := ih.termLoop _ _ _ _ _ h2' ps2 l2
    refine ⟨st3, ps3, u.excluded ++ xs, u.prims ++ pr, ?_, l3, (f1.trans f2).trans f3, ?_, ?_⟩
    · rw [termLoop_cons hs', if_neg hno, e2]; exact e3
    · rw [hxs, ← List.append_assoc]; rfl
    · rw [hpr, ← List.append_assoc]; rfl

/-- One round of the other loops. -/
theorem getsMore_step {f : St → Out (E × St)} {loop loop' : E → St → Out (E × St)} {mkE : E → E → E} {mkT : Tree → Tree → Tree} {tok : Tok} {t0 u t : Tree} {st : St} {ts s r : List Tok}
    (hn : ∀ p, tok ≠ .prim p)
    (heq : ∀ a rest lhs, (skipArgs st.started st.args).2 = a :: rest → Operator a tok → loop' lhs st = (f (advance (skipPaths st))).bind fun x => loop (mkE lhs x.1) x.2)
    (hmain : ∀ t u, (mkT t u).main = mkE t.main u.main) (hexc : ∀ t u, (mkT t u).excluded = t.excluded ++ u.excluded) (hprims : ∀ t u, (mkT t u).prims = t.prims ++ u.prims)
    (h1 : Gets prim f (advance (skipPaths st)) ts u s)
    (h2 : ∀ st', st'.excluding = st.excluding → GetsMore prim loop (mkT t0 u) st' s t r) : GetsMore prim loop' t0 st (tok :: ts) t r := by
  intro ps hl
  obtain ⟨a, rest, ps1, hs, ho, e, l1⟩ := lex_op_inv hn hl
  obtain ⟨st2, ps2, e2, l2, f2⟩ := h1 ps1 l1
  obtain ⟨st3, ps3, xs, pr, e3, l3, f3, hxs, hpr⟩ := h2 st2 f2.excluding ps2 l2
  refine ⟨st3, ps3, u.excluded ++ xs, u.prims ++ pr, ?_, l3, ?_, ?_, ?_⟩
  · rw [heq a rest _ hs ho, e2]
    rw [hmain] at e3; exact e3
  · rw [e]; exact ((eff_op st ps1).trans f2).trans f3
  · rw [hxs, hexc, ← List.append_assoc]
  · rw [hpr, hprims, ← List.append_assoc]

theorem complete_succ {n : Nat} (ih : Complete prim n) : Complete prim (n + 1) := by
  constructor
  · exact complete_factor ih
  · intro st ts t r h
    rw [tTerm_succ] at h
    obtain ⟨⟨u, s⟩, h1, h2⟩ := obind_ok h
    exact gets_more term_succ (ih.factor _ _ _ _ h1) (fun st' hx => ih.termLoop _ _ _ _ _ (by rw [hx]; exact h2))
  · exact complete_termLoop ih
  · intro st ts t r h
    rw [tClause_succ] at h
    obtain ⟨⟨u, s⟩, h1, h2⟩ := obind_ok h
    exact gets_more clause_succ (ih.term _ _ _ _ h1) (fun st' hx => ih.clauseLoop _ _ _ _ _ (by rw [hx]; exact h2))
  · intro t0 st ts t r h
    by_cases hor : ∃ q, ts = .or :: q
    · obtain ⟨q, rfl⟩ := hor
      rw [tClauseLoop_succ] at h
      dsimp only at h
      obtain ⟨⟨u, s⟩, h1, h2⟩ := obind_ok h
      refine getsMore_step (f := term prim n) (loop := clauseLoop prim n) (mkE := E.or) (mkT := Tree.or) (by intro p hc; cases hc) ?_ (fun _ _ => rfl) (fun _ _ => rfl) (fun _ _ => rfl)
        (ih.term (advance (skipPaths st)) _ _ _ h1) (fun st' hx => ih.clauseLoop _ _ _ _ _ (by rw [hx]; exact h2))
      intro a rest lhs hs ho
      rw [clauseLoop_cons hs, if_neg]
      rintro ⟨h1, h2⟩
      generalize hk : Tok.or = k at ho
      cases ho <;> first | exact h1 rfl | exact h2 rfl | cases hk
    · have : (.ok (t0, ts) : Out (Tree × List Tok)) = .ok (t, r) := by
        rw [← h, tClauseLoop_succ]
        split
        · rename_i q
          exact absurd ⟨q, rfl⟩ hor
        · rfl
      cases this
      apply getsMore_stop
      intro ps hl
      obtain ⟨ps', e, hh⟩ := lex_head hl
      rcases hh with ⟨h, _, _⟩ | ⟨a, rest, tok, toks', hs', ht, ho, hl'⟩ | ⟨a, rest, p, toks', ps'', hs', ht, ho, hr, hl', e'⟩
      · exact clauseLoop_nil h
      · rw [clauseLoop_cons hs', if_pos]
        subst ht
        constructor
        · intro h; exact hor ⟨toks', by rw [op_eq ho h .o]⟩
        · intro h; exact hor ⟨toks', by rw [op_eq ho h .or]⟩
      · rw [clauseLoop_cons hs', if_pos]
        exact ⟨fun h => no_op ho h .o, fun h => no_op ho h .or⟩
  · intro st ts t r h
    rw [tExpr_succ] at h
    obtain ⟨⟨u, s⟩, h1, h2⟩ := obind_ok h
    exact gets_more expr_succ (ih.clause _ _ _ _ h1) (fun st' hx => ih.exprLoop _ _ _ _ _ (by rw [hx]; exact h2))
  · intro t0 st ts t r h
    by_cases hor : ∃ q, ts = .comma :: q
    · obtain ⟨q, rfl⟩ := hor
      rw [tExprLoop_succ] at h
      dsimp only at h
      obtain ⟨⟨u, s⟩, h1, h2⟩ := obind_ok h
      refine getsMore_step (f := clause prim n) (loop := exprLoop prim n) (mkE := E.comma) (mkT := Tree.comma) (by intro p hc; cases hc) ?_ (fun _ _ => rfl) (fun _ _ => rfl) (fun _ _ => rfl)
        (ih.clause (advance (skipPaths st)) _ _ _ h1) (fun st' hx => ih.exprLoop _ _ _ _ _ (by rw [hx]; exact h2))
      intro a rest lhs hs ho
      rw [exprLoop_cons hs, if_neg]
      intro h1
      generalize hk : Tok.comma = k at ho
      cases ho <;> first | exact h1 rfl | cases hk
    · have : (.ok (t0, ts) : Out (Tree × List Tok)) = .ok (t, r) := by
        rw [← h, tExprLoop_succ]
        split
        · rename_i q
          exact absurd ⟨q, rfl⟩ hor
        · rfl
      cases this
      apply getsMore_stop
      intro ps hl
      obtain ⟨ps', e, hh⟩ := lex_head hl
      rcases hh with ⟨h, _, _⟩ | ⟨a, rest, tok, toks', hs', ht, ho, hl'⟩ | ⟨a, rest, p, toks', ps'', hs', ht, ho, hr, hl', e'⟩
      · exact exprLoop_nil h
      · rw [exprLoop_cons hs', if_pos]
        subst ht
        intro h; exact hor ⟨toks', by rw [op_eq ho h .comma]⟩
      · rw [exprLoop_cons hs', if_pos]
        exact fun h => no_op ho h .comma

theorem complete : ∀ n, Complete prim n := by
  intro n
  induction n with
  | zero => constructor <;> (intros; rename_i h; cases h)
  | succ n ih => exact complete_succ ih

end Verif.Cmdline
