import Verif.Spec.Cmdline
/-! The parser on tokens instead of arguments, and the grammar. -/
namespace Verif.Cmdline

/-- `parse_factor()` for parentheses. -/
def tClose (t : Tree) : List Tok → Out (Tree × List Tok)
  | .rparen :: r => .ok (t, r)
  | _ => .err "expected a )"

/-- Where `parse_term()` stops. -/
def stopTerm : List Tok → Bool
  | [] => true
  | .or :: _ => true
  | .comma :: _ => true
  | .rparen :: _ => true
  | _ => false

def stopClause : List Tok → Bool
  | [] => true
  | .comma :: _ => true
  | .rparen :: _ => true
  | _ => false

def tSkipAnd : List Tok → List Tok
  | .and :: r => r
  | r => r

mutual
def tFactor : Nat → Bool → List Tok → Out (Tree × List Tok)
  | 0, _, _ => .ub
  | n + 1, ex, ts =>
    match ts with
    | .lparen :: r => (tExpr n ex r).bind fun x => tClose x.1 x.2
    | .exclude :: r => if ex then .err "not supported within -exclude" else (tFactor n true r).bind fun x => .ok (.exclude x.1, x.2)
    | .not :: r => (tFactor n ex r).bind fun x => .ok (.not x.1, x.2)
    | .prim p :: r => if p.action ∧ ex then .err "not supported within -exclude" else .ok (.leaf p, r)
    | _ => .err "expected a predicate"
def tTerm : Nat → Bool → List Tok → Out (Tree × List Tok)
  | 0, _, _ => .ub
  | n + 1, ex, ts => (tFactor n ex ts).bind fun x => tTermLoop n ex x.1 x.2
def tTermLoop : Nat → Bool → Tree → List Tok → Out (Tree × List Tok)
  | 0, _, _, _ => .ub
  | n + 1, ex, t, ts => if stopTerm ts then .ok (t, ts) else (tFactor n ex (tSkipAnd ts)).bind fun x => tTermLoop n ex (.and t x.1) x.2
def tClause : Nat → Bool → List Tok → Out (Tree × List Tok)
  | 0, _, _ => .ub
  | n + 1, ex, ts => (tTerm n ex ts).bind fun x => tClauseLoop n ex x.1 x.2
def tClauseLoop : Nat → Bool → Tree → List Tok → Out (Tree × List Tok)
  | 0, _, _, _ => .ub
  | n + 1, ex, t, ts => match ts with
    | .or :: r => (tTerm n ex r).bind fun x => tClauseLoop n ex (.or t x.1) x.2
    | _ => .ok (t, ts)
def tExpr : Nat → Bool → List Tok → Out (Tree × List Tok)
  | 0, _, _ => .ub
  | n + 1, ex, ts => (tClause n ex ts).bind fun x => tExprLoop n ex x.1 x.2
def tExprLoop : Nat → Bool → Tree → List Tok → Out (Tree × List Tok)
  | 0, _, _, _ => .ub
  | n + 1, ex, t, ts => match ts with
    | .comma :: r => (tClause n ex r).bind fun x => tExprLoop n ex (.comma t x.1) x.2
    | _ => .ok (t, ts)
end

theorem tFactor_succ (n : Nat) (ex : Bool) (ts : List Tok) : tFactor (n + 1) ex ts = match ts with
    | .lparen :: r => (tExpr n ex r).bind fun x => tClose x.1 x.2
    | .exclude :: r => if ex then .err "not supported within -exclude" else (tFactor n true r).bind fun x => .ok (.exclude x.1, x.2)
    | .not :: r => (tFactor n ex r).bind fun x => .ok (.not x.1, x.2)
    | .prim p :: r => if p.action ∧ ex then .err "not supported within -exclude" else .ok (.leaf p, r)
    | _ => .err "expected a predicate" := rfl
theorem tTerm_succ (n : Nat) (ex : Bool) (ts : List Tok) : tTerm (n + 1) ex ts = (tFactor n ex ts).bind fun x => tTermLoop n ex x.1 x.2 := rfl
theorem tTermLoop_succ (n : Nat) (ex : Bool) (t : Tree) (ts : List Tok) : tTermLoop (n + 1) ex t ts =
  if stopTerm ts then .ok (t, ts) else (tFactor n ex (tSkipAnd ts)).bind fun x => tTermLoop n ex (.and t x.1) x.2 := rfl
theorem tClause_succ (n : Nat) (ex : Bool) (ts : List Tok) : tClause (n + 1) ex ts = (tTerm n ex ts).bind fun x => tClauseLoop n ex x.1 x.2 := rfl
theorem tClauseLoop_succ (n : Nat) (ex : Bool) (t : Tree) (ts : List Tok) : tClauseLoop (n + 1) ex t ts = match ts with
    | .or :: r => (tTerm n ex r).bind fun x => tClauseLoop n ex (.or t x.1) x.2
    | _ => .ok (t, ts) := rfl
theorem tExpr_succ (n : Nat) (ex : Bool) (ts : List Tok) : tExpr (n + 1) ex ts = (tClause n ex ts).bind fun x => tExprLoop n ex x.1 x.2 := rfl
theorem tExprLoop_succ (n : Nat) (ex : Bool) (t : Tree) (ts : List Tok) : tExprLoop (n + 1) ex t ts = match ts with
    | .comma :: r => (tClause n ex r).bind fun x => tExprLoop n ex (.comma t x.1) x.2
    | _ => .ok (t, ts) := rfl

theorem obind_ok {α β : Type} {x : Out α} {f : α → Out β} {b : β} (h : x.bind f = .ok b) : ∃ a, x = .ok a ∧ f a = .ok b := by
  cases x with
  | ok a => exact ⟨a, rfl, h⟩
  | err e => cases h
  | ub => cases h

/-! ## More fuel does not matter -/

structure Mono (n : Nat) : Prop where
  factor : ∀ ex ts x, tFactor n ex ts = .ok x → tFactor (n + 1) ex ts = .ok x
  term : ∀ ex ts x, tTerm n ex ts = .ok x → tTerm (n + 1) ex ts = .ok x
  termLoop : ∀ ex t ts x, tTermLoop n ex t ts = .ok x → tTermLoop (n + 1) ex t ts = .ok x
  clause : ∀ ex ts x, tClause n ex ts = .ok x → tClause (n + 1) ex ts = .ok x
  clauseLoop : ∀ ex t ts x, tClauseLoop n ex t ts = .ok x → tClauseLoop (n + 1) ex t ts = .ok x
  expr : ∀ ex ts x, tExpr n ex ts = .ok x → tExpr (n + 1) ex ts = .ok x
  exprLoop : ∀ ex t ts x, tExprLoop n ex t ts = .ok x → tExprLoop (n + 1) ex t ts = .ok x

theorem mono_factor {n : Nat} (ih : Mono n) (ex : Bool) (ts : List Tok) (x : Tree × List Tok) (h : tFactor (n + 1) ex ts = .ok x) : tFactor (n + 2) ex ts = .ok x := by
  rw [tFactor_succ] at h ⊢
  cases ts with
  | nil => exact h
  | cons a r =>
    cases a with
    | lparen =>
      dsimp only at h ⊢
      obtain ⟨y, h1, h2⟩ := obind_ok h
      rw [ih.expr _ _ _ h1]; exact h2
    | exclude =>
      dsimp only at h ⊢
      cases ex with
      | true => exact h
      | false =>
        rw [if_neg (by decide)] at h ⊢
        obtain ⟨y, h1, h2⟩ := obind_ok h
        rw [ih.factor _ _ _ h1]; exact h2
    | not =>
      dsimp only at h ⊢
      obtain ⟨y, h1, h2⟩ := obind_ok h
      rw [ih.factor _ _ _ h1]; exact h2
    | prim p => exact h
    | rparen => exact h
    | and => exact h
    | or => exact h
    | comma => exact h

theorem mono_succ {n : Nat} (ih : Mono n) : Mono (n + 1) := by
  refine ⟨fun ex ts x h => mono_factor ih ex ts x h, ?_, ?_, ?_, ?_, ?_, ?_⟩
  · intro ex ts x h
    rw [tTerm_succ] at h ⊢
    obtain ⟨y, h1, h2⟩ := obind_ok h
    rw [ih.factor _ _ _ h1]; exact ih.termLoop _ _ _ _ h2
  · intro ex t ts x h
    rw [tTermLoop_succ] at h ⊢
    by_cases hs : stopTerm ts = true
    · rw [if_pos hs] at h ⊢; exact h
    · rw [if_neg hs] at h ⊢
      obtain ⟨y, h1, h2⟩ := obind_ok h
      rw [ih.factor _ _ _ h1]; exact ih.termLoop _ _ _ _ h2
  · intro ex ts x h
    rw [tClause_succ] at h ⊢
    obtain ⟨y, h1, h2⟩ := obind_ok h
    rw [ih.term _ _ _ h1]; exact ih.clauseLoop _ _ _ _ h2
  · intro ex t ts x h
    rw [tClauseLoop_succ] at h ⊢
    cases ts with
    | nil => exact h
    | cons a r =>
      cases a <;> try exact h
      dsimp only at h ⊢
      obtain ⟨y, h1, h2⟩ := obind_ok h
      rw [ih.term _ _ _ h1]; exact ih.clauseLoop _ _ _ _ h2
  · intro ex ts x h
    rw [tExpr_succ] at h ⊢
    obtain ⟨y, h1, h2⟩ := obind_ok h
    rw [ih.clause _ _ _ h1]; exact ih.exprLoop _ _ _ _ h2
  · intro ex t ts x h
    rw [tExprLoop_succ] at h ⊢
    cases ts with
    | nil => exact h
    | cons a r =>
      cases a <;> try exact h
      dsimp only at h ⊢
      obtain ⟨y, h1, h2⟩ := obind_ok h
      rw [ih.clause _ _ _ h1]; exact ih.exprLoop _ _ _ _ h2

theorem mono : ∀ n, Mono n := by
  intro n
  induction n with
  | zero => constructor <;> (intros; rename_i h; cases h)
  | succ n ih => exact mono_succ ih

theorem mono_le {α : Type} {f : Nat → Out α} (h : ∀ n x, f n = .ok x → f (n + 1) = .ok x) {n m : Nat} (hnm : n ≤ m) {x : α} (hx : f n = .ok x) : f m = .ok x := by
  induction hnm with
  | refl => exact hx
  | step _ ih => exact h _ _ ih

theorem factor_le {n m : Nat} (h : n ≤ m) {ex : Bool} {ts : List Tok} {x : Tree × List Tok} (hx : tFactor n ex ts = .ok x) : tFactor m ex ts = .ok x :=
  mono_le (f := fun n => tFactor n ex ts) (fun n x h => (mono n).factor ex ts x h) h hx
theorem term_le {n m : Nat} (h : n ≤ m) {ex : Bool} {ts : List Tok} {x : Tree × List Tok} (hx : tTerm n ex ts = .ok x) : tTerm m ex ts = .ok x :=
  mono_le (f := fun n => tTerm n ex ts) (fun n x h => (mono n).term ex ts x h) h hx
theorem termLoop_le {n m : Nat} (h : n ≤ m) {ex : Bool} {t : Tree} {ts : List Tok} {x : Tree × List Tok} (hx : tTermLoop n ex t ts = .ok x) : tTermLoop m ex t ts = .ok x :=
  mono_le (f := fun n => tTermLoop n ex t ts) (fun n x h => (mono n).termLoop ex t ts x h) h hx
theorem clause_le {n m : Nat} (h : n ≤ m) {ex : Bool} {ts : List Tok} {x : Tree × List Tok} (hx : tClause n ex ts = .ok x) : tClause m ex ts = .ok x :=
  mono_le (f := fun n => tClause n ex ts) (fun n x h => (mono n).clause ex ts x h) h hx
theorem clauseLoop_le {n m : Nat} (h : n ≤ m) {ex : Bool} {t : Tree} {ts : List Tok} {x : Tree × List Tok} (hx : tClauseLoop n ex t ts = .ok x) : tClauseLoop m ex t ts = .ok x :=
  mono_le (f := fun n => tClauseLoop n ex t ts) (fun n x h => (mono n).clauseLoop ex t ts x h) h hx
theorem expr_le {n m : Nat} (h : n ≤ m) {ex : Bool} {ts : List Tok} {x : Tree × List Tok} (hx : tExpr n ex ts = .ok x) : tExpr m ex ts = .ok x :=
  mono_le (f := fun n => tExpr n ex ts) (fun n x h => (mono n).expr ex ts x h) h hx
theorem exprLoop_le {n m : Nat} (h : n ≤ m) {ex : Bool} {t : Tree} {ts : List Tok} {x : Tree × List Tok} (hx : tExprLoop n ex t ts = .ok x) : tExprLoop m ex t ts = .ok x :=
  mono_le (f := fun n => tExprLoop n ex t ts) (fun n x h => (mono n).exprLoop ex t ts x h) h hx

/-! ## Completeness -/

/-- What the parser does with something that follows the grammar, before the rest `r`. -/
def Comp : Level → Bool → List Tok → Tree → Prop
  | .factor, ex, us, t => (∃ a v, us = a :: v ∧ (∀ r, stopTerm (a :: r) = false ∧ tSkipAnd (a :: r) = a :: r)) ∧ ∀ r, ∃ n, tFactor n ex (us ++ r) = .ok (t, r)
  | .term, ex, us, t => ∀ r x m, tTermLoop m ex t r = .ok x → ∃ n, tTerm n ex (us ++ r) = .ok x
  | .clause, ex, us, t => ∀ r x m, stopTerm r = true → tClauseLoop m ex t r = .ok x → ∃ n, tClause n ex (us ++ r) = .ok x
  | .expr, ex, us, t => ∀ r x m, stopClause r = true → tExprLoop m ex t r = .ok x → ∃ n, tExpr n ex (us ++ r) = .ok x

theorem stopClause_term {r : List Tok} (h : stopClause r = true) : stopTerm r = true := by
  cases r with
  | nil => rfl
  | cons a r => cases a <;> first | rfl | cases h

theorem clauseLoop_stop {r : List Tok} (h : stopClause r = true) (ex : Bool) (t : Tree) : tClauseLoop 1 ex t r = .ok (t, r) := by
  cases r with
  | nil => rfl
  | cons a r => cases a <;> first | rfl | cases h

theorem comp {l : Level} {ex : Bool} {us : List Tok} {t : Tree} (h : Gram l ex us t) : Comp l ex us t := by
  induction h with
  | paren ex ts t _ ih =>
    refine ⟨⟨.lparen, ts ++ [.rparen], rfl, fun r => ⟨rfl, rfl⟩⟩, ?_⟩
    intro r
    obtain ⟨n, hn⟩ := ih (.rparen :: r) (t, .rparen :: r) 1 rfl rfl
    refine ⟨n + 1, ?_⟩
    have he : Tok.lparen :: ts ++ [Tok.rparen] ++ r = .lparen :: (ts ++ .rparen :: r) := by simp
    rw [he, tFactor_succ]
    dsimp only
    rw [hn]; rfl
  | not ex ts t _ ih =>
    refine ⟨⟨.not, ts, rfl, fun r => ⟨rfl, rfl⟩⟩, ?_⟩
    intro r
    obtain ⟨n, hn⟩ := ih.2 r
    refine ⟨n + 1, ?_⟩
    rw [List.cons_append, tFactor_succ]
    dsimp only
    rw [hn]; rfl
  | exclude ts t _ ih =>
    refine ⟨⟨.exclude, ts, rfl, fun r => ⟨rfl, rfl⟩⟩, ?_⟩
    intro r
    obtain ⟨n, hn⟩ := ih.2 r
    refine ⟨n + 1, ?_⟩
    rw [List.cons_append, tFactor_succ]
    dsimp only
    rw [if_neg (by decide), hn]; rfl
  | prim ex p hp =>
    refine ⟨⟨.prim p, [], rfl, fun r => ⟨rfl, rfl⟩⟩, ?_⟩
    intro r
    refine ⟨1, ?_⟩
    show (if p.action = true ∧ ex = true then _ else _) = _
    exact if_neg hp
  | factor ex ts t _ ih =>
    intro r x m hm
    obtain ⟨n, hn⟩ := ih.2 r
    refine ⟨max n m + 1, ?_⟩
    rw [tTerm_succ, factor_le (Nat.le_max_left n m) hn]
    exact termLoop_le (Nat.le_max_right n m) hm
  | juxt ex ts us t u _ _ ih1 ih2 =>
    intro r x m hm
    obtain ⟨⟨a, v, hv, hs⟩, h2⟩ := ih2
    obtain ⟨n, hn⟩ := h2 r
    rw [List.append_assoc]
    refine ih1 (us ++ r) x (max n m + 1) ?_
    rw [tTermLoop_succ]
    have he : us ++ r = a :: (v ++ r) := by rw [hv]; rfl
    rw [he, if_neg (by rw [(hs _).1]; decide), (hs _).2, ← he, factor_le (Nat.le_max_left n m) hn]
    exact termLoop_le (Nat.le_max_right n m) hm
  | and ex ts us t u _ _ ih1 ih2 =>
    intro r x m hm
    obtain ⟨_, h2⟩ := ih2
    obtain ⟨n, hn⟩ := h2 r
    rw [List.append_assoc]
    refine ih1 (.and :: us ++ r) x (max n m + 1) ?_
    rw [tTermLoop_succ]
    rw [if_neg (by intro hc; cases hc)]
    show (tFactor (max n m) ex (us ++ r)).bind _ = _
    rw [factor_le (Nat.le_max_left n m) hn]
    exact termLoop_le (Nat.le_max_right n m) hm
  | term ex ts t _ ih =>
    intro r x m hr hm
    obtain ⟨n, hn⟩ := ih r (t, r) 1 (by rw [tTermLoop_succ, if_pos hr])
    refine ⟨max n m + 1, ?_⟩
    rw [tClause_succ, term_le (Nat.le_max_left n m) hn]
    exact clauseLoop_le (Nat.le_max_right n m) hm
  | or ex ts us t u _ _ ih1 ih2 =>
    intro r x m hr hm
    obtain ⟨n, hn⟩ := ih2 r (u, r) 1 (by rw [tTermLoop_succ, if_pos hr])
    rw [List.append_assoc]
    refine ih1 (.or :: us ++ r) x (max n m + 1) rfl ?_
    rw [tClauseLoop_succ]
    show (tTerm (max n m) ex (us ++ r)).bind _ = _
    rw [term_le (Nat.le_max_left n m) hn]
    exact clauseLoop_le (Nat.le_max_right n m) hm
  | clause ex ts t _ ih =>
    intro r x m hr hm
    obtain ⟨n, hn⟩ := ih r (t, r) 1 (stopClause_term hr) (clauseLoop_stop hr ex t)
    refine ⟨max n m + 1, ?_⟩
    rw [tExpr_succ, clause_le (Nat.le_max_left n m) hn]
    exact exprLoop_le (Nat.le_max_right n m) hm
  | comma ex ts us t u _ _ ih1 ih2 =>
    intro r x m hr hm
    obtain ⟨n, hn⟩ := ih2 r (u, r) 1 (stopClause_term hr) (clauseLoop_stop hr ex u)
    rw [List.append_assoc]
    refine ih1 (.comma :: us ++ r) x (max n m + 1) rfl ?_
    rw [tExprLoop_succ]
    show (tClause (max n m) ex (us ++ r)).bind _ = _
    rw [clause_le (Nat.le_max_left n m) hn]
    exact exprLoop_le (Nat.le_max_right n m) hm

/-- The token parser finds what is in the grammar. -/
theorem tExpr_complete {ex : Bool} {ts : List Tok} {t : Tree} (h : Gram .expr ex ts t) : ∃ n, tExpr n ex ts = .ok (t, []) := by
  have := comp h [] (t, []) 1 rfl rfl
  rw [List.append_nil] at this
  exact this

theorem gram_unique {ex : Bool} {ts : List Tok} {t u : Tree} (h : Gram .expr ex ts t) (h' : Gram .expr ex ts u) : t = u := by
  obtain ⟨n, hn⟩ := tExpr_complete h
  obtain ⟨m, hm⟩ := tExpr_complete h'
  have h1 := expr_le (Nat.le_max_left n m) hn
  rw [expr_le (Nat.le_max_right n m) hm] at h1
  injection h1 with h1
  injection h1 with h1
  exact h1.symm

end Verif.Cmdline
