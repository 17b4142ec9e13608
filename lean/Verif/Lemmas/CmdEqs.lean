import Verif.Lemmas.CmdLex
import Verif.Lemmas.CmdTok
/-! The functions of the parser, case by case; fuel. -/
namespace Verif.Cmdline

variable {prim : List Arg → Out Prim}

theorem factor_nil {n : Nat} {st : St} (h : (skipArgs st.started st.args).2 = []) : factor prim (n + 1) st = .err "expression terminated prematurely" := by
  have h' : (skipPaths st).args = [] := h
  unfold factor; rw [h']

theorem factor_cons {n : Nat} {st : St} {a : Arg} {rest : List Arg} (h : (skipArgs st.started st.args).2 = a :: rest) : factor prim (n + 1) st =
    if a = A "(" then (expr prim n (advance (skipPaths st))).bind fun r => closeParen r.1 r.2
    else if a = A "-exclude" then
      if st.excluding then .err "not supported within -exclude"
      else (factor prim n { advance (skipPaths st) with excluding := true }).bind fun r => .ok (excluded r.1 r.2)
    else if a = A "!" ∨ a = A "-not" then (factor prim n (advance (skipPaths st))).bind fun r => .ok (.not r.1, r.2)
    else primary prim (skipPaths st) := by
  have h' : (skipPaths st).args = a :: rest := h
  conv => lhs; unfold factor
  rw [h']

theorem term_succ {n : Nat} {st : St} : term prim (n + 1) st = (factor prim n st).bind fun r => termLoop prim n r.1 r.2 := rfl
theorem clause_succ {n : Nat} {st : St} : clause prim (n + 1) st = (term prim n st).bind fun r => clauseLoop prim n r.1 r.2 := rfl
theorem expr_succ {n : Nat} {st : St} : expr prim (n + 1) st = (clause prim n st).bind fun r => exprLoop prim n r.1 r.2 := rfl

theorem termLoop_nil {n : Nat} {lhs : E} {st : St} (h : (skipArgs st.started st.args).2 = []) : termLoop prim (n + 1) lhs st = .ok (lhs, skipPaths st) := by
  have h' : (skipPaths st).args = [] := h
  unfold termLoop; rw [h']
theorem termLoop_cons {n : Nat} {lhs : E} {st : St} {a : Arg} {rest : List Arg} (h : (skipArgs st.started st.args).2 = a :: rest) : termLoop prim (n + 1) lhs st =
    if a = A "-o" ∨ a = A "-or" ∨ a = A "," ∨ a = A ")" then .ok (lhs, skipPaths st)
    else (factor prim n (skipAnd a (skipPaths st))).bind fun r => termLoop prim n (.and lhs r.1) r.2 := by
  have h' : (skipPaths st).args = a :: rest := h
  conv => lhs; unfold termLoop
  rw [h']
theorem clauseLoop_nil {n : Nat} {lhs : E} {st : St} (h : (skipArgs st.started st.args).2 = []) : clauseLoop prim (n + 1) lhs st = .ok (lhs, skipPaths st) := by
  have h' : (skipPaths st).args = [] := h
  unfold clauseLoop; rw [h']
theorem clauseLoop_cons {n : Nat} {lhs : E} {st : St} {a : Arg} {rest : List Arg} (h : (skipArgs st.started st.args).2 = a :: rest) : clauseLoop prim (n + 1) lhs st =
    if a ≠ A "-o" ∧ a ≠ A "-or" then .ok (lhs, skipPaths st)
    else (term prim n (advance (skipPaths st))).bind fun r => clauseLoop prim n (.or lhs r.1) r.2 := by
  have h' : (skipPaths st).args = a :: rest := h
  conv => lhs; unfold clauseLoop
  rw [h']
theorem exprLoop_nil {n : Nat} {lhs : E} {st : St} (h : (skipArgs st.started st.args).2 = []) : exprLoop prim (n + 1) lhs st = .ok (lhs, skipPaths st) := by
  have h' : (skipPaths st).args = [] := h
  unfold exprLoop; rw [h']
theorem exprLoop_cons {n : Nat} {lhs : E} {st : St} {a : Arg} {rest : List Arg} (h : (skipArgs st.started st.args).2 = a :: rest) : exprLoop prim (n + 1) lhs st =
    if a ≠ A "," then .ok (lhs, skipPaths st)
    else (clause prim n (advance (skipPaths st))).bind fun r => exprLoop prim n (.comma lhs r.1) r.2 := by
  have h' : (skipPaths st).args = a :: rest := h
  conv => lhs; unfold exprLoop
  rw [h']

/-! ## More fuel -/

theorem bind_stable {α β : Type} {x x' : Out α} {f f' : α → Out β} (h : x ≠ .ub → x' = x) (h' : ∀ a, f a ≠ .ub → f' a = f a) (hn : x.bind f ≠ .ub) :
    x'.bind f' = x.bind f := by
  cases x with
  | ok a => rw [h (by intro hc; cases hc)]; exact h' a hn
  | err e => rw [h (by intro hc; cases hc)]; rfl
  | ub => exact absurd rfl hn

structure Stable (prim : List Arg → Out Prim) (n : Nat) : Prop where
  factor : ∀ st, factor prim n st ≠ .ub → Cmdline.factor prim (n + 1) st = Cmdline.factor prim n st
  term : ∀ st, term prim n st ≠ .ub → Cmdline.term prim (n + 1) st = Cmdline.term prim n st
  termLoop : ∀ e st, termLoop prim n e st ≠ .ub → Cmdline.termLoop prim (n + 1) e st = Cmdline.termLoop prim n e st
  clause : ∀ st, clause prim n st ≠ .ub → Cmdline.clause prim (n + 1) st = Cmdline.clause prim n st
  clauseLoop : ∀ e st, clauseLoop prim n e st ≠ .ub → Cmdline.clauseLoop prim (n + 1) e st = Cmdline.clauseLoop prim n e st
  expr : ∀ st, expr prim n st ≠ .ub → Cmdline.expr prim (n + 1) st = Cmdline.expr prim n st
  exprLoop : ∀ e st, exprLoop prim n e st ≠ .ub → Cmdline.exprLoop prim (n + 1) e st = Cmdline.exprLoop prim n e st

theorem ite_stable {α : Type} {c : Prop} [Decidable c] {a a' b b' : Out α} (h : c → a ≠ .ub → a' = a) (h' : ¬ c → b ≠ .ub → b' = b) (hn : (if c then a else b) ≠ .ub) :
    (if c then a' else b') = if c then a else b := by
  by_cases hc : c
  · rw [if_pos hc] at hn ⊢; rw [if_pos hc]; exact h hc hn
  · rw [if_neg hc] at hn ⊢; rw [if_neg hc]; exact h' hc hn

theorem stable_succ {n : Nat} (ih : Stable prim n) : Stable prim (n + 1) := by
  constructor
  · intro st
    cases h : (skipArgs st.started st.args).2 with
    | nil => intro _; rw [factor_nil h, factor_nil h]
    | cons a rest =>
      rw [factor_cons h, factor_cons h]
      refine ite_stable (fun _ => bind_stable (ih.expr _) (fun _ _ => rfl)) (fun _ => ite_stable (fun _ => ite_stable (fun _ _ => rfl) (fun _ => ?_)) (fun _ => ite_stable (fun _ => ?_) (fun _ _ => rfl)))
      · exact bind_stable (ih.factor _) (fun _ _ => rfl)
      · exact bind_stable (ih.factor _) (fun _ _ => rfl)
  · intro st
    rw [term_succ, term_succ]
    exact bind_stable (ih.factor _) (fun _ => ih.termLoop _ _)
  · intro e st
    cases h : (skipArgs st.started st.args).2 with
    | nil => intro _; rw [termLoop_nil h, termLoop_nil h]
    | cons a rest =>
      rw [termLoop_cons h, termLoop_cons h]
      exact ite_stable (fun _ _ => rfl) (fun _ => bind_stable (ih.factor _) (fun _ => ih.termLoop _ _))
  · intro st
    rw [clause_succ, clause_succ]
    exact bind_stable (ih.term _) (fun _ => ih.clauseLoop _ _)
  · intro e st
    cases h : (skipArgs st.started st.args).2 with
    | nil => intro _; rw [clauseLoop_nil h, clauseLoop_nil h]
    | cons a rest =>
      rw [clauseLoop_cons h, clauseLoop_cons h]
      exact ite_stable (fun _ _ => rfl) (fun _ => bind_stable (ih.term _) (fun _ => ih.clauseLoop _ _))
  · intro st
    rw [expr_succ, expr_succ]
    exact bind_stable (ih.clause _) (fun _ => ih.exprLoop _ _)
  · intro e st
    cases h : (skipArgs st.started st.args).2 with
    | nil => intro _; rw [exprLoop_nil h, exprLoop_nil h]
    | cons a rest =>
      rw [exprLoop_cons h, exprLoop_cons h]
      exact ite_stable (fun _ _ => rfl) (fun _ => bind_stable (ih.clause _) (fun _ => ih.exprLoop _ _))

theorem stable : ∀ n, Stable prim n := by
  intro n
  induction n with
  | zero => constructor <;> (intros; rename_i h; exact absurd rfl h)
  | succ n ih => exact stable_succ ih

theorem expr_stable {n m : Nat} (h : n ≤ m) {st : St} (hn : expr prim n st ≠ .ub) : expr prim m st = expr prim n st := by
  induction h with
  | refl => rfl
  | step h ih =>
    rename_i k
    rw [(stable k).expr st (by rw [ih]; exact hn), ih]

/-! ## Enough fuel -/

theorem bind_ne_ub {α β : Type} {x : Out α} {f : α → Out β} (h : x ≠ .ub) (h' : ∀ a, x = .ok a → f a ≠ .ub) : x.bind f ≠ .ub := by
  cases x with
  | ok a => exact h' a rfl
  | err e => intro hc; cases hc
  | ub => exact absurd rfl h

def size (st : St) : Nat := st.args.length

theorem size_skip (st : St) : size (skipPaths st) ≤ size st := skip_len _ _

theorem size_advance {st : St} {a : Arg} {rest : List Arg} (h : (skipArgs st.started st.args).2 = a :: rest) : size (advance (skipPaths st)) < size st := by
  have h1 := skip_len st.started st.args
  have h2 : size (advance (skipPaths st)) = rest.length := by
    show ((skipArgs st.started st.args).2.drop 1).length = _
    rw [h]; rfl
  rw [h2]
  rw [h] at h1
  exact h1

theorem size_skipAnd {st : St} {a : Arg} {rest : List Arg} (h : (skipArgs st.started st.args).2 = a :: rest) : size (skipAnd a (skipPaths st)) ≤ size st := by
  unfold skipAnd
  by_cases hc : a = A "-a" ∨ a = A "-and"
  · rw [if_pos hc]; exact Nat.le_of_lt (size_advance h)
  · rw [if_neg hc]; exact size_skip st

theorem closeParen_ok {e : E} {st : St} {x : E × St} (h : closeParen e st = .ok x) :
    ∃ rest, (skipArgs st.started st.args).2 = A ")" :: rest ∧ x = (e, advance (skipPaths st)) := by
  cases hs : (skipArgs st.started st.args).2 with
  | nil =>
    have h' : (skipPaths st).args = [] := hs
    unfold closeParen at h
    dsimp only at h
    rw [h'] at h
    cases h
  | cons a rest =>
    have h' : (skipPaths st).args = a :: rest := hs
    unfold closeParen at h
    dsimp only at h
    rw [h'] at h
    dsimp only at h
    by_cases hc : a = A ")"
    · rw [if_pos hc] at h
      cases h
      exact ⟨rest, by rw [hc], rfl⟩
    · rw [if_neg hc] at h; cases h

theorem closeParen_ub (e : E) (st : St) : closeParen e st ≠ .ub := by
  unfold closeParen
  dsimp only
  split
  · intro hc; cases hc
  · split
    · intro hc; cases hc
    · intro hc; cases hc

theorem primary_ok {st : St} {x : E × St} (h : primary prim st = .ok x) :
    ∃ p, prim st.args = .ok p ∧ ¬ (p.action = true ∧ st.excluding = true) ∧ x = (.leaf (.prim p), usePrim st p) := by
  unfold primary at h
  obtain ⟨p, h1, h2⟩ := obind_ok h
  by_cases hc : p.action = true ∧ st.excluding = true
  · rw [if_pos hc] at h2; cases h2
  · rw [if_neg hc] at h2
    cases h2
    exact ⟨p, h1, hc, rfl⟩

structure Fuel (prim : List Arg → Out Prim) (n : Nat) : Prop where
  factor : ∀ st, (4 * size st + 1 ≤ n → factor prim n st ≠ .ub) ∧ ∀ x, Cmdline.factor prim n st = .ok x → size x.2 < size st
  term : ∀ st, (4 * size st + 2 ≤ n → term prim n st ≠ .ub) ∧ ∀ x, Cmdline.term prim n st = .ok x → size x.2 < size st
  termLoop : ∀ e st, (4 * size st + 2 ≤ n → termLoop prim n e st ≠ .ub) ∧ ∀ x, Cmdline.termLoop prim n e st = .ok x → size x.2 ≤ size st
  clause : ∀ st, (4 * size st + 3 ≤ n → clause prim n st ≠ .ub) ∧ ∀ x, Cmdline.clause prim n st = .ok x → size x.2 < size st
  clauseLoop : ∀ e st, (4 * size st + 3 ≤ n → clauseLoop prim n e st ≠ .ub) ∧ ∀ x, Cmdline.clauseLoop prim n e st = .ok x → size x.2 ≤ size st
  expr : ∀ st, (4 * size st + 4 ≤ n → expr prim n st ≠ .ub) ∧ ∀ x, Cmdline.expr prim n st = .ok x → size x.2 < size st
  exprLoop : ∀ e st, (4 * size st + 4 ≤ n → exprLoop prim n e st ≠ .ub) ∧ ∀ x, Cmdline.exprLoop prim n e st = .ok x → size x.2 ≤ size st

theorem fuel_factor (hp : PrimOk prim) {n : Nat} (ih : Fuel prim n) (st : St) :
    (4 * size st + 1 ≤ n + 1 → factor prim (n + 1) st ≠ .ub) ∧ ∀ x, factor prim (n + 1) st = .ok x → size x.2 < size st := by
  cases h : (skipArgs st.started st.args).2 with
  | nil => rw [factor_nil h]; exact ⟨fun _ hc => (by cases hc), fun x hc => by cases hc⟩
  | cons a rest =>
    have hs := size_advance h
    rw [factor_cons h]
    by_cases h1 : a = A "("
    · rw [if_pos h1]
      refine ⟨fun hn => bind_ne_ub ((ih.expr _).1 (by omega)) (fun _ _ => closeParen_ub _ _), fun x hx => ?_⟩
      obtain ⟨y, hy1, hy2⟩ := obind_ok hx
      obtain ⟨r', hr, rfl⟩ := closeParen_ok hy2
      have := (ih.expr _).2 _ hy1
      have := size_advance hr
      dsimp only at *
      omega
    · rw [if_neg h1]
      by_cases h2 : a = A "-exclude"
      · rw [if_pos h2]
        by_cases h3 : st.excluding = true
        · rw [if_pos h3]; exact ⟨fun _ hc => (by cases hc), fun x hc => by cases hc⟩
        · rw [if_neg h3]
          have hs' : size { advance (skipPaths st) with excluding := true } < size st := hs
          refine ⟨fun hn => bind_ne_ub ((ih.factor _).1 (by omega)) (fun _ _ hc => (by cases hc)), fun x hx => ?_⟩
          obtain ⟨y, hy1, hy2⟩ := obind_ok hx
          cases hy2
          have := (ih.factor _).2 _ hy1
          show size y.2 < _
          omega
      · rw [if_neg h2]
        by_cases h3 : a = A "!" ∨ a = A "-not"
        · rw [if_pos h3]
          refine ⟨fun hn => bind_ne_ub ((ih.factor _).1 (by omega)) (fun _ _ hc => (by cases hc)), fun x hx => ?_⟩
          obtain ⟨y, hy1, hy2⟩ := obind_ok hx
          cases hy2
          have := (ih.factor _).2 _ hy1
          dsimp only
          omega
        · rw [if_neg h3]
          have h' : (skipPaths st).args = a :: rest := h
          constructor
          · intro _
            unfold primary
            refine bind_ne_ub (by rw [h']; exact hp.noub a rest) (fun p _ => ?_)
            split <;> (intro hc; cases hc)
          · intro x hx
            obtain ⟨p, hp1, _, rfl⟩ := primary_ok hx
            rw [h'] at hp1
            have hq := hp.argc _ _ _ hp1
            show ((skipPaths st).args.drop p.argc).length < _
            rw [h', List.length_drop]
            have hk : (a :: rest).length ≤ size st := by
              have := skip_len st.started st.args
              rw [h] at this; exact this
            simp only [List.length_cons] at hk hq ⊢
            omega

theorem fuel_succ (hp : PrimOk prim) {n : Nat} (ih : Fuel prim n) : Fuel prim (n + 1) := by
  constructor
  · exact fuel_factor hp ih
  · intro st
    rw [term_succ]
    refine ⟨fun hn => bind_ne_ub ((ih.factor _).1 (by omega)) (fun y hy => (ih.termLoop _ _).1 ?_), fun x hx => ?_⟩
    · have := (ih.factor _).2 _ hy; omega
    · obtain ⟨y, hy1, hy2⟩ := obind_ok hx
      have := (ih.factor _).2 _ hy1
      have := (ih.termLoop _ _).2 _ hy2
      omega
  · intro e st
    cases h : (skipArgs st.started st.args).2 with
    | nil => rw [termLoop_nil h]; exact ⟨fun _ hc => (by cases hc), fun x hc => by cases hc; exact size_skip st⟩
    | cons a rest =>
      rw [termLoop_cons h]
      by_cases hc : a = A "-o" ∨ a = A "-or" ∨ a = A "," ∨ a = A ")"
      · rw [if_pos hc]; exact ⟨fun _ hc => (by cases hc), fun x hc => by cases hc; exact size_skip st⟩
      · rw [if_neg hc]
        have hs := size_skipAnd h
        refine ⟨fun hn => bind_ne_ub ((ih.factor _).1 (by omega)) (fun y hy => (ih.termLoop _ _).1 ?_), fun x hx => ?_⟩
        · have := (ih.factor _).2 _ hy; omega
        · obtain ⟨y, hy1, hy2⟩ := obind_ok hx
          have := (ih.factor _).2 _ hy1
          have := (ih.termLoop _ _).2 _ hy2
          omega
  · intro st
    rw [clause_succ]
    refine ⟨fun hn => bind_ne_ub ((ih.term _).1 (by omega)) (fun y hy => (ih.clauseLoop _ _).1 ?_), fun x hx => ?_⟩
    · have := (ih.term _).2 _ hy; omega
    · obtain ⟨y, hy1, hy2⟩ := obind_ok hx
      have := (ih.term _).2 _ hy1
      have := (ih.clauseLoop _ _).2 _ hy2
      omega
  · intro e st
    cases h : (skipArgs st.started st.args).2 with
    | nil => rw [clauseLoop_nil h]; exact ⟨fun _ hc => (by cases hc), fun x hc => by cases hc; exact size_skip st⟩
    | cons a rest =>
      rw [clauseLoop_cons h]
      by_cases hc : a ≠ A "-o" ∧ a ≠ A "-or"
      · rw [if_pos hc]; exact ⟨fun _ hc => (by cases hc), fun x hc => by cases hc; exact size_skip st⟩
      · rw [if_neg hc]
        have hs := size_advance h
        refine ⟨fun hn => bind_ne_ub ((ih.term _).1 (by omega)) (fun y hy => (ih.clauseLoop _ _).1 ?_), fun x hx => ?_⟩
        · have := (ih.term _).2 _ hy; omega
        · obtain ⟨y, hy1, hy2⟩ := obind_ok hx
          have := (ih.term _).2 _ hy1
          have := (ih.clauseLoop _ _).2 _ hy2
          omega
  · intro st
    rw [expr_succ]
    refine ⟨fun hn => bind_ne_ub ((ih.clause _).1 (by omega)) (fun y hy => (ih.exprLoop _ _).1 ?_), fun x hx => ?_⟩
    · have := (ih.clause _).2 _ hy; omega
    · obtain ⟨y, hy1, hy2⟩ := obind_ok hx
      have := (ih.clause _).2 _ hy1
      have := (ih.exprLoop _ _).2 _ hy2
      omega
  · intro e st
    cases h : (skipArgs st.started st.args).2 with
    | nil => rw [exprLoop_nil h]; exact ⟨fun _ hc => (by cases hc), fun x hc => by cases hc; exact size_skip st⟩
    | cons a rest =>
      rw [exprLoop_cons h]
      by_cases hc : a ≠ A ","
      · rw [if_pos hc]; exact ⟨fun _ hc => (by cases hc), fun x hc => by cases hc; exact size_skip st⟩
      · rw [if_neg hc]
        have hs := size_advance h
        refine ⟨fun hn => bind_ne_ub ((ih.clause _).1 (by omega)) (fun y hy => (ih.exprLoop _ _).1 ?_), fun x hx => ?_⟩
        · have := (ih.clause _).2 _ hy; omega
        · obtain ⟨y, hy1, hy2⟩ := obind_ok hx
          have := (ih.clause _).2 _ hy1
          have := (ih.exprLoop _ _).2 _ hy2
          omega

theorem fuel (hp : PrimOk prim) : ∀ n, Fuel prim n := by
  intro n
  induction n with
  | zero => constructor <;> intros <;> exact ⟨fun h => by omega, fun x h => by cases h⟩
  | succ n ih => exact fuel_succ hp ih

end Verif.Cmdline
