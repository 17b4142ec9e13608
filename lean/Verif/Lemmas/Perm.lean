import Verif.Spec.Perm
/-! # The state machine for modes -/
namespace Verif.Perm
open Verif.Num

/-! ## Running it on the text of a mode -/

/-- Ends a list of permissions. -/
def Ender (s : Bytes) : Prop := s = [] ∨ ∃ c t, s = c :: t ∧ (c = 44 ∨ c = 43 ∨ c = 45 ∨ c = 61)

theorem actionCase_cont (umask : Mode) (st st' : St) (c : Option UInt8) : actionCase umask st c ≠ .cont st' := by
  unfold actionCase
  dsimp only
  repeat' split
  all_goals simp

theorem settle_apply (umask : Mode) (st : St) (h : st.state = .actionApply) (c : Option UInt8) (n : Nat) :
    settle umask (n + 1) st c = some (actionCase umask (applyChange st) c) := by
  rw [settle, step, h]
  dsimp only
  split
  · rename_i st' hs; exact absurd hs (actionCase_cont _ _ _ _)
  · rfl

theorem modeLoop_congr (umask : Mode) (st st' : St) (s : Bytes) (h : settle umask 3 st s.head? = settle umask 3 st' s.head?) :
    modeLoop umask st s = modeLoop umask st' s := by
  cases s with
  | nil => rw [modeLoop, modeLoop]; simp only [List.head?_nil] at h; rw [h]
  | cons c t => rw [modeLoop, modeLoop]; simp only [List.head?_cons] at h; rw [h]

theorem Ender.permCase {s : Bytes} (h : Ender s) (st : St) : permCase st s.head? = .cont { st with state := .actionApply } := by
  rcases h with rfl | ⟨c, t, rfl, rfl | rfl | rfl | rfl⟩ <;> rfl

theorem Ender.opCase {s : Bytes} (h : Ender s) (st : St) : opCase st s.head? = .cont { st with fileChange := 0, dirChange := 0, state := .perm } := by
  rcases h with rfl | ⟨c, t, rfl, rfl | rfl | rfl | rfl⟩ <;> rfl

theorem perm_settle (umask : Mode) (st : St) {s : Bytes} (h : Ender s) (n : Nat) :
    settle umask (n + 2) { st with state := .perm } s.head? = settle umask 3 { st with state := .actionApply } s.head? := by
  rw [settle_apply umask { st with state := .actionApply } rfl, settle, step]
  dsimp only
  rw [h.permCase]
  exact settle_apply umask { st with state := .actionApply } rfl _ _

theorem perm_end (umask : Mode) (st : St) {s : Bytes} (h : Ender s) :
    modeLoop umask { st with state := .perm } s = modeLoop umask { st with state := .actionApply } s :=
  modeLoop_congr _ _ _ _ (perm_settle umask st h 1)

theorem op_end (umask : Mode) (st : St) {s : Bytes} (h : Ender s) :
    modeLoop umask { st with state := .op } s = modeLoop umask { st with fileChange := 0, dirChange := 0, state := .actionApply } s := by
  refine modeLoop_congr _ _ _ _ ?_
  rw [settle, step]
  dsimp only
  rw [h.opCase]
  exact perm_settle umask { st with fileChange := 0, dirChange := 0 } h 0

/-- Adding a permission. -/
def addPerm (st : St) : PermSym → St
  | .r => addBits st (st.mask &&& 0o444)
  | .w => addBits st (st.mask &&& 0o222)
  | .x => addBits st (st.mask &&& 0o111)
  | .X => { st with dirChange := st.dirChange ||| (st.mask &&& 0o111) }
  | .s =>
    let st := if st.who &&& 0o700 ≠ 0 then addBits st 0o4000 else st
    if st.who &&& 0o070 ≠ 0 then addBits st 0o2000 else st
  | .t => if st.who &&& 0o007 ≠ 0 then addBits st 0o1000 else st

theorem permCase_char (st : St) (p : PermSym) : permCase st (some p.char) = .next (addPerm st p) := by
  cases p <;> rfl

theorem addPerm_state (st : St) (p : PermSym) : (addPerm st p).state = st.state := by
  cases p <;> simp only [addPerm] <;> (repeat' split) <;> rfl
theorem addPerm_who (st : St) (p : PermSym) : (addPerm st p).who = st.who := by
  cases p <;> simp only [addPerm] <;> (repeat' split) <;> rfl
theorem addPerm_mask (st : St) (p : PermSym) : (addPerm st p).mask = st.mask := by
  cases p <;> simp only [addPerm] <;> (repeat' split) <;> rfl
theorem addPerm_op (st : St) (p : PermSym) : (addPerm st p).op = st.op := by
  cases p <;> simp only [addPerm] <;> (repeat' split) <;> rfl
theorem addPerm_file (st : St) (p : PermSym) : (addPerm st p).fileMode = st.fileMode := by
  cases p <;> simp only [addPerm] <;> (repeat' split) <;> rfl
theorem addPerm_dir (st : St) (p : PermSym) : (addPerm st p).dirMode = st.dirMode := by
  cases p <;> simp only [addPerm] <;> (repeat' split) <;> rfl

theorem with_self (st : St) {q : State} (h : st.state = q) : { st with state := q } = st := by
  cases st; cases h; rfl

theorem perm_end' (umask : Mode) (st : St) (hst : st.state = .perm) {s : Bytes} (h : Ender s) :
    modeLoop umask st s = modeLoop umask { st with state := .actionApply } s := by
  have := perm_end umask st h
  rwa [with_self st hst] at this

theorem run_perm (umask : Mode) (st : St) (h : st.state = .perm) (p : PermSym) (s : Bytes) :
    modeLoop umask st (p.char :: s) = modeLoop umask (addPerm st p) s := by
  rw [modeLoop]
  have : settle umask 3 st (some p.char) = some (.next (addPerm st p)) := by
    rw [settle, step, h]
    dsimp only
    rw [permCase_char]
  rw [this]

theorem run_perms (umask : Mode) (s : Bytes) : ∀ (ps : List PermSym) (st : St), st.state = .perm →
    modeLoop umask st (ps.map PermSym.char ++ s) = modeLoop umask (ps.foldl addPerm st) s
  | [], _, _ => rfl
  | p :: ps, st, h => by
    rw [List.map_cons, List.cons_append, run_perm umask st h, List.foldl_cons]
    exact run_perms umask s ps _ (by rw [addPerm_state, h])

theorem op_perm (umask : Mode) (st : St) (p : PermSym) (s : Bytes) :
    modeLoop umask { st with state := .op } (p.char :: s) = modeLoop umask { st with fileChange := 0, dirChange := 0, state := .perm } (p.char :: s) := by
  rw [modeLoop, modeLoop]
  have h : opCase { st with state := .op } (some p.char) = .cont { st with fileChange := 0, dirChange := 0, state := .perm } := by
    cases p <;> rfl
  have h2 : ∀ n, settle umask (n + 1) { st with fileChange := 0, dirChange := 0, state := .perm } (some p.char) =
      some (.next (addPerm { st with fileChange := 0, dirChange := 0, state := .perm } p)) := by
    intro n
    rw [settle, step]
    dsimp only
    rw [permCase_char]
  have h3 : settle umask 3 { st with state := .op } (some p.char) = settle umask 2 { st with fileChange := 0, dirChange := 0, state := .perm } (some p.char) := by
    rw [settle, step]
    dsimp only
    rw [h]
  rw [h3, h2, h2]

/-- The permissions that are copied. -/
def source (mode : Mode) : Who → Mode
  | .user => (mode >>> 6) &&& 7
  | .group => (mode >>> 3) &&& 7
  | .other => mode &&& 7

/-- The state after the text of an action. -/
def doAction (umask : Mode) (st : St) (a : Action) : St :=
  let st := { setMask umask st with op := a.op }
  match a.perms with
  | .list ps => { ps.foldl addPerm { st with fileChange := 0, dirChange := 0, state := .perm } with state := .actionApply }
  | .copy w =>
    { st with
      fileChange := (source st.fileMode w ||| ((source st.fileMode w <<< 6) ||| (source st.fileMode w <<< 3))) &&& st.mask
      dirChange := (source st.dirMode w ||| ((source st.dirMode w <<< 6) ||| (source st.dirMode w <<< 3))) &&& st.mask
      state := .actionApply }

theorem run_op (umask : Mode) (st : St) (a : Action) {s : Bytes} (h : Ender s) :
    modeLoop umask { setMask umask st with op := a.op, state := .op } (a.perms.text ++ s) = modeLoop umask (doAction umask st a) s := by
  obtain ⟨op, perms⟩ := a
  cases perms with
  | list ps =>
    cases ps with
    | nil =>
      show modeLoop umask { setMask umask st with op := op, state := .op } s = _
      rw [op_end umask { setMask umask st with op := op } h]
      rfl
    | cons p ps =>
      show modeLoop umask { setMask umask st with op := op, state := .op } (p.char :: (ps.map PermSym.char ++ s)) = _
      rw [op_perm umask { setMask umask st with op := op } p]
      have := run_perms umask s (p :: ps) { setMask umask st with op := op, fileChange := 0, dirChange := 0, state := .perm } rfl
      rw [List.map_cons, List.cons_append] at this
      rw [this]
      have hs : ∀ (l : List PermSym) (st : St), (l.foldl addPerm st).state = st.state := by
        intro l
        induction l with
        | nil => intro st; rfl
        | cons q l ih => intro st; rw [List.foldl_cons, ih, addPerm_state]
      exact perm_end' umask _ (hs _ _) h
  | copy w => cases w <;> rfl

/-- From the end of an action to the end of the next one. -/
theorem run_apply_action (umask : Mode) (st : St) (a : Action) {s : Bytes} (h : Ender s) :
    modeLoop umask { st with state := .actionApply } (a.text ++ s) = modeLoop umask (doAction umask (applyChange { st with state := .actionApply }) a) s := by
  rw [← run_op umask (applyChange { st with state := .actionApply }) a h]
  obtain ⟨op, perms⟩ := a
  cases op <;> rfl

/-- From the beginning of the first action of a clause to its end. -/
theorem run_action (umask : Mode) (st : St) (a : Action) {s : Bytes} (h : Ender s) :
    modeLoop umask { st with state := .action } (a.text ++ s) = modeLoop umask (doAction umask { st with state := .action } a) s := by
  rw [← run_op umask { st with state := .action } a h]
  obtain ⟨op, perms⟩ := a
  cases op <;> rfl

theorem doAction_state (umask : Mode) (st : St) (a : Action) : (doAction umask st a).state = .actionApply := by
  obtain ⟨op, perms⟩ := a
  cases perms <;> rfl

theorem Ender.actions (as : List Action) {s : Bytes} (h : Ender s) : Ender (as.flatMap Action.text ++ s) := by
  cases as with
  | nil => exact h
  | cons a as =>
    obtain ⟨op, perms⟩ := a
    refine Or.inr ⟨op.char, _, rfl, ?_⟩
    cases op
    · exact Or.inr (Or.inl rfl)
    · exact Or.inr (Or.inr (Or.inl rfl))
    · exact Or.inr (Or.inr (Or.inr rfl))

theorem Ender.clauses (cs : List Clause) : Ender (cs.flatMap fun c => 44 :: c.text) := by
  cases cs with
  | nil => exact Or.inl rfl
  | cons c cs => exact Or.inr ⟨44, _, rfl, Or.inl rfl⟩

/-- The state after more actions. -/
def doActions (umask : Mode) (st : St) (as : List Action) : St := as.foldl (fun st a => doAction umask (applyChange st) a) st

theorem run_actions (umask : Mode) {s : Bytes} (h : Ender s) : ∀ (as : List Action) (st : St), st.state = .actionApply →
    modeLoop umask st (as.flatMap Action.text ++ s) = modeLoop umask (doActions umask st as) s
  | [], _, _ => rfl
  | a :: as, st, hst => by
    have h1 := run_apply_action umask st a (h.actions as)
    rw [with_self _ hst] at h1
    rw [List.flatMap_cons, List.append_assoc, h1]
    exact run_actions umask h as _ (doAction_state _ _ _)

/-- The bits of who. -/
def whoBits : WhoSym → Mode
  | .u => 0o700
  | .g => 0o070
  | .o => 0o007
  | .a => 0o777

theorem run_who (umask : Mode) (st : St) (w : WhoSym) (s : Bytes) :
    modeLoop umask { st with state := .who } (w.char :: s) = modeLoop umask { st with who := st.who ||| whoBits w, state := .who } s := by
  cases w <;> rfl

theorem run_whos (umask : Mode) (s : Bytes) : ∀ (ws : List WhoSym) (st : St),
    modeLoop umask { st with state := .who } (ws.map WhoSym.char ++ s) = modeLoop umask { st with who := ws.foldl (fun b w => b ||| whoBits w) st.who, state := .who } s
  | [], _ => rfl
  | w :: ws, st => by
    rw [List.map_cons, List.cons_append, run_who]
    exact run_whos umask s ws { st with who := st.who ||| whoBits w }

theorem who_action (umask : Mode) (st : St) (a : Action) (s : Bytes) :
    modeLoop umask { st with state := .who } (a.text ++ s) = modeLoop umask { st with state := .action } (a.text ++ s) := by
  obtain ⟨op, perms⟩ := a
  cases op <;> rfl

/-- The state at the beginning of the actions of a clause. -/
def startClause (st : St) (ws : List WhoSym) : St :=
  { st with who := ws.foldl (fun b w => b ||| whoBits w) 0, mask := 0o777, state := .action }

theorem clause_who (umask : Mode) (st : St) (c : Clause) (s : Bytes) :
    modeLoop umask { st with state := .clause } (c.text ++ s) = modeLoop umask { st with who := 0, mask := 0o777, state := .who } (c.text ++ s) := by
  obtain ⟨who, first, rest⟩ := c
  cases who with
  | nil =>
    obtain ⟨op, perms⟩ := first
    cases op <;> rfl
  | cons w ws => cases w <;> rfl

/-- The state after a clause. -/
def doClause (umask : Mode) (st : St) (c : Clause) : St := doActions umask (doAction umask (startClause st c.who) c.first) c.rest

theorem run_clause (umask : Mode) (st : St) (c : Clause) {s : Bytes} (h : Ender s) :
    modeLoop umask { st with state := .clause } (c.text ++ s) = modeLoop umask (doClause umask st c) s := by
  rw [clause_who]
  have h1 : c.text ++ s = c.who.map WhoSym.char ++ (c.first.text ++ (c.rest.flatMap Action.text ++ s)) := by
    simp [Clause.text, List.append_assoc]
  have h2 := run_whos umask (c.first.text ++ (c.rest.flatMap Action.text ++ s)) c.who { st with who := 0, mask := 0o777 }
  rw [h1, h2]
  have h3 := who_action umask { st with who := c.who.foldl (fun b w => b ||| whoBits w) 0, mask := 0o777 } c.first (c.rest.flatMap Action.text ++ s)
  rw [h3]
  have h4 := run_action umask { st with who := c.who.foldl (fun b w => b ||| whoBits w) 0, mask := 0o777 } c.first (h.actions c.rest)
  rw [h4]
  exact run_actions umask h c.rest _ (doAction_state _ _ _)

theorem doActions_state (umask : Mode) : ∀ (as : List Action) (st : St), st.state = .actionApply → (doActions umask st as).state = .actionApply
  | [], _, h => h
  | a :: as, st, _ => doActions_state umask as _ (doAction_state _ _ _)

theorem doClause_state (umask : Mode) (st : St) (c : Clause) : (doClause umask st c).state = .actionApply :=
  doActions_state umask _ _ (doAction_state _ _ _)

theorem setMask_file (umask : Mode) (st : St) : (setMask umask st).fileMode = st.fileMode := by
  unfold setMask; split <;> rfl
theorem setMask_dir (umask : Mode) (st : St) : (setMask umask st).dirMode = st.dirMode := by
  unfold setMask; split <;> rfl
theorem setMask_state (umask : Mode) (st : St) : (setMask umask st).state = st.state := by
  unfold setMask; split <;> rfl
theorem applyChange_state (st : St) : (applyChange st).state = st.state := by
  unfold applyChange; split <;> rfl
theorem applyChange_who (st : St) : (applyChange st).who = st.who := by
  unfold applyChange; split <;> rfl

theorem run_comma (umask : Mode) (st : St) (h : st.state = .actionApply) (s : Bytes) :
    modeLoop umask st (44 :: s) = modeLoop umask { setMask umask (applyChange st) with state := .clause } s := by
  have : settle umask 3 st (some 44) = some (.next { setMask umask (applyChange st) with state := .clause }) := by
    rw [settle, step, h]
    dsimp only [actionCase]
    rw [if_pos (by rw [setMask_state, applyChange_state, h])]
    rfl
  rw [modeLoop, this]

theorem run_end (umask : Mode) (st : St) (h : st.state = .actionApply) : modeLoop umask st [] = .ok ((applyChange st).fileMode, (applyChange st).dirMode) := by
  have : settle umask 3 st none = some (.done (setMask umask (applyChange st))) := by
    rw [settle, step, h]
    dsimp only [actionCase]
    rw [if_pos (by rw [setMask_state, applyChange_state, h])]
  rw [modeLoop, this]
  dsimp only
  rw [setMask_file, setMask_dir]

/-- The state after more clauses. -/
def doClauses (umask : Mode) (st : St) (cs : List Clause) : St := cs.foldl (fun st c => doClause umask (setMask umask (applyChange st)) c) st

theorem run_clauses (umask : Mode) : ∀ (cs : List Clause) (st : St), st.state = .actionApply →
    modeLoop umask st (cs.flatMap fun c => 44 :: c.text) = .ok ((applyChange (doClauses umask st cs)).fileMode, (applyChange (doClauses umask st cs)).dirMode)
  | [], st, h => run_end umask st h
  | c :: cs, st, h => by
    rw [List.flatMap_cons, List.cons_append, run_comma umask st h, run_clause _ _ _ (Ender.clauses cs)]
    exact run_clauses umask cs _ (doClause_state _ _ _)

theorem run_text (umask : Mode) (c : Clause) (cs : List Clause) :
    modeLoop umask {} (text c cs) = .ok ((applyChange (doClauses umask (doClause umask {} c) cs)).fileMode, (applyChange (doClauses umask (doClause umask {} c) cs)).dirMode) := by
  unfold text
  rw [run_clause umask {} c (Ender.clauses cs)]
  exact run_clauses umask cs _ (doClause_state _ _ _)

/-! ## What it accepts -/

/-- The rest of the text, in each state. -/
def Rest : State → Bytes → Prop
  | .clause, s => ∃ c cs, s = text c cs
  | .who, s => ∃ c cs, s = text c cs
  | .action, s => ∃ (a : Action) (as : List Action) (cs : List Clause), s = Action.text a ++ (as.flatMap Action.text ++ cs.flatMap fun c => 44 :: Clause.text c)
  | .op, s => ∃ (ps : Perms) (as : List Action) (cs : List Clause), s = Perms.text ps ++ (as.flatMap Action.text ++ cs.flatMap fun c => 44 :: Clause.text c)
  | .perm, s => ∃ (ps : List PermSym) (as : List Action) (cs : List Clause), s = ps.map PermSym.char ++ (as.flatMap Action.text ++ cs.flatMap fun c => 44 :: Clause.text c)
  | .actionApply, s => ∃ (as : List Action) (cs : List Clause), s = as.flatMap Action.text ++ cs.flatMap fun c => 44 :: Clause.text c

theorem rest_clause {s : Bytes} (h : Rest .clause s) : Rest .actionApply (44 :: s) := by
  obtain ⟨c, cs, rfl⟩ := h
  exact ⟨[], c :: cs, by simp [text]⟩

theorem rest_who {s : Bytes} (h : Rest .who s) (w : WhoSym) : Rest .who (w.char :: s) := by
  obtain ⟨⟨ws, f, r⟩, cs, rfl⟩ := h
  exact ⟨⟨w :: ws, f, r⟩, cs, by simp [text, Clause.text]⟩

theorem rest_action {s : Bytes} (h : Rest .action s) : Rest .who s := by
  obtain ⟨a, as, cs, rfl⟩ := h
  exact ⟨⟨[], a, as⟩, cs, by simp [text, Clause.text]⟩

theorem rest_op {s : Bytes} (h : Rest .op s) (op : Op) : Rest .action (op.char :: s) := by
  obtain ⟨ps, as, cs, rfl⟩ := h
  exact ⟨⟨op, ps⟩, as, cs, rfl⟩

theorem rest_apply_action {s : Bytes} (h : Rest .action s) : Rest .actionApply s := by
  obtain ⟨a, as, cs, rfl⟩ := h
  exact ⟨a :: as, cs, by simp⟩

theorem rest_copy {s : Bytes} (h : Rest .actionApply s) (w : Who) : Rest .op ((Perms.copy w).text ++ s) := by
  obtain ⟨as, cs, rfl⟩ := h
  exact ⟨.copy w, as, cs, rfl⟩

theorem rest_perm_op {s : Bytes} (h : Rest .perm s) : Rest .op s := by
  obtain ⟨ps, as, cs, rfl⟩ := h
  exact ⟨.list ps, as, cs, rfl⟩

theorem rest_perm {s : Bytes} (h : Rest .perm s) (p : PermSym) : Rest .perm (p.char :: s) := by
  obtain ⟨ps, as, cs, rfl⟩ := h
  exact ⟨p :: ps, as, cs, rfl⟩

theorem rest_apply_perm {s : Bytes} (h : Rest .actionApply s) : Rest .perm s := by
  obtain ⟨as, cs, rfl⟩ := h
  exact ⟨[], as, cs, rfl⟩

/-- What a step says about the text. -/
def StepOk (q : State) (s : Bytes) : Step → Prop
  | .cont st' => Rest st'.state s → Rest q s
  | .next st' => ∃ c t, s = c :: t ∧ (Rest st'.state t → Rest q s)
  | .done _ => s = [] ∧ Rest q s
  | .fail => True

/-- One time around the loop. -/
theorem step_rest (umask : Mode) (st : St) (s : Bytes) (r : Step) (hstep : step umask st s.head? = r) :
    StepOk st.state s r := by
  have hact : ∀ st0 : St, ∀ r, (st0.state = .action ∨ st0.state = .actionApply) → actionCase umask st0 s.head? = r →
      StepOk st0.state s r := by
    intro st0 r hst0 h
    clear hstep
    have haa : ∀ {s}, Rest .action s → Rest st0.state s := by
      intro s h
      rcases hst0 with h0 | h0 <;> rw [h0]
      · exact h
      · exact rest_apply_action h
    have hs : (setMask umask st0).state = st0.state := setMask_state _ _
    unfold actionCase at h
    dsimp only at h
    cases s with
    | nil =>
      simp only [List.head?_nil] at h
      rw [hs] at h
      by_cases ha : st0.state = .actionApply
      · rw [if_pos ha] at h; subst h
        rw [ha]
        exact ⟨rfl, [], [], rfl⟩
      · rw [if_neg ha] at h; subst h
        trivial
    | cons c t =>
      simp only [List.head?_cons] at h
      split at h
      · rename_i hc; cases hc; subst h
        exact ⟨_, _, rfl, fun h => haa (rest_op h .plus)⟩
      · rename_i hc; cases hc; subst h
        exact ⟨_, _, rfl, fun h => haa (rest_op h .minus)⟩
      · rename_i hc; cases hc; subst h
        exact ⟨_, _, rfl, fun h => haa (rest_op h .equals)⟩
      · rename_i hc; cases hc
        rw [hs] at h
        by_cases ha : st0.state = .actionApply
        · rw [if_pos ha] at h; subst h
          rw [ha]
          exact ⟨_, _, rfl, rest_clause⟩
        · rw [if_neg ha] at h; subst h
          trivial
      · rename_i hc; cases hc
      · subst h; trivial
  have hwho : ∀ st0 : St, ∀ r, st0.state = .who → whoCase st0 s.head? = r →
      StepOk .who s r := by
    intro st0 r h0 h
    clear hstep hact
    unfold whoCase at h
    cases s with
    | nil =>
      simp only [List.head?_nil] at h; subst h
      exact rest_action
    | cons c t =>
      simp only [List.head?_cons] at h
      split at h
      · rename_i hc; cases hc; subst h
        exact ⟨_, _, rfl, fun h => rest_who (h0 ▸ h) .u⟩
      · rename_i hc; cases hc; subst h
        exact ⟨_, _, rfl, fun h => rest_who (h0 ▸ h) .g⟩
      · rename_i hc; cases hc; subst h
        exact ⟨_, _, rfl, fun h => rest_who (h0 ▸ h) .o⟩
      · rename_i hc; cases hc; subst h
        exact ⟨_, _, rfl, fun h => rest_who (h0 ▸ h) .a⟩
      · subst h
        exact rest_action
  have h := hstep
  clear hstep
  unfold step at h
  cases hst : st.state with
  | clause =>
    rw [hst] at h
    have := hwho _ r rfl h
    cases r with
    | cont st' => exact this
    | next st' => exact this
    | done st' => exact this
    | fail => trivial
  | who =>
    rw [hst] at h
    exact hwho _ r hst h
  | action =>
    rw [hst] at h
    have := hact _ r (Or.inl hst) h
    rw [hst] at this
    exact this
  | actionApply =>
    rw [hst] at h
    have := hact _ r (Or.inr (by rw [applyChange_state, hst])) h
    rw [applyChange_state, hst] at this
    exact this
  | op =>
    rw [hst] at h
    dsimp only [opCase] at h
    cases s with
    | nil =>
      simp only [List.head?_nil] at h; subst h
      exact rest_perm_op
    | cons c t =>
      simp only [List.head?_cons] at h
      split at h
      · rename_i hc; cases hc; subst h
        exact ⟨_, _, rfl, fun h => rest_copy h .user⟩
      · rename_i hc; cases hc; subst h
        exact ⟨_, _, rfl, fun h => rest_copy h .group⟩
      · rename_i hc; cases hc; subst h
        exact ⟨_, _, rfl, fun h => rest_copy h .other⟩
      · subst h
        exact rest_perm_op
  | perm =>
    rw [hst] at h
    dsimp only at h
    have hp : ∀ p : PermSym, s.head? = some p.char → r = .next (addPerm st p) := by
      intro p hp
      rw [← h, hp, permCase_char]
    have hn : ∀ p : PermSym, s.head? = some p.char → StepOk .perm s r := by
      intro p hc
      rw [hp p hc]
      cases s with
      | nil => cases hc
      | cons c t =>
        simp only [List.head?_cons] at hc
        cases hc
        refine ⟨_, _, rfl, fun h => ?_⟩
        rw [addPerm_state, hst] at h
        exact rest_perm h p
    by_cases h1 : ∃ p : PermSym, s.head? = some p.char
    · obtain ⟨p, h1⟩ := h1
      exact hn p h1
    · have h2 : r = .cont { st with state := .actionApply } := by
        rw [← h]
        unfold permCase
        split
        · rename_i hc; exact absurd ⟨.r, hc⟩ h1
        · rename_i hc; exact absurd ⟨.w, hc⟩ h1
        · rename_i hc; exact absurd ⟨.x, hc⟩ h1
        · rename_i hc; exact absurd ⟨.X, hc⟩ h1
        · rename_i hc; exact absurd ⟨.s, hc⟩ h1
        · rename_i hc; exact absurd ⟨.t, hc⟩ h1
        · rfl
      rw [h2]
      exact rest_apply_perm

theorem settle_rest (umask : Mode) (s : Bytes) : ∀ (n : Nat) (st : St) (r : Step), settle umask n st s.head? = some r →
    StepOk st.state s r ∧ ∀ st', r ≠ .cont st'
  | 0, _, _, h => by cases h
  | n + 1, st, r, h => by
    rw [settle] at h
    cases hs : step umask st s.head? with
    | cont st' =>
      have h1 := step_rest umask st s _ hs
      rw [hs] at h
      obtain ⟨h2, h3⟩ := settle_rest umask s n st' r h
      refine ⟨?_, h3⟩
      cases r with
      | cont st'' => exact absurd rfl (h3 st'')
      | next st'' =>
        obtain ⟨c, t, h4, h5⟩ := h2
        exact ⟨c, t, h4, fun h => h1 (h5 h)⟩
      | done _ => exact ⟨h2.1, h1 h2.2⟩
      | fail => trivial
    | next st' =>
      have h1 := step_rest umask st s _ hs
      rw [hs] at h; cases h
      exact ⟨h1, by simp⟩
    | done st' =>
      have h1 := step_rest umask st s _ hs
      rw [hs] at h; cases h
      exact ⟨h1, by simp⟩
    | fail =>
      rw [hs] at h; cases h
      exact ⟨trivial, by simp⟩

theorem accepted (umask : Mode) : ∀ (s : Bytes) (st : St) (r : Mode × Mode), modeLoop umask st s = .ok r → Rest st.state s
  | [], st, r, h => by
    rw [modeLoop] at h
    split at h
    · rename_i hs
      exact (settle_rest umask [] 3 st _ hs).1.2
    · cases h
    · cases h
  | c :: s, st, r, h => by
    rw [modeLoop] at h
    split at h
    · rename_i hs
      obtain ⟨c', t, h1, h2⟩ := (settle_rest umask (c :: s) 3 st _ hs).1
      cases h1
      exact h2 (accepted umask s _ r h)
    · rename_i hs
      exact (settle_rest umask (c :: s) 3 st _ hs).1.2
    · cases h
    · cases h

theorem whoCase_or (st : St) (c : Option UInt8) : (c ≠ none ∧ ∃ st', whoCase st c = .next st') ∨ ∃ st', whoCase st c = .cont st' ∧ st'.state = .action := by
  unfold whoCase
  split
  all_goals first
    | exact Or.inl ⟨by simp, _, rfl⟩
    | exact Or.inr ⟨_, rfl, rfl⟩

theorem permCase_or (st : St) (c : Option UInt8) : (c ≠ none ∧ ∃ st', permCase st c = .next st') ∨ ∃ st', permCase st c = .cont st' ∧ st'.state = .actionApply := by
  unfold permCase
  split
  all_goals first
    | exact Or.inl ⟨by simp, _, rfl⟩
    | exact Or.inr ⟨_, rfl, rfl⟩

theorem opCase_or (st : St) (c : Option UInt8) : (c ≠ none ∧ ∃ st', opCase st c = .next st') ∨ ∃ st', opCase st c = .cont st' ∧ st'.state = .perm := by
  unfold opCase copyPerm
  split
  all_goals first
    | exact Or.inl ⟨by simp, _, rfl⟩
    | exact Or.inr ⟨_, rfl, rfl⟩

theorem actionCase_or (umask : Mode) (st : St) (c : Option UInt8) :
    actionCase umask st c = .fail ∨ (∃ st', actionCase umask st c = .done st') ∨ (c ≠ none ∧ ∃ st', actionCase umask st c = .next st') := by
  unfold actionCase
  dsimp only
  split
  · exact Or.inr (Or.inr ⟨by simp, _, rfl⟩)
  · exact Or.inr (Or.inr ⟨by simp, _, rfl⟩)
  · exact Or.inr (Or.inr ⟨by simp, _, rfl⟩)
  · split
    · exact Or.inr (Or.inr ⟨by simp, _, rfl⟩)
    · exact Or.inl rfl
  · split
    · exact Or.inr (Or.inl ⟨_, rfl⟩)
    · exact Or.inl rfl
  · exact Or.inl rfl

/-- What the loop can do with a result. -/
def Fine (c : Option UInt8) (r : Option Step) : Prop := r = some .fail ∨ (∃ st, r = some (.done st)) ∨ (c ≠ none ∧ ∃ st, r = some (.next st))

theorem settle_action (umask : Mode) (st : St) (h : st.state = .action ∨ st.state = .actionApply) (c : Option UInt8) (n : Nat) : Fine c (settle umask (n + 1) st c) := by
  obtain ⟨st1, h1⟩ : ∃ st1, step umask st c = actionCase umask st1 c := by
    rcases h with h | h
    · exact ⟨st, by rw [step, h]⟩
    · exact ⟨applyChange st, by rw [step, h]⟩
  rw [settle, h1]
  rcases actionCase_or umask st1 c with h2 | ⟨st', h2⟩ | ⟨h2, st', h3⟩
  · rw [h2]; exact Or.inl rfl
  · rw [h2]; exact Or.inr (Or.inl ⟨_, rfl⟩)
  · rw [h3]; exact Or.inr (Or.inr ⟨h2, _, rfl⟩)

theorem settle_perm (umask : Mode) (st : St) (h : st.state = .perm) (c : Option UInt8) (n : Nat) : Fine c (settle umask (n + 2) st c) := by
  rw [settle, step, h]
  dsimp only
  rcases permCase_or st c with ⟨h1, st', h2⟩ | ⟨st', h2, h3⟩
  · rw [h2]; exact Or.inr (Or.inr ⟨h1, _, rfl⟩)
  · rw [h2]; exact settle_action umask st' (Or.inr h3) c n

/-- It never reads past the terminator and never loops. -/
theorem settle_some (umask : Mode) (st : St) (c : Option UInt8) : Fine c (settle umask 3 st c) := by
  have hw : ∀ st1, step umask st c = whoCase st1 c → Fine c (settle umask 3 st c) := by
    intro st1 h
    rw [settle, h]
    rcases whoCase_or st1 c with ⟨h1, st', h2⟩ | ⟨st', h2, h3⟩
    · rw [h2]; exact Or.inr (Or.inr ⟨h1, _, rfl⟩)
    · rw [h2]; exact settle_action umask st' (Or.inl h3) c 1
  cases hst : st.state with
  | clause => exact hw _ (by rw [step, hst])
  | who => exact hw _ (by rw [step, hst])
  | action => exact settle_action umask st (Or.inl hst) c 2
  | actionApply => exact settle_action umask st (Or.inr hst) c 2
  | perm => exact settle_perm umask st hst c 1
  | op =>
    rw [settle, step, hst]
    dsimp only
    rcases opCase_or st c with ⟨h1, st', h2⟩ | ⟨st', h2, h3⟩
    · rw [h2]; exact Or.inr (Or.inr ⟨h1, _, rfl⟩)
    · rw [h2]; exact settle_perm umask st' h3 c 0

theorem modeLoop_defined (umask : Mode) : ∀ (s : Bytes) (st : St), modeLoop umask st s ≠ .ub
  | [], st => by
    rw [modeLoop]
    rcases settle_some umask st none with h | ⟨st', h⟩ | ⟨h, _⟩
    · rw [h]; simp
    · rw [h]; simp
    · exact absurd rfl h
  | c :: s, st => by
    rw [modeLoop]
    rcases settle_some umask st (some c) with h | ⟨st', h⟩ | ⟨_, st', h⟩
    · rw [h]; simp
    · rw [h]; simp
    · rw [h]; exact modeLoop_defined umask s st'

end Verif.Perm
