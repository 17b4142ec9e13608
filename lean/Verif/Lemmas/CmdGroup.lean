import Verif.Lemmas.CmdPrim
/-! Groups of flags, like `-LEX`. -/
namespace Verif.Cmdline

theorem plain_entry : ∀ c ∈ plainFlags, ∃ i e p, flagEntry c = some (i, e, p) ∧ tableLookup [45, c] = some i ∧ e.pre = false ∧ e.needsArg = false ∧ p.shape = .nullary ∧
    p.kind = (if c = 120 then .option else .flag) ∧ p.limit = false ∧ p.root = false ∧ p.nohidden = false := by
  have h : plainFlags.all (fun c => match flagEntry c with
    | none => false
    | some (i, e, p) => decide (tableLookup [45, c] = some i ∧ e.pre = false ∧ e.needsArg = false ∧ p.shape = .nullary ∧
        p.kind = (if c = 120 then .option else .flag) ∧ p.limit = false ∧ p.root = false ∧ p.nohidden = false)) = true := by decide
  intro c hc
  have := List.all_eq_true.1 h c hc
  cases hf : flagEntry c with
  | none => rw [hf] at this; cases this
  | some x =>
    obtain ⟨i, e, p⟩ := x
    rw [hf] at this
    exact ⟨i, e, p, rfl, of_decide_eq_true this⟩

theorem plain_call {c : UInt8} (hc : c ∈ plainFlags) (env : Env) (a : Arg) (rest : List Arg)
    (hv : ∀ i, tableLookup [45, c] = some i → env.valid i [a] = true) :
    ∃ i e p q, flagEntry c = some (i, e, p) ∧ tableLookup [45, c] = some i ∧ e.pre = false ∧ e.needsArg = false ∧ callParse env i p (a :: rest) = .ok q ∧
      q.calls = [(i, [a])] ∧ q.argc = 1 ∧ q.starts = decide (c = 120) ∧ q.action = false ∧ q.loud = false ∧ q.limit = false ∧ q.roots = [] ∧ q.nohidden = false := by
  obtain ⟨i, e, p, h1, h2, h3, h4, h5, h6, h7, h8, h9⟩ := plain_entry c hc
  refine ⟨i, e, p, { calls := [(i, [a])], argc := 1, starts := decide (c = 120), action := false, loud := false, limit := false, roots := [], nohidden := false },
    h1, h2, h3, h4, ?_, ?_⟩
  · unfold callParse argc
    rw [h5]
    show (if env.valid i [a] = true then _ else _) = _
    rw [if_pos (hv i h2), h6, h7, h8, h9]
    by_cases hx : c = 120
    · rw [if_pos hx]; simp [hx]
    · rw [if_neg hx]; simp [hx]
  · exact ⟨rfl, rfl, rfl, rfl, rfl, rfl, rfl, rfl⟩

theorem isGroup_plain : ∀ (cs tl : Arg) (upper : Bool), (∀ c ∈ cs, c ∈ plainFlags) →
    isGroupLoop upper false (cs ++ tl) = isGroupLoop (upper || cs.any fun c => 65 ≤ c && c ≤ 90) false tl := by
  intro cs
  induction cs with
  | nil => intro tl upper _; simp
  | cons c cs ih =>
    intro tl upper h
    obtain ⟨i, e, p, h1, _, h3, h4, _⟩ := plain_entry c (h c List.mem_cons_self)
    rw [List.cons_append, isGroupLoop_cons, if_neg (by decide), h1]
    dsimp only
    rw [if_neg (by rw [h3]; decide), h4, Bool.or_false, ih tl _ (fun c hc => h c (List.mem_cons_of_mem _ hc)), List.any_cons, Bool.or_assoc]

theorem decide_mem_one (c : UInt8) : decide (120 ∈ [c]) = decide (c = 120) := by
  by_cases h : c = 120
  · subst h; rfl
  · rw [decide_eq_false h]
    exact decide_eq_false (fun hm => h (List.mem_singleton.1 hm).symm)

theorem decide_mem_cons (c : UInt8) (cs : Arg) : (decide (120 ∈ [c]) || decide (120 ∈ cs)) = decide (120 ∈ c :: cs) := by
  by_cases h : (120 : UInt8) ∈ [c]
  · rw [decide_eq_true h, Bool.true_or]
    exact (decide_eq_true (by rw [List.mem_singleton.1 h]; exact List.mem_cons_self)).symm
  · rw [decide_eq_false h, Bool.false_or]
    have h' : c ≠ 120 := fun hc => h (by rw [hc]; exact List.mem_cons_self)
    congr 1
    exact propext ⟨fun hm => List.mem_cons_of_mem _ hm, fun hm => (List.mem_cons.1 hm).elim (fun hc => absurd hc.symm h') id⟩

section
attribute [local irreducible] tableLookup

/-- What the flags add up to. -/
structure Plain (acc : Option Prim) (a : Arg) (cs : Arg) (p : Prim) : Prop where
  calls : p.calls.map (fun x => (some x.1, x.2)) = acc.elim [] (fun q => q.calls.map fun x => (some x.1, x.2)) ++ cs.map fun c => (tableLookup [45, c], [a])
  argc : p.argc = 1
  starts : p.starts = (acc.elim false (fun q => q.starts) || decide (120 ∈ cs))
  action : p.action = acc.elim false (fun q => q.action)
  loud : p.loud = acc.elim false (fun q => q.loud)
  limit : p.limit = acc.elim false (fun q => q.limit)
  roots : p.roots = acc.elim [] (fun q => q.roots)
  nohidden : p.nohidden = acc.elim false (fun q => q.nohidden)

theorem plain_one {acc : Option Prim} {a : Arg} {c : UInt8} {q : Prim} {i : Nat} (h2 : tableLookup [45, c] = some i) (k1 : q.calls = [(i, [a])]) (k2 : q.argc = 1)
    (k3 : q.starts = decide (c = 120)) (k4 : q.action = false) (k5 : q.loud = false) (k6 : q.limit = false) (k7 : q.roots = []) (k8 : q.nohidden = false) :
    Plain acc a [c] (joinOpt acc q) := by
  have hx := decide_mem_one c
  cases acc with
  | none =>
    refine ⟨?_, k2, ?_, k4, k5, k6, k7, k8⟩
    · show q.calls.map _ = _; rw [k1]; simp only [List.map_cons, List.map_nil, h2]; rfl
    · show q.starts = _; rw [k3, hx]; rfl
  | some r =>
    refine ⟨?_, k2, ?_, ?_, ?_, ?_, ?_, ?_⟩
    · show (r.calls ++ q.calls).map _ = _; rw [k1, List.map_append]; simp only [List.map_cons, List.map_nil, h2]; rfl
    · show (r.starts || q.starts) = _; rw [k3, hx]; rfl
    · show (r.action || q.action) = _; rw [k4, Bool.or_false]; rfl
    · show (r.loud || q.loud) = _; rw [k5, Bool.or_false]; rfl
    · show (r.limit || q.limit) = _; rw [k6, Bool.or_false]; rfl
    · show r.roots ++ q.roots = _; rw [k7, List.append_nil]; rfl
    · show (r.nohidden || q.nohidden) = _; rw [k8, Bool.or_false]; rfl

theorem group_plain (env : Env) (a : Arg) (rest : List Arg) : ∀ (cs tl : Arg) (end_ : Nat) (acc : Option Prim), cs ≠ [] → end_ ≤ 1 → (∀ c ∈ cs, c ∈ plainFlags) →
    (∀ c ∈ cs, ∀ i, tableLookup [45, c] = some i → env.valid i [a] = true) →
    ∃ p, groupLoop env (a :: rest) (cs ++ tl) end_ acc = groupLoop env (a :: rest) tl 1 (some p) ∧ Plain acc a cs p := by
  intro cs
  induction cs with
  | nil => intro _ _ _ h; exact absurd rfl h
  | cons c cs ih =>
    intro tl end_ acc _ he h hv
    obtain ⟨i, e, p, q, h1, h2, h3, h4, h5, k1, k2, k3, k4, k5, k6, k7, k8⟩ := plain_call (h c List.mem_cons_self) env a rest (hv c List.mem_cons_self)
    have hmax : Nat.max end_ q.argc = 1 := by rw [k2]; exact Nat.max_eq_right he
    have hstep : groupLoop env (a :: rest) ((c :: cs) ++ tl) end_ acc = groupLoop env (a :: rest) (cs ++ tl) 1 (some (joinOpt acc q)) := by
      rw [List.cons_append, groupLoop_cons, h1]
      dsimp only
      rw [h5]
      show (if e.pre = true then _ else _) = _
      rw [if_neg (by rw [h3]; decide), hmax]
    have hone : Plain acc a [c] (joinOpt acc q) := plain_one h2 k1 k2 k3 k4 k5 k6 k7 k8
    by_cases hn : cs = []
    · subst hn
      rw [List.nil_append] at hstep
      exact ⟨_, hstep, hone⟩
    · obtain ⟨p', e', pl⟩ := ih tl 1 (some (joinOpt acc q)) hn (Nat.le_refl _) (fun c hc => h c (List.mem_cons_of_mem _ hc)) (fun c hc => hv c (List.mem_cons_of_mem _ hc))
      refine ⟨p', by rw [hstep]; exact e', ?_, pl.argc, ?_, ?_, ?_, ?_, ?_, ?_⟩
      · rw [pl.calls]
        show (joinOpt acc q).calls.map _ ++ _ = _
        rw [hone.calls, List.append_assoc]; rfl
      · rw [pl.starts]
        show ((joinOpt acc q).starts || _) = _
        rw [hone.starts, Bool.or_assoc, decide_mem_cons]
      · rw [pl.action]; exact hone.action
      · rw [pl.loud]; exact hone.loud
      · rw [pl.limit]; exact hone.limit
      · rw [pl.roots]; exact hone.roots
      · rw [pl.nohidden]; exact hone.nohidden

end

/-- No primary looks like a group of two or more flags, with an upper case letter. -/
theorem group_not_table {cs tl : Arg} (h : ∀ c ∈ cs, c ∈ plainFlags) (hu : ∃ c ∈ cs, 65 ≤ c ∧ c ≤ 90) (hl : 2 ≤ cs.length) : tableLookup (45 :: (cs ++ tl)) = none := by
  have hup : ∀ c ∈ plainFlags, 65 ≤ c → c ≤ 90 → c ∈ A "EHLPX" := by decide
  have hpre : ∀ e ∈ table, e.pre = true → ∃ c, e.arg[1]? = some c ∧ c ∉ plainFlags := by
    have hd : table.all (fun e => !e.pre || (match e.arg[1]? with | none => false | some c => decide (c ∉ plainFlags))) = true := by decide
    intro e he hp
    have := List.all_eq_true.1 hd e he
    rw [hp] at this
    cases hc : e.arg[1]? with
    | none => rw [hc] at this; cases this
    | some c => rw [hc] at this; exact ⟨c, rfl, of_decide_eq_true this⟩
  have hnon : ∀ e ∈ table, 3 ≤ e.arg.length → ∀ c ∈ A "EHLPX", c ∉ e.arg := by
    have hd : table.all (fun e => decide (3 ≤ e.arg.length → ∀ c ∈ A "EHLPX", c ∉ e.arg)) = true := by decide
    intro e he
    exact of_decide_eq_true (List.all_eq_true.1 hd e he)
  refine List.findIdx?_eq_none_iff.2 ?_
  intro e he
  unfold entryMatches
  by_cases hp : e.pre = true
  · rw [if_pos hp]
    apply decide_eq_false
    intro hpf
    obtain ⟨c, hc1, hc2⟩ := hpre e he hp
    obtain ⟨t, ht⟩ := hpf
    have h1 : (e.arg ++ t)[1]? = some c := by
      rw [List.getElem?_append_left]
      · exact hc1
      · exact (List.getElem?_eq_some_iff.1 hc1).1
    rw [ht] at h1
    cases cs with
    | nil => simp at hl
    | cons d cs =>
      cases h1
      exact hc2 (h _ List.mem_cons_self)
  · rw [if_neg hp]
    apply decide_eq_false
    intro heq
    obtain ⟨c, hc, h1, h2⟩ := hu
    have hlen : 3 ≤ e.arg.length := by
      rw [← heq]; simp only [List.length_cons, List.length_append]; omega
    exact hnon e he hlen c (hup c (h c hc) h1 h2) (by rw [← heq]; exact List.mem_cons_of_mem _ (List.mem_append_left _ hc))

end Verif.Cmdline
