import Verif.Spec.Cmdline
/-! The primaries. -/
namespace Verif.Cmdline

/-- Facts about the table, by looking at each entry. -/
theorem table_flags : ∀ e ∈ table, ∀ p, e.parse = some p → e.kind = .flag → e.pre = false → e.needsArg = false → p.shape = .nullary := by
  have h : table.all (fun e => match e.parse with
    | none => true
    | some p => decide (e.kind = .flag → e.pre = false → e.needsArg = false → p.shape = .nullary)) = true := by decide
  intro e he p hp
  have := List.all_eq_true.1 h e he
  rw [hp] at this
  exact of_decide_eq_true this

theorem table_prefix : ∀ e ∈ table, ∀ p c s, e.parse = some p → p.shape = .prefixed c s → e.pre = true ∧ c ∈ e.arg ∧ e.arg[1]? = some c := by
  have h : table.all (fun e => match e.parse with
    | none => true
    | some p => match p.shape with
      | .prefixed c _ => decide (e.pre = true ∧ c ∈ e.arg ∧ e.arg[1]? = some c)
      | _ => true) = true := by decide
  intro e he p c s hp hs
  have := List.all_eq_true.1 h e he
  rw [hp] at this
  dsimp only at this
  rw [hs] at this
  exact of_decide_eq_true this

theorem execLoop_bound {confirm : Bool} : ∀ (args : List Arg) (i : Nat) (prev : Arg) (n : Nat), execLoop confirm i prev args = some n → n < i + args.length := by
  intro args
  induction args with
  | nil => intro i prev n h; cases h
  | cons a rest ih =>
    intro i prev n h
    have h' : (if a = A ";" then some i else if i > 0 ∧ a = A "+" ∧ ¬ confirm ∧ prev = A "{}" then some i else execLoop confirm (i + 1) a rest) = some n := h
    by_cases h1 : a = A ";"
    · rw [if_pos h1] at h'; cases h'; simp only [List.length_cons]; omega
    · rw [if_neg h1] at h'
      by_cases h2 : i > 0 ∧ a = A "+" ∧ ¬ confirm ∧ prev = A "{}"
      · rw [if_pos h2] at h'; cases h'; simp only [List.length_cons]; omega
      · rw [if_neg h2] at h'
        have := ih _ _ _ h'
        simp only [List.length_cons]; omega

theorem execArgc_bound {confirm : Bool} {a : Arg} {rest : List Arg} {n : Nat} (h : execArgc confirm (a :: rest) = some n) : 0 < n ∧ n ≤ (a :: rest).length := by
  unfold execArgc at h
  have hd : (a :: rest).drop 1 = rest := rfl
  rw [hd] at h
  cases hl : execLoop confirm 0 [] rest with
  | none => rw [hl] at h; cases h
  | some k =>
    rw [hl] at h
    cases k with
    | zero => cases h
    | succ k =>
      cases h
      have := execLoop_bound rest _ _ _ hl
      simp only [List.length_cons]; omega

theorem getElem?_one_ne {a : Arg} {rest : List Arg} (h : (a :: rest)[1]? ≠ none) : 2 ≤ (a :: rest).length := by
  cases rest with
  | nil => exact absurd rfl h
  | cons b r => simp only [List.length_cons]; omega

theorem argc_bound {env : Env} {sh : Shape} {a : Arg} {rest : List Arg} {n : Nat} (h : argc env sh (a :: rest) = .ok n) : 0 < n ∧ n ≤ (a :: rest).length := by
  have hlen : 1 ≤ (a :: rest).length := by simp only [List.length_cons]; omega
  unfold argc at h
  cases sh with
  | nullary => cases h; exact ⟨Nat.one_pos, hlen⟩
  | unary =>
    dsimp only at h
    by_cases hc : (a :: rest)[1]? = none
    · rw [if_pos hc] at h; cases h
    · rw [if_neg hc] at h; cases h; exact ⟨by decide, getElem?_one_ne hc⟩
  | prefixed c sep =>
    dsimp only at h
    cases hd : ((a :: rest).headD []).dropWhile (· ≠ c) with
    | nil => rw [hd] at h; cases h
    | cons x suffix =>
      rw [hd] at h
      dsimp only at h
      by_cases h1 : suffix ≠ []
      · rw [if_pos h1] at h; cases h; exact ⟨Nat.one_pos, hlen⟩
      · rw [if_neg h1] at h
        by_cases h2 : sep = true ∧ (a :: rest)[1]? ≠ none
        · rw [if_pos h2] at h; cases h; exact ⟨by decide, getElem?_one_ne h2.2⟩
        · rw [if_neg h2] at h; cases h
  | depth =>
    dsimp only at h
    by_cases hc : ((a :: rest)[1]?.map looksLikeIcmp) = some true
    · rw [if_pos hc] at h; cases h
      exact ⟨by decide, getElem?_one_ne (fun hn => by rw [hn] at hc; cases hc)⟩
    · rw [if_neg hc] at h; cases h; exact ⟨Nat.one_pos, hlen⟩
  | exec confirm =>
    dsimp only at h
    cases he : execArgc confirm (a :: rest) with
    | none => rw [he] at h; cases h
    | some k => rw [he] at h; cases h; exact execArgc_bound he
  | exit =>
    dsimp only at h
    by_cases hc : ((a :: rest)[1]?.map env.isStatus) = some true
    · rw [if_pos hc] at h; cases h
      exact ⟨by decide, getElem?_one_ne (fun hn => by rw [hn] at hc; cases hc)⟩
    · rw [if_neg hc] at h; cases h; exact ⟨Nat.one_pos, hlen⟩
  | fprintf =>
    dsimp only at h
    by_cases h1 : (a :: rest)[1]? = none
    · rw [if_pos h1] at h; cases h
    · rw [if_neg h1] at h
      by_cases h2 : (a :: rest)[2]? = none
      · rw [if_pos h2] at h; cases h
      · rw [if_neg h2] at h; cases h
        refine ⟨by decide, ?_⟩
        match rest with
        | [] => exact absurd rfl h1
        | [b] => exact absurd rfl h2
        | b :: c :: r => simp only [List.length_cons]; omega
  | newerxy =>
    dsimp only at h
    by_cases h1 : ((a :: rest).headD []).length ≠ 8
    · rw [if_pos h1] at h; cases h
    · rw [if_neg h1] at h
      by_cases h2 : (a :: rest)[1]? = none
      · rw [if_pos h2] at h; cases h
      · rw [if_neg h2] at h; cases h; exact ⟨by decide, getElem?_one_ne h2⟩
  | info => cases h

theorem dropWhile_mem {c : UInt8} : ∀ {l : Arg}, c ∈ l → ∃ s, l.dropWhile (fun x => decide (x ≠ c)) = c :: s := by
  intro l
  induction l with
  | nil => intro h; cases h
  | cons a l ih =>
    intro h
    by_cases hc : a = c
    · subst hc
      exact ⟨l, by rw [List.dropWhile_cons_of_neg]; simp⟩
    · rw [List.dropWhile_cons_of_pos (by simpa using hc)]
      rcases List.mem_cons.1 h with h | h
      · exact absurd h.symm hc
      · exact ih h

theorem argc_ub {env : Env} {sh : Shape} {a : Arg} {rest : List Arg} (h : ∀ c s, sh = .prefixed c s → c ∈ a) : argc env sh (a :: rest) ≠ .ub := by
  unfold argc
  cases sh with
  | prefixed c s =>
    dsimp only
    obtain ⟨t, ht⟩ := dropWhile_mem (h c s rfl)
    have : ((a :: rest).headD []).dropWhile (fun x => decide (x ≠ c)) = c :: t := ht
    rw [this]
    dsimp only
    intro hc
    split at hc <;> try (cases hc)
    split at hc <;> cases hc
  | nullary => intro hc; cases hc
  | unary => dsimp only; intro hc; split at hc <;> cases hc
  | depth => dsimp only; intro hc; split at hc <;> cases hc
  | exec c => dsimp only; intro hc; split at hc <;> cases hc
  | exit => dsimp only; intro hc; split at hc <;> cases hc
  | fprintf =>
    dsimp only; intro hc; split at hc
    · cases hc
    · split at hc <;> cases hc
  | newerxy =>
    dsimp only; intro hc; split at hc
    · cases hc
    · split at hc <;> cases hc
  | info => intro hc; cases hc

theorem callParse_ok {env : Env} {i : Nat} {p : Parser} {args : List Arg} {q : Prim} (h : callParse env i p args = .ok q) :
    argc env p.shape args = .ok q.argc ∧ q.calls = [(i, args.take q.argc)] ∧ env.valid i (args.take q.argc) = true := by
  unfold callParse at h
  cases ha : argc env p.shape args with
  | ok n =>
    rw [ha] at h
    simp only [Out.bind] at h
    by_cases hv : env.valid i (args.take n) = true
    · rw [if_pos hv] at h
      cases h
      exact ⟨rfl, rfl, hv⟩
    · rw [if_neg hv] at h; cases h
  | err e => rw [ha] at h; cases h
  | ub => rw [ha] at h; cases h

theorem callParse_ub {env : Env} {i : Nat} {p : Parser} {a : Arg} {rest : List Arg} (h : ∀ c s, p.shape = .prefixed c s → c ∈ a) : callParse env i p (a :: rest) ≠ .ub := by
  unfold callParse
  cases ha : argc env p.shape (a :: rest) with
  | ok n =>
    show (if _ then _ else _) ≠ _
    split <;> (intro hc; cases hc)
  | err e => intro hc; cases hc
  | ub => exact absurd ha (argc_ub h)

/-! ## Groups of flags -/

/-- The entry for a flag, if it has a parser. -/
def flagEntry (c : UInt8) : Option (Nat × Entry × Parser) :=
  (flagLookup c).bind fun i => (table[i]?).bind fun e => e.parse.map fun p => (i, e, p)

theorem flagEntry_some {c : UInt8} {i : Nat} {e : Entry} {p : Parser} (h : flagEntry c = some (i, e, p)) :
    flagLookup c = some i ∧ table[i]? = some e ∧ e.parse = some p ∧ e ∈ table ∧ e.kind = .flag ∧ e.arg[1]? = some c := by
  unfold flagEntry at h
  cases hf : flagLookup c with
  | none => rw [hf] at h; cases h
  | some j =>
    rw [hf] at h
    simp only [Option.bind_some] at h
    cases ht : table[j]? with
    | none => rw [ht] at h; cases h
    | some e' =>
      rw [ht] at h
      simp only [Option.bind_some] at h
      cases hp : e'.parse with
      | none => rw [hp] at h; cases h
      | some p' =>
        rw [hp] at h
        simp only [Option.map_some] at h
        cases h
        have hm : e ∈ table := List.mem_of_getElem? ht
        have := List.findIdx?_eq_some_iff_getElem.1 hf
        obtain ⟨hlt, hh, _⟩ := this
        have he : table[i] = e := by
          rw [List.getElem?_eq_getElem hlt] at ht
          injection ht
        rw [he] at hh
        simp only [Bool.and_eq_true, decide_eq_true_eq] at hh
        exact ⟨rfl, ht, hp, hm, hh.1.1, hh.1.2⟩

theorem isGroupLoop_cons (upper needs : Bool) (c : UInt8) (rest : Arg) : isGroupLoop upper needs (c :: rest) =
    (if needs then false
    else match flagEntry c with
      | none => false
      | some (_, e, _) => if e.pre then (upper || (65 ≤ c && c ≤ 90)) else isGroupLoop (upper || (65 ≤ c && c ≤ 90)) (needs || e.needsArg) rest) := by
  conv => lhs; unfold isGroupLoop
  dsimp only
  cases needs with
  | true => rfl
  | false =>
    rw [if_neg (by decide), if_neg (by decide)]
    unfold flagEntry
    cases hf : flagLookup c with
    | none => rfl
    | some i =>
      simp only [Option.bind_some]
      cases ht : table[i]? with
      | none => rfl
      | some e =>
        simp only [Option.bind_some]
        cases hp : e.parse with
        | none => rfl
        | some p => rfl

theorem groupLoop_cons (env : Env) (args : List Arg) (c : UInt8) (rest : Arg) (end_ : Nat) (acc : Option Prim) : groupLoop env args (c :: rest) end_ acc =
    match flagEntry c with
    | none => .ub
    | some (i, e, p) =>
      (callParse env i p args).bind fun q =>
        if e.pre then groupEnd (Nat.max end_ q.argc) (some (joinOpt acc q))
        else groupLoop env args rest (Nat.max end_ q.argc) (some (joinOpt acc q)) := rfl

theorem joinOpt_argc (acc : Option Prim) (q : Prim) : (joinOpt acc q).argc = q.argc := by
  cases acc <;> rfl

/-- `is_flag_group()` makes sure that the assertion in `parse_flag_group()` holds. -/
theorem groupLoop_spec (env : Env) (a : Arg) (rest : List Arg) : ∀ (l : Arg) (upper needs : Bool) (end_ : Nat) (acc : Option Prim),
    isGroupLoop upper needs l = true → (∀ c ∈ l, c ∈ a) →
    (acc = none → end_ = 0) → (∀ p, acc = some p → p.argc = end_ ∧ 0 < end_ ∧ end_ ≤ (a :: rest).length ∧ (needs = false → end_ = 1)) →
    groupLoop env (a :: rest) l end_ acc ≠ .ub ∧
      ∀ p, groupLoop env (a :: rest) l end_ acc = .ok p → 0 < p.argc ∧ p.argc ≤ (a :: rest).length := by
  intro l
  induction l with
  | nil =>
    intro upper needs end_ acc hg hm hn hs
    show groupEnd end_ acc ≠ .ub ∧ ∀ p, groupEnd end_ acc = .ok p → _
    cases acc with
    | none => exact ⟨fun hc => (by cases hc), fun p hc => by cases hc⟩
    | some p =>
      have h := hs p rfl
      unfold groupEnd
      dsimp only
      rw [if_pos h.1]
      refine ⟨fun hc => (by cases hc), fun q hq => ?_⟩
      cases hq
      rw [h.1]; exact ⟨h.2.1, h.2.2.1⟩
  | cons c l ih =>
    intro upper needs end_ acc hg hm hn hs
    rw [isGroupLoop_cons] at hg
    cases needs with
    | true => cases hg
    | false =>
      rw [if_neg (by decide)] at hg
      rw [groupLoop_cons]
      cases hf : flagEntry c with
      | none => rw [hf] at hg; cases hg
      | some x =>
        obtain ⟨i, e, p⟩ := x
        rw [hf] at hg
        dsimp only at hg ⊢
        obtain ⟨_, _, hp, hmem, hk, h1⟩ := flagEntry_some hf
        have hc : ∀ c' s, p.shape = .prefixed c' s → c' ∈ a := by
          intro c' s hsh
          have := table_prefix e hmem p c' s hp hsh
          rw [h1] at this
          cases this.2.2
          exact hm _ List.mem_cons_self
        have hend : end_ ≤ 1 := by
          cases acc with
          | none => rw [hn rfl]; exact Nat.zero_le _
          | some q => rw [(hs q rfl).2.2.2 rfl]; exact Nat.le_refl _
        cases hq : callParse env i p (a :: rest) with
        | ub => exact absurd hq (callParse_ub hc)
        | err m => exact ⟨fun h => (by cases h), fun _ h => by cases h⟩
        | ok q =>
          have hqa := (callParse_ok hq).1
          have hb := argc_bound hqa
          have hmax : Nat.max end_ q.argc = q.argc := Nat.max_eq_right (by omega)
          show (if e.pre = true then _ else _) ≠ _ ∧ ∀ p', (if e.pre = true then _ else _) = _ → _
          by_cases hpre : e.pre = true
          · rw [if_pos hpre, hmax]
            unfold groupEnd
            dsimp only
            rw [if_pos (joinOpt_argc acc q)]
            refine ⟨fun h => (by cases h), fun p' h => ?_⟩
            cases h
            rw [joinOpt_argc]; exact hb
          · rw [if_neg hpre] at hg
            rw [if_neg hpre, hmax]
            refine ih _ _ _ _ hg (fun c' hc' => hm c' (List.mem_cons_of_mem _ hc')) (fun h => by cases h) ?_
            intro p' hp'
            cases hp'
            refine ⟨joinOpt_argc acc q, hb.1, hb.2, ?_⟩
            intro hna
            have hna' : e.needsArg = false := hna
            have hpre' : e.pre = false := by cases hb' : e.pre with
              | false => rfl
              | true => exact absurd hb' hpre
            have := table_flags e hmem p hp hk hpre' hna'
            rw [this] at hqa
            have hqa' : (.ok 1 : Out Nat) = .ok q.argc := hqa
            injection hqa' with h
            exact h.symm

theorem prefix_mem {l a : Arg} (h : l <+: a) {c : UInt8} (hc : c ∈ l) : c ∈ a := by
  obtain ⟨t, rfl⟩ := h
  exact List.mem_append_left _ hc

theorem prim_entry {arg : Arg} {i : Nat} {e : Entry} (hi : tableLookup arg = some i) (he : table[i]? = some e) : e ∈ table ∧ entryMatches arg e = true := by
  have hm : e ∈ table := List.mem_of_getElem? he
  obtain ⟨hlt, hh, _⟩ := List.findIdx?_eq_some_iff_getElem.1 hi
  have he' : table[i] = e := by
    rw [List.getElem?_eq_getElem hlt] at he
    injection he
  rw [he'] at hh
  exact ⟨hm, hh⟩

theorem prim_spec (env : Env) (a : Arg) (rest : List Arg) :
    prim env (a :: rest) ≠ .ub ∧ ∀ p, prim env (a :: rest) = .ok p → a.head? = some 45 ∧ 0 < p.argc ∧ p.argc ≤ (a :: rest).length := by
  have hdef : prim env (a :: rest) = if a.head? ≠ some 45 then .err "expected a predicate"
    else match tableLookup a with
      | some i => match table[i]?.bind fun e => e.parse with
        | some p => callParse env i p (a :: rest)
        | none => .err "expected a predicate"
      | none => if isFlagGroup a then parseFlagGroup env (a :: rest) else .err "unknown argument" := rfl
  rw [hdef]
  by_cases h1 : a.head? ≠ some 45
  · rw [if_pos h1]; exact ⟨fun h => (by cases h), fun _ h => by cases h⟩
  · rw [if_neg h1]
    have h1' : a.head? = some 45 := Decidable.not_not.1 h1
    cases ht : tableLookup a with
    | some i =>
      dsimp only
      cases he : table[i]? with
      | none => exact ⟨fun h => (by cases h), fun _ h => by cases h⟩
      | some e =>
        simp only [Option.bind_some]
        cases hp : e.parse with
        | none => exact ⟨fun h => (by cases h), fun _ h => by cases h⟩
        | some p =>
          dsimp only
          obtain ⟨hmem, hmat⟩ := prim_entry ht he
          refine ⟨callParse_ub ?_, fun q hq => ⟨h1', argc_bound (callParse_ok hq).1⟩⟩
          intro c s hsh
          have hx := table_prefix e hmem p c s hp hsh
          unfold entryMatches at hmat
          rw [if_pos hx.1] at hmat
          exact prefix_mem (of_decide_eq_true hmat) hx.2.1
    | none =>
      dsimp only
      by_cases hg : isFlagGroup a = true
      · rw [if_pos hg]
        have := groupLoop_spec env a rest (a.drop 1) false false 0 none hg (fun c hc => List.mem_of_mem_drop hc) (fun _ => rfl) (fun _ h => by cases h)
        exact ⟨this.1, fun p hp => ⟨h1', this.2 p hp⟩⟩
      · rw [if_neg hg]; exact ⟨fun h => (by cases h), fun _ h => by cases h⟩

theorem prim_op (env : Env) (a : Arg) (rest : List Arg) (t : Tok) (p : Prim) (h : Operator a t) : prim env (a :: rest) ≠ .ok p := by
  have key : ∀ i : Nat, a.head? = some 45 → tableLookup a = some i → (table[i]?.bind fun e => e.parse) = none → prim env (a :: rest) ≠ .ok p := by
    intro i h1 h2 h3 hc
    have hdef : prim env (a :: rest) = .err "expected a predicate" := by
      show (if a.head? ≠ some 45 then _ else _) = _
      rw [if_neg (fun h => h h1)]
      show (match tableLookup a with | some i => _ | none => _) = _
      rw [h2]
      dsimp only
      rw [h3]
    rw [hdef] at hc; cases hc
  have key' : a.head? ≠ some 45 → prim env (a :: rest) ≠ .ok p := fun h hc => h ((prim_spec env a rest).2 p hc).1
  cases h with
  | lparen => exact key' (by decide)
  | rparen => exact key' (by decide)
  | bang => exact key' (by decide)
  | comma => exact key' (by decide)
  | not => exact key 81 (by decide) (by decide) (by decide)
  | exclude => exact key 34 (by decide) (by decide) (by decide)
  | a => exact key 15 (by decide) (by decide) (by decide)
  | and => exact key 18 (by decide) (by decide) (by decide)
  | o => exact key 84 (by decide) (by decide) (by decide)
  | or => exact key 87 (by decide) (by decide) (by decide)

theorem prim_ok (env : Env) : PrimOk (prim env) where
  noub a rest := (prim_spec env a rest).1
  argc a rest p h := ((prim_spec env a rest).2 p h).2
  op a rest t p h := prim_op env a rest t p h
  dash a rest p h hc := h ((prim_spec env a rest).2 p hc).1

end Verif.Cmdline
