import Verif.Spec.Whole
import Verif.Lemmas.Printx
import Verif.Lemmas.ExecTotal
import Verif.Props.Tests
import Verif.Props.Directive
import Verif.Lemmas.OptionsStep
import Verif.Lemmas.CmdMain
import Verif.Lemmas.Main
import Verif.Props.Main
/-! # The whole program: lemmas -/
namespace Verif.Whole
open Verif.Cmdline
open Verif.Tests (Setting Test ParseFn File Question Doc parseTest evalTest callFn fnOf fnFor parseTest_eq)
open Verif.Num (SizeUnit)
open Verif.Main (Effect Behaviour Meaning)
open Verif.Options (Call Made)

section
variable {s : Setting} {N : Numbering} {args : List Arg}

theorem leafCmp_inv (c : Num.Cmp) : leafCmp (cmpLeaf c) = c := by cases c <;> rfl

theorem bytesUnit_inv (u : SizeUnit) : bytesUnit (unitBytes u) = some u := by cases u <;> decide

theorem testOf_other {t : Test} {n : Nat} (h : parseTest s args = .ok (t, n)) : testOf s N (.other (N.id args)) = some t := by
  unfold testOf
  dsimp only
  rw [N.inv, h]

theorem testOf_leafOf {t : Test} {n : Nat} (h : parseTest s args = .ok (t, n)) : testOf s N (leafOf N args t) = some t := by
  cases t with
  | const b => cases b <;> rfl
  | access m =>
    unfold leafOf
    dsimp only
    split
    · next h => subst h; rfl
    · split
      · next h => subst h; rfl
      · split
        · next h => subst h; rfl
        · exact testOf_other h
  | depth c n => show some (Test.depth (leafCmp (cmpLeaf c)) n) = _; rw [leafCmp_inv]
  | gid c n => show some (Test.gid (leafCmp (cmpLeaf c)) n) = _; rw [leafCmp_inv]
  | uid c n => show some (Test.uid (leafCmp (cmpLeaf c)) n) = _; rw [leafCmp_inv]
  | inum c n => show some (Test.inum (leafCmp (cmpLeaf c)) n) = _; rw [leafCmp_inv]
  | links c n => show some (Test.links (leafCmp (cmpLeaf c)) n) = _; rw [leafCmp_inv]
  | size c n u =>
    show (bytesUnit (unitBytes u)).map (fun u => Test.size (leafCmp (cmpLeaf c)) n u) = _
    rw [leafCmp_inv, bytesUnit_inv]
    rfl
  | lname p =>
    unfold leafOf testOf
    dsimp only
    rw [N.inv, h]
  | samefile dev ino =>
    show (if 0 ≤ (dev : Int) ∧ 0 ≤ (ino : Int) then some (Test.samefile (dev : Int).toNat (ino : Int).toNat) else none) = _
    rw [if_pos ⟨by omega, by omega⟩, Int.toNat_natCast, Int.toNat_natCast]
  | type mask =>
    unfold leafOf
    dsimp only
    split
    · next hm =>
      show some (Test.type (BitVec.ofNat 32 mask).toNat) = _
      rw [BitVec.toNat_ofNat, Nat.mod_eq_of_lt hm]
    · exact testOf_other h
  | xtype mask =>
    unfold leafOf
    dsimp only
    split
    · next hm =>
      show some (Test.xtype (BitVec.ofNat 32 mask).toNat) = _
      rw [BitVec.toNat_ofNat, Nat.mod_eq_of_lt hm]
    · exact testOf_other h
  | acl | capable | empty | hidden | nogroup | nouser | sparse | xattr => rfl
  | context _ | newer _ _ | time _ _ _ _ _ | used _ _ | flags _ _ _ | fstype _ | name _ | path _ | perm _ _ _ | regex _ | xattrname _ => exact testOf_other h

theorem leafOf_noAction (t : Test) : ∀ k i, leafOf N args t ≠ .action k i := by
  intro k i
  cases t with
  | const b => cases b <;> intro h <;> cases h
  | access m =>
    unfold leafOf
    dsimp only
    repeat' split
    all_goals (intro h; cases h)
  | type m | xtype m =>
    unfold leafOf
    dsimp only
    split <;> (intro h; cases h)
  | _ => intro h; cases h

/-- The number of arguments. -/
def arity : ParseFn → Nat
  | .access _ | .acl | .capable | .const _ | .empty | .hidden | .nogroup | .nouser | .sparse | .xattr => 1
  | _ => 2

theorem unary_two {k : Tests.Bytes → Out Test} {t : Test} {n : Nat} (h : Tests.unary args k = .ok (t, n)) : n = 2 ∧ 2 ≤ args.length := by
  unfold Tests.unary at h
  split at h
  · next v rest =>
    cases hk : k v with
    | ok x => rw [hk] at h; injection h with h; injection h with _ h; exact ⟨h.symm, by simp⟩
    | err e => rw [hk] at h; cases h
    | ub => rw [hk] at h; cases h
  · cases h

theorem supported_some {can : Bool} {r : Out (Test × Nat)} {x : Test × Nat} (h : Tests.supported can r = .ok x) : r = .ok x := by
  unfold Tests.supported at h
  split at h
  · exact h
  · cases h

theorem nullary_one {t t' : Test} {n : Nat} (h : Tests.nullary t = .ok (t', n)) : n = 1 := by
  injection h with h; injection h with _ h; exact h.symm

theorem callFn_arity {fn : ParseFn} {t : Test} {n : Nat} (h : callFn s fn args = .ok (t, n)) : n = arity fn ∧ (arity fn = 2 → 2 ≤ args.length) := by
  have two : ∀ {k : Tests.Bytes → Out Test}, Tests.unary args k = .ok (t, n) → n = 2 ∧ (2 = 2 → 2 ≤ args.length) := fun h => ⟨(unary_two h).1, fun _ => (unary_two h).2⟩
  have one : ∀ {t' : Test}, Tests.nullary t' = .ok (t, n) → n = 1 ∧ (1 = 2 → 2 ≤ args.length) := fun h => ⟨nullary_one h, fun h => by omega⟩
  cases fn <;> unfold callFn at h <;> dsimp only at h
  case acl | capable | xattr => exact one (supported_some h)
  case context | xattrname => exact two (supported_some h)
  case depthN =>
    split at h
    · exact two h
    · cases h
  case newerxy =>
    split at h
    · cases h
    · exact two h
  case access | const | empty | hidden | nogroup | nouser | sparse => exact one h
  all_goals exact two h

/-! ## The table -/

/-- What is a test. -/
def tableOk (e : Entry) : Bool :=
  match e.parse with
  | none => true
  | some p =>
    match fnOf e with
    | some fn => decide (p.kind ≠ .action) && decide (e.kind ≠ .action) &&
        (if fn = .depthN then decide (p.shape = .depth) && decide (e.arg = A "-depth") && decide (e.kind = .option)
         else decide (e.arg ≠ A "-depth") && decide (e.arg ≠ A "-nohidden") && decide (e.kind ≠ .flag) && decide (e.kind ≠ .option) && if arity fn = 1 then decide (p.shape = .nullary) else decide (p.shape = .unary) || decide (p.shape = .newerxy))
    | none =>
      (decide (p.kind = .action) && decide (e.kind = .action) && decide (e.arg ≠ A "-depth") && decide (e.arg ≠ A "-nohidden")) ||
        (decide (p.kind ≠ .action) && decide (e.arg ≠ A "-depth") && (decide (e.kind = .flag) || decide (e.kind = .option) || decide (e.arg = A "-nohidden")))

theorem table_ok : ∀ e ∈ table, tableOk e = true := by decide +kernel

/-- Actions without arguments. -/
def Single (a : Arg) : Prop := a = A "-print" ∨ a = A "-print0" ∨ a = A "-prune" ∨ a = A "-quit" ∨ a = A "-delete" ∨ a = A "-rm" ∨ a = A "-printx"

instance (a : Arg) : Decidable (Single a) := by unfold Single; infer_instance

def actionOk (e : Entry) : Bool :=
  if e.arg = A "-printf" ∨ e.arg = A "-fprint" ∨ e.arg = A "-fprint0" then !e.pre && decide (e.parse.map (·.shape) = some .unary)
  else if e.arg = A "-fprintf" then !e.pre && decide (e.parse.map (·.shape) = some .fprintf)
  else if e.arg = A "-exit" then !e.pre && decide (e.parse.map (·.shape) = some .exit)
  else if Single e.arg then !e.pre && decide (e.parse.map (·.shape) = some .nullary)
  else if e.arg = A "-exec" ∨ e.arg = A "-execdir" then !e.pre && decide (e.parse.map (·.shape) = some (.exec false))
  else true

theorem action_ok : ∀ e ∈ table, actionOk e = true := by decide +kernel

theorem flag_ok : ∀ e ∈ table, e.kind = .flag → e.arg ≠ A "-depth" ∧ ∀ p, e.parse = some p → p.kind ≠ .action := by
  have : ∀ e ∈ table, (decide (e.kind = .flag) → (decide (e.arg ≠ A "-depth") && (match e.parse with | none => true | some p => decide (p.kind ≠ .action))) = true) := by decide +kernel
  intro e he hk
  have h := this e he (by simpa using hk)
  simp only [Bool.and_eq_true, decide_eq_true_eq] at h
  refine ⟨h.1, fun p hp => ?_⟩
  have h2 := h.2
  rw [hp] at h2
  simpa using h2

theorem is_eq {i : Nat} {e : Entry} {args : List Arg} (h : table[i]? = some e) (names : List String) : Call.is (i, args) names = (names.map A).contains e.arg := by
  unfold Call.is
  dsimp only
  rw [h]

/-! ## What primaries are -/

variable {pr : Printer} {base : Cmdline.Env}

theorem valid_eq {i : Nat} {e : Entry} (he : table[i]? = some e) : valid s pr base i args =
    (match fnOf e with
    | some fn => (match callFn s fn args with | .ok _ => true | _ => false) || (fn = .depthN && args.length = 1)
    | none => if e.arg = A "-printf" then (match args[1]?.map (Printf.parse pr.env) with | some (.ok _) => true | _ => false)
      else if e.arg = A "-fprintf" then (match args[2]?.map (Printf.parse pr.env) with | some (.ok _) => base.valid i args | _ => false)
      else if e.arg = A "-exec" ∨ e.arg = A "-execdir" then (match parseExec args with | .ok _ => base.valid i args | _ => false)
      else base.valid i args) := by
  unfold valid
  rw [he]
  rfl

/-- The names of actions. -/
def actionNames : List Arg := [A "-print", A "-print0", A "-printf", A "-prune", A "-quit", A "-delete", A "-rm", A "-exec", A "-execdir", A "-printx", A "-fprint",
  A "-fprint0", A "-fprintf", A "-exit"]

theorem parse_action : ∀ a ∈ actionNames, fnFor a = none := by decide +kernel

/-- None of them is a flag or an option. -/
theorem action_names : ∀ a ∈ actionNames, ∃ i, tableLookup a = some i ∧ ∀ e, table[i]? = some e → e.kind ≠ .flag ∧ e.kind ≠ .option ∧ e.arg ≠ A "-nohidden" := by
  have : ∀ a ∈ actionNames, (match tableLookup a with
    | none => false
    | some j => match table[j]? with
      | none => false
      | some e => decide (e.kind ≠ .flag) && decide (e.kind ≠ .option) && decide (e.arg ≠ A "-nohidden")) = true := by decide +kernel
  intro a ha
  have h := this a ha
  split at h
  · cases h
  · next j hj =>
    refine ⟨j, hj, fun e he => ?_⟩
    rw [he] at h
    simp only [Bool.and_eq_true, decide_eq_true_eq] at h
    exact ⟨h.1.1, h.1.2, h.2⟩

theorem delete_name (rm : Bool) : deleteName rm ∈ actionNames := by cases rm <;> decide
theorem exec_name (dir : Bool) : execName dir ∈ actionNames := by cases dir <;> decide

/-- A test, a flag or an option, or an action. -/
inductive What (s : Setting) (N : Numbering) (pr : Printer) (q : Prim) : Prop
  | test (i : Nat) (args : List Arg) (t : Test) (n : Nat) : q.calls = [(i, args)] → q.action = false → parseTest s args = .ok (t, n) → args.take n = args → ¬ IsOption (i, args) →
      What s N pr q
  | option : q.action = false → (∀ c ∈ q.calls, IsOption c) → leafFor s N q = .true_ → (∀ c ∈ q.calls, (∀ a tl, c.2 = a :: tl → a ∉ actionNames) ∧ ∀ t n, parseTest s c.2 ≠ .ok (t, n)) → What s N pr q
  | action (i : Nat) (args : List Arg) (e : Entry) : q.calls = [(i, args)] → q.action = true → table[i]? = some e → e.kind = .action → ¬ IsOption (i, args) →
      (Single e.arg → args = [e.arg]) →
      (e.arg = A "-printf" → ∃ format fmts, args = [e.arg, format] ∧ Printf.parse pr.env format = .ok fmts) →
      (e.arg = A "-fprint" ∨ e.arg = A "-fprint0" → ∃ name, args = [e.arg, name]) →
      (e.arg = A "-fprintf" → ∃ name format fmts, args = [e.arg, name, format] ∧ Printf.parse pr.env format = .ok fmts) →
      (e.arg = A "-exit" → args = [e.arg] ∨ ∃ v n, args = [e.arg, v] ∧ Options.unsignedInt v = .ok n) →
      (∀ dir, e.arg = execName dir → args.getLast? = some (A ";") → ∃ cmd x, args = execName dir :: (cmd ++ [A ";"]) ∧ parseExec args = .ok (false, x) ∧ Exec.Ready dir cmd x) → What s N pr q

/-- The command that ends here. -/
theorem exec_ends : ∀ (rest tmpl : List Arg) (prev : Arg) (n : Nat), execLoop false tmpl.length prev rest = some n → (0 < tmpl.length → tmpl.getLast? = some prev) →
    ∃ k, n = tmpl.length + k ∧ k < rest.length ∧ ((rest.take (k + 1)).getLast? = some (A ";") → ∃ mid, rest.take (k + 1) = mid ++ [A ";"] ∧ mid.length = k ∧
      Exec.parseLoop false tmpl (rest.take (k + 1)) = .single (tmpl ++ mid))
  | [], _, _, _, h, _ => by cases h
  | arg :: rest, tmpl, prev, n, h, hp => by
    rw [execLoop] at h
    by_cases h1 : arg = A ";"
    · rw [if_pos h1] at h
      injection h with h
      refine ⟨0, h.symm, by simp, fun _ => ⟨[], by rw [h1]; rfl, rfl, ?_⟩⟩
      rw [List.append_nil]
      show Exec.parseLoop false tmpl [arg] = _
      rw [Exec.parseLoop, if_pos (by rw [h1]; decide)]
    · rw [if_neg h1] at h
      by_cases h2 : tmpl.length > 0 ∧ arg = A "+" ∧ ¬ (false = true) ∧ prev = A "{}"
      · rw [if_pos h2] at h
        injection h with h
        refine ⟨0, h.symm, by simp, fun hl => ?_⟩
        have : arg = A ";" := by simpa using hl
        exact absurd this h1
      · rw [if_neg h2] at h
        obtain ⟨k, k1, k2, k3⟩ := exec_ends rest (tmpl ++ [arg]) arg n (by simpa using h) (fun _ => by simp)
        refine ⟨k + 1, by rw [k1, List.length_append, List.length_singleton]; omega, by simp only [List.length_cons]; omega, fun hl => ?_⟩
        have hne : rest.take (k + 1) ≠ [] := by
          cases rest with
          | nil => simp at k2
          | cons x y => simp
        obtain ⟨mid, m1, m2, m3⟩ := k3 (by
          rw [List.take_succ_cons, List.getLast?_cons] at hl
          rw [List.getLast?_eq_some_getLast hne] at hl ⊢
          simpa using hl)
        refine ⟨arg :: mid, by rw [List.take_succ_cons, m1]; rfl, by simp [m2], ?_⟩
        rw [List.take_succ_cons, Exec.parseLoop, if_neg (by intro h; exact h1 (h.trans (by decide))), if_neg, m3, List.append_assoc]
        · rfl
        · rintro ⟨c1, c2, _, c4⟩
          refine h2 ⟨c1, c2.trans (by decide), by decide, ?_⟩
          rw [hp c1] at c4
          injection c4 with c4

theorem lookup_entry {a : Arg} {i : Nat} {e : Entry} (hi : tableLookup a = some i) (he : table[i]? = some e) : entryMatches a e = true := by
  unfold tableLookup at hi
  obtain ⟨hlt, h1, _⟩ := List.findIdx?_eq_some_iff_getElem.1 hi
  obtain ⟨_, h2⟩ := List.getElem?_eq_some_iff.1 he
  rw [h2] at h1
  exact h1

theorem fnFor_eq {a : Arg} {i : Nat} {e : Entry} (hi : tableLookup a = some i) (he : table[i]? = some e) : fnFor a = fnOf e := by
  unfold fnFor
  rw [hi, show (some i).bind (fun i => table[i]?) = table[i]? from rfl, he]
  rfl

theorem callParse_action {env : Cmdline.Env} {i : Nat} {p : Parser} {args : List Arg} {q : Prim} (h : callParse env i p args = .ok q) : q.action = decide (p.kind = .action) := by
  unfold callParse at h
  cases ha : argc env p.shape args with
  | ok n =>
    rw [ha] at h
    simp only [Out.bind] at h
    split at h
    · cases h; rfl
    · cases h
  | err e => rw [ha] at h; cases h
  | ub => rw [ha] at h; cases h

theorem parseTest_none {a : Arg} {rest : List Arg} (h : fnFor a = none) : parseTest s (a :: rest) = .err "not a test" := by
  show (match fnFor a with | none => _ | some fn => _) = _
  rw [h]

theorem testLeaf_none {a : Arg} {rest : List Arg} (h : fnFor a = none) : testLeaf s N (a :: rest) = .true_ := by
  unfold testLeaf
  rw [parseTest_none h]

theorem what_entry {a : Arg} {rest : List Arg} {i : Nat} {e : Entry} {p : Parser} {q : Prim} (hi : tableLookup a = some i) (he : table[i]? = some e) (hp : e.parse = some p)
    (h : callParse (env s pr base) i p (a :: rest) = .ok q) : What s N pr q := by
  obtain ⟨hn, hc, hv⟩ := callParse_ok h
  have ha := callParse_action h
  have hmem : e ∈ table := List.mem_of_getElem? he
  have htab := table_ok e hmem
  have hf := fnFor_eq hi he
  obtain ⟨hpos, hle⟩ := argc_bound hn
  obtain ⟨tl, htl⟩ : ∃ tl, (a :: rest).take q.argc = a :: tl := by
    cases hq : q.argc with
    | zero => omega
    | succ k => exact ⟨rest.take k, rfl⟩
  have hlen : (a :: tl).length = q.argc := by rw [← htl, List.length_take]; omega
  rw [htl] at hc hv
  replace hv : valid s pr base i (a :: tl) = true := hv
  rw [valid_eq he] at hv
  unfold tableOk at htab
  rw [hp] at htab
  dsimp only at htab
  cases hfn : fnOf e with
  | some fn =>
    rw [hfn] at htab hv
    rw [hfn] at hf
    dsimp only at hv
    simp only [Bool.and_eq_true, decide_eq_true_eq] at htab
    obtain ⟨⟨hk, hk2⟩, htab⟩ := htab
    have hact : q.action = false := by rw [ha]; exact decide_eq_false hk
    have harity : q.argc ≤ arity fn := by
      by_cases hd : fn = .depthN
      · rw [if_pos hd] at htab
        simp only [Bool.and_eq_true, decide_eq_true_eq] at htab
        rw [htab.1.1] at hn
        subst hd
        unfold argc at hn
        dsimp only at hn
        split at hn <;> (injection hn with hn; rw [← hn]; decide)
      · rw [if_neg hd] at htab
        simp only [Bool.and_eq_true] at htab
        replace htab := htab.2
        by_cases h1 : arity fn = 1
        · rw [if_pos h1] at htab
          simp only [decide_eq_true_eq] at htab
          rw [htab] at hn
          injection hn with hn
          omega
        · rw [if_neg h1] at htab
          have h2 : arity fn = 2 := by
            cases fn <;> first | rfl | exact absurd rfl h1
          simp only [Bool.or_eq_true, decide_eq_true_eq] at htab
          rcases htab with htab | htab <;> rw [htab] at hn <;> unfold argc at hn <;> dsimp only at hn <;> repeat' split at hn
          all_goals first | (injection hn with hn; omega) | cases hn
    cases hcall : callFn s fn (a :: tl) with
    | ok x =>
      obtain ⟨t, n⟩ := x
      have har := (callFn_arity hcall).1
      have hlen2 := (callFn_arity hcall).2
      refine .test i (a :: tl) t n hc hact (by rw [parseTest_eq hf]; exact hcall) (List.take_of_length_le (by omega)) ?_
      by_cases hd : fn = .depthN
      · rw [if_pos hd] at htab
        simp only [Bool.and_eq_true, decide_eq_true_eq] at htab
        rintro (⟨_, h⟩ | h)
        · rw [is_eq he, htab.1.2] at h
          have := h (by decide)
          have h2 : arity fn = 2 := by rw [hd]; rfl
          have := hlen2 h2
          simp only at *
          omega
        · rw [is_eq he, htab.1.2] at h
          exact absurd h (by decide)
      · rw [if_neg hd] at htab
        simp only [Bool.and_eq_true, decide_eq_true_eq] at htab
        rintro (⟨⟨e', h1, h2⟩, _⟩ | h)
        · rw [he] at h1
          injection h1 with h1
          subst h1
          rcases h2 with h2 | h2
          · exact htab.1.1.2 h2
          · exact htab.1.2 h2
        · rw [is_eq he] at h
          simp at h
          exact absurd h htab.1.1.1.2
    | err m =>
      rw [hcall] at hv
      simp only [Bool.false_or, Bool.and_eq_true, decide_eq_true_eq] at hv
      obtain ⟨hd, hone⟩ := hv
      rw [if_pos hd] at htab
      simp only [Bool.and_eq_true, decide_eq_true_eq] at htab
      refine .option hact ?_ ?_ ?_
      · rw [hc]
        intro c hc'
        rcases List.mem_singleton.1 hc' with rfl
        exact Or.inl ⟨⟨e, he, Or.inr htab.2⟩, fun _ => hone⟩
      · unfold leafFor
        rw [hc]
        dsimp only
        rw [hact, if_neg (by decide)]
        unfold testLeaf
        rw [parseTest_eq hf, hcall]
      · rw [hc]
        intro c hc'
        rcases List.mem_singleton.1 hc' with rfl
        refine ⟨fun a' tl' h hm => ?_, fun t n h => ?_⟩
        · injection h with h
          subst h
          rw [parse_action _ hm] at hf
          cases hf
        · rw [show parseTest s (a :: tl) = _ from parseTest_eq hf tl, hcall] at h
          cases h
    | ub =>
      rw [hcall] at hv
      simp only [Bool.false_or, Bool.and_eq_true, decide_eq_true_eq] at hv
      obtain ⟨hd, hone⟩ := hv
      rw [if_pos hd] at htab
      simp only [Bool.and_eq_true, decide_eq_true_eq] at htab
      refine .option hact ?_ ?_ ?_
      · rw [hc]
        intro c hc'
        rcases List.mem_singleton.1 hc' with rfl
        exact Or.inl ⟨⟨e, he, Or.inr htab.2⟩, fun _ => hone⟩
      · unfold leafFor
        rw [hc]
        dsimp only
        rw [hact, if_neg (by decide)]
        unfold testLeaf
        rw [parseTest_eq hf, hcall]
      · rw [hc]
        intro c hc'
        rcases List.mem_singleton.1 hc' with rfl
        refine ⟨fun a' tl' h hm => ?_, fun t n h => ?_⟩
        · injection h with h
          subst h
          rw [parse_action _ hm] at hf
          cases hf
        · rw [show parseTest s (a :: tl) = _ from parseTest_eq hf tl, hcall] at h
          cases h
  | none =>
    rw [hfn] at htab hv
    rw [hfn] at hf
    dsimp only at hv
    simp only [Bool.or_eq_true, Bool.and_eq_true, decide_eq_true_eq] at htab
    rcases htab with ⟨⟨⟨hk, hk2⟩, hk4⟩, hk5⟩ | ⟨⟨hk, hk2⟩, hk3⟩
    · have hact : q.action = true := by rw [ha]; exact decide_eq_true hk
      have hao := action_ok e hmem
      have hmatch := lookup_entry hi he
      unfold entryMatches at hmatch
      refine .action i (a :: tl) e hc hact he hk2 ?_ ?_ ?_ ?_ ?_ ?_ ?_
      · rintro (⟨⟨e', h1, h2⟩, _⟩ | h)
        · rw [he] at h1
          injection h1 with h1
          subst h1
          rw [hk2] at h2
          rcases h2 with h2 | h2 <;> cases h2
        · rw [is_eq he] at h
          simp at h
          exact hk5 h
      · intro hname
        unfold actionOk at hao
        rw [if_neg, if_neg, if_neg, if_pos hname] at hao
        · simp only [Bool.and_eq_true, Bool.not_eq_true', decide_eq_true_eq, hp, Option.map_some, Option.some.injEq] at hao
          obtain ⟨h1, h2⟩ := hao
          rw [h1, if_neg (by decide)] at hmatch
          have hae : a = e.arg := by simpa using hmatch
          rw [h2] at hn
          injection hn with hn
          cases tl with
          | nil => rw [hae]
          | cons x y => simp only [List.length_cons] at hlen; omega
        all_goals rcases hname with h | h | h | h | h | h | h <;> rw [h] <;> decide
      · intro hname
        unfold actionOk at hao
        rw [if_pos (.inl hname)] at hao
        simp only [Bool.and_eq_true, Bool.not_eq_true', decide_eq_true_eq, hp, Option.map_some, Option.some.injEq] at hao
        obtain ⟨h1, h2⟩ := hao
        rw [h1, if_neg (by decide)] at hmatch
        have hae : a = e.arg := by simpa using hmatch
        rw [if_pos hname] at hv
        rw [h2] at hn
        unfold argc at hn
        dsimp only at hn
        split at hn
        · cases hn
        · injection hn with hn
          cases tl with
          | nil => simp only [List.length_cons, List.length_nil] at hlen; omega
          | cons x y =>
            cases y with
            | cons _ _ => simp only [List.length_cons] at hlen; omega
            | nil =>
              cases hparse : Printf.parse pr.env x with
              | ok fmts => exact ⟨x, fmts, by rw [hae], hparse⟩
              | err m =>
                exfalso
                rw [show ([a, x] : List Arg)[1]? = some x from rfl, Option.map_some, hparse] at hv
                cases hv
              | ub =>
                exfalso
                rw [show ([a, x] : List Arg)[1]? = some x from rfl, Option.map_some, hparse] at hv
                cases hv
      · intro hname
        unfold actionOk at hao
        rw [if_pos (.inr hname)] at hao
        simp only [Bool.and_eq_true, Bool.not_eq_true', decide_eq_true_eq, hp, Option.map_some, Option.some.injEq] at hao
        obtain ⟨h1, h2⟩ := hao
        rw [h1, if_neg (by decide)] at hmatch
        have hae : a = e.arg := by simpa using hmatch
        rw [h2] at hn
        unfold argc at hn
        dsimp only at hn
        split at hn
        · cases hn
        · injection hn with hn
          match tl, hlen with
          | [], hlen => simp only [List.length_cons, List.length_nil] at hlen; omega
          | [x], _ => exact ⟨x, by rw [hae]⟩
          | _ :: _ :: _, hlen => simp only [List.length_cons] at hlen; omega
      · intro hname
        unfold actionOk at hao
        rw [if_neg (by rw [hname]; decide), if_pos hname] at hao
        simp only [Bool.and_eq_true, Bool.not_eq_true', decide_eq_true_eq, hp, Option.map_some, Option.some.injEq] at hao
        obtain ⟨h1, h2⟩ := hao
        rw [h1, if_neg (by decide)] at hmatch
        have hae : a = e.arg := by simpa using hmatch
        rw [if_neg (by rw [hname]; decide), if_pos hname] at hv
        rw [h2] at hn
        unfold argc at hn
        dsimp only at hn
        split at hn
        · cases hn
        split at hn
        · cases hn
        · injection hn with hn
          match tl, hlen, hv with
          | [], hlen, _ => simp only [List.length_cons, List.length_nil] at hlen; omega
          | [_], hlen, _ => simp only [List.length_cons, List.length_nil] at hlen; omega
          | _ :: _ :: _ :: _, hlen, _ => simp only [List.length_cons] at hlen; omega
          | [x, y], _, hv =>
            rw [show ([a, x, y] : List Arg)[2]? = some y from rfl, Option.map_some] at hv
            cases hparse : Printf.parse pr.env y with
            | ok fmts => exact ⟨x, y, fmts, by rw [hae], hparse⟩
            | err m => rw [hparse] at hv; cases hv
            | ub => rw [hparse] at hv; cases hv
      · intro hname
        unfold actionOk at hao
        rw [if_neg (by rw [hname]; decide), if_neg (by rw [hname]; decide), if_pos hname] at hao
        simp only [Bool.and_eq_true, Bool.not_eq_true', decide_eq_true_eq, hp, Option.map_some, Option.some.injEq] at hao
        obtain ⟨h1, h2⟩ := hao
        rw [h1, if_neg (by decide)] at hmatch
        have hae : a = e.arg := by simpa using hmatch
        rw [h2] at hn
        unfold argc at hn
        dsimp only at hn
        split at hn
        · next hst =>
          injection hn with hn
          match rest, tl, hlen, htl, hst with
          | v :: _, [x], _, htl, hst =>
            rw [← hn] at htl
            injection htl with _ htl
            injection htl with htl _
            refine .inr ?_
            rw [show (a :: v :: _ : List Arg)[1]? = some v from rfl, Option.map_some] at hst
            injection hst with hst
            change isStatus v = true at hst
            unfold isStatus at hst
            cases hu : Options.unsignedInt v with
            | ok n => exact ⟨x, n, by rw [hae], by rw [← htl]; exact hu⟩
            | err m => rw [hu] at hst; cases hst
            | ub => rw [hu] at hst; cases hst
          | [], _, _, _, hst => cases hst
          | _, [], hlen, _, _ => simp only [List.length_cons, List.length_nil] at hlen; omega
          | _, _ :: _ :: _, hlen, _, _ => simp only [List.length_cons] at hlen; omega
        · injection hn with hn
          cases tl with
          | nil => exact .inl (by rw [hae])
          | cons x y => simp only [List.length_cons] at hlen; omega
      · intro dir hname hlast
        unfold actionOk at hao
        rw [if_neg (by rw [hname]; cases dir <;> decide), if_neg (by rw [hname]; cases dir <;> decide), if_neg (by rw [hname]; cases dir <;> decide), if_neg (by rw [hname]; cases dir <;> decide), if_pos (by rw [hname]; cases dir <;> decide)] at hao
        simp only [Bool.and_eq_true, Bool.not_eq_true', decide_eq_true_eq, hp, Option.map_some, Option.some.injEq] at hao
        obtain ⟨h1, h2⟩ := hao
        rw [h1, if_neg (by decide)] at hmatch
        have hae : a = e.arg := by simpa using hmatch
        rw [h2] at hn
        unfold argc execArgc at hn
        rw [show List.drop 1 (a :: rest) = rest from rfl] at hn
        dsimp only at hn
        cases hx : execLoop false 0 [] rest with
        | none => rw [hx] at hn; cases hn
        | some k =>
          rw [hx] at hn
          cases k with
          | zero => cases hn
          | succ k =>
            have hq : k + 1 + 2 = q.argc := by injection hn
            obtain ⟨k', e1, _, hend⟩ := exec_ends rest [] [] (k + 1) hx (fun h => by cases h)
            obtain rfl : k' = k + 1 := by rw [List.length_nil] at e1; omega
            have htl' : tl = rest.take (k + 1 + 1) := by
              rw [← hq] at htl
              injection htl with _ htl
              exact htl.symm
            rw [← htl'] at hend
            obtain ⟨mid, m1, m2, m3⟩ := hend (by
              cases tl with
              | nil =>
                have : a = A ";" := by simpa using hlast
                rw [hae, hname] at this
                cases dir <;> exact absurd this (by decide)
              | cons x y => simpa using hlast)
            rw [List.nil_append] at m3
            have hmid : mid ≠ [] := by intro h; rw [h] at m2; cases m2
            have hpe : parseExec (a :: tl) = .ok (false, { chdir := decide (some a = some (A "-execdir")), tmpl := mid, argv := List.replicate (mid.length + 1) none, argc := 0, argSize := 0, argMax := 0, argMin := 0 }) := by
              unfold parseExec Exec.parse
              rw [List.tail_cons, m3]
              dsimp only
              rw [if_neg hmid]
              rfl
            refine ⟨mid, _, by rw [hae, hname, m1], hpe, ?_, rfl, by simp, rfl, rfl⟩
            show decide (some a = some (A "-execdir")) = dir
            rw [hae, hname]
            cases dir <;> decide
    · have hact : q.action = false := by rw [ha]; exact decide_eq_false hk
      refine .option hact ?_ ?_ ?_
      · rw [hc]
        intro c hc'
        rcases List.mem_singleton.1 hc' with rfl
        rcases hk3 with hk3 | hk3
        · refine Or.inl ⟨⟨e, he, hk3⟩, fun hd => ?_⟩
          rw [is_eq he] at hd
          simp at hd
          exact absurd hd hk2
        · refine Or.inr ?_
          rw [is_eq he, hk3]
          decide
      · unfold leafFor
        rw [hc]
        dsimp only
        rw [hact, if_neg (by decide)]
        exact testLeaf_none hf
      · rw [hc]
        intro c hc'
        rcases List.mem_singleton.1 hc' with rfl
        refine ⟨fun a' tl' h hm => ?_, fun t n h => ?_⟩
        · injection h with h
          subst h
          obtain ⟨j, k0, k⟩ := action_names _ hm
          rw [hi] at k0
          injection k0 with k0
          subst k0
          obtain ⟨k1, k2, k3⟩ := k e he
          rcases hk3 with (hk3 | hk3) | hk3
          · exact k1 hk3
          · exact k2 hk3
          · exact k3 hk3
        · rw [parseTest_none hf] at h
          cases h

/-- Only flags. -/
def Flags (q : Prim) : Prop := q.action = false ∧ ∀ c ∈ q.calls, IsOption c

theorem end_some {k : Nat} {acc : Option Prim} {q : Prim} (h : groupEnd k acc = .ok q) : acc = some q := by
  cases acc with
  | none => cases h
  | some p =>
    unfold groupEnd at h
    dsimp only at h
    split at h
    · cases h; rfl
    · cases h

theorem flags_group (env : Cmdline.Env) (a : Arg) (rest : List Arg) : ∀ (l : Arg) (n : Nat) (acc : Option Prim) (q : Prim),
    (∀ p, acc = some p → Flags p ∧ ∀ c ∈ p.calls, c.2.head? = some a) → groupLoop env (a :: rest) l n acc = .ok q → Flags q ∧ ∀ c ∈ q.calls, c.2.head? = some a := by
  intro l
  induction l with
  | nil => intro n acc q ha h; exact ha q (end_some h)
  | cons x l ih =>
    intro n acc q ha h
    rw [groupLoop_cons] at h
    cases hf : flagEntry x with
    | none => rw [hf] at h; cases h
    | some v =>
      obtain ⟨i, e, p⟩ := v
      obtain ⟨_, he, hp, hmem, hk, _⟩ := flagEntry_some hf
      rw [hf] at h
      obtain ⟨q1, h1, h2⟩ := Options.obind_iff.1 h
      obtain ⟨hn, hc, _⟩ := callParse_ok h1
      obtain ⟨hd, hact⟩ := flag_ok e hmem hk
      have hq1 : Flags q1 ∧ ∀ c ∈ q1.calls, c.2.head? = some a := by
        refine ⟨⟨by rw [callParse_action h1]; exact decide_eq_false (hact p hp), ?_⟩, ?_⟩ <;> (rw [hc]; intro c hc'; rcases List.mem_singleton.1 hc' with rfl)
        · refine Or.inl ⟨⟨e, he, Or.inl hk⟩, fun h => ?_⟩
          rw [is_eq he] at h
          simp at h
          exact absurd h hd
        · have := (argc_bound hn).1
          show ((a :: rest).take q1.argc).head? = _
          cases hq : q1.argc with
          | zero => omega
          | succ k => rfl
      have hj : Flags (joinOpt acc q1) ∧ ∀ c ∈ (joinOpt acc q1).calls, c.2.head? = some a := by
        cases acc with
        | none => exact hq1
        | some p0 =>
          obtain ⟨⟨a1, a2⟩, a3⟩ := ha p0 rfl
          obtain ⟨⟨b1, b2⟩, b3⟩ := hq1
          refine ⟨⟨?_, fun c hc => (List.mem_append.1 hc).elim (a2 c) (b2 c)⟩, fun c hc => (List.mem_append.1 hc).elim (a3 c) (b3 c)⟩
          show (p0.action || q1.action) = false
          rw [a1, b1]; rfl
      split at h2
      · have := end_some h2
        injection this with this
        rw [← this]
        exact hj
      · exact ih _ _ q (by intro p hp; cases hp; exact hj) h2

theorem what_prim {a : Arg} {rest : List Arg} {q : Prim} (h : prim (env s pr base) (a :: rest) = .ok q) : What s N pr q := by
  unfold prim at h
  dsimp only at h
  split at h
  · cases h
  · split at h
    · next i hi =>
      cases he : table[i]? with
      | none => rw [he] at h; cases h
      | some e =>
        rw [he] at h
        cases hp : e.parse with
        | none => rw [Option.bind_some, hp] at h; cases h
        | some p => rw [Option.bind_some, hp] at h; exact what_entry hi he hp h
    · next hi =>
      split at h
      · obtain ⟨⟨h1, h2⟩, h3⟩ := flags_group _ a rest _ _ _ q (by intro p hp; cases hp) h
        have hnone : ∀ c ∈ q.calls, (∀ a tl, c.2 = a :: tl → a ∉ actionNames) ∧ ∀ t n, parseTest s c.2 ≠ .ok (t, n) := by
          intro c hc
          have hh := h3 c hc
          obtain ⟨i, args⟩ := c
          cases args with
          | nil => cases hh
          | cons x y =>
            injection hh with hh
            subst hh
            have hi' : tableLookup x = none := hi
            refine ⟨fun a' tl' h hm => ?_, fun t n h => ?_⟩
            · injection h with h
              subst h
              obtain ⟨j, k0, _⟩ := action_names _ hm
              rw [hi'] at k0
              cases k0
            · rw [show parseTest s (x :: y) = _ from parseTest_none (by unfold fnFor; rw [hi']; rfl)] at h
              cases h
        refine .option h1 h2 ?_ hnone
        unfold leafFor
        rw [h1]
        split
        · next i args hc =>
          rw [if_neg (by decide)]
          have := h3 (i, args) (by rw [hc]; exact List.mem_singleton.2 rfl)
          cases args with
          | nil => cases this
          | cons x y =>
            injection this with this
            subst this
            refine testLeaf_none ?_
            unfold fnFor
            have hi' : tableLookup x = none := hi
            rw [hi']
            rfl
        · rfl
      · cases h

/-! ## The primaries of a command line -/

/-- All primaries. -/
def All (P : Prim → Prop) : E → Prop
  | .leaf (.prim q) => P q
  | .leaf _ => True
  | .not x => All P x
  | .and x y => All P x ∧ All P y
  | .or x y => All P x ∧ All P y
  | .comma x y => All P x ∧ All P y

theorem all_main {P : Prim → Prop} : ∀ (t : Tree), (∀ q ∈ t.prims, P q) → All P t.main
  | .leaf p, h => h p (List.mem_singleton.2 rfl)
  | .not t, h => all_main t h
  | .exclude t, _ => trivial
  | .and t u, h => ⟨all_main t fun q hq => h q (List.mem_append.2 (.inl hq)), all_main u fun q hq => h q (List.mem_append.2 (.inr hq))⟩
  | .or t u, h => ⟨all_main t fun q hq => h q (List.mem_append.2 (.inl hq)), all_main u fun q hq => h q (List.mem_append.2 (.inr hq))⟩
  | .comma t u, h => ⟨all_main t fun q hq => h q (List.mem_append.2 (.inl hq)), all_main u fun q hq => h q (List.mem_append.2 (.inr hq))⟩

theorem all_excluded {P : Prim → Prop} (t : Tree) (h : ∀ q ∈ t.prims, P q) : ∀ x ∈ t.excluded, All P x := by
  induction t with
  | leaf p =>
    intro x hx
    unfold Tree.excluded at hx
    split at hx
    · rcases List.mem_singleton.1 hx with rfl; exact trivial
    · cases hx
  | not t ih => exact ih h
  | exclude t ih =>
    intro x hx
    rcases List.mem_append.1 hx with hx | hx
    · exact ih h x hx
    · rcases List.mem_singleton.1 hx with rfl
      exact all_main t h
  | and t u i1 i2 | or t u i1 i2 | comma t u i1 i2 =>
    exact fun x hx => (List.mem_append.1 hx).elim (i1 (fun q hq => h q (List.mem_append.2 (.inl hq))) x) (i2 (fun q hq => h q (List.mem_append.2 (.inr hq))) x)

theorem gram_prims {l : Level} {ex : Bool} {ts : List Tok} {t : Tree} (h : Gram l ex ts t) : ∀ q ∈ t.prims, Tok.prim q ∈ ts := by
  induction h with
  | paren ex ts t _ ih => exact fun q hq => List.mem_append.2 (.inl (List.mem_cons_of_mem _ (ih q hq)))
  | not ex ts t _ ih => exact fun q hq => List.mem_cons_of_mem _ (ih q hq)
  | exclude ts t _ ih => exact fun q hq => List.mem_cons_of_mem _ (ih q hq)
  | prim => intro q hq; rcases List.mem_singleton.1 hq with rfl; exact List.mem_singleton.2 rfl
  | factor _ _ _ _ ih => exact ih
  | juxt ex ts us t u _ _ i1 i2 => exact fun q hq => (List.mem_append.1 hq).elim (fun h => List.mem_append.2 (.inl (i1 q h))) fun h => List.mem_append.2 (.inr (i2 q h))
  | and ex ts us t u _ _ i1 i2 => exact fun q hq => (List.mem_append.1 hq).elim (fun h => List.mem_append.2 (.inl (i1 q h))) fun h => List.mem_append.2 (.inr (List.mem_cons_of_mem _ (i2 q h)))
  | term _ _ _ _ ih => exact ih
  | or ex ts us t u _ _ i1 i2 => exact fun q hq => (List.mem_append.1 hq).elim (fun h => List.mem_append.2 (.inl (i1 q h))) fun h => List.mem_append.2 (.inr (List.mem_cons_of_mem _ (i2 q h)))
  | clause _ _ _ _ ih => exact ih
  | comma ex ts us t u _ _ i1 i2 => exact fun q hq => (List.mem_append.1 hq).elim (fun h => List.mem_append.2 (.inl (i1 q h))) fun h => List.mem_append.2 (.inr (List.mem_cons_of_mem _ (i2 q h)))

theorem lex_prims {f : List Arg → Out Prim} {st : Bool} {args : List Arg} {toks : List Tok} {paths : List Arg} (h : Lex f st args toks paths) :
    ∀ q, Tok.prim q ∈ toks → ∃ a rest, f (a :: rest) = .ok q := by
  induction h with
  | done => intro q hq; cases hq
  | dashes _ _ _ _ _ ih => exact ih
  | path _ _ _ _ _ _ _ ih => exact ih
  | op _ _ _ _ _ _ _ ho _ ih =>
    intro q hq
    rcases List.mem_cons.1 hq with hq | hq
    · subst hq; cases ho
    · exact ih q hq
  | prim _ a rest p _ _ _ _ _ hp _ ih =>
    intro q hq
    rcases List.mem_cons.1 hq with hq | hq
    · injection hq with hq
      subst hq
      exact ⟨a, rest, hp⟩
    · exact ih q hq

theorem all_parsed {f : List Arg → Out Prim} {args : List Arg} {cmd : Cmd} (h : Parsed f args cmd) {P : Prim → Prop}
    (hP : ∀ a rest q, f (a :: rest) = .ok q → (∀ c ∈ q.calls, c ∈ cmd.calls) → P q) : All P cmd.expr ∧ ∀ x ∈ cmd.excludes, All P x := by
  obtain ⟨toks, paths, hl, _, hc, h⟩ := h
  rcases h with ⟨_, h1, h2⟩ | ⟨t, hg, h2, h3⟩
  · rw [h1, h2]
    exact ⟨⟨trivial, trivial⟩, fun x hx => by cases hx⟩
  · have key : ∀ q ∈ t.prims, P q := by
      intro q hq
      have hm := gram_prims hg q hq
      obtain ⟨a, rest, hr⟩ := lex_prims hl q hm
      refine hP a rest q hr fun c hc' => ?_
      rw [hc]
      exact List.mem_flatMap.2 ⟨_, hm, hc'⟩
    rw [h2]
    refine ⟨?_, all_excluded t key⟩
    rcases h3 with ⟨_, h3⟩ | ⟨_, h3⟩ <;> rw [h3]
    · exact all_main t key
    · exact ⟨all_main t key, trivial⟩

/-! ## What primaries do -/

variable {w : Tests.World} {l : Glob.Locale} {file : Bftw.Pos → File} {never : Bftw.Pos → Opt.Leaf → Bool}

/-- What is needed about a primary. -/
structure Usable (s : Setting) (N : Numbering) (w : Tests.World) (l : Glob.Locale) (pr : Printer) (q : Prim) : Prop where
  what : What s N pr q
  sane : ∀ c ∈ q.calls, Tests.ArgsSane s w l c.2
  these : OnlyThese q.calls

theorem value_test {p : Bftw.Pos} {path : List UInt8} {x : Opt.Leaf} {t : Test} (hx : ∀ k i, x ≠ .action k i) (ht : testOf s N x = some t) :
    (behaviour s N w pr file never).primMeaning p path x = ⟨value (evalTest w (file p) t), false, []⟩ := by
  have hr : (behaviour s N w pr file never).result p x = value (evalTest w (file p) t) := by
    cases x with
    | action k i => exact absurd rfl (hx k i)
    | _ =>
      unfold behaviour
      dsimp only
      rw [ht]
  cases x with
  | action k i => exact absurd rfl (hx k i)
  | true_ => injection ht with ht; subst ht; rfl
  | false_ => injection ht with ht; subst ht; rfl
  | _ =>
    show (⟨(behaviour s N w pr file never).result p _, false, []⟩ : Meaning) = _
    rw [hr]

theorem answers_value {f : File} {x : Except Nat Prop} {r : Out Tests.Result} (h : Tests.Answers w f x r) : (∃ P, x = .ok P ∧ (value r = true ↔ P)) ∨ ∃ e, x = .error e ∧ value r = false := by
  cases x with
  | ok P =>
    obtain ⟨b, h1, h2⟩ := h
    subst h1
    exact .inl ⟨P, rfl, h2⟩
  | error e =>
    obtain ⟨es, h1, _⟩ := h
    subst h1
    exact .inr ⟨e, rfl, rfl⟩

theorem printf_effects {p : Bftw.Pos} {f : File} {format : Arg} {fmts : List Printf.Fmt} (hparse : Printf.parse pr.env format = .ok fmts) (hsane : Directive.Sane pr.w (asPrinted pr p f))
    (put : List UInt8 → Effect) : ∃ es out err, Printf.Format pr.env format es ∧ Directive.Written pr.w (asPrinted pr p f) es out err ∧
      printfOn pr p f put (some format) = put out :: if err.isSome then [.error] else [] := by
  have hf := Props.C38_sound pr.env format fmts hparse
  obtain ⟨fmts', out, err, h1, h2, h3⟩ := Props.C76_printf pr.w _ hsane pr.env format _ hf
  rw [hparse] at h1
  injection h1 with h1
  subst h1
  refine ⟨_, out, err, hf, h2, ?_⟩
  unfold printfOn
  rw [Option.map_some, hparse]
  dsimp only
  rw [show fileFor pr p f = asPrinted pr p f from rfl, h3]
  cases err <;> rfl

theorem walked_nameoff {b : Path.Buf} (h : Path.Walked b) (hd : 0 < b.depth) : 0 < b.nameoff := by
  cases h with
  | root r _ => cases hd
  | child b name _ _ _ =>
    show 0 < if b.path.getLast? = some 47 then b.path.length else b.path.length + 1
    by_cases h : b.path.getLast? = some 47
    · rw [if_pos h]
      cases hb : b.path with
      | nil => rw [hb] at h; cases h
      | cons x y => simp
    · rw [if_neg h]; omega

theorem exec_effects {p : Bftw.Pos} {f : File} {dir : Bool} {args cmd : List Arg} {x : Exec.Exec} (hparse : parseExec args = .ok (false, x)) (hr : Exec.Ready dir cmd x)
    (hw : Path.Walked f.buf) : execOn pr p f args = (decide (pr.run p args (commandFor dir f cmd) = .ran true), match pr.run p args (commandFor dir f cmd) with
      | .ran _ => [.run (commandFor dir f cmd) (directoryFor dir f)]
      | .error _ => [.error]) := by
  unfold execOn
  rw [hparse]
  dsimp only
  obtain ⟨x', r, h1, h2, _⟩ := Exec.single_ok ⟨[], fun _ argv => pr.run p args argv⟩ (f := execFile f) hr ⟨rfl, rfl, rfl, rfl, rfl⟩
    (fun h => walked_nameoff hw (by simpa [execFile] using h))
  rw [h1]
  have hc : List.map (Exec.substBraces (Exec.argOf dir (execFile f))) cmd = commandFor dir f cmd := by cases dir <;> rfl
  rw [hc] at h2 ⊢
  dsimp only at h2
  rw [← h2]
  unfold execResult
  dsimp only
  cases r <;> cases dir <;> rfl

theorem name_single (rm : Bool) : Single (deleteName rm) := by cases rm <;> decide

theorem delete_does {p : Bftw.Pos} {f : File} {q : Prim} {i : Nat} {rm : Bool} (hc : q.calls = [(i, [deleteName rm])]) :
    Does s w l pr p f (.leaf (.prim q)) ⟨(deleteOn pr p f).1, false, (deleteOn pr p f).2⟩ := by
  unfold deleteOn
  have hrep : ∀ e, (Unimportant pr f e → reportError pr f e = []) ∧ (¬ Unimportant pr f e → reportError pr f e = [.error]) := by
    intro e
    unfold reportError Unimportant
    refine ⟨fun h => if_pos ?_, fun h => if_neg ?_⟩
    · simp only [Bool.and_eq_true, Bool.or_eq_true, decide_eq_true_eq]
      exact ⟨⟨h.1, h.2.1⟩, h.2.2⟩
    · simp only [Bool.and_eq_true, Bool.or_eq_true, decide_eq_true_eq]
      exact fun k => h ⟨k.1.1, k.1.2, k.2⟩
  by_cases h : f.buf.path = [46]
  · rw [if_pos h]; exact .dot hc h
  · rw [if_neg h]
    cases ht : pr.entry p with
    | error e => exact .deleteFails hc h (.inl ht) (hrep e).1 (hrep e).2
    | ok t =>
      dsimp only
      unfold unlinkOn
      cases hu : pr.unlink p (t = .dir) with
      | error e => exact .deleteFails hc h (.inr ⟨t, ht, hu⟩) (hrep e).1 (hrep e).2
      | ok _ => exact .delete hc h ht hu

theorem act_meaning {p : Bftw.Pos} {path : List UInt8} {args : List Arg} : (behaviour s N w pr file never).primMeaning p path (.action .plain (3 + N.id args)) =
    ⟨(act pr p (file p) args).1, false, (act pr p (file p) args).2⟩ := by
  rw [Nat.add_comm]
  show (⟨if 3 ≤ N.id args + 3 then (act pr p (file p) (N.args (N.id args + 3 - 3))).1 else true, false, if 3 ≤ N.id args + 3 then (act pr p (file p) (N.args (N.id args + 3 - 3))).2 else []⟩ : Meaning) = _
  rw [if_pos (by omega), if_pos (by omega), Nat.add_sub_cancel, N.inv]

theorem act_head {p : Bftw.Pos} {f : File} {a : Arg} {tl : List Arg} : act pr p f (a :: tl) =
    if a = A "-printf" then (true, printfOn pr p f .write (a :: tl)[1]?)
    else if a = A "-fprintf" then (true, printfOn pr p f (.writeTo (fileArg (a :: tl))) (a :: tl)[2]?)
    else if a = A "-fprint" then (true, [.writeTo (fileArg (a :: tl)) (f.buf.path ++ [10])])
    else if a = A "-fprint0" then (true, [.writeTo (fileArg (a :: tl)) (f.buf.path ++ [0])])
    else if a = A "-printx" then (true, [.write (Printx.printx f.buf.path)])
    else if a = A "-exit" then (true, [.exit (statusOf (a :: tl))])
    else if a = A "-delete" ∨ a = A "-rm" then deleteOn pr p f
    else execOn pr p f (a :: tl) := by
  unfold act
  simp only [List.head?_cons, Option.some.injEq]

theorem act_exec {p : Bftw.Pos} {f : File} {dir : Bool} {tl : List Arg} : act pr p f (execName dir :: tl) = execOn pr p f (execName dir :: tl) := by
  rw [act_head]
  cases dir <;> rfl

theorem act_delete {p : Bftw.Pos} {f : File} {rm : Bool} : act pr p f [deleteName rm] = deleteOn pr p f := by
  rw [act_head]
  cases rm <;> rfl

/-- Actions that always return true. -/
theorem true_meaning {p : Bftw.Pos} {path : List UInt8} {args : List Arg} : (behaviour s N w pr file never).primMeaning p path (.action .returnsTrue (3 + N.id args)) =
    ⟨true, false, (act pr p (file p) args).2⟩ := by
  rw [Nat.add_comm]
  show (⟨true, false, if 3 ≤ N.id args + 3 then (act pr p (file p) (N.args (N.id args + 3 - 3))).2 else []⟩ : Meaning) = _
  rw [if_pos (by omega), Nat.add_sub_cancel, N.inv]

/-- Actions that end the search. -/
theorem last_meaning {p : Bftw.Pos} {path : List UInt8} {args : List Arg} : (behaviour s N w pr file never).primMeaning p path (.action .noReturn (3 + N.id args)) =
    ⟨(act pr p (file p) args).1, true, (act pr p (file p) args).2 ++ [.stop]⟩ := by
  show (⟨if 3 ≤ 3 + N.id args then (act pr p (file p) (N.args (3 + N.id args - 3))).1 else true, true, (if 3 ≤ 3 + N.id args then (act pr p (file p) (N.args (3 + N.id args - 3))).2 else []) ++ [.stop]⟩ : Meaning) = _
  rw [if_pos (by omega), if_pos (by omega), Nat.add_sub_cancel_left, N.inv]

/-- Where the other actions print. -/
def fprintNames : List Arg := [A "-printf", A "-printx", A "-fprint", A "-fprint0", A "-fprintf"]

theorem true_leaf {args : List Arg} {e : Entry} (he : e.arg ∈ fprintNames) : actionLeaf N args e = .action .returnsTrue (3 + N.id args) := by
  unfold actionLeaf
  simp only [fprintNames, List.mem_cons, List.not_mem_nil, or_false] at he
  rcases he with he | he | he | he | he <;> rw [he] <;> rfl

theorem exit_leaf {args : List Arg} {e : Entry} (he : e.arg = A "-exit") : actionLeaf N args e = .action .noReturn (3 + N.id args) := by
  unfold actionLeaf
  rw [he]
  rfl

theorem exit_act {p : Bftw.Pos} {f : File} {tl : List Arg} : act pr p f (A "-exit" :: tl) = (true, [.exit (statusOf (A "-exit" :: tl))]) := by
  rw [act_head]
  rfl

theorem status_natural {v : Arg} {n : Nat} (h : Options.Natural v n) : statusOf [A "-exit", v] = n := by
  unfold statusOf
  rw [show ([A "-exit", v] : List Arg)[1]? = some v from rfl, Option.map_some, (Options.unsignedInt_iff v n).2 h]
  rfl

theorem printx_eq (path : List UInt8) : Printx.printx path = (path.flatMap fun c => if c ∈ ([32, 9, 10, 92, 36, 39, 34, 96] : List UInt8) then [92, c] else [c]) ++ [10] := by
  rw [Printx.printx, Xargs.printxLoop_eq]
  congr 2
  funext c
  unfold Xargs.esc Printx.escaped
  simp only [List.contains_iff_mem]

theorem exec_leaf {args : List Arg} {e : Entry} {dir : Bool} (he : e.arg = execName dir) : actionLeaf N args e = .action .plain (3 + N.id args) := by
  unfold actionLeaf
  rw [he]
  cases dir <;> rfl

theorem delete_leaf {args : List Arg} {e : Entry} {rm : Bool} (he : e.arg = deleteName rm) : actionLeaf N args e = .action .plain (3 + N.id args) := by
  unfold actionLeaf
  rw [he]
  cases rm <;> rfl

/-- What `OnlyThese` allows. -/
inductive These (args : List Arg) (a : Arg) : Prop
  | single : Single a → These args a
  | printf : a = A "-printf" → These args a
  | fprint : a = A "-fprint" ∨ a = A "-fprint0" → These args a
  | fprintf : a = A "-fprintf" → These args a
  | exit : a = A "-exit" → These args a
  | exec (dir : Bool) : a = execName dir → args.getLast? = some (A ";") → These args a

theorem these_cases {e : Entry} {i : Nat} {args : List Arg} (h3 : table[i]? = some e)
    (ht : Call.is (i, args) ["-print", "-print0", "-printf", "-printx", "-fprint", "-fprint0", "-fprintf", "-prune", "-quit", "-exit", "-delete", "-rm"] = true ∨
      (Call.is (i, args) ["-exec", "-execdir"] = true ∧ args.getLast? = some (A ";"))) : These args e.arg := by
  rw [is_eq h3, is_eq h3] at ht
  simp only [List.map_cons, List.map_nil, List.contains_cons, List.contains_nil, Bool.or_false, Bool.or_eq_true, beq_iff_eq] at ht
  rcases ht with (h | h | h | h | h | h | h | h | h | h | h | h) | ⟨h | h, hl⟩
  · exact .single (by simp [Single, h])
  · exact .single (by simp [Single, h])
  · exact .printf h
  · exact .single (by simp [Single, h])
  · exact .fprint (.inl h)
  · exact .fprint (.inr h)
  · exact .fprintf h
  · exact .single (by simp [Single, h])
  · exact .single (by simp [Single, h])
  · exact .exit h
  · exact .single (by simp [Single, h])
  · exact .single (by simp [Single, h])
  · exact .exec false h hl
  · exact .exec true h hl

theorem prim_does (hs : s.Sane) (hl : Glob.Ascii l) (hc : Props.Fnmatches l w.libc) {p : Bftw.Pos} (hf : (file p).Sane w) (hp : Directive.Sane pr.w (asPrinted pr p (file p))) {q : Prim}
    (hq : Usable s N w l pr q) : Does s w l pr p (file p) (.leaf (.prim q)) ((behaviour s N w pr file never).primMeaning p (file p).buf.path (leafFor s N q)) := by
  cases hq.what with
  | test i args t n h1 h2 h3 h4 _ =>
    have hleaf : leafFor s N q = leafOf N args t := by
      unfold leafFor
      rw [h1]
      dsimp only
      rw [h2, if_neg (by decide)]
      unfold testLeaf
      rw [h3]
    rw [hleaf, value_test (leafOf_noAction t) (testOf_leafOf h3)]
    obtain ⟨question, hdoc⟩ := Props.C80_only s w l args t n h3
    have ha := hq.sane (i, args) (by rw [h1]; exact List.mem_singleton.2 rfl)
    have hans := Props.C80_means_partial s w l hs hl hc args ha t n h3 question hdoc (file p) hf
    rw [h4] at hdoc
    rcases answers_value hans with ⟨P, e1, e2⟩ | ⟨e, e1, e2⟩
    · exact .test h1 hdoc e1 e2
    · rw [e2]
      exact .unknown h1 hdoc e1
  | option h1 h2 h3 _ =>
    rw [h3]
    exact .option h2
  | action i args e h1 h2 h3 h4 _ h5 h6 h7 h8 h9 h10 =>
    have hleaf : leafFor s N q = actionLeaf N args e := by
      unfold leafFor
      rw [h1]
      dsimp only
      rw [h2, if_pos rfl, h3]
      rfl
    rw [hleaf]
    have ht := hq.these (i, args) (by rw [h1]; exact List.mem_singleton.2 rfl) e h3 h4
    cases these_cases h3 ht with
    | single hs =>
      have ha := h5 hs
      rcases hs with he | he | he | he | he | he | he <;> rw [he] at ha <;> subst ha
      · unfold actionLeaf
        rw [he]
        exact .print h1
      · unfold actionLeaf
        rw [he]
        exact .print0 h1
      · unfold actionLeaf
        rw [he]
        exact .prune h1
      · unfold actionLeaf
        rw [he]
        exact .quit h1
      · rw [delete_leaf (rm := false) he, act_meaning, show [A "-delete"] = [deleteName false] from rfl, act_delete]
        exact delete_does (rm := false) h1
      · rw [delete_leaf (rm := true) he, act_meaning, show [A "-rm"] = [deleteName true] from rfl, act_delete]
        exact delete_does (rm := true) h1
      · rw [true_leaf (by rw [he]; decide), true_meaning, act_head]
        have := Does.printx (s := s) (w := w) (l := l) (pr := pr) (p := p) (f := file p) h1
        rw [← printx_eq] at this
        exact this
    | printf he =>
      obtain ⟨format, fmts, ha, hparse⟩ := h6 he
      rw [he] at ha
      subst ha
      obtain ⟨es, out, err, k1, k2, k3⟩ := printf_effects hparse hp .write
      rw [true_leaf (by rw [he]; decide), true_meaning, act_head, if_pos rfl, show ([A "-printf", format] : List Arg)[1]? = some format from rfl, k3]
      exact .printf h1 k1 k2
    | fprint he =>
      obtain ⟨name, ha⟩ := h7 he
      rcases he with he | he <;> rw [he] at ha <;> subst ha <;> rw [true_leaf (by rw [he]; decide), true_meaning, act_head]
      · exact .fprint h1
      · exact .fprint0 h1
    | fprintf he =>
      obtain ⟨name, format, fmts, ha, hparse⟩ := h8 he
      rw [he] at ha
      subst ha
      obtain ⟨es, out, err, k1, k2, k3⟩ := printf_effects hparse hp (.writeTo name)
      rw [true_leaf (by rw [he]; decide), true_meaning, act_head, if_neg (by decide), if_pos rfl, show ([A "-fprintf", name, format] : List Arg)[2]? = some format from rfl,
        show fileArg [A "-fprintf", name, format] = name from rfl, k3]
      exact .fprintf h1 k1 k2
    | exit he =>
      rw [exit_leaf he, last_meaning]
      rcases h9 he with ha | ⟨v, n, ha, hv⟩ <;> rw [he] at ha <;> subst ha <;> rw [exit_act]
      · exact .exit h1
      · have hn := (Options.unsignedInt_iff v n).1 hv
        obtain ⟨k, rfl⟩ := Int.eq_ofNat_of_zero_le hn.2.1
        rw [status_natural hn]
        exact .exitWith h1 hn
    | exec dir he hlast =>
      obtain ⟨cmd, x, k1, k2, k3⟩ := h10 dir he hlast
      rw [exec_leaf he, act_meaning]
      subst k1
      rw [act_exec, exec_effects k2 k3 hf.walked]
      dsimp only
      cases hr : pr.run p (execName dir :: (cmd ++ [A ";"])) (commandFor dir (file p) cmd) with
      | ran ok =>
        have := Does.exec (s := s) (w := w) (l := l) h1 hr
        cases ok <;> exact this
      | error n => exact .execFails h1 hr

/-! ## What expressions do -/

theorem expr_does (hs : s.Sane) (hl : Glob.Ascii l) (hc : Props.Fnmatches l w.libc) {e : Bftw.Env} {p : Bftw.Pos} (hf : (file p).Sane w)
    (hp : Directive.Sane pr.w (asPrinted pr p (file p))) (hpath : (file p).buf.path = e.fullPath p) (x : E) (hx : All (Usable s N w l pr) x) :
    Does s w l pr p (file p) x (Main.meaning ((behaviour s N w pr file never).leafMeaning e p) x) := by
  induction x with
  | leaf y =>
    cases y with
    | prim q =>
      show Does s w l pr p (file p) _ ((behaviour s N w pr file never).primMeaning p (e.fullPath p) (leafFor s N q))
      rw [← hpath]
      exact prim_does hs hl hc hf hp hx
    | yes => exact .yes
    | print =>
      show Does s w l pr p (file p) _ ⟨true, false, [.write (e.fullPath p ++ [10])]⟩
      rw [← hpath]
      exact .implied
    | hidden => exact .hidden (Tests.hidden_iff hf.walked hf.slash)
  | not x ih => exact .not (ih hx)
  | and x y ix iy =>
    have h1 := ix hx.1
    have h2 := iy hx.2
    unfold Main.meaning
    cases hq : (Main.meaning ((behaviour s N w pr file never).leafMeaning e p) x).quit with
    | true => rw [if_pos (by rfl)]; dsimp only; rw [hq]; exact .andQuit h1 hq
    | false =>
      cases hv : (Main.meaning ((behaviour s N w pr file never).leafMeaning e p) x).value with
      | false => rw [if_pos (by rfl)]; dsimp only; rw [hq]; exact .andNo h1 hq hv
      | true => rw [if_neg (by decide)]; exact .and h1 hq hv h2
  | or x y ix iy =>
    have h1 := ix hx.1
    have h2 := iy hx.2
    unfold Main.meaning
    cases hq : (Main.meaning ((behaviour s N w pr file never).leafMeaning e p) x).quit with
    | true => rw [if_pos (by rfl)]; dsimp only; rw [hq]; exact .orQuit h1 hq
    | false =>
      cases hv : (Main.meaning ((behaviour s N w pr file never).leafMeaning e p) x).value with
      | true => rw [if_pos (by rfl)]; dsimp only; rw [hq]; exact .orYes h1 hq hv
      | false => rw [if_neg (by decide)]; exact .or h1 hq hv h2
  | comma x y ix iy =>
    have h1 := ix hx.1
    have h2 := iy hx.2
    unfold Main.meaning
    cases hq : (Main.meaning ((behaviour s N w pr file never).leafMeaning e p) x).quit with
    | true => rw [if_pos rfl]; exact .commaQuit h1 hq
    | false => rw [if_neg (by decide)]; exact .comma h1 hq h2

/-! ## Paths -/

theorem found_ne {e : Bftw.Env} {into : Bftw.Pos → Prop} {p : Bftw.Pos} (h : Bftw.Found e into p) : p ≠ [] := by
  cases h <;> simp

theorem found_all {e : Bftw.Env} {into : Bftw.Pos → Prop} {p : Bftw.Pos} (h : Bftw.Found e into p) : Bftw.Found e (fun _ => True) p := by
  induction h with
  | root i h => exact .root i h
  | entry p j _ _ hj ih => exact .entry p j ih trivial hj

theorem bufAt_path (e : Bftw.Env) : ∀ (p : Bftw.Pos), p ≠ [] → (bufAt e p).path = e.fullPath p
  | [], h => absurd rfl h
  | [i], _ => by rw [bufAt]; rfl
  | j :: i :: p, _ => by
    rw [bufAt, Bftw.fullPath_cons, ← bufAt_path e (i :: p) (by simp)]
    · rfl
    · intro h; cases h

theorem bufAt_depth (e : Bftw.Env) : ∀ (p : Bftw.Pos), p ≠ [] → (bufAt e p).depth = Bftw.depth p
  | [], h => absurd rfl h
  | [i], _ => by rw [bufAt]; rfl
  | j :: i :: p, _ => by
    rw [bufAt]
    · show (bufAt e (i :: p)).depth + 1 = _
      rw [bufAt_depth e (i :: p) (by simp)]
      rfl
    · intro h; cases h

/-! ## There is only one answer -/

theorem behaviour_tests : (behaviour s N w pr file never).Tests := by
  intro q hq k i
  show leafFor s N q ≠ _
  unfold leafFor
  rw [hq]
  split
  · rw [if_neg (by decide)]
    unfold testLeaf
    split
    · exact leafOf_noAction _ k i
    · intro h; cases h
  · intro h; cases h

theorem doc_value (hs : s.Sane) (hl : Glob.Ascii l) (hc : Props.Fnmatches l w.libc) {args : List Arg} (ha : Tests.ArgsSane s w l args) {t : Test} {n : Nat}
    (ht : parseTest s args = .ok (t, n)) (hn : args.take n = args) {question : Question} (hd : Doc s w l args question) {f : File} (hf : f.Sane w) :
    (∀ P, question f = .ok P → (value (evalTest w f t) = true ↔ P)) ∧ (∀ e, question f = .error e → value (evalTest w f t) = false) := by
  have hans := Props.C80_means_partial s w l hs hl hc args ha t n ht question (by rw [hn]; exact hd) f hf
  rcases answers_value hans with ⟨P, e1, e2⟩ | ⟨e, e1, e2⟩
  · refine ⟨fun P' h => ?_, fun e h => ?_⟩
    · rw [e1] at h
      injection h with h
      rw [← h]
      exact e2
    · rw [e1] at h; cases h
  · refine ⟨fun P' h => ?_, fun e h => e2⟩
    rw [e1] at h; cases h

theorem doc_parses (hs : s.Sane) (hl : Glob.Ascii l) (hc : Props.Fnmatches l w.libc) {args : List Arg} {question : Question} (hd : Doc s w l args question) :
    ∃ t n, parseTest s args = .ok (t, n) := by
  obtain ⟨t, h⟩ := Props.C80_accepts s w l hs hl hc args question hd []
  rw [List.append_nil] at h
  exact ⟨t, _, h⟩

theorem bool_iff {a b : Bool} {P : Prop} (ha : a = true ↔ P) (hb : b = true ↔ P) : a = b := by
  cases a <;> cases b <;> simp_all

theorem single {i j : Nat} {x y : List Arg} {c : List Call} (h : c = [(i, x)]) (h' : c = [(j, y)]) : x = y ∧ i = j := by
  rw [h] at h'
  injection h' with h' _
  injection h' with h1 h2
  exact ⟨h2, h1⟩

theorem report_unique {f : File} {e : Nat} {effects : List Effect} (h1 : Unimportant pr f e → effects = []) (h2 : ¬ Unimportant pr f e → effects = [.error]) :
    effects = reportError pr f e := by
  unfold reportError
  by_cases h : Unimportant pr f e
  · rw [h1 h, if_pos]
    simp only [Bool.and_eq_true, Bool.or_eq_true, decide_eq_true_eq]
    exact ⟨⟨h.1, h.2.1⟩, h.2.2⟩
  · rw [h2 h, if_neg]
    simp only [Bool.and_eq_true, Bool.or_eq_true, decide_eq_true_eq]
    exact fun k => h ⟨k.1.1, k.1.2, k.2⟩

theorem prim_unique (hs : s.Sane) (hl : Glob.Ascii l) (hc : Props.Fnmatches l w.libc) {p : Bftw.Pos} (hf : (file p).Sane w) (hp : Directive.Sane pr.w (asPrinted pr p (file p)))
    {q : Prim} (hq : Usable s N w l pr q) {m : Meaning} (h : Does s w l pr p (file p) (.leaf (.prim q)) m) :
    m = (behaviour s N w pr file never).primMeaning p (file p).buf.path (leafFor s N q) := by
  cases hq.what with
  | test i args t n h1 h2 h3 h4 h5 =>
    have hleaf : leafFor s N q = leafOf N args t := by
      unfold leafFor
      rw [h1]
      dsimp only
      rw [h2, if_neg (by decide)]
      unfold testLeaf
      rw [h3]
    rw [hleaf, value_test (leafOf_noAction t) (testOf_leafOf h3)]
    have ha := hq.sane (i, args) (by rw [h1]; exact List.mem_singleton.2 rfl)
    have no : ∀ {j : Nat} {a : Arg} {tl : List Arg}, a ∈ actionNames → q.calls = [(j, a :: tl)] → False := by
      intro j a tl ham hcalls
      obtain ⟨e, _⟩ := single h1 hcalls
      subst e
      rw [show parseTest s (a :: tl) = _ from parseTest_none (parse_action a ham)] at h3
      cases h3
    cases h with
    | test k1 k2 k3 k4 =>
      obtain ⟨e, _⟩ := single h1 k1
      subst e
      rw [bool_iff k4 ((doc_value hs hl hc ha h3 h4 k2 hf).1 _ k3)]
    | unknown k1 k2 k3 =>
      obtain ⟨e, _⟩ := single h1 k1
      subst e
      rw [(doc_value hs hl hc ha h3 h4 k2 hf).2 _ k3]
    | option k1 => exact absurd (k1 _ (by rw [h1]; exact List.mem_singleton.2 rfl)) h5
    | print k1 => exact absurd k1 fun h => no (by decide) h
    | print0 k1 => exact absurd k1 fun h => no (by decide) h
    | prune k1 => exact absurd k1 fun h => no (by decide) h
    | quit k1 => exact absurd k1 fun h => no (by decide) h
    | printf k1 => exact absurd k1 fun h => no (by decide) h
    | printx k1 => exact absurd k1 fun h => no (by decide) h
    | fprint k1 => exact absurd k1 fun h => no (by decide) h
    | fprint0 k1 => exact absurd k1 fun h => no (by decide) h
    | fprintf k1 => exact absurd k1 fun h => no (by decide) h
    | exit k1 => exact absurd k1 fun h => no (by decide) h
    | exitWith k1 => exact absurd k1 fun h => no (by decide) h
    | exec k1 => exact absurd k1 fun h => no (exec_name _) h
    | execFails k1 => exact absurd k1 fun h => no (exec_name _) h
    | dot k1 => exact absurd k1 fun h => no (delete_name _) h
    | delete k1 => exact absurd k1 fun h => no (delete_name _) h
    | deleteFails k1 => exact absurd k1 fun h => no (delete_name _) h
  | option h1 h2 h3 h4 =>
    rw [h3]
    have no : ∀ {j : Nat} {args : List Arg} {question : Question}, q.calls = [(j, args)] → Doc s w l args question → False := by
      intro j args question hcalls hd
      obtain ⟨t, n, h⟩ := doc_parses hs hl hc hd
      exact (h4 (j, args) (by rw [hcalls]; exact List.mem_singleton.2 rfl)).2 t n h
    have na : ∀ {j : Nat} {a : Arg} {tl : List Arg}, q.calls = [(j, a :: tl)] → a ∉ actionNames := fun hcalls => (h4 _ (by rw [hcalls]; exact List.mem_singleton.2 rfl)).1 _ _ rfl
    cases h with
    | test k1 k2 k3 k4 => exact absurd k2 fun h => no k1 h
    | unknown k1 k2 k3 => exact absurd k2 fun h => no k1 h
    | option k1 => rfl
    | print k1 => exact absurd (by decide) (na k1)
    | print0 k1 => exact absurd (by decide) (na k1)
    | prune k1 => exact absurd (by decide) (na k1)
    | quit k1 => exact absurd (by decide) (na k1)
    | printf k1 => exact absurd (by decide) (na k1)
    | printx k1 => exact absurd (by decide) (na k1)
    | fprint k1 => exact absurd (by decide) (na k1)
    | fprint0 k1 => exact absurd (by decide) (na k1)
    | fprintf k1 => exact absurd (by decide) (na k1)
    | exit k1 => exact absurd (by decide) (na k1)
    | exitWith k1 => exact absurd (by decide) (na k1)
    | exec k1 => exact absurd (exec_name _) (na k1)
    | execFails k1 => exact absurd (exec_name _) (na k1)
    | dot k1 => exact absurd (delete_name _) (na k1)
    | delete k1 => exact absurd (delete_name _) (na k1)
    | deleteFails k1 => exact absurd (delete_name _) (na k1)
  | action i args e h1 h2 h3 h4 h5 h6 h7 m7 m8 m9 h8 =>
    have hleaf : leafFor s N q = actionLeaf N args e := by
      unfold leafFor
      rw [h1]
      dsimp only
      rw [h2, if_pos rfl, h3]
      rfl
    rw [hleaf]
    have ht := hq.these (i, args) (by rw [h1]; exact List.mem_singleton.2 rfl) e h3 h4
    have ht' := these_cases h3 ht
    have hhead : ∃ tl, args = e.arg :: tl := by
      cases ht' with
      | single he => exact ⟨[], h6 he⟩
      | printf he =>
        obtain ⟨format, _, h, _⟩ := h7 he
        exact ⟨_, h⟩
      | fprint he =>
        obtain ⟨name, h⟩ := m7 he
        exact ⟨_, h⟩
      | fprintf he =>
        obtain ⟨name, format, _, h, _⟩ := m8 he
        exact ⟨_, h⟩
      | exit he =>
        rcases m9 he with h | ⟨v, n, h, _⟩
        · exact ⟨_, h⟩
        · exact ⟨_, h⟩
      | exec dir he hlast =>
        obtain ⟨cmd, x, h, _⟩ := h8 dir he hlast
        exact ⟨_, by rw [h, he]⟩
    have hname : e.arg ∈ actionNames := by
      cases ht' with
      | single he => rcases he with he | he | he | he | he | he | he <;> rw [he] <;> decide
      | printf he => rw [he]; decide
      | fprint he => rcases he with he | he <;> rw [he] <;> decide
      | fprintf he => rw [he]; decide
      | exit he => rw [he]; decide
      | exec dir he hlast => rw [he]; exact exec_name dir
    have no : ∀ {j : Nat} {args : List Arg} {question : Question}, q.calls = [(j, args)] → Doc s w l args question → False := by
      intro j args' question hcalls hd
      obtain ⟨e', _⟩ := single h1 hcalls
      subst e'
      obtain ⟨tl, rfl⟩ := hhead
      obtain ⟨t, n, h⟩ := doc_parses hs hl hc hd
      rw [show parseTest s (e.arg :: tl) = _ from parseTest_none (parse_action e.arg hname)] at h
      cases h
    have hd : ∀ {j : Nat} {a : Arg} {tl : List Arg}, q.calls = [(j, a :: tl)] → e.arg = a := by
      intro j a tl hcalls
      obtain ⟨e', _⟩ := single h1 hcalls
      obtain ⟨tl', rfl⟩ := hhead
      injection e' with e' _
    cases h with
    | test k1 k2 k3 k4 => exact absurd k2 fun h => no k1 h
    | unknown k1 k2 k3 => exact absurd k2 fun h => no k1 h
    | option k1 => exact absurd (k1 _ (by rw [h1]; exact List.mem_singleton.2 rfl)) h5
    | print k1 => unfold actionLeaf; rw [hd k1]; rfl
    | print0 k1 => unfold actionLeaf; rw [hd k1]; rfl
    | prune k1 => unfold actionLeaf; rw [hd k1]; rfl
    | quit k1 => unfold actionLeaf; rw [hd k1]; rfl
    | printf k1 k2 k3 =>
      rw [true_leaf (by rw [hd k1]; decide), true_meaning]
      obtain ⟨format', fmts, ha, hparse⟩ := h7 (hd k1)
      obtain ⟨ea, _⟩ := single h1 k1
      rw [ea] at ha ⊢
      injection ha with _ ha
      injection ha with ha _
      subst ha
      obtain ⟨es', out', err', m1, m2, m3⟩ := printf_effects hparse hp .write
      rw [act_head, if_pos rfl, show ([A "-printf", _] : List Arg)[1]? = some _ from rfl, m3]
      rw [Props.C38_unambiguous _ _ _ _ k2 m1] at k3
      obtain ⟨e1, e2⟩ := Directive.written_unique m1 k3 m2
      rw [e1, e2]
    | printx k1 =>
      obtain ⟨ea, _⟩ := single h1 k1
      rw [true_leaf (by rw [hd k1]; decide), true_meaning, ea, act_head, ← printx_eq]
      rfl
    | fprint k1 =>
      obtain ⟨ea, _⟩ := single h1 k1
      rw [true_leaf (by rw [hd k1]; decide), true_meaning, ea, act_head]
      rfl
    | fprint0 k1 =>
      obtain ⟨ea, _⟩ := single h1 k1
      rw [true_leaf (by rw [hd k1]; decide), true_meaning, ea, act_head]
      rfl
    | fprintf k1 k2 k3 =>
      rw [true_leaf (by rw [hd k1]; decide), true_meaning]
      obtain ⟨name', format', fmts, ha, hparse⟩ := m8 (hd k1)
      obtain ⟨ea, _⟩ := single h1 k1
      rw [ea] at ha ⊢
      injection ha with _ ha
      injection ha with ha0 ha
      injection ha with ha _
      subst ha
      obtain ⟨es', out', err', m1, m2, m3⟩ := printf_effects hparse hp (.writeTo name')
      rw [act_head, if_neg (show ¬ A "-fprintf" = A "-printf" by decide), if_pos rfl, ha0, show ([A "-fprintf", name', _] : List Arg)[2]? = some _ from rfl, show fileArg [A "-fprintf", name', _] = name' from rfl, m3]
      rw [Props.C38_unambiguous _ _ _ _ k2 m1] at k3
      obtain ⟨e1, e2⟩ := Directive.written_unique m1 k3 m2
      rw [e1, e2]
    | exit k1 =>
      obtain ⟨ea, _⟩ := single h1 k1
      rw [exit_leaf (hd k1), last_meaning, ea, exit_act]
      rfl
    | exitWith k1 k2 =>
      obtain ⟨ea, _⟩ := single h1 k1
      rw [exit_leaf (hd k1), last_meaning, ea, exit_act, status_natural k2]
      rfl
    | @exec _ _ dir cmd _ k1 k2 =>
      obtain ⟨ea, _⟩ := single h1 k1
      obtain ⟨cmd', x, m1, m2, m3⟩ := h8 dir (hd k1) (by rw [ea, ← List.cons_append, List.getLast?_concat])
      obtain rfl : cmd' = cmd := by
        rw [ea] at m1
        injection m1 with _ m1
        exact (List.append_cancel_right m1).symm
      rw [exec_leaf (hd k1), act_meaning, ea, act_exec, ← ea, exec_effects m2 m3 hf.walked, ea, k2]
      simp
    | @execFails _ _ dir cmd _ k1 k2 =>
      obtain ⟨ea, _⟩ := single h1 k1
      obtain ⟨cmd', x, m1, m2, m3⟩ := h8 dir (hd k1) (by rw [ea, ← List.cons_append, List.getLast?_concat])
      obtain rfl : cmd' = cmd := by
        rw [ea] at m1
        injection m1 with _ m1
        exact (List.append_cancel_right m1).symm
      rw [exec_leaf (hd k1), act_meaning, ea, act_exec, ← ea, exec_effects m2 m3 hf.walked, ea, k2]
      rfl
    | dot k1 k2 =>
      obtain ⟨ea, _⟩ := single h1 k1
      rw [delete_leaf (hd k1), act_meaning, ea, act_delete]
      unfold deleteOn
      rw [if_pos k2]
    | delete k1 k2 k3 k4 =>
      obtain ⟨ea, _⟩ := single h1 k1
      rw [delete_leaf (hd k1), act_meaning, ea, act_delete]
      unfold deleteOn
      rw [if_neg k2, k3]
      dsimp only
      unfold unlinkOn
      rw [k4]
    | @deleteFails _ _ _ e' _ k1 k2 k3 k5 k6 =>
      have hrep := report_unique k5 k6
      obtain ⟨ea, _⟩ := single h1 k1
      rw [delete_leaf (hd k1), act_meaning, ea, act_delete]
      unfold deleteOn
      rw [if_neg k2]
      rcases k3 with k3 | ⟨t, k3, k4⟩
      · rw [k3, hrep]
      · rw [k3]
        dsimp only
        unfold unlinkOn
        rw [k4, hrep]

theorem expr_unique (hs : s.Sane) (hl : Glob.Ascii l) (hc : Props.Fnmatches l w.libc) {e : Bftw.Env} {p : Bftw.Pos} (hf : (file p).Sane w)
    (hp : Directive.Sane pr.w (asPrinted pr p (file p))) (hpath : (file p).buf.path = e.fullPath p) (x : E) (hx : All (Usable s N w l pr) x) :
    ∀ m, Does s w l pr p (file p) x m → m = Main.meaning ((behaviour s N w pr file never).leafMeaning e p) x := by
  induction x with
  | leaf y =>
    intro m h
    cases y with
    | prim q =>
      have := prim_unique (never := never) hs hl hc hf hp hx h
      rw [hpath] at this
      exact this
    | yes => cases h; rfl
    | print => cases h; rw [hpath]; rfl
    | hidden =>
      cases h with
      | hidden h => rw [bool_iff h (Tests.hidden_iff hf.walked hf.slash)]; rfl
  | not x ih =>
    intro m h
    cases h with
    | not h =>
      have h1 := ih hx _ h
      rw [h1]
      rfl
  | and x y ix iy =>
    intro m h
    unfold Main.meaning
    cases h with
    | andNo h q v =>
      have h1 := ix hx.1 _ h
      rw [if_pos (by rw [← h1, q, v]; rfl), ← h1]
      dsimp only
      rw [q]
    | andQuit h q =>
      have h1 := ix hx.1 _ h
      rw [if_pos (by rw [← h1, q]; rfl), ← h1]
      dsimp only
      rw [q]
    | @and _ _ m n h q v k =>
      have h1 := ix hx.1 _ h
      rw [if_neg (by rw [← h1, q, v]; decide), ← h1, ← iy hx.2 n k]
  | or x y ix iy =>
    intro m h
    unfold Main.meaning
    cases h with
    | orYes h q v =>
      have h1 := ix hx.1 _ h
      rw [if_pos (by rw [← h1, q, v]; rfl), ← h1]
      dsimp only
      rw [q]
    | orQuit h q =>
      have h1 := ix hx.1 _ h
      rw [if_pos (by rw [← h1, q]; rfl), ← h1]
      dsimp only
      rw [q]
    | @or _ _ m n h q v k =>
      have h1 := ix hx.1 _ h
      rw [if_neg (by rw [← h1, q, v]; decide), ← h1, ← iy hx.2 n k]
  | comma x y ix iy =>
    intro m h
    unfold Main.meaning
    cases h with
    | commaQuit h q =>
      have h1 := ix hx.1 _ h
      rw [if_pos (by rw [← h1, q]), ← h1]
    | @comma _ _ m n h q k =>
      have h1 := ix hx.1 _ h
      rw [if_neg (by rw [← h1, q]; decide), ← h1, ← iy hx.2 n k]

/-! ## Tests only -/

theorem expr_holds (hs : s.Sane) (hl : Glob.Ascii l) (hc : Props.Fnmatches l w.libc) {e : Bftw.Env} {p : Bftw.Pos} (hf : (file p).Sane w) (x : E) (hx : All (Usable s N w l pr) x)
    (hn : Main.NoActions x) : Holds s w l (file p) x ↔ (Main.meaning ((behaviour s N w pr file never).leafMeaning e p) x).value = true := by
  have hquit : ∀ y, Main.NoActions y → (Main.meaning ((behaviour s N w pr file never).leafMeaning e p) y).quit = false := by
    intro y hy
    rw [Main.lm_eq]
    exact (Main.quiet_meaning _ p _ y (Props.noActions_quiet behaviour_tests y hy)).1
  induction x with
  | leaf y =>
    cases y with
    | yes => exact ⟨fun _ => rfl, fun _ => trivial⟩
    | print => exact absurd hn id
    | hidden => exact (Tests.hidden_iff hf.walked hf.slash).symm
    | prim q =>
      have hx : Usable s N w l pr q := hx
      have hn : q.action = false := hn
      show Holds s w l (file p) (.leaf (.prim q)) ↔ ((behaviour s N w pr file never).primMeaning p (e.fullPath p) (leafFor s N q)).value = true
      unfold Holds
      cases hx.what with
      | test i args t n h1 h2 h3 h4 h5 =>
        have hleaf : leafFor s N q = leafOf N args t := by
          unfold leafFor
          rw [h1]
          dsimp only
          rw [h2, if_neg (by decide)]
          unfold testLeaf
          rw [h3]
        rw [hleaf, value_test (leafOf_noAction t) (testOf_leafOf h3)]
        have ha := hx.sane (i, args) (by rw [h1]; exact List.mem_singleton.2 rfl)
        constructor
        · rintro (h | ⟨j, args', question, P, k1, k2, k3, k4⟩)
          · exact absurd (h _ (by rw [h1]; exact List.mem_singleton.2 rfl)) h5
          · obtain ⟨e', _⟩ := single h1 k1
            subst e'
            exact ((doc_value hs hl hc ha h3 h4 k2 hf).1 _ k3).2 k4
        · intro hv
          obtain ⟨question, hdoc⟩ := Props.C80_only s w l args t n h3
          rw [h4] at hdoc
          obtain ⟨d1, d2⟩ := doc_value hs hl hc ha h3 h4 hdoc hf
          cases hq : question (file p) with
          | ok P => exact .inr ⟨i, args, question, P, h1, hdoc, hq, (d1 P hq).1 hv⟩
          | error e => have := d2 e hq; rw [show value (evalTest w (file p) t) = true from hv] at this; cases this
      | option h1 h2 h3 h4 =>
        rw [h3]
        exact ⟨fun _ => rfl, fun _ => .inl h2⟩
      | action i args e h1 h2 => rw [hn] at h2; cases h2
  | not x ih =>
    show (¬ Holds s w l (file p) x) ↔ (!(Main.meaning ((behaviour s N w pr file never).leafMeaning e p) x).value) = true
    have i1 := ih hx hn
    rw [Bool.not_eq_true', ← Bool.not_eq_true]
    exact not_congr i1
  | and x y ix iy =>
    show (Holds s w l (file p) x ∧ Holds s w l (file p) y) ↔ _
    have i1 := ix hx.1 hn.1
    have i2 := iy hx.2 hn.2
    simp only [Main.meaning, hquit x hn.1, Bool.false_or, i1, i2]
    cases (Main.meaning ((behaviour s N w pr file never).leafMeaning e p) x).value <;> simp
  | or x y ix iy =>
    show (Holds s w l (file p) x ∨ Holds s w l (file p) y) ↔ _
    have i1 := ix hx.1 hn.1
    have i2 := iy hx.2 hn.2
    simp only [Main.meaning, hquit x hn.1, Bool.false_or, i1, i2]
    cases (Main.meaning ((behaviour s N w pr file never).leafMeaning e p) x).value <;> simp
  | comma x y ix iy =>
    show Holds s w l (file p) y ↔ _
    have i2 := iy hx.2 hn.2
    simp only [Main.meaning, hquit x hn.1, i2]
    rfl

end

end Verif.Whole
