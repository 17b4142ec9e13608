import Verif.Lemmas.CmdMain
import Verif.Lemmas.CmdGroup
/-!
# C45: the grammar of expressions
-/
namespace Verif.Props
open Verif.Cmdline

/-- **C45**: The parser accepts exactly the command lines that follow the grammar, and makes of them what the grammar says: for all arguments, of any number and length, and whatever
values the primaries accept. -/
theorem C45_iff (env : Env) (args : List Arg) (c : Cmd) : whole (prim env) args = .ok c ↔ Parsed (prim env) args c := whole_iff (prim_ok env) args c

/-- **C45**: Anything else is an error; the parser always comes to an end, and no assertion fails. -/
theorem C45_rejects (env : Env) (args : List Arg) : (∃ c, Parsed (prim env) args c) ∨ ((¬ ∃ c, Parsed (prim env) args c) ∧ ∃ e, whole (prim env) args = .err e) := by
  cases h : whole (prim env) args with
  | ok c => exact .inl ⟨c, (C45_iff env args c).1 h⟩
  | err e =>
    refine .inr ⟨?_, e, rfl⟩
    rintro ⟨c, hc⟩
    rw [(C45_iff env args c).2 hc] at h
    cases h
  | ub => exact absurd h (whole_ub (prim_ok env) args)

/-- **C45**: The grammar is not ambiguous: there is only one way to split arguments into tokens and paths, and tokens have only one tree. -/
theorem C45_unambiguous (pr : List Arg → Out Prim) (args : List Arg) (ts us : List Tok) (ps qs : List Arg) (t u : Tree)
    (h : Lex pr false args ts ps) (h' : Lex pr false args us qs) (hg : Gram .expr false ts t) (hg' : Gram .expr false us u) : ts = us ∧ ps = qs ∧ t = u := by
  obtain ⟨e, e'⟩ := lex_unique h h'
  subst e
  exact ⟨rfl, e', gram_unique hg hg'⟩

/-- **C45**: With enough parentheses, any tree can be written, unless it has something within `-exclude` that must not be there. -/
theorem C45_expressible (ex : Bool) (t : Tree) : (∃ ts, Gram .expr ex ts t) ↔ t.Allowed ex := by
  constructor
  · rintro ⟨ts, h⟩
    generalize Level.expr = l at h
    induction h with
    | paren _ _ _ _ ih => exact ih
    | not _ _ _ _ ih => exact ih
    | exclude _ _ _ ih => exact ⟨rfl, ih⟩
    | prim _ _ h => exact h
    | factor _ _ _ _ ih => exact ih
    | juxt _ _ _ _ _ _ _ ih1 ih2 => exact ⟨ih1, ih2⟩
    | and _ _ _ _ _ _ _ ih1 ih2 => exact ⟨ih1, ih2⟩
    | term _ _ _ _ ih => exact ih
    | or _ _ _ _ _ _ _ ih1 ih2 => exact ⟨ih1, ih2⟩
    | clause _ _ _ _ ih => exact ih
    | comma _ _ _ _ _ _ _ ih1 ih2 => exact ⟨ih1, ih2⟩
  · intro h
    suffices hf : ∃ ts, Gram .factor ex ts t by
      obtain ⟨ts, hf⟩ := hf
      exact ⟨ts, .clause _ _ _ (.term _ _ _ (.factor _ _ _ hf))⟩
    induction t generalizing ex with
    | leaf p => exact ⟨_, .prim ex p h⟩
    | not t ih => obtain ⟨ts, g⟩ := ih ex h; exact ⟨_, .not _ _ _ g⟩
    | exclude t ih =>
      obtain ⟨ts, g⟩ := ih true h.2
      rw [h.1]; exact ⟨_, .exclude _ _ g⟩
    | and t u ih1 ih2 =>
      obtain ⟨ts, g⟩ := ih1 ex h.1
      obtain ⟨us, k⟩ := ih2 ex h.2
      exact ⟨_, .paren _ _ _ (.clause _ _ _ (.term _ _ _ (.juxt _ _ _ _ _ (.factor _ _ _ g) k)))⟩
    | or t u ih1 ih2 =>
      obtain ⟨ts, g⟩ := ih1 ex h.1
      obtain ⟨us, k⟩ := ih2 ex h.2
      exact ⟨_, .paren _ _ _ (.clause _ _ _ (.or _ _ _ _ _ (.term _ _ _ (.factor _ _ _ g)) (.factor _ _ _ k)))⟩
    | comma t u ih1 ih2 =>
      obtain ⟨ts, g⟩ := ih1 ex h.1
      obtain ⟨us, k⟩ := ih2 ex h.2
      exact ⟨_, .paren _ _ _ (.comma _ _ _ _ _ (.clause _ _ _ (.term _ _ _ (.factor _ _ _ g))) (.term _ _ _ (.factor _ _ _ k)))⟩

/-- **C45**: The operators bind in the documented order, and to the left.  (The trees are the only ones, by `C45_unambiguous`.) -/
theorem C45_precedence (ex : Bool) (a b c : List Tok) (t u v : Tree) (ha : Gram .factor ex a t) (hb : Gram .factor ex b u) (hc : Gram .factor ex c v) :
    Gram .expr ex (.not :: a ++ b) (.and (.not t) u) ∧
    Gram .expr ex (a ++ .or :: (b ++ c)) (.or t (.and u v)) ∧
    Gram .expr ex (a ++ b ++ .or :: c) (.or (.and t u) v) ∧
    Gram .expr ex (a ++ .comma :: (b ++ .or :: c)) (.comma t (.or u v)) ∧
    Gram .expr ex (a ++ .or :: b ++ .comma :: c) (.comma (.or t u) v) ∧
    Gram .expr ex (a ++ b ++ .and :: c) (.and (.and t u) v) ∧
    Gram .expr ex (a ++ .or :: b ++ .or :: c) (.or (.or t u) v) ∧
    Gram .expr ex (a ++ .comma :: b ++ .comma :: c) (.comma (.comma t u) v) ∧
    Gram .expr ex (a ++ (.lparen :: (b ++ .or :: c) ++ [.rparen])) (.and t (.or u v)) := by
  have ta := Gram.factor _ _ _ ha
  have tb := Gram.factor _ _ _ hb
  have tc := Gram.factor _ _ _ hc
  refine ⟨?_, ?_, ?_, ?_, ?_, ?_, ?_, ?_, ?_⟩
  · exact .clause _ _ _ (.term _ _ _ (.juxt _ _ _ _ _ (.factor _ _ _ (.not _ _ _ ha)) hb))
  · exact .clause _ _ _ (.or _ _ _ _ _ (.term _ _ _ ta) (.juxt _ _ _ _ _ tb hc))
  · exact .clause _ _ _ (.or _ _ _ _ _ (.term _ _ _ (.juxt _ _ _ _ _ ta hb)) tc)
  · exact .comma _ _ _ _ _ (.clause _ _ _ (.term _ _ _ ta)) (.or _ _ _ _ _ (.term _ _ _ tb) tc)
  · exact .comma _ _ _ _ _ (.clause _ _ _ (.or _ _ _ _ _ (.term _ _ _ ta) tb)) (.term _ _ _ tc)
  · exact .clause _ _ _ (.term _ _ _ (.and _ _ _ _ _ (.juxt _ _ _ _ _ ta hb) hc))
  · exact .clause _ _ _ (.or _ _ _ _ _ (.or _ _ _ _ _ (.term _ _ _ ta) tb) tc)
  · exact .comma _ _ _ _ _ (.comma _ _ _ _ _ (.clause _ _ _ (.term _ _ _ ta)) (.term _ _ _ tb)) (.term _ _ _ tc)
  · exact .clause _ _ _ (.term _ _ _ (.juxt _ _ _ _ _ ta (.paren _ _ _ (.clause _ _ _ (.or _ _ _ _ _ (.term _ _ _ tb) tc)))))

/-- **C45**: Every entry of the table can be used: no entry hides another. -/
theorem C45_names (i : Nat) (e : Entry) (h : table[i]? = some e) (s : Arg) (hs : s = [] ∨ e.pre = true) (hn : e.arg ++ s ≠ A "-newer" ∨ e.pre = false) :
    tableLookup (e.arg ++ s) = some i := by
  have hd : (List.range 121).all (fun i => match table[i]? with
    | none => false
    | some e => e.pre || decide (tableLookup e.arg = some i)) = true := by decide +kernel
  have hl : table.length = 121 := by decide
  have hi : i < 121 := by rw [← hl]; exact (List.getElem?_eq_some_iff.1 h).1
  have := List.all_eq_true.1 hd i (List.mem_range.2 hi)
  rw [h] at this
  dsimp only at this
  by_cases hp : e.pre = true
  · have key : ∀ j, ((table[j]?).map fun e => e.pre) = some true → j = 7 ∨ j = 11 ∨ j = 13 ∨ j = 60 ∨ j = 74 := by
      intro j hj
      have hd : (List.range 121).all (fun j => (((table[j]?).map fun e => e.pre) != some true) || (j == 7 || j == 11 || j == 13 || j == 60 || j == 74)) = true := by decide +kernel
      have hlt : j < 121 := by
        rw [← hl]
        cases ht : table[j]? with
        | none => rw [ht] at hj; cases hj
        | some x => exact (List.getElem?_eq_some_iff.1 ht).1
      have := List.all_eq_true.1 hd j (List.mem_range.2 hlt)
      rw [hj] at this
      simpa [or_assoc] using this
    have := key i (by rw [h]; exact congrArg some hp)
    rcases this with rfl | rfl | rfl | rfl | rfl
    · cases h; rfl
    · cases h; rfl
    · cases h; rfl
    · cases h; rfl
    · cases h
      cases s with
      | nil => rcases hn with hn | hn
               · exact absurd rfl hn
               · cases hn
      | cons x s => rfl
  · rcases hs with rfl | hs
    · rw [List.append_nil]
      have hp' : e.pre = false := by cases hb : e.pre with
        | false => rfl
        | true => exact absurd hb hp
      rw [hp', Bool.false_or] at this
      exact of_decide_eq_true this
    · exact absurd hs hp

/-- **C45**: A group of flags, like `-LEX`, means the flags one after the other: each of them is called once, in this order. -/
theorem C45_flag_group (env : Env) (cs : Arg) (rest : List Arg) (h : ∀ c ∈ cs, c ∈ plainFlags) (hu : ∃ c ∈ cs, 65 ≤ c ∧ c ≤ 90) (hl : 2 ≤ cs.length)
    (hv : ∀ c ∈ cs, ∀ i, tableLookup [45, c] = some i → ∀ l, env.valid i l = true) :
    ∃ p, prim env ((45 :: cs) :: rest) = .ok p ∧ p.calls.map (fun x => (some x.1, x.2)) = (cs.map fun c => (tableLookup [45, c], [45 :: cs])) ∧ p.argc = 1 ∧
      p.starts = decide (120 ∈ cs) ∧ p.action = false ∧ p.loud = false ∧ p.limit = false ∧ p.roots = [] ∧ p.nohidden = false := by
  have hne : cs ≠ [] := by rintro rfl; simp at hl
  have ht := group_not_table (tl := []) h hu hl
  have hg := isGroup_plain cs [] false h
  rw [List.append_nil] at ht hg
  have hg' : isGroupLoop false false cs = true := by
    rw [hg]
    show (cs.any _) = true
    obtain ⟨c, hc, h1, h2⟩ := hu
    exact List.any_eq_true.2 ⟨c, hc, by simp [h1, h2]⟩
  obtain ⟨p, e, pl⟩ := group_plain env (45 :: cs) rest cs [] 0 none hne (by decide) h (fun c hc i hi => hv c hc i hi _)
  rw [List.append_nil] at e
  refine ⟨p, ?_, ?_⟩
  · unfold prim
    simp only [List.headD_cons, List.head?_cons, ne_eq, not_true_eq_false, if_false]
    rw [ht]
    dsimp only
    refine (if_pos (show isFlagGroup (45 :: cs) = true from hg')).trans ?_
    show groupLoop env _ cs 0 none = _
    rw [e]
    exact if_pos pl.argc
  · exact ⟨pl.calls, pl.argc, by rw [pl.starts]; rfl, pl.action, pl.loud, pl.limit, pl.roots, pl.nohidden⟩

/-- **C45**: The last flag of a group may take the next argument: `-EXf path` is `-E -X -f path`. -/
theorem C45_flag_group_value (env : Env) (cs : Arg) (path : Arg) (rest : List Arg) (h : ∀ c ∈ cs, c ∈ plainFlags) (hu : ∃ c ∈ cs, 65 ≤ c ∧ c ≤ 90) (hl : 2 ≤ cs.length)
    (hv : ∀ c ∈ cs, ∀ i, tableLookup [45, c] = some i → ∀ l, env.valid i l = true) (hf : ∀ i l, tableLookup (A "-f") = some i → env.valid i l = true) :
    ∃ p, prim env ((45 :: (cs ++ A "f")) :: path :: rest) = .ok p ∧
      p.calls.map (fun x => (some x.1, x.2)) = (cs.map fun c => (tableLookup [45, c], [45 :: (cs ++ A "f")])) ++ [(tableLookup (A "-f"), [45 :: (cs ++ A "f"), path])] ∧ p.argc = 2 ∧
      p.starts = decide (120 ∈ cs) ∧ p.action = false ∧ p.loud = false ∧ p.limit = false ∧ p.roots = [path] ∧ p.nohidden = false := by
  have hne : cs ≠ [] := by rintro rfl; simp at hl
  have ht := group_not_table (tl := A "f") h hu hl
  have hg := isGroup_plain cs (A "f") false h
  have hfe : flagEntry 102 = some (39, ⟨A "-f", .flag, some { shape := .unary, kind := .flag, root := true }, false, true⟩, { shape := .unary, kind := .flag, root := true }) := by decide
  have hg' : isGroupLoop false false (cs ++ A "f") = true := by
    rw [hg]
    obtain ⟨c, hc, h1, h2⟩ := hu
    have hany : (cs.any fun c => decide (65 ≤ c) && decide (c ≤ 90)) = true := List.any_eq_true.2 ⟨c, hc, by simp [h1, h2]⟩
    show isGroupLoop (false || cs.any fun c => decide (65 ≤ c) && decide (c ≤ 90)) false (102 :: []) = true
    rw [hany, isGroupLoop_cons, hfe]
    rfl
  obtain ⟨p, e, pl⟩ := group_plain env (45 :: (cs ++ A "f")) (path :: rest) cs (A "f") 0 none hne (by decide) h (fun c hc i hi => hv c hc i hi _)
  have hi : tableLookup (A "-f") = some 39 := by decide
  have hcall : callParse env 39 { shape := .unary, kind := .flag, root := true } ((45 :: (cs ++ A "f")) :: path :: rest) =
      .ok { calls := [(39, [45 :: (cs ++ A "f"), path])], argc := 2, starts := false, action := false, loud := false, limit := false, roots := [path], nohidden := false } :=
    if_pos (hf 39 _ hi)
  refine ⟨p.join { calls := [(39, [45 :: (cs ++ A "f"), path])], argc := 2, starts := false, action := false, loud := false, limit := false, roots := [path], nohidden := false }, ?_, ?_⟩
  · unfold prim
    simp only [List.headD_cons, List.head?_cons, ne_eq, not_true_eq_false, if_false]
    rw [ht]
    dsimp only
    refine (if_pos (show isFlagGroup (45 :: (cs ++ A "f")) = true from hg')).trans ?_
    show groupLoop env _ (cs ++ A "f") 0 none = _
    rw [e]
    show groupLoop env _ (102 :: []) 1 (some p) = _
    rw [groupLoop_cons, hfe]
    dsimp only
    rw [hcall]
    rfl
  · refine ⟨?_, rfl, ?_, ?_, ?_, ?_, ?_, ?_⟩
    · show (p.calls ++ _).map _ = _
      rw [List.map_append, pl.calls, hi]; rfl
    · show (p.starts || false) = _
      rw [pl.starts, Bool.or_false]; rfl
    · show (p.action || false) = _
      rw [pl.action]; rfl
    · show (p.loud || false) = _
      rw [pl.loud]; rfl
    · show (p.limit || false) = _
      rw [pl.limit]; rfl
    · show p.roots ++ [path] = _
      rw [pl.roots]; rfl
    · show (p.nohidden || false) = _
      rw [pl.nohidden]; rfl

/-! ## Examples -/

/-- An environment that accepts every value. -/
def cmdEnv : Env := { isStatus := fun a => a.all fun c => 48 ≤ c && c ≤ 57, valid := fun _ _ => true }

/-- The same, but for the details of primaries. -/
def sameShape : E → E → Bool
  | .leaf (.prim p), .leaf (.prim q) => p.calls.map (fun x => x.2) == q.calls.map (fun x => x.2)
  | .leaf a, .leaf b => decide (a = b)
  | .not a, .not b => sameShape a b
  | .and a b, .and c d => sameShape a c && sameShape b d
  | .or a b, .or c d => sameShape a c && sameShape b d
  | .comma a b, .comma c d => sameShape a c && sameShape b d
  | _, _ => false

/-- A primary with these arguments. -/
def P (args : List Arg) : E := .leaf (.prim { calls := [(0, args)], argc := 0, starts := false, action := false, loud := false, limit := false, roots := [], nohidden := false })
def G (n : Nat) (a : Arg) : E := .leaf (.prim { calls := List.replicate n (0, [a]), argc := 0, starts := false, action := false, loud := false, limit := false, roots := [], nohidden := false })

/-- Does the parser make this of the arguments? -/
def gives (args : List String) (e : E) (roots : List String) (excludes : List E) : Bool :=
  match whole (prim cmdEnv) (args.map A) with
  | .ok c => sameShape c.expr e && (c.roots == roots.map A) && (c.excludes.length == excludes.length) && (c.excludes.zip excludes).all fun x => sameShape x.1 x.2
  | _ => false

example : gives ["a", "-name", "x", "-o", "-type", "d", "-LE", "b", "-print"]
    (.or (P [A "-name", A "x"]) (.and (.and (P [A "-type", A "d"]) (G 2 (A "-LE"))) (P [A "-print"]))) ["a", "b"] [] = true := by decide +kernel
example : gives ["!", "-empty", "-hidden", ",", "(", "-true", "-or", "-false", ")", "-prune"]
    (.and (.comma (.and (.not (P [A "-empty"])) (P [A "-hidden"])) (.and (.or (P [A "-true"]) (P [A "-false"])) (P [A "-prune"]))) (.leaf .print)) ["."] [] = true := by decide +kernel
example : gives ["-exclude", "-name", "x", "-nohidden", "y"] (.and (.and (.leaf .yes) (P [A "-nohidden"])) (.leaf .print)) ["y"] [P [A "-name", A "x"], .leaf .hidden] = true := by decide +kernel
example : gives [",", ")", "-exec", "echo", "{}", ";", "-depth", "-print"] (.and (.and (P [A "-exec", A "echo", A "{}", A ";"]) (P [A "-depth"])) (P [A "-print"])) [",", ")"] [] = true := by decide +kernel
example : gives [] (.and (.leaf .yes) (.leaf .print)) ["."] [] = true := by decide +kernel

/-- These are rejected. -/
def rejected (args : List String) : Bool := match whole (prim cmdEnv) (args.map A) with
  | .err _ => true
  | _ => false

example : rejected ["(", "-true"] = true := by decide +kernel
example : rejected ["-true", ")"] = true := by decide +kernel
example : rejected ["-true", "-o"] = true := by decide +kernel
example : rejected ["-exclude", "-print"] = true := by decide +kernel
example : rejected ["-exclude", "(", "-exclude", "-true", ")"] = true := by decide +kernel
example : rejected ["-limit", "1"] = true := by decide +kernel
example : rejected ["-le"] = true := by decide +kernel
example : rejected ["-exec", "echo", "{}"] = true := by decide +kernel

example : ∃ c, Parsed (prim cmdEnv) [A "-true", A "-o", A "-false"] c := by
  rcases C45_rejects cmdEnv [A "-true", A "-o", A "-false"] with h | ⟨_, e, he⟩
  · exact h
  · have : rejected ["-true", "-o", "-false"] = true := by
      show (match whole (prim cmdEnv) [A "-true", A "-o", A "-false"] with | .err _ => true | _ => false) = true
      rw [he]
    exact absurd this (by decide +kernel)

example : ∀ c ∈ A "LEx", c ∈ plainFlags := by decide
example : ∃ c ∈ A "LEx", 65 ≤ c ∧ c ≤ 90 := ⟨76, by decide, by decide⟩

end Verif.Props
