import Verif.Lemmas.Options
import Verif.Lemmas.Ctable
import Verif.Lemmas.CmdMain
import Verif.Lemmas.CmdPrim

/-! One flag or option after the other. -/
namespace Verif.Options
open Verif.Cmdline

/-- What a call does if it succeeds. -/
def Called (sys : Sys) (c : Call) (o o' : Options) : Setter → Prop
  | .debug => ∃ v d, LetterValue 68 c v ∧ debugAll (splitWords v []) o.debug = .ok d ∧ o' = { o with debug := d }
  | .extended => o' = { o with regex := .posixExtended }
  | .follow flags => o' = { o with flags := (o.flags &&& ~~~(FOLLOW_ROOTS ||| FOLLOW_ALL)) ||| flags }
  | .optlevel => ∃ v n, LetterValue 79 c v ∧ Level v n ∧ o' = { o with optlevel := n }
  | .strategy => ∃ v s, LetterValue 83 c v ∧ StrategyName v s ∧ o' = { o with strategy := s }
  | .xargsSafe => o' = { o with xargsSafe := true }
  | .color on => (on = true → sys.colors = true) ∧ o' = { o with coutColors := on, cerrColors := on }
  | .depth => o' = { o with flags := o.flags ||| POST_ORDER }
  | .delete => o' = { o with flags := o.flags ||| POST_ORDER, dangerous := true }
  | .depthN => (c.2[1]? = none ∧ o' = { o with flags := o.flags ||| POST_ORDER }) ∨ (c.2[1]? ≠ none ∧ o' = o)
  | .exec => o' = { o with dangerous := true }
  | .files0 => ∃ v, NextValue c v ∧ o' = { o with files0 := some v }
  | .ignoreRaces on => o' = { o with ignoreRaces := on }
  | .jobs => ∃ v n, LetterValue 106 c v ∧ Natural v n ∧ n ≠ 0 ∧ o' = { o with threads := n }
  | .depthLimit isMin => ∃ v n, NextValue c v ∧ Natural v n ∧ o' = setLimit isMin o n
  | .mount => o' = { o with flags := o.flags ||| SKIP_MOUNTS }
  | .noerror => o' = { o with ignoreErrors := true }
  | .warn on => o' = { o with warn := on }
  | .regextype => ∃ v r, NextValue c v ∧ RegexName sys.oniguruma v r ∧ o' = { o with regex := r }
  | .sort => o' = { o with flags := o.flags ||| SORT }
  | .status => o' = { o with status := true }
  | .unique => o' = { o with unique := true }
  | .xdev => o' = { o with flags := o.flags ||| PRUNE_MOUNTS }
  | .nothing => o' = o

theorem ok_iff {α} {a b : α} : (Out.ok a = Out.ok b) ↔ b = a := ⟨fun h => (by cases h; rfl), fun h => (by rw [h])⟩

theorem call_iff (sys : Sys) (c : Call) (o o' : Options) (f : Setter) : call sys f c.2 o = .ok o' ↔ Called sys c o o' f := by
  cases f <;> simp only [call, Called, ok_iff, obind_iff, prefixValue_iff, value_iff, unsignedInt_iff, strategy_iff, optlevel_iff, regex_iff, debugLoop_eq]
  case debug => exact ⟨fun ⟨v, h, d, h', h''⟩ => ⟨v, d, h, h', h''⟩, fun ⟨v, d, h, h', h''⟩ => ⟨v, h, d, h', h''⟩⟩
  case optlevel => exact ⟨fun ⟨v, h, d, h', h''⟩ => ⟨v, d, h, h', h''⟩, fun ⟨v, d, h, h', h''⟩ => ⟨v, h, d, h', h''⟩⟩
  case strategy => exact ⟨fun ⟨v, h, d, h', h''⟩ => ⟨v, d, h, h', h''⟩, fun ⟨v, d, h, h', h''⟩ => ⟨v, h, d, h', h''⟩⟩
  case regextype => exact ⟨fun ⟨v, h, d, h', h''⟩ => ⟨v, d, h, h', h''⟩, fun ⟨v, d, h, h', h''⟩ => ⟨v, h, d, h', h''⟩⟩
  case depthLimit => exact ⟨fun ⟨v, h, d, h', h''⟩ => ⟨v, d, h, h', h''⟩, fun ⟨v, d, h, h', h''⟩ => ⟨v, h, d, h', h''⟩⟩
  case depth => exact Iff.rfl
  case color on =>
    unfold setColor
    cases on
    · rw [if_neg (by decide), ok_iff]
      exact ⟨fun h => ⟨fun h => (by cases h), h⟩, fun h => h.2⟩
    · rw [if_pos rfl]
      cases hc : sys.colors
      · rw [if_pos (by rfl)]
        exact ⟨fun h => (by cases h), fun h => (by cases h.1 rfl)⟩
      · rw [if_neg (by decide), ok_iff]
        exact ⟨fun h => ⟨fun _ => rfl, h⟩, fun h => h.2⟩
  case depthN =>
    by_cases h : c.2[1]? = none
    · rw [if_pos h]
      exact ⟨fun h' => Or.inl ⟨h, ok_iff.1 h'⟩, fun h' => h'.elim (fun h' => ok_iff.2 h'.2) (fun h' => absurd h h'.1)⟩
    · rw [if_neg h]
      exact ⟨fun h' => Or.inr ⟨h, ok_iff.1 h'⟩, fun h' => h'.elim (fun h' => absurd h'.1 h) (fun h' => ok_iff.2 h'.2)⟩
  case jobs =>
    have key : ∀ n, setJobs o n = .ok o' ↔ n ≠ 0 ∧ o' = { o with threads := n } := by
      intro n
      unfold setJobs
      by_cases h : n = 0
      · rw [if_pos h]
        exact ⟨fun h' => (by cases h'), fun h' => absurd h h'.1⟩
      · rw [if_neg h, ok_iff]
        exact ⟨fun h' => ⟨h, h'⟩, fun h' => h'.2⟩
    simp only [key]
    exact ⟨fun ⟨v, h, d, h', h'', h3⟩ => ⟨v, d, h, h', h'', h3⟩, fun ⟨v, d, h, h', h'', h3⟩ => ⟨v, h, d, h', h'', h3⟩⟩

theorem apply_iff (sys : Sys) (c : Call) (o o' : Options) : apply sys c o = .ok o' ↔ ∃ e, table[c.1]? = some e ∧ Called sys c o o' (setter e.arg) := by
  unfold apply
  cases h : table[c.1]? with
  | none => simp
  | some e =>
    show call sys (setter e.arg) c.2 o = .ok o' ↔ _
    rw [call_iff]
    exact ⟨fun h => ⟨e, rfl, h⟩, fun ⟨_, he, h⟩ => by cases he; exact h⟩

variable {sys : Sys} {c : Call} {o o' : Options} {cs : List Call}

/-- What a call changes. -/
structure Keeps (sys : Sys) (c : Call) (o o' : Options) (f : Setter) : Prop where
  xargsSafe : o'.xargsSafe = (o.xargsSafe || [Setter.xargsSafe].contains f)
  unique : o'.unique = (o.unique || [Setter.unique].contains f)
  status : o'.status = (o.status || [Setter.status].contains f)
  ignoreErrors : o'.ignoreErrors = (o.ignoreErrors || [Setter.noerror].contains f)
  dangerous : o'.dangerous = (o.dangerous || [Setter.delete, .exec].contains f)
  ignoreRaces : o'.ignoreRaces = if [Setter.ignoreRaces true, .ignoreRaces false].contains f then [Setter.ignoreRaces true].contains f else o.ignoreRaces
  warn : o'.warn = if [Setter.warn true, .warn false].contains f then [Setter.warn true].contains f else o.warn
  cout : o'.coutColors = if [Setter.color true, .color false].contains f then [Setter.color true].contains f else o.coutColors
  cerr : o'.cerrColors = if [Setter.color true, .color false].contains f then [Setter.color true].contains f else o.cerrColors
  mindepth : ([Setter.depthLimit true].contains f = false ∧ o'.mindepth = o.mindepth) ∨
    ([Setter.depthLimit true].contains f = true ∧ ∃ v, NextValue c v ∧ Natural v o'.mindepth)
  maxdepth : ([Setter.depthLimit false].contains f = false ∧ o'.maxdepth = o.maxdepth) ∨
    ([Setter.depthLimit false].contains f = true ∧ ∃ v, NextValue c v ∧ Natural v o'.maxdepth)
  strategy : ([Setter.strategy].contains f = false ∧ o'.strategy = o.strategy) ∨
    ([Setter.strategy].contains f = true ∧ ∃ v, LetterValue 83 c v ∧ StrategyName v o'.strategy)
  optlevel : ([Setter.optlevel].contains f = false ∧ o'.optlevel = o.optlevel) ∨
    ([Setter.optlevel].contains f = true ∧ ∃ v, LetterValue 79 c v ∧ Level v o'.optlevel)
  threads : ([Setter.jobs].contains f = false ∧ o'.threads = o.threads) ∨
    ([Setter.jobs].contains f = true ∧ ∃ v, LetterValue 106 c v ∧ Natural v o'.threads ∧ 0 < o'.threads)
  files0 : ([Setter.files0].contains f = false ∧ o'.files0 = o.files0) ∨
    ([Setter.files0].contains f = true ∧ ∃ v, NextValue c v ∧ o'.files0 = some v)
  regex : ([Setter.extended, .regextype].contains f = false ∧ o'.regex = o.regex) ∨
    ([Setter.extended].contains f = true ∧ [Setter.regextype].contains f = false ∧ o'.regex = .posixExtended) ∨
    ([Setter.regextype].contains f = true ∧ [Setter.extended].contains f = false ∧ ∃ v, NextValue c v ∧ RegexName sys.oniguruma v o'.regex)
  debug : ([Setter.debug].contains f = false ∧ o'.debug = o.debug) ∨
    ([Setter.debug].contains f = true ∧ ∃ v, LetterValue 68 c v ∧ debugAll (splitWords v []) o.debug = .ok o'.debug)

theorem keeps {f} (hc : Called sys c o o' f) : Keeps sys c o o' f := by
  cases f
  case debug =>
    obtain ⟨v, d, h1, h2, rfl⟩ := hc
    constructor <;> first | exact Or.inr ⟨rfl, v, h1, h2⟩ | simp
  case optlevel =>
    obtain ⟨v, d, h1, h2, rfl⟩ := hc
    constructor <;> first | exact Or.inr ⟨rfl, v, h1, h2⟩ | simp
  case strategy =>
    obtain ⟨v, d, h1, h2, rfl⟩ := hc
    constructor <;> first | exact Or.inr ⟨rfl, v, h1, h2⟩ | simp
  case jobs =>
    obtain ⟨v, d, h1, h2, h3, rfl⟩ := hc
    constructor <;> first | exact Or.inr ⟨rfl, v, h1, h2, by have := h2.2.1; show 0 < d; omega⟩ | simp
  case files0 =>
    obtain ⟨v, h1, rfl⟩ := hc
    constructor <;> first | exact Or.inr ⟨rfl, v, h1, rfl⟩ | simp
  case depthLimit b =>
    obtain ⟨v, n, h1, h2, rfl⟩ := hc
    cases b <;> (constructor <;> first | exact Or.inr ⟨rfl, v, h1, h2⟩ | simp [setLimit])
  case regextype =>
    obtain ⟨v, r, h1, h2, rfl⟩ := hc
    constructor <;> first | exact Or.inr (Or.inr ⟨rfl, rfl, v, h1, h2⟩) | simp
  case extended =>
    cases hc
    constructor <;> first | exact Or.inr (Or.inl ⟨rfl, rfl, rfl⟩) | simp
  case depthN =>
    rcases hc with ⟨_, rfl⟩ | ⟨_, rfl⟩ <;> (constructor <;> simp)
  case color b =>
    obtain ⟨_, rfl⟩ := hc
    cases b <;> (constructor <;> simp)
  case ignoreRaces b =>
    cases hc
    cases b <;> (constructor <;> simp)
  case warn b =>
    cases hc
    cases b <;> (constructor <;> simp)
  all_goals (cases hc; constructor <;> simp)

/-- What a call does to the flags. -/
structure Flags (c : Call) (o o' : Options) (f : Setter) : Prop where
  roots : has o'.flags FOLLOW_ROOTS =
    if [Setter.follow 0, .follow FOLLOW_ROOTS, .follow FOLLOW_ALL].contains f then [Setter.follow FOLLOW_ROOTS].contains f else has o.flags FOLLOW_ROOTS
  all : has o'.flags FOLLOW_ALL =
    if [Setter.follow 0, .follow FOLLOW_ROOTS, .follow FOLLOW_ALL].contains f then [Setter.follow FOLLOW_ALL].contains f else has o.flags FOLLOW_ALL
  post : has o'.flags POST_ORDER = true ↔ has o.flags POST_ORDER = true ∨ [Setter.depth, .delete].contains f = true ∨ ([Setter.depthN].contains f = true ∧ c.2[1]? = none)
  mount : has o'.flags SKIP_MOUNTS = (has o.flags SKIP_MOUNTS || [Setter.mount].contains f)
  xdev : has o'.flags PRUNE_MOUNTS = (has o.flags PRUNE_MOUNTS || [Setter.xdev].contains f)
  sort : has o'.flags SORT = (has o.flags SORT || [Setter.sort].contains f)
  recover : has o'.flags RECOVER = has o.flags RECOVER
  others : has o'.flags (~~~(RECOVER ||| FOLLOW_ROOTS ||| FOLLOW_ALL ||| POST_ORDER ||| SKIP_MOUNTS ||| PRUNE_MOUNTS ||| SORT)) =
    has o.flags (~~~(RECOVER ||| FOLLOW_ROOTS ||| FOLLOW_ALL ||| POST_ORDER ||| SKIP_MOUNTS ||| PRUNE_MOUNTS ||| SORT))

theorem flags_same {f} (h : o'.flags = o.flags) (h1 : ∀ b, f ≠ .follow b) (h2 : [Setter.depth, .delete, .mount, .xdev, .sort].contains f = false)
    (h3 : f = .depthN → c.2[1]? ≠ none) : Flags c o o' f := by
  have e0 : ∀ b, [Setter.follow b].contains f = false := by intro b; simp [Ne.symm (h1 b), h1 b]
  have e : [Setter.follow 0, .follow FOLLOW_ROOTS, .follow FOLLOW_ALL].contains f = false := by simp [h1]
  simp only [List.contains_cons, List.contains_nil, Bool.or_false, Bool.or_eq_false_iff, beq_eq_false_iff_ne, ne_eq] at h2
  constructor
  · rw [e, h]; rfl
  · rw [e, h]; rfl
  · rw [h]
    simp only [List.contains_cons, List.contains_nil, Bool.or_false, Bool.or_eq_true, beq_iff_eq]
    constructor
    · exact Or.inl
    · rintro (hh | (hh | hh) | ⟨hh, hn⟩)
      · exact hh
      · exact absurd hh h2.1
      · exact absurd hh h2.2.1
      · exact absurd hn (h3 hh)
  · rw [h]; simp [h2]
  · rw [h]; simp [h2]
  · rw [h]; simp [h2]
  · rw [h]
  · rw [h]

theorem flags_or {f} {m : BitVec 32} (h : o'.flags = o.flags ||| m) (h1 : ∀ b, f ≠ .follow b)
    (h0 : has m FOLLOW_ROOTS = false ∧ has m FOLLOW_ALL = false ∧ has m RECOVER = false ∧
      has m (~~~(RECOVER ||| FOLLOW_ROOTS ||| FOLLOW_ALL ||| POST_ORDER ||| SKIP_MOUNTS ||| PRUNE_MOUNTS ||| SORT)) = false)
    (h2 : has m POST_ORDER = true ↔ [Setter.depth, .delete].contains f = true ∨ ([Setter.depthN].contains f = true ∧ c.2[1]? = none))
    (h3 : has m SKIP_MOUNTS = [Setter.mount].contains f) (h4 : has m PRUNE_MOUNTS = [Setter.xdev].contains f) (h5 : has m SORT = [Setter.sort].contains f) :
    Flags c o o' f := by
  have e0 : ∀ b, [Setter.follow b].contains f = false := by intro b; simp [h1 b]
  have e : [Setter.follow 0, .follow FOLLOW_ROOTS, .follow FOLLOW_ALL].contains f = false := by simp [h1]
  constructor
  · rw [e, h, has_or, h0.1, Bool.or_false]; rfl
  · rw [e, h, has_or, h0.2.1, Bool.or_false]; rfl
  · rw [h, has_or, Bool.or_eq_true, h2]
  · rw [h, has_or, h3]
  · rw [h, has_or, h4]
  · rw [h, has_or, h5]
  · rw [h, has_or, h0.2.2.1, Bool.or_false]
  · rw [h, has_or, h0.2.2.2, Bool.or_false]

theorem flags_ok {f} (hf : ∀ b, f = .follow b → b = 0 ∨ b = FOLLOW_ROOTS ∨ b = FOLLOW_ALL) (hc : Called sys c o o' f) : Flags c o o' f := by
  cases f
  case follow b =>
    cases hc
    have h1 : ∀ m : BitVec 32, has ((o.flags &&& ~~~(FOLLOW_ROOTS ||| FOLLOW_ALL)) ||| b) m = (has o.flags (~~~(FOLLOW_ROOTS ||| FOLLOW_ALL) &&& m) || has b m) := by
      intro m; rw [has_or, has_and]
    have h2 : has o.flags 0 = false := by unfold has; simp
    have e1 : ~~~(FOLLOW_ROOTS ||| FOLLOW_ALL) &&& FOLLOW_ROOTS = 0 := by decide
    have e2 : ~~~(FOLLOW_ROOTS ||| FOLLOW_ALL) &&& FOLLOW_ALL = 0 := by decide
    have e3 : ~~~(FOLLOW_ROOTS ||| FOLLOW_ALL) &&& POST_ORDER = POST_ORDER := by decide
    have e4 : ~~~(FOLLOW_ROOTS ||| FOLLOW_ALL) &&& SKIP_MOUNTS = SKIP_MOUNTS := by decide
    have e5 : ~~~(FOLLOW_ROOTS ||| FOLLOW_ALL) &&& PRUNE_MOUNTS = PRUNE_MOUNTS := by decide
    have e6 : ~~~(FOLLOW_ROOTS ||| FOLLOW_ALL) &&& SORT = SORT := by decide
    have e7 : ~~~(FOLLOW_ROOTS ||| FOLLOW_ALL) &&& RECOVER = RECOVER := by decide
    have e8 : ~~~(FOLLOW_ROOTS ||| FOLLOW_ALL) &&& ~~~(RECOVER ||| FOLLOW_ROOTS ||| FOLLOW_ALL ||| POST_ORDER ||| SKIP_MOUNTS ||| PRUNE_MOUNTS ||| SORT) =
      ~~~(RECOVER ||| FOLLOW_ROOTS ||| FOLLOW_ALL ||| POST_ORDER ||| SKIP_MOUNTS ||| PRUNE_MOUNTS ||| SORT) := by decide
    rcases hf b rfl with rfl | rfl | rfl
    all_goals
      constructor
      · show has ((o.flags &&& _) ||| _) _ = _
        rw [h1, e1, h2, if_pos (by decide)]; decide
      · show has ((o.flags &&& _) ||| _) _ = _
        rw [h1, e2, h2, if_pos (by decide)]; decide
      · show has ((o.flags &&& _) ||| _) _ = true ↔ _
        rw [h1, e3, Bool.or_eq_true]
        simp [has, FOLLOW_ROOTS, FOLLOW_ALL, POST_ORDER]
      · show has ((o.flags &&& _) ||| _) _ = _
        rw [h1, e4]; congr 1
      · show has ((o.flags &&& _) ||| _) _ = _
        rw [h1, e5]; congr 1
      · show has ((o.flags &&& _) ||| _) _ = _
        rw [h1, e6]; congr 1
      · show has ((o.flags &&& _) ||| _) _ = _
        rw [h1, e7]
        exact Bool.or_false _
      · show has ((o.flags &&& _) ||| _) _ = _
        rw [h1, e8]
        exact Bool.or_false _
  case depth =>
    cases hc
    exact flags_or rfl (by simp) (by decide) (by simp; decide) (by decide) (by decide) (by decide)
  case delete =>
    cases hc
    exact flags_or rfl (by simp) (by decide) (by simp; decide) (by decide) (by decide) (by decide)
  case mount =>
    cases hc
    exact flags_or rfl (by simp) (by decide) (by simp; decide) (by decide) (by decide) (by decide)
  case xdev =>
    cases hc
    exact flags_or rfl (by simp) (by decide) (by simp; decide) (by decide) (by decide) (by decide)
  case sort =>
    cases hc
    exact flags_or rfl (by simp) (by decide) (by simp; decide) (by decide) (by decide) (by decide)
  case depthN =>
    rcases hc with ⟨hn, rfl⟩ | ⟨hn, rfl⟩
    · exact flags_or rfl (by simp) (by decide) (by simp [hn]; decide) (by decide) (by decide) (by decide)
    · exact flags_same rfl (by simp) (by decide) (fun _ => hn)
  case debug => obtain ⟨v, d, h1, h2, rfl⟩ := hc; exact flags_same rfl (by simp) (by decide) (by simp)
  case optlevel => obtain ⟨v, d, h1, h2, rfl⟩ := hc; exact flags_same rfl (by simp) (by decide) (by simp)
  case strategy => obtain ⟨v, d, h1, h2, rfl⟩ := hc; exact flags_same rfl (by simp) (by decide) (by simp)
  case jobs => obtain ⟨v, d, h1, h2, h3, rfl⟩ := hc; exact flags_same rfl (by simp) (by decide) (by simp)
  case files0 => obtain ⟨v, h1, rfl⟩ := hc; exact flags_same rfl (by simp) (by decide) (by simp)
  case depthLimit b =>
    obtain ⟨v, n, h1, h2, rfl⟩ := hc
    cases b <;> exact flags_same rfl (by simp) (by decide) (by simp)
  case regextype => obtain ⟨v, r, h1, h2, rfl⟩ := hc; exact flags_same rfl (by simp) (by decide) (by simp)
  case color b => obtain ⟨_, rfl⟩ := hc; exact flags_same rfl (by simp) (by cases b <;> decide) (by simp)
  case ignoreRaces b => cases hc; exact flags_same rfl (by simp) (by cases b <;> decide) (by simp)
  case warn b => cases hc; exact flags_same rfl (by simp) (by cases b <;> decide) (by simp)
  all_goals (cases hc; exact flags_same rfl (by simp) (by decide) (by simp))


/-! ## All of them -/

theorem setter_follow {e : Entry} (he : e ∈ table) : ∀ b, setter e.arg = .follow b → b = 0 ∨ b = FOLLOW_ROOTS ∨ b = FOLLOW_ALL := by
  have key : (table.all fun e => match setter e.arg with | .follow b => decide (b = 0 ∨ b = FOLLOW_ROOTS ∨ b = FOLLOW_ALL) | _ => true) = true := by decide +kernel
  intro b hb
  have := List.all_eq_true.1 key e he
  rw [hb] at this
  exact of_decide_eq_true this

section names
variable {e : Entry} (he : table[c.1]? = some e)
include he
theorem is_follow : c.is ["-P", "-H", "-L", "-follow"] = [Setter.follow 0, .follow FOLLOW_ROOTS, .follow FOLLOW_ALL].contains (setter e.arg) := is_setter (by decide +kernel) he
theorem is_H : c.is ["-H"] = [Setter.follow FOLLOW_ROOTS].contains (setter e.arg) := is_setter (by decide +kernel) he
theorem is_L : c.is ["-L", "-follow"] = [Setter.follow FOLLOW_ALL].contains (setter e.arg) := is_setter (by decide +kernel) he
theorem is_d : c.is ["-d", "-delete", "-rm"] = [Setter.depth, .delete].contains (setter e.arg) := is_setter (by decide +kernel) he
theorem is_depth : c.is ["-depth"] = [Setter.depthN].contains (setter e.arg) := is_setter (by decide +kernel) he
theorem is_mount : c.is ["-mount"] = [Setter.mount].contains (setter e.arg) := is_setter (by decide +kernel) he
theorem is_xdev : c.is ["-x", "-xdev"] = [Setter.xdev].contains (setter e.arg) := is_setter (by decide +kernel) he
theorem is_s : c.is ["-s"] = [Setter.sort].contains (setter e.arg) := is_setter (by decide +kernel) he
theorem is_X : c.is ["-X"] = [Setter.xargsSafe].contains (setter e.arg) := is_setter (by decide +kernel) he
theorem is_unique : c.is ["-unique"] = [Setter.unique].contains (setter e.arg) := is_setter (by decide +kernel) he
theorem is_status : c.is ["-status"] = [Setter.status].contains (setter e.arg) := is_setter (by decide +kernel) he
theorem is_noerror : c.is ["-noerror"] = [Setter.noerror].contains (setter e.arg) := is_setter (by decide +kernel) he
theorem is_danger : c.is ["-delete", "-rm", "-exec", "-execdir"] = [Setter.delete, .exec].contains (setter e.arg) := is_setter (by decide +kernel) he
theorem is_races : c.is ["-ignore_readdir_race", "-noignore_readdir_race"] = [Setter.ignoreRaces true, .ignoreRaces false].contains (setter e.arg) := is_setter (by decide +kernel) he
theorem is_race : c.is ["-ignore_readdir_race"] = [Setter.ignoreRaces true].contains (setter e.arg) := is_setter (by decide +kernel) he
theorem is_warns : c.is ["-warn", "-nowarn"] = [Setter.warn true, .warn false].contains (setter e.arg) := is_setter (by decide +kernel) he
theorem is_warn : c.is ["-warn"] = [Setter.warn true].contains (setter e.arg) := is_setter (by decide +kernel) he
theorem is_colors : c.is ["-color", "-nocolor"] = [Setter.color true, .color false].contains (setter e.arg) := is_setter (by decide +kernel) he
theorem is_color : c.is ["-color"] = [Setter.color true].contains (setter e.arg) := is_setter (by decide +kernel) he
theorem is_mindepth : c.is ["-mindepth"] = [Setter.depthLimit true].contains (setter e.arg) := is_setter (by decide +kernel) he
theorem is_maxdepth : c.is ["-maxdepth"] = [Setter.depthLimit false].contains (setter e.arg) := is_setter (by decide +kernel) he
theorem is_S : c.is ["-S"] = [Setter.strategy].contains (setter e.arg) := is_setter (by decide +kernel) he
theorem is_O : c.is ["-O"] = [Setter.optlevel].contains (setter e.arg) := is_setter (by decide +kernel) he
theorem is_j : c.is ["-j"] = [Setter.jobs].contains (setter e.arg) := is_setter (by decide +kernel) he
theorem is_regexes : c.is ["-E", "-regextype"] = [Setter.extended, .regextype].contains (setter e.arg) := is_setter (by decide +kernel) he
theorem is_E : c.is ["-E"] = [Setter.extended].contains (setter e.arg) := is_setter (by decide +kernel) he
theorem is_regextype : c.is ["-regextype"] = [Setter.regextype].contains (setter e.arg) := is_setter (by decide +kernel) he
theorem is_files0 : c.is ["-files0-from"] = [Setter.files0].contains (setter e.arg) := is_setter (by decide +kernel) he
theorem is_D : c.is ["-D"] = [Setter.debug].contains (setter e.arg) := is_setter (by decide +kernel) he
theorem is_depths : c.is ["-mindepth", "-maxdepth"] = [Setter.depthLimit true, .depthLimit false].contains (setter e.arg) := is_setter (by decide +kernel) he
end names

/-- A switch that is turned on. -/
theorem step_given {L : List String} {b b' : Bool} {k : Bool} (h : b = true ↔ Given L cs) (hk : c.is L = k) (hb : b' = (b || k)) : b' = true ↔ Given L (cs ++ [c]) := by
  rw [given_snoc, hb, Bool.or_eq_true, h, hk]

/-- A switch that is turned on or off. -/
theorem step_last {L M : List String} {b b' k k' : Bool} (h : b = true ↔ ∃ x, last L cs = some x ∧ x.is M = true) (hk : c.is L = k) (hk' : c.is M = k')
    (hb : b' = if k then k' else b) : b' = true ↔ ∃ x, last L (cs ++ [c]) = some x ∧ x.is M = true := by
  rw [last_snoc, hk, hb]
  cases k
  · exact h
  · constructor
    · intro h; exact ⟨c, rfl, by rw [hk']; exact h⟩
    · rintro ⟨x, hx, h⟩; cases hx; rw [hk'] at h; exact h

/-- The same, with a default. -/
theorem step_default {L M : List String} {b b' k k' : Bool} {P : Prop} (h : ∀ l, last L cs = l → (b = true ↔ (l = none ∧ P) ∨ ∃ x, l = some x ∧ x.is M = true))
    (hk : c.is L = k) (hk' : c.is M = k') (hb : b' = if k then k' else b) :
    ∀ l, last L (cs ++ [c]) = l → (b' = true ↔ (l = none ∧ P) ∨ ∃ x, l = some x ∧ x.is M = true) := by
  intro l hl
  rw [last_snoc, hk] at hl
  rw [hb]
  cases k
  · exact h l hl
  · have hl : some c = l := hl
    subst hl
    constructor
    · intro h; exact Or.inr ⟨c, rfl, by rw [hk']; exact h⟩
    · rintro (⟨hx, _⟩ | ⟨x, hx, h⟩)
      · cases hx
      · cases hx; rw [hk'] at h; exact h

/-- A value. -/
theorem step_value {α : Type} {L : List String} {d x x' : α} {V : Call → α → Prop} {k : Bool}
    (h : (last L cs = none ∧ x = d) ∨ ∃ c' , last L cs = some c' ∧ V c' x) (hk : c.is L = k)
    (hb : (k = false ∧ x' = x) ∨ (k = true ∧ V c x')) :
    (last L (cs ++ [c]) = none ∧ x' = d) ∨ ∃ c', last L (cs ++ [c]) = some c' ∧ V c' x' := by
  rw [last_snoc, hk]
  rcases hb with ⟨rfl, rfl⟩ | ⟨rfl, hb⟩
  · exact h
  · exact Or.inr ⟨c, rfl, hb⟩

theorem exists_swap {α β : Type} {P : α → Prop} {Q : α → β → Prop} : (∃ a b, P a ∧ Q a b) ↔ ∃ a, P a ∧ ∃ b, Q a b :=
  ⟨fun ⟨a, b, h, h'⟩ => ⟨a, h, b, h'⟩, fun ⟨a, h, b, h'⟩ => ⟨a, b, h, h'⟩⟩

/-- The lengths of calls of `-depth`. -/
def Sized (c : Call) : Prop := c.2 ≠ []

theorem sized_one (h : Sized c) : c.2[1]? = none ↔ c.2.length = 1 := by
  obtain ⟨i, l⟩ := c
  cases l with
  | nil => exact absurd rfl h
  | cons a l => cases l <;> simp

theorem meets_step (hm : Meets sys cs o) (hz : Sized c) (ha : apply sys c o = .ok o') : Meets sys (cs ++ [c]) o' := by
  obtain ⟨e, he, hc⟩ := (apply_iff sys c o o').1 ha
  have k := keeps hc
  have fl := flags_ok (setter_follow (List.mem_of_getElem? he)) hc
  constructor
  · exact step_last hm.followRoots (is_follow he) (is_H he) fl.roots
  · exact step_last hm.followAll (is_follow he) (is_L he) fl.all
  · rw [fl.post, hm.post, given_snoc, is_d he, ← is_depth he, sized_one hz]
    constructor
    · rintro ((h | ⟨x, hx, h⟩) | h | ⟨h, h'⟩)
      · exact Or.inl (Or.inl h)
      · exact Or.inr ⟨x, List.mem_append_left _ hx, h⟩
      · exact Or.inl (Or.inr h)
      · exact Or.inr ⟨c, List.mem_append_right _ (List.mem_singleton.2 rfl), h, h'⟩
    · rintro ((h | h) | ⟨x, hx, h⟩)
      · exact Or.inl (Or.inl h)
      · exact Or.inr (Or.inl h)
      · rcases List.mem_append.1 hx with hx | hx
        · exact Or.inl (Or.inr ⟨x, hx, h⟩)
        · rw [List.mem_singleton.1 hx] at h; exact Or.inr (Or.inr h)
  · exact step_given hm.mount (is_mount he) fl.mount
  · exact step_given hm.xdev (is_xdev he) fl.xdev
  · exact step_given hm.sort (is_s he) fl.sort
  · rw [fl.recover]; exact hm.recover
  · have h1 := hm.others
    have h2 := fl.others
    unfold has at h2
    rw [h1] at h2
    simpa using h2
  · exact step_given hm.xargsSafe (is_X he) k.xargsSafe
  · exact step_given hm.unique (is_unique he) k.unique
  · exact step_given hm.status (is_status he) k.status
  · exact step_given hm.ignoreErrors (is_noerror he) k.ignoreErrors
  · exact step_given hm.dangerous (is_danger he) k.dangerous
  · exact step_last hm.ignoreRaces (is_races he) (is_race he) k.ignoreRaces
  · exact step_default hm.warn (is_warns he) (is_warn he) k.warn
  · intro l hl
    exact ⟨step_default (fun l hl => (hm.color l hl).1) (is_colors he) (is_color he) k.cout l hl,
      step_default (fun l hl => (hm.color l hl).2) (is_colors he) (is_color he) k.cerr l hl⟩
  · simp only [exists_swap]
    exact step_value (V := fun c n => ∃ v, NextValue c v ∧ Natural v n) (by simpa only [exists_swap] using hm.mindepth) (is_mindepth he) k.mindepth
  · simp only [exists_swap]
    exact step_value (V := fun c n => ∃ v, NextValue c v ∧ Natural v n) (by simpa only [exists_swap] using hm.maxdepth) (is_maxdepth he) k.maxdepth
  · simp only [exists_swap]
    exact step_value (V := fun c n => ∃ v, LetterValue 83 c v ∧ StrategyName v n) (by simpa only [exists_swap] using hm.strategy) (is_S he) k.strategy
  · simp only [exists_swap]
    exact step_value (V := fun c n => ∃ v, LetterValue 79 c v ∧ Level v n) (by simpa only [exists_swap] using hm.optlevel) (is_O he) k.optlevel
  · simp only [exists_swap]
    exact step_value (V := fun c n => ∃ v, LetterValue 106 c v ∧ Natural v n ∧ 0 < n) (by simpa only [exists_swap] using hm.threads) (is_j he) k.threads
  · rw [last_snoc, is_regexes he]
    rcases k.regex with ⟨h1, h2⟩ | ⟨h1, h2, h3⟩ | ⟨h1, h2, h3⟩
    · rw [h1, h2]; exact hm.regex
    · have : [Setter.extended, .regextype].contains (setter e.arg) = true := by
        simp only [List.contains_cons, List.contains_nil, Bool.or_false] at h1 ⊢
        rw [h1]; rfl
      rw [this]
      exact Or.inr (Or.inl ⟨c, rfl, by rw [is_E he]; exact h1, h3⟩)
    · have : [Setter.extended, .regextype].contains (setter e.arg) = true := by
        simp only [List.contains_cons, List.contains_nil, Bool.or_false] at h1 ⊢
        rw [h1]; exact Bool.or_true _
      obtain ⟨v, h3, h4⟩ := h3
      rw [this]
      exact Or.inr (Or.inr ⟨c, v, rfl, by rw [is_regextype he]; exact h1, h3, h4⟩)
  · simp only [exists_swap]
    exact step_value (V := fun c n => ∃ v, NextValue c v ∧ n = some v) (by simpa only [exists_swap] using hm.files0) (is_files0 he) k.files0
  · intro bit
    have hold := hm.debug
    have hsmall : ∀ bit, o.debug.getLsbD bit = true → bit < 7 := by
      intro bit hb
      obtain ⟨_, _, _, _, _, _, _, h⟩ := (hold bit).1 hb
      rcases h with ⟨_, h⟩ | ⟨_, h, _⟩
      · exact h
      · exact debugBit_lt h
    have hmono : Debugs bit (cs ++ [c]) ↔ Debugs bit cs ∨ (c.is ["-D"] = true ∧ ∃ v ws, LetterValue 68 c v ∧ Words v ws ∧
        ((A "all" ∈ ws ∧ bit < 7) ∨ ∃ name, (name, bit) ∈ debugBit ∧ A name ∈ ws)) := by
      constructor
      · rintro ⟨x, hx, h⟩
        rcases List.mem_append.1 hx with hx | hx
        · exact Or.inl ⟨x, hx, h⟩
        · rw [List.mem_singleton.1 hx] at h; exact Or.inr h
      · rintro (⟨x, hx, h⟩ | h)
        · exact ⟨x, List.mem_append_left _ hx, h⟩
        · exact ⟨c, List.mem_append_right _ (List.mem_singleton.2 rfl), h⟩
    rw [hmono, is_D he, ← hold]
    rcases k.debug with ⟨h1, h2⟩ | ⟨h1, v, h2, h3⟩
    · rw [h1, h2]
      simp
    · rw [h1]
      obtain ⟨_, h4⟩ := debugAll_ok _ _ _ hsmall h3
      rw [h4]
      constructor
      · rintro (h | h)
        · exact Or.inl h
        · exact Or.inr ⟨rfl, v, _, h2, (words_iff v _).2 rfl, h⟩
      · rintro (h | ⟨_, v', ws, h5, h6, h⟩)
        · exact Or.inl h
        · have e1 := (prefixValue_iff 68 c v).2 h2
          rw [(prefixValue_iff 68 c v').2 h5] at e1
          have e2 : v' = v := by injection e1
          rw [e2] at h6
          rw [(words_iff v ws).1 h6] at h
          exact Or.inr h

theorem meets_defaults (sys : Sys) : Meets sys [] (defaults sys) := by
  have hl : ∀ L, last L [] = none := fun _ => rfl
  have hg : ∀ L, ¬ Given L [] := by rintro L ⟨_, h, _⟩; cases h
  constructor <;> simp only [hl, hg, defaults]
  · simp; decide
  · simp; decide
  · simp; decide
  · simp; decide
  · simp; decide
  · simp; decide
  · decide
  · decide
  all_goals try simp
  · simp [wrapColors, and_assoc]
  · decide
  · unfold defaultThreads
    split <;> omega
  · intro bit
    simp [Debugs]

theorem meets (cs : List Call) : ∀ o, (∀ c ∈ cs, Sized c) → configure sys cs (defaults sys) = .ok o → Meets sys cs o := by
  refine Cprint.rev_ind (P := fun cs => ∀ o, (∀ c ∈ cs, Sized c) → configure sys cs (defaults sys) = .ok o → Meets sys cs o) ?_ ?_ cs
  · intro o _ h; cases h; exact meets_defaults sys
  · intro cs c ih o hz h
    rw [configure_snoc] at h
    obtain ⟨o1, h1, h2⟩ := obind_iff.1 h
    exact meets_step (ih o1 (fun x hx => hz x (List.mem_append_left _ hx)) h1) (hz c (by simp)) h2

/-! ## What is accepted -/

theorem debugAll_help : ∀ (ws : List Arg) (d d' : BitVec 32), debugAll ws d = .ok d' → A "help" ∉ ws := by
  intro ws
  induction ws with
  | nil => intro d d' _ h; cases h
  | cons w ws ih =>
    intro d d' h hm
    obtain ⟨d1, h1, h2⟩ := obind_iff.1 h
    rcases List.mem_cons.1 hm with rfl | hm
    · unfold debugFlag at h1
      rw [if_pos rfl] at h1
      cases h1
    · exact ih d1 d' h2 hm

theorem setter_cases {e : Entry} {f : Setter} (h : setter e.arg = f) {S : List Setter} {b : Bool} (hb : S.contains f = b) : S.contains (setter e.arg) = b := by
  rw [h]; exact hb

theorem called_iff (sys : Sys) (c : Call) (o : Options) {e : Entry} (he : table[c.1]? = some e) :
    (∃ o', Called sys c o o' (setter e.arg)) ↔ Acceptable sys c := by
  constructor
  · rintro ⟨o', h⟩
    constructor
    · rw [is_color he]; intro hs
      have hs : setter e.arg = .color true := by simpa using hs
      rw [hs] at h; exact (h.1 rfl)
    · rw [is_depths he]; intro hs
      have hs : setter e.arg = .depthLimit true ∨ setter e.arg = .depthLimit false := by simpa using hs
      rcases hs with hs | hs <;> rw [hs] at h <;> obtain ⟨v, n, h1, h2, _⟩ := h <;> exact ⟨v, n, h1, h2⟩
    · rw [is_S he]; intro hs
      have hs : setter e.arg = .strategy := by simpa using hs
      rw [hs] at h; obtain ⟨v, n, h1, h2, _⟩ := h; exact ⟨v, n, h1, h2⟩
    · rw [is_O he]; intro hs
      have hs : setter e.arg = .optlevel := by simpa using hs
      rw [hs] at h; obtain ⟨v, n, h1, h2, _⟩ := h; exact ⟨v, n, h1, h2⟩
    · rw [is_j he]; intro hs
      have hs : setter e.arg = .jobs := by simpa using hs
      rw [hs] at h; obtain ⟨v, n, h1, h2, h3, _⟩ := h; exact ⟨v, n, h1, h2, by have := h2.2.1; omega⟩
    · rw [is_regextype he]; intro hs
      have hs : setter e.arg = .regextype := by simpa using hs
      rw [hs] at h; obtain ⟨v, n, h1, h2, _⟩ := h; exact ⟨v, n, h1, h2⟩
    · rw [is_files0 he]; intro hs
      have hs : setter e.arg = .files0 := by simpa using hs
      rw [hs] at h; obtain ⟨v, h1, _⟩ := h; exact ⟨v, h1⟩
    · rw [is_D he]; intro hs
      have hs : setter e.arg = .debug := by simpa using hs
      rw [hs] at h; obtain ⟨v, d, h1, h2, _⟩ := h; exact ⟨v, _, h1, (words_iff v _).2 rfl, debugAll_help _ _ _ h2⟩
  · intro ha
    cases hs : setter e.arg
    case debug =>
      obtain ⟨v, ws, h1, h2, h3⟩ := ha.debug (by rw [is_D he, hs]; decide)
      rw [(words_iff v ws).1 h2] at h3
      obtain ⟨d, h4⟩ := debugAll_accepts _ o.debug h3
      exact ⟨_, v, d, h1, h4, rfl⟩
    case optlevel =>
      obtain ⟨v, n, h1, h2⟩ := ha.optlevel (by rw [is_O he, hs]; decide)
      exact ⟨_, v, n, h1, h2, rfl⟩
    case strategy =>
      obtain ⟨v, n, h1, h2⟩ := ha.strategy (by rw [is_S he, hs]; decide)
      exact ⟨_, v, n, h1, h2, rfl⟩
    case jobs =>
      obtain ⟨v, n, h1, h2, h3⟩ := ha.threads (by rw [is_j he, hs]; decide)
      exact ⟨_, v, n, h1, h2, by omega, rfl⟩
    case depthLimit b =>
      obtain ⟨v, n, h1, h2⟩ := ha.depth (by rw [is_depths he, hs]; cases b <;> decide)
      exact ⟨_, v, n, h1, h2, rfl⟩
    case regextype =>
      obtain ⟨v, n, h1, h2⟩ := ha.regex (by rw [is_regextype he, hs]; decide)
      exact ⟨_, v, n, h1, h2, rfl⟩
    case files0 =>
      obtain ⟨v, h1⟩ := ha.files0 (by rw [is_files0 he, hs]; decide)
      exact ⟨_, v, h1, rfl⟩
    case color b =>
      cases b
      · exact ⟨_, (fun h => by cases h), rfl⟩
      · exact ⟨_, fun _ => ha.color (by rw [is_color he, hs]; decide), rfl⟩
    case depthN =>
      by_cases h : c.2[1]? = none
      · exact ⟨_, Or.inl ⟨h, rfl⟩⟩
      · exact ⟨_, Or.inr ⟨h, rfl⟩⟩
    all_goals exact ⟨_, rfl⟩

/-- A call that is made: of something in the table, with at least one argument. -/
def Made (c : Call) : Prop := ∃ e p, table[c.1]? = some e ∧ e.parse = some p ∧ Sized c ∧ ∀ l s, p.shape = .prefixed l s → l ∈ c.2.headD []

theorem configure_accepts : ∀ (cs : List Call) (o : Options), (∀ c ∈ cs, Made c) → ((∃ o', configure sys cs o = .ok o') ↔ ∀ c ∈ cs, Acceptable sys c) := by
  intro cs
  induction cs with
  | nil => intro o _; exact ⟨fun _ _ h => (by cases h), fun _ => ⟨o, rfl⟩⟩
  | cons c cs ih =>
    intro o hm
    obtain ⟨e, p, he, _⟩ := hm c List.mem_cons_self
    have hm' := fun x hx => hm x (List.mem_cons_of_mem _ hx)
    rw [List.forall_mem_cons, ← called_iff sys c o he]
    constructor
    · rintro ⟨o', h⟩
      obtain ⟨o1, h1, h2⟩ := obind_iff.1 h
      obtain ⟨e', he', h1⟩ := (apply_iff sys c o o1).1 h1
      rw [he] at he'; cases he'
      exact ⟨⟨o1, h1⟩, (ih o1 hm').1 ⟨o', h2⟩⟩
    · rintro ⟨⟨o1, h1⟩, h2⟩
      obtain ⟨o', h3⟩ := (ih o1 hm').2 h2
      exact ⟨o', obind_iff.2 ⟨o1, (apply_iff sys c o o1).2 ⟨e, he, h1⟩, h3⟩⟩

/-! ## No undefined behavior -/

theorem bind_noub {α β} {x : Out α} {f : α → Out β} (h : x ≠ .ub) (hf : ∀ a, x = .ok a → f a ≠ .ub) : x.bind f ≠ .ub := by
  cases x with
  | ok a => exact hf a rfl
  | err e => intro hc; cases hc
  | ub => exact absurd rfl h

theorem value_noub (l : List Arg) : value l ≠ .ub := by
  unfold value
  cases l[1]? <;> (intro h; cases h)

theorem unsigned_noub (v : Arg) : unsignedInt v ≠ .ub := by
  unfold unsignedInt
  split <;> (intro h; cases h)

theorem prefix_noub {l : UInt8} {args : List Arg} (h : l ∈ args.headD []) : prefixValue l args ≠ .ub := by
  unfold prefixValue
  obtain ⟨s, hs⟩ := dropWhile_mem h
  rw [hs]
  dsimp only
  split
  · intro h; cases h
  · split <;> (intro h; cases h)

theorem debug_noub : ∀ (ws : List Arg) (d : BitVec 32), debugAll ws d ≠ .ub := by
  intro ws
  induction ws with
  | nil => intro d h; cases h
  | cons w ws ih =>
    intro d
    refine bind_noub ?_ fun d' _ => ih d'
    unfold debugFlag
    split
    · intro h; cases h
    · split
      · intro h; cases h
      · split <;> (intro h; cases h)

theorem strategy_noub (v : Arg) : strategyOf v ≠ .ub := by
  unfold strategyOf
  repeat' split
  all_goals (intro h; cases h)

theorem regex_noub (b : Bool) (v : Arg) : regexType b v ≠ .ub := by
  unfold regexType onigType
  repeat' split
  all_goals (intro h; cases h)

theorem optlevel_noub (v : Arg) : optlevelOf v ≠ .ub := by
  unfold optlevelOf
  split
  · intro h; cases h
  · exact unsigned_noub v

/-- The letters of the flags whose value may follow. -/
def letterOf : Setter → Option UInt8
  | .debug => some 68
  | .optlevel => some 79
  | .strategy => some 83
  | .jobs => some 106
  | _ => none

theorem table_letters : ∀ e ∈ table, ∀ p, e.parse = some p → ∀ l, letterOf (setter e.arg) = some l → ∃ s, p.shape = .prefixed l s := by
  have key : (table.all fun e => match e.parse, letterOf (setter e.arg) with
    | some p, some l => decide (p.shape = .prefixed l true) || decide (p.shape = .prefixed l false)
    | _, _ => true) = true := by decide +kernel
  intro e he p hp l hl
  have := List.all_eq_true.1 key e he
  rw [hp, hl] at this
  simp only [Bool.or_eq_true, decide_eq_true_eq] at this
  rcases this with h | h
  · exact ⟨_, h⟩
  · exact ⟨_, h⟩

theorem call_noub {sys : Sys} {c : Call} {o : Options} {f : Setter} (h : ∀ l, letterOf f = some l → l ∈ c.2.headD []) : call sys f c.2 o ≠ .ub := by
  have hok : ∀ x : Options, Out.ok x ≠ .ub := fun x h => by cases h
  cases f <;> try exact hok _
  case debug => exact bind_noub (prefix_noub (h _ rfl)) fun v _ => bind_noub (by rw [debugLoop_eq]; exact debug_noub _ _) fun _ _ => hok _
  case optlevel => exact bind_noub (prefix_noub (h _ rfl)) fun v _ => bind_noub (optlevel_noub v) fun _ _ => hok _
  case strategy => exact bind_noub (prefix_noub (h _ rfl)) fun v _ => bind_noub (strategy_noub v) fun _ _ => hok _
  case jobs =>
    refine bind_noub (prefix_noub (h _ rfl)) fun v _ => bind_noub (unsigned_noub v) fun n _ => ?_
    unfold setJobs
    split <;> (intro h; cases h)
  case color b =>
    show setColor sys b o ≠ .ub
    unfold setColor
    repeat' split
    all_goals (intro h; cases h)
  case depthN =>
    show (if c.2[1]? = none then Out.ok (setDepth o) else .ok o) ≠ .ub
    split <;> exact hok _
  case files0 => exact bind_noub (value_noub _) fun v _ => hok _
  case depthLimit => exact bind_noub (value_noub _) fun v _ => bind_noub (unsigned_noub v) fun n _ => hok _
  case regextype => exact bind_noub (value_noub _) fun v _ => bind_noub (regex_noub _ v) fun n _ => hok _

theorem configure_noub : ∀ (cs : List Call) (o : Options), (∀ c ∈ cs, Made c) → configure sys cs o ≠ .ub := by
  intro cs
  induction cs with
  | nil => intro o _ h; cases h
  | cons c cs ih =>
    intro o hm
    refine bind_noub ?_ fun o' _ => ih o' fun x hx => hm x (List.mem_cons_of_mem _ hx)
    obtain ⟨e, p, he, hp, _, hs⟩ := hm c List.mem_cons_self
    unfold apply
    rw [he]
    refine call_noub fun l hl => ?_
    obtain ⟨s, hs'⟩ := table_letters e (List.mem_of_getElem? he) p hp l hl
    exact hs l s hs'

/-! ## The calls that the parser makes -/

theorem mem_of_dropWhile {c : UInt8} {l : Arg} {x : UInt8} {s : Arg} (h : l.dropWhile (fun x => decide (x ≠ c)) = x :: s) : c ∈ l := by
  induction l with
  | nil => cases h
  | cons a l ih =>
    by_cases ha : a = c
    · exact ha ▸ List.mem_cons_self
    · rw [List.dropWhile_cons, if_pos (by simpa using ha)] at h
      exact List.mem_cons_of_mem _ (ih h)

theorem callParse_made {env : Env} {i : Nat} {e : Entry} {p : Parser} {a : Arg} {rest : List Arg} {q : Prim} (he : table[i]? = some e) (hp : e.parse = some p)
    (h : callParse env i p (a :: rest) = .ok q) : ∀ c ∈ q.calls, Made c := by
  obtain ⟨h1, h2, _⟩ := callParse_ok h
  intro c hc
  rw [h2, List.mem_singleton] at hc
  subst hc
  obtain ⟨hpos, _⟩ := argc_bound h1
  obtain ⟨n, hn⟩ : ∃ n, q.argc = n + 1 := ⟨q.argc - 1, by omega⟩
  refine ⟨e, p, he, hp, ?_, ?_⟩
  · unfold Sized
    dsimp only
    rw [hn, List.take_succ_cons]
    exact List.cons_ne_nil _ _
  · intro l s hs
    dsimp only
    rw [hn, List.take_succ_cons]
    show l ∈ a
    rw [hs] at h1
    unfold argc at h1
    dsimp only at h1
    cases hd : ((a :: rest).headD []).dropWhile (fun x => decide (x ≠ l)) with
    | nil => rw [hd] at h1; cases h1
    | cons x y => exact mem_of_dropWhile (l := a) hd

theorem join_made {acc : Option Prim} {q : Prim} (ha : ∀ p, acc = some p → ∀ c ∈ p.calls, Made c) (hq : ∀ c ∈ q.calls, Made c) : ∀ c ∈ (joinOpt acc q).calls, Made c := by
  cases acc with
  | none => exact hq
  | some p =>
    intro c hc
    rcases List.mem_append.1 (show c ∈ p.calls ++ q.calls from hc) with h | h
    · exact ha p rfl c h
    · exact hq c h

theorem end_made {acc : Option Prim} {n : Nat} {q : Prim} (ha : ∀ p, acc = some p → ∀ c ∈ p.calls, Made c) (h : groupEnd n acc = .ok q) : ∀ c ∈ q.calls, Made c := by
  cases acc with
  | none => cases h
  | some p =>
    unfold groupEnd at h
    dsimp only at h
    split at h
    · cases h; exact ha q rfl
    · cases h

theorem group_made (env : Env) (a : Arg) (rest : List Arg) : ∀ (l : Arg) (n : Nat) (acc : Option Prim) (q : Prim), (∀ p, acc = some p → ∀ c ∈ p.calls, Made c) →
    groupLoop env (a :: rest) l n acc = .ok q → ∀ c ∈ q.calls, Made c := by
  intro l
  induction l with
  | nil => intro n acc q ha h; exact end_made ha h
  | cons x l ih =>
    intro n acc q ha h
    rw [groupLoop_cons] at h
    cases hf : flagEntry x with
    | none => rw [hf] at h; cases h
    | some v =>
      obtain ⟨i, e, p⟩ := v
      obtain ⟨_, he, hp, _⟩ := flagEntry_some hf
      rw [hf] at h
      obtain ⟨q1, h1, h2⟩ := obind_iff.1 h
      have hm := join_made ha (callParse_made he hp h1)
      split at h2
      · exact end_made (by intro p hp; cases hp; exact hm) h2
      · exact ih _ _ q (by intro p hp; cases hp; exact hm) h2

theorem prim_made {env : Env} {a : Arg} {rest : List Arg} {q : Prim} (h : prim env (a :: rest) = .ok q) : ∀ c ∈ q.calls, Made c := by
  unfold prim at h
  dsimp only at h
  split at h
  · cases h
  · split at h
    · next i _ =>
      cases he : table[i]? with
      | none => rw [he] at h; cases h
      | some e =>
        rw [he] at h
        cases hp : e.parse with
        | none => rw [Option.bind_some, hp] at h; cases h
        | some p => rw [Option.bind_some, hp] at h; exact callParse_made he hp h
    · split at h
      · exact group_made env a rest _ _ _ q (by intro p hp; cases hp) h
      · cases h

theorem lex_made {env : Env} {st : Bool} {args : List Arg} {toks : List Tok} {paths : List Arg} (h : Lex (prim env) st args toks paths) :
    ∀ c ∈ toks.flatMap Tok.calls, Made c := by
  induction h with
  | done => intro c hc; cases hc
  | dashes _ _ _ _ _ ih => exact ih
  | path _ _ _ _ _ _ _ ih => exact ih
  | op _ _ _ _ _ _ _ ho _ ih =>
    intro c hc
    rw [List.flatMap_cons] at hc
    rcases List.mem_append.1 hc with hc | hc
    · cases ho <;> cases hc
    · exact ih c hc
  | prim _ _ _ p _ _ _ _ _ hp _ ih =>
    intro c hc
    rw [List.flatMap_cons] at hc
    rcases List.mem_append.1 hc with hc | hc
    · exact prim_made hp c hc
    · exact ih c hc

theorem parsed_made {env : Env} {args : List Arg} {cmd : Cmd} (h : Parsed (prim env) args cmd) : ∀ c ∈ cmd.calls, Made c := by
  obtain ⟨toks, paths, hl, _, hc, _⟩ := h
  rw [hc]
  exact lex_made hl

/-! ## The settings are determined -/

theorem bool_eq {a b : Bool} {P : Prop} (ha : a = true ↔ P) (hb : b = true ↔ P) : a = b := by
  cases a <;> cases b <;> simp_all

theorem value_eq {α : Type} {l : Option Call} {d x y : α} {V : Call → α → Prop} (hV : ∀ c x y, V c x → V c y → x = y)
    (hx : (l = none ∧ x = d) ∨ ∃ c, l = some c ∧ V c x) (hy : (l = none ∧ y = d) ∨ ∃ c, l = some c ∧ V c y) : x = y := by
  rcases hx with ⟨h1, h2⟩ | ⟨c, h1, h2⟩ <;> rcases hy with ⟨h3, h4⟩ | ⟨c', h3, h4⟩
  · rw [h2, h4]
  · rw [h1] at h3; cases h3
  · rw [h1] at h3; cases h3
  · rw [h1] at h3; cases h3; exact hV c x y h2 h4

theorem letter_eq {l : UInt8} {v w : Arg} (h : LetterValue l c v) (h' : LetterValue l c w) : v = w := by
  have e1 := (prefixValue_iff l c v).2 h
  rw [(prefixValue_iff l c w).2 h'] at e1
  injection e1 with e1
  exact e1.symm

theorem next_eq {v w : Arg} (h : NextValue c v) (h' : NextValue c w) : v = w := by
  unfold NextValue at h h'
  rw [h] at h'
  injection h'

theorem natural_eq {v : Arg} {m n : Int} (h : Natural v m) (h' : Natural v n) : m = n := by
  have e1 := (unsignedInt_iff v m).2 h
  rw [(unsignedInt_iff v n).2 h'] at e1
  injection e1 with e1
  exact e1.symm

theorem level_eq {v : Arg} {m n : Int} (h : Level v m) (h' : Level v n) : m = n := by
  have e1 := (optlevel_iff v m).2 h
  rw [(optlevel_iff v n).2 h'] at e1
  injection e1 with e1
  exact e1.symm

theorem strategy_eq {v : Arg} {m n : Bftw.Strategy} (h : StrategyName v m) (h' : StrategyName v n) : m = n := by
  have e1 := (strategy_iff v m).2 h
  rw [(strategy_iff v n).2 h'] at e1
  injection e1 with e1
  exact e1.symm

theorem regex_eq {b : Bool} {v : Arg} {m n : Regex} (h : RegexName b v m) (h' : RegexName b v n) : m = n := by
  have e1 := (regex_iff b v m).2 h
  rw [(regex_iff b v n).2 h'] at e1
  injection e1 with e1
  exact e1.symm

theorem has_bit (x : BitVec 32) {k : Nat} (hk : k < 32) : has x (1#32 <<< k) = x.getLsbD k := by
  unfold has
  cases h : x.getLsbD k with
  | true =>
    rw [bne_iff_ne]
    intro h0
    have := congrArg (fun y => y.getLsbD k) h0
    rw [BitVec.getLsbD_and, h, BitVec.getLsbD_shiftLeft, Nat.sub_self] at this
    simp [hk] at this
  | false =>
    rw [bne_eq_false_iff_eq]
    refine BitVec.eq_of_getLsbD_eq fun i hi => ?_
    rw [BitVec.getLsbD_and, BitVec.getLsbD_shiftLeft]
    by_cases hik : i = k
    · subst hik; simp [h]
    · have : (1#32).getLsbD (i - k) = true → i ≤ k := by
        intro h1
        rw [BitVec.getLsbD_one] at h1
        simp at h1
        omega
      by_cases hlt : i < k
      · simp [hlt]
      · have : (1#32).getLsbD (i - k) = false := by
          cases h1 : (1#32).getLsbD (i - k) with
          | false => rfl
          | true => have := this h1; omega
        simp [this]

/-- The bits that options may set. -/
def ALLBITS : BitVec 32 := RECOVER ||| FOLLOW_ROOTS ||| FOLLOW_ALL ||| POST_ORDER ||| SKIP_MOUNTS ||| PRUNE_MOUNTS ||| SORT

theorem flags_eq {x y : BitVec 32} (hx : x &&& ~~~ALLBITS = 0#32) (hy : y &&& ~~~ALLBITS = 0#32)
    (h : ∀ m ∈ [RECOVER, FOLLOW_ROOTS, FOLLOW_ALL, POST_ORDER, SKIP_MOUNTS, PRUNE_MOUNTS, SORT], has x m = has y m) : x = y := by
  refine BitVec.eq_of_getLsbD_eq fun i hi => ?_
  by_cases hb : ALLBITS.getLsbD i = true
  · have hm : ∃ k, 1#32 <<< k ∈ [RECOVER, FOLLOW_ROOTS, FOLLOW_ALL, POST_ORDER, SKIP_MOUNTS, PRUNE_MOUNTS, SORT] ∧ k = i := by
      have key : ∀ i : Fin 32, ALLBITS.getLsbD i.1 = true → 1#32 <<< i.1 ∈ [RECOVER, FOLLOW_ROOTS, FOLLOW_ALL, POST_ORDER, SKIP_MOUNTS, PRUNE_MOUNTS, SORT] := by decide +kernel
      exact ⟨i, key ⟨i, hi⟩ hb, rfl⟩
    obtain ⟨k, hk, rfl⟩ := hm
    have := h _ hk
    rwa [has_bit _ hi, has_bit _ hi] at this
  · have hz : ∀ z : BitVec 32, z &&& ~~~ALLBITS = 0#32 → z.getLsbD i = false := by
      intro z hz
      have := congrArg (fun y => y.getLsbD i) hz
      rw [BitVec.getLsbD_and, BitVec.getLsbD_not, Bool.eq_false_iff.2 hb] at this
      simpa [hi] using this
    rw [hz x hx, hz y hy]

theorem meets_eq {cs : List Call} {o o' : Options} (h : Meets sys cs o) (h' : Meets sys cs o') : o = o' := by
  have hflags : o.flags = o'.flags := by
    refine flags_eq h.others h'.others ?_
    intro m hm
    simp only [List.mem_cons, List.not_mem_nil, or_false] at hm
    rcases hm with rfl | rfl | rfl | rfl | rfl | rfl | rfl
    · rw [h.recover, h'.recover]
    · exact bool_eq h.followRoots h'.followRoots
    · exact bool_eq h.followAll h'.followAll
    · exact bool_eq h.post h'.post
    · exact bool_eq h.mount h'.mount
    · exact bool_eq h.xdev h'.xdev
    · exact bool_eq h.sort h'.sort
  have hstrategy : o.strategy = o'.strategy :=
    value_eq (V := fun c n => ∃ v, LetterValue 83 c v ∧ StrategyName v n) (fun c x y ⟨v, h1, h2⟩ ⟨w, h3, h4⟩ => strategy_eq h2 (letter_eq h1 h3 ▸ h4))
      (by simpa only [exists_swap] using h.strategy) (by simpa only [exists_swap] using h'.strategy)
  have hlevel : o.optlevel = o'.optlevel :=
    value_eq (V := fun c n => ∃ v, LetterValue 79 c v ∧ Level v n) (fun c x y ⟨v, h1, h2⟩ ⟨w, h3, h4⟩ => level_eq h2 (letter_eq h1 h3 ▸ h4))
      (by simpa only [exists_swap] using h.optlevel) (by simpa only [exists_swap] using h'.optlevel)
  have hthreads : o.threads = o'.threads :=
    value_eq (V := fun c n => ∃ v, LetterValue 106 c v ∧ Natural v n ∧ 0 < n) (fun c x y ⟨v, h1, h2, _⟩ ⟨w, h3, h4, _⟩ => natural_eq h2 (letter_eq h1 h3 ▸ h4))
      (by simpa only [exists_swap] using h.threads) (by simpa only [exists_swap] using h'.threads)
  have hmin : o.mindepth = o'.mindepth :=
    value_eq (V := fun c n => ∃ v, NextValue c v ∧ Natural v n) (fun c x y ⟨v, h1, h2⟩ ⟨w, h3, h4⟩ => natural_eq h2 (next_eq h1 h3 ▸ h4))
      (by simpa only [exists_swap] using h.mindepth) (by simpa only [exists_swap] using h'.mindepth)
  have hmax : o.maxdepth = o'.maxdepth :=
    value_eq (V := fun c n => ∃ v, NextValue c v ∧ Natural v n) (fun c x y ⟨v, h1, h2⟩ ⟨w, h3, h4⟩ => natural_eq h2 (next_eq h1 h3 ▸ h4))
      (by simpa only [exists_swap] using h.maxdepth) (by simpa only [exists_swap] using h'.maxdepth)
  have hfiles : o.files0 = o'.files0 :=
    value_eq (V := fun c n => ∃ v, NextValue c v ∧ n = some v) (fun c x y ⟨v, h1, h2⟩ ⟨w, h3, h4⟩ => by rw [h2, h4, next_eq h1 h3])
      (by simpa only [exists_swap] using h.files0) (by simpa only [exists_swap] using h'.files0)
  have hregex : o.regex = o'.regex := by
    have conv : ∀ r : Regex, ((last ["-E", "-regextype"] cs = none ∧ r = .posixBasic) ∨
        (∃ c, last ["-E", "-regextype"] cs = some c ∧ c.is ["-E"] = true ∧ r = .posixExtended) ∨
        ∃ c v, last ["-E", "-regextype"] cs = some c ∧ c.is ["-regextype"] = true ∧ NextValue c v ∧ RegexName sys.oniguruma v r) →
        ((last ["-E", "-regextype"] cs = none ∧ r = .posixBasic) ∨ ∃ c, last ["-E", "-regextype"] cs = some c ∧
          ((c.is ["-E"] = true ∧ r = .posixExtended) ∨ (c.is ["-regextype"] = true ∧ ∃ v, NextValue c v ∧ RegexName sys.oniguruma v r))) := by
      rintro r (h | ⟨c, h1, h2⟩ | ⟨c, v, h1, h2, h3, h4⟩)
      · exact Or.inl h
      · exact Or.inr ⟨c, h1, Or.inl h2⟩
      · exact Or.inr ⟨c, h1, Or.inr ⟨h2, v, h3, h4⟩⟩
    have hno : ∀ c : Call, c.is ["-E"] = true → c.is ["-regextype"] = true → False := by
      intro c h1 h2
      cases he : table[c.1]? with
      | none => unfold Call.is at h1; rw [he] at h1; cases h1
      | some e =>
        rw [is_E he] at h1
        rw [is_regextype he] at h2
        have h1 : setter e.arg = .extended := by simpa using h1
        rw [h1] at h2
        cases h2
    refine value_eq (V := fun c r => (c.is ["-E"] = true ∧ r = .posixExtended) ∨ (c.is ["-regextype"] = true ∧ ∃ v, NextValue c v ∧ RegexName sys.oniguruma v r))
      ?_ (conv _ h.regex) (conv _ h'.regex)
    rintro c x y (⟨h1, h2⟩ | ⟨h1, v, h2, h3⟩) (⟨h4, h5⟩ | ⟨h4, w, h5, h6⟩)
    · rw [h2, h5]
    · exact (hno c h1 h4).elim
    · exact (hno c h4 h1).elim
    · exact regex_eq h3 (next_eq h2 h5 ▸ h6)
  have hdebug : o.debug = o'.debug := BitVec.eq_of_getLsbD_eq fun i _ => bool_eq (h.debug i) (h'.debug i)
  have h1 := bool_eq h.xargsSafe h'.xargsSafe
  have h2 := bool_eq h.ignoreRaces h'.ignoreRaces
  have h3 := bool_eq h.ignoreErrors h'.ignoreErrors
  have h4 := bool_eq h.unique h'.unique
  have h5 := bool_eq h.status h'.status
  have h6 := bool_eq (h.warn _ rfl) (h'.warn _ rfl)
  have h7 := bool_eq h.dangerous h'.dangerous
  have h8 := bool_eq (h.color _ rfl).1 (h'.color _ rfl).1
  have h9 := bool_eq (h.color _ rfl).2 (h'.color _ rfl).2
  cases o
  cases o'
  simp only at *
  subst_vars
  rfl

end Verif.Options
