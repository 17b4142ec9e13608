import Verif.Lemmas.Cformat
/-! # Lemmas about the table of colors, and about closed formats -/
namespace Verif.Cprint
open Verif
open Verif.Color (Setting)

/-! ## The table -/

theorem name_inj {f g : Field} (h : f.name = g.name) : f = g := by
  have := getEsc_name f
  rw [h, getEsc_name] at this
  injection this with this
  exact this.symm

theorem getEsc_some {k : Bytes} {f : Field} (h : getEsc k = some f) : k = f.name := by
  unfold getEsc at h
  have := List.find?_some h
  exact (of_decide_eq_true this).symm

theorem mem_all (f : Field) : f ∈ Field.all := by cases f <;> decide

theorem getEsc_none {k : Bytes} (h : getEsc k = none) (f : Field) : k ≠ f.name := by
  unfold getEsc at h
  rw [List.find?_eq_none] at h
  have := h f (mem_all f)
  intro hk
  exact this (decide_eq_true hk.symm)

theorem setEsc_eq (esc : Field → Option Bytes) (k : Bytes) (v : Option Bytes) (f : Field) :
    setEsc esc k v f = if k = f.name then v else esc f := by
  unfold setEsc
  cases h : getEsc k with
  | none => rw [if_neg (getEsc_none h f)]
  | some g =>
    dsimp only
    have := getEsc_some h
    by_cases hf : f = g
    · rw [if_pos hf, if_pos (by rw [this, hf])]
    · rw [if_neg hf, if_neg]
      intro hk
      exact hf (name_inj (by rw [← hk, this]))

theorem rev_ind {α : Type} {P : List α → Prop} (nil : P []) (snoc : ∀ l x, P l → P (l ++ [x])) (l : List α) : P l := by
  have : ∀ l : List α, P l.reverse := by
    intro l
    induction l with
    | nil => exact nil
    | cons x l ih =>
      rw [List.reverse_cons]
      exact snoc _ x ih
  have h := this l.reverse
  rwa [List.reverse_reverse] at h

theorem documented_eq (f : Field) : ascii (documented f).1 = f.name ∧ (documented f).2.map ascii = f.default := by
  cases f <;> exact ⟨by decide, by decide⟩

/-- One setting after others. -/
theorem valueOf_append (l : List Setting) (x : Setting) (f : Field) : valueOf (l ++ [x]) f =
    match x with
    | .esc k v => if k = f.name then v else valueOf l f
    | .ext _ _ => valueOf l f := by
  unfold valueOf
  rw [(documented_eq f).1, (documented_eq f).2, List.reverse_append]
  cases x with
  | ext k v => rfl
  | esc k v =>
    show (match List.findSome? _ (.esc k v :: l.reverse) with | some v => v | none => f.default) = _
    rw [List.findSome?_cons]
    by_cases h : k = f.name
    · simp [h]
    · simp only [h, if_false]
      rfl

theorem fold_eq (l : List Setting) (f : Field) : l.foldl applyEsc Field.default f = valueOf l f := by
  induction l using rev_ind generalizing f with
  | nil => exact (documented_eq f).2.symm
  | snoc l x ih =>
    rw [List.foldl_append, valueOf_append]
    show applyEsc (l.foldl applyEsc Field.default) x f = _
    cases x with
    | ext k v => exact ih f
    | esc k v =>
      show setEsc _ k v f = if k = f.name then v else valueOf l f
      rw [setEsc_eq, ih]

/-- `rs`, `lc`, `rc` and `ec` always have values. -/
theorem settingsLoop_keeps {n : Nat} {s : Bytes} {l : List Setting} (h : Color.settingsLoop n s = .ok l) :
    ∀ k, .esc k none ∈ l → k ≠ Field.rs.name ∧ k ≠ Field.lc.name ∧ k ≠ Field.rc.name ∧ k ≠ Field.ec.name := by
  have one : ∀ (s : Bytes) (x : Setting) (next : Option Bytes), Color.chunk s = .ok (some (x, next)) →
      ∀ k, x = .esc k none → k ≠ Field.rs.name ∧ k ≠ Field.lc.name ∧ k ≠ Field.rc.name ∧ k ≠ Field.ec.name := by
    intro s x next hs k hx
    subst hx
    unfold Color.chunk at hs
    split at hs
    · rename_i s
      cases h1 : Color.unescape (some s) 61 with
      | ok a =>
        rw [h1] at hs
        cases h2 : Color.unescape a.2 58 with
        | ok b =>
          have hs : ((Color.unescape a.2 58).bind fun v => Out.ok (some (Setting.ext a.1 v.1, v.2))) = _ := hs
          rw [h2] at hs
          cases hs
        | err e =>
          have hs : ((Color.unescape a.2 58).bind fun v => Out.ok (some (Setting.ext a.1 v.1, v.2))) = _ := hs
          rw [h2] at hs
          cases hs
        | ub =>
          have hs : ((Color.unescape a.2 58).bind fun v => Out.ok (some (Setting.ext a.1 v.1, v.2))) = _ := hs
          rw [h2] at hs
          cases hs
      | err e => rw [h1] at hs; cases hs
      | ub => rw [h1] at hs; cases hs
    · split at hs
      · dsimp only at hs
        revert hs
        generalize Color.unescape (some _) 58 = u
        intro hs
        cases u with
        | ok a =>
          have hs : Out.ok (some (Setting.esc (s.takeWhile (· ≠ 61)) (Color.escValue (s.takeWhile (· ≠ 61)) a.1), a.2)) = _ := hs
          injection hs with hs
          injection hs with hs
          injection hs with hs _
          injection hs with hk hv
          rw [← hk]
          unfold Color.escValue at hv
          split at hv
          · rename_i hh
            exact hh.2
          · cases hv
        | err e => cases hs
        | ub => cases hs
      · cases hs
  induction n generalizing s l with
  | zero => cases h
  | succ n ih =>
    unfold Color.settingsLoop at h
    cases hc : Color.chunk s with
    | err e => rw [hc] at h; cases h
    | ub => rw [hc] at h; cases h
    | ok r =>
      rw [hc] at h
      match r, hc, h with
      | none, _, h => cases h; intro k hk; cases hk
      | some (x, none), hc, h =>
        cases h
        intro k hk
        exact one s x none hc k (List.mem_singleton.1 hk).symm
      | some (x, some s'), hc, h =>
        have h : ((Color.settingsLoop n s').bind fun l => Out.ok (x :: l)) = .ok l := h
        cases h2 : Color.settingsLoop n s' with
        | err e => rw [h2] at h; cases h
        | ub => rw [h2] at h; cases h
        | ok l' =>
          rw [h2] at h
          cases h
          intro k hk
          rcases List.mem_cons.1 hk with hk | hk
          · exact one s x (some s') hc k hk.symm
          · exact ih h2 k hk

theorem settingsOf_ok {v : Option Bytes} {l : List Setting} (h : Denotes v l) : settingsOf v = .ok l := by
  cases v with
  | none => rw [show l = [] from h]; rfl
  | some s => exact (Props.C40_settings s l).2 h

theorem denotes_keeps {v : Option Bytes} {l : List Setting} (h : Denotes v l) :
    ∀ k, .esc k none ∈ l → k ≠ Field.rs.name ∧ k ≠ Field.lc.name ∧ k ≠ Field.rc.name ∧ k ≠ Field.ec.name := by
  cases v with
  | none => rw [show l = [] from h]; intro k hk; cases hk
  | some s => exact settingsLoop_keeps ((Props.C40_settings s l).2 h)

theorem valueOf_some {l : List Setting} {f : Field} (h : f.default.isSome = true)
    (hk : .esc f.name none ∉ l) : (valueOf l f).isSome = true := by
  induction l using rev_ind with
  | nil => rw [← (documented_eq f).2] at h; exact h
  | snoc l x ih =>
    rw [valueOf_append]
    have ih := ih fun hh => hk (List.mem_append_left _ hh)
    cases x with
    | ext k v => exact ih
    | esc k v =>
      show (if k = f.name then v else valueOf l f).isSome = true
      by_cases hf : k = f.name
      · rw [if_pos hf]
        cases v with
        | some v => rfl
        | none => exact absurd (by rw [hf]; simp) hk
      · rw [if_neg hf]
        exact ih

theorem exts_good {K : Nat} {entries : List (Bytes × Bytes)} {c : Color.Colors} (h : Color.build K entries = .ok c) (name : Bytes) :
    ∃ e, Color.getExtIndex c name = .ok e ∧ (∀ i, e = some i → (c.exts[i]?).isSome = true) ∧
      Color.getExt c name = .ok (e.bind fun i => (c.exts[i]?).map (·.esc)) := by
  obtain ⟨c', r, h1, h2, _⟩ := Props.C41_color K entries name
  rw [h] at h1
  cases h1
  have h3 := h2
  unfold Color.getExt at h2
  cases he : Color.getExtIndex c name with
  | err e => rw [he] at h2; cases h2
  | ub => rw [he] at h2; cases h2
  | ok e =>
    rw [he] at h2
    cases e with
    | none => exact ⟨none, rfl, fun i hi => (by cases hi), by rw [h3]; cases h2; rfl⟩
    | some i =>
      have h2 : (match c.exts[i]? with | some e => Out.ok (some e.esc) | none => .ub) = .ok r := h2
      cases hi : c.exts[i]? with
      | none => rw [hi] at h2; cases h2
      | some x =>
        rw [hi] at h2
        refine ⟨some i, rfl, fun j hj => ?_, ?_⟩
        · cases hj; rw [hi]; rfl
        · rw [h3]
          cases h2
          show _ = Out.ok ((c.exts[i]?).map (·.esc))
          rw [hi]
          rfl

/-! ## Closed formats -/

theorem pieces_on {c on : Bool} {ops : List Op} (h : (pieces c on ops).2 = true) :
    (on = true ∧ (c = true → Op.rs ∉ ops)) ∨ ∃ a p b, ops = a ++ .esc (some p) :: b ∧ Op.rs ∉ b := by
  induction ops generalizing on with
  | nil => exact .inl ⟨h, fun _ hh => (by cases hh)⟩
  | cons o ops ih =>
    have lift : ∀ {on}, (pieces c on ops).2 = true → (on = true ∧ o ≠ .rs ∧ (c = true → Op.rs ∉ o :: ops)) ∨
        (on = true ∧ (c = true → Op.rs ∉ ops)) ∨
        ∃ a p b, o :: ops = a ++ .esc (some p) :: b ∧ Op.rs ∉ b := by
      intro on h
      rcases ih h with ⟨h1, h2⟩ | ⟨a, p, b, h1, h2⟩
      · by_cases ho : o = .rs
        · exact .inr (.inl ⟨h1, h2⟩)
        · left
          refine ⟨h1, ho, fun hc hm => ?_⟩
          rcases List.mem_cons.1 hm with hm | hm
          · exact ho hm.symm
          · exact h2 hc hm
      · exact .inr (.inr ⟨o :: a, p, b, by rw [h1]; rfl, h2⟩)
    cases o with
    | txt s =>
      have h : (pieces c on ops).2 = true := h
      rcases lift h with ⟨h1, _, h2⟩ | ⟨h1, h2⟩ | h2
      · exact .inl ⟨h1, h2⟩
      · exact .inl ⟨h1, fun hc hm => h2 hc (by simpa using hm)⟩
      · exact .inr h2
    | esc p =>
      cases p with
      | none =>
        have h : (pieces c on ops).2 = true := h
        rcases lift h with ⟨h1, _, h2⟩ | ⟨h1, h2⟩ | h2
        · exact .inl ⟨h1, h2⟩
        · exact .inl ⟨h1, fun hc hm => h2 hc (by simpa using hm)⟩
        · exact .inr h2
      | some p =>
        rw [pieces] at h
        cases c with
        | false =>
          have h : (pieces false on ops).2 = true := h
          rcases ih h with ⟨h1, _⟩ | ⟨a, q, b, h1, h2⟩
          · exact .inl ⟨h1, fun hc => (by cases hc)⟩
          · exact .inr ⟨.esc (some p) :: a, q, b, by rw [h1]; rfl, h2⟩
        | true =>
          have h : (pieces true true ops).2 = true := h
          rcases ih h with ⟨_, h2⟩ | ⟨a, q, b, h1, h2⟩
          · exact .inr ⟨[], p, ops, rfl, h2 rfl⟩
          · exact .inr ⟨.esc (some p) :: a, q, b, by rw [h1]; rfl, h2⟩
    | rs =>
      rw [pieces] at h
      by_cases hco : (c && on) = true
      · rw [if_pos hco] at h
        have h : (pieces c false ops).2 = true := h
        rcases ih h with ⟨h1, _⟩ | ⟨a, q, b, h1, h2⟩
        · cases h1
        · exact .inr ⟨.rs :: a, q, b, by rw [h1]; rfl, h2⟩
      · rw [if_neg hco] at h
        rcases ih h with ⟨h1, _⟩ | ⟨a, q, b, h1, h2⟩
        · refine .inl ⟨h1, fun hc => ?_⟩
          rw [hc, h1] at hco
          exact absurd rfl hco
        · exact .inr ⟨.rs :: a, q, b, by rw [h1]; rfl, h2⟩

/-- Every color is ended. -/
def Ended (ops : List Op) : Prop := ∀ a p b, ops = a ++ .esc p :: b → Op.rs ∈ b

theorem ended_nil : Ended [] := by
  intro a p b h
  cases a <;> cases h

theorem ended_append {a b : List Op} (ha : Ended a) (hb : Ended b) : Ended (a ++ b) := by
  intro x p y h
  rcases List.append_eq_append_iff.1 h with ⟨z, h1, h2⟩ | ⟨z, h1, h2⟩
  · exact hb z p y h2
  · cases z with
    | nil => exact hb [] p y h2.symm
    | cons o z =>
      rw [List.cons_append] at h2
      injection h2 with h2 h3
      rw [h3]
      exact List.mem_append_left _ (ha x p z (by rw [h1, h2]))

theorem ended_txt (s : Bytes) : Ended [.txt s] := by
  intro a p b h
  cases a with
  | nil => cases h
  | cons x a => cases a <;> cases h

theorem ended_rs : Ended [.rs] := by
  intro a p b h
  cases a with
  | nil => cases h
  | cons x a => cases a <;> cases h

theorem ended_esc {ops : List Op} (p : Option Ptr) (h : Ended ops) (hr : Op.rs ∈ ops) : Ended (.esc p :: ops) := by
  intro a q b he
  cases a with
  | nil => cases he; exact hr
  | cons x a =>
    injection he with _ he
    exact h a q b he

theorem ended_colored (p : Option Ptr) (s : Bytes) : Ended [.esc p, .txt s, .rs] :=
  ended_esc p (ended_append (ended_txt s) ended_rs) (by simp)

theorem ended_coloredText (L : Quote.Locale) (p : Option Ptr) (s : Bytes) : Ended (coloredText L p s) := by
  unfold coloredText
  split
  · exact ended_nil
  · exact ended_colored _ _

theorem ended_path (L : Quote.Locale) (t : Table) (path : Bytes) (s : Split) : Ended (pathOps L t path s) :=
  ended_append (ended_append (ended_coloredText _ _ _) (ended_coloredText _ _ _)) (ended_coloredText _ _ _)

theorem ended_name (L : Quote.Locale) (t : Option Table) (f : Ftw) : Ended (nameMeaning L t f) := by
  cases t with
  | none => exact ended_txt _
  | some t => exact ended_coloredText _ _ _

theorem ended_pathM (L : Quote.Locale) (t : Option Table) (f : Ftw) : Ended (pathMeaning L t f) := by
  cases t with
  | none => exact ended_txt _
  | some t => exact ended_path _ _ _ _

theorem ended_link (L : Quote.Locale) (t : Option Table) (f : Ftw) : Ended (linkMeaning L t f) := by
  cases t with
  | none => exact ended_txt _
  | some t => exact ended_path _ _ _ _

theorem ended_exName (L : Quote.Locale) (t : Option Table) (e : Ex) : Ended (exName L t e) := by
  obtain ⟨kind, argv, stats, children⟩ := e
  exact ended_colored _ _

theorem ended_flatMap {α : Type} {f : α → List Op} {l : List α} (h : ∀ a ∈ l, Ended (f a)) : Ended (l.flatMap f) := by
  induction l with
  | nil => exact ended_nil
  | cons a l ih =>
    rw [List.flatMap_cons]
    exact ended_append (h a List.mem_cons_self) (ih fun x hx => h x (List.mem_cons_of_mem _ hx))

theorem ended_exArgs (L : Quote.Locale) (t : Option Table) (e : Ex) : Ended (exArgs L t e) := by
  obtain ⟨kind, argv, stats, children⟩ := e
  exact ended_append (ended_exName _ _ _) (ended_flatMap fun a _ => ended_append (ended_txt [32]) (ended_colored _ _))

theorem ended_rates (t : Option Table) (l : List Bytes) : Ended (exRates t l) := by
  unfold exRates
  split
  · refine ended_append (ended_append (ended_append (ended_append (ended_append (ended_append (ended_append (ended_append ?_ ?_) ?_) ?_) ?_) ?_) ?_) ?_) ?_
    all_goals first | exact ended_txt _ | exact ended_colored _ _
  · exact ended_nil

theorem ended_children {pr : Ex → List Op} {l : List Ex} (h : ∀ e, Ended (pr e)) : Ended (exChildren pr l) := by
  unfold exChildren
  split
  · exact ended_nil
  · exact ended_append (a := [.txt [32]]) (ended_txt [32]) (h _)
  · exact ended_append (a := .txt [32] :: pr _) (ended_append (a := [.txt [32]]) (ended_txt [32]) (h _))
      (ended_append (a := [.txt [32]]) (ended_txt [32]) (h _))
  · exact ended_append (ended_append (a := .txt [32] :: pr _) (ended_append (a := [.txt [32]]) (ended_txt [32]) (h _))
      (ended_append (a := [.txt [32]]) (ended_txt [32]) (h _))) (ended_txt _)

theorem ended_tree (L : Quote.Locale) (t : Option Table) (verbose : Bool) (n : Nat) (e : Ex) : Ended (exTree L t verbose n e) := by
  induction n generalizing e with
  | zero => exact ended_txt _
  | succ n ih =>
    obtain ⟨kind, argv, stats, children⟩ := e
    unfold exTree
    refine ended_append (ended_append (ended_append (ended_append (ended_txt _) (ended_exArgs _ _ _)) ?_) (ended_children ih)) (ended_txt _)
    split
    · exact ended_rates _ _
    · exact ended_nil

theorem ended_exMeaning (L : Quote.Locale) (t : Option Table) (verbose : Bool) (e : Option Ex) : Ended (exMeaning L t verbose e) := by
  cases e with
  | none => exact ended_txt _
  | some e => exact ended_tree _ _ _ _ _

/-- A directive that is not a color has an ended meaning. -/
theorem meaning_split {L : Quote.Locale} {t : Option Table} {d : Dir} {ds : List Dir} {as : List Arg} {ops : List Op}
    (hm : meaning L t (d :: ds) as = some ops) : ∃ o ops' as', ops = o ++ ops' ∧ meaning L t ds as' = some ops' ∧
      ((∃ f, d = .color f ∧ o = [.esc (named t f)]) ∨ Ended o) ∧ (d = .reset → o = [.rs]) := by
  have key : ∀ {o : List Op} {as' : List Arg}, (meaning L t ds as').map (o ++ ·) = some ops →
      ((∃ f, d = .color f ∧ o = [.esc (named t f)]) ∨ Ended o) → (d = .reset → o = [.rs]) →
      ∃ o ops' as', ops = o ++ ops' ∧ meaning L t ds as' = some ops' ∧
      ((∃ f, d = .color f ∧ o = [.esc (named t f)]) ∨ Ended o) ∧ (d = .reset → o = [.rs]) := by
    intro o as' h h1 h2
    rw [Option.map_eq_some_iff] at h
    obtain ⟨ops', h3, h4⟩ := h
    exact ⟨o, ops', as', h4.symm, h3, h1, h2⟩
  cases d with
  | lit s => exact key hm (.inr (ended_txt _)) (fun h => (by cases h))
  | percent => exact key hm (.inr (ended_txt _)) (fun h => (by cases h))
  | dollar => exact key hm (.inr (ended_txt _)) (fun h => (by cases h))
  | color f => exact key hm (.inl ⟨f, rfl, rfl⟩) (fun h => (by cases h))
  | reset => exact key hm (.inr ended_rs) (fun _ => rfl)
  | _ =>
    cases as with
    | nil => cases hm
    | cons a as =>
      cases a <;> first
        | (cases hm; done)
        | exact key hm (.inr (ended_txt _)) (fun h => (by cases h))
        | exact key hm (.inr (ended_name _ _ _)) (fun h => (by cases h))
        | exact key hm (.inr (ended_pathM _ _ _)) (fun h => (by cases h))
        | exact key hm (.inr (ended_link _ _ _)) (fun h => (by cases h))
        | exact key hm (.inr (ended_exMeaning _ _ _ _)) (fun h => (by cases h))
        | (rename_i e
           cases e <;> first
             | (cases hm; done)
             | exact key hm (.inr (ended_exName _ _ _)) (fun h => (by cases h))
             | exact key hm (.inr (ended_exArgs _ _ _)) (fun h => (by cases h)))

theorem rs_mem_meaning {L : Quote.Locale} {t : Option Table} : ∀ {ds : List Dir} {as : List Arg} {ops : List Op},
    meaning L t ds as = some ops → Dir.reset ∈ ds → Op.rs ∈ ops := by
  intro ds
  induction ds with
  | nil => intro as ops _ h; cases h
  | cons d ds ih =>
    intro as ops hm h
    obtain ⟨o, ops', as', rfl, h1, h2, h3⟩ := meaning_split hm
    rcases List.mem_cons.1 h with h | h
    · rw [h3 h.symm]
      simp
    · exact List.mem_append_right _ (ih h1 h)

theorem ended_meaning {L : Quote.Locale} {t : Option Table} : ∀ {ds : List Dir} {as : List Arg} {ops : List Op},
    meaning L t ds as = some ops → Closed ds → Ended ops := by
  intro ds
  induction ds with
  | nil => intro as ops hm _; cases hm; exact ended_nil
  | cons d ds ih =>
    intro as ops hm hc
    obtain ⟨o, ops', as', rfl, h1, h2, h3⟩ := meaning_split hm
    have ih := ih h1 fun a f b h => hc (d :: a) f b (by rw [h]; rfl)
    rcases h2 with ⟨f, rfl, rfl⟩ | h2
    · exact ended_esc _ ih (rs_mem_meaning h1 (hc [] f ds rfl))
    · exact ended_append h2 ih

/-- Colors that are ended are not left on. -/
theorem ended_off {c : Bool} {ops : List Op} (h : Ended ops) : (pieces c false ops).2 = false := by
  cases hp : (pieces c false ops).2 with
  | false => rfl
  | true =>
    exfalso
    rcases pieces_on hp with ⟨h1, _⟩ | ⟨a, p, b, h1, h2⟩
    · cases h1
    · exact h2 (h a (some p) b h1)

/-- If no color is left on, every color is followed by a reset. -/
theorem reset_after {c : Bool} : ∀ {ops : List Op} {on : Bool}, (pieces c on ops).2 = false →
    (on = true → c = true → Piece.reset ∈ (pieces c on ops).1) ∧
      ∀ a p b, (pieces c on ops).1 = a ++ .color p :: b → Piece.reset ∈ b := by
  intro ops
  induction ops with
  | nil =>
    intro on h
    have h : on = false := h
    refine ⟨fun h1 => absurd h1 (by rw [h]; simp), fun a p b h => ?_⟩
    cases a <;> cases h
  | cons o ops ih =>
    intro on h
    cases o with
    | txt s =>
      have h : (pieces c on ops).2 = false := h
      obtain ⟨h1, h2⟩ := ih h
      refine ⟨fun a b => List.mem_cons_of_mem _ (h1 a b), fun a p b he => ?_⟩
      have he : Piece.text s :: (pieces c on ops).1 = _ := he
      cases a with
      | nil => cases he
      | cons x a =>
        injection he with _ he
        exact h2 a p b he
    | esc q =>
      cases q with
      | none => exact ih h
      | some q =>
        rw [pieces] at h ⊢
        cases c with
        | false => exact ih h
        | true =>
          have h : (pieces true true ops).2 = false := h
          obtain ⟨h1, h2⟩ := ih h
          refine ⟨fun a b => List.mem_cons_of_mem _ (h1 rfl rfl), fun a p b he => ?_⟩
          have he : Piece.color q :: (pieces true true ops).1 = _ := he
          cases a with
          | nil =>
            injection he with _ he
            rw [← he]
            exact h1 rfl rfl
          | cons x a =>
            injection he with _ he
            exact h2 a p b he
    | rs =>
      rw [pieces] at h ⊢
      by_cases hco : (c && on) = true
      · rw [if_pos hco] at h ⊢
        have h : (pieces c false ops).2 = false := h
        obtain ⟨h1, h2⟩ := ih h
        refine ⟨fun _ _ => List.mem_cons_self, fun a p b he => ?_⟩
        have he : Piece.reset :: (pieces c false ops).1 = _ := he
        cases a with
        | nil => cases he
        | cons x a =>
          injection he with _ he
          exact h2 a p b he
      · rw [if_neg hco] at h ⊢
        exact ih h

end Verif.Cprint
