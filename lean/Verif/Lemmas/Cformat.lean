import Verif.Lemmas.Cpath
/-! # Lemmas about formats -/
namespace Verif.Cprint
open Verif

theorem getEsc_name (f : Field) : getEsc f.name = some f := by cases f <;> decide

theorem name_no_brace (f : Field) : ∀ x ∈ f.name, x ≠ 125 := by cases f <;> decide

theorem name_short (f : Field) : ¬ f.name.length ≥ 4 := by cases f <;> decide

theorem name_ne_rs {f : Field} (h : f ≠ .rs) : f.name ≠ Field.rs.name := by
  cases f <;> first | exact absurd rfl h | decide

/-! ## The same output -/

/-- The same output. -/
def Same (t : Option Table) (a b : List Op) : Prop :=
  ∀ on, outBytes t on a = outBytes t on b ∧ outOn t on a = outOn t on b

theorem Same.refl (t : Option Table) (a : List Op) : Same t a a := fun _ => ⟨rfl, rfl⟩

theorem Same.symm {t : Option Table} {a b : List Op} (h : Same t a b) : Same t b a :=
  fun on => ⟨(h on).1.symm, (h on).2.symm⟩

theorem Same.trans {t : Option Table} {a b c : List Op} (h : Same t a b) (h' : Same t b c) : Same t a c :=
  fun on => ⟨(h on).1.trans (h' on).1, (h on).2.trans (h' on).2⟩

theorem Same.append {t : Option Table} {a b c d : List Op} (h : Same t a b) (h' : Same t c d) : Same t (a ++ c) (b ++ d) := by
  intro on
  rw [outBytes_append, outBytes_append, outOn_append, outOn_append, (h on).1, (h on).2]
  exact ⟨by rw [(h' _).1], (h' _).2⟩

theorem Same.cons {t : Option Table} (o : Op) {a b : List Op} (h : Same t a b) : Same t (o :: a) (o :: b) :=
  Same.append (Same.refl t [o]) h

theorem same_empty (t : Option Table) (a : List Op) : Same t (.txt [] :: a) a :=
  fun on => ⟨by rw [outBytes_txt]; rfl, outOn_txt _ _ _ _⟩

theorem same_merge (t : Option Table) (x y : Bytes) (a : List Op) : Same t (.txt x :: .txt y :: a) (.txt (x ++ y) :: a) :=
  fun on => ⟨by simp [outBytes_txt], by simp [outOn_txt]⟩

theorem Prints.same {t : Option Table} {f : Prop} {b : Buf} {r : R} {a c : List Op} (h : Prints t f b r a)
    (hs : Same t a c) : Prints t f b r c := h.congr id hs

/-! ## One directive -/

/-- What the directives for expressions print. -/
def exprOps (L : Quote.Locale) (t : Option Table) : ExprDir → Option Ex → Option (List Op)
  | .e, e => some (exMeaning L t false e)
  | .E, e => some (exMeaning L t true e)
  | .x, some e => some (exArgs L t e)
  | .X, some e => some (exName L t e)
  | _, none => none

/-- A directive is done as it should be. -/
def Done (L : Quote.Locale) (t : Option Table) (pe : ExprDir → Buf → Option Ex → R) (d : Dir) (ds : List Dir)
    (as : List Arg) (ops : List Op) : Prop :=
  ∃ o ops' as', ops = o ++ ops' ∧ meaning L t ds as' = some ops' ∧ (∀ a ∈ as', a ∈ as) ∧
    ((∃ tail, d.text = 37 :: tail ∧ ∀ b rest, ∃ x, percent L t pe b (tail ++ rest) as = .go x rest as' ∧
        Prints t (d = .L → ∀ a ∈ as, a.Readable) b x o) ∨
     (∃ tail, d.text = 36 :: tail ∧ ∀ b rest, ∃ x, dollar t b (tail ++ rest) as = .go x rest as' ∧
        Prints t (d = .L → ∀ a ∈ as, a.Readable) b x o))

theorem done_percent {L : Quote.Locale} {t : Option Table} {pe : ExprDir → Buf → Option Ex → R} {d : Dir} {ds : List Dir}
    {as as' : List Arg} {ops o : List Op} {tail : Bytes} {x : Buf → R}
    (hm : (meaning L t ds as').map (o ++ ·) = some ops) (has : ∀ a ∈ as', a ∈ as) (ht : d.text = 37 :: tail)
    (hx : ∀ b rest, percent L t pe b (tail ++ rest) as = .go (x b) rest as')
    (hp : ∀ b, Prints t (d = .L → ∀ a ∈ as, a.Readable) b (x b) o) : Done L t pe d ds as ops := by
  rw [Option.map_eq_some_iff] at hm
  obtain ⟨ops', h1, h2⟩ := hm
  exact ⟨o, ops', as', h2.symm, h1, has, .inl ⟨tail, ht, fun b rest => ⟨x b, hx b rest, hp b⟩⟩⟩

theorem done_dollar {L : Quote.Locale} {t : Option Table} {pe : ExprDir → Buf → Option Ex → R} {d : Dir} {ds : List Dir}
    {as : List Arg} {ops o : List Op} {tail : Bytes} {x : Buf → R}
    (hm : (meaning L t ds as).map (o ++ ·) = some ops) (ht : d.text = 36 :: tail)
    (hx : ∀ b rest, dollar t b (tail ++ rest) as = .go (x b) rest as)
    (hp : ∀ b, Prints t (d = .L → ∀ a ∈ as, a.Readable) b (x b) o) : Done L t pe d ds as ops := by
  rw [Option.map_eq_some_iff] at hm
  obtain ⟨ops', h1, h2⟩ := hm
  exact ⟨o, ops', as, h2.symm, h1, fun _ h => h, .inr ⟨tail, ht, fun b rest => ⟨x b, hx b rest, hp b⟩⟩⟩

theorem takeWhile_brace {name : Bytes} (h : ∀ x ∈ name, x ≠ 125) (rest : Bytes) :
    (name ++ 125 :: rest).takeWhile (· ≠ 125) = name := by
  induction name with
  | nil => rfl
  | cons a l ih =>
    have ha := h a List.mem_cons_self
    rw [List.cons_append, List.takeWhile_cons_of_pos (by simpa using ha),
      ih fun x hx => h x (List.mem_cons_of_mem _ hx)]

theorem dollar_123 (t : Option Table) (b : Buf) (r : Bytes) (as : List Arg) : dollar t b (123 :: r) as =
    if 125 ∈ r then
      match t with
      | none => .go (.ok (b, true)) (r.drop ((r.takeWhile (· ≠ 125)).length + 1)) as
      | some t => colorSpec t b (r.takeWhile (· ≠ 125)) (r.drop ((r.takeWhile (· ≠ 125)).length + 1)) as
    else .invalid := by
  cases t <;> rfl

theorem dollar_brace (t : Option Table) (b : Buf) (f : Field) (rest : Bytes) (as : List Arg) :
    dollar t b (123 :: f.name ++ [125] ++ rest) as =
      match t with
      | none => .go (.ok (b, true)) rest as
      | some t => colorSpec t b f.name rest as := by
  have e : 123 :: f.name ++ [125] ++ rest = 123 :: (f.name ++ 125 :: rest) := by simp
  rw [e, dollar_123]
  rw [if_pos (by simp), takeWhile_brace (name_no_brace f)]
  have e2 : (f.name ++ 125 :: rest).drop (f.name.length + 1) = rest := by
    rw [List.drop_append, List.drop_eq_nil_of_le (by omega)]
    simp
  rw [e2]

theorem dir_done {L : Quote.Locale} {t : Option Table} (hg : ∀ x, t = some x → x.Good)
    {pe : ExprDir → Buf → Option Ex → R} {d : Dir} {ds : List Dir} {as : List Arg} {ops : List Op}
    (hd : d.Ok) (hlit : ∀ s, d ≠ .lit s) (has : ∀ a ∈ as, a.Ok)
    (hpe : ∀ k e o, Arg.expr e ∈ as → exprOps L t k e = some o → ∀ b, Prints t True b (pe k b e) o)
    (hm : meaning L t (d :: ds) as = some ops) : Done L t pe d ds as ops := by
  have tl : ∀ {a : Arg} {as : List Arg}, ∀ x ∈ as, x ∈ a :: as := fun x hx => List.mem_cons_of_mem _ hx
  have tr : ∀ {b r o} {p : Prop}, Prints t True b r o → Prints t p b r o := fun h => h.weaken fun _ => trivial
  cases d with
  | lit s => exact absurd rfl (hlit s)
  | percent => exact done_percent hm (fun _ h => h) rfl (fun _ _ => rfl) fun b => tr (prints_append t b _)
  | dollar => exact done_dollar hm rfl (fun _ _ => rfl) fun b => tr (prints_append t b _)
  | c =>
    cases as with
    | nil => cases hm
    | cons a as =>
      cases a <;> first | cases hm; done | skip
      exact done_percent hm tl rfl (fun _ _ => rfl) fun b => tr (prints_append t b _)
  | d =>
    cases as with
    | nil => cases hm
    | cons a as =>
      cases a <;> first | cases hm; done | skip
      exact done_percent hm tl rfl (fun _ _ => rfl) fun b => tr (prints_append t b _)
  | g =>
    cases as with
    | nil => cases hm
    | cons a as =>
      cases a <;> first | cases hm; done | skip
      exact done_percent hm tl rfl (fun _ _ => rfl) fun b => tr (prints_append t b _)
  | str =>
    cases as with
    | nil => cases hm
    | cons a as =>
      cases a <;> first | cases hm; done | skip
      exact done_percent hm tl rfl (fun _ _ => rfl) fun b => tr (prints_append t b _)
  | zu =>
    cases as with
    | nil => cases hm
    | cons a as =>
      cases a <;> first | cases hm; done | skip
      exact done_percent hm tl rfl (fun _ _ => rfl) fun b => tr (prints_append t b _)
  | q =>
    cases as with
    | nil => cases hm
    | cons a as =>
      cases a <;> first | cases hm; done | skip
      exact done_percent hm tl rfl (fun _ _ => rfl) fun b => tr (prints_wordesc t L b _ true)
  | Q =>
    cases as with
    | nil => cases hm
    | cons a as =>
      cases a <;> first | cases hm; done | skip
      exact done_percent hm tl rfl (fun _ _ => rfl) fun b => tr (prints_wordesc t L b _ false)
  | F =>
    cases as with
    | nil => cases hm
    | cons a as =>
      cases a <;> first | cases hm; done | skip
      exact done_percent hm tl rfl (fun _ _ => rfl) fun b => tr (prints_name L hg b _)
  | P =>
    cases as with
    | nil => cases hm
    | cons a as =>
      cases a <;> first | cases hm; done | skip
      have hf := has _ List.mem_cons_self
      exact done_percent hm tl rfl (fun _ _ => rfl) fun b => tr (prints_path L hg b hf)
  | L =>
    cases as with
    | nil => cases hm
    | cons a as =>
      cases a <;> first | cases hm; done | skip
      have hf := has _ List.mem_cons_self
      exact done_percent hm tl rfl (fun _ _ => rfl) fun b =>
        (prints_link L hg b hf).weaken fun h => h rfl _ List.mem_cons_self
  | e =>
    cases as with
    | nil => cases hm
    | cons a as =>
      cases a <;> first | cases hm; done | skip
      exact done_percent hm tl rfl (fun _ _ => rfl) fun b => tr (hpe .e _ _ List.mem_cons_self rfl b)
  | E =>
    cases as with
    | nil => cases hm
    | cons a as =>
      cases a <;> first | cases hm; done | skip
      exact done_percent hm tl rfl (fun _ _ => rfl) fun b => tr (hpe .E _ _ List.mem_cons_self rfl b)
  | x =>
    cases as with
    | nil => cases hm
    | cons a as =>
      cases a <;> first | cases hm; done | skip
      rename_i e
      cases e with
      | none => cases hm
      | some e => exact done_percent hm tl rfl (fun _ _ => rfl) fun b => tr (hpe .x _ _ List.mem_cons_self rfl b)
  | X =>
    cases as with
    | nil => cases hm
    | cons a as =>
      cases a <;> first | cases hm; done | skip
      rename_i e
      cases e with
      | none => cases hm
      | some e => exact done_percent hm tl rfl (fun _ _ => rfl) fun b => tr (hpe .X _ _ List.mem_cons_self rfl b)
  | color f =>
    cases t with
    | none =>
      refine done_dollar hm rfl (tail := 123 :: f.name ++ [125]) (fun b rest => dollar_brace none b f rest as) fun b => ?_
      exact (prints_nil none _ b).same fun on => ⟨rfl, rfl⟩
    | some t =>
      have hr : f ≠ .rs := hd
      refine done_dollar hm rfl (tail := 123 :: f.name ++ [125]) (x := fun b => printEsc t b (t.ptr f)) (fun b rest => ?_) fun b => ?_
      · rw [dollar_brace]
        dsimp only
        unfold colorSpec
        rw [if_neg (name_short f), if_neg (name_ne_rs hr), getEsc_name]
      · rw [ptr_eq]
        exact tr (prints_esc (hg t rfl) (printable_first (by simpa using hr)) b)
  | reset =>
    cases t with
    | none =>
      refine done_dollar hm rfl (tail := 123 :: Field.rs.name ++ [125]) (fun b rest => dollar_brace none b .rs rest as) fun b => ?_
      exact (prints_nil none _ b).same fun on => ⟨rfl, rfl⟩
    | some t =>
      refine done_dollar hm rfl (tail := 123 :: Field.rs.name ++ [125]) (x := fun b => printReset t b) (fun b rest => ?_) fun b => ?_
      · rw [dollar_brace]
        rfl
      · exact tr (prints_reset (hg t rfl) b)

/-! ## All of the format -/

theorem takeWhile_all {P : UInt8 → Bool} {a : Bytes} (h : ∀ x ∈ a, P x = true) : a.takeWhile P = a := by
  induction a with
  | nil => rfl
  | cons x a ih =>
    rw [List.takeWhile_cons_of_pos (h x List.mem_cons_self), ih fun y hy => h y (List.mem_cons_of_mem _ hy)]

theorem takeWhile_stop {P : UInt8 → Bool} {a : Bytes} {y : UInt8} (r : Bytes) (h : ∀ x ∈ a, P x = true) (hy : P y = false) :
    (a ++ y :: r).takeWhile P = a := by
  induction a with
  | nil => rw [List.nil_append, List.takeWhile_cons_of_neg (by simp [hy])]
  | cons x a ih =>
    rw [List.cons_append, List.takeWhile_cons_of_pos (h x List.mem_cons_self), ih fun y hy => h y (List.mem_cons_of_mem _ hy)]

theorem loop_prints {L : Quote.Locale} {t : Option Table} (hg : ∀ x, t = some x → x.Good)
    {pe : ExprDir → Buf → Option Ex → R} : ∀ (ds : List Dir) (n : Nat) (b : Buf) (pre : Bytes) (as : List Arg) (ops : List Op),
    (∀ x ∈ pre, x ≠ 37 ∧ x ≠ 36) → (∀ d ∈ ds, d.Ok) → (∀ a ∈ as, a.Ok) →
    (∀ k e o, Arg.expr e ∈ as → exprOps L t k e = some o → ∀ b, Prints t True b (pe k b e) o) →
    meaning L t ds as = some ops → (pre ++ render ds).length ≤ n →
    Prints t (Dir.L ∈ ds → ∀ a ∈ as, a.Readable) b (cvbuffLoop L t pe n b (pre ++ render ds) as) (.txt pre :: ops) := by
  intro ds
  induction ds with
  | nil =>
    intro n b pre as ops hpre _ _ _ hm hn
    cases hm
    have e : pre ++ render [] = pre := by simp [render]
    rw [e] at hn ⊢
    cases pre with
    | nil =>
      have e2 : cvbuffLoop L t pe n b [] as = .ok (b, true) := by cases n <;> rfl
      rw [e2]
      exact (prints_nil t _ b).same (same_empty t []).symm
    | cons c pre =>
      cases n with
      | zero => cases hn
      | succ n =>
        unfold cvbuffLoop
        dsimp only
        rw [takeWhile_all fun x hx => by simpa using hpre x hx, List.drop_length]
        exact ((prints_append t b (c :: pre)).then fun b => prints_nil t True b).weaken fun _ => ⟨trivial, trivial⟩
  | cons d ds ih =>
    intro n b pre as ops hpre hok has hpe hm hn
    have hok' : ∀ d ∈ ds, d.Ok := fun x hx => hok x (List.mem_cons_of_mem _ hx)
    have hr : render (d :: ds) = d.text ++ render ds := by simp [render]
    rw [hr] at hn ⊢
    by_cases hlit : ∃ s, d = .lit s
    · obtain ⟨s, rfl⟩ := hlit
      have hs : 37 ∉ s ∧ 36 ∉ s := hok _ List.mem_cons_self
      have hm : (meaning L t ds as).map ([.txt s] ++ ·) = some ops := hm
      rw [Option.map_eq_some_iff] at hm
      obtain ⟨ops', h1, rfl⟩ := hm
      have := ih n b (pre ++ s) as ops' (by
        intro x hx
        rcases List.mem_append.1 hx with hx | hx
        · exact hpre x hx
        · exact ⟨fun h => hs.1 (h ▸ hx), fun h => hs.2 (h ▸ hx)⟩) hok' has hpe h1
        (by rw [List.append_assoc]; exact hn)
      rw [List.append_assoc] at this
      exact (this.same (same_merge t pre s ops').symm).weaken fun h h1 => h (List.mem_cons_of_mem _ h1)
    · obtain ⟨o, ops', as', rfl, h1, h2, h3⟩ := dir_done hg (hok d List.mem_cons_self) (fun s h => hlit ⟨s, h⟩) has hpe hm
      have ih := fun n b h => ih n b [] as' ops' (by simp) hok' (fun a ha => has a (h2 a ha))
        (fun k e o he => hpe k e o (h2 _ he)) h1 h
      simp only [List.nil_append] at ih
      have fin : ∀ {c : UInt8} {tail : Bytes} (hc : c = 37 ∨ c = 36) (ht : d.text = c :: tail), ∃ m, n = m + 1 ∧
          (render ds).length ≤ m ∧ ∃ c' fmt, pre ++ (d.text ++ render ds) = c' :: fmt ∧
          ((c' :: fmt).takeWhile fun c => decide (c ≠ 37 ∧ c ≠ 36)) = pre ∧
          (c' :: fmt).drop pre.length = c :: (tail ++ render ds) := by
        intro c tail hc ht
        rw [ht] at hn ⊢
        cases n with
        | zero =>
          simp at hn
        | succ m =>
          refine ⟨m, rfl, ?_, ?_⟩
          · simp at hn
            omega
          · cases hE : pre ++ (c :: tail ++ render ds) with
            | nil => simp at hE
            | cons c' fmt =>
              refine ⟨c', fmt, rfl, ?_, ?_⟩
              · rw [← hE]
                exact takeWhile_stop _ (fun x hx => by simpa using hpre x hx) (by rcases hc with rfl | rfl <;> decide)
              · rw [← hE, List.drop_left]
                rfl
      have wk : (Dir.L ∈ d :: ds → ∀ a ∈ as, a.Readable) →
          True ∧ (d = .L → ∀ a ∈ as, a.Readable) ∧ (Dir.L ∈ ds → ∀ a ∈ as', a.Readable) := fun h =>
        ⟨trivial, fun hd => h (hd ▸ List.mem_cons_self), fun hd a ha => h (List.mem_cons_of_mem _ hd) a (h2 a ha)⟩
      rcases h3 with ⟨tail, ht, hx⟩ | ⟨tail, ht, hx⟩
      · obtain ⟨m, rfl, hm, c', fmt, e1, e2, e3⟩ := fin (.inl rfl) ht
        rw [e1]
        unfold cvbuffLoop
        dsimp only
        rw [e2, e3]
        refine ((prints_append t b pre).then (f2 := (d = .L → ∀ a ∈ as, a.Readable) ∧ (Dir.L ∈ ds → ∀ a ∈ as', a.Readable))
          (ops2 := o ++ ops') fun b => ?_).weaken wk
        obtain ⟨x, hx1, hx2⟩ := hx b (render ds)
        show Prints t _ b (match percent L t pe b (tail ++ render ds) as with
          | .invalid => .ub
          | .go x rest args => x.then fun b => cvbuffLoop L t pe m b rest args) _
        rw [hx1]
        exact hx2.then fun b => (ih m b hm).same (same_empty t ops')
      · obtain ⟨m, rfl, hm, c', fmt, e1, e2, e3⟩ := fin (.inr rfl) ht
        rw [e1]
        unfold cvbuffLoop
        dsimp only
        rw [e2, e3]
        refine ((prints_append t b pre).then (f2 := (d = .L → ∀ a ∈ as, a.Readable) ∧ (Dir.L ∈ ds → ∀ a ∈ as', a.Readable))
          (ops2 := o ++ ops') fun b => ?_).weaken wk
        obtain ⟨x, hx1, hx2⟩ := hx b (render ds)
        show Prints t _ b (match dollar t b (tail ++ render ds) as with
          | .invalid => .ub
          | .go x rest args => x.then fun b => cvbuffLoop L t pe m b rest args) _
        rw [hx1]
        exact hx2.then fun b => (ih m b hm).same (same_empty t ops')

/-! ## Expressions -/

theorem prints_cbuff {L : Quote.Locale} {t : Option Table} (hg : ∀ x, t = some x → x.Good) (ds : List Dir) (b : Buf)
    {as : List Arg} {ops : List Op} (hok : ∀ d ∈ ds, d.Ok) (has : ∀ a ∈ as, (∃ s, a = .str s) ∨ ∃ s, a = .num s)
    (hm : meaning L t ds as = some ops) {fmt : Bytes} (hf : fmt = render ds) :
    Prints t True b (cbuff L t b fmt as) ops := by
  subst hf
  unfold cbuff
  have := loop_prints hg (pe := fun _ _ _ => .ub) ds (render ds).length b [] as ops (by simp) hok
    (fun a ha => by rcases has a ha with ⟨s, rfl⟩ | ⟨s, rfl⟩ <;> trivial)
    (fun k e o he => by rcases has _ he with ⟨s, h⟩ | ⟨s, h⟩ <;> cases h) hm (Nat.le_refl _)
  exact (this.same (same_empty t ops)).weaken fun _ _ a ha => by
    rcases has a ha with ⟨s, rfl⟩ | ⟨s, rfl⟩ <;> trivial

theorem prints_exName {L : Quote.Locale} {t : Option Table} (hg : ∀ x, t = some x → x.Good) {e : Ex} (he : e.Ok) (b : Buf) :
    Prints t True b (printExprName L t b e) (exName L t e) := by
  cases he with
  | mk kind argv stats children hk ha hs hc =>
    cases argv with
    | nil => exact absurd rfl ha
    | cons a as =>
      have hne : kind ≠ .rs := by rcases hk with rfl | rfl | rfl <;> decide
      refine prints_cbuff hg [.color kind, .q, .reset] b ?_ ?_ rfl ?_
      · intro d hd
        simp only [List.mem_cons, List.not_mem_nil, or_false] at hd
        rcases hd with rfl | rfl | rfl
        · exact hne
        · trivial
        · trivial
      · intro x hx
        simp only [List.mem_cons, List.not_mem_nil, or_false] at hx
        exact .inl ⟨a, hx⟩
      · simp [render, Dir.text, Q_RS]

theorem prints_argsLoop {L : Quote.Locale} {t : Option Table} (hg : ∀ x, t = some x → x.Good) (as : List Bytes) (b : Buf) :
    Prints t True b (printArgsLoop L t b as)
      (as.flatMap fun a => [.txt [32], .esc (named t .bld), .txt (quoted L true a), .rs]) := by
  induction as generalizing b with
  | nil => exact prints_nil t True b
  | cons a as ih =>
    unfold printArgsLoop
    rw [List.flatMap_cons]
    refine (Prints.then (f1 := True) (f2 := True) ?_ ih).weaken fun _ => ⟨trivial, trivial⟩
    refine prints_cbuff hg [.lit [32], .color .bld, .q, .reset] b ?_ ?_ rfl ?_
    · intro d hd
      simp only [List.mem_cons, List.not_mem_nil, or_false] at hd
      rcases hd with rfl | rfl | rfl | rfl <;> simp [Dir.Ok]
    · intro x hx
      simp only [List.mem_cons, List.not_mem_nil, or_false] at hx
      exact .inl ⟨a, hx⟩
    · simp [render, Dir.text, Q_RS]

theorem prints_exArgs {L : Quote.Locale} {t : Option Table} (hg : ∀ x, t = some x → x.Good) {e : Ex} (he : e.Ok) (b : Buf) :
    Prints t True b (printExprArgs L t b e) (exArgs L t e) := by
  obtain ⟨kind, argv, stats, children⟩ := e
  exact ((prints_exName hg he b).then fun b => prints_argsLoop hg argv.tail b).weaken fun _ => ⟨trivial, trivial⟩

theorem prints_rates {L : Quote.Locale} {t : Option Table} (hg : ∀ x, t = some x → x.Good) {stats : List Bytes}
    (hs : stats.length = 4) (verbose : Bool) (b : Buf) :
    Prints t True b (printRates L t b verbose stats) (if verbose then exRates t stats else []) := by
  unfold printRates
  cases verbose with
  | false => exact prints_nil t True b
  | true =>
    rw [if_pos rfl, if_pos rfl]
    match stats, hs with
    | [a, c, d, e], _ =>
      refine (prints_cbuff hg [.lit [32, 91], .color .ylw, .zu, .reset, .lit [47], .color .ylw, .zu, .reset, .lit [61],
        .color .ylw, .g, .percent, .reset, .lit [59, 32], .color .ylw, .g, .lit [110, 115], .reset, .lit [93]] b ?_ ?_ rfl ?_).same ?_
      · intro d hd
        simp only [List.mem_cons, List.not_mem_nil, or_false] at hd
        rcases hd with rfl | rfl | rfl | rfl | rfl | rfl | rfl | rfl | rfl | rfl | rfl | rfl | rfl | rfl | rfl | rfl | rfl | rfl | rfl <;>
          simp [Dir.Ok]
      · intro x hx
        rw [List.mem_map] at hx
        obtain ⟨s, _, rfl⟩ := hx
        exact .inr ⟨s, rfl⟩
      · simp [render, Dir.text, RATES, YLW, RS, Field.name]
      · refine .cons _ <| .cons _ <| .cons _ <| .cons _ <| .cons _ <| .cons _ <| .cons _ <| .cons _ <| .cons _ <| .cons _ <| ?_
        refine (same_merge t d [37] _).trans ?_
        refine .cons _ <| .cons _ <| .cons _ <| .cons _ <| ?_
        exact same_merge t e [110, 115] _

theorem prints_children {t : Option Table} {pr : Buf → Ex → R} {spec : Ex → List Op} {cs : List Ex}
    (h : ∀ c ∈ cs, ∀ b, Prints t True b (pr b c) (spec c)) (b : Buf) :
    Prints t True b (printChildren pr 0 b cs) (exChildren spec cs) := by
  have key : ∀ {r b a}, Prints t (True ∧ True) b r a → Prints t True b r a := fun h => h.weaken fun _ => ⟨trivial, trivial⟩
  match cs, h with
  | [], _ => exact prints_nil t True b
  | [x], h =>
    refine (key <| (prints_append t b [32]).then (f2 := True) (ops2 := spec x ++ []) fun b => ?_).same ?_
    · rw [if_neg (by decide)]
      exact key <| (h x (by simp) b).then (f2 := True) fun b => prints_nil t True b
    · simp [exChildren, Same.refl]
  | [x, y], h =>
    refine (key <| (prints_append t b [32]).then (f2 := True) (ops2 := spec x ++ ([.txt [32]] ++ (spec y ++ []))) fun b => ?_).same ?_
    · rw [if_neg (by decide)]
      refine key <| (h x (by simp) b).then (f2 := True) fun b => ?_
      refine key <| (prints_append t b [32]).then (f2 := True) fun b => ?_
      rw [if_neg (by decide)]
      exact key <| (h y (by simp) b).then (f2 := True) fun b => prints_nil t True b
    · simp [exChildren, Same.refl]
  | x :: y :: z :: cs, h =>
    refine (key <| (prints_append t b [32]).then (f2 := True)
      (ops2 := spec x ++ ([.txt [32]] ++ (spec y ++ ([.txt [32]] ++ [.txt [46, 46, 46]])))) fun b => ?_).same ?_
    · rw [if_neg (by decide)]
      refine key <| (h x (by simp) b).then (f2 := True) fun b => ?_
      refine key <| (prints_append t b [32]).then (f2 := True) fun b => ?_
      rw [if_neg (by decide)]
      refine key <| (h y (by simp) b).then (f2 := True) fun b => ?_
      refine key <| (prints_append t b [32]).then (f2 := True) fun b => ?_
      rw [if_pos (by decide)]
      exact prints_append t b _
    · have : exChildren spec (x :: y :: z :: cs) =
        [.txt [32]] ++ (spec x ++ ([.txt [32]] ++ (spec y ++ [.txt [32, 46, 46, 46]]))) := by simp [exChildren]
      rw [this]
      exact (Same.refl t _).append <| (Same.refl t _).append <| (Same.refl t _).append <| (Same.refl t _).append <|
        same_merge t [32] [46, 46, 46] []

theorem prints_exTree {L : Quote.Locale} {t : Option Table} (hg : ∀ x, t = some x → x.Good) (verbose : Bool) (n : Nat) {e : Ex}
    (he : e.Ok) (b : Buf) : Prints t True b (printExpr L t verbose n b e) (exTree L t verbose n e) := by
  induction n generalizing e b with
  | zero => exact prints_append t b _
  | succ n ih =>
    have he' := he
    cases he with
    | mk kind argv stats children hk ha hs hc =>
      unfold printExpr exTree
      rw [List.append_assoc, List.append_assoc, List.append_assoc]
      exact ((prints_append t b [40]).then fun b => (prints_exArgs hg he' b).then fun b =>
        (prints_rates hg hs verbose b).then fun b => (prints_children (fun c h b => ih (hc c h) b) b).then fun b =>
        prints_append t b [41]).weaken fun _ => ⟨trivial, trivial, trivial, trivial, trivial⟩

theorem prints_ex {L : Quote.Locale} {t : Option Table} (hg : ∀ x, t = some x → x.Good) {k : ExprDir} {e : Option Ex}
    (he : ∀ x, e = some x → x.Ok) {o : List Op} (ho : exprOps L t k e = some o) (b : Buf) :
    Prints t True b (printEx L t k b e) o := by
  cases e with
  | none =>
    cases k <;> cases ho
    · exact prints_append t b _
    · exact prints_append t b _
  | some e =>
    cases k <;> cases ho
    · exact prints_exTree hg false 2 (he e rfl) b
    · exact prints_exTree hg true 2 (he e rfl) b
    · exact prints_exArgs hg (he e rfl) b
    · exact prints_exName hg (he e rfl) b

/-- Formats print what they mean. -/
theorem prints_format {L : Quote.Locale} {t : Option Table} (hg : ∀ x, t = some x → x.Good) {ds : List Dir} {as : List Arg}
    {ops : List Op} (hok : ∀ d ∈ ds, d.Ok) (has : ∀ a ∈ as, a.Ok) (hm : meaning L t ds as = some ops) (b : Buf) :
    Prints t (Dir.L ∈ ds → ∀ a ∈ as, a.Readable) b (cvbuff L t b (render ds) as) ops := by
  have := loop_prints hg (pe := printEx L t) ds (render ds).length b [] as ops (by simp) hok has
    (fun k e o he ho b => prints_ex hg (fun x hx => by
      have := has _ he
      rw [hx] at this
      exact this) ho b) hm (Nat.le_refl _)
  exact this.same (same_empty t ops)

end Verif.Cprint
