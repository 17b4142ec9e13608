import Verif.Model.Dump
import Verif.Spec.Dump
import Verif.Spec.Cmdline
import Verif.Lemmas.Options
import Verif.Lemmas.OptionsStep
import Verif.Lemmas.Cfmt
import Verif.Props.Cmdline

/-! # The line with the settings reads back (C96): lemmas -/
namespace Verif.Dump
open Verif.Options Verif.Cmdline Verif.Props

/-! ## Parsing words that are known -/

/-- What `callParse` makes of these words. -/
def primOf (i : Nat) (p : Parser) (ws : List Arg) : Prim :=
  { calls := [(i, ws)]
    argc := ws.length
    starts := p.kind ≠ .flag
    action := p.kind = .action
    loud := p.kind = .action ∧ ¬ p.quiet
    limit := p.limit
    roots := if p.root then ws.drop 1 else []
    nohidden := p.nohidden }

/-- A flag or an option, as it is on the command line. -/
structure Good (env : Env) (i : Nat) (w : Arg) (vs rest : List Arg) (rs : List Arg) : Prop where
  ex : ∃ e p, table[i]? = some e ∧ e.parse = some p ∧ argc env p.shape (w :: vs ++ rest) = .ok (w :: vs).length ∧ p.kind ≠ .action ∧ p.limit = false ∧
    p.nohidden = false ∧ rs = if p.root then vs else []
  lookup : tableLookup w = some i
  dash : w.head? = some 45
  valid : env.valid i (w :: vs) = true

/-- The words, what is called, and the paths. -/
inductive Shown (env : Env) : List Arg → List Call → List Arg → Prop
  | nil : Shown env [] [] []
  | opt (i : Nat) (w : Arg) (vs rest : List Arg) (rs : List Arg) (cs : List Call) (ps : List Arg) :
      Good env i w vs rest rs → Shown env rest cs ps → Shown env (w :: (vs ++ rest)) ((i, w :: vs) :: cs) (rs ++ ps)
  | path (a : Arg) (rest : List Arg) (cs : List Call) (ps : List Arg) : needsF a = false → Shown env rest cs ps → Shown env (a :: rest) cs (a :: ps)

theorem lookup_ops : ∀ a t, Operator a t → ∀ i e p, tableLookup a = some i → table[i]? = some e → e.parse = some p → False := by
  intro a t h i e p hl he hp
  have key : ∀ a ∈ [A "(", A ")", A "!", A "-not", A "-exclude", A "-a", A "-and", A "-o", A "-or", A ","],
      (match (tableLookup a).bind fun i => (table[i]?).bind fun e => e.parse with | none => true | some _ => false) = true := by decide +kernel
  have hm : a ∈ [A "(", A ")", A "!", A "-not", A "-exclude", A "-a", A "-and", A "-o", A "-or", A ","] := by cases h <;> simp
  have := key a hm
  rw [hl] at this
  simp [he, hp] at this

theorem good_prim {env : Env} {i : Nat} {w : Arg} {vs rest rs : List Arg} (h : Good env i w vs rest rs) :
    ∃ p, prim env (w :: (vs ++ rest)) = .ok p ∧ p.calls = [(i, w :: vs)] ∧ p.argc = (w :: vs).length ∧ p.action = false ∧ p.loud = false ∧ p.limit = false ∧
      p.nohidden = false ∧ p.roots = rs := by
  obtain ⟨e, p, he, hp, ha, hk, hl, hh, hr⟩ := h.ex
  refine ⟨primOf i p (w :: vs), ?_, rfl, rfl, by simp [primOf, hk], by simp [primOf, hk], by simp [primOf, hl], by simp [primOf, hh], by simp [primOf, hr]⟩
  unfold prim
  simp only [List.headD_cons]
  simp only [h.dash, ne_eq, not_true_eq_false, if_false, h.lookup, he, Option.bind_some, hp]
  unfold callParse
  have ha' : argc env p.shape (w :: (vs ++ rest)) = .ok (w :: vs).length := ha
  rw [ha']
  have ht : (w :: (vs ++ rest)).take (w :: vs).length = w :: vs := by simp
  simp only [Out.bind]
  rw [ht, if_pos h.valid]
  rfl

theorem good_lex {env : Env} {i : Nat} {w : Arg} {vs rest rs : List Arg} (h : Good env i w vs rest rs) (started : Bool) :
    ¬ IsPath started w ∧ w ≠ A "--" ∧ ∀ t, ¬ Operator w t := by
  obtain ⟨e, p, he, hp, -⟩ := h.ex
  refine ⟨?_, ?_, fun t ht => lookup_ops w t ht i e p h.lookup he hp⟩
  · rintro (h1 | h1)
    · subst h1
      have : tableLookup (A "-") = none := by decide +kernel
      rw [h.lookup] at this
      cases this
    · exact h1.1 h.dash
  · rintro rfl
    have h1 : (match (tableLookup (A "--")).bind fun i => (table[i]?).bind fun e => e.parse with | none => true | some _ => false) = true := by decide +kernel
    rw [h.lookup] at h1
    simp [he, hp] at h1

theorem path_isPath {a : Arg} (h : needsF a = false) (started : Bool) : IsPath started a := by
  cases a with
  | nil => exact .inr ⟨by simp, by decide, by decide, fun _ => ⟨by decide, by decide⟩⟩
  | cons c t =>
    simp only [needsF, Bool.or_eq_false_iff, beq_eq_false_iff_ne, ne_eq] at h
    obtain ⟨⟨⟨⟨h1, h2⟩, h3⟩, h4⟩, h5⟩ := h
    refine .inr ⟨by simpa using h1, ?_, ?_, fun _ => ⟨?_, ?_⟩⟩
    · intro e; exact h2 (List.cons.inj e).1
    · intro e; exact h4 (List.cons.inj e).1
    · intro e; exact h3 (List.cons.inj e).1
    · intro e; exact h5 (List.cons.inj e).1

theorem shown_lex {env : Env} {ws : List Arg} {cs : List Call} {ps : List Arg} (h : Shown env ws cs ps) : ∀ started, ∃ toks,
    Lex (prim env) started ws toks ps ∧ toks.flatMap Tok.calls = cs ∧
    ∀ t ∈ toks, ∃ p, t = .prim p ∧ p.action = false ∧ p.loud = false ∧ p.limit = false ∧ p.nohidden = false := by
  induction h with
  | nil => exact fun started => ⟨[], .done _, rfl, by simp⟩
  | opt i w vs rest rs cs ps hg _ ih =>
    intro started
    obtain ⟨p, hp, hc, ha, h1, h2, h3, h4, hr⟩ := good_prim hg
    obtain ⟨toks, hl, hf, hq⟩ := ih (started || p.starts)
    obtain ⟨l1, l2, l3⟩ := good_lex hg started
    refine ⟨.prim p :: toks, ?_, ?_, ?_⟩
    · rw [← hr]
      refine Lex.prim started w (vs ++ rest) p toks ps l1 l2 l3 hp ?_
      have hd : (w :: (vs ++ rest)).drop p.argc = rest := by rw [ha]; simp
      rw [hd]
      exact hl
    · rw [List.flatMap_cons, hf]
      simp [Tok.calls, hc]
    · intro t ht
      rcases List.mem_cons.1 ht with rfl | ht
      · exact ⟨p, rfl, h1, h2, h3, h4⟩
      · exact hq t ht
  | path a rest cs ps hn _ ih =>
    intro started
    obtain ⟨toks, hl, hf, hq⟩ := ih started
    exact ⟨toks, .path _ _ _ _ _ (path_isPath hn _) hl, hf, hq⟩

theorem gram_prims : ∀ (n : Nat) (toks : List Tok), toks.length = n → toks ≠ [] →
    (∀ t ∈ toks, ∃ p, t = .prim p ∧ p.action = false ∧ p.loud = false ∧ p.limit = false ∧ p.nohidden = false) →
    ∃ t, Gram .term false toks t ∧ (∀ p ∈ t.prims, p.loud = false ∧ p.limit = false) ∧ t.excluded = [] := by
  intro n
  induction n with
  | zero => intro toks h h'; exact absurd (List.eq_nil_of_length_eq_zero h) h'
  | succ n ih =>
    intro toks hlen hne hq
    rcases List.eq_nil_or_concat toks with h | ⟨init, last, rfl⟩
    · exact absurd h hne
    rw [List.concat_eq_append] at *
    obtain ⟨p, rfl, ha, hl, hm, hh⟩ := hq last (by simp)
    have hgf : Gram .factor false [.prim p] (.leaf p) := .prim _ _ (by simp [ha])
    by_cases hi : init = []
    · subst hi
      exact ⟨.leaf p, .factor _ _ _ hgf, by simp [Tree.prims, hl, hm], by simp [Tree.excluded, hh]⟩
    · obtain ⟨t, hg, hp, hx⟩ := ih init (by simpa using hlen) hi fun t ht => hq t (by simp [ht])
      refine ⟨.and t (.leaf p), .juxt _ _ _ _ _ hg hgf, ?_, by simp [Tree.excluded, hx, hh]⟩
      intro q hq'
      simp only [Tree.prims, List.mem_append, List.mem_singleton] at hq'
      rcases hq' with hq' | rfl
      · exact hp q hq'
      · exact ⟨hl, hm⟩

theorem shown_whole {env : Env} {ws : List Arg} {cs : List Call} {ps : List Arg} (h : Shown env ws cs ps) (hp : ps ≠ []) :
    ∃ cmd, whole (prim env) ws = .ok cmd ∧ cmd.roots = ps ∧ cmd.calls = cs ∧ cmd.excludes = [] := by
  obtain ⟨toks, hl, hf, hq⟩ := shown_lex h false
  by_cases hne : toks = []
  · refine ⟨{ expr := .and (.leaf .yes) (.leaf .print), roots := ps, excludes := [], calls := cs }, (C45_iff env ws _).2 ⟨toks, ps, hl, ?_, hf.symm, .inl ⟨hne, rfl, rfl⟩⟩, rfl, rfl, rfl⟩
    rw [if_neg hp]
  obtain ⟨t, hg, hpr, hx⟩ := gram_prims _ toks rfl hne hq
  refine ⟨{ expr := .and t.main (.leaf .print), roots := ps, excludes := [], calls := cs }, (C45_iff env ws _).2 ⟨toks, ps, hl, ?_, hf.symm, .inr ⟨t, ?_, hx.symm, .inr ⟨hpr, rfl⟩⟩⟩, rfl, rfl, rfl⟩
  · rw [if_neg hp]
  · exact .clause _ _ _ (.term _ _ _ hg)

/-! ## The pieces of the line -/

theorem lookup_entry {i : Nat} {e : Entry} (he : table[i]? = some e) (s : Arg) (hs : s = [] ∨ e.pre = true) (hn : e.arg ≠ A "-newer") (hd : e.arg.head? = some 45) :
    tableLookup (e.arg ++ s) = some i ∧ (e.arg ++ s).head? = some 45 := by
  refine ⟨C45_names i e he s hs ?_, ?_⟩
  · rcases hs with rfl | h
    · left; simpa using hn
    · left
      intro h'
      have key : ∀ e ∈ table, e.pre = true → e.arg ≠ A "-newer" → e.arg.length = 2 ∧ e.arg[1]? ≠ some 110 := by decide +kernel
      obtain ⟨k1, k2⟩ := key e (List.mem_of_getElem? he) h hn
      apply k2
      have h1 : (e.arg ++ s)[1]? = e.arg[1]? := List.getElem?_append_left (by omega)
      rw [← h1, h']
      decide
  · cases h : e.arg with
    | nil => rw [h] at hd; cases hd
    | cons c t => rw [h] at hd; simpa using hd

/-- Where a name is in the table. -/
def ix (name : String) : Nat := (tableLookup (A name)).getD 0

/-- The name is that of a flag or an option. -/
def known (name : String) (shape : Shape) (root : Bool) : Bool :=
  match table[ix name]? with
  | none => false
  | some e => match e.parse with
    | none => false
    | some p => decide (e.arg = A name) && decide (p.shape = shape) && decide (p.kind ≠ .action) && !p.limit && !p.nohidden && (p.root == root) &&
        decide (e.kind = .flag ∨ e.kind = .option) && decide (A name ≠ A "-newer") && decide ((A name).head? = some 45)

theorem known_ok {name : String} {shape : Shape} {root : Bool} (h : known name shape root = true) :
    ∃ e p, table[ix name]? = some e ∧ e.parse = some p ∧ e.arg = A name ∧ p.shape = shape ∧ p.kind ≠ .action ∧ p.limit = false ∧ p.nohidden = false ∧ p.root = root ∧
      (e.kind = .flag ∨ e.kind = .option) ∧ A name ≠ A "-newer" ∧ (A name).head? = some 45 := by
  unfold known at h
  cases he : table[ix name]? with
  | none => rw [he] at h; cases h
  | some e =>
    rw [he] at h
    dsimp only at h
    cases hp : e.parse with
    | none => rw [hp] at h; cases h
    | some p =>
      rw [hp] at h
      simp only [Bool.and_eq_true, decide_eq_true_eq, Bool.not_eq_true', beq_iff_eq] at h
      obtain ⟨⟨⟨⟨⟨⟨⟨⟨h1, h2⟩, h3⟩, h4⟩, h5⟩, h6⟩, h7⟩, h8⟩, h9⟩ := h
      exact ⟨e, p, rfl, hp, h1, h2, h3, h4, h5, h6, h7, h8, h9⟩

theorem shown_known {env : Env} (hv : Valid env) {name : String} {shape : Shape} {root : Bool} (h : known name shape root = true) (s : Arg) (vs : List Arg)
    (hs : s = [] ∨ ∃ e, table[ix name]? = some e ∧ e.pre = true) {rest : List Arg} {cs : List Call} {ps : List Arg}
    (ha : argc env shape ((A name ++ s) :: vs ++ rest) = .ok (vs.length + 1)) (hr : Shown env rest cs ps) :
    Shown env (((A name ++ s) :: vs) ++ rest) ([(ix name, (A name ++ s) :: vs)] ++ cs) ((if root then vs else []) ++ ps) := by
  obtain ⟨e, p, he, hp, h1, h2, h3, h4, h5, h6, h7, h8, h9⟩ := known_ok h
  have hs' : s = [] ∨ e.pre = true := by
    rcases hs with h | ⟨e', he', h⟩
    · exact .inl h
    · rw [he] at he'; cases he'; exact .inr h
  have hlook := lookup_entry he s hs' (by rw [h1]; exact h8) (by rw [h1]; exact h9)
  rw [h1] at hlook
  exact Shown.opt (ix name) (A name ++ s) vs rest _ cs ps ⟨⟨e, p, he, hp, by rw [h2]; exact ha, h3, h4, h5, by rw [h6]⟩, hlook.1, hlook.2, hv _ e he h7 _⟩ hr

theorem apply_known (sys : Sys) {name : String} {shape : Shape} {root : Bool} (h : known name shape root = true) (args : List Arg) (o : Options) :
    apply sys (ix name, args) o = call sys (setter (A name)) args o := by
  obtain ⟨e, p, he, hp, h1, -⟩ := known_ok h
  unfold apply
  simp only [he, h1]

/-- The number is written in digits. -/
theorem decimal_eq {n : Int} (h : 0 ≤ n) : decimal n = Cfmt.numeral 10 n.toNat := by
  obtain ⟨k, rfl⟩ := Int.eq_ofNat_of_zero_le h
  unfold decimal Cfmt.int
  simp only [Int.natAbs_natCast, Int.toNat_natCast]
  have hn : ¬ ((k : Int) < 0) := by omega
  simp [Cfmt.number, Cfmt.sign, Cfmt.digitsOf, Cfmt.pad, hn]

theorem decimal_natural {n : Int} (h : 0 ≤ n) (h' : n < 2 ^ 31) : Natural (decimal n) n := by
  rw [decimal_eq h]
  obtain ⟨k, rfl⟩ := Int.eq_ofNat_of_zero_le h
  exact ⟨.plain (Cfmt.numeral_ok 10 k (by decide) (by decide)), h, h'⟩

theorem digits_mem {s : Arg} {n : Nat} (h : Num.Digits 10 s n) : s ≠ [] ∧ ∀ c ∈ s, c ∉ Spec.Quote.special ∧ c ≠ 44 := by
  have key : ∀ n, n < 256 → 48 ≤ n → n < 58 → UInt8.ofNat n ∉ Spec.Quote.special ∧ UInt8.ofNat n ≠ 44 := by decide +kernel
  have key' : ∀ (c : UInt8) (d : Nat), c.toNat = 48 + d → d < 10 → c ∉ Spec.Quote.special ∧ c ≠ 44 := by
    intro c d h h'
    have := key c.toNat (UInt8.toNat_lt c) (by omega) (by omega)
    rwa [UInt8.ofNat_toNat] at this
  induction h with
  | one c d h h' => exact ⟨by simp, by simpa using key' c d h h'⟩
  | more s n c d _ h h' ih =>
    refine ⟨by simp, fun x hx => ?_⟩
    rcases List.mem_append.1 hx with hx | hx
    · exact ih.2 x hx
    · rw [List.mem_singleton.1 hx]; exact key' c d h h'

theorem lex_plain : ∀ s : Arg, (∀ c ∈ s, c ∉ Spec.Quote.special) → Spec.Quote.lex .bare s = some s := by
  intro s
  induction s with
  | nil => intro _; rfl
  | cons c t ih =>
    intro h
    have hc := h c (by simp)
    have h39 : c ≠ 39 := fun e => hc (by rw [e]; decide)
    have h34 : c ≠ 34 := fun e => hc (by rw [e]; decide)
    have h36 : c ≠ 36 := fun e => hc (by rw [e]; decide)
    have h92 : c ≠ 92 := fun e => hc (by rw [e]; decide)
    have ht := ih fun x hx => h x (by simp [hx])
    unfold Spec.Quote.lex
    split <;> simp_all

theorem oneWord_plain {s : Arg} (hne : s ≠ []) (h : ∀ c ∈ s, c ∉ Spec.Quote.special) : Spec.Quote.oneWord s = some s := by
  unfold Spec.Quote.oneWord
  rw [if_neg hne, lex_plain s h]

theorem decimal_word {n : Int} (h : 0 ≤ n) : decimal n ≠ [] ∧ ∀ c ∈ decimal n, c ∉ Spec.Quote.special := by
  rw [decimal_eq h]
  have := digits_mem (Cfmt.numeral_ok 10 n.toNat (by decide) (by decide))
  exact ⟨this.1, fun c hc => (this.2 c hc).1⟩

/-! ## Putting the pieces together -/

theorem Reads.append {a b : Arg} {u v : List Arg} (h : Reads a u) (h' : Reads b v) : Reads (a ++ b) (u ++ v) := by
  induction h with
  | nil => exact h'
  | word t w rest ws hw _ ih =>
    have := Reads.word t w (rest ++ b) (ws ++ v) hw ih
    simpa using this

theorem Reads.one {t w : Arg} (h : Spec.Quote.oneWord t = some w) : Reads (sp t) [w] := by
  have := Reads.word t w [] [] h .nil
  simpa [sp] using this

/-- The next argument is no number. -/
def NoNumber (rest : List Arg) : Prop := (rest[0]?.map looksLikeIcmp) ≠ some true

/-- Part of the line: the text, the paths in it, and the settings before and after it. -/
def Part (env : Env) (sys : Sys) (strict : Bool) (text : Arg) (roots : List Arg) (o o' : Options) : Prop :=
  ∃ words calls, Reads text words ∧
    (∀ rest cs ps, (strict = true → NoNumber rest) → Shown env rest cs ps → Shown env (words ++ rest) (calls ++ cs) (roots ++ ps)) ∧
    (strict = true → ∀ rest, NoNumber rest → NoNumber (words ++ rest)) ∧
    ∀ cs, configure sys (calls ++ cs) o = configure sys cs o'

variable {env : Env} {sys : Sys} {strict : Bool}

theorem Part.nil (o : Options) : Part env sys strict [] [] o o :=
  ⟨[], [], .nil, fun _ _ _ _ h => h, fun _ _ h => h, fun _ => rfl⟩

theorem Part.append {a b : Arg} {r s : List Arg} {o1 o2 o3 : Options} (h : Part env sys strict a r o1 o2) (h' : Part env sys strict b s o2 o3) :
    Part env sys strict (a ++ b) (r ++ s) o1 o3 := by
  obtain ⟨w1, c1, r1, s1, n1, f1⟩ := h
  obtain ⟨w2, c2, r2, s2, n2, f2⟩ := h'
  refine ⟨w1 ++ w2, c1 ++ c2, r1.append r2, fun rest cs ps hn hs => ?_, fun hst rest hn => ?_, fun cs => ?_⟩
  · rw [List.append_assoc, List.append_assoc, List.append_assoc]
    exact s1 _ _ _ (fun hst => n2 hst _ (hn hst)) (s2 _ _ _ hn hs)
  · rw [List.append_assoc]
    exact n1 hst _ (n2 hst _ hn)
  · rw [List.append_assoc, f1, f2]

theorem Part.and {a b : Arg} {o1 o2 o3 : Options} (h : Part env sys strict a [] o1 o2) (h' : Part env sys strict b [] o2 o3) :
    Part env sys strict (a ++ b) [] o1 o3 := h.append h'

theorem Part.ite {c : Prop} [Decidable c] {a : Arg} {o o' : Options} (h : c → Part env sys strict a [] o o') :
    Part env sys strict (if c then a else []) [] o (if c then o' else o) := by
  by_cases hc : c
  · rw [if_pos hc, if_pos hc]; exact h hc
  · rw [if_neg hc, if_neg hc]; exact .nil o

theorem Part.known (hv : Valid env) {name : String} {shape : Shape} {root : Bool} (h : known name shape root = true) (s : Arg) (vs : List Arg)
    (hs : s = [] ∨ ∃ e, table[ix name]? = some e ∧ e.pre = true) {t : Arg} {o o' : Options}
    (ht : Reads t ((A name ++ s) :: vs))
    (ha : ∀ rest, (strict = true → NoNumber rest) → argc env shape ((A name ++ s) :: vs ++ rest) = .ok (vs.length + 1))
    (hn : strict = true → looksLikeIcmp (A name ++ s) = false)
    (hc : call sys (setter (A name)) ((A name ++ s) :: vs) o = .ok o') : Part env sys strict t (if root then vs else []) o o' := by
  refine ⟨_, _, ht, fun rest cs ps hst hr => shown_known hv h s vs hs (ha rest hst) hr, fun hst rest _ => ?_, fun cs => ?_⟩
  · unfold NoNumber
    simp [hn hst]
  · simp only [List.cons_append, List.nil_append, configure, apply_known sys h, hc, Out.bind]

/-- An option or a flag that has no value. -/
theorem Part.plain (hv : Valid env) (name : String) (h : Dump.known name .nullary false = true) (hw : Spec.Quote.oneWord (A name) = some (A name)) (hn : looksLikeIcmp (A name) = false)
    {o o' : Options} (hc : call sys (setter (A name)) [A name] o = .ok o') : Part env sys strict (sp (A name)) [] o o' := by
  have := Part.known (strict := strict) hv h [] [] (.inl rfl) (t := sp (A name)) (o := o) (o' := o') (by rw [List.append_nil]; exact .one hw) (fun _ _ => rfl)
    (fun _ => by rw [List.append_nil]; exact hn) (by rw [List.append_nil]; exact hc)
  simpa using this

/-- An option with a value. -/
theorem Part.valued (hv : Valid env) (name : String) {root : Bool} (h : Dump.known name .unary root = true) (hw : Spec.Quote.oneWord (A name) = some (A name))
    (hn : looksLikeIcmp (A name) = false) {t v : Arg} (ht : Spec.Quote.oneWord t = some v) {o o' : Options} (hc : call sys (setter (A name)) [A name, v] o = .ok o') :
    Part env sys strict (sp (A name) ++ sp t) (if root then [v] else []) o o' :=
  Part.known hv h [] [v] (.inl rfl) (by rw [List.append_nil]; exact (Reads.one hw).append (.one ht)) (fun _ _ => rfl)
    (fun _ => by rw [List.append_nil]; exact hn) (by rw [List.append_nil]; exact hc)

/-- `-depth` -/
theorem Part.depth (hv : Valid env) (o : Options) : Part env sys true (sp (A "-depth")) [] o { o with flags := o.flags ||| POST_ORDER } := by
  refine Part.known (name := "-depth") (shape := .depth) (root := false) hv (by decide +kernel) [] [] (.inl rfl) ?_ ?_ (fun _ => by decide +kernel) ?_
  · exact .one (by decide +kernel)
  · intro rest hn
    unfold argc
    have : (((A "-depth" ++ []) :: [] ++ rest)[1]?.map looksLikeIcmp) ≠ some true := by
      have := hn rfl
      unfold NoNumber at this
      simpa using this
    simp only [List.append_nil] at this ⊢
    rw [if_neg (by simpa using this)]
    rfl
  · have hs : setter (A "-depth") = .depthN := by decide +kernel
    rw [hs]
    rfl

/-- `-j8` and `-O2` -/
theorem Part.number (hv : Valid env) (name : String) (letter : UInt8) (hname : A name = [45, letter]) (hl : letter ≠ 45) (hsp : letter ∉ Spec.Quote.special)
    (h : Dump.known name (.prefixed letter false) false = true) (hp : ∃ e, table[ix name]? = some e ∧ e.pre = true)
    {n : Int} (hn : 0 ≤ n) {o o' : Options} (hc : call sys (setter (A name)) [A name ++ decimal n] o = .ok o') :
    Part env sys false (sp (A name ++ decimal n)) [] o o' := by
  obtain ⟨h1, h2⟩ := decimal_word hn
  refine Part.known hv h (decimal n) [] (.inr hp) (.one (oneWord_plain ?_ ?_)) ?_ (fun h => by cases h) hc
  · rw [hname]; simp
  · intro c hc
    rw [hname] at hc
    simp only [List.cons_append, List.nil_append, List.mem_cons] at hc
    rcases hc with rfl | rfl | hc
    · decide
    · exact hsp
    · exact h2 c hc
  · intro rest _
    unfold argc
    have : (A name ++ decimal n).dropWhile (· ≠ letter) = letter :: decimal n := by
      rw [hname]
      exact dropWhile_at letter (decimal n) [45] (by simpa using hl)
    simp only [List.cons_append, List.nil_append, List.headD_cons, this]
    rw [if_pos h1]
    rfl

/-- `-S bfs` and `-D opt` -/
theorem Part.separate (hv : Valid env) (name : String) (letter : UInt8) (hname : A name = [45, letter]) (hl : letter ≠ 45)
    (h : Dump.known name (.prefixed letter true) false = true) (hw : Spec.Quote.oneWord (A name) = some (A name)) {v : Arg} (ht : Spec.Quote.oneWord v = some v)
    {o o' : Options} (hc : call sys (setter (A name)) [A name, v] o = .ok o') :
    Part env sys false (sp (A name) ++ sp v) [] o o' := by
  refine Part.known hv h [] [v] (.inl rfl) (by rw [List.append_nil]; exact (Reads.one hw).append (.one ht)) ?_ (fun h => by cases h) (by rw [List.append_nil]; exact hc)
  intro rest _
  unfold argc
  have : (A name).dropWhile (· ≠ letter) = [letter] := by
    rw [hname]
    exact dropWhile_at letter [] [45] (by simpa using hl)
  simp only [List.append_nil, List.cons_append, List.nil_append, List.headD_cons, this]
  simp

end Verif.Dump
