import Verif.Lemmas.Written
import Verif.Props.Printf
/-!
# The directives of `-printf`: the theorems
-/
namespace Verif.Props
open Verif Verif.Directive
open Verif.Cfmt (laid_str)
open Verif.Printf (Fn Field Effect Elem Env Format Flags Width Precision Conv)
open Verif.Stat (FType)
open Verif.Num (Digits)

/-! ## C76 -/

section
variable {w : World} {f : File} {fl wd p : Bytes} (hf : Flags fl) (hw : Width wd) (hp : Precision p) (hsm : Small wd p)
include hf hw hp hsm

theorem right_str {fn : Fn} {v : Bytes} (hk : fn.fake = [37, 115]) (hv : Shows w f fn v) : Right w f fn fl wd p (out w fn (37 :: (fl ++ wd ++ p ++ [115])) (.s v)) :=
  .inl ⟨v, _, hv, laid_str hw hp v _ _ _ _, out_str hf hw hp hk (small_fits hw hp hsm fl) v⟩

theorem right_counted {fn : Fn} {n : Int} (hk : fn.fake = [37, 115]) (hv : Shows w f fn (unsigned n)) :
    Right w f fn fl wd p (counted w fn (37 :: (fl ++ wd ++ p ++ [115])) n) := by
  unfold counted buffered
  rw [if_pos (unsigned_short n)]
  exact right_str hf hw hp hsm hk hv

omit hf hw hp hsm in
theorem right_stat {fn : Fn} {k : Sb → Out Effect} (hn : NeedsStat fn) (h : ∀ sb, f.stat = .ok sb → Right w f fn fl wd p (k sb)) : Right w f fn fl wd p (withStat f k) := by
  unfold withStat
  split
  · rename_i sb hsb; exact h sb hsb
  · rename_i e he; exact .inr (.inl ⟨e, .stat fn e hn he, rfl⟩)

omit hf hw hp hsm in
theorem right_time {fn : Fn} {field : Field} {k : Time.Timespec → Tm → Out Effect} (hn : NeedsStat fn) (ht : Timed fn field)
    (h : ∀ sb tm, f.stat = .ok sb → sb.has field = true → w.localtime (sb.time field).sec = .ok tm → Right w f fn fl wd p (k (sb.time field) tm)) :
    Right w f fn fl wd p (withTime w f field k) := by
  unfold withTime
  refine right_stat hn fun sb hsb => ?_
  unfold statTime
  by_cases hh : sb.has field = true
  · rw [if_pos hh]
    dsimp only
    split
    · rename_i e he; exact .inr (.inl ⟨e, .localtime fn field sb e ht hsb hh he, rfl⟩)
    · rename_i tm htm; exact h sb tm hsb hh htm
  · rw [if_neg hh]
    exact .inr (.inl ⟨95, .time fn field sb ht hsb (by simpa using hh), rfl⟩)

theorem right_timed {fn : Fn} {text : Out Bytes} {v : Bytes} (hk : fn.fake = [37, 115]) (ht : text = .ok v) (hl : v.length < 256) (hv : Shows w f fn v) :
    Right w f fn fl wd p (timed w fn (37 :: (fl ++ wd ++ p ++ [115])) text) := by
  unfold timed
  rw [ht]
  have e : (Out.ok v).bind (fun b => buffered b fun b => out w fn (37 :: (fl ++ wd ++ p ++ [115])) (.s b)) = out w fn (37 :: (fl ++ wd ++ p ++ [115])) (.s v) := if_pos hl
  rw [e]
  exact right_str hf hw hp hsm hk hv

theorem right_colored {fn : Fn} {v : Bytes} {color : Option (Fn → Effect)} (hc : color = none ∨ fl ++ wd ++ p ≠ []) (hk : fn.fake = [37, 115]) (hv : Shows w f fn v) :
    Right w f fn fl wd p (colored w color fn (37 :: (fl ++ wd ++ p ++ [115])) v) := by
  unfold colored
  split
  · rcases hc with hc | hc
    · cases hc
    · rw [if_neg]
      · exact right_str hf hw hp hsm hk hv
      · unfold shouldColor
        simp only [Bool.true_and, decide_eq_true_eq]
        intro he
        injection he with _ he
        exact hc (List.append_cancel_right (he : fl ++ wd ++ p ++ [115] = [] ++ [115]))
  · exact right_str hf hw hp hsm hk hv

theorem right_owner {fn : Fn} {name : Option Bytes} {id : Nat} (hk : fn.fake = [37, 115]) (h1 : ∀ b, name = some b → Shows w f fn b) (h2 : name = none → Shows w f fn (unsigned id)) :
    Right w f fn fl wd p (owner w fn (37 :: (fl ++ wd ++ p ++ [115])) name id) := by
  unfold owner
  split
  · rename_i b; exact right_str hf hw hp hsm hk (h1 b rfl)
  · exact right_counted hf hw hp hsm hk (h2 rfl)

theorem right_given {fn : Fn} {x : Except Nat Bytes} (hk : fn.fake = [37, 115]) (h1 : ∀ b, x = .ok b → Shows w f fn b) (h2 : ∀ e, x = .error e → Missing w f fn e) :
    Right w f fn fl wd p (given w fn (37 :: (fl ++ wd ++ p ++ [115])) x) := by
  cases x with
  | ok b => exact right_str hf hw hp hsm hk (h1 b rfl)
  | error e => exact .inr (.inl ⟨e, h2 e rfl, rfl⟩)

end

theorem typeName_ok (t : FType) : ∃ s, TypeLetter t s ∧ typeName t = ascii s := by
  cases t
  · exact ⟨_, .error, by decide⟩
  · exact ⟨_, .unknown, by decide⟩
  · exact ⟨_, .blk, by decide⟩
  · exact ⟨_, .chr, by decide⟩
  · exact ⟨_, .dir, by decide⟩
  · exact ⟨_, .fifo, by decide⟩
  · exact ⟨_, .lnk, by decide⟩
  · exact ⟨_, .reg, by decide⟩
  · exact ⟨_, .sock, by decide⟩
  · exact ⟨_, .wht, by decide⟩

theorem show_h {w : World} {f : File} (hs : Sane w f) : Shows w f .h (Path.printf_h f.buf) := by
  unfold Path.printf_h
  dsimp only
  by_cases h0 : f.buf.nameoff = 0
  · rw [if_neg (by omega)]
    cases hp : f.buf.path with
    | nil => exact .hdot (by rw [hp]; simp) h0
    | cons x name =>
      by_cases hx : x = 47
      · subst hx
        rw [if_pos (by rfl)]
        exact .hslash name hp (by omega)
      · rw [if_neg (by simpa using hx)]
        exact .hdot (by rw [hp]; simpa using hx) h0
  · rw [if_pos (by omega)]
    have hsl := hs.slash.resolve_left h0
    by_cases h1 : f.buf.nameoff = 1
    · rw [if_neg (by omega)]
      rw [h1] at hsl ⊢
      cases hp : f.buf.path with
      | nil => rw [hp] at hsl; cases hsl
      | cons x name =>
        rw [hp] at hsl
        have : x = 47 := Option.some.inj hsl
        subst this
        exact .hslash name hp (by omega)
    · rw [if_pos (by omega)]
      have hlt : f.buf.nameoff - 1 < f.buf.path.length := by have := hs.nameoff; omega
      have hx : f.buf.path[f.buf.nameoff - 1] = 47 := by
        rw [List.getElem?_eq_getElem hlt] at hsl
        injection hsl
      have hd := List.drop_eq_getElem_cons hlt
      rw [hx, show f.buf.nameoff - 1 + 1 = f.buf.nameoff by omega] at hd
      refine .h _ (f.buf.path.drop f.buf.nameoff) ?_ ?_ ?_
      · rw [← hd, List.take_append_drop]
      · rw [List.length_take]; omega
      · intro he
        have := congrArg List.length he
        rw [List.length_take, List.length_nil] at this
        omega

theorem show_P {w : World} {f : File} (hs : Sane w f) : Shows w f .P (Path.printf_P f.buf) := by
  obtain ⟨t, ht⟩ := hs.root
  unfold Path.printf_P
  dsimp only
  rw [← ht]
  by_cases h : (f.buf.root ++ t)[f.buf.root.length]? = some 47
  · rw [if_pos h]
    cases t with
    | nil => simp at h
    | cons x t =>
      have : x = 47 := by simpa using h
      subst this
      have : (f.buf.root ++ 47 :: t).drop (f.buf.root.length + 1) = t := by simp
      rw [this]
      exact .P t ht.symm
  · rw [if_neg h]
    rw [List.drop_left]
    refine .Pdirect t ht.symm ?_
    intro hh
    apply h
    cases t with
    | nil => cases hh
    | cons x t => simpa using hh

theorem blocks_b {sb : Sb} (h0 : 0 ≤ sb.blocks) (h : 512 * sb.blocks < 2 ^ 63) : blocksIn 512 sb = sb.blocks.toNat := by
  unfold blocksIn Num.toU64
  omega

theorem blocks_k {sb : Sb} (h0 : 0 ≤ sb.blocks) (h : 512 * sb.blocks < 2 ^ 63) :
    512 * sb.blocks ≤ 1024 * (blocksIn 1024 sb : Nat) ∧ 1024 * ((blocksIn 1024 sb : Nat) : Int) < 512 * sb.blocks + 1024 ∧ blocksIn 1024 sb < 2 ^ 64 := by
  unfold blocksIn Num.toU64
  omega

/-- Directives show what they should, laid out as their flags, widths and precisions say; or they fail because it cannot be found out.  This is for the directives that print text, which are all but `%d`, `%m` and `%S`. -/
theorem C76_shows (w : World) (f : File) (hs : Sane w f) (env : Env) (fl wd p cv : Bytes) (fn : Fn) (hf : Flags fl) (hw : Width wd) (hp : Precision p)
    (hc : Conv env cv fn [115]) (hsm : Small wd p) (color : Option (Fn → Effect)) (hcol : color = none ∨ fl ++ wd ++ p ≠ []) :
    Right w f fn fl wd p (directive w color f fn (37 :: (fl ++ wd ++ p ++ [115]))) := by
  have ct : ∀ field, Right w f (.ctime field) fl wd p (directive w color f (.ctime field) (37 :: (fl ++ wd ++ p ++ [115]))) := by
    intro field
    refine right_time trivial (.ctime field) fun sb tm hsb hh htm => ?_
    have ht := hs.time sb field hsb hh
    obtain ⟨v, h1, h2, h3⟩ := ctime_ok (ts := sb.time field) (hs.tm _ tm htm) ht.2.2.1 ht.2.2.2
    exact right_timed hf hw hp hsm rfl h1 h3 (.ctime field sb tm v hsb hh htm h2)
  have st : ∀ field c, Right w f (.strftime field c) fl wd p (directive w color f (.strftime field c) (37 :: (fl ++ wd ++ p ++ [115]))) := by
    intro field c
    refine right_time trivial (.strftime field c) fun sb tm hsb hh htm => ?_
    have ht := hs.time sb field hsb hh
    obtain ⟨v, h1, h2, h3⟩ := strftime_ok (ts := sb.time field) c (hs.tm _ tm htm) ht.2.2.1 ht.2.2.2 ⟨ht.1, ht.2.1⟩ hs.strftime
    exact right_timed hf hw hp hsm rfl h1 h3 (.strftime field c sb tm v hsb hh htm h2)
  cases hc with
  | a => exact ct _
  | c => exact ct _
  | t => exact ct _
  | w => exact ct _
  | A x _ => exact st _ x
  | B x _ => exact st _ x
  | W x _ => exact st _ x
  | C x _ => exact st _ x
  | T x _ => exact st _ x
  | b =>
    refine right_stat trivial fun sb hsb => right_counted hf hw hp hsm rfl ?_
    have h := hs.size sb hsb
    rw [blocks_b h.2.2.1 h.2.2.2]
    exact .b sb _ hsb (unsigned_dec (by omega))
  | D => exact right_stat trivial fun sb hsb => right_counted hf hw hp hsm rfl (.D sb _ hsb (unsigned_dec (hs.dev sb hsb).1))
  | f =>
    refine right_colored hf hw hp hsm hcol rfl (.f (f.buf.path.take f.buf.nameoff) _ (List.take_append_drop _ _).symm ?_)
    rw [List.length_take]
    have := hs.nameoff
    omega
  | F _ => exact right_stat trivial fun sb hsb => right_given hf hw hp hsm rfl (fun b hb => .F sb b hsb hb) fun e he => .fstype sb e hsb he
  | g =>
    refine right_stat trivial fun sb hsb => right_owner hf hw hp hsm rfl (fun b hb => .g sb b hsb hb) fun hn => .gid sb _ hsb hn (unsigned_dec ?_)
    have := (hs.dev sb hsb).2.2.2.1
    omega
  | G =>
    refine right_stat trivial fun sb hsb => right_counted hf hw hp hsm rfl (.G sb _ hsb (unsigned_dec ?_))
    have := (hs.dev sb hsb).2.2.2.1
    omega
  | h => exact right_colored hf hw hp hsm hcol rfl (show_h hs)
  | H => exact right_colored hf hw hp hsm hcol rfl .H
  | i => exact right_stat trivial fun sb hsb => right_counted hf hw hp hsm rfl (.i sb _ hsb (unsigned_dec (hs.dev sb hsb).2.1))
  | k =>
    refine right_stat trivial fun sb hsb => right_counted hf hw hp hsm rfl ?_
    have h := hs.size sb hsb
    have hk := blocks_k h.2.2.1 h.2.2.2
    exact .k sb _ _ hsb (unsigned_dec hk.2.2) hk.1 hk.2.1
  | l =>
    show Right w f .l fl wd p (printfL w color f _)
    unfold printfL
    by_cases ht : f.type = .lnk
    · rw [if_pos ht, if_neg]
      · split
        · rename_i e he; exact .inr (.inl ⟨e, .link e ht he, rfl⟩)
        · rename_i b hb; exact right_str hf hw hp hsm rfl (.l b ht hb)
      · unfold shouldColor
        rcases hcol with hc | hc
        · rw [hc]; simp
        · simp only [Bool.and_eq_true, decide_eq_true_eq, not_and]
          intro _ he
          injection he with _ he
          exact hc (List.append_cancel_right (he : fl ++ wd ++ p ++ [115] = [] ++ [115]))
    · rw [if_neg ht]
      exact right_str hf hw hp hsm rfl (.nolink ht)
  | M =>
    refine right_stat trivial fun sb hsb => right_str hf hw hp hsm rfl ?_
    obtain ⟨c, rest, h1, h2, h3⟩ := C53_type sb.mode
    refine .M sb _ c rest hsb h1 (C53_length sb.mode) (C53_permissions sb.mode) ?_
    by_cases hk : Spec.Strmode.KnownType (Spec.Strmode.typeBits sb.mode)
    · rw [if_pos hk]; rw [if_pos hk] at h2; exact h2
    · rw [if_neg hk]; exact h3 hk
  | n => exact right_stat trivial fun sb hsb => right_counted hf hw hp hsm rfl (.n sb _ hsb (unsigned_dec (hs.dev sb hsb).2.2.1))
  | p => exact right_colored hf hw hp hsm hcol rfl .p
  | P => exact right_colored hf hw hp hsm hcol rfl (show_P hs)
  | s =>
    refine right_stat trivial fun sb hsb => right_counted hf hw hp hsm rfl (.s sb _ hsb (unsigned_int_dec (hs.size sb hsb).1 ?_))
    have := (hs.size sb hsb).2.1
    omega
  | u =>
    refine right_stat trivial fun sb hsb => right_owner hf hw hp hsm rfl (fun b hb => .u sb b hsb hb) fun hn => .uid sb _ hsb hn (unsigned_dec ?_)
    have := (hs.dev sb hsb).2.2.2.2
    omega
  | U =>
    refine right_stat trivial fun sb hsb => right_counted hf hw hp hsm rfl (.U sb _ hsb (unsigned_dec ?_))
    have := (hs.dev sb hsb).2.2.2.2
    omega
  | y =>
    obtain ⟨s, h1, h2⟩ := typeName_ok f.type
    show Right w f .y fl wd p (out w .y _ (.s (typeName f.type)))
    rw [h2]
    exact right_str hf hw hp hsm rfl (.y s h1)
  | Y =>
    show Right w f .Y fl wd p (printfY w f _)
    unfold printfY
    split
    · rename_i t ht
      obtain ⟨s, h1, h2⟩ := typeName_ok t
      rw [h2]
      exact right_str hf hw hp hsm rfl (.Y t s ht h1)
    · rename_i e he
      by_cases h1 : e = Stat.ELOOP
      · rw [if_pos h1]
        exact right_str hf hw hp hsm rfl (.Yloop (by rw [he, h1]; rfl))
      rw [if_neg h1]
      by_cases h2 : Stat.likeENOENT e = true
      · rw [if_pos h2]
        refine right_str hf hw hp hsm rfl (.Ynone e he ?_)
        unfold Stat.likeENOENT at h2
        rw [Bool.or_eq_true, decide_eq_true_eq, decide_eq_true_eq] at h2
        exact h2
      · rw [if_neg h2, out_str hf hw hp rfl (small_fits hw hp hsm fl)]
        refine .inr (.inr ⟨e, _, rfl, ⟨he, h1, ?_⟩, laid_str hw hp _ _ _ _ _, rfl⟩)
        unfold Stat.likeENOENT at h2
        rw [Bool.or_eq_true, decide_eq_true_eq, decide_eq_true_eq] at h2
        exact ⟨fun h => h2 (.inl h), fun h => h2 (.inr h)⟩
  | Z _ => exact right_given hf hw hp hsm rfl (fun b hb => .Z b hb) fun e he => .context e he

/-- `%d` prints the depth in decimal. -/
theorem C76_depth (w : World) (f : File) (fl wd p : Bytes) (hf : Flags fl) (hw : Width wd) (hp : Precision p) (hsm : Small wd p) (color : Option (Fn → Effect)) :
    ∃ o, directive w color f .d (37 :: (fl ++ wd ++ p ++ [106, 100])) = .ok ⟨o, none⟩ ∧ IntLaid 10 fl wd p f.buf.depth (signOf fl) o :=
  ⟨_, out_dec hf hw hp (small_fits hw hp hsm fl) _, int_laid hw hp _⟩

/-- `%m` prints the permission bits in octal. -/
theorem C76_mode (w : World) (f : File) (fl wd p : Bytes) (hf : Flags fl) (hw : Width wd) (hp : Precision p) (hsm : Small wd p) (color : Option (Fn → Effect)) :
    (∃ sb o, f.stat = .ok sb ∧ directive w color f .m (37 :: (fl ++ wd ++ p ++ [111])) = .ok ⟨o, none⟩ ∧ IntLaid 8 fl wd p (sb.mode % 0o10000) [] o) ∨
    ∃ e, f.stat = .error e ∧ directive w color f .m (37 :: (fl ++ wd ++ p ++ [111])) = .ok ⟨[], some e⟩ := by
  show (∃ sb o, _ ∧ withStat f _ = _ ∧ _) ∨ ∃ e, _ ∧ withStat f _ = _
  unfold withStat
  cases h : f.stat with
  | error e => exact .inr ⟨e, rfl, rfl⟩
  | ok sb =>
    refine .inl ⟨sb, _, rfl, out_oct hf hw hp (small_fits hw hp hsm fl) _, ?_⟩
    have : sb.mode &&& 0o7777 = sb.mode % 0o10000 := Nat.and_two_pow_sub_one_eq_mod sb.mode 12
    rw [this]
    exact oct_laid hw hp _

/-- `%S` prints the disk space divided by the size, and 1 for an empty file without disk space. -/
theorem C76_sparse (w : World) (f : File) (fl wd p : Bytes) (hf : Flags fl) (hw : Width wd) (hp : Precision p) (hsm : Small wd p) (color : Option (Fn → Effect)) :
    (∃ sb num den, f.stat = .ok sb ∧ directive w color f .S (37 :: (fl ++ wd ++ p ++ [103])) = .ok ⟨w.real (specOf fl wd p) num den, none⟩ ∧
      (sb.size = 0 ∧ sb.blocks = 0 → num = 1 ∧ den = 1) ∧ (¬ (sb.size = 0 ∧ sb.blocks = 0) → num = 512 * sb.blocks ∧ den = sb.size)) ∨
    ∃ e, f.stat = .error e ∧ directive w color f .S (37 :: (fl ++ wd ++ p ++ [103])) = .ok ⟨[], some e⟩ := by
  show (∃ sb num den, _ ∧ withStat f _ = _ ∧ _) ∨ ∃ e, _ ∧ withStat f _ = _
  unfold withStat
  cases h : f.stat with
  | error e => exact .inr ⟨e, rfl, rfl⟩
  | ok sb =>
    dsimp only
    unfold sparseness
    by_cases hz : sb.size = 0 ∧ sb.blocks = 0
    · rw [if_pos hz]
      exact .inl ⟨sb, 1, 1, rfl, out_real hf hw hp (small_fits hw hp hsm fl) _ _, fun _ => ⟨rfl, rfl⟩, fun h => absurd hz h⟩
    · rw [if_neg hz]
      exact .inl ⟨sb, _, _, rfl, out_real hf hw hp (small_fits hw hp hsm fl) _ _, fun h => absurd h hz, fun _ => ⟨rfl, rfl⟩⟩

/-- A width or precision beyond `INT_MAX` is accepted in a format, but then nothing is printed, for any file. -/
theorem C76_wide (w : World) (f : File) (hs : Sane w f) (env : Env) (fl wd p cv spec : Bytes) (fn : Fn) (hf : Flags fl) (hw : Width wd) (hp : Precision p)
    (hc : Conv env cv fn spec) (hsm : ¬ Small wd p) (color : Option (Fn → Effect)) :
    ∃ e, directive w color f fn (37 :: (fl ++ wd ++ p ++ spec)) = .ok ⟨[], some e⟩ := by
  have hn : (specOf fl wd p).fits = false := by
    rw [Bool.eq_false_iff]
    exact fun h => hsm (fits_of fl h)
  have hk : fn.fake = 37 :: spec ∧ (spec = [115] ∨ spec = [106, 100] ∨ spec = [111] ∨ spec = [103]) := by
    cases hc <;> exact ⟨rfl, by simp⟩
  have ho : ∀ v, out w fn (37 :: (fl ++ wd ++ p ++ spec)) v = .ok ⟨[], some Cfmt.EOVERFLOW⟩ := fun v => out_wide hf hw hp hk.1 hk.2 v hn
  have hcnt : ∀ n, counted w fn (37 :: (fl ++ wd ++ p ++ spec)) n = .ok ⟨[], some Cfmt.EOVERFLOW⟩ := by
    intro n
    unfold counted buffered
    rw [if_pos (unsigned_short n)]
    exact ho _
  have hst : ∀ k : Sb → Out Effect, (∀ sb, ∃ e, k sb = .ok ⟨[], some e⟩) → ∃ e, withStat f k = .ok ⟨[], some e⟩ := by
    intro k hk
    unfold withStat
    split
    · exact hk _
    · exact ⟨_, rfl⟩
  have hgiven : ∀ x, ∃ e, given w fn (37 :: (fl ++ wd ++ p ++ spec)) x = .ok ⟨[], some e⟩ := by
    intro x
    cases x with
    | ok b => exact ⟨_, ho _⟩
    | error e => exact ⟨e, rfl⟩
  have howner : ∀ name id, ∃ e, owner w fn (37 :: (fl ++ wd ++ p ++ spec)) name id = .ok ⟨[], some e⟩ := by
    intro name id
    cases name with
    | some b => exact ⟨_, ho _⟩
    | none => exact ⟨_, hcnt _⟩
  have hns : shouldColor color.isSome (37 :: (fl ++ wd ++ p ++ spec)) = false := by
    unfold shouldColor
    rw [Bool.and_eq_false_iff, decide_eq_false_iff_not]
    right
    intro he
    have h1 : spec.length ≠ 0 := by rcases hk.2 with h | h | h | h <;> (rw [h]; simp)
    injection he with _ he
    have hl := congrArg List.length he
    simp only [List.length_append, List.length_cons, List.length_nil] at hl
    have hw0 : wd = [] := List.eq_nil_of_length_eq_zero (by omega)
    have hp0 : p = [] := List.eq_nil_of_length_eq_zero (by omega)
    apply hsm
    subst hw0 hp0
    refine ⟨fun n hn => ?_, fun ds n hp => by cases hp⟩
    have : Cfmt.decimal [] = n := Cfmt.decimal_field hn
    have h0 : Cfmt.decimal [] = 0 := rfl
    omega
  have hcolored : ∀ v, ∃ e, colored w color fn (37 :: (fl ++ wd ++ p ++ spec)) v = .ok ⟨[], some e⟩ := by
    intro v
    unfold colored
    split
    · have : shouldColor true (37 :: (fl ++ wd ++ p ++ spec)) = false := hns
      rw [if_neg (by rw [this]; simp)]
      exact ⟨_, ho _⟩
    · exact ⟨_, ho _⟩
  have ht : ∀ field (text : Time.Timespec → Tm → Out Bytes), (∀ ts tm, TmOk tm → 0 ≤ ts.nsec → ts.nsec < 1000000000 → -2 ^ 63 ≤ ts.sec → ts.sec < 2 ^ 63 → ∃ v, text ts tm = .ok v ∧ v.length < 256) →
      ∃ e, withTime w f field (fun ts tm => timed w fn (37 :: (fl ++ wd ++ p ++ spec)) (text ts tm)) = .ok ⟨[], some e⟩ := by
    intro field text htext
    unfold withTime withStat
    split
    · rename_i sb hsb
      unfold statTime
      dsimp only
      by_cases hh : sb.has field = true
      · rw [if_pos hh]
        dsimp only
        split
        · exact ⟨_, rfl⟩
        · rename_i tm htm
          have := hs.time sb field hsb hh
          obtain ⟨v, h1, h2⟩ := htext (sb.time field) tm (hs.tm _ tm htm) this.2.2.1 this.2.2.2 this.1 this.2.1
          unfold timed
          rw [h1]
          have e : (Out.ok v).bind (fun b => buffered b fun b => out w fn (37 :: (fl ++ wd ++ p ++ spec)) (.s b)) = out w fn (37 :: (fl ++ wd ++ p ++ spec)) (.s v) := if_pos h2
          rw [e]
          exact ⟨_, ho _⟩
      · rw [if_neg hh]; exact ⟨_, rfl⟩
    · exact ⟨_, rfl⟩
  cases fn with
  | ctime field =>
    refine ht field ctimeText fun ts tm h1 h2 h3 _ _ => ?_
    obtain ⟨v, e1, _, e2⟩ := ctime_ok h1 h2 h3
    exact ⟨v, e1, e2⟩
  | strftime field c =>
    refine ht field (strftimeText w c) fun ts tm h1 h2 h3 h4 h5 => ?_
    obtain ⟨v, e1, _, e2⟩ := strftime_ok (w := w) c h1 h2 h3 ⟨h4, h5⟩ hs.strftime
    exact ⟨v, e1, e2⟩
  | b => exact hst _ fun sb => ⟨_, hcnt _⟩
  | d => exact ⟨_, ho _⟩
  | D => exact hst _ fun sb => ⟨_, hcnt _⟩
  | f => exact hcolored _
  | F => exact hst _ fun sb => hgiven _
  | g => exact hst _ fun sb => howner _ _
  | G => exact hst _ fun sb => ⟨_, hcnt _⟩
  | h => exact hcolored _
  | H => exact hcolored _
  | i => exact hst _ fun sb => ⟨_, hcnt _⟩
  | k => exact hst _ fun sb => ⟨_, hcnt _⟩
  | l =>
    show ∃ e, printfL w color f _ = _
    unfold printfL
    by_cases hl : f.type = .lnk
    · rw [if_pos hl, if_neg (by rw [hns]; simp)]
      split
      · exact ⟨_, rfl⟩
      · exact ⟨_, ho _⟩
    · rw [if_neg hl]; exact ⟨_, ho _⟩
  | m => exact hst _ fun sb => ⟨_, ho _⟩
  | M => exact hst _ fun sb => ⟨_, ho _⟩
  | n => exact hst _ fun sb => ⟨_, hcnt _⟩
  | p => exact hcolored _
  | P => exact hcolored _
  | s => exact hst _ fun sb => ⟨_, hcnt _⟩
  | S => exact hst _ fun sb => ⟨_, ho _⟩
  | u => exact hst _ fun sb => howner _ _
  | U => exact hst _ fun sb => ⟨_, hcnt _⟩
  | y => exact ⟨_, ho _⟩
  | Y =>
    show ∃ e, printfY w f _ = _
    unfold printfY
    split
    · exact ⟨_, ho _⟩
    · split
      · exact ⟨_, ho _⟩
      · split
        · exact ⟨_, ho _⟩
        · rw [ho]; exact ⟨_, rfl⟩
  | Z => exact hgiven _

theorem part_ok (w : World) (f : File) (hs : Sane w f) (env : Env) (text str : Bytes) (fn : Fn) (hd : Printf.Directive env text fn str) :
    ∃ eff, directive w none f fn str = .ok eff ∧ Part w f fn str eff := by
  obtain ⟨fl, wd, p, cv, spec, _, hf, hw, hp, hc, _, rfl⟩ := hd
  by_cases hsm : Small wd p
  · have key : spec = [115] → ∃ eff, directive w none f fn (37 :: (fl ++ wd ++ p ++ spec)) = .ok eff ∧ Part w f fn (37 :: (fl ++ wd ++ p ++ spec)) eff := by
      intro he
      subst he
      have h := C76_shows w f hs env fl wd p cv fn hf hw hp hc hsm none (.inl rfl)
      rcases id h with ⟨v, o, _, _, e⟩ | ⟨e, _, e'⟩ | ⟨e, o, _, _, _, e'⟩
      · rw [e] at h ⊢
        exact ⟨_, rfl, .text fn fl wd p _ ⟨hf, hw, hp⟩ hsm h⟩
      · rw [e'] at h ⊢
        exact ⟨_, rfl, .text fn fl wd p _ ⟨hf, hw, hp⟩ hsm h⟩
      · rw [e'] at h ⊢
        exact ⟨_, rfl, .text fn fl wd p _ ⟨hf, hw, hp⟩ hsm h⟩
    cases hc with
    | d =>
      obtain ⟨o, e, h⟩ := C76_depth w f fl wd p hf hw hp hsm none
      exact ⟨_, e, .depth fl wd p o ⟨hf, hw, hp⟩ hsm h⟩
    | m =>
      rcases C76_mode w f fl wd p hf hw hp hsm none with ⟨sb, o, h1, e, h⟩ | ⟨e, h1, h2⟩
      · exact ⟨_, e, .mode fl wd p o sb ⟨hf, hw, hp⟩ hsm h1 h⟩
      · exact ⟨_, h2, .missing _ _ e (.inl rfl) h1⟩
    | S =>
      rcases C76_sparse w f fl wd p hf hw hp hsm none with ⟨sb, num, den, h1, e, h2, h3⟩ | ⟨e, h1, h2⟩
      · exact ⟨_, e, .sparse fl wd p sb num den ⟨hf, hw, hp⟩ hsm h1 h2 h3⟩
      · exact ⟨_, h2, .missing _ _ e (.inr rfl) h1⟩
    | _ => exact key rfl
  · obtain ⟨e, h⟩ := C76_wide w f hs env fl wd p cv spec fn hf hw hp hc hsm none
    exact ⟨_, h, .wide fn fl wd p spec e ⟨hf, hw, hp⟩ (by cases hc <;> simp [ascii]) hsm⟩

theorem written_bytes {w : World} {f : File} {es : List Elem} {out : Bytes} {err : Option Nat} (h : Written w f es out err) : ∀ b : Bytes, Written w f (b.map .byte ++ es) (b ++ out) err
  | [] => h
  | x :: b => .byte x _ _ _ (written_bytes h b)

theorem printLoop_cons (w : World) (color : Option (Fn → Effect)) (f : File) (fmt : Printf.Fmt) (fs : List Printf.Fmt) (out : Bytes) (ret : Int) (error : Nat) (e : Effect)
    (h : element w color f fmt = .ok e) : printLoop w color f (fmt :: fs) (out, ret, error) =
      printLoop w color f fs (out ++ e.bytes, if e.error.isSome then -1 else ret, e.error.getD error) := by
  rw [printLoop, h]
  show (match e.error with
    | some n => printLoop w color f fs (out ++ e.bytes, -1, n)
    | none => printLoop w color f fs (out ++ e.bytes, ret, error)) = _
  cases e.error <;> rfl

/-- What `-printf` writes for a file: each element of the format in turn.  If one of them fails, the others are still written, and it is an error. -/
theorem C76_printf (w : World) (f : File) (hs : Sane w f) (env : Env) (s : Bytes) (es : List Elem) (hfmt : Format env s es) :
    ∃ fmts out err, Printf.parse env s = .ok fmts ∧ Written w f es out err ∧
      bfsPrintf w none f fmts = .ok (out, if err.isSome then -1 else 0, err.getD 0) := by
  obtain ⟨fmts, h1, h2⟩ := C38_complete env s es hfmt
  have hdirs : ∀ fn str, Printf.Fmt.dir fn str ∈ fmts → ∃ text, Printf.Directive env text fn str := by
    have hm : ∀ (fmts : List Printf.Fmt) fn str, Printf.Fmt.dir fn str ∈ fmts → Elem.dir fn str ∈ Printf.elems fmts := by
      intro fmts fn str
      induction fmts with
      | nil => intro h; cases h
      | cons x fs ih =>
        intro h
        rcases List.mem_cons.1 h with h | h
        · subst h; exact List.mem_cons_self
        · have hi := ih h
          cases x with
          | lit b => exact List.mem_append_right _ hi
          | flush => exact List.mem_cons_of_mem _ hi
          | dir fn' str' => exact List.mem_cons_of_mem _ hi
    intro fn str h
    have := hm fmts fn str h
    rw [h2] at this
    clear h2 h1 h hm
    induction hfmt with
    | done => cases this
    | plain c s es _ _ _ ih => exact ih (by simpa using this)
    | escape c b s es _ _ ih => exact ih (by simpa using this)
    | octal ds s es _ _ _ _ _ ih => exact ih (by simpa using this)
    | stop s => simp at this
    | percent s es _ ih => exact ih (by simpa using this)
    | dir text s es fn' str' hd _ ih =>
      rcases List.mem_cons.1 this with h | h
      · injection h with e1 e2
        subst e1 e2
        exact ⟨text, hd⟩
      · exact ih h
  have key : ∀ (fmts : List Printf.Fmt), (∀ fn str, Printf.Fmt.dir fn str ∈ fmts → ∃ text, Printf.Directive env text fn str) → ∃ out err, Written w f (Printf.elems fmts) out err ∧
      ∀ (o : Bytes) (ret : Int) (error : Nat), printLoop w none f fmts (o, ret, error) = .ok (o ++ out, if err.isSome then -1 else ret, err.getD error) := by
    intro fmts
    induction fmts with
    | nil => intro _; exact ⟨[], none, .nil, fun o ret error => by simp [printLoop]⟩
    | cons x fs ih =>
      intro hd
      obtain ⟨out, err, hw, he⟩ := ih fun fn str h => hd fn str (List.mem_cons_of_mem _ h)
      cases x with
      | lit b =>
        refine ⟨b ++ out, err, written_bytes hw b, fun o ret error => ?_⟩
        rw [printLoop_cons w none f (.lit b) fs o ret error ⟨b, none⟩ rfl, he, List.append_assoc]
        rfl
      | flush =>
        refine ⟨out, err, .flush _ _ _ hw, fun o ret error => ?_⟩
        rw [printLoop_cons w none f .flush fs o ret error ⟨[], none⟩ rfl, he, List.append_nil]
        rfl
      | dir fn str =>
        obtain ⟨text, ht⟩ := hd fn str List.mem_cons_self
        obtain ⟨⟨b, e⟩, h1, h2⟩ := part_ok w f hs env text str fn ht
        refine ⟨b ++ out, _, .dir fn str b e _ out err h2 hw, fun o ret error => ?_⟩
        rw [printLoop_cons w none f (.dir fn str) fs o ret error ⟨b, e⟩ h1, he, List.append_assoc]
        cases err <;> cases e <;> rfl
  obtain ⟨out, err, hw, he⟩ := key fmts hdirs
  refine ⟨fmts, out, err, h1, h2 ▸ hw, ?_⟩
  unfold bfsPrintf
  rw [he, List.nil_append]

/-- There is one right output: `Written` says exactly what is written, and whether there is an error. -/
theorem C76_unique (w : World) (f : File) (env : Env) (s : Bytes) (es : List Elem) (hfmt : Format env s es) (out out' : Bytes) (err err' : Option Nat)
    (h : Written w f es out err) (h' : Written w f es out' err') : out = out' ∧ err.isSome = err'.isSome := written_unique hfmt h h'

/-- A system and a file to look at: `d/.x` of 5 bytes, modified on 2026-11-15 at 04:08:00.5. -/
def w76 : World where
  user id := if id = 0 then some (ascii "root") else none
  group _ := none
  localtime _ := .ok ⟨0, 8, 4, 15, 10, 126, 0⟩
  strftime c _ := [c]
  real _ _ _ := ascii "0.5"

def sb76 : Sb := ⟨0o104755, 2049, 77, 1, 1000, 0, 5, 3, 0, fun field => field = .mtime, fun _ => ⟨1794715680, 500000000⟩⟩

def f76 : File := ⟨⟨ascii "d/.x", 2, ascii "d", 1⟩, .reg, .ok sb76, .ok .reg, .error 22, .ok (ascii "ext4"), .error 95⟩

theorem sane76 : Sane w76 f76 where
  root := ⟨ascii "/.x", rfl⟩
  nameoff := by decide
  slash := .inr rfl
  dev := by intro sb h; cases h; decide
  size := by intro sb h; cases h; decide
  time := by
    intro sb field h _
    cases h
    show -2 ^ 63 ≤ (1794715680 : Int) ∧ (1794715680 : Int) < 2 ^ 63 ∧ 0 ≤ (500000000 : Int) ∧ (500000000 : Int) < 1000000000
    decide
  tm := by intro t tm h; cases h; decide
  strftime := fun c _ => by show (1 : Nat) < 256; decide

/-- `%p`, `%5s`, `%-4U`, `%.1f`, `%m`, `%#o`-like `%#m`, `%T+`, `%t`, `%Tl`, `%k`, `%g`, `%M`, `%+d`. -/
example : directive w76 none f76 .p (ascii "%s") = .ok ⟨ascii "d/.x", none⟩ := by decide +kernel
example : directive w76 none f76 .s (ascii "%5s") = .ok ⟨ascii "    5", none⟩ := by decide +kernel
example : directive w76 none f76 .U (ascii "%-4s") = .ok ⟨ascii "0   ", none⟩ := by decide +kernel
example : directive w76 none f76 .f (ascii "%.1s") = .ok ⟨ascii ".", none⟩ := by decide +kernel
example : directive w76 none f76 .m (ascii "%o") = .ok ⟨ascii "4755", none⟩ := by decide +kernel
example : directive w76 none f76 .m (ascii "%#o") = .ok ⟨ascii "04755", none⟩ := by decide +kernel
example : directive w76 none f76 (.strftime .mtime 43) (ascii "%s") = .ok ⟨ascii "2026-11-15+04:08:00.5000000000", none⟩ := by decide +kernel
example : directive w76 none f76 (.ctime .mtime) (ascii "%s") = .ok ⟨ascii "Sun Nov 15 04:08:00.5000000000 2026", none⟩ := by decide +kernel
example : directive w76 none f76 (.ctime .btime) (ascii "%s") = .ok ⟨[], some 95⟩ := by decide +kernel
example : directive w76 none f76 (.strftime .mtime 108) (ascii "%s") = .ok ⟨ascii " 4", none⟩ := by decide +kernel
example : directive w76 none f76 .k (ascii "%s") = .ok ⟨ascii "2", none⟩ := by decide +kernel
example : directive w76 none f76 .g (ascii "%s") = .ok ⟨ascii "1000", none⟩ := by decide +kernel
example : directive w76 none f76 .u (ascii "%s") = .ok ⟨ascii "root", none⟩ := by decide +kernel
example : directive w76 none f76 .M (ascii "%s") = .ok ⟨ascii "-rwsr-xr-x", none⟩ := by decide +kernel
example : directive w76 none f76 .d (ascii "%+03jd") = .ok ⟨ascii "+01", none⟩ := by decide +kernel
example : directive w76 none f76 .Z (ascii "%s") = .ok ⟨[], some 95⟩ := by decide +kernel
example : directive w76 none { f76 with target := .error 13 } .Y (ascii "%2s") = .ok ⟨ascii " ?", some 13⟩ := by decide +kernel

/-- The hypotheses of `C76_printf`: `%s %p\n`. -/
example : ∃ fmts out err, Printf.parse ⟨true, true⟩ (ascii "%s %p\n") = .ok fmts ∧
    bfsPrintf w76 none f76 fmts = .ok (out, if err.isSome then -1 else 0, Option.getD err 0) ∧ out = ascii "5 d/.x\n" :=
  ⟨_, _, none, rfl, rfl, by decide +kernel⟩

/-- The sum `1900 + tm.tm_year` is an `int`: in the last 1900 years that `localtime()` knows, it overflows, which is undefined.  A file has such a time if someone gave it one and the file system has 64 bits for it. -/
theorem C76_year_counterexample : ∃ (w : World) (f : File), f.stat = .ok sb76 ∧ w.localtime (sb76.time .mtime).sec = .ok ⟨0, 8, 4, 15, 10, 2147483647, 0⟩ ∧
    directive w none f (.strftime .mtime 43) (ascii "%s") = .ub ∧ directive w none f (.ctime .mtime) (ascii "%s") = .ub :=
  ⟨{ w76 with localtime := fun _ => .ok ⟨0, 8, 4, 15, 10, 2147483647, 0⟩ }, f76, rfl, rfl, by decide +kernel, by decide +kernel⟩

end Verif.Props
