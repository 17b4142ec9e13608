import Verif.Spec.Cprint
import Verif.Props.Quote
import Verif.Props.Color
/-! # Lemmas about colored output -/
namespace Verif.Cprint
open Verif
open Verif.Color (Setting)

/-! ## Pieces -/

theorem pieces_append (c on : Bool) (a b : List Op) : pieces c on (a ++ b) =
    ((pieces c on a).1 ++ (pieces c (pieces c on a).2 b).1, (pieces c (pieces c on a).2 b).2) := by
  induction a generalizing on with
  | nil => simp [pieces]
  | cons o a ih =>
    cases o with
    | txt s => simp [pieces, ih]
    | esc p =>
      cases p with
      | none => simp [pieces, ih]
      | some p => cases c <;> simp [pieces, ih]
    | rs => cases c <;> cases on <;> simp [pieces, ih]

/-- The bytes that are printed. -/
def outBytes (t : Option Table) (on : Bool) (ops : List Op) : Bytes :=
  (pieces t.isSome on ops).1.flatMap (bytesOf t)

def outOn (t : Option Table) (on : Bool) (ops : List Op) : Bool := (pieces t.isSome on ops).2

theorem outBytes_append (t : Option Table) (on : Bool) (a b : List Op) :
    outBytes t on (a ++ b) = outBytes t on a ++ outBytes t (outOn t on a) b := by
  unfold outBytes outOn
  rw [pieces_append]
  simp

theorem outOn_append (t : Option Table) (on : Bool) (a b : List Op) :
    outOn t on (a ++ b) = outOn t (outOn t on a) b := by
  unfold outOn
  rw [pieces_append]

/-- The result of a printing function is what the specification says, unless something fails. -/
def Prints (t : Option Table) (fine : Prop) (b : Buf) (r : R) (ops : List Op) : Prop :=
  ∃ b' ok, r = .ok (b', ok) ∧
    (ok = true → b'.out = b.out ++ outBytes t b.needReset ops ∧ b'.needReset = outOn t b.needReset ops) ∧
    (fine → (∀ a ∈ b.mem, a = true) → ok = true ∧ ∀ a ∈ b'.mem, a = true)

theorem Prints.then {t : Option Table} {f1 f2 : Prop} {b : Buf} {r : R} {ops1 ops2 : List Op}
    {k : Buf → R} (h1 : Prints t f1 b r ops1) (h2 : ∀ b, Prints t f2 b (k b) ops2) :
    Prints t (f1 ∧ f2) b (r.then k) (ops1 ++ ops2) := by
  obtain ⟨b1, ok1, e1, s1, m1⟩ := h1
  unfold R.then
  rw [e1]
  cases ok1 with
  | false =>
    refine ⟨b1, false, rfl, fun h => (by cases h), fun hf hm => ?_⟩
    exact absurd (m1 hf.1 hm).1 (by simp)
  | true =>
    obtain ⟨b2, ok2, e2, s2, m2⟩ := h2 b1
    refine ⟨b2, ok2, ?_, fun h => ?_, fun hf hm => ?_⟩
    · show (if true = true then k b1 else Out.ok (b1, false)) = _
      rw [if_pos rfl, e2]
    · obtain ⟨a1, a2⟩ := s1 rfl
      obtain ⟨c1, c2⟩ := s2 h
      rw [outBytes_append, outOn_append, c1, c2, a1, a2]
      simp
    · exact m2 hf.2 (m1 hf.1 hm).2

theorem Prints.congr {t : Option Table} {f f' : Prop} {b : Buf} {r : R} {ops ops' : List Op}
    (h : Prints t f b r ops) (hf : f' → f)
    (hb : ∀ on, outBytes t on ops = outBytes t on ops' ∧ outOn t on ops = outOn t on ops') :
    Prints t f' b r ops' := by
  obtain ⟨b', ok, e, s, m⟩ := h
  refine ⟨b', ok, e, fun hh => ?_, fun hh => m (hf hh)⟩
  rw [← (hb _).1, ← (hb _).2]
  exact s hh

theorem Prints.weaken {t : Option Table} {f f' : Prop} {b : Buf} {r : R} {ops : List Op}
    (h : Prints t f b r ops) (hf : f' → f) : Prints t f' b r ops :=
  h.congr hf fun _ => ⟨rfl, rfl⟩

theorem prints_nil (t : Option Table) (f : Prop) (b : Buf) : Prints t f b (.ok (b, true)) [] :=
  ⟨b, true, rfl, fun _ => ⟨by simp [outBytes, pieces], rfl⟩, fun _ h => ⟨rfl, h⟩⟩

theorem alloc_needReset (b : Buf) : b.alloc.2.needReset = b.needReset := by
  unfold Buf.alloc
  split <;> rfl

theorem alloc_out (b : Buf) : b.alloc.2.out = b.out := by
  unfold Buf.alloc
  split <;> rfl

theorem alloc_mem {b : Buf} (h : ∀ a ∈ b.mem, a = true) : b.alloc.1 = true ∧ ∀ a ∈ b.alloc.2.mem, a = true := by
  unfold Buf.alloc
  split
  · exact ⟨rfl, h⟩
  · rename_i a m hm
    rw [hm] at h
    exact ⟨h a List.mem_cons_self, fun x hx => h x (List.mem_cons_of_mem _ hx)⟩

theorem outBytes_txt (t : Option Table) (on : Bool) (s : Bytes) (ops : List Op) :
    outBytes t on (.txt s :: ops) = s ++ outBytes t on ops := by
  unfold outBytes
  cases t <;> simp [pieces, bytesOf, Table.bytes]

theorem outOn_txt (t : Option Table) (on : Bool) (s : Bytes) (ops : List Op) :
    outOn t on (.txt s :: ops) = outOn t on ops := by
  unfold outOn
  simp [pieces]

theorem prints_append (t : Option Table) (b : Buf) (s : Bytes) :
    Prints t True b (append b s) [.txt s] := by
  unfold append
  split
  · refine ⟨_, true, rfl, fun _ => ⟨?_, ?_⟩, fun _ hm => ⟨rfl, (alloc_mem hm).2⟩⟩
    · rw [outBytes_txt]
      simp [outBytes, pieces]
    · rw [outOn_txt]
      exact alloc_needReset b
  · rename_i h
    refine ⟨_, false, rfl, fun h => (by cases h), fun _ hm => ?_⟩
    exact absurd (alloc_mem hm).1 h

theorem prints_wordesc (t : Option Table) (L : Quote.Locale) (b : Buf) (s : Bytes) (shell : Bool) :
    Prints t True b (printWordesc L b s shell) [.txt (quoted L shell s)] := by
  obtain ⟨q, hq, _⟩ := Props.C14_never_truncated L shell s
  have hq2 : quoted L shell s = q := by unfold quoted; rw [hq]
  have h := prints_append t b q
  rw [hq2]
  unfold printWordesc
  unfold append at h
  rw [hq]
  exact h

/-- A pointer that may be printed. -/
def Printable (t : Table) (p : Option Ptr) : Prop :=
  ∀ q, p = some q → (t.seq q).isSome = true ∧ q ≠ .field .rs

theorem chunk_eq {t : Table} {p : Ptr} {s : Bytes} (h : t.seq p = some s) (b : Buf) :
    printEscChunk t b (some p) = append b s := by
  unfold printEscChunk
  rw [Option.bind_some, h]

theorem ptr_some {t : Table} {f : Field} (h : (t.esc f).isSome = true) :
    ∃ s, t.esc f = some s ∧ t.ptr f = some (.field f) ∧ t.seq (.field f) = some s := by
  obtain ⟨s, hs⟩ := Option.isSome_iff_exists.1 h
  exact ⟨s, hs, by unfold Table.ptr; rw [hs]; rfl, hs⟩

theorem prints_chunks {t : Table} {s1 s2 s3 : Bytes} {p : Ptr} {b : Buf} (hg : t.Good)
    (h1 : t.esc .lc = some s1) (h2 : t.seq p = some s2) (h3 : t.esc .rc = some s3) :
    Prints (some t) True b ((printEscChunk t b (t.ptr .lc)).then fun b =>
      (printEscChunk t b (some p)).then fun b => printEscChunk t b (t.ptr .rc)) [.txt (s1 ++ s2 ++ s3)] := by
  have e1 : t.ptr .lc = some (.field .lc) := by unfold Table.ptr; rw [h1]; rfl
  have e3 : t.ptr .rc = some (.field .rc) := by unfold Table.ptr; rw [h3]; rfl
  rw [e1, e3]
  have k1 : ∀ b, printEscChunk t b (some (.field .lc)) = append b s1 := chunk_eq (p := .field .lc) h1
  have k3 : ∀ b, printEscChunk t b (some (.field .rc)) = append b s3 := chunk_eq (p := .field .rc) h3
  simp only [k1, chunk_eq h2, k3]
  refine ((prints_append (some t) b s1).then fun b => (prints_append (some t) b s2).then fun b =>
    prints_append (some t) b s3).congr (fun _ => ⟨trivial, trivial, trivial⟩) fun on => ?_
  constructor
  · simp [outBytes_txt]
  · simp [outOn_txt]

theorem prints_esc {t : Table} (hg : t.Good) {p : Option Ptr} (hp : Printable t p) (b : Buf) :
    Prints (some t) True b (printEsc t b p) [.esc p] := by
  cases p with
  | none =>
    refine (prints_nil _ True b).congr id fun on => ?_
    constructor <;> simp [outBytes, outOn, pieces]
  | some p =>
    obtain ⟨h1, h2⟩ := hp p rfl
    obtain ⟨s1, a1, _⟩ := ptr_some hg.lc
    obtain ⟨s3, a3, _⟩ := ptr_some hg.rc
    obtain ⟨s2, a2⟩ := Option.isSome_iff_exists.1 h1
    have hne : some p ≠ t.ptr .rs := by
      unfold Table.ptr
      cases t.esc .rs with
      | none => simp
      | some _ => simpa using h2
    unfold printEsc
    dsimp only
    rw [if_pos hne]
    obtain ⟨b', ok, e, s, m⟩ := prints_chunks (b := { b with needReset := true }) hg a1 a2 a3
    refine ⟨b', ok, e, fun hh => ?_, m⟩
    obtain ⟨x1, x2⟩ := s hh
    refine ⟨?_, ?_⟩
    · rw [x1, outBytes_txt]
      simp [outBytes, pieces, bytesOf, Table.bytes, a1, a2, a3]
    · rw [x2, outOn_txt]
      simp [outOn, pieces]

theorem prints_reset {t : Table} (hg : t.Good) (b : Buf) : Prints (some t) True b (printReset t b) [.rs] := by
  unfold printReset
  cases hn : b.needReset with
  | false =>
    rw [if_neg (by simp)]
    refine ⟨b, true, rfl, fun _ => ?_, fun _ h => ⟨rfl, h⟩⟩
    rw [hn]
    simp [outBytes, outOn, pieces]
  | true =>
    rw [if_pos rfl]
    obtain ⟨s, a1, a2, a3⟩ := ptr_some hg.ec
    rw [a2, chunk_eq a3]
    obtain ⟨b', ok, e, x, m⟩ := prints_append (some t) { b with needReset := false } s
    refine ⟨b', ok, e, fun hh => ?_, m⟩
    obtain ⟨x1, x2⟩ := x hh
    rw [hn, x1, x2]
    simp [outBytes, outOn, pieces, bytesOf, Table.bytes, a1]

theorem prints_colored {t : Table} (hg : t.Good) (L : Quote.Locale) {p : Option Ptr}
    (hp : Printable t p) (b : Buf) (s : Bytes) :
    Prints (some t) True b (printColored L t b p s) (coloredText L p s) := by
  unfold printColored coloredText
  by_cases h : s = []
  · rw [if_pos (by rw [h]; rfl), if_pos h]
    exact prints_nil _ _ b
  · rw [if_neg (fun hh => h (List.eq_nil_of_length_eq_zero hh)), if_neg h]
    exact ((prints_esc hg hp b).then fun b => (prints_wordesc _ L b s false).then fun b =>
      prints_reset hg b).weaken fun _ => ⟨trivial, trivial, trivial⟩

/-! ## Colors of files -/

theorem ptr_eq (t : Table) (f : Field) : t.ptr f = firstOf t [(true, f)] := by
  unfold Table.ptr firstOf firstOf
  cases t.esc f <;> simp

theorem ptr_isSome (t : Table) (f : Field) : (t.ptr f).isSome = (t.esc f).isSome := by
  unfold Table.ptr
  simp

theorem errorColor_eq (t : Table) : errorColor t = missingColor t := by
  unfold errorColor missingColor
  unfold Table.ptr firstOf firstOf firstOf
  cases t.esc .mi <;> cases t.esc .or <;> simp

/-- Continuing after a rule. -/
theorem rule_step (t : Table) (f : Field) (sb : Option St) (P : St → Bool) (k : Out (Option Ptr))
    (rest : List (Bool × Field)) (cond : Bool) (hc : cond = sb.any P)
    (hsb : (t.esc f).isSome = true → sb.isSome = true) {last : Option Ptr}
    (hk : k = .ok ((firstOf t rest).or last)) :
    ((testStat t f sb P).bind fun x => if x then .ok (t.ptr f) else k) =
      .ok ((firstOf t ((cond, f) :: rest)).or last) := by
  unfold testStat
  rw [ptr_isSome]
  cases hf : t.esc f with
  | none =>
    rw [if_neg (by simp), firstOf, if_neg (by rw [hf]; simp), hk]
    rfl
  | some s =>
    rw [hf] at hsb
    obtain ⟨st, hst⟩ := Option.isSome_iff_exists.1 (hsb rfl)
    rw [hst] at hc ⊢
    rw [if_pos (by rfl), firstOf, hf]
    have hc' : cond = P st := hc
    cases hP : P st with
    | true =>
      rw [hP] at hc'
      rw [if_pos ⟨hc', rfl⟩]
      show (if P st = true then _ else _) = _
      rw [if_pos hP]
      unfold Table.ptr
      rw [hf]
      rfl
    | false =>
      rw [hP] at hc'
      rw [if_neg (by rw [hc']; simp), ← hk]
      show (if P st = true then _ else _) = _
      rw [if_neg (by rw [hP]; simp)]

theorem rule_bool (t : Table) (f : Field) (k : Out (Option Ptr)) (rest : List (Bool × Field)) (cond : Bool)
    {last : Option Ptr} (hk : k = .ok ((firstOf t rest).or last)) :
    (if (t.ptr f).isSome && cond then .ok (t.ptr f) else k) = Out.ok ((firstOf t ((cond, f) :: rest)).or last) := by
  rw [ptr_isSome, firstOf]
  cases hf : t.esc f with
  | none =>
    rw [if_neg (by simp), if_neg (by simp), hk]
  | some s =>
    cases cond with
    | true =>
      rw [if_pos (by simp), if_pos (by simp)]
      unfold Table.ptr
      rw [hf]
      rfl
    | false => rw [if_neg (by simp), if_neg (by simp), hk]

theorem firstOf_field {t : Table} {l : List (Bool × Field)} {p : Ptr} (h : firstOf t l = some p) :
    ∃ x ∈ l, p = .field x.2 ∧ (t.esc x.2).isSome = true ∧ x.1 = true := by
  induction l with
  | nil => cases h
  | cons x l ih =>
    obtain ⟨c, f⟩ := x
    rw [firstOf] at h
    split at h
    · rename_i hc
      injection h with h
      exact ⟨(c, f), List.mem_cons_self, h.symm, hc.2, hc.1⟩
    · obtain ⟨x, h1, h2⟩ := ih h
      exact ⟨x, List.mem_cons_of_mem _ h1, h2⟩

theorem firstOf_seq {t : Table} {l : List (Bool × Field)} {p : Ptr} (h : firstOf t l = some p) :
    (t.seq p).isSome = true := by
  obtain ⟨x, _, rfl, h2, _⟩ := firstOf_field h
  exact h2

theorem extOf_seq {t : Table} (hg : t.Good) {name : Bytes} {p : Ptr} (h : extOf t name = some p) :
    (t.seq p).isSome = true ∧ p ≠ .field .rs := by
  obtain ⟨e, h1, h2⟩ := hg.exts name
  unfold extOf at h
  rw [h1] at h
  cases e with
  | none => cases h
  | some i =>
    cases h
    refine ⟨?_, by simp⟩
    show ((t.exts.exts[i]?).map _).isSome = true
    rw [Option.isSome_map]
    exact h2 i rfl

theorem extColor_eq {t : Table} (hg : t.Good) (c : Cpath) :
    extColor t c = .ok ((extOf t ((c.path.drop c.nameoff).take (c.valid - c.nameoff))).or (firstOf t [(true, .fi)])) := by
  obtain ⟨e, h1, h2⟩ := hg.exts ((c.path.drop c.nameoff).take (c.valid - c.nameoff))
  unfold extColor extOf
  rw [h1]
  cases e with
  | none => show Out.ok (t.ptr .fi) = _; rw [ptr_eq]; rfl
  | some i => rfl

/-- What an empty colour falls back to. -/
def fell (t : Table) : Option Ptr → Option Ptr
  | none => none
  | some p => if t.seq p = some [] then firstOf t [(true, .no)] else some p

theorem fallBack_eq {t : Table} {p : Option Ptr} (h : ∀ q, p = some q → (t.seq q).isSome = true) :
    fallBack t p = .ok (fell t p) := by
  unfold fallBack
  cases p with
  | none => rfl
  | some p =>
    obtain ⟨s, hs⟩ := Option.isSome_iff_exists.1 (h p rfl)
    dsimp only
    rw [hs]
    unfold fell
    dsimp only
    rw [hs]
    cases s with
    | nil => simp [ptr_eq]
    | cons a s => simp

theorem regColor_eq {t : Table} (hg : t.Good) (c : Cpath) {sb : Option St}
    (hsb : inUse t [.su, .sg, .ex, .mh] = true → sb.isSome = true) :
    regColor t c sb = .ok ((firstOf t (regRules sb (cpathCaps c))).or
      ((extOf t ((c.path.drop c.nameoff).take (c.valid - c.nameoff))).or (firstOf t [(true, .fi)]))) := by
  have hu : ∀ f ∈ [Field.su, .sg, .ex, .mh], (t.esc f).isSome = true → sb.isSome = true :=
    fun f hf h => hsb (List.any_eq_true.2 ⟨f, hf, h⟩)
  unfold regColor regRules
  dsimp only
  refine rule_step t .su sb _ _ _ _ rfl (hu _ (by simp)) ?_
  refine rule_step t .sg sb _ _ _ _ rfl (hu _ (by simp)) ?_
  refine rule_bool t .ca _ _ _ ?_
  refine rule_step t .ex sb _ _ _ _ rfl (hu _ (by simp)) ?_
  refine rule_step t .mh sb _ _ _ _ rfl (hu _ (by simp)) ?_
  rw [extColor_eq hg]
  rfl

theorem and_1002 (m : Nat) : decide (m &&& 0o1002 = 0o1002) = (decide (m &&& 0o1000 ≠ 0) && decide (m &&& 0o2 ≠ 0)) := by
  have h1 : m &&& 0o1002 = 0o1002 ↔ (m.testBit 9 = true ∧ m.testBit 1 = true) := by
    constructor
    · intro h
      have a := congrArg (fun x => Nat.testBit x 9) h
      have b := congrArg (fun x => Nat.testBit x 1) h
      simp only [Nat.testBit_and] at a b
      have c9 : Nat.testBit 0o1002 9 = true := by decide
      have c1 : Nat.testBit 0o1002 1 = true := by decide
      rw [c9, Bool.and_true] at a
      rw [c1, Bool.and_true] at b
      exact ⟨a, b⟩
    · rintro ⟨a, b⟩
      apply Nat.eq_of_testBit_eq
      intro i
      rw [Nat.testBit_and]
      cases hi : Nat.testBit 0o1002 i with
      | false => simp
      | true =>
        have : i = 9 ∨ i = 1 := by
          by_cases h10 : i < 10
          · have : ∀ j : Fin 10, Nat.testBit 0o1002 j.val = true → j.val = 9 ∨ j.val = 1 := by decide
            exact this ⟨i, h10⟩ hi
          · have : Nat.testBit 0o1002 i = false :=
              Nat.testBit_lt_two_pow (Nat.lt_of_lt_of_le (by decide : 0o1002 < 2 ^ 10) (Nat.pow_le_pow_right (by decide) (by omega)))
            rw [this] at hi
            cases hi
        rcases this with rfl | rfl <;> simp [a, b]
  have h2 : ∀ k, m &&& 2 ^ k ≠ 0 ↔ m.testBit k = true := by
    intro k
    constructor
    · intro h
      cases hk : m.testBit k with
      | true => rfl
      | false =>
        exfalso
        apply h
        apply Nat.eq_of_testBit_eq
        intro i
        rw [Nat.testBit_and, Nat.testBit_two_pow, Nat.zero_testBit]
        by_cases hi : k = i
        · subst hi; simp [hk]
        · simp [hi]
    · intro h h0
      have := congrArg (fun x => Nat.testBit x k) h0
      simp [Nat.testBit_and, Nat.testBit_two_pow, h] at this
  have h9 := h2 9
  have h1' := h2 1
  rw [Bool.eq_iff_iff, Bool.and_eq_true, decide_eq_true_eq, decide_eq_true_eq, decide_eq_true_eq, h1]
  exact and_congr h9.symm h1'.symm

theorem dirColor_eq {t : Table} {sb : Option St} (hsb : inUse t [.tw, .ow, .st] = true → sb.isSome = true) :
    dirColor t sb = .ok (firstOf t (dirRules sb)) := by
  have hu : ∀ f ∈ [Field.tw, .ow, .st], (t.esc f).isSome = true → sb.isSome = true :=
    fun f hf h => hsb (List.any_eq_true.2 ⟨f, hf, h⟩)
  have : dirColor t sb = .ok ((firstOf t (dirRules sb)).or none) := by
    unfold dirColor dirRules
    dsimp only
    refine rule_step t .tw sb _ _ _ _ ?_ (hu _ (by simp)) ?_
    · cases sb with
      | none => rfl
      | some s => exact (and_1002 s.mode).symm
    refine rule_step t .ow sb _ _ _ _ rfl (hu _ (by simp)) ?_
    refine rule_step t .st sb _ _ _ _ rfl (hu _ (by simp)) ?_
    rw [ptr_eq, Option.or_none]
  rw [this, Option.or_none]

theorem or_seq {t : Table} {a b : Option Ptr} (ha : ∀ q, a = some q → (t.seq q).isSome = true)
    (hb : ∀ q, b = some q → (t.seq q).isSome = true) : ∀ q, a.or b = some q → (t.seq q).isSome = true := by
  intro q hq
  cases a with
  | none => exact hb q hq
  | some a => exact ha q hq

theorem withStat_eq {t : Table} {c : Cpath} {fs : List Field} {k : Option St → Out (Option Ptr)}
    {stat : Option St} (hS : inUse t fs = true → cpathStat c = .ok stat)
    {r : Option St → Option Ptr} (hk : ∀ sb, (inUse t fs = true → sb.isSome = true) → k sb = .ok (r sb))
    (hr : ∀ sb q, r sb = some q → (t.seq q).isSome = true) (hnone : inUse t fs = false → r none = r stat) :
    withStat t c fs k = .ok (match (if inUse t fs = true ∧ stat = none then none else some (r stat)) with
      | none => missingColor t
      | some none => none
      | some (some p) => if t.seq p = some [] then firstOf t [(true, .no)] else some p) := by
  have hu : (fs.any fun f => (t.ptr f).isSome) = inUse t fs := by
    unfold inUse
    congr 1
    funext f
    exact ptr_isSome t f
  unfold withStat
  rw [hu]
  cases hi : inUse t fs with
  | true =>
    rw [if_pos rfl, hS hi]
    cases stat with
    | none =>
      rw [if_pos ⟨rfl, rfl⟩]
      show Out.ok (errorColor t) = _
      rw [errorColor_eq]
    | some s =>
      rw [if_neg (by simp)]
      show (k (some s)).bind _ = _
      rw [hk _ (fun _ => rfl)]
      show fallBack t (r (some s)) = _
      rw [fallBack_eq (hr (some s))]
      cases r (some s) <;> rfl
  | false =>
    rw [if_neg (by simp), if_neg (by simp), hk none (by rw [hi]; intro h; cases h)]
    show fallBack t (r none) = _
    rw [hnone hi, fallBack_eq (hr stat)]
    cases r stat <;> rfl

theorem fileColor_eq {t : Table} (hg : t.Good) {c : Cpath} {v : View} (hT : cpathType c = .ok v.type)
    (hS : cpathStat c = .ok v.stat) (hc : cpathCaps c = v.caps) (hb : cpathBroken c = v.broken)
    (hn : (c.path.drop c.nameoff).take (c.valid - c.nameoff) = v.name) :
    fileColor t c = .ok (color t v) := by
  have one : ∀ l : List (Bool × Field), fallBack t (firstOf t l) = .ok (match some (firstOf t l) with
      | none => missingColor t
      | some none => none
      | some (some p) => if t.seq p = some [] then firstOf t [(true, .no)] else some p) := by
    intro l
    rw [fallBack_eq fun q hq => firstOf_seq hq]
    cases firstOf t l <;> rfl
  unfold fileColor
  rw [hT]
  show (match v.type with
    | .error => Out.ok (errorColor t)
    | .reg => withStat t c [.su, .sg, .ex, .mh] (regColor t c)
    | .dir => withStat t c [.tw, .ow, .st] (dirColor t)
    | .lnk => fallBack t (if (t.ptr .or).isSome && cpathBroken c then t.ptr .or else t.ptr .ln)
    | .blk => fallBack t (t.ptr .bd)
    | .chr => fallBack t (t.ptr .cd)
    | .fifo => fallBack t (t.ptr .pi)
    | .sock => fallBack t (t.ptr .so)
    | .door => fallBack t (t.ptr .door)
    | _ => .ok none) = _
  unfold color plainColor
  cases v.type with
  | error => exact congrArg Out.ok (errorColor_eq t)
  | reg =>
    refine withStat_eq (fun _ => hS) (r := fun sb => (firstOf t (regRules sb v.caps)).or
      ((extOf t v.name).or (firstOf t [(true, .fi)]))) ?_ ?_ ?_
    · intro sb hsb
      rw [regColor_eq hg c hsb, hc, hn]
    · intro sb
      exact or_seq (fun q hq => firstOf_seq hq) (or_seq (fun q hq => (extOf_seq hg hq).1) fun q hq => firstOf_seq hq)
    · intro hi
      have h : ∀ f ∈ [Field.su, .sg, .ex, .mh], t.esc f = none := by
        intro f hf
        cases hx : t.esc f with
        | none => rfl
        | some x =>
          have : inUse t [.su, .sg, .ex, .mh] = true := List.any_eq_true.2 ⟨f, hf, by rw [hx]; rfl⟩
          rw [hi] at this
          cases this
      unfold regRules
      simp [firstOf, h .su (by simp), h .sg (by simp), h .ex (by simp), h .mh (by simp)]
  | dir =>
    refine withStat_eq (fun _ => hS) (r := fun sb => firstOf t (dirRules sb)) ?_ ?_ ?_
    · intro sb hsb
      rw [dirColor_eq hsb]
    · intro sb q hq
      exact firstOf_seq hq
    · intro hi
      have h : ∀ f ∈ [Field.tw, .ow, .st], t.esc f = none := by
        intro f hf
        cases hx : t.esc f with
        | none => rfl
        | some x =>
          have : inUse t [.tw, .ow, .st] = true := List.any_eq_true.2 ⟨f, hf, by rw [hx]; rfl⟩
          rw [hi] at this
          cases this
      unfold dirRules
      simp [firstOf, h .tw (by simp), h .ow (by simp), h .st (by simp)]
  | lnk =>
    have : (if (t.ptr .or).isSome && cpathBroken c then t.ptr .or else t.ptr .ln) = firstOf t [(v.broken, .or), (true, .ln)] := by
      rw [hb, ptr_isSome]
      unfold Table.ptr
      cases ho : t.esc .or <;> cases v.broken <;> cases hl : t.esc .ln <;> simp [firstOf, ho, hl]
    show fallBack t _ = _
    rw [this]
    exact one _
  | blk => show fallBack t _ = _; rw [ptr_eq]; exact one _
  | chr => show fallBack t _ = _; rw [ptr_eq]; exact one _
  | fifo => show fallBack t _ = _; rw [ptr_eq]; exact one _
  | sock => show fallBack t _ = _; rw [ptr_eq]; exact one _
  | door => show fallBack t _ = _; rw [ptr_eq]; exact one _
  | unknown => rfl
  | port => rfl
  | wht => rfl

end Verif.Cprint
