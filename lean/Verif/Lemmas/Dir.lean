import Verif.Spec.Dir
import Verif.Lemmas.Varena
/-!
# Lemmas about reading directories
-/
namespace Verif.Dir
open Verif Verif.Spec.Dir Verif.Alloc

/-! ## Entries -/

theorem dotString : ".".toUTF8.toList = [46] := by decide +kernel
theorem dotdotString : "..".toUTF8.toList = [46, 46] := by decide +kernel

theorem dots_eq (name : List UInt8) : isDots name = (decide (name = [46]) || decide (name = [46, 46])) := by
  unfold isDots
  cases name with
  | nil => rfl
  | cons a rest =>
    by_cases ha : a = 46
    · subst ha
      cases rest with
      | nil => rfl
      | cons c rest => cases rest <;> simp
    · split
      · rename_i heq; exact absurd (List.cons.inj heq).1 ha
      · simp [ha]

theorem skipdent_iff (wht w : Bool) (de : Dent) : skipdent wht w de = true ↔ ¬ Visible (w || !wht) de := by
  unfold Visible
  rw [dotString, dotdotString]
  unfold skipdent
  rw [dots_eq]
  by_cases h1 : de.name = [46] <;> by_cases h2 : de.name = [46, 46] <;> cases w <;> cases wht <;> simp_all

theorem type_table : ∀ n < 16, modeToType (n <<< 12) = typeOf n := by decide

theorem contents_nil (w : Bool) : contents w [] = [] := rfl

theorem contents_skip {wht w : Bool} {de : Dent} (h : skipdent wht w de = true) (ds : List Dent) :
    contents (w || !wht) (de :: ds) = contents (w || !wht) ds := by
  unfold contents
  rw [List.filter_cons_of_neg]
  simpa using (skipdent_iff wht w de).1 h

theorem contents_keep {wht w : Bool} {de : Dent} (h : skipdent wht w de = false) (ht : de.type < 16) (ds : List Dent) :
    contents (w || !wht) (de :: ds) = (dType de, de.name) :: contents (w || !wht) ds := by
  unfold contents
  have hv : Visible (w || !wht) de := by
    apply Classical.byContradiction
    intro hv
    rw [← skipdent_iff, h] at hv
    cases hv
  rw [List.filter_cons_of_pos (by simpa using hv), List.map_cons]
  unfold dType
  rw [type_table _ ht]

/-! ## The kernel -/

theorem total_cons (d : Dent) (ds : List Dent) : total (d :: ds) = d.reclen + total ds := by
  simp [total]

theorem total_append (a b : List Dent) : total (a ++ b) = total a + total b := by
  simp [total]

theorem fitting_le : ∀ (ds : List Dent) (k n : Nat), total (ds.take (fitting ds k n)) ≤ n
  | [], k, n => by simp [fitting, total]
  | d :: ds, 0, n => by simp [fitting, total]
  | d :: ds, k + 1, n => by
    unfold fitting
    split
    · rw [List.take_succ_cons, total_cons]
      have := fitting_le ds k (n - d.reclen)
      omega
    · simp [total]

/-- What `getdents()` does. -/
theorem getdents_spec (k : Kernel) (n : Nat) :
    match getdents k n with
    | (.ok ds, k') => k.rest = ds ++ k'.rest ∧ total ds ≤ n ∧ (ds = [] → k.rest = [])
    | (.error _, k') => k'.rest = k.rest := by
  have serve_spec : ∀ (k : Kernel) (l : Nat),
      match serve k l n with
      | (.ok ds, k') => k.rest = ds ++ k'.rest ∧ total ds ≤ n ∧ (ds = [] → k.rest = [])
      | (.error _, k') => k'.rest = k.rest := by
    intro k l
    unfold serve
    dsimp only
    by_cases h : k.rest = []
    · rw [if_pos h]; dsimp only
      refine ⟨by simp, by simp [total], fun _ => h⟩
    · rw [if_neg h]
      by_cases h0 : fitting k.rest l n = 0
      · rw [if_pos h0]
      · rw [if_neg h0]
        refine ⟨by simp, fitting_le _ _ _, ?_⟩
        intro ht
        rw [List.take_eq_nil_iff] at ht
        rcases ht with ht | ht
        · exact absurd ht h0
        · exact ht
  unfold getdents
  cases hs : k.script with
  | nil => exact serve_spec _ _
  | cons a s =>
    cases a with
    | error e => rfl
    | entries m => exact serve_spec { k with script := s } _

/-! ## The buffer -/

/-- Some entries follow each other in the buffer. -/
def Layout (m : Mem) : Nat → List Dent → Nat → Prop
  | p, [], q => p = q
  | p, d :: ds, q => m p = some d ∧ Layout m (p + d.reclen) ds q

theorem Layout.len {m : Mem} : ∀ {p : Nat} {ds : List Dent} {q : Nat}, Layout m p ds q → q = p + total ds
  | p, [], q, h => by simp [total]; exact h.symm
  | p, d :: ds, q, h => by
    rw [total_cons, h.2.len]; omega

theorem Layout.append {m : Mem} : ∀ {p : Nat} {a b : List Dent} {q r : Nat}, Layout m p a q → Layout m q b r →
    Layout m p (a ++ b) r
  | p, [], b, q, r, h1, h2 => by have : p = q := h1; subst this; exact h2
  | p, d :: a, b, q, r, h1, h2 => ⟨h1.1, h1.2.append h2⟩

theorem Layout.congr {m m' : Mem} : ∀ {p : Nat} {ds : List Dent} {q : Nat}, Valid ds → Layout m p ds q →
    (∀ x, x < q → m' x = m x) → Layout m' p ds q
  | p, [], q, _, h, _ => h
  | p, d :: ds, q, hv, h, hm => by
    have hq := h.2.len
    have hd := (hv d (by simp)).1
    exact ⟨by rw [hm p (by omega)]; exact h.1, h.2.congr (fun x hx => hv x (by simp [hx])) hm⟩

theorem store_below : ∀ (ds : List Dent) (m : Mem) (p x : Nat), x < p → store m p ds x = m x
  | [], _, _, _, _ => rfl
  | d :: ds, m, p, x, h => by
    rw [store, store_below ds _ _ _ (by omega), if_neg (by omega), if_neg (by omega)]

theorem store_layout : ∀ (ds : List Dent) (m : Mem) (p : Nat), Valid ds → Layout (store m p ds) p ds (p + total ds)
  | [], _, p, _ => by simp [Layout, total]
  | d :: ds, m, p, hv => by
    have hd := (hv d (by simp)).1
    refine ⟨?_, ?_⟩
    · rw [store, store_below _ _ _ _ (by omega), if_pos rfl]
    · rw [store, total_cons, ← Nat.add_assoc]
      exact store_layout ds _ _ (fun x hx => hv x (by simp [hx]))

theorem total_pos {ds : List Dent} (hv : Valid ds) : ds.length ≤ total ds := by
  induction ds with
  | nil => simp [total]
  | cons d ds ih =>
    rw [total_cons]
    have := (hv d (by simp)).1
    have := ih (fun x hx => hv x (by simp [hx]))
    simp; omega

theorem total_zero {ds : List Dent} (hv : Valid ds) : total ds = 0 ↔ ds = [] := by
  constructor
  · intro h
    have := total_pos hv
    exact List.length_eq_zero_iff.1 (by omega)
  · intro h; subst h; rfl

/-! ## Polling -/

/-- The state of a directory: `pending` are the entries in the buffer. -/
structure Inv (d : Dir) (k : Kernel) (pending : List Dent) : Prop where
  layout : Layout d.buf d.pos pending d.size
  size : d.size ≤ BUF_SIZE
  eof : d.eof = true → k.rest = []
  valid : Valid pending
  rest : Valid k.rest

theorem valid_left {a b : List Dent} (h : Valid (a ++ b)) : Valid a := fun x hx => h x (by simp [hx])
theorem valid_right {a b : List Dent} (h : Valid (a ++ b)) : Valid b := fun x hx => h x (by simp [hx])
theorem valid_append {a b : List Dent} (h1 : Valid a) (h2 : Valid b) : Valid (a ++ b) := by
  intro x hx
  rcases List.mem_append.1 hx with h | h
  · exact h1 x h
  · exact h2 x h

theorem eager_spec {d : Dir} {k : Kernel} {L : List Dent} (h : Inv d k L) (he : d.eof = false) :
    ∃ L', Inv (eager d k d.size).1 (eager d k d.size).2 (L ++ L') ∧ k.rest = L' ++ (eager d k d.size).2.rest ∧
      (eager d k d.size).1.whiteouts = d.whiteouts := by
  unfold eager
  dsimp only
  have hsz := h.size
  by_cases hr : BUF_SIZE - d.size ≥ DIRENT_SIZE
  · rw [if_pos hr]
    have hg := getdents_spec k (BUF_SIZE - d.size)
    cases hgd : getdents k (BUF_SIZE - d.size) with
    | mk r k' =>
      rw [hgd] at hg
      cases r with
      | error e =>
        dsimp only at hg ⊢
        refine ⟨[], ?_, by rw [hg]; rfl, rfl⟩
        rw [List.append_nil]
        exact ⟨h.layout, h.size, (by intro hx; rw [he] at hx; cases hx), h.valid, by rw [hg]; exact h.rest⟩
      | ok ds =>
        obtain ⟨h1, h2, h3⟩ := hg
        have hv : Valid ds := by have := h.rest; rw [h1] at this; exact valid_left this
        have hv' : Valid k'.rest := by have := h.rest; rw [h1] at this; exact valid_right this
        dsimp only
        by_cases ht : total ds > 0
        · rw [if_pos ht]
          dsimp only
          have hmod : (d.size + total ds) % 65536 = d.size + total ds := by
            apply Nat.mod_eq_of_lt
            unfold BUF_SIZE at h2 hsz
            omega
          refine ⟨ds, ⟨?_, ?_, ?_, valid_append h.valid hv, hv'⟩, h1, rfl⟩
          · show Layout (store d.buf d.size ds) d.pos (L ++ ds) ((d.size + total ds) % 65536)
            rw [hmod]
            refine Layout.append (q := d.size) (h.layout.congr h.valid ?_) (store_layout ds _ _ hv)
            intro x hx; exact store_below _ _ _ _ hx
          · show (d.size + total ds) % 65536 ≤ BUF_SIZE
            rw [hmod]; omega
          · intro hx; rw [show ({ d with
              buf := store d.buf d.size ds
              size := (d.size + total ds) % 65536 } : Dir).eof = d.eof from rfl, he] at hx; cases hx
        · rw [if_neg ht]
          have hds : ds = [] := (total_zero hv).1 (by omega)
          subst hds
          have hk := h3 rfl
          refine ⟨[], ?_, h1, rfl⟩
          rw [List.append_nil]
          refine ⟨h.layout, h.size, ?_, h.valid, hv'⟩
          intro _
          rw [hk] at h1; exact h1.symm
  · rw [if_neg hr]
    refine ⟨[], ?_, rfl, rfl⟩
    rw [List.append_nil]; exact h

theorem poll_spec {d : Dir} {k : Kernel} {L : List Dent} (h : Inv d k L) :
    ∃ L', Inv (polldir d k).2.1 (polldir d k).2.2 L' ∧ L ++ k.rest = L' ++ (polldir d k).2.2.rest ∧
      (polldir d k).2.1.whiteouts = d.whiteouts ∧
      match (polldir d k).1 with
      | .ok n => (n = 0 ∧ L' = [] ∧ (polldir d k).2.2.rest = []) ∨ (n = 1 ∧ L' ≠ [])
      | .error _ => True := by
  unfold polldir
  have hlen := h.layout.len
  by_cases hp : d.pos < d.size
  · rw [if_pos hp]
    refine ⟨L, h, rfl, rfl, Or.inr ⟨rfl, ?_⟩⟩
    intro hL; subst hL; simp [total] at hlen; omega
  · rw [if_neg hp]
    have hL : L = [] := (total_zero h.valid).1 (by omega)
    subst hL
    by_cases he : d.eof = true
    · rw [if_pos he]
      exact ⟨[], h, rfl, rfl, Or.inl ⟨rfl, rfl, h.eof he⟩⟩
    · rw [if_neg he]
      have he' : d.eof = false := by cases hx : d.eof <;> simp_all
      have hg := getdents_spec k BUF_SIZE
      cases hgd : getdents k BUF_SIZE with
      | mk r k' =>
        rw [hgd] at hg
        cases r with
        | error e =>
          dsimp only at hg ⊢
          refine ⟨[], ⟨h.layout, h.size, ?_, h.valid, by rw [hg]; exact h.rest⟩, by rw [hg], rfl, trivial⟩
          intro hx; exact absurd hx he
        | ok ds =>
          obtain ⟨h1, h2, h3⟩ := hg
          have hv : Valid ds := by have := h.rest; rw [h1] at this; exact valid_left this
          have hv' : Valid k'.rest := by have := h.rest; rw [h1] at this; exact valid_right this
          dsimp only
          by_cases ht : total ds = 0
          · rw [if_pos ht]
            have hds := (total_zero hv).1 ht
            subst hds
            have hk := h3 rfl
            have hk' : k'.rest = [] := by rw [hk] at h1; exact h1.symm
            refine ⟨[], ⟨h.layout, h.size, fun _ => hk', h.valid, hv'⟩, h1, rfl, Or.inl ⟨rfl, rfl, hk'⟩⟩
          · rw [if_neg ht]
            have hmod : total ds % 65536 = total ds := by
              apply Nat.mod_eq_of_lt
              unfold BUF_SIZE at h2
              omega
            have hi : Inv { d with
                buf := store d.buf 0 ds
                pos := 0
                size := total ds } k' ds := by
              refine ⟨?_, h2, ?_, hv, hv'⟩
              · have := store_layout ds d.buf 0 hv
                rw [Nat.zero_add] at this; exact this
              · intro hx; exact absurd hx he
            obtain ⟨L', g1, g2, g3⟩ := eager_spec hi he'
            rw [hmod]
            refine ⟨ds ++ L', g1, ?_, g3, Or.inr ⟨rfl, ?_⟩⟩
            · rw [List.nil_append, h1, List.append_assoc]
              rw [g2]
            · intro hx
              have : ds = [] := (List.append_eq_nil_iff.1 hx).1
              exact ht ((total_zero hv).2 this)

theorem getdent_some {d d' : Dir} {k k' : Kernel} {n : Nat} {de : Dent} (h : polldir d k = (.ok (n + 1), d', k'))
    (hb : d'.buf d'.pos = some de) : getdent d k = .ok (.ok (some de), { d' with pos := (d'.pos + de.reclen) % 65536 }, k') := by
  have : getdent d k = match d'.buf d'.pos with
    | none => .ub
    | some de => .ok (.ok (some de), { d' with pos := (d'.pos + de.reclen) % 65536 }, k') := by
    unfold getdent; rw [h]; cases hq : d'.buf d'.pos <;> simp [hq]
  rw [this, hb]

theorem getdent_none {d d' : Dir} {k k' : Kernel} {n : Nat} (h : polldir d k = (.ok (n + 1), d', k'))
    (hb : d'.buf d'.pos = none) : getdent d k = .ub := by
  have : getdent d k = match d'.buf d'.pos with
    | none => .ub
    | some de => .ok (.ok (some de), { d' with pos := (d'.pos + de.reclen) % 65536 }, k') := by
    unfold getdent; rw [h]; cases hq : d'.buf d'.pos <;> simp [hq]
  rw [this, hb]

theorem getdent_spec {d : Dir} {k : Kernel} {L : List Dent} (h : Inv d k L) :
    ∃ r d' k' L', getdent d k = .ok (r, d', k') ∧ Inv d' k' L' ∧ d'.whiteouts = d.whiteouts ∧
      match r with
      | .error _ => L ++ k.rest = L' ++ k'.rest
      | .ok none => L ++ k.rest = [] ∧ L' ++ k'.rest = []
      | .ok (some de) => L ++ k.rest = de :: (L' ++ k'.rest) ∧ de.type < 16 := by
  obtain ⟨L', h1, h2, h3, h4⟩ := poll_spec h
  unfold getdent
  cases hp : polldir d k with
  | mk r x =>
    obtain ⟨d', k'⟩ := x
    rw [hp] at h1 h2 h3 h4
    dsimp only at h1 h2 h3 h4
    cases r with
    | error e => exact ⟨_, d', k', L', rfl, h1, h3, h2⟩
    | ok n =>
      dsimp only at h4
      rcases h4 with ⟨hn, hl, hr⟩ | ⟨hn, hl⟩
      · subst hn
        have : L' ++ k'.rest = [] := by rw [hl, hr]; rfl
        exact ⟨_, d', k', L', rfl, h1, h3, by rw [h2]; exact this, this⟩
      · subst hn
        cases L' with
        | nil => exact absurd rfl hl
        | cons de L' =>
          obtain ⟨g1, g2⟩ := h1.layout
          have hgd := getdent_some (n := 0) hp g1
          unfold getdent at hgd
          rw [hp] at hgd
          rw [hgd]
          have hlen := h1.layout.len
          rw [total_cons] at hlen
          have hsz := h1.size
          have hmod : (d'.pos + de.reclen) % 65536 = d'.pos + de.reclen := by
            apply Nat.mod_eq_of_lt
            unfold BUF_SIZE at hsz
            omega
          refine ⟨_, _, _, L', rfl, ⟨?_, h1.size, h1.eof, ?_, h1.rest⟩, h3, h2, (h1.valid de (by simp)).2.2⟩
          · show Layout d'.buf ((d'.pos + de.reclen) % 65536) L' d'.size
            rw [hmod]; exact g2
          · exact fun x hx => h1.valid x (by simp [hx])

theorem readLoop_spec (wht : Bool) : ∀ (n : Nat) {d : Dir} {k : Kernel} {L : List Dent}, Inv d k L →
    (L ++ k.rest).length < n →
    ∃ r d' k' L', readLoop wht n d k = .ok (r, d', k') ∧ Inv d' k' L' ∧ d'.whiteouts = d.whiteouts ∧
      match r with
      | .error _ => contents (d.whiteouts || !wht) (L ++ k.rest) = contents (d.whiteouts || !wht) (L' ++ k'.rest)
      | .ok none => contents (d.whiteouts || !wht) (L ++ k.rest) = [] ∧ L' ++ k'.rest = []
      | .ok (some e) => contents (d.whiteouts || !wht) (L ++ k.rest) = e :: contents (d.whiteouts || !wht) (L' ++ k'.rest)
  | 0, d, k, L, h, hn => by omega
  | n + 1, d, k, L, h, hn => by
    obtain ⟨r, d', k', L', h1, h2, h3, h4⟩ := getdent_spec h
    rw [readLoop, h1, ok_bind]
    cases r with
    | error e =>
      dsimp only at h4 ⊢
      exact ⟨_, d', k', L', rfl, h2, h3, by rw [h4]⟩
    | ok o =>
      cases o with
      | none =>
        dsimp only at h4 ⊢
        exact ⟨_, d', k', L', rfl, h2, h3, by rw [h4.1]; rfl, h4.2⟩
      | some de =>
        dsimp only at h4 ⊢
        obtain ⟨h5, h6⟩ := h4
        rw [h3]
        cases hs : skipdent wht d.whiteouts de with
        | true =>
          rw [if_pos rfl]
          have hl : (L' ++ k'.rest).length < n := by
            rw [h5] at hn; simp only [List.length_cons] at hn; omega
          obtain ⟨r2, d2, k2, L2, g1, g2, g3, g4⟩ := readLoop_spec wht n h2 hl
          refine ⟨r2, d2, k2, L2, g1, g2, by rw [g3, h3], ?_⟩
          rw [h5, contents_skip hs]
          rw [h3] at g4
          exact g4
        | false =>
          rw [if_neg (by simp)]
          refine ⟨_, d', k', L', rfl, h2, h3, ?_⟩
          dsimp only
          rw [h5, contents_keep hs h6]

theorem readdir_spec (wht : Bool) {d : Dir} {k : Kernel} {L : List Dent} (h : Inv d k L) :
    ∃ r d' k' L', readdir wht d k = .ok (r, d', k') ∧ Inv d' k' L' ∧ d'.whiteouts = d.whiteouts ∧
      match r with
      | .error _ => contents (d.whiteouts || !wht) (L ++ k.rest) = contents (d.whiteouts || !wht) (L' ++ k'.rest)
      | .ok none => contents (d.whiteouts || !wht) (L ++ k.rest) = [] ∧ L' ++ k'.rest = []
      | .ok (some e) => contents (d.whiteouts || !wht) (L ++ k.rest) = e :: contents (d.whiteouts || !wht) (L' ++ k'.rest) := by
  apply readLoop_spec wht _ h
  have := h.layout.len
  have := total_pos h.valid
  rw [List.length_append]
  omega

theorem run_spec (wht : Bool) : ∀ (ops : List Op) {d : Dir} {k : Kernel} {L : List Dent}, Inv d k L →
    ∃ rs d' k' L', run wht ops d k = .ok (rs, d', k') ∧ Inv d' k' L' ∧ d'.whiteouts = d.whiteouts ∧
      contents (d.whiteouts || !wht) (L ++ k.rest) = entriesOf rs ++ contents (d.whiteouts || !wht) (L' ++ k'.rest)
  | [], d, k, L, h => ⟨[], d, k, L, rfl, h, rfl, rfl⟩
  | .poll :: ops, d, k, L, h => by
    obtain ⟨L1, h1, h2, h3, _⟩ := poll_spec h
    obtain ⟨rs, d', k', L', g1, g2, g3, g4⟩ := run_spec wht ops h1
    rw [h3] at g3 g4
    exact ⟨rs, d', k', L', g1, g2, g3, by rw [h2, g4]⟩
  | .read :: ops, d, k, L, h => by
    obtain ⟨r, d1, k1, L1, h1, h2, h3, h4⟩ := readdir_spec wht h
    obtain ⟨rs, d', k', L', g1, g2, g3, g4⟩ := run_spec wht ops h2
    rw [h3] at g3 g4
    refine ⟨r :: rs, d', k', L', ?_, g2, g3, ?_⟩
    · rw [run, h1, ok_bind]
      dsimp only
      rw [g1, ok_bind]
    · cases r with
      | error e => dsimp only at h4; rw [h4, g4]; rfl
      | ok o =>
        cases o with
        | none =>
          obtain ⟨h5, h6⟩ := h4
          rw [h6, contents_nil] at g4
          rw [h5, g4]; rfl
        | some e => dsimp only at h4; rw [h4, g4]; rfl

theorem inv_open (w : Bool) (junk : Mem) {k : Kernel} (hv : Valid k.rest) : Inv (opendir w junk) k [] :=
  ⟨rfl, Nat.zero_le _, (by intro h; cases h), (by intro x hx; cases hx), hv⟩

/-! ## Without errors -/

/-- No errors will occur. -/
def NoErrors (k : Kernel) : Prop := ∀ e, Answer.error e ∉ k.script

theorem fitting_pos {ds : List Dent} (hv : Valid ds) (h : ds ≠ []) (l : Nat) : 0 < fitting ds (l + 1) BUF_SIZE := by
  cases ds with
  | nil => exact absurd rfl h
  | cons d ds =>
    unfold fitting
    rw [if_pos (show d.reclen ≤ BUF_SIZE from (hv d (by simp)).2.1)]
    omega

theorem serve_ok {k : Kernel} (hv : Valid k.rest) {l : Nat} (hl : 0 < l ∨ k.rest = []) : ∃ ds k', serve k l BUF_SIZE = (.ok ds, k') ∧ k'.script = k.script := by
  unfold serve
  dsimp only
  by_cases h : k.rest = []
  · rw [if_pos h]; exact ⟨_, _, rfl, rfl⟩
  · rw [if_neg h]
    have : fitting k.rest l BUF_SIZE ≠ 0 := by
      cases l with
      | zero => rcases hl with h' | h'
                · omega
                · exact absurd h' h
      | succ l => have := fitting_pos hv h l; omega
    rw [if_neg this]
    exact ⟨_, _, rfl, rfl⟩

theorem getdents_ok {k : Kernel} (hv : Valid k.rest) (hn : NoErrors k) : ∃ ds k', getdents k BUF_SIZE = (.ok ds, k') ∧ NoErrors k' := by
  unfold getdents
  cases hs : k.script with
  | nil =>
    dsimp only
    obtain ⟨ds, k', h1, h2⟩ := serve_ok hv (l := k.rest.length) (by
      cases k.rest with
      | nil => right; rfl
      | cons => left; simp)
    exact ⟨ds, k', h1, by intro e; rw [h2, hs]; simp⟩
  | cons a s =>
    cases a with
    | error e => exact absurd (by rw [hs]; simp) (hn e)
    | entries n =>
      dsimp only
      obtain ⟨ds, k', h1, h2⟩ := serve_ok (k := { k with script := s }) hv (l := n + 1) (Or.inl (by omega))
      refine ⟨ds, k', h1, ?_⟩
      intro e; rw [h2]; intro he; exact hn e (by rw [hs]; simp [he])

theorem getdents_errors {k : Kernel} (n : Nat) (hn : NoErrors k) : NoErrors (getdents k n).2 := by
  have hserve : ∀ (k : Kernel) l, (serve k l n).2.script = k.script := by
    intro k l
    unfold serve
    dsimp only
    split
    · rfl
    · split <;> rfl
  unfold getdents
  cases hs : k.script with
  | nil => intro e; rw [hserve, hs]; simp
  | cons a s =>
    have : ∀ e, Answer.error e ∉ s := fun e he => hn e (by rw [hs]; simp [he])
    cases a with
    | error e => exact this
    | entries m => intro e; rw [hserve]; exact this e

theorem eager_errors {d : Dir} {k : Kernel} {n : Nat} (hn : NoErrors k) : NoErrors (eager d k n).2 := by
  have := getdents_errors (BUF_SIZE - n) hn
  unfold eager
  dsimp only
  split
  · cases hg : getdents k (BUF_SIZE - n) with
    | mk r k' =>
      rw [hg] at this
      cases r with
      | error e => exact this
      | ok ds =>
        dsimp only
        split <;> exact this
  · exact hn

theorem poll_ok {d : Dir} {k : Kernel} {L : List Dent} (h : Inv d k L) (hn : NoErrors k) :
    (∃ n, (polldir d k).1 = .ok n) ∧ NoErrors (polldir d k).2.2 := by
  unfold polldir
  split
  · exact ⟨⟨_, rfl⟩, hn⟩
  · split
    · exact ⟨⟨_, rfl⟩, hn⟩
    · obtain ⟨ds, k', h1, h2⟩ := getdents_ok h.rest hn
      rw [h1]
      dsimp only
      split
      · exact ⟨⟨_, rfl⟩, h2⟩
      · exact ⟨⟨_, rfl⟩, eager_errors h2⟩

theorem readLoop_ok (wht : Bool) : ∀ (n : Nat) {d : Dir} {k : Kernel} {L : List Dent}, Inv d k L → NoErrors k →
    ∀ {r d' k'}, readLoop wht n d k = .ok (r, d', k') → (∃ o, r = .ok o) ∧ NoErrors k'
  | 0, _, _, _, _, _, _, _, _, hr => by cases hr
  | n + 1, d, k, L, h, hn, r, d', k', hr => by
    obtain ⟨⟨m, hm⟩, hne⟩ := poll_ok h hn
    obtain ⟨r1, d1, k1, L1, h1, h2, h3, h4⟩ := getdent_spec h
    have hg : (∃ o, r1 = .ok o) ∧ NoErrors k1 := by
      cases hp : polldir d k with
      | mk q x =>
        obtain ⟨d2, k2⟩ := x
        rw [hp] at hm hne
        dsimp only at hm hne
        subst hm
        cases m with
        | zero =>
          unfold getdent at h1
          rw [hp] at h1
          simp only [Out.ok.injEq, Prod.mk.injEq] at h1
          exact ⟨⟨_, h1.1.symm⟩, by rw [← h1.2.2]; exact hne⟩
        | succ m =>
          cases hb : d2.buf d2.pos with
          | none => rw [getdent_none hp hb] at h1; cases h1
          | some de =>
            rw [getdent_some hp hb] at h1
            simp only [Out.ok.injEq, Prod.mk.injEq] at h1
            exact ⟨⟨_, h1.1.symm⟩, by rw [← h1.2.2]; exact hne⟩
    obtain ⟨⟨o, ho⟩, hk1⟩ := hg
    subst ho
    rw [readLoop, h1, ok_bind] at hr
    cases o with
    | none =>
      simp only [Out.ok.injEq, Prod.mk.injEq] at hr
      exact ⟨⟨_, hr.1.symm⟩, by rw [← hr.2.2]; exact hk1⟩
    | some de =>
      dsimp only at hr
      split at hr
      · exact readLoop_ok wht n h2 hk1 hr
      · simp only [Out.ok.injEq, Prod.mk.injEq] at hr
        exact ⟨⟨_, hr.1.symm⟩, by rw [← hr.2.2]; exact hk1⟩

theorem run_complete (wht : Bool) : ∀ (cs : List (Type' × List UInt8)) {d : Dir} {k : Kernel} {L : List Dent},
    Inv d k L → NoErrors k → contents (d.whiteouts || !wht) (L ++ k.rest) = cs →
    ∃ d' k', run wht (List.replicate (cs.length + 1) .read) d k = .ok (cs.map (fun e => .ok (some e)) ++ [.ok none], d', k')
  | [], d, k, L, h, hn, hc => by
    obtain ⟨r, d1, k1, L1, h1, h2, h3, h4⟩ := readdir_spec wht h
    obtain ⟨⟨o, ho⟩, _⟩ := readLoop_ok wht _ h hn h1
    subst ho
    cases o with
    | some e => dsimp only at h4; rw [hc] at h4; cases h4
    | none =>
      refine ⟨d1, k1, ?_⟩
      rw [show List.replicate (([] : List (Type' × List UInt8)).length + 1) Op.read = [.read] from rfl]
      rw [run, h1, ok_bind]
      rfl
  | c :: cs, d, k, L, h, hn, hc => by
    obtain ⟨r, d1, k1, L1, h1, h2, h3, h4⟩ := readdir_spec wht h
    obtain ⟨⟨o, ho⟩, hk1⟩ := readLoop_ok wht _ h hn h1
    subst ho
    cases o with
    | none => rw [hc] at h4; cases h4.1
    | some e =>
      dsimp only at h4
      rw [hc] at h4
      obtain ⟨h5, h6⟩ := List.cons.inj h4
      subst h5
      obtain ⟨d', k', g⟩ := run_complete wht cs h2 hk1 (by rw [h3]; exact h6.symm)
      refine ⟨d', k', ?_⟩
      rw [show List.replicate ((c :: cs).length + 1) Op.read = .read :: List.replicate (cs.length + 1) .read from rfl]
      rw [run, h1, ok_bind]
      dsimp only
      rw [g, ok_bind]
      rfl

/-! ## With `readdir()` -/

/-- The entries that are still to be read. -/
def pending2 (d : Dir2) (s : Stream) : List Dent := d.de.toList ++ s.filterMap streamDent

/-- The state of a directory. -/
structure Inv2 (d : Dir2) (s : Stream) : Prop where
  eof : d.eof = true → s = []
  valid : ∀ de ∈ pending2 d s, de.type < 16

theorem poll2_spec {d : Dir2} {s : Stream} (h : Inv2 d s) :
    Inv2 (polldir2 d s).2.1 (polldir2 d s).2.2 ∧ pending2 (polldir2 d s).2.1 (polldir2 d s).2.2 = pending2 d s ∧
      (polldir2 d s).2.1.whiteouts = d.whiteouts ∧
      (polldir2 d s).2.1.de.toList.length + (polldir2 d s).2.2.length ≤ d.de.toList.length + s.length ∧
      match (polldir2 d s).1 with
      | .ok n => (n = 0 ∧ pending2 d s = []) ∨ (n = 1 ∧ (polldir2 d s).2.1.de.isSome = true)
      | .error _ => True := by
  unfold polldir2
  cases hde : d.de with
  | some de =>
    rw [if_pos (show (some de).isSome = true from rfl)]
    refine ⟨h, rfl, rfl, by rw [hde]; simp, Or.inr ⟨rfl, by rw [hde]; rfl⟩⟩
  | none =>
    rw [if_neg (show ¬ (none : Option Dent).isSome = true from Bool.false_ne_true)]
    cases he : d.eof with
    | true =>
      rw [if_pos rfl]
      have := h.eof he
      subst this
      refine ⟨h, rfl, rfl, by rw [hde]; simp, Or.inl ⟨rfl, by unfold pending2; rw [hde]; rfl⟩⟩
    | false =>
      rw [if_neg (by simp)]
      cases s with
      | nil =>
        have hp : pending2 d [] = [] := by unfold pending2; rw [hde]; rfl
        refine ⟨⟨fun _ => rfl, fun x hx => by cases hx⟩, by rw [hp]; rfl, rfl, by simp, Or.inl ⟨rfl, hp⟩⟩
      | cons a s =>
        cases a with
        | error e =>
          have hp : pending2 d (.error e :: s) = s.filterMap streamDent := by unfold pending2; rw [hde]; rfl
          refine ⟨⟨?_, ?_⟩, ?_, rfl, by simp, trivial⟩
          · intro hx; cases hx
          · intro x hx; exact h.valid x (by rw [hp]; exact hx)
          · rw [hp]; rfl
        | ok de =>
          have hp : pending2 d (.ok de :: s) = de :: s.filterMap streamDent := by unfold pending2; rw [hde]; rfl
          refine ⟨⟨?_, ?_⟩, ?_, rfl, by simp; omega, Or.inr ⟨rfl, rfl⟩⟩
          · intro hx; cases hx
          · intro x hx; exact h.valid x (by rw [hp]; exact hx)
          · rw [hp]; rfl

theorem getdent2_some {d d' : Dir2} {s s' : Stream} {n : Nat} {de : Dent} (h : polldir2 d s = (.ok (n + 1), d', s'))
    (hb : d'.de = some de) : getdent2 d s = .ok (.ok (some de), { d' with de := none }, s') := by
  have : getdent2 d s = match d'.de with
    | none => .ub
    | some de => .ok (.ok (some de), { d' with de := none }, s') := by
    unfold getdent2; rw [h]; cases hq : d'.de <;> simp [hq]
  rw [this, hb]

theorem getdent2_spec {d : Dir2} {s : Stream} (h : Inv2 d s) :
    ∃ r d' s', getdent2 d s = .ok (r, d', s') ∧ Inv2 d' s' ∧ d'.whiteouts = d.whiteouts ∧
      d'.de.toList.length + s'.length ≤ d.de.toList.length + s.length ∧
      match r with
      | .error _ => pending2 d s = pending2 d' s'
      | .ok none => pending2 d s = [] ∧ pending2 d' s' = []
      | .ok (some de) => pending2 d s = de :: pending2 d' s' ∧ d'.de.toList.length + s'.length < d.de.toList.length + s.length := by
  obtain ⟨h1, h2, h3, h4, h5⟩ := poll2_spec h
  unfold getdent2
  cases hp : polldir2 d s with
  | mk r x =>
    obtain ⟨d', s'⟩ := x
    rw [hp] at h1 h2 h3 h4 h5
    dsimp only at h1 h2 h3 h4 h5
    cases r with
    | error e => exact ⟨_, d', s', rfl, h1, h3, h4, h2.symm⟩
    | ok n =>
      rcases h5 with ⟨hn, he⟩ | ⟨hn, hd⟩
      · subst hn
        exact ⟨_, d', s', rfl, h1, h3, h4, he, by rw [h2, he]⟩
      · subst hn
        cases hde : d'.de with
        | none => rw [hde] at hd; cases hd
        | some de =>
          rw [hde] at h4
          simp only [Option.toList_some, List.length_cons, List.length_nil] at h4
          have hpe : pending2 d' s' = de :: pending2 { d' with de := none } s' := by
            unfold pending2; rw [hde]; rfl
          have hgd := getdent2_some (n := 0) hp hde
          unfold getdent2 at hgd
          rw [hp] at hgd
          rw [hgd]
          refine ⟨_, _, _, rfl, ⟨h1.eof, fun x hx => h1.valid x (by rw [hpe]; simp [hx])⟩, h3, ?_, ?_, ?_⟩
          · simp; omega
          · rw [← h2, hpe]
          · simp; omega

theorem readLoop2_spec : ∀ (n : Nat) {d : Dir2} {s : Stream}, Inv2 d s → d.de.toList.length + s.length < n →
    ∃ r d' s', readLoop2 n d s = .ok (r, d', s') ∧ Inv2 d' s' ∧ d'.whiteouts = d.whiteouts ∧
      match r with
      | .error _ => contents true (pending2 d s) = contents true (pending2 d' s')
      | .ok none => contents true (pending2 d s) = [] ∧ pending2 d' s' = []
      | .ok (some e) => contents true (pending2 d s) = e :: contents true (pending2 d' s')
  | 0, _, _, _, hn => by omega
  | n + 1, d, s, h, hn => by
    obtain ⟨r, d', s', h1, h2, h3, h4, h5⟩ := getdent2_spec h
    rw [readLoop2, h1, ok_bind]
    cases r with
    | error e => exact ⟨_, d', s', rfl, h2, h3, by rw [h5]⟩
    | ok o =>
      cases o with
      | none => exact ⟨_, d', s', rfl, h2, h3, by rw [h5.1]; rfl, h5.2⟩
      | some de =>
        obtain ⟨h6, h7⟩ := h5
        have hty : de.type < 16 := h.valid de (by rw [h6]; simp)
        dsimp only
        cases hs : skipdent false d'.whiteouts de with
        | true =>
          rw [if_pos rfl]
          obtain ⟨r2, d2, s2, g1, g2, g3, g4⟩ := readLoop2_spec n h2 (by omega)
          have hc := contents_skip hs (pending2 d' s')
          rw [Bool.not_false, Bool.or_true] at hc
          refine ⟨r2, d2, s2, g1, g2, by rw [g3, h3], ?_⟩
          rw [h6, hc]; exact g4
        | false =>
          rw [if_neg (by simp)]
          have hc := contents_keep hs hty (pending2 d' s')
          rw [Bool.not_false, Bool.or_true] at hc
          exact ⟨_, d', s', rfl, h2, h3, by rw [h6, hc]⟩

theorem readdir2_spec {d : Dir2} {s : Stream} (h : Inv2 d s) :
    ∃ r d' s', readdir2 d s = .ok (r, d', s') ∧ Inv2 d' s' ∧ d'.whiteouts = d.whiteouts ∧
      match r with
      | .error _ => contents true (pending2 d s) = contents true (pending2 d' s')
      | .ok none => contents true (pending2 d s) = [] ∧ pending2 d' s' = []
      | .ok (some e) => contents true (pending2 d s) = e :: contents true (pending2 d' s') := by
  apply readLoop2_spec _ h
  have : d.de.toList.length ≤ 1 := by cases d.de <;> simp
  omega

theorem run2_spec : ∀ (ops : List Op) {d : Dir2} {s : Stream}, Inv2 d s →
    ∃ rs d' s', run2 ops d s = .ok (rs, d', s') ∧ Inv2 d' s' ∧
      contents true (pending2 d s) = entriesOf rs ++ contents true (pending2 d' s')
  | [], d, s, h => ⟨[], d, s, rfl, h, rfl⟩
  | .poll :: ops, d, s, h => by
    obtain ⟨h1, h2, _⟩ := poll2_spec h
    obtain ⟨rs, d', s', g1, g2, g3⟩ := run2_spec ops h1
    exact ⟨rs, d', s', g1, g2, by rw [← h2, g3]⟩
  | .read :: ops, d, s, h => by
    obtain ⟨r, d1, s1, h1, h2, _, h4⟩ := readdir2_spec h
    obtain ⟨rs, d', s', g1, g2, g3⟩ := run2_spec ops h2
    refine ⟨r :: rs, d', s', ?_, g2, ?_⟩
    · rw [run2, h1, ok_bind]
      dsimp only
      rw [g1, ok_bind]
    · cases r with
      | error e => dsimp only at h4; rw [h4, g3]; rfl
      | ok o =>
        cases o with
        | none =>
          obtain ⟨h5, h6⟩ := h4
          rw [h6, contents_nil] at g3
          rw [h5, g3]; rfl
        | some e => dsimp only at h4; rw [h4, g3]; rfl

end Verif.Dir
