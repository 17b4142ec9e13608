import Verif.Spec.CtxLife
/-!
# Lemmas about the life of the context
-/
namespace Verif.CtxLife
open Verif Verif.Spec.CtxLife

/-- Something, if it is there. -/
def opt (b : Bool) (o : Obj) : List Obj := if b then [o] else []

/-- Whether a record is for a standard stream. -/
def std (c : Ctx) (r : Rec) : Bool := decide (some r.stream = c.cout ∨ some r.stream = c.cerr)

/-- What closing a record gives back. -/
def fcl (c : Ctx) (r : Rec) : List Obj :=
  opt r.hook (.hook r.leaf) ++ ((if std c r then [] else [.file r.stream, .stream r.stream]) ++ [.entry r.leaf])

/-- A stream, if there is one. -/
def str (k : Option Nat) : List Obj := k.elim [] fun k => [.stream k]

/-- What a context owns, in the order in which it is given back. -/
def owned (c : Ctx) : List Obj :=
  opt c.mtab .mtab ++ (opt c.groups .groups ++ (opt c.users .users ++ (c.files.flatMap (fcl c) ++ (c.files.map (fun r => .leaf r.leaf) ++
  (str c.cout ++ (str c.cerr ++ (opt c.colors .colors ++ (c.exprs.flatMap (fun e => opt e.2 (.payload e.1)) ++
  (c.exprs.map (fun e => .expr e.1) ++ (c.path.map .path ++ (opt c.paths .paths ++ (opt c.kinds .kinds ++ (opt c.argv .argv ++ [.ctx])))))))))))))

/-- What is true of a context while it exists. -/
structure Inv (s : St) : Prop where
  live : s.live.Perm (owned s.ctx)
  files : ∀ r ∈ s.ctx.files, r.stream < s.next
  exprs : ∀ e ∈ s.ctx.exprs, e.1 < s.next
  cout : ∀ k, s.ctx.cout = some k → k < s.next
  cerr : ∀ k, s.ctx.cerr = some k → k < s.next

/-! ## Giving back -/

theorem give_perm {o : Obj} {s : St} {rest : List Obj} (h : s.live.Perm (o :: rest)) :
    ∃ t, give o s = .ok { s with live := t } ∧ t.Perm rest := by
  have hm : o ∈ s.live := h.mem_iff.2 (by simp)
  refine ⟨s.live.erase o, by unfold give; rw [if_pos hm], ?_⟩
  have := h.erase o
  simpa using this

theorem giveIf_perm {b : Bool} {o : Obj} {s : St} {rest : List Obj} (h : s.live.Perm (opt b o ++ rest)) :
    ∃ t, giveIf b o s = .ok { s with live := t } ∧ t.Perm rest := by
  cases b with
  | true => exact give_perm h
  | false => exact ⟨s.live, rfl, h⟩

theorem ctxFclose_perm {lost : Nat → Bool} {r : Rec} {s : St} {rest : List Obj} (h : s.live.Perm (fcl s.ctx r ++ rest)) :
    ∃ t, ctxFclose lost r s = .ok ((decide (some r.stream = s.ctx.cerr) && !r.path) || !lost r.id, { s with live := t }) ∧ t.Perm rest := by
  unfold fcl at h
  rw [List.append_assoc] at h
  obtain ⟨t1, e1, h1⟩ := giveIf_perm h
  unfold ctxFclose
  dsimp only
  rw [e1]
  dsimp only [Out.bind]
  by_cases hs : some r.stream = s.ctx.cout ∨ some r.stream = s.ctx.cerr
  · have : std s.ctx r = true := decide_eq_true hs
    rw [this] at h1
    obtain ⟨t2, e2, h2⟩ := give_perm (s := { s with live := t1 }) (o := .entry r.leaf) h1
    rw [if_pos hs]
    dsimp only
    rw [e2]
    exact ⟨t2, rfl, h2⟩
  · have : std s.ctx r = false := decide_eq_false hs
    rw [this] at h1
    obtain ⟨t2, e2, h2⟩ := give_perm (s := { s with live := t1 }) (o := .file r.stream) h1
    obtain ⟨t3, e3, h3⟩ := give_perm (s := { s with live := t2 }) (o := .stream r.stream) h2
    obtain ⟨t4, e4, h4⟩ := give_perm (s := { s with live := t3 }) (o := .entry r.leaf) h3
    rw [if_neg hs]
    unfold cfclose giveIf
    dsimp only
    rw [if_pos rfl, e2]
    simp only [Out.bind, e3, e4]
    exact ⟨t4, rfl, h4⟩

/-- Whether closing a record goes well. -/
def closes (c : Ctx) (lost : Nat → Bool) (r : Rec) : Bool := (decide (some r.stream = c.cerr) && !r.path) || !lost r.id

theorem fcloseAll_perm {lost : Nat → Bool} : ∀ (rs : List Rec) (ok : Bool) {s : St} {rest : List Obj},
    s.live.Perm (rs.flatMap (fcl s.ctx) ++ rest) →
    ∃ t, fcloseAll lost rs ok s = .ok (ok && rs.all (closes s.ctx lost), { s with live := t }) ∧ t.Perm rest
  | [], ok, s, rest, h => ⟨s.live, by simp [fcloseAll], h⟩
  | r :: rs, ok, s, rest, h => by
    rw [List.flatMap_cons, List.append_assoc] at h
    obtain ⟨t1, e1, h1⟩ := ctxFclose_perm (lost := lost) h
    obtain ⟨t2, e2, h2⟩ := fcloseAll_perm (lost := lost) rs (ok && closes s.ctx lost r) (s := { s with live := t1 }) h1
    refine ⟨t2, ?_, h2⟩
    unfold fcloseAll
    rw [e1]
    dsimp only [Out.bind]
    change fcloseAll lost rs (ok && closes s.ctx lost r) _ = _
    rw [e2, List.all_cons, Bool.and_assoc]

theorem trieDestroy_perm : ∀ (rs : List Rec) {s : St} {rest : List Obj},
    s.live.Perm (rs.map (fun r => .leaf r.leaf) ++ rest) → ∃ t, trieDestroy rs s = .ok { s with live := t } ∧ t.Perm rest
  | [], s, rest, h => ⟨s.live, rfl, h⟩
  | r :: rs, s, rest, h => by
    obtain ⟨t1, e1, h1⟩ := give_perm h
    obtain ⟨t2, e2, h2⟩ := trieDestroy_perm rs (s := { s with live := t1 }) h1
    exact ⟨t2, by unfold trieDestroy; rw [e1]; exact e2, h2⟩

theorem clearAll_perm : ∀ (es : List (Nat × Bool)) {s : St} {rest : List Obj},
    s.live.Perm (es.flatMap (fun e => opt e.2 (.payload e.1)) ++ rest) → ∃ t, clearAll es s = .ok { s with live := t } ∧ t.Perm rest
  | [], s, rest, h => ⟨s.live, rfl, h⟩
  | e :: es, s, rest, h => by
    rw [List.flatMap_cons, List.append_assoc] at h
    obtain ⟨t1, e1, h1⟩ := giveIf_perm h
    obtain ⟨t2, e2, h2⟩ := clearAll_perm es (s := { s with live := t1 }) h1
    exact ⟨t2, by unfold clearAll; rw [e1]; exact e2, h2⟩

theorem arenaDestroy_perm : ∀ (es : List (Nat × Bool)) {s : St} {rest : List Obj},
    s.live.Perm (es.map (fun e => .expr e.1) ++ rest) → ∃ t, arenaDestroy es s = .ok { s with live := t } ∧ t.Perm rest
  | [], s, rest, h => ⟨s.live, rfl, h⟩
  | e :: es, s, rest, h => by
    obtain ⟨t1, e1, h1⟩ := give_perm h
    obtain ⟨t2, e2, h2⟩ := arenaDestroy_perm es (s := { s with live := t1 }) h1
    exact ⟨t2, by unfold arenaDestroy; rw [e1]; exact e2, h2⟩

theorem freePaths_perm : ∀ (ps : List Nat) {s : St} {rest : List Obj},
    s.live.Perm (ps.map .path ++ rest) → ∃ t, freePaths ps s = .ok { s with live := t } ∧ t.Perm rest
  | [], s, rest, h => ⟨s.live, rfl, h⟩
  | p :: ps, s, rest, h => by
    obtain ⟨t1, e1, h1⟩ := give_perm h
    obtain ⟨t2, e2, h2⟩ := freePaths_perm ps (s := { s with live := t1 }) h1
    exact ⟨t2, by unfold freePaths; rw [e1]; exact e2, h2⟩

theorem cfclose_perm {k : Option Nat} {s : St} {rest : List Obj} (h : s.live.Perm (str k ++ rest)) :
    ∃ t, cfclose k false s = .ok { s with live := t } ∧ t.Perm rest := by
  cases k with
  | none => exact ⟨s.live, rfl, h⟩
  | some k => exact give_perm h

/-- Freeing a context gives back all that it owns. -/
theorem ctxFree_inv {lost : Nat → Bool} {s : St} (h : s.live.Perm (owned s.ctx)) :
    ctxFree lost s = .ok (s.ctx.files.all (closes s.ctx lost), { s with live := [] }) := by
  unfold owned at h
  obtain ⟨t1, e1, h1⟩ := giveIf_perm h
  obtain ⟨t2, e2, h2⟩ := giveIf_perm (s := { s with live := t1 }) h1
  obtain ⟨t3, e3, h3⟩ := giveIf_perm (s := { s with live := t2 }) h2
  obtain ⟨t4, e4, h4⟩ := fcloseAll_perm (lost := lost) s.ctx.files true (s := { s with live := t3 }) h3
  obtain ⟨t5, e5, h5⟩ := trieDestroy_perm s.ctx.files (s := { s with live := t4 }) h4
  obtain ⟨t6, e6, h6⟩ := cfclose_perm (s := { s with live := t5 }) h5
  obtain ⟨t7, e7, h7⟩ := cfclose_perm (s := { s with live := t6 }) h6
  obtain ⟨t8, e8, h8⟩ := giveIf_perm (s := { s with live := t7 }) h7
  obtain ⟨t9, e9, h9⟩ := clearAll_perm s.ctx.exprs (s := { s with live := t8 }) h8
  obtain ⟨t10, e10, h10⟩ := arenaDestroy_perm s.ctx.exprs (s := { s with live := t9 }) h9
  obtain ⟨t11, e11, h11⟩ := freePaths_perm s.ctx.path (s := { s with live := t10 }) h10
  obtain ⟨t12, e12, h12⟩ := giveIf_perm (s := { s with live := t11 }) h11
  obtain ⟨t13, e13, h13⟩ := giveIf_perm (s := { s with live := t12 }) h12
  obtain ⟨t14, e14, h14⟩ := giveIf_perm (s := { s with live := t13 }) h13
  obtain ⟨t15, e15, h15⟩ := give_perm (s := { s with live := t14 }) h14
  have hnil : t15 = [] := h15.eq_nil
  subst hnil
  dsimp only at e1 e2 e3 e4 e5 e6 e7 e8 e9 e10 e11 e12 e13 e14 e15
  unfold ctxFree
  dsimp only
  simp only [e1, e2, e3, e4, e5, e6, e7, e8, e9, e10, e11, e12, e13, e14, e15, Out.bind, Bool.true_and]

/-- Whatever fails with a context in order, nothing remains. -/
theorem failWith_inv {lost : Nat → Bool} {s : St} (h : s.live.Perm (owned s.ctx)) : failWith lost s = .ok (none, []) := by
  unfold failWith
  rw [ctxFree_inv h]
  rfl

/-! ## Getting -/

/-- The same as `fcl`. -/
def fclx (o e : Option Nat) (r : Rec) : List Obj :=
  opt r.hook (.hook r.leaf) ++ ((if decide (some r.stream = o ∨ some r.stream = e) then [] else [.file r.stream, .stream r.stream]) ++ [.entry r.leaf])

theorem fcl_eq (c : Ctx) : fcl c = fclx c.cout c.cerr := rfl

theorem count_owned (a : Obj) (c : Ctx) : (owned c).count a =
    (opt c.mtab .mtab).count a + (opt c.groups .groups).count a + (opt c.users .users).count a + (c.files.flatMap (fclx c.cout c.cerr)).count a +
    (c.files.map (fun r => Obj.leaf r.leaf)).count a + (str c.cout).count a + (str c.cerr).count a + (opt c.colors .colors).count a +
    (c.exprs.flatMap (fun e => opt e.2 (.payload e.1))).count a + (c.exprs.map (fun e => Obj.expr e.1)).count a +
    (c.path.map Obj.path).count a + (opt c.paths .paths).count a + (opt c.kinds .kinds).count a + (opt c.argv .argv).count a +
    [Obj.ctx].count a := by
  unfold owned
  rw [fcl_eq]
  simp only [List.count_append]
  omega

/-- What is known about the files, the outputs and the mount table. -/
structure Track (seen outs : List Nat) (mt : Bool) (s : St) : Prop where
  seen : ∀ id, (∃ r ∈ s.ctx.files, r.id = id) ↔ id ∈ seen
  outs : ∀ id, (∃ r ∈ s.ctx.files, r.id = id ∧ ¬(some r.stream = s.ctx.cerr ∧ r.path = false)) ↔ id ∈ outs
  mtab : s.ctx.mtab = mt
  noError : s.ctx.mtabError = false

theorem Track.congr {seen outs : List Nat} {mt : Bool} {s t : St} (h : Track seen outs mt s) (h1 : t.ctx.files = s.ctx.files)
    (h2 : t.ctx.cerr = s.ctx.cerr) (h3 : t.ctx.mtab = s.ctx.mtab) (h4 : t.ctx.mtabError = s.ctx.mtabError) : Track seen outs mt t where
  seen := by rw [h1]; exact h.seen
  outs := by rw [h1, h2]; exact h.outs
  mtab := by rw [h3]; exact h.mtab
  noError := by rw [h4]; exact h.noError

theorem exprNew_inv {s : St} (h : Inv s) : Inv (exprNew s.next (tick s)) where
  live := by
    refine List.perm_iff_count.2 fun a => ?_
    have := h.live.count_eq a
    rw [count_owned] at this ⊢
    simp only [exprNew, upd, take, tick, List.count_cons, List.flatMap_cons, List.map_cons, List.count_append] at this ⊢
    rw [show (opt false (.payload s.next)).count a = 0 from rfl]
    omega
  files r hr := Nat.lt_succ_of_lt (h.files r hr)
  exprs e he := by
    rcases List.mem_cons.1 he with rfl | he
    · exact Nat.lt_succ_self _
    · exact Nat.lt_succ_of_lt (h.exprs e he)
  cout k hk := Nat.lt_succ_of_lt (h.cout k hk)
  cerr k hk := Nat.lt_succ_of_lt (h.cerr k hk)

theorem attach_map {es : List (Nat × Bool)} {k : Nat} (h : ∀ e ∈ es, e.1 < k) :
    ((k, false) :: es).map (fun e => if e.1 = k then (k, true) else e) = (k, true) :: es := by
  rw [List.map_cons]
  simp only [if_true]
  congr 1
  rw [List.map_congr_left (g := id)]
  · simp
  · intro e he
    rw [if_neg (by have := h e he; omega)]
    rfl

/-- An expression with a payload. -/
theorem attach_inv {s s' : St} (h : Inv s) (h1 : s'.ctx = { s.ctx with exprs := (s.next, true) :: s.ctx.exprs })
    (h2 : s'.live.Perm (.expr s.next :: .payload s.next :: s.live)) (h3 : s'.next = s.next + 1) : Inv s' where
  live := by
    refine List.perm_iff_count.2 fun a => ?_
    have := h.live.count_eq a
    rw [h2.count_eq, h1]
    rw [count_owned] at this ⊢
    simp only [List.count_cons, List.flatMap_cons, List.map_cons, List.count_append] at this ⊢
    rw [show (opt true (.payload s.next)).count a = [Obj.payload s.next].count a from rfl, List.count_singleton]
    omega
  files r hr := by rw [h1] at hr; rw [h3]; exact Nat.lt_succ_of_lt (h.files r hr)
  exprs e he := by
    rw [h1] at he; rw [h3]
    rcases List.mem_cons.1 he with rfl | he
    · exact Nat.lt_succ_self _
    · exact Nat.lt_succ_of_lt (h.exprs e he)
  cout k hk := by rw [h1] at hk; rw [h3]; exact Nat.lt_succ_of_lt (h.cout k hk)
  cerr k hk := by rw [h1] at hk; rw [h3]; exact Nat.lt_succ_of_lt (h.cerr k hk)

theorem give_cons (o : Obj) (s : St) : give o (take o s) = .ok s := by
  unfold give take
  simp

theorem Inv.tick {s : St} (h : Inv s) : Inv (tick s) where
  live := h.live
  files r hr := Nat.lt_succ_of_lt (h.files r hr)
  exprs e he := Nat.lt_succ_of_lt (h.exprs e he)
  cout k hk := Nat.lt_succ_of_lt (h.cout k hk)
  cerr k hk := Nat.lt_succ_of_lt (h.cerr k hk)

theorem parseExec_inv {buf alloc ok : Bool} {s : St} (h : Inv s) :
    ∃ s', parseExec buf alloc ok s = .ok (buf && alloc && ok, s') ∧ Inv s' ∧ s'.ctx.files = s.ctx.files ∧
      s'.ctx.cerr = s.ctx.cerr ∧ s'.ctx.mtab = s.ctx.mtab ∧ s'.ctx.mtabError = s.ctx.mtabError := by
  unfold parseExec
  cases buf with
  | false => exact ⟨s, rfl, h, rfl, rfl, rfl, rfl⟩
  | true =>
    cases alloc with
    | false =>
      refine ⟨CtxLife.tick s, ?_, h.tick, rfl, rfl, rfl, rfl⟩
      show (give (.payload s.next) (take (.payload s.next) (CtxLife.tick s))).bind _ = _
      rw [give_cons]; rfl
    | true =>
      refine ⟨_, rfl, attach_inv h ?_ ?_ rfl, rfl, rfl, rfl, rfl⟩
      · unfold attach exprNew upd take CtxLife.tick
        dsimp only
        rw [attach_map h.exprs]
      · exact List.Perm.refl _

theorem parsePrintf_inv {alloc buf ok : Bool} {s : St} (h : Inv s) :
    ∃ s', parsePrintf alloc buf ok s = .ok (alloc && buf && ok, s') ∧ Inv s' ∧ s'.ctx.files = s.ctx.files ∧
      s'.ctx.cerr = s.ctx.cerr ∧ s'.ctx.mtab = s.ctx.mtab ∧ s'.ctx.mtabError = s.ctx.mtabError := by
  unfold parsePrintf
  cases alloc with
  | false => exact ⟨s, rfl, h, rfl, rfl, rfl, rfl⟩
  | true =>
    cases buf with
    | false => exact ⟨_, rfl, exprNew_inv h, rfl, rfl, rfl, rfl⟩
    | true =>
      cases ok with
      | false =>
        refine ⟨_, ?_, exprNew_inv h, rfl, rfl, rfl, rfl⟩
        show (give (.payload s.next) (take (.payload s.next) (exprNew s.next (CtxLife.tick s)))).bind _ = _
        rw [give_cons]; rfl
      | true =>
        refine ⟨_, rfl, attach_inv h ?_ ?_ rfl, rfl, rfl, rfl, rfl⟩
        · unfold attach exprNew upd take CtxLife.tick
          dsimp only
          rw [attach_map h.exprs]
        · exact List.Perm.swap _ _ _

theorem parseRegex_inv {alloc buf ok : Bool} {s : St} (h : Inv s) :
    ∃ s', parseRegex alloc buf ok s = .ok (alloc && buf && ok, s') ∧ Inv s' ∧ s'.ctx.files = s.ctx.files ∧
      s'.ctx.cerr = s.ctx.cerr ∧ s'.ctx.mtab = s.ctx.mtab ∧ s'.ctx.mtabError = s.ctx.mtabError := by
  unfold parseRegex
  cases alloc with
  | false => exact ⟨s, rfl, h, rfl, rfl, rfl, rfl⟩
  | true =>
    cases buf with
    | false => exact ⟨_, rfl, exprNew_inv h, rfl, rfl, rfl, rfl⟩
    | true =>
      refine ⟨_, rfl, attach_inv h ?_ ?_ rfl, rfl, rfl, rfl, rfl⟩
      · unfold attach exprNew upd take CtxLife.tick
        dsimp only
        rw [attach_map h.exprs]
      · exact List.Perm.swap _ _ _

theorem Inv.mono {s t : St} (h : Inv s) (hc : t.ctx = s.ctx) (hl : t.live.Perm s.live) (hn : s.next ≤ t.next) : Inv t where
  live := by rw [hc]; exact hl.trans h.live
  files r hr := by rw [hc] at hr; exact Nat.lt_of_lt_of_le (h.files r hr) hn
  exprs e he := by rw [hc] at he; exact Nat.lt_of_lt_of_le (h.exprs e he) hn
  cout k hk := by rw [hc] at hk; exact Nat.lt_of_lt_of_le (h.cout k hk) hn
  cerr k hk := by rw [hc] at hk; exact Nat.lt_of_lt_of_le (h.cerr k hk) hn

/-- The new path of the records of a file. -/
def setPath (id : Nat) (path : Bool) (fs : List Rec) : List Rec := fs.map fun q => if q.id = id then { q with path := path } else q

/-- `bfs_ctx_dedup()` fails and changes nothing, finds a record, or adds one. -/
theorem dedup_cases (d : DedupLuck) (k id : Nat) (colors path : Bool) {seen : List Nat} (s : St)
    (hs : ∀ id, (∃ r ∈ s.ctx.files, r.id = id) ↔ id ∈ seen) :
    (joins seen id colors d = false ∧ ∃ n, s.next ≤ n ∧ dedup d k id colors path s = .ok (none, { s with next := n })) ∨
    (joins seen id colors d = true ∧ ∃ r ∈ s.ctx.files, r.id = id ∧ dedup d k id colors path s =
      .ok (some r.stream, { s with ctx := { s.ctx with files := setPath id path s.ctx.files } })) ∨
    (joins seen id colors d = true ∧ id ∉ seen ∧ dedup d k id colors path s =
      .ok (some k, ⟨{ s.ctx with files := s.ctx.files ++ [⟨id, s.next, k, path, colors⟩] },
        opt colors (.hook s.next) ++ (.entry s.next :: .leaf s.next :: s.live), s.next + 1⟩)) := by
  unfold dedup joins
  cases hst : d.stat with
  | false => exact Or.inl ⟨rfl, s.next, Nat.le_refl _, rfl⟩
  | true =>
    dsimp only [Bool.not_true, Bool.true_and]
    rw [if_neg (by decide)]
    cases hf : s.ctx.files.find? (fun r => decide (r.id = id)) with
    | some r =>
      have hr := List.mem_of_find?_eq_some hf
      have hid : r.id = id := by simpa using List.find?_some hf
      right; left
      refine ⟨?_, r, hr, hid, rfl⟩
      have : id ∈ seen := (hs id).1 ⟨r, hr, hid⟩
      simp [this]
    | none =>
      have hno : id ∉ seen := by
        intro h
        obtain ⟨r, hr, hid⟩ := (hs id).2 h
        have := List.find?_eq_none.1 hf r hr
        simp [hid] at this
      have hc : seen.contains id = false := by simpa using hno
      rw [hc]
      dsimp only [Bool.false_or]
      cases d.leaf with
      | false => exact Or.inl ⟨rfl, s.next, Nat.le_refl _, rfl⟩
      | true =>
        cases d.entry with
        | false =>
          refine Or.inl ⟨rfl, s.next + 1, Nat.le_succ _, ?_⟩
          show (give (.leaf s.next) (take (.leaf s.next) (CtxLife.tick s))).bind _ = _
          rw [give_cons]; rfl
        | true =>
          cases colors with
          | false => exact Or.inr (Or.inr ⟨rfl, hno, rfl⟩)
          | true =>
            cases d.hook with
            | true => exact Or.inr (Or.inr ⟨rfl, hno, rfl⟩)
            | false =>
              refine Or.inl ⟨rfl, s.next + 1, Nat.le_succ _, ?_⟩
              show (give (.leaf s.next) (take (.entry s.next) (take (.leaf s.next) (CtxLife.tick s)))).bind _ = _
              have : give (.leaf s.next) (take (.entry s.next) (take (.leaf s.next) (CtxLife.tick s))) =
                  .ok (take (.entry s.next) (CtxLife.tick s)) := by
                unfold give take CtxLife.tick
                simp
              rw [this]
              show (give (.entry s.next) (take (.entry s.next) (CtxLife.tick s))).bind _ = _
              rw [give_cons]; rfl

theorem cfclose_new (k : Nat) (s : St) : cfclose (some k) true (take (.stream k) (take (.file k) s)) = .ok s := by
  unfold cfclose giveIf
  dsimp only
  rw [if_pos rfl]
  have : give (.file k) (take (.stream k) (take (.file k) s)) = .ok (take (.stream k) s) := by
    unfold give take; simp
  rw [this]
  exact give_cons _ _

theorem setPath_owned (c : Ctx) (id : Nat) (path : Bool) (a : Obj) :
    (owned { c with files := setPath id path c.files }).count a = (owned c).count a := by
  rw [count_owned, count_owned]
  dsimp only
  have h1 : (setPath id path c.files).flatMap (fclx c.cout c.cerr) = c.files.flatMap (fclx c.cout c.cerr) := by
    unfold setPath
    rw [List.flatMap_map]
    congr 1
    funext q
    by_cases h : q.id = id
    · simp [h, fclx]
    · simp [h]
  have h2 : (setPath id path c.files).map (fun r => Obj.leaf r.leaf) = c.files.map (fun r => Obj.leaf r.leaf) := by
    unfold setPath
    rw [List.map_map]
    congr 1
    funext q
    by_cases h : q.id = id
    · simp [h]
    · simp [h]
  rw [h1, h2]

theorem mem_setPath {id : Nat} {path : Bool} {fs : List Rec} {q : Rec} :
    q ∈ setPath id path fs ↔ ∃ r ∈ fs, q = if r.id = id then { r with path := path } else r := by
  unfold setPath
  rw [List.mem_map]
  constructor <;> (rintro ⟨r, h1, h2⟩; exact ⟨r, h1, h2.symm⟩)

theorem setPath_inv {s : St} (h : Inv s) (id : Nat) (path : Bool) (n : Nat) (hn : s.next ≤ n) :
    Inv ⟨{ s.ctx with files := setPath id path s.ctx.files }, s.live, n⟩ where
  live := List.perm_iff_count.2 fun a => by
    rw [setPath_owned]; exact h.live.count_eq a
  files r hr := by
    obtain ⟨q, hq, rfl⟩ := mem_setPath.1 hr
    have := h.files q hq
    by_cases hid : q.id = id
    · rw [if_pos hid]; exact Nat.lt_of_lt_of_le this hn
    · rw [if_neg hid]; exact Nat.lt_of_lt_of_le this hn
  exprs e he := Nat.lt_of_lt_of_le (h.exprs e he) hn
  cout k hk := Nat.lt_of_lt_of_le (h.cout k hk) hn
  cerr k hk := Nat.lt_of_lt_of_le (h.cerr k hk) hn

/-- A record is added, for a new stream or for a standard one. -/
theorem add_inv {s : St} (h : Inv s) {r : Rec} {own : List Obj} {t : List Obj} {n : Nat} (hn : s.next ≤ n) (hr : r.stream < n)
    (hown : own = if decide (some r.stream = s.ctx.cout ∨ some r.stream = s.ctx.cerr) then [] else [.file r.stream, .stream r.stream])
    (ht : t.Perm (opt r.hook (.hook r.leaf) ++ (.entry r.leaf :: .leaf r.leaf :: (own ++ s.live)))) :
    Inv ⟨{ s.ctx with files := s.ctx.files ++ [r] }, t, n⟩ where
  live := by
    refine List.perm_iff_count.2 fun a => ?_
    have := h.live.count_eq a
    rw [ht.count_eq]
    rw [count_owned] at this ⊢
    subst hown
    simp only [List.flatMap_append, List.map_append, List.count_append, List.count_cons, List.flatMap_cons, List.flatMap_nil,
      List.map_cons, List.map_nil, List.count_nil, fclx] at this ⊢
    omega
  files q hq := by
    rcases List.mem_append.1 hq with hq | hq
    · exact Nat.lt_of_lt_of_le (h.files q hq) hn
    · rw [List.mem_singleton.1 hq]; exact hr
  exprs e he := Nat.lt_of_lt_of_le (h.exprs e he) hn
  cout k hk := Nat.lt_of_lt_of_le (h.cout k hk) hn
  cerr k hk := Nat.lt_of_lt_of_le (h.cerr k hk) hn

theorem setPath_track {seen outs : List Nat} {mt : Bool} {s t : St} (h : Track seen outs mt s) {id : Nat} (hid : ∃ r ∈ s.ctx.files, r.id = id)
    (hc : t.ctx = { s.ctx with files := setPath id true s.ctx.files }) : Track (id :: seen) (id :: outs) mt t where
  seen x := by
    rw [hc, List.mem_cons, ← h.seen x]
    dsimp only
    constructor
    · rintro ⟨q, hq, hx⟩
      obtain ⟨r, hr, rfl⟩ := mem_setPath.1 hq
      by_cases hri : r.id = id
      · rw [if_pos hri] at hx; exact Or.inl (hx.symm.trans hri)
      · rw [if_neg hri] at hx; exact Or.inr ⟨r, hr, hx⟩
    · have key : ∀ r ∈ s.ctx.files, ∃ q ∈ setPath id true s.ctx.files, q.id = r.id := by
        intro r hr
        refine ⟨_, mem_setPath.2 ⟨r, hr, rfl⟩, ?_⟩
        split <;> rfl
      rintro (hx | ⟨r, hr, hx⟩)
      · obtain ⟨r, hr, h1⟩ := hid
        obtain ⟨q, hq, h2⟩ := key r hr
        exact ⟨q, hq, by rw [h2, h1, hx]⟩
      · obtain ⟨q, hq, h2⟩ := key r hr
        exact ⟨q, hq, by rw [h2, hx]⟩
  outs x := by
    rw [hc, List.mem_cons, ← h.outs x]
    dsimp only
    constructor
    · rintro ⟨q, hq, hx, hn⟩
      obtain ⟨r, hr, rfl⟩ := mem_setPath.1 hq
      by_cases hri : r.id = id
      · rw [if_pos hri] at hx; exact Or.inl (hx.symm.trans hri)
      · rw [if_neg hri] at hx hn; exact Or.inr ⟨r, hr, hx, hn⟩
    · rintro (hx | ⟨r, hr, hx, hn⟩)
      · obtain ⟨r, hr, h1⟩ := hid
        refine ⟨_, mem_setPath.2 ⟨r, hr, rfl⟩, ?_, ?_⟩
        · rw [if_pos h1]; exact h1.trans hx.symm
        · rw [if_pos h1]; rintro ⟨_, h2⟩; cases h2
      · refine ⟨_, mem_setPath.2 ⟨r, hr, rfl⟩, ?_, ?_⟩
        · split <;> exact hx
        · split
          · rintro ⟨_, h2⟩; cases h2
          · exact hn
  mtab := by rw [hc]; exact h.mtab
  noError := by rw [hc]; exact h.noError

theorem add_track {seen outs : List Nat} {mt : Bool} {s t : St} (h : Track seen outs mt s) {r : Rec} (hr : some r.stream ≠ s.ctx.cerr)
    (hc : t.ctx = { s.ctx with files := s.ctx.files ++ [r] }) : Track (r.id :: seen) (r.id :: outs) mt t where
  seen x := by
    rw [hc, List.mem_cons, ← h.seen x]
    simp only [List.mem_append, List.mem_singleton]
    constructor
    · rintro ⟨q, hq | hq, hx⟩
      · exact Or.inr ⟨q, hq, hx⟩
      · subst hq; exact Or.inl hx.symm
    · rintro (hx | ⟨q, hq, hx⟩)
      · exact ⟨r, Or.inr rfl, hx.symm⟩
      · exact ⟨q, Or.inl hq, hx⟩
  outs x := by
    rw [hc, List.mem_cons, ← h.outs x]
    simp only [List.mem_append, List.mem_singleton]
    constructor
    · rintro ⟨q, hq | hq, hx⟩
      · exact Or.inr ⟨q, hq, hx⟩
      · subst hq; exact Or.inl hx.1.symm
    · rintro (hx | ⟨q, hq, hx⟩)
      · exact ⟨r, Or.inr rfl, hx.symm, fun hh => hr hh.1⟩
      · exact ⟨q, Or.inl hq, hx⟩
  mtab := by rw [hc]; exact h.mtab
  noError := by rw [hc]; exact h.noError

theorem exprOpen_inv {seen outs : List Nat} {mt : Bool} {s : St} (h : Inv s) (ht : Track seen outs mt s) (o : OpenLuck) (id : Nat) :
    ∃ s', exprOpen o id s = .ok (o.fopen && o.cfwrap && joins seen id o.colors o.dedup, s') ∧ Inv s' ∧
      ((o.fopen && o.cfwrap && joins seen id o.colors o.dedup) = true → Track (id :: seen) (id :: outs) mt s') := by
  unfold exprOpen
  cases o.fopen with
  | false => exact ⟨s, rfl, h, by intro h; cases h⟩
  | true =>
    cases o.cfwrap with
    | false =>
      refine ⟨CtxLife.tick s, ?_, h.tick, by intro h; cases h⟩
      show (give (.file s.next) (take (.file s.next) (CtxLife.tick s))).bind _ = _
      rw [give_cons]; rfl
    | true =>
      show ∃ s', (dedup o.dedup s.next id o.colors true (take (.stream s.next) (take (.file s.next) (CtxLife.tick s)))).bind (opened s.next) = _ ∧ _
      rcases dedup_cases o.dedup s.next id o.colors true (take (.stream s.next) (take (.file s.next) (CtxLife.tick s))) ht.seen with
        ⟨hj, n, hn, e⟩ | ⟨hj, r, hr, hid, e⟩ | ⟨hj, hno, e⟩
      · rw [e, hj]
        refine ⟨⟨s.ctx, s.live, n⟩, ?_, h.mono rfl (List.Perm.refl _) (Nat.le_of_succ_le hn), by intro h; cases h⟩
        show (cfclose (some s.next) true (take (.stream s.next) (take (.file s.next) ⟨s.ctx, s.live, n⟩))).bind _ = _
        rw [cfclose_new]; rfl
      · rw [e, hj]
        have hne : r.stream ≠ s.next := Nat.ne_of_lt (h.files r hr)
        refine ⟨⟨{ s.ctx with files := setPath id true s.ctx.files }, s.live, s.next + 1⟩, ?_,
          setPath_inv h id true _ (Nat.le_succ _), fun _ => setPath_track ht ⟨r, hr, hid⟩ rfl⟩
        show (if r.stream ≠ s.next then _ else _) = _
        rw [if_pos hne]
        show (cfclose (some s.next) true (take (.stream s.next) (take (.file s.next) ⟨{ s.ctx with files := setPath id true s.ctx.files }, s.live, s.next + 1⟩))).bind _ = _
        rw [cfclose_new]; rfl
      · rw [e, hj]
        have h1 : some s.next ≠ s.ctx.cout := fun hh => Nat.lt_irrefl _ (h.cout _ hh.symm)
        have h2 : some s.next ≠ s.ctx.cerr := fun hh => Nat.lt_irrefl _ (h.cerr _ hh.symm)
        refine ⟨⟨{ s.ctx with files := s.ctx.files ++ [⟨id, s.next + 1, s.next, true, o.colors⟩] },
          opt o.colors (.hook (s.next + 1)) ++ (.entry (s.next + 1) :: .leaf (s.next + 1) :: .stream s.next :: .file s.next :: s.live), s.next + 2⟩, ?_, ?_, ?_⟩
        · show (if s.next ≠ s.next then _ else _) = _
          rw [if_neg (by simp)]
          rfl
        · refine add_inv h (r := ⟨id, s.next + 1, s.next, true, o.colors⟩) (own := [.file s.next, .stream s.next]) (n := s.next + 2) (by omega) (by simp) (by simp [h1, h2]) ?_
          exact List.Perm.append_left _ (List.Perm.cons _ (List.Perm.cons _ (List.Perm.swap _ _ _)))
        · exact fun _ => add_track ht (r := ⟨id, s.next + 1, s.next, true, o.colors⟩) h2 rfl

theorem ctxMtab_inv {s : St} (h : Inv s) (ok : Bool) : Inv (ctxMtab ok s) ∧ (ctxMtab ok s).ctx.files = s.ctx.files ∧
    (ctxMtab ok s).ctx.cerr = s.ctx.cerr := by
  unfold ctxMtab
  by_cases he : s.ctx.mtabError = true
  · rw [if_pos he]; exact ⟨h, rfl, rfl⟩
  · rw [if_neg he]
    rcases Bool.eq_false_or_eq_true s.ctx.mtab with hm | hm
    · rw [hm]; exact ⟨h, rfl, rfl⟩
    · rw [hm]
      cases ok with
      | false => exact ⟨⟨h.live, h.files, h.exprs, h.cout, h.cerr⟩, rfl, rfl⟩
      | true =>
        refine ⟨⟨?_, h.files, h.exprs, h.cout, h.cerr⟩, rfl, rfl⟩
        refine List.perm_iff_count.2 fun a => ?_
        have := h.live.count_eq a
        rw [count_owned] at this
        rw [count_owned]
        simp only [upd, take, List.count_cons, hm, if_true, Bool.not_false] at this ⊢
        rw [show (opt false .mtab).count a = 0 from rfl] at this
        rw [show (opt true .mtab).count a = [Obj.mtab].count a from rfl, List.count_singleton]
        omega

theorem paths_inv {s : St} (h : Inv s) : Inv (if s.ctx.paths then s else upd (fun c => { c with paths := true }) (take .paths s)) := by
  rcases Bool.eq_false_or_eq_true s.ctx.paths with hm | hm
  · rw [if_pos hm]; exact h
  · rw [if_neg (by rw [hm]; decide)]
    refine ⟨?_, h.files, h.exprs, h.cout, h.cerr⟩
    refine List.perm_iff_count.2 fun a => ?_
    have := h.live.count_eq a
    rw [count_owned] at this
    rw [count_owned]
    simp only [upd, take, List.count_cons, hm] at this ⊢
    rw [show (opt false .paths).count a = 0 from rfl] at this
    rw [show (opt true .paths).count a = [Obj.paths].count a from rfl, List.count_singleton]
    omega

theorem path_inv {s : St} (h : Inv s) :
    Inv (upd (fun c => { c with path := c.path ++ [s.next] }) (CtxLife.tick (take (.path s.next) s))) := by
  refine ⟨?_, h.tick.files, h.tick.exprs, h.tick.cout, h.tick.cerr⟩
  refine List.perm_iff_count.2 fun a => ?_
  have := h.live.count_eq a
  rw [count_owned] at this
  rw [count_owned]
  simp only [upd, take, CtxLife.tick, List.count_cons, List.map_append, List.count_append, List.map_cons, List.map_nil, List.count_nil] at this ⊢
  omega

theorem parseRoot_inv {s : St} (h : Inv s) (reserve dup : Bool) : ∃ s', parseRoot reserve dup s = (reserve && dup, s') ∧ Inv s' ∧
    s'.ctx.files = s.ctx.files ∧ s'.ctx.cerr = s.ctx.cerr ∧ s'.ctx.mtab = s.ctx.mtab ∧ s'.ctx.mtabError = s.ctx.mtabError := by
  unfold parseRoot
  cases reserve with
  | false => exact ⟨s, rfl, h, rfl, rfl, rfl, rfl⟩
  | true =>
    have hp := paths_inv h
    have e : ∀ t, t = (if s.ctx.paths then s else upd (fun c => { c with paths := true }) (take .paths s)) →
        t.ctx.files = s.ctx.files ∧ t.ctx.cerr = s.ctx.cerr ∧ t.ctx.mtab = s.ctx.mtab ∧ t.ctx.mtabError = s.ctx.mtabError := by
      intro t ht
      rcases Bool.eq_false_or_eq_true s.ctx.paths with hm | hm
      · rw [if_pos hm] at ht; subst ht; exact ⟨rfl, rfl, rfl, rfl⟩
      · rw [if_neg (by rw [hm]; decide)] at ht; subst ht; exact ⟨rfl, rfl, rfl, rfl⟩
    dsimp only [Bool.not_true]
    rw [if_neg (by decide)]
    generalize ht : (if s.ctx.paths then s else upd (fun c => { c with paths := true }) (take .paths s)) = t at hp
    have e := e t ht.symm
    cases dup with
    | false => exact ⟨t, rfl, hp, e⟩
    | true => exact ⟨_, rfl, path_inv hp, e⟩

/-- A step of the parser ends well if it should, and the context is in order. -/
theorem step_inv {seen outs : List Nat} {mt : Bool} {s : St} (h : Inv s) (ht : Track seen outs mt s) (op : Op) :
    ∃ s', step op s = .ok (fineOp seen mt op, s') ∧ Inv s' ∧
      (fineOp seen mt op = true → Track (outputOf op ++ seen) (outputOf op ++ outs) (needsMtab op || mt) s') := by
  cases op with
  | plain alloc ok =>
    cases alloc with
    | false => exact ⟨s, rfl, h, by intro h; cases h⟩
    | true => exact ⟨_, rfl, exprNew_inv h, fun _ => ht.congr rfl rfl rfl rfl⟩
  | exec buf alloc ok =>
    obtain ⟨s', e, hi, h1, h2, h3, h4⟩ := parseExec_inv (buf := buf) (alloc := alloc) (ok := ok) h
    exact ⟨s', e, hi, fun _ => ht.congr h1 h2 h3 h4⟩
  | printf alloc buf ok =>
    obtain ⟨s', e, hi, h1, h2, h3, h4⟩ := parsePrintf_inv (alloc := alloc) (buf := buf) (ok := ok) h
    exact ⟨s', e, hi, fun _ => ht.congr h1 h2 h3 h4⟩
  | regex alloc buf ok =>
    obtain ⟨s', e, hi, h1, h2, h3, h4⟩ := parseRegex_inv (alloc := alloc) (buf := buf) (ok := ok) h
    exact ⟨s', e, hi, fun _ => ht.congr h1 h2 h3 h4⟩
  | output alloc id o =>
    cases alloc with
    | false => exact ⟨s, rfl, h, by intro h; cases h⟩
    | true =>
      obtain ⟨s', e, hi, h1⟩ := exprOpen_inv (exprNew_inv h) (ht.congr (t := exprNew s.next (CtxLife.tick s)) rfl rfl rfl rfl) o id
      exact ⟨s', e, hi, h1⟩
  | root reserve dup =>
    obtain ⟨s', e, hi, h1, h2, h3, h4⟩ := parseRoot_inv h reserve dup
    exact ⟨s', congrArg Out.ok e, hi, fun _ => ht.congr h1 h2 h3 h4⟩
  | mtab ok =>
    obtain ⟨hi, h1, h2⟩ := ctxMtab_inv h ok
    refine ⟨ctxMtab ok s, ?_, hi, ?_⟩
    · show Out.ok ((ctxMtab ok s).ctx.mtab, ctxMtab ok s) = .ok (mt || ok, ctxMtab ok s)
      have : (ctxMtab ok s).ctx.mtab = (mt || ok) := by
        unfold ctxMtab
        rw [if_neg (by rw [ht.noError]; decide), ← ht.mtab]
        rcases Bool.eq_false_or_eq_true s.ctx.mtab with hm | hm
        · rw [hm]; exact hm
        · rw [hm]
          cases ok with
          | true => rfl
          | false => exact hm
      rw [this]
    · intro hf
      have hf : (mt || ok) = true := hf
      have key : (ctxMtab ok s).ctx.mtab = true ∧ (ctxMtab ok s).ctx.mtabError = false := by
        unfold ctxMtab
        rw [if_neg (by rw [ht.noError]; decide)]
        rcases Bool.eq_false_or_eq_true s.ctx.mtab with hm | hm
        · rw [hm]; exact ⟨hm, ht.noError⟩
        · have : ok = true := by rw [← ht.mtab, hm] at hf; exact hf
          rw [hm, this]
          exact ⟨rfl, ht.noError⟩
      exact ⟨by rw [h1]; exact ht.seen, by rw [h1, h2]; exact ht.outs, key.1, key.2⟩

/-- The same for many steps. -/
theorem steps_inv : ∀ (ops : List Op) {seen outs : List Nat} {mt : Bool} {s : St}, Inv s → Track seen outs mt s →
    ∃ s', steps ops s = .ok (fineOps seen mt ops, s') ∧ Inv s' ∧
      (fineOps seen mt ops = true → ∃ seen' outs' mt', Track seen' outs' mt' s' ∧ (∀ id, id ∈ outs' ↔ id ∈ outs ∨ id ∈ outputs ops) ∧
        ∀ more, fineOps seen mt (ops ++ more) = fineOps seen' mt' more)
  | [], seen, outs, mt, s, h, ht => ⟨s, rfl, h, fun _ => ⟨seen, outs, mt, ht, by simp [outputs], fun _ => rfl⟩⟩
  | op :: ops, seen, outs, mt, s, h, ht => by
    obtain ⟨s1, e1, h1, t1⟩ := step_inv h ht op
    unfold steps
    rw [e1]
    dsimp only [Out.bind]
    rcases Bool.eq_false_or_eq_true (fineOp seen mt op) with hf | hf
    · obtain ⟨s2, e2, h2, t2⟩ := steps_inv ops h1 (t1 hf)
      rw [if_pos hf, e2]
      refine ⟨s2, by simp [fineOps, hf], h2, ?_⟩
      intro hall
      have : fineOps (outputOf op ++ seen) (needsMtab op || mt) ops = true := by simpa [fineOps, hf] using hall
      obtain ⟨seen', outs', mt', t3, h3, h4⟩ := t2 this
      refine ⟨seen', outs', mt', t3, ?_, ?_⟩
      · intro id
        rw [h3]
        simp only [outputs, List.flatMap_cons, List.mem_append]
        constructor
        · rintro ((h | h) | h)
          · exact Or.inr (Or.inl h)
          · exact Or.inl h
          · exact Or.inr (Or.inr h)
        · rintro (h | h | h)
          · exact Or.inl (Or.inr h)
          · exact Or.inl (Or.inl h)
          · exact Or.inr h
      · intro more
        show (fineOp seen mt op && fineOps (outputOf op ++ seen) (needsMtab op || mt) (ops ++ more)) = _
        rw [hf, Bool.true_and, h4]
    · rw [if_neg (by rw [hf]; decide)]
      exact ⟨s1, by simp [fineOps, hf], h1, by intro h; simp [fineOps, hf] at h⟩

/-- Closing the files goes well if nothing was lost in those that matter. -/
theorem closes_all {seen outs : List Nat} {mt : Bool} {s : St} (ht : Track seen outs mt s) (lost : Nat → Bool) :
    s.ctx.files.all (closes s.ctx lost) = !outs.any lost := by
  rw [Bool.eq_iff_iff]
  simp only [List.all_eq_true, Bool.not_eq_true', List.any_eq_false]
  constructor
  · intro h id hid
    obtain ⟨r, hr, rfl, hn⟩ := (ht.outs id).2 hid
    have := h r hr
    unfold closes at this
    intro hl
    rw [hl] at this
    simp only [Bool.not_true, Bool.or_false, Bool.and_eq_true, decide_eq_true_eq, Bool.not_eq_true'] at this
    exact hn this
  · intro h r hr
    unfold closes
    by_cases hc : some r.stream = s.ctx.cerr ∧ r.path = false
    · simp [hc.1, hc.2]
    · have := h r.id ((ht.outs r.id).1 ⟨r, hr, rfl, hc⟩)
      simp [this]

theorem evalCtx_inv {s : St} (h : Inv s) (l : Luck) (expr : Bool) : (evalCtx l expr s).1 = (if expr then l.ret else 0) ∧ Inv (evalCtx l expr s).2 ∧
    (evalCtx l expr s).2.ctx.files = s.ctx.files ∧ (evalCtx l expr s).2.ctx.cerr = s.ctx.cerr := by
  unfold evalCtx
  cases expr with
  | false => exact ⟨rfl, h, rfl, rfl⟩
  | true =>
    refine ⟨rfl, ?_⟩
    show Inv (l.mtab.foldl (fun s ok => ctxMtab ok s) s) ∧ _
    generalize l.mtab = oks
    induction oks generalizing s with
    | nil => exact ⟨h, rfl, rfl⟩
    | cons ok oks ih =>
      obtain ⟨hi, h1, h2⟩ := ctxMtab_inv h ok
      obtain ⟨i1, i2, i3⟩ := ih hi
      exact ⟨i1, i2.trans h1, i3.trans h2⟩

/-- What the parser gives: a context in order, or nothing at all. -/
def Parsed (fine : Bool) (expr : Bool) (outs : List Nat) (lost : Nat → Bool) (r : Out ((Option St × List Obj) × Bool)) : Prop :=
  (fine = false → r = .ok ((none, []), false)) ∧
  (fine = true → ∃ s, r = .ok ((some s, s.live), expr) ∧ Inv s ∧ s.ctx.files.all (closes s.ctx lost) = !outs.any lost)

theorem any_congr {p : Nat → Bool} {a b : List Nat} (h : ∀ x, x ∈ a ↔ x ∈ b) : a.any p = b.any p := by
  rw [Bool.eq_iff_iff, List.any_eq_true, List.any_eq_true]
  constructor
  · rintro ⟨x, hx, hp⟩; exact ⟨x, (h x).1 hx, hp⟩
  · rintro ⟨x, hx, hp⟩; exact ⟨x, (h x).2 hx, hp⟩

theorem outputs_append (a b : List Op) : outputs (a ++ b) = outputs a ++ outputs b := by
  unfold outputs; rw [List.flatMap_append]

theorem parseExprs_inv {seen outs : List Nat} {s : St} (h : Inv s) (ht : Track seen outs false s) (l : CmdLuck) :
    Parsed (decide (l.ending ≠ .bad) && fineOps seen false (allOps l)) (decide (l.ending = .good)) (outs ++ outputs (allOps l)) l.lost (parseExprs l s) := by
  obtain ⟨s1, e1, h1, t1⟩ := steps_inv l.ops h ht
  unfold parseExprs
  rw [e1]
  dsimp only [Out.bind]
  rw [failWith_inv h1.live]
  rcases Bool.eq_false_or_eq_true (fineOps seen false l.ops) with hf | hf
  · obtain ⟨seen', outs', mt', t2, h2, h3⟩ := t1 hf
    rw [hf]
    simp only [Bool.not_true, Bool.false_eq_true, if_false]
    cases he : l.ending with
    | info =>
      have ha : allOps l = l.ops := by unfold allOps; rw [he]
      rw [ha, hf]
      refine ⟨by intro h; simp at h, fun _ => ⟨s1, rfl, h1, ?_⟩⟩
      rw [closes_all t2, any_congr (b := outs ++ outputs l.ops) (by intro x; rw [h2, List.mem_append])]
    | bad => exact ⟨fun _ => rfl, by intro h; simp at h⟩
    | good =>
      have ha : allOps l = l.ops ++ l.opt := by unfold allOps; rw [he]
      obtain ⟨s2, e2, i2, t3⟩ := steps_inv l.opt h1 t2
      dsimp only
      rw [e2]
      dsimp only
      rw [failWith_inv i2.live, ha, h3]
      rcases Bool.eq_false_or_eq_true (fineOps seen' mt' l.opt) with hg | hg
      · obtain ⟨seen'', outs'', mt'', t4, h4, _⟩ := t3 hg
        rw [hg]
        refine ⟨by intro h; simp at h, fun _ => ⟨s2, rfl, i2, ?_⟩⟩
        rw [closes_all t4, any_congr (b := outs ++ outputs (l.ops ++ l.opt)) (by
          intro x; rw [h4, h2, List.mem_append, outputs_append, List.mem_append, or_assoc])]
      · rw [hg]
        exact ⟨fun _ => rfl, by intro h; simp at h⟩
  · rw [hf]
    have hbad : fineOps seen false (allOps l) = false := by
      have key : ∀ (ops more : List Op) (seen : List Nat) (mt : Bool), fineOps seen mt ops = false → fineOps seen mt (ops ++ more) = false := by
        intro ops more
        induction ops with
        | nil => intro seen mt h; cases h
        | cons op ops ih =>
          intro seen mt h
          rw [List.cons_append]
          unfold fineOps at h ⊢
          rcases Bool.eq_false_or_eq_true (fineOp seen mt op) with hx | hx
          · rw [hx, Bool.true_and] at h ⊢; exact ih _ _ h
          · rw [hx, Bool.false_and]
      unfold allOps
      cases l.ending with
      | good => exact key _ _ _ _ hf
      | info => exact hf
      | bad => exact hf
    rw [hbad, Bool.and_false]
    exact ⟨fun _ => rfl, by intro h; cases h⟩

/-- The context before the standard streams are made. -/
structure Early (s : St) : Prop where
  inv : Inv s
  cout : s.ctx.cout = none
  cerr : s.ctx.cerr = none
  files : s.ctx.files = []
  mtab : s.ctx.mtab = false
  noError : s.ctx.mtabError = false

theorem setCerr_inv {s : St} (h : Inv s) (hf : s.ctx.files = []) (hc : s.ctx.cerr = none) :
    Inv (upd (fun c => { c with cerr := some s.next }) (CtxLife.tick (take (.stream s.next) s))) := by
  refine ⟨?_, h.tick.files, h.tick.exprs, h.tick.cout, ?_⟩
  · refine List.perm_iff_count.2 fun a => ?_
    have := h.live.count_eq a
    rw [count_owned] at this
    rw [count_owned]
    simp only [upd, take, CtxLife.tick, List.count_cons, hf, hc, str, Option.elim, List.flatMap_nil, List.map_nil, List.count_nil] at this ⊢
    omega
  · intro k hk
    cases hk
    exact Nat.lt_succ_self _

theorem setCout_inv {s : St} (h : Inv s) (hf : s.ctx.files = []) (hc : s.ctx.cout = none) :
    Inv (upd (fun c => { c with cout := some s.next }) (CtxLife.tick (take (.stream s.next) s))) := by
  refine ⟨?_, h.tick.files, h.tick.exprs, ?_, h.tick.cerr⟩
  · refine List.perm_iff_count.2 fun a => ?_
    have := h.live.count_eq a
    rw [count_owned] at this
    rw [count_owned]
    simp only [upd, take, CtxLife.tick, List.count_cons, hf, hc, str, Option.elim, List.flatMap_nil, List.map_nil, List.count_nil] at this ⊢
    omega
  · intro k hk
    cases hk
    exact Nat.lt_succ_self _

theorem parsed_fail {expr : Bool} {outs : List Nat} {lost : Nat → Bool} {s : St} (h : Inv s) :
    Parsed false expr outs lost ((failWith lost s).bind fun r => .ok (r, false)) := by
  rw [failWith_inv h.live]
  exact ⟨fun _ => rfl, by intro h; cases h⟩

/-- Registering standard error, after standard output. -/
theorem errDedup_inv {s : St} (h : Inv s) (l : CmdLuck) {e o n : Nat} {b : Bool} (hf : s.ctx.files = [⟨l.outId, n, o, false, b⟩])
    (he : s.ctx.cerr = some e) (hoe : o ≠ e) (hm : s.ctx.mtab = false) (hm' : s.ctx.mtabError = false) :
    Parsed (joins [l.outId] l.errId l.errColors l.errDedup && (decide (l.ending ≠ .bad) && fineOps [l.errId, l.outId] false (allOps l)))
      (decide (l.ending = .good)) ([l.outId] ++ outputs (allOps l)) l.lost
      ((dedup l.errDedup e l.errId l.errColors false s).bind fun a =>
        if a.1.isNone then (failWith l.lost a.2).bind fun r => .ok (r, false) else parseExprs l a.2) := by
  rcases dedup_cases (seen := [l.outId]) l.errDedup e l.errId l.errColors false s (by rw [hf]; intro id; simp [eq_comm]) with
    ⟨hj, m, hn, e1⟩ | ⟨hj, r, hr, hid, e1⟩ | ⟨hj, hno, e1⟩
  · rw [e1, hj, Bool.false_and]
    exact parsed_fail (h.mono (t := { s with next := m }) rfl (List.Perm.refl _) hn)
  · rw [e1, hj, Bool.true_and]
    refine parseExprs_inv (setPath_inv h l.errId false s.next (Nat.le_refl _)) ?_ l
    rw [hf, List.mem_singleton] at hr
    have hid : l.outId = l.errId := by rw [hr] at hid; exact hid
    have hfs : setPath l.errId false s.ctx.files = s.ctx.files := by rw [hf]; simp [setPath]
    refine ⟨?_, ?_, hm, hm'⟩
    · dsimp only
      rw [hfs, hf, hid]; intro id; simp [eq_comm]
    · dsimp only
      rw [hfs, hf, he]; intro id; simp [hoe]; exact eq_comm
  · rw [e1, hj, Bool.true_and]
    refine parseExprs_inv (add_inv h (r := ⟨l.errId, s.next, e, false, l.errColors⟩) (own := []) (Nat.le_succ _)
      (Nat.lt_succ_of_lt (h.cerr e he)) (by simp [he]) (List.Perm.refl _)) ?_ l
    refine ⟨?_, ?_, hm, hm'⟩
    · dsimp only
      rw [hf]; intro id; simp [eq_comm, or_comm]
    · dsimp only
      rw [hf, he]; intro id; simp [hoe]; exact eq_comm

theorem parseStreams_inv {s : St} (h : Early s) (l : CmdLuck) :
    Parsed (l.cerr && (l.cout && (joins [] l.outId l.outColors l.outDedup && (joins [l.outId] l.errId l.errColors l.errDedup &&
      (decide (l.ending ≠ .bad) && fineOps [l.errId, l.outId] false (allOps l))))))
      (decide (l.ending = .good)) ([l.outId] ++ outputs (allOps l)) l.lost (parseStreams l s) := by
  unfold parseStreams
  cases l.cerr with
  | false => exact parsed_fail h.inv
  | true =>
    have h1 := setCerr_inv h.inv h.files h.cerr
    cases l.cout with
    | false => exact parsed_fail h1
    | true =>
      have h2 := setCout_inv h1 h.files h.cout
      dsimp only [Bool.not_true, Bool.true_and]
      rw [if_neg (by decide), if_neg (by decide)]
      generalize hs : upd (fun c => { c with cerr := some s.next }) (CtxLife.tick (take (.stream s.next) s)) = s1 at h1 h2 ⊢
      generalize hs2 : upd (fun c => { c with cout := some s1.next }) (CtxLife.tick (take (.stream s1.next) s1)) = s2 at h2 ⊢
      have hf : s2.ctx.files = [] := by rw [← hs2, ← hs]; exact h.files
      have he : s2.ctx.cerr = some s.next := by rw [← hs2, ← hs]; rfl
      have ho : s2.ctx.cout = some s1.next := by rw [← hs2]; rfl
      have hn : s1.next = s.next + 1 := by rw [← hs]; rfl
      have hm : s2.ctx.mtab = false := by rw [← hs2, ← hs]; exact h.mtab
      have hm' : s2.ctx.mtabError = false := by rw [← hs2, ← hs]; exact h.noError
      rcases dedup_cases (seen := []) l.outDedup s1.next l.outId l.outColors false s2 (by rw [hf]; intro id; simp) with
        ⟨hj, m, hn, e1⟩ | ⟨hj, r, hr, hid, e1⟩ | ⟨hj, hno, e1⟩
      · rw [e1, hj, Bool.false_and]
        exact parsed_fail (h2.mono (t := { s2 with next := m }) rfl (List.Perm.refl _) hn)
      · rw [hf] at hr; cases hr
      · rw [e1, hj, Bool.true_and]
        refine errDedup_inv (add_inv h2 (r := ⟨l.outId, s2.next, s1.next, false, l.outColors⟩) (own := []) (Nat.le_succ _)
          (Nat.lt_succ_of_lt (h2.cout _ ho)) (by simp [ho]) (List.Perm.refl _)) l (o := s1.next) (by dsimp only; rw [hf]; rfl) he (by omega) hm hm'

theorem ctxNew_inv (l : NewLuck) : (NewLuck.fine l = false → ctxNew l = .ok (none, [])) ∧
    (NewLuck.fine l = true → ∃ s, ctxNew l = .ok (some s, s.live) ∧ Early s ∧ s.ctx.argv = false ∧ s.ctx.kinds = false ∧ s.ctx.colors = false) := by
  constructor
  · intro h
    obtain ⟨a, b, c, d, e⟩ := l
    unfold ctxNew
    cases a
    · rfl
    cases b
    · rfl
    cases c
    · rfl
    cases d
    · rfl
    cases e
    · rfl
    · cases h
  · intro h
    obtain ⟨a, b, c, d, e⟩ := l
    simp only [NewLuck.fine, Bool.and_eq_true] at h
    obtain ⟨⟨⟨⟨rfl, rfl⟩, rfl⟩, rfl⟩, rfl⟩ := h
    refine ⟨_, rfl, ⟨⟨?_, ?_, ?_, ?_, ?_⟩, rfl, rfl, rfl, rfl, rfl⟩, rfl, rfl, rfl⟩
    · exact List.perm_iff_count.2 fun a => by simp [owned, opt, str, upd, take]
    · intro r hr; cases hr
    · intro r hr; cases hr
    · intro r hr; cases hr
    · intro r hr; cases hr

theorem setArgv_early {s : St} (h : Early s) (hc : s.ctx.argv = false) : Early (upd (fun c => { c with argv := true }) (take .argv s)) := by
  refine ⟨⟨?_, h.inv.files, h.inv.exprs, h.inv.cout, h.inv.cerr⟩, h.cout, h.cerr, h.files, h.mtab, h.noError⟩
  refine List.perm_iff_count.2 fun a => ?_
  have := h.inv.live.count_eq a
  rw [count_owned] at this
  rw [count_owned]
  simp only [upd, take, List.count_cons, hc] at this ⊢
  rw [show (opt false .argv).count a = 0 from rfl] at this
  rw [show (opt true .argv).count a = [Obj.argv].count a from rfl, List.count_singleton]
  omega

theorem setKinds_early {s : St} (h : Early s) (hc : s.ctx.kinds = false) : Early (upd (fun c => { c with kinds := true }) (take .kinds s)) := by
  refine ⟨⟨?_, h.inv.files, h.inv.exprs, h.inv.cout, h.inv.cerr⟩, h.cout, h.cerr, h.files, h.mtab, h.noError⟩
  refine List.perm_iff_count.2 fun a => ?_
  have := h.inv.live.count_eq a
  rw [count_owned] at this
  rw [count_owned]
  simp only [upd, take, List.count_cons, hc] at this ⊢
  rw [show (opt false .kinds).count a = 0 from rfl] at this
  rw [show (opt true .kinds).count a = [Obj.kinds].count a from rfl, List.count_singleton]
  omega

theorem setColors_early {s : St} (h : Early s) (hc : s.ctx.colors = false) (b : Bool) :
    Early (if b then upd (fun c => { c with colors := true }) (take .colors s) else s) := by
  cases b with
  | false => exact h
  | true =>
    refine ⟨⟨?_, h.inv.files, h.inv.exprs, h.inv.cout, h.inv.cerr⟩, h.cout, h.cerr, h.files, h.mtab, h.noError⟩
    refine List.perm_iff_count.2 fun a => ?_
    have := h.inv.live.count_eq a
    rw [count_owned] at this
    rw [count_owned]
    simp only [upd, take, List.count_cons, hc, if_true] at this ⊢
    rw [show (opt false .colors).count a = 0 from rfl] at this
    rw [show (opt true .colors).count a = [Obj.colors].count a from rfl, List.count_singleton]
    omega

theorem parseCmdline_inv (l : CmdLuck) :
    Parsed (NewLuck.fine l.new && (l.argv && (l.kinds && (l.cerr && (l.cout && (joins [] l.outId l.outColors l.outDedup && (joins [l.outId] l.errId l.errColors l.errDedup &&
      (decide (l.ending ≠ .bad) && fineOps [l.errId, l.outId] false (allOps l)))))))))
      (decide (l.ending = .good)) ([l.outId] ++ outputs (allOps l)) l.lost (parseCmdline l) := by
  unfold parseCmdline
  rcases Bool.eq_false_or_eq_true (NewLuck.fine l.new) with hn | hn
  · obtain ⟨s, e, h, h1, h2, h3⟩ := (ctxNew_inv l.new).2 hn
    rw [e, hn, Bool.true_and]
    dsimp only [Out.bind]
    cases l.argv with
    | false => exact parsed_fail h.inv
    | true =>
      have i1 := setArgv_early h h1
      cases l.kinds with
      | false => exact parsed_fail i1.inv
      | true => exact parseStreams_inv (setColors_early (setKinds_early i1 h2) h3 l.colors) l
  · rw [(ctxNew_inv l.new).1 hn, hn, Bool.false_and]
    exact ⟨fun _ => rfl, by intro h; cases h⟩

/-- The exit status is as it should be, and nothing remains. -/
theorem main_status (l : Luck) : main l = .ok (status l, []) := by
  unfold main
  have hp := parseCmdline_inv l.cmd
  have hs : starts l = (l.std && (NewLuck.fine l.cmd.new && (l.cmd.argv && (l.cmd.kinds && (l.cmd.cerr && (l.cmd.cout &&
      (joins [] l.cmd.outId l.cmd.outColors l.cmd.outDedup && (joins [l.cmd.outId] l.cmd.errId l.cmd.errColors l.cmd.errDedup &&
      (decide (l.cmd.ending ≠ .bad) && fineOps [l.cmd.errId, l.cmd.outId] false (allOps l.cmd)))))))))) := by
    unfold starts
    simp only [Bool.and_assoc]
  generalize (NewLuck.fine l.cmd.new && _) = fine at hp hs
  unfold status
  rw [hs]
  rcases Bool.eq_false_or_eq_true l.std with hstd | hstd
  · rw [hstd]
    cases fine with
    | false => rw [hp.1 rfl]; rfl
    | true =>
      obtain ⟨s, e, h, hc⟩ := hp.2 rfl
      rw [e]
      dsimp only [Out.bind]
      rw [if_neg (by decide), if_neg (by decide)]
      obtain ⟨e1, e2, e3, e4⟩ := evalCtx_inv h l (decide (l.cmd.ending = .good))
      rw [ctxFree_inv e2.live]
      dsimp only
      have : (evalCtx l (decide (l.cmd.ending = .good)) s).2.ctx.files.all (closes (evalCtx l (decide (l.cmd.ending = .good)) s).2.ctx l.cmd.lost) =
          !loses l := by
        unfold closes
        rw [e3, e4]
        exact hc
      rw [this, e1]
      have hd : (if decide (l.cmd.ending = .good) = true then l.ret else 0) = (if l.cmd.ending = .good then l.ret else 0) := by
        by_cases h : l.cmd.ending = .good <;> simp [h]
      rw [hd]
      generalize (if l.cmd.ending = .good then l.ret else 0) = r
      by_cases hr : r = 0
      · subst hr
        cases loses l <;> rfl
      · simp [hr]
  · rw [hstd]; rfl

end Verif.CtxLife
