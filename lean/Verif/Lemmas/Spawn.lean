import Verif.Spec.Spawn
import Verif.Lemmas.Varena
/-!
# Lemmas about starting processes
-/
namespace Verif.Spawn
open Verif Verif.Spec.Spawn Verif.Alloc

/-! ## The components of a `PATH` -/

theorem strchr_nil (c : UInt8) : strchr [] c = none := rfl

theorem strchr_cons (x c : UInt8) (s : Str) :
    strchr (x :: s) c = if x = c then some 0 else (strchr s c).map (· + 1) := by
  unfold strchr
  rw [List.findIdx?_cons]
  by_cases h : x = c <;> simp [h]

theorem entries_none : ∀ {s : Str}, strchr s 58 = none → entries s = [s]
  | [], _ => rfl
  | x :: s, h => by
    rw [strchr_cons] at h
    split at h
    · cases h
    · rename_i hx
      have h' : strchr s 58 = none := by
        cases hc : strchr s 58 with
        | none => rfl
        | some i => rw [hc] at h; cases h
      rw [entries, if_neg hx, entries_none h']

theorem entries_some : ∀ {s : Str} {i : Nat}, strchr s 58 = some i →
    i < s.length ∧ entries s = s.take i :: entries (s.drop (i + 1))
  | [], _, h => by cases h
  | x :: s, i, h => by
    rw [strchr_cons] at h
    split at h
    · rename_i hx
      cases h
      refine ⟨by simp, ?_⟩
      rw [entries, if_pos hx]; rfl
    · rename_i hx
      cases hc : strchr s 58 with
      | none => rw [hc] at h; cases h
      | some j =>
        rw [hc] at h
        have : j + 1 = i := Option.some.inj h
        subst this
        obtain ⟨h1, h2⟩ := entries_some hc
        refine ⟨by simp; omega, ?_⟩
        rw [entries, if_neg hx, h2]; rfl

/-- The directory of an entry. -/
def dirEntry (e : Str) : Str := if e = [] then [46] else e

theorem components_none : components none = [] := by
  rw [components]; rfl

theorem components_some (s : Str) : ∃ p n rest, components (some s) = (p, n) :: components rest ∧
    n ≤ p.length ∧ 0 < n ∧
    ((entries s = [s] ∧ rest = none ∧ p.take n = dirEntry s) ∨
      ∃ i, i < s.length ∧ entries s = s.take i :: entries (s.drop (i + 1)) ∧ rest = some (s.drop (i + 1)) ∧
        p.take n = dirEntry (s.take i)) := by
  have key : ∀ r, resolveNext (some s) = some r → components (some s) = (r.1, r.2.1) :: components r.2.2 := by
    intro r hr
    rw [components]
    split
    · rename_i h; rw [h] at hr; cases hr
    · rename_i h; rw [h] at hr; cases hr; rfl
  cases hc : strchr s 58 with
  | none =>
    by_cases hl : s.length = 0
    · have : s = [] := List.length_eq_zero_iff.1 hl
      subst this
      refine ⟨[46], 1, none, key _ rfl, by simp, by simp, Or.inl ⟨rfl, rfl, rfl⟩⟩
    · have hr : resolveNext (some s) = some (s, s.length, none) := by
        unfold resolveNext; dsimp only; rw [hc]; dsimp only; rw [if_neg hl]
      refine ⟨s, s.length, none, key _ hr, by simp, by omega, Or.inl ⟨entries_none hc, rfl, ?_⟩⟩
      have : s ≠ [] := by intro h; subst h; simp at hl
      simp [dirEntry, this]
  | some i =>
    obtain ⟨h1, h2⟩ := entries_some hc
    by_cases hl : i = 0
    · subst hl
      have hr : resolveNext (some s) = some ([46], 1, some (s.drop 1)) := by
        unfold resolveNext; dsimp only; rw [hc]; dsimp only; rw [if_pos rfl]
      exact ⟨[46], 1, _, key _ hr, by simp, by simp, Or.inr ⟨0, h1, h2, rfl, by simp [dirEntry]⟩⟩
    · have hr : resolveNext (some s) = some (s, i, some (s.drop (i + 1))) := by
        unfold resolveNext; dsimp only; rw [hc]; dsimp only; rw [if_neg hl]
      refine ⟨s, i, _, key _ hr, by omega, by omega, Or.inr ⟨i, h1, h2, rfl, ?_⟩⟩
      have : s.take i ≠ [] := by
        intro h
        have := congrArg List.length h
        simp at this; rcases this with h | h
        · exact hl h
        · subst h; simp at h1
      simp [dirEntry, this]

theorem components_spec : ∀ (k : Nat) (s : Str), s.length ≤ k →
    (components (some s)).map (fun c => c.1.take c.2) = (entries s).map dirEntry ∧
    ∀ c ∈ components (some s), c.2 ≤ c.1.length ∧ 0 < c.2 := by
  intro k
  induction k with
  | zero =>
    intro s hs
    have : s = [] := List.length_eq_zero_iff.1 (by omega)
    subst this
    obtain ⟨p, n, rest, h1, h2, h3, h4⟩ := components_some []
    rcases h4 with ⟨h5, h6, h7⟩ | ⟨i, hi, _⟩
    · subst h6
      rw [h1, components_none, h5]
      refine ⟨by simp [h7], by simp; omega⟩
    · simp at hi
  | succ k ih =>
    intro s hs
    obtain ⟨p, n, rest, h1, h2, h3, h4⟩ := components_some s
    rcases h4 with ⟨h5, h6, h7⟩ | ⟨i, hi, h5, h6, h7⟩
    · subst h6
      rw [h1, components_none, h5]
      refine ⟨by simp [h7], by simp; omega⟩
    · subst h6
      obtain ⟨g1, g2⟩ := ih (s.drop (i + 1)) (by simp; omega)
      rw [h1, h5]
      refine ⟨by simp only [List.map_cons, h7, g1], ?_⟩
      intro c hc
      rcases List.mem_cons.1 hc with h | h
      · subst h; exact ⟨h2, h3⟩
      · exact g2 c h

theorem components_map (s : Str) :
    (components (some s)).map (fun c => c.1.take c.2) = (entries s).map dirEntry :=
  (components_spec s.length s (Nat.le_refl _)).1

theorem components_len (s : Str) : ∀ c ∈ components (some s), c.2 ≤ c.1.length ∧ 0 < c.2 :=
  (components_spec s.length s (Nat.le_refl _)).2

theorem mem_entries : ∀ (s : Str) e, e ∈ entries s → ∀ x ∈ e, x ∈ s
  | [], e, h, x, hx => by
    simp [entries] at h; subst h; cases hx
  | c :: s, e, h, x, hx => by
    rw [entries] at h
    split at h
    · rcases List.mem_cons.1 h with h | h
      · subst h; cases hx
      · exact List.mem_cons_of_mem _ (mem_entries s e h x hx)
    · cases he : entries s with
      | nil =>
        rw [he] at h; simp at h; subst h
        simp at hx; subst hx; simp
      | cons y ys =>
        rw [he] at h
        rcases List.mem_cons.1 h with h | h
        · subst h
          rcases List.mem_cons.1 hx with h | h
          · subst h; simp
          · exact List.mem_cons_of_mem _ (mem_entries s y (by rw [he]; simp) x h)
        · exact List.mem_cons_of_mem _ (mem_entries s e (by rw [he]; simp [h]) x hx)

/-! ## The buffer -/

theorem foldl_max (l : List (Str × Nat)) : ∀ m,
    m ≤ l.foldl (fun max c => if c.2 > max then c.2 else max) m ∧
    ∀ c ∈ l, c.2 ≤ l.foldl (fun max c => if c.2 > max then c.2 else max) m := by
  induction l with
  | nil => intro m; simp
  | cons a l ih =>
    intro m
    have h0 : m ≤ (if a.2 > m then a.2 else m) ∧ a.2 ≤ (if a.2 > m then a.2 else m) := by
      split <;> omega
    obtain ⟨h1, h2⟩ := ih (if a.2 > m then a.2 else m)
    refine ⟨Nat.le_trans h0.1 h1, ?_⟩
    intro c hc
    rcases List.mem_cons.1 hc with h | h
    · subst h; exact Nat.le_trans h0.2 h1
    · exact h2 c h

theorem capacity_ge (path exe : Str) : ∀ c ∈ components (some path),
    c.2 + 1 + exe.length < resolveCapacity path exe := by
  intro c hc
  have := (foldl_max (components (some path)) 0).2 c hc
  unfold resolveCapacity; omega

theorem write_ok {buf s : List UInt8} {i : Nat} (h : i + s.length ≤ buf.length) :
    write buf i s = .ok (buf.take i ++ s ++ buf.drop (i + s.length)) := if_pos h

theorem write_len {buf s : List UInt8} {i : Nat} (h : i + s.length ≤ buf.length) :
    (buf.take i ++ s ++ buf.drop (i + s.length)).length = buf.length := by
  simp; omega

/-- Copying a string that fits. -/
theorem xstpencpy_fits {buf : List UInt8} {dest : Nat} {src : Str} {n : Nat} {pre : List UInt8}
    (hd : dest + min src.length n < buf.length) (hp : buf.take dest = pre) :
    ∃ buf', xstpencpy buf dest buf.length src n = .ok (buf', dest + min src.length n) ∧
      buf'.length = buf.length ∧
      buf'.take (dest + min src.length n + 1) = pre ++ src.take (min src.length n) ++ [0] := by
  unfold xstpencpy
  rw [if_neg (by omega)]
  have hn : min src.length (if buf.length - dest < n then buf.length - dest else n) = min src.length n := by
    split <;> omega
  dsimp only
  rw [hn]
  generalize hk : min src.length n = k at *
  have hl : (src.take k).length = k := by simp; omega
  have hpl : pre.length = dest := by rw [← hp]; simp; omega
  rw [write_ok (by rw [hl]; omega), ok_bind, if_pos (by omega), write_ok (by simp; omega), ok_bind]
  refine ⟨_, rfl, ?_, ?_⟩
  · rw [write_len]
    · rw [write_len (by rw [hl]; omega)]
    · rw [write_len (by rw [hl]; omega)]; simp; omega
  · rw [hp, hl]
    have e1 : (pre ++ src.take k ++ buf.drop (dest + k)).take (dest + k) = pre ++ src.take k := by
      have e : (pre ++ src.take k).length = dest + k := by simp [hpl]; omega
      rw [← e, List.take_left]
    rw [e1]
    have e : (pre ++ src.take k ++ [0]).length = dest + k + 1 := by simp [hpl]; omega
    rw [← e, List.take_left]

/-- Writing into a part of a buffer. -/
theorem write_mid (A M D : List UInt8) {i : Nat} {s : List UInt8} (h : i + s.length ≤ M.length) :
    write (A ++ M ++ D) (A.length + i) s = .ok (A ++ (M.take i ++ s ++ M.drop (i + s.length)) ++ D) := by
  rw [write_ok (by simp; omega)]
  congr 1
  have e1 : (A ++ M ++ D).take (A.length + i) = A ++ M.take i := by
    rw [List.append_assoc, List.take_length_add_append, List.take_append_of_le_length (by omega)]
  have e2 : (A ++ M ++ D).drop (A.length + i + s.length) = M.drop (i + s.length) ++ D := by
    rw [List.append_assoc, Nat.add_assoc, List.drop_length_add_append, List.drop_append_of_le_length (by omega)]
  rw [e1, e2]
  simp only [List.append_assoc]

theorem cstr_of_take {buf s : List UInt8} (hs : (0 : UInt8) ∉ s)
    (h : buf.take (s.length + 1) = s ++ [0]) : cstr buf = .ok s := by
  have hb : buf = s ++ 0 :: buf.drop (s.length + 1) := by
    conv => lhs; rw [← List.take_append_drop (s.length + 1) buf, h]
    simp
  unfold cstr
  rw [if_pos (by rw [hb]; simp)]
  rw [hb]
  congr 1
  rw [List.takeWhile_append_of_pos]
  · simp
  · intro x hx
    simp
    intro h0; subst h0; exact hs hx

theorem take_of_take {α : Type} {l p : List α} {k m : Nat} (h : l.take k = p) (hm : m ≤ k) : l.take m = p.take m := by
  rw [← h, List.take_take, Nat.min_eq_left hm]

/-- One candidate is put together without being truncated. -/
theorem build_candidate {buf : List UInt8} {path exe : Str} {len : Nat}
    (hl : len ≤ path.length) (he : exe.length < 2 ^ 64 - 1) (hb : len + 1 + exe.length < buf.length)
    (h0 : (0 : UInt8) ∉ path.take len) (h1 : (0 : UInt8) ∉ exe) :
    ∃ b1 c1 b2 c2 b3 c3, xstpencpy buf 0 buf.length path len = .ok (b1, c1) ∧
      xstpecpy b1 c1 buf.length [47] = .ok (b2, c2) ∧
      xstpecpy b2 c2 buf.length exe = .ok (b3, c3) ∧
      c3 ≠ buf.length ∧ b3.length = buf.length ∧ cstr b3 = .ok (path.take len ++ [47] ++ exe) := by
  have m1 : min path.length len = len := by omega
  have m2 : min [(47 : UInt8)].length (2 ^ 64 - 1) = 1 := rfl
  have m3 : min exe.length (2 ^ 64 - 1) = exe.length := by omega
  obtain ⟨b1, x1, l1, t1⟩ := xstpencpy_fits (buf := buf) (dest := 0) (src := path) (n := len) (pre := [])
    (by rw [m1]; omega) (by simp)
  rw [m1, Nat.zero_add] at x1 t1
  have p1 : b1.take len = path.take len := by
    rw [take_of_take t1 (by omega)]
    have e : (([] : List UInt8) ++ path.take len).length = len := by simp; omega
    rw [List.take_append_of_le_length (by omega)]
    simp [List.take_take]
  obtain ⟨b2, x2, l2, t2⟩ := xstpencpy_fits (buf := b1) (dest := len) (src := [47]) (n := 2 ^ 64 - 1)
    (pre := path.take len) (by rw [m2, l1]; omega) p1
  rw [m2] at x2 t2
  have p2 : b2.take (len + 1) = path.take len ++ [47] := by
    rw [take_of_take t2 (by omega)]
    have e : (path.take len ++ [(47 : UInt8)].take 1).length = len + 1 := by simp; omega
    rw [List.take_append_of_le_length (by omega), List.take_of_length_le (by omega)]
    rfl
  obtain ⟨b3, x3, l3, t3⟩ := xstpencpy_fits (buf := b2) (dest := len + 1) (src := exe) (n := 2 ^ 64 - 1)
    (pre := path.take len ++ [47]) (by rw [m3, l2, l1]; omega) p2
  rw [m3] at x3 t3
  rw [l1] at x2
  rw [l2, l1] at x3
  refine ⟨b1, len, b2, len + 1, b3, len + 1 + exe.length, x1, x2, x3, by omega, by omega, ?_⟩
  apply cstr_of_take
  · simp only [List.mem_append, List.mem_singleton, not_or]
    exact ⟨⟨h0, by decide⟩, h1⟩
  · have e : (path.take len ++ [47] ++ exe).length + 1 = len + 1 + exe.length + 1 := by simp; omega
    rw [e, t3, List.take_of_length_le (Nat.le_refl exe.length)]

/-! ## Searching -/

theorem xfaccessat_eq (w : World) (d : Dir) (p : Str) : xfaccessat w d p = obstacle w d p := by
  unfold xfaccessat obstacle
  cases h : w.faccessat d p false with
  | none => simp
  | some e =>
    by_cases h1 : e = "EINVAL"
    · subst h1; simp
    · by_cases h2 : e = "ENOTSUP"
      · subst h2; simp
      · simp [h1, h2]

theorem lateLoop_spec (w : World) (d : Dir) (res : Resolver) (he : res.exe.length < 2 ^ 64 - 1)
    (h1 : (0 : UInt8) ∉ res.exe) : ∀ (cs : List (Str × Nat)) (buf : List UInt8), buf.length = res.len →
    (∀ c ∈ cs, c.2 ≤ c.1.length ∧ c.2 + 1 + res.exe.length < res.len ∧ (0 : UInt8) ∉ c.1.take c.2) →
    match (cs.map fun c => c.1.take c.2 ++ [47] ++ res.exe).find? (fun p => obstacle w d p = none) with
    | some p => ∃ r, lateLoop w d res buf cs = .ok r ∧ r.exe = p ∧ r.done = true
    | none => lateLoop w d res buf cs = .err "ENOENT"
  | [], buf, _, _ => rfl
  | (path, len) :: cs, buf, hb, hc => by
    obtain ⟨h2, h3, h4⟩ := hc (path, len) (by simp)
    dsimp only at h2 h3 h4
    obtain ⟨b1, c1, b2, c2, b3, c3, x1, x2, x3, n3, l3, s3⟩ :=
      build_candidate (buf := buf) h2 he (by rw [hb]; exact h3) h4 h1
    rw [hb] at x1 x2 x3 n3 l3
    have eq : lateLoop w d res buf ((path, len) :: cs) =
        if xfaccessat w d (path.take len ++ [47] ++ res.exe) = none then
          .ok { res with
            exe := path.take len ++ [47] ++ res.exe
            inBuf := true
            buf := some b3
            done := true }
        else lateLoop w d res b3 cs := by
      rw [lateLoop, x1, ok_bind, x2, ok_bind, x3, ok_bind, if_neg n3, s3, ok_bind]
    rw [eq, List.map_cons, List.find?_cons, xfaccessat_eq]
    by_cases ho : obstacle w d (path.take len ++ [47] ++ res.exe) = none
    · rw [if_pos ho]
      simp only [ho, decide_true]
      exact ⟨_, rfl, rfl, rfl⟩
    · rw [if_neg ho]
      simp only [ho, decide_false]
      exact lateLoop_spec w d res he h1 cs b3 l3 fun c hcm => hc c (by simp [hcm])

/-- A resolver that is ready to search. -/
structure Ready (path exe : Str) (res : Resolver) : Prop where
  hexe : res.exe = exe
  hpath : res.path = path
  notDone : res.done = false
  buf : ∃ b, res.buf = some b ∧ b.length = res.len
  len : res.len = resolveCapacity path exe

theorem candidates_eq (path exe : Str) :
    (components (some path)).map (fun c => c.1.take c.2 ++ [47] ++ exe) = (entries path).map (under exe) := by
  have := congrArg (List.map (· ++ [47] ++ exe)) (components_map path)
  rw [List.map_map, List.map_map] at this
  exact this

theorem resolveLate_ready {w : World} {path exe : Str} {res : Resolver} (hs : CStrings path exe)
    (hr : Ready path exe res) (d : Dir) :
    match search w path exe d with
    | .ok p => ∃ r, resolveLate w d res = .ok r ∧ r.exe = p ∧ r.done = true
    | .error e => resolveLate w d res = .err e := by
  obtain ⟨b, hb, hbl⟩ := hr.buf
  have eq : resolveLate w d res = lateLoop w d res b (components (some path)) := by
    unfold resolveLate
    rw [if_neg (by rw [hr.notDone]; simp), hb, hr.hpath]
  have key := lateLoop_spec w d res (by rw [hr.hexe]; exact hs.len) (by rw [hr.hexe]; exact hs.hexe)
    (components (some path)) b hbl (by
      intro c hc
      refine ⟨(components_len path c hc).1, ?_, ?_⟩
      · rw [hr.hexe, hr.len]; exact capacity_ge path exe c hc
      · have hm : c.1.take c.2 ∈ (entries path).map dirEntry := by
          rw [← components_map]; exact List.mem_map_of_mem hc
        obtain ⟨e, he, heq⟩ := List.mem_map.1 hm
        rw [← heq]
        unfold dirEntry
        split
        · decide
        · intro h; exact hs.hpath (mem_entries path e he 0 h))
  rw [hr.hexe, candidates_eq] at key
  unfold search
  rw [eq]
  cases hf : ((entries path).map (under exe)).find? (fun p => obstacle w d p = none) with
  | none => rw [hf] at key; exact key
  | some p => rw [hf] at key; exact key

/-! ## Requests -/

/-- The action for a request. -/
def toAction : Req → Action
  | .open fd path flags mode => ⟨.open path flags mode, -1, fd⟩
  | .close fd => ⟨.close, -1, fd⟩
  | .dup2 a b => ⟨.dup2, a, b⟩
  | .fchdir fd => ⟨.fchdir, fd, -1⟩
  | .setrlimit r rl => ⟨.setrlimit r rl, -1, -1⟩

theorem clearPosix_actions (ctx : Ctx) : (clearPosix ctx).actions = ctx.actions := by
  unfold clearPosix; split <;> rfl

theorem clearPosix_usePath (ctx : Ctx) : (clearPosix ctx).usePath = ctx.usePath := by
  unfold clearPosix; split <;> rfl

theorem request_spec (pl : Plat) (ctx : Ctx) (q : Req) :
    (request pl ctx q).actions = ctx.actions ++ [toAction q] ∧ (request pl ctx q).usePath = ctx.usePath := by
  cases q with
  | fchdir fd =>
    refine ⟨?_, ?_⟩
    · show (if pl.addfchdir then ctx else clearPosix ctx).actions ++ _ = _
      split
      · rfl
      · rw [clearPosix_actions]; rfl
    · show (if pl.addfchdir then ctx else clearPosix ctx).usePath = _
      split
      · rfl
      · rw [clearPosix_usePath]
  | setrlimit r rl =>
    refine ⟨?_, ?_⟩
    · show (clearPosix ctx).actions ++ _ = _
      rw [clearPosix_actions]; rfl
    · exact clearPosix_usePath ctx
  | «open» => exact ⟨rfl, rfl⟩
  | close => exact ⟨rfl, rfl⟩
  | dup2 => exact ⟨rfl, rfl⟩

theorem prepare_spec (pl : Plat) (up : Bool) (reqs : List Req) :
    (prepare pl up reqs).actions = reqs.map toAction ∧ (prepare pl up reqs).usePath = up := by
  have key : ∀ (reqs : List Req) (ctx : Ctx),
      (reqs.foldl (request pl) ctx).actions = ctx.actions ++ reqs.map toAction ∧
      (reqs.foldl (request pl) ctx).usePath = ctx.usePath := by
    intro reqs
    induction reqs with
    | nil => intro ctx; simp
    | cons q qs ih =>
      intro ctx
      obtain ⟨h1, h2⟩ := ih (request pl ctx q)
      obtain ⟨g1, g2⟩ := request_spec pl ctx q
      rw [List.foldl_cons, h1, h2, g1, g2]
      simp
  exact key reqs _

theorem isFchdir_toAction (q : Req) : isFchdir (toAction q) = isChdir q := by
  cases q <;> rfl

theorem any_isFchdir (reqs : List Req) : (reqs.map toAction).any isFchdir = changesDir reqs := by
  unfold changesDir
  rw [List.any_map]
  congr 1
  funext q
  exact isFchdir_toAction q

theorem resolveRelative_eq (path : Str) : resolveRelative path = !absolute path := by
  have h : ∀ c ∈ components (some path), c.1.head? = (c.1.take c.2).head? := by
    intro c hc
    have := (components_len path c hc).2
    obtain ⟨p, n⟩ := c
    cases n with
    | zero => simp at this
    | succ n => cases p <;> rfl
  have h1 : resolveRelative path =
      ((components (some path)).map (fun c => c.1.take c.2)).any (fun p => p.head? ≠ some 47) := by
    unfold resolveRelative
    rw [List.any_map, Bool.eq_iff_iff, List.any_eq_true, List.any_eq_true]
    constructor
    · rintro ⟨c, hc, he⟩
      refine ⟨c, hc, ?_⟩
      rw [h c hc] at he; exact he
    · rintro ⟨c, hc, he⟩
      refine ⟨c, hc, ?_⟩
      rw [h c hc]; exact he
  rw [h1, components_map, List.any_map]
  unfold absolute
  rw [List.not_all_eq_any_not]
  congr 1
  funext e
  cases e with
  | nil => rfl
  | cons x e => simp [dirEntry]

theorem canResolveEarly_eq (pl : Plat) (up : Bool) (path : Str) (reqs : List Req) :
    canResolveEarly path (some (prepare pl up reqs)) = (absolute path || !changesDir reqs) := by
  unfold canResolveEarly
  rw [resolveRelative_eq, Bool.not_not, Option.any_some, (prepare_spec pl up reqs).1, any_isFchdir]
  cases absolute path <;> cases changesDir reqs <;> rfl

/-! ## Resolution before there is a child -/

theorem resolve_early {pl : Plat} {w : World} {path exe : Str} (hs : CStrings path exe) (junk : UInt8) (d : Dir)
    {ctx : Option Ctx} (hc : ∀ c, ctx = some c → c.usePath = true) (hx : (47 : UInt8) ∉ exe) (hp : searchPath w = .ok path) (hm : w.malloc = true) :
    if canResolveEarly path ctx then
      match search w path exe d with
      | .ok p => ∃ r, resolveEarly pl w junk d exe ctx = .ok r ∧ r.exe = p ∧ r.done = true
      | .error e => resolveEarly pl w junk d exe ctx = .err e
    else
      ∃ r, resolveEarly pl w junk d exe ctx = .ok r ∧
        ((pl.afterFchdir = true ∧ ctx.any (·.usePosix) = true ∧ r.exe = exe ∧ r.done = false) ∨ Ready path exe r) := by
  have hskip : canSkipResolve exe ctx = false := by
    unfold canSkipResolve
    have h1 : (ctx.any fun c => !c.usePath) = false := by
      cases ctx with
      | none => rfl
      | some c => simp [hc c rfl]
    have h2 : (strchr exe 47).isSome = false := by
      unfold strchr
      rw [List.findIdx?_isSome]
      simp; exact fun x hx' h => hx (h ▸ hx')
    rw [h1, h2]; rfl
  have eq : resolveEarly pl w junk d exe ctx =
      if pl.afterFchdir && (!canResolveEarly path ctx && ctx.any (·.usePosix)) then
        .ok ⟨exe, false, path, none, 0, false⟩
      else if canResolveEarly path ctx then
        resolveLate w d ⟨exe, false, path, some (List.replicate (resolveCapacity path exe) junk),
          resolveCapacity path exe, false⟩
      else .ok ⟨exe, false, path, some (List.replicate (resolveCapacity path exe) junk),
          resolveCapacity path exe, false⟩ := by
    unfold resolveEarly
    dsimp only
    rw [hskip, hp, ok_bind, hm]
    rfl
  have ready : Ready path exe ⟨exe, false, path, some (List.replicate (resolveCapacity path exe) junk),
      resolveCapacity path exe, false⟩ := ⟨rfl, rfl, rfl, ⟨_, rfl, by simp⟩, rfl⟩
  have late := resolveLate_ready (w := w) hs ready d
  rw [eq]
  cases hcan : canResolveEarly path ctx with
  | true =>
    simp only [if_true, Bool.not_true, Bool.false_and, Bool.and_false, Bool.false_eq_true, if_false]
    exact late
  | false =>
    simp only [Bool.false_eq_true, if_false, Bool.not_false, Bool.true_and]
    split
    · rename_i h
      rw [Bool.and_eq_true] at h
      exact ⟨_, rfl, Or.inl ⟨h.1, h.2, rfl, rfl⟩⟩
    · exact ⟨_, rfl, Or.inr ready⟩

/-! ## The child -/

/-- The child's descriptors: the pipe is in one place only. -/
structure Inv (w : World) (c : Child) (pw : Int) : Prop where
  nonneg : 0 ≤ pw
  pipe : c.fds pw = some ⟨w.pipeWrite, true⟩
  only : ∀ fd e, c.fds fd = some e → e.file = w.pipeWrite → fd = pw
  finite : Finite c.fds

theorem finite_set {t : Fds} (h : Finite t) (x : Int) (e : Option Entry) : Finite (t.set x e) := by
  obtain ⟨n, hn⟩ := h
  refine ⟨n + (x + 1).toNat, ?_⟩
  intro fd hfd
  show (if fd = x then e else t fd) = none
  rw [if_neg (by omega)]
  exact hn fd (by omega)

theorem finite_of {t u : Fds} (h : Finite t) (x y : Int) (hu : ∀ fd, fd ≠ x → fd ≠ y → u fd = t fd) : Finite u := by
  obtain ⟨n, hn⟩ := h
  refine ⟨n + (x + 1).toNat + (y + 1).toNat, ?_⟩
  intro fd hfd
  rw [hu fd (by omega) (by omega)]
  exact hn fd (by omega)

/-- How the child's state relates to what was requested. -/
structure Rel (w : World) (exact : Bool) (c s : Child) (pw : Int) : Prop where
  cwd : c.cwd = s.cwd
  limits : c.limits = s.limits
  inv : Inv w c pw
  hidden : s.fds pw = none
  sub : ∀ fd e, s.fds fd = some e → c.fds fd = some e
  eq : exact = true → ∀ fd, fd ≠ pw → c.fds fd = s.fds fd

theorem move_spec {w : World} {self : Child} (hh : Honest w self) {exact : Bool} {c s : Child} {pw : Int} (h : Rel w exact c s pw) (a : Action) :
    ∃ c' pw', movePipe w c pw a = .go c' pw' ∧ Rel w exact c' s pw' ∧ a.outFd ≠ pw' := by
  unfold movePipe
  by_cases ho : a.outFd = pw
  · rw [if_pos ho]
    obtain ⟨fd, hfd⟩ := Option.isSome_iff_exists.1 (hh.enough c.fds h.inv.finite)
    obtain ⟨h0, hfree⟩ := hh.pick _ _ hfd
    have hne : fd ≠ pw := by
      intro he; subst he; rw [h.inv.pipe] at hfree; cases hfree
    rw [hfd]; dsimp only
    rw [h.inv.pipe]; dsimp only
    have hx : xclose (c.fds.set fd (some ⟨w.pipeWrite, true⟩)) pw =
        .ok ((c.fds.set fd (some ⟨w.pipeWrite, true⟩)).set pw none) := by
      unfold xclose
      have : (c.fds.set fd (some ⟨w.pipeWrite, true⟩)) pw = some ⟨w.pipeWrite, true⟩ := by
        unfold Fds.set; rw [if_neg (Ne.symm hne)]; exact h.inv.pipe
      rw [this]
    rw [hx]
    refine ⟨_, fd, rfl, ?_, by rw [ho]; exact Ne.symm hne⟩
    have hsfd : s.fds fd = none := by
      cases hs : s.fds fd with
      | none => rfl
      | some e => have := h.sub fd e hs; rw [hfree] at this; cases this
    refine ⟨h.cwd, h.limits, ⟨h0, ?_, ?_, finite_set (finite_set h.inv.finite _ _) _ _⟩, hsfd, ?_, ?_⟩
    · show (if fd = pw then none else if fd = fd then _ else c.fds fd) = _
      rw [if_neg hne, if_pos rfl]
    · intro x e hx he
      change (if x = pw then none else if x = fd then some _ else c.fds x) = _ at hx
      by_cases h1 : x = pw
      · rw [if_pos h1] at hx; cases hx
      · by_cases h2 : x = fd
        · exact h2
        · rw [if_neg h1, if_neg h2] at hx
          exact absurd (h.inv.only x e hx he) h1
    · intro x e hx
      show (if x = pw then none else if x = fd then _ else c.fds x) = _
      have h1 : x ≠ pw := by intro he; rw [he, h.hidden] at hx; cases hx
      have h2 : x ≠ fd := by intro he; rw [he, hsfd] at hx; cases hx
      rw [if_neg h1, if_neg h2]
      exact h.sub x e hx
    · intro hex x hx
      show (if x = pw then none else if x = fd then _ else c.fds x) = _
      by_cases h1 : x = pw
      · rw [if_pos h1, h1, h.hidden]
      · rw [if_neg h1, if_neg hx]
        exact h.eq hex x h1
  · rw [if_neg ho]
    exact ⟨c, pw, rfl, h, ho⟩

theorem cast_ne {pw : Int} (h : 0 ≤ pw) : (-1 : Int) ≠ pw := by omega

/-- The effect of one action, after the pipe has been moved. -/
theorem perform_spec {w : World} {self : Child} (hh : Honest w self) {exact : Bool} {c s : Child} {pw : Int}
    (h : Rel w exact c s pw) (q : Req) (ho : (toAction q).outFd ≠ pw)
    (hq : exact = true → ∀ fd p fl m, q ≠ .open fd p fl m) :
    match apply w s q with
    | .ok s' => ∃ c' pw', afterMove w (toAction q) (.go c pw) = .go c' pw' ∧ Rel w exact c' s' pw'
    | .error e => exact = true →
        ∃ c' pw', afterMove w (toAction q) (.go c pw) = .fail e c' pw' ∧ Inv w c' pw' := by
  have hm1 := cast_ne h.inv.nonneg
  cases q with
  | «open» fd path flags mode =>
    unfold apply
    dsimp only
    cases hf : w.openFile s.cwd path flags mode with
    | error e => intro hex; exact absurd rfl (hq hex fd path flags mode)
    | ok f =>
      dsimp only
      obtain ⟨n, hn⟩ := Option.isSome_iff_exists.1 (hh.enough c.fds h.inv.finite)
      obtain ⟨h0, hfree⟩ := hh.pick _ _ hn
      have hnp : n ≠ pw := by
        intro he; subst he; rw [h.inv.pipe] at hfree; cases hfree
      have hfp : f ≠ w.pipeWrite := fun he => hh.openFile s.cwd path flags mode (he ▸ hf)
      have hop : (fd : Int) ≠ pw := ho
      have hst : afterMove w (toAction (.open fd path flags mode)) (.go c pw) =
          .go { c with fds := fun x => if x = (fd : Int) ∨ x = n then some ⟨f, false⟩ else c.fds x } pw := by
        show (if (-1 : Int) = pw then _ else perform w c pw _) = _
        rw [if_neg hm1]
        unfold perform
        simp only [toAction]
        rw [h.cwd, hf]; dsimp only
        rw [hn]; dsimp only
        by_cases hnf : n = (fd : Int)
        · refine (if_neg (by simp [hnf])).trans ?_
          congr 2
          funext x
          unfold Fds.set
          by_cases hx : x = n
          · rw [if_pos hx, if_pos (Or.inr hx)]
          · rw [if_neg hx, if_neg (by rw [← hnf]; simp [hx])]
        · refine (if_pos hnf).trans ?_
          have hd : dup2 (c.fds.set n (some ⟨f, false⟩)) n fd =
              .ok ((c.fds.set n (some ⟨f, false⟩)).set fd (some ⟨f, false⟩)) := by
            unfold dup2
            have : (c.fds.set n (some ⟨f, false⟩)) n = some ⟨f, false⟩ := by unfold Fds.set; rw [if_pos rfl]
            rw [this]; dsimp only
            rw [if_neg (by omega), if_neg hnf]
          rw [hd]; dsimp only
          congr 2
          funext x
          unfold Fds.set
          by_cases hx : x = (fd : Int)
          · rw [if_pos hx, if_pos (Or.inl hx)]
          · rw [if_neg hx]
            by_cases hx2 : x = n
            · rw [if_pos hx2, if_pos (Or.inr hx2)]
            · rw [if_neg hx2, if_neg (by simp [hx, hx2])]
      refine ⟨_, _, hst, h.cwd, h.limits, ⟨h.inv.nonneg, ?_, ?_, finite_of h.inv.finite fd n (by intro x h1 h2; show (if _ then _ else _) = _; rw [if_neg (by simp [h1, h2])])⟩, ?_, ?_, ?_⟩
      · show (if _ then _ else c.fds pw) = _
        rw [if_neg (by simp [Ne.symm hop, Ne.symm hnp])]; exact h.inv.pipe
      · intro x e hx he
        change (if _ then some _ else c.fds x) = _ at hx
        by_cases hxx : x = (fd : Int) ∨ x = n
        · rw [if_pos hxx] at hx; cases hx; exact absurd he hfp
        · rw [if_neg hxx] at hx; exact h.inv.only x e hx he
      · show (if _ then _ else s.fds pw) = none
        rw [if_neg (Ne.symm hop)]; exact h.hidden
      · intro x e hx
        change (if _ then some _ else s.fds x) = _ at hx
        show (if _ then some _ else c.fds x) = _
        by_cases hxx : x = (fd : Int)
        · rw [if_pos hxx] at hx; rw [if_pos (Or.inl hxx)]; exact hx
        · rw [if_neg hxx] at hx
          have hxn : x ≠ n := by
            intro he; subst he
            have := h.sub x e hx; rw [hfree] at this; cases this
          rw [if_neg (by simp [hxx, hxn])]
          exact h.sub x e hx
      · intro hex; exact absurd rfl (hq hex fd path flags mode)
  | close fd =>
    unfold apply
    dsimp only
    have hop : (fd : Int) ≠ pw := ho
    have hst : afterMove w (toAction (.close fd)) (.go c pw) =
        match close c.fds fd with
        | .error e => .fail e c pw
        | .ok t => .go { c with fds := t } pw := by
      show (if (-1 : Int) = pw then _ else perform w c pw _) = _
      rw [if_neg hm1]; rfl
    rw [hst]
    unfold close
    cases hs : s.fds fd with
    | none =>
      intro hex
      rw [h.eq hex fd hop, hs]
      exact ⟨c, pw, rfl, h.inv⟩
    | some e0 =>
      dsimp only
      rw [h.sub fd e0 hs]
      refine ⟨_, _, rfl, h.cwd, h.limits, ⟨h.inv.nonneg, ?_, ?_, finite_set h.inv.finite _ _⟩, ?_, ?_, ?_⟩
      · show (if _ then _ else c.fds pw) = _
        rw [if_neg (Ne.symm hop)]; exact h.inv.pipe
      · intro x e hx he
        change (if _ then none else c.fds x) = _ at hx
        split at hx
        · cases hx
        · exact h.inv.only x e hx he
      · show (if _ then _ else s.fds pw) = none
        rw [if_neg (Ne.symm hop)]; exact h.hidden
      · intro x e hx
        change (if _ then none else s.fds x) = _ at hx
        show (if _ then none else c.fds x) = _
        split at hx
        · cases hx
        · rename_i hx'
          rw [if_neg hx']; exact h.sub x e hx
      · intro hex x hx
        show (if _ then none else c.fds x) = (if _ then none else s.fds x)
        rw [h.eq hex x hx]
  | dup2 a b =>
    unfold apply
    dsimp only
    have hop : (b : Int) ≠ pw := ho
    have hst : afterMove w (toAction (.dup2 a b)) (.go c pw) =
        if (a : Int) = pw then .fail "EBADF" c pw
        else
          match dup2 c.fds a b with
          | .error e => .fail e c pw
          | .ok t => .go { c with fds := t } pw := rfl
    rw [hst]
    cases hs : s.fds a with
    | none =>
      intro hex
      by_cases hap : (a : Int) = pw
      · rw [if_pos hap]; exact ⟨c, pw, rfl, h.inv⟩
      · rw [if_neg hap]
        unfold dup2
        rw [h.eq hex a hap, hs]
        exact ⟨c, pw, rfl, h.inv⟩
    | some e0 =>
      dsimp only
      have hap : (a : Int) ≠ pw := by
        intro he; rw [he, h.hidden] at hs; cases hs
      have hca := h.sub a e0 hs
      have he0 : e0.file ≠ w.pipeWrite := fun he => hap (h.inv.only a e0 hca he)
      have hd : dup2 c.fds a b =
          .ok (fun x => if x = (b : Int) ∧ a ≠ b then some ⟨e0.file, false⟩ else c.fds x) := by
        unfold dup2
        rw [hca]; dsimp only
        rw [if_neg (by omega)]
        by_cases hab : (a : Int) = b
        · have hab' : a = b := by omega
          rw [if_pos hab]
          congr 1
          funext x
          rw [if_neg (by simp [hab'])]
        · have hab' : a ≠ b := by omega
          rw [if_neg hab]
          congr 1
          funext x
          unfold Fds.set
          simp [hab']
      rw [if_neg hap, hd]
      refine ⟨_, _, rfl, h.cwd, h.limits, ⟨h.inv.nonneg, ?_, ?_, finite_of h.inv.finite b b (by intro x h1 _; show (if _ then _ else _) = _; rw [if_neg (by simp [h1])])⟩, ?_, ?_, ?_⟩
      · show (if _ then _ else c.fds pw) = _
        rw [if_neg (by simp [Ne.symm hop])]; exact h.inv.pipe
      · intro x e hx he
        change (if _ then some _ else c.fds x) = _ at hx
        split at hx
        · cases hx; exact absurd he he0
        · exact h.inv.only x e hx he
      · show (if _ then _ else s.fds pw) = none
        rw [if_neg (by simp [Ne.symm hop])]; exact h.hidden
      · intro x e hx
        change (if _ then some _ else s.fds x) = _ at hx
        show (if _ then some _ else c.fds x) = _
        split at hx
        · rename_i hx'
          rw [if_pos hx']; exact hx
        · rename_i hx'
          rw [if_neg hx']; exact h.sub x e hx
      · intro hex x hx
        show (if _ then some _ else c.fds x) = (if _ then some _ else s.fds x)
        rw [h.eq hex x hx]
  | fchdir fd =>
    unfold apply
    dsimp only
    have hst : afterMove w (toAction (.fchdir fd)) (.go c pw) =
        if (fd : Int) = pw then .fail "EBADF" c pw
        else
          match c.fds fd with
          | none => .fail "EBADF" c pw
          | some e =>
            match w.dirOf e.file with
            | .error e => .fail e c pw
            | .ok d => .go { c with cwd := d } pw := rfl
    rw [hst]
    cases hs : s.fds fd with
    | none =>
      intro hex
      by_cases hap : (fd : Int) = pw
      · rw [if_pos hap]; exact ⟨c, pw, rfl, h.inv⟩
      · rw [if_neg hap]
        rw [h.eq hex fd hap, hs]
        exact ⟨c, pw, rfl, h.inv⟩
    | some e0 =>
      dsimp only
      have hap : (fd : Int) ≠ pw := by
        intro he; rw [he, h.hidden] at hs; cases hs
      rw [if_neg hap, h.sub fd e0 hs]; dsimp only
      cases hdir : w.dirOf e0.file with
      | error e => intro _; exact ⟨c, pw, rfl, h.inv⟩
      | ok d => exact ⟨_, _, rfl, rfl, h.limits, ⟨h.inv.nonneg, h.inv.pipe, h.inv.only, h.inv.finite⟩, h.hidden, h.sub, h.eq⟩
  | setrlimit r rl =>
    unfold apply
    dsimp only
    have hst : afterMove w (toAction (.setrlimit r rl)) (.go c pw) =
        match w.setrlimit r rl with
        | some e => .fail e c pw
        | none => .go { c with limits := fun x => if x = r then rl else c.limits x } pw := by
      show (if (-1 : Int) = pw then _ else perform w c pw _) = _
      rw [if_neg hm1]; rfl
    rw [hst]
    cases hr : w.setrlimit r rl with
    | some e => intro _; exact ⟨c, pw, rfl, h.inv⟩
    | none =>
      refine ⟨_, _, rfl, h.cwd, ?_, ⟨h.inv.nonneg, h.inv.pipe, h.inv.only, h.inv.finite⟩, h.hidden, h.sub, h.eq⟩
      show (fun x => if x = r then rl else c.limits x) = fun x => if x = r then rl else s.limits x
      rw [h.limits]

theorem run_spec {w : World} {self : Child} (hh : Honest w self) {exact : Bool} : ∀ (reqs : List Req) (c s : Child) (pw : Int),
    Rel w exact c s pw → (exact = true → NoOpen reqs) →
    match applyAll w reqs s with
    | .ok s' => ∃ c' pw', runActions w (reqs.map toAction) c pw = .go c' pw' ∧ Rel w exact c' s' pw'
    | .error e => exact = true → ∃ c' pw', runActions w (reqs.map toAction) c pw = .fail e c' pw' ∧ Inv w c' pw'
  | [], c, s, pw, h, _ => ⟨c, pw, rfl, h⟩
  | q :: qs, c, s, pw, h, hn => by
    obtain ⟨c1, pw1, h1, h2, h3⟩ := move_spec hh h (toAction q)
    have hp := perform_spec hh h2 q h3 (fun hex => hn hex q (by simp))
    rw [applyAll]
    have hrun : runActions w ((q :: qs).map toAction) c pw =
        match afterMove w (toAction q) (.go c1 pw1) with
        | .go c pw => runActions w (qs.map toAction) c pw
        | s => s := by
      rw [List.map_cons, runActions, h1]
      cases afterMove w (toAction q) (.go c1 pw1) <;> rfl
    rw [hrun]
    cases ha : apply w s q with
    | error e =>
      rw [ha] at hp
      dsimp only at hp ⊢
      intro hex
      obtain ⟨c', pw', h4, h5⟩ := hp hex
      rw [h4]
      exact ⟨c', pw', rfl, h5⟩
    | ok s1 =>
      rw [ha] at hp
      obtain ⟨c', pw', h4, h5⟩ := hp
      rw [h4]
      exact run_spec hh qs c' s1 pw' h5 (fun hex q hq => hn hex q (by simp [hq]))

/-- What a resolver finds in a directory. -/
def Finds (w : World) (res : Resolver) (find : Dir → Except String Str) (d : Dir) : Prop :=
  match find d with
  | .ok p => ∃ r, resolveLate w d res = .ok r ∧ r.exe = p
  | .error e => resolveLate w d res = .err e

theorem inherit_eq (t : Fds) (fd : Int) : inherit t fd = if (t fd).any (·.cloexec) then none else t fd := by
  unfold inherit
  cases h : t fd with
  | none => rfl
  | some e => cases hc : e.cloexec <;> simp [Option.filter, hc]

/-- The table in the child, after the read end was closed. -/
theorem start_rel {w : World} {self : Child} (hh : Honest w self) (exact : Bool) {pr pw : Int}
    (hp : w.pipe = .ok (pr, pw)) :
    ∃ t, xclose ((self.fds.set pr (some ⟨w.pipeRead, true⟩)).set pw (some ⟨w.pipeWrite, true⟩)) pr = .ok t ∧
      Rel w exact { self with fds := t } self pw := by
  obtain ⟨h0, h1, h2, h3, h4⟩ := hh.pipe _ _ hp
  refine ⟨((self.fds.set pr (some ⟨w.pipeRead, true⟩)).set pw (some ⟨w.pipeWrite, true⟩)).set pr none, ?_, ?_⟩
  · unfold xclose
    have : ((self.fds.set pr (some ⟨w.pipeRead, true⟩)).set pw (some ⟨w.pipeWrite, true⟩)) pr =
        some ⟨w.pipeRead, true⟩ := by
      show (if pr = pw then _ else if pr = pr then _ else _) = _
      rw [if_neg h2, if_pos rfl]
    rw [this]
  · have tab : ∀ x, (((self.fds.set pr (some ⟨w.pipeRead, true⟩)).set pw (some ⟨w.pipeWrite, true⟩)).set pr none) x =
        if x = pw then some ⟨w.pipeWrite, true⟩ else self.fds x := by
      intro x
      show (if x = pr then none else if x = pw then some _ else if x = pr then some _ else self.fds x) = _
      by_cases h : x = pr
      · subst h; rw [if_pos rfl, if_neg h2, h3]
      · rw [if_neg h, if_neg h]
    refine ⟨rfl, rfl, ⟨h1, ?_, ?_, finite_set (finite_set (finite_set hh.finite _ _) _ _) _ _⟩, h4, ?_, ?_⟩
    · show (((self.fds.set pr _).set pw _).set pr none) pw = _
      rw [tab, if_pos rfl]
    · intro x e hx he
      change (((self.fds.set pr _).set pw _).set pr none) x = _ at hx
      rw [tab] at hx
      by_cases h : x = pw
      · exact h
      · rw [if_neg h] at hx; exact absurd he (hh.pipeFile x e hx)
    · intro x e hx
      show (((self.fds.set pr _).set pw _).set pr none) x = _
      rw [tab, if_neg]
      · exact hx
      · intro he; rw [he, h4] at hx; cases hx
    · intro _ x hx
      show (((self.fds.set pr _).set pw _).set pr none) x = _
      rw [tab, if_neg hx]

theorem inv_fail {w : World} {c : Child} {pw : Int} (h : Inv w c pw) (e : String) :
    failChild e c pw = .died e (some w.pipeWrite) := by
  unfold failChild; rw [h.pipe]; rfl

/-- How the child ends, compared to what was requested. -/
theorem child_spec {w : World} {self : Child} (hh : Honest w self) {exact : Bool} {pr pw : Int} {res : Resolver} {ctx : Ctx}
    {find : Dir → Except String Str} {reqs : List Req}
    (hp : w.pipe = .ok (pr, pw)) (hctx : ctx.actions = reqs.map toAction) (hn : exact = true → NoOpen reqs)
    (hf : ∀ c, applyAll w reqs self = .ok c → Finds w res find c.cwd) :
    match become w find reqs self with
    | .ok p => ∃ p', spawnExec w res ctx { self with fds := (self.fds.set pr (some ⟨w.pipeRead, true⟩)).set pw (some ⟨w.pipeWrite, true⟩) } pr pw = .ok (.ran p') ∧
        p'.path = p.path ∧ p'.cwd = p.cwd ∧ p'.limits = p.limits ∧ p'.blocked = p.blocked ∧
        (∀ fd e, p.fds fd = some e → p'.fds fd = some e) ∧ (exact = true → p' = p)
    | .error e => exact = true → spawnExec w res ctx { self with fds := (self.fds.set pr (some ⟨w.pipeRead, true⟩)).set pw (some ⟨w.pipeWrite, true⟩) } pr pw =
        .ok (.died e (some w.pipeWrite)) := by
  obtain ⟨t, ht, hrel⟩ := start_rel hh exact hp
  have run := run_spec hh reqs _ _ _ hrel hn
  unfold spawnExec
  dsimp only
  rw [ht, ok_bind, hctx]
  unfold become
  cases ha : applyAll w reqs self with
  | error e =>
    rw [ha] at run
    dsimp only at run ⊢
    intro hex
    obtain ⟨c', pw', h1, h2⟩ := run hex
    rw [h1, ← inv_fail h2 e]
  | ok s =>
    rw [ha] at run
    obtain ⟨c', pw', h1, h2⟩ := run
    dsimp only
    rw [h1]
    dsimp only
    have hfd := hf s ha
    unfold Finds at hfd
    unfold finishChild
    rw [h2.cwd]
    cases hfi : find s.cwd with
    | error e =>
      rw [hfi] at hfd
      dsimp only at hfd ⊢
      rw [hfd]
      intro _; rw [← inv_fail h2.inv e]
    | ok p =>
      rw [hfi] at hfd
      obtain ⟨r, hr, hre⟩ := hfd
      subst hre
      dsimp only
      rw [hr]
      dsimp only
      cases hs : w.sigreset with
      | some e => intro _; show Out.ok (failChild e c' pw') = _; rw [← inv_fail h2.inv e]
      | none =>
        cases hu : w.unblockChild with
        | some e => intro _; show Out.ok (failChild e c' pw') = _; rw [← inv_fail h2.inv e]
        | none =>
          cases hx : w.execve s.cwd r.exe with
          | some e => intro _; show Out.ok (failChild e c' pw') = _; rw [← inv_fail h2.inv e]
          | none =>
            refine ⟨_, rfl, rfl, rfl, h2.limits, rfl, ?_, ?_⟩
            · intro fd e he
              change (if (s.fds fd).any (·.cloexec) then none else s.fds fd) = some e at he
              show inherit c'.fds fd = some e
              rw [inherit_eq]
              by_cases hc : (s.fds fd).any (·.cloexec) = true
              · rw [if_pos hc] at he; cases he
              · rw [if_neg hc] at he
                rw [h2.sub fd e he, ← he, if_neg hc]
            · intro hex
              have : inherit c'.fds = fun fd => if (s.fds fd).any (·.cloexec) then none else s.fds fd := by
                funext fd
                rw [inherit_eq]
                by_cases hfd : fd = pw'
                · subst hfd
                  rw [h2.inv.pipe, h2.hidden]; rfl
                · rw [h2.eq hex fd hfd]
              rw [this, h2.limits]

/-- The parent's table is the same again. -/
theorem close_both {w : World} {self : Child} (hh : Honest w self) {pr pw : Int} (hp : w.pipe = .ok (pr, pw)) :
    ∃ t, xclose ((self.fds.set pr (some ⟨w.pipeRead, true⟩)).set pw (some ⟨w.pipeWrite, true⟩)) pw = .ok t ∧
      xclose t pr = .ok self.fds := by
  obtain ⟨h0, h1, h2, h3, h4⟩ := hh.pipe _ _ hp
  refine ⟨((self.fds.set pr (some ⟨w.pipeRead, true⟩)).set pw (some ⟨w.pipeWrite, true⟩)).set pw none, ?_, ?_⟩
  · unfold xclose
    have : ((self.fds.set pr (some ⟨w.pipeRead, true⟩)).set pw (some ⟨w.pipeWrite, true⟩)) pw =
        some ⟨w.pipeWrite, true⟩ := by
      show (if pw = pw then _ else _) = _
      rw [if_pos rfl]
    rw [this]
  · unfold xclose
    have : (((self.fds.set pr (some ⟨w.pipeRead, true⟩)).set pw (some ⟨w.pipeWrite, true⟩)).set pw none) pr =
        some ⟨w.pipeRead, true⟩ := by
      show (if pr = pw then _ else if pr = pw then _ else if pr = pr then _ else _) = _
      rw [if_neg h2, if_neg h2, if_pos rfl]
    rw [this]
    show Out.ok _ = _
    congr 1
    funext x
    show (if x = pr then none else if x = pw then none else if x = pw then some _ else if x = pr then some _ else self.fds x) = _
    by_cases hx : x = pr
    · subst hx; rw [if_pos rfl, h3]
    · rw [if_neg hx]
      by_cases hx' : x = pw
      · subst hx'; rw [if_pos rfl, h4]
      · rw [if_neg hx', if_neg hx', if_neg hx]

theorem failSpawn_eq {w : World} {self : Child} (hh : Honest w self) {pr pw : Int} (hp : w.pipe = .ok (pr, pw)) (e : String) (b : Bool) :
    failSpawn e ((self.fds.set pr (some ⟨w.pipeRead, true⟩)).set pw (some ⟨w.pipeWrite, true⟩)) pr pw b =
      .ok ⟨.error e, none, self.fds, b, false⟩ := by
  obtain ⟨t, h1, h2⟩ := close_both hh hp
  unfold failSpawn
  rw [h1, ok_bind, h2, ok_bind]

theorem await_ran {w : World} {self : Child} (hh : Honest w self) {pr pw : Int} (hp : w.pipe = .ok (pr, pw)) (pid : Nat) (p : Program) :
    awaitChild w pid (.ran p) ((self.fds.set pr (some ⟨w.pipeRead, true⟩)).set pw (some ⟨w.pipeWrite, true⟩)) pr pw =
      .ok ⟨.ok pid, some p, self.fds, false, false⟩ := by
  obtain ⟨t, h1, h2⟩ := close_both hh hp
  unfold awaitChild
  rw [h1, ok_bind]; dsimp only
  rw [h2, ok_bind]; rfl

theorem await_died {w : World} {self : Child} (hh : Honest w self) {pr pw : Int} (hp : w.pipe = .ok (pr, pw)) (pid : Nat) (e : String) :
    awaitChild w pid (.died e (some w.pipeWrite)) ((self.fds.set pr (some ⟨w.pipeRead, true⟩)).set pw (some ⟨w.pipeWrite, true⟩)) pr pw =
      .ok ⟨.error e, none, self.fds, false, false⟩ := by
  obtain ⟨t, h1, h2⟩ := close_both hh hp
  unfold awaitChild
  rw [h1, ok_bind]; dsimp only
  rw [h2, ok_bind]
  unfold received
  simp only [if_true, hh.written, childErrno, childProgram]

/-- What `bfs_fork_spawn()` does. -/
theorem fork_spec {w : World} {self : Child} (hh : Honest w self) {exact : Bool} {res : Resolver} {ctx : Ctx}
    {find : Dir → Except String Str} {reqs : List Req} {pid : Nat} (hfork : w.fork = .ok pid)
    (hctx : ctx.actions = reqs.map toAction) (hn : exact = true → NoOpen reqs)
    (hf : ∀ c, applyAll w reqs self = .ok c → Finds w res find c.cwd) :
    match start w false find reqs self with
    | .ok p => ∃ p', forkSpawn w res ctx self = .ok ⟨.ok pid, some p', self.fds, false, false⟩ ∧
        p'.path = p.path ∧ p'.cwd = p.cwd ∧ p'.limits = p.limits ∧ p'.blocked = p.blocked ∧
        (∀ fd e, p.fds fd = some e → p'.fds fd = some e) ∧ (exact = true → p' = p)
    | .error e => exact = true → forkSpawn w res ctx self = .ok ⟨.error e, none, self.fds, false, false⟩ := by
  unfold start forkSpawn
  simp only [Bool.false_eq_true, if_false]
  cases hp : w.pipe with
  | error e => intro _; rfl
  | ok pp =>
    obtain ⟨pr, pw⟩ := pp
    simp only [attempt, errorOf]
    cases h1 : w.sigfillset with
    | some e => intro _; exact failSpawn_eq hh hp e false
    | none =>
      cases h2 : w.block with
      | some e => intro _; exact failSpawn_eq hh hp e false
      | none =>
        rw [hh.unblock, hfork]
        have hc := child_spec hh hp hctx hn hf
        dsimp only
        cases hb : become w find reqs self with
        | error e =>
          rw [hb] at hc
          dsimp only at hc
          intro hex
          rw [hc hex, ok_bind]
          exact await_died hh hp pid e
        | ok p =>
          rw [hb] at hc
          obtain ⟨p', h3, h4⟩ := hc
          dsimp only
          rw [h3, ok_bind]
          exact ⟨p', await_ran hh hp pid p', h4⟩

/-- If `fork()` fails. -/
theorem fork_failed {w : World} {self : Child} (hh : Honest w self) {res : Resolver} {ctx : Ctx} {e : String}
    (hfork : w.fork = .error e) :
    ∃ e, forkSpawn w res ctx self = .ok ⟨.error e, none, self.fds, false, false⟩ := by
  unfold forkSpawn
  cases hp : w.pipe with
  | error e => exact ⟨_, rfl⟩
  | ok pp =>
    obtain ⟨pr, pw⟩ := pp
    dsimp only
    cases h1 : w.sigfillset with
    | some e => exact ⟨_, failSpawn_eq hh hp e false⟩
    | none =>
      cases h2 : w.block with
      | some e => exact ⟨_, failSpawn_eq hh hp e false⟩
      | none =>
        rw [hh.unblock, hfork]
        exact ⟨_, failSpawn_eq hh hp "0" false⟩

/-! ## Whatever is requested -/

theorem inv_set {w : World} {c : Child} {pw : Int} (h : Inv w c pw) {x : Int} {e : Option Entry} (hx : x ≠ pw)
    (he : ∀ e', e = some e' → e'.file ≠ w.pipeWrite) : Inv w { c with fds := c.fds.set x e } pw := by
  refine ⟨h.nonneg, ?_, ?_, finite_set h.finite _ _⟩
  · show (if pw = x then e else c.fds pw) = _
    rw [if_neg (Ne.symm hx)]; exact h.pipe
  · intro fd e' h1 h2
    change (if fd = x then e else c.fds fd) = _ at h1
    split at h1
    · exact absurd h2 (he e' h1)
    · exact h.only fd e' h1 h2

theorem inv_dup2 {w : World} {c : Child} {pw : Int} (h : Inv w c pw) {a b : Int} (ha : a ≠ pw) (hb : b ≠ pw) {t : Fds}
    (ht : dup2 c.fds a b = .ok t) : Inv w { c with fds := t } pw := by
  unfold dup2 at ht
  split at ht
  · cases ht
  · rename_i e he
    split at ht
    · cases ht
    · split at ht
      · cases ht; exact h
      · cases ht
        refine inv_set h hb ?_
        intro e' h1 h2
        cases h1
        exact ha (h.only a e he h2)

/-- What holds however a step ends. -/
def Keeps (w : World) : Step → Prop
  | .go c pw => Inv w c pw
  | .fail _ c pw => Inv w c pw
  | .abort => False

theorem perform_inv {w : World} {self : Child} (hh : Honest w self) {c : Child} {pw : Int} (h : Inv w c pw) (a : Action)
    (h1 : a.inFd ≠ pw) (h2 : a.outFd ≠ pw) : Keeps w (perform w c pw a) := by
  unfold perform
  split
  · split
    · exact h
    · rename_i f hf
      split
      · exact h
      · rename_i fd hfd
        have hfp : fd ≠ pw := by
          intro he
          have := (hh.pick _ _ hfd).2
          rw [he, h.pipe] at this; cases this
        have hff : ∀ e', some (⟨f, false⟩ : Entry) = some e' → e'.file ≠ w.pipeWrite := by
          intro e' he' hx
          cases he'
          change f = w.pipeWrite at hx
          exact hh.openFile _ _ _ _ (hx ▸ hf)
        have hi := inv_set h hfp hff
        dsimp only
        split
        · split
          · exact hi
          · rename_i t ht
            exact inv_dup2 hi hfp h2 ht
        · exact hi
  · unfold close
    split
    · exact h
    · rename_i t ht
      split at ht
      · cases ht
      · cases ht; exact inv_set h h2 (by intro e' he'; cases he')
  · split
    · exact h
    · rename_i t ht
      exact inv_dup2 h h1 h2 ht
  · split
    · exact h
    · split
      · exact h
      · exact ⟨h.nonneg, h.pipe, h.only, h.finite⟩
  · split
    · exact h
    · exact ⟨h.nonneg, h.pipe, h.only, h.finite⟩

theorem inv_rel {w : World} {c : Child} {pw : Int} (h : Inv w c pw) :
    Rel w false c { c with fds := fun _ => none } pw :=
  ⟨rfl, rfl, h, rfl, (by intro _ _ h; cases h), (by intro h; cases h)⟩

theorem afterMove_inv {w : World} {self : Child} (hh : Honest w self) {c : Child} {pw : Int} (h : Inv w c pw) (a : Action) :
    Keeps w (afterMove w a (movePipe w c pw a)) := by
  obtain ⟨c1, pw1, h1, h2, h3⟩ := move_spec hh (inv_rel h) a
  rw [h1]
  show Keeps w (if a.inFd = pw1 then _ else _)
  split
  · exact h2.inv
  · rename_i hi; exact perform_inv hh h2.inv a hi h3

theorem run_inv {w : World} {self : Child} (hh : Honest w self) : ∀ (as : List Action) {c : Child} {pw : Int},
    Inv w c pw → Keeps w (runActions w as c pw)
  | [], _, _, h => h
  | a :: as, c, pw, h => by
    have := afterMove_inv hh h a
    rw [runActions]
    cases hs : afterMove w a (movePipe w c pw a) with
    | go c' pw' => rw [hs] at this; exact run_inv hh as this
    | fail e c' pw' => rw [hs] at this; exact this
    | abort => rw [hs] at this; exact this

theorem perform_cwd {w : World} {c c' : Child} {pw pw' : Int} {a : Action} (h : perform w c pw a = .go c' pw')
    (ha : isFchdir a = false) : c'.cwd = c.cwd := by
  unfold perform at h
  unfold isFchdir at ha
  cases hop : a.op with
  | fchdir => rw [hop] at ha; cases ha
  | «open» p fl m =>
    rw [hop] at h; dsimp only at h
    split at h
    · cases h
    · split at h
      · cases h
      · split at h
        · split at h
          · cases h
          · cases h; rfl
        · cases h; rfl
  | close =>
    rw [hop] at h; dsimp only at h
    split at h <;> cases h; rfl
  | dup2 =>
    rw [hop] at h; dsimp only at h
    split at h <;> cases h; rfl
  | setrlimit r rl =>
    rw [hop] at h; dsimp only at h
    split at h <;> cases h; rfl

theorem move_cwd {w : World} {c c' : Child} {pw pw' : Int} {a : Action} (h : movePipe w c pw a = .go c' pw') :
    c'.cwd = c.cwd := by
  unfold movePipe at h
  split at h
  · split at h
    · cases h
    · split at h
      · cases h
      · split at h
        · cases h; rfl
        · cases h
  · cases h; rfl

theorem run_cwd {w : World} : ∀ (as : List Action) {c c' : Child} {pw pw' : Int},
    runActions w as c pw = .go c' pw' → as.any isFchdir = false → c'.cwd = c.cwd
  | [], _, _, _, _, h, _ => by cases h; rfl
  | a :: as, c, c', pw, pw', h, ha => by
    rw [List.any_cons, Bool.or_eq_false_iff] at ha
    rw [runActions] at h
    cases hm : movePipe w c pw a with
    | fail e c1 pw1 => rw [hm] at h; cases h
    | abort => rw [hm] at h; cases h
    | go c1 pw1 =>
      rw [hm] at h
      cases hs : afterMove w a (.go c1 pw1) with
      | fail e c2 pw2 => rw [hs] at h; cases h
      | abort => rw [hs] at h; cases h
      | go c2 pw2 =>
        rw [hs] at h
        rw [run_cwd as h ha.2]
        have : perform w c1 pw1 a = .go c2 pw2 := by
          change (if a.inFd = pw1 then Step.fail "EBADF" c1 pw1 else perform w c1 pw1 a) = _ at hs
          split at hs
          · cases hs
          · exact hs
        rw [perform_cwd this ha.1, move_cwd hm]

/-- A resolver that can't go wrong. -/
def Total (w : World) (res : Resolver) : Prop := ∀ d, resolveLate w d res ≠ .ub

/-- Whatever is requested, the child ends properly: it reports an error through the pipe, or runs a program that doesn't hold the pipe. -/
theorem child_any {w : World} {self : Child} (hh : Honest w self) {pr pw : Int} {res : Resolver} {ctx : Ctx}
    (hp : w.pipe = .ok (pr, pw)) (ht : Total w res) :
    ∃ ce, spawnExec w res ctx { self with fds := (self.fds.set pr (some ⟨w.pipeRead, true⟩)).set pw (some ⟨w.pipeWrite, true⟩) } pr pw = .ok ce ∧
      match ce with
      | .ran p => (∀ fd e, p.fds fd = some e → e.file ≠ w.pipeWrite) ∧ p.blocked = false ∧
          (∃ r, resolveLate w p.cwd res = .ok r ∧ p.path = r.exe) ∧
          (ctx.actions.any isFchdir = false → p.cwd = self.cwd)
      | .died _ to => to = some w.pipeWrite := by
  obtain ⟨t, h1, h2⟩ := start_rel hh false hp
  have hk := run_inv hh ctx.actions h2.inv
  unfold spawnExec
  dsimp only
  rw [h1, ok_bind]
  cases hr : runActions w ctx.actions { self with fds := t } pw with
  | abort => rw [hr] at hk; exact absurd hk id
  | fail e c' pw' =>
    rw [hr] at hk
    refine ⟨_, rfl, ?_⟩
    show Option.map _ (c'.fds pw') = _
    rw [(show Inv w c' pw' from hk).pipe]; rfl
  | go c' pw' =>
    rw [hr] at hk
    have hi : Inv w c' pw' := hk
    have died : ∀ _ : String, ((c'.fds pw').map (·.file)) = some w.pipeWrite := by
      intro e; rw [hi.pipe]; rfl
    dsimp only
    unfold finishChild
    cases hl : resolveLate w c'.cwd res with
    | ub => exact absurd hl (ht _)
    | err e => exact ⟨_, rfl, died e⟩
    | ok r =>
      dsimp only
      cases w.sigreset with
      | some e => exact ⟨_, rfl, died e⟩
      | none =>
        cases w.unblockChild with
        | some e => exact ⟨_, rfl, died e⟩
        | none =>
          dsimp only
          cases w.execve c'.cwd r.exe with
          | some e => exact ⟨_, rfl, died e⟩
          | none =>
            refine ⟨_, rfl, ?_, rfl, ⟨r, hl, rfl⟩, ?_⟩
            · intro fd e he hf
              change inherit c'.fds fd = some e at he
              rw [inherit_eq] at he
              split at he
              · cases he
              · rename_i hc
                have := hi.only fd e he hf
                rw [this, hi.pipe] at hc
                exact hc rfl
            · intro hn; have := run_cwd _ hr hn; exact this

/-- Whatever is requested, the parent gets a result, and its state is as before. -/
theorem fork_any {w : World} {self : Child} (hh : Honest w self) {res : Resolver} {ctx : Ctx} (ht : Total w res) :
    ∃ r, forkSpawn w res ctx self = .ok r ∧ r.fds = self.fds ∧ r.blocked = false ∧ r.zombie = false ∧
      (r.program.isSome ↔ ∃ pid, r.ret = .ok pid) ∧
      ∀ p, r.program = some p → (∀ fd e, p.fds fd = some e → e.file ≠ w.pipeWrite) ∧ p.blocked = false ∧
          (∃ r, resolveLate w p.cwd res = .ok r ∧ p.path = r.exe) ∧
          (ctx.actions.any isFchdir = false → p.cwd = self.cwd) := by
  have bad : ∀ e, ∃ r, (Out.ok (⟨.error e, none, self.fds, false, false⟩ : Result)) = .ok r ∧ r.fds = self.fds ∧ r.blocked = false ∧ r.zombie = false ∧
      (r.program.isSome ↔ ∃ pid, r.ret = .ok pid) ∧
      ∀ p, r.program = some p → (∀ fd e, p.fds fd = some e → e.file ≠ w.pipeWrite) ∧ p.blocked = false ∧
          (∃ r, resolveLate w p.cwd res = .ok r ∧ p.path = r.exe) ∧
          (ctx.actions.any isFchdir = false → p.cwd = self.cwd) :=
    fun e => ⟨_, rfl, rfl, rfl, rfl, (by simp), (by intro p hp; cases hp)⟩
  cases hfork : w.fork with
  | error e =>
    obtain ⟨e', he'⟩ := fork_failed hh (res := res) (ctx := ctx) hfork
    rw [he']; exact bad e'
  | ok pid =>
    unfold forkSpawn
    cases hp : w.pipe with
    | error e => exact bad e
    | ok pp =>
      obtain ⟨pr, pw⟩ := pp
      dsimp only
      cases h1 : w.sigfillset with
      | some e => dsimp only; rw [failSpawn_eq hh hp]; exact bad e
      | none =>
        cases h2 : w.block with
        | some e => dsimp only; rw [failSpawn_eq hh hp]; exact bad e
        | none =>
          rw [hh.unblock, hfork]
          dsimp only
          obtain ⟨ce, hce, hcp⟩ := child_any hh (ctx := ctx) hp ht
          rw [hce, ok_bind]
          cases ce with
          | ran p =>
            rw [await_ran hh hp]
            refine ⟨_, rfl, rfl, rfl, rfl, by simp, ?_⟩
            intro q hq
            cases hq
            exact hcp
          | died e to =>
            have : to = some w.pipeWrite := hcp
            subst this
            rw [await_died hh hp]; exact bad e

/-! ## Directories -/

theorem apply_cwd {w : World} {c c' : Child} {q : Req} (h : apply w c q = .ok c')
    (hq : isChdir q = false) : c'.cwd = c.cwd := by
  cases q with
  | fchdir fd => cases hq
  | «open» fd p fl m =>
    unfold apply at h; dsimp only at h
    split at h
    · cases h
    · cases h; rfl
  | close fd =>
    unfold apply at h; dsimp only at h
    split at h
    · cases h
    · cases h; rfl
  | dup2 a b =>
    unfold apply at h; dsimp only at h
    split at h
    · cases h
    · cases h; rfl
  | setrlimit r rl =>
    unfold apply at h; dsimp only at h
    split at h
    · cases h
    · cases h; rfl

theorem applyAll_cwd {w : World} : ∀ (reqs : List Req) {c c' : Child}, applyAll w reqs c = .ok c' →
    changesDir reqs = false → c'.cwd = c.cwd
  | [], c, c', h, _ => by cases h; rfl
  | q :: qs, c, c', h, hc => by
    rw [applyAll] at h
    unfold changesDir at hc
    rw [List.any_cons, Bool.or_eq_false_iff] at hc
    cases ha : apply w c q with
    | error e => rw [ha] at h; cases h
    | ok c1 =>
      rw [ha] at h
      rw [applyAll_cwd qs h hc.2, apply_cwd ha hc.1]

theorem obstacle_absolute {w : World} (hw : Sane w) (d d' : Dir) {p : Str} (h : p.head? = some 47) :
    obstacle w d p = obstacle w d' p := by
  cases p with
  | nil => cases h
  | cons x s =>
    have : x = 47 := Option.some.inj h
    subst this
    unfold obstacle
    rw [hw d d' s false, hw d d' s true]

theorem find?_congr' {α : Type} {p q : α → Bool} : ∀ {l : List α}, (∀ x ∈ l, p x = q x) → l.find? p = l.find? q
  | [], _ => rfl
  | x :: l, h => by
    rw [List.find?_cons, List.find?_cons, h x (by simp), find?_congr' fun y hy => h y (by simp [hy])]

theorem search_absolute {w : World} (hw : Sane w) {path exe : Str} (h : absolute path = true) (d d' : Dir) :
    search w path exe d = search w path exe d' := by
  unfold search
  rw [find?_congr' (q := fun p => obstacle w d' p = none)]
  intro p hp
  obtain ⟨e, he, rfl⟩ := List.mem_map.1 hp
  unfold absolute at h
  rw [List.all_eq_true] at h
  have h1 := h e he
  simp only [decide_eq_true_eq] at h1
  rw [obstacle_absolute hw d d' (p := under exe e)]
  unfold under
  cases e with
  | nil => cases h1
  | cons x e => exact h1

/-- The result of a search doesn't depend on when it is done, if it is done early. -/
theorem search_early {w : World} (hw : Sane w) {path exe : Str} {reqs : List Req} {self c : Child}
    (h : (absolute path || !changesDir reqs) = true) (hc : changesDir reqs = false → c.cwd = self.cwd) :
    search w path exe c.cwd = search w path exe self.cwd := by
  rw [Bool.or_eq_true] at h
  rcases h with h | h
  · exact search_absolute hw h _ _
  · rw [hc (by simpa using h)]

/-! ## All together -/

theorem prepare_posix (pl : Plat) (up : Bool) (reqs : List Req) (h : (prepare pl up reqs).usePosix = true) :
    pl.posixSpawn = true := by
  have clear : ∀ c : Ctx, (clearPosix c).usePosix = true → c.usePosix = true := by
    intro c hc
    unfold clearPosix at hc
    split at hc
    · cases hc
    · exact hc
  have key : ∀ (reqs : List Req) (ctx : Ctx), (reqs.foldl (request pl) ctx).usePosix = true → ctx.usePosix = true := by
    intro reqs
    induction reqs with
    | nil => intro ctx h; exact h
    | cons q qs ih =>
      intro ctx h
      have h1 := ih _ h
      cases q with
      | fchdir fd =>
        change (if pl.addfchdir then ctx else clearPosix ctx).usePosix = true at h1
        split at h1
        · exact h1
        · exact clear _ h1
      | setrlimit r rl => exact clear _ h1
      | «open» => exact h1
      | close => exact h1
      | dup2 => exact h1
  exact key reqs _ h

theorem total_done {w : World} {res : Resolver} (h : res.done = true) : Total w res := by
  intro d hd
  unfold resolveLate at hd
  rw [if_pos h] at hd; cases hd

theorem late_done {w : World} {res : Resolver} (h : res.done = true) (d : Dir) : resolveLate w d res = .ok res := by
  unfold resolveLate
  rw [if_pos h]

theorem total_ready {w : World} {path exe : Str} {res : Resolver} (hs : CStrings path exe) (h : Ready path exe res) :
    Total w res := by
  intro d hd
  have := resolveLate_ready (w := w) hs h d
  cases hx : search w path exe d with
  | ok p => rw [hx] at this; obtain ⟨r, hr, _⟩ := this; rw [hr] at hd; cases hd
  | error e => rw [hx] at this; dsimp only at this; rw [this] at hd; cases hd

theorem finds_ready {w : World} {path exe : Str} {res : Resolver} (hs : CStrings path exe) (h : Ready path exe res) (d : Dir) :
    Finds w res (search w path exe) d := by
  have := resolveLate_ready (w := w) hs h d
  unfold Finds
  cases hx : search w path exe d with
  | ok p => rw [hx] at this; obtain ⟨r, hr, h1, _⟩ := this; exact ⟨r, hr, h1⟩
  | error e => rw [hx] at this; exact this

theorem start_true {w : World} {find : Dir → Except String Str} {reqs : List Req} {self : Child} {p : Str}
    (h : find self.cwd = .ok p) : start w true find reqs self = start w false find reqs self := by
  unfold start
  simp only [if_true, Bool.false_eq_true, if_false, h, errorOf]

theorem start_true_error {w : World} {find : Dir → Except String Str} {reqs : List Req} {self : Child} {e : String}
    (h : find self.cwd = .error e) : start w true find reqs self = .error e := by
  unfold start
  simp only [if_true, h, errorOf, attempt]

/-- What `bfs_spawn()` does for a command that is searched for, if it doesn't use `posix_spawn()`. -/
theorem spawn_spec {pl : Plat} {w : World} {self : Child} (hh : Honest w self) (hw : Sane w)
    (libc : Bool → Str → List Action → Child → Result) (junk : UInt8) {path exe : Str} (hs : CStrings path exe)
    (hx : (47 : UInt8) ∉ exe) (hp : searchPath w = .ok path) (hm : w.malloc = true) {exact : Bool} {reqs : List Req} {pid : Nat}
    (hfork : w.fork = .ok pid) (hn : exact = true → NoOpen reqs)
    (hposix : (prepare pl true reqs).usePosix = false) :
    match start w (absolute path || !changesDir reqs) (search w path exe) reqs self with
    | .ok p => ∃ p', spawn pl w libc junk exe (prepare pl true reqs) self = .ok ⟨.ok pid, some p', self.fds, false, false⟩ ∧
        p'.path = p.path ∧ p'.cwd = p.cwd ∧ p'.limits = p.limits ∧ p'.blocked = p.blocked ∧
        (∀ fd e, p.fds fd = some e → p'.fds fd = some e) ∧ (exact = true → p' = p)
    | .error e => exact = true →
        spawn pl w libc junk exe (prepare pl true reqs) self = .ok ⟨.error e, none, self.fds, false, false⟩ := by
  obtain ⟨ha, hu⟩ := prepare_spec pl true reqs
  have he := resolve_early (pl := pl) (w := w) hs junk self.cwd (ctx := some (prepare pl true reqs))
    (by intro c hc; cases hc; exact hu) hx hp hm
  rw [canResolveEarly_eq] at he
  have himpl : ∀ res, spawnImpl pl w libc res (prepare pl true reqs) self = forkSpawn w res (prepare pl true reqs) self := by
    intro res
    unfold spawnImpl usePosixSpawn
    rw [hposix]
    simp
  unfold spawn
  cases hearly : (absolute path || !changesDir reqs) with
  | true =>
    rw [hearly] at he
    simp only [if_true] at he
    cases hse : search w path exe self.cwd with
    | error e =>
      rw [hse] at he
      dsimp only at he
      rw [start_true_error hse, he]
      intro _; rfl
    | ok p =>
      rw [hse] at he
      obtain ⟨r, hr, hre, hrd⟩ := he
      rw [start_true hse, hr]
      dsimp only
      rw [himpl]
      apply fork_spec hh hfork ha hn
      intro c hc
      unfold Finds
      rw [search_early hw hearly (applyAll_cwd reqs hc), hse]
      exact ⟨r, late_done hrd _, hre⟩
  | false =>
    rw [hearly] at he
    simp only [Bool.false_eq_true, if_false] at he
    obtain ⟨r, hr, hrr⟩ := he
    rw [hr]
    dsimp only
    rw [himpl]
    rcases hrr with ⟨_, h2, _⟩ | hrr
    · rw [Option.any_some, hposix] at h2; cases h2
    · exact fork_spec hh hfork ha hn (fun c _ => finds_ready hs hrr _)

/-- What `bfs_spawn()` does for a command that is not searched for. -/
theorem direct_spec {pl : Plat} {w : World} {self : Child} (hh : Honest w self)
    (libc : Bool → Str → List Action → Child → Result) (junk : UInt8) {exe : Str} {up : Bool}
    (hx : up = false ∨ (47 : UInt8) ∈ exe) {exact : Bool} {reqs : List Req} {pid : Nat}
    (hfork : w.fork = .ok pid) (hn : exact = true → NoOpen reqs)
    (hposix : (prepare pl up reqs).usePosix = false)
    (hd : ∀ c, applyAll w reqs self = .ok c → direct w exe c.cwd = direct w exe self.cwd) :
    match start w true (direct w exe) reqs self with
    | .ok p => ∃ p', spawn pl w libc junk exe (prepare pl up reqs) self = .ok ⟨.ok pid, some p', self.fds, false, false⟩ ∧
        p'.path = p.path ∧ p'.cwd = p.cwd ∧ p'.limits = p.limits ∧ p'.blocked = p.blocked ∧
        (∀ fd e, p.fds fd = some e → p'.fds fd = some e) ∧ (exact = true → p' = p)
    | .error e => exact = true →
        spawn pl w libc junk exe (prepare pl up reqs) self = .ok ⟨.error e, none, self.fds, false, false⟩ := by
  obtain ⟨ha, hu⟩ := prepare_spec pl up reqs
  have hskip : canSkipResolve exe (some (prepare pl up reqs)) = true := by
    unfold canSkipResolve
    rw [Option.any_some, hu]
    rcases hx with h | h
    · subst h; rfl
    · have : (strchr exe 47).isSome = true := by
        unfold strchr
        rw [List.findIdx?_isSome, List.any_eq_true]
        exact ⟨47, h, by simp⟩
      rw [this]; cases up <;> rfl
  have himpl : ∀ res, spawnImpl pl w libc res (prepare pl up reqs) self = forkSpawn w res (prepare pl up reqs) self := by
    intro res
    unfold spawnImpl usePosixSpawn
    rw [hposix]
    simp
  have hearly : resolveEarly pl w junk self.cwd exe (some (prepare pl up reqs)) =
      match direct w exe self.cwd with
      | .ok p => .ok ⟨p, false, [], none, 0, true⟩
      | .error e => .err e := by
    unfold resolveEarly direct
    dsimp only
    rw [if_pos hskip, xfaccessat_eq]
    cases obstacle w self.cwd exe <;> rfl
  unfold spawn
  rw [hearly]
  cases hdi : direct w exe self.cwd with
  | error e =>
    rw [start_true_error hdi]
    intro _; rfl
  | ok p =>
    rw [start_true hdi]
    dsimp only
    rw [himpl]
    apply fork_spec hh hfork ha hn
    intro c hc
    unfold Finds
    rw [hd c hc, hdi]
    exact ⟨_, late_done rfl _, rfl⟩

end Verif.Spawn
