import Verif.Spec.Mtab
import Verif.Lemmas.Memo
import Verif.Lemmas.Varena
/-!
# Lemmas about the mount table
-/
namespace Verif.Mtab
open Verif Verif.Trie Verif.Memo Verif.Path Verif.Spec.Trie Verif.Spec.Mtab Verif.Alloc

/-! ## Parsing -/

/-- The last part of a path. -/
def baseKey (m : Mount) : List UInt8 := strKey (m.path.drop (xbaseoff m.path))

/-- The names in the table. -/
structure Names (K : Nat) (t : Mtab) : Prop where
  holds : Holds K IsStr t.names fun k => if k ∈ t.mounts.map baseKey then some () else none
  types : t.types = empty
  filled : t.filled = false

theorem baseKey_str {m : Mount} (h : (0 : UInt8) ∉ m.path) : IsStr (baseKey m) :=
  ⟨_, fun h0 => h (List.mem_of_mem_drop h0), rfl⟩

theorem strKey_ne (s : Bytes) : strKey s ≠ [] := by unfold strKey; simp

theorem add_ok {K : Nat} {t : Mtab} (h : Names K t) {m : Mount} (hm : (0 : UInt8) ∉ m.path) (mem : AddMem) :
    ∃ b t', add K t m mem = .ok (b, t') ∧ (mem.mount = true → mem.array = true → mem.name = true → b = true) ∧
      (b = true → Names K t' ∧ t'.mounts = t.mounts ++ [m]) := by
  unfold add
  cases h1 : mem.mount with
  | false => exact ⟨false, t, rfl, (by intro h; cases h), (by intro h; cases h)⟩
  | true =>
    cases h2 : mem.array with
    | false => exact ⟨false, t, rfl, (by intro _ h; cases h), (by intro h; cases h)⟩
    | true =>
      rw [if_neg (by simp), if_neg (by simp)]
      obtain ⟨t', w1, w2⟩ := withLeaf_ok (R := Bool) (v0 := ()) str_prefix_free h.holds (key := baseKey m) (baseKey_str hm)
        (strKey_ne _) mem.name false fun v => (true, v)
      have e : strKey (m.path.drop (xbaseoff m.path)) = baseKey m := rfl
      rw [e, w1, ok_bind]
      dsimp only
      cases hc : (mem.name || (if baseKey m ∈ t.mounts.map baseKey then some () else none).isSome) with
      | false =>
        refine ⟨false, t, rfl, ?_, (by intro h; cases h)⟩
        intro _ _ h3
        rw [h3] at hc; cases hc
      | true =>
        refine ⟨true, _, rfl, fun _ _ _ => rfl, fun _ => ⟨⟨?_, h.types, h.filled⟩, rfl⟩⟩
        rw [hc] at w2
        refine ⟨w2.wf, w2.sub, fun k => ?_⟩
        have := w2.val k
        rw [show ({ t with
          mounts := t.mounts ++ [m]
          names := t' } : Mtab).names = t' from rfl, this]
        show _ = if k ∈ (t.mounts ++ [m]).map baseKey then some () else none
        rw [List.map_append, List.map_cons, List.map_nil]
        by_cases hk : k = baseKey m
        · have hin : k ∈ t.mounts.map baseKey ++ [baseKey m] := by rw [hk]; simp
          rw [if_pos ⟨hk, rfl⟩]
          exact (if_pos hin).symm
        · rw [if_neg (by simp [hk])]
          by_cases hin : k ∈ t.mounts.map baseKey
          · rw [if_pos hin, if_pos (by simp only [List.mem_append]; exact Or.inl hin)]
          · rw [if_neg hin, if_neg (by simp only [List.mem_append, List.mem_singleton]; exact fun h => h.elim hin hk)]

theorem addAll_ok {K : Nat} : ∀ (ms : List (Mount × AddMem)) {t : Mtab}, Names K t → (∀ x ∈ ms, (0 : UInt8) ∉ x.1.path) →
    ∃ r, addAll K t ms = .ok r ∧
      ((∀ x ∈ ms, x.2.mount = true ∧ x.2.array = true ∧ x.2.name = true) → r ≠ none) ∧
      ∀ t', r = some t' → Names K t' ∧ t'.mounts = t.mounts ++ ms.map (·.1)
  | [], t, h, _ => ⟨some t, rfl, fun _ => by simp, fun t' ht => by
      cases ht; exact ⟨h, by simp⟩⟩
  | (m, mem) :: ms, t, h, h0 => by
    obtain ⟨b, t1, a1, a2, a3⟩ := add_ok h (h0 (m, mem) (by simp)) mem
    rw [addAll, a1, ok_bind]
    dsimp only
    cases b with
    | false =>
      refine ⟨none, rfl, ?_, (by intro t' ht; cases ht)⟩
      intro hm
      obtain ⟨m1, m2, m3⟩ := hm (m, mem) (by simp)
      have := a2 m1 m2 m3
      cases this
    | true =>
      rw [if_pos rfl]
      obtain ⟨n1, n2⟩ := a3 rfl
      obtain ⟨r, g1, g2, g3⟩ := addAll_ok ms n1 (fun x hx => h0 x (by simp [hx]))
      refine ⟨r, g1, fun hm => g2 (fun x hx => hm x (by simp [hx])), fun t' ht => ?_⟩
      obtain ⟨f1, f2⟩ := g3 t' ht
      exact ⟨f1, by rw [f2, n2]; simp⟩

theorem parse_ok {K : Nat} (ms : List (Mount × AddMem)) (h0 : ∀ x ∈ ms, (0 : UInt8) ∉ x.1.path) :
    ∃ r, parse K ms = .ok r ∧
      ((∀ x ∈ ms, x.2.mount = true ∧ x.2.array = true ∧ x.2.name = true) → r ≠ none) ∧
      ∀ t', r = some t' → Names K t' ∧ t'.mounts = ms.map (·.1) := by
  have := addAll_ok (K := K) ms (t := ⟨[], empty, empty, false⟩) ⟨by simpa using holds_empty K IsStr, rfl, rfl⟩ h0
  simpa [parse] using this

/-! ## Filling in the types -/

/-- The parent that was opened last. -/
structure PInv (w : World) (n : Nat) (p : Parent) : Prop where
  fd : p.fd = p.dir.bind w.openDir
  stat : p.stat = p.fd.bind w.statFd
  fds : p.fds = n + if p.fd.isSome then 1 else 0

theorem closeParent_ok {w : World} {n : Nat} {p : Parent} (h : PInv w n p) : ∃ p', closeParent p = .ok p' ∧ p'.fds = n := by
  unfold closeParent
  have := h.fds
  cases hf : p.fd with
  | none => rw [hf] at this; exact ⟨p, rfl, by simpa using this⟩
  | some fd =>
    rw [hf] at this
    simp at this
    dsimp only
    rw [if_neg (by omega)]
    exact ⟨_, rfl, by simp; omega⟩

theorem openParent_ok {w : World} {n : Nat} {p : Parent} (h : PInv w n p) (dir : Bytes) :
    ∃ p', openParent w p dir = .ok p' ∧ PInv w n p' ∧ p'.dir = some dir := by
  unfold openParent
  by_cases hd : p.dir = some dir
  · rw [if_pos hd]; exact ⟨p, rfl, h, hd⟩
  · rw [if_neg hd]
    obtain ⟨p1, c1, c2⟩ := closeParent_ok h
    rw [c1, ok_bind]
    cases ho : w.openDir dir with
    | none => exact ⟨_, rfl, ⟨by simp [ho], rfl, by simp [c2]⟩, rfl⟩
    | some fd => exact ⟨_, rfl, ⟨by simp [ho], rfl, by simp [c2]⟩, rfl⟩

theorem statMount_eq {w : World} (hw : Honest w) {n : Nat} {p : Parent} (h : PInv w n p) {path : Bytes} (hd : p.dir = some (xdirname path)) :
    statMount w p path = w.statAt none path := by
  unfold statMount
  cases hf : p.fd with
  | none => rfl
  | some fd =>
    have := h.fd
    rw [hd, hf] at this
    exact hw path fd this.symm

theorem parent_eq {w : World} {n : Nat} {p : Parent} (h : PInv w n p) {path : Bytes} (hd : p.dir = some (xdirname path)) :
    p.stat = parentOf w path := by
  rw [h.stat, h.fd, hd]; rfl

/-- The last entry for an ID. -/
def lastType (w : World) (ms : List Mount) (id : Nat) : Option Bytes :=
  (ms.filter fun m => decide (mountedAt w m.path = some id)).getLast?.map (·.type)

theorem lastType_snoc (w : World) (ms : List Mount) (m : Mount) (id : Nat) :
    lastType w (ms ++ [m]) id = if mountedAt w m.path = some id then some m.type else lastType w ms id := by
  unfold lastType
  rw [List.filter_append]
  by_cases h : mountedAt w m.path = some id
  · rw [if_pos h, List.filter_cons_of_pos (by simpa using h)]; simp
  · rw [if_neg h, List.filter_cons_of_neg (by simpa using h)]; simp

theorem lastType_none {w : World} {ms : List Mount} {id : Nat} (h : lastType w ms id = none) :
    ∀ m ∈ ms, mountedAt w m.path ≠ some id := by
  intro m hm he
  unfold lastType at h
  rw [Option.map_eq_none_iff, List.getLast?_eq_none_iff, List.filter_eq_nil_iff] at h
  exact h m hm (by simpa using he)

/-- What the trie of types stands for. -/
structure Types (K : Nat) (w : World) (all done : List Mount) (types : Trie (Option Bytes)) (m : List UInt8 → Option (Option Bytes)) : Prop where
  holds : Holds K (fun k => k.length = 8) types m
  sound : ∀ k v, m k = some v → ∃ x ∈ all, ∃ id, mountedAt w x.path = some id ∧ bytesOf 8 id = k
  complete : ∀ id < 2 ^ 64, ∀ ty, lastType w done id = some ty → m (bytesOf 8 id) = some (some ty)

theorem lastType_nil (w : World) (id : Nat) : lastType w [] id = none := rfl

theorem Types.forget {K : Nat} {w : World} {all done : List Mount} {types : Trie (Option Bytes)} {m : List UInt8 → Option (Option Bytes)}
    (h : Types K w all done types m) : Types K w all [] types m :=
  ⟨h.holds, h.sound, fun id _ ty hty => by rw [lastType_nil] at hty; cases hty⟩

theorem key_ne (id : Nat) : bytesOf 8 id ≠ [] := by
  intro h
  have := bytesOf_length 8 id
  rw [h] at this; cases this

theorem mountedAt_fits {w : World} (hf : Fits w) {path : Bytes} {id : Nat} (h : mountedAt w path = some id) : id < 2 ^ 64 := by
  unfold mountedAt at h
  cases hs : w.statAt none path with
  | none => rw [hs] at h; cases h
  | some sb =>
    rw [hs] at h
    have hlt := hf _ _ _ hs
    cases hp : parentOf w path with
    | none => rw [hp] at h; have := Option.some.inj h; omega
    | some q =>
      rw [hp] at h
      dsimp only at h
      split at h
      · cases h
      · have := Option.some.inj h; omega

theorem fillOne_ok {K : Nat} {w : World} (hw : Honest w) (hf : Fits w) {n : Nat} {p : Parent} (hp : PInv w n p) {all done : List Mount} {types : Trie (Option Bytes)}
    {f : List UInt8 → Option (Option Bytes)} (h : Types K w all done types f) {m : Mount} (hm : m ∈ all) (hd : p.dir = some (xdirname m.path)) (leaf : Bool) :
    ∃ b types' f', fillOne K types p m.type leaf (statMount w p m.path) = .ok (b, types') ∧
      Types K w all [] types' f' ∧ (b = true → Types K w all (done ++ [m]) types' f') ∧ (leaf = true → b = true) := by
  rw [statMount_eq hw hp hd]
  have skip : mountedAt w m.path = none → Types K w all (done ++ [m]) types f := by
    intro hn
    refine ⟨h.holds, h.sound, fun id hid ty hty => h.complete id hid ty ?_⟩
    rw [lastType_snoc, hn, if_neg (by simp)] at hty
    exact hty
  cases hs : w.statAt none m.path with
  | none =>
    have hn : mountedAt w m.path = none := by unfold mountedAt; rw [hs]
    exact ⟨true, types, f, rfl, h.forget, fun _ => skip hn, fun _ => rfl⟩
  | some sb =>
    unfold fillOne
    dsimp only
    cases hnm : notMounted p sb with
    | true =>
      have hn : mountedAt w m.path = none := by
        unfold mountedAt
        rw [hs, ← parent_eq hp hd]
        unfold notMounted at hnm
        cases hps : p.stat with
        | none => rw [hps] at hnm; cases hnm
        | some q =>
          rw [hps] at hnm
          simp only [Bool.and_eq_true, decide_eq_true_eq] at hnm
          dsimp only
          rw [if_pos ⟨hnm.1.symm, fun e => hnm.2 e.symm⟩]
      rw [if_pos rfl]
      exact ⟨true, types, f, rfl, h.forget, fun _ => skip hn, fun _ => rfl⟩
    | false =>
      have hn : mountedAt w m.path = some sb.mntId := by
        unfold mountedAt
        rw [hs, ← parent_eq hp hd]
        unfold notMounted at hnm
        cases hps : p.stat with
        | none => rfl
        | some q =>
          rw [hps] at hnm
          dsimp only at hnm ⊢
          rw [if_neg]
          rintro ⟨e1, e2⟩
          simp [e1] at hnm
          exact e2 hnm.symm
      have hlt := mountedAt_fits hf hn
      rw [if_neg (by simp)]
      obtain ⟨t', w1, w2⟩ := withLeaf_ok (R := Bool) (v0 := (none : Option Bytes)) (fixed_prefix_free 8) h.holds (key := bytesOf 8 sb.mntId)
        (bytesOf_length 8 _) (key_ne _) leaf false fun _ => (true, some m.type)
      rw [w1]
      generalize hc : (leaf || (f (bytesOf 8 sb.mntId)).isSome) = c at w1 w2 ⊢
      cases c with
      | false =>
        refine ⟨false, t', f, rfl, ⟨⟨w2.wf, w2.sub, fun k => by rw [w2.val k]; simp⟩, h.sound, h.forget.complete⟩, (by intro h; cases h), ?_⟩
        intro hl; rw [hl] at hc; cases hc
      | true =>
        have hsound : ∀ k v, (if k = bytesOf 8 sb.mntId ∧ true = true then some (some m.type) else f k) = some v →
            ∃ x ∈ all, ∃ id, mountedAt w x.path = some id ∧ bytesOf 8 id = k := by
          intro k v hv
          by_cases hk : k = bytesOf 8 sb.mntId
          · exact ⟨m, hm, sb.mntId, hn, hk.symm⟩
          · rw [if_neg (by simp [hk])] at hv; exact h.sound k v hv
        refine ⟨true, t', fun x => if x = bytesOf 8 sb.mntId ∧ true = true then some (some m.type) else f x, rfl, ?_, ?_, fun _ => rfl⟩
        · exact ⟨w2, hsound, fun id _ ty hty => by rw [lastType_nil] at hty; cases hty⟩
        · intro _
          refine ⟨w2, hsound, ?_⟩
          intro id hid ty hty
          rw [lastType_snoc, hn] at hty
          by_cases he : sb.mntId = id
          · rw [if_pos (by rw [he])] at hty
            rw [if_pos ⟨by rw [he], rfl⟩, hty]
          · rw [if_neg (by simpa using he)] at hty
            rw [if_neg]
            · exact h.complete id hid ty hty
            · rintro ⟨e, _⟩
              exact he (bytesOf_inj (k := 8) hlt hid e.symm)

theorem fillLoop_ok {K : Nat} {w : World} (hw : Honest w) (hf : Fits w) {n : Nat} {all : List Mount} : ∀ (ms : List Mount) (mem : List FillMem) {done : List Mount} {p : Parent}
    {types : Trie (Option Bytes)} {f : List UInt8 → Option (Option Bytes)}, PInv w n p → Types K w all done types f → all = done ++ ms →
    ∃ b p' types' f', fillLoop K w ms mem p types = .ok (b, p', types') ∧ PInv w n p' ∧ Types K w all [] types' f' ∧
      (b = true → Types K w all all types' f') ∧ ((∀ x ∈ mem, x.dirname = true ∧ x.leaf = true) → b = true)
  | [], mem, done, p, types, f, hp, h, he => by
    rw [List.append_nil] at he
    exact ⟨true, p, types, f, rfl, hp, h.forget, fun _ => he ▸ h, fun _ => rfl⟩
  | m :: ms, mem, done, p, types, f, hp, h, he => by
    rw [fillLoop]
    have hmem : (∀ x ∈ mem, x.dirname = true ∧ x.leaf = true) → (mem.headD ⟨true, true⟩).dirname = true ∧ (mem.headD ⟨true, true⟩).leaf = true := by
      intro hx
      cases mem with
      | nil => exact ⟨rfl, rfl⟩
      | cons y ys => exact hx y (by simp)
    cases hdn : (mem.headD ⟨true, true⟩).dirname with
    | false =>
      refine ⟨false, p, types, f, rfl, hp, h.forget, (by intro h; cases h), ?_⟩
      intro hx
      have := (hmem hx).1
      rw [hdn] at this; cases this
    | true =>
      rw [if_neg (by simp)]
      obtain ⟨p1, o1, o2, o3⟩ := openParent_ok hp (xdirname m.path)
      rw [o1, ok_bind]
      obtain ⟨b, t1, f1, g1, g2, g3, g4⟩ := fillOne_ok hw hf o2 h (m := m) (by rw [he]; simp) o3 (mem.headD ⟨true, true⟩).leaf
      rw [g1, ok_bind]
      dsimp only
      cases b with
      | false =>
        rw [if_neg (by simp)]
        refine ⟨false, p1, t1, f1, rfl, o2, g2, (by intro h; cases h), ?_⟩
        intro hx
        exact g4 (hmem hx).2
      | true =>
        rw [if_pos rfl]
        obtain ⟨b2, p2, t2, f2, k1, k2, k3, k4, k5⟩ := fillLoop_ok hw hf ms mem.tail o2 (g3 rfl) (by rw [he]; simp)
        refine ⟨b2, p2, t2, f2, k1, k2, k3, k4, fun hx => k5 fun x hxm => hx x (List.mem_of_mem_tail hxm)⟩

/-- The state of a mount table. -/
structure Good (K : Nat) (w : World) (ms : List Mount) (t : Mtab) : Prop where
  mounts : t.mounts = ms
  names : Holds K IsStr t.names fun k => if k ∈ ms.map baseKey then some () else none
  types : ∃ f, Types K w ms (if t.filled then ms else []) t.types f

theorem unknown_eq : "unknown".toUTF8.toList = unknown := by decide +kernel

theorem typeIn_ok {K : Nat} {w : World} (hf : Fits w) {ms : List Mount} {t : Mtab} (h : Good K w ms t) (hfl : t.filled = true) {id : Nat} (hid : id < 2 ^ 64) :
    typeIn t id = .ok (typeOf w ms id) := by
  obtain ⟨f, hT⟩ := h.types
  rw [if_pos hfl] at hT
  unfold typeIn
  have hg : getMem t.types (bytesOf 8 id) = .ok (f (bytesOf 8 id)) := by
    unfold getMem
    rw [findMem_ok hT.holds.wf, ok_bind, ← hT.holds.val]
    by_cases hin : bytesOf 8 id ∈ t.types.leaves.map (·.1)
    · rw [if_pos hin]
    · rw [if_neg hin]
      cases hv : value t.types.leaves (bytesOf 8 id) with
      | none => rfl
      | some v => exact absurd ((value_isSome _ _).1 (by rw [hv]; rfl)) hin
  rw [hg, ok_bind]
  show _ = Out.ok ((lastType w ms id).getD _)
  cases hl : lastType w ms id with
  | some ty => rw [hT.complete id hid ty hl]; rfl
  | none =>
    have hn : f (bytesOf 8 id) = none := by
      cases hfk : f (bytesOf 8 id) with
      | none => rfl
      | some v =>
        obtain ⟨x, hx, id', h1, h2⟩ := hT.sound _ v hfk
        have : id' = id := bytesOf_inj (k := 8) (mountedAt_fits hf h1) hid h2
        subst this
        exact absurd h1 (lastType_none hl x hx)
    rw [hn]
    dsimp only
    rw [Option.getD_none, unknown_eq]

theorem fillTypes_ok {K : Nat} {w : World} (hw : Honest w) (hf : Fits w) {ms : List Mount} {t : Mtab} (h : Good K w ms t) (hfl : t.filled = false) (mem : List FillMem) (fds : Nat) :
    ∃ b t', fillTypes K w mem t fds = .ok (b, t', fds) ∧ Good K w ms t' ∧ (b = true → t'.filled = true) ∧
      ((∀ x ∈ mem, x.dirname = true ∧ x.leaf = true) → b = true) := by
  obtain ⟨f, hT⟩ := h.types
  obtain ⟨b, p', types', f', k1, k2, k3, k4, k5⟩ := fillLoop_ok (n := fds) hw hf ms mem (p := ⟨none, none, none, fds⟩) ⟨rfl, rfl, rfl⟩ hT.forget rfl
  unfold fillTypes
  rw [h.mounts, k1, ok_bind]
  obtain ⟨p2, c1, c2⟩ := closeParent_ok k2
  dsimp only
  rw [c1, ok_bind, c2]
  refine ⟨b, _, rfl, ⟨rfl, h.names, f', ?_⟩, ?_, k5⟩
  · dsimp only
    cases b with
    | true => exact k4 rfl
    | false => rw [hfl]; exact k3
  · intro hb; rw [hb]; rfl

theorem fstype_ok {K : Nat} {w : World} (hw : Honest w) (hf : Fits w) {ms : List Mount} {t : Mtab} (h : Good K w ms t) (mem : List FillMem) (fds : Nat) {id : Nat} (hid : id < 2 ^ 64) :
    ∃ r t', fstype K w mem t fds id = .ok (r, t', fds) ∧ Good K w ms t' ∧ (r = none ∨ r = some (typeOf w ms id)) ∧
      (t.filled = true ∨ (∀ x ∈ mem, x.dirname = true ∧ x.leaf = true) → r ≠ none) ∧ (r ≠ none → t'.filled = true) := by
  unfold fstype
  cases hfl : t.filled with
  | true =>
    rw [if_pos rfl, typeIn_ok hf h hfl hid, ok_bind]
    exact ⟨_, t, rfl, h, Or.inr rfl, fun _ => by simp, fun _ => hfl⟩
  | false =>
    rw [if_neg (by simp)]
    obtain ⟨b, t', k1, k2, k3, k4⟩ := fillTypes_ok hw hf h hfl mem fds
    rw [k1, ok_bind]
    dsimp only
    cases b with
    | true =>
      rw [if_pos rfl, typeIn_ok hf k2 (k3 rfl) hid, ok_bind]
      exact ⟨_, t', rfl, k2, Or.inr rfl, fun _ => by simp, fun _ => k3 rfl⟩
    | false =>
      rw [if_neg (by simp)]
      refine ⟨_, t', rfl, k2, Or.inl rfl, ?_, fun h => absurd rfl h⟩
      rintro (h | h)
      · cases h
      · exact absurd (k4 h) (by simp)

end Verif.Mtab
