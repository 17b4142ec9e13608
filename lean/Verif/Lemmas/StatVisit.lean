import Verif.Lemmas.Stat
/-!
# Lemmas about whole visits
-/
namespace Verif.Stat
open Verif Verif.Spec.Stat Verif.Alloc

/-- The type of the visit is right. -/
def TypeOk (F : File) (entry : FType) (f : Ftw) : Prop :=
  (f.statFlags = NOFOLLOW ∨ f.statFlags = TRYFOLLOW) ∧
  ((∃ sb, F.answer f.statFlags = .ok sb ∧ f.type = sb.type) ∨ ((∃ e, F.lstat = .error e) ∧ f.type = entry ∧ entry ≠ .error))

/-- The result of `bftwType()` is right. -/
def TypeRes (F : File) (sf : Flags) (entry : FType) (flags : Flags) (t : FType) (en : Option Nat) : Prop :=
  match F.answer flags with
  | .ok sb => t = sb.type
  | .error e =>
    (t = .error ∧ ((∃ e', en = some e' ∧ SameErr e' e ∧ ¬ (flags = FOLLOW ∧ sf = TRYFOLLOW)) ∨ (en = none ∧ flags = FOLLOW ∧ sf = TRYFOLLOW)))
    ∨ ((∃ e, F.lstat = .error e) ∧ t = entry ∧ entry ≠ .error)

theorem lstat_err_stat {F : File} (hc : F.Consistent) {e : Nat} (h : F.lstat = .error e) (flags : Flags) : ∃ e', F.answer flags = .error e' := by
  unfold File.answer File.tryStat
  rw [hc.missing e h, h]
  dsimp only
  split
  · exact ⟨e, rfl⟩
  · split
    · split
      · exact ⟨e, rfl⟩
      · exact ⟨e, rfl⟩
    · exact ⟨e, rfl⟩

theorem type_entry {F : File} (hc : F.Consistent) {sf flags : Flags} {entry t : FType} (h : (∃ e, F.lstat = .error e) ∧ t = entry ∧ entry ≠ .error) : TypeRes F sf entry flags t none := by
  obtain ⟨⟨e, he⟩, h2⟩ := h
  obtain ⟨e', h3⟩ := lstat_err_stat hc he flags
  unfold TypeRes
  rw [h3]
  exact .inr ⟨⟨e, he⟩, h2⟩

theorem tryStat_plain {F : File} (hc : F.Consistent) {sb : Sb} (h : F.tryStat = .ok sb) (hl : sb.type ≠ .lnk) : F.stat = .ok sb := by
  unfold File.tryStat at h
  cases hs : F.stat with
  | ok sb' => rw [hs] at h; exact h
  | error e =>
    rw [hs] at h
    dsimp only at h
    split at h
    · rw [← hs]
      exact hc.plain sb h hl
    · simp at h

theorem tryStat_link {F : File} (hc : F.Consistent) {sb : Sb} (h : F.tryStat = .ok sb) (hl : sb.type = .lnk) : F.lstat = .ok sb ∧ ∃ e, F.stat = .error e := by
  unfold File.tryStat at h
  cases hs : F.stat with
  | ok sb' =>
    rw [hs] at h
    injection h with h
    subst h
    exact absurd hl (hc.target _ hs)
  | error e =>
    rw [hs] at h
    dsimp only at h
    split at h
    · exact ⟨h, e, rfl⟩
    · simp at h

theorem known_right {F : File} {entry : FType} {f : Ftw} (hc : F.Consistent) (flags : Flags) (hv : Valid flags) (ht : TypeOk F entry f) {t : FType} (h : knownType f flags = some t) :
    TypeRes F f.statFlags entry flags t none := by
  obtain ⟨hsf, ht⟩ := ht
  by_cases hfe : t = f.type
  · rcases ht with ⟨sb, h1, h2⟩ | ht
    · rcases hv with rfl | rfl | rfl
      · by_cases hl : f.type = .lnk
        · exfalso
          simp only [knownType, FOLLOW, hl] at h
          rcases hsf with hsf | hsf <;> rw [hsf] at h <;> simp [TRYFOLLOW, NOFOLLOW] at h
          rw [hl] at hfe
          subst hfe
          simp at h
        · have : F.stat = .ok sb := by
            rcases hsf with hsf | hsf <;> rw [hsf] at h1
            · exact hc.plain sb h1 (h2 ▸ hl)
            · exact tryStat_plain hc h1 (h2 ▸ hl)
          unfold TypeRes
          have ea : F.answer FOLLOW = F.stat := rfl
          rw [ea, this]
          exact hfe.trans h2
      · unfold TypeRes
        have ea : F.answer NOFOLLOW = F.lstat := rfl
        rw [ea]
        rcases hsf with hsf | hsf
        · rw [hsf] at h1
          rw [show F.lstat = .ok sb from h1]
          exact hfe.trans h2
        · simp only [knownType, NOFOLLOW] at h
          rw [hsf] at h h1
          by_cases hl : f.type = .lnk
          · rw [(tryStat_link hc h1 (h2 ▸ hl)).1]
            exact hfe.trans h2
          · simp [TRYFOLLOW, hl] at h
      · unfold TypeRes
        have ea : F.answer TRYFOLLOW = F.tryStat := rfl
        rw [ea]
        rcases hsf with hsf | hsf
        · simp only [knownType, TRYFOLLOW] at h
          rw [hsf] at h h1
          by_cases hl : f.type = .lnk
          · simp [NOFOLLOW, hl] at h
          · have : F.tryStat = .ok sb := by
              unfold File.tryStat
              rw [hc.plain sb h1 (h2 ▸ hl)]
            rw [this]
            exact hfe.trans h2
        · rw [hsf] at h1
          rw [show F.tryStat = .ok sb from h1]
          exact hfe.trans h2
    · exact type_entry hc ⟨ht.1, hfe.trans ht.2.1, ht.2.2⟩
  · -- Only a link that cannot be followed
    have key : flags = FOLLOW ∧ f.type = .lnk ∧ f.statFlags = TRYFOLLOW ∧ t = .error := by
      rcases hv with rfl | rfl | rfl
      · simp only [knownType, FOLLOW] at h
        by_cases hl : f.type = .lnk
        · simp only [hl] at h
          rcases hsf with hsf | hsf
          · rw [hsf] at h; simp [NOFOLLOW] at h
          · rw [hsf] at h
            simp [TRYFOLLOW] at h
            exact ⟨rfl, hl, hsf, h.symm⟩
        · simp [hl] at h
          exact absurd h.symm hfe
      · exfalso
        simp only [knownType, NOFOLLOW] at h
        split at h
        · split at h
          · injection h with h; exact hfe h.symm
          · simp at h
        · simp at *
      · exfalso
        simp only [knownType, TRYFOLLOW] at h
        simp at h
        exact hfe h.2.symm
    obtain ⟨rfl, hl, hsf', rfl⟩ := key
    have : ∃ e, F.stat = .error e := by
      rcases ht with ⟨sb, h1, h2⟩ | ⟨⟨e, he⟩, _⟩
      · rw [hsf'] at h1
        exact (tryStat_link hc h1 (h2 ▸ hl)).2
      · exact ⟨e, hc.missing e he⟩
    obtain ⟨e, he⟩ := this
    unfold TypeRes
    rw [show F.answer FOLLOW = F.stat from rfl, he]
    exact .inl ⟨rfl, .inr ⟨rfl, rfl, hsf'⟩⟩

theorem type_know {wht : Bool} {now later : Now} {F file : File} {entry : FType} {f : Ftw} {s l : Nat} (flags : Flags) (hv : Valid flags) (inv : Inv s l f) (hc : file.Consistent) (hF : file.whiteout wht f.type = F) (hnow : now.stat = file.answer) (hlater : later.stat = file.answer) (k : Know F f) (ht : TypeOk F entry f) :
    ∃ r g, bftwType wht now later f flags = .ok (r, g) ∧ Inv s l g ∧ Ext s l f g ∧ Know F g ∧ TypeRes F f.statFlags entry flags r.1 r.2 := by
  have hcF : F.Consistent := hF ▸ whiteout_consistent hc wht f.type
  unfold bftwType
  cases hk : knownType f flags with
  | some t => exact ⟨_, _, rfl, inv, Ext.refl _ _ _, k, known_right hcF flags hv ht hk⟩
  | none =>
    obtain ⟨r, g, h, h1, h2, h3, h4, _⟩ := stat_know (wht := wht) flags hv inv hc hF hnow hlater k
    dsimp only
    rw [h, ok_bind]
    cases r with
    | ok a =>
      obtain ⟨sb, h5, h6⟩ := agree_ok h4 rfl
      dsimp only
      unfold typeAt
      rw [h6]
      refine ⟨_, _, rfl, h1, h2, h3, ?_⟩
      unfold TypeRes
      rw [h5]
    | error e =>
      obtain ⟨e', h5, h6⟩ := agree_err h4 rfl
      refine ⟨_, _, rfl, h1, h2, h3, ?_⟩
      unfold TypeRes
      rw [h5]
      refine .inl ⟨rfl, .inl ⟨e, rfl, h6, ?_⟩⟩
      rintro ⟨rfl, hsf⟩
      simp only [knownType, FOLLOW] at hk
      rw [hsf] at hk
      by_cases hl : f.type = .lnk <;> simp [hl, TRYFOLLOW] at hk

theorem answer_opposite {F : File} {sf : Flags} (hsf : sf = NOFOLLOW ∨ sf = TRYFOLLOW) :
    F.answer ⟨!sf.nofollow, !sf.tryfollow⟩ = if sf.nofollow then F.tryStat else F.lstat := by
  rcases hsf with rfl | rfl <;> rfl

theorem step_know {wht : Bool} {F file : File} {entry : FType} {f : Ftw} {s l : Nat} (st : Step) (hv : ValidOp st.op) (inv : Inv s l f) (hc : file.Consistent) (hF : file.whiteout wht f.type = F) (hs : Sees file st) (k : Know F f) (ht : TypeOk F entry f) :
    ∃ r g, step wht f st = .ok (r, g) ∧ Inv s l g ∧ Ext s l f g ∧ Know F g ∧ Right F f.statFlags entry st.errno g.mem st.op r := by
  have hcF : F.Consistent := hF ▸ whiteout_consistent hc wht f.type
  obtain ⟨op, now, later, errno⟩ := st
  obtain ⟨hnow, hlater⟩ := hs
  have hsf := ht.1
  unfold step
  cases op with
  | stat flags =>
    obtain ⟨r, g, h, h1, h2, h3, h4, _⟩ := stat_know (wht := wht) flags hv inv hc hF hnow hlater k
    dsimp only at h ⊢
    rw [h, ok_bind]
    exact ⟨_, _, rfl, h1, h2, h3, h4⟩
  | cached flags =>
    exact ⟨_, _, rfl, inv, Ext.refl _ _ _, k, fun a ha => cached_right flags k ha⟩
  | type flags =>
    obtain ⟨r, g, h, h1, h2, h3, h4⟩ := type_know (wht := wht) flags hv inv hc hF hnow hlater k ht
    dsimp only at h ⊢
    rw [h, ok_bind]
    refine ⟨_, _, rfl, h1, h2, h3, ?_⟩
    unfold TypeRes at h4
    unfold Right
    dsimp only
    cases ha : F.answer flags with
    | ok sb => rw [ha] at h4; exact h4
    | error e =>
      rw [ha] at h4
      dsimp only
      rcases h4 with h4 | h4
      · exact .inl h4.1
      · exact .inr ⟨h4.1, h4.2.1⟩
  | xtype types =>
    have hv' : Valid ⟨!f.statFlags.nofollow, !f.statFlags.tryfollow⟩ := by
      rcases hsf with h | h <;> rw [h] <;> simp [Valid, NOFOLLOW, TRYFOLLOW, FOLLOW]
    obtain ⟨r, g, h, h1, h2, h3, h4⟩ := type_know (wht := wht) _ hv' inv hc hF hnow hlater k ht
    dsimp only at h ⊢
    unfold evalXtype
    dsimp only
    rw [h, ok_bind]
    dsimp only
    unfold TypeRes at h4
    unfold Right
    rw [answer_opposite hsf] at h4
    cases ha : (if f.statFlags.nofollow = true then F.tryStat else F.lstat) with
    | ok sb =>
      rw [ha] at h4
      have hne : sb.type ≠ .error := by
        split at ha
        · unfold File.tryStat at ha
          cases hs : F.stat with
          | ok sb' =>
            rw [hs] at ha
            injection ha with ha
            subst ha
            exact (hcF.statType _ hs).1
          | error e =>
            rw [hs] at ha
            dsimp only at ha
            split at ha
            · exact (hcF.lstatType _ ha).1
            · simp at ha
        · exact (hcF.lstatType _ ha).1
      have e1 : (if (!f.statFlags.tryfollow) && (r.1 = .error && r.2.getD errno = ELOOP) then FType.lnk else r.1) = sb.type := by
        rw [if_neg]
        · exact h4
        · rw [h4]; simp [hne]
      rw [e1, if_neg hne]
      exact ⟨_, _, rfl, h1, h2, h3, rfl⟩
    | error e =>
      rw [ha] at h4
      rcases h4 with ⟨h4, h5⟩ | ⟨h4, h5, h6⟩
      · have hen : ∃ e', r.2 = some e' ∧ SameErr e' e := by
          rcases h5 with ⟨e', ha', hb', _⟩ | ⟨_, hb', hd'⟩
          · exact ⟨e', ha', hb'⟩
          · rw [hd'] at hb'
            simp [FOLLOW, TRYFOLLOW] at hb'
        obtain ⟨e', h5, h6⟩ := hen
        have h40 : e' = 40 ↔ e = 40 := by
          rcases h6 with rfl | ⟨ha', hb'⟩
          · rfl
          · omega
        rcases hsf with hsf | hsf
        · have hn : f.statFlags.nofollow = true := by rw [hsf]; rfl
          have htf : f.statFlags.tryfollow = false := by rw [hsf]; rfl
          by_cases he : e = 40
          · have e1 : (if (!f.statFlags.tryfollow) && (r.1 = .error && r.2.getD errno = ELOOP) then FType.lnk else r.1) = .lnk := by
              rw [if_pos]
              rw [h4, h5, htf]
              simp [h40.mpr he, ELOOP]
            rw [e1, if_neg (by simp)]
            refine ⟨_, _, rfl, h1, h2, h3, .inl ?_⟩
            rw [if_pos ⟨hn, he⟩]
          · have e1 : (if (!f.statFlags.tryfollow) && (r.1 = .error && r.2.getD errno = ELOOP) then FType.lnk else r.1) = .error := by
              rw [if_neg]
              · exact h4
              · rw [h4, h5, htf]
                simp [ELOOP]
                exact decide_eq_false fun h => he (h40.mp h)
            rw [e1, if_pos rfl]
            refine ⟨_, _, rfl, h1, h2, h3, .inl ?_⟩
            rw [if_neg (fun h => he h.2), h5]
            exact ⟨e', rfl, h6⟩
        · have hn : f.statFlags.nofollow = false := by rw [hsf]; rfl
          have htf : f.statFlags.tryfollow = true := by rw [hsf]; rfl
          have e1 : (if (!f.statFlags.tryfollow) && (r.1 = .error && r.2.getD errno = ELOOP) then FType.lnk else r.1) = .error := by
            rw [if_neg]
            · exact h4
            · rw [htf]; simp
          rw [e1, if_pos rfl]
          refine ⟨_, _, rfl, h1, h2, h3, .inl ?_⟩
          rw [if_neg (by rw [hn]; simp), h5]
          exact ⟨e', rfl, h6⟩
      · have e1 : (if (!f.statFlags.tryfollow) && (r.1 = .error && r.2.getD errno = ELOOP) then FType.lnk else r.1) = entry := by
          rw [if_neg]
          · exact h5
          · rw [h5]; simp [h6]
        rw [e1, if_neg h6]
        exact ⟨_, _, rfl, h1, h2, h3, .inr ⟨h4, rfl⟩⟩
  | letter =>
    obtain ⟨r, g, h, h1, h2, h3, h4⟩ := type_know (wht := wht) FOLLOW (.inl rfl) inv hc hF hnow hlater k ht
    dsimp only at h ⊢
    unfold printfY
    rw [h, ok_bind]
    dsimp only
    unfold TypeRes at h4
    unfold Right
    rw [show F.answer FOLLOW = F.stat from rfl] at h4
    cases ha : F.stat with
    | ok sb =>
      rw [ha] at h4
      have hne : r.1 ≠ .error := by rw [show r.1 = sb.type from h4]; exact (hcF.statType _ ha).1
      rw [if_neg hne]
      exact ⟨_, _, rfl, h1, h2, h3, by rw [show r.1 = sb.type from h4]⟩
    | error e =>
      rw [ha] at h4
      rcases h4 with ⟨h4, h5⟩ | ⟨h4, h5, h6⟩
      · rw [if_pos h4]
        rcases h5 with ⟨e', h5, h6, h7⟩ | ⟨h5, _, h6⟩
        · have hsf' : f.statFlags.nofollow = true := by
            rcases hsf with h | h
            · rw [h]; rfl
            · exact absurd ⟨rfl, h⟩ h7
          rw [h5]
          dsimp only [Option.getD]
          have hlk := sameErr_like h6
          have h40 : e' = 40 ↔ e = 40 := by
            rcases h6 with rfl | ⟨ha', hb'⟩
            · rfl
            · omega
          by_cases he : e = 40
          · rw [if_pos (show e' = ELOOP from h40.mpr he)]
            refine ⟨_, _, rfl, h1, h2, h3, .inl ?_⟩
            rw [if_pos hsf', if_pos he]
          · rw [if_neg (show ¬ e' = ELOOP from fun h => he (h40.mp h))]
            by_cases hl : e = 2 ∨ e = 20
            · rw [if_pos (likeENOENT_iff.mpr (hlk.mpr hl))]
              refine ⟨_, _, rfl, h1, h2, h3, .inl ?_⟩
              rw [if_pos hsf', if_neg he, if_pos hl]
            · rw [if_neg (fun h => hl (hlk.mp (likeENOENT_iff.mp h)))]
              refine ⟨_, _, rfl, h1, h2, h3, .inl ?_⟩
              rw [if_pos hsf', if_neg he, if_neg hl, sameErr_eq h6 hl]
        · have hsf' : ¬ f.statFlags.nofollow = true := by rw [h6]; simp [TRYFOLLOW]
          rw [h5]
          dsimp only [Option.getD]
          by_cases he : errno = 40
          · rw [if_pos (show errno = ELOOP from he)]
            refine ⟨_, _, rfl, h1, h2, h3, .inl ?_⟩
            rw [if_neg hsf', if_pos he]
          · rw [if_neg (show ¬ errno = ELOOP from he)]
            by_cases hl : errno = 2 ∨ errno = 20
            · rw [if_pos (likeENOENT_iff.mpr hl)]
              refine ⟨_, _, rfl, h1, h2, h3, .inl ?_⟩
              rw [if_neg hsf', if_neg he, if_pos hl]
            · rw [if_neg (fun h => hl (likeENOENT_iff.mp h))]
              refine ⟨_, _, rfl, h1, h2, h3, .inl ?_⟩
              rw [if_neg hsf', if_neg he, if_neg hl]
      · rw [if_neg (by rw [h5]; exact h6)]
        exact ⟨_, _, rfl, h1, h2, h3, .inr ⟨h4, by rw [h5]⟩⟩
  | mount p =>
    dsimp only
    cases p with
    | none => exact ⟨_, _, rfl, inv, Ext.refl _ _ _, k, rfl⟩
    | some dev =>
      have hv' : Valid f.statFlags := by
        rcases hsf with h | h <;> rw [h] <;> simp [Valid]
      obtain ⟨r, g, h, h1, h2, h3, h4, _⟩ := stat_know (wht := wht) f.statFlags hv' inv hc hF hnow hlater k
      unfold isMount
      dsimp only at h ⊢
      rw [h, ok_bind]
      unfold Right
      cases r with
      | error e =>
        obtain ⟨e', h5, h6⟩ := agree_err h4 rfl
        refine ⟨_, _, rfl, h1, h2, h3, ?_⟩
        rw [h5]
      | ok a =>
        obtain ⟨sb, h5, h6⟩ := agree_ok h4 rfl
        dsimp only
        rw [h6]
        refine ⟨_, _, rfl, h1, h2, h3, ?_⟩
        rw [h5]

theorem run_know {wht : Bool} {F file : File} {entry : FType} {s l : Nat} (ss : List Step) {f : Ftw} (hv : ∀ st ∈ ss, ValidOp st.op) (inv : Inv s l f) (hc : file.Consistent) (hF : file.whiteout wht f.type = F) (hs : ∀ st ∈ ss, Sees file st) (k : Know F f) (ht : TypeOk F entry f) :
    ∃ rs g, run wht f ss = .ok (rs, g) ∧ Inv s l g ∧ Ext s l f g ∧ Know F g ∧ TypeOk F entry g := by
  induction ss generalizing f with
  | nil => exact ⟨_, _, rfl, inv, Ext.refl _ _ _, k, ht⟩
  | cons st ss ih =>
    obtain ⟨r, g, h, h1, h2, h3, _⟩ := step_know (wht := wht) st (hv st (.head _)) inv hc hF (hs st (.head _)) k ht
    have ht' : TypeOk F entry g := by
      unfold TypeOk
      rw [h2.type, h2.flags]
      exact ht
    obtain ⟨rs, g', h', h1', h2', h3', h4'⟩ := ih (fun t ht => hv t (.tail _ ht)) h1 (by rw [h2.type]; exact hF) (fun t ht => hs t (.tail _ ht)) h3 ht'
    rw [run_cons, h, ok_bind]
    dsimp only
    rw [h', ok_bind]
    exact ⟨_, _, rfl, h1', h2.trans h2', h3', h4'⟩

/-! ## The start of a visit -/

theorem whiteout_eq {file : File} {wht : Bool} {type : FType} (h : ¬ (wht = true ∧ type = .wht)) : file.whiteout wht type = file := by
  have key : ∀ r : Except Nat Sb, ((match r with
      | .ok sb => .ok sb
      | .error e => if wht = true ∧ type = .wht ∧ e = 2 then .ok ⟨.wht, 0, 0, 0⟩ else .error e) : Except Nat Sb) = r := by
    intro r
    cases r with
    | ok sb => rfl
    | error e => exact if_neg fun hx => h ⟨hx.1, hx.2.1⟩
  obtain ⟨a, b⟩ := file
  unfold File.whiteout
  dsimp only
  congr 1
  · exact key a
  · exact key b

theorem start_know {file : File} {wht : Bool} {type : FType} {s l : Nat} (hc : file.Consistent) {sf : Flags} {mem : Mem} {pre : Option (Nat × Except Nat Sb)} (hp : PreOk s l sf pre) (hr : PreRight file wht type sf pre) {b : Bufs} {m : Mem} (h : start s l sf mem pre = .ok (b, m)) (type' : FType) (sf' : Flags) :
    Know (file.whiteout wht type) ⟨type', sf', b, m, 0⟩ := by
  cases pre with
  | none =>
    injection h with h
    injection h with h1 h2
    subst h1
    refine ⟨?_, ?_, ?_, ?_⟩ <;> intro h <;> simp [init] at h
  | some p =>
    obtain ⟨a, r⟩ := p
    obtain ⟨hsf, hp⟩ := hp
    obtain ⟨h1, h2, h3⟩ := hp a r rfl
    obtain ⟨h4, h5⟩ := hr a r rfl
    rw [whiteout_eq h5]
    cases r with
    | ok sb =>
      by_cases hl : sb.type = .lnk <;> rcases hsf with rfl | rfl
      · simp [start, ioqStat, cache, NOFOLLOW, isLink, write_self, hl, Out.bind, init, fill] at h
        obtain ⟨rfl, rfl⟩ := h
        exact ⟨by simp, by simp, fun _ => ⟨a, sb, rfl, write_self _ _ _, h4.symm⟩, by simp⟩
      · simp [start, ioqStat, cache, TRYFOLLOW, isLink, write_self, hl, Out.bind, init, fill, ENOENT] at h
        obtain ⟨rfl, rfl⟩ := h
        have h4 : file.tryStat = .ok sb := h4.symm
        obtain ⟨h6, e, h7⟩ := tryStat_link hc h4 hl
        refine ⟨by simp, fun _ => ⟨e, h7, ?_⟩, fun _ => ⟨a, sb, rfl, write_self _ _ _, h6⟩, by simp⟩
        unfold File.tryStat at h4
        rw [h7] at h4
        dsimp only at h4
        split at h4
        · exact .inr ⟨.inl rfl, ‹_›⟩
        · simp at h4
      · simp [start, ioqStat, cache, NOFOLLOW, isLink, write_self, hl, Out.bind, init, fill] at h
        obtain ⟨rfl, rfl⟩ := h
        exact ⟨fun _ => ⟨a, sb, rfl, write_self _ _ _, hc.plain sb h4.symm hl⟩, by simp, fun _ => ⟨a, sb, rfl, write_self _ _ _, h4.symm⟩, by simp⟩
      · simp [start, ioqStat, cache, TRYFOLLOW, isLink, write_self, hl, Out.bind, init, fill] at h
        obtain ⟨rfl, rfl⟩ := h
        exact ⟨fun _ => ⟨a, sb, rfl, write_self _ _ _, tryStat_plain hc h4.symm hl⟩, by simp, by simp, by simp⟩
    | error e =>
      have hn := h3 e rfl
      rcases hsf with rfl | rfl
      · simp [start, ioqStat, cache, NOFOLLOW, hn, Out.bind, init, fill] at h
        obtain ⟨rfl, rfl⟩ := h
        have h4 : file.lstat = .error e := h4.symm
        refine ⟨fun h => absurd (by simpa using h) hn, fun _ => ⟨e, hc.missing e h4, by simp [SameErr]⟩, fun h => absurd (by simpa using h) hn, fun _ => by simpa using h4⟩
      · simp [start, ioqStat, cache, TRYFOLLOW, hn, Out.bind, init, fill] at h
        obtain ⟨rfl, rfl⟩ := h
        have h4 : file.tryStat = .error e := h4.symm
        refine ⟨fun h => absurd (by simpa using h) hn, fun _ => ?_, by simp, by simp⟩
        unfold File.tryStat at h4
        cases hs : file.stat with
        | ok sb => rw [hs] at h4; simp at h4
        | error e' =>
          rw [hs] at h4
          refine ⟨e', rfl, ?_⟩
          dsimp only at h4
          split at h4
          · have h6 := hc.missing e h4
            rw [hs] at h6
            injection h6 with h6
            exact .inl (by simp [h6])
          · injection h4 with h4
            exact .inl (by simp [h4])

theorem findCycle_some {sb : Sb} {as : List (Nat × Nat)} {i : Nat} (h : findCycle sb as = some i) : as[i]? = some (sb.dev, sb.ino) := by
  induction as generalizing i with
  | nil => simp [findCycle] at h
  | cons a as ih =>
    unfold findCycle at h
    split at h
    · rename_i hc
      injection h with h
      subst h
      simp only [Bool.and_eq_true, decide_eq_true_eq] at hc
      simp [← hc.1, ← hc.2]
    · cases hf : findCycle sb as with
      | none => rw [hf] at h; simp at h
      | some j =>
        rw [hf] at h
        simp at h
        subst h
        simpa using ih hf

theorem findCycle_none {sb : Sb} {as : List (Nat × Nat)} (h : findCycle sb as = none) : (sb.dev, sb.ino) ∉ as := by
  induction as with
  | nil => simp
  | cons a as ih =>
    unfold findCycle at h
    split at h
    · simp at h
    · rename_i hc
      intro hm
      rcases List.mem_cons.mp hm with rfl | hm
      · simp at hc
      · exact ih (by simpa using h) hm

theorem whiteout_lstat {file : File} {wht : Bool} {type : FType} {sb : Sb} (h : (file.whiteout wht type).lstat = .ok sb) :
    file.lstat = .ok sb ∨ (type = .wht ∧ sb.type = .wht) := by
  obtain ⟨a, b⟩ := file
  unfold File.whiteout at h
  dsimp only at h ⊢
  cases b with
  | ok sb' => exact .inl h
  | error e =>
    dsimp only at h
    split at h
    · rename_i hx
      injection h with h
      exact .inr ⟨hx.2.1, by rw [← h]⟩
    · simp at h

theorem entry_eq {file : File} {wht : Bool} {type : FType} {sb : Sb} (he : EntryOk file type) (h : (file.whiteout wht type).lstat = .ok sb) : type = .unknown ∨ type = sb.type := by
  rcases whiteout_lstat h with h | ⟨h1, h2⟩
  · exact he.2 sb h
  · exact .inr (h1.trans h2.symm)

/-- Changing the type to the right one does not change which whiteouts there are. -/
theorem whiteout_type {file : File} {wht : Bool} {type : FType} {sf : Flags} {sb : Sb} (hc : file.Consistent) (he : EntryOk file type) (hsf : sf = NOFOLLOW ∨ sf = TRYFOLLOW) (h : (file.whiteout wht type).answer sf = .ok sb) :
    file.whiteout wht sb.type = file.whiteout wht type := by
  have hcF := whiteout_consistent hc wht type
  by_cases hw : wht = true
  case neg => rw [whiteout_eq fun hx => hw hx.1, whiteout_eq fun hx => hw hx.1]
  by_cases ht : type = .wht
  · -- The entry is a whiteout, so it is not a link
    have hnl : ∀ sb', (file.whiteout wht type).lstat = .ok sb' → sb'.type = .wht := by
      intro sb' h'
      rcases entry_eq he h' with h1 | h1
      · rw [ht] at h1; simp at h1
      · rw [← h1, ht]
    have : sb.type = .wht := by
      rcases hsf with rfl | rfl
      · exact hnl sb h
      · cases hl : (file.whiteout wht type).lstat with
        | error e =>
          obtain ⟨e', h2⟩ := lstat_err_stat hcF hl TRYFOLLOW
          rw [h] at h2
          simp at h2
        | ok sb' =>
          have h1 := hnl sb' hl
          have h2 := hcF.plain sb' hl (by rw [h1]; simp)
          have h : (file.whiteout wht type).tryStat = .ok sb := h
          unfold File.tryStat at h
          rw [h2] at h
          injection h with h
          rw [← h, h1]
    rw [this, ht]
  · have e0 : file.whiteout wht type = file := whiteout_eq fun hx => ht hx.2
    rw [e0] at h hcF ⊢
    by_cases ht' : sb.type = .wht
    · -- Nothing is missing
      have hl : file.lstat = .ok sb ∨ ∃ sb', file.lstat = .ok sb' := by
        cases hl : file.lstat with
        | ok sb' => exact .inr ⟨sb', rfl⟩
        | error e =>
          obtain ⟨e', h2⟩ := lstat_err_stat hc hl sf
          rw [h] at h2
          simp at h2
      have hs : file.stat = .ok sb := by
        rcases hsf with rfl | rfl
        · exact hc.plain sb h (by rw [ht']; simp)
        · exact tryStat_plain hc h (by rw [ht']; simp)
      have hl' : ∃ sb', file.lstat = .ok sb' := by
        rcases hl with h | h
        · exact ⟨sb, h⟩
        · exact h
      obtain ⟨sb', hl'⟩ := hl'
      obtain ⟨a, b⟩ := file
      simp only at hs hl'
      subst hs hl'
      rfl
    · rw [whiteout_eq fun hx => ht' hx.2]

/-- How a visit may start. -/
inductive StartRes (F : File) (w : WFlags) (sf : Flags) (entry : FType) (ancestors : List (Nat × Nat)) (g : Ftw) : Nat → Option Nat → Prop where
  | fail (e e' : Nat) (ht : g.type = .error) (h : F.answer sf = .error e') (hs : SameErr e e') : StartRes F w sf entry ancestors g e none
  | loop (i : Nat) (sb : Sb) (ht : g.type = .error) (h : F.answer sf = .ok sb) (hd : sb.type = .dir) (hw : w.detectCycles = true) (hi : ancestors[i]? = some (sb.dev, sb.ino)) : StartRes F w sf entry ancestors g 40 (some i)
  | visit (ht : TypeOk F entry g) (ha : g.type = .dir → (w.detectCycles = true ∨ w.skipMounts = true ∨ w.pruneMounts = true) → Asked sf g) (hn : g.type = .dir → w.detectCycles = true → ∀ sb, F.answer sf = .ok sb → (sb.dev, sb.ino) ∉ ancestors) : StartRes F w sf entry ancestors g 0 none

theorem statFlags_cases (w : WFlags) (depth : Nat) : statFlags w depth = NOFOLLOW ∨ statFlags w depth = TRYFOLLOW := by
  unfold statFlags
  split
  · exact .inr rfl
  · exact .inl rfl

theorem inv_type {s l : Nat} {f : Ftw} (h : Inv s l f) (t : FType) : Inv s l { f with type := t } :=
  ⟨h.ne, h.sn, h.ln, h.s0, h.l0⟩

theorem know_type {F : File} {f : Ftw} (h : Know F f) (t : FType) : Know F { f with type := t } :=
  ⟨h.s0, h.sp, h.l0, h.lp⟩

theorem init_know {wht : Bool} {now later : Now} {w : WFlags} {depth : Nat} {type : FType} {mount : Bool} {ancestors : List (Nat × Nat)} {b : Bufs} {m : Mem} {s l : Nat} {file : File} (hc : file.Consistent) (he : EntryOk file type) (hnow : now.stat = file.answer) (hlater : later.stat = file.answer)
    (inv : Inv s l ⟨type, statFlags w depth, b, m, 0⟩) (k : Know (file.whiteout wht type) ⟨type, statFlags w depth, b, m, 0⟩) :
    ∃ g e c, initFtwbuf wht now later w depth type mount ancestors b m = .ok (g, e, c) ∧ Inv s l g ∧ Know (file.whiteout wht type) g ∧ g.statFlags = statFlags w depth ∧ g.calls + left g.bufs ≤ left b ∧
      StartRes (file.whiteout wht type) w (statFlags w depth) type ancestors g e c ∧ (e = 0 → file.whiteout wht g.type = file.whiteout wht type) := by
  have hcF := whiteout_consistent hc wht type
  have hsf := statFlags_cases w depth
  have hv : Valid (statFlags w depth) := by
    rcases hsf with h | h <;> rw [h] <;> simp [Valid]
  unfold initFtwbuf
  dsimp only
  by_cases hm : mustStat w depth type mount = true
  · rw [if_pos hm]
    obtain ⟨r, g, h, h1, h2, h3, h4, h5⟩ := stat_know (wht := wht) (statFlags w depth) hv inv hc rfl hnow hlater k
    rw [h, ok_bind]
    have hcalls : g.calls + left g.bufs ≤ left b := by
      have := h2.calls
      simpa using this
    cases r with
    | error e =>
      obtain ⟨e', h6, h7⟩ := agree_err h4 rfl
      refine ⟨_, _, _, rfl, inv_type h1 _, know_type h3 _, h2.flags, hcalls, .fail e e' rfl h6 h7, ?_⟩
      intro h0
      exfalso
      have hne : e' ≠ 0 := by
        have := answer_fails hcF (now := ⟨(file.whiteout wht type).answer, none⟩) rfl
        exact this _ _ h6
      rcases h7 with h7 | ⟨h7, _⟩ <;> omega
    | ok a =>
      obtain ⟨sb, h6, h7⟩ := agree_ok h4 rfl
      dsimp only
      unfold typeAt
      rw [h7]
      rw [ok_bind]
      unfold checkCycle
      dsimp only
      have htk : TypeOk (file.whiteout wht type) type { g with type := sb.type } :=
        ⟨h2.flags.symm ▸ hsf, .inl ⟨sb, by rw [show ({ g with type := sb.type } : Ftw).statFlags = statFlags w depth from h2.flags]; exact h6, rfl⟩⟩
      have hasked : Asked (statFlags w depth) { g with type := sb.type } := h5
      have hwt := whiteout_type hc he hsf h6
      by_cases hd : (sb.type = .dir && w.detectCycles) = true
      · rw [if_pos hd]
        simp only [Bool.and_eq_true, decide_eq_true_eq] at hd
        cases ancestors with
        | nil =>
          refine ⟨_, _, _, rfl, inv_type h1 _, know_type h3 _, h2.flags, hcalls, .visit htk (fun _ _ => hasked) (fun _ _ _ _ => by simp), fun _ => hwt⟩
        | cons x xs =>
          dsimp only
          rw [h7]
          cases hf : findCycle sb (x :: xs) with
          | some i =>
            dsimp only
            rw [hf]
            refine ⟨_, _, _, rfl, inv_type h1 _, know_type h3 _, h2.flags, hcalls, .loop i sb rfl h6 hd.1 hd.2 (findCycle_some hf), fun h => by simp [ELOOP] at h⟩
          | none =>
            dsimp only
            rw [hf]
            refine ⟨_, _, _, rfl, inv_type h1 _, know_type h3 _, h2.flags, hcalls, .visit htk (fun _ _ => hasked) (fun _ _ sb' h' => ?_), fun _ => hwt⟩
            rw [h6] at h'
            injection h' with h'
            subst h'
            exact findCycle_none hf
      · rw [if_neg hd]
        refine ⟨_, _, _, rfl, inv_type h1 _, know_type h3 _, h2.flags, hcalls, .visit htk (fun _ _ => hasked) (fun ht hw => ?_), fun _ => hwt⟩
        exfalso
        apply hd
        have ht : sb.type = .dir := ht
        rw [ht, hw]
        rfl
  · rw [if_neg hm]
    have hms : mustStat w depth type mount = false := by simpa using hm
    have hnd : type = .dir → w.detectCycles = false ∧ w.skipMounts = false ∧ w.pruneMounts = false := by
      rintro rfl
      unfold mustStat at hms
      split at hms
      · simp at hms
      · dsimp only at hms
        simp only [Bool.or_eq_false_iff] at hms
        exact ⟨hms.1.1, hms.1.2, hms.2⟩
    have hnu : type ≠ .unknown := by
      rintro rfl
      unfold mustStat at hms
      split at hms <;> simp at hms
    have hnl : type = .lnk → statFlags w depth = NOFOLLOW := by
      rintro rfl
      rcases hsf with h | h
      · exact h
      · unfold mustStat at hms
        rw [h] at hms
        split at hms <;> simp [TRYFOLLOW] at hms
    unfold checkCycle
    rw [if_neg (by
      intro hx
      simp only [Bool.and_eq_true, decide_eq_true_eq] at hx
      rw [(hnd hx.1).1] at hx
      simp at hx)]
    refine ⟨_, _, _, rfl, inv, k, rfl, ?_, .visit ⟨hsf, ?_⟩ ?_ ?_, fun _ => rfl⟩
    · simp
    · cases hl : (file.whiteout wht type).lstat with
      | error e => exact .inr ⟨⟨e, rfl⟩, rfl, he.1⟩
      | ok sb =>
        have ht : type = sb.type := (entry_eq he hl).resolve_left hnu
        refine .inl ⟨sb, ?_, ht⟩
        dsimp only
        by_cases h1 : type = .lnk
        · rw [hnl h1]
          exact hl
        · have h2 := hcF.plain sb hl (ht ▸ h1)
          rcases hsf with h | h <;> rw [h]
          · exact hl
          · show (file.whiteout wht type).tryStat = _
            unfold File.tryStat
            rw [h2]
    · intro hd hw
      obtain ⟨a, b, c⟩ := hnd hd
      rw [a, b, c] at hw
      simp at hw
    · intro hd hw
      rw [(hnd hd).1] at hw
      simp at hw

theorem init_ext {wht : Bool} {now later : Now} {w : WFlags} {depth : Nat} {type : FType} {mount : Bool} {ancestors : List (Nat × Nat)} {b : Bufs} {m : Mem} {s l : Nat} (hf : Now.Fails now) (hg : Now.Fails later)
    (inv : Inv s l ⟨type, statFlags w depth, b, m, 0⟩) :
    ∃ g e c, initFtwbuf wht now later w depth type mount ancestors b m = .ok (g, e, c) ∧ Inv s l g ∧ g.calls + left g.bufs ≤ left b := by
  have hcy : ∀ (f : Ftw) (sp : Option Nat), Inv s l f → (f.type = .dir → w.detectCycles = true → ∃ a sb, sp = some a ∧ f.mem a = some sb) →
      ∃ g e c, checkCycle w ancestors f sp = .ok (g, e, c) ∧ Inv s l g ∧ g.calls = f.calls ∧ g.bufs = f.bufs := by
    intro f sp hi hd
    unfold checkCycle
    by_cases hx : (f.type = .dir && w.detectCycles) = true
    · rw [if_pos hx]
      simp only [Bool.and_eq_true, decide_eq_true_eq] at hx
      obtain ⟨a, sb, h1, h2⟩ := hd hx.1 hx.2
      subst h1
      cases ancestors with
      | nil => exact ⟨_, _, _, rfl, hi, rfl, rfl⟩
      | cons x xs =>
        dsimp only
        rw [h2]
        dsimp only
        cases hfc : findCycle sb (x :: xs) with
        | none => exact ⟨_, _, _, rfl, hi, rfl, rfl⟩
        | some i => exact ⟨_, _, _, rfl, inv_type hi _, rfl, rfl⟩
    · rw [if_neg hx]
      exact ⟨_, _, _, rfl, hi, rfl, rfl⟩
  unfold initFtwbuf
  dsimp only
  by_cases hm : mustStat w depth type mount = true
  · rw [if_pos hm]
    obtain ⟨r, g, h, h1, h2, h3⟩ := stat_ext (wht := wht) (statFlags w depth) inv hf hg
    rw [h, ok_bind]
    have hcalls : g.calls + left g.bufs ≤ left b := by
      have := h2.calls
      simpa using this
    cases r with
    | error e => exact ⟨_, _, _, rfl, inv_type h1 _, hcalls⟩
    | ok a =>
      obtain ⟨_, sb, h7⟩ := h3 a rfl
      dsimp only
      unfold typeAt
      rw [h7, ok_bind]
      obtain ⟨g', e, c, h4, h5, h6, h8⟩ := hcy { g with type := sb.type } (some a) (inv_type h1 _) fun _ _ => ⟨a, sb, rfl, h7⟩
      rw [h4]
      refine ⟨g', e, c, rfl, h5, ?_⟩
      rw [h6, h8]
      exact hcalls
  · rw [if_neg hm]
    obtain ⟨g', e, c, h4, h5, h6, h8⟩ := hcy ⟨type, statFlags w depth, b, m, 0⟩ none inv (by
      intro hd hw
      exfalso
      apply hm
      have hd : type = .dir := hd
      subst hd
      simp [mustStat, hw])
    rw [h4]
    refine ⟨g', e, c, rfl, h5, ?_⟩
    rw [h6, h8]
    simp

theorem start_left {s l : Nat} {sf : Flags} {mem : Mem} {pre : Option (Nat × Except Nat Sb)} (hp : PreOk s l sf pre) {b : Bufs} {m : Mem} (h : start s l sf mem pre = .ok (b, m)) :
    left b ≤ 2 ∧ (pre ≠ none → left b ≤ 1) := by
  cases pre with
  | none =>
    injection h with h
    injection h with h1 h2
    subst h1
    exact ⟨by simp [left, init], by simp⟩
  | some p =>
    obtain ⟨a, r⟩ := p
    obtain ⟨hsf, hp⟩ := hp
    obtain ⟨h1, h2, h3⟩ := hp a r rfl
    cases r with
    | ok sb =>
      by_cases hl : sb.type = .lnk <;> rcases hsf with rfl | rfl
      · simp [start, ioqStat, cache, NOFOLLOW, isLink, write_self, hl, Out.bind, init, fill] at h
        obtain ⟨rfl, rfl⟩ := h
        exact ⟨by simp [left], by simp [left]⟩
      · simp [start, ioqStat, cache, TRYFOLLOW, isLink, write_self, hl, Out.bind, init, fill, ENOENT] at h
        obtain ⟨rfl, rfl⟩ := h
        exact ⟨by simp [left], by simp [left]⟩
      · simp [start, ioqStat, cache, NOFOLLOW, isLink, write_self, hl, Out.bind, init, fill] at h
        obtain ⟨rfl, rfl⟩ := h
        exact ⟨by simp [left], by simp [left]⟩
      · simp [start, ioqStat, cache, TRYFOLLOW, isLink, write_self, hl, Out.bind, init, fill] at h
        obtain ⟨rfl, rfl⟩ := h
        exact ⟨by simp [left], by simp [left]⟩
    | error e =>
      have hn := h3 e rfl
      rcases hsf with rfl | rfl
      · simp [start, ioqStat, cache, NOFOLLOW, hn, Out.bind, init, fill] at h
        obtain ⟨rfl, rfl⟩ := h
        have : left ⟨none, none, (e : Int), (e : Int)⟩ = 0 := by
          unfold left
          rw [if_neg (by simp)]
        rw [this]
        exact ⟨by omega, fun _ => by omega⟩
      · simp [start, ioqStat, cache, TRYFOLLOW, hn, Out.bind, init, fill] at h
        obtain ⟨rfl, rfl⟩ := h
        have : left ⟨none, some l, (e : Int), -1⟩ = 1 := by
          unfold left
          rw [if_neg (by simp), if_pos (by simp)]
        rw [this]
        exact ⟨by omega, fun _ => by omega⟩

end Verif.Stat
