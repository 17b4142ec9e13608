import Verif.Lemmas.Tests
/-! # Tests are parsed and evaluated as documented -/
namespace Verif.Tests
open Verif.Num
open Verif.Printf (Field)
open Verif.Time (Timespec)
open Verif.Stat (FType)
open Verif.Directive (Sb)
open Verif.Perm (ModeCmp Flag Flags Mode)
open Verif.Glob (Locale Matches Dangling)
open Verif.Fnmatch (Libc Pattern parseFnmatch evalFnmatch)
open Verif.Cmdline (A)
open Verif.Path (Buf LastName NoName rootBuf childBuf)

theorem nul {s : Setting} {name : Bytes} {fn : ParseFn} {t : Test} {rest : List Bytes} (h : fnFor name = some fn) (hc : callFn s fn (name :: rest) = .ok (t, 1)) :
    parseTest s ([name] ++ rest) = .ok (t, [name].length) := (parseTest_eq h rest).trans hc

theorem un {s : Setting} {name a : Bytes} {fn : ParseFn} {x : Out Test} {t : Test} {rest : List Bytes} (h : fnFor name = some fn)
    (hc : callFn s fn (name :: a :: rest) = x.bind fun t => .ok (t, 2)) (hx : x = .ok t) : parseTest s ([name, a] ++ rest) = .ok (t, [name, a].length) := by
  subst hx
  exact (parseTest_eq h (a :: rest)).trans hc

theorem sup {can : Bool} {r : Out (Test × Nat)} (h : can = true) : supported can r = r := if_pos h

/-- A test is parsed, and answers the question it is documented to ask. -/
def Works (s : Setting) (w : World) (l : Locale) (a : List Bytes) (rest : List Bytes) (q : Question) : Prop :=
  ∃ t, parseTest s (a ++ rest) = .ok (t, a.length) ∧ (ArgsSane s w l (a ++ rest) → ∀ f : File, f.Sane w → Answers w f (q f) (evalTest w f t))

section
variable {s : Setting} {w : World} {l : Locale} {rest : List Bytes}

theorem works_icmp {name a : Bytes} {fn : ParseFn} {cmp : Cmp} {n : Int} {k : Cmp → Int → Test} {q : Question} (h : Count a cmp n) (hf : fnFor name = some fn)
    (hc : callFn s fn (name :: a :: rest) = (icmp a k).bind fun t => .ok (t, 2)) (ha : ∀ f : File, f.Sane w → Answers w f (q f) (evalTest w f (k cmp n))) :
    Works s w l [name, a] rest q := ⟨_, un hf hc (icmp_ok h k), fun _ f hs => ha f hs⟩

theorem works_stat {name a : Bytes} {fn : ParseFn} {x : Out Test} {t : Test} {P : Sb → Prop} (hf : fnFor name = some fn) (hc : callFn s fn (name :: a :: rest) = x.bind fun t => .ok (t, 2))
    (hx : x = .ok t) {k : Sb → Out Result} (he : ∀ f, evalTest w f t = ask w f f.stat k) (ha : ∀ (f : File) sb, f.Sane w → f.stat = .ok sb → Answers w f (.ok (P sb)) (k sb)) :
    Works s w l [name, a] rest (stats P) := ⟨_, un hf hc hx, fun _ f hs => by rw [he]; exact ans_map fun sb hsb => ha f sb hs hsb⟩

theorem works_newer (hs : s.Sane) {name a : Bytes} {fn : ParseFn} {x : Out Test} {field : Field} {r : Timespec} (hf : fnFor name = some fn)
    (hc : callFn s fn (name :: a :: rest) = x.bind fun t => .ok (t, 2)) (hx : x = .ok (.newer field r)) (hr : ArgsSane s w l ([name, a] ++ rest) → Recent r) :
    Works s w l [name, a] rest (timed field fun t => 0 < later t r) :=
  ⟨_, un hf hc hx, fun ha _ hfs => ans_timed fun sb hsb hh => ans_newer (hr ha) (hfs.times sb field hsb hh)⟩

theorem works_instant (hs : s.Sane) {name a : Bytes} {fn : ParseFn} {field : Field} {r : Timespec} (h : Instant s a r) (hf : fnFor name = some fn)
    (hc : callFn s fn (name :: a :: rest) = (refTime s field a).bind fun t => .ok (t, 2)) : Works s w l [name, a] rest (timed field fun t => 0 < later t r) := by
  refine works_newer hs hf hc (by unfold refTime; rw [instant_ok h]; rfl) fun ha => ?_
  exact ha.instant a r rfl h

theorem works_file (hs : s.Sane) {name a : Bytes} {fn : ParseFn} {field y : Field} {sb : Sb} {x : Out Test} (h : Refers s a sb) (hy : sb.has y = true) (hf : fnFor name = some fn)
    (hc : callFn s fn (name :: a :: rest) = x.bind fun t => .ok (t, 2)) (hx : statArg s a = .ok sb → x = .ok (.newer field (sb.time y))) :
    Works s w l [name, a] rest (timed field fun t => 0 < later t (sb.time y)) := by
  obtain ⟨fl, hfl⟩ := refers_stat h
  exact works_newer hs hf hc (hx (statArg_iff.2 h)) fun _ => hs.times fl a sb y hfl hy

theorem works_fnm (hl : Glob.Ascii l) (hc : Props.Fnmatches l w.libc) {name g : Bytes} {cf : Bool} {fn : ParseFn} {k : Pattern → Test} {q : Question} (hcf : cf = true → s.casefold = true)
    (hd : ¬ Dangling g) (hf : fnFor name = some fn) (hcall : callFn s fn (name :: g :: rest) = (fnm s g cf k).bind fun t => .ok (t, 2))
    (hi : cf = true → name ∈ [A "-iname", A "-ipath", A "-iwholename", A "-ilname"])
    (ha : ∀ p, (∀ t, evalFnmatch w.libc p t = true ↔ Matches l cf g t) → ∀ f : File, f.Sane w → Answers w f (q f) (evalTest w f (k p))) : Works s w l [name, g] rest q := by
  obtain ⟨p, h1, h2⟩ := fnm_some (s := s) hl hc hcf hd
  exact ⟨k p, un hf hcall (h1 k), fun hargs f hfs => ha p (h2 fun h hw => hargs.pattern name g rfl (hi h) rfl hw) f hfs⟩

theorem works_fnm0 {name g : Bytes} {cf : Bool} {fn : ParseFn} {k : Pattern → Test} {q : Question} (hcf : cf = true → s.casefold = true)
    (hd : Dangling g) (hf : fnFor name = some fn) (hcall : callFn s fn (name :: g :: rest) = (fnm s g cf k).bind fun t => .ok (t, 2))
    (ha : ∀ f : File, f.Sane w → Answers w f (q f) (val false)) : Works s w l [name, g] rest q :=
  ⟨_, un hf hcall (fnm_none hcf hd k), fun _ f hfs => ha f hfs⟩

theorem works_glob (hl : Glob.Ascii l) (hc : Props.Fnmatches l w.libc) {name g : Bytes} {cf : Bool} {fn : ParseFn} {k : Pattern → Test} {x : File → Bytes → Prop} (hcf : cf = true → s.casefold = true)
    (hf : fnFor name = some fn) (hcall : callFn s fn (name :: g :: rest) = (fnm s g cf k).bind fun t => .ok (t, 2))
    (hi : cf = true → name ∈ [A "-iname", A "-ipath", A "-iwholename", A "-ilname"]) (y : File → Bytes)
    (he : ∀ f p, evalTest w f (k p) = val (evalFnmatch w.libc p (y f))) (hx : ∀ f : File, f.Sane w → ∀ t, x f t ↔ y f = t) :
    Works s w l [name, g] rest fun f => .ok (∃ t, x f t ∧ Matches l cf g t) := by
  have hex : ∀ f : File, f.Sane w → ((∃ t, x f t ∧ Matches l cf g t) ↔ Matches l cf g (y f)) := fun f hfs =>
    ⟨fun ⟨t, h1, h2⟩ => ((hx f hfs t).1 h1).symm ▸ h2, fun h => ⟨_, (hx f hfs _).2 rfl, h⟩⟩
  by_cases hd : Dangling g
  · refine works_fnm0 hcf hd hf hcall fun f hfs => ans_val ?_
    rw [hex f hfs]
    exact ⟨fun h => (by cases h), fun h => absurd h (Glob.dangling_nothing hl hd)⟩
  · refine works_fnm hl hc hcf hd hf hcall hi fun p hp f hfs => ?_
    rw [he]
    exact ans_val ((hp _).trans (hex f hfs).symm)

theorem works_path (hl : Glob.Ascii l) (hc : Props.Fnmatches l w.libc) {name g : Bytes} {cf : Bool} (hcf : cf = true → s.casefold = true)
    (hf : fnFor name = some (.path cf)) (hi : cf = true → name ∈ [A "-iname", A "-ipath", A "-iwholename", A "-ilname"]) :
    Works s w l [name, g] rest fun f => .ok (Matches l cf g f.buf.path) := by
  obtain ⟨t, h1, h2⟩ := works_glob (s := s) (rest := rest) (g := g) (k := .path) (x := fun f t => t = f.buf.path) hl hc hcf hf rfl hi (fun f => f.buf.path) (fun _ _ => rfl) (fun _ _ _ => eq_comm)
  refine ⟨t, h1, fun ha f hfs => ?_⟩
  have := h2 ha f hfs
  simpa using this

set_option maxHeartbeats 2000000 in
/-- Everything in the manual. -/
theorem works (hs : s.Sane) (hl : Glob.Ascii l) (hc : Props.Fnmatches l w.libc) {a : List Bytes} {q : Question} (h : Doc s w l a q) : Works s w l a rest q := by
  cases h with
  | never => exact ⟨_, nul (fn := .const false) (by decide +kernel) rfl, fun _ _ _ => ans_val (by simp)⟩
  | always => exact ⟨_, nul (fn := .const true) (by decide +kernel) rfl, fun _ _ _ => ans_val (by simp)⟩
  | executable => exact ⟨_, nul (fn := .access 1) (by decide +kernel) rfl, fun _ _ _ => ans_val Iff.rfl⟩
  | readable => exact ⟨_, nul (fn := .access 4) (by decide +kernel) rfl, fun _ _ _ => ans_val Iff.rfl⟩
  | writable => exact ⟨_, nul (fn := .access 2) (by decide +kernel) rfl, fun _ _ _ => ans_val Iff.rfl⟩
  | acl h => exact ⟨_, nul (fn := .acl) (by decide +kernel) (sup h), fun _ _ _ => ans_asked⟩
  | capable h => exact ⟨_, nul (fn := .capable) (by decide +kernel) (sup h), fun _ _ _ => ans_asked⟩
  | xattr h => exact ⟨_, nul (fn := .xattr) (by decide +kernel) (sup h), fun _ _ _ => ans_asked⟩
  | xattrname n h => exact ⟨_, un (fn := .xattrname) (x := .ok (.xattrname n)) (by decide +kernel) (sup h) rfl, fun _ _ _ => ans_asked⟩
  | context h hd =>
    exact works_fnm hl hc (cf := false) (k := .context) (by simp) hd (fn := .context) (by decide +kernel) (sup h) (by simp) fun p hp f _ => ans_map fun _ _ => ans_val (hp _)
  | context0 h hd => exact works_fnm0 (cf := false) (k := .context) (by simp) hd (fn := .context) (by decide +kernel) (sup h) fun f _ => ans_val (by simp)
  | empty =>
    refine ⟨_, nul (fn := .empty) (by decide +kernel) rfl, fun _ f _ => ?_⟩
    show Answers w f _ (evalEmpty w f)
    unfold evalEmpty
    by_cases h1 : f.type = .reg
    · dsimp only; rw [if_pos h1, if_pos h1]; exact ans_map fun _ _ => ans_val (by simp)
    · dsimp only
      rw [if_neg h1, if_neg h1]
      by_cases h2 : f.type = .dir
      · rw [if_pos h2, if_pos h2]; exact ans_map fun _ _ => ans_val (by simp)
      · rw [if_neg h2, if_neg h2]; exact ans_val (by simp)
  | hidden => exact ⟨_, nul (fn := .hidden) (by decide +kernel) rfl, fun _ f hf => ans_val (hidden_iff hf.walked hf.slash)⟩
  | sparse =>
    refine ⟨_, nul (fn := .sparse) (by decide +kernel) rfl, fun _ f hf => ans_map fun sb hsb => ?_⟩
    obtain ⟨h1, h2⟩ := hf.size sb hsb
    rw [Props.C33_sparse_partial sb.size sb.blocks h1 (by unfold LLONG_MAX; omega)]
    exact ans_val (by simp)
  | @depth a cmp n h =>
    refine works_icmp h (fn := .depthN) (k := .depth) (by decide +kernel) ?_ fun f _ => ans_val (compares_iff _ _ _)
    show (if _ then _ else _) = _
    rw [if_pos (by show some (looksLikeIcmp a) = some true; rw [icmp_looks h])]
    rfl
  | inum h => exact works_icmp h (fn := .inum) (by decide +kernel) rfl fun f hf => ans_map fun sb hsb => ans_val (by rw [toI64_small (hf.ino sb hsb)]; exact compares_iff _ _ _)
  | links h => exact works_icmp h (fn := .links) (by decide +kernel) rfl fun f hf => ans_map fun sb hsb => ans_val (by rw [toI64_small (hf.nlink sb hsb)]; exact compares_iff _ _ _)
  | @userName a name id hn h =>
    have hk : parseOwner s.user a .uid = .ok (.uid .eq id) := by unfold parseOwner; rw [h]
    rcases hn with rfl | rfl <;> exact works_stat (fn := .user) (by decide +kernel) rfl hk (fun _ => rfl) fun f sb _ _ => ans_val (by simp only [exprCmp, decide_eq_true_eq]; omega)
  | @userId a name cmp n hn hno h =>
    have hk : parseOwner s.user a .uid = .ok (.uid cmp n) := by
      unfold parseOwner
      split
      · rename_i id hid; exact absurd hid (hno id)
      · rw [if_pos (icmp_looks h), icmp_ok h]
      · rw [if_pos (icmp_looks h), icmp_ok h]
    rcases hn with rfl | rfl <;> exact works_stat (fn := .user) (by decide +kernel) rfl hk (fun _ => rfl) fun f sb _ _ => ans_val (compares_iff _ _ _)
  | @groupName a name id hn h =>
    have hk : parseOwner s.group a .gid = .ok (.gid .eq id) := by unfold parseOwner; rw [h]
    rcases hn with rfl | rfl <;> exact works_stat (fn := .group) (by decide +kernel) rfl hk (fun _ => rfl) fun f sb _ _ => ans_val (by simp only [exprCmp, decide_eq_true_eq]; omega)
  | @groupId a name cmp n hn hno h =>
    have hk : parseOwner s.group a .gid = .ok (.gid cmp n) := by
      unfold parseOwner
      split
      · rename_i id hid; exact absurd hid (hno id)
      · rw [if_pos (icmp_looks h), icmp_ok h]
      · rw [if_pos (icmp_looks h), icmp_ok h]
    rcases hn with rfl | rfl <;> exact works_stat (fn := .group) (by decide +kernel) rfl hk (fun _ => rfl) fun f sb _ _ => ans_val (compares_iff _ _ _)
  | size h => exact works_stat (fn := .size) (by decide +kernel) rfl (parseSize_ok h) (fun _ => rfl) fun f sb hf hsb => ans_size (hf.size sb hsb).1 (hf.size sb hsb).2
  | @minutes x field a cmp n hx h =>
    have ha : ∀ f : File, f.Sane w → Answers w f (timed field (fun t => ∃ k, Age .minutes s.now t k ∧ Compares cmp n k) f) (evalTest w f (.time cmp n field .minutes s.now)) :=
      fun f hf => ans_timed fun sb hsb hh => ans_age hs.now (hf.times sb field hsb hh)
    cases hx with
    | a => exact works_icmp h (fn := .min .atime) (by decide +kernel) rfl ha
    | B => exact works_icmp h (fn := .min .btime) (by decide +kernel) rfl ha
    | c => exact works_icmp h (fn := .min .ctime) (by decide +kernel) rfl ha
    | m => exact works_icmp h (fn := .min .mtime) (by decide +kernel) rfl ha
  | @days x field a cmp n hx h =>
    have ha : ∀ f : File, f.Sane w → Answers w f (timed field (fun t => ∃ k, Age .days s.now t k ∧ Compares cmp n k) f) (evalTest w f (.time cmp n field .days s.now)) :=
      fun f hf => ans_timed fun sb hsb hh => ans_age hs.now (hf.times sb field hsb hh)
    have hp := parseTime_days (s := s) (field := field) h
    cases hx with
    | a => exact ⟨_, un (fn := .time .atime) (by decide +kernel) rfl hp, fun _ => ha⟩
    | B => exact ⟨_, un (fn := .time .btime) (by decide +kernel) rfl hp, fun _ => ha⟩
    | c => exact ⟨_, un (fn := .time .ctime) (by decide +kernel) rfl hp, fun _ => ha⟩
    | m => exact ⟨_, un (fn := .time .mtime) (by decide +kernel) rfl hp, fun _ => ha⟩
  | @duration x field a body cmp n hx h1 h2 =>
    obtain ⟨m, hm, hp⟩ := parseTime_duration (s := s) (field := field) h1 h2
    have ha : ∀ name, ArgsSane s w l ([name, a] ++ rest) → ∀ f : File, f.Sane w →
        Answers w f (timed field (fun t => ∃ k, Age .seconds s.now t k ∧ Compares cmp n k) f) (evalTest w f (.time cmp m field .seconds s.now)) := by
      intro name hargs f hf
      rw [hm (hargs.duration a cmp body n rfl h1 h2)]
      exact ans_timed fun sb hsb hh => ans_age hs.now (hf.times sb field hsb hh)
    cases hx with
    | a => exact ⟨_, un (fn := .time .atime) (by decide +kernel) rfl hp, ha _⟩
    | B => exact ⟨_, un (fn := .time .btime) (by decide +kernel) rfl hp, ha _⟩
    | c => exact ⟨_, un (fn := .time .ctime) (by decide +kernel) rfl hp, ha _⟩
    | m => exact ⟨_, un (fn := .time .mtime) (by decide +kernel) rfl hp, ha _⟩
  | used h => exact works_icmp h (fn := .used) (by decide +kernel) rfl fun f hf => ans_bind fun sb hsb => ans_used (hf.times sb .atime hsb) (hf.times sb .ctime hsb)
  | @newer a sb h hm =>
    exact works_file hs h hm (fn := .newer .mtime) (by decide +kernel) rfl fun h => by show parseNewer s .mtime a = _; unfold parseNewer; rw [h]; exact if_pos hm
  | @xnewer x field a sb hx h hm =>
    have hk : statArg s a = .ok sb → parseNewer s field a = .ok (.newer field (sb.time .mtime)) := fun h => by unfold parseNewer; rw [h]; exact if_pos hm
    cases hx with
    | a => exact works_file hs h hm (fn := .newer .atime) (by decide +kernel) rfl hk
    | B => exact works_file hs h hm (fn := .newer .btime) (by decide +kernel) rfl hk
    | c => exact works_file hs h hm (fn := .newer .ctime) (by decide +kernel) rfl hk
    | m => exact works_file hs h hm (fn := .newer .mtime) (by decide +kernel) rfl hk
  | @newerXY x y field field' a sb hx hy h hm =>
    have hk : statArg s a = .ok sb → refFile s field field' a = .ok (.newer field (sb.time field')) := fun h => by unfold refFile; rw [h]; exact if_pos hm
    have hf : fnFor (A "-newer" ++ [x, y]) = some .newerxy := by cases hx <;> cases hy <;> decide +kernel
    refine works_file hs h hm hf (x := refFile s field field' a) ?_ hk
    cases hx <;> cases hy <;> rfl
  | @newerXt x field a i hx h =>
    have hf : fnFor (A "-newer" ++ [x, 116]) = some .newerxy := by cases hx <;> decide +kernel
    refine works_instant hs h hf ?_
    cases hx <;> rfl
  | since h => exact works_instant hs h (fn := .since .mtime) (by decide +kernel) rfl
  | @xsince x field a i hx h =>
    cases hx with
    | a => exact works_instant hs h (fn := .since .atime) (by decide +kernel) rfl
    | B => exact works_instant hs h (fn := .since .btime) (by decide +kernel) rfl
    | c => exact works_instant hs h (fn := .since .ctime) (by decide +kernel) rfl
    | m => exact works_instant hs h (fn := .since .mtime) (by decide +kernel) rfl
  | nouser =>
    refine ⟨_, nul (fn := .nouser) (by decide +kernel) rfl, fun _ f hf => ans_bind fun sb hsb => ?_⟩
    obtain ⟨b, hb⟩ := hf.user sb hsb
    rw [hb]
    exact ans_val (by simp)
  | nogroup =>
    refine ⟨_, nul (fn := .nogroup) (by decide +kernel) rfl, fun _ f hf => ans_bind fun sb hsb => ?_⟩
    obtain ⟨b, hb⟩ := hf.group sb hsb
    rw [hb]
    exact ans_val (by simp)
  | name g => exact works_glob (k := .name) hl hc (by simp) (fn := .name false) (by decide +kernel) rfl (by simp) (fun f => Path.nameFor f.buf) (fun _ _ => rfl) fun f hf t => named_iff hf.walked t
  | iname g h =>
    exact works_glob (k := .name) hl hc (fun _ => h) (fn := .name true) (by decide +kernel) rfl (by simp) (fun f => Path.nameFor f.buf) (fun _ _ => rfl) fun f hf t => named_iff hf.walked t
  | path g hn => rcases hn with rfl | rfl <;> exact works_path hl hc (by simp) (by decide +kernel) (by simp)
  | ipath g hn h => rcases hn with rfl | rfl <;> exact works_path hl hc (fun _ => h) (by decide +kernel) (by simp)
  | lname hd =>
    refine works_fnm hl hc (cf := false) (k := .lname) (by simp) hd (fn := .lname false) (by decide +kernel) rfl (by simp) fun p hp f _ => ?_
    show Answers w f _ (evalLname w f p)
    unfold evalLname
    by_cases ht : f.type = .lnk
    · rw [if_pos ht, if_neg (by simp [ht])]; exact ans_map fun _ _ => ans_val (hp _)
    · rw [if_neg ht, if_pos ht]; exact ans_val (by simp)
  | ilname h hd =>
    refine works_fnm hl hc (cf := true) (k := .lname) (fun _ => h) hd (fn := .lname true) (by decide +kernel) rfl (by simp) fun p hp f _ => ?_
    show Answers w f _ (evalLname w f p)
    unfold evalLname
    by_cases ht : f.type = .lnk
    · rw [if_pos ht, if_neg (by simp [ht])]; exact ans_map fun _ _ => ans_val (hp _)
    · rw [if_neg ht, if_pos ht]; exact ans_val (by simp)
  | lname0 hd => exact works_fnm0 (cf := false) (k := .lname) (by simp) hd (fn := .lname false) (by decide +kernel) rfl fun f _ => ans_val (by simp)
  | ilname0 h hd => exact works_fnm0 (cf := true) (k := .lname) (fun _ => h) hd (fn := .lname true) (by decide +kernel) rfl fun f _ => ans_val (by simp)
  | @regex r m h =>
    refine ⟨.regex m, un (fn := .regex false) (by decide +kernel) rfl (by show parseRegex s false r = _; unfold parseRegex; rw [h]), fun _ f _ => ?_⟩
    show Answers w f (asked (m f.buf.path)) (evalRegex f m)
    unfold evalRegex
    cases hm : m f.buf.path with
    | ok b => exact ans_val Iff.rfl
    | error e => exact ans_error (hs.regex _ _ _ _ _ h hm).1 (hs.regex _ _ _ _ _ h hm).2 (by simp) (by simp)
  | @iregex r m h =>
    refine ⟨.regex m, un (fn := .regex true) (by decide +kernel) rfl (by show parseRegex s true r = _; unfold parseRegex; rw [h]), fun _ f _ => ?_⟩
    show Answers w f (asked (m f.buf.path)) (evalRegex f m)
    unfold evalRegex
    cases hm : m f.buf.path with
    | ok b => exact ans_val Iff.rfl
    | error e => exact ans_error (hs.regex _ _ _ _ _ h hm).1 (hs.regex _ _ _ _ _ h hm).2 (by simp) (by simp)
  | @perm a t cmp want h1 h2 =>
    obtain ⟨file, dir, hp⟩ := modeArg_accepted h2
    have hk : parsePerm s a = .ok (.perm cmp file dir) := by
      unfold parsePerm
      rw [(Props.C36_prefix s.umask a cmp file dir).2 ⟨t, comparison_iff.2 h1, hp⟩]
      rfl
    refine ⟨_, un (fn := .perm) (by decide +kernel) rfl hk, fun hargs f _ => ans_map fun sb _ => ans_val ?_⟩
    refine evalPerm_iff ?_ sb.mode
    exact modeArg_means h2 (fun c cs e => hargs.mode a cmp c cs rfl (e ▸ h1)) hp _
  | @flags a t cmp set clear h1 h2 =>
    have hk : parseFlags s a = .ok (.flags cmp set clear) := by
      unfold parseFlags
      rw [flagsPrefix_iff.2 h1]
      dsimp only
      rw [h2]
    refine ⟨_, un (fn := .flags) (by decide +kernel) rfl hk, fun _ f _ => ans_bind fun sb _ => ?_⟩
    cases f.attrs with
    | none => exact ans_error (by decide) (by decide) (by simp) (by simp [Directive.ENOTSUP])
    | some flags => exact ans_val (flagsMatch_iff _ _ _ _)
  | fstype t h =>
    exact ⟨_, un (fn := .fstype) (x := if s.mtab then .ok (.fstype t) else .err "mtab") (by decide +kernel) rfl (if_pos h), fun _ f _ => ans_bind fun sb _ => ans_map fun _ _ => ans_val (by simp)⟩
  | @samefile a sb h =>
    have hk : parseSamefile s a = .ok (.samefile sb.dev sb.ino) := by unfold parseSamefile; rw [statArg_iff.2 h]
    exact works_stat (fn := .samefile) (by decide +kernel) rfl hk (fun _ => rfl) fun f sb _ _ => ans_val (by simp)
  | @type a ts h =>
    obtain ⟨mask, hm, _⟩ := typeLoop_ok h 0
    have hk : parseType false a = .ok (.type mask) := by unfold parseType; rw [hm]; rfl
    exact ⟨_, un (fn := .type false) (by decide +kernel) rfl hk, fun _ f hf => ans_mask h hm hf.type.1⟩
  | @xtype a ts h =>
    obtain ⟨mask, hm, _⟩ := typeLoop_ok h 0
    have hk : parseType true a = .ok (.xtype mask) := by unfold parseType; rw [hm]; rfl
    refine ⟨_, un (fn := .type true) (by decide +kernel) rfl hk, fun _ f hf => ?_⟩
    show Answers w f (match f.other with | .ok t => .ok (some t ∈ ts) | .error e => if f.follows = false ∧ e = 40 then .ok (some .lnk ∈ ts) else .error e) (evalXtype w f mask)
    unfold evalXtype
    cases ho : f.other with
    | ok t =>
      have ht := hf.type.2 t ho
      have : Answers w f (.ok (some t ∈ ts)) (inMask mask t) := ans_mask h hm ht
      cases t <;> first | exact absurd rfl ht | exact this
    | error e =>
      dsimp only
      by_cases hc : f.follows = false ∧ e = 40
      · rw [if_pos hc, if_pos (by rw [hc.1, hc.2]; rfl)]
        exact ans_mask h hm (by simp)
      · rw [if_neg hc, if_neg (by simp only [Bool.and_eq_true, Bool.not_eq_true', decide_eq_true_eq]; exact hc)]
        exact ans_report w f e

end
end Verif.Tests
