import Verif.Spec.Daystart
import Verif.Props.Num
import Verif.Props.Tests
/-!
# C90 — `-daystart`
-/
namespace Verif.Props
open Verif.Daystart Verif.Spec.Daystart Verif.Spec.Time
open Verif.Time (Timespec)
open Verif.Tests (Setting Test parseTest)

theorem xmktime_ok {c : Clock} {tm : LocalTm} {t : Int} (h1 : (c.mktime tm).2 = t) (h2 : c.localtime t = some (c.mktime tm).1) : xmktime c tm = .ok t := by
  unfold xmktime
  by_cases h : (c.mktime tm).2 = -1
  · rw [if_pos h]
    have : t = -1 := by omega
    subst this
    rw [h2]
    dsimp only
    rw [if_neg (by simp), h1]
  · rw [if_neg h, h1]

/-- Where the time after `-daystart` is, with the offset that is in effect now. -/
theorem daystart_shift {c : Clock} {z : Zone} (hK : Keeps c z) (now : Timespec) (h1 : 0 ≤ now.nsec) (h2 : now.nsec < 1000000000) (h3 : -2 ^ 54 < now.sec) (h4 : now.sec < 2 ^ 54) :
    ∃ e, parseDaystart c now = .ok ⟨e, 0⟩ ∧ inNanos now ≤ e * 1000000000 ∧ e * 1000000000 < inNanos now + 86400 * 1000000000 ∧ (e + z.offset now.sec) % 86400 = 0 := by
  obtain ⟨tm, k1, k2, k3, k4, k5, k6⟩ := hK.localtime now.sec (by omega) (by omega)
  unfold parseDaystart
  rw [k1]
  dsimp only
  unfold fields epochSeconds Zone.clock at k2
  have hoff : (z.isSummer now.sec = true ∧ z.offset now.sec = z.summer ∧ tm.isdst = 1) ∨ (z.isSummer now.sec = false ∧ z.offset now.sec = z.winter ∧ tm.isdst = 0) := by
    unfold Zone.offset
    cases h : z.isSummer now.sec <;> simp [h] at k3 ⊢ <;> exact k3
  obtain ⟨b1, b2, b3, b4⟩ := hK.bounds
  -- the fields that `mktime()` gets
  have hex : ∃ e, fields { nextDay tm now.nsec with hour := 0, min := 0, sec := 0 } = e + z.offset now.sec ∧ inNanos now ≤ e * 1000000000 ∧
      e * 1000000000 < inNanos now + 86400 * 1000000000 ∧ (e + z.offset now.sec) % 86400 = 0 := by
    unfold nextDay fields epochSeconds inNanos
    by_cases hz : tm.hour ≠ 0 ∨ tm.min ≠ 0 ∨ tm.sec ≠ 0 ∨ now.nsec ≠ 0
    · rw [if_pos hz]
      dsimp only
      generalize daysToMonth (12 * (tm.year + 1900 - 1970) + tm.mon) = d at *
      refine ⟨86400 * (d + (tm.mday + 1 - 1)) + 3600 * 0 + 60 * 0 + 0 - z.offset now.sec, by omega, by omega, by omega, by omega⟩
    · rw [if_neg hz]
      dsimp only
      generalize daysToMonth (12 * (tm.year + 1900 - 1970) + tm.mon) = d at *
      refine ⟨86400 * (d + (tm.mday - 1)) + 3600 * 0 + 60 * 0 + 0 - z.offset now.sec, by omega, by omega, by omega, by omega⟩
  obtain ⟨e, e1, e2, e3, e4⟩ := hex
  refine ⟨e, ?_, e2, e3, e4⟩
  have hd : ({ nextDay tm now.nsec with hour := 0, min := 0, sec := 0 } : LocalTm).isdst = tm.isdst := by
    unfold nextDay; split <;> rfl
  unfold inNanos at e2 e3
  obtain ⟨m1, m2⟩ := hK.mktime { nextDay tm now.nsec with hour := 0, min := 0, sec := 0 } e (by omega) (by omega) (by
    rcases hoff with ⟨_, o2, o3⟩ | ⟨_, o2, o3⟩
    · exact .inr ⟨hd.trans o3, by rw [e1, o2]⟩
    · exact .inl ⟨hd.trans o3, by rw [e1, o2]⟩)
  rw [xmktime_ok m1 m2]
  rfl

/-- **C90.** After `-daystart`, ages are measured at the end of today: if clocks are not changed before, then this is the first midnight from now on. -/
theorem C90_reference {c : Clock} {z : Zone} (hK : Keeps c z) (now : Timespec) (h1 : 0 ≤ now.nsec) (h2 : now.nsec < 1000000000) (h3 : -2 ^ 54 < now.sec) (h4 : now.sec < 2 ^ 54) :
    ∃ e, parseDaystart c now = .ok ⟨e, 0⟩ ∧ inNanos now ≤ e * 1000000000 ∧ e * 1000000000 < inNanos now + 86400 * 1000000000 ∧
      ((∀ t, now.sec ≤ t → t ≤ e → z.isSummer t = z.isSummer now.sec) → z.Midnight e ∧ ∀ t, inNanos now ≤ t * 1000000000 → t < e → ¬ z.Midnight t) := by
  obtain ⟨e, e1, e2, e3, e4⟩ := daystart_shift hK now h1 h2 h3 h4
  refine ⟨e, e1, e2, e3, fun hs => ?_⟩
  unfold inNanos at e2 e3
  have ho : ∀ t, now.sec ≤ t → t ≤ e → z.offset t = z.offset now.sec := fun t a b => by unfold Zone.offset; rw [hs t a b]
  refine ⟨?_, fun t a b hm => ?_⟩
  · unfold Zone.Midnight Zone.clock
    rw [ho e (by omega) (Int.le_refl _)]
    exact e4
  · unfold inNanos at a
    unfold Zone.Midnight Zone.clock at hm
    rw [ho t (by omega) (by omega)] at hm
    omega

/-- **C90 (days).** With `-daystart`, `-mtime n` and the like count days, from midnight to midnight: 0 is today, 1 is yesterday, and so on. Here a midnight belongs to the day that it ends, and the clocks
have not been changed between the two times. -/
theorem C90_days_partial {c : Clock} {z : Zone} (hK : Keeps c z) (now time : Timespec) (h1 : 0 ≤ now.nsec) (h2 : now.nsec < 1000000000) (h3 : -2 ^ 54 < now.sec) (h4 : now.sec < 2 ^ 54)
    (t1 : 0 ≤ time.nsec) (t2 : time.nsec < 1000000000) (t3 : -2 ^ 54 < time.sec) (hle : z.day time ≤ z.day now) (hs : z.isSummer time.sec = z.isSummer now.sec) (num : Int) :
    ∃ e, parseDaystart c now = .ok e ∧
      (Num.evalTime .eq num .days e time = .ok (decide (z.day now - z.day time = num))) ∧
      (Num.evalTime .lt num .days e time = .ok (decide (z.day now - z.day time < num))) ∧
      (Num.evalTime .gt num .days e time = .ok (decide (z.day now - z.day time > num))) := by
  obtain ⟨e, e1, e2, e3, e4⟩ := daystart_shift hK now h1 h2 h3 h4
  refine ⟨_, e1, ?_⟩
  have ho : z.offset time.sec = z.offset now.sec := by unfold Zone.offset; rw [hs]
  have d1 : z.day now = (e + z.offset now.sec) / 86400 := by unfold Zone.day; omega
  have d2 : z.day time = -(-(inNanos time + z.offset now.sec * 1000000000) / (86400 * 1000000000)) := by unfold Zone.day; rw [ho]
  rw [d1, d2] at hle
  unfold inNanos at e2 e3 hle
  have hl : 0 ≤ later ⟨e, 0⟩ time := by unfold later; dsimp only; omega
  obtain ⟨n, ⟨n1, n2⟩, n3⟩ := C34_age ⟨e, 0⟩ time .days ⟨by dsimp only; omega, by dsimp only; omega, by dsimp only; omega, by dsimp only; omega⟩ ⟨t1, t2, by omega, by omega⟩ hl
  have hn : z.day now - z.day time = n := by
    rw [d1, d2]
    unfold inNanos
    unfold later at n1 n2
    simp only [Num.TimeUnit.nanos] at n1 n2
    omega
  rw [n3, n3, n3, hn]
  exact ⟨rfl, rfl, rfl⟩

/-- **C90 (twice).** A second `-daystart` changes nothing, unless clocks are changed before the end of today. -/
theorem C90_twice_partial {c : Clock} {z : Zone} (hK : Keeps c z) (now e : Timespec) (h1 : 0 ≤ now.nsec) (h2 : now.nsec < 1000000000) (h3 : -2 ^ 54 < now.sec) (h4 : now.sec < 2 ^ 54 - 86400)
    (he : parseDaystart c now = .ok e) (hs : z.isSummer e.sec = z.isSummer now.sec) : parseDaystart c e = .ok e := by
  obtain ⟨e', e1, e2, e3, e4⟩ := daystart_shift hK now h1 h2 h3 (by omega)
  rw [e1] at he
  cases he
  unfold inNanos at e2 e3
  obtain ⟨e'', f1, f2, f3, f4⟩ := daystart_shift hK ⟨e', 0⟩ (by simp) (by simp) (by dsimp only; omega) (by dsimp only; omega)
  have ho : z.offset e' = z.offset now.sec := by unfold Zone.offset; dsimp only at hs; rw [hs]
  unfold inNanos at f2 f3
  dsimp only at f2 f3 f4
  rw [ho] at f4
  rw [f1]
  have : e'' = e' := by omega
  rw [this]

/-! ## What it applies to -/

theorem outBindId {α β} (x : Out α) (f : α → Out β) (g : β → β) (hg : ∀ a b, f a = .ok b → g b = b) : (x.bind f).bind (fun b => .ok (g b)) = x.bind f := by
  cases x with
  | ok a =>
    show (f a).bind _ = f a
    cases h : f a with
    | ok b => show Out.ok (g b) = .ok b; rw [hg a b h]
    | err e => rfl
    | ub => rfl
  | err e => rfl
  | ub => rfl

theorem unary_measured (now : Timespec) (args : List Bytes) (k k' : Bytes → Out Test) (h : ∀ v, k' v = (k v).bind fun t => .ok (measuredAt now t)) :
    Tests.unary args k' = (Tests.unary args k).bind fun r => .ok (measuredAt now r.1, r.2) := by
  unfold Tests.unary
  match args with
  | [] => rfl
  | [_] => rfl
  | _ :: v :: _ =>
    show (k' v).bind _ = ((k v).bind _).bind _
    rw [h]
    cases k v <;> rfl

/-- What is not an age stays as it is. -/
def Steady (x : Out Test) : Prop := ∀ now, x = x.bind fun t => .ok (measuredAt now t)

theorem steady_ok {t : Test} (h : ∀ now, measuredAt now t = t) : Steady (.ok t) := fun now => by show Out.ok t = .ok (measuredAt now t); rw [h]
theorem steady_err (e : String) : Steady (.err e) := fun _ => rfl
theorem steady_ub : Steady .ub := fun _ => rfl
theorem steady_bind {α} (x : Out α) (f : α → Out Test) (h : ∀ a, Steady (f a)) : Steady (x.bind f) := fun now => by
  cases x with
  | ok a => exact h a now
  | err e => rfl
  | ub => rfl

theorem nullary_steady (now : Timespec) {t : Test} (h : measuredAt now t = t) : Tests.nullary t = (Tests.nullary t).bind fun r => .ok (measuredAt now r.1, r.2) := by
  unfold Tests.nullary
  show _ = Out.ok (measuredAt now t, 1)
  rw [h]

theorem supported_measured (now : Timespec) (can : Bool) {r r' : Out (Test × Nat)} (h : r' = r.bind fun r => .ok (measuredAt now r.1, r.2)) :
    Tests.supported can r' = (Tests.supported can r).bind fun r => .ok (measuredAt now r.1, r.2) := by
  unfold Tests.supported
  cases can
  · rfl
  · exact h

theorem icmp_steady (v : Bytes) (k : Num.Cmp → Int → Test) (h : ∀ c n now, measuredAt now (k c n) = k c n) : Steady (Tests.icmp v k) := by
  unfold Tests.icmp
  split
  · exact steady_ok (h _ _)
  · exact steady_err _

theorem fnm_steady (s : Setting) (v : Bytes) (cf : Bool) (k : Fnmatch.Pattern → Test) (h : ∀ p now, measuredAt now (k p) = k p) : Steady (Tests.fnm s v cf k) := by
  unfold Tests.fnm
  refine steady_bind _ _ fun p => ?_
  cases p with
  | none => exact steady_ok fun _ => rfl
  | some p => exact steady_ok (h p)

theorem owner_steady (get : Bytes → Except Nat (Option Nat)) (v : Bytes) (k : Num.Cmp → Int → Test) (h : ∀ c n now, measuredAt now (k c n) = k c n) : Steady (Tests.parseOwner get v k) := by
  unfold Tests.parseOwner
  split
  all_goals first
    | exact steady_err _
    | exact steady_ok (h _ _)
    | (split
       · exact icmp_steady _ _ h
       · exact steady_err _)

theorem callFn_measured (s : Setting) (now : Timespec) (fn : Tests.ParseFn) (args : List Bytes) :
    Tests.callFn { s with now := now } fn args = (Tests.callFn s fn args).bind fun r => .ok (measuredAt now r.1, r.2) := by
  cases fn
  case min field =>
    refine unary_measured now args _ _ fun v => ?_
    unfold Tests.icmp
    split <;> rfl
  case time field =>
    refine unary_measured now args _ _ fun v => ?_
    unfold Tests.parseTime
    split <;> rfl
  all_goals unfold Tests.callFn; dsimp only
  all_goals first
    | exact nullary_steady now rfl
    | exact supported_measured now _ (nullary_steady now rfl)
    | exact unary_measured now args _ _ fun v => icmp_steady v _ (fun _ _ _ => rfl) now
    | exact unary_measured now args _ _ fun v => fnm_steady s v _ _ (fun _ _ => rfl) now
    | exact supported_measured now _ (unary_measured now args _ _ fun v => fnm_steady s v _ _ (fun _ _ => rfl) now)
    | exact unary_measured now args _ _ fun v => owner_steady _ v _ (fun _ _ _ => rfl) now
    | skip
  case newer field => exact unary_measured now args _ _ fun v => (by
    show Steady (Tests.parseNewer s field v)
    unfold Tests.parseNewer
    split
    · exact steady_err _
    · split
      · exact steady_ok fun _ => rfl
      · exact steady_ub : Steady _) now
  case depthN =>
    split
    · exact unary_measured now args _ _ fun v => icmp_steady v _ (fun _ _ _ => rfl) now
    · rfl
  case flags => exact unary_measured now args _ _ fun v => (by
    show Steady (Tests.parseFlags s v)
    unfold Tests.parseFlags
    split
    · exact steady_err _
    · exact steady_ok fun _ => rfl : Steady _) now
  case fstype => exact unary_measured now args _ _ fun v => (by
    show Steady (if s.mtab then .ok (.fstype v) else .err "mtab")
    split
    · exact steady_ok fun _ => rfl
    · exact steady_err _ : Steady _) now
  case newerxy =>
    split
    · rfl
    · exact unary_measured now args _ _ fun v => (by
        show Steady (Tests.parseNewerxy s (args.headD []) v)
        unfold Tests.parseNewerxy
        split
        · exact steady_err _
        · split
          · exact steady_bind _ _ fun _ => steady_ok fun _ => rfl
          · split
            · exact steady_err _
            · unfold Tests.refFile
              split
              · exact steady_err _
              · split
                · exact steady_ok fun _ => rfl
                · exact steady_err _ : Steady _) now
  case perm => exact unary_measured now args _ _ fun v => steady_bind _ _ (fun _ => steady_ok fun _ => rfl) now
  case regex icase => exact unary_measured now args _ _ fun v => (by
    show Steady (Tests.parseRegex s icase v)
    unfold Tests.parseRegex
    split
    · exact steady_err _
    · exact steady_ok fun _ => rfl : Steady _) now
  case samefile => exact unary_measured now args _ _ fun v => (by
    show Steady (Tests.parseSamefile s v)
    unfold Tests.parseSamefile
    split
    · exact steady_err _
    · exact steady_ok fun _ => rfl : Steady _) now
  case since field => exact unary_measured now args _ _ fun v => steady_bind _ _ (fun _ => steady_ok fun _ => rfl) now
  case size => exact unary_measured now args _ _ fun v => (by
    show Steady (Tests.parseSize v)
    unfold Tests.parseSize
    split
    · exact steady_err _
    · exact steady_ok fun _ => rfl : Steady _) now
  case type x => exact unary_measured now args _ _ fun v => (by
    show Steady (Tests.parseType x v)
    unfold Tests.parseType
    split
    · exact steady_err _
    · cases x <;> exact steady_ok fun _ => rfl : Steady _) now
  case xattrname => exact supported_measured now _ (unary_measured now args _ _ fun v => steady_ok (fun _ => rfl) now)

/-- **C90 (what it applies to).** `-daystart` changes what the ages in `-amin`, `-mtime` and so on are measured at, and nothing else about a test. -/
theorem C90_ages_only (s : Setting) (now : Timespec) (args : List Bytes) :
    parseTest { s with now := now } args = (parseTest s args).bind fun r => .ok (measuredAt now r.1, r.2) := by
  unfold parseTest
  cases ((Cmdline.tableLookup (args.headD [])).bind fun i => Cmdline.table[i]?).bind Tests.fnOf with
  | none => rfl
  | some fn =>
    dsimp only
    exact callFn_measured s now fn args

theorem items_length {c : Clock} {s : Setting} {args : List (List Bytes)} {ts : List Test} (h : parseItems c s (args.map .test) = .ok ts) : ts.length = args.length := by
  induction args generalizing ts with
  | nil => cases h; rfl
  | cons a args ih =>
    obtain ⟨r, h1, h2⟩ := Out.bind_eq_ok.1 h
    obtain ⟨rest, h3, h4⟩ := Out.bind_eq_ok.1 h2
    obtain ⟨t, k1, k2⟩ := Out.bind_eq_ok.1 h1
    cases k2
    cases h4
    show (_ :: rest).length = _
    rw [List.length_cons, ih h3, List.length_cons]

theorem items_measured {c : Clock} {s : Setting} (now : Timespec) {args : List (List Bytes)} {ts : List Test} (h : parseItems c s (args.map .test) = .ok ts) :
    parseItems c { s with now := now } (args.map .test) = .ok (ts.map (measuredAt now)) := by
  induction args generalizing ts with
  | nil => cases h; rfl
  | cons a args ih =>
    obtain ⟨r, h1, h2⟩ := Out.bind_eq_ok.1 h
    obtain ⟨rest, h3, h4⟩ := Out.bind_eq_ok.1 h2
    obtain ⟨t, k1, k2⟩ := Out.bind_eq_ok.1 h1
    cases k2
    cases h4
    show ((parseTest { s with now := now } a).bind _).bind _ = _
    rw [C90_ages_only, k1]
    show (parseItems c { s with now := now } (args.map .test)).bind _ = _
    rw [ih h3]
    rfl

/-- **C90 (position).** It applies to the tests that come after it on the command line. -/
theorem C90_position (c : Clock) (s : Setting) (before after : List (List Bytes)) (ts : List Test) (e : Timespec)
    (h : parseItems c s (before.map .test ++ after.map .test) = .ok ts) (he : parseDaystart c s.now = .ok e) :
    parseItems c s (before.map .test ++ .daystart :: after.map .test) = .ok (ts.take before.length ++ (ts.drop before.length).map (measuredAt e)) := by
  induction before generalizing ts with
  | nil =>
    show ((parseDaystart c s.now).bind _).bind _ = _
    rw [he]
    show (parseItems c { s with now := e } (after.map .test)).bind _ = _
    rw [items_measured e h]
    rfl
  | cons a before ih =>
    obtain ⟨r, h1, h2⟩ := Out.bind_eq_ok.1 h
    obtain ⟨rest, h3, h4⟩ := Out.bind_eq_ok.1 h2
    obtain ⟨t, k1, k2⟩ := Out.bind_eq_ok.1 h1
    cases k2
    cases h4
    show ((parseTest s a).bind _).bind _ = _
    rw [k1]
    show (parseItems c s (before.map .test ++ .daystart :: after.map .test)).bind _ = _
    rw [ih rest h3]
    rfl

/-! ## Examples -/

/-- A clock for a time zone. Simplified: all days are days in January 1970. -/
def clock90 (z : Zone) : Clock where
  localtime t := some { sec := z.clock t % 60, min := z.clock t / 60 % 60, hour := z.clock t / 3600 % 24, mday := z.clock t / 86400 + 1, mon := 0, year := 70, isdst := if z.isSummer t then 1 else 0 }
  mktime tm :=
    let t := fields tm - if tm.isdst = 1 then z.summer else z.winter
    ({ sec := z.clock t % 60, min := z.clock t / 60 % 60, hour := z.clock t / 3600 % 24, mday := z.clock t / 86400 + 1, mon := 0, year := 70, isdst := if z.isSummer t then 1 else 0 }, t)

theorem keeps90 (z : Zone) (h : -86400 < z.winter ∧ z.winter < 86400 ∧ -86400 < z.summer ∧ z.summer < 86400) : Keeps (clock90 z) z where
  bounds := h
  localtime t _ _ := by
    refine ⟨_, rfl, ?_, rfl, ⟨?_, ?_⟩, ⟨?_, ?_⟩, ⟨?_, ?_⟩⟩
    · unfold fields epochSeconds
      dsimp only
      have : daysToMonth (12 * (70 + 1900 - 1970) + 0) = 0 := by decide +kernel
      rw [this]
      omega
    all_goals dsimp only; omega
  mktime tm t _ _ h := by
    have : fields tm - (if tm.isdst = 1 then z.summer else z.winter) = t := by
      rcases h with ⟨a, b⟩ | ⟨a, b⟩
      · rw [if_neg (by omega)]; omega
      · rw [if_pos a]; omega
    unfold clock90
    dsimp only
    rw [this]
    exact ⟨rfl, rfl⟩

/-- An hour ahead of UTC, two hours in summer, which lasts 200 days and ends at three o'clock in the night. -/
def zone90 : Zone := ⟨3600, 7200, fun t => decide (t < 200 * 86400 + 3600)⟩

example : Keeps (clock90 zone90) zone90 := keeps90 _ (by decide)

/-- At noon of the day number 300 (in winter), the day ends twelve hours later; what was changed in the evening before was changed yesterday. -/
example : parseDaystart (clock90 zone90) ⟨300 * 86400 + 11 * 3600, 5⟩ = .ok ⟨301 * 86400 - 3600, 0⟩ ∧
    zone90.day ⟨300 * 86400 + 11 * 3600, 5⟩ - zone90.day ⟨300 * 86400 - 2 * 3600, 0⟩ = 1 ∧
    Num.evalTime .eq 1 .days ⟨301 * 86400 - 3600, 0⟩ ⟨300 * 86400 - 2 * 3600, 0⟩ = .ok true ∧
    Num.evalTime .eq 0 .days ⟨300 * 86400 + 11 * 3600, 5⟩ ⟨300 * 86400 - 2 * 3600, 0⟩ = .ok true := by decide +kernel

/-- `-mtime 0 -daystart -mtime 0` (at noon, in the zone). -/
example : parseItems (clock90 zone90) { setting80 with now := ⟨300 * 86400 + 11 * 3600, 0⟩ }
    ([[[45, 109, 116, 105, 109, 101], [48]]].map .test ++ .daystart :: [[[45, 109, 116, 105, 109, 101], [48]]].map .test) =
    .ok [.time .eq 0 .mtime .days ⟨300 * 86400 + 11 * 3600, 0⟩, .time .eq 0 .mtime .days ⟨301 * 86400 - 3600, 0⟩] :=
  C90_position (clock90 zone90) { setting80 with now := ⟨300 * 86400 + 11 * 3600, 0⟩ } [[[45, 109, 116, 105, 109, 101], [48]]] [[[45, 109, 116, 105, 109, 101], [48]]]
    [.time .eq 0 .mtime .days ⟨300 * 86400 + 11 * 3600, 0⟩, .time .eq 0 .mtime .days ⟨300 * 86400 + 11 * 3600, 0⟩] ⟨301 * 86400 - 3600, 0⟩ (by rfl) (by decide +kernel)

/-- **C90 is false for midnight itself.** Today it is noon. A file was last changed at the very beginning of today: `-daystart -mtime 0` is false for it. -/
theorem C90_midnight_counterexample :
    ∃ e, parseDaystart (clock90 zone90) ⟨300 * 86400 + 11 * 3600, 0⟩ = .ok e ∧
      zone90.usualDay ⟨300 * 86400 + 11 * 3600, 0⟩ = zone90.usualDay ⟨300 * 86400 - 3600, 0⟩ ∧
      Num.evalTime .eq 0 .days e ⟨300 * 86400 - 3600, 0⟩ = .ok false := ⟨⟨301 * 86400 - 3600, 0⟩, by decide +kernel⟩

/-- **C90 is false on the day on which summer time ends.** It is evening. A file was last changed half an hour after midnight, but this was more than 24 hours before the end of today. -/
theorem C90_long_day_counterexample :
    ∃ e, parseDaystart (clock90 zone90) ⟨200 * 86400 + 20 * 3600, 0⟩ = .ok e ∧
      zone90.usualDay ⟨200 * 86400 + 20 * 3600, 0⟩ = zone90.usualDay ⟨200 * 86400 - 5400, 0⟩ ∧
      Num.evalTime .eq 0 .days e ⟨200 * 86400 - 5400, 0⟩ = .ok false := ⟨⟨201 * 86400 - 3600, 0⟩, by decide +kernel⟩

/-- In the morning of that day, before clocks are changed, the time after `-daystart` is not midnight but 23 o'clock, as if it were still summer then; with a second `-daystart`, it is midnight. -/
theorem C90_twice_counterexample :
    parseDaystart (clock90 zone90) ⟨200 * 86400, 0⟩ = .ok ⟨201 * 86400 - 7200, 0⟩ ∧ zone90.clock (201 * 86400 - 7200) % 86400 = 23 * 3600 ∧
    parseDaystart (clock90 zone90) ⟨201 * 86400 - 7200, 0⟩ = .ok ⟨201 * 86400 - 3600, 0⟩ := by decide +kernel

/-- **C90 is false for the future.** `-daystart -mtime 0` is true for a file with a time that is tomorrow, too. -/
theorem C90_tomorrow_counterexample :
    ∃ e, parseDaystart (clock90 zone90) ⟨300 * 86400 + 11 * 3600, 0⟩ = .ok e ∧
      zone90.usualDay ⟨301 * 86400 + 11 * 3600, 0⟩ = zone90.usualDay ⟨300 * 86400 + 11 * 3600, 0⟩ + 1 ∧
      Num.evalTime .eq 0 .days e ⟨301 * 86400 + 11 * 3600, 0⟩ = .ok true := ⟨⟨301 * 86400 - 3600, 0⟩, by decide +kernel⟩

end Verif.Props
