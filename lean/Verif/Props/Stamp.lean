import Verif.Lemmas.Stamp
import Verif.Props.Directive
/-!
# Times that can be sorted, and times that are numbers (C77, C78)
-/
namespace Verif.Props
open Verif.Directive
open Verif.Printf (Fn Field Env)
open Verif.Num (Digits)

theorem laid_plain {v o : Bytes} (h : Laid [] [] [] v o) : o = v := by
  obtain ⟨cut, spaces, width, hc, hw, _, hl, ho⟩ := h
  have e : cut = v := by
    rcases hc with ⟨_, h⟩ | ⟨ds, n, h, _⟩
    · exact h
    · cases h
  have e' : width = 0 := by
    rcases hw with ⟨_, h⟩ | h
    · exact h
    · exact absurd (Digits_length h) (by decide)
  subst e e'
  rw [Nat.zero_sub] at hl
  rw [ho, if_neg (by simp), List.eq_nil_of_length_eq_zero hl, List.nil_append]

theorem time_shown (env : Env) (w : World) (f : File) (hs : Sane w f) (x : UInt8) (field : Field) (hx : TimeOf x field) (c : UInt8) (hc : c = 43 ∨ c = 64) (ts : Time.Timespec) (tm : Tm)
    (h : HasTime w f field ts tm) : ∃ v, Prints env w f [37, x, c] v ∧ TimeShows w ts tm c v := by
  obtain ⟨sb, h1, h2, rfl, h3⟩ := h
  have hconv : Printf.Conv env [x, c] (.strftime field c) [115] := by
    have hl : Printf.TimeLetter c := by rcases hc with rfl | rfl <;> exact by unfold Printf.TimeLetter; decide
    cases hx
    · exact .A c hl
    · exact .B c hl
    · exact .C c hl
    · exact .T c hl
    · exact .W c hl
  have hp : Printf.parse env [37, x, c] = .ok [.dir (.strftime field c) [37, 115]] := by
    rcases hc with rfl | rfl <;> cases hx <;> rfl
  have key : ∃ v, directive w none f (.strftime field c) [37, 115] = .ok ⟨v, none⟩ ∧ TimeShows w (sb.time field) tm c v := by
    have := C76_shows w f hs env [] [] [] [x, c] (.strftime field c) ⟨by simp, List.nodup_nil⟩ ⟨by simp, by simp⟩ (.inl rfl) hconv
      ⟨fun n h => by rcases h with ⟨_, h⟩ | h; omega; exact absurd (Digits_length h) (by decide), fun ds n h => by cases h⟩ none (.inl rfl)
    rcases this with ⟨v, o, hv, hl, e⟩ | ⟨e, hm, _⟩ | ⟨e, o, h, _⟩
    · refine ⟨o, e, ?_⟩
      rw [laid_plain hl]
      cases hv with
      | strftime _ _ sb' tm' _ a1 a2 a3 a4 =>
        rw [h1] at a1
        cases a1
        rw [h3] at a3
        cases a3
        exact a4
    · cases hm with
      | stat _ _ _ h => rw [h1] at h; cases h
      | time _ fld sb' ht h h' =>
        rw [h1] at h
        cases h
        cases ht
        rw [h2] at h'
        cases h'
      | localtime _ fld sb' _ ht h h' h'' =>
        rw [h1] at h
        cases h
        cases ht
        rw [h3] at h''
        cases h''
    · cases h
  obtain ⟨v, h4, h5⟩ := key
  refine ⟨v, ⟨_, hp, ?_⟩, h5⟩
  unfold bfsPrintf
  rw [printLoop_cons w none f (.dir (.strftime field c) [37, 115]) [] [] 0 0 ⟨v, none⟩ h4]
  rfl

/-- Times printed with `%T+` (or `%A+`, …) sort like what calendar and clock show, from year 0 to year 9999.  They are the same only if these are the same. -/
theorem C77_sorted (env : Env) (w : World) (f f' : File) (hs : Sane w f) (hs' : Sane w f') (x : UInt8) (field : Field) (hx : TimeOf x field) (ts ts' : Time.Timespec) (tm tm' : Tm)
    (h : HasTime w f field ts tm) (h' : HasTime w f' field ts' tm') (hy : 0 ≤ 1900 + tm.year ∧ 1900 + tm.year ≤ 9999) (hy' : 0 ≤ 1900 + tm'.year ∧ 1900 + tm'.year ≤ 9999) :
    ∃ v v', Prints env w f [37, x, 43] v ∧ Prints env w f' [37, x, 43] v' ∧ (Sorts v v' ↔ Earlier tm ts.nsec tm' ts'.nsec) ∧
      (v = v' ↔ shown tm ts.nsec = shown tm' ts'.nsec) := by
  obtain ⟨v, a, b⟩ := time_shown env w f hs x field hx 43 (.inl rfl) ts tm h
  obtain ⟨v', a', b'⟩ := time_shown env w f' hs' x field hx 43 (.inl rfl) ts' tm' h'
  have st : ∀ {ts : Time.Timespec} {tm : Tm} {v : Bytes}, TimeShows w ts tm 43 v → Stamp v tm ts.nsec := by
    intro ts tm v h
    generalize hc : (43 : UInt8) = c at h
    cases h with
    | plus v h => exact h
    | posix c h => subst hc; exact absurd (by decide) h
    | _ => exact absurd hc (by decide)
  exact ⟨v, v', a, a', stamp_sort (st b) (st b') hy hy'⟩

/-- Where local time never goes back (as in UTC), they sort by time. -/
theorem C77_chronological (env : Env) (w : World) (f f' : File) (hs : Sane w f) (hs' : Sane w f') (x : UInt8) (field : Field) (hx : TimeOf x field) (ts ts' : Time.Timespec) (tm tm' : Tm)
    (h : HasTime w f field ts tm) (h' : HasTime w f' field ts' tm') (hy : 0 ≤ 1900 + tm.year ∧ 1900 + tm.year ≤ 9999) (hy' : 0 ≤ 1900 + tm'.year ∧ 1900 + tm'.year ≤ 9999)
    (mono : ∀ t t' a b, w.localtime t = .ok a → w.localtime t' = .ok b → t < t' → Earlier a 0 b 0) :
    ∃ v v', Prints env w f [37, x, 43] v ∧ Prints env w f' [37, x, 43] v' ∧ (Sorts v v' ↔ ts.sec < ts'.sec ∨ ts.sec = ts'.sec ∧ ts.nsec < ts'.nsec) ∧
      (v = v' ↔ ts = ts') := by
  obtain ⟨v, v', p, p', e1, e2⟩ := C77_sorted env w f f' hs hs' x field hx ts ts' tm tm' h h' hy hy'
  refine ⟨v, v', p, p', ?_⟩
  obtain ⟨sb, _, _, _, hl⟩ := h
  obtain ⟨sb', _, _, _, hl'⟩ := h'
  have irr : ∀ a : Int, ¬ a < a := fun a => Int.lt_irrefl a
  -- what is earlier without nanoseconds is earlier with them
  have sp : ∀ (a b : Tm) (n m : Int), shown a n = [a.year, a.mon, a.mday, a.hour, a.min, a.sec] ++ [n] := fun _ _ _ _ => rfl
  have app : ∀ (a b : Tm) (n m : Int), Earlier a n b m ↔ List.Lex (fun a b : Int => a < b) [a.year, a.mon, a.mday, a.hour, a.min, a.sec] [b.year, b.mon, b.mday, b.hour, b.min, b.sec] ∨
      [a.year, a.mon, a.mday, a.hour, a.min, a.sec] = [b.year, b.mon, b.mday, b.hour, b.min, b.sec] ∧ n < m := by
    intro a b n m
    unfold Earlier
    rw [sp a b n m, sp b a m n, lex_append irr [a.year, a.mon, a.mday, a.hour, a.min, a.sec] [b.year, b.mon, b.mday, b.hour, b.min, b.sec] [n] [m] rfl]
    refine or_congr Iff.rfl (and_congr Iff.rfl ⟨fun h => ?_, fun h => .rel h⟩)
    cases h with
    | rel h => exact h
    | cons h => cases h
  have strict : ∀ {t t' : Int} {a b : Tm}, w.localtime t = .ok a → w.localtime t' = .ok b → t < t' → ∀ n m, Earlier a n b m ∧ ¬ Earlier b m a n ∧ shown a n ≠ shown b m := by
    intro t t' a b ha hb hlt n m
    have h0 := (app a b 0 0).1 (mono t t' a b ha hb hlt)
    rcases h0 with h0 | ⟨_, h0⟩
    · have hne : [a.year, a.mon, a.mday, a.hour, a.min, a.sec] ≠ [b.year, b.mon, b.mday, b.hour, b.min, b.sec] := fun e => lex_irrefl irr _ (e ▸ h0)
      refine ⟨(app a b n m).2 (.inl h0), fun h1 => ?_, fun h1 => hne ?_⟩
      · rcases (app b a m n).1 h1 with h1 | ⟨h1, _⟩
        · exact lexInt_asymm h0 h1
        · exact hne h1.symm
      · rw [sp a b n m, sp b a m n] at h1
        exact (List.append_inj h1 rfl).1
    · exact absurd h0 (irr _)
  rcases Int.lt_trichotomy ts.sec ts'.sec with hlt | heq | hgt
  · obtain ⟨a, b, c⟩ := strict hl hl' hlt ts.nsec ts'.nsec
    refine ⟨e1.trans ⟨fun _ => .inl hlt, fun _ => a⟩, e2.trans ⟨fun h => absurd h c, fun h => ?_⟩⟩
    rw [h] at hlt
    exact absurd hlt (irr _)
  · have : tm = tm' := by
      rw [heq, hl'] at hl
      injection hl with hl
      exact hl.symm
    subst this
    constructor
    · rw [e1, app]
      constructor
      · rintro (h | ⟨_, h⟩)
        · exact absurd h (lex_irrefl irr _)
        · exact .inr ⟨heq, h⟩
      · rintro (h | ⟨_, h⟩)
        · exact absurd h (by omega)
        · exact .inr ⟨rfl, h⟩
    · rw [e2, sp tm tm _ ts'.nsec, sp tm tm ts'.nsec ts.nsec]
      constructor
      · intro h
        have h := List.append_cancel_left h
        injection h with h
        cases ts; cases ts'
        simp_all
      · intro h
        rw [h]
  · obtain ⟨a, b, c⟩ := strict hl' hl hgt ts'.nsec ts.nsec
    refine ⟨e1.trans ⟨fun h => absurd h b, fun h => by omega⟩, e2.trans ⟨fun h => absurd h.symm c, fun h => ?_⟩⟩
    rw [h] at hgt
    exact absurd hgt (irr _)

/-- The hypotheses can be met. -/
example : TimeOf 84 .mtime ∧ HasTime w76 f76 .mtime ⟨1794715680, 500000000⟩ ⟨0, 8, 4, 15, 10, 126, 0⟩ ∧ Sane w76 f76 ∧ Prints ⟨true, true⟩ w76 f76 (ascii "%T+") (ascii "2026-11-15+04:08:00.5000000000") :=
  ⟨.T, ⟨sb76, rfl, rfl, rfl, rfl⟩, sane76, _, rfl, by decide +kernel⟩

/-- A clock that only knows the seconds of one minute, and a file modified in the last one. -/
def w77 : World := { w76 with localtime := fun t => if 0 ≤ t ∧ t < 60 then .ok ⟨t, 0, 0, 1, 0, 70, 4⟩ else .error 75 }
def f77 (t : Int) : File := { f76 with stat := .ok { sb76 with time := fun _ => ⟨t, 5⟩ } }

example : (∀ t t' a b, w77.localtime t = .ok a → w77.localtime t' = .ok b → t < t' → Earlier a 0 b 0) ∧ HasTime w77 (f77 7) .mtime ⟨7, 5⟩ ⟨7, 0, 0, 1, 0, 70, 4⟩ ∧
    HasTime w77 (f77 8) .mtime ⟨8, 5⟩ ⟨8, 0, 0, 1, 0, 70, 4⟩ := by
  refine ⟨fun t t' a b ha hb h => ?_, ⟨_, rfl, rfl, rfl, rfl⟩, ⟨_, rfl, rfl, rfl, rfl⟩⟩
  have inv : ∀ {t : Int} {a : Tm}, w77.localtime t = .ok a → a = ⟨t, 0, 0, 1, 0, 70, 4⟩ := by
    intro t a ha
    by_cases c : 0 ≤ t ∧ t < 60
    · have e : w77.localtime t = .ok ⟨t, 0, 0, 1, 0, 70, 4⟩ := if_pos c
      rw [e] at ha
      injection ha with ha
      exact ha.symm
    · have e : w77.localtime t = .error 75 := if_neg c
      rw [e] at ha
      cases ha
  rw [inv ha, inv hb]
  exact .cons (.cons (.cons (.cons (.cons (.rel h)))))

/-- `%T@` prints the time as a number of seconds, for times since 1970 and for whole seconds.  What is missing: times before 1970 with a fraction of a second, see `C78_counterexample`. -/
theorem C78_number_partial (env : Env) (w : World) (f : File) (hs : Sane w f) (x : UInt8) (field : Field) (hx : TimeOf x field) (ts : Time.Timespec) (tm : Tm)
    (h : HasTime w f field ts tm) (hts : 0 ≤ ts.sec ∨ ts.nsec = 0) :
    ∃ v, Prints env w f [37, x, 64] v ∧ ∀ y, Reads v y ↔ y = 10000000000 * ts.sec + 10 * ts.nsec := by
  obtain ⟨v, a, b⟩ := time_shown env w f hs x field hx 64 (.inr rfl) ts tm h
  refine ⟨v, a, ?_⟩
  generalize hc : (64 : UInt8) = c at b
  have key : Reads v (10000000000 * ts.sec + 10 * ts.nsec) := by
    cases b with
    | «at» s fr h1 h2 =>
      obtain ⟨h3, h4, h5⟩ := h2
      rcases h1 with ⟨h0, h1⟩ | ⟨h0, d, rfl, h1⟩
      · have e : 10000000000 * ts.sec + 10 * ts.nsec = 10000000000 * (ts.sec.toNat : Int) + ((10 * ts.nsec).toNat : Int) := by omega
        rw [e]
        exact .pos s fr _ _ h1.1 h4 h5
      · have e : 10000000000 * ts.sec + 10 * ts.nsec = -(10000000000 * ((-ts.sec).toNat : Int) + ((10 * ts.nsec).toNat : Int)) := by omega
        rw [e]
        exact .neg d fr _ _ h1.1 h4 h5
    | posix c h => subst hc; exact absurd (by decide) h
    | _ => exact absurd hc (by decide)
  exact fun y => ⟨fun h => reads_unique h key, fun h => h ▸ key⟩

example : Prints ⟨true, true⟩ w76 f76 (ascii "%T@") (ascii "1794715680.5000000000") := ⟨_, rfl, by decide +kernel⟩

/-- Half a second before 1970 is printed as one and a half. -/
theorem C78_counterexample : ∃ (w : World) (f : File) (tm : Tm), Sane w f ∧ HasTime w f .mtime ⟨-1, 500000000⟩ tm ∧
    ∀ env v, Prints env w f (ascii "%T@") v → v = ascii "-1.5000000000" ∧ ¬ Reads v (10000000000 * -1 + 10 * 500000000) := by
  have hs : Sane w76 { f76 with stat := .ok { sb76 with time := fun _ => ⟨-1, 500000000⟩ } } := by
    refine { sane76 with dev := ?_, size := ?_, time := ?_ }
    · intro sb h; cases h; decide
    · intro sb h; cases h; decide
    · intro sb field h _
      cases h
      show -2 ^ 63 ≤ (-1 : Int) ∧ (-1 : Int) < 2 ^ 63 ∧ 0 ≤ (500000000 : Int) ∧ (500000000 : Int) < 1000000000
      decide
  refine ⟨w76, { f76 with stat := .ok { sb76 with time := fun _ => ⟨-1, 500000000⟩ } }, ⟨0, 8, 4, 15, 10, 126, 0⟩, hs, ⟨_, rfl, rfl, rfl, rfl⟩, ?_⟩
  rintro env v ⟨fmts, h1, h2⟩
  have e : Printf.parse env (ascii "%T@") = .ok [.dir (.strftime .mtime 64) [37, 115]] := rfl
  rw [e] at h1
  cases h1
  have e2 : bfsPrintf w76 none { f76 with stat := .ok { sb76 with time := fun _ => ⟨-1, 500000000⟩ } } [.dir (.strftime .mtime 64) [37, 115]] = .ok (ascii "-1.5000000000", 0, 0) := by
    decide +kernel
  rw [e2] at h2
  cases h2
  refine ⟨rfl, fun h => ?_⟩
  have d1 : Digits 10 (ascii "1") 1 := .one 49 1 rfl (by decide)
  have d2 : Digits 10 (ascii "5000000000") 5000000000 := by
    have z : ∀ {s : Bytes} {n : Nat}, Digits 10 s n → Digits 10 (s ++ [48]) (10 * n + 0) := fun h => .more _ _ 48 0 h rfl (by decide)
    exact z (z (z (z (z (z (z (z (z (.one 53 5 rfl (by decide))))))))))
  have r : Reads (ascii "-1.5000000000") (-(10000000000 * (1 : Nat) + (5000000000 : Nat))) := .neg (ascii "1") (ascii "5000000000") 1 5000000000 d1 d2 rfl
  exact absurd (reads_unique r h) (by decide)

end Verif.Props
