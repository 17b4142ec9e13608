import Verif.Lemmas.Ls
import Verif.Lemmas.Stamp
import Verif.Props.Directive
/-!
# `-ls` (C79)
-/
namespace Verif.Props
open Verif.Directive
open Verif.Ls (Sys Item LsInfo LsName LsTime LsSize LeftCol RightCol OwnerWidth OwnerText Listed Widest UserAmong GroupAmong evalFls lsLine lsRun lsAll lsTail)
open Verif.Printf (Effect)

theorem mode_text (mode : Nat) : Ls.ModeText mode ((Strmode.xstrmode mode).map fun c => UInt8.ofNat c.toNat) := by
  obtain ⟨c, rest, h1, h2, h3⟩ := C53_type mode
  refine ⟨_, c, rest, rfl, h1, C53_length mode, C53_permissions mode, ?_⟩
  by_cases h : Spec.Strmode.KnownType (Spec.Strmode.typeBits mode)
  · rw [if_pos h] at h2 ⊢
    exact h2
  · rw [if_neg h]
    exact h3 h

/-- What `-ls` does for one file, with the widths of the columns before and after it. -/
theorem ls_line (s : Sys) (it : Item) (hs : Ls.Sane s it) (uw gw : Nat) (sb : Sb) (h : it.file.stat = .ok sb) :
    ∃ un gn info, OwnerWidth s s.w.user sb.uid un ∧ OwnerWidth s s.w.group sb.gid gn ∧ LsInfo s it sb (max uw un) (max gw gn) info ∧
      ((∃ name, LsName it.file name ∧ evalFls s it uw gw = .ok (⟨info ++ name ++ ascii "\n", none⟩, max uw un, max gw gn)) ∨
       ∃ e, it.file.type = .lnk ∧ it.file.link = .error e ∧ evalFls s it uw gw = .ok (⟨info ++ it.file.buf.path, some e⟩, max uw un, max gw gn)) := by
  obtain ⟨un, u, hu, eu, lu⟩ := Ls.owner_ok s s.w.user sb.uid uw
  obtain ⟨gn, g, hg, eg, lg⟩ := Ls.owner_ok s s.w.group sb.gid gw
  obtain ⟨t, et, lt⟩ := Ls.time_ok s (sb.time .mtime).sec hs.now hs.strftime
  obtain ⟨h0, h1, h2, h3⟩ := hs.sane.size sb h
  obtain ⟨z, ez, lz⟩ := Ls.size_ok s it sb h0 h1
  have em : Ls.mtime sb = .ok (sb.time .mtime).sec := if_pos (hs.mtime sb h)
  have e : evalFls s it uw gw = .ok (⟨Ls.lsHead s it sb ++ (ascii " " ++ u) ++ (ascii " " ++ g) ++ (ascii " " ++ z) ++ (ascii " " ++ t) ++ (lsTail it).bytes, (lsTail it).error⟩, max uw un, max gw gn) := by
    unfold evalFls
    rw [h]
    show lsLine s it sb uw gw = _
    unfold lsLine
    rw [eu, eg, em, Out.bind_ok, et, Out.bind_ok, ez]
  have key : Ls.lsHead s it sb ++ (ascii " " ++ u) ++ (ascii " " ++ g) ++ (ascii " " ++ z) ++ (ascii " " ++ t) ++ ascii " " =
      Cfmt.uint { width := 9 } sb.ino ++ ascii " " ++ Cfmt.uint { width := 6 } (Ls.lsBlocks s.posix sb) ++ ascii " " ++ (Strmode.xstrmode sb.mode).map (fun c => UInt8.ofNat c.toNat) ++
        ascii (if it.acl then "+" else " ") ++ ascii " " ++ Cfmt.uint { width := 2 } sb.nlink ++ ascii " " ++ u ++ ascii " " ++ g ++ ascii " " ++ z ++ ascii " " ++ t ++ ascii " " := by
    have ea : ascii (if it.acl then "+" else " ") = [if it.acl then 43 else 32] := by cases it.acl <;> rfl
    unfold Ls.lsHead
    rw [ea, show ascii " " = [32] from rfl]
    simp only [List.append_assoc]
  refine ⟨un, gn, _, hu, hg, ⟨_, _, _, _, _, u, g, z, t, Ls.right_col 9 _, Ls.blocks_ok s sb h2 h3, Ls.right_col 6 _, mode_text _, Ls.right_col 2 _, lu, lg, lz, lt, rfl⟩, ?_⟩
  rw [← key, e]
  unfold lsTail
  by_cases hl : it.file.type = .lnk
  · rw [if_pos hl]
    cases hk : it.file.link with
    | error e =>
      right
      refine ⟨e, hl, rfl, ?_⟩
      dsimp only
      rw [show ascii " " = [32] from rfl]
      simp only [List.append_assoc]
    | ok b =>
      left
      refine ⟨_, .link b hl hk, ?_⟩
      dsimp only
      rw [show ascii " " = [32] from rfl, show ascii " -> " = [32, 45, 62, 32] from rfl, show ascii "\n" = [10] from rfl]
      simp only [List.append_assoc]
  · rw [if_neg hl]
    left
    refine ⟨_, .plain hl, ?_⟩
    dsimp only
    rw [show ascii " " = [32] from rfl, show ascii "\n" = [10] from rfl]
    simp only [List.append_assoc]

theorem widest_more {P Q : Nat → Prop} {m n : Nat} (h : Widest P m) (hn : Q n) (hq : ∀ k, P k → Q k) (hq' : ∀ k, Q k → P k ∨ k = n) : Widest Q (max m n) := by
  obtain ⟨h1, h2, h3⟩ := h
  refine ⟨?_, by omega, fun k hk => ?_⟩
  · by_cases c : m ≤ n
    · rw [Nat.max_eq_right c]; exact .inr hn
    · rw [Nat.max_eq_left (by omega)]
      rcases h1 with h1 | h1
      · exact .inl h1
      · exact .inr (hq _ h1)
  · rcases hq' k hk with h | rfl
    · have := h3 k h; omega
    · omega

theorem ownerWidth_unique {s : Sys} {name : Nat → Option Bytes} {id a b : Nat} (h : OwnerWidth s name id a) (h' : OwnerWidth s name id b) : a = b := by
  cases h with
  | name x hx =>
    cases h' with
    | name y hy => rw [hx] at hy; cases hy; rfl
    | number v hv => rw [hx] at hv; cases hv
  | number v hv hd =>
    cases h' with
    | name y hy => rw [hv] at hy; cases hy
    | number v' hv' hd' => rw [dec_unique hd hd']

theorem ls_run (s : Sys) : ∀ (its pre : List Item), (∀ it ∈ its, Ls.Sane s it) → ∀ uw gw, Widest (UserAmong s pre) uw → Widest (GroupAmong s pre) gw →
    ∃ es, lsRun s its uw gw = .ok es ∧ es.length = its.length ∧ ∀ i it e, its[i]? = some it → es[i]? = some e → Listed s (pre ++ its.take (i + 1)) it e
  | [], pre, _, uw, gw, _, _ => ⟨[], rfl, rfl, fun i it e h => by cases h⟩
  | x :: its, pre, hs, uw, gw, hu, hg => by
    have step : ∃ e uw' gw', evalFls s x uw gw = .ok (e, uw', gw') ∧ Listed s (pre ++ [x]) x e ∧ Widest (UserAmong s (pre ++ [x])) uw' ∧ Widest (GroupAmong s (pre ++ [x])) gw' := by
      cases h : x.file.stat with
      | error e =>
        refine ⟨⟨[], some e⟩, uw, gw, by unfold evalFls; rw [h], .missing e h, ?_, ?_⟩
        · have e1 : UserAmong s (pre ++ [x]) = UserAmong s pre := by
            funext n
            refine propext ⟨?_, fun ⟨it, hm, r⟩ => ⟨it, List.mem_append_left _ hm, r⟩⟩
            rintro ⟨it, hm, sb, hsb, r⟩
            rcases List.mem_append.1 hm with hm | hm
            · exact ⟨it, hm, sb, hsb, r⟩
            · rw [List.mem_singleton.1 hm, h] at hsb; cases hsb
          rw [e1]; exact hu
        · have e1 : GroupAmong s (pre ++ [x]) = GroupAmong s pre := by
            funext n
            refine propext ⟨?_, fun ⟨it, hm, r⟩ => ⟨it, List.mem_append_left _ hm, r⟩⟩
            rintro ⟨it, hm, sb, hsb, r⟩
            rcases List.mem_append.1 hm with hm | hm
            · exact ⟨it, hm, sb, hsb, r⟩
            · rw [List.mem_singleton.1 hm, h] at hsb; cases hsb
          rw [e1]; exact hg
      | ok sb =>
        obtain ⟨un, gn, info, h1, h2, h3, h4⟩ := ls_line s x (hs x List.mem_cons_self) uw gw sb h
        have wu : Widest (UserAmong s (pre ++ [x])) (max uw un) := by
          refine widest_more hu ⟨x, by simp, sb, h, h1⟩ (fun k ⟨it, hm, r⟩ => ⟨it, List.mem_append_left _ hm, r⟩) ?_
          rintro k ⟨it, hm, sb', hsb, r⟩
          rcases List.mem_append.1 hm with hm | hm
          · exact .inl ⟨it, hm, sb', hsb, r⟩
          · rw [List.mem_singleton.1 hm, h] at hsb
            cases hsb
            exact .inr (ownerWidth_unique r h1)
        have wg : Widest (GroupAmong s (pre ++ [x])) (max gw gn) := by
          refine widest_more hg ⟨x, by simp, sb, h, h2⟩ (fun k ⟨it, hm, r⟩ => ⟨it, List.mem_append_left _ hm, r⟩) ?_
          rintro k ⟨it, hm, sb', hsb, r⟩
          rcases List.mem_append.1 hm with hm | hm
          · exact .inl ⟨it, hm, sb', hsb, r⟩
          · rw [List.mem_singleton.1 hm, h] at hsb
            cases hsb
            exact .inr (ownerWidth_unique r h2)
        rcases h4 with ⟨name, h5, h6⟩ | ⟨e, h5, h6, h7⟩
        · exact ⟨_, _, _, h6, .line sb _ _ info name h wu wg h3 h5, wu, wg⟩
        · exact ⟨_, _, _, h7, .broken sb _ _ info e h wu wg h3 h5 h6, wu, wg⟩
    obtain ⟨e, uw', gw', h1, h2, h3, h4⟩ := step
    obtain ⟨es, h5, h6, h7⟩ := ls_run s its (pre ++ [x]) (fun it h => hs it (List.mem_cons_of_mem _ h)) uw' gw' h3 h4
    refine ⟨e :: es, ?_, by simp [h6], ?_⟩
    · rw [lsRun, h1]
      show (lsRun s its uw' gw').bind _ = _
      rw [h5]
      rfl
    · intro i it e' hi he
      cases i with
      | zero =>
        cases hi
        cases he
        simpa using h2
      | succ i =>
        have := h7 i it e' hi he
        simpa using this

/-- `-ls` prints for each file, in the order of the search, a line with what it should show; the columns for owner and group are as wide as needed so far, and at least 8.  What is missing for "a line": a link that cannot be read, see
`C79_link_counterexample`. -/
theorem C79_ls_partial (s : Sys) (its : List Item) (hs : ∀ it ∈ its, Ls.Sane s it) :
    ∃ es, lsAll s its = .ok es ∧ es.length = its.length ∧ ∀ i it e, its[i]? = some it → es[i]? = some e → Listed s (its.take (i + 1)) it e := by
  have h0 : ∀ P : Nat → Prop, (∀ n, ¬ P n) → Widest P 8 := fun P h => ⟨.inl rfl, Nat.le_refl _, fun n hn => absurd hn (h n)⟩
  obtain ⟨es, a, b, c⟩ := ls_run s its [] hs 8 8 (h0 _ fun n ⟨it, h, _⟩ => by cases h) (h0 _ fun n ⟨it, h, _⟩ => by cases h)
  exact ⟨es, a, b, by simpa using c⟩

/-- A system whose clock says that the file of `C76` was modified an hour ago. -/
def s79 : Sys := ⟨{ w76 with group := fun _ => some (ascii "longgroup") }, List.length, fun d => d / 256, fun d => d % 256, false, 1794719280⟩
def it79 : Item := ⟨f76, true⟩
/-- A link that vanishes before it is read. -/
def link79 : Item := ⟨{ f76 with type := .lnk, link := .error 2 }, false⟩
def stat79 : Item := ⟨{ f76 with stat := .error 13 }, false⟩

theorem sane79 : Ls.Sane s79 it79 ∧ Ls.Sane s79 link79 ∧ Ls.Sane s79 stat79 := by
  have key : ∀ f : File, f.buf = f76.buf → (∀ sb, f.stat = .ok sb → sb = sb76) → Ls.Sane s79 ⟨f, true⟩ ∧ Ls.Sane s79 ⟨f, false⟩ := by
    intro f hb hsb
    have : Directive.Sane s79.w f := by
      refine ⟨?_, ?_, ?_, ?_, ?_, ?_, ?_, ?_⟩
      · rw [hb]; exact sane76.root
      · rw [hb]; exact sane76.nameoff
      · rw [hb]; exact sane76.slash
      · intro sb h; rw [hsb sb h]; exact sane76.dev sb76 rfl
      · intro sb h; rw [hsb sb h]; exact sane76.size sb76 rfl
      · intro sb field h hh; rw [hsb sb h] at hh ⊢; exact sane76.time sb76 field rfl hh
      · intro t tm h; exact sane76.tm t tm h
      · intro c tm; exact sane76.strftime c tm
    exact ⟨⟨this, fun sb h => by rw [hsb sb h]; rfl, by decide, fun c tm => by show (1 : Nat) < 50; decide⟩,
      ⟨this, fun sb h => by rw [hsb sb h]; rfl, by decide, fun c tm => by show (1 : Nat) < 50; decide⟩⟩
  exact ⟨(key f76 rfl fun sb h => by cases h; rfl).1, (key { f76 with type := .lnk, link := .error 2 } rfl fun sb h => by cases h; rfl).2,
    (key { f76 with stat := .error 13 } rfl fun sb h => by cases h).2⟩

/-- One line, and a file that cannot be examined.  (In this locale, `strftime()` writes the letters of its format.) -/
example : lsAll s79 [it79, stat79] = .ok [⟨ascii "       77      2 -rwsr-xr-x+  1 root     longgroup        5 b e H:M d/.x\n", none⟩, ⟨[], some 13⟩] := by decide +kernel

/-- A link that cannot be read, like one that vanishes during the search, leaves its line without an end: what is printed about the next file is on the same line. -/
theorem C79_link_counterexample : ∃ (s : Sys) (its : List Item), (∀ it ∈ its, Ls.Sane s it) ∧ ∃ es, lsAll s its = .ok es ∧
    es.flatMap (·.bytes) = ascii "       77      2 -rwsr-xr-x   1 root     longgroup        5 b e H:M d/.x       77      2 -rwsr-xr-x+  1 root     longgroup        5 b e H:M d/.x\n" := by
  refine ⟨s79, [link79, it79], ?_, _, rfl, by decide +kernel⟩
  intro it h
  rcases List.mem_cons.1 h with rfl | h
  · exact sane79.2.1
  · rw [List.mem_singleton.1 h]; exact sane79.1

/-- If the file system has no time of modification, `-ls` uses a variable that was never set. -/
theorem C79_mtime_counterexample : ∃ (s : Sys) (f : File) (sb : Sb), f.stat = .ok sb ∧ sb.has .mtime = false ∧ Directive.Sane s.w f ∧ lsAll s [⟨f, false⟩] = .ub := by
  refine ⟨s79, { f76 with stat := .ok { sb76 with has := fun _ => false } }, { sb76 with has := fun _ => false }, rfl, rfl, ?_, by decide +kernel⟩
  refine { sane76 with dev := ?_, size := ?_, time := ?_ }
  · intro sb h; cases h; exact sane76.dev sb76 rfl
  · intro sb h; cases h; exact sane76.size sb76 rfl
  · intro sb field h hh; cases h; cases hh

end Verif.Props
