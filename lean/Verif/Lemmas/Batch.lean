import Verif.Lemmas.Quota
import Verif.Lemmas.BftwPath
import Verif.Lemmas.Path
import Verif.Props.Exec
import Verif.Spec.Batch

namespace Verif.Batch
open Verif Verif.Bftw Verif.Main Verif.Quota Verif.Props

variable {T V : Type}

theorem Out.bind_assoc {α β γ : Type} (x : Out α) (f : α → Out β) (g : β → Out γ) : (x.bind f).bind g = x.bind fun a => (f a).bind g := by
  cases x <;> rfl

theorem execAll_snoc : ∀ (fs : List Exec.File) (f : Exec.File) (x : Exec.Exec) (w : Exec.World),
    Exec.execAll (fs ++ [f]) x w = (Exec.execAll fs x w).bind fun r => Exec.execMulti r.1 r.2 f
  | [], f, x, w => by
    show (Exec.execMulti x w f).bind (fun r => .ok (r.1, r.2)) = Exec.execMulti x w f
    cases Exec.execMulti x w f <;> rfl
  | g :: fs, f, x, w => by
    show (Exec.execMulti x w g).bind (fun r => Exec.execAll (fs ++ [f]) r.1 r.2) = _
    rw [Exec.execAll, Out.bind_assoc]
    congr 1
    funext r
    exact execAll_snoc fs f r.1 r.2

theorem singleAll_snoc : ∀ (fs : List Exec.File) (f : Exec.File) (x : Exec.Exec) (w : Exec.World),
    Exec.singleAll (fs ++ [f]) x w = (Exec.singleAll fs x w).bind fun r => (Exec.single r.1 r.2 f).bind fun s => .ok s.2
  | [], f, x, w => by
    show (Exec.single x w f).bind (fun r => .ok (r.2.1, r.2.2)) = (Exec.single x w f).bind _
    rfl
  | g :: fs, f, x, w => by
    show (Exec.single x w g).bind (fun r => Exec.singleAll (fs ++ [f]) r.2.1 r.2.2) = _
    rw [Exec.singleAll, Out.bind_assoc]
    congr 1
    funext r
    exact singleAll_snoc fs f r.2.1 r.2.2

/-- `bfs_exec()` for some files. -/
def runAll (multi : Bool) (fs : List Exec.File) (x : Cmd) : Out Cmd :=
  if multi then Exec.execAll fs x.1 x.2 else Exec.singleAll fs x.1 x.2

theorem runAll_snoc (multi : Bool) (fs : List Exec.File) (f : Exec.File) (x : Cmd) :
    runAll multi (fs ++ [f]) x = after (again multi (runAll multi fs x) f) := by
  unfold runAll after again bfsExec
  cases multi with
  | true =>
    rw [if_pos rfl, if_pos rfl, execAll_snoc, Out.bind_assoc]
    congr 1
    funext r
    rw [if_pos rfl, Out.bind_assoc]
    cases Exec.execMulti r.1 r.2 f <;> rfl
  | false =>
    rw [if_neg (by simp), if_neg (by simp), singleAll_snoc, Out.bind_assoc]
    congr 1

theorem command_some {A : Actions V} {l : Opt.Leaf} {i : Nat} {m : Bool} (h : A.command l = some (i, m)) :
    l = cmdLeaf m i ∧ ∃ x, A.cmd i = some (m, x) := by
  unfold Actions.command at h
  split at h
  · rename_i j
    cases hc : A.cmd j with
    | none => rw [hc] at h; cases h
    | some x =>
      rw [hc] at h
      obtain ⟨m', x⟩ := x
      cases m' with
      | true =>
        change (if true = true then some (j, true) else none) = _ at h
        rw [if_pos rfl] at h
        cases h
        exact ⟨rfl, x, hc⟩
      | false => cases h
  · rename_i j
    cases hc : A.cmd j with
    | none => rw [hc] at h; cases h
    | some x =>
      rw [hc] at h
      obtain ⟨m', x⟩ := x
      cases m' with
      | true => cases h
      | false =>
        change (if false = true then none else some (j, false)) = _ at h
        rw [if_neg (by simp)] at h
        cases h
        exact ⟨rfl, x, hc⟩
  · cases h

theorem command_leaf {A : Actions V} {i : Nat} {m : Bool} {x : Cmd} (h : A.cmd i = some (m, x)) : A.command (cmdLeaf m i) = some (i, m) := by
  unfold Actions.command cmdLeaf
  cases m
  · show (A.cmd i).bind _ = _
    rw [h]
    rfl
  · show (A.cmd i).bind _ = _
    rw [h]
    rfl

theorem limit_cmd {A : Actions V} {e : Env} {i : Nat} {m : Bool} {x : Cmd} (h : A.cmd i = some (m, x)) : (A.prims e).limit (cmdLeaf m i) = none := by
  unfold Primaries.limit cmdLeaf Actions.prims
  cases m <;> simp [h]

/-- The commands are where they should be. -/
def Job.Kept (b : Job T V) (e : Env) (w : World (Stuff V)) : Prop :=
  ∀ i m x, b.acts.cmd i = some (m, x) →
    w.rest.1 i = runAll m ((files (cmdLeaf m i) w.log).reverse.map (b.file e i)) x

theorem cmdLeaf_inj {m m' : Bool} {i j : Nat} (h : cmdLeaf m i = cmdLeaf m' j) : m = m' ∧ i = j := by
  unfold cmdLeaf at h
  cases m <;> cases m' <;> simp at h ⊢ <;> exact h

theorem files_cons' (l : Opt.Leaf) (x : Pos × Opt.Leaf) (log : List (Pos × Opt.Leaf)) :
    files l (x :: log) = if x.2 = l then x.1 :: files l log else files l log := by
  unfold files
  rw [List.filter_cons]
  by_cases h : x.2 = l <;> simp [h]

theorem files_note {w : World V} {p : Pos} {l k : Opt.Leaf} (h : l ≠ k) : files k (w.note p l).log = files k w.log := by
  unfold World.note
  split
  · rw [files_cons', if_neg h]
  · rfl

theorem note_rest {w : World V} {p : Pos} {l : Opt.Leaf} : (w.note p l).rest = w.rest := by
  unfold World.note
  split <;> rfl

theorem note_cmd {w : World V} {p : Pos} {m : Bool} {i : Nat} : files (cmdLeaf m i) (w.note p (cmdLeaf m i)).log = p :: files (cmdLeaf m i) w.log := by
  show files (cmdLeaf m i) ((p, cmdLeaf m i) :: w.log) = _
  rw [files_cons', if_pos rfl]

theorem evalLimit_rest (n : Int) (i : Nat) (w : World V) : (evalLimit n i w).w.rest = w.rest := by
  obtain ⟨a, b, c, d⟩ := w
  show _ = d
  rfl
theorem evalLimit_log (n : Int) (i : Nat) (w : World V) : (evalLimit n i w).w.log = w.log := by
  obtain ⟨a, b, c, d⟩ := w
  show _ = c
  rfl
theorem count_rest (w : World V) (i : Nat) : (w.count i).rest = w.rest := rfl
theorem count_log (w : World V) (i : Nat) : (w.count i).log = w.log := rfl

theorem limit_leaf {S : Primaries V} {p : Pos} {path : Bytes} {l : Opt.Leaf} {i : Nat} {n : Int} {w : World V} (h : S.limit l = some (i, n)) :
    (S.leaf p path l w).w.rest = w.rest ∧ (S.leaf p path l w).w.log = (w.note p l).log := by
  rw [leaf_limit' h]
  refine ⟨?_, ?_⟩
  · exact (count_rest _ _).trans ((evalLimit_rest _ _ _).trans note_rest)
  · exact (count_log _ _).trans (evalLimit_log _ _ _)

theorem leaf_kept {b : Job T V} {e : Env} {p : Pos} {path : Bytes} (hp : path = e.fullPath p) (l : Opt.Leaf) (w : World (Stuff V)) (hw : b.Kept e w) :
    b.Kept e ((b.acts.prims e).leaf p path l w).w := by
  intro i m x hc
  have hi := hw i m x hc
  cases hl : (b.acts.prims e).limit l with
  | some y =>
    obtain ⟨j, n⟩ := y
    have hne : l ≠ cmdLeaf m i := by
      rintro rfl
      rw [limit_cmd hc] at hl
      cases hl
    rw [(limit_leaf hl).1, (limit_leaf hl).2, files_note hne]
    exact hi
  | none =>
    rw [leaf_other hl]
    show ((b.acts.prims e).others p path l (w.note p l)).w.rest.1 i = runAll m ((files _ (w.note p l).log).reverse.map _) x
    unfold Primaries.others Actions.prims
    dsimp only
    cases hcm : b.acts.command l with
    | none =>
      have hne : l ≠ cmdLeaf m i := by
        rintro rfl
        rw [command_leaf hc] at hcm
        cases hcm
      show (w.note p l).rest.1 i = _
      rw [files_note hne, note_rest]
      exact hi
    | some y =>
      obtain ⟨j, m'⟩ := y
      obtain ⟨rfl, y, hy⟩ := command_some hcm
      show (if i = j then after (again m' ((w.note p (cmdLeaf m' j)).rest.1 j) (b.acts.file e j p path)) else (w.note p (cmdLeaf m' j)).rest.1 i) = _
      by_cases hij : i = j
      · subst hij
        rw [hc] at hy
        cases hy
        rw [if_pos rfl, note_cmd, note_rest, hi, List.reverse_cons, List.map_append, hp]
        exact (runAll_snoc m _ _ x).symm
      · rw [if_neg hij, note_rest, files_note (fun h => hij (cmdLeaf_inj h).2.symm)]
        exact hi

theorem kept {b : Job T V} {e : Env} : ∀ {tr : List Event}, (∀ ev ∈ tr, ev.path = e.fullPath ev.pos) → b.Kept e ((b.search e).world e tr)
  | [], _ => by
    intro i m x hc
    show b.acts.start i = runAll m [] x
    unfold Actions.start runAll
    rw [hc]
    cases m <;> rfl
  | ev :: tr, h => by
    have ih := kept (b := b) (tr := tr) fun x hx => h x (by simp [hx])
    rw [world_cons]
    split
    · have := eval_inv (T := T) (sem := (b.acts.prims e).leaf ev.pos ev.path) (b.Kept e) (b.Kept e)
        (fun l w hw => ⟨fun _ => leaf_kept (h ev (by simp)) l w hw, fun _ => leaf_kept (h ev (by simp)) l w hw⟩) b.expr
        { (b.search e).world e tr with action := .cont } ih
      show b.Kept e (Opt.eval ((b.acts.prims e).leaf ev.pos ev.path) b.expr { (b.search e).world e tr with action := .cont }).w
      cases hq : (Opt.eval ((b.acts.prims e).leaf ev.pos ev.path) b.expr { (b.search e).world e tr with action := .cont }).q with
      | false => exact this.1 hq
      | true => exact this.2 hq
    · exact ih

/-! ## Names -/

theorem chain_of {e : Env} (h : Proper e) : ∀ p, e.Chain p
  | [] => trivial
  | [_] => trivial
  | _ :: j :: p => ⟨(h _).1, chain_of h (j :: p)⟩

theorem drop_name {e : Env} (h : Proper e) {i : Nat} {p : Pos} : (e.fullPath (i :: p)).drop (e.nameoff (i :: p)) = e.name (i :: p) := by
  rw [nameoff_sep (chain_of h _), fullPath_sep, ← List.append_assoc, ← List.length_append, List.drop_left]

theorem argOf_true (f : Exec.File) : Exec.argOf true f = if (f.path.drop f.nameoff).head? = some 47 then f.path.drop f.nameoff else [46, 47] ++ f.path.drop f.nameoff := by
  unfold Exec.argOf
  generalize f.path.drop f.nameoff = name
  cases name with
  | nil => rfl
  | cons c name =>
    by_cases hc : c = 47
    · subst hc; rfl
    · rw [if_neg (by simpa using hc)]
      split
      · rename_i h; cases h
      · rename_i h; simp at h; exact absurd h.1 hc
      · rfl

theorem given_eq {b : Job T V} {e : Env} (h : Proper e) {c : Bool} {i : Nat} {p : Pos} : Exec.argOf c (b.file e i p) = given e c p := by
  cases c with
  | false => rfl
  | true =>
    rw [argOf_true]
    unfold given
    rw [if_neg (show ¬ (true = false) by simp)]
    by_cases hl : 1 < p.length
    · have hoff : (b.file e i p).path.drop (b.file e i p).nameoff = e.name p := by
        show (e.fullPath p).drop (if p.length ≤ 1 then _ else e.nameoff p) = _
        rw [if_neg (by omega)]
        cases p with
        | nil => cases hl
        | cons j p => exact drop_name h
      rw [if_pos hl, hoff, if_neg]
      intro hh
      exact (h p).2 hl (List.mem_of_head? hh)
    · have hoff : (b.file e i p).path.drop (b.file e i p).nameoff = (e.fullPath p).drop (Path.xbaseoff (e.fullPath p)) := by
        show (e.fullPath p).drop (if p.length ≤ 1 then _ else e.nameoff p) = _
        rw [if_pos (by omega)]
      rw [if_neg hl, hoff]

theorem nameoff_pos {e : Env} {p : Pos} (h : 1 < p.length) : 0 < e.nameoff p := by
  match p, h with
  | _ :: j :: p, _ =>
    unfold Env.nameoff childOff
    · split
      · rename_i hh
        have : (e.name (j :: p)).length ≠ 0 := by
          intro h0
          rw [List.length_eq_zero_iff.1 h0] at hh
          cases hh
        omega
      · omega

theorem file_fd {b : Job T V} {e : Env} {i : Nat} {p : Pos} (h : (b.file e i p).atFd = true) : 0 < (b.file e i p).nameoff := by
  have : 1 < p.length := of_decide_eq_true h
  show 0 < if p.length ≤ 1 then _ else e.nameoff p
  rw [if_neg (by omega)]
  exact nameoff_pos this

theorem inner_plain {b : Job T V} {e : Env} (hP : Proper e) {i : Nat} {p : Pos} (h : 1 < p.length) :
    (b.file e i p).plain ∧ Exec.dirOf (b.file e i p) = home e p := by
  have hoff : (b.file e i p).nameoff = e.nameoff p := by
    show (if p.length ≤ 1 then _ else e.nameoff p) = _
    rw [if_neg (by omega)]
  match p, h with
  | j :: k :: p, h =>
    have hsep := nameoff_sep (chain_of hP (j :: k :: p))
    have hfull := fullPath_sep e j (k :: p)
    have hpath : (b.file e i (j :: k :: p)).path = e.fullPath (j :: k :: p) := rfl
    have htake : (e.fullPath (j :: k :: p)).take (e.nameoff (j :: k :: p)) = e.fullPath (k :: p) ++ sep e (k :: p) := by
      rw [hsep, hfull, ← List.append_assoc, ← List.length_append, List.take_left]
    have hlast : (e.fullPath (k :: p) ++ sep e (k :: p)).getLast? = some 47 := by
      unfold sep
      rw [if_neg (by simp)]
      by_cases hh : (e.fullPath (k :: p)).getLast? = some 47
      · rw [if_pos hh, List.append_nil]; exact hh
      · rw [if_neg hh]; simp
    refine ⟨⟨?_, ?_, fun _ => by rw [hoff]; exact nameoff_pos h⟩, ?_⟩
    · rw [hoff, hpath, drop_name hP]
      exact (hP _).2 h
    · intro hpos
      rw [hoff] at hpos ⊢
      rw [hpath, ← List.getElem?_take_of_lt (show e.nameoff (j :: k :: p) - 1 < e.nameoff (j :: k :: p) by omega), htake]
      rw [List.getLast?_eq_getElem?] at hlast
      rw [← hlast, hsep, List.length_append]
    · unfold Exec.dirOf home
      have := nameoff_pos (e := e) h
      rw [hoff, hpath, if_neg (by omega), if_pos h, htake]
      unfold sep
      rw [if_neg (by simp)]
      show some _ = some (if (e.fullPath (k :: p)).getLast? = some 47 then _ else _)
      by_cases hh : (e.fullPath (k :: p)).getLast? = some 47
      · rw [if_pos hh, if_pos hh, List.append_nil]; rfl
      · rw [if_neg hh, if_neg hh]; rfl

theorem root_plain {b : Job T V} {e : Env} {i : Nat} {p : Pos} (h : p.length ≤ 1) (hne : e.fullPath p ≠ []) (hl : (e.fullPath p).getLast? ≠ some 47) :
    (b.file e i p).plain := by
  have hoff : (b.file e i p).nameoff = Path.xbaseoff (e.fullPath p) := by
    show (if p.length ≤ 1 then _ else e.nameoff p) = _
    rw [if_pos h]
  have hpath : (b.file e i p).path = e.fullPath p := rfl
  rcases Path.last_exists (e.fullPath p) with hn | ⟨d, c, s, hn⟩
  · exfalso
    apply hl
    cases hg : (e.fullPath p).getLast? with
    | none => exact absurd (List.getLast?_eq_none_iff.1 hg) hne
    | some y => rw [hn y (List.mem_of_getLast? hg)]
  · have hs : s = [] := by
      cases hs : s.getLast? with
      | none => exact List.getLast?_eq_none_iff.1 hs
      | some y =>
        exfalso
        apply hl
        rw [hn.eq, List.getLast?_append, List.getLast?_append, hs, hn.slashes y (List.mem_of_getLast? hs)]
        rfl
    subst hs
    have hdrop : (e.fullPath p).drop (Path.xbaseoff (e.fullPath p)) = c := by
      rw [hn.off, hn.eq, List.drop_left, List.append_nil]
    refine ⟨?_, ?_, fun hh => absurd (of_decide_eq_true hh) (by omega)⟩
    · rw [hoff, hpath, hdrop]
      exact hn.name.2
    · intro hpos
      rw [hoff] at hpos ⊢
      exact (Path.baseoff_slash (e.fullPath p)).1.resolve_left (by omega)

theorem home_eq {b : Job T V} {e : Env} (hP : Proper e) {i : Nat} {p : Pos} : Exec.dirOf (b.file e i p) = home e p := by
  by_cases h : 1 < p.length
  · exact (inner_plain hP h).2
  · have hoff : (b.file e i p).nameoff = Path.xbaseoff (e.fullPath p) := by
      show (if p.length ≤ 1 then _ else e.nameoff p) = _
      rw [if_pos (by omega)]
    have hpath : (b.file e i p).path = e.fullPath p := rfl
    have hle := (Path.baseoff_slash (e.fullPath p)).2
    unfold Exec.dirOf home
    rw [hoff, hpath, if_neg h]
    dsimp only
    generalize Path.xbaseoff (e.fullPath p) = n at hle ⊢
    by_cases h0 : n = 0
    · subst h0
      rw [if_pos rfl, if_neg (show ¬ (List.take 0 (e.fullPath p) ≠ []) by simp)]
    · rw [if_neg h0, if_pos]
      intro hh
      have := congrArg List.length hh
      rw [List.length_take] at this
      simp at this
      rcases this with h1 | h1
      · exact h0 h1
      · rw [h1] at hle
        simp at hle
        exact h0 hle

end Verif.Batch
