import Verif.Lemmas.Tests
/-! # Parsing a test is never undefined -/
namespace Verif.Tests
open Verif.Num
open Verif.Printf (Field)
open Verif.Fnmatch (Pattern parseFnmatch)

theorem unary_ub {args : List Bytes} {k : Bytes → Out Test} (h : ∀ v, k v ≠ .ub) : unary args k ≠ .ub := by
  unfold unary
  split
  · rename_i v _
    cases hk : k v with
    | ok t => simp [Out.bind]
    | err => simp [Out.bind]
    | ub => exact absurd hk (h v)
  · simp [Out.bind]

theorem supported_ub {can : Bool} {r : Out (Test × Nat)} (h : r ≠ .ub) : supported can r ≠ .ub := by
  unfold supported
  split
  · exact h
  · simp [Out.bind]

theorem icmp_ub (v : Bytes) (k : Cmp → Int → Test) : icmp v k ≠ .ub := by
  unfold icmp
  split <;> simp [Out.bind]

theorem fnm_ub (s : Setting) (v : Bytes) (cf : Bool) (k : Pattern → Test) : fnm s v cf k ≠ .ub := by
  unfold fnm parseFnmatch
  split
  · simp [Out.bind]
  · split <;> simp [Out.bind]

theorem refTime_ub {s : Setting} (hs : s.Sane) (field : Field) (v : Bytes) : refTime s field v ≠ .ub := by
  unfold refTime
  cases hx : Date.xgetdate s.xmktime v with
  | ok => simp [Out.bind]
  | err => simp [Out.bind]
  | ub => exact absurd hx (Props.C16_defined _ hs.xmktime v)

theorem owner_ub (get : Bytes → Except Nat (Option Nat)) (v : Bytes) (k : Cmp → Int → Test) : parseOwner get v k ≠ .ub := by
  unfold parseOwner
  split
  · simp [Out.bind]
  · split
    · exact icmp_ub v k
    · simp [Out.bind]
  · split
    · exact icmp_ub v k
    · simp [Out.bind]

theorem newerxy_ub {s : Setting} (hs : s.Sane) (name v : Bytes) : parseNewerxy s name v ≠ .ub := by
  unfold parseNewerxy
  split
  · simp [Out.bind]
  · split
    · exact refTime_ub hs _ v
    · split
      · simp [Out.bind]
      · unfold refFile
        split
        · simp [Out.bind]
        · split <;> simp [Out.bind]

theorem callFn_ub {s : Setting} (hs : s.Sane) (fn : ParseFn) (args : List Bytes) : callFn s fn args ≠ .ub := by
  cases fn with
  | access | const | empty | hidden | nogroup | nouser | sparse => simp [callFn, nullary]
  | acl | capable | xattr => exact supported_ub (by simp [nullary])
  | newer field =>
    refine unary_ub fun v => ?_
    unfold parseNewer
    cases hst : statArg s v with
    | error => simp [Out.bind]
    | ok sb =>
      obtain ⟨fl, h⟩ := refers_stat (statArg_iff.1 hst)
      dsimp only
      rw [if_pos (hs.mtime fl v sb h)]
      simp [Out.bind]
  | min => exact unary_ub fun v => icmp_ub v _
  | time => refine unary_ub fun v => ?_; unfold parseTime; split <;> simp [Out.bind]
  | context => exact supported_ub (unary_ub fun v => fnm_ub s v _ _)
  | depthN =>
    show (if _ then _ else _) ≠ _
    split
    · exact unary_ub fun v => icmp_ub v _
    · simp [Out.bind]
  | flags => refine unary_ub fun v => ?_; unfold parseFlags; split <;> simp [Out.bind]
  | fstype => refine unary_ub fun v => ?_; split <;> simp [Out.bind]
  | group => exact unary_ub fun v => owner_ub _ v _
  | user => exact unary_ub fun v => owner_ub _ v _
  | used | inum | links => exact unary_ub fun v => icmp_ub v _
  | name | path | lname => exact unary_ub fun v => fnm_ub s v _ _
  | newerxy =>
    show (if _ then _ else _) ≠ _
    split
    · simp [Out.bind]
    · exact unary_ub fun v => newerxy_ub hs _ v
  | perm =>
    refine unary_ub fun v => ?_
    have hp : Perm.parsePerm s.umask v ≠ .ub := by
      show ((Perm.parseMode s.umask (Perm.permPrefix v).2).bind fun fd => .ok ((Perm.permPrefix v).1, fd.1, fd.2)) ≠ .ub
      cases hm : Perm.parseMode s.umask (Perm.permPrefix v).2 with
      | ok => simp [Out.bind]
      | err => simp [Out.bind]
      | ub => exact absurd hm (Props.C35_defined _ _)
    unfold parsePerm
    cases hm : Perm.parsePerm s.umask v with
    | ok => simp [Out.bind]
    | err => simp [Out.bind]
    | ub => exact absurd hm hp
  | regex => refine unary_ub fun v => ?_; unfold parseRegex; split <;> simp [Out.bind]
  | samefile => refine unary_ub fun v => ?_; unfold parseSamefile; split <;> simp [Out.bind]
  | since => exact unary_ub fun v => refTime_ub hs _ v
  | size => refine unary_ub fun v => ?_; unfold parseSize; split <;> simp [Out.bind]
  | type => refine unary_ub fun v => ?_; unfold parseType; split <;> simp [Out.bind]
  | xattrname => exact supported_ub (unary_ub fun v => by simp [Out.bind])

end Verif.Tests
