import Verif.Model.Regex
/-!
# What regular expressions mean
-/
namespace Verif.Regex

/-- An expression's meaning in general (it may have anchors, back-references, ...): which parts of a string, from one offset to another, does it match? -/
abbrev Meaning := Bytes → Nat → Nat → Prop

/-- What POSIX says of `regexec()`: of all matches it finds the one that begins first, and of those the longest. -/
structure PosixSays (R : Meaning) (regexec : Bytes → Posix) : Prop where
  found : ∀ s so eo, regexec s = .found so eo → R s so eo ∧ so ≤ eo ∧ eo ≤ s.length ∧
    ∀ so' eo', R s so' eo' → so' ≤ eo' → eo' ≤ s.length → so < so' ∨ (so = so' ∧ eo' ≤ eo)
  missing : ∀ s, regexec s = .missing → ∀ so eo, so ≤ eo → eo ≤ s.length → ¬ R s so eo

/-- What Oniguruma says of `onig_match()` and `onig_search()`: they find some match. -/
structure OnigSays (R : Meaning) (lib : OnigLib) : Prop where
  matched : ∀ s n, lib.matches_ s = .found n → R s 0 n ∧ n ≤ s.length
  mismatched : ∀ s, lib.matches_ s = .mismatch → ∀ n, n ≤ s.length → ¬ R s 0 n
  found : ∀ s so, lib.search s = .found so → ∃ eo, so ≤ eo ∧ eo ≤ s.length ∧ R s so eo
  notfound : ∀ s, lib.search s = .mismatch → ∀ so eo, so ≤ eo → eo ≤ s.length → ¬ R s so eo

/-- Which strings an expression denotes, if `rest` follows. -/
inductive Denotes : Re → Bytes → Bytes → Prop where
  | empty (rest : Bytes) : Denotes .empty [] rest
  | set (p : UInt8 → Bool) (c : UInt8) (rest : Bytes) : p c = true → Denotes (.set p) [c] rest
  | cat (a b : Re) (u v rest : Bytes) : Denotes a u (v ++ rest) → Denotes b v rest → Denotes (.cat a b) (u ++ v) rest
  | left (a b : Re) (u rest : Bytes) : Denotes a u rest → Denotes (.alt a b) u rest
  | right (a b : Re) (u rest : Bytes) : Denotes b u rest → Denotes (.alt a b) u rest
  | done (a : Re) (rest : Bytes) : Denotes (.star a) [] rest
  | more (a : Re) (u v rest : Bytes) : Denotes a u (v ++ rest) → Denotes (.star a) v rest → Denotes (.star a) (u ++ v) rest
  | eol : Denotes .eol [] []

end Verif.Regex
