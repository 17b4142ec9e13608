import Verif.Model.Num
/-!
# -perm (src/parse.c, src/eval.c)

A mode is a `mode_t`, an unsigned integer of 32 bits.
-/
namespace Verif.Perm
open Verif.Num

abbrev Mode := BitVec 32

/-- The states in `parse_mode()`, src/parse.c:1922-1929. -/
inductive State where
  | clause
  | who
  | action
  | actionApply
  | op
  | perm
  deriving DecidableEq, Repr

/-- `op` in `parse_mode()`, src/parse.c:1931-1935. -/
inductive Op where
  | plus
  | minus
  | equals
  deriving DecidableEq, Repr

/-- The variables of `parse_mode()`, src/parse.c:1922-1940. -/
structure St where
  state : State := .clause
  op : Op := .equals
  who : Mode := 0
  mask : Mode := 0
  fileChange : Mode := 0
  dirChange : Mode := 0
  fileMode : Mode := 0
  dirMode : Mode := 0
  deriving DecidableEq, Repr

/-- What the body of the loop ends with: `continue`, `++i`, `goto done` or `goto fail`. -/
inductive Step where
  | cont (st : St)
  | next (st : St)
  | done (st : St)
  | fail
  deriving DecidableEq, Repr

/-- `case MODE_WHO`, src/parse.c:1951-1969. -/
def whoCase (st : St) : Option UInt8 → Step
  | some 117 => .next { st with who := st.who ||| 0o700 }
  | some 103 => .next { st with who := st.who ||| 0o070 }
  | some 111 => .next { st with who := st.who ||| 0o007 }
  | some 97 => .next { st with who := st.who ||| 0o777 }
  | _ => .cont { st with state := .action }

/-- The beginning of `case MODE_ACTION_APPLY`, src/parse.c:1971-1986. -/
def applyChange (st : St) : St :=
  match st.op with
  | .equals => { st with fileMode := (st.fileMode &&& ~~~st.who) ||| st.fileChange, dirMode := (st.dirMode &&& ~~~st.who) ||| st.dirChange }
  | .plus => { st with fileMode := st.fileMode ||| st.fileChange, dirMode := st.dirMode ||| st.dirChange }
  | .minus => { st with fileMode := st.fileMode &&& ~~~st.fileChange, dirMode := st.dirMode &&& ~~~st.dirChange }

/-- The beginning of `case MODE_ACTION`, src/parse.c:1988-1994. -/
def setMask (umask : Mode) (st : St) : St :=
  if st.who = 0 then { st with who := 0o777, mask := 0o777 &&& ~~~umask } else { st with mask := st.who }

/-- `case MODE_ACTION`, src/parse.c:1988-2028. -/
def actionCase (umask : Mode) (st : St) (c : Option UInt8) : Step :=
  let st := setMask umask st
  match c with
  | some 43 => .next { st with op := .plus, state := .op }
  | some 45 => .next { st with op := .minus, state := .op }
  | some 61 => .next { st with op := .equals, state := .op }
  | some 44 => if st.state = .actionApply then .next { st with state := .clause } else .fail
  | none => if st.state = .actionApply then .done st else .fail
  | some _ => .fail

/-- The end of `case MODE_OP`, src/parse.c:2051-2056. -/
def copyPerm (st : St) (file dir : Mode) : Step :=
  .next { st with
    fileChange := (file ||| ((file <<< 6) ||| (file <<< 3))) &&& st.mask
    dirChange := (dir ||| ((dir <<< 6) ||| (dir <<< 3))) &&& st.mask
    state := .actionApply }

/-- `case MODE_OP`, src/parse.c:2030-2057. -/
def opCase (st : St) : Option UInt8 → Step
  | some 117 => copyPerm st ((st.fileMode >>> 6) &&& 7) ((st.dirMode >>> 6) &&& 7)
  | some 103 => copyPerm st ((st.fileMode >>> 3) &&& 7) ((st.dirMode >>> 3) &&& 7)
  | some 111 => copyPerm st (st.fileMode &&& 7) (st.dirMode &&& 7)
  | _ => .cont { st with fileChange := 0, dirChange := 0, state := .perm }

/-- `bits` are added to both changes. -/
def addBits (st : St) (bits : Mode) : St := { st with fileChange := st.fileChange ||| bits, dirChange := st.dirChange ||| bits }

/-- `case MODE_PERM`, src/parse.c:2059-2095. -/
def permCase (st : St) : Option UInt8 → Step
  | some 114 => .next (addBits st (st.mask &&& 0o444))
  | some 119 => .next (addBits st (st.mask &&& 0o222))
  | some 120 => .next { st with fileChange := st.fileChange ||| (st.mask &&& 0o111), dirChange := st.dirChange ||| (st.mask &&& 0o111) }
  | some 88 => .next { st with dirChange := st.dirChange ||| (st.mask &&& 0o111) }
  | some 115 =>
    let st := if st.who &&& 0o700 ≠ 0 then addBits st 0o4000 else st
    let st := if st.who &&& 0o070 ≠ 0 then addBits st 0o2000 else st
    .next st
  | some 116 => .next (if st.who &&& 0o007 ≠ 0 then addBits st 0o1000 else st)
  | _ => .cont { st with state := .actionApply }

/-- The body of the loop, src/parse.c:1944-2096. -/
def step (umask : Mode) (st : St) (c : Option UInt8) : Step :=
  match st.state with
  | .clause => whoCase { st with who := 0, mask := 0o777, state := .who } c
  | .who => whoCase st c
  | .actionApply => actionCase umask (applyChange st) c
  | .action => actionCase umask st c
  | .op => opCase st c
  | .perm => permCase st c

/-- The body, until the character is consumed: at most `n` times.  More times than in `modeLoop` would
be an endless loop. -/
def settle (umask : Mode) : Nat → St → Option UInt8 → Option Step
  | 0, _, _ => none
  | n + 1, st, c =>
    match step umask st c with
    | .cont st => settle umask n st c
    | r => some r

/-- The loop, src/parse.c:1942-2099.  Going on after the terminator is undefined. -/
def modeLoop (umask : Mode) : St → Bytes → Out (Mode × Mode)
  | st, [] =>
    match settle umask 3 st none with
    | some (.done st) => .ok (st.fileMode, st.dirMode)
    | some .fail => .err "Invalid mode"
    | _ => .ub
  | st, c :: s =>
    match settle umask 3 st (some c) with
    | some (.next st) => modeLoop umask st s
    | some (.done st) => .ok (st.fileMode, st.dirMode)
    | some .fail => .err "Invalid mode"
    | _ => .ub

/-- The beginning of `parse_mode()`, src/parse.c:1885-1898. -/
def octalMode (mode : Bytes) : Out (Mode × Mode) :=
  match parseInt mode { base := 8, size := .int, unsigned := true } with
  | .error _ => .err "Invalid mode"
  | .ok (parsed, _) => if parsed > 0o7777 then .err "Invalid mode" else .ok (BitVec.ofInt 32 parsed, BitVec.ofInt 32 parsed)

/-- `parse_mode()`, src/parse.c:1884-2107: the modes for files and for directories. -/
def parseMode (umask : Mode) (mode : Bytes) : Out (Mode × Mode) :=
  match mode with
  | c :: _ => if 48 ≤ c ∧ c ≤ 57 then octalMode mode else modeLoop umask {} mode
  | [] => modeLoop umask {} mode

/-- `enum bfs_mode_cmp`, src/expr.h:57-64. -/
inductive ModeCmp where
  | equal
  | all
  | any
  deriving DecidableEq, Repr

/-- The prefix in `parse_perm()`, src/parse.c:2118-2137. -/
def permPrefix : Bytes → ModeCmp × Bytes
  | 45 :: s => (.all, s)
  | 47 :: s => (.any, s)
  | 43 :: c :: s => if 48 ≤ c ∧ c ≤ 57 then (.any, c :: s) else (.equal, 43 :: c :: s)
  | s => (.equal, s)

/-- `parse_perm()`, src/parse.c:2112-2144. -/
def parsePerm (umask : Mode) (arg : Bytes) : Out (ModeCmp × Mode × Mode) := do
  let (cmp, mode) := permPrefix arg
  let (file, dir) ← parseMode umask mode
  return (cmp, file, dir)

/-- `eval_perm()`, src/eval.c:656-684. -/
def evalPerm (cmp : ModeCmp) (fileMode dirMode : Mode) (isDir : Bool) (mode : Mode) : Bool :=
  let target := if isDir then dirMode else fileMode
  match cmp with
  | .equal => mode &&& 0o7777 = target
  | .all => mode &&& target = target
  | .any => (!(mode &&& target != 0)) == (!(target != 0))

end Verif.Perm
