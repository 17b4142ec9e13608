import Verif.Model.Cprint
import Verif.Spec.Color
/-!
# What colored output should be
-/
namespace Verif.Cprint
open Verif.Color (Setting)

/-! ## The table -/

/-- The bytes of an ASCII string. -/
def ascii (s : String) : Bytes := s.toList.map fun c => c.toNat.toUInt8

/-- The names of colors and their defaults: those of dir_colors(5), and bfs's own, with escapes of
console_codes(4). -/
def documented : Field → String × Option String
  | .rs => ("rs", some "0")
  | .lc => ("lc", some "\x1b[")
  | .rc => ("rc", some "m")
  | .ec => ("ec", none)
  | .cl => ("cl", some "\x1b[K")
  | .bld => ("bld", some "01;39")
  | .gry => ("gry", some "01;30")
  | .red => ("red", some "01;31")
  | .grn => ("grn", some "01;32")
  | .ylw => ("ylw", some "01;33")
  | .blu => ("blu", some "01;34")
  | .mag => ("mag", some "01;35")
  | .cyn => ("cyn", some "01;36")
  | .wht => ("wht", some "01;37")
  | .wrn => ("wrn", some "01;33")
  | .err => ("err", some "01;31")
  | .no => ("no", none)
  | .fi => ("fi", some "")
  | .mh => ("mh", none)
  | .ex => ("ex", some "01;32")
  | .ca => ("ca", none)
  | .sg => ("sg", some "30;43")
  | .su => ("su", some "37;41")
  | .di => ("di", some "01;34")
  | .st => ("st", some "37;44")
  | .ow => ("ow", some "34;42")
  | .tw => ("tw", some "30;42")
  | .ln => ("ln", some "01;36")
  | .or => ("or", none)
  | .mi => ("mi", none)
  | .bd => ("bd", some "01;33")
  | .cd => ("cd", some "01;33")
  | .door => ("do", some "01;35")
  | .pi => ("pi", some "33")
  | .so => ("so", some "01;35")

/-- The value of a color: the last one that was set, or the default. -/
def valueOf (l : List Setting) (f : Field) : Option Bytes :=
  match l.reverse.findSome? fun
    | .esc k v => if k = ascii (documented f).1 then some v else none
    | .ext _ _ => none with
  | some v => v
  | none => (documented f).2.map ascii

/-- The table is usable: the sequences around colors are known, and so are the colors of
extensions. -/
structure Table.Good (t : Table) : Prop where
  lc : (t.esc .lc).isSome = true
  rc : (t.esc .rc).isSome = true
  ec : (t.esc .ec).isSome = true
  exts : ∀ name, ∃ e, Color.getExtIndex t.exts name = .ok e ∧
    ∀ i, e = some i → (t.exts.exts[i]?).isSome = true

/-! ## Which color a file has -/

/-- What matters about a file. -/
structure View where
  type : Typ
  stat : Option St
  caps : Bool
  broken : Bool
  name : Bytes

/-- The first color that is in use and whose condition holds. -/
def firstOf (t : Table) : List (Bool × Field) → Option Ptr
  | [] => none
  | (c, f) :: rest => if c ∧ (t.esc f).isSome then some (.field f) else firstOf t rest

/-- `mi`, or else `or`. -/
def missingColor (t : Table) : Option Ptr := firstOf t [(true, .mi), (true, .or)]

/-- The color of an extension (see C41). -/
def extOf (t : Table) (name : Bytes) : Option Ptr :=
  match Color.getExtIndex t.exts name with
  | .ok (some i) => some (.ext i)
  | _ => none

/-- Is one of these colors in use? -/
def inUse (t : Table) (fs : List Field) : Bool := fs.any fun f => (t.esc f).isSome

/-- The colors of a regular file, most important first. -/
def regRules (s : Option St) (caps : Bool) : List (Bool × Field) :=
  let bit (m : Nat) : Bool := s.any fun s => s.mode &&& m ≠ 0
  [(bit 0o4000, .su), (bit 0o2000, .sg), (caps, .ca), (bit 0o111, .ex), (s.any (·.nlink > 1), .mh)]

/-- The colors of a directory, most important first. -/
def dirRules (s : Option St) : List (Bool × Field) :=
  let bit (m : Nat) : Bool := s.any fun s => s.mode &&& m ≠ 0
  [(bit 0o1000 && bit 0o2, .tw), (bit 0o2, .ow), (bit 0o1000, .st), (true, .di)]

/-- `some` color (perhaps none), or `none` if the file cannot be examined although that is necessary. -/
def plainColor (t : Table) (v : View) : Option (Option Ptr) :=
  match v.type with
  | .error => none
  | .reg =>
    if inUse t [.su, .sg, .ex, .mh] ∧ v.stat = none then none
    else some ((firstOf t (regRules v.stat v.caps)).or ((extOf t v.name).or (firstOf t [(true, .fi)])))
  | .dir =>
    if inUse t [.tw, .ow, .st] ∧ v.stat = none then none
    else some (firstOf t (dirRules v.stat))
  | .lnk => some (firstOf t [(v.broken, .or), (true, .ln)])
  | .blk => some (firstOf t [(true, .bd)])
  | .chr => some (firstOf t [(true, .cd)])
  | .fifo => some (firstOf t [(true, .pi)])
  | .sock => some (firstOf t [(true, .so)])
  | .door => some (firstOf t [(true, .door)])
  | .unknown | .port | .wht => some none

/-- The color of a file: an empty one stands for `no`. -/
def color (t : Table) (v : View) : Option Ptr :=
  match plainColor t v with
  | none => missingColor t
  | some none => none
  | some (some p) => if t.seq p = some [] then firstOf t [(true, .no)] else some p

/-! ## The parts of a path -/

/-- The end of a name, or of the slashes after it. -/
def boundary (path : Bytes) (k : Nat) : Bool :=
  decide (0 < k) && decide (k < path.length) && ((path[k - 1]? == some 47) != (path[k]? == some 47))

/-- The longest part of the path that exists, other than all of it. -/
def existing (stat : Bytes → Option St) (path : Bytes) : Nat :=
  ((List.range path.length).reverse.find? fun k => boundary path k && (stat (path.take k)).isSome).getD 0

/-- Where the name that ends at `v` begins. -/
def nameStart (path : Bytes) (v : Nat) : Nat := v - ((path.take v).reverse.takeWhile (· ≠ 47)).length

/-- A path in three parts: directories, a name, and what does not exist. -/
structure Split where
  nameoff : Nat
  valid : Nat
  view : View

/-- Where a relative link target begins. -/
def linkBase (f : Ftw) (target : Bytes) : Bytes :=
  if f.atCwd ∧ target.head? ≠ some 47 then f.path.take f.nameoff else []

/-- The parts of the path of a file that exists. -/
def splitWhole (path : Bytes) (f : Ftw) (flags : Follow) : Split :=
  { nameoff := Path.xbaseoff path
    valid := path.length
    view :=
      { type := f.typeOf flags
        stat := f.statOf flags
        caps := f.caps
        broken := if f.flags = .nofollow then !f.access else true
        name := path.drop (Path.xbaseoff path) } }

/-- The parts of a path that exists up to `v`, which is a file with that metadata. -/
def splitAt (path : Bytes) (v : Nat) (st : Option St) : Split :=
  { nameoff := nameStart path v
    valid := v
    view :=
      { type := (st.map (·.type)).getD .error
        stat := st
        caps := false
        broken := false
        name := (path.take v).drop (nameStart path v) } }

/-- The parts of the path of a file (`own`) or of a link's target. -/
def split (own : Bool) (path : Bytes) (f : Ftw) (flags : Follow) : Split :=
  if f.typeOf flags ≠ .error then splitWhole path f flags
  else if own ∧ f.depth > 0 then splitAt path f.nameoff none
  else
    let stat := fun p => f.statAt (own || f.atCwd) ((if own then [] else linkBase f path) ++ p)
    splitAt path (existing stat path) (stat (path.take (existing stat path)))

/-! ## What is printed -/

/-- A color, the end of all colors, or text. -/
inductive Op where
  | esc (p : Option Ptr)
  | rs
  | txt (s : Bytes)
  deriving DecidableEq, Repr

/-- A piece of output. -/
inductive Piece where
  | color (p : Ptr)
  | reset
  | text (s : Bytes)
  deriving DecidableEq, Repr

/-- The output, and whether a color is left on at the end: colors that are not in use are left out, and
so is the end of colors if none is on. Without a table there are no colors. -/
def pieces (colored : Bool) : Bool → List Op → List Piece × Bool
  | on, [] => ([], on)
  | on, .txt s :: ops => let r := pieces colored on ops; (.text s :: r.1, r.2)
  | on, .esc none :: ops => pieces colored on ops
  | on, .esc (some p) :: ops =>
    if colored then let r := pieces colored true ops; (.color p :: r.1, r.2) else pieces colored on ops
  | on, .rs :: ops =>
    if colored && on then let r := pieces colored false ops; (.reset :: r.1, r.2) else pieces colored on ops

/-- The bytes of a piece. -/
def Table.bytes (t : Table) : Piece → Bytes
  | .color p => (t.esc .lc).getD [] ++ (t.seq p).getD [] ++ (t.esc .rc).getD []
  | .reset => (t.esc .ec).getD []
  | .text s => s

/-- The bytes of a piece, perhaps without a table. -/
def bytesOf : Option Table → Piece → Bytes
  | some t, p => t.bytes p
  | none, .text s => s
  | none, _ => []

/-- The escaped form of a string (see C13, C14 and C58). -/
def quoted (L : Quote.Locale) (shell : Bool) (s : Bytes) : Bytes :=
  match Quote.escape L shell s with
  | .ok q => q
  | _ => []

/-- Text in one color. -/
def coloredText (L : Quote.Locale) (c : Option Ptr) (s : Bytes) : List Op :=
  if s = [] then [] else [.esc c, .txt (quoted L false s), .rs]

/-- A path in colors: its directories in `di`, its last name in its own color (together with the
directories if that is the same one), and what does not exist in `mi`. -/
def pathOps (L : Quote.Locale) (t : Table) (path : Bytes) (s : Split) : List Op :=
  let c := if s.nameoff < s.valid then color t s.view else none
  let n := if s.nameoff < s.valid ∧ c = firstOf t [(true, .di)] then s.valid else s.nameoff
  coloredText L (firstOf t [(true, .di)]) (path.take n) ++
    coloredText L c ((path.drop n).take (s.valid - n)) ++
    coloredText L (missingColor t) (path.drop s.valid)

/-- With `ln=target`, links have the colors of what they lead to. -/
def flagsOf (t : Table) (f : Ftw) : Follow :=
  if t.linkAsTarget = true ∧ f.type = .lnk then .tryfollow else f.flags

/-- The name of the file. -/
def baseName (f : Ftw) : Bytes := f.path.drop f.nameoff

/-- The view of a file when only its name is printed. -/
def nameView (f : Ftw) (flags : Follow) : View :=
  { type := f.typeOf flags
    stat := f.statOf flags
    caps := f.caps
    broken := if f.flags = .nofollow then !f.access else true
    name := baseName f }

/-- `%pF`, `%pP` and `%pL`. -/
def nameMeaning (L : Quote.Locale) : Option Table → Ftw → List Op
  | none, f => [.txt (baseName f)]
  | some t, f => coloredText L (color t (nameView f (flagsOf t f))) (baseName f)

def pathMeaning (L : Quote.Locale) : Option Table → Ftw → List Op
  | none, f => [.txt f.path]
  | some t, f => pathOps L t f.path (split true f.path f (flagsOf t f))

def linkMeaning (L : Quote.Locale) : Option Table → Ftw → List Op
  | none, f => [.txt (f.target.getD [])]
  | some t, f => pathOps L t (f.target.getD []) (split false (f.target.getD []) f .follow)

/-- `nameoff` is where the last name begins, and only the paths of roots end with slashes. -/
def Ftw.Framed (f : Ftw) : Prop :=
  f.nameoff = Path.xbaseoff f.path ∧ (f.depth > 0 → f.path.getLast? ≠ some 47)

/-! ## Formats -/

/-- The parts of a format. -/
inductive Dir where
  | lit (s : Bytes)
  | percent | dollar
  | c | d | g | str | zu
  | q | Q | F | P | L | e | E | x | X
  | color (f : Field)
  | reset

/-- How it is written. -/
def Dir.text : Dir → Bytes
  | .lit s => s
  | .percent => [37, 37]
  | .dollar => [36, 36]
  | .c => [37, 99]
  | .d => [37, 100]
  | .g => [37, 103]
  | .str => [37, 115]
  | .zu => [37, 122, 117]
  | .q => [37, 112, 113]
  | .Q => [37, 112, 81]
  | .F => [37, 112, 70]
  | .P => [37, 112, 80]
  | .L => [37, 112, 76]
  | .e => [37, 112, 101]
  | .E => [37, 112, 69]
  | .x => [37, 112, 120]
  | .X => [37, 112, 88]
  | .color f => [36, 123] ++ f.name ++ [125]
  | .reset => [36, 123, 114, 115, 125]

/-- Literal text does not contain `%` or `$`. -/
def Dir.Ok : Dir → Prop
  | .lit s => 37 ∉ s ∧ 36 ∉ s
  | .color f => f ≠ .rs
  | _ => True

/-- A named color. -/
def named : Option Table → Field → Option Ptr
  | none, _ => none
  | some t, f => firstOf t [(true, f)]

/-- An expression's name: flags in cyan, operators in red, everything else in blue. -/
def exName (L : Quote.Locale) (t : Option Table) : Ex → List Op
  | .mk kind argv _ _ => [.esc (named t kind), .txt (quoted L true (argv.headD [])), .rs]

/-- An expression's name and arguments. -/
def exArgs (L : Quote.Locale) (t : Option Table) : Ex → List Op
  | .mk kind argv stats children =>
    exName L t (.mk kind argv stats children) ++ argv.tail.flatMap fun a =>
      [.txt [32], .esc (named t .bld), .txt (quoted L true a), .rs]

/-- A number in yellow. -/
def ylw (t : Option Table) (s : Bytes) : List Op := [.esc (named t .ylw), .txt s, .rs]

/-- ` [successes/evaluations=rate%; timens]`. -/
def exRates (t : Option Table) : List Bytes → List Op
  | [a, b, c, d] =>
    [.txt [32, 91]] ++ ylw t a ++ [.txt [47]] ++ ylw t b ++ [.txt [61]] ++ ylw t (c ++ [37]) ++
      [.txt [59, 32]] ++ ylw t (d ++ [110, 115]) ++ [.txt [93]]
  | _ => []

/-- Two children, and dots for more. -/
def exChildren (print : Ex → List Op) : List Ex → List Op
  | [] => []
  | [a] => .txt [32] :: print a
  | [a, b] => .txt [32] :: print a ++ .txt [32] :: print b
  | a :: b :: _ :: _ => .txt [32] :: print a ++ .txt [32] :: print b ++ [.txt [32, 46, 46, 46]]

/-- An expression with this many levels, and dots for deeper ones. -/
def exTree (L : Quote.Locale) (t : Option Table) (verbose : Bool) : Nat → Ex → List Op
  | 0, _ => [.txt [40, 46, 46, 46, 41]]
  | n + 1, .mk kind argv stats children =>
    [.txt [40]] ++ exArgs L t (.mk kind argv stats children) ++
      (if verbose then exRates t stats else []) ++
      exChildren (exTree L t verbose n) children ++ [.txt [41]]

/-- Expressions have a name, four statistics, and the colors of their kinds. -/
inductive Ex.Ok : Ex → Prop
  | mk (kind : Field) (argv stats : List Bytes) (children : List Ex) :
      kind = .cyn ∨ kind = .red ∨ kind = .blu → argv ≠ [] → stats.length = 4 →
      (∀ c ∈ children, Ex.Ok c) → Ex.Ok (.mk kind argv stats children)

/-- `%pe` and `%pE`. -/
def exMeaning (L : Quote.Locale) (t : Option Table) (verbose : Bool) : Option Ex → List Op
  | none => [.txt [40, 110, 117, 108, 108, 41]]
  | some e => exTree L t verbose 2 e

/-- What a format prints with its arguments, if they fit. -/
def meaning (L : Quote.Locale) (t : Option Table) : List Dir → List Arg → Option (List Op)
  | [], _ => some []
  | .lit s :: ds, as => (meaning L t ds as).map ([.txt s] ++ ·)
  | .percent :: ds, as => (meaning L t ds as).map ([.txt [37]] ++ ·)
  | .dollar :: ds, as => (meaning L t ds as).map ([.txt [36]] ++ ·)
  | .color f :: ds, as => (meaning L t ds as).map ([.esc (named t f)] ++ ·)
  | .reset :: ds, as => (meaning L t ds as).map ([.rs] ++ ·)
  | .c :: ds, .char c :: as => (meaning L t ds as).map ([.txt [c]] ++ ·)
  | .d :: ds, .num s :: as => (meaning L t ds as).map ([.txt s] ++ ·)
  | .g :: ds, .num s :: as => (meaning L t ds as).map ([.txt s] ++ ·)
  | .zu :: ds, .num s :: as => (meaning L t ds as).map ([.txt s] ++ ·)
  | .str :: ds, .str s :: as => (meaning L t ds as).map ([.txt s] ++ ·)
  | .q :: ds, .str s :: as => (meaning L t ds as).map ([.txt (quoted L true s)] ++ ·)
  | .Q :: ds, .str s :: as => (meaning L t ds as).map ([.txt (quoted L false s)] ++ ·)
  | .F :: ds, .ftw f :: as => (meaning L t ds as).map (nameMeaning L t f ++ ·)
  | .P :: ds, .ftw f :: as => (meaning L t ds as).map (pathMeaning L t f ++ ·)
  | .L :: ds, .ftw f :: as => (meaning L t ds as).map (linkMeaning L t f ++ ·)
  | .e :: ds, .expr e :: as => (meaning L t ds as).map (exMeaning L t false e ++ ·)
  | .E :: ds, .expr e :: as => (meaning L t ds as).map (exMeaning L t true e ++ ·)
  | .x :: ds, .expr (some e) :: as => (meaning L t ds as).map (exArgs L t e ++ ·)
  | .X :: ds, .expr (some e) :: as => (meaning L t ds as).map (exName L t e ++ ·)
  | _, _ => none

/-- Files and expressions that are as they should be. -/
def Arg.Ok : Arg → Prop
  | .ftw f => f.Framed
  | .expr (some e) => e.Ok
  | _ => True

/-- Nothing goes wrong outside: links that are printed can be read. -/
def Arg.Readable : Arg → Prop
  | .ftw f => f.target.isSome = true
  | _ => True

/-- The format, as written. -/
def render (ds : List Dir) : Bytes := ds.flatMap Dir.text

/-- Every color in the format is ended later on. -/
def Closed (ds : List Dir) : Prop := ∀ a f b, ds = a ++ .color f :: b → Dir.reset ∈ b

/-- The settings in an environment variable (see C40). -/
def Denotes : Option Bytes → List Setting → Prop
  | none, l => l = []
  | some s, l => Color.LsColors s l

/-- The text alone. -/
def textOf : List Op → Bytes
  | [] => []
  | .txt s :: ops => s ++ textOf ops
  | _ :: ops => textOf ops

end Verif.Cprint
