import Verif.Model.Options
import Verif.Spec.Num

/-!
# What flags and options mean

They may be anywhere on the command line. Those that contradict each other override what came before; the order of all others does not matter.
-/
namespace Verif.Options
open Verif.Cmdline

/-- A flag, option, test or action on the command line: which one it is, and the arguments that it takes up. -/
abbrev Call := Nat × List Arg

/-- The call is one of these. -/
def Call.is (c : Call) (names : List String) : Bool :=
  match table[c.1]? with
  | none => false
  | some e => (names.map A).contains e.arg

/-- One of these is on the command line. -/
def Given (names : List String) (calls : List Call) : Prop := ∃ c ∈ calls, c.is names = true

/-- The last of these on the command line. -/
def last (names : List String) (calls : List Call) : Option Call := (calls.filter fun c => c.is names).getLast?

/-- `-O3`: the value is whatever follows the letter, or the next argument if there is nothing. -/
def LetterValue (letter : UInt8) (c : Call) (v : Arg) : Prop :=
  ∃ before after more, c.2 = (before ++ letter :: after) :: more ∧ letter ∉ before ∧ ((after ≠ [] ∧ v = after) ∨ (after = [] ∧ more.head? = some v))

/-- `-maxdepth 3`: the value is the next argument. -/
def NextValue (c : Call) (v : Arg) : Prop := c.2[1]? = some v

/-- The value is a number that is not negative, and fits an `int`. -/
def Natural (v : Arg) (n : Int) : Prop := Num.Numeral 10 v n ∧ 0 ≤ n ∧ n < 2 ^ 31

/-- The names of search strategies. -/
inductive StrategyName : Arg → Bftw.Strategy → Prop
  | bfs : StrategyName (A "bfs") .bfs
  | dfs : StrategyName (A "dfs") .dfs
  | ids : StrategyName (A "ids") .ids
  | eds : StrategyName (A "eds") .eds

/-- The levels of optimization. -/
inductive Level : Arg → Int → Prop
  | fast : Level (A "fast") 4
  | number (v : Arg) (n : Int) : Natural v n → Level v n

/-- The names of regular expression syntaxes; most of them need a library. -/
inductive RegexName (library : Bool) : Arg → Regex → Prop
  | basic : RegexName library (A "posix-basic") .posixBasic
  | minimal : RegexName library (A "posix-minimal-basic") .posixBasic
  | ed : RegexName library (A "ed") .posixBasic
  | sed : RegexName library (A "sed") .posixBasic
  | extended : RegexName library (A "posix-extended") .posixExtended
  | awk : library = true → RegexName library (A "awk") .awk
  | posixAwk : library = true → RegexName library (A "posix-awk") .awk
  | gnuAwk : library = true → RegexName library (A "gnu-awk") .gnuAwk
  | emacs : library = true → RegexName library (A "emacs") .emacs
  | grep : library = true → RegexName library (A "grep") .grep
  | egrep : library = true → RegexName library (A "egrep") .egrep
  | posixEgrep : library = true → RegexName library (A "posix-egrep") .egrep
  | findutils : library = true → RegexName library (A "findutils-default") .gnuFind

/-- The words in a list that is separated by commas. -/
inductive Words : Arg → List Arg → Prop
  | one (w : Arg) : 44 ∉ w → Words w [w]
  | more (w rest : Arg) (ws : List Arg) : 44 ∉ w → Words rest ws → Words (w ++ 44 :: rest) (w :: ws)

/-- The bits of the debugging flags. -/
def debugBit : List (String × Nat) := [("cost", 0), ("exec", 1), ("opt", 2), ("rates", 3), ("search", 4), ("stat", 5), ("tree", 6)]

/-- `-D`: all, or one of the words stands for this bit. -/
def Debugs (bit : Nat) (calls : List Call) : Prop :=
  ∃ c ∈ calls, c.is ["-D"] = true ∧ ∃ v ws, LetterValue 68 c v ∧ Words v ws ∧
    ((A "all" ∈ ws ∧ bit < 7) ∨ ∃ name, (name, bit) ∈ debugBit ∧ A name ∈ ws)

/-- The settings are what the command line says. -/
structure Meets (sys : Sys) (calls : List Call) (o : Options) : Prop where
  /-- `-P`, `-H`, `-L` and `-follow` override each other. -/
  followRoots : has o.flags FOLLOW_ROOTS = true ↔ ∃ c, last ["-P", "-H", "-L", "-follow"] calls = some c ∧ c.is ["-H"] = true
  followAll : has o.flags FOLLOW_ALL = true ↔ ∃ c, last ["-P", "-H", "-L", "-follow"] calls = some c ∧ c.is ["-L", "-follow"] = true
  /-- `-d`, `-depth` without a number, `-delete` and `-rm` put directories last. -/
  post : has o.flags POST_ORDER = true ↔ Given ["-d", "-delete", "-rm"] calls ∨ ∃ c ∈ calls, c.is ["-depth"] = true ∧ c.2.length = 1
  mount : has o.flags SKIP_MOUNTS = true ↔ Given ["-mount"] calls
  xdev : has o.flags PRUNE_MOUNTS = true ↔ Given ["-x", "-xdev"] calls
  sort : has o.flags SORT = true ↔ Given ["-s"] calls
  /-- The search goes on after errors. -/
  recover : has o.flags RECOVER = true
  /-- Nothing else is asked for. -/
  others : o.flags &&& ~~~(RECOVER ||| FOLLOW_ROOTS ||| FOLLOW_ALL ||| POST_ORDER ||| SKIP_MOUNTS ||| PRUNE_MOUNTS ||| SORT) = 0#32
  xargsSafe : o.xargsSafe = true ↔ Given ["-X"] calls
  unique : o.unique = true ↔ Given ["-unique"] calls
  status : o.status = true ↔ Given ["-status"] calls
  ignoreErrors : o.ignoreErrors = true ↔ Given ["-noerror"] calls
  /-- Files may be changed. -/
  dangerous : o.dangerous = true ↔ Given ["-delete", "-rm", "-exec", "-execdir"] calls
  ignoreRaces : o.ignoreRaces = true ↔
    ∃ c, last ["-ignore_readdir_race", "-noignore_readdir_race"] calls = some c ∧ c.is ["-ignore_readdir_race"] = true
  /-- By default there are warnings on terminals, except with `$POSIXLY_CORRECT`. -/
  warn : ∀ l, last ["-warn", "-nowarn"] calls = l →
    (o.warn = true ↔ (l = none ∧ sys.posixlyCorrect = false ∧ sys.stdinTty = true) ∨ ∃ c, l = some c ∧ c.is ["-warn"] = true)
  /-- By default there are colors on terminals, except with `$NO_COLOR`. -/
  color : ∀ l, last ["-color", "-nocolor"] calls = l →
    (o.coutColors = true ↔ (l = none ∧ sys.noColor = false ∧ sys.colors = true ∧ sys.stdoutTty = true) ∨ ∃ c, l = some c ∧ c.is ["-color"] = true) ∧
    (o.cerrColors = true ↔ (l = none ∧ sys.noColor = false ∧ sys.colors = true ∧ sys.stderrTty = true) ∨ ∃ c, l = some c ∧ c.is ["-color"] = true)
  mindepth : (last ["-mindepth"] calls = none ∧ o.mindepth = 0) ∨ ∃ c v, last ["-mindepth"] calls = some c ∧ NextValue c v ∧ Natural v o.mindepth
  maxdepth : (last ["-maxdepth"] calls = none ∧ o.maxdepth = 2 ^ 31 - 1) ∨ ∃ c v, last ["-maxdepth"] calls = some c ∧ NextValue c v ∧ Natural v o.maxdepth
  strategy : (last ["-S"] calls = none ∧ o.strategy = .bfs) ∨ ∃ c v, last ["-S"] calls = some c ∧ LetterValue 83 c v ∧ StrategyName v o.strategy
  optlevel : (last ["-O"] calls = none ∧ o.optlevel = 3) ∨ ∃ c v, last ["-O"] calls = some c ∧ LetterValue 79 c v ∧ Level v o.optlevel
  /-- By default, there are as many threads as processors, but no more than eight. -/
  threads : (last ["-j"] calls = none ∧ o.threads = min sys.nproc 8) ∨
    ∃ c v, last ["-j"] calls = some c ∧ LetterValue 106 c v ∧ Natural v o.threads ∧ 0 < o.threads
  regex : (last ["-E", "-regextype"] calls = none ∧ o.regex = .posixBasic) ∨
    (∃ c, last ["-E", "-regextype"] calls = some c ∧ c.is ["-E"] = true ∧ o.regex = .posixExtended) ∨
    ∃ c v, last ["-E", "-regextype"] calls = some c ∧ c.is ["-regextype"] = true ∧ NextValue c v ∧ RegexName sys.oniguruma v o.regex
  files0 : (last ["-files0-from"] calls = none ∧ o.files0 = none) ∨ ∃ c v, last ["-files0-from"] calls = some c ∧ NextValue c v ∧ o.files0 = some v
  debug : ∀ bit, o.debug.getLsbD bit = true ↔ Debugs bit calls

/-- Which values are accepted. -/
structure Acceptable (sys : Sys) (c : Call) : Prop where
  color : c.is ["-color"] = true → sys.colors = true
  depth : c.is ["-mindepth", "-maxdepth"] = true → ∃ v n, NextValue c v ∧ Natural v n
  strategy : c.is ["-S"] = true → ∃ v s, LetterValue 83 c v ∧ StrategyName v s
  optlevel : c.is ["-O"] = true → ∃ v n, LetterValue 79 c v ∧ Level v n
  threads : c.is ["-j"] = true → ∃ v n, LetterValue 106 c v ∧ Natural v n ∧ 0 < n
  regex : c.is ["-regextype"] = true → ∃ v r, NextValue c v ∧ RegexName sys.oniguruma v r
  files0 : c.is ["-files0-from"] = true → ∃ v, NextValue c v
  debug : c.is ["-D"] = true → ∃ v ws, LetterValue 68 c v ∧ Words v ws ∧ A "help" ∉ ws

/-- Flags and options that contradict each other, or themselves. -/
def contradictory : List (List String) :=
  [["-P", "-H", "-L", "-follow"], ["-ignore_readdir_race", "-noignore_readdir_race"], ["-warn", "-nowarn"], ["-color", "-nocolor"], ["-mindepth"], ["-maxdepth"],
    ["-S"], ["-O"], ["-j"], ["-E", "-regextype"], ["-files0-from"]]

end Verif.Options
