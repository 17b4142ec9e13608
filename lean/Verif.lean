import Verif.Props.Time
import Verif.Props.Opt
import Verif.Props.Trie
import Verif.Props.TrieMem
import Verif.Props.Dump
import Verif.Props.Quote
import Verif.Props.Exec
import Verif.Props.Ioq
import Verif.Props.Sighook
import Verif.Props.Bftw
import Verif.Props.Cache
import Verif.Props.Ids
import Verif.Props.Typo
import Verif.Props.Num
import Verif.Props.Perm
import Verif.Props.Date
import Verif.Props.Path
import Verif.Props.Printf
import Verif.Props.Printx
import Verif.Props.Color
import Verif.Props.Cmdline
import Verif.Props.Bit
import Verif.Props.Io
import Verif.Props.Dstring
import Verif.Props.Alloc
import Verif.Props.List
import Verif.Props.Strmode
import Verif.Props.Limits
import Verif.Props.Memo
import Verif.Props.Spawn
import Verif.Props.Dir
import Verif.Props.Mtab
import Verif.Props.Stat
import Verif.Props.Files
import Verif.Props.Search
import Verif.Props.Cprint
import Verif.Props.Delete
import Verif.Props.Main
import Verif.Props.Options
import Verif.Props.Directive
import Verif.Props.Stamp
import Verif.Props.Ls
import Verif.Props.Glob
import Verif.Props.Tests
import Verif.Model.Whole
import Verif.Spec.Whole
import Verif.Lemmas.Numbering
import Verif.Lemmas.Whole
import Verif.Lemmas.WholeOpt
import Verif.Props.Whole
import Verif.Lemmas.IoqRun
import Verif.Model.Prompt
import Verif.Spec.Prompt
import Verif.Lemmas.Prompt
import Verif.Props.Prompt
import Verif.Model.Regex
import Verif.Spec.Regex
import Verif.Lemmas.Regex
import Verif.Props.Regex
import Verif.Model.Fsade
import Verif.Spec.Fsade
import Verif.Lemmas.Fsade
import Verif.Props.Fsade
import Verif.Model.Bar
import Verif.Spec.Bar
import Verif.Lemmas.Bar
import Verif.Props.Bar
import Verif.Model.Streams
import Verif.Spec.Streams
import Verif.Lemmas.Streams
import Verif.Props.Streams
import Verif.Model.Diag
import Verif.Spec.Diag
import Verif.Lemmas.Diag
import Verif.Props.Diag
import Verif.Model.Daystart
import Verif.Spec.Daystart
import Verif.Props.Daystart
import Verif.Model.Quota
import Verif.Spec.Quota
import Verif.Lemmas.BftwCongr
import Verif.Lemmas.IdsFree
import Verif.Lemmas.Quota
import Verif.Props.Quota
import Verif.Props.Batch
import Verif.Props.Uring
import Verif.Model.Toggle
import Verif.Spec.Toggle
import Verif.Lemmas.Toggle
import Verif.Props.Toggle
import Verif.Model.IoqLife
import Verif.Spec.IoqLife
import Verif.Lemmas.IoqLife
import Verif.Props.IoqLife
import Verif.Props.Pager
import Verif.Props.CtxLife
import Verif.Props.BarSignal
import Verif.Props.Threads
import Verif.Props.Position
import Verif.Props.Ask
import Verif.Props.Exit
import Verif.Props.Roots
