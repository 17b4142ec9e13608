import Verif.Model.Options
import Verif.Spec.Quote

/-! # What a line means to a shell -/
namespace Verif.Dump
open Verif.Options Verif.Cmdline

/-- To a shell, the text is these words, with a space before each of them. -/
inductive Reads : Arg → List Arg → Prop
  | nil : Reads [] []
  | word (t w rest : Arg) (ws : List Arg) : Spec.Quote.oneWord t = some w → Reads rest ws → Reads (32 :: t ++ rest) (w :: ws)

/-- What else the values of flags and options depend on, apart from what Model/Options.lean says, is not in their way. -/
def Valid (env : Env) : Prop := ∀ i e, table[i]? = some e → e.kind = .flag ∨ e.kind = .option → ∀ args, env.valid i args = true

end Verif.Dump
