import Verif.Model.Io
/-!
# What reading and writing are supposed to do
-/
namespace Verif.Io

/-- How a transfer ends: it is still going on, the file ends, or there is an error. -/
inductive End where
  | pending | eof | error (e : Nat)
  deriving DecidableEq, Repr

/-- Everything that can be read before the transfer ends, whatever pieces it comes in, and how it ends.  Interruptions do not count. -/
def delivered : List RResp → List UInt8 × End
  | [] => ([], .pending)
  | .eintr :: s => delivered s
  | .error e :: s => if e = EINTR then delivered s else ([], .error e)
  | .bytes [] :: _ => ([], .eof)
  | .bytes (b :: l) :: s => (b :: l ++ (delivered s).1, (delivered s).2)

/-- How much can be written before the transfer ends, and how it ends. -/
def accepted : List WResp → Nat × End
  | [] => (0, .pending)
  | .eintr :: s => accepted s
  | .error e :: s => if e = EINTR then accepted s else (0, .error e)
  | .accept 0 :: _ => (0, .eof)
  | .accept (n + 1) :: s => (n + 1 + (accepted s).1, (accepted s).2)

/-- The names in a file where every name is followed by a NUL (the last one may lack it). -/
def names (cur : List UInt8) : List UInt8 → List (List UInt8)
  | [] => if cur = [] then [] else [cur]
  | b :: l => if b = 0 then cur :: names [] l else names (cur ++ [b]) l

end Verif.Io
