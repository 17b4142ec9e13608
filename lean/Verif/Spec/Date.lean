import Verif.Spec.Num
/-! # What a timestamp is -/
namespace Verif.Date
open Verif.Num

/-- Exactly two digits. -/
def Two (s : Bytes) (n : Nat) : Prop := Digits 10 s n ∧ s.length = 2
/-- Exactly four digits. -/
def Four (s : Bytes) (n : Nat) : Prop := Digits 10 s n ∧ s.length = 4
/-- An optional character. -/
def Maybe (c : UInt8) (s : Bytes) : Prop := s = [] ∨ s = [c]

/-- A time zone: nothing means local time; otherwise the number of seconds that its clocks are ahead of UTC.
`Z` is 90, `+` is 43, `-` is 45 and `:` is 58. -/
inductive Zone : Bytes → Option Int → Prop
  | loc : Zone [] none
  | utc : Zone [90] (some 0)
  | eastHours {h : Bytes} {n : Nat} : Two h n → Zone (43 :: h) (some (3600 * n))
  | westHours {h : Bytes} {n : Nat} : Two h n → Zone (45 :: h) (some (-(3600 * n)))
  | east {h c m : Bytes} {n k : Nat} : Two h n → Maybe 58 c → Two m k → Zone (43 :: (h ++ (c ++ m))) (some (3600 * n + 60 * k))
  | west {h c m : Bytes} {n k : Nat} : Two h n → Maybe 58 c → Two m k → Zone (45 :: (h ++ (c ++ m))) (some (-(3600 * n + 60 * k)))

/-- The time of the day. `T` is 84 and a space is 32. -/
inductive Clock : Bytes → Nat → Nat → Nat → Option Int → Prop
  | midnight : Clock [] 0 0 0 none
  | hour {t h z : Bytes} {hh : Nat} {o : Option Int} : (Maybe 84 t ∨ Maybe 32 t) → Two h hh → Zone z o → Clock (t ++ (h ++ z)) hh 0 0 o
  | minute {t h c m z : Bytes} {hh mm : Nat} {o : Option Int} : (Maybe 84 t ∨ Maybe 32 t) → Two h hh → Maybe 58 c → Two m mm → Zone z o →
      Clock (t ++ (h ++ (c ++ (m ++ z)))) hh mm 0 o
  | second {t h c m d s z : Bytes} {hh mm ss : Nat} {o : Option Int} : (Maybe 84 t ∨ Maybe 32 t) → Two h hh → Maybe 58 c → Two m mm → Maybe 58 d → Two s ss →
      Zone z o → Clock (t ++ (h ++ (c ++ (m ++ (d ++ (s ++ z)))))) hh mm ss o

/-- What a timestamp says: `month` and `day` count from one. -/
structure Civil where
  year : Nat
  month : Nat
  day : Nat
  hour : Nat
  minute : Nat
  second : Nat
  deriving DecidableEq, Repr

/-- `YYYY-MM-DD` or `YYYYMMDD`, then the time of the day. -/
inductive Stamp : Bytes → Civil → Option Int → Prop
  | mk {y a m b d t : Bytes} {c : Civil} {o : Option Int} : Four y c.year → Maybe 45 a → Two m c.month → Maybe 45 b → Two d c.day →
      Clock t c.hour c.minute c.second o → Stamp (y ++ (a ++ (m ++ (b ++ (d ++ t))))) c o

end Verif.Date
