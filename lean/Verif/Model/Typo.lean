/-!
# Distance between command line options, src/typo.c

A string is a list of bytes without the terminator.
-/
namespace Verif.Typo

abbrev Bytes := List UInt8

/-- `key_coords`, src/typo.c:11-114: column, row and shift; everything else is 0. -/
def keyCoords (c : UInt8) : Int × Int × Int :=
  match c.toNat with
  | 96 => (0, 0, 0)
  | 126 => (0, 0, 1)
  | 49 => (3, 0, 0)
  | 33 => (3, 0, 1)
  | 50 => (6, 0, 0)
  | 64 => (6, 0, 1)
  | 51 => (9, 0, 0)
  | 35 => (9, 0, 1)
  | 52 => (12, 0, 0)
  | 36 => (12, 0, 1)
  | 53 => (15, 0, 0)
  | 37 => (15, 0, 1)
  | 54 => (18, 0, 0)
  | 94 => (18, 0, 1)
  | 55 => (21, 0, 0)
  | 38 => (21, 0, 1)
  | 56 => (24, 0, 0)
  | 42 => (24, 0, 1)
  | 57 => (27, 0, 0)
  | 40 => (27, 0, 1)
  | 48 => (30, 0, 0)
  | 41 => (30, 0, 1)
  | 45 => (33, 0, 0)
  | 95 => (33, 0, 1)
  | 61 => (36, 0, 0)
  | 43 => (36, 0, 1)
  | 9 => (1, 3, 0)
  | 113 => (4, 3, 0)
  | 81 => (4, 3, 1)
  | 119 => (7, 3, 0)
  | 87 => (7, 3, 1)
  | 101 => (10, 3, 0)
  | 69 => (10, 3, 1)
  | 114 => (13, 3, 0)
  | 82 => (13, 3, 1)
  | 116 => (16, 3, 0)
  | 84 => (16, 3, 1)
  | 121 => (19, 3, 0)
  | 89 => (19, 3, 1)
  | 117 => (22, 3, 0)
  | 85 => (22, 3, 1)
  | 105 => (25, 3, 0)
  | 73 => (25, 3, 1)
  | 111 => (28, 3, 0)
  | 79 => (28, 3, 1)
  | 112 => (31, 3, 0)
  | 80 => (31, 3, 1)
  | 91 => (34, 3, 0)
  | 123 => (34, 3, 1)
  | 93 => (37, 3, 0)
  | 125 => (37, 3, 1)
  | 92 => (40, 3, 0)
  | 124 => (40, 3, 1)
  | 97 => (5, 6, 0)
  | 65 => (5, 6, 1)
  | 115 => (8, 6, 0)
  | 83 => (8, 6, 1)
  | 100 => (11, 6, 0)
  | 68 => (11, 6, 1)
  | 102 => (14, 6, 0)
  | 70 => (14, 6, 1)
  | 103 => (17, 6, 0)
  | 71 => (17, 6, 1)
  | 104 => (20, 6, 0)
  | 72 => (20, 6, 1)
  | 106 => (23, 6, 0)
  | 74 => (23, 6, 1)
  | 107 => (26, 6, 0)
  | 75 => (26, 6, 1)
  | 108 => (29, 6, 0)
  | 76 => (29, 6, 1)
  | 59 => (32, 6, 0)
  | 58 => (32, 6, 1)
  | 39 => (35, 6, 0)
  | 34 => (35, 6, 1)
  | 10 => (38, 6, 0)
  | 122 => (6, 9, 0)
  | 90 => (6, 9, 1)
  | 120 => (9, 9, 0)
  | 88 => (9, 9, 1)
  | 99 => (12, 9, 0)
  | 67 => (12, 9, 1)
  | 118 => (15, 9, 0)
  | 86 => (15, 9, 1)
  | 98 => (18, 9, 0)
  | 66 => (18, 9, 1)
  | 110 => (21, 9, 0)
  | 78 => (21, 9, 1)
  | 109 => (24, 9, 0)
  | 77 => (24, 9, 1)
  | 44 => (27, 9, 0)
  | 60 => (27, 9, 1)
  | 46 => (30, 9, 0)
  | 62 => (30, 9, 1)
  | 47 => (33, 9, 0)
  | 63 => (33, 9, 1)
  | 32 => (18, 12, 0)
  | _ => (0, 0, 0)

/-- `char_distance()`, src/typo.c:116-123. -/
def charDistance (a b : UInt8) : Nat :=
  let (ax, ay, az) := keyCoords a
  let (bx, by_, bz) := keyCoords b
  (ax - bx).natAbs + (ay - by_).natAbs + (az - bz).natAbs

/-- `insert_cost`, src/typo.c:129. -/
def insertCost : Nat := 12

/-- The inner loop, src/typo.c:145-157: `prev` is `row0[j - 1]` and `left` is `row1[j - 1]`; the first
list is the rest of `row0`, the second one the rest of `expected`.  The result is the rest of `row1`.
The values are small enough for an `int` (see `C30_small`). -/
def rowLoop (a : UInt8) : (prev left : Nat) → List Nat → Bytes → List Nat
  | prev, left, up :: row0, b :: expected =>
    let cost := prev + charDistance a b
    let cost := if up + insertCost < cost then up + insertCost else cost
    let cost := if left + insertCost < cost then left + insertCost else cost
    cost :: rowLoop a up cost row0 expected
  | _, _, _, _ => []

/-- One time around the outer loop, src/typo.c:141-162. -/
def nextRow (expected : Bytes) (a : UInt8) (row0 : List Nat) : List Nat :=
  match row0 with
  | [] => []
  | first :: row0 => (first + insertCost) :: rowLoop a first (first + insertCost) row0 expected

/-- The outer loop, src/typo.c:141-162. -/
def rows (expected : Bytes) : Bytes → List Nat → List Nat
  | [], row0 => row0
  | a :: actual, row0 => rows expected actual (nextRow expected a row0)

/-- `typo_distance()`, src/typo.c:125-165. -/
def typoDistance (actual expected : Bytes) : Nat :=
  ((rows expected actual ((List.range (expected.length + 1)).map (insertCost * ·))).getLast?).getD 0

/-- The loop in `table_lookup_fuzzy()`, src/parse.c:3261-3267: the best entry so far, and its
distance. -/
def fuzzyLoop (arg : Bytes) : List Bytes → Option (Bytes × Nat) → Option (Bytes × Nat)
  | [], best => best
  | entry :: table, best =>
    let dist := typoDistance arg entry
    fuzzyLoop arg table
      (match best with
        | none => some (entry, dist)
        | some (b, d) => if dist < d then some (entry, dist) else some (b, d))

/-- `table_lookup_fuzzy()`, src/parse.c:3257-3270. -/
def tableLookupFuzzy (table : List Bytes) (arg : Bytes) : Option Bytes := (fuzzyLoop arg table none).map (·.1)

end Verif.Typo
