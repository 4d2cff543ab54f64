import Verif.AtomU
/-!
# Model of the type tag order (`osc_typetag.c`)
-/

namespace Libo

/-- `osc_typetag_typetags` (`osc_typetag.c` line 29). -/
def typetagTags : List UInt8 := [78, 84, 70, 99, 67, 117, 85, 105, 73, 104, 72, 102, 100, 115]

/-- `osc_typetag_indexes` (`osc_typetag.c` line 31): 128 entries. -/
def typetagIndexes : List Nat :=
  [0, 0, 0, 0, 0, 0, 0, 0, 0, 0, 0, 0, 0, 0, 0, 0, 0, 0, 0, 0, 0, 0, 0, 0, 0, 0, 0, 0, 0, 0, 0, 0, 0, 0, 0, 0, 0, 0, 0, 0, 0, 0,
   0, 0, 0, 0, 0, 0, 0, 0, 0, 0, 0, 0, 0, 0, 0, 0, 0, 0, 0, 0, 0, 0, 0, 0, 0, 4, 0, 0, 2, 0, 10, 8, 0, 0, 0, 0, 0, 0, 0, 0, 0, 0,
   1, 6, 0, 0, 0, 0, 0, 0, 0, 0, 0, 0, 0, 0, 0, 3, 12, 0, 11, 0, 9, 7, 0, 0, 0, 0, 0, 0, 0, 0, 0, 13, 0, 5, 0, 0, 0, 0, 0, 0, 0,
   0, 0, 0]

/-- `osc_typetag_compare` (`osc_typetag.c` lines 39-48); `char` is signed, so a tag of 128 or more indexes outside the table. -/
def typetagCompare (tt1 tt2 : UInt8) : Option Int :=
  if tt1 = tt2 then some 0
  else do
    let i ← typetagIndexes[tt1.toNat]?
    let j ← typetagIndexes[tt2.toNat]?
    if i < j then some (-1) else some 1

/-- The choice callers make: `osc_typetag_compare(tt1, tt2) > 0 ? tt1 : tt2` (`osc_expr.c` lines 2381, 2483, 2548). -/
def typetagLarger (tt1 tt2 : UInt8) : Option UInt8 :=
  (typetagCompare tt1 tt2).map fun c => if 0 < c then tt1 else tt2

/-- One arm of the switch in `osc_typetag_getLargestType` (`osc_typetag.c` lines 56-121): the constant of
`osc_typetag.h` lines 34-49 that the arm uses; unknown tags share the arm of `'i'`. -/
def typesConst (tt : UInt8) : Nat :=
  if tt = 78 then 0 else if tt = 84 then 1 else if tt = 70 then 1 else if tt = 99 then 3 else if tt = 67 then 4
  else if tt = 117 then 5 else if tt = 85 then 6 else if tt = 105 then 7 else if tt = 73 then 8 else if tt = 104 then 9
  else if tt = 72 then 10 else if tt = 102 then 11 else if tt = 100 then 12 else if tt = 115 then 13 else 7

/-- The inner loop of `osc_typetag_getLargestType` over one array of atoms (`osc_typetag.c` lines 55-122). -/
def largestIn (largest : Nat) : List UAtom → Nat
  | [] => largest
  | a :: as => largestIn (if typesConst a.tag > largest then typesConst a.tag else largest) as

/-- `osc_typetag_getLargestType` (`osc_typetag.c` lines 50-125); `none` would be an index outside the table. -/
def getLargestType (argv : List (List UAtom)) : Option UInt8 :=
  typetagTags[argv.foldl largestIn 0]?

end Libo
