import Verif.ExprSemNum
import Verif.ExprSyntax
import Verif.ExprMath
import Verif.Name
import Verif.Props.ExprList
/-!
# Specification: what the expression language means

A definitional interpreter for syntax trees (`ExprSyntax.lean`).  It knows nothing of memory, atoms, arrays or the bytes of a bundle:
a bundle is a list of addresses with values, and an expression has a list of values or an error code, and changes the bundle.

`none` says that the specification does not cover the expression: arithmetic that overflows in C, results that are not a number (NaN),
functions that are left out, addresses that are patterns, bundles of 2 GB and more.
-/

namespace Libo.Sem
open Libo Libo.Syn Libo.Props Libo.Ieee

/-! ### Bundles and values -/

/-- A bundle: the addresses in the order of the messages, with their values. -/
abbrev Binds := List (Bytes × List Val)

/-- The values of an address: of its first message. -/
def Binds.get (B : Binds) (a : Bytes) : Option (List Val) := (B.find? fun x => x.1 = a).map (·.2)

/-- Bind an address: in its first message, or in a new one at the end. -/
def Binds.set : Binds → Bytes → List Val → Binds
  | [], a, vs => [(a, vs)]
  | x :: B, a, vs => if x.1 = a then (a, vs) :: B else x :: Binds.set B a vs

/-- Number of bytes of the bundle. -/
def Binds.size (B : Binds) : Nat := 16 + sizeVMsgs (B.map fun x => .mk (some x.1) x.2)

/-- Numbers, strings without NUL, time tags, true, false and nil. -/
def simple (v : Val) : Bool :=
  decide (sizeVal v < 2147483648) && match v with
  | .num _ _ => true
  | .time _ _ => true
  | .bare t => t == 84 || t == 70 || t == 78
  | .str s => !s.contains 0
  | _ => false

/-- Addresses as one should use them: a slash with something behind it, without the characters of patterns, NUL, blanks and `#`. -/
def nameOk (a : Bytes) : Bool :=
  a.head? == some 47 && decide (2 ≤ a.length) && a.all fun c => !([0, 32, 35, 42, 63, 91, 93, 123, 125] : List UInt8).contains c

/-- True or false. -/
def truthVal (b : Bool) : Val := .bare (if b then 84 else 70)

/-! ### Operators -/

/-- Arithmetic on two integers: `ok` says where it is covered. -/
def onInts (x y : Val) (f : ITy → Int → ITy → Int → Option R1) : Option R1 :=
  match asInt x, asInt y with
  | some (t1, n1), some (t2, n2) => f t1 n1 t2 n2
  | _, _ => none

/-- Where signed arithmetic must not overflow, and elsewhere is done modulo two to the width. -/
def wraps (t : ITy) (n : Int) : Bool := (t != .i32 && t != .i64) || decide (t.has n)

def isStr : Val → Bool
  | .str _ => true
  | _ => false

/-- Two strings, or a string and a number. -/
def withStr (x y : Val) : Bool := (isStr x && (isStr y || (asFp y).isSome)) || (isStr y && (asFp x).isSome)

/-- Arithmetic on numbers: with doubles if one of them is of a floating point type, and otherwise with integers. -/
def onNums (x y : Val) (g : Fp → Fp → Option R1) (f : ITy → Int → ITy → Int → Option R1) : Option R1 :=
  if floating x || floating y then
    match asFp x, asFp y with
    | some a, some b => g a b
    | _, _ => none
  else onInts x y f

/-- A whole number of seconds below 2^32. -/
def asSeconds (v : Val) : Option Nat :=
  match asFp v with
  | some (.fin false m) => if m % 2 ^ 1074 = 0 ∧ m / 2 ^ 1074 < 2 ^ 32 then some (m / 2 ^ 1074) else none
  | _ => none

/-- The time tag so many whole seconds later. -/
def later (s f n : Nat) : R1 := .ok (.time ((s + n) % 2 ^ 32) f)

def add (x y : Val) : Option R1 :=
  match x, y with
  | .str s, .str t => some (.ok (.str (s ++ t)))
  | .time s f, y => (asSeconds y).map (later s f)
  | x, .time s f => (asSeconds x).map (later s f)
  | x, y => onNums x y (fun a b => (dbl (Fp.add f64 a b)).map .ok) fun t1 n1 t2 n2 =>
    if wraps (wider t1 t2) (n1 + n2) then some (.ok ((wider t1 t2).val (n1 + n2))) else none

/-- Subtraction of integers is done in 32 bits.  The difference of time tags is covered for whole seconds. -/
def sub (x y : Val) : Option R1 :=
  if withStr x y then some (.error 1) else
    match x, y with
    | .time s f, .time s' f' => if f = f' ∧ s' ≤ s then (dbl (.fin false ((s - s') * 2 ^ 1074))).map .ok else none
    | .time s f, y =>
      match asSeconds y with
      | some n => if n < s then some (.ok (.time (s - n) f)) else none
      | none => none
    | x, y => onNums x y (fun a b => (dbl (Fp.sub f64 a b)).map .ok) fun _ n1 _ n2 =>
      if ITy.i32.has n1 ∧ ITy.i32.has n2 ∧ ITy.i32.has (n1 - n2) then some (.ok (ITy.i32.val (n1 - n2))) else none

/-- A product of `uint16`s is computed in 32 bits. -/
def mul (x y : Val) : Option R1 :=
  if withStr x y then some (.error 1) else onNums x y (fun a b => (dbl (Fp.mul f64 a b)).map .ok) fun t1 n1 t2 n2 =>
    if wraps (wider t1 t2) (n1 * n2) ∧ (wider t1 t2 = .u16 → ITy.u16.conv n1 * ITy.u16.conv n2 < 2 ^ 31)
    then some (.ok ((wider t1 t2).val (n1 * n2))) else none

/-- Division of doubles; by zero it gives a string. -/
def divFp (a b : Fp) : Option R1 :=
  match b with
  | .fin _ 0 => some (.ok (.str (n! "Inf")))
  | b => (dbl (Fp.div f64 a b)).map .ok

/-- Division by zero gives a string; not covered in `uint8`, and if one of the operands is not a number of the wider type. -/
def div (x y : Val) : Option R1 :=
  if withStr x y then some (.error 1) else onNums x y divFp fun t1 n1 t2 n2 =>
    if n2 = 0 then some (.ok (.str (n! "Inf")))
    else if wider t1 t2 ≠ .u8 ∧ (wider t1 t2).has n1 ∧ (wider t1 t2).has n2 ∧ (wider t1 t2).has (n1.tdiv n2)
    then some (.ok ((wider t1 t2).val (n1.tdiv n2))) else none

/-- The order of two values: of strings that of their bytes, of time tags that of the times, of numbers that of the doubles they stand for,
where `none` says that one of them is not a number (NaN).  A time tag can be compared with a whole number of seconds. -/
def order (x y : Val) : Option (Option Ordering) :=
  match x, y with
  | .str s, .str t => some (some (if s < t then .lt else if s = t then .eq else .gt))
  | .time s1 f1, .time s2 f2 => some (some (compare (s1 * 2 ^ 32 + f1) (s2 * 2 ^ 32 + f2)))
  | .time s f, y =>
    match asSeconds y with
    | some n => some (some (compare (s * 2 ^ 32 + f) (n * 2 ^ 32)))
    | none => none
  | x, y =>
    match asFp x, asFp y with
    | some a, some b =>
      match place a, place b with
      | some p, some q => some (some (compare p q))
      | _, _ => some none
    | _, _ => none

/-- Comparison: a string is larger than every number. -/
def cmp (p : Option Ordering → Bool) (x y : Val) : Option R1 :=
  match order x y with
  | some o => some (.ok (truthVal (p o)))
  | none =>
    if isStr x && (asFp y).isSome then some (.ok (truthVal (p (some .gt))))
    else if isStr y && (asFp x).isSome then some (.ok (truthVal (p (some .lt))))
    else none

/-- Equality: a string and a number cannot be compared. -/
def same (p : Option Ordering → Bool) (x y : Val) : Option R1 :=
  match order x y with
  | some o => some (.ok (truthVal (p o)))
  | none => if withStr x y then some (.error 1) else none

def isLt (o : Option Ordering) : Bool := o == some .lt
def isLe (o : Option Ordering) : Bool := o == some .lt || o == some .eq
def isGt (o : Option Ordering) : Bool := o == some .gt
def isGe (o : Option Ordering) : Bool := o == some .gt || o == some .eq
def isEq (o : Option Ordering) : Bool := o == some .eq

/-- `&` and `|`. -/
def both (p : Bool → Bool → Bool) (x y : Val) : Option R1 := some (.ok (truthVal (p x.truth y.truth)))

/-- Apply to each pair, up to the first error. -/
def each (f : Val → Val → Option R1) : List (Val × Val) → Option R
  | [] => some (.ok [])
  | p :: ps =>
    match f p.1 p.2 with
    | none => none
    | some (.error c) => some (.error c)
    | some (.ok v) =>
      match each f ps with
      | none => none
      | some (.error c) => some (.error c)
      | some (.ok vs) => some (.ok (v :: vs))

/-- An operator on lists. -/
def op2 (f : Val → Val → Option R1) : List (List Val) → Option R
  | [xs, ys] =>
    if (xs.length = 1 ∧ ys.length = 0) ∨ (xs.length = 0 ∧ ys.length = 1) then none else each f (broadcast xs ys)
  | _ => none

/-! ### Functions -/

/-- Results that are not too long. -/
def short (vs : List Val) : Option R := if vs.length < 2147483648 then some (.ok vs) else none

/-- `!` of one value. -/
def not1 (v : Val) : Option Val :=
  match v with
  | .bare t => if t = 84 then some (truthVal false) else if t = 70 ∨ t = 78 then some (truthVal true) else none
  | v => match asInt v with
    | some (t, n) => if t = .i32 ∨ t = .u32 then some (ITy.i32.val (if n = 0 then 1 else 0)) else none
    | none => none

/-- `++` and `--` of one value. -/
def step1 (d : Int) (v : Val) : Option Val :=
  match asInt v with
  | some (t, n) => if (t = .i32 ∧ ITy.i32.has (n + d)) ∨ t = .u64 then some (t.val (n + d)) else none
  | none =>
    match v with
    | .num tag b =>
      if tag = 100 then dbl (Fp.add f64 (Fp.ofBits f64 b) (Fp.ofInt f64 d))
      else if tag = 102 then flt (Fp.add f32 (Fp.ofBits f32 b) (Fp.ofInt f32 d)) else none
    | _ => none

/-- A function of one list that works on each element. -/
def map1 (f : Val → Option Val) : List (List Val) → Option R
  | [vs] => (vs.mapM f).map .ok
  | _ => none

/-- A function of one list. -/
def fun1 (f : List Val → List Val) : List (List Val) → Option R
  | [vs] => some (.ok (f vs))
  | _ => none

/-- `nth`: elements at positions, counted from zero; a position outside the list is an error. -/
def nth : List (List Val) → Option R
  | vs :: iss =>
    match iss.flatten.mapM asInt with
    | none => none
    | some ixs =>
      if ixs.length < 2147483648 then
        if ∀ x ∈ ixs, 0 ≤ ITy.i32.conv x.2 ∧ ITy.i32.conv x.2 < vs.length
        then some (.ok (ixs.filterMap fun x => vs[(ITy.i32.conv x.2).toNat]?)) else some (.error 1)
      else none
  | _ => none

/-- `nfill`: a list several times. -/
def nfill : List (List Val) → Option R
  | [v :: _, vs] =>
    match asInt v with
    | some (_, n) =>
      if (ITy.i32.conv n).toNat * vs.length < 2147483648
      then some (.ok (List.replicate (ITy.i32.conv n).toNat vs).flatten) else none
    | none => none
  | _ => none

/-- `interleave`: the first elements of all lists, then the second ones, up to the end of the shortest list. -/
def interleave : List (List Val) → Option R
  | vs :: vss =>
    let m := (vss.map List.length).foldl min vs.length
    if (vss.length + 1) * m < 2147483648
    then some (.ok ((List.range m).flatMap fun j => (vs :: vss).filterMap (·[j]?))) else none
  | _ => none

/-- The positions of the elements that count as true. -/
def nonzero (vs : List Val) : List Val :=
  ((List.range vs.length).filter fun i => (vs[i]?.map Val.truth).getD false).map fun i : Nat => ITy.i32.val i

/-- A function: its name, how many arguments it takes (at least, at most), and what it computes. -/
structure Fun where
  name : Bytes
  least : Nat
  most : Option Nat
  sem : List (List Val) → Option R

def opFun (name : Bytes) (f : Val → Val → Option R1) : Fun := ⟨name, 2, some 2, op2 f⟩

/-- The exact remainders of numbers. -/
def onPairs (f : Fp → Fp → Fp) : List (List Val) → Option R
  | [xs, ys] => if (xs ++ ys).all (fun v => (asFp v).isSome) then op2 (onFps f) [xs, ys] else none
  | _ => none

def fmod : List (List Val) → Option R := onPairs remainder

/-- Functions of numbers and texts (`ExprSemNum.lean`). -/
def numFuns : List Fun := [
  opFun (n! "%") modulo, opFun (n! "mod") modulo, ⟨n! "fmod", 2, some 2, fmod⟩,
  ⟨n! "abs", 1, some 1, eachFp fun x => dbl x.abs⟩, ⟨n! "ceil", 1, some 1, eachFp fun x => dbl (Fp.ceil f64 x)⟩,
  ⟨n! "floor", 1, some 1, eachFp fun x => dbl (Fp.floor f64 x)⟩, ⟨n! "round", 1, some 1, eachFp fun x => dbl (nearestWhole x)⟩,
  ⟨n! "sign", 1, some 1, eachFp signVal⟩, ⟨n! "sum", 1, some 1, sum⟩, ⟨n! "product", 1, some 1, product⟩,
  ⟨n! "mean", 1, some 1, mean⟩, ⟨n! "avg", 1, some 1, mean⟩, ⟨n! "dot", 2, some 2, dot⟩,
  ⟨n! "min", 1, some 1, minimum⟩, ⟨n! "max", 1, some 1, maximum⟩, ⟨n! "extrema", 1, some 1, extrema⟩, ⟨n! "range", 1, some 1, range⟩,
  ⟨n! "clip", 3, some 3, clip⟩, ⟨n! "aseq", 2, some 3, aseq⟩, ⟨n! "cumsum", 1, some 1, cumsum⟩,
  ⟨n! "strlen", 1, some 1, map1 strlen1⟩, ⟨n! "strfind", 2, some 2, strfind⟩, ⟨n! "split", 2, some 2, split⟩,
  ⟨n! "join", 2, none, join⟩, ⟨n! "strchar", 2, some 2, strchar⟩,
  ⟨n! "int8", 1, some 1, map1 (castInt .i8)⟩, ⟨n! "char", 1, some 1, map1 (castInt .i8)⟩, ⟨n! "int16", 1, some 1, map1 (castInt .i16)⟩,
  ⟨n! "int32", 1, some 1, map1 (castInt .i32)⟩, ⟨n! "int64", 1, some 1, map1 (castInt .i64)⟩, ⟨n! "uint8", 1, some 1, map1 (castInt .u8)⟩,
  ⟨n! "uint16", 1, some 1, map1 (castInt .u16)⟩, ⟨n! "uint32", 1, some 1, map1 (castInt .u32)⟩,
  ⟨n! "uint64", 1, some 1, map1 (castInt .u64)⟩, ⟨n! "bool", 1, some 1, fun1 (List.map fun v => truthVal v.truth)⟩,
  ⟨n! "bitand", 2, some 2, bitwise (· &&& ·)⟩, ⟨n! "bitor", 2, some 2, bitwise (· ||| ·)⟩,
  ⟨n! "hton32", 1, some 1, map1 swap32⟩, ⟨n! "ntoh32", 1, some 1, map1 swap32⟩,
  ⟨n! "hton64", 1, some 1, map1 (swap64 fun _ => .u64)⟩, ⟨n! "ntoh64", 1, some 1, map1 (swap64 in64)⟩]

/-- Operators and functions of lists. -/
def listFuns : List Fun := [
  opFun (n! "+") add, opFun (n! "-") sub, opFun (n! "*") mul, opFun (n! "/") div,
  opFun (n! "add") add, opFun (n! "sub") sub, opFun (n! "mul") mul, opFun (n! "div") div,
  opFun (n! "<") (cmp isLt), opFun (n! "<=") (cmp isLe), opFun (n! ">") (cmp isGt), opFun (n! ">=") (cmp isGe),
  opFun (n! "lt") (cmp isLt), opFun (n! "le") (cmp isLe), opFun (n! "gt") (cmp isGt), opFun (n! "ge") (cmp isGe),
  opFun (n! "==") (same isEq), opFun (n! "!=") (same fun o => !isEq o), opFun (n! "eq") (same isEq), opFun (n! "ne") (same fun o => !isEq o),
  opFun (n! "&") (both (· && ·)), opFun (n! "|") (both (· || ·)), opFun (n! "and") (both (· && ·)), opFun (n! "or") (both (· || ·)),
  ⟨n! "!", 1, some 1, map1 not1⟩, ⟨n! "not", 1, some 1, map1 not1⟩,
  ⟨n! "++", 1, some 1, map1 (step1 1)⟩, ⟨n! "plus1", 1, some 1, map1 (step1 1)⟩,
  ⟨n! "--", 1, some 1, map1 (step1 (-1))⟩, ⟨n! "minus1", 1, some 1, map1 (step1 (-1))⟩,
  ⟨n! "list", 0, none, fun vss => short vss.flatten⟩,
  ⟨n! "length", 1, some 1, fun vss => if vss.flatten.length < 2147483648 then some (.ok [ITy.i32.val vss.flatten.length]) else none⟩,
  ⟨n! "reverse", 1, some 1, fun1 List.reverse⟩, ⟨n! "rev", 1, some 1, fun1 List.reverse⟩,
  ⟨n! "first", 1, some 1, fun1 (List.take 1)⟩, ⟨n! "last", 1, some 1, fun1 (·.getLast?.toList)⟩,
  ⟨n! "rest", 1, some 1, fun1 List.tail⟩, ⟨n! "butlast", 1, some 1, fun1 List.dropLast⟩,
  ⟨n! "nonzero", 1, some 1, fun1 nonzero⟩, ⟨n! "identity", 1, some 1, fun1 id⟩,
  ⟨n! "nth", 2, none, nth⟩, ⟨n! "nfill", 2, some 2, nfill⟩, ⟨n! "interleave", 2, none, interleave⟩,
  ⟨n! "prog1", 1, none, fun vss => vss.head?.map .ok⟩,
  ⟨n! "prog2", 1, none, fun | _ :: vs :: _ => some (.ok vs) | [_] => some (.error 1) | _ => none⟩,
  ⟨n! "progn", 1, none, fun vss => vss.getLast?.map .ok⟩]

/-- The letter of the type of a value. -/
def typeTag : Val → UInt8
  | .num t _ => t
  | .time _ _ => 116
  | .bare t => t
  | .str _ => 115
  | .blob _ => 98
  | .bndl _ => 46

/-- A function without arguments that gives a `double`, here as its 64 bits. -/
def constFun (name : Bytes) (bits : Nat) : Fun := ⟨name, 0, some 0, fun | [] => some (.ok [.num 100 bits]) | _ => none⟩

/-- The constants. -/
def constFuns : List Fun := [
  constFun (n! "pi") 0x400921FB54442D18, constFun (n! "twopi") 0x401921FB54442D18, constFun (n! "halfpi") 0x3FF921FB54442D18,
  constFun (n! "quarterpi") 0x3FE921FB54442D18, constFun (n! "oneoverpi") 0x3FD45F306DC9C883, constFun (n! "twooverpi") 0x3FE45F306DC9C883,
  constFun (n! "degtorad") 0x3F91DF3300DE4C51, constFun (n! "radtodeg") 0x404CA5DC1E7967CB, constFun (n! "e") 0x4005BF0A8B145769,
  constFun (n! "lntwo") 0x3FE62E42FEFA39EF, constFun (n! "lnten") 0x40026BB1BBB55516, constFun (n! "logtwoe") 0x3FF71547652B82FE,
  constFun (n! "logtene") 0x3FDBCB7B1526E50E, constFun (n! "sqrttwo") 0x3FF6A09E667F3BCD, constFun (n! "sqrthalf") 0x3FE6A09E667F3BCD,
  constFun (n! "phi") 0x3FF9E3779B97F4A8, constFun (n! "twelfth_root_of_2") 0x3FF0F38F92D97962, constFun (n! "thirteenth_root_of_3") 0x3FF16931C8BC34A9]

/-- Roots, exponents, the remainder nearest to 0, types. -/
def rootFuns : List Fun := [
  ⟨n! "sqrt", 1, some 1, eachFp fun x => dbl (Expr.fpSqrt x)⟩, ⟨n! "logb", 1, some 1, eachFp fun x => dbl (logOf x)⟩,
  ⟨n! "ilogb", 1, some 1, eachFp exponentVal⟩, ⟨n! "remainder", 2, some 2, onPairs nearRemainder⟩,
  ⟨n! "float64", 1, some 1, eachFp dbl⟩, ⟨n! "typetags", 1, some 1, fun1 (List.map fun v => ITy.i8.val (typeTag v).toNat)⟩]

/-- Scaling, products of vectors, determinants, strings of values, casts to types by letter. -/
def moreFuns : List Fun := [
  ⟨n! "scale", 5, some 5, scale⟩, ⟨n! "cross", 2, some 2, cross⟩, ⟨n! "string", 1, some 1, map1 string1⟩,
  ⟨n! "readstring", 1, some 1, readstring⟩, ⟨n! "cast", 2, some 2, cast⟩, ⟨n! "det", 1, none, determinant⟩,
  ⟨n! "float32", 1, some 1, map1 single1⟩]

/-- The functions that are covered. -/
def funs : List Fun := listFuns ++ numFuns ++ constFuns ++ rootFuns ++ moreFuns

def funOf (name : Bytes) : Option Fun := funs.find? fun f => f.name == name

/-- Results consist of simple values. -/
def checked : Option R → Option R
  | some (.ok vs) => if vs.all simple then some (.ok vs) else none
  | r => r

/-- A call. -/
def call (name : Bytes) (vss : List (List Val)) : Option R :=
  match funOf name with
  | some f => checked (f.sem vss)
  | none => none

/-- The function takes so many arguments. -/
def accepts (name : Bytes) (n : Nat) : Bool :=
  match funOf name with
  | some f => decide (f.least ≤ n) && (match f.most with | some m => decide (n ≤ m) | none => true)
  | none => false

/-! ### Expressions -/

/-- The functions of the operators that evaluate both sides. -/
def opName : Syn.Op → Option Bytes
  | .add => some (n! "+") | .sub => some (n! "-") | .mul => some (n! "*") | .div => some (n! "/")
  | .lt => some (n! "<") | .lte => some (n! "<=") | .gt => some (n! ">") | .gte => some (n! ">=")
  | .mod => some (n! "%") | .eq => some (n! "==") | .neq => some (n! "!=") | .and => some (n! "&") | .or => some (n! "|")
  | _ => none

/-- The functions of the assigning operators. -/
def assignName : Syn.Op → Option Bytes
  | .addEq => some (n! "+") | .subEq => some (n! "-") | .mulEq => some (n! "*") | .divEq => some (n! "/")
  | .modEq => some (n! "%")
  | _ => none

/-- The bundle after, and the result. -/
abbrev D (α : Type) := Option (Binds × Except Int α)

/-- One thing after the other; an error ends it. -/
def andThen {α β : Type} (d : D α) (f : Binds → α → D β) : D β :=
  match d with
  | none => none
  | some (B, .error c) => some (B, .error c)
  | some (B, .ok a) => f B a

/-- A value. -/
def pure1 (B : Binds) (vs : List Val) : D (List Val) := if vs.all simple then some (B, .ok vs) else none

/-- The values of an address; the error code is that for an unbound address. -/
def read (B : Binds) (a : Bytes) : D (List Val) :=
  match B.get a with
  | some vs => some (B, .ok vs)
  | none => some (B, .error 0x102)

/-- Bind an address. -/
def put (a : Bytes) (B : Binds) (vs : List Val) : D (List Val) :=
  if (B.set a vs).size < 2147483648 then some (B.set a vs, .ok vs) else none

def callD (name : Bytes) (B : Binds) (vss : List (List Val)) : D (List Val) := (call name vss).map fun r => (B, r)

/-- What decides in a conditional: the first value, a truth value or an integer. -/
def decides : List Val → Option Bool
  | v :: _ =>
    match v with
    | .bare t => if t = 84 then some true else if t = 70 then some false else none
    | v => (asInt v).map fun x => ITy.i32.conv x.2 != 0
  | [] => none

/-- What counts for `&&` and `||`: the first value, which must be true or false. -/
def truthOf : List Val → Option (Except Int Bool)
  | v :: _ => some (match v with | .bare t => if t = 84 then .ok true else if t = 70 then .ok false else .error 1 | _ => .error 1)
  | [] => none

/-- `&&` (`and`) and `||`; the second operand may not be needed. -/
def shortCircuit (and : Bool) (B : Binds) (xs : List Val) (r : Binds → D (List Val)) : D (List Val) :=
  match truthOf xs with
  | none => none
  | some (.error c) => some (B, .error c)
  | some (.ok b) =>
    if b = and then andThen (r B) fun B ys =>
      match truthOf ys with
      | none => none
      | some (.error c) => some (B, .error c)
      | some (.ok b) => some (B, .ok [truthVal b])
    else some (B, .ok [truthVal b])

/-- An address is bound if it has a message with values. -/
def bound (B : Binds) (a : Bytes) : Bool := B.any fun x => decide (x.1 = a) && !x.2.isEmpty

/-! ### Elements and messages -/

/-- As `andThen`, where of all errors only the one for an unbound address is covered. -/
def andThenArg {α β : Type} (d : D α) (f : Binds → α → D β) : D β :=
  match d with
  | none => none
  | some (B, .error c) => if c = 0x102 then some (B, .error c) else none
  | some (B, .ok a) => f B a

/-- Store values at positions of the values of an address.  One value goes to all positions, one position takes the first value, and otherwise
they go pairwise; what lies outside is left alone.  It is an error if there is no position or no value, or one position outside for several values. -/
def putElems (a : Bytes) (B : Binds) (old is ds : List Val) : D (List Val) :=
  match is.mapM asInt with
  | none => none
  | some ixs =>
    let ps := ixs.map fun x => ITy.i32.conv x.2
    if ps ≠ [] ∧ ds ≠ [] ∧ ¬ (ps.length = 1 ∧ 1 < ds.length ∧ ∀ n ∈ ps, ¬ (0 ≤ n ∧ n < old.length))
    then put a B ((writes ps ds).foldl putAt old) else some (B, .error 1)

/-- Assignment to elements, with the results of the expressions for the positions and the values, which do not change the bundle.  The address must have
a message.  Of the errors only the one for an unbound address is covered. -/
def toElems (a : Bytes) (B : Binds) (i e : D (List Val)) : D (List Val) :=
  match B.get a with
  | none => some (B, .error 1)
  | some old =>
    match i with
    | none => none
    | some (_, .error c) => if c = 0x102 then some (B, .error c) else none
    | some (_, .ok is) =>
      match e with
      | none => none
      | some (_, .error c) => if c = 0x102 then some (B, .error c) else none
      | some (_, .ok ds) => putElems a B old is ds

/-- The values of the address whose text is the first value; none if it is not bound or if this is not a text. -/
def valueAt (B : Binds) (vs : List Val) : D (List Val) :=
  match vs with
  | .str s :: _ => if nameOk s then some (B, .ok ((B.get s).getD [])) else none
  | _ => some (B, .ok [])

/-- Addresses in an argument list. -/
def addrsOf : List Cst → Option (List Bytes)
  | [] => some []
  | .addr a :: cs => (addrsOf cs).map (a :: ·)
  | _ :: _ => none

/-! ### Functions as values -/

/-- The variables in a function body, the last binding first. -/
abbrev Vars := List (Bytes × List Val)

def Vars.get (ρ : Vars) (k : Bytes) : Option (List Val) := (ρ.find? fun x => x.1 = k).map (·.2)

/-- A value that stands in an expression: a text that is the name of a variable has the values of the variable. -/
def valueOf (ρ : Vars) (v : Val) : List Val :=
  match v with
  | .str s => (ρ.get s).getD [v]
  | v => [v]

def _root_.Libo.Syn.Params.names : Params → List Bytes
  | .one p => [p]
  | .many ps => ps

/-- The parameters bound to values; what is too much on either side is ignored. -/
def bindVals : List Bytes → List Val → Vars → Vars → Vars
  | p :: ps, v :: vs, ρ, ρ' => bindVals ps vs ρ ((p, valueOf ρ v) :: ρ')
  | _, _, _, ρ' => ρ'

/-- Length of the shortest list. -/
def shortest : List (List Val) → Nat
  | [] => 0
  | [c] => c.length
  | c :: cs => min c.length (shortest cs)

/-- The first values of the lists, the second ones, and so on, as long as all lists have one. -/
def rows (css : List (List Val)) : List (List Val) := (List.range (shortest css)).map fun i => css.filterMap (·[i]?)

/-- Call the function with one row after the other; the results are put together.  Calls with errors are not covered. -/
def mapRows (F : Binds → List Val → D (List Val)) : List (List Val) → Binds → D (List Val)
  | [], B => some (B, .ok [])
  | r :: rs, B =>
    match F B r with
    | some (B, .ok vs) =>
      match mapRows F rs B with
      | some (B, .ok ws) => some (B, .ok (vs ++ ws))
      | _ => none
    | _ => none

/-- Call the function with the accumulated value and the next one (`left`), or the next one and the accumulated one; of a result only the first value is
used for the next call. -/
def fold (F : Binds → List Val → D (List Val)) (left : Bool) : List Val → List Val → Binds → D (List Val)
  | [], acc, B => some (B, .ok acc)
  | x :: xs, acc, B =>
    match acc with
    | [] => none
    | a :: _ =>
      match F B (if left then [a, x] else [x, a]) with
      | some (B, .ok vs) => fold F left xs vs B
      | _ => none

/-- A reduction without starting value begins with the first value, from the right with the last one.  A reduction of nothing is not covered. -/
def reduce (F : Binds → List Val → D (List Val)) (left : Bool) (vs : List Val) (B : Binds) : D (List Val) :=
  match if left then vs else vs.reverse with
  | [] => none
  | x :: xs => fold F left xs [x] B

/-- With a starting value: the first one of `is`. -/
def reduceFrom (F : Binds → List Val → D (List Val)) (left : Bool) (vs is : List Val) (B : Binds) : D (List Val) :=
  if vs.isEmpty then none else fold F left (if left then vs else vs.reverse) is B

/-- Functions that do not get the values of all their arguments, or get functions. -/
inductive Form where
  | apply | map | reduce (left : Bool) | cond | short (and : Bool) | assign | bound | elems | exist | delete | count | addresses | value | quote

def forms : List (Bytes × Form) := [(n! "apply", .apply), (n! "map", .map), (n! "lreduce", .reduce true), (n! "rreduce", .reduce false), (n! "if", .cond),
  (n! "andalso", .short true), (n! "orelse", .short false), (n! "assign", .assign), (n! "bound", .bound),
  (n! "assign_to_index", .elems), (n! "exists", .exist), (n! "delete", .delete), (n! "getmsgcount", .count), (n! "getaddresses", .addresses),
  (n! "value", .value), (n! "quote", .quote)]

def formOf (name : Bytes) : Option Form := (forms.find? fun x => x.1 == name).map (·.2)

mutual
/-- Expressions that do not change the bundle, as far as the syntax shows. -/
def quiet : Cst → Bool
  | .num _ | .str _ | .addr _ | .quoted _ | .value _ | .valueAddr _ => true
  | .paren e => quiet e
  | .call f as =>
    match formOf f with
    | none | some .cond | some (.short _) | some .bound | some .exist | some .count | some .addresses | some .value | some .quote => quiets as
    | _ => false
  | .infix o l r => (assignName o).isNone && quiet l && quiet r
  | .cond c t f => quiet c && quiet t && quiet f
  | .nth l is => quiet l && quiets is
  | .not e => quiet e
  | .neg e => quiet e
  | .coalesce _ e => quiet e
  | .list as => quiets as
  | _ => false
def quiets : List Cst → Bool
  | [] => true
  | c :: cs => quiet c && quiets cs
end

mutual
/-- Expressions that the specification covers, as far as the syntax shows. -/
def wf : Cst → Bool
  | .num a => (a.val.map simple).getD false
  | .str s => simple (.str s)
  | .addr a => nameOk a
  | .paren e => e.isExpr && wf e
  | .call f as =>
    match formOf f with
    | none => accepts f as.length && wfs as
    | some .apply => match as with | c :: d :: as => wfFn c && wf d && wfs as | _ => false
    | some .map => match as with | c :: d :: as => wfFn c && wf d && wfs as | _ => false
    | some (.reduce _) => match as with | [c, l] => wfFn c && wf l | [c, l, i] => wfFn c && wf l && wf i | _ => false
    | some .cond => match as with | [c, t, f] => wf c && wf t && wf f | _ => false
    | some (.short _) => match as with | [l, r] => wf l && wf r | _ => false
    | some .assign => match as with | [.addr a, e] => nameOk a && wf e | _ => false
    | some .bound => match as with | [.addr a] => nameOk a | _ => false
    | some .elems => match as with | [.addr a, i, e] => nameOk a && quiet i && wf i && quiet e && wf e | _ => false
    | some .exist => match as with | [.addr a] => nameOk a | _ => false
    | some .delete => match addrsOf as with | some (a :: as) => (a :: as).all nameOk | _ => false
    | some .count => as.isEmpty
    | some .addresses => as.isEmpty
    | some .value => match as with | [e] => wf e | _ => false
    | some .quote => match as with | [.str s] => simple (.str s) | [.num a] => (a.val.map simple).getD false | _ => false
  | .quoted s => simple (.str s)
  | .infix o l r =>
    match assignName o with
    | some _ => (match l with | .addr a => nameOk a | _ => false) && wf r
    | none => ((opName o).isSome || o == .andand || o == .oror) && wf l && wf r
  | .cond c t f => wf c && wf t && wf f
  | .nth l is => wf l && !is.isEmpty && wfs is
  | .not e => wf e
  | .neg e => wf e
  | .step _ _ a => nameOk a
  | .assign a e => nameOk a && wf e
  | .assignIdx a is e => nameOk a && !is.isEmpty && quiets is && wfs is && quiet e && wf e
  | .assignRange a x y e => nameOk a && quiet x && wf x && quiet y && wf y && quiet e && wf e
  | .assignRange3 a x y z e => nameOk a && quiet x && wf x && quiet y && wf y && quiet z && wf z && quiet e && wf e
  | .coalesce a e => nameOk a && wf e
  | .coalesceEq a e => nameOk a && wf e
  | .list as => wfs as
  | .value s => simple (.str s)
  | .valueAddr a => nameOk a
  | .applyFn _ b as => !b.isEmpty && (b.length == 1 || b.all Cst.isExpr) && wfs b && !as.isEmpty && wfs as
  | _ => false
/-- What can be applied: a function of the list, or a lambda expression whose body is one argument, or only expressions. -/
def wfFn : Cst → Bool
  | .str f => (funOf f).isSome && simple (.str f)
  | .lam _ b => !b.isEmpty && (b.length == 1 || b.all Cst.isExpr) && wfs b
  | _ => false
def wfs : List Cst → Bool
  | [] => true
  | c :: cs => wf c && wfs cs
end

/-- `++` and `--` of the values of an address, written back. -/
def stepAddr (up : Bool) (a : Bytes) (B : Binds) : D (List Val) :=
  andThen (read B a) fun B vs => andThen (callD (if up then n! "plus1" else n! "minus1") B [vs]) (put a)

mutual
/-- What an expression does and which values it has, with the variables `ρ`. -/
def den : Cst → Vars → Binds → D (List Val)
  | .num a, ρ, B => match a.val with | some v => pure1 B (valueOf ρ v) | none => none
  | .str s, ρ, B => pure1 B (valueOf ρ (.str s))
  | .addr a, _, B => read B a
  | .paren e, ρ, B => den e ρ B
  | .call f as, ρ, B =>
    match formOf f with
    | none => andThen (dens as ρ B) (callD f)
    | some .apply => match as with
      | .lam p b :: cs => andThen (bindAll p.names cs ρ B ρ) fun B ρ' => denSeq b ρ' B
      | .str f :: cs => andThen (dens cs ρ B) (callD f)
      | _ => none
    | some .map => match as with
      | c :: cs => andThenArg (dens cs ρ B) fun B css => if shortest css < 4294967296 then mapRows (denFn c ρ) (rows css) B else none
      | _ => none
    | some (.reduce left) => match as with
      | [c, l] => andThenArg (den l ρ B) fun B vs => reduce (denFn c ρ) left vs B
      | [c, l, i] => andThenArg (den l ρ B) fun B vs => if vs.isEmpty then none else
        andThenArg (den i ρ B) fun B is => reduceFrom (denFn c ρ) left vs is B
      | _ => none
    | some .cond => match as with
      | [c, t, f] => andThen (den c ρ B) fun B xs =>
        match decides xs with
        | some true => den t ρ B
        | some false => den f ρ B
        | none => none
      | _ => none
    | some (.short and) => match as with
      | [l, r] => andThen (den l ρ B) fun B xs => shortCircuit and B xs (den r ρ)
      | _ => none
    | some .assign => match as with
      | [.addr a, e] => andThen (den e ρ B) (put a)
      | _ => none
    | some .bound => match as with
      | [.addr a] => some (B, .ok [truthVal (bound B a)])
      | _ => none
    | some .elems => match as with
      | [.addr a, i, e] => toElems a B (den i ρ B) (den e ρ B)
      | _ => none
    | some .exist => match as with
      | [.addr a] => some (B, .ok [truthVal (B.get a).isSome])
      | _ => none
    -- in a bundle without messages nothing may be deleted: there may be no block
    | some .delete => match addrsOf as with
      | some as => if B.isEmpty then none else some (B.filter fun x => !as.contains x.1, .ok [])
      | none => none
    | some .count => some (B, .ok [ITy.i32.val B.length])
    | some .addresses => pure1 B (B.map fun x => .str x.1)
    | some .value => match as with
      | [e] => andThenArg (den e ρ B) valueAt
      | _ => none
    | some .quote => match as with
      | [.str s] => pure1 B [.str s]
      | [.num a] => match a.val with | some v => pure1 B [v] | none => none
      | _ => none
  | .quoted s, _, B => pure1 B [.str s]
  | .infix o l r, ρ, B =>
    match assignName o with
    | some f =>
      match l with
      | .addr a => andThen (andThen (read B a) fun B xs => andThen (den r ρ B) fun B ys => callD f B [xs, ys]) (put a)
      | _ => none
    | none =>
      match opName o with
      | some f => andThen (den l ρ B) fun B xs => andThen (den r ρ B) fun B ys => callD f B [xs, ys]
      | none => andThen (den l ρ B) fun B xs => shortCircuit (o == .andand) B xs (den r ρ)
  | .cond c t f, ρ, B => andThen (den c ρ B) fun B xs =>
    match decides xs with
    | some true => den t ρ B
    | some false => den f ρ B
    | none => none
  | .nth l is, ρ, B => andThen (den l ρ B) fun B xs => andThen (dens is ρ B) fun B iss => callD (n! "nth") B (xs :: iss)
  | .not e, ρ, B => andThen (den e ρ B) fun B xs => callD (n! "!") B [xs]
  | .neg e, ρ, B => andThen (den e ρ B) fun B xs => callD (n! "-") B [[ITy.i32.val 0], xs]
  | .step pre up a, _, B =>
    if pre then stepAddr up a B
    else andThen (read B a) fun B vs => andThen (stepAddr up a B) fun B _ => pure1 B vs
  | .assign a e, ρ, B => andThen (den e ρ B) (put a)
  | .assignIdx a is e, ρ, B => toElems a B (andThen (dens is ρ B) (callD (n! "list"))) (den e ρ B)
  | .assignRange a x y e, ρ, B =>
    toElems a B (andThen (den x ρ B) fun B xs => andThen (den y ρ B) fun B ys => callD (n! "aseq") B [xs, ys]) (den e ρ B)
  | .assignRange3 a x y z e, ρ, B =>
    toElems a B (andThen (den x ρ B) fun B xs => andThen (den z ρ B) fun B zs => andThen (den y ρ B) fun B ys => callD (n! "aseq") B [xs, zs, ys])
      (den e ρ B)
  | .coalesce a e, ρ, B => if bound B a then read B a else den e ρ B
  | .coalesceEq a e, ρ, B => andThen (if bound B a then read B a else den e ρ B) (put a)
  | .list as, ρ, B => andThen (dens as ρ B) (callD (n! "list"))
  | .value s, ρ, B => andThenArg (pure1 B (valueOf ρ (.str s))) valueAt
  | .valueAddr a, _, B => andThenArg (read B a) valueAt
  | .applyFn p b as, ρ, B => andThen (bindAll p.names as ρ B ρ) fun B ρ' => denSeq b ρ' B
  | _, _, _ => none
/-- What is applied by `map` and the reductions, applied to values. -/
def denFn : Cst → Vars → Binds → List Val → D (List Val)
  | .lam p b, ρ, B, vs => denSeq b (bindVals p.names vs ρ ρ) B
  | .str f, ρ, B, vs => callD f B (vs.map (valueOf ρ))
  | _, _, _, _ => none
def dens : List Cst → Vars → Binds → D (List (List Val))
  | [], _, B => some (B, .ok [])
  | c :: cs, ρ, B => andThen (den c ρ B) fun B vs => andThen (dens cs ρ B) fun B vss => some (B, .ok (vs :: vss))
/-- Bind parameters to the values of arguments (`ρ`: the variables outside, `ρ'`: what has been bound).  Arguments without values are not covered. -/
def bindAll : List Bytes → List Cst → Vars → Binds → Vars → D Vars
  | p :: ps, c :: cs, ρ, B, ρ' => andThenArg (den c ρ B) fun B vs => if vs.isEmpty then none else bindAll ps cs ρ B ((p, vs) :: ρ')
  | _, _, _, B, ρ' => some (B, .ok ρ')
/-- One expression after the other up to the first error; the result is that of the last one. -/
def denSeq : List Cst → Vars → Binds → D (List Val)
  | [], _, B => some (B, .ok [])
  | c :: cs, ρ, B =>
    match cs with
    | [] => den c ρ B
    | _ :: _ => andThen (den c ρ B) fun B _ => denSeq cs ρ B
end

/-- A text: its expressions, one after the other. -/
def program (cs : List Cst) (B : Binds) : D (List Val) := denSeq cs [] B

end Libo.Sem
