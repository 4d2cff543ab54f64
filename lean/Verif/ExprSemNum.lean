import Verif.ExprSpec
import Verif.FpSpec
/-!
# Specification: the functions of the expression language on numbers and texts

Part of the semantics of `ExprSem.lean`: what the functions compute, on values.  Floating point arithmetic is that of `Fp.lean`, which
is the correctly rounded one of `FpSpec.lean` (C63).  A result that is not a number (NaN) is left open, since its bits are.
-/

namespace Libo.Sem
open Libo Libo.Ieee

/-- Values of an expression, or an error code. -/
abbrev R := Except Int (List Val)

/-- The result for a pair of values: a value or an error code. -/
abbrev R1 := Except Int Val

/-- The integer a value is, with its type. -/
def asInt : Val → Option (ITy × Int)
  | .num tag v =>
    ([.i8, .i16, .i32, .i64, .u8, .u16, .u32, .u64].find? fun t : ITy => t.tag == tag).bind fun t =>
      if v < 2 ^ t.width then some (t, t.conv v) else none
  | _ => none

/-- Values of a floating point type. -/
def floating : Val → Bool
  | .num tag _ => tag == 100 || tag == 102
  | _ => false

/-- The `double` a value stands for: of a `float` the same number, of an integer the nearest one, of true and false 1 and 0. -/
def asFp : Val → Option Fp
  | .num tag b =>
    if tag = 100 then some (Fp.ofBits f64 b)
    else if tag = 102 then some (match Fp.ofBits f32 b with | .fin s m => .fin s (m * 2 ^ 925) | x => x)
    else (asInt (.num tag b)).map fun x => Fp.ofInt f64 x.2
  | .bare t => if t = 84 then some (Fp.ofInt f64 1) else if t = 70 then some (Fp.ofInt f64 0) else none
  | _ => none

/-- The whole number a value stands for. -/
def asWhole (v : Val) : Option Int :=
  match asFp v with
  | some (.fin s m) => if m % 2 ^ 1074 = 0 then some (value s (m / 2 ^ 1074)) else none
  | _ => none

/-- A `double` as a value. -/
def dbl (x : Fp) : Option Val := if x = .nan then none else some (.num 100 (Fp.toBits f64 x))

/-- A `float` as a value. -/
def flt (x : Fp) : Option Val := if x = .nan then none else some (.num 102 (Fp.toBits f32 x))

/-- Two numbers, one of them floating. -/
def onFps (f : Fp → Fp → Fp) (x y : Val) : Option R1 :=
  match asFp x, asFp y with
  | some a, some b => (dbl (f a b)).map .ok
  | _, _ => none

/-- The whole part of a number as an `int32`. -/
def int32Part : Fp → Option Val
  | .fin s m => if ITy.i32.has (value s (m / 2 ^ 1074)) then some (ITy.i32.val (value s (m / 2 ^ 1074))) else none
  | _ => none

/-- A number as a `double` or, without its fraction, as an `int32`. -/
def dblOr32 (f : Bool) (x : Fp) : Option Val := if f then dbl x else int32Part x

/-- A whole number in the first type that is large enough; `double` beyond 2^64.  For 2^63 and 2^64 there is none. -/
def narrowest : Fp → Option Val
  | .fin s m =>
    let n := value s (m / 2 ^ 1074)
    if m % 2 ^ 1074 ≠ 0 ∨ n < -2147483648 then none
    else if n ≤ 2147483647 then some (ITy.i32.val n)
    else if n ≤ 4294967295 then some (ITy.u32.val n)
    else if n < 2 ^ 63 then some (ITy.i64.val n)
    else if n = 2 ^ 63 then none
    else if n < 2 ^ 64 then some (ITy.u64.val n)
    else if n = 2 ^ 64 then none
    else dbl (.fin s m)
  | .inf false => dbl (.inf false)
  | _ => none

/-! ### Functions of one list of numbers -/

/-- A function of each number. -/
def eachFp (f : Fp → Option Val) : List (List Val) → Option R
  | [vs] => if vs = [] then none else (vs.mapM fun v => (asFp v).bind f).map .ok
  | _ => none

/-- A function of the list of numbers with one result. -/
def ofFps (f : List Val → List Fp → Option Val) : List (List Val) → Option R
  | [vs] => (vs.mapM asFp).bind fun xs => (f vs xs).map fun v => .ok [v]
  | _ => none

/-- The nearest whole number, halves away from zero. -/
def nearestWhole : Fp → Fp
  | .fin s m => .fin s ((m + 2 ^ 1073) / 2 ^ 1074 * 2 ^ 1074)
  | x => x

/-- The sign. -/
def signVal (x : Fp) : Option Val := (place x).map fun p => ITy.i32.val p.sign

/-- The sum, from the left. -/
def sumFps (xs : List Fp) : Fp := xs.foldl (Fp.add f64) (.fin false 0)

/-- The product, from the left. -/
def productFps (xs : List Fp) : Fp := xs.foldl (Fp.mul f64) (Fp.ofInt f64 1)

/-- The sum of the products of corresponding elements. -/
def dotFps (ps : List (Fp × Fp)) : Fp := ps.foldl (fun s p => Fp.add f64 s (Fp.mul f64 p.1 p.2)) (.fin false 0)

def sum : List (List Val) → Option R :=
  ofFps fun vs xs => if vs.any floating then dbl (sumFps xs) else narrowest (sumFps xs)

/-- For floating point numbers only if the product is whole. -/
def product : List (List Val) → Option R := ofFps fun _ xs => narrowest (productFps xs)

def mean : List (List Val) → Option R := ofFps fun _ xs => dbl (Fp.div f64 (sumFps xs) (Fp.ofInt f64 xs.length))

def dot : List (List Val) → Option R
  | [vs, ws] => (vs.mapM asFp).bind fun xs => (ws.mapM asFp).bind fun ys => (dbl (dotFps (xs.zip ys))).map fun v => .ok [v]
  | _ => none

/-! ### The least and the greatest -/

/-- The last of the elements with the least key. -/
def least (key : Fp → Option Int) : List (Val × Fp) → Option (Val × Fp)
  | [] => none
  | p :: ps =>
    match least key ps with
    | none => if key p.2 = none then none else some p
    | some q => if (key p.2).any fun k => (key q.2).any fun l => k < l then some p else some q

/-- What `min` looks at: not NaN and positive infinity. -/
def lowKey (x : Fp) : Option Int := if x = .inf false then none else place x

/-- What `max` looks at, in reverse: not NaN and negative infinity. -/
def highKey (x : Fp) : Option Int := if x = .inf true then none else (place x).map fun p => -p

def minimum : List (List Val) → Option R := ofFps fun vs xs => (least lowKey (vs.zip xs)).map (·.1)

def maximum : List (List Val) → Option R := ofFps fun vs xs => (least highKey (vs.zip xs)).map (·.1)

def extrema : List (List Val) → Option R
  | [vs] => (vs.mapM asFp).bind fun xs =>
    match least lowKey (vs.zip xs), least highKey (vs.zip xs) with
    | some p, some q => some (.ok [p.1, q.1])
    | _, _ => none
  | _ => none

/-- The difference of the greatest and the least. -/
def range : List (List Val) → Option R := ofFps fun vs xs =>
  match least lowKey (vs.zip xs), least highKey (vs.zip xs) with
  | some p, some q => dblOr32 (floating p.1 || floating q.1) (Fp.sub f64 q.2 p.2)
  | _, _ => none

/-- A number between bounds; the upper bound wins. -/
def between (lo hi x : Fp) : Fp :=
  let x := if Fp.lt x lo then lo else x
  if Fp.lt hi x then hi else x

/-- Strings and what has no number stay. -/
def clip1 (fl : Bool) (lo hi : Fp) (v : Val) : Option Val :=
  match v with
  | .num tag b => (asFp (.num tag b)).bind fun x => dblOr32 (fl || floating v) (between lo hi x)
  | .str s => some (.str s)
  | .bare t => if t = 84 ∨ t = 70 ∨ t = 78 then some (.bare t) else none
  | _ => none

def clip : List (List Val) → Option R
  | [vs, lo :: _, hi :: _] => (asFp lo).bind fun a => (asFp hi).bind fun b =>
    (vs.mapM (clip1 (floating lo || floating hi) a b)).map .ok
  | _ => none

/-- The image of a number under the line through the ends of two ranges; the lower end of the second range if it is one number. -/
def lineTo (lo hi lo' hi' x : Fp) : Fp :=
  if place hi' ≠ none ∧ place hi' = place lo' then lo'
  else
    let slope := Fp.div f64 (Fp.sub f64 hi' lo') (Fp.sub f64 hi lo)
    Fp.add f64 (Fp.mul f64 slope x) (Fp.sub f64 lo' (Fp.mul f64 slope lo))

/-- Strings and what has no number stay. -/
def scale1 (fl : Bool) (lo hi lo' hi' : Fp) (v : Val) : Option Val :=
  match v with
  | .num tag b => (asFp (.num tag b)).bind fun x => dblOr32 (fl || floating v) (lineTo lo hi lo' hi' x)
  | .str s => some (.str s)
  | .bare t => if t = 84 ∨ t = 70 ∨ t = 78 then some (.bare t) else none
  | _ => none

def scale : List (List Val) → Option R
  | [vs, lo :: _, hi :: _, lo' :: _, hi' :: _] => (asFp lo).bind fun a => (asFp hi).bind fun b => (asFp lo').bind fun c => (asFp hi').bind fun d =>
    (vs.mapM (scale1 (floating lo || floating hi || floating lo' || floating hi') a b c d)).map .ok
  | _ => none

/-! ### Remainders and sequences -/

/-- The exact remainder with the sign of the dividend. -/
def remainder : Fp → Fp → Fp
  | .fin s m, .fin _ n => if n = 0 then .nan else .fin s (m % n)
  | .fin s m, .inf _ => .fin s m
  | _, _ => .nan

/-- What is left of a number after subtracting the multiple of the other one that is nearest to it, of two equally near ones the even one. -/
def nearRemainder : Fp → Fp → Fp
  | .fin s m, .fin _ n =>
    if n = 0 then .nan
    else if 2 * (m % n) < n ∨ (2 * (m % n) = n ∧ m / n % 2 = 0) then .fin s (m % n)
    else .fin (!s) (n - m % n)
  | .fin s m, .inf _ => .fin s m
  | _, _ => .nan

/-- The exponent of a number that is not 0, of the greatest power of two that is not greater than it, as an `int32`. -/
def exponentVal : Fp → Option Val
  | .fin _ m => if m = 0 then none else some (ITy.i32.val ((Nat.log2 m : Int) - 1074))
  | _ => none

/-- The exponent as a `double`. -/
def logOf : Fp → Fp
  | .fin _ m => if m = 0 then .inf true else Fp.ofInt f64 ((Nat.log2 m : Int) - 1074)
  | .inf _ => .inf false
  | .nan => .nan

/-- The remainder between 0 and the divisor, of whole numbers; covered for results of integer type, and for results that are not 0. -/
def modulo (x y : Val) : Option R1 :=
  match asWhole x, asWhole y with
  | some n, some m =>
    if m = 0 then some (.ok x)
    else if n.natAbs + m.natAbs ≤ 2 ^ 52 then
      if floating x || floating y then if n % m = 0 then none else (dbl (Fp.ofInt f64 (n % m))).map .ok
      else if ITy.i32.has (n % m) then some (.ok (ITy.i32.val (n % m))) else none
    else none
  | _, _ => none

/-- An arithmetic sequence of integers from `n` to `m` with the step `d`. -/
def sequence (v : Val) (n m d : Int) : Option R :=
  if n.natAbs + m.natAbs + d.natAbs ≤ 2 ^ 52 then
    if n = m then some (.ok [v])
    else if d.sign ≠ (m - n).sign then some (.error 1)
    else if ITy.i32.has n ∧ ITy.i32.has m ∧ (m - n).natAbs / d.natAbs < 2147483647
    then some (.ok ((List.range ((m - n).natAbs / d.natAbs + 1)).map fun (i : Nat) => ITy.i32.val (n + i * d))) else none
  else none

def aseq : List (List Val) → Option R
  | [v :: _, w :: _] =>
    match asInt v, asInt w with
    | some (_, n), some (_, m) => sequence v n m (m - n).sign
    | _, _ => none
  | [v :: _, w :: _, u :: _] =>
    match asInt v, asInt w, asInt u with
    | some (_, n), some (_, m), some (_, d) => sequence v n m d
    | _, _, _ => none
  | _ => none

/-! ### Running sums and vector products of integers -/

/-- The largest of the types: the widest, and unsigned before signed. -/
def largest : List ITy → Option ITy
  | [] => none
  | t :: ts =>
    match largest ts with
    | none => some t
    | some s => some (if s.width < t.width ∨ (s.width = t.width ∧ t.signed = false) then t else s)

/-- The first `k` elements added. -/
def sumUpTo (l : List (ITy × Int)) (k : Nat) : Int := ((l.take k).map (·.2)).sum

/-- Sums in `int32` and `int64` must not overflow; in the other types they are taken modulo two to the width. -/
def cumsum : List (List Val) → Option R
  | [vs] => (vs.mapM asInt).bind fun l => (largest (l.map (·.1))).bind fun t =>
    if (t = .i32 ∨ t = .i64) → ∀ k, k ≤ l.length → t.has (sumUpTo l k)
    then some (.ok ((List.range l.length).map fun k => t.val (sumUpTo l (k + 1)))) else none
  | _ => none

/-- A number of a size in which the products and differences of integers of the type `t` are computed; the other types wrap. -/
def roomy (t : ITy) (n : Int) : Prop :=
  match t with
  | .u16 => ITy.i32.has n
  | .i32 => ITy.i32.has n
  | .i64 => ITy.i64.has n
  | _ => True

instance (t : ITy) (n : Int) : Decidable (roomy t n) := by unfold roomy; unfold ITy.has; cases t <;> infer_instance

/-- `a b - c d`, where the factors are first converted to the type `t`. -/
def minor (t : ITy) (a b c d : Int) : Option Val :=
  let p := t.conv a * t.conv b
  let q := t.conv c * t.conv d
  if roomy t p ∧ roomy t q ∧ roomy t (p - q) then some (t.val (a * b - c * d)) else none

/-- The cross product of two vectors of integers, in the largest of their types. -/
def cross : List (List Val) → Option R
  | [vs, ws] => (vs.mapM asInt).bind fun xs => (ws.mapM asInt).bind fun ys =>
    match xs, ys with
    | [(s1, a1), (s2, a2), (s3, a3)], [(t1, b1), (t2, b2), (t3, b3)] => (largest [s1, s2, s3, t1, t2, t3]).bind fun t =>
      (minor t a2 b3 a3 b2).bind fun x => (minor t a3 b1 a1 b3).bind fun y => (minor t a1 b2 a2 b1).map fun z => .ok [x, y, z]
    | _, _ => none
  | _ => none

/-! ### Texts -/

/-- A whole number in decimal. -/
def decimal (n : Int) : Bytes := (if n < 0 then [45] else []) ++ (Nat.toDigits 10 n.natAbs).map fun c => UInt8.ofNat c.toNat

/-- The text of a string, of an integer other than a character, of true, false and nil. -/
def textOf : Val → Option Bytes
  | .str s => if s.contains 0 then none else some s
  | .num tag b => if tag = 99 ∨ tag = 67 then none else (asInt (.num tag b)).map fun x => decimal x.2
  | .bare t => if t = 84 then some [116, 114, 117, 101] else if t = 70 then some [102, 97, 108, 115, 101]
    else if t = 78 then some [110, 105, 108] else none
  | _ => none

/-- The number of bytes. -/
def strlen1 (v : Val) : Option Val := (textOf v).map fun s => ITy.i64.val s.length

/-- A value as a string.  Characters that can be printed are themselves, other ones are numbers; those below -99 are left open. -/
def string1 (v : Val) : Option Val :=
  match v with
  | .num tag b =>
    if tag = 99 ∨ tag = 67 then
      (asInt (.num tag b)).bind fun x =>
        if 32 ≤ x.2 ∧ x.2 < 127 then some (.str [UInt8.ofNat x.2.toNat]) else if x.2 < -99 then none else some (.str (decimal x.2))
    else (textOf v).map .str
  | v => (textOf v).map .str

/-- A string stays; anything else is an error. -/
def readstring : List (List Val) → Option R
  | [[.str s]] => some (.ok [.str s])
  | [_] => some (.error 1)
  | _ => none

/-- The places where a text occurs in another one, from the left and without overlapping: at the position `k`, the next `skip` bytes
belong to an occurrence. -/
def places (sub : Bytes) : Nat → Nat → Bytes → List Nat
  | _, _, [] => []
  | k, skip + 1, _ :: s => places sub (k + 1) skip s
  | k, 0, c :: s => if sub <+: c :: s then k :: places sub (k + 1) (sub.length - 1) s else places sub (k + 1) 0 s

/-- Functions of the texts of the first elements of two lists. -/
def ofTexts (f : Bytes → Bytes → List Val) : List (List Val) → Option R
  | [v :: _, w :: _] => (textOf v).bind fun s => (textOf w).map fun t => .ok (f s t)
  | _ => none

/-- Where the first text occurs in the second. -/
def strfind : List (List Val) → Option R :=
  ofTexts fun s t => if s = [] then [] else (places s 0 0 t).map fun (p : Nat) => ITy.i64.val p

/-- The words of a text, where the bytes of `sep` are between words; `w` is the word so far, in reverse. -/
def wordsOf (sep : Bytes) (w : Bytes) : Bytes → List Bytes
  | [] => if w = [] then [] else [w.reverse]
  | c :: s => if sep.contains c then (if w = [] then wordsOf sep [] s else w.reverse :: wordsOf sep [] s) else wordsOf sep (c :: w) s

/-- The words of the second text; without separators its characters. -/
def split : List (List Val) → Option R :=
  ofTexts fun s t => if s = [] then t.map fun c => .num 99 c.toNat else (wordsOf s [] t).map .str

/-- The texts of all elements, with a separator between them. -/
def join : List (List Val) → Option R
  | (v :: _) :: vss => if vss.flatten = [] then none else
    (textOf v).bind fun s => (vss.flatten.mapM textOf).map fun ts => .ok [.str (List.intercalate s ts)]
  | _ => none

/-- Bytes of texts at positions. -/
def strchar : List (List Val) → Option R
  | [is, vs] =>
    (is.mapM asInt).bind fun ns => (vs.mapM textOf).bind fun ts =>
      if ∀ x ∈ ns, ITy.i32.has x.2 then
        if ∀ t ∈ ts, ∀ x ∈ ns, 0 ≤ x.2 ∧ x.2 < t.length
        then some (.ok (ts.map fun t => .str (ns.map fun x => t.getD x.2.toNat 0))) else some (.error 1)
      else none
  | _ => none

/-! ### Casts, bits and byte order -/

/-- The integer a value is cast to: without the fraction, which must be in the range of the type. -/
def castInt (t : ITy) (v : Val) : Option Val :=
  match asInt v with
  | some (_, n) => some (t.val n)
  | none =>
    match v with
    | .bare b => if b = 84 then some (t.val 1) else if b = 70 ∨ b = 78 then some (t.val 0) else none
    | v => if floating v then
        match asFp v with
        | some (.fin s m) => if t.has (value s (m / 2 ^ 1074)) then some (t.val (value s (m / 2 ^ 1074))) else none
        | _ => none
      else none

/-- The `float` a value stands for: the nearest one. -/
def asSingle : Val → Option Fp
  | .num tag b =>
    if tag = 102 then some (Fp.ofBits f32 b)
    else if tag = 100 then some (Fp.conv f64 f32 (Fp.ofBits f64 b))
    else (asInt (.num tag b)).map fun x => Fp.ofInt f32 x.2
  | .bare t => if t = 84 then some (Fp.ofInt f32 1) else if t = 70 then some (Fp.ofInt f32 0) else none
  | _ => none

def single1 (v : Val) : Option Val := (asSingle v).bind flt

/-- The integer type whose letter a character is. -/
def typeOf : Val → Option ITy
  | .num tag b => if tag = 99 then [.i8, .i16, .i32, .i64, .u8, .u16, .u32, .u64].find? fun t : ITy => t.tag.toNat == b else none
  | _ => none

/-- Casts to one type, or to a type for each element. -/
def cast : List (List Val) → Option R
  | [ls, vs] => (ls.mapM typeOf).bind fun ts =>
    match ts with
    | [t] => (vs.mapM (castInt t)).map .ok
    | ts => if ts.length = vs.length then ((ts.zip vs).mapM fun p => castInt p.1 p.2).map .ok else none
  | _ => none

/-- A whole number other than 0 as a `double`; of 0 the sign is left open. -/
def wholeDbl (n : Int) : Option Val := if n = 0 then none else dbl (.fin (decide (n < 0)) (n.natAbs * 2 ^ 1074))

/-- Determinants of one, two and three rows of whole numbers that are not too large. -/
def determinant (vss : List (List Val)) : Option R :=
  (vss.mapM fun vs : List Val => vs.mapM asWhole).bind fun ms =>
    (match ms with
    | [[a]] => if a.natAbs ≤ 2 ^ 53 then wholeDbl a else none
    | [[a, b], [c, d]] => if ∀ n ∈ [a, b, c, d], n.natAbs ≤ 2 ^ 26 then wholeDbl (a * d - b * c) else none
    | [[a, b, c], [d, e, f], [g, h, i]] =>
      if ∀ n ∈ [a, b, c, d, e, f, g, h, i], n.natAbs ≤ 100000 then
        wholeDbl (a * (e * i - f * h) - b * (d * i - f * g) + c * (d * h - e * g)) else none
    | _ => none).map fun v => .ok [v]

/-- A bitwise operation on the first elements in the largest type of all elements; not in `uint8`. -/
def bitwise (f : Nat → Nat → Nat) : List (List Val) → Option R
  | [vs, ws] => (vs.mapM asInt).bind fun l => (ws.mapM asInt).bind fun m =>
    match l, m, largest ((l ++ m).map (·.1)) with
    | (_, n1) :: _, (_, n2) :: _, some t =>
      if t = .u8 then none
      else some (.ok [t.val (f (n1 % (2 ^ t.width : Nat)).toNat (n2 % (2 ^ t.width : Nat)).toNat : Nat)])
    | _, _, _ => none
  | _ => none

/-- The bytes in reverse order, of a number with so many bytes. -/
def swapped : Nat → Nat → Nat
  | 0, _ => 0
  | k + 1, n => n % 256 * 256 ^ k + swapped k (n / 256)

/-- The 32 bit type of the same kind. -/
def in32 (t : ITy) : ITy := if t.signed then .i32 else .u32

/-- The 64 bit type of the same kind. -/
def in64 (t : ITy) : ITy := if t.signed then .i64 else .u64

/-- Byte order of 32 bit numbers. -/
def swap32 (v : Val) : Option Val :=
  match asInt v with
  | some (t, n) => if t.width ≤ 32 then some ((in32 t).val (swapped 4 (n % (2 ^ 32 : Nat)).toNat : Nat)) else none
  | none => none

/-- Byte order of 64 bit numbers. -/
def swap64 (ty : ITy → ITy) (v : Val) : Option Val :=
  match asInt v with
  | some (t, n) => some ((ty t).val (swapped 8 (n % (2 ^ 64 : Nat)).toNat : Nat))
  | none => none

end Libo.Sem
