import Verif.ExprStr
import Verif.ExprList
import Verif.Typetag
import Verif.ByteOrder
import Verif.ValSpec
/-!
# Model of the casts, the bit functions and the byte order functions of the expression language

From `osc_expr.c`: `osc_expr_explicitCast` and the casts it calls, `osc_expr_explicitCast_dynamic`, `osc_expr_bitand`, `osc_expr_bitor`,
`osc_expr_hton32`, `osc_expr_ntoh32`, `osc_expr_hton64`, `osc_expr_ntoh64`; from `osc_atom_u.c`: `osc_atom_u_getBlobLen`,
`osc_atom_u_getBlobCopy`.  Not modelled (`none`): casts of strings and blobs to numbers, casts of bundles to
blobs.  The casts are called through a pointer to a function with one more argument than they have, which is taken to be harmless.
-/

namespace Libo.Expr
open Libo Libo.Text

/-- The casts of elements: the `extra` of the function record (`osc_expr_func.h` lines 2394-2574). -/
inductive Cast where
  | int (t : ITy)
  | float32
  | float64
  | bool
  | string

/-- `osc_atom_u_getInt8(src)` and so on followed by `osc_atom_u_setInt8(dest, …)` and so on (`osc_expr.c` lines 5921-5967); the source may
be NULL. -/
def castInt (t : ITy) (src : Option UAtom) (dest : UAtom) : Option UAtom := (intOf (getU t) src).bind (setU t dest)

/-- `osc_expr_explicitCast_float32` and `osc_expr_explicitCast_float64` (`osc_expr.c` lines 5909-5919); the source may be NULL.  All NaNs are
taken to be the same. -/
def castFp32 (src : Option UAtom) (dest : UAtom) : Option UAtom :=
  (match src with
   | none => some (Fp.fin false 0)
   | some a => getFp32 a).bind fun x => dest.setFloat (Fp.toBits f32 x)
def castFp64 (src : Option UAtom) (dest : UAtom) : Option UAtom :=
  (match src with
   | none => some (Fp.fin false 0)
   | some a => getFp a).bind fun x => dest.setDouble (Fp.toBits f64 x)

/-- `snprintf(buf, 4, …)` for a number: three characters. -/
def snprintf4 (n : Int) : Bytes := (decI n).take 3

/-- `osc_expr_explicitCast_string` (`osc_expr.c` lines 5975-6016). -/
def castString (P : Printf) (src : Option UAtom) (dest : UAtom) : Option (Int × UAtom) :=
  match src with
  | none => some (1, dest)
  | some (.mk tag al w) =>
    if tag = 98 then
      match w with
      | .blob _ blk => (cstr blk 4).map fun s => (0, setString dest s)
      | _ => none
    else if tag = 99 then
      if 32 ≤ w.c ∧ w.c < 127 then some (0, setString dest [UInt8.ofNat w.c.toNat]) else some (0, setString dest (snprintf4 w.c))
    else if tag = 67 then
      if 32 ≤ w.C ∧ w.C < 127 then some (0, setString dest [UInt8.ofNat w.C.toNat]) else some (0, setString dest (snprintf4 w.C))
    else (getStr P (some (.mk tag al w))).bind fun s =>
      match s with
      | some s => some (0, setString dest s)
      | none => some (1, dest)

/-- The function that is called for an element. -/
def castAtom (P : Printf) : Cast → Option UAtom → UAtom → Option (Int × UAtom)
  | .int t, src, dest => (castInt t src dest).map fun a => (0, a)
  | .float32, src, dest => (castFp32 src dest).map fun a => (0, a)
  | .float64, src, dest => (castFp64 src dest).map fun a => (0, a)
  | .bool, src, dest => (setBool dest (getBool src)).map fun a => (0, a)
  | .string, src, dest => castString P src dest

/-- The loop of `osc_expr_explicitCast` (`osc_expr.c` lines 5894-5903): it stops with the first error. -/
def castLoop (f : Option UAtom → UAtom → Option (Int × UAtom)) : List UAtom → Nat → List UAtom → Res
  | [], _, out => some (0, some out)
  | a :: as, i, out => (at? (some out) i).bind fun dest => (f (some a) dest).bind fun (ret, dest) =>
    if ret ≠ 0 then some (ret, some (out.set i dest)) else castLoop f as (i + 1) (out.set i dest)

/-- `osc_expr_explicitCast` (`osc_expr.c` lines 5866-5907) but for blobs: only the first argument is used; nothing is returned without
arguments. -/
def explicitCast (P : Printf) (c : Cast) : List Ar → Res
  | [] => some (0, none)
  | a :: _ => castLoop (castAtom P c) (a.getD []) 0 (mk (len a))

/-- The loop over the elements in `osc_expr_explicitCast` (`osc_expr.c` lines 5882-5884). -/
def blobBytes : List UAtom → Option Bytes
  | [] => some []
  | a :: as => a.getInt8.bind fun n => (blobBytes as).map fun r => UInt8.ofNat (n % 256).toNat :: r

/-- `osc_expr_explicitCast` for blobs (`osc_expr.c` lines 5868-5889) but for a bundle: the elements become the bytes. -/
def blobCast : List Ar → Res
  | [] => some (0, none)
  | a :: _ =>
    match a.getD [] with
    | [.mk 46 _ _] => none
    | as => (blobBytes as).bind fun b => (setTo (mk 1) 0 fun a => a.clear.map fun _ => .mk 98 false (.blob 1 (be32 as.length ++ b))).map
      fun out => (0, some out)

/-! ### Blobs of single values -/

/-- `osc_atom_u_getBlobLen` (`osc_atom_u.c` lines 890-914): for numbers the union is passed as the address of the data, so that the length of
a number whose bits are all zero is -1. -/
def blobLenOf (tag : UInt8) (w : W) : Option Int :=
  if tag = 98 then
    match w with
    | .blob _ blk => rdI32 blk 0
    | _ => none
  else if tag = 46 then none
  else if tag = 115 then
    match w with
    | .str _ s => some s.length
    | _ => none
  else if w.raw % M64 = 0 then some (-1)
  else if tag = 116 then some 8
  else if dataLength tag = SIZE_MAX then some (-1) else some (dataLength tag)

/-- A write into a block. -/
def wrB (blk : Bytes) (i : Nat) (b : Bytes) : Option Bytes :=
  if i + b.length ≤ blk.length then some (blk.take i ++ b ++ blk.drop (i + b.length)) else none

/-- `hton16` and a store. -/
def be16 (n : Nat) : Bytes := [UInt8.ofNat (n / 256), UInt8.ofNat n]

/-- A length and the data. -/
def wrBlob (blk : Bytes) (n : Nat) (d : Bytes) : Option Bytes := (wrB blk 0 (be32 n)).bind fun blk => wrB blk 4 d

/-- `char *blob = NULL; osc_atom_u_getBlobCopy(a, &l, &blob)` (`osc_atom_u.c` lines 927-1008): a new block.  The text of a string is written
with `osc_atom_u_getString` (`strncpy` with the size of the block, four bytes into it: the rest of the block is filled with NULs, and four
bytes behind it as well). -/
def getBlobCopy (tag : UInt8) (w : W) : Option Bytes :=
  (blobLenOf tag w).bind fun l =>
    if l < -1 then none
    else
      let n := (l + 1).toNat
      let buflen := (n + 3) / 4 * 4 + 4
      let blk := zeros buflen
      if tag = 98 then
        match w with
        | .blob _ b => slice b 0 buflen
        | _ => none
      else if tag = 99 ∨ tag = 67 then wrBlob blk 1 [UInt8.ofNat (w.raw % M8)]
      else if tag = 117 ∨ tag = 85 then wrBlob blk 2 (be16 (w.raw % M16))
      else if tag = 105 ∨ tag = 73 then wrBlob blk 4 (be32 (w.raw % M32))
      else if tag = 104 ∨ tag = 72 then wrBlob blk 8 (be64 (w.i % M64).toNat)
      else if tag = 102 then wrBlob blk 4 (be32 (w.raw % M32))
      else if tag = 100 then wrBlob blk 8 (be64 (w.raw % M64))
      else if tag = 115 then
        match w with
        | .str _ s => wrBlob blk (buflen - 4) (s.take buflen ++ zeros (buflen - s.length))
        | _ => none
      else if tag = 46 then none
      else if tag = 116 then wrBlob blk 8 (be32 (w.raw % M32) ++ be32 (w.raw / M32 % M32))
      else some blk

/-- `osc_expr_explicitCast_blob` (`osc_expr.c` lines 6018-6025): without a source `osc_atom_u_setBlobPtr` stores NULL, which is not modelled. -/
def castBlob (src : Option UAtom) (dest : UAtom) : Option UAtom :=
  match src with
  | none => none
  | some (.mk tag _ w) => (getBlobCopy tag w).bind fun b => dest.clear.map fun d => .mk 98 d.alloc (.blob 1 b)

/-- The switch of `osc_expr_explicitCast_dynamic` (`osc_expr.c` lines 6051-6088): other tags leave the element as it is. -/
def castTag (P : Printf) (tt : Int) (src : Option UAtom) (dest : UAtom) : Option UAtom :=
  if tt = 99 then castInt .i8 src dest
  else if tt = 67 then castInt .u8 src dest
  else if tt = 117 then castInt .i16 src dest
  else if tt = 85 then castInt .u16 src dest
  else if tt = 105 then castInt .i32 src dest
  else if tt = 73 then castInt .u32 src dest
  else if tt = 104 then castInt .i64 src dest
  else if tt = 72 then castInt .u64 src dest
  else if tt = 102 then castFp32 src dest
  else if tt = 100 then castFp64 src dest
  else if tt = 115 then (castString P src dest).map (·.2)
  else if tt = 98 then castBlob src dest
  else some dest

/-- `osc_expr_explicitCast_dynamic` (`osc_expr.c` lines 6027-6096): one type for all the values, or one for each; `osc_atom_array_u_get`
gives NULL where there are fewer types, and the type 0 is none of them. -/
def dynamicCast (P : Printf) : List Ar → Res
  | tts :: a :: _ =>
    (if len a > 1 ∧ len tts = 1 then
      (intOf UAtom.getInt8 (at? tts 0)).bind fun tt =>
        forN (len a) (fun i out => setTo out i fun x => x.setInt8 tt) (mk (len a))
     else some (tts.getD [])).bind fun ttarray =>
      (forN (len a) (fun i out => (intOf UAtom.getInt8 (at? (some ttarray) i)).bind fun tt => setTo out i (castTag P tt (at? a i)))
        (mk (len a))).map fun out => (0, some out)
  | _ => some (1, none)

/-! ### Bits -/

/-- `OSC_TYPETAG_ISINT` (`osc_typetag.h` line 52). -/
def isInt (t : UInt8) : Bool := t == 105 || t == 73 || t == 104 || t == 72 || t == 117 || t == 85 || t == 99 || t == 67

/-- `op` on the numbers of a type as bits.  (C computes with promoted operands; the setter keeps these bits.) -/
def onBits (t : ITy) (op : Nat → Nat → Nat) (x y : Int) : Int := op (x % (2 ^ t.width : Nat)).toNat (y % (2 ^ t.width : Nat)).toNat

/-- The getters and the setter that the switch of `osc_expr_bitand` uses for a type (`osc_expr.c` lines 5305-5362); for `'C'` the setter of
`'c'`. -/
def bitTypes (tag : UInt8) : Option (ITy × ITy) :=
  if tag = 105 then some (.i32, .i32)
  else if tag = 73 then some (.u32, .u32)
  else if tag = 104 then some (.i64, .i64)
  else if tag = 72 then some (.u64, .u64)
  else if tag = 117 then some (.i16, .i16)
  else if tag = 85 then some (.u16, .u16)
  else if tag = 99 then some (.i8, .i8)
  else if tag = 67 then some (.u8, .i8)
  else none

/-- What `osc_expr_bitand` and `osc_expr_bitor` (`osc_expr.c` lines 5296-5365, 5367-5436) have in common: only the first elements are used, but the type
is the largest of all. -/
def bitOp (op : Nat → Nat → Nat) : List Ar → Res
  | [a, b] =>
    match at? a 0, at? b 0 with
    | some x, some y =>
      if !isInt x.tag || !isInt y.tag then some (1, none)
      else (getLargestType [a.getD [], b.getD []]).bind fun largest =>
        match bitTypes largest with
        | some (g, s) => (getU g x).bind fun x => (getU g y).bind fun y =>
          (setTo (mk 1) 0 fun d => setU s d (onBits g op x y)).map fun out => (0, some out)
        | none => some (0, some (mk 1))
    | _, _ => some (1, none)
  | _ => some (1, none)

/-- `osc_expr_bitand` (`osc_expr.c` lines 5296-5365). -/
def bitAnd : List Ar → Res := bitOp (· &&& ·)

/-- `osc_expr_bitor` (`osc_expr.c` lines 5367-5436). -/
def bitOr : List Ar → Res := bitOp (· ||| ·)

/-! ### Byte order -/

/-- `hton32` of a 32-bit number, as the unsigned number that the macro gives. -/
def swapI32 (x : Int) : Int := (swap32 (UInt32.ofNat (x % M32).toNat)).toNat

/-- `hton64` of a 64-bit number. -/
def swapI64 (x : Int) : Int := (swap64 (UInt64.ofNat (x % M64).toNat)).toNat

/-- The switch of `osc_expr_hton32` and `osc_expr_ntoh32` (`osc_expr.c` lines 6109-6120, 6138-6149); other types leave the element as it is. -/
def swapAtom32 (a d : UAtom) : Option UAtom :=
  if a.tag = 99 ∨ a.tag = 117 ∨ a.tag = 105 then (getU .i32 a).bind fun n => setU .i32 d (swapI32 n)
  else if a.tag = 67 ∨ a.tag = 85 ∨ a.tag = 73 then (getU .u32 a).bind fun n => setU .u32 d (swapI32 n)
  else some d

/-- The switch of `osc_expr_hton64` (`osc_expr.c` lines 6167-6180): always unsigned. -/
def htonAtom64 (a d : UAtom) : Option UAtom :=
  if a.tag = 99 ∨ a.tag = 117 ∨ a.tag = 105 ∨ a.tag = 104 ∨ a.tag = 67 ∨ a.tag = 85 ∨ a.tag = 73 ∨ a.tag = 72 then
    (getU .u64 a).bind fun n => setU .u64 d (swapI64 n)
  else some d

/-- The switch of `osc_expr_ntoh64` (`osc_expr.c` lines 6198-6211). -/
def ntohAtom64 (a d : UAtom) : Option UAtom :=
  if a.tag = 99 ∨ a.tag = 117 ∨ a.tag = 105 ∨ a.tag = 104 then (getU .i64 a).bind fun n => setU .i64 d (swapI64 n)
  else if a.tag = 67 ∨ a.tag = 85 ∨ a.tag = 73 ∨ a.tag = 72 then (getU .u64 a).bind fun n => setU .u64 d (swapI64 n)
  else some d

/-- The loops of these functions (`osc_expr.c` lines 6098-6125, and so on), over all arguments. -/
def swapAll (f : UAtom → UAtom → Option UAtom) (args : List Ar) : Res :=
  let as := args.flatMap fun a => a.getD []
  (forN as.length (fun k out => (as[k]?).bind fun a => setTo out k (f a)) (mk as.length)).map fun out => (0, some out)

/-- `osc_expr_hton32` (`osc_expr.c` lines 6098-6125). -/
def hton32 : List Ar → Res := swapAll swapAtom32

/-- `osc_expr_ntoh32` (`osc_expr.c` lines 6127-6154). -/
def ntoh32 : List Ar → Res := swapAll swapAtom32

/-- `osc_expr_hton64` (`osc_expr.c` lines 6156-6185). -/
def hton64 : List Ar → Res := swapAll htonAtom64

/-- `osc_expr_ntoh64` (`osc_expr.c` lines 6187-6216). -/
def ntoh64 : List Ar → Res := swapAll ntohAtom64

end Libo.Expr
