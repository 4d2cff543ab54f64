import Verif.AtomOps
import Verif.Props.Atoms
import Verif.DecodeVal
import Verif.Props.RoundTrip
import Verif.ExprStrLemmas
import Verif.Props.ExprFloat
import Verif.Props.ExprStr
import Verif.Props.ExprCastFp
/-!
# Properties of negation, typed arrays, joined texts, sizes and copies (C88-C91)
-/

namespace Libo.Props
open Libo Libo.Text Libo.Expr

/-! ## C88: negation -/

/-- Specification: the signed type of the same width. -/
def toSigned : ITy → ITy
  | .u8 => .i8 | .u16 => .i16 | .u32 => .i32 | .u64 => .i64 | t => t

/-- Specification: the numbers whose negation is not defined in C (signed arithmetic of 32 or 64 bits overflows). -/
def Lowest (t : ITy) (v : Int) : Prop := (t = .i32 ∧ v = -2147483648) ∨ (t = .i64 ∧ v = -9223372036854775808)

theorem setU_shape (t : ITy) (a a' : UAtom) (v : Int) (h : setU t a v = some a') : ∃ w, a' = .mk t.tag false w := by
  have hc : ∀ c, a.clear = some c → c.alloc = false := by
    intro c hc
    rcases a with ⟨tag, al, w⟩
    simp only [UAtom.clear] at hc
    split at hc
    · split at hc <;> cases hc <;> rfl
    · split at hc
      · split at hc
        · cases hc; rfl
        · split at hc <;> cases hc; rfl
      · split at hc <;> cases hc; rfl
  cases t <;> simp only [setU, UAtom.setInt8, UAtom.setInt16, UAtom.setInt32, UAtom.setInt64, UAtom.setUInt8, UAtom.setUInt16,
    UAtom.setUInt32, UAtom.setUInt64, Option.bind_eq_bind, Option.bind_eq_some_iff] at h <;>
    obtain ⟨c, h1, h2⟩ := h <;> have h3 := hc c h1 <;> cases h2 <;> exact ⟨_, by rw [h3]; rfl⟩

theorem setU_num (t s : ITy) (w : W) (v : Int) : ∃ b, setU s (.mk t.tag false w) v = some b ∧ b.tag = s.tag := by
  cases t <;> cases s <;> exact ⟨_, rfl, rfl⟩

theorem has_signed (t : ITy) (v : Int) : (toSigned t).has ((toSigned t).conv v) := by
  cases t <;> simp [toSigned, ITy.has, ITy.conv, ITy.signed, ITy.width, Int.bmod] <;> omega

theorem store_congr (w : W) (m : Nat) {x y : Int} (h : x % m = y % m) : w.store m x = w.store m y := by
  simp only [W.store, h]

theorem bmod_mod (x : Int) (m : Nat) : (Int.bmod x m) % m = x % m := Int.bmod_emod

theorem lowest_i32 {v : Int} (h : ¬ Lowest .i32 v) : v ≠ -2147483648 := fun e => h (.inl ⟨rfl, e⟩)
theorem lowest_i64 {v : Int} (h : ¬ Lowest .i64 v) : v ≠ -9223372036854775808 := fun e => h (.inr ⟨rfl, e⟩)

theorem negate_eq (t : ITy) (w : W) (v : Int) (hm : ¬ Lowest t v) (hg : getU t (.mk t.tag false w) = some v) :
    (UAtom.mk t.tag false w).negate = setU (toSigned t) (.mk t.tag false w) ((toSigned t).conv (-v)) := by
  cases t
  case i8 =>
    show ((UAtom.mk 99 false w).getInt8.bind fun v => (UAtom.mk 99 false w).setInt8 (-v)) = _
    rw [show (UAtom.mk 99 false w).getInt8 = some v from hg]
    exact congrArg (fun x => some (UAtom.mk 99 false x)) (store_congr w M8 (bmod_mod _ _).symm)
  case i16 =>
    show ((UAtom.mk 117 false w).getInt16.bind fun v => (UAtom.mk 117 false w).setInt16 (-v)) = _
    rw [show (UAtom.mk 117 false w).getInt16 = some v from hg]
    exact congrArg (fun x => some (UAtom.mk 117 false x)) (store_congr w M16 (bmod_mod _ _).symm)
  case i32 =>
    show ((UAtom.mk 105 false w).getInt32.bind fun v => if v = -2147483648 then none else (UAtom.mk 105 false w).setInt32 (-v)) = _
    rw [show (UAtom.mk 105 false w).getInt32 = some v from hg, Option.bind_some, if_neg (lowest_i32 hm)]
    exact congrArg (fun x => some (UAtom.mk 105 false x)) (store_congr w M32 (bmod_mod _ _).symm)
  case i64 =>
    show ((UAtom.mk 104 false w).getInt64.bind fun v => if v = -9223372036854775808 then none else (UAtom.mk 104 false w).setInt64 (-v)) = _
    rw [show (UAtom.mk 104 false w).getInt64 = some v from hg, Option.bind_some, if_neg (lowest_i64 hm)]
    exact congrArg (fun x => some (UAtom.mk 104 false x)) (store_congr w M64 (bmod_mod _ _).symm)
  case u8 =>
    show ((UAtom.mk 67 false w).getUInt8.bind fun v => (UAtom.mk 67 false w).setInt8 (castS M8 (-v))) = _
    rw [show (UAtom.mk 67 false w).getUInt8 = some v from hg, Option.bind_some, ← conv_i8]; rfl
  case u16 =>
    show ((UAtom.mk 85 false w).getUInt16.bind fun v => (UAtom.mk 85 false w).setInt16 (castS M16 (-v))) = _
    rw [show (UAtom.mk 85 false w).getUInt16 = some v from hg, Option.bind_some, ← conv_i16]; rfl
  case u32 =>
    show ((UAtom.mk 73 false w).getUInt32.bind fun v => (UAtom.mk 73 false w).setInt32 (castS M32 (-v))) = _
    rw [show (UAtom.mk 73 false w).getUInt32 = some v from hg, Option.bind_some, ← conv_i32]; rfl
  case u64 =>
    show ((UAtom.mk 72 false w).getUInt64.bind fun v => (UAtom.mk 72 false w).setInt64 (castS M64 (-v))) = _
    rw [show (UAtom.mk 72 false w).getUInt64 = some v from hg, Option.bind_some, ← conv_i64]; rfl

/-- **C88.** Negating a number that was set with any of the setters gives a number of the signed type of the same width; its value is the
negated number, brought into the range of that type. -/
theorem C88_negate_partial (t : ITy) (a a' : UAtom) (v : Int) (hv : t.has v) (h : setU t a v = some a') (hm : ¬ Lowest t v) :
    ∃ b, a'.negate = some b ∧ b.tag = (toSigned t).tag ∧ ∀ g : ITy, getU g b = some (g.conv ((toSigned t).conv (-v))) := by
  have hg := (C09_unserialised t t a a' v hv h).1
  rw [ITy.conv_self t v hv] at hg
  obtain ⟨w, rfl⟩ := setU_shape t a a' v h
  obtain ⟨b, hb, htag⟩ := setU_num t (toSigned t) w ((toSigned t).conv (-v))
  exact ⟨b, (negate_eq t w v hm hg).trans hb, htag, fun g => (C09_unserialised (toSigned t) g _ b _ (has_signed t (-v)) hb).1⟩

/-- A signed number whose negation is in the range of its type is negated, keeps its type, and negating again gives the number back. -/
theorem C88_signed (t : ITy) (a a' : UAtom) (v : Int) (hs : t.signed = true) (hv : t.has v) (hn : t.has (-v)) (h : setU t a v = some a') :
    ∃ b c, a'.negate = some b ∧ b.tag = t.tag ∧ getU t b = some (-v) ∧ b.negate = some c ∧ c.tag = t.tag ∧ getU t c = some v := by
  have hts : toSigned t = t := by cases t <;> first | rfl | cases hs
  have hm : ∀ x, t.has (-x) → ¬ Lowest t x := by
    rintro x hn (⟨rfl, rfl⟩ | ⟨rfl, rfl⟩) <;> simp [ITy.has, ITy.signed, ITy.width] at hn
  have hg := (C09_unserialised t t a a' v hv h).1
  rw [ITy.conv_self t v hv] at hg
  obtain ⟨w, rfl⟩ := setU_shape t a a' v h
  have h1 := negate_eq t w v (hm v hn) hg
  rw [hts, ITy.conv_self t _ hn] at h1
  obtain ⟨b, hb, htag⟩ := setU_num t t w (-v)
  obtain ⟨d, hd1, hd2, hd3⟩ := C88_negate_partial t _ b (-v) hn hb (hm _ (by rwa [Int.neg_neg]))
  have h2 := (C09_unserialised t t _ b _ hn hb).1
  rw [ITy.conv_self t _ hn] at h2
  rw [hts, Int.neg_neg, ITy.conv_self t v hv] at hd3
  exact ⟨b, d, h1.trans hb, htag, h2, hd1, hts ▸ hd2, (hd3 t).trans (by rw [ITy.conv_self t v hv])⟩

/-- The least numbers of 32 and 64 bits cannot be negated. -/
theorem C88_lowest (t : ITy) (a a' : UAtom) (v : Int) (hv : t.has v) (h : setU t a v = some a') (hm : Lowest t v) : a'.negate = none := by
  have hg := (C09_unserialised t t a a' v hv h).1
  rw [ITy.conv_self t v hv] at hg
  obtain ⟨w, rfl⟩ := setU_shape t a a' v h
  rcases hm with ⟨rfl, rfl⟩ | ⟨rfl, rfl⟩
  · show ((UAtom.mk 105 false w).getInt32.bind fun v => if v = -2147483648 then none else (UAtom.mk 105 false w).setInt32 (-v)) = _
    rw [show (UAtom.mk 105 false w).getInt32 = some _ from hg]; rfl
  · show ((UAtom.mk 104 false w).getInt64.bind fun v => if v = -9223372036854775808 then none else (UAtom.mk 104 false w).setInt64 (-v)) = _
    rw [show (UAtom.mk 104 false w).getInt64 = some _ from hg]; rfl

/-- Specification: the floating point number with the other sign. -/
def flipSign : Fp → Fp
  | .fin s m => .fin (!s) m
  | .inf s => .inf (!s)
  | .nan => .nan

theorem flip_bit {x y : Nat} (h : x + 1 = y ∨ y + 1 = x) (hx : x < 2) (hy : y < 2) : (x % 2 == 1) = !(y % 2 == 1) := by
  have : (x = 0 ∧ y = 1) ∨ (x = 1 ∧ y = 0) := by omega
  rcases this with ⟨rfl, rfl⟩ | ⟨rfl, rfl⟩ <;> rfl

theorem ofBits_flip (F : Fmt) (b b' : Nat) (hm : b' % 2 ^ F.mb = b % 2 ^ F.mb) (he : b' / 2 ^ F.mb % 2 ^ F.eb = b / 2 ^ F.mb % 2 ^ F.eb)
    (hs : (b' / 2 ^ (F.mb + F.eb) % 2 == 1) = !(b / 2 ^ (F.mb + F.eb) % 2 == 1)) : Fp.ofBits F b' = flipSign (Fp.ofBits F b) := by
  simp only [Fp.ofBits, hm, he, hs]
  split
  · split <;> rfl
  · split <;> rfl

theorem neg32_cases (b : Nat) (hb : b < M32) : (b < 2147483648 ∧ neg32 b = b + 2147483648) ∨ (2147483648 ≤ b ∧ neg32 b + 2147483648 = b) := by
  simp only [neg32]
  split <;> omega

theorem neg32_spec (b : Nat) (hb : b < M32) : neg32 b < M32 ∧ neg32 (neg32 b) = b ∧ Fp.ofBits f32 (neg32 b) = flipSign (Fp.ofBits f32 b) := by
  have h1 := neg32_cases b hb
  have hc : neg32 b < M32 := by simp only [M32] at *; omega
  have h2 := neg32_cases (neg32 b) hc
  generalize neg32 (neg32 b) = d at *
  generalize neg32 b = c at *
  simp only [M32] at *
  refine ⟨hc, by omega, ofBits_flip _ _ _ ?_ ?_ (flip_bit ?_ ?_ ?_)⟩ <;> simp only [f32, Nat.reduceAdd, Nat.reducePow] <;> omega

theorem neg64_cases (b : Nat) (hb : b < M64) : (b < 9223372036854775808 ∧ neg64 b = b + 9223372036854775808) ∨ (9223372036854775808 ≤ b ∧ neg64 b + 9223372036854775808 = b) := by
  simp only [neg64]
  split <;> omega

theorem neg64_spec (b : Nat) (hb : b < M64) : neg64 b < M64 ∧ neg64 (neg64 b) = b ∧ Fp.ofBits f64 (neg64 b) = flipSign (Fp.ofBits f64 b) := by
  have h1 := neg64_cases b hb
  have hc : neg64 b < M64 := by simp only [M64] at *; omega
  have h2 := neg64_cases (neg64 b) hc
  generalize neg64 (neg64 b) = d at *
  generalize neg64 b = c at *
  simp only [M64] at *
  refine ⟨hc, by omega, ofBits_flip _ _ _ ?_ ?_ (flip_bit ?_ ?_ ?_)⟩ <;> simp only [f64, Nat.reduceAdd, Nat.reducePow] <;> omega

theorem store_nat (w : W) (m b : Nat) (hm : 0 < m) (hb : b < m) : (w.store m b).raw % m = b := by
  have h := store_mod w m hm b
  rw [Int.emod_eq_of_lt (a := (b : Int)) (by omega) (by omega)] at h
  omega

/-- Floating point numbers get the other sign, also zero and the infinities, and keep their type; negating twice gives the same bits. -/
theorem C88_float (a a' : UAtom) (b : Nat) (hb : b < M32) (h : a.setFloat b = some a') :
    ∃ c b', a'.negate = some c ∧ c.tag = 102 ∧ c.w.raw % M32 = b' ∧ Fp.ofBits f32 b' = flipSign (Fp.ofBits f32 b) ∧
      ∃ d, c.negate = some d ∧ d.tag = 102 ∧ d.w.raw % M32 = b := by
  obtain ⟨h1, h2, h3⟩ := neg32_spec b hb
  simp only [UAtom.setFloat, Option.bind_eq_bind, Option.bind_eq_some_iff] at h
  obtain ⟨x, _, hx⟩ := h
  cases hx
  have e1 := store_nat x.w M32 b (by decide) hb
  generalize hw : x.w.store M32 b = w at *
  have hneg : ∀ al w, (UAtom.mk 102 al w).negate = some (.mk 102 false (w.store M32 (neg32 (w.raw % M32) : Nat))) := fun _ _ => by
    simp [UAtom.negate, UAtom.tag, UAtom.setFloat, UAtom.setDouble, UAtom.clear, UAtom.w, UAtom.alloc]
  rw [hneg, e1]
  refine ⟨_, _, rfl, rfl, store_nat w M32 _ (by decide) h1, h3, ?_⟩
  rw [hneg, store_nat w M32 _ (by decide) h1, h2]
  exact ⟨_, rfl, rfl, store_nat _ M32 _ (by decide) hb⟩

theorem C88_double (a a' : UAtom) (b : Nat) (hb : b < M64) (h : a.setDouble b = some a') :
    ∃ c b', a'.negate = some c ∧ c.tag = 100 ∧ c.w.raw % M64 = b' ∧ Fp.ofBits f64 b' = flipSign (Fp.ofBits f64 b) ∧
      ∃ d, c.negate = some d ∧ d.tag = 100 ∧ d.w.raw % M64 = b := by
  obtain ⟨h1, h2, h3⟩ := neg64_spec b hb
  simp only [UAtom.setDouble, Option.bind_eq_bind, Option.bind_eq_some_iff] at h
  obtain ⟨x, _, hx⟩ := h
  cases hx
  have e1 := store_nat x.w M64 b (by decide) hb
  generalize hw : x.w.store M64 b = w at *
  have hneg : ∀ al w, (UAtom.mk 100 al w).negate = some (.mk 100 false (w.store M64 (neg64 (w.raw % M64) : Nat))) := fun _ _ => by
    simp [UAtom.negate, UAtom.tag, UAtom.setFloat, UAtom.setDouble, UAtom.clear, UAtom.w, UAtom.alloc]
  rw [hneg, e1]
  refine ⟨_, _, rfl, rfl, store_nat w M64 _ (by decide) h1, h3, ?_⟩
  rw [hneg, store_nat w M64 _ (by decide) h1, h2]
  exact ⟨_, rfl, rfl, store_nat _ M64 _ (by decide) hb⟩

/-- Specification: the type tags of numbers. -/
def numTags : List UInt8 := [99, 117, 105, 104, 67, 85, 73, 72, 102, 100]

/-- Everything else is left as it is, in both forms. -/
theorem C88_other (a : UAtom) (h : a.tag ∉ numTags) : a.negate = some a := by
  simp only [numTags, List.mem_cons, List.not_mem_nil, or_false, not_or] at h
  simp [UAtom.negate, h]

theorem C88_other_serialised (buf : Bytes) (a : AtomS) (h : a.tag ∉ numTags) : a.negate buf = some (a.tag, buf) := by
  simp only [numTags, List.mem_cons, List.not_mem_nil, or_false, not_or] at h
  simp [AtomS.negate, h]

theorem wrB_mid (pre d d' post : Bytes) (h : d'.length = d.length) : wrB (pre ++ d ++ post) pre.length d' = some (pre ++ d' ++ post) := by
  simp only [wrB]
  rw [if_pos (by simp; omega)]
  simp [h]

/-- Specification: the bytes of the data of a number in a message. -/
def wireInt (t : ITy) (v : Int) : Bytes := if t.width = 64 then be64 (v % 2 ^ 64).toNat else be32 (v % 2 ^ 32).toNat

theorem wire8 (t : ITy) (h : t.width = 64) (v : Int) : wireInt t v = be64 (v % 2 ^ 64).toNat := if_pos h
theorem wire4 (t : ITy) (h : t.width ≠ 64) (v : Int) : wireInt t v = be32 (v % 2 ^ 32).toNat := if_neg h

theorem conv_mod_i32 (x : Int) : ITy.i32.conv x % 2 ^ 32 = x % M32 := by
  simp only [ITy.conv, ITy.signed, ITy.width, M32]; exact bmod_mod x (2 ^ 32)
theorem conv_mod_i64 (x : Int) : ITy.i64.conv x % 2 ^ 64 = x % M64 := by
  simp only [ITy.conv, ITy.signed, ITy.width, M64]; exact bmod_mod x (2 ^ 64)

/-- In a message: whatever 4 (or 8) bytes the data of the atom is, the number `v` that they mean in the type is negated in place.  Nothing
else in the buffer changes. -/
theorem C88_serialised_partial (t : ITy) (n : Nat) (hn : n < 2 ^ (if t.width = 64 then 64 else 32)) (pre post : Bytes)
    (hm : ¬ Lowest t (t.conv n)) :
    AtomS.negate (pre ++ wireInt t n ++ post) ⟨t.tag, pre.length⟩ =
      some ((toSigned t).tag, pre ++ wireInt (toSigned t) ((toSigned t).conv (-t.conv n)) ++ post) := by
  have h4 : ∀ g : ITy, g.width ≤ 32 → g.tag ∈ ([99, 117, 105, 67, 85, 73] : List UInt8) → ∀ m : Nat,
      getS g (pre ++ be32 m ++ post) ⟨g.tag, pre.length⟩ = some (g.conv m) := fun g hg ht m => getS_4 g hg _ ht pre post m m rfl
  have h8 : ∀ g : ITy, g.tag ∈ ([104, 72] : List UInt8) → ∀ m : Nat,
      getS g (pre ++ be64 m ++ post) ⟨g.tag, pre.length⟩ = some (g.conv m) := fun g ht m => getS_8 g _ ht pre post m m rfl
  cases t
  case i8 =>
    have hg := h4 .i8 (by decide) (by decide) n
    have hw : wireInt .i8 n = be32 n := by
      simp [ITy.width] at hn
      rw [wire4 _ (by decide)]
      congr 1; omega
    rw [hw]
    show ((AtomS.getInt8 (pre ++ be32 n ++ post) ⟨99, pre.length⟩).bind fun v =>
      (wrB (pre ++ be32 n ++ post) pre.length (AtomS.setInt8 (castS M8 (-v))).2).map fun b => ((99 : UInt8), b)) = _
    rw [show AtomS.getInt8 (pre ++ be32 n ++ post) ⟨99, pre.length⟩ = some _ from hg, Option.bind_some, ← conv_i8, wrB_mid]
    · simp only [toSigned]; rw [wire4 _ (by decide)]; rfl
    · simp [be32, be64, AtomS.setInt8]
  case i16 =>
    have hg := h4 .i16 (by decide) (by decide) n
    have hw : wireInt .i16 n = be32 n := by
      simp [ITy.width] at hn
      rw [wire4 _ (by decide)]
      congr 1; omega
    rw [hw]
    show ((AtomS.getInt16 (pre ++ be32 n ++ post) ⟨117, pre.length⟩).bind fun v =>
      (wrB (pre ++ be32 n ++ post) pre.length (AtomS.setInt16 (castS M16 (-v))).2).map fun b => ((117 : UInt8), b)) = _
    rw [show AtomS.getInt16 (pre ++ be32 n ++ post) ⟨117, pre.length⟩ = some _ from hg, Option.bind_some, ← conv_i16, wrB_mid]
    · simp only [toSigned]; rw [wire4 _ (by decide)]; rfl
    · simp [be32, be64, AtomS.setInt16]
  case i32 =>
    have hg := h4 .i32 (by decide) (by decide) n
    have hw : wireInt .i32 n = be32 n := by
      simp [ITy.width] at hn
      rw [wire4 _ (by decide)]
      congr 1; omega
    rw [hw]
    show ((AtomS.getInt32 (pre ++ be32 n ++ post) ⟨105, pre.length⟩).bind fun v =>
      if v = -2147483648 then none else (wrB (pre ++ be32 n ++ post) pre.length (AtomS.setInt32 (-v)).2).map fun b => ((105 : UInt8), b)) = _
    rw [show AtomS.getInt32 (pre ++ be32 n ++ post) ⟨105, pre.length⟩ = some _ from hg, Option.bind_some, if_neg (lowest_i32 hm), wrB_mid]
    · simp only [toSigned, AtomS.setInt32]
      rw [wire4 _ (by decide), conv_mod_i32]
      rfl
    · simp [be32, be64, AtomS.setInt32]
  case i64 =>
    have hg := h8 .i64 (by decide) n
    have hw : wireInt .i64 n = be64 n := by
      simp [ITy.width] at hn
      rw [wire8 _ (by decide)]
      congr 1; omega
    rw [hw]
    show ((AtomS.getInt64 (pre ++ be64 n ++ post) ⟨104, pre.length⟩).bind fun v =>
      if v = -9223372036854775808 then none else (wrB (pre ++ be64 n ++ post) pre.length (AtomS.setInt64 (-v)).2).map fun b => ((104 : UInt8), b)) = _
    rw [show AtomS.getInt64 (pre ++ be64 n ++ post) ⟨104, pre.length⟩ = some _ from hg, Option.bind_some, if_neg (lowest_i64 hm), wrB_mid]
    · simp only [toSigned, AtomS.setInt64]
      rw [wire8 _ (by decide), conv_mod_i64]
      rfl
    · simp [be32, be64, AtomS.setInt64]
  case u8 =>
    have hg := h4 .u8 (by decide) (by decide) n
    have hw : wireInt .u8 n = be32 n := by
      simp [ITy.width] at hn
      rw [wire4 _ (by decide)]
      congr 1; omega
    rw [hw]
    show ((AtomS.getUInt8 (pre ++ be32 n ++ post) ⟨67, pre.length⟩).bind fun v =>
      (wrB (pre ++ be32 n ++ post) pre.length (AtomS.setInt8 (castS M8 (-v))).2).map fun b => ((99 : UInt8), b)) = _
    rw [show AtomS.getUInt8 (pre ++ be32 n ++ post) ⟨67, pre.length⟩ = some _ from hg, Option.bind_some, ← conv_i8, wrB_mid]
    · simp only [toSigned]; rw [wire4 _ (by decide)]; rfl
    · simp [be32, be64, AtomS.setInt8]
  case u16 =>
    have hg := h4 .u16 (by decide) (by decide) n
    have hw : wireInt .u16 n = be32 n := by
      simp [ITy.width] at hn
      rw [wire4 _ (by decide)]
      congr 1; omega
    rw [hw]
    show ((AtomS.getUInt16 (pre ++ be32 n ++ post) ⟨85, pre.length⟩).bind fun v =>
      (wrB (pre ++ be32 n ++ post) pre.length (AtomS.setInt16 (castS M16 (-v))).2).map fun b => ((117 : UInt8), b)) = _
    rw [show AtomS.getUInt16 (pre ++ be32 n ++ post) ⟨85, pre.length⟩ = some _ from hg, Option.bind_some, ← conv_i16, wrB_mid]
    · simp only [toSigned]; rw [wire4 _ (by decide)]; rfl
    · simp [be32, be64, AtomS.setInt16]
  case u32 =>
    have hg := h4 .u32 (by decide) (by decide) n
    have hw : wireInt .u32 n = be32 n := by
      simp [ITy.width] at hn
      rw [wire4 _ (by decide)]
      congr 1; omega
    rw [hw]
    show ((AtomS.getUInt32 (pre ++ be32 n ++ post) ⟨73, pre.length⟩).bind fun v =>
      (wrB (pre ++ be32 n ++ post) pre.length (AtomS.setInt32 (castS M32 (-v))).2).map fun b => ((105 : UInt8), b)) = _
    rw [show AtomS.getUInt32 (pre ++ be32 n ++ post) ⟨73, pre.length⟩ = some _ from hg, Option.bind_some, ← conv_i32, wrB_mid]
    · simp only [toSigned]; rw [wire4 _ (by decide)]; rfl
    · simp [be32, be64, AtomS.setInt32]
  case u64 =>
    have hg := h8 .u64 (by decide) n
    have hw : wireInt .u64 n = be64 n := by
      simp [ITy.width] at hn
      rw [wire8 _ (by decide)]
      congr 1; omega
    rw [hw]
    show ((AtomS.getUInt64 (pre ++ be64 n ++ post) ⟨72, pre.length⟩).bind fun v =>
      (wrB (pre ++ be64 n ++ post) pre.length (AtomS.setInt64 (castS M64 (-v))).2).map fun b => ((104 : UInt8), b)) = _
    rw [show AtomS.getUInt64 (pre ++ be64 n ++ post) ⟨72, pre.length⟩ = some _ from hg, Option.bind_some, ← conv_i64, wrB_mid]
    · simp only [toSigned]; rw [wire8 _ (by decide)]; rfl
    · simp [be32, be64, AtomS.setInt64]

/-- Floating point numbers in a message get the other sign in place and keep their type; nothing else in the buffer changes. -/
theorem C88_serialised_float (b : Nat) (hb : b < M32) (pre post : Bytes) :
    ∃ b', b' < M32 ∧ Fp.ofBits f32 b' = flipSign (Fp.ofBits f32 b) ∧
      AtomS.negate (pre ++ be32 b ++ post) ⟨102, pre.length⟩ = some (102, pre ++ be32 b' ++ post) ∧
      AtomS.negate (pre ++ be32 b' ++ post) ⟨102, pre.length⟩ = some (102, pre ++ be32 b ++ post) := by
  obtain ⟨h1, h2, h3⟩ := neg32_spec b hb
  have key : ∀ c, c < M32 → AtomS.negate (pre ++ be32 c ++ post) ⟨102, pre.length⟩ = some (102, pre ++ be32 (neg32 c) ++ post) := fun c hc => by
    show ((rd32 (pre ++ be32 c ++ post) pre.length).bind fun v => (wrB (pre ++ be32 c ++ post) pre.length (be32 (neg32 v))).map fun b => ((102 : UInt8), b)) = _
    rw [rd32_mid, Nat.mod_eq_of_lt hc, Option.bind_some, wrB_mid _ _ _ _ (by simp [be32])]
    rfl
  refine ⟨neg32 b, h1, h3, key b hb, ?_⟩
  rw [key _ h1, h2]

theorem C88_serialised_double (b : Nat) (hb : b < M64) (pre post : Bytes) :
    ∃ b', b' < M64 ∧ Fp.ofBits f64 b' = flipSign (Fp.ofBits f64 b) ∧
      AtomS.negate (pre ++ be64 b ++ post) ⟨100, pre.length⟩ = some (100, pre ++ be64 b' ++ post) ∧
      AtomS.negate (pre ++ be64 b' ++ post) ⟨100, pre.length⟩ = some (100, pre ++ be64 b ++ post) := by
  obtain ⟨h1, h2, h3⟩ := neg64_spec b hb
  have key : ∀ c, c < M64 → AtomS.negate (pre ++ be64 c ++ post) ⟨100, pre.length⟩ = some (100, pre ++ be64 (neg64 c) ++ post) := fun c hc => by
    show ((rd64 (pre ++ be64 c ++ post) pre.length).bind fun v => (wrB (pre ++ be64 c ++ post) pre.length (be64 (neg64 v))).map fun b => ((100 : UInt8), b)) = _
    rw [rd64_mid, Nat.mod_eq_of_lt hc, Option.bind_some, wrB_mid _ _ _ _ (by simp [be32, be64])]
    rfl
  refine ⟨neg64 b, h1, h3, key b hb, ?_⟩
  rw [key _ h1, h2]

/-- Reading what is in a message at a number: the typed getters of at most the width of the number give it. -/
theorem wireInt_read (t g : ITy) (v : Int) (hg : g.width ≤ t.width ∨ g.width ≤ 32) (pre post : Bytes) :
    getS g (pre ++ wireInt t v ++ post) ⟨t.tag, pre.length⟩ = some (g.conv v) := by
  by_cases hw : t.width = 64
  · rw [wire8 t hw]
    refine getS_8 g _ ?_ pre post _ v ?_
    · cases t <;> first | decide | simp [ITy.width] at hw
    · simp only [M64]; omega
  · have h32 : t.width ≤ 32 := by cases t <;> simp [ITy.width] at hw ⊢
    rw [wire4 t hw]
    refine getS_4 g (by omega) _ ?_ pre post _ v ?_
    · cases t <;> first | decide | simp [ITy.width] at hw
    · have hd : ((2 ^ g.width : Nat) : Int) ∣ ((2 ^ 32 : Nat) : Int) := Int.natCast_dvd_natCast.mpr (Nat.pow_dvd_pow 2 (by omega))
      have e : (((v % 2 ^ 32).toNat : Nat) : Int) = v % ((2 ^ 32 : Nat) : Int) := by
        rw [Int.toNat_of_nonneg (by omega)]; rfl
      rw [e]
      exact Int.emod_emod_of_dvd _ hd

/-- Both forms agree: the number that a typed getter reads after negation is the same whether the atom was negated before it was serialised
or in the message. -/
theorem C88_forms_agree (t g : ITy) (hg : g.width ≤ t.width) (a a' : UAtom) (v : Int) (hv : t.has v) (h : setU t a v = some a')
    (hm : ¬ Lowest t v) (pre post : Bytes) :
    ∃ b d d', a'.negate = some b ∧ serializeAtom b = some ((toSigned t).tag, d) ∧
      AtomS.negate (pre ++ wireInt t v ++ post) ⟨t.tag, pre.length⟩ = some ((toSigned t).tag, pre ++ d' ++ post) ∧ d'.length = d.length ∧
      getS g (pre ++ d ++ post) ⟨(toSigned t).tag, pre.length⟩ = getS g (pre ++ d' ++ post) ⟨(toSigned t).tag, pre.length⟩ := by
  have hg' := (C09_unserialised t t a a' v hv h).1
  rw [ITy.conv_self t v hv] at hg'
  obtain ⟨w, rfl⟩ := setU_shape t a a' v h
  obtain ⟨b, hb, htag⟩ := setU_num t (toSigned t) w ((toSigned t).conv (-v))
  have hws : (toSigned t).width = t.width := by cases t <;> rfl
  obtain ⟨d, hd1, hd2⟩ := C09_serialised_narrow (toSigned t) g _ b _ hb (by omega)
  rw [htag] at hd1 hd2
  have hn : ∃ n : Nat, n < 2 ^ (if t.width = 64 then 64 else 32) ∧ wireInt t v = wireInt t n ∧ t.conv n = v := by
    have hcv := ITy.conv_self t v hv
    by_cases h64 : t.width = 64
    · refine ⟨(v % 2 ^ 64).toNat, ?_, ?_, ?_⟩
      · rw [if_pos h64]; omega
      · rw [wire8 t h64, wire8 t h64]; congr 1; omega
      · rw [← hcv]
        cases t <;> simp [ITy.width] at h64 <;> simp [ITy.conv, ITy.signed, ITy.width, Int.bmod] <;> omega
    · refine ⟨(v % 2 ^ 32).toNat, ?_, ?_, ?_⟩
      · rw [if_neg h64]; omega
      · rw [wire4 t h64, wire4 t h64]; congr 1; omega
      · rw [← hcv]
        cases t <;> simp [ITy.width] at h64 <;> simp [ITy.conv, ITy.signed, ITy.width, Int.bmod] <;> omega
  obtain ⟨n, hn1, hn2, hn3⟩ := hn
  have hS := C88_serialised_partial t n hn1 pre post (by rw [hn3]; exact hm)
  rw [hn3, ← hn2] at hS
  refine ⟨b, d, _, (negate_eq t w v hm hg').trans hb, hd1, hS, ?_, ?_⟩
  · obtain ⟨c, _, hc⟩ := ser_int (toSigned t) _ b _ hb
    have hl : ∀ x y : Nat, (be32 x).length = (be32 y).length := fun x y => by simp [be32]
    have hl8 : ∀ x y : Nat, (be64 x).length = (be64 y).length := fun x y => by simp [be32, be64]
    rw [hd1] at hc
    rcases hc with ⟨e, h1, _⟩ | ⟨e, h1, _⟩ | ⟨e, h1, _⟩ | ⟨e, h1, _⟩ | ⟨e, h1, _⟩ | ⟨e, h1, _⟩ | ⟨e, h1, _⟩ | ⟨e, h1, _⟩ <;>
      (rw [e] at h1 ⊢; simp only [Option.some.injEq, Prod.mk.injEq] at h1; rw [h1.2]; first | rw [wire4 _ (by decide)]; exact hl _ _ | rw [wire8 _ (by decide)]; exact hl8 _ _)
  · rw [hd2, wireInt_read (toSigned t) g _ (.inl (by omega))]

/-- The full claim says that a number keeps its type. -/
def C88Full : Prop := ∀ (t : ITy) (a a' : UAtom) (v : Int), t.has v → setU t a v = some a' → ∃ b, a'.negate = some b ∧ b.tag = t.tag

/-- It is false: an unsigned number becomes a signed one. -/
theorem C88_full_fails : ¬ C88Full := by
  intro h
  obtain ⟨b, h1, h2⟩ := h .u8 .fresh (.mk 67 false (.bits 200)) 200 (by simp [ITy.has, ITy.signed, ITy.width]) rfl
  have h3 : (UAtom.mk 67 false (.bits 200)).negate = some (.mk 99 false (.bits 56)) := rfl
  rw [h3] at h1
  cases h1
  exact absurd h2 (by decide)

/-! Concrete cases. -/
example : ITy.i16.has (-300) ∧ ¬ Lowest .i16 (-300) ∧ setU .i16 .fresh (-300) = some (.mk 117 false (.bits 65236)) ∧
    (UAtom.mk 117 false (.bits 65236)).negate = some (.mk 117 false (.bits 300)) := by
  refine ⟨by simp [ITy.has, ITy.signed, ITy.width], by simp [Lowest], rfl, rfl⟩
example : AtomS.negate ([47, 97, 0, 0, 44, 105, 0, 0] ++ wireInt .i32 5 ++ []) ⟨105, 8⟩ =
    some (105, [47, 97, 0, 0, 44, 105, 0, 0, 255, 255, 255, 251]) := by decide +kernel

/-! ## C89: typed arrays and the joined text of an array -/

theorem typed_ok {α β : Type} (g : α → Option β) (ar : List α) (vs : List β) (hv : ar.map g = vs.map some) (blk : List (Option β))
    (hb : ar.length ≤ blk.length) :
    forN ar.length (fun i blk => (ar[i]?).bind fun a => (g a).bind fun v => if i < blk.length then some (blk.set i (some v)) else none) blk =
      some (vs.map some ++ blk.drop ar.length) := by
  have hl : ar.length = vs.length := by simpa using congrArg List.length hv
  obtain ⟨r, h1, h2⟩ := forN_inv (fun k b => b = (vs.take k).map some ++ blk.drop k) (fun i blk => (ar[i]?).bind fun a => (g a).bind fun v =>
    if i < blk.length then some (blk.set i (some v)) else none) ar.length blk (by simp) (by
      intro i b hi hb'
      have hi' : i < vs.length := by omega
      have ha : ar[i]? = some ar[i] := List.getElem?_eq_getElem hi
      have hg : g ar[i] = some vs[i] := by
        have := congrArg (·[i]?) hv
        simpa [List.getElem?_map, ha, List.getElem?_eq_getElem hi'] using this
      have hbl : b.length = blk.length := by rw [hb']; simp; omega
      refine ⟨b.set i (some vs[i]), ?_, ?_⟩
      · show ((ar[i]?).bind fun a => (g a).bind fun v => if i < b.length then some (b.set i (some v)) else none) = _
        rw [ha, Option.bind_some, hg, Option.bind_some, if_pos (by omega)]
      · show b.set i (some vs[i]) = (vs.take (i + 1)).map some ++ blk.drop (i + 1)
        rw [hb', List.set_append, if_neg (by simp; omega), List.take_succ_eq_append_getElem hi', List.map_append, List.append_assoc]
        congr 1
        have hd : blk.drop i = blk[i] :: blk.drop (i + 1) := List.drop_eq_getElem_cons (by omega)
        rw [hd]
        rw [List.length_map, List.length_take, Nat.min_eq_left (Nat.le_of_lt hi'), Nat.sub_self]
        rfl)
  rw [h1, h2, hl]
  simp

/-- A typed array function with any getter: element `i` of the block is what the getter gives for atom `i`; a new block has just as many
elements as the array, and a given block is changed nowhere else. -/
theorem typedArray_spec {α β : Type} (g : α → Option β) (ar : List α) (vs : List β) (hv : ar.map g = vs.map some) :
    typedArray g ar none = some (vs.map some) ∧
    ∀ blk : List (Option β), ar.length ≤ blk.length → typedArray g ar (some blk) = some (vs.map some ++ blk.drop ar.length) := by
  refine ⟨?_, fun blk hb => typed_ok g ar vs hv blk hb⟩
  have := typed_ok g ar vs hv (List.replicate ar.length none) (by simp)
  simpa [typedArray] using this

theorem ints_map (g : ITy) : ∀ (as : List UAtom) (xs : List (ITy × Int)), argsVal as = some (xs.map fun x => x.1.val x.2) →
    (∀ x ∈ xs, x.1.has x.2) → as.map (getU g) = (xs.map fun x => g.conv x.2).map some
  | [], xs, h, _ => by
    cases xs with
    | nil => rfl
    | cons x xs => simp [argsVal] at h
  | a :: as, xs, h, hx => by
    simp only [argsVal, Option.bind_eq_some_iff, Option.map_eq_some_iff] at h
    obtain ⟨v, hv, vs, hvs, e⟩ := h
    cases xs with
    | nil => simp at e
    | cons x xs =>
      simp only [List.map_cons, List.cons.injEq] at e
      rw [List.map_cons, List.map_cons, List.map_cons, ints_map g as xs (hvs.trans (by rw [e.2])) (fun y hy => hx y (.tail _ hy)),
        (getU_val x.1 g a x.2 (hx x (.head _)) (by rw [hv, e.1])).1]

/-- **C89, numbers.** For an array of integers of any types the functions for 32 and 64 bit integers give, in a new block of as many elements
or at the beginning of a given one, the integers converted to the type asked for. -/
theorem C89_ints (as : List UAtom) (xs : List (ITy × Int)) (h : argsVal as = some (xs.map fun x => x.1.val x.2)) (hx : ∀ x ∈ xs, x.1.has x.2) :
    (int32ArrayU as none = some (xs.map fun x => some (ITy.i32.conv x.2)) ∧ int64ArrayU as none = some (xs.map fun x => some (ITy.i64.conv x.2)) ∧
      uint32ArrayU as none = some (xs.map fun x => some (ITy.u32.conv x.2)) ∧ uint64ArrayU as none = some (xs.map fun x => some (ITy.u64.conv x.2))) ∧
    ∀ blk : List (Option Int), as.length ≤ blk.length →
      int32ArrayU as (some blk) = some ((xs.map fun x => some (ITy.i32.conv x.2)) ++ blk.drop as.length) ∧
      int64ArrayU as (some blk) = some ((xs.map fun x => some (ITy.i64.conv x.2)) ++ blk.drop as.length) ∧
      uint32ArrayU as (some blk) = some ((xs.map fun x => some (ITy.u32.conv x.2)) ++ blk.drop as.length) ∧
      uint64ArrayU as (some blk) = some ((xs.map fun x => some (ITy.u64.conv x.2)) ++ blk.drop as.length) := by
  have k := fun g : ITy => typedArray_spec (getU g) as _ (ints_map g as xs h hx)
  simp only [List.map_map, Function.comp_def] at k
  exact ⟨⟨(k .i32).1, (k .i64).1, (k .u32).1, (k .u64).1⟩, fun blk hb => ⟨(k .i32).2 blk hb, (k .i64).2 blk hb, (k .u32).2 blk hb, (k .u64).2 blk hb⟩⟩

theorem vals_map {β : Type} (g : UAtom → Option β) (R : Val → β → Prop) (hR : ∀ a v x, a.val = some v → R v x → g a = some x) :
    ∀ (as : List UAtom) (ps : List (Val × β)), argsVal as = some (ps.map (·.1)) → (∀ p ∈ ps, R p.1 p.2) → as.map g = (ps.map (·.2)).map some
  | [], ps, h, _ => by
    cases ps with
    | nil => rfl
    | cons x xs => simp [argsVal] at h
  | a :: as, ps, h, hx => by
    simp only [argsVal, Option.bind_eq_some_iff, Option.map_eq_some_iff] at h
    obtain ⟨v, hv, vs, hvs, e⟩ := h
    cases ps with
    | nil => simp at e
    | cons x xs =>
      simp only [List.map_cons, List.cons.injEq] at e
      rw [List.map_cons, List.map_cons, List.map_cons, vals_map g R hR as xs (hvs.trans (by rw [e.2])) (fun y hy => hx y (.tail _ hy)),
        hR a v x.2 hv (e.1 ▸ hx x (.head _))]

/-- **C89, floating point.** The functions for `double` and `float` give the numbers that the elements are when they are converted to the type
(rounded to nearest), for numbers of all types, true and false. -/
theorem C89_floats (as : List UAtom) (ps : List (Val × Fp)) (h : argsVal as = some (ps.map (·.1))) :
    ((∀ p ∈ ps, IsDouble p.1 p.2) → doubleArrayU as none = some (ps.map fun p => some p.2) ∧
      ∀ blk, as.length ≤ blk.length → doubleArrayU as (some blk) = some ((ps.map fun p => some p.2) ++ blk.drop as.length)) ∧
    ((∀ p ∈ ps, IsSingle p.1 p.2) → floatArrayU as none = some (ps.map fun p => some p.2) ∧
      ∀ blk, as.length ≤ blk.length → floatArrayU as (some blk) = some ((ps.map fun p => some p.2) ++ blk.drop as.length)) := by
  refine ⟨fun hp => ?_, fun hp => ?_⟩
  · have := typedArray_spec getFp as _ (vals_map getFp IsDouble getFp_val as ps h hp)
    simpa only [doubleArrayU, List.map_map, Function.comp_def] using this
  · have := typedArray_spec getFp32 as _ (vals_map getFp32 IsSingle (fun a v x ha hv => (getFp32_val a v x ha hv).1) as ps h hp)
    simpa only [floatArrayU, List.map_map, Function.comp_def] using this

/-- **C89, truth values**, for atoms of all types. -/
theorem C89_bools (as : List UAtom) (vs : List Val) (h : argsVal as = some vs) :
    boolArrayU as none = some (vs.map fun v => some v.truth) ∧
    ∀ blk, as.length ≤ blk.length → boolArrayU as (some blk) = some ((vs.map fun v => some v.truth) ++ blk.drop as.length) := by
  have := typedArray_spec (fun a => some (Expr.getBool (some a))) as _
    (vals_map (fun a => some (Expr.getBool (some a))) (fun v b => v.truth = b) (fun a v x ha hx => by rw [getBool_val a v ha, hx]) as
      (vs.map fun v => (v, v.truth)) (by simpa [Function.comp_def] using h) (by simp))
  simpa only [boolArrayU, List.map_map, Function.comp_def] using this

theorem forN_step {σ : Type} (f : Nat → σ → Option σ) (s : σ) : ∀ (n : Nat) (r : σ), forN n f s = some r → ∀ k, k < n →
    ∃ m m', forN k f s = some m ∧ f k m = some m'
  | 0, _, _, k, hk => by omega
  | n + 1, r, h, k, hk => by
    unfold forN at h
    rw [List.range_succ, List.foldlM_append] at h
    obtain ⟨m, h1, h2⟩ := Option.bind_eq_some_iff.mp h
    by_cases hkn : k = n
    · subst hkn
      simp only [List.foldlM_cons, List.foldlM_nil] at h2
      obtain ⟨x, h3, _⟩ := Option.bind_eq_some_iff.mp h2
      exact ⟨m, x, h1, h3⟩
    · exact forN_step f s n m h1 k (by omega)

/-- A block that is given must be large enough: the functions are not told its size, and write outside a smaller one. -/
theorem C89_small_block {α β : Type} (g : α → Option β) (ar : List α) (blk : List (Option β)) (hb : blk.length < ar.length) :
    typedArray g ar (some blk) = none := by
  cases hr : typedArray g ar (some blk) with
  | none => rfl
  | some r =>
    exfalso
    simp only [typedArray] at hr
    have hkeep : ∀ (k : Nat), k ≤ ar.length → ∀ m, forN k (fun i blk => (ar[i]?).bind fun a => (g a).bind fun v =>
        if i < blk.length then some (blk.set i (some v)) else none) blk = some m → m.length = blk.length := by
      intro k
      induction k with
      | zero => intro _ m h; cases h; rfl
      | succ k ih =>
        intro hk m h
        unfold forN at h
        rw [List.range_succ, List.foldlM_append] at h
        obtain ⟨m1, h1, h2⟩ := Option.bind_eq_some_iff.mp h
        have h3 := ih (by omega) m1 h1
        simp only [List.foldlM_cons, List.foldlM_nil] at h2
        obtain ⟨x, h4, h5⟩ := Option.bind_eq_some_iff.mp h2
        cases h5
        obtain ⟨a, _, h6⟩ := Option.bind_eq_some_iff.mp h4
        obtain ⟨v, _, h7⟩ := Option.bind_eq_some_iff.mp h6
        split at h7 <;> cases h7
        simpa using h3
    obtain ⟨m, m', h1, h2⟩ := forN_step _ _ _ _ hr blk.length hb
    have h3 := hkeep _ (by omega) m h1
    obtain ⟨a, _, h6⟩ := Option.bind_eq_some_iff.mp h2
    obtain ⟨v, _, h7⟩ := Option.bind_eq_some_iff.mp h6
    rw [if_neg (by omega)] at h7
    cases h7

/-- Specification: at that place of the buffer is the data of that number. -/
def NumAt (buf : Bytes) (t : ITy) (v : Int) (p : Nat) : Prop := ∃ pre post, buf = pre ++ wireInt t v ++ post ∧ pre.length = p

theorem truth_read (t : ITy) (v : Int) (hv : t.has v) (buf : Bytes) (p : Nat) (h : NumAt buf t v p) :
    AtomS.getBool buf ⟨t.tag, p⟩ = some (decide (v ≠ 0)) := by
  obtain ⟨pre, post, rfl, rfl⟩ := h
  by_cases hw : t.width = 64
  · rw [wire8 t hw]
    have h8 := rd64_mid pre post (v % 2 ^ 64).toNat
    have e : ((v % 2 ^ 64).toNat % M64 == 0) = decide (v = 0) := by
      rw [Bool.eq_iff_iff]
      simp only [beq_iff_eq, decide_eq_true_eq, M64]
      cases t <;> simp [ITy.width, ITy.has, ITy.signed] at hw hv <;> omega
    generalize (pre ++ be64 (v % 2 ^ 64).toNat ++ post) = B at h8 ⊢
    generalize (v % 2 ^ 64).toNat % M64 = n at h8 e
    cases t <;> simp [ITy.width] at hw <;> simp [AtomS.getBool, ITy.tag, h8, e]
  · rw [wire4 t hw]
    have h4 := rd32_mid pre post (v % 2 ^ 32).toNat
    have e : ((v % 2 ^ 32).toNat % M32 == 0) = decide (v = 0) := by
      rw [Bool.eq_iff_iff]
      simp only [beq_iff_eq, decide_eq_true_eq, M32]
      cases t <;> simp [ITy.width, ITy.has, ITy.signed] at hw hv <;> omega
    generalize (pre ++ be32 (v % 2 ^ 32).toNat ++ post) = B at h4 ⊢
    generalize (v % 2 ^ 32).toNat % M32 = n at h4 e
    cases t <;> simp [ITy.width] at hw <;> simp [AtomS.getBool, ITy.tag, h4, e]

/-- **C89, arguments of a message.** For integers of any types that lie somewhere in a buffer, with sign extension as the setters store them, the
functions for 32 bit integers and for truth values give what the functions on the other form give; so do those for 64 bits if all the integers
have 64 bits. -/
theorem C89_message (buf : Bytes) (xs : List (ITy × Int × Nat)) (hx : ∀ x ∈ xs, x.1.has x.2.1 ∧ NumAt buf x.1 x.2.1 x.2.2) :
    let as := xs.map fun x => (⟨x.1.tag, x.2.2⟩ : AtomS)
    int32ArrayS buf as none = some (xs.map fun x => some (ITy.i32.conv x.2.1)) ∧
    uint32ArrayS buf as none = some (xs.map fun x => some (ITy.u32.conv x.2.1)) ∧
    boolArrayS buf as none = some (xs.map fun x => some (decide (x.2.1 ≠ 0))) ∧
    ((∀ x ∈ xs, x.1.width = 64) → int64ArrayS buf as none = some (xs.map fun x => some (ITy.i64.conv x.2.1)) ∧
      uint64ArrayS buf as none = some (xs.map fun x => some (ITy.u64.conv x.2.1))) := by
  have k : ∀ {β : Type} (g : AtomS → Option β) (f : ITy × Int × Nat → β), (∀ x ∈ xs, g ⟨x.1.tag, x.2.2⟩ = some (f x)) →
      typedArray g (xs.map fun x => (⟨x.1.tag, x.2.2⟩ : AtomS)) none = some (xs.map fun x => some (f x)) := by
    intro β g f hf
    have := (typedArray_spec g (xs.map fun x => (⟨x.1.tag, x.2.2⟩ : AtomS)) (xs.map f) (by
      simp only [List.map_map, Function.comp_def]
      exact List.map_congr_left hf)).1
    simpa only [List.map_map, Function.comp_def] using this
  have r : ∀ g : ITy, ∀ x ∈ xs, (g.width ≤ x.1.width ∨ g.width ≤ 32) → getS g buf ⟨x.1.tag, x.2.2⟩ = some (g.conv x.2.1) := by
    intro g x hxm hg
    obtain ⟨pre, post, e1, e2⟩ := (hx x hxm).2
    rw [e1, ← e2]
    exact wireInt_read x.1 g x.2.1 hg pre post
  refine ⟨k (getS .i32 buf) _ fun x h => r .i32 x h (.inr (by decide)), k (getS .u32 buf) _ fun x h => r .u32 x h (.inr (by decide)),
    k _ _ fun x h => truth_read _ _ (hx x h).1 _ _ (hx x h).2, fun h64 => ⟨k (getS .i64 buf) _ fun x h => r .i64 x h (.inl ?_),
      k (getS .u64 buf) _ fun x h => r .u64 x h (.inl ?_)⟩⟩ <;> rw [h64 x h] <;> decide

/-! ### Joined texts -/

/-- Writing the text of an atom into a block that has room for it and its NUL. -/
theorem strInto_ok (P : Printf) {a : UAtom} {v : Val} (h : a.val = some v) (ht : HasText P v) (blk : Bytes) (p : Nat)
    (hp : p + (strText P v).length + 1 ≤ blk.length) :
    strLenU P a = some (strText P v).length ∧
    ∃ rest, atPlace (strIntoU P a) blk p ((blk.length : Int) - p) = some ((strText P v).length, blk.take p ++ (strText P v ++ 0 :: rest)) ∧
      (blk.take p ++ (strText P v ++ 0 :: rest)).length = blk.length := by
  have plain : ∀ (tag : UInt8) (al : Bool) (w : W) (t : Bytes), tag ≠ 115 → tag ≠ 116 → tag ≠ 98 → tag ≠ 67 → plainText P tag w = some t →
      p + t.length + 1 ≤ blk.length → strLenU P (.mk tag al w) = some t.length ∧
      ∃ rest, atPlace (strIntoU P (.mk tag al w)) blk p ((blk.length : Int) - p) = some (t.length, blk.take p ++ (t ++ 0 :: rest)) ∧
        (blk.take p ++ (t ++ 0 :: rest)).length = blk.length := by
    intro tag al w t h0 h1 h2 h3 ht hp
    have hl := stringLen_plain h1 h2 h3 ht
    refine ⟨by simp only [strLenU, if_neg h0, hl], (blk.drop p).drop (t.length + 1), ?_, by simp; omega⟩
    simp only [atPlace, strIntoU, if_neg h0]
    rw [if_pos (by omega), getStringInto_plain h1 h2 ht hl _ _ (by omega) (by simp; omega)]
    rfl
  obtain ⟨tag, al, w⟩ := a
  rcases val_eq tag al w _ h with ⟨h1, rfl⟩ | ⟨h1, rfl⟩ | ⟨h1, rfl⟩ | ⟨h1, rfl⟩ | ⟨_, rfl⟩ | ⟨rfl, q, s, rfl, rfl⟩ | ⟨_, q, b, l, c, _, _, _, rfl⟩ |
    ⟨_, q, ms, vs, _, _, rfl⟩ | ⟨rfl, h1⟩
  case inl => exact plain _ _ _ _ (by grind) (by grind) (by grind) ht.1 (plainText_num (.inl ⟨h1, rfl⟩)) hp
  case inr.inl => exact plain _ _ _ _ (by grind) (by grind) (by grind) ht.1 (plainText_num (.inr (.inl ⟨h1, rfl⟩))) hp
  case inr.inr.inl => exact plain _ _ _ _ (by grind) (by grind) (by grind) ht.1 (plainText_num (.inr (.inr (.inl ⟨h1, rfl⟩)))) hp
  case inr.inr.inr.inl => exact plain _ _ _ _ (by grind) (by grind) (by grind) ht.1 (plainText_num (.inr (.inr (.inr ⟨h1, rfl⟩)))) hp
  case inr.inr.inr.inr.inl => exact ht.elim
  case inr.inr.inr.inr.inr.inl =>
    simp only [strText] at hp ⊢
    refine ⟨rfl, List.replicate (blk.length - p - s.length - 1) 0, ?_, by simp; omega⟩
    simp only [atPlace, strIntoU, if_true]
    rw [if_pos (by omega), if_neg (by omega)]
    have e1 : (((blk.length : Int) - p).toNat) = blk.length - p := by omega
    rw [e1, show s.take (blk.length - p) = s from List.take_of_length_le (by omega)]
    have e2 : List.replicate (blk.length - p - s.length) (0 : UInt8) = 0 :: List.replicate (blk.length - p - s.length - 1) 0 := by
      rw [← List.replicate_succ]; congr 1; omega
    have e3 : (s ++ 0 :: List.replicate (blk.length - p - s.length - 1) 0 : Bytes).length = blk.length - p := by simp; omega
    rw [e2, e3, List.length_drop, if_pos (by omega), List.drop_drop, List.drop_of_length_le (by omega), List.append_nil]
    rfl
  case inr.inr.inr.inr.inr.inr.inl => exact ht.elim
  case inr.inr.inr.inr.inr.inr.inr.inl => exact ht.elim
  · rcases ht with rfl | rfl | rfl <;> exact plain _ _ _ _ (by decide) (by decide) (by decide) (by decide) rfl hp

/-- Specification: every text followed by the separator. -/
def withSep (P : Printf) (sep : Bytes) (vs : List Val) : Bytes := vs.flatMap fun v => strText P v ++ sep

theorem putSep_ok (sep blk : Bytes) (p : Nat) (h : p + sep.length + 1 ≤ blk.length) :
    putSep sep blk p = some (blk.take p ++ (sep ++ [0]) ++ blk.drop (p + (sep ++ [0]).length)) := by
  simp only [putSep, wrB]
  rw [if_pos (by simp; omega)]

theorem join_ok (P : Printf) (sep : Option Bytes) : ∀ (as : List UAtom) (vs : List Val), argsVal as = some vs → (∀ v ∈ vs, HasText P v) →
    ∀ (blk : Bytes) (p : Nat), p + (withSep P (sep.getD []) vs).length + 1 ≤ blk.length →
    ∃ blk', joinTexts P sep as blk p = some (blk', p + (withSep P (sep.getD []) vs).length) ∧ blk'.length = blk.length ∧
      blk'.take (p + (withSep P (sep.getD []) vs).length) = blk.take p ++ withSep P (sep.getD []) vs
  | [], vs, h, _, blk, p, _ => by
    cases h
    exact ⟨blk, by simp [joinTexts, withSep], rfl, by simp [withSep]⟩
  | a :: as, vs, h, ht, blk, p, hp => by
    simp only [argsVal, Option.bind_eq_some_iff, Option.map_eq_some_iff] at h
    obtain ⟨v, hv, ws, hws, rfl⟩ := h
    have hcons : withSep P (sep.getD []) (v :: ws) = strText P v ++ sep.getD [] ++ withSep P (sep.getD []) ws := by simp [withSep]
    rw [hcons] at hp ⊢
    simp only [List.length_append] at hp
    obtain ⟨hn, rest, hw, hlen⟩ := strInto_ok P hv (ht v (.head _)) blk p (by omega)
    have hgrow : ¬ ((blk.length : Int) - p < (strText P v).length) := by omega
    have hstart : joinTexts P sep (a :: as) blk p = (match sep with
        | none => joinTexts P sep as (blk.take p ++ (strText P v ++ 0 :: rest)) (p + (strText P v).length)
        | some s => (putSep s (blk.take p ++ (strText P v ++ 0 :: rest)) (p + (strText P v).length)).bind fun blk =>
            joinTexts P sep as blk (p + (strText P v).length + s.length)) := by
      rw [joinTexts, hn]
      simp only [Option.bind_some, if_neg hgrow, hw]
      cases sep <;> rfl
    rw [hstart]
    have ht' := fun w hw => ht w (List.mem_cons_of_mem _ hw)
    have hl1 : (blk.take p).length = p := by simp; omega
    generalize hb1 : blk.take p ++ (strText P v ++ 0 :: rest) = b1 at *
    have htk : b1.take (p + (strText P v).length) = blk.take p ++ strText P v := by
      rw [← hb1, ← List.append_assoc, List.take_left' (by simp; omega)]
    cases sep with
    | none =>
      simp only [Option.getD_none, List.length_nil, List.append_nil] at hp ⊢
      obtain ⟨b2, h1, h2, h3⟩ := join_ok P none as ws hws ht' b1 (p + (strText P v).length) (by simp only [Option.getD_none]; omega)
      simp only [Option.getD_none] at h1 h3
      refine ⟨b2, by rw [h1]; simp [Nat.add_assoc], by omega, ?_⟩
      rw [List.length_append, ← Nat.add_assoc, h3, htk, List.append_assoc]
    | some s =>
      simp only [Option.getD_some] at hp ⊢
      rw [putSep_ok _ _ _ (by omega)]
      simp only [Option.bind_some]
      generalize hb2 : b1.take (p + (strText P v).length) ++ (s ++ [0]) ++ b1.drop (p + (strText P v).length + (s ++ [0]).length) = b2
      have hl2 : b2.length = b1.length := by rw [← hb2]; simp; omega
      obtain ⟨b3, h1, h2, h3⟩ := join_ok P (some s) as ws hws ht' b2 (p + (strText P v).length + s.length) (by simp only [Option.getD_some]; omega)
      simp only [Option.getD_some] at h1 h3
      refine ⟨b3, by rw [h1]; simp [Nat.add_assoc], by omega, ?_⟩
      have htk2 : b2.take (p + (strText P v).length + s.length) = blk.take p ++ strText P v ++ s := by
        rw [← hb2, htk]
        generalize b1.drop _ = rr
        rw [← List.append_assoc, List.append_assoc (blk.take p ++ strText P v ++ s), List.take_left' (by simp; omega)]
      rw [List.length_append, List.length_append, ← Nat.add_assoc, ← Nat.add_assoc, h3, htk2]
      simp

theorem finish_ok (P : Printf) (sep : Option Bytes) (as : List UAtom) (vs : List Val) (h : argsVal as = some vs) (ht : ∀ v ∈ vs, HasText P v)
    (blk : Bytes) (hb : (withSep P (sep.getD []) vs).length + 1 ≤ blk.length) :
    ∃ r, ((joinTexts P sep as blk 0).bind fun (blk, p) => (wr8 blk p 0).map fun blk => (blk, p + 1)) =
        some (r, (withSep P (sep.getD []) vs).length + 1) ∧ r.length = blk.length ∧
      r.take ((withSep P (sep.getD []) vs).length + 1) = withSep P (sep.getD []) vs ++ [0] := by
  obtain ⟨b1, h1, h2, h3⟩ := join_ok P sep as vs h ht blk 0 (by omega)
  generalize hW : withSep P (sep.getD []) vs = W at *
  simp only [Nat.zero_add] at h1 h3
  refine ⟨b1.set W.length 0, ?_, by simp [h2], ?_⟩
  · rw [h1]
    simp only [Option.bind_some, wr8]
    rw [if_pos (by omega)]
    rfl
  · rw [List.take_set, List.take_add_one, h3]
    have : b1[W.length]? = some b1[W.length] := List.getElem?_eq_getElem (by omega)
    simp [this]

/-- **C89, texts.** The text of an array is made of the texts of its elements, each followed by the separator, and a NUL; the length counts the
NUL.  Proved if the given block, or the new one of 256 bytes, has room for the whole text with its NUL. -/
theorem C89_texts_partial (P : Printf) (as : List UAtom) (vs : List Val) (h : argsVal as = some vs) (ht : ∀ v ∈ vs, HasText P v)
    (sep : Option Bytes) (out : Option Bytes) (hb : (withSep P (sep.getD []) vs).length + 1 ≤ (match out with | none => 256 | some b => b.length)) :
    ∃ r, stringArray P as out sep = some (r, (withSep P (sep.getD []) vs).length + 1) ∧
      r.take ((withSep P (sep.getD []) vs).length + 1) = withSep P (sep.getD []) vs ++ [0] := by
  cases out with
  | none =>
    obtain ⟨r, h1, _, h3⟩ := finish_ok P sep as vs h ht (newBlock P 256) (by rw [newBlock_length]; exact hb)
    exact ⟨r, h1, h3⟩
  | some b =>
    obtain ⟨r, h1, _, h3⟩ := finish_ok P sep as vs h ht b hb
    exact ⟨r, h1, h3⟩

/-- Also if the block has to grow at the first element, no element is longer than it and the separators need no more than the first block. -/
theorem C89_grow_partial (P : Printf) (as : List UAtom) (v : Val) (vs : List Val) (h : argsVal as = some (v :: vs)) (ht : ∀ w ∈ v :: vs, HasText P w)
    (sep : Option Bytes) (h256 : 256 < (strText P v).length) (hle : ∀ w ∈ vs, (strText P w).length ≤ (strText P v).length)
    (hsep : (vs.length + 1) * (sep.getD []).length ≤ 256) :
    ∃ r, stringArray P as none sep = some (r, (withSep P (sep.getD []) (v :: vs)).length + 1) ∧
      r.take ((withSep P (sep.getD []) (v :: vs)).length + 1) = withSep P (sep.getD []) (v :: vs) ++ [0] := by
  cases as with
  | nil => cases h
  | cons a as =>
    have hv : ∃ ws, a.val = some v ∧ argsVal as = some ws ∧ ws = vs := by
      simp only [argsVal, Option.bind_eq_some_iff, Option.map_eq_some_iff] at h
      obtain ⟨u, h1, ws, hws, e⟩ := h
      exact ⟨ws, by rw [h1, (List.cons.inj e).1], hws, (List.cons.inj e).2⟩
    obtain ⟨ws, hv, hws, rfl⟩ := hv
    have hlen := argsVal_length _ _ hws
    have hsum : ∀ ws : List Val, (∀ w ∈ ws, (strText P w).length ≤ (strText P v).length) →
        (withSep P (sep.getD []) ws).length ≤ ws.length * (strText P v).length + ws.length * (sep.getD []).length := by
      intro ws
      induction ws with
      | nil => intro _; simp [withSep]
      | cons w ws ih =>
        intro hw
        have h1 := ih (fun x hx => hw x (.tail _ hx))
        have h2 := hw w (.head _)
        have e : withSep P (sep.getD []) (w :: ws) = strText P w ++ sep.getD [] ++ withSep P (sep.getD []) ws := by simp [withSep]
        rw [e]
        simp only [List.length_append, List.length_cons, Nat.add_mul]
        omega
    have hall := hsum (v :: ws) (fun w hw => by
      rcases List.mem_cons.mp hw with rfl | hw
      · exact Nat.le_refl _
      · exact hle w hw)
    rw [List.length_cons] at hall
    have hroom : (withSep P (sep.getD []) (v :: ws)).length + 1 ≤
        (newBlock P 256 ++ newBlock P ((strText P v).length * (as.length + 1) + 1)).length := by
      rw [List.length_append, newBlock_length, newBlock_length, hlen, Nat.mul_comm (strText P v).length]
      omega
    obtain ⟨r, h1, _, h3⟩ := finish_ok P sep (a :: as) (v :: ws) h ht _ hroom
    refine ⟨r, ?_, h3⟩
    rw [← h1]
    have hn := (strInto_ok P hv (ht v (.head _)) (newBlock P ((strText P v).length + 1)) 0 (by rw [newBlock_length]; omega)).1
    have hg : (((newBlock P 256).length : Int) - (0 : Nat) < (strText P v).length) := by rw [newBlock_length]; omega
    have hng : ¬ (((newBlock P 256 ++ newBlock P ((strText P v).length * (as.length + 1) + 1)).length : Int) - (0 : Nat) < (strText P v).length) := by
      have : (strText P v).length ≤ (strText P v).length * (as.length + 1) := Nat.le_mul_of_pos_right _ (by omega)
      rw [List.length_append, newBlock_length, newBlock_length]; omega
    have e : joinTexts P sep (a :: as) (newBlock P 256) 0 =
        joinTexts P sep (a :: as) (newBlock P 256 ++ newBlock P ((strText P v).length * (as.length + 1) + 1)) 0 := by
      rw [joinTexts, joinTexts, hn]
      simp only [Option.bind_some]
      rw [if_pos hg, if_neg hng]
    simp only [stringArray]
    rw [e]

/-- The full claim has no condition on the lengths. -/
def C89Full : Prop := ∀ (P : Printf) (as : List UAtom) (vs : List Val), argsVal as = some vs → (∀ v ∈ vs, HasText P v) → ∀ sep : Option Bytes,
  ∃ r, stringArray P as none sep = some (r, (withSep P (sep.getD []) vs).length + 1) ∧
    r.take ((withSep P (sep.getD []) vs).length + 1) = withSep P (sep.getD []) vs ++ [0]

/-- The atom with a string of so many letters `a`. -/
def longStr (n : Nat) : UAtom := .mk 115 false (.str 1 (List.replicate n 97))

/-- It is false: room for the NUL is not counted.  The NUL after a string of 256 bytes is written outside the block, for whatever printf does. -/
theorem C89_overflow (P : Printf) : stringArray P [longStr 256] none none = none := by
  have hb : (newBlock P 256).length = 256 := newBlock_length P 256
  generalize hB : newBlock P 256 = B at *
  have hl : strLenU P (longStr 256) = some 256 := by
    simp only [longStr, strLenU, if_true, List.length_replicate]
  have h1 : atPlace (strIntoU P (longStr 256)) B 0 ((B.length : Int) - (0 : Nat)) = some (256, List.replicate 256 97) := by
    simp only [atPlace, strIntoU, longStr, if_true]
    rw [if_pos (by omega), if_neg (by omega)]
    have e1 : ((B.length : Int) - (0 : Nat)).toNat = 256 := by omega
    have e2 : (List.replicate 256 (97 : UInt8)).length = 256 := List.length_replicate
    rw [e1, e2, Nat.sub_self, show (List.replicate 256 (97 : UInt8)).take 256 = List.replicate 256 97 from List.take_of_length_le (by rw [e2]; exact Nat.le_refl _),
      List.replicate_zero, List.append_nil, e2, List.length_drop, hb, if_pos (by omega), List.drop_drop, List.drop_of_length_le (by omega), List.append_nil]
    rfl
  simp only [stringArray, hB]
  rw [joinTexts, hl]
  simp only [Option.bind_some]
  rw [if_neg (by omega), h1]
  simp only [Option.bind_some, joinTexts, wr8]
  rw [if_neg (by rw [List.length_replicate]; omega)]
  rfl

theorem C89_full_fails : ¬ C89Full := by
  intro h
  obtain ⟨r, h1, _⟩ := h exP [longStr 256] [.str (List.replicate 256 97)] (by simp only [longStr, argsVal, UAtom.val]; rfl) (by
    intro v hv
    rw [List.mem_singleton] at hv
    subst hv
    exact fun hm => absurd (List.mem_replicate.mp hm).2 (by decide)) none
  rw [C89_overflow] at h1
  cases h1

/-! Concrete cases: numbers of several types, also in a message; the text "7,ab,". -/
example : NumAt ([44, 99, 73, 0] ++ wireInt .i8 (-1) ++ wireInt .u32 7) .u32 7 8 ∧
    int32ArrayS ([44, 99, 73, 0] ++ wireInt .i8 (-1) ++ wireInt .u32 7) [⟨99, 4⟩, ⟨73, 8⟩] none = some [some (-1), some 7] :=
  ⟨⟨[44, 99, 73, 0] ++ wireInt .i8 (-1), [], by simp, by decide +kernel⟩, by decide +kernel⟩
example : int32ArrayU [.mk 99 false (.bits 255), .mk 72 false (.bits 5000000000)] none = some [some (-1), some 705032704] := by decide +kernel
example : (stringArray exP [.mk 105 false (.bits 7), .mk 115 true (.str 9 [97, 98])] (some [1, 2, 3, 4, 5, 6, 7, 8]) (some [44])).map (·.1.take 6) =
    some [55, 44, 97, 98, 44, 0] := by decide +kernel

/-! ## C90: sizes and copies -/

/-- **C90, sizes.** The size of an atom is the number of bytes of its value: four or eight for numbers, the length of a string or of the contents of a
blob, the bytes of the serialised bundle, and nothing for true, false and nil. -/
theorem C90_size (a : UAtom) (v : Val) (h : a.val = some v) :
    (∀ tag n, v = .num tag n → a.sizeof = some (if tag = 104 ∨ tag = 72 ∨ tag = 100 then 8 else 4)) ∧
    (∀ s, v = .str s → a.sizeof = some s.length) ∧ (∀ c, v = .blob c → a.sizeof = some c.length) ∧
    (∀ x y, v = .time x y → a.sizeof = some 8) ∧ (∀ t, v = .bare t → a.sizeof = some 0) ∧
    (∀ p ms vs, a.w = .bndl p ms → v = .bndl vs → 16 + sizeVMsgs vs < 4294967296 → ∃ bytes, serialize ms = some bytes ∧ a.sizeof = some bytes.length) := by
  obtain ⟨tag, al, w⟩ := a
  refine ⟨?_, ?_, ?_, ?_, ?_, ?_⟩
  · rintro t n rfl
    rcases val_eq tag al w _ h with ⟨h1, e⟩ | ⟨h1, e⟩ | ⟨h1, e⟩ | ⟨h1, e⟩ | ⟨_, e⟩ | ⟨_, p, s, _, e⟩ | ⟨_, p, blk, l, c, _, _, _, e⟩ |
      ⟨_, p, ms, vs, _, _, e⟩ | ⟨e, h1⟩ <;> cases e
    · rcases h1 with rfl | rfl <;> rfl
    · rcases h1 with rfl | rfl <;> rfl
    · rcases h1 with rfl | rfl | rfl <;> rfl
    · rcases h1 with rfl | rfl | rfl <;> rfl
  · rintro s rfl
    rcases val_eq tag al w _ h with ⟨h1, e⟩ | ⟨h1, e⟩ | ⟨h1, e⟩ | ⟨h1, e⟩ | ⟨_, e⟩ | ⟨rfl, p, s, rfl, e⟩ | ⟨_, p, blk, l, c, _, _, _, e⟩ |
      ⟨_, p, ms, vs, _, _, e⟩ | ⟨e, h1⟩ <;> cases e
    rfl
  · rintro c rfl
    rcases val_eq tag al w _ h with ⟨h1, e⟩ | ⟨h1, e⟩ | ⟨h1, e⟩ | ⟨h1, e⟩ | ⟨_, e⟩ | ⟨_, p, s, _, e⟩ | ⟨rfl, p, blk, l, c, rfl, hl, hc, e⟩ |
      ⟨_, p, ms, vs, _, _, e⟩ | ⟨e, h1⟩ <;> cases e
    show ((rdI32 blk 0).bind fun l => if l < 0 then none else some l.toNat) = _
    rw [hl, Option.bind_some]
    have hl0 : ¬ l < 0 := by
      intro hl0
      simp [slice, hl0] at hc
    rw [if_neg hl0]
    simp only [slice] at hc
    split at hc
    · cases hc
    · rename_i hh
      simp only [not_or, Int.not_lt] at hh
      cases hc
      simp only [List.length_take, List.length_drop]
      congr 1
      omega
  · rintro x y rfl
    rcases val_eq tag al w _ h with ⟨h1, e⟩ | ⟨h1, e⟩ | ⟨h1, e⟩ | ⟨h1, e⟩ | ⟨rfl, e⟩ | ⟨_, p, s, _, e⟩ | ⟨_, p, blk, l, c, _, _, _, e⟩ |
      ⟨_, p, ms, vs, _, _, e⟩ | ⟨e, h1⟩ <;> cases e
    rfl
  · rintro t rfl
    rcases val_eq tag al w _ h with ⟨h1, e⟩ | ⟨h1, e⟩ | ⟨h1, e⟩ | ⟨h1, e⟩ | ⟨_, e⟩ | ⟨_, p, s, _, e⟩ | ⟨_, p, blk, l, c, _, _, _, e⟩ |
      ⟨_, p, ms, vs, _, _, e⟩ | ⟨e, h1⟩ <;> cases e
    simp only [List.mem_cons, List.not_mem_nil, or_false, not_or] at h1
    simp [UAtom.sizeof, h1]
  · rintro p ms vs hw rfl hs
    rcases val_eq tag al w _ h with ⟨h1, e⟩ | ⟨h1, e⟩ | ⟨h1, e⟩ | ⟨h1, e⟩ | ⟨_, e⟩ | ⟨_, p, s, _, e⟩ | ⟨_, p, blk, l, c, _, _, _, e⟩ |
      ⟨rfl, q, ms', vs', rfl, hv, e⟩ | ⟨e, h1⟩ <;> cases e
    cases hw
    obtain ⟨n, d, _, h1, _, h3, _, h5, _⟩ := C02_bundle ms vs hv hs
    exact ⟨d, h5, by show sizeBundle ms = _; rw [h1, h3]⟩

/-- **C90, blobs in a message.** Copying a blob whose length is not a multiple of four gives the length, the contents and the padding. -/
theorem C90_blob_partial (pre c pad post : Bytes) (hc : c.length < 2 ^ 31) (h4 : c.length % 4 ≠ 0) (hpad : pad.length = blobLen c.length - 4 - c.length) :
    AtomS.blobCopy (pre ++ (be32 c.length ++ c ++ pad) ++ post) ⟨98, pre.length⟩ = some (be32 c.length ++ c ++ pad) := by
  have h1 : rdI32 (pre ++ (be32 c.length ++ c ++ pad) ++ post) pre.length = some (c.length : Int) := by
    have := rd32_mid pre (c ++ pad ++ post) c.length
    simp only [rdI32, List.append_assoc] at this ⊢
    rw [this, Nat.mod_eq_of_lt (by simp only [M32]; omega)]
    simp only [Option.map_some, toI32]
    rw [if_pos (by omega)]
  simp only [AtomS.blobCopy, AtomS.blobLen, if_true, h1, Option.bind_some]
  rw [if_neg (by omega)]
  have hb : blobLen c.length = 4 + c.length + (4 - (4 + c.length) % 4) := by
    simp only [blobLen]
    rw [if_pos (by simp; omega)]
  exact slice_mid _ _ _ _ (by simp [be32, blobCopyLen]; omega)

/-- If the length is a multiple of four, the copy has four bytes of what follows the blob in the message too. -/
theorem C90_blob_more (pre c next post : Bytes) (hc : c.length < 2 ^ 31) (h4 : c.length % 4 = 0) (hn : next.length = 4) :
    AtomS.blobCopy (pre ++ (be32 c.length ++ c ++ next) ++ post) ⟨98, pre.length⟩ = some (be32 c.length ++ c ++ next) := by
  have h1 : rdI32 (pre ++ (be32 c.length ++ c ++ next) ++ post) pre.length = some (c.length : Int) := by
    have := rd32_mid pre (c ++ next ++ post) c.length
    simp only [rdI32, List.append_assoc] at this ⊢
    rw [this, Nat.mod_eq_of_lt (by simp only [M32]; omega)]
    simp only [Option.map_some, toI32]
    rw [if_pos (by omega)]
  simp only [AtomS.blobCopy, AtomS.blobLen, if_true, h1, Option.bind_some]
  rw [if_neg (by omega)]
  exact slice_mid _ _ _ _ (by simp [be32, blobCopyLen, hn]; omega)

/-- The full claim: every blob in a message is copied with its length. -/
def C90Full : Prop := ∀ pre c pad post : Bytes, c.length < 2 ^ 31 → pad.length = blobLen c.length - 4 - c.length →
  AtomS.blobCopy (pre ++ (be32 c.length ++ c ++ pad) ++ post) ⟨98, pre.length⟩ = some (be32 c.length ++ c ++ pad)

/-- It is false: a blob of four bytes at the end of the buffer is read four bytes past the end. -/
theorem C90_full_fails : ¬ C90Full := by
  intro h
  have := h [] [1, 2, 3, 4] [] [] (by decide) rfl
  exact absurd this (by decide)

/-- For atoms other than blobs the function always writes four bytes past the end of the block it has allocated. -/
theorem C90_other_fails (buf junk : Bytes) (a : AtomS) (n : Nat) : a.blobCopyOther buf n junk = none := by
  simp only [AtomS.blobCopyOther]
  cases h1 : slice buf a.ptr (blobCopyLen n) with
  | none => rfl
  | some d =>
    have hd : d.length = blobCopyLen n := by
      simp only [slice] at h1
      split at h1
      · cases h1
      · rename_i hh
        simp only [not_or, Int.not_lt] at hh
        cases h1
        simp; omega
    simp only [Option.bind_some, wrB]
    split
    · simp only [Option.bind_some]
      rw [if_neg]
      have : (List.take (blobCopyLen n) junk).length ≤ blobCopyLen n := by simp; omega
      simp [be32] at *
      omega
    · rfl

/-- **C90, nested bundles.** The copy of a nested bundle has its bytes; a value that is no bundle gives NULL, and so does one without bytes. -/
theorem C90_bundle (pre b post : Bytes) (hb : b.length < 4294967296) :
    AtomS.bndlCopy (pre ++ (be32 b.length ++ b) ++ post) ⟨46, pre.length⟩ = some (if b = [] then none else some b) ∧
    ∀ (t : UInt8) (buf : Bytes) (p : Nat), t ≠ 46 → AtomS.bndlCopy buf ⟨t, p⟩ = some none := by
  refine ⟨?_, fun t buf p ht => by simp [AtomS.bndlCopy, ht]⟩
  have h1 : rd32 (pre ++ (be32 b.length ++ b) ++ post) pre.length = some b.length := by
    have := rd32_mid pre (b ++ post) b.length
    simp only [List.append_assoc] at this ⊢
    rw [this, Nat.mod_eq_of_lt (by simp only [M32]; omega)]
  simp only [AtomS.bndlCopy, h1]
  rw [if_neg (by decide), Option.bind_some]
  cases b with
  | nil => rfl
  | cons x xs =>
    rw [if_pos (by simp), if_neg (by simp)]
    have := slice_mid (pre ++ be32 (x :: xs).length) (x :: xs) post (x :: xs).length rfl
    rw [List.append_assoc pre, List.length_append] at this
    have e : (be32 (x :: xs).length).length = 4 := by simp [be32]
    rw [e] at this
    simp only [List.append_assoc] at this ⊢
    rw [this]
    rfl

/-! ## C91: the header of a bundle -/

/-- **C91.** Setting the identifier of a bundle that has a block makes it a bundle without messages and with a time tag of zeros, of 16 bytes,
whatever the block held; bytes after the first 16 are not changed. -/
theorem C91_header_partial (junk b : Bytes) (len : Nat) (hl : len ≤ b.length) (hj : 16 ≤ junk.length) :
    ∃ r, setBundleIDb junk (some b) len = some (r, 16) ∧ r.take 16 = [35, 98, 117, 110, 100, 108, 101, 0, 0, 0, 0, 0, 0, 0, 0, 0] ∧
      (16 ≤ len → r.drop 16 = b.drop 16) := by
  have key : ∀ x : Bytes, 16 ≤ x.length → ((wrB x 8 (zeros 8)).bind fun b => (wrB b 0 bundleId).map fun b => (b, 16)) =
      some (bundleId ++ zeros 8 ++ x.drop 16, 16) := by
    intro x hx
    have hz : (zeros 8).length = 8 := rfl
    have hi : bundleId.length = 8 := rfl
    simp only [wrB]
    rw [if_pos (by rw [hz]; omega), Option.bind_some, if_pos (by simp [hz, hi]; omega)]
    simp only [Option.map_some, List.take_zero, List.nil_append, hz, hi]
    rw [List.append_assoc (x.take 8), List.drop_left' (by simp; omega), List.append_assoc]
  simp only [setBundleIDb]
  by_cases h16 : len < 16
  · rw [if_pos h16, Option.bind_some, key _ (by simp; omega)]
    exact ⟨_, rfl, by simp [bundleId, zeros], fun h => by omega⟩
  · rw [if_neg h16, Option.bind_some, key _ (by omega)]
    exact ⟨_, rfl, by simp [bundleId, zeros], fun h => by simp [bundleId, zeros]⟩

/-- A buffer of at least 8 bytes gets the identifier, and nothing else is changed. -/
theorem C91_id (b : Bytes) (h : 8 ≤ b.length) : setBundleID b = some ([35, 98, 117, 110, 100, 108, 101, 0] ++ b.drop 8) := by
  have hi : bundleId.length = 8 := rfl
  simp only [setBundleID, wrB]
  rw [if_pos (by rw [hi]; omega), hi]
  simp [bundleId]

/-- The full claim is also about bundles without a block. -/
def C91Full : Prop := ∀ (junk : Bytes) (blk : Option Bytes) (len : Nat), 16 ≤ junk.length → (∀ b, blk = some b → len ≤ b.length) →
  ∃ r, setBundleIDb junk blk len = some (r, 16) ∧ r.take 16 = [35, 98, 117, 110, 100, 108, 101, 0, 0, 0, 0, 0, 0, 0, 0, 0]

/-- For a bundle without a block 8 bytes are allocated and 16 are written, always. -/
theorem C91_null (junk : Bytes) (len : Nat) : setBundleIDb junk none len = none := by
  simp only [setBundleIDb, Option.bind_some, wrB]
  rw [if_neg (by simp [zeros]; omega)]
  rfl

theorem C91_full_fails : ¬ C91Full := by
  intro h
  obtain ⟨r, h1, _⟩ := h (zeros 16) none 0 (by simp [zeros]) (by simp)
  rw [C91_null] at h1
  cases h1

/-! Concrete cases. -/
example : AtomS.blobCopy ([44, 98, 0, 0] ++ (be32 2 ++ [7, 8] ++ [0, 0]) ++ []) ⟨98, 4⟩ = some [0, 0, 0, 2, 7, 8, 0, 0] := by decide +kernel
example : (UAtom.mk 98 true (.blob 4 [0, 0, 0, 2, 7, 8])).sizeof = some 2 ∧ (UAtom.mk 115 true (.str 4 [104, 105])).sizeof = some 2 := by decide +kernel
example : setBundleIDb (zeros 16) (some [1, 2, 3]) 3 = some ([35, 98, 117, 110, 100, 108, 101, 0, 0, 0, 0, 0, 0, 0, 0, 0], 16) := by decide +kernel

end Libo.Props
