import Verif.Props.ExprArith
import Verif.FpLemmas
/-!
# C45: comparison and logic in the expression language
-/

namespace Libo.Props
open Libo Libo.Expr

/-- The truth value as a value. -/
def boolVal (b : Bool) : Val := .bare (if b then 84 else 70)

/-- The operator gives the truth value `b`. -/
def Gives (r : Option (Int × UAtom)) (b : Bool) : Prop := ∃ u, r = some (0, u) ∧ u.val = some (boolVal b)

theorem setBool_fresh (b : Bool) : ∃ u, setBool .fresh b = some u ∧ u.val = some (boolVal b) := by
  cases b <;> exact ⟨_, rfl, rfl⟩

theorem setBool_gives (b : Bool) : Gives ((setBool .fresh b).map fun r => (0, r)) b := by
  obtain ⟨u, h1, h2⟩ := setBool_fresh b
  exact ⟨u, by rw [h1]; rfl, h2⟩

/-- The integers that every `double` arithmetic represents exactly. -/
def Exact (n : Int) : Prop := n.natAbs ≤ 2 ^ 53

/-- The numbers up to 2^53 are represented exactly. -/
theorem ofInt_exact (n : Int) (h : Exact n) : Fp.ofInt f64 n = .fin (decide (n < 0)) (n.natAbs * 2 ^ 1074) := by
  refine Fp.rounded_exact f64 _ (n.natAbs * 2 ^ 1074) 1 (by decide) ?_ ?_ _
    (by rw [Nat.mul_one]; exact Fp.finish_rounded f64 (by decide) _ _ 1 (by decide))
  · by_cases h' : n.natAbs < 2 ^ 53
    · exact ⟨_, _, h', rfl⟩
    · refine ⟨2 ^ 52, 1075, by decide, ?_⟩
      rw [show n.natAbs = 2 ^ 53 by simp only [Exact] at h; omega, ← Nat.pow_add, ← Nat.pow_add]
  · refine Nat.lt_of_le_of_lt (Nat.mul_le_mul_right _ h) ?_
    rw [← Nat.pow_add]
    exact Nat.pow_lt_pow_right (by decide) (by decide)

/-- Conversion to `double` keeps the order, though it may identify different numbers. -/
theorem ofInt_mono (x y : Int) (h : x ≤ y) : Fp.le (Fp.ofInt f64 x) (Fp.ofInt f64 y) = true := Fp.ofInt_le f64 (by decide) x y h

theorem member_eq (t : ITy) (w : W) (n : Int) (hn : t.has n) (hw : (w.raw : Int) % (2 ^ t.width : Nat) = n % (2 ^ t.width : Nat)) :
    member t w = n := by
  refine Eq.trans ?_ (ITy.conv_self t n hn)
  cases t
  · exact (castS_congr hw).trans (conv_i8 n).symm
  · exact (castS_congr hw).trans (conv_i16 n).symm
  · exact (castS_congr hw).trans (conv_i32 n).symm
  · exact (castS_congr hw).trans (conv_i64 n).symm
  · exact castU_congr hw
  · exact castU_congr hw
  · exact castU_congr hw
  · exact castU_congr hw

theorem getFp_int (t : ITy) (n : Int) (hn : t.has n) (a : UAtom) (h : a.val = some (t.val n)) : getFp a = some (Fp.ofInt f64 n) := by
  obtain ⟨tag, al, w⟩ := a
  obtain ⟨rfl, hw⟩ := raw_mod t tag al w n h
  have hm := member_eq t w n hn hw
  cases t <;> simp only [member] at hm <;> simp [getFp, UAtom.tag, ITy.tag, UAtom.w, hm]

theorem cmp_num (onStr sn ns onDbl onTime) (a b : UAtom) (x y : Fp) (h1 : isNumeric a.tag = true) (h2 : a.tag ≠ 115) (h3 : isNumeric b.tag = true)
    (h4 : b.tag ≠ 115) (ha : getFp a = some x) (hb : getFp b = some y) :
    Gives (cmpOp onStr sn ns onDbl onTime (some a) (some b) .fresh) (onDbl x y) := by
  have : cmpOp onStr sn ns onDbl onTime (some a) (some b) .fresh = (setBool .fresh (onDbl x y)).map fun r => (0, r) := by
    simp [cmpOp, h1, h2, h3, h4, ha, hb]
  rw [this]
  exact setBool_gives _

theorem eq_num (a b : UAtom) (x y : Fp) (h1 : isNumeric a.tag = true) (h2 : a.tag ≠ 115) (h3 : isNumeric b.tag = true)
    (ha : getFp a = some x) (hb : getFp b = some y) :
    Gives (Expr.eq (some a) (some b) .fresh) (Fp.eq x y) ∧ Gives (Expr.neq (some a) (some b) .fresh) (!Fp.eq x y) := by
  have e1 : Expr.eq (some a) (some b) .fresh = (setBool .fresh (Fp.eq x y)).map fun r => (0, r) := by
    simp [Expr.eq, h1, h2, h3, ha, hb]
  have e2 : Expr.neq (some a) (some b) .fresh = (setBool .fresh (!Fp.eq x y)).map fun r => (0, r) := by
    simp [Expr.neq, h1, h2, h3, ha, hb]
  rw [e1, e2]
  exact ⟨setBool_gives _, setBool_gives _⟩

theorem cmp_int (onStr sn ns onDbl onTime) (t1 t2 : ITy) (n1 n2 : Int) (h1 : t1.has n1) (h2 : t2.has n2) (a b : UAtom)
    (ha : a.val = some (t1.val n1)) (hb : b.val = some (t2.val n2)) :
    Gives (cmpOp onStr sn ns onDbl onTime (some a) (some b) .fresh) (onDbl (Fp.ofInt f64 n1) (Fp.ofInt f64 n2)) := by
  have ea := tag_of_val ha
  have eb := tag_of_val hb
  obtain ⟨p1, p2, p3, p4⟩ := int_tag t1
  obtain ⟨q1, q2, q3, q4⟩ := int_tag t2
  exact cmp_num _ _ _ _ _ a b _ _ (by rw [ea]; exact p1) (by rw [ea]; exact p3) (by rw [eb]; exact q1) (by rw [eb]; exact q3) (getFp_int t1 n1 h1 a ha)
    (getFp_int t2 n2 h2 b hb)

theorem eq_int (t1 t2 : ITy) (n1 n2 : Int) (h1 : t1.has n1) (h2 : t2.has n2) (a b : UAtom)
    (ha : a.val = some (t1.val n1)) (hb : b.val = some (t2.val n2)) :
    Gives (Expr.eq (some a) (some b) .fresh) (Fp.eq (Fp.ofInt f64 n1) (Fp.ofInt f64 n2)) ∧
    Gives (Expr.neq (some a) (some b) .fresh) (!(Fp.eq (Fp.ofInt f64 n1) (Fp.ofInt f64 n2))) := by
  have ea := tag_of_val ha
  have eb := tag_of_val hb
  obtain ⟨p1, p2, p3, p4⟩ := int_tag t1
  obtain ⟨q1, q2, q3, q4⟩ := int_tag t2
  exact eq_num a b _ _ (by rw [ea]; exact p1) (by rw [ea]; exact p3) (by rw [eb]; exact q1) (getFp_int t1 n1 h1 a ha) (getFp_int t2 n2 h2 b hb)

/-- Up to 2^53 the order is exactly that of the numbers. -/
theorem ofInt_order (n1 n2 : Int) (e1 : Exact n1) (e2 : Exact n2) : Fp.lt (Fp.ofInt f64 n1) (Fp.ofInt f64 n2) = decide (n1 < n2) ∧
    Fp.le (Fp.ofInt f64 n1) (Fp.ofInt f64 n2) = decide (n1 ≤ n2) ∧ Fp.eq (Fp.ofInt f64 n1) (Fp.ofInt f64 n2) = decide (n1 = n2) := by
  rw [ofInt_exact n1 e1, ofInt_exact n2 e2]
  exact Fp.exact_order n1 n2 _ (Nat.two_pow_pos _)

/-- **C45**, integers (partial: up to 2^53 in magnitude, which includes all types up to 32 bits).  In full: for all integers. -/
theorem C45_integers_partial (t1 t2 : ITy) (n1 n2 : Int) (h1 : t1.has n1) (h2 : t2.has n2) (a b : UAtom)
    (ha : a.val = some (t1.val n1)) (hb : b.val = some (t2.val n2)) (e1 : Exact n1) (e2 : Exact n2) :
    Gives (lt (some a) (some b) .fresh) (decide (n1 < n2)) ∧ Gives (le (some a) (some b) .fresh) (decide (n1 ≤ n2)) ∧
    Gives (gt (some a) (some b) .fresh) (decide (n2 < n1)) ∧ Gives (gte (some a) (some b) .fresh) (decide (n2 ≤ n1)) ∧
    Gives (Expr.eq (some a) (some b) .fresh) (decide (n1 = n2)) ∧ Gives (neq (some a) (some b) .fresh) (decide (n1 ≠ n2)) := by
  obtain ⟨k1, k2, k3⟩ := ofInt_order n1 n2 e1 e2
  obtain ⟨l1, l2, l3⟩ := ofInt_order n2 n1 e2 e1
  have hE := eq_int t1 t2 n1 n2 h1 h2 a b ha hb
  rw [k3] at hE
  refine ⟨?_, ?_, ?_, ?_, hE.1, by simpa using hE.2⟩
  · have := cmp_int (· < 0) false true Fp.lt (· == -1) t1 t2 n1 n2 h1 h2 a b ha hb
    rw [k1] at this; exact this
  · have := cmp_int (· ≤ 0) false true Fp.le (· != 1) t1 t2 n1 n2 h1 h2 a b ha hb
    rw [k2] at this; exact this
  · have := cmp_int (0 < ·) true false (fun x y => Fp.lt y x) (· == 1) t1 t2 n1 n2 h1 h2 a b ha hb
    rw [l1] at this; exact this
  · have := cmp_int (0 ≤ ·) true false (fun x y => Fp.le y x) (· != -1) t1 t2 n1 n2 h1 h2 a b ha hb
    rw [l2] at this; exact this

/-- **C45**, all integers: a comparison never contradicts the order. -/
theorem C45_integers_order (t1 t2 : ITy) (n1 n2 : Int) (h1 : t1.has n1) (h2 : t2.has n2) (a b : UAtom)
    (ha : a.val = some (t1.val n1)) (hb : b.val = some (t2.val n2)) (h : n1 ≤ n2) :
    Gives (le (some a) (some b) .fresh) true ∧ Gives (gt (some a) (some b) .fresh) false ∧
    (n1 = n2 → Gives (Expr.eq (some a) (some b) .fresh) true ∧ Gives (neq (some a) (some b) .fresh) false) := by
  have hm := ofInt_mono n1 n2 h
  refine ⟨?_, ?_, ?_⟩
  · have := cmp_int (· ≤ 0) false true Fp.le (· != 1) t1 t2 n1 n2 h1 h2 a b ha hb
    rw [hm] at this; exact this
  · have := cmp_int (0 < ·) true false (fun x y => Fp.lt y x) (· == 1) t1 t2 n1 n2 h1 h2 a b ha hb
    rw [Fp.le_not_lt _ _ hm] at this; exact this
  · rintro rfl
    have hE := eq_int t1 t2 n1 n1 h1 h2 a b ha hb
    rwa [Fp.eq_of_le hm hm] at hE

/-- **C45**, what is missing for large integers: 2^53 and 2^53 + 1 compare equal. -/
theorem C45_full_fails : Gives (Expr.eq (some (atomOf .i64 (2 ^ 53))) (some (atomOf .i64 (2 ^ 53 + 1))) .fresh) true := by
  have h := (eq_int .i64 .i64 (2 ^ 53) (2 ^ 53 + 1) (by decide) (by decide) _ _ (atomOf_val _ _) (atomOf_val _ _)).1
  have : Fp.eq (Fp.ofInt f64 (2 ^ 53)) (Fp.ofInt f64 (2 ^ 53 + 1)) = true := by decide +kernel
  rwa [this] at h

/-! ## Strings, time tags and laws -/

/-- `strcmp` is the lexicographic order of the bytes. -/
theorem strcmp_spec : ∀ s1 s2 : Bytes, (strcmp s1 s2 < 0 ↔ s1 < s2) ∧ (strcmp s1 s2 = 0 ↔ s1 = s2) ∧ (0 < strcmp s1 s2 ↔ s2 < s1)
  | [], [] => by simp [strcmp]
  | [], _ :: _ => by simp [strcmp]
  | _ :: _, [] => by simp [strcmp]
  | x :: xs, y :: ys => by
    obtain ⟨i1, i2, i3⟩ := strcmp_spec xs ys
    simp only [strcmp, List.cons_lt_cons_iff, List.cons.injEq]
    by_cases h : x < y
    · have h' : ¬ y < x := fun h2 => absurd (UInt8.lt_trans h h2) (UInt8.lt_irrefl x)
      have hne : x ≠ y := fun e => by subst e; exact absurd h (UInt8.lt_irrefl x)
      simp [h, h', hne, hne.symm]
    · by_cases h' : y < x
      · have hne : x ≠ y := fun e => by subst e; exact absurd h' (UInt8.lt_irrefl x)
        simp [h, h', hne, hne.symm]
      · have e : x = y := by
          apply UInt8.le_antisymm
          · exact UInt8.not_lt.mp h'
          · exact UInt8.not_lt.mp h
        subst e
        simp [i1, i2, i3, UInt8.lt_irrefl]

theorem strcmp_antisymm (s1 s2 : Bytes) : (strcmp s1 s2 < 0 ↔ 0 < strcmp s2 s1) ∧ (strcmp s1 s2 ≤ 0 ↔ 0 ≤ strcmp s2 s1) := by
  obtain ⟨a1, a2, a3⟩ := strcmp_spec s1 s2
  obtain ⟨b1, b2, b3⟩ := strcmp_spec s2 s1
  have : strcmp s1 s2 < 0 ↔ 0 < strcmp s2 s1 := by rw [a1, b3]
  have h2 : 0 < strcmp s1 s2 ↔ strcmp s2 s1 < 0 := by rw [a3, b1]
  exact ⟨this, by omega⟩

theorem str_of_val {a : UAtom} {s : Bytes} (h : a.val = some (.str s)) : ∃ al p, a = .mk 115 al (.str p s) := by
  obtain ⟨tag, al, w⟩ := a
  rcases val_eq tag al w _ h with ⟨-, h2⟩ | ⟨-, h2⟩ | ⟨-, h2⟩ | ⟨-, h2⟩ | ⟨-, h2⟩ | ⟨rfl, p, s', rfl, h2⟩ |
    ⟨-, p, blk, l, c, -, -, -, h2⟩ | ⟨-, p, ms, vs, -, -, h2⟩ | ⟨h2, -⟩ <;> simp at h2
  subst h2
  exact ⟨_, _, rfl⟩

/-- **C45**, strings: ordered by their bytes. -/
theorem C45_strings (a b : UAtom) (s1 s2 : Bytes) (ha : a.val = some (.str s1)) (hb : b.val = some (.str s2)) :
    Gives (lt (some a) (some b) .fresh) (decide (s1 < s2)) ∧ Gives (le (some a) (some b) .fresh) (decide (¬ s2 < s1)) ∧
    Gives (gt (some a) (some b) .fresh) (decide (s2 < s1)) ∧ Gives (gte (some a) (some b) .fresh) (decide (¬ s1 < s2)) ∧
    Gives (Expr.eq (some a) (some b) .fresh) (decide (s1 = s2)) ∧ Gives (neq (some a) (some b) .fresh) (decide (s1 ≠ s2)) := by
  obtain ⟨_, _, rfl⟩ := str_of_val ha
  obtain ⟨_, _, rfl⟩ := str_of_val hb
  obtain ⟨i1, i2, i3⟩ := strcmp_spec s1 s2
  have c : ∀ (x : Bool) (p : Prop) [Decidable p] (r : Option (Int × UAtom)), (x = true ↔ p) →
      r = ((setBool .fresh x).map fun r => (0, r)) → Gives r (decide p) := by
    intro x p _ r h hr
    rw [hr]
    have : x = decide p := by rw [Bool.eq_iff_iff]; simp [h]
    rw [← this]; exact setBool_gives x
  refine ⟨c (decide (strcmp s1 s2 < 0)) _ _ (by simp [i1]) rfl, c (decide (strcmp s1 s2 ≤ 0)) _ _ (by rw [← i3]; simp) rfl,
    c (decide (0 < strcmp s1 s2)) _ _ (by simp [i3]) rfl, c (decide (0 ≤ strcmp s1 s2)) _ _ (by rw [← i1]; simp) rfl,
    c (strcmp s1 s2 == 0) _ _ (by simp [i2]) rfl, c (strcmp s1 s2 != 0) _ _ (by simp [i2]) rfl⟩

/-- **C45**, a string is greater than every number. -/
theorem C45_string_number (a b : UAtom) (s : Bytes) (t : ITy) (n : Int) (ha : a.val = some (.str s)) (hb : b.val = some (t.val n)) :
    Gives (gt (some a) (some b) .fresh) true ∧ Gives (lt (some b) (some a) .fresh) true ∧
    Gives (lt (some a) (some b) .fresh) false ∧ Gives (gt (some b) (some a) .fresh) false := by
  obtain ⟨_, _, rfl⟩ := str_of_val ha
  have eb := tag_of_val hb
  obtain ⟨q1, q2, q3, q4⟩ := int_tag t
  have k := setBool_gives
  have ea : ∀ al w, (UAtom.mk 115 al w).tag = 115 := fun _ _ => rfl
  have hs : isNumeric 115 = false := by decide
  refine ⟨?_, ?_, ?_, ?_⟩ <;> simp only [lt, gt, cmpOp, ea, eb, q1, q3, hs] <;> simp <;> first | exact k true | exact k false

/-- **C45**, nested bundles: a bundle equals itself, and bundles that compare equal hold the same values. -/
theorem C45_bundles_partial (a b : UAtom) (v1 v2 : List VMsg) (ha : a.val = some (.bndl v1)) (hb : b.val = some (.bndl v2))
    (hg1 : GoodMsgs v1) (hg2 : GoodMsgs v2) (hs1 : 16 + sizeVMsgs v1 < 2147483648) (hs2 : 16 + sizeVMsgs v2 < 2147483648) :
    Gives (Expr.eq (some a) (some a) .fresh) true ∧ Gives (neq (some a) (some a) .fresh) false ∧
    (∃ r, Gives (Expr.eq (some a) (some b) .fresh) r ∧ Gives (neq (some a) (some b) .fresh) (!r) ∧ (r = true → v1 = v2)) := by
  have key : ∀ {a : UAtom} {v : List VMsg}, a.val = some (.bndl v) → ∃ al p ms, a = .mk 46 al (.bndl p ms) ∧ msgsVal ms = some v := by
    intro a v h
    obtain ⟨tag, al, w⟩ := a
    rcases val_eq tag al w _ h with ⟨-, h2⟩ | ⟨-, h2⟩ | ⟨-, h2⟩ | ⟨-, h2⟩ | ⟨-, h2⟩ | ⟨-, p, s', -, h2⟩ |
      ⟨-, p, blk, l, c, -, -, -, h2⟩ | ⟨rfl, p, ms, vs, rfl, h3, h2⟩ | ⟨h2, -⟩ <;> simp at h2
    subst h2
    exact ⟨_, _, _, rfl, h3⟩
  obtain ⟨_, _, m1, rfl, h1⟩ := key ha
  obtain ⟨_, _, m2, rfl, h2⟩ := key hb
  obtain ⟨y1, u1, s1, d1, e1⟩ := C01_roundtrip_partial m1 v1 h1 hg1 hs1
  obtain ⟨y2, u2, s2, d2, e2⟩ := C01_roundtrip_partial m2 v2 h2 hg2 hs2
  have n46 : isNumeric 46 = false := by decide
  have k := setBool_gives
  refine ⟨?_, ?_, y1 == y2, ?_, ?_, ?_⟩
  · simp only [Expr.eq, UAtom.tag, UAtom.w, n46, bndlEq, s1]; simpa using k true
  · simp only [neq, UAtom.tag, UAtom.w, n46, bndlEq, s1]; simpa using k false
  · simp only [Expr.eq, UAtom.tag, UAtom.w, n46, bndlEq, s1, s2]; simpa using k (y1 == y2)
  · simp only [neq, UAtom.tag, UAtom.w, n46, bndlEq, s1, s2]; simpa using k (!(y1 == y2))
  · intro h
    have := eq_of_beq h
    subst this
    rw [d1] at d2
    injection d2 with d2
    subst d2
    rw [e1] at e2
    injection e2

/-- The converse fails: the unused bytes of an 8 bit number are compared too. -/
theorem C45_bundles_full_fails : ∃ (a b : UAtom), a.val = some (.bndl [.mk (some [47, 97]) [.num 99 1]]) ∧ b.val = a.val ∧
    Gives (Expr.eq (some a) (some b) .fresh) false :=
  ⟨.mk 46 false (.bndl 1 [.mk (some [47, 97]) [.mk 99 false (.bits 1)]]),
    .mk 46 false (.bndl 1 [.mk (some [47, 97]) [.mk 99 false (.bits 257)]]), rfl, rfl, ⟨_, rfl, rfl⟩⟩

theorem time_of_val {a : UAtom} {s f : Nat} (h : a.val = some (.time s f)) :
    a.tag = 116 ∧ (timeOf a).sec.toNat = s ∧ (timeOf a).frac.toNat = f := by
  obtain ⟨tag, al, w⟩ := a
  rcases val_eq tag al w _ h with ⟨-, h2⟩ | ⟨-, h2⟩ | ⟨-, h2⟩ | ⟨-, h2⟩ | ⟨rfl, h2⟩ | ⟨-, p, s', rfl, h2⟩ |
    ⟨-, p, blk, l, c, -, -, -, h2⟩ | ⟨-, p, ms, vs, -, -, h2⟩ | ⟨h2, -⟩ <;> simp at h2
  refine ⟨rfl, ?_, ?_⟩ <;> simp only [timeOf, UAtom.w, UInt32.toNat_ofNat'] <;>
    first | exact h2.1.symm | exact h2.2.symm

/-- **C45**, time tags: in the order of time. -/
theorem C45_timetags (a b : UAtom) (s1 f1 s2 f2 : Nat) (ha : a.val = some (.time s1 f1)) (hb : b.val = some (.time s2 f2)) :
    let t1 := s1 * 2 ^ 32 + f1
    let t2 := s2 * 2 ^ 32 + f2
    Gives (lt (some a) (some b) .fresh) (decide (t1 < t2)) ∧ Gives (le (some a) (some b) .fresh) (decide (t1 ≤ t2)) ∧
    Gives (gt (some a) (some b) .fresh) (decide (t2 < t1)) ∧ Gives (gte (some a) (some b) .fresh) (decide (t2 ≤ t1)) ∧
    Gives (Expr.eq (some a) (some b) .fresh) (decide (t1 = t2)) ∧ Gives (neq (some a) (some b) .fresh) (decide (t1 ≠ t2)) := by
  intro t1 t2
  obtain ⟨ea, a1, a2⟩ := time_of_val ha
  obtain ⟨eb, b1, b2⟩ := time_of_val hb
  have hn : isNumeric 116 = false := by decide
  have r1 := (timeOf a).frac.toNat_lt
  have r2 := (timeOf b).frac.toNat_lt
  have hc : Timetag.compare (timeOf a) (timeOf b) = if t1 < t2 then -1 else if t2 < t1 then 1 else 0 := by
    simp only [Timetag.compare, UInt32.lt_iff_toNat_lt, ← UInt32.toNat_inj, GT.gt, a1, a2, b1, b2, t1, t2]
    rw [a2] at r1
    rw [b2] at r2
    congr 1
    · simp only [eq_iff_iff]; omega
    · congr 1
      simp only [eq_iff_iff]; omega
  have c : ∀ (x : Bool) (p : Prop) [Decidable p] (r : Option (Int × UAtom)), (x = true ↔ p) →
      r = ((setBool .fresh x).map fun r => (0, r)) → Gives r (decide p) := by
    intro x p _ r h hr
    rw [hr]
    have : x = decide p := by rw [Bool.eq_iff_iff]; simp [h]
    rw [← this]; exact setBool_gives x
  have d : ∀ (g : Int → Bool) (p : Prop), (t1 < t2 → (g (-1) = true ↔ p)) → (t2 < t1 → (g 1 = true ↔ p)) →
      (t1 = t2 → (g 0 = true ↔ p)) → (g (Timetag.compare (timeOf a) (timeOf b)) = true ↔ p) := by
    intro g p k1 k2 k3
    rw [hc]
    split
    · exact k1 (by assumption)
    · split
      · exact k2 (by assumption)
      · exact k3 (by omega)
  refine ⟨c _ _ _ (d (· == -1) _ ?_ ?_ ?_) (by simp [lt, cmpOp, asTime, ea, eb, hn]), c _ _ _ (d (· != 1) _ ?_ ?_ ?_) (by simp [le, cmpOp, asTime, ea, eb, hn]),
    c _ _ _ (d (· == 1) _ ?_ ?_ ?_) (by simp [gt, cmpOp, asTime, ea, eb, hn]), c _ _ _ (d (· != -1) _ ?_ ?_ ?_) (by simp [gte, cmpOp, asTime, ea, eb, hn]),
    c _ _ _ (d (· == 0) _ ?_ ?_ ?_) (by simp [Expr.eq, asTime, ea, eb, hn]), c _ _ _ (d (· != 0) _ ?_ ?_ ?_) (by simp [neq, asTime, ea, eb, hn])⟩ <;>
    intro h <;> simp <;> omega

/-- **C45**: `>` and `>=` are `<` and `<=` with the operands exchanged - for all operands and results. -/
theorem C45_mirror (f1 f2 : Option UAtom) (r : UAtom) : gt f1 f2 r = lt f2 f1 r ∧ gte f1 f2 r = le f2 f1 r := by
  match f1, f2 with
  | none, none => exact ⟨rfl, rfl⟩
  | none, some _ => exact ⟨rfl, rfl⟩
  | some _, none => exact ⟨rfl, rfl⟩
  | some a, some b =>
    have ht : ∀ x y : Timetag, (Timetag.compare x y == 1) = (Timetag.compare y x == -1) ∧
        (Timetag.compare x y != -1) = (Timetag.compare y x != 1) := by
      intro x y
      simp only [Timetag.compare, UInt32.lt_iff_toNat_lt, ← UInt32.toNat_inj, GT.gt]
      constructor <;> (repeat' split) <;> first | rfl | (exfalso; omega)
    have hs : ∀ s1 s2 : Bytes, decide (0 < strcmp s1 s2) = decide (strcmp s2 s1 < 0) ∧
        decide (0 ≤ strcmp s1 s2) = decide (strcmp s2 s1 ≤ 0) := fun s1 s2 =>
      ⟨by rw [decide_eq_decide]; exact (strcmp_antisymm s2 s1).1.symm, by rw [decide_eq_decide]; exact (strcmp_antisymm s2 s1).2.symm⟩
    have key : ∀ (o1 o2 : Int → Bool) (d : Fp → Fp → Bool) (u1 u2 : Int → Bool), (∀ s1 s2, o1 (strcmp s1 s2) = o2 (strcmp s2 s1)) →
        (∀ x y, u1 (Timetag.compare x y) = u2 (Timetag.compare y x)) →
        cmpOp o1 true false (fun x y => d y x) u1 (some a) (some b) r = cmpOp o2 false true d u2 (some b) (some a) r := by
      intro o1 o2 d u1 u2 h1 h2
      have hn : isNumeric 115 = false := by decide
      have hn' : isNumeric 116 = false := by decide
      simp only [cmpOp, h2]
      by_cases e1 : a.tag = 115 <;> by_cases e2 : b.tag = 115
      · simp only [e1, e2, and_self, if_true]
        cases a.w <;> cases b.w <;> simp [h1]
      · simp [e1, e2, hn]
      · simp [e1, e2, hn]
      · by_cases m1 : isNumeric a.tag <;> by_cases m2 : isNumeric b.tag <;> by_cases t1 : a.tag = 116 <;> by_cases t2 : b.tag = 116 <;>
          simp [e1, e2, m1, m2, t1, t2, hn'] <;> cases getFp a <;> cases getFp b <;> cases asTime a <;> cases asTime b <;> rfl
    exact ⟨key _ _ Fp.lt _ _ (fun s1 s2 => (hs s1 s2).1) (fun x y => (ht x y).1),
      key _ _ Fp.le _ _ (fun s1 s2 => (hs s1 s2).2) (fun x y => (ht x y).2)⟩

/-- **C45**: `!=` is the negation of `==`, on all operands it accepts. -/
theorem C45_neq (a b : UAtom) (r : UAtom) (h : a.tag ≠ 78 ∧ b.tag ≠ 78) (p : Bool) (u : UAtom) (hr : r = .fresh)
    (hq : Expr.eq (some a) (some b) r = some (0, u)) (hu : u.val = some (boolVal p)) : Gives (neq (some a) (some b) r) (!p) := by
  subst hr
  have key : ∀ q : Bool, ((setBool .fresh q).map fun r => ((0 : Int), r)) = some (0, u) →
      Gives ((setBool .fresh (!q)).map fun r => (0, r)) (!p) := by
    intro q hq
    have : q = p := by
      obtain ⟨v, h1, h2⟩ := setBool_fresh q
      rw [h1] at hq
      simp only [Option.map_some, Option.some.injEq, Prod.mk.injEq, true_and] at hq
      subst hq
      rw [hu] at h2
      cases p <;> cases q <;> simp [boolVal] at h2 <;> rfl
    rw [this]
    exact setBool_gives _
  simp only [Expr.eq, h.1, h.2, false_and, false_or, if_false] at hq
  simp only [neq]
  split at hq
  · rename_i hs
    rw [if_pos hs]
    revert hq
    cases a.w <;> cases b.w <;> intro hq <;> simp only [reduceCtorEq] at hq ⊢
    exact key _ hq
  · rename_i hs
    rw [if_neg hs]
    split at hq
    · rename_i hm
      rw [if_pos hm]
      cases hx : getFp a <;> cases hy : getFp b <;> simp only [hx, hy, Option.bind_none, Option.bind_some, reduceCtorEq] at hq ⊢
      exact key _ hq
    · rename_i hm
      rw [if_neg hm]
      split at hq
      · rename_i ht
        rw [if_pos ht]
        cases hx : asTime a <;> cases hy : asTime b <;> simp only [hx, hy, Option.bind_none, Option.bind_some, reduceCtorEq] at hq ⊢
        exact key _ hq
      · rename_i ht
        rw [if_neg ht]
        split at hq
        · rename_i hb
          rw [if_pos hb]
          cases hx : bndlEq a.w b.w <;> simp only [hx, Option.bind_none, Option.bind_some, reduceCtorEq] at hq ⊢
          exact key _ hq
        · simp at hq

/-- ... but it is an error for nil, which `==` accepts. -/
theorem C45_neq_nil : Gives (Expr.eq (some (.mk 78 false (.bits 0))) (some (.mk 78 false (.bits 0))) .fresh) true ∧
    neq (some (.mk 78 false (.bits 0))) (some (.mk 78 false (.bits 0))) .fresh = some (1, .fresh) := ⟨⟨_, rfl, rfl⟩, rfl⟩

/-- **C45**: `&` and `|` on any two values. -/
theorem C45_and_or (a b : UAtom) (v w : Val) (ha : a.val = some v) (hb : b.val = some w) :
    Gives (Expr.and (some a) (some b) .fresh) (v.truth && w.truth) ∧ Gives (Expr.or (some a) (some b) .fresh) (v.truth || w.truth) := by
  simp only [Expr.and, Expr.or, getBool_val a v ha, getBool_val b w hb]
  exact ⟨setBool_gives _, setBool_gives _⟩

/-! ## Functions applied to each element -/

theorem elementwise (g : UAtom → UAtom → Option UAtom) (F : Val → Val) (a : Ar) (vs : List Val) (ha : Holds a vs)
    (hg : ∀ x v, x.val = some v → v ∈ vs → ∃ u, g x .fresh = some u ∧ u.val = some (F v)) :
    ∃ o, forN (len a) (fun i out => match at? a i with | none => some out | some x => setTo out i (g x)) (Expr.mk (len a)) = some o ∧
      Holds (some o) (vs.map F) := by
  have hl := holds_len ha
  obtain ⟨o, h1, h2, h3⟩ := forN_inv (fun i (o : List UAtom) => o.length = vs.length ∧
      (∀ j, j < i → vat o j = (vs[j]?).map F) ∧ ∀ j, i ≤ j → j < vs.length → o[j]? = some .fresh)
    (fun i out => match at? a i with | none => some out | some x => setTo out i (g x)) (len a) (Expr.mk (len a))
    ⟨by simp [Expr.mk, hl], fun j hj => absurd hj (by omega), fun j _ hj => by simp [Expr.mk, hl, hj]⟩ (by
      rintro i o hi ⟨h1, h2, h3⟩
      have hi' : i < vs.length := by omega
      obtain ⟨x, hx, hxv⟩ := holds_at ha (List.getElem?_eq_getElem hi')
      obtain ⟨u, hu, huv⟩ := hg x _ hxv (List.getElem_mem hi')
      refine ⟨o.set i u, ?_, ?_, ?_, ?_⟩
      · simp only [hx, setTo, h3 i (Nat.le_refl _) hi', hu, Option.map_some]
      · simp [h1]
      · intro j hj
        by_cases hji : j = i
        · subst hji
          simp [vat, h1, hi', huv]
        · simp only [vat]
          rw [List.getElem?_set_ne (by omega)]
          exact h2 j (by omega)
      · intro j hj hj'
        rw [List.getElem?_set_ne (by omega)]
        exact h3 j (by omega) hj')
  refine ⟨o, h1, ?_⟩
  refine (argsVal_iff _ _).mpr ⟨by simpa using h2, fun i hi => ?_⟩
  simp only [List.length_map] at hi
  simpa using h3.1 i (by omega)

/-- Negation of a value: a truth value or nil gives a truth value, a 32 bit number gives the 32 bit number 0 or 1. -/
def notVal (v : Val) : Val :=
  match v with
  | .bare t => .bare (if t = 84 then 70 else 84)
  | v => ITy.i32.val (if v.truth then 0 else 1)

/-- The values for which `!` is negation. -/
def NotOk (v : Val) : Prop := v = .bare 84 ∨ v = .bare 70 ∨ v = .bare 78 ∨ (∃ n, ITy.i32.has n ∧ v = ITy.i32.val n) ∨
  (∃ n, ITy.u32.has n ∧ v = ITy.u32.val n)

theorem bare_of_val {a : UAtom} {t : UInt8} (h : a.val = some (.bare t)) : a.tag = t := by
  obtain ⟨tag, al, w⟩ := a
  rcases val_eq tag al w _ h with ⟨-, h2⟩ | ⟨-, h2⟩ | ⟨-, h2⟩ | ⟨-, h2⟩ | ⟨rfl, h2⟩ | ⟨-, p, s', rfl, h2⟩ |
    ⟨-, p, blk, l, c, -, -, -, h2⟩ | ⟨-, p, ms, vs, -, -, h2⟩ | ⟨h2, -⟩ <;> simp at h2
  exact h2.symm

theorem truth_int (t : ITy) (n : Int) (h : t.has n) : (t.val n).truth = decide (n ≠ 0) := by
  cases t <;> simp [ITy.val, Val.truth, ITy.tag, ITy.width, ITy.has, ITy.signed, bne] at h ⊢ <;> 
    rw [Bool.eq_iff_iff] <;> simp <;> omega

/-- **C45** (partial: truth values, nil and 32 bit numbers): `!` negates each element of a list.  In full: for numbers of all
types. -/
theorem C45_not_partial (a : Ar) (r : List Ar) (vs : List Val) (ha : Holds a vs) (hv : ∀ v ∈ vs, NotOk v) :
    ∃ o, Expr.not (a :: r) = some (0, some o) ∧ Holds (some o) (vs.map notVal) ∧ ∀ v ∈ vs, (notVal v).truth = !v.truth := by
  have hg : ∀ x v, x.val = some v → v ∈ vs → ∃ u, not1 x .fresh = some u ∧ u.val = some (notVal v) := by
    intro x v hx hm
    rcases hv v hm with rfl | rfl | rfl | ⟨n, hn, rfl⟩ | ⟨n, hn, rfl⟩
    · have := bare_of_val hx
      exact ⟨.mk 70 false (.bits 0), by simp [not1, this]; rfl, rfl⟩
    · have := bare_of_val hx
      exact ⟨.mk 84 false (.bits 0), by simp [not1, this]; rfl, rfl⟩
    · have := bare_of_val hx
      exact ⟨.mk 84 false (.bits 0), by simp [not1, this]; rfl, rfl⟩
    · have ht : x.tag = 105 := tag_of_val hx
      have hi := (getU_val .i32 .i32 x n hn hx).1
      rw [ITy.conv_self .i32 n hn] at hi
      obtain ⟨u, h1, h2⟩ := setU_fresh .i32 (if n = 0 then 1 else 0)
      refine ⟨u, ?_, ?_⟩
      · simp only [getU, setU] at hi h1
        simp only [not1, ht, true_or, if_true, hi, Option.bind_some, h1]
      · rw [h2]
        have : notVal (ITy.i32.val n) = ITy.i32.val (if (ITy.i32.val n).truth then 0 else 1) := rfl
        rw [this, truth_int _ _ hn]
        by_cases e : n = 0 <;> simp [e]
    · have ht : x.tag = 73 := tag_of_val hx
      have hi := (getU_val .u32 .i32 x n hn hx).1
      have hz : ITy.i32.conv n = 0 ↔ n = 0 := by
        simp [ITy.conv, ITy.has, ITy.signed, ITy.width, Int.bmod] at hn ⊢; omega
      obtain ⟨u, h1, h2⟩ := setU_fresh .i32 (if ITy.i32.conv n = 0 then 1 else 0)
      refine ⟨u, ?_, ?_⟩
      · simp only [getU, setU] at hi h1
        simp only [not1, ht, true_or, or_true, if_true, hi, Option.bind_some, h1]
      · rw [h2]
        have : notVal (ITy.u32.val n) = ITy.i32.val (if (ITy.u32.val n).truth then 0 else 1) := rfl
        rw [this, truth_int _ _ hn]
        by_cases e : n = 0 <;> simp [e, hz]
        rfl
  obtain ⟨o, h1, h2⟩ := elementwise not1 notVal a vs ha hg
  refine ⟨o, ?_, h2, ?_⟩
  · exact congrArg (Option.map fun out => ((0 : Int), some out)) h1
  · intro v hm
    have key : ∀ t : ITy, ∀ n, t.has n → (notVal (t.val n)).truth = !(t.val n).truth := by
      intro t n hn
      have : notVal (t.val n) = ITy.i32.val (if (t.val n).truth then 0 else 1) := rfl
      rw [this]
      cases (t.val n).truth <;> rfl
    rcases hv v hm with rfl | rfl | rfl | ⟨n, hn, rfl⟩ | ⟨n, hn, rfl⟩
    · rfl
    · rfl
    · rfl
    · exact key _ _ hn
    · exact key _ _ hn

/-- **C45**, what is missing: `!` of the 64 bit number 2^32 is 1, and `!` of the 8 bit number 0 is false. -/
theorem C45_not_full_fails :
    (∃ u, not1 (atomOf .i64 4294967296) .fresh = some u ∧ u.val = some (ITy.i32.val 1) ∧ (ITy.i64.val 4294967296).truth = true) ∧
    (∃ u, not1 (atomOf .i8 0) .fresh = some u ∧ u.val = some (.bare 70) ∧ (ITy.i8.val 0).truth = false) := by
  refine ⟨?_, ⟨_, rfl, rfl, rfl⟩⟩
  have hi := (getU_val .i64 .i32 (atomOf .i64 4294967296) 4294967296 (by decide) (atomOf_val _ _)).1
  have hc : ITy.i32.conv 4294967296 = 0 := by decide
  obtain ⟨u, h1, h2⟩ := setU_fresh .i32 1
  have ht : (atomOf .i64 4294967296).tag = 104 := tag_of_val (t := .i64) (atomOf_val _ _)
  simp only [getU, setU] at hi h1
  refine ⟨u, ?_, h2, by decide⟩
  simp only [not1, ht, true_or, or_true, if_true, hi, Option.bind_some, hc, h1]

/-- **C46**: `++` and `--` on lists of 32 bit signed and 64 bit unsigned numbers add and subtract one, wrapping around in the
unsigned type. (Partial: other types.  In full: for every integer type, with the type kept.) -/
theorem C46_step_partial (d : Int) (a : Ar) (r : List Ar) (xs : List (ITy × Int)) (ha : Holds a (xs.map fun x => x.1.val x.2))
    (hx : ∀ x ∈ xs, (x.1 = .i32 ∧ ITy.i32.has x.2 ∧ ITy.i32.has (x.2 + d)) ∨ (x.1 = .u64 ∧ ITy.u64.has x.2)) :
    ∃ o, addConst d (a :: r) = some (0, some o) ∧ Holds (some o) (xs.map fun x => x.1.val (x.2 + d)) := by
  let F : Val → Val := fun v => match v with
    | .num tag n => if tag = 105 then ITy.i32.val (n + d) else ITy.u64.val (n + d)
    | v => v
  have hg : ∀ x v, x.val = some v → v ∈ xs.map (fun x => x.1.val x.2) → ∃ u, step1 d x .fresh = some u ∧ u.val = some (F v) := by
    intro x v hxv hm
    obtain ⟨⟨t, n⟩, hm', rfl⟩ := List.mem_map.mp hm
    clear hm
    rcases hx _ hm' with ⟨rfl, h1, h2⟩ | ⟨rfl, h1⟩
    · have ht : x.tag = 105 := tag_of_val hxv
      have hi := (getU_val .i32 .i32 x n h1 hxv).1
      rw [ITy.conv_self .i32 n h1] at hi
      obtain ⟨u, g1, g2⟩ := setU_fresh .i32 (n + d)
      refine ⟨u, ?_, ?_⟩
      · simp only [getU, setU] at hi g1
        have : i32 (n + d) = some (n + d) := i32_some (by simpa [ITy.has, ITy.signed, ITy.width] using h2)
        simp only [step1, ht, if_true, hi, Option.bind_some, this, g1]
      · rw [g2]
        simp only [F, ITy.val, ITy.tag, if_true, ITy.width]
        congr 3
        omega
    · have ht : x.tag = 72 := tag_of_val hxv
      have hi := (getU_val .u64 .u64 x n h1 hxv).1
      rw [ITy.conv_self .u64 n h1] at hi
      obtain ⟨u, g1, g2⟩ := setU_fresh .u64 (castU M64 (n + d))
      refine ⟨u, ?_, ?_⟩
      · simp only [getU, setU] at hi g1
        simp only [step1, ht, hi, Option.bind_some]
        exact g1
      · rw [g2]
        have e : F (ITy.u64.val n) = ITy.u64.val (((n % (2 ^ 64 : Nat)).toNat : Int) + d) := rfl
        rw [e]
        congr 1
        apply val_congr
        refine (castU_mod (Nat.dvd_refl M64) _).trans ?_
        simp [ITy.has, ITy.signed, ITy.width] at h1
        simp only [ITy.width]
        have : ((n % (2 ^ 64 : Nat)).toNat : Int) = n := by omega
        rw [this]
  obtain ⟨o, h1, h2⟩ := elementwise (step1 d) F a _ ha hg
  refine ⟨o, congrArg (Option.map fun out => ((0 : Int), some out)) h1, ?_⟩
  have e : (xs.map fun x => x.1.val x.2).map F = xs.map fun x => x.1.val (x.2 + d) := by
    rw [List.map_map]
    apply List.map_congr_left
    intro x hm
    obtain ⟨t, n⟩ := x
    rcases hx _ hm with ⟨rfl, k1, k2⟩ | ⟨rfl, k1⟩
    · have e : F (ITy.i32.val n) = ITy.i32.val (((n % (2 ^ 32 : Nat)).toNat : Int) + d) := rfl
      simp only [Function.comp]
      rw [e]
      apply val_congr
      simp only [ITy.width]
      omega
    · have e : F (ITy.u64.val n) = ITy.u64.val (((n % (2 ^ 64 : Nat)).toNat : Int) + d) := rfl
      simp only [Function.comp]
      rw [e]
      simp [ITy.has, ITy.signed, ITy.width] at k1
      have : ((n % (2 ^ 64 : Nat)).toNat : Int) = n := by omega
      rw [this]
  rwa [e] at h2

theorem C46_plus1_minus1 : plus1 = addConst 1 ∧ minus1 = addConst (-1) := ⟨rfl, rfl⟩

/-- **C46**, what is missing: `++` of the 64 bit number 2^32 + 7 is the unsigned 32 bit number 8, and `++` of an 8 bit number has
no type. -/
theorem C46_full_fails :
    (∃ u, step1 1 (atomOf .i64 4294967303) .fresh = some u ∧ u.val = some (ITy.u32.val 8)) ∧ step1 1 (atomOf .i8 3) .fresh = some .fresh := by
  refine ⟨?_, rfl⟩
  have hi := (getU_val .i64 .u32 (atomOf .i64 4294967303) 4294967303 (by decide) (atomOf_val _ _)).1
  have hc : ITy.u32.conv 4294967303 = 7 := by decide
  obtain ⟨u, h1, h2⟩ := setU_fresh .u32 (castU M32 8)
  have ht : (atomOf .i64 4294967303).tag = 104 := tag_of_val (t := .i64) (atomOf_val _ _)
  simp only [getU, setU] at hi h1
  refine ⟨u, ?_, h2⟩
  simp only [step1, ht, hi, Option.bind_some, hc]
  exact h1

/-! ## Examples -/

example : Holds (some [atomOf .i32 5, atomOf .u64 18446744073709551615]) [ITy.i32.val 5, ITy.u64.val 18446744073709551615] ∧
    ITy.u64.val (18446744073709551615 + 1) = ITy.u64.val 0 := by
  refine ⟨?_, by rfl⟩
  refine (argsVal_iff _ _).mpr ⟨rfl, fun i hi => ?_⟩
  match i, hi with
  | 0, _ => exact atomOf_val _ _
  | 1, _ => exact atomOf_val _ _
example : ∀ v ∈ [ITy.i32.val 5, .bare 84, ITy.u32.val 0], NotOk v := by
  intro v hv
  rcases (by simpa using hv : v = _ ∨ v = _ ∨ v = _) with rfl | rfl | rfl
  · exact .inr (.inr (.inr (.inl ⟨5, by decide, rfl⟩)))
  · exact .inl rfl
  · exact .inr (.inr (.inr (.inr ⟨0, by decide, rfl⟩)))

example : (atomOf .i32 3).val = some (ITy.i32.val 3) ∧ ITy.i32.has 3 ∧ Exact 3 ∧ ITy.u64.has 18446744073709551615 :=
  ⟨atomOf_val _ _, by decide, by simp [Exact], by decide⟩
example : Gives (lt (some (atomOf .i8 (-1))) (some (atomOf .u32 4294967295)) .fresh) true :=
  (C45_integers_partial .i8 .u32 (-1) 4294967295 (by decide) (by decide) _ _ (atomOf_val _ _) (atomOf_val _ _) (by simp [Exact])
    (by simp [Exact])).1
example : Gives (lt (some (.mk 115 false (.str 1 [97, 98]))) (some (.mk 115 true (.str 2 [98]))) .fresh) true := ⟨_, rfl, rfl⟩
/-- 1.5, NaN, a `float`, the smallest positive `float`, and minus infinity. -/
example : Fp.ofBits f64 0x3FF8000000000000 = .fin false (3 * 2 ^ 1073) ∧ Fp.ofBits f64 0x7FF8000000000000 = .nan ∧
    Fp.conv f32 f64 (Fp.ofBits f32 0x3FC00000) = .fin false (3 * 2 ^ 1073) ∧ Fp.conv f32 f64 (Fp.ofBits f32 1) = .fin false (2 ^ (1074 - 149)) ∧
    Fp.ofBits f64 0xFFF0000000000000 = .inf true := by decide +kernel

example : (UAtom.mk 46 false (.bndl 1 exBundle)).val = some (.bndl exVals) ∧ 16 + sizeVMsgs exVals < 2147483648 :=
  ⟨by simp [UAtom.val, exBundle_val], by decide +kernel⟩

end Libo.Props
