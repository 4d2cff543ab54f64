import Verif.Props.ExprCast
import Verif.ByteOrderLemmas
/-!
# Bitwise operators and byte order of the expression language (C58)
-/

namespace Libo.Props
open Libo Libo.Expr Libo.Text

/-! ## Specification -/

/-- The order of the integer types: by width, and signed before unsigned. -/
def ITy.le (s t : ITy) : Prop := s.width < t.width ∨ s.width = t.width ∧ (s.signed = true ∨ t.signed = false)

/-- A list of integers of several types as values. -/
def intVals (l : List (ITy × Int)) : List Val := l.map fun p => p.1.val p.2

/-- The bits of a number of type `t`. -/
def bitsOf (t : ITy) (n : Int) : Nat := (n % (2 ^ t.width : Nat)).toNat

/-! ## The largest type -/

theorem largestIn_le : ∀ (l : List UAtom) (k m : Nat), k ≤ m → (∀ a ∈ l, typesConst a.tag ≤ m) → largestIn k l ≤ m
  | [], _, _, h, _ => h
  | a :: l, k, m, h, ha => by
    simp only [largestIn]
    refine largestIn_le l _ m ?_ (fun b hb => ha b (by simp [hb]))
    have := ha a (by simp)
    split <;> omega

theorem le_largestIn : ∀ (l : List UAtom) (k : Nat), k ≤ largestIn k l
  | [], _ => Nat.le_refl _
  | a :: l, k => by
    simp only [largestIn]
    refine Nat.le_trans ?_ (le_largestIn l _)
    split <;> omega

theorem mem_largestIn : ∀ (l : List UAtom) (k : Nat) (a : UAtom), a ∈ l → typesConst a.tag ≤ largestIn k l
  | b :: l, k, a, h => by
    simp only [largestIn]
    rcases List.mem_cons.mp h with rfl | h
    · refine Nat.le_trans ?_ (le_largestIn l _)
      split <;> omega
    · exact mem_largestIn l _ a h

theorem val_tag {a : UAtom} {t : ITy} {n : Int} (h : a.val = some (t.val n)) : a.tag = t.tag := by
  obtain ⟨tag, al, w⟩ := a
  exact (raw_mod t tag al w n h).1

theorem mem_vals {a : Ar} {l : List (ITy × Int)} (h : Holds a (intVals l)) {x : UAtom} (hx : x ∈ a.getD []) : ∃ p ∈ l, x.val = some (p.1.val p.2) := by
  obtain ⟨i, hi⟩ := List.getElem?_of_mem hx
  have hl := ((argsVal_iff _ _).mp h).1
  have h1 : i < (intVals l).length := by rw [← hl]; exact (List.getElem?_eq_some_iff.mp hi).1
  have h2 := ((argsVal_iff _ _).mp h).2 i h1
  simp only [vat, hi, Option.bind_some] at h2
  simp only [intVals, List.length_map] at h1
  simp only [intVals, List.getElem?_map, List.getElem?_eq_getElem h1, Option.map_some] at h2
  exact ⟨l[i], List.getElem_mem h1, h2⟩

theorem vals_mem {a : Ar} {l : List (ITy × Int)} (h : Holds a (intVals l)) {p : ITy × Int} (hp : p ∈ l) : ∃ x ∈ a.getD [], x.val = some (p.1.val p.2) := by
  obtain ⟨i, hi⟩ := List.getElem?_of_mem hp
  obtain ⟨x, h1, h2⟩ := holds_at h (i := i) (v := p.1.val p.2) (by simp [intVals, hi])
  exact ⟨x, List.mem_of_getElem? h1, h2⟩

theorem const_le {s t : ITy} (h : ITy.le s t) : typesConst s.tag ≤ typesConst t.tag := by
  revert h
  cases s <;> cases t <;> simp [ITy.le, ITy.width, ITy.signed, ITy.tag, typesConst]

theorem largest_spec {a b : Ar} {l m : List (ITy × Int)} (ha : Holds a (intVals l)) (hb : Holds b (intVals m)) {t : ITy}
    (ht : t ∈ (l ++ m).map (·.1)) (hm : ∀ p ∈ l ++ m, ITy.le p.1 t) : getLargestType [a.getD [], b.getD []] = some t.tag := by
  have h1 : [a.getD [], b.getD []].foldl largestIn 0 = typesConst t.tag := by
    simp only [List.foldl_cons, List.foldl_nil]
    apply Nat.le_antisymm
    · apply largestIn_le
      · apply largestIn_le _ _ _ (Nat.zero_le _)
        intro x hx
        obtain ⟨p, hp, hv⟩ := mem_vals ha hx
        rw [val_tag hv]
        exact const_le (hm p (by simp [hp]))
      · intro x hx
        obtain ⟨p, hp, hv⟩ := mem_vals hb hx
        rw [val_tag hv]
        exact const_le (hm p (by simp [hp]))
    · obtain ⟨p, hp, rfl⟩ := List.mem_map.mp ht
      rcases List.mem_append.mp hp with hp | hp
      · obtain ⟨x, hx, hv⟩ := vals_mem ha hp
        rw [← val_tag hv]
        exact Nat.le_trans (mem_largestIn _ _ _ hx) (le_largestIn _ _)
      · obtain ⟨x, hx, hv⟩ := vals_mem hb hp
        rw [← val_tag hv]
        exact mem_largestIn _ _ _ hx
  rw [getLargestType, h1]
  cases t <;> rfl

/-! ## And and or -/

theorem onBits_congr (t : ITy) (op : Nat → Nat → Nat) (x y x' y' : Int) (hx : t.val x = t.val x') (hy : t.val y = t.val y') : onBits t op x y = onBits t op x' y' := by
  simp only [ITy.val, Val.num.injEq, true_and] at hx hy
  simp only [onBits, hx, hy]

theorem isInt_tag (t : ITy) : isInt t.tag = true := by cases t <;> rfl

/-- On two lists of integers, the operator is applied to the bits of the first elements, in the largest type `t` of all the elements; the result has
this type, but for unsigned 8-bit integers. -/
theorem bitOp_spec (op : Nat → Nat → Nat) (a b : Ar) (s1 s2 : ITy) (n1 n2 : Int) (l m : List (ITy × Int))
    (ha : Holds a (intVals ((s1, n1) :: l))) (hb : Holds b (intVals ((s2, n2) :: m))) (h1 : s1.has n1) (h2 : s2.has n2) (t : ITy)
    (ht : t ∈ ((s1, n1) :: l ++ (s2, n2) :: m).map (·.1)) (hm : ∀ p ∈ (s1, n1) :: l ++ (s2, n2) :: m, ITy.le p.1 t) :
    ∃ out, bitOp op [a, b] = some (0, some out) ∧
      Holds (some out) [(if t = .u8 then ITy.i8 else t).val (op (bitsOf t n1) (bitsOf t n2))] := by
  obtain ⟨x, hx, hxv⟩ := holds_at ha (i := 0) (v := s1.val n1) rfl
  obtain ⟨y, hy, hyv⟩ := holds_at hb (i := 0) (v := s2.val n2) rfl
  have hl := largest_spec ha hb ht hm
  have htypes : bitTypes t.tag = some (t, if t = .u8 then ITy.i8 else t) := by cases t <;> rfl
  have gx := (getU_val s1 t x n1 h1 hxv).1
  have gy := (getU_val s2 t y n2 h2 hyv).1
  have hcv : ∀ n : Int, t.val (t.conv n) = t.val n := by
    intro n
    cases t <;> simp only [ITy.val, ITy.conv, ITy.signed, ITy.width, ITy.tag, Val.num.injEq, true_and, if_true, Bool.false_eq_true, if_false] <;>
      first
      | (rw [Int.bmod_emod]; done)
      | omega
  obtain ⟨u, g1, g2⟩ := setU_fresh (if t = .u8 then ITy.i8 else t) (onBits t op n1 n2)
  refine ⟨[u], ?_, ?_⟩
  · simp only [bitOp, hx, hy, val_tag hxv, val_tag hyv, isInt_tag, hl, Option.bind_some, htypes, gx, gy]
    rw [onBits_congr t op _ _ n1 n2 (hcv n1) (hcv n2)]
    have : setTo (mk 1) 0 (fun d => setU (if t = .u8 then ITy.i8 else t) d (onBits t op n1 n2)) = some [u] := by
      simp [setTo, mk, g1]
    rw [this]
    rfl
  · simp only [Holds, Option.getD_some, argsVal, g2]
    rfl

/-- `and` and `or` of the first numbers of two lists are the bitwise operations in the type of the largest number, but for unsigned 8-bit integers. -/
theorem C58_bits_partial (a b : Ar) (s1 s2 : ITy) (n1 n2 : Int) (l m : List (ITy × Int))
    (ha : Holds a (intVals ((s1, n1) :: l))) (hb : Holds b (intVals ((s2, n2) :: m))) (h1 : s1.has n1) (h2 : s2.has n2) (t : ITy)
    (ht : t ∈ ((s1, n1) :: l ++ (s2, n2) :: m).map (·.1)) (hm : ∀ p ∈ (s1, n1) :: l ++ (s2, n2) :: m, ITy.le p.1 t) (hu : t ≠ .u8) :
    (∃ out, bitAnd [a, b] = some (0, some out) ∧ Holds (some out) [t.val ((bitsOf t n1 &&& bitsOf t n2 : Nat) : Int)]) ∧
    ∃ out, bitOr [a, b] = some (0, some out) ∧ Holds (some out) [t.val ((bitsOf t n1 ||| bitsOf t n2 : Nat) : Int)] := by
  have k1 := bitOp_spec (· &&& ·) a b s1 s2 n1 n2 l m ha hb h1 h2 t ht hm
  have k2 := bitOp_spec (· ||| ·) a b s1 s2 n1 n2 l m ha hb h1 h2 t ht hm
  rw [if_neg hu] at k1 k2
  exact ⟨k1, k2⟩

/-- `and` of a negative 16-bit number and an unsigned 8-bit one, with a larger element behind the first. -/
example : ∃ out, bitAnd [some [.mk 117 false (.bits 65535), .mk 73 false (.bits 7)], some [.mk 67 false (.bits 255)]] = some (0, some out) ∧
    Holds (some out) [.num 73 255] := by
  have h := (C58_bits_partial (some [.mk 117 false (.bits 65535), .mk 73 false (.bits 7)]) (some [.mk 67 false (.bits 255)]) .i16 .u8 (-1) 255
    [(.u32, 7)] [] (by simp [intVals, Holds, argsVal, UAtom.val, ITy.val, ITy.tag, ITy.width, W.raw, M16, M32])
    (by simp [intVals, Holds, argsVal, UAtom.val, ITy.val, ITy.tag, ITy.width, W.raw, M8]) (by simp [ITy.has, ITy.signed, ITy.width])
    (by simp [ITy.has, ITy.signed, ITy.width]) .u32 (by simp) (by simp [ITy.le, ITy.width]) (by decide)).1
  simpa [ITy.val, ITy.tag, ITy.width, bitsOf] using h

/-- The results of `and` and `or` of unsigned 8-bit integers are signed. -/
theorem C58_bits_uint8_fails (a b : Ar) (n1 n2 : Int) (ha : Holds a [ITy.u8.val n1]) (hb : Holds b [ITy.u8.val n2])
    (h1 : ITy.u8.has n1) (h2 : ITy.u8.has n2) :
    (∃ out, bitAnd [a, b] = some (0, some out) ∧ Holds (some out) [ITy.i8.val ((bitsOf .u8 n1 &&& bitsOf .u8 n2 : Nat) : Int)]) ∧
    ∃ out, bitOr [a, b] = some (0, some out) ∧ Holds (some out) [ITy.i8.val ((bitsOf .u8 n1 ||| bitsOf .u8 n2 : Nat) : Int)] :=
  ⟨bitOp_spec (· &&& ·) a b .u8 .u8 n1 n2 [] [] ha hb h1 h2 .u8 (by simp) (by simp [ITy.le]),
   bitOp_spec (· ||| ·) a b .u8 .u8 n1 n2 [] [] ha hb h1 h2 .u8 (by simp) (by simp [ITy.le])⟩

/-- As it was claimed: the result has the larger type of the two numbers. -/
theorem C58_full_fails : ¬ ∀ (a b : Ar) (t : ITy) (n1 n2 : Int), Holds a [t.val n1] → Holds b [t.val n2] → t.has n1 → t.has n2 →
    ∃ out, bitAnd [a, b] = some (0, some out) ∧ Holds (some out) [t.val ((bitsOf t n1 &&& bitsOf t n2 : Nat) : Int)] := by
  intro h
  have h8 : ITy.u8.has 255 := by simp [ITy.has, ITy.signed, ITy.width]
  obtain ⟨out, h1, h2⟩ := h (some [.mk 67 false (.bits 255)]) (some [.mk 67 false (.bits 255)]) .u8 255 255 rfl rfl h8 h8
  obtain ⟨out', h3, h4⟩ := (C58_bits_uint8_fails (some [.mk 67 false (.bits 255)]) (some [.mk 67 false (.bits 255)]) 255 255 rfl rfl h8 h8).1
  rw [h1] at h3
  cases h3
  rw [Holds] at h2 h4
  rw [h2] at h4
  simp [ITy.val, ITy.tag] at h4

/-- Anything but an integer in the first place is refused. -/
theorem C58_bits_refused (a b : Ar) (v w : Val) (vs ws : List Val) (ha : Holds a (v :: vs)) (hb : Holds b (w :: ws))
    (h : (∀ (t : ITy) n, v ≠ .num t.tag n) ∨ (∀ (t : ITy) n, w ≠ .num t.tag n)) : bitAnd [a, b] = some (1, none) ∧ bitOr [a, b] = some (1, none) := by
  obtain ⟨x, hx, hxv⟩ := holds_at ha (i := 0) (v := v) rfl
  obtain ⟨y, hy, hyv⟩ := holds_at hb (i := 0) (v := w) rfl
  have key : ∀ (x : UAtom) (v : Val), x.val = some v → (∀ (t : ITy) n, v ≠ .num t.tag n) → isInt x.tag = false := by
    intro x v hx hv
    obtain ⟨tag, al, w⟩ := x
    cases e : isInt tag with
    | false => exact e
    | true =>
      exfalso
      simp only [isInt, Bool.or_eq_true, beq_iff_eq] at e
      rcases e with ((((((e | e) | e) | e) | e) | e) | e) | e <;> subst e
      · exact hv .i32 _ (by simpa [UAtom.val, ITy.tag] using hx.symm)
      · exact hv .u32 _ (by simpa [UAtom.val, ITy.tag] using hx.symm)
      · exact hv .i64 _ (by simpa [UAtom.val, ITy.tag] using hx.symm)
      · exact hv .u64 _ (by simpa [UAtom.val, ITy.tag] using hx.symm)
      · exact hv .i16 _ (by simpa [UAtom.val, ITy.tag] using hx.symm)
      · exact hv .u16 _ (by simpa [UAtom.val, ITy.tag] using hx.symm)
      · exact hv .i8 _ (by simpa [UAtom.val, ITy.tag] using hx.symm)
      · exact hv .u8 _ (by simpa [UAtom.val, ITy.tag] using hx.symm)
  simp only [bitAnd, bitOr, bitOp, hx, hy]
  rcases h with h | h
  · rw [key x v hxv h]; exact ⟨rfl, rfl⟩
  · rw [key y w hyv h, Bool.not_false, Bool.or_true]; exact ⟨rfl, rfl⟩

example : bitOr [some [.mk 105 false (.bits 1)], some [.mk 84 false (.bits 0)]] = some (1, none) :=
  (C58_bits_refused (some [.mk 105 false (.bits 1)]) (some [.mk 84 false (.bits 0)]) (.num 105 1) (.bare 84) [] [] rfl rfl (.inr (by intro t n h; cases h))).2

/-! ## Byte order -/

/-- The arguments, one after the other. -/
def flat (args : List Ar) : Ar := some (args.flatMap fun a => a.getD [])

theorem swapAll_spec (f : UAtom → UAtom → Option UAtom) (args : List Ar) (vs ws : List Val) (ha : Holds (flat args) vs) (hl : vs.length = ws.length)
    (hf : ∀ (i : Nat) v w x, vs[i]? = some v → ws[i]? = some w → x.val = some v → ∃ u, f x .fresh = some u ∧ u.val = some w) :
    ∃ out, swapAll f args = some (0, some out) ∧ Holds (some out) ws := by
  have hlen : (args.flatMap fun a => a.getD []).length = ws.length := by rw [← hl]; exact holds_len ha
  obtain ⟨out, h1, h2⟩ := forN_set ws (fun k out => ((args.flatMap fun a => a.getD [])[k]?).bind fun a => setTo out k (f a)) (by
    intro i w out hw
    have hi : i < vs.length := by rw [hl]; exact (List.getElem?_eq_some_iff.mp hw).1
    have hv : vs[i]? = some vs[i] := List.getElem?_eq_getElem hi
    obtain ⟨x, hx, hxv⟩ := holds_at ha hv
    have hx : (args.flatMap fun a => a.getD [])[i]? = some x := hx
    obtain ⟨u, g1, g2⟩ := hf i _ w x hv hw hxv
    exact ⟨f x, u, by rw [hx]; rfl, g1, g2⟩)
  refine ⟨out, ?_, h2⟩
  simp only [swapAll, hlen, h1, Option.map_some]

/-- The number with the bytes of `n` in the other order, for numbers of `k` bytes. -/
def Reversed (k : Nat) (n r : Nat) : Prop := r < 256 ^ k ∧ ∀ i, i < k → r / 256 ^ i % 256 = n / 256 ^ (k - 1 - i) % 256

theorem digits_inj : ∀ (k : Nat) (a b : Nat), a < 256 ^ k → b < 256 ^ k → (∀ i, i < k → a / 256 ^ i % 256 = b / 256 ^ i % 256) → a = b
  | 0, a, b, ha, hb, _ => by simp at ha hb; omega
  | k + 1, a, b, ha, hb, h => by
    have h0 := h 0 (by omega)
    rw [Nat.pow_succ] at ha hb
    have := digits_inj k (a / 256) (b / 256) (by omega) (by omega) (fun i hi => by
      have := h (i + 1) (by omega)
      rw [Nat.pow_succ', ← Nat.div_div_eq_div_mul, ← Nat.div_div_eq_div_mul] at this
      exact this)
    simp only [Nat.pow_zero, Nat.div_one] at h0
    omega

/-- There is only one. -/
theorem reversed_unique {k n r r' : Nat} (h : Reversed k n r) (h' : Reversed k n r') : r = r' :=
  digits_inj k r r' h.1 h'.1 (fun i hi => by rw [h.2 i hi, h'.2 i hi])

theorem reversed_symm {k n r : Nat} (hn : n < 256 ^ k) (h : Reversed k n r) : Reversed k r n :=
  ⟨hn, fun i hi => by
    have := h.2 (k - 1 - i) (by omega)
    rw [show k - 1 - (k - 1 - i) = i from by omega] at this
    exact this.symm⟩

theorem byte_eq {a b : Nat} (h : UInt8.ofNat a = UInt8.ofNat b) : a % 256 = b % 256 := by
  have := congrArg UInt8.toNat h
  simpa using this

theorem reversed_swap32 (x : UInt32) : Reversed 4 x.toNat (swap32 x).toNat := by
  refine ⟨(swap32 x).toNat_lt, fun i hi => ?_⟩
  have e := st32_reverse (swap32 x)
  rw [st32_swap, List.reverse_reverse] at e
  have e2 := st32_reverse x
  have e3 : be32 (swap32 x).toNat = (be32 x.toNat).reverse := by rw [← e, ← e2, List.reverse_reverse]
  simp only [be32, List.reverse_cons, List.reverse_nil, List.nil_append, List.cons_append, List.cons.injEq, and_true] at e3
  obtain ⟨b3, b2, b1, b0⟩ := e3
  match i with
  | 0 => simpa using byte_eq b0
  | 1 => simpa using byte_eq b1
  | 2 => simpa using byte_eq b2
  | 3 => simpa using byte_eq b3
  | i + 4 => omega

theorem reversed_swap64 (x : UInt64) : Reversed 8 x.toNat (swap64 x).toNat := by
  refine ⟨(swap64 x).toNat_lt, fun i hi => ?_⟩
  have e := st64_reverse (swap64 x)
  rw [st64_swap, List.reverse_reverse] at e
  have e2 := st64_reverse x
  have e3 : be32 ((swap64 x).toNat / 4294967296) ++ be32 (swap64 x).toNat = (be32 (x.toNat / 4294967296) ++ be32 x.toNat).reverse := by
    rw [← e, ← e2, List.reverse_reverse]
  simp only [be32, List.reverse_append, List.reverse_cons, List.reverse_nil, List.nil_append, List.cons_append, List.cons.injEq, and_true,
    Nat.div_div_eq_div_mul] at e3
  obtain ⟨b7, b6, b5, b4, b3, b2, b1, b0⟩ := e3
  match i with
  | 0 => simpa using byte_eq b0
  | 1 => simpa using byte_eq b1
  | 2 => simpa using byte_eq b2
  | 3 => simpa using byte_eq b3
  | 4 => simpa using byte_eq b4
  | 5 => simpa using byte_eq b5
  | 6 => simpa using byte_eq b6
  | 7 => simpa using byte_eq b7
  | i + 8 => omega

theorem reversed_exists32 (n : Nat) (hn : n < 2 ^ 32) : ∃ r, Reversed 4 n r :=
  ⟨_, by simpa [Nat.mod_eq_of_lt hn] using reversed_swap32 (UInt32.ofNat n)⟩

theorem reversed_exists64 (n : Nat) (hn : n < 2 ^ 64) : ∃ r, Reversed 8 n r :=
  ⟨_, by simpa [Nat.mod_eq_of_lt hn] using reversed_swap64 (UInt64.ofNat n)⟩

theorem swapI32_eq {n : Int} {r : Nat} (h : Reversed 4 (bitsOf .u32 n) r) : swapI32 n = r := by
  have h2 := reversed_swap32 (UInt32.ofNat (bitsOf .u32 n))
  have hb : bitsOf .u32 n < 2 ^ 32 := by simp only [bitsOf, ITy.width]; omega
  rw [UInt32.toNat_ofNat_of_lt' hb] at h2
  have := reversed_unique h2 h
  simp only [swapI32]
  rw [← this]
  rfl

theorem swapI64_eq {n : Int} {r : Nat} (h : Reversed 8 (bitsOf .u64 n) r) : swapI64 n = r := by
  have h2 := reversed_swap64 (UInt64.ofNat (bitsOf .u64 n))
  have hb : bitsOf .u64 n < 2 ^ 64 := by simp only [bitsOf, ITy.width]; omega
  rw [UInt64.toNat_ofNat_of_lt' hb] at h2
  have := reversed_unique h2 h
  simp only [swapI64]
  rw [← this]
  rfl

theorem bitsOf_conv (t g : ITy) (h : t.width ≤ g.width) (n : Int) : bitsOf t (g.conv n) = bitsOf t n := by
  have hd : ((2 ^ t.width : Nat) : Int) ∣ ((2 ^ g.width : Nat) : Int) := by
    rw [Int.natCast_dvd_natCast]; exact Nat.pow_dvd_pow 2 h
  have : g.conv n % ((2 ^ g.width : Nat) : Int) = n % ((2 ^ g.width : Nat) : Int) := by
    unfold ITy.conv
    split
    · exact Int.bmod_emod
    · rw [Int.natCast_pow]; exact Int.emod_emod_of_dvd n (Int.dvd_refl _)
  simp only [bitsOf]
  rw [← Int.emod_emod_of_dvd _ hd, this, Int.emod_emod_of_dvd _ hd]

/-- The type of 32 bits that is signed if `t` is. -/
def to32 (t : ITy) : ITy := if t.signed then .i32 else .u32

/-- The type of 64 bits that is signed if `t` is. -/
def to64 (t : ITy) : ITy := if t.signed then .i64 else .u64

theorem zip_length (l : List (ITy × Int)) (rs : List Nat) (f : ITy × Int → Nat → Val) (h : rs.length = l.length) :
    (intVals l).length = (List.zipWith f l rs).length := by simp [intVals, h]

theorem swap_lists (f : UAtom → UAtom → Option UAtom) (g : ITy → ITy) (args : List Ar) (l : List (ITy × Int)) (rs : List Nat)
    (ha : Holds (flat args) (intVals l)) (hl : rs.length = l.length)
    (hf : ∀ (i : Nat) p r x, l[i]? = some p → rs[i]? = some r → x.val = some (p.1.val p.2) → ∃ u, f x .fresh = some u ∧ u.val = some ((g p.1).val r)) :
    ∃ out, swapAll f args = some (0, some out) ∧ Holds (some out) (List.zipWith (fun p r => (g p.1).val (r : Nat)) l rs) := by
  refine swapAll_spec f args _ _ ha (zip_length l rs _ hl) ?_
  intro i v w x hv hw hx
  have hi : i < l.length := by
    have := (List.getElem?_eq_some_iff.mp hv).1
    simpa [intVals] using this
  have hi' : i < rs.length := by omega
  simp only [intVals, List.getElem?_map, List.getElem?_eq_getElem hi, Option.map_some, Option.some.injEq] at hv
  simp only [List.getElem?_zipWith, List.getElem?_eq_getElem hi, List.getElem?_eq_getElem hi', Option.some.injEq] at hw
  subst hv hw
  exact hf i _ _ x (List.getElem?_eq_getElem hi) (List.getElem?_eq_getElem hi') hx

theorem swapAtom32_spec {p : ITy × Int} {r : Nat} {x : UAtom} (hw : p.1.width ≤ 32) (hn : p.1.has p.2) (hr : Reversed 4 (bitsOf .u32 p.2) r)
    (hx : x.val = some (p.1.val p.2)) : ∃ u, swapAtom32 x .fresh = some u ∧ u.val = some ((to32 p.1).val r) := by
  obtain ⟨t, n⟩ := p
  have ht := val_tag hx
  have hg := (getU_val t (to32 t) x n hn hx).1
  have he : swapI32 ((to32 t).conv n) = r := by
    apply swapI32_eq
    rwa [bitsOf_conv _ _ (by cases t <;> simp [to32, ITy.signed, ITy.width]) n]
  obtain ⟨u, h1, h2⟩ := setU_fresh (to32 t) r
  refine ⟨u, ?_, h2⟩
  simp only [swapAtom32, ht]
  cases t <;> simp only [to32, ITy.signed, if_true, Bool.false_eq_true, if_false] at hg he h1 <;> first
    | simp [ITy.width] at hw; done
    | simp [ITy.tag, hg, he, h1]

theorem htonAtom64_spec {p : ITy × Int} {r : Nat} {x : UAtom} (hn : p.1.has p.2) (hr : Reversed 8 (bitsOf .u64 p.2) r)
    (hx : x.val = some (p.1.val p.2)) : ∃ u, htonAtom64 x .fresh = some u ∧ u.val = some (ITy.u64.val r) := by
  obtain ⟨t, n⟩ := p
  have ht := val_tag hx
  have hg := (getU_val t .u64 x n hn hx).1
  have he : swapI64 (ITy.u64.conv n) = r := by
    apply swapI64_eq
    rwa [bitsOf_conv _ _ (by simp [ITy.width]) n]
  obtain ⟨u, h1, h2⟩ := setU_fresh .u64 r
  refine ⟨u, ?_, h2⟩
  simp only [htonAtom64, ht]
  cases t <;> simp [ITy.tag, hg, he, h1]

theorem ntohAtom64_spec {p : ITy × Int} {r : Nat} {x : UAtom} (hn : p.1.has p.2) (hr : Reversed 8 (bitsOf .u64 p.2) r)
    (hx : x.val = some (p.1.val p.2)) : ∃ u, ntohAtom64 x .fresh = some u ∧ u.val = some ((to64 p.1).val r) := by
  obtain ⟨t, n⟩ := p
  have ht := val_tag hx
  have hg := (getU_val t (to64 t) x n hn hx).1
  have he : swapI64 ((to64 t).conv n) = r := by
    apply swapI64_eq
    rwa [bitsOf_conv _ _ (by cases t <;> simp [to64, ITy.signed, ITy.width]) n]
  obtain ⟨u, h1, h2⟩ := setU_fresh (to64 t) r
  refine ⟨u, ?_, h2⟩
  simp only [ntohAtom64, ht]
  cases t <;> simp only [to64, ITy.signed, if_true, Bool.false_eq_true, if_false] at hg he h1 <;> simp [ITy.tag, hg, he, h1]

/-- `hton32` and `ntoh32` make 32-bit numbers of all the integers of at most 32 bits in the arguments, and put their bytes in the other order. -/
theorem C58_swap32 (args : List Ar) (l : List (ITy × Int)) (rs : List Nat) (ha : Holds (flat args) (intVals l)) (hl : rs.length = l.length)
    (hp : ∀ p ∈ l, p.1.width ≤ 32 ∧ p.1.has p.2) (hr : ∀ (i : Nat) p r, l[i]? = some p → rs[i]? = some r → Reversed 4 (bitsOf .u32 p.2) r) :
    ∃ out, hton32 args = some (0, some out) ∧ ntoh32 args = some (0, some out) ∧
      Holds (some out) (List.zipWith (fun p r => (to32 p.1).val (r : Nat)) l rs) := by
  obtain ⟨out, h1, h2⟩ := swap_lists swapAtom32 to32 args l rs ha hl (fun i p r x h1 h2 h3 =>
    swapAtom32_spec (hp p (List.mem_of_getElem? h1)).1 (hp p (List.mem_of_getElem? h1)).2 (hr i p r h1 h2) h3)
  exact ⟨out, h1, h1, h2⟩

example : ∃ out, hton32 [some [.mk 105 false (.bits 66051)], some [.mk 67 false (.bits 5)]] = some (0, some out) ∧
    Holds (some out) [.num 105 50462976, .num 73 83886080] := by
  obtain ⟨out, h1, -, h2⟩ := C58_swap32 [some [.mk 105 false (.bits 66051)], some [.mk 67 false (.bits 5)]] [(.i32, 66051), (.u8, 5)] [50462976, 83886080]
    rfl rfl (by simp [ITy.width, ITy.has, ITy.signed]) (by
    intro i p r hp hr
    match i with
    | 0 => cases hp; cases hr; exact ⟨by decide, by decide⟩
    | 1 => cases hp; cases hr; exact ⟨by decide, by decide⟩
    | i + 2 => simp at hp)
  exact ⟨out, h1, by simpa [to32, ITy.signed, ITy.val, ITy.tag, ITy.width] using h2⟩

/-- `hton64` makes unsigned 64-bit numbers, `ntoh64` signed ones of signed integers. -/
theorem C58_swap64 (args : List Ar) (l : List (ITy × Int)) (rs : List Nat) (ha : Holds (flat args) (intVals l)) (hl : rs.length = l.length)
    (hp : ∀ p ∈ l, p.1.has p.2) (hr : ∀ (i : Nat) p r, l[i]? = some p → rs[i]? = some r → Reversed 8 (bitsOf .u64 p.2) r) :
    (∃ out, hton64 args = some (0, some out) ∧ Holds (some out) (List.zipWith (fun _ r => ITy.u64.val (r : Nat)) l rs)) ∧
    ∃ out, ntoh64 args = some (0, some out) ∧ Holds (some out) (List.zipWith (fun p r => (to64 p.1).val (r : Nat)) l rs) :=
  ⟨swap_lists htonAtom64 (fun _ => .u64) args l rs ha hl (fun i p r x h1 h2 h3 => htonAtom64_spec (hp p (List.mem_of_getElem? h1)) (hr i p r h1 h2) h3),
   swap_lists ntohAtom64 to64 args l rs ha hl (fun i p r x h1 h2 h3 => ntohAtom64_spec (hp p (List.mem_of_getElem? h1)) (hr i p r h1 h2) h3)⟩

theorem revs (k : Nat) (P : Nat → Prop) (hex : ∀ n, P n → ∃ r, Reversed k n r) : ∀ l : List Nat, (∀ n ∈ l, P n) → ∃ rs : List Nat, rs.length = l.length ∧
    ∀ (i : Nat) n r, l[i]? = some n → rs[i]? = some r → Reversed k n r
  | [], _ => ⟨[], rfl, by simp⟩
  | n :: l, h => by
    obtain ⟨r, hr⟩ := hex n (h n (by simp))
    obtain ⟨rs, h1, h2⟩ := revs k P hex l (fun m hm => h m (by simp [hm]))
    refine ⟨r :: rs, by simp [h1], fun i m s hm hs => ?_⟩
    cases i with
    | zero => cases hm; cases hs; exact hr
    | succ i => exact h2 i m s hm hs

theorem val_bits (t : ITy) (n : Int) : t.val n = t.val (bitsOf t n) := by
  have h : 0 ≤ n % (2 ^ t.width : Nat) := Int.emod_nonneg _ (by have := Nat.two_pow_pos t.width; omega)
  simp only [ITy.val, bitsOf, Int.toNat_of_nonneg h]
  rw [Int.emod_emod_of_dvd _ (Int.dvd_refl _)]

theorem bits_conv_has (t : ITy) (n : Int) : t.has (t.conv n) ∧ t.val (t.conv n) = t.val n := by
  constructor
  · cases t <;> simp only [ITy.has, ITy.conv, ITy.signed, ITy.width, if_true, Bool.false_eq_true, if_false] <;> first
      | (constructor
         · have := @Int.le_bmod n (2 ^ 8) (by decide); simpa using this
         · have := @Int.bmod_lt n (2 ^ 8) (by decide); simpa using this)
      | (constructor
         · have := @Int.le_bmod n (2 ^ 16) (by decide); simpa using this
         · have := @Int.bmod_lt n (2 ^ 16) (by decide); simpa using this)
      | (constructor
         · have := @Int.le_bmod n (2 ^ 32) (by decide); simpa using this
         · have := @Int.bmod_lt n (2 ^ 32) (by decide); simpa using this)
      | (constructor
         · have := @Int.le_bmod n (2 ^ 64) (by decide); simpa using this
         · have := @Int.bmod_lt n (2 ^ 64) (by decide); simpa using this)
      | omega
  · rw [val_bits, bitsOf_conv t t (Nat.le_refl _), ← val_bits]

/-- Swapping twice: `g1` and `g2` are the types of the results. -/
theorem swap_twice (f1 f2 : UAtom → UAtom → Option UAtom) (g1 g2 : ITy → ITy) (k : Nat) (u : ITy) (hu : u.width = 8 * k) (ok : ITy × Int → Prop)
    (hw : ∀ t, (g1 t).width = 8 * k ∧ (g2 t).width = 8 * k) (hex : ∀ n, n < 256 ^ k → ∃ r, Reversed k n r) (hok : ∀ t n, (g1 t).has n → ok (g1 t, n))
    (h1 : ∀ (p : ITy × Int) r x, ok p → Reversed k (bitsOf u p.2) r → x.val = some (p.1.val p.2) → ∃ y, f1 x .fresh = some y ∧ y.val = some ((g1 p.1).val r))
    (h2 : ∀ (p : ITy × Int) r x, ok p → Reversed k (bitsOf u p.2) r → x.val = some (p.1.val p.2) → ∃ y, f2 x .fresh = some y ∧ y.val = some ((g2 p.1).val r))
    (args : List Ar) (l : List (ITy × Int)) (ha : Holds (flat args) (intVals l)) (hp : ∀ p ∈ l, ok p) :
    ∃ out out', swapAll f1 args = some (0, some out) ∧ swapAll f2 [some out] = some (0, some out') ∧
      Holds (some out') (l.map fun p => (g2 (g1 p.1)).val p.2) := by
  have h256 : 256 ^ k = 2 ^ (8 * k) := by rw [Nat.pow_mul]
  have hbl : ∀ n : Int, bitsOf u n < 256 ^ k := by
    intro n
    have h := Int.emod_lt_of_pos n (b := ((2 ^ u.width : Nat) : Int)) (by have := Nat.two_pow_pos u.width; omega)
    have h' : 0 ≤ n % ((2 ^ u.width : Nat) : Int) := Int.emod_nonneg _ (by have := Nat.two_pow_pos u.width; omega)
    rw [h256, ← hu]
    simp only [bitsOf]
    omega
  have hbits : ∀ (t : ITy) (n : Int), t.width = 8 * k → bitsOf t n = bitsOf u n := by
    intro t n ht
    simp only [bitsOf, ht, hu]
  obtain ⟨rs, hl, hr⟩ := revs k (· < 256 ^ k) hex (l.map fun p => bitsOf u p.2) (by
    intro n hn
    obtain ⟨p, _, rfl⟩ := List.mem_map.mp hn
    exact hbl _)
  simp only [List.length_map] at hl
  have hr : ∀ (i : Nat) p r, l[i]? = some p → rs[i]? = some r → Reversed k (bitsOf u p.2) r := fun i p r hp hr' =>
    hr i _ r (by simp [hp]) hr'
  obtain ⟨out, e1, e2⟩ := swap_lists f1 g1 args l rs ha hl (fun i p r x a b c => h1 p r x (hp p (List.mem_of_getElem? a)) (hr i p r a b) c)
  have e3 : List.zipWith (fun p r => (g1 p.1).val (r : Nat)) l rs = intVals (List.zipWith (fun p r => (g1 p.1, (g1 p.1).conv (r : Nat))) l rs) := by
    rw [intVals, List.map_zipWith]
    congr 1
    funext p r
    exact (bits_conv_has _ _).2.symm
  rw [e3] at e2
  have e2' : Holds (flat [some out]) (intVals (List.zipWith (fun p r => (g1 p.1, (g1 p.1).conv (r : Nat))) l rs)) := by
    simpa [flat, Holds] using e2
  have hget : ∀ (i : Nat) p r, (List.zipWith (fun p r => (g1 p.1, (g1 p.1).conv (r : Nat))) l rs)[i]? = some p →
      (l.map fun p => bitsOf u p.2)[i]? = some r → ∃ q s, l[i]? = some q ∧ rs[i]? = some s ∧ p = (g1 q.1, (g1 q.1).conv (s : Nat)) ∧ r = bitsOf u q.2 := by
    intro i p r ha hb
    rw [List.getElem?_zipWith] at ha
    cases hq : l[i]? with
    | none => simp [hq] at ha
    | some q =>
      cases hs : rs[i]? with
      | none => simp [hq, hs] at ha
      | some s =>
        simp only [hq, hs, Option.some.injEq] at ha
        simp only [List.getElem?_map, hq, Option.map_some, Option.some.injEq] at hb
        exact ⟨q, s, rfl, rfl, ha.symm, hb.symm⟩
  obtain ⟨out', e4, e5⟩ := swap_lists f2 g2 [some out] _ (l.map fun p => bitsOf u p.2) e2' (by simp [hl]) (fun i p r x a b c => by
    obtain ⟨q, s, hq, hs, rfl, rfl⟩ := hget i p r a b
    refine h2 _ _ x (hok _ _ (bits_conv_has _ _).1) ?_ c
    have hrev := hr i q s hq hs
    have : bitsOf u ((g1 q.1).conv (s : Nat)) = s := by
      rw [bitsOf_conv u (g1 q.1) (by rw [hu, (hw q.1).1]; exact Nat.le_refl _)]
      have := hrev.1
      rw [h256, ← hu] at this
      simp only [bitsOf]
      rw [← Int.natCast_emod, Int.toNat_natCast, Nat.mod_eq_of_lt this]
    simp only [this]
    exact reversed_symm (hbl _) hrev)
  refine ⟨out, out', e1, e4, ?_⟩
  have : List.zipWith (fun p r => (g2 p.1).val (r : Nat)) (List.zipWith (fun p r => (g1 p.1, (g1 p.1).conv (r : Nat))) l rs) (l.map fun p => bitsOf u p.2) =
      l.map fun p => (g2 (g1 p.1)).val p.2 := by
    apply List.ext_getElem?
    intro i
    rw [List.getElem?_zipWith, List.getElem?_zipWith, List.getElem?_map, List.getElem?_map]
    cases hq : l[i]? with
    | none => simp
    | some q =>
      have hi : i < rs.length := by rw [hl]; exact (List.getElem?_eq_some_iff.mp hq).1
      simp only [List.getElem?_eq_getElem hi, Option.map_some, Option.some.injEq]
      rw [← hbits _ _ (hw (g1 q.1)).2, ← val_bits]
  rwa [this] at e5

/-- `ntoh32` takes back what `hton32` does to integers of at most 32 bits; they become 32-bit numbers. -/
theorem C58_roundtrip32 (args : List Ar) (l : List (ITy × Int)) (ha : Holds (flat args) (intVals l)) (hp : ∀ p ∈ l, p.1.width ≤ 32 ∧ p.1.has p.2) :
    ∃ out out', hton32 args = some (0, some out) ∧ ntoh32 [some out] = some (0, some out') ∧ Holds (some out') (l.map fun p => (to32 p.1).val p.2) := by
  have h := swap_twice swapAtom32 swapAtom32 to32 to32 4 .u32 rfl (fun p => p.1.width ≤ 32 ∧ p.1.has p.2) (by intro t; cases t <;> exact ⟨rfl, rfl⟩)
    (fun n hn => reversed_exists32 n hn) (fun t n h => ⟨by show (to32 t).width ≤ 32; cases t <;> decide, h⟩) (fun p r x h1 h2 h3 => swapAtom32_spec h1.1 h1.2 h2 h3)
    (fun p r x h1 h2 h3 => swapAtom32_spec h1.1 h1.2 h2 h3) args l ha hp
  have e : ∀ t, to32 (to32 t) = to32 t := by intro t; cases t <;> rfl
  simp only [e] at h
  exact h

/-- `ntoh64` takes back what `hton64` does to the bits of the numbers, but all of them come back unsigned. -/
theorem C58_roundtrip64_partial (args : List Ar) (l : List (ITy × Int)) (ha : Holds (flat args) (intVals l)) (hp : ∀ p ∈ l, p.1.has p.2) :
    ∃ out out', hton64 args = some (0, some out) ∧ ntoh64 [some out] = some (0, some out') ∧ Holds (some out') (l.map fun p => ITy.u64.val p.2) :=
  swap_twice htonAtom64 ntohAtom64 (fun _ => .u64) to64 8 .u64 rfl (fun p => p.1.has p.2) (by intro t; cases t <;> exact ⟨rfl, rfl⟩)
    (fun n hn => reversed_exists64 n hn) (fun t n h => h) (fun p r x h1 h2 h3 => htonAtom64_spec h1 h2 h3)
    (fun p r x h1 h2 h3 => ntohAtom64_spec h1 h2 h3) args l ha hp

/-- A negative number comes back as a large one. -/
theorem C58_roundtrip64_fails : ¬ ∀ (args : List Ar) (l : List (ITy × Int)), Holds (flat args) (intVals l) → (∀ p ∈ l, p.1.has p.2) →
    ∃ out out', hton64 args = some (0, some out) ∧ ntoh64 [some out] = some (0, some out') ∧ Holds (some out') (l.map fun p => (to64 p.1).val p.2) := by
  intro h
  have h0 : Holds (flat [some [.mk 105 false (.bits 4294967295)]]) (intVals [(.i32, -1)]) := by
    simp [flat, intVals, Holds, argsVal, UAtom.val, ITy.val, ITy.tag, ITy.width, W.raw, M32]
  have h1 : ∀ p ∈ [(ITy.i32, (-1 : Int))], p.1.has p.2 := by simp [ITy.has, ITy.signed, ITy.width]
  obtain ⟨out, out', a1, a2, a3⟩ := h _ _ h0 h1
  obtain ⟨o, o', b1, b2, b3⟩ := C58_roundtrip64_partial _ _ h0 h1
  rw [a1] at b1; cases b1
  rw [a2] at b2; cases b2
  rw [Holds] at a3 b3
  rw [a3] at b3
  simp [ITy.val, ITy.tag, to64, ITy.signed] at b3

/-- Everything else is replaced by an element without a value, and 64-bit integers are too by `hton32`. -/
theorem C58_swap_other_fails (al : Bool) (tag : UInt8) (w : W) (h : tag ∉ [99, 117, 105, 67, 85, 73]) : hton32 [some [.mk tag al w]] = some (0, some [.fresh]) := by
  simp only [List.mem_cons, List.not_mem_nil, or_false, not_or] at h
  have : swapAtom32 (.mk tag al w) .fresh = some .fresh := by
    simp [swapAtom32, UAtom.tag, h]
  simp [hton32, swapAll, forN, List.range_succ, setTo, mk, this]

example : (104 : UInt8) ∉ [99, 117, 105, 67, 85, 73] := by decide

end Libo.Props
