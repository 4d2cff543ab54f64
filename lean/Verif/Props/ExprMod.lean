import Verif.Props.ExprRound
/-!
# C68: remainders and arithmetic sequences of integers

The code computes them with `double`s; for integers the results are nevertheless exact.
-/

namespace Libo.Props
open Libo Libo.Expr Libo.Ieee

/-! ## Whole numbers among the `double`s -/

theorem rounded_one {neg : Bool} {n : Nat} {z : Fp} (h : Rounded f64 neg n 1 z) (hg : Grid 53 n) (ht : n < 2 ^ 2098) : z = .fin neg n :=
  Fp.rounded_exact f64 neg n 1 (by decide) hg ht z (by rw [Nat.mul_one]; exact h)

theorem stands_diff {a b : Int} {x y z : Fp} (hx : Stands a x) (hy : Stands b y) (hz : DiffOf f64 x y z) (h : (a - b).natAbs ≤ 2 ^ 53) :
    Stands (a - b) z := by
  obtain ⟨s, k, rfl, rfl⟩ := hx
  obtain ⟨t, l, rfl, rfl⟩ := hy
  obtain ⟨h1, h2⟩ := hz
  rw [value_mul, value_mul] at h1 h2
  obtain ⟨g1, g2⟩ := stands_grid h
  have hK : 0 < 2 ^ 1074 := Nat.two_pow_pos 1074
  have e : ∀ K : Nat, value s k * (K : Int) - value t l * K = (value s k - value t l) * K := fun K => (Int.sub_mul _ _ _).symm
  rw [e] at h1 h2
  generalize hd : value s k - value t l = d at *
  by_cases h0 : d = 0
  · refine ⟨s && !t, 0, ?_, ?_⟩
    · rw [h1 (by rw [h0, Int.zero_mul]), Nat.zero_mul]
    · rw [h0]; cases (s && !t) <;> rfl
  · refine ⟨decide (d < 0), d.natAbs, ?_, ?_⟩
    · have hne : d * ((2 ^ 1074 : Nat) : Int) ≠ 0 := Int.mul_ne_zero h0 (by generalize 2 ^ 1074 = K at *; omega)
      have h3 := h2 hne
      rw [(scaled_sign d _ hK).1, (scaled_sign d _ hK).2] at h3
      exact rounded_one h3 g1 g2
    · have := exact_value d 1; simpa using this

theorem neg_value (s : Bool) (m : Nat) : value (!s) m = -value s m := by cases s <;> simp [value]

theorem stands_neg {a : Int} {x : Fp} (hx : Stands a x) : Stands (-a) x.neg := by
  obtain ⟨s, k, rfl, rfl⟩ := hx
  exact ⟨!s, k, rfl, neg_value s k⟩

theorem stands_add {a b : Int} {x y : Fp} (hx : Stands a x) (hy : Stands b y) (h : (a + b).natAbs ≤ 2 ^ 53) : Stands (a + b) (Fp.add f64 x y) := by
  have h1 := stands_diff hx (stands_neg hy) (Fp.diff_of f64 (by decide) x y.neg) (by rw [Int.sub_neg]; exact h)
  rw [Int.sub_neg, Fp.sub, neg_neg] at h1
  exact h1

theorem stands_sub {a b : Int} {x y : Fp} (hx : Stands a x) (hy : Stands b y) (h : (a - b).natAbs ≤ 2 ^ 53) : Stands (a - b) (Fp.sub f64 x y) :=
  stands_diff hx hy (Fp.diff_of f64 (by decide) x y) h

theorem stands_mul {a b : Int} {x y : Fp} (hx : Stands a x) (hy : Stands b y) (h : (a * b).natAbs ≤ 2 ^ 53) : Stands (a * b) (Fp.mul f64 x y) :=
  stands_product hx hy (Fp.product_of f64 (by decide) x y) h

theorem stands_abs {a : Int} {x : Fp} (hx : Stands a x) : Stands a.natAbs x.abs := by
  obtain ⟨s, k, rfl, rfl⟩ := hx
  exact ⟨false, k, rfl, by cases s <;> simp [value]⟩

theorem scale_lt (a b : Int) (K : Nat) (hK : 0 < K) : a * (K : Int) < b * K ↔ a < b := by
  have hc : (0 : Int) < K := Int.natCast_pos.mpr hK
  exact ⟨fun q => Int.lt_of_mul_lt_mul_right q (Int.le_of_lt hc), fun q => Int.mul_lt_mul_of_pos_right q hc⟩

theorem stands_compare {a b : Int} {x y : Fp} (hx : Stands a x) (hy : Stands b y) : Fp.lt x y = decide (a < b) ∧ Fp.eq x y = decide (a = b) := by
  obtain ⟨s, k, rfl, rfl⟩ := hx
  obtain ⟨t, l, rfl, rfl⟩ := hy
  have hK : 0 < 2 ^ 1074 := Nat.two_pow_pos 1074
  have e : ∀ s k, Fp.signed s k = value s k := fun _ _ => rfl
  simp only [Fp.lt, Fp.eq, Fp.le, e, value_mul]
  generalize 2 ^ 1074 = K at *
  have h1 := scale_lt (value s k) (value t l) K hK
  have h2 := scale_lt (value t l) (value s k) K hK
  generalize value s k = a at *
  generalize value t l = b at *
  refine ⟨decide_eq_decide.mpr h1, ?_⟩
  rw [Bool.eq_iff_iff]
  simp only [Bool.and_eq_true, decide_eq_true_iff]
  omega

theorem stands_zero : Stands 0 (.fin false 0) := ⟨false, 0, by rw [Nat.zero_mul], rfl⟩

theorem stands_sign {a : Int} {x : Fp} (hx : Stands a x) : signOf x = a.sign := by
  obtain ⟨h1, h2⟩ := stands_compare hx stands_zero
  rw [signOf, h1, h2]
  simp only [decide_eq_true_iff]
  split
  · rename_i h; rw [h]; rfl
  · split
    · rename_i h; exact (Int.sign_eq_neg_one_of_neg h).symm
    · exact (Int.sign_eq_one_of_pos (by omega)).symm

/-! ## The quotient of two whole numbers -/

theorem pow_above (d : Nat) (hd : 0 < d) : ∃ k, d ≤ 2 ^ k ∧ 2 ^ k < 2 * d := by
  by_cases h1 : d = 1
  · exact ⟨0, by omega, by omega⟩
  · refine ⟨Nat.log2 (d - 1) + 1, ?_, ?_⟩
    · have := Fp.lt_pow_log2 (d - 1); omega
    · have := Nat.log2_self_le (n := d - 1) (by omega)
      rw [Nat.pow_succ]; omega

/-- Rounding a quotient of integers neither reaches nor passes a whole number. -/
theorem round_between (a d v : Nat) (hd : 0 < d) (h : a + d ≤ 2 ^ 52) (hv : Nearest 53 v (a * 2 ^ 1074) d) :
    v / 2 ^ 1074 = a / d ∧ (v % 2 ^ 1074 = 0 ↔ a % d = 0) := by
  have hK : 0 < 2 ^ 1074 := Nat.two_pow_pos 1074
  have ev : v = Fp.roundDiv 53 (a * 2 ^ 1074) d :=
    Fp.nearest_unique 53 _ _ _ d (by decide) hd hv (Fp.roundDiv_nearest 53 _ d (by decide) hd)
  have hdm := Nat.div_add_mod a d
  have hml := Nat.mod_lt a hd
  by_cases h0 : a % d = 0
  · have e : a * 2 ^ 1074 = a / d * 2 ^ 1074 * d := by
      rw [h0, Nat.add_zero] at hdm
      generalize 2 ^ 1074 = K
      rw [Nat.mul_right_comm, Nat.mul_comm (a / d), hdm]
    have hg : Grid 53 (a / d * 2 ^ 1074) := (stands_grid (Nat.le_trans (Nat.div_le_self a d) (by
      have : (2 : Nat) ^ 52 ≤ 2 ^ 53 := by decide
      omega))).1
    rw [e, Fp.roundDiv_exact 53 _ d (by decide) hd hg] at ev
    rw [ev, Nat.mul_div_cancel _ hK, Nat.mul_mod_left]
    exact ⟨rfl, fun _ => h0, fun _ => rfl⟩
  · obtain ⟨k, hk1, hk2⟩ := pow_above d hd
    generalize hq : a / d = q at *
    generalize hr : a % d = r at *
    have hk : k ≤ 1074 := by
      have : 2 ^ k < 2 ^ 53 := by
        have : (2 : Nat) ^ 53 = 2 * 2 ^ 52 := by decide
        omega
      have := (Nat.pow_lt_pow_iff_right (a := 2) (by decide)).mp this
      omega
    have hJ : 2 ^ 1074 = 2 ^ k * 2 ^ (1074 - k) := by rw [← Nat.pow_add]; congr 1; omega
    have hJ0 : 0 < 2 ^ (1074 - k) := Nat.two_pow_pos _
    have hqk : (q + 1) * 2 ^ k ≤ 2 ^ 53 := by
      have h1 : (q + 1) * 2 ^ k ≤ (q + 1) * (2 * d) := Nat.mul_le_mul_left _ (Nat.le_of_lt hk2)
      have h2 : (q + 1) * (2 * d) = 2 * (d * q + d) := by
        rw [Nat.mul_left_comm, show (q + 1) * d = d * q + d by rw [Nat.succ_mul, Nat.mul_comm]]
      have : (2 : Nat) ^ 53 = 2 * 2 ^ 52 := by decide
      omega
    have hP : 0 < 2 ^ k := Nat.two_pow_pos k
    have hlo : Grid 53 ((q * 2 ^ k + 1) * 2 ^ (1074 - k)) := by
      by_cases hlt : q * 2 ^ k + 1 < 2 ^ 53
      · exact ⟨_, _, hlt, rfl⟩
      · rw [Nat.succ_mul] at hqk
        have : q * 2 ^ k + 1 = 2 ^ 53 := by omega
        rw [this]
        exact ⟨2 ^ 52, 1 + (1074 - k), by decide, by rw [Nat.pow_add, ← Nat.mul_assoc]⟩
    have hhi : Grid 53 (((q + 1) * 2 ^ k - 1) * 2 ^ (1074 - k)) := by
      refine ⟨_, _, ?_, rfl⟩
      have : 0 < (q + 1) * 2 ^ k := Nat.mul_pos (Nat.succ_pos _) hP
      omega
    have hle : ((q * 2 ^ k + 1) * 2 ^ (1074 - k)) * d ≤ a * 2 ^ 1074 := by
      rw [hJ, ← Nat.mul_assoc, Nat.mul_right_comm]
      refine Nat.mul_le_mul_right _ ?_
      rw [Nat.succ_mul, ← hdm, Nat.add_mul]
      refine Nat.add_le_add (by rw [Nat.mul_right_comm, Nat.mul_comm q d]; exact Nat.le_refl _) ?_
      exact Nat.le_trans hk1 (Nat.le_mul_of_pos_left _ (by omega))
    have hge : a * 2 ^ 1074 ≤ (((q + 1) * 2 ^ k - 1) * 2 ^ (1074 - k)) * d := by
      rw [hJ, ← Nat.mul_assoc, Nat.mul_right_comm _ _ d]
      refine Nat.mul_le_mul_right _ ?_
      rw [Nat.sub_mul, Nat.one_mul]
      refine Nat.le_sub_of_add_le ?_
      have h1 : a * 2 ^ k + 2 ^ k ≤ (q + 1) * 2 ^ k * d := by
        rw [← Nat.succ_mul, Nat.mul_right_comm]
        refine Nat.mul_le_mul_right _ ?_
        rw [Nat.succ_mul, Nat.mul_comm q d]; omega
      omega
    have b1 := Fp.roundDiv_mono 53 _ _ d (by decide) hd hle
    have b2 := Fp.roundDiv_mono 53 _ _ d (by decide) hd hge
    rw [Fp.roundDiv_exact 53 _ d (by decide) hd hlo, ← ev] at b1
    rw [Fp.roundDiv_exact 53 _ d (by decide) hd hhi, ← ev] at b2
    have c1 : q * 2 ^ 1074 < v := by
      refine Nat.lt_of_lt_of_le ?_ b1
      rw [hJ, ← Nat.mul_assoc]
      exact Nat.mul_lt_mul_of_pos_right (Nat.lt_succ_self _) hJ0
    have c2 : v < (q + 1) * 2 ^ 1074 := by
      refine Nat.lt_of_le_of_lt b2 ?_
      rw [hJ, ← Nat.mul_assoc]
      refine Nat.mul_lt_mul_of_pos_right ?_ hJ0
      have : 0 < (q + 1) * 2 ^ k := Nat.mul_pos (Nat.succ_pos _) hP
      omega
    have e1 : v / 2 ^ 1074 = q := by
      rw [Nat.div_eq_iff hK]
      rw [Nat.succ_mul] at c2
      omega
    refine ⟨e1, fun hz => ?_, fun hz => absurd hz h0⟩
    have := Nat.div_add_mod v (2 ^ 1074)
    rw [e1, hz, Nat.mul_comm] at this
    omega

/-- The quotient of two whole numbers is finite, and has the whole part and the fraction it should have. -/
theorem quotient_whole {a b : Int} {x y : Fp} (hx : Stands a x) (hy : Stands b y) (hb : 0 < b) (h : a.natAbs + b.natAbs ≤ 2 ^ 52) :
    ∃ s v, Fp.div f64 x y = .fin s v ∧ (a ≠ 0 → s = decide (a < 0)) ∧ v / 2 ^ 1074 = a.natAbs / b.natAbs ∧
      (v % 2 ^ 1074 = 0 ↔ a.natAbs % b.natAbs = 0) := by
  obtain ⟨s, k, rfl, rfl⟩ := hx
  obtain ⟨t, l, rfl, rfl⟩ := hy
  have ht : t = false := by
    cases t with
    | false => rfl
    | true => simp only [value, if_true] at hb; omega
  subst ht
  have nk : (value s k).natAbs = k := by cases s <;> simp [value]
  have nl : (value false l).natAbs = l := by simp [value]
  rw [nk, nl] at h ⊢
  have hl : 0 < l := by simp only [value] at hb; simpa using hb
  have hK : 0 < 2 ^ 1074 := Nat.two_pow_pos 1074
  have hq := quotient_fin (Fp.quotient_of f64 (by decide) (.fin s (k * 2 ^ 1074)) (.fin false (l * 2 ^ 1074))) (mul_ne hl hK)
  rw [Fp.rounded_scale f64 _ _ _ _ hK] at hq
  obtain ⟨v, hv, hr⟩ := hq
  have hv' : Nearest 53 v (k * 2 ^ 1074) l := hv
  obtain ⟨e1, e2⟩ := round_between k l v hl h hv'
  have hlt : v < 2 ^ 2098 := by
    have h1 : v / 2 ^ 1074 < 2 ^ 1024 := by
      rw [e1]
      refine Nat.lt_of_le_of_lt (Nat.div_le_self k l) (Nat.lt_of_le_of_lt (Nat.le_trans (Nat.le_add_right k l) h) ?_)
      exact Nat.pow_lt_pow_right (by decide) (by decide)
    rw [Nat.div_lt_iff_lt_mul hK, ← Nat.pow_add] at h1
    exact h1
  refine ⟨s, v, ?_, fun h0 => ?_, e1, e2⟩
  · rcases hr with ⟨-, hr⟩ | ⟨hr, -⟩
    · rw [hr]; simp
    · exact absurd (Nat.lt_of_lt_of_le hlt hr) (Nat.lt_irrefl _)
  · cases s with
    | false => simp [value]
    | true =>
      simp only [value, if_true] at h0 ⊢
      exact (decide_eq_true (by omega)).symm

theorem floor_value (a : Int) (l : Nat) (hl : 0 < l) :
    a / (l : Int) = value (decide (a < 0)) (if a < 0 ∧ a.natAbs % l ≠ 0 then a.natAbs / l + 1 else a.natAbs / l) := by
  have hd := Nat.div_add_mod a.natAbs l
  have hm := Nat.mod_lt a.natAbs hl
  generalize a.natAbs / l = q at *
  generalize a.natAbs % l = r at *
  have key : ∀ z c : Int, a = l * z + c → 0 ≤ c → c < l → a / (l : Int) = z := by
    intro z c h1 h2 h3
    rw [h1, Int.mul_add_ediv_left _ _ (by omega), Int.ediv_eq_zero_of_lt h2 h3, Int.add_zero]
  have hc : ((l * q : Nat) : Int) = (l : Int) * q := Int.natCast_mul l q
  by_cases ha : a < 0
  · by_cases h0 : r = 0
    · rw [if_neg (by simp [h0]), decide_eq_true ha]
      refine key _ 0 ?_ (by omega) (by omega)
      simp only [value, if_true]
      rw [Int.mul_neg, ← hc]; omega
    · rw [if_pos ⟨ha, h0⟩, decide_eq_true ha]
      refine key _ (l - r) ?_ (by omega) (by omega)
      simp only [value, if_true]
      rw [Int.mul_neg, Int.natCast_add, Int.mul_add, ← hc]; omega
  · rw [if_neg (by omega), decide_eq_false ha]
    refine key _ r ?_ (by omega) (by omega)
    simp only [value]
    rw [if_neg (by decide), ← hc]; omega

/-- `floor(x / y)` is the quotient rounded down. -/
theorem stands_floor {a b : Int} {x y : Fp} (hx : Stands a x) (hy : Stands b y) (hb : 0 < b) (h : a.natAbs + b.natAbs ≤ 2 ^ 52) :
    Stands (a / b) (Fp.floor f64 (Fp.div f64 x y)) := by
  obtain ⟨s, v, h1, h2, h3, h4⟩ := quotient_whole hx hy hb h
  rw [h1]
  have e : Fp.floor f64 (.fin s v) = .fin s ((if s = true ∧ v % 2 ^ 1074 ≠ 0 then v / 2 ^ 1074 + 1 else v / 2 ^ 1074) * 2 ^ 1074) := rfl
  rw [e]
  refine ⟨_, _, rfl, ?_⟩
  rw [h3]
  have eb : b = (b.natAbs : Int) := by omega
  have hf := floor_value a b.natAbs (by omega)
  rw [← eb] at hf
  rw [hf]
  by_cases h0 : a = 0
  · subst h0
    rw [if_neg (by rw [ne_eq, h4]; simp)]
    cases s <;> simp [value]
  · rw [h2 h0]
    simp only [ne_eq, h4, decide_eq_true_iff]

/-- The formula of the code for the remainder. -/
theorem stands_mod {a b : Int} {x y : Fp} (hx : Stands a x) (hy : Stands b y) (hb : b ≠ 0) (h : a.natAbs + b.natAbs ≤ 2 ^ 52) :
    Stands (a % b) (fmodOf x y) := by
  have hs : Stands b.sign (Fp.ofInt f64 (signOf y)) := by
    rw [stands_sign hy, ofInt_exact b.sign (by
      rw [Exact]; rcases Int.lt_trichotomy b 0 with h | h | h
      · rw [Int.sign_eq_neg_one_of_neg h]; decide
      · rw [h]; decide
      · rw [Int.sign_eq_one_of_pos h]; decide)]
    exact exact_stands _
  have h52 : (2 : Nat) ^ 53 = 2 * 2 ^ 52 := by decide
  have hbs : b * b.sign = b.natAbs := by rw [Int.mul_sign_self]
  have h1 : Stands (b.natAbs : Int) (Fp.mul f64 y (Fp.ofInt f64 (signOf y))) := by
    rw [← hbs]; exact stands_mul hy hs (by rw [hbs]; omega)
  have h2 := stands_floor hx (stands_abs hy) (by omega) (by rw [Int.natAbs_natCast]; exact h)
  have e := Int.mul_ediv_add_emod a (b.natAbs : Int)
  have e1 := Int.emod_nonneg a (b := (b.natAbs : Int)) (by omega)
  have e2 := Int.emod_lt_of_pos a (b := (b.natAbs : Int)) (by omega)
  have h3 := stands_mul h1 h2 (by omega)
  have h4 := stands_sub hx h3 (by omega)
  have e3 : a - (b.natAbs : Int) * (a / (b.natAbs : Int)) = a % b := by
    have : a % b = a % (b.natAbs : Int) := by
      rcases Int.natAbs_eq b with h | h
      · rw [← h]
      · rw [show (b.natAbs : Int) = -b by omega, Int.emod_neg]
    omega
  rw [e3] at h4
  exact h4

/-! ## Remainders -/

/-- The value is the whole number `n`, in any number type. -/
def Whole (v : Val) (n : Int) : Prop := ∃ x, IsDouble v x ∧ Stands n x

theorem whole_int (t : ITy) (n : Int) (hn : t.has n) (h : n.natAbs ≤ 2 ^ 53) : Whole (t.val n) n :=
  ⟨_, C63_integers t n hn h, exact_stands n⟩

/-- **C68**: the remainder of two whole numbers, of any number types, is the one between 0 and the absolute value of the divisor.  It is a
`double` if one of them has a floating point type, and otherwise an `int32`, which must be large enough. -/
theorem C68_modulo (f1 f2 : UAtom) (v w : Val) (n m : Int) (h1 : f1.val = some v) (h2 : f2.val = some w) (hv : Whole v n) (hw : Whole w m)
    (hm : m ≠ 0) (hb : n.natAbs + m.natAbs ≤ 2 ^ 52) :
    ((Floating v ∨ Floating w) → ∃ u r, modulo (some f1) (some f2) .fresh = some (0, u) ∧ IsNum u r ∧ Stands (n % m) r) ∧
    (¬ (Floating v ∨ Floating w) → ITy.i32.has (n % m) → ∃ u, modulo (some f1) (some f2) .fresh = some (0, u) ∧ u.val = some (ITy.i32.val (n % m))) := by
  obtain ⟨x, dx, sx⟩ := hv
  obtain ⟨y, dy, sy⟩ := hw
  have hmod := stands_mod sx sy hm hb
  have e : modulo (some f1) (some f2) .fresh = (putNum (fd f1.tag || fd f2.tag) (fmodOf x y) .fresh).map fun r => (0, r) := by
    rw [modulo, getFp_val f1 v x h1 dx, getFp_val f2 w y h2 dy]
    simp only [Option.bind_some]
    rw [(stands_compare sy stands_zero).2, if_neg (by simpa using hm)]
  have hfl : (fd f1.tag || fd f2.tag) = true ↔ (Floating v ∨ Floating w) := by
    rw [Bool.or_eq_true, floating_fd h1 dx, floating_fd h2 dy]
  constructor
  · intro hf
    rw [hfl.mpr hf] at e
    obtain ⟨u, r, p1, p2, b, p3, p4, p5⟩ := putNum_double (x := fmodOf x y) (Fp.good_sub f64 (by decide) _ _)
    refine ⟨u, fmodOf x y, by rw [e, p1]; rfl, ⟨b, p3, by rw [p2, p4], p5⟩, hmod⟩
  · intro hf hr
    have : (fd f1.tag || fd f2.tag) = false := by
      rw [← Bool.not_eq_true]; exact fun h => hf (hfl.mp h)
    rw [this] at e
    obtain ⟨u, p1, p2⟩ := putNum_int (stands_whole hmod) hr
    exact ⟨u, by rw [e, p1]; rfl, p2⟩

/-- **C68**: the remainder for the divisor 0 is the dividend itself, whatever number it is. -/
theorem C68_zero (f1 f2 : UAtom) (v w : Val) (x : Fp) (h1 : f1.val = some v) (h2 : f2.val = some w) (hv : IsDouble v x) (hw : Whole w 0) :
    ∃ u, modulo (some f1) (some f2) .fresh = some (0, u) ∧ u.val = some v := by
  obtain ⟨y, dy, sy⟩ := hw
  obtain ⟨u, p1, p2, -⟩ := copyAtom_val f1 v h1 (isDouble_copyable hv)
  refine ⟨u, ?_, p2⟩
  rw [modulo, getFp_val f1 v x h1 hv, getFp_val f2 w y h2 dy]
  simp only [Option.bind_some]
  rw [(stands_compare sy stands_zero).2, if_pos (by simp), copyOp, p1]
  rfl

theorem mod_i32 (n m : Int) (hm : ITy.i32.has m) (h0 : m ≠ 0) : ITy.i32.has (n % m) := by
  have h1 := Int.emod_nonneg n h0
  have h2 : n % m < m.natAbs := by
    rcases Int.natAbs_eq m with h | h
    · have := Int.emod_lt_of_pos n (b := m) (by omega); omega
    · have := Int.emod_lt_of_pos n (b := -m) (by omega); rw [Int.emod_neg] at this; omega
  simp only [ITy.has, ITy.width, ITy.signed] at hm ⊢
  simp at hm ⊢
  omega

theorem val_i32_inj {n m : Int} (hn : ITy.i32.has n) (hm : ITy.i32.has m) (h : ITy.i32.val n = ITy.i32.val m) : n = m := by
  simp only [ITy.has, ITy.width, ITy.signed] at hn hm
  simp only [ITy.val, ITy.tag, ITy.width, Val.num.injEq] at h
  simp at hn hm h
  omega

/-- **C68**: `%` of lists of `int32`s gives the remainder of every pair. -/
theorem C68_list (a b : Ar) (ns ms : List Int) (ha : Holds a (ns.map ITy.i32.val)) (hb : Holds b (ms.map ITy.i32.val))
    (hn : ∀ n ∈ ns, ITy.i32.has n) (hm : ∀ m ∈ ms, ITy.i32.has m ∧ m ≠ 0) (h : ¬ (ns.length = 1 ∧ ms.length = 0) ∧ ¬ (ns.length = 0 ∧ ms.length = 1)) :
    ∃ out, arg2 modulo [a, b] = some (0, some out) ∧ Holds (some out) ((broadcast ns ms).map fun p => ITy.i32.val (p.1 % p.2)) := by
  classical
  let N : Val → Int := fun v => if h : ∃ n, ITy.i32.has n ∧ v = ITy.i32.val n then h.choose else 0
  have hN : ∀ n, ITy.i32.has n → N (ITy.i32.val n) = n := by
    intro n hn
    have h : ∃ k, ITy.i32.has k ∧ ITy.i32.val n = ITy.i32.val k := ⟨n, hn, rfl⟩
    simp only [N, dif_pos h]
    exact (val_i32_inj hn h.choose_spec.1 h.choose_spec.2).symm
  have small : ∀ n, ITy.i32.has n → n.natAbs ≤ 2 ^ 31 := by
    intro n hn
    simp only [ITy.has, ITy.width, ITy.signed] at hn
    simp at hn
    omega
  have h31 : (2 : Nat) ^ 31 + 2 ^ 31 ≤ 2 ^ 52 := by decide
  have h53 : (2 : Nat) ^ 31 ≤ 2 ^ 53 := by decide
  obtain ⟨o, h1, h2⟩ := C35_values modulo (fun v w => ITy.i32.val (N v % N w)) a b _ _ ha hb (by simpa using h) (by
    intro x y v w hx hy hv hw
    obtain ⟨n, hn', rfl⟩ := List.mem_map.mp hv
    obtain ⟨m, hm', rfl⟩ := List.mem_map.mp hw
    obtain ⟨m1, m2⟩ := hm m hm'
    have s1 := small n (hn n hn')
    have s2 := small m m1
    have := (C68_modulo x y _ _ n m hx hy (whole_int .i32 n (hn n hn') (Nat.le_trans s1 h53)) (whole_int .i32 m m1 (Nat.le_trans s2 h53)) m2
      (by omega)).2 (by simp [Floating, ITy.val, ITy.tag]) (mod_i32 n m m1 m2)
    rw [hN n (hn n hn'), hN m m1]
    exact this)
  refine ⟨o, h1, ?_⟩
  have e := broadcast_map ITy.i32.val ITy.i32.val ns ms
  rw [e, List.map_map] at h2
  have e2 : (broadcast ns ms).map ((fun p : Val × Val => ITy.i32.val (N p.1 % N p.2)) ∘ fun p : Int × Int => (ITy.i32.val p.1, ITy.i32.val p.2)) =
      (broadcast ns ms).map fun p => ITy.i32.val (p.1 % p.2) := by
    refine List.map_congr_left fun p hp => ?_
    obtain ⟨q1, q2⟩ := mem_broadcast hp
    simp only [Function.comp_apply, hN _ (hn _ q1), hN _ (hm _ q2).1]
  rw [← e2]
  exact h2

/-! ## Sequences -/

theorem aseqLoop_spec (dbl : Bool) (a d : Int) (n : Nat) (x y : Fp) (hx : Stands a x) (hy : Stands d y) (hgx : Fp.Good f64 x)
    (hb : ∀ i : Nat, i ≤ n → (a + i * d).natAbs ≤ 2 ^ 53) (hi : dbl = false → ∀ i : Nat, i < n → ITy.i32.has (a + i * d)) :
    ∃ out ws, aseqLoop dbl y n x = some out ∧ Holds (some out) ws ∧ ws.length = n ∧
      ∀ (i : Nat) w, ws[i]? = some w → (dbl = true → ∃ r, NumVal w r ∧ Stands (a + i * d) r) ∧ (dbl = false → w = ITy.i32.val (a + i * d)) := by
  obtain ⟨s, h1, ws, h2, h3, h4, -⟩ := forN_inv
    (fun i (s : List UAtom × Fp) => ∃ ws : List Val, ws.length = i ∧ Filled s.1 ws n ∧
      (∀ (j : Nat) w, ws[j]? = some w → (dbl = true → ∃ r, NumVal w r ∧ Stands (a + j * d) r) ∧ (dbl = false → w = ITy.i32.val (a + j * d))) ∧
      Stands (a + i * d) s.2 ∧ Fp.Good f64 s.2)
    (fun i s => (setTo s.1 i (putNum dbl s.2)).map fun out => (out, Fp.add f64 s.2 y)) n (mk n, x)
    ⟨[], rfl, filled_new n, fun j w h => by simp at h, by simpa using hx, hgx⟩
    (by
      rintro i s hin ⟨ws, e1, e2, e3, e4, e5⟩
      have hp : ∃ u w, putNum dbl s.2 .fresh = some u ∧ u.val = some w ∧
          (dbl = true → ∃ r, NumVal w r ∧ Stands (a + i * d) r) ∧ (dbl = false → w = ITy.i32.val (a + i * d)) := by
        cases dbl with
        | true =>
          obtain ⟨u, w, p1, p2, p3⟩ := putNum_double e5
          exact ⟨u, w, p1, p2, ⟨fun _ => ⟨_, p3, e4⟩, fun h => Bool.noConfusion h⟩⟩
        | false =>
          obtain ⟨u, p1, p2⟩ := putNum_int (stands_whole e4) (hi rfl i hin)
          exact ⟨u, _, p1, p2, ⟨fun h => Bool.noConfusion h, fun _ => rfl⟩⟩
      obtain ⟨u, w, p1, p2, p3⟩ := hp
      obtain ⟨out', h3, h4⟩ := filled_set e2 (by omega) p1 p2
      rw [e1] at h3
      refine ⟨(out', Fp.add f64 s.2 y), by rw [h3]; rfl, ws ++ [w], by simp [e1], h4, ?_, ?_, Fp.good_add f64 (by decide) _ _⟩
      · intro j w' hj
        rw [List.getElem?_append] at hj
        split at hj
        · exact e3 j w' hj
        · rename_i hlt
          have : j = i := by
            have := (List.getElem?_eq_some_iff.mp hj).1
            simp at this; omega
          subst this
          rw [e1, Nat.sub_self] at hj
          simp at hj
          subst hj
          exact p3
      · have e : a + ((i + 1 : Nat) : Int) * d = a + i * d + d := by
          rw [Int.natCast_add, Int.add_mul, ← Int.add_assoc]; simp
        rw [e]
        refine stands_add e4 hy ?_
        rw [← e]; exact hb (i + 1) (by omega))
  subst h2
  exact ⟨s.1, ws, by rw [aseqLoop, h1]; rfl, filled_all h3, rfl, h4⟩

/-- `x` lies between `n` and `m`. -/
def Between (n m x : Int) : Prop := (n ≤ x ∧ x ≤ m) ∨ (m ≤ x ∧ x ≤ n)

/-- The third argument of `aseq`: the step, and whether it has a floating point type.  Without it the step is 1 or −1. -/
inductive StepOf (n m : Int) : List Ar → Int → Prop → Prop
  | none : StepOf n m [] (m - n).sign False
  | some (c : Ar) (u : Val) (us : List Val) (more : List Ar) (d : Int) : Holds c (u :: us) → Whole u d → StepOf n m (c :: more) d (Floating u)

/-- The elements of a sequence that does not pass the end are the first `|m - n| / |d| + 1` ones. -/
theorem between_iff (n m d : Int) (h : n ≠ m) (hs : d.sign = (m - n).sign) (i : Nat) : Between n m (n + i * d) ↔ i ≤ (m - n).natAbs / d.natAbs := by
  have hd : 0 < d.natAbs := by
    rcases Int.lt_trichotomy d 0 with h0 | h0 | h0
    · omega
    · subst h0
      have := Int.sign_eq_zero_iff_zero.mp hs.symm
      omega
    · omega
  rw [Nat.le_div_iff_mul_le hd]
  have hc : ((i * d.natAbs : Nat) : Int) = i * (d.natAbs : Int) := Int.natCast_mul _ _
  rcases Int.lt_or_gt_of_ne h with h0 | h0
  · rw [Int.sign_eq_one_of_pos (by omega : 0 < m - n), Int.sign_eq_one_iff_pos] at hs
    have e : (d.natAbs : Int) = d := by omega
    rw [e] at hc
    rw [Between, ← hc]
    omega
  · rw [Int.sign_eq_neg_one_of_neg (by omega : m - n < 0), Int.sign_eq_neg_one_iff_neg] at hs
    have e : d = -(d.natAbs : Int) := by omega
    rw [Between, e, Int.mul_neg, Int.natAbs_neg, Int.natAbs_natCast, ← hc]
    omega

theorem holds_first {a : Ar} {v : Val} {vs : List Val} (h : Holds a (v :: vs)) : ∃ u, at? a 0 = some u ∧ u.val = some v :=
  holds_at h (i := 0) rfl

theorem ofInt_stands (n : Int) (h : n.natAbs ≤ 2 ^ 53) : Stands n (Fp.ofInt f64 n) := by
  rw [ofInt_exact n h]; exact exact_stands n

theorem sign_small (n : Int) : n.sign.natAbs ≤ 1 := by
  rcases Int.lt_trichotomy n 0 with h | h | h
  · rw [Int.sign_eq_neg_one_of_neg h]; decide
  · rw [h]; decide
  · rw [Int.sign_eq_one_of_pos h]; decide

/-- What `aseq` computes before its loop. -/
theorem aseq_start (A B : Ar) (rest : List Ar) (v w : Val) (vs ws : List Val) (n m d : Int) (F : Prop) (hA : Holds A (v :: vs)) (hB : Holds B (w :: ws))
    (hv : Whole v n) (hw : Whole w m) (hd : StepOf n m rest d F) (hne : n ≠ m) (hb : (m - n).natAbs + d.natAbs ≤ 2 ^ 52) :
    ∃ (dbl : Bool) (x y z : Fp), (dbl = true ↔ Floating v ∨ Floating w ∨ F) ∧ Stands n x ∧ Fp.Good f64 x ∧ Stands d z ∧
      (d ≠ 0 → WholePart y ((m - n).natAbs / d.natAbs : Nat)) ∧
      aseq (A :: B :: rest) = if d = 0 then some (1, none) else if (m - n).sign ≠ d.sign then some (1, none)
        else (Expr.toI32 y).bind fun k => (i32 (k + 1)).bind fun c => (aseqLoop dbl z c.toNat x).map fun out => (0, some out) := by
  obtain ⟨u1, a1, l1⟩ := holds_first hA
  obtain ⟨u2, a2, l2⟩ := holds_first hB
  obtain ⟨x, dx, sx⟩ := hv
  obtain ⟨y, dy, sy⟩ := hw
  have h53 : (2 : Nat) ^ 53 = 2 * 2 ^ 52 := by decide
  have f1 : fpOf (some u1) = some x := getFp_val u1 v x l1 dx
  have f2 : fpOf (some u2) = some y := getFp_val u2 w y l2 dy
  have hdiff := stands_sub sy sx (by omega)
  have hstep : ∃ z, (match rest.head?.map fun c => at? c 0 with
        | none => some (Fp.ofInt f64 (signOf (Fp.sub f64 y x)))
        | some c => fpOf c) = some z ∧ Stands d z ∧ (((rest.head?.map fun c => at? c 0).map fun c => fd (tagOf c)).getD false = true ↔ F) := by
    cases hd with
    | none =>
      refine ⟨_, rfl, ?_, by simp⟩
      rw [stands_sign hdiff]
      exact ofInt_stands _ (by have := sign_small (m - n); omega)
    | some c u us more d hc hu =>
      obtain ⟨u3, a3, l3⟩ := holds_first hc
      obtain ⟨z, dz, sz⟩ := hu
      refine ⟨z, ?_, sz, ?_⟩
      · simp only [List.head?_cons, Option.map_some, a3]
        exact getFp_val u3 u z l3 dz
      · simp only [List.head?_cons, Option.map_some, a3, Option.getD_some]
        exact floating_fd l3 dz
  obtain ⟨z, hz, sz, hF⟩ := hstep
  have hmn : Stands ((m - n).natAbs : Int) (Fp.sub f64 (if Fp.lt y x = true then x else y) (if Fp.lt y x = true then y else x)) := by
    rw [(stands_compare sy sx).1]
    by_cases hlt : m < n
    · rw [if_pos (by simpa using hlt), if_pos (by simpa using hlt)]
      have := stands_sub sx sy (by omega)
      rwa [show ((m - n).natAbs : Int) = n - m by omega]
    · rw [if_neg (by simpa using hlt), if_neg (by simpa using hlt)]
      rwa [show ((m - n).natAbs : Int) = m - n by omega]
  refine ⟨fd u1.tag || fd u2.tag || ((rest.head?.map fun c => at? c 0).map fun c => fd (tagOf c)).getD false, x,
    Fp.div f64 (Fp.sub f64 (if Fp.lt y x = true then x else y) (if Fp.lt y x = true then y else x)) z.abs, z, ?_, sx, isDouble_good _ _ dx, sz, ?_, ?_⟩
  · rw [Bool.or_eq_true, Bool.or_eq_true, hF, floating_fd l1 dx, floating_fd l2 dy, or_assoc]
  · intro h0
    obtain ⟨s, q, q1, q2, q3, -⟩ := quotient_whole hmn (stands_abs sz) (by omega) (by rw [Int.natAbs_natCast, Int.natAbs_natCast]; exact hb)
    refine ⟨s, q, q1, ?_⟩
    rw [q3, Int.natAbs_natCast, Int.natAbs_natCast, q2 (by omega), decide_eq_false (by omega)]
    rfl
  · simp only [aseq, a1, a2, f1, f2, Option.bind_some]
    rw [(stands_compare sx sy).2, if_neg (by simpa using hne)]
    have key : ∀ (o : Option Fp) (g : Fp → Res), o = some z → o.bind g = g z := by rintro _ _ rfl; rfl
    refine (key _ _ ?_).trans ?_
    · exact hz
    rw [(stands_compare sz stands_zero).2, stands_sign hdiff, stands_sign sz]
    simp only [decide_eq_true_iff]
    rfl

theorem count_i32 {k : Nat} (h : k < 2147483647) : ITy.i32.has (k : Int) := by simp [ITy.has, ITy.width, ITy.signed]; omega

theorem count_next {k : Nat} (h : k < 2147483647) : i32 ((k : Int) + 1) = some ((k : Int) + 1) := by
  rw [i32, if_pos (by omega)]

theorem between_i32 {n m x : Int} (h : Between n m x) (g1 : ITy.i32.has n) (g2 : ITy.i32.has m) : ITy.i32.has x := by
  rw [Between] at h
  simp only [ITy.has, ITy.width, ITy.signed] at g1 g2 ⊢
  simp at g1 g2 ⊢
  omega

theorem diff_small {n m d : Int} {c : Nat} (h : n.natAbs + m.natAbs + d.natAbs ≤ c) : (m - n).natAbs + d.natAbs ≤ c := by omega

theorem sequence_small {n m d : Int} {k : Nat} (hbt : ∀ i : Nat, i < k + 1 → Between n m (n + i * d))
    (hb : n.natAbs + m.natAbs + d.natAbs ≤ 2 ^ 52) : ∀ i : Nat, i ≤ k + 1 → (n + i * d).natAbs ≤ 2 ^ 53 := by
  have h53 : (2 : Nat) ^ 53 = 2 * 2 ^ 52 := by decide
  intro i hi
  cases i with
  | zero => simp; omega
  | succ i =>
    have := hbt i (by omega)
    rw [Int.natCast_add, Int.add_mul]
    rw [Between] at this
    generalize (i : Int) * d = p at *
    simp
    omega

theorem count_bind {y : Option Int} {k : Nat} (f : Nat → Res) (hy : y = some (k : Int)) (h : k < 2147483647) :
    (y.bind fun k => (i32 (k + 1)).bind fun c => f c.toNat) = f (k + 1) := by
  rw [hy, Option.bind_some, count_next h, Option.bind_some]
  exact congrArg f (Int.toNat_natCast (k + 1))

/-- **C68**: `aseq(n, m, d)` is `n`, `n + d`, `n + 2d` and so on, as far as the numbers do not pass `m`.  They are `double`s if one of the
arguments has a floating point type, and `int32`s otherwise. -/
theorem C68_aseq (A B : Ar) (rest : List Ar) (v w : Val) (vs ws : List Val) (n m d : Int) (F : Prop) (k : Nat) (hA : Holds A (v :: vs))
    (hB : Holds B (w :: ws)) (hv : Whole v n) (hw : Whole w m) (hd : StepOf n m rest d F) (hne : n ≠ m) (hs : d.sign = (m - n).sign)
    (hb : n.natAbs + m.natAbs + d.natAbs ≤ 2 ^ 52) (hk : ∀ i : Nat, Between n m (n + i * d) ↔ i ≤ k) (hk' : k < 2147483647) :
    ((Floating v ∨ Floating w ∨ F) → ∃ out rs, aseq (A :: B :: rest) = some (0, some out) ∧ Holds (some out) rs ∧ rs.length = k + 1 ∧
      ∀ (i : Nat) r, rs[i]? = some r → ∃ x, NumVal r x ∧ Stands (n + i * d) x) ∧
    (¬ (Floating v ∨ Floating w ∨ F) → ITy.i32.has n → ITy.i32.has m → ∃ out, aseq (A :: B :: rest) = some (0, some out) ∧
      Holds (some out) ((List.range (k + 1)).map fun (i : Nat) => ITy.i32.val (n + i * d))) := by
  obtain ⟨dbl, x, y, z, h1, h2, h3, h4, h5, h6⟩ := aseq_start A B rest v w vs ws n m d F hA hB hv hw hd hne (diff_small hb)
  have d0 : d ≠ 0 := by
    rintro rfl
    exact hne (Int.sub_eq_zero.mp (Int.sign_eq_zero_iff_zero.mp hs.symm)).symm
  have ek : (m - n).natAbs / d.natAbs = k := by
    have e1 := (hk ((m - n).natAbs / d.natAbs)).mp ((between_iff n m d hne hs _).mpr (Nat.le_refl _))
    have e2 := (between_iff n m d hne hs k).mp ((hk k).mpr (Nat.le_refl _))
    exact Nat.le_antisymm e1 e2
  have hy := h5 d0
  rw [ek] at hy
  rw [if_neg d0, if_neg (fun h => h hs.symm)] at h6
  have h6 := h6.trans (count_bind (fun c => (aseqLoop dbl z c x).map fun out => ((0 : Int), some out)) (toI32_spec hy (count_i32 hk')) hk')
  have h53 : (2 : Nat) ^ 53 = 2 * 2 ^ 52 := by decide
  have hbt : ∀ i : Nat, i < k + 1 → Between n m (n + i * d) := fun i hi => (hk i).mpr (by omega)
  have hsm := sequence_small hbt hb
  have hin : dbl = false → ∀ i : Nat, i < k + 1 → ITy.i32.has n → ITy.i32.has m → ITy.i32.has (n + i * d) := by
    intro _ i hi g1 g2
    exact between_i32 (hbt i hi) g1 g2
  constructor
  · intro hf
    have hdb := h1.mpr hf
    obtain ⟨out, rs, e1, e2, e3, e4⟩ := aseqLoop_spec dbl n d (k + 1) x z h2 h4 h3 hsm (fun h => by rw [hdb] at h; cases h)
    refine ⟨out, rs, by rw [h6, e1]; rfl, e2, e3, fun i r hr => (e4 i r hr).1 hdb⟩
  · intro hf g1 g2
    have hdb : dbl = false := by rw [← Bool.not_eq_true]; exact fun h => hf (h1.mp h)
    obtain ⟨out, rs, e1, e2, e3, e4⟩ := aseqLoop_spec dbl n d (k + 1) x z h2 h4 h3 hsm (fun h i hi => hin h i hi g1 g2)
    refine ⟨out, by rw [h6, e1]; rfl, ?_⟩
    have : rs = (List.range (k + 1)).map fun (i : Nat) => ITy.i32.val (n + i * d) := by
      apply List.ext_getElem (by simp [e3])
      intro i hi hi'
      rw [(e4 i _ (List.getElem?_eq_getElem hi)).2 hdb]
      simp
    rw [← this]
    exact e2

/-- **C68**: a step in the wrong direction, or of 0, is an error, and equal ends give the first one. -/
theorem C68_aseq_ends (A B : Ar) (rest : List Ar) (v w : Val) (vs ws : List Val) (n m d : Int) (F : Prop) (hA : Holds A (v :: vs))
    (hB : Holds B (w :: ws)) (hv : Whole v n) (hw : Whole w m) (hd : StepOf n m rest d F) (hb : n.natAbs + m.natAbs + d.natAbs ≤ 2 ^ 52) :
    (n ≠ m → d.sign ≠ (m - n).sign → aseq (A :: B :: rest) = some (1, none)) ∧
    (n = m → ∃ out, aseq (A :: B :: rest) = some (0, some out) ∧ Holds (some out) [v]) := by
  constructor
  · intro hne hs
    obtain ⟨dbl, x, y, z, -, -, -, -, -, h6⟩ := aseq_start A B rest v w vs ws n m d F hA hB hv hw hd hne (by omega)
    rw [h6]
    split
    · rfl
    · rw [if_pos (fun h => hs h.symm)]
  · rintro rfl
    obtain ⟨u1, a1, l1⟩ := holds_first hA
    obtain ⟨u2, a2, l2⟩ := holds_first hB
    obtain ⟨x, dx, sx⟩ := hv
    obtain ⟨y, dy, sy⟩ := hw
    have f1 : fpOf (some u1) = some x := getFp_val u1 v x l1 dx
    have f2 : fpOf (some u2) = some y := getFp_val u2 w y l2 dy
    obtain ⟨c, c1, c2, -⟩ := copyAtom_val u1 v l1 (isDouble_copyable dx)
    refine ⟨[c], ?_, by simp [Holds, argsVal, c2]⟩
    simp only [aseq, a1, a2, f1, f2, Option.bind_some]
    rw [(stands_compare sx sy).2, if_pos (by simp)]
    simp [copyTo, mk, c1]

/-- Non-vacuity: −7 % 3 is 2 and 7 % −3 is 1; `aseq(1, 6, 2)` is `[1, 3, 5]`, `aseq(2, -1)` is `[2, 1, 0, -1]`. -/
example : (arg2 modulo [some [atomOf .i32 (-7), atomOf .i32 7], some [atomOf .i32 3, atomOf .i32 (-3)]]).map
      (fun r => (r.1, r.2.map (·.map (fun a => (a.tag, a.w.raw))))) = some (0, some [(105, 2), (105, 1)]) ∧
    (aseq [some [atomOf .i32 1], some [atomOf .i32 6], some [atomOf .i32 2]]).map
      (fun r => (r.1, r.2.map (·.map (fun a => (a.tag, a.w.raw))))) = some (0, some [(105, 1), (105, 3), (105, 5)]) ∧
    (aseq [some [atomOf .i32 2], some [atomOf .i32 (-1)]]).map
      (fun r => (r.1, r.2.map (·.map (fun a => (a.tag, a.w.raw))))) = some (0, some [(105, 2), (105, 1), (105, 0), (105, 4294967295)]) := by
  refine ⟨?_, ?_, ?_⟩ <;> decide +kernel

/-- Non-vacuity: the hypotheses of `C68_aseq` for `aseq(1, 6, 2)`. -/
example : Holds (some [atomOf .i32 1]) [ITy.i32.val 1] ∧ Whole (ITy.i32.val 1) 1 ∧ Whole (ITy.i32.val 6) 6 ∧
    StepOf 1 6 [some [atomOf .i32 2]] 2 (Floating (ITy.i32.val 2)) ∧ (∀ i : Nat, Between 1 6 (1 + i * 2) ↔ i ≤ 2) := by
  refine ⟨by simp [Holds, argsVal, atomOf_val], whole_int .i32 1 (by decide) (by decide), whole_int .i32 6 (by decide) (by decide),
    .some _ _ [] [] 2 (by simp [Holds, argsVal, atomOf_val]) (whole_int .i32 2 (by decide) (by decide)), fun i => ?_⟩
  rw [Between]; omega

/-- The claim for all whole numbers up to 2^52 that are not of floating point types: the remainder is in the result, as a number of some integer type. -/
def C68IntegersFull : Prop :=
  ∀ (t : ITy) (n m : Int), t.has n → t.has m → m ≠ 0 → n.natAbs + m.natAbs ≤ 2 ^ 52 →
    ∃ u g, modulo (some (atomOf t n)) (some (atomOf t m)) .fresh = some (0, u) ∧ u.val = some (ITy.val g (n % m))

/-- The code converts the remainder to 32 bits, which is undefined if it does not fit: 3000000000 % 4000000000 of 64 bit integers. -/
theorem C68_integers_full_fails : ¬ C68IntegersFull := by
  intro h
  obtain ⟨u, g, h1, _⟩ := h .i64 3000000000 4000000000 (by decide) (by decide) (by decide) (by decide)
  have : modulo (some (atomOf .i64 3000000000)) (some (atomOf .i64 4000000000)) .fresh = none := by decide +kernel
  rw [this] at h1
  cases h1

/-- Numbers with fractions: the remainder of -2^-60 modulo 1 is computed as 1, which is not less than 1. -/
theorem C68_fraction_fails : (modulo (some (.mk 100 false (atomOf .i64 (-4886405595696988160)).w)) (some (atomOf .i32 1)) .fresh).map (fun r => (r.1, r.2.tag, r.2.w.raw)) =
    some (0, 100, 0x3ff0000000000000) := by decide +kernel

end Libo.Props
