import Verif.Props.ExprLib
import Mathlib.Analysis.Real.Pi.Bounds
import Mathlib.Analysis.Complex.ExponentialBounds
import Mathlib.Analysis.SpecialFunctions.Log.Base
/-!
# C78: the constants

The real numbers are those of Mathlib.
-/

namespace Libo.Props
open Libo Libo.Expr Libo.Ieee

/-! ## Specification -/

/-- The real number that a finite positive `Fp` of so many units stands for. -/
noncomputable def real (v : Nat) : ℝ := (v : ℝ) / 2 ^ 1074

/-- `r` is the `double` that is nearer to `x` than any other number with 53 significant binary digits. -/
def NearestReal (x : ℝ) (r : Fp) : Prop :=
  ∃ v, r = .fin false v ∧ Grid 53 v ∧ ∀ w, Grid 53 w → w ≠ v → |real v - x| < |real w - x|

/-! ## Proofs -/

theorem real_mul (q t : Nat) (ht : t ≤ 1074) : real (q * 2 ^ (1074 - t)) = (q : ℝ) / 2 ^ t := by
  have h : (2 : ℝ) ^ 1074 = 2 ^ (1074 - t) * 2 ^ t := by rw [← pow_add]; congr 1; omega
  rw [real, h]
  push_cast
  rw [mul_comm ((2 : ℝ) ^ (1074 - t)), mul_div_mul_right _ _ (by positivity)]

theorem real_mono {v w : Nat} (h : v ≤ w) : real v ≤ real w := by
  unfold real
  exact div_le_div_of_nonneg_right (by exact_mod_cast h) (by positivity)

/-- A number is the nearest if the real number lies less than half a unit of the last digit away. -/
theorem nearestReal_of (c : Fp) (q t : Nat) (x : ℝ) (ht : t ≤ 1074) (hc : c = .fin false (q * 2 ^ (1074 - t))) (h1 : 2 ^ 52 < q) (h2 : q < 2 ^ 53)
    (l : (2 * q - 1 : ℝ) < x * 2 ^ (t + 1)) (u : x * 2 ^ (t + 1) < (2 * q + 1 : ℝ)) : NearestReal x c := by
  have ht2 : (0 : ℝ) < 2 ^ t := by positivity
  have l' : (2 * q - 1 : ℝ) / 2 / 2 ^ t < x := by
    rw [div_div, div_lt_iff₀ (by positivity)]; rw [pow_succ] at l; linarith
  have u' : x < (2 * q + 1 : ℝ) / 2 / 2 ^ t := by
    rw [div_div, lt_div_iff₀ (by positivity)]; rw [pow_succ] at u; linarith
  refine ⟨_, hc, ⟨q, _, h2, rfl⟩, fun w hw hne => ?_⟩
  have g1 := Fp.grid_gap 53 q (1074 - t) w (by decide) (.inr (by omega)) hw
  have g2 := Fp.grid_gap 53 (q - 1) (1074 - t) w (by decide) (.inr (by omega)) hw
  rw [show q - 1 + 1 = q by omega] at g2
  rw [real_mul q t ht]
  have hq : |(q : ℝ) / 2 ^ t - x| < 1 / 2 / 2 ^ t := by
    rw [abs_sub_lt_iff]
    have e1 : (2 * q - 1 : ℝ) / 2 / 2 ^ t = (q : ℝ) / 2 ^ t - 1 / 2 / 2 ^ t := by ring
    have e2 : (2 * q + 1 : ℝ) / 2 / 2 ^ t = (q : ℝ) / 2 ^ t + 1 / 2 / 2 ^ t := by ring
    rw [e1] at l'; rw [e2] at u'
    constructor <;> linarith
  refine lt_of_lt_of_le hq ?_
  rcases g1 with g1 | g1
  · rcases g2 with g2 | g2
    · have h := real_mono g2
      rw [real_mul _ t ht, Nat.cast_sub (by omega)] at h
      have e : ((q : ℝ) - ((1 : Nat) : ℝ)) / 2 ^ t = (2 * q - 1 : ℝ) / 2 / 2 ^ t - 1 / 2 / 2 ^ t := by push_cast; ring
      rw [e] at h
      rw [abs_sub_comm]
      refine le_trans ?_ (le_abs_self _)
      linarith
    · exact absurd (le_antisymm g1 g2) hne
  · have h := real_mono g1
    rw [real_mul _ t ht] at h
    have e : ((q + 1 : Nat) : ℝ) / 2 ^ t = (2 * q + 1 : ℝ) / 2 / 2 ^ t + 1 / 2 / 2 ^ t := by push_cast; ring
    rw [e] at h
    refine le_trans ?_ (le_abs_self _)
    linarith

theorem log_two_bounds : 0.6931471805599453094 < Real.log 2 ∧ Real.log 2 < 0.6931471805599453095 := by
  have h := Real.abs_log_sub_add_sum_range_le (x := 1 / 2) (by norm_num [abs_of_pos]) 66
  rw [show (1 : ℝ) - 1 / 2 = 2⁻¹ by norm_num, Real.log_inv, abs_le] at h
  norm_num [Finset.sum_range_succ] at h
  constructor <;> linarith

theorem log_ten_bounds : 2.3025850929940456839 < Real.log 10 ∧ Real.log 10 < 2.3025850929940456843 := by
  have h := Real.abs_log_sub_add_sum_range_le (x := 1 / 5) (by norm_num [abs_of_pos]) 30
  have e : Real.log 10 = 3 * Real.log 2 - Real.log (1 - 1 / 5) := by
    rw [show (10 : ℝ) = 2 ^ 3 / (1 - 1 / 5) by norm_num, Real.log_div (by norm_num) (by norm_num), Real.log_pow]; norm_num
  obtain ⟨l, u⟩ := log_two_bounds
  generalize Real.log (1 - 1 / 5) = y at *
  rw [abs_le] at h
  norm_num [Finset.sum_range_succ] at h
  rw [e]
  constructor <;> linarith

theorem e_bounds : 2.7182818284590452353 < Real.exp 1 ∧ Real.exp 1 < 2.7182818284590452354 := by
  have h := Real.exp_one_near_20
  rw [abs_le] at h
  norm_num at h ⊢
  constructor <;> linarith

/-- The constants as they are in the table, and the real numbers they are named after. -/
noncomputable def realConstants : List (Fp × ℝ) :=
  [(cPi, Real.pi), (cTwoPi, 2 * Real.pi), (cHalfPi, Real.pi / 2), (cQuarterPi, Real.pi / 4), (cOneOverPi, 1 / Real.pi), (cTwoOverPi, 2 / Real.pi),
   (cE, Real.exp 1), (cLn2, Real.log 2), (cLn10, Real.log 10), (cLog2E, Real.logb 2 (Real.exp 1)), (cLog10E, Real.logb 10 (Real.exp 1)),
   (cSqrt2, √2), (cSqrtHalf, √(1 / 2)), (cPhi, (1 + √5) / 2)]

theorem inv_between {x a b : ℝ} (h0 : 0 < a) (h1 : a < x) (h2 : x < b) : 1 / b < 1 / x ∧ 1 / x < 1 / a :=
  ⟨one_div_lt_one_div_of_lt (h0.trans h1) h2, one_div_lt_one_div_of_lt h0 h1⟩

theorem sqrtHalf_nearest (y : ℝ) (a : 0.70710678118654752440 < y) (b : y < 0.70710678118654752441) : NearestReal y cSqrtHalf := by
  refine nearestReal_of _ 6369051672525773 53 _ (by decide) (by decide +kernel) (by decide) (by decide) ?_ ?_ <;> norm_num at * <;> linarith

/-- **C78**: these constants are the `double`s nearest to the real numbers they are named after. -/
theorem C78_nearest (p : Fp × ℝ) (hp : p ∈ realConstants) : NearestReal p.2 p.1 := by
  have p1 := Real.pi_gt_d20
  have p2 := Real.pi_lt_d20
  obtain ⟨e1, e2⟩ := e_bounds
  obtain ⟨l1, l2⟩ := log_two_bounds
  obtain ⟨t1, t2⟩ := log_ten_bounds
  obtain ⟨i1, i2⟩ := inv_between (by norm_num) p1 p2
  obtain ⟨j1, j2⟩ := inv_between (by norm_num) l1 l2
  obtain ⟨k1, k2⟩ := inv_between (by norm_num) t1 t2
  simp only [realConstants, List.mem_cons, List.not_mem_nil, or_false] at hp
  rcases hp with rfl | rfl | rfl | rfl | rfl | rfl | rfl | rfl | rfl | rfl | rfl | rfl | rfl | rfl
  · refine nearestReal_of _ 7074237752028440 51 _ (by decide) (by decide +kernel) (by decide) (by decide) ?_ ?_ <;> norm_num at * <;> linarith
  · refine nearestReal_of _ 7074237752028440 50 _ (by decide) (by decide +kernel) (by decide) (by decide) ?_ ?_ <;> norm_num at * <;> linarith
  · refine nearestReal_of _ 7074237752028440 52 _ (by decide) (by decide +kernel) (by decide) (by decide) ?_ ?_ <;> norm_num at * <;> linarith
  · refine nearestReal_of _ 7074237752028440 53 _ (by decide) (by decide +kernel) (by decide) (by decide) ?_ ?_ <;> norm_num at * <;> linarith
  · refine nearestReal_of _ 5734161139222659 54 _ (by decide) (by decide +kernel) (by decide) (by decide) ?_ ?_ <;> norm_num at * <;> linarith
  · rw [show (2 : ℝ) / Real.pi = 2 * (1 / Real.pi) by ring]
    refine nearestReal_of _ 5734161139222659 53 _ (by decide) (by decide +kernel) (by decide) (by decide) ?_ ?_ <;> norm_num at * <;> linarith
  · refine nearestReal_of _ 6121026514868073 51 _ (by decide) (by decide +kernel) (by decide) (by decide) ?_ ?_ <;> norm_num at * <;> linarith
  · refine nearestReal_of _ 6243314768165359 53 _ (by decide) (by decide +kernel) (by decide) (by decide) ?_ ?_ <;> norm_num at * <;> linarith
  · refine nearestReal_of _ 5184960683398422 51 _ (by decide) (by decide +kernel) (by decide) (by decide) ?_ ?_ <;> norm_num at * <;> linarith
  · rw [Real.logb, Real.log_exp]
    refine nearestReal_of _ 6497320848556798 52 _ (by decide) (by decide +kernel) (by decide) (by decide) ?_ ?_ <;> norm_num at * <;> linarith
  · rw [Real.logb, Real.log_exp]
    refine nearestReal_of _ 7823553867474190 54 _ (by decide) (by decide +kernel) (by decide) (by decide) ?_ ?_ <;> norm_num at * <;> linarith
  · have a : 1.41421356237309504880 < √2 := Real.lt_sqrt_of_sq_lt (by norm_num)
    have b : √2 < 1.41421356237309504881 := (Real.sqrt_lt' (by norm_num)).mpr (by norm_num)
    refine nearestReal_of _ 6369051672525773 52 _ (by decide) (by decide +kernel) (by decide) (by decide) ?_ ?_ <;> norm_num at * <;> linarith
  · have a : 0.70710678118654752440 < √(1 / 2) := Real.lt_sqrt_of_sq_lt (by norm_num)
    have b : √(1 / 2) < 0.70710678118654752441 := (Real.sqrt_lt' (by norm_num)).mpr (by norm_num)
    dsimp only
    exact sqrtHalf_nearest _ a b
  · have a : 2.2360679774997896964 < √5 := Real.lt_sqrt_of_sq_lt (by norm_num)
    have b : √5 < 2.2360679774997896965 := (Real.sqrt_lt' (by norm_num)).mpr (by norm_num)
    refine nearestReal_of _ 7286977268806824 52 _ (by decide) (by decide +kernel) (by decide) (by decide) ?_ ?_ <;> norm_num at * <;> linarith

/-- **C78**: the constants that `mtof` and `ftom` multiply with are the `double`s nearest to ln(2)/12 and 12/ln(2). -/
theorem C78_midi : NearestReal (Real.log 2 / 12) (decimal 5776226504666210911810267678817 32) ∧
    NearestReal (12 / Real.log 2) (decimal 1731234049066756088831909617202611 32) := by
  obtain ⟨l1, l2⟩ := log_two_bounds
  obtain ⟨j1, j2⟩ := inv_between (by norm_num) l1 l2
  refine ⟨?_, ?_⟩
  · refine nearestReal_of _ 8324419690887146 57 _ (by decide) (by decide +kernel) (by decide) (by decide) ?_ ?_ <;> norm_num at * <;> linarith
  · rw [show (12 : ℝ) / Real.log 2 = 12 * (1 / Real.log 2) by ring]
    refine nearestReal_of _ 4872990636417599 48 _ (by decide) (by decide +kernel) (by decide) (by decide) ?_ ?_ <;> norm_num at * <;> linarith

/-- The number is determined. -/
theorem C78_unique (x : ℝ) (r r' : Fp) (h : NearestReal x r) (h' : NearestReal x r') : r = r' := by
  obtain ⟨v, rfl, hv, h1⟩ := h
  obtain ⟨w, rfl, hw, h2⟩ := h'
  by_cases e : w = v
  · rw [e]
  · exact absurd (h1 w hw e) (not_lt.mpr (h2 v hv (Ne.symm e)).le)

/-- `r` is positive, finite and less than `d` from `x`. -/
def Within (d x : ℝ) (r : Fp) : Prop := ∃ v, r = .fin false v ∧ |real v - x| < d

theorem root_between {x a b : ℝ} {n : Nat} {y : ℝ} (hx : 0 ≤ x) (hb : 0 ≤ b) (e : x ^ n = y) (h1 : a ^ n < y) (h2 : y < b ^ n) :
    a < x ∧ x < b := by
  subst e
  exact ⟨lt_of_pow_lt_pow_left₀ n hx h1, lt_of_pow_lt_pow_left₀ n hb h2⟩

theorem root12_bounds : 1.05946309435929526 < (2 : ℝ) ^ (1 / 12 : ℝ) ∧ (2 : ℝ) ^ (1 / 12 : ℝ) < 1.05946309435929527 := by
  refine root_between (n := 12) (y := 2) (by positivity) (by norm_num) ?_ (by norm_num) (by norm_num)
  rw [← Real.rpow_natCast, ← Real.rpow_mul (by norm_num)]; norm_num

theorem root13_bounds : 1.08818224346331667 < (3 : ℝ) ^ (1 / 13 : ℝ) ∧ (3 : ℝ) ^ (1 / 13 : ℝ) < 1.0881822434633168 := by
  refine root_between (n := 13) (y := 3) (by positivity) (by norm_num) ?_ (by norm_num) (by norm_num)
  rw [← Real.rpow_natCast, ← Real.rpow_mul (by norm_num)]; norm_num

/-- A number with 53 digits that is nearer shows that one is not the nearest. -/
theorem not_nearest (c : Fp) (q q' t : Nat) (x : ℝ) (ht : t ≤ 1074) (hc : c = .fin false (q * 2 ^ (1074 - t))) (hne : q' ≠ q) (hq : q' < 2 ^ 53)
    (h : |(q' : ℝ) / 2 ^ t - x| < |(q : ℝ) / 2 ^ t - x|) : ¬ NearestReal x c := by
  rintro ⟨v, hv, -, hn⟩
  rw [hc] at hv
  injection hv with _ hv
  have := hn (q' * 2 ^ (1074 - t)) ⟨q', _, hq, rfl⟩ (by
    rw [← hv]
    exact fun e => hne (Nat.eq_of_mul_eq_mul_right (Nat.two_pow_pos _) e))
  rw [← hv, real_mul _ _ ht, real_mul _ _ ht] at this
  exact absurd this (not_lt.mpr h.le)

theorem within_of (c : Fp) (q t : Nat) (x d : ℝ) (ht : t ≤ 1074) (hc : c = .fin false (q * 2 ^ (1074 - t))) (l : x - d < (q : ℝ) / 2 ^ t)
    (u : (q : ℝ) / 2 ^ t < x + d) : Within d x c := by
  refine ⟨_, hc, ?_⟩
  rw [real_mul _ _ ht, abs_sub_lt_iff]
  constructor <;> linarith

/-- **C78**, what is wrong: `degtorad`, `radtodeg` and the two roots are not the `double`s nearest to π/180, 180/π, 2^(1/12) and 3^(1/13). -/
theorem C78_nearest_fails : ¬ NearestReal (Real.pi / 180) cDegToRad ∧ ¬ NearestReal (180 / Real.pi) cRadToDeg ∧
    ¬ NearestReal ((2 : ℝ) ^ (1 / 12 : ℝ)) cRoot12 ∧ ¬ NearestReal ((3 : ℝ) ^ (1 / 13 : ℝ)) cRoot13 := by
  have p1 := Real.pi_gt_d20
  have p2 := Real.pi_lt_d20
  obtain ⟨i1, i2⟩ := inv_between (by norm_num) p1 p2
  obtain ⟨a1, a2⟩ := root12_bounds
  obtain ⟨b1, b2⟩ := root13_bounds
  refine ⟨?_, ?_, ?_, ?_⟩
  · refine not_nearest _ 5030484754975825 5030569068109113 58 _ (by decide) (by decide +kernel) (by decide) (by decide) ?_
    rw [abs_sub_comm, abs_sub_comm (_ / _) (Real.pi / 180), abs_of_pos (by norm_num at *; linarith), abs_of_pos (by norm_num at *; linarith)]
    norm_num at *
  · rw [show (180 : ℝ) / Real.pi = 180 * (1 / Real.pi) by ring]
    refine not_nearest _ 8063664170559435 8063664102031864 47 _ (by decide) (by decide +kernel) (by decide) (by decide) ?_
    rw [abs_of_pos (by norm_num at *; linarith), abs_of_pos (by norm_num at *; linarith)]
    norm_num at *
  · refine not_nearest _ 4771397596969314 4771397596969315 52 _ (by decide) (by decide +kernel) (by decide) (by decide) ?_
    rw [abs_lt, abs_of_neg (by norm_num at *; linarith)]
    norm_num at *
    linarith
  · refine not_nearest _ 4900737146172585 4900737146172584 52 _ (by decide) (by decide +kernel) (by decide) (by decide) ?_
    rw [abs_lt, abs_of_pos (by norm_num at *; linarith)]
    norm_num at *
    linarith

/-- **C78**, in part: how far these are from the numbers they are named after.  The full claim is `C78_nearest` for them, which fails. -/
theorem C78_near_partial : Within 3e-7 (Real.pi / 180) cDegToRad ∧ Within 5e-7 (180 / Real.pi) cRadToDeg ∧
    Within (1 / 2 ^ 52) ((2 : ℝ) ^ (1 / 12 : ℝ)) cRoot12 ∧ Within (2 / 2 ^ 52) ((3 : ℝ) ^ (1 / 13 : ℝ)) cRoot13 := by
  have p1 := Real.pi_gt_d20
  have p2 := Real.pi_lt_d20
  obtain ⟨i1, i2⟩ := inv_between (by norm_num) p1 p2
  obtain ⟨a1, a2⟩ := root12_bounds
  obtain ⟨b1, b2⟩ := root13_bounds
  refine ⟨?_, ?_, ?_, ?_⟩
  · refine within_of _ 5030484754975825 58 _ _ (by decide) (by decide +kernel) ?_ ?_ <;> norm_num at * <;> linarith
  · rw [show (180 : ℝ) / Real.pi = 180 * (1 / Real.pi) by ring]
    refine within_of _ 8063664170559435 47 _ _ (by decide) (by decide +kernel) ?_ ?_ <;> norm_num at * <;> linarith
  · refine within_of _ 4771397596969314 52 _ _ (by decide) (by decide +kernel) ?_ ?_ <;> norm_num at * <;> linarith
  · refine within_of _ 4900737146172585 52 _ _ (by decide) (by decide +kernel) ?_ ?_ <;> norm_num at * <;> linarith

/-- All the constants. -/
def constants : List Fp := [cPi, cTwoPi, cHalfPi, cQuarterPi, cOneOverPi, cTwoOverPi, cDegToRad, cRadToDeg, cE, cLn2, cLn10, cLog2E, cLog10E,
  cSqrt2, cSqrtHalf, cPhi, cRoot12, cRoot13]

/-- **C78**: a constant is a list of one `double`, whatever the arguments are. -/
theorem C78_list (c : Fp) (hc : c ∈ constants) (argv : List Ar) :
    ∃ out w, constant c argv = some (0, some out) ∧ Holds (some out) [w] ∧ NumVal w c := by
  have h : ∀ c ∈ constants, Fp.ofBits f64 (Fp.toBits f64 c % 2 ^ 64) = c := by decide +kernel
  obtain ⟨u, h1, h2⟩ := setDouble_fresh (Fp.toBits f64 c)
  refine ⟨[u], _, ?_, by simp [Holds, argsVal, h2], _, Nat.mod_lt _ (by decide), rfl, h c hc⟩
  simp [constant, setTo, mk, h1]

/-- Non-vacuity: the list has 18 constants, and 14 of them are nearest to the real numbers. -/
example : constants.length = 18 ∧ realConstants.length = 14 ∧ ∀ p ∈ realConstants, p.1 ∈ constants := by
  refine ⟨rfl, rfl, ?_⟩
  simp [realConstants, constants]

end Libo.Props
