import Verif.Props.ExprRound
import Verif.ExprMath
/-!
# C76: square roots, remainders and exponents
-/

namespace Libo.Props
open Libo Libo.Expr Libo.Ieee

/-! ## Specification

Numbers are counted in units of 2^-1074, so that the root of `m` units is the root of `m * 2^1074`, in units. -/

/-- `r` is the number nearest to the square root of `x`: the root lies on the side of `v` of the middle between `v` and any other number `w`
that fits in a `double`.  The root of a negative number is NaN, that of a zero the zero. -/
def SqrtOf : Fp → Fp → Prop
  | .nan, r => r = .nan
  | .inf s, r => r = if s then .nan else .inf false
  | .fin s m, r => (m = 0 → r = .fin s 0) ∧ (m ≠ 0 → s = true → r = .nan) ∧
      (m ≠ 0 → s = false → ∃ v, r = .fin false v ∧ Grid 53 v ∧ ∀ w, Grid 53 w →
        (v < w → 4 * (m * 2 ^ 1074) < (v + w) * (v + w)) ∧ (w < v → (v + w) * (v + w) < 4 * (m * 2 ^ 1074)))

theorem isqrt_spec (n : Nat) : isqrt n * isqrt n ≤ n ∧ n < (isqrt n + 1) * (isqrt n + 1) := by
  induction n using Nat.strongRecOn with
  | _ n ih =>
    rw [isqrt]
    split
    · rename_i h; subst h; decide
    · rename_i h
      obtain ⟨h1, h2⟩ := ih (n / 4) (by omega)
      simp only
      generalize isqrt (n / 4) = r at *
      have e1 : (2 * r) * (2 * r) = 4 * (r * r) := by
        rw [Nat.mul_mul_mul_comm]
      have e2 : (2 * r + 1 + 1) * (2 * r + 1 + 1) = 4 * ((r + 1) * (r + 1)) := by
        rw [show 2 * r + 1 + 1 = 2 * (r + 1) by omega, Nat.mul_mul_mul_comm]
      split
      · rename_i h3; exact ⟨h3, by omega⟩
      · rename_i h3; exact ⟨by omega, by omega⟩

/-- Numbers with 53 digits that are not below 2^k, with 53 ≤ k, are even. -/
theorem grid_even {k w : Nat} (hk : 53 ≤ k) (hw : Grid 53 w) (h : 2 ^ k ≤ w) : w % 2 = 0 := by
  obtain ⟨a, s, ha, rfl⟩ := hw
  cases s with
  | zero =>
    have : 2 ^ 53 ≤ 2 ^ k := Nat.pow_le_pow_right (by decide) hk
    omega
  | succ s => rw [Nat.pow_succ, ← Nat.mul_assoc]; omega

theorem grid_pow (k : Nat) : Grid 53 (2 ^ k) := ⟨1, k, by decide, by omega⟩

theorem sq_lt {a b : Nat} (h : a * a < b * b) : a < b := by
  rcases Nat.lt_or_ge a b with g | g
  · exact g
  · have := Nat.mul_le_mul g g; omega

theorem sq_le {a b : Nat} (h : a ≤ b) : a * a ≤ b * b := Nat.mul_le_mul h h

/-- What is nearest to the whole part of a root, with a half added unless it is exact, is nearest to the root. -/
theorem nearest_root (n r k v : Nat) (hk : 53 ≤ k) (h1 : r * r ≤ n) (h2 : n < (r + 1) * (r + 1)) (hr1 : 2 ^ k ≤ r) (hr2 : r < 2 ^ (k + 1))
    (hv : Nearest 53 v (2 * r + if r * r = n then 0 else 1) 2) :
    2 ^ k ≤ v ∧ v ≤ 2 ^ (k + 1) ∧ ∀ w, Grid 53 w → (v < w → 4 * n ≤ (v + w) * (v + w)) ∧ (w < v → (v + w) * (v + w) ≤ 4 * n) := by
  obtain ⟨hg, hn⟩ := hv
  have e2 : 2 ^ (k + 1) = 2 * 2 ^ k := by rw [Nat.pow_succ]; omega
  have k1 := hn _ (grid_pow k)
  have k2 := hn _ (grid_pow (k + 1))
  simp only [dist] at k1 k2 hn
  have hlo : 2 ^ k ≤ v := by split at k1 <;> omega
  have hhi : v ≤ 2 ^ (k + 1) := by split at k2 <;> omega
  refine ⟨hlo, hhi, fun w hw => ⟨fun hlt => ?_, fun hlt => ?_⟩⟩
  · have := hn w hw
    have ev := grid_even hk hg hlo
    have ew := grid_even hk hw (by omega)
    split at this
    · rename_i e
      have : 2 * r ≤ v + w := by omega
      have := sq_le this
      rw [Nat.mul_mul_mul_comm] at this
      omega
    · have : 2 * (r + 1) ≤ v + w := by omega
      have := sq_le this
      rw [Nat.mul_mul_mul_comm] at this
      omega
  · by_cases hw2 : 2 ^ k ≤ w
    · have := hn w hw
      have ev := grid_even hk hg hlo
      have ew := grid_even hk hw hw2
      have : v + w ≤ 2 * r := by split at this <;> omega
      have := sq_le this
      rw [Nat.mul_mul_mul_comm] at this
      omega
    · have ev := grid_even hk hg hlo
      have ew := grid_even hk (grid_pow k) (Nat.le_refl _)
      have : v + w ≤ 2 * r := by split at k1 <;> omega
      have := sq_le this
      rw [Nat.mul_mul_mul_comm] at this
      omega

theorem odd_part (u : Nat) (hu : 0 < u) : ∃ o j, o % 2 = 1 ∧ u = o * 2 ^ j := by
  induction u using Nat.strongRecOn with
  | _ u ih =>
    rcases Nat.mod_two_eq_zero_or_one u with h | h
    · obtain ⟨o, j, h1, h2⟩ := ih (u / 2) (by omega) (by omega)
      refine ⟨o, j + 1, h1, ?_⟩
      rw [Nat.pow_succ, ← Nat.mul_assoc, ← h2]; omega
    · exact ⟨u, 0, h, by omega⟩

/-- A whole root of a number with 53 digits has 53 digits. -/
theorem grid_root {n u : Nat} (hn : Grid 53 n) (h0 : 0 < n) (h : u * u = n) : Grid 53 u := by
  obtain ⟨a, t, ha, rfl⟩ := hn
  have hu : 0 < u := by
    rcases Nat.eq_zero_or_pos u with rfl | h'
    · omega
    · exact h'
  obtain ⟨o, j, h1, rfl⟩ := odd_part u hu
  refine ⟨o, j, ?_, rfl⟩
  have hc : Nat.Coprime (o * o) (2 ^ t) := by
    have h2 : Nat.Coprime o 2 := by
      rw [Nat.coprime_comm, Nat.Coprime, Nat.gcd_rec, h1]; rfl
    have : Nat.Coprime o (2 ^ t) := Nat.Coprime.pow_right t h2
    exact Nat.Coprime.mul_left this this
  have hd : o * o ∣ a := by
    refine hc.dvd_of_dvd_mul_right (m := a) ?_
    rw [← h]
    exact ⟨2 ^ j * 2 ^ j, by rw [Nat.mul_mul_mul_comm]⟩
  have ha0 : 0 < a := by
    rcases Nat.eq_zero_or_pos a with rfl | h'
    · simp at h0
    · exact h'
  have := Nat.le_of_dvd ha0 hd
  have : o ≤ o * o := Nat.le_mul_self o
  omega

theorem sqrt_spec {x : Fp} (hx : Fp.Good f64 x) : SqrtOf x (fpSqrt x) ∧ Fp.Good f64 (fpSqrt x) := by
  cases x with
  | nan => exact ⟨rfl, trivial⟩
  | inf s => cases s <;> exact ⟨rfl, trivial⟩
  | fin s m =>
    rw [fpSqrt]
    by_cases h0 : m = 0
    · subst h0
      rw [if_pos rfl]
      exact ⟨⟨fun _ => rfl, fun h => absurd rfl h, fun h => absurd rfl h⟩, hx⟩
    rw [if_neg h0]
    cases s with
    | true => exact ⟨⟨fun h => absurd h h0, fun _ _ => rfl, fun _ h => (by cases h)⟩, trivial⟩
    | false =>
      rw [if_neg (by decide)]
      dsimp only
      have hR := Fp.finish_rounded f64 (by decide) false
        (2 * isqrt (m * 2 ^ 1074) + if isqrt (m * 2 ^ 1074) * isqrt (m * 2 ^ 1074) = m * 2 ^ 1074 then 0 else 1) 2 (by decide)
      generalize Fp.finish f64 false
        (2 * isqrt (m * 2 ^ 1074) + if isqrt (m * 2 ^ 1074) * isqrt (m * 2 ^ 1074) = m * 2 ^ 1074 then 0 else 1) 2 = y at hR ⊢
      refine ⟨⟨fun h => absurd h h0, fun _ h => (by cases h), fun _ _ => ?_⟩, rounded_good f64 _ _ _ y hR⟩
      obtain ⟨hg, ht⟩ := hx
      have hg2 : Grid 53 (m * 2 ^ 1074) := by
        obtain ⟨a, t, ha, rfl⟩ := hg
        exact ⟨a, t + 1074, ha, by rw [Nat.mul_assoc, ← Nat.pow_add]⟩
      have hlow : 2 ^ 1074 ≤ m * 2 ^ 1074 := Nat.le_mul_of_pos_left _ (by omega)
      have htop : m * 2 ^ 1074 < 2 ^ 3172 := by
        have : 2 ^ f64.top * 2 ^ 1074 = 2 ^ 3172 := by rw [← Nat.pow_add]; rfl
        rw [← this]
        exact Nat.mul_lt_mul_of_pos_right ht (Nat.two_pow_pos _)
      obtain ⟨v, hv, hr⟩ := hR
      obtain ⟨s1, s2⟩ := isqrt_spec (m * 2 ^ 1074)
      generalize isqrt (m * 2 ^ 1074) = r at *
      generalize m * 2 ^ 1074 = n at *
      have hr1 : 2 ^ 537 ≤ r := by
        have e : 2 ^ 537 * 2 ^ 537 = 2 ^ 1074 := by rw [← Nat.pow_add]
        have := sq_lt (a := 2 ^ 537) (b := r + 1) (by omega)
        omega
      have hr2 : r < 2 ^ 1586 := by
        have e : 2 ^ 1586 * 2 ^ 1586 = 2 ^ 3172 := by rw [← Nat.pow_add]
        exact sq_lt (by omega)
      have hr0 : r ≠ 0 := by have := Nat.two_pow_pos 537; omega
      have l1 : 2 ^ Nat.log2 r ≤ r := Nat.log2_self_le hr0
      have l2 : r < 2 ^ (Nat.log2 r + 1) := Nat.lt_log2_self
      have l3 : 537 ≤ Nat.log2 r := (Nat.le_log2 hr0).mpr hr1
      have l4 : Nat.log2 r < 1586 := (Nat.log2_lt hr0).mpr hr2
      obtain ⟨b1, b2, hall⟩ := nearest_root n r (Nat.log2 r) v (by omega) s1 s2 l1 l2 hv
      have hvt : v < 2 ^ f64.top := by
        have : 2 ^ (Nat.log2 r + 1) ≤ 2 ^ 1586 := Nat.pow_le_pow_right (by decide) (by omega)
        have : 2 ^ 1586 < 2 ^ f64.top := Nat.pow_lt_pow_right (by decide) (by decide)
        omega
      have hn0 : 0 < n := by have := Nat.two_pow_pos 1074; omega
      refine ⟨v, ?_, hv.1, fun w hw => ?_⟩
      · rcases hr with ⟨-, h⟩ | ⟨h, -⟩
        · exact h
        · omega
      · have tie : ∀ w, Grid 53 w → w ≠ v → (v + w) * (v + w) ≠ 4 * n := by
          intro w hw hne e
          have he : (v + w) % 2 = 0 := by
            rcases Nat.mod_two_eq_zero_or_one (v + w) with h | h
            · exact h
            · have : (v + w) * (v + w) % 2 = 1 := by rw [Nat.mul_mod, h]
              omega
          obtain ⟨u, hu⟩ : ∃ u, v + w = 2 * u := ⟨(v + w) / 2, by omega⟩
          rw [hu, Nat.mul_mul_mul_comm] at e
          have e' : u * u = n := by omega
          have := hall u (grid_root hg2 hn0 e')
          rcases Nat.lt_or_gt_of_ne hne with h | h
          · have g := this.2 (by omega)
            have g2 : 2 * u < v + u := by omega
            have := Nat.mul_lt_mul_of_lt_of_le g2 (Nat.le_of_lt g2) (by omega)
            rw [Nat.mul_mul_mul_comm] at this
            omega
          · have g := this.1 (by omega)
            have g2 : v + u < 2 * u := by omega
            have := Nat.mul_lt_mul_of_lt_of_le g2 (Nat.le_of_lt g2) (by omega)
            rw [Nat.mul_mul_mul_comm 2 u 2 u] at this
            omega
        have := hall w hw
        have := tie w hw
        exact ⟨fun h => by omega, fun h => by omega⟩

/-- `r` is `x` minus the multiple of `y` that is nearest to it; of two that are equally near the even multiple.  If nothing is left, the
sign is that of `x`. -/
def NearestRemainder : Fp → Fp → Fp → Prop
  | .fin s m, .fin _ n, r => (n = 0 → r = .nan) ∧ (n ≠ 0 → ∃ (k : Int) (t : Bool) (j : Nat), r = .fin t j ∧ value t j = value s m - k * n ∧
      2 * j ≤ n ∧ (2 * j = n → k % 2 = 0) ∧ (j = 0 → t = s))
  | .fin s m, .inf _, r => r = .fin s m
  | _, _, r => r = .nan

theorem nearestRemainder_spec {x y : Fp} (hx : Fp.Good f64 x) (hy : Fp.Good f64 y) :
    NearestRemainder x y (fpRemainder x y) ∧ Fp.Good f64 (fpRemainder x y) := by
  cases x with
  | nan => exact ⟨by cases y <;> rfl, trivial⟩
  | inf s => cases y <;> exact ⟨rfl, trivial⟩
  | fin s m =>
    cases y with
    | nan => exact ⟨rfl, trivial⟩
    | inf t => exact ⟨rfl, hx⟩
    | fin t n =>
      obtain ⟨⟨k, a, hk, hm⟩, ht⟩ := hx
      obtain ⟨⟨l, b, hl, hn⟩, -⟩ := hy
      by_cases h0 : n = 0
      · rw [fpRemainder, if_pos h0]
        exact ⟨⟨fun _ => rfl, fun h => absurd h0 h⟩, trivial⟩
      have hle : m % n ≤ m := Nat.mod_le m n
      have hlt : m % n < n := Nat.mod_lt _ (Nat.pos_of_ne_zero h0)
      have hq : (m : Int) = (m / n : Nat) * n + (m % n : Nat) := by
        have := (Nat.div_add_mod m n).symm
        rw [Nat.mul_comm] at this
        exact_mod_cast this
      have key : ∀ j, j ≤ m → j ≤ n → (∀ d, d ∣ m → d ∣ n → d ∣ j) → Fp.Good f64 (.fin false j) := by
        intro j j1 j2 jd
        refine ⟨?_, Nat.lt_of_le_of_lt j1 ht⟩
        have key : ∀ e u : Nat, u < 2 ^ (f64.mb + 1) → 2 ^ e ∣ j → j ≤ u * 2 ^ e → Grid (f64.mb + 1) j := by
          intro e u hu d1 hle
          obtain ⟨i, hi⟩ := d1
          refine ⟨i, e, ?_, by rw [hi, Nat.mul_comm]⟩
          rw [hi, Nat.mul_comm] at hle
          exact Nat.lt_of_le_of_lt (Nat.le_of_mul_le_mul_right hle (Nat.two_pow_pos e)) hu
        by_cases hab : a ≤ b
        · refine key a k hk (jd _ ⟨k, by rw [hm, Nat.mul_comm]⟩ ?_) (by rw [← hm]; exact j1)
          rw [hn]; exact Nat.dvd_trans (Nat.pow_dvd_pow 2 hab) (Nat.dvd_mul_left _ _)
        · refine key b l hl (jd _ ?_ ⟨l, by rw [hn, Nat.mul_comm]⟩) (by rw [← hn]; exact j2)
          rw [hm]; exact Nat.dvd_trans (Nat.pow_dvd_pow 2 (by omega)) (Nat.dvd_mul_left _ _)
      rw [fpRemainder, if_neg h0]
      clear ht
      by_cases hc : 2 * (m % n) < n ∨ (2 * (m % n) = n ∧ m / n % 2 = 0)
      · rw [if_pos hc]
        refine ⟨⟨fun h => absurd h h0, fun _ => ⟨if s then -((m / n : Nat) : Int) else (m / n : Nat), s, m % n, rfl, ?_, by omega, ?_, fun _ => rfl⟩⟩, ?_⟩
        · cases s
          · simp only [value, if_neg (show ¬ false = true by decide)]; omega
          · simp only [value, if_true, Int.neg_mul]; omega
        · intro h; cases s <;> simp <;> omega
        · exact key (m % n) hle (Nat.le_of_lt hlt) fun d d1 d2 => (Nat.dvd_mod_iff d2).mpr d1
      · rw [if_neg hc]
        refine ⟨⟨fun h => absurd h h0, fun _ => ⟨if s then -((m / n : Nat) + 1 : Int) else (m / n : Nat) + 1, !s, n - m % n, rfl, ?_, by omega, ?_, fun h => by omega⟩⟩, ?_⟩
        · cases s
          · simp only [value, if_neg (show ¬ false = true by decide), Bool.not_false, if_true, Int.add_mul]; omega
          · simp only [value, if_true, Bool.not_true, if_neg (show ¬ false = true by decide), Int.neg_mul, Int.add_mul]; omega
        · intro h; cases s <;> simp <;> omega
        · exact key (n - m % n) (by omega) (by omega) fun d d1 d2 => Nat.dvd_sub d2 ((Nat.dvd_mod_iff d2).mpr d1)

/-- **C76**: the specification determines the result. -/
theorem C76_unique (x y r r' : Fp) : (SqrtOf x r → SqrtOf x r' → r = r') ∧ (NearestRemainder x y r → NearestRemainder x y r' → r = r') := by
  constructor
  · intro h h'
    cases x with
    | nan => exact h.trans h'.symm
    | inf s => exact h.trans h'.symm
    | fin s m =>
      obtain ⟨h1, h2, h3⟩ := h
      obtain ⟨g1, g2, g3⟩ := h'
      by_cases h0 : m = 0
      · exact (h1 h0).trans (g1 h0).symm
      cases s with
      | true => exact (h2 h0 rfl).trans (g2 h0 rfl).symm
      | false =>
        obtain ⟨v, rfl, hv, hn⟩ := h3 h0 rfl
        obtain ⟨w, rfl, hw, hm⟩ := g3 h0 rfl
        have a1 := hn w hw
        have a2 := hm v hv
        rw [Nat.add_comm w v] at a2
        generalize m * 2 ^ 1074 = N at *
        generalize (v + w) * (v + w) = K at *
        have : v = w := by omega
        rw [this]
  · intro h h'
    cases x with
    | nan => cases y <;> exact h.trans h'.symm
    | inf s => cases y <;> exact h.trans h'.symm
    | fin s m =>
      cases y with
      | nan => exact h.trans h'.symm
      | inf t => exact h.trans h'.symm
      | fin t n =>
        by_cases h0 : n = 0
        · exact (h.1 h0).trans (h'.1 h0).symm
        obtain ⟨k, t1, j, rfl, e1, b1, c1, d1⟩ := h.2 h0
        obtain ⟨k', t2, j', rfl, e2, b2, c2, d2⟩ := h'.2 h0
        have hkk : k = k' := by
          have hd : (k' - k) * n = value t1 j - value t2 j' := by rw [Int.sub_mul]; omega
          have hv1 : value t1 j = j ∨ value t1 j = -j := by cases t1 <;> simp [value]
          have hv2 : value t2 j' = j' ∨ value t2 j' = -j' := by cases t2 <;> simp [value]
          rcases Int.lt_trichotomy k k' with g | g | g
          · have := Int.mul_le_mul_of_nonneg_right (show 1 ≤ k' - k by omega) (show (0 : Int) ≤ n by omega)
            rcases Int.lt_or_le 1 (k' - k) with g2 | g2
            · have := Int.mul_le_mul_of_nonneg_right (show 2 ≤ k' - k by omega) (show (0 : Int) ≤ n by omega)
              omega
            · omega
          · exact g
          · have e : (k - k') * n = -((k' - k) * n) := by rw [← Int.neg_mul]; congr 1; omega
            have := Int.mul_le_mul_of_nonneg_right (show 1 ≤ k - k' by omega) (show (0 : Int) ≤ n by omega)
            rcases Int.lt_or_le 1 (k - k') with g2 | g2
            · have := Int.mul_le_mul_of_nonneg_right (show 2 ≤ k - k' by omega) (show (0 : Int) ≤ n by omega)
              omega
            · omega
        subst hkk
        have : value t1 j = value t2 j' := by omega
        have hj : j = j' := by cases t1 <;> cases t2 <;> simp only [value, if_true, if_false, Bool.false_eq_true] at this <;> omega
        subst hj
        by_cases hz : j = 0
        · rw [d1 hz, d2 hz]
        · have : t1 = t2 := by
            cases t1 <;> cases t2 <;> simp only [value, if_true, if_false, Bool.false_eq_true] at this ⊢ <;> omega
          rw [this]

/-- The exponent of a number: 2^e ≤ |x| < 2^(e+1). -/
def ExponentOf (m : Nat) (e : Int) : Prop := ∃ k : Nat, e = (k : Int) - 1074 ∧ 2 ^ k ≤ m ∧ m < 2 ^ (k + 1)

/-- `r` is the exponent of `x`; that of zero is -∞, that of infinities +∞. -/
def LogbOf : Fp → Fp → Prop
  | .nan, r => r = .nan
  | .inf _, r => r = .inf false
  | .fin _ m, r => (m = 0 → r = .inf true) ∧ (m ≠ 0 → ∃ e, ExponentOf m e ∧ r = exact e)

theorem log2_exponent {m : Nat} (h : m ≠ 0) : ExponentOf m ((Nat.log2 m : Int) - 1074) :=
  ⟨Nat.log2 m, rfl, Nat.log2_self_le h, Nat.lt_log2_self⟩

theorem log2_range {x : Fp} {s : Bool} {m : Nat} (hx : Fp.Good f64 x) (e : x = .fin s m) (h : m ≠ 0) : Nat.log2 m < 2098 := by
  subst e
  exact (Nat.log2_lt h).mpr hx.2

theorem logb_spec {x : Fp} (hx : Fp.Good f64 x) : LogbOf x (fpLogb x) ∧ Fp.Good f64 (fpLogb x) := by
  cases x with
  | nan => exact ⟨rfl, trivial⟩
  | inf s => exact ⟨rfl, trivial⟩
  | fin s m =>
    rw [fpLogb]
    by_cases h0 : m = 0
    · rw [if_pos h0]; exact ⟨⟨fun _ => rfl, fun h => absurd h0 h⟩, trivial⟩
    · rw [if_neg h0]
      have hb := log2_range hx rfl h0
      have hi := ofInt_intDouble ((Nat.log2 m : Int) - 1074)
      have he := ofInt_exact ((Nat.log2 m : Int) - 1074) (by unfold Exact; omega)
      generalize Fp.ofInt f64 ((Nat.log2 m : Int) - 1074) = r at *
      exact ⟨⟨fun h => absurd h h0, fun _ => ⟨_, log2_exponent h0, he⟩⟩, intDouble_good hi⟩

/-! ## Lists -/

/-- **C76**: `sqrt` gives for every number of a list, of any type, the `double` nearest to its square root. -/
theorem C76_sqrt (a : Ar) (rest : List Ar) (vs : List Val) (xs : List Fp) (ha : Holds a vs) (hn : Numbers vs xs) (h0 : xs ≠ []) :
    ∃ out ws, math1 fpSqrt (a :: rest) = some (0, some out) ∧ Holds (some out) ws ∧ ws.length = xs.length ∧
      ∀ (i : Nat) w x, ws[i]? = some w → xs[i]? = some x → ∃ r, NumVal w r ∧ SqrtOf x r :=
  math1_spec _ _ (fun _ hx => sqrt_spec hx) a rest vs xs ha hn h0

/-- **C76**: the root of a square number is exact. -/
theorem C76_square (n : Nat) (h : n < 2 ^ 26) : SqrtOf (exact (n * n : Nat)) (exact n) := by
  have e0 : ∀ k : Nat, exact k = .fin false (k * 2 ^ 1074) := by
    intro k
    have : decide ((k : Int) < 0) = false := by simp
    rw [exact, this]; rfl
  have e1 := e0 (n * n)
  have e2 := e0 n
  rw [e1, e2]
  have hK : 0 < 2 ^ 1074 := Nat.two_pow_pos _
  refine ⟨fun h => ?_, fun _ h => (by cases h), fun _ _ => ⟨_, rfl, ⟨n, 1074, by omega, rfl⟩, fun w _ => ?_⟩⟩
  · have : n = 0 := by
      rcases Nat.eq_zero_or_pos n with g | g
      · exact g
      · have := Nat.mul_pos (Nat.mul_pos g g) hK; omega
    subst this; simp
  · have e : 4 * (n * n * 2 ^ 1074 * 2 ^ 1074) = (2 * (n * 2 ^ 1074)) * (2 * (n * 2 ^ 1074)) := by
      rw [Nat.mul_mul_mul_comm, Nat.mul_mul_mul_comm n, Nat.mul_assoc (n * n)]
    rw [e]
    generalize n * 2 ^ 1074 = v
    constructor
    · intro h
      exact Nat.mul_lt_mul_of_lt_of_le (by omega) (by omega) (by omega)
    · intro h
      exact Nat.mul_lt_mul_of_lt_of_le (by omega) (by omega) (by omega)

/-- **C76**: `remainder` gives for every pair what is left after subtracting the nearest multiple. -/
theorem C76_remainder (a b : Ar) (vs ws : List Val) (ha : Holds a vs) (hb : Holds b ws) (hv : AllDoubles vs) (hw : AllDoubles ws)
    (h : ¬ (vs.length = 1 ∧ ws.length = 0) ∧ ¬ (vs.length = 0 ∧ ws.length = 1)) :
    ∃ out rs, math2 fpRemainder [a, b] = some (0, some out) ∧ Holds (some out) rs ∧ rs.length = (broadcast vs ws).length ∧
      ∀ (i : Nat) r v w x y, rs[i]? = some r → (broadcast vs ws)[i]? = some (v, w) → IsDouble v x → IsDouble w y →
        ∃ z, NumVal r z ∧ NearestRemainder x y z :=
  math2_spec fpRemainder NearestRemainder (fun _ _ hx hy => nearestRemainder_spec hx hy) a b vs ws ha hb hv hw h

/-- **C76**: `logb` gives the exponents as `double`s. -/
theorem C76_logb (a : Ar) (rest : List Ar) (vs : List Val) (xs : List Fp) (ha : Holds a vs) (hn : Numbers vs xs) (h0 : xs ≠ []) :
    ∃ out ws, math1 fpLogb (a :: rest) = some (0, some out) ∧ Holds (some out) ws ∧ ws.length = xs.length ∧
      ∀ (i : Nat) w x, ws[i]? = some w → xs[i]? = some x → ∃ r, NumVal w r ∧ LogbOf x r :=
  math1_spec _ _ (fun _ hx => logb_spec hx) a rest vs xs ha hn h0

/-- **C76**: `ilogb` gives the exponents as integers. -/
theorem C76_ilogb (a : Ar) (vs : List Val) (xs : List Fp) (ha : Holds a vs) (hn : Numbers vs xs)
    (hf : ∀ x ∈ xs, ∃ s m, x = .fin s m ∧ m ≠ 0) :
    ∃ out ws, ilogbF [a] = some (0, some out) ∧ Holds (some out) ws ∧ ws.length = xs.length ∧
      ∀ (i : Nat) w s m, ws[i]? = some w → xs[i]? = some (.fin s m) → ∃ e, ExponentOf m e ∧ w = ITy.i32.val e := by
  have hl : len a = xs.length := by rw [holds_len ha, hn.1]
  obtain ⟨out, ws, h1, h2, h3, h4⟩ := forN_each (len a)
    (fun i w => ∀ s m, xs[i]? = some (.fin s m) → ∃ e, ExponentOf m e ∧ w = ITy.i32.val e)
    (fun i out => (fpOf (at? a i)).bind fun x => (fpIlogb x).bind fun n => setTo out i (·.setInt32 n)) (by
    intro i hi
    have hx : xs[i]? = some (xs[i]'(by omega)) := List.getElem?_eq_getElem _
    generalize xs[i]'(by omega) = x at hx
    obtain ⟨u, v, -, -, -, hd, g⟩ := numbers_at ha hn hx
    obtain ⟨s, m, rfl, hm⟩ := hf x (List.mem_of_getElem? hx)
    obtain ⟨r, p1, p2⟩ := setU_fresh .i32 ((Nat.log2 m : Int) - 1074)
    refine ⟨fun u => u.setInt32 ((Nat.log2 m : Int) - 1074), r, _, fun out => ?_, p1, p2, fun s' m' h => ?_⟩
    · rw [g, Option.bind_some, fpIlogb, if_neg hm, Option.bind_some]
    · rw [hx] at h; injection h with h; injection h with _ h; subst h
      exact ⟨_, log2_exponent hm, rfl⟩)
  refine ⟨out, ws, ?_, h2, by rw [h3, hl], fun i w s m hw hx => h4 i w hw s m hx⟩
  simp only [ilogbF, h1, Option.map_some]

/-- Non-vacuity: the root of 2 is not exact, that of 9 is; `remainder(5, 3)` is -1 and `remainder(3, 2)` is -1 (the even multiple);
8 and 1/3 have the exponents 3 and -2. -/
example : (math1 fpSqrt [some [atomOf .i32 9, atomOf .i32 0, atomOf .i32 (-1)]]).map
      (fun r => (r.1, r.2.map (·.map (fun a => (a.tag, Fp.ofBits f64 a.w.raw))))) =
      some (0, some [(100, exact 3), (100, exact 0), (100, .nan)]) ∧
    (math2 fpRemainder [some [atomOf .i32 5, atomOf .i32 3], some [atomOf .i32 3, atomOf .i32 2]]).map
      (fun r => (r.1, r.2.map (·.map (fun a => (a.tag, Fp.ofBits f64 a.w.raw))))) =
      some (0, some [(100, exact (-1)), (100, exact (-1))]) ∧
    Fp.toBits f64 (fpSqrt (exact 2)) = 0x3FF6A09E667F3BCD ∧
    (ilogbF [some [atomOf .i32 8, (UAtom.fresh.setDouble 0x3FD5555555555555).getD .fresh]]).map
      (fun r => (r.1, r.2.map (·.map (fun a => (a.tag, a.w.raw))))) = some (0, some [(105, 3), (105, 4294967294)]) := by
  refine ⟨?_, ?_, ?_, ?_⟩ <;> decide +kernel

end Libo.Props
