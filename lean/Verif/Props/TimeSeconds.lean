import Verif.Props.ExprFloat
import Verif.Props.Timetag
/-!
# C64: time tags and seconds in the expression language

A number of seconds is a `double` `.fin false m`, in units of 2^-1074 seconds; a time tag counts in units of 2^-32 seconds.
-/

namespace Libo.Props
open Libo Libo.Expr Libo.Ieee

/-- What is nearest to a number lies between the multiples of `2 ^ s` around it, as long as these are on the grid. -/
theorem nearest_between (p v n d s q : Nat) (hp : 0 < p) (hd : 0 < d) (hv : Nearest p v n d) (hq : q < 2 ^ p) (h1 : q * 2 ^ s * d ≤ n)
    (h2 : n < (q + 1) * 2 ^ s * d) : q * 2 ^ s ≤ v ∧ v ≤ (q + 1) * 2 ^ s := by
  have k1 := hv.2 _ (Fp.grid_low p q s hq)
  have k2 := hv.2 _ (Fp.grid_high p q s hp hq)
  simp only [Ieee.dist] at k1 k2
  refine ⟨Nat.le_of_not_lt fun h => ?_, Nat.le_of_not_lt fun h => ?_⟩
  · have := Nat.mul_lt_mul_of_pos_right h hd
    omega
  · have := Nat.mul_lt_mul_of_pos_right h hd
    omega

theorem grid_whole (p m j : Nat) (h : Grid p m) : Grid p (m - m % 2 ^ j) := by
  obtain ⟨k, e, hk, rfl⟩ := h
  by_cases he : j ≤ e
  · have : k * 2 ^ e % 2 ^ j = 0 := by
      rw [show e = j + (e - j) by omega, Nat.pow_add, Nat.mul_comm (2 ^ j), ← Nat.mul_assoc]; exact Nat.mul_mod_left _ _
    rw [this]; exact ⟨k, e, hk, rfl⟩
  · have e1 : 2 ^ j = 2 ^ (j - e) * 2 ^ e := by rw [← Nat.pow_add]; congr 1; omega
    refine ⟨k - k % 2 ^ (j - e), e, by omega, ?_⟩
    rw [e1, Nat.mul_mod_mul_right, Nat.sub_mul]

/-- The seconds of a number: nothing is rounded. -/
theorem sec_part (m : Nat) (hg : Fp.Good f64 (.fin false m)) :
    Fp.sub f64 (.fin false m) (.fin false (m % 2 ^ 1074)) = .fin false (m / 2 ^ 1074 * 2 ^ 1074) := by
  have hdm : m / 2 ^ 1074 * 2 ^ 1074 = m - m % 2 ^ 1074 := by
    have := Nat.div_add_mod m (2 ^ 1074)
    rw [Nat.mul_comm]; omega
  have h := Fp.diff_of f64 (by decide) (.fin false m) (.fin false (m % 2 ^ 1074))
  simp only [DiffOf] at h
  have hv : value false m - value false (m % 2 ^ 1074) = ((m - m % 2 ^ 1074 : Nat) : Int) := by
    have := Nat.mod_le m (2 ^ 1074)
    simp only [value, Bool.false_eq_true, if_false]; omega
  rw [hv] at h
  rw [hdm]
  have hgw := grid_whole _ m 1074 hg.1
  have hlt : m - m % 2 ^ 1074 < 2 ^ f64.top := Nat.lt_of_le_of_lt (Nat.sub_le _ _) hg.2
  generalize Fp.sub f64 (.fin false m) (.fin false (m % 2 ^ 1074)) = r at *
  generalize m - m % 2 ^ 1074 = w at *
  by_cases h0 : w = 0
  · subst h0
    exact h.1 rfl
  · have := h.2 (by omega)
    rw [show decide ((w : Int) < 0) = false by simp, Int.natAbs_natCast] at this
    exact Fp.rounded_exact f64 false w 1 (by decide) hgw hlt r (by rw [Nat.mul_one]; exact this)

/-- The fraction of a number: at most the largest fraction, and off by less than one unit from the fraction times 2^32 - 1. -/
theorem frac_part (f : Nat) (hf : f < 2 ^ 1074) : ∃ v, Fp.mul f64 (.fin false f) fracScale = .fin false v ∧
    f * 4294967295 / 2 ^ 1074 ≤ v / 2 ^ 1074 ∧ v / 2 ^ 1074 ≤ f * 4294967295 / 2 ^ 1074 + 1 ∧ v / 2 ^ 1074 ≤ 4294967295 ∧ (f = 0 → v = 0) := by
  have h := Fp.product_of f64 (by decide) (.fin false f) fracScale
  simp only [ProductOf, fracScale] at h
  obtain ⟨v, h1, h2⟩ := h
  have hu : f64.unit = 1074 := by decide
  have ht : f64.top = 2098 := by decide
  have hp : f64.mb + 1 = 53 := rfl
  rw [hu, hp] at h1
  rw [ht] at h2
  have hU := Nat.two_pow_pos 1074
  have hlt : 4294967296 * 2 ^ 1074 ≤ 2 ^ 2098 := by
    rw [show (4294967296 : Nat) = 2 ^ 32 by decide, ← Nat.pow_add]; exact Nat.pow_le_pow_right (by decide) (by decide)
  have hq : f * 4294967295 / 2 ^ 1074 < 4294967295 := by
    rw [Nat.div_lt_iff_lt_mul hU, Nat.mul_comm 4294967295]
    exact Nat.mul_lt_mul_of_pos_right hf (by decide)
  have hdm := Nat.div_add_mod (f * 4294967295) (2 ^ 1074)
  have hml := Nat.mod_lt (f * 4294967295) hU
  have hb := nearest_between 53 v (f * (4294967295 * 2 ^ 1074)) (2 ^ 1074) 1074 (f * 4294967295 / 2 ^ 1074) (by decide) hU h1
    (Nat.lt_trans hq (by decide))
    (by rw [← Nat.mul_assoc]; refine Nat.mul_le_mul_right _ ?_; rw [Nat.mul_comm]; omega)
    (by rw [← Nat.mul_assoc]; refine Nat.mul_lt_mul_of_pos_right ?_ hU; rw [Nat.add_mul, Nat.one_mul, Nat.mul_comm _ (2 ^ 1074)]; omega)
  have k1 : f * 4294967295 / 2 ^ 1074 ≤ v / 2 ^ 1074 := (Nat.le_div_iff_mul_le hU).mpr hb.1
  have k2 : v / 2 ^ 1074 ≤ f * 4294967295 / 2 ^ 1074 + 1 := by
    rw [← Nat.mul_div_cancel (f * 4294967295 / 2 ^ 1074 + 1) hU]; exact Nat.div_le_div_right hb.2
  have k4 : v < 2 ^ 2098 := by
    refine Nat.lt_of_lt_of_le ?_ hlt
    refine Nat.lt_of_le_of_lt hb.2 (Nat.mul_lt_mul_of_pos_right (by omega) hU)
  have hres : Fp.mul f64 (.fin false f) (.fin false (4294967295 * 2 ^ 1074)) = .fin false v := by
    rcases h2 with ⟨-, h⟩ | ⟨h, -⟩
    · exact h
    · exact absurd h (Nat.not_le.mpr k4)
  refine ⟨v, hres, k1, k2, by omega, fun h0 => ?_⟩
  subst h0
  have := h1.2 0 (Fp.grid_zero 53)
  simp only [Ieee.dist, Nat.zero_mul] at this
  have hv : v * 2 ^ 1074 = 0 := by omega
  rcases Nat.mul_eq_zero.mp hv with h | h
  · exact h
  · omega

/-- A number of seconds as a time tag. -/
theorem fpToTime_spec (m : Nat) (hg : Fp.Good f64 (.fin false m)) (hm : m / 2 ^ 1074 < 2 ^ 32) :
    ∃ t, fpToTime (.fin false m) = some t ∧ t.sec.toNat = m / 2 ^ 1074 ∧
      (m % 2 ^ 1074) * 4294967295 / 2 ^ 1074 ≤ t.frac.toNat ∧ t.frac.toNat ≤ (m % 2 ^ 1074) * 4294967295 / 2 ^ 1074 + 1 ∧
      (m % 2 ^ 1074 = 0 → t.frac.toNat = 0) := by
  have hU := Nat.two_pow_pos 1074
  obtain ⟨v, h1, h2, h3, h4, h5⟩ := frac_part (m % 2 ^ 1074) (Nat.mod_lt _ hU)
  have hs := sec_part m hg
  have hu : f64.unit = 1074 := by decide
  have t1 : Fp.toInt f64 0 M32 (.fin false (m / 2 ^ 1074 * 2 ^ 1074)) = some ((m / 2 ^ 1074 : Nat) : Int) := by
    simp only [Fp.toInt, hu, Nat.mul_div_cancel _ hU, Fp.signed, Bool.false_eq_true, if_false]
    generalize m / 2 ^ 1074 = q at *
    rw [if_pos]
    exact ⟨by omega, by simp only [M32]; omega⟩
  have t2 : Fp.toInt f64 0 M32 (.fin false v) = some ((v / 2 ^ 1074 : Nat) : Int) := by
    simp only [Fp.toInt, hu, Fp.signed, Bool.false_eq_true, if_false]
    generalize v / 2 ^ 1074 = q at *
    rw [if_pos]
    exact ⟨by omega, by simp only [M32]; omega⟩
  have hv : v / 2 ^ 1074 % 2 ^ 32 = v / 2 ^ 1074 := Nat.mod_eq_of_lt (Nat.lt_of_le_of_lt h4 (by decide))
  refine ⟨⟨UInt32.ofNat (m / 2 ^ 1074), UInt32.ofNat (v / 2 ^ 1074)⟩, ?_, ?_, ?_, ?_, ?_⟩
  · simp only [fpToTime, hs, h1, t1, t2, Option.bind_some, Option.map_some, Int.toNat_natCast]
  all_goals simp only [UInt32.toNat_ofNat']
  · exact Nat.mod_eq_of_lt hm
  · rw [hv]; exact h2
  · rw [hv]; exact h3
  · intro h0
    rw [h5 h0, Nat.zero_div]

/-- The number of 2^-32 seconds of a time tag is the number of seconds up to two units. -/
def Close (t m : Nat) : Prop := t * 2 ^ 1074 < m * 2 ^ 32 + 2 * 2 ^ 1074 ∧ m * 2 ^ 32 < t * 2 ^ 1074 + 2 * 2 ^ 1074

theorem close_of (m sec frac U q : Nat) (hU : 0 < U) (hs : sec = m / U) (hq : q = m % U * 4294967295 / U) (h1 : q ≤ frac) (h2 : frac ≤ q + 1) :
    (sec * 4294967296 + frac) * U < m * 2 ^ 32 + 2 * U ∧ m * 2 ^ 32 < (sec * 4294967296 + frac) * U + 2 * U := by
  have d1 := Nat.div_add_mod m U
  have d2 := Nat.mod_lt m hU
  have d3 := Nat.div_add_mod (m % U * 4294967295) U
  have d4 := Nat.mod_lt (m % U * 4294967295) hU
  rw [← hs] at d1
  rw [← hq] at d3
  have e1 : U * sec = sec * U := Nat.mul_comm _ _
  have e2 : U * q = q * U := Nat.mul_comm _ _
  have l1 := Nat.mul_le_mul_right U h1
  have l2 := Nat.mul_le_mul_right U h2
  rw [Nat.add_mul, Nat.one_mul] at l2
  have e3 : (sec * 4294967296 + frac) * U = sec * U * 4294967296 + frac * U := by rw [Nat.add_mul, Nat.mul_right_comm]
  rw [e3, show (2 : Nat) ^ 32 = 4294967296 by decide]
  generalize sec * U = A at *
  generalize q * U = B at *
  generalize frac * U = C at *
  generalize m % U = r at *
  generalize r * 4294967295 % U = x at *
  omega

/-- A time tag for a number of seconds: `t` counts 2^-32 seconds, exactly for whole seconds. -/
theorem asTime_num (a : UAtom) (v : Val) (m : Nat) (ha : a.val = some v) (hx : IsDouble v (.fin false m)) (hm : m / 2 ^ 1074 < 2 ^ 32) :
    ∃ t, asTime a = some t ∧ Close (ttValue t) m ∧ t.sec.toNat = m / 2 ^ 1074 ∧ (m % 2 ^ 1074 = 0 → t.frac.toNat = 0) := by
  obtain ⟨t, h1, h2, h3, h4, h5⟩ := fpToTime_spec m (isDouble_good v _ hx) hm
  have hn := (num_tags ha hx).1
  have ht : a.tag ≠ 116 := fun h => by rw [h] at hn; exact absurd hn (by decide)
  exact ⟨t, by rw [asTime, if_neg ht, getFp_val a v _ ha hx]; exact h1, close_of m _ _ _ _ (Nat.two_pow_pos _) h2 rfl h3 h4, h2, h5⟩

theorem setTimetag_fresh (t : Timetag) : ∃ u, UAtom.fresh.setTimetag t = some u ∧ u.val = some (.time t.sec.toNat t.frac.toNat) := by
  have h1 := t.sec.toNat_lt
  have h2 := t.frac.toNat_lt
  refine ⟨.mk 116 false (.bits (t.sec.toNat + M32 * t.frac.toNat)), rfl, ?_⟩
  have e1 : (t.sec.toNat + 4294967296 * t.frac.toNat) % 4294967296 = t.sec.toNat := by omega
  have e2 : (t.sec.toNat + 4294967296 * t.frac.toNat) / 4294967296 % 4294967296 = t.frac.toNat := by omega
  simp only [UAtom.val, W.raw, M32, e1, e2]
  rfl

/-- The result is the time tag of `n` times 2^-32 seconds. -/
def GivesTime (r : Option (Int × UAtom)) (n : Nat) : Prop := ∃ u s f, r = some (0, u) ∧ u.val = some (.time s f) ∧ s * 2 ^ 32 + f = n

theorem gives_time (r : Option (Int × UAtom)) (t : Timetag) (n : Nat) (h : r = (UAtom.fresh.setTimetag t).map fun r => (0, r)) (hn : ttValue t = n) :
    GivesTime r n := by
  obtain ⟨u, h1, h2⟩ := setTimetag_fresh t
  exact ⟨u, _, _, by rw [h, h1]; rfl, h2, hn⟩

/-- **C64**, addition: a time tag plus a non-negative number of seconds below 2^32, in either order, is the time tag moved by that number
up to two units of 2^-32 seconds, modulo 2^32 seconds; by whole seconds it is moved exactly. -/
theorem C64_add (a b : UAtom) (s f : Nat) (v : Val) (m : Nat) (ha : a.val = some (.time s f)) (hb : b.val = some v)
    (hx : IsDouble v (.fin false m)) (hm : m / 2 ^ 1074 < 2 ^ 32) :
    ∃ t, Close t m ∧ (m % 2 ^ 1074 = 0 → t = m / 2 ^ 1074 * 2 ^ 32) ∧
      GivesTime (add (some a) (some b) .fresh) ((s * 2 ^ 32 + f + t) % 2 ^ 64) ∧ GivesTime (add (some b) (some a) .fresh) ((s * 2 ^ 32 + f + t) % 2 ^ 64) := by
  obtain ⟨t, h1, h2, h3, h4⟩ := asTime_num b v m hb hx hm
  obtain ⟨ea, a1, a2⟩ := time_of_val ha
  obtain ⟨b1, b2⟩ := num_tags hb hx
  have b3 : b.tag ≠ 116 := fun h => by rw [h] at b1; exact absurd b1 (by decide)
  have hn : isNumeric 116 = false := by decide
  have ta : asTime a = some (timeOf a) := by rw [asTime, if_pos ea]
  refine ⟨ttValue t, h2, fun h => ?_, ?_, ?_⟩
  · rw [ttValue, h3, h4 h, Nat.add_zero]
  · refine gives_time _ ((timeOf a).add t) _ ?_ ?_
    · simp [add, ea, b1, b2, b3, ta, h1]
    · rw [C29_add, ttValue, a1, a2]
  · refine gives_time _ (t.add (timeOf a)) _ ?_ ?_
    · simp [add, ea, b1, b2, b3, ta, h1]
    · rw [C29_add, Nat.add_comm (ttValue t), ttValue, a1, a2]

/-- **C64**, subtraction: a time tag minus a number of seconds that is not larger is the time tag moved back by that number. -/
theorem C64_subtract (a b : UAtom) (s f : Nat) (v : Val) (m : Nat) (ha : a.val = some (.time s f)) (hb : b.val = some v)
    (hx : IsDouble v (.fin false m)) (hm : m / 2 ^ 1074 < s) :
    ∃ t, Close t m ∧ (m % 2 ^ 1074 = 0 → t = m / 2 ^ 1074 * 2 ^ 32) ∧ t ≤ s * 2 ^ 32 + f ∧
      GivesTime (subtract (some a) (some b) .fresh) (s * 2 ^ 32 + f - t) := by
  obtain ⟨ea, a1, a2⟩ := time_of_val ha
  have hs := (timeOf a).sec.toNat_lt
  rw [a1] at hs
  obtain ⟨t, h1, h2, h3, h4⟩ := asTime_num b v m hb hx (Nat.lt_trans hm hs)
  obtain ⟨b1, b2⟩ := num_tags hb hx
  have b3 : b.tag ≠ 116 := fun h => by rw [h] at b1; exact absurd b1 (by decide)
  have hn : isNumeric 116 = false := by decide
  have ta : asTime a = some (timeOf a) := by rw [asTime, if_pos ea]
  have hle : ttValue t ≤ ttValue (timeOf a) := by
    have := t.frac.toNat_lt
    rw [ttValue, ttValue, a1, a2, h3]
    generalize m / 2 ^ 1074 = q at *
    omega
  refine ⟨ttValue t, h2, fun h => ?_, by rw [show s * 2 ^ 32 + f = ttValue (timeOf a) by rw [ttValue, a1, a2]]; exact hle, ?_⟩
  · rw [ttValue, h3, h4 h, Nat.add_zero]
  · refine gives_time _ ((timeOf a).subtract t) _ ?_ ?_
    · simp [subtract, ea, b1, b3, hn, ta, h1]
    · rw [C29_subtract_partial _ _ hle, ttValue, a1, a2]

theorem ofU32 (x : UInt32) : Fp.ofInt f64 x.toNat = .fin false (x.toNat * 2 ^ 1074) := by
  have h := x.toNat_lt
  have := ofInt_exact (x.toNat : Int) (by simp only [Exact]; omega)
  rw [show decide ((x.toNat : Int) < 0) = false by simp, Int.natAbs_natCast] at this
  exact this

theorem quot_between (f A B C q : Nat) (hC : C = 4294967296 * B) (hA : 0 < A) (hB : 0 < B) (hf : f < 4294967296) (hq : q = f * 4294967296 / 4294967295) :
    q * B * (4294967295 * A) ≤ f * A * C ∧ f * A * C < (q + 1) * B * (4294967295 * A) ∧ f ≤ q ∧ q ≤ f + 1 := by
  have h1 : q * 4294967295 ≤ f * 4294967296 ∧ f * 4294967296 < (q + 1) * 4294967295 ∧ f ≤ q ∧ q ≤ f + 1 := by omega
  obtain ⟨h1, h2, h3, h4⟩ := h1
  have hAB := Nat.mul_pos hA hB
  have e0 : f * A * C = f * 4294967296 * (A * B) := by rw [hC]; simp only [Nat.mul_assoc, Nat.mul_left_comm]
  have e1 : ∀ q, q * B * (4294967295 * A) = q * 4294967295 * (A * B) := fun q => by
    rw [Nat.mul_comm A B, ← Nat.mul_assoc, ← Nat.mul_assoc, Nat.mul_right_comm q B]
  rw [e0, e1, e1]
  exact ⟨Nat.mul_le_mul_right _ h1, Nat.mul_lt_mul_of_pos_right h2 hAB, h3, h4⟩

/-- What is nearest to a number is not below a number on the grid that is not larger. -/
theorem nearest_ge (p v n d w : Nat) (hd : 0 < d) (hv : Nearest p v n d) (hw : Grid p w) (h : w * d ≤ n) : w ≤ v := by
  have k := hv.2 w hw
  simp only [Ieee.dist] at k
  refine Nat.le_of_not_lt fun hlt => ?_
  have := Nat.mul_lt_mul_of_pos_right hlt hd
  omega

/-- The seconds of a time tag: up to 2^-19 seconds, not before its second, and exactly for whole seconds. -/
theorem timeToFp_spec (t : Timetag) : ∃ v, timeToFp t = .fin false v ∧ Fp.Good f64 (.fin false v) ∧
    v < ttValue t * 2 ^ 1042 + 2 ^ 1055 ∧ ttValue t * 2 ^ 1042 < v + 2 ^ 1055 ∧ (t.frac.toNat = 0 → v = t.sec.toNat * 2 ^ 1074) ∧
    t.sec.toNat * 2 ^ 1074 ≤ v := by
  have hs := t.sec.toNat_lt
  have hf := t.frac.toNat_lt
  have hu : f64.unit = 1074 := by decide
  have ht : f64.top = 2098 := by decide
  have hp : f64.mb + 1 = 53 := rfl
  have p1 := Nat.two_pow_pos 1042
  have p2 := Nat.two_pow_pos 1074
  have e1 : (2 : Nat) ^ 1074 = 4294967296 * 2 ^ 1042 := by rw [show (4294967296 : Nat) = 2 ^ 32 by decide, ← Nat.pow_add]
  have e2 : (2 : Nat) ^ 1054 = 4096 * 2 ^ 1042 := by rw [show (4096 : Nat) = 2 ^ 12 by decide, ← Nat.pow_add]
  have e3 : (2 : Nat) ^ 1055 = 8192 * 2 ^ 1042 := by rw [show (8192 : Nat) = 2 ^ 13 by decide, ← Nat.pow_add]
  have e4 : 2 ^ 65 * (2 : Nat) ^ 1042 ≤ 2 ^ 2098 := by rw [← Nat.pow_add]; exact Nat.pow_le_pow_right (by decide) (by decide)
  -- the fraction
  obtain ⟨q, hq, g1, g2, g3⟩ : ∃ q, Fp.div f64 (Fp.ofInt f64 t.frac.toNat) fracScale = .fin false q ∧ t.frac.toNat * 2 ^ 1042 ≤ q ∧
      q ≤ (t.frac.toNat + 2) * 2 ^ 1042 ∧ (t.frac.toNat = 0 → q = 0) := by
    rw [ofU32]
    have h := Fp.quotient_of f64 (by decide) (.fin false (t.frac.toNat * 2 ^ 1074)) fracScale
    simp only [QuotientOf, fracScale] at h
    have hd : 0 < 4294967295 * 2 ^ 1074 := Nat.mul_pos (by decide) p2
    obtain ⟨v, h1, h2⟩ := h.1 (Nat.ne_of_gt hd)
    rw [hu, hp] at h1
    rw [ht] at h2
    obtain ⟨a1, a2, a3, a4⟩ := quot_between t.frac.toNat (2 ^ 1074) (2 ^ 1042) (2 ^ 1074) _ e1 p2 p1 hf rfl
    generalize t.frac.toNat * 4294967296 / 4294967295 = k at *
    have hb := nearest_between 53 v _ _ 1042 k (by decide) hd h1 (by omega) a1 a2
    have b1 := Nat.mul_le_mul_right (2 ^ 1042) a3
    have b2 := Nat.mul_le_mul_right (2 ^ 1042) (Nat.add_le_add_right a4 1)
    have hv : v < 2 ^ 2098 := by
      refine Nat.lt_of_lt_of_le (Nat.lt_of_le_of_lt hb.2 (Nat.mul_lt_mul_of_pos_right ?_ p1)) e4
      omega
    refine ⟨v, ?_, Nat.le_trans b1 hb.1, Nat.le_trans hb.2 b2, fun h0 => ?_⟩
    · rcases h2 with ⟨-, h⟩ | ⟨h, -⟩
      · exact h
      · exact absurd h (Nat.not_le.mpr hv)
    · rw [h0, Nat.zero_mul, Nat.zero_mul] at h1
      have := h1.2 0 (Fp.grid_zero 53)
      simp only [Ieee.dist, Nat.zero_mul] at this
      have hz : v * (4294967295 * 2 ^ 1074) = 0 := by omega
      rcases Nat.mul_eq_zero.mp hz with h | h
      · exact h
      · omega
  -- the sum
  have h := Fp.sum_of f64 (by decide) (.fin false (t.sec.toNat * 2 ^ 1074)) (.fin false q)
  have hg := Fp.good_add f64 (by decide) (.fin false (t.sec.toNat * 2 ^ 1074)) (.fin false q)
  have ht' : timeToFp t = Fp.add f64 (.fin false (t.sec.toNat * 2 ^ 1074)) (.fin false q) := by rw [timeToFp, hq, ofU32]
  rw [ht']
  generalize Fp.add f64 (.fin false (t.sec.toNat * 2 ^ 1074)) (.fin false q) = r at *
  simp only [SumOf] at h
  have hz : value false (t.sec.toNat * 2 ^ 1074) + value false q = ((t.sec.toNat * 2 ^ 1074 + q : Nat) : Int) := by
    simp only [value, Bool.false_eq_true, if_false, Int.natCast_add]
  rw [hz] at h
  have hv : ttValue t * 2 ^ 1042 = t.sec.toNat * 2 ^ 1074 + t.frac.toNat * 2 ^ 1042 := by
    rw [ttValue, Nat.add_mul, e1, Nat.mul_assoc]
  have hle : t.sec.toNat * 2 ^ 1074 + q < 2 ^ 65 * 2 ^ 1042 := by
    have h1 : t.sec.toNat * 2 ^ 1074 = t.sec.toNat * 4294967296 * 2 ^ 1042 := by rw [e1, Nat.mul_assoc]
    refine Nat.lt_of_le_of_lt (Nat.add_le_add_left g2 _) ?_
    rw [h1, ← Nat.add_mul]
    exact Nat.mul_lt_mul_of_pos_right (by omega) p1
  have hq2 : q ≤ t.frac.toNat * 2 ^ 1042 + 2 * 2 ^ 1042 := by rw [← Nat.add_mul]; exact g2
  have hr : ∃ v, r = .fin false v ∧ v < t.sec.toNat * 2 ^ 1074 + q + 2 ^ 1054 + 1 ∧ t.sec.toNat * 2 ^ 1074 + q < v + 2 ^ 1054 + 1 ∧
      (q = 0 → v = t.sec.toNat * 2 ^ 1074) ∧ t.sec.toNat * 2 ^ 1074 ≤ v := by
    by_cases h0 : t.sec.toNat * 2 ^ 1074 + q = 0
    · refine ⟨0, ?_, by omega, by omega, fun _ => by omega, by omega⟩
      have := h.1 (by rw [h0]; rfl)
      exact this
    · have h1 := h.2 (by omega)
      rw [Int.natAbs_natCast, show decide (((t.sec.toNat * 2 ^ 1074 + q : Nat) : Int) < 0) = false by simp only [decide_eq_false_iff_not]; omega] at h1
      have hx := h1
      obtain ⟨v, n1, n2⟩ := h1
      rw [hp] at n1
      rw [ht] at n2
      have p3 := Nat.two_pow_pos 1054
      have dm := Nat.div_add_mod (t.sec.toNat * 2 ^ 1074 + q) (2 ^ 1054)
      have dl := Nat.mod_lt (t.sec.toNat * 2 ^ 1074 + q) p3
      have hk : (t.sec.toNat * 2 ^ 1074 + q) / 2 ^ 1054 < 2 ^ 53 := by
        rw [Nat.div_lt_iff_lt_mul p3, e2, ← Nat.mul_assoc, show (2 : Nat) ^ 53 * 4096 = 2 ^ 65 by decide]
        exact hle
      have hv2 : v < 2 ^ 2098 → r = .fin false v := fun hv => by
        rcases n2 with ⟨-, h⟩ | ⟨h, -⟩
        · exact h
        · exact absurd h (Nat.not_le.mpr hv)
      generalize hZ : t.sec.toNat * 2 ^ 1074 + q = Z at *
      generalize hK : Z / 2 ^ 1054 = k at *
      have hb := nearest_between 53 v Z 1 1054 k (by decide) (by decide) n1 hk (by rw [Nat.mul_one, Nat.mul_comm]; omega)
        (by rw [Nat.mul_one, Nat.add_mul, Nat.one_mul, Nat.mul_comm]; omega)
      have hb2 := hb.2
      rw [Nat.add_mul, Nat.one_mul] at hb2
      have hlt : v < 2 ^ 2098 := by
        have h6 : (2 : Nat) ^ 53 * 2 ^ 1054 < 2 ^ 2098 := by rw [← Nat.pow_add]; exact Nat.pow_lt_pow_right (by decide) (by decide)
        have h7 : (k + 1) * 2 ^ 1054 ≤ 2 ^ 53 * 2 ^ 1054 := Nat.mul_le_mul_right _ hk
        exact Nat.lt_of_le_of_lt (Nat.le_trans hb.2 h7) h6
      have e5 : k * 2 ^ 1054 = 2 ^ 1054 * k := Nat.mul_comm _ _
      have hb1 := hb.1
      have hge := nearest_ge 53 v Z 1 (t.sec.toNat * 2 ^ 1074) (by decide) n1 ⟨t.sec.toNat, 1074, by omega, rfl⟩ (by rw [Nat.mul_one]; omega)
      refine ⟨v, hv2 hlt, ?_, ?_, fun hq0 => ?_, hge⟩
      · generalize 2 ^ 1054 * k = M at *
        omega
      · generalize 2 ^ 1054 * k = M at *
        omega
      · rw [hq0, Nat.add_zero] at hZ
        have := Fp.rounded_exact f64 false (t.sec.toNat * 2 ^ 1074) 1 (by decide) ⟨t.sec.toNat, 1074, by rw [hp]; omega, rfl⟩
          (by rw [ht, hZ]; exact Nat.lt_of_lt_of_le hle e4) r (by rw [Nat.mul_one, hZ]; exact hx)
        rw [hv2 hlt] at this
        exact (Fp.fin.inj this).2
  obtain ⟨v, r1, r2, r3, r4, r5⟩ := hr
  refine ⟨v, r1, r1 ▸ hg, ?_, ?_, fun h0 => r4 (g3 h0), r5⟩
  · rw [hv, e3]
    generalize t.sec.toNat * 2 ^ 1074 = A at *
    generalize t.frac.toNat * 2 ^ 1042 = B at *
    generalize (2 : Nat) ^ 1042 = C at *
    omega
  · rw [hv, e3]
    generalize t.sec.toNat * 2 ^ 1074 = A at *
    generalize t.frac.toNat * 2 ^ 1042 = B at *
    generalize (2 : Nat) ^ 1042 = C at *
    omega

/-- **C64**, difference: a time tag minus one that is not later is the number of seconds between them up to 2^-19 seconds (two
microseconds), exactly for whole seconds. -/
theorem C64_difference (a b : UAtom) (s1 f1 s2 f2 : Nat) (ha : a.val = some (.time s1 f1)) (hb : b.val = some (.time s2 f2))
    (h : s2 * 2 ^ 32 + f2 ≤ s1 * 2 ^ 32 + f1) :
    ∃ u v, subtract (some a) (some b) .fresh = some (0, u) ∧ IsNum u (.fin false v) ∧
      v < (s1 * 2 ^ 32 + f1 - (s2 * 2 ^ 32 + f2)) * 2 ^ 1042 + 2 ^ 1055 ∧ (s1 * 2 ^ 32 + f1 - (s2 * 2 ^ 32 + f2)) * 2 ^ 1042 < v + 2 ^ 1055 ∧
      (f1 = f2 → v = (s1 - s2) * 2 ^ 1074) := by
  obtain ⟨ea, a1, a2⟩ := time_of_val ha
  obtain ⟨eb, b1, b2⟩ := time_of_val hb
  have hn : isNumeric 116 = false := by decide
  have r1 := (timeOf a).frac.toNat_lt
  have r2 := (timeOf b).frac.toNat_lt
  rw [a2] at r1
  rw [b2] at r2
  have hv := C29_subtract_partial (timeOf a) (timeOf b) (by rw [ttValue, ttValue, a1, a2, b1, b2]; exact h)
  rw [ttValue, ttValue, ttValue, a1, a2, b1, b2] at hv
  obtain ⟨v, h1, h2, h3, h4, h5, -⟩ := timeToFp_spec ((timeOf a).subtract (timeOf b))
  rw [ttValue, hv] at h3 h4
  obtain ⟨u, p1, p2⟩ := putFp_spec _ (h1 ▸ h2)
  refine ⟨u, v, ?_, h1 ▸ p2, h3, h4, fun e => ?_⟩
  · rw [← p1]; simp [subtract, ea, eb, hn]
  · have hl := ((timeOf a).subtract (timeOf b)).frac.toNat_lt
    have e2 : ((timeOf a).subtract (timeOf b)).frac.toNat = 0 ∧ ((timeOf a).subtract (timeOf b)).sec.toNat = s1 - s2 := by
      clear h3 h4 h5
      omega
    rw [h5 e2.1, e2.2]

theorem cmp_arith (k : Int) (s f n : Nat) (hc : k = -1 ∨ k = 0 ∨ k = 1) (c1 : k = -1 ↔ s * 4294967296 + f < n * 4294967296 + 0)
    (c2 : k = 0 ↔ s * 4294967296 + f = n * 4294967296 + 0) (c3 : k = 1 ↔ n * 4294967296 + 0 < s * 4294967296 + f) (r1 : f < 4294967296) :
    ((k == -1) = true ↔ s < n) ∧ ((k != 1) = true ↔ s * 2 ^ 32 + f ≤ n * 2 ^ 32) ∧ ((k == 1) = true ↔ n * 2 ^ 32 < s * 2 ^ 32 + f) ∧
    ((k != -1) = true ↔ n ≤ s) ∧ ((k == 0) = true ↔ s = n ∧ f = 0) ∧ ((k != 0) = true ↔ ¬ (s = n ∧ f = 0)) := by
  simp only [beq_iff_eq, bne_iff_ne, ne_eq]
  omega

/-- **C64**, comparison of a time tag with a number of seconds that is whole: in the order of time. -/
theorem C64_compare (a b : UAtom) (s f n : Nat) (v : Val) (ha : a.val = some (.time s f)) (hb : b.val = some v)
    (hx : IsDouble v (.fin false (n * 2 ^ 1074))) (hn : n < 2 ^ 32) :
    Gives (lt (some a) (some b) .fresh) (decide (s < n)) ∧ Gives (le (some a) (some b) .fresh) (decide (s * 2 ^ 32 + f ≤ n * 2 ^ 32)) ∧
    Gives (gt (some a) (some b) .fresh) (decide (n * 2 ^ 32 < s * 2 ^ 32 + f)) ∧ Gives (gte (some a) (some b) .fresh) (decide (n ≤ s)) ∧
    Gives (Expr.eq (some a) (some b) .fresh) (decide (s = n ∧ f = 0)) ∧ Gives (neq (some a) (some b) .fresh) (decide (¬ (s = n ∧ f = 0))) := by
  have hU := Nat.two_pow_pos 1074
  obtain ⟨ea, a1, a2⟩ := time_of_val ha
  obtain ⟨t, h1, -, h3, h4⟩ := asTime_num b v _ hb hx (by rw [Nat.mul_div_cancel _ hU]; exact hn)
  rw [Nat.mul_div_cancel _ hU] at h3
  replace h4 := h4 (Nat.mul_mod_left _ _)
  obtain ⟨b1, b2⟩ := num_tags hb hx
  have b3 : b.tag ≠ 116 := fun h => by rw [h] at b1; exact absurd b1 (by decide)
  have hn' : isNumeric 116 = false := by decide
  have ta : asTime a = some (timeOf a) := by rw [asTime, if_pos ea]
  obtain ⟨c1, c2, c3⟩ := C29_compare (timeOf a) t
  have r1 := (timeOf a).frac.toNat_lt
  have hc : Timetag.compare (timeOf a) t = -1 ∨ Timetag.compare (timeOf a) t = 0 ∨ Timetag.compare (timeOf a) t = 1 := by
    unfold Timetag.compare; repeat' split
    all_goals simp
  have hinj : timeOf a = t ↔ ttValue (timeOf a) = ttValue t := ⟨fun h => by rw [h], ttValue_inj⟩
  rw [hinj] at c2
  simp only [ttValue, a1, a2, h3, h4] at c1 c2 c3
  rw [a2] at r1
  have c : ∀ (x : Bool) (p : Prop) [Decidable p] (r : Option (Int × UAtom)), (x = true ↔ p) →
      r = ((setBool .fresh x).map fun r => (0, r)) → Gives r (decide p) := by
    intro x p _ r h hr
    rw [hr]
    have : x = decide p := by rw [Bool.eq_iff_iff]; simp [h]
    rw [← this]; exact setBool_gives x
  generalize hk : Timetag.compare (timeOf a) t = k at *
  clear hU
  obtain ⟨k1, k2, k3, k4, k5, k6⟩ := cmp_arith k s f n hc c1 c2 c3 r1
  exact ⟨c (k == -1) _ _ k1 (by simp [lt, cmpOp, ta, h1, ea, b1, b2, hn', hk]), c (k != 1) _ _ k2 (by simp [le, cmpOp, ta, h1, ea, b1, b2, hn', hk]),
    c (k == 1) _ _ k3 (by simp [gt, cmpOp, ta, h1, ea, b1, b2, hn', hk]), c (k != -1) _ _ k4 (by simp [gte, cmpOp, ta, h1, ea, b1, b2, hn', hk]),
    c (k == 0) _ _ k5 (by simp [Expr.eq, ta, h1, ea, b1, b2, hn', hk]), c (k != 0) _ _ k6 (by simp [neq, ta, h1, ea, b1, b2, hn', hk])⟩

/-- **C64**, what is not so: half a second is one unit less than half of 2^32, the last time tag before a full second is taken for the
full second, and a negative number of seconds is undefined. -/
theorem C64_full_fails :
    fpToTime (Fp.ofBits f64 0x3fe0000000000000) = some ⟨0, 2147483647⟩ ∧
    (fpToTime (timeToFp ⟨0, 4294967295⟩)) = some ⟨1, 0⟩ ∧ fpToTime (Fp.ofBits f64 0xbff0000000000000) = none := by decide +kernel

/-- The hypotheses are met: a time tag and 2.5 seconds; the sum has one unit less than half a second. -/
example : (UAtom.mk 116 false (.bits 100)).val = some (.time 100 0) ∧ Fp.ofBits f64 0x4004000000000000 = .fin false (5 * 2 ^ 1073) :=
  ⟨rfl, by decide +kernel⟩
example : 5 * 2 ^ 1073 / 2 ^ 1074 = 2 := by
  rw [show (2 : Nat) ^ 1074 = 2 * 2 ^ 1073 from Nat.pow_succ', Nat.mul_div_mul_right _ _ (Nat.two_pow_pos _)]
example : (add (some (.mk 116 false (.bits 100))) (some (.mk 100 false (.bits 0x4004000000000000))) .fresh).map (fun r => (r.1, r.2.tag, r.2.w.raw)) =
    some (0, 116, 102 + 4294967296 * 2147483647) := by decide +kernel

end Libo.Props
