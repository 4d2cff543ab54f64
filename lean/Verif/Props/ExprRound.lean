import Verif.Props.ExprSums
/-!
# C67: whole parts, absolute values, remainders and signs
-/

namespace Libo.Props
open Libo Libo.Expr Libo.Ieee

/-! ## Specification

Numbers are counted in units of 2^-1074. -/

/-- `r` is the greatest whole number that is not greater than `x`; infinities and NaN stay. -/
def FloorOf : Fp → Fp → Prop
  | .fin s m, r => ∃ k, r = .fin s (k * 2 ^ 1074) ∧ value s (k * 2 ^ 1074) ≤ value s m ∧ value s m < value s (k * 2 ^ 1074) + (2 ^ 1074 : Nat)
  | x, r => r = x

/-- `r` is the least whole number that is not less than `x`. -/
def CeilOf : Fp → Fp → Prop
  | .fin s m, r => ∃ k, r = .fin s (k * 2 ^ 1074) ∧ value s m ≤ value s (k * 2 ^ 1074) ∧ value s (k * 2 ^ 1074) < value s m + (2 ^ 1074 : Nat)
  | x, r => r = x

/-- `r` is the whole number nearest to `x`; of two that are equally near the one farther from zero. -/
def RoundOf : Fp → Fp → Prop
  | .fin s m, r => ∃ k, r = .fin s (k * 2 ^ 1074) ∧
      2 * dist (k * 2 ^ 1074) m 1 ≤ 2 ^ 1074 ∧ (2 * dist (k * 2 ^ 1074) m 1 = 2 ^ 1074 → m ≤ k * 2 ^ 1074)
  | x, r => r = x

/-- `r` is the absolute value of `x`. -/
def AbsOf (x r : Fp) : Prop := place r = (place x).map (fun p => (p.natAbs : Int)) ∧ ∀ s m, r = .fin s m → s = false

/-- `r` is the remainder of `x` after dividing by `y`, with the sign of `x`. -/
def RemainderOf : Fp → Fp → Fp → Prop
  | .fin s m, .fin _ n, r => (n = 0 → r = .nan) ∧ (n ≠ 0 → ∃ q k, m = q * n + k ∧ k < n ∧ r = .fin s k)
  | .fin s m, .inf _, r => r = .fin s m
  | _, _, r => r = .nan

/-! ## The functions on numbers -/

theorem grid_fraction {m : Nat} (h : Grid 53 m) : m % 2 ^ 1074 = 0 ∨ m / 2 ^ 1074 < 2 ^ 53 := by
  obtain ⟨k, s, hk, rfl⟩ := h
  by_cases hs : 1074 ≤ s
  · left
    rw [show s = (s - 1074) + 1074 by omega, Nat.pow_add, ← Nat.mul_assoc, Nat.mul_mod_left]
  · right
    rw [Nat.div_lt_iff_lt_mul (Nat.two_pow_pos _)]
    exact Nat.mul_lt_mul_of_lt_of_le hk (Nat.pow_le_pow_right (by decide) (by omega)) (Nat.two_pow_pos _)

theorem whole_good {m q : Nat} (hg : Grid 53 m) (ht : m < 2 ^ 2098) (h : q * 2 ^ 1074 = m ∨ (m % 2 ^ 1074 ≠ 0 ∧ q ≤ m / 2 ^ 1074 + 1)) :
    Grid 53 (q * 2 ^ 1074) ∧ q * 2 ^ 1074 < 2 ^ 2098 := by
  rcases h with h | ⟨h1, h2⟩
  · rw [h]; exact ⟨hg, ht⟩
  · have := (grid_fraction hg).resolve_left h1
    exact stands_grid (by omega)

theorem floor_spec {x : Fp} (hx : Fp.Good f64 x) : FloorOf x (Fp.floor f64 x) ∧ Fp.Good f64 (Fp.floor f64 x) := by
  cases x with
  | nan => exact ⟨rfl, trivial⟩
  | inf s => exact ⟨rfl, trivial⟩
  | fin s m =>
    obtain ⟨hg, ht⟩ := hx
    have hg' : Grid 53 m := hg
    have ht' : m < 2 ^ 2098 := ht
    have e : Fp.floor f64 (.fin s m) = .fin s ((if s = true ∧ m % 2 ^ 1074 ≠ 0 then m / 2 ^ 1074 + 1 else m / 2 ^ 1074) * 2 ^ 1074) := rfl
    have hK : 0 < 2 ^ 1074 := Nat.two_pow_pos 1074
    have hd := Nat.div_add_mod m (2 ^ 1074)
    have hm := Nat.mod_lt m hK
    have hgood : Grid 53 ((if s = true ∧ m % 2 ^ 1074 ≠ 0 then m / 2 ^ 1074 + 1 else m / 2 ^ 1074) * 2 ^ 1074) ∧
        (if s = true ∧ m % 2 ^ 1074 ≠ 0 then m / 2 ^ 1074 + 1 else m / 2 ^ 1074) * 2 ^ 1074 < 2 ^ 2098 := by
      refine whole_good hg' ht' ?_
      by_cases h0 : m % 2 ^ 1074 = 0
      · left
        rw [if_neg (by rintro ⟨-, h⟩; exact h h0)]
        exact Nat.div_mul_cancel (Nat.dvd_of_mod_eq_zero h0)
      · right
        refine ⟨h0, ?_⟩
        split <;> omega
    rw [e]
    refine ⟨?_, hgood⟩
    refine ⟨_, rfl, ?_⟩
    clear hgood e ht ht' hg hg'
    generalize 2 ^ 1074 = K at *
    generalize hq : m / K = q at *
    generalize hr : m % K = r at *
    rw [Nat.mul_comm] at hd
    have e2 : (q + 1) * K = q * K + K := Nat.succ_mul q K
    cases s with
    | false =>
      rw [if_neg (by simp)]
      generalize q * K = A at *
      simp only [value, Bool.false_eq_true, if_false]
      omega
    | true =>
      by_cases h0 : r = 0
      · rw [if_neg (by simp [h0])]
        generalize q * K = A at *
        simp only [value, if_true]
        omega
      · rw [if_pos ⟨rfl, h0⟩, e2]
        generalize q * K = A at *
        simp only [value, if_true]
        omega

theorem neg_neg (x : Fp) : x.neg.neg = x := by cases x <;> simp [Fp.neg]

theorem value_not (s : Bool) (m : Nat) : value (!s) m = -value s m := by cases s <;> simp [value]

theorem ceil_spec {x : Fp} (hx : Fp.Good f64 x) : CeilOf x (Fp.ceil f64 x) ∧ Fp.Good f64 (Fp.ceil f64 x) := by
  obtain ⟨h1, h2⟩ := floor_spec (Fp.good_neg f64 x hx)
  refine ⟨?_, Fp.good_neg f64 _ h2⟩
  cases x with
  | nan => rfl
  | inf s => simp [Fp.ceil, CeilOf, Fp.neg, Fp.floor]
  | fin s m =>
    obtain ⟨k, h3, h4, h5⟩ := h1
    refine ⟨k, ?_, ?_⟩
    · rw [Fp.ceil, h3]; simp [Fp.neg]
    · rw [value_not, value_not] at h4 h5
      generalize value s (k * 2 ^ 1074) = A at *
      generalize 2 ^ 1074 = K at *
      omega

theorem round_spec {x : Fp} (hx : Fp.Good f64 x) : RoundOf x (fpRound x) ∧ Fp.Good f64 (fpRound x) := by
  cases x with
  | nan => exact ⟨rfl, trivial⟩
  | inf s => exact ⟨rfl, trivial⟩
  | fin s m =>
    obtain ⟨hg, ht⟩ := hx
    have hg' : Grid 53 m := hg
    have ht' : m < 2 ^ 2098 := ht
    have e : fpRound (.fin s m) = .fin s ((m + 2 ^ 1073) / 2 ^ 1074 * 2 ^ 1074) := rfl
    have hK : 0 < 2 ^ 1073 := Nat.two_pow_pos 1073
    have h2 : 2 ^ 1074 = 2 * 2 ^ 1073 := by rw [Nat.mul_comm]; exact Nat.pow_succ 2 1073
    have hd := Nat.div_add_mod (m + 2 ^ 1073) (2 ^ 1074)
    have hm := Nat.mod_lt (m + 2 ^ 1073) (by rw [h2]; omega : 2 ^ 1074 > 0)
    have hd' := Nat.div_add_mod m (2 ^ 1074)
    have hm' := Nat.mod_lt m (by rw [h2]; omega : 2 ^ 1074 > 0)
    have hgood : Grid 53 ((m + 2 ^ 1073) / 2 ^ 1074 * 2 ^ 1074) ∧ (m + 2 ^ 1073) / 2 ^ 1074 * 2 ^ 1074 < 2 ^ 2098 := by
      refine whole_good hg' ht' ?_
      by_cases h0 : m % 2 ^ 1074 = 0
      · left
        clear e ht ht' hg hg' hm hd
        generalize 2 ^ 1073 = H at *
        rw [h0, Nat.add_zero] at hd'
        generalize m / 2 ^ 1074 = q at *
        generalize 2 ^ 1074 = K at *
        subst hd'
        rw [Nat.mul_add_div (by omega), show H / K = 0 from Nat.div_eq_of_lt (by omega), Nat.add_zero, Nat.mul_comm]
      · right
        refine ⟨h0, ?_⟩
        have : (m + 2 ^ 1073) / 2 ^ 1074 ≤ (m + 2 ^ 1074) / 2 ^ 1074 := Nat.div_le_div_right (by omega)
        rw [Nat.add_div_right _ (by rw [h2]; omega)] at this
        exact this
    rw [e]
    refine ⟨⟨_, rfl, ?_⟩, hgood⟩
    clear e ht ht' hg hg' hgood
    simp only [dist, Nat.mul_one]
    rw [Nat.mul_comm] at hd
    generalize (m + 2 ^ 1073) / 2 ^ 1074 * 2 ^ 1074 = A at *
    generalize (m + 2 ^ 1073) % 2 ^ 1074 = r at *
    generalize 2 ^ 1073 = H at *
    generalize 2 ^ 1074 = K at *
    omega

theorem abs_spec {x : Fp} (hx : Fp.Good f64 x) : AbsOf x x.abs ∧ Fp.Good f64 x.abs := by
  refine ⟨?_, Fp.good_abs f64 x hx⟩
  cases x with
  | nan => exact ⟨rfl, fun s m h => by cases h⟩
  | inf s =>
    refine ⟨?_, fun s m h => by cases h⟩
    simp only [Fp.abs, place, value, Option.map_some]
    generalize 2 ^ 2098 = K
    cases s <;> simp
  | fin s m =>
    refine ⟨?_, fun s m h => by simp only [Fp.abs] at h; injection h with h1 h2; exact h1.symm⟩
    simp only [Fp.abs, place, value, Option.map_some]
    cases s <;> simp

theorem remainder_spec {x y : Fp} (hx : Fp.Good f64 x) (hy : Fp.Good f64 y) : RemainderOf x y (fpMod x y) ∧ Fp.Good f64 (fpMod x y) := by
  cases x with
  | nan => exact ⟨by cases y <;> rfl, trivial⟩
  | inf s => cases y <;> exact ⟨rfl, trivial⟩
  | fin s m =>
    cases y with
    | nan => exact ⟨rfl, trivial⟩
    | inf t => exact ⟨rfl, hx⟩
    | fin t n =>
      obtain ⟨⟨k, a, hk, hm⟩, ht⟩ := hx
      obtain ⟨⟨l, b, hl, hn⟩, -⟩ := hy
      by_cases h0 : n = 0
      · rw [fpMod, if_pos h0]
        exact ⟨⟨fun _ => rfl, fun h => absurd h0 h⟩, trivial⟩
      · rw [fpMod, if_neg h0]
        refine ⟨⟨fun h => absurd h h0, fun _ => ⟨m / n, m % n, ?_, Nat.mod_lt _ (Nat.pos_of_ne_zero h0), rfl⟩⟩, ?_, ?_⟩
        · rw [Nat.mul_comm]; exact (Nat.div_add_mod m n).symm
        · have hle : m % n ≤ m := Nat.mod_le m n
          have hlt : m % n < n := Nat.mod_lt _ (Nat.pos_of_ne_zero h0)
          have key : ∀ c e u : Nat, u < 2 ^ (f64.mb + 1) → 2 ^ e ∣ m → 2 ^ e ∣ n → m % n ≤ u * 2 ^ e → Grid (f64.mb + 1) (m % n) := by
            intro c e u hu d1 d2 hle
            have hdv : 2 ^ e ∣ m % n := (Nat.dvd_mod_iff d2).mpr d1
            obtain ⟨j, hj⟩ := hdv
            refine ⟨j, e, ?_, by rw [hj, Nat.mul_comm]⟩
            rw [hj, Nat.mul_comm] at hle
            exact Nat.lt_of_le_of_lt (Nat.le_of_mul_le_mul_right hle (Nat.two_pow_pos e)) hu
          by_cases hab : a ≤ b
          · refine key 0 a k hk ⟨k, by rw [hm, Nat.mul_comm]⟩ ?_ (by rw [← hm]; exact hle)
            rw [hn]; exact Nat.dvd_trans (Nat.pow_dvd_pow 2 hab) (Nat.dvd_mul_left _ _)
          · refine key 0 b l hl ?_ ⟨l, by rw [hn, Nat.mul_comm]⟩ (by rw [← hn]; exact Nat.le_of_lt hlt)
            rw [hm]; exact Nat.dvd_trans (Nat.pow_dvd_pow 2 (by omega)) (Nat.dvd_mul_left _ _)
        · exact Nat.lt_of_le_of_lt (Nat.mod_le m n) ht

/-! ## Lists -/

theorem toBits_read {x : Fp} (hx : Fp.Good f64 x) : Fp.ofBits f64 (Fp.toBits f64 x) = x := Fp.ofBits_toBits f64 (by decide) (by decide) x hx

theorem setDouble_num {x : Fp} (hx : Fp.Good f64 x) : ∃ u v, UAtom.fresh.setDouble (Fp.toBits f64 x) = some u ∧ u.val = some v ∧ NumVal v x := by
  obtain ⟨u, v, h1, h2, h3⟩ := putNum_double hx
  rw [putNum, if_pos rfl] at h1
  exact ⟨u, v, h1, h2, h3⟩

/-- A function of one number is applied to every element. -/
theorem math1_spec (f : Fp → Fp) (R : Fp → Fp → Prop) (hf : ∀ x, Fp.Good f64 x → R x (f x) ∧ Fp.Good f64 (f x)) (a : Ar) (rest : List Ar)
    (vs : List Val) (xs : List Fp) (ha : Holds a vs) (hn : Numbers vs xs) (h0 : xs ≠ []) :
    ∃ out ws, math1 f (a :: rest) = some (0, some out) ∧ Holds (some out) ws ∧ ws.length = xs.length ∧
      ∀ (i : Nat) w x, ws[i]? = some w → xs[i]? = some x → ∃ r, NumVal w r ∧ R x r := by
  have hl : len a = xs.length := by rw [holds_len ha, hn.1]
  obtain ⟨out, ws, h1, h2, h3, h4⟩ := forN_each (len a) (fun i w => ∀ x, xs[i]? = some x → ∃ r, NumVal w r ∧ R x r)
    (fun i out => ((fpOf (at? a i)).map (Fp.toBits f64)).bind fun b => setTo out i (·.setDouble (Fp.toBits f64 (f (Fp.ofBits f64 b))))) (by
    intro i hi
    have hx : xs[i]? = some (xs[i]'(by omega)) := List.getElem?_eq_getElem _
    generalize xs[i]'(by omega) = x at hx
    obtain ⟨u, v, -, -, -, hd, g⟩ := numbers_at ha hn hx
    have hg := isDouble_good _ _ hd
    obtain ⟨r, w, p1, p2, p3⟩ := setDouble_num (hf x hg).2
    refine ⟨fun u => u.setDouble (Fp.toBits f64 (f x)), r, w, fun out => ?_, p1, p2, fun y hy => ?_⟩
    · rw [g, Option.map_some, Option.bind_some, toBits_read hg]
    · rw [hx] at hy; injection hy with hy; subst hy; exact ⟨_, p3, (hf x hg).1⟩)
  refine ⟨out, ws, ?_, h2, by rw [h3, hl], fun i w x hw hx => h4 i w hw x hx⟩
  have hpos : ¬ len a < 1 := by rw [hl]; have := List.length_pos_iff.mpr h0; omega
  simp only [math1, arg1d, if_neg hpos, h1, Option.map_some]

/-- **C67**: `floor`, `ceil`, `round` and `abs` give for every number of a list, of any type, the `double` that the name says. -/
theorem C67_rounding (a : Ar) (rest : List Ar) (vs : List Val) (xs : List Fp) (ha : Holds a vs) (hn : Numbers vs xs) (h0 : xs ≠ [])
    (f : Fp → Fp) (R : Fp → Fp → Prop)
    (hf : (f, R) ∈ [(Fp.floor f64, FloorOf), (Fp.ceil f64, CeilOf), (fpRound, RoundOf), (Fp.abs, AbsOf)]) :
    ∃ out ws, math1 f (a :: rest) = some (0, some out) ∧ Holds (some out) ws ∧ ws.length = xs.length ∧
      ∀ (i : Nat) w x, ws[i]? = some w → xs[i]? = some x → ∃ r, NumVal w r ∧ R x r := by
  simp only [List.mem_cons, List.not_mem_nil, or_false, Prod.mk.injEq] at hf
  rcases hf with ⟨rfl, rfl⟩ | ⟨rfl, rfl⟩ | ⟨rfl, rfl⟩ | ⟨rfl, rfl⟩
  · exact math1_spec _ _ (fun x hx => floor_spec hx) a rest vs xs ha hn h0
  · exact math1_spec _ _ (fun x hx => ceil_spec hx) a rest vs xs ha hn h0
  · exact math1_spec _ _ (fun x hx => round_spec hx) a rest vs xs ha hn h0
  · exact math1_spec _ _ (fun x hx => abs_spec hx) a rest vs xs ha hn h0

/-- **C67**: the specification determines the results. -/
theorem C67_unique (x r r' : Fp) : (FloorOf x r → FloorOf x r' → r = r') ∧ (CeilOf x r → CeilOf x r' → r = r') ∧ (RoundOf x r → RoundOf x r' → r = r') := by
  have hK : 0 < 2 ^ 1074 := Nat.two_pow_pos 1074
  cases x with
  | nan => exact ⟨fun h h' => h.trans h'.symm, fun h h' => h.trans h'.symm, fun h h' => h.trans h'.symm⟩
  | inf s => exact ⟨fun h h' => h.trans h'.symm, fun h h' => h.trans h'.symm, fun h h' => h.trans h'.symm⟩
  | fin s m =>
    have key : ∀ k l : Nat, (k * 2 ^ 1074 < l * 2 ^ 1074 + 2 ^ 1074 → l * 2 ^ 1074 < k * 2 ^ 1074 + 2 ^ 1074 → k = l) := by
      intro k l h1 h2
      rw [← Nat.succ_mul] at h1 h2
      have := Nat.lt_of_mul_lt_mul_right h1
      have := Nat.lt_of_mul_lt_mul_right h2
      omega
    refine ⟨?_, ?_, ?_⟩
    · rintro ⟨k, rfl, h1, h2⟩ ⟨l, rfl, h3, h4⟩
      rw [key k l ?_ ?_] <;>
      · generalize k * 2 ^ 1074 = A at *
        generalize l * 2 ^ 1074 = B at *
        generalize 2 ^ 1074 = K at *
        cases s <;> simp only [value, if_true, if_false, Bool.false_eq_true] at * <;> omega
    · rintro ⟨k, rfl, h1, h2⟩ ⟨l, rfl, h3, h4⟩
      rw [key k l ?_ ?_] <;>
      · generalize k * 2 ^ 1074 = A at *
        generalize l * 2 ^ 1074 = B at *
        generalize 2 ^ 1074 = K at *
        cases s <;> simp only [value, if_true, if_false, Bool.false_eq_true] at * <;> omega
    · rintro ⟨k, rfl, h1, h2⟩ ⟨l, rfl, h3, h4⟩
      simp only [dist, Nat.mul_one] at h1 h2 h3 h4
      have key' : ∀ k l : Nat, k * 2 ^ 1074 < l * 2 ^ 1074 → k * 2 ^ 1074 + 2 ^ 1074 ≤ l * 2 ^ 1074 := by
        intro k l h
        rw [← Nat.succ_mul]
        exact Nat.mul_le_mul_right _ (Nat.lt_of_mul_lt_mul_right h)
      have k1 := key' k l
      have k2 := key' l k
      have : k * 2 ^ 1074 = l * 2 ^ 1074 := by
        generalize k * 2 ^ 1074 = A at *
        generalize l * 2 ^ 1074 = B at *
        generalize 2 ^ 1074 = K at *
        omega
      rw [this]

/-- **C67**: `sign` is −1, 0 or 1 for every number of a list. -/
theorem C67_sign (a : Ar) (rest : List Ar) (vs : List Val) (xs : List Fp) (ha : Holds a vs) (hn : Numbers vs xs) (hnan : Fp.nan ∉ xs) :
    ∃ out ws, signF (a :: rest) = some (0, some out) ∧ Holds (some out) ws ∧ ws.length = xs.length ∧
      ∀ (i : Nat) w x, ws[i]? = some w → xs[i]? = some x → ∃ p, place x = some p ∧ w = ITy.i32.val p.sign := by
  have hl : len a = xs.length := by rw [holds_len ha, hn.1]
  obtain ⟨out, ws, h1, h2, h3, h4⟩ := forN_each (len a) (fun i w => ∀ x, xs[i]? = some x → ∃ p, place x = some p ∧ w = ITy.i32.val p.sign)
    (fun i out => (fpOf (at? a i)).bind fun x => setTo out i (·.setInt32 (signOf x))) (by
    intro i hi
    have hx : xs[i]? = some (xs[i]'(by omega)) := List.getElem?_eq_getElem _
    generalize xs[i]'(by omega) = x at hx
    obtain ⟨u, v, -, -, -, hd, g⟩ := numbers_at ha hn hx
    have hg := isDouble_good _ _ hd
    have hp : ∃ p, place x = some p := by
      cases x with
      | nan => exact absurd (List.mem_of_getElem? hx) hnan
      | inf s => exact ⟨_, rfl⟩
      | fin s m => exact ⟨_, rfl⟩
    obtain ⟨p, hp⟩ := hp
    have hz : place (.fin false 0) = some 0 := rfl
    have hs : signOf x = p.sign := by
      have o := place_order x (.fin false 0) hg zero_good
      have ho : ∀ R : Int → Int → Prop, Ordered R x (.fin false 0) ↔ R p 0 := by
        intro R
        constructor
        · rintro ⟨c, d, q1, q2, q3⟩
          rw [hp] at q1; rw [hz] at q2
          injection q1 with q1; injection q2 with q2
          subst q1; subst q2; exact q3
        · exact fun q => ⟨_, _, hp, hz, q⟩
      rw [ho] at o
      rw [ho, ho] at o
      obtain ⟨o1, -, o3⟩ := o
      rw [signOf]
      split
      · rename_i h; rw [o3.mp h]; rfl
      · rename_i h
        split
        · rename_i h'; exact (Int.sign_eq_neg_one_of_neg (o1.mp h')).symm
        · rename_i h'
          have : ¬ p = 0 := fun e => h (o3.mpr e)
          have : ¬ p < 0 := fun e => h' (o1.mpr e)
          exact (Int.sign_eq_one_of_pos (by omega)).symm
    obtain ⟨r, p1, p2⟩ := setU_fresh .i32 p.sign
    refine ⟨fun u => u.setInt32 (signOf x), r, _, fun out => ?_, by rw [hs]; exact p1, p2, fun y hy => ?_⟩
    · rw [g, Option.bind_some]
    · rw [hx] at hy; injection hy with hy; subst hy; exact ⟨p, hp, rfl⟩)
  refine ⟨out, ws, ?_, h2, by rw [h3, hl], fun i w x hw hx => h4 i w hw x hx⟩
  simp only [signF, h1, Option.map_some]

/-- All values of the list are numbers. -/
def AllDoubles (vs : List Val) : Prop := ∀ v ∈ vs, ∃ x, IsDouble v x

theorem holds_mem {a : Ar} {vs : List Val} (ha : Holds a vs) {v : Val} (hv : v ∈ vs) : ∃ u : UAtom, u.val = some v := by
  obtain ⟨i, hi, rfl⟩ := List.mem_iff_getElem.mp hv
  obtain ⟨u, -, h⟩ := holds_at ha (List.getElem?_eq_getElem hi)
  exact ⟨u, h⟩

/-- A function of two numbers is applied to every pair of elements. -/
theorem math2_spec (f : Fp → Fp → Fp) (R : Fp → Fp → Fp → Prop)
    (hf : ∀ x y, Fp.Good f64 x → Fp.Good f64 y → R x y (f x y) ∧ Fp.Good f64 (f x y)) (a b : Ar) (vs ws : List Val)
    (ha : Holds a vs) (hb : Holds b ws) (hv : AllDoubles vs) (hw : AllDoubles ws)
    (h : ¬ (vs.length = 1 ∧ ws.length = 0) ∧ ¬ (vs.length = 0 ∧ ws.length = 1)) :
    ∃ out rs, math2 f [a, b] = some (0, some out) ∧ Holds (some out) rs ∧ rs.length = (broadcast vs ws).length ∧
      ∀ (i : Nat) r v w x y, rs[i]? = some r → (broadcast vs ws)[i]? = some (v, w) → IsDouble v x → IsDouble w y →
        ∃ z, NumVal r z ∧ R x y z := by
  classical
  let N : Val → Fp := fun v => if h : ∃ x, IsDouble v x then h.choose else .nan
  have hN : ∀ v x, IsDouble v x → IsDouble v (N v) := by
    intro v x hx
    have : ∃ x, IsDouble v x := ⟨x, hx⟩
    simp only [N, dif_pos this]
    exact this.choose_spec
  have hgood : ∀ v, Fp.Good f64 (N v) := by
    intro v
    by_cases h : ∃ x, IsDouble v x
    · exact isDouble_good v _ (hN v _ h.choose_spec)
    · simp only [N, dif_neg h]; trivial
  obtain ⟨out, h1, h2⟩ := C35_doubles (fun a => (fpOf a).map (Fp.toBits f64)) (fun b c => Fp.toBits f64 (f (Fp.ofBits f64 b) (Fp.ofBits f64 c)))
    (fun v => Fp.toBits f64 (N v)) a b vs ws ha hb h (by
      intro u v hu hm
      obtain ⟨x, hx⟩ : ∃ x, IsDouble v x := hm.elim (hv v) (hw v)
      simp only [fpOf, getFp_val u v _ hu (hN v x hx), Option.map_some])
  refine ⟨out, _, h1, h2, by simp, ?_⟩
  intro i r v w x y hr hp hx hy
  rw [List.getElem?_map, hp, Option.map_some] at hr
  injection hr with hr
  obtain ⟨m1, m2⟩ := mem_broadcast (List.mem_of_getElem? hp)
  obtain ⟨u1, e1⟩ := holds_mem ha m1
  obtain ⟨u2, e2⟩ := holds_mem hb m2
  have q1 : N v = x := by
    have := (getFp_val u1 v _ e1 (hN v x hx)).symm.trans (getFp_val u1 v _ e1 hx)
    injection this
  have q2 : N w = y := by
    have := (getFp_val u2 w _ e2 (hN w y hy)).symm.trans (getFp_val u2 w _ e2 hy)
    injection this
  have g1 := hgood v
  have g2 := hgood w
  rw [q1] at g1; rw [q2] at g2
  obtain ⟨k1, k2⟩ := hf x y g1 g2
  obtain ⟨u, z, p1, p2, p3⟩ := setDouble_num k2
  obtain ⟨u', p4, p5⟩ := setDouble_fresh (Fp.toBits f64 (f x y))
  rw [p1] at p4
  injection p4 with p4
  subst p4
  rw [p2] at p5
  injection p5 with p5
  refine ⟨f x y, ?_, k1⟩
  rw [← hr]
  simp only [q1, q2, toBits_read g1, toBits_read g2]
  rw [← p5]
  exact p3

/-- **C67**: `fmod` gives for every pair the exact remainder of the division, with the sign of the first number. -/
theorem C67_fmod (a b : Ar) (vs ws : List Val) (ha : Holds a vs) (hb : Holds b ws) (hv : AllDoubles vs) (hw : AllDoubles ws)
    (h : ¬ (vs.length = 1 ∧ ws.length = 0) ∧ ¬ (vs.length = 0 ∧ ws.length = 1)) :
    ∃ out rs, math2 fpMod [a, b] = some (0, some out) ∧ Holds (some out) rs ∧ rs.length = (broadcast vs ws).length ∧
      ∀ (i : Nat) r v w x y, rs[i]? = some r → (broadcast vs ws)[i]? = some (v, w) → IsDouble v x → IsDouble w y →
        ∃ z, NumVal r z ∧ RemainderOf x y z :=
  math2_spec fpMod RemainderOf (fun _ _ hx hy => remainder_spec hx hy) a b vs ws ha hb hv hw h

/-- Non-vacuity: `floor(-1.5)` is -2, `ceil(-1.5)` is -1, `round(2.5)` is 3 and `abs(-1.5)` is 1.5. -/
example : FloorOf (.fin true (3 * 2 ^ 1073)) (.fin true (2 * 2 ^ 1074)) ∧ CeilOf (.fin true (3 * 2 ^ 1073)) (.fin true (1 * 2 ^ 1074)) ∧
    RoundOf (.fin false (5 * 2 ^ 1073)) (.fin false (3 * 2 ^ 1074)) ∧ AbsOf (.fin true (3 * 2 ^ 1073)) (.fin false (3 * 2 ^ 1073)) ∧
    ¬ RoundOf (.fin false (5 * 2 ^ 1073)) (.fin false (2 * 2 ^ 1074)) := by
  have hf : ∀ n s m, Fp.fin false n = .fin s m → s = false := fun n s m h => by injection h with h _; exact h.symm
  have k2 : 5 * 2 ^ 1073 < 3 * 2 ^ 1074 ∧ 2 * dist (3 * 2 ^ 1074) (5 * 2 ^ 1073) 1 ≤ 2 ^ 1074 ∧
    2 * dist (2 * 2 ^ 1074) (5 * 2 ^ 1073) 1 = 2 ^ 1074 ∧ ¬ 5 * 2 ^ 1073 ≤ 2 * 2 ^ 1074 := by decide +kernel
  refine ⟨⟨2, rfl, ?_, ?_⟩, ⟨1, rfl, ?_, ?_⟩, ⟨3, rfl, k2.2.1, fun _ => Nat.le_of_lt k2.1⟩, ?_, ?_⟩
  · decide +kernel
  · decide +kernel
  · decide +kernel
  · decide +kernel
  · exact ⟨by decide +kernel, hf _⟩
  · rintro ⟨l, h1, -, h3⟩
    injection h1 with _ h1
    rw [← h1] at h3
    exact k2.2.2.2 (h3 k2.2.2.1)

/-- Non-vacuity: the functions on a list of two elements. -/
example : (math1 (Fp.floor f64) [some [atomOf .i32 3, (UAtom.fresh.setDouble (Fp.toBits f64 (.fin true (3 * 2 ^ 1073)))).getD .fresh]]).map
      (fun r => (r.1, r.2.map (·.map (fun a => (a.tag, Fp.ofBits f64 a.w.raw))))) =
      some (0, some [(100, exact 3), (100, exact (-2))]) ∧
    (math2 fpMod [some [atomOf .i32 (-7), atomOf .i32 7], some [atomOf .i32 (-3)]]).map
      (fun r => (r.1, r.2.map (·.map (fun a => (a.tag, Fp.ofBits f64 a.w.raw))))) =
      some (0, some [(100, exact (-1)), (100, exact 1)]) ∧
    (signF [some [atomOf .i32 (-7), atomOf .i32 0]]).map (fun r => (r.1, r.2.map (·.map (fun a => (a.tag, a.w.raw))))) =
      some (0, some [(105, 4294967295), (105, 0)]) := by
  refine ⟨?_, ?_, ?_⟩ <;> decide +kernel

end Libo.Props
