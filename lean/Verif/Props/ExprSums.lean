import Verif.Props.ExprOrder
/-!
# C66: sums, products, means and scalar products

The results are given step by step: each step is correctly rounded (`FpSpec.lean`).
-/

namespace Libo.Props
open Libo Libo.Expr Libo.Ieee

/-- The lists hold, one after the other, these numbers. -/
inductive AllNumbers : List Ar → List Val → List Fp → Prop
  | nil : AllNumbers [] [] []
  | cons {a : Ar} {as : List Ar} {vs ws : List Val} {xs ys : List Fp} :
      Holds a vs → Numbers vs xs → AllNumbers as ws ys → AllNumbers (a :: as) (vs ++ ws) (xs ++ ys)

/-- `r` is what is left after adding the numbers to `s` one after the other. -/
inductive Added : Fp → List Fp → Fp → Prop
  | nil (s : Fp) : Added s [] s
  | cons {s x t r : Fp} {xs : List Fp} : SumOf f64 s x t → Added t xs r → Added s (x :: xs) r

/-- The same with multiplication. -/
inductive Multiplied : Fp → List Fp → Fp → Prop
  | nil (s : Fp) : Multiplied s [] s
  | cons {s x t r : Fp} {xs : List Fp} : ProductOf f64 s x t → Multiplied t xs r → Multiplied s (x :: xs) r

/-- The same with adding products. -/
inductive DotAdded : Fp → List (Fp × Fp) → Fp → Prop
  | nil (s : Fp) : DotAdded s [] s
  | cons {s x y p t r : Fp} {xs : List (Fp × Fp)} : ProductOf f64 x y p → SumOf f64 s p t → DotAdded t xs r → DotAdded s ((x, y) :: xs) r

/-- The type of a result that should be an integer: the first of `int32`, `uint32`, `int64`, `uint64` whose largest value is not less than
the number, and `double` if there is none.  The whole part must not be less than the smallest `int32`; 2^63 and 2^64 have no type. -/
inductive Narrowest (r : Fp) : Val → Prop
  | i32 (n : Int) : WholePart r n → Ordered (· ≤ ·) r (exact 2147483647) → -2147483648 ≤ n → Narrowest r (ITy.i32.val n)
  | u32 (n : Int) : WholePart r n → Ordered (· > ·) r (exact 2147483647) → Ordered (· ≤ ·) r (exact 4294967295) → Narrowest r (ITy.u32.val n)
  | i64 (n : Int) : WholePart r n → Ordered (· > ·) r (exact 4294967295) → Ordered (· < ·) r (exact (2 ^ 63)) → Narrowest r (ITy.i64.val n)
  | u64 (n : Int) : WholePart r n → Ordered (· > ·) r (exact (2 ^ 63)) → Ordered (· < ·) r (exact (2 ^ 64)) → Narrowest r (ITy.u64.val n)
  | double (v : Val) : ¬ Ordered (· ≤ ·) r (exact (2 ^ 64)) → NumVal v r → Narrowest r v

/-! ## Lemmas -/

theorem limits : Fp.ofInt f64 2147483647 = exact 2147483647 ∧ Fp.ofInt f64 4294967295 = exact 4294967295 ∧
    Fp.ofInt f64 9223372036854775807 = exact (2 ^ 63) ∧ Fp.ofInt f64 18446744073709551615 = exact (2 ^ 64) := by
  refine ⟨?_, ?_, ?_, ?_⟩ <;> decide +kernel

/-- A loop over the elements of a list is a fold. -/
theorem forN_fold {σ α : Type} (xs : List α) (f : Nat → σ → Option σ) (g : σ → α → σ) (s : σ)
    (h : ∀ (i : Nat) x s, xs[i]? = some x → f i s = some (g s x)) : forN xs.length f s = some (xs.foldl g s) := by
  obtain ⟨t, h1, h2⟩ := forN_inv (P := fun k t => t = (xs.take k).foldl g s) f xs.length s rfl (by
    rintro i t hi rfl
    have hx : xs[i]? = some xs[i] := List.getElem?_eq_getElem hi
    refine ⟨_, h i _ _ hx, ?_⟩
    rw [List.take_add_one, hx, List.foldl_append]; rfl)
  rw [h1, h2, List.take_length]

theorem foldAll_spec {σ : Type} (f : σ → Option UAtom → Option σ) (g : σ → Val × Fp → σ)
    (hf : ∀ s u v x, u.val = some v → IsDouble v x → f s (some u) = some (g s (v, x))) {argv : List Ar} {vs : List Val} {xs : List Fp}
    (h : AllNumbers argv vs xs) (s : σ) : foldAll f s argv = some ((vs.zip xs).foldl g s) := by
  induction h generalizing s with
  | nil => rfl
  | @cons a as vs ws xs ys ha hn _ ih =>
    have e : forN (len a) (fun i s => f s (at? a i)) s = some ((vs.zip xs).foldl g s) := by
      have hl : len a = (vs.zip xs).length := by rw [holds_len ha, List.length_zip, hn.1, Nat.min_self]
      rw [hl]
      refine forN_fold (vs.zip xs) _ g s (fun i p t hp => ?_)
      obtain ⟨v, x⟩ := p
      rw [List.getElem?_zip_eq_some] at hp
      obtain ⟨u, w, h1, h2, h3, h4, -⟩ := numbers_at ha hn hp.2
      rw [hp.1] at h2; injection h2 with h2; subst h2
      rw [h1]
      exact hf t u _ x h3 h4
    rw [foldAll, List.foldlM_cons, e]
    rw [List.zip_append hn.1, List.foldl_append]
    exact ih _

theorem allNumbers_length {argv : List Ar} {vs : List Val} {xs : List Fp} (h : AllNumbers argv vs xs) : vs.length = xs.length := by
  induction h with
  | nil => rfl
  | cons _ hn _ ih => rw [List.length_append, List.length_append, hn.1, ih]

theorem allNumbers_double {argv : List Ar} {vs : List Val} {xs : List Fp} (h : AllNumbers argv vs xs) : ∀ p ∈ vs.zip xs, IsDouble p.1 p.2 := by
  induction h with
  | nil => intro p hp; cases hp
  | cons _ hn _ ih =>
    rw [List.zip_append hn.1]
    intro p hp
    rcases List.mem_append.1 hp with hp | hp
    · obtain ⟨i, hi⟩ := List.getElem?_of_mem hp
      obtain ⟨v, x⟩ := p
      rw [List.getElem?_zip_eq_some] at hi
      exact hn.2 i v x hi.1 hi.2
    · exact ih p hp

theorem added_fold (xs : List Fp) (s : Fp) : Added s xs (xs.foldl (Fp.add f64) s) := by
  induction xs generalizing s with
  | nil => exact .nil s
  | cons x xs ih => exact .cons (Fp.sum_of f64 (by decide) s x) (ih _)

theorem added_good {s r : Fp} {xs : List Fp} (h : Added s xs r) (hs : Fp.Good f64 s) : Fp.Good f64 r := by
  induction h with
  | nil => exact hs
  | cons h1 _ ih => exact ih (by rw [(C63_unique _ _ _ _).1 h1 (Fp.sum_of f64 (by decide) _ _)]; exact Fp.good_add f64 (by decide) _ _)

theorem multiplied_fold (xs : List Fp) (s : Fp) : Multiplied s xs (xs.foldl (Fp.mul f64) s) := by
  induction xs generalizing s with
  | nil => exact .nil s
  | cons x xs ih => exact .cons (Fp.product_of f64 (by decide) s x) (ih _)

theorem multiplied_good {s r : Fp} {xs : List Fp} (h : Multiplied s xs r) (hs : Fp.Good f64 s) : Fp.Good f64 r := by
  induction h with
  | nil => exact hs
  | cons h1 _ ih => exact ih (by rw [(C63_unique _ _ _ _).2.2.1 h1 (Fp.product_of f64 (by decide) _ _)]; exact Fp.good_mul f64 (by decide) _ _)

/-- Whether a value has a floating point type. -/
def isFloatVal : Val → Bool
  | .num tag _ => tag == 100 || tag == 102
  | _ => false

theorem isFloatVal_iff (v : Val) : isFloatVal v = true ↔ Floating v := by cases v <;> simp [isFloatVal, Floating]

/-- The steps determine the result. -/
theorem added_unique {s r r' : Fp} {xs : List Fp} (h : Added s xs r) (h' : Added s xs r') : r = r' := by
  induction h with
  | nil => cases h'; rfl
  | @cons s x t r xs h1 _ ih =>
    cases h' with
    | @cons _ _ t' _ _ k1 k2 => rw [(C63_unique s x t t').1 h1 k1] at ih; exact ih k2

theorem multiplied_unique {s r r' : Fp} {xs : List Fp} (h : Multiplied s xs r) (h' : Multiplied s xs r') : r = r' := by
  induction h with
  | nil => cases h'; rfl
  | @cons s x t r xs h1 _ ih =>
    cases h' with
    | @cons _ _ t' _ _ k1 k2 => rw [(C63_unique s x t t').2.2.1 h1 k1] at ih; exact ih k2

theorem intDouble_good {n : Int} {x : Fp} (h : IntDouble n x) : Fp.Good f64 x := rounded_good f64 _ _ _ x h

theorem limit_le (r : Fp) (hr : Fp.Good f64 r) (y x : Fp) (hy : Fp.Good f64 y) (hx : y = x) : (Fp.le r y = true ↔ Ordered (· ≤ ·) r x) := by
  subst hx
  exact (place_order r y hr hy).2.1

theorem limit_ofInt (r : Fp) (hr : Fp.Good f64 r) (n : Int) (x : Fp) (hx : Fp.ofInt f64 n = x) :
    (Fp.le r (Fp.ofInt f64 n) = true ↔ Ordered (· ≤ ·) r x) := by
  have h := ofInt_intDouble n
  generalize Fp.ofInt f64 n = y at *
  exact limit_le r hr y x (intDouble_good h) hx

theorem ordered_exact (R : Int → Int → Prop) (r : Fp) : ∃ k : Int, 0 < k ∧ ∀ n, (Ordered R r (exact n) ↔ ∃ a, place r = some a ∧ R a (n * k)) := by
  obtain ⟨k, hk, hp⟩ := exact_scale
  refine ⟨k, hk, fun n => ⟨?_, ?_⟩⟩
  · rintro ⟨a, b, h1, h2, h3⟩
    rw [hp] at h2; injection h2 with h2; subst h2
    exact ⟨a, h1, h3⟩
  · rintro ⟨a, h1, h2⟩
    exact ⟨a, _, h1, hp n, h2⟩

theorem gt_not_le {r : Fp} {x : Fp} (h : Ordered (· > ·) r x) : ¬ Ordered (· ≤ ·) r x := by
  obtain ⟨a, b, h1, h2, h3⟩ := h
  rintro ⟨a', b', k1, k2, k3⟩
  rw [h1] at k1; rw [h2] at k2
  injection k1 with k1; injection k2 with k2
  have : a > b := h3
  omega

theorem gt_trans {r : Fp} {n m : Int} (h : Ordered (· > ·) r (exact n)) (hm : m ≤ n) : Ordered (· > ·) r (exact m) := by
  obtain ⟨k, hk, hp⟩ := exact_scale
  obtain ⟨a, b, h1, h2, h3⟩ := h
  rw [hp] at h2; injection h2 with h2; subst h2
  refine ⟨a, _, h1, hp m, ?_⟩
  have : m * k ≤ n * k := Int.mul_le_mul_of_nonneg_right hm (Int.le_of_lt hk)
  have : a > n * k := h3
  show a > m * k
  omega

theorem lt_le {r x : Fp} (h : Ordered (· < ·) r x) : Ordered (· ≤ ·) r x := by
  obtain ⟨a, b, h1, h2, h3⟩ := h
  exact ⟨a, b, h1, h2, Int.le_of_lt h3⟩

/-- The whole part of a number that lies between whole numbers. -/
theorem whole_between {r : Fp} {n : Int} (h : WholePart r n) (m : Int) :
    (Ordered (· ≤ ·) r (exact m) → 0 ≤ m → n ≤ m) ∧ (Ordered (· < ·) r (exact m) → 0 < m → n < m) ∧ (Ordered (· > ·) r (exact m) → 0 ≤ m → m ≤ n) := by
  obtain ⟨s, k, rfl, rfl⟩ := h
  have hp := exact_place m
  have hpos : 0 < 2 ^ 1074 := Nat.two_pow_pos 1074
  have hd := Nat.div_add_mod k (2 ^ 1074)
  have hm := Nat.mod_lt k hpos
  generalize 2 ^ 1074 = K at *
  generalize hq : k / K = q at *
  generalize k % K = r at *
  subst hd
  have key : ∀ x : Int, place (.fin s (K * q + r)) = some x → (s = true → x ≤ 0) ∧ (s = false → x = K * q + r) := by
    intro x hx
    simp only [place, Option.some.injEq] at hx
    subst hx
    have : (0 : Int) ≤ (K : Int) * q := Int.mul_nonneg (by omega) (by omega)
    cases s <;> simp [value] <;> omega
  have hv : (s = true → value s q ≤ 0) ∧ (s = false → value s q = q) := by cases s <;> simp [value] <;> omega
  refine ⟨?_, ?_, ?_⟩
  · rintro ⟨a, b, h1, h2, h3⟩ h0
    rw [hp] at h2; injection h2 with h2; subst h2
    have h3 : a ≤ m * K := h3
    cases s with
    | true => have := hv.1 rfl; omega
    | false =>
      rw [hv.2 rfl]
      rw [(key a h1).2 rfl] at h3
      have : (K : Int) * q ≤ K * m := by rw [Int.mul_comm (K : Int) m]; omega
      exact Int.le_of_mul_le_mul_left this (by omega)
  · rintro ⟨a, b, h1, h2, h3⟩ h0
    rw [hp] at h2; injection h2 with h2; subst h2
    have h3 : a < m * K := h3
    cases s with
    | true => have := hv.1 rfl; omega
    | false =>
      rw [hv.2 rfl]
      rw [(key a h1).2 rfl] at h3
      have : (K : Int) * q < K * m := by rw [Int.mul_comm (K : Int) m]; omega
      exact Int.lt_of_mul_lt_mul_left this (by omega)
  · rintro ⟨a, b, h1, h2, h3⟩ h0
    rw [hp] at h2; injection h2 with h2; subst h2
    have h3 : m * K < a := h3
    have hmK : 0 ≤ m * K := Int.mul_nonneg h0 (by omega)
    cases s with
    | true => have := (key a h1).1 rfl; omega
    | false =>
      rw [hv.2 rfl]
      rw [(key a h1).2 rfl] at h3
      have : (K : Int) * m < K * (q + 1) := by rw [Int.mul_comm (K : Int) m, Int.mul_add]; omega
      have := Int.lt_of_mul_lt_mul_left this (by omega)
      omega

theorem toInt_spec {x : Fp} {n lo hi : Int} (h : WholePart x n) (h1 : lo ≤ n) (h2 : n < hi) : Fp.toInt f64 lo hi x = some n := by
  obtain ⟨s, m, rfl, rfl⟩ := h
  show (if lo ≤ value s (m / 2 ^ 1074) ∧ value s (m / 2 ^ 1074) < hi then some (value s (m / 2 ^ 1074)) else none) = _
  rw [if_pos ⟨h1, h2⟩]

theorem putWhole_spec {r : Fp} {v : Val} (hr : Fp.Good f64 r) (h : Narrowest r v) :
    ∃ u w, putWhole r .fresh = some u ∧ u.val = some w ∧ Narrowest r w := by
  obtain ⟨l1, l2, l3, l4⟩ := limits
  have e1 := limit_ofInt r hr 2147483647 (exact 2147483647) l1
  have e2 := limit_ofInt r hr 4294967295 (exact 4294967295) l2
  have e3 := limit_ofInt r hr 9223372036854775807 (exact (2 ^ 63)) l3
  have e4 := limit_ofInt r hr 18446744073709551615 (exact (2 ^ 64)) l4
  unfold putWhole
  have h' := h
  cases h with
  | i32 n w o lo =>
    obtain ⟨u, h1, h2⟩ := setU_fresh .i32 n
    refine ⟨u, _, ?_, h2, h'⟩
    have := (whole_between w _).1 o (by decide)
    rw [if_pos (e1.mpr o), Expr.toI32, toInt_spec w lo (by omega)]
    exact h1
  | u32 n w o o' =>
    obtain ⟨u, h1, h2⟩ := setU_fresh .u32 n
    refine ⟨u, _, ?_, h2, h'⟩
    have := (whole_between w _).1 o' (by decide)
    have := (whole_between w _).2.2 o (by decide)
    rw [if_neg (mt e1.mp (gt_not_le o)), if_pos (e2.mpr o'), toInt_spec w (by omega) (by omega)]
    exact h1
  | i64 n w o o' =>
    obtain ⟨u, h1, h2⟩ := setU_fresh .i64 n
    refine ⟨u, _, ?_, h2, h'⟩
    have := (whole_between w _).2.1 o' (by decide)
    have := (whole_between w _).2.2 o (by decide)
    rw [if_neg (mt e1.mp (gt_not_le (gt_trans o (by decide)))), if_neg (mt e2.mp (gt_not_le o)), if_pos (e3.mpr (lt_le o')),
      toInt_spec w (by omega) (by omega)]
    exact h1
  | u64 n w o o' =>
    obtain ⟨u, h1, h2⟩ := setU_fresh .u64 n
    refine ⟨u, _, ?_, h2, h'⟩
    have := (whole_between w _).2.1 o' (by decide)
    have := (whole_between w _).2.2 o (by decide)
    rw [if_neg (mt e1.mp (gt_not_le (gt_trans o (by decide)))), if_neg (mt e2.mp (gt_not_le (gt_trans o (by decide)))),
      if_neg (mt e3.mp (gt_not_le o)), if_pos (e4.mpr (lt_le o')), toInt_spec w (by omega) (by omega)]
    exact h1
  | double v o hv =>
    have le_up : ∀ n : Int, n ≤ 2 ^ 64 → ¬ Ordered (· ≤ ·) r (exact n) := by
      rintro n hn ⟨a, b, h1, h2, h3⟩
      obtain ⟨k, hk, hp⟩ := exact_scale
      rw [hp] at h2; injection h2 with h2; subst h2
      refine o ⟨a, _, h1, hp _, ?_⟩
      have := Int.mul_le_mul_of_nonneg_right hn (Int.le_of_lt hk)
      exact Int.le_trans h3 this
    obtain ⟨u, v', h1, h2, b, h3, rfl, h4⟩ := putNum_double hr
    rw [putNum, if_pos rfl] at h1
    refine ⟨u, _, ?_, h2, .double _ o ⟨b, h3, rfl, h4⟩⟩
    rw [if_neg (mt e1.mp (le_up _ (by decide))), if_neg (mt e2.mp (le_up _ (by decide))), if_neg (mt e3.mp (le_up _ (by decide))),
      if_neg (mt e4.mp o)]
    exact h1

theorem fold_fst (vs : List Val) (xs : List Fp) (s : Fp) (p : Bool) (h : vs.length = xs.length) :
    ((vs.zip xs).foldl (fun (s : Fp × Bool) (q : Val × Fp) => (Fp.add f64 s.1 q.2, s.2 || isFloatVal q.1)) (s, p)) =
      (xs.foldl (Fp.add f64) s, p || vs.any isFloatVal) := by
  induction vs generalizing xs s p with
  | nil => cases xs with
    | nil => simp
    | cons => simp at h
  | cons v vs ih =>
    cases xs with
    | nil => simp at h
    | cons x xs =>
      rw [List.zip_cons_cons, List.foldl_cons, ih xs _ _ (by simpa using h)]
      simp [Bool.or_assoc]

theorem fold_mul (vs : List Val) (xs : List Fp) (s : Fp) (h : vs.length = xs.length) :
    ((vs.zip xs).foldl (fun (s : Fp) (q : Val × Fp) => Fp.mul f64 s q.2) s) = xs.foldl (Fp.mul f64) s := by
  induction vs generalizing xs s with
  | nil => cases xs with
    | nil => rfl
    | cons => simp at h
  | cons v vs ih =>
    cases xs with
    | nil => simp at h
    | cons x xs => exact ih xs _ (by simpa using h)

theorem zero_good : Fp.Good f64 (.fin false 0) := ⟨⟨0, 0, by decide, rfl⟩, Nat.two_pow_pos _⟩

theorem ofInt_zero : Fp.ofInt f64 0 = .fin false 0 := by decide +kernel

theorem ofInt_one : Fp.ofInt f64 1 = exact 1 := by decide +kernel

/-- **C66**: `sum` adds the numbers of its arguments one after the other, starting from 0.  The result is a `double` if one of them has a
floating point type, and otherwise an integer. -/
theorem C66_sum (argv : List Ar) (vs : List Val) (xs : List Fp) (r : Fp) (h : AllNumbers argv vs xs) (hr : Added (.fin false 0) xs r) :
    ((∃ v ∈ vs, Floating v) → ∃ out w, sum argv = some (0, some out) ∧ Holds (some out) [w] ∧ NumVal w r) ∧
    ((¬ ∃ v ∈ vs, Floating v) → (∃ w, Narrowest r w) → ∃ out w, sum argv = some (0, some out) ∧ Holds (some out) [w] ∧ Narrowest r w) := by
  have e := foldAll_spec (fun s a => (fpOf a).map fun x => (Fp.add f64 s.1 x, s.2 || isFloat (tagOf a)))
    (fun (s : Fp × Bool) (q : Val × Fp) => (Fp.add f64 s.1 q.2, s.2 || isFloatVal q.1)) (by
      intro s u v x hu hv
      have : isFloat u.tag = isFloatVal v := by
        rw [Bool.eq_iff_iff, isFloatVal_iff, ← floating_fd hu hv]; rfl
      simp only [fpOf, getFp_val u v x hu hv, tagOf, Option.map_some, Option.getD_some, this]) h (.fin false 0, false)
  rw [fold_fst _ _ _ _ (allNumbers_length h), Bool.false_or, added_unique (added_fold xs _) hr] at e
  have hg := added_good hr zero_good
  have e' : sum argv = (setTo (mk 1) 0 (if (vs.any isFloatVal) = true then fun r' => r'.setDouble (Fp.toBits f64 r) else putWhole r)).map
      fun out => (0, some out) := by
    rw [sum, ofInt_zero, e]; rfl
  have hany : vs.any isFloatVal = true ↔ ∃ v ∈ vs, Floating v := by
    rw [List.any_eq_true]
    exact ⟨fun ⟨v, h1, h2⟩ => ⟨v, h1, (isFloatVal_iff v).mp h2⟩, fun ⟨v, h1, h2⟩ => ⟨v, h1, (isFloatVal_iff v).mpr h2⟩⟩
  constructor
  · intro hf
    obtain ⟨u, w, h1, h2, h3⟩ := putNum_double hg
    rw [putNum, if_pos rfl] at h1
    refine ⟨[u], w, ?_, by simp [Holds, argsVal, h2], h3⟩
    rw [e', if_pos (hany.mpr hf)]
    simp [setTo, mk, h1]
  · rintro hf ⟨w, hw⟩
    obtain ⟨u, w', h1, h2, h3⟩ := putWhole_spec hg hw
    refine ⟨[u], w', ?_, by simp [Holds, argsVal, h2], h3⟩
    rw [e', if_neg (mt hany.mp hf)]
    simp [setTo, mk, h1]

/-- **C66** (partial): `product` multiplies the numbers of its arguments one after the other, starting from 1; the result is always made an
integer.  In full it would be a `double` if one of the numbers has a floating point type. -/
theorem C66_product_partial (argv : List Ar) (vs : List Val) (xs : List Fp) (r : Fp) (h : AllNumbers argv vs xs) (hr : Multiplied (exact 1) xs r)
    (hw : ∃ w, Narrowest r w) : ∃ out w, product argv = some (0, some out) ∧ Holds (some out) [w] ∧ Narrowest r w := by
  have e := foldAll_spec (fun s a => (fpOf a).map fun x => Fp.mul f64 s x)
    (fun (s : Fp) (q : Val × Fp) => Fp.mul f64 s q.2) (by
      intro s u v x hu hv
      simp only [fpOf, getFp_val u v x hu hv, Option.map_some]) h (exact 1)
  rw [fold_mul _ _ _ (allNumbers_length h), multiplied_unique (multiplied_fold xs _) hr] at e
  have h1 : Fp.Good f64 (exact 1) := intDouble_good (n := 1) (by rw [← ofInt_one]; exact ofInt_intDouble 1)
  have hg := multiplied_good hr h1
  obtain ⟨w, hw⟩ := hw
  obtain ⟨u, w', h1, h2, h3⟩ := putWhole_spec hg hw
  refine ⟨[u], w', ?_, by simp [Holds, argsVal, h2], h3⟩
  rw [product, ofInt_one, e]
  simp [setTo, mk, h1]

/-- The `double` of the number of elements. -/
theorem mean_len {a : Ar} {vs : List Val} (ha : Holds a vs) : Fp.ofInt f64 (len a) = Fp.ofInt f64 vs.length := by rw [holds_len ha]

/-- **C66**: `mean` divides the sum of the elements by their number.  For an empty list the result is NaN. -/
theorem C66_mean (a : Ar) (rest : List Ar) (vs : List Val) (xs : List Fp) (r d : Fp) (ha : Holds a vs) (hn : Numbers vs xs)
    (hr : Added (.fin false 0) xs r) (hd : IntDouble vs.length d) :
    ∃ out w q, mean (a :: rest) = some (0, some out) ∧ Holds (some out) [w] ∧ NumVal w q ∧ QuotientOf f64 r d q := by
  have e : forN (len a) (fun i s => (fpOf (at? a i)).map fun x => Fp.add f64 s x) (.fin false 0) = some r := by
    rw [holds_len ha, hn.1]
    rw [forN_fold xs _ (Fp.add f64) _ (fun i x s hx => ?_), added_unique (added_fold xs _) hr]
    obtain ⟨u, v, -, -, -, -, h5⟩ := numbers_at ha hn hx
    rw [h5]; rfl
  have hd' : Fp.ofInt f64 (len a) = d := by rw [mean_len ha]; exact intDouble_unique (ofInt_intDouble _) hd
  obtain ⟨u, w, h1, h2, h3⟩ := putNum_double (Fp.good_div f64 (by decide) r d)
  rw [putNum, if_pos rfl] at h1
  refine ⟨[u], w, _, ?_, by simp [Holds, argsVal, h2], h3, Fp.quotient_of f64 (by decide) r d⟩
  rw [mean, ofInt_zero, e]
  simp [setTo, mk, h1, hd']

theorem dotAdded_fold (xs : List (Fp × Fp)) (s : Fp) : DotAdded s xs (xs.foldl (fun s p => Fp.add f64 s (Fp.mul f64 p.1 p.2)) s) := by
  induction xs generalizing s with
  | nil => exact .nil s
  | cons x xs ih => exact .cons (Fp.product_of f64 (by decide) x.1 x.2) (Fp.sum_of f64 (by decide) s _) (ih _)

theorem dotAdded_unique {s r r' : Fp} {xs : List (Fp × Fp)} (h : DotAdded s xs r) (h' : DotAdded s xs r') : r = r' := by
  induction h with
  | nil => cases h'; rfl
  | @cons s x y p t r xs h1 h2 _ ih =>
    cases h' with
    | @cons _ _ _ p' t' _ _ k1 k2 k3 =>
      rw [(C63_unique x y p p').2.2.1 h1 k1] at h2
      rw [(C63_unique s p' t t').1 h2 k2] at ih; exact ih k3

theorem dotAdded_good {s r : Fp} {xs : List (Fp × Fp)} (h : DotAdded s xs r) (hs : Fp.Good f64 s) : Fp.Good f64 r := by
  induction h with
  | nil => exact hs
  | cons _ h1 _ ih => exact ih (by rw [(C63_unique _ _ _ _).1 h1 (Fp.sum_of f64 (by decide) _ _)]; exact Fp.good_add f64 (by decide) _ _)

/-- **C66**: `dot` adds the products of the numbers at the same place; what one of the lists has more does not count. -/
theorem C66_dot (a b : Ar) (rest : List Ar) (vs ws : List Val) (xs ys : List Fp) (r : Fp) (ha : Holds a vs) (hb : Holds b ws)
    (hx : Numbers vs xs) (hy : Numbers ws ys) (hr : DotAdded (.fin false 0) (xs.zip ys) r) :
    ∃ out w, dot (a :: b :: rest) = some (0, some out) ∧ Holds (some out) [w] ∧ NumVal w r := by
  have hl : (if len a < len b then len a else len b) = (xs.zip ys).length := by
    rw [holds_len ha, holds_len hb, hx.1, hy.1, List.length_zip]; split <;> omega
  have e : forN (if len a < len b then len a else len b) (fun i s => (fpOf (at? a i)).bind fun x => (fpOf (at? b i)).map fun y =>
      Fp.add f64 s (Fp.mul f64 x y)) (.fin false 0) = some r := by
    rw [hl]
    rw [forN_fold (xs.zip ys) _ (fun s p => Fp.add f64 s (Fp.mul f64 p.1 p.2)) _ (fun i p s hp => ?_), dotAdded_unique (dotAdded_fold _ _) hr]
    obtain ⟨x, y⟩ := p
    rw [List.getElem?_zip_eq_some] at hp
    obtain ⟨u, v, -, -, -, -, h5⟩ := numbers_at ha hx hp.1
    obtain ⟨u, v, -, -, -, -, h6⟩ := numbers_at hb hy hp.2
    rw [h5, h6]; rfl
  obtain ⟨u, w, h1, h2, h3⟩ := putNum_double (dotAdded_good hr zero_good)
  rw [putNum, if_pos rfl] at h1
  refine ⟨[u], w, ?_, by simp [Holds, argsVal, h2], h3⟩
  rw [dot, ofInt_zero, e]
  simp [setTo, mk, h1]

/-! ## Integers -/

/-- The number is the whole number `n`. -/
def Stands (n : Int) (x : Fp) : Prop := ∃ s k, x = .fin s (k * 2 ^ 1074) ∧ value s k = n

/-- The type of an integer result. -/
def intOf (n : Int) : Val := if n ≤ 2147483647 then ITy.i32.val n else if n ≤ 4294967295 then ITy.u32.val n else ITy.i64.val n

theorem value_mul (s : Bool) (k c : Nat) : value s (k * c) = value s k * c := by
  cases s
  · simp [value]
  · simp [value, Int.neg_mul]

theorem stands_place : ∃ c : Int, 0 < c ∧ (∀ n x, Stands n x → place x = some (n * c)) ∧ ∀ n, place (exact n) = some (n * c) := by
  refine ⟨(2 ^ 1074 : Nat), Int.natCast_pos.mpr (Nat.two_pow_pos 1074), ?_, exact_place⟩
  rintro n x ⟨s, k, rfl, rfl⟩
  rw [place, value_mul]

theorem stands_order {n : Int} {x : Fp} (h : Stands n x) (m : Int) :
    (Ordered (· ≤ ·) x (exact m) ↔ n ≤ m) ∧ (Ordered (· < ·) x (exact m) ↔ n < m) ∧ (Ordered (· > ·) x (exact m) ↔ n > m) := by
  obtain ⟨c, hc, h1, h2⟩ := stands_place
  have hx := h1 n x h
  have hm := h2 m
  have key : ∀ R : Int → Int → Prop, Ordered R x (exact m) ↔ R (n * c) (m * c) := by
    intro R
    constructor
    · rintro ⟨a, b, q1, q2, q3⟩
      rw [hx] at q1; rw [hm] at q2
      injection q1 with q1; injection q2 with q2
      subst q1; subst q2; exact q3
    · exact fun q => ⟨_, _, hx, hm, q⟩
  refine ⟨(key _).trans ⟨fun q => ?_, fun q => ?_⟩, (key _).trans ⟨fun q => ?_, fun q => ?_⟩, (key _).trans ⟨fun q => ?_, fun q => ?_⟩⟩
  · exact Int.le_of_mul_le_mul_right q hc
  · exact Int.mul_le_mul_of_nonneg_right q (Int.le_of_lt hc)
  · exact Int.lt_of_mul_lt_mul_right q (Int.le_of_lt hc)
  · exact Int.mul_lt_mul_of_pos_right q hc
  · exact Int.lt_of_mul_lt_mul_right q (Int.le_of_lt hc)
  · exact Int.mul_lt_mul_of_pos_right q hc

theorem stands_whole {n : Int} {x : Fp} (h : Stands n x) : WholePart x n := by
  obtain ⟨s, k, rfl, rfl⟩ := h
  exact ⟨s, _, rfl, by rw [Nat.mul_div_cancel _ (Nat.two_pow_pos 1074)]⟩

theorem whole_unique {x : Fp} {n m : Int} (h : WholePart x n) (h' : WholePart x m) : n = m := by
  obtain ⟨s, k, rfl, rfl⟩ := h
  obtain ⟨s', k', e, rfl⟩ := h'
  injection e with e1 e2
  rw [e1, e2]

theorem stands_narrowest {n : Int} {x : Fp} (h : Stands n x) (h1 : -2147483648 ≤ n) (h2 : n < 2 ^ 63) (w : Val) : Narrowest x w ↔ w = intOf n := by
  have hw := stands_whole h
  constructor
  · intro hn
    cases hn with
    | i32 m w o lo =>
      rw [whole_unique w hw]
      rw [(stands_order h _).1] at o
      rw [intOf, if_pos o]
    | u32 m w o o' =>
      rw [whole_unique w hw]
      rw [(stands_order h _).2.2] at o
      rw [(stands_order h _).1] at o'
      rw [intOf, if_neg (by omega), if_pos o']
    | i64 m w o o' =>
      rw [whole_unique w hw]
      rw [(stands_order h _).2.2] at o
      rw [intOf, if_neg (by omega), if_neg (by omega)]
    | u64 m w o o' => rw [(stands_order h _).2.2] at o; omega
    | double v o hv => rw [(stands_order h _).1] at o; omega
  · rintro rfl
    rw [intOf]
    split
    · exact .i32 n hw ((stands_order h _).1.mpr (by assumption)) h1
    · split
      · exact .u32 n hw ((stands_order h _).2.2.mpr (by omega)) ((stands_order h _).1.mpr (by assumption))
      · exact .i64 n hw ((stands_order h _).2.2.mpr (by omega)) ((stands_order h _).2.1.mpr h2)

theorem exact_stands (n : Int) : Stands n (exact n) := ⟨_, _, rfl, by have := exact_value n 1; simpa using this⟩

theorem scaled_sign (n : Int) (K : Nat) (hK : 0 < K) : (decide (n * (K : Int) < 0)) = decide (n < 0) ∧ (n * (K : Int)).natAbs = n.natAbs * K := by
  constructor
  · rw [decide_eq_decide]
    constructor
    · intro h
      rcases Int.lt_or_le n 0 with h' | h'
      · exact h'
      · have := Int.mul_nonneg h' (Int.natCast_nonneg K); omega
    · intro h; exact Int.mul_neg_of_neg_of_pos h (Int.natCast_pos.mpr hK)
  · rw [Int.natAbs_mul, Int.natAbs_natCast]

theorem stands_sum {a b : Int} {z : Fp} (hz : SumOf f64 (exact a) (exact b) z) (h : (a + b).natAbs ≤ 2 ^ 53) : z = exact (a + b) := by
  obtain ⟨h1, h2⟩ := hz
  simp only [exact_value] at h1 h2
  have hK : 0 < 2 ^ 1074 := Nat.two_pow_pos 1074
  have hI := ofInt_intDouble (a + b)
  rw [ofInt_exact _ h, IntDouble] at hI
  rw [exact]
  generalize 2 ^ 1074 = K at *
  have e : a * (K : Int) + b * K = (a + b) * K := by rw [Int.add_mul]
  rw [e] at h1 h2
  by_cases h0 : a + b = 0
  · rw [h1 (by rw [h0, Int.zero_mul]), h0]
    have : (decide (a < 0) && decide (b < 0)) = false := by
      rw [Bool.and_eq_false_iff, decide_eq_false_iff_not, decide_eq_false_iff_not]; omega
    rw [this]; simp
  · have hne : (a + b) * (K : Int) ≠ 0 := Int.mul_ne_zero h0 (by omega)
    have h3 := h2 hne
    rw [(scaled_sign (a + b) K hK).1, (scaled_sign (a + b) K hK).2] at h3
    exact Fp.rounded_unique f64 _ _ 1 (by decide) _ _ h3 hI

theorem stands_grid {k : Nat} (h : k ≤ 2 ^ 53) : Grid 53 (k * 2 ^ 1074) ∧ k * 2 ^ 1074 < 2 ^ 2098 := by
  constructor
  · by_cases h' : k < 2 ^ 53
    · exact ⟨_, _, h', rfl⟩
    · refine ⟨2 ^ 52, 1075, by decide, ?_⟩
      rw [show k = 2 ^ 53 by omega, ← Nat.pow_add, ← Nat.pow_add]
  · rw [show 2098 = 1024 + 1074 from rfl, Nat.pow_add]
    refine Nat.mul_lt_mul_of_pos_right ?_ (Nat.two_pow_pos _)
    exact Nat.lt_of_le_of_lt h (Nat.pow_lt_pow_right (by decide) (by decide))

theorem stands_product {a b : Int} {x y z : Fp} (hx : Stands a x) (hy : Stands b y) (hz : ProductOf f64 x y z) (h : (a * b).natAbs ≤ 2 ^ 53) :
    Stands (a * b) z := by
  obtain ⟨s, k, rfl, rfl⟩ := hx
  obtain ⟨t, l, rfl, rfl⟩ := hy
  have hv : value s k * value t l = value (s != t) (k * l) := by cases s <;> cases t <;> simp [value, Int.neg_mul, Int.mul_neg]
  rw [hv] at h ⊢
  have hn : (value (s != t) (k * l)).natAbs = k * l := by cases (s != t) <;> simp [value, Int.natAbs_mul]
  rw [hn] at h
  obtain ⟨g1, g2⟩ := stands_grid h
  have hz' : Rounded f64 (s != t) (k * 2 ^ 1074 * (l * 2 ^ 1074)) (2 ^ 1074) z := hz
  have hK : 0 < 2 ^ 1074 := Nat.two_pow_pos 1074
  have e : k * 2 ^ 1074 * (l * 2 ^ 1074) = k * l * 2 ^ 1074 * 2 ^ 1074 := by
    generalize 2 ^ 1074 = K
    rw [Nat.mul_assoc k, Nat.mul_left_comm K l K, ← Nat.mul_assoc, ← Nat.mul_assoc]
  rw [e] at hz'
  exact ⟨_, _, Fp.rounded_exact f64 _ _ _ hK g1 g2 z hz', rfl⟩

/-- The sum of absolute values. -/
def absSum (ns : List Int) : Nat := (ns.map Int.natAbs).sum

theorem added_exact {s : Int} {ns : List Int} {r : Fp} (h : Added (exact s) (ns.map exact) r) (hs : s.natAbs + absSum ns ≤ 2 ^ 53) :
    r = exact (s + ns.sum) := by
  induction ns generalizing s with
  | nil => cases h; rw [List.sum_nil, Int.add_zero]
  | cons n ns ih =>
    cases h with
    | cons h1 h2 =>
      rw [absSum, List.map_cons, List.sum_cons] at hs
      rw [stands_sum h1 (by omega)] at h2
      rw [ih h2 (by rw [absSum]; omega), List.sum_cons, Int.add_assoc]

/-- The products along the list are at most 2^53. -/
def SmallProducts : Int → List Int → Prop
  | _, [] => True
  | s, n :: ns => (s * n).natAbs ≤ 2 ^ 53 ∧ SmallProducts (s * n) ns

/-- The product of a list. -/
def productOf : Int → List Int → Int
  | s, [] => s
  | s, n :: ns => productOf (s * n) ns

theorem multiplied_exact {s : Int} {x : Fp} {ns : List Int} {r : Fp} (h : Multiplied x (ns.map exact) r) (hx : Stands s x) (hs : SmallProducts s ns) :
    Stands (productOf s ns) r := by
  induction ns generalizing s x with
  | nil => cases h; exact hx
  | cons n ns ih =>
    cases h with
    | cons h1 h2 => exact ih h2 (stands_product hx (exact_stands n) h1 hs.1) hs.2

/-- The integers, each with its type. -/
def wholeVals (ps : List (ITy × Int)) : List Val := ps.map fun p => p.1.val p.2

theorem ints_numbers {ps : List (ITy × Int)} (h : ∀ p ∈ ps, p.1.has p.2) (hs : ∀ p ∈ ps, p.2.natAbs ≤ 2 ^ 53) :
    Numbers (wholeVals ps) ((ps.map (·.2)).map exact) := by
  refine ⟨by simp [wholeVals], fun i v x hv hx => ?_⟩
  rw [wholeVals, List.getElem?_map, Option.map_eq_some_iff] at hv
  rw [List.map_map, List.getElem?_map, Option.map_eq_some_iff] at hx
  obtain ⟨p, h1, rfl⟩ := hv
  obtain ⟨q, h2, rfl⟩ := hx
  rw [h1] at h2; injection h2 with h2; subst h2
  exact C63_integers _ _ (h p (List.mem_of_getElem? h1)) (hs p (List.mem_of_getElem? h1))

theorem ints_not_floating (ps : List (ITy × Int)) : ¬ ∃ v ∈ wholeVals ps, Floating v := by
  rintro ⟨v, h1, h2⟩
  obtain ⟨p, -, rfl⟩ := List.mem_map.1 h1
  obtain ⟨t, n⟩ := p
  cases t <;> simp [Floating, ITy.val, ITy.tag] at h2

theorem absSum_mem {ns : List Int} {n : Int} (h : n ∈ ns) : n.natAbs ≤ absSum ns := by
  induction ns with
  | nil => cases h
  | cons m ns ih =>
    rw [absSum, List.map_cons, List.sum_cons]
    rcases List.mem_cons.1 h with rfl | h
    · omega
    · have := ih h; rw [absSum] at this; omega

theorem exact_zero : exact 0 = .fin false 0 := by simp [exact]

theorem sum_natAbs (ns : List Int) : ns.sum.natAbs ≤ absSum ns := by
  induction ns with
  | nil => simp [absSum]
  | cons n ns ih => rw [absSum] at ih ⊢; rw [List.sum_cons, List.map_cons, List.sum_cons]; omega

/-- **C66** for integers: as long as the absolute values add up to at most 2^53, `sum` is exact, in the first of the types `int32`, `uint32`
and `int64` that is large enough. -/
theorem C66_sum_ints (a : Ar) (ps : List (ITy × Int)) (ha : Holds a (wholeVals ps)) (h : ∀ p ∈ ps, p.1.has p.2)
    (hs : absSum (ps.map (·.2)) ≤ 2 ^ 53) (h1 : -2147483648 ≤ (ps.map (·.2)).sum) :
    ∃ out, sum [a] = some (0, some out) ∧ Holds (some out) [intOf (ps.map (·.2)).sum] := by
  have hN := ints_numbers h (fun p hp => Nat.le_trans (absSum_mem (List.mem_map_of_mem hp)) hs)
  have hA : AllNumbers [a] (wholeVals ps) ((ps.map (·.2)).map exact) := by simpa using AllNumbers.cons ha hN .nil
  have hr := added_fold ((ps.map (·.2)).map exact) (.fin false 0)
  have hr' := hr
  rw [← exact_zero] at hr'
  have e := added_exact hr' (by simpa using hs)
  rw [exact_zero, Int.zero_add] at e
  rw [e] at hr
  have hb := sum_natAbs (ps.map (·.2))
  have hst := exact_stands (ps.map (·.2)).sum
  have hnar := stands_narrowest hst h1 (by
    have : (2 : Nat) ^ 53 = 9007199254740992 := rfl
    rw [this] at hs
    have : (2 : Int) ^ 63 = 9223372036854775808 := rfl
    omega)
  obtain ⟨out, w, q1, q2, q3⟩ := (C66_sum [a] _ _ _ hA hr).2 (ints_not_floating ps) ⟨_, (hnar _).mpr rfl⟩
  rw [hnar] at q3
  subst q3
  exact ⟨out, q1, q2⟩

theorem productOf_small {s : Int} {ns : List Int} (hs : SmallProducts s ns) (h : s.natAbs ≤ 2 ^ 53) : (productOf s ns).natAbs ≤ 2 ^ 53 := by
  induction ns generalizing s with
  | nil => exact h
  | cons n ns ih => exact ih hs.2 hs.1

/-- **C66** for integers: as long as the products along the list are at most 2^53, `product` is exact, in the first of the types that is
large enough. -/
theorem C66_product_ints (a : Ar) (ps : List (ITy × Int)) (ha : Holds a (wholeVals ps)) (h : ∀ p ∈ ps, p.1.has p.2)
    (hn : ∀ p ∈ ps, p.2.natAbs ≤ 2 ^ 53) (hs : SmallProducts 1 (ps.map (·.2))) (h1 : -2147483648 ≤ productOf 1 (ps.map (·.2))) :
    ∃ out, product [a] = some (0, some out) ∧ Holds (some out) [intOf (productOf 1 (ps.map (·.2)))] := by
  have hA : AllNumbers [a] (wholeVals ps) ((ps.map (·.2)).map exact) := by simpa using AllNumbers.cons ha (ints_numbers h hn) .nil
  have hr := multiplied_fold ((ps.map (·.2)).map exact) (exact 1)
  have hst := multiplied_exact hr (exact_stands 1) hs
  have hb := productOf_small hs (by decide)
  have hnar := stands_narrowest hst h1 (by
    have : (2 : Nat) ^ 53 = 9007199254740992 := rfl
    rw [this] at hb
    have : (2 : Int) ^ 63 = 9223372036854775808 := rfl
    omega)
  obtain ⟨out, w, q1, q2, q3⟩ := C66_product_partial [a] _ _ _ hA hr ⟨_, (hnar _).mpr rfl⟩
  rw [hnar] at q3
  subst q3
  exact ⟨out, q1, q2⟩

theorem mul_ne {a b : Nat} (ha : 0 < a) (hb : 0 < b) : a * b ≠ 0 := Nat.ne_of_gt (Nat.mul_pos ha hb)

theorem quotient_fin {s t : Bool} {m n : Nat} {q : Fp} (h : QuotientOf f64 (.fin s m) (.fin t n) q) (hn : n ≠ 0) :
    Rounded f64 (s != t) (m * 2 ^ 1074) n q := h.1 hn

/-- **C66** for integers: `mean` is the `double` nearest to the sum divided by the number of elements. -/
theorem C66_mean_ints (a : Ar) (rest : List Ar) (ps : List (ITy × Int)) (ha : Holds a (wholeVals ps)) (h : ∀ p ∈ ps, p.1.has p.2)
    (hs : absSum (ps.map (·.2)) ≤ 2 ^ 53) (hl : ps ≠ []) (hl' : ps.length ≤ 2 ^ 53) :
    ∃ out w q, mean (a :: rest) = some (0, some out) ∧ Holds (some out) [w] ∧ NumVal w q ∧
      Rounded f64 (decide ((ps.map Prod.snd).sum < 0)) ((ps.map Prod.snd).sum.natAbs * 2 ^ 1074) ps.length q := by
  have hN := ints_numbers h (fun p hp => Nat.le_trans (absSum_mem (List.mem_map_of_mem hp)) hs)
  have hr := added_fold ((ps.map (·.2)).map exact) (.fin false 0)
  have hr' := hr
  rw [← exact_zero] at hr'
  have e := added_exact hr' (by simpa using hs)
  rw [exact_zero, Int.zero_add] at e
  rw [e] at hr
  have hlen : (wholeVals ps).length = ps.length := by simp [wholeVals]
  have hd : IntDouble (wholeVals ps).length (exact ps.length) := by
    have := ofInt_intDouble (ps.length : Int)
    rw [ofInt_exact (ps.length : Int) (by simpa [Exact] using hl')] at this
    rw [hlen]; exact this
  obtain ⟨out, w, q, q1, q2, q3, q4⟩ := C66_mean a rest _ _ _ _ ha hN hr hd
  refine ⟨out, w, q, q1, q2, q3, ?_⟩
  have hpos : 0 < ps.length := List.length_pos_iff.mpr hl
  have hK : 0 < 2 ^ 1074 := Nat.two_pow_pos 1074
  simp only [exact] at q4
  rw [Int.natAbs_natCast] at q4
  have q5 := quotient_fin q4 (mul_ne hpos hK)
  rw [show decide ((ps.length : Int) < 0) = false by simp, Bool.bne_false] at q5
  exact (Fp.rounded_scale f64 _ _ _ (2 ^ 1074) hK q).mp q5

/-- **C66**, what is wrong: `product(0.5, 3.)` is 1, because products are always made integers; and the sum of integers below −2^31 is
converted to a type that cannot hold it. -/
theorem C66_fails :
    (product [some [(UAtom.fresh.setDouble (Fp.toBits f64 (.fin false (2 ^ 1073)))).getD .fresh,
      (UAtom.fresh.setDouble (Fp.toBits f64 (.fin false (3 * 2 ^ 1074)))).getD .fresh]]).map
        (fun r => (r.1, r.2.map (·.map (fun a => (a.tag, a.w.raw))))) = some (0, some [(105, 1)]) ∧
    sum [some [atomOf .i32 (-2147483648), atomOf .i32 (-1)]] = none := by
  refine ⟨by decide +kernel, ?_⟩
  rw [← Option.isNone_iff_eq_none]; decide +kernel

/-- Non-vacuity: `sum(1, 2, -5)` is −2, `product(2, 3, -7)` is −42. -/
example : (sum [some [atomOf .i32 1, atomOf .i8 2, atomOf .i64 (-5)]]).map (fun r => (r.1, r.2.map (·.map (fun a => (a.tag, a.w.raw))))) =
      some (0, some [(105, 4294967294)]) ∧
    (product [some [atomOf .i32 2, atomOf .i8 3, atomOf .i64 (-7)]]).map (fun r => (r.1, r.2.map (·.map (fun a => (a.tag, a.w.raw))))) =
      some (0, some [(105, 4294967254)]) := by
  constructor <;> decide +kernel

/-- Non-vacuity: the hypotheses of `C66_sum_ints` and `C66_product_ints`. -/
example : Holds (some [atomOf .i32 2, atomOf .i64 (-7)]) (wholeVals [(.i32, 2), (.i64, -7)]) ∧ (∀ p ∈ [(ITy.i32, (2 : Int)), (ITy.i64, -7)], p.1.has p.2) ∧
    absSum [2, -7] ≤ 2 ^ 53 ∧ SmallProducts 1 [2, -7] ∧ intOf (productOf 1 [2, -7]) = ITy.i32.val (-14) ∧ intOf 3000000000 = ITy.u32.val 3000000000 := by
  refine ⟨by simp [Holds, argsVal, atomOf_val, wholeVals], by decide, by decide, ⟨by decide, by decide, trivial⟩, rfl, rfl⟩

end Libo.Props
