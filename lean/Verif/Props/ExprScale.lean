import Verif.Props.ExprMod
import Verif.Props.ExprSums
/-!
# C100: scaling lists of numbers from one range to another
-/

namespace Libo.Props
open Libo Libo.Expr Libo.Ieee

/-- What `scale` makes of a number: the lower end of the output range if that range is one number; otherwise the image under the line through
the ends of the ranges, computed as slope and offset with each step rounded to a `double`. -/
def Scaled (lo hi lo' hi' x y : Fp) : Prop :=
  (Ordered (· = ·) hi' lo' → y = lo') ∧
  (¬ Ordered (· = ·) hi' lo' → ∃ rise run slope p offset q, DiffOf f64 hi' lo' rise ∧ DiffOf f64 hi lo run ∧ QuotientOf f64 rise run slope ∧
    ProductOf f64 slope lo p ∧ DiffOf f64 lo' p offset ∧ ProductOf f64 slope x q ∧ SumOf f64 q offset y)

theorem scaleTo_spec {lo hi lo' hi' x : Fp} (h1 : Fp.Good f64 lo') (h2 : Fp.Good f64 hi') : Scaled lo hi lo' hi' x (scaleTo lo hi lo' hi' x) := by
  have o := (place_order hi' lo' h2 h1).2.2
  refine ⟨fun h => ?_, fun h => ?_⟩
  · rw [scaleTo, if_pos (o.mpr h)]
  · rw [scaleTo, if_neg (mt o.mp h)]
    exact ⟨_, _, _, _, _, _, Fp.diff_of f64 (by decide) _ _, Fp.diff_of f64 (by decide) _ _, Fp.quotient_of f64 (by decide) _ _,
      Fp.product_of f64 (by decide) _ _, Fp.diff_of f64 (by decide) _ _, Fp.product_of f64 (by decide) _ _, Fp.sum_of f64 (by decide) _ _⟩

theorem scaleTo_good {lo hi lo' hi' x : Fp} (h1 : Fp.Good f64 lo') : Fp.Good f64 (scaleTo lo hi lo' hi' x) := by
  simp only [scaleTo]
  split
  · exact h1
  · exact Fp.good_add f64 (by decide) _ _

/-- **C100**: `scale` maps every number of the list and leaves everything else as it is.  The result is a `double` if the element or an end of
a range has a floating point type; otherwise it is the whole part as an `int32`, which must be large enough. -/
theorem C100_scale (a b c d e : Ar) (vs : List Val) (xs : List (Option Fp)) (v1 v2 v3 v4 : Val) (r1 r2 r3 r4 : List Val) (lo hi lo' hi' : Fp)
    (ha : Holds a vs) (hn : Elements vs xs) (hb : Holds b (v1 :: r1)) (hc : Holds c (v2 :: r2)) (hd : Holds d (v3 :: r3)) (he : Holds e (v4 :: r4))
    (h1 : IsDouble v1 lo) (h2 : IsDouble v2 hi) (h3 : IsDouble v3 lo') (h4 : IsDouble v4 hi')
    (hfit : ∀ (i : Nat) v x, vs[i]? = some v → xs[i]? = some (some x) → ¬ Floating v → (∀ w ∈ [v1, v2, v3, v4], ¬ Floating w) →
      ∀ y, Scaled lo hi lo' hi' x y → ∃ n, WholePart y n ∧ ITy.i32.has n) :
    ∃ fl out ws, (fl = true ↔ ∃ w ∈ [v1, v2, v3, v4], Floating w) ∧ scale [a, b, c, d, e] = some (0, some out) ∧ Holds (some out) ws ∧
      ws.length = vs.length ∧
      ∀ (i : Nat) v w x, vs[i]? = some v → ws[i]? = some w → xs[i]? = some x → Mapped fl (Scaled lo hi lo' hi') v w x := by
  have g3 := isDouble_good _ _ h3
  have g4 := isDouble_good _ _ h4
  obtain ⟨u1, e1, e2⟩ := holds_at hb (i := 0) (v := v1) rfl
  obtain ⟨u2, e3, e4⟩ := holds_at hc (i := 0) (v := v2) rfl
  obtain ⟨u3, e5, e6⟩ := holds_at hd (i := 0) (v := v3) rfl
  obtain ⟨u4, e7, e8⟩ := holds_at he (i := 0) (v := v4) rfl
  have hfl : (fd u1.tag || fd u2.tag || fd u3.tag || fd u4.tag) = true ↔ ∃ w ∈ [v1, v2, v3, v4], Floating w := by
    rw [Bool.or_eq_true, Bool.or_eq_true, Bool.or_eq_true, floating_fd e2 h1, floating_fd e4 h2, floating_fd e6 h3, floating_fd e8 h4]
    simp [or_assoc]
  obtain ⟨out, ws, m1, m2, m3, m4⟩ := mapNum_spec (fd u1.tag || fd u2.tag || fd u3.tag || fd u4.tag) (scaleTo lo hi lo' hi') (Scaled lo hi lo' hi')
    a vs xs ha hn (fun x _ => scaleTo_good g3) (fun x _ => scaleTo_spec g3 g4) (fun i v x q1 q2 q3 q4 => by
      have : ¬ ∃ w ∈ [v1, v2, v3, v4], Floating w := by rw [← hfl, q4]; decide
      exact hfit i v x q1 q2 q3 (fun w hw hf => this ⟨w, hw, hf⟩) _ (scaleTo_spec g3 g4))
  refine ⟨_, out, ws, hfl, ?_, m2, m3, m4⟩
  rw [← m1]
  simp [scale, e1, e3, e5, e7, fpOf, getFp_val u1 v1 lo e2 h1, getFp_val u2 v2 hi e4 h2, getFp_val u3 v3 lo' e6 h3, getFp_val u4 v4 hi' e8 h4, tagOf]

/-- Other numbers of arguments are an error. -/
theorem C100_error (argv : List Ar) (h : argv.length ≠ 5) : scale argv = some (1, none) := by
  match argv, h with
  | [], _ => rfl
  | [_], _ => rfl
  | [_, _], _ => rfl
  | [_, _, _], _ => rfl
  | [_, _, _, _], _ => rfl
  | [_, _, _, _, _], h => exact absurd rfl h
  | _ :: _ :: _ :: _ :: _ :: _ :: _, _ => rfl

/-! ## Whole numbers -/

theorem stands_quotient {a b q : Int} {x y z : Fp} (hx : Stands a x) (hy : Stands b y) (hz : QuotientOf f64 x y z) (hb : b ≠ 0) (hq : a = q * b)
    (h : q.natAbs ≤ 2 ^ 53) : Stands q z := by
  obtain ⟨s, k, rfl, rfl⟩ := hx
  obtain ⟨t, l, rfl, rfl⟩ := hy
  have hl : l ≠ 0 := by rintro rfl; exact hb (by cases t <;> rfl)
  have hn : ∀ s k, (value s k).natAbs = k := by intro s k; cases s <;> simp [value]
  have hk : k = q.natAbs * l := by
    have := congrArg Int.natAbs hq
    rwa [Int.natAbs_mul, hn, hn] at this
  have hK : 0 < 2 ^ 1074 := Nat.two_pow_pos 1074
  have hr : Rounded f64 (s != t) (k * 2 ^ 1074 * 2 ^ 1074) (l * 2 ^ 1074) z := hz.1 (by
    intro h0
    rcases Nat.mul_eq_zero.mp h0 with h0 | h0
    · exact hl h0
    · omega)
  obtain ⟨g1, g2⟩ := stands_grid h
  have e : k * 2 ^ 1074 * 2 ^ 1074 = q.natAbs * 2 ^ 1074 * (l * 2 ^ 1074) := by
    rw [hk]
    generalize 2 ^ 1074 = K
    rw [Nat.mul_assoc (q.natAbs) K, Nat.mul_left_comm K l K, Nat.mul_assoc, Nat.mul_assoc]
  rw [e] at hr
  refine ⟨_, _, Fp.rounded_exact f64 _ _ _ (Nat.mul_pos (by omega) hK) g1 g2 z hr, ?_⟩
  subst hk
  have hl' : (0 : Int) < l := by omega
  have hv : value s (q.natAbs * l) = value s q.natAbs * l := by cases s <;> simp [value, Int.neg_mul]
  rw [hv] at hq
  cases t with
  | false =>
    have h1 : value s q.natAbs = q := Int.eq_of_mul_eq_mul_right (by omega) hq
    cases s <;> exact h1
  | true =>
    have h1 : value s q.natAbs = -q := Int.eq_of_mul_eq_mul_right (by omega : (l : Int) ≠ 0) (by rw [hq]; simp [value, Int.mul_neg, Int.neg_mul])
    cases s <;> simp [value] at h1 ⊢ <;> omega

/-- The place on the line through the ends of the ranges, if the slope `k` is a whole number and all numbers are small: it is exact. -/
theorem scaled_whole {lo hi lo' hi' n k : Int} {xl xh xl' xh' x y : Fp} (h1 : Stands lo xl) (h2 : Stands hi xh) (h3 : Stands lo' xl')
    (h4 : Stands hi' xh') (h5 : Stands n x) (hne : lo ≠ hi) (hk : hi' - lo' = k * (hi - lo)) (b1 : (hi' - lo').natAbs ≤ 2 ^ 53)
    (b2 : (hi - lo).natAbs ≤ 2 ^ 53) (b3 : (k * lo).natAbs ≤ 2 ^ 53) (b4 : (lo' - k * lo).natAbs ≤ 2 ^ 53) (b5 : (k * n).natAbs ≤ 2 ^ 53)
    (b6 : (lo' + k * (n - lo)).natAbs ≤ 2 ^ 53) (h : Scaled xl xh xl' xh' x y) : Stands (lo' + k * (n - lo)) y := by
  obtain ⟨c, hc, hp, -⟩ := stands_place
  have ho : Ordered (· = ·) xh' xl' ↔ hi' = lo' := by
    constructor
    · rintro ⟨p, q, e1, e2, e3⟩
      rw [hp _ _ h4] at e1; rw [hp _ _ h3] at e2
      injection e1 with e1; injection e2 with e2
      subst e1; subst e2
      exact Int.eq_of_mul_eq_mul_right (by omega) e3
    · rintro rfl
      exact ⟨_, _, hp _ _ h4, hp _ _ h3, rfl⟩
  by_cases he : hi' = lo'
  · have : k = 0 := by
      have : k * (hi - lo) = 0 := by omega
      rcases Int.mul_eq_zero.mp this with h | h
      · exact h
      · omega
    rw [h.1 (ho.mpr he), this, Int.zero_mul, Int.add_zero]
    exact h3
  · obtain ⟨rise, run, slope, p, offset, q, q1, q2, q3, q4, q5, q6, q7⟩ := h.2 (mt ho.mp he)
    have s1 := stands_diff h4 h3 q1 b1
    have s2 := stands_diff h2 h1 q2 b2
    have bk : k.natAbs ≤ 2 ^ 53 := by
      have := congrArg Int.natAbs hk
      rw [Int.natAbs_mul] at this
      have h1 : 1 ≤ (hi - lo).natAbs := by omega
      have := Nat.le_mul_of_pos_right k.natAbs h1
      omega
    have s3 := stands_quotient s1 s2 q3 (by omega) hk bk
    have s4 := stands_product s3 h1 q4 b3
    have s5 := stands_diff h3 s4 q5 b4
    have s6 := stands_product s3 h5 q6 b5
    have e : lo' + k * (n - lo) = k * n + (lo' - k * lo) := by rw [Int.mul_sub]; omega
    rw [e] at b6 ⊢
    have s7 := stands_add s6 s5 b6
    have : y = Fp.add f64 q offset := by
      obtain ⟨s, m, rfl, -⟩ := s6
      obtain ⟨t, l, rfl, -⟩ := s5
      obtain ⟨f1, f2⟩ := Fp.sum_of f64 (by decide) (.fin s (m * 2 ^ 1074)) (.fin t (l * 2 ^ 1074))
      obtain ⟨f3, f4⟩ := q7
      by_cases h0 : value s (m * 2 ^ 1074) + value t (l * 2 ^ 1074) = 0
      · rw [f1 h0, f3 h0]
      · exact Fp.rounded_unique f64 _ _ 1 (by decide) _ _ (f4 h0) (f2 h0)
    rw [this]; exact s7

theorem int_double (t : ITy) (n : Int) (h : t.has n) (h' : n.natAbs ≤ 2 ^ 53) : IsDouble (t.val n) (exact n) := C63_integers t n h h'

theorem int_not_floating (t : ITy) (n : Int) : ¬ Floating (t.val n) := by cases t <;> simp [Floating, ITy.val, ITy.tag]

/-- **C100** for integers: if the slope is a whole number `k`, the numbers are those on the line, as `int32`. -/
theorem C100_ints (a b c d e : Ar) (ps : List (ITy × Int)) (t1 t2 t3 t4 : ITy) (lo hi lo' hi' k : Int) (ha : Holds a (wholeVals ps))
    (hb : Holds b [t1.val lo]) (hc : Holds c [t2.val hi]) (hd : Holds d [t3.val lo']) (he : Holds e [t4.val hi'])
    (h1 : t1.has lo) (h2 : t2.has hi) (h3 : t3.has lo') (h4 : t4.has hi') (hp : ∀ p ∈ ps, p.1.has p.2)
    (hs : ∀ n ∈ [lo, hi, lo', hi'], n.natAbs ≤ 2 ^ 24) (hm : ∀ p ∈ ps, p.2.natAbs ≤ 2 ^ 24)
    (hne : lo ≠ hi) (hk : hi' - lo' = k * (hi - lo)) (hfit : ∀ p ∈ ps, ITy.i32.has (lo' + k * (p.2 - lo))) :
    ∃ out, scale [a, b, c, d, e] = some (0, some out) ∧ Holds (some out) (ps.map fun p => ITy.i32.val (lo' + k * (p.2 - lo))) := by
  have b1 := hs lo (by simp)
  have b2 := hs hi (by simp)
  have b3 := hs lo' (by simp)
  have b4 := hs hi' (by simp)
  have bk : k.natAbs ≤ 2 ^ 25 := by
    have e := congrArg Int.natAbs hk
    rw [Int.natAbs_mul] at e
    have h1 : 1 ≤ (hi - lo).natAbs := by omega
    have := Nat.le_mul_of_pos_right k.natAbs h1
    omega
  have bm : ∀ n : Int, n.natAbs ≤ 2 ^ 25 → (k * n).natAbs ≤ 2 ^ 50 := by
    intro n hn
    rw [Int.natAbs_mul]
    exact Nat.le_trans (Nat.mul_le_mul bk hn) (by decide)
  have hcl : ∀ n y, n.natAbs ≤ 2 ^ 24 → Scaled (exact lo) (exact hi) (exact lo') (exact hi') (exact n) y → Stands (lo' + k * (n - lo)) y := by
    intro n y hn hy
    have c1 := bm lo (by omega)
    have c2 := bm n (by omega)
    have c3 := bm (n - lo) (by omega)
    exact scaled_whole (exact_stands _) (exact_stands _) (exact_stands _) (exact_stands _) (exact_stands _) hne hk (by omega) (by omega) (by omega)
      (by omega) (by omega) (by omega) hy
  have hE : Elements (wholeVals ps) (ps.map fun p => some (exact p.2)) := by
    refine ⟨by simp [wholeVals], fun i v x hv hx => ?_⟩
    rw [wholeVals, List.getElem?_map, Option.map_eq_some_iff] at hv
    rw [List.getElem?_map, Option.map_eq_some_iff] at hx
    obtain ⟨p, g1, rfl⟩ := hv
    obtain ⟨m, g2, rfl⟩ := hx
    rw [g1] at g2; injection g2 with g2; subst g2
    have hmem := List.mem_of_getElem? g1
    exact .num _ _ (int_double _ _ (hp p hmem) (by have := hm p hmem; omega)) (by simp [Through, ITy.val])
  obtain ⟨fl, out, ws, q1, q2, q3, q4, q5⟩ := C100_scale a b c d e _ _ _ _ _ _ [] [] [] [] _ _ _ _ ha hE hb hc hd he
    (int_double _ _ h1 (by omega)) (int_double _ _ h2 (by omega)) (int_double _ _ h3 (by omega)) (int_double _ _ h4 (by omega)) (by
    intro i v x hv hx _ _ y hy
    rw [List.getElem?_map, Option.map_eq_some_iff] at hx
    obtain ⟨p, g1, g2⟩ := hx
    injection g2 with g2; subst g2
    have hmem := List.mem_of_getElem? g1
    exact ⟨_, stands_whole (hcl p.2 y (hm p hmem) hy), hfit p hmem⟩)
  have hfl : fl = false := by
    cases fl with
    | false => rfl
    | true =>
      obtain ⟨w, hw, hf⟩ := q1.mp rfl
      simp only [List.mem_cons, List.not_mem_nil, or_false] at hw
      rcases hw with rfl | rfl | rfl | rfl <;> exact absurd hf (int_not_floating _ _)
  refine ⟨out, q2, ?_⟩
  have : ws = ps.map fun p => ITy.i32.val (lo' + k * (p.2 - lo)) := by
    refine List.ext_getElem? fun i => ?_
    rw [List.getElem?_map]
    cases hn : ps[i]? with
    | none => rw [Option.map_none, List.getElem?_eq_none_iff, q4]; simpa [wholeVals] using hn
    | some p =>
      have hiw : i < ws.length := by rw [q4]; simpa [wholeVals] using (List.getElem?_eq_some_iff.mp hn).1
      have := q5 i (p.1.val p.2) ws[i] (some (exact p.2)) (by rw [wholeVals, List.getElem?_map, hn]; rfl) (List.getElem?_eq_getElem hiw)
        (by rw [List.getElem?_map, hn]; rfl)
      obtain ⟨y, hy, ⟨hf, -⟩ | ⟨-, -, j, w1, w2, w3⟩⟩ := this
      · rw [hfl] at hf
        rcases hf with hf | hf
        · exact absurd hf (int_not_floating _ _)
        · cases hf
      · rw [List.getElem?_eq_getElem hiw, w3, Option.map_some]
        rw [whole_unique w1 (stands_whole (hcl p.2 y (hm p (List.mem_of_getElem? hn)) hy))]
  rw [← this]; exact q3

/-- The full statement for the ends of the ranges: the upper end of the input range becomes the upper end of the output range. -/
def C100_ends_full : Prop :=
  ∀ (a b c d e : Ar) (lo hi lo' hi' : Int), Holds a [ITy.i32.val hi] → Holds b [ITy.i32.val lo] → Holds c [ITy.i32.val hi] →
    Holds d [ITy.i32.val lo'] → Holds e [ITy.i32.val hi'] → ITy.i32.has lo → ITy.i32.has hi → ITy.i32.has lo' → ITy.i32.has hi' → lo < hi →
    ∃ out, scale [a, b, c, d, e] = some (0, some out) ∧ Holds (some out) [ITy.i32.val hi']

/-- The numbers of a result, with their types. -/
def rawOf (r : Res) : Option (List (Option (UInt8 × Nat))) :=
  r.bind fun p => p.2.map fun out => out.map fun u => match u.val with
    | some (.num t b) => some (t, b)
    | _ => none

/-- The full statement is false: `scale(49, 0, 49, 0, 1)` is 0, since 49 times the `double` nearest to 1/49 is less than 1 and the whole part is
taken. -/
theorem C100_ends_full_fails : ¬ C100_ends_full := by
  intro h
  let at1 (n : Nat) : Ar := some [.mk 105 false (.bits n)]
  obtain ⟨out, h1, h2⟩ := h (at1 49) (at1 0) (at1 49) (at1 0) (at1 1) 0 49 0 1 rfl rfl rfl rfl rfl (by simp [ITy.has, ITy.signed, ITy.width]) (by simp [ITy.has, ITy.signed, ITy.width])
    (by simp [ITy.has, ITy.signed, ITy.width]) (by simp [ITy.has, ITy.signed, ITy.width]) (by decide)
  have e : rawOf (scale [at1 49, at1 0, at1 49, at1 0, at1 1]) = some [some (105, 0)] := by decide +kernel
  rw [h1] at e
  obtain ⟨u, rfl⟩ : ∃ u, out = [u] := by
    have := holds_len h2
    match out, this with
    | [u], _ => exact ⟨u, rfl⟩
  obtain ⟨u', g1, g2⟩ := holds_at h2 (i := 0) (v := ITy.i32.val 1) rfl
  have : u' = u := by simpa [at?] using g1.symm
  subst this
  simp only [rawOf, Option.bind_some, Option.map_some, List.map_cons, List.map_nil, g2] at e
  revert e
  decide

/-- An input range of one number: no number of the list has a finite image, unless the output range is one number as well. -/
theorem C100_no_range {lo lo' hi' : Int} {xl xl' xh' x y : Fp} (h1 : Stands lo xl) (h3 : Stands lo' xl') (h4 : Stands hi' xh')
    (hne : lo' ≠ hi') (b1 : (hi' - lo').natAbs ≤ 2 ^ 53) (hx : ∃ s m, x = .fin s m) (h : Scaled xl xl xl' xh' x y) : ∀ s m, y ≠ .fin s m := by
  obtain ⟨c, hc, hp, -⟩ := stands_place
  have ho : ¬ Ordered (· = ·) xh' xl' := by
    rintro ⟨p, q, e1, e2, e3⟩
    rw [hp _ _ h4] at e1; rw [hp _ _ h3] at e2
    injection e1 with e1; injection e2 with e2
    subst e1; subst e2
    exact hne (Int.eq_of_mul_eq_mul_right (by omega) e3).symm
  obtain ⟨rise, run, slope, p, offset, q, q1, q2, q3, q4, q5, q6, q7⟩ := h.2 ho
  obtain ⟨s1, k1, rfl, e1⟩ := stands_diff h4 h3 q1 b1
  have hk1 : k1 * 2 ^ 1074 ≠ 0 := by
    intro h0
    rcases Nat.mul_eq_zero.mp h0 with h0 | h0
    · subst h0; cases s1 <;> simp [value] at e1 <;> omega
    · have := Nat.two_pow_pos 1074; omega
  obtain ⟨s, k, rfl, -⟩ := h1
  obtain ⟨s', k', rfl, -⟩ := h3
  obtain ⟨s'', m, rfl⟩ := hx
  have r := q2.1 (Int.sub_self _)
  subst r
  have r := q3.2.1 rfl hk1
  subst r
  intro sy my hy
  subst hy
  obtain ⟨q4a, q4b⟩ := q4
  obtain ⟨q6a, q6b⟩ := q6
  by_cases c1 : k * 2 ^ 1074 = 0
  · rw [q4a c1] at q5
    cases q5
    cases q <;> cases q7
  · rw [q4b c1] at q5
    cases q5
    by_cases c2 : m = 0
    · rw [q6a c2] at q7; cases q7
    · rw [q6b c2] at q7
      simp only [SumOf] at q7
      by_cases c3 : ((s1 != (s && !s)) != s'') = !((s1 != (s && !s)) != s)
      · cases q7.1 c3
      · cases q7.2 c3

/-- Lists that meet the hypotheses: the numbers 0, 5 and 10 from the range 0 to 10 to the range 100 to 120. -/
example : ∃ out, scale [some [.mk 105 false (.bits 0), .mk 105 false (.bits 5), .mk 105 false (.bits 10)], some [.mk 105 false (.bits 0)],
    some [.mk 105 false (.bits 10)], some [.mk 105 false (.bits 100)], some [.mk 105 false (.bits 120)]] = some (0, some out) ∧
    Holds (some out) ([(ITy.i32, (0 : Int)), (ITy.i32, 5), (ITy.i32, 10)].map fun p => ITy.i32.val (100 + 2 * (p.2 - 0))) := by
  refine C100_ints _ _ _ _ _ _ .i32 .i32 .i32 .i32 0 10 100 120 2 rfl rfl rfl rfl rfl ?_ ?_ ?_ ?_ ?_ (by decide) (by decide) (by decide) (by decide) ?_
  all_goals simp [ITy.has, ITy.signed, ITy.width]

end Libo.Props
