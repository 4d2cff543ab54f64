import Verif.ExprMat
import Verif.Props.ExprSort
/-!
# C70: determinants
-/

namespace Libo.Props
open Libo Libo.Expr Libo.Ieee Libo.Sem

/-! ## Specification -/

/-- The arguments hold the rows of numbers. -/
def IsMatrix (argv : List Ar) (xss : List (List Fp)) : Prop :=
  argv.length = xss.length ∧ ∀ (i : Nat) a xs, argv[i]? = some a → xss[i]? = some xs → ∃ vs, Holds a vs ∧ Numbers vs xs

/-- The number in a row and a column. -/
def cell (xss : List (List Fp)) (i j : Nat) : Fp := (xss.getD i []).getD j .nan

/-- `n` rows of `n` numbers. -/
def Square (n : Nat) (xss : List (List Fp)) : Prop := xss.length = n ∧ ∀ xs ∈ xss, xs.length = n

/-- `det` returns one `double` with the number `r`. -/
def DetIs (argv : List Ar) (r : Fp) : Prop := ∃ out w, det argv = some (0, some out) ∧ Holds (some out) [w] ∧ NumVal w r

/-- The rows with the positions `p` and `q` exchanged. -/
def exchange (xss : List (List Fp)) (p q : Nat) : List (List Fp) := (xss.set p (xss.getD q [])).set q (xss.getD p [])

/-- The second matrix has the rows of the first one after a number of exchanges of two rows. -/
inductive Exchanged : Nat → List (List Fp) → List (List Fp) → Prop
  | none (xss) : Exchanged 0 xss xss
  | more (k xss yss p q) (h : Exchanged k xss yss) (hp : p < xss.length) (hq : q < xss.length) (hne : p ≠ q) : Exchanged (k + 1) xss (exchange yss p q)

/-! ## The arguments -/

theorem cells_spec {argv : List Ar} {xss : List (List Fp)} {n : Nat} (h : IsMatrix argv xss) (hs : Square n xss) : cellsOf argv n = some xss := by
  rw [cellsOf, mapM_some_iff]
  apply List.ext_getElem?
  intro i
  rw [List.getElem?_map, List.getElem?_map]
  by_cases hi : i < xss.length
  · have h1 := List.getElem?_eq_getElem hi
    have h2 := List.getElem?_eq_getElem (show i < argv.length by rw [h.1]; exact hi)
    obtain ⟨vs, h3, h4⟩ := h.2 i _ _ h2 h1
    have hia : i < argv.length := by rw [h.1]; exact hi
    have hl : len argv[i] = n := (holds_len h3).trans (h4.1.trans (hs.2 _ (List.getElem_mem hi)))
    rw [h1, h2, Option.map_some, Option.map_some, ← numbers_mapM h3 h4, hl]
  · rw [List.getElem?_eq_none (by rw [h.1]; omega), List.getElem?_eq_none (by omega)]
    rfl

theorem cell_good {argv : List Ar} {xss : List (List Fp)} (h : IsMatrix argv xss) (i j : Nat) : Fp.Good f64 (cell xss i j) := by
  rw [cell, List.getD_eq_getElem?_getD, List.getD_eq_getElem?_getD]
  cases h1 : xss[i]? with
  | none => simp [Fp.Good]
  | some xs =>
    rw [Option.getD_some]
    cases h2 : xs[j]? with
    | none => simp [Fp.Good]
    | some x =>
      have hi := (List.getElem?_eq_some_iff.mp h1).1
      obtain ⟨vs, h3, h4⟩ := h.2 i _ _ (List.getElem?_eq_getElem (by rw [h.1]; exact hi)) h1
      obtain ⟨-, v, -, -, -, e, -⟩ := numbers_at h3 h4 h2
      exact isDouble_good _ _ e

theorem lup_good (s : Mat × Nat) (n : Nat) : Fp.Good f64 (lupDeterminant s (n + 2)) := by
  have : Fp.Good f64 ((List.range (n + 1)).foldl (fun d i => Fp.mul f64 d (s.1 (i + 1) (i + 1))) (s.1 0 0)) := by
    rw [List.range_succ, List.foldl_append]
    exact Fp.good_mul f64 (by decide) _ _
  rw [lupDeterminant]
  simp only [show n + 2 - 1 = n + 1 from rfl]
  split
  · exact this
  · exact Fp.good_neg _ _ this

theorem det_spec {argv : List Ar} {xss : List (List Fp)} {n : Nat} (h : IsMatrix argv xss) (hs : Square n xss) (hn : n ≠ 0) :
    DetIs argv (detOf n (cell xss)) := by
  have hl : argv.length = n := h.1.trans hs.1
  have hg : Fp.Good f64 (detOf n (cell xss)) := by
    rw [detOf]
    split
    · exact cell_good h 0 0
    · split
      · exact Fp.good_sub f64 (by decide) _ _
      · split
        · exact Fp.good_sub f64 (by decide) _ _
        · obtain ⟨k, rfl⟩ : ∃ k, n = k + 2 := ⟨n - 2, by omega⟩
          exact lup_good _ k
  obtain ⟨u, w, u1, u2, u3⟩ := setDouble_num hg
  refine ⟨[u], w, ?_, ?_, u3⟩
  · rw [det, if_neg (fun e => hn (by rw [← hl, e]; rfl)), if_neg, hl, cells_spec h hs, Option.bind_some]
    · show (setTo (mk 1) 0 (fun x => x.setDouble (Fp.toBits f64 (detOf n (cell xss))))).map _ = _
      simp only [setTo, mk, List.replicate, List.getElem?_cons_zero, Option.bind_some, u1, Option.map_some, List.set_cons_zero]
    · rintro ⟨-, h2⟩
      rw [List.any_eq_true] at h2
      obtain ⟨a, ha, h3⟩ := h2
      obtain ⟨i, hi, rfl⟩ := List.mem_iff_getElem.mp ha
      have hx : i < xss.length := by rw [← h.1]; exact hi
      obtain ⟨vs, h4, h5⟩ := h.2 i _ _ (List.getElem?_eq_getElem hi) (List.getElem?_eq_getElem hx)
      have : len argv[i] = argv.length := (holds_len h4).trans (h5.1.trans ((hs.2 _ (List.getElem_mem hx)).trans hl.symm))
      simp [this] at h3
  · simp only [Holds, Option.getD_some, argsVal, u2, Option.bind_some, Option.map_some]

theorem mul_bound {a b : Int} {p q : Nat} (ha : a.natAbs ≤ p) (hb : b.natAbs ≤ q) : (a * b).natAbs ≤ p * q := by
  rw [Int.natAbs_mul]; exact Nat.mul_le_mul ha hb

/-! ## Zeros -/

def Vanishes (x : Fp) : Prop := ∃ s, x = .fin s 0

theorem zero_grid : Grid 53 0 := ⟨0, 0, by decide, rfl⟩

theorem div_zero {x y : Fp} {t : Bool} {n : Nat} (hx : Vanishes x) (hy : y = .fin t n) (hn : n ≠ 0) : Vanishes (Fp.div f64 x y) := by
  obtain ⟨s, rfl⟩ := hx
  subst hy
  have h := (Fp.quotient_of f64 (by decide) (.fin s 0) (.fin t n)).1 hn
  rw [Nat.zero_mul] at h
  refine ⟨s != t, Fp.rounded_exact f64 _ 0 n (by omega) zero_grid (Nat.two_pow_pos _) _ (by rw [Nat.zero_mul]; exact h)⟩

theorem mul_zero {x y : Fp} {t : Bool} {n : Nat} (hx : Vanishes x) (hy : y = .fin t n) : Vanishes (Fp.mul f64 x y) := by
  obtain ⟨s, rfl⟩ := hx
  subst hy
  have h := Fp.product_of f64 (by decide) (.fin s 0) (.fin t n)
  simp only [ProductOf, Nat.zero_mul] at h
  exact ⟨s != t, Fp.rounded_exact f64 _ 0 (2 ^ f64.unit) (Nat.two_pow_pos _) zero_grid (Nat.two_pow_pos _) _ (by rw [Nat.zero_mul]; exact h)⟩

theorem sub_zero {x y : Fp} {s : Bool} {m : Nat} (hx : x = .fin s m) (hg : Fp.Good f64 x) (hy : Vanishes y) :
    (m ≠ 0 → Fp.sub f64 x y = x) ∧ (m = 0 → Vanishes (Fp.sub f64 x y)) := by
  obtain ⟨t, rfl⟩ := hy
  subst hx
  have h := Fp.sum_of f64 (by decide) (.fin s m) (Fp.neg (.fin t 0))
  have hv : value (!t) 0 = 0 := by cases t <;> rfl
  simp only [SumOf, Fp.neg, hv, Int.add_zero] at h
  refine ⟨fun hm => ?_, fun hm => ?_⟩
  · have h1 : value s m ≠ 0 := by cases s <;> simp [value, hm]
    have h2 : decide (value s m < 0) = s := by cases s <;> simp [value] <;> omega
    have h3 : (value s m).natAbs = m := by cases s <;> simp [value]
    have h4 := h.2 h1
    rw [h2, h3] at h4
    exact Fp.rounded_exact f64 s m 1 (by decide) hg.1 hg.2 _ (by rw [Nat.mul_one]; exact h4)
  · subst hm
    have h1 : value s 0 = 0 := by cases s <;> rfl
    exact ⟨_, h.1 h1⟩

/-! ## Upper triangular matrices -/

/-- Zeros below the diagonal, the given numbers on it, and finite numbers above it. -/
structure Tri (N : Nat) (A : Mat) (D : Nat → Fp) : Prop where
  below : ∀ r c, r < N → c < r → Vanishes (A r c)
  diag : ∀ r, r < N → A r r = D r
  above : ∀ r c, r < c → c < N → Fp.Good f64 (A r c) ∧ ∃ s m, A r c = .fin s m

def NonZero (N : Nat) (D : Nat → Fp) : Prop := ∀ r, r < N → Fp.Good f64 (D r) ∧ ∃ s m, D r = .fin s m ∧ m ≠ 0

theorem tri_step {N : Nat} {A : Mat} {D : Nat → Fp} (h : Tri N A D) (hD : NonZero N D) {i : Nat} (hi : i < N) : Tri N (eliminate A i N) D := by
  obtain ⟨-, t, n, e, hn⟩ := hD i hi
  have e' : A i i = .fin t n := by rw [h.diag i hi, e]
  have hq : ∀ r, i < r → r < N → Vanishes (Fp.div f64 (A r i) (A i i)) := fun r h1 h2 => div_zero (h.below r i h2 h1) e' hn
  have hp : ∀ r c, i < r → r < N → i < c → c < N → Vanishes (Fp.mul f64 (Fp.div f64 (A r i) (A i i)) (A i c)) := by
    intro r c h1 h2 h3 h4
    obtain ⟨-, s, m, e2⟩ := h.above i c h3 h4
    exact mul_zero (hq r h1 h2) e2
  refine ⟨fun r c hr hc => ?_, fun r hr => ?_, fun r c hr hc => ?_⟩
  · rw [eliminate]
    split
    · rename_i h1
      simp only []
      split
      · exact hq r h1.1 h1.2
      · split
        · rename_i h2
          obtain ⟨s, h3⟩ := h.below r c hr hc
          exact (sub_zero h3 (by rw [h3]; exact ⟨zero_grid, Nat.two_pow_pos _⟩) (hp r c h1.1 h1.2 h2.1 h2.2)).2 rfl
        · exact h.below r c hr hc
    · exact h.below r c hr hc
  · rw [eliminate]
    split
    · rename_i h1
      simp only []
      rw [if_neg (by omega)]
      obtain ⟨g, s, m, e2, hm⟩ := hD r hr
      have h3 := h.diag r hr
      exact ((sub_zero (h3.trans e2) (by rw [h3]; exact g) (hp r r h1.1 h1.2 h1.1 h1.2)).1 hm).trans h3
    · exact h.diag r hr
  · rw [eliminate]
    split
    · rename_i h1
      simp only []
      rw [if_neg (by omega), if_pos ⟨by omega, hc⟩]
      obtain ⟨g, s, m, e2⟩ := h.above r c hr hc
      refine ⟨Fp.good_sub f64 (by decide) _ _, ?_⟩
      have := sub_zero e2 g (hp r c h1.1 h1.2 (by omega) hc)
      by_cases hm : m = 0
      · obtain ⟨t, ht⟩ := this.2 hm; exact ⟨t, 0, ht⟩
      · exact ⟨s, m, (this.1 hm).trans e2⟩
    · exact h.above r c hr hc

/-! ## Rows in another order -/

/-- Where a row goes when two rows are exchanged. -/
def sw (p q r : Nat) : Nat := if r = p then q else if r = q then p else r

theorem swapRows_sw (A : Mat) (p q r : Nat) : swapRows A p q r = A (sw p q r) := by
  unfold swapRows sw; split
  · rfl
  · split <;> rfl

/-- Exchanges of rows, the last of the list first. -/
def swaps : List (Nat × Nat) → Mat → Mat
  | [], T => T
  | (p, q) :: l, T => swapRows (swaps l T) p q

/-- Exchanges of different rows from `i` on. -/
def From (i N : Nat) (l : List (Nat × Nat)) : Prop := ∀ x ∈ l, x.1 ≠ x.2 ∧ i ≤ x.1 ∧ i ≤ x.2 ∧ x.1 < N ∧ x.2 < N

theorem sw_ge {i p q r : Nat} (hp : i ≤ p) (hq : i ≤ q) (hr : i ≤ r) : i ≤ sw p q r := by unfold sw; grind
theorem sw_lt {N p q r : Nat} (hp : p < N) (hq : q < N) (hr : r < N) : sw p q r < N := by unfold sw; grind
theorem sw_eq {p q r s : Nat} : sw p q r = s ↔ r = sw p q s := by unfold sw; grind
theorem sw_far {i j p q : Nat} (hp : p ≠ i) (hq : q ≠ i) (r : Nat) : sw p q (sw i (sw p q j) r) = sw i j (sw p q r) := by unfold sw; grind
theorem sw_far_i {i j p q : Nat} (hp : p ≠ i) (hq : q ≠ i) : sw p q j = i ↔ j = i := by unfold sw; grind
theorem sw_same {i q : Nat} (r : Nat) : sw i q (sw i (sw i q i) r) = sw i i r := by unfold sw; grind
theorem sw_there {i q : Nat} (r : Nat) : sw i q (sw i (sw i q q) r) = sw i q r := by unfold sw; grind
theorem sw_near {i j q : Nat} (hj : j ≠ i) (hq : j ≠ q) (h : q ≠ i) (r : Nat) : sw i q (sw i (sw i q j) r) = sw i j (sw j q r) := by unfold sw; grind
theorem sw_near_i {i j q : Nat} (hj : j ≠ i) (hq : j ≠ q) : sw i q j = j := by unfold sw; grind
theorem sw_comm (p q r : Nat) : sw p q r = sw q p r := by unfold sw; grind

theorem swapRows_comm (A : Mat) (p q : Nat) : swapRows A p q = swapRows A q p := by
  funext r; rw [swapRows_sw, swapRows_sw, sw_comm]

/-- The exchange of two rows after the pivot row has been found. -/
theorem bring_step {i N j p q : Nat} {T : Mat} {l l' : List (Nat × Nat)} (hpq : p ≠ q) (h1 : i ≤ p) (h2 : i ≤ q) (h3 : p < N) (h4 : q < N)
    (j1 : i ≤ j) (j2 : j < N) (j4 : From (i + 1) N l') (j5 : swapRows (swaps l T) i j = swaps l' T)
    (j6 : (l'.length + if j = i then 0 else 1) % 2 = l.length % 2) : ∃ l'', From (i + 1) N l'' ∧
    swapRows (swapRows (swaps l T) p q) i (sw p q j) = swaps l'' T ∧ (l''.length + if sw p q j = i then 0 else 1) % 2 = (l.length + 1) % 2 := by
  have pull : (∀ r, sw p q (sw i (sw p q j) r) = sw i j r) → swapRows (swapRows (swaps l T) p q) i (sw p q j) = swaps l' T := by
    intro h
    rw [← j5]
    funext r
    rw [swapRows_sw, swapRows_sw, swapRows_sw, h]
  have push : ∀ a b : Nat, (∀ r, sw p q (sw i (sw p q j) r) = sw i j (sw a b r)) →
      swapRows (swapRows (swaps l T) p q) i (sw p q j) = swaps ((a, b) :: l') T := by
    intro a b h
    funext r
    rw [swapRows_sw, swapRows_sw, swaps, ← j5, swapRows_sw, swapRows_sw, h]
  have more : ∀ a b : Nat, a ≠ b → i < a → i < b → a < N → b < N → From (i + 1) N ((a, b) :: l') := by
    intro a b h5 h6 h7 h8 h9 x hx
    rcases List.mem_cons.mp hx with rfl | hx
    · exact ⟨h5, h6, h7, h8, h9⟩
    · exact j4 x hx
  by_cases hp : p = i
  · subst hp
    by_cases hj : j = p
    · subst hj
      refine ⟨l', j4, pull sw_same, ?_⟩
      rw [if_pos rfl] at j6
      rw [if_neg (by unfold sw; grind)]; omega
    · rw [if_neg hj] at j6
      by_cases hq : j = q
      · subst hq
        refine ⟨l', j4, pull sw_there, ?_⟩
        rw [if_pos (by unfold sw; grind)]; omega
      · refine ⟨(j, q) :: l', more j q hq (by omega) (by omega) j2 h4, push j q (sw_near hj hq (Ne.symm hpq)), ?_⟩
        rw [sw_near_i hj hq, if_neg hj, List.length_cons]; omega
  · by_cases hq : q = i
    · subst hq
      by_cases hj : j = q
      · subst hj
        refine ⟨l', j4, pull (fun r => ?_), ?_⟩
        · rw [sw_comm p j, sw_comm p j]; exact sw_same r
        · rw [if_pos rfl] at j6
          rw [if_neg (by unfold sw; grind)]; omega
      · rw [if_neg hj] at j6
        by_cases hp' : j = p
        · subst hp'
          refine ⟨l', j4, pull (fun r => ?_), ?_⟩
          · rw [sw_comm j q, sw_comm j q]; exact sw_there r
          · rw [if_pos (by unfold sw; grind)]; omega
        · refine ⟨(j, p) :: l', more j p hp' (by omega) (by omega) j2 h3, push j p (fun r => ?_), ?_⟩
          · rw [sw_comm p q, sw_comm p q]; exact sw_near hj hp' hpq r
          · rw [sw_comm, sw_near_i hj hp', if_neg hj, List.length_cons]; omega
    · refine ⟨(p, q) :: l', more p q hpq (by omega) (by omega) h3 h4, push p q (sw_far hp hq), ?_⟩
      by_cases hj : j = i
      · rw [if_pos ((sw_far_i hp hq).mpr hj), List.length_cons]; rw [if_pos hj] at j6; omega
      · rw [if_neg (fun e => hj ((sw_far_i hp hq).mp e)), List.length_cons]; rw [if_neg hj] at j6; omega

/-- Where the row that belongs to a column is, and what is left to exchange when it has been put in its place. -/
theorem bring {i N : Nat} (hi : i < N) (T : Mat) (l : List (Nat × Nat)) (hl : From i N l) : ∃ (j : Nat) (l' : List (Nat × Nat)), i ≤ j ∧ j < N ∧
    (∀ r, i ≤ r → r < N → ∃ r', i ≤ r' ∧ r' < N ∧ swaps l T r = T r' ∧ (r' = i ↔ r = j)) ∧ From (i + 1) N l' ∧
    swapRows (swaps l T) i j = swaps l' T ∧ (l'.length + if j = i then 0 else 1) % 2 = l.length % 2 := by
  induction l with
  | nil =>
    refine ⟨i, [], Nat.le_refl _, hi, fun r h1 h2 => ⟨r, h1, h2, rfl, Iff.rfl⟩, (fun x hx => by cases hx), ?_, by simp⟩
    funext r
    rw [swapRows_sw]
    exact congrArg T (by unfold sw; grind)
  | cons x l ih =>
    obtain ⟨p, q⟩ := x
    obtain ⟨hpq, h1, h2, h3, h4⟩ := hl (p, q) (List.mem_cons_self ..)
    simp only at hpq h1 h2 h3 h4
    obtain ⟨j, l', j1, j2, j3, j4, j5, j6⟩ := ih (fun y hy => hl y (List.mem_cons_of_mem _ hy))
    obtain ⟨l'', k1, k2, k3⟩ := bring_step hpq h1 h2 h3 h4 j1 j2 j4 j5 j6
    refine ⟨sw p q j, l'', sw_ge h1 h2 j1, sw_lt h3 h4 j2, ?_, k1, k2, k3⟩
    intro r r1 r2
    obtain ⟨r', s1, s2, s3, s4⟩ := j3 (sw p q r) (sw_ge h1 h2 r1) (sw_lt h3 h4 r2)
    exact ⟨r', s1, s2, by rw [swaps, swapRows_sw, s3], s4.trans sw_eq⟩

theorem eliminate_swaps {i N : Nat} (T : Mat) (l : List (Nat × Nat)) (hl : From (i + 1) N l) : eliminate (swaps l T) i N = swaps l (eliminate T i N) := by
  induction l with
  | nil => rfl
  | cons x l ih =>
    obtain ⟨p, q⟩ := x
    obtain ⟨-, h1, h2, h3, h4⟩ := hl (p, q) (List.mem_cons_self ..)
    simp only at h1 h2 h3 h4
    rw [swaps, swaps, ← ih (fun y hy => hl y (List.mem_cons_of_mem _ hy))]
    generalize swaps l T = X
    funext r c
    have e : sw p q i = i := by unfold sw; grind
    have e2 : (i < sw p q r ∧ sw p q r < N) ↔ (i < r ∧ r < N) := by unfold sw; grind
    rw [swapRows_sw]
    simp only [eliminate, swapRows_sw, e, e2]

/-- The pivot is the only number in the rest of the column that is not 0. -/
theorem only_pivot {A : Mat} {i j N : Nat} {s : Bool} {m : Nat} (hj : i ≤ j) (hN : j < N) (e : A j i = .fin s m) (hm : m ≠ 0)
    (h : ∀ r, i ≤ r → r < N → r ≠ j → Vanishes (A r i)) : (findPivot A i N).2 = j := by
  have key : ∀ n, n ≤ N - i → (List.range n).foldl
      (fun s k => if Fp.lt s.1 (A (i + k) i).abs then ((A (i + k) i).abs, i + k) else s) (Fp.fin false 0, i) =
      if i + n ≤ j then (.fin false 0, i) else (.fin false m, j) := by
    intro n
    induction n with
    | zero => intro _; rw [if_pos (by omega)]; rfl
    | succ n ih =>
      intro hn
      rw [List.range_succ, List.foldl_append, ih (by omega)]
      have z : Fp.lt (.fin false 0) (.fin false 0) = false := rfl
      have z2 : Fp.lt (.fin false m) (.fin false 0) = false := by simp [Fp.lt, Fp.signed]
      have z3 : Fp.lt (.fin false 0) (.fin false m) = true := by simp [Fp.lt, Fp.signed]; omega
      by_cases h1 : i + n = j
      · rw [if_pos (by omega), if_neg (by omega)]
        simp [h1, e, Fp.abs, z3]
      · obtain ⟨t, ht⟩ := h (i + n) (by omega) (by omega) h1
        by_cases h2 : i + n ≤ j
        · rw [if_pos h2, if_pos (by omega)]
          simp [ht, Fp.abs, z]
        · rw [if_neg h2, if_neg (by omega)]
          simp [ht, Fp.abs, z2]
  rw [findPivot, key _ (Nat.le_refl _), if_neg (by omega)]

theorem swaps_lup {N : Nat} {T : Mat} {D : Nat → Fp} (h : Tri N T D) (hD : NonZero N D) {l : List (Nat × Nat)} (hl : From 0 N l) :
    (lupDecompose (swaps l T) N).2 % 2 = l.length % 2 ∧ Tri N (lupDecompose (swaps l T) N).1 D := by
  have key : ∀ k, k ≤ N → ∃ (l' : List (Nat × Nat)) (T' : Mat), From k N l' ∧ Tri N T' D ∧
      ((List.range k).foldl (lupStep N) (swaps l T, 0)).1 = swaps l' T' ∧
      (((List.range k).foldl (lupStep N) (swaps l T, 0)).2 + l'.length) % 2 = l.length % 2 := by
    intro k
    induction k with
    | zero => exact fun _ => ⟨l, T, hl, h, rfl, by simp⟩
    | succ k ih =>
      intro hk
      obtain ⟨l1, T1, i1, i2, i3, i4⟩ := ih (by omega)
      obtain ⟨j, l2, b1, b2, b3, b4, b5, b6⟩ := bring (by omega) T1 l1 i1
      rw [List.range_succ, List.foldl_append]
      generalize (List.range k).foldl (lupStep N) (swaps l T, 0) = S at i3 i4 ⊢
      obtain ⟨S1, S2⟩ := S
      simp only at i3 i4
      subst i3
      have hp : (findPivot (swaps l1 T1) k N).2 = j := by
        obtain ⟨-, s, m, e, hm⟩ := hD k (by omega)
        refine only_pivot (s := s) (m := m) b1 b2 ?_ hm ?_
        · obtain ⟨r', -, -, r3, r4⟩ := b3 j b1 b2
          rw [r3, r4.mpr rfl, i2.diag k (by omega), e]
        · intro r r1 r2 r3
          obtain ⟨r', s1, s2, s3, s4⟩ := b3 r r1 r2
          have : r' ≠ k := fun e => r3 (s4.mp e)
          rw [s3]
          exact i2.below r' k s2 (by omega)
      refine ⟨l2, eliminate T1 k N, b4, tri_step i2 hD (by omega), ?_⟩
      simp only [List.foldl_cons, List.foldl_nil, lupStep]
      rw [hp]
      by_cases hj : j = k
      · subst hj
        simp only [ne_eq, not_true_eq_false, if_false]
        refine ⟨?_, ?_⟩
        · rw [← eliminate_swaps T1 l2 b4, ← b5]
          congr 1
          funext r
          rw [swapRows_sw]
          exact congrArg _ (by unfold sw; grind)
        · rw [if_pos rfl] at b6; omega
      · rw [if_pos hj]
        rw [if_neg hj] at b6
        refine ⟨?_, ?_⟩
        · show eliminate (swapRows (swaps l1 T1) k j) k N = _
          rw [b5, eliminate_swaps T1 l2 b4]
        · show (S2 + 1 + l2.length) % 2 = _
          omega
  obtain ⟨l', T', k1, k2, k3, k4⟩ := key N (Nat.le_refl _)
  have : l' = [] := by
    cases l' with
    | nil => rfl
    | cons x l' => have := k1 x (List.mem_cons_self ..); omega
  subst this
  rw [lupDecompose]
  exact ⟨by simpa using k4, by rw [k3]; exact k2⟩

/-! ## Matrices with a zero column -/

theorem mul_nan (x : Fp) : Fp.mul f64 x .nan = .nan := by cases x <;> rfl
theorem sub_nan (x : Fp) : Fp.sub f64 x .nan = .nan := by cases x <;> rfl

theorem pivot_none {A : Mat} {i N : Nat} (h : ∀ r, i ≤ r → r < N → Vanishes (A r i) ∨ A r i = .nan) : (findPivot A i N).2 = i := by
  have key : ∀ n, n ≤ N - i → (List.range n).foldl
      (fun s k => if Fp.lt s.1 (A (i + k) i).abs then ((A (i + k) i).abs, i + k) else s) (Fp.fin false 0, i) = (.fin false 0, i) := by
    intro n
    induction n with
    | zero => intro _; rfl
    | succ n ih =>
      intro hn
      rw [List.range_succ, List.foldl_append, ih (by omega)]
      have : Fp.lt (.fin false 0) (A (i + n) i).abs = false := by
        rcases h (i + n) (by omega) (by omega) with ⟨s, e⟩ | e <;> rw [e] <;> rfl
      simp [this]
  rw [findPivot, key _ (Nat.le_refl _)]

/-- From the second row and column on there is only NaN. -/
def Nans (N : Nat) (A : Mat) : Prop := ∀ r c, 1 ≤ r → r < N → 1 ≤ c → c < N → A r c = .nan

theorem nans_first {N : Nat} {A : Mat} (h : ∀ r, r < N → Vanishes (A r 0)) (hN : 0 < N) : Nans N (eliminate A 0 N) := by
  intro r c h1 h2 h3 h4
  have hq : Fp.div f64 (A r 0) (A 0 0) = .nan := by
    obtain ⟨s, e⟩ := h r h2
    obtain ⟨t, e'⟩ := h 0 hN
    rw [e, e']; rfl
  rw [eliminate, if_pos ⟨h1, h2⟩]
  simp only []
  rw [if_neg (by omega), if_pos ⟨h3, h4⟩, hq]
  exact (congrArg (Fp.sub f64 (A r c)) rfl).trans (sub_nan _)

theorem nans_step {N i : Nat} {A : Mat} (h : Nans N A) (hi : 1 ≤ i) : Nans N (eliminate A i N) := by
  intro r c h1 h2 h3 h4
  rw [eliminate]
  split
  · simp only []
    split
    · rw [h r i h1 h2 hi (by omega)]; rfl
    · split
      · rw [h r c h1 h2 h3 h4]; rfl
      · exact h r c h1 h2 h3 h4
  · exact h r c h1 h2 h3 h4

theorem nans_lup {N : Nat} {A : Mat} (h : ∀ r, r < N → Vanishes (A r 0)) (hN : 0 < N) : Nans N (lupDecompose A N).1 := by
  have key : ∀ k, k + 1 ≤ N → Nans N ((List.range (k + 1)).foldl (lupStep N) (A, 0)).1 := by
    intro k
    induction k with
    | zero =>
      intro _
      simp only [Nat.zero_add, List.range_one, List.foldl_cons, List.foldl_nil, lupStep]
      rw [pivot_none (fun r _ hr => .inl (h r hr))]
      simp only [ne_eq, not_true_eq_false, if_false]
      exact nans_first h hN
    | succ k ih =>
      intro hk
      have i1 := ih (by omega)
      rw [List.range_succ, List.foldl_append]
      simp only [List.foldl_cons, List.foldl_nil, lupStep]
      rw [pivot_none (fun r h1 h2 => .inr (i1 r (k + 1) (by omega) h2 (by omega) (by omega)))]
      simp only [ne_eq, not_true_eq_false, if_false]
      exact nans_step i1 (by omega)
  obtain ⟨k, rfl⟩ : ∃ k, N = k + 1 := ⟨N - 1, by omega⟩
  exact key k (Nat.le_refl _)

/-! ## C70 -/

/-- **C70**: the determinant of a single row is its first number; further elements are not looked at. -/
theorem C70_one (a : Ar) (v : Val) (vs : List Val) (x : Fp) (h : Holds a (v :: vs)) (hx : IsDouble v x) : DetIs [a] x := by
  obtain ⟨u, w, u1, u2, u3⟩ := setDouble_num (isDouble_good _ _ hx)
  obtain ⟨y, h1, h2⟩ := holds_at h (i := 0) (v := v) rfl
  refine ⟨[u], w, ?_, ?_, u3⟩
  · have h3 : cellsOf [a] 1 = some [[x]] := by
      simp [cellsOf, List.range_succ, h1, fpOf, getFp_val y v x h2 hx]
    rw [det, if_neg (by simp), if_neg (by simp)]
    show (cellsOf [a] 1).bind _ = _
    rw [h3, Option.bind_some]
    show (setTo (mk 1) 0 (fun y => y.setDouble (Fp.toBits f64 x))).map _ = _
    simp only [setTo, mk, List.replicate, List.getElem?_cons_zero, Option.bind_some, u1, Option.map_some, List.set_cons_zero]
  · simp only [Holds, Option.getD_some, argsVal, u2, Option.bind_some, Option.map_some]

/-- **C70**: the determinant of two rows of two whole numbers up to 2^26 in magnitude is exact. -/
theorem C70_two (argv : List Ar) (x y z w : Fp) (a b c d : Int) (h : IsMatrix argv [[x, y], [z, w]])
    (hx : Stands a x) (hy : Stands b y) (hz : Stands c z) (hw : Stands d w)
    (ha : a.natAbs ≤ 2 ^ 26) (hb : b.natAbs ≤ 2 ^ 26) (hc : c.natAbs ≤ 2 ^ 26) (hd : d.natAbs ≤ 2 ^ 26) :
    ∃ r, DetIs argv r ∧ Stands (a * d - b * c) r := by
  refine ⟨_, det_spec (n := 2) h ⟨rfl, by simp⟩ (by decide), ?_⟩
  have m1 := mul_bound ha hd
  have m2 := mul_bound hb hc
  have e : (2 : Nat) ^ 26 * 2 ^ 26 = 2 ^ 52 := by decide
  have e2 : (2 : Nat) ^ 53 = 2 ^ 52 + 2 ^ 52 := by decide
  rw [e] at m1 m2
  show Stands _ (Fp.sub f64 (Fp.mul f64 x w) (Fp.mul f64 y z))
  generalize (2 : Nat) ^ 52 = K at *
  refine stands_sub (stands_mul hx hw ?_) (stands_mul hy hz ?_) ?_ <;> rw [e2] <;> omega

/-- **C70**: the determinant of three rows of three whole numbers up to 100000 in magnitude is exact. -/
theorem C70_three (argv : List Ar) (xa xb xc xd xe xf xg xh xi : Fp) (a b c d e f g h i : Int)
    (hm : IsMatrix argv [[xa, xb, xc], [xd, xe, xf], [xg, xh, xi]])
    (ha : Stands a xa) (hb : Stands b xb) (hc : Stands c xc) (hd : Stands d xd) (he : Stands e xe) (hf : Stands f xf)
    (hg : Stands g xg) (hh : Stands h xh) (hi : Stands i xi) (hs : ∀ n ∈ [a, b, c, d, e, f, g, h, i], n.natAbs ≤ 100000) :
    ∃ r, DetIs argv r ∧ Stands (a * (e * i - f * h) - b * (d * i - f * g) + c * (d * h - e * g)) r := by
  refine ⟨_, det_spec (n := 3) hm ⟨rfl, by simp⟩ (by decide), ?_⟩
  simp only [List.mem_cons, List.not_mem_nil, or_false, forall_eq_or_imp, forall_eq] at hs
  obtain ⟨sa, sb, sc, sd, se, sf, sg, sh, si⟩ := hs
  have p : ∀ {x y z : Int}, x.natAbs ≤ 100000 → y.natAbs ≤ 100000 → z.natAbs ≤ 100000 →
      (x * y).natAbs ≤ 2 ^ 53 ∧ (x * y * z).natAbs ≤ 1000000000000000 := by
    intro x y z hx hy hz
    have h1 := mul_bound hx hy
    have h2 := mul_bound h1 hz
    omega
  have t : ∀ {x y z : Int} {u v w : Fp}, Stands x u → Stands y v → Stands z w → x.natAbs ≤ 100000 → y.natAbs ≤ 100000 → z.natAbs ≤ 100000 →
      Stands (x * y * z) (Fp.mul f64 (Fp.mul f64 u v) w) := by
    intro x y z u v w h1 h2 h3 hx hy hz
    have := p hx hy hz
    exact stands_mul (stands_mul h1 h2 this.1) h3 (by omega)
  have q1 := t ha he hi sa se si
  have q2 := t hb hf hg sb sf sg
  have q3 := t hc hd hh sc sd sh
  have q4 := t hc he hg sc se sg
  have q5 := t hb hd hi sb sd si
  have q6 := t ha hf hh sa sf sh
  have b1 := (p sa se si).2
  have b2 := (p sb sf sg).2
  have b3 := (p sc sd sh).2
  have b4 := (p sc se sg).2
  have b5 := (p sb sd si).2
  have b6 := (p sa sf sh).2
  have E : a * (e * i - f * h) - b * (d * i - f * g) + c * (d * h - e * g) =
      a * e * i + b * f * g + c * d * h - c * e * g - b * d * i - a * f * h := by
    simp only [Int.mul_sub, ← Int.mul_assoc]; omega
  rw [E]
  generalize a * e * i = z1 at *
  generalize b * f * g = z2 at *
  generalize c * d * h = z3 at *
  generalize c * e * g = z4 at *
  generalize b * d * i = z5 at *
  generalize a * f * h = z6 at *
  exact stands_sub (stands_sub (stands_sub (stands_add (stands_add q1 q2 (by omega)) q3 (by omega)) q4 (by omega)) q5 (by omega)) q6 (by omega)

theorem exchange_length (yss : List (List Fp)) (p q : Nat) : (exchange yss p q).length = yss.length := by simp [exchange]

theorem exchanged_length {k : Nat} {xss yss : List (List Fp)} (h : Exchanged k xss yss) : yss.length = xss.length := by
  induction h with
  | none => rfl
  | more k xss yss p q h hp hq hne ih => rw [exchange_length, ih]

theorem exchange_getD (yss : List (List Fp)) (p q r : Nat) (hp : p < yss.length) (hq : q < yss.length) :
    (exchange yss p q).getD r [] = yss.getD (sw p q r) [] := by
  simp only [exchange, List.getD_eq_getElem?_getD, List.getElem?_set, List.length_set, sw]
  grind

theorem exchanged_cells {k n : Nat} {xss yss : List (List Fp)} (h : Exchanged k xss yss) (hn : xss.length = n) :
    ∃ l, l.length = k ∧ From 0 n l ∧ cell yss = swaps l (cell xss) := by
  induction h with
  | none => exact ⟨[], rfl, (fun x hx => by cases hx), rfl⟩
  | more k xss yss p q h hp hq hne ih =>
    obtain ⟨l, h1, h2, h3⟩ := ih hn
    have hl := exchanged_length h
    refine ⟨(p, q) :: l, by rw [List.length_cons, h1], ?_, ?_⟩
    · intro x hx
      rcases List.mem_cons.mp hx with rfl | hx
      · exact ⟨hne, Nat.zero_le _, Nat.zero_le _, by omega, by omega⟩
      · exact h2 x hx
    · funext r c
      rw [swaps, swapRows_sw, ← h3, cell, cell, exchange_getD yss p q r (by omega) (by omega)]

theorem exchanged_mem {k : Nat} {xss yss : List (List Fp)} (h : Exchanged k xss yss) : ∀ ys ∈ yss, ys ∈ xss := by
  induction h with
  | none => exact fun _ h => h
  | more k xss yss p q h hp hq hne ih =>
    have hl := exchanged_length h
    intro ys hy
    have get : ∀ r, r < yss.length → yss.getD r [] ∈ yss := fun r hr => by
      rw [List.getD_eq_getElem?_getD, List.getElem?_eq_getElem hr]; exact List.getElem_mem hr
    rcases List.mem_or_eq_of_mem_set hy with h1 | h1
    · rcases List.mem_or_eq_of_mem_set h1 with h2 | h2
      · exact ih _ h2
      · rw [h2]; exact ih _ (get q (by omega))
    · rw [h1]; exact ih _ (get p (by omega))

theorem swaps_onto (l : List (Nat × Nat)) (T : Mat) (r : Nat) : ∃ r', swaps l T r' = T r := by
  induction l with
  | nil => exact ⟨r, rfl⟩
  | cons x l ih =>
    obtain ⟨r', h⟩ := ih
    refine ⟨sw x.1 x.2 r', ?_⟩
    rw [swaps, swapRows_sw, show sw x.1 x.2 (sw x.1 x.2 r') = r' from sw_eq.mpr rfl, h]

/-- **C70**: of four or more rows with zeros below a diagonal without zeros, the determinant is the product of the diagonal, multiplied from the
top with correct rounding.  If the rows are given in another order, the sign changes with every exchange of two rows. -/
theorem C70_triangular (argv : List Ar) (xss yss : List (List Fp)) (n k : Nat) (h : IsMatrix argv yss) (he : Exchanged k xss yss) (hs : Square n xss)
    (hn : 4 ≤ n) (hb : ∀ i j, i < n → j < i → Vanishes (cell xss i j)) (hd : ∀ i, i < n → ∃ s m, cell xss i i = .fin s m ∧ m ≠ 0)
    (ha : ∀ i j, i < j → j < n → ∃ s m, cell xss i j = .fin s m) :
    ∃ r, DetIs argv (if k % 2 = 0 then r else r.neg) ∧ Multiplied (cell xss 0 0) ((List.range (n - 1)).map fun i => cell xss (i + 1) (i + 1)) r := by
  have hsy : Square n yss := ⟨(exchanged_length he).trans hs.1, fun ys hy => hs.2 _ (exchanged_mem he ys hy)⟩
  have good : ∀ r c, Fp.Good f64 (cell xss r c) := by
    intro r c
    obtain ⟨l, -, -, l3⟩ := exchanged_cells he hs.1
    obtain ⟨r', e⟩ := swaps_onto l (cell xss) r
    rw [← e, ← l3]
    exact cell_good h r' c
  have hdet := det_spec h hsy (by omega)
  obtain ⟨l, l1, l2, l3⟩ := exchanged_cells he hs.1
  have t : Tri n (cell xss) (fun r => cell xss r r) :=
    ⟨hb, fun _ _ => rfl, fun r c h1 h2 => ⟨good r c, ha r c h1 h2⟩⟩
  obtain ⟨t1, t2⟩ := swaps_lup t (fun r hr => ⟨good r r, hd r hr⟩) l2
  rw [detOf, if_neg (by omega), if_neg (by omega), if_neg (by omega), lupDeterminant, l3, t1, l1] at hdet
  generalize lupDecompose (swaps l (cell xss)) n = S at t2 hdet
  have e : ∀ k, k + 1 ≤ n → (List.range k).foldl (fun d i => Fp.mul f64 d (S.1 (i + 1) (i + 1))) (S.1 0 0) =
      ((List.range k).map fun i => cell xss (i + 1) (i + 1)).foldl (Fp.mul f64) (cell xss 0 0) := by
    intro k
    induction k with
    | zero => intro _; exact t2.diag 0 (by omega)
    | succ k ih =>
      intro hk
      rw [List.range_succ, List.map_append, List.foldl_append, List.foldl_append, ih (by omega)]
      simp only [List.foldl_cons, List.foldl_nil, List.map_cons, List.map_nil]
      rw [t2.diag (k + 1) (by omega)]
  rw [e (n - 1) (by omega)] at hdet
  exact ⟨_, hdet, multiplied_fold _ _⟩

/-- **C70** (negative): the determinant of four or more rows that begin with 0 is not 0, but NaN, whatever the other numbers are. -/
theorem C70_singular_fails (argv : List Ar) (xss : List (List Fp)) (n : Nat) (h : IsMatrix argv xss) (hs : Square n xss) (hn : 4 ≤ n)
    (hz : ∀ i, i < n → Vanishes (cell xss i 0)) : DetIs argv .nan := by
  have hd := det_spec h hs (by omega)
  have t := nans_lup hz (by omega)
  rw [detOf] at hd
  rw [if_neg (by omega), if_neg (by omega), if_neg (by omega), lupDeterminant] at hd
  obtain ⟨k, hk⟩ : ∃ k, n - 1 = k + 1 := ⟨n - 2, by omega⟩
  rw [hk, List.range_succ, List.foldl_append] at hd
  simp only [List.foldl_cons, List.foldl_nil] at hd
  rw [t (k + 1) (k + 1) (by omega) (by omega) (by omega) (by omega), mul_nan] at hd
  simpa [Fp.neg] using hd

/-- **C70**: the rows must be as long as there are rows, otherwise it is an error; no rows are an error, too. -/
theorem C70_shape (argv : List Ar) (hl : argv.length ≠ 1) (h : ∃ a ∈ argv, len a ≠ argv.length) : ∃ out, det argv = some (1, out) := by
  obtain ⟨a, ha, h⟩ := h
  rw [det]
  split
  · exact ⟨_, rfl⟩
  · rw [if_pos ⟨hl, List.any_eq_true.mpr ⟨a, ha, by simpa using h⟩⟩]
    exact ⟨_, rfl⟩

/-! ## Non-vacuity -/

/-- A row of 32-bit integers. -/
def intRow (l : List Int) : Ar := some (l.map fun n => .mk 105 false (.bits (n % 4294967296).toNat))

theorem intRow_holds (l : List Int) : Holds (intRow l) (l.map ITy.i32.val) := by
  simp only [Holds, intRow, Option.getD_some]
  induction l with
  | nil => rfl
  | cons n l ih =>
    rw [List.map_cons, List.map_cons, argsVal, ih]
    have : (UAtom.mk 105 false (.bits (n % 4294967296).toNat)).val = some (ITy.i32.val n) := by
      have : (n % 4294967296).toNat % 4294967296 = (n % 4294967296).toNat := by omega
      simp only [UAtom.val, ITy.val]
      exact congrArg some (congrArg (Val.num 105) this)
    rw [this]; rfl

/-- The rows of a matrix of integers. -/
theorem intRows (l : List (List Int)) (h : ∀ xs ∈ l, ∀ n ∈ xs, n.natAbs ≤ 100000) : IsMatrix (l.map intRow) (l.map (·.map exact)) := by
  refine ⟨by simp, fun i a xs h1 h2 => ?_⟩
  rw [List.getElem?_map] at h1 h2
  cases h3 : l[i]? with
  | none => rw [h3] at h1; cases h1
  | some ns =>
    rw [h3] at h1 h2
    cases h1; cases h2
    refine ⟨_, intRow_holds ns, by simp, fun j v x h4 h5 => ?_⟩
    rw [List.getElem?_map] at h4 h5
    cases h6 : ns[j]? with
    | none => rw [h6] at h4; cases h4
    | some n =>
      rw [h6] at h4 h5
      cases h4; cases h5
      have := h ns (List.mem_of_getElem? h3) n (List.mem_of_getElem? h6)
      exact C63_integers .i32 n (by show -2147483648 ≤ n ∧ n < 2147483648; omega) (by omega)

example : (det [intRow [3, -1], intRow [2, 5]]).map (fun r => (r.1, r.2.map (·.map (fun a => (a.tag, Fp.ofBits f64 a.w.raw))))) =
    some (0, some [(100, Fp.ofInt f64 17)]) := by decide +kernel
example : (det [intRow [1, 2, 3], intRow [4, 5, 6], intRow [7, 8, 10]]).map (fun r => (r.1, r.2.map (·.map (fun a => (a.tag, Fp.ofBits f64 a.w.raw))))) =
    some (0, some [(100, Fp.ofInt f64 (-3))]) := by decide +kernel
example : (det [intRow [0, 3, 7, 8], intRow [2, 5, 1, 1], intRow [0, 0, 0, 7], intRow [0, 0, 5, 9]]).map
    (fun r => (r.1, r.2.map (·.map (fun a => (a.tag, Fp.ofBits f64 a.w.raw))))) = some (0, some [(100, Fp.ofInt f64 210)]) := by decide +kernel
example : (det [intRow [0, 3, 7, 8], intRow [2, 5, 1, 1], intRow [0, 0, 5, 9], intRow [0, 0, 0, 7]]).map
    (fun r => (r.1, r.2.map (·.map (fun a => (a.tag, Fp.ofBits f64 a.w.raw))))) = some (0, some [(100, Fp.ofInt f64 (-210))]) := by decide +kernel
example : (det [intRow [0, 3, 7, 8], intRow [0, 5, 1, 1], intRow [0, 0, 5, 9], intRow [0, 0, 0, 7]]).map
    (fun r => (r.1, r.2.map (·.map (fun a => (a.tag, Fp.ofBits f64 a.w.raw))))) = some (0, some [(100, .nan)]) := by decide +kernel

/-- The theorems say the same of these matrices. -/
example : ∃ r, DetIs [intRow [3, -1], intRow [2, 5]] r ∧ Stands 17 r :=
  C70_two _ (exact 3) (exact (-1)) (exact 2) (exact 5) 3 (-1) 2 5 (intRows [[3, -1], [2, 5]] (by decide)) (exact_stands _) (exact_stands _)
    (exact_stands _) (exact_stands _) (by decide) (by decide) (by decide) (by decide)

example : ∃ r, DetIs [intRow [1, 2, 3], intRow [4, 5, 6], intRow [7, 8, 10]] r ∧ Stands (-3) r :=
  C70_three _ _ _ _ _ _ _ _ _ _ 1 2 3 4 5 6 7 8 10 (intRows [[1, 2, 3], [4, 5, 6], [7, 8, 10]] (by decide)) (exact_stands _) (exact_stands _)
    (exact_stands _) (exact_stands _) (exact_stands _) (exact_stands _) (exact_stands _) (exact_stands _) (exact_stands _) (by decide)

example : DetIs [intRow [0, 3, 7, 8], intRow [0, 5, 1, 1], intRow [0, 0, 5, 9], intRow [0, 0, 0, 7]] .nan := by
  refine C70_singular_fails _ _ 4 (intRows [[0, 3, 7, 8], [0, 5, 1, 1], [0, 0, 5, 9], [0, 0, 0, 7]] (by decide)) ⟨rfl, by simp⟩ (by decide) ?_
  intro i hi
  have : i = 0 ∨ i = 1 ∨ i = 2 ∨ i = 3 := by omega
  rcases this with rfl | rfl | rfl | rfl <;> exact ⟨false, by simp [cell, exact]⟩

example : ∃ r, DetIs [intRow [0, 3, 7, 8], intRow [2, 5, 1, 1], intRow [0, 0, 5, 9], intRow [0, 0, 0, 7]] (if 1 % 2 = 0 then r else r.neg) ∧
    Multiplied (exact 2) [exact 3, exact 5, exact 7] r := by
  refine C70_triangular _ ([[2, 5, 1, 1], [0, 3, 7, 8], [0, 0, 5, 9], [0, 0, 0, 7]].map (·.map exact)) _ 4 1
    (intRows [[0, 3, 7, 8], [2, 5, 1, 1], [0, 0, 5, 9], [0, 0, 0, 7]] (by decide))
    (.more 0 _ _ 0 1 (.none _) (by decide) (by decide) (by decide)) ⟨rfl, by simp⟩ (by decide) ?_ ?_ ?_
  · intro i j hi hj
    have : i = 1 ∧ j = 0 ∨ i = 2 ∧ j = 0 ∨ i = 2 ∧ j = 1 ∨ i = 3 ∧ j = 0 ∨ i = 3 ∧ j = 1 ∨ i = 3 ∧ j = 2 := by omega
    rcases this with ⟨rfl, rfl⟩ | ⟨rfl, rfl⟩ | ⟨rfl, rfl⟩ | ⟨rfl, rfl⟩ | ⟨rfl, rfl⟩ | ⟨rfl, rfl⟩ <;> exact ⟨false, by simp [cell, exact]⟩
  · intro i hi
    have : i = 0 ∨ i = 1 ∨ i = 2 ∨ i = 3 := by omega
    rcases this with rfl | rfl | rfl | rfl <;> exact ⟨false, _, rfl, Nat.mul_ne_zero (by decide) (Nat.ne_of_gt (Nat.two_pow_pos _))⟩
  · intro i j hi hj
    have : i = 0 ∧ j = 1 ∨ i = 0 ∧ j = 2 ∨ i = 0 ∧ j = 3 ∨ i = 1 ∧ j = 2 ∨ i = 1 ∧ j = 3 ∨ i = 2 ∧ j = 3 := by omega
    rcases this with ⟨rfl, rfl⟩ | ⟨rfl, rfl⟩ | ⟨rfl, rfl⟩ | ⟨rfl, rfl⟩ | ⟨rfl, rfl⟩ | ⟨rfl, rfl⟩ <;> exact ⟨_, _, rfl⟩

end Libo.Props
