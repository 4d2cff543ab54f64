import Verif.Props.ExprRoots
import Verif.Props.ExprCast
/-!
# C77: the functions of `math.h`, norms and MIDI notes

The functions themselves are parameters of the model; here is what is done with them.
-/

namespace Libo.Props
open Libo Libo.Expr Libo.Ieee Libo.Text

/-- The numbers that the function `name` of the C library gives. -/
def Library (P : Printf) (name : Bytes) (x r : Fp) : Prop := ∃ b, b < 2 ^ 64 ∧ Fp.ofBits f64 b = x ∧ Fp.ofBits f64 (P.lib1 name b) = r
def Library2 (P : Printf) (name : Bytes) (x y r : Fp) : Prop :=
  ∃ b c, b < 2 ^ 64 ∧ c < 2 ^ 64 ∧ Fp.ofBits f64 b = x ∧ Fp.ofBits f64 c = y ∧ Fp.ofBits f64 (P.lib2 name b c) = r

theorem lib1_spec (P : Printf) (name : Bytes) {x : Fp} (hx : Fp.Good f64 x) : Library P name x (lib1 P name x) ∧ Fp.Good f64 (lib1 P name x) := by
  have h : Fp.toBits f64 x < 2 ^ 64 := Fp.toBits_lt f64 (by decide) (by decide) x hx
  exact ⟨⟨_, h, toBits_read hx, rfl⟩, Fp.ofBits_good f64 (by decide) _⟩

theorem lib2_spec (P : Printf) (name : Bytes) {x y : Fp} (hx : Fp.Good f64 x) (hy : Fp.Good f64 y) :
    Library2 P name x y (lib2 P name x y) ∧ Fp.Good f64 (lib2 P name x y) := by
  have h : Fp.toBits f64 x < 2 ^ 64 := Fp.toBits_lt f64 (by decide) (by decide) x hx
  have h' : Fp.toBits f64 y < 2 ^ 64 := Fp.toBits_lt f64 (by decide) (by decide) y hy
  exact ⟨⟨_, _, h, h', toBits_read hx, toBits_read hy, rfl⟩, Fp.ofBits_good f64 (by decide) _⟩

/-- **C77**: a function of one number is called for every number of a list, of any type. -/
theorem C77_one (P : Printf) (name : Bytes) (a : Ar) (rest : List Ar) (vs : List Val) (xs : List Fp) (ha : Holds a vs) (hn : Numbers vs xs)
    (h0 : xs ≠ []) :
    ∃ out ws, math1 (lib1 P name) (a :: rest) = some (0, some out) ∧ Holds (some out) ws ∧ ws.length = xs.length ∧
      ∀ (i : Nat) w x, ws[i]? = some w → xs[i]? = some x → ∃ r, NumVal w r ∧ Library P name x r :=
  math1_spec _ _ (fun _ hx => lib1_spec P name hx) a rest vs xs ha hn h0

/-- **C77**: a function of two numbers is called for every pair of elements. -/
theorem C77_two (P : Printf) (name : Bytes) (a b : Ar) (vs ws : List Val) (ha : Holds a vs) (hb : Holds b ws) (hv : AllDoubles vs)
    (hw : AllDoubles ws) (h : ¬ (vs.length = 1 ∧ ws.length = 0) ∧ ¬ (vs.length = 0 ∧ ws.length = 1)) :
    ∃ out rs, math2 (lib2 P name) [a, b] = some (0, some out) ∧ Holds (some out) rs ∧ rs.length = (broadcast vs ws).length ∧
      ∀ (i : Nat) r v w x y, rs[i]? = some r → (broadcast vs ws)[i]? = some (v, w) → IsDouble v x → IsDouble w y →
        ∃ z, NumVal r z ∧ Library2 P name x y z :=
  math2_spec _ _ (fun _ _ hx hy => lib2_spec P name hx hy) a b vs ws ha hb hv hw h

/-- **C77**: `jn` and `yn` take the order from the first list and the number from the second, the first of each; the rest is not looked at. -/
theorem C77_bessel (P : Printf) (name : Bytes) (a b : Ar) (v w : Val) (vs ws : List Val) (n : Int) (x : Fp) (ha : Holds a (v :: vs))
    (hb : Holds b (w :: ws)) (t : ITy) (hv : v = t.val n) (h1 : t.has n) (h2 : ITy.i32.has n) (hw : IsDouble w x) :
    ∃ out r z bits, besselF P name [a, b] = some (0, some out) ∧ Holds (some out) [r] ∧ NumVal r z ∧
      bits < 2 ^ 64 ∧ Fp.ofBits f64 bits = x ∧ z = Fp.ofBits f64 (P.libn name n bits) := by
  obtain ⟨u, g1, g2⟩ := holds_at ha (i := 0) (v := v) rfl
  obtain ⟨y, g3, g4⟩ := holds_at hb (i := 0) (v := w) rfl
  have k1 : Expr.intOf UAtom.getInt32 (at? a 0) = some n := by rw [g1]; rw [← ITy.conv_self .i32 n h2]; exact (getU_val t .i32 u n h1 (by rw [g2, hv])).1
  have k2 : fpOf (at? b 0) = some x := by rw [g3]; exact getFp_val y w x g4 hw
  have hx := isDouble_good _ _ hw
  have hl : Fp.toBits f64 x < 2 ^ 64 := Fp.toBits_lt f64 (by decide) (by decide) x hx
  obtain ⟨r, z, p1, p2, p3⟩ := setDouble_num (Fp.ofBits_good f64 (by decide) (P.libn name n (Fp.toBits f64 x)))
  refine ⟨[r], z, _, _, ?_, by simp [Holds, argsVal, p2], p3, hl, toBits_read hx, rfl⟩
  rw [besselF, k1, Option.bind_some, k2, Option.bind_some]
  simp [setTo, mk, libn, p1]

/-- **C77**, errors: with another number of arguments there is no result. -/
theorem C77_bessel_error (P : Printf) (name : Bytes) (argv : List Ar) (h : argv.length ≠ 2) : besselF P name argv = some (1, none) := by
  match argv, h with
  | [], _ => rfl
  | [_], _ => rfl
  | [_, _], h => exact absurd rfl h
  | _ :: _ :: _ :: _, _ => rfl

/-! ## Norms -/

/-- The squares, as `pow` of the C library gives them. -/
def Squares (P : Printf) (xs ys : List Fp) : Prop := xs.length = ys.length ∧
  ∀ (i : Nat) x y, xs[i]? = some x → ys[i]? = some y → lib2 P (n! "pow") x (exact 2) = y

theorem ofInt_two : Fp.ofInt f64 2 = exact 2 := by decide +kernel

/-- **C77**: `l2norm` is the square root of the sum of the squares. -/
theorem C77_l2norm (P : Printf) (a : Ar) (rest : List Ar) (vs : List Val) (xs ys : List Fp) (r : Fp) (ha : Holds a vs) (hn : Numbers vs xs)
    (hy : Squares P xs ys) (hr : Added (.fin false 0) ys r) :
    ∃ out w q, l2norm P (a :: rest) = some (0, some out) ∧ Holds (some out) [w] ∧ NumVal w q ∧ SqrtOf r q := by
  have hys : ys = xs.map fun x => lib2 P (n! "pow") x (exact 2) := by
    apply List.ext_getElem?
    intro i
    rw [List.getElem?_map]
    by_cases hi : i < xs.length
    · have h1 := List.getElem?_eq_getElem hi
      have h2 := List.getElem?_eq_getElem (l := ys) (i := i) (by rw [← hy.1]; exact hi)
      rw [h1, h2, Option.map_some, hy.2 i _ _ h1 h2]
    · rw [List.getElem?_eq_none (l := xs) (by omega), List.getElem?_eq_none (l := ys) (by rw [← hy.1]; omega)]; rfl
  have e : forN (len a) (fun i s => (fpOf (at? a i)).map fun x => Fp.add f64 s (lib2 P (n! "pow") x (exact 2))) (.fin false 0) = some r := by
    rw [holds_len ha, hn.1]
    rw [forN_fold xs _ (fun s x => Fp.add f64 s (lib2 P (n! "pow") x (exact 2))) _ (fun i x s hx => ?_)]
    · rw [← added_unique (added_fold ys _) hr, hys, List.foldl_map]
    · obtain ⟨u, v, -, -, -, -, h5⟩ := numbers_at ha hn hx
      rw [h5]; rfl
  have hg : Fp.Good f64 r := added_good hr zero_good
  obtain ⟨u, w, h1, h2, h3⟩ := setDouble_num (sqrt_spec hg).2
  refine ⟨[u], w, _, ?_, by simp [Holds, argsVal, h2], h3, (sqrt_spec hg).1⟩
  rw [l2norm, ofInt_zero, ofInt_two, e]
  simp [setTo, mk, h1]

/-- **C77** for integers: where `pow` gives the exact squares of integers, the norm is the `double` nearest to the root of the sum of the
squares. -/
theorem C77_l2norm_ints (P : Printf) (a : Ar) (rest : List Ar) (ps : List (ITy × Int)) (ha : Holds a (wholeVals ps))
    (h : ∀ p ∈ ps, p.1.has p.2) (hs : absSum (ps.map fun p => p.2 * p.2) ≤ 2 ^ 53)
    (hp : ∀ p ∈ ps, lib2 P (n! "pow") (exact p.2) (exact 2) = exact (p.2 * p.2)) :
    ∃ out w q, l2norm P (a :: rest) = some (0, some out) ∧ Holds (some out) [w] ∧ NumVal w q ∧
      SqrtOf (exact (ps.map fun p => p.2 * p.2).sum) q := by
  have hb : ∀ p ∈ ps, p.2.natAbs ≤ 2 ^ 53 := by
    intro p hp
    have h1 := absSum_mem (List.mem_map_of_mem (f := fun p : ITy × Int => p.2 * p.2) hp)
    have : p.2.natAbs ≤ (p.2 * p.2).natAbs := by rw [Int.natAbs_mul]; exact Nat.le_mul_self _
    omega
  have hN := ints_numbers h hb
  have hr := added_fold ((ps.map fun p => p.2 * p.2).map exact) (exact 0)
  have e := added_exact hr (by simpa using hs)
  rw [exact_zero, Int.zero_add] at e
  rw [exact_zero, e] at hr
  refine C77_l2norm P a rest _ _ _ _ ha hN ⟨by simp, ?_⟩ hr
  intro i x y hx hy
  simp only [List.getElem?_map, Option.map_map, Option.map_eq_some_iff, Function.comp] at hx hy
  obtain ⟨p, h1, rfl⟩ := hx
  obtain ⟨q, h2, rfl⟩ := hy
  rw [h1] at h2; injection h2 with h2; subst h2
  exact hp p (List.mem_of_getElem? h1)

/-! ## MIDI notes and frequencies -/

/-- The base is the first of the second list, or 440. -/
def BaseOf : List (List Val) → Fp → Prop
  | (v :: _) :: _, x => IsDouble v x
  | _, x => x = exact 440

theorem ofInt_440 : Fp.ofInt f64 440 = exact 440 := by decide +kernel

theorem pitch_base (f : Fp → Fp → Fp) (a : Ar) (rest : List Ar) (vss : List (List Val)) (base : Fp) (hr : rest.length = vss.length)
    (hv : ∀ (i : Nat) b vs, rest[i]? = some b → vss[i]? = some vs → Holds b vs) (hb : BaseOf vss base) :
    pitch f (a :: rest) = mapNum true (f base) a := by
  have e : pitchBase rest = some base := by
    match rest, vss, hr with
    | [], [], _ => simp only [BaseOf] at hb; rw [pitchBase, hb, ofInt_440]
    | b :: _, [] :: _, _ =>
      have h0 : len b = 0 := holds_len (hv 0 b [] rfl rfl)
      simp only [BaseOf] at hb
      rw [pitchBase, h0, hb, ofInt_440]; rfl
    | b :: _, (v :: vs) :: _, _ =>
      have h1 := hv 0 b (v :: vs) rfl rfl
      have h0 : 0 < len b := by rw [holds_len h1]; simp
      obtain ⟨u, g1, g2⟩ := holds_at h1 (i := 0) (v := v) rfl
      rw [pitchBase, if_pos h0, g1]
      exact getFp_val u v base g2 hb
  simp only [pitch, e, Option.bind_some, mapNum, Bool.or_true]
  rfl

theorem decimal_rounded (n k : Nat) : Rounded f64 false (n * 2 ^ 1074) (10 ^ k) (decimal n k) :=
  Fp.finish_rounded f64 (by decide) false _ _ (Nat.pow_pos (by decide))

/-- `r` is the frequency of the note `x`, and the note of the frequency `x`: base · exp(c · (x − 69)) and 69 + c · log(x / base), rounded after
every operation; the constants are ln(2)/12 and 12/ln(2) (C78). -/
def MtofOf (P : Printf) (base x r : Fp) : Prop :=
  ∃ c d e y, Rounded f64 false (5776226504666210911810267678817 * 2 ^ 1074) (10 ^ 32) c ∧ SumOf f64 x (exact (-69)) d ∧ ProductOf f64 c d e ∧
    Library P (n! "exp") e y ∧ ProductOf f64 base y r
def FtomOf (P : Printf) (base x r : Fp) : Prop :=
  ∃ c d y e, Rounded f64 false (1731234049066756088831909617202611 * 2 ^ 1074) (10 ^ 32) c ∧ QuotientOf f64 x base d ∧
    Library P (n! "log") d y ∧ ProductOf f64 c y e ∧ SumOf f64 (exact 69) e r

theorem mtof_spec (P : Printf) (base x : Fp) : MtofOf P base x (mtofOf P base x) ∧ Fp.Good f64 (mtofOf P base x) := by
  have hc := decimal_rounded 5776226504666210911810267678817 32
  have e : Fp.neg (Fp.ofInt f64 69) = exact (-69) := by decide +kernel
  unfold mtofOf MtofOf
  rw [Fp.sub, e]
  generalize decimal 5776226504666210911810267678817 32 = c at *
  generalize exact (-69) = k
  exact ⟨⟨c, _, _, _, hc, Fp.sum_of f64 (by decide) x k, Fp.product_of f64 (by decide) c _, (lib1_spec P _ (Fp.good_mul f64 (by decide) c _)).1,
    Fp.product_of f64 (by decide) base _⟩, Fp.good_mul f64 (by decide) base _⟩

theorem ftom_spec (P : Printf) (base x : Fp) : FtomOf P base x (ftomOf P base x) ∧ Fp.Good f64 (ftomOf P base x) := by
  have hc := decimal_rounded 1731234049066756088831909617202611 32
  have e : Fp.ofInt f64 69 = exact 69 := by decide +kernel
  unfold ftomOf FtomOf
  rw [e]
  generalize decimal 1731234049066756088831909617202611 32 = c at *
  generalize exact 69 = k
  exact ⟨⟨c, _, _, _, hc, Fp.quotient_of f64 (by decide) x base, (lib1_spec P _ (Fp.good_div f64 (by decide) x base)).1,
    Fp.product_of f64 (by decide) c _, Fp.sum_of f64 (by decide) k _⟩, Fp.good_add f64 (by decide) k _⟩

/-- **C77**: `mtof` and `ftom` convert every number of a list with the base given, or 440, and leave everything else as it is. -/
theorem C77_pitch (P : Printf) (a : Ar) (rest : List Ar) (vs : List Val) (xs : List (Option Fp)) (vss : List (List Val)) (base : Fp)
    (ha : Holds a vs) (hn : Elements vs xs) (hr : rest.length = vss.length)
    (hv : ∀ (i : Nat) b vs, rest[i]? = some b → vss[i]? = some vs → Holds b vs) (hb : BaseOf vss base)
    (f : Fp → Fp → Fp) (R : Fp → Fp → Fp → Prop) (hf : (f, R) ∈ [(mtofOf P, MtofOf P), (ftomOf P, FtomOf P)]) :
    ∃ out ws, pitch f (a :: rest) = some (0, some out) ∧ Holds (some out) ws ∧ ws.length = vs.length ∧
      ∀ (i : Nat) v w x, vs[i]? = some v → ws[i]? = some w → xs[i]? = some x → (x = none → w = v) ∧ ∀ y, x = some y → ∃ r, R base y r ∧ NumVal w r := by
  have hf' : ∀ x, R base x (f base x) ∧ Fp.Good f64 (f base x) := by
    simp only [List.mem_cons, List.not_mem_nil, or_false, Prod.mk.injEq] at hf
    rcases hf with ⟨rfl, rfl⟩ | ⟨rfl, rfl⟩
    · exact fun x => mtof_spec P base x
    · exact fun x => ftom_spec P base x
  rw [pitch_base f a rest vss base hr hv hb]
  obtain ⟨out, ws, h1, h2, h3, h4⟩ := mapNum_spec true (f base) (R base) a vs xs ha hn (fun x _ => (hf' x).2) (fun x _ => (hf' x).1)
    (fun _ _ _ _ _ _ h => by cases h)
  refine ⟨out, ws, h1, h2, h3, fun i v w x hv hw hx => ?_⟩
  have := h4 i v w x hv hw hx
  cases x with
  | none => exact ⟨fun _ => this, fun y h => by cases h⟩
  | some y =>
    refine ⟨fun h => (by cases h), fun y' h => ?_⟩
    injection h with h; subst h
    obtain ⟨r, h5, h6⟩ := this
    rcases h6 with ⟨-, h6⟩ | ⟨-, h6, -⟩
    · exact ⟨r, h5, h6⟩
    · cases h6

/-- **C77**: without arguments both report an error. -/
theorem C77_pitch_error (f : Fp → Fp → Fp) : pitch f [] = some (1, none) := rfl

/-- The constants are finite and positive. -/
theorem decimal_fin (n k : Nat) (h : n ≤ 10 ^ k * 100) : ∃ v, decimal n k = .fin false v := by
  obtain ⟨v, ⟨hg, hv⟩, hr⟩ := decimal_rounded n k
  rcases hr with ⟨-, h⟩ | ⟨ht, -⟩
  · exact ⟨v, h⟩
  · exfalso
    have h1 := hv (100 * 2 ^ 1074) ⟨100, 1074, by decide, rfl⟩
    have h2 : n * 2 ^ 1074 ≤ 10 ^ k * 100 * 2 ^ 1074 := Nat.mul_le_mul_right _ h
    have h3 : 2 ^ f64.top = 2 ^ 1024 * 2 ^ 1074 := by rw [← Nat.pow_add]; rfl
    have h5 : 100 * 2 ^ 1074 < 2 ^ 1024 * 2 ^ 1074 := Nat.mul_lt_mul_of_pos_right (by decide +kernel) (Nat.two_pow_pos _)
    rw [h3] at ht
    generalize 2 ^ 1024 * 2 ^ 1074 = T at *
    have h4 : 100 * 2 ^ 1074 * 10 ^ k < v * 10 ^ k := Nat.mul_lt_mul_of_pos_right (by omega) (Nat.pow_pos (by decide))
    have h6 : 10 ^ k * 100 * 2 ^ 1074 = 100 * 2 ^ 1074 * 10 ^ k := by rw [Nat.mul_comm (10 ^ k), Nat.mul_right_comm]
    rw [h6] at h2
    simp only [dist] at h1
    clear h3
    generalize 100 * 2 ^ 1074 * 10 ^ k = A at *
    generalize n * 2 ^ 1074 = B at *
    generalize v * 10 ^ k = C at *
    omega

theorem times_zero {k : Nat} {e : Fp} (h : ProductOf f64 (.fin false k) (.fin false 0) e) : e = .fin false 0 := by
  have h' : Rounded f64 false (k * 0) (2 ^ 1074) e := h
  rw [Nat.mul_zero, ← Nat.zero_mul (2 ^ 1074)] at h'
  exact Fp.rounded_exact f64 false 0 (2 ^ 1074) (Nat.two_pow_pos _) ⟨0, 0, by decide, rfl⟩ (Nat.two_pow_pos _) e h'

theorem exact_nat (k : Nat) : exact k = .fin false (k * 2 ^ 1074) := by
  have : decide ((k : Int) < 0) = false := by simp
  rw [exact, this]; rfl

theorem product_fin {s t : Bool} {m n : Nat} {r : Fp} (h : ProductOf f64 (.fin s m) (.fin t n) r) : Rounded f64 (s != t) (m * n) (2 ^ 1074) r := h

theorem sum_fin {s t : Bool} {m n : Nat} {r : Fp} (h : SumOf f64 (.fin s m) (.fin t n) r) (h0 : value s m + value t n ≠ 0) :
    Rounded f64 (decide (value s m + value t n < 0)) (value s m + value t n).natAbs 1 r := h.2 h0

/-- **C77**: note 69 has the frequency of the base, where the C library has exp(0) = 1. -/
theorem C77_mtof_base (P : Printf) (s : Bool) (m : Nat) (r : Fp) (hb : Fp.Good f64 (.fin s m)) (h : MtofOf P (.fin s m) (exact 69) r)
    (he : ∀ y, Library P (n! "exp") (.fin false 0) y → y = exact 1) : r = .fin s m := by
  obtain ⟨c, d, e, y, hc, hd, hp, hl, hr⟩ := h
  have d0 : d = .fin false 0 := hd.1 (by decide +kernel)
  obtain ⟨k, c0⟩ := decimal_fin 5776226504666210911810267678817 32 (by decide)
  rw [← Fp.rounded_unique f64 _ _ _ (by decide) _ _ hc (decimal_rounded _ _)] at c0
  rw [c0, d0] at hp
  rw [times_zero hp] at hl
  have e1 := exact_nat 1
  rw [he y hl] at hr
  rw [Int.natCast_one] at e1
  rw [e1] at hr
  have hr' := product_fin hr
  rw [Bool.bne_false, Nat.one_mul] at hr'
  obtain ⟨h1, h2⟩ := hb
  exact Fp.rounded_exact f64 s m (2 ^ 1074) (Nat.two_pow_pos _) h1 h2 r hr'

/-- **C77**: the frequency of the base is note 69, where the C library has log(1) = 0. -/
theorem C77_ftom_base (P : Printf) (s : Bool) (m : Nat) (r : Fp) (hm : m ≠ 0) (h : FtomOf P (.fin s m) (.fin s m) r)
    (he : ∀ y, Library P (n! "log") (exact 1) y → y = .fin false 0) : r = exact 69 := by
  obtain ⟨c, d, y, e, hc, hd, hl, hp, hr⟩ := h
  have d0 : d = exact 1 := by
    have h1 := hd.1 hm
    rw [bne_self_eq_false, Nat.mul_comm] at h1
    have := Fp.rounded_exact f64 false (2 ^ 1074) m (by omega) ⟨1, 1074, by decide, by omega⟩ (Nat.pow_lt_pow_right (by decide) (by decide)) d h1
    rw [this, ← ofInt_one]; decide +kernel
  rw [d0] at hl
  obtain ⟨k, c0⟩ := decimal_fin 1731234049066756088831909617202611 32 (by decide)
  rw [← Fp.rounded_unique f64 _ _ _ (by decide) _ _ hc (decimal_rounded _ _)] at c0
  rw [c0, he y hl] at hp
  rw [times_zero hp] at hr
  have e69 : exact 69 = .fin false (69 * 2 ^ 1074) := exact_nat 69
  rw [e69] at hr ⊢
  have hpos : 0 < 69 * 2 ^ 1074 := Nat.mul_pos (by decide) (Nat.two_pow_pos _)
  have hlt : 69 * 2 ^ 1074 < 2 ^ 2098 := by decide +kernel
  have hg : Grid 53 (69 * 2 ^ 1074) := ⟨69, 1074, by decide, rfl⟩
  generalize 69 * 2 ^ 1074 = N at *
  have hv : value false N + value false 0 = N := by simp [value]
  have hr' := sum_fin hr (by rw [hv]; omega)
  rw [hv, Int.natAbs_natCast, show decide ((N : Int) < 0) = false by simp] at hr'
  rw [← Nat.mul_one N] at hr'
  exact Fp.rounded_exact f64 false N 1 (by decide) hg hlt r hr'

/-- For the examples: a C library with pow(x, 2) = x², exp(x) = 1 and log(x) = 0. -/
def libP : Printf :=
  { exP with
    lib1 := fun name _ => if name = n! "exp" then Fp.toBits f64 (exact 1) else 0
    lib2 := fun _ b _ => Fp.toBits f64 (Fp.mul f64 (Fp.ofBits f64 b) (Fp.ofBits f64 b)) }

/-- Non-vacuity: the norm of (3, 4) is 5, `mtof(69)` is 440, `mtof(69, 400)` is 400, `ftom(440)` is 69; a string stays. -/
example : (l2norm libP [some [atomOf .i32 3, atomOf .i32 4]]).map (fun r => (r.1, r.2.map (·.map (fun a => (a.tag, Fp.ofBits f64 a.w.raw))))) =
      some (0, some [(100, exact 5)]) ∧
    (pitch (mtofOf libP) [some [atomOf .i32 69]]).map (fun r => (r.1, r.2.map (·.map (fun a => (a.tag, Fp.ofBits f64 a.w.raw))))) =
      some (0, some [(100, exact 440)]) ∧
    (pitch (mtofOf libP) [some [atomOf .i32 69], some [atomOf .i32 400]]).map
      (fun r => (r.1, r.2.map (·.map (fun a => (a.tag, Fp.ofBits f64 a.w.raw))))) = some (0, some [(100, exact 400)]) ∧
    (pitch (ftomOf libP) [some [atomOf .i32 440]]).map (fun r => (r.1, r.2.map (·.map (fun a => (a.tag, Fp.ofBits f64 a.w.raw))))) =
      some (0, some [(100, exact 69)]) ∧
    (pitch (ftomOf libP) [exStr [97]]).map (fun r => (r.1, r.2.map (·.map (fun a => a.tag)))) = some (0, some [115]) := by
  refine ⟨?_, ?_, ?_, ?_, ?_⟩ <;> decide +kernel

/-- Non-vacuity: the assumptions about `exp`, `log` and `pow` can be met. -/
example : (∀ y, Library libP (n! "exp") (.fin false 0) y → y = exact 1) ∧ (∀ y, Library libP (n! "log") (exact 1) y → y = .fin false 0) ∧
    lib2 libP (n! "pow") (exact (-3)) (exact 2) = exact (-3 * -3) := by
  refine ⟨?_, ?_, by decide +kernel⟩
  · rintro y ⟨b, -, -, rfl⟩; show Fp.ofBits f64 (Fp.toBits f64 (exact 1)) = exact 1; decide +kernel
  · rintro y ⟨b, -, -, rfl⟩; show Fp.ofBits f64 0 = .fin false 0; decide +kernel

end Libo.Props
