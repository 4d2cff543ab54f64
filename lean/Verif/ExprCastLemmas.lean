import Verif.ExprCast
import Verif.ExprStrLemmas
/-!
# Lemmas about the casts
-/

namespace Libo.Expr
open Libo Libo.Text

/-! ### Specification -/

/-- The value of a finite IEEE number with `mb` mantissa bits and `eb` exponent bits, in units of the smallest positive number
`2 ^ -(bias + mb - 1)`. -/
def ieeeUnits (mb eb bits : Nat) : Int :=
  let man := bits % 2 ^ mb
  let ex := bits / 2 ^ mb % 2 ^ eb
  let m : Nat := if ex = 0 then man else (2 ^ mb + man) * 2 ^ (ex - 1)
  if bits / 2 ^ (mb + eb) % 2 = 1 then -m else m

/-- How many of these units are one. -/
def ieeeOne (mb eb : Nat) : Nat := 2 ^ (2 ^ (eb - 1) - 1 + mb - 1)

/-- Neither an infinity nor NaN. -/
def ieeeFinite (mb eb bits : Nat) : Prop := bits / 2 ^ mb % 2 ^ eb ≠ 2 ^ eb - 1

/-- The number is finite, and `n` is its value without the fraction. -/
def IsTrunc (mb eb bits : Nat) (n : Int) : Prop := ieeeFinite mb eb bits ∧ n = (ieeeUnits mb eb bits).tdiv (ieeeOne mb eb)

/-- What a value is as an integer of type `t` before it is reduced: an integer itself, a floating point number without its fraction (which has
to be in the range of the type), 1 for true, 0 for false and nil. -/
def IntOf (t : ITy) (v : Val) (n : Int) : Prop :=
  (∃ s : ITy, s.has n ∧ v = s.val n) ∨ (v = .bare 84 ∧ n = 1) ∨ ((v = .bare 70 ∨ v = .bare 78) ∧ n = 0) ∨
  (∃ bits, v = .num 102 bits ∧ IsTrunc 23 8 bits n ∧ t.has n) ∨ (∃ bits, v = .num 100 bits ∧ IsTrunc 52 11 bits n ∧ t.has n)

/-! ### Integers -/

theorem fTrunc_eq {mb eb bits : Nat} (hm : 1 ≤ mb) {n : Int} (h : IsTrunc mb eb bits n) : fTrunc mb eb bits = some n := by
  obtain ⟨hf, rfl⟩ := h
  unfold ieeeFinite at hf
  unfold fTrunc ieeeUnits ieeeOne
  generalize bits % 2 ^ mb = man at *
  generalize hex : bits / 2 ^ mb % 2 ^ eb = ex at *
  generalize hb : 2 ^ (eb - 1) - 1 = bias at *
  simp only [if_neg hf, Option.some.injEq]
  have key : ∀ (m e : Nat), 1 ≤ e → (if bias + mb ≤ e then m * 2 ^ (e - bias - mb) else m / 2 ^ (bias + mb - e)) = m * 2 ^ (e - 1) / 2 ^ (bias + mb - 1) := by
    intro m e he
    split
    · have : 2 ^ (e - 1) = 2 ^ (e - bias - mb) * 2 ^ (bias + mb - 1) := by rw [← Nat.pow_add]; congr 1; omega
      rw [this, ← Nat.mul_assoc, Nat.mul_div_cancel _ (Nat.two_pow_pos _)]
    · have : 2 ^ (bias + mb - 1) = 2 ^ (bias + mb - e) * 2 ^ (e - 1) := by rw [← Nat.pow_add]; congr 1; omega
      rw [this, Nat.mul_div_mul_right _ _ (Nat.two_pow_pos _)]
  have hm : (if bias + mb ≤ (if ex = 0 then 1 else ex) then (if ex = 0 then man else man + 2 ^ mb) * 2 ^ ((if ex = 0 then 1 else ex) - bias - mb)
      else (if ex = 0 then man else man + 2 ^ mb) / 2 ^ (bias + mb - (if ex = 0 then 1 else ex))) =
      (if ex = 0 then man else (2 ^ mb + man) * 2 ^ (ex - 1)) / 2 ^ (bias + mb - 1) := by
    rw [key _ _ (by split <;> omega)]
    split
    · simp
    · rw [Nat.add_comm]
  rw [hm]
  split
  · rw [Int.neg_tdiv]; rfl
  · rfl

theorem fCast_has {lo hi n : Int} (h : lo ≤ n ∧ n < hi) : fCast lo hi (some n) = some n := by simp [fCast, h]

theorem getU_int (t : ITy) {a : UAtom} {v : Val} {n : Int} (ha : a.val = some v) (h : IntOf t v n) : ∃ m, getU t a = some m ∧ t.val m = t.val n := by
  have hconv : t.val (t.conv n) = t.val n := by
    cases t <;> simp only [ITy.val, ITy.conv, ITy.signed, ITy.width, ITy.tag, Val.num.injEq, true_and, if_true, Bool.false_eq_true, if_false] <;>
      first
      | (rw [Int.bmod_emod]; done)
      | omega
  rcases h with ⟨s, h1, rfl⟩ | ⟨rfl, rfl⟩ | ⟨h1, rfl⟩ | ⟨bits, rfl, h1, h2⟩ | ⟨bits, rfl, h1, h2⟩
  · exact ⟨_, (getU_val s t a n h1 ha).1, hconv⟩
  · obtain ⟨tag, al, w⟩ := a
    rcases val_eq tag al w _ ha with ⟨_, e⟩ | ⟨_, e⟩ | ⟨_, e⟩ | ⟨_, e⟩ | ⟨_, e⟩ | ⟨_, p, s', _, e⟩ | ⟨_, p, blk, l, c, _, _, _, e⟩ |
      ⟨_, p, ms, vs, _, _, e⟩ | ⟨e, _⟩ <;> first | cases e
    exact ⟨1, by cases t <;> simp [getU, UAtom.getInt8, UAtom.getInt16, UAtom.getInt32, UAtom.getInt64, UAtom.getUInt8, UAtom.getUInt16,
      UAtom.getUInt32, UAtom.getUInt64, UAtom.tag], rfl⟩
  · obtain ⟨tag, al, w⟩ := a
    rcases h1 with rfl | rfl <;>
    (rcases val_eq tag al w _ ha with ⟨_, e⟩ | ⟨_, e⟩ | ⟨_, e⟩ | ⟨_, e⟩ | ⟨_, e⟩ | ⟨_, p, s', _, e⟩ | ⟨_, p, blk, l, c, _, _, _, e⟩ |
      ⟨_, p, ms, vs, _, _, e⟩ | ⟨e, _⟩ <;> first | cases e
     exact ⟨0, by cases t <;> simp [getU, UAtom.getInt8, UAtom.getInt16, UAtom.getInt32, UAtom.getInt64, UAtom.getUInt8, UAtom.getUInt16,
      UAtom.getUInt32, UAtom.getUInt64, UAtom.tag], rfl⟩)
  · obtain ⟨tag, al, w⟩ := a
    have ht : tag = 102 ∧ w.raw % M32 = bits := by
      rcases val_eq tag al w _ ha with ⟨h, e⟩ | ⟨h, e⟩ | ⟨h, e⟩ | ⟨h, e⟩ | ⟨_, e⟩ | ⟨_, p, s', _, e⟩ | ⟨_, p, blk, l, c, _, _, _, e⟩ |
        ⟨_, p, ms, vs, _, _, e⟩ | ⟨e, _⟩ <;> simp only [Val.num.injEq, reduceCtorEq] at e
      all_goals (obtain ⟨rfl, rfl⟩ := e; first | exact ⟨rfl, rfl⟩ | (exfalso; revert h; decide))
    obtain ⟨rfl, rfl⟩ := ht
    have hf : W.f w = some n := fTrunc_eq (by decide) h1
    refine ⟨n, ?_, rfl⟩
    cases t <;> simp [ITy.has, ITy.signed, ITy.width] at h2 <;>
      simp [getU, UAtom.getInt8, UAtom.getInt16, UAtom.getInt32, UAtom.getInt64, UAtom.getUInt8, UAtom.getUInt16,
        UAtom.getUInt32, UAtom.getUInt64, UAtom.tag, UAtom.w, hf, fCast, h2]
  · obtain ⟨tag, al, w⟩ := a
    have ht : tag = 100 ∧ w.raw % M64 = bits := by
      rcases val_eq tag al w _ ha with ⟨h, e⟩ | ⟨h, e⟩ | ⟨h, e⟩ | ⟨h, e⟩ | ⟨_, e⟩ | ⟨_, p, s', _, e⟩ | ⟨_, p, blk, l, c, _, _, _, e⟩ |
        ⟨_, p, ms, vs, _, _, e⟩ | ⟨e, _⟩ <;> simp only [Val.num.injEq, reduceCtorEq] at e
      all_goals (obtain ⟨rfl, rfl⟩ := e; first | exact ⟨rfl, rfl⟩ | (exfalso; revert h; decide))
    obtain ⟨rfl, rfl⟩ := ht
    have hf : W.d w = some n := fTrunc_eq (by decide) h1
    refine ⟨n, ?_, rfl⟩
    cases t <;> simp [ITy.has, ITy.signed, ITy.width] at h2 <;>
      simp [getU, UAtom.getInt8, UAtom.getInt16, UAtom.getInt32, UAtom.getInt64, UAtom.getUInt8, UAtom.getUInt16,
        UAtom.getUInt32, UAtom.getUInt64, UAtom.tag, UAtom.w, hf, fCast, h2]

theorem castInt_spec (t : ITy) {a : UAtom} {v : Val} {n : Int} (ha : a.val = some v) (h : IntOf t v n) :
    ∃ u, castInt t (some a) .fresh = some u ∧ u.val = some (t.val n) := by
  obtain ⟨m, h1, h2⟩ := getU_int t ha h
  obtain ⟨u, h3, h4⟩ := setU_fresh t m
  exact ⟨u, by simp [castInt, intOf, h1, h3], by rw [h4, h2]⟩

/-! ### Loops -/

theorem castLoop_ok (f : Option UAtom → UAtom → Option (Int × UAtom)) : ∀ (as : List UAtom) (ws done : List Val) (out : List UAtom),
    as.length = ws.length → (∀ (i : Nat) a w, as[i]? = some a → ws[i]? = some w → ∃ u, f (some a) .fresh = some (0, u) ∧ u.val = some w) →
    Filled out done (done.length + ws.length) →
    ∃ out', castLoop f as done.length out = some (0, some out') ∧ Holds (some out') (done ++ ws)
  | [], ws, done, out, hl, _, hf => by
    have : ws = [] := List.eq_nil_of_length_eq_zero (by simpa using hl.symm)
    subst this
    exact ⟨out, rfl, by simpa using filled_all (by simpa using hf)⟩
  | a :: as, [], done, out, hl, _, _ => by simp at hl
  | a :: as, w :: ws, done, out, hl, h, hf => by
    obtain ⟨u, h1, h2⟩ := h 0 a w rfl rfl
    have hfree := hf.free done.length (Nat.le_refl _) (by simp)
    obtain ⟨out1, g1, g2⟩ := filled_set hf (by simp) (g := fun _ => some u) rfl h2
    have e : out1 = out.set done.length u := by
      simp only [setTo, hfree, Option.bind_some, Option.map_some, Option.some.injEq] at g1
      exact g1.symm
    obtain ⟨out', i1, i2⟩ := castLoop_ok f as ws (done ++ [w]) out1 (by simpa using hl) (fun i a w x y => h (i + 1) a w x y) (by
      have : done.length + (w :: ws).length = (done ++ [w]).length + ws.length := by simp; omega
      rwa [this] at g2)
    refine ⟨out', ?_, by simpa using i2⟩
    simp only [castLoop, at?, Option.getD_some, hfree, Option.bind_some, h1]
    rw [if_neg (by simp), ← e]
    simpa using i1

theorem explicitCast_ok (P : Printf) (c : Cast) (a : Ar) (rest : List Ar) (vs ws : List Val) (ha : Holds a vs) (hl : vs.length = ws.length)
    (h : ∀ (i : Nat) x v w, x.val = some v → vs[i]? = some v → ws[i]? = some w → ∃ u, castAtom P c (some x) .fresh = some (0, u) ∧ u.val = some w) :
    ∃ out, explicitCast P c (a :: rest) = some (0, some out) ∧ Holds (some out) ws := by
  have hlen := holds_len ha
  have hla : (a.getD []).length = vs.length := (argsVal_iff _ _).mp ha |>.1
  obtain ⟨out, h1, h2⟩ := castLoop_ok (castAtom P c) (a.getD []) ws [] (mk (len a)) (by omega) (by
    intro i x w hx hw
    have hi : i < vs.length := by rw [← hla]; exact (List.getElem?_eq_some_iff.mp hx).1
    have hv := ((argsVal_iff _ _).mp ha).2 i hi
    simp only [vat, hx, Option.bind_some] at hv
    exact h i x vs[i] w (by rw [hv]; exact List.getElem?_eq_getElem hi) (List.getElem?_eq_getElem hi) hw) (by
    rw [hlen, hl]; simpa using filled_new ws.length)
  exact ⟨out, h1, by simpa using h2⟩

end Libo.Expr
