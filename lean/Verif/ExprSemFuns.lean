import Verif.ExprSemFp
/-!
# Lemmas: the functions of the library compute what the specification says

Each function of `Sem.funs` is found in the function table with the same number of arguments, and agrees with its specification.
-/

namespace Libo.Sem
open Libo Libo.Expr Libo.Props Libo.Ieee

/-! ### Operators -/

/-- An operator on atoms does what the specification says about the values. -/
def OpOk (f : Expr.Op) (F : Val → Val → Option R1) : Prop :=
  ∀ x y v w r, UAtom.val x = some v → UAtom.val y = some w → F v w = some r →
    match r with
    | .ok u => ∃ u', f (some x) (some y) .fresh = some (0, u') ∧ u'.val = some u
    | .error c => c ≠ 0 ∧ ∃ u', f (some x) (some y) .fresh = some (c, u')

theorem argsVal_map : ∀ (l : List UAtom) (vs : List Val), argsVal l = some vs ↔ l.map UAtom.val = vs.map some
  | [], vs => by cases vs <;> simp [argsVal]
  | a :: l, [] => by
    simp only [argsVal, Option.bind_eq_some_iff, Option.map_eq_some_iff]
    simp
  | a :: l, v :: vs => by
    have ih := argsVal_map l vs
    simp only [argsVal, Option.bind_eq_some_iff, Option.map_eq_some_iff, List.map_cons, List.cons.injEq]
    constructor
    · rintro ⟨v', h1, vs', h2, rfl, rfl⟩
      exact ⟨h1, ih.mp h2⟩
    · rintro ⟨h1, h2⟩
      exact ⟨v, h1, vs, ih.mpr h2, rfl, rfl⟩

/-- The result of an operator on two atoms. -/
def res (f : Expr.Op) (p : UAtom × UAtom) : UAtom := ((f (some p.1) (some p.2) .fresh).map (·.2)).getD .fresh

theorem each_ok {f : Expr.Op} {F : Val → Val → Option R1} (h : OpOk f F) : ∀ (l : List (UAtom × UAtom)) (ps : List (Val × Val)) (vs : List Val),
    (l.map fun p => (p.1.val, p.2.val)) = (ps.map fun p => (some p.1, some p.2)) → each F ps = some (.ok vs) →
    (∀ p ∈ l, f (some p.1) (some p.2) .fresh = some (0, res f p)) ∧ argsVal (l.map (res f)) = some vs
  | [], [], vs, _, he => by
    simp only [each, Option.some.injEq, Except.ok.injEq] at he
    subst he
    exact ⟨by simp, rfl⟩
  | [], _ :: _, _, h', _ => by simp at h'
  | _ :: _, [], _, h', _ => by simp at h'
  | q :: l, p :: ps, vs, h', he => by
    simp only [List.map_cons, List.cons.injEq, Prod.mk.injEq] at h'
    obtain ⟨⟨h1, h2⟩, h3⟩ := h'
    simp only [each] at he
    cases hF : F p.1 p.2 with
    | none => simp [hF] at he
    | some r =>
      have hr := h q.1 q.2 p.1 p.2 r h1 h2 hF
      rw [hF] at he
      cases r with
      | error c => simp at he
      | ok u =>
        obtain ⟨u', g1, g2⟩ := hr
        cases hE : each F ps with
        | none => simp [hE] at he
        | some r' =>
          rw [hE] at he
          cases r' with
          | error c => simp at he
          | ok vs' =>
            simp only [Option.some.injEq, Except.ok.injEq] at he
            subst he
            obtain ⟨k1, k2⟩ := each_ok h l ps vs' h3 hE
            have hres : res f q = u' := by simp [res, g1]
            refine ⟨fun x hx => ?_, ?_⟩
            · rcases List.mem_cons.mp hx with rfl | hx
              · rw [hres]; exact g1
              · exact k1 x hx
            · simp [argsVal, hres, g2, k2]

theorem each_error {f : Expr.Op} {F : Val → Val → Option R1} (h : OpOk f F) : ∀ (l : List (UAtom × UAtom)) (ps : List (Val × Val)) (c : Int),
    (l.map fun p => (p.1.val, p.2.val)) = (ps.map fun p => (some p.1, some p.2)) → each F ps = some (.error c) →
    c ≠ 0 ∧ ∃ pre q post u, l = pre ++ q :: post ∧ (∀ p ∈ pre, ∃ u, f (some p.1) (some p.2) .fresh = some (0, u)) ∧
      f (some q.1) (some q.2) .fresh = some (c, u)
  | [], [], c, _, he => by simp [each] at he
  | [], _ :: _, _, h', _ => by simp at h'
  | _ :: _, [], _, h', _ => by simp at h'
  | q :: l, p :: ps, c, h', he => by
    simp only [List.map_cons, List.cons.injEq, Prod.mk.injEq] at h'
    obtain ⟨⟨h1, h2⟩, h3⟩ := h'
    simp only [each] at he
    cases hF : F p.1 p.2 with
    | none => simp [hF] at he
    | some r =>
      have hr := h q.1 q.2 p.1 p.2 r h1 h2 hF
      rw [hF] at he
      cases r with
      | error c' =>
        simp only [Option.some.injEq, Except.error.injEq] at he
        subst he
        obtain ⟨hc, u, hu⟩ := hr
        exact ⟨hc, [], q, l, u, rfl, by simp, hu⟩
      | ok u =>
        obtain ⟨u', g1, g2⟩ := hr
        cases hE : each F ps with
        | none => simp [hE] at he
        | some r' =>
          rw [hE] at he
          cases r' with
          | ok vs' => simp at he
          | error c' =>
            simp only [Option.some.injEq, Except.error.injEq] at he
            subst he
            obtain ⟨hc, pre, q', post, u2, rfl, k1, k2⟩ := each_error h l ps c' h3 hE
            refine ⟨hc, q :: pre, q', post, u2, rfl, fun x hx => ?_, k2⟩
            rcases List.mem_cons.mp hx with rfl | hx
            · exact ⟨u', g1⟩
            · exact k1 x hx

theorem checked_some {o : Option R} {r : R} (h : checked o = some r) : o = some r ∧ ∀ vs, r = .ok vs → vs.all simple = true := by
  cases o with
  | none => cases h
  | some q =>
    cases q with
    | error c =>
      simp only [checked, Option.some.injEq] at h
      subst h
      exact ⟨rfl, fun vs h => (by cases h)⟩
    | ok ws =>
      simp only [checked] at h
      split at h
      · rename_i hs
        simp only [Option.some.injEq] at h
        subst h
        exact ⟨rfl, fun vs h => (by injection h with h; rw [← h]; exact hs)⟩
      · cases h

theorem fnOk_op {f : Expr.Op} {F : Val → Val → Option R1} (h : OpOk f F) : FnOk (arg2 f) (op2 F) := by
  intro argv vss r hv hr
  obtain ⟨hr, hsimp⟩ := checked_some hr
  match vss, argv, hv, hr with
  | [xs, ys], argv, hv, hr =>
    match argv, hv with
    | [], hv => simp [HoldS] at hv
    | a :: argv, hv =>
      simp only [HoldS] at hv
      obtain ⟨xs', _, e, ha, -, hv⟩ := hv
      simp only [List.cons.injEq] at e
      obtain ⟨rfl, rfl⟩ := e
      match argv, hv with
      | [], hv => simp [HoldS] at hv
      | b :: argv, hv =>
        simp only [HoldS] at hv
        obtain ⟨ys', _, e, hb, -, hv⟩ := hv
        simp only [List.cons.injEq] at e
        obtain ⟨rfl, rfl⟩ := e
        match argv, hv with
        | _ :: _, hv => simp [HoldS] at hv
        | [], _ =>
          simp only [op2] at hr
          split at hr
          · cases hr
          · rename_i hlen
            rw [← holds_len ha, ← holds_len hb] at hlen
            have hlen' : ¬ (Expr.len a = 1 ∧ Expr.len b = 0) ∧ ¬ (Expr.len a = 0 ∧ Expr.len b = 1) := not_or.mp hlen
            have hp : ((broadcast (a.getD []) (b.getD [])).map fun p => (p.1.val, p.2.val)) =
                ((broadcast xs ys).map fun p => (some p.1, some p.2)) := by
              rw [← broadcast_map UAtom.val UAtom.val, ← broadcast_map some some, (argsVal_map _ _).mp ha, (argsVal_map _ _).mp hb]
            cases r with
            | ok vs =>
              obtain ⟨k1, k2⟩ := each_ok h _ _ vs hp hr
              exact ⟨0, _, C35_broadcast_partial f a b hlen' (res f) k1, rfl, k2, hsimp vs rfl⟩
            | error c =>
              obtain ⟨hc, pre, q, post, u, e, k1, k2⟩ := each_error h _ _ c hp hr
              obtain ⟨o, ho⟩ := C35_error f a b hlen' pre post q e k1 c u k2 hc
              exact ⟨c, o, ho, hc, rfl⟩

theorem asInt_val {x : UAtom} {v : Val} {t : ITy} {n : Int} (hx : x.val = some v) (h : asInt v = some (t, n)) :
    t.has n ∧ x.val = some (t.val n) := by
  obtain ⟨h1, rfl⟩ := asInt_spec h
  exact ⟨h1, hx⟩

theorem onInts_some {x y : Val} {f : ITy → Int → ITy → Int → Option R1} {r : R1} (h : onInts x y f = some r) :
    ∃ t1 n1 t2 n2, asInt x = some (t1, n1) ∧ asInt y = some (t2, n2) ∧ f t1 n1 t2 n2 = some r := by
  simp only [onInts] at h
  split at h
  · rename_i t1 n1 t2 n2 h1 h2
    exact ⟨t1, n1, t2, n2, h1, h2, h⟩
  · cases h

theorem wraps_has {t : ITy} {n : Int} (h : wraps t n = true) (ht : t = .i32 ∨ t = .i64) : t.has n := by
  rcases ht with rfl | rfl <;> simpa [wraps] using h

theorem onNums_some {x y : Val} {g : Fp → Fp → Option R1} {f : ITy → Int → ITy → Int → Option R1} {r : R1} (h : onNums x y g f = some r) :
    (∃ a b, IsDouble x a ∧ IsDouble y b ∧ (Floating x ∨ Floating y) ∧ g a b = some r) ∨ onInts x y f = some r := by
  simp only [onNums] at h
  split at h
  · rename_i hf
    split at h
    · rename_i a b h1 h2
      refine .inl ⟨a, b, asFp_isDouble h1, asFp_isDouble h2, ?_, h⟩
      simpa only [Bool.or_eq_true, floating_iff] using hf
    · cases h
  · exact .inr h

/-- What an operator must do with two atoms. -/
def Does (o : Option (Int × UAtom)) (r : R1) : Prop :=
  match r with
  | .ok u => ∃ u', o = some (0, u') ∧ u'.val = some u
  | .error c => c ≠ 0 ∧ ∃ u', o = some (c, u')

theorem does_dbl {o : Option (Int × UAtom)} {P : Fp → Prop} {z : Fp} {r : R1} (h : ∃ u z, o = some (0, u) ∧ IsNum u z ∧ P z)
    (hz : ∀ z', P z' → z' = z) (hr : (dbl z).map Except.ok = some r) : Does o r := by
  obtain ⟨u, z', h1, h2, h3⟩ := h
  simp only [Option.map_eq_some_iff] at hr
  obtain ⟨w, hw, rfl⟩ := hr
  rw [hz z' h3] at h2
  exact ⟨u, h1, dbl_val h2 hw⟩

theorem does_time {o : Option (Int × UAtom)} {s f t n : Nat} (hf : f < 2 ^ 32) (ht : t = n * 2 ^ 32)
    (h : GivesTime o ((s * 2 ^ 32 + f + t) % 2 ^ 64)) : Does o (later s f n) := by
  refine givesTime_ok ?_ hf
  rwa [show (s + n) % 2 ^ 32 * 2 ^ 32 + f = (s * 2 ^ 32 + f + t) % 2 ^ 64 by subst ht; omega]

theorem opOk_add : OpOk Expr.add add := by
  intro x y v w r hx hy h
  simp only [add] at h
  split at h
  · rename_i s t
    simp only [Option.some.injEq] at h
    subst h
    exact C36_strings x y s t hx hy
  · rename_i s f
    simp only [Option.map_eq_some_iff] at h
    obtain ⟨n, h1, rfl⟩ := h
    obtain ⟨hn, hd⟩ := asSeconds_some h1
    have hU := Nat.mul_div_cancel n (Nat.two_pow_pos 1074)
    obtain ⟨t, -, ht, g1, -⟩ := C64_add x y s f w _ hx hy hd (by rw [hU]; exact hn)
    exact does_time (time_bounds hx).2 (by rw [ht (Nat.mul_mod_left _ _), hU]) g1
  · rename_i s f _
    simp only [Option.map_eq_some_iff] at h
    obtain ⟨n, h1, rfl⟩ := h
    obtain ⟨hn, hd⟩ := asSeconds_some h1
    have hU := Nat.mul_div_cancel n (Nat.two_pow_pos 1074)
    obtain ⟨t, -, ht, -, g1⟩ := C64_add y x s f v _ hy hx hd (by rw [hU]; exact hn)
    exact does_time (time_bounds hy).2 (by rw [ht (Nat.mul_mod_left _ _), hU]) g1
  · rcases onNums_some h with ⟨a, b, ha, hb, hf, hr⟩ | h
    · exact does_dbl (C63_arith x y v w a b hx hy ha hb hf).1 (fun z hz => (C63_unique a b z _).1 hz (Fp.sum_of f64 (by decide) _ _)) hr
    · obtain ⟨t1, n1, t2, n2, h1, h2, h3⟩ := onInts_some h
      split at h3
      · rename_i hw
        simp only [Option.some.injEq] at h3
        subst h3
        obtain ⟨a1, a2⟩ := asInt_val hx h1
        obtain ⟨b1, b2⟩ := asInt_val hy h2
        exact C36_add t1 t2 n1 n2 a1 b1 x y a2 b2 (wraps_has hw)
      · cases h3

/-- Two values one of which is a string, the other a string or a number: not both are numbers, and none is a time tag. -/
theorem withStr_tags {x y : UAtom} {v w : Val} (hx : x.val = some v) (hy : y.val = some w) (h : withStr v w = true) :
    ¬ (isNumeric x.tag = true ∧ isNumeric y.tag = true) ∧ x.tag ≠ 116 ∧ y.tag ≠ 116 ∧ x.tag ≠ 78 ∧ y.tag ≠ 78 ∧ x.tag ≠ 46 ∧
      ¬ (x.tag = 115 ∧ y.tag = 115 ∧ ¬ (isStr v = true ∧ isStr w = true)) ∧ (isStr v = true → x.tag = 115) ∧ (isStr w = true → y.tag = 115) := by
  have str : ∀ {x : UAtom} {v : Val}, x.val = some v → isStr v = true → x.tag = 115 := by
    intro x v hx h
    cases v with
    | str s =>
      obtain ⟨al, p, rfl⟩ := str_of_val hx
      rfl
    | _ => simp [isStr] at h
  have int : ∀ {x : UAtom} {v : Val}, x.val = some v → (asFp v).isSome = true → isNumeric x.tag = true ∧ x.tag ≠ 115 ∧ x.tag ≠ 116 ∧ x.tag ≠ 78 ∧ x.tag ≠ 46 := by
    intro x v hx h
    obtain ⟨y, hn⟩ := Option.isSome_iff_exists.mp h
    obtain ⟨h1, h2⟩ := num_tags hx (asFp_isDouble hn)
    refine ⟨h1, h2, ?_, ?_, ?_⟩ <;> intro h <;> rw [h] at h1 <;> exact absurd h1 (by decide)
  simp only [withStr, Bool.or_eq_true, Bool.and_eq_true] at h
  rcases h with ⟨h1, h2 | h2⟩ | ⟨h1, h2⟩
  · have e1 := str hx h1
    have e2 := str hy h2
    rw [e1, e2]
    refine ⟨by decide, by decide, by decide, by decide, by decide, by decide, ?_, fun _ => rfl, fun _ => rfl⟩
    rintro ⟨-, -, h⟩
    exact h ⟨h1, h2⟩
  · have e1 := str hx h1
    obtain ⟨-, g2, g3, g4, g5⟩ := int hy h2
    rw [e1]
    refine ⟨fun h => absurd h.1 (by decide), by decide, g3, by decide, g4, by decide, fun h => g2 h.2.1, fun _ => rfl, fun h => absurd (str hy h) g2⟩
  · have e1 := str hy h1
    obtain ⟨-, g2, g3, g4, g5⟩ := int hx h2
    rw [e1]
    refine ⟨fun h => absurd h.2 (by decide), g3, by decide, g4, by decide, g5, fun h => g2 h.1, fun h => absurd (str hx h) g2, fun _ => rfl⟩

theorem opOk_sub : OpOk subtract sub := by
  intro x y v w r hx hy h
  simp only [sub] at h
  split at h
  · rename_i hs
    simp only [Option.some.injEq] at h
    subst h
    obtain ⟨g1, g2, g3, -⟩ := withStr_tags hx hy hs
    exact ⟨by decide, .fresh, by simp only [subtract]; rw [if_neg g1, if_neg (by simp [g2, g3])]⟩
  · split at h
    · rename_i s f s' f' _
      split at h
      · rename_i hc
        obtain ⟨u, m, h1, h2, -, -, h3⟩ := C64_difference x y s f s' f' hx hy (by omega)
        rw [h3 hc.1] at h2
        exact does_dbl (P := (· = .fin false ((s - s') * 2 ^ 1074))) ⟨u, _, h1, h2, rfl⟩ (fun _ h => h) h
      · cases h
    · rename_i s f _ _
      split at h
      · rename_i n hn
        split at h
        · rename_i hlt
          simp only [Option.some.injEq] at h
          subst h
          obtain ⟨-, hd⟩ := asSeconds_some hn
          have hU := Nat.mul_div_cancel n (Nat.two_pow_pos 1074)
          obtain ⟨t, -, ht, -, g1⟩ := C64_subtract x y s f w _ hx hy hd (by rw [hU]; exact hlt)
          have ht := ht (Nat.mul_mod_left _ _)
          rw [hU] at ht
          refine givesTime_ok ?_ (time_bounds hx).2
          rwa [show (s - n) * 2 ^ 32 + f = s * 2 ^ 32 + f - t by subst ht; omega]
        · cases h
      · cases h
    · rcases onNums_some h with ⟨a, b, ha, hb, hf, hr⟩ | h
      · exact does_dbl (C63_arith x y v w a b hx hy ha hb hf).2.1 (fun z hz => (C63_unique a b z _).2.1 hz (Fp.diff_of f64 (by decide) _ _)) hr
      · obtain ⟨t1, n1, t2, n2, h1, h2, h3⟩ := onInts_some h
        split at h3
        · rename_i hw
          simp only [Option.some.injEq] at h3
          subst h3
          obtain ⟨a1, a2⟩ := asInt_val hx h1
          obtain ⟨b1, b2⟩ := asInt_val hy h2
          exact C36_subtract_partial t1 t2 n1 n2 a1 b1 x y a2 b2 hw.1 hw.2.1 hw.2.2
        · cases h3

theorem opOk_mul : OpOk multiply mul := by
  intro x y v w r hx hy h
  simp only [mul] at h
  split at h
  · rename_i hs
    simp only [Option.some.injEq] at h
    subst h
    obtain ⟨g1, -⟩ := withStr_tags hx hy hs
    exact ⟨by decide, .fresh, by simp only [multiply]; rw [if_neg g1]⟩
  · rcases onNums_some h with ⟨a, b, ha, hb, hf, hr⟩ | h
    · exact does_dbl (C63_arith x y v w a b hx hy ha hb hf).2.2 (fun z hz => (C63_unique a b z _).2.2.1 hz (Fp.product_of f64 (by decide) _ _)) hr
    · obtain ⟨t1, n1, t2, n2, h1, h2, h3⟩ := onInts_some h
      split at h3
      · rename_i hw
        simp only [Option.some.injEq] at h3
        subst h3
        obtain ⟨a1, a2⟩ := asInt_val hx h1
        obtain ⟨b1, b2⟩ := asInt_val hy h2
        exact C36_multiply t1 t2 n1 n2 a1 b1 x y a2 b2 (wraps_has hw.1) hw.2
      · cases h3

theorem opOk_div : OpOk divide div := by
  intro x y v w r hx hy h
  simp only [div] at h
  split at h
  · rename_i hs
    simp only [Option.some.injEq] at h
    subst h
    obtain ⟨g1, -⟩ := withStr_tags hx hy hs
    exact ⟨by decide, .fresh, by simp only [divide]; rw [if_neg g1]⟩
  · rcases onNums_some h with ⟨a, b, ha, hb, hf, hr⟩ | h
    · obtain ⟨k1, k2⟩ := C63_divide x y v w a b hx hy ha hb hf
      simp only [divFp] at hr
      split at hr
      · simp only [Option.some.injEq] at hr
        subst hr
        exact k2 rfl
      · rename_i hz
        have hz : ¬ IsZero b := by
          cases b with
          | fin s m => intro h0; exact hz s (by rw [show m = 0 from h0])
          | _ => exact id
        exact does_dbl (k1 hz) (fun z hz => (C63_unique a b z _).2.2.2 hz (Fp.quotient_of f64 (by decide) _ _)) hr
    · obtain ⟨t1, n1, t2, n2, h1, h2, h3⟩ := onInts_some h
      obtain ⟨a1, a2⟩ := asInt_val hx h1
      obtain ⟨b1, b2⟩ := asInt_val hy h2
      split at h3
      · rename_i h0
        simp only [Option.some.injEq] at h3
        subst h3 h0
        exact C36_divide_zero t1 t2 n1 x y a2 b2
      · rename_i h0
        split at h3
        · rename_i hw
          simp only [Option.some.injEq] at h3
          subst h3
          exact C36_divide_partial t1 t2 n1 n2 a1 b1 x y a2 b2 h0 hw.1 hw.2.1 hw.2.2.1 hw.2.2.2
        · cases h3

/-! Comparisons -/

/-- An operator that compares. -/
structure Compares (f : Expr.Op) (p : Option Ordering → Bool) : Prop where
  nums : ∀ (a b : UAtom) (v w : Val) (x y : Fp), a.val = some v → b.val = some w → IsDouble v x → IsDouble w y →
    Gives (f (some a) (some b) .fresh) (p (orderOf x y))
  strs : ∀ (a b : UAtom) (s1 s2 : Bytes), a.val = some (.str s1) → b.val = some (.str s2) →
    Gives (f (some a) (some b) .fresh) (p (some (if s1 < s2 then .lt else if s1 = s2 then .eq else .gt)))
  times : ∀ (a b : UAtom) (s1 f1 s2 f2 : Nat), a.val = some (.time s1 f1) → b.val = some (.time s2 f2) →
    Gives (f (some a) (some b) .fresh) (p (some (compare (s1 * 2 ^ 32 + f1) (s2 * 2 ^ 32 + f2))))
  secs : ∀ (a b : UAtom) (s k n : Nat) (v : Val), a.val = some (.time s k) → b.val = some v → IsDouble v (.fin false (n * 2 ^ 1074)) →
    n < 2 ^ 32 → Gives (f (some a) (some b) .fresh) (p (some (compare (s * 2 ^ 32 + k) (n * 2 ^ 32))))

theorem order_ok {f : Expr.Op} {p : Option Ordering → Bool} (h : Compares f p) {x y : UAtom} {v w : Val} {o : Option Ordering} (hx : x.val = some v)
    (hy : y.val = some w) (ho : order v w = some o) : Gives (f (some x) (some y) .fresh) (p o) := by
  simp only [order] at ho
  split at ho
  · simp only [Option.some.injEq] at ho
    subst ho
    exact h.strs x y _ _ hx hy
  · simp only [Option.some.injEq] at ho
    subst ho
    exact h.times x y _ _ _ _ hx hy
  · split at ho
    · rename_i n hn
      simp only [Option.some.injEq] at ho
      subst ho
      obtain ⟨h1, h2⟩ := asSeconds_some hn
      exact h.secs x y _ _ n w hx hy h2 h1
    · cases ho
  · split at ho
    · rename_i a b h1 h2
      have := h.nums x y v w a b hx hy (asFp_isDouble h1) (asFp_isDouble h2)
      simp only [orderOf] at this
      cases ha : place a <;> cases hb : place b <;> simp only [ha, hb, Option.some.injEq] at ho this <;> subst ho <;> exact this
    · cases ho

theorem gives_ok {r : Option (Int × UAtom)} {b : Bool} (h : Gives r b) : ∃ u', r = some (0, u') ∧ u'.val = some (truthVal b) := h

theorem opOk_cmp {onStr : Int → Bool} {strNum numStr : Bool} {onDbl : Fp → Fp → Bool} {onTime : Int → Bool} {p : Option Ordering → Bool}
    (h : Compares (cmpOp onStr strNum numStr onDbl onTime) p) (h1 : strNum = p (some .gt)) (h2 : numStr = p (some .lt)) :
    OpOk (cmpOp onStr strNum numStr onDbl onTime) (cmp p) := by
  intro x y v w r hx hy hr
  simp only [cmp] at hr
  split at hr
  · rename_i o ho
    simp only [Option.some.injEq] at hr
    subst hr
    exact gives_ok (order_ok h hx hy ho)
  · split at hr
    · rename_i hs
      simp only [Option.some.injEq] at hr
      subst hr h1
      simp only [Bool.and_eq_true] at hs
      obtain ⟨n, hn⟩ := Option.isSome_iff_exists.mp hs.2
      have hs1 := hs.1
      cases v with
      | str s =>
        obtain ⟨al, pp, rfl⟩ := str_of_val hx
        obtain ⟨q1, q3⟩ := num_tags hy (asFp_isDouble hn)
        refine gives_ok ?_
        have e : cmpOp onStr (p (some .gt)) numStr onDbl onTime (some (.mk 115 al (.str pp s))) (some y) .fresh = (setBool .fresh (p (some .gt))).map fun r => (0, r) := by
          simp [cmpOp, q1, q3, show ((UAtom.mk 115 al (.str pp s)).tag = 115) from rfl]
        rw [e]
        exact setBool_gives _
      | _ => simp [isStr] at hs1
    · split at hr
      · rename_i hs
        simp only [Option.some.injEq] at hr
        subst hr h2
        simp only [Bool.and_eq_true] at hs
        obtain ⟨n, hn⟩ := Option.isSome_iff_exists.mp hs.2
        have hs1 := hs.1
        cases w with
        | str s =>
          obtain ⟨al, pp, rfl⟩ := str_of_val hy
          obtain ⟨q1, q3⟩ := num_tags hx (asFp_isDouble hn)
          refine gives_ok ?_
          have e : cmpOp onStr strNum (p (some .lt)) onDbl onTime (some x) (some (.mk 115 al (.str pp s))) .fresh = (setBool .fresh (p (some .lt))).map fun r => (0, r) := by
            simp [cmpOp, q1, q3, show ((UAtom.mk 115 al (.str pp s)).tag = 115) from rfl]
          rw [e]
          exact setBool_gives _
        | _ => simp [isStr] at hs1
      · cases hr

theorem int_compare (m n : Int) : (compare m n == .lt) = decide (m < n) ∧ (compare m n != .gt) = decide (m ≤ n) ∧
    (compare m n == .gt) = decide (n < m) ∧ (compare m n != .lt) = decide (n ≤ m) ∧ (compare m n == .eq) = decide (m = n) ∧
    (compare m n != .eq) = decide (m ≠ n) := by
  rcases Int.lt_trichotomy m n with h | h | h
  · have e : compare m n = .lt := by simp [compare, compareOfLessAndEq, h]
    rw [e]
    refine ⟨?_, ?_, ?_, ?_, ?_, ?_⟩ <;> symm <;> first | (exact decide_eq_true (by omega)) | (exact decide_eq_false (by omega))
  · have e : compare m n = .eq := by simp [compare, compareOfLessAndEq, h]
    rw [e]
    refine ⟨?_, ?_, ?_, ?_, ?_, ?_⟩ <;> symm <;> first | (exact decide_eq_true (by omega)) | (exact decide_eq_false (by omega))
  · have e : compare m n = .gt := by simp [compare, compareOfLessAndEq, show ¬ m < n by omega, show ¬ m = n by omega]
    rw [e]
    refine ⟨?_, ?_, ?_, ?_, ?_, ?_⟩ <;> symm <;> first | (exact decide_eq_true (by omega)) | (exact decide_eq_false (by omega))

theorem nat_compare (m n : Nat) : (compare m n == .lt) = decide (m < n) ∧ (compare m n != .gt) = decide (m ≤ n) ∧
    (compare m n == .gt) = decide (n < m) ∧ (compare m n != .lt) = decide (n ≤ m) ∧ (compare m n == .eq) = decide (m = n) ∧
    (compare m n != .eq) = decide (m ≠ n) := by
  rcases Nat.lt_trichotomy m n with h | h | h
  · have e : compare m n = .lt := by simp [compare, compareOfLessAndEq, h]
    rw [e]
    refine ⟨?_, ?_, ?_, ?_, ?_, ?_⟩ <;> symm <;> first | (exact decide_eq_true (by omega)) | (exact decide_eq_false (by omega))
  · have e : compare m n = .eq := by simp [compare, compareOfLessAndEq, h]
    rw [e]
    refine ⟨?_, ?_, ?_, ?_, ?_, ?_⟩ <;> symm <;> first | (exact decide_eq_true (by omega)) | (exact decide_eq_false (by omega))
  · have e : compare m n = .gt := by simp [compare, compareOfLessAndEq, show ¬ m < n by omega, show ¬ m = n by omega]
    rw [e]
    refine ⟨?_, ?_, ?_, ?_, ?_, ?_⟩ <;> symm <;> first | (exact decide_eq_true (by omega)) | (exact decide_eq_false (by omega))

/-- The order of two strings. -/
def ordOf (s t : Bytes) : Ordering := if s < t then .lt else if s = t then .eq else .gt

theorem str_compare (s t : Bytes) : (ordOf s t == .lt) = decide (s < t) ∧ (ordOf s t != .gt) = decide (¬ t < s) ∧
    (ordOf s t == .gt) = decide (t < s) ∧ (ordOf s t != .lt) = decide (¬ s < t) ∧ (ordOf s t == .eq) = decide (s = t) ∧
    (ordOf s t != .eq) = decide (s ≠ t) := by
  obtain ⟨i1, i2, i3⟩ := strcmp_spec s t
  rw [← decide_eq_decide.mpr i1, ← decide_eq_decide.mpr i2, ← decide_eq_decide.mpr i3, ← decide_eq_decide.mpr (not_congr i1),
    ← decide_eq_decide.mpr (not_congr i2), ← decide_eq_decide.mpr (not_congr i3)]
  have e : ordOf s t = if strcmp s t < 0 then .lt else if strcmp s t = 0 then .eq else .gt := by
    simp only [ordOf, ← i1, ← i2]
  rw [e]
  rcases Int.lt_trichotomy (strcmp s t) 0 with h | h | h
  · rw [if_pos h]
    refine ⟨?_, ?_, ?_, ?_, ?_, ?_⟩ <;> symm <;> first | (exact decide_eq_true (by omega)) | (exact decide_eq_false (by omega))
  · rw [if_neg (by omega), if_pos h]
    refine ⟨?_, ?_, ?_, ?_, ?_, ?_⟩ <;> symm <;> first | (exact decide_eq_true (by omega)) | (exact decide_eq_false (by omega))
  · rw [if_neg (by omega), if_neg (by omega)]
    refine ⟨?_, ?_, ?_, ?_, ?_, ?_⟩ <;> symm <;> first | (exact decide_eq_true (by omega)) | (exact decide_eq_false (by omega))

theorem is_some (o : Ordering) : isLt (some o) = (o == .lt) ∧ isLe (some o) = (o != .gt) ∧ isGt (some o) = (o == .gt) ∧
    isGe (some o) = (o != .lt) ∧ isEq (some o) = (o == .eq) ∧ (!isEq (some o)) = (o != .eq) := by
  cases o <;> decide

theorem is_ordered (x y : Fp) : (isLt (orderOf x y) = true ↔ Ordered (· < ·) x y) ∧ (isLe (orderOf x y) = true ↔ Ordered (· ≤ ·) x y) ∧
    (isGt (orderOf x y) = true ↔ Ordered (· > ·) x y) ∧ (isGe (orderOf x y) = true ↔ Ordered (· ≥ ·) x y) ∧
    (isEq (orderOf x y) = true ↔ Ordered (· = ·) x y) ∧ ((!isEq (orderOf x y)) = true ↔ ¬ Ordered (· = ·) x y) := by
  have key : ∀ (p : Option Ordering → Bool) (R : Int → Int → Prop), p none = false → (∀ m n, p (some (compare m n)) = true ↔ R m n) →
      (p (orderOf x y) = true ↔ Ordered R x y) := by
    intro p R h1 h2
    simp only [orderOf, Ordered]
    cases place x <;> cases place y <;> simp [h1, h2]
  have e := key isEq (· = ·) rfl fun m n => by rw [(is_some _).2.2.2.2.1, (int_compare m n).2.2.2.2.1]; simp
  refine ⟨key isLt _ rfl fun m n => ?_, key isLe _ rfl fun m n => ?_, key isGt _ rfl fun m n => ?_, key isGe _ rfl fun m n => ?_, e, ?_⟩
  · rw [(is_some _).1, (int_compare m n).1]; simp
  · rw [(is_some _).2.1, (int_compare m n).2.1]; simp
  · rw [(is_some _).2.2.1, (int_compare m n).2.2.1]; simp
  · rw [(is_some _).2.2.2.1, (int_compare m n).2.2.2.1]; simp
  · rw [← e]; simp

theorem gives_iff {o : Option (Int × UAtom)} {b : Bool} {P : Prop} (h : ∃ r, Gives o r ∧ (r = true ↔ P)) (hb : b = true ↔ P) : Gives o b := by
  obtain ⟨r, h1, h2⟩ := h
  have : r = b := by rw [Bool.eq_iff_iff, h2, hb]
  rwa [← this]

theorem gives_dec {o : Option (Int × UAtom)} {b : Bool} {P Q : Prop} [Decidable P] [Decidable Q] (h : Gives o (decide P)) (hb : b = decide Q)
    (hPQ : P ↔ Q) : Gives o b := by
  rwa [hb, ← decide_eq_decide.mpr hPQ]

theorem compares_all : Compares lt isLt ∧ Compares le isLe ∧ Compares gt isGt ∧ Compares gte isGe ∧
    Compares Expr.eq isEq ∧ Compares neq fun o => !isEq o := by
  have N := fun a b v w x y ha hb hx hy => C63_compare a b v w x y ha hb hx hy
  have S := fun a b s f n v ha hb hx hn => C64_compare a b s f n v ha hb hx hn
  have str := fun s1 s2 => show ∀ p : Option Ordering → Bool, p (some (if s1 < s2 then .lt else if s1 = s2 then .eq else .gt)) = p (some (ordOf s1 s2))
    from fun _ => rfl
  refine ⟨⟨?_, ?_, ?_, ?_⟩, ⟨?_, ?_, ?_, ?_⟩, ⟨?_, ?_, ?_, ?_⟩, ⟨?_, ?_, ?_, ?_⟩, ⟨?_, ?_, ?_, ?_⟩, ⟨?_, ?_, ?_, ?_⟩⟩
  · intro a b v w x y ha hb hx hy; exact gives_iff (N a b v w x y ha hb hx hy).1 (is_ordered x y).1
  · intro a b s1 s2 ha hb; rw [str s1 s2 isLt, (is_some _).1, (str_compare s1 s2).1]; exact (C45_strings a b s1 s2 ha hb).1
  · intro a b s1 f1 s2 f2 ha hb; rw [(is_some _).1, (nat_compare _ _).1]; exact (C45_timetags a b s1 f1 s2 f2 ha hb).1
  · intro a b s k n v ha hb hx hn
    have := (time_bounds ha).2
    exact gives_dec (S a b s k n v ha hb hx hn).1 (by rw [(is_some _).1, (nat_compare _ _).1]) (by omega)
  · intro a b v w x y ha hb hx hy; exact gives_iff (N a b v w x y ha hb hx hy).2.1 (is_ordered x y).2.1
  · intro a b s1 s2 ha hb; rw [str s1 s2 isLe, (is_some _).2.1, (str_compare s1 s2).2.1]; exact (C45_strings a b s1 s2 ha hb).2.1
  · intro a b s1 f1 s2 f2 ha hb; rw [(is_some _).2.1, (nat_compare _ _).2.1]; exact (C45_timetags a b s1 f1 s2 f2 ha hb).2.1
  · intro a b s k n v ha hb hx hn
    have := (time_bounds ha).2
    exact gives_dec (S a b s k n v ha hb hx hn).2.1 (by rw [(is_some _).2.1, (nat_compare _ _).2.1]) (by omega)
  · intro a b v w x y ha hb hx hy; exact gives_iff (N a b v w x y ha hb hx hy).2.2.1 (is_ordered x y).2.2.1
  · intro a b s1 s2 ha hb; rw [str s1 s2 isGt, (is_some _).2.2.1, (str_compare s1 s2).2.2.1]; exact (C45_strings a b s1 s2 ha hb).2.2.1
  · intro a b s1 f1 s2 f2 ha hb; rw [(is_some _).2.2.1, (nat_compare _ _).2.2.1]; exact (C45_timetags a b s1 f1 s2 f2 ha hb).2.2.1
  · intro a b s k n v ha hb hx hn
    have := (time_bounds ha).2
    exact gives_dec (S a b s k n v ha hb hx hn).2.2.1 (by rw [(is_some _).2.2.1, (nat_compare _ _).2.2.1]) (by omega)
  · intro a b v w x y ha hb hx hy; exact gives_iff (N a b v w x y ha hb hx hy).2.2.2.1 (is_ordered x y).2.2.2.1
  · intro a b s1 s2 ha hb; rw [str s1 s2 isGe, (is_some _).2.2.2.1, (str_compare s1 s2).2.2.2.1]; exact (C45_strings a b s1 s2 ha hb).2.2.2.1
  · intro a b s1 f1 s2 f2 ha hb; rw [(is_some _).2.2.2.1, (nat_compare _ _).2.2.2.1]; exact (C45_timetags a b s1 f1 s2 f2 ha hb).2.2.2.1
  · intro a b s k n v ha hb hx hn
    have := (time_bounds ha).2
    exact gives_dec (S a b s k n v ha hb hx hn).2.2.2.1 (by rw [(is_some _).2.2.2.1, (nat_compare _ _).2.2.2.1]) (by omega)
  · intro a b v w x y ha hb hx hy; exact gives_iff (N a b v w x y ha hb hx hy).2.2.2.2.1 (is_ordered x y).2.2.2.2.1
  · intro a b s1 s2 ha hb; rw [str s1 s2 isEq, (is_some _).2.2.2.2.1, (str_compare s1 s2).2.2.2.2.1]; exact (C45_strings a b s1 s2 ha hb).2.2.2.2.1
  · intro a b s1 f1 s2 f2 ha hb; rw [(is_some _).2.2.2.2.1, (nat_compare _ _).2.2.2.2.1]; exact (C45_timetags a b s1 f1 s2 f2 ha hb).2.2.2.2.1
  · intro a b s k n v ha hb hx hn
    have := (time_bounds ha).2
    exact gives_dec (S a b s k n v ha hb hx hn).2.2.2.2.1 (by rw [(is_some _).2.2.2.2.1, (nat_compare _ _).2.2.2.2.1]) (by omega)
  · intro a b v w x y ha hb hx hy; exact gives_iff (N a b v w x y ha hb hx hy).2.2.2.2.2 (is_ordered x y).2.2.2.2.2
  · intro a b s1 s2 ha hb
    have := (C45_strings a b s1 s2 ha hb).2.2.2.2.2
    rwa [← (str_compare s1 s2).2.2.2.2.2, ← (is_some _).2.2.2.2.2] at this
  · intro a b s1 f1 s2 f2 ha hb
    have := (C45_timetags a b s1 f1 s2 f2 ha hb).2.2.2.2.2
    rwa [← (nat_compare _ _).2.2.2.2.2, ← (is_some _).2.2.2.2.2] at this
  · intro a b s k n v ha hb hx hn
    have := (time_bounds ha).2
    exact gives_dec (S a b s k n v ha hb hx hn).2.2.2.2.2 (by rw [(is_some _).2.2.2.2.2, (nat_compare _ _).2.2.2.2.2]) (by omega)

theorem opOk_lt : OpOk lt (cmp isLt) := opOk_cmp compares_all.1 rfl rfl
theorem opOk_le : OpOk le (cmp isLe) := opOk_cmp compares_all.2.1 rfl rfl
theorem opOk_gt : OpOk gt (cmp isGt) := opOk_cmp compares_all.2.2.1 rfl rfl
theorem opOk_gte : OpOk gte (cmp isGe) := opOk_cmp compares_all.2.2.2.1 rfl rfl

theorem opOk_same {f : Expr.Op} {p : Option Ordering → Bool} (h : Compares f p)
    (he : ∀ x y v w, UAtom.val x = some v → UAtom.val y = some w → withStr v w = true → ¬ (isStr v = true ∧ isStr w = true) →
      f (some x) (some y) .fresh = some (1, .fresh)) : OpOk f (same p) := by
  intro x y v w r hx hy hr
  simp only [same] at hr
  split at hr
  · rename_i o ho
    simp only [Option.some.injEq] at hr
    subst hr
    exact gives_ok (order_ok h hx hy ho)
  · rename_i ho
    split at hr
    · rename_i hs
      simp only [Option.some.injEq] at hr
      subst hr
      refine ⟨by decide, _, he x y v w hx hy hs ?_⟩
      rintro ⟨h1, h2⟩
      cases v <;> simp [isStr] at h1
      cases w <;> simp [isStr] at h2
      simp [order] at ho
    · cases hr

theorem opOk_eq : OpOk Expr.eq (same isEq) := opOk_same compares_all.2.2.2.2.1 fun x y v w hx hy hs hn => by
  obtain ⟨g1, g2, g3, g4, g5, g6, g7, -⟩ := withStr_tags hx hy hs
  simp only [Expr.eq]
  rw [if_neg (fun h => g7 ⟨h.1, h.2, hn⟩), if_neg g1, if_neg (fun h => g1 ⟨h.1.resolve_left g2, h.2.resolve_left g3⟩),
    if_neg (fun h => g4 h.1), if_neg (fun h => h.elim g4 g5), if_neg (fun h => g6 h.1)]

theorem opOk_neq : OpOk neq (same fun o => !isEq o) := opOk_same compares_all.2.2.2.2.2 fun x y v w hx hy hs hn => by
  obtain ⟨g1, g2, g3, g4, g5, g6, g7, -⟩ := withStr_tags hx hy hs
  simp only [neq]
  rw [if_neg (fun h => g7 ⟨h.1, h.2, hn⟩), if_neg g1, if_neg (fun h => g1 ⟨h.1.resolve_left g2, h.2.resolve_left g3⟩),
    if_neg (fun h => g6 h.1)]

theorem opOk_and : OpOk Expr.and (both (· && ·)) := by
  intro x y v w r hx hy h
  simp only [both, Option.some.injEq] at h
  subst h
  exact gives_ok (C45_and_or x y v w hx hy).1

theorem opOk_or : OpOk Expr.or (both (· || ·)) := by
  intro x y v w r hx hy h
  simp only [both, Option.some.injEq] at h
  subst h
  exact gives_ok (C45_and_or x y v w hx hy).2

/-! ### Functions of lists -/

theorem holdS_cons {argv : List Ar} {vs : List Val} {vss : List (List Val)} (h : HoldS argv (vs :: vss)) :
    ∃ a as, argv = a :: as ∧ Holds a vs ∧ vs.all simple = true ∧ HoldS as vss := by
  cases argv with
  | nil => simp [HoldS] at h
  | cons a as =>
    simp only [HoldS] at h
    obtain ⟨vs', vss', e, h1, h2, h3⟩ := h
    simp only [List.cons.injEq] at e
    obtain ⟨rfl, rfl⟩ := e
    exact ⟨a, as, rfl, h1, h2, h3⟩

theorem holdS_nil {argv : List Ar} (h : HoldS argv []) : argv = [] := by
  cases argv with
  | nil => rfl
  | cons a as => simp [HoldS] at h

theorem holdS_all : ∀ {argv : List Ar} {vss : List (List Val)}, HoldS argv vss → HoldAll argv vss ∧ ∀ vs ∈ vss, vs.all simple = true
  | [], vss, h => by
    simp only [HoldS] at h
    subst h
    exact ⟨rfl, by simp⟩
  | a :: as, vss, h => by
    simp only [HoldS] at h
    obtain ⟨vs, vss', rfl, h1, h2, h3⟩ := h
    obtain ⟨k1, k2⟩ := holdS_all h3
    exact ⟨⟨vs, vss', rfl, h1, k1⟩, fun ws hw => by
      rcases List.mem_cons.mp hw with rfl | hw
      · exact h2
      · exact k2 ws hw⟩

theorem fnOk_fun1 {f : List Ar → Res} {F : List Val → List Val}
    (h : ∀ a vs, Holds a vs → vs.all simple = true → ∃ out, f [a] = some (0, out) ∧ Holds out (F vs)) : FnOk f (fun1 F) := by
  intro argv vss r hv hr
  obtain ⟨hr, hs⟩ := checked_some hr
  match vss, hv, hr with
  | [vs], hv, hr =>
    obtain ⟨a, as, rfl, h1, h2, h3⟩ := holdS_cons hv
    rw [holdS_nil h3]
    simp only [fun1, Option.some.injEq] at hr
    subst hr
    obtain ⟨out, k1, k2⟩ := h a vs h1 h2
    exact ⟨0, out, k1, rfl, k2, hs _ rfl⟩

theorem mapM_some_iff {α β : Type} (f : α → Option β) : ∀ (l : List α) (r : List β), l.mapM f = some r ↔ l.map f = r.map some
  | [], r => by cases r <;> simp
  | a :: l, [] => by
    rw [List.mapM_cons]
    cases h : f a <;> cases h' : l.mapM f <;> simp [h]
  | a :: l, b :: r => by
    have ih := mapM_some_iff f l r
    rw [List.mapM_cons]
    cases h : f a with
    | none => simp [h]
    | some b' =>
      cases h' : l.mapM f with
      | none =>
        rw [h'] at ih
        simp only [h, Option.bind_eq_bind, Option.bind_some, Option.bind_none, List.map_cons, List.cons.injEq, Option.some.injEq, reduceCtorEq, false_iff, not_and]
        intro _ h2
        exact absurd (ih.mpr h2) (by simp)
      | some r' =>
        rw [h'] at ih
        simp only [Option.some.injEq] at ih
        simp [h, ih]

theorem fnOk_map1 {f : List Ar → Res} {g : Val → Option Val}
    (h : ∀ a vs ws, Holds a vs → vs.mapM g = some ws → ∃ out, f [a] = some (0, out) ∧ Holds out ws) : FnOk f (map1 g) := by
  intro argv vss r hv hr
  obtain ⟨hr, hs⟩ := checked_some hr
  match vss, hv, hr with
  | [vs], hv, hr =>
    obtain ⟨a, as, rfl, h1, h2, h3⟩ := holdS_cons hv
    rw [holdS_nil h3]
    simp only [map1, Option.map_eq_some_iff] at hr
    obtain ⟨ws, hw, rfl⟩ := hr
    obtain ⟨out, k1, k2⟩ := h a vs ws h1 hw
    exact ⟨0, out, k1, rfl, k2, hs _ rfl⟩

theorem fnOk_not : FnOk Expr.not (map1 not1) := fnOk_map1 fun a vs ws h hw => by
  have hw := (mapM_some_iff _ _ _).mp hw
  have hall : ∀ v ∈ vs, NotOk v ∧ not1 v = some (notVal v) := by
    intro v hv
    have hm : not1 v ∈ ws.map some := hw ▸ List.mem_map_of_mem hv
    obtain ⟨w, -, hw'⟩ := List.mem_map.mp hm
    cases v with
    | bare t =>
      simp only [not1] at hw' ⊢
      split at hw'
      · rename_i h84
        subst h84
        exact ⟨.inl rfl, rfl⟩
      · rename_i h84
        split at hw'
        · rename_i h70
          rcases h70 with rfl | rfl
          · exact ⟨.inr (.inl rfl), rfl⟩
          · exact ⟨.inr (.inr (.inl rfl)), rfl⟩
        · cases hw'
    | num tg n =>
      simp only [not1] at hw' ⊢
      cases ha : asInt (.num tg n) with
      | none => simp [ha] at hw'
      | some p =>
        obtain ⟨t, m⟩ := p
        simp only [ha] at hw' ⊢
        obtain ⟨g1, g2⟩ := asInt_spec ha
        split at hw'
        · rename_i ht
          refine ⟨?_, ?_⟩
          · rcases ht with rfl | rfl
            · exact .inr (.inr (.inr (.inl ⟨m, g1, g2⟩)))
            · exact .inr (.inr (.inr (.inr ⟨m, g1, g2⟩)))
          · rw [if_pos ht]
            have : notVal (.num tg n) = ITy.i32.val (if (Val.num tg n).truth then 0 else 1) := rfl
            rw [this, g2, truth_int t m g1]
            by_cases hm : m = 0 <;> simp [hm]
        · cases hw'
    | _ => simp [not1, asInt] at hw'
  have he : ws = vs.map notVal := by
    have : vs.map not1 = (vs.map notVal).map some := by
      rw [List.map_map]
      exact List.map_congr_left fun v hv => (hall v hv).2
    rw [this] at hw
    exact ((List.map_inj_right fun _ _ h => Option.some.inj h).mp hw).symm
  obtain ⟨o, k1, k2, -⟩ := C45_not_partial a [] vs h fun v hv => (hall v hv).1
  exact ⟨_, k1, he ▸ k2⟩

/-- A function that works on each element, given as an operation on one atom. -/
theorem fnOk_each {f : List Ar → Res} {g : Val → Option Val} {op : UAtom → UAtom → Option UAtom}
    (hf : ∀ a, f [a] = (forN (len a) (fun i out => match at? a i with | none => some out | some x => setTo out i (op x)) (mk (len a))).map
      fun out => (0, some out))
    (h : ∀ x v w, UAtom.val x = some v → g v = some w → ∃ u, op x .fresh = some u ∧ u.val = some w) : FnOk f (map1 g) := fnOk_map1 fun a vs ws ha hw => by
  have hw := (mapM_some_iff _ _ _).mp hw
  have hg : ∀ v ∈ vs, ∃ w, g v = some w := fun v hv => by
    have hm : g v ∈ ws.map some := hw ▸ List.mem_map_of_mem hv
    obtain ⟨w, -, hw'⟩ := List.mem_map.mp hm
    exact ⟨w, hw'.symm⟩
  obtain ⟨o, h1, h2⟩ := elementwise op (fun v => (g v).getD v) a vs ha fun x v hx hv => by
    obtain ⟨w, hw'⟩ := hg v hv
    obtain ⟨u, k1, k2⟩ := h x v w hx hw'
    exact ⟨u, k1, by rw [k2, hw']; rfl⟩
  refine ⟨some o, (hf a).trans (congrArg (Option.map fun out => ((0 : Int), some out)) h1), ?_⟩
  have e : vs.map (fun v => (g v).getD v) = ws := by
    have : (vs.map fun v => (g v).getD v).map some = ws.map some := by
      rw [← hw, List.map_map]
      refine List.map_congr_left fun v hv => ?_
      obtain ⟨w, hw'⟩ := hg v hv
      simp [hw']
    exact (List.map_inj_right fun _ _ h => Option.some.inj h).mp this
  rw [← e]
  exact h2

theorem step_int (d : Int) (x : UAtom) (t : ITy) (n : Int) (hxv : x.val = some (t.val n))
    (h : (t = .i32 ∧ ITy.i32.has n ∧ ITy.i32.has (n + d)) ∨ (t = .u64 ∧ ITy.u64.has n)) : ∃ u, Expr.step1 d x .fresh = some u ∧ u.val = some (t.val (n + d)) := by
  rcases h with ⟨rfl, h1, h2⟩ | ⟨rfl, h1⟩
  · have ht : x.tag = 105 := tag_of_val hxv
    have hi := (getU_val .i32 .i32 x n h1 hxv).1
    rw [ITy.conv_self .i32 n h1] at hi
    obtain ⟨u, g1, g2⟩ := setU_fresh .i32 (n + d)
    refine ⟨u, ?_, g2⟩
    simp only [getU, setU] at hi g1
    have : i32 (n + d) = some (n + d) := i32_some (by simpa [ITy.has, ITy.signed, ITy.width] using h2)
    simp only [Expr.step1, ht, if_true, hi, Option.bind_some, this, g1]
  · have ht : x.tag = 72 := tag_of_val hxv
    have hi := (getU_val .u64 .u64 x n h1 hxv).1
    rw [ITy.conv_self .u64 n h1] at hi
    obtain ⟨u, g1, g2⟩ := setU_fresh .u64 (castU M64 (n + d))
    refine ⟨u, ?_, ?_⟩
    · simp only [getU, setU] at hi g1
      simp only [Expr.step1, ht, hi, Option.bind_some]
      exact g1
    · rw [g2]
      congr 1
      exact val_congr _ (castU_mod (Nat.dvd_refl M64) _)

theorem fnOk_step (d : Int) : FnOk (addConst d) (map1 (step1 d)) := fnOk_each (op := Expr.step1 d) (fun _ => rfl) fun x v w hx hw => by
  simp only [step1] at hw
  split at hw
  · rename_i t n hn
    obtain ⟨g1, rfl⟩ := asInt_spec hn
    split at hw
    · rename_i hc
      simp only [Option.some.injEq] at hw
      subst hw
      refine step_int d x t n hx ?_
      rcases hc with ⟨rfl, hc⟩ | rfl
      · exact .inl ⟨rfl, g1, hc⟩
      · exact .inr ⟨rfl, g1⟩
    · cases hw
  · split at hw
    · rename_i tag b _
      split at hw
      · rename_i ht; subst ht
        obtain ⟨u, z, h1, h2, h3⟩ := (C63_step x d b).1 hx
        refine ⟨u, h1, dbl_val h2 ?_⟩
        rw [(C63_unique _ _ z _).1 (h3 _ (ofInt_intDouble d)) (Fp.sum_of f64 (by decide) _ _)]
        exact hw
      · split at hw
        · rename_i ht; subst ht
          obtain ⟨h1, -, h2⟩ := num_raw hx
          have hg := Fp.good_add f32 (by decide) (Fp.ofBits f32 b) (Fp.ofInt f32 d)
          have hlt : Fp.toBits f32 (Fp.add f32 (Fp.ofBits f32 b) (Fp.ofInt f32 d)) < 2 ^ 32 := Fp.toBits_lt f32 (by decide) (by decide) _ hg
          obtain ⟨-, rfl⟩ := flt_some hw
          obtain ⟨u, g1, g2⟩ := setFloat_fresh (Fp.toBits f32 (Fp.add f32 (Fp.ofBits f32 b) (Fp.ofInt f32 d)))
          refine ⟨u, ?_, by rw [g2, Nat.mod_eq_of_lt hlt]⟩
          rw [← g1, h2 rfl, Expr.step1, if_neg (by rw [h1]; decide), if_pos h1]
        · cases hw
    · cases hw

theorem fnOk_reverse : FnOk Expr.reverse (fun1 List.reverse) := fnOk_fun1 fun a vs h hs => C34_reverse a [] vs h (copies hs)
theorem fnOk_first : FnOk Expr.first (fun1 (List.take 1)) := fnOk_fun1 fun a vs h hs => C34_first a [] vs h (copies hs)
theorem fnOk_last : FnOk Expr.last (fun1 (·.getLast?.toList)) := fnOk_fun1 fun a vs h hs => C34_last a [] vs h (copies hs)
theorem fnOk_rest : FnOk Expr.rest (fun1 List.tail) := fnOk_fun1 fun a vs h hs => C34_rest a [] vs h (copies hs)
theorem fnOk_butlast : FnOk Expr.butlast (fun1 List.dropLast) := fnOk_fun1 fun a vs h hs => C34_butlast a [] vs h (copies hs)
theorem fnOk_nonzero : FnOk Expr.nonzero (fun1 nonzero) := fnOk_fun1 fun a vs h _ => C34_nonzero a [] vs h
theorem fnOk_identity : FnOk Expr.identity (fun1 id) := fnOk_fun1 fun a vs h hs => by
  obtain ⟨a', h1, h2, -⟩ := copyAr_holds a vs h (copies hs)
  exact ⟨a', by simp [Expr.identity, h1], h2⟩

theorem flatten_simple {vss : List (List Val)} (h : ∀ vs ∈ vss, vs.all simple = true) : vss.flatten.all simple = true := by
  simp only [List.all_eq_true, List.mem_flatten] at h ⊢
  rintro v ⟨vs, h1, h2⟩
  exact h vs h1 v h2

theorem fnOk_list : FnOk Expr.list (fun vss => short vss.flatten) := by
  intro argv vss r hv hr
  obtain ⟨hr, hs⟩ := checked_some hr
  obtain ⟨h1, h2⟩ := holdS_all hv
  simp only [short] at hr
  split at hr
  · rename_i hl
    simp only [Option.some.injEq] at hr
    subst hr
    obtain ⟨out, k1, k2⟩ := C34_list argv vss h1 (copies (flatten_simple h2)) hl
    exact ⟨0, out, k1, rfl, k2, hs _ rfl⟩
  · cases hr

theorem fnOk_length : FnOk Expr.length
    (fun vss => if vss.flatten.length < 2147483648 then some (.ok [ITy.i32.val vss.flatten.length]) else none) := by
  intro argv vss r hv hr
  obtain ⟨hr, hs⟩ := checked_some hr
  obtain ⟨h1, h2⟩ := holdS_all hv
  simp only at hr
  split at hr
  · rename_i hl
    simp only [Option.some.injEq] at hr
    subst hr
    obtain ⟨out, k1, k2⟩ := C34_length argv vss h1 hl
    exact ⟨0, out, k1, rfl, k2, hs _ rfl⟩
  · cases hr

theorem asInts_spec {l : List Val} {ixs : List (ITy × Int)} (h : l.mapM asInt = some ixs) :
    l = ixs.map (fun x => x.1.val x.2) ∧ ∀ x ∈ ixs, x.1.has x.2 := by
  have h := (mapM_some_iff _ _ _).mp h
  induction l generalizing ixs with
  | nil => cases ixs with
    | nil => exact ⟨rfl, by simp⟩
    | cons _ _ => simp at h
  | cons v l ih =>
    cases ixs with
    | nil => simp at h
    | cons x ixs =>
      simp only [List.map_cons, List.cons.injEq] at h
      obtain ⟨k1, k2⟩ := ih ((mapM_some_iff _ _ _).mpr h.2) h.2
      obtain ⟨g1, g2⟩ := asInt_spec (t := x.1) (n := x.2) h.1
      exact ⟨by rw [List.map_cons, ← k1, ← g2], fun y hy => by
        rcases List.mem_cons.mp hy with rfl | hy
        · exact g1
        · exact k2 y hy⟩

theorem simple_notOneBlob {vs : List Val} (h : vs.all simple = true) : NotOneBlob vs := by
  unfold NotOneBlob
  split
  · simp [simple] at h
  · trivial

theorem fnOk_nth : FnOk Expr.nth nth := by
  intro argv vss r hv hr
  obtain ⟨hr, hs⟩ := checked_some hr
  match vss, hv, hr with
  | [], hv, hr => simp [nth] at hr
  | vs :: iss, hv, hr =>
    obtain ⟨a, as, rfl, h1, h2, h3⟩ := holdS_cons hv
    obtain ⟨h4, -⟩ := holdS_all h3
    simp only [nth] at hr
    split at hr
    · cases hr
    · rename_i ixs hi
      obtain ⟨e1, e2⟩ := asInts_spec hi
      split at hr
      · rename_i hl
        obtain ⟨k1, k2⟩ := C34_nth_partial a as vs iss ixs h1 (simple_notOneBlob h2) (copies h2) h4 e1 e2 hl
        split at hr
        · rename_i hall
          simp only [Option.some.injEq] at hr
          subst hr
          obtain ⟨out, g1, g2⟩ := k1 hall
          exact ⟨0, out, g1, rfl, g2, hs _ rfl⟩
        · rename_i hall
          simp only [Option.some.injEq] at hr
          subst hr
          refine ⟨1, none, k2 ?_, by decide, rfl⟩
          simpa using hall
      · cases hr

theorem fnOk_nfill : FnOk Expr.nfill nfill := by
  intro argv vss r hv hr
  obtain ⟨hr, hs⟩ := checked_some hr
  match vss, hv, hr with
  | [v :: more, vs], hv, hr =>
    obtain ⟨a, as, rfl, h1, h2, h3⟩ := holdS_cons hv
    obtain ⟨b, bs, rfl, h4, h5, h6⟩ := holdS_cons h3
    simp only [nfill] at hr
    split at hr
    · rename_i t n ha
      obtain ⟨g1, rfl⟩ := asInt_spec ha
      split at hr
      · rename_i hl
        simp only [Option.some.injEq] at hr
        subst hr
        obtain ⟨out, k1, k2⟩ := C34_nfill a b bs t n g1 more vs h1 h4 (copies h5) hl
        exact ⟨0, out, k1, rfl, k2, hs _ rfl⟩
      · cases hr
    · cases hr

theorem fnOk_interleave : FnOk Expr.interleave interleave := by
  intro argv vss r hv hr
  obtain ⟨hr, hs⟩ := checked_some hr
  match vss, hv, hr with
  | [], hv, hr => simp [interleave] at hr
  | vs :: vss, hv, hr =>
    have hall := (holdS_all hv).2
    obtain ⟨a, as, rfl, h1, h2, h3⟩ := holdS_cons hv
    obtain ⟨h4, -⟩ := holdS_all h3
    simp only [interleave] at hr
    split at hr
    · rename_i hl
      simp only [Option.some.injEq] at hr
      subst hr
      obtain ⟨out, k1, k2⟩ := C34_interleave a as vs vss h1 h4 (fun ws hw => copies (hall ws hw)) _ rfl hl
      exact ⟨0, out, k1, rfl, k2, hs _ rfl⟩
    · cases hr

theorem fnOk_prog1 : FnOk Expr.prog1 (fun vss => vss.head?.map .ok) := by
  intro argv vss r hv hr
  obtain ⟨hr, hs⟩ := checked_some hr
  match vss, hv, hr with
  | [], hv, hr => simp at hr
  | vs :: vss, hv, hr =>
    obtain ⟨a, as, rfl, h1, h2, h3⟩ := holdS_cons hv
    simp only [List.head?_cons, Option.map_some, Option.some.injEq] at hr
    subst hr
    obtain ⟨a', k1, k2, -⟩ := copyAr_holds a vs h1 (copies h2)
    exact ⟨0, a', by simp [Expr.prog1, k1], rfl, k2, h2⟩

theorem fnOk_prog2 : FnOk Expr.prog2 (fun | _ :: vs :: _ => some (.ok vs) | [_] => some (.error 1) | _ => none) := by
  intro argv vss r hv hr
  obtain ⟨hr, hs⟩ := checked_some hr
  match vss, hv, hr with
  | [], hv, hr => simp at hr
  | [vs], hv, hr =>
    obtain ⟨a, as, rfl, h1, h2, h3⟩ := holdS_cons hv
    rw [holdS_nil h3]
    simp only [Option.some.injEq] at hr
    subst hr
    exact ⟨1, none, rfl, by decide, rfl⟩
  | vs :: ws :: vss, hv, hr =>
    obtain ⟨a, as, rfl, h1, h2, h3⟩ := holdS_cons hv
    obtain ⟨b, bs, rfl, h4, h5, h6⟩ := holdS_cons h3
    simp only [Option.some.injEq] at hr
    subst hr
    obtain ⟨a', k1, k2, -⟩ := copyAr_holds b ws h4 (copies h5)
    exact ⟨0, a', by simp [Expr.prog2, k1], rfl, k2, h5⟩

theorem holdS_last : ∀ {argv : List Ar} {vss : List (List Val)} {vs : List Val}, HoldS argv vss → vss.getLast? = some vs →
    ∃ a, argv.getLast? = some a ∧ Holds a vs ∧ vs.all simple = true
  | argv, [], vs, hv, hl => by simp at hl
  | argv, [ws], vs, hv, hl => by
    obtain ⟨a, as, rfl, h1, h2, h3⟩ := holdS_cons hv
    rw [holdS_nil h3]
    simp only [List.getLast?_singleton, Option.some.injEq] at hl
    subst hl
    exact ⟨a, rfl, h1, h2⟩
  | argv, ws :: us :: vss, vs, hv, hl => by
    obtain ⟨a, as, rfl, h1, h2, h3⟩ := holdS_cons hv
    obtain ⟨b, bs, rfl, -⟩ := holdS_cons h3
    rw [List.getLast?_cons_cons] at hl ⊢
    exact holdS_last h3 hl

theorem fnOk_progn : FnOk Expr.progn (fun vss => vss.getLast?.map .ok) := by
  intro argv vss r hv hr
  obtain ⟨hr, hs⟩ := checked_some hr
  simp only [Option.map_eq_some_iff] at hr
  obtain ⟨vs, hl, rfl⟩ := hr
  obtain ⟨a, h1, h2, h3⟩ := holdS_last hv hl
  obtain ⟨a', k1, k2, -⟩ := copyAr_holds a vs h2 (copies h3)
  exact ⟨0, a', by simp [Expr.progn, h1, k1], rfl, k2, h3⟩

end Libo.Sem
