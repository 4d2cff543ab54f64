import Verif.Props.ExprCast
import Verif.Props.ExprRound
import Verif.Props.ExprCum
import Verif.Props.TimeSeconds
/-!
# C57: casts to floating point
-/

namespace Libo.Props
open Libo Libo.Expr Libo.Text Libo.Ieee

/-- A `double` rounded to a `float`: units of 2^-1074 and of 2^-149. -/
inductive Narrowed : Fp → Fp → Prop
  | nan : Narrowed .nan .nan
  | inf (s : Bool) : Narrowed (.inf s) (.inf s)
  | fin (s : Bool) (m : Nat) (x : Fp) : Rounded f32 s (m * 2 ^ 149) (2 ^ 1074) x → Narrowed (.fin s m) x

/-- An integer rounded to a `float`. -/
def IntSingle (n : Int) (x : Fp) : Prop := Rounded f32 (decide (n < 0)) (n.natAbs * 2 ^ 149) 1 x

/-- The `float` that a value stands for. -/
inductive IsSingle : Val → Fp → Prop
  | float (b : Nat) : IsSingle (.num 102 b) (Fp.ofBits f32 b)
  | double (b : Nat) (x : Fp) : Narrowed (Fp.ofBits f64 b) x → IsSingle (.num 100 b) x
  | int (t : ITy) (n : Int) (x : Fp) : t.has n → IntSingle n x → IsSingle (t.val n) x
  | bool (p : Bool) (x : Fp) : IntSingle (if p then 1 else 0) x → IsSingle (boolVal p) x

theorem narrowed_conv {x y : Fp} (h : Narrowed x y) : Fp.conv f64 f32 x = y := by
  cases h with
  | nan => rfl
  | inf s => rfl
  | fin s m y h =>
    exact Fp.rounded_unique f32 s _ _ (Nat.two_pow_pos _) _ _ (Fp.finish_rounded f32 (by decide) s _ _ (Nat.two_pow_pos _)) h

theorem intSingle_eq {n : Int} {x : Fp} (h : IntSingle n x) : Fp.ofInt f32 n = x :=
  Fp.rounded_unique f32 _ _ 1 (by decide) _ _ (Fp.finish_rounded f32 (by decide) _ _ 1 (by decide)) h

theorem getFp32_int (t : ITy) (n : Int) (hn : t.has n) (a : UAtom) (h : a.val = some (t.val n)) : getFp32 a = some (Fp.ofInt f32 n) := by
  obtain ⟨tag, al, w⟩ := a
  obtain ⟨rfl, hw⟩ := raw_mod t tag al w n h
  have hm := member_eq t w n hn hw
  cases t <;> simp only [member] at hm <;> simp [getFp32, UAtom.tag, ITy.tag, UAtom.w, hm]

/-- The getter for `float`s gives what the value stands for. -/
theorem getFp32_val (a : UAtom) (v : Val) (x : Fp) (ha : a.val = some v) (hv : IsSingle v x) : getFp32 a = some x ∧ Fp.Good f32 x := by
  cases hv with
  | float b =>
    obtain ⟨h1, -, h2⟩ := num_raw ha
    rw [h2 rfl, getFp32, if_pos h1]
    exact ⟨rfl, Fp.ofBits_good f32 (by decide) _⟩
  | double b x hx =>
    obtain ⟨h1, h2, -⟩ := num_raw ha
    rw [getFp32, if_neg (by rw [h1]; decide), if_pos h1, ← h2 rfl, narrowed_conv hx]
    refine ⟨rfl, ?_⟩
    revert hx
    generalize Fp.ofBits f64 b = z
    intro hx
    cases hx with
    | nan => trivial
    | inf s => trivial
    | fin s m y h => exact rounded_good f32 _ _ _ x h
  | int t n x hn hx => exact ⟨by rw [getFp32_int t n hn a ha, intSingle_eq hx], rounded_good f32 _ _ _ x hx⟩
  | bool p x hx =>
    have ht := bare_tag ha
    refine ⟨?_, rounded_good f32 _ _ _ x hx⟩
    rw [← intSingle_eq hx]
    cases p <;> simp [getFp32, ht]

/-- **C57**: a cast to `double` gives, for every number, the `double` nearest to it (a tie goes to the even one), and the same number if it is a
`float` or `double`. -/
theorem C57_float64 (P : Printf) (a : Ar) (rest : List Ar) (vs : List Val) (xs : List Fp) (ha : Holds a vs) (hl : vs.length = xs.length)
    (h : ∀ (i : Nat) v x, vs[i]? = some v → xs[i]? = some x → IsDouble v x) :
    ∃ (out : List UAtom) (ws : List Val), explicitCast P .float64 (a :: rest) = some (0, some out) ∧ Holds (some out) ws ∧ ws.length = xs.length ∧
      ∀ (i : Nat) w x, ws[i]? = some w → xs[i]? = some x → NumVal w x := by
  obtain ⟨out, h1, h2⟩ := explicitCast_ok P .float64 a rest vs (xs.map fun x => .num 100 (Fp.toBits f64 x)) ha (by simpa using hl) (by
    intro i y v w hy hv hw
    rw [List.getElem?_map, Option.map_eq_some_iff] at hw
    obtain ⟨x, hx, rfl⟩ := hw
    have hd := h i v x hv hx
    obtain ⟨u, v', g1, g2, b, g3, g4, g5⟩ := setDouble_num (isDouble_good v x hd)
    refine ⟨u, ?_, ?_⟩
    · simp [castAtom, castFp64, getFp_val y v x hy hd, g1]
    · rw [g2, g4]
      have : Fp.toBits f64 x < 2 ^ 64 := Fp.toBits_lt f64 (by decide) (by decide) x (isDouble_good v x hd)
      obtain ⟨u', k1, k2⟩ := setDouble_fresh (Fp.toBits f64 x)
      rw [g1] at k1; cases k1
      rw [g2, g4, Nat.mod_eq_of_lt this] at k2
      exact k2)
  refine ⟨out, _, h1, h2, by simp, ?_⟩
  intro i w x hw hx
  rw [List.getElem?_map, hx] at hw
  cases hw
  have hi : i < vs.length := by rw [hl]; exact (List.getElem?_eq_some_iff.mp hx).1
  have hg := isDouble_good _ x (h i vs[i] x (List.getElem?_eq_getElem hi) hx)
  exact ⟨_, Fp.toBits_lt f64 (by decide) (by decide) x hg, rfl, Fp.ofBits_toBits f64 (by decide) (by decide) x hg⟩

/-- **C57**: a cast to `float` gives, for every number, the `float` nearest to it (a tie goes to the even one). -/
theorem C57_float32 (P : Printf) (a : Ar) (rest : List Ar) (vs : List Val) (xs : List Fp) (ha : Holds a vs) (hl : vs.length = xs.length)
    (h : ∀ (i : Nat) v x, vs[i]? = some v → xs[i]? = some x → IsSingle v x) :
    ∃ (out : List UAtom) (bs : List Nat), explicitCast P .float32 (a :: rest) = some (0, some out) ∧ Holds (some out) (bs.map (.num 102 ·)) ∧
      (∀ b ∈ bs, b < 2 ^ 32) ∧ bs.map (Fp.ofBits f32) = xs := by
  have hg : ∀ x ∈ xs, Fp.Good f32 x := by
    intro x hx
    obtain ⟨i, hi, rfl⟩ := List.getElem_of_mem hx
    have hi' : i < vs.length := by omega
    obtain ⟨y, _, g2⟩ := holds_at ha (List.getElem?_eq_getElem hi')
    exact (getFp32_val y _ _ g2 (h i _ _ (List.getElem?_eq_getElem hi') (List.getElem?_eq_getElem hi))).2
  obtain ⟨out, h1, h2⟩ := explicitCast_ok P .float32 a rest vs (xs.map fun x => .num 102 (Fp.toBits f32 x)) ha (by simpa using hl) (by
    intro i y v w hy hv hw
    rw [List.getElem?_map, Option.map_eq_some_iff] at hw
    obtain ⟨x, hx, rfl⟩ := hw
    obtain ⟨k1, k2⟩ := getFp32_val y v x hy (h i v x hv hx)
    obtain ⟨u, g1, g2⟩ := setFloat_num k2
    exact ⟨u, by simp [castAtom, castFp32, k1, g1], g2⟩)
  refine ⟨out, xs.map (Fp.toBits f32), h1, by rw [List.map_map]; exact h2, ?_, ?_⟩
  · intro b hb
    obtain ⟨x, hx, rfl⟩ := List.mem_map.mp hb
    exact Fp.toBits_lt f32 (by decide) (by decide) x (hg x hx)
  · rw [List.map_map]
    refine (List.map_congr_left fun x hx => ?_).trans (List.map_id xs)
    exact Fp.ofBits_toBits f32 (by decide) (by decide) x (hg x hx)

set_option maxRecDepth 20000 in
set_option exponentiation.threshold 3000 in
/-- Non-vacuity: 16777217 = 2^24 + 1 is a `double` but not a `float`. -/
example : (∃ (out : List UAtom) (ws : List Val), explicitCast exP .float64 [some [.mk 105 false (.bits 16777217)]] = some (0, some out) ∧
      Holds (some out) ws ∧ ws.length = 1 ∧ ∀ (i : Nat) w x, ws[i]? = some w → [Fp.fin false (16777217 * 2 ^ 1074)][i]? = some x → NumVal w x) ∧
    (∃ (out : List UAtom) (bs : List Nat), explicitCast exP .float32 [some [.mk 105 false (.bits 16777217)]] = some (0, some out) ∧
      Holds (some out) (bs.map (.num 102 ·)) ∧ (∀ b ∈ bs, b < 2 ^ 32) ∧ bs.map (Fp.ofBits f32) = [Fp.fin false (16777216 * 2 ^ 149)]) := by
  constructor
  · refine C57_float64 exP _ [] [.num 105 16777217] [_] rfl rfl ?_
    intro i v x hv hx
    match i with
    | 0 =>
      cases hv; cases hx
      have e : Fp.ofInt f64 16777217 = .fin false (16777217 * 2 ^ 1074) := by decide +kernel
      exact .int .i32 16777217 _ (by simp [ITy.has, ITy.signed, ITy.width]) (e ▸ ofInt_intDouble 16777217)
    | i + 1 => simp at hv
  · refine C57_float32 exP _ [] [.num 105 16777217] [_] rfl rfl ?_
    intro i v x hv hx
    match i with
    | 0 =>
      cases hv; cases hx
      have e : Fp.ofInt f32 16777217 = .fin false (16777216 * 2 ^ 149) := by decide +kernel
      refine .int .i32 16777217 _ (by simp [ITy.has, ITy.signed, ITy.width]) ?_
      rw [← e]
      exact Fp.finish_rounded f32 (by decide) _ _ 1 (by decide)
    | i + 1 => simp at hv

set_option maxRecDepth 20000 in
set_option exponentiation.threshold 3000 in
/-- **C57**: a cast of time tags to `double` gives their seconds, exactly for whole seconds and otherwise up to 2^-19 seconds. -/
theorem C57_float64_time (P : Printf) (a : Ar) (rest : List Ar) (ts : List (Nat × Nat)) (ha : Holds a (ts.map fun t => .time t.1 t.2)) :
    ∃ (out : List UAtom) (ws : List Val), explicitCast P .float64 (a :: rest) = some (0, some out) ∧ Holds (some out) ws ∧ ws.length = ts.length ∧
      ∀ (i : Nat) w t, ws[i]? = some w → ts[i]? = some t → ∃ v, NumVal w (.fin false v) ∧
        v < (t.1 * 2 ^ 32 + t.2) * 2 ^ 1042 + 2 ^ 1055 ∧ (t.1 * 2 ^ 32 + t.2) * 2 ^ 1042 < v + 2 ^ 1055 ∧ (t.2 = 0 → v = t.1 * 2 ^ 1074) := by
  have good : ∀ t, Fp.Good f64 (timeToFp t) := fun t => by
    obtain ⟨x, g1, g2, -⟩ := timeToFp_spec t
    rw [g1]; exact g2
  let tt : Nat × Nat → Timetag := fun t => ⟨UInt32.ofNat t.1, UInt32.ofNat t.2⟩
  have eq : ∀ (y : UAtom) (t : Nat × Nat), y.val = some (.time t.1 t.2) → timeOf y = tt t ∧ y.tag = 116 := by
    intro y t hy
    obtain ⟨h1, h2, h3⟩ := time_of_val hy
    refine ⟨?_, h1⟩
    have e1 : (timeOf y).sec = UInt32.ofNat t.1 := by rw [← h2]; simp
    have e2 : (timeOf y).frac = UInt32.ofNat t.2 := by rw [← h3]; simp
    calc timeOf y = ⟨(timeOf y).sec, (timeOf y).frac⟩ := rfl
      _ = tt t := by rw [e1, e2]
  obtain ⟨out, h1, h2⟩ := explicitCast_ok P .float64 a rest _ (ts.map fun t => .num 100 (Fp.toBits f64 (timeToFp (tt t)))) ha (by simp) (by
    intro i y v w hy hv hw
    rw [List.getElem?_map, Option.map_eq_some_iff] at hv hw
    obtain ⟨t, ht, rfl⟩ := hw
    obtain ⟨t', ht', rfl⟩ := hv
    rw [ht] at ht'; cases ht'
    obtain ⟨e1, e2⟩ := eq y t hy
    have hlt : Fp.toBits f64 (timeToFp (tt t)) < 2 ^ 64 := Fp.toBits_lt f64 (by decide) (by decide) _ (good _)
    obtain ⟨u, k1, k2⟩ := setDouble_fresh (Fp.toBits f64 (timeToFp (tt t)))
    rw [Nat.mod_eq_of_lt hlt] at k2
    refine ⟨u, ?_, k2⟩
    have hget : getFp y = some (timeToFp (tt t)) := by rw [← e1]; simp [getFp, e2]
    simp [castAtom, castFp64, hget, k1])
  refine ⟨out, _, h1, h2, by simp, ?_⟩
  intro i w t hw ht
  rw [List.getElem?_map, ht] at hw
  cases hw
  obtain ⟨y, hy0, hy⟩ := holds_at ha (i := i) (v := .time t.1 t.2) (by rw [List.getElem?_map, ht]; rfl)
  obtain ⟨e1, -⟩ := eq y t hy
  obtain ⟨-, s1, s2⟩ := time_of_val hy
  rw [e1] at s1 s2
  obtain ⟨x, g1, g2, g3, g4, g5, -⟩ := timeToFp_spec (tt t)
  rw [ttValue, s1, s2] at g3 g4
  rw [s1, s2] at g5
  refine ⟨x, ⟨_, Fp.toBits_lt f64 (by decide) (by decide) _ (good _), rfl, ?_⟩, g3, g4, g5⟩
  rw [← g1]
  exact Fp.ofBits_toBits f64 (by decide) (by decide) _ (good _)

-- 5.5 seconds and 7 seconds
example : Holds (some [.mk 116 false (.bits (2147483648 * 2 ^ 32 + 5)), .mk 116 false (.bits 7)]) ([(5, 2147483648), (7, 0)].map fun t => .time t.1 t.2) := rfl

end Libo.Props
