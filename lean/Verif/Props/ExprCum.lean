import Verif.ExprMat
import Verif.Props.ExprSort
import Verif.Props.ExprBits
/-!
# C71: running sums and vector products
-/

namespace Libo.Props
open Libo Libo.Expr Libo.Ieee
open Libo.Sem (mapM_some_iff argsVal_map)

/-! ## Specification -/

/-- The sum of the first `k` numbers. -/
def sumTo (l : List (ITy × Int)) (k : Nat) : Int := ((l.take k).map (·.2)).sum

/-- The largest type that occurs. -/
def Largest (t : ITy) (l : List (ITy × Int)) : Prop := t ∈ l.map (·.1) ∧ ∀ p ∈ l, ITy.le p.1 t

/-- The types in which an overflow is undefined. -/
def Checked (t : ITy) : Prop := t = .i32 ∨ t = .i64

/-! ## One type at a time -/

theorem forN_none {σ : Type} (P : Nat → σ → Prop) (f : Nat → σ → Option σ) (n k : Nat) (s : σ) (hk : k < n) (h0 : P 0 s)
    (hs : ∀ i s, i < k → P i s → ∃ s', f i s = some s' ∧ P (i + 1) s') (hf : ∀ s, P k s → f k s = none) : forN n f s = none := by
  obtain ⟨s1, h1, h2⟩ := forN_inv P f k s h0 hs
  obtain ⟨d, rfl⟩ : ∃ d, n = k + 1 + d := ⟨n - k - 1, by omega⟩
  unfold forN at h1 ⊢
  rw [List.range_add, List.foldlM_append, List.range_succ, List.foldlM_append, h1]
  simp [hf s1 h2]

/-- The loop over one list: what is in memory after every round. -/
theorem cum_inv {A : Arith} {a : Ar} {ws : List Val} {n : Nat} (acc : Nat → A.α) (h0 : acc 0 = A.zero) (m : Nat) (hn : n = ws.length)
    (hs : ∀ k, k < m → ∃ x u w, (at? a k).bind A.get = some x ∧ A.add (acc k) x = some (acc (k + 1)) ∧ A.put (acc (k + 1)) .fresh = some u ∧
      ws[k]? = some w ∧ u.val = some w) :
    ∀ (i : Nat) (s : List UAtom × Nat × A.α), i < m → (Filled s.1 (ws.take i) n ∧ s.2.1 = i ∧ s.2.2 = acc i) →
      ∃ s', (((at? a i).bind A.get).bind fun x => (A.add s.2.2 x).bind fun y => (setTo s.1 s.2.1 (A.put y)).map fun out => (out, s.2.1 + 1, y)) = some s' ∧
        (Filled s'.1 (ws.take (i + 1)) n ∧ s'.2.1 = i + 1 ∧ s'.2.2 = acc (i + 1)) := by
  rintro i ⟨out, c, y⟩ hi ⟨h1, h2, h3⟩
  simp only at h1 h2 h3
  subst h2 h3
  obtain ⟨x, u, w, k1, k2, k3, k4, k5⟩ := hs c hi
  have hc : c < ws.length := (List.getElem?_eq_some_iff.mp k4).1
  have hl : (ws.take c).length = c := by rw [List.length_take]; omega
  obtain ⟨out', f1, f2⟩ := filled_set h1 (by rw [hl, hn]; exact hc) k3 k5
  rw [hl] at f1
  refine ⟨(out', c + 1, acc (c + 1)), ?_, ?_, rfl, rfl⟩
  · simp only [k1, Option.bind_some, k2, f1, Option.map_some]
  · rw [List.take_add_one, k4]; exact f2

theorem cum_spec {A : Arith} {a : Ar} {ws : List Val} (acc : Nat → A.α) (h0 : acc 0 = A.zero) (hn : len a = ws.length)
    (hs : ∀ k, k < ws.length → ∃ x u w, (at? a k).bind A.get = some x ∧ A.add (acc k) x = some (acc (k + 1)) ∧ A.put (acc (k + 1)) .fresh = some u ∧
      ws[k]? = some w ∧ u.val = some w) : ∃ out, cumLoop A (len a) [a] = some out ∧ Holds (some out) ws := by
  obtain ⟨s, h1, h2, -, -⟩ := forN_inv (fun i (s : List UAtom × Nat × A.α) => Filled s.1 (ws.take i) ws.length ∧ s.2.1 = i ∧ s.2.2 = acc i) _ ws.length
    (mk ws.length, 0, A.zero) ⟨by rw [List.take_zero]; exact filled_new _, rfl, h0.symm⟩ (cum_inv acc h0 ws.length rfl hs)
  refine ⟨s.1, ?_, filled_all (by rw [List.take_length] at h2; exact h2)⟩
  simp only [cumLoop, foldAll, List.foldlM_cons, List.foldlM_nil, hn, h1]
  rfl

theorem cum_none {A : Arith} {a : Ar} {ws : List Val} (acc : Nat → A.α) (h0 : acc 0 = A.zero) (hn : len a = ws.length) (m : Nat) (hm : m < ws.length)
    (hs : ∀ k, k < m → ∃ x u w, (at? a k).bind A.get = some x ∧ A.add (acc k) x = some (acc (k + 1)) ∧ A.put (acc (k + 1)) .fresh = some u ∧
      ws[k]? = some w ∧ u.val = some w) (hf : ∃ x, (at? a m).bind A.get = some x ∧ A.add (acc m) x = none) : cumLoop A (len a) [a] = none := by
  have := forN_none (fun i (s : List UAtom × Nat × A.α) => Filled s.1 (ws.take i) ws.length ∧ s.2.1 = i ∧ s.2.2 = acc i) _ ws.length m
    (mk ws.length, 0, A.zero) hm ⟨by rw [List.take_zero]; exact filled_new _, rfl, h0.symm⟩ (cum_inv acc h0 m rfl hs) (by
      rintro ⟨out, c, y⟩ ⟨-, h2, h3⟩
      simp only at h2 h3
      obtain ⟨x, f1, f2⟩ := hf
      simp only [f1, Option.bind_some, h3, f2]
      rfl)
  simp only [cumLoop, foldAll, List.foldlM_cons, List.foldlM_nil, hn, this]
  rfl

/-! ## Integers -/

theorem conv_congr (t : ITy) {m n : Int} (h : m % (2 ^ t.width : Nat) = n % (2 ^ t.width : Nat)) : t.conv m = t.conv n := by
  cases t <;> simp [ITy.conv, ITy.signed, ITy.width, Int.bmod] at h ⊢ <;> omega

theorem conv_add (t : ITy) (m n : Int) : t.conv (t.conv m + t.conv n) = t.conv (m + n) := by
  apply conv_congr
  rw [Int.add_emod, conv_mod, conv_mod, ← Int.add_emod]

theorem sumTo_succ (l : List (ITy × Int)) (k : Nat) (p : ITy × Int) (h : l[k]? = some p) : sumTo l (k + 1) = sumTo l k + p.2 := by
  rw [sumTo, List.take_add_one, h, sumTo]
  simp

/-- The results. -/
def sumVals (t : ITy) (l : List (ITy × Int)) : List Val := (List.range l.length).map fun k => t.val (sumTo l (k + 1))

theorem cum_round {t : ITy} {l : List (ITy × Int)} {a : Ar} (h : Holds a (intVals l)) (hl : ∀ p ∈ l, p.1.has p.2) (add : Int → Int → Option Int)
    (k : Nat) (hk : k < l.length) (ha : ∀ p, l[k]? = some p → add (t.conv (sumTo l k)) (t.conv p.2) = some (t.conv (sumTo l (k + 1)))) :
    ∃ x u w, (at? a k).bind (getU t) = some x ∧ add (t.conv (sumTo l k)) x = some (t.conv (sumTo l (k + 1))) ∧
      setU t .fresh (t.conv (sumTo l (k + 1))) = some u ∧ (sumVals t l)[k]? = some w ∧ u.val = some w := by
  have hp : l[k]? = some l[k] := List.getElem?_eq_getElem hk
  obtain ⟨x, h1, h2⟩ := holds_at h (i := k) (v := l[k].1.val l[k].2) (by simp [intVals, hp])
  obtain ⟨u, h3, h4⟩ := setU_fresh t (t.conv (sumTo l (k + 1)))
  refine ⟨_, u, t.val (sumTo l (k + 1)), ?_, ha _ hp, h3, by simp [sumVals, hk], ?_⟩
  · rw [h1, Option.bind_some, (getU_val _ t x _ (hl _ (List.getElem_mem hk)) h2).1]
  · rw [h4, val_congr t (conv_mod t _)]

theorem cum_ints {t : ITy} {l : List (ITy × Int)} {a : Ar} (h : Holds a (intVals l)) (hl : ∀ p ∈ l, p.1.has p.2) (add sub mul : Int → Int → Option Int)
    (ha : ∀ k p, l[k]? = some p → add (t.conv (sumTo l k)) (t.conv p.2) = some (t.conv (sumTo l (k + 1)))) :
    ∃ out, cumLoop ⟨Int, 0, getU t, add, sub, mul, fun x a => setU t a x⟩ (len a) [a] = some out ∧ Holds (some out) (sumVals t l) := by
  have hc : len a = (sumVals t l).length := by rw [holds_len h]; simp [sumVals, intVals]
  refine cum_spec (A := ⟨Int, 0, getU t, add, sub, mul, fun x a => setU t a x⟩) (fun k => t.conv (sumTo l k)) ?_ hc ?_
  · cases t <;> rfl
  · intro k hk
    exact cum_round h hl add k (by simpa [sumVals] using hk) (ha k)

theorem i32_fits {n : Int} (h : ITy.i32.has n) : Libo.i32 n = some n := by
  simp only [ITy.has, ITy.signed, ITy.width, if_true] at h
  rw [Libo.i32, if_pos (by omega)]

theorem i64_fits {n : Int} (h : ITy.i64.has n) : Expr.i64 n = some n := by
  simp only [ITy.has, ITy.signed, ITy.width, if_true] at h
  rw [Expr.i64, if_pos (by omega)]

theorem i32_none {n : Int} (h : ¬ ITy.i32.has n) : Libo.i32 n = none := by
  simp only [ITy.has, ITy.signed, ITy.width, if_true] at h
  rw [Libo.i32, if_neg (by omega)]

theorem i64_none {n : Int} (h : ¬ ITy.i64.has n) : Expr.i64 n = none := by
  simp only [ITy.has, ITy.signed, ITy.width, if_true] at h
  rw [Expr.i64, if_neg (by omega)]

theorem le_has {s t : ITy} (h : ITy.le s t) (ht : Checked t) {n : Int} (hn : s.has n) : t.has n := by
  rcases ht with rfl | rfl <;> cases s <;> simp [ITy.le, ITy.width, ITy.signed, ITy.has] at h hn ⊢ <;> omega

/-- The type of the sum of two small numbers. -/
theorem narrow_add {t : ITy} (ht : t.width < 32) (m n : Int) : (Libo.i32 (t.conv m + t.conv n)).map t.conv = some (t.conv (m + n)) := by
  have h1 := conv_has t m
  have h2 := conv_has t n
  have h3 : ITy.i32.has (t.conv m + t.conv n) := by
    generalize t.conv m = x at *
    generalize t.conv n = y at *
    cases t <;> simp [ITy.width, ITy.signed, ITy.has] at h1 h2 ht ⊢ <;> omega
  rw [i32_fits h3, Option.map_some, conv_add]

/-- Which constant is the largest. -/
theorem cumConst_le {s t : ITy} (h : ITy.le s t) : cumConst s.tag ≤ cumConst t.tag := by
  revert h
  cases s <;> cases t <;> simp [ITy.le, ITy.width, ITy.signed, ITy.tag, cumConst]

theorem cumType_const (t : ITy) : cumType (cumConst t.tag) = t.tag := by cases t <;> rfl

/-- The first loop counts the elements and finds the largest constant. -/
theorem cum_scan {a : Ar} {vs : List Val} (h : Holds a vs) (tags : List UInt8) (ht : tags.length = vs.length)
    (hv : ∀ (i : Nat) u t, at? a i = some u → tags[i]? = some t → u.tag = t) :
    foldAll (fun (s : Nat × Nat) a => (some (s.1 + 1, if cumConst (tagOf a) > s.2 then cumConst (tagOf a) else s.2))) (0, 0) [a] =
      some (len a, tags.foldl (fun m t => if cumConst t > m then cumConst t else m) 0) := by
  have hl := holds_len h
  obtain ⟨s, h1, h2⟩ := forN_inv (fun i (s : Nat × Nat) => s = (i, (tags.take i).foldl (fun m t => if cumConst t > m then cumConst t else m) 0))
    (fun i s => some (s.1 + 1, if cumConst (tagOf (at? a i)) > s.2 then cumConst (tagOf (at? a i)) else s.2)) (len a) (0, 0) rfl (by
      rintro i s hi rfl
      have hi' : i < vs.length := by omega
      have hi2 : i < tags.length := by omega
      obtain ⟨u, u1, u2⟩ := holds_at h (i := i) (v := vs[i]) (List.getElem?_eq_getElem hi')
      have := hv i u _ u1 (List.getElem?_eq_getElem hi2)
      refine ⟨_, rfl, ?_⟩
      have e : tagOf (at? a i) = tags[i] := by rw [u1]; exact this
      rw [List.take_add_one, List.getElem?_eq_getElem hi2, Option.toList_some, List.foldl_append, e]
      rfl)
  simp only [foldAll, List.foldlM_cons, List.foldlM_nil, h1]
  rw [h2, hl, ← ht, List.take_length]
  rfl

theorem fold_max {l : List UInt8} {m k : Nat} (hm : ∀ t ∈ l, cumConst t ≤ m) (hk : k ≤ m) (hex : k = m ∨ ∃ t ∈ l, cumConst t = m) :
    l.foldl (fun m t => if cumConst t > m then cumConst t else m) k = m := by
  induction l generalizing k with
  | nil => rcases hex with h | ⟨t, ht, -⟩
           · exact h
           · cases ht
  | cons t l ih =>
    rw [List.foldl_cons]
    have h1 := hm t (List.mem_cons_self ..)
    apply ih (fun x hx => hm x (List.mem_cons_of_mem _ hx)) (by split <;> omega)
    rcases hex with h | ⟨x, hx, h⟩
    · left; split <;> omega
    · rcases List.mem_cons.mp hx with rfl | hx
      · left; split <;> omega
      · exact .inr ⟨x, hx, h⟩

theorem cum_type {a : Ar} {l : List (ITy × Int)} {t : ITy} (h : Holds a (intVals l)) (ht : Largest t l) :
    foldAll (fun (s : Nat × Nat) a => (some (s.1 + 1, if cumConst (tagOf a) > s.2 then cumConst (tagOf a) else s.2))) (0, 0) [a] =
      some (len a, cumConst t.tag) := by
  rw [cum_scan h (l.map (·.1.tag)) (by simp [intVals])]
  · rw [fold_max (m := cumConst t.tag)]
    · intro x hx
      obtain ⟨p, hp, rfl⟩ := List.mem_map.mp hx
      exact cumConst_le (ht.2 p hp)
    · exact Nat.zero_le _
    · obtain ⟨p, hp, e⟩ := List.mem_map.mp ht.1
      exact .inr ⟨p.1.tag, List.mem_map.mpr ⟨p, hp, rfl⟩, by rw [e]⟩
  · intro i u t hu hi
    rw [List.getElem?_map] at hi
    cases hp : l[i]? with
    | none => rw [hp] at hi; cases hi
    | some p =>
      rw [hp] at hi; cases hi
      obtain ⟨x, h1, h2⟩ := holds_at h (i := i) (v := p.1.val p.2) (by simp [intVals, hp])
      rw [hu] at h1; cases h1
      exact val_tag h2

/-- **C71**: the running sums of a list of integers of several types have the largest of these types, and each one is the sum of the first numbers
in this type: reduced modulo two to the width for unsigned types and types narrower than 32 bits, while the other sums must fit. -/
theorem C71_cumsum (a : Ar) (l : List (ITy × Int)) (t : ITy) (h : Holds a (intVals l)) (hl : ∀ p ∈ l, p.1.has p.2) (ht : Largest t l)
    (hc : Checked t → ∀ k, k ≤ l.length → t.has (sumTo l k)) :
    ∃ out, cumsum [a] = some (0, some out) ∧ Holds (some out) ((List.range l.length).map fun k => t.val (sumTo l (k + 1))) := by
  have hs : ∀ k p, l[k]? = some p → sumTo l (k + 1) = sumTo l k + p.2 := fun k p => sumTo_succ l k p
  have fin : ∀ A, arithOf t.tag = some A → (∃ out, cumLoop A (len a) [a] = some out ∧ Holds (some out) (sumVals t l)) →
      ∃ out, cumsum [a] = some (0, some out) ∧ Holds (some out) ((List.range l.length).map fun k => t.val (sumTo l (k + 1))) := by
    rintro A hA ⟨out, h1, h2⟩
    refine ⟨out, ?_, h2⟩
    rw [cumsum, cum_type h ht]
    simp only [Option.bind_some, cumType_const, hA, h1, Option.map_some]
  have signed : Checked t → ∀ chk : Int → Option Int, (∀ n, t.has n → chk n = some n) → ∀ k p, l[k]? = some p →
      chk (t.conv (sumTo l k) + t.conv p.2) = some (t.conv (sumTo l (k + 1))) := by
    intro hct chk hchk k p hp
    have hk : k < l.length := (List.getElem?_eq_some_iff.mp hp).1
    have hm := List.mem_of_getElem? hp
    have h1 := hc hct k (by omega)
    have h2 := hc hct (k + 1) (by omega)
    rw [ITy.conv_self t _ h1, ITy.conv_self t _ (le_has (ht.2 p hm) hct (hl p hm)), ITy.conv_self t _ h2, ← hs k p hp]
    exact hchk _ h2
  cases t with
  | i8 => exact fin _ rfl (by
      have := cum_ints (t := .i8) h hl (fun x y => (Libo.i32 (x + y)).map (castS M8)) (fun x y => Libo.i32 (x - y)) (fun x y => Libo.i32 (x * y)) (by
        intro k p hp; rw [hs k p hp, ← narrow_add (by decide)]; exact congrArg (Option.map · _) (funext conv_i8).symm)
      exact this)
  | i16 => exact fin _ rfl (by
      have := cum_ints (t := .i16) h hl (fun x y => (Libo.i32 (x + y)).map (castS M16)) (fun x y => Libo.i32 (x - y)) (fun x y => Libo.i32 (x * y)) (by
        intro k p hp; rw [hs k p hp, ← narrow_add (by decide)]; exact congrArg (Option.map · _) (funext conv_i16).symm)
      exact this)
  | u8 => exact fin _ rfl (by
      have := cum_ints (t := .u8) h hl (fun x y => (Libo.i32 (x + y)).map (castU M8)) (fun x y => Libo.i32 (x - y)) (fun x y => Libo.i32 (x * y)) (by
        intro k p hp; rw [hs k p hp, ← narrow_add (by decide)]; exact congrArg (Option.map · _) (funext conv_u8).symm)
      exact this)
  | u16 => exact fin _ rfl (by
      have := cum_ints (t := .u16) h hl (fun x y => (Libo.i32 (x + y)).map (castU M16)) (fun x y => Libo.i32 (x - y)) (fun x y => Libo.i32 (x * y)) (by
        intro k p hp; rw [hs k p hp, ← narrow_add (by decide)]; exact congrArg (Option.map · _) (funext conv_u16).symm)
      exact this)
  | i32 => exact fin _ rfl (cum_ints (t := .i32) h hl _ _ _ (signed (.inl rfl) _ (fun _ => i32_fits)))
  | i64 => exact fin _ rfl (cum_ints (t := .i64) h hl _ _ _ (signed (.inr rfl) _ (fun _ => i64_fits)))
  | u32 => exact fin _ rfl (cum_ints (t := .u32) h hl (fun x y => some (castU M32 (x + y))) _ _ (by
      intro k p hp; rw [hs k p hp, ← conv_add, ← conv_u32]))
  | u64 => exact fin _ rfl (cum_ints (t := .u64) h hl (fun x y => some (castU M64 (x + y))) _ _ (by
      intro k p hp; rw [hs k p hp, ← conv_add, ← conv_u64]))

/-- **C71**: a sum that does not fit into the 32 or 64 bits of the type is undefined. -/
theorem C71_cumsum_overflow (a : Ar) (l : List (ITy × Int)) (t : ITy) (h : Holds a (intVals l)) (hl : ∀ p ∈ l, p.1.has p.2) (ht : Largest t l)
    (hc : Checked t) (hk : ∃ k, k ≤ l.length ∧ ¬ t.has (sumTo l k)) : cumsum [a] = none := by
  have hs : ∀ k p, l[k]? = some p → sumTo l (k + 1) = sumTo l k + p.2 := fun k p => sumTo_succ l k p
  have least : ∀ n, (∃ k, k ≤ n ∧ ¬ t.has (sumTo l k)) → ∃ m, m + 1 ≤ n ∧ ¬ t.has (sumTo l (m + 1)) ∧ ∀ j, j ≤ m → t.has (sumTo l j) := by
    intro n
    induction n with
    | zero =>
      rintro ⟨k, h1, h2⟩
      have : k = 0 := by omega
      subst this
      exact absurd (by rw [sumTo, List.take_zero]; rcases hc with rfl | rfl <;> exact ⟨by decide, by decide⟩) h2
    | succ n ih =>
      rintro ⟨k, h1, h2⟩
      by_cases hn : ∃ k, k ≤ n ∧ ¬ t.has (sumTo l k)
      · obtain ⟨m, i1, i2⟩ := ih hn
        exact ⟨m, by omega, i2⟩
      · refine ⟨n, Nat.le_refl _, ?_, fun j hj => Classical.byContradiction fun e => hn ⟨j, hj, e⟩⟩
        have : k = n + 1 := by
          by_cases e : k ≤ n
          · exact absurd ⟨k, e, h2⟩ hn
          · omega
        rw [← this]; exact h2
  obtain ⟨m, m1, m2, m3⟩ := least l.length hk
  have sm : ∀ k p, k ≤ m → l[k]? = some p → t.conv (sumTo l k) + t.conv p.2 = sumTo l (k + 1) := by
    intro k p hk hp
    have hm := List.mem_of_getElem? hp
    rw [ITy.conv_self t _ (m3 k hk), ITy.conv_self t _ (le_has (ht.2 p hm) hc (hl p hm)), ← hs k p hp]
  have fin : ∀ A, arithOf t.tag = some A → cumLoop A (len a) [a] = none → cumsum [a] = none := by
    intro A hA h1
    rw [cumsum, cum_type h ht]
    simp only [Option.bind_some, cumType_const, hA, h1, Option.map_none]
  have hp : l[m]? = some l[m] := List.getElem?_eq_getElem (by omega)
  have go : ∀ (chk : Int → Option Int) (sub mul : Int → Int → Option Int), (∀ n, t.has n → chk n = some n) → (∀ n, ¬ t.has n → chk n = none) →
      cumLoop ⟨Int, 0, getU t, fun x y => chk (x + y), sub, mul, fun x a => setU t a x⟩ (len a) [a] = none := by
    intro chk sub mul c1 c2
    have hlen : len a = (sumVals t l).length := by rw [holds_len h]; simp [sumVals, intVals]
    refine cum_none (A := ⟨Int, 0, getU t, fun x y => chk (x + y), sub, mul, fun x a => setU t a x⟩) (fun k => t.conv (sumTo l k))
      (by cases t <;> rfl) hlen m (by simp [sumVals]; omega) ?_ ?_
    · intro k hk
      refine cum_round h hl (fun x y => chk (x + y)) k (by omega) (fun p hp => ?_)
      rw [sm k p (by omega) hp, c1 _ (m3 (k + 1) (by omega)), ITy.conv_self t _ (m3 (k + 1) (by omega))]
    · obtain ⟨x, h1, h2⟩ := holds_at h (i := m) (v := l[m].1.val l[m].2) (by simp [intVals, hp])
      refine ⟨t.conv l[m].2, ?_, ?_⟩
      · rw [h1, Option.bind_some]
        exact (getU_val _ t x _ (hl _ (List.getElem_mem (by omega))) h2).1
      · show chk (t.conv (sumTo l m) + t.conv l[m].2) = none
        rw [sm m _ (Nat.le_refl _) hp, c2 _ m2]
  rcases hc with rfl | rfl
  · exact fin _ rfl (go Libo.i32 _ _ (fun _ => i32_fits) (fun _ => i32_none))
  · exact fin _ rfl (go Expr.i64 _ _ (fun _ => i64_fits) (fun _ => i64_none))

/-! ## Doubles -/

theorem holds_atom {a : Ar} {vs : List Val} (ha : Holds a vs) {v : Val} (hv : v ∈ vs) : ∃ u ∈ a.getD [], u.val = some v := by
  obtain ⟨i, hi, rfl⟩ := List.mem_iff_getElem.mp hv
  obtain ⟨u, h1, h2⟩ := holds_at ha (List.getElem?_eq_getElem hi)
  exact ⟨u, List.mem_of_getElem? h1, h2⟩

theorem cumConst_max (t : UInt8) : cumConst t ≤ 512 := by
  unfold cumConst
  repeat' split
  all_goals decide

/-- **C71**: the running sums of a list of numbers with a `double` among them are `double`s, every sum being the one before plus the next number
with correct rounding. -/
theorem C71_cumsum_double (a : Ar) (vs : List Val) (xs : List Fp) (b : Nat) (h : Holds a vs) (hx : Numbers vs xs) (hb : Val.num 100 b ∈ vs) :
    ∃ out ws, cumsum [a] = some (0, some out) ∧ Holds (some out) ws ∧ ws.length = xs.length ∧
      ∀ (k : Nat) w, ws[k]? = some w → ∃ r, NumVal w r ∧ Added (.fin false 0) (xs.take (k + 1)) r := by
  let acc : Nat → Fp := fun k => (xs.take k).foldl (Fp.add f64) (.fin false 0)
  have good : ∀ k, Fp.Good f64 (acc k) := fun k => added_good (added_fold _ _) ⟨⟨0, 0, by decide, rfl⟩, Nat.two_pow_pos _⟩
  let ws : List Val := (List.range xs.length).map fun k => ((UAtom.fresh.setDouble (Fp.toBits f64 (acc (k + 1)))).bind UAtom.val).getD (.num 0 0)
  have put : ∀ k, k < xs.length → ∃ u w, UAtom.fresh.setDouble (Fp.toBits f64 (acc (k + 1))) = some u ∧ ws[k]? = some w ∧ u.val = some w ∧ NumVal w (acc (k + 1)) := by
    intro k hk
    obtain ⟨u, w, u1, u2, u3⟩ := setDouble_num (good (k + 1))
    exact ⟨u, w, u1, by simp [ws, hk, u1, u2], u2, u3⟩
  have hlen : len a = ws.length := by rw [holds_len h, hx.1]; simp [ws]
  obtain ⟨out, h1, h2⟩ := cum_spec (A := floating f64 getFp UAtom.setDouble) acc rfl hlen (by
    intro k hk
    have hk' : k < xs.length := by simpa [ws] using hk
    obtain ⟨u, w, u1, u2, u3, -⟩ := put k hk'
    have hxk : xs[k]? = some xs[k] := List.getElem?_eq_getElem hk'
    obtain ⟨y, v, y1, y2, y3, y4, y5⟩ := numbers_at h hx hxk
    refine ⟨xs[k], u, w, ?_, ?_, u1, u2, u3⟩
    · rw [y1, Option.bind_some]
      exact getFp_val y v _ y3 y4
    · show some (Fp.add f64 (acc k) xs[k]) = some (acc (k + 1))
      simp only [acc]
      rw [List.take_add_one, hxk, List.foldl_append]
      rfl)
  refine ⟨out, ws, ?_, h2, by simp [ws], fun k w hw => ?_⟩
  · have hA : arithOf 100 = some (floating f64 getFp UAtom.setDouble) := rfl
    rw [cumsum, cum_scan h ((a.getD []).map UAtom.tag) (by rw [List.length_map]; exact ((argsVal_iff _ _).mp h).1), fold_max (m := 512)]
    · simp only [Option.bind_some, show cumType 512 = 100 from rfl, hA, h1, Option.map_some]
    · exact fun t _ => cumConst_max t
    · decide
    · obtain ⟨y, y1, y2⟩ := holds_atom h hb
      exact .inr ⟨y.tag, List.mem_map.mpr ⟨y, y1, rfl⟩, by rw [(num_raw y2).1]; rfl⟩
    · intro i u t hu hi
      rw [List.getElem?_map, show (a.getD [])[i]? = some u from hu] at hi
      exact Option.some.inj hi
  · have hk : k < xs.length := by simpa [ws] using (List.getElem?_eq_some_iff.mp hw).1
    obtain ⟨u, w', u1, u2, u3, u4⟩ := put k hk
    rw [hw] at u2; cases u2
    exact ⟨_, u4, added_fold _ _⟩

/-! ## Floats -/

/-- Repeated addition of `float`s, every sum rounded. -/
inductive AddedFloat : Fp → List Fp → Fp → Prop
  | nil (s : Fp) : AddedFloat s [] s
  | cons {s x t r : Fp} {xs : List Fp} : SumOf f32 s x t → AddedFloat t xs r → AddedFloat s (x :: xs) r

theorem addedFloat_fold (xs : List Fp) (s : Fp) : AddedFloat s xs (xs.foldl (Fp.add f32) s) := by
  induction xs generalizing s with
  | nil => exact .nil s
  | cons x xs ih => exact .cons (Fp.sum_of f32 (by decide) s x) (ih _)

theorem setFloat_num {x : Fp} (hx : Fp.Good f32 x) : ∃ u, UAtom.fresh.setFloat (Fp.toBits f32 x) = some u ∧ u.val = some (.num 102 (Fp.toBits f32 x)) := by
  have hb : Fp.toBits f32 x < 2 ^ 32 := Fp.toBits_lt f32 (by decide) (by decide) x hx
  refine ⟨_, rfl, ?_⟩
  have e : ((W.bits 0).store M32 (Fp.toBits f32 x)).raw % M32 = Fp.toBits f32 x := by
    have := store_mod (W.bits 0) M32 (by decide) (Fp.toBits f32 x)
    have hm : M32 = 2 ^ 32 := rfl
    rw [hm] at this ⊢
    generalize Fp.toBits f32 x = y at *
    omega
  show (UAtom.mk 102 false ((W.bits 0).store M32 (Fp.toBits f32 x))).val = _
  simp only [UAtom.val]
  exact congrArg some (congrArg (Val.num 102) e)

/-- **C71**: the running sums of a list of `float`s are `float`s, every sum being the one before plus the next number with correct rounding. -/
theorem C71_cumsum_float (a : Ar) (bs : List Nat) (h : Holds a (bs.map (Val.num 102))) (hne : bs ≠ []) :
    ∃ (out : List UAtom) (ws : List Nat), cumsum [a] = some (0, some out) ∧ Holds (some out) (ws.map (Val.num 102)) ∧ ws.length = bs.length ∧
      ∀ (k : Nat) w, ws[k]? = some w → w < 2 ^ 32 ∧ AddedFloat (.fin false 0) ((bs.take (k + 1)).map (Fp.ofBits f32)) (Fp.ofBits f32 w) := by
  let acc : Nat → Fp := fun k => ((bs.take k).map (Fp.ofBits f32)).foldl (Fp.add f32) (.fin false 0)
  have step : ∀ k (hk : k < bs.length), Fp.add f32 (acc k) (Fp.ofBits f32 bs[k]) = acc (k + 1) := by
    intro k hk
    simp only [acc]
    rw [List.take_add_one, List.getElem?_eq_getElem hk, List.map_append, List.foldl_append]
    rfl
  have good : ∀ k, k < bs.length → Fp.Good f32 (acc (k + 1)) := fun k hk => by rw [← step k hk]; exact Fp.good_add f32 (by decide) _ _
  let ws : List Nat := (List.range bs.length).map fun k => Fp.toBits f32 (acc (k + 1))
  have put : ∀ k, k < bs.length → ∃ u, UAtom.fresh.setFloat (Fp.toBits f32 (acc (k + 1))) = some u ∧ u.val = some (.num 102 (Fp.toBits f32 (acc (k + 1)))) := by
    exact fun k hk => setFloat_num (good k hk)
  have hlen : len a = (ws.map (Val.num 102)).length := by rw [holds_len h]; simp [ws]
  obtain ⟨out, h1, h2⟩ := cum_spec (A := floating f32 getFp32 UAtom.setFloat) acc rfl hlen (by
    intro k hk
    have hk' : k < bs.length := by simpa [ws] using hk
    obtain ⟨u, u1, u2⟩ := put k hk'
    obtain ⟨y, y1, y2⟩ := holds_at h (i := k) (v := .num 102 bs[k]) (by simp [hk'])
    obtain ⟨n1, -, n2⟩ := num_raw y2
    refine ⟨Fp.ofBits f32 bs[k], u, _, ?_, congrArg some (step k hk'), u1, by simp [ws, hk'], u2⟩
    rw [y1, Option.bind_some]
    show getFp32 y = _
    rw [getFp32, if_pos n1, n2 rfl]
    rfl)
  refine ⟨out, ws, ?_, h2, by simp [ws], fun k w hw => ?_⟩
  · have hA : arithOf 102 = some (floating f32 getFp32 UAtom.setFloat) := rfl
    rw [cumsum, cum_scan h (bs.map fun _ => 102) (by simp), fold_max (m := 256)]
    · simp only [Option.bind_some, show cumType 256 = 102 from rfl, hA, h1, Option.map_some]
    · intro t ht
      obtain ⟨-, -, rfl⟩ := List.mem_map.mp ht
      decide
    · decide
    · obtain ⟨b, bs', rfl⟩ := List.exists_cons_of_ne_nil hne
      exact .inr ⟨102, by simp, rfl⟩
    · intro i u t hu hi
      rw [List.getElem?_map] at hi
      cases hb : bs[i]? with
      | none => rw [hb] at hi; cases hi
      | some b =>
        rw [hb] at hi; cases hi
        obtain ⟨y, y1, y2⟩ := holds_at h (i := i) (v := .num 102 b) (by simp [hb])
        rw [hu] at y1; cases y1
        exact (num_raw y2).1
  · have hk : k < bs.length := by simpa [ws] using (List.getElem?_eq_some_iff.mp hw).1
    have : w = Fp.toBits f32 (acc (k + 1)) := by
      have : ws[k]? = some (Fp.toBits f32 (acc (k + 1))) := by simp [ws, hk]
      rw [hw] at this; exact Option.some.inj this
    subst this
    refine ⟨Fp.toBits_lt f32 (by decide) (by decide) _ (good k hk), ?_⟩
    rw [Fp.ofBits_toBits f32 (by decide) (by decide) _ (good k hk)]
    exact addedFloat_fold _ _

/-! ## Vector products -/

/-- The intermediate results that must fit: in the types narrower than 32 bits the code computes with 32 bits, and the only one of them for which
these do not suffice is that of unsigned 16-bit integers. -/
def Room (t : ITy) (m : Int) : Prop :=
  match t with
  | .u16 => ITy.i32.has m
  | .i32 => ITy.i32.has m
  | .i64 => ITy.i64.has m
  | _ => True

/-- The same for a difference of products of numbers converted to the type. -/
def CrossRoom (t : ITy) (a b c d : Int) : Prop :=
  Room t (t.conv a * t.conv b) ∧ Room t (t.conv c * t.conv d) ∧ Room t (t.conv a * t.conv b - t.conv c * t.conv d)

theorem conv_cross (t : ITy) (a b c d : Int) : t.val (t.conv a * t.conv b - t.conv c * t.conv d) = t.val (a * b - c * d) := by
  apply val_congr
  rw [Int.sub_emod, Int.mul_emod (t.conv a), Int.mul_emod (t.conv c), conv_mod, conv_mod, conv_mod, conv_mod, ← Int.mul_emod, ← Int.mul_emod, ← Int.sub_emod]

theorem cross_ints {t : ITy} {p q : Ar} {l m : List (ITy × Int)} (hp : Holds p (intVals l)) (hq : Holds q (intVals m))
    (hl : ∀ x ∈ l ++ m, x.1.has x.2) {n1 n2 n3 m1 m2 m3 : Int} {s1 s2 s3 t1 t2 t3 : ITy} (el : l = [(s1, n1), (s2, n2), (s3, n3)])
    (em : m = [(t1, m1), (t2, m2), (t3, m3)]) (add sub mul : Int → Int → Option Int)
    (hd : ∀ a b c d, CrossRoom t a b c d → ∃ u, ((mul (t.conv a) (t.conv b)).bind fun u => (mul (t.conv c) (t.conv d)).bind fun v => sub u v) = some u ∧
      t.val u = t.val (a * b - c * d))
    (r1 : CrossRoom t n2 m3 n3 m2) (r2 : CrossRoom t n3 m1 n1 m3) (r3 : CrossRoom t n1 m2 n2 m1) :
    ∃ out, crossIn ⟨Int, 0, getU t, add, sub, mul, fun x a => setU t a x⟩ p q = some out ∧
      Holds (some out) [t.val (n2 * m3 - n3 * m2), t.val (n3 * m1 - n1 * m3), t.val (n1 * m2 - n2 * m1)] := by
  subst el em
  have get : ∀ {r : Ar} {l : List (ITy × Int)} (i : Nat) (s : ITy) (n : Int), Holds r (intVals l) → l[i]? = some (s, n) → s.has n →
      (at? r i).bind (getU t) = some (t.conv n) := by
    intro r l i s n h hi hn
    obtain ⟨x, h1, h2⟩ := holds_at h (i := i) (v := s.val n) (by simp [intVals, hi])
    rw [h1, Option.bind_some, (getU_val s t x n hn h2).1]
  have g1 := get 0 s1 n1 hp rfl (hl (s1, n1) (by simp))
  have g2 := get 1 s2 n2 hp rfl (hl (s2, n2) (by simp))
  have g3 := get 2 s3 n3 hp rfl (hl (s3, n3) (by simp))
  have g4 := get 0 t1 m1 hq rfl (hl (t1, m1) (by simp))
  have g5 := get 1 t2 m2 hq rfl (hl (t2, m2) (by simp))
  have g6 := get 2 t3 m3 hq rfl (hl (t3, m3) (by simp))
  obtain ⟨u1, e1, v1⟩ := hd _ _ _ _ r1
  obtain ⟨u2, e2, v2⟩ := hd _ _ _ _ r2
  obtain ⟨u3, e3, v3⟩ := hd _ _ _ _ r3
  obtain ⟨w1, f1, k1⟩ := setU_fresh t u1
  obtain ⟨w2, f2, k2⟩ := setU_fresh t u2
  obtain ⟨w3, f3, k3⟩ := setU_fresh t u3
  refine ⟨[w1, w2, w3], ?_, ?_⟩
  · simp only [crossIn, g1, g2, g3, g4, g5, g6, Option.bind_some, e1, e2, e3]
    simp [setTo, mk, List.replicate, f1, f2, f3]
  · simp only [Holds, Option.getD_some, argsVal, k1, k2, k3, v1, v2, v3, Option.bind_some, Option.map_some]

theorem cross_bound {t : ITy} (ht : t = .i8 ∨ t = .u8 ∨ t = .i16) (a b : Int) : (t.conv a * t.conv b).natAbs ≤ 1073741824 := by
  have h1 := conv_has t a
  have h2 := conv_has t b
  generalize t.conv a = x at *
  generalize t.conv b = y at *
  have hx : x.natAbs ≤ 32768 := by rcases ht with rfl | rfl | rfl <;> simp [ITy.width, ITy.signed, ITy.has] at h1 <;> omega
  have hy : y.natAbs ≤ 32768 := by rcases ht with rfl | rfl | rfl <;> simp [ITy.width, ITy.signed, ITy.has] at h2 <;> omega
  rw [Int.natAbs_mul]
  exact Nat.mul_le_mul hx hy

/-- The least product of 16-bit integers is a bit more than the negative of the greatest. -/
theorem cross_low {t : ITy} (ht : t = .i8 ∨ t = .u8 ∨ t = .i16) (a b : Int) : -1073741824 < t.conv a * t.conv b := by
  have h1 := conv_has t a
  have h2 := conv_has t b
  generalize t.conv a = x at *
  generalize t.conv b = y at *
  have hx : -32768 ≤ x ∧ x ≤ 32767 := by rcases ht with rfl | rfl | rfl <;> simp [ITy.width, ITy.signed, ITy.has] at h1 <;> omega
  have hy : -32768 ≤ y ∧ y ≤ 32767 := by rcases ht with rfl | rfl | rfl <;> simp [ITy.width, ITy.signed, ITy.has] at h2 <;> omega
  by_cases hs : 0 ≤ x
  · have : x * (-32768) ≤ x * y := Int.mul_le_mul_of_nonneg_left hy.1 hs
    omega
  · have : x * 32767 ≤ x * y := Int.mul_le_mul_of_nonpos_left (by omega) hy.2
    omega

theorem narrow_cross {t : ITy} (ht : t = .i8 ∨ t = .u8 ∨ t = .i16) (a b c d : Int) :
    ∃ u, ((Libo.i32 (t.conv a * t.conv b)).bind fun u => (Libo.i32 (t.conv c * t.conv d)).bind fun v => Libo.i32 (u - v)) = some u ∧
      t.val u = t.val (a * b - c * d) := by
  have h1 := cross_bound ht a b
  have h2 := cross_bound ht c d
  have h3 := cross_low ht a b
  have h4 := cross_low ht c d
  refine ⟨_, ?_, conv_cross t a b c d⟩
  generalize t.conv a * t.conv b = x at *
  generalize t.conv c * t.conv d = y at *
  rw [Libo.i32, if_pos (by omega), Option.bind_some, Libo.i32, if_pos (by omega), Option.bind_some, Libo.i32, if_pos (by omega)]

theorem checked_cross {t : ITy} (chk : Int → Option Int) (hc : ∀ m, Room t m → chk m = some m) (a b c d : Int) (h : CrossRoom t a b c d) :
    ∃ u, ((chk (t.conv a * t.conv b)).bind fun u => (chk (t.conv c * t.conv d)).bind fun v => chk (u - v)) = some u ∧
      t.val u = t.val (a * b - c * d) := by
  refine ⟨_, ?_, conv_cross t a b c d⟩
  rw [hc _ h.1, Option.bind_some, hc _ h.2.1, Option.bind_some, hc _ h.2.2]

theorem wide_cross (t : ITy) (a b c d : Int) : t.val (castU (2 ^ t.width) (castU (2 ^ t.width) (t.conv a * t.conv b) - castU (2 ^ t.width) (t.conv c * t.conv d))) =
    t.val (a * b - c * d) := by
  refine Eq.trans (val_congr t ?_) (conv_cross t a b c d)
  simp only [castU]
  rw [Int.emod_emod_of_dvd _ (Int.dvd_refl _), Int.sub_emod, Int.emod_emod_of_dvd _ (Int.dvd_refl _), Int.emod_emod_of_dvd _ (Int.dvd_refl _), ← Int.sub_emod]

/-- **C71**: the vector product of two lists of three integers of any types has the largest type of the six, and its elements are the three
differences of products in this type, that is modulo two to the width, if 32-bit, 64-bit and unsigned 16-bit intermediate results fit. -/
theorem C71_cross (p q : Ar) (s1 s2 s3 t1 t2 t3 t : ITy) (n1 n2 n3 m1 m2 m3 : Int)
    (hp : Holds p (intVals [(s1, n1), (s2, n2), (s3, n3)])) (hq : Holds q (intVals [(t1, m1), (t2, m2), (t3, m3)]))
    (hl : ∀ x ∈ [(s1, n1), (s2, n2), (s3, n3)] ++ [(t1, m1), (t2, m2), (t3, m3)], x.1.has x.2)
    (ht : Largest t ([(s1, n1), (s2, n2), (s3, n3)] ++ [(t1, m1), (t2, m2), (t3, m3)]))
    (r1 : CrossRoom t n2 m3 n3 m2) (r2 : CrossRoom t n3 m1 n1 m3) (r3 : CrossRoom t n1 m2 n2 m1) :
    ∃ out, cross [p, q] = some (0, some out) ∧
      Holds (some out) [t.val (n2 * m3 - n3 * m2), t.val (n3 * m1 - n1 * m3), t.val (n1 * m2 - n2 * m1)] := by
  have fin : ∀ A, arithOf t.tag = some A → (∃ out, crossIn A p q = some out ∧
      Holds (some out) [t.val (n2 * m3 - n3 * m2), t.val (n3 * m1 - n1 * m3), t.val (n1 * m2 - n2 * m1)]) → ∃ out, cross [p, q] = some (0, some out) ∧
      Holds (some out) [t.val (n2 * m3 - n3 * m2), t.val (n3 * m1 - n1 * m3), t.val (n1 * m2 - n2 * m1)] := by
    rintro A hA ⟨out, h1, h2⟩
    refine ⟨out, ?_, h2⟩
    rw [cross, if_neg (by rw [holds_len hp, holds_len hq]; simp [intVals]), largest_spec hp hq ht.1 ht.2]
    simp only [Option.bind_some, hA, h1, Option.map_some]
  have go := fun add sub mul hd => cross_ints (t := t) hp hq hl rfl rfl add sub mul hd r1 r2 r3
  cases t with
  | i8 => exact fin _ rfl (go _ _ _ fun a b c d _ => narrow_cross (.inl rfl) a b c d)
  | u8 => exact fin _ rfl (go _ _ _ fun a b c d _ => narrow_cross (.inr (.inl rfl)) a b c d)
  | i16 => exact fin _ rfl (go _ _ _ fun a b c d _ => narrow_cross (.inr (.inr rfl)) a b c d)
  | u16 => exact fin _ rfl (go _ _ _ (checked_cross _ fun m => i32_fits))
  | i32 => exact fin _ rfl (go _ _ _ (checked_cross _ fun m => i32_fits))
  | i64 => exact fin _ rfl (go _ _ _ (checked_cross _ fun m => i64_fits))
  | u32 => exact fin _ rfl (go _ _ _ fun a b c d _ => ⟨_, rfl, wide_cross .u32 a b c d⟩)
  | u64 => exact fin _ rfl (go _ _ _ fun a b c d _ => ⟨_, rfl, wide_cross .u64 a b c d⟩)

/-- **C71** (negative): the vector product of unsigned 16-bit integers is undefined if a product is 2^31 or more, although the results would be
representable. -/
theorem C71_cross_uint16_fails (p q : Ar) (n1 n2 n3 m1 m2 m3 : Int) (hp : Holds p (intVals [(.u16, n1), (.u16, n2), (.u16, n3)]))
    (hq : Holds q (intVals [(.u16, m1), (.u16, m2), (.u16, m3)])) (hl : ∀ n ∈ [n1, n2, n3, m1, m2, m3], ITy.u16.has n) (h : 2 ^ 31 ≤ n2 * m3) :
    cross [p, q] = none := by
  have get : ∀ {r : Ar} {l : List (ITy × Int)} (i : Nat) (n : Int), Holds r (intVals l) → l[i]? = some (.u16, n) → ITy.u16.has n →
      (at? r i).bind UAtom.getUInt16 = some n := by
    intro r l i n h hi hn
    obtain ⟨x, h1, h2⟩ := holds_at h (i := i) (v := ITy.u16.val n) (by simp [intVals, hi])
    rw [h1, Option.bind_some]
    exact (getU_val .u16 .u16 x n hn h2).1.trans (congrArg some (ITy.conv_self _ _ hn))
  have g1 := get 0 n1 hp rfl (hl n1 (by simp))
  have g2 := get 1 n2 hp rfl (hl n2 (by simp))
  have g3 := get 2 n3 hp rfl (hl n3 (by simp))
  have g4 := get 0 m1 hq rfl (hl m1 (by simp))
  have g5 := get 1 m2 hq rfl (hl m2 (by simp))
  have g6 := get 2 m3 hq rfl (hl m3 (by simp))
  have hA : arithOf (ITy.tag .u16) = some (promoted UAtom.getUInt16 (castU M16) UAtom.setUInt16) := rfl
  rw [cross, if_neg (by rw [holds_len hp, holds_len hq]; simp [intVals]), largest_spec hp hq (t := .u16) (by simp) (by simp [ITy.le, ITy.signed])]
  simp only [Option.bind_some, hA]
  have e : Libo.i32 (n2 * m3) = none := by rw [Libo.i32, if_neg (by omega)]
  simp only [crossIn, promoted, g1, g2, g3, g4, g5, g6, Option.bind_some, e, Option.bind_none, Option.map_none]

theorem typesConst_num (t : UInt8) (h : t ≠ 115) : typesConst t ≤ 12 := by
  have le : ∀ (p : Prop) [Decidable p] (x y : Nat), x ≤ 12 → y ≤ 12 → (if p then x else y) ≤ 12 := fun p _ x y hx hy => by
    by_cases hp : p
    · rw [if_pos hp]; exact hx
    · rw [if_neg hp]; exact hy
  unfold typesConst
  iterate 13 refine le _ _ _ (by decide) ?_
  rw [if_neg h]
  decide

/-- **C71**: the vector product of whole numbers up to 2^26 in magnitude with a `double` among them is exact. -/
theorem C71_cross_double (p q : Ar) (v1 v2 v3 w1 w2 w3 : Val) (n1 n2 n3 m1 m2 m3 : Int) (b : Nat) (hp : Holds p [v1, v2, v3]) (hq : Holds q [w1, w2, w3])
    (h1 : Whole v1 n1) (h2 : Whole v2 n2) (h3 : Whole v3 n3) (h4 : Whole w1 m1) (h5 : Whole w2 m2) (h6 : Whole w3 m3)
    (hs : ∀ n ∈ [n1, n2, n3, m1, m2, m3], n.natAbs ≤ 2 ^ 26) (hb : Val.num 100 b ∈ [v1, v2, v3, w1, w2, w3]) :
    ∃ out z1 z2 z3 r1 r2 r3, cross [p, q] = some (0, some out) ∧ Holds (some out) [z1, z2, z3] ∧ NumVal z1 r1 ∧ NumVal z2 r2 ∧ NumVal z3 r3 ∧
      Stands (n2 * m3 - n3 * m2) r1 ∧ Stands (n3 * m1 - n1 * m3) r2 ∧ Stands (n1 * m2 - n2 * m1) r3 := by
  have get : ∀ {r : Ar} {l : List Val} (i : Nat) (v : Val) (x : Fp), Holds r l → l[i]? = some v → IsDouble v x → (at? r i).bind getFp = some x := by
    intro r l i v x h hi hx
    obtain ⟨u, h1, h2⟩ := holds_at h hi
    rw [h1, Option.bind_some, getFp_val u v x h2 hx]
  have num : ∀ {r : Ar} {l : List Val}, Holds r l → (∀ v ∈ l, ∃ x, IsDouble v x) → ∀ u ∈ r.getD [], typesConst u.tag ≤ 12 := by
    intro r l h hv u hu
    obtain ⟨i, hi⟩ := List.getElem?_of_mem hu
    have hil : i < l.length := by rw [← ((argsVal_iff _ _).mp h).1]; exact (List.getElem?_eq_some_iff.mp hi).1
    obtain ⟨y, y1, y2⟩ := holds_at h (List.getElem?_eq_getElem hil)
    have : y = u := Option.some.inj (y1.symm.trans hi)
    subst this
    obtain ⟨x, hx⟩ := hv _ (List.getElem_mem hil)
    exact typesConst_num _ (num_tags y2 hx).2
  obtain ⟨x1, d1, e1⟩ := h1
  obtain ⟨x2, d2, e2⟩ := h2
  obtain ⟨x3, d3, e3⟩ := h3
  obtain ⟨x4, d4, e4⟩ := h4
  obtain ⟨x5, d5, e5⟩ := h5
  obtain ⟨x6, d6, e6⟩ := h6
  have hlt : getLargestType [p.getD [], q.getD []] = some 100 := by
    have : [p.getD [], q.getD []].foldl largestIn 0 = 12 := by
      simp only [List.foldl_cons, List.foldl_nil]
      apply Nat.le_antisymm
      · exact largestIn_le _ _ _ (largestIn_le _ _ _ (Nat.zero_le _) (num hp (by
          intro v hv; simp at hv; rcases hv with rfl | rfl | rfl <;> exact ⟨_, by assumption⟩))) (num hq (by
          intro v hv; simp at hv; rcases hv with rfl | rfl | rfl <;> exact ⟨_, by assumption⟩))
      · have hb' : Val.num 100 b ∈ [v1, v2, v3] ∨ Val.num 100 b ∈ [w1, w2, w3] := by simpa [or_assoc] using hb
        have one : ∀ {r : Ar} {l : List Val}, Holds r l → Val.num 100 b ∈ l → ∃ u ∈ r.getD [], typesConst u.tag = 12 := by
          intro r l h hm
          obtain ⟨u, u1, u2⟩ := holds_atom h hm
          exact ⟨u, u1, by rw [(num_raw u2).1]; rfl⟩
        rcases hb' with hb' | hb'
        · obtain ⟨u, u1, u2⟩ := one hp hb'
          rw [← u2]
          exact Nat.le_trans (mem_largestIn _ _ _ u1) (le_largestIn _ _)
        · obtain ⟨u, u1, u2⟩ := one hq hb'
          rw [← u2]
          exact mem_largestIn _ _ _ u1
    rw [getLargestType, this]; rfl
  have d : ∀ {a b c d : Int} {w x y z : Fp}, Stands a w → Stands b x → Stands c y → Stands d z → a.natAbs ≤ 2 ^ 26 → b.natAbs ≤ 2 ^ 26 → c.natAbs ≤ 2 ^ 26 →
      d.natAbs ≤ 2 ^ 26 → Stands (a * b - c * d) (Fp.sub f64 (Fp.mul f64 w x) (Fp.mul f64 y z)) := by
    intro a b c d w x y z ha hb hc hd la lb lc ld
    have k1 : (a * b).natAbs ≤ 2 ^ 26 * 2 ^ 26 := by rw [Int.natAbs_mul]; exact Nat.mul_le_mul la lb
    have k2 : (c * d).natAbs ≤ 2 ^ 26 * 2 ^ 26 := by rw [Int.natAbs_mul]; exact Nat.mul_le_mul lc ld
    refine stands_sub (stands_mul ha hb (by omega)) (stands_mul hc hd (by omega)) (by omega)
  have s : ∀ n, n ∈ [n1, n2, n3, m1, m2, m3] → n.natAbs ≤ 2 ^ 26 := hs
  have good : ∀ w x y z, Fp.Good f64 (Fp.sub f64 (Fp.mul f64 w x) (Fp.mul f64 y z)) := fun _ _ _ _ => Fp.good_sub f64 (by decide) _ _
  obtain ⟨u1, z1, a1, b1, c1⟩ := setDouble_num (good x2 x6 x3 x5)
  obtain ⟨u2, z2, a2, b2, c2⟩ := setDouble_num (good x3 x4 x1 x6)
  obtain ⟨u3, z3, a3, b3, c3⟩ := setDouble_num (good x1 x5 x2 x4)
  refine ⟨[u1, u2, u3], z1, z2, z3, _, _, _, ?_, ?_, c1, c2, c3,
    d e2 e6 e3 e5 (s _ (by simp)) (s _ (by simp)) (s _ (by simp)) (s _ (by simp)),
    d e3 e4 e1 e6 (s _ (by simp)) (s _ (by simp)) (s _ (by simp)) (s _ (by simp)),
    d e1 e5 e2 e4 (s _ (by simp)) (s _ (by simp)) (s _ (by simp)) (s _ (by simp))⟩
  · have hA : arithOf 100 = some (floating f64 getFp UAtom.setDouble) := rfl
    rw [cross, if_neg (by rw [holds_len hp, holds_len hq]; simp), hlt]
    simp only [Option.bind_some, hA, crossIn, floating, get 0 _ _ hp rfl d1, get 1 _ _ hp rfl d2, get 2 _ _ hp rfl d3, get 0 _ _ hq rfl d4, get 1 _ _ hq rfl d5,
      get 2 _ _ hq rfl d6]
    simp [setTo, mk, List.replicate, a1, a2, a3]
  · simp only [Holds, Option.getD_some, argsVal, b1, b2, b3, Option.bind_some, Option.map_some]

/-- **C71**: lists that do not have three elements are an error. -/
theorem C71_cross_shape (p q : Ar) (h : len p ≠ 3 ∨ len q ≠ 3) : cross [p, q] = some (1, none) := by rw [cross, if_pos h]

/-! ## Non-vacuity -/

/-- A list of atoms with the given tags and bits. -/
def atomsOf (l : List (UInt8 × Nat)) : Ar := some (l.map fun x => .mk x.1 false (.bits x.2))

/-- What a function returns, as tags and bits. -/
def shownRes (r : Res) : Option (Int × Option (List (UInt8 × Nat))) := r.map fun r => (r.1, r.2.map (·.map fun a => (a.tag, a.w.raw)))

-- 200, -1 and 100 as `uint8`, `int8` and `uint8`: 200, 199 and 299 - 256
example : shownRes (cumsum [atomsOf [(67, 200), (99, 255), (67, 100)]]) = some (0, some [(67, 200), (67, 199), (67, 43)]) := by decide +kernel
example : ∃ out, cumsum [atomsOf [(67, 200), (99, 255), (67, 100)]] = some (0, some out) ∧ Holds (some out) [ITy.u8.val 200, ITy.u8.val 199, ITy.u8.val 299] := by
  have h : Holds (atomsOf [(67, 200), (99, 255), (67, 100)]) (intVals [(.u8, 200), (.i8, -1), (.u8, 100)]) := by
    simp [Holds, atomsOf, intVals, argsVal, UAtom.val, ITy.val, ITy.tag, ITy.width, W.raw]
  have := C71_cumsum _ _ .u8 h (by decide) ⟨by decide, by simp [ITy.le, ITy.width, ITy.signed]⟩ (by intro h; rcases h with h | h <;> cases h)
  simpa [List.range_succ, sumTo] using this
-- 2147483647 and 1 do not fit
example : cumsum [atomsOf [(105, 2147483647), (105, 1)]] = none :=
  C71_cumsum_overflow (atomsOf [(105, 2147483647), (105, 1)]) [(.i32, 2147483647), (.i32, 1)] .i32 rfl (by decide) ⟨by decide, by simp [ITy.le, ITy.width, ITy.signed]⟩ (.inl rfl) ⟨2, by decide, by decide⟩
-- 1.5 and the integer 2
example : shownRes (cumsum [atomsOf [(100, 0x3ff8000000000000), (105, 2)]]) = some (0, some [(100, 0x3ff8000000000000), (100, 0x400c000000000000)]) := by decide +kernel
-- 1.5f and 2.0f
example : shownRes (cumsum [atomsOf [(102, 0x3fc00000), (102, 0x40000000)]]) = some (0, some [(102, 0x3fc00000), (102, 0x40600000)]) := by decide +kernel
-- (1, 2, 3) x (4, 5, 6) = (-3, 6, -3)
example : shownRes (cross [atomsOf [(105, 1), (105, 2), (105, 3)], atomsOf [(99, 4), (99, 5), (99, 6)]]) =
    some (0, some [(105, 4294967293), (105, 6), (105, 4294967293)]) := by decide +kernel
example : ∃ out, cross [atomsOf [(105, 1), (105, 2), (105, 3)], atomsOf [(99, 4), (99, 5), (99, 6)]] = some (0, some out) ∧
    Holds (some out) [ITy.i32.val (-3), ITy.i32.val 6, ITy.i32.val (-3)] :=
  C71_cross _ _ .i32 .i32 .i32 .i8 .i8 .i8 .i32 1 2 3 4 5 6 rfl rfl (by decide) ⟨by decide, by simp [ITy.le, ITy.width, ITy.signed]⟩
    (by simp only [CrossRoom, Room]; decide) (by simp only [CrossRoom, Room]; decide) (by simp only [CrossRoom, Room]; decide)
-- 65535 * 65535 does not fit into an int
example : cross [atomsOf [(85, 0), (85, 65535), (85, 0)], atomsOf [(85, 0), (85, 0), (85, 65535)]] = none :=
  C71_cross_uint16_fails _ _ 0 65535 0 0 0 65535 rfl rfl (by decide) (by decide)

end Libo.Props
