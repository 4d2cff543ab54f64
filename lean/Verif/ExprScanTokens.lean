import Verif.ExprScanLemmas
/-!
# What the scanner of expressions makes of numbers, words, strings, and of what is between the tokens
-/

namespace Libo.Re
open Libo

theorem derivs_iff : ∀ (u : Bytes) (r : Re) (w : Bytes), M (derivs u r) w ↔ M r (u ++ w)
  | [], _, _ => Iff.rfl
  | c :: u, r, w => by rw [derivs, derivs_iff u, deriv_iff]; rfl

/-- No match goes on behind `z` and bytes that satisfy `p` with a byte that cannot follow. -/
theorem m_derivs_stop {p : UInt8 → Bool} {r : Re} {z u v x w : Bytes} (hu : ∀ c ∈ u, p c = true)
    (hv : ∀ c, v.head? = some c → (derivs z r).next p c = false) (e : v = x ++ w) (hx : x ≠ []) : ¬ M r (z ++ u ++ x) := by
  intro hm
  cases x with
  | nil => exact hx rfl
  | cons c x =>
    rw [List.append_assoc, ← derivs_iff] at hm
    have := m_next (p := p) hm u c _ rfl hu
    rw [hv c (by rw [e]; rfl)] at this; cases this

theorem longest_derivs_le {p : UInt8 → Bool} {r : Re} {z u v : Bytes} {k : Nat} (hu : ∀ c ∈ u, p c = true)
    (hv : ∀ c, v.head? = some c → (derivs z r).next p c = false) (h : r.longest (z ++ u ++ v) = some k) : k ≤ z.length + u.length := by
  obtain ⟨h1, h2, _⟩ := longest_spec h
  rcases Nat.lt_or_ge (z.length + u.length) k with hk | hk
  · rw [List.take_append, List.take_of_length_le (by simp; omega)] at h2
    refine absurd h2 (m_derivs_stop hu hv (List.take_append_drop (k - (z ++ u).length) v).symm fun e => ?_)
    have := congrArg List.length e
    simp only [List.length_take, List.length_append, List.length_nil] at this h1
    omega
  · exact hk

theorem longest_derivs {p : UInt8 → Bool} {r : Re} {z u v : Bytes} (h : M r (z ++ u)) (hu : ∀ c ∈ u, p c = true)
    (hv : ∀ c, v.head? = some c → (derivs z r).next p c = false) : r.longest (z ++ u ++ v) = some (z.length + u.length) := by
  rw [longest_some h fun x w e hx => m_derivs_stop hu hv e hx, List.length_append]

end Libo.Re

namespace Libo.Syn
open Libo
open Libo.Text (ch oneOf noneOf range word plus seqs alts digit dot floatConst hexRe Env Buf addEsc strtol strtoul16 forall_byte)

/-- The rules that can match at `c`. -/
def at_ (c : UInt8) : List (Re × Act) := rules.filter fun x => x.1.first c || x.1.nullable

theorem at_digit {c : UInt8} (h : isDigit c = true) :
    (c = 48 ∧ at_ c = [(intRe, .int), (hexRe, .hex), (floatConst, .float)]) ∨ (c ≠ 48 ∧ at_ c = [(intRe, .int), (floatConst, .float)]) := by
  have : c ∈ ([48, 49, 50, 51, 52, 53, 54, 55, 56, 57] : Bytes) := by
    exact forall_byte (p := fun c => isDigit c = true → c ∈ ([48, 49, 50, 51, 52, 53, 54, 55, 56, 57] : Bytes)) (by decide +kernel) c h
  simp only [List.mem_cons, List.not_mem_nil, or_false] at this
  rcases this with rfl | rfl | rfl | rfl | rfl | rfl | rfl | rfl | rfl | rfl
  · exact .inl ⟨rfl, rfl⟩
  all_goals exact .inr ⟨by decide, rfl⟩

/-- A byte is excluded from what may follow. -/
def excludes (z : Bytes) (r : Re) (p x : UInt8 → Bool) : Bool :=
  (List.range 256).all fun n => !(Re.derivs z r).next p (UInt8.ofNat n) || x (UInt8.ofNat n)

theorem excludes_next {z : Bytes} {r : Re} {p x : UInt8 → Bool} (h : excludes z r p x = true) {s : Bytes} (hs : ∀ c, s.head? = some c → x c = false) :
    ∀ c, s.head? = some c → (Re.derivs z r).next p c = false := by
  intro c hc
  have h2 := List.all_eq_true.mp h c.toNat (by simpa using c.toNat_lt)
  rw [UInt8.ofNat_toNat, hs c hc, Bool.or_false] at h2
  simpa using h2

/-! ### Numbers -/

theorem scan_int (E : Env) {u s : Bytes} {a : UAtom} (hne : u ≠ []) (hu : ∀ c ∈ u, isDigit c = true) (h0 : u.head? = some 48 → u = [48])
    (hlt : numeral 10 decDigit u < 2147483648) (ha : UAtom.fresh.setInt32 (numeral 10 decDigit u) = some a)
    (hs : ∀ c, s.head? = some c → (isDigit c || (n! ".eExX").contains c) = false) :
    scan E 0 false none (u ++ s) = (scan E 0 false none s).map (.num a :: ·) := by
  obtain ⟨c, w, rfl⟩ := List.exists_cons_of_ne_nil hne
  have hm : intRe.M (c :: w) := by
    by_cases hc : c = 48
    · subst hc
      rw [h0 rfl]
      exact .right (.cls rfl)
    · refine .left (.seq (u := [c]) (.cls ?_) (Text.m_star_cls fun d hd => hu d (by simp [hd])))
      have := hu c (by simp)
      revert hc this
      exact forall_byte (p := fun c => ¬ c = 48 → isDigit c = true → (decide (49 ≤ c) && decide (c ≤ 57)) = true) (by decide +kernel) c
  have hl : intRe.longest (c :: w ++ s) = some (w.length + 1) := by
    have := Re.longest_derivs (z := []) (p := isDigit) (v := s) hm hu (excludes_next (by decide +kernel) hs)
    simpa using this
  have hx : ∀ k, hexRe.longest (c :: w ++ s) = some k → k ≤ w.length + 1 := fun k hk => by
    have := Re.longest_derivs_le (z := []) (p := isDigit) hu (excludes_next (r := hexRe) (by decide +kernel) hs) hk
    simpa using this
  have hf : ∀ k, floatConst.longest (c :: w ++ s) = some k → k ≤ w.length + 1 := fun k hk => by
    have := Re.longest_derivs_le (z := []) (p := isDigit) hu (excludes_next (r := floatConst) (by decide +kernel) hs) hk
    simpa using this
  have hp : Re.pick rules (c :: w ++ s) = some (w.length + 1, .int) := by
    rw [List.cons_append, Text.pick_filter]
    rcases at_digit (hu c (by simp)) with ⟨_, h⟩ | ⟨_, h⟩
    · unfold at_ at h
      rw [h]
      refine Re.pick_cons_some hl fun x hx' => ?_
      simp only [List.mem_cons, List.not_mem_nil, or_false] at hx'
      rcases hx' with rfl | rfl
      · exact hx
      · exact hf
    · unfold at_ at h
      rw [h]
      refine Re.pick_cons_some hl fun x hx' => ?_
      simp only [List.mem_cons, List.not_mem_nil, or_false] at hx'
      subst hx'
      exact hf
  refine scan_num E hp rfl ?_
  rw [← ha]
  show UAtom.fresh.setInt32 (castS M32 (strtol (c :: w))) = _
  have hc : c ≠ 45 := by
    rintro rfl
    exact absurd (hu 45 (by simp)) (by decide)
  have : strtol (c :: w) = min (numeral 10 decDigit (c :: w) : Int) 9223372036854775807 := by
    unfold strtol
    split
    · rename_i e; simp only [List.cons.injEq] at e; exact absurd e.1 hc
    · rfl
  rw [this]
  congr 1
  unfold castS
  simp only [M32]
  split <;> omega

theorem scan_float (E : Env) {u v s : Bytes} {a : UAtom} (hne : u ≠ []) (hu : ∀ c ∈ u, isDigit c = true) (hv : ∀ c ∈ v, isDigit c = true)
    (ha : UAtom.fresh.setDouble (E.strtod (u ++ 46 :: v)) = some a)
    (hs : ∀ c, s.head? = some c → (isDigit c || (n! ".eEflFLxX").contains c) = false) :
    scan E 0 false none (u ++ 46 :: v ++ s) = (scan E 0 false none s).map (.num a :: ·) := by
  obtain ⟨c, w, rfl⟩ := List.exists_cons_of_ne_nil hne
  have hm : floatConst.M (c :: w ++ 46 :: v) := by
    refine .left (.left ?_)
    rw [← List.append_nil (c :: w ++ 46 :: v)]
    refine Re.M.seq ?_ (Re.M.seq (u := []) (v := []) (.left .eps) (.left .eps))
    cases v with
    | nil => exact .right (.seq (Text.m_plus_cls hne hu) (.cls rfl))
    | cons d v => exact .left (.seq (Text.m_star_cls hu) (.seq (u := [46]) (.cls rfl) (Text.m_plus_cls (by simp) hv)))
  have hl : floatConst.longest (c :: w ++ 46 :: v ++ s) = some ((w ++ 46 :: v).length + 1) := by
    have := Re.longest_derivs (z := []) (p := fun c => isDigit c || c == 46) (v := s) hm
      (fun d hd => by
        have hd' : d ∈ (c :: w) ++ (46 :: v) := hd
        rcases List.mem_append.mp hd' with hd | hd
        · simp [hu d hd]
        · rcases List.mem_cons.mp hd with rfl | hd
          · rfl
          · simp [hv d hd])
      (excludes_next (by decide +kernel) hs)
    simpa using this
  have h46 : ∀ c, (46 :: (v ++ s)).head? = some c → (c != 46) = false := fun c hc => by simpa using hc.symm
  have hi : ∀ r : Re, excludes [] r isDigit (fun c => c != 46) = true → ∀ k, r.longest (c :: w ++ 46 :: v ++ s) = some k → k < (w ++ 46 :: v).length + 1 := fun r hr k hk => by
    rw [List.append_assoc] at hk
    have := Re.longest_derivs_le (z := []) (p := isDigit) (r := r) hu (excludes_next hr h46) hk
    simp only [List.length_append, List.length_cons, List.length_nil] at this ⊢
    omega
  have hp : Re.pick rules (c :: (w ++ 46 :: v) ++ s) = some ((w ++ 46 :: v).length + 1, .float) := by
    rw [List.cons_append, Text.pick_filter]
    rcases at_digit (hu c (by simp)) with ⟨_, h⟩ | ⟨_, h⟩
    · unfold at_ at h
      rw [h]
      refine Text.pick_at (pre := [(intRe, Act.int), (hexRe, .hex)]) (post := []) hl (by simp) fun x hx' => ?_
      simp only [List.mem_cons, List.not_mem_nil, or_false] at hx'
      rcases hx' with rfl | rfl
      · exact hi intRe (by decide +kernel)
      · exact hi hexRe (by decide +kernel)
    · unfold at_ at h
      rw [h]
      refine Text.pick_at (pre := [(intRe, Act.int)]) (post := []) hl (by simp) fun x hx' => ?_
      simp only [List.mem_cons, List.not_mem_nil, or_false] at hx'
      subst hx'
      exact hi intRe (by decide +kernel)
  exact scan_num E hp rfl ha

theorem hex_lt (u : Bytes) (hu : ∀ c ∈ u, isHex c = true) : numeral 16 hexDigit u < 16 ^ u.length := by
  have hd : ∀ c, isHex c = true → hexDigit c < 16 := fun c => forall_byte (p := fun c => isHex c = true → hexDigit c < 16) (by decide +kernel) c
  have aux : ∀ (u : Bytes) (n k : Nat), (∀ c ∈ u, isHex c = true) → n < 16 ^ k → u.foldl (fun n c => n * 16 + hexDigit c) n < 16 ^ (k + u.length) := by
    intro u
    induction u with
    | nil => intro n k _ h; simpa using h
    | cons c u ih =>
      intro n k hu h
      have := ih (n * 16 + hexDigit c) (k + 1) (fun d hd => hu d (by simp [hd])) (by
        have := hd c (hu c (by simp))
        rw [Nat.pow_succ]; omega)
      rw [List.foldl_cons, List.length_cons, show k + (u.length + 1) = k + 1 + u.length by omega]
      exact this
  have := aux u 0 0 hu (by simp)
  simpa [numeral] using this

theorem pick_hex {u s : Bytes} {x : UInt8} (hx : x = 120 ∨ x = 88) (hne : u ≠ []) (hu : ∀ c ∈ u, isHex c = true)
    (hs : ∀ c, s.head? = some c → (isHex c || (n! ".pP").contains c) = false) :
    Re.pick rules (48 :: (x :: u) ++ s) = some ((x :: u).length + 1, .hex) := by
  have hm : hexRe.M (48 :: x :: u) := by
    refine .seq (u := [48]) (.cls rfl) (.seq (u := [x]) (.cls ?_) ?_)
    · rcases hx with rfl | rfl <;> rfl
    · obtain ⟨c, w, rfl⟩ := List.exists_cons_of_ne_nil hne
      have hd : ∀ c, isHex c = true → (alts [digit, range 97 102, range 65 70]).M [c] := fun c h => by
        simp only [isHex, Bool.or_eq_true] at h
        rcases h with (h | h) | h
        · exact .left (.cls h)
        · exact .right (.left (.cls h))
        · exact .right (.right (.cls h))
      refine .seq (u := [c]) (hd c (hu c (by simp))) ?_
      have : ∀ w : Bytes, (∀ c ∈ w, isHex c = true) → (Re.star (alts [digit, range 97 102, range 65 70])).M w := by
        intro w
        induction w with
        | nil => intro _; exact .nil
        | cons d w ih => intro h; exact Re.M.more (u := [d]) (hd d (h d (by simp))) (ih fun e he => h e (by simp [he]))
      exact this w fun d hd => hu d (by simp [hd])
  have key : ∀ x, x = 120 ∨ x = 88 → excludes [48, x] hexRe isHex (fun c => isHex c || (n! ".pP").contains c) = true ∧
      excludes [48, x] floatConst isHex (fun c => isHex c || (n! ".pP").contains c) = true := by
    rintro x (rfl | rfl) <;> exact ⟨by decide +kernel, by decide +kernel⟩
  have hl := Re.longest_derivs (z := [48, x]) (p := isHex) (v := s) hm hu (excludes_next (key x hx).1 hs)
  rw [List.cons_append, Text.pick_filter]
  refine Text.pick_at (pre := [(intRe, Act.int)]) (post := [(floatConst, .float)]) (r := hexRe) ?_ ?_ ?_
  · rw [show 48 :: (x :: u ++ s) = [48, x] ++ u ++ s from rfl, hl]
    simp only [List.length_cons, List.length_nil, Option.some.injEq]; omega
  · intro y hy k hk
    simp only [List.mem_cons, List.not_mem_nil, or_false] at hy
    subst hy
    have := Re.longest_derivs_le (z := [48, x]) (p := isHex) (r := floatConst) hu (excludes_next (key x hx).2 hs) hk
    simp only [List.length_cons, List.length_nil] at this ⊢
    omega
  · intro y hy k hk
    simp only [List.mem_cons, List.not_mem_nil, or_false] at hy
    subst hy
    have h1 : excludes [] intRe isDigit (fun c => !(c == 120 || c == 88)) = true := by decide +kernel
    have := Re.longest_derivs_le (z := []) (u := [48]) (v := x :: (u ++ s)) (p := isDigit) (r := intRe) (by decide)
      (excludes_next h1 (fun c hc => by
        simp only [List.head?_cons, Option.some.injEq] at hc
        subst hc; rcases hx with rfl | rfl <;> rfl)) hk
    simp only [List.length_cons, List.length_nil] at this ⊢
    omega

theorem scan_hex32 (E : Env) {u s : Bytes} {x : UInt8} {a : UAtom} (hx : x = 120 ∨ x = 88) (hne : u ≠ []) (hu : ∀ c ∈ u, isHex c = true)
    (hl : u.length ≤ 8) (ha : UAtom.fresh.setUInt32 (numeral 16 hexDigit u) = some a)
    (hs : ∀ c, s.head? = some c → (isHex c || (n! ".pP").contains c) = false) :
    scan E 0 false none (48 :: x :: u ++ s) = (scan E 0 false none s).map (.num a :: ·) := by
  refine scan_num E (c := 48) (w := x :: u) (pick_hex hx hne hu hs) rfl ?_
  have h1 := hex_lt u hu
  have h2 : 16 ^ u.length ≤ 16 ^ 8 := Nat.pow_le_pow_right (by decide) hl
  have h3 : strtoul16 (48 :: x :: u) = numeral 16 hexDigit u := by
    show min (numeral 16 hexDigit u) _ = _
    omega
  simp only [numOf]
  rw [if_neg (by simp only [List.length_cons]; omega), h3, ← ha]
  have h4 : castU M32 (castS M32 (numeral 16 hexDigit u : Int)) = (numeral 16 hexDigit u : Int) := by
    unfold castU castS
    simp only [M32]
    split <;> omega
  rw [h4]

theorem scan_hex64 (E : Env) {u s : Bytes} {x : UInt8} {a : UAtom} (hx : x = 120 ∨ x = 88) (hu : ∀ c ∈ u, isHex c = true)
    (hl : 8 < u.length) (hl' : u.length ≤ 16) (ha : UAtom.fresh.setUInt64 (numeral 16 hexDigit u) = some a)
    (hs : ∀ c, s.head? = some c → (isHex c || (n! ".pP").contains c) = false) :
    scan E 0 false none (48 :: x :: u ++ s) = (scan E 0 false none s).map (.num a :: ·) := by
  have hne : u ≠ [] := by rintro rfl; simp at hl
  refine scan_num E (c := 48) (w := x :: u) (pick_hex hx hne hu hs) rfl ?_
  have h1 := hex_lt u hu
  have h2 : 16 ^ u.length ≤ 16 ^ 16 := Nat.pow_le_pow_right (by decide) hl'
  have h3 : strtoul16 (48 :: x :: u) = numeral 16 hexDigit u := by
    show min (numeral 16 hexDigit u) _ = _
    omega
  simp only [numOf]
  rw [if_pos (by simp only [List.length_cons]; omega), h3, ← ha]
  have h4 : castU M64 (castS M64 (numeral 16 hexDigit u : Int)) = (numeral 16 hexDigit u : Int) := by
    unfold castU castS
    simp only [M64]
    split <;> omega
  rw [h4]

end Libo.Syn
