import Verif.Precision
/-!
# C94: the number of decimals needed to print a floating point number

The statement does not depend on how a C library chooses the leading digit of `%a`: it holds for every text the C standard
allows.
-/

namespace Libo.Props
open Libo Libo.Prec

/-- The hexadecimal digit of a number below 16. -/
def hexChar (d : Nat) : UInt8 := UInt8.ofNat (if d < 10 then 48 + d else 87 + d)

/-- The number with the given hexadecimal digits. -/
def hexNum : List Nat → Nat
  | [] => 0
  | d :: ds => d * 16 ^ ds.length + hexNum ds

/-- `t` is a text the C standard (7.21.6.1) allows for a double printed with `%+a`: a sign, and `0xh.hhhp±d` with as many
hexadecimal digits as the value needs, where the standard leaves the choice of the leading digit open; or a text that begins
like `inf` or `nan`.  A finite number is `m` units of 2^-1074. -/
def PrintedHex : Fp → Bytes → Prop
  | .fin neg m, t => ∃ h ds e, h < 16 ∧ (∀ d ∈ ds, d < 16) ∧ ds.length ≤ 20 ∧ (e : Int).natAbs ≤ 9999 ∧
      m * 2 ^ (4 * ds.length + (-e).toNat) = hexNum (h :: ds) * 2 ^ (e.toNat + 1074) ∧
      t = (if neg then 45 else 43) :: 48 :: 120 :: hexChar h ::
        ((if ds = [] then [] else 46 :: ds.map hexChar) ++ 112 :: (if e < 0 then 45 else 43) :: Text.dec e.natAbs)
  | .inf neg, t => ∃ r, r.length ≤ 40 ∧ t = (if neg then 45 else 43) :: 105 :: r
  | .nan, t => ∃ s r, r.length ≤ 40 ∧ t = s :: 110 :: r

theorem expLoop_append (a b : Bytes) (e : Int) : expLoop (a ++ b) e = (expLoop a e).bind (expLoop b) := by
  induction a generalizing e with
  | nil => rfl
  | cons c a ih =>
    simp only [List.cons_append, expLoop]
    split
    · rfl
    · split
      · rfl
      · exact ih _

theorem expLoop_dec (n : Nat) (h : n ≤ 9999) : expLoop (Text.dec n) 0 = some (n : Int) := by
  induction n using Nat.strongRecOn with
  | _ n ih =>
    rw [Text.dec]
    split
    · rename_i h1
      have : (UInt8.ofNat (48 + n)).toNat = 48 + n := by rw [UInt8.toNat_ofNat']; omega
      simp only [expLoop, this]
      rw [if_neg (by decide), if_neg (by simp only [INT_MAX]; omega)]
      congr 1; omega
    · rename_i h1
      rw [expLoop_append, ih (n / 10) (by omega) (by omega)]
      have : (UInt8.ofNat (48 + n % 10)).toNat = 48 + n % 10 := by rw [UInt8.toNat_ofNat']; omega
      simp only [Option.bind, expLoop, this]
      rw [if_neg (by simp only [INT_MAX]; omega), if_neg (by simp only [INT_MAX]; omega)]
      congr 1; omega

theorem dec_len (n : Nat) (h : n ≤ 9999) : (Text.dec n).length ≤ 4 := by
  rw [Text.dec]
  split
  · simp
  rw [Text.dec]
  split
  · simp
  rw [Text.dec]
  split
  · simp
  rw [Text.dec]
  split
  · simp
  · omega

/-- What the search for the last bit does to a digit. -/
def lsbStep (p : Bool × Int) (d : Nat) : Bool × Int :=
  if p.1 then (true, p.2 - 4) else if d ≠ 0 then (true, -((nib[d]?.getD 0 : Nat) : Int)) else p

theorem lsbLoop_digit (d : Nat) (hd : d < 16) (r : Bytes) (p : Bool × Int) :
    lsbLoop (hexChar d :: r) p = lsbLoop r (lsbStep p d) := by
  obtain ⟨f, pos⟩ := p
  have hall : ∀ d : Fin 16, hexChar d.1 ≠ 120 ∧ hexChar d.1 ≠ 46 ∧
      (if 97 ≤ hexChar d.1 then (hexChar d.1).toNat - 97 + 10 else (hexChar d.1).toNat - 48) = d.1 ∧
      nib[d.1]? = some (nib[d.1]?.getD 0) := by decide
  obtain ⟨h1, h2, h3, h4⟩ := hall ⟨d, hd⟩
  simp only at h1 h2 h3 h4
  simp only [lsbLoop, lsbStep]
  rw [if_neg h1, if_neg h2, h3]
  cases f
  · by_cases h0 : d = 0
    · subst h0; simp
    · simp only [Bool.false_eq_true, if_false]
      rw [if_pos h0, if_pos h0, h4]
      rfl
  · simp

theorem lsbLoop_digits (rs : List Nat) (hd : ∀ d ∈ rs, d < 16) (r : Bytes) (p : Bool × Int) :
    lsbLoop (rs.map hexChar ++ r) p = lsbLoop r (rs.foldl lsbStep p) := by
  induction rs generalizing p with
  | nil => rfl
  | cons d rs ih =>
    simp only [List.map_cons, List.cons_append, List.foldl_cons]
    rw [lsbLoop_digit d (hd d (by simp)), ih (fun x hx => hd x (by simp [hx]))]

/-- The number with the given hexadecimal digits, the last digit first. -/
def lowNum : List Nat → Nat
  | [] => 0
  | d :: ds => d + 16 * lowNum ds

theorem lowNum_append (a b : List Nat) : lowNum (a ++ b) = lowNum a + 16 ^ a.length * lowNum b := by
  induction a with
  | nil => simp [lowNum]
  | cons d a ih => simp only [List.cons_append, lowNum, ih, List.length_cons]; grind

theorem lowNum_reverse (ds : List Nat) : lowNum ds.reverse = hexNum ds := by
  induction ds with
  | nil => rfl
  | cons d ds ih =>
    simp only [List.reverse_cons, lowNum_append, ih, hexNum, List.length_reverse, lowNum]
    grind

theorem lsb_found (rs : List Nat) (pos : Int) : rs.foldl lsbStep (true, pos) = (true, pos - 4 * rs.length) := by
  induction rs generalizing pos with
  | nil => simp
  | cons d rs ih => simp only [List.foldl_cons, lsbStep, if_true, ih, List.length_cons]; congr 1; omega

/-- The search finds the place of the last bit of the number. -/
theorem lsb_scan (rs : List Nat) (hd : ∀ d ∈ rs, d < 16) :
    (rs.foldl lsbStep (false, 0) = (false, 0) ∧ lowNum rs = 0) ∨
    ∃ o v : Nat, o % 2 = 1 ∧ lowNum rs = o * 2 ^ v ∧ rs.foldl lsbStep (false, 0) = (true, (v : Int) - 4 * rs.length) := by
  induction rs with
  | nil => left; exact ⟨rfl, rfl⟩
  | cons d rs ih =>
    have ih := ih (fun x hx => hd x (by simp [hx]))
    by_cases h0 : d = 0
    · subst h0
      have hs : (0 :: rs).foldl lsbStep (false, 0) = rs.foldl lsbStep (false, 0) := rfl
      rw [hs]
      rcases ih with ⟨h1, h2⟩ | ⟨o, v, ho, h1, h2⟩
      · left; exact ⟨h1, by simp [lowNum, h2]⟩
      · right
        refine ⟨o, v + 4, ho, ?_, ?_⟩
        · simp only [lowNum, h1, Nat.pow_add]; grind
        · rw [h2]; simp only [List.length_cons]; congr 1; omega
    · right
      have hall : ∀ d : Fin 16, d.1 ≠ 0 → nib[d.1]?.getD 0 ≤ 4 ∧ 1 ≤ nib[d.1]?.getD 0 ∧
          (d.1 / 2 ^ (4 - nib[d.1]?.getD 0)) % 2 = 1 ∧
          d.1 = d.1 / 2 ^ (4 - nib[d.1]?.getD 0) * 2 ^ (4 - nib[d.1]?.getD 0) := by decide
      obtain ⟨g1, g1', g2, g3⟩ := hall ⟨d, hd d (by simp)⟩ h0
      simp only at g1 g1' g2 g3
      generalize hk : nib[d]?.getD 0 = k at *
      have hs : (d :: rs).foldl lsbStep (false, 0) = rs.foldl lsbStep (true, -(k : Int)) := by
        simp only [List.foldl_cons, lsbStep, Bool.false_eq_true, if_false]
        rw [if_pos h0, hk]
      refine ⟨d / 2 ^ (4 - k) + 2 ^ k * lowNum rs, 4 - k, ?_, ?_, ?_⟩
      · obtain ⟨j, rfl⟩ : ∃ j, k = j + 1 := ⟨k - 1, by omega⟩
        rw [Nat.pow_succ, Nat.mul_assoc, Nat.mul_comm (2 ^ j), Nat.mul_assoc]
        omega
      · have h16 : (16 : Nat) = 2 ^ k * 2 ^ (4 - k) := by rw [← Nat.pow_add, show k + (4 - k) = 4 by omega]
        simp only [lowNum]
        rw [Nat.add_mul, ← g3]
        rw [Nat.mul_right_comm, ← h16]
      · rw [hs, lsb_found, List.length_cons]; congr 1; omega

theorem odd_mul (a b : Nat) (ha : a % 2 = 1) (hb : b % 2 = 1) : (a * b) % 2 = 1 := by
  rw [Nat.mul_mod, ha, hb]

theorem five_odd (k : Nat) : 5 ^ k % 2 = 1 := by
  induction k with
  | zero => rfl
  | succ k ih => rw [Nat.pow_succ]; exact odd_mul _ _ ih rfl

theorem two_dvd_odd (o a b : Nat) (ho : o % 2 = 1) : 2 ^ a ∣ o * 2 ^ b ↔ a ≤ b := by
  constructor
  · intro h
    apply Classical.byContradiction
    intro hn
    have h1 : 2 ^ (b + 1) ∣ o * 2 ^ b := Nat.dvd_trans (Nat.pow_dvd_pow 2 (by omega)) h
    obtain ⟨c, hc⟩ := h1
    have : o = 2 * c := by
      apply Nat.eq_of_mul_eq_mul_right (Nat.two_pow_pos b)
      rw [hc, Nat.pow_succ]; grind
    omega
  · intro h
    exact Nat.dvd_trans (Nat.pow_dvd_pow 2 h) (Nat.dvd_mul_left _ _)

/-- The value times a power of ten is whole exactly if the power is large enough. -/
theorem whole_iff (m o v L ne pe k : Nat) (ho : o % 2 = 1)
    (h : m * 2 ^ (4 * L + ne) = o * 2 ^ v * 2 ^ (pe + 1074)) :
    2 ^ 1074 ∣ m * 10 ^ k ↔ 4 * L + ne ≤ v + pe + k := by
  have h1 : 2 ^ 1074 ∣ m * 10 ^ k ↔ 2 ^ (1074 + (4 * L + ne)) ∣ m * 10 ^ k * 2 ^ (4 * L + ne) := by
    rw [Nat.pow_add]
    exact (Nat.mul_dvd_mul_iff_right (Nat.two_pow_pos _)).symm
  have h2 : m * 10 ^ k * 2 ^ (4 * L + ne) = (o * 5 ^ k) * 2 ^ (v + (pe + 1074) + k) := by
    rw [Nat.mul_right_comm, h, show (10 : Nat) = 2 * 5 by rfl, Nat.mul_pow, Nat.pow_add 2 (v + (pe + 1074)) k, Nat.pow_add 2 v]
    grind
  rw [h1, h2, two_dvd_odd _ _ _ (odd_mul _ _ ho (five_odd k))]
  omega

theorem findIdx_p (a b : Bytes) (ha : ∀ c ∈ a, c ≠ 112) : (a ++ 112 :: b).findIdx? (· == 112) = some a.length := by
  induction a with
  | nil => simp [List.findIdx?_cons]
  | cons c a ih =>
    have hc : (c == 112) = false := by simpa using ha c (by simp)
    rw [List.cons_append, List.findIdx?_cons, hc, ih (fun x hx => ha x (by simp [hx]))]
    simp

/-- The function on a text of the standard's form. -/
theorem precision_text (s : UInt8) (hs : s = 45 ∨ s = 43) (h : Nat) (ds : List Nat) (e : Int) (hh : h < 16) (hds : ∀ d ∈ ds, d < 16)
    (hl : ds.length ≤ 20) (he : e.natAbs ≤ 9999) :
    precision (s :: 48 :: 120 :: hexChar h ::
        ((if ds = [] then [] else 46 :: ds.map hexChar) ++ 112 :: (if e < 0 then 45 else 43) :: Text.dec e.natAbs)) =
      some (result (((h :: ds).reverse.foldl lsbStep (false, 0)).1) (((h :: ds).reverse.foldl lsbStep (false, 0)).2) e) := by
  have hhc : ∀ d : Fin 16, hexChar d.1 ≠ 112 := by decide
  generalize hf : (if ds = [] then [] else 46 :: ds.map hexChar : Bytes) = fr
  have hfl : fr.length ≤ 21 := by rw [← hf]; split <;> simp; omega
  have hfp : ∀ c ∈ fr, c ≠ 112 := by
    intro c hc
    rw [← hf] at hc
    split at hc
    · cases hc
    · rcases List.mem_cons.1 hc with rfl | hc
      · decide
      · obtain ⟨d, hd, rfl⟩ := List.mem_map.1 hc
        exact hhc ⟨d, hds d hd⟩
  have hlsb : lsbLoop (s :: 48 :: 120 :: hexChar h :: fr).reverse (false, 0) =
      some ((h :: ds).reverse.foldl lsbStep (false, 0)) := by
    have hfr : ∀ p r, lsbLoop (fr.reverse ++ r) p = lsbLoop r (ds.reverse.foldl lsbStep p) := by
      intro p r
      rw [← hf]
      split
      · rename_i h0; subst h0; rfl
      · rw [List.reverse_cons, ← List.map_reverse, List.append_assoc,
          lsbLoop_digits _ (fun d hd => hds d (List.mem_reverse.1 hd))]
        generalize ds.reverse.foldl lsbStep p = q
        obtain ⟨f, pos⟩ := q
        simp [lsbLoop]
    have e1 : (s :: 48 :: 120 :: hexChar h :: fr).reverse = fr.reverse ++ (hexChar h :: [120, 48, s]) := by simp
    rw [e1, hfr, lsbLoop_digit h hh, List.reverse_cons, List.foldl_append]
    generalize hq : lsbStep (ds.reverse.foldl lsbStep (false, 0)) h = q
    obtain ⟨f, pos⟩ := q
    simp only [List.foldl_cons, List.foldl_nil, hq, lsbLoop, if_true]
  have hpre : (s :: 48 :: 120 :: hexChar h :: (fr ++ 112 :: (if e < 0 then 45 else 43) :: Text.dec e.natAbs)) =
      (s :: 48 :: 120 :: hexChar h :: fr) ++ 112 :: (if e < 0 then 45 else 43) :: Text.dec e.natAbs := by simp
  have hdl := dec_len e.natAbs he
  rw [hpre]
  generalize hP : (s :: 48 :: 120 :: hexChar h :: fr) = P at *
  have hPl : P.length ≤ 25 := by rw [← hP]; simp only [List.length_cons]; omega
  have hPp : ∀ c ∈ P, c ≠ 112 := by
    intro c hc
    rw [← hP] at hc
    simp only [List.mem_cons] at hc
    rcases hc with rfl | rfl | rfl | rfl | hc
    · rcases hs with rfl | rfl <;> decide
    · decide
    · decide
    · exact hhc ⟨h, hh⟩
    · exact hfp c hc
  have hss : ∀ r, strstr0x (P ++ r) = some 1 := by
    intro r
    rw [← hP]
    simp only [List.cons_append, strstr0x]
    rw [if_neg (by rcases hs with rfl | rfl <;> decide)]
    simp
  unfold precision
  rw [if_neg (by simp only [List.length_append, List.length_cons]; omega), if_neg (by rw [hss]; simp), findIdx_p P _ hPp]
  simp only
  have hsg : (P ++ 112 :: (if e < 0 then 45 else 43) :: Text.dec e.natAbs)[P.length + 1]?.getD 0 = (if e < 0 then 45 else 43) := by
    rw [List.getElem?_append_right (by omega)]
    simp
  rw [hsg]
  have hdrop : (P ++ 112 :: (if e < 0 then 45 else 43) :: Text.dec e.natAbs).drop (P.length + 1 + 1) = Text.dec e.natAbs := by
    rw [show P.length + 1 + 1 = P.length + 2 by rfl, ← List.drop_drop, List.drop_left]
    rfl
  have hone : (if (if e < 0 then (45 : UInt8) else 43) = 45 ∨ (if e < 0 then (45 : UInt8) else 43) = 43 then 1 else 0) = 1 := by
    split <;> simp
  rw [hone, hdrop, expLoop_dec _ he]
  simp only
  rw [List.take_left, hlsb]
  simp only [Option.map_some]
  congr 2
  by_cases hn : e < 0
  · simp only [hn, if_true]; omega
  · simp only [hn, if_false]
    rw [if_neg (by decide)]; omega

theorem result_found (pos e : Int) (hp : -100 ≤ pos) (he : -9999 ≤ e) :
    result true pos e = (((-(pos + 4 + e)).toNat : Nat) : Int) := by
  unfold result
  have hM : INT_MIN = -2147483648 := rfl
  rw [if_neg (by simp)]
  by_cases h3 : pos + 4 ≥ 0 ∧ e ≥ 0
  · rw [if_pos h3]; omega
  rw [if_neg h3, if_neg (by omega)]
  by_cases h4 : pos + 4 + e ≥ 0
  · rw [if_pos h4]; omega
  rw [if_neg h4, if_neg (by omega)]; omega

/-- C94: for a finite number the answer is the least number of decimals with which the number can be written exactly. -/
theorem C94_least (neg : Bool) (m : Nat) (t : Bytes) (h : PrintedHex (.fin neg m) t) :
    ∃ k : Nat, precision t = some (k : Int) ∧ 2 ^ 1074 ∣ m * 10 ^ k ∧ ∀ j, j < k → ¬ 2 ^ 1074 ∣ m * 10 ^ j := by
  obtain ⟨g, ds, e, hg, hds, hl, he, hv, rfl⟩ := h
  have hall : ∀ d ∈ (g :: ds).reverse, d < 16 := by
    intro d hd
    rcases List.mem_cons.1 (List.mem_reverse.1 hd) with rfl | hd
    · exact hg
    · exact hds d hd
  rw [precision_text _ (by cases neg <;> simp) g ds e hg hds hl he]
  have hb := lsb_scan (g :: ds).reverse hall
  rw [lowNum_reverse, List.length_reverse, List.length_cons] at hb
  rcases hb with ⟨h1, h2⟩ | ⟨o, v, ho, h1, h2⟩
  · rw [h1]
    refine ⟨0, by simp [result], ?_, by omega⟩
    rw [h2, Nat.zero_mul] at hv
    have : m = 0 := by
      rcases Nat.mul_eq_zero.1 hv with h | h
      · exact h
      · exact absurd h (Nat.ne_of_gt (Nat.two_pow_pos _))
    subst this
    simp
  · rw [h2]
    rw [h1] at hv
    have hw := whole_iff m o v ds.length (-e).toNat e.toNat
    refine ⟨((4 * ds.length : Nat) - (v : Int) - e).toNat, ?_, (hw _ ho hv).2 (by omega), ?_⟩
    · rw [result_found _ _ (by omega) (by omega)]
      congr 1
      omega
    · intro j hj hd
      have := (hw j ho hv).1 hd
      omega

/-- C94: for infinities and NaNs the answer is 0. -/
theorem C94_special (x : Fp) (hx : ∀ neg m, x ≠ .fin neg m) (t : Bytes) (h : PrintedHex x t) : precision t = some 0 := by
  have key : ∀ (s c : UInt8) (r : Bytes), r.length ≤ 40 → c ≠ 48 → c ≠ 120 → precision (s :: c :: r) = some 0 := by
    intro s c r hr hc hc'
    unfold precision
    rw [if_neg (by simp only [List.length_cons]; omega), if_pos]
    simp only [strstr0x]
    rw [if_neg (by simp [hc'])]
    cases r with
    | nil => simp [strstr0x]
    | cons b r =>
      simp only [strstr0x]
      rw [if_neg (by simp [hc])]
      cases strstr0x (b :: r) <;> simp
  cases x with
  | fin neg m => exact absurd rfl (hx neg m)
  | inf neg =>
    obtain ⟨r, hr, rfl⟩ := h
    exact key _ _ r hr (by decide) (by decide)
  | nan =>
    obtain ⟨s, r, hr, rfl⟩ := h
    exact key _ _ r hr (by decide) (by decide)

/-- A tenth, as the nearest double, needs 55 decimals: `+0x1.999999999999ap-4`. -/
example : PrintedHex (.fin false (0x1999999999999a * 2 ^ 1018))
    [43, 48, 120, 49, 46, 57, 57, 57, 57, 57, 57, 57, 57, 57, 57, 57, 57, 97, 112, 45, 52] ∧
    precision [43, 48, 120, 49, 46, 57, 57, 57, 57, 57, 57, 57, 57, 57, 57, 57, 57, 97, 112, 45, 52] = some 55 := by
  refine ⟨⟨1, [9, 9, 9, 9, 9, 9, 9, 9, 9, 9, 9, 9, 10], -4, by decide, by decide, by decide, by decide, by decide +kernel, ?_⟩,
    by decide +kernel⟩
  simp [Text.dec, hexChar]

/-- -2.5 needs one decimal, whatever leading digit is chosen: `-0x1.4p+1`, `-0x5p-1`. -/
example : precision [45, 48, 120, 49, 46, 52, 112, 43, 49] = some 1 ∧ precision [45, 48, 120, 53, 112, 45, 49] = some 1 := by
  decide +kernel

end Libo.Props
