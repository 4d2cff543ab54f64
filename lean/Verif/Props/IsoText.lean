import Verif.IsoText
import Verif.Props.TimeSeconds
import Verif.Name
/-!
# C31: the text of time tags

A text in the form of ISO 8601 gives the second of its date, and its fraction to within what floating point numbers allow; a time tag with a printable
date gives the text of its date with six digits of the fraction; the two together give the time tag back to within three millionths.
-/

namespace Libo.Props
open Libo Libo.Cal Libo.CalSpec Libo.Expr Libo.Iso

/-- The last `w` decimal digits of `n`. -/
def digits : Nat → Nat → Bytes
  | 0, _ => []
  | w + 1, n => digits w (n / 10) ++ [UInt8.ofNat (48 + n % 10)]

/-- A date and time in the form of ISO 8601. -/
def isoDate (y m d h mi s : Nat) : Bytes :=
  digits 4 y ++ [45] ++ digits 2 m ++ [45] ++ digits 2 d ++ [84] ++ digits 2 h ++ [58] ++ digits 2 mi ++ [58] ++ digits 2 s

theorem digits_length : ∀ w n, (digits w n).length = w
  | 0, _ => rfl
  | w + 1, n => by rw [digits, List.length_append, digits_length w]; rfl

theorem digits_zero : ∀ w, digits w 0 = List.replicate w 48
  | 0 => rfl
  | w + 1 => by rw [digits, Nat.zero_div, digits_zero w, List.replicate_succ']; rfl

theorem pad_digits : ∀ w n, n < 10 ^ w → 0 < w → pad w n = digits w n := by
  intro w
  induction w with
  | zero => intro n _ h; omega
  | succ w ih =>
    intro n hn _
    rw [digits]
    by_cases h : n < 10
    · have e : Text.dec n = [UInt8.ofNat (48 + n)] := by rw [Text.dec, if_pos h]
      rw [pad, e, Nat.div_eq_of_lt h, digits_zero, Nat.mod_eq_of_lt h]; rfl
    · have e : Text.dec n = Text.dec (n / 10) ++ [UInt8.ofNat (48 + n % 10)] := by rw [Text.dec, if_neg h]
      have hw : 0 < w := by
        rcases Nat.eq_zero_or_pos w with h0 | h0
        · subst h0; simp at hn; omega
        · exact h0
      rw [← ih (n / 10) (by rw [Nat.pow_succ] at hn; omega) hw, pad, e, pad, List.length_append, List.length_singleton, Nat.add_sub_add_right,
        List.append_assoc]

theorem field_digits (w n : Nat) (h : n < 10 ^ w) (hw : 0 < w) : field w n = digits w n := by
  rw [field, pad_digits w n h hw, List.take_of_length_le (by rw [digits_length]; exact Nat.le_refl _)]

theorem isDig_byte {k : Nat} (h : k < 10) : isDig (UInt8.ofNat (48 + k)) = true ∧ (UInt8.ofNat (48 + k)).toNat - 48 = k := by
  have e : (UInt8.ofNat (48 + k)).toNat = 48 + k := by simp; omega
  refine ⟨?_, by omega⟩
  simp only [isDig, Bool.and_eq_true, decide_eq_true_eq, UInt8.le_iff_toNat_le, e]
  exact ⟨by simp, by simp; omega⟩

theorem digits_dig : ∀ w n, ∀ c ∈ digits w n, isDig c = true
  | 0, _, c, h => by simp [digits] at h
  | w + 1, n, c, h => by
    rw [digits, List.mem_append, List.mem_singleton] at h
    rcases h with h | rfl
    · exact digits_dig w _ c h
    · exact (isDig_byte (Nat.mod_lt _ (by decide))).1

theorem decVal_append (s t : Bytes) : decVal (s ++ t) = t.foldl (fun n c => n * 10 + (c.toNat - 48)) (decVal s) := by
  rw [decVal, List.foldl_append]; rfl

theorem foldl_dec (t : Bytes) : ∀ a, t.foldl (fun n (c : UInt8) => n * 10 + (c.toNat - 48)) a = a * 10 ^ t.length + decVal t := by
  induction t with
  | nil => intro a; simp [decVal]
  | cons c t ih =>
    intro a
    have e : decVal (c :: t) = (c.toNat - 48) * 10 ^ t.length + decVal t := by rw [decVal, List.foldl_cons, ih, Nat.zero_mul, Nat.zero_add]
    rw [List.foldl_cons, ih, e, List.length_cons, Nat.pow_succ', Nat.add_mul, Nat.mul_assoc, Nat.add_assoc]

theorem decVal_app (s t : Bytes) : decVal (s ++ t) = decVal s * 10 ^ t.length + decVal t := by
  rw [decVal_append, foldl_dec]

theorem decVal_digits : ∀ w n, n < 10 ^ w → decVal (digits w n) = n
  | 0, n, h => by simp at h; subst h; rfl
  | w + 1, n, h => by
    rw [digits, decVal_app, decVal_digits w _ (by rw [Nat.pow_succ] at h; omega)]
    have := (isDig_byte (Nat.mod_lt n (show 0 < 10 by decide))).2
    simp only [decVal, List.foldl_cons, List.foldl_nil, this, List.length_singleton]
    omega

/-! ### Printing -/

theorem micros_spec (m : Nat) : 2 * (micros m * 2 ^ 1074) ≤ 2 * (m * 1000000) + 2 ^ 1074 ∧ 2 * (m * 1000000) ≤ 2 * (micros m * 2 ^ 1074) + 2 ^ 1074 := by
  have hU := Nat.two_pow_pos 1074
  have h1 := Nat.div_add_mod (m * 1000000) (2 ^ 1074)
  have h2 := Nat.mod_lt (m * 1000000) hU
  unfold micros
  simp only
  generalize (2 : Nat) ^ 1074 = U at *
  generalize m * 1000000 / U = q at *
  generalize m * 1000000 % U = r at *
  generalize m * 1000000 = x at *
  have e : U * q = q * U := Nat.mul_comm _ _
  have e2 : (q + 1) * U = q * U + U := by rw [Nat.add_mul, Nat.one_mul]
  split
  · rw [e2]; omega
  · omega

theorem micros_le (m : Nat) (h : m < 2 ^ 1074) : micros m ≤ 1000000 := by
  have hU := Nat.two_pow_pos 1074
  obtain ⟨h1, -⟩ := micros_spec m
  refine Nat.le_of_not_lt fun hlt => ?_
  have h2 : 1000001 * 2 ^ 1074 ≤ micros m * 2 ^ 1074 := Nat.mul_le_mul_right _ hlt
  generalize (2 : Nat) ^ 1074 = U at *
  generalize micros m * U = x at *
  omega

theorem fixed_eq (m : Nat) (h : m < 2 ^ 1074) : ∃ c, fixed m = [c, 46] ++ digits 6 (micros m % 1000000) := by
  have := micros_le m h
  have hd : micros m / 1000000 < 10 := by omega
  refine ⟨UInt8.ofNat (48 + micros m / 1000000), ?_⟩
  rw [fixed, Text.dec, if_pos hd, pad_digits 6 _ (Nat.mod_lt _ (by decide)) (by decide)]
  rfl

/-- The fraction printed: six digits of a number of millionths. -/
theorem fracText_eq (t : Timetag) : ∃ v c, timeToFp t = .fin false v ∧ fracText t = some ([c, 46] ++ digits 6 (micros (v % 2 ^ 1074) % 1000000) ++ [90]) := by
  obtain ⟨v, h1, _, _, _, _, _⟩ := timeToFp_spec t
  have h3 : fracText t = some (fixed (v % 2 ^ 1074) ++ [90]) := by rw [fracText, h1]; simp only [mag, Option.map_some]
  have hf : v % 2 ^ 1074 < 2 ^ 1074 := Nat.mod_lt v (Nat.two_pow_pos 1074)
  obtain ⟨c, h2⟩ := fixed_eq (v % 2 ^ 1074) hf
  rw [h2] at h3
  exact ⟨v, c, h1, h3⟩

/-- The number of millionths printed for the fraction of a time tag. -/
def Millionths (f k : Nat) : Prop := k * 2 ^ 32 < f * 1000000 + 3 * 2 ^ 32 ∧ f * 1000000 < k * 2 ^ 32 + 3 * 2 ^ 32 ∧ (f = 0 → k = 0)

theorem micros_arith (k f F B : Nat) (m1 : 2 * (k * (4294967296 * B)) ≤ 2 * (f * 1000000) + 4294967296 * B)
    (m2 : 2 * (f * 1000000) ≤ 2 * (k * (4294967296 * B)) + 4294967296 * B) (c1 : f < F * B + 8192 * B) (c2 : F * B < f + 8192 * B) :
    k * 4294967296 < F * 1000000 + 3 * 4294967296 ∧ F * 1000000 < k * 4294967296 + 3 * 4294967296 := by
  have e5 : k * (4294967296 * B) = k * B * 4294967296 := by rw [Nat.mul_right_comm, Nat.mul_assoc]
  rw [e5] at m1 m2
  have a1 : k * 4294967296 * B < (F * 1000000 + 3 * 4294967296) * B := by
    rw [Nat.add_mul, Nat.mul_right_comm F, Nat.mul_right_comm k]
    generalize F * B = F at *
    generalize k * B = K at *
    omega
  have a2 : F * 1000000 * B < (k * 4294967296 + 3 * 4294967296) * B := by
    rw [Nat.add_mul, Nat.mul_right_comm F, Nat.mul_right_comm k]
    generalize F * B = F at *
    generalize k * B = K at *
    omega
  exact ⟨Nat.lt_of_mul_lt_mul_right a1, Nat.lt_of_mul_lt_mul_right a2⟩

theorem micros_frac (t : Timetag) (v : Nat) (h : timeToFp t = .fin false v) (hf : (t.frac.toNat + 12885) < 2 ^ 32) :
    micros (v % 2 ^ 1074) < 1000000 ∧ Millionths t.frac.toNat (micros (v % 2 ^ 1074)) := by
  obtain ⟨w, h1, -, h2, h3, h4, h5⟩ := timeToFp_spec t
  rw [h] at h1
  obtain rfl : v = w := (Fp.fin.inj h1).2
  have p1 := Nat.two_pow_pos 1042
  have e1 : (2 : Nat) ^ 1074 = 4294967296 * 2 ^ 1042 := by rw [show (4294967296 : Nat) = 2 ^ 32 by decide, ← Nat.pow_add]
  have e3 : (2 : Nat) ^ 1055 = 8192 * 2 ^ 1042 := by rw [show (8192 : Nat) = 2 ^ 13 by decide, ← Nat.pow_add]
  have hv : ttValue t * 2 ^ 1042 = t.sec.toNat * 2 ^ 1074 + t.frac.toNat * 2 ^ 1042 := by rw [ttValue, Nat.add_mul, e1, Nat.mul_assoc]
  have hf2 : (t.frac.toNat + 12885) * 2 ^ 1042 < 4294967296 * 2 ^ 1042 := Nat.mul_lt_mul_of_pos_right hf p1
  rw [Nat.add_mul] at hf2
  have hm : v % 2 ^ 1074 = v - t.sec.toNat * 2 ^ 1074 := by
    rw [show v = (v - t.sec.toNat * 2 ^ 1074) + 2 ^ 1074 * t.sec.toNat by rw [Nat.mul_comm]; omega, Nat.add_mul_mod_self_left, Nat.mul_comm (2 ^ 1074),
      Nat.add_sub_cancel]
    refine Nat.mod_eq_of_lt ?_
    rw [hv, e3] at h2
    rw [e1] at h2 h5 ⊢
    generalize t.sec.toNat * (4294967296 * 2 ^ 1042) = S at *
    generalize t.frac.toNat * 2 ^ 1042 = F at *
    generalize (2 : Nat) ^ 1042 = B at *
    omega
  have hz : t.frac.toNat = 0 → v % 2 ^ 1074 = 0 := fun h0 => by rw [hm, h4 h0, Nat.sub_self]
  obtain ⟨m1, m2⟩ := micros_spec (v % 2 ^ 1074)
  have hz2 : v % 2 ^ 1074 = 0 → micros (v % 2 ^ 1074) = 0 := fun h0 => by rw [h0]; decide +kernel
  have c1 : v % 2 ^ 1074 < t.frac.toNat * 2 ^ 1042 + 8192 * 2 ^ 1042 ∧ t.frac.toNat * 2 ^ 1042 < v % 2 ^ 1074 + 8192 * 2 ^ 1042 := by
    rw [hm, ← e3]; rw [hv] at h2 h3
    generalize t.sec.toNat * 2 ^ 1074 = S at *
    generalize t.frac.toNat * 2 ^ 1042 = F at *
    generalize (2 : Nat) ^ 1055 = B at *
    omega
  clear hm h2 h3 h4 h5 hv e3 h h1
  generalize v % 2 ^ 1074 = f at *
  generalize micros f = k at *
  rw [e1] at m1 m2
  obtain ⟨a3, a4⟩ := micros_arith k f t.frac.toNat (2 ^ 1042) m1 m2 c1.1 c1.2
  refine ⟨by omega, by rw [show (2 : Nat) ^ 32 = 4294967296 by decide]; exact a3, by rw [show (2 : Nat) ^ 32 = 4294967296 by decide]; exact a4,
    fun h0 => hz2 (hz h0)⟩

/-- The text printed, given the numbers. -/
theorem isoText_eq (t : Timetag) (d : DateTime) (hd : toISO t.sec.toNat = some d) (h4 : d.year < 10000)
    (h2 : d.month < 100 ∧ d.day < 100 ∧ d.hour < 100 ∧ d.min < 100 ∧ d.sec < 100) :
    ∃ v, timeToFp t = .fin false v ∧
      isoText t = some (isoDate d.year d.month d.day d.hour d.min d.sec ++ [46] ++ digits 6 (micros (v % 2 ^ 1074) % 1000000) ++ [90]) := by
  obtain ⟨v, c, h1, h3⟩ := fracText_eq t
  refine ⟨v, h1, ?_⟩
  obtain ⟨g1, g2, g3, g4, g5⟩ := h2
  have e : dateText d = isoDate d.year d.month d.day d.hour d.min d.sec := by
    simp only [dateText, isoDate, field_digits 4 _ h4 (by decide), field_digits 2 _ g1 (by decide), field_digits 2 _ g2 (by decide),
      field_digits 2 _ g3 (by decide), field_digits 2 _ g4 (by decide), field_digits 2 _ g5 (by decide)]
  simp only [isoText, hd, Option.bind_some, h3, Option.map_some, e, List.length_append, List.length_cons, List.length_nil, digits_length]
  congr 3

/-! ### Reading -/

theorem takeWhile_dig {p : UInt8 → Bool} (ds r : Bytes) (hd : ∀ c ∈ ds, p c = true) (hr : ∀ c, r.head? = some c → p c = false) :
    (ds ++ r).takeWhile p = ds ∧ (ds ++ r).dropWhile p = r := by
  induction ds with
  | nil =>
    cases r with
    | nil => exact ⟨rfl, rfl⟩
    | cons c r =>
      have := hr c rfl
      simp [this]
  | cons c ds ih =>
    have h1 := hd c (by simp)
    obtain ⟨h2, h3⟩ := ih (fun c hc => hd c (by simp [hc]))
    simp [h1, h2, h3]

theorem dig_not {c : UInt8} (h : isDig c = true) : isSpace c = false ∧ c ≠ 43 ∧ c ≠ 45 := by
  simp only [isDig, Bool.and_eq_true, decide_eq_true_eq, UInt8.le_iff_toNat_le] at h
  have h1 : (48 : UInt8).toNat = 48 := rfl
  have h2 : (57 : UInt8).toNat = 57 := rfl
  rw [h1, h2] at h
  refine ⟨?_, fun h0 => ?_, fun h0 => ?_⟩
  · simp only [isSpace, Bool.or_eq_false_iff, beq_eq_false_iff_ne, ne_eq, Bool.and_eq_false_iff, decide_eq_false_iff_not, UInt8.le_iff_toNat_le]
    refine ⟨fun h0 => ?_, .inr ?_⟩
    · subst h0; revert h; decide
    · have h3 : (13 : UInt8).toNat = 13 := rfl
      omega
  · subst h0; revert h; decide
  · subst h0; revert h; decide

theorem dropSpace_dig (ds r : Bytes) (hne : ds ≠ []) (hd : ∀ c ∈ ds, isDig c = true) : (ds ++ r).dropWhile isSpace = ds ++ r := by
  cases ds with
  | nil => exact absurd rfl hne
  | cons c ds => simp [(dig_not (hd c (by simp))).1]

theorem skipInt_dig (ds r : Bytes) (hne : ds ≠ []) (hd : ∀ c ∈ ds, isDig c = true) (hr : ∀ c, r.head? = some c → isDig c = false) :
    skipInt (ds ++ r) = some r := by
  obtain ⟨h1, h2⟩ := takeWhile_dig (p := isDig) ds r hd hr
  unfold skipInt
  rw [dropSpace_dig ds r hne hd]
  have hh : ¬ ((ds ++ r).head? = some 43 ∨ (ds ++ r).head? = some 45) := by
    cases ds with
    | nil => exact absurd rfl hne
    | cons c ds =>
      obtain ⟨-, h3, h4⟩ := dig_not (hd c (by simp))
      simp [h3, h4]
  simp only [if_neg hh, h1, h2]
  rw [if_neg]
  cases ds <;> simp at hne ⊢

theorem getDigits_dig (hi : Nat) (r : Bytes) : ∀ (ds : Bytes) (v : Nat), (∀ c ∈ ds, isDig c = true) → v * 10 ^ ds.length + decVal ds ≤ hi →
    getDigits hi ds.length v (ds ++ r) = (v * 10 ^ ds.length + decVal ds, r)
  | [], v, _, _ => by simp [getDigits, decVal]
  | c :: ds, v, hd, h => by
    have e : decVal (c :: ds) = (c.toNat - 48) * 10 ^ ds.length + decVal ds := by
      have := decVal_app [c] ds
      simpa [decVal] using this
    have e2 : v * 10 ^ (ds.length + 1) + ((c.toNat - 48) * 10 ^ ds.length + decVal ds) = (v * 10 + (c.toNat - 48)) * 10 ^ ds.length + decVal ds := by
      rw [Nat.pow_succ', Nat.add_mul, Nat.mul_assoc, Nat.add_assoc]
    rw [e, List.length_cons, e2] at h
    rw [List.length_cons, List.cons_append, getDigits, if_pos, getDigits_dig hi r ds _ (fun c hc => hd c (by simp [hc])) h, e, e2]
    refine ⟨?_, hd c (by simp)⟩
    have : 1 ≤ 10 ^ ds.length := Nat.pow_pos (by decide)
    have h2 := Nat.mul_le_mul_left (v * 10 + (c.toNat - 48)) this
    omega

theorem getNumber_dig (lo hi w n : Nat) (r : Bytes) (hn : n < 10 ^ (w + 1)) (hlo : lo ≤ n) (hhi : n ≤ hi) :
    getNumber lo hi (w + 1) (digits (w + 1) n ++ r) = some (n, r) := by
  have hv := decVal_digits (w + 1) n hn
  have hl := digits_length (w + 1) n
  have hd := digits_dig (w + 1) n
  generalize digits (w + 1) n = ds at *
  have hne : ds ≠ [] := by intro h; subst h; simp at hl
  unfold getNumber
  rw [dropSpace_dig ds r hne hd]
  cases ds with
  | nil => exact absurd rfl hne
  | cons c ds =>
    have e : decVal (c :: ds) = (c.toNat - 48) * 10 ^ ds.length + decVal ds := by
      have := decVal_app [c] ds
      simpa [decVal] using this
    rw [hv] at e
    simp only [List.length_cons, Nat.add_right_cancel_iff] at hl
    simp only [List.cons_append, hd c (by simp), if_true, Nat.add_sub_cancel]
    rw [← hl, getDigits_dig hi r ds _ (fun c hc => hd c (by simp [hc])) (by omega), ← e, if_neg (by omega)]

theorem lit_cons (c : UInt8) (s : Bytes) : lit c (c :: s) = some s := by rw [lit, if_pos rfl]

theorem digits_ne (w n : Nat) : digits (w + 1) n ≠ [] := by
  intro h
  have := digits_length (w + 1) n
  rw [h] at this; simp at this

theorem skipInt_digits (w n : Nat) (c : UInt8) (r : Bytes) (hc : isDig c = false) : skipInt (digits (w + 1) n ++ c :: r) = some (c :: r) :=
  skipInt_dig _ _ (digits_ne w n) (digits_dig _ _) (by intro x hx; simp at hx; subst hx; exact hc)

theorem isoDate_app (y m d h mi s : Nat) (r : Bytes) : isoDate y m d h mi s ++ r = digits 4 y ++ 45 :: (digits 2 m ++ 45 :: (digits 2 d ++ 84 ::
    (digits 2 h ++ 58 :: (digits 2 mi ++ 58 :: (digits 2 s ++ r))))) := by simp [isoDate]

theorem scanSec_iso (y m d h mi s : Nat) (r : Bytes) : scanSec (isoDate y m d h mi s ++ r) = scanDouble (digits 2 s ++ r) := by
  rw [isoDate_app]
  simp only [scanSec, skipInt_digits 3 y 45 _ rfl, skipInt_digits 1 m 45 _ rfl, skipInt_digits 1 d 84 _ rfl, skipInt_digits 1 h 58 _ rfl,
    skipInt_digits 1 mi 58 _ rfl, lit_cons, Option.bind_some]

theorem monthLen_le (y m : Nat) : monthLen y m ≤ 31 := by
  unfold monthLen
  split <;> first | omega | (split <;> omega)

theorem readDate_iso (y m d h mi s : Nat) (r : Bytes) (hy : y < 10000) (hd : ValidDate y m d) (ht : ValidTime h mi s) :
    readDate (isoDate y m d h mi s ++ r) = some ⟨y, m, d, h, mi, s⟩ := by
  obtain ⟨h1, h2, h3, h4, h5⟩ := hd
  obtain ⟨t1, t2, t3⟩ := ht
  have := monthLen_le y m
  rw [isoDate_app]
  simp only [readDate, getNumber_dig 0 9999 3 y _ hy (by omega) (by omega), getNumber_dig 1 12 1 m _ (by omega) h2 h3,
    getNumber_dig 1 31 1 d _ (by omega) h4 (by omega), getNumber_dig 0 23 1 h _ (by omega) (by omega) (by omega),
    getNumber_dig 0 59 1 mi _ (by omega) (by omega) (by omega), getNumber_dig 0 61 1 s _ (by omega) (by omega) (by omega), lit_cons,
    Option.bind_some, Option.map_some]

/-- What can stand behind the seconds: a point and digits, or nothing; and then no digit, point or letter that belongs to a number. -/
inductive Fraction : Bytes → Bytes → Prop
  | none (z : Bytes) : (∀ c, z.head? = some c → isDig c = false ∧ c ∉ ([46, 101, 69, 120, 88] : Bytes)) → Fraction [] z
  | some (fs z : Bytes) : (∀ c ∈ fs, isDig c = true) → (∀ c, z.head? = some c → isDig c = false ∧ c ∉ ([46, 101, 69, 120, 88] : Bytes)) →
      Fraction fs (46 :: (fs ++ z))

theorem scanDouble_iso (s : Nat) (fs r : Bytes) (h : Fraction fs r) :
    scanDouble (digits 2 s ++ r) = some (Fp.finish f64 false (decVal (digits 2 s ++ fs) * 2 ^ 1074) (10 ^ fs.length)) := by
  have hd := digits_dig 2 s
  have hne := digits_ne 1 s
  have he : (digits 2 s).isEmpty = false := by
    have := hne
    cases hx : digits 2 s with
    | nil => exact absurd hx this
    | cons c l => rfl
  unfold scanDouble
  rw [dropSpace_dig _ r hne hd]
  have hz : ∀ z : Bytes, (∀ c, z.head? = Option.some c → isDig c = false ∧ c ∉ ([46, 101, 69, 120, 88] : Bytes)) →
      ¬ (z.head? = Option.some 101 ∨ z.head? = Option.some 69 ∨ z.head? = Option.some 120 ∨ z.head? = Option.some 88) := by
    intro z hz hh
    rcases hh with hh | hh | hh | hh <;> exact (hz _ hh).2 (by decide)
  cases h with
  | none _ h1 =>
    obtain ⟨a1, a2⟩ := takeWhile_dig (p := isDig) (digits 2 s) r hd (fun c hc => (h1 c hc).1)
    simp only [a1, a2]
    split
    · rename_i r' 
      exact absurd (h1 46 rfl).2 (by decide)
    · simp only [he, Bool.false_eq_true, false_or]
      rw [if_neg (hz r h1)]
  | some _ z h1 h2 =>
    obtain ⟨a1, a2⟩ := takeWhile_dig (p := isDig) (digits 2 s) (46 :: (fs ++ z)) hd (fun c hc => by simp at hc; subst hc; rfl)
    obtain ⟨b1, b2⟩ := takeWhile_dig (p := isDig) fs z h1 (fun c hc => (h2 c hc).1)
    simp only [a1, a2, b1, b2, he, Bool.false_eq_true, false_or]
    rw [if_neg (hz z h2)]

/-- The fraction of a time tag is the decimal fraction `n / 10 ^ k`, up to three units. -/
def Reads (f n k : Nat) : Prop := f * 10 ^ k < n * 2 ^ 32 + 3 * 10 ^ k ∧ n * 2 ^ 32 < f * 10 ^ k + 3 * 10 ^ k ∧ (n = 0 → f = 0)

theorem round_arith (s F T C U m q : Nat) (hU : U = 2 ^ 47 * C) (hC : 0 < C) (hT : T ≤ 1000000000) (hF : F < T) (h1 : q * C * T ≤ (s * T + F) * U)
    (h2 : (s * T + F) * U < (q + 1) * C * T) (h3 : q * C ≤ m) (h4 : m ≤ (q + 1) * C) (h5 : s * U ≤ m) :
    m < (s + 1) * U ∧ (m - s * U) * T ≤ F * U + C * T ∧ F * U ≤ (m - s * U) * T + C * T := by
  have hTp : 0 < T := Nat.lt_of_le_of_lt (Nat.zero_le _) hF
  have a3 := Nat.mul_le_mul_right T h3
  have a4 := Nat.mul_le_mul_right T h4
  have e0 : (s * T + F) * U = s * U * T + F * U := by rw [Nat.add_mul, Nat.mul_right_comm]
  have e1 : (q + 1) * C * T = q * C * T + C * T := by rw [Nat.add_mul, Nat.one_mul, Nat.add_mul]
  have e2 : (s + 1) * U * T = s * U * T + U * T := by rw [Nat.add_mul, Nat.one_mul, Nat.add_mul]
  have e3 : F * U + U ≤ T * U := by
    have := Nat.mul_le_mul_right U hF
    rw [Nat.succ_mul] at this; exact this
  have e4 : C * T < U := by
    rw [hU, Nat.mul_comm C]
    exact Nat.mul_lt_mul_of_pos_right (Nat.lt_of_le_of_lt hT (by decide)) hC
  have e5 : (m - s * U) * T = m * T - s * U * T := Nat.sub_mul _ _ _
  have a5 := Nat.mul_le_mul_right T h5
  rw [e0] at h1 h2
  rw [e1] at h2 a4
  have e6 : T * U = U * T := Nat.mul_comm _ _
  rw [e5]
  refine ⟨Nat.lt_of_mul_lt_mul_right (a := T) ?_, ?_, ?_⟩
  · rw [e2]; omega
  · omega
  · omega

theorem reads_arith (f F T C U g : Nat) (hU : U = 2 ^ 47 * C) (hC : 0 < C) (hTp : 0 < T) (hf : f < U) (h1 : f * T ≤ F * U + C * T) (h2 : F * U ≤ f * T + C * T)
    (g1 : f * 4294967295 / U ≤ g) (g2 : g ≤ f * 4294967295 / U + 1) : g * T < F * 4294967296 + 3 * T ∧ F * 4294967296 < g * T + 3 * T := by
  have hUp : 0 < U := by rw [hU]; exact Nat.mul_pos (by decide) hC
  have dm := Nat.div_add_mod (f * 4294967295) U
  have ml := Nat.mod_lt (f * 4294967295) hUp
  have k1 := Nat.mul_le_mul_right U g1
  have k2 := Nat.mul_le_mul_right U g2
  rw [Nat.add_mul, Nat.one_mul] at k2
  have e1 : U * (f * 4294967295 / U) = f * 4294967295 / U * U := Nat.mul_comm _ _
  have b1 : g * U ≤ f * 4294967296 + U := by omega
  have b2 : f * 4294967296 ≤ g * U + 2 * U := by omega
  have c1 := Nat.mul_le_mul_right T b1
  have c2 := Nat.mul_le_mul_right T b2
  have e2 : C * T * 4294967296 < U * T := by
    rw [hU, Nat.mul_assoc (2 ^ 47)]
    have := Nat.mul_pos hC hTp
    generalize C * T = x at *
    omega
  have e3 : f * 4294967296 * T = f * T * 4294967296 := Nat.mul_right_comm _ _ _
  have e4 : g * U * T = g * T * U := Nat.mul_right_comm _ _ _
  rw [Nat.add_mul, e3, e4] at c1
  rw [Nat.add_mul, e3, e4, Nat.mul_assoc 2] at c2
  have e5 : F * 4294967296 * U = F * U * 4294967296 := Nat.mul_right_comm _ _ _
  have e6 : (F * 4294967296 + 3 * T) * U = F * U * 4294967296 + 3 * (U * T) := by rw [Nat.add_mul, e5, Nat.mul_assoc 3, Nat.mul_comm T]
  have e7 : (g * T + 3 * T) * U = g * T * U + 3 * (U * T) := by rw [Nat.add_mul, Nat.mul_assoc 3, Nat.mul_comm T]
  refine ⟨Nat.lt_of_mul_lt_mul_right (a := U) ?_, Nat.lt_of_mul_lt_mul_right (a := U) ?_⟩
  · rw [e6]
    clear dm ml k1 k2 e1 b1 b2 e5 e6 e7 hU e3 e4
    generalize g * T * U = a at *
    generalize F * U = b at *
    generalize f * T = c at *
    generalize U * T = d at *
    generalize C * T = e at *
    omega
  · rw [e7, e5]
    have h2' := Nat.mul_le_mul_right 4294967296 h2
    rw [Nat.add_mul] at h2'
    exact Nat.lt_of_le_of_lt (Nat.le_trans h2' (Nat.add_le_add_right c2 _)) (by omega)

theorem fracOf_spec (s F k : Nat) (hs : s < 60) (hF : F < 10 ^ k) (hk : k ≤ 9) :
    ∃ g, fracOf (Fp.finish f64 false ((s * 10 ^ k + F) * 2 ^ 1074) (10 ^ k)) = some g ∧ Reads g.toNat F k := by
  have hT : 10 ^ k ≤ 1000000000 := Nat.le_trans (Nat.pow_le_pow_right (by decide) hk) (by decide)
  have hTp : 0 < 10 ^ k := Nat.pow_pos (by decide)
  have hC := Nat.two_pow_pos 1027
  have hU : (2 : Nat) ^ 1074 = 2 ^ 47 * 2 ^ 1027 := by rw [← Nat.pow_add]
  have hUp := Nat.two_pow_pos 1074
  have hu : f64.unit = 1074 := by decide
  have hp : f64.mb + 1 = 53 := rfl
  have ht : f64.top = 2098 := by decide
  have hzero : F = 0 → Fp.roundDiv 53 ((s * 10 ^ k + F) * 2 ^ 1074) (10 ^ k) = s * 2 ^ 1074 := fun h0 => by
    rw [h0, Nat.add_zero, Nat.mul_right_comm]
    exact Fp.roundDiv_exact 53 _ _ (by decide) hTp ⟨s, 1074, by omega, rfl⟩
  have hnear := Fp.roundDiv_nearest 53 ((s * 10 ^ k + F) * 2 ^ 1074) (10 ^ k) (by decide) hTp
  have hfin : Fp.finish f64 false ((s * 10 ^ k + F) * 2 ^ 1074) (10 ^ k) =
      if 2 ^ 2098 ≤ Fp.roundDiv 53 ((s * 10 ^ k + F) * 2 ^ 1074) (10 ^ k) then .inf false
      else .fin false (Fp.roundDiv 53 ((s * 10 ^ k + F) * 2 ^ 1074) (10 ^ k)) := by
    rw [Fp.finish, hp, ht]
  rw [hfin]
  generalize Fp.roundDiv 53 ((s * 10 ^ k + F) * 2 ^ 1074) (10 ^ k) = m at *
  have hlt : (s * 10 ^ k + F) * 2 ^ 1074 < 2 ^ 53 * 2 ^ 1027 * 10 ^ k := by
    have h1 : s * 10 ^ k + F < 60 * 10 ^ k := by
      have := Nat.mul_le_mul_right (10 ^ k) (show s + 1 ≤ 60 from hs)
      rw [Nat.add_mul, Nat.one_mul] at this; omega
    have h2 := Nat.mul_lt_mul_of_pos_right h1 hUp
    refine Nat.lt_of_lt_of_le h2 ?_
    rw [hU, Nat.mul_right_comm, ← Nat.mul_assoc 60]
    refine Nat.mul_le_mul_right _ (Nat.mul_le_mul_right _ (by decide))
  have dm := Nat.div_add_mod ((s * 10 ^ k + F) * 2 ^ 1074) (2 ^ 1027 * 10 ^ k)
  have dl := Nat.mod_lt ((s * 10 ^ k + F) * 2 ^ 1074) (Nat.mul_pos hC hTp)
  have hq : (s * 10 ^ k + F) * 2 ^ 1074 / (2 ^ 1027 * 10 ^ k) < 2 ^ 53 := by
    rw [Nat.div_lt_iff_lt_mul (Nat.mul_pos hC hTp), ← Nat.mul_assoc]; exact hlt
  generalize (s * 10 ^ k + F) * 2 ^ 1074 / (2 ^ 1027 * 10 ^ k) = q at *
  have w1 : q * 2 ^ 1027 * 10 ^ k ≤ (s * 10 ^ k + F) * 2 ^ 1074 := by rw [Nat.mul_assoc, Nat.mul_comm q]; omega
  have w2 : (s * 10 ^ k + F) * 2 ^ 1074 < (q + 1) * 2 ^ 1027 * 10 ^ k := by
    rw [Nat.mul_assoc, Nat.add_mul q 1, Nat.one_mul, Nat.mul_comm q]; omega
  have hb := nearest_between 53 m _ _ 1027 q (by decide) hTp hnear hq w1 w2
  have hge := nearest_ge 53 m _ _ (s * 2 ^ 1074) hTp hnear ⟨s, 1074, by omega, rfl⟩
    (by rw [Nat.mul_right_comm]; exact Nat.mul_le_mul_right _ (Nat.le_add_right _ _))
  obtain ⟨r1, r2, r3⟩ := round_arith s F (10 ^ k) (2 ^ 1027) (2 ^ 1074) m q hU hC hT hF w1 w2 hb.1 hb.2 hge
  have hm : m < 2 ^ 2098 := by
    refine Nat.lt_of_lt_of_le r1 ?_
    rw [show (2098 : Nat) = 1024 + 1074 by decide, Nat.pow_add]
    exact Nat.mul_le_mul_right _ (Nat.le_trans (show s + 1 ≤ 2 ^ 6 by omega) (Nat.pow_le_pow_right (by decide) (by decide)))
  have hmod : m % 2 ^ 1074 = m - s * 2 ^ 1074 := by
    rw [show m = (m - s * 2 ^ 1074) + 2 ^ 1074 * s by rw [Nat.mul_comm]; omega, Nat.add_mul_mod_self_left, Nat.mul_comm (2 ^ 1074), Nat.add_sub_cancel]
    refine Nat.mod_eq_of_lt ?_
    rw [Nat.add_mul, Nat.one_mul] at r1
    generalize s * 2 ^ 1074 = S at *
    generalize (2 : Nat) ^ 1074 = U at *
    omega
  rw [if_neg (Nat.not_le.mpr hm)]
  have hfl : m - s * 2 ^ 1074 < 2 ^ 1074 := by rw [← hmod]; exact Nat.mod_lt _ hUp
  obtain ⟨v, f1, f2, f3, f4, f5⟩ := frac_part (m - s * 2 ^ 1074) hfl
  have t2 : Fp.toInt f64 0 M32 (.fin false v) = some ((v / 2 ^ 1074 : Nat) : Int) := by
    simp only [Fp.toInt, hu, Fp.signed, Bool.false_eq_true, if_false]
    generalize v / 2 ^ 1074 = q at *
    rw [if_pos]
    exact ⟨by omega, by simp only [M32]; omega⟩
  have hv : v / 2 ^ 1074 % 2 ^ 32 = v / 2 ^ 1074 := Nat.mod_eq_of_lt (Nat.lt_of_le_of_lt f4 (by decide))
  refine ⟨UInt32.ofNat (v / 2 ^ 1074), by simp only [fracOf, hmod, f1, t2, Option.map_some, Int.toNat_natCast], ?_⟩
  rw [UInt32.toNat_ofNat', hv]
  obtain ⟨x1, x2⟩ := reads_arith (m - s * 2 ^ 1074) F (10 ^ k) (2 ^ 1027) (2 ^ 1074) (v / 2 ^ 1074) hU hC hTp hfl r2 r3 f2 f3
  refine ⟨x1, x2, fun h0 => ?_⟩
  have := hzero h0
  rw [f5 (by rw [this, Nat.sub_self]), Nat.zero_div]

/-! ### C31 for texts -/

theorem tt_ext {u t : Timetag} (h1 : u.sec = t.sec) (h2 : u.frac = t.frac) : u = t := by
  cases u; cases t; simp_all

theorem trip_arith (a K u M T f : Nat) (b1 : K * M < f * a + 3 * M) (b2 : f * a < K * M + 3 * M) (c1 : u * T < K * M + 3 * T) (c2 : K * M < u * T + 3 * T) :
    u * T < f * a + 3 * M + 3 * T ∧ f * a < u * T + 3 * M + 3 * T := by omega

theorem year_lt (y m d h mi s : Nat) (hd : ValidDate y m d) (hs : seconds y m d h mi s < 4294967296) : y < 2037 := by
  apply Classical.byContradiction
  intro hn
  have h := daysToYear_mono 137 (y - 1900 - 137)
  rw [show 137 + (y - 1900 - 137) = y - 1900 by omega] at h
  have := daysToYear_137
  unfold seconds dayNumber at hs
  omega

/-- **C31 (reading a text).**  A date and time of the calendar, written in the form of ISO 8601 with up to nine digits of a fraction or
without a fraction, is read as its second since 1900-01-01, modulo 2^32, and as its fraction, up to three units of 2^-32 seconds. -/
theorem C31_text_parse (y m d h mi s : Nat) (fs r : Bytes) (hd : ValidDate y m d) (hy : y < 10000) (ht : ValidTime h mi s) (hr : Fraction fs r)
    (hl : fs.length ≤ 9) :
    ∃ t, fromISO8601 (isoDate y m d h mi s ++ r) = some t ∧ t.sec.toNat = seconds y m d h mi s % 2 ^ 32 ∧ Reads t.frac.toNat (decVal fs) fs.length := by
  have hs : s < 60 := ht.2.2
  have hv : decVal (digits 2 s ++ fs) = s * 10 ^ fs.length + decVal fs := by rw [decVal_app, decVal_digits 2 s (by omega)]
  have hF : decVal fs < 10 ^ fs.length := by
    have hfs : ∀ c ∈ fs, isDig c = true := by
      cases hr with
      | none _ _ => intro c hc; simp at hc
      | some _ _ h _ => exact h
    clear hr hv hl
    induction fs with
    | nil => decide
    | cons c fs ih =>
      have e : decVal (c :: fs) = (c.toNat - 48) * 10 ^ fs.length + decVal fs := by
        have := decVal_app [c] fs
        simpa [decVal] using this
      have h1 := ih (fun c hc => hfs c (by simp [hc]))
      have h2 := hfs c (by simp)
      simp only [isDig, Bool.and_eq_true, decide_eq_true_eq, UInt8.le_iff_toNat_le] at h2
      have h3 : (57 : UInt8).toNat = 57 := rfl
      have h4 : (c.toNat - 48) * 10 ^ fs.length ≤ 9 * 10 ^ fs.length := Nat.mul_le_mul_right _ (by omega)
      rw [e, List.length_cons, Nat.pow_succ']
      omega
  obtain ⟨g, g1, g2⟩ := fracOf_spec s (decVal fs) fs.length hs hF hl
  refine ⟨⟨UInt32.ofNat (seconds y m d h mi s % 4294967296), g⟩, ?_, ?_, g2⟩
  · rw [fromISO8601, scanSec_iso, scanDouble_iso s fs r hr, hv, readDate_iso y m d h mi s r hy hd ht, Option.bind_some, Option.bind_some,
      C31_parse y m d h mi s hd (by omega) ht, Option.bind_some, g1, Option.map_some]
  · simp only [UInt32.toNat_ofNat']
    omega

/-- **C31 (printing a text), what holds.**  For a time tag whose date is printable, the text is the date and time of its second in the form of
ISO 8601 with six digits of a fraction, which is that of the time tag up to three microseconds, unless this is one of the last three
microseconds of the second.  Missing: the dates that are not printable (see `C31_print_partial`), and these microseconds
(`C31_text_fraction_fails`). -/
theorem C31_text_print_partial (t : Timetag) (y m d h mi s : Nat) (hd : ValidDate y m d) (ht : ValidTime h mi s) (hp : Printable y m d)
    (hs : t.sec.toNat = seconds y m d h mi s) :
    ∃ k, k < 1000000 ∧ isoText t = some (isoDate y m d h mi s ++ [46] ++ digits 6 k ++ [90]) ∧
      (t.frac.toNat + 12885 < 2 ^ 32 → Millionths t.frac.toNat k) := by
  have hlt := t.sec.toNat_lt
  have hy := year_lt y m d h mi s hd (by omega)
  have h1 := C31_print_partial y m d h mi s hd ht hp (by omega)
  rw [← hs] at h1
  have := monthLen_le y m
  obtain ⟨a1, a2, a3, a4, a5⟩ := hd
  obtain ⟨t1, t2, t3⟩ := ht
  obtain ⟨v, hv, h2⟩ := isoText_eq t _ h1 (show y < 10000 by omega)
    ⟨show m < 100 by omega, show d < 100 by omega, show h < 100 by omega, show mi < 100 by omega, show s < 100 by omega⟩
  refine ⟨_, Nat.mod_lt _ (by decide), h2, fun hf => ?_⟩
  obtain ⟨g1, g2⟩ := micros_frac t v hv hf
  rw [Nat.mod_eq_of_lt g1]
  exact g2

/-- **C31 (text and back), what holds.**  The text of a time tag with a printable date is read as a time tag of the same second; the fraction
is the same up to three microseconds, unless it is one of the last three microseconds of the second, and whole seconds come back exactly. -/
theorem C31_text_roundtrip_partial (t : Timetag) (y m d h mi s : Nat) (hd : ValidDate y m d) (ht : ValidTime h mi s) (hp : Printable y m d)
    (hs : t.sec.toNat = seconds y m d h mi s) :
    ∃ x u, isoText t = some x ∧ fromISO8601 x = some u ∧ u.sec = t.sec ∧ (t.frac = 0 → u = t) ∧
      (t.frac.toNat + 12885 < 2 ^ 32 →
        u.frac.toNat * 1000000 < t.frac.toNat * 1000000 + 3 * 2 ^ 32 + 3 * 1000000 ∧ t.frac.toNat * 1000000 < u.frac.toNat * 1000000 + 3 * 2 ^ 32 + 3 * 1000000) := by
  have hlt := t.sec.toNat_lt
  have hy := year_lt y m d h mi s hd (by omega)
  obtain ⟨k, hk, h1, h2⟩ := C31_text_print_partial t y m d h mi s hd ht hp hs
  have hfr : Fraction (digits 6 k) (46 :: (digits 6 k ++ [90])) := .some _ _ (digits_dig 6 k) (by intro c hc; simp at hc; subst hc; decide)
  obtain ⟨u, g1, g2, g3⟩ := C31_text_parse y m d h mi s (digits 6 k) _ hd (by omega) ht hfr (by rw [digits_length]; decide)
  rw [digits_length, decVal_digits 6 k hk] at g3
  have e : isoDate y m d h mi s ++ [46] ++ digits 6 k ++ [90] = isoDate y m d h mi s ++ 46 :: (digits 6 k ++ [90]) := by simp
  rw [e] at h1
  have hsec : u.sec = t.sec := by
    apply UInt32.toNat_inj.mp
    rw [g2, hs]; omega
  refine ⟨_, u, h1, g1, hsec, fun h0 => ?_, fun hf => ?_⟩
  · have hf0 : t.frac.toNat = 0 := by rw [h0]; rfl
    have := (h2 (by omega)).2.2 hf0
    have := g3.2.2 this
    exact tt_ext hsec (UInt32.toNat_inj.mp (by rw [this, hf0]))
  · obtain ⟨b1, b2, -⟩ := h2 hf
    obtain ⟨c1, c2, -⟩ := g3
    exact trip_arith _ _ _ (2 ^ 32) (10 ^ 6) _ b1 b2 c1 c2

/-- The full claim for the fraction: the text of a time tag with a printable date is read as a time within three microseconds. -/
def C31_text_full : Prop :=
  ∀ (t : Timetag) (y m d h mi s : Nat), ValidDate y m d → ValidTime h mi s → Printable y m d → t.sec.toNat = seconds y m d h mi s →
    ∃ x u, isoText t = some x ∧ fromISO8601 x = some u ∧ t.frac.toNat * 1000000 < u.frac.toNat * 1000000 + 3 * 2 ^ 32 + 3 * 1000000

/-- It fails at the end of a second: half a microsecond before the end of 2024-02-29T12:00:00, `1.000000` is printed and its first two
characters are dropped, so that the text is that of the beginning of this second. -/
theorem C31_text_fraction_fails : ¬ C31_text_full := by
  intro hf
  obtain ⟨x, u, h1, h2, h3⟩ := hf ⟨3918196800, 4294965300⟩ 2024 2 29 12 0 0 (by unfold ValidDate; decide) (by unfold ValidTime; decide)
    (by unfold Printable; decide) (by decide +kernel)
  have e1 : isoText ⟨3918196800, 4294965300⟩ = some (isoDate 2024 2 29 12 0 0 ++ [46] ++ digits 6 0 ++ [90]) := by decide +kernel
  rw [e1] at h1
  cases h1
  have e2 : fromISO8601 (isoDate 2024 2 29 12 0 0 ++ [46] ++ digits 6 0 ++ [90]) = some ⟨3918196800, 0⟩ := by decide +kernel
  rw [e2] at h2
  cases h2
  revert h3
  decide

/-- **C31 (size).**  The size found in advance is 28 for every time tag, one more than the length of the text. -/
theorem C31_text_size (t : Timetag) : isoLen t = some 28 ∧ ∀ x, isoText t = some x → x.length = 27 := by
  obtain ⟨v, c, -, h⟩ := fracText_eq t
  refine ⟨by simp [isoLen, h, digits_length], fun x hx => ?_⟩
  have hfl : ∀ w n, (field (w + 1) n).length = w + 1 := by
    intro w n
    rw [field, List.length_take, pad, List.length_append, List.length_replicate]
    omega
  simp only [isoText, Option.bind_eq_some_iff, h, Option.map_some, Option.some.injEq] at hx
  obtain ⟨dt, -, rfl⟩ := hx
  simp only [dateText, List.length_append, List.length_cons, List.length_nil, List.length_drop, List.length_take, digits_length, hfl 3, hfl 1]
  omega

example : isoText ⟨seconds 2024 2 29 23 59 58 |> UInt32.ofNat, 2147483648⟩ = some (n! "2024-02-29T23:59:58.500000Z") ∧
    fromISO8601 (n! "2024-02-29T23:59:58.500000Z") = some ⟨seconds 2024 2 29 23 59 58 |> UInt32.ofNat, 2147483647⟩ := by decide +kernel

end Libo.Props
