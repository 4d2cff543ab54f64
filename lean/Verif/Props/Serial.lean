import Verif.Serial
import Verif.BasicLemmas
/-!
# The serial state machine (C32)
-/

namespace Libo.Props
open Libo.Serial

/-! ## Specification: streams -/

/-- A message in a bundle: size field, padded address, padded type tags, argument data. -/
def msgBytes (addr tags data : Bytes) : Bytes :=
  let body := padStr addr ++ padStr (44 :: tags) ++ data
  be32 body.length ++ body

/-! ## Bit lemmas -/

theorem land_hi (k m c : Nat) (hc : c < 2 ^ 32) : (2 ^ 32 * k + c) &&& (2 ^ 32 * m) = 2 ^ 32 * (k &&& m) := by
  apply Nat.eq_of_testBit_eq
  intro i
  rw [Nat.testBit_and, Nat.testBit_two_pow_mul_add _ hc, Nat.testBit_two_pow_mul, Nat.testBit_two_pow_mul, Nat.testBit_and]
  by_cases h : i < 32
  · simp [h, show ¬ 32 ≤ i by omega]
  · simp [h, show 32 ≤ i by omega]

theorem land_lo (k c : Nat) (hc : c < 2 ^ 32) : (2 ^ 32 * k + c) &&& 0xffffffff = c := by
  have : (0xffffffff : Nat) = 2 ^ 32 - 1 := by decide
  rw [this, Nat.and_two_pow_sub_one_eq_mod]
  omega

theorem lor_hi (k m c : Nat) (hc : c < 2 ^ 32) : (2 ^ 32 * k + c) ||| (2 ^ 32 * m) = 2 ^ 32 * (k ||| m) + c := by
  apply Nat.eq_of_testBit_eq
  intro i
  rw [Nat.testBit_or, Nat.testBit_two_pow_mul_add _ hc, Nat.testBit_two_pow_mul, Nat.testBit_two_pow_mul_add _ hc, Nat.testBit_or]
  by_cases h : i < 32
  · simp [h, show ¬ 32 ≤ i by omega]
  · simp [h, show 32 ≤ i by omega]

theorem lor_lo (k c : Nat) (hc : c < 2 ^ 32) : (2 ^ 32 * k) ||| c = 2 ^ 32 * k + c := by
  rw [Nat.two_pow_add_eq_or_of_lt hc]

/-- The machine in state `k` (upper word) with counter `c`. -/
def st (k c : Nat) : Nat := 2 ^ 32 * k + c

theorem st_counter {k c : Nat} (hc : c < 2 ^ 32) : counter (st k c) = c := land_lo k c hc

theorem st_errorp {k c : Nat} (hc : c < 2 ^ 32) (hk : k &&& 0xff = 0) : errorp (st k c) = false := by
  unfold errorp st
  have : (0x000000ff00000000 : Nat) = 2 ^ 32 * 0xff := by decide
  rw [this, land_hi k _ c hc, hk]; rfl

theorem st_errorp' {k c : Nat} (hc : c < 2 ^ 32) (hk : k &&& 0xff ≠ 0) : errorp (st k c) = true := by
  unfold errorp st
  have : (0x000000ff00000000 : Nat) = 2 ^ 32 * 0xff := by decide
  rw [this, land_hi k _ c hc, bne_iff_ne]; omega

theorem st_dec {k c : Nat} (hc : 0 < c) (hc2 : c < 2 ^ 32) (hk : k < 2 ^ 32) : dec (st k c) = st k (c - 1) := by
  unfold dec st; omega

theorem st_inc {k c : Nat} (hc : c + 1 < 2 ^ 32) (hk : k < 2 ^ 32) : inc (st k c) = st k (c + 1) := by
  unfold inc st; omega

theorem st_sub (c : Nat) (hc : 0 < c) (hc2 : c < 2 ^ 32) : sub32 c 1 = c - 1 := by
  unfold sub32; omega

/-- One step, with the fields of the word taken apart. -/
theorem step (b : UInt8) {k c : Nat} (hc : c < 2 ^ 32) : processByte b (st k c) =
    if 2 ^ 32 * (k &&& 0xff000000) = INIT then
      if b = 35 then BUNDLE_HEADER ||| HEADER_ID else if b = 47 then MESSAGE ||| ADDRESS else E_BADHEADER
    else if 2 ^ 32 * (k &&& 0xff000000) = BUNDLE_HEADER then header b (st k c) (2 ^ 32 * (k &&& 0x00ff0000)) (2 ^ 32 * (k &&& 0xff00)) c
    else if 2 ^ 32 * (k &&& 0xff000000) = BUNDLE_MESSAGE then msgCase b (st k c) (2 ^ 32 * (k &&& 0x00ff0000)) (2 ^ 32 * (k &&& 0xff00)) c
    else if 2 ^ 32 * (k &&& 0xff000000) = MESSAGE then naked b (st k c) (2 ^ 32 * (k &&& 0x00ff0000)) (2 ^ 32 * (k &&& 0xff00)) c
    else 0 := by
  have e1 : (0xff00000000000000 : Nat) = 2 ^ 32 * 0xff000000 := by decide
  have e2 : (0x00ff000000000000 : Nat) = 2 ^ 32 * 0x00ff0000 := by decide
  have e3 : (0x0000ff0000000000 : Nat) = 2 ^ 32 * 0xff00 := by decide
  unfold processByte
  have h1 : st k c &&& 0xff00000000000000 = 2 ^ 32 * (k &&& 0xff000000) := by rw [e1]; exact land_hi k _ c hc
  have h2 : st k c &&& 0x00ff000000000000 = 2 ^ 32 * (k &&& 0x00ff0000) := by rw [e2]; exact land_hi k _ c hc
  have h3 : st k c &&& 0x0000ff0000000000 = 2 ^ 32 * (k &&& 0xff00) := by rw [e3]; exact land_hi k _ c hc
  have h4 : st k c &&& 0x00000000ffffffff = c := land_lo k c hc
  simp only [h1, h2, h3, h4]

theorem step_msg (b : UInt8) {k c state micro : Nat} (hc : c < 2 ^ 32) (h1 : 2 ^ 32 * (k &&& 0xff000000) = BUNDLE_MESSAGE)
    (h2 : 2 ^ 32 * (k &&& 0x00ff0000) = state) (h3 : 2 ^ 32 * (k &&& 0xff00) = micro) :
    processByte b (st k c) = msgCase b (st k c) state micro c := by
  rw [step b hc, h1, h2, h3, if_neg (by decide), if_neg (by decide), if_pos rfl]

theorem st_lor {k m c j : Nat} (hc : c < 2 ^ 32) {M : Nat} (hM : M = 2 ^ 32 * m) (hj : k ||| m = j) : st k c ||| M = st j c := by
  rw [hM, ← hj]; exact lor_hi k m c hc

theorem mk_lor {k c M : Nat} (hM : M = 2 ^ 32 * k) (hc : c < 2 ^ 32) : M ||| c = st k c := by
  rw [hM]; exact lor_lo k c hc

attribute [local irreducible] st

/-! ## The steps of a message in a bundle -/

/-- A character of an address without brackets. -/
def plainChar (b : UInt8) : Bool := b != 0 && b != 91 && b != 93 && b != 123 && b != 125

/-- Upper words of the states in a message. -/
def KA : Nat := 0x02020000
def KAN : Nat := 0x02021000
def KT : Nat := 0x02040000
def KTN : Nat := 0x02040100
def KD : Nat := 0x02080000
def KS : Nat := 0x02010000
def KH : Nat := 0x01020000

theorem step_addr (b : UInt8) {c : Nat} (hb : plainChar b = true) (h0 : 0 < c) (hc : c < 2 ^ 32) :
    processByte b (st KA c) = st KA (c - 1) := by
  simp only [plainChar, Bool.and_eq_true, bne_iff_ne, ne_eq] at hb
  obtain ⟨⟨⟨⟨e1, e2⟩, e3⟩, e4⟩, e5⟩ := hb
  rw [step_msg b hc (state := ADDRESS) (micro := 0) (by decide) (by decide) (by decide), msgCase, if_neg (by decide), if_pos rfl,
    msgAddress, if_pos rfl, if_neg e2, if_neg e4, if_neg e1, if_neg e3, if_neg e5]
  exact st_dec h0 hc (by decide)

theorem step_addr_nul {c : Nat} (h0 : 0 < c) (hc : c < 2 ^ 32) : processByte 0 (st KA c) = st KAN (c - 1) := by
  rw [step_msg 0 hc (state := ADDRESS) (micro := 0) (by decide) (by decide) (by decide), msgCase, if_neg (by decide), if_pos rfl,
    msgAddress, if_pos rfl, if_neg (by decide), if_neg (by decide), if_pos rfl,
    st_lor hc (m := 0x1000) (j := KAN) (by decide) (by decide)]
  exact st_dec h0 hc (by decide)

theorem step_addr_pad {c : Nat} (h0 : c % 4 ≠ 0) (hc : c < 2 ^ 32) : processByte 0 (st KAN c) = st KAN (c - 1) := by
  rw [step_msg 0 hc (state := ADDRESS) (micro := ADDRESS_NULL) (by decide) (by decide) (by decide), msgCase, if_neg (by decide), if_pos rfl,
    msgAddress, if_neg (by decide), if_neg (by decide), if_neg (by decide), if_neg (by decide), if_neg (by decide), if_pos rfl,
    if_neg h0, if_pos rfl]
  exact st_dec (by omega) hc (by decide)

theorem step_comma {c : Nat} (h0 : c % 4 = 0) (hp : 0 < c) (hc : c < 2 ^ 32) : processByte 44 (st KAN c) = st KT (c - 1) := by
  rw [step_msg 44 hc (state := ADDRESS) (micro := ADDRESS_NULL) (by decide) (by decide) (by decide), msgCase, if_neg (by decide), if_pos rfl,
    msgAddress, if_neg (by decide), if_neg (by decide), if_neg (by decide), if_neg (by decide), if_neg (by decide), if_pos rfl,
    if_pos h0, if_pos rfl, st_sub c hp hc]
  exact mk_lor (by decide) (by omega)

theorem step_tag (b : UInt8) {c : Nat} (hb : tagOK b = true) (h0 : 0 < c) (hc : c < 2 ^ 32) :
    processByte b (st KT c) = st KT (c - 1) := by
  rw [step_msg b hc (state := TYPETAGS) (micro := 0) (by decide) (by decide) (by decide), msgCase, if_neg (by decide), if_neg (by decide),
    if_pos rfl, msgTypetags, if_pos rfl, if_pos hb]
  exact st_dec h0 hc (by decide)

theorem step_tag_nul {c : Nat} (h0 : 0 < c) (hc : c < 2 ^ 32) : processByte 0 (st KT c) = st KTN (c - 1) := by
  rw [step_msg 0 hc (state := TYPETAGS) (micro := 0) (by decide) (by decide) (by decide), msgCase, if_neg (by decide), if_neg (by decide),
    if_pos rfl, msgTypetags, if_pos rfl, if_neg (by decide), if_pos rfl,
    st_lor hc (m := 0x100) (j := KTN) (by decide) (by decide)]
  exact st_dec h0 hc (by decide)

theorem step_tag_pad {c : Nat} (h0 : c % 4 ≠ 0) (hc : c < 2 ^ 32) : processByte 0 (st KTN c) = st KTN (c - 1) := by
  rw [step_msg 0 hc (state := TYPETAGS) (micro := TYPETAGS_NULL) (by decide) (by decide) (by decide), msgCase, if_neg (by decide), if_neg (by decide),
    if_pos rfl, msgTypetags, if_neg (by decide), if_pos rfl, if_neg h0, if_pos rfl]
  exact st_dec (by omega) hc (by decide)

theorem step_data0 (b : UInt8) {c : Nat} (h0 : c % 4 = 0) (hp : 0 < c) (hc : c < 2 ^ 32) :
    processByte b (st KTN c) = st KD (c - 1) := by
  rw [step_msg b hc (state := TYPETAGS) (micro := TYPETAGS_NULL) (by decide) (by decide) (by decide), msgCase, if_neg (by decide), if_neg (by decide),
    if_pos rfl, msgTypetags, if_neg (by decide), if_pos rfl, if_pos h0, st_sub c hp hc]
  exact mk_lor (by decide) (by omega)

theorem step_data (b : UInt8) {c : Nat} (hp : 0 < c) (hc : c < 2 ^ 32) : processByte b (st KD c) = st KD (c - 1) := by
  rw [step_msg b hc (state := DATA) (micro := 0) (by decide) (by decide) (by decide), msgCase, if_neg (by decide), if_neg (by decide),
    if_neg (by decide), if_pos rfl, msgData, if_neg (by omega)]
  exact st_dec hp hc (by decide)

theorem step_next (b : UInt8) : processByte b (st KD 0) = st KS 0 := by
  rw [step_msg b (by decide) (state := DATA) (micro := 0) (by decide) (by decide) (by decide), msgCase, if_neg (by decide), if_neg (by decide),
    if_neg (by decide), if_pos rfl, msgData, if_pos rfl]
  rw [← mk_lor (k := KS) (c := 0) rfl (by decide)]
  decide

theorem land_ff (c : Nat) : c &&& 0xff = c % 256 := by
  have : (0xff : Nat) = 2 ^ 8 - 1 := by decide
  rw [this, Nat.and_two_pow_sub_one_eq_mod]

theorem step_size (b : UInt8) {c : Nat} (hc : c < 2 ^ 32) : processByte b (st KS c) = msgSize b c := by
  rw [step_msg b hc (state := SIZE) (micro := 0) (by decide) (by decide) (by decide), msgCase, if_pos rfl]

theorem step_size2 : processByte 0 (st KS 0) = st KS 1 := by
  rw [step_size 0 (by decide), ← mk_lor (k := KS) (c := 1) rfl (by decide)]
  decide

theorem or_small {c x : Nat} (hc : c % 4 = 0) (hx : x < 4) : c ||| x = c + x := by
  rw [show c = 2 ^ 2 * (c / 4) by omega, ← Nat.two_pow_add_eq_or_of_lt (by omega)]

theorem step_size3 (b : UInt8) : processByte b (st KS 1) = st KS (b.toNat * 256 + 2) := by
  have hb := b.toNat_lt
  have hsh : shl b 8 = b.toNat * 256 := by unfold shl; simp only []; rw [if_pos (by omega)]
  rw [step_size b (by decide)]
  unfold msgSize
  simp only [show (1 : Nat) &&& 0xff = 1 from rfl]
  rw [if_neg (by decide), if_pos trivial, hsh, Nat.or_assoc, or_small (c := b.toNat * 256) (by omega) (by decide)]
  exact mk_lor (by decide) (by omega)

theorem step_size4 (b : UInt8) {d : Nat} (hd : d < 256) (hb : b.toNat < 128) (h4 : b.toNat % 4 = 0) :
    processByte b (st KS (d * 256 + 2)) = st KS (d * 256 + b.toNat) := by
  have hc : d * 256 + 2 < 2 ^ 32 := by omega
  rw [step_size b hc]
  unfold msgSize
  simp only [land_ff]
  rw [if_neg (by omega), if_neg (by omega), if_pos (by omega), if_pos hb]
  have e1 : d * 256 + 2 ||| b.toNat = d * 256 + 2 + b.toNat := by
    have e2 : d * 256 + 2 ||| b.toNat = 2 ^ 8 * d + (2 ||| b.toNat) := by
      rw [show d * 256 + 2 = 2 ^ 8 * d + 2 by omega, Nat.two_pow_add_eq_or_of_lt (show 2 < 2 ^ 8 by decide),
        Nat.or_assoc, ← Nat.two_pow_add_eq_or_of_lt (Nat.or_lt_two_pow (by decide) (by omega))]
    have e3 : 2 ||| b.toNat = b.toNat + 2 := by rw [Nat.or_comm, or_small h4 (by decide)]
    omega
  rw [e1]
  have e4 : sub32 (d * 256 + 2 + b.toNat) 2 = d * 256 + b.toNat := by unfold sub32; omega
  rw [e4]
  exact mk_lor (by decide) (by omega)

theorem step_slash {c : Nat} (hlo : 3 ≤ c % 256) (hc : c < 2 ^ 32) : processByte 47 (st KS c) = st KA (c - 1) := by
  rw [step_size 47 hc]
  unfold msgSize
  simp only [land_ff]
  rw [if_neg (by omega), if_neg (by omega), if_neg (by omega), if_pos trivial, st_sub c (by omega) hc]
  exact mk_lor (by decide) (by omega)

/-! ## Runs -/

theorem run_append (s : Nat) (a b : Bytes) : run s (a ++ b) = run (run s a) b := List.foldl_append ..

/-- Feeding `bs` in state `s` ends in state `s'` and after `j` bytes the state satisfies `P j`. -/
def Runs (P : Nat → Nat → Prop) (s : Nat) (bs : Bytes) (s' : Nat) : Prop :=
  run s bs = s' ∧ ∀ j, 0 < j → j ≤ bs.length → P j (run s (bs.take j))

theorem Runs.nil (P : Nat → Nat → Prop) (s : Nat) : Runs P s [] s :=
  ⟨rfl, fun j h1 h2 => by simp at h2; omega⟩

theorem Runs.append {P : Nat → Nat → Prop} {s s' s'' : Nat} {a b : Bytes} (h1 : Runs P s a s')
    (h2 : Runs (fun j => P (j + a.length)) s' b s'') : Runs P s (a ++ b) s'' := by
  refine ⟨by rw [run_append, h1.1, h2.1], fun j hj hl => ?_⟩
  rw [List.take_append]
  by_cases h : j ≤ a.length
  · rw [show j - a.length = 0 by omega]
    simp only [List.take_zero, List.append_nil]
    exact h1.2 j hj h
  · rw [List.take_of_length_le (by omega), run_append, h1.1]
    have := h2.2 (j - a.length) (by omega) (by simp at hl; omega)
    simp only [show j - a.length + a.length = j by omega] at this
    exact this

theorem Runs.cons {P : Nat → Nat → Prop} {s s' : Nat} {b : UInt8} {bs : Bytes} (h1 : P 1 (processByte b s))
    (h2 : Runs (fun j => P (j + 1)) (processByte b s) bs s') : Runs P s (b :: bs) s' := by
  have : Runs P s [b] (processByte b s) := by
    refine ⟨rfl, fun j hj hl => ?_⟩
    have : j = 1 := by simp at hl; omega
    subst this; exact h1
  exact this.append h2

theorem Runs.mono {P Q : Nat → Nat → Prop} {s s' : Nat} {bs : Bytes} (h : Runs P s bs s')
    (hi : ∀ j x, 0 < j → j ≤ bs.length → P j x → Q j x) : Runs Q s bs s' :=
  ⟨h.1, fun j h1 h2 => hi j _ h1 h2 (h.2 j h1 h2)⟩

/-- No error on the way. -/
def Quiet (_ : Nat) (x : Nat) : Prop := errorp x = false

/-- No error, and the counter is what is left of `c` after `j` bytes. -/
def Down (c j : Nat) (x : Nat) : Prop := errorp x = false ∧ counter x + j = c

theorem Down.of_st {k c j n : Nat} (hc : c < 2 ^ 32) (hk : k &&& 0xff = 0) (h : c + j = n) : Down n j (st k c) :=
  ⟨st_errorp hc hk, by rw [st_counter hc]; exact h⟩

theorem Runs.down_append {s s' s'' c : Nat} {a b : Bytes} (h1 : Runs (Down c) s a s') (hc : a.length ≤ c)
    (h2 : Runs (Down (c - a.length)) s' b s'') : Runs (Down c) s (a ++ b) s'' :=
  h1.append (h2.mono fun j x _ _ h => ⟨h.1, by have := h.2; omega⟩)

theorem down_step {k k' c : Nat} {b : UInt8} (h : processByte b (st k c) = st k' (c - 1)) (h0 : 0 < c) (hc : c < 2 ^ 32)
    (hk : k' &&& 0xff = 0) : Runs (Down c) (st k c) [b] (st k' (c - 1)) := by
  refine Runs.cons ?_ ?_
  · rw [h]; exact Down.of_st (by omega) hk (by omega)
  · rw [h]; exact Runs.nil _ _

theorem down_chars {k : Nat} (hk : k &&& 0xff = 0) (bs : Bytes)
    (h : ∀ b ∈ bs, ∀ c, 0 < c → c < 2 ^ 32 → processByte b (st k c) = st k (c - 1)) :
    ∀ c, bs.length ≤ c → c < 2 ^ 32 → Runs (Down c) (st k c) bs (st k (c - bs.length)) := by
  induction bs with
  | nil => intro c _ _; exact Runs.nil _ _
  | cons b bs ih =>
    intro c h1 h2
    simp only [List.length_cons] at h1
    have e := h b List.mem_cons_self c (by omega) h2
    have hr := Runs.down_append (down_step e (by omega) h2 hk) (by simp; omega)
      (ih (fun b' hb' => h b' (List.mem_cons_of_mem _ hb')) (c - 1) (by omega) (by omega))
    simp only [List.length_cons]
    rw [show c - (bs.length + 1) = c - 1 - bs.length by omega]
    exact hr

theorem down_zeros {k : Nat} (hk : k &&& 0xff = 0)
    (h : ∀ c, c % 4 ≠ 0 → c < 2 ^ 32 → processByte 0 (st k c) = st k (c - 1)) (z : Nat) :
    ∀ c, c % 4 = z → c < 2 ^ 32 → Runs (Down c) (st k c) (zeros z) (st k (c - z)) := by
  induction z with
  | zero => intro c _ _; exact Runs.nil _ _
  | succ z ih =>
    intro c h1 h2
    have hr := Runs.down_append (down_step (h c (by omega) h2) (by omega) h2 hk) (by simp; omega)
      (ih (c - 1) (by omega) (by omega))
    rw [show c - (z + 1) = c - 1 - z by omega]
    exact hr

/-- A padded string, starting on a multiple of four: the characters, a NUL that changes the state, further NULs. -/
theorem down_padded {k k' : Nat} (hk' : k' &&& 0xff = 0) (s : Bytes) {c : Nat} (hs : s.length + 4 < 4294967296)
    (hch : Runs (Down c) (st k c) s (st k (c - s.length)))
    (hnul : ∀ c, 0 < c → c < 2 ^ 32 → processByte 0 (st k c) = st k' (c - 1))
    (hpad : ∀ c, c % 4 ≠ 0 → c < 2 ^ 32 → processByte 0 (st k' c) = st k' (c - 1))
    (hal : (c - s.length) % 4 = (padN s.length - s.length) % 4)
    (hle : padN s.length ≤ c) (hc : c < 2 ^ 32) :
    Runs (Down c) (st k c) (padStr s) (st k' (c - padN s.length)) := by
  have hp := padN_eq s.length hs
  have e : zeros (padN s.length - s.length) = 0 :: zeros (padN s.length - s.length - 1) := by
    rw [show padN s.length - s.length = (padN s.length - s.length - 1) + 1 by omega]; rfl
  unfold padStr
  refine Runs.down_append hch (by omega) ?_
  rw [e]
  have h1 := down_step (hnul (c - s.length) (by omega) (by omega)) (by omega) (by omega) hk'
  have h2 := down_zeros hk' hpad (padN s.length - s.length - 1) (c - s.length - 1) (by omega) (by omega)
  have h3 := Runs.down_append h1 (by simp; omega) h2
  rw [show c - s.length - 1 - (padN s.length - s.length - 1) = c - padN s.length by omega] at h3
  exact h3

/-! ## Messages and bundles -/

theorem step_hdr_eq (b : UInt8) {c : Nat} (hc : c < 2 ^ 32) : processByte b (st KH c) = headerTime b (st KH c) HEADER_TIMETAG 0 c := by
  have h1 : 2 ^ 32 * (KH &&& 0xff000000) = BUNDLE_HEADER := by decide
  have h2 : 2 ^ 32 * (KH &&& 0x00ff0000) = HEADER_TIMETAG := by decide
  have h3 : 2 ^ 32 * (KH &&& 0xff00) = 0 := by decide
  rw [step b hc, h1, h2, h3, if_neg (by decide), if_pos rfl, header, if_neg (by decide), if_pos rfl]

theorem step_hdr (b : UInt8) {c : Nat} (hc : c < 7) : processByte b (st KH c) = st KH (c + 1) := by
  rw [step_hdr_eq b (by omega), headerTime, if_pos hc]
  exact st_inc (by omega) (by decide)

theorem step_hdr7 : processByte 0 (st KH 7) = st KS 0 := by
  rw [step_hdr_eq 0 (by decide), headerTime, if_neg (by decide), if_pos rfl, ← mk_lor (k := KS) (c := 0) rfl (by decide)]
  decide

theorem quiet_hdr (time : Bytes) : ∀ c, c + time.length ≤ 7 → Runs Quiet (st KH c) time (st KH (c + time.length)) := by
  induction time with
  | nil => intro c _; exact Runs.nil _ _
  | cons b time ih =>
    intro c h
    simp only [List.length_cons] at h ⊢
    refine Runs.cons ?_ ?_
    · rw [step_hdr b (by omega)]; exact st_errorp (by omega) (by decide)
    · rw [step_hdr b (by omega), show c + (time.length + 1) = c + 1 + time.length by omega]
      exact (ih (c + 1) (by omega))

/-- The identifier `#bundle` with its NUL. -/
def identifier : Bytes := "#bundle".toUTF8.data.toList ++ [0]

theorem all_bytes' {P : UInt8 → Prop} (h : ∀ n : Fin 256, P (UInt8.ofNat n)) (a : UInt8) : P a := by
  have := h ⟨a.toNat, a.toNat_lt⟩
  simpa using this

theorem quiet_id (b : UInt8) : Runs Quiet 0 ([35, 98, 117, 110, 100, 108, 101, 0] ++ [b]) (st KH 0) := by
  have h8 : run 0 [35, 98, 117, 110, 100, 108, 101, 0] = 0x0101000000000007 := by decide +kernel
  have h1 : Runs Quiet 0 [35, 98, 117, 110, 100, 108, 101, 0] 0x0101000000000007 := by
    refine ⟨h8, ?_⟩
    have : ∀ j : Fin 9, errorp (run 0 (([35, 98, 117, 110, 100, 108, 101, 0] : Bytes).take j.val)) = false := by decide +kernel
    intro j _ h
    exact this ⟨j, by simp at h; omega⟩
  refine h1.append ?_
  have e : processByte b 0x0101000000000007 = st KH 0 := by
    rw [← mk_lor (k := KH) (c := 0) rfl (by decide)]
    revert b; apply all_bytes'; decide +kernel
  refine Runs.cons ?_ ?_
  · rw [e]; exact st_errorp (by decide) (by decide)
  · rw [e]; exact Runs.nil _ _

theorem quiet_header (time : Bytes) (h : time.length = 8) : Runs Quiet 0 (identifier ++ time) (st KH 7) := by
  match time, h with
  | b :: time, h =>
    have e : identifier ++ b :: time = [35, 98, 117, 110, 100, 108, 101, 0] ++ [b] ++ time := by
      have : identifier = [35, 98, 117, 110, 100, 108, 101, 0] := by decide +kernel
      rw [this]; simp
    rw [e]
    have ht : time.length = 7 := by simpa using h
    have := quiet_hdr time 0 (by omega)
    rw [ht] at this
    exact (quiet_id b).append this

/-- Where the first byte of a message is expected. -/
def Boundary (s : Nat) : Prop := s = st KH 7 ∨ s = st KD 0

theorem boundary_step {s : Nat} (h : Boundary s) : processByte 0 s = st KS 0 := by
  rcases h with rfl | rfl
  · exact step_hdr7
  · exact step_next 0

theorem quiet_size {s : Nat} (h : Boundary s) {n : Nat} (hn : n < 65536) (h4 : n % 4 = 0) (hl : n % 256 < 128) :
    Runs Quiet s (be32 n) (st KS n) := by
  have e : be32 n = [0, 0, UInt8.ofNat (n / 256), UInt8.ofNat n] := by
    unfold be32
    rw [show n / 16777216 = 0 by omega, show n / 65536 = 0 by omega]; rfl
  have t3 : (UInt8.ofNat (n / 256)).toNat = n / 256 := by simp; omega
  have t4 : (UInt8.ofNat n).toNat = n % 256 := by simp
  have s3 := step_size3 (UInt8.ofNat (n / 256))
  have s4 := step_size4 (UInt8.ofNat n) (d := n / 256) (by omega) (by omega) (by omega)
  rw [t3] at s3
  rw [t4, show n / 256 * 256 + n % 256 = n by omega] at s4
  have q : ∀ c, c < 2 ^ 32 → ∀ j, Quiet j (st KS c) := fun c hc j => st_errorp hc (by decide)
  rw [e]
  refine Runs.cons (by rw [boundary_step h]; exact q _ (by decide) _) ?_
  rw [boundary_step h]
  refine Runs.cons (by rw [step_size2]; exact q _ (by decide) _) ?_
  rw [step_size2]
  refine Runs.cons (by rw [s3]; exact q _ (by omega) _) ?_
  rw [s3]
  refine Runs.cons (by rw [s4]; exact q _ (by omega) _) ?_
  rw [s4]
  exact Runs.nil _ _

/-- A message the machine can follow: an address of plain characters after a slash, supported type tags, aligned data, and
a size below 65536 whose low byte is between 4 and 124. -/
structure Follows (addr tags data : Bytes) : Prop where
  slash : ∃ rest, addr = 47 :: rest
  plain : ∀ b ∈ addr, plainChar b = true
  known : ∀ b ∈ tags, tagOK b = true
  aligned : data.length % 4 = 0
  small : (msgBytes addr tags data).length < 65540
  low : 0 < ((msgBytes addr tags data).length - 4) % 256 ∧ ((msgBytes addr tags data).length - 4) % 256 < 128

/-- The body of a message: the counter runs from the size to zero. -/
theorem down_body {addr tags data : Bytes} (h : Follows addr tags data) :
    Runs (Down (padStr addr ++ padStr (44 :: tags) ++ data).length) (st KS (padStr addr ++ padStr (44 :: tags) ++ data).length)
      (padStr addr ++ padStr (44 :: tags) ++ data) (st (if data = [] then KTN else KD) 0) := by
  have hs := h.small
  have hlow := h.low
  have hal : addr.length + tags.length < 65540 := by
    simp only [msgBytes, List.length_append, length_be32, padStr, List.length_cons] at hs
    omega
  have hpa := padN_eq addr.length (by omega)
  have hpt := padN_eq (44 :: tags : Bytes).length (by simp; omega)
  have la : (padStr addr).length = padN addr.length := length_padStr addr (by omega)
  have lt : (padStr (44 :: tags)).length = padN (44 :: tags : Bytes).length := length_padStr _ (by simp; omega)
  have hda := h.aligned
  simp only [msgBytes, List.length_append, length_be32, la, lt] at hs hlow ⊢
  obtain ⟨rest, hrest⟩ := h.slash
  generalize hn : padN addr.length + padN (44 :: tags : Bytes).length + data.length = n at hs hlow ⊢
  -- the address
  have hA : Runs (Down n) (st KS n) (padStr addr) (st KAN (n - padN addr.length)) := by
    have hch0 : Runs (Down n) (st KS n) [47] (st KA (n - 1)) := down_step (step_slash (by omega) (by omega)) (by omega) (by omega) (by decide)
    have hrl : addr.length = rest.length + 1 := by rw [hrest]; simp
    have hrestr := down_chars (k := KA) (by decide) rest
      (fun b hb c h0 hc => step_addr b (h.plain b (by rw [hrest]; exact List.mem_cons_of_mem _ hb)) h0 hc) (n - 1) (by omega) (by omega)
    have e : padStr addr = [47] ++ (rest ++ zeros (padN addr.length - addr.length)) := by
      have e : ∀ z, addr ++ z = [47] ++ (rest ++ z) := by intro z; rw [hrest]; rfl
      unfold padStr; exact e _
    have ez : zeros (padN addr.length - addr.length) = 0 :: zeros (padN addr.length - addr.length - 1) := by
      rw [show padN addr.length - addr.length = (padN addr.length - addr.length - 1) + 1 by omega]; rfl
    rw [e]
    refine Runs.down_append hch0 (by simp; omega) ?_
    simp only [List.length_cons, List.length_nil, Nat.zero_add]
    refine Runs.down_append hrestr (by omega) ?_
    rw [ez]
    have h1 := down_step (step_addr_nul (c := n - 1 - rest.length) (by omega) (by omega)) (by omega) (by omega) (by decide)
    have h2 := down_zeros (k := KAN) (by decide) (fun c h1 h2 => step_addr_pad h1 h2) (padN addr.length - addr.length - 1)
      (n - 1 - rest.length - 1) (by omega) (by omega)
    have h3 := Runs.down_append h1 (by simp; omega) h2
    rw [show n - 1 - rest.length - 1 - (padN addr.length - addr.length - 1) = n - padN addr.length by omega] at h3
    exact h3
  -- the type tags
  have hT : Runs (Down (n - padN addr.length)) (st KAN (n - padN addr.length)) (padStr (44 :: tags)) (st KTN (n - padN addr.length - padN (44 :: tags : Bytes).length)) := by
    generalize hm : n - padN addr.length = m
    have hch0 : Runs (Down m) (st KAN m) [44] (st KT (m - 1)) := down_step (step_comma (by omega) (by omega) (by omega)) (by omega) (by omega) (by decide)
    have htl : (44 :: tags : Bytes).length = tags.length + 1 := by simp
    have hrestr := down_chars (k := KT) (by decide) tags (fun b hb c h0 hc => step_tag b (h.known b hb) h0 hc) (m - 1) (by omega) (by omega)
    have ez : zeros (padN (44 :: tags : Bytes).length - (44 :: tags : Bytes).length) = 0 :: zeros (padN (44 :: tags : Bytes).length - (44 :: tags : Bytes).length - 1) := by
      rw [show padN (44 :: tags : Bytes).length - (44 :: tags : Bytes).length = (padN (44 :: tags : Bytes).length - (44 :: tags : Bytes).length - 1) + 1 by omega]; rfl
    have e : padStr (44 :: tags) = [44] ++ (tags ++ zeros (padN (44 :: tags : Bytes).length - (44 :: tags : Bytes).length)) := by
      unfold padStr; rfl
    rw [e]
    refine Runs.down_append hch0 (by simp; omega) ?_
    simp only [List.length_cons, List.length_nil, Nat.zero_add]
    refine Runs.down_append hrestr (by omega) ?_
    simp only [List.length_cons] at ez hpt hn htl ⊢
    rw [ez]
    have h1 := down_step (step_tag_nul (c := m - 1 - tags.length) (by omega) (by omega)) (by omega) (by omega) (by decide)
    have h2 := down_zeros (k := KTN) (by decide) (fun c h1 h2 => step_tag_pad h1 h2) (padN (tags.length + 1) - (tags.length + 1) - 1)
      (m - 1 - tags.length - 1) (by omega) (by omega)
    have h3 := Runs.down_append h1 (by simp; omega) h2
    rw [show m - 1 - tags.length - 1 - (padN (tags.length + 1) - (tags.length + 1) - 1) = m - padN (tags.length + 1) by omega] at h3
    exact h3
  refine Runs.down_append (Runs.down_append hA (by omega) (by rw [la]; exact hT)) (by simp only [List.length_append]; omega) ?_
  simp only [List.length_append, la, lt]
  have hd : n - (padN addr.length + padN (44 :: tags : Bytes).length) = data.length := by omega
  rw [hd, show n - padN addr.length - padN (44 :: tags : Bytes).length = data.length by omega]
  match hdat : data with
  | [] => simp only [if_true]; exact Runs.nil _ _
  | b :: data' =>
    rw [if_neg (by simp)]
    have hl : (b :: data').length = data'.length + 1 := by simp
    have h1 := down_step (step_data0 b (c := (b :: data').length) (by omega) (by omega) (by omega)) (by omega) (by omega) (by decide)
    have h2 := down_chars (k := KD) (by decide) data' (fun b _ c h0 hc => step_data b h0 hc) ((b :: data').length - 1) (by omega) (by omega)
    have h3 := Runs.down_append h1 (by simp) h2
    rw [show (b :: data').length - 1 - data'.length = 0 by omega] at h3
    exact h3

/-- The bytes of a list of messages. -/
def msgsBytes (ms : List (Bytes × Bytes × Bytes)) : Bytes := ms.flatMap fun (a, t, d) => msgBytes a t d

theorem quiet_msg {s : Nat} (hb : Boundary s) {addr tags data : Bytes} (h : Follows addr tags data) :
    Runs Quiet s (msgBytes addr tags data) (st (if data = [] then KTN else KD) 0) ∧
    ∀ j, 4 < j → j ≤ (msgBytes addr tags data).length →
      counter (run s ((msgBytes addr tags data).take j)) + j = (msgBytes addr tags data).length := by
  have hs := h.small
  have hlow := h.low
  have hda := h.aligned
  have hal : addr.length + tags.length < 65540 := by
    simp only [msgBytes, List.length_append, length_be32, padStr, List.length_cons] at hs
    omega
  have hpa := padN_eq addr.length (by omega)
  have hpt := padN_eq (44 :: tags : Bytes).length (by simp; omega)
  have la : (padStr addr).length = padN addr.length := length_padStr addr (by omega)
  have lt : (padStr (44 :: tags)).length = padN (44 :: tags : Bytes).length := length_padStr _ (by simp; omega)
  have hbody := down_body h
  have hl : (padStr addr ++ padStr (44 :: tags) ++ data).length = padN addr.length + padN (44 :: tags : Bytes).length + data.length := by
    simp only [List.length_append, la, lt]
  unfold msgBytes at hs hlow ⊢
  generalize padStr addr ++ padStr (44 :: tags) ++ data = body at *
  simp only [List.length_append, length_be32] at hs hlow ⊢
  have hsize := quiet_size hb (n := body.length) (by omega) (by omega) (by omega)
  refine ⟨hsize.append (hbody.mono fun j x _ _ hx => hx.1), fun j hj hjl => ?_⟩
  rw [List.take_append, List.take_of_length_le (by rw [length_be32]; omega), length_be32, run_append, hsize.1]
  have := (hbody.2 (j - 4) (by omega) (by omega)).2
  omega

theorem quiet_msgs (ms : List (Bytes × Bytes × Bytes)) : ∀ {s : Nat}, Boundary s →
    (∀ m ∈ ms, Follows m.1 m.2.1 m.2.2) → (∀ m ∈ ms, m.2.2 ≠ []) → ∃ s', Boundary s' ∧ Runs Quiet s (msgsBytes ms) s' := by
  induction ms with
  | nil => intro s hb _ _; exact ⟨s, hb, Runs.nil _ _⟩
  | cons m ms ih =>
    intro s hb hf hd
    have h1 := (quiet_msg hb (hf m List.mem_cons_self)).1
    rw [if_neg (hd m List.mem_cons_self)] at h1
    obtain ⟨s', hb', h2⟩ := ih (s := st KD 0) (Or.inr rfl) (fun m' h => hf m' (List.mem_cons_of_mem _ h)) (fun m' h => hd m' (List.mem_cons_of_mem _ h))
    exact ⟨s', hb', h1.append h2⟩

/-! ## The property -/

/-- C32 for the messages the machine can follow (`Follows`): feeding the bytes of a bundle one at a time, no error is ever
reported, and inside each message, from the fifth byte on, the counter is the number of bytes of the message still to come,
so it is zero exactly at its last byte.

Full statement: the same for every well-formed bundle, that is without the bounds on the size in `Follows`, with patterns
and blobs allowed, and with messages without arguments in any position; see `C32_full_fails`. -/
theorem C32_bundle_partial (time : Bytes) (ht : time.length = 8) (ms : List (Bytes × Bytes × Bytes))
    (hf : ∀ m ∈ ms, Follows m.1 m.2.1 m.2.2) (hd : ∀ ms1 m ms2, ms = ms1 ++ m :: ms2 → ms2 ≠ [] → m.2.2 ≠ []) :
    (∀ j, errorp (run INIT ((identifier ++ time ++ msgsBytes ms).take j)) = false) ∧
    (∀ ms1 m ms2, ms = ms1 ++ m :: ms2 → ∀ j, 4 < j → j ≤ (msgBytes m.1 m.2.1 m.2.2).length →
      counter (run INIT (identifier ++ time ++ msgsBytes ms1 ++ (msgBytes m.1 m.2.1 m.2.2).take j)) + j =
        (msgBytes m.1 m.2.1 m.2.2).length) := by
  have hh := quiet_header time ht
  have hinit : ∀ ms1 m ms2, ms = ms1 ++ m :: ms2 → ∃ s', Boundary s' ∧ Runs Quiet 0 (identifier ++ time ++ msgsBytes ms1) s' := by
    intro ms1 m ms2 hms
    obtain ⟨s', hb', h2⟩ := quiet_msgs ms1 (s := st KH 7) (Or.inl rfl) (fun m' h => hf m' (by rw [hms]; exact List.mem_append_left _ h))
      (fun m' h => by
        obtain ⟨a, b, rfl⟩ := List.append_of_mem h
        exact hd a m' (b ++ m :: ms2) (by rw [hms]; simp) (by simp))
    exact ⟨s', hb', hh.append h2⟩
  constructor
  · have all : ∃ s', Runs Quiet 0 (identifier ++ time ++ msgsBytes ms) s' := by
      rcases List.eq_nil_or_concat ms with rfl | ⟨ms1, m, rfl⟩
      · exact ⟨_, by simpa [msgsBytes] using hh⟩
      · obtain ⟨s', hb', h⟩ := hinit ms1 m [] (by simp)
        have hm := (quiet_msg hb' (hf m (by simp))).1
        have e : msgsBytes (ms1.concat m) = msgsBytes ms1 ++ msgBytes m.1 m.2.1 m.2.2 := by simp [msgsBytes]
        rw [e, ← List.append_assoc]
        exact ⟨_, h.append hm⟩
    obtain ⟨s', h⟩ := all
    intro j
    by_cases hj : 0 < j ∧ j ≤ (identifier ++ time ++ msgsBytes ms).length
    · exact h.2 j hj.1 hj.2
    · by_cases h0 : j = 0
      · subst h0; simp only [List.take_zero]; rfl
      · rw [List.take_of_length_le (by omega)]
        have := h.2 (identifier ++ time ++ msgsBytes ms).length (by simp; omega) (Nat.le_refl _)
        rwa [List.take_length] at this
  · intro ms1 m ms2 hms j h1 h2
    obtain ⟨s', hb', h⟩ := hinit ms1 m ms2 hms
    have := (quiet_msg hb' (hf m (by rw [hms]; simp))).2 j h1 h2
    rw [run_append]
    rw [show run INIT (identifier ++ time ++ msgsBytes ms1) = s' from h.1]
    exact this

/-! ## Messages outside bundles -/

theorem step_nk (b : UInt8) {k c state micro : Nat} (hc : c < 2 ^ 32) (h1 : 2 ^ 32 * (k &&& 0xff000000) = MESSAGE)
    (h2 : 2 ^ 32 * (k &&& 0x00ff0000) = state) (h3 : 2 ^ 32 * (k &&& 0xff00) = micro) :
    processByte b (st k c) = naked b (st k c) state micro c := by
  rw [step b hc, h1, h2, h3, if_neg (by decide), if_neg (by decide), if_neg (by decide), if_pos rfl]

def NA : Nat := 0x04020000
def NAN : Nat := 0x04021000
def NT : Nat := 0x04040000
def NTN : Nat := 0x04040100
def ND : Nat := 0x04080000

theorem inc32_eq {c : Nat} (hc : c + 1 < 2 ^ 32) : inc32 c = c + 1 := by unfold inc32; omega

theorem nstep_addr (b : UInt8) {c : Nat} (hb : plainChar b = true) (hc : c + 1 < 2 ^ 32) :
    processByte b (st NA c) = st NA (c + 1) := by
  simp only [plainChar, Bool.and_eq_true, bne_iff_ne, ne_eq] at hb
  obtain ⟨⟨⟨⟨e1, e2⟩, e3⟩, e4⟩, e5⟩ := hb
  rw [step_nk b (by omega) (state := ADDRESS) (micro := 0) (by decide) (by decide) (by decide), naked, if_pos rfl,
    nakedAddress, if_pos rfl, if_neg e2, if_neg e4, if_neg e1]
  exact st_inc hc (by decide)

theorem nstep_addr_nul {c : Nat} (hc : c + 1 < 2 ^ 32) : processByte 0 (st NA c) = st NAN (c + 1) := by
  rw [step_nk 0 (by omega) (state := ADDRESS) (micro := 0) (by decide) (by decide) (by decide), naked, if_pos rfl,
    nakedAddress, if_pos rfl, if_neg (by decide), if_neg (by decide), if_pos rfl,
    st_lor (by omega) (m := 0x1000) (j := NAN) (by decide) (by decide)]
  exact st_inc hc (by decide)

theorem nstep_addr_pad {c : Nat} (h0 : c % 4 ≠ 3) (hc : c + 1 < 2 ^ 32) : processByte 0 (st NAN c) = st NAN (c + 1) := by
  rw [step_nk 0 (by omega) (state := ADDRESS) (micro := ADDRESS_NULL) (by decide) (by decide) (by decide), naked, if_pos rfl,
    nakedAddress, if_neg (by decide), if_neg (by decide), if_neg (by decide), if_neg (by decide), if_neg (by decide), if_pos rfl,
    if_neg h0, if_pos rfl]
  exact st_inc hc (by decide)

theorem nstep_comma {c : Nat} (h0 : c % 4 = 3) (hc : c + 1 < 2 ^ 32) : processByte 44 (st NAN c) = st NT (c + 1) := by
  rw [step_nk 44 (by omega) (state := ADDRESS) (micro := ADDRESS_NULL) (by decide) (by decide) (by decide), naked, if_pos rfl,
    nakedAddress, if_neg (by decide), if_neg (by decide), if_neg (by decide), if_neg (by decide), if_neg (by decide), if_pos rfl,
    if_pos h0, if_pos rfl, inc32_eq hc]
  exact mk_lor (by decide) (by omega)

theorem nstep_tag (b : UInt8) {c : Nat} (hb : tagOK b = true) (hc : c + 1 < 2 ^ 32) : processByte b (st NT c) = st NT (c + 1) := by
  rw [step_nk b (by omega) (state := TYPETAGS) (micro := 0) (by decide) (by decide) (by decide), naked, if_neg (by decide), if_pos rfl,
    nakedTypetags, if_pos rfl, if_pos hb]
  exact st_inc hc (by decide)

theorem nstep_tag_nul {c : Nat} (hc : c + 1 < 2 ^ 32) : processByte 0 (st NT c) = st NTN (c + 1) := by
  rw [step_nk 0 (by omega) (state := TYPETAGS) (micro := 0) (by decide) (by decide) (by decide), naked, if_neg (by decide), if_pos rfl,
    nakedTypetags, if_pos rfl, if_neg (by decide), if_pos rfl, st_lor (by omega) (m := 0x100) (j := NTN) (by decide) (by decide)]
  exact st_inc hc (by decide)

theorem nstep_tag_pad {c : Nat} (h0 : c % 4 ≠ 3) (hc : c + 1 < 2 ^ 32) : processByte 0 (st NTN c) = st NTN (c + 1) := by
  rw [step_nk 0 (by omega) (state := TYPETAGS) (micro := TYPETAGS_NULL) (by decide) (by decide) (by decide), naked, if_neg (by decide), if_pos rfl,
    nakedTypetags, if_neg (by decide), if_pos rfl, if_neg h0, if_pos rfl]
  exact st_inc hc (by decide)

theorem nstep_data0 (b : UInt8) {c : Nat} (h0 : c % 4 = 3) (hc : c + 1 < 2 ^ 32) : processByte b (st NTN c) = st ND (c + 1) := by
  rw [step_nk b (by omega) (state := TYPETAGS) (micro := TYPETAGS_NULL) (by decide) (by decide) (by decide), naked, if_neg (by decide), if_pos rfl,
    nakedTypetags, if_neg (by decide), if_pos rfl, if_pos h0, inc32_eq hc]
  exact mk_lor (by decide) (by omega)

theorem nstep_data (b : UInt8) {c : Nat} (hc : c + 1 < 2 ^ 32) : processByte b (st ND c) = st ND (c + 1) := by
  rw [step_nk b (by omega) (state := DATA) (micro := 0) (by decide) (by decide) (by decide), naked, if_neg (by decide), if_neg (by decide),
    if_pos rfl, nakedData]
  exact st_inc hc (by decide)

/-- No error, and the counter has grown by the number of bytes. -/
def Up (c j : Nat) (x : Nat) : Prop := errorp x = false ∧ counter x = c + j

theorem Runs.up_append {s s' s'' c : Nat} {a b : Bytes} (h1 : Runs (Up c) s a s') (h2 : Runs (Up (c + a.length)) s' b s'') :
    Runs (Up c) s (a ++ b) s'' :=
  h1.append (h2.mono fun j x _ _ h => ⟨h.1, by have := h.2; omega⟩)

theorem up_step {k k' c : Nat} {b : UInt8} (h : processByte b (st k c) = st k' (c + 1)) (hc : c + 1 < 2 ^ 32)
    (hk : k' &&& 0xff = 0) : Runs (Up c) (st k c) [b] (st k' (c + 1)) := by
  refine Runs.cons ?_ ?_
  · rw [h]; exact ⟨st_errorp hc hk, st_counter hc⟩
  · rw [h]; exact Runs.nil _ _

theorem up_chars {k : Nat} (hk : k &&& 0xff = 0) (bs : Bytes)
    (h : ∀ b ∈ bs, ∀ c, c + 1 < 2 ^ 32 → processByte b (st k c) = st k (c + 1)) :
    ∀ c, c + bs.length < 2 ^ 32 → Runs (Up c) (st k c) bs (st k (c + bs.length)) := by
  induction bs with
  | nil => intro c _; exact Runs.nil _ _
  | cons b bs ih =>
    intro c h1
    simp only [List.length_cons] at h1 ⊢
    have e := h b List.mem_cons_self c (by omega)
    rw [show c + (bs.length + 1) = c + 1 + bs.length by omega]
    exact Runs.up_append (up_step e (by omega) hk)
      (ih (fun b' hb' => h b' (List.mem_cons_of_mem _ hb')) (c + 1) (by omega))

theorem up_zeros {k : Nat} (hk : k &&& 0xff = 0)
    (h : ∀ c, c % 4 ≠ 3 → c + 1 < 2 ^ 32 → processByte 0 (st k c) = st k (c + 1)) (z : Nat) :
    ∀ c, c % 4 + z = 3 → c + z < 2 ^ 32 → Runs (Up c) (st k c) (zeros z) (st k (c + z)) := by
  induction z with
  | zero => intro c _ _; exact Runs.nil _ _
  | succ z ih =>
    intro c h1 h2
    rw [show c + (z + 1) = c + 1 + z by omega]
    exact Runs.up_append (up_step (h c (by omega) (by omega)) (by omega) hk) (ih (c + 1) (by omega) (by omega))

theorem padded_split (s : Bytes) (hs : s.length + 4 < 4294967296) : ∃ z, padStr s = s ++ ([0] ++ zeros z) ∧ (s.length + 1 + z) % 4 = 0 ∧ z < 4 := by
  have hp := padN_eq s.length hs
  refine ⟨padN s.length - s.length - 1, ?_, by omega, by omega⟩
  unfold padStr
  rw [show padN s.length - s.length = (padN s.length - s.length - 1) + 1 by omega]; rfl

/-- C32 for messages sent without a bundle: no error is ever reported and the counter is the number of bytes so far, less
one, for every address without brackets, all supported type tags and any data.

Full statement: the same with bracketed address patterns and every type tag the library uses. -/
theorem C32_message_partial (addr tags data : Bytes) (hsl : ∃ rest, addr = 47 :: rest) (hp : ∀ b ∈ addr, plainChar b = true)
    (ht : ∀ b ∈ tags, tagOK b = true) (hlen : addr.length + tags.length + data.length + 16 < 2 ^ 32) :
    ∀ j, 0 < j → j ≤ (padStr addr ++ padStr (44 :: tags) ++ data).length →
      errorp (run INIT ((padStr addr ++ padStr (44 :: tags) ++ data).take j)) = false ∧
      counter (run INIT ((padStr addr ++ padStr (44 :: tags) ++ data).take j)) + 1 = j := by
  obtain ⟨rest, hrest⟩ := hsl
  have hal : addr.length = rest.length + 1 := by rw [hrest]; simp
  obtain ⟨z1, e1, h1, l1⟩ := padded_split addr (by omega)
  obtain ⟨z2, e2, h2, l2⟩ := padded_split (44 :: tags) (by simp; omega)
  have hrun : ∃ s', Runs (Up 0) (st NA 0) (rest ++ ([0] ++ zeros z1) ++ ([44] ++ (tags ++ ([0] ++ zeros z2))) ++ data) s' := by
    have a1 := up_chars (k := NA) (by decide) rest
      (fun b hb c hc => nstep_addr b (hp b (by rw [hrest]; exact List.mem_cons_of_mem _ hb)) hc) 0 (by omega)
    have a2 := up_step (nstep_addr_nul (c := 0 + rest.length) (by omega)) (by omega) (by decide)
    have a3 := up_zeros (k := NAN) (by decide) (fun c h hc => nstep_addr_pad h hc) z1 (0 + rest.length + 1) (by omega) (by omega)
    have lz : ∀ z, (zeros z).length = z := fun z => List.length_replicate
    have a123 := a1.up_append (a2.up_append a3)
    generalize hc : 0 + rest.length + 1 + z1 = c at a123
    have lc : (rest ++ ([0] ++ zeros z1)).length = c := by simp [lz]; omega
    simp only [List.length_cons] at h2
    have b1 := up_step (nstep_comma (c := c) (by omega) (by omega)) (by omega) (by decide)
    have b2 := up_chars (k := NT) (by decide) tags (fun b hb c hc => nstep_tag b (ht b hb) hc) (c + 1) (by omega)
    have b3 := up_step (nstep_tag_nul (c := c + 1 + tags.length) (by omega)) (by omega) (by decide)
    have b4 := up_zeros (k := NTN) (by decide) (fun c h hc => nstep_tag_pad h hc) z2 (c + 1 + tags.length + 1) (by omega) (by omega)
    have b1234 := b1.up_append (b2.up_append (b3.up_append b4))
    generalize hd : c + 1 + tags.length + 1 + z2 = d at b1234
    have ld : ([44] ++ (tags ++ ([0] ++ zeros z2)) : Bytes).length + c = d := by simp [lz]; omega
    have c1 : ∃ s', Runs (Up d) (st NTN d) data s' := by
      cases data with
      | nil => exact ⟨_, Runs.nil _ _⟩
      | cons b data =>
        simp only [List.length_cons] at hlen
        have d1 := up_step (nstep_data0 b (c := d) (by omega) (by omega)) (by omega) (by decide)
        have d2 := up_chars (k := ND) (by decide) data (fun b _ c hc => nstep_data b hc) (d + 1) (by omega)
        exact ⟨_, d1.up_append d2⟩
    obtain ⟨s', c1⟩ := c1
    have l0 : 0 + (rest ++ ([0] ++ zeros z1)).length = c := by omega
    have l1 : 0 + (rest ++ ([0] ++ zeros z1) ++ ([44] ++ (tags ++ ([0] ++ zeros z2)))).length = d := by
      rw [List.length_append]; omega
    refine ⟨s', Runs.up_append (s' := st NTN d) (Runs.up_append a123 ?_) ?_⟩
    · rw [l0]; exact b1234
    · rw [l1]; exact c1
  obtain ⟨s', hrun⟩ := hrun
  have e : padStr addr ++ padStr (44 :: tags) ++ data = 47 :: (rest ++ ([0] ++ zeros z1) ++ ([44] ++ (tags ++ ([0] ++ zeros z2))) ++ data) := by
    rw [e1, e2, hrest]; simp
  have hfirst : processByte 47 INIT = st NA 0 := by
    rw [← mk_lor (k := NA) (c := 0) rfl (by decide)]; decide
  rw [e]
  intro j hj hjl
  match j, hj with
  | 1, _ =>
    rw [List.take_succ_cons, List.take_zero]
    show errorp (processByte 47 INIT) = false ∧ counter (processByte 47 INIT) + 1 = 1
    rw [hfirst, st_counter (by decide)]
    exact ⟨st_errorp (by decide) (by decide), rfl⟩
  | j + 2, _ =>
    rw [List.take_succ_cons]
    show errorp (run (processByte 47 INIT) _) = false ∧ counter (run (processByte 47 INIT) _) + 1 = _
    rw [hfirst]
    have := hrun.2 (j + 1) (by omega) (by simp only [List.length_cons] at hjl; omega)
    exact ⟨this.1, by rw [this.2]; omega⟩

/-! ## Malformed input is reported at the offending byte -/

theorem run_first : run INIT [47] = st NA 0 := by
  show processByte 47 INIT = _
  rw [← mk_lor (k := NA) (c := 0) rfl (by decide)]; decide

theorem errorp_lor {k c e j : Nat} (hc : c < 2 ^ 32) (he : e = 2 ^ 32 * j) (h : (k ||| j) &&& 0xff ≠ 0) :
    errorp (st k c ||| e) = true := by
  rw [he, st_lor hc rfl rfl]
  exact st_errorp' hc h

/-- The state after the address and its padding: everything up to the place of the comma. -/
theorem run_address (addr : Bytes) (hsl : ∃ rest, addr = 47 :: rest) (hp : ∀ b ∈ addr, plainChar b = true)
    (hlen : addr.length + 16 < 2 ^ 32) : ∃ c, c % 4 = 3 ∧ c < addr.length + 4 ∧ run INIT (padStr addr) = st NAN c := by
  obtain ⟨rest, hrest⟩ := hsl
  have hal : addr.length = rest.length + 1 := by rw [hrest]; simp
  obtain ⟨z1, e1, h1, l1⟩ := padded_split addr (by omega)
  have a1 := up_chars (k := NA) (by decide) rest
    (fun b hb c hc => nstep_addr b (hp b (by rw [hrest]; exact List.mem_cons_of_mem _ hb)) hc) 0 (by omega)
  have a2 := up_step (nstep_addr_nul (c := 0 + rest.length) (by omega)) (by omega) (by decide)
  have a3 := up_zeros (k := NAN) (by decide) (fun c h hc => nstep_addr_pad h hc) z1 (0 + rest.length + 1) (by omega) (by omega)
  refine ⟨0 + rest.length + 1 + z1, by omega, by omega, ?_⟩
  rw [e1, hrest, show (47 :: rest ++ ([0] ++ zeros z1) : Bytes) = [47] ++ (rest ++ ([0] ++ zeros z1)) from rfl, run_append,
    run_first]
  exact (a1.up_append (a2.up_append a3)).1

/-- A stream that starts neither with `#` nor with `/` is reported at its first byte. -/
theorem C43_first_byte (b : UInt8) (h1 : b ≠ 35) (h2 : b ≠ 47) : errorp (run INIT [b]) = true := by
  show errorp (processByte b INIT) = true
  rw [processByte]
  simp only [show INIT &&& 0xff00000000000000 = INIT by decide]
  rw [if_pos trivial, if_neg h1, if_neg h2]; decide

/-- A bundle identifier spelt wrongly is reported at the first wrong character. -/
theorem C43_identifier (k : Nat) (hk : 0 < k ∧ k < 8) (b : UInt8) (h : identifier[k]? ≠ some b) :
    errorp (run INIT (identifier.take k ++ [b])) = true := by
  have hk' : k = 1 ∨ k = 2 ∨ k = 3 ∨ k = 4 ∨ k = 5 ∨ k = 6 ∨ k = 7 := by omega
  have main : ∀ k : Fin 8, 0 < k.val → ∀ b : UInt8, identifier[k.val]? ≠ some b →
      errorp (run INIT (identifier.take k.val ++ [b])) = true := by
    intro k hk b
    revert k
    refine all_bytes' (P := fun b => ∀ k : Fin 8, 0 < k.val → identifier[k.val]? ≠ some b →
      errorp (run INIT (identifier.take k.val ++ [b])) = true) ?_ b
    decide +kernel
  exact main ⟨k, hk.2⟩ hk.1 b h

/-- A message whose address is not followed by a comma is reported at that byte. -/
theorem C43_no_typetags (addr : Bytes) (hsl : ∃ rest, addr = 47 :: rest) (hp : ∀ b ∈ addr, plainChar b = true)
    (hlen : addr.length + 16 < 2 ^ 32) (b : UInt8) (hb : b ≠ 44) : errorp (run INIT (padStr addr ++ [b])) = true := by
  obtain ⟨c, h0, hc, e⟩ := run_address addr hsl hp hlen
  rw [run_append, e]
  show errorp (processByte b (st NAN c)) = true
  rw [step_nk b (by omega) (state := ADDRESS) (micro := ADDRESS_NULL) (by decide) (by decide) (by decide), naked, if_pos rfl,
    nakedAddress, if_neg (by decide), if_neg (by decide), if_neg (by decide), if_neg (by decide), if_neg (by decide), if_pos rfl,
    if_pos h0, if_neg hb]
  split
  · exact errorp_lor (by omega) (j := 6) (by decide) (by decide)
  · exact errorp_lor (by omega) (j := 8) (by decide) (by decide)

/-- A type tag the library does not know is reported at that byte. -/
theorem C43_typetag (addr tags : Bytes) (hsl : ∃ rest, addr = 47 :: rest) (hp : ∀ b ∈ addr, plainChar b = true)
    (ht : ∀ b ∈ tags, tagOK b = true) (hlen : addr.length + tags.length + 16 < 2 ^ 32) (b : UInt8) (h0 : b ≠ 0)
    (hb : b ∉ ([99, 67, 117, 85, 105, 73, 104, 72, 102, 100, 115, 84, 70, 78, 116, 46] : Bytes)) :
    errorp (run INIT (padStr addr ++ (44 :: tags) ++ [b])) = true := by
  obtain ⟨c, hc0, hc, e⟩ := run_address addr hsl hp (by omega)
  have b2 := up_chars (k := NT) (by decide) tags (fun b hb c hc => nstep_tag b (ht b hb) hc) (c + 1) (by omega)
  have hb' : tagOK b = false := by
    cases hh : tagOK b with
    | false => rfl
    | true => exact absurd (by simpa [tagOK] using hh) hb
  rw [run_append, run_append, e, show (44 :: tags : Bytes) = [44] ++ tags from rfl, run_append,
    show run (st NAN c) [44] = st NT (c + 1) from nstep_comma hc0 (by omega), b2.1]
  show errorp (processByte b (st NT _)) = true
  rw [step_nk b (by omega) (state := TYPETAGS) (micro := 0) (by decide) (by decide) (by decide), naked, if_neg (by decide), if_pos rfl,
    nakedTypetags, if_pos rfl, if_neg (by rw [hb']; decide), if_neg h0]
  exact errorp_lor (by omega) (j := 7) (by decide) (by decide)

/-- Padding after the address that is not zero is reported at that byte. -/
theorem C43_padding (rest : Bytes) (z : Nat) (hp : ∀ b ∈ rest, plainChar b = true)
    (hz3 : (rest.length + 2) % 4 + z < 4) (hz1 : (rest.length + 2) % 4 ≠ 0)
    (hlen : rest.length + 16 < 2 ^ 32) (b : UInt8) (hb : b ≠ 0) : errorp (run INIT (47 :: rest ++ zeros (z + 1) ++ [b])) = true := by
  have a1 := up_chars (k := NA) (by decide) rest (fun b hb c hc => nstep_addr b (hp b hb) hc) 0 (by omega)
  have a3 : ∀ z c, c % 4 + z ≤ 3 → c + z < 2 ^ 32 → run (st NAN c) (zeros z) = st NAN (c + z) := by
    intro z
    induction z with
    | zero => intro c _ _; rfl
    | succ z ih =>
      intro c h1 h2
      show run (processByte 0 (st NAN c)) (zeros z) = _
      rw [nstep_addr_pad (by omega) (by omega), ih (c + 1) (by omega) (by omega)]
      rw [show c + 1 + z = c + (z + 1) by omega]
  rw [show (47 :: rest ++ zeros (z + 1) ++ [b] : Bytes) = [47] ++ (rest ++ ([0] ++ (zeros z ++ [b]))) by
    simp [zeros, List.replicate_succ], run_append, run_first, run_append, a1.1, run_append,
    show run (st NA (0 + rest.length)) [0] = st NAN (0 + rest.length + 1) from nstep_addr_nul (by omega), run_append,
    a3 z _ (by omega) (by omega)]
  show errorp (processByte b (st NAN _)) = true
  rw [step_nk b (by omega) (state := ADDRESS) (micro := ADDRESS_NULL) (by decide) (by decide) (by decide), naked, if_pos rfl,
    nakedAddress, if_neg (by decide), if_neg (by decide), if_neg (by decide), if_neg (by decide), if_neg (by decide), if_pos rfl,
    if_neg (by omega), if_neg hb]
  exact errorp_lor (by omega) (j := 6) (by decide) (by decide)

/-! ## Where the full claim fails -/

/-- The full claim about errors: no well-formed bundle of plain messages is reported as an error, and the counter is zero
after its last byte. -/
def C32Full : Prop := ∀ (time : Bytes) (ms : List (Bytes × Bytes × Bytes)), time.length = 8 →
  (∀ m ∈ ms, (∃ rest, m.1 = 47 :: rest) ∧ (∀ b ∈ m.1, plainChar b = true) ∧ (∀ b ∈ m.2.1, tagOK b = true) ∧ m.2.2.length % 4 = 0) →
  ms ≠ [] →
  errorp (run INIT (identifier ++ time ++ msgsBytes ms)) = false ∧ counter (run INIT (identifier ++ time ++ msgsBytes ms)) = 0

/-- A message of 256 bytes is reported as an error; one of 128 bytes leaves the counter wrong at its end, as does a message
after one without arguments; the second comma in `/{a,b,c}` is
reported as an error. -/
theorem C32_full_fails : ¬ C32Full ∧
    errorp (run INIT (identifier ++ zeros 8 ++ msgBytes [47, 97] (List.replicate 62 105) (zeros 188))) = true ∧
    counter (run INIT (identifier ++ zeros 8 ++ msgBytes [47, 97] [115] (zeros 120))) ≠ 0 ∧
    counter (run INIT (identifier ++ zeros 8 ++ msgBytes [47, 97] [] [] ++ msgBytes [47, 97] [105] (zeros 4))) ≠ 0 ∧
    errorp (run INIT ((identifier ++ zeros 8 ++ msgBytes [47, 123, 97, 44, 98, 44, 99, 125] [105] (zeros 4)).take 26)) = true := by
  have key : errorp (run INIT (identifier ++ zeros 8 ++ msgBytes [47, 97] (List.replicate 62 105) (zeros 188))) = true ∧
    counter (run INIT (identifier ++ zeros 8 ++ msgBytes [47, 97] [115] (zeros 120))) ≠ 0 ∧
    counter (run INIT (identifier ++ zeros 8 ++ msgBytes [47, 97] [] [] ++ msgBytes [47, 97] [105] (zeros 4))) ≠ 0 ∧
    errorp (run INIT ((identifier ++ zeros 8 ++ msgBytes [47, 123, 97, 44, 98, 44, 99, 125] [105] (zeros 4)).take 26)) = true := by
    decide +kernel
  refine ⟨fun h => ?_, key⟩
  have := (h (zeros 8) [([47, 97], [], []), ([47, 97], [105], zeros 4)] (by decide) ?_ (by simp)).2
  · exact key.2.2.1 (by simpa [msgsBytes] using this)
  · intro m hm
    simp at hm
    rcases hm with rfl | rfl
    · exact ⟨⟨_, rfl⟩, by decide, by decide, by decide⟩
    · exact ⟨⟨_, rfl⟩, by decide, by decide, by decide⟩

/-- A message of two arguments and one of none are followed. -/
example : Follows [47, 102, 111, 111] [105, 102] (zeros 8) ∧ Follows [47, 98] [] [] :=
  ⟨⟨⟨_, rfl⟩, by decide, by decide, by decide, by decide, by decide⟩, ⟨⟨_, rfl⟩, by decide, by decide, by decide, by decide, by decide⟩⟩

example : run INIT (identifier ++ zeros 8 ++ msgsBytes [([47, 102, 111, 111], [105, 102], zeros 8), ([47, 98], [], [])]) = 0x0204010000000000 := by
  decide +kernel

example : errorp (run INIT (padStr [47, 98] ++ (44 :: [105]) ++ [120])) = true :=
  C43_typetag [47, 98] [105] ⟨_, rfl⟩ (by decide) (by decide) (by decide) 120 (by decide) (by decide)

example : errorp (run INIT (47 :: [98, 98, 98] ++ zeros 2 ++ [1])) = true :=
  C43_padding [98, 98, 98] 1 (by decide) (by decide) (by decide) (by decide) 1 (by decide)

example : errorp (run INIT (padStr [47, 98] ++ [105])) = true :=
  C43_no_typetags [47, 98] ⟨_, rfl⟩ (by decide) (by decide) 105 (by decide)

example : errorp (run INIT (padStr [47, 98] ++ padStr [44, 105] ++ [0, 0, 0, 7])) = false ∧
    counter (run INIT (padStr [47, 98] ++ padStr [44, 105] ++ [0, 0, 0, 7])) + 1 = 12 :=
  C32_message_partial [47, 98] [105] [0, 0, 0, 7] ⟨_, rfl⟩ (by decide) (by decide) (by decide) 12 (by decide) (by decide)

end Libo.Props
