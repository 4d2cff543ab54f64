import Verif.TextScanLemmas
import Verif.TextParseLemmas
import Verif.TextFmtLemmas
import Verif.TextIso
/-!
# Reading back what was written
-/

namespace Libo.Text
open Libo

/-! ### Decimal numbers -/

theorem digit_byte {k : Nat} (h : k < 10) : (48 : UInt8) ≤ UInt8.ofNat (48 + k) ∧ UInt8.ofNat (48 + k) ≤ 57 ∧ (UInt8.ofNat (48 + k)).toNat = 48 + k := by
  have : (UInt8.ofNat (48 + k)).toNat = 48 + k := by rw [UInt8.toNat_ofNat']; omega
  refine ⟨?_, ?_, this⟩
  · rw [UInt8.le_iff_toNat_le, this]; simp
  · rw [UInt8.le_iff_toNat_le, this]
    have : (57 : UInt8).toNat = 57 := rfl
    omega

theorem dec_digits (n : Nat) : IsDigits (dec n) := by
  induction n using Nat.strongRecOn with
  | _ n ih =>
    rw [dec]
    split
    · rename_i h
      intro c hc
      rw [List.mem_singleton] at hc
      subst hc
      exact ⟨(digit_byte h).1, (digit_byte h).2.1⟩
    · intro c hc
      rcases List.mem_append.mp hc with hc | hc
      · exact ih (n / 10) (by omega) c hc
      · rw [List.mem_singleton] at hc
        subst hc
        have := digit_byte (show n % 10 < 10 by omega)
        exact ⟨this.1, this.2.1⟩

theorem digitsVal_snoc (c : UInt8) (s : Bytes) : digitsVal (s ++ [c]) = digitsVal s * 10 + (c.toNat - 48) := by
  rw [digitsVal, List.foldl_append, List.foldl_cons, List.foldl_nil, digitsVal]

theorem dec_val (n : Nat) : digitsVal (dec n) = n := by
  induction n using Nat.strongRecOn with
  | _ n ih =>
    rw [dec]
    by_cases h : n < 10
    · rw [if_pos h, digitsVal, List.foldl_cons, List.foldl_nil, (digit_byte h).2.2]; omega
    · rw [if_neg h, digitsVal_snoc, ih (n / 10) (by omega), (digit_byte (show n % 10 < 10 by omega)).2.2]; omega

theorem dec_head (n : Nat) (h : 1 ≤ n) : ∃ d r, dec n = d :: r ∧ 49 ≤ d ∧ d ≤ 57 := by
  induction n using Nat.strongRecOn with
  | _ n ih =>
    rw [dec]
    split
    · rename_i h10
      refine ⟨_, [], rfl, ?_, (digit_byte h10).2.1⟩
      rw [UInt8.le_iff_toNat_le, (digit_byte h10).2.2]
      have : (49 : UInt8).toNat = 49 := rfl
      omega
    · obtain ⟨d, r, e, h1, h2⟩ := ih (n / 10) (by omega) (by omega)
      exact ⟨d, r ++ [UInt8.ofNat (48 + n % 10)], by rw [e]; rfl, h1, h2⟩

theorem dec_ne (n : Nat) : dec n ≠ [] := by rw [dec]; split <;> simp

theorem m_intRe_pos {s : Bytes} (hs : s = [] ∨ s = [45]) {n : Nat} (h : 1 ≤ n) : intRe.M (s ++ dec n) := by
  obtain ⟨d, r, e, h1, h2⟩ := dec_head n h
  have hd := dec_digits n
  rw [e] at hd ⊢
  refine .left (Re.M.seq (u := s) ?_ (Re.M.seq (u := [d]) (.cls (by simp [h1, h2])) (m_digits fun c hc => hd c (by simp [hc]))))
  rcases hs with rfl | rfl
  · exact .left .eps
  · exact .right (.cls (by decide))

theorem m_intRe (i : Int) : intRe.M (decI i) := by
  unfold decI
  split
  · exact m_intRe_pos (s := [45]) (.inr rfl) (by omega)
  · rcases Nat.eq_zero_or_pos i.natAbs with h | h
    · rw [h]
      have : dec 0 = [48] := by rw [dec]; rfl
      rw [this]
      exact .right (.cls (by decide))
    · exact m_intRe_pos (s := []) (.inl rfl) h

theorem decI_bytes (i : Int) : ∀ c ∈ decI i, intByte c = true := by
  have hd : ∀ c ∈ dec i.natAbs, intByte c = true := fun c hc => by
    have := dec_digits i.natAbs c hc
    simp [intByte, this]
  unfold decI
  split
  · intro c hc
    rcases List.mem_cons.mp hc with rfl | hc
    · decide
    · exact hd c hc
  · exact hd

theorem strtol_decI {i : Int} (h1 : -9223372036854775808 ≤ i) (h2 : i ≤ 9223372036854775807) : strtol (decI i) = i := by
  unfold decI
  split
  · rw [strtol, dec_val]; omega
  · have hne : ∀ t, dec i.natAbs ≠ 45 :: t := by
      intro t e
      have := (dec_digits i.natAbs 45 (by rw [e]; simp)).1
      revert this; decide
    rw [strtol, dec_val]
    · omega
    · exact hne

/-! ### Floating point numbers -/

theorem m_float {u : Bytes} (h : IsFloatText u) : floatRe.M u := by
  obtain ⟨sign, ds, frac, ex, rfl, hs, hne, hd, hf, he, hor⟩ := h
  have h1 : (opt (ch 45)).M sign := by
    rcases hs with rfl | rfl
    · exact .left .eps
    · exact .right (.cls (by decide))
  have hsuf : fsuffOpt.M [] := .left .eps
  have hex : ∀ s es, (s = 43 ∨ s = 45) → es ≠ [] → IsDigits es → exp.M (101 :: s :: es) := by
    intro s es h2 h3 h4
    refine Re.M.seq (u := [101]) (.cls (by decide)) (Re.M.seq (u := [s]) (.right (.cls ?_)) (m_digits1 h3 h4))
    rcases h2 with rfl | rfl <;> decide
  rw [List.append_assoc, List.append_assoc]
  refine .seq h1 (.left ?_)
  rcases hf with rfl | ⟨fs, rfl, hfs⟩
  · rcases he with rfl | ⟨s, es, rfl, h2, h3, h4⟩
    · simp at hor
    · refine .right ?_
      rw [List.nil_append]
      have := Re.M.seq (m_digits1 hne hd) (Re.M.seq (hex s es h2 h3 h4) hsuf)
      rwa [List.append_nil] at this
  · refine .left ?_
    have hfr : Text.frac.M (ds ++ 46 :: fs) := by
      cases fs with
      | nil => exact .right (Re.M.seq (m_digits1 hne hd) (.cls (by decide)))
      | cons f fs => exact .left (Re.M.seq (m_digits hd) (Re.M.seq (u := [46]) (.cls (by decide)) (m_digits1 (by simp) hfs)))
    have hee : expOpt.M ex := by
      rcases he with rfl | ⟨s, es, rfl, h2, h3, h4⟩
      · exact .left .eps
      · exact .right (hex s es h2 h3 h4)
    have := Re.M.seq hfr (Re.M.seq hee hsuf)
    rw [List.append_nil] at this
    rwa [← List.append_assoc]

/-! ### Values -/

/-- The text is read as these tokens. -/
def Scans (E : Env) (stop : Bytes → Prop) (t : Bytes) (ts : List Tok) : Prop :=
  ∀ r, stop r → scan E 0 false none (t ++ r) = (scan E 0 false none r).map (ts ++ ·)

theorem StopM.stopV {r : Bytes} (h : StopM r) : StopV r := by
  rintro c w rfl
  rcases h with h | ⟨w', h⟩ | ⟨w', h⟩ <;> simp at h <;> simp [h]

theorem signed_range {v : Nat} (h : v < 2 ^ 32) : -2147483648 ≤ signedOf 32 v ∧ signedOf 32 v < 2147483648 ∧ (signedOf 32 v % 4294967296).toNat = v := by
  simp only [signedOf]
  split <;> omega

theorem castS_id {i : Int} (h1 : -2147483648 ≤ i) (h2 : i < 2147483648) : castS M32 i = i := by
  unfold castS
  simp only [M32]
  split <;> omega

theorem setInt32_fresh (i : Int) : UAtom.fresh.setInt32 i = some (.mk 105 false (.bits (i % M32).toNat)) := by
  simp [UAtom.setInt32, UAtom.clear, UAtom.fresh, W.store, W.raw, UAtom.alloc, UAtom.w]

theorem setInt8_fresh (i : Int) : UAtom.fresh.setInt8 i = some (.mk 99 false (.bits (i % M8).toNat)) := by
  simp [UAtom.setInt8, UAtom.clear, UAtom.fresh, W.store, W.raw, UAtom.alloc, UAtom.w]

theorem setDouble_fresh (v : Nat) : UAtom.fresh.setDouble v = some (.mk 100 false (.bits ((v : Int) % M64).toNat)) := by
  simp [UAtom.setDouble, UAtom.clear, UAtom.fresh, W.store, W.raw, UAtom.alloc, UAtom.w]

theorem setTimetag_fresh (t : Timetag) : UAtom.fresh.setTimetag t = some (.mk 116 false (.bits (t.sec.toNat + M32 * t.frac.toNat))) := by
  simp [UAtom.setTimetag, UAtom.clear, UAtom.fresh, W.store, W.raw, UAtom.alloc, UAtom.w]

theorem castS8_byte {v : Nat} (h : v < 256) : (castS M8 (v : Int) % M8).toNat = v := by
  unfold castS
  have : M8 = 256 := rfl
  rw [this]
  split <;> omega

theorem scans_num (E : Env) (P : Printf) {tag : UInt8} {v : Nat} (h : Readable E P (.num tag v)) :
    ∃ x : UAtom, x.val = some (.num tag v) ∧ Scans E StopV (textNum P tag v) [.val x] := by
  simp only [Readable] at h
  rcases h with ⟨rfl, hv⟩ | ⟨rfl, hv, h0, h10⟩ | ⟨rfl, hv, hf, hs⟩
  · obtain ⟨h1, h2, h3⟩ := signed_range hv
    refine ⟨.mk 105 false (.bits v), ?_, fun r hr => ?_⟩
    · simp only [UAtom.val, W.raw, M32]
      simp; omega
    · have : textNum P 105 v = decI (signedOf 32 v) := by simp [textNum]
      rw [this, scan_int E (m_intRe _) (decI_bytes _) hr (x := .mk 105 false (.bits v)) ?_]
      · rfl
      · rw [strtol_decI (by omega) (by omega), castS_id h1 h2, setInt32_fresh]
        simp only [M32] at h3 ⊢
        rw [show ((4294967296 : Nat) : Int) = 4294967296 from rfl, h3]
  · refine ⟨.mk 99 false (.bits v), ?_, fun r hr => ?_⟩
    · simp only [UAtom.val, W.raw, M8]
      simp; omega
    · have : textNum P 99 v = [39, UInt8.ofNat v, 39] := by simp [textNum]
      have hn : (UInt8.ofNat v).toNat = v := by rw [UInt8.toNat_ofNat']; omega
      rw [this, scan_char8 E r (x := .mk 99 false (.bits v)) ?_ ?_]
      · rfl
      · intro e
        rw [e] at hn
        have : (10 : UInt8).toNat = 10 := rfl
        omega
      · rw [hn, setInt8_fresh, castS8_byte hv]
  · refine ⟨.mk 100 false (.bits v), ?_, fun r hr => ?_⟩
    · simp only [UAtom.val, W.raw, M64]
      simp; omega
    · have : textNum P 100 v = P.f64 v := by simp [textNum]
      rw [this, scan_float E (m_float hf) hr (x := .mk 100 false (.bits v)) ?_]
      · rfl
      · rw [hs, setDouble_fresh]
        simp only [M64]
        congr 3
        omega

/-- The text of a time tag. -/
theorem timeText_eq (s f : Nat) : ∃ y m d h mi sec k, timeText s f = Props.isoDate y m d h mi sec ++ [46] ++ Props.digits 6 k ++ [90] ∧
    CalSpec.ValidDate y m d ∧ CalSpec.ValidTime h mi sec := by
  obtain ⟨x, y, m, d, h, mi, sec, k, h1, -, h2, h3, h4, -⟩ := Props.C31_text_total ⟨UInt32.ofNat s, UInt32.ofNat f⟩
  exact ⟨y, m, d, h, mi, sec, k, by rw [timeText, h1, h2, Option.getD_some], h3, h4⟩

theorem scans_time (E : Env) (P : Printf) {s f : Nat} (h : Readable E P (.time s f)) :
    ∃ x : UAtom, x.val = some (.time s f) ∧ Scans E StopV (timeText s f) [.val x] := by
  simp only [Readable] at h
  obtain ⟨h1, h2, h3⟩ := h
  obtain ⟨y, m, d, h, mi, sec, k, e, hd, ht⟩ := timeText_eq s f
  refine ⟨.mk 116 false (.bits (s + M32 * f)), ?_, fun r hr => ?_⟩
  · have h32 : M32 = 4294967296 := rfl
    have e1 : (s + 4294967296 * f) % 4294967296 = s := by omega
    have e2 : (s + 4294967296 * f) / 4294967296 % 4294967296 = f := by omega
    simp [UAtom.val, W.raw, h32, e1, e2]
  · have hx : UAtom.fresh.setTimetag (E.iso (timeText s f)) = some (.mk 116 false (.bits (s + M32 * f))) := by
      rw [h3, setTimetag_fresh]
      have a1 : (UInt32.ofNat s).toNat = s := by rw [UInt32.toNat_ofNat']; exact Nat.mod_eq_of_lt h1
      have a2 : (UInt32.ofNat f).toNat = f := by rw [UInt32.toNat_ofNat']; exact Nat.mod_eq_of_lt h2
      simp only [a1, a2]
    rw [e] at hx ⊢
    rw [scan_iso E (m_iso y m d h mi sec k hd ht) ?_ hr hx]
    · rfl
    · rw [Props.isoDate, digits_4]
      refine ⟨_, _, rfl, ?_, ?_⟩
      · exact (digit_byte (Nat.mod_lt _ (by decide))).1
      · exact (digit_byte (Nat.mod_lt _ (by decide))).2.1

theorem no0_time (s f : Nat) : (0 : UInt8) ∉ timeText s f := by
  obtain ⟨y, m, d, h, mi, sec, k, e, hd, ht⟩ := timeText_eq s f
  rw [e]
  intro h0
  have := Re.m_uses (m_iso y m d h mi sec k hd ht) 0 h0
  revert this
  decide +kernel

theorem scan_two {a b : Option (List Tok)} {x y : List Tok} (h : a = b.map (x ++ ·)) {c : Option (List Tok)} (h2 : b = c.map (y ++ ·)) :
    a = c.map ((x ++ y) ++ ·) := by
  subst h h2
  cases c <;> simp

set_option maxHeartbeats 1000000 in
mutual
theorem scans_val (E : Env) (P : Printf) : ∀ (v : Val) (ind : Nat), Readable E P v →
    ∃ (x : UAtom) (ts : List Tok), x.val = some v ∧ GDatum E.ptr ts x ∧ Scans E StopV (textVal P ind v) ts
  | .num tag v, ind, h => by
    obtain ⟨x, h1, h2⟩ := scans_num E P h
    exact ⟨x, _, h1, .val, h2⟩
  | .time s f, ind, h => by
    obtain ⟨x, h1, h2⟩ := scans_time E P h
    exact ⟨x, _, h1, .val, by rw [textVal]; exact h2⟩
  | .blob _, ind, h => by simp [Readable] at h
  | .bare tag, ind, h => by
    simp only [Readable] at h
    rcases h with rfl | rfl | rfl
    · exact ⟨_, _, rfl, .val, fun r _ => scan_true E r⟩
    · exact ⟨_, _, rfl, .val, fun r _ => scan_false E r⟩
    · exact ⟨_, _, rfl, .val, fun r _ => scan_nil E r⟩
  | .str s, ind, h => ⟨strAtom E s, _, by simp [strAtom, UAtom.val], .val, fun r _ => by rw [textVal]; exact scan_literal E s r⟩
  | .bndl ms, ind, h => by
    simp only [Readable] at h
    have hopen : ∀ s : Bytes, scan E 0 false none ([123, 10] ++ s) = (scan E 0 false none s).map ([Tok.chr 123] ++ ·) := fun s => by
      rw [List.cons_append, scan_chr E _ (by simp), List.cons_append, scan_ws E _ (by decide)]; rfl
    have hclose : ∀ s : Bytes, scan E 0 false none ([10] ++ List.replicate (2 * ind) 32 ++ [125] ++ s) =
        (scan E 0 false none s).map ([Tok.chr 125] ++ ·) := fun s => by
      simp only [List.append_assoc, List.cons_append, List.nil_append]
      rw [scan_ws E _ (by decide), scan_spaces, scan_chr E _ (by simp)]
    cases ms with
    | nil =>
      refine ⟨.mk 46 false (.bndl E.ptr []), [.chr 123, .chr 125], by simp [UAtom.val, msgsVal], .empty, fun r _ => ?_⟩
      have e : textVal P ind (.bndl []) ++ r = [123, 10] ++ ([10] ++ List.replicate (2 * ind) 32 ++ [125] ++ r) := by
        simp [textVal, textMsgs, between]
      rw [e]
      exact scan_two (hopen _) (hclose r)
    | cons m ms =>
      obtain ⟨us, ts, h1, h2, h3⟩ := scans_msgs E P m ms (ind + 1) h
      refine ⟨.mk 46 false (.bndl E.ptr us), .chr 123 :: (ts ++ [.chr 125]), by simp [UAtom.val, h1], .bndl h2, fun r _ => ?_⟩
      have e : textVal P ind (.bndl (m :: ms)) ++ r =
          [123, 10] ++ (between [44, 10] (textMsgs P (ind + 1) (m :: ms)) ++ ([10] ++ List.replicate (2 * ind) 32 ++ [125] ++ r)) := by
        simp [textVal]
      rw [e]
      have := scan_two (hopen _) (scan_two (h3 _ (.inr (.inl ⟨_, by simp only [List.append_assoc, List.cons_append, List.nil_append]; rfl⟩))) (hclose r))
      simpa using this
  termination_by v => sizeOf v
  decreasing_by all_goals (subst_vars; simp_wf; try omega)
theorem scans_vals (E : Env) (P : Printf) : ∀ (v : Val) (vs : List Val) (ind : Nat), ReadableVals E P (v :: vs) →
    ∃ (xs : List UAtom) (ts : List Tok), argsVal xs = some (v :: vs) ∧ GData E.ptr ts xs ∧
      Scans E StopV (between [44, 32] (textVals P ind (v :: vs))) ts
  | v, [], ind, h => by
    simp only [ReadableVals, and_true] at h
    obtain ⟨x, ts, h1, h2, h3⟩ := scans_val E P v ind h
    exact ⟨[x], ts, by simp [argsVal, h1], .one h2, by simpa [textVals, between] using h3⟩
  | v, v2 :: vs, ind, h => by
    rw [ReadableVals] at h
    obtain ⟨x, ts, h1, h2, h3⟩ := scans_val E P v ind h.1
    obtain ⟨xs, us, h4, h5, h6⟩ := scans_vals E P v2 vs ind h.2
    refine ⟨x :: xs, ts ++ .chr 44 :: us, by simp [argsVal, h1] at h4 ⊢; exact h4, gData_cons h2 h5, fun r hr => ?_⟩
    have e : between [44, 32] (textVals P ind (v :: v2 :: vs)) ++ r =
        textVal P ind v ++ ([44, 32] ++ (between [44, 32] (textVals P ind (v2 :: vs)) ++ r)) := by
      simp [textVals, between]
    rw [e]
    have hc : ∀ s : Bytes, scan E 0 false none ([44, 32] ++ s) = (scan E 0 false none s).map ([Tok.chr 44] ++ ·) := fun s => by
      rw [List.cons_append, scan_chr E _ (by simp), List.cons_append, scan_ws E _ (by decide)]; rfl
    have := scan_two (h3 _ (fun c w e => by simp only [List.cons_append, List.cons.injEq] at e; exact .inl e.1.symm)) (scan_two (hc _) (h6 r hr))
    simpa using this
  termination_by v vs => sizeOf (v :: vs)
  decreasing_by all_goals (subst_vars; simp_wf; try omega)
theorem scans_msg (E : Env) (P : Printf) : ∀ (m : VMsg) (ind : Nat), ReadableMsg E P m →
    ∃ (x : UMsg) (ts : List Tok), msgVal x = some m ∧ GMsg E.ptr ts x ∧ Scans E StopM (textMsg P ind m) ts
  | .mk a vs, ind, h => by
    rw [ReadableMsg] at h
    obtain ⟨⟨b, rfl, u, rfl, hne, hu, hlast⟩, hv⟩ := h
    have hu' : ∀ c ∈ u, addrByte c = true := by
      intro c hc
      have := hu c hc
      simp only [List.mem_cons, List.not_mem_nil, or_false, not_or] at this
      simp [addrByte, this]
    have haddr : ∀ r : Bytes, (StopM r ∨ ∃ w, r = 32 :: w) → scan E 0 false none (List.replicate (2 * ind) 32 ++ (47 :: u) ++ r) =
        (scan E 0 false none r).map ([Tok.addr (47 :: u)] ++ ·) := fun r hr => by
      rw [List.append_assoc, scan_spaces, scan_addr E hne hu' hlast hr]; rfl
    have hcol : ∀ s : Bytes, scan E 0 false none ([32, 58, 32] ++ s) = (scan E 0 false none s).map ([Tok.chr 58] ++ ·) := fun s => by
      simp only [List.cons_append, List.nil_append]
      rw [scan_ws E _ (by decide), scan_chr E _ (by simp), scan_ws E _ (by decide)]
    match hvs : vs, hv with
    | [], hv =>
      refine ⟨.mk (some (47 :: u)) [], [.addr (47 :: u)], by simp [msgVal, argsVal], .bare, fun r hr => ?_⟩
      have := haddr r (.inl hr)
      simpa [textMsg, textVals] using this
    | [v], hv =>
      simp only [ReadableVals, and_true] at hv
      obtain ⟨x, ts, h1, h2, h3⟩ := scans_val E P v ind hv
      refine ⟨.mk (some (47 :: u)) [x], .addr (47 :: u) :: .chr 58 :: ts, by simp [msgVal, argsVal, h1], .one h2, fun r hr => ?_⟩
      have e : textMsg P ind (.mk (some (47 :: u)) [v]) ++ r =
          List.replicate (2 * ind) 32 ++ (47 :: u) ++ ([32, 58, 32] ++ (textVal P ind v ++ r)) := by simp [textMsg, textVals]
      rw [e]
      have := scan_two (haddr _ (.inr ⟨_, rfl⟩)) (scan_two (hcol _) (h3 r hr.stopV))
      simpa using this
    | v :: v2 :: vs, hv =>
      obtain ⟨xs, ts, h1, h2, h3⟩ := scans_vals E P v (v2 :: vs) ind hv
      refine ⟨.mk (some (47 :: u)) xs, .addr (47 :: u) :: .chr 58 :: .chr 91 :: (ts ++ [.chr 93]), by simp [msgVal, h1], .list h2, fun r hr => ?_⟩
      have e : textMsg P ind (.mk (some (47 :: u)) (v :: v2 :: vs)) ++ r =
          List.replicate (2 * ind) 32 ++ (47 :: u) ++ ([32, 58, 32] ++ ([91] ++ (between [44, 32] (textVals P ind (v :: v2 :: vs)) ++ ([93] ++ r)))) := by
        simp [textMsg, textVals]
      rw [e]
      have hb : ∀ (c : UInt8) (s : Bytes), c ∈ ([58, 123, 125, 44, 91, 93] : Bytes) →
          scan E 0 false none ([c] ++ s) = (scan E 0 false none s).map ([Tok.chr c] ++ ·) := fun c s hc => by
        rw [List.singleton_append, scan_chr E _ hc]; rfl
      have := scan_two (haddr _ (.inr ⟨_, rfl⟩)) (scan_two (hcol _) (scan_two (hb 91 _ (by simp))
        (scan_two (h3 _ (fun c w e => by simp only [List.cons_append, List.cons.injEq] at e; exact .inr (.inl e.1.symm))) (hb 93 r (by simp)))))
      simpa using this
  termination_by m => sizeOf m
  decreasing_by all_goals (subst_vars; simp_wf; try omega)
theorem scans_msgs (E : Env) (P : Printf) : ∀ (m : VMsg) (ms : List VMsg) (ind : Nat), ReadableMsgs E P (m :: ms) →
    ∃ (xs : List UMsg) (ts : List Tok), msgsVal xs = some (m :: ms) ∧ GMsgs E.ptr ts xs ∧
      Scans E StopM (between [44, 10] (textMsgs P ind (m :: ms))) ts
  | m, [], ind, h => by
    simp only [ReadableMsgs, and_true] at h
    obtain ⟨x, ts, h1, h2, h3⟩ := scans_msg E P m ind h
    exact ⟨[x], ts, by simp [msgsVal, h1], .one h2, by simpa [textMsgs, between] using h3⟩
  | m, m2 :: ms, ind, h => by
    rw [ReadableMsgs] at h
    obtain ⟨x, ts, h1, h2, h3⟩ := scans_msg E P m ind h.1
    obtain ⟨xs, us, h4, h5, h6⟩ := scans_msgs E P m2 ms ind h.2
    refine ⟨x :: xs, ts ++ .chr 44 :: us, by simp [msgsVal, h1] at h4 ⊢; exact h4, gMsgs_cons h2 h5, fun r hr => ?_⟩
    have e : between [44, 10] (textMsgs P ind (m :: m2 :: ms)) ++ r =
        textMsg P ind m ++ ([44, 10] ++ (between [44, 10] (textMsgs P ind (m2 :: ms)) ++ r)) := by
      simp [textMsgs, between]
    rw [e]
    have hc : ∀ s : Bytes, scan E 0 false none ([44, 10] ++ s) = (scan E 0 false none s).map ([Tok.chr 44] ++ ·) := fun s => by
      rw [List.cons_append, scan_chr E _ (by simp), List.cons_append, scan_ws E _ (by decide)]; rfl
    have := scan_two (h3 _ (.inr (.inr ⟨_, rfl⟩))) (scan_two (hc _) (h6 r hr))
    simpa using this
  termination_by m ms => sizeOf (m :: ms)
  decreasing_by all_goals (subst_vars; simp_wf; try omega)
end

/-! ### What can be read back has been written, without NUL -/

mutual
theorem writable_val (E : Env) (P : Printf) : ∀ v : Val, Readable E P v → Writable v
  | .num tag v, h => by
    simp only [Readable] at h
    simp only [Writable]
    rintro rfl
    simp at h
  | .time _ _, _ => by simp [Writable]
  | .blob _, h => by simp [Readable] at h
  | .bare _, _ => by simp [Writable]
  | .str s, h => by simpa [Readable, Writable] using h
  | .bndl ms, h => by
    simp only [Readable] at h
    simp only [Writable]
    exact writable_msgs E P ms h
theorem writable_vals (E : Env) (P : Printf) : ∀ vs : List Val, ReadableVals E P vs → WritableVals vs
  | [], _ => by simp [WritableVals]
  | v :: vs, h => by
    simp only [ReadableVals] at h
    simp only [WritableVals]
    exact ⟨writable_val E P v h.1, writable_vals E P vs h.2⟩
theorem writable_msg (E : Env) (P : Printf) : ∀ m : VMsg, ReadableMsg E P m → WritableMsg m
  | .mk a vs, h => by
    simp only [ReadableMsg] at h
    simp only [WritableMsg]
    obtain ⟨⟨b, rfl, _⟩, h⟩ := h
    exact ⟨by simp, writable_vals E P vs h⟩
theorem writable_msgs (E : Env) (P : Printf) : ∀ ms : List VMsg, ReadableMsgs E P ms → WritableMsgs ms
  | [], _ => by simp [WritableMsgs]
  | m :: ms, h => by
    simp only [ReadableMsgs] at h
    simp only [WritableMsgs]
    exact ⟨writable_msg E P m h.1, writable_msgs E P ms h.2⟩
end

/-- Without NUL. -/
def No0 (s : Bytes) : Prop := (0 : UInt8) ∉ s

theorem no0_app {s t : Bytes} (h1 : No0 s) (h2 : No0 t) : No0 (s ++ t) := by
  unfold No0 at *; simp [h1, h2]

theorem no0_between {b : Bytes} (hb : No0 b) : ∀ l : List Bytes, (∀ x ∈ l, No0 x) → No0 (between b l)
  | [], _ => by simp [between, No0]
  | [x], h => by simpa [between] using h
  | x :: y :: l, h => by
    rw [between]
    exact no0_app (no0_app (h x (by simp)) hb) (no0_between hb (y :: l) fun z hz => h z (by simp_all))

theorem no0_digits {s : Bytes} (h : IsDigits s) : No0 s := fun h0 => by
  have := (h 0 h0).1
  revert this; decide

theorem no0_spaces (k : Nat) : No0 (List.replicate k 32) := fun h => by
  have := List.eq_of_mem_replicate h
  revert this; decide

theorem no0_decI (i : Int) : No0 (decI i) := fun h => by
  have := decI_bytes i 0 h
  revert this; decide

theorem no0_literal {s : Bytes} (h : (0 : UInt8) ∉ s) : No0 (Props.literal s) := by
  unfold No0 Props.literal
  simp only [List.mem_cons, List.mem_append, List.not_mem_nil, or_false, not_or]
  refine ⟨by decide, ?_, by decide⟩
  unfold Props.escape
  rw [List.mem_flatMap]
  rintro ⟨c, hc, h0⟩
  split at h0
  · rw [List.mem_cons, List.mem_singleton] at h0
    rcases h0 with h0 | rfl
    · revert h0; decide
    · exact h hc
  · rw [List.mem_singleton] at h0
    exact h (h0 ▸ hc)

theorem no0_float {u : Bytes} (h : IsFloatText u) : No0 u := by
  obtain ⟨sign, ds, frac, ex, rfl, hs, _, hd, hf, he, _⟩ := h
  refine no0_app (no0_app (no0_app ?_ (no0_digits hd)) ?_) ?_
  · rcases hs with rfl | rfl <;> unfold No0 <;> decide
  · rcases hf with rfl | ⟨fs, rfl, h⟩
    · unfold No0; decide
    · exact no0_app (s := [46]) (by unfold No0; decide) (no0_digits h)
  · rcases he with rfl | ⟨s, es, rfl, h, _, h2⟩
    · unfold No0; decide
    · refine no0_app (s := [101, s]) ?_ (no0_digits h2)
      rcases h with rfl | rfl <;> unfold No0 <;> decide

mutual
theorem no0_val (E : Env) (P : Printf) : ∀ (v : Val) (ind : Nat), Readable E P v → No0 (textVal P ind v)
  | .num tag v, ind, h => by
    simp only [Readable] at h
    simp only [textVal]
    rcases h with ⟨rfl, hv⟩ | ⟨rfl, hv, h0, h10⟩ | ⟨rfl, hv, hf, hs⟩
    · have : textNum P 105 v = decI (signedOf 32 v) := by simp [textNum]
      rw [this]; exact no0_decI _
    · have : textNum P 99 v = [39, UInt8.ofNat v, 39] := by simp [textNum]
      have hn : (UInt8.ofNat v).toNat = v := by rw [UInt8.toNat_ofNat']; omega
      rw [this]
      unfold No0
      simp only [List.mem_cons, List.not_mem_nil, or_false, not_or]
      refine ⟨by decide, fun e => ?_, by decide⟩
      rw [← e] at hn
      exact h0 hn.symm
    · have : textNum P 100 v = P.f64 v := by simp [textNum]
      rw [this]; exact no0_float hf
  | .time s f, ind, _ => by rw [textVal]; exact no0_time s f
  | .blob _, ind, h => by simp [Readable] at h
  | .bare tag, ind, h => by
    simp only [Readable] at h
    rcases h with rfl | rfl | rfl <;> simp [textVal, No0]
  | .str s, ind, h => by
    simp only [Readable] at h
    simp only [textVal]
    exact no0_literal h
  | .bndl ms, ind, h => by
    simp only [Readable] at h
    simp only [textVal]
    exact no0_app (no0_app (no0_app (no0_app (by unfold No0; decide) (no0_between (by unfold No0; decide) _ (no0_msgs E P ms _ h)))
      (by unfold No0; decide)) (no0_spaces _)) (by unfold No0; decide)
theorem no0_vals (E : Env) (P : Printf) : ∀ (vs : List Val) (ind : Nat), ReadableVals E P vs → ∀ x ∈ textVals P ind vs, No0 x
  | [], ind, _ => by simp [textVals]
  | v :: vs, ind, h => by
    simp only [ReadableVals] at h
    intro x hx
    simp only [textVals, List.mem_cons] at hx
    rcases hx with rfl | hx
    · exact no0_val E P v ind h.1
    · exact no0_vals E P vs ind h.2 x hx
theorem no0_msg (E : Env) (P : Printf) : ∀ (m : VMsg) (ind : Nat), ReadableMsg E P m → No0 (textMsg P ind m)
  | .mk a vs, ind, h => by
    simp only [ReadableMsg] at h
    obtain ⟨⟨b, rfl, u, rfl, hne, hu, hlast⟩, hv⟩ := h
    have ih := no0_vals E P vs ind hv
    have ha : No0 (47 :: u) := no0_app (s := [47]) (by unfold No0; decide) fun h0 => by have := hu 0 h0; revert this; decide
    simp only [textMsg, Option.getD_some]
    refine no0_app (no0_app (no0_spaces _) ha) ?_
    split
    · unfold No0; decide
    · rename_i t e
      exact no0_app (by unfold No0; decide) (ih t (by rw [e]; simp))
    · exact no0_app (no0_app (by unfold No0; decide) (no0_between (by unfold No0; decide) _ ih)) (by unfold No0; decide)
theorem no0_msgs (E : Env) (P : Printf) : ∀ (ms : List VMsg) (ind : Nat), ReadableMsgs E P ms → ∀ x ∈ textMsgs P ind ms, No0 x
  | [], ind, _ => by simp [textMsgs]
  | m :: ms, ind, h => by
    simp only [ReadableMsgs] at h
    intro x hx
    simp only [textMsgs, List.mem_cons] at hx
    rcases hx with rfl | hx
    · exact no0_msg E P m ind h.1
    · exact no0_msgs E P ms ind h.2 x hx
end

/-! ### The parser and the grammar -/

theorem parse_iff (E : Env) (ts : List Tok) (ms : List UMsg) : parse E ts = some ms ↔ GMsgs E.ptr ts ms := by
  constructor
  · intro h
    unfold parse at h
    split at h
    · rename_i ms' e
      cases h
      obtain ⟨t, e1, g⟩ := pMsgs_sound E _ e
      rw [List.append_nil] at e1
      exact e1 ▸ g
    · cases h
  · intro g
    have := (complete_all E ts.length ts (Nat.le_refl _) []).2.2.1 ms (4 * ts.length + 4) g (by omega) (by simp [NotHead]) (by simp [NotHead])
    rw [List.append_nil] at this
    unfold parse
    rw [this]

theorem parse_text (E : Env) (P : Printf) (m : VMsg) (ms : List VMsg) (h : ReadableMsgs E P (m :: ms)) :
    ∃ us, parseString E (textBndl P (m :: ms)) = some us ∧ msgsVal us = some (m :: ms) := by
  obtain ⟨us, ts, h1, h2, h3⟩ := scans_msgs E P m ms 0 h
  refine ⟨us, ?_, h1⟩
  have := h3 [] (.inl rfl)
  rw [List.append_nil] at this
  unfold parseString textBndl
  rw [this]
  simp only [scan, Option.map_some, List.append_nil, Option.bind_some]
  exact (parse_iff E ts us).mpr h2

end Libo.Text
