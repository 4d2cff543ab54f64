import Verif.TextScanLemmas
import Verif.Props.IsoDates
/-!
# What the scanner makes of the text of a time tag
-/

namespace Libo.Text
open Libo Libo.CalSpec

/-- Whether a text matches. -/
def _root_.Libo.Re.test (r : Re) (s : Bytes) : Bool := (s.foldl (fun r c => r.deriv c) r).nullable

theorem _root_.Libo.Re.test_iff : ∀ (s : Bytes) (r : Re), Re.test r s = true ↔ r.M s
  | [], r => r.nullable_iff
  | c :: s, r => by
    have := Re.test_iff s (r.deriv c)
    rw [Re.deriv_iff] at this
    exact this

theorem m_digit (n : Nat) : digit.M [UInt8.ofNat (48 + n % 10)] := by
  refine .cls ?_
  have : ∀ k, k < 10 → (decide ((48 : UInt8) ≤ UInt8.ofNat (48 + k)) && decide (UInt8.ofNat (48 + k) ≤ 57)) = true := by decide +kernel
  exact this _ (Nat.mod_lt _ (by decide))

theorem m_month : ∀ m, m < 13 → 1 ≤ m → (Re.alt (.seq (ch 49) (range 48 50)) (.seq (ch 48) (range 49 57))).test (Props.digits 2 m) = true := by
  decide +kernel
theorem m_day : ∀ d, d < 32 → 1 ≤ d →
    (opt (alts [.seq (ch 51) (range 48 49), .seq (ch 48) (range 49 57), .seq (range 49 50) digit])).test (Props.digits 2 d) = true := by
  decide +kernel
theorem m_hour : ∀ h, h < 24 → (Re.alt (.seq (ch 50) (range 48 51)) (.seq (range 48 49) digit)).test (Props.digits 2 h) = true := by
  decide +kernel
theorem m_min1 : ∀ k, k < 6 → (range 48 53).test (Props.digits 1 k) = true := by decide +kernel

theorem digits_4 (y : Nat) : Props.digits 4 y = [UInt8.ofNat (48 + y / 10 / 10 / 10 % 10)] ++ ([UInt8.ofNat (48 + y / 10 / 10 % 10)] ++
    ([UInt8.ofNat (48 + y / 10 % 10)] ++ [UInt8.ofNat (48 + y % 10)])) := rfl
theorem digits_2 (y : Nat) : Props.digits 2 y = Props.digits 1 (y / 10) ++ [UInt8.ofNat (48 + y % 10)] := rfl

theorem m_iso (y m d h mi s k : Nat) (hd : ValidDate y m d) (ht : ValidTime h mi s) :
    isoRe.M (Props.isoDate y m d h mi s ++ [46] ++ Props.digits 6 k ++ [90]) := by
  obtain ⟨_, m1, m2, d1, d2⟩ := hd
  obtain ⟨t1, t2, t3⟩ := ht
  have d3 := Props.monthLen_le y m
  have e1 := (Re.test_iff _ _).mp (m_month m (by omega) m1)
  have e2 := (Re.test_iff _ _).mp (m_day d (by omega) d1)
  have e3 := (Re.test_iff _ _).mp (m_hour h t1)
  have e4 := (Re.test_iff _ _).mp (m_min1 (mi / 10) (by omega))
  have e5 := (Re.test_iff _ _).mp (m_min1 (s / 10) (by omega))
  have e6 : (opt (opt (.seq (ch 46) (plus digit)))).M ([46] ++ Props.digits 6 k) := by
    refine .right (.right (.seq (.cls (by decide)) (m_digits1 (by simp [Props.digits]) fun c hc => ?_)))
    have := Props.digits_dig 6 k c hc
    simpa [Iso.isDig] using this
  have e7 : (opt (.alt (ch 90) (seqs [oneOf [43, 45], .alt (.seq (ch 50) (range 48 51)) (.seq (range 48 49) digit), ch 58, range 48 53, digit]))).M [90] :=
    .right (.left (.cls (by decide)))
  have c : ∀ x : UInt8, (ch x).M [x] := fun x => .cls (by simp)
  have key := Re.M.seq (a := opt (ch 45)) (u := []) (.left .eps) (Re.M.seq (a := opt (.seq (range 49 57) (.star digit))) (u := []) (.left .eps)
    (.seq (m_digit (y / 10 / 10 / 10)) (.seq (m_digit (y / 10 / 10)) (.seq (m_digit (y / 10)) (.seq (m_digit y) (.seq (c 45) (.seq e1 (.seq (c 45) (.seq e2
      (.seq (c 84) (.seq e3 (.seq (c 58) (.seq e4 (.seq (m_digit mi) (.seq (c 58) (.seq e5 (.seq (m_digit s) (.seq e6 e7))))))))))))))))))
  rw [Props.isoDate, digits_4 y, digits_2 mi, digits_2 s]
  simp only [List.append_assoc, List.nil_append] at key ⊢
  exact key

theorem uses_iso : ∀ re ∈ [floatRe, intRe, hexRe], re.uses 90 = false := by decide +kernel

theorem scan_iso (E : Env) {u r : Bytes} (hm : isoRe.M (u ++ [90])) (hc : ∃ c v, u = c :: v ∧ 48 ≤ c ∧ c ≤ 57) (hr : StopV r) {x : UAtom}
    (hx : UAtom.fresh.setTimetag (E.iso (u ++ [90])) = some x) :
    scan E 0 false none (u ++ [90] ++ r) = (scan E 0 false none r).map (.val x :: ·) := by
  obtain ⟨c, u, rfl, hc⟩ := hc
  have hf := numFirst_rules c (by simp [numFirst, hc])
  have hnone : ∀ re ∈ [ch 34, word [34, 34], word [116, 114, 117, 101], word [102, 97, 108, 115, 101], word [110, 105, 108], oneOf [58, 123, 125, 44],
      oneOf [91, 93], seqs [ch 39, dot, ch 39], addrRe, spaceRe], re.longest (c :: u ++ [90] ++ r) = none :=
    fun re hre => Re.longest_first (hf re hre).1 (hf re hre).2
  have hl : isoRe.longest (c :: u ++ [90] ++ r) = some (u.length + 2) := by
    have := Re.longest_some (v := r) hm fun y w e hy => by
      cases r with
      | nil => exact absurd (List.append_eq_nil_iff.mp e.symm).1 hy
      | cons d r => exact Re.m_stops e hy (stop_uses hr (by simp) d r rfl)
    rw [this]
    simp
  have hless : ∀ re ∈ [floatRe, intRe, hexRe], ∀ k, re.longest (c :: u ++ [90] ++ r) = some k → k ≤ u.length + 1 := by
    intro re hre k hk
    rw [List.append_assoc] at hk
    exact longest_le (u := c :: u) (v := [90] ++ r) (fun d w e => by
      simp only [List.cons_append, List.cons.injEq] at e
      rw [← e.1]
      exact uses_iso re hre) hk
  have hp : Re.pick rules (c :: u ++ [90] ++ r) = some (u.length + 2, .iso) := by
    refine pick_at (pre := [(ch 34, Act.quote), (word [34, 34], .empty), (floatRe, .float), (word [116, 114, 117, 101], .tru),
      (word [102, 97, 108, 115, 101], .fls), (word [110, 105, 108], .nil), (oneOf [58, 123, 125, 44], .char), (oneOf [91, 93], .char),
      (seqs [ch 39, dot, ch 39], .char8), (intRe, .int), (hexRe, .hex), (addrRe, .addr)]) hl ?_ ?_
    · intro y hy k hk
      simp only [List.mem_cons, List.not_mem_nil, or_false] at hy
      rcases hy with rfl | rfl
      · rw [hnone _ (by simp)] at hk; cases hk
      · have := longest_cls_le hk; omega
    · intro y hy k hk
      simp only [List.mem_cons, List.not_mem_nil, or_false] at hy
      rcases hy with rfl | rfl | rfl | rfl | rfl | rfl | rfl | rfl | rfl | rfl | rfl | rfl
      iterate 2 (rw [hnone _ (by simp)] at hk; cases hk)
      · have := hless _ (by simp) k hk; omega
      iterate 6 (rw [hnone _ (by simp)] at hk; cases hk)
      · have := hless _ (by simp) k hk; omega
      · have := hless _ (by simp) k hk; omega
      · rw [hnone _ (by simp)] at hk; cases hk
  have e : c :: u ++ [90] ++ r = c :: (u ++ [90] ++ r) := by simp
  rw [e] at hp ⊢
  rw [scan]
  have ht : (c :: (u ++ [90] ++ r)).take (u.length + 2) = c :: u ++ [90] := by
    rw [← e, show u.length + 2 = (c :: u ++ [90]).length by simp, List.take_left]
  simp only [Bool.false_eq_true, if_false, hp, ht, valueOf, hx, Option.bind_some]
  rw [show u.length + 2 - 1 = u.length + 1 by omega, scan_skip' E false none (u := u ++ [90]) (by simp)]

end Libo.Text
