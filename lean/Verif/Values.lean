import Verif.ValueSpec
import Verif.AtomS
import Verif.BundleSLemmas
import Verif.MsgSLemmas
import Verif.TimetagLemmas
/-!
# Which value an atom of the model stands for, and what the serialiser makes of it
-/

namespace Libo

mutual
/-- The value an atom holds: what its getters return (only the bytes the type has). `none` for an atom whose word does not
hold what its tag promises. -/
def UAtom.val : UAtom → Option Val
  | .mk tag _ w =>
    if tag = 99 ∨ tag = 67 then some (.num tag (w.raw % M8))
    else if tag = 117 ∨ tag = 85 then some (.num tag (w.raw % M16))
    else if tag = 105 ∨ tag = 73 ∨ tag = 102 then some (.num tag (w.raw % M32))
    else if tag = 104 ∨ tag = 72 ∨ tag = 100 then some (.num tag (w.raw % M64))
    else if tag = 116 then some (.time (w.raw % M32) (w.raw / M32 % M32))
    else if tag = 115 then
      match w with
      | .str _ s => some (.str s)
      | _ => none
    else if tag = 98 then
      match w with
      | .blob _ blk => (rdI32 blk 0).bind fun l => (slice blk 4 l).map .blob
      | _ => none
    else if tag = 46 then
      match w with
      | .bndl _ ms => (msgsVal ms).map .bndl
      | _ => none
    else some (.bare tag)
def argsVal : List UAtom → Option (List Val)
  | [] => some []
  | a :: as => a.val.bind fun v => (argsVal as).map (v :: ·)
def msgVal : UMsg → Option VMsg
  | .mk a args => (argsVal args).map (.mk a)
def msgsVal : List UMsg → Option (List VMsg)
  | [] => some []
  | m :: ms => (msgVal m).bind fun v => (msgsVal ms).map (v :: ·)
end

theorem argsVal_length : ∀ (as : List UAtom) (vs : List Val), argsVal as = some vs → as.length = vs.length
  | [], vs, h => by simp [argsVal] at h; subst h; rfl
  | a :: as, vs, h => by
    simp only [argsVal, Option.bind_eq_some_iff, Option.map_eq_some_iff] at h
    obtain ⟨v, _, vs', h2, rfl⟩ := h
    simp [argsVal_length as vs' h2]

theorem plainHeader_eq : emptyHeader = plainHeader := by decide

theorem strSize_padN {n : Nat} (h : strSize n < 4294967296) : padN n = strSize n := by
  unfold strSize at *
  by_cases h2 : n + 4 < 4294967296
  · exact padN_eq n h2
  · omega


theorem be32_mod (n : Nat) : be32 (n % M32) = be32 n := by
  unfold be32
  have h : ∀ k : Nat, k ∣ M32 → 256 ∣ M32 / k → (n % M32 / k) % 256 = (n / k) % 256 := by
    intro k h1 h2
    obtain ⟨j, hj⟩ := h1
    rw [hj, Nat.mod_mul_right_div_self]
    refine Nat.mod_mod_of_dvd _ ?_
    rcases Nat.eq_zero_or_pos k with rfl | hk
    · simp at hj
    · rw [hj, Nat.mul_div_cancel_left _ hk] at h2
      exact h2
  have g : ∀ a b : Nat, a % 256 = b % 256 → UInt8.ofNat a = UInt8.ofNat b := by
    intro a b hab
    apply UInt8.toNat_inj.mp
    simp [UInt8.toNat_ofNat', hab]
  rw [g _ _ (h 16777216 (by decide) (by decide)), g _ _ (h 65536 (by decide) (by decide)), g _ _ (h 256 (by decide) (by decide)),
    g _ _ (Nat.mod_mod_of_dvd n (by decide : 256 ∣ M32))]

theorem take4_of_rd32 {blk : Bytes} {n : Nat} (h : rd32 blk 0 = some n) : blk.take 4 = be32 n := by
  have h4 := rd32_isSome.mp (by rw [h]; rfl : (rd32 blk 0).isSome)
  match blk, h4 with
  | a :: b :: c :: d :: rest, _ =>
    simp only [rd32, rd8, List.getElem?_cons_zero, List.getElem?_cons_succ, bnd, Option.some.injEq, pure] at h
    have ha := a.toNat_lt; have hb := b.toNat_lt; have hc := c.toNat_lt; have hd := d.toNat_lt
    have g : ∀ (x : UInt8) (y : Nat), y % 256 = x.toNat → x = UInt8.ofNat y := by
      intro x y hxy
      apply UInt8.toNat_inj.mp
      simp [UInt8.toNat_ofNat', hxy]
    simp only [List.take_succ_cons, List.take_zero, be32]
    rw [← g a (n / 16777216) (by omega), ← g b (n / 65536) (by omega), ← g c (n / 256) (by omega), ← g d n (by omega)]

/-- What the serialiser has to do for an item with wire size `k`: the size call says `k`, and with room for at least `k` bytes it
writes `d`, `k` bytes long. -/
def SerOK (size : Option Nat) (ser : Nat → Option Bytes) (k : Nat) (d : Bytes) : Prop :=
  d.length = k ∧ size = some k ∧ ∀ n, k ≤ n → ser n = some d

theorem ser_num4 {tag : UInt8} {al : Bool} {w : W}
    (h : (tag = 99 ∨ tag = 67 ∨ tag = 117 ∨ tag = 85 ∨ tag = 105 ∨ tag = 73) ∨ tag = 102) :
    SerOK (sizeAtom (.mk tag al w)) (serAtom · (.mk tag al w)) 4 (be32 (w.raw % M32)) := by
  refine ⟨by simp, ?_, fun n hn => ?_⟩
  · rcases h with (rfl | rfl | rfl | rfl | rfl | rfl) | rfl <;> simp [sizeAtom]
  · rcases h with (rfl | rfl | rfl | rfl | rfl | rfl) | rfl <;> simp [serAtom, hn]

theorem ser_num8 {tag : UInt8} {al : Bool} {w : W} (h : tag = 104 ∨ tag = 72 ∨ tag = 100) :
    SerOK (sizeAtom (.mk tag al w)) (serAtom · (.mk tag al w)) 8 (be32 (w.raw % M64 / 2 ^ 32) ++ be32 (w.raw % M64)) := by
  refine ⟨by simp, ?_, fun n hn => ?_⟩
  · rcases h with rfl | rfl | rfl <;> simp [sizeAtom]
  · rcases h with rfl | rfl | rfl <;> simp [serAtom, hn, be64, M32]

theorem val_eq (tag : UInt8) (al : Bool) (w : W) (v : Val) (h : (UAtom.mk tag al w).val = some v) :
    ((tag = 99 ∨ tag = 67) ∧ v = .num tag (w.raw % M8)) ∨
    ((tag = 117 ∨ tag = 85) ∧ v = .num tag (w.raw % M16)) ∨
    ((tag = 105 ∨ tag = 73 ∨ tag = 102) ∧ v = .num tag (w.raw % M32)) ∨
    ((tag = 104 ∨ tag = 72 ∨ tag = 100) ∧ v = .num tag (w.raw % M64)) ∨
    (tag = 116 ∧ v = .time (w.raw % M32) (w.raw / M32 % M32)) ∨
    (tag = 115 ∧ ∃ p s, w = .str p s ∧ v = .str s) ∨
    (tag = 98 ∧ ∃ p blk, ∃ l : Int, ∃ c : Bytes, w = .blob p blk ∧ rdI32 blk 0 = some l ∧ slice blk 4 l = some c ∧ v = .blob c) ∨
    (tag = 46 ∧ ∃ p ms vs, w = .bndl p ms ∧ msgsVal ms = some vs ∧ v = .bndl vs) ∨
    (v = .bare tag ∧ tag ∉ ([99, 67, 117, 85, 105, 73, 102, 104, 72, 100, 116, 115, 98, 46] : List UInt8)) := by
  cases w <;> simp only [UAtom.val] at h <;> (repeat' split at h) <;>
    simp only [Option.some.injEq, Option.bind_eq_some_iff, Option.map_eq_some_iff, reduceCtorEq] at h <;> simp_all
  · exact ⟨_, _, ⟨rfl, rfl⟩, h.symm⟩
  · obtain ⟨l, h1, c, h2, h3⟩ := h
    exact ⟨_, _, ⟨rfl, rfl⟩, l, h1, c, h2, h3.symm⟩
  · obtain ⟨l, h1, h2⟩ := h
    exact ⟨_, _, ⟨rfl, rfl⟩, l, h1, h2.symm⟩

mutual
theorem ser_atom : ∀ (a : UAtom) (v : Val), a.val = some v → sizeVal v < 4294967296 →
    ∃ d, EncVal v a.tag d ∧ SerOK (sizeAtom a) (serAtom · a) (sizeVal v) d
  | .mk tag al w, v, h, hs => by
    rcases val_eq tag al w v h with ⟨h1, rfl⟩ | ⟨h2, rfl⟩ | ⟨h3, rfl⟩ | ⟨h4, rfl⟩ | ⟨rfl, rfl⟩ | ⟨rfl, p, s, rfl, rfl⟩ |
      ⟨rfl, p, blk, l, c, rfl, hl, hc, rfl⟩ | ⟨rfl, p, ms, vs, rfl, hv, rfl⟩ | ⟨rfl, h8⟩
    · refine ⟨be32 (w.raw % M32), ?_, ?_⟩
      · simp only [EncVal, UAtom.tag, true_and]
        refine Or.inl ⟨by simpa using h1, w.raw % M32, Nat.mod_mod_of_dvd _ (by decide), Nat.mod_lt _ (by decide), rfl⟩
      · have e : sizeVal (.num tag (w.raw % M8)) = 4 := by simp only [sizeVal]; rcases h1 with rfl | rfl <;> decide
        rw [e]; exact ser_num4 (by rcases h1 with h | h <;> simp [h])
    · refine ⟨be32 (w.raw % M32), ?_, ?_⟩
      · simp only [EncVal, UAtom.tag, true_and]
        refine Or.inr (Or.inl ⟨by simpa using h2, w.raw % M32, Nat.mod_mod_of_dvd _ (by decide), Nat.mod_lt _ (by decide), rfl⟩)
      · have e : sizeVal (.num tag (w.raw % M16)) = 4 := by simp only [sizeVal]; rcases h2 with rfl | rfl <;> decide
        rw [e]; exact ser_num4 (by rcases h2 with h | h <;> simp [h])
    · refine ⟨be32 (w.raw % M32), ?_, ?_⟩
      · simp only [EncVal, UAtom.tag, true_and]
        refine Or.inr (Or.inr (Or.inl ⟨by simpa using h3, Nat.mod_lt _ (by decide), trivial⟩))
      · have e : sizeVal (.num tag (w.raw % M32)) = 4 := by simp only [sizeVal]; rcases h3 with rfl | rfl | rfl <;> decide
        rw [e]; exact ser_num4 (by rcases h3 with h | h | h <;> simp [h])
    · refine ⟨be32 (w.raw % M64 / 2 ^ 32) ++ be32 (w.raw % M64), ?_, ?_⟩
      · simp only [EncVal, UAtom.tag, true_and]
        refine Or.inr (Or.inr (Or.inr ⟨by simpa using h4, Nat.mod_lt _ (by decide), trivial⟩))
      · have e : sizeVal (.num tag (w.raw % M64)) = 8 := by simp only [sizeVal]; rw [if_pos h4]
        rw [e]; exact ser_num8 h4
    · refine ⟨be32 (w.raw % M32) ++ be32 (w.raw / M32 % M32), ?_, ?_⟩
      · simp only [EncVal, UAtom.tag, true_and]
        exact ⟨Nat.mod_lt _ (by decide), Nat.mod_lt _ (by decide), trivial⟩
      · refine ⟨by simp [sizeVal], by simp [sizeAtom, sizeVal], fun n hn => ?_⟩
        simp only [sizeVal] at hn
        simp [serAtom, timetagOf, hn]
    · simp only [sizeVal] at hs
      have hp := strSize_padN hs
      have hle : s.length < strSize s.length := by unfold strSize; omega
      refine ⟨padStr s, by simp [EncVal, UAtom.tag], ?_, ?_, fun n hn => ?_⟩
      · simp only [padStr, zeros, List.length_append, List.length_replicate, sizeVal, hp]; omega
      · simp [sizeAtom, sizeVal, hp]
      · simp only [sizeVal] at hn
        simp only [serAtom, hp]
        simp [hn, padStr, hp, Nat.le_of_lt hle]
    · have hl0 : ¬ l < 0 := by
        intro hh
        simp [slice, hh] at hc
      have hlen : (4 + l : Int) ≤ blk.length := by
        simp only [slice] at hc
        split at hc
        · simp at hc
        · omega
      have hcl : c = (blk.drop 4).take l.toNat ∧ (c.length : Int) = l := by
        simp only [slice] at hc
        split at hc
        · simp at hc
        · simp only [Option.some.injEq] at hc
          subst hc
          refine ⟨rfl, ?_⟩
          simp only [List.length_take, List.length_drop]
          omega
      have hln : l.toNat = c.length := by omega
      have h4 : blk.take 4 = be32 c.length := by
        have hr : rd32 blk 0 = some c.length := by
          simp only [rdI32, Option.map_eq_some_iff] at hl
          obtain ⟨x, hx, hxl⟩ := hl
          rw [hx]
          have := rd32_lt hx
          unfold toI32 at hxl
          split at hxl
          · congr 1; omega
          · omega
        exact take4_of_rd32 hr
      have hsl : slice blk 0 (l + 4) = some (be32 c.length ++ c) := by
        rw [slice, if_neg (by omega), List.drop_zero, ← h4, hcl.1, hln]
        have e : (l + 4).toNat = 4 + c.length := by omega
        rw [e, List.take_add]
      have hbl : blobLen c.length = 4 + (c.length + 3) / 4 * 4 := by rw [blobLen_eq]; omega
      refine ⟨be32 c.length ++ c ++ zeros ((4 - c.length % 4) % 4), by simp [EncVal, UAtom.tag], ?_, ?_, fun n hn => ?_⟩
      · simp only [zeros, List.length_append, List.length_replicate, length_be32, sizeVal]; omega
      · simp [sizeAtom, sizeVal, hl, hl0, hln, hbl]
      · simp only [sizeVal] at hn
        have hz : blobLen c.length - (be32 c.length ++ c).length = (4 - c.length % 4) % 4 := by
          rw [hbl]; simp only [List.length_append, length_be32]; omega
        simp only [serAtom]
        simp only [hl, Option.bind_some, hln, hbl, hsl, Option.map_some]
        rw [hbl] at hz
        rw [if_neg hl0, if_pos hn, hz]
        simp
    · simp only [sizeVal] at hs
      obtain ⟨b, hb, hlen, hsz, hser⟩ := ser_msgs ms vs hv (by omega)
      have hh : plainHeader.length = 16 := by decide
      refine ⟨be32 (plainHeader ++ b).length ++ (plainHeader ++ b), ?_, ?_, ?_, fun n hn => ?_⟩
      · simp only [EncVal, UAtom.tag, true_and]
        exact ⟨b, hb, rfl⟩
      · simp only [List.length_append, length_be32, hh, hlen, sizeVal]
      · simp [sizeAtom, sizeVal, hsz]; omega
      · simp only [sizeVal] at hn
        simp only [serAtom, hsz]
        rw [if_neg (by decide), if_neg (by decide), if_neg (by decide), if_neg (by decide), if_pos trivial]
        simp only [Option.bind_some]
        rw [if_pos (by omega), hser _ _ (by omega)]
        simp only [List.length_append, hh, hlen, Option.map_some, plainHeader_eq]
    · simp only [List.mem_cons, List.not_mem_nil, or_false, not_or] at h8
      refine ⟨[], by simp [EncVal, UAtom.tag], ?_, ?_, fun n hn => ?_⟩
      · simp [sizeVal]
      · cases w <;> simp [sizeAtom, sizeVal, h8]
      · cases w <;> simp [serAtom, h8]
theorem ser_args : ∀ (as : List UAtom) (vs : List Val), argsVal as = some vs → sizeVals vs < 4294967296 →
    ∃ ws, EncArgs vs ws ∧ ws.map Prod.fst = as.map UAtom.tag ∧ (ws.flatMap Prod.snd).length = sizeVals vs ∧
      sizeArgs as = some (sizeVals vs) ∧ ∀ n k, k + sizeVals vs ≤ n → serArgs n k as = some (ws.flatMap Prod.snd)
  | [], vs, h, hs => by
    simp only [argsVal, Option.some.injEq] at h
    subst h
    exact ⟨[], by simp [EncArgs], rfl, by simp [sizeVals], by simp [sizeArgs, sizeVals], fun n k _ => by simp [serArgs]⟩
  | a :: as, vs, h, hs => by
    simp only [argsVal, Option.bind_eq_some_iff, Option.map_eq_some_iff] at h
    obtain ⟨v, hv, vs', hvs, rfl⟩ := h
    simp only [sizeVals] at hs
    obtain ⟨d, hd, hl, hz, hse⟩ := ser_atom a v hv (by omega)
    replace hse : ∀ n, sizeVal v ≤ n → serAtom n a = some d := hse
    obtain ⟨ws, hw, hf, hl2, hz2, hse2⟩ := ser_args as vs' hvs (by omega)
    refine ⟨(a.tag, d) :: ws, ?_, by simp [hf], ?_, ?_, fun n k hk => ?_⟩
    · simp only [EncArgs]
      exact ⟨_, _, rfl, hd, hw⟩
    · simp [sizeVals, hl, hl2]
    · simp [sizeArgs, sizeVals, hz, hz2]
    · simp only [sizeVals] at hk
      simp only [serArgs]
      rw [if_pos (by omega), hse _ (by omega), Option.bind_some, hl, hse2 _ _ (by omega)]
      simp
theorem ser_msg : ∀ (m : UMsg) (v : VMsg), msgVal m = some v → sizeVMsg v < 4294967296 →
    ∃ d, EncMsg v d ∧ SerOK (sizeMsg m) (serMsg · m) (sizeVMsg v) d
  | .mk none args, v, h, hs => by
    simp only [msgVal, Option.map_eq_some_iff] at h
    obtain ⟨vs, hv, rfl⟩ := h
    exact ⟨[], by simp [EncMsg], by simp [sizeVMsg], by simp [sizeMsg, sizeVMsg], fun n _ => by simp [serMsg]⟩
  | .mk (some a) args, v, h, hs => by
    simp only [msgVal, Option.map_eq_some_iff] at h
    obtain ⟨vs, hv, rfl⟩ := h
    simp only [sizeVMsg] at hs
    obtain ⟨ws, hw, hf, hl, hz, hse⟩ := ser_args args vs hv (by omega)
    have hargc := argsVal_length args vs hv
    have pa := strSize_padN (n := a.length) (by omega)
    have pt := strSize_padN (n := 1 + vs.length) (by omega)
    have la : a.length < strSize a.length := by unfold strSize; omega
    have lt : 1 + vs.length < strSize (1 + vs.length) := by unfold strSize; omega
    have hws : ws.length = vs.length := by
      have := congrArg List.length hf
      simpa [hargc] using this
    have ht : (tagString ws).length = 1 + vs.length := by simp [tagString, hws, Nat.add_comm]
    have hbl : (encBody a ws).length = strSize a.length + strSize (1 + vs.length) + sizeVals vs := by
      simp only [encBody, padStr, zeros, List.length_append, List.length_replicate, ht, pa, pt, hl]
      omega
    refine ⟨encMsg (encBody a ws), ?_, ?_, ?_, fun n hn => ?_⟩
    · simp only [EncMsg]
      exact ⟨ws, hw, rfl⟩
    · simp only [encMsg, List.length_append, length_be32, hbl, sizeVMsg]
    · have pa' : padStrLen a.length = strSize a.length := pa
      simp only [sizeMsg, hz, hargc, Nat.add_comm vs.length 1, pt, pa', Option.map_some, sizeVMsg]
      congr 1; omega
    · simp only [sizeVMsg] at hn
      simp only [serMsg, hargc, Nat.add_comm vs.length 1, pt, pa]
      rw [if_neg (by omega), if_neg (by omega), hse _ _ (by omega)]
      simp only [Option.map_some, encMsg, hbl, hl]
      have e : 4 + strSize a.length + strSize (1 + vs.length) + sizeVals vs - 4 =
          strSize a.length + strSize (1 + vs.length) + sizeVals vs := by omega
      rw [e]
      simp only [encBody, padStr, tagString, ht, pa, pt, hf, List.append_assoc]
      simp [pt, hws, hargc, Nat.add_comm vs.length 1]
theorem ser_msgs : ∀ (ms : List UMsg) (vs : List VMsg), msgsVal ms = some vs → sizeVMsgs vs < 4294967296 →
    ∃ b, EncMsgs vs b ∧ b.length = sizeVMsgs vs ∧ sizeMsgs ms = some (sizeVMsgs vs) ∧
      ∀ n k, k + sizeVMsgs vs ≤ n → serMsgs n k ms = some b
  | [], vs, h, hs => by
    simp only [msgsVal, Option.some.injEq] at h
    subst h
    exact ⟨[], by simp [EncMsgs], by simp [sizeVMsgs], by simp [sizeMsgs, sizeVMsgs], fun n k _ => by simp [serMsgs]⟩
  | m :: ms, vs, h, hs => by
    simp only [msgsVal, Option.bind_eq_some_iff, Option.map_eq_some_iff] at h
    obtain ⟨v, hv, vs', hvs, rfl⟩ := h
    simp only [sizeVMsgs] at hs
    obtain ⟨d, hd, hl, hz, hse⟩ := ser_msg m v hv (by omega)
    replace hse : ∀ n, sizeVMsg v ≤ n → serMsg n m = some d := hse
    obtain ⟨b, hb, hl2, hz2, hse2⟩ := ser_msgs ms vs' hvs (by omega)
    refine ⟨d ++ b, ?_, by simp [sizeVMsgs, hl, hl2], ?_, fun n k hk => ?_⟩
    · simp only [EncMsgs]
      exact ⟨_, _, rfl, hd, hb⟩
    · simp [sizeMsgs, sizeVMsgs, hz, hz2]
    · simp only [sizeVMsgs] at hk
      simp only [serMsgs]
      by_cases hkn : k < n
      · rw [if_pos hkn, hse _ (by omega), Option.bind_some, hl, hse2 _ _ (by omega)]
        simp
      · rw [if_neg hkn]
        have h1 : d = [] := List.eq_nil_of_length_eq_zero (by omega)
        have h2 : b = [] := List.eq_nil_of_length_eq_zero (by omega)
        rw [h1, h2]; rfl
end

end Libo
