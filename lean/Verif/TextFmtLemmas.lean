import Verif.TextSpec
import Verif.Values
import Verif.Props.IsoDates
/-!
# What the formatting functions write
-/

namespace Libo.Text
open Libo

/-- Given room for the text and a NUL, the function writes them, leaves the rest of the buffer alone and returns the length. -/
def Prints (f : Writer) (t : Bytes) : Prop := ∀ (b : Bytes) (n : Int), (t.length : Int) < n → n ≤ b.length →
  f b n = some (t.length, t ++ 0 :: b.drop (t.length + 1))

/-- The same if the buffer begins with a NUL. -/
def Puts (f : Writer) (t : Bytes) : Prop := ∀ (b : Bytes) (n : Int), (t.length : Int) < n → n ≤ b.length → b.head? = some 0 →
  f b n = some (t.length, t ++ 0 :: b.drop (t.length + 1))

theorem Prints.puts {f : Writer} {t : Bytes} (h : Prints f t) : Puts f t := fun b n h1 h2 _ => h b n h1 h2

theorem prints_snprintf (t : Bytes) : Prints (snprintf t) t := by
  intro b n h1 h2
  have e : t.take (n.toNat - 1) = t := List.take_of_length_le (by omega)
  simp only [snprintf]
  rw [if_neg (by omega), if_neg (by omega), e, if_pos (by simp only [List.length_append, List.length_singleton]; omega)]
  simp

theorem puts_noText : Puts noText [] := by
  intro b n h1 h2 h3
  cases b with
  | nil => simp at h3
  | cons c b =>
    simp only [List.head?_cons, Option.some.injEq] at h3
    simp [noText, h3]

theorem then_aux {s t b : Bytes} :
    (s ++ 0 :: b.drop (s.length + 1)).take s.length ++ (t ++ 0 :: ((s ++ 0 :: b.drop (s.length + 1)).drop s.length).drop (t.length + 1)) =
      (s ++ t) ++ 0 :: b.drop ((s ++ t).length + 1) := by
  rw [List.take_left, List.drop_left]
  simp only [List.drop_succ_cons, List.drop_drop, List.append_assoc, List.length_append]
  rw [show s.length + 1 + t.length = s.length + t.length + 1 by omega]

theorem prints_then {f g : Writer} {s t : Bytes} (hf : Prints f s) (hg : Puts g t) : Prints (andThen f g) (s ++ t) := by
  intro b n h1 h2
  simp only [List.length_append] at h1
  simp only [andThen]
  rw [hf b n (by omega) h2]
  simp only [Option.bind_some]
  rw [if_pos (by simp only [List.length_append]; omega), hg _ _ (by omega)
    (by simp only [List.length_append, List.length_cons, List.length_drop]; omega) (by rw [List.drop_left]; rfl)]
  simp only [Option.map_some, Option.some.injEq, Prod.mk.injEq]
  exact ⟨by simp, then_aux⟩

theorem puts_then {f g : Writer} {s t : Bytes} (hf : Puts f s) (hg : Puts g t) : Puts (andThen f g) (s ++ t) := by
  intro b n h1 h2 h0
  simp only [List.length_append] at h1
  simp only [andThen]
  rw [hf b n (by omega) h2 h0]
  simp only [Option.bind_some]
  rw [if_pos (by simp only [List.length_append]; omega), hg _ _ (by omega)
    (by simp only [List.length_append, List.length_cons, List.length_drop]; omega) (by rw [List.drop_left]; rfl)]
  simp only [Option.map_some, Option.some.injEq, Prod.mk.injEq]
  exact ⟨by simp, then_aux⟩

/-! ### Numbers -/

theorem castS_signed {m n : Nat} (hm : m = 2 ^ n) (x : Nat) : castS m x = signedOf n (x % m) := by
  subst hm
  simp only [castS, signedOf, ← Int.natCast_emod]
  split <;> split <;> first | rfl | omega

theorem castU_nat (m x : Nat) : decI (castU m x) = dec (x % m) := by
  have h : castU m x = ((x % m : Nat) : Int) := by rw [castU, Int.natCast_emod]
  rw [h, decI, if_neg (by omega), Int.natAbs_natCast]

theorem castS_byte (c : UInt8) : castS M8 c.toNat = signedOf 8 c.toNat := by
  rw [castS_signed (n := 8) rfl, Nat.mod_eq_of_lt c.toNat_lt]

theorem dec_length_pos (n : Nat) : 0 < (dec n).length := by
  rw [dec]; split <;> simp

theorem dec_length_100 {n : Nat} (h : 100 ≤ n) (h2 : n < 256) : (dec n).length = 3 := by
  rw [dec, if_neg (by omega), dec, if_neg (by omega), dec, if_pos (by omega)]; rfl

/-! ### Blobs -/

theorem between_cons (b x : Bytes) (l : List Bytes) : between b (x :: l) = x ++ (l.flatMap (b ++ ·)) := by
  induction l generalizing x with
  | nil => simp [between]
  | cons y l ih => rw [between, ih]; simp

theorem prints_blobRest : ∀ (s : Bytes), Prints (putBlobRest s) (((s.map fun (x : UInt8) => decI (signedOf 8 x.toNat)).flatMap ([44, 32] ++ ·)) ++ [41]) ∧
    lenBlobRest s = (((s.map fun (x : UInt8) => decI (signedOf 8 x.toNat)).flatMap ([44, 32] ++ ·)) ++ [41]).length
  | [] => ⟨prints_snprintf _, rfl⟩
  | c :: s => by
    obtain ⟨h1, h2⟩ := prints_blobRest s
    simp only [putBlobRest, lenBlobRest, castS_byte, List.map_cons, List.flatMap_cons, List.append_assoc]
    refine ⟨?_, ?_⟩
    · have := prints_then (prints_snprintf ([44, 32] ++ decI (signedOf 8 c.toNat))) h1.puts
      simpa using this
    · rw [h2]; simp; omega

theorem blob_parts {blk c : Bytes} {l : Int} (hc : slice blk 4 l = some c) (hne : c ≠ []) :
    ∃ x r, c = x :: r ∧ rd8 blk 4 = some x ∧ slice blk 5 (max (l - 1) 0) = some r := by
  unfold slice at hc
  split at hc
  · simp at hc
  · rename_i hl0
    simp only [Option.some.injEq] at hc
    have hlp : 0 < l.toNat := by
      rcases Nat.eq_zero_or_pos l.toNat with h | h
      · rw [h, List.take_zero] at hc; exact absurd hc.symm hne
      · exact h
    obtain ⟨k, hk⟩ : ∃ k, l.toNat = k + 1 := ⟨l.toNat - 1, by omega⟩
    have h5 : 4 < blk.length := by omega
    rw [List.drop_eq_getElem_cons h5, hk, List.take_succ_cons] at hc
    refine ⟨blk[4], (blk.drop 5).take k, hc.symm, ?_, ?_⟩
    · simp [rd8, List.getElem?_eq_getElem h5]
    · unfold slice
      rw [if_neg (by omega)]
      congr 2; omega

theorem prints_blob {blk c : Bytes} {l : Int} (hl : rdI32 blk 0 = some l) (hc : slice blk 4 l = some c) (hne : c ≠ []) :
    let t := [98, 108, 111, 98, 40] ++ between [44, 32] (c.map fun x => decI (signedOf 8 x.toNat)) ++ [41]
    Prints (putBlob blk) t ∧ lenBlob blk = some t.length := by
  obtain ⟨x, r, rfl, h1, h2⟩ := blob_parts hc hne
  obtain ⟨h3, h4⟩ := prints_blobRest r
  simp only [List.map_cons, between_cons]
  refine ⟨fun b n hb1 hb2 => ?_, ?_⟩
  · unfold putBlob
    simp only [hl, h1, h2, Option.bind_some, castS_byte]
    have := prints_then (prints_snprintf ([98, 108, 111, 98, 40] ++ decI (signedOf 8 x.toNat))) h3.puts
    have e : ([98, 108, 111, 98, 40] ++ decI (signedOf 8 x.toNat)) ++
        (((r.map fun x => decI (signedOf 8 x.toNat)).flatMap ([44, 32] ++ ·)) ++ [41]) =
        [98, 108, 111, 98, 40] ++ (decI (signedOf 8 x.toNat) ++
          ((r.map fun x => decI (signedOf 8 x.toNat)).flatMap ([44, 32] ++ ·))) ++ [41] := by simp
    rw [e] at this
    exact this b n hb1 hb2
  · unfold lenBlob
    simp only [hl, h1, h2, Option.bind_some, castS_byte, Option.map_some, h4, Option.some.injEq]
    simp; omega

/-! ### Plain values -/

theorem getStringInto_plain {P : Printf} {tag : UInt8} {w : W} {t : Bytes} (h1 : tag ≠ 116) (h2 : tag ≠ 98) (ht : plainText P tag w = some t)
    (hl : stringLen P tag w = some t.length) : Prints (getStringInto P tag w) t := by
  intro b n hb1 hb2
  unfold getStringInto
  rw [if_neg h1, if_neg h2, hl]
  simp only [ht, Option.bind_some]
  rw [prints_snprintf t b n hb1 hb2]; rfl

theorem stringLen_plain {P : Printf} {tag : UInt8} {w : W} {t : Bytes} (h1 : tag ≠ 116) (h2 : tag ≠ 98) (h3 : tag ≠ 67)
    (ht : plainText P tag w = some t) : stringLen P tag w = some t.length := by
  unfold stringLen
  rw [if_neg h1, if_neg h2, if_neg h3, ht]

/-- The writer of a value: its text, and the size found in advance, which exceeds the length by `k`. -/
def Formats (len : Option Nat) (f : Writer) (t : Bytes) (k : Nat) : Prop := len = some (t.length + k) ∧ Puts f t

theorem formats_plain {P : Printf} {tag : UInt8} {w : W} {t : Bytes} (h1 : tag ≠ 116) (h2 : tag ≠ 98) (h3 : tag ≠ 67)
    (ht : plainText P tag w = some t) : Formats (stringLen P tag w) (getStringInto P tag w) t 0 :=
  ⟨stringLen_plain h1 h2 h3 ht, (getStringInto_plain h1 h2 ht (stringLen_plain h1 h2 h3 ht)).puts⟩

theorem tabs_eq (k : Nat) : tabs k = List.replicate (2 * k) 32 := by rw [tabs, Nat.mul_comm]

theorem formats_num {P : Printf} {tag : UInt8} {w : W} {m : Nat}
    (h : ((tag = 99 ∨ tag = 67) ∧ m = M8) ∨ ((tag = 117 ∨ tag = 85) ∧ m = M16) ∨ ((tag = 105 ∨ tag = 73 ∨ tag = 102) ∧ m = M32) ∨
      ((tag = 104 ∨ tag = 72 ∨ tag = 100) ∧ m = M64)) (hg : tag = 67 → 100 ≤ w.raw % m) :
    Formats (stringLen P tag w) (getStringInto P tag w) (textNum P tag (w.raw % m)) 0 := by
  by_cases h67 : tag = 67
  · subst h67
    simp at h
    subst h
    have hl : stringLen P 67 w = some (textNum P 67 (w.raw % M8)).length := by
      have : (decI w.C).length = 3 := by
        rw [W.C, castU_nat]
        exact dec_length_100 (hg rfl) (Nat.mod_lt _ (by decide))
      simp [stringLen, textNum, this]
    exact ⟨hl, (getStringInto_plain (by decide) (by decide) (by simp [plainText, textNum]) hl).puts⟩
  · apply formats_plain _ _ h67
    · rcases h with ⟨rfl | rfl, rfl⟩ | ⟨rfl | rfl, rfl⟩ | ⟨rfl | rfl | rfl, rfl⟩ | ⟨rfl | rfl | rfl, rfl⟩ <;>
        first
        | (exfalso; exact h67 rfl)
        | (simp [plainText, textNum, W.I, W.H, W.U, castU_nat]; done)
        | (simp only [plainText, textNum, W.i, W.h, W.u, castS_signed (m := M16) (n := 16) rfl, castS_signed (m := M32) (n := 32) rfl,
            castS_signed (m := M64) (n := 64) rfl]; simp)
    · rcases h with ⟨rfl | rfl, rfl⟩ | ⟨rfl | rfl, rfl⟩ | ⟨rfl | rfl | rfl, rfl⟩ | ⟨rfl | rfl | rfl, rfl⟩ <;> decide
    · rcases h with ⟨rfl | rfl, rfl⟩ | ⟨rfl | rfl, rfl⟩ | ⟨rfl | rfl | rfl, rfl⟩ | ⟨rfl | rfl | rfl, rfl⟩ <;> decide

/-! ### Bundles -/

theorem len_between (b x : Bytes) (l : List Bytes) : (between b (x :: l)).length = x.length + (if l.isEmpty then 0 else b.length) + (between b l).length := by
  cases l with
  | nil => simp [between]
  | cons y l => rw [between]; simp; omega

theorem between_app (b x : Bytes) (l : List Bytes) : between b (x :: l) = (x ++ if l.isEmpty then [] else b) ++ between b l := by
  cases l with
  | nil => simp [between]
  | cons y l => rw [between]; simp

theorem formats_str (P : Printf) {s : Bytes} (h : (0 : UInt8) ∉ s) :
    Formats (quotedStringWithQuotedMetaLen s)
      (fun b n => if n < 0 then none else quotedStringWithQuotedMeta ((List.range n.toNat).map P.junk) b n.toNat s) (Props.literal s) 0 := by
  refine ⟨(Props.C33_length s).1, Prints.puts fun b n h1 h2 => ?_⟩
  rw [if_neg (by omega)]
  exact (Props.C33_quote_partial s _ b n.toNat h (by simp) (by omega) (by omega)).1

theorem textVals_length (P : Printf) (ind : Nat) : ∀ vs : List Val, (textVals P ind vs).length = vs.length
  | [] => by simp [textVals]
  | v :: vs => by simp [textVals, textVals_length P ind vs]

theorem textMsgs_length (P : Printf) (ind : Nat) : ∀ vs : List VMsg, (textMsgs P ind vs).length = vs.length
  | [] => by simp [textMsgs]
  | v :: vs => by simp [textMsgs, textMsgs_length P ind vs]

theorem isEmpty_of_length {α β : Type} {l : List α} {k : List β} (h : l.length = k.length) : l.isEmpty = k.isEmpty := by
  cases l <;> cases k <;> simp_all

theorem msgsVal_length : ∀ (ms : List UMsg) (vs : List VMsg), msgsVal ms = some vs → ms.length = vs.length
  | [], vs, h => by simp [msgsVal] at h; subst h; rfl
  | m :: ms, vs, h => by
    simp only [msgsVal, Option.bind_eq_some_iff, Option.map_eq_some_iff] at h
    obtain ⟨v, _, vs', h2, rfl⟩ := h
    simp [msgsVal_length ms vs' h2]

theorem isoText_time (w : W) : Iso.isoText (wTime w) = some (timeText (w.raw % M32) (w.raw / M32 % M32)) := by
  have e : wTime w = ⟨UInt32.ofNat (w.raw % M32), UInt32.ofNat (w.raw / M32 % M32)⟩ := by
    unfold wTime
    congr 1 <;> (apply UInt32.toNat_inj.mp; simp [M32])
  obtain ⟨x, _, _, _, _, _, _, _, h, _⟩ := Props.C31_text_total (wTime w)
  rw [timeText, ← e, h, Option.getD_some]

theorem formats_time (P : Printf) (w : W) : Formats (stringLen P 116 w) (getStringInto P 116 w) (timeText (w.raw % M32) (w.raw / M32 % M32)) 1 := by
  obtain ⟨h1, h2⟩ := Props.C31_text_size (wTime w)
  have h3 := isoText_time w
  refine ⟨?_, Prints.puts fun b n hb1 hb2 => ?_⟩
  · unfold stringLen
    rw [if_pos rfl, h1, h2 _ h3]
  · unfold getStringInto
    rw [if_pos rfl, Iso.putIso, h3, Option.bind_some]
    exact prints_snprintf _ b n hb1 hb2

theorem textMsg_eq (P : Printf) (ind : Nat) (a : Bytes) (vs : List Val) :
    textMsg P ind (.mk (some a) vs) = msgHead ind a vs.length ++ between [44, 32] (textVals P ind vs) ++ (if vs.length > 1 then [93] else []) := by
  simp only [textMsg, msgHead, tabs_eq, Option.getD_some]
  match vs with
  | [] => simp [textVals, between]
  | [v] => simp [textVals, between]
  | v :: v2 :: vs => simp [textVals]

theorem lenAtom_plain {P : Printf} {ind : Nat} {tag : UInt8} {al : Bool} {w : W} (h : tag ≠ 46 ∧ tag ≠ 115) :
    lenAtom P ind (.mk tag al w) = stringLen P tag w := by
  cases w <;> simp only [lenAtom, if_neg h.1, if_neg h.2]

theorem putAtom_plain {P : Printf} {ind : Nat} {tag : UInt8} {al : Bool} {w : W} (h : tag ≠ 46 ∧ tag ≠ 115) :
    putAtom P ind (.mk tag al w) = getStringInto P tag w := by
  cases w <;> simp only [putAtom, if_neg h.1, if_neg h.2]

set_option maxHeartbeats 1000000 in
mutual
theorem formats_atom (P : Printf) : ∀ (a : UAtom) (v : Val) (ind : Nat), a.val = some v → Writable v →
    Formats (lenAtom P ind a) (putAtom P ind a) (textVal P ind v) (timesVal v)
  | .mk tag al w, v, ind, h, hw => by
    rcases val_eq tag al w v h with ⟨h1, rfl⟩ | ⟨h2, rfl⟩ | ⟨h3, rfl⟩ | ⟨h4, rfl⟩ | ⟨rfl, rfl⟩ | ⟨rfl, p, s, rfl, rfl⟩ |
      ⟨rfl, p, blk, l, c, rfl, hl, hc, rfl⟩ | ⟨rfl, p, ms, vs, rfl, hv, rfl⟩ | ⟨rfl, h8⟩
    · have ht : tag ≠ 46 ∧ tag ≠ 115 := by rcases h1 with rfl | rfl <;> decide
      rw [lenAtom_plain ht, putAtom_plain ht, textVal]
      exact formats_num (.inl ⟨h1, rfl⟩) (by simpa [Writable] using hw)
    · have ht : tag ≠ 46 ∧ tag ≠ 115 := by rcases h2 with rfl | rfl <;> decide
      rw [lenAtom_plain ht, putAtom_plain ht, textVal]
      exact formats_num (.inr (.inl ⟨h2, rfl⟩)) (by simpa [Writable] using hw)
    · have ht : tag ≠ 46 ∧ tag ≠ 115 := by rcases h3 with rfl | rfl | rfl <;> decide
      rw [lenAtom_plain ht, putAtom_plain ht, textVal]
      exact formats_num (.inr (.inr (.inl ⟨h3, rfl⟩))) (by simpa [Writable] using hw)
    · have ht : tag ≠ 46 ∧ tag ≠ 115 := by rcases h4 with rfl | rfl | rfl <;> decide
      rw [lenAtom_plain ht, putAtom_plain ht, textVal]
      exact formats_num (.inr (.inr (.inr ⟨h4, rfl⟩))) (by simpa [Writable] using hw)
    · have ht : (116 : UInt8) ≠ 46 ∧ (116 : UInt8) ≠ 115 := by decide
      rw [lenAtom_plain ht, putAtom_plain ht, textVal, timesVal]
      exact formats_time P w
    · simp only [Writable] at hw
      simp only [lenAtom, putAtom, textVal, timesVal]
      exact formats_str P hw
    · simp only [Writable] at hw
      obtain ⟨g1, g2⟩ := prints_blob hl hc hw
      simp only [lenAtom, putAtom, textVal, timesVal]
      refine ⟨?_, ?_⟩
      · simpa [stringLen] using g2
      · intro b n hb1 hb2 _
        simpa [getStringInto] using g1 b n hb1 hb2
    · simp only [Writable] at hw
      obtain ⟨g1, g2⟩ := formats_msgs P ms vs (ind + 1) hv hw
      simp only [lenAtom, putAtom, textVal, timesVal, if_true]
      refine ⟨?_, ?_⟩
      · rw [g1, Option.map_some, tabs_eq]; simp; omega
      · have := puts_then (puts_then (prints_snprintf [123, 10]).puts g2) (prints_snprintf ([10] ++ tabs ind ++ [125])).puts
        rw [tabs_eq] at this ⊢
        simpa [List.append_assoc] using this
    · have ht : tag ≠ 46 ∧ tag ≠ 115 ∧ tag ≠ 116 ∧ tag ≠ 98 ∧ tag ≠ 67 := by
        simp only [List.mem_cons, List.not_mem_nil, or_false, not_or] at h8
        exact ⟨h8.2.2.2.2.2.2.2.2.2.2.2.2.2, h8.2.2.2.2.2.2.2.2.2.2.2.1, h8.2.2.2.2.2.2.2.2.2.2.1, h8.2.2.2.2.2.2.2.2.2.2.2.2.1, h8.2.1⟩
      rw [lenAtom_plain ⟨ht.1, ht.2.1⟩, putAtom_plain ⟨ht.1, ht.2.1⟩, textVal]
      by_cases h84 : tag = 84
      · rw [if_pos h84]
        exact formats_plain ht.2.2.1 ht.2.2.2.1 ht.2.2.2.2 (by subst h84; simp [plainText])
      · by_cases h70 : tag = 70
        · rw [if_neg h84, if_pos h70]
          exact formats_plain ht.2.2.1 ht.2.2.2.1 ht.2.2.2.2 (by subst h70; simp [plainText])
        · by_cases h78 : tag = 78
          · rw [if_neg h84, if_neg h70, if_pos h78]
            exact formats_plain ht.2.2.1 ht.2.2.2.1 ht.2.2.2.2 (by subst h78; simp [plainText])
          · have hp : plainText P tag w = none := by
              simp only [List.mem_cons, List.not_mem_nil, or_false, not_or] at h8
              simp only [plainText]
              simp [h8, h84, h70, h78]
            have hl : stringLen P tag w = some 0 := by
              unfold stringLen
              rw [if_neg ht.2.2.1, if_neg ht.2.2.2.1, if_neg ht.2.2.2.2, hp]
            rw [if_neg h84, if_neg h70, if_neg h78]
            refine ⟨hl, fun b n hb1 hb2 hb3 => ?_⟩
            unfold getStringInto
            rw [if_neg ht.2.2.1, if_neg ht.2.2.2.1, hl]
            simp only [Option.bind_some, hp]
            exact puts_noText b n hb1 hb2 hb3
theorem formats_args (P : Printf) : ∀ (as : List UAtom) (vs : List Val) (ind : Nat), argsVal as = some vs → WritableVals vs →
    Formats (lenArgs P ind as) (putArgs P ind as) (between [44, 32] (textVals P ind vs)) (timesVals vs)
  | [], vs, ind, h, hw => by
    simp [argsVal] at h; subst h
    simp only [lenArgs, putArgs, textVals, between]
    exact ⟨rfl, puts_noText⟩
  | a :: as, vs, ind, h, hw => by
    simp only [argsVal, Option.bind_eq_some_iff, Option.map_eq_some_iff] at h
    obtain ⟨v, h1, vs', h2, rfl⟩ := h
    simp only [WritableVals] at hw
    obtain ⟨g1, g2⟩ := formats_atom P a v ind h1 hw.1
    obtain ⟨g3, g4⟩ := formats_args P as vs' ind h2 hw.2
    have he : as.isEmpty = (textVals P ind vs').isEmpty :=
      isEmpty_of_length ((argsVal_length as vs' h2).trans (textVals_length P ind vs').symm)
    simp only [textVals]
    refine ⟨?_, ?_⟩
    · simp only [lenArgs, g1, g3, Option.bind_some, Option.map_some, len_between, he, timesVals, Option.some.injEq, List.length_cons, List.length_nil]
      split
      all_goals omega
    · simp only [putArgs]
      rw [between_app]
      refine puts_then (puts_then g2 ?_) g4
      rw [he]
      split
      · exact puts_noText
      · exact (prints_snprintf _).puts
theorem prints_msg (P : Printf) : ∀ (m : UMsg) (v : VMsg) (ind : Nat), msgVal m = some v → WritableMsg v →
    lenMsg P ind m = some ((textMsg P ind v).length + timesMsg v) ∧ Prints (putMsg P ind m) (textMsg P ind v)
  | .mk none args, v, ind, h, hw => by
    simp only [msgVal, Option.map_eq_some_iff] at h
    obtain ⟨vs, h1, rfl⟩ := h
    simp [WritableMsg] at hw
  | .mk (some a) args, v, ind, h, hw => by
    simp only [msgVal, Option.map_eq_some_iff] at h
    obtain ⟨vs, h1, rfl⟩ := h
    simp only [WritableMsg] at hw
    obtain ⟨g1, g2⟩ := formats_args P args vs ind h1 hw.2
    rw [textMsg_eq, ← argsVal_length args vs h1]
    refine ⟨?_, ?_⟩
    · simp only [lenMsg, g1, Option.map_some, List.length_append, timesMsg, Option.some.injEq]
      split <;> simp only [List.length_cons, List.length_nil] <;> omega
    · simp only [putMsg]
      refine prints_then (prints_then (prints_snprintf _) g2) ?_
      split
      · exact (prints_snprintf _).puts
      · exact puts_noText
theorem formats_msgs (P : Printf) : ∀ (ms : List UMsg) (vs : List VMsg) (ind : Nat), msgsVal ms = some vs → WritableMsgs vs →
    Formats (lenMsgs P ind ms) (putMsgs P ind ms) (between [44, 10] (textMsgs P ind vs)) (timesMsgs vs)
  | [], vs, ind, h, hw => by
    simp [msgsVal] at h; subst h
    simp only [lenMsgs, putMsgs, textMsgs, between]
    exact ⟨rfl, puts_noText⟩
  | m :: ms, vs, ind, h, hw => by
    simp only [msgsVal, Option.bind_eq_some_iff, Option.map_eq_some_iff] at h
    obtain ⟨v, h1, vs', h2, rfl⟩ := h
    simp only [WritableMsgs] at hw
    obtain ⟨g1, g2⟩ := prints_msg P m v ind h1 hw.1
    obtain ⟨g3, g4⟩ := formats_msgs P ms vs' ind h2 hw.2
    have he : ms.isEmpty = (textMsgs P ind vs').isEmpty :=
      isEmpty_of_length ((msgsVal_length ms vs' h2).trans (textMsgs_length P ind vs').symm)
    simp only [textMsgs]
    refine ⟨?_, ?_⟩
    · simp only [lenMsgs, g1, g3, Option.bind_some, Option.map_some, len_between, he, timesMsgs, Option.some.injEq, List.length_cons, List.length_nil]
      split
      all_goals omega
    · intro b n hb1 hb2 hb3
      simp only [putMsgs]
      rw [if_pos (by omega)]
      rw [between_app] at hb1 ⊢
      refine puts_then (puts_then g2.puts ?_) g4 b n hb1 hb2 hb3
      rw [he]
      split
      · exact puts_noText
      · exact (prints_snprintf _).puts
end

theorem prints_msgs (P : Printf) (m : UMsg) (ms : List UMsg) (vs : List VMsg) (ind : Nat) (h : msgsVal (m :: ms) = some vs) (hw : WritableMsgs vs) :
    Prints (putMsgs P ind (m :: ms)) (between [44, 10] (textMsgs P ind vs)) := by
  simp only [msgsVal, Option.bind_eq_some_iff, Option.map_eq_some_iff] at h
  obtain ⟨v, h1, vs', h2, rfl⟩ := h
  simp only [WritableMsgs] at hw
  obtain ⟨g1, g2⟩ := prints_msg P m v ind h1 hw.1
  obtain ⟨g3, g4⟩ := formats_msgs P ms vs' ind h2 hw.2
  have he : ms.isEmpty = (textMsgs P ind vs').isEmpty :=
    isEmpty_of_length ((msgsVal_length ms vs' h2).trans (textMsgs_length P ind vs').symm)
  simp only [textMsgs]
  intro b n hb1 hb2
  simp only [putMsgs]
  rw [if_pos (by omega)]
  rw [between_app] at hb1 ⊢
  refine prints_then (prints_then g2 ?_) g4 b n hb1 hb2
  rw [he]
  split
  · exact puts_noText
  · exact (prints_snprintf _).puts

end Libo.Text
