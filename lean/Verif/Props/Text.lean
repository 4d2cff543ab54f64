import Verif.TextRound
/-!
# C53, C54, C55: the text form of bundles

The specification of the text and the grammar are in `TextSpec.lean`.
-/

namespace Libo.Props
open Libo Libo.Text

/-! ## C54: the size and the text -/

/-- C54, for bundles that are not empty and values other than unsigned 8-bit numbers below 100 and empty blobs:
`osc_bundle_u_getFormattedSize` is the number of characters of the text and one more for each time tag, and the block that
`osc_bundle_u_format` returns is the text with its NUL, with unused bytes behind it, one for each time tag.  `osc_bundle_u_nformat`, given a
buffer that is big enough, writes the same text and its NUL and no byte behind that. -/
theorem C54_partial (P : Printf) (ms : List UMsg) (vs : List VMsg) (h : msgsVal ms = some vs) (hne : ms ≠ []) (hw : WritableMsgs vs) :
    formattedSize P ms = some ((textBndl P vs).length + timesMsgs vs) ∧
    (∃ rest, rest.length = timesMsgs vs ∧ format P ms = some (textBndl P vs ++ 0 :: rest)) ∧
    ∀ (b : Bytes) (n : Int), ((textBndl P vs).length : Int) < n → n ≤ b.length →
      putMsgs P 0 ms b n = some ((textBndl P vs).length, textBndl P vs ++ 0 :: b.drop ((textBndl P vs).length + 1)) := by
  obtain ⟨m, ms, rfl⟩ := List.exists_cons_of_ne_nil hne
  have h1 := (formats_msgs P (m :: ms) vs 0 h hw).1
  have h2 := prints_msgs P m ms vs 0 h hw
  refine ⟨h1, ?_, h2⟩
  unfold format
  rw [h1, Option.bind_some, h2 _ _ (by omega) (by simp), Option.map_some]
  exact ⟨_, by simp only [List.length_drop, List.length_map, List.length_range]; omega, rfl⟩

/-- C54, without time tags: the size is the number of characters, and the block is exactly the text with its NUL. -/
theorem C54_exact_partial (P : Printf) (ms : List UMsg) (vs : List VMsg) (h : msgsVal ms = some vs) (hne : ms ≠ []) (hw : WritableMsgs vs)
    (ht : timesMsgs vs = 0) : formattedSize P ms = some (textBndl P vs).length ∧ format P ms = some (textBndl P vs ++ [0]) := by
  obtain ⟨h1, ⟨rest, h2, h3⟩, -⟩ := C54_partial P ms vs h hne hw
  rw [ht] at h1 h2
  rw [List.length_eq_zero_iff.mp h2] at h3
  exact ⟨h1, h3⟩

/-- The size is too big by one for a time tag. -/
theorem C54_time_fails (P : Printf) (s f : Nat) (hs : s < 2 ^ 32) (hf : f < 2 ^ 32) : ∃ ms, msgsVal ms = some [.mk (some [47, 97]) [.time s f]] ∧
    formattedSize P ms = some 33 ∧ (textBndl P [.mk (some [47, 97]) [.time s f]]).length = 32 := by
  have hv : msgsVal [.mk (some [47, 97]) [.mk 116 false (.bits (s + M32 * f))]] = some [.mk (some [47, 97]) [.time s f]] := by
    have h32 : M32 = 4294967296 := rfl
    have e1 : (s + 4294967296 * f) % 4294967296 = s := by omega
    have e2 : (s + 4294967296 * f) / 4294967296 % 4294967296 = f := by omega
    simp [msgsVal, msgVal, argsVal, UAtom.val, W.raw, h32, e1, e2]
  have hl : (textBndl P [.mk (some [47, 97]) [.time s f]]).length = 32 := by
    obtain ⟨x, _, _, _, _, _, _, _, h1, h2, _⟩ := C31_text_total ⟨UInt32.ofNat s, UInt32.ofNat f⟩
    simp [textBndl, textMsgs, textMsg, textVals, textVal, between, timeText, h1, h2]
  refine ⟨_, hv, ?_, hl⟩
  rw [(C54_partial P _ _ hv (by simp) (by simp [WritableMsgs, WritableMsg, WritableVals, Writable])).1, hl]
  simp [timesMsgs, timesMsg, timesVals, timesVal]

/-- A bundle with a nested bundle meets the hypotheses. -/
example (P : Printf) : format P [.mk (some [47, 97]) [.mk 115 true (.str 1 [104, 34]), .mk 46 false (.bndl 1 [.mk (some [47, 98]) [.mk 84 false (.bits 0)]])]] =
    some ([47, 97, 32, 58, 32, 91, 34, 104, 92, 34, 34, 44, 32, 123, 10, 32, 32, 47, 98, 32, 58, 32, 116, 114, 117, 101, 10, 125, 93] ++ [0]) := by
  have := (C54_exact_partial P [.mk (some [47, 97]) [.mk 115 true (.str 1 [104, 34]), .mk 46 false (.bndl 1 [.mk (some [47, 98]) [.mk 84 false (.bits 0)]])]]
    [.mk (some [47, 97]) [.str [104, 34], .bndl [.mk (some [47, 98]) [.bare 84]]]] rfl (by simp)
    (by simp [WritableMsgs, WritableMsg, WritableVals, Writable]) (by simp [timesMsgs, timesMsg, timesVals, timesVal])).2
  rw [this]
  rfl

/-- C54 in full, for all values, says that the size is always the number of characters.  For an unsigned 8-bit number it is not: `'A'`
is counted as `65`, so that the last quote is lost. -/
theorem C54_full_fails (P : Printf) : ∃ ms vs, msgsVal ms = some vs ∧ formattedSize P ms = some 7 ∧
    textBndl P vs = [47, 97, 32, 58, 32, 39, 65, 39] ∧ format P ms = some [47, 97, 32, 58, 32, 39, 65, 0] := by
  have hd : decI (W.C (.bits 65)) = [54, 53] := by
    have : W.C (.bits 65) = 65 := by decide
    rw [this, decI, if_neg (by decide), show (65 : Int).natAbs = 65 from rfl, dec, if_neg (by decide), dec, if_pos (by decide)]
    decide
  have hl : lenMsgs P 0 [.mk (some [47, 97]) [.mk 67 false (.bits 65)]] = some 7 := by
    simp [lenMsgs, lenMsg, lenArgs, lenAtom, stringLen, hd, msgHead, tabs]
  refine ⟨[.mk (some [47, 97]) [.mk 67 false (.bits 65)]], _, rfl, hl, rfl, ?_⟩
  unfold format
  rw [hl]
  simp [putMsgs, putMsg, putArgs, putAtom, getStringInto, stringLen, hd, plainText, msgHead, tabs, andThen, snprintf, noText, List.range_succ,
    W.raw, M8]

/-- The text of an empty bundle is not written at all: the block has one byte, which is uninitialised. -/
theorem C54_empty_fails (P : Printf) : formattedSize P [] = some 0 ∧ format P [] = some [P.junk 0] := by
  constructor
  · simp [formattedSize, lenMsgs]
  · simp [format, lenMsgs, putMsgs, noText, List.range_succ]

/-- The text of an empty blob reads one byte behind the blob. -/
theorem C54_blob_fails (P : Printf) : ∃ ms vs, msgsVal ms = some vs ∧ vs = [.mk (some [47, 97]) [.blob []]] ∧ formattedSize P ms = none :=
  ⟨[.mk (some [47, 97]) [.mk 98 true (.blob 1 [0, 0, 0, 0])]], _, rfl, rfl, by
    simp [formattedSize, lenMsgs, lenMsg, lenArgs, lenAtom, stringLen, lenBlob, rd8]⟩

/-! ## C53: reading back what was written -/

/-- C53, for 32-bit integers, characters, strings, true, false, nil, nested bundles, and doubles and time tags that printing and reading preserve:
the parser reads the string that `osc_bundle_u_format` returns, and gives a bundle with the same messages and values. -/
theorem C53_partial (E : Env) (P : Printf) (ms : List UMsg) (vs : List VMsg) (h : msgsVal ms = some vs) (hne : ms ≠ [])
    (hr : ReadableMsgs E P vs) :
    ∃ us, ((format P ms).bind fun b => (cstr b 0).bind (parseString E)) = some us ∧ msgsVal us = some vs := by
  obtain ⟨rest, -, h1⟩ := (C54_partial P ms vs h hne (writable_msgs E P vs hr)).2.1
  have h0 : No0 (textBndl P vs) := no0_between (by unfold No0; decide) _ (no0_msgs E P vs 0 hr)
  have hl := msgsVal_length ms vs h
  obtain ⟨v, vs', rfl⟩ := List.exists_cons_of_ne_nil (l := vs) (by rintro rfl; simp at hl; exact hne hl)
  obtain ⟨us, h2, h3⟩ := parse_text E P v vs' hr
  refine ⟨us, ?_, h3⟩
  rw [h1, Option.bind_some, cstr_eq _ rest h0, Option.bind_some, h2]

/-- A bundle with strings and a nested bundle meets the hypotheses. -/
example (E : Env) (P : Printf) : ∃ ms vs, msgsVal ms = some vs ∧ ms ≠ [] ∧ ReadableMsgs E P vs ∧
    vs = [.mk (some [47, 97]) [.str [34, 10, 92], .num 105 4294967295, .bndl [.mk (some [47, 98, 44, 99]) [], .mk (some [47, 98]) [.num 99 39]]]] := by
  refine ⟨[.mk (some [47, 97]) [.mk 115 true (.str 1 [34, 10, 92]), .mk 105 false (.bits 4294967295), .mk 46 false (.bndl 1
    [.mk (some [47, 98, 44, 99]) [], .mk (some [47, 98]) [.mk 99 false (.bits 39)]])]], _, rfl, by simp, ?_, rfl⟩
  simp [ReadableMsgs, ReadableMsg, ReadableVals, Readable, ReadableAddr, W.raw, M32, M8]

/-- A time tag of a whole second with a printable date (C31) is such a value. -/
theorem C53_time (E : Env) (P : Printf) (hE : ∀ s t, Iso.fromISO8601 s = some t → E.iso s = t) (y m d h mi s : Nat) (hd : CalSpec.ValidDate y m d)
    (ht : CalSpec.ValidTime h mi s) (hp : Printable y m d) (hs : CalSpec.seconds y m d h mi s < 2 ^ 32) :
    Readable E P (.time (CalSpec.seconds y m d h mi s) 0) := by
  have e : (UInt32.ofNat (CalSpec.seconds y m d h mi s)).toNat = CalSpec.seconds y m d h mi s := by
    rw [UInt32.toNat_ofNat']; exact Nat.mod_eq_of_lt hs
  obtain ⟨x, u, h1, h2, -, h3, -⟩ := C31_text_roundtrip_partial ⟨UInt32.ofNat (CalSpec.seconds y m d h mi s), UInt32.ofNat 0⟩ y m d h mi s hd ht hp e
  simp only [Readable]
  refine ⟨hs, by decide, ?_⟩
  rw [timeText, h1, Option.getD_some, hE x u h2, h3 rfl]

/-- Other time tags need not be: half a second becomes a little less. -/
theorem C53_time_fails (E : Env) (hE : ∀ s t, Iso.fromISO8601 s = some t → E.iso s = t) :
    E.iso (timeText 3918239998 2147483648) = ⟨3918239998, 2147483647⟩ := by
  have e : timeText 3918239998 2147483648 = isoDate 2024 2 29 23 59 58 ++ [46] ++ digits 6 500000 ++ [90] := by decide +kernel
  rw [e]
  exact hE _ _ (by decide +kernel)

/-- Two bundles of such values have different texts unless their messages and values are the same. -/
theorem C53_injective (E : Env) (P : Printf) (vs ws : List VMsg) (hv : ReadableMsgs E P vs) (hw : ReadableMsgs E P ws) (h1 : vs ≠ [])
    (h2 : ws ≠ []) (h : textBndl P vs = textBndl P ws) : vs = ws := by
  obtain ⟨v, vs, rfl⟩ := List.exists_cons_of_ne_nil h1
  obtain ⟨w, ws, rfl⟩ := List.exists_cons_of_ne_nil h2
  obtain ⟨us, h3, h4⟩ := parse_text E P v vs hv
  obtain ⟨us', h5, h6⟩ := parse_text E P w ws hw
  rw [h, h5] at h3
  cases h3
  rw [h4] at h6
  exact Option.some.inj h6

/-- The number that the text of an integer shows: its tag says how many bits it has and whether it is signed. -/
def shown (tag : UInt8) (v : Nat) : Int :=
  if tag = 117 then signedOf 16 v else if tag = 105 then signedOf 32 v else if tag = 104 then signedOf 64 v else v

/-- What becomes of integers of the other widths: every integer is read back as a 32-bit integer, and what does not fit is cut off. -/
theorem C53_integers (E : Env) (P : Printf) (a : Bytes) (ha : ReadableAddr a) (tag : UInt8) (v : Nat)
    (ht : tag = 117 ∧ v < 2 ^ 16 ∨ tag = 85 ∧ v < 2 ^ 16 ∨ tag = 105 ∧ v < 2 ^ 32 ∨ tag = 73 ∧ v < 2 ^ 32 ∨ tag = 104 ∧ v < 2 ^ 64) :
    ∃ us, parseString E (textBndl P [.mk (some a) [.num tag v]]) = some us ∧
      msgsVal us = some [.mk (some a) [.num 105 (shown tag v % 4294967296).toNat]] := by
  have htext : textNum P tag v = decI (shown tag v) := by
    have hn : dec v = decI (v : Int) := by simp [decI]
    rcases ht with ⟨rfl, h⟩ | ⟨rfl, h⟩ | ⟨rfl, h⟩ | ⟨rfl, h⟩ | ⟨rfl, h⟩ <;> simp [textNum, shown, hn]
  have hrange : -9223372036854775808 ≤ shown tag v ∧ shown tag v ≤ 9223372036854775807 := by
    unfold shown signedOf
    rcases ht with ⟨rfl, h⟩ | ⟨rfl, h⟩ | ⟨rfl, h⟩ | ⟨rfl, h⟩ | ⟨rfl, h⟩ <;> simp <;> (try split) <;> omega
  obtain ⟨u, rfl, hne, hu, hlast⟩ := ha
  have hu' : ∀ c ∈ u, addrByte c = true := by
    intro c hc
    have := hu c hc
    simp only [List.mem_cons, List.not_mem_nil, or_false, not_or] at this
    simp [addrByte, this]
  refine ⟨[.mk (some (47 :: u)) [.mk 105 false (.bits (shown tag v % 4294967296).toNat)]], ?_, ?_⟩
  · have e : textBndl P [.mk (some (47 :: u)) [.num tag v]] = (47 :: u) ++ ([32, 58, 32] ++ (decI (shown tag v) ++ [])) := by
      simp [textBndl, textMsgs, textMsg, textVals, textVal, between, htext]
    have hx : UAtom.fresh.setInt32 (castS M32 (strtol (decI (shown tag v)))) = some (.mk 105 false (.bits (shown tag v % 4294967296).toNat)) := by
      rw [strtol_decI hrange.1 hrange.2, setInt32_fresh]
      have : (castS M32 (shown tag v) % (M32 : Nat)).toNat = (shown tag v % 4294967296).toNat := by
        have h32 : M32 = 4294967296 := rfl
        unfold castS
        rw [h32]
        generalize shown tag v = i
        split <;> omega
      rw [this]
    unfold parseString
    rw [e, scan_addr E (r := [32, 58, 32] ++ (decI (shown tag v) ++ [])) hne hu' hlast (.inr ⟨_, rfl⟩), List.cons_append, List.cons_append,
      List.cons_append, List.nil_append,
      scan_ws E _ (by decide), scan_chr E _ (by simp), scan_ws E _ (by decide),
      scan_int E (m_intRe _) (decI_bytes _) (by intro c w h; cases h) hx]
    simp only [scan, Option.map_some, Option.bind_some]
    exact (parse_iff E _ _).mpr (.one (.one .val))
  · have : (shown tag v % 4294967296).toNat % M32 = (shown tag v % 4294967296).toNat := by
      have h32 : M32 = 4294967296 := rfl
      rw [h32]; omega
    simp [msgsVal, msgVal, argsVal, UAtom.val, W.raw, this]

/-- C53 in full, for all values, fails: a 64-bit integer comes back as a 32-bit integer, and 5000000000 as 705032704. -/
theorem C53_full_fails (E : Env) (P : Printf) : ∃ us, parseString E (textBndl P [.mk (some [47, 97]) [.num 104 5000000000]]) = some us ∧
    msgsVal us = some [.mk (some [47, 97]) [.num 105 705032704]] := by
  obtain ⟨us, h1, h2⟩ := C53_integers E P [47, 97] ⟨[97], rfl, by simp, by simp, by simp⟩ 104 5000000000 (by simp)
  refine ⟨us, h1, ?_⟩
  rw [h2]
  rfl

/-! ## C55: the grammar -/

/-- C55: the parser accepts a sequence of tokens exactly if the grammar derives it, and the bundle it returns is the one that the
actions of the derivation make. -/
theorem C55 (E : Env) (ts : List Tok) (ms : List UMsg) : parse E ts = some ms ↔ GMsgs E.ptr ts ms := parse_iff E ts ms

/-- The grammar is not ambiguous. -/
theorem C55_unambiguous (p : Nat) (ts : List Tok) (ms ns : List UMsg) (h1 : GMsgs p ts ms) (h2 : GMsgs p ts ns) : ms = ns := by
  have e1 := (C55 ⟨fun _ => 0, fun _ => ⟨0, 0⟩, p⟩ ts ms).mpr h1
  have e2 := (C55 ⟨fun _ => 0, fun _ => ⟨0, 0⟩, p⟩ ts ns).mpr h2
  rw [e1] at e2
  exact Option.some.inj e2

/-- `/a : [x, {}], /b` is derived. -/
example (p : Nat) (x : UAtom) : GMsgs p [.addr [47, 97], .chr 58, .chr 91, .val x, .chr 44, .chr 123, .chr 125, .chr 93, .chr 44, .addr [47, 98]]
    [.mk (some [47, 97]) [x, .mk 46 false (.bndl p [])], .mk (some [47, 98]) []] :=
  .more (t := [.addr [47, 97], .chr 58, .chr 91, .val x, .chr 44, .chr 123, .chr 125, .chr 93]) (ms := [.mk (some [47, 97]) [x, .mk 46 false (.bndl p [])]])
    (.one (.list (t := [.val x, .chr 44, .chr 123, .chr 125]) (.more (t := [.val x]) (xs := [x]) (.one .val) .empty))) .bare

/-- A message without an address, an empty list and the empty text are not. -/
example (E : Env) : parse E [] = none ∧ parse E [.addr [47, 97], .chr 58, .chr 91, .chr 93] = none := by
  constructor <;> rfl

/-- What the grammar does not see: a string that is never closed, as in `/a : "b`, is accepted all the same. -/
theorem C55_unclosed_string (E : Env) : parseString E [47, 97, 32, 58, 32, 34, 98] = some [.mk (some [47, 97]) [strAtom E [98]]] := by
  rfl

end Libo.Props
