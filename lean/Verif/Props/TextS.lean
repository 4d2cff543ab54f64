import Verif.TextFmtSLemmas
import Verif.TextRound
import Verif.Props.RoundTrip
import Verif.Props.Text
import Verif.Name
/-!
# C82: the text of a bundle in the wire format

The specification of the text is in `TextSpec.lean`, that of the wire format in `Decode.lean` (`EncMsgs`).  A bundle may stand in front of other
bytes: `post` is what follows it in memory.
-/

namespace Libo.Props
open Libo Libo.Text

/-- What the three functions give for a bundle in the wire format that is not empty, with any time tag in its header and any bytes behind it,
for values other than unsigned 8-bit numbers below 100 and empty blobs: `osc_bundle_s_getFormattedSize` is the number of characters of the text
and one more for each time tag, `osc_bundle_s_format` returns a block with the text and its NUL, and `osc_bundle_s_nformat` writes them into any
buffer that is big enough and no byte behind.  C82 in full says this for all values and the empty bundle. -/
theorem C82_text_partial (P : Printf) (vs : List VMsg) (b tt post : Bytes) (ht : tt.length = 8) (hb : EncMsgs vs b) (hg : GoodMsgs vs)
    (hw : WritableMsgs vs) (hne : vs ≠ []) (hs : (ident ++ tt ++ b ++ post).length < 2147483648) :
    formattedSizeS P (ident ++ tt ++ b).length (ident ++ tt ++ b ++ post) = some ((textBndl P vs).length + timesMsgs vs) ∧
    (∃ rest, rest.length = timesMsgs vs ∧
      formatS P (ident ++ tt ++ b).length (ident ++ tt ++ b ++ post) = some (textBndl P vs ++ 0 :: rest)) ∧
    ∀ (m : Bytes) (n : Int), ((textBndl P vs).length : Int) < n → n ≤ m.length →
      nformatS P (ident ++ tt ++ b).length (ident ++ tt ++ b ++ post) m n =
        some ((textBndl P vs).length, textBndl P vs ++ 0 :: m.drop ((textBndl P vs).length + 1)) := by
  obtain ⟨h1, h2⟩ := fmtS_bundle_ne P vs b tt post (ident ++ tt ++ b ++ post).length 0 ht hb hg hw hne hs
    (by simp only [List.length_append]; omega)
  refine ⟨h1, ?_, h2⟩
  unfold formatS
  have h1' : formattedSizeS P (ident ++ tt ++ b).length (ident ++ tt ++ b ++ post) = some ((textBndl P vs).length + timesMsgs vs) := h1
  rw [h1', Option.bind_some]
  have h3 := h2 ((List.range ((textBndl P vs).length + timesMsgs vs + 1)).map P.junk) (((textBndl P vs).length + timesMsgs vs + 1 : Nat) : Int)
    (by simp only [textBndl]; omega) (by simp)
  unfold nformatS
  rw [h3, Option.map_some]
  exact ⟨_, by simp only [textBndl, List.length_drop, List.length_map, List.length_range]; omega, rfl⟩

/-- The text does not depend on which of the two forms of a bundle is formatted: for the wire format and for the bundle that is read from it the
size is the same, and so is the block with the text. -/
theorem C82_same_partial (P : Printf) (vs : List VMsg) (b tt : Bytes) (ht : tt.length = 8) (hb : EncMsgs vs b) (hg : GoodMsgs vs)
    (hw : WritableMsgs vs) (hne : vs ≠ []) (hs : (ident ++ tt ++ b).length < 2147483648) :
    ∃ us r, deserialize (ident ++ tt ++ b) = some us ∧ formattedSizeS P (ident ++ tt ++ b).length (ident ++ tt ++ b) = formattedSize P us ∧
      formatS P (ident ++ tt ++ b).length (ident ++ tt ++ b) = some r ∧ format P us = some r := by
  obtain ⟨us, h1, h2⟩ := C01_decode vs b hb hg (ident ++ tt) (by simp [ident, ht]) hs
  have hu : us ≠ [] := by
    rintro rfl
    simp [msgsVal] at h2
    exact hne h2
  obtain ⟨g1, -, g2⟩ := C54_partial P us vs h2 hu hw
  have := C82_text_partial P vs b tt [] ht hb hg hw hne (by simpa using hs)
  simp only [List.append_nil] at this
  obtain ⟨k1, -, k2⟩ := this
  have e1 := g2 ((List.range ((textBndl P vs).length + timesMsgs vs + 1)).map P.junk) (((textBndl P vs).length + timesMsgs vs + 1 : Nat) : Int)
    (by omega) (by simp)
  have e2 := k2 ((List.range ((textBndl P vs).length + timesMsgs vs + 1)).map P.junk) (((textBndl P vs).length + timesMsgs vs + 1 : Nat) : Int)
    (by omega) (by simp)
  have g1' : lenMsgs P 0 us = some ((textBndl P vs).length + timesMsgs vs) := g1
  refine ⟨us, textBndl P vs ++ 0 :: ((List.range ((textBndl P vs).length + timesMsgs vs + 1)).map P.junk).drop ((textBndl P vs).length + 1), h1,
    by rw [k1, g1], ?_, ?_⟩
  · unfold formatS
    rw [k1, Option.bind_some, e2, Option.map_some]
  · unfold format
    rw [g1', Option.bind_some, e1, Option.map_some]

/-- Nothing is lost by writing the text of a bundle in the wire format, for values that printing and reading preserve (C53): the parser reads the
text and gives a bundle with the same messages and values. -/
theorem C82_read_back_partial (E : Env) (P : Printf) (vs : List VMsg) (b tt post : Bytes) (ht : tt.length = 8) (hb : EncMsgs vs b)
    (hg : GoodMsgs vs) (hr : ReadableMsgs E P vs) (hne : vs ≠ []) (hs : (ident ++ tt ++ b ++ post).length < 2147483648) :
    ∃ us, ((formatS P (ident ++ tt ++ b).length (ident ++ tt ++ b ++ post)).bind fun m => (cstr m 0).bind (parseString E)) = some us ∧
      msgsVal us = some vs := by
  obtain ⟨-, ⟨rest, -, h1⟩, -⟩ := C82_text_partial P vs b tt post ht hb hg (writable_msgs E P vs hr) hne hs
  have h0 : No0 (textBndl P vs) := no0_between (by unfold No0; decide) _ (no0_msgs E P vs 0 hr)
  obtain ⟨v, vs', rfl⟩ := List.exists_cons_of_ne_nil hne
  obtain ⟨us, h2, h3⟩ := parse_text E P v vs' hr
  refine ⟨us, ?_, h3⟩
  rw [h1, Option.bind_some, cstr_eq _ rest h0, Option.bind_some, h2]

/-- `/a : [true, {/b : "h"}]` in the wire format meets the hypotheses. -/
example (P : Printf) : ∃ b rest, EncMsgs [.mk (some [47, 97]) [.bare 84, .bndl [.mk (some [47, 98]) [.str [104]]]]] b ∧ rest.length = 0 ∧
    formatS P (ident ++ zeros 8 ++ b).length (ident ++ zeros 8 ++ b ++ [1, 2, 3]) =
      some (n! "/a : [true, {\n  /b : \"h\"\n}]" ++ 0 :: rest) := by
  refine ⟨encMsg (encBody [47, 97] [(84, []), (46, be32 (plainHeader ++ encMsg (encBody [47, 98] [(115, padStr [104])])).length ++
    (plainHeader ++ encMsg (encBody [47, 98] [(115, padStr [104])])))]), ?_⟩
  have hb : EncMsgs [.mk (some [47, 97]) [.bare 84, .bndl [.mk (some [47, 98]) [.str [104]]]]]
      (encMsg (encBody [47, 97] [(84, []), (46, be32 (plainHeader ++ encMsg (encBody [47, 98] [(115, padStr [104])])).length ++
    (plainHeader ++ encMsg (encBody [47, 98] [(115, padStr [104])])))])) := by
    simp [EncMsgs, EncMsg, EncArgs, EncVal]
  obtain ⟨-, ⟨rest, h1, h2⟩, -⟩ := C82_text_partial P _ _ (zeros 8) [1, 2, 3] (by simp [zeros]) hb (by simp [GoodMsgs, GoodMsg, GoodVals, GoodVal])
    (by simp [WritableMsgs, WritableMsg, WritableVals, Writable]) (by simp) (by decide +kernel)
  exact ⟨rest, hb, h1, h2⟩

/-- The empty bundle, with any time tag: its text is not written at all, and the block has one uninitialised byte. -/
theorem C82_empty_fails (P : Printf) (tt : Bytes) (ht : tt.length = 8) :
    formattedSizeS P 16 (ident ++ tt) = some 0 ∧ formatS P 16 (ident ++ tt) = some [P.junk 0] := by
  have hl : (ident ++ tt).length = 16 := by simp [ident, ht]
  have hc := (C05_count tt [] ht (by simp) (by simp [encB, encMsgs, ident, ht])).2
  simp only [encB, encMsgs, List.flatMap_nil, List.append_nil] at hc
  rw [hl] at hc
  have hc : getMsgCount 16 (some (ident ++ tt)) = some (0, 0) := hc
  have h1 : formattedSizeS P 16 (ident ++ tt) = some 0 := by simp [formattedSizeS, lenBundleS, hc]
  exact ⟨h1, by simp [formatS, h1, nformatS, putBundleS, hc, List.range_succ]⟩

/-- C82 in full fails for an unsigned 8-bit number as in the other form (C54): `'A'` is counted as `65`, so that the last quote is lost. -/
theorem C82_full_fails (P : Printf) : ∃ b, EncMsgs [.mk (some [47, 97]) [.num 67 65]] b ∧
    formattedSizeS P (ident ++ zeros 8 ++ b).length (ident ++ zeros 8 ++ b) = some 7 ∧
    textBndl P [.mk (some [47, 97]) [.num 67 65]] = n! "/a : 'A'" ∧
    formatS P (ident ++ zeros 8 ++ b).length (ident ++ zeros 8 ++ b) = some (n! "/a : 'A" ++ [0]) := by
  have hd : decI 65 = [54, 53] := by
    rw [decI, if_neg (by decide), show (65 : Int).natAbs = 65 from rfl, dec, if_neg (by decide), dec, if_pos (by decide)]
    decide
  have hlen : (ident ++ zeros 8 ++ encMsg (encBody [47, 97] [(67, be32 65)])).length = 32 := by decide +kernel
  have hc : getMsgCount 32 (some (ident ++ zeros 8 ++ encMsg (encBody [47, 97] [(67, be32 65)]))) = some (0, 1) := by decide +kernel
  have hv : iterate 32 (ident ++ zeros 8 ++ encMsg (encBody [47, 97] [(67, be32 65)])) = some [⟨16, 20, some 24, some 28⟩] := by decide +kernel
  have hn : MsgS.argCount (ident ++ zeros 8 ++ encMsg (encBody [47, 97] [(67, be32 65)])) ⟨16, 20, some 24, some 28⟩ = some 1 := by decide +kernel
  have ha : cstr (ident ++ zeros 8 ++ encMsg (encBody [47, 97] [(67, be32 65)])) 20 = some [47, 97] := by decide +kernel
  have hi : MsgS.iterate (ident ++ zeros 8 ++ encMsg (encBody [47, 97] [(67, be32 65)])) ⟨⟨16, 20, some 24, some 28⟩, none⟩ = some [⟨67, 28⟩] := by
    decide +kernel
  have hr : rd32 (ident ++ zeros 8 ++ encMsg (encBody [47, 97] [(67, be32 65)])) 28 = some 65 := by decide +kernel
  refine ⟨encMsg (encBody [47, 97] [(67, be32 65)]), by simp [EncMsgs, EncMsg, EncArgs, EncVal]; exact ⟨[(67, be32 65)], ⟨67, be32 65, rfl, rfl, 65, by simp, by simp, rfl⟩, rfl⟩, ?_, rfl, ?_⟩
  all_goals
    rw [hlen]
    generalize ident ++ zeros 8 ++ encMsg (encBody [47, 97] [(67, be32 65)]) = buf at *
    have h8 : castU M8 65 = 65 := by decide
    have h1 : formattedSizeS P 32 buf = some 7 := by
      simp [formattedSizeS, lenBundleS, hc, hv, lenMsgsS, lenMsgS, hn, ha, hi, lenArgsS, lenAtomS, stringLenS, hr, h8, hd, msgHeadS, tabs]
  · exact h1
  · unfold formatS
    rw [show ((32 : Nat) : Int) = 32 from rfl, h1]
    simp [nformatS, putBundleS, hc, hv, putMsgsS, putMsgS, hn, ha, hi, putArgsS, putAtomS, getStringIntoS, stringLenS, hr, h8, hd, plainTextS, msgHeadS,
      tabs, andThen, snprintf, noText, List.range_succ, M8]

end Libo.Props
