import Verif.TextFmtS
import Verif.TextFmtLemmas
import Verif.ExprBndl
/-!
# What the formatting functions for serialised bundles write
-/

namespace Libo.Text
open Libo Libo.Props

theorem plainS_formats {P : Printf} {buf : Bytes} {a : AtomS} {t : Bytes} (h1 : a.tag ≠ 116) (h2 : a.tag ≠ 98)
    (ht : plainTextS P buf a = some (some t)) (hl : stringLenS P buf a = some t.length) :
    Formats (stringLenS P buf a) (getStringIntoS P buf a) t 0 := by
  refine ⟨hl, Prints.puts fun b n hb1 hb2 => ?_⟩
  unfold getStringIntoS
  rw [if_neg h1, if_neg h2, hl, Option.bind_some, ht, Option.bind_some]
  simp only [prints_snprintf t b n hb1 hb2, Option.map_some]

theorem stringLenS_plain {P : Printf} {buf : Bytes} {a : AtomS} {t : Bytes} (h1 : a.tag ≠ 116) (h2 : a.tag ≠ 98) (h3 : a.tag ≠ 67)
    (ht : plainTextS P buf a = some (some t)) : stringLenS P buf a = some t.length := by
  unfold stringLenS
  rw [if_neg h1, if_neg h2, if_neg h3, ht]; rfl

theorem formatsS_plain {P : Printf} {buf : Bytes} {a : AtomS} {t : Bytes} (h1 : a.tag ≠ 116) (h2 : a.tag ≠ 98) (h3 : a.tag ≠ 67)
    (ht : plainTextS P buf a = some (some t)) : Formats (stringLenS P buf a) (getStringIntoS P buf a) t 0 :=
  plainS_formats h1 h2 ht (stringLenS_plain h1 h2 h3 ht)

/-- The number in the four or eight bytes. -/
theorem formatsS_num {P : Printf} {tag : UInt8} {m n p : Nat} {buf : Bytes}
    (h : ((tag = 99 ∨ tag = 67) ∧ m = M8 ∧ rd32 buf p = some n) ∨ ((tag = 117 ∨ tag = 85) ∧ m = M16 ∧ rd32 buf p = some n) ∨
      ((tag = 105 ∨ tag = 73 ∨ tag = 102) ∧ m = M32 ∧ rd32 buf p = some n ∧ n < M32) ∨
      ((tag = 104 ∨ tag = 72 ∨ tag = 100) ∧ m = M64 ∧ rd64 buf p = some n ∧ n < M64)) (hg : tag = 67 → 100 ≤ n % m) :
    Formats (stringLenS P buf ⟨tag, p⟩) (getStringIntoS P buf ⟨tag, p⟩) (textNum P tag (n % m)) 0 := by
  by_cases h67 : tag = 67
  · subst h67
    simp at h
    obtain ⟨rfl, hr⟩ := h
    refine plainS_formats (by simp) (by simp) (by simp [plainTextS, textNum, hr]) ?_
    have : (decI (castU M8 n)).length = 3 := by
      rw [castU_nat]
      exact dec_length_100 (hg rfl) (Nat.mod_lt _ (by decide))
    simp [stringLenS, textNum, hr, this]
  · apply formatsS_plain _ _ h67
    · rcases h with ⟨rfl | rfl, rfl, hr⟩ | ⟨rfl | rfl, rfl, hr⟩ | ⟨rfl | rfl | rfl, rfl, hr, hn⟩ | ⟨rfl | rfl | rfl, rfl, hr, hn⟩ <;>
        first
        | (exfalso; exact h67 rfl)
        | (simp [plainTextS, textNum, hr, castU_nat]; done)
        | (simp [plainTextS, textNum, hr, Nat.mod_eq_of_lt hn]; done)
        | (have e16 := castS_signed (m := M16) (n := 16) rfl n
           have e32 := castS_signed (m := M32) (n := 32) rfl n
           have e64 := castS_signed (m := M64) (n := 64) rfl n
           simp [plainTextS, textNum, hr, e16, e32, e64])
    · rcases h with ⟨rfl | rfl, rfl, _⟩ | ⟨rfl | rfl, rfl, _⟩ | ⟨rfl | rfl | rfl, rfl, _⟩ | ⟨rfl | rfl | rfl, rfl, _⟩ <;> simp
    · rcases h with ⟨rfl | rfl, rfl, _⟩ | ⟨rfl | rfl, rfl, _⟩ | ⟨rfl | rfl | rfl, rfl, _⟩ | ⟨rfl | rfl | rfl, rfl, _⟩ <;> simp

theorem lenAtomS_plain {P : Printf} {B : Nat → Int → Bytes → Option Nat} {ind : Nat} {buf : Bytes} {a : AtomS} (h : a.tag ≠ 46 ∧ a.tag ≠ 115) :
    lenAtomS P B ind buf a = stringLenS P buf a := by
  simp only [lenAtomS, if_neg h.1, if_neg h.2]

theorem putAtomS_plain {P : Printf} {B : Nat → Int → Bytes → Writer} {ind : Nat} {buf : Bytes} {a : AtomS} (h : a.tag ≠ 46 ∧ a.tag ≠ 115) :
    putAtomS P B ind buf a = getStringIntoS P buf a := by
  funext b n
  simp only [putAtomS, if_neg h.1, if_neg h.2]

/-! ### The number of messages -/

theorem strncmpId_le (r : Bytes) : ∀ (id buf : Bytes), Le (strncmpId buf id) (strncmpId (buf ++ r) id)
  | [], buf => by cases buf <;> simp [strncmpId, Le] <;> cases r <;> simp [strncmpId]
  | y :: ys, [] => by intro x h; simp [strncmpId] at h
  | y :: ys, x :: xs => by
    simp only [strncmpId, List.cons_append]
    exact .ite (.ite .rfl (strncmpId_le r ys xs)) .rfl

theorem msgSanityCheck_le (buf r : Bytes) (pos : Nat) : Le (msgSanityCheck buf pos) (msgSanityCheck (buf ++ r) pos) := by
  unfold msgSanityCheck
  exact .bind (rdI32_le _ _ _) fun _ => .ite .rfl (.bind (rd8_le _ _ _) fun _ => .rfl)

theorem sanityLoop_le (buf r : Bytes) (len : Int) : ∀ (n pos : Nat) (cum : Int),
    Le (sanityLoop buf len n pos cum) (sanityLoop (buf ++ r) len n pos cum)
  | 0, _, _ => .rfl
  | n + 1, pos, cum => by
    unfold sanityLoop
    refine .ite (.bind .rfl fun _ => .bind (rdI32_le _ _ _) fun _ => .bind .rfl fun _ => .ite .rfl
      (.bind (msgSanityCheck_le _ _ _) fun _ => .ite .rfl (.bind .rfl fun _ => sanityLoop_le buf r len n _ _))) .rfl

theorem sanityCheck_le (buf r : Bytes) (len : Int) : Le (sanityCheck len (some buf)) (sanityCheck len (some (buf ++ r))) := by
  simp only [sanityCheck]
  exact .ite .rfl (.bind (strncmpId_le r _ _) fun _ => .ite .rfl (sanityLoop_le _ _ _ _ _ _))

theorem countLoop_le (buf r : Bytes) (len : Int) : ∀ (n pos c : Nat),
    Le (msgLoop buf len (fun _ _ (c : Nat) => some (c + 1, false)) n pos c) (msgLoop (buf ++ r) len (fun _ _ (c : Nat) => some (c + 1, false)) n pos c)
  | 0, _, _ => .rfl
  | n + 1, pos, c => by
    unfold msgLoop
    exact .ite (.bind (rdI32_le _ _ _) fun _ => .bind .rfl fun _ => .ite .rfl (.bind .rfl fun _ => countLoop_le buf r len n _ _)) .rfl

theorem getMsgCount_le (buf r : Bytes) (len : Int) : Le (getMsgCount len (some buf)) (getMsgCount len (some (buf ++ r))) := by
  unfold getMsgCount
  exact .bind (sanityCheck_le _ _ _) fun _ => .ite .rfl (.bind (countLoop_le _ _ _ _ _ _) fun _ => .rfl)

theorem encBody_head (a : Bytes) (ws : List WArg) (h : a.head? = some 47) (hf : Fits (encBody a ws)) :
    4 ≤ (encBody a ws).length ∧ (encBody a ws).head? = some 47 := by
  have hl2 : a.length + 4 < 4294967296 := by
    have : a.length ≤ (encBody a ws).length := by simp only [encBody, padStr, List.length_append]; omega
    unfold Fits at hf
    omega
  obtain ⟨c, a', rfl⟩ : ∃ c a', a = c :: a' := by cases a with | nil => simp at h | cons c a' => exact ⟨c, a', rfl⟩
  refine ⟨?_, by simpa [encBody, padStr] using h⟩
  have h5 := length_padStr (c :: a') hl2
  rw [padN_eq _ hl2] at h5
  simp only [encBody, List.length_append]
  omega

theorem msgHeadS_nat (ind : Nat) (a : Bytes) (n : Nat) : msgHeadS ind a n = msgHead ind a n := by
  unfold msgHeadS msgHead
  by_cases h0 : n = 0
  · subst h0; simp
  · by_cases h1 : n > 1
    · rw [if_neg (by omega), if_pos (by omega), if_neg h0, if_pos h1]
    · rw [if_neg (by omega), if_neg (by omega), if_neg h0, if_neg h1]

theorem encArgs_len : ∀ (vs : List Val) (ws : List WArg), EncArgs vs ws → ws.length = vs.length
  | [], ws, h => by simp only [EncArgs] at h; subst h; rfl
  | v :: vs, ws, h => by
    simp only [EncArgs] at h
    obtain ⟨w, ws', rfl, _, h2⟩ := h
    simp [encArgs_len vs ws' h2]

theorem atomsAt_length : ∀ (p : Nat) (ws : List WArg), (MsgS.atomsAt p ws).length = ws.length
  | _, [] => rfl
  | p, w :: ws => by simp [MsgS.atomsAt, atomsAt_length _ ws]

theorem views_length (buf : Bytes) : ∀ (p : Nat) (ms : List Bytes) (vs : List View), Views buf p ms vs → vs.length = ms.length
  | _, [], [], _ => rfl
  | p, m :: ms, v :: vs, h => by simp [views_length buf _ ms vs h.2]
  | _, [], _ :: _, h => absurd h id
  | _, _ :: _, [], h => absurd h id

set_option maxHeartbeats 1000000 in
mutual
theorem fmtS_val (P : Printf) : ∀ (v : Val) (t : UInt8) (d pre post : Bytes) (f ind : Nat), EncVal v t d → GoodVal v → Writable v →
    (pre ++ d ++ post).length < 2147483648 → d.length ≤ f →
    Formats (lenAtomS P (lenBundleS P f) ind (pre ++ d ++ post) ⟨t, pre.length⟩)
      (putAtomS P (putBundleS P f) ind (pre ++ d ++ post) ⟨t, pre.length⟩) (textVal P ind v) (timesVal v)
  | .num tag x, t, d, pre, post, f, ind, h, _, hw, hlen, _ => by
    simp only [EncVal] at h
    obtain ⟨rfl, h⟩ := h
    have ht : t ≠ 46 ∧ t ≠ 115 := by
      rcases h with ⟨h1, _⟩ | ⟨h1, _⟩ | ⟨h1, _⟩ | ⟨h1, _⟩ <;> simp only [List.mem_cons, List.not_mem_nil, or_false] at h1
      · rcases h1 with rfl | rfl <;> decide
      · rcases h1 with rfl | rfl <;> decide
      · rcases h1 with rfl | rfl | rfl <;> decide
      · rcases h1 with rfl | rfl | rfl <;> decide
    rw [lenAtomS_plain ht, putAtomS_plain ht, textVal, show timesVal (.num t x) = 0 from by simp [timesVal]]
    simp only [Writable] at hw
    rcases h with ⟨h1, n, hn, hn2, rfl⟩ | ⟨h1, n, hn, hn2, rfl⟩ | ⟨h1, hn, rfl⟩ | ⟨h1, hn, rfl⟩ <;>
      simp only [List.mem_cons, List.not_mem_nil, or_false] at h1
    · have hr := rd32_mid pre post n
      rw [Nat.mod_eq_of_lt hn2] at hr
      subst hn
      exact formatsS_num (.inl ⟨h1, rfl, hr⟩) hw
    · have hr := rd32_mid pre post n
      rw [Nat.mod_eq_of_lt hn2] at hr
      subst hn
      exact formatsS_num (.inr (.inl ⟨h1, rfl, hr⟩)) hw
    · have hr := rd32_mid pre post x
      rw [Nat.mod_eq_of_lt hn] at hr
      have := formatsS_num (P := P) (.inr (.inr (.inl ⟨h1, rfl, hr, hn⟩))) (by rw [Nat.mod_eq_of_lt hn]; exact hw)
      rwa [Nat.mod_eq_of_lt hn] at this
    · have hr := rd64_mid pre post x
      rw [Nat.mod_eq_of_lt hn] at hr
      have := formatsS_num (P := P) (.inr (.inr (.inr ⟨h1, rfl, hr, hn⟩))) (by rw [Nat.mod_eq_of_lt hn]; exact hw)
      rwa [Nat.mod_eq_of_lt hn] at this
  | .time s fr, t, d, pre, post, f, ind, h, _, _, hlen, _ => by
    simp only [EncVal] at h
    obtain ⟨rfl, hs, hf, rfl⟩ := h
    have es : (UInt32.ofNat s).toNat = s := UInt32.toNat_ofNat_of_lt' hs
    have ef : (UInt32.ofNat fr).toNat = fr := UInt32.toNat_ofNat_of_lt' hf
    obtain ⟨h1, h2⟩ := C30_wire ⟨.ofNat s, .ofNat fr⟩ pre post
    rw [h2] at h1
    simp only [es, ef] at h1
    rw [lenAtomS_plain (by simp), putAtomS_plain (by simp), textVal, timesVal]
    obtain ⟨g1, g2⟩ := C31_text_size ⟨.ofNat s, .ofNat fr⟩
    obtain ⟨x, _, _, _, _, _, _, _, hx, _⟩ := C31_text_total ⟨.ofNat s, .ofNat fr⟩
    have hx' : timeText s fr = x := by rw [timeText, hx]; rfl
    refine ⟨?_, Prints.puts fun b n hb1 hb2 => ?_⟩
    · unfold stringLenS
      rw [if_pos rfl, h1, Option.bind_some, g1, hx', g2 _ hx]
    · unfold getStringIntoS
      rw [if_pos rfl, h1, Option.bind_some, Iso.putIso, hx, Option.bind_some]
      rw [hx'] at hb1 ⊢
      exact prints_snprintf _ b n hb1 hb2
  | .bare tag, t, d, pre, post, f, ind, h, hg, _, hlen, _ => by
    simp only [EncVal] at h
    obtain ⟨rfl, rfl⟩ := h
    simp only [GoodVal] at hg
    have ht : t ≠ 46 ∧ t ≠ 115 ∧ t ≠ 116 ∧ t ≠ 98 ∧ t ≠ 67 := by rcases hg with rfl | rfl | rfl <;> decide
    rw [lenAtomS_plain ⟨ht.1, ht.2.1⟩, putAtomS_plain ⟨ht.1, ht.2.1⟩, textVal, timesVal]
    refine formatsS_plain ht.2.2.1 ht.2.2.2.1 ht.2.2.2.2 ?_
    rcases hg with rfl | rfl | rfl <;> simp [plainTextS]
    all_goals simp [timesVal]
  | .str s, t, d, pre, post, f, ind, h, hg, hw, hlen, _ => by
    simp only [EncVal] at h
    obtain ⟨rfl, rfl⟩ := h
    simp only [GoodVal] at hg
    have hl : s.length + 4 < 4294967296 := by
      simp only [padStr, List.length_append] at hlen; omega
    have hc := cstr_mid pre post s hg hl
    obtain ⟨g1, g2⟩ := formats_str P hg
    rw [textVal, timesVal]
    refine ⟨?_, fun b n hb1 hb2 hb3 => ?_⟩
    · simp only [lenAtomS, hc, Option.bind_some]
      simpa using g1
    · have := g2 b n hb1 hb2 hb3
      simp only [putAtomS, hc, Option.bind_some]
      simpa using this
    all_goals simp [timesVal]
  | .blob c, t, d, pre, post, f, ind, h, hg, hw, hlen, _ => by
    simp only [EncVal] at h
    obtain ⟨rfl, rfl⟩ := h
    have hl : c.length < 2147483648 := by
      simp only [List.length_append] at hlen; omega
    simp only [Writable] at hw
    generalize hz : zeros ((4 - c.length % 4) % 4) = z
    have ed : (pre ++ (be32 c.length ++ c ++ z) ++ post).drop pre.length = be32 c.length ++ c ++ (z ++ post) := by
      rw [List.append_assoc, List.drop_left]; simp
    have h0 : rdI32 (be32 c.length ++ c ++ (z ++ post)) 0 = some (c.length : Int) := by
      unfold rdI32
      rw [List.append_assoc, rd32_be32, Option.map_some, Nat.mod_eq_of_lt (by omega), toI32_small hl]
    have h1 : slice (be32 c.length ++ c ++ (z ++ post)) 4 (c.length : Int) = some c := by
      have := slice_at (be32 c.length) c (z ++ post)
      rw [length_be32] at this
      exact this
    obtain ⟨g1, g2⟩ := prints_blob h0 h1 hw
    rw [lenAtomS_plain (by simp), putAtomS_plain (by simp), textVal, timesVal]
    refine ⟨?_, Prints.puts fun b n hb1 hb2 => ?_⟩
    · simp only [stringLenS, ed]
      simpa using g2
    · simp only [getStringIntoS, ed]
      simpa using g1 b n hb1 hb2
    all_goals simp [timesVal]
  | .bndl ms, t, d, pre, post, f, ind, h, hg, hw, hlen, hf => by
    simp only [EncVal] at h
    obtain ⟨rfl, b, hb, rfl⟩ := h
    simp only [GoodVal] at hg
    simp only [Writable] at hw
    have hh : plainHeader.length = 16 := by decide
    simp only [List.length_append, length_be32, hh] at hlen hf
    obtain ⟨f', rfl⟩ : ∃ f', f = f' + 1 := ⟨f - 1, by omega⟩
    obtain ⟨g1, g2⟩ := fmtS_bundle P ms b (zeros 8) post f' (ind + 1) (by simp [zeros]) hb hg hw
      (by simp only [List.length_append]; simp only [plainHeader, List.length_append] at hh; omega) (by omega)
    have hd : (pre ++ (be32 (plainHeader ++ b).length ++ (plainHeader ++ b)) ++ post).drop (pre.length + 4) =
        plainHeader ++ b ++ post := by
      have e1 : pre ++ (be32 (plainHeader ++ b).length ++ (plainHeader ++ b)) ++ post =
          (pre ++ be32 (plainHeader ++ b).length) ++ (plainHeader ++ b ++ post) := by simp
      have e2 : pre.length + 4 = (pre ++ be32 (plainHeader ++ b).length).length := by simp
      rw [e1, e2, List.drop_left]
    have hr : rd32 (pre ++ (be32 (plainHeader ++ b).length ++ (plainHeader ++ b)) ++ post) pre.length =
        some (plainHeader ++ b).length := by
      have e1 : pre ++ (be32 (plainHeader ++ b).length ++ (plainHeader ++ b)) ++ post =
          pre ++ be32 (plainHeader ++ b).length ++ (plainHeader ++ b ++ post) := by simp
      rw [e1, rd32_mid, Nat.mod_eq_of_lt]
      simp only [List.length_append, hh, M32]; omega
    rw [← plainHeader] at g1 g2
    rw [textVal, timesVal]
    refine ⟨?_, fun bb n hb1 hb2 hb3 => ?_⟩
    · simp only [lenAtomS, hr, Option.bind_some, hd, if_true, g1, Option.map_some, tabs_eq]
      simp; omega
    · simp only [putAtomS, hr, Option.bind_some, hd, if_true]
      have := puts_then (puts_then (prints_snprintf [123, 10]).puts g2) (prints_snprintf ([10] ++ tabs ind ++ [125])).puts
      rw [tabs_eq] at this ⊢
      have e : [123, 10] ++ between [44, 10] (textMsgs P (ind + 1) ms) ++ ([10] ++ List.replicate (2 * ind) 32 ++ [125]) =
        [123, 10] ++ between [44, 10] (textMsgs P (ind + 1) ms) ++ [10] ++ List.replicate (2 * ind) 32 ++ [125] := by simp
      rw [e] at this
      exact this bb n hb1 hb2 hb3
theorem fmtS_args (P : Printf) : ∀ (vs : List Val) (ws : List WArg) (pre post : Bytes) (f ind : Nat), EncArgs vs ws → GoodVals vs → WritableVals vs →
    (pre ++ ws.flatMap Prod.snd ++ post).length < 2147483648 → (ws.flatMap Prod.snd).length ≤ f →
    Formats (lenArgsS P (lenBundleS P f) ind (pre ++ ws.flatMap Prod.snd ++ post) (MsgS.atomsAt pre.length ws))
      (putArgsS P (putBundleS P f) ind (pre ++ ws.flatMap Prod.snd ++ post) (MsgS.atomsAt pre.length ws))
      (between [44, 32] (textVals P ind vs)) (timesVals vs)
  | [], ws, pre, post, f, ind, h, _, _, _, _ => by
    simp only [EncArgs] at h
    subst h
    simp only [MsgS.atomsAt, lenArgsS, putArgsS, textVals, between]
    exact ⟨rfl, puts_noText⟩
  | v :: vs, ws, pre, post, f, ind, h, hg, hw, hlen, hf => by
    simp only [EncArgs] at h
    obtain ⟨w, ws', rfl, h1, h2⟩ := h
    simp only [GoodVals] at hg
    simp only [WritableVals] at hw
    simp only [List.flatMap_cons, List.length_append] at hlen hf
    obtain ⟨g1, g2⟩ := fmtS_val P v w.1 w.2 pre (ws'.flatMap Prod.snd ++ post) f ind h1 hg.1 hw.1
      (by simp only [List.length_append]; omega) (by omega)
    obtain ⟨g3, g4⟩ := fmtS_args P vs ws' (pre ++ w.2) post f ind h2 hg.2 hw.2
      (by simp only [List.length_append]; omega) (by omega)
    have e1 : pre ++ (w :: ws').flatMap Prod.snd ++ post = pre ++ w.2 ++ (ws'.flatMap Prod.snd ++ post) := by simp
    have e2 : pre ++ (w :: ws').flatMap Prod.snd ++ post = pre ++ w.2 ++ ws'.flatMap Prod.snd ++ post := by simp
    rw [← e1] at g1 g2
    rw [← e2, List.length_append] at g3 g4
    have he : (MsgS.atomsAt (pre.length + w.2.length) ws').isEmpty = (textVals P ind vs).isEmpty :=
      isEmpty_of_length ((atomsAt_length _ _).trans ((encArgs_len vs ws' h2).trans (textVals_length P ind vs).symm))
    simp only [textVals, MsgS.atomsAt]
    refine ⟨?_, ?_⟩
    · simp only [lenArgsS, g1, g3, Option.bind_some, Option.map_some, len_between, he, timesVals, Option.some.injEq, List.length_cons, List.length_nil]
      split
      all_goals omega
    · simp only [putArgsS]
      rw [between_app]
      refine puts_then (puts_then g2 ?_) g4
      rw [he]
      split
      · exact puts_noText
      · exact (prints_snprintf _).puts
theorem fmtS_msg (P : Printf) : ∀ (v : VMsg) (d pre post : Bytes) (f : Nat), EncMsg v d → GoodMsg v → WritableMsg v →
    (pre ++ d ++ post).length < 2147483648 → d.length ≤ f →
    ∃ body, d = encMsg body ∧ Fits body ∧ WFMsg body ∧ (4 ≤ body.length ∧ body.head? = some 47) ∧
      ∀ view ind, wrap (pre ++ d ++ post) pre.length = some view →
      lenMsgS P (lenBundleS P f) ind (pre ++ d ++ post) view = some ((textMsg P ind v).length + timesMsg v) ∧
      Prints (putMsgS P (putBundleS P f) ind (pre ++ d ++ post) view) (textMsg P ind v)
  | .mk none vs, d, pre, post, f, h, hg, _, hlen, hf => absurd hg (by simp [GoodMsg])
  | .mk (some a) vs, d, pre, post, f, h, hg, hw, hlen, hf => by
    simp only [EncMsg] at h
    obtain ⟨ws, hws, rfl⟩ := h
    simp only [GoodMsg] at hg
    simp only [WritableMsg] at hw
    obtain ⟨hslash, hnul, hgv⟩ := hg
    simp only [List.length_append, encMsg_length] at hlen hf
    have hfit : Fits (encBody a ws) := by unfold Fits; omega
    have hbl : (ws.flatMap Prod.snd).length ≤ (encBody a ws).length := by
      simp only [encBody, List.length_append]; omega
    have hal : a.length + 4 < 4294967296 := by
      have : a.length ≤ (encBody a ws).length := by simp only [encBody, padStr, List.length_append]; omega
      omega
    have hargs := encArgs_isArg vs ws hws hgv (by omega)
    refine ⟨encBody a ws, rfl, hfit, encBody_wf a ws hnul hfit, encBody_head a ws hslash hfit, fun view ind hview => ?_⟩
    have hcnt := Expr.argCount_enc pre post a ws hnul hargs hfit view hview
    generalize hbuf : pre ++ encMsg (encBody a ws) ++ post = buf at *
    have hbl2 : buf.length < 2147483648 := by
      rw [← hbuf]; simp only [List.length_append, encMsg_length]; omega
    obtain ⟨pre', e, hit⟩ := msgIterate_enc pre post a ws hnul hargs buf hbuf.symm hbl2 view hview
    obtain ⟨g1, g2⟩ := fmtS_args P vs ws pre' post f ind hws hgv hw.2 (by rw [← e]; exact hbl2) (by omega)
    rw [← e] at g1 g2
    have haddr : cstr buf view.address = some a := by
      rw [(wrap_size hview).2]
      have e1 : buf = (pre ++ be32 (encBody a ws).length) ++ padStr a ++ (padStr (tagString ws) ++ ws.flatMap Prod.snd ++ post) := by
        rw [← hbuf]; simp [encMsg, encBody]
      have e2 : pre.length + 4 = (pre ++ be32 (encBody a ws).length).length := by simp
      rw [e1, e2]
      exact cstr_mid _ _ a hnul hal
    have hlw := encArgs_len vs ws hws
    rw [textMsg_eq]
    refine ⟨?_, fun b n hb1 hb2 => ?_⟩
    · simp only [lenMsgS, hcnt, haddr, hit, g1, Option.bind_some, Option.map_some, hlw, msgHeadS_nat, List.length_append, timesMsg, Option.some.injEq]
      by_cases h1 : vs.length > 1
      · rw [if_pos (by omega), if_pos h1]; simp only [List.length_cons, List.length_nil]; omega
      · rw [if_neg (by omega), if_neg h1]; simp only [List.length_nil]; omega
    · simp only [putMsgS, hcnt, haddr, hit, Option.bind_some, hlw, msgHeadS_nat]
      refine prints_then (prints_then (prints_snprintf _) g2) ?_ b n hb1 hb2
      by_cases h1 : vs.length > 1
      · rw [if_pos (by omega), if_pos h1]; exact (prints_snprintf _).puts
      · rw [if_neg (by omega), if_neg h1]; exact puts_noText
theorem fmtS_msgs (P : Printf) : ∀ (vs : List VMsg) (b pre post : Bytes) (f : Nat), EncMsgs vs b → GoodMsgs vs → WritableMsgs vs →
    (pre ++ b ++ post).length < 2147483648 → b.length ≤ f →
    ∃ bodies, b = encMsgs bodies ∧ bodies.length = vs.length ∧ (∀ x ∈ bodies, Fits x ∧ WFMsg x) ∧ (∀ x ∈ bodies, 4 ≤ x.length ∧ x.head? = some 47) ∧
      ∀ views ind, Views (pre ++ b ++ post) pre.length bodies views →
      Formats (lenMsgsS P (lenBundleS P f) ind (pre ++ b ++ post) views) (putMsgsS P (putBundleS P f) ind (pre ++ b ++ post) views)
        (between [44, 10] (textMsgs P ind vs)) (timesMsgs vs) ∧
      (vs ≠ [] → Prints (putMsgsS P (putBundleS P f) ind (pre ++ b ++ post) views) (between [44, 10] (textMsgs P ind vs)))
  | [], b, pre, post, f, h, _, _, _, _ => by
    simp only [EncMsgs] at h
    subst h
    refine ⟨[], rfl, rfl, by simp, by simp, fun views ind hv => ?_⟩
    cases views with
    | nil =>
      simp only [lenMsgsS, putMsgsS, textMsgs, between]
      exact ⟨⟨rfl, puts_noText⟩, fun h => absurd rfl h⟩
    | cons v vs => exact absurd hv id
  | v :: vs, b, pre, post, f, h, hg, hw, hlen, hf => by
    simp only [EncMsgs] at h
    obtain ⟨d, b', rfl, h1, h2⟩ := h
    simp only [GoodMsgs] at hg
    simp only [WritableMsgs] at hw
    simp only [List.length_append] at hlen hf
    obtain ⟨body, rfl, hfit, hwf, hhd, hm⟩ := fmtS_msg P v d pre (b' ++ post) f h1 hg.1 hw.1
      (by simp only [List.length_append]; omega) (by omega)
    obtain ⟨bodies, e, hbl, hok, hhd2, hms⟩ := fmtS_msgs P vs b' (pre ++ encMsg body) post f h2 hg.2 hw.2
      (by simp only [List.length_append]; omega) (by omega)
    have e1 : pre ++ (encMsg body ++ b') ++ post = pre ++ encMsg body ++ (b' ++ post) := by simp
    have e2 : pre ++ (encMsg body ++ b') ++ post = pre ++ encMsg body ++ b' ++ post := by simp
    refine ⟨body :: bodies, by simp [encMsgs, e], by simp [hbl], ?_, ?_, fun views ind hv => ?_⟩
    · intro x hx
      rcases List.mem_cons.mp hx with rfl | hx
      · exact ⟨hfit, hwf⟩
      · exact hok x hx
    · intro x hx
      rcases List.mem_cons.mp hx with rfl | hx
      · exact hhd
      · exact hhd2 x hx
    · cases views with
      | nil => exact absurd hv id
      | cons w views =>
        obtain ⟨hvw, hrest⟩ := hv
        rw [← e1] at hm
        rw [← e2, List.length_append, encMsg_length, ← Nat.add_assoc] at hms
        obtain ⟨g1, g2⟩ := hm w ind hvw
        obtain ⟨⟨g3, g4⟩, _⟩ := hms views ind hrest
        have he : views.isEmpty = (textMsgs P ind vs).isEmpty :=
          isEmpty_of_length ((views_length _ _ _ _ hrest).trans (hbl.trans (textMsgs_length P ind vs).symm))
        simp only [textMsgs]
        have hsep : Puts (if views.isEmpty = true then noText else snprintf [44, 10]) (if (textMsgs P ind vs).isEmpty = true then [] else [44, 10]) := by
          rw [he]
          split
          · exact puts_noText
          · exact (prints_snprintf _).puts
        refine ⟨⟨?_, ?_⟩, fun _ => ?_⟩
        · simp only [lenMsgsS, g1, g3, Option.bind_some, Option.map_some, len_between, he, timesMsgs, Option.some.injEq, List.length_cons, List.length_nil]
          split
          all_goals omega
        · simp only [putMsgsS]
          rw [between_app]
          exact puts_then (puts_then g2.puts hsep) g4
        · simp only [putMsgsS]
          rw [between_app]
          exact prints_then (prints_then g2 hsep) g4
theorem fmtS_bundle (P : Printf) (vs : List VMsg) (b tt post : Bytes) (f ind : Nat) (ht : tt.length = 8) (h : EncMsgs vs b) (hg : GoodMsgs vs)
    (hw : WritableMsgs vs) (hlen : (ident ++ tt ++ b ++ post).length < 2147483648) (hf : b.length ≤ f) :
    Formats (lenBundleS P (f + 1) ind ((ident ++ tt ++ b).length : Nat) (ident ++ tt ++ b ++ post))
      (putBundleS P (f + 1) ind ((ident ++ tt ++ b).length : Nat) (ident ++ tt ++ b ++ post)) (between [44, 10] (textMsgs P ind vs)) (timesMsgs vs) := by
  obtain ⟨bodies, e, hbl, hok, hhd, hms⟩ := fmtS_msgs P vs b (ident ++ tt) post f h hg hw hlen hf
  have hh : (ident ++ tt).length = 16 := by simp [ident, ht]
  obtain ⟨views, hit, hvw⟩ := iterate_encB (ident ++ tt) bodies hh hok
  have eb : encB (ident ++ tt) bodies = ident ++ tt ++ b := by rw [encB, e]
  have hc := (C05_count tt bodies ht hhd (by rw [eb]; simp only [List.length_append] at hlen ⊢; omega)).2
  rw [eb] at hit hvw hc
  obtain ⟨⟨g1, g2⟩, _⟩ := hms views ind (by rw [hh]; exact Views_le _ post _ _ _ hvw)
  have hit' := iterate_le _ post _ _ hit
  have hc' := getMsgCount_le _ post _ _ hc
  by_cases h0 : bodies.length = 0
  · have hv0 : vs = [] := by
      rw [h0] at hbl
      exact List.length_eq_zero_iff.mp hbl.symm
    subst hv0
    refine ⟨?_, ?_⟩
    · simp only [lenBundleS, hc', Option.bind_some]
      rw [if_pos (.inr h0)]
      simp [textMsgs, between, timesMsgs]
    · have : putBundleS P (f + 1) ind ((ident ++ tt ++ b).length : Nat) (ident ++ tt ++ b ++ post) = noText := by
        funext bb n
        simp only [putBundleS, hc', Option.bind_some, h0]
        simp [noText]
      rw [this]
      simp only [textMsgs, between]
      exact puts_noText
  · refine ⟨?_, fun bb n hb1 hb2 hb3 => ?_⟩
    · simp only [lenBundleS, hc', Option.bind_some]
      rw [if_neg (by simp [h0]), hit', Option.bind_some, g1]
    · simp only [putBundleS, hc', Option.bind_some]
      rw [if_neg (by simp [h0]), hit', Option.bind_some]
      exact g2 bb n hb1 hb2 hb3
end

/-- At the outermost level, where there is a message: the text is written even into a buffer that has not been written to. -/
theorem fmtS_bundle_ne (P : Printf) (vs : List VMsg) (b tt post : Bytes) (f ind : Nat) (ht : tt.length = 8) (h : EncMsgs vs b) (hg : GoodMsgs vs)
    (hw : WritableMsgs vs) (hne : vs ≠ []) (hlen : (ident ++ tt ++ b ++ post).length < 2147483648) (hf : b.length ≤ f) :
    lenBundleS P (f + 1) ind ((ident ++ tt ++ b).length : Nat) (ident ++ tt ++ b ++ post) =
      some ((between [44, 10] (textMsgs P ind vs)).length + timesMsgs vs) ∧
    Prints (putBundleS P (f + 1) ind ((ident ++ tt ++ b).length : Nat) (ident ++ tt ++ b ++ post)) (between [44, 10] (textMsgs P ind vs)) := by
  refine ⟨(fmtS_bundle P vs b tt post f ind ht h hg hw hlen hf).1, ?_⟩
  obtain ⟨bodies, e, hbl, hok, hhd, hms⟩ := fmtS_msgs P vs b (ident ++ tt) post f h hg hw hlen hf
  have hh : (ident ++ tt).length = 16 := by simp [ident, ht]
  obtain ⟨views, hit, hvw⟩ := iterate_encB (ident ++ tt) bodies hh hok
  have eb : encB (ident ++ tt) bodies = ident ++ tt ++ b := by rw [encB, e]
  have hc := (C05_count tt bodies ht hhd (by rw [eb]; simp only [List.length_append] at hlen ⊢; omega)).2
  rw [eb] at hit hvw hc
  obtain ⟨-, g⟩ := hms views ind (by rw [hh]; exact Views_le _ post _ _ _ hvw)
  have hit' := iterate_le _ post _ _ hit
  have hc' := getMsgCount_le _ post _ _ hc
  have h0 : bodies.length ≠ 0 := by
    rw [hbl]
    exact fun h => hne (List.length_eq_zero_iff.mp h)
  intro bb n hb1 hb2
  simp only [putBundleS, hc', Option.bind_some]
  rw [if_neg (by simp [h0]), hit', Option.bind_some]
  exact g hne bb n hb1 hb2

end Libo.Text
