import Verif.Decode
import Verif.Props.Timetag
import Verif.Props.Atoms
/-!
# Decoding a wire form gives the value back (continued): the recursion over nested values
-/

namespace Libo
open Libo.Props

/-- The type tag of an integer type. -/
def ITy.tag : ITy → UInt8
  | .i8 => 99 | .i16 => 117 | .i32 => 105 | .i64 => 104 | .u8 => 67 | .u16 => 85 | .u32 => 73 | .u64 => 72

theorem conv_mod (g : ITy) (v : Int) : g.conv v % (2 ^ g.width : Nat) = v % (2 ^ g.width : Nat) := by
  cases g
  · rw [conv_i8]; exact castS_mod (Nat.dvd_refl _) v
  · rw [conv_i16]; exact castS_mod (Nat.dvd_refl _) v
  · rw [conv_i32]; exact castS_mod (Nat.dvd_refl _) v
  · rw [conv_i64]; exact castS_mod (Nat.dvd_refl _) v
  · rw [conv_u8]; exact castU_mod (Nat.dvd_refl _) v
  · rw [conv_u16]; exact castU_mod (Nat.dvd_refl _) v
  · rw [conv_u32]; exact castU_mod (Nat.dvd_refl _) v
  · rw [conv_u64]; exact castU_mod (Nat.dvd_refl _) v

theorem set_val (g : ITy) (n : Nat) : ∃ u, setU g .fresh (g.conv n) = some u ∧ u.val = some (.num g.tag (n % 2 ^ g.width)) := by
  have key : ((W.bits 0).store (2 ^ g.width) (g.conv n)).raw % 2 ^ g.width = n % 2 ^ g.width := by
    have h1 := store_mod (W.bits 0) (2 ^ g.width) (Nat.two_pow_pos _) (g.conv n)
    rw [conv_mod] at h1
    omega
  cases g <;> refine ⟨.mk _ false ((W.bits 0).store _ _), rfl, ?_⟩ <;> simp only [ITy.width] at key <;>
    simp only [UAtom.val, ITy.tag, ITy.width] <;> simp [key]

/-- Deserialising an integer atom. -/
theorem deser_int (g : ITy) (n : Nat) (x : Option Int) (h : x = some (g.conv n)) :
    ∃ u, x.bind (setU g .fresh) = some u ∧ u.val = some (.num g.tag (n % 2 ^ g.width)) := by
  subst h
  exact set_val g n


theorem encMsg_length (m : Bytes) : (encMsg m).length = m.length + 4 := by
  simp only [encMsg, List.length_append, length_be32]; omega

theorem cstr_mid (pre post s : Bytes) (h0 : (0 : UInt8) ∉ s) (hl : s.length + 4 < 4294967296) :
    cstr (pre ++ padStr s ++ post) pre.length = some s := by
  have := cstr_append_right pre (padStr s ++ post) 0
  rw [cstr_padStr s post h0 hl, Nat.add_zero, ← List.append_assoc] at this
  exact this

/-- An encoded message has all its pieces. -/
theorem encBody_wf (a : Bytes) (ws : List WArg) (h0 : (0 : UInt8) ∉ a) (hf : Fits (encBody a ws)) : WFMsg (encBody a ws) := by
  have hl : a.length + 4 < 4294967296 ∧ (tagString ws).length + 4 < 4294967296 := by
    unfold Fits encBody padStr at hf
    simp only [List.length_append] at hf
    omega
  refine ⟨a, padStr (tagString ws) ++ ws.flatMap Prod.snd, h0, hl.1, by simp [encBody], Or.inr ?_⟩
  have := padStr_eq_cons (tagString ws) hl.2
  rw [List.mem_append]
  left
  rw [padStr, List.mem_append]
  right
  have := padN_gt _ hl.2
  simp only [zeros, List.mem_replicate, and_true]
  omega

mutual
theorem dec_val : ∀ (v : Val) (t : UInt8) (d pre post : Bytes) (f : Nat), EncVal v t d → GoodVal v →
    (pre ++ d ++ post).length < 2147483648 → d.length ≤ f →
    ∃ u, deserAtom (deserBundle f) (pre ++ d ++ post) ⟨t, pre.length⟩ = some u ∧ u.val = some v
  | .num tag x, t, d, pre, post, f, h, _, hlen, _ => by
    simp only [EncVal] at h
    obtain ⟨rfl, h⟩ := h
    rcases h with ⟨h1, n, hn, hn2, rfl⟩ | ⟨h1, n, hn, hn2, rfl⟩ | ⟨h1, hn, rfl⟩ | ⟨h1, hn, rfl⟩ <;>
      simp only [List.mem_cons, List.not_mem_nil, or_false] at h1
    · rcases h1 with rfl | rfl
      · obtain ⟨u, hu, hv⟩ := deser_int .i8 n _ (getS_4 .i8 (by decide) 99 (by decide) pre post n n rfl)
        refine ⟨u, ?_, by rw [hv, ← hn]; rfl⟩
        exact hu
      · obtain ⟨u, hu, hv⟩ := deser_int .u8 n _ (getS_4 .u8 (by decide) 67 (by decide) pre post n n rfl)
        refine ⟨u, ?_, by rw [hv, ← hn]; rfl⟩
        exact hu
    · rcases h1 with rfl | rfl
      · obtain ⟨u, hu, hv⟩ := deser_int .i16 n _ (getS_4 .i16 (by decide) 117 (by decide) pre post n n rfl)
        refine ⟨u, ?_, by rw [hv, ← hn]; rfl⟩
        exact hu
      · obtain ⟨u, hu, hv⟩ := deser_int .u16 n _ (getS_4 .u16 (by decide) 85 (by decide) pre post n n rfl)
        refine ⟨u, ?_, by rw [hv, ← hn]; rfl⟩
        exact hu
    · rcases h1 with rfl | rfl | rfl
      · obtain ⟨u, hu, hv⟩ := deser_int .i32 x _ (getS_4 .i32 (by decide) 105 (by decide) pre post x x rfl)
        refine ⟨u, ?_, by rw [hv]; simp only [ITy.tag, ITy.width]; rw [Nat.mod_eq_of_lt hn]⟩
        exact hu
      · obtain ⟨u, hu, hv⟩ := deser_int .u32 x _ (getS_4 .u32 (by decide) 73 (by decide) pre post x x rfl)
        refine ⟨u, ?_, by rw [hv]; simp only [ITy.tag, ITy.width]; rw [Nat.mod_eq_of_lt hn]⟩
        exact hu
      · refine ⟨.mk 102 false ((W.bits 0).store M32 (x % M32 : Nat)), ?_, ?_⟩
        · simp only [deserAtom]
          rw [rd32_mid]; rfl
        · have h1 := store_mod (W.bits 0) M32 (by decide) (x % M32 : Nat)
          have : ((W.bits 0).store M32 (x % M32 : Nat)).raw % M32 = x := by
            simp only [M32] at *; omega
          simp only [UAtom.val, this]; simp
    · have e : be32 (x / 2 ^ 32) ++ be32 x = be64 x := rfl
      rw [e] at *
      rcases h1 with rfl | rfl | rfl
      · obtain ⟨u, hu, hv⟩ := deser_int .i64 x _ (getS_8 .i64 104 (by decide) pre post x x rfl)
        refine ⟨u, ?_, by rw [hv]; simp only [ITy.tag, ITy.width]; rw [Nat.mod_eq_of_lt hn]⟩
        exact hu
      · obtain ⟨u, hu, hv⟩ := deser_int .u64 x _ (getS_8 .u64 72 (by decide) pre post x x rfl)
        refine ⟨u, ?_, by rw [hv]; simp only [ITy.tag, ITy.width]; rw [Nat.mod_eq_of_lt hn]⟩
        exact hu
      · refine ⟨.mk 100 false ((W.bits 0).store M64 (x % M64 : Nat)), ?_, ?_⟩
        · simp only [deserAtom]
          rw [rd64_mid]; rfl
        · have h1 := store_mod (W.bits 0) M64 (by decide) (x % M64 : Nat)
          have : ((W.bits 0).store M64 (x % M64 : Nat)).raw % M64 = x := by
            simp only [M64] at *; omega
          simp only [UAtom.val, this]; simp
  | .time s fr, t, d, pre, post, f, h, _, hlen, _ => by
    simp only [EncVal] at h
    obtain ⟨rfl, hs, hf, rfl⟩ := h
    have es : (UInt32.ofNat s).toNat = s := UInt32.toNat_ofNat_of_lt' hs
    have ef : (UInt32.ofNat fr).toNat = fr := UInt32.toNat_ofNat_of_lt' hf
    obtain ⟨h1, h2⟩ := C30_wire ⟨.ofNat s, .ofNat fr⟩ pre post
    rw [h2] at h1
    simp only [es, ef] at h1
    refine ⟨.mk 116 false (.bits (s + M32 * fr)), ?_, ?_⟩
    · simp only [deserAtom]
      rw [h1]
      simp [UAtom.setTimetag, UAtom.fresh, UAtom.clear, UAtom.alloc, es, ef]
    · simp only [UAtom.val, W.raw, M32]
      simp
      omega
  | .bare tag, t, d, pre, post, f, h, hg, hlen, _ => by
    simp only [EncVal] at h
    obtain ⟨rfl, rfl⟩ := h
    simp only [GoodVal] at hg
    refine ⟨.mk t false (.bits 0), ?_, ?_⟩
    · rcases hg with rfl | rfl | rfl <;> rfl
    · rcases hg with rfl | rfl | rfl <;> rfl
  | .str s, t, d, pre, post, f, h, hg, hlen, _ => by
    simp only [EncVal] at h
    obtain ⟨rfl, rfl⟩ := h
    simp only [GoodVal] at hg
    have hl : s.length + 4 < 4294967296 := by
      simp only [padStr, List.length_append] at hlen; omega
    refine ⟨.mk 115 true (.str newPtr s), ?_, rfl⟩
    simp only [deserAtom]
    rw [cstr_mid pre post s hg hl]
    rfl
  | .blob c, t, d, pre, post, f, h, hg, hlen, _ => by
    simp only [EncVal] at h
    obtain ⟨rfl, rfl⟩ := h
    have hl : c.length < 2147483648 := by
      simp only [List.length_append] at hlen; omega
    generalize hz : zeros ((4 - c.length % 4) % 4) = z
    have eb : pre ++ (be32 c.length ++ c ++ z) ++ post = pre ++ encMsg c ++ (z ++ post) := by simp [encMsg]
    have hr : rdI32 (pre ++ encMsg c ++ (z ++ post)) pre.length = some (c.length : Int) := by
      unfold rdI32
      have : pre ++ encMsg c ++ (z ++ post) = pre ++ be32 c.length ++ (c ++ (z ++ post)) := by simp [encMsg]
      rw [this, rd32_mid, Option.map_some, Nat.mod_eq_of_lt (by simp only [M32]; omega), toI32_small hl]
    refine ⟨.mk 98 false (.blob newPtr (encMsg c ++ zeros (4 - c.length % 4))), ?_, ?_⟩
    · rw [eb]
      have hs := slice_at pre (encMsg c) (z ++ post)
      rw [encMsg_length] at hs
      have hs' : slice (pre ++ encMsg c ++ (z ++ post)) pre.length ((c.length : Int) + 4) = some (encMsg c) := by
        rw [← hs]; rfl
      simp only [deserAtom]
      simp only [UAtom.setBlob, UAtom.fresh, UAtom.clear, hr]
      simp [hs', -List.append_assoc, UAtom.alloc]
    · have h0 : rdI32 (encMsg c ++ zeros (4 - c.length % 4)) 0 = some (c.length : Int) := by
        unfold rdI32 encMsg
        rw [List.append_assoc, rd32_be32, Option.map_some, Nat.mod_eq_of_lt (by omega), toI32_small hl]
      have h1 : slice (encMsg c ++ zeros (4 - c.length % 4)) 4 (c.length : Int) = some c := by
        have := slice_at (be32 c.length) c (zeros (4 - c.length % 4))
        rw [length_be32] at this
        exact this
      simp only [UAtom.val]
      simp [h0, h1]
  | .bndl ms, t, d, pre, post, f, h, hg, hlen, hf => by
    simp only [EncVal] at h
    obtain ⟨rfl, b, hb, rfl⟩ := h
    simp only [GoodVal] at hg
    have hh : plainHeader.length = 16 := by decide
    simp only [List.length_append, length_be32, hh] at hlen hf
    obtain ⟨bodies, e, hok, hdec⟩ := dec_msgs ms b plainHeader post (f - 1) hb hg
      (by simp only [List.length_append, hh]; omega) (by omega)
    obtain ⟨f', rfl⟩ : ∃ f', f = f' + 1 := ⟨f - 1, by omega⟩
    obtain ⟨views, hit, hvw⟩ := iterate_encB plainHeader bodies hh hok
    have eb : encB plainHeader bodies = plainHeader ++ b := by rw [encB, e]
    rw [eb] at hit hvw
    obtain ⟨us, hus, huv⟩ := hdec views (by rw [hh]; exact Views_le _ post _ _ _ hvw)
    refine ⟨.mk 46 false (.bndl newPtr us), ?_, ?_⟩
    · have hd : (pre ++ (be32 (plainHeader ++ b).length ++ (plainHeader ++ b)) ++ post).drop (pre.length + 4) =
          plainHeader ++ b ++ post := by
        have e1 : pre ++ (be32 (plainHeader ++ b).length ++ (plainHeader ++ b)) ++ post =
            (pre ++ be32 (plainHeader ++ b).length) ++ (plainHeader ++ b ++ post) := by simp
        have e2 : pre.length + 4 = (pre ++ be32 (plainHeader ++ b).length).length := by simp
        rw [e1, e2, List.drop_left]
      have hr : rd32 (pre ++ (be32 (plainHeader ++ b).length ++ (plainHeader ++ b)) ++ post) pre.length =
          some (plainHeader ++ b).length := by
        have e1 : pre ++ (be32 (plainHeader ++ b).length ++ (plainHeader ++ b)) ++ post =
            pre ++ be32 (plainHeader ++ b).length ++ (plainHeader ++ b ++ post) := by simp
        rw [e1, rd32_mid, Nat.mod_eq_of_lt]
        simp only [List.length_append, hh, M32]; omega
      have hB : deserBundle (f' + 1) ((plainHeader ++ b).length : Nat) (plainHeader ++ b ++ post) = some us := by
        simp only [deserBundle]
        rw [iterate_le _ post _ _ hit]
        exact hus
      simp only [deserAtom, hr, Option.bind_some, hd, hB]
      rfl
    · simp only [UAtom.val]
      simp [huv]
theorem dec_args : ∀ (vs : List Val) (ws : List WArg) (pre post : Bytes) (f : Nat), EncArgs vs ws → GoodVals vs →
    (pre ++ ws.flatMap Prod.snd ++ post).length < 2147483648 → (ws.flatMap Prod.snd).length ≤ f →
    ∃ us, (MsgS.atomsAt pre.length ws).mapM (deserAtom (deserBundle f) (pre ++ ws.flatMap Prod.snd ++ post)) = some us ∧
      argsVal us = some vs
  | [], ws, pre, post, f, h, _, _, _ => by
    simp only [EncArgs] at h
    subst h
    exact ⟨[], rfl, rfl⟩
  | v :: vs, ws, pre, post, f, h, hg, hlen, hf => by
    simp only [EncArgs] at h
    obtain ⟨w, ws', rfl, h1, h2⟩ := h
    simp only [GoodVals] at hg
    simp only [List.flatMap_cons, List.length_append] at hlen hf
    obtain ⟨u, hu, huv⟩ := dec_val v w.1 w.2 pre (ws'.flatMap Prod.snd ++ post) f h1 hg.1
      (by simp only [List.length_append]; omega) (by omega)
    obtain ⟨us, hus, husv⟩ := dec_args vs ws' (pre ++ w.2) post f h2 hg.2
      (by simp only [List.length_append]; omega) (by omega)
    have e1 : pre ++ (w :: ws').flatMap Prod.snd ++ post = pre ++ w.2 ++ (ws'.flatMap Prod.snd ++ post) := by simp
    have e2 : pre ++ (w :: ws').flatMap Prod.snd ++ post = pre ++ w.2 ++ ws'.flatMap Prod.snd ++ post := by simp
    refine ⟨u :: us, ?_, ?_⟩
    · simp only [MsgS.atomsAt, List.mapM_cons]
      rw [← e1] at hu
      rw [← e2, List.length_append] at hus
      rw [hu, bnd, hus, bnd]
      rfl
    · simp [argsVal, huv, husv]
theorem dec_msg : ∀ (v : VMsg) (d pre post : Bytes) (f : Nat), EncMsg v d → GoodMsg v →
    (pre ++ d ++ post).length < 2147483648 → d.length ≤ f →
    ∃ body, d = encMsg body ∧ Fits body ∧ WFMsg body ∧ ∀ view, wrap (pre ++ d ++ post) pre.length = some view →
      ∃ u, deserMsg (deserBundle f) (pre ++ d ++ post) view = some u ∧ msgVal u = some v
  | .mk none vs, d, pre, post, f, h, hg, hlen, hf => absurd hg (by simp [GoodMsg])
  | .mk (some a) vs, d, pre, post, f, h, hg, hlen, hf => by
    simp only [EncMsg] at h
    obtain ⟨ws, hw, rfl⟩ := h
    simp only [GoodMsg] at hg
    obtain ⟨hslash, hnul, hgv⟩ := hg
    simp only [List.length_append, encMsg_length] at hlen hf
    have hfit : Fits (encBody a ws) := by unfold Fits; omega
    have hbl : (ws.flatMap Prod.snd).length ≤ (encBody a ws).length := by
      simp only [encBody, List.length_append]; omega
    have hal : a.length + 4 < 4294967296 := by
      have : a.length ≤ (encBody a ws).length := by simp only [encBody, padStr, List.length_append]; omega
      omega
    have hargs := encArgs_isArg vs ws hw hgv (by omega)
    refine ⟨encBody a ws, rfl, hfit, encBody_wf a ws hnul hfit, fun view hview => ?_⟩
    generalize hbuf : pre ++ encMsg (encBody a ws) ++ post = buf at *
    have hbl2 : buf.length < 2147483648 := by
      rw [← hbuf]; simp only [List.length_append, encMsg_length]; omega
    obtain ⟨pre', e, hit⟩ := msgIterate_enc pre post a ws hnul hargs buf hbuf.symm hbl2 view hview
    obtain ⟨us, hus, husv⟩ := dec_args vs ws pre' post f hw hgv (by rw [← e]; exact hbl2) (by omega)
    rw [← e] at hus
    have haddr : cstr buf view.address = some a := by
      rw [(wrap_size hview).2]
      have e1 : buf = (pre ++ be32 (encBody a ws).length) ++ padStr a ++ (padStr (tagString ws) ++ ws.flatMap Prod.snd ++ post) := by
        rw [← hbuf]; simp [encMsg, encBody]
      have e2 : pre.length + 4 = (pre ++ be32 (encBody a ws).length).length := by simp
      rw [e1, e2]
      exact cstr_mid _ _ a hnul hal
    refine ⟨.mk (newAddress a) us, ?_, ?_⟩
    · simp only [deserMsg, haddr, Option.bind_some, hit, hus, Option.map_some]
    · simp only [msgVal, husv, Option.map_some, newAddress, hslash, if_true]
theorem dec_msgs : ∀ (vs : List VMsg) (b pre post : Bytes) (f : Nat), EncMsgs vs b → GoodMsgs vs →
    (pre ++ b ++ post).length < 2147483648 → b.length ≤ f →
    ∃ bodies, b = encMsgs bodies ∧ (∀ x ∈ bodies, Fits x ∧ WFMsg x) ∧ ∀ views, Views (pre ++ b ++ post) pre.length bodies views →
      ∃ us, views.mapM (deserMsg (deserBundle f) (pre ++ b ++ post)) = some us ∧ msgsVal us = some vs
  | [], b, pre, post, f, h, _, _, _ => by
    simp only [EncMsgs] at h
    subst h
    refine ⟨[], rfl, by simp, fun views hv => ?_⟩
    cases views with
    | nil => exact ⟨[], rfl, rfl⟩
    | cons v vs => exact absurd hv id
  | v :: vs, b, pre, post, f, h, hg, hlen, hf => by
    simp only [EncMsgs] at h
    obtain ⟨d, b', rfl, h1, h2⟩ := h
    simp only [GoodMsgs] at hg
    simp only [List.length_append] at hlen hf
    obtain ⟨body, rfl, hfit, hwf, hdec⟩ := dec_msg v d pre (b' ++ post) f h1 hg.1
      (by simp only [List.length_append]; omega) (by omega)
    obtain ⟨bodies, e, hok, hdec2⟩ := dec_msgs vs b' (pre ++ encMsg body) post f h2 hg.2
      (by simp only [List.length_append]; omega) (by omega)
    have e1 : pre ++ (encMsg body ++ b') ++ post = pre ++ encMsg body ++ (b' ++ post) := by simp
    have e2 : pre ++ (encMsg body ++ b') ++ post = pre ++ encMsg body ++ b' ++ post := by simp
    refine ⟨body :: bodies, by simp [encMsgs, e], ?_, fun views hv => ?_⟩
    · intro x hx
      rcases List.mem_cons.mp hx with rfl | hx
      · exact ⟨hfit, hwf⟩
      · exact hok x hx
    · cases views with
      | nil => exact absurd hv id
      | cons w views =>
        obtain ⟨hw, hrest⟩ := hv
        rw [← e1] at hdec
        rw [← e2, List.length_append, encMsg_length, ← Nat.add_assoc] at hdec2
        obtain ⟨u, hu, huv⟩ := hdec w hw
        obtain ⟨us, hus, husv⟩ := hdec2 views hrest
        refine ⟨u :: us, ?_, ?_⟩
        · rw [List.mapM_cons, hu, bnd, hus, bnd]; rfl
        · simp [msgsVal, huv, husv]
end

end Libo
