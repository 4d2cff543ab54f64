import Verif.ExprEvalLemmas
import Verif.ExprListLemmas
import Verif.Props.RoundTrip
import Verif.Props.BundleS
/-!
# The bundle an expression is evaluated on

How the memory holds a bundle, and what reading and writing of messages do with it.
-/

namespace Libo.Expr
open Libo

theorem cstr_le (buf r : Bytes) (i : Nat) : Le (cstr buf i) (cstr (buf ++ r) i) := by
  intro s h
  simp only [cstr, Option.bind_eq_bind, Option.bind_eq_some_iff, Option.pure_def, Option.some.injEq] at h ⊢
  obtain ⟨n, h1, h2⟩ := h
  refine ⟨n, cstrlen_le _ _ _ _ h1, ?_⟩
  simp only [cstrlen] at h1
  split at h1
  · rename_i hlt
    simp only [Option.some.injEq] at h1
    rw [← h2, List.drop_append_of_le_length (by simp only [List.length_drop] at hlt; omega), List.take_append_of_le_length (by omega)]
  · cases h1

theorem msgLoop_le {σ : Type} (buf r : Bytes) (len : Int) {b b' : Nat → Int → σ → Option (σ × Bool)}
    (hb : ∀ p s x, Le (b p s x) (b' p s x)) : ∀ (n pos : Nat) (s : σ),
    Le (msgLoop buf len b n pos s) (msgLoop (buf ++ r) len b' n pos s)
  | 0, _, _ => .rfl
  | n + 1, pos, s => by
    unfold msgLoop
    exact .ite (.bind (rdI32_le _ _ _) fun _ => .bind (hb _ _ _) fun _ => .ite .rfl (.bind .rfl fun _ => msgLoop_le buf r len hb n _ _)) .rfl

theorem getFirstEqualAddr_le (len : Int) (buf r q : Bytes) : Le (getFirstEqualAddr len buf q) (getFirstEqualAddr len (buf ++ r) q) :=
  msgLoop_le _ _ _ (fun _ _ _ => .bind (cstr_le _ _ _) fun _ => .rfl) _ _ _

theorem getFirstFullMatch_le (len : Int) (buf r q : Bytes) : Le (getFirstFullMatch len buf q) (getFirstFullMatch len (buf ++ r) q) :=
  msgLoop_le _ _ _ (fun _ _ _ => .bind (cstr_le _ _ _) fun _ => .rfl) _ _ _

theorem addressExists_le (len : Int) (buf r q : Bytes) (b : Bool) : Le (addressExists len buf q b) (addressExists len (buf ++ r) q b) :=
  msgLoop_le _ _ _ (fun _ _ _ => .bind (cstr_le _ _ _) fun _ => .rfl) _ _ _

/-- The memory holds the bundle with this header and these messages, possibly followed by unused space. -/
def HasBundle (st : St) (hdr : Bytes) (ms : List Bytes) : Prop :=
  ∃ spare, st.bndl = some (((encB hdr ms).length : Int), some (encB hdr ms ++ spare))

/-- The list with the first message to address `a` replaced by `m`; if there is none, with `m` at the end. -/
def putFirst (a m : Bytes) : List Bytes → List Bytes
  | [] => [m]
  | x :: xs => if addrOf x = a then m :: xs else x :: putFirst a m xs

theorem putFirst_new (a m : Bytes) : ∀ (ms : List Bytes), (∀ x ∈ ms, addrOf x ≠ a) → putFirst a m ms = ms ++ [m]
  | [], _ => rfl
  | x :: xs, h => by
    rw [putFirst, if_neg (h x (by simp)), putFirst_new a m xs (fun y hy => h y (by simp [hy])), List.cons_append]

theorem putFirst_old (a m : Bytes) (pre post : List Bytes) (x : Bytes) (hx : addrOf x = a) (h : ∀ y ∈ pre, addrOf y ≠ a) :
    putFirst a m (pre ++ x :: post) = pre ++ m :: post := by
  induction pre with
  | nil => simp [putFirst, hx]
  | cons y pre ih =>
    rw [List.cons_append, putFirst, if_neg (h y (by simp)), ih (fun z hz => h z (by simp [hz])), List.cons_append]

theorem mapM_copyAtom : ∀ (l : List UAtom) (vs : List Val), argsVal l = some vs → (∀ v ∈ vs, Copyable v) →
    ∃ l', l.mapM copyAtom = some l' ∧ argsVal l' = some vs
  | [], vs, h, _ => ⟨[], rfl, h⟩
  | a :: l, vs, h, hc => by
    simp only [argsVal, Option.bind_eq_some_iff, Option.map_eq_some_iff] at h
    obtain ⟨v, hv, vs', hvs, rfl⟩ := h
    obtain ⟨a', h1, h2, -⟩ := copyAtom_val a v hv (hc v (by simp))
    obtain ⟨l', h3, h4⟩ := mapM_copyAtom l vs' hvs (fun x hx => hc x (by simp [hx]))
    refine ⟨a' :: l', by simp [h1, h3], ?_⟩
    simp [argsVal, h2, h4]

theorem addrOf_encBody (a : Bytes) (ws : List WArg) (h0 : (0 : UInt8) ∉ a) (hf : Fits (encBody a ws)) : addrOf (encBody a ws) = a := by
  have : a.length ≤ (encBody a ws).length := by simp only [encBody, padStr, List.length_append]; omega
  unfold Fits at hf
  rw [encBody, List.append_assoc]
  exact addrOf_padStr a _ h0 (by omega)

theorem hasAddr_encBody (a : Bytes) (ws : List WArg) (hf : Fits (encBody a ws)) : HasAddr (encBody a ws) := by
  have : a.length ≤ (encBody a ws).length := by simp only [encBody, padStr, List.length_append]; omega
  unfold Fits at hf
  obtain ⟨z, hz⟩ := padStr_eq_cons a (by omega)
  unfold HasAddr
  rw [encBody, hz]
  simp

theorem append_spare (hdr : Bytes) (ms : List Bytes) (spare m : Bytes) (hfit : Fits m) :
    appendMessage (encB hdr ms).length (some (encB hdr ms ++ spare)) (some (encMsg m)) =
      some (((encB hdr (ms ++ [m])).length : Int), some (encB hdr (ms ++ [m]))) := by
  have h := (Props.C16_append hdr ms m [] hfit).1
  rw [List.append_nil] at h
  simp only [appendMessage, Option.bind_eq_bind, Option.bind_eq_some_iff] at h ⊢
  obtain ⟨x, hx, y, hy, z, hz, h⟩ := h
  refine ⟨x, hx, y, hy, z, hz, ?_⟩
  rw [if_neg (by omega)] at h
  rw [if_neg (by rw [List.length_append]; omega), Int.toNat_natCast, List.take_append_of_le_length (Nat.le_refl _)]
  rw [Int.toNat_natCast] at h
  exact h

theorem putMsg_null {a : Bytes} {l as : List UAtom} {d : Bytes} (h1 : l.mapM copyAtom = some as)
    (h2 : serializeMsg (.mk (some a) as) = some d) : putMsg (0, none) a l = appendMessage 0 none (some d) := by
  rw [putMsg, h1, Option.bind_some, h2, Option.bind_some]
  simp only
  rw [if_pos (by decide), Option.bind_some]

theorem putMsg_some {a : Bytes} {l as : List UAtom} {d : Bytes} (h1 : l.mapM copyAtom = some as)
    (h2 : serializeMsg (.mk (some a) as) = some d) (len : Int) (buf : Bytes) : putMsg (len, some buf) a l =
      (getFirstEqualAddr len buf a).bind fun found =>
      match found with
      | some pos => if buf.length < len then none
        else (replaceMessage len (buf.take len.toNat) pos d).map fun r => (r.2.1, some r.2.2)
      | none => appendMessage len (some buf) (some d) := by
  rw [putMsg, h1, Option.bind_some, h2, Option.bind_some]
  cases hq : getFirstEqualAddr len buf a with
  | none => simp only [hq, Option.bind_none]
  | some found => cases found <;> simp only [hq, Option.bind_some]

/-- A block never grows beyond what is needed. -/
theorem replaceMessage_length {len : Int} {bndl nm blk : Bytes} {om c : Nat} {len' : Int}
    (h : replaceMessage len bndl om nm = some (c, len', blk)) : blk.length ≤ max bndl.length len'.toNat := by
  simp only [replaceMessage, Option.bind_eq_bind, Option.bind_eq_some_iff] at h
  obtain ⟨o, -, n, -, o4, -, n4, -, h⟩ := h
  split at h
  · simp only [Option.pure_def, Option.some.injEq, Prod.mk.injEq] at h
    rw [← h.2.2]; omega
  · simp only [Option.bind_eq_some_iff] at h
    obtain ⟨a, -, m, -, h⟩ := h
    split at h
    · cases h
    · simp only [Option.bind_eq_some_iff] at h
      obtain ⟨w, -, h⟩ := h
      split at h
      · cases h
      · simp only [Option.pure_def, Option.bind_some] at h
        split at h
        · cases h
        · split at h
          · simp only [Option.some.injEq, Prod.mk.injEq] at h
            rw [← h.2.2, ← h.2.1]; omega
          · simp only [Option.bind_eq_some_iff, blit] at h
            obtain ⟨b, h1, h2⟩ := h
            simp only [Option.some.injEq, Prod.mk.injEq] at h2
            split at h1
            · cases h1
            · injection h1 with h1
              rw [← h2.2.2, ← h1]
              simp only [List.length_append, List.length_take, List.length_drop] at *
              omega

theorem put_enc {a : Bytes} {l as : List UAtom} {m : Bytes} (h1 : l.mapM copyAtom = some as)
    (hser : serializeMsg (.mk (some a) as) = some (encMsg m)) (hfit : Fits m) (hdr : Bytes) (ms : List Bytes) (spare : Bytes)
    (hh : hdr.length = 16) (hf : ∀ m ∈ ms, Fits m ∧ HasAddr m) :
    ∃ spare', putMsg ((encB hdr ms).length, some (encB hdr ms ++ spare)) a l =
        some (((encB hdr (putFirst a m ms)).length : Int), some (encB hdr (putFirst a m ms) ++ spare')) ∧
      (encB hdr (putFirst a m ms) ++ spare').length ≤ max (encB hdr ms).length (encB hdr (putFirst a m ms)).length := by
  rcases Props.C18_first_equal hdr ms a hh hf with ⟨h3, h4⟩ | ⟨pre, x, post, e, hx, hp, h3⟩
  · refine ⟨[], ?_, by rw [List.append_nil]; omega⟩
    rw [putMsg_some h1 hser, getFirstEqualAddr_le _ _ spare _ _ h3, putFirst_new a m ms h4, List.append_nil, Option.bind_some]
    simp only
    rw [append_spare hdr ms spare m hfit]
  · obtain ⟨blk, h5, h6⟩ := Props.C16_replace hdr pre post x m [] [] (hf x (by simp [e])).1 hfit
    rw [List.append_nil, List.append_nil, ← e] at h5
    have hb : blk = encB hdr (pre ++ m :: post) ++ blk.drop (encB hdr (pre ++ m :: post)).length := by
      conv => lhs; rw [← List.take_append_drop (encB hdr (pre ++ m :: post)).length blk, h6]
    refine ⟨blk.drop (encB hdr (pre ++ m :: post)).length, ?_, ?_⟩
    rotate_left
    · rw [e, putFirst_old a m pre post x hx hp, ← hb]
      have := replaceMessage_length h5
      rw [e] at this
      omega
    rw [putMsg_some h1 hser, getFirstEqualAddr_le _ _ spare _ _ h3, Option.bind_some]
    simp only
    rw [if_neg (by rw [List.length_append]; omega), Int.toNat_natCast, List.take_left, h5, e, putFirst_old a m pre post x hx hp, ← hb,
      Option.map_some]

/-- What writing a message does. -/
theorem putMsg_spec (hdr : Bytes) (ms : List Bytes) (spare a : Bytes) (l : List UAtom) (vs : List Val) (hh : hdr.length = 16)
    (hf : ∀ m ∈ ms, Fits m ∧ HasAddr m) (hl : argsVal l = some vs) (hc : ∀ v ∈ vs, Copyable v)
    (hs : sizeVMsg (.mk (some a) vs) < 2147483648) :
    ∃ m spare', EncMsg (.mk (some a) vs) (encMsg m) ∧ Fits m ∧
      putMsg ((encB hdr ms).length, some (encB hdr ms ++ spare)) a l =
        some (((encB hdr (putFirst a m ms)).length : Int), some (encB hdr (putFirst a m ms) ++ spare')) ∧
      putMsg (0, none) a l = some (((encB plainHeader [m]).length : Int), some (encB plainHeader [m])) ∧
      (encMsg m).length = sizeVMsg (.mk (some a) vs) ∧
      (encB hdr (putFirst a m ms) ++ spare').length ≤ max (encB hdr ms).length (encB hdr (putFirst a m ms)).length := by
  obtain ⟨l', h1, h2⟩ := mapM_copyAtom l vs hl hc
  have hv : msgVal (.mk (some a) l') = some (.mk (some a) vs) := by simp [msgVal, h2]
  obtain ⟨d, hd, hlen, hz, hse⟩ := ser_msg _ _ hv (by omega)
  have hser : serializeMsg (.mk (some a) l') = some d := by
    have := hse _ (Nat.le_refl _)
    simp only at this
    rw [serializeMsg, hz, Option.bind_some, this]
  obtain ⟨ws, hw, e⟩ : ∃ ws, EncArgs vs ws ∧ d = encMsg (encBody a ws) := by simpa only [EncMsg] using hd
  subst e
  have hfit : Fits (encBody a ws) := by
    rw [encMsg_length] at hlen
    unfold Fits; omega
  obtain ⟨spare', h3, h4⟩ := put_enc h1 hser hfit hdr ms spare hh hf
  refine ⟨encBody a ws, spare', hd, hfit, h3, ?_, hlen, h4⟩
  have h := (Props.C16_append hdr ms (encBody a ws) [] hfit).2.1
  rw [List.append_nil] at h
  rw [putMsg_null h1 hser, h, plainHeader]

theorem argCount_enc (p q a : Bytes) (ws : List WArg) (h0 : (0 : UInt8) ∉ a) (has : ∀ x ∈ ws, IsArg x.1 x.2)
    (hf : Fits (encBody a ws)) (v : View) (hv : wrap (p ++ encMsg (encBody a ws) ++ q) p.length = some v) :
    MsgS.argCount (p ++ encMsg (encBody a ws) ++ q) v = some (ws.length : Int) := by
  have hw := MsgS.wrap_enc p q a ws h0 has hf
  rw [hv] at hw
  injection hw with hw
  subst hw
  have htl : (tagString ws).length + 4 < 4294967296 := by
    have : (tagString ws).length ≤ (padStr (tagString ws)).length := by simp [padStr]
    unfold Fits encBody at hf
    simp only [List.length_append] at hf
    omega
  have eT : p ++ encMsg (encBody a ws) ++ q = (p ++ be32 (encBody a ws).length ++ padStr a) ++ (padStr (tagString ws) ++ (ws.flatMap Prod.snd ++ q)) := by
    simp [encMsg, encBody]
  have lT : (p ++ be32 (encBody a ws).length ++ padStr a).length = p.length + 4 + (padStr a).length := by
    simp only [List.length_append, length_be32]
  have := cstrlen_append_right (p ++ be32 (encBody a ws).length ++ padStr a) (padStr (tagString ws) ++ (ws.flatMap Prod.snd ++ q)) 0
  rw [cstrlen_padStr _ _ (MsgS.tagString_noNul has) htl, ← eT, Nat.add_zero, lT] at this
  simp only [MsgS.argCount, this, Option.map_some, tagString, List.length_cons, List.length_map]
  congr 1
  omega

/-- What reading a message gives. -/
theorem readMsg_spec (pre post a : Bytes) (vs : List Val) (m : Bytes) (hm : EncMsg (.mk (some a) vs) (encMsg m)) (h0 : (0 : UInt8) ∉ a)
    (hg : GoodVals vs) (hl : (pre ++ encMsg m ++ post).length < 2147483648) :
    ∃ l, readMsg (pre ++ encMsg m ++ post) pre.length = some l ∧ argsVal l = some vs := by
  obtain ⟨ws, hw, e⟩ : ∃ ws, EncArgs vs ws ∧ encMsg m = encMsg (encBody a ws) := by simpa only [EncMsg] using hm
  rw [e] at hl ⊢
  have hl' := hl
  simp only [List.length_append, encMsg_length] at hl'
  have hfit : Fits (encBody a ws) := by unfold Fits; omega
  have hbl : (ws.flatMap Prod.snd).length ≤ (encBody a ws).length := by simp only [encBody, List.length_append]; omega
  have hargs := encArgs_isArg vs ws hw hg (by omega)
  have hwr := MsgS.wrap_enc pre post a ws h0 hargs hfit
  obtain ⟨pre', e', hit⟩ := msgIterate_enc pre post a ws h0 hargs _ rfl hl _ hwr
  obtain ⟨us, hus, husv⟩ := dec_args vs ws pre' post ((pre ++ encMsg (encBody a ws) ++ post).length + 1) hw hg
    (by rw [← e']; exact hl) (by simp only [List.length_append, encMsg_length]; omega)
  rw [← e'] at hus
  refine ⟨us, ?_, husv⟩
  rw [readMsg, hwr, Option.bind_some, argCount_enc pre post a ws h0 hargs hfit _ hwr, Option.bind_some, hit, Option.bind_some,
    if_pos (by simp), hus]

end Libo.Expr
