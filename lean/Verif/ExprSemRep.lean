import Verif.ExprSem
import Verif.Props.ExprAssign
import Verif.Props.ExprQuery
/-!
# Bundles in memory and the bindings of the specification

`Rep` relates the block of a bundle to the list of addresses with values that `ExprSem.lean` speaks of; reading, asking for and
writing of messages do what the specification says.
-/

namespace Libo.Sem
open Libo Libo.Expr Libo.Props Libo.Match

/-- The messages carry the bindings, in this order. -/
def Msgs : List Bytes → Binds → Prop
  | [], B => B = []
  | m :: ms, B => ∃ a vs B', B = (a, vs) :: B' ∧ EncMsg (.mk (some a) vs) (encMsg m) ∧ nameOk a = true ∧ vs.all simple = true ∧ Msgs ms B'

/-- The block is a bundle with this header and these bindings, smaller than 2 GB, possibly with unused space at the end; or there is
no block, which counts as an empty bundle. -/
def Rep (hdr : Bytes) (B : Binds) (b : Option (Int × Option Bytes)) : Prop :=
  hdr.length = 16 ∧
  ((∃ ms spare, b = some (((encB hdr ms).length : Int), some (encB hdr ms ++ spare)) ∧ (encB hdr ms ++ spare).length < 2147483648 ∧
      Msgs ms B) ∨
    (b = some (0, none) ∧ B = [] ∧ hdr = plainHeader))

/-! ### Values -/

theorem simple_good {v : Val} (h : simple v = true) : GoodVal v := by
  cases v <;> simp_all [simple, GoodVal]
  exact or_assoc.mp h.2

theorem simple_copy {v : Val} (h : simple v = true) : Copyable v := by
  cases v <;> simp_all [simple, Copyable]

theorem goods {vs : List Val} (h : vs.all simple = true) : GoodVals vs := by
  induction vs with
  | nil => trivial
  | cons v vs ih =>
    simp only [List.all_cons, Bool.and_eq_true] at h
    exact ⟨simple_good h.1, ih h.2⟩

theorem copies {vs : List Val} (h : vs.all simple = true) : ∀ v ∈ vs, Copyable v := fun v hv =>
  simple_copy (List.all_eq_true.mp h v hv)

theorem encVal_length {v : Val} {t : UInt8} {d : Bytes} (hs : simple v = true) (h : EncVal v t d) : d.length = sizeVal v := by
  cases v with
  | num tag n =>
    obtain ⟨-, ⟨h1, n', -, -, rfl⟩ | ⟨h1, n', -, -, rfl⟩ | ⟨h1, -, rfl⟩ | ⟨h1, -, rfl⟩⟩ := h <;>
      simp only [List.mem_cons, List.not_mem_nil, or_false] at h1
    · rcases h1 with rfl | rfl <;> rfl
    · rcases h1 with rfl | rfl <;> rfl
    · rcases h1 with rfl | rfl | rfl <;> rfl
    · rcases h1 with rfl | rfl | rfl <;> rfl
  | time s f => obtain ⟨-, -, -, rfl⟩ := h; rfl
  | bare tag => obtain ⟨-, rfl⟩ := h; rfl
  | str s =>
    obtain ⟨-, rfl⟩ := h
    rw [simple, Bool.and_eq_true, decide_eq_true_eq] at hs
    have hs := hs.1
    simp only [sizeVal, strSize] at hs ⊢
    rw [length_padStr _ (by omega), padN_eq _ (by omega)]
  | blob c => simp [simple] at hs
  | bndl ms => simp [simple] at hs

theorem encArgs_length : ∀ {vs : List Val} {ws : List WArg}, vs.all simple = true → EncArgs vs ws →
    (ws.flatMap Prod.snd).length = sizeVals vs ∧ ws.length = vs.length
  | [], ws, _, h => by
    simp only [EncArgs] at h
    subst h; exact ⟨rfl, rfl⟩
  | v :: vs, ws, hs, h => by
    simp only [EncArgs] at h
    obtain ⟨w, ws', rfl, h1, h2⟩ := h
    simp only [List.all_cons, Bool.and_eq_true] at hs
    have := encArgs_length hs.2 h2
    have := encVal_length hs.1 h1
    simp only [List.flatMap_cons, List.length_append, List.length_cons, sizeVals]
    omega

theorem encMsg_size {a : Bytes} {vs : List Val} {m : Bytes} (hs : vs.all simple = true) (h : EncMsg (.mk (some a) vs) (encMsg m))
    (hl : (encMsg m).length < 2147483648) : (encMsg m).length = sizeVMsg (.mk (some a) vs) := by
  obtain ⟨ws, hw, e⟩ : ∃ ws, EncArgs vs ws ∧ encMsg m = encMsg (encBody a ws) := by simpa only [EncMsg] using h
  rw [e] at hl ⊢
  have h1 := encArgs_length hs hw
  rw [encMsg_length] at hl ⊢
  have hb : a.length ≤ (encBody a ws).length ∧ ws.length ≤ (encBody a ws).length := by
    simp only [encBody, tagString, padStr, List.length_append, List.length_cons, List.length_map]; omega
  have e : (encBody a ws).length = (padStr a).length + (padStr (44 :: ws.map Prod.fst)).length + (ws.flatMap Prod.snd).length := by
    simp only [encBody, tagString, List.length_append]
  rw [e, length_padStr _ (by omega), length_padStr _ (by simp only [List.length_cons, List.length_map]; omega), h1.1,
    padN_eq _ (by omega), padN_eq _ (by simp only [List.length_cons, List.length_map]; omega)]
  simp only [sizeVMsg, strSize, List.length_cons, List.length_map, h1.2]
  omega

/-! ### Addresses -/

theorem nameOk_valid {a : Bytes} (h : nameOk a = true) : ValidName a := by
  simp only [nameOk, Bool.and_eq_true, beq_iff_eq, decide_eq_true_eq, List.all_eq_true] at h
  obtain ⟨⟨h1, h2⟩, h3⟩ := h
  cases a with
  | nil => cases h1
  | cons x r =>
    simp only [List.head?_cons, Option.some.injEq] at h1
    subst h1
    refine ⟨r, rfl, by rintro rfl; simp at h2, fun h => ?_, fun h => ?_⟩
    · exact absurd (h3 32 (by simp [h])) (by decide)
    · exact absurd (h3 35 (by simp [h])) (by decide)

theorem nameOk_plain {a : Bytes} (h : nameOk a = true) : Plain a ∧ a.head? = some 47 := by
  simp only [nameOk, Bool.and_eq_true, beq_iff_eq, decide_eq_true_eq, List.all_eq_true] at h
  obtain ⟨⟨h1, h2⟩, h3⟩ := h
  refine ⟨fun c hc => ?_, h1⟩
  have := h3 c hc
  refine ⟨?_, ?_, ?_, ?_, ?_, ?_, ?_⟩ <;> rintro rfl <;> exact absurd this (by decide)

theorem plain_noNul {a : Bytes} (h : Plain a) : (0 : UInt8) ∉ a := fun h0 => (h 0 h0).1 rfl
theorem plain_noStar {a : Bytes} (h : Plain a) : (42 : UInt8) ∉ a := fun h0 => (h 42 h0).2.2.1 rfl

theorem match_iff {a c : Bytes} (ha : nameOk a = true) (hc : nameOk c = true) :
    (∃ r, oscMatch a c = some r ∧ r.code = 3) ↔ a = c := by
  have h1 := nameOk_plain ha
  have h2 := nameOk_plain hc
  exact C12_plain_equality a c h1.1 h1.2 (plain_noNul h2.1) h2.2 (plain_noStar h2.1)

/-! ### Messages -/

theorem msg_facts {a : Bytes} {vs : List Val} {m : Bytes} (h : EncMsg (.mk (some a) vs) (encMsg m)) (ha : nameOk a = true)
    (hf : Fits m) : HasAddr m ∧ addrOf m = a ∧ ∃ ws, m = encBody a ws ∧ EncArgs vs ws := by
  obtain ⟨ws, hw, e⟩ : ∃ ws, EncArgs vs ws ∧ encMsg m = encMsg (encBody a ws) := by simpa only [EncMsg] using h
  have e : m = encBody a ws := (List.append_inj e (by simp)).2
  subst e
  exact ⟨hasAddr_encBody a ws hf, addrOf_encBody a ws (plain_noNul (nameOk_plain ha).1) hf, ws, rfl, hw⟩

theorem encB_cons (hdr m : Bytes) (ms : List Bytes) : (encB hdr (m :: ms)).length = hdr.length + (encMsg m).length + (encMsgs ms).length := by
  simp [encB, encMsgs_cons, List.length_append]; omega

theorem msgs_fit : ∀ {ms : List Bytes} {B : Binds}, Msgs ms B → (encMsgs ms).length + 16 < 2147483648 →
    ∀ m ∈ ms, Fits m ∧ HasAddr m ∧ ∃ x ∈ B, addrOf m = x.1 ∧ nameOk x.1 = true
  | [], _, _, _, m, hm => by simp at hm
  | m :: ms, B, h, hl, x, hx => by
    obtain ⟨a, vs, B', rfl, h1, h2, h3, h4⟩ := h
    rw [encMsgs_cons, List.length_append, encMsg_length] at hl
    have hf : Fits m := by unfold Fits; omega
    rcases List.mem_cons.mp hx with rfl | hx
    · obtain ⟨g1, g2, -⟩ := msg_facts h1 h2 hf
      exact ⟨hf, g1, (a, vs), by simp, g2, h2⟩
    · obtain ⟨g1, g2, y, hy, g3⟩ := msgs_fit h4 (by omega) x hx
      exact ⟨g1, g2, y, by simp [hy], g3⟩

theorem msgs_size : ∀ {ms : List Bytes} {B : Binds}, Msgs ms B → (encMsgs ms).length + 16 < 2147483648 →
    16 + (encMsgs ms).length = B.size
  | [], _, h, _ => by simp only [Msgs] at h; subst h; rfl
  | m :: ms, B, h, hl => by
    obtain ⟨a, vs, B', rfl, h1, h2, h3, h4⟩ := h
    rw [encMsgs_cons, List.length_append] at hl ⊢
    have := msgs_size h4 (by omega)
    have := encMsg_size h3 h1 (by omega)
    simp only [Binds.size, List.map_cons, sizeVMsgs] at this ⊢
    simp only [Binds.size] at *
    omega

theorem msgs_get : ∀ {ms : List Bytes} {B : Binds} {a : Bytes}, Msgs ms B → (encMsgs ms).length + 16 < 2147483648 →
    (B.get a = none → ∀ m ∈ ms, addrOf m ≠ a) ∧
    ∀ vs, B.get a = some vs → ∃ pre m post, ms = pre ++ m :: post ∧ (∀ x ∈ pre, addrOf x ≠ a) ∧ addrOf m = a ∧
      EncMsg (.mk (some a) vs) (encMsg m) ∧ vs.all simple = true ∧ nameOk a = true
  | [], B, a, h, _ => by
    simp only [Msgs] at h
    subst h
    simp [Binds.get]
  | m :: ms, B, a, h, hl => by
    obtain ⟨c, ws, B', rfl, h1, h2, h3, h4⟩ := h
    rw [encMsgs_cons, List.length_append, encMsg_length] at hl
    have ih := msgs_get (a := a) h4 (by omega)
    have hf : Fits m := by unfold Fits; omega
    obtain ⟨g1, g2, -⟩ := msg_facts h1 h2 hf
    by_cases hc : c = a
    · subst hc
      have e : Binds.get ((c, ws) :: B') c = some ws := by simp [Binds.get]
      rw [e]
      refine ⟨fun h => (by cases h), fun vs hvs => ?_⟩
      injection hvs with hvs
      subst hvs
      exact ⟨[], m, ms, rfl, by simp, g2, h1, h3, h2⟩
    · have e : Binds.get ((c, ws) :: B') a = Binds.get B' a := by simp [Binds.get, hc]
      rw [e]
      refine ⟨fun h x hx => ?_, fun vs hvs => ?_⟩
      · rcases List.mem_cons.mp hx with rfl | hx
        · rw [g2]; exact hc
        · exact ih.1 h x hx
      · obtain ⟨pre, x, post, rfl, k1, k2⟩ := ih.2 vs hvs
        refine ⟨m :: pre, x, post, rfl, fun y hy => ?_, k2⟩
        rcases List.mem_cons.mp hy with rfl | hy
        · rw [g2]; exact hc
        · exact k1 y hy

theorem msgs_set : ∀ {ms : List Bytes} {B : Binds} {a m : Bytes} {vs : List Val}, Msgs ms B → (encMsgs ms).length + 16 < 2147483648 →
    EncMsg (.mk (some a) vs) (encMsg m) → nameOk a = true → vs.all simple = true → Msgs (putFirst a m ms) (B.set a vs)
  | [], B, a, m, vs, h, _, h1, h2, h3 => by
    simp only [Msgs] at h
    subst h
    exact ⟨a, vs, [], rfl, h1, h2, h3, rfl⟩
  | x :: ms, B, a, m, vs, h, hl, h1, h2, h3 => by
    obtain ⟨c, ws, B', rfl, k1, k2, k3, k4⟩ := h
    rw [encMsgs_cons, List.length_append, encMsg_length] at hl
    have ih := msgs_set k4 (by omega) h1 h2 h3
    have hf : Fits x := by unfold Fits; omega
    obtain ⟨g1, g2, -⟩ := msg_facts k1 k2 hf
    by_cases hc : c = a
    · rw [putFirst, if_pos (g2.trans hc), Binds.set, if_pos hc]
      exact ⟨a, vs, B', rfl, h1, h2, h3, k4⟩
    · rw [putFirst, if_neg (by rw [g2]; exact hc), Binds.set, if_neg hc]
      exact ⟨c, ws, _, rfl, k1, k2, k3, ih⟩

theorem putFirst_size : ∀ {ms : List Bytes} {B : Binds} {a m : Bytes} {vs : List Val}, Msgs ms B →
    (encMsgs ms).length + 16 < 2147483648 → (encMsg m).length = sizeVMsg (.mk (some a) vs) →
    16 + (encMsgs (putFirst a m ms)).length = (B.set a vs).size
  | [], B, a, m, vs, h, _, h1 => by
    simp only [Msgs] at h
    subst h
    simp only [putFirst, Binds.set, Binds.size, List.map_cons, List.map_nil, sizeVMsgs, ← h1]
    simp [encMsgs]
  | x :: ms, B, a, m, vs, h, hl, h1 => by
    obtain ⟨c, ws, B', rfl, k1, k2, k3, k4⟩ := h
    rw [encMsgs_cons, List.length_append] at hl
    have ih := putFirst_size k4 (by omega) h1
    have hs := msgs_size k4 (by omega)
    have hx := encMsg_size k3 k1 (by omega)
    rw [encMsg_length] at hl
    have hf : Fits x := by unfold Fits; omega
    obtain ⟨g1, g2, -⟩ := msg_facts k1 k2 hf
    simp only [Binds.size] at ih hs
    by_cases hc : c = a
    · rw [putFirst, if_pos (g2.trans hc), Binds.set, if_pos hc, encMsgs_cons, List.length_append]
      simp only [Binds.size, List.map_cons, sizeVMsgs]
      omega
    · rw [putFirst, if_neg (by rw [g2]; exact hc), Binds.set, if_neg hc, encMsgs_cons, List.length_append]
      simp only [Binds.size, List.map_cons, sizeVMsgs]
      omega

/-! ### Reading and writing -/

variable {T : Tab} {env : Option Nat} {st : St} {f : Nat} {hdr : Bytes} {B : Binds} {a : Bytes}

theorem encB_eq (hdr : Bytes) (ms : List Bytes) : (encB hdr ms).length = hdr.length + (encMsgs ms).length := by
  simp [encB, List.length_append]

theorem rep_read (h : Rep hdr B st.bndl) (ha : nameOk a = true) :
    (B.get a = none → ArgEvals T env st (.addr a) (st, UNBOUND, none)) ∧
    ∀ vs, B.get a = some vs → vs.all simple = true ∧ ∃ l, ArgEvals T env st (.addr a) (st, 0, some l) ∧ Holds (some l) vs := by
  obtain ⟨hh, ⟨ms, spare, hb, hl, hm⟩ | ⟨hb, rfl, -⟩⟩ := h
  · have hl' := hl
    rw [List.length_append, encB_eq, hh] at hl'
    have hfit := msgs_fit hm (by omega)
    have hS : Small st := by
      intro len buf e
      rw [hb] at e
      simp only [Option.some.injEq, Prod.mk.injEq] at e
      rw [← e.2]; exact hl
    have hr := C47_read (T := T) (env := env) (st := st) (q := a) ⟨spare, hb⟩ hS hh (plain_noNul (nameOk_plain ha).1)
      (fun m hm' => ⟨(hfit m hm').1, (hfit m hm').2.1⟩)
    have hg := msgs_get (a := a) hm (by omega)
    have key : ∀ m ∈ ms, addrOf m ≠ a → ∀ r, oscMatch a (addrOf m) = some r → r.code ≠ 3 := by
      intro m hm' hne r hr h3
      obtain ⟨-, -, x, -, e, hx⟩ := hfit m hm'
      exact hne ((match_iff ha (by rw [e]; exact hx)).mp ⟨r, hr, h3⟩).symm
    refine ⟨fun hn => hr.1 fun m hm' => key m hm' (hg.1 hn m hm'), fun vs hvs => ?_⟩
    obtain ⟨pre, m, post, rfl, h1, h2, h3, h4, -⟩ := hg.2 vs hvs
    obtain ⟨r, h5, h6⟩ := (match_iff ha ha).mpr rfl
    exact ⟨h4, hr.2 pre m post r a vs rfl (by rw [h2]; exact h5) h6 (fun x hx => key x (by simp [hx]) (h1 x hx)) h3
      (plain_noNul (nameOk_plain ha).1) (goods h4)⟩
  · refine ⟨fun _ => ⟨0, ?_⟩, fun vs hvs => (by simp [Binds.get] at hvs)⟩
    simp only [evalArg, readAddr, hb, Option.map_some]

theorem rep_put {vs : List Val} {l : List UAtom} {b : Option (Int × Option Bytes)} (h : Rep hdr B b) (ha : nameOk a = true)
    (hl : argsVal l = some vs) (hs : vs.all simple = true) (hsz : (B.set a vs).size < 2147483648) :
    ∃ b0 b', b = some b0 ∧ putMsg b0 a l = some b' ∧ Rep hdr (B.set a vs) (some b') := by
  obtain ⟨hh, ⟨ms, spare, rfl, hlen, hm⟩ | ⟨rfl, rfl, rfl⟩⟩ := h
  · have hlen' := hlen
    rw [List.length_append, encB_eq, hh] at hlen'
    have hfit := msgs_fit hm (by omega)
    have hone : sizeVMsg (.mk (some a) vs) ≤ (B.set a vs).size := by
      clear hm hsz hfit
      induction B with
      | nil => simp only [Binds.set, Binds.size, List.map_cons, List.map_nil, sizeVMsgs]; omega
      | cons x B ih =>
        simp only [Binds.set]
        split <;> simp only [Binds.size, List.map_cons, sizeVMsgs] at ih ⊢ <;> omega
    obtain ⟨m, spare', h1, h2, h3, -, h5, h6⟩ := putMsg_spec hdr ms spare a l vs hh (fun m hm' => ⟨(hfit m hm').1, (hfit m hm').2.1⟩) hl
      (copies hs) (by omega)
    have := putFirst_size (vs := vs) hm (by omega) h5
    refine ⟨_, _, rfl, h3, hh, .inl ⟨_, spare', rfl, ?_, msgs_set hm (by omega) h1 ha hs⟩⟩
    rw [encB_eq hdr ms, encB_eq hdr (putFirst a m ms), hh] at h6
    omega
  · have hone : sizeVMsg (.mk (some a) vs) ≤ (Binds.set [] a vs).size := by
      simp only [Binds.set, Binds.size, List.map_cons, List.map_nil, sizeVMsgs]; omega
    obtain ⟨m, spare', h1, h2, -, h3, h5, -⟩ := putMsg_spec plainHeader [] [] a l vs hh (by simp) hl (copies hs) (by omega)
    refine ⟨_, _, rfl, h3, hh, .inl ⟨[m], [], by rw [List.append_nil], ?_, a, vs, [], rfl, h1, ha, hs, rfl⟩⟩
    have := putFirst_size (ms := []) (B := []) (m := m) (vs := vs) rfl (by simp [encMsgs]) h5
    simp only [putFirst] at this
    rw [List.append_nil, encB_eq, hh]
    omega

/-! ### `bound` -/

theorem addressIsBound_le (len : Int) (buf r q : Bytes) (b : Bool) : Le (addressIsBound len buf q b) (addressIsBound len (buf ++ r) q b) :=
  msgLoop_le _ _ _ (fun _ _ _ => .bind (cstr_le _ _ _) fun _ => .bind .rfl fun _ => .bind .rfl fun _ => .ite .rfl
    (.ite (.bind (rd8_le _ _ _) fun _ => .rfl) .rfl)) _ _ _

/-- The messages as address, type tags and data. -/
theorem msgs_parts : ∀ {ms : List Bytes} {B : Binds}, Msgs ms B → (encMsgs ms).length + 16 < 2147483648 →
    ∃ ps : List (Bytes × Bytes × Bytes), ms = ps.map (fun x => padStr x.1 ++ padStr x.2.1 ++ x.2.2) ∧
      (∀ x ∈ ps, nameOk x.1 = true ∧ (0 : UInt8) ∉ x.2.1 ∧ x.2.1.head? = some 44) ∧
      ∀ a, bound B a = true ↔ ∃ x ∈ ps, a = x.1 ∧ 2 ≤ x.2.1.length
  | [], _, h, _ => by
    simp only [Msgs] at h
    subst h
    exact ⟨[], rfl, by simp, by simp [bound]⟩
  | m :: ms, B, h, hl => by
    obtain ⟨a, vs, B', rfl, h1, h2, h3, h4⟩ := h
    rw [encMsgs_cons, List.length_append, encMsg_length] at hl
    obtain ⟨ps, rfl, g2, g3⟩ := msgs_parts h4 (by omega)
    have hf : Fits m := by unfold Fits; omega
    obtain ⟨-, -, ws, rfl, hw⟩ := msg_facts h1 h2 hf
    have hwl := (encArgs_length h3 hw).2
    have htags : ∀ {vs : List Val} {ws : List WArg}, vs.all simple = true → EncArgs vs ws → (0 : UInt8) ∉ ws.map Prod.fst := by
      intro vs
      induction vs with
      | nil => intro ws _ h; simp only [EncArgs] at h; subst h; simp
      | cons v vs ih =>
        intro ws hs h
        simp only [EncArgs] at h
        obtain ⟨w, ws', rfl, k1, k2⟩ := h
        simp only [List.all_cons, Bool.and_eq_true] at hs
        simp only [List.map_cons, List.mem_cons, not_or]
        refine ⟨?_, ih hs.2 k2⟩
        have hs1 := hs.1
        obtain ⟨t, d⟩ := w
        rintro rfl
        clear h1 h2 h3 h4 hw hwl hf g2 g3 hl ih k2 hs
        cases v with
        | num tag n => obtain ⟨rfl, h⟩ := k1; simp at h
        | time s f => exact absurd k1.1 (by simp)
        | bare tag => obtain ⟨rfl, -⟩ := k1; simp [simple] at hs1
        | str s => exact absurd k1.1 (by simp)
        | blob c => simp [simple] at hs1
        | bndl ms => simp [simple] at hs1
    refine ⟨(a, 44 :: ws.map Prod.fst, ws.flatMap Prod.snd) :: ps, rfl, ?_, ?_⟩
    · intro x hx
      rcases List.mem_cons.mp hx with rfl | hx
      · refine ⟨h2, ?_, rfl⟩
        simp only [List.mem_cons, not_or]
        exact ⟨by decide, htags h3 hw⟩
      · exact g2 x hx
    · intro c
      have e : bound ((a, vs) :: B') c = ((decide (a = c) && !vs.isEmpty) || bound B' c) := rfl
      rw [e, Bool.or_eq_true, g3 c]
      constructor
      · rintro (h | ⟨x, hx, h⟩)
        · simp only [Bool.and_eq_true, decide_eq_true_eq, Bool.not_eq_true', List.isEmpty_eq_false_iff] at h
          refine ⟨_, List.mem_cons_self, h.1.symm, ?_⟩
          have : 0 < vs.length := List.length_pos_iff.mpr h.2
          simp only [List.length_cons, List.length_map]; omega
        · exact ⟨x, by simp [hx], h⟩
      · rintro ⟨x, hx, h⟩
        rcases List.mem_cons.mp hx with rfl | hx
        · left
          simp only [Bool.and_eq_true, decide_eq_true_eq, Bool.not_eq_true', List.isEmpty_eq_false_iff]
          refine ⟨h.1.symm, ?_⟩
          rintro rfl
          simp only [List.length_cons, List.length_map, hwl, List.length_nil] at h
          omega
        · exact .inr ⟨x, hx, h⟩

theorem rep_bound {rest : List Arg} (h : Rep hdr B st.bndl) (ha : nameOk a = true)
    (hf : st.exprs[f]? = some ⟨.bound, .addr a :: rest⟩) : Evals T env st f (st, 0, truthAr (bound B a)) := by
  obtain ⟨hh, ⟨ms, spare, hb, hl, hm⟩ | ⟨hb, rfl, -⟩⟩ := h
  · rw [List.length_append, encB_eq, hh] at hl
    obtain ⟨ps, rfl, h1, h2⟩ := msgs_parts hm (by omega)
    have hfit := msgs_fit hm (by omega)
    have hsm : ∀ x ∈ ps, x.1.length + 4 < 4294967296 ∧ x.2.1.length + 4 < 4294967296 := by
      intro x hx
      have := (hfit _ (List.mem_map_of_mem hx)).1
      unfold Fits at this
      simp only [List.length_append, padStr] at this
      omega
    obtain ⟨r, hr, hr2⟩ := C19_bound_partial hdr ps a hh (plain_noNul (nameOk_plain ha).1)
      (fun x hx => ⟨plain_noNul (nameOk_plain (h1 x hx).1).1, (h1 x hx).2⟩) (fun x hx => (hfit _ (List.mem_map_of_mem hx)).1)
      (fun x hx r hr h3 => by rw [(match_iff ha (h1 x hx).1).mp ⟨r, hr, h3⟩]) hsm
    have hrb : r = bound B a := by
      apply Bool.eq_iff_iff.mpr
      rw [hr2, h2]
      constructor
      · rintro ⟨x, hx, hm, hl⟩
        exact ⟨x, hx, (match_iff ha (h1 x hx).1).mp hm, hl⟩
      · rintro ⟨x, hx, hm, hl⟩
        exact ⟨x, hx, (match_iff ha (h1 x hx).1).mpr hm, hl⟩
    subst hrb
    refine evals_now ?_
    simp only [evalNode, hf, existsNode, asked, hb, List.getElem?_cons_zero]
    rw [if_neg (by simp), Option.bind_some]
    simp only [hb]
    rw [addressIsBound_le _ _ spare _ _ _ hr, Option.bind_some]
    cases bound B a <;> rfl
  · refine evals_now ?_
    simp only [evalNode, hf, existsNode, asked, hb, List.getElem?_cons_zero]
    rw [if_neg (by simp), Option.bind_some]
    simp only [hb]
    rfl

end Libo.Sem
