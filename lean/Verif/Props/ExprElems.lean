import Verif.ExprElems
import Verif.ExprBuild
import Verif.Name
/-!
# C92, C93: `value`, and assignment to elements of an address

The theorems speak of the messages of the bundle (`ExprBndl.lean`) and of the values that arrays hold.
-/

namespace Libo.Props
open Libo Libo.Expr Libo.Match

variable {T : Tab} {env : Option Nat} {st st1 st2 : St} {f : Nat}

/-! ### `value` -/

theorem mapM_range {α β : Type} (f : α → Option β) (xs : List α) :
    ((List.range xs.length).mapM fun i => xs[i]?.bind f) = xs.mapM f := by
  induction xs with
  | nil => rfl
  | cons x xs ih =>
    rw [List.length_cons, List.range_succ_eq_map, List.mapM_cons, List.mapM_map, List.mapM_cons]
    have : (fun i => ((x :: xs)[i]?).bind f) ∘ Nat.succ = fun i => xs[i]?.bind f := by
      funext i
      simp
    rw [this, ih]
    rfl

/-- The values of a message, one at a time. -/
theorem value_loop (pre post a : Bytes) (vs : List Val) (m : Bytes) (hm : EncMsg (.mk (some a) vs) (encMsg m)) (h0 : (0 : UInt8) ∉ a)
    (hg : GoodVals vs) (hl : (pre ++ encMsg m ++ post).length < 2147483648) :
    ∃ v l n, wrap (pre ++ encMsg m ++ post) pre.length = some v ∧ MsgS.argCount (pre ++ encMsg m ++ post) v = some n ∧ 0 ≤ n ∧
      ((List.range n.toNat).mapM fun (i : Nat) => (MsgS.getArg (pre ++ encMsg m ++ post) ⟨v, none⟩ i).bind fun x =>
        x.bind fun x => deserAtom (deserBundle ((pre ++ encMsg m ++ post).length + 1)) (pre ++ encMsg m ++ post) x) = some l ∧
      argsVal l = some vs := by
  obtain ⟨l, h1, h2⟩ := readMsg_spec pre post a vs m hm h0 hg hl
  have hv : ∃ ws, EncArgs vs ws ∧ encMsg m = encMsg (encBody a ws) := by simpa only [EncMsg] using hm
  obtain ⟨ws, hw, e⟩ := hv
  simp only [readMsg, Option.bind_eq_some_iff] at h1
  obtain ⟨v, k1, n, k2, as, k3, k4⟩ := h1
  split at k4
  · rename_i hn
    refine ⟨v, l, n, k1, k2, by omega, ?_, h2⟩
    have hd : ∀ d, v.data = some d → d ≤ (pre ++ encMsg m ++ post).length := by
      have hl' := hl
      rw [e] at hl'
      simp only [List.length_append, encMsg_length] at hl'
      have hfit : Fits (encBody a ws) := by unfold Fits; omega
      have hbl : (encBody a ws).length = (padStr a).length + (padStr (tagString ws)).length + (ws.flatMap Prod.snd).length := by
        simp only [encBody, List.length_append]
      have hargs := encArgs_isArg vs ws hw hg (by omega)
      have hwr := MsgS.wrap_enc pre post a ws h0 hargs hfit
      rw [← e, k1] at hwr
      injection hwr with hwr
      subst hwr
      intro d hd
      simp only [Option.some.injEq] at hd
      subst hd
      rw [e]
      simp only [List.length_append, encMsg_length]
      omega
    have hga := (C06_agree_partial _ hl v as hd k3).1
    have hnn : n.toNat = as.length := by omega
    simp only [hga, Option.bind_some, hnn]
    rw [mapM_range, k4]
  · cases k4

theorem tagOf_str {v : Ar} {s : Bytes} {ws : List Val} (h : Holds v (.str s :: ws)) : tagOf (at? v 0) = 115 ∧ strOf (at? v 0) = some s := by
  obtain ⟨x, hx, hxv⟩ := holds_at h (i := 0) rfl
  rw [hx]
  obtain ⟨tag, al, w⟩ := x
  rcases val_eq tag al w _ hxv with ⟨-, h2⟩ | ⟨-, h2⟩ | ⟨-, h2⟩ | ⟨-, h2⟩ | ⟨-, h2⟩ | ⟨rfl, p, s', rfl, h2⟩ |
    ⟨-, p, blk, l, c, -, -, -, h2⟩ | ⟨-, p, ms, vs, -, -, h2⟩ | ⟨h2, -⟩ <;> simp at h2
  subst h2
  exact ⟨rfl, rfl⟩

theorem tagOf_other {v : Ar} {vs : List Val} (h : Holds v vs) (hn : ∀ s ws, vs ≠ .str s :: ws) : tagOf (at? v 0) ≠ 115 := by
  cases vs with
  | nil =>
    have hl := holds_len h
    have : at? v 0 = none := by
      cases v with
      | none => rfl
      | some l =>
        have : l = [] := List.length_eq_zero_iff.mp hl
        subst this
        rfl
    rw [this]
    decide
  | cons x ws =>
    obtain ⟨u, hu, huv⟩ := holds_at h (i := 0) rfl
    rw [hu]
    obtain ⟨tag, al, w⟩ := u
    rintro (rfl : tag = 115)
    rcases val_eq 115 al w _ huv with ⟨h1, -⟩ | ⟨h1, -⟩ | ⟨h1, -⟩ | ⟨h1, -⟩ | ⟨h1, -⟩ | ⟨-, p, s', rfl, h2⟩ |
      ⟨h1, -⟩ | ⟨h1, -⟩ | ⟨h2, h1⟩
    all_goals first
      | (exact absurd h1 (by decide))
      | (subst h2; exact hn s' ws rfl)
      | (simp at h1)

/-- **C92 (values by the text of an address).**  `value(x)`, where the first value of `x` is a string: the values of the first message whose address the
string, taken as a pattern, matches completely. -/
theorem C92_value {a0 : Arg} {rest : List Arg} {v : Ar} {s : Bytes} {ws : List Val} {hdr : Bytes} {ms : List Bytes}
    (hf : st.exprs[f]? = some ⟨.value, a0 :: rest⟩) (hb : st.bndl ≠ none) (hx : ArgEvals T env st a0 (st1, 0, v)) (hv : Holds v (.str s :: ws))
    (hB : HasBundle st1 hdr ms) (hS : Small st1) (hh : hdr.length = 16) (hs : (0 : UInt8) ∉ s) (hm : ∀ m ∈ ms, Fits m ∧ WFMsg m)
    (pre : List Bytes) (m : Bytes) (post : List Bytes) (r : Match.Res) (a : Bytes) (vs : List Val) (e : ms = pre ++ m :: post)
    (hr : oscMatch s (addrOf m) = some r) (h3 : r.code = 3) (hp : ∀ x ∈ pre, ∀ r, oscMatch s (addrOf x) = some r → r.code ≠ 3)
    (hE : EncMsg (.mk (some a) vs) (encMsg m)) (h0 : (0 : UInt8) ∉ a) (hg : GoodVals vs) :
    ∃ l, Evals T env st f (st1, 0, some l) ∧ Holds (some l) vs := by
  obtain ⟨spare, hsp⟩ := hB
  have hlen := hS _ _ hsp
  subst e
  obtain ⟨vw, vws, k1, k2⟩ := lookup_first hdr pre m post s spare hh hs hm hp hr h3
  have eb : encB hdr (pre ++ m :: post) ++ spare = encB hdr pre ++ encMsg m ++ (encMsgs post ++ spare) := by
    simp [encB, encMsgs_append, encMsgs_cons]
  rw [eb] at hlen
  obtain ⟨v', l, n, g1, g2, g3, g4, g5⟩ := value_loop (encB hdr pre) (encMsgs post ++ spare) a vs m hE h0 hg hlen
  rw [← eb] at g1 g2 g4
  rw [k2] at g1
  injection g1 with g1
  subst g1
  obtain ⟨n0, hn⟩ := hx
  refine ⟨l, evals_node.mpr ⟨n0, ?_⟩, g5⟩
  obtain ⟨t1, t2⟩ := tagOf_str hv
  simp only [evalNode, hf, valueNode, List.getElem?_cons_zero, hn, Option.bind_some, t1, t2, hsp, k1, g2]
  rw [if_neg (by simpa using hb), if_neg (show ¬ (0 : Int) = UNBOUND by decide), if_pos trivial, if_neg (by omega), g4]
  rfl

/-- **C92.**  If no message matches, or there is no block, or the first value of `x` is not a string, the result is empty; that is not an error. -/
theorem C92_value_none {a0 : Arg} {rest : List Arg} {v : Ar} {us : List Val} (hf : st.exprs[f]? = some ⟨.value, a0 :: rest⟩) (hb : st.bndl ≠ none)
    (hx : ArgEvals T env st a0 (st1, 0, v)) (hv : Holds v us)
    (h : (∀ s ws, us ≠ .str s :: ws) ∨ ∃ s ws, us = .str s :: ws ∧ (0 : UInt8) ∉ s ∧
      (st1.bndl = some (0, none) ∨ ∃ hdr ms, HasBundle st1 hdr ms ∧ hdr.length = 16 ∧ (∀ m ∈ ms, Fits m ∧ HasAddr m) ∧
        ∀ m ∈ ms, ∀ r, oscMatch s (addrOf m) = some r → r.code ≠ 3)) : Evals T env st f (st1, 0, none) := by
  obtain ⟨n0, hn⟩ := hx
  refine evals_node.mpr ⟨n0, ?_⟩
  simp only [evalNode, hf, valueNode, List.getElem?_cons_zero, hn, Option.bind_some]
  rw [if_neg (by simpa using hb), if_neg (show ¬ (0 : Int) = UNBOUND by decide)]
  rcases h with h | ⟨s, ws, rfl, hs, h⟩
  · rw [if_neg (tagOf_other hv h)]
  · obtain ⟨t1, t2⟩ := tagOf_str hv
    rw [if_pos t1, t2, Option.bind_some]
    rcases h with h | ⟨hdr, ms, ⟨spare, hsp⟩, hh, hm, hn⟩
    · simp only [h]
      rw [if_pos (by decide)]
    · simp only [hsp]
      rw [lookup_none hdr ms s spare hh hs hm hn]
      rfl

/-- **C92.**  An unbound address is an error. -/
theorem C92_unbound {a0 : Arg} {rest : List Arg} {v : Ar} (hf : st.exprs[f]? = some ⟨.value, a0 :: rest⟩) (hb : st.bndl ≠ none)
    (hx : ArgEvals T env st a0 (st1, UNBOUND, v)) : Evals T env st f (st1, UNBOUND, none) := by
  obtain ⟨n0, hn⟩ := hx
  refine evals_node.mpr ⟨n0, ?_⟩
  simp only [evalNode, hf, valueNode, List.getElem?_cons_zero, hn, Option.bind_some]
  rw [if_neg (by simpa using hb), if_pos trivial]

/-! ### Assignment to elements -/

/-- Whether the stores are done: there is a position and a value, and not one position outside for several values. -/
def Storable (n : Nat) (is : List Int) (ds : List Val) : Prop :=
  is ≠ [] ∧ ds ≠ [] ∧ ¬ (is.length = 1 ∧ 1 < ds.length ∧ ∀ i ∈ is, ¬ (0 ≤ i ∧ i < n))

theorem stored_all {p : Val → Prop} {is : List Int} {vs ds : List Val} (hv : ∀ v ∈ vs, p v) (hd : ∀ v ∈ ds, p v) :
    ∀ v ∈ (writes is ds).foldl putAt vs, p v := by
  have key : ∀ (ws : List (Int × Val)) (us : List Val), (∀ w ∈ ws, p w.2) → (∀ v ∈ us, p v) → ∀ v ∈ ws.foldl putAt us, p v := by
    intro ws
    induction ws with
    | nil => intro us _ h; exact h
    | cons w ws ih =>
      intro us h1 h2
      refine ih _ (fun x hx => h1 x (by simp [hx])) fun v hv => ?_
      simp only [putAt] at hv
      split at hv
      · rcases List.mem_or_eq_of_mem_set hv with hv | rfl
        · exact h2 v hv
        · exact h1 w (by simp)
      · exact h2 v hv
  refine key _ _ (fun w hw => hd _ ?_) hv
  simp only [writes] at hw
  split at hw
  · simp only [List.mem_singleton] at hw
    subst hw
    simp
  · simp only [List.mem_map] at hw
    obtain ⟨_, -, rfl⟩ := hw
    simp
  · exact (List.of_mem_zip hw).2

/-- **C93 (assignment to elements).**  `/a[[i]] = x` (`assign_to_index(/a, i, x)`), where `i` and `x` do not change the bundle: the values of the first
message that `/a` matches are taken, the values of `x` are stored at the positions `i`, and the message is replaced, at its place, by one to `/a` with
these values; the result are these values.  All other messages stay as they are. -/
theorem C93_store {a : Bytes} {ai ad : Arg} {iv dv : Ar} {hdr : Bytes} {ms : List Bytes} {ixs : List (ITy × Int)} {ds : List Val}
    (hf : st.exprs[f]? = some ⟨.assignToIndex, [.addr a, ai, ad]⟩) (hB : HasBundle st hdr ms) (hS : Small st) (hh : hdr.length = 16)
    (ha : (0 : UInt8) ∉ a) (ha1 : a.head? = some 47) (hm : ∀ m ∈ ms, Fits m ∧ WFMsg m)
    (pre : List Bytes) (m : Bytes) (post : List Bytes) (r : Match.Res) (c : Bytes) (vs : List Val) (e : ms = pre ++ m :: post)
    (hr : oscMatch a (addrOf m) = some r) (h3 : r.code = 3) (hp : ∀ x ∈ pre, ∀ r, oscMatch a (addrOf x) = some r → r.code ≠ 3)
    (hE : EncMsg (.mk (some c) vs) (encMsg m)) (h0 : (0 : UInt8) ∉ c) (hg : GoodVals vs) (hcv : ∀ v ∈ vs, Copyable v)
    (hi : ArgEvals T env st ai (st1, 0, iv)) (hb1 : st1.bndl = st.bndl) (hd : ArgEvals T env st1 ad (st2, 0, dv)) (hb2 : st2.bndl = st.bndl)
    (hiv : Holds iv (ixs.map fun x => x.1.val x.2)) (ht : ∀ x ∈ ixs, x.1.has x.2) (hdv : Holds dv ds) (hcd : ∀ v ∈ ds, Copyable v)
    (is : List Int) (his : is = ixs.map fun x => ITy.i32.conv x.2) (out : List Val) (hout : out = (writes is ds).foldl putAt vs) :
    (Storable vs.length is ds → sizeVMsg (.mk (some a) out) < 2147483648 → ∃ m' spare l, EncMsg (.mk (some a) out) (encMsg m') ∧ Fits m' ∧
      Evals T env st f ({ st2 with bndl := some (((encB hdr (pre ++ m' :: post)).length : Int), some (encB hdr (pre ++ m' :: post) ++ spare)) },
        0, some l) ∧ Holds (some l) out ∧
      (encB hdr (pre ++ m' :: post) ++ spare).length ≤ max (encB hdr ms).length (encB hdr (pre ++ m' :: post)).length ∧
      (encMsg m').length = sizeVMsg (.mk (some a) out)) ∧
    (¬ Storable vs.length is ds → ∃ l, Evals T env st f (st2, 1, l)) := by
  have hrd := (C47_read (T := T) (env := env) hB hS hh ha fun x hx => ⟨(hm x hx).1, (hm x hx).2.hasAddr⟩).2 pre m post r c vs e hr h3 hp hE h0 hg
  obtain ⟨o, ⟨n1, ho⟩, hov⟩ := hrd
  obtain ⟨spare, hsp⟩ := hB
  obtain ⟨n2, hi⟩ := hi
  obtain ⟨n3, hd⟩ := hd
  subst e
  obtain ⟨vw, vws, k1, k2⟩ := lookup_first hdr pre m post a spare hh ha hm hp hr h3
  have hsz := wrap_size k2
  have hi0 : Holds (some (iv.getD [])) (ixs.map fun x => x.1.val x.2) := hiv
  have hd0 : Holds (some (dv.getD [])) ds := hdv
  obtain ⟨q, s1, s2, s3⟩ := storeAll_spec o (iv.getD []) (dv.getD []) vs ixs ds hov hi0 hd0 ht hcd is his
  have ho' := evalArg_mono (run_mono T (show n1 ≤ max n1 (max n2 n3) by omega)) _ _ _ _ ho
  have hi' := evalArg_mono (run_mono T (show n2 ≤ max n1 (max n2 n3) by omega)) _ _ _ _ hi
  have hd' := evalArg_mono (run_mono T (show n3 ≤ max n1 (max n2 n3) by omega)) _ _ _ _ hd
  have step : ∀ res, ((match q with
      | none => some (st2, 1, some o)
      | some out =>
        if st2.bndl ≠ some (((encB hdr (pre ++ m :: post)).length : Int), some (encB hdr (pre ++ m :: post) ++ spare)) then none
        else
          if (encB hdr (pre ++ m :: post) ++ spare).length < ((encB hdr (pre ++ m :: post)).length : Int) then none
          else (out.mapM copyAtom).bind fun as => (serializeMsg (.mk (newAddress a) as)).bind fun d =>
            (replaceMessage (encB hdr (pre ++ m :: post)).length ((encB hdr (pre ++ m :: post) ++ spare).take (encB hdr (pre ++ m :: post)).length) vw.size d).map fun r =>
              ({ st2 with bndl := some (r.2.1, some r.2.2) }, 0, some out) : EvRes) = some res) → Evals T env st f res := by
    intro res hres
    refine evals_node.mpr ⟨max n1 (max n2 n3), ?_⟩
    simp only [evalNode, hf, assignToIndexNode, hsp, k1, ho', hi', hd', Option.bind_some, Option.getD_some, s1, Int.toNat_natCast]
    rw [if_neg (show ¬ (0 : Int) = UNBOUND by decide)]
    cases q with
    | none => exact hres
    | some out => exact hres
  constructor
  · intro hst hs
    obtain ⟨l, rfl, hl⟩ := s2 hst
    rw [← hout] at hl
    have hco : ∀ v ∈ out, Copyable v := by
      rw [hout]
      exact stored_all hcv hcd
    obtain ⟨l', h1, h2⟩ := mapM_copyAtom l out hl hco
    have hv : msgVal (.mk (some a) l') = some (.mk (some a) out) := by simp [msgVal, h2]
    obtain ⟨d, hd, hlen, hz, hse⟩ := ser_msg _ _ hv (by omega)
    have hser : serializeMsg (.mk (some a) l') = some d := by
      have := hse _ (Nat.le_refl _)
      simp only at this
      rw [serializeMsg, hz, Option.bind_some, this]
    obtain ⟨ws, hw, e⟩ : ∃ ws, EncArgs out ws ∧ d = encMsg (encBody a ws) := by simpa only [EncMsg] using hd
    subst e
    have hfit : Fits (encBody a ws) := by
      rw [encMsg_length] at hlen
      unfold Fits; omega
    obtain ⟨blk, h5, h6⟩ := C16_replace hdr pre post m (encBody a ws) [] [] (hm m (by simp)).1 hfit
    rw [List.append_nil, List.append_nil] at h5
    have hbk : blk = encB hdr (pre ++ encBody a ws :: post) ++ blk.drop (encB hdr (pre ++ encBody a ws :: post)).length := by
      conv => lhs; rw [← List.take_append_drop (encB hdr (pre ++ encBody a ws :: post)).length blk, h6]
    refine ⟨encBody a ws, blk.drop (encB hdr (pre ++ encBody a ws :: post)).length, l, hd, hfit, step _ ?_, hl, ?_, hlen⟩
    · simp only
      rw [if_neg (by rw [hb2, hsp]; simp), if_neg (by rw [List.length_append]; omega), h1, Option.bind_some, newAddress, if_pos ha1, hser, Option.bind_some,
        List.take_left, hsz.1, h5, ← hbk]
      rfl
    · rw [← hbk]
      have := replaceMessage_length h5
      omega
  · intro hst
    have := s3 hst
    subst this
    exact ⟨some o, step _ rfl⟩

/-- **C93.**  Without a matching message it is an error, and nothing is evaluated. -/
theorem C93_missing {a : Bytes} {ai ad : Arg} (hf : st.exprs[f]? = some ⟨.assignToIndex, [.addr a, ai, ad]⟩)
    (h : st.bndl = some (0, none) ∨ ∃ hdr ms, HasBundle st hdr ms ∧ hdr.length = 16 ∧ (0 : UInt8) ∉ a ∧ (∀ m ∈ ms, Fits m ∧ HasAddr m) ∧
      ∀ m ∈ ms, ∀ r, oscMatch a (addrOf m) = some r → r.code ≠ 3) : Evals T env st f (st, 1, none) := by
  refine evals_node.mpr ⟨0, ?_⟩
  rcases h with h | ⟨hdr, ms, ⟨spare, hsp⟩, hh, ha, hm, hn⟩
  · simp only [evalNode, hf, assignToIndexNode, h]
    rfl
  · simp only [evalNode, hf, assignToIndexNode, hsp]
    rw [lookup_none hdr ms a spare hh ha hm hn]
    rfl

/-! ### Concrete cases -/

/-- The messages `/s: "/xy"` and `/xy: 1, 2`. -/
def elemMs : List Bytes := [encBody (n! "/s") [(115, padStr (n! "/xy"))], encBody (n! "/xy") [(105, be32 1), (105, be32 2)]]

/-- A bundle with these messages, and the expressions `value("/xy")`, `value("/z")`, `/xy[[1]] = 5`, `/x*[[1]] = 5` and `/z[[0]] = 5`. -/
def elemSt : St := { recs := [], envs := [], bndl := some ((encB plainHeader elemMs).length, some (encB plainHeader elemMs)), exprs := [
    ⟨.value, [.atom (strAtom (n! "/xy"))]⟩, ⟨.value, [.atom (strAtom (n! "/z"))]⟩,
    ⟨.assignToIndex, [.addr (n! "/xy"), .atom (some (.mk 105 false (.bits 1))), .atom (some (.mk 105 false (.bits 5)))]⟩,
    ⟨.assignToIndex, [.addr (n! "/x*"), .atom (some (.mk 105 false (.bits 1))), .atom (some (.mk 105 false (.bits 5)))]⟩,
    ⟨.assignToIndex, [.addr (n! "/z"), .atom (some (.mk 105 false (.bits 0))), .atom (some (.mk 105 false (.bits 5)))]⟩] }

theorem elem_msgs : HasBundle elemSt plainHeader elemMs ∧ Small elemSt ∧ ∀ m ∈ elemMs, Fits m ∧ WFMsg m := by
  refine ⟨⟨[], rfl⟩, ?_, fun m hm => ?_⟩
  · rintro len buf h
    simp only [elemSt, Option.some.injEq, Prod.mk.injEq] at h
    rw [← h.2]
    decide +kernel
  · simp only [elemMs, List.mem_cons, List.not_mem_nil, or_false] at hm
    rcases hm with rfl | rfl
    · have : Fits (encBody (n! "/s") [(115, padStr (n! "/xy"))]) := by unfold Fits; decide +kernel
      exact ⟨this, encBody_wf _ _ (by decide) this⟩
    · have : Fits (encBody (n! "/xy") [(105, be32 1), (105, be32 2)]) := by unfold Fits; decide +kernel
      exact ⟨this, encBody_wf _ _ (by decide) this⟩

theorem elem_xy : EncMsg (.mk (some (n! "/xy")) [.num 105 1, .num 105 2]) (encMsg (encBody (n! "/xy") [(105, be32 1), (105, be32 2)])) := by
  simp only [EncMsg]
  refine ⟨_, ?_, rfl⟩
  simp only [EncArgs]
  exact ⟨_, _, rfl, ⟨rfl, .inr (.inr (.inl ⟨by simp, by simp, rfl⟩))⟩, _, _, rfl, ⟨rfl, .inr (.inr (.inl ⟨by simp, by simp, rfl⟩))⟩, rfl⟩

theorem elem_first (q : Bytes) (c : Option Match.Res) (h : oscMatch q (addrOf (encBody (n! "/s") [(115, padStr (n! "/xy"))])) = c)
    (hc : ∀ r, c = some r → r.code ≠ 3) : ∀ x ∈ [encBody (n! "/s") [(115, padStr (n! "/xy"))]], ∀ r, oscMatch q (addrOf x) = some r → r.code ≠ 3 := by
  intro x hx r hr
  rw [List.mem_singleton] at hx
  subst hx
  exact hc r (h.symm.trans hr)

-- `value("/xy")` gives the values of `/xy`
example : ∃ l, Evals noTab none elemSt 0 (elemSt, 0, some l) ∧ Holds (some l) [.num 105 1, .num 105 2] :=
  C92_value (T := noTab) (env := none) (st := elemSt) (f := 0) (st1 := elemSt) (s := n! "/xy") (ws := []) rfl (by simp [elemSt]) ⟨0, rfl⟩ rfl
    elem_msgs.1 elem_msgs.2.1 (by decide) (by decide) elem_msgs.2.2
    [encBody (n! "/s") [(115, padStr (n! "/xy"))]] _ [] _ (n! "/xy") [.num 105 1, .num 105 2] rfl (by decide +kernel : _ = some ⟨3, 3, 3⟩) rfl
    (elem_first _ (some ⟨0, 0, 0⟩) (by decide +kernel) (by simp)) elem_xy (by decide) (by simp [GoodVals, GoodVal])

-- `value("/z")` gives nothing
example : Evals noTab none elemSt 1 (elemSt, 0, none) :=
  C92_value_none (T := noTab) (env := none) (st := elemSt) (f := 1) (st1 := elemSt) (us := [.str (n! "/z")]) rfl (by simp [elemSt]) ⟨0, rfl⟩ rfl
    (.inr ⟨n! "/z", [], rfl, by decide, .inr ⟨plainHeader, elemMs, elem_msgs.1, by decide, fun m hm => ⟨(elem_msgs.2.2 m hm).1, (elem_msgs.2.2 m hm).2.hasAddr⟩,
      fun m hm r hr => by
        have : ∀ m ∈ elemMs, (oscMatch (n! "/z") (addrOf m)).map (·.code) = some 0 := by decide +kernel
        have := this m hm
        rw [hr] at this
        simp only [Option.map_some, Option.some.injEq] at this
        omega⟩⟩)

-- `/xy[[1]] = 5` leaves `/xy: 1, 5`, and so does `/x*[[1]] = 5`, but with the pattern as address
theorem elem_store (f : Nat) (a : Bytes) (ha : (f = 2 ∧ a = n! "/xy") ∨ (f = 3 ∧ a = n! "/x*")) :
    ∃ m' spare l, EncMsg (.mk (some a) [.num 105 1, .num 105 5]) (encMsg m') ∧ Fits m' ∧
      Evals noTab none elemSt f ({ elemSt with bndl := some (((encB plainHeader [encBody (n! "/s") [(115, padStr (n! "/xy"))], m']).length : Int),
        some (encB plainHeader [encBody (n! "/s") [(115, padStr (n! "/xy"))], m'] ++ spare)) }, 0, some l) ∧ Holds (some l) [.num 105 1, .num 105 5] := by
  rcases ha with ⟨rfl, rfl⟩ | ⟨rfl, rfl⟩
  · obtain ⟨m', spare, l, h1, h2, h3, h4, -⟩ := (C93_store (T := noTab) (env := none) (st := elemSt) (f := 2) (st1 := elemSt) (st2 := elemSt)
      (ixs := [(.i32, 1)]) (ds := [.num 105 5]) rfl elem_msgs.1 elem_msgs.2.1 (by decide) (by decide) rfl elem_msgs.2.2
      [encBody (n! "/s") [(115, padStr (n! "/xy"))]] _ [] _ (n! "/xy") [.num 105 1, .num 105 2] rfl (by decide +kernel : _ = some ⟨3, 3, 3⟩) rfl
      (elem_first _ (some ⟨0, 0, 0⟩) (by decide +kernel) (by simp)) elem_xy (by decide) (by simp [GoodVals, GoodVal]) (by simp [Copyable, sizeVal])
      ⟨0, rfl⟩ rfl ⟨0, rfl⟩ rfl rfl (by simp; decide) rfl (by simp [Copyable, sizeVal]) [1] rfl [.num 105 1, .num 105 5] rfl).1
        ⟨by simp, by simp, by simp⟩ (by decide)
    exact ⟨m', spare, l, h1, h2, h3, h4⟩
  · obtain ⟨m', spare, l, h1, h2, h3, h4, -⟩ := (C93_store (T := noTab) (env := none) (st := elemSt) (f := 3) (st1 := elemSt) (st2 := elemSt)
      (ixs := [(.i32, 1)]) (ds := [.num 105 5]) rfl elem_msgs.1 elem_msgs.2.1 (by decide) (by decide) rfl elem_msgs.2.2
      [encBody (n! "/s") [(115, padStr (n! "/xy"))]] _ [] _ (n! "/xy") [.num 105 1, .num 105 2] rfl (by decide +kernel : _ = some ⟨3, 3, 3⟩) rfl
      (elem_first _ (some ⟨0, 0, 0⟩) (by decide +kernel) (by simp)) elem_xy (by decide) (by simp [GoodVals, GoodVal]) (by simp [Copyable, sizeVal])
      ⟨0, rfl⟩ rfl ⟨0, rfl⟩ rfl rfl (by simp; decide) rfl (by simp [Copyable, sizeVal]) [1] rfl [.num 105 1, .num 105 5] rfl).1
        ⟨by simp, by simp, by simp⟩ (by decide)
    exact ⟨m', spare, l, h1, h2, h3, h4⟩

/-- The claim that the message keeps its address. -/
def C93_address_full : Prop :=
  ∀ (T : Tab) (env : Option Nat) (st st' : St) (f : Nat) (a : Bytes) (ai ad : Arg) (out : Ar) (hdr : Bytes) (ms ms' : List Bytes),
    st.exprs[f]? = some ⟨.assignToIndex, [.addr a, ai, ad]⟩ → HasBundle st hdr ms → Small st → hdr.length = 16 → (∀ m ∈ ms, Fits m ∧ WFMsg m) →
    Evals T env st f (st', 0, out) → HasBundle st' hdr ms' → (∀ m ∈ ms', Fits m ∧ WFMsg m) → ms'.map addrOf = ms.map addrOf

/-- **C93 (the full claim is false).**  When `/a` is a pattern, the message gets the pattern as its address. -/
theorem C93_address_fails : ¬ C93_address_full := by
  intro h
  obtain ⟨m', spare, l, h1, h2, h3, -⟩ := elem_store 3 (n! "/x*") (.inr ⟨rfl, rfl⟩)
  obtain ⟨ws, hw, e⟩ : ∃ ws, EncArgs [.num 105 1, .num 105 5] ws ∧ encMsg m' = encMsg (encBody (n! "/x*") ws) := by simpa only [EncMsg] using h1
  have e : m' = encBody (n! "/x*") ws := (List.append_inj e (by simp)).2
  subst e
  have hwf := encBody_wf (n! "/x*") ws (by decide) h2
  have k := h noTab none elemSt _ 3 _ _ _ _ plainHeader elemMs _ rfl elem_msgs.1 elem_msgs.2.1 (by decide) elem_msgs.2.2 h3 ⟨spare, rfl⟩ (fun m hm => by
    rcases List.mem_cons.mp hm with rfl | hm
    · exact elem_msgs.2.2 _ (by simp [elemMs])
    · rw [List.mem_singleton] at hm
      subst hm
      exact ⟨h2, hwf⟩)
  simp only [elemMs, List.map_cons, List.map_nil, List.cons.injEq, and_true, true_and, addrOf_encBody (n! "/x*") ws (by decide) h2] at k
  exact absurd k (by decide +kernel)

/-! ### `quote` -/

/-- `quote` gives its argument without evaluating anything. -/
theorem C61_quote {y : UAtom} {rest : List Arg} {v : Val} (hf : st.exprs[f]? = some ⟨.quote, .atom (some y) :: rest⟩) (hy : y.val = some v)
    (hc : Copyable v) : ∃ out, Evals T env st f (st, 0, some out) ∧ Holds (some out) [v] := by
  obtain ⟨out, h1, h2⟩ := mk1_copy (some y) v hy hc
  exact ⟨out, evals_now (by simp only [evalNode, hf, quoteNode, h1, Option.map_some]), h2⟩

/-- Something that is not a value, which the parser never makes, gives no value and no error. -/
theorem C61_quote_other {a0 : Arg} {rest : List Arg} (hf : st.exprs[f]? = some ⟨.quote, a0 :: rest⟩) (ha : ∀ y, a0 ≠ .atom y) :
    Evals T env st f (st, 0, none) := by
  refine evals_now ?_
  cases a0 with
  | atom y => exact absurd rfl (ha y)
  | _ => simp only [evalNode, hf, quoteNode]

-- `quote(5)` gives 5
example : ∃ out, Evals noTab none { elemSt with exprs := [⟨.quote, [.atom (some (.mk 105 false (.bits 5)))]⟩] } 0
    ({ elemSt with exprs := [⟨.quote, [.atom (some (.mk 105 false (.bits 5)))]⟩] }, 0, some out) ∧ Holds (some out) [.num 105 5] :=
  C61_quote rfl rfl (by simp [Copyable, sizeVal])

-- `quote` of an address gives nothing
example : Evals noTab none { elemSt with exprs := [⟨.quote, [.addr (n! "/x")]⟩] } 0
    ({ elemSt with exprs := [⟨.quote, [.addr (n! "/x")]⟩] }, 0, none) :=
  C61_quote_other rfl (by simp)

end Libo.Props
