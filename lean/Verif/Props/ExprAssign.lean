import Verif.ExprBndl
import Verif.Props.ExprIf
import Verif.Props.MsgS
/-!
# C37: assignment
-/

namespace Libo.Props
open Libo Libo.Expr Libo.Match

variable {T : Tab} {env : Option Nat} {st st1 st2 : St} {f : Nat}

/-- The bundle is NULL. -/
def NullBundle (st : St) : Prop := st.bndl = some (0, none)

/-- `ms'` is `ms` with the address `a` bound by message `m`, at the position of the first message to `a`, or at the end. -/
def Bound (a m : Bytes) (ms ms' : List Bytes) : Prop :=
  ((∀ x ∈ ms, addrOf x ≠ a) ∧ ms' = ms ++ [m]) ∨
  ∃ pre x post, ms = pre ++ x :: post ∧ addrOf x = a ∧ (∀ y ∈ pre, addrOf y ≠ a) ∧ ms' = pre ++ m :: post

theorem bound_putFirst (a m : Bytes) : ∀ ms, Bound a m ms (putFirst a m ms)
  | [] => .inl ⟨by simp, rfl⟩
  | x :: xs => by
    by_cases hx : addrOf x = a
    · exact .inr ⟨[], x, xs, rfl, hx, by simp, by simp [putFirst, hx]⟩
    · rw [putFirst, if_neg hx]
      rcases bound_putFirst a m xs with ⟨h, e⟩ | ⟨pre, y, post, e, hy, hp, e'⟩
      · refine .inl ⟨fun z hz => ?_, by rw [e]; rfl⟩
        rcases List.mem_cons.mp hz with rfl | hz
        · exact hx
        · exact h z hz
      · refine .inr ⟨x :: pre, y, post, by rw [e]; rfl, hy, fun z hz => ?_, by rw [e']; rfl⟩
        rcases List.mem_cons.mp hz with rfl | hz
        · exact hx
        · exact hp z hz

/-- What `Bound` means for the other messages, and for the address when the messages have different ones. -/
theorem bound_spec {a m : Bytes} {ms ms' : List Bytes} (h : Bound a m ms ms') (hm : addrOf m = a) :
    m ∈ ms' ∧ (∀ (i : Nat) x, ms[i]? = some x → addrOf x ≠ a → ms'[i]? = some x) ∧
    ms'.filter (fun x => addrOf x ≠ a) = ms.filter (fun x => addrOf x ≠ a) ∧
    ((ms.map addrOf).Nodup → ms'.filter (fun x => addrOf x = a) = [m] ∧ (ms'.map addrOf).Nodup) := by
  rcases h with ⟨h, rfl⟩ | ⟨pre, x, post, rfl, hx, hp, rfl⟩
  · refine ⟨by simp, fun i x hi _ => ?_, by simp [hm], fun hn => ⟨?_, ?_⟩⟩
    · rw [List.getElem?_append_left (List.getElem?_eq_some_iff.mp hi).1, hi]
    · rw [List.filter_append, List.filter_eq_nil_iff.mpr (fun x hx => by simpa using h x hx)]
      simp [hm]
    · rw [List.map_append, List.nodup_append]
      refine ⟨hn, by simp, fun x hx y hy => ?_⟩
      obtain ⟨z, hz, rfl⟩ := List.mem_map.mp hx
      simp only [List.map_cons, List.map_nil, List.mem_singleton] at hy
      rw [hy, hm]; exact h z hz
  · refine ⟨by simp, fun i y hi hy => ?_, by simp [hm, hx], fun hn => ⟨?_, ?_⟩⟩
    · rcases Nat.lt_trichotomy i pre.length with hlt | rfl | hlt
      · rw [List.getElem?_append_left hlt] at hi ⊢; exact hi
      · rw [List.getElem?_append_right (Nat.le_refl _), Nat.sub_self] at hi
        injection hi with hi
        exact absurd hx (hi ▸ hy)
      · rw [List.getElem?_append_right (by omega)] at hi ⊢
        obtain ⟨k, hk⟩ : ∃ k, i - pre.length = k + 1 := ⟨i - pre.length - 1, by omega⟩
        rw [hk] at hi ⊢; exact hi
    · have hpost : ∀ y ∈ post, addrOf y ≠ a := by
        rw [List.map_append, List.map_cons, List.nodup_append, List.nodup_cons] at hn
        intro y hy e
        exact hn.2.1.1 (by rw [hx, ← e]; exact List.mem_map_of_mem hy)
      rw [List.filter_append, List.filter_eq_nil_iff.mpr (fun x hx => by simpa using hp x hx), List.nil_append,
        List.filter_cons, if_pos (by simpa using hm), List.filter_eq_nil_iff.mpr (fun x hx => by simpa using hpost x hx)]
    · rw [List.map_append, List.map_cons] at hn ⊢
      rw [hm, ← hx]; exact hn

/-- The value of the first argument of an assignment as an address. -/
def Targets (T : Tab) (env : Option Nat) (st : St) (a0 : Arg) (st' : St) (a : Bytes) : Prop :=
  ∃ n, target (run T n) env st (some a0) = some (st', .ok a)

theorem assign_mono {n k : Nat} {st : St} {args : List Arg} (h : n ≤ k) :
    Le (assignNode (run T n) env st args) (assignNode (run T k) env st args) := assignNode_mono (run_mono T h) _ _ _

theorem assign_evals {a0 rhs : Arg} {rest : List Arg} {a : Bytes} {code : Int} {v : Ar} {st0 : St}
    (hf : st.exprs[f]? = some ⟨.assign, a0 :: rhs :: rest⟩) (hb : st.bndl ≠ none) (ht : Targets T env st a0 st0 a)
    (hv : ValidName a) (hr : ArgEvals T env st0 rhs (st1, code, v)) {r : St × Int × Ar}
    (h : (if code ≠ 0 then some (st1, code, v) else match st1.bndl with
        | none => none
        | some b => (putMsg b a (v.getD [])).map fun b' => ({ st1 with bndl := some b' }, 0, v)) = some r) :
    Evals T env st f r := by
  obtain ⟨n, hn⟩ := ht
  obtain ⟨k, hk⟩ := hr
  have h1 := target_mono (le_max_run n k) _ _ _ _ hn
  have h2 := evalArg_mono (le_max_run' n k) _ _ _ _ hk
  refine evals_node.mpr ⟨max n k, ?_⟩
  simp only [evalNode, hf, assignNode]
  rw [if_neg (by cases hq : st.bndl with | none => exact absurd hq hb | some _ => simp)]
  simp only [List.getElem?_cons_zero, List.getElem?_cons_succ, h1, h2, Option.bind_some, (validateAddress_iff a).mpr hv]
  rw [if_neg (by simp)]
  exact h

/-- An address is its own target. -/
theorem targets_addr (a : Bytes) : Targets T env st (.addr a) st a := ⟨0, rfl⟩

/-- Otherwise the value of the argument, which has to be a string, is the address (an expression other than `value`). -/
theorem targets_eval {a0 : Arg} {a : Bytes} {v : Ar} {vs : List Val} (h1 : ∀ s, a0 ≠ .addr s)
    (h2 : ∀ e nd, a0 = .expr e → st.exprs[e]? = some nd → nd.fn ≠ .value) (h3 : ∀ e, a0 = .expr e → e < st.exprs.length)
    (h : ArgEvals T env st a0 (st1, 0, v)) (hv : Holds v (.str a :: vs)) : Targets T env st a0 st1 a := by
  obtain ⟨n, hn⟩ := h
  obtain ⟨x, hx, hxv⟩ := holds_at hv (i := 0) rfl
  refine ⟨n, ?_⟩
  have key : ((if (none : Ar).isNone then evalArg (run T n) env st (some a0) else some (st, 0, none) : EvRes).bind fun q =>
      if q.2.1 = UNBOUND then some (q.1, .error UNBOUND)
      else match q.2.2 with
      | none => some (q.1, .error 1)
      | some l =>
        if tagOf l[0]? ≠ 115 then some (q.1, .error 1)
        else (strOf l[0]?).map fun s => (q.1, .ok s)) = some (st1, Except.ok a) := by
    simp only [Option.isNone_none, if_true, hn, Option.bind_some]
    rw [if_neg (by decide)]
    cases v with
    | none => cases hx
    | some l =>
      have hl : l[0]? = some x := hx
      simp only [hl]
      obtain ⟨tag, al, w⟩ := x
      rcases val_eq tag al w _ hxv with ⟨-, h2⟩ | ⟨-, h2⟩ | ⟨-, h2⟩ | ⟨-, h2⟩ | ⟨-, h2⟩ | ⟨rfl, p, s', rfl, h2⟩ |
        ⟨-, p, blk, l, c, -, -, -, h2⟩ | ⟨-, p, ms, vs, -, -, h2⟩ | ⟨h2, -⟩ <;> simp at h2
      subst h2
      rfl
  cases a0 with
  | addr s => exact absurd rfl (h1 s)
  | expr e =>
    obtain ⟨nd, hnd⟩ : ∃ nd, st.exprs[e]? = some nd := ⟨_, List.getElem?_eq_getElem (h3 e rfl)⟩
    have hfn := h2 e nd rfl hnd
    obtain ⟨fn, args⟩ := nd
    simp only [target, hnd]
    cases fn <;> first | exact absurd rfl hfn | exact key
  | atom x => exact key
  | list x => exact key
  | func x => exact key
  | blank => exact key

/-- **C37**, stated for bundles in which no address occurs twice.  After `a0 = rhs` where the target is the valid address `a`
and the right side has the values `vs`: the values are the result; the bundle is the one that was there after evaluating the
right side (with the same time tag), with `a` bound by one message with these values at its old position, or at the end when
new; and every other message is the same.  Nothing else in the memory has changed.  A NULL bundle counts as an empty one. -/
theorem C37_assign_partial {a0 rhs : Arg} {rest : List Arg} {a : Bytes} {v : Ar} {vs : List Val} {st0 : St}
    (hf : st.exprs[f]? = some ⟨.assign, a0 :: rhs :: rest⟩) (hb : st.bndl ≠ none) (ht : Targets T env st a0 st0 a)
    (hn : ValidName a) (h0 : (0 : UInt8) ∉ a) (hr : ArgEvals T env st0 rhs (st1, 0, v)) (hv : Holds v vs)
    (hc : ∀ x ∈ vs, Copyable x) (hs : sizeVMsg (.mk (some a) vs) < 2147483648) :
    (∀ hdr ms, HasBundle st1 hdr ms → hdr.length = 16 → (∀ m ∈ ms, Fits m ∧ HasAddr m) →
      ∃ b m ms', Evals T env st f ({ st1 with bndl := b }, 0, v) ∧ HasBundle { st1 with bndl := b } hdr ms' ∧
        EncMsg (.mk (some a) vs) (encMsg m) ∧ Fits m ∧ addrOf m = a ∧ HasAddr m ∧ Bound a m ms ms') ∧
    (NullBundle st1 → ∃ b m, Evals T env st f ({ st1 with bndl := b }, 0, v) ∧ HasBundle { st1 with bndl := b } plainHeader [m] ∧
        EncMsg (.mk (some a) vs) (encMsg m) ∧ Fits m ∧ addrOf m = a ∧ HasAddr m) := by
  have enc : ∀ m, EncMsg (.mk (some a) vs) (encMsg m) → Fits m → addrOf m = a ∧ HasAddr m := by
    intro m hm hfit
    obtain ⟨ws, hw, e⟩ : ∃ ws, EncArgs vs ws ∧ encMsg m = encMsg (encBody a ws) := by simpa only [EncMsg] using hm
    have e : m = encBody a ws := (List.append_inj e (by simp)).2
    subst e
    exact ⟨addrOf_encBody a ws h0 hfit, hasAddr_encBody a ws hfit⟩
  constructor
  · rintro hdr ms ⟨spare, hsp⟩ hh hfm
    obtain ⟨m, spare', h1, h2, h3, -⟩ := putMsg_spec hdr ms spare a (v.getD []) vs hh hfm hv hc hs
    refine ⟨_, m, putFirst a m ms, assign_evals hf hb ht hn hr ?_, ⟨spare', rfl⟩, h1, h2, (enc m h1 h2).1, (enc m h1 h2).2, bound_putFirst a m ms⟩
    rw [if_neg (by simp), hsp]
    simp only [h3, Option.map_some]
  · intro hnull
    obtain ⟨m, spare', h1, h2, -, h3, -⟩ := putMsg_spec plainHeader [] [] a (v.getD []) vs (by decide) (by simp) hv hc hs
    refine ⟨_, m, assign_evals hf hb ht hn hr ?_, ⟨[], rfl⟩, h1, h2, (enc m h1 h2).1, (enc m h1 h2).2⟩
    rw [if_neg (by simp), hnull]
    simp only [h3, Option.map_some, List.append_nil]

/-- **C37**, errors: when the right side fails its code is the result, and memory and bundle are as it left them. -/
theorem C37_error {a0 rhs : Arg} {rest : List Arg} {a : Bytes} {v : Ar} {code : Int} {st0 : St}
    (hf : st.exprs[f]? = some ⟨.assign, a0 :: rhs :: rest⟩) (hb : st.bndl ≠ none) (ht : Targets T env st a0 st0 a)
    (hn : ValidName a) (hr : ArgEvals T env st0 rhs (st1, code, v)) (hc : code ≠ 0) : Evals T env st f (st1, code, v) :=
  assign_evals hf hb ht hn hr (by rw [if_pos hc])

/-- **C37**, errors: an invalid address (no slash, nothing after it, a blank or `#`) is refused before the right side is
evaluated. -/
theorem C37_invalid {a0 : Arg} {rest : List Arg} {a : Bytes} {st0 : St}
    (hf : st.exprs[f]? = some ⟨.assign, a0 :: rest⟩) (hb : st.bndl ≠ none) (ht : Targets T env st a0 st0 a)
    (hn : ¬ ValidName a) : ∃ code, code ≠ 0 ∧ Evals T env st f (st0, code, none) := by
  obtain ⟨n, hn'⟩ := ht
  have hc : MsgS.validateAddress a ≠ 0 := fun h => hn ((validateAddress_iff a).mp h)
  refine ⟨MsgS.validateAddress a, by omega, evals_node.mpr ⟨n, ?_⟩⟩
  simp only [evalNode, hf, assignNode]
  rw [if_neg (by cases hq : st.bndl with | none => exact absurd hq hb | some _ => simp)]
  simp only [List.getElem?_cons_zero, hn', Option.bind_some]
  rw [if_pos hc]

/-! ## Reading -/

/-- The block of the bundle is smaller than 2 GB. -/
def Small (st : St) : Prop := ∀ len buf, st.bndl = some (len, some buf) → buf.length < 2147483648

/-- **C47**: an address (possibly a pattern) as an argument has the values of the first message it matches completely; if there is
none the result is the code for an unbound address.  Nothing is changed. -/
theorem C47_read {hdr : Bytes} {ms : List Bytes} {q : Bytes} (hB : HasBundle st hdr ms) (hS : Small st) (hh : hdr.length = 16)
    (hq : (0 : UInt8) ∉ q) (hf : ∀ m ∈ ms, Fits m ∧ HasAddr m) :
    ((∀ m ∈ ms, ∀ r, oscMatch q (addrOf m) = some r → r.code ≠ 3) → ArgEvals T env st (.addr q) (st, UNBOUND, none)) ∧
    (∀ pre m post r a vs, ms = pre ++ m :: post → oscMatch q (addrOf m) = some r → r.code = 3 →
      (∀ x ∈ pre, ∀ r, oscMatch q (addrOf x) = some r → r.code ≠ 3) → EncMsg (.mk (some a) vs) (encMsg m) → (0 : UInt8) ∉ a →
      GoodVals vs → ∃ l, ArgEvals T env st (.addr q) (st, 0, some l) ∧ Holds (some l) vs) := by
  obtain ⟨spare, hsp⟩ := hB
  have hS' := hS _ _ hsp
  constructor
  · intro h
    refine ⟨0, ?_⟩
    simp only [evalArg, readAddr, hsp]
    split
    · rfl
    · rcases C18_first hdr ms q hh hq hf with ⟨h1, -⟩ | ⟨pre, m, post, r, rfl, hr, h3, -⟩
      · rw [getFirstFullMatch_le _ _ spare _ _ h1]; rfl
      · exact absurd h3 (h m (by simp) r hr)
  · rintro pre m post r a vs rfl hr hr3 hpre hm h0 hg
    rcases C18_first hdr _ q hh hq hf with ⟨-, h1⟩ | ⟨pre', m', post', r', e, hr', hr3', hpre', h1⟩
    · exact absurd hr3 (h1 m (by simp) r hr)
    · have hsame : pre = pre' ∧ m = m' := by
        clear h1 hS' hsp hf
        induction pre generalizing pre' with
        | nil =>
          cases pre' with
          | nil => simp only [List.nil_append, List.cons.injEq] at e; exact ⟨rfl, e.1⟩
          | cons y pre' =>
            simp only [List.nil_append, List.cons_append, List.cons.injEq] at e
            exact absurd hr3 (hpre' m (by simp [e.1]) r hr)
        | cons x pre ih =>
          cases pre' with
          | nil =>
            simp only [List.nil_append, List.cons_append, List.cons.injEq] at e
            exact absurd hr3' (hpre m' (by simp [e.1]) r' hr')
          | cons y pre' =>
            simp only [List.cons_append, List.cons.injEq] at e
            have := ih (fun z hz => hpre z (by simp [hz])) pre' e.2 (fun z hz => hpre' z (by simp [hz]))
            rw [e.1, this.1]; exact ⟨rfl, this.2⟩
      obtain ⟨rfl, rfl⟩ := hsame
      have eb : encB hdr (pre ++ m :: post) ++ spare = encB hdr pre ++ encMsg m ++ (encMsgs post ++ spare) := by simp [encB]
      obtain ⟨l, h2, h3⟩ := readMsg_spec (encB hdr pre) (encMsgs post ++ spare) a vs m hm h0 hg (by rw [← eb]; exact hS')
      refine ⟨l, ⟨0, ?_⟩, h3⟩
      simp only [evalArg, readAddr, hsp]
      rw [if_neg, getFirstFullMatch_le _ _ spare _ _ h1, Option.bind_some]
      · simp only
        rw [eb, h2]
        rfl
      · simp only [encB, encMsgs_append, encMsgs_cons, List.length_append, encMsg_length, hh]
        omega

/-- **C37**, reading back: after an assignment to a plain address, among messages whose addresses start with a slash and have no
star, the address has the assigned values. -/
theorem C37_read_back {a m : Bytes} {hdr : Bytes} {ms ms' : List Bytes} {vs : List Val} (hB : HasBundle st hdr ms') (hS : Small st)
    (hh : hdr.length = 16) (hbd : Bound a m ms ms') (hm : EncMsg (.mk (some a) vs) (encMsg m)) (hma : addrOf m = a)
    (hm1 : Fits m ∧ HasAddr m) (hp : Plain a) (hsl : a.head? = some 47)
    (hf : ∀ x ∈ ms, Fits x ∧ HasAddr x ∧ (addrOf x).head? = some 47 ∧ (42 : UInt8) ∉ addrOf x) (hg : GoodVals vs) :
    ∃ l, ArgEvals T env st (.addr a) (st, 0, some l) ∧ Holds (some l) vs := by
  have h0 : (0 : UInt8) ∉ a := fun h => (hp 0 h).1 rfl
  have hstar : (42 : UInt8) ∉ a := fun h => (hp 42 h).2.2.1 rfl
  obtain ⟨pre, post, rfl, hpre, hall⟩ : ∃ pre post, ms' = pre ++ m :: post ∧ (∀ y ∈ pre, y ∈ ms ∧ addrOf y ≠ a) ∧ ∀ y ∈ post, y ∈ ms := by
    rcases hbd with ⟨h, rfl⟩ | ⟨pre, x, post, rfl, hx, hp, rfl⟩
    · exact ⟨ms, [], rfl, fun y hy => ⟨hy, h y hy⟩, by simp⟩
    · exact ⟨pre, post, rfl, fun y hy => ⟨by simp [hy], hp y hy⟩, fun y hy => by simp [hy]⟩
  have hfs : ∀ x ∈ pre ++ m :: post, Fits x ∧ HasAddr x := by
    intro x hx
    rcases List.mem_append.mp hx with hx | hx
    · exact ⟨(hf x (hpre x hx).1).1, (hf x (hpre x hx).1).2.1⟩
    · rcases List.mem_cons.mp hx with rfl | hx
      · exact hm1
      · exact ⟨(hf x (hall x hx)).1, (hf x (hall x hx)).2.1⟩
  obtain ⟨r, hr, hr3⟩ := (C12_plain_equality a a hp hsl h0 hsl hstar).mpr rfl
  refine (C47_read hB hS hh h0 hfs).2 pre m post r a vs rfl (by rw [hma]; exact hr) hr3 (fun x hx r hr h3 => ?_) hm h0 hg
  have hx' := hf x (hpre x hx).1
  exact (hpre x hx).2 ((C12_plain_equality a (addrOf x) hp hsl (addrOf_noNul x) hx'.2.2.1 hx'.2.2.2).mp ⟨r, hr, h3⟩).symm

/-! ## Duplicates -/

/-- **C37, full statement**: whatever messages the bundle has, after an assignment the address is there once. -/
def C37_full : Prop := ∀ (T : Tab) (st : St) (f : Nat) (a : Bytes) (x : UAtom) (hdr : Bytes) (ms : List Bytes) (r : St × Int × Ar),
  st.exprs[f]? = some ⟨.assign, [.addr a, .atom (some x)]⟩ → ValidName a → HasBundle st hdr ms → hdr.length = 16 →
  (∀ m ∈ ms, Fits m ∧ HasAddr m) → Evals T none st f r →
  ∃ ms', HasBundle r.1 hdr ms' ∧ (∀ m ∈ ms', Fits m) ∧ (ms'.filter fun m => addrOf m = a).length = 1

theorem encMsgs_inj : ∀ (ms ms' : List Bytes), (∀ m ∈ ms, Fits m) → (∀ m ∈ ms', Fits m) → encMsgs ms = encMsgs ms' → ms = ms'
  | [], [], _, _, _ => rfl
  | [], m :: ms', _, _, h => by
    have := congrArg List.length h
    simp only [encMsgs_cons, List.length_append, encMsg_length] at this
    simp [encMsgs] at this
    try omega
  | m :: ms, [], _, _, h => by
    have := congrArg List.length h
    simp only [encMsgs_cons, List.length_append, encMsg_length] at this
    simp [encMsgs] at this
    try omega
  | m :: ms, m' :: ms', h1, h2, h => by
    rw [encMsgs_cons, encMsgs_cons] at h
    have hm := h1 m (by simp)
    have hm' := h2 m' (by simp)
    have hl : m.length = m'.length := by
      have e1 := rdI32_at [] m (encMsgs ms) hm
      have e2 := rdI32_at [] m' (encMsgs ms') hm'
      simp only [List.nil_append, List.length_nil] at e1 e2
      rw [h, e2] at e1
      injection e1 with e1
      omega
    obtain ⟨e1, e2⟩ := List.append_inj h (by rw [encMsg_length, encMsg_length, hl])
    rw [(List.append_inj e1 (by simp)).2, encMsgs_inj ms ms' (fun x hx => h1 x (by simp [hx])) (fun x hx => h2 x (by simp [hx])) e2]

/-- `/foo = 1` on a bundle with two messages to `/foo`. -/
def dupSt : St := { exprs := [⟨.assign, [.addr (b "/foo"), .atom (some (.mk 105 false (.bits 1)))]⟩], recs := [], envs := [],
                    bndl := some ((encB exHdr [exFoo2, exFoo2]).length, some (encB exHdr [exFoo2, exFoo2])) }

def dupRes : Option (Int × Option Bytes) := some ((encB exHdr [exFoo, exFoo2]).length, some (encB exHdr [exFoo, exFoo2]))

theorem dupSt_eval : (run noTab 1 none dupSt 0).map (fun r => r.1.bndl) = some dupRes := by decide +kernel

/-- Only the first of several messages to the address is replaced. -/
theorem C37_full_fails : ¬ C37_full := by
  intro h
  obtain ⟨r, hr, hb⟩ := Option.map_eq_some_iff.mp dupSt_eval
  obtain ⟨ms', ⟨spare, h1⟩, h2, h3⟩ := h noTab dupSt 0 (b "/foo") (.mk 105 false (.bits 1)) exHdr [exFoo2, exFoo2] r rfl
    ⟨b "foo", by decide +kernel, by decide +kernel, by decide +kernel, by decide +kernel⟩ ⟨[], by rw [List.append_nil]; rfl⟩ exHdr_len
    (by unfold Fits HasAddr; decide +kernel) ⟨1, hr⟩
  rw [hb] at h1
  simp only [dupRes, Option.some.injEq, Prod.mk.injEq] at h1
  obtain ⟨h4, h5⟩ := h1
  have h4' : (encB exHdr [exFoo, exFoo2]).length = (encB exHdr ms').length := by omega
  have h6 : encB exHdr [exFoo, exFoo2] = encB exHdr ms' := by
    have := (List.append_inj (s₁ := encB exHdr [exFoo, exFoo2]) (t₁ := []) (by rw [List.append_nil]; exact h5) h4').1
    exact this
  have h7 := encMsgs_inj _ _ (by unfold Fits; decide +kernel) h2 (List.append_inj h6 rfl).2
  rw [← h7] at h3
  exact absurd h3 (by decide +kernel)

/-! ### A concrete case: `/foo = 1` on the example bundle of `Props/BundleS` -/

def asgSt : St := { exprs := [⟨.assign, [.addr (b "/bar"), .atom (some (.mk 105 false (.bits 1)))]⟩], recs := [], envs := [],
                    bndl := some ((encB exHdr [exFoo, exBar]).length, some (encB exHdr [exFoo, exBar])) }

example : HasBundle asgSt exHdr [exFoo, exBar] := ⟨[], by rw [List.append_nil]; rfl⟩
example : ArgEvals noTab none asgSt (.atom (some (.mk 105 false (.bits 1)))) (asgSt, 0, some [.mk 105 false (.bits 1)]) := ⟨0, rfl⟩
example : (([exFoo, exBar].map addrOf).Nodup) := by decide +kernel
example : (run noTab 1 none asgSt 0).map (fun r => r.1.bndl) = some (some (56, some (encB exHdr [exFoo, b "/bar" ++ [0, 0, 0, 0] ++
    b ",i" ++ [0, 0] ++ [0, 0, 0, 1]]))) := by decide +kernel

end Libo.Props
