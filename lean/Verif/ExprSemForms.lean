import Verif.ExprSemApply
import Verif.Props.ExprElems
import Verif.Props.ExprQuery
import Verif.ExprEvalKeeps
/-!
# Lemmas: elements, messages and values by name do what the specification says

Expressions that leave the memory as it is; assignment to elements, `exists`, `delete`, `getmsgcount`, `getaddresses` and `value`.
-/

namespace Libo.Sem
open Libo Libo.Expr Libo.Props Libo.Syn Libo.Match

variable {T : Tab} {ρ : Vars} {B : Binds}

/-! ### Expressions that leave the memory as it is -/

def quietFn : Fn → Bool
  | .prim _ | .cond | .andalso | .orelse | .bound | .exist | .getmsgcount | .getaddresses | .value | .quote => true
  | _ => false

mutual
def Quiet : Tm → Prop
  | .atom _ => True
  | .addr _ => True
  | .app f ts => quietFn f = true ∧ Quiets ts
  | _ => False
def Quiets : List Tm → Prop
  | [] => True
  | t :: ts => Quiet t ∧ Quiets ts
end

/-- The evaluation of these arguments leaves the memory as it is. -/
def Stills (E : Ev) (env : Option Nat) (st : St) (as : List Arg) : Prop := ∀ a ∈ as, Post (evalArg E env st (some a)) fun r => r.1 = st

theorem still_at {E : Ev} {env : Option Nat} {st : St} {as : List Arg} (h : Stills E env st as) (i : Nat) :
    Post (evalArg E env st as[i]?) fun r => r.1 = st := by
  cases hi : as[i]? with
  | none => exact .some rfl
  | some a => exact h a (List.mem_of_getElem? hi)

theorem still_args {E : Ev} {env : Option Nat} {st : St} : ∀ {as : List Arg}, Stills E env st as → Post (evalArgs E env as st) fun r => r.1 = st
  | [], _ => .some rfl
  | a :: as, h => by
    refine .bind (h a (by simp)) fun r hr => ?_
    rw [hr]
    exact .ite (.some rfl) (.map (still_args fun x hx => h x (by simp [hx])) fun _ hq => hq)

theorem still_node {T : Tab} {n : Nat} {env : Option Nat} {st : St} {e : Nat} {f : Fn} {as : List Arg} (hf : quietFn f = true)
    (he : st.exprs[e]? = some ⟨f, as⟩) (h : Stills (run T n) env st as) : Post (run T (n + 1) env st e) fun r => r.1 = st := by
  show Post (evalNode n (run T n) T env st e) _
  simp only [evalNode, he]
  cases f with
  | prim g =>
    refine .bind (still_args h) fun r hr => ?_
    exact .ite (.some hr) (.map .any fun _ _ => hr)
  | cond =>
    refine .ite (.some rfl) (.bind (still_at h 0) fun t ht => .ite (.some ht) (.bind .any fun c _ => .bind (P := fun r => r.1 = st) ?_ fun r hr =>
      .ite (.some hr) (.map .any fun _ _ => hr)))
    rw [ht]
    exact .ite (still_at h 1) (.ite (.ite .none (still_at h 2)) (.some rfl))
  | andalso =>
    refine .ite (.some rfl) (.bind (still_at h 0) fun l hl => .ite (.some hl) (.ite (.ite (.map .any fun _ _ => hl) ?_) (.some hl)))
    rw [hl]
    exact .bind (still_at h 1) fun r hr => .ite (.some hr) (.ite (.map .any fun _ _ => hr) (.some hr))
  | orelse =>
    refine .ite (.some rfl) (.bind (still_at h 0) fun l hl => .ite (.some hl) (.ite (.ite (.map .any fun _ _ => hl) ?_) (.some hl)))
    rw [hl]
    exact .bind (still_at h 1) fun r hr => .ite (.some hr) (.ite (.map .any fun _ _ => hr) (.some hr))
  | bound => exact exists_still h _
  | exist => exact exists_still h _
  | getmsgcount =>
    simp only [getmsgcountNode]
    split
    · exact .some rfl
    · exact .bind .any fun _ _ => .bind .any fun _ _ => .map .any fun _ _ => rfl
  | getaddresses =>
    simp only [getaddressesNode]
    split
    · exact .some rfl
    · refine .ite ?_ (.bind (still_at h 0) fun q hq => ?_)
      · split
        · exact .ite (.some rfl) .none
        · exact .bind .any fun _ _ => .map .any fun _ _ => rfl
      · split
        · exact .some hq
        · split
          · refine .ite ?_ (.some hq)
            split
            · exact .map .any fun _ _ => hq
            · exact .none
          · exact .some hq
  | value =>
    simp only [valueNode]
    refine .ite (.some rfl) (.bind (still_at h 0) fun q hq => .ite (.some hq) (.ite (.bind .any fun s _ => ?_) (.some hq)))
    split
    · exact .none
    · exact .ite (.some hq) .none
    · refine .bind .any fun vs _ => ?_
      split
      · exact .some hq
      · exact .bind .any fun _ _ => .ite .none (.map .any fun _ _ => hq)
  | quote =>
    simp only [quoteNode]
    split
    · exact .map .any fun _ _ => rfl
    · exact .some rfl
    · exact .none
  | _ => cases hf
where
  exists_still {E : Ev} {env : Option Nat} {st : St} {as : List Arg} (h : Stills E env st as) (test : Int → Bytes → Bytes → Bool → Option Bool) :
      Post (existsNode E env st as test) fun r => r.1 = st := by
    refine .ite (.some rfl) (.bind (P := fun q => q.1 = st) ?_ fun q hq => ?_)
    · have h0 := still_at h 0
      generalize as[0]? = o at h0 ⊢
      cases o with
      | none => exact .some rfl
      | some a =>
        cases a with
        | atom a =>
          refine .ite (.bind h0 fun q hq => ?_) (.some rfl)
          split
          · exact .some hq
          · exact .ite (.map .any fun _ _ => hq) (.some hq)
        | expr e =>
          refine .bind h0 fun q hq => .ite (.some hq) ?_
          split
          · exact .ite (.map .any fun _ _ => hq) (.some hq)
          · exact .some hq
        | _ => exact .some rfl
    · split
      · exact .some hq
      · exact .none
      · exact .bind .any fun _ _ => .map .any fun _ _ => hq
      · exact .ite (.map .any fun _ _ => hq) .none

mutual
theorem still (T : Tab) (env : Option Nat) (st : St) : ∀ (t : Tm) (a : Arg) (n : Nat), Quiet t → Loaded st t a → Post (evalArg (run T n) env st (some a)) fun r => r.1 = st
  | .atom _, a, n, _, hl => by
    simp only [Loaded] at hl
    obtain ⟨a', v, rfl, -⟩ := hl
    simp only [evalArg]
    split <;> exact .map .any fun _ _ => rfl
  | .addr _, a, n, _, hl => by
    simp only [Loaded] at hl
    subst hl
    exact .map .any fun _ _ => rfl
  | .app f ts, a, n, hq, hl => by
    simp only [Quiet] at hq
    simp only [Loaded] at hl
    obtain ⟨e, as, rfl, he, hl⟩ := hl
    cases n with
    | zero => exact .none
    | succ n => exact still_node hq.1 he (stills T env st ts as n hq.2 hl)
  | .fn _ _, _, _, hq, _ => by simp only [Quiet] at hq
  | .null, _, _, hq, _ => by simp only [Quiet] at hq
  | .broken, _, _, hq, _ => by simp only [Quiet] at hq
theorem stills (T : Tab) (env : Option Nat) (st : St) : ∀ (ts : List Tm) (as : List Arg) (n : Nat), Quiets ts → LoadedAll st ts as → Stills (run T n) env st as
  | [], as, n, _, hl => by
    simp only [LoadedAll] at hl
    subst hl
    intro a ha
    simp at ha
  | t :: ts, as, n, hq, hl => by
    simp only [Quiets] at hq
    simp only [LoadedAll] at hl
    obtain ⟨a, as', rfl, h1, h2⟩ := hl
    intro x hx
    rcases List.mem_cons.mp hx with rfl | hx
    · exact still T env st t x n hq.1 h1
    · exact stills T env st ts as' n hq.2 h2 x hx
end

/-! ### Messages -/

theorem msgs_wf : ∀ {ms : List Bytes} {B : Binds}, Msgs ms B → (encMsgs ms).length + 16 < 2147483648 → ∀ m ∈ ms, Fits m ∧ WFMsg m
  | [], _, _, _, m, hm => by simp at hm
  | m :: ms, B, h, hl, x, hx => by
    obtain ⟨a, vs, B', rfl, h1, h2, h3, h4⟩ := h
    rw [encMsgs_cons, List.length_append, encMsg_length] at hl
    have hf : Fits m := by unfold Fits; omega
    rcases List.mem_cons.mp hx with rfl | hx
    · obtain ⟨-, -, ws, rfl, -⟩ := msg_facts h1 h2 hf
      exact ⟨hf, encBody_wf a ws (plain_noNul (nameOk_plain h2).1) hf⟩
    · exact msgs_wf h4 (by omega) x hx

theorem msgs_addrs : ∀ {ms : List Bytes} {B : Binds}, Msgs ms B → (encMsgs ms).length + 16 < 2147483648 → ms.map addrOf = B.map (·.1)
  | [], _, h, _ => by simp only [Msgs] at h; subst h; rfl
  | m :: ms, B, h, hl => by
    obtain ⟨a, vs, B', rfl, h1, h2, h3, h4⟩ := h
    rw [encMsgs_cons, List.length_append, encMsg_length] at hl
    have hf : Fits m := by unfold Fits; omega
    rw [List.map_cons, List.map_cons, (msg_facts h1 h2 hf).2.1, msgs_addrs h4 (by omega)]

theorem msgs_filter (as : List Bytes) : ∀ {ms : List Bytes} {B : Binds}, Msgs ms B → (encMsgs ms).length + 16 < 2147483648 →
    Msgs (ms.filter fun m => addrOf m ∉ as) (B.filter fun x => !as.contains x.1)
  | [], _, h, _ => by simp only [Msgs] at h; subst h; rfl
  | m :: ms, B, h, hl => by
    obtain ⟨a, vs, B', rfl, h1, h2, h3, h4⟩ := h
    rw [encMsgs_cons, List.length_append, encMsg_length] at hl
    have hf : Fits m := by unfold Fits; omega
    have ih := msgs_filter as h4 (by omega)
    rw [List.filter_cons, List.filter_cons, (msg_facts h1 h2 hf).2.1]
    by_cases ha : a ∈ as
    · simp only [ha, not_true, decide_false, Bool.false_eq_true, if_false, List.contains_eq_mem, decide_true, Bool.not_true]
      simpa only [List.contains_eq_mem] using ih
    · simp only [ha, not_false_iff, decide_true, if_true, List.contains_eq_mem, decide_false, Bool.not_false]
      exact ⟨a, vs, _, rfl, h1, h2, h3, by simpa only [List.contains_eq_mem] using ih⟩

/-- What the bundle in memory is like when there is a block. -/
structure Block (st : St) (hdr : Bytes) (ms : List Bytes) (B : Binds) : Prop where
  bundle : HasBundle st hdr ms
  small : Small st
  header : hdr.length = 16
  size : (encMsgs ms).length + 16 < 2147483648
  msgs : Msgs ms B

theorem rep_block {st : St} {hdr : Bytes} (h : Rep hdr B st.bndl) : (∃ ms, Block st hdr ms B) ∨ (st.bndl = some (0, none) ∧ B = []) := by
  obtain ⟨hh, ⟨ms, spare, hb, hl, hm⟩ | ⟨hb, rfl, -⟩⟩ := h
  · refine .inl ⟨ms, ⟨spare, hb⟩, fun len buf e => ?_, hh, ?_, hm⟩
    · rw [hb] at e
      simp only [Option.some.injEq, Prod.mk.injEq] at e
      rw [← e.2]; exact hl
    · rw [List.length_append, encB_eq, hh] at hl
      omega
  · exact .inr ⟨hb, rfl⟩

theorem Block.wf {st : St} {hdr : Bytes} {ms : List Bytes} (h : Block st hdr ms B) : ∀ m ∈ ms, Fits m ∧ WFMsg m := msgs_wf h.msgs h.size

theorem Block.other {st : St} {hdr : Bytes} {ms : List Bytes} (h : Block st hdr ms B) {a : Bytes} (ha : nameOk a = true) :
    ∀ m ∈ ms, addrOf m ≠ a → ∀ r, oscMatch a (addrOf m) = some r → r.code ≠ 3 := by
  intro m hm hne r hr h3
  obtain ⟨-, -, x, -, e, hx⟩ := msgs_fit h.msgs h.size m hm
  exact hne ((match_iff ha (by rw [e]; exact hx)).mp ⟨r, hr, h3⟩).symm

theorem noNul {a : Bytes} (ha : nameOk a = true) : (0 : UInt8) ∉ a := plain_noNul (nameOk_plain ha).1

/-! ### Questions about the bundle -/

theorem sound_exist {a : Bytes} (ha : nameOk a = true) : Sound T ρ B (.app .exist [.addr a]) (some (B, .ok [truthVal (B.get a).isSome])) := by
  intro B' r hd st env x hdr henv hl hr
  simp only [Option.some.injEq, Prod.mk.injEq] at hd
  obtain ⟨rfl, rfl⟩ := hd
  simp only [Loaded, LoadedAll] at hl
  obtain ⟨e, _, rfl, he, a0, _, rfl, rfl, rfl⟩ := hl
  suffices h : Evals T env st e (st, 0, truthAr (B.get a).isSome) from
    ⟨st, 0, _, argEvals_expr h, .rfl, hr, rfl, holds_truthAr _, by simp [truthVal_simple]⟩
  rcases rep_block hr with ⟨ms, hb⟩ | ⟨hb, rfl⟩
  · obtain ⟨b, h1, h2⟩ := C48_exists (T := T) (env := env) he hb.bundle hb.header (noNul ha) hb.wf
    have : b = (B.get a).isSome := by
      apply Bool.eq_iff_iff.mpr
      rw [h2, Option.isSome_iff_exists]
      obtain ⟨g1, g2⟩ := msgs_get (a := a) hb.msgs hb.size
      constructor
      · rintro ⟨m, hm, r, hr, h3⟩
        cases hg : B.get a with
        | none => exact absurd h3 (hb.other ha m hm (g1 hg m hm) r hr)
        | some vs => exact ⟨vs, rfl⟩
      · rintro ⟨vs, hvs⟩
        obtain ⟨pre, m, post, rfl, -, h2, -⟩ := g2 vs hvs
        exact ⟨m, by simp, by rw [h2]; exact (match_iff ha ha).mpr rfl⟩
    rw [← this]
    exact h1
  · refine evals_now ?_
    simp only [evalNode, he, existsNode, asked, hb, List.getElem?_cons_zero]
    rw [if_neg (by simp), Option.bind_some]
    simp only [hb]
    rfl

theorem msgs_length {ms : List Bytes} (h : Msgs ms B) (hl : (encMsgs ms).length + 16 < 2147483648) : ms.length = B.length := by
  have := congrArg List.length (msgs_addrs h hl)
  simpa using this

theorem encMsgs_least : ∀ ms : List Bytes, ms.length ≤ (encMsgs ms).length
  | [] => by simp
  | m :: ms => by
    have := encMsgs_least ms
    rw [encMsgs_cons, List.length_append, encMsg_length, List.length_cons]
    omega

theorem i32_simple (n : Int) : simple (ITy.i32.val n) = true := rfl

theorem sound_count : Sound T ρ B (.app .getmsgcount []) (some (B, .ok [ITy.i32.val B.length])) := by
  intro B' r hd st env x hdr henv hl hr
  simp only [Option.some.injEq, Prod.mk.injEq] at hd
  obtain ⟨rfl, rfl⟩ := hd
  simp only [Loaded, LoadedAll] at hl
  obtain ⟨e, _, rfl, he, rfl⟩ := hl
  suffices h : ∃ l, Evals T env st e (st, 0, some l) ∧ Holds (some l) [ITy.i32.val B.length] by
    obtain ⟨l, h1, h2⟩ := h
    exact ⟨st, 0, _, argEvals_expr h1, .rfl, hr, rfl, h2, by simp [i32_simple]⟩
  rcases rep_block hr with ⟨ms, hb⟩ | ⟨hb, rfl⟩
  · have h1 := encMsgs_least ms
    have := hb.size
    rw [← msgs_length hb.msgs hb.size]
    exact (C48_list (T := T) (env := env) hb.bundle hb.header hb.wf).2.1 _ he (by omega)
  · obtain ⟨u, hu, huv⟩ := setU_fresh .i32 0
    refine ⟨[u], evals_now ?_, by simp [Holds, argsVal, huv]⟩
    have : setTo (Expr.mk 1) 0 (·.setInt32 (0 : Int)) = some [u] := by
      have hu' : UAtom.setInt32 .fresh (0 : Int) = some u := hu
      simp only [setTo, Expr.mk, List.replicate, List.getElem?_cons_zero, Option.bind_some, hu', Option.map_some]
      rfl
    have hi : i32 ((0 : Nat) : Int) = some 0 := rfl
    simp only [evalNode, he, getmsgcountNode, hb]
    rw [if_pos (by decide), Option.bind_some, hi, Option.bind_some, this]
    rfl

theorem sound_addresses : Sound T ρ B (.app .getaddresses []) (pure1 B (B.map fun x => .str x.1)) := by
  intro B' r hd st env x hdr henv hl hr
  simp only [pure1] at hd
  split at hd
  · rename_i hs
    simp only [Option.some.injEq, Prod.mk.injEq] at hd
    obtain ⟨rfl, rfl⟩ := hd
    simp only [Loaded, LoadedAll] at hl
    obtain ⟨e, _, rfl, he, rfl⟩ := hl
    suffices h : ∃ l, Evals T env st e (st, 0, some l) ∧ Holds (some l) (B.map fun x => .str x.1) by
      obtain ⟨l, h1, h2⟩ := h
      exact ⟨st, 0, _, argEvals_expr h1, .rfl, hr, rfl, h2, hs⟩
    rcases rep_block hr with ⟨ms, hb⟩ | ⟨hb, rfl⟩
    · have h1 := (C48_list (T := T) (env := env) (f := e) hb.bundle hb.header hb.wf).1 he
      have : (ms.map fun m => Val.str (addrOf m)) = B.map fun x => .str x.1 := by
        have := congrArg (List.map Val.str) (msgs_addrs hb.msgs hb.size)
        rw [List.map_map, List.map_map] at this
        exact this
      rw [this] at h1
      exact h1
    · exact ⟨[], evals_now (by simp only [evalNode, he, getaddressesNode, hb]; rfl), rfl⟩
  · cases hd

theorem sound_value {t : Tm} {d : D (List Val)} (h : Sound T ρ B t d) : Sound T ρ B (.app .value [t]) (andThenArg d valueAt) := by
  intro B' r hd st env x hdr henv hl hr
  simp only [Loaded, LoadedAll] at hl
  obtain ⟨e, _, rfl, he, a0, _, rfl, hl, rfl⟩ := hl
  have hb : st.bndl ≠ none := by
    obtain ⟨-, ⟨_, _, e, -⟩ | ⟨e, -⟩⟩ := hr <;> rw [e] <;> simp
  cases d with
  | none => simp [andThenArg] at hd
  | some d =>
    obtain ⟨B1, r1⟩ := d
    obtain ⟨s1, code, v, g1, gg, g2, g3⟩ := h B1 r1 rfl st env a0 hdr henv hl hr
    cases r1 with
    | error c =>
      simp only [andThenArg] at hd
      split at hd
      · rename_i hc
        simp only [Option.some.injEq, Prod.mk.injEq] at hd
        obtain ⟨rfl, rfl⟩ := hd
        obtain ⟨hc0, rfl⟩ := g3
        subst hc
        exact ⟨s1, _, none, argEvals_expr (C92_unbound he hb g1), gg, g2, hc0, rfl⟩
      · cases hd
    | ok vs =>
      obtain ⟨rfl, hv, hs⟩ := g3
      simp only [andThenArg] at hd
      by_cases hst : ∃ s ws, vs = .str s :: ws
      · obtain ⟨s, ws, rfl⟩ := hst
        simp only [valueAt] at hd
        split at hd
        · rename_i hn
          simp only [Option.some.injEq, Prod.mk.injEq] at hd
          obtain ⟨rfl, rfl⟩ := hd
          rcases rep_block g2 with ⟨ms, hbk⟩ | ⟨hbk, rfl⟩
          · obtain ⟨q1, q2⟩ := msgs_get (a := s) hbk.msgs hbk.size
            cases hg : B1.get s with
            | none =>
              refine ⟨s1, 0, none, argEvals_expr (C92_value_none he hb g1 hv (.inr ⟨s, ws, rfl, noNul hn, .inr ⟨hdr, ms, hbk.bundle, hbk.header,
                fun m hm => ⟨(hbk.wf m hm).1, (hbk.wf m hm).2.hasAddr⟩, fun m hm => hbk.other hn m hm (q1 hg m hm)⟩⟩)), gg, g2, rfl, rfl, rfl⟩
            | some us =>
              obtain ⟨pre, m, post, rfl, h1, h2, h3, h4, -⟩ := q2 us hg
              obtain ⟨r, h5, h6⟩ := (match_iff hn hn).mpr rfl
              obtain ⟨l, k1, k2⟩ := C92_value he hb g1 hv hbk.bundle hbk.small hbk.header (noNul hn) hbk.wf pre m post r s us rfl (by rw [h2]; exact h5) h6
                (fun x hx => hbk.other hn x (by simp [hx]) (h1 x hx)) h3 (noNul hn) (goods h4)
              exact ⟨s1, 0, some l, argEvals_expr k1, gg, g2, rfl, k2, h4⟩
          · exact ⟨s1, 0, none, argEvals_expr (C92_value_none he hb g1 hv (.inr ⟨s, ws, rfl, noNul hn, .inl hbk⟩)), gg, g2, rfl, rfl, rfl⟩
        · cases hd
      · have hn : ∀ s ws, vs ≠ .str s :: ws := fun s ws e => hst ⟨s, ws, e⟩
        have hva : valueAt B1 vs = some (B1, .ok []) := by
          unfold valueAt
          split
          · rename_i s ws
            exact absurd rfl (hn s ws)
          · rfl
        rw [hva] at hd
        simp only [Option.some.injEq, Prod.mk.injEq] at hd
        obtain ⟨rfl, rfl⟩ := hd
        exact ⟨s1, 0, none, argEvals_expr (C92_value_none he hb g1 hv (.inl hn)), gg, g2, rfl, rfl, rfl⟩

/-! ### Changes of the bundle -/

theorem blit_length {buf src out : Bytes} {i : Nat} (h : blit buf i src = some out) : out.length = buf.length := by
  simp only [blit] at h
  split at h
  · cases h
  · injection h with h
    subst h
    simp only [List.length_append, List.length_take, List.length_drop]
    omega

theorem deleteLoop_length : ∀ (as : List Bytes) {len : Int} {buf : Bytes} {b : Int × Option Bytes}, deleteLoop (as.map .addr) (len, some buf) = some b →
    ∃ len' buf', b = (len', some buf') ∧ buf'.length = buf.length
  | [], len, buf, b, h => by
    simp only [List.map_nil, deleteLoop, Option.some.injEq] at h
    exact ⟨len, buf, h.symm, rfl⟩
  | a :: as, len, buf, b, h => by
    simp only [List.map_cons, deleteLoop, Option.bind_some, Option.bind_eq_some_iff] at h
    obtain ⟨r, h1, h2⟩ := h
    obtain ⟨len', buf', h3, h4⟩ := deleteLoop_length as h2
    refine ⟨len', buf', h3, h4.trans ?_⟩
    simp only [removeMessage, Option.bind_eq_bind, Option.bind_eq_some_iff] at h1
    obtain ⟨_, -, h1⟩ := h1
    split at h1
    · cases h1
    · simp only [Option.bind_eq_some_iff] at h1
      obtain ⟨_, -, _, -, q, h5, h6⟩ := h1
      simp only [Option.pure_def, Option.some.injEq] at h6
      rw [← h6]
      exact blit_length h5

theorem sound_delete {as : List Bytes} (has : as ≠ []) :
    Sound T ρ B (.app .delete (as.map .addr)) (if B.isEmpty then none else some (B.filter fun x => !as.contains x.1, .ok [])) := by
  intro B' r hd st env x hdr henv hl hr
  split at hd
  · cases hd
  · rename_i hne
    simp only [Option.some.injEq, Prod.mk.injEq] at hd
    obtain ⟨rfl, rfl⟩ := hd
    simp only [Loaded] at hl
    obtain ⟨e, args, rfl, he, hl⟩ := hl
    have hargs : ∀ (as : List Bytes) (args : List Arg), LoadedAll st (as.map .addr) args → args = as.map .addr := by
      intro as
      induction as with
      | nil => intro args h; simpa only [List.map_nil, LoadedAll] using h
      | cons a as ih =>
        intro args h
        simp only [List.map_cons, LoadedAll, Loaded] at h
        obtain ⟨_, args', rfl, rfl, h⟩ := h
        rw [List.map_cons, ih _ h]
    rw [hargs _ _ hl] at he
    obtain ⟨hh, ⟨ms, spare, hb, hlen, hm⟩ | ⟨-, rfl, -⟩⟩ := hr
    · have hlen' := hlen
      rw [List.length_append, encB_eq, hh] at hlen'
      have hsz : (encMsgs ms).length + 16 < 2147483648 := by omega
      obtain ⟨sp, h1⟩ := deleteLoop_spec hh as ms spare fun m hm' => ⟨(msgs_wf hm hsz m hm').1, (msgs_wf hm hsz m hm').2.hasAddr⟩
      obtain ⟨_, _, h2, h3⟩ := deleteLoop_length as h1
      simp only [Prod.mk.injEq, Option.some.injEq] at h2
      obtain ⟨rfl, rfl⟩ := h2
      refine ⟨{ st with bndl := some (_, some (encB hdr (ms.filter fun m => addrOf m ∉ as) ++ sp)) }, 0, none, argEvals_expr (evals_now ?_), Grows.rfl.bndl _,
        ⟨hh, .inl ⟨_, sp, rfl, by rw [h3]; exact hlen, msgs_filter as hm hsz⟩⟩, rfl, rfl, rfl⟩
      simp only [evalNode, he, deleteNode, hb]
      rw [if_neg (by cases as with | nil => exact absurd rfl has | cons _ _ => simp), h1]
      rfl
    · exact absurd rfl hne

theorem putFirst_at {a m m' : Bytes} : ∀ {pre post : List Bytes}, (∀ x ∈ pre, addrOf x ≠ a) → addrOf m = a → putFirst a m' (pre ++ m :: post) = pre ++ m' :: post
  | [], post, _, h => by simp only [List.nil_append, putFirst]; rw [if_pos h]
  | x :: pre, post, h, hm => by
    simp only [List.cons_append, putFirst]
    rw [if_neg (h x (by simp)), putFirst_at (fun y hy => h y (by simp [hy])) hm]

theorem ints_of : ∀ {is : List Val} {ixs : List (ITy × Int)}, is.mapM asInt = some ixs → is = ixs.map (fun x => x.1.val x.2) ∧ ∀ x ∈ ixs, x.1.has x.2
  | [], ixs, h => by
    simp only [List.mapM_nil, Option.pure_def, Option.some.injEq] at h
    subst h
    simp
  | v :: is, ixs, h => by
    simp only [List.mapM_cons, Option.bind_eq_bind, Option.bind_eq_some_iff, Option.pure_def, Option.some.injEq] at h
    obtain ⟨⟨t, n⟩, h1, ys, h2, rfl⟩ := h
    obtain ⟨k1, k2⟩ := asInt_spec h1
    obtain ⟨g1, g2⟩ := ints_of h2
    refine ⟨by rw [List.map_cons, ← g1, k2], fun x hx => ?_⟩
    rcases List.mem_cons.mp hx with rfl | hx
    · exact k1
    · exact g2 x hx

/-- Unbound addresses in the expressions for the positions and the values. -/
theorem elems_unbound {st : St} {env : Option Nat} {e : Nat} {hdr : Bytes} {ms : List Bytes} {a : Bytes} {ai ad : Arg} {old : List Val}
    (he : st.exprs[e]? = some ⟨.assignToIndex, [.addr a, ai, ad]⟩) (hr : Rep hdr B st.bndl) (hb : Block st hdr ms B) (ha : nameOk a = true)
    (hg : B.get a = some old) :
    (∀ iv, ArgEvals T env st ai (st, UNBOUND, iv) → ∃ l, Evals T env st e (st, UNBOUND, l)) ∧
    (∀ iv dv, ArgEvals T env st ai (st, 0, iv) → ArgEvals T env st ad (st, UNBOUND, dv) → ∃ l, Evals T env st e (st, UNBOUND, l)) := by
  obtain ⟨-, o, ⟨n1, ho⟩, -⟩ := (rep_read (T := T) (env := env) hr ha).2 old hg
  obtain ⟨pre, m, post, rfl, h1, h2, h3, h4, -⟩ := (msgs_get (a := a) hb.msgs hb.size).2 old hg
  obtain ⟨r, h5, h6⟩ := (match_iff ha ha).mpr rfl
  obtain ⟨spare, hsp⟩ := hb.bundle
  obtain ⟨vw, vws, k1, -⟩ := lookup_first hdr pre m post a spare hb.header (noNul ha) hb.wf (fun x hx => hb.other ha x (by simp [hx]) (h1 x hx))
    (by rw [h2]; exact h5) h6
  constructor
  · rintro iv ⟨n2, hi⟩
    refine ⟨some o, evals_node.mpr ⟨max n1 n2, ?_⟩⟩
    have ho' := evalArg_mono (run_mono T (show n1 ≤ max n1 n2 by omega)) _ _ _ _ ho
    have hi' := evalArg_mono (run_mono T (show n2 ≤ max n1 n2 by omega)) _ _ _ _ hi
    simp only [evalNode, he, assignToIndexNode, hsp, k1, ho', hi', Option.bind_some]
    rw [if_neg (show ¬ (0 : Int) = UNBOUND by decide), if_pos trivial]
  · rintro iv dv ⟨n2, hi⟩ ⟨n3, hd⟩
    refine ⟨some o, evals_node.mpr ⟨max n1 (max n2 n3), ?_⟩⟩
    have ho' := evalArg_mono (run_mono T (show n1 ≤ max n1 (max n2 n3) by omega)) _ _ _ _ ho
    have hi' := evalArg_mono (run_mono T (show n2 ≤ max n1 (max n2 n3) by omega)) _ _ _ _ hi
    have hd' := evalArg_mono (run_mono T (show n3 ≤ max n1 (max n2 n3) by omega)) _ _ _ _ hd
    simp only [evalNode, he, assignToIndexNode, hsp, k1, ho', hi', hd', Option.bind_some]
    rw [if_neg (show ¬ (0 : Int) = UNBOUND by decide), if_neg (show ¬ (0 : Int) = UNBOUND by decide), if_pos trivial]

theorem sound_elems {a : Bytes} {i t : Tm} {di dt : D (List Val)} (ha : nameOk a = true) (qi : Quiet i) (qt : Quiet t) (hi : Sound T ρ B i di)
    (ht : Sound T ρ B t dt) : Sound T ρ B (.app .assignToIndex [.addr a, i, t]) (toElems a B di dt) := by
  intro B' r hd st env x hdr henv hl hr
  simp only [Loaded, LoadedAll] at hl
  obtain ⟨e, _, rfl, he, a0, _, rfl, rfl, ai, _, rfl, hli, ad, _, rfl, hld, rfl⟩ := hl
  have stay : ∀ {t : Tm} {a : Arg} {s' : St} {code : Int} {v : Ar}, Quiet t → Loaded st t a → ArgEvals T env st a (s', code, v) → s' = st := by
    rintro t a s' code v hq hl ⟨n, hn⟩
    exact still T env st t a n hq hl _ hn
  unfold toElems at hd
  split at hd
  · rename_i hg
    simp only [Option.some.injEq, Prod.mk.injEq] at hd
    obtain ⟨rfl, rfl⟩ := hd
    refine ⟨st, 1, none, argEvals_expr (C93_missing he ?_), .rfl, hr, by decide, rfl⟩
    rcases rep_block hr with ⟨ms, hb⟩ | ⟨hb, rfl⟩
    · exact .inr ⟨hdr, ms, hb.bundle, hb.header, noNul ha, fun m hm => ⟨(hb.wf m hm).1, (hb.wf m hm).2.hasAddr⟩,
        fun m hm => hb.other ha m hm ((msgs_get (a := a) hb.msgs hb.size).1 hg m hm)⟩
    · exact .inl hb
  · rename_i old hg
    rcases rep_block hr with ⟨ms, hb⟩ | ⟨-, rfl⟩
    · have hun := elems_unbound (T := T) (env := env) he hr hb ha hg
      cases di with
      | none => cases hd
      | some di =>
        obtain ⟨B1, r1⟩ := di
        obtain ⟨s1, code, iv, g1, -, g2, g3⟩ := hi B1 r1 rfl st env ai hdr henv hli hr
        obtain rfl := stay qi hli g1
        cases r1 with
        | error c =>
          simp only at hd
          split at hd
          · rename_i hc
            simp only [Option.some.injEq, Prod.mk.injEq] at hd
            obtain ⟨rfl, rfl⟩ := hd
            obtain ⟨hc0, rfl⟩ := g3
            subst hc
            obtain ⟨l, hl⟩ := hun.1 iv g1
            exact ⟨_, _, l, argEvals_expr hl, .rfl, hr, hc0, rfl⟩
          · cases hd
        | ok is =>
          obtain ⟨rfl, hiv, his⟩ := g3
          cases dt with
          | none => cases hd
          | some dt =>
            obtain ⟨B2, r2⟩ := dt
            obtain ⟨s2, code, dv, k1, -, k2, k3⟩ := ht B2 r2 rfl s1 env ad hdr henv hld hr
            obtain rfl := stay qt hld k1
            cases r2 with
            | error c =>
              simp only at hd
              split at hd
              · rename_i hc
                simp only [Option.some.injEq, Prod.mk.injEq] at hd
                obtain ⟨rfl, rfl⟩ := hd
                obtain ⟨hc0, rfl⟩ := k3
                subst hc
                obtain ⟨l, hl⟩ := hun.2 iv dv g1 k1
                exact ⟨_, _, l, argEvals_expr hl, .rfl, hr, hc0, rfl⟩
              · cases hd
            | ok ds =>
              obtain ⟨rfl, hdv, hds⟩ := k3
              simp only [putElems] at hd
              cases hix : is.mapM asInt with
              | none => simp [hix] at hd
              | some ixs =>
                simp only [hix] at hd
                obtain ⟨hval, hhas⟩ := ints_of hix
                obtain ⟨pre, m, post, rfl, h1, h2, h3, h4, -⟩ := (msgs_get (a := a) hb.msgs hb.size).2 old hg
                obtain ⟨q, h5, h6⟩ := (match_iff ha ha).mpr rfl
                have hst := C93_store (T := T) (env := env) he hb.bundle hb.small hb.header (noNul ha) (nameOk_plain ha).2 hb.wf pre m post q a old rfl
                  (by rw [h2]; exact h5) h6 (fun x hx => hb.other ha x (by simp [hx]) (h1 x hx)) h3 (noNul ha) (goods h4) (copies h4)
                  g1 rfl k1 rfl (hval ▸ hiv) hhas hdv (copies hds) _ rfl _ rfl
                split at hd
                · rename_i hok
                  simp only [put] at hd
                  split at hd
                  · rename_i hsz
                    simp only [Option.some.injEq, Prod.mk.injEq] at hd
                    obtain ⟨rfl, rfl⟩ := hd
                    have hone : ∀ (B : Binds) (vs : List Val), sizeVMsg (.mk (some a) vs) ≤ (B.set a vs).size := by
                      intro B vs
                      induction B with
                      | nil => simp only [Binds.set, Binds.size, List.map_cons, List.map_nil, sizeVMsgs]; omega
                      | cons x B ih =>
                        simp only [Binds.set]
                        split <;> simp only [Binds.size, List.map_cons, sizeVMsgs] at ih ⊢ <;> omega
                    obtain ⟨m', spare, l, e1, e2, e3, e4, e5, e6⟩ := hst.1 hok (Nat.lt_of_le_of_lt (hone B _) hsz)
                    have hall : ((writes (ixs.map fun x => ITy.i32.conv x.2) ds).foldl putAt old).all simple = true := by
                      rw [List.all_eq_true]
                      exact stored_all (List.all_eq_true.mp h4) (List.all_eq_true.mp hds)
                    have hms := msgs_set hb.msgs hb.size e1 ha hall
                    have hsize := putFirst_size hb.msgs hb.size e6
                    rw [putFirst_at h1 h2] at hms hsize
                    refine ⟨_, 0, some l, argEvals_expr e3, Grows.rfl.bndl _, ⟨hb.header, .inl ⟨_, spare, rfl, ?_, hms⟩⟩, rfl, e4, hall⟩
                    rw [encB_eq, encB_eq, hb.header] at e5
                    have := hb.size
                    omega
                  · cases hd
                · rename_i hok
                  simp only [Option.some.injEq, Prod.mk.injEq] at hd
                  obtain ⟨rfl, rfl⟩ := hd
                  obtain ⟨l, hl⟩ := hst.2 hok
                  exact ⟨_, 1, l, argEvals_expr hl, .rfl, hr, by decide, rfl⟩
    · simp [Binds.get] at hg

end Libo.Sem
