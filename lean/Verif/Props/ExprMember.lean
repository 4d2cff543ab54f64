import Verif.Props.ExprAssign
import Verif.Props.ExprApply
import Verif.Props.RoundTrip
import Verif.ExprEvalKeeps
import Verif.Name
/-!
# C79, C80: the members of a bundle that is the value of an address
-/

namespace Libo.Props
open Libo Libo.Expr Libo.Match

variable {T : Tab} {env : Option Nat} {st st0 st1 st2 : St} {f : Nat}

/-! ## What reading and binding an address means for the messages of a bundle -/

/-- The values bound to the address `b`: those of the first message to it. -/
def memberOf (b : Bytes) : List VMsg → Option (List Val)
  | [] => none
  | .mk a vs :: ms => if a = some b then some vs else memberOf b ms

/-- The messages after the values `vs` are bound to `b`: at the place of the first message to it, or at the end. -/
def withMember (b : Bytes) (vs : List Val) : List VMsg → List VMsg
  | [] => [.mk (some b) vs]
  | .mk a ws :: ms => if a = some b then .mk a vs :: ms else .mk a ws :: withMember b vs ms

/-- None of the addresses of the messages contains a star. -/
def NoStars : List VMsg → Prop
  | [] => True
  | .mk a _ :: ms => (∀ s, a = some s → (42 : UInt8) ∉ s) ∧ NoStars ms

/-! ## Lemmas -/

mutual
theorem encLen_val : ∀ (v : Val) (t : UInt8) (d : Bytes), EncVal v t d → sizeVal v < 4294967296 → d.length = sizeVal v
  | .num tag n, t, d, h, _ => by
    simp only [EncVal] at h
    obtain ⟨-, ⟨h1, n', -, -, rfl⟩ | ⟨h1, n', -, -, rfl⟩ | ⟨h1, -, rfl⟩ | ⟨h1, -, rfl⟩⟩ := h <;>
      simp only [List.mem_cons, List.not_mem_nil, or_false] at h1
    · rcases h1 with rfl | rfl <;> rfl
    · rcases h1 with rfl | rfl <;> rfl
    · rcases h1 with rfl | rfl | rfl <;> rfl
    · rcases h1 with rfl | rfl | rfl <;> rfl
  | .time s f, t, d, h, _ => by
    simp only [EncVal] at h
    obtain ⟨-, -, -, rfl⟩ := h; rfl
  | .bare tag, t, d, h, _ => by
    simp only [EncVal] at h
    obtain ⟨-, rfl⟩ := h; rfl
  | .str s, t, d, h, hs => by
    simp only [EncVal] at h
    obtain ⟨-, rfl⟩ := h
    simp only [sizeVal, strSize] at hs ⊢
    rw [length_padStr _ (by omega), padN_eq _ (by omega)]
  | .blob c, t, d, h, hs => by
    simp only [EncVal] at h
    obtain ⟨-, rfl⟩ := h
    simp only [sizeVal, List.length_append, length_be32, zeros, List.length_replicate]
    omega
  | .bndl ms, t, d, h, hs => by
    simp only [EncVal] at h
    obtain ⟨-, b, hb, rfl⟩ := h
    simp only [sizeVal] at hs ⊢
    have := encLen_msgs ms b hb (by omega)
    have e : plainHeader.length = 16 := by decide
    simp only [List.length_append, length_be32, e]
    omega
theorem encLen_args : ∀ (vs : List Val) (ws : List WArg), EncArgs vs ws → sizeVals vs < 4294967296 →
    (ws.flatMap Prod.snd).length = sizeVals vs ∧ ws.length = vs.length
  | [], ws, h, _ => by
    simp only [EncArgs] at h
    subst h; exact ⟨rfl, rfl⟩
  | v :: vs, ws, h, hs => by
    simp only [EncArgs] at h
    obtain ⟨w, ws', rfl, h1, h2⟩ := h
    simp only [sizeVals] at hs
    have := encLen_args vs ws' h2 (by omega)
    have := encLen_val v w.1 w.2 h1 (by omega)
    simp only [List.flatMap_cons, List.length_append, List.length_cons, sizeVals]
    omega
theorem encLen_msg : ∀ (m : VMsg) (d : Bytes), EncMsg m d → sizeVMsg m < 4294967296 → d.length = sizeVMsg m
  | .mk none vs, d, h, _ => by
    simp only [EncMsg] at h
    subst h; rfl
  | .mk (some a) vs, d, h, hs => by
    simp only [EncMsg] at h
    obtain ⟨ws, hw, rfl⟩ := h
    simp only [sizeVMsg] at hs ⊢
    have h1 := encLen_args vs ws hw (by omega)
    have hb : a.length + 4 < 4294967296 ∧ vs.length + 5 < 4294967296 := by
      simp only [strSize] at hs; omega
    have e : (encBody a ws).length = (padStr a).length + (padStr (44 :: ws.map Prod.fst)).length + (ws.flatMap Prod.snd).length := by
      simp only [encBody, tagString, List.length_append]
    rw [encMsg_length, e, length_padStr _ (by omega), length_padStr _ (by simp only [List.length_cons, List.length_map]; omega), h1.1,
      padN_eq _ (by omega), padN_eq _ (by simp only [List.length_cons, List.length_map]; omega)]
    simp only [strSize, List.length_cons, List.length_map, h1.2]
    omega
theorem encLen_msgs : ∀ (ms : List VMsg) (d : Bytes), EncMsgs ms d → sizeVMsgs ms < 4294967296 → d.length = sizeVMsgs ms
  | [], d, h, _ => by
    simp only [EncMsgs] at h
    subst h; rfl
  | m :: ms, d, h, hs => by
    simp only [EncMsgs] at h
    obtain ⟨d1, d2, rfl, h1, h2⟩ := h
    simp only [sizeVMsgs] at hs ⊢
    rw [List.length_append, encLen_msg m d1 h1 (by omega), encLen_msgs ms d2 h2 (by omega)]
end

/-- The blocks are these messages. -/
def Carry : List Bytes → List VMsg → Prop
  | [], vs => vs = []
  | m :: ms, vs => ∃ v vs', vs = v :: vs' ∧ EncMsg v (encMsg m) ∧ Carry ms vs'

theorem carry_of : ∀ (vs : List VMsg) (d : Bytes), EncMsgs vs d → GoodMsgs vs → ∃ ms, d = encMsgs ms ∧ Carry ms vs
  | [], d, h, _ => ⟨[], by simp only [EncMsgs] at h; rw [h]; rfl, rfl⟩
  | .mk none ws :: vs, d, h, hg => by simp [GoodMsgs, GoodMsg] at hg
  | .mk (some a) ws :: vs, d, h, hg => by
    simp only [EncMsgs] at h
    obtain ⟨d1, d2, rfl, h1, h2⟩ := h
    simp only [GoodMsgs] at hg
    obtain ⟨ms, rfl, hc⟩ := carry_of vs d2 h2 hg.2
    have h1' := h1
    simp only [EncMsg] at h1'
    obtain ⟨as, -, rfl⟩ := h1'
    exact ⟨encBody a as :: ms, rfl, _, _, rfl, h1, hc⟩

theorem carry_enc : ∀ {ms : List Bytes} {vs : List VMsg}, Carry ms vs → EncMsgs vs (encMsgs ms)
  | [], vs, h => by
    simp only [Carry] at h
    subst h
    simp [EncMsgs, encMsgs]
  | m :: ms, vs, h => by
    obtain ⟨v, vs', rfl, h1, h2⟩ := h
    simp only [EncMsgs]
    exact ⟨_, _, rfl, h1, carry_enc h2⟩

theorem enc_facts {a m : Bytes} {vs : List Val} (hm : EncMsg (.mk (some a) vs) (encMsg m)) (h0 : (0 : UInt8) ∉ a) (hfit : Fits m) :
    addrOf m = a ∧ HasAddr m := by
  obtain ⟨ws, hw, e⟩ : ∃ ws, EncArgs vs ws ∧ encMsg m = encMsg (encBody a ws) := by simpa only [EncMsg] using hm
  have e : m = encBody a ws := (List.append_inj e (by simp)).2
  subst e
  exact ⟨addrOf_encBody a ws h0 hfit, hasAddr_encBody a ws hfit⟩

theorem carry_facts : ∀ {ms : List Bytes} {vs : List VMsg}, Carry ms vs → GoodMsgs vs → NoStars vs → (encMsgs ms).length < 2147483648 →
    ∀ m ∈ ms, Fits m ∧ HasAddr m ∧ (addrOf m).head? = some 47 ∧ (0 : UInt8) ∉ addrOf m ∧ (42 : UInt8) ∉ addrOf m
  | [], _, _, _, _, _, m, hm => by simp at hm
  | x :: ms, vs, h, hg, hn, hl, m, hm => by
    obtain ⟨v, vs', rfl, h1, h2⟩ := h
    rw [encMsgs_cons, List.length_append, encMsg_length] at hl
    obtain ⟨a, ws⟩ := v
    simp only [GoodMsgs] at hg
    simp only [NoStars] at hn
    rcases List.mem_cons.mp hm with rfl | hm
    · have hf : Fits m := by unfold Fits; omega
      cases a with
      | none => simp [GoodMsg] at hg
      | some a =>
        simp only [GoodMsg] at hg
        obtain ⟨k1, k2⟩ := enc_facts h1 hg.1.2.1 hf
        rw [k1]
        exact ⟨hf, k2, hg.1.1, hg.1.2.1, hn.1 a rfl⟩
    · exact carry_facts h2 hg.2 hn.2 (by omega) m hm

theorem carry_get : ∀ {ms : List Bytes} {vs : List VMsg} {b : Bytes}, Carry ms vs → GoodMsgs vs → (encMsgs ms).length < 2147483648 →
    (memberOf b vs = none → ∀ m ∈ ms, addrOf m ≠ b) ∧
    ∀ ws, memberOf b vs = some ws → GoodVals ws ∧
      ∃ pre m post, ms = pre ++ m :: post ∧ (∀ x ∈ pre, addrOf x ≠ b) ∧ addrOf m = b ∧ EncMsg (.mk (some b) ws) (encMsg m)
  | [], vs, b, h, _, _ => by
    simp only [Carry] at h
    subst h
    simp [memberOf]
  | x :: ms, vs, b, h, hg, hl => by
    obtain ⟨v, vs', rfl, h1, h2⟩ := h
    rw [encMsgs_cons, List.length_append, encMsg_length] at hl
    obtain ⟨a, ws⟩ := v
    simp only [GoodMsgs] at hg
    cases a with
    | none => simp [GoodMsg] at hg
    | some a =>
      have hg1 := hg.1
      simp only [GoodMsg] at hg1
      obtain ⟨k1, k2⟩ := enc_facts h1 hg1.2.1 (by unfold Fits; omega)
      have ih := carry_get (b := b) h2 hg.2 (by omega)
      simp only [memberOf, Option.some.injEq]
      by_cases e : a = b
      · subst e
        rw [if_pos rfl]
        refine ⟨fun h => (by cases h), fun ws' h => ?_⟩
        injection h with h
        subst h
        exact ⟨hg1.2.2, [], x, ms, rfl, by simp, k1, h1⟩
      · rw [if_neg e]
        refine ⟨fun h m hm => ?_, fun ws' h => ?_⟩
        · rcases List.mem_cons.mp hm with rfl | hm
          · rw [k1]; exact e
          · exact ih.1 h m hm
        · obtain ⟨g1, pre, m, post, rfl, g2, g3⟩ := ih.2 ws' h
          refine ⟨g1, x :: pre, m, post, rfl, fun y hy => ?_, g3⟩
          rcases List.mem_cons.mp hy with rfl | hy
          · rw [k1]; exact e
          · exact g2 y hy

theorem carry_put : ∀ {ms : List Bytes} {vs : List VMsg} {b m : Bytes} {ws : List Val}, Carry ms vs → GoodMsgs vs →
    (encMsgs ms).length < 2147483648 → EncMsg (.mk (some b) ws) (encMsg m) → Carry (putFirst b m ms) (withMember b ws vs)
  | [], vs, b, m, ws, h, _, _, hm => by
    simp only [Carry] at h
    subst h
    exact ⟨_, _, rfl, hm, rfl⟩
  | x :: ms, vs, b, m, ws, h, hg, hl, hm => by
    obtain ⟨v, vs', rfl, h1, h2⟩ := h
    rw [encMsgs_cons, List.length_append, encMsg_length] at hl
    obtain ⟨a, us⟩ := v
    simp only [GoodMsgs] at hg
    cases a with
    | none => simp [GoodMsg] at hg
    | some a =>
      have hg1 := hg.1
      simp only [GoodMsg] at hg1
      obtain ⟨k1, k2⟩ := enc_facts h1 hg1.2.1 (by unfold Fits; omega)
      simp only [putFirst, withMember, Option.some.injEq, k1]
      by_cases e : a = b
      · subst e
        rw [if_pos rfl, if_pos rfl]
        exact ⟨_, _, rfl, hm, h2⟩
      · rw [if_neg e, if_neg e]
        exact ⟨_, _, rfl, h1, carry_put h2 hg.2 (by omega) hm⟩

theorem good_withMember {b : Bytes} {ws : List Val} (hb : b.head? = some 47) (h0 : (0 : UInt8) ∉ b) (hw : GoodVals ws) :
    ∀ {vs : List VMsg}, GoodMsgs vs → GoodMsgs (withMember b ws vs)
  | [], _ => by simp only [withMember, GoodMsgs, GoodMsg]; exact ⟨⟨hb, h0, hw⟩, trivial⟩
  | .mk a us :: vs, hg => by
    simp only [GoodMsgs] at hg
    simp only [withMember]
    split
    · rename_i e
      subst e
      simp only [GoodMsgs, GoodMsg]
      exact ⟨⟨hb, h0, hw⟩, hg.2⟩
    · simp only [GoodMsgs]
      exact ⟨hg.1, good_withMember hb h0 hw hg.2⟩

theorem noStars_withMember {b : Bytes} {ws : List Val} (hb : (42 : UInt8) ∉ b) :
    ∀ {vs : List VMsg}, NoStars vs → NoStars (withMember b ws vs)
  | [], _ => ⟨fun s e => (by injection e with e; exact e ▸ hb), trivial⟩
  | .mk a us :: vs, hg => by
    simp only [NoStars] at hg
    simp only [withMember]
    split
    · exact ⟨hg.1, hg.2⟩
    · exact ⟨hg.1, noStars_withMember hb hg.2⟩

theorem memberOf_withMember (b : Bytes) (ws : List Val) : ∀ vs, memberOf b (withMember b ws vs) = some ws ∧
    ∀ c, c ≠ b → memberOf c (withMember b ws vs) = memberOf c vs
  | [] => ⟨by simp [withMember, memberOf], fun c hc => by simp [withMember, memberOf, Ne.symm hc]⟩
  | .mk a us :: vs => by
    have ih := memberOf_withMember b ws vs
    simp only [withMember]
    split
    · rename_i e
      subst e
      exact ⟨by simp [memberOf], fun c hc => by simp [memberOf, Ne.symm hc]⟩
    · rename_i e
      exact ⟨by simp only [memberOf, if_neg e]; exact ih.1, fun c hc => by simp only [memberOf, ih.2 c hc]⟩

/-- The bytes of an atom whose value is a bundle. -/
theorem memberBundle_bndl {x : UAtom} {xs : List UAtom} {inner : List VMsg} (h : x.val = some (.bndl inner)) (hg : GoodMsgs inner)
    (hs : 16 + sizeVMsgs inner < 2147483648) : ∃ ms, memberBundle st (x :: xs) = some (some (some (encB plainHeader ms))) ∧ Carry ms inner ∧
      (encMsgs ms).length = sizeVMsgs inner := by
  obtain ⟨tag, al, w⟩ := x
  rcases val_eq tag al w _ h with ⟨-, h2⟩ | ⟨-, h2⟩ | ⟨-, h2⟩ | ⟨-, h2⟩ | ⟨-, h2⟩ | ⟨-, p, s', -, h2⟩ |
    ⟨-, p, blk, l, c, -, -, -, h2⟩ | ⟨rfl, p, ms, vs, rfl, hv, h2⟩ | ⟨h2, -⟩ <;> simp at h2
  subst h2
  obtain ⟨d, h1, -, h3, h4, -⟩ := serialize_enc ms inner hv (by omega)
  obtain ⟨bs, rfl, hc⟩ := carry_of inner d h1 hg
  refine ⟨bs, ?_, hc, h3⟩
  simp only [memberBundle]
  rw [if_neg (by decide), if_pos trivial, h4, Option.map_some, encB]

theorem read_member {b : Bytes} {ms : List Bytes} {inner : List VMsg} (hc : Carry ms inner) (hg : GoodMsgs inner) (hn : NoStars inner)
    (hl : 16 + (encMsgs ms).length < 2147483648) (hb : Plain b) (hb1 : b.head? = some 47) :
    (memberOf b inner = none → ArgEvals T env (st.withBndl (encB plainHeader ms)) (.addr b) (st.withBndl (encB plainHeader ms), UNBOUND, none)) ∧
    ∀ vs, memberOf b inner = some vs → ∃ l, ArgEvals T env (st.withBndl (encB plainHeader ms)) (.addr b)
      (st.withBndl (encB plainHeader ms), 0, some l) ∧ Holds (some l) vs := by
  have hf := carry_facts hc hg hn (by omega)
  have h0 : (0 : UInt8) ∉ b := fun h => (hb 0 h).1 rfl
  have hB : HasBundle (st.withBndl (encB plainHeader ms)) plainHeader ms := ⟨[], by simp [St.withBndl]⟩
  have hS : Small (st.withBndl (encB plainHeader ms)) := by
    intro len buf e
    simp only [St.withBndl, Option.some.injEq, Prod.mk.injEq] at e
    rw [← e.2, encB, List.length_append]
    have : plainHeader.length = 16 := by decide
    omega
  obtain ⟨h1, h2⟩ := C47_read (T := T) (env := env) hB hS (by decide) h0 (fun m hm => ⟨(hf m hm).1, (hf m hm).2.1⟩)
  have key : ∀ m ∈ ms, addrOf m ≠ b → ∀ r, oscMatch b (addrOf m) = some r → r.code ≠ 3 := by
    intro m hm hne r hr h3
    obtain ⟨-, -, k1, k2, k3⟩ := hf m hm
    exact hne ((C12_plain_equality b (addrOf m) hb hb1 k2 k1 k3).mp ⟨r, hr, h3⟩).symm
  have hget := carry_get (b := b) hc hg (by omega)
  refine ⟨fun hnone => h1 fun m hm => key m hm (hget.1 hnone m hm), fun vs hvs => ?_⟩
  obtain ⟨g1, pre, m, post, rfl, g2, g3, g4⟩ := hget.2 vs hvs
  obtain ⟨-, -, k1, k2, k3⟩ := hf m (by simp)
  obtain ⟨r, hr, hr3⟩ := (C12_plain_equality b (addrOf m) hb hb1 k2 k1 k3).mpr g3.symm
  exact h2 pre m post r b vs rfl hr hr3 (fun x hx => key x (by simp [hx]) (g2 x hx)) g4 h0 g1

theorem restore (s : St) (b : Bytes) : ({ s.withBndl b with bndl := s.bndl } : St) = s := rfl

/-! ## C79 -/

/-- **C79.**  `getbundlemember(x, /b)`, also written `x./b`, where the (first) value of `x` is a bundle: the values of the first message
to `/b` in that bundle, and the error of an unbound address if there is none; the bundle that `x` is evaluated in is as `x` left
it. -/
theorem C79_member {a0 : Arg} {rest : List Arg} {b : Bytes} {code : Int} {l : Ar} {inner : List VMsg} {more : List Val}
    (hf : st.exprs[f]? = some ⟨.getMember, a0 :: .addr b :: rest⟩) (hx : ArgEvals T env st a0 (st1, code, l)) (hl : Holds l (.bndl inner :: more))
    (hg : GoodMsgs inner) (hn : NoStars inner) (hs : 16 + sizeVMsgs inner < 2147483648) (hb : Plain b) (hb1 : b.head? = some 47) :
    (memberOf b inner = none → Evals T env st f (st1, UNBOUND, none)) ∧
    ∀ vs, memberOf b inner = some vs → ∃ l', Evals T env st f (st1, 0, l') ∧ Holds l' vs := by
  obtain ⟨x, hx0, hxv⟩ := holds_at hl (i := 0) rfl
  cases l with
  | none => cases hx0
  | some l =>
    cases l with
    | nil => cases hx0
    | cons y ys =>
      have e : y = x := by simpa [at?] using hx0
      subst e
      obtain ⟨ms, hm, hc, hlen⟩ := memberBundle_bndl (st := st1) (xs := ys) hxv hg hs
      obtain ⟨h1, h2⟩ := read_member (T := T) (env := env) (st := st1) hc hg hn (by omega) hb hb1
      have key : ∀ code' l', ArgEvals T env (st1.withBndl (encB plainHeader ms)) (.addr b) (st1.withBndl (encB plainHeader ms), code', l') →
          Evals T env st f (st1, code', l') := by
        rintro code' l' ⟨k, hk⟩
        obtain ⟨n, hn⟩ := hx
        have h1 := evalArg_mono (le_max_run n k) _ _ _ _ hn
        have h2 := evalArg_mono (le_max_run' n k) _ _ _ _ hk
        refine evals_node.mpr ⟨max n k, ?_⟩
        simp only [evalNode, hf, getMemberNode, List.getElem?_cons_zero, List.getElem?_cons_succ, h1, Option.bind_some, hm, h2, Option.map_some]
        rfl
      exact ⟨fun h => key _ _ (h1 h), fun vs h => by
        obtain ⟨l', h3, h4⟩ := h2 vs h
        exact ⟨_, key _ _ h3, h4⟩⟩

/-- **C79.**  If the second argument is an expression (other than a call of `value`) or an atom, its value, a string, is the address of the
member; it is evaluated in the outer bundle. -/
theorem C79_computed {a0 a1 : Arg} {rest : List Arg} {b : Bytes} {code code1 : Int} {l v : Ar} {inner : List VMsg} {more more' : List Val}
    (hf : st.exprs[f]? = some ⟨.getMember, a0 :: a1 :: rest⟩) (hx : ArgEvals T env st a0 (st1, code, l)) (hl : Holds l (.bndl inner :: more))
    (ha1 : (∃ x, a1 = .atom x) ∨ ∃ e nd, a1 = .expr e ∧ st1.exprs[e]? = some nd ∧ nd.fn ≠ .value)
    (hv : ArgEvals T env st1 a1 (st2, code1, v)) (hvb : Holds v (.str b :: more'))
    (hg : GoodMsgs inner) (hn : NoStars inner) (hs : 16 + sizeVMsgs inner < 2147483648) (hb : Plain b) (hb1 : b.head? = some 47) :
    (memberOf b inner = none → Evals T env st f (st2, UNBOUND, none)) ∧
    ∀ vs, memberOf b inner = some vs → ∃ l', Evals T env st f (st2, 0, l') ∧ Holds l' vs := by
  obtain ⟨x, hx0, hxv⟩ := holds_at hl (i := 0) rfl
  obtain ⟨y, hy0, hyv⟩ := holds_at hvb (i := 0) rfl
  cases l with
  | none => cases hx0
  | some l =>
  cases v with
  | none => cases hy0
  | some v =>
    cases l with
    | nil => cases hx0
    | cons z zs =>
      have e : z = x := by simpa [at?] using hx0
      subst e
      have hy0 : v[0]? = some y := hy0
      have hstr : strOf (some y) = some b := by
        obtain ⟨tag, al, w⟩ := y
        rcases val_eq tag al w _ hyv with ⟨-, h2⟩ | ⟨-, h2⟩ | ⟨-, h2⟩ | ⟨-, h2⟩ | ⟨-, h2⟩ | ⟨rfl, p, s', rfl, h2⟩ |
          ⟨-, p, blk, l, c, -, -, -, h2⟩ | ⟨-, p, ms, vs, -, -, h2⟩ | ⟨h2, -⟩ <;> simp at h2
        subst h2
        rfl
      obtain ⟨ms, hm, hc, hlen⟩ := memberBundle_bndl (st := st1) (xs := zs) hxv hg hs
      obtain ⟨h1, h2⟩ := read_member (T := T) (env := env) (st := st2) hc hg hn (by omega) hb hb1
      have key : ∀ code' l', ArgEvals T env (st2.withBndl (encB plainHeader ms)) (.addr b) (st2.withBndl (encB plainHeader ms), code', l') →
          Evals T env st f (st2, code', l') := by
        rintro code' l' ⟨k, hk⟩
        obtain ⟨n, hn⟩ := hx
        obtain ⟨n1, hn1⟩ := hv
        have h1 := evalArg_mono (le_max_run n (max n1 k)) _ _ _ _ hn
        have h2 := evalArg_mono (le_max_run' n (max n1 k)) _ _ _ _ (evalArg_mono (le_max_run n1 k) _ _ _ _ hn1)
        have h3 := evalArg_mono (le_max_run' n (max n1 k)) _ _ _ _ (evalArg_mono (le_max_run' n1 k) _ _ _ _ hk)
        have hnamed : memberNamed (run T (max n (max n1 k))) env st1 (some a1) (encB plainHeader ms) = some (st2, code', l') := by
          simp only [memberNamed, h2, Option.bind_some, hy0, hstr, h3, Option.map_some, restore]
        refine evals_node.mpr ⟨max n (max n1 k), ?_⟩
        simp only [evalNode, hf, getMemberNode, List.getElem?_cons_zero, List.getElem?_cons_succ, h1, Option.bind_some, hm]
        rcases ha1 with ⟨x, rfl⟩ | ⟨e, nd, rfl, hnd, hfn⟩
        · exact hnamed
        · simp only [hnd]
          cases hq : nd.fn <;> first | exact absurd hq hfn | exact hnamed
      exact ⟨fun h => key _ _ (h1 h), fun vs h => by
        obtain ⟨l', h3, h4⟩ := h2 vs h
        exact ⟨_, key _ _ h3, h4⟩⟩

/-- **C79.**  A first argument without a value, or whose first value is neither a bundle nor a string, is an error, and so is an address
that is not bound. -/
theorem C79_error {a0 : Arg} {rest : List Arg} {code : Int} {l : Ar}
    (hf : st.exprs[f]? = some ⟨.getMember, a0 :: rest⟩) (hx : ArgEvals T env st a0 (st1, code, l))
    (hl : l = none ∨ ∃ v vs, Holds l (v :: vs) ∧ (∀ ms, v ≠ .bndl ms) ∧ ∀ s, v ≠ .str s) : Evals T env st f (st1, 1, none) := by
  obtain ⟨n, hn⟩ := hx
  refine evals_node.mpr ⟨n, ?_⟩
  simp only [evalNode, hf, getMemberNode, List.getElem?_cons_zero, hn, Option.bind_some]
  rcases hl with rfl | ⟨v, vs, hl, h1, h2⟩
  · rfl
  · obtain ⟨x, hx0, hxv⟩ := holds_at hl (i := 0) rfl
    cases l with
    | none => cases hx0
    | some l =>
      cases l with
      | nil => cases hx0
      | cons z zs =>
        have e : z = x := by simpa [at?] using hx0
        subst e
        have : memberBundle st1 (z :: zs) = some (some none) := by
          obtain ⟨tag, al, w⟩ := z
          simp only [memberBundle]
          rw [if_neg, if_neg]
          · rintro rfl
            rcases val_eq _ al w _ hxv with ⟨h, -⟩ | ⟨h, -⟩ | ⟨h, -⟩ | ⟨h, -⟩ | ⟨h, -⟩ | ⟨h, -⟩ |
              ⟨h, -⟩ | ⟨h, p, ms, vs, -, -, h2⟩ | ⟨-, h⟩ <;> first | exact absurd h (by decide) | exact h1 _ h2
          · rintro rfl
            rcases val_eq _ al w _ hxv with ⟨h, -⟩ | ⟨h, -⟩ | ⟨h, -⟩ | ⟨h, -⟩ | ⟨h, -⟩ | ⟨h, p, s', -, h3⟩ |
              ⟨h, -⟩ | ⟨h, -⟩ | ⟨-, h⟩ <;> first | exact absurd h (by decide) | exact h2 _ h3
        simp only [this, Option.bind_some]

/-! ## C80 -/

/-- Writing values as an argument of an assignment. -/
theorem valueArg_evals {ar : List UAtom} {vs : List Val} (h : Holds (some ar) vs) (hc : ∀ v ∈ vs, Copyable v)
    (hfree : ∀ k, vs = [.str k] → lookupVar st env k = none) :
    ∃ val out, valueArg ar = some val ∧ (∀ E, evalArg E env st (some val) = some (st, 0, out)) ∧ Holds out vs := by
  have list : ∀ vs', Holds (some ar) vs' → (∀ v ∈ vs', Copyable v) → ∃ val out, (copyAr (some ar)).map Arg.list = some val ∧
      (∀ E, evalArg E env st (some val) = some (st, 0, out)) ∧ Holds out vs' := by
    intro vs' h hc
    obtain ⟨l, h1, h2, -⟩ := copyAr_holds (some ar) vs' h hc
    obtain ⟨l', h3, h4, -⟩ := copyAr_holds l vs' h2 hc
    exact ⟨.list l, l', by rw [h1, Option.map_some], fun E => by simp only [evalArg, h3, Option.map_some], h4⟩
  match ar, h, list with
  | [], h, list => exact list vs h hc
  | [a], h, _ =>
    have hlen := holds_len h
    match vs, hlen, h, hc, hfree with
    | [v], _, h, hc, hfree =>
      have hv : a.val = some v := by
        obtain ⟨x, hx, hxv⟩ := holds_at h (i := 0) rfl
        have e : a = x := by simpa [at?] using hx
        rw [e]; exact hxv
      obtain ⟨a', h1, h2, -⟩ := copyAtom_val a v hv (hc v (by simp))
      obtain ⟨out, h3, h4⟩ := atom_evals (st := st) (env := env) h2 (hc v (by simp)) (fun k e => hfree k (by rw [e]))
      exact ⟨_, out, by simp only [valueArg, h1, Option.map_some], h3, h4⟩
  | _ :: _ :: _, h, list => exact list vs h hc

theorem assignNode_put {E : Ev} {a : Bytes} {val : Arg} {v : Ar} {b : Int × Option Bytes} {b' : Int × Option Bytes} (hb : st.bndl = some b)
    (hn : ValidName a) (hv : evalArg E env st (some val) = some (st, 0, v)) (hp : putMsg b a (v.getD []) = some b') :
    assignNode E env st [.addr a, val] = some ({ st with bndl := some b' }, 0, v) := by
  simp only [assignNode, hb, Option.isNone_some, Bool.false_eq_true, if_false, List.getElem?_cons_zero, List.getElem?_cons_succ, target,
    Option.bind_some, (validateAddress_iff a).mpr hn, hv, hp, Option.map_some]
  rfl

theorem plain_valid {a : Bytes} (h : ValidName a) : a.head? = some 47 := by obtain ⟨r, rfl, -⟩ := h; rfl

theorem setBytes_bndl {x : UAtom} {inner : List VMsg} (h : x.val = some (.bndl inner)) {d : Bytes} {us : List UMsg} {inner' : List VMsg}
    (hd : deserialize d = some us) (hu : msgsVal us = some inner') : ∃ x', setBytes x d = some x' ∧ x'.val = some (.bndl inner') := by
  obtain ⟨tag, al, w⟩ := x
  rcases val_eq tag al w _ h with ⟨-, h2⟩ | ⟨-, h2⟩ | ⟨-, h2⟩ | ⟨-, h2⟩ | ⟨-, h2⟩ | ⟨-, p, s', -, h2⟩ |
    ⟨-, p, blk, l, c, -, -, -, h2⟩ | ⟨rfl, p, ms, vs, rfl, hv, h2⟩ | ⟨h2, -⟩ <;> simp at h2
  refine ⟨_, by simp only [setBytes, UAtom.clear]; rw [if_neg (by simp), if_pos trivial, Option.bind_some, hd, Option.map_some], ?_⟩
  simp only [UAtom.setBndlU, UAtom.val, hu]
  rfl

/-- The end of `/a./b = x`, after the first and the third argument are evaluated. -/
theorem assignMember_core {a b : Bytes} {rhs : Arg} {rest : List Arg} {l v : Ar} {code : Int} {inner : List VMsg} {more vs : List Val} {n0 : Nat}
    (hf : st.exprs[f]? = some ⟨.assignMember, .addr a :: .addr b :: rhs :: rest⟩)
    (h1 : memberFirst (run T n0) env st (.addr a :: .addr b :: rhs :: rest) = some (st0, l)) (hl : Holds l (.bndl inner :: more))
    (hg : GoodMsgs inner) (hst : NoStars inner) (hin : 16 + sizeVMsgs inner < 2147483648)
    (h2 : ArgEvals T env st0 rhs (st1, code, v)) (hv : Holds v vs) (hvn : v ≠ none) (hvg : GoodVals vs) (hvc : ∀ x ∈ vs, Copyable x)
    (hfree : ∀ k, vs = [.str k] → lookupVar st1 env k = none)
    (ha : ValidName a) (hb : ValidName b) (hb0 : (0 : UInt8) ∉ b) (hmc : ∀ x ∈ more, Copyable x)
    (hs : sizeVMsg (.mk (some a) (.bndl (withMember b vs inner) :: more)) < 2147483648) {hdr : Bytes} {ms : List Bytes}
    (hB : HasBundle st1 hdr ms) (hh : hdr.length = 16) (hms : ∀ m ∈ ms, Fits m ∧ HasAddr m) :
    ∃ m out spare, Evals T env st f ({ st1 with bndl := some (((encB hdr (putFirst a m ms)).length : Int), some (encB hdr (putFirst a m ms) ++ spare)) }, 0, out) ∧
      Holds out (.bndl (withMember b vs inner) :: more) ∧
      EncMsg (.mk (some a) (.bndl (withMember b vs inner) :: more)) (encMsg m) ∧ Fits m := by
  obtain ⟨x, hx0, hxv⟩ := holds_at hl (i := 0) rfl
  cases l with
  | none => cases hx0
  | some l =>
  cases v with
  | none => exact absurd rfl hvn
  | some v =>
  cases l with
  | nil => cases hx0
  | cons z zs =>
    have e : z = x := by simpa [at?] using hx0
    subst e
    have hh16 : plainHeader.length = 16 := by decide
    have hs' := hs
    simp only [sizeVMsg, sizeVals, sizeVal] at hs'
    have hle : sizeVMsg (.mk (some b) vs) ≤ sizeVMsgs (withMember b vs inner) := by
      clear hs hs' hg hst hin hl hxv
      induction inner with
      | nil => simp only [withMember, sizeVMsgs]; omega
      | cons y ys ih =>
        obtain ⟨c, us⟩ := y
        simp only [withMember]
        split
        · rename_i e; subst e; simp only [sizeVMsgs]; omega
        · simp only [sizeVMsgs]; omega
    obtain ⟨bs, hm, hc, hlen⟩ := memberBundle_bndl (st := st0) (xs := zs) hxv hg hin
    have hfacts := carry_facts hc hg hst (by omega)
    obtain ⟨val, out1, k1, k2, k3⟩ := valueArg_evals (st := st1.withBndl (encB plainHeader bs)) (env := env) hv hvc hfree
    obtain ⟨m1, sp1, e1, e2, e3, -, e5, -⟩ := putMsg_spec plainHeader bs [] b (out1.getD []) vs hh16
      (fun m hm => ⟨(hfacts m hm).1, (hfacts m hm).2.1⟩) k3 hvc (by omega)
    have hc' := carry_put (ws := vs) hc hg (by omega) e1
    have hg' := good_withMember (vs := inner) (plain_valid hb) hb0 hvg hg
    have hlen' := encLen_msgs _ _ (carry_enc hc') (by omega)
    obtain ⟨us, d1, d2⟩ := C01_decode _ _ (carry_enc hc') hg' plainHeader hh16 (by rw [List.length_append, hh16]; omega)
    obtain ⟨x', x1, x2⟩ := setBytes_bndl hxv d1 d2
    have hl' : Holds (some (x' :: zs)) (.bndl (withMember b vs inner) :: more) := by
      have hl := hl
      simp only [Holds, Option.getD_some, argsVal, Option.bind_eq_some_iff, Option.map_eq_some_iff] at hl ⊢
      obtain ⟨v0, -, vs0, q2, q3⟩ := hl
      injection q3 with q3 q4
      exact ⟨_, x2, vs0, q2, by rw [q4]⟩
    obtain ⟨out, o1, o2, -⟩ := copyAr_holds _ _ hl' (fun y hy => by
      rcases List.mem_cons.mp hy with rfl | hy
      · exact ⟨hg', by simp only [sizeVal]; omega⟩
      · exact hmc y hy)
    obtain ⟨spare, hsp⟩ := hB
    obtain ⟨m, sp, f1, f2, f3, -, f5, -⟩ := putMsg_spec hdr ms spare a (out.getD []) _ hh hms o2 (fun y hy => by
      rcases List.mem_cons.mp hy with rfl | hy
      · exact ⟨hg', by simp only [sizeVal]; omega⟩
      · exact hmc y hy) hs
    refine ⟨m, out, sp, ?_, o2, f1, f2⟩
    obtain ⟨n2, hn2⟩ := h2
    have r1 := memberFirst_mono (le_max_run n0 (max n2 1)) _ _ _ _ h1
    have r2 := evalArg_mono (le_max_run' n0 (max n2 1)) _ _ _ _ (evalArg_mono (le_max_run n2 1) _ _ _ _ hn2)
    obtain ⟨k, hk⟩ : ∃ k, max n0 (max n2 1) = k + 1 := ⟨max n0 (max n2 1) - 1, by omega⟩
    refine evals_node.mpr ⟨max n0 (max n2 1), ?_⟩
    rw [hk] at r1 r2 ⊢
    have a1 := assignNode_put (E := run T (k + 1)) (env := env) (st := st1.withBndl (encB plainHeader bs)) (b := _) rfl hb (k2 _)
      (by rw [List.append_nil] at e3; exact e3)
    have a2 := assignNode_put (E := run T (k + 1)) (env := env) (st := st1) (val := .list (some (x' :: zs))) hsp ha
      (by simp only [evalArg, o1, Option.map_some]) f3
    simp only [evalNode, hf, assignMemberNode, r1, Option.bind_some, hm, List.getElem?_cons_zero, r2, copyArg, k1, a1]
    rw [if_neg (by simp)]
    have ht : ((encB plainHeader (putFirst b m1 bs) ++ sp1).take ((encB plainHeader (putFirst b m1 bs)).length : Int).toNat) =
      plainHeader ++ encMsgs (putFirst b m1 bs) := by
      rw [Int.toNat_natCast, List.take_append_of_le_length (Nat.le_refl _), List.take_length, encB]
    rw [ht]
    simp only [memberStore, x1, Option.bind_some, copyArg]
    exact a2

/-- **C80.**  `/a./b = x` (`assigntobundlemember(/a, /b, x)`), where the first value of `/a` is a bundle and `x` has the values `vs`: `/a` is
then bound, at its place in the outer bundle, to the inner bundle with `/b` bound to `vs`, as an assignment of `vs` to `/b` in the inner bundle
would do; the further values of `/a`, the other messages and the rest of the memory are as they were after evaluating `x`.
The new values of `/a` are the result. -/
theorem C80_assign {a b : Bytes} {rhs : Arg} {rest : List Arg} {l v : Ar} {code : Int} {inner : List VMsg} {more vs : List Val}
    (hf : st.exprs[f]? = some ⟨.assignMember, .addr a :: .addr b :: rhs :: rest⟩)
    (h1 : ArgEvals T env st (.addr a) (st, 0, l)) (hl : Holds l (.bndl inner :: more))
    (hg : GoodMsgs inner) (hst : NoStars inner) (hin : 16 + sizeVMsgs inner < 2147483648)
    (h2 : ArgEvals T env st rhs (st1, code, v)) (hv : Holds v vs) (hvn : v ≠ none) (hvg : GoodVals vs) (hvc : ∀ x ∈ vs, Copyable x)
    (hfree : ∀ k, vs = [.str k] → lookupVar st1 env k = none)
    (ha : ValidName a) (hb : ValidName b) (ha0 : (0 : UInt8) ∉ a) (hb0 : (0 : UInt8) ∉ b) (hmc : ∀ x ∈ more, Copyable x)
    (hs : sizeVMsg (.mk (some a) (.bndl (withMember b vs inner) :: more)) < 2147483648) {hdr : Bytes} {ms : List Bytes}
    (hB : HasBundle st1 hdr ms) (hh : hdr.length = 16) (hms : ∀ m ∈ ms, Fits m ∧ HasAddr m) :
    ∃ bndl out m ms', Evals T env st f ({ st1 with bndl := bndl }, 0, out) ∧ Holds out (.bndl (withMember b vs inner) :: more) ∧
      HasBundle { st1 with bndl := bndl } hdr ms' ∧ Bound a m ms ms' ∧
      EncMsg (.mk (some a) (.bndl (withMember b vs inner) :: more)) (encMsg m) ∧ Fits m ∧ addrOf m = a ∧ HasAddr m := by
  obtain ⟨n, hn⟩ := h1
  cases l with
  | none => cases hl
  | some l =>
  obtain ⟨m, out, spare, r1, r2, r3, r4⟩ := assignMember_core (n0 := n) (l := some l) hf
    (by simp only [memberFirst, List.getElem?_cons_zero, hn, Option.bind_some]) hl hg hst hin h2 hv hvn hvg hvc hfree ha hb hb0 hmc hs hB hh hms
  exact ⟨_, out, m, putFirst a m ms, r1, r2, ⟨spare, rfl⟩, bound_putFirst a m ms, r3, r4, enc_facts r3 ha0 r4⟩

theorem memberFirst_new {E : Ev} {a b : Bytes} {rhs : Arg} {rest : List Arg} {d : Bytes} {b1 b2 : Int × Option Bytes} {x : UAtom}
    (hn : evalArg E env st (some (.addr a)) = some (st, UNBOUND, none))
    (hser : serializeMsg (.mk (newAddress a) [UAtom.fresh.setBndlU newPtr []]) = some d) (hb : st.bndl = some b1)
    (happ : appendMessage b1.1 b1.2 (some d) = some b2) (hx : copyAtom (UAtom.fresh.setBndlU newPtr []) = some x) :
    memberFirst E env st (.addr a :: .addr b :: rhs :: rest) = some ({ st with bndl := some b2 }, some [x]) := by
  unfold memberFirst
  rw [List.getElem?_cons_zero, hn, Option.bind_some]
  simp only [ne_eq, not_true_eq_false, if_false]
  rw [hser, Option.bind_some, hb]
  simp only [happ, hx, Option.bind_some, Option.map_some]

/-- **C80.**  If `/a` is not bound, it is bound to an empty bundle at the end of the outer bundle before `x` is evaluated; then as in `C80_assign`. -/
theorem C80_new {a b : Bytes} {rhs : Arg} {rest : List Arg} {hdr0 : Bytes} {ms0 : List Bytes}
    (hf : st.exprs[f]? = some ⟨.assignMember, .addr a :: .addr b :: rhs :: rest⟩)
    (h1 : ArgEvals T env st (.addr a) (st, UNBOUND, none)) (hB0 : HasBundle st hdr0 ms0 ∨ (NullBundle st ∧ hdr0 = plainHeader ∧ ms0 = []))
    (ha : ValidName a) (hb : ValidName b) (ha0 : (0 : UInt8) ∉ a) (hb0 : (0 : UInt8) ∉ b)
    (hsa : sizeVMsg (.mk (some a) [.bndl []]) < 2147483648) :
    ∃ b0 m0, EncMsg (.mk (some a) [.bndl []]) (encMsg m0) ∧ Fits m0 ∧ addrOf m0 = a ∧ HasAddr m0 ∧
      HasBundle { st with bndl := b0 } hdr0 (ms0 ++ [m0]) ∧
      ∀ (st1 : St) (code : Int) (v : Ar), ArgEvals T env { st with bndl := b0 } rhs (st1, code, v) →
        (v = none → Evals T env st f (st1, 0, none)) ∧
        ∀ vs, v ≠ none → Holds v vs → GoodVals vs → (∀ x ∈ vs, Copyable x) → (∀ k, vs = [.str k] → lookupVar st1 env k = none) →
          sizeVMsg (.mk (some a) [.bndl [.mk (some b) vs]]) < 2147483648 →
          ∀ hdr ms, HasBundle st1 hdr ms → hdr.length = 16 → (∀ m ∈ ms, Fits m ∧ HasAddr m) →
          ∃ bndl out m ms', Evals T env st f ({ st1 with bndl := bndl }, 0, out) ∧ Holds out [.bndl [.mk (some b) vs]] ∧
            HasBundle { st1 with bndl := bndl } hdr ms' ∧ Bound a m ms ms' ∧
            EncMsg (.mk (some a) [.bndl [.mk (some b) vs]]) (encMsg m) ∧ Fits m ∧ addrOf m = a ∧ HasAddr m := by
  obtain ⟨n, hn⟩ := h1
  have hv : msgVal (.mk (some a) [UAtom.fresh.setBndlU newPtr []]) = some (.mk (some a) [.bndl []]) := rfl
  obtain ⟨d, hd, hlen, hz, hse⟩ := ser_msg _ _ hv (by omega)
  have hser : serializeMsg (.mk (newAddress a) [UAtom.fresh.setBndlU newPtr []]) = some d := by
    rw [newAddress, if_pos (plain_valid ha)]
    have := hse _ (Nat.le_refl _)
    simp only at this
    rw [serializeMsg, hz, Option.bind_some, this]
  obtain ⟨ws, hw, e⟩ : ∃ ws, EncArgs [.bndl []] ws ∧ d = encMsg (encBody a ws) := by simpa only [EncMsg] using hd
  subst e
  have hfit : Fits (encBody a ws) := by
    rw [encMsg_length] at hlen
    unfold Fits; omega
  obtain ⟨x, x1, x2, -⟩ := copyAtom_val (UAtom.fresh.setBndlU newPtr []) (.bndl []) rfl ⟨by simp [GoodMsgs], by simp [sizeVal, sizeVMsgs]⟩
  have happ : ∃ b1, st.bndl = some b1 ∧ appendMessage b1.1 b1.2 (some (encMsg (encBody a ws))) =
      some (((encB hdr0 (ms0 ++ [encBody a ws])).length : Int), some (encB hdr0 (ms0 ++ [encBody a ws]))) := by
    rcases hB0 with ⟨spare, h⟩ | ⟨h, rfl, rfl⟩
    · exact ⟨_, h, append_spare hdr0 ms0 spare _ hfit⟩
    · refine ⟨_, h, ?_⟩
      have h := (C16_append plainHeader [] (encBody a ws) [] hfit).2.1
      rw [List.append_nil] at h
      rw [List.nil_append, h, plainHeader]
  obtain ⟨b1, hb1, happ⟩ := happ
  have hfirst : memberFirst (run T n) env st (.addr a :: .addr b :: rhs :: rest) =
      some ({ st with bndl := some (((encB hdr0 (ms0 ++ [encBody a ws])).length : Int), some (encB hdr0 (ms0 ++ [encBody a ws]))) }, some [x]) := by
    exact memberFirst_new hn hser hb1 happ x1
  refine ⟨_, encBody a ws, hd, hfit, addrOf_encBody a ws ha0 hfit, hasAddr_encBody a ws hfit, ⟨[], by rw [List.append_nil]⟩, fun st1 code v hr => ⟨?_, ?_⟩⟩
  · rintro rfl
    obtain ⟨k, hk⟩ := hr
    have r1 := memberFirst_mono (le_max_run n k) _ _ _ _ hfirst
    have r2 := evalArg_mono (le_max_run' n k) _ _ _ _ hk
    obtain ⟨bs, hm, -⟩ := memberBundle_bndl (xs := []) x2 (by simp [GoodMsgs]) (by simp [sizeVMsgs])
      (st := { st with bndl := some (((encB hdr0 (ms0 ++ [encBody a ws])).length : Int), some (encB hdr0 (ms0 ++ [encBody a ws]))) })
    refine evals_node.mpr ⟨max n k, ?_⟩
    simp only [evalNode, hf, assignMemberNode, r1, Option.bind_some, hm, List.getElem?_cons_zero, r2]
  · intro vs hvn hv hvg hvc hfree hs hdr ms hB hh hms
    obtain ⟨m, out, spare, r1, r2, r3, r4⟩ := assignMember_core (inner := []) (more := []) hf hfirst
      (by simp [Holds, argsVal, x2]) (by simp [GoodMsgs]) trivial (by simp [sizeVMsgs]) hr hv hvn hvg hvc hfree ha hb hb0 (by simp)
      (by simp only [withMember]; exact hs) hB hh hms
    exact ⟨_, out, m, putFirst a m ms, r1, r2, ⟨spare, rfl⟩, bound_putFirst a m ms, r3, r4, enc_facts r3 ha0 r4⟩

/-- **C80.**  What binding a member means: the member has the values, and the other members are the same. -/
theorem C80_members (b : Bytes) (vs : List Val) (inner : List VMsg) : memberOf b (withMember b vs inner) = some vs ∧
    ∀ c, c ≠ b → memberOf c (withMember b vs inner) = memberOf c inner := memberOf_withMember b vs inner

/-- **C80 with C79.**  After `/a./b = x` the address `/a` has a bundle as first value in which `/b` has the values of `x`: reading the member
gives them. -/
theorem C80_read_back {a0 : Arg} {rest : List Arg} {b c : Bytes} {code : Int} {l : Ar} {inner : List VMsg} {more vs : List Val}
    (hf : st.exprs[f]? = some ⟨.getMember, a0 :: .addr c :: rest⟩) (hx : ArgEvals T env st a0 (st1, code, l))
    (hl : Holds l (.bndl (withMember b vs inner) :: more)) (hg : GoodMsgs inner) (hn : NoStars inner) (hvg : GoodVals vs)
    (hs : 16 + sizeVMsgs (withMember b vs inner) < 2147483648) (hb : Plain b) (hb1 : b.head? = some 47) (hc : Plain c) (hc1 : c.head? = some 47) :
    (c = b → ∃ l', Evals T env st f (st1, 0, l') ∧ Holds l' vs) ∧
    (c ≠ b → ∀ ws, memberOf c inner = some ws → ∃ l', Evals T env st f (st1, 0, l') ∧ Holds l' ws) := by
  have h0 : (0 : UInt8) ∉ b := fun h => (hb 0 h).1 rfl
  have h42 : (42 : UInt8) ∉ b := fun h => (hb 42 h).2.2.1 rfl
  have h := (C79_member hf hx hl (good_withMember hb1 h0 hvg hg) (noStars_withMember h42 hn) hs hc hc1).2
  refine ⟨?_, fun e ws hw => h ws ?_⟩
  · rintro rfl
    exact h vs (memberOf_withMember c vs inner).1
  · rw [(memberOf_withMember b vs inner).2 c e, hw]

/-- The full statement about errors: if the third argument has an error, this is the result. -/
def C80_error_full : Prop := ∀ (T : Tab) (st st1 : St) (f : Nat) (a b : Bytes) (rhs : Arg) (l : Ar) (inner : List VMsg) (code : Int),
  st.exprs[f]? = some ⟨.assignMember, [.addr a, .addr b, rhs]⟩ → ArgEvals T none st (.addr a) (st, 0, l) → Holds l [.bndl inner] →
  ArgEvals T none st rhs (st1, code, none) → code ≠ 0 → Evals T none st f (st1, code, none)

/-- An error in the third argument is lost: `/a./b = /c` with an unbound `/c` gives no error and changes nothing (`osc_expr.c` line 1897). -/
theorem C80_error {a b : Bytes} {rhs : Arg} {rest : List Arg} {l : Ar} {code : Int} {inner : List VMsg} {more : List Val}
    (hf : st.exprs[f]? = some ⟨.assignMember, .addr a :: .addr b :: rhs :: rest⟩)
    (h1 : ArgEvals T env st (.addr a) (st, 0, l)) (hl : Holds l (.bndl inner :: more)) (hg : GoodMsgs inner) (hin : 16 + sizeVMsgs inner < 2147483648)
    (h2 : ArgEvals T env st rhs (st1, code, none)) : Evals T env st f (st1, 0, none) := by
  obtain ⟨x, hx0, hxv⟩ := holds_at hl (i := 0) rfl
  cases l with
  | none => cases hx0
  | some l =>
  cases l with
  | nil => cases hx0
  | cons z zs =>
    have e : z = x := by simpa [at?] using hx0
    subst e
    obtain ⟨n, hn⟩ := h1
    obtain ⟨k, hk⟩ := h2
    have r1 := evalArg_mono (le_max_run n k) _ _ _ _ hn
    have r2 := evalArg_mono (le_max_run' n k) _ _ _ _ hk
    obtain ⟨bs, hm, -⟩ := memberBundle_bndl (st := st) (xs := zs) hxv hg hin
    refine evals_node.mpr ⟨max n k, ?_⟩
    simp only [evalNode, hf, assignMemberNode, memberFirst, List.getElem?_cons_zero, r1, r2, Option.bind_some, hm]

/-! ## Examples -/

/-- A bundle with `/a` bound to a bundle with `/b` bound to 7, and the expressions `/a./b`, `/a./c = 5`, `/n./c = 5`, `/a./b = /no` and `/a./no`. -/
def memBytes : Bytes :=
  encB plainHeader [encBody (n! "/a") [(46, be32 32 ++ encB plainHeader [encBody (n! "/b") [(105, be32 7)]])]]

def memSt : St :=
  { exprs := [⟨.getMember, [.addr (n! "/a"), .addr (n! "/b")]⟩,
              ⟨.assignMember, [.addr (n! "/a"), .addr (n! "/c"), .atom (some (.mk 105 false (.bits 5)))]⟩,
              ⟨.assignMember, [.addr (n! "/n"), .addr (n! "/c"), .atom (some (.mk 105 false (.bits 5)))]⟩,
              ⟨.assignMember, [.addr (n! "/a"), .addr (n! "/b"), .addr (n! "/no")]⟩,
              ⟨.getMember, [.addr (n! "/a"), .addr (n! "/no")]⟩]
    recs := []
    envs := []
    bndl := some (memBytes.length, some memBytes) }

def memInner : List VMsg := [.mk (some (n! "/b")) [.num 105 7]]

theorem mem_a : ∃ l, ArgEvals noTab none memSt (.addr (n! "/a")) (memSt, 0, some l) ∧ Holds (some l) [.bndl memInner] := ⟨_, ⟨0, rfl⟩, rfl⟩

theorem mem_inner : GoodMsgs memInner ∧ NoStars memInner ∧ 16 + sizeVMsgs memInner < 2147483648 := by
  refine ⟨?_, ?_, ?_⟩
  · simp [memInner, GoodMsgs, GoodMsg, GoodVals, GoodVal]
  · simp [memInner, NoStars]
  · simp [memInner, sizeVMsgs, sizeVMsg, sizeVals, sizeVal, strSize]

-- `/a./b` is 7 and `/a./no` is not bound
example : ∃ l', Evals noTab none memSt 0 (memSt, 0, l') ∧ Holds l' [.num 105 7] := by
  obtain ⟨l, h1, h2⟩ := mem_a
  exact (C79_member rfl h1 h2 mem_inner.1 mem_inner.2.1 mem_inner.2.2 (by unfold Plain; decide) rfl).2 _ rfl
example : Evals noTab none memSt 4 (memSt, UNBOUND, none) := by
  obtain ⟨l, h1, h2⟩ := mem_a
  exact (C79_member rfl h1 h2 mem_inner.1 mem_inner.2.1 mem_inner.2.2 (by unfold Plain; decide) rfl).1 rfl

theorem mem_msgs : HasBundle memSt plainHeader [encBody (n! "/a") [(46, be32 32 ++ encB plainHeader [encBody (n! "/b") [(105, be32 7)]])]] ∧
    ∀ m ∈ [encBody (n! "/a") [(46, be32 32 ++ encB plainHeader [encBody (n! "/b") [(105, be32 7)]])]], Fits m ∧ HasAddr m := by
  refine ⟨⟨[], rfl⟩, fun m hm => ?_⟩
  rw [List.mem_singleton] at hm
  subst hm
  exact ⟨by unfold Fits; decide +kernel, by unfold HasAddr; decide +kernel⟩

theorem mem_valid {x : UInt8} (h : x ≠ 32 ∧ x ≠ 35 ∧ x ≠ 0) : ValidName [47, x] ∧ (0 : UInt8) ∉ [47, x] :=
  ⟨⟨[x], rfl, by simp, by simpa using h.1.symm, by simpa using h.2.1.symm⟩, by simpa using h.2.2.symm⟩

-- after `/a./c = 5` the value of `/a` is the bundle with `/b` bound to 7 and `/c` bound to 5
example : ∃ b out, Evals noTab none memSt 1 ({ memSt with bndl := b }, 0, out) ∧
    Holds out [.bndl [.mk (some (n! "/b")) [.num 105 7], .mk (some (n! "/c")) [.num 105 5]]] := by
  obtain ⟨l, h1, h2⟩ := mem_a
  obtain ⟨b, out, m, ms', h3, h4, -⟩ := C80_assign (T := noTab) (st := memSt) (f := 1) (st1 := memSt) (code := 0) (v := some [.mk 105 false (.bits 5)])
    (vs := [.num 105 5]) rfl h1 h2 mem_inner.1 mem_inner.2.1 mem_inner.2.2 ⟨0, rfl⟩ rfl (by simp) (by simp [GoodVals, GoodVal])
    (by simp [Copyable, sizeVal]) (by simp) (mem_valid (by decide)).1 (mem_valid (by decide)).1 (mem_valid (by decide)).2 (mem_valid (by decide)).2
    (by simp) (by simp [memInner, withMember, sizeVMsgs, sizeVMsg, sizeVals, sizeVal, strSize]) mem_msgs.1 (by decide) mem_msgs.2
  exact ⟨b, out, h3, h4⟩

-- `/n` is not bound: `/n./c = 5` binds it to a bundle with `/c`
example : ∃ b out, Evals noTab none memSt 2 ({ memSt with bndl := b }, 0, out) ∧ Holds out [.bndl [.mk (some (n! "/c")) [.num 105 5]]] := by
  obtain ⟨b0, m0, -, h2, -, h4, h5, h6⟩ := C80_new (T := noTab) (env := none) (st := memSt) (f := 2) (rest := [])
    (rhs := .atom (some (.mk 105 false (.bits 5)))) rfl ⟨0, rfl⟩
    (.inl mem_msgs.1) (mem_valid (by decide)).1 (mem_valid (by decide)).1 (mem_valid (by decide)).2 (mem_valid (by decide)).2
    (by simp [sizeVMsgs, sizeVMsg, sizeVals, sizeVal, strSize])
  obtain ⟨b, out, m, ms', h7, h8, -⟩ := (h6 { memSt with bndl := b0 } 0 (some [.mk 105 false (.bits 5)]) ⟨0, rfl⟩).2 [.num 105 5] (by simp) rfl (by simp [GoodVals, GoodVal])
    (by simp [Copyable, sizeVal]) (by simp) (by simp [sizeVMsgs, sizeVMsg, sizeVals, sizeVal, strSize]) plainHeader _ h5 (by decide) (fun m hm => by
      rcases List.mem_append.mp hm with hm | hm
      · exact mem_msgs.2 m hm
      · rw [List.mem_singleton] at hm; rw [hm]; exact ⟨h2, h4⟩)
  exact ⟨b, out, h7, h8⟩

theorem C80_error_full_fails : ¬ C80_error_full := by
  intro h
  obtain ⟨l, h1, h2⟩ := mem_a
  have k := h noTab memSt memSt 3 _ _ _ (some l) memInner UNBOUND rfl h1 h2 ⟨0, rfl⟩ (by decide)
  have k' := C80_error (T := noTab) (env := none) (st := memSt) (f := 3) rfl h1 h2 mem_inner.1 mem_inner.2.2 (st1 := memSt) (code := UNBOUND) ⟨0, rfl⟩
  have := evals_unique k k'
  simp only [Prod.mk.injEq] at this
  exact absurd this.2.1 (by decide)

end Libo.Props
