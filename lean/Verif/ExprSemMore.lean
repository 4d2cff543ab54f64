import Verif.ExprSemTexts
import Verif.Props.ExprScale
import Verif.Props.ExprMisc
import Verif.Props.ExprDet
import Verif.Props.ExprCastFp
/-!
# Scaling, the cross product and strings of values do what the semantics say

`Sem.moreFuns` of `ExprSem.lean` and the model.
-/

namespace Libo.Sem
open Libo Libo.Expr Libo.Props Libo.Ieee

/-! ### Scaling -/

theorem scaled_lineTo {lo hi lo' hi' x y : Fp} (h : Scaled lo hi lo' hi' x y) : y = lineTo lo hi lo' hi' x := by
  have o : Ordered (· = ·) hi' lo' ↔ place hi' ≠ none ∧ place hi' = place lo' := by
    constructor
    · rintro ⟨p, q, h1, h2, h3⟩
      have h3 : p = q := h3
      subst h3
      simp [h1, h2]
    · rintro ⟨h1, h2⟩
      cases h3 : place hi' with
      | none => exact absurd h3 h1
      | some p => exact ⟨p, p, h3, by rw [← h2, h3], rfl⟩
  rw [lineTo]
  by_cases c : Ordered (· = ·) hi' lo'
  · rw [if_pos (o.mp c)]
    exact h.1 c
  · rw [if_neg (mt o.mpr c)]
    obtain ⟨rise, run, slope, p, offset, q, h1, h2, h3, h4, h5, h6, h7⟩ := h.2 c
    have e1 := (C63_unique _ _ _ _).2.1 h1 (Fp.diff_of f64 (by decide) _ _); subst e1
    have e2 := (C63_unique _ _ _ _).2.1 h2 (Fp.diff_of f64 (by decide) _ _); subst e2
    have e3 := (C63_unique _ _ _ _).2.2.2 h3 (Fp.quotient_of f64 (by decide) _ _); subst e3
    have e4 := (C63_unique _ _ _ _).2.2.1 h4 (Fp.product_of f64 (by decide) _ _); subst e4
    have e5 := (C63_unique _ _ _ _).2.1 h5 (Fp.diff_of f64 (by decide) _ _); subst e5
    have e6 := (C63_unique _ _ _ _).2.2.1 h6 (Fp.product_of f64 (by decide) _ _); subst e6
    exact (C63_unique _ _ _ _).1 h7 (Fp.sum_of f64 (by decide) _ _)

theorem fnOk_scale : FnOk Expr.scale scale := fnOk_yields fun argv vss r hv hr => by
  match vss, hv, hr with
  | [vs, lo :: los, hi :: his, lo' :: los', hi' :: his'], hv, hr =>
    obtain ⟨a, as, rfl, ha, hsimp, hv⟩ := holdS_cons hv
    obtain ⟨b, as, rfl, hb, -, hv⟩ := holdS_cons hv
    obtain ⟨c, as, rfl, hc, -, hv⟩ := holdS_cons hv
    obtain ⟨d, as, rfl, hd, -, hv⟩ := holdS_cons hv
    obtain ⟨e, as, rfl, he, -, hv⟩ := holdS_cons hv
    have := holdS_nil hv; subst this
    simp only [scale, Option.bind_eq_some_iff, Option.map_eq_some_iff] at hr
    obtain ⟨l, hl, h, hh, l', hl', h', hh', ws, hw, rfl⟩ := hr
    obtain ⟨hw1, hw2⟩ := mapM_get hw
    generalize hF : (floating lo || floating hi || floating lo' || floating hi') = F at hw hw2
    have hFl : F = true ↔ ∃ w ∈ [lo, hi, lo', hi'], Floating w := by
      rw [← hF]
      simp [floating_iff, or_assoc]
    have hnum : ∀ (i : Nat) v, vs[i]? = some v → Element v (clipNum v) := by
      intro i v hv
      obtain ⟨w, -, h2⟩ := hw2 i v hv
      have hcp := copies hsimp v (List.mem_of_getElem? hv)
      cases v with
      | num tag b =>
        simp only [scale1, Option.bind_eq_some_iff] at h2
        obtain ⟨x, h3, -⟩ := h2
        simp only [clipNum, h3]
        exact .num _ _ (asFp_isDouble h3) (by simp [Through])
      | str s => exact .other _ trivial hcp
      | bare t =>
        simp only [scale1] at h2
        split at h2
        · rename_i ht; exact .other _ ht hcp
        · cases h2
      | _ => cases h2
    have hcl : ∀ (i : Nat) v x w, vs[i]? = some v → clipNum v = some x → scale1 F l h l' h' v = some w →
        dblOr32 (F || floating v) (lineTo l h l' h' x) = some w := by
      intro i v x w _ hx hw
      cases v with
      | num tag b =>
        simp only [clipNum] at hx
        simp only [scale1, hx, Option.bind_some] at hw
        exact hw
      | _ => cases hx
    obtain ⟨fl, out, ws', g1, g2, g3, g4, g5⟩ := C100_scale a b c d e vs (vs.map clipNum) lo hi lo' hi' los his los' his' l h l' h' ha
      ⟨by simp, fun i v x hv hx => by
        simp only [List.getElem?_map, hv, Option.map_some, Option.some.injEq] at hx
        subst hx
        exact hnum i v hv⟩ hb hc hd he (asFp_isDouble hl) (asFp_isDouble hh) (asFp_isDouble hl') (asFp_isDouble hh') (by
        intro i v x hv hx f1 f2 y hy
        simp only [List.getElem?_map, hv, Option.map_some, Option.some.injEq] at hx
        obtain ⟨w, -, h2⟩ := hw2 i v hv
        have h3 := hcl i v x w hv hx h2
        rw [scaled_lineTo hy]
        rcases dblOr32_spec h3 with ⟨hf, -⟩ | ⟨-, n, k1, k2, -⟩
        · simp only [Bool.or_eq_true, hFl, floating_iff] at hf
          rcases hf with ⟨w, h4, h5⟩ | h4
          · exact absurd h5 (f2 w h4)
          · exact absurd h4 f1
        · exact ⟨n, k1, k2⟩)
    have hfl : fl = F := by
      rw [← hFl] at g1
      exact Bool.eq_iff_iff.mpr g1
    subst hfl
    have e : ws' = ws := mapM_unique hw g4 (fun i v w w' hv hw' hcw => by
      have h6 := g5 i v w' (clipNum v) hv hw' (by rw [List.getElem?_map, hv]; rfl)
      cases hx : clipNum v with
      | none =>
        rw [hx] at h6
        have h6 : w' = v := h6
        subst h6
        cases w' with
        | num tag b =>
          simp only [clipNum] at hx
          simp [scale1, hx] at hcw
        | str s => simp only [scale1, Option.some.injEq] at hcw; exact hcw
        | bare t =>
          simp only [scale1] at hcw
          split at hcw
          · cases hcw; rfl
          · cases hcw
        | _ => cases hcw
      | some x =>
        rw [hx] at h6
        obtain ⟨y, h7, h8⟩ := h6
        have h3 := hcl i v x w hv hx hcw
        have := scaled_lineTo h7
        subst this
        rcases dblOr32_spec h3 with ⟨hf, hu⟩ | ⟨hf, n, k1, k2, rfl⟩
        · rcases h8 with ⟨-, h8⟩ | ⟨h8, h9, -⟩
          · exact hu _ h8
          · simp only [Bool.or_eq_true, floating_iff] at hf
            simp [h8, h9] at hf
        · simp only [Bool.or_eq_false_iff, not_floating] at hf
          rcases h8 with ⟨h8, -⟩ | ⟨-, -, n', k3, -, rfl⟩
          · rcases h8 with h8 | h8
            · exact absurd h8 hf.2
            · simp [hf.1] at h8
          · rw [whole_unique k1 k3])
    subst e
    exact ⟨_, g2, g3⟩
  | [], _, hr => simp [scale] at hr
  | [_], _, hr => simp [scale] at hr
  | [_, _], _, hr => simp [scale] at hr
  | [_, _, _], _, hr => simp [scale] at hr
  | [_, _, _, _], _, hr => simp [scale] at hr
  | [_, [], _, _, _], _, hr => simp [scale] at hr
  | [_, _ :: _, [], _, _], _, hr => simp [scale] at hr
  | [_, _ :: _, _ :: _, [], _], _, hr => simp [scale] at hr
  | [_, _ :: _, _ :: _, _ :: _, []], _, hr => simp [scale] at hr
  | _ :: _ :: _ :: _ :: _ :: _ :: _, _, hr => simp [scale] at hr

/-! ### The cross product -/

theorem minor_spec {t : ITy} {a b c d : Int} {v : Val} (h : minor t a b c d = some v) : CrossRoom t a b c d ∧ v = t.val (a * b - c * d) := by
  simp only [minor] at h
  split at h
  · rename_i hr
    cases h
    refine ⟨?_, rfl⟩
    have e : ∀ n, roomy t n → Room t n := fun n hn => by cases t <;> exact hn
    exact ⟨e _ hr.1, e _ hr.2.1, e _ hr.2.2⟩
  · cases h

theorem fnOk_cross : FnOk Expr.cross cross := fnOk_yields fun argv vss r hv hr => by
  match vss, hv, hr with
  | [vs, ws], hv, hr =>
    obtain ⟨a, as, rfl, ha, -, hv⟩ := holdS_cons hv
    obtain ⟨b, as, rfl, hb, -, hv⟩ := holdS_cons hv
    have := holdS_nil hv; subst this
    simp only [cross, Option.bind_eq_some_iff] at hr
    obtain ⟨xs, hx, ys, hy, hr⟩ := hr
    obtain ⟨rfl, g1⟩ := mapM_asInt hx
    obtain ⟨rfl, g2⟩ := mapM_asInt hy
    split at hr
    · simp only [Option.bind_eq_some_iff, Option.map_eq_some_iff] at hr
      obtain ⟨t, ht, x, h1, y, h2, z, h3, rfl⟩ := hr
      obtain ⟨r1, rfl⟩ := minor_spec h1
      obtain ⟨r2, rfl⟩ := minor_spec h2
      obtain ⟨r3, rfl⟩ := minor_spec h3
      obtain ⟨g3, g4⟩ := largest_ok ht
      obtain ⟨out, k1, k2⟩ := C71_cross a b _ _ _ _ _ _ t _ _ _ _ _ _ ha hb
        (fun p hp => (List.mem_append.mp hp).elim (g1 p) (g2 p)) ⟨g3, fun p hp => g4 _ (List.mem_map_of_mem (f := Prod.fst) hp)⟩ r1 r2 r3
      exact ⟨_, k1, k2⟩
    · cases hr
  | [], _, hr => simp [cross] at hr
  | [_], _, hr => simp [cross] at hr
  | _ :: _ :: _ :: _, _, hr => simp [cross] at hr

/-! ### Strings of values -/

theorem string1_spec (P : Text.Printf) {v w : Val} (h : string1 v = some w) : CastText P v ∧ w = .str (castText P v) := by
  have other : ∀ s, textOf v = some s → (∀ tag b, v = .num tag b → tag ≠ 99 ∧ tag ≠ 67) → CastText P v ∧ castText P v = s := fun s hs hn => by
    obtain ⟨h1, h2, -⟩ := textOf_spec P hs
    cases v with
    | num tag b =>
      obtain ⟨n1, n2⟩ := hn _ _ rfl
      simp only [CastText, castText, n1, n2, if_false]
      exact ⟨h1.2, h2⟩
    | _ => exact ⟨h1, h2⟩
  have text : (∀ tag b, v = .num tag b → tag ≠ 99 ∧ tag ≠ 67) → (textOf v).map Val.str = some w → CastText P v ∧ w = .str (castText P v) := fun hn h => by
    simp only [Option.map_eq_some_iff] at h
    obtain ⟨s, hs, rfl⟩ := h
    obtain ⟨h1, h2⟩ := other s hs hn
    exact ⟨h1, by rw [h2]⟩
  cases v with
  | num tag b =>
    simp only [string1] at h
    split at h
    · rename_i ht
      simp only [Option.bind_eq_some_iff] at h
      obtain ⟨⟨t, n⟩, h1, h2⟩ := h
      obtain ⟨rfl, h3, rfl, -⟩ := textNum_int P h1
      have tt : t = .i8 ∨ t = .u8 := by cases t <;> simp [ITy.tag] at ht ⊢
      rcases tt with rfl | rfl
      · have e : ITy.i8.conv b = Text.signedOf 8 b := by
          simp only [ITy.conv, ITy.signed, ITy.width, if_true]
          exact bmod_signed h3 (by decide)
        have hb : b < 256 := h3
        rw [e] at h2
        have hs : Text.signedOf 8 b = if b < 128 then (b : Int) else b - 256 := by
          simp only [Text.signedOf]; split <;> split <;> omega
        simp only [CastText, castText, ITy.tag, if_true]
        split at h2
        · rename_i hc
          cases h2
          have : b < 128 := by rw [hs] at hc; split at hc <;> omega
          rw [hs, if_pos this] at hc ⊢
          exact ⟨⟨hb, by omega⟩, by rw [if_pos (by omega)]; rfl⟩
        · rename_i hc
          split at h2
          · cases h2
          · cases h2
            refine ⟨⟨hb, by omega⟩, ?_⟩
            rw [if_neg (by rw [hs] at hc; split at hc <;> omega), decimal_eq]
      · have e : ITy.u8.conv b = b := by
          have hb : b < 256 := h3
          simp [ITy.conv, ITy.signed, ITy.width]; omega
        have hb : b < 256 := h3
        rw [e] at h2
        have c : ¬ (67 : UInt8) = 99 := by decide
        simp only [CastText, castText, ITy.tag, c, if_true, if_false]
        split at h2
        · cases h2
          exact ⟨hb, by rw [if_pos (by omega)]; rfl⟩
        · split at h2
          · omega
          · cases h2
            refine ⟨hb, ?_⟩
            rw [if_neg (by omega), decimal_eq]
            simp [Text.decI]
    · rename_i ht
      simp only [not_or] at ht
      exact text (fun tag' b' he => by cases he; exact ht) h
  | _ => exact text (fun _ _ he => by cases he) h

theorem fnOk_string (P : Text.Printf) : FnOk (explicitCast P .string) (map1 string1) := fnOk_map1 fun a vs ws ha hw => by
  obtain ⟨h1, h2⟩ := mapM_get hw
  obtain ⟨out, h3, h4⟩ := C57_string_partial P a [] vs ha fun v hv => by
    obtain ⟨i, hi, rfl⟩ := List.mem_iff_getElem.mp hv
    obtain ⟨w, -, h⟩ := h2 i _ (List.getElem?_eq_getElem hi)
    exact (string1_spec P h).1
  refine ⟨_, h3, ?_⟩
  have e : (vs.map fun v => Val.str (castText P v)) = ws := mapM_unique hw (by simp) fun i v w w' hv hw' h => by
    rw [List.getElem?_map, hv] at hw'
    cases hw'
    exact (string1_spec P h).2.symm
  rw [← e]
  exact h4

theorem fnOk_readstring : FnOk Expr.readstring readstring := fnOk_yields fun argv vss r hv hr => by
  match vss, hv, hr with
  | [vs], hv, hr =>
    obtain ⟨a, as, rfl, ha, -, hv⟩ := holdS_cons hv
    have := holdS_nil hv; subst this
    by_cases hs : ∃ s, vs = [.str s]
    · obtain ⟨s, rfl⟩ := hs
      simp only [readstring, Option.some.injEq] at hr
      subst hr
      obtain ⟨out, h1, h2⟩ := C75_readstring a s ha
      exact ⟨_, h1, h2⟩
    · have h1 : readstring [vs] = some (.error 1) := by
        unfold readstring
        split
        · rename_i s he; cases he; exact absurd ⟨s, rfl⟩ hs
        · rfl
        · rename_i h2 h3; exact absurd rfl (h3 vs)
      rw [h1] at hr
      cases hr
      have h2 := (C75_errors a vs ha (by
        match vs, hs with
        | [], _ => exact .inl (by decide)
        | [v], hs =>
          refine .inr fun w hw => ?_
          cases hw
          cases v <;> first | trivial | exact absurd ⟨_, rfl⟩ hs
        | _ :: _ :: _, _ => exact .inl (by simp))).1
      exact ⟨by decide, _, h2⟩
  | [], _, hr => simp [readstring] at hr
  | _ :: _ :: _, _, hr => simp [readstring] at hr

/-! ### Casts to `float` -/

theorem asSingle_spec {v : Val} {x : Fp} (h : asSingle v = some x) : IsSingle v x := by
  have ofInt : ∀ n, IntSingle n (Fp.ofInt f32 n) := fun n => Fp.finish_rounded f32 (by decide) _ _ 1 (by decide)
  cases v with
  | num tag b =>
    simp only [asSingle] at h
    split at h
    · rename_i ht; subst ht
      simp only [Option.some.injEq] at h
      subst h
      exact .float b
    · split at h
      · rename_i ht; subst ht
        simp only [Option.some.injEq] at h
        subst h
        refine .double b _ ?_
        cases Fp.ofBits f64 b with
        | nan => exact .nan
        | inf s => exact .inf s
        | fin s m => exact .fin s m _ (Fp.finish_rounded f32 (by decide) s _ _ (Nat.two_pow_pos _))
      · simp only [Option.map_eq_some_iff] at h
        obtain ⟨⟨t, n⟩, h1, rfl⟩ := h
        obtain ⟨g1, g2⟩ := asInt_spec h1
        rw [g2]
        exact .int t n _ g1 (ofInt n)
  | bare t =>
    simp only [asSingle] at h
    split at h
    · rename_i ht; subst ht
      simp only [Option.some.injEq] at h
      subst h
      exact .bool true _ (ofInt 1)
    · split at h
      · rename_i ht; subst ht
        simp only [Option.some.injEq] at h
        subst h
        exact .bool false _ (ofInt 0)
      · cases h
  | _ => simp [asSingle] at h

theorem fnOk_float32 (P : Text.Printf) : FnOk (explicitCast P .float32) (map1 single1) := fnOk_map1 fun a vs ws ha hw => by
  obtain ⟨xs, hx, hg⟩ := mapM_bind hw
  obtain ⟨hx1, hx2⟩ := mapM_get hx
  obtain ⟨out, bs, h3, h4, h5, h6⟩ := C57_float32 P a [] vs xs ha hx1 (by
    intro i v x hv hxi
    obtain ⟨x', k1, k2⟩ := hx2 i v hv
    rw [hxi] at k1
    cases k1
    exact asSingle_spec k2)
  refine ⟨_, h3, ?_⟩
  subst h6
  have e : bs.map (Val.num 102 ·) = ws := mapM_unique hg (by simp) fun i x w w' hx' hw' h => by
    rw [List.getElem?_map, Option.map_eq_some_iff] at hx' hw'
    obtain ⟨b, k1, rfl⟩ := hx'
    obtain ⟨b', k2, rfl⟩ := hw'
    rw [k1] at k2
    cases k2
    simp only [flt] at h
    split at h
    · cases h
    · cases h
      rw [Fp.toBits_ofBits f32 b (h5 b (List.mem_of_getElem? k1)) ‹_›]
  rw [← e]
  exact h4

/-! ### Casts to types by letter -/

theorem typeOf_spec {v : Val} {t : ITy} (h : typeOf v = some t) : v = ITy.i8.val t.tag.toNat := by
  cases v with
  | num tag b =>
    simp only [typeOf] at h
    split at h
    · rename_i ht
      subst ht
      have := List.find?_some h
      simp only [beq_iff_eq] at this
      subst this
      cases t <;> rfl
    · cases h
  | _ => cases h

theorem types_spec {vs : List Val} {ts : List ITy} (h : vs.mapM typeOf = some ts) : vs = ts.map fun t => ITy.i8.val t.tag.toNat := by
  obtain ⟨h1, h2⟩ := mapM_get h
  refine List.ext_getElem? fun i => ?_
  rw [List.getElem?_map]
  cases hv : vs[i]? with
  | none =>
    have : ts[i]? = none := by rw [List.getElem?_eq_none_iff] at hv ⊢; omega
    rw [this]; rfl
  | some v =>
    obtain ⟨t, h3, h4⟩ := h2 i v hv
    rw [h3, typeOf_spec h4]; rfl

theorem fnOk_dynamic (P : Text.Printf) : FnOk (dynamicCast P) cast := fnOk_yields fun argv vss r hv hr => by
  match vss, hv, hr with
  | [ls, vs], hv, hr =>
    obtain ⟨a, as, rfl, ha, -, hv⟩ := holdS_cons hv
    obtain ⟨b, as, rfl, hb, -, hv⟩ := holdS_cons hv
    have := holdS_nil hv; subst this
    simp only [cast, Option.bind_eq_some_iff] at hr
    obtain ⟨ts, ht, hr⟩ := hr
    have := types_spec ht
    subst this
    split at hr
    · rename_i t
      simp only [Option.map_eq_some_iff] at hr
      obtain ⟨ws, hw, rfl⟩ := hr
      obtain ⟨ns, hl, hn, rfl⟩ := mapM_exists (fun v w => castInt_spec (t := t) (v := v) (w := w)) hw
      obtain ⟨out, h3, h4⟩ := C57_dynamic_one P a b [] vs t ns ha hb hl hn
      exact ⟨_, h3, h4⟩
    · split at hr
      · rename_i hlen
        simp only [Option.map_eq_some_iff] at hr
        obtain ⟨ws, hw, rfl⟩ := hr
        obtain ⟨m, hl, hn, rfl⟩ := mapM_exists (Q := fun (p : ITy × Val) (c : ITy × Int) => c.1 = p.1 ∧ IntOf p.1 p.2 c.2) (e := fun c => c.1.val c.2)
          (fun p w hp => by
            obtain ⟨n, h1, h2⟩ := castInt_spec hp
            exact ⟨(p.1, n), ⟨rfl, h1⟩, h2⟩) hw
        have hml : m.length = vs.length := by rw [← hl, List.length_zip]; omega
        have hz : ∀ i t v, ts[i]? = some t → vs[i]? = some v → (ts.zip vs)[i]? = some (t, v) := fun i t v h1 h2 => by
          rw [List.getElem?_zip_eq_some]; exact ⟨h1, h2⟩
        obtain ⟨out, h3, h4⟩ := C57_dynamic P a b [] vs ts (m.map (·.2)) ha hb (by simp [hml]) hlen.symm (by
          intro i v n t h1 h2 h3
          rw [List.getElem?_map, Option.map_eq_some_iff] at h2
          obtain ⟨c, h2, rfl⟩ := h2
          exact (hn i _ c (hz i t v h3 h1) h2).2)
        refine ⟨_, h3, ?_⟩
        have e : List.zipWith ITy.val ts (m.map (·.2)) = m.map fun c => c.1.val c.2 := by
          refine List.ext_getElem? fun i => ?_
          rw [List.getElem?_zipWith, List.getElem?_map, List.getElem?_map]
          cases hm : m[i]? with
          | none =>
            cases ts[i]? <;> rfl
          | some c =>
            have hi : i < m.length := by
              rcases Nat.lt_or_ge i m.length with h | h
              · exact h
              · rw [List.getElem?_eq_none_iff.mpr h] at hm; cases hm
            have ht' : ts[i]? = some (ts[i]'(by omega)) := List.getElem?_eq_getElem (by omega)
            have hv' : vs[i]? = some (vs[i]'(by omega)) := List.getElem?_eq_getElem (by omega)
            have h5 : c.1 = ts[i]'(by omega) := (hn i _ c (hz i _ _ ht' hv') hm).1
            rw [ht']
            show some (ITy.val _ c.2) = some (c.1.val c.2)
            rw [h5]
        rw [← e]
        exact h4
      · cases hr
  | [], _, hr => simp [cast] at hr
  | [_], _, hr => simp [cast] at hr
  | _ :: _ :: _ :: _, _, hr => simp [cast] at hr

/-! ### Determinants -/

theorem wholes_spec {vs : List Val} {ns : List Int} (h : vs.mapM asWhole = some ns) :
    ∃ xs, Numbers vs xs ∧ xs.length = ns.length ∧ ∀ (i : Nat) x n, xs[i]? = some x → ns[i]? = some n → Stands n x := by
  induction vs generalizing ns with
  | nil =>
    simp at h; subst h
    exact ⟨[], ⟨rfl, by simp⟩, rfl, by simp⟩
  | cons v vs ih =>
    simp only [List.mapM_cons, Option.bind_eq_bind, Option.bind_eq_some_iff, Option.pure_def, Option.some.injEq] at h
    obtain ⟨n, h1, ns, h2, rfl⟩ := h
    obtain ⟨xs, g1, g2, g3⟩ := ih h2
    obtain ⟨x, k1, k2⟩ := asWhole_spec h1
    refine ⟨x :: xs, ⟨by simp [g1.1], ?_⟩, by simp [g2], ?_⟩
    · intro i v' x' hv hx
      cases i with
      | zero => cases hv; cases hx; exact k1
      | succ i => exact g1.2 i v' x' hv hx
    · intro i x' n' hx hn
      cases i with
      | zero => cases hx; cases hn; exact k2
      | succ i => exact g3 i x' n' hx hn

/-- Rows of whole numbers. -/
theorem rows_spec {argv : List Ar} {vss : List (List Val)} {ms : List (List Int)} (hv : HoldS argv vss)
    (h : (vss.mapM fun vs => vs.mapM asWhole) = some ms) :
    ∃ xss, IsMatrix argv xss ∧ xss.length = ms.length ∧
      ∀ (i : Nat) xs ns, xss[i]? = some xs → ms[i]? = some ns → xs.length = ns.length ∧ ∀ (j : Nat) x n, xs[j]? = some x → ns[j]? = some n → Stands n x := by
  induction vss generalizing argv ms with
  | nil =>
    simp at h; subst h
    have := holdS_nil hv; subst this
    exact ⟨[], ⟨rfl, by simp⟩, rfl, by simp⟩
  | cons vs vss ih =>
    obtain ⟨a, as, rfl, ha, -, hv⟩ := holdS_cons hv
    simp only [List.mapM_cons, Option.bind_eq_bind, Option.bind_eq_some_iff, Option.pure_def, Option.some.injEq] at h
    obtain ⟨ns, h1, ms, h2, rfl⟩ := h
    obtain ⟨xss, g1, g2, g3⟩ := ih hv h2
    obtain ⟨xs, k1, k2, k3⟩ := wholes_spec h1
    refine ⟨xs :: xss, ⟨by simp [g1.1], ?_⟩, by simp [g2], ?_⟩
    · intro i a' xs' hv hx
      cases i with
      | zero => cases hv; cases hx; exact ⟨vs, ha, k1⟩
      | succ i => exact g1.2 i a' xs' hv hx
    · intro i xs' ns' hx hn
      cases i with
      | zero => cases hx; cases hn; exact ⟨k2, k3⟩
      | succ i => exact g3 i xs' ns' hx hn

theorem wholeDbl_spec {n : Int} {r : Fp} {v w : Val} (hr : Stands n r) (hv : NumVal v r) (h : wholeDbl n = some w) : v = w := by
  simp only [wholeDbl] at h
  split at h
  · cases h
  · rename_i h0
    obtain ⟨s, k, rfl, rfl⟩ := hr
    refine numVal_dbl hv ?_
    rw [← h]
    have e1 : decide (value s k < 0) = s := by cases s <;> simp [value] at h0 ⊢ <;> omega
    have e2 : (value s k).natAbs = k := by cases s <;> simp [value]
    rw [e1, e2]

theorem fnOk_det : FnOk Expr.det determinant := fnOk_yields fun argv vss r hv hr => by
  simp only [determinant, Option.bind_eq_some_iff, Option.map_eq_some_iff] at hr
  obtain ⟨ms, hm, w, hw, rfl⟩ := hr
  obtain ⟨xss, h1, h2, h3⟩ := rows_spec hv hm
  have fin : ∀ {n : Int}, (∃ r, DetIs argv r ∧ Stands n r) → wholeDbl n = some w → Yields (Expr.det argv) (.ok [w]) := by
    rintro n ⟨r, ⟨out, v, k1, k2, k3⟩, k4⟩ hw
    have := wholeDbl_spec k4 k3 hw
    subst this
    exact ⟨_, k1, k2⟩
  split at hw
  · rename_i a
    split at hw
    · match xss, h1, h2, h3 with
      | [xs], h1, h2, h3 =>
        obtain ⟨g1, g2⟩ := h3 0 _ _ rfl rfl
        match xs, h1, g1, g2 with
        | [x], h1, _, g2 =>
          match argv, h1 with
          | [b], h1 =>
            obtain ⟨vs, k1, k2⟩ := h1.2 0 b _ rfl rfl
            match vs, k1, k2 with
            | [v], k1, k2 => exact fin ⟨x, C70_one b v [] x k1 (k2.2 0 v x rfl rfl), g2 0 _ _ rfl rfl⟩ hw
            | [], _, k2 => exact absurd k2.1 (by simp)
            | _ :: _ :: _, _, k2 => exact absurd k2.1 (by simp)
          | [], h1 => exact absurd h1.1 (by simp)
          | _ :: _ :: _, h1 => exact absurd h1.1 (by simp)
    · cases hw
  · split at hw
    · rename_i hb
      match xss, h1, h2, h3 with
      | [xs, ys], h1, h2, h3 =>
        obtain ⟨g1, g2⟩ := h3 0 _ _ rfl rfl
        obtain ⟨g3, g4⟩ := h3 1 _ _ rfl rfl
        match xs, ys, h1, g1, g2, g3, g4 with
        | [x, y], [z, u], h1, _, g2, _, g4 =>
          simp only [List.mem_cons, List.not_mem_nil, or_false, forall_eq_or_imp, forall_eq] at hb
          exact fin (C70_two argv x y z u _ _ _ _ h1 (g2 0 _ _ rfl rfl) (g2 1 _ _ rfl rfl) (g4 0 _ _ rfl rfl) (g4 1 _ _ rfl rfl)
            hb.1 hb.2.1 hb.2.2.1 hb.2.2.2) hw
    · cases hw
  · split at hw
    · rename_i hb
      match xss, h1, h2, h3 with
      | [xs, ys, zs], h1, h2, h3 =>
        obtain ⟨g1, g2⟩ := h3 0 _ _ rfl rfl
        obtain ⟨g3, g4⟩ := h3 1 _ _ rfl rfl
        obtain ⟨g5, g6⟩ := h3 2 _ _ rfl rfl
        match xs, ys, zs, h1, g1, g2, g3, g4, g5, g6 with
        | [x1, x2, x3], [y1, y2, y3], [z1, z2, z3], h1, _, g2, _, g4, _, g6 =>
          exact fin (C70_three argv x1 x2 x3 y1 y2 y3 z1 z2 z3 _ _ _ _ _ _ _ _ _ h1 (g2 0 _ _ rfl rfl) (g2 1 _ _ rfl rfl) (g2 2 _ _ rfl rfl)
            (g4 0 _ _ rfl rfl) (g4 1 _ _ rfl rfl) (g4 2 _ _ rfl rfl) (g6 0 _ _ rfl rfl) (g6 1 _ _ rfl rfl) (g6 2 _ _ rfl rfl) hb) hw
    · cases hw
  · cases hw

end Libo.Sem
