import Verif.ExprSemNums
import Verif.Props.ExprStr
import Verif.Props.ExprCast
import Verif.Props.ExprBits
/-!
# The functions on texts, casts and bits do what the semantics say

`Sem.numFuns` of `ExprSem.lean` and the model, for texts, casts, bits and byte order.
-/

namespace Libo.Sem
open Libo Libo.Expr Libo.Props Libo.Ieee

/-! ### Texts -/

theorem decimal_nat (n : Nat) : (Nat.toDigits 10 n).map (fun c => UInt8.ofNat c.toNat) = Text.dec n := by
  induction n using Nat.strongRecOn with
  | _ n ih =>
    have hd : ∀ d < 10, UInt8.ofNat (Nat.digitChar d).toNat = UInt8.ofNat (48 + d) := by decide
    rw [Text.dec]
    split
    · rename_i h
      rw [Nat.toDigits_of_lt_base h, List.map_singleton, hd n h]
    · rename_i h
      rw [Nat.toDigits_of_base_le (by decide) (by omega), List.map_append, ih _ (by omega), List.map_singleton, hd _ (Nat.mod_lt _ (by decide))]

theorem decimal_eq (n : Int) : decimal n = Text.decI n := by
  simp only [decimal, Text.decI, decimal_nat]
  split <;> rfl

theorem dec_no_zero (n : Nat) : (0 : UInt8) ∉ Text.dec n := fun h => by
  have hd : ∀ d < 10, (0 : UInt8) ≠ UInt8.ofNat (48 + d) := by decide
  induction n using Nat.strongRecOn with
  | _ n ih =>
    rw [Text.dec] at h
    split at h
    · exact hd n ‹_› (List.mem_singleton.mp h)
    · rcases List.mem_append.mp h with h | h
      · exact ih _ (by omega) h
      · exact hd _ (Nat.mod_lt _ (by decide)) (List.mem_singleton.mp h)

theorem decI_no_zero (n : Int) : (0 : UInt8) ∉ Text.decI n := by
  simp only [Text.decI]
  split
  · simp only [List.mem_cons, not_or]
    exact ⟨by decide, dec_no_zero _⟩
  · exact dec_no_zero _

theorem bmod_signed {w b : Nat} (h : b < 2 ^ w) (hw : 0 < w) : Int.bmod b (2 ^ w) = Text.signedOf w b := by
  have c : (2 : Int) ^ w = ((2 ^ w : Nat) : Int) := by push_cast; rfl
  have h2 : 2 ^ w = 2 * 2 ^ (w - 1) := by rw [← Nat.pow_succ']; congr 1; omega
  rw [Text.signedOf, c]
  generalize 2 ^ w = M at *
  rw [Int.bmod, Int.emod_eq_of_lt (by omega) (by omega)]
  split <;> split <;> omega

/-- The text of an integer. -/
theorem textNum_int (P : Text.Printf) {tag : UInt8} {b : Nat} {t : ITy} {n : Int} (h : asInt (.num tag b) = some (t, n)) :
    t.tag = tag ∧ b < 2 ^ t.width ∧ n = t.conv b ∧ (t ≠ .i8 → t ≠ .u8 → Text.textNum P tag b = Text.decI n) := by
  simp only [asInt, Option.bind_eq_some_iff] at h
  obtain ⟨t', h1, h2⟩ := h
  have h3 := List.find?_some h1
  simp only [beq_iff_eq] at h3
  subst h3
  split at h2
  · rename_i hb
    cases h2
    refine ⟨rfl, hb, rfl, fun h4 h5 => ?_⟩
    have hu : ∀ m : Nat, Text.dec m = Text.decI m := fun m => by simp [Text.decI]
    cases t
    · exact absurd rfl h4
    · have e : ITy.i16.conv b = Text.signedOf 16 b := by
        simp only [ITy.conv, ITy.signed, ITy.width, if_true]
        exact bmod_signed hb (by decide)
      rw [e]; simp [Text.textNum, ITy.tag]
    · have e : ITy.i32.conv b = Text.signedOf 32 b := by
        simp only [ITy.conv, ITy.signed, ITy.width, if_true]
        exact bmod_signed hb (by decide)
      rw [e]; simp [Text.textNum, ITy.tag]
    · have e : ITy.i64.conv b = Text.signedOf 64 b := by
        simp only [ITy.conv, ITy.signed, ITy.width, if_true]
        exact bmod_signed hb (by decide)
      rw [e]; simp [Text.textNum, ITy.tag]
    · exact absurd rfl h5
    all_goals
      have e : ∀ t : ITy, t.signed = false → b < 2 ^ t.width → t.conv b = b := fun t h1 h2 => by
        simp only [ITy.conv, h1]
        exact Int.emod_eq_of_lt (by omega) (by exact_mod_cast h2)
      rw [e _ rfl hb, ← hu]; simp [Text.textNum, ITy.tag]
  · cases h2

theorem textOf_spec (P : Text.Printf) {v : Val} {s : Bytes} (h : textOf v = some s) :
    HasText P v ∧ strText P v = s ∧ Joinable P v ∧ joined P v = s := by
  cases v with
  | str t =>
    simp only [textOf] at h
    split at h
    · cases h
    · rename_i hc
      cases h
      have h0 : (0 : UInt8) ∉ s := by simpa using hc
      exact ⟨h0, rfl, h0, rfl⟩
  | bare t =>
    simp only [textOf] at h
    have ht : t = 84 ∨ t = 70 ∨ t = 78 := by
      split at h
      · exact .inl ‹_›
      · split at h
        · exact .inr (.inl ‹_›)
        · split at h
          · exact .inr (.inr ‹_›)
          · cases h
    refine ⟨ht, ?_, ht, ?_⟩ <;> rcases ht with rfl | rfl | rfl <;> simp at h <;> subst h <;> rfl
  | num tag b =>
    simp only [textOf] at h
    split at h
    · cases h
    · rename_i hc
      simp only [not_or] at hc
      simp only [Option.map_eq_some_iff] at h
      obtain ⟨⟨t, n⟩, h1, rfl⟩ := h
      obtain ⟨h2, -, -, h3⟩ := textNum_int P h1
      have e : Text.textNum P tag b = decimal n := by
        rw [decimal_eq]
        refine h3 ?_ ?_ <;> rintro rfl <;> simp [ITy.tag] at h2 <;> simp [← h2] at hc
      have h0 : (0 : UInt8) ∉ Text.textNum P tag b := by rw [e, decimal_eq]; exact decI_no_zero n
      refine ⟨⟨hc.2, h0⟩, e, ?_, ?_⟩
      · simpa [Joinable, hc.1, hc.2] using h0
      · simp [joined, hc.1, hc.2, e]
  | _ => cases h

theorem texts_spec (P : Text.Printf) {vs : List Val} {ts : List Bytes} (h : vs.mapM textOf = some ts) :
    (∀ v ∈ vs, HasText P v ∧ Joinable P v) ∧ vs.map (strText P) = ts ∧ vs.map (joined P) = ts := by
  obtain ⟨h1, h2⟩ := mapM_get h
  refine ⟨fun v hv => ?_, ?_, ?_⟩
  · obtain ⟨i, hi, rfl⟩ := List.mem_iff_getElem.mp hv
    obtain ⟨s, -, h3⟩ := h2 i _ (List.getElem?_eq_getElem hi)
    have := textOf_spec P h3
    exact ⟨this.1, this.2.2.1⟩
  · refine mapM_unique h (by simp) fun i v s s' hv hs' hs => ?_
    rw [List.getElem?_map, hv] at hs'
    cases hs'
    exact (textOf_spec P hs).2.1
  · refine mapM_unique h (by simp) fun i v s s' hv hs' hs => ?_
    rw [List.getElem?_map, hv] at hs'
    cases hs'
    exact (textOf_spec P hs).2.2.2

theorem mapM_map {α β γ : Type} {f : α → Option β} {g : β → γ} {l : List α} {r : List γ} (h : (l.mapM fun a => (f a).map g) = some r) :
    ∃ m, l.mapM f = some m ∧ r = m.map g := by
  have h' : (l.mapM fun a => (f a).bind fun b => some (g b)) = some r := by
    rw [← h]; congr 1; funext a; cases f a <;> rfl
  obtain ⟨m, h1, h2⟩ := mapM_bind h'
  refine ⟨m, h1, ?_⟩
  have := (mapM_some_iff _ _ _).mp h2
  have e : m.map (fun b => some (g b)) = (m.map g).map some := by simp
  rw [e] at this
  exact (List.map_inj_right (by simp)).mp this.symm

theorem fnOk_strlen (P : Text.Printf) : FnOk (strlenF P) (map1 strlen1) := fnOk_map1 fun a vs ws ha hw => by
  obtain ⟨ts, h1, rfl⟩ := mapM_map hw
  obtain ⟨h2, h3, -⟩ := texts_spec P h1
  obtain ⟨out, h4, h5⟩ := C56_strlen P a [] vs ha fun v hv => (h2 v hv).1
  refine ⟨_, h4, ?_⟩
  rw [← h3, List.map_map]
  exact h5

theorem fnOk_ofTexts {f : List Ar → Res} {g : Bytes → Bytes → List Val} (P : Text.Printf)
    (h : ∀ a b v vs w ws, Holds a (v :: vs) → Holds b (w :: ws) → HasText P v → HasText P w →
      ∃ out, f [a, b] = some (0, out) ∧ Holds out (g (strText P v) (strText P w))) : FnOk f (ofTexts g) := fnOk_yields fun argv vss r hv hr => by
  match vss, hv, hr with
  | [v :: vs, w :: ws], hv, hr =>
    obtain ⟨a, as, rfl, ha, -, hv⟩ := holdS_cons hv
    obtain ⟨b, as, rfl, hb, -, hv⟩ := holdS_cons hv
    have := holdS_nil hv; subst this
    simp only [ofTexts, Option.bind_eq_some_iff, Option.map_eq_some_iff] at hr
    obtain ⟨s, hs, t, ht, rfl⟩ := hr
    obtain ⟨h1, rfl, -⟩ := textOf_spec P hs
    obtain ⟨h2, rfl, -⟩ := textOf_spec P ht
    exact h a b v vs w ws ha hb h1 h2
  | [], _, hr => simp [ofTexts] at hr
  | [_], _, hr => simp [ofTexts] at hr
  | [[], _], _, hr => simp [ofTexts] at hr
  | [_ :: _, []], _, hr => simp [ofTexts] at hr
  | _ :: _ :: _ :: _, _, hr => simp [ofTexts] at hr

theorem places_spec {sub : Bytes} (hne : sub ≠ []) : ∀ (s : Bytes) (k skip : Nat),
    (∀ p ∈ places sub k skip s, k + skip ≤ p ∧ sub <+: s.drop (p - k)) ∧ (places sub k skip s).Pairwise (fun p q => p + sub.length ≤ q) ∧
    ∀ q, k + skip ≤ q → sub <+: s.drop (q - k) → ∃ p ∈ places sub k skip s, p ≤ q ∧ q < p + sub.length
  | [], k, skip => by
    refine ⟨by simp [places], by simp [places], fun q _ h => ?_⟩
    simp at h
    exact absurd h hne
  | c :: s, k, skip + 1 => by
    obtain ⟨h1, h2, h3⟩ := places_spec hne s (k + 1) skip
    have hd : ∀ p, k + 1 ≤ p → (c :: s).drop (p - k) = s.drop (p - (k + 1)) := fun p hp => by
      rw [show p - k = (p - (k + 1)) + 1 by omega, List.drop_succ_cons]
    simp only [places]
    refine ⟨fun p hp => ?_, h2, fun q hq hs => ?_⟩
    · obtain ⟨g1, g2⟩ := h1 p hp
      exact ⟨by omega, by rw [hd p (by omega)]; exact g2⟩
    · exact h3 q (by omega) (by rw [← hd q (by omega)]; exact hs)
  | c :: s, k, 0 => by
    have hlen : 0 < sub.length := List.length_pos_iff.mpr hne
    have hd : ∀ p, k + 1 ≤ p → (c :: s).drop (p - k) = s.drop (p - (k + 1)) := fun p hp => by
      rw [show p - k = (p - (k + 1)) + 1 by omega, List.drop_succ_cons]
    simp only [places]
    split
    · rename_i hp
      obtain ⟨h1, h2, h3⟩ := places_spec hne s (k + 1) (sub.length - 1)
      refine ⟨fun p hp' => ?_, ?_, fun q hq hs => ?_⟩
      · rcases List.mem_cons.mp hp' with rfl | hp'
        · simpa using hp
        · obtain ⟨g1, g2⟩ := h1 p hp'
          exact ⟨by omega, by rw [hd p (by omega)]; exact g2⟩
      · rw [List.pairwise_cons]
        exact ⟨fun q hq => by have := (h1 q hq).1; omega, h2⟩
      · by_cases hlt : q < k + sub.length
        · exact ⟨k, List.mem_cons_self .., by omega, hlt⟩
        · obtain ⟨p, g1, g2⟩ := h3 q (by omega) (by rw [← hd q (by omega)]; exact hs)
          exact ⟨p, List.mem_cons_of_mem _ g1, g2⟩
    · rename_i hp
      obtain ⟨h1, h2, h3⟩ := places_spec hne s (k + 1) 0
      refine ⟨fun p hp' => ?_, h2, fun q hq hs => ?_⟩
      · obtain ⟨g1, g2⟩ := h1 p hp'
        exact ⟨by omega, by rw [hd p (by omega)]; exact g2⟩
      · by_cases hk : q = k
        · subst hk; simp at hs; exact absurd hs hp
        · exact h3 q (by omega) (by rw [← hd q (by omega)]; exact hs)

theorem fnOk_strfind (P : Text.Printf) : FnOk (Expr.strfind P) strfind := fnOk_ofTexts P fun a b v vs w ws ha hb hv hw => by
  split
  · rename_i he
    exact ⟨none, C56_strfind_empty P a b v w vs ws ha hb hv hw he, rfl⟩
  · rename_i he
    obtain ⟨ps, out, h1, h2, h3⟩ := C56_strfind P a b v w vs ws ha hb hv hw he
    obtain ⟨g1, g2, g3⟩ := places_spec he (strText P w) 0 0
    have e := isFind_unique he ps (places (strText P v) 0 0 (strText P w)) 0 h3 ⟨by simpa using g1, g2, by simpa using g3⟩
    subst e
    exact ⟨_, h1, h2⟩

theorem wordsOf_pieces (sep : Bytes) : ∀ (s w : Bytes), ∃ p ps, pieces sep s = p :: ps ∧
    wordsOf sep w s = ((w.reverse ++ p) :: ps).filter (· ≠ [])
  | [], w => by
    refine ⟨[], [], rfl, ?_⟩
    simp only [wordsOf, List.append_nil]
    split
    · rename_i h; subst h; rfl
    · rename_i h; simp [h]
  | c :: s, w => by
    simp only [pieces, wordsOf]
    split
    · obtain ⟨p, ps, h1, h2⟩ := wordsOf_pieces sep s []
      refine ⟨[], p :: ps, by rw [h1], ?_⟩
      split
      · rename_i h; subst h; rw [h2]; simp
      · rename_i h; rw [h2]; simp [h]
    · obtain ⟨p, ps, h1, h2⟩ := wordsOf_pieces sep s (c :: w)
      refine ⟨c :: p, ps, by rw [h1], ?_⟩
      rw [h2]; simp

theorem fnOk_split (P : Text.Printf) : FnOk (Expr.split P) split := fnOk_ofTexts P fun a b v vs w ws ha hb hv hw => by
  split
  · rename_i he
    obtain ⟨out, h1, h2⟩ := C56_split_chars P a b v w vs ws ha hb hv hw he
    exact ⟨_, h1, h2⟩
  · rename_i he
    obtain ⟨out, h1, h2⟩ := C56_split P a b v w vs ws ha hb hv hw he
    obtain ⟨p, ps, h3, h4⟩ := wordsOf_pieces (strText P v) (strText P w) []
    refine ⟨_, h1, ?_⟩
    rw [h4, List.reverse_nil, List.nil_append, ← h3]
    exact h2

theorem between_intercalate (s : Bytes) : ∀ ts : List Bytes, Libo.Text.between s ts = List.intercalate s ts
  | [] => rfl
  | [t] => by simp [Libo.Text.between]
  | t :: u :: ts => by
    rw [Libo.Text.between, between_intercalate s (u :: ts), List.intercalate_cons_cons]

theorem holdS_flat : ∀ {argv : List Ar} {vss : List (List Val)}, HoldS argv vss → Holds (some (argv.flatMap fun a => a.getD [])) vss.flatten
  | [], vss, h => by have h : vss = [] := h; subst h; rfl
  | a :: as, vss, h => by
    obtain ⟨vs, vss', rfl, h1, -, h3⟩ := h
    rw [List.flatMap_cons, List.flatten_cons]
    exact argsVal_append _ _ _ _ h1 (holdS_flat h3)

theorem fnOk_join (P : Text.Printf) : FnOk (Expr.join P) join := fnOk_yields fun argv vss r hv hr => by
  match vss, hv, hr with
  | (v :: vs) :: vss, hv, hr =>
    obtain ⟨a, as, rfl, ha, -, hv⟩ := holdS_cons hv
    simp only [join] at hr
    split at hr
    · cases hr
    · rename_i hne
      simp only [Option.bind_eq_some_iff, Option.map_eq_some_iff] at hr
      obtain ⟨s, hs, ts, ht, rfl⟩ := hr
      obtain ⟨h1, rfl, -⟩ := textOf_spec P hs
      obtain ⟨h2, -, rfl⟩ := texts_spec P ht
      obtain ⟨out, h3, h4⟩ := C56_join P a as v vs _ ha h1 (by
        rintro rfl
        have : vss = [] := hv
        subst this
        exact hne rfl) (holdS_flat hv) hne (fun v hv => (h2 v hv).2)
      refine ⟨_, h3, ?_⟩
      rw [← between_intercalate]
      exact h4
  | [], _, hr => simp [join] at hr
  | [] :: _, _, hr => simp [join] at hr

theorem fnOk_strchar (P : Text.Printf) : FnOk (Expr.strchar P) strchar := fnOk_yields fun argv vss r hv hr => by
  match vss, hv, hr with
  | [is, vs], hv, hr =>
    obtain ⟨a, as, rfl, ha, -, hv⟩ := holdS_cons hv
    obtain ⟨b, as, rfl, hb, -, hv⟩ := holdS_cons hv
    have := holdS_nil hv; subst this
    simp only [strchar, Option.bind_eq_some_iff] at hr
    obtain ⟨ns, hn, ts, ht, hr⟩ := hr
    obtain ⟨rfl, h1⟩ := mapM_asInt hn
    obtain ⟨h2, rfl, -⟩ := texts_spec P ht
    split at hr
    · rename_i h32
      split at hr
      · rename_i hin
        cases hr
        obtain ⟨out, h3, h4⟩ := C56_strchar P a b ns vs ha hb (fun x hx => ⟨h1 x hx, h32 x hx⟩) (fun v hv => (h2 v hv).1)
          (fun v hv x hx => hin _ (List.mem_map_of_mem hv) x hx)
        refine ⟨_, h3, ?_⟩
        rw [List.map_map]
        exact h4
      · rename_i hin
        cases hr
        refine ⟨by decide, ?_⟩
        obtain ⟨out, h3⟩ := C56_strchar_range P a b ns vs ha hb (fun x hx => ⟨h1 x hx, h32 x hx⟩) (fun v hv => (h2 v hv).1) (by
          apply Classical.byContradiction
          intro hno
          apply hin
          intro t ht x hx
          obtain ⟨v, hv, rfl⟩ := List.mem_map.mp ht
          apply Classical.byContradiction
          intro h'
          exact hno ⟨v, hv, x, hx, h'⟩)
        exact ⟨_, h3⟩
    · cases hr
  | [], _, hr => simp [strchar] at hr
  | [_], _, hr => simp [strchar] at hr
  | _ :: _ :: _ :: _, _, hr => simp [strchar] at hr

/-! ### Casts -/

theorem value_tdiv (s : Bool) (m k : Nat) : (value s m).tdiv k = value s (m / k) := by
  cases s
  · simp [value]
  · simp [value, Int.neg_tdiv]

theorem trunc_ofBits {F : Fmt} {mb eb bits : Nat} (h1 : F.mb = mb) (h2 : F.eb = eb) {s : Bool} {m : Nat} (h : Fp.ofBits F bits = .fin s m) :
    ieeeFinite mb eb bits ∧ ieeeUnits mb eb bits = value s m := by
  subst h1 h2
  simp only [Fp.ofBits] at h
  split at h
  · split at h <;> cases h
  · rename_i hf
    refine ⟨hf, ?_⟩
    simp only [ieeeUnits]
    split at h
    · rename_i h0
      rw [if_pos h0]
      injection h with e1 e2
      subst e1 e2
      simp [value]
    · rename_i h0
      rw [if_neg h0]
      injection h with e1 e2
      subst e1 e2
      simp [value, Nat.add_comm]

theorem castInt_spec {t : ITy} {v w : Val} (h : castInt t v = some w) : ∃ n, IntOf t v n ∧ w = t.val n := by
  simp only [castInt] at h
  split at h
  · rename_i s n hn
    cases h
    exact ⟨n, .inl ⟨s, asInt_spec hn⟩, rfl⟩
  · split at h
    · rename_i b
      split at h
      · rename_i hb; subst hb; cases h; exact ⟨1, .inr (.inl ⟨rfl, rfl⟩), rfl⟩
      · split at h
        · rename_i hb
          cases h
          exact ⟨0, .inr (.inr (.inl ⟨by rcases hb with rfl | rfl <;> simp, rfl⟩)), rfl⟩
        · cases h
    · split at h
      · rename_i hf
        split at h
        · rename_i s m hm
          split at h
          · rename_i hh
            cases h
            refine ⟨_, ?_, rfl⟩
            cases v with
            | num tag b =>
              simp only [floating, Bool.or_eq_true, beq_iff_eq] at hf
              rcases hf with rfl | rfl
              · have hm : Fp.ofBits f64 b = .fin s m := by simpa [asFp] using hm
                obtain ⟨k1, k2⟩ := trunc_ofBits (mb := 52) (eb := 11) rfl rfl hm
                refine .inr (.inr (.inr (.inr ⟨b, rfl, ⟨k1, ?_⟩, hh⟩)))
                rw [k2]; exact (value_tdiv s m (2 ^ 1074)).symm
              · simp only [asFp] at hm
                rw [if_neg (by decide), if_pos trivial, Option.some.injEq] at hm
                split at hm
                · rename_i s' m' hm'
                  injection hm with e1 e2
                  subst e1 e2
                  obtain ⟨k1, k2⟩ := trunc_ofBits (mb := 23) (eb := 8) rfl rfl hm'
                  have e : m' * 2 ^ 925 / 2 ^ 1074 = m' / 2 ^ 149 := by
                    rw [show 1074 = 149 + 925 from rfl, Nat.pow_add, Nat.mul_div_mul_right _ _ (Nat.two_pow_pos 925)]
                  rw [e] at hh ⊢
                  refine .inr (.inr (.inr (.inl ⟨b, rfl, ⟨k1, ?_⟩, hh⟩)))
                  rw [k2]; exact (value_tdiv s' m' (2 ^ 149)).symm
                · rename_i hno
                  exact absurd hm (hno _ _)
            | _ => cases hf
          · cases h
        · cases h
      · cases h

theorem mapM_exists {α β γ : Type} {f : α → Option β} {Q : α → γ → Prop} {e : γ → β} (hf : ∀ a b, f a = some b → ∃ c, Q a c ∧ b = e c) :
    ∀ {l : List α} {r : List β}, l.mapM f = some r → ∃ m : List γ, l.length = m.length ∧
      (∀ (i : Nat) a c, l[i]? = some a → m[i]? = some c → Q a c) ∧ r = m.map e
  | [], r, h => by simp at h; subst h; exact ⟨[], rfl, by simp, rfl⟩
  | a :: l, r, h => by
    simp only [List.mapM_cons, Option.bind_eq_bind, Option.bind_eq_some_iff, Option.pure_def, Option.some.injEq] at h
    obtain ⟨b, h1, bs, h3, rfl⟩ := h
    obtain ⟨c, h4, rfl⟩ := hf a b h1
    obtain ⟨m, h5, h6, rfl⟩ := mapM_exists hf h3
    refine ⟨c :: m, by simp [h5], fun i a' c' ha hc => ?_, rfl⟩
    cases i with
    | zero => simp at ha hc; subst ha hc; exact h4
    | succ i => simp at ha hc; exact h6 i a' c' ha hc

theorem fnOk_cast (P : Text.Printf) (t : ITy) : FnOk (explicitCast P (.int t)) (map1 (castInt t)) := fnOk_map1 fun a vs ws ha hw => by
  obtain ⟨ns, hl, hn⟩ := mapM_exists (fun v w => castInt_spec (t := t) (v := v) (w := w)) hw
  obtain ⟨out, h3, h4⟩ := C57_int P t a [] vs ns ha hl hn.1
  exact ⟨_, h3, by rw [hn.2]; exact h4⟩

theorem fnOk_bool (P : Text.Printf) : FnOk (explicitCast P .bool) (fun1 (List.map fun v => truthVal v.truth)) := fnOk_fun1 fun a vs ha _ => by
  obtain ⟨out, h1, h2⟩ := C57_bool P a [] vs ha
  exact ⟨_, h1, h2⟩

/-! ### Bits and byte order -/

theorem fnOk_bits {f : List Ar → Res} {g : Nat → Nat → Nat} (h : ∀ (a b : Ar) (s1 s2 : ITy) (n1 n2 : Int) (l m : List (ITy × Int)),
    Holds a (intVals ((s1, n1) :: l)) → Holds b (intVals ((s2, n2) :: m)) → s1.has n1 → s2.has n2 → ∀ t : ITy,
    t ∈ ((s1, n1) :: l ++ (s2, n2) :: m).map (·.1) → (∀ p ∈ (s1, n1) :: l ++ (s2, n2) :: m, ITy.le p.1 t) → t ≠ .u8 →
    ∃ out, f [a, b] = some (0, some out) ∧ Holds (some out) [t.val ((g (bitsOf t n1) (bitsOf t n2) : Nat) : Int)]) : FnOk f (bitwise g) :=
  fnOk_yields fun argv vss r hv hr => by
  match vss, hv, hr with
  | [vs, ws], hv, hr =>
    obtain ⟨a, as, rfl, ha, -, hv⟩ := holdS_cons hv
    obtain ⟨b, as, rfl, hb, -, hv⟩ := holdS_cons hv
    have := holdS_nil hv; subst this
    simp only [bitwise, Option.bind_eq_some_iff] at hr
    obtain ⟨l, hl, m, hm, hr⟩ := hr
    obtain ⟨rfl, h1⟩ := mapM_asInt hl
    obtain ⟨rfl, h2⟩ := mapM_asInt hm
    split at hr
    · rename_i s1 n1 l s2 n2 m t _ ht
      split at hr
      · cases hr
      · rename_i hu
        cases hr
        obtain ⟨g1, g2⟩ := largest_ok ht
        obtain ⟨out, k1, k2⟩ := h a b s1 s2 n1 n2 l m ha hb (h1 _ (List.mem_cons_self ..)) (h2 _ (List.mem_cons_self ..)) t g1
          (fun p hp => g2 _ (List.mem_map_of_mem hp)) hu
        exact ⟨_, k1, k2⟩
    · cases hr
  | [], _, hr => simp [bitwise] at hr
  | [_], _, hr => simp [bitwise] at hr
  | _ :: _ :: _ :: _, _, hr => simp [bitwise] at hr

theorem fnOk_bitand : FnOk bitAnd (bitwise (· &&& ·)) := fnOk_bits fun a b s1 s2 n1 n2 l m ha hb h1 h2 t ht hm hu =>
  (C58_bits_partial a b s1 s2 n1 n2 l m ha hb h1 h2 t ht hm hu).1

theorem fnOk_bitor : FnOk bitOr (bitwise (· ||| ·)) := fnOk_bits fun a b s1 s2 n1 n2 l m ha hb h1 h2 t ht hm hu =>
  (C58_bits_partial a b s1 s2 n1 n2 l m ha hb h1 h2 t ht hm hu).2

theorem swapped_spec : ∀ (k n : Nat), Reversed k n (swapped k n)
  | 0, n => ⟨by simp [swapped], fun i hi => by omega⟩
  | k + 1, n => by
    obtain ⟨h1, h2⟩ := swapped_spec k (n / 256)
    have hx : n % 256 < 256 := Nat.mod_lt _ (by decide)
    have hk : 0 < 256 ^ k := Nat.pow_pos (by decide)
    simp only [swapped]
    refine ⟨?_, fun i hi => ?_⟩
    · rw [Nat.pow_succ]
      have : n % 256 * 256 ^ k ≤ 255 * 256 ^ k := Nat.mul_le_mul_right _ (by omega)
      omega
    · by_cases hik : i = k
      · subst hik
        rw [Nat.mul_comm, Nat.mul_add_div hk, Nat.div_eq_of_lt h1]
        simp
      · have e : 256 ^ k = 256 ^ i * (256 * 256 ^ (k - 1 - i)) := by
          rw [← Nat.pow_succ', ← Nat.pow_add]; congr 1; omega
        rw [e, ← Nat.mul_assoc, Nat.mul_comm (n % 256), Nat.mul_assoc, Nat.mul_add_div (Nat.pow_pos (by decide)),
          show n % 256 * (256 * 256 ^ (k - 1 - i)) = 256 * (n % 256 * 256 ^ (k - 1 - i)) by rw [Nat.mul_left_comm],
          Nat.mul_add_mod, h2 i (by omega), Nat.div_div_eq_div_mul, ← Nat.pow_succ']
        congr 3; omega

theorem flat_one {a : Ar} {vs : List Val} (h : Holds a vs) : Holds (flat [a]) vs := by
  simp only [flat, List.flatMap_cons, List.flatMap_nil, List.append_nil]
  exact h

theorem fnOk_swap {f : List Ar → Res} {g : Val → Option Val} {k : Nat} {u : ITy} {ty : ITy → ITy} {Q : ITy → Prop}
    (hg : ∀ v w, g v = some w → ∃ t n, asInt v = some (t, n) ∧ Q t ∧ w = (ty t).val (swapped k (bitsOf u n) : Nat))
    (h : ∀ (a : Ar) (l : List (ITy × Int)) (rs : List Nat), Holds (flat [a]) (intVals l) → rs.length = l.length → (∀ p ∈ l, Q p.1 ∧ p.1.has p.2) →
      (∀ (i : Nat) p r, l[i]? = some p → rs[i]? = some r → Reversed k (bitsOf u p.2) r) →
      ∃ out, f [a] = some (0, out) ∧ Holds out (List.zipWith (fun p r => (ty p.1).val (r : Nat)) l rs)) : FnOk f (map1 g) :=
  fnOk_map1 fun a vs ws ha hw => by
  obtain ⟨l, h1, h2, rfl⟩ := mapM_exists (Q := fun v (p : ITy × Int) => asInt v = some p ∧ Q p.1)
    (e := fun p => (ty p.1).val (swapped k (bitsOf u p.2) : Nat)) (fun v w hw => by
      obtain ⟨t, n, g1, g2, g3⟩ := hg v w hw
      exact ⟨(t, n), ⟨g1, g2⟩, g3⟩) hw
  have hm : vs.mapM asInt = some l := by
    rw [mapM_some_iff]
    apply List.ext_getElem?
    intro i
    by_cases hi : i < vs.length
    · have e1 : vs[i]? = some vs[i] := List.getElem?_eq_getElem hi
      have e2 : l[i]? = some (l[i]'(by omega)) := List.getElem?_eq_getElem _
      rw [List.getElem?_map, List.getElem?_map, e1, e2, Option.map_some, Option.map_some, (h2 i _ _ e1 e2).1]
    · rw [List.getElem?_eq_none (by simp; omega), List.getElem?_eq_none (by simp; omega)]
  obtain ⟨rfl, h3⟩ := mapM_asInt hm
  obtain ⟨out, h4, h5⟩ := h a l (l.map fun p => swapped k (bitsOf u p.2)) (flat_one ha) (by simp) (fun p hp => ⟨by
      obtain ⟨i, hi, rfl⟩ := List.mem_iff_getElem.mp hp
      exact (h2 i _ _ (List.getElem?_eq_getElem (by omega)) (List.getElem?_eq_getElem hi)).2, h3 p hp⟩) (fun i p r hp hr => by
      rw [List.getElem?_map, hp] at hr
      cases hr
      exact swapped_spec _ _)
  refine ⟨out, h4, ?_⟩
  rw [List.zipWith_map_right, List.zipWith_self] at h5
  exact h5

theorem fnOk_hton32 : FnOk hton32 (map1 swap32) := fnOk_swap (k := 4) (u := .u32) (ty := to32) (Q := fun t => t.width ≤ 32) (fun v w h => by
    simp only [swap32] at h
    split at h
    · rename_i t n hn
      split at h
      · rename_i ht; cases h; exact ⟨t, n, hn, ht, rfl⟩
      · cases h
    · cases h) fun a l rs ha hl hp hr => by
  obtain ⟨out, h1, -, h2⟩ := C58_swap32 [a] l rs ha hl hp hr
  exact ⟨_, h1, h2⟩

theorem fnOk_ntoh32 : FnOk ntoh32 (map1 swap32) := fnOk_swap (k := 4) (u := .u32) (ty := to32) (Q := fun t => t.width ≤ 32) (fun v w h => by
    simp only [swap32] at h
    split at h
    · rename_i t n hn
      split at h
      · rename_i ht; cases h; exact ⟨t, n, hn, ht, rfl⟩
      · cases h
    · cases h) fun a l rs ha hl hp hr => by
  obtain ⟨out, -, h1, h2⟩ := C58_swap32 [a] l rs ha hl hp hr
  exact ⟨_, h1, h2⟩

theorem swap64_some {ty : ITy → ITy} {v w : Val} (h : swap64 ty v = some w) :
    ∃ t n, asInt v = some (t, n) ∧ True ∧ w = (ty t).val (swapped 8 (bitsOf .u64 n) : Nat) := by
  simp only [swap64] at h
  split at h
  · rename_i t n hn; cases h; exact ⟨t, n, hn, trivial, rfl⟩
  · cases h

theorem fnOk_hton64 : FnOk hton64 (map1 (swap64 fun _ => .u64)) := fnOk_swap (k := 8) (u := .u64) (ty := fun _ => .u64) (Q := fun _ => True)
    (fun _ _ h => swap64_some h) fun a l rs ha hl hp hr => by
  obtain ⟨⟨out, h1, h2⟩, -⟩ := C58_swap64 [a] l rs ha hl (fun p h => (hp p h).2) hr
  exact ⟨_, h1, h2⟩

theorem fnOk_ntoh64 : FnOk ntoh64 (map1 (swap64 in64)) := fnOk_swap (k := 8) (u := .u64) (ty := in64) (Q := fun _ => True)
    (fun _ _ h => swap64_some h) fun a l rs ha hl hp hr => by
  obtain ⟨-, out, h1, h2⟩ := C58_swap64 [a] l rs ha hl (fun p h => (hp p h).2) hr
  exact ⟨_, h1, h2⟩

end Libo.Sem
