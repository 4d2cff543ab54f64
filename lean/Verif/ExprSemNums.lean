import Verif.ExprSemFuns
import Verif.Props.ExprCum
import Verif.Props.ExprSums
import Verif.Props.ExprMod
import Verif.Props.ExprRoots
import Verif.Props.ExprCastFp
import Verif.ExprTable
/-!
# The functions on numbers do what the semantics say

`Sem.numFuns` of `ExprSem.lean` and the model, for numbers.
-/

namespace Libo.Sem
open Libo Libo.Expr Libo.Props Libo.Ieee

/-- The call has the result of the semantics. -/
def Yields (o : Res) (r : R) : Prop :=
  match r with
  | .ok ws => ∃ out, o = some (0, out) ∧ Holds out ws
  | .error c => c ≠ 0 ∧ ∃ out, o = some (c, out)

theorem yields_outcome {o : Res} {r : R} (h : Yields o r) (hs : ∀ vs, r = .ok vs → vs.all simple = true) : ∃ code v, o = some (code, v) ∧ Outcome r code v := by
  cases r with
  | ok ws => obtain ⟨out, h1, h2⟩ := h; exact ⟨0, out, h1, rfl, h2, hs ws rfl⟩
  | error c => obtain ⟨hc, out, h1⟩ := h; exact ⟨c, out, h1, hc, rfl⟩

theorem fnOk_yields {f : List Ar → Res} {sem : List (List Val) → Option R}
    (h : ∀ argv vss r, HoldS argv vss → sem vss = some r → Yields (f argv) r) : FnOk f sem := by
  intro argv vss r hv hr
  obtain ⟨hr, hs⟩ := checked_some hr
  exact yields_outcome (h argv vss r hv hr) hs

theorem mapM_get {α β : Type} {f : α → Option β} {l : List α} {r : List β} (h : l.mapM f = some r) :
    l.length = r.length ∧ ∀ (i : Nat) a, l[i]? = some a → ∃ b, r[i]? = some b ∧ f a = some b := by
  have h := (mapM_some_iff _ _ _).mp h
  refine ⟨by simpa using congrArg List.length h, fun i a ha => ?_⟩
  have e : (l.map f)[i]? = (r.map some)[i]? := by rw [h]
  simp only [List.getElem?_map, ha, Option.map_some] at e
  cases hb : r[i]? with
  | none => rw [hb] at e; cases e
  | some b => rw [hb] at e; simp only [Option.map_some, Option.some.injEq] at e; exact ⟨b, rfl, e⟩

/-- What is related to the elements one by one is the list. -/
theorem mapM_unique {α β : Type} {f : α → Option β} {l : List α} {r r' : List β} (h : l.mapM f = some r) (hl : r'.length = l.length)
    (hu : ∀ (i : Nat) a b b', l[i]? = some a → r'[i]? = some b' → f a = some b → b' = b) : r' = r := by
  obtain ⟨h1, h2⟩ := mapM_get h
  apply List.ext_getElem?
  intro i
  by_cases hi : i < l.length
  · obtain ⟨b, h3, h4⟩ := h2 i _ (List.getElem?_eq_getElem hi)
    have h5 : r'[i]? = some (r'[i]'(by omega)) := List.getElem?_eq_getElem _
    rw [h3, h5, hu i _ b _ (List.getElem?_eq_getElem hi) h5 h4]
  · rw [List.getElem?_eq_none (by omega), List.getElem?_eq_none (by omega)]

theorem numbers_mapM {vs : List Val} {xs : List Fp} (h : vs.mapM asFp = some xs) : Numbers vs xs := by
  obtain ⟨h1, h2⟩ := mapM_get h
  refine ⟨h1, fun i v x hv hx => ?_⟩
  obtain ⟨b, h3, h4⟩ := h2 i v hv
  rw [hx] at h3
  cases h3
  exact asFp_isDouble h4

theorem mapM_bind {α β γ : Type} {f : α → Option β} {g : β → Option γ} : ∀ {l : List α} {r : List γ}, (l.mapM fun a => (f a).bind g) = some r →
    ∃ m, l.mapM f = some m ∧ m.mapM g = some r
  | [], r, h => by simp at h; subst h; exact ⟨[], rfl, rfl⟩
  | a :: l, r, h => by
    simp only [List.mapM_cons, Option.bind_eq_bind, Option.bind_eq_some_iff, Option.pure_def, Option.some.injEq] at h
    obtain ⟨c, ⟨b, h1, h2⟩, cs, h3, rfl⟩ := h
    obtain ⟨m, h4, h5⟩ := mapM_bind h3
    exact ⟨b :: m, by simp [h1, h4], by simp [h2, h5]⟩

theorem numVal_dbl {w w' : Val} {r : Fp} (h : NumVal w r) (h' : dbl r = some w') : w = w' := by
  obtain ⟨hn, rfl⟩ := dbl_some h'
  obtain ⟨b, h1, rfl, rfl⟩ := h
  rw [Fp.toBits_ofBits f64 b h1 hn]

/-! ### Functions of each number -/

theorem fnOk_eachFp {f : List Ar → Res} {g : Fp → Option Val}
    (h : ∀ a vs xs, Holds a vs → Numbers vs xs → xs ≠ [] → (∀ x ∈ xs, g x ≠ none) → ∃ out ws, f [a] = some (0, some out) ∧ Holds (some out) ws ∧ ws.length = xs.length ∧
      ∀ (i : Nat) w x, ws[i]? = some w → xs[i]? = some x → ∀ w', g x = some w' → w = w') : FnOk f (eachFp g) := fnOk_yields fun argv vss r hv hr => by
  match vss, hv, hr with
  | [vs], hv, hr =>
    obtain ⟨a, as, rfl, h1, -, h2⟩ := holdS_cons hv
    have := holdS_nil h2; subst this
    simp only [eachFp] at hr
    split at hr
    · cases hr
    · rename_i hne
      simp only [Option.map_eq_some_iff] at hr
      obtain ⟨ws', hm, rfl⟩ := hr
      obtain ⟨xs, hx, hg⟩ := mapM_bind hm
      obtain ⟨hg1, hg2⟩ := mapM_get hg
      have hn := numbers_mapM hx
      have hne' : xs ≠ [] := by
        rintro rfl
        exact hne (List.length_eq_zero_iff.mp hn.1)
      have hsome : ∀ x ∈ xs, g x ≠ none := by
        intro x hx
        obtain ⟨i, hi, rfl⟩ := List.mem_iff_getElem.mp hx
        obtain ⟨b, -, hb⟩ := hg2 i _ (List.getElem?_eq_getElem hi)
        rw [hb]; simp
      obtain ⟨out, ws, h3, h4, h5, h6⟩ := h a vs xs h1 hn hne' hsome
      have e : ws = ws' := mapM_unique hg h5 (fun i x w w' hx hw' hgx => h6 i w' x hw' hx w hgx)
      subst e
      exact ⟨some out, h3, h4⟩
  | [], _, hr => simp [eachFp] at hr
  | _ :: _ :: _, _, hr => simp [eachFp] at hr

theorem fnOk_math1 {f g : Fp → Fp} (h : ∀ x, Fp.Good f64 x → f x = g x ∧ Fp.Good f64 (f x)) : FnOk (math1 f) (eachFp fun x => dbl (g x)) :=
  fnOk_eachFp fun a vs xs ha hn h0 _ => by
    obtain ⟨out, ws, h1, h2, h3, h4⟩ := math1_spec f (fun x r => r = g x) h a [] vs xs ha hn h0
    refine ⟨out, ws, h1, h2, h3, fun i w x hw hx w' hw' => ?_⟩
    obtain ⟨r, h5, rfl⟩ := h4 i w x hw hx
    exact numVal_dbl h5 hw'

theorem fnOk_abs : FnOk (math1 Fp.abs) (eachFp fun x => dbl x.abs) := fnOk_math1 fun _ hx => ⟨rfl, (abs_spec hx).2⟩
theorem fnOk_ceil : FnOk (math1 (Fp.ceil f64)) (eachFp fun x => dbl (Fp.ceil f64 x)) := fnOk_math1 fun _ hx => ⟨rfl, (ceil_spec hx).2⟩
theorem fnOk_floor : FnOk (math1 (Fp.floor f64)) (eachFp fun x => dbl (Fp.floor f64 x)) := fnOk_math1 fun _ hx => ⟨rfl, (floor_spec hx).2⟩

theorem nearestWhole_round (x : Fp) : RoundOf x (nearestWhole x) := by
  cases x with
  | nan => rfl
  | inf s => rfl
  | fin s m =>
    refine ⟨_, rfl, ?_⟩
    have hK : (2 : Nat) ^ 1074 = 2 * 2 ^ 1073 := Nat.pow_succ'
    have hp : 0 < 2 ^ 1073 := Nat.two_pow_pos 1073
    rw [hK]
    generalize 2 ^ 1073 = K at *
    have e1 := Nat.div_add_mod (m + K) (2 * K)
    have e2 := Nat.mod_lt (m + K) (show 0 < 2 * K by omega)
    have e3 : (m + K) / (2 * K) * (2 * K) = 2 * K * ((m + K) / (2 * K)) := Nat.mul_comm _ _
    rw [e3]
    generalize 2 * K * ((m + K) / (2 * K)) = q at *
    generalize (m + K) % (2 * K) = r at *
    simp only [dist]
    omega

theorem fnOk_round : FnOk (math1 fpRound) (eachFp fun x => dbl (nearestWhole x)) := fnOk_math1 fun x hx =>
  ⟨(C67_unique x _ _).2.2 (round_spec hx).1 (nearestWhole_round x), (round_spec hx).2⟩

theorem fnOk_sign : FnOk signF (eachFp signVal) := fnOk_eachFp fun a vs xs ha hn _ hs => by
  obtain ⟨out, ws, h1, h2, h3, h4⟩ := C67_sign a [] vs xs ha hn (fun h => hs _ h rfl)
  refine ⟨out, ws, h1, h2, h3, fun i w x hw hx w' hw' => ?_⟩
  obtain ⟨p, h5, rfl⟩ := h4 i w x hw hx
  simp only [signVal, h5, Option.map_some, Option.some.injEq] at hw'
  exact hw'

/-! ### Remainders -/

theorem each_oks {f : Val → Val → Option R1} (hf : ∀ x y r, f x y = some r → ∃ v, r = .ok v) : ∀ {ps : List (Val × Val)} {r : R}, each f ps = some r →
    ∃ ws, r = .ok ws ∧ ws.length = ps.length ∧ ∀ (i : Nat) p w, ps[i]? = some p → ws[i]? = some w → f p.1 p.2 = some (.ok w)
  | [], r, h => by simp [each] at h; subst h; exact ⟨[], rfl, rfl, by simp⟩
  | p :: ps, r, h => by
    simp only [each] at h
    split at h
    · cases h
    · rename_i c hc; obtain ⟨v, hv⟩ := hf _ _ _ hc; cases hv
    · rename_i v hv
      split at h
      · cases h
      · rename_i c hc; obtain ⟨ws, hw, -⟩ := each_oks hf hc; cases hw
      · rename_i vs hvs
        obtain ⟨ws, e, h1, h2⟩ := each_oks hf hvs
        cases e
        cases h
        refine ⟨v :: vs, rfl, by simp [h1], fun i p' w hp hw => ?_⟩
        cases i with
        | zero => simp at hp hw; subst hp hw; exact hv
        | succ i => simp at hp hw; exact h2 i p' w hp hw

theorem remainder_fpMod (x y : Fp) : fpMod x y = remainder x y := by
  cases x <;> cases y <;> rfl

theorem fnOk_math2 {f g : Fp → Fp → Fp} (h : ∀ x y, Fp.Good f64 x → Fp.Good f64 y → f x y = g x y ∧ Fp.Good f64 (f x y)) : FnOk (math2 f) (onPairs g) := fnOk_yields fun argv vss r hv hr => by
  match vss, hv, hr with
  | [vs, ws], hv, hr =>
    obtain ⟨a, as, rfl, h1, -, hv⟩ := holdS_cons hv
    obtain ⟨b, bs, rfl, h2, -, hv⟩ := holdS_cons hv
    have := holdS_nil hv; subst this
    simp only [onPairs] at hr
    split at hr
    · rename_i hall
      simp only [List.all_append, Bool.and_eq_true, List.all_eq_true] at hall
      have hd : ∀ {l : List Val}, (∀ v ∈ l, (asFp v).isSome = true) → AllDoubles l := fun h v hv => by
        obtain ⟨x, hx⟩ := Option.isSome_iff_exists.mp (h v hv)
        exact ⟨x, asFp_isDouble hx⟩
      simp only [op2] at hr
      split at hr
      · cases hr
      · rename_i hl
        obtain ⟨out, rs, h3, h4, h5, h6⟩ := math2_spec f (fun x y z => z = g x y) h
          a b vs ws h1 h2 (hd hall.1) (hd hall.2) ⟨fun h => hl (.inl h), fun h => hl (.inr h)⟩
        obtain ⟨ws', rfl, h7, h8⟩ := each_oks (fun x y r h => by
          simp only [onFps] at h
          split at h
          · simp only [Option.map_eq_some_iff] at h
            obtain ⟨v, -, rfl⟩ := h
            exact ⟨v, rfl⟩
          · cases h) hr
        have e : rs = ws' := by
          apply List.ext_getElem?
          intro i
          by_cases hi : i < (broadcast vs ws).length
          · have k1 : rs[i]? = some (rs[i]'(by omega)) := List.getElem?_eq_getElem _
            have k2 : ws'[i]? = some (ws'[i]'(by omega)) := List.getElem?_eq_getElem _
            have k3 : (broadcast vs ws)[i]? = some _ := List.getElem?_eq_getElem hi
            have k4 := h8 i _ _ k3 k2
            simp only [onFps] at k4
            split at k4
            · rename_i x y hx hy
              simp only [Option.map_eq_some_iff] at k4
              obtain ⟨v, hv, e⟩ := k4
              injection e with e
              obtain ⟨z, g1, rfl⟩ := h6 i _ _ _ x y k1 k3 (asFp_isDouble hx) (asFp_isDouble hy)
              rw [k1, k2, ← e]
              exact congrArg some (numVal_dbl g1 hv)
            · cases k4
          · rw [List.getElem?_eq_none (by omega), List.getElem?_eq_none (by omega)]
        subst e
        exact ⟨some out, h3, h4⟩
    · cases hr
  | [], _, hr => simp [onPairs] at hr
  | [_], _, hr => simp [onPairs] at hr
  | _ :: _ :: _ :: _, _, hr => simp [onPairs] at hr

theorem fnOk_fmod : FnOk (math2 fpMod) fmod :=
  fnOk_math2 fun x y hx hy => ⟨remainder_fpMod x y, (remainder_spec hx hy).2⟩

theorem fnOk_remainder : FnOk (math2 fpRemainder) (onPairs nearRemainder) :=
  fnOk_math2 fun x y hx hy => ⟨by cases x <;> cases y <;> rfl, (nearestRemainder_spec hx hy).2⟩

/-! ### Roots, exponents, types and constants -/

theorem fnOk_sqrt : FnOk (math1 fpSqrt) (eachFp fun x => dbl (fpSqrt x)) := fnOk_math1 fun _ hx => ⟨rfl, (sqrt_spec hx).2⟩

theorem fnOk_logb : FnOk (math1 fpLogb) (eachFp fun x => dbl (logOf x)) := fnOk_math1 fun x hx => ⟨by cases x <;> rfl, (logb_spec hx).2⟩

theorem fnOk_ilogb : FnOk ilogbF (eachFp exponentVal) := fnOk_eachFp fun a vs xs ha hn _ hs => by
  obtain ⟨out, ws, h1, h2, h3, h4⟩ := C76_ilogb a vs xs ha hn (fun x hx => by
    have := hs x hx
    cases x with
    | nan => exact absurd rfl this
    | inf s => exact absurd rfl this
    | fin s m => exact ⟨s, m, rfl, fun h0 => this (by simp [exponentVal, h0])⟩)
  refine ⟨out, ws, h1, h2, h3, fun i w x hw hx w' hw' => ?_⟩
  cases x with
  | nan => cases hw'
  | inf s => cases hw'
  | fin s m =>
    obtain ⟨e, ⟨k, rfl, h5, h6⟩, rfl⟩ := h4 i w s m hw hx
    have h0 : m ≠ 0 := by have := Nat.two_pow_pos k; omega
    simp only [exponentVal, if_neg h0, Option.some.injEq] at hw'
    rw [← hw', (Nat.log2_eq_iff h0).mpr ⟨h5, h6⟩]

theorem fnOk_float64 (P : Text.Printf) : FnOk (explicitCast P .float64) (eachFp dbl) := fnOk_eachFp fun a vs xs ha hn _ _ => by
  obtain ⟨out, ws, h1, h2, h3, h4⟩ := C57_float64 P a [] vs xs ha hn.1 hn.2
  exact ⟨out, ws, h1, h2, h3, fun i w x hw hx w' hw' => numVal_dbl (h4 i w x hw hx) hw'⟩

theorem typeTag_val {u : UAtom} {v : Val} (h : u.val = some v) : u.tag = typeTag v := by
  obtain ⟨tag, al, w⟩ := u
  unfold UAtom.val at h
  show tag = _
  split at h
  · cases h; rfl
  split at h
  · cases h; rfl
  split at h
  · cases h; rfl
  split at h
  · cases h; rfl
  split at h
  · cases h; assumption
  split at h
  · split at h
    · cases h; assumption
    · cases h
  split at h
  · split at h
    · simp only [Option.bind_eq_some_iff, Option.map_eq_some_iff] at h
      obtain ⟨_, -, _, -, rfl⟩ := h; assumption
    · cases h
  split at h
  · split at h
    · simp only [Option.map_eq_some_iff] at h
      obtain ⟨_, -, rfl⟩ := h; assumption
    · cases h
  · cases h; rfl

theorem fnOk_typetags : FnOk typetags (fun1 (List.map fun v => ITy.i8.val (typeTag v).toNat)) := fnOk_fun1 fun a vs ha _ => by
  obtain ⟨out, ws, h1, h2, h3, h4⟩ := forN_each (len a) (fun i w => ∀ v, vs[i]? = some v → w = ITy.i8.val (typeTag v).toNat)
    (fun i out => setTo out i (·.setInt8 (tagOf (at? a i)).toNat)) (by
    intro i hi
    rw [holds_len ha] at hi
    obtain ⟨u, g1, g2⟩ := holds_at ha (List.getElem?_eq_getElem hi)
    obtain ⟨r, p1, p2⟩ := setU_fresh .i8 (typeTag vs[i]).toNat
    refine ⟨fun u => u.setInt8 (typeTag vs[i]).toNat, r, _, fun out => ?_, p1, p2, fun v hv => ?_⟩
    · rw [g1, tagOf, Option.map_some, Option.getD_some, typeTag_val g2]
    · rw [List.getElem?_eq_getElem hi] at hv; cases hv; rfl)
  refine ⟨some out, by simp [typetags, h1], ?_⟩
  rw [holds_len ha] at h3
  have e : ws = vs.map fun v => ITy.i8.val (typeTag v).toNat := by
    apply List.ext_getElem?
    intro i
    by_cases hi : i < vs.length
    · rw [List.getElem?_eq_getElem (by omega), List.getElem?_map, List.getElem?_eq_getElem hi]
      exact congrArg some (h4 i _ (List.getElem?_eq_getElem (by omega)) _ (List.getElem?_eq_getElem hi))
    · rw [List.getElem?_eq_none (by omega), List.getElem?_eq_none (by simp; omega)]
  rw [← e]; exact h2

/-- A constant whose bits are those of the number. -/
theorem fnOk_const {c : Fp} {bits : Nat} (h : Fp.toBits f64 c % 2 ^ 64 = bits) (name : Bytes) : FnOk (constant c) (constFun name bits).sem := fnOk_yields fun argv vss r hv hr => by
  match vss, hv, hr with
  | [], hv, hr =>
    have := holdS_nil hv; subst this
    simp only [constFun, Option.some.injEq] at hr
    subst hr
    obtain ⟨u, h1, h2⟩ := setDouble_fresh (Fp.toBits f64 c)
    exact ⟨some [u], by simp [constant, setTo, mk, h1], by rw [h] at h2; simp [Holds, argsVal, h2]⟩
  | _ :: _, _, hr => simp [constFun] at hr

/-! ### Functions of all numbers -/

theorem fnOk_ofFps {f : List Ar → Res} {g : List Val → List Fp → Option Val}
    (h : ∀ a vs xs w, Holds a vs → vs.mapM asFp = some xs → g vs xs = some w → ∃ out, f [a] = some (0, out) ∧ Holds out [w]) : FnOk f (ofFps g) :=
  fnOk_yields fun argv vss r hv hr => by
  match vss, hv, hr with
  | [vs], hv, hr =>
    obtain ⟨a, as, rfl, h1, -, h2⟩ := holdS_cons hv
    have := holdS_nil h2; subst this
    simp only [ofFps, Option.bind_eq_some_iff, Option.map_eq_some_iff] at hr
    obtain ⟨xs, h3, w, h4, rfl⟩ := hr
    exact h a vs xs w h1 h3 h4
  | [], _, hr => simp [ofFps] at hr
  | _ :: _ :: _, _, hr => simp [ofFps] at hr

theorem all_one {a : Ar} {vs : List Val} {xs : List Fp} (h : Holds a vs) (hx : vs.mapM asFp = some xs) : AllNumbers [a] vs xs := by
  have := AllNumbers.cons h (numbers_mapM hx) .nil
  simpa using this

theorem narrowest_spec {r : Fp} {w : Val} (hg : Fp.Good f64 r) (h : narrowest r = some w) : Narrowest r w ∧ ∀ w', Narrowest r w' → w' = w := by
  cases r with
  | nan => cases h
  | inf s =>
    cases s with
    | true => cases h
    | false =>
      have hno : ¬ Ordered (· ≤ ·) (.inf false) (exact (2 ^ 64)) := by
        rintro ⟨p, q, h1, h2, h3⟩
        rw [exact_place] at h2
        cases h1
        cases h2
        have e : (value false (2 ^ 2098) : Int) = ((2 ^ 1024 : Nat) : Int) * (2 ^ 1074 : Nat) := by
          rw [← Int.natCast_mul, ← Nat.pow_add]; rfl
        rw [e] at h3
        have h4 := Int.le_of_mul_le_mul_right h3 (Int.natCast_pos.mpr (Nat.two_pow_pos 1074))
        have h5 : (2 : Nat) ^ 64 < 2 ^ 1024 := Nat.pow_lt_pow_right (by decide) (by decide)
        generalize (2 : Nat) ^ 1024 = K at *
        omega
      obtain ⟨hn, rfl⟩ := dbl_some h
      refine ⟨.double _ hno ⟨_, Fp.toBits_lt f64 (by decide) (by decide) (.inf false) trivial, rfl, Fp.ofBits_toBits f64 (by decide) (by decide) (.inf false) trivial⟩, ?_⟩
      intro w' hw'
      cases hw' with
      | double _ _ h => exact numVal_dbl h ‹_›
      | i32 n h _ _ => obtain ⟨s, m, e, -⟩ := h; cases e
      | u32 n h _ _ => obtain ⟨s, m, e, -⟩ := h; cases e
      | i64 n h _ _ => obtain ⟨s, m, e, -⟩ := h; cases e
      | u64 n h _ _ => obtain ⟨s, m, e, -⟩ := h; cases e
  | fin s m =>
    simp only [narrowest] at h
    split at h
    · cases h
    · rename_i hc
      have hz : m % 2 ^ 1074 = 0 := by
        apply Classical.byContradiction
        intro h'; exact hc (.inl h')
      have hlo : ¬ value s (m / 2 ^ 1074) < -2147483648 := fun h' => hc (.inr h')
      have hs : Stands (value s (m / 2 ^ 1074)) (.fin s m) := ⟨s, m / 2 ^ 1074, by
        rw [Nat.div_mul_cancel (Nat.dvd_of_mod_eq_zero hz)], rfl⟩
      have hw := stands_whole hs
      have o1 := stands_order hs 2147483647
      have o2 := stands_order hs 4294967295
      have o3 := stands_order hs (2 ^ 63)
      have o4 := stands_order hs (2 ^ 64)
      generalize value s (m / 2 ^ 1074) = n at *
      have hu : ∀ w', Narrowest (.fin s m) w' → (w' = ITy.i32.val n ∧ n ≤ 2147483647) ∨ (w' = ITy.u32.val n ∧ 2147483647 < n ∧ n ≤ 4294967295) ∨
          (w' = ITy.i64.val n ∧ 4294967295 < n ∧ n < 2 ^ 63) ∨ (w' = ITy.u64.val n ∧ 2 ^ 63 < n ∧ n < 2 ^ 64) ∨ (NumVal w' (.fin s m) ∧ 2 ^ 64 < n) := by
        intro w' hw'
        cases hw' with
        | double _ h1 h2 => rw [o4.1] at h1; exact .inr (.inr (.inr (.inr ⟨h2, by omega⟩)))
        | i32 n' h1 h2 h3 => rw [o1.1] at h2; rw [whole_unique h1 hw]; exact .inl ⟨rfl, h2⟩
        | u32 n' h1 h2 h3 => rw [o1.2.2] at h2; rw [o2.1] at h3; rw [whole_unique h1 hw]; exact .inr (.inl ⟨rfl, h2, h3⟩)
        | i64 n' h1 h2 h3 => rw [o2.2.2] at h2; rw [o3.2.1] at h3; rw [whole_unique h1 hw]; exact .inr (.inr (.inl ⟨rfl, h2, h3⟩))
        | u64 n' h1 h2 h3 => rw [o3.2.2] at h2; rw [o4.2.1] at h3; rw [whole_unique h1 hw]; exact .inr (.inr (.inr (.inl ⟨rfl, h2, h3⟩)))
      split at h
      · rename_i h1
        cases h
        exact ⟨.i32 n hw (o1.1.mpr h1) (by omega), fun w' hw' => by
          rcases hu w' hw' with ⟨e, -⟩ | ⟨-, e⟩ | ⟨-, e⟩ | ⟨-, e⟩ | ⟨-, e⟩ <;> first | exact e | omega⟩
      · split at h
        · rename_i h1 h2
          cases h
          exact ⟨.u32 n hw (o1.2.2.mpr (by omega)) (o2.1.mpr h2), fun w' hw' => by
            rcases hu w' hw' with ⟨-, e⟩ | ⟨e, -⟩ | ⟨-, e⟩ | ⟨-, e⟩ | ⟨-, e⟩ <;> first | exact e | omega⟩
        · split at h
          · rename_i h1 h2 h3
            cases h
            exact ⟨.i64 n hw (o2.2.2.mpr (by omega)) (o3.2.1.mpr h3), fun w' hw' => by
              rcases hu w' hw' with ⟨-, e⟩ | ⟨-, e⟩ | ⟨e, -⟩ | ⟨-, e⟩ | ⟨-, e⟩ <;> first | exact e | omega⟩
          · split at h
            · cases h
            · split at h
              · rename_i h1 h2 h3 h4 h5
                cases h
                exact ⟨.u64 n hw (o3.2.2.mpr (by omega)) (o4.2.1.mpr h5), fun w' hw' => by
                  rcases hu w' hw' with ⟨-, e⟩ | ⟨-, e⟩ | ⟨-, e⟩ | ⟨e, -⟩ | ⟨-, e⟩ <;> first | exact e | omega⟩
              · split at h
                · cases h
                · rename_i h1 h2 h3 h4 h5 h6
                  obtain ⟨hn, rfl⟩ := dbl_some h
                  refine ⟨.double _ (fun h7 => by rw [o4.1] at h7; omega) ⟨_, Fp.toBits_lt f64 (by decide) (by decide) _ hg, rfl,
                    Fp.ofBits_toBits f64 (by decide) (by decide) _ hg⟩, fun w' hw' => ?_⟩
                  rcases hu w' hw' with ⟨-, e⟩ | ⟨-, e⟩ | ⟨-, e⟩ | ⟨-, e⟩ | ⟨e, -⟩ <;> first | omega | exact numVal_dbl e h

theorem good_fold (f : Fp → Fp → Fp) (hf : ∀ x y, Fp.Good f64 (f x y)) : ∀ (xs : List Fp) (s : Fp), Fp.Good f64 s → Fp.Good f64 (xs.foldl f s)
  | [], _, h => h
  | x :: xs, s, _ => good_fold f hf xs (f s x) (hf s x)

theorem fnOk_sum : FnOk Expr.sum sum := fnOk_ofFps fun a vs xs w ha hx hw => by
  have h := C66_sum [a] vs xs _ (all_one ha hx) (added_fold xs (.fin false 0))
  split at hw
  · rename_i hf
    obtain ⟨v, h1, h2⟩ := List.any_eq_true.mp hf
    obtain ⟨out, w', h3, h4, h5⟩ := h.1 ⟨v, h1, (floating_iff v).mp h2⟩
    exact ⟨_, h3, by rw [← numVal_dbl h5 hw]; exact h4⟩
  · rename_i hf
    obtain ⟨k1, k2⟩ := narrowest_spec (good_fold _ (Fp.good_add f64 (by decide)) xs (.fin false 0) ⟨Fp.grid_zero _, Nat.two_pow_pos _⟩) hw
    obtain ⟨out, w', h3, h4, h5⟩ := h.2 (fun ⟨v, h1, h2⟩ => hf (List.any_eq_true.mpr ⟨v, h1, (floating_iff v).mpr h2⟩)) ⟨w, k1⟩
    exact ⟨_, h3, by rw [← k2 _ h5]; exact h4⟩

theorem one_exact : Fp.ofInt f64 1 = exact 1 := by decide +kernel

theorem fnOk_product : FnOk Expr.product product := fnOk_ofFps fun a vs xs w ha hx hw => by
  rw [productFps, one_exact] at hw
  obtain ⟨k1, k2⟩ := narrowest_spec (good_fold _ (Fp.good_mul f64 (by decide)) xs _ (intDouble_good (n := 1) (by rw [← one_exact]; exact ofInt_intDouble 1))) hw
  obtain ⟨out, w', h3, h4, h5⟩ := C66_product_partial [a] vs xs _ (all_one ha hx) (multiplied_fold xs (exact 1)) ⟨w, k1⟩
  exact ⟨_, h3, by rw [← k2 _ h5]; exact h4⟩

theorem fnOk_mean : FnOk Expr.mean mean := fnOk_ofFps fun a vs xs w ha hx hw => by
  have hn := numbers_mapM hx
  obtain ⟨out, w', q, h1, h2, h3, h4⟩ := C66_mean a [] vs xs _ _ ha hn (added_fold xs (.fin false 0)) (ofInt_intDouble vs.length)
  have e : q = Fp.div f64 (sumFps xs) (Fp.ofInt f64 xs.length) := by
    rw [← hn.1]
    exact (C63_unique _ _ _ _).2.2.2 h4 (Fp.quotient_of f64 (by decide) _ _)
  subst e
  exact ⟨_, h1, by rw [← numVal_dbl h3 hw]; exact h2⟩

theorem fnOk_dot : FnOk Expr.dot dot := fnOk_yields fun argv vss r hv hr => by
  match vss, hv, hr with
  | [vs, ws], hv, hr =>
    obtain ⟨a, as, rfl, h1, -, hv⟩ := holdS_cons hv
    obtain ⟨b, bs, rfl, h2, -, hv⟩ := holdS_cons hv
    have := holdS_nil hv; subst this
    simp only [dot, Option.bind_eq_some_iff, Option.map_eq_some_iff] at hr
    obtain ⟨xs, hx, ys, hy, w, hw, rfl⟩ := hr
    obtain ⟨out, w', h3, h4, h5⟩ := C66_dot a b [] vs ws xs ys _ h1 h2 (numbers_mapM hx) (numbers_mapM hy) (dotAdded_fold _ _)
    exact ⟨_, h3, by rw [← numVal_dbl h5 hw]; exact h4⟩
  | [], _, hr => simp [dot] at hr
  | [_], _, hr => simp [dot] at hr
  | _ :: _ :: _ :: _, _, hr => simp [dot] at hr

/-! ### The least and the greatest -/

theorem least_none (key : Fp → Option Int) : ∀ {ps : List (Val × Fp)}, least key ps = none → ∀ (j : Nat) p, ps[j]? = some p → key p.2 = none
  | [], _, j, p, hp => by simp at hp
  | q :: ps, h, j, p, hp => by
    simp only [least] at h
    split at h
    · rename_i h'
      split at h
      · rename_i hk
        cases j with
        | zero => simp at hp; subst hp; exact hk
        | succ j => simp at hp; exact least_none key h' j p hp
      · cases h
    · split at h <;> cases h

theorem least_some (key : Fp → Option Int) : ∀ {ps : List (Val × Fp)} {p : Val × Fp}, least key ps = some p →
    ∃ k q, ps[k]? = some p ∧ key p.2 = some q ∧ ∀ (j : Nat) y r, ps[j]? = some y → key y.2 = some r → q ≤ r ∧ (k < j → q < r)
  | [], p, h => by cases h
  | a :: ps, p, h => by
    simp only [least] at h
    split at h
    · rename_i h'
      split at h
      · cases h
      · rename_i hk
        cases h
        obtain ⟨q, hq⟩ := Option.ne_none_iff_exists'.mp hk
        refine ⟨0, q, rfl, hq, fun j y r hy hr => ?_⟩
        cases j with
        | zero => simp at hy; subst hy; rw [hq] at hr; cases hr; simp
        | succ j => simp at hy; rw [least_none key h' j y hy] at hr; cases hr
    · rename_i b hb
      obtain ⟨k, q, h1, h2, h3⟩ := least_some key hb
      split at h
      · rename_i hc
        cases h
        simp only [Option.any_eq_true] at hc
        obtain ⟨qa, hqa, qb, hqb, hlt⟩ := hc
        rw [h2] at hqb
        cases hqb
        simp only [decide_eq_true_iff] at hlt
        refine ⟨0, qa, rfl, hqa, fun j y r hy hr => ?_⟩
        cases j with
        | zero => simp at hy; subst hy; rw [hqa] at hr; cases hr; simp
        | succ j => simp at hy; have := (h3 j y r hy hr).1; omega
      · rename_i hc
        cases h
        refine ⟨k + 1, q, by simpa using h1, h2, fun j y r hy hr => ?_⟩
        cases j with
        | zero =>
          simp at hy; subst hy
          refine ⟨?_, fun h => by omega⟩
          apply Int.not_lt.mp
          intro hlt
          exact hc (by simp [hr, h2, hlt])
        | succ j => simp at hy; have := h3 j y r hy hr; exact ⟨this.1, fun h => this.2 (by omega)⟩

theorem least_zip {key : Fp → Option Int} {vs : List Val} {xs : List Fp} (hl : vs.length = xs.length) {v : Val} {x : Fp}
    (h : least key (vs.zip xs) = some (v, x)) : (∃ y ∈ xs, key y ≠ none) ∧
    ∀ k' y, LastLeast key xs k' y → vs[k']? = some v ∧ xs[k']? = some x ∧ y = x := by
  obtain ⟨k, q, h1, h2, h3⟩ := least_some key h
  have hz : ∀ (j : Nat) a y, (vs.zip xs)[j]? = some (a, y) ↔ vs[j]? = some a ∧ xs[j]? = some y := by
    intro j a y
    rw [List.getElem?_zip_eq_some]
  obtain ⟨h4, h5⟩ := (hz _ _ _).mp h1
  refine ⟨⟨x, List.mem_of_getElem? h5, by simp only at h2; rw [h2]; simp⟩, ?_⟩
  rintro k' y ⟨g1, p, g2, g3⟩
  have a1 := g3 k x q h5 h2
  obtain ⟨a, ha⟩ : ∃ a, vs[k']? = some a := by
    obtain ⟨hi, -⟩ := List.getElem?_eq_some_iff.mp g1
    exact ⟨_, List.getElem?_eq_getElem (by omega)⟩
  have a2 := h3 k' (a, y) p ((hz _ _ _).mpr ⟨ha, g1⟩) g2
  have e : k' = k := by omega
  subst e
  refine ⟨h4, h5, ?_⟩
  rw [g1] at h5
  exact Option.some.inj h5

theorem lowKey_eq : lowKey = minKey := rfl
theorem highKey_eq : highKey = maxKey := rfl

theorem fnOk_min : FnOk Expr.minimum minimum := fnOk_ofFps fun a vs xs w ha hx hw => by
  have hn := numbers_mapM hx
  simp only [Option.map_eq_some_iff] at hw
  obtain ⟨⟨v, x⟩, h1, rfl⟩ := hw
  obtain ⟨h2, h3⟩ := least_zip hn.1 h1
  obtain ⟨k, y, v', out, g1, g2, g3, g4⟩ := C65_min a [] vs xs ha hn h2
  have := (h3 k y g1).1
  rw [g2] at this
  cases this
  exact ⟨_, g3, g4⟩

theorem fnOk_max : FnOk Expr.maximum maximum := fnOk_ofFps fun a vs xs w ha hx hw => by
  have hn := numbers_mapM hx
  simp only [Option.map_eq_some_iff] at hw
  obtain ⟨⟨v, x⟩, h1, rfl⟩ := hw
  obtain ⟨h2, h3⟩ := least_zip hn.1 h1
  obtain ⟨k, y, v', out, g1, g2, g3, g4⟩ := C65_max a [] vs xs ha hn h2
  have := (h3 k y g1).1
  rw [g2] at this
  cases this
  exact ⟨_, g3, g4⟩

theorem holds_single {o : List UAtom} {v : Val} (h : Holds (some o) [v]) : ∃ u, o = [u] ∧ u.val = some v := by
  match o, h with
  | [], h => cases h
  | [u], h =>
    refine ⟨u, rfl, ?_⟩
    obtain ⟨x, h1, h2⟩ := holds_at h (i := 0) rfl
    cases h1
    exact h2
  | u :: w :: o, h => have := holds_len h; simp [len] at this

theorem fnOk_extrema : FnOk Expr.extrema extrema := fnOk_yields fun argv vss r hv hr => by
  match vss, hv, hr with
  | [vs], hv, hr =>
    obtain ⟨a, as, rfl, ha, -, h2⟩ := holdS_cons hv
    have := holdS_nil h2; subst this
    simp only [extrema, Option.bind_eq_some_iff] at hr
    obtain ⟨xs, hx, hr⟩ := hr
    split at hr
    · rename_i p q hp hq
      cases hr
      have hn := numbers_mapM hx
      obtain ⟨h2, h3⟩ := least_zip hn.1 hp
      obtain ⟨k, y, v', out, g1, g2, g3, g4⟩ := C65_min a [] vs xs ha hn h2
      have := (h3 k y g1).1
      rw [g2] at this
      cases this
      obtain ⟨u, rfl, hu⟩ := holds_single g4
      obtain ⟨h2, h3⟩ := least_zip hn.1 hq
      obtain ⟨k, y, v', out, g1, g2, g3', g4⟩ := C65_max a [] vs xs ha hn h2
      have := (h3 k y g1).1
      rw [g2] at this
      cases this
      obtain ⟨u', rfl, hu'⟩ := holds_single g4
      refine ⟨_, C65_extrema a [] u u' g3 g3', ?_⟩
      show argsVal [u, u'] = some [p.1, q.1]
      simp [argsVal, hu, hu']
    · cases hr
  | [], _, hr => simp [extrema] at hr
  | _ :: _ :: _, _, hr => simp [extrema] at hr

theorem dblOr32_spec {f : Bool} {x : Fp} {w : Val} (h : dblOr32 f x = some w) :
    (f = true ∧ ∀ w', NumVal w' x → w' = w) ∨ (f = false ∧ ∃ n, WholePart x n ∧ ITy.i32.has n ∧ w = ITy.i32.val n) := by
  simp only [dblOr32] at h
  split at h
  · rename_i hf; exact .inl ⟨hf, fun w' hw' => numVal_dbl hw' h⟩
  · rename_i hf
    refine .inr ⟨by simpa using hf, ?_⟩
    cases x with
    | fin s m =>
      simp only [int32Part] at h
      split at h
      · rename_i hh; cases h; exact ⟨_, ⟨s, m, rfl, rfl⟩, hh, rfl⟩
      · cases h
    | nan => cases h
    | inf s => cases h

theorem fnOk_range : FnOk rangeOf range := fnOk_ofFps fun a vs xs w ha hx hw => by
  have hn := numbers_mapM hx
  split at hw
  · rename_i p q hp hq
    obtain ⟨h2, h3⟩ := least_zip hn.1 hp
    obtain ⟨h4, h5⟩ := least_zip hn.1 hq
    obtain ⟨i, j, x, y, v, v', z, g1, g2, g3, g4, g5, g6, g7⟩ := C65_range a [] vs xs ha hn h2 h4
    obtain ⟨e1, -, e2⟩ := h3 i x g1
    obtain ⟨e3, -, e4⟩ := h5 j y g2
    rw [g3] at e1
    rw [g4] at e3
    cases e1; cases e3; subst e2 e4
    have ez : z = Fp.sub f64 q.2 p.2 := (C63_unique _ _ _ _).2.1 g5 (Fp.diff_of f64 (by decide) _ _)
    subst ez
    rcases dblOr32_spec hw with ⟨hf, hw⟩ | ⟨hf, n, k1, k2, rfl⟩
    · simp only [Bool.or_eq_true, floating_iff] at hf
      obtain ⟨out, r, k1, k2, k3⟩ := g6 hf
      exact ⟨_, k1, by rw [← hw r k3]; exact k2⟩
    · simp only [Bool.or_eq_false_iff, not_floating] at hf
      obtain ⟨out, k3, k4⟩ := g7 (fun h => h.elim hf.1 hf.2) n k1 k2
      exact ⟨_, k3, k4⟩
  · cases hw

/-! ### Clipping -/

theorem clipped_between {lo hi x y : Fp} (hlo : Fp.Good f64 lo) (hhi : Fp.Good f64 hi) (hx : Fp.Good f64 x) (h : Clipped lo hi x y) :
    y = between lo hi x := by
  obtain ⟨h1, h2, h3, h4⟩ := h
  have swap : ∀ a b, Ordered (· > ·) a b ↔ Ordered (· < ·) b a := fun a b =>
    ⟨fun ⟨p, q, e1, e2, e3⟩ => ⟨q, p, e2, e1, e3⟩, fun ⟨p, q, e1, e2, e3⟩ => ⟨q, p, e2, e1, e3⟩⟩
  have o1 := (place_order x lo hx hlo).1
  have o2 := (place_order hi x hhi hx).1
  have o3 := (place_order hi lo hhi hlo).1
  simp only [between]
  split
  · rename_i c1
    have c1' := o1.mp c1
    split
    · rename_i c2
      exact h4 ((swap _ _).mpr (o3.mp c2)) (by rintro rfl; obtain ⟨p, q, e, -⟩ := c1'; cases e)
    · rename_i c2
      exact h2 c1' (fun h => c2 (o3.mpr ((swap _ _).mp h)))
  · rename_i c1
    have c1' : ¬ Ordered (· < ·) x lo := fun h => c1 (o1.mpr h)
    split
    · rename_i c2
      exact h3 c1' ((swap _ _).mpr (o2.mp c2))
    · rename_i c2
      exact h1 c1' (fun h => c2 (o2.mpr ((swap _ _).mp h)))

/-- The number of an element that is to be clipped. -/
def clipNum : Val → Option Fp
  | .num tag b => asFp (.num tag b)
  | _ => none

theorem fnOk_clip : FnOk Expr.clip clip := fnOk_yields fun argv vss r hv hr => by
  match vss, hv, hr with
  | [vs, lo :: los, hi :: his], hv, hr =>
    obtain ⟨a, as, rfl, ha, hsimp, hv⟩ := holdS_cons hv
    obtain ⟨b, as, rfl, hb, -, hv⟩ := holdS_cons hv
    obtain ⟨c, as, rfl, hc, -, hv⟩ := holdS_cons hv
    have := holdS_nil hv; subst this
    simp only [clip, Option.bind_eq_some_iff, Option.map_eq_some_iff] at hr
    obtain ⟨l, hl, h, hh, ws, hw, rfl⟩ := hr
    obtain ⟨hw1, hw2⟩ := mapM_get hw
    have gl := isDouble_good _ _ (asFp_isDouble hl)
    have gh := isDouble_good _ _ (asFp_isDouble hh)
    have hnum : ∀ (i : Nat) v, vs[i]? = some v → Element v (clipNum v) := by
      intro i v hv
      obtain ⟨w, -, h2⟩ := hw2 i v hv
      have hcp := copies hsimp v (List.mem_of_getElem? hv)
      cases v with
      | num tag b =>
        simp only [clip1, Option.bind_eq_some_iff] at h2
        obtain ⟨x, h3, -⟩ := h2
        simp only [clipNum, h3]
        exact .num _ _ (asFp_isDouble h3) (by simp [Through])
      | str s => exact .other _ trivial hcp
      | bare t =>
        simp only [clip1] at h2
        split at h2
        · rename_i ht; exact .other _ ht hcp
        · cases h2
      | _ => cases h2
    have hcl : ∀ (i : Nat) v x w, vs[i]? = some v → clipNum v = some x → clip1 (floating lo || floating hi) l h v = some w →
        Fp.Good f64 x ∧ dblOr32 ((floating lo || floating hi) || floating v) (between l h x) = some w := by
      intro i v x w _ hx hw
      cases v with
      | num tag b =>
        simp only [clipNum] at hx
        simp only [clip1, hx, Option.bind_some] at hw
        exact ⟨isDouble_good _ _ (asFp_isDouble hx), hw⟩
      | _ => cases hx
    obtain ⟨fl, out, ws', g1, g2, g3, g4, g5⟩ := C65_clip a b c vs (vs.map clipNum) lo hi los his l h ha
      ⟨by simp, fun i v x hv hx => by
        simp only [List.getElem?_map, hv, Option.map_some, Option.some.injEq] at hx
        subst hx
        exact hnum i v hv⟩ hb hc (asFp_isDouble hl) (asFp_isDouble hh) (by
        intro i v x hv hx f1 f2 f3 y hy
        simp only [List.getElem?_map, hv, Option.map_some, Option.some.injEq] at hx
        obtain ⟨w, -, h2⟩ := hw2 i v hv
        obtain ⟨gx, h3⟩ := hcl i v x w hv hx h2
        rw [clipped_between gl gh gx hy]
        rcases dblOr32_spec h3 with ⟨hf, -⟩ | ⟨-, n, k1, k2, -⟩
        · simp only [Bool.or_eq_true, floating_iff] at hf
          exact absurd hf (by rintro ((h | h) | h) <;> contradiction)
        · exact ⟨n, k1, k2⟩)
    have e : ws' = ws := mapM_unique hw g4 (fun i v w w' hv hw' hcw => by
      have h6 := g5 i v w' (clipNum v) hv hw' (by rw [List.getElem?_map, hv]; rfl)
      cases hx : clipNum v with
      | none =>
        rw [hx] at h6
        have h6 : w' = v := h6
        subst h6
        cases w' with
        | num tag b =>
          simp only [clipNum] at hx
          simp [clip1, hx] at hcw
        | str s => simp only [clip1, Option.some.injEq] at hcw; exact hcw
        | bare t =>
          simp only [clip1] at hcw
          split at hcw
          · cases hcw; rfl
          · cases hcw
        | _ => cases hcw
      | some x =>
        rw [hx] at h6
        obtain ⟨y, h7, h8⟩ := h6
        obtain ⟨gx, h3⟩ := hcl i v x w hv hx hcw
        have := clipped_between gl gh gx h7
        subst this
        rcases dblOr32_spec h3 with ⟨hf, hu⟩ | ⟨hf, n, k1, k2, rfl⟩
        · rcases h8 with ⟨-, h8⟩ | ⟨h8, h9, -⟩
          · exact hu _ h8
          · simp only [Bool.or_eq_true, floating_iff] at hf
            rw [← g1, h9] at hf
            simp [h8] at hf
        · simp only [Bool.or_eq_false_iff, not_floating] at hf
          rcases h8 with ⟨h8, -⟩ | ⟨-, -, n', k3, -, rfl⟩
          · rcases h8 with h8 | h8
            · exact absurd h8 hf.2
            · rcases g1.mp h8 with h8 | h8
              · exact absurd h8 hf.1.1
              · exact absurd h8 hf.1.2
          · rw [whole_unique k1 k3])
    subst e
    exact ⟨_, g2, g3⟩
  | [], _, hr => simp [clip] at hr
  | [_], _, hr => simp [clip] at hr
  | [_, _], _, hr => simp [clip] at hr
  | [_, [], _], _, hr => simp [clip] at hr
  | [_, _ :: _, []], _, hr => simp [clip] at hr
  | _ :: _ :: _ :: _ :: _, _, hr => simp [clip] at hr

/-! ### Remainders and sequences of whole numbers -/

theorem asWhole_spec {v : Val} {n : Int} (h : asWhole v = some n) : Whole v n := by
  simp only [asWhole] at h
  split at h
  · rename_i s m hm
    split at h
    · rename_i hz
      cases h
      exact ⟨_, asFp_isDouble hm, s, m / 2 ^ 1074, by rw [Nat.div_mul_cancel (Nat.dvd_of_mod_eq_zero hz)], rfl⟩
    · cases h
  · cases h

theorem stands_nonzero {n : Int} {x : Fp} (h : Stands n x) (hn : n ≠ 0) : x = exact n := by
  obtain ⟨s, k, rfl, rfl⟩ := h
  rw [exact]
  cases s
  · simp [value] at hn ⊢
  · simp [value] at hn ⊢; omega

theorem opOk_modulo : OpOk Expr.modulo modulo := by
  intro x y v w r hx hy h
  simp only [modulo] at h
  split at h
  · rename_i n m hn hm
    have h1 := asWhole_spec hn
    have h2 := asWhole_spec hm
    split at h
    · rename_i hz
      subst hz
      cases h
      obtain ⟨z, hz, -⟩ := h1
      exact C68_zero x y v w z hx hy hz h2
    · rename_i hz
      split at h
      · rename_i hb
        obtain ⟨g1, g2⟩ := C68_modulo x y v w n m hx hy h1 h2 hz hb
        split at h
        · rename_i hf
          simp only [Bool.or_eq_true, floating_iff] at hf
          obtain ⟨u, r, k1, k2, k3⟩ := g1 hf
          split at h
          · cases h
          · rename_i hne
            simp only [Option.map_eq_some_iff] at h
            obtain ⟨d, hd, rfl⟩ := h
            have hlt : (n % m).natAbs ≤ 2 ^ 53 := by
              have := Int.emod_nonneg n hz
              have h9 : n % m < m.natAbs := by
                have := Int.emod_lt n hz
                omega
              omega
            have e : Fp.ofInt f64 (n % m) = r := by
              rw [stands_nonzero k3 hne, ofInt_exact _ hlt]; rfl
            rw [e] at hd
            exact ⟨u, k1, dbl_val k2 hd⟩
        · rename_i hf
          simp only [Bool.or_eq_true, floating_iff] at hf
          split at h
          · rename_i hh
            cases h
            exact g2 hf hh
          · cases h
      · cases h
  · cases h

theorem asInt_whole {v : Val} {t : ITy} {n : Int} (h : asInt v = some (t, n)) (hb : n.natAbs ≤ 2 ^ 53) : Whole v n ∧ ¬ Floating v := by
  obtain ⟨h1, rfl⟩ := asInt_spec h
  refine ⟨whole_int t n h1 hb, ?_⟩
  cases t <;> simp [Floating, ITy.val, ITy.tag]

theorem sequence_ok {A B : Ar} {rest : List Ar} {v w : Val} {vs ws : List Val} {n m d : Int} {F : Prop} {t1 t2 : ITy} {r : R}
    (hA : Holds A (v :: vs)) (hB : Holds B (w :: ws)) (hv : asInt v = some (t1, n)) (hw : asInt w = some (t2, m)) (hF : ¬ F)
    (hd : n.natAbs + m.natAbs + d.natAbs ≤ 2 ^ 52 → StepOf n m rest d F) (h : sequence v n m d = some r) : Yields (Expr.aseq (A :: B :: rest)) r := by
  simp only [sequence] at h
  split at h
  · rename_i hb
    obtain ⟨v1, v2⟩ := asInt_whole hv (by omega)
    obtain ⟨w1, w2⟩ := asInt_whole hw (by omega)
    have hd := hd hb
    obtain ⟨e1, e2⟩ := C68_aseq_ends A B rest v w vs ws n m d F hA hB v1 w1 hd hb
    split at h
    · rename_i he
      cases h
      obtain ⟨out, k1, k2⟩ := e2 he
      exact ⟨_, k1, k2⟩
    · rename_i he
      split at h
      · rename_i hs
        cases h
        exact ⟨by decide, _, e1 he hs⟩
      · rename_i hs
        split at h
        · rename_i hh
          cases h
          have hs : d.sign = (m - n).sign := Decidable.not_not.mp hs
          obtain ⟨out, k1, k2⟩ := (C68_aseq A B rest v w vs ws n m d F _ hA hB v1 w1 hd he hs hb (between_iff n m d he hs) hh.2.2).2
            (by rintro (h | h | h) <;> contradiction) hh.1 hh.2.1
          exact ⟨_, k1, k2⟩
        · cases h
  · cases h

theorem fnOk_aseq : FnOk Expr.aseq aseq := fnOk_yields fun argv vss r hv hr => by
  match vss, hv, hr with
  | [v :: vs, w :: ws], hv, hr =>
    obtain ⟨a, as, rfl, ha, -, hv⟩ := holdS_cons hv
    obtain ⟨b, as, rfl, hb, -, hv⟩ := holdS_cons hv
    have := holdS_nil hv; subst this
    simp only [aseq] at hr
    split at hr
    · rename_i t1 n t2 m h1 h2
      exact sequence_ok ha hb h1 h2 (F := False) id (fun _ => .none) hr
    · cases hr
  | [v :: vs, w :: ws, u :: us], hv, hr =>
    obtain ⟨a, as, rfl, ha, -, hv⟩ := holdS_cons hv
    obtain ⟨b, as, rfl, hb, -, hv⟩ := holdS_cons hv
    obtain ⟨c, as, rfl, hc, -, hv⟩ := holdS_cons hv
    have := holdS_nil hv; subst this
    simp only [aseq] at hr
    split at hr
    · rename_i t1 n t2 m t3 d h1 h2 h3
      obtain ⟨g1, rfl⟩ := asInt_spec h3
      refine sequence_ok ha hb h1 h2 (F := Floating (t3.val d)) (by cases t3 <;> simp [Floating, ITy.val, ITy.tag])
        (fun hb => .some _ _ _ _ _ hc (asInt_whole h3 (by omega)).1) hr
    · cases hr
  | [], _, hr => simp [aseq] at hr
  | [_], _, hr => simp [aseq] at hr
  | [[], _], _, hr => simp [aseq] at hr
  | [_ :: _, []], _, hr => simp [aseq] at hr
  | [[], _, _], _, hr => simp [aseq] at hr
  | [_ :: _, [], _], _, hr => simp [aseq] at hr
  | [_ :: _, _ :: _, []], _, hr => simp [aseq] at hr
  | _ :: _ :: _ :: _ :: _, _, hr => simp [aseq] at hr

/-! ### Running sums -/

theorem mapM_asInt {vs : List Val} {l : List (ITy × Int)} (h : vs.mapM asInt = some l) : vs = intVals l ∧ ∀ p ∈ l, p.1.has p.2 := by
  obtain ⟨h1, h2⟩ := mapM_get h
  constructor
  · apply List.ext_getElem?
    intro i
    by_cases hi : i < vs.length
    · obtain ⟨⟨t, n⟩, h3, h4⟩ := h2 i _ (List.getElem?_eq_getElem hi)
      rw [intVals, List.getElem?_map, h3, List.getElem?_eq_getElem hi, (asInt_spec h4).2]
      rfl
    · rw [List.getElem?_eq_none (by omega), List.getElem?_eq_none (by rw [intVals, List.length_map]; omega)]
  · intro p hp
    obtain ⟨i, hi, rfl⟩ := List.mem_iff_getElem.mp hp
    obtain ⟨⟨t, n⟩, h3, h4⟩ := h2 i _ (List.getElem?_eq_getElem (by omega))
    rw [List.getElem?_eq_getElem hi] at h3
    rw [Option.some.inj h3]
    exact (asInt_spec h4).1

theorem largest_ok : ∀ {ts : List ITy} {t : ITy}, largest ts = some t → t ∈ ts ∧ ∀ s ∈ ts, ITy.le s t
  | [], t, h => by cases h
  | a :: ts, t, h => by
    have refl : ∀ s : ITy, ITy.le s s := by intro s; cases s <;> simp [ITy.le, ITy.width, ITy.signed]
    simp only [largest] at h
    split at h
    · rename_i hn
      cases h
      have : ts = [] := by
        cases ts with
        | nil => rfl
        | cons b ts => simp only [largest] at hn; split at hn <;> cases hn
      subst this
      simp [refl]
    · rename_i b hb
      obtain ⟨h1, h2⟩ := largest_ok hb
      cases h
      split
      · rename_i hc
        refine ⟨by simp, fun s hs => ?_⟩
        rcases List.mem_cons.mp hs with rfl | hs
        · exact refl _
        · have := h2 s hs
          simp only [ITy.le] at this ⊢
          rcases hc with hc | ⟨hc, hc'⟩
          · omega
          · simp only [hc', or_true, and_true]; omega
      · rename_i hc
        refine ⟨List.mem_cons_of_mem _ h1, fun s hs => ?_⟩
        rcases List.mem_cons.mp hs with rfl | hs
        · simp only [ITy.le]
          simp only [not_or, not_and, Bool.not_eq_false] at hc
          rcases Nat.lt_or_ge s.width b.width with h | h
          · exact .inl h
          · exact .inr ⟨by omega, .inl (hc.2 (by omega))⟩
        · exact h2 s hs

theorem fnOk_cumsum : FnOk Expr.cumsum cumsum := fnOk_yields fun argv vss r hv hr => by
  match vss, hv, hr with
  | [vs], hv, hr =>
    obtain ⟨a, as, rfl, ha, -, h2⟩ := holdS_cons hv
    have := holdS_nil h2; subst this
    simp only [cumsum, Option.bind_eq_some_iff] at hr
    obtain ⟨l, hl, t, ht, hr⟩ := hr
    obtain ⟨rfl, g2⟩ := mapM_asInt hl
    obtain ⟨g3, g4⟩ := largest_ok ht
    split at hr
    · rename_i hc
      cases hr
      obtain ⟨out, k1, k2⟩ := C71_cumsum a l t ha g2 ⟨g3, fun p hp => g4 _ (List.mem_map_of_mem hp)⟩ hc
      exact ⟨_, k1, k2⟩
    · cases hr
  | [], _, hr => simp [cumsum] at hr
  | _ :: _ :: _, _, hr => simp [cumsum] at hr

end Libo.Sem
