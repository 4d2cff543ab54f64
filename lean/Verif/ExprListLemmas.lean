import Verif.ExprList
import Verif.Props.RoundTrip
import Verif.ExprSpec
/-!
# Lemmas about atom arrays: copying atoms keeps their values, loops that fill an array
-/

namespace Libo.Expr
open Libo Libo.Props

/-- A value that an atom can be copied with: it fits the 32 bit sizes, and a bundle consists of proper messages (it is
copied by serialising it, so C01 applies). -/
def Copyable : Val → Prop
  | .bndl ms => GoodMsgs ms ∧ sizeVal (.bndl ms) < 2147483648
  | v => sizeVal v < 2147483648

/-- The array holds the values.  NULL holds none. -/
def Holds (a : Ar) (vs : List Val) : Prop := argsVal (a.getD []) = some vs

/-- The value at a position. -/
def vat (l : List UAtom) (i : Nat) : Option Val := l[i]?.bind UAtom.val

theorem argsVal_iff : ∀ (l : List UAtom) (vs : List Val),
    argsVal l = some vs ↔ l.length = vs.length ∧ ∀ i, i < vs.length → vat l i = vs[i]?
  | [], vs => by
    simp only [argsVal, Option.some.injEq, List.length_nil]
    constructor
    · rintro rfl; simp
    · rintro ⟨h, -⟩; exact (List.length_eq_zero_iff.mp h.symm).symm
  | a :: l, [] => by
    simp only [argsVal, Option.bind_eq_some_iff, Option.map_eq_some_iff]
    simp
  | a :: l, v :: vs => by
    simp only [argsVal, Option.bind_eq_some_iff, Option.map_eq_some_iff, List.length_cons]
    constructor
    · rintro ⟨v', hv, vs', h, e⟩
      simp only [List.cons.injEq] at e
      obtain ⟨rfl, rfl⟩ := e
      obtain ⟨h1, h2⟩ := (argsVal_iff l vs').mp h
      refine ⟨by omega, fun i hi => ?_⟩
      cases i with
      | zero => simpa [vat] using hv
      | succ i => simpa [vat] using h2 i (by omega)
    · rintro ⟨h1, h2⟩
      refine ⟨v, by simpa [vat] using h2 0 (by omega), vs, (argsVal_iff l vs).mpr ⟨by omega, fun i hi => ?_⟩, rfl⟩
      simpa [vat] using h2 (i + 1) (by omega)

theorem holds_len {a : Ar} {vs : List Val} (h : Holds a vs) : len a = vs.length := ((argsVal_iff _ _).mp h).1

theorem holds_at {a : Ar} {vs : List Val} (h : Holds a vs) {i : Nat} {v : Val} (hv : vs[i]? = some v) :
    ∃ x, at? a i = some x ∧ x.val = some v := by
  have hi : i < vs.length := (List.getElem?_eq_some_iff.mp hv).1
  have := ((argsVal_iff _ _).mp h).2 i hi
  rw [hv] at this
  exact Option.bind_eq_some_iff.mp this

/-- Copying an atom gives an atom of the same type with the same value. -/
theorem copyAtom_val (a : UAtom) (v : Val) (h : a.val = some v) (hc : Copyable v) :
    ∃ a', copyAtom a = some a' ∧ a'.val = some v ∧ a'.tag = a.tag := by
  obtain ⟨tag, al, w⟩ := a
  rcases val_eq tag al w v h with ⟨h1, rfl⟩ | ⟨h1, rfl⟩ | ⟨h1, rfl⟩ | ⟨h1, rfl⟩ | ⟨rfl, rfl⟩ | ⟨rfl, p, s, rfl, rfl⟩ |
      ⟨rfl, p, blk, l, c, rfl, hl, hs, rfl⟩ | ⟨rfl, p, ms, vs, rfl, hv, rfl⟩ | ⟨rfl, h8⟩
  · exact ⟨.mk tag al w, by rcases h1 with rfl | rfl <;> simp [copyAtom], h, rfl⟩
  · exact ⟨.mk tag al w, by rcases h1 with rfl | rfl <;> simp [copyAtom], h, rfl⟩
  · exact ⟨.mk tag al w, by rcases h1 with rfl | rfl | rfl <;> simp [copyAtom], h, rfl⟩
  · exact ⟨.mk tag al w, by rcases h1 with rfl | rfl | rfl <;> simp [copyAtom], h, rfl⟩
  · exact ⟨_, by simp [copyAtom], h, rfl⟩
  · exact ⟨_, by simp [copyAtom], h, rfl⟩
  · have hs' := hs
    unfold slice at hs
    split at hs
    · cases hs
    · rename_i hcond
      injection hs with e
      have hlc : c.length = l.toNat := by
        rw [← e, List.length_take, List.length_drop]; omega
      refine ⟨.mk 98 al (.blob p (blk.take (l.toNat + 4))), ?_, ?_, rfl⟩
      · have e4 : (l + 4).toNat = l.toNat + 4 := by omega
        have hsl : slice blk 0 (l + 4) = some (blk.take (l.toNat + 4)) := by
          unfold slice
          rw [if_neg (by omega)]; simp [e4]
        simp [copyAtom, hl, hsl]
      · have hl4 : rdI32 (blk.take (l.toNat + 4)) 0 = some l := by
          rw [← hl]
          simp only [rdI32, rd32, rd8]
          rw [List.getElem?_take_of_lt (by omega), List.getElem?_take_of_lt (by omega), List.getElem?_take_of_lt (by omega),
            List.getElem?_take_of_lt (by omega)]
        have hsl : slice (blk.take (l.toNat + 4)) 4 l = some c := by
          unfold slice
          rw [if_neg (by rw [List.length_take]; omega), ← e, List.drop_take, List.take_take]
          simp
        simp [UAtom.val, hl4, hsl]
  · obtain ⟨hg, hsz⟩ := hc
    simp only [sizeVal] at hsz
    obtain ⟨bytes, us, h1, h2, h3⟩ := C01_roundtrip_partial ms vs hv hg (by omega)
    exact ⟨.mk 46 al (.bndl p us), by simp [copyAtom, h1, h2], by simp [UAtom.val, h3], rfl⟩
  · simp only [List.mem_cons, List.not_mem_nil, not_or] at h8
    refine ⟨.mk tag al w, ?_, h, rfl⟩
    simp only [copyAtom]
    rw [if_neg h8.2.2.2.2.2.2.2.2.2.2.2.1, if_neg h8.2.2.2.2.2.2.2.2.2.2.2.2.2.1, if_neg h8.2.2.2.2.2.2.2.2.2.2.2.2.1]

theorem forN_inv {σ : Type} (P : Nat → σ → Prop) (f : Nat → σ → Option σ) (n : Nat) (s : σ) (h0 : P 0 s)
    (hs : ∀ i s, i < n → P i s → ∃ s', f i s = some s' ∧ P (i + 1) s') : ∃ s', forN n f s = some s' ∧ P n s' := by
  induction n with
  | zero => exact ⟨s, rfl, h0⟩
  | succ n ih =>
    obtain ⟨s1, h1, h2⟩ := ih (fun i s hi hp => hs i s (by omega) hp)
    obtain ⟨s2, h3, h4⟩ := hs n s1 (by omega) h2
    refine ⟨s2, ?_, h4⟩
    unfold forN at h1 ⊢
    rw [List.range_succ, List.foldlM_append, h1]
    simp [h3]

theorem copyTo_spec (out : List UAtom) (i : Nat) (src : Option UAtom) (v : Val) (hv : src.bind UAtom.val = some v)
    (hc : Copyable v) (hi : i < out.length) : ∃ out', copyTo out i src = some out' ∧ out'.length = out.length ∧
      vat out' i = some v ∧ ∀ j, j ≠ i → out'[j]? = out[j]? := by
  obtain ⟨a, rfl, ha⟩ := Option.bind_eq_some_iff.mp hv
  obtain ⟨a', h1, h2, -⟩ := copyAtom_val a v ha hc
  refine ⟨out.set i a', by simp [copyTo, h1], by simp, by simp [vat, hi, h2], fun j hj => ?_⟩
  rw [List.getElem?_set_ne (Ne.symm hj)]

/-- A loop that copies `src i` to position `pos i`. -/
theorem fill_spec (n : Nat) (pos : Nat → Nat) (src : Nat → Option UAtom) (v : Nat → Option Val) (out : List UAtom)
    (hp : ∀ i, i < n → pos i < out.length) (hinj : ∀ i j, i < n → j < n → pos i = pos j → i = j)
    (hv : ∀ i, i < n → ∃ x, v i = some x ∧ (src i).bind UAtom.val = some x ∧ Copyable x) :
    ∃ out', forN n (fun i o => copyTo o (pos i) (src i)) out = some out' ∧ out'.length = out.length ∧
      (∀ i, i < n → vat out' (pos i) = v i) ∧ ∀ j, (∀ i, i < n → pos i ≠ j) → out'[j]? = out[j]? := by
  obtain ⟨o, h1, h2, h3, h4⟩ := forN_inv (P := fun k o => o.length = out.length ∧ (∀ i, i < k → vat o (pos i) = v i) ∧
      ∀ j, (∀ i, i < k → pos i ≠ j) → o[j]? = out[j]?) (fun i o => copyTo o (pos i) (src i)) n out
    ⟨rfl, fun i hi => absurd hi (Nat.not_lt_zero i), fun _ _ => rfl⟩ (by
      rintro k o hk ⟨hl, hd, hr⟩
      obtain ⟨x, e1, e2, e3⟩ := hv k hk
      obtain ⟨o', g1, g2, g3, g4⟩ := copyTo_spec o (pos k) (src k) x e2 e3 (by rw [hl]; exact hp k hk)
      refine ⟨o', g1, by omega, fun i hi => ?_, fun j hj => ?_⟩
      · by_cases e : i = k
        · rw [e, g3, e1]
        · have : pos i ≠ pos k := fun h => e (hinj i k (by omega) hk h)
          rw [← hd i (by omega), vat, vat, g4 _ this]
      · rw [g4 j (fun h => hj k (by omega) h.symm), hr j (fun i hi => hj i (by omega))])
  exact ⟨o, h1, h2, h3, h4⟩

theorem mk_length (n : Nat) : (mk n).length = n := by simp [mk]

/-- A loop that fills a new array from the front. -/
theorem fill_new (vs : List Val) (hc : ∀ v ∈ vs, Copyable v) (src : Nat → Option UAtom)
    (hv : ∀ i v, vs[i]? = some v → (src i).bind UAtom.val = some v) :
    ∃ out, forN vs.length (fun i o => copyTo o i (src i)) (mk vs.length) = some out ∧ Holds (some out) vs := by
  obtain ⟨o, h1, h2, h3, -⟩ := fill_spec vs.length (fun i => i) src (fun i => vs[i]?) (mk vs.length) (by simp [mk_length])
    (fun i j _ _ h => h) (fun i hi => ⟨vs[i], by simp [hi], hv i _ (by simp [hi]), hc _ (List.getElem_mem hi)⟩)
  exact ⟨o, h1, (argsVal_iff _ _).mpr ⟨by rw [mk_length] at h2; simpa using h2, fun i hi => h3 i hi⟩⟩

/-- `osc_atom_array_u_copy` keeps all values. -/
theorem copyAr_holds (a : Ar) (vs : List Val) (h : Holds a vs) (hc : ∀ v ∈ vs, Copyable v) :
    ∃ a', copyAr a = some a' ∧ Holds a' vs ∧ a'.isSome = a.isSome := by
  cases a with
  | none => exact ⟨none, rfl, h, rfl⟩
  | some l =>
    have hl := holds_len h
    simp only [len, Option.getD_some] at hl
    obtain ⟨o, h1, h2⟩ := fill_new vs hc (fun i => l[i]?) (fun i v hv => by
      have := ((argsVal_iff _ _).mp h).2 i (List.getElem?_eq_some_iff.mp hv).1
      rw [hv] at this; exact this)
    refine ⟨some o, ?_, h2, rfl⟩
    simp only [copyAr, hl, h1, Option.map_some]

/-- `osc_atom_array_u_copyInto` into an array that is long enough: the values from the offset on are those of the source. -/
theorem copyIntoAr_spec (out : List UAtom) (a : Ar) (vs : List Val) (off : Nat) (h : Holds a vs) (hc : ∀ v ∈ vs, Copyable v)
    (hl : off + vs.length ≤ out.length) : ∃ out', copyIntoAr out a off = some out' ∧ out'.length = out.length ∧
      (∀ i, i < vs.length → vat out' (off + i) = vs[i]?) ∧ ∀ j, j < off ∨ off + vs.length ≤ j → out'[j]? = out[j]? := by
  cases a with
  | none =>
    have : vs = [] := by
      have := holds_len h; simp only [len, Option.getD_none, List.length_nil] at this
      exact List.length_eq_zero_iff.mp this.symm
    subst this
    exact ⟨out, rfl, rfl, by simp, fun _ _ => rfl⟩
  | some l =>
    have hll := holds_len h
    simp only [len, Option.getD_some] at hll
    obtain ⟨o, h1, h2, h3, h4⟩ := fill_spec vs.length (fun i => i + off) (fun i => l[i]?) (fun i => vs[i]?) out
      (fun i hi => by omega) (fun i j _ _ he => by omega)
      (fun i hi => ⟨vs[i], by simp [hi], by
        have := ((argsVal_iff _ _).mp h).2 i hi
        rw [vat, Option.getD_some] at this
        rw [this]; simp [hi], hc _ (List.getElem_mem hi)⟩)
    refine ⟨o, ?_, h2, fun i hi => by rw [Nat.add_comm]; exact h3 i hi, fun j hj => h4 j (fun i hi => by omega)⟩
    simp only [copyIntoAr, hll]
    rw [if_neg (by omega)]
    exact h1

theorem raw_mod (t : ITy) (tag : UInt8) (al : Bool) (w : W) (n : Int) (h : (UAtom.mk tag al w).val = some (t.val n)) :
    tag = t.tag ∧ (w.raw : Int) % (2 ^ t.width : Nat) = n % (2 ^ t.width : Nat) := by
  have hnn : 0 ≤ n % (2 ^ t.width : Nat) := Int.emod_nonneg _ (by have := Nat.two_pow_pos t.width; omega)
  have key : ∀ x : Nat, x = (n % (2 ^ t.width : Nat)).toNat → (x : Int) = n % (2 ^ t.width : Nat) := by
    intro x hx; rw [hx, Int.toNat_of_nonneg hnn]
  rcases val_eq tag al w _ h with ⟨h1, h2⟩ | ⟨h1, h2⟩ | ⟨h1, h2⟩ | ⟨h1, h2⟩ | ⟨h1, h2⟩ | ⟨h1, p, s, -, h2⟩ |
      ⟨h1, p, blk, l, c, -, -, -, h2⟩ | ⟨h1, p, ms, vs, -, -, h2⟩ | ⟨h2, -⟩ <;>
    simp only [ITy.val, Val.num.injEq, reduceCtorEq] at h2 <;> obtain ⟨e, h2⟩ := h2 <;>
    refine ⟨e.symm, ?_⟩ <;> have h3 := key _ h2.symm <;> rw [← h3] <;> clear h3 key hnn h2 <;>
    cases t <;> simp only [ITy.tag] at e <;> subst e <;> simp_all [ITy.width]

/-- The member of the union for an integer type. -/
def member (t : ITy) (w : W) : Int :=
  match t with
  | .i8 => w.c | .i16 => w.u | .i32 => w.i | .i64 => w.h | .u8 => w.C | .u16 => w.U | .u32 => w.I | .u64 => w.H

/-- Every integer getter converts an integer value to its type. -/
theorem getU_val (t g : ITy) (a : UAtom) (n : Int) (hn : t.has n) (h : a.val = some (t.val n)) :
    getU g a = some (g.conv n) ∧ a.getInt = some (ITy.i32.conv n) := by
  obtain ⟨tag, al, w⟩ := a
  obtain ⟨rfl, hw⟩ := raw_mod t tag al w n h
  have hm : member t w = n := by
    refine Eq.trans ?_ (ITy.conv_self t n hn)
    cases t
    · exact (castS_congr hw).trans (conv_i8 n).symm
    · exact (castS_congr hw).trans (conv_i16 n).symm
    · exact (castS_congr hw).trans (conv_i32 n).symm
    · exact (castS_congr hw).trans (conv_i64 n).symm
    · exact castU_congr hw
    · exact castU_congr hw
    · exact castU_congr hw
    · exact castU_congr hw
  cases t <;> simp only [member] at hm <;> cases g <;>
    simp [getU, UAtom.getInt8, UAtom.getInt16, UAtom.getInt32, UAtom.getInt64, UAtom.getUInt8, UAtom.getUInt16,
      UAtom.getUInt32, UAtom.getUInt64, UAtom.getInt, UAtom.tag, ITy.tag, UAtom.w, hm, conv_i8, conv_i16, conv_i32, conv_i64,
      conv_u8, conv_u16, conv_u32, conv_u64]

/-- A typed setter on a new atom makes the value of its type, converted. -/
theorem setU_fresh (g : ITy) (n : Int) : ∃ u, setU g .fresh n = some u ∧ u.val = some (g.val n) := by
  have key : ((W.bits 0).store (2 ^ g.width) n).raw % 2 ^ g.width = (n % (2 ^ g.width : Nat)).toNat := by
    have h1 := store_mod (W.bits 0) (2 ^ g.width) (Nat.two_pow_pos _) n
    omega
  cases g <;> refine ⟨.mk _ false ((W.bits 0).store _ _), rfl, ?_⟩ <;> simp only [ITy.width] at key <;>
    simp only [UAtom.val, ITy.val, ITy.tag, ITy.width] <;> simp [key]

theorem getBool_val (a : UAtom) (v : Val) (h : a.val = some v) : getBool (some a) = v.truth := by
  obtain ⟨tag, al, w⟩ := a
  rcases val_eq tag al w v h with ⟨h1, rfl⟩ | ⟨h1, rfl⟩ | ⟨h1, rfl⟩ | ⟨h1, rfl⟩ | ⟨rfl, rfl⟩ | ⟨rfl, p, s, rfl, rfl⟩ |
      ⟨rfl, p, blk, l, c, rfl, -, -, rfl⟩ | ⟨rfl, p, ms, vs, rfl, -, rfl⟩ | ⟨rfl, h8⟩
  · rcases h1 with rfl | rfl <;> simp [getBool, Val.truth, bne]
  · rcases h1 with rfl | rfl <;> simp [getBool, Val.truth, bne]
  · have := Nat.mod_mod_of_dvd w.raw (by decide : 2147483648 ∣ M32)
    rcases h1 with rfl | rfl | rfl <;> simp [getBool, Val.truth, bne, this]
  · have := Nat.mod_mod_of_dvd w.raw (by decide : 9223372036854775808 ∣ M64)
    rcases h1 with rfl | rfl | rfl <;> simp [getBool, Val.truth, bne, this]
  · simp [getBool, Val.truth]
  · simp [getBool, Val.truth]
  · simp [getBool, Val.truth]
  · simp [getBool, Val.truth]
  · simp only [List.mem_cons, List.not_mem_nil, not_or, or_false] at h8
    obtain ⟨a1, a2, a3, a4, a5, a6, a7, a8, a9, a10, a11, a12, a13, a14⟩ := h8
    simp [getBool, Val.truth, *]
    by_cases e : tag = 84 <;> simp [e]

end Libo.Expr
