import Verif.ExprCastLemmas
import Verif.Props.ExprStr
/-!
# Casts of the expression language (C57)
-/

namespace Libo.Props
open Libo Libo.Expr Libo.Text

/-! ## To integers -/

/-- A cast to an integer type gives, for every element, the integer of that type that is congruent to it. -/
theorem C57_int (P : Printf) (t : ITy) (a : Ar) (rest : List Ar) (vs : List Val) (ns : List Int) (ha : Holds a vs) (hl : vs.length = ns.length)
    (h : ∀ (i : Nat) v n, vs[i]? = some v → ns[i]? = some n → IntOf t v n) :
    ∃ out, explicitCast P (.int t) (a :: rest) = some (0, some out) ∧ Holds (some out) (ns.map t.val) := by
  refine explicitCast_ok P (.int t) a rest vs _ ha (by simpa using hl) ?_
  intro i x v w hx hv hw
  rw [List.getElem?_map, Option.map_eq_some_iff] at hw
  obtain ⟨n, hn, rfl⟩ := hw
  obtain ⟨u, h1, h2⟩ := castInt_spec t hx (h i v n hv hn)
  exact ⟨u, by simp [castAtom, h1], h2⟩

/-- 300 as an 8-bit number is 44, and -2.5 is -2. -/
example : ∃ out, explicitCast exP (.int .i8) [some [.mk 105 false (.bits 300), .mk 100 false (.bits 13836183899741224960), .mk 84 false (.bits 0)]] = some (0, some out) ∧
    Holds (some out) [.num 99 44, .num 99 254, .num 99 1] := by
  have h := C57_int exP .i8 (some [.mk 105 false (.bits 300), .mk 100 false (.bits 13836183899741224960), .mk 84 false (.bits 0)]) []
    [.num 105 300, .num 100 13836183899741224960, .bare 84] [300, -2, 1] rfl rfl (by
    intro i v n hv hn
    match i with
    | 0 => cases hv; cases hn; exact .inl ⟨.i32, by simp [ITy.has, ITy.signed, ITy.width], rfl⟩
    | 1 => cases hv; cases hn; exact .inr (.inr (.inr (.inr ⟨_, rfl, ⟨by unfold ieeeFinite; decide, by decide +kernel⟩, by simp [ITy.has, ITy.signed, ITy.width]⟩)))
    | 2 => cases hv; cases hn; exact .inr (.inl ⟨rfl, rfl⟩)
    | i + 3 => simp at hv)
  simpa [ITy.val, ITy.tag, ITy.width] using h

/-- A number that fits is not changed by a cast to a wider type and back. -/
theorem C57_widen (P : Printf) (s t : ITy) (a : Ar) (ns : List Int) (ha : Holds a (ns.map s.val)) (hs : ∀ n ∈ ns, s.has n) (ht : ∀ n ∈ ns, t.has n) :
    ∃ out out', explicitCast P (.int t) [a] = some (0, some out) ∧ Holds (some out) (ns.map t.val) ∧
      explicitCast P (.int s) [some out] = some (0, some out') ∧ Holds (some out') (ns.map s.val) := by
  have key : ∀ (s t : ITy) (a : Ar), Holds a (ns.map s.val) → (∀ n ∈ ns, s.has n) →
      ∃ out, explicitCast P (.int t) [a] = some (0, some out) ∧ Holds (some out) (ns.map t.val) := by
    intro s t a ha hs
    refine C57_int P t a [] (ns.map s.val) ns ha (by simp) ?_
    intro i v n hv hn
    rw [List.getElem?_map, hn] at hv
    cases hv
    exact .inl ⟨s, hs n (List.mem_of_getElem? hn), rfl⟩
  obtain ⟨out, h1, h2⟩ := key s t a ha hs
  obtain ⟨out', h3, h4⟩ := key t s (some out) h2 ht
  exact ⟨out, out', h1, h2, h3, h4⟩

/-! ## To truth values -/

/-- A cast to `bool` gives true for true and for numbers other than zero, and false for everything else. -/
theorem C57_bool (P : Printf) (a : Ar) (rest : List Ar) (vs : List Val) (ha : Holds a vs) :
    ∃ out, explicitCast P .bool (a :: rest) = some (0, some out) ∧ Holds (some out) (vs.map fun v => .bare (if v.truth then 84 else 70)) := by
  refine explicitCast_ok P .bool a rest vs _ ha (by simp) ?_
  intro i x v w hx hv hw
  rw [List.getElem?_map, hv] at hw
  cases hw
  simp only [castAtom, getBool_val x v hx]
  cases v.truth
  · exact ⟨.mk 70 false (.bits 0), rfl, rfl⟩
  · exact ⟨.mk 84 false (.bits 0), rfl, rfl⟩

example : ∃ out, explicitCast exP .bool [some [.mk 105 false (.bits 3), .mk 100 false (.bits 9223372036854775808), .mk 115 true (.str 1 [97])]] = some (0, some out) ∧
    Holds (some out) [.bare 84, .bare 70, .bare 70] :=
  C57_bool exP (some [.mk 105 false (.bits 3), .mk 100 false (.bits 9223372036854775808), .mk 115 true (.str 1 [97])]) []
    [.num 105 3, .num 100 9223372036854775808, .str [97]] rfl

/-! ## To strings -/

/-- What becomes of a value: 8-bit numbers are taken for characters if they are printable, and are written as numbers otherwise. -/
def castText (P : Printf) : Val → Bytes
  | .num tag v =>
    if tag = 99 then if 32 ≤ v ∧ v < 127 then [UInt8.ofNat v] else decI (signedOf 8 v)
    else if tag = 67 then if 32 ≤ v ∧ v < 127 then [UInt8.ofNat v] else dec v
    else textNum P tag v
  | v => strText P v

/-- A value for which the cast is right: not a signed 8-bit number below -99; a blob, time tag or bundle has no text. -/
def CastText (P : Printf) : Val → Prop
  | .num tag v => if tag = 99 then v < 256 ∧ -99 ≤ signedOf 8 v else if tag = 67 then v < 256 else (0 : UInt8) ∉ textNum P tag v
  | v => HasText P v

theorem dec_short {n : Nat} (h : n < 1000) : (dec n).length ≤ 3 := by
  rw [dec]
  split
  · simp
  · rw [dec]
    split
    · simp
    · rw [dec, if_pos (by omega)]
      simp

theorem dec_short2 {n : Nat} (h : n < 100) : (dec n).length ≤ 2 := by
  rw [dec]
  split
  · simp
  · rw [dec, if_pos (by omega)]
    simp

theorem castString_spec (P : Printf) {a : UAtom} {v : Val} (ha : a.val = some v) (hc : CastText P v) :
    castString P (some a) .fresh = some (0, setString .fresh (castText P v)) := by
  obtain ⟨tag, al, w⟩ := a
  by_cases h99 : tag = 99
  · subst h99
    have hv : v = .num 99 (w.raw % M8) := by simpa [UAtom.val] using ha.symm
    subst hv
    simp only [CastText, if_true] at hc
    obtain ⟨hlt, hc⟩ := hc
    simp only [castString, castText, if_true]
    rw [if_neg (by decide)]
    have hw : w.c = signedOf 8 (w.raw % M8) := castS_signed (n := 8) rfl w.raw
    rw [hw]
    generalize w.raw % M8 = x at *
    have hs : signedOf 8 x = if x < 128 then (x : Int) else x - 256 := by
      simp only [signedOf]; split <;> split <;> omega
    by_cases hp : 32 ≤ x ∧ x < 127
    · have e : signedOf 8 x = x := by rw [hs, if_pos (by omega)]
      rw [if_pos hp, if_pos (by rw [e]; omega), e, Int.toNat_natCast]
    · rw [if_neg hp, if_neg (by rw [hs]; split <;> omega)]
      simp only [snprintf4]
      rw [List.take_of_length_le]
      rw [hs] at hc ⊢
      by_cases h128 : x < 128
      · rw [if_pos h128, decI, if_neg (by omega)]
        exact dec_short (by omega)
      · rw [if_neg h128] at hc ⊢
        rw [decI, if_pos (by omega), List.length_cons]
        have := dec_short2 (n := ((x : Int) - 256).natAbs) (by omega)
        omega
  · by_cases h67 : tag = 67
    · subst h67
      have hv : v = .num 67 (w.raw % M8) := by simpa [UAtom.val] using ha.symm
      subst hv
      simp [CastText] at hc
      simp only [castString, castText, h99, if_true, if_false]
      rw [if_neg (by decide)]
      have hw : w.C = ((w.raw % M8 : Nat) : Int) := by rw [W.C, castU, Int.natCast_emod]
      rw [hw]
      generalize w.raw % M8 = x at *
      by_cases hp : 32 ≤ x ∧ x < 127
      · rw [if_pos hp, if_pos (by omega), Int.toNat_natCast]
      · rw [if_neg hp, if_neg (by omega)]
        simp only [snprintf4]
        rw [List.take_of_length_le]
        · rw [decI, if_neg (by omega), Int.natAbs_natCast]
        · rw [decI, if_neg (by omega), Int.natAbs_natCast]
          exact dec_short (by omega)
    · have hh : HasText P v ∧ castText P v = strText P v ∧ tag ≠ 98 := by
        rcases val_eq tag al w _ ha with ⟨h1, rfl⟩ | ⟨h1, rfl⟩ | ⟨h1, rfl⟩ | ⟨h1, rfl⟩ | ⟨h1, rfl⟩ | ⟨rfl, p, s, rfl, rfl⟩ |
          ⟨_, p, blk, l, c, _, _, _, rfl⟩ | ⟨_, p, ms, vs, _, _, rfl⟩ | ⟨rfl, h1⟩
        · grind
        · simp only [CastText, h99, h67, if_false] at hc
          simp only [castText, strText, h99, h67, if_false]
          exact ⟨⟨h67, hc⟩, by simp, by grind⟩
        · simp only [CastText, h99, h67, if_false] at hc
          simp only [castText, strText, h99, h67, if_false]
          exact ⟨⟨h67, hc⟩, by simp, by grind⟩
        · simp only [CastText, h99, h67, if_false] at hc
          simp only [castText, strText, h99, h67, if_false]
          exact ⟨⟨h67, hc⟩, by simp, by grind⟩
        · exact hc.elim
        · exact ⟨hc, rfl, by decide⟩
        · exact hc.elim
        · exact hc.elim
        · exact ⟨hc, rfl, fun e => by rw [e] at h1; revert h1; decide⟩
      simp only [castString, if_neg hh.2.2, if_neg h99, if_neg h67, getStr_text P ha hh.1, Option.bind_some, hh.2.1]

/-- A cast to `string` gives the text of every element. -/
theorem C57_string_partial (P : Printf) (a : Ar) (rest : List Ar) (vs : List Val) (ha : Holds a vs) (h : ∀ v ∈ vs, CastText P v) :
    ∃ out, explicitCast P .string (a :: rest) = some (0, some out) ∧ Holds (some out) (vs.map fun v => .str (castText P v)) := by
  refine explicitCast_ok P .string a rest vs _ ha (by simp) ?_
  intro i x v w hx hv hw
  rw [List.getElem?_map, hv] at hw
  cases hw
  exact ⟨_, castString_spec P hx (h v (List.mem_of_getElem? hv)), setString_fresh _⟩

example : ∃ out, explicitCast exP .string [some [.mk 99 false (.bits 104), .mk 99 false (.bits 157), .mk 115 true (.str 1 [97, 98])]] = some (0, some out) ∧
    Holds (some out) [.str [104], .str (decI (-99)), .str [97, 98]] :=
  C57_string_partial exP (some [.mk 99 false (.bits 104), .mk 99 false (.bits 157), .mk 115 true (.str 1 [97, 98])]) []
    [.num 99 104, .num 99 157, .str [97, 98]] rfl (by simp [CastText, signedOf, HasText])

/-- Signed 8-bit numbers below -99 lose their last digit. -/
theorem C57_string_fails (P : Printf) (al : Bool) (w : W) (h : w.c < -99) :
    ∃ u, castString P (some (.mk 99 al w)) .fresh = some (0, u) ∧ u.val = some (.str ((decI w.c).take 3)) ∧ (decI w.c).length = 4 := by
  have hr : -128 ≤ w.c := by
    have : M8 = 256 := rfl
    simp only [W.c, castS, this]
    split <;> omega
  refine ⟨setString .fresh (snprintf4 w.c), ?_, setString_fresh _, ?_⟩
  · simp only [castString]
    rw [if_neg (by decide), if_pos trivial, if_neg (by omega)]
  · rw [decI, if_pos (by omega), List.length_cons, dec_length_100 (by omega) (by omega)]

example : W.c (.bits 156) < -99 := by decide

/-! ## To blobs -/

theorem blobBytes_spec : ∀ (as : List UAtom) (vs : List Val) (ns : List Int), argsVal as = some vs → vs.length = ns.length →
    (∀ (i : Nat) v n, vs[i]? = some v → ns[i]? = some n → IntOf .i8 v n) → blobBytes as = some (ns.map fun n => UInt8.ofNat (n % 256).toNat)
  | [], vs, ns, h, hl, _ => by
    simp [argsVal] at h
    subst h
    have : ns = [] := List.eq_nil_of_length_eq_zero (by simpa using hl.symm)
    subst this
    rfl
  | a :: as, vs, ns, h, hl, hi => by
    simp only [argsVal, Option.bind_eq_some_iff, Option.map_eq_some_iff] at h
    obtain ⟨v, h1, vs', h2, rfl⟩ := h
    cases ns with
    | nil => simp at hl
    | cons n ns =>
      obtain ⟨m, g1, g2⟩ := getU_int .i8 h1 (hi 0 v n rfl rfl)
      have g1 : a.getInt8 = some m := g1
      have e : m % 256 = n % 256 := by
        simp only [ITy.val, ITy.width, Val.num.injEq, true_and] at g2
        omega
      have ih := blobBytes_spec as vs' ns h2 (by simpa using hl) (fun i v n x y => hi (i + 1) v n x y)
      simp [blobBytes, g1, ih, e]

/-- A cast to `blob` makes one byte of every element. -/
theorem C57_blob (a : Ar) (rest : List Ar) (vs : List Val) (ns : List Int) (ha : Holds a vs) (hl : vs.length = ns.length) (h31 : ns.length < 2 ^ 31)
    (h : ∀ (i : Nat) v n, vs[i]? = some v → ns[i]? = some n → IntOf .i8 v n) :
    ∃ out, blobCast (a :: rest) = some (0, some out) ∧ Holds (some out) [.blob (ns.map fun n => UInt8.ofNat (n % 256).toNat)] := by
  have hb := blobBytes_spec _ vs ns ha hl h
  have hlen : (a.getD []).length = ns.length := by rw [((argsVal_iff _ _).mp ha).1, hl]
  refine ⟨[.mk 98 false (.blob 1 (be32 ns.length ++ ns.map fun n => UInt8.ofNat (n % 256).toNat))], ?_, ?_⟩
  · have hn46 : ∀ al w, a.getD [] ≠ [.mk 46 al w] := by
      intro al w e
      cases ns with
      | nil => simp [e] at hlen
      | cons n ns =>
        cases vs with
        | nil => simp at hl
        | cons v vs =>
          have hi := h 0 v n rfl rfl
          obtain ⟨x, e1, hval⟩ := holds_at ha (i := 0) (v := v) rfl
          have : x = .mk 46 al w := by
            cases a with
            | none => simp [at?] at e1
            | some a => simp only [Option.getD_some] at e; subst e; cases e1; rfl
          subst this
          rcases val_eq 46 al w v hval with ⟨h1, _⟩ | ⟨h1, _⟩ | ⟨h1, _⟩ | ⟨h1, _⟩ | ⟨h1, _⟩ | ⟨h1, _⟩ | ⟨h1, _⟩ | ⟨_, p, ms, vs', _, _, e2⟩ | ⟨_, h1⟩
          all_goals first
            | (subst e2
               rcases hi with ⟨s, _, e3⟩ | ⟨e3, _⟩ | ⟨e3, _⟩ | ⟨_, e3, _⟩ | ⟨_, e3, _⟩
               · cases e3
               · cases e3
               · rcases e3 with e3 | e3 <;> cases e3
               · cases e3
               · cases e3)
            | (revert h1; decide)
    simp only [blobCast]
    rw [hb, hlen]; rfl
  · simp only [Holds, Option.getD_some, argsVal, UAtom.val]
    have hr : rdI32 (be32 ns.length ++ ns.map fun n => UInt8.ofNat (n % 256).toNat) 0 = some (ns.length : Int) := by
      simp only [rdI32, rd32_be32, Option.map_some]
      rw [Nat.mod_eq_of_lt (by omega), toI32_small (by omega)]
    have hs : slice (be32 ns.length ++ ns.map fun n => UInt8.ofNat (n % 256).toNat) 4 ns.length = some (ns.map fun n => UInt8.ofNat (n % 256).toNat) := by
      unfold slice
      rw [if_neg (by simp [be32]; omega)]
      simp only [Int.toNat_natCast]
      congr 1
      rw [List.drop_left' (by simp [be32]), List.take_of_length_le (by simp)]
    simp [hr, hs]

example : ∃ out, blobCast [some [.mk 105 false (.bits 1), .mk 105 false (.bits 255), .mk 99 false (.bits 3)]] = some (0, some out) ∧
    Holds (some out) [.blob [1, 255, 3]] :=
  C57_blob (some [.mk 105 false (.bits 1), .mk 105 false (.bits 255), .mk 99 false (.bits 3)]) [] [.num 105 1, .num 105 255, .num 99 3] [1, 255, 3] rfl rfl (by decide) (by
    intro i v n hv hn
    match i with
    | 0 => cases hv; cases hn; exact .inl ⟨.i32, by simp [ITy.has, ITy.signed, ITy.width], rfl⟩
    | 1 => cases hv; cases hn; exact .inl ⟨.i32, by simp [ITy.has, ITy.signed, ITy.width], rfl⟩
    | 2 => cases hv; cases hn; exact .inl ⟨.i8, by simp [ITy.has, ITy.signed, ITy.width], rfl⟩
    | i + 3 => simp at hv)

/-- A string made of a blob that was made of numbers other than zero is read past the end of the block. -/
theorem C57_string_of_blob_fails (P : Printf) (b : Bytes) (h : (0 : UInt8) ∉ b) (al : Bool) (p : Nat) :
    castString P (some (.mk 98 al (.blob p (be32 b.length ++ b)))) .fresh = none := by
  have h1 : cstr (be32 b.length ++ b) 4 = none := by
    have e := cstr_append_right (be32 b.length) b 0
    rw [show (be32 b.length).length + 0 = 4 from rfl] at e
    have h2 : b.takeWhile (· != 0) = b := by
      clear e
      induction b with
      | nil => rfl
      | cons x b ih =>
        have hx : x ≠ 0 := fun e => h (by simp [e])
        rw [List.takeWhile_cons, if_pos (by simpa using hx), ih (fun e => h (by simp [e]))]
    rw [e, cstr, cstrlen, List.drop_zero]
    simp [h2]
  simp only [castString, if_true, h1]
  rfl

/-! ## With a type given as a value -/

theorem castTag_int (P : Printf) (t : ITy) (src : Option UAtom) (dest : UAtom) : castTag P t.tag.toNat src dest = castInt t src dest := by
  cases t <;> rfl

theorem tag_has (t : ITy) : ITy.i8.has t.tag.toNat := by
  cases t <;> simp [ITy.has, ITy.signed, ITy.width, ITy.tag]

theorem getTag {a : UAtom} (t : ITy) (h : a.val = some (ITy.i8.val t.tag.toNat)) : intOf UAtom.getInt8 (some a) = some (t.tag.toNat : Int) := by
  have := (getU_val .i8 .i8 a _ (tag_has t) h).1
  rw [ITy.conv_self .i8 _ (tag_has t)] at this
  exact this

theorem dynamic_aux (P : Printf) (tts : List UAtom) (a : Ar) (vs : List Val) (ts : List ITy) (ns : List Int) (ha : Holds a vs)
    (hl : vs.length = ns.length) (ht : ∀ (i : Nat), i < ns.length → ∃ t x, ts[i]? = some t ∧ tts[i]? = some x ∧ x.val = some (ITy.i8.val t.tag.toNat))
    (h : ∀ (i : Nat) v n t, vs[i]? = some v → ns[i]? = some n → ts[i]? = some t → IntOf t v n) :
    ∃ out, forN (len a) (fun i out => (intOf UAtom.getInt8 (at? (some tts) i)).bind fun tt => setTo out i (castTag P tt (at? a i))) (mk (len a)) = some out ∧
      Holds (some out) (List.zipWith ITy.val ts ns) := by
  have hlen : ns.length ≤ ts.length := by
    rcases Nat.eq_zero_or_pos ns.length with h0 | h0
    · omega
    · obtain ⟨t, x, h1, _⟩ := ht (ns.length - 1) (by omega)
      have := (List.getElem?_eq_some_iff.mp h1).1
      omega
  have hz : (List.zipWith ITy.val ts ns).length = len a := by rw [List.length_zipWith, holds_len ha]; omega
  have := forN_set (List.zipWith ITy.val ts ns)
    (fun i out => (intOf UAtom.getInt8 (at? (some tts) i)).bind fun tt => setTo out i (castTag P tt (at? a i))) (by
      intro i w out hw
      have hi : i < ns.length := by
        have := (List.getElem?_eq_some_iff.mp hw).1
        rw [List.length_zipWith] at this
        omega
      obtain ⟨t, x, h1, h2, h3⟩ := ht i hi
      have hn : ns[i]? = some ns[i] := List.getElem?_eq_getElem hi
      have hv : vs[i]? = some vs[i] := List.getElem?_eq_getElem (by omega)
      rw [List.getElem?_zipWith, h1, hn] at hw
      cases hw
      obtain ⟨y, g1, g2⟩ := holds_at ha hv
      obtain ⟨u, g3, g4⟩ := castInt_spec t g2 (h i _ _ t hv hn h1)
      refine ⟨castTag P t.tag.toNat (at? a i), u, ?_, by rw [castTag_int, g1, g3], g4⟩
      have : at? (some tts) i = some x := by simp [at?, h2]
      rw [this, getTag t h3]; rfl)
  rwa [hz] at this

/-- With as many types as values, every value is cast to its type. -/
theorem C57_dynamic (P : Printf) (tts a : Ar) (rest : List Ar) (vs : List Val) (ts : List ITy) (ns : List Int)
    (htt : Holds tts (ts.map fun t => ITy.i8.val t.tag.toNat)) (ha : Holds a vs) (hl : vs.length = ns.length) (hlt : vs.length = ts.length)
    (h : ∀ (i : Nat) v n t, vs[i]? = some v → ns[i]? = some n → ts[i]? = some t → IntOf t v n) :
    ∃ out, dynamicCast P (tts :: a :: rest) = some (0, some out) ∧ Holds (some out) (List.zipWith ITy.val ts ns) := by
  have hlt' : len tts = ts.length := by rw [holds_len htt, List.length_map]
  have hla := holds_len ha
  obtain ⟨out, h1, h2⟩ := dynamic_aux P (tts.getD []) a vs ts ns ha hl (by
    intro i hi
    have hi' : i < ts.length := by omega
    obtain ⟨x, g1, g2⟩ := holds_at htt (i := i) (v := ITy.i8.val ts[i].tag.toNat) (by rw [List.getElem?_map, List.getElem?_eq_getElem hi']; rfl)
    exact ⟨ts[i], x, List.getElem?_eq_getElem hi', g1, g2⟩) h
  refine ⟨out, ?_, h2⟩
  simp only [dynamicCast]
  rw [if_neg (by omega), Option.bind_some, h1]
  rfl

/-- With one type, all the values are cast to it. -/
theorem C57_dynamic_one (P : Printf) (tts a : Ar) (rest : List Ar) (vs : List Val) (t : ITy) (ns : List Int)
    (htt : Holds tts [ITy.i8.val t.tag.toNat]) (ha : Holds a vs) (hl : vs.length = ns.length)
    (h : ∀ (i : Nat) v n, vs[i]? = some v → ns[i]? = some n → IntOf t v n) :
    ∃ out, dynamicCast P (tts :: a :: rest) = some (0, some out) ∧ Holds (some out) (ns.map t.val) := by
  have hla := holds_len ha
  have hlt : len tts = 1 := holds_len htt
  obtain ⟨x, g1, g2⟩ := holds_at htt (i := 0) rfl
  have hzip : ∀ ns : List Int, List.zipWith ITy.val (List.replicate ns.length t) ns = ns.map t.val := by
    intro ns
    induction ns with
    | nil => rfl
    | cons n ns ih => simp only [List.length_cons, List.replicate_succ, List.zipWith_cons_cons, List.map_cons, ih]
  by_cases hn : len a > 1
  · obtain ⟨arr, e1, e2⟩ := forN_set (List.replicate ns.length (ITy.i8.val t.tag.toNat)) (fun i out => setTo out i fun x => x.setInt8 t.tag.toNat) (by
      intro i w out hw
      rw [List.getElem?_replicate] at hw
      split at hw <;> cases hw
      obtain ⟨u, g3, g4⟩ := setU_fresh .i8 t.tag.toNat
      exact ⟨_, u, rfl, g3, g4⟩)
    rw [List.length_replicate, ← hl, ← hla] at e1
    obtain ⟨out, h1, h2⟩ := dynamic_aux P arr a vs (List.replicate ns.length t) ns ha hl (by
      intro i hi
      obtain ⟨y, k1, k2⟩ := holds_at e2 (i := i) (v := ITy.i8.val t.tag.toNat) (by simp [hi])
      exact ⟨t, y, by simp [hi], k1, k2⟩) (by
      intro i v n t' hv hn' ht'
      rw [List.getElem?_replicate] at ht'
      split at ht' <;> cases ht'
      exact h i v n hv hn')
    refine ⟨out, ?_, by rwa [hzip] at h2⟩
    simp only [dynamicCast]
    rw [if_pos ⟨hn, hlt⟩, g1, getTag t g2, Option.bind_some, e1, Option.bind_some, h1]
    rfl
  · obtain ⟨out, h1, h2⟩ := dynamic_aux P (tts.getD []) a vs (List.replicate ns.length t) ns ha hl (by
      intro i hi
      have : i = 0 := by omega
      subst this
      exact ⟨t, x, by simp [hi], g1, g2⟩) (by
      intro i v n t' hv hn' ht'
      rw [List.getElem?_replicate] at ht'
      split at ht' <;> cases ht'
      exact h i v n hv hn')
    refine ⟨out, ?_, by rwa [hzip] at h2⟩
    simp only [dynamicCast]
    rw [if_neg (by omega), Option.bind_some, h1]
    rfl

example : ∃ out, dynamicCast exP [some [.mk 99 false (.bits 104)], some [.mk 105 false (.bits 4294967295), .mk 70 false (.bits 0)]] = some (0, some out) ∧
    Holds (some out) [.num 104 18446744073709551615, .num 104 0] := by
  have h := C57_dynamic_one exP (some [.mk 99 false (.bits 104)]) (some [.mk 105 false (.bits 4294967295), .mk 70 false (.bits 0)]) []
    [.num 105 4294967295, .bare 70] .i64 [-1, 0] rfl rfl rfl (by
    intro i v n hv hn
    match i with
    | 0 => cases hv; cases hn; exact .inl ⟨.i32, by simp [ITy.has, ITy.signed, ITy.width], rfl⟩
    | 1 => cases hv; cases hn; exact .inr (.inr (.inl ⟨.inl rfl, rfl⟩))
    | i + 2 => simp at hv)
  simpa [ITy.val, ITy.tag, ITy.width] using h

/-! ## Blobs of single values -/

/-- A number that is zero is written past the end of a block that is too small. -/
theorem C57_blob_zero_fails (P : Printf) (tts : Ar) (t : ITy) (htt : Holds tts [.num 99 98]) :
    dynamicCast P [tts, some [.mk t.tag false (.bits 0)]] = none := by
  obtain ⟨x, g1, g2⟩ := holds_at htt (i := 0) rfl
  have g3 : intOf UAtom.getInt8 (some x) = some 98 := by
    have := (getU_val .i8 .i8 x 98 (by simp [ITy.has, ITy.signed, ITy.width]) g2).1
    rw [ITy.conv_self .i8 _ (by simp [ITy.has, ITy.signed, ITy.width])] at this
    exact this
  have g4 : castBlob (some (.mk t.tag false (.bits 0))) .fresh = none := by cases t <;> rfl
  have hlen : len (some [UAtom.mk t.tag false (.bits 0)]) = 1 := rfl
  simp only [dynamicCast, hlen]
  rw [if_neg (by omega), Option.bind_some]
  have : at? (some (tts.getD [])) 0 = some x := g1
  have h5 : castTag P 98 (some (.mk t.tag false (.bits 0))) .fresh = none := by
    simp only [castTag]
    rw [if_neg (by decide), if_neg (by decide), if_neg (by decide), if_neg (by decide), if_neg (by decide), if_neg (by decide), if_neg (by decide),
      if_neg (by decide), if_neg (by decide), if_neg (by decide), if_neg (by decide), if_pos trivial, g4]
  have h6 : setTo (mk 1) 0 (castTag P 98 (at? (some [UAtom.mk t.tag false (.bits 0)]) 0)) = none := by
    simp [setTo, mk, at?, h5]
  have h7 : (intOf UAtom.getInt8 (at? (some (tts.getD [])) 0)).bind (fun tt => setTo (mk 1) 0 (castTag P tt (at? (some [UAtom.mk t.tag false (.bits 0)]) 0))) = none := by
    rw [this, g3, Option.bind_some, h6]
  have h8 : ∀ {σ : Type} (f : Nat → σ → Option σ) (s : σ), forN 1 f s = f 0 s := by
    intro σ f s
    simp [forN, List.range_succ]
  rw [h8, h7]
  rfl

/-- Every string is written four bytes past the end of the block. -/
theorem C57_blob_string_fails (al : Bool) (p : Nat) (s : Bytes) : castBlob (some (.mk 115 al (.str p s))) .fresh = none := by
  have : getBlobCopy 115 (.str p s) = none := by
    simp only [getBlobCopy, blobLenOf]
    rw [if_neg (by decide), if_neg (by decide), if_pos trivial, Option.bind_some, if_neg (by omega), if_neg (by decide), if_neg (by decide), if_neg (by decide),
      if_neg (by decide), if_neg (by decide), if_neg (by decide), if_neg (by decide), if_pos trivial]
    simp only [wrBlob, wrB]
    rw [if_pos (by simp [be32, zeros])]
    simp only [Option.bind_some]
    rw [if_neg]
    simp only [List.length_append, List.length_take, List.length_drop, zeros, List.length_replicate, be32, List.length_cons, List.length_nil]
    omega
  simp [castBlob, this]

theorem castBlob_put (blk : Bytes) (n : Nat) (d : Bytes) (h : n = d.length) (h31 : n < 2 ^ 31) (hl : 4 + n ≤ blk.length) (al : Bool) (p : Nat) :
    ∃ b, wrBlob blk n d = some b ∧ (UAtom.mk 98 al (.blob p b)).val = some (.blob d) := by
  have e1 : wrBlob blk n d = some (be32 n ++ d ++ blk.drop (4 + n)) := by
    simp only [wrBlob, wrB]
    rw [if_pos (by simp [be32]; omega)]
    simp only [Option.bind_some, List.take_zero, List.nil_append, Nat.zero_add]
    rw [show (be32 n).length = 4 from rfl, if_pos (by simp [be32]; omega)]
    congr 1
    rw [List.take_left' (show (be32 n).length = 4 from rfl), List.drop_append, List.drop_eq_nil_of_le (by simp [be32]), List.nil_append, List.drop_drop]
    congr 2
    simp [be32]; omega
  refine ⟨_, e1, ?_⟩
  have hr : rdI32 (be32 n ++ d ++ blk.drop (4 + n)) 0 = some (n : Int) := by
    simp only [rdI32, List.append_assoc, rd32_be32, Option.map_some]
    rw [Nat.mod_eq_of_lt (by omega), toI32_small (by omega)]
  have hs : slice (be32 n ++ d ++ blk.drop (4 + n)) 4 n = some d := by
    unfold slice
    rw [if_neg (by simp [be32]; omega)]
    simp only [Int.toNat_natCast]
    congr 1
    rw [List.append_assoc, List.drop_left' (by simp [be32]), h, List.take_left' rfl]
  simp only [UAtom.val]
  rw [hr, Option.bind_some, hs]
  rfl

/-- A number of 8, 16 or 32 bits other than zero becomes a blob of its bytes, the most significant one first. -/
theorem C57_blob_number (t : ITy) (al : Bool) (w : W) (ht : t ≠ .i64 ∧ t ≠ .u64) (hw : w.raw % 2 ^ 64 ≠ 0) :
    ∃ u, castBlob (some (.mk t.tag al w)) .fresh = some u ∧
      u.val = some (.blob ((List.range (t.width / 8)).map fun k => UInt8.ofNat (w.raw / 2 ^ (t.width - 8 - 8 * k)))) := by
  have hw : ¬ w.raw % M64 = 0 := hw
  have key : ∀ (n buf : Nat) (d : Bytes), n = d.length → n < 2 ^ 31 → 4 + n ≤ buf → getBlobCopy t.tag w = wrBlob (zeros buf) n d →
      ∃ u, castBlob (some (.mk t.tag al w)) .fresh = some u ∧ u.val = some (.blob d) := by
    intro n buf d h1 h2 h3 h4
    obtain ⟨b, g1, g2⟩ := castBlob_put (zeros buf) n d h1 h2 (by simpa [zeros] using h3) false 1
    exact ⟨_, by simp only [castBlob, h4, g1, Option.bind_some]; rfl, g2⟩
  have e8 : UInt8.ofNat (w.raw % M8) = UInt8.ofNat (w.raw / 1) := by
    apply UInt8.toNat.inj; simp [M8]
  have e16 : be16 (w.raw % M16) = [UInt8.ofNat (w.raw / 256), UInt8.ofNat (w.raw / 1)] := by
    simp only [be16, List.cons.injEq, and_true]
    constructor <;> (apply UInt8.toNat.inj; simp [show M16 = 65536 from rfl]; try omega)
  have e32 : be32 (w.raw % M32) = [UInt8.ofNat (w.raw / 16777216), UInt8.ofNat (w.raw / 65536), UInt8.ofNat (w.raw / 256), UInt8.ofNat (w.raw / 1)] := by
    simp only [be32, List.cons.injEq, and_true]
    refine ⟨?_, ?_, ?_, ?_⟩ <;> (apply UInt8.toNat.inj; simp [show M32 = 4294967296 from rfl]; try omega)
  have hlen : blobLenOf t.tag w = some 4 := by
    unfold blobLenOf
    rw [if_neg (by cases t <;> decide), if_neg (by cases t <;> decide), if_neg (by cases t <;> decide), if_neg hw, if_neg (by cases t <;> decide),
      if_neg (by cases t <;> decide)]
    cases t <;> first | rfl | exact absurd rfl ht.1 | exact absurd rfl ht.2
  cases t
  case i8 => exact key 1 12 _ rfl (by decide) (by decide) (by simp only [getBlobCopy, hlen, Option.bind_some, e8]; rfl)
  case u8 => exact key 1 12 _ rfl (by decide) (by decide) (by simp only [getBlobCopy, hlen, Option.bind_some, e8]; rfl)
  case i16 => exact key 2 12 _ rfl (by decide) (by decide) (by simp only [getBlobCopy, hlen, Option.bind_some, e16]; rfl)
  case u16 => exact key 2 12 _ rfl (by decide) (by decide) (by simp only [getBlobCopy, hlen, Option.bind_some, e16]; rfl)
  case i32 => exact key 4 12 _ rfl (by decide) (by decide) (by simp only [getBlobCopy, hlen, Option.bind_some, e32]; rfl)
  case u32 => exact key 4 12 _ rfl (by decide) (by decide) (by simp only [getBlobCopy, hlen, Option.bind_some, e32]; rfl)
  case i64 => exact absurd rfl ht.1
  case u64 => exact absurd rfl ht.2

example : ∃ u, castBlob (some (.mk 105 false (.bits 66051))) .fresh = some u ∧ u.val = some (.blob [0, 1, 2, 3]) :=
  C57_blob_number .i32 false (.bits 66051) ⟨by decide, by decide⟩ (by decide)

/-- The upper half of 64-bit integers is lost. -/
theorem C57_blob_int64_fails (w w' : W) (h : w.raw % 2 ^ 64 ≠ 0) (h' : w'.raw % 2 ^ 64 ≠ 0) (he : w.raw % 2 ^ 32 = w'.raw % 2 ^ 32) (al al' : Bool) :
    ∃ u v b, castBlob (some (.mk 104 al w)) .fresh = some u ∧ castBlob (some (.mk 104 al' w')) .fresh = some v ∧ u.val = some (.blob b) ∧ v.val = some (.blob b) := by
  have key : ∀ (w : W) (al : Bool), w.raw % M64 ≠ 0 → ∃ u, castBlob (some (.mk 104 al w)) .fresh = some u ∧ u.val = some (.blob (be64 (w.i % M64).toNat)) := by
    intro w al hw
    have hlen : blobLenOf 104 w = some 8 := by
      unfold blobLenOf
      rw [if_neg (by decide), if_neg (by decide), if_neg (by decide), if_neg hw, if_neg (by decide), if_neg (by decide)]
      rfl
    obtain ⟨b, g1, g2⟩ := castBlob_put (zeros 16) 8 (be64 (w.i % M64).toNat) rfl (by decide) (by decide) false 1
    have e : getBlobCopy 104 w = wrBlob (zeros 16) 8 (be64 (w.i % M64).toNat) := by
      simp only [getBlobCopy, hlen, Option.bind_some]
      rfl
    exact ⟨_, by simp only [castBlob, e, g1, Option.bind_some]; rfl, g2⟩
  obtain ⟨u, h1, h2⟩ := key w al h
  obtain ⟨v, h3, h4⟩ := key w' al' h'
  have hi : w.i = w'.i := by
    have he : (w.raw : Int) % M32 = w'.raw % M32 := by rw [show M32 = 2 ^ 32 from rfl]; omega
    simp only [W.i, castS]
    rw [he]
  exact ⟨u, v, _, h1, h3, h2, by rw [h4, hi]⟩

example : (W.bits 4294967298).raw % 2 ^ 64 ≠ 0 ∧ (W.bits 2).raw % 2 ^ 64 ≠ 0 ∧ (W.bits 4294967298).raw % 2 ^ 32 = (W.bits 2).raw % 2 ^ 32 := by decide

/-- As it was claimed: every number can be cast to a blob. -/
theorem C57_full_fails : ¬ ∀ (P : Printf) (tts a : Ar) (t : ITy) (n : Int), Holds tts [.num 99 98] → Holds a [t.val n] → t.has n →
    ∃ out, dynamicCast P [tts, a] = some (0, some out) := by
  intro h
  obtain ⟨out, e⟩ := h exP (some [.mk 99 false (.bits 98)]) (some [.mk 105 false (.bits 0)]) .i32 0 rfl rfl (by simp [ITy.has, ITy.signed, ITy.width])
  cases (C57_blob_zero_fails exP (some [.mk 99 false (.bits 98)]) .i32 rfl).symm.trans e

end Libo.Props
