import Verif.ExprStrLemmas
/-!
# The string functions of the expression language (C56)
-/

namespace Libo.Props
open Libo Libo.Expr Libo.Text

/-- For the examples: floating point numbers are not printed, new memory holds the letter `x`, nothing is sorted,
the functions of `math.h` give back an argument. -/
def exP : Printf where
  f32 _ := []
  f64 _ := []
  junk _ := 120
  qsort n _ := List.range n
  lib1 _ b := b
  lib2 _ b _ := b
  libn _ _ b := b

/-- For the examples: a list of one string. -/
def exStr (s : Bytes) : Ar := some [.mk 115 true (.str 1 s)]

/-! ## Lengths -/

/-- `strlen` gives the length of the text of every element, as a 64-bit integer. -/
theorem C56_strlen (P : Printf) (a : Ar) (rest : List Ar) (vs : List Val) (h : Holds a vs) (ht : ∀ v ∈ vs, HasText P v) :
    ∃ out, strlenF P (a :: rest) = some (0, some out) ∧ Holds (some out) (vs.map fun v => ITy.i64.val (strText P v).length) := by
  obtain ⟨out, h1, h2⟩ := forN_set (vs.map fun v => ITy.i64.val (strText P v).length)
    (fun i out => (getStr P (at? a i)).bind fun s => s.bind fun s => setTo out i (·.setInt64 s.length)) (by
      intro i w out hw
      rw [List.getElem?_map, Option.map_eq_some_iff] at hw
      obtain ⟨v, hv, rfl⟩ := hw
      obtain ⟨x, g1, g2⟩ := holds_at h hv
      obtain ⟨u, g3, g4⟩ := setU_fresh .i64 (strText P v).length
      refine ⟨(·.setInt64 (strText P v).length), u, ?_, g3, g4⟩
      rw [g1, getStr_text P g2 (ht v (List.mem_of_getElem? hv))]
      rfl)
  refine ⟨out, ?_, h2⟩
  rw [List.length_map] at h1
  simp only [strlenF, holds_len h]
  rw [h1]; rfl

example : ∃ out, strlenF exP [some [.mk 115 true (.str 1 [97, 98]), .mk 105 false (.bits 100)]] = some (0, some out) ∧
    Holds (some out) [.num 104 2, .num 104 3] := by
  have h := C56_strlen exP (some [.mk 115 true (.str 1 [97, 98]), .mk 105 false (.bits 100)]) [] [.str [97, 98], .num 105 100] rfl (by
    intro v hv
    simp at hv
    rcases hv with rfl | rfl
    · simp [HasText]
    · refine ⟨by decide, ?_⟩
      have : (0 : UInt8) ∉ decI 100 := no0_decI 100
      simpa [textNum, signedOf] using this)
  have e : decI 100 = [49, 48, 48] := by
    have : dec 100 = [49, 48, 48] := by rw [dec, if_neg (by omega), dec, if_neg (by omega), dec, if_pos (by omega)]; rfl
    simpa [decI] using this
  simpa [strText, textNum, signedOf, e, ITy.val, ITy.tag, ITy.width] using h

/-! ## Comparison -/

theorem strcmp_iff : ∀ s t : Bytes, (strcmp s t < 0 ↔ s < t) ∧ (strcmp s t = 0 ↔ s = t) ∧ (0 < strcmp s t ↔ t < s)
  | [], [] => by simp [strcmp]
  | [], _ :: _ => by simp [strcmp]
  | _ :: _, [] => by simp [strcmp]
  | x :: s, y :: t => by
    obtain ⟨h1, h2, h3⟩ := strcmp_iff s t
    simp only [strcmp, List.cons_lt_cons_iff, List.cons.injEq]
    by_cases a : x < y
    · have : ¬ y < x := UInt8.not_lt.mpr (UInt8.le_of_lt a)
      have e : x ≠ y := UInt8.ne_of_lt a
      simp [a, this, e, e.symm]
    · by_cases b : y < x
      · have e : x ≠ y := (UInt8.ne_of_lt b).symm
        simp [a, b, e, e.symm]
      · have e : x = y := UInt8.le_antisymm (UInt8.not_lt.mp b) (UInt8.not_lt.mp a)
        subst e
        simp [a, h1, h2, h3]

theorem strcmp_range (s t : Bytes) : strcmp s t = -1 ∨ strcmp s t = 0 ∨ strcmp s t = 1 := by
  induction s generalizing t with
  | nil => cases t <;> simp [strcmp]
  | cons x s ih =>
    cases t with
    | nil => simp [strcmp]
    | cons y t =>
      simp only [strcmp]
      split
      · simp
      · split
        · simp
        · exact ih t

/-- `strcmp` compares the texts of the first elements by their bytes: the answer is negative, zero or positive. -/
theorem C56_strcmp (P : Printf) (a b : Ar) (v w : Val) (vs ws : List Val) (ha : Holds a (v :: vs)) (hb : Holds b (w :: ws))
    (hv : HasText P v) (hw : HasText P w) :
    ∃ r out, strcmpF P [a, b] = some (0, some out) ∧ Holds (some out) [ITy.i32.val r] ∧ ITy.i32.has r ∧
      (r < 0 ↔ strText P v < strText P w) ∧ (r = 0 ↔ strText P v = strText P w) ∧ (0 < r ↔ strText P w < strText P v) := by
  refine ⟨strcmp (strText P v) (strText P w), ?_⟩
  obtain ⟨u, g3, g4⟩ := setU_fresh .i32 (strcmp (strText P v) (strText P w))
  refine ⟨[u], ?_, by simp [Holds, argsVal, g4], ?_, strcmp_iff _ _⟩
  · simp only [strcmpF, getStr_first P ha hv, getStr_first P hb hw, Option.bind_some]
    have : setTo (mk 1) 0 (·.setInt32 (strcmp (strText P v) (strText P w))) = some [u] := by
      simp only [setTo, mk, List.replicate, List.getElem?_cons_zero, Option.bind_some]
      rw [show UAtom.fresh.setInt32 _ = some u from g3]; rfl
    rw [this]; rfl
  · have := strcmp_range (strText P v) (strText P w)
    simp only [ITy.has, ITy.signed, ITy.width, if_true, if_false]
    omega

/-- With a number of characters, only the beginnings of that length are compared. -/
theorem C56_strncmp (P : Printf) (a b c : Ar) (v w : Val) (vs ws ns : List Val) (t : ITy) (n : Nat) (ha : Holds a (v :: vs)) (hb : Holds b (w :: ws))
    (hc : Holds c (t.val n :: ns)) (hn : t.has n) (hn2 : n < 2 ^ 31) (hv : HasText P v) (hw : HasText P w) :
    ∃ r out, strcmpF P [a, b, c] = some (0, some out) ∧ Holds (some out) [ITy.i32.val r] ∧ ITy.i32.has r ∧
      (r < 0 ↔ (strText P v).take n < (strText P w).take n) ∧ (r = 0 ↔ (strText P v).take n = (strText P w).take n) ∧
      (0 < r ↔ (strText P w).take n < (strText P v).take n) := by
  refine ⟨strcmp ((strText P v).take n) ((strText P w).take n), ?_⟩
  obtain ⟨u, g3, g4⟩ := setU_fresh .i32 (strcmp ((strText P v).take n) ((strText P w).take n))
  refine ⟨[u], ?_, by simp [Holds, argsVal, g4], ?_, strcmp_iff _ _⟩
  · obtain ⟨x, h1, h2⟩ := holds_at hc (i := 0) rfl
    have h3 := (getU_val t .i32 x n hn h2).2
    have h4 : ITy.i32.conv n = n := ITy.conv_self .i32 n (by simp only [ITy.has, ITy.signed, ITy.width, if_true, if_false]; omega)
    rw [h4] at h3
    simp only [strcmpF, getStr_first P ha hv, getStr_first P hb hw, Option.bind_some, h1, intOf, h3, Option.map_some]
    have : setTo (mk 1) 0 (·.setInt32 (strncmp (strText P v) (strText P w) n)) = some [u] := by
      simp only [setTo, mk, List.replicate, List.getElem?_cons_zero, Option.bind_some]
      rw [strncmp, if_neg (by omega), Int.toNat_natCast]
      rw [show UAtom.fresh.setInt32 _ = some u from g3]; rfl
    rw [this]; rfl
  · have := strcmp_range ((strText P v).take n) ((strText P w).take n)
    simp only [ITy.has, ITy.signed, ITy.width, if_true, if_false]
    omega

example : ∃ r out, strcmpF exP [exStr [97, 98], exStr [97, 99]] = some (0, some out) ∧ Holds (some out) [ITy.i32.val r] ∧ r < 0 := by
  obtain ⟨r, out, h1, h2, _, h3, _⟩ := C56_strcmp exP (exStr [97, 98]) (exStr [97, 99]) (.str [97, 98]) (.str [97, 99]) [] [] rfl rfl
    (by simp [HasText]) (by simp [HasText])
  exact ⟨r, out, h1, h2, h3.mpr (by decide)⟩

/-! ## Characters -/

theorem strcharLoop_spec (str : Bytes) : ∀ (as : List UAtom) (cs : List (ITy × Int)), argsVal as = some (cs.map fun x => x.1.val x.2) →
    (∀ x ∈ cs, x.1.has x.2 ∧ ITy.i32.has x.2) →
    strcharLoop str as = some (if ∀ x ∈ cs, 0 ≤ x.2 ∧ x.2 < str.length then some (cs.map fun x => str.getD x.2.toNat 0) else none)
  | [], cs, h, _ => by
    simp [argsVal] at h
    subst h
    simp [strcharLoop]
  | a :: as, cs, h, hc => by
    cases cs with
    | nil =>
      simp only [argsVal, Option.bind_eq_some_iff, Option.map_eq_some_iff] at h
      obtain ⟨_, _, _, _, h⟩ := h
      simp at h
    | cons c cs =>
      simp only [argsVal, Option.bind_eq_some_iff, Option.map_eq_some_iff, List.map_cons, List.cons.injEq] at h
      obtain ⟨_, h1, _, h2, rfl, rfl⟩ := h
      have h3 : a.getInt32 = some c.2 := by
        have := (getU_val c.1 .i32 a c.2 (hc c (by simp)).1 h1).1
        rwa [ITy.conv_self .i32 c.2 (hc c (by simp)).2] at this
      have ih := strcharLoop_spec str as cs h2 (fun x hx => hc x (by simp [hx]))
      simp only [strcharLoop, h3, Option.bind_some]
      by_cases hr : 0 ≤ c.2 ∧ c.2 < str.length
      · rw [if_pos hr, ih]
        by_cases ha : ∀ x ∈ cs, 0 ≤ x.2 ∧ x.2 < str.length
        · rw [if_pos ha, if_pos (by simpa [hr] using ha)]
          simp
        · rw [if_neg ha, if_neg (by simpa [hr] using ha)]
          simp
      · rw [if_neg hr, if_neg (fun h => hr (h c (by simp)))]

theorem strcharAll_ok (P : Printf) (chars : List UAtom) (cs : List (ITy × Int)) (hc : argsVal chars = some (cs.map fun x => x.1.val x.2))
    (hcs : ∀ x ∈ cs, x.1.has x.2 ∧ ITy.i32.has x.2) : ∀ (as : List UAtom) (vs done : List Val) (out : List UAtom),
    argsVal as = some vs → (∀ v ∈ vs, HasText P v) → (∀ v ∈ vs, ∀ x ∈ cs, 0 ≤ x.2 ∧ x.2 < (strText P v).length) →
    Filled out done (done.length + vs.length) →
    ∃ out', strcharAll P chars as done.length out = some (0, some out') ∧
      Holds (some out') (done ++ vs.map fun v => .str (cs.map fun x => (strText P v).getD x.2.toNat 0))
  | [], vs, done, out, h, _, _, hf => by
    simp [argsVal] at h
    subst h
    exact ⟨out, rfl, by simpa using filled_all (by simpa using hf)⟩
  | a :: as, vs, done, out, h, ht, hr, hf => by
    simp only [argsVal, Option.bind_eq_some_iff, Option.map_eq_some_iff] at h
    obtain ⟨v, h1, vs', h2, rfl⟩ := h
    obtain ⟨out1, g1, g2⟩ := filled_set hf (by simp) (g := fun a => some (setString a (cs.map fun x => (strText P v).getD x.2.toNat 0))) rfl
      (setString_fresh _)
    obtain ⟨out', i1, i2⟩ := strcharAll_ok P chars cs hc hcs as vs' (done ++ [.str (cs.map fun x => (strText P v).getD x.2.toNat 0)]) out1 h2
      (fun v hv => ht v (by simp [hv])) (fun v hv => hr v (by simp [hv])) (by
        have : done.length + (v :: vs').length = (done ++ [Val.str (cs.map fun x => (strText P v).getD x.2.toNat 0)]).length + vs'.length := by
          simp; omega
        rwa [this] at g2)
    refine ⟨out', ?_, by simpa using i2⟩
    simp only [strcharAll, getStr_text P h1 (ht v (by simp)), Option.bind_some]
    rw [strcharLoop_spec _ _ cs hc hcs, if_pos (hr v (by simp))]
    simp only [Option.bind_some, g1]
    simpa using i1

/-- `strchar` gives, for every string, the string of the characters at the given places. -/
theorem C56_strchar (P : Printf) (c a : Ar) (cs : List (ITy × Int)) (vs : List Val) (hc : Holds c (cs.map fun x => x.1.val x.2)) (ha : Holds a vs)
    (hcs : ∀ x ∈ cs, x.1.has x.2 ∧ ITy.i32.has x.2) (ht : ∀ v ∈ vs, HasText P v)
    (hr : ∀ v ∈ vs, ∀ x ∈ cs, 0 ≤ x.2 ∧ x.2 < (strText P v).length) :
    ∃ out, strchar P [c, a] = some (0, some out) ∧
      Holds (some out) (vs.map fun v => .str (cs.map fun x => (strText P v).getD x.2.toNat 0)) := by
  have hl := holds_len ha
  obtain ⟨out, h1, h2⟩ := strcharAll_ok P (c.getD []) cs hc hcs (a.getD []) vs [] (mk (len a)) ha ht hr (by
    rw [hl]; simpa using filled_new vs.length)
  exact ⟨out, h1, by simpa using h2⟩

/-- It fails if a place is outside of one of the strings. -/
theorem C56_strchar_range (P : Printf) (c a : Ar) (cs : List (ITy × Int)) (vs : List Val) (hc : Holds c (cs.map fun x => x.1.val x.2)) (ha : Holds a vs)
    (hcs : ∀ x ∈ cs, x.1.has x.2 ∧ ITy.i32.has x.2) (ht : ∀ v ∈ vs, HasText P v)
    (hr : ∃ v ∈ vs, ∃ x ∈ cs, ¬ (0 ≤ x.2 ∧ x.2 < (strText P v).length)) : ∃ out, strchar P [c, a] = some (1, some out) := by
  have key : ∀ (as : List UAtom) (vs done : List Val) (out : List UAtom), argsVal as = some vs → (∀ v ∈ vs, HasText P v) →
      (∃ v ∈ vs, ∃ x ∈ cs, ¬ (0 ≤ x.2 ∧ x.2 < (strText P v).length)) → Filled out done (done.length + vs.length) →
      ∃ out', strcharAll P (c.getD []) as done.length out = some (1, some out') := by
    intro as
    induction as with
    | nil =>
      intro vs done out h _ hr
      simp [argsVal] at h
      subst h
      obtain ⟨v, hv, _⟩ := hr
      cases hv
    | cons a as ih =>
      intro vs done out h ht hr hf
      simp only [argsVal, Option.bind_eq_some_iff, Option.map_eq_some_iff] at h
      obtain ⟨v, h1, vs', h2, rfl⟩ := h
      simp only [strcharAll, getStr_text P h1 (ht v (by simp)), Option.bind_some]
      rw [strcharLoop_spec _ _ cs hc hcs]
      by_cases hv : ∀ x ∈ cs, 0 ≤ x.2 ∧ x.2 < (strText P v).length
      · rw [if_pos hv]
        obtain ⟨out1, g1, g2⟩ := filled_set hf (by simp) (g := fun a => some (setString a (cs.map fun x => (strText P v).getD x.2.toNat 0))) rfl
          (setString_fresh _)
        simp only [Option.bind_some, g1]
        obtain ⟨out', h3⟩ := ih vs' (done ++ [.str (cs.map fun x => (strText P v).getD x.2.toNat 0)]) out1 h2 (fun v hv => ht v (by simp [hv])) (by
            obtain ⟨w, hw, x, hx, hn⟩ := hr
            rcases List.mem_cons.mp hw with rfl | hw
            · exact absurd (hv x hx) hn
            · exact ⟨w, hw, x, hx, hn⟩) (by
            have : done.length + (v :: vs').length = (done ++ [Val.str (cs.map fun x => (strText P v).getD x.2.toNat 0)]).length + vs'.length := by
              simp; omega
            rwa [this] at g2)
        exact ⟨out', by simpa using h3⟩
      · rw [if_neg hv]
        exact ⟨out, rfl⟩
  have hl := holds_len ha
  exact key (a.getD []) vs [] (mk (len a)) ha ht hr (by rw [hl]; simpa using filled_new vs.length)

example : ∃ out, strchar exP [some [.mk 105 false (.bits 2), .mk 105 false (.bits 0)], exStr [97, 98, 99]] = some (0, some out) ∧
    Holds (some out) [.str [99, 97]] :=
  C56_strchar exP _ _ [(.i32, 2), (.i32, 0)] [.str [97, 98, 99]] rfl rfl (by simp [ITy.has, ITy.signed, ITy.width]) (by simp [HasText]) (by simp [strText])

/-! ## Finding -/

/-- The places are determined. -/
theorem isFind_unique {sub str : Bytes} (hs : sub ≠ []) : ∀ (ps qs : List Nat) (k : Nat), IsFind sub str k ps → IsFind sub str k qs → ps = qs := by
  have hpos : 0 < sub.length := List.length_pos_iff.mpr hs
  have first : ∀ p ps k, IsFind sub str k (p :: ps) → ∀ q, k ≤ q → sub <+: str.drop q → p ≤ q := by
    intro p ps k h q hk hq
    obtain ⟨r, h1, h2, h3⟩ := h.all q hk hq
    rcases List.mem_cons.mp h1 with rfl | h1
    · exact h2
    · have := (List.pairwise_cons.mp h.apart).1 r h1
      omega
  have tail : ∀ p ps k, IsFind sub str k (p :: ps) → IsFind sub str (p + sub.length) ps := by
    intro p ps k h
    have ha := List.pairwise_cons.mp h.apart
    refine ⟨fun q hq => ⟨ha.1 q hq, (h.found q (by simp [hq])).2⟩, ha.2, fun q hq hp => ?_⟩
    obtain ⟨r, h1, h2, h3⟩ := h.all q (by have := (h.found p (by simp)).1; omega) hp
    rcases List.mem_cons.mp h1 with rfl | h1
    · omega
    · exact ⟨r, h1, h2, h3⟩
  intro ps
  induction ps with
  | nil =>
    intro qs k h1 h2
    cases qs with
    | nil => rfl
    | cons q qs =>
      obtain ⟨g1, g2⟩ := h2.found q (by simp)
      obtain ⟨r, h, _⟩ := h1.all q g1 g2
      cases h
  | cons p ps ih =>
    intro qs k h1 h2
    obtain ⟨f1, f2⟩ := h1.found p (by simp)
    cases qs with
    | nil =>
      obtain ⟨r, h, _⟩ := h2.all p f1 f2
      cases h
    | cons q qs =>
      obtain ⟨g1, g2⟩ := h2.found q (by simp)
      have e : p = q := Nat.le_antisymm (first p ps k h1 q g1 g2) (first q qs k h2 p f1 f2)
      subst e
      rw [ih qs _ (tail _ _ _ h1) (tail _ _ _ h2)]

/-- `strfind` gives the places where the text of the first argument is found in the text of the second: from the left, without overlap,
and every occurrence is one of them or overlaps one before it. -/
theorem C56_strfind (P : Printf) (a b : Ar) (v w : Val) (vs ws : List Val) (ha : Holds a (v :: vs)) (hb : Holds b (w :: ws))
    (hv : HasText P v) (hw : HasText P w) (hne : strText P v ≠ []) :
    ∃ ps out, strfind P [a, b] = some (0, some out) ∧ Holds (some out) (ps.map fun p => ITy.i64.val ((p : Nat) : Int)) ∧
      IsFind (strText P v) (strText P w) 0 ps := by
  obtain ⟨ps, ar, h1, h2, h3⟩ := strfindLoop_spec (str := strText P w) hne ((strText P w).length + 1) 0 (mk (strText P w).length) [] (by omega)
    (filled_new _) (by simp)
  refine ⟨ps, resizeAr ar ps.length, ?_, ?_, h3⟩
  · simp only [strfind, getStr_first P ha hv, getStr_first P hb hw, Option.bind_some]
    rw [if_neg (by simpa using hne)]
    simp only [List.drop_zero, List.length_nil, Nat.zero_add] at h1
    rw [h1]; rfl
  · have := filled_cut h2
    simp only [List.nil_append, List.length_map] at this
    exact this

example : ∃ out, strfind exP [exStr [97, 97], exStr [97, 97, 97, 98, 97, 97]] = some (0, some out) ∧ Holds (some out) [.num 104 0, .num 104 4] := by
  obtain ⟨ps, out, h1, h2, h3⟩ := C56_strfind exP (exStr [97, 97]) (exStr [97, 97, 97, 98, 97, 97]) (.str [97, 97]) (.str [97, 97, 97, 98, 97, 97])
    [] [] rfl rfl (by simp [HasText]) (by simp [HasText]) (by simp [strText])
  have : ps = [0, 4] := isFind_unique (by simp [strText]) _ _ _ h3 ⟨by simp [strText], by simp [strText], by
    intro q _ hp
    have hl := prefix_lt (by simp [strText]) hp
    simp only [strText, List.length_cons, List.length_nil] at hl hp
    have hq : q = 0 ∨ q = 1 ∨ q = 2 ∨ q = 3 ∨ q = 4 := by omega
    rcases hq with rfl | rfl | rfl | rfl | rfl
    · exact ⟨0, by simp, by simp, by simp [strText]⟩
    · exact ⟨0, by simp, by simp, by simp [strText]⟩
    · simp at hp
    · simp at hp
    · exact ⟨4, by simp, by simp, by simp [strText]⟩⟩
  subst this
  exact ⟨out, h1, h2⟩

/-- With an empty text to look for, it reports success without giving a value. -/
theorem C56_strfind_empty (P : Printf) (a b : Ar) (v w : Val) (vs ws : List Val) (ha : Holds a (v :: vs)) (hb : Holds b (w :: ws))
    (hv : HasText P v) (hw : HasText P w) (hne : strText P v = []) : strfind P [a, b] = some (0, none) := by
  simp only [strfind, getStr_first P ha hv, getStr_first P hb hw, Option.bind_some]
  rw [if_pos (by simp [hne])]

/-! ## Splitting and joining -/

/-- `split` gives the parts of the text that are not empty, where every character of the first argument separates. -/
theorem C56_split (P : Printf) (a b : Ar) (v w : Val) (vs ws : List Val) (ha : Holds a (v :: vs)) (hb : Holds b (w :: ws))
    (hv : HasText P v) (hw : HasText P w) (hne : strText P v ≠ []) :
    ∃ out, split P [a, b] = some (0, some out) ∧ Holds (some out) (((pieces (strText P v) (strText P w)).filter (· ≠ [])).map .str) := by
  obtain ⟨n, ar, h1, h2⟩ := splitLoop_spec (strText P v) ((strText P w).length + 1) (strText P w) 16 (mk 16) [] (by omega) (filled_new 16)
  refine ⟨resizeAr ar (tokens (strText P v) (strText P w)).length, ?_, ?_⟩
  · simp only [split, getStr_first P ha hv, getStr_first P hb hw, Option.bind_some]
    rw [if_neg (by simpa using hne)]
    simp only [List.length_nil, Nat.zero_add] at h1
    rw [h1]; rfl
  · have := filled_cut h2
    simp only [List.nil_append, List.length_map] at this
    exact this

/-- With an empty separator it gives the characters. -/
theorem C56_split_chars (P : Printf) (a b : Ar) (v w : Val) (vs ws : List Val) (ha : Holds a (v :: vs)) (hb : Holds b (w :: ws))
    (hv : HasText P v) (hw : HasText P w) (hne : strText P v = []) :
    ∃ out, split P [a, b] = some (0, some out) ∧ Holds (some out) ((strText P w).map fun c => .num 99 c.toNat) := by
  obtain ⟨out, h1, h2⟩ := forN_set ((strText P w).map fun c => .num 99 c.toNat)
    (fun i out => setTo out i (·.setInt8 (castS M8 ((strText P w).getD i 0).toNat))) (by
      intro i x out hx
      rw [List.getElem?_map, Option.map_eq_some_iff] at hx
      obtain ⟨c, hc, rfl⟩ := hx
      obtain ⟨u, g3, g4⟩ := setU_fresh .i8 (castS M8 ((strText P w).getD i 0).toNat)
      refine ⟨(·.setInt8 (castS M8 ((strText P w).getD i 0).toNat)), u, rfl, g3, ?_⟩
      rw [g4, ITy.val]
      have hb : c.toNat < 256 := c.toNat_lt
      have : (strText P w).getD i 0 = c := by rw [List.getD_eq_getElem?_getD, hc]; rfl
      rw [this, castS_byte]
      simp only [ITy.tag, ITy.width, signedOf]
      congr 2
      split <;> omega)
  rw [List.length_map] at h1
  refine ⟨out, ?_, h2⟩
  simp only [split, getStr_first P ha hv, getStr_first P hb hw, Option.bind_some]
  rw [if_pos (by simp [hne]), h1]; rfl

/-- `join` gives the texts of all the values, with the separator between them. -/
theorem C56_join (P : Printf) (s : Ar) (args : List Ar) (v : Val) (ss vs : List Val) (hs : Holds s (v :: ss)) (hv : HasText P v) (ha : args ≠ [])
    (h : Holds (some (args.flatMap fun a => a.getD [])) vs) (hne : vs ≠ []) (hj : ∀ v ∈ vs, Joinable P v) :
    ∃ out, join P (s :: args) = some (0, some out) ∧ Holds (some out) [.str (between (strText P v) (vs.map (joined P)))] := by
  have hm := mapM_joinPtr P _ vs h hj
  obtain ⟨rest, hl⟩ := joinLoop_spec (strText P v) (vs.map (joined P)) [] (newBlock P (((vs.map (joined P)).map fun p => p.length + (strText P v).length).sum + 1))
    _ (by simpa using hne) (Nat.le_refl _) (newBlock_length P _)
  have h0 : (0 : UInt8) ∉ between (strText P v) (vs.map (joined P)) := by
    have hs0 := hasText_no0 hv
    clear hl hm h hne
    induction vs with
    | nil => simp [between]
    | cons x vs ih =>
      rw [List.map_cons, between_app]
      have h1 := joined_no0 (hj x (by simp))
      have h2 := ih (fun v hv => hj v (by simp [hv]))
      simp only [List.mem_append, not_or]
      refine ⟨⟨h1, ?_⟩, h2⟩
      split
      · simp
      · exact hs0
  cases args with
  | nil => exact absurd rfl ha
  | cons a args =>
    refine ⟨[.mk 115 true (.str 1 (between (strText P v) (vs.map (joined P))))], ?_, by simp [Holds, argsVal, UAtom.val]⟩
    simp only [List.length_nil, List.nil_append] at hl
    rw [Option.getD_some] at hm
    simp only [join, getStr_first P hs hv, Option.bind_some, hm, hl]
    rw [cstr_eq _ _ h0]
    rfl

example : ∃ out, join exP [exStr [44, 32], some [.mk 115 true (.str 1 [97, 98]), .mk 99 false (.bits 99)], some [.mk 84 false (.bits 0)]] =
    some (0, some out) ∧ Holds (some out) [.str [97, 98, 44, 32, 99, 44, 32, 116, 114, 117, 101]] :=
  C56_join exP _ _ (.str [44, 32]) [] [.str [97, 98], .num 99 99, .bare 84] rfl (by simp [HasText]) (by simp) rfl (by simp)
    (by simp [Joinable, HasText])

theorem pieces_free {c : UInt8} {t : Bytes} (h : c ∉ t) : pieces [c] t = [t] := by
  induction t with
  | nil => simp [pieces]
  | cons x t ih =>
    have hx : x ≠ c := fun e => h (by simp [e])
    rw [pieces, ih (fun e => h (by simp [e]))]
    simp [hx]

theorem pieces_app {c : UInt8} {t : Bytes} (h : c ∉ t) (r : Bytes) : pieces [c] (t ++ c :: r) = t :: pieces [c] r := by
  induction t with
  | nil => simp [pieces]
  | cons x t ih =>
    have hx : x ≠ c := fun e => h (by simp [e])
    rw [List.cons_append, pieces, ih (fun e => h (by simp [e]))]
    simp [hx]

/-- The parts are what was put together. -/
theorem pieces_between {c : UInt8} : ∀ (ts : List Bytes), ts ≠ [] → (∀ t ∈ ts, c ∉ t) → pieces [c] (between [c] ts) = ts
  | [], h, _ => absurd rfl h
  | [t], _, h => by simpa [between] using pieces_free (h t (by simp))
  | t :: u :: ts, _, h => by
    rw [between, List.append_assoc, List.singleton_append, pieces_app (h t (by simp)), pieces_between (u :: ts) (by simp) (fun t ht => h t (by simp [ht]))]

/-- Put together, the parts are the text. -/
theorem between_pieces (c : UInt8) : ∀ s : Bytes, between [c] (pieces [c] s) = s
  | [] => by simp [pieces, between]
  | x :: s => by
    have ih := between_pieces c s
    have hne := pieces_ne [c] s
    rw [pieces]
    cases hp : pieces [c] s with
    | nil => exact absurd hp hne
    | cons p ps =>
      rw [hp] at ih
      by_cases hx : x = c
      · simp [hx, between, ih]
      · simp [hx]
        cases ps with
        | nil => simp [between] at ih ⊢; exact ih
        | cons q ps => simp [between] at ih ⊢; exact ih

/-- No part has the separator in it. -/
theorem pieces_no (c : UInt8) : ∀ s : Bytes, ∀ p ∈ pieces [c] s, c ∉ p
  | [] => by simp [pieces]
  | x :: s => by
    have ih := pieces_no c s
    have hne := pieces_ne [c] s
    rw [pieces]
    cases hp : pieces [c] s with
    | nil => exact absurd hp hne
    | cons p ps =>
      rw [hp] at ih
      by_cases hx : x = c
      · simp only [hx, List.contains_cons, beq_self_eq_true, Bool.true_or, if_true]
        intro q hq
        rcases List.mem_cons.mp hq with rfl | hq
        · simp
        · exact ih q hq
      · simp [hx]
        refine ⟨⟨fun e => hx e.symm, ih p (by simp)⟩, fun q hq => ih q (by simp [hq])⟩

/-- Strings joined with a character that none of them has are given back by `split`, unless one is empty. -/
theorem C56_split_join (P : Printf) (s l : Ar) (c : UInt8) (ts : List Bytes) (hc : c ≠ 0) (hs : Holds s [.str [c]]) (hl : Holds l (ts.map .str))
    (hne : ts ≠ []) (ht : ∀ t ∈ ts, t ≠ [] ∧ c ∉ t ∧ (0 : UInt8) ∉ t) :
    ∃ out out', join P [s, l] = some (0, some out) ∧ split P [s, some out] = some (0, some out') ∧ Holds (some out') (ts.map .str) := by
  have hc0 : HasText P (.str [c]) := by simpa [HasText] using hc.symm
  have hjt : (ts.map Val.str).map (joined P) = ts := by
    rw [List.map_map]
    exact (List.map_congr_left (fun t _ => rfl)).trans (List.map_id ts)
  obtain ⟨out, h1, h2⟩ := C56_join P s [l] (.str [c]) [] (ts.map .str) hs hc0 (by simp) (by simpa [Holds] using hl) (by simpa using hne) (by
    intro v hv
    obtain ⟨t, ht', rfl⟩ := List.mem_map.mp hv
    exact (ht t ht').2.2)
  rw [hjt] at h2
  have hb0 : HasText P (.str (between [c] ts)) := by
    have : ∀ ts : List Bytes, (∀ t ∈ ts, (0 : UInt8) ∉ t) → (0 : UInt8) ∉ between [c] ts := by
      intro ts
      induction ts with
      | nil => simp [between]
      | cons x ts ih =>
        intro h
        rw [between_app]
        simp only [List.mem_append, not_or]
        refine ⟨⟨h x (by simp), ?_⟩, ih (fun t ht => h t (by simp [ht]))⟩
        split
        · simp
        · simpa using hc.symm
    exact this ts (fun t h => (ht t h).2.2)
  obtain ⟨out', h3, h4⟩ := C56_split P s (some out) (.str [c]) (.str (between [c] ts)) [] [] hs h2 hc0 hb0 (by simp [strText])
  refine ⟨out, out', h1, h3, ?_⟩
  simp only [strText] at h4
  rw [pieces_between ts hne (fun t h => (ht t h).2.1), List.filter_eq_self.mpr (by simpa using fun t h => (ht t h).1)] at h4
  exact h4

/-- A text split at a character and joined with it is the same, unless there are empty parts. -/
theorem C56_join_split (P : Printf) (s l : Ar) (c : UInt8) (t : Bytes) (hc : c ≠ 0) (hs : Holds s [.str [c]]) (hl : Holds l [.str t])
    (ht : (0 : UInt8) ∉ t) (hp : ∀ p ∈ pieces [c] t, p ≠ []) :
    ∃ out out', split P [s, l] = some (0, some out) ∧ join P [s, some out] = some (0, some out') ∧ Holds (some out') [.str t] := by
  have hc0 : HasText P (.str [c]) := by simpa [HasText] using hc.symm
  obtain ⟨out, h1, h2⟩ := C56_split P s l (.str [c]) (.str t) [] [] hs hl hc0 ht (by simp [strText])
  simp only [strText] at h2
  rw [List.filter_eq_self.mpr (by simpa using hp)] at h2
  have hsub : ∀ p ∈ pieces [c] t, (0 : UInt8) ∉ p := by
    have : ∀ (ts : List Bytes), (0 : UInt8) ∉ between [c] ts → ∀ p ∈ ts, (0 : UInt8) ∉ p := by
      intro ts
      induction ts with
      | nil => simp
      | cons x ts ih =>
        intro h p hp
        rw [between_app] at h
        simp only [List.mem_append, not_or] at h
        rcases List.mem_cons.mp hp with rfl | hp
        · exact h.1.1
        · exact ih h.2 p hp
    exact this _ (by rw [between_pieces]; exact ht)
  have hjt : ((pieces [c] t).map Val.str).map (joined P) = pieces [c] t := by
    rw [List.map_map]
    exact (List.map_congr_left (fun t _ => rfl)).trans (List.map_id _)
  obtain ⟨out', h3, h4⟩ := C56_join P s [some out] (.str [c]) [] ((pieces [c] t).map .str) hs hc0 (by simp) (by simpa [Holds] using h2)
    (by simpa using pieces_ne [c] t) (by
      intro v hv
      obtain ⟨p, hp', rfl⟩ := List.mem_map.mp hv
      exact hsub p hp')
  rw [hjt] at h4
  simp only [strText, between_pieces] at h4
  exact ⟨out, out', h1, h3, h4⟩

example : ∃ out out', join exP [exStr [47], some [.mk 115 true (.str 1 [97]), .mk 115 true (.str 1 [98, 99])]] = some (0, some out) ∧
    split exP [exStr [47], some out] = some (0, some out') ∧ Holds (some out') [.str [97], .str [98, 99]] :=
  C56_split_join exP _ _ 47 [[97], [98, 99]] (by decide) rfl rfl (by simp) (by simp)

/-! ## What does not hold -/

/-- Empty parts are lost: `a,,b` becomes `a,b`. -/
theorem C56_empty_parts_fails : ∃ out out', split exP [exStr [44], exStr [97, 44, 44, 98]] = some (0, some out) ∧
    join exP [exStr [44], some out] = some (0, some out') ∧ Holds (some out') [.str [97, 44, 98]] :=
  ⟨_, _, rfl, rfl, rfl⟩

/-- Joining an empty list reads memory that was not written, whatever the separator, and past the end of the block unless that happens to be
zero. -/
theorem C56_join_empty_fails (P : Printf) (s l : Ar) (v : Val) (ss : List Val) (hs : Holds s (v :: ss)) (hv : HasText P v) (hl : Holds l [])
    (hP : P.junk 0 ≠ 0) : join P [s, l] = none := by
  have : l.getD [] = [] := List.eq_nil_of_length_eq_zero (by have := (argsVal_iff _ _).mp hl; simpa using this.1)
  simp only [join, getStr_first P hs hv, Option.bind_some]
  simp [this, joinLoop, newBlock, cstr, cstrlen, hP]

/-- An unsigned 8-bit number below ten is lost when it is joined. -/
theorem C56_join_uint8_fails : ∃ out, join exP [exStr [44], some [.mk 67 false (.bits 7), .mk 67 false (.bits 97)]] = some (0, some out) ∧
    Holds (some out) [.str [44, 97]] := by
  have e : dec 7 = [55] := by rw [dec, if_pos (by omega)]; rfl
  have h1 : joinPtr exP (.mk 67 false (.bits 7)) = some [] := by
    have hl : stringLen exP 67 (.bits 7) = some 1 := by
      have : decI (W.bits 7).C = [55] := by rw [W.C, castU_nat]; exact e
      simp [stringLen, this]
    have hb : getStrBlk exP (.mk 67 false (.bits 7)) = some [39, 0] := by
      simp only [getStrBlk, getStringInto, hl, Option.bind_some]
      rfl
    simp only [joinPtr, hb, Option.bind_some]
    rfl
  have h2 : joinPtr exP (.mk 67 false (.bits 97)) = some [97] := joinPtr_char exP (by decide)
  refine ⟨[.mk 115 true (.str 1 [44, 97])], ?_, rfl⟩
  have h3 : [UAtom.mk 67 false (.bits 7), .mk 67 false (.bits 97)].mapM (joinPtr exP) = some [[], [97]] := by
    simp [List.mapM_cons, h1, h2]
  simp only [join, List.flatMap_cons, List.flatMap_nil, List.append_nil, Option.getD_some, h3]
  rfl

/-- As it was claimed: whatever is joined with a separator can be split again. -/
theorem C56_full_fails : ¬ ∀ (P : Printf) (s l : Ar) (c : UInt8) (ts : List Bytes), c ≠ 0 → Holds s [.str [c]] → Holds l (ts.map .str) →
    (∀ t ∈ ts, c ∉ t ∧ (0 : UInt8) ∉ t) →
    ∃ out out', join P [s, l] = some (0, some out) ∧ split P [s, some out] = some (0, some out') ∧ Holds (some out') (ts.map .str) := by
  intro h
  obtain ⟨out, _, h1, _⟩ := h exP (exStr [44]) (some []) 44 [] (by decide) rfl rfl (by simp)
  rw [C56_join_empty_fails exP (exStr [44]) (some []) (.str [44]) [] rfl (by simp [HasText]) rfl (by decide)] at h1
  cases h1

end Libo.Props
