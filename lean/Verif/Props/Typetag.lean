import Verif.Typetag
import Verif.TagSpec
/-!
# The order of type tags (C40)
-/

namespace Libo.Props

/-- The comparison says "less". -/
def Less (a b : UInt8) : Prop := typetagCompare a b = some (-1)

/-! ## Helper lemmas -/

theorem all_bytes {P : UInt8 → Prop} (h : ∀ n : Fin 256, P (UInt8.ofNat n)) (a : UInt8) : P a := by
  have := h ⟨a.toNat, a.toNat_lt⟩
  simpa using this

theorem index_ascii (a : UInt8) (h : a.toNat < 128) : ∃ i, typetagIndexes[a.toNat]? = some i := by
  have hl : typetagIndexes.length = 128 := rfl
  exact ⟨_, List.getElem?_eq_getElem (by omega)⟩

theorem known_ascii (a : UInt8) : (tagInfo a).isSome = true → a.toNat < 128 := by
  revert a; apply all_bytes; decide +kernel

/-- The position of a known tag in the specification's order. -/
def key (x : Kind × Nat × Nat) : Nat := x.1.level * 1000 + x.2.1 * 2 + x.2.2

theorem info_key (a : UInt8) : ∀ x, tagInfo a = some x → x.2.1 ≤ 64 ∧ x.2.2 ≤ 1 := by
  intro x hx
  have : ∀ a : UInt8, (match tagInfo a with | some x => decide (x.2.1 ≤ 64 ∧ x.2.2 ≤ 1) | none => true) = true := by
    apply all_bytes; decide +kernel
  have := this a
  rw [hx] at this
  simpa using this

theorem smaller_key {x y : Kind × Nat × Nat} (hx : x.2.1 ≤ 64 ∧ x.2.2 ≤ 1) (hy : y.2.1 ≤ 64 ∧ y.2.2 ≤ 1) :
    Smaller x y ↔ key x < key y := by
  unfold Smaller key; omega

theorem index_key : ∀ a b : UInt8, (match tagInfo a, tagInfo b with
    | some x, some y => decide (typetagCompare a b = some (if a = b then 0 else if Smaller x y then -1 else 1)) && decide (key x = key y → a = b)
    | _, _ => true) = true := by
  apply all_bytes
  intro n
  apply all_bytes
  revert n
  decide +kernel

/-! ## The comparison -/

/-- C40, comparison: on the known types the comparison is three-way comparison by kind (nil, truth values, integers,
floating point numbers, strings), then by width, then signed before unsigned. -/
theorem C40_compare (a b : UInt8) {x y : Kind × Nat × Nat} (hx : tagInfo a = some x) (hy : tagInfo b = some y) :
    typetagCompare a b = some (if a = b then 0 else if Smaller x y then -1 else 1) := by
  have h := index_key a b
  rw [hx, hy] at h
  simp only [Bool.and_eq_true, decide_eq_true_eq] at h
  exact h.1

/-- Different known tags are different types, so exactly one is smaller. -/
theorem C40_total (a b : UInt8) {x y : Kind × Nat × Nat} (hx : tagInfo a = some x) (hy : tagInfo b = some y) (hab : a ≠ b) :
    (Smaller x y ∧ ¬ Smaller y x) ∨ (Smaller y x ∧ ¬ Smaller x y) := by
  have h := index_key a b
  rw [hx, hy] at h
  simp only [Bool.and_eq_true, decide_eq_true_eq] at h
  have hk := h.2
  rw [smaller_key (info_key a x hx) (info_key b y hy), smaller_key (info_key b y hy) (info_key a x hx)]
  have : key x ≠ key y := fun e => hab (hk e)
  omega

/-- The comparison never fails on a 7 bit tag and says "less" exactly when the table says so. -/
theorem less_index (a b : UInt8) {i j : Nat} (hi : typetagIndexes[a.toNat]? = some i) (hj : typetagIndexes[b.toNat]? = some j) :
    Less a b ↔ i < j := by
  unfold Less typetagCompare
  by_cases h : a = b
  · subst h
    rw [hi] at hj
    injection hj with hj
    subst hj
    simp
  · simp only [h, if_false, hi, hj, Option.bind_eq_bind, Option.bind_some]
    by_cases hl : i < j <;> simp [hl]

/-- C40, strict weak order, on all 7 bit tags, known or not. -/
theorem C40_strict_weak_order :
    (∀ a : UInt8, ¬ Less a a) ∧
    (∀ a b : UInt8, a.toNat < 128 → b.toNat < 128 → Less a b → ¬ Less b a) ∧
    (∀ a b c : UInt8, a.toNat < 128 → b.toNat < 128 → c.toNat < 128 → Less a b → Less b c → Less a c) ∧
    (∀ a b c : UInt8, a.toNat < 128 → b.toNat < 128 → c.toNat < 128 →
      (¬ Less a b ∧ ¬ Less b a) → (¬ Less b c ∧ ¬ Less c b) → (¬ Less a c ∧ ¬ Less c a)) := by
  refine ⟨fun a => by simp [Less, typetagCompare], ?_, ?_, ?_⟩
  · intro a b ha hb
    obtain ⟨i, hi⟩ := index_ascii a ha
    obtain ⟨j, hj⟩ := index_ascii b hb
    rw [less_index a b hi hj, less_index b a hj hi]; omega
  · intro a b c ha hb hc
    obtain ⟨i, hi⟩ := index_ascii a ha
    obtain ⟨j, hj⟩ := index_ascii b hb
    obtain ⟨k, hk⟩ := index_ascii c hc
    rw [less_index a b hi hj, less_index b c hj hk, less_index a c hi hk]; omega
  · intro a b c ha hb hc
    obtain ⟨i, hi⟩ := index_ascii a ha
    obtain ⟨j, hj⟩ := index_ascii b hb
    obtain ⟨k, hk⟩ := index_ascii c hc
    rw [less_index a b hi hj, less_index b a hj hi, less_index b c hj hk, less_index c b hk hj, less_index a c hi hk,
      less_index c a hk hi]; omega

/-- C40, ranking: a narrower integer type is less than a wider one, any integer type is less than any floating point
type, and a narrower floating point type is less than a wider one. -/
theorem C40_ranks (a b : UInt8) {wa wb ua ub : Nat} :
    (tagInfo a = some (.int, wa, ua) → tagInfo b = some (.int, wb, ub) → wa < wb → Less a b) ∧
    (tagInfo a = some (.int, wa, ua) → tagInfo b = some (.float, wb, ub) → Less a b) ∧
    (tagInfo a = some (.float, wa, ua) → tagInfo b = some (.float, wb, ub) → wa < wb → Less a b) := by
  refine ⟨?_, ?_, ?_⟩ <;> intro hx hy <;> intros <;> unfold Less <;> rw [C40_compare a b hx hy]
  all_goals
    have hne : a ≠ b := by
      rintro rfl
      rw [hx] at hy
      simp at hy <;> omega
    rw [if_neg hne, if_pos (by unfold Smaller; simp [Kind.level] <;> omega)]

/-! ## The choice of the larger type -/

/-- The larger of two known types by the specification. -/
def larger (a b : UInt8) : UInt8 :=
  match tagInfo a, tagInfo b with
  | some x, some y => if Smaller x y then b else a
  | _, _ => a

/-- C40, choice of the larger type, for the known types: it is the larger one, the order of the operands does not matter,
and neither does the grouping.

Full statement: the same for every pair and triple of type tags the library uses, which includes time tags `t`, bundles
`.` and blobs `b`; `C40_full_fails` shows that it fails there. -/
theorem C40_larger_partial (a b c : UInt8) (ha : (tagInfo a).isSome = true) (hb : (tagInfo b).isSome = true) (hc : (tagInfo c).isSome = true) :
    typetagLarger a b = some (larger a b) ∧
    typetagLarger a b = typetagLarger b a ∧
    (typetagLarger a b).bind (typetagLarger · c) = (typetagLarger b c).bind (typetagLarger a ·) := by
  obtain ⟨x, hx⟩ := Option.isSome_iff_exists.1 ha
  obtain ⟨y, hy⟩ := Option.isSome_iff_exists.1 hb
  obtain ⟨z, hz⟩ := Option.isSome_iff_exists.1 hc
  have key : ∀ (a b : UInt8) {x y : Kind × Nat × Nat}, tagInfo a = some x → tagInfo b = some y →
      typetagLarger a b = some (larger a b) := by
    intro a b x y hx hy
    unfold typetagLarger larger
    rw [C40_compare a b hx hy, hx, hy]
    by_cases h : a = b
    · subst h; simp
    · by_cases hs : Smaller x y <;> simp [h, hs]
  have mem : ∀ (a b : UInt8), larger a b = a ∨ larger a b = b := by
    intro a b; unfold larger; split
    · split
      · exact Or.inr rfl
      · exact Or.inl rfl
    · exact Or.inl rfl
  refine ⟨key a b hx hy, ?_, ?_⟩
  · rw [key a b hx hy, key b a hy hx]
    congr 1
    by_cases h : a = b
    · rw [h]
    · unfold larger
      rw [hx, hy]
      rcases C40_total a b hx hy h with ⟨h1, h2⟩ | ⟨h1, h2⟩ <;> simp [h1, h2]
  · rw [key a b hx hy, key b c hy hz]
    simp only [Option.bind_some]
    have h1 : typetagLarger (larger a b) c = some (larger (larger a b) c) := by
      rcases mem a b with h | h <;> rw [h]
      · exact key a c hx hz
      · exact key b c hy hz
    have h2 : typetagLarger a (larger b c) = some (larger a (larger b c)) := by
      rcases mem b c with h | h <;> rw [h]
      · exact key a b hx hy
      · exact key a c hx hz
    rw [h1, h2]
    congr 1
    have kx := info_key a x hx
    have ky := info_key b y hy
    have kz := info_key c z hz
    have sxy : Smaller x y ↔ _ := smaller_key kx ky
    have syz : Smaller y z ↔ _ := smaller_key ky kz
    have sxz : Smaller x z ↔ _ := smaller_key kx kz
    by_cases p : Smaller x y <;> by_cases q : Smaller y z <;> by_cases r : Smaller x z <;>
      simp only [larger, hx, hy, hz, p, q, r, if_true, if_false]
    all_goals (simp only [sxy, syz, sxz] at p q r; omega)

/-- The full claim about the choice. -/
def C40Full : Prop := ∀ a b : UInt8, a.toNat < 128 → b.toNat < 128 → typetagLarger a b = typetagLarger b a

/-- The choice between a time tag and a blob depends on the order of the operands, and so does any choice between two
types missing from the table; tags of 128 or more are read outside the table. -/
theorem C40_full_fails : ¬ C40Full ∧ typetagLarger 116 98 = some 116 ∧ typetagLarger 98 116 = some 98 ∧
    (∀ a b : UInt8, 128 ≤ a.toNat → a ≠ b → typetagCompare a b = none) := by
  refine ⟨fun h => ?_, by decide +kernel, by decide +kernel, ?_⟩
  · have := h 116 98 (by decide) (by decide)
    revert this; decide +kernel
  · intro a b ha hne
    have hl : typetagIndexes.length = 128 := rfl
    unfold typetagCompare
    rw [if_neg hne, List.getElem?_eq_none (by omega)]
    rfl

/-! ## The largest type of several lists -/

/-- How `osc_typetag_getLargestType` classifies a tag: false counts as true, unknown tags count as 32 bit integers. -/
def classOf (tt : UInt8) : UInt8 := if tt = 70 then 84 else if (tagInfo tt).isSome then tt else 105

theorem const_spec : ∀ a : UInt8, typetagTags[typesConst a]? = some (classOf a) ∧ typesConst a < 14 := by
  apply all_bytes; decide +kernel

theorem tags_key : ∀ i j : Fin 14, i < j →
    ∃ x y, tagInfo (typetagTags[i.val]'(by exact i.isLt)) = some x ∧ tagInfo (typetagTags[j.val]'(by exact j.isLt)) = some y ∧ Smaller x y := by
  intro i j h
  have : ∀ i j : Fin 14, i < j → (match tagInfo (typetagTags[i.val]'(by exact i.isLt)), tagInfo (typetagTags[j.val]'(by exact j.isLt)) with
    | some x, some y => decide (Smaller x y) | _, _ => false) = true := by decide +kernel
  have := this i j h
  split at this
  · exact ⟨_, _, by assumption, by assumption, by simpa using this⟩
  · simp at this

theorem largestIn_spec (as : List UAtom) : ∀ m, m < 14 → let r := largestIn m as
    r < 14 ∧ m ≤ r ∧ (∀ a ∈ as, typesConst a.tag ≤ r) ∧ (r = m ∨ ∃ a ∈ as, typesConst a.tag = r) := by
  induction as with
  | nil => intro m hm; simp [largestIn, hm]
  | cons a as ih =>
    intro m hm
    have hc := (const_spec a.tag).2
    have h := ih (if typesConst a.tag > m then typesConst a.tag else m) (by split <;> omega)
    simp only [largestIn]
    obtain ⟨h1, h2, h3, h4⟩ := h
    refine ⟨h1, ?_, ?_, ?_⟩
    · refine Nat.le_trans ?_ h2
      split <;> omega
    · intro b hb
      rcases List.mem_cons.1 hb with rfl | hb
      · refine Nat.le_trans ?_ h2
        split <;> omega
      · exact h3 b hb
    · rcases h4 with h4 | ⟨b, hb, h4⟩
      · by_cases hg : typesConst a.tag > m
        · rw [if_pos hg] at h4 ⊢
          exact Or.inr ⟨a, List.mem_cons_self, h4.symm⟩
        · rw [if_neg hg] at h4 ⊢
          exact Or.inl h4
      · exact Or.inr ⟨b, List.mem_cons_of_mem _ hb, h4⟩

theorem foldl_largest (argv : List (List UAtom)) : ∀ m, m < 14 → let r := argv.foldl largestIn m
    r < 14 ∧ m ≤ r ∧ (∀ as ∈ argv, ∀ a ∈ as, typesConst a.tag ≤ r) ∧ (r = m ∨ ∃ as ∈ argv, ∃ a ∈ as, typesConst a.tag = r) := by
  induction argv with
  | nil => intro m hm; simp [hm]
  | cons l argv ih =>
    intro m hm
    obtain ⟨g1, g2, g3, g4⟩ := largestIn_spec l m hm
    obtain ⟨h1, h2, h3, h4⟩ := ih _ g1
    simp only [List.foldl_cons]
    refine ⟨h1, Nat.le_trans g2 h2, ?_, ?_⟩
    · intro as has a ha
      rcases List.mem_cons.1 has with rfl | has
      · exact Nat.le_trans (g3 a ha) h2
      · exact h3 as has a ha
    · rcases h4 with h4 | ⟨as, has, a, ha, h4⟩
      · rw [h4]
        rcases g4 with g4 | ⟨a, ha, g4⟩
        · exact Or.inl g4
        · exact Or.inr ⟨l, List.mem_cons_self, a, ha, g4⟩
      · exact Or.inr ⟨as, List.mem_cons_of_mem _ has, a, ha, h4⟩

/-- C40, largest type of several lists: the call succeeds, the answer is the class of one of the values (nil if there is
none), and no value has a larger class. -/
theorem C40_largest (argv : List (List UAtom)) : ∃ t x, getLargestType argv = some t ∧ tagInfo t = some x ∧
    (t = 78 ∨ ∃ as ∈ argv, ∃ a ∈ as, classOf a.tag = t) ∧
    (∀ as ∈ argv, ∀ a ∈ as, ∃ y, tagInfo (classOf a.tag) = some y ∧ ¬ Smaller x y) := by
  obtain ⟨h1, -, h3, h4⟩ := foldl_largest argv 0 (by decide)
  generalize hr : argv.foldl largestIn 0 = r at h1 h3 h4
  have hl : typetagTags.length = 14 := by decide
  have hk : ∀ i : Fin 14, (tagInfo (typetagTags[i.val]'(by exact i.isLt))).isSome = true := by decide +kernel
  obtain ⟨x, hx⟩ := Option.isSome_iff_exists.1 (hk ⟨r, h1⟩)
  refine ⟨typetagTags[r]'(by omega), x, ?_, hx, ?_, ?_⟩
  · unfold getLargestType; rw [hr]; exact List.getElem?_eq_getElem (by omega)
  · rcases h4 with h4 | ⟨as, has, a, ha, h4⟩
    · left; simp only [h4]; rfl
    · right
      refine ⟨as, has, a, ha, ?_⟩
      have := (const_spec a.tag).1
      rw [h4, List.getElem?_eq_getElem (by omega)] at this
      injection this with this
      exact this.symm
  · intro as has a ha
    have hle := h3 as has a ha
    have hc := (const_spec a.tag)
    have e : typetagTags[typesConst a.tag]'(by omega) = classOf a.tag := by
      have := hc.1
      rw [List.getElem?_eq_getElem (by omega)] at this
      injection this
    obtain ⟨y, hy⟩ := Option.isSome_iff_exists.1 (hk ⟨typesConst a.tag, hc.2⟩)
    have hy' : tagInfo (classOf a.tag) = some y := by rw [← e]; exact hy
    refine ⟨y, hy', ?_⟩
    by_cases heq : typesConst a.tag = r
    · have : x = y := by
        have hx' := hx
        simp only [← heq] at hx'
        rw [e, hy'] at hx'
        injection hx' with hx'
        exact hx'.symm
      subst this
      unfold Smaller; omega
    · obtain ⟨y', x', e1, e2, hs⟩ := tags_key ⟨typesConst a.tag, hc.2⟩ ⟨r, h1⟩ (show typesConst a.tag < r by omega)
      have ey : y' = y := by have := e1.symm.trans hy; injection this
      have ex : x' = x := by have := e2.symm.trans hx; injection this
      subst ey ex
      unfold Smaller at hs ⊢; omega

/-! ## Examples -/

example : tagInfo 105 = some (.int, 32, 0) ∧ tagInfo 100 = some (.float, 64, 0) ∧ Less 105 100 ∧ ¬ Less 100 105 ∧
    typetagLarger 105 100 = some 100 ∧ typetagLarger 72 102 = some 102 ∧ typetagLarger 85 117 = some 85 := by
  unfold Less; decide +kernel

example : (tagInfo 105).isSome = true ∧ (tagInfo 115).isSome = true ∧ (tagInfo 84).isSome = true := by decide

example : getLargestType [[.mk 105 false (.bits 3), .mk 72 false (.bits 3)], [], [.mk 102 false (.bits 0)]] = some 102 ∧
    getLargestType [] = some 78 ∧ getLargestType [[.mk 70 false (.bits 0)]] = some 84 := by decide +kernel

end Libo.Props
