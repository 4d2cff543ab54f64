import Verif.ExprListLemmas
/-!
# Property C34: the list functions of the expression language

Arguments and results are described by the values they hold (`Holds`), and the functions by Lean's own list functions.
-/

namespace Libo.Props
open Libo Libo.Expr

/-- The arguments hold the lists of values. -/
def HoldAll : List Ar → List (List Val) → Prop
  | [], vss => vss = []
  | a :: as, vss => ∃ vs vss', vss = vs :: vss' ∧ Holds a vs ∧ HoldAll as vss'

theorem holdAll_get : ∀ (as : List Ar) (vss : List (List Val)), HoldAll as vss →
    as.length = vss.length ∧ ∀ i, i < vss.length → ∃ vs, vss[i]? = some vs ∧ Holds (as.getD i none) vs
  | [], vss, h => by simp only [HoldAll] at h; subst h; simp
  | a :: as, vss, h => by
    obtain ⟨vs, vss', rfl, h1, h2⟩ := h
    obtain ⟨h3, h4⟩ := holdAll_get as vss' h2
    refine ⟨by simp [h3], fun i hi => ?_⟩
    cases i with
    | zero => exact ⟨vs, rfl, h1⟩
    | succ i => exact h4 i (by simpa using hi)

theorem total_eq : ∀ (as : List Ar) (vss : List (List Val)), HoldAll as vss → vss.flatten.length < 2147483648 →
    total as = some (vss.flatten.length : Int)
  | [], vss, h, _ => by simp only [HoldAll] at h; subst h; rfl
  | a :: as, vss, h, hl => by
    obtain ⟨vs, vss', rfl, h1, h2⟩ := h
    simp only [List.flatten_cons, List.length_append] at hl ⊢
    rw [total, total_eq as vss' h2 (by omega), Option.bind_some, holds_len h1, i32, if_pos (by omega)]
    simp

/-- **C34 (length).**  `length` of any arguments is an `int32` with the number of all their elements. -/
theorem C34_length (argv : List Ar) (vss : List (List Val)) (h : HoldAll argv vss) (hl : vss.flatten.length < 2147483648) :
    ∃ out, Expr.length argv = some (0, out) ∧ Holds out [ITy.i32.val vss.flatten.length] := by
  obtain ⟨u, h1, h2⟩ := setU_fresh .i32 vss.flatten.length
  refine ⟨some [u], ?_, by simp [Holds, argsVal, h2]⟩
  have h1' : UAtom.setInt32 .fresh vss.flatten.length = some u := h1
  simp [Expr.length, total_eq argv vss h hl, setTo, Expr.mk, h1', -List.length_flatten]

/-- **C34 (reverse).** -/
theorem C34_reverse (a : Ar) (r : List Ar) (vs : List Val) (h : Holds a vs) (hc : ∀ v ∈ vs, Copyable v) :
    ∃ out, Expr.reverse (a :: r) = some (0, out) ∧ Holds out vs.reverse := by
  have hl := holds_len h
  obtain ⟨o, h1, h2⟩ := fill_new vs.reverse (by simpa using hc) (fun i => at? a (len a - i - 1)) (fun i v hv => by
    have hi : i < vs.length := by simpa using (List.getElem?_eq_some_iff.mp hv).1
    rw [List.getElem?_reverse hi] at hv
    obtain ⟨x, h1, h2⟩ := holds_at h hv
    rw [hl, show vs.length - i - 1 = vs.length - 1 - i by omega, h1]
    exact h2)
  refine ⟨some o, ?_, h2⟩
  rw [List.length_reverse, ← hl] at h1
  simp [Expr.reverse, h1]

/-- **C34 (reverse twice).** -/
theorem C34_reverse_reverse (a : Ar) (r r' : List Ar) (vs : List Val) (h : Holds a vs) (hc : ∀ v ∈ vs, Copyable v) :
    ∃ b c, Expr.reverse (a :: r) = some (0, b) ∧ Expr.reverse (b :: r') = some (0, c) ∧ Holds c vs := by
  obtain ⟨b, h1, h2⟩ := C34_reverse a r vs h hc
  obtain ⟨c, h3, h4⟩ := C34_reverse b r' vs.reverse h2 (by simpa using hc)
  exact ⟨b, c, h1, h3, by simpa using h4⟩

theorem holds_nil {a : Ar} {vs : List Val} (h : Holds a vs) (hl : len a = 0) : vs = [] :=
  List.length_eq_zero_iff.mp (by rw [← holds_len h, hl])

theorem mk1_copy (src : Option UAtom) (v : Val) (hv : src.bind UAtom.val = some v) (hc : Copyable v) :
    ∃ out, copyTo (Expr.mk 1) 0 src = some out ∧ Holds (some out) [v] := by
  obtain ⟨o, h1, h2, h3, -⟩ := copyTo_spec (Expr.mk 1) 0 src v hv hc (by simp [mk_length])
  refine ⟨o, h1, (argsVal_iff _ _).mpr ⟨by rw [mk_length] at h2; simpa using h2, fun i hi => ?_⟩⟩
  have : i = 0 := by simp at hi; exact hi
  subst this; simpa using h3

/-- **C34 (first).**  The list of the first element, or the empty list. -/
theorem C34_first (a : Ar) (r : List Ar) (vs : List Val) (h : Holds a vs) (hc : ∀ v ∈ vs, Copyable v) :
    ∃ out, Expr.first (a :: r) = some (0, out) ∧ Holds out (vs.take 1) := by
  by_cases h0 : len a = 0
  · rw [holds_nil h h0]; exact ⟨none, by simp [Expr.first, h0], rfl⟩
  · cases vs with
    | nil => exact absurd (holds_len h) h0
    | cons v vs =>
      obtain ⟨x, e1, e2⟩ := holds_at h (i := 0) (v := v) rfl
      obtain ⟨o, h1, h2⟩ := mk1_copy (at? a 0) v (by rw [e1]; exact e2) (hc v (by simp))
      exact ⟨some o, by simp [Expr.first, h0, h1], by simpa using h2⟩

/-- **C34 (last).** -/
theorem C34_last (a : Ar) (r : List Ar) (vs : List Val) (h : Holds a vs) (hc : ∀ v ∈ vs, Copyable v) :
    ∃ out, Expr.last (a :: r) = some (0, out) ∧ Holds out vs.getLast?.toList := by
  have hl := holds_len h
  by_cases h0 : len a = 0
  · rw [holds_nil h h0]; exact ⟨none, by simp [Expr.last, h0], rfl⟩
  · have hne : vs ≠ [] := by rintro rfl; exact h0 hl
    have hg := List.getLast?_eq_some_getLast hne
    obtain ⟨x, e1, e2⟩ := holds_at h (i := vs.length - 1) (v := vs.getLast hne) (by
      rw [← List.getLast?_eq_getElem?, hg])
    obtain ⟨o, h1, h2⟩ := mk1_copy (at? a (len a - 1)) _ (by rw [hl, e1]; exact e2) (hc _ (List.getLast_mem hne))
    exact ⟨some o, by simp [Expr.last, h0, h1], by rw [hg]; exact h2⟩

/-- **C34 (rest).** -/
theorem C34_rest (a : Ar) (r : List Ar) (vs : List Val) (h : Holds a vs) (hc : ∀ v ∈ vs, Copyable v) :
    ∃ out, Expr.rest (a :: r) = some (0, out) ∧ Holds out vs.tail := by
  have hl := holds_len h
  by_cases h0 : len a = 0
  · rw [holds_nil h h0]; exact ⟨none, by simp [Expr.rest, h0], rfl⟩
  · obtain ⟨o, h1, h2⟩ := fill_new vs.tail (fun v hv => hc v (List.mem_of_mem_tail hv)) (fun i => at? a (i + 1)) (fun i v hv => by
      rw [List.getElem?_tail] at hv
      obtain ⟨x, e1, e2⟩ := holds_at h hv
      rw [e1]; exact e2)
    rw [List.length_tail, ← hl] at h1
    exact ⟨some o, by simp [Expr.rest, h0, h1], h2⟩

/-- **C34 (butlast).** -/
theorem C34_butlast (a : Ar) (r : List Ar) (vs : List Val) (h : Holds a vs) (hc : ∀ v ∈ vs, Copyable v) :
    ∃ out, Expr.butlast (a :: r) = some (0, out) ∧ Holds out vs.dropLast := by
  have hl := holds_len h
  by_cases h0 : len a = 0
  · rw [holds_nil h h0]; exact ⟨none, by simp [Expr.butlast, h0], rfl⟩
  · obtain ⟨o, h1, h2⟩ := fill_new vs.dropLast (fun v hv => hc v (List.dropLast_subset _ hv)) (fun i => at? a i) (fun i v hv => by
      have hi : i < vs.length - 1 := by simpa using (List.getElem?_eq_some_iff.mp hv).1
      rw [List.getElem?_dropLast, if_pos hi] at hv
      obtain ⟨x, e1, e2⟩ := holds_at h hv
      rw [e1]; exact e2)
    rw [List.length_dropLast, ← hl] at h1
    exact ⟨some o, by simp [Expr.butlast, h0, h1], h2⟩

theorem listLoop_spec : ∀ (as : List Ar) (vss : List (List Val)) (pos : Nat) (out : List UAtom), HoldAll as vss →
    (∀ v ∈ vss.flatten, Copyable v) → pos + vss.flatten.length ≤ out.length →
    ∃ out', listLoop as pos out = some out' ∧ out'.length = out.length ∧
      (∀ i, i < vss.flatten.length → vat out' (pos + i) = vss.flatten[i]?) ∧ ∀ j, j < pos → out'[j]? = out[j]?
  | [], vss, pos, out, h, _, _ => by
    simp only [HoldAll] at h; subst h
    exact ⟨out, rfl, rfl, by simp, fun _ _ => rfl⟩
  | a :: as, vss, pos, out, h, hc, hl => by
    obtain ⟨vs, vss', rfl, h1, h2⟩ := h
    simp only [List.flatten_cons, List.length_append] at hl ⊢
    obtain ⟨o, g1, g2, g3, g4⟩ := copyIntoAr_spec out a vs pos h1 (fun v hv => hc v (by simp [hv])) (by omega)
    obtain ⟨o', k1, k2, k3, k4⟩ := listLoop_spec as vss' (pos + vs.length) o h2
      (fun v hv => hc v (by simp only [List.flatten_cons, List.mem_append]; exact Or.inr hv)) (by omega)
    refine ⟨o', by rw [listLoop, g1, Option.bind_some, holds_len h1, k1], by omega, fun i hi => ?_, fun j hj => ?_⟩
    · by_cases hi2 : i < vs.length
      · rw [List.getElem?_append_left hi2, ← g3 i hi2, vat, vat, k4 _ (by omega)]
      · rw [List.getElem?_append_right (by omega), ← k3 (i - vs.length) (by omega)]
        congr 1; omega
    · rw [k4 j (by omega), g4 j (Or.inl hj)]

/-- **C34 (list).**  `list` of any arguments concatenates them. -/
theorem C34_list (argv : List Ar) (vss : List (List Val)) (h : HoldAll argv vss) (hc : ∀ v ∈ vss.flatten, Copyable v)
    (hl : vss.flatten.length < 2147483648) : ∃ out, Expr.list argv = some (0, out) ∧ Holds out vss.flatten := by
  have ht := total_eq argv vss h hl
  by_cases h0 : vss.flatten.length = 0
  · refine ⟨none, by simp [Expr.list, ht, h0], ?_⟩
    rw [List.length_eq_zero_iff.mp h0]; rfl
  · obtain ⟨o, h1, h2, h3, -⟩ := listLoop_spec argv vss 0 (Expr.mk vss.flatten.length) h hc (by rw [mk_length]; omega)
    refine ⟨some o, ?_, (argsVal_iff _ _).mpr ⟨by rw [mk_length] at h2; exact h2, fun i hi => by
      have := h3 i hi; rw [Nat.zero_add] at this; exact this⟩⟩
    simp only [Expr.list, ht, Option.bind_some]
    rw [if_neg (by omega), Int.toNat_natCast, h1]; rfl

/-- **C34 (length is additive).**  The length of a constructed list is the sum of the lengths of the parts. -/
theorem C34_length_list (argv : List Ar) (vss : List (List Val)) (h : HoldAll argv vss) (hc : ∀ v ∈ vss.flatten, Copyable v)
    (hl : vss.flatten.length < 2147483648) : ∃ l n, Expr.list argv = some (0, l) ∧ Expr.length [l] = some (0, n) ∧
      Holds n [ITy.i32.val (vss.map List.length).sum] := by
  obtain ⟨l, h1, h2⟩ := C34_list argv vss h hc hl
  obtain ⟨n, h3, h4⟩ := C34_length [l] [vss.flatten] ⟨_, [], rfl, h2, rfl⟩ (by simpa using hl)
  refine ⟨l, n, h1, h3, ?_⟩
  rw [← List.length_flatten]
  simpa using h4

/-- **C34 (splitting).**  `first` and `rest`, or `butlast` and `last`, put together again are the list. -/
theorem C34_split (a : Ar) (vs : List Val) (h : Holds a vs) (hc : ∀ v ∈ vs, Copyable v) (hl : vs.length < 2147483648) :
    (∃ f r out, Expr.first [a] = some (0, f) ∧ Expr.rest [a] = some (0, r) ∧ Expr.list [f, r] = some (0, out) ∧ Holds out vs) ∧
    (∃ b l out, Expr.butlast [a] = some (0, b) ∧ Expr.last [a] = some (0, l) ∧ Expr.list [b, l] = some (0, out) ∧
      Holds out vs) := by
  have e1 : vs.take 1 ++ vs.tail = vs := by cases vs <;> simp
  have e2 : vs.dropLast ++ vs.getLast?.toList = vs := by
    cases hv : vs with
    | nil => rfl
    | cons x xs =>
      rw [List.getLast?_eq_some_getLast (by simp : x :: xs ≠ []), Option.toList_some, List.dropLast_concat_getLast]
  constructor
  · obtain ⟨f, h1, h2⟩ := C34_first a [] vs h hc
    obtain ⟨r, h3, h4⟩ := C34_rest a [] vs h hc
    have ef : [vs.take 1, vs.tail].flatten = vs := by rw [List.flatten_cons, List.flatten_singleton, e1]
    obtain ⟨out, h5, h6⟩ := C34_list [f, r] [vs.take 1, vs.tail] ⟨_, _, rfl, h2, _, _, rfl, h4, rfl⟩ (by rw [ef]; exact hc)
      (by rw [ef]; exact hl)
    rw [ef] at h6
    exact ⟨f, r, out, h1, h3, h5, h6⟩
  · obtain ⟨b, h1, h2⟩ := C34_butlast a [] vs h hc
    obtain ⟨l, h3, h4⟩ := C34_last a [] vs h hc
    have ef : [vs.dropLast, vs.getLast?.toList].flatten = vs := by rw [List.flatten_cons, List.flatten_singleton, e2]
    obtain ⟨out, h5, h6⟩ := C34_list [b, l] [vs.dropLast, vs.getLast?.toList] ⟨_, _, rfl, h2, _, _, rfl, h4, rfl⟩
      (by rw [ef]; exact hc) (by rw [ef]; exact hl)
    rw [ef] at h6
    exact ⟨b, l, out, h1, h3, h5, h6⟩

theorem uniform_get {α : Type} (g : Nat → List α) (k n : Nat) (hk : ∀ i, i < n → (g i).length = k) :
    ((List.range n).flatMap g).length = n * k ∧
    ∀ i j, i < n → j < k → ((List.range n).flatMap g)[i * k + j]? = (g i)[j]? := by
  induction n with
  | zero => simp
  | succ n ih =>
    obtain ⟨h1, h2⟩ := ih (fun i hi => hk i (by omega))
    rw [List.range_succ, List.flatMap_append, List.flatMap_singleton]
    refine ⟨by rw [List.length_append, h1, hk n (by omega), Nat.succ_mul], fun i j hi hj => ?_⟩
    by_cases e : i = n
    · subst e
      rw [List.getElem?_append_right (by omega), h1]
      congr 1; omega
    · have hi' : i < n := by omega
      have : i * k + j < n * k := by
        have : (i + 1) * k ≤ n * k := Nat.mul_le_mul_right k hi'
        rw [Nat.succ_mul] at this; omega
      rw [List.getElem?_append_left (by omega), h2 i j hi' hj]

theorem holds_uniform (g : Nat → List Val) (k n : Nat) (hk : ∀ i, i < n → (g i).length = k) (o : List UAtom)
    (hl : o.length = n * k) (hv : ∀ i j, i < n → j < k → vat o (i * k + j) = (g i)[j]?) :
    Holds (some o) ((List.range n).flatMap g) := by
  obtain ⟨h1, h2⟩ := uniform_get g k n hk
  refine (argsVal_iff _ _).mpr ⟨by rw [h1]; exact hl, fun m hm => ?_⟩
  rw [h1] at hm
  have hk0 : 0 < k := by
    rcases Nat.eq_zero_or_pos k with rfl | h
    · simp at hm
    · exact h
  have hd := Nat.div_add_mod m k
  rw [Nat.mul_comm] at hd
  have hi : m / k < n := Nat.div_lt_of_lt_mul (by rw [Nat.mul_comm]; exact hm)
  have hj := Nat.mod_lt m hk0
  rw [← hd, h2 _ _ hi hj, Option.getD_some, hv _ _ hi hj]

/-- **C34 (nfill).**  The number given first says how often the second argument is repeated; a negative number counts as zero.
The number may be an integer of any type; one of more than 32 bits is taken modulo 2^32. -/
theorem C34_nfill (a b : Ar) (r : List Ar) (t : ITy) (n : Int) (hn : t.has n) (more vs : List Val) (ha : Holds a (t.val n :: more))
    (hb : Holds b vs) (hc : ∀ v ∈ vs, Copyable v) (hl : (ITy.i32.conv n).toNat * vs.length < 2147483648) :
    ∃ out, Expr.nfill (a :: b :: r) = some (0, out) ∧ Holds out (List.replicate (ITy.i32.conv n).toNat vs).flatten := by
  obtain ⟨x, e1, e2⟩ := holds_at ha (i := 0) (v := t.val n) rfl
  have hg := (getU_val t .i32 x n hn e2).2
  generalize hk : ITy.i32.conv n = k at *
  have hneg : (if k < 0 then 0 else k) = (k.toNat : Int) := by split <;> omega
  have hi : i32 ((if k < 0 then 0 else k) * len b) = some ((k.toNat * vs.length : Nat) : Int) := by
    rw [hneg, holds_len hb, i32, if_pos (by rw [← Int.natCast_mul]; omega), Int.natCast_mul]
  obtain ⟨o, h1, h2, h3⟩ := forN_inv (P := fun m (o : List UAtom) => o.length = k.toNat * vs.length ∧
      ∀ i j, i < m → j < vs.length → vat o (i * vs.length + j) = vs[j]?) (fun i out => copyIntoAr out b (i * len b)) k.toNat
    (Expr.mk (k.toNat * vs.length)) ⟨mk_length _, fun i j hi => absurd hi (Nat.not_lt_zero i)⟩ (by
      rintro m o hm ⟨p1, p2⟩
      have hm1 : m * vs.length + vs.length ≤ k.toNat * vs.length := by
        rw [← Nat.succ_mul]; exact Nat.mul_le_mul_right _ hm
      obtain ⟨o', q1, q2, q3, q4⟩ := copyIntoAr_spec o b vs (m * vs.length) hb hc (by omega)
      refine ⟨o', by rw [holds_len hb]; exact q1, by omega, fun i j hi hj => ?_⟩
      by_cases e : i = m
      · rw [e, q3 j hj]
      · have : (i + 1) * vs.length ≤ m * vs.length := Nat.mul_le_mul_right _ (by omega)
        rw [Nat.succ_mul] at this
        rw [vat, q4 _ (Or.inl (by omega))]
        exact p2 i j (by omega) hj)
  have hf : (List.replicate k.toNat vs).flatten = (List.range k.toNat).flatMap (fun _ => vs) := by
    rw [List.flatMap, List.map_const', List.length_range]
  refine ⟨some o, ?_, ?_⟩
  · have hx : intOf UAtom.getInt (at? a 0) = some k := by rw [e1]; exact hg
    simp only [Expr.nfill, hx, Option.bind_some, hi, Int.toNat_natCast]
    rw [show (if k < 0 then 0 else k).toNat = k.toNat by split <;> omega, h1]; rfl
  · rw [hf]
    exact holds_uniform (fun _ => vs) vs.length k.toNat (fun _ _ => rfl) o h2 (fun i j hi hj => h3 i j hi hj)

theorem minLen_spec : ∀ (as : List Ar) (vss : List (List Val)) (m : Nat), HoldAll as vss →
    minLen m as = (vss.map List.length).foldl min m
  | [], vss, m, h => by simp only [HoldAll] at h; subst h; rfl
  | a :: as, vss, m, h => by
    obtain ⟨vs, vss', rfl, h1, h2⟩ := h
    rw [minLen, minLen_spec as vss' _ h2, holds_len h1, List.map_cons, List.foldl_cons]
    congr 1
    split <;> omega

theorem foldl_min_le : ∀ (l : List Nat) (m : Nat), l.foldl min m ≤ m ∧ ∀ x ∈ l, l.foldl min m ≤ x
  | [], m => by simp
  | y :: l, m => by
    obtain ⟨h1, h2⟩ := foldl_min_le l (min m y)
    refine ⟨by simp only [List.foldl_cons]; omega, fun x hx => ?_⟩
    simp only [List.foldl_cons]
    rcases List.mem_cons.mp hx with rfl | hx
    · omega
    · exact h2 x hx

theorem filterMap_full {α β : Type} (f : α → Option β) : ∀ l : List α, (∀ x ∈ l, (f x).isSome) →
    (l.filterMap f).length = l.length ∧ ∀ i : Nat, (l.filterMap f)[i]? = l[i]?.bind f
  | [], _ => by simp
  | x :: l, h => by
    obtain ⟨y, hy⟩ := Option.isSome_iff_exists.mp (h x (by simp))
    obtain ⟨h1, h2⟩ := filterMap_full f l (fun z hz => h z (by simp [hz]))
    rw [List.filterMap_cons_some hy]
    refine ⟨by simp [h1], fun i => ?_⟩
    cases i with
    | zero => simp [hy]
    | succ i => simpa using h2 i

/-- **C34 (interleave).**  First all first elements, then all second elements and so on, as long as every argument has one. -/
theorem C34_interleave (a : Ar) (as : List Ar) (vs : List Val) (vss : List (List Val)) (ha : Holds a vs) (h : HoldAll as vss)
    (hc : ∀ ws ∈ vs :: vss, ∀ v ∈ ws, Copyable v) (m : Nat) (hm : m = (vss.map List.length).foldl min vs.length)
    (hl : (vss.length + 1) * m < 2147483648) :
    ∃ out, Expr.interleave (a :: as) = some (0, out) ∧
      Holds out ((List.range m).flatMap fun j => (vs :: vss).filterMap (·[j]?)) := by
  have hml : minLen (len a) as = m := by rw [minLen_spec as vss _ h, holds_len ha, hm]
  have hmin := foldl_min_le (vss.map List.length) vs.length
  rw [← hm] at hmin
  have hall : ∀ ws ∈ vs :: vss, m ≤ ws.length := by
    intro ws hws
    rcases List.mem_cons.mp hws with rfl | hws
    · exact hmin.1
    · exact hmin.2 _ (List.mem_map_of_mem hws)
  have hA : HoldAll (a :: as) (vs :: vss) := ⟨vs, vss, rfl, ha, h⟩
  obtain ⟨hlen, hget⟩ := holdAll_get _ _ hA
  generalize hV : vs :: vss = V at *
  generalize hK : (a :: as).length = K at *
  have hVK : K = V.length := hlen
  have hK1 : K = vss.length + 1 := by rw [hVK, ← hV]; rfl
  have hfull : ∀ j, j < m → (V.filterMap (·[j]?)).length = V.length ∧ ∀ i : Nat, (V.filterMap (·[j]?))[i]? = V[i]?.bind (·[j]?) :=
    fun j hj => filterMap_full _ V (fun ws hws => by
      have := hall ws hws
      rw [List.getElem?_eq_getElem (by omega)]; rfl)
  have hinj : ∀ i j i' j' : Nat, i < K → i' < K → i + j * K = i' + j' * K → i = i' ∧ j = j' := by
    intro i j i' j' hi hi' he
    have h1 : (i + j * K) % K = i := by rw [Nat.add_mul_mod_self_right, Nat.mod_eq_of_lt hi]
    have h2 : (i' + j' * K) % K = i' := by rw [Nat.add_mul_mod_self_right, Nat.mod_eq_of_lt hi']
    have e : i = i' := by rw [← h1, ← h2, he]
    subst e
    refine ⟨rfl, ?_⟩
    exact Nat.eq_of_mul_eq_mul_right (by omega : 0 < K) (by omega)
  have hpos : ∀ i j : Nat, i < K → j < m → i + j * K < K * m := by
    intro i j hi hj
    have : (j + 1) * K ≤ m * K := Nat.mul_le_mul_right _ hj
    rw [Nat.succ_mul, Nat.mul_comm m K] at this
    omega
  obtain ⟨o, h1, h2, h3⟩ := forN_inv (P := fun k (o : List UAtom) => o.length = K * m ∧
      ∀ i j, i < k → j < m → vat o (i + j * K) = V[i]?.bind (·[j]?))
    (fun i out => forN m (fun j out => copyTo out (i + j * K) (at? ((a :: as).getD i none) j)) out) K
    (Expr.mk (K * m)) ⟨mk_length _, fun i j hi => absurd hi (Nat.not_lt_zero i)⟩ (by
      rintro k o hk ⟨p1, p2⟩
      obtain ⟨ws, hws, hH⟩ := hget k (by omega)
      have hwm : ws ∈ V := List.mem_of_getElem? hws
      have hwl := hall ws hwm
      obtain ⟨o', q1, q2, q3, q4⟩ := fill_spec m (fun j => k + j * K) (fun j => at? ((a :: as).getD k none) j) (fun j => ws[j]?) o
        (fun j hj => by rw [p1]; exact hpos k j hk hj) (fun j j' _ _ he => (hinj k j k j' hk hk he).2)
        (fun j hj => by
          have hj' : j < ws.length := by omega
          obtain ⟨x, x1, x2⟩ := holds_at hH (i := j) (v := ws[j]) (by simp [hj'])
          exact ⟨ws[j], by simp [hj'], by rw [x1]; exact x2, hc ws hwm _ (List.getElem_mem hj')⟩)
      refine ⟨o', q1, by omega, fun i j hi hj => ?_⟩
      by_cases e : i = k
      · rw [e, hws, Option.bind_some]; exact q3 j hj
      · rw [vat, q4 _ (fun j' hj' he => e (hinj k j' i j hk (by omega) he).1.symm)]
        exact p2 i j (by omega) hj)
  refine ⟨some o, ?_, ?_⟩
  · have hi : i32 ((K : Int) * m) = some ((K * m : Nat) : Int) := by
      rw [i32, if_pos (by rw [← Int.natCast_mul, hK1]; omega), Int.natCast_mul]
    simp only [Expr.interleave, hml, hK, hi, Option.bind_some, Int.toNat_natCast]
    rw [h1]; rfl
  · refine holds_uniform _ K m (fun j hj => by rw [(hfull j hj).1, hVK]) o (by rw [h2, Nat.mul_comm]) (fun j i hj hi => ?_)
    rw [(hfull j hj).2, ← h3 i j hi hj, Nat.add_comm]

/-- **C34 (nonzero).**  The positions of the true elements, in order, as `int32`s. -/
theorem C34_nonzero (a : Ar) (r : List Ar) (vs : List Val) (h : Holds a vs) :
    ∃ out, Expr.nonzero (a :: r) = some (0, out) ∧
      Holds out (((List.range vs.length).filter fun i => (vs[i]?.map Val.truth).getD false).map fun i : Nat => ITy.i32.val i) := by
  have hf : ((List.range (len a)).filter fun i => getBool (at? a i)) =
      (List.range vs.length).filter fun i => (vs[i]?.map Val.truth).getD false := by
    rw [holds_len h]
    apply List.filter_congr
    intro i hi
    have hi : i < vs.length := by simpa using hi
    obtain ⟨x, e1, e2⟩ := holds_at h (i := i) (v := vs[i]) (by simp [hi])
    rw [e1, getBool_val x _ e2]
    simp [hi]
  generalize hI : ((List.range vs.length).filter fun i => (vs[i]?.map Val.truth).getD false) = I at *
  obtain ⟨o, h1, h2, h3, -⟩ := forN_inv (P := fun k (o : List UAtom) => o.length = I.length ∧
      (∀ i, i < k → vat o i = (I.map fun i : Nat => ITy.i32.val i)[i]?) ∧ ∀ j, k ≤ j → o[j]? = (Expr.mk I.length)[j]?)
    (fun i out => setTo out i (·.setInt32 (I.getD i 0 : Nat))) I.length (Expr.mk I.length)
    ⟨mk_length _, fun i hi => absurd hi (Nat.not_lt_zero i), fun _ _ => rfl⟩ (by
      rintro k o hk ⟨p1, p2, p3⟩
      obtain ⟨u, u1, u2⟩ := setU_fresh .i32 (I.getD k 0 : Nat)
      have u1' : UAtom.setInt32 .fresh (I.getD k 0 : Nat) = some u := u1
      have hok : o[k]? = some .fresh := by rw [p3 k (Nat.le_refl _), Expr.mk, List.getElem?_replicate, if_pos hk]
      refine ⟨o.set k u, by rw [setTo, hok]; simp only [u1', Option.map_some], by simp [p1], fun i hi => ?_, fun j hj => ?_⟩
      · by_cases e : i = k
        · subst e
          have hko : i < o.length := by omega
          simp only [vat, List.getElem?_set_self hko, Option.bind_some, u2]
          simp [hk]
        · rw [vat, List.getElem?_set_ne (Ne.symm e)]; exact p2 i (by omega)
      · rw [List.getElem?_set_ne (by omega)]; exact p3 j (by omega))
  refine ⟨some o, ?_, (argsVal_iff _ _).mpr ⟨by simpa using h2, fun i hi => by simpa using h3 i (by simpa using hi)⟩⟩
  simp only [Expr.nonzero, hf, h1, Option.map_some]

theorem argsVal_append (l l' : List UAtom) (vs vs' : List Val) (h : argsVal l = some vs) (h' : argsVal l' = some vs') :
    argsVal (l ++ l') = some (vs ++ vs') := by
  obtain ⟨h1, h2⟩ := (argsVal_iff _ _).mp h
  obtain ⟨h3, h4⟩ := (argsVal_iff _ _).mp h'
  refine (argsVal_iff _ _).mpr ⟨by simp [h1, h3], fun i hi => ?_⟩
  rw [List.length_append] at hi
  by_cases e : i < vs.length
  · rw [List.getElem?_append_left e, ← h2 i e, vat, vat, List.getElem?_append_left (by omega)]
  · rw [List.getElem?_append_right (by omega), ← h4 _ (by omega), vat, vat, List.getElem?_append_right (by omega), h1]

theorem holdAll_flatten : ∀ (as : List Ar) (vss : List (List Val)), HoldAll as vss →
    argsVal ((as.map fun x => x.getD []).flatten) = some vss.flatten
  | [], vss, h => by simp only [HoldAll] at h; subst h; rfl
  | a :: as, vss, h => by
    obtain ⟨vs, vss', rfl, h1, h2⟩ := h
    exact argsVal_append _ _ _ _ h1 (holdAll_flatten as vss' h2)

/-- What the loop of `nth` does with a list of integer indices, the elements being chosen by `f`. -/
theorem nth_loop (N : Nat) (f : Nat → UAtom → Option UAtom) (g : Nat → Option Val)
    (hf : ∀ l, l < N → ∃ u v, f l .fresh = some u ∧ u.val = some v ∧ g l = some v) :
    ∀ (xs : List UAtom) (ixs : List (ITy × Int)) (out : List UAtom) (k : Nat),
      argsVal xs = some (ixs.map fun x => x.1.val x.2) → (∀ x ∈ ixs, x.1.has x.2) → k + xs.length ≤ out.length →
      (∀ j, k ≤ j → j < out.length → out[j]? = some .fresh) →
      ((∀ x ∈ ixs, 0 ≤ ITy.i32.conv x.2 ∧ ITy.i32.conv x.2 < N) →
        ∃ out', xs.foldlM (nthStep N f) (some (out, k)) = some (some (out', k + xs.length)) ∧ out'.length = out.length ∧
          (∀ i, i < ixs.length → vat out' (k + i) = ixs[i]?.bind fun x => g (ITy.i32.conv x.2).toNat) ∧
          ∀ j, j < k → out'[j]? = out[j]?) ∧
      ((∃ x ∈ ixs, ¬ (0 ≤ ITy.i32.conv x.2 ∧ ITy.i32.conv x.2 < N)) → xs.foldlM (nthStep N f) (some (out, k)) = some none)
  | [], ixs, out, k, h, _, _, _ => by
    have : ixs = [] := by
      simp only [argsVal, Option.some.injEq] at h
      exact List.map_eq_nil_iff.mp h.symm
    subst this
    exact ⟨fun _ => ⟨out, rfl, rfl, by simp, fun _ _ => rfl⟩, by simp⟩
  | x :: xs, [], out, k, h, _, _, _ => by
    have := ((argsVal_iff _ _).mp h).1; simp at this
  | x :: xs, (t, n) :: ixs, out, k, h, ht, hl, hfr => by
    simp only [argsVal, List.map_cons, Option.bind_eq_some_iff, Option.map_eq_some_iff] at h
    obtain ⟨v, hv, vs', h2, e⟩ := h
    simp only [List.cons.injEq] at e
    obtain ⟨rfl, rfl⟩ := e
    have hg : x.getInt32 = some (ITy.i32.conv n) := (getU_val t .i32 x n (ht (t, n) (by simp)) hv).1
    simp only [List.length_cons] at hl
    have stay : ∀ ys : List UAtom, ys.foldlM (nthStep N f) none = some none := by
      intro ys; induction ys with
      | nil => rfl
      | cons y ys ih => simp [nthStep, ih]
    by_cases hr : 0 ≤ ITy.i32.conv n ∧ ITy.i32.conv n < N
    · obtain ⟨u, w, f1, f2, f3⟩ := hf (ITy.i32.conv n).toNat (by omega)
      have hk : out[k]? = some .fresh := hfr k (Nat.le_refl _) (by omega)
      have step : nthStep N f (some (out, k)) x = some (some (out.set k u, k + 1)) := by
        simp only [nthStep, hg, Option.bind_some]
        rw [if_neg (by omega), if_neg (by omega), setTo, hk]
        simp only [f1, Option.map_some]
      obtain ⟨i1, i2⟩ := nth_loop N f g hf xs ixs (out.set k u) (k + 1) h2 (fun y hy => ht y (by simp [hy]))
        (by rw [List.length_set]; omega)
        (fun j hj hj2 => by rw [List.getElem?_set_ne (by omega)]; exact hfr j (by omega) (by simpa using hj2))
      constructor
      · intro hall
        obtain ⟨o, g1, g2, g3, g4⟩ := i1 (fun y hy => hall y (by simp [hy]))
        refine ⟨o, ?_, by simpa using g2, fun i hi => ?_, fun j hj => ?_⟩
        · rw [List.foldlM_cons, step]
          simp only [Option.bind_eq_bind, Option.bind_some, g1, List.length_cons]
          rw [show k + 1 + xs.length = k + (xs.length + 1) by omega]
        · cases i with
          | zero =>
            have hkl : k < out.length := by omega
            simp only [Nat.add_zero, vat, g4 k (by omega), List.getElem?_set_self hkl, Option.bind_some, f2]
            simp [f3]
          | succ i =>
            have := g3 i (by simpa using hi)
            rw [show k + 1 + i = k + (i + 1) by omega] at this
            simpa using this
        · rw [g4 j (by omega), List.getElem?_set_ne (by omega)]
      · rintro ⟨y, hy, hbad⟩
        rw [List.foldlM_cons, step]
        simp only [Option.bind_eq_bind, Option.bind_some]
        refine i2 ⟨y, ?_, hbad⟩
        rcases List.mem_cons.mp hy with rfl | hy
        · exact absurd hr hbad
        · exact hy
    · have step : nthStep N f (some (out, k)) x = some none := by
        simp only [nthStep, hg, Option.bind_some]
        by_cases h0 : ITy.i32.conv n < 0
        · rw [if_pos h0]
        · rw [if_neg h0, if_pos (by omega)]
      refine ⟨fun hall => absurd (hall (t, n) (by simp)) hr, fun _ => ?_⟩
      rw [List.foldlM_cons, step]
      exact stay xs

/-- The list is indexed as a list, not as the bytes of a blob. -/
def NotOneBlob : List Val → Prop
  | [.blob _] => False
  | _ => True

/-- **C34 (nth; partial).**  `nth` of a list with integer indices, however they are distributed over the further arguments:
if all are positions of the list, the elements at these positions; if not, the call fails with code 1 and no output.
Missing: indices are read as `int32`, so a 64 bit index counts modulo 2^32 (`C34_full_fails`); floating point indices. -/
theorem C34_nth_partial (a : Ar) (is : List Ar) (vs : List Val) (iss : List (List Val)) (ixs : List (ITy × Int))
    (ha : Holds a vs) (hnb : NotOneBlob vs) (hc : ∀ v ∈ vs, Copyable v) (hi : HoldAll is iss)
    (he : iss.flatten = ixs.map fun x => x.1.val x.2) (ht : ∀ x ∈ ixs, x.1.has x.2) (hl : ixs.length < 2147483648) :
    ((∀ x ∈ ixs, 0 ≤ ITy.i32.conv x.2 ∧ ITy.i32.conv x.2 < vs.length) →
      ∃ out, Expr.nth (a :: is) = some (0, out) ∧ Holds out (ixs.filterMap fun x => vs[(ITy.i32.conv x.2).toNat]?)) ∧
    ((∃ x ∈ ixs, ¬ (0 ≤ ITy.i32.conv x.2 ∧ ITy.i32.conv x.2 < vs.length)) → Expr.nth (a :: is) = some (1, none)) := by
  have hfl := holdAll_flatten is iss hi
  rw [he] at hfl
  have hlen : iss.flatten.length = ixs.length := by rw [he, List.length_map]
  have hxl := ((argsVal_iff _ _).mp hfl).1
  rw [List.length_map] at hxl
  have htot := total_eq is iss hi (by rw [hlen]; exact hl)
  rw [hlen] at htot
  have hal : (a.getD []).length = vs.length := holds_len ha
  have hsel : ∀ l, l < vs.length → ∃ u v, (fun (l : Nat) (_ : UAtom) => (a.getD [])[l]?.bind copyAtom) l .fresh = some u ∧
      u.val = some v ∧ vs[l]? = some v := by
    intro l hlt
    obtain ⟨x, e1, e2⟩ := holds_at ha (i := l) (v := vs[l]) (by simp [hlt])
    obtain ⟨u, c1, c2, -⟩ := copyAtom_val x _ e2 (hc _ (List.getElem_mem hlt))
    refine ⟨u, _, ?_, c2, by simp [hlt]⟩
    have e1' : (a.getD [])[l]? = some x := e1
    simp only [e1', Option.bind_some, c1]
  obtain ⟨i1, i2⟩ := nth_loop vs.length (fun l _ => (a.getD [])[l]?.bind copyAtom) (fun l => vs[l]?) hsel _ ixs (Expr.mk ixs.length) 0 hfl ht
    (by rw [mk_length]; omega) (fun j _ hj => by
      rw [mk_length] at hj
      rw [Expr.mk, List.getElem?_replicate, if_pos hj])
  have hrun : Expr.nth (a :: is) = (((is.map fun x => x.getD []).flatten).foldlM
      (nthStep vs.length fun l _ => (a.getD [])[l]?.bind copyAtom) (some (Expr.mk ixs.length, 0))).map fun st =>
        match st with
        | none => (1, none)
        | some (out, _) => (0, some out) := by
    unfold Expr.nth
    dsimp only
    rw [htot, Option.bind_some, Int.toNat_natCast]
    have nb : ∀ al w, a.getD [] ≠ [.mk 98 al w] := by
      intro al w e
      unfold Holds at ha
      rw [e] at ha
      simp only [argsVal, Option.bind_eq_some_iff, Option.map_eq_some_iff] at ha
      obtain ⟨v, hv, ws, hw, e2⟩ := ha
      simp only [Option.some.injEq] at hw
      subst hw; subst e2
      rcases val_eq _ _ _ _ hv with ⟨h1, h2⟩ | ⟨h1, h2⟩ | ⟨h1, h2⟩ | ⟨h1, h2⟩ | ⟨h1, h2⟩ | ⟨h1, p, s, -, h2⟩ |
        ⟨h1, p, blk, l, c, -, -, -, h2⟩ | ⟨h1, p, ms, vs, -, -, h2⟩ | ⟨h2, h3⟩
      · revert h1; decide
      · revert h1; decide
      · revert h1; decide
      · revert h1; decide
      · revert h1; decide
      · revert h1; decide
      · rw [h2] at hnb; exact hnb
      · revert h1; decide
      · revert h3; decide
    rw [← hal]
    split
    · rename_i al w e; exact absurd e (nb al w)
    · rfl
  constructor
  · intro hall
    obtain ⟨o, g1, g2, g3, -⟩ := i1 hall
    refine ⟨some o, by rw [hrun, g1]; rfl, ?_⟩
    obtain ⟨f1, f2⟩ := filterMap_full (fun x : ITy × Int => vs[(ITy.i32.conv x.2).toNat]?) ixs (fun x hx => by
      have := hall x hx
      rw [List.getElem?_eq_getElem (by omega)]; rfl)
    rw [mk_length] at g2
    refine (argsVal_iff _ _).mpr ⟨by rw [f1]; exact g2, fun i hi => ?_⟩
    rw [f2, ← g3 i (by omega), Nat.zero_add]; rfl
  · intro hbad
    rw [hrun, i2 hbad]; rfl

/-- **C34 (nth on the bytes of a blob).**  The list of one blob is indexed by its bytes, which come out as `int8`s. -/
theorem C34_nth_blob (a : Ar) (is : List Ar) (c : Bytes) (iss : List (List Val)) (ixs : List (ITy × Int))
    (ha : Holds a [.blob c]) (hi : HoldAll is iss) (he : iss.flatten = ixs.map fun x => x.1.val x.2)
    (ht : ∀ x ∈ ixs, x.1.has x.2) (hl : ixs.length < 2147483648) :
    ((∀ x ∈ ixs, 0 ≤ ITy.i32.conv x.2 ∧ ITy.i32.conv x.2 < c.length) →
      ∃ out, Expr.nth (a :: is) = some (0, out) ∧
        Holds out (ixs.filterMap fun x => c[(ITy.i32.conv x.2).toNat]?.map fun b => .num 99 b.toNat)) ∧
    ((∃ x ∈ ixs, ¬ (0 ≤ ITy.i32.conv x.2 ∧ ITy.i32.conv x.2 < c.length)) → Expr.nth (a :: is) = some (1, none)) := by
  have hfl := holdAll_flatten is iss hi
  rw [he] at hfl
  have hlen : iss.flatten.length = ixs.length := by rw [he, List.length_map]
  have hxl := ((argsVal_iff _ _).mp hfl).1
  rw [List.length_map] at hxl
  have htot := total_eq is iss hi (by rw [hlen]; exact hl)
  rw [hlen] at htot
  obtain ⟨al, p, blk, hb, hrd, hbytes⟩ : ∃ al p blk, a.getD [] = [.mk 98 al (.blob p blk)] ∧ rdI32 blk 0 = some (c.length : Int) ∧
      ∀ l, l < c.length → rd8 blk (4 + l) = c[l]? := by
    have hal := holds_len ha
    unfold Holds at ha
    match hx : a.getD [], hal with
    | [.mk tag al w], _ =>
      rw [hx] at ha
      simp only [argsVal, Option.bind_eq_some_iff, Option.map_eq_some_iff] at ha
      obtain ⟨v, hv, ws, hw, e2⟩ := ha
      simp only [Option.some.injEq] at hw
      subst hw
      simp only [List.cons.injEq, and_true] at e2
      subst e2
      rcases val_eq _ _ _ _ hv with ⟨h1, h2⟩ | ⟨h1, h2⟩ | ⟨h1, h2⟩ | ⟨h1, h2⟩ | ⟨h1, h2⟩ | ⟨h1, p, s, -, h2⟩ |
        ⟨h1, p, blk, l, c', hw, hl2, hsl, h2⟩ | ⟨h1, p, ms, vs, -, -, h2⟩ | ⟨h2, h3⟩ <;> cases h2
      subst h1 hw
      unfold slice at hsl
      split at hsl
      · cases hsl
      · rename_i hcond
        injection hsl with e
        have hlc : c.length = l.toNat := by rw [← e, List.length_take, List.length_drop]; omega
        refine ⟨al, p, blk, rfl, by rw [hl2, hlc]; congr 1; omega, fun j hj => ?_⟩
        rw [rd8, ← e, List.getElem?_take_of_lt (by omega), List.getElem?_drop]
    | [], h => simp [len, hx] at h
    | _ :: _ :: _, h => simp [len, hx] at h
  have hsel : ∀ l, l < c.length → ∃ u v, (fun (l : Nat) (x : UAtom) => (rd8 blk (4 + l)).bind fun b => x.setInt8 b.toNat) l .fresh =
      some u ∧ u.val = some v ∧ (c[l]?.map fun b => Val.num 99 b.toNat) = some v := by
    intro l hlt
    obtain ⟨u, u1, u2⟩ := setU_fresh .i8 c[l].toNat
    refine ⟨u, _, ?_, u2, ?_⟩
    · simp only [hbytes l hlt, List.getElem?_eq_getElem hlt, Option.bind_some]
      exact u1
    · have := c[l].toNat_lt
      simp only [List.getElem?_eq_getElem hlt, Option.map_some, ITy.val, ITy.tag, ITy.width]
      congr 2
      omega
  obtain ⟨i1, i2⟩ := nth_loop c.length (fun l x => (rd8 blk (4 + l)).bind fun b => x.setInt8 b.toNat)
    (fun l => c[l]?.map fun b => Val.num 99 b.toNat) hsel _ ixs (Expr.mk ixs.length) 0 hfl ht
    (by rw [mk_length]; omega) (fun j _ hj => by
      rw [mk_length] at hj
      rw [Expr.mk, List.getElem?_replicate, if_pos hj])
  have hrun : Expr.nth (a :: is) = (((is.map fun x => x.getD []).flatten).foldlM
      (nthStep c.length fun l x => (rd8 blk (4 + l)).bind fun b => x.setInt8 b.toNat) (some (Expr.mk ixs.length, 0))).map fun st =>
        match st with
        | none => (1, none)
        | some (out, _) => (0, some out) := by
    unfold Expr.nth
    dsimp only
    rw [htot, Option.bind_some, Int.toNat_natCast]
    rw [hb]
    split
    · rename_i e
      simp only [List.cons.injEq, UAtom.mk.injEq, true_and, and_true] at e
      obtain ⟨rfl, rfl⟩ := e
      simp only [hrd, Option.bind_some]
      rfl
    · rename_i _ h
      exact absurd rfl (h al (.blob p blk))
  constructor
  · intro hall
    obtain ⟨o, g1, g2, g3, -⟩ := i1 hall
    refine ⟨some o, by rw [hrun, g1]; rfl, ?_⟩
    obtain ⟨f1, f2⟩ := filterMap_full (fun x : ITy × Int => c[(ITy.i32.conv x.2).toNat]?.map fun b => Val.num 99 b.toNat) ixs
      (fun x hx => by
        have := hall x hx
        rw [List.getElem?_eq_getElem (by omega)]; rfl)
    rw [mk_length] at g2
    refine (argsVal_iff _ _).mpr ⟨by rw [f1]; exact g2, fun i hi => ?_⟩
    rw [f2, ← g3 i (by omega), Nat.zero_add]; rfl
  · intro hbad
    rw [hrun, i2 hbad]; rfl

/-- **C34 (the full claim is false).**  An index far outside the list is accepted if it is a 64 bit integer whose low 32 bits
are a position. -/
theorem C34_full_fails : ∃ (a i : Ar) (out : Ar), Holds a [.num 105 7] ∧ Holds i [ITy.i64.val 4294967296] ∧
    Expr.nth [a, i] = some (0, out) ∧ Holds out [.num 105 7] :=
  ⟨some [.mk 105 false (.bits 7)], some [.mk 104 false (.bits 4294967296)], some [.mk 105 false (.bits 7)], rfl, rfl, rfl, rfl⟩

/-- Write a value at a position; positions outside the list are ignored. -/
def putAt (l : List Val) (w : Int × Val) : List Val := if 0 ≤ w.1 then l.set w.1.toNat w.2 else l

/-- Which value goes to which position: one value goes everywhere, one position takes the first value, otherwise pairwise up to
the shorter list. -/
def writes (is : List Int) (ds : List Val) : List (Int × Val) :=
  match is, ds with
  | [i], d :: _ => [(i, d)]
  | is, [d] => is.map fun i => (i, d)
  | is, ds => is.zip ds

theorem assignAt_spec (o : List UAtom) (vs : List Val) (idx src : Option UAtom) (n : Int) (d : Val)
    (h : Holds (some o) vs) (hi : intOf UAtom.getInt idx = some n) (hs : src.bind UAtom.val = some d)
    (hc : Copyable d) : ∃ o', assignAt o idx src = some o' ∧ Holds (some o') (putAt vs (n, d)) := by
  have hlen : o.length = vs.length := holds_len h
  simp only [assignAt, hi, Option.bind_some, putAt]
  by_cases h0 : 0 ≤ n
  · by_cases h1 : n < o.length
    · rw [if_neg (by omega), if_pos h0]
      obtain ⟨o', e1, e2, e3, e4⟩ := copyTo_spec o n.toNat src d hs hc (by omega)
      refine ⟨o', e1, (argsVal_iff _ _).mpr ⟨by simp [e2, hlen], fun i hi => ?_⟩⟩
      rw [List.length_set] at hi
      by_cases e : i = n.toNat
      · rw [e, Option.getD_some, e3, List.getElem?_set_self (by omega)]
      · rw [List.getElem?_set_ne (Ne.symm e), ← ((argsVal_iff _ _).mp h).2 i hi, vat, vat, Option.getD_some, e4 i e]; rfl
    · rw [if_pos (by omega), if_pos h0]
      refine ⟨o, rfl, ?_⟩
      rw [List.set_eq_of_length_le (by omega)]; exact h
  · rw [if_pos (by omega), if_neg h0]
    exact ⟨o, rfl, h⟩

theorem assign_loop (idx src : Nat → Option UAtom) (ws : List (Int × Val)) (o : List UAtom) (vs : List Val)
    (h : Holds (some o) vs)
    (hw : ∀ i n d, ws[i]? = some (n, d) → intOf UAtom.getInt (idx i) = some n ∧ (src i).bind UAtom.val = some d ∧ Copyable d) :
    ∃ o', forN ws.length (fun i o => assignAt o (idx i) (src i)) o = some o' ∧ Holds (some o') (ws.foldl putAt vs) := by
  obtain ⟨o', h1, h2⟩ := forN_inv (P := fun k o => Holds (some o) ((ws.take k).foldl putAt vs))
    (fun i o => assignAt o (idx i) (src i)) ws.length o (by simpa using h) (by
      intro k o hk hP
      have hg : ws[k]? = some ws[k] := List.getElem?_eq_getElem hk
      obtain ⟨g1, g2, g3⟩ := hw k ws[k].1 ws[k].2 hg
      obtain ⟨o', e1, e2⟩ := assignAt_spec o _ (idx k) (src k) _ _ hP g1 g2 g3
      refine ⟨o', e1, ?_⟩
      rw [List.take_add_one, hg, Option.toList_some, List.foldl_append]
      exact e2)
  exact ⟨o', h1, by simpa using h2⟩

/-- **C44 (assignment at positions).**  `assign_to_index` writes the given values at the given positions of a copy of the list,
one after the other, and leaves all other positions as they are.  One value is written everywhere; with a single position the
first value is written.  Positions outside the list are skipped, except that a single position outside with several values is
an error, as is an empty list of positions or values; then the copy is returned as it was. -/
theorem C44_assign_to_index (a i d : Ar) (vs : List Val) (ixs : List (ITy × Int)) (ds : List Val) (ha : Holds a vs)
    (hi : Holds i (ixs.map fun x => x.1.val x.2)) (hd : Holds d ds) (ht : ∀ x ∈ ixs, x.1.has x.2) (hc : ∀ v ∈ vs, Copyable v)
    (hcd : ∀ v ∈ ds, Copyable v) (is : List Int)
    (his : is = ixs.map fun x => ITy.i32.conv x.2) :
    ∃ code out, Expr.assignToIndex [a, i, d] = some (code, out) ∧
      (code = 0 ↔ is ≠ [] ∧ ds ≠ [] ∧ ¬ (is.length = 1 ∧ 1 < ds.length ∧ ∀ n ∈ is, ¬ (0 ≤ n ∧ n < vs.length))) ∧
      (code = 0 → Holds out ((writes is ds).foldl putAt vs)) ∧ (code ≠ 0 → Holds out vs) := by
  obtain ⟨out, hcp, hout, hsome⟩ := copyAr_holds a vs ha hc
  have hli : len i = is.length := by rw [holds_len hi, his, List.length_map, List.length_map]
  have hld : len d = ds.length := holds_len hd
  have hlo : len out = vs.length := holds_len hout
  have hidx : ∀ k n, is[k]? = some n → intOf UAtom.getInt (at? i k) = some n := by
    intro k n hk
    rw [his, List.getElem?_map, Option.map_eq_some_iff] at hk
    obtain ⟨x, hx, rfl⟩ := hk
    obtain ⟨u, e1, e2⟩ := holds_at hi (i := k) (v := x.1.val x.2) (by rw [List.getElem?_map, hx]; rfl)
    rw [e1]
    exact (getU_val x.1 .i32 u x.2 (ht x (List.mem_of_getElem? hx)) e2).2
  have hdat : ∀ k v, ds[k]? = some v → (at? d k).bind UAtom.val = some v ∧ Copyable v := by
    intro k v hk
    obtain ⟨u, e1, e2⟩ := holds_at hd hk
    exact ⟨by rw [e1]; exact e2, hcd v (List.mem_of_getElem? hk)⟩
  have ho : Holds (some (out.getD [])) vs := hout
  have fin : ∀ (o : List UAtom) (ws : List (Int × Val)), Holds (some o) (ws.foldl putAt vs) → Holds (out.map fun _ => o) (ws.foldl putAt vs) := by
    intro o ws h
    cases out with
    | some l => exact h
    | none =>
      have : vs = [] := by
        have h2 := ho
        simp only [Holds, Option.getD_none, Option.getD_some, argsVal, Option.some.injEq] at h2
        exact h2.symm
      have hz : ∀ ws : List (Int × Val), ws.foldl putAt [] = [] := by
        intro ws; induction ws with
        | nil => rfl
        | cons w ws ih =>
          have : putAt [] w = [] := by unfold putAt; split <;> simp
          rw [List.foldl_cons, this, ih]
      rw [this, hz]; rfl
  unfold Expr.assignToIndex
  dsimp only
  rw [hcp, Option.bind_some, hli, hld]
  by_cases h0 : is.length = 0 ∨ ds.length = 0
  · rw [if_pos h0]
    refine ⟨1, out, rfl, ?_, by simp, fun _ => hout⟩
    simp only [Int.reduceEq, false_iff, not_and]
    intro h1 h2
    rcases h0 with h | h
    · exact absurd (List.length_eq_zero_iff.mp h) h1
    · exact absurd (List.length_eq_zero_iff.mp h) h2
  · rw [if_neg h0]
    have hne1 : is ≠ [] := by rintro rfl; simp at h0
    have hne2 : ds ≠ [] := by rintro rfl; simp at h0
    by_cases hA : is.length = 1 ∧ 1 < ds.length
    · rw [if_pos hA]
      obtain ⟨n, rfl⟩ : ∃ n, is = [n] := List.length_eq_one_iff.mp hA.1
      cases ds with
      | nil => exact absurd rfl hne2
      | cons v ds =>
        rw [hidx 0 n rfl, Option.bind_some]
        by_cases hr : n ≥ (len out : Int) ∨ n < 0
        · rw [if_pos hr]
          refine ⟨1, out, rfl, ⟨fun h => absurd h (by decide), fun h => absurd ⟨hA.1, hA.2, fun m hm => ?_⟩ h.2.2⟩, by simp,
            fun _ => hout⟩
          have := List.mem_singleton.mp hm
          omega
        · rw [if_neg hr]
          obtain ⟨c1, c2⟩ := hdat 0 v rfl
          obtain ⟨o', e1, e2⟩ := assignAt_spec (out.getD []) vs (at? i 0) (at? d 0) n v ho (hidx 0 n rfl) c1 c2
          simp only [assignAt, hidx 0 n rfl, Option.bind_some] at e1
          rw [show (out.getD []).length = len out from rfl, if_neg hr] at e1
          refine ⟨0, some o', by rw [e1]; rfl, ?_, fun _ => e2, by simp⟩
          simp only [true_iff]
          refine ⟨hne1, hne2, fun h => h.2.2 n (by simp) (by omega)⟩
    · rw [if_neg hA]
      have hcode : (0 : Int) = 0 ↔ is ≠ [] ∧ ds ≠ [] ∧ ¬ (is.length = 1 ∧ 1 < ds.length ∧ ∀ n ∈ is, ¬ (0 ≤ n ∧ n < vs.length)) := by
        simp only [true_iff]
        exact ⟨hne1, hne2, fun h => hA ⟨h.1, h.2.1⟩⟩
      by_cases hB : 1 < is.length ∧ ds.length = 1
      · rw [if_pos hB]
        obtain ⟨v, rfl⟩ : ∃ v, ds = [v] := List.length_eq_one_iff.mp hB.2
        have hw : writes is [v] = is.map fun n => (n, v) := by
          match is, hB with
          | _ :: _ :: _, _ => rfl
          | [_], h => simp at h
          | [], h => simp at h
        obtain ⟨o', e1, e2⟩ := assign_loop (fun k => at? i k) (fun _ => at? d 0) (is.map fun n => (n, v)) (out.getD []) vs ho
          (fun k n v' hk => by
            rw [List.getElem?_map, Option.map_eq_some_iff] at hk
            obtain ⟨m, hm, e⟩ := hk
            simp only [Prod.mk.injEq] at e
            obtain ⟨rfl, rfl⟩ := e
            exact ⟨hidx k m hm, hdat 0 v rfl⟩)
        rw [List.length_map] at e1
        exact ⟨0, _, by rw [e1]; rfl, hcode, fun _ => by rw [hw]; exact fin o' _ e2, by simp⟩
      · rw [if_neg hB]
        have hw : writes is ds = is.zip ds := by
          match is, ds with
          | [_], [_] => rfl
          | [_], _ :: _ :: _ => simp at hA
          | _ :: _ :: _, [_] => simp at hB
          | _ :: _ :: _, _ :: _ :: _ => rfl
          | [], _ => simp at h0
          | _ :: _, [] => simp at h0
        obtain ⟨o', e1, e2⟩ := assign_loop (fun k => at? i k) (fun k => at? d k) (is.zip ds) (out.getD []) vs ho
          (fun k n v' hk => by
            rw [List.getElem?_zip_eq_some] at hk
            exact ⟨hidx k n hk.1, hdat k v' hk.2⟩)
        rw [List.length_zip] at e1
        exact ⟨0, _, by rw [e1]; rfl, hcode, fun _ => by rw [hw]; exact fin o' _ e2, by simp⟩

/-- **C44 (wrong number of arguments).** -/
theorem C44_argnum (argv : List Ar) (h : argv.length ≠ 3) : Expr.assignToIndex argv = some (1, none) := by
  match argv, h with
  | [], _ => rfl
  | [_], _ => rfl
  | [_, _], _ => rfl
  | [_, _, _], h => simp at h
  | _ :: _ :: _ :: _ :: _, _ => rfl

section Examples

/-- The list `1, "ab", a bundle with one message, true`. -/
def exList : Ar := some [.mk 105 false (.bits 1), .mk 115 true (.str 4096 [97, 98]),
  .mk 46 false (.bndl 8192 [.mk (some [47, 120]) [.mk 100 false (.bits 5)]]), .mk 84 false (.bits 0)]
def exListVals : List Val := [.num 105 1, .str [97, 98], .bndl [.mk (some [47, 120]) [.num 100 5]], .bare 84]

example : Holds exList exListVals := rfl
example : ∀ v ∈ exListVals, Copyable v := by
  simp [exListVals, Copyable, GoodMsgs, GoodMsg, GoodVals, GoodVal, sizeVal, sizeVMsgs, sizeVMsg, sizeVals, strSize]
example : NotOneBlob exListVals := trivial
example : HoldAll [exList, none, exList] [exListVals, [], exListVals] := ⟨_, _, rfl, rfl, _, _, rfl, rfl, _, _, rfl, rfl, rfl⟩
/-- Evaluated: reverse, and nth with the indices 3, 0 (an `int8` and a `uint64`). -/
example : (Expr.reverse [exList]).bind (fun r => argsVal (r.2.getD [])) =
    some [.bare 84, .bndl [.mk (some [47, 120]) [.num 100 5]], .str [97, 98], .num 105 1] := by rfl
example : (Expr.nth [exList, some [.mk 99 false (.bits 3)], some [.mk 72 false (.bits 0)]]).map
    (fun r => (r.1, argsVal (r.2.getD []))) = some (0, some [.bare 84, .num 105 1]) := by rfl
example : [[ITy.i8.val 3], [ITy.u64.val 0]].flatten = [(ITy.i8, (3 : Int)), (ITy.u64, 0)].map fun x => x.1.val x.2 := rfl
example : (Expr.nth [exList, some [.mk 99 false (.bits 4)]]).map (·.1) = some 1 := by rfl
example : (Expr.nonzero [exList]).map (fun r => argsVal (r.2.getD [])) = some (some [.num 105 0, .num 105 3]) := by rfl
example : (Expr.interleave [exList, some [.mk 105 false (.bits 8)]]).map (fun r => argsVal (r.2.getD [])) =
    some (some [.num 105 1, .num 105 8]) := by rfl
example : Holds (some [.mk 98 false (.blob 4096 [0, 0, 0, 2, 7, 200, 0, 0])]) [.blob [7, 200]] := rfl
example : writes [1, 7, 1] [.num 105 5, .bare 84, .bare 70] = [(1, .num 105 5), (7, .bare 84), (1, .bare 70)] := rfl
example : (Expr.assignToIndex [exList, some [.mk 105 false (.bits 1), .mk 105 false (.bits 3)], some [.mk 70 false (.bits 0)]]).map
    (fun r => (r.1, argsVal (r.2.getD []))) =
    some (0, some [.num 105 1, .bare 70, .bndl [.mk (some [47, 120]) [.num 100 5]], .bare 70]) := by rfl

end Examples

end Libo.Props
