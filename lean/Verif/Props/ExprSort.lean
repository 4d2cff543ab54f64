import Verif.ExprSort
import Verif.ExprBndl
import Verif.ExprSemFuns
import Verif.Props.ExprMod
/-!
# C69: sorting and the median

What is assumed of the `qsort` of the C library is `Sorts`.
-/

namespace Libo.Props
open Libo Libo.Expr Libo.Ieee Libo.Sem

/-! ## Specification -/

/-- What C promises of `qsort`: if the comparison function orders the elements at `n` different positions, the result has each of the positions
once, and no element stands before a smaller one. -/
def Sorts (q : Nat → (Nat → Nat → Int) → List Nat) : Prop :=
  ∀ n c, (∀ i j, i < n → j < n → i ≠ j → (c i j < 0 ↔ 0 < c j i) ∧ (c i j = 0 ↔ c j i = 0)) →
    (∀ i j k, i < n → j < n → k < n → i ≠ j → j ≠ k → i ≠ k → c i j ≤ 0 → c j k ≤ 0 → c i k ≤ 0) →
    (q n c).Perm (List.range n) ∧ (q n c).Pairwise fun i j => c i j ≤ 0

/-- By what a value is sorted: a number by where it stands, a string by its bytes. -/
inductive Key where
  | num (p : Int)
  | str (s : Bytes)

/-- Numbers come before strings. -/
def Key.le : Key → Key → Prop
  | .num p, .num r => p ≤ r
  | .num _, .str _ => True
  | .str _, .num _ => False
  | .str s, .str t => ¬ t < s

inductive HasKey : Val → Key → Prop
  | num (v x p) : IsDouble v x → place x = some p → HasKey v (.num p)
  | str (s) : HasKey (.str s) (.str s)

/-- The value `v` may stand before the value `w`. -/
def Before (v w : Val) : Prop := ∃ k l, HasKey v k ∧ HasKey w l ∧ Key.le k l

/-! ## Keys -/

theorem bytes_trans {s t u : Bytes} (h : ¬ t < s) (h' : ¬ u < t) : ¬ u < s := by
  have h1 : s ≤ t := h
  have h2 : t ≤ u := h'
  have : s ≤ u := List.le_trans h1 h2
  exact this

theorem bytes_total (s t : Bytes) : ¬ t < s ∨ ¬ s < t := by
  rcases List.le_total s t with h | h
  · exact .inl h
  · exact .inr h

theorem key_trans {k l m : Key} (h : k.le l) (h' : l.le m) : k.le m := by
  cases k <;> cases l <;> cases m <;> simp only [Key.le] at * <;> first | omega | exact bytes_trans h h'

theorem key_total (k l : Key) : k.le l ∨ l.le k := by
  cases k <;> cases l <;> simp only [Key.le] <;> first | omega | exact bytes_total _ _ | simp

theorem orders_iff (n : Nat) (c : Nat → Nat → Int) : orders n c = true ↔
    (∀ i j, i < n → j < n → i ≠ j → (c i j).sign = -(c j i).sign) ∧
    (∀ i j k, i < n → j < n → k < n → i ≠ j → j ≠ k → i ≠ k → c i j ≤ 0 → c j k ≤ 0 → c i k ≤ 0) := by
  simp only [orders, List.all_eq_true, List.mem_range, Bool.or_eq_true, Bool.and_eq_true, beq_iff_eq, Bool.not_eq_true', decide_eq_true_eq,
    Bool.and_eq_false_iff, decide_eq_false_iff_not]
  constructor
  · intro h
    refine ⟨fun i j hi hj e => ?_, fun i j k hi hj hk e1 e2 e3 h1 h2 => ?_⟩
    · exact ((h i hi j hj).resolve_left e).1
    · rcases ((h i hi j hj).resolve_left e1).2 k hk with ((h' | h') | h') | h'
      · exact absurd h'.symm e3
      · exact absurd h'.symm e2
      · omega
      · exact h'
  · rintro ⟨h1, h2⟩ i hi j hj
    by_cases e : i = j
    · exact .inl e
    · refine .inr ⟨h1 i j hi hj e, fun k hk => ?_⟩
      by_cases a1 : k = i
      · exact .inl (.inl (.inl a1))
      by_cases a2 : k = j
      · exact .inl (.inl (.inr a2))
      by_cases a3 : c i j ≤ 0
      · by_cases a4 : c j k ≤ 0
        · exact .inr (h2 i j k hi hj hk e (Ne.symm a2) (Ne.symm a1) a3 a4)
        · exact .inl (.inr (.inr a4))
      · exact .inl (.inr (.inl a3))

theorem sign_cases (a : Int) : (a < 0 ∧ a.sign = -1) ∨ (a = 0 ∧ a.sign = 0) ∨ (0 < a ∧ a.sign = 1) := by
  rcases Int.lt_trichotomy a 0 with h | h | h
  · exact .inl ⟨h, Int.sign_eq_neg_one_of_neg h⟩
  · exact .inr (.inl ⟨h, by rw [h]; rfl⟩)
  · exact .inr (.inr ⟨h, Int.sign_eq_one_of_pos h⟩)

theorem sign_pair {a b : Int} : a.sign = -b.sign ↔ (a < 0 ↔ 0 < b) ∧ (a = 0 ↔ b = 0) := by
  have h1 := sign_cases a
  have h2 := sign_cases b
  generalize a.sign = x at *
  generalize b.sign = y at *
  omega

/-- The comparison function follows the order of the keys. -/
def InKeyOrder (n : Nat) (c : Nat → Nat → Int) (K : Nat → Key) : Prop :=
  ∀ i j, i < n → j < n → i ≠ j → (c i j ≤ 0 ↔ (K i).le (K j)) ∧ (0 ≤ c i j ↔ (K j).le (K i))

theorem sortBy_spec {q : Nat → (Nat → Nat → Int) → List Nat} (hq : Sorts q) {n : Nat} {c : Nat → Nat → Int} {K : Nat → Key} (h : InKeyOrder n c K) :
    ∃ p, sortBy q n c = some p ∧ p.Perm (List.range n) ∧ p.Pairwise fun i j => (K i).le (K j) := by
  have a1 : ∀ i j, i < n → j < n → i ≠ j → (c i j).sign = -(c j i).sign := by
    intro i j hi hj e
    obtain ⟨b1, b2⟩ := h i j hi hj e
    obtain ⟨b3, b4⟩ := h j i hj hi (Ne.symm e)
    rw [sign_pair]
    have b5 : c i j ≤ 0 ↔ 0 ≤ c j i := by rw [b1, b4]
    have b6 : 0 ≤ c i j ↔ c j i ≤ 0 := by rw [b2, b3]
    omega
  have a2 : ∀ i j k, i < n → j < n → k < n → i ≠ j → j ≠ k → i ≠ k → c i j ≤ 0 → c j k ≤ 0 → c i k ≤ 0 := by
    intro i j k hi hj hk e1 e2 e3 h1 h2
    exact (h i k hi hk e3).1.mpr (key_trans ((h i j hi hj e1).1.mp h1) ((h j k hj hk e2).1.mp h2))
  refine ⟨q n c, by rw [sortBy, if_pos ((orders_iff n c).mpr ⟨a1, a2⟩)], ?_⟩
  obtain ⟨p1, p2⟩ := hq n c (fun i j hi hj e => sign_pair.mp (a1 i j hi hj e)) a2
  refine ⟨p1, ?_⟩
  have hnd : (q n c).Nodup := p1.nodup_iff.mpr List.nodup_range
  have hm : ∀ i ∈ q n c, i < n := fun i hi => List.mem_range.mp (p1.mem_iff.mp hi)
  refine (p2.and hnd).imp_of_mem ?_
  intro i j hi hj ⟨e1, e2⟩
  exact (h i j (hm i hi) (hm j hj) e2).1.mp e1

/-! ## Comparing atoms -/

theorem compare_keys {a b : UAtom} {v w : Val} {k l : Key} (ha : a.val = some v) (hb : b.val = some w) (hk : HasKey v k) (hl : HasKey w l) :
    (∃ c, compareAtoms indexNum a b = some c ∧ (c ≤ 0 ↔ k.le l) ∧ (0 ≤ c ↔ l.le k)) ∧
    ∃ c, compareAtoms sortNum a b = some c ∧ ((∀ p, ¬ (k = .num p ∧ l = .num p)) → (c ≤ 0 ↔ k.le l) ∧ (0 ≤ c ↔ l.le k)) ∧
      ∀ p, k = .num p → l = .num p → c = 1 := by
  cases hk with
  | str s =>
    obtain ⟨al, p, rfl⟩ := val_str ha
    cases hl with
    | str t =>
      obtain ⟨al', p', rfl⟩ := val_str hb
      obtain ⟨s1, s2, s3⟩ := strcmp_spec s t
      have e : ∀ f, compareAtoms f (.mk 115 al (.str p s)) (.mk 115 al' (.str p' t)) = some (strcmp s t) := fun f => by
        simp [compareAtoms, UAtom.tag, UAtom.w]
      have r : (strcmp s t ≤ 0 ↔ ¬ t < s) ∧ (0 ≤ strcmp s t ↔ ¬ s < t) := by
        rw [← s3, ← s1]; omega
      exact ⟨⟨_, e _, r⟩, _, e _, fun _ => r, fun p h => by cases h⟩
    | num _ x r hx hp =>
      have ht := (num_tags hb hx).2
      have ts : (UAtom.mk 115 al (.str p s)).tag = 115 := rfl
      have e : ∀ f, compareAtoms f (.mk 115 al (.str p s)) b = some 1 := fun f => by
        simp [compareAtoms, ts, ht]
      have r : ((1 : Int) ≤ 0 ↔ Key.le (.str s) (.num r)) ∧ ((0 : Int) ≤ 1 ↔ Key.le (.num r) (.str s)) := by simp [Key.le]
      exact ⟨⟨_, e _, r⟩, _, e _, fun _ => r, fun p h => by cases h⟩
  | num _ x p hx hp =>
    have ht := (num_tags ha hx).2
    cases hl with
    | str t =>
      obtain ⟨al', p', rfl⟩ := val_str hb
      have ts : (UAtom.mk 115 al' (.str p' t)).tag = 115 := rfl
      have e : ∀ f, compareAtoms f a (.mk 115 al' (.str p' t)) = some (-1) := fun f => by
        simp [compareAtoms, ts, ht]
      have r : ((-1 : Int) ≤ 0 ↔ Key.le (.num p) (.str t)) ∧ ((0 : Int) ≤ -1 ↔ Key.le (.str t) (.num p)) := by simp [Key.le]
      exact ⟨⟨_, e _, r⟩, _, e _, fun _ => r, fun p _ h => by cases h⟩
    | num _ y r hy hr =>
      have ht' := (num_tags hb hy).2
      have e : ∀ f, compareAtoms f a b = some (f x y) := fun f => by
        simp [compareAtoms, ht, ht', getFp_val a v x ha hx, getFp_val b w y hb hy]
      have o1 : Fp.lt x y = true ↔ p < r := by
        rw [(place_order x y (isDouble_good _ _ hx) (isDouble_good _ _ hy)).1]
        simp [Ordered, hp, hr]
      have o2 : Fp.lt y x = true ↔ r < p := by
        rw [(place_order y x (isDouble_good _ _ hy) (isDouble_good _ _ hx)).1]
        simp [Ordered, hp, hr]
      refine ⟨⟨_, e _, ?_⟩, _, e _, fun h => ?_, fun p' h h' => ?_⟩
      · simp only [Key.le, indexNum]
        rcases Int.lt_trichotomy p r with h | h | h
        · rw [if_pos (o1.mpr h)]; omega
        · rw [if_neg (fun h' => by have := o1.mp h'; omega), if_neg (fun h' => by have := o2.mp h'; omega)]; omega
        · rw [if_neg (fun h' => by have := o1.mp h'; omega), if_pos (o2.mpr h)]; omega
      · have hne : p ≠ r := fun h' => h p ⟨rfl, by rw [h']⟩
        simp only [Key.le, sortNum]
        split
        · rename_i h'; have := o1.mp h'; omega
        · rename_i h'; have : ¬ p < r := fun h2 => h' (o1.mpr h2)
          omega
      · simp only [Key.num.injEq] at h h'
        rw [sortNum, if_neg (fun h2 => by have := o1.mp h2; omega)]

theorem place_index {l : List UAtom} {vs : List Val} (h : argsVal l = some vs) {i : Nat} {v : Val} (hv : vs[i]? = some v) :
    ∃ a, l[i]? = some a ∧ a.val = some v := by
  have hi := (List.getElem?_eq_some_iff.mp hv).1
  have := ((argsVal_iff _ _).mp h).2 i hi
  rw [hv] at this
  exact Option.bind_eq_some_iff.mp this

theorem range_take {α : Type} (l : List α) : ∀ n, (List.range n).filterMap (fun i => l[i]?) = l.take n
  | 0 => by simp
  | n + 1 => by
    rw [List.range_succ, List.filterMap_append, range_take l n, List.take_add_one]
    cases h : l[n]? <;> simp [h]

/-- The elements at the positions of a list. -/
theorem positions {α : Type} {l : List α} {p : List Nat} (h : p.Perm (List.range l.length)) : (p.filterMap fun i => l[i]?).Perm l := by
  refine (h.filterMap fun i => l[i]?).trans ?_
  rw [range_take, List.take_length]

theorem positions_val {l : List UAtom} {vs : List Val} (h : argsVal l = some vs) : ∀ p : List Nat,
    argsVal (p.filterMap fun i => l[i]?) = some (p.filterMap fun i => vs[i]?)
  | [] => rfl
  | i :: p => by
    have ih := positions_val h p
    have hl := ((argsVal_iff _ _).mp h).1
    by_cases hi : i < vs.length
    · obtain ⟨a, h1, h2⟩ := place_index h (List.getElem?_eq_getElem hi)
      rw [List.filterMap_cons, List.filterMap_cons, h1, List.getElem?_eq_getElem hi]
      simp only [argsVal, h2, ih, Option.bind_some, Option.map_some]
    · rw [List.filterMap_cons, List.filterMap_cons, List.getElem?_eq_none (by omega), List.getElem?_eq_none (by omega)]
      exact ih

/-- The keys of the elements of a list. -/
theorem keys_of {vs : List Val} (h : ∀ v ∈ vs, ∃ k, HasKey v k) : ∃ K : Nat → Key, ∀ i v, vs[i]? = some v → HasKey v (K i) := by
  classical
  refine ⟨fun i => if h : ∃ k, ∀ v, vs[i]? = some v → HasKey v k then h.choose else .num 0, fun i v hv => ?_⟩
  obtain ⟨k, hk⟩ := h v (List.mem_of_getElem? hv)
  have h' : ∃ k, ∀ v, vs[i]? = some v → HasKey v k := ⟨k, fun w hw => by rw [hv, Option.some.injEq] at hw; exact hw ▸ hk⟩
  simp only [dif_pos h']
  exact h'.choose_spec v hv

theorem comparable_keys {l : List UAtom} {vs : List Val} (h : argsVal l = some vs) (hk : ∀ v ∈ vs, ∃ k, HasKey v k) :
    comparable indexNum l = true ∧ comparable sortNum l = true := by
  have key : ∀ a ∈ l, ∃ v k, a.val = some v ∧ HasKey v k := by
    intro a ha
    obtain ⟨i, hi, rfl⟩ := List.mem_iff_getElem.mp ha
    have hl := ((argsVal_iff _ _).mp h).1
    obtain ⟨a', h1, h2⟩ := place_index h (List.getElem?_eq_getElem (show i < vs.length by omega))
    rw [List.getElem?_eq_getElem hi, Option.some.injEq] at h1
    obtain ⟨k, hk⟩ := hk _ (List.getElem_mem (show i < vs.length by omega))
    exact ⟨_, k, by rw [h1]; exact h2, hk⟩
  simp only [comparable, List.all_eq_true]
  refine ⟨fun a ha b hb => ?_, fun a ha b hb => ?_⟩ <;>
  · obtain ⟨v, k, h1, h2⟩ := key a ha
    obtain ⟨w, l, h3, h4⟩ := key b hb
    obtain ⟨⟨c, c1, -⟩, d, d1, -⟩ := compare_keys h1 h3 h2 h4
    first | rw [c1]; rfl | rw [d1]; rfl

theorem compareAt_eq {f : Fp → Fp → Int} {l : List UAtom} {i j : Nat} {a b : UAtom} {c : Int} (ha : l[i]? = some a) (hb : l[j]? = some b)
    (h : compareAtoms f a b = some c) : compareAt f l i j = c := by
  simp [compareAt, ha, hb, h]

/-! ## C69 -/

/-- **C69**: `sort` of numbers and strings, all numbers different and none of them NaN, gives the same values, the numbers first and in ascending
order, then the strings in the order of their bytes.  -/
theorem C69_sort (q : Nat → (Nat → Nat → Int) → List Nat) (hq : Sorts q) (argv : List Ar) (vs : List Val)
    (h : Holds (some (argv.flatMap fun a => a.getD [])) vs) (hc : ∀ v ∈ vs, Copyable v) (hk : ∀ v ∈ vs, ∃ k, HasKey v k)
    (hd : ∀ (i j : Nat) v w p, i ≠ j → vs[i]? = some v → vs[j]? = some w → ¬ (HasKey v (.num p) ∧ HasKey w (.num p))) :
    ∃ out ws, sortF q argv = some (0, some out) ∧ Holds (some out) ws ∧ ws.Perm vs ∧ ws.Pairwise Before := by
  obtain ⟨l, h1, h2⟩ := mapM_copyAtom _ _ h hc
  rw [Option.getD_some] at h1
  obtain ⟨K, hK⟩ := keys_of hk
  have hl := ((argsVal_iff _ _).mp h2).1
  have hf : InKeyOrder l.length (compareAt sortNum l) K := by
    intro i j hi hj e
    have vi := List.getElem?_eq_getElem (show i < vs.length by omega)
    have vj := List.getElem?_eq_getElem (show j < vs.length by omega)
    obtain ⟨a, a1, a2⟩ := place_index h2 vi
    obtain ⟨b, b1, b2⟩ := place_index h2 vj
    obtain ⟨-, c, c1, c2, -⟩ := compare_keys a2 b2 (hK _ _ vi) (hK _ _ vj)
    rw [compareAt_eq a1 b1 c1]
    refine c2 fun p ⟨e1, e2⟩ => hd i j _ _ p e vi vj ⟨?_, ?_⟩
    · rw [← e1]; exact hK _ _ vi
    · rw [← e2]; exact hK _ _ vj
  obtain ⟨p, p1, p2, p3⟩ := sortBy_spec hq hf
  refine ⟨_, p.filterMap fun i => vs[i]?, by rw [sortF, h1, Option.bind_some, if_pos (comparable_keys h2 hk).2, p1]; rfl, positions_val h2 p,
    positions (hl ▸ p2), ?_⟩
  rw [List.pairwise_filterMap]
  refine p3.imp fun {i j} hij v hv w hw => ⟨_, _, hK i v hv, hK j w hw, hij⟩

/-- **C69** (negative): whatever `qsort` does, `sort` of a list in which a number occurs twice is undefined: the comparison function says of each of
two equal numbers that it is the greater one, which C does not allow. -/
theorem C69_sort_equal_fails (q : Nat → (Nat → Nat → Int) → List Nat) (argv : List Ar) (vs : List Val)
    (h : Holds (some (argv.flatMap fun a => a.getD [])) vs) (hc : ∀ v ∈ vs, Copyable v) (i j : Nat) (v w : Val) (p : Int)
    (hi : vs[i]? = some v) (hj : vs[j]? = some w) (hij : i ≠ j) (hv : HasKey v (.num p)) (hw : HasKey w (.num p)) : sortF q argv = none := by
  obtain ⟨l, h1, h2⟩ := mapM_copyAtom _ _ h hc
  rw [Option.getD_some] at h1
  obtain ⟨a, a1, a2⟩ := place_index h2 hi
  obtain ⟨b, b1, b2⟩ := place_index h2 hj
  obtain ⟨-, c, c1, -, c2⟩ := compare_keys a2 b2 hv hw
  obtain ⟨-, d, d1, -, d2⟩ := compare_keys b2 a2 hw hv
  have hno : orders l.length (compareAt sortNum l) ≠ true := by
    intro ho
    have := ((orders_iff _ _).mp ho).1 i j (List.getElem?_eq_some_iff.mp a1).1 (List.getElem?_eq_some_iff.mp b1).1 hij
    rw [compareAt_eq a1 b1 c1, compareAt_eq b1 a1 d1, c2 p rfl rfl, d2 p rfl rfl] at this
    exact absurd this (by decide)
  rw [sortF, h1, Option.bind_some]
  split
  · rw [sortBy, if_neg hno]; rfl
  · rfl

/-- **C69**: `sortidx` of a list of numbers and strings, none of them NaN and not empty, gives the positions of the elements in the order in which
`sort` would put them. -/
theorem C69_sortidx (q : Nat → (Nat → Nat → Int) → List Nat) (hq : Sorts q) (a : Ar) (rest : List Ar) (vs : List Val)
    (h : Holds a vs) (hc : ∀ v ∈ vs, Copyable v) (hk : ∀ v ∈ vs, ∃ k, HasKey v k) (hn : vs ≠ []) :
    ∃ (out : List UAtom) (p : List Nat), sortIdx q (a :: rest) = some (0, some out) ∧ Holds (some out) (p.map fun i => ITy.i32.val (i : Nat)) ∧
      p.Perm (List.range vs.length) ∧ (p.filterMap fun i => vs[i]?).Pairwise Before := by
  obtain ⟨l, h1, h2⟩ := mapM_copyAtom _ _ h hc
  obtain ⟨K, hK⟩ := keys_of hk
  have hl := ((argsVal_iff _ _).mp h2).1
  have hla : len a = vs.length := holds_len h
  have hf : InKeyOrder l.length (compareAt indexNum l) K := by
    intro i j hi hj e
    have vi := List.getElem?_eq_getElem (show i < vs.length by omega)
    have vj := List.getElem?_eq_getElem (show j < vs.length by omega)
    obtain ⟨a, a1, a2⟩ := place_index h2 vi
    obtain ⟨b, b1, b2⟩ := place_index h2 vj
    obtain ⟨⟨c, c1, c2⟩, -⟩ := compare_keys a2 b2 (hK _ _ vi) (hK _ _ vj)
    rw [compareAt_eq a1 b1 c1]
    exact c2
  obtain ⟨p, p1, p2, p3⟩ := sortBy_spec hq hf
  have hpl : p.length = len a := by rw [p2.length_eq, List.length_range, hl, hla]
  obtain ⟨out, o1, o2⟩ := forN_set (p.map fun i => ITy.i32.val (i : Nat)) (fun i out => setTo out i (·.setInt32 (p.getD i 0))) (by
    intro i v out hv
    rw [List.getElem?_map, Option.map_eq_some_iff] at hv
    obtain ⟨k, hk, rfl⟩ := hv
    obtain ⟨u, u1, u2⟩ := setU_fresh .i32 k
    refine ⟨_, u, rfl, ?_, u2⟩
    rw [List.getD_eq_getElem?_getD, hk]
    exact u1)
  rw [List.length_map, hpl] at o1
  have hne : ¬ len a = 0 := by rw [hla]; exact fun h' => hn (List.length_eq_zero_iff.mp h')
  refine ⟨out, p, ?_, o2, by rw [← hl]; exact p2, ?_⟩
  · rw [sortIdx, if_neg hne, h1, Option.bind_some, if_pos (comparable_keys h2 hk).1, p1, Option.bind_some, o1]
    rfl
  · rw [List.pairwise_filterMap]
    refine p3.imp fun {i j} hij v hv w hw => ⟨_, _, hK i v hv, hK j w hw, hij⟩

theorem medianNum_keys {x y : Fp} {p r : Int} (gx : Fp.Good f64 x) (gy : Fp.Good f64 y) (hp : place x = some p) (hr : place y = some r) :
    (medianNum x y ≤ 0 ↔ p ≤ r) ∧ (0 ≤ medianNum x y ↔ r ≤ p) := by
  obtain ⟨o1, -, o2⟩ := place_order x y gx gy
  have o1 : Fp.lt x y = true ↔ p < r := by rw [o1]; simp [Ordered, hp, hr]
  have o2 : Fp.eq x y = true ↔ p = r := by rw [o2]; simp [Ordered, hp, hr]
  rw [medianNum]
  rcases Int.lt_trichotomy p r with h | h | h
  · rw [if_pos (o1.mpr h)]; omega
  · rw [if_neg (fun h' => by have := o1.mp h'; omega), if_pos (o2.mpr h)]; omega
  · rw [if_neg (fun h' => by have := o1.mp h'; omega), if_neg (fun h' => by have := o2.mp h'; omega)]; omega

theorem numbers_mapM {a : Ar} {vs : List Val} {xs : List Fp} (h : Holds a vs) (hn : Numbers vs xs) :
    (List.range (len a)).mapM (fun i => fpOf (at? a i)) = some xs := by
  rw [mapM_some_iff]
  apply List.ext_getElem?
  intro i
  rw [holds_len h, hn.1, List.getElem?_map, List.getElem?_map]
  by_cases hi : i < xs.length
  · obtain ⟨-, -, -, -, -, -, e⟩ := numbers_at h hn (List.getElem?_eq_getElem hi)
    rw [List.getElem?_range hi, List.getElem?_eq_getElem hi, Option.map_some, Option.map_some, e]
  · rw [List.getElem?_eq_none (by simpa using hi), List.getElem?_eq_none (by omega)]
    rfl

/-- **C69**: `median` of numbers, none of them NaN, is the number in the middle of the list in ascending order; of an even number of them, the
two in the middle are added and divided by two, both rounded correctly. -/
theorem C69_median (q : Nat → (Nat → Nat → Int) → List Nat) (hq : Sorts q) (a : Ar) (rest : List Ar) (vs : List Val) (xs : List Fp)
    (h : Holds a vs) (hn : Numbers vs xs) (hx : ∀ x ∈ xs, x ≠ .nan) (hne : xs ≠ []) :
    ∃ (out : List UAtom) (w : Val) (ys : List Fp) (r : Fp), median q (a :: rest) = some (0, some out) ∧ Holds (some out) [w] ∧ NumVal w r ∧
      ys.Perm xs ∧ ys.Pairwise (Ordered (· ≤ ·)) ∧ (xs.length % 2 = 1 → ys[xs.length / 2]? = some r) ∧
      (xs.length % 2 = 0 → ∃ y z s two, ys[xs.length / 2 - 1]? = some y ∧ ys[xs.length / 2]? = some z ∧ SumOf f64 y z s ∧ IntDouble 2 two ∧
        QuotientOf f64 s two r) := by
  have hla : len a = xs.length := (holds_len h).trans hn.1
  have hpos : 0 < xs.length := List.length_pos_iff.mpr hne
  have good : ∀ (i : Nat) x, xs[i]? = some x → Fp.Good f64 x := by
    intro i x hi
    obtain ⟨-, v, -, -, -, e, -⟩ := numbers_at h hn hi
    exact isDouble_good _ _ e
  have pl : ∀ (i : Nat) x, xs[i]? = some x → ∃ p, place x = some p := by
    intro i x hi
    have := hx x (List.mem_of_getElem? hi)
    cases x with
    | nan => exact absurd rfl this
    | inf s => exact ⟨_, rfl⟩
    | fin s m => exact ⟨_, rfl⟩
  let K : Nat → Key := fun i => .num (((xs[i]?).bind place).getD 0)
  have hf : InKeyOrder (len a) (fun i j => medianNum (xs.getD i .nan) (xs.getD j .nan)) K := by
    intro i j hi hj e
    have xi := List.getElem?_eq_getElem (show i < xs.length by omega)
    have xj := List.getElem?_eq_getElem (show j < xs.length by omega)
    obtain ⟨p, hp⟩ := pl _ _ xi
    obtain ⟨r, hr⟩ := pl _ _ xj
    have := medianNum_keys (good _ _ xi) (good _ _ xj) hp hr
    simpa only [K, List.getD_eq_getElem?_getD, xi, xj, Option.getD_some, Option.bind_some, hp, hr, Key.le] using this
  obtain ⟨p, p1, p2, p3⟩ := sortBy_spec hq hf
  rw [hla] at p2
  have q1 := positions p2
  let ys := p.filterMap fun i => xs[i]?
  have hyl : ys.length = xs.length := q1.length_eq
  have q2 : ys.Pairwise (Ordered (· ≤ ·)) := by
    rw [List.pairwise_filterMap]
    refine p3.imp fun {i j} hij x hi y hj => ?_
    obtain ⟨p, hp⟩ := pl _ _ hi
    obtain ⟨r, hr⟩ := pl _ _ hj
    simp only [K, hi, hj, Option.bind_some, hp, hr, Option.getD_some, Key.le] at hij
    exact ⟨p, r, hp, hr, hij⟩
  have gy : ∀ (i : Nat) y, ys[i]? = some y → Fp.Good f64 y := by
    intro i y hi
    obtain ⟨j, hj, e⟩ := List.mem_iff_getElem.mp (q1.mem_iff.mp (List.mem_of_getElem? hi))
    exact good j y (by rw [List.getElem?_eq_getElem hj, e])
  have key : ∀ x, Fp.Good f64 x → (if len a % 2 = 0 then
            (ys[(len a - 1) / 2]?).bind fun left => (ys[(len a - 1) / 2 + 1]?).map fun right =>
              Fp.div f64 (Fp.add f64 left right) (Fp.ofInt f64 2)
          else ys[(len a - 1) / 2]?) = some x →
      ∃ (out : List UAtom) (w : Val), median q (a :: rest) = some (0, some out) ∧ Holds (some out) [w] ∧ NumVal w x := by
    intro x gx hx'
    obtain ⟨u, w, u1, u2, u3⟩ := setDouble_num gx
    refine ⟨[u], w, ?_, ?_, u3⟩
    · rw [median, numbers_mapM h hn, Option.bind_some, p1, Option.bind_some]
      simp only []
      rw [if_neg (by omega)]
      refine (congrArg (fun o => Option.bind o _) hx').trans ?_
      rw [Option.bind_some]
      simp only [setTo, mk, List.replicate, List.getElem?_cons_zero, Option.bind_some, u1, Option.map_some, List.set_cons_zero]
    · simp only [Holds, Option.getD_some, argsVal, u2, Option.bind_some, Option.map_some]
  rcases Nat.mod_two_eq_zero_or_one xs.length with e | e
  · have y1 := List.getElem?_eq_getElem (show (xs.length - 1) / 2 < ys.length by omega)
    have y2 := List.getElem?_eq_getElem (show (xs.length - 1) / 2 + 1 < ys.length by omega)
    obtain ⟨out, w, k1, k2, k3⟩ := key (Fp.div f64 (Fp.add f64 _ _) (Fp.ofInt f64 2)) (Fp.good_div f64 (by decide) _ _) (by
      rw [hla, if_pos e, y1, y2]; rfl)
    refine ⟨out, w, ys, _, k1, k2, k3, q1, q2, fun h' => by omega, fun _ => ⟨_, _, _, _, ?_, ?_, Fp.sum_of f64 (by decide) _ _, ofInt_intDouble 2,
      Fp.quotient_of f64 (by decide) _ _⟩⟩
    · rw [show xs.length / 2 - 1 = (xs.length - 1) / 2 by omega]; exact y1
    · rw [show xs.length / 2 = (xs.length - 1) / 2 + 1 by omega]; exact y2
  · have y1 := List.getElem?_eq_getElem (show (xs.length - 1) / 2 < ys.length by omega)
    obtain ⟨out, w, k1, k2, k3⟩ := key _ (gy _ _ y1) (by rw [hla, if_neg (by omega)]; exact y1)
    refine ⟨out, w, ys, _, k1, k2, k3, q1, q2, fun _ => ?_, fun h' => by omega⟩
    rw [show xs.length / 2 = (xs.length - 1) / 2 by omega]; exact y1

/-- **C69** (negative): `median` and `sortidx` of an empty list are undefined. -/
theorem C69_empty_fails (q : Nat → (Nat → Nat → Int) → List Nat) (a : Ar) (rest : List Ar) (h : Holds a []) :
    median q (a :: rest) = none ∧ sortIdx q (a :: rest) = none := by
  have hl : len a = 0 := holds_len h
  refine ⟨?_, by rw [sortIdx, if_pos hl]⟩
  rw [median, hl]
  simp only [List.range_zero, List.mapM_nil, Option.pure_def, Option.bind_some]
  cases sortBy q 0 _ <;> rfl

/-! ## A `qsort` -/

/-- Insertion sort. -/
def insertBy (c : Nat → Nat → Int) (i : Nat) : List Nat → List Nat
  | [] => [i]
  | j :: l => if c i j ≤ 0 then i :: j :: l else j :: insertBy c i l

def insertionSort (n : Nat) (c : Nat → Nat → Int) : List Nat := (List.range n).foldr (insertBy c) []

theorem insertBy_perm (c : Nat → Nat → Int) (i : Nat) : ∀ l, (insertBy c i l).Perm (i :: l)
  | [] => .refl _
  | j :: l => by
    rw [insertBy]
    split
    · exact .refl _
    · exact ((insertBy_perm c i l).cons j).trans (.swap i j l)

theorem insertBy_sorted (c : Nat → Nat → Int) (n i : Nat) (hi : i < n)
    (h1 : ∀ i j, i < n → j < n → i ≠ j → (c i j < 0 ↔ 0 < c j i) ∧ (c i j = 0 ↔ c j i = 0))
    (h2 : ∀ i j k, i < n → j < n → k < n → i ≠ j → j ≠ k → i ≠ k → c i j ≤ 0 → c j k ≤ 0 → c i k ≤ 0) : ∀ l : List Nat,
    (∀ j ∈ l, j < n) → (i :: l).Nodup → l.Pairwise (fun i j => c i j ≤ 0) → (insertBy c i l).Pairwise fun i j => c i j ≤ 0
  | [], _, _, _ => by simp [insertBy]
  | j :: l, hl, hd, hp => by
    rw [List.pairwise_cons] at hp
    simp only [List.nodup_cons, List.mem_cons, not_or] at hd
    obtain ⟨⟨d1, d2⟩, d3, d4⟩ := hd
    rw [insertBy]
    split
    · rename_i h
      rw [List.pairwise_cons, List.pairwise_cons]
      refine ⟨fun k hk => ?_, hp⟩
      rcases List.mem_cons.mp hk with rfl | hk'
      · exact h
      · exact h2 i j k hi (hl j (by simp)) (hl k hk) d1 (fun e => d3 (e ▸ hk')) (fun e => d2 (e ▸ hk')) h (hp.1 k hk')
    · rename_i h
      rw [List.pairwise_cons]
      refine ⟨fun k hk => ?_, insertBy_sorted c n i hi h1 h2 l (fun k hk => hl k (by simp [hk])) (by simp [d2, d4]) hp.2⟩
      rcases List.mem_cons.mp ((insertBy_perm c i l).mem_iff.mp hk) with rfl | hk'
      · have := h1 k j hi (hl j (by simp)) d1
        have := h1 j k (hl j (by simp)) hi (Ne.symm d1)
        omega
      · exact hp.1 k hk'

/-- Insertion sort is a `qsort`. -/
theorem sorts_insertion : Sorts insertionSort := by
  intro n c h1 h2
  have key : ∀ l : List Nat, l.Nodup → (∀ j ∈ l, j < n) → (l.foldr (insertBy c) []).Perm l ∧ (l.foldr (insertBy c) []).Pairwise fun i j => c i j ≤ 0 := by
    intro l
    induction l with
    | nil => simp
    | cons i l ih =>
      intro hd hl
      rw [List.nodup_cons] at hd
      obtain ⟨i1, i2⟩ := ih hd.2 (fun j hj => hl j (by simp [hj]))
      rw [List.foldr_cons]
      refine ⟨(insertBy_perm c i _).trans (i1.cons i), insertBy_sorted c n i (hl i (by simp)) h1 h2 _ (fun j hj => hl j (by simp [i1.mem_iff.mp hj])) ?_ i2⟩
      rw [List.nodup_cons]
      exact ⟨fun h => hd.1 (i1.mem_iff.mp h), i1.nodup_iff.mpr hd.2⟩
  exact key _ List.nodup_range (fun j hj => List.mem_range.mp hj)

-- `sort(3, "b", -1, "a")`
example : (sortF insertionSort [some [.mk 105 false (.bits 3), .mk 115 true (.str 0 [98])], some [.mk 105 false (.bits 4294967295), .mk 115 true (.str 1 [97])]]).map
    (fun r => (r.1, r.2.map fun l => (argsVal l).map (·.map fun | .str s => s | .num t b => [t, UInt8.ofNat b] | _ => []))) =
    some (0, some (some [[105, 255], [105, 3], [97], [98]])) := by decide +kernel

-- `sort(3, 3)`
example : sortF insertionSort [some [.mk 105 false (.bits 3), .mk 105 false (.bits 3)]] = none := by
  rw [← Option.isNone_iff_eq_none]; decide +kernel

-- `sortidx([3, 3, -1])`
example : (sortIdx insertionSort [some [.mk 105 false (.bits 3), .mk 105 false (.bits 3), .mk 105 false (.bits 4294967295)]]).map
    (fun r => (r.1, r.2.map (·.map (fun a => (a.tag, a.w.raw))))) = some (0, some [(105, 2), (105, 0), (105, 1)]) := by decide +kernel

-- `median([4, 1, 3, 2])` is 2.5
example : (median insertionSort [some [.mk 105 false (.bits 4), .mk 105 false (.bits 1), .mk 105 false (.bits 3), .mk 105 false (.bits 2)]]).map
    (fun r => (r.1, r.2.map (·.map (fun a => (a.tag, a.w.raw))))) = some (0, some [(100, 0x4004000000000000)]) := by decide +kernel

theorem str_key {s : Bytes} {p : Int} (h : HasKey (.str s) (.num p)) : False := by
  obtain ⟨_, x, _, hx, -⟩ := h
  generalize hv : Val.str s = v at hx
  cases hx with
  | double b => cases hv
  | float b => cases hv
  | int t n _ _ _ => cases t <;> cases hv
  | bool b _ _ => cases b <;> cases hv

-- the hypotheses of `C69_sort`
example (hq : Sorts insertionSort) : ∃ out ws, sortF insertionSort [some [.mk 115 true (.str 0 [98]), .mk 105 false (.bits 3)]] = some (0, some out) ∧
    Holds (some out) ws ∧ ws.Perm [.str [98], ITy.i32.val 3] ∧ ws.Pairwise Before := by
  have h3 : HasKey (ITy.i32.val 3) (.num (3 * 2 ^ 1074 : Nat)) :=
    .num _ (Fp.ofInt f64 3) _ (.int .i32 3 _ (by decide) (ofInt_intDouble 3)) (by decide +kernel)
  refine C69_sort insertionSort hq _ [.str [98], ITy.i32.val 3] rfl ?_ ?_ ?_
  · intro v hv
    simp only [List.mem_cons, List.not_mem_nil, or_false] at hv
    rcases hv with rfl | rfl
    · show sizeVal (.str [98]) < _; decide
    · show sizeVal (.num 105 3) < _; simp [sizeVal]
  · intro v hv
    simp only [List.mem_cons, List.not_mem_nil, or_false] at hv
    rcases hv with rfl | rfl
    · exact ⟨_, .str _⟩
    · exact ⟨_, h3⟩
  · rintro i j v w p e hi hj ⟨k1, k2⟩
    rcases i with _ | _ | i <;> rcases j with _ | _ | j <;> simp at hi hj e
    · exact str_key (hi ▸ k1)
    · exact str_key (hj ▸ k2)

end Libo.Props
