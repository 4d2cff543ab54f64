import Verif.ExprArith
import Verif.ExprListLemmas
/-!
# C35, C36: operators of the expression language on lists and on integers
-/

namespace Libo.Props
open Libo Libo.Expr

/-! ## Lists -/

theorem loop2_ok (f : Op) (x y : Nat → Option UAtom) (res : Option UAtom × Option UAtom → UAtom) :
    ∀ (suf pre : List (Option UAtom × Option UAtom)), (∀ i p, (pre ++ suf)[i]? = some p → p = (x i, y i)) →
      (∀ p ∈ suf, f p.1 p.2 .fresh = some (0, res p)) →
      loop2 f x y suf.length pre.length (pre.map res ++ Expr.mk suf.length) = some (0, some ((pre ++ suf).map res))
  | [], pre, _, _ => by simp [loop2, Expr.mk]
  | p :: suf, pre, hp, h => by
    have e := hp pre.length p (by simp)
    have hg : (pre.map res ++ Expr.mk (suf.length + 1)).getD pre.length .fresh = .fresh := by
      simp [Expr.mk]
    have hs : (pre.map res ++ Expr.mk (suf.length + 1)).set pre.length (res p) = (pre ++ [p]).map res ++ Expr.mk suf.length := by
      rw [List.set_append_right _ _ (by simp)]
      simp [Expr.mk, List.replicate_succ]
    have h1 := h p (by simp)
    rw [e] at h1
    simp only [List.length_cons, loop2, hg, h1, Option.bind_some, ne_eq, not_true_eq_false, if_false]
    rw [← e, hs]
    have ih := loop2_ok f x y res suf (pre ++ [p]) (by simpa using hp) (fun q hq => h q (by simp [hq]))
    simpa using ih

theorem loop2_err (f : Op) (x y : Nat → Option UAtom) (q : Option UAtom × Option UAtom) (post : List (Option UAtom × Option UAtom))
    (c : Int) (r : UAtom) (hc : c ≠ 0) (hq : f q.1 q.2 .fresh = some (c, r)) :
    ∀ (suf pre : List (Option UAtom × Option UAtom)) (out : List UAtom),
      (∀ i p, (pre ++ (suf ++ q :: post))[i]? = some p → p = (x i, y i)) →
      (∀ p ∈ suf, ∃ u, f p.1 p.2 .fresh = some (0, u)) →
      (∀ j, pre.length ≤ j → out.getD j .fresh = .fresh) →
      ∃ o, loop2 f x y (suf ++ q :: post).length pre.length out = some (c, some o)
  | [], pre, out, hp, h, ho => by
    have e := hp pre.length q (by simp)
    rw [e] at hq
    simp only [List.nil_append, List.length_cons, loop2, ho _ (Nat.le_refl _), hq, Option.bind_some, if_pos hc]
    exact ⟨_, rfl⟩
  | p :: suf, pre, out, hp, h, ho => by
    have e := hp pre.length p (by simp)
    obtain ⟨u, h1⟩ := h p (by simp)
    rw [e] at h1
    obtain ⟨o, ih⟩ := loop2_err f x y q post c r hc hq suf (pre ++ [p]) (out.set pre.length u) (by simpa using hp)
      (fun q hq => h q (by simp [hq])) (fun j hj => by
        simp only [List.length_append, List.length_singleton] at hj
        rw [List.getD_eq_getElem?_getD, List.getElem?_set_ne (by omega), ← List.getD_eq_getElem?_getD]
        exact ho j (by omega))
    refine ⟨o, ?_⟩
    simp only [List.cons_append, List.length_cons, loop2, ho _ (Nat.le_refl _), h1, Option.bind_some, ne_eq, not_true_eq_false,
      if_false]
    simpa using ih

/-- The pairs with pointers in place of atoms. -/
def ptrs (l : List (UAtom × UAtom)) : List (Option UAtom × Option UAtom) := l.map fun p => (some p.1, some p.2)

/-- The loop that runs: `ps` are the pairs. -/
theorem arg2_loop (f : Op) (a b : Ar) (h : ¬ (len a = 1 ∧ len b = 0) ∧ ¬ (len a = 0 ∧ len b = 1)) :
    ∃ x y, arg2 f [a, b] = loop2 f x y (broadcast (a.getD []) (b.getD [])).length 0 (Expr.mk (broadcast (a.getD []) (b.getD [])).length) ∧
      ∀ i p, (ptrs (broadcast (a.getD []) (b.getD [])))[i]? = some p → p = (x i, y i) := by
  have e : arg2 f [a, b] = arg2 f [some (a.getD []), some (b.getD [])] := by cases a <;> cases b <;> rfl
  rw [e]
  have h : ¬ ((a.getD []).length = 1 ∧ (b.getD []).length = 0) ∧ ¬ ((a.getD []).length = 0 ∧ (b.getD []).length = 1) := h
  clear e
  rename_i h0; clear h0
  generalize a.getD [] = as at *
  generalize b.getD [] = bs at *
  clear a b
  have e : arg2 f [some as, some bs] =
      if as.length = 1 then loop2 f (fun _ => as[0]?) (fun i => bs[i]?) (if as.length > bs.length then as.length else bs.length) 0
        (Expr.mk (if as.length > bs.length then as.length else bs.length))
      else if bs.length = 1 then loop2 f (fun i => as[i]?) (fun _ => bs[0]?)
        (if as.length > bs.length then as.length else bs.length) 0 (Expr.mk (if as.length > bs.length then as.length else bs.length))
      else loop2 f (fun i => as[i]?) (fun i => bs[i]?) (if as.length > bs.length then bs.length else as.length) 0
        (Expr.mk (if as.length > bs.length then bs.length else as.length)) := rfl
  rw [e]
  clear e
  by_cases h1 : as.length = 1
  · obtain ⟨x, rfl⟩ := List.length_eq_one_iff.mp h1
    refine ⟨fun _ => some x, fun i => bs[i]?, ?_, ?_⟩
    · have hb : bs.length ≠ 0 := by intro e; exact h.1 ⟨h1, e⟩
      have : (if ([x] : List UAtom).length > bs.length then ([x] : List UAtom).length else bs.length) = bs.length := by
        rw [if_neg (by simp only [List.length_singleton]; omega)]
      simp only [broadcast, List.length_map]
      rw [if_pos h1, this]
      simp
    · intro i p hp
      simp only [ptrs, broadcast, List.map_map, List.getElem?_map, Option.map_eq_some_iff, Function.comp] at hp
      obtain ⟨y, hy, rfl⟩ := hp
      simp only [hy]
  · by_cases h2 : bs.length = 1
    · obtain ⟨y, rfl⟩ := List.length_eq_one_iff.mp h2
      have hbr : broadcast as [y] = as.map fun x => (x, y) := by
        unfold broadcast; split
        · simp_all
        · rename_i e; obtain rfl : y = _ := by simpa using e
          rfl
        · rename_i e; simp_all
      refine ⟨fun i => as[i]?, fun _ => some y, ?_, ?_⟩
      · have ha : as.length ≠ 0 := by intro e; exact h.2 ⟨e, h2⟩
        have : (if as.length > ([y] : List UAtom).length then as.length else ([y] : List UAtom).length) = as.length := by
          rw [if_pos (by simp only [List.length_singleton]; omega)]
        rw [hbr, if_neg h1, if_pos h2, this]
        simp
      · intro i p hp
        rw [hbr] at hp
        simp only [ptrs, List.map_map, List.getElem?_map, Option.map_eq_some_iff, Function.comp] at hp
        obtain ⟨x, hx, rfl⟩ := hp
        simp only [hx]
    · have hbr : broadcast as bs = as.zip bs := by
        unfold broadcast; split
        · simp at h1
        · simp at h2
        · rfl
      refine ⟨fun i => as[i]?, fun i => bs[i]?, ?_, ?_⟩
      · rw [hbr, if_neg h1, if_neg h2, List.length_zip]
        have : (if as.length > bs.length then bs.length else as.length) = min as.length bs.length := by split <;> omega
        rw [this]
      · intro i p hp
        rw [hbr] at hp
        simp only [ptrs, List.getElem?_map, Option.map_eq_some_iff] at hp
        obtain ⟨q, hq, rfl⟩ := hp
        rw [List.getElem?_zip_eq_some] at hq
        simp only [hq.1, hq.2]

/-- **C35** (partial: not for one element with none). If the operator succeeds on all pairs, the result is the list of its
results.  In full: also a list of one element with an empty list gives an empty list. -/
theorem C35_broadcast_partial (f : Op) (a b : Ar) (h : ¬ (len a = 1 ∧ len b = 0) ∧ ¬ (len a = 0 ∧ len b = 1))
    (res : UAtom × UAtom → UAtom) (hf : ∀ p ∈ broadcast (a.getD []) (b.getD []), f (some p.1) (some p.2) .fresh = some (0, res p)) :
    arg2 f [a, b] = some (0, some ((broadcast (a.getD []) (b.getD [])).map res)) := by
  obtain ⟨x, y, h1, h2⟩ := arg2_loop f a b h
  generalize hl : broadcast (a.getD []) (b.getD []) = l at *
  have key := loop2_ok f x y (fun p => res (p.1.getD .fresh, p.2.getD .fresh)) (ptrs l) [] (by simpa using h2) (by
    intro p hp
    simp only [ptrs, List.mem_map] at hp
    obtain ⟨q, hq, rfl⟩ := hp
    exact hf q hq)
  have e : (ptrs l).map (fun p => res (p.1.getD .fresh, p.2.getD .fresh)) = l.map res := by
    simp [ptrs, Function.comp_def]
  simp only [List.nil_append, e, List.map_nil, List.length_nil] at key
  rw [h1, ← key]
  simp [ptrs]

/-- **C35.** The first pair the operator fails on makes the whole operation fail with the same code. -/
theorem C35_error (f : Op) (a b : Ar) (h : ¬ (len a = 1 ∧ len b = 0) ∧ ¬ (len a = 0 ∧ len b = 1))
    (pre post : List (UAtom × UAtom)) (q : UAtom × UAtom) (hb : broadcast (a.getD []) (b.getD []) = pre ++ q :: post)
    (hf : ∀ p ∈ pre, ∃ u, f (some p.1) (some p.2) .fresh = some (0, u)) (c : Int) (r : UAtom)
    (hq : f (some q.1) (some q.2) .fresh = some (c, r)) (hc : c ≠ 0) :
    ∃ o, arg2 f [a, b] = some (c, o) := by
  obtain ⟨x, y, h1, h2⟩ := arg2_loop f a b h
  rw [hb] at h1 h2
  obtain ⟨o, key⟩ := loop2_err f x y (some q.1, some q.2) (ptrs post) c r hc hq (ptrs pre) [] (Expr.mk (pre ++ q :: post).length)
    (by simpa [ptrs] using h2) (by
      intro p hp
      simp only [ptrs, List.mem_map] at hp
      obtain ⟨q, hq, rfl⟩ := hp
      exact hf q hq) (fun j _ => by
        simp only [Expr.mk, List.getD_eq_getElem?_getD, List.getElem?_replicate]
        split <;> rfl)
  refine ⟨some o, ?_⟩
  rw [h1]
  simp only [ptrs, List.length_append, List.length_map, List.length_cons, List.length_nil] at key ⊢
  exact key

theorem broadcast_map {α β γ δ : Type} (f : α → γ) (g : β → δ) (xs : List α) (ys : List β) :
    broadcast (xs.map f) (ys.map g) = (broadcast xs ys).map fun p => (f p.1, g p.2) := by
  match xs, ys with
  | [x], ys => simp [broadcast, Function.comp_def]
  | [], [] => rfl
  | [], [y] => rfl
  | [], y :: y' :: ys => rfl
  | x :: x' :: xs, [] => rfl
  | x :: x' :: xs, [y] => simp [broadcast, Function.comp_def]
  | x :: x' :: xs, y :: y' :: ys => simp [broadcast, List.zip_map]

theorem mem_broadcast {α β : Type} {xs : List α} {ys : List β} {p : α × β} (h : p ∈ broadcast xs ys) : p.1 ∈ xs ∧ p.2 ∈ ys := by
  unfold broadcast at h
  split at h
  · simp only [List.mem_map] at h; obtain ⟨y, hy, rfl⟩ := h; exact ⟨by simp, hy⟩
  · simp only [List.mem_map] at h; obtain ⟨y, hy, rfl⟩ := h; exact ⟨hy, by simp⟩
  · exact List.of_mem_zip h

/-- **C35** for values: an operator that computes `F` on values computes the broadcast of `F` on lists of values. -/
theorem C35_values (f : Op) (F : Val → Val → Val) (a b : Ar) (vs ws : List Val) (ha : Holds a vs) (hb : Holds b ws)
    (h : ¬ (vs.length = 1 ∧ ws.length = 0) ∧ ¬ (vs.length = 0 ∧ ws.length = 1))
    (hf : ∀ x y v w, x.val = some v → y.val = some w → v ∈ vs → w ∈ ws →
      ∃ u, f (some x) (some y) .fresh = some (0, u) ∧ u.val = some (F v w)) :
    ∃ o, arg2 f [a, b] = some (0, some o) ∧ Holds (some o) ((broadcast vs ws).map fun p => F p.1 p.2) := by
  have hval : ∀ {a : Ar} {vs : List Val}, Holds a vs → vs = (a.getD []).map (fun x => x.val.getD (.bare 0)) ∧
      ∀ x ∈ a.getD [], ∃ v ∈ vs, x.val = some v := by
    intro a vs h
    obtain ⟨h1, h2⟩ := (argsVal_iff _ _).mp h
    constructor
    · apply List.ext_getElem (by simp [h1])
      intro i hi hi'
      have hi2 : i < (a.getD []).length := by omega
      have := h2 i hi
      rw [vat, List.getElem?_eq_getElem hi, List.getElem?_eq_getElem hi2] at this
      simp only [Option.bind_some] at this
      simp [this]
    · intro x hx
      obtain ⟨i, hi, rfl⟩ := List.getElem_of_mem hx
      have := h2 i (by omega)
      rw [vat, List.getElem?_eq_getElem hi, List.getElem?_eq_getElem (by omega : i < vs.length)] at this
      exact ⟨_, List.getElem_mem (by omega), this⟩
  obtain ⟨ea, ma⟩ := hval ha
  obtain ⟨eb, mb⟩ := hval hb
  have la := holds_len ha
  have lb := holds_len hb
  let res : UAtom × UAtom → UAtom := fun p => match f (some p.1) (some p.2) .fresh with | some r => r.2 | none => .fresh
  have hres : ∀ p ∈ broadcast (a.getD []) (b.getD []), f (some p.1) (some p.2) .fresh = some (0, res p) ∧
      (res p).val = some (F (p.1.val.getD (.bare 0)) (p.2.val.getD (.bare 0))) := by
    intro p hp
    obtain ⟨m1, m2⟩ := mem_broadcast hp
    obtain ⟨v, hv, h1⟩ := ma _ m1
    obtain ⟨w, hw, h2⟩ := mb _ m2
    obtain ⟨u, h3, h4⟩ := hf p.1 p.2 v w h1 h2 hv hw
    refine ⟨?_, ?_⟩ <;> simp only [res, h3, h1, h2, h4, Option.getD_some]
  refine ⟨_, C35_broadcast_partial f a b (by rw [la, lb]; exact h) res (fun p hp => (hres p hp).1), ?_⟩
  have : (broadcast vs ws).map (fun p => F p.1 p.2) = (broadcast (a.getD []) (b.getD [])).map
      (fun p => F (p.1.val.getD (.bare 0)) (p.2.val.getD (.bare 0))) := by
    rw [ea, eb, broadcast_map, List.map_map]; rfl
  rw [this]
  refine (argsVal_iff _ _).mpr ⟨by simp, fun i hi => ?_⟩
  simp only [Option.getD_some, List.length_map, vat] at hi ⊢
  simp only [List.getElem?_map]
  rw [List.getElem?_eq_getElem hi]
  simp only [Option.map_some, Option.bind_some]
  exact (hres _ (List.getElem_mem hi)).2

/-- **C35.** With a number of arguments other than two the operation fails. -/
theorem C35_argnum (f : Op) (argv : List Ar) (h : argv.length ≠ 2) : arg2 f argv = some (1, none) := by
  match argv with
  | [] => rfl
  | [_] => rfl
  | [_, _] => exact absurd rfl h
  | _ :: _ :: _ :: _ => rfl

theorem setDouble_fresh (n : Nat) : ∃ u, UAtom.fresh.setDouble n = some u ∧ u.val = some (.num 100 (n % 2 ^ 64)) := by
  have := store_mod (W.bits 0) M64 (by decide) n
  refine ⟨.mk 100 false ((W.bits 0).store M64 n), rfl, ?_⟩
  have e : (W.store (.bits 0) M64 (n : Int)).raw % M64 = n % M64 := by omega
  simp only [UAtom.val]
  simpa using e

/-- **C35** for functions of two floating point numbers: broadcast like the operators, never an error. -/
theorem C35_doubles (g : Option UAtom → Option Nat) (func : Nat → Nat → Nat) (G : Val → Nat) (a b : Ar) (vs ws : List Val)
    (ha : Holds a vs) (hb : Holds b ws) (h : ¬ (vs.length = 1 ∧ ws.length = 0) ∧ ¬ (vs.length = 0 ∧ ws.length = 1))
    (hg : ∀ x v, x.val = some v → v ∈ vs ∨ v ∈ ws → g (some x) = some (G v)) :
    ∃ o, arg2dd g func [a, b] = some (0, some o) ∧
      Holds (some o) ((broadcast vs ws).map fun p => .num 100 (func (G p.1) (G p.2) % 2 ^ 64)) := by
  refine C35_values _ (fun v w => .num 100 (func (G v) (G w) % 2 ^ 64)) a b vs ws ha hb h ?_
  intro x y v w hx hy hv hw
  obtain ⟨u, h1, h2⟩ := setDouble_fresh (func (G v) (G w))
  exact ⟨u, by simp [hg x v hx (.inl hv), hg y w hy (.inr hw), h1], h2⟩

/-- **C35** for functions of one floating point number: one result per element, and an empty list is an error. -/
theorem C35_one_double (g : Option UAtom → Option Nat) (func : Nat → Nat) (G : Val → Nat) (a : Ar) (r : List Ar) (vs : List Val)
    (ha : Holds a vs) (hg : ∀ x v, x.val = some v → v ∈ vs → g (some x) = some (G v)) :
    (vs = [] → arg1d g func (a :: r) = some (1, none)) ∧
    (vs ≠ [] → ∃ o, arg1d g func (a :: r) = some (0, some o) ∧ Holds (some o) (vs.map fun v => .num 100 (func (G v) % 2 ^ 64))) := by
  have hl := holds_len ha
  constructor
  · rintro rfl
    have hl : len a < 1 := by rw [hl]; decide
    simp only [arg1d, if_pos hl]
  · intro hne
    have hpos : ¬ len a < 1 := by
      have := List.length_pos_iff.mpr hne; omega
    obtain ⟨o, h1, h2, h3⟩ := forN_inv (fun i (o : List UAtom) => o.length = vs.length ∧
        (∀ j, j < i → vat o j = (vs[j]?).map fun v => .num 100 (func (G v) % 2 ^ 64)) ∧
        ∀ j, i ≤ j → j < vs.length → o[j]? = some .fresh)
      (fun i out => (g (at? a i)).bind fun x => setTo out i (·.setDouble (func x))) (len a) (Expr.mk (len a))
      ⟨by simp [Expr.mk, hl], fun j hj => absurd hj (by omega), fun j _ hj => by simp [Expr.mk, hl, hj]⟩ (by
        rintro i o hi ⟨h1, h2, h3⟩
        have hi' : i < vs.length := by omega
        have hat := holds_at ha (List.getElem?_eq_getElem hi')
        obtain ⟨x, hx, hxv⟩ : ∃ x, at? a i = some x ∧ x.val = some vs[i] := by
          exact hat
        obtain ⟨u, hu, huv⟩ := setDouble_fresh (func (G vs[i]))
        refine ⟨o.set i u, ?_, ?_, ?_, ?_⟩
        · simp only [hx, hg x _ hxv (List.getElem_mem hi'), Option.bind_some, setTo, h3 i (Nat.le_refl _) hi', hu, Option.map_some]
        · simp [h1]
        · intro j hj
          by_cases hji : j = i
          · subst hji
            simp [vat, h1, hi', huv]
          · simp only [vat]
            rw [List.getElem?_set_ne (by omega)]
            exact h2 j (by omega)
        · intro j hj hj'
          rw [List.getElem?_set_ne (by omega)]
          exact h3 j (by omega) hj')
    refine ⟨o, ?_, ?_⟩
    · simp only [arg1d, if_neg hpos, h1, Option.map_some]
    · refine (argsVal_iff _ _).mpr ⟨by simpa using h2, fun i hi => ?_⟩
      simp only [List.length_map] at hi
      simpa using h3.1 i (by omega)

/-! ## Integers -/

theorem larger_wider (t1 t2 : ITy) : typetagLarger t1.tag t2.tag = some (wider t1 t2).tag := by
  cases t1 <;> cases t2 <;> rfl

theorem tag_of_val {t : ITy} {a : UAtom} {n : Int} (h : a.val = some (t.val n)) : a.tag = t.tag := by
  obtain ⟨tag, al, w⟩ := a
  exact (raw_mod t tag al w n h).1

theorem int_tag (t : ITy) : isNumeric t.tag = true ∧ isFloat t.tag = false ∧ t.tag ≠ 115 ∧ t.tag ≠ 116 := by
  cases t <;> decide

theorem val_congr (t : ITy) {m n : Int} (h : m % (2 ^ t.width : Nat) = n % (2 ^ t.width : Nat)) : t.val m = t.val n := by
  simp only [ITy.val, h]

/-- A value of a type is one of the wider type, if that is signed. -/
theorem wider_has (t1 t2 : ITy) (hs : (wider t1 t2).signed = true) (n : Int) :
    (t1.has n → (wider t1 t2).has n) ∧ (t2.has n → (wider t1 t2).has n) := by
  cases t1 <;> cases t2 <;> simp [wider, ITy.width, ITy.signed] at hs ⊢ <;> simp [ITy.has, ITy.width, ITy.signed] <;> omega

theorem viaInt_ok (T t1 t2 : ITy) (f : Int → Int → Option Int) (a b : UAtom) (n1 n2 z m : Int) (h1 : t1.has n1) (h2 : t2.has n2)
    (ha : a.val = some (t1.val n1)) (hb : b.val = some (t2.val n2)) (hf : f (T.conv n1) (T.conv n2) = some z)
    (hm : z % (2 ^ T.width : Nat) = m % (2 ^ T.width : Nat)) :
    ∃ u, viaInt (getU T) f (setU T) a b .fresh = some (0, u) ∧ u.val = some (T.val m) := by
  obtain ⟨u, h3, h4⟩ := setU_fresh T z
  refine ⟨u, ?_, by rw [h4, val_congr T hm]⟩
  simp only [viaInt, (getU_val t1 T a n1 h1 ha).1, (getU_val t2 T b n2 h2 hb).1, Option.bind_some, hf, h3, Option.map_some]

theorem viaInt_ub (T t1 t2 : ITy) (f : Int → Int → Option Int) (a b : UAtom) (n1 n2 : Int) (h1 : t1.has n1) (h2 : t2.has n2)
    (ha : a.val = some (t1.val n1)) (hb : b.val = some (t2.val n2)) (hf : f (T.conv n1) (T.conv n2) = none) :
    viaInt (getU T) f (setU T) a b .fresh = none := by
  simp only [viaInt, (getU_val t1 T a n1 h1 ha).1, (getU_val t2 T b n2 h2 hb).1, Option.bind_some, hf, Option.bind_none]

theorem i32_some {x : Int} (h : -2147483648 ≤ x ∧ x < 2147483648) : i32 x = some x := if_pos h
theorem i64_some {x : Int} (h : -9223372036854775808 ≤ x ∧ x < 9223372036854775808) : i64 x = some x := if_pos h

theorem conv_has (t : ITy) (n : Int) : t.has (t.conv n) := by
  cases t <;> simp only [ITy.has, ITy.conv, ITy.signed, ITy.width, Int.bmod] <;> simp <;> omega

theorem prod_bound (k : Nat) (x y : Int) (hx : x.natAbs ≤ k) (hy : y.natAbs ≤ k) (hk : k * k < 2147483648 := by decide) :
    -2147483648 ≤ x * y ∧ x * y < 2147483648 := by
  have h1 := Nat.mul_le_mul hx hy
  rw [← Int.natAbs_mul] at h1
  omega

/-- **C36**, addition: of integers of types `t1` and `t2` is done in the wider type: the result has that type and is exact
if it fits, and otherwise wraps around - except in the signed types of 32 and 64 bits. -/
theorem C36_add (t1 t2 : ITy) (n1 n2 : Int) (h1 : t1.has n1) (h2 : t2.has n2) (a b : UAtom) (ha : a.val = some (t1.val n1))
    (hb : b.val = some (t2.val n2))
    (hr : (wider t1 t2 = .i32 ∨ wider t1 t2 = .i64) → (wider t1 t2).has (n1 + n2)) :
    ∃ u, add (some a) (some b) .fresh = some (0, u) ∧ u.val = some ((wider t1 t2).val (n1 + n2)) := by
  have ea := tag_of_val ha
  have eb := tag_of_val hb
  obtain ⟨p1, p2, p3, p4⟩ := int_tag t1
  obtain ⟨q1, q2, q3, q4⟩ := int_tag t2
  have hadd : add (some a) (some b) .fresh = addInt (wider t1 t2).tag a b .fresh := by
    simp [add, ea, eb, p1, p2, p3, p4, q1, q2, q3, q4, larger_wider]
  rw [hadd]
  have hw := wider_has t1 t2
  generalize wider t1 t2 = T at *
  have hsum : (T.conv n1 + T.conv n2) % (2 ^ T.width : Nat) = (n1 + n2) % (2 ^ T.width : Nat) := by
    rw [Int.add_emod, conv_mod, conv_mod, ← Int.add_emod]
  have c1 := conv_has T n1
  have c2 := conv_has T n2
  cases T
  case i32 =>
    have e1 := ITy.conv_self .i32 n1 ((hw rfl n1).1 h1)
    have e2 := ITy.conv_self .i32 n2 ((hw rfl n2).2 h2)
    have hr := hr (.inl rfl)
    exact viaInt_ok .i32 t1 t2 _ a b n1 n2 (n1 + n2) _ h1 h2 ha hb (by rw [e1, e2]; exact i32_some hr) rfl
  case i64 =>
    have e1 := ITy.conv_self .i64 n1 ((hw rfl n1).1 h1)
    have e2 := ITy.conv_self .i64 n2 ((hw rfl n2).2 h2)
    have hr := hr (.inr rfl)
    exact viaInt_ok .i64 t1 t2 _ a b n1 n2 (n1 + n2) _ h1 h2 ha hb (by rw [e1, e2]; exact i64_some hr) rfl
  case u32 => exact viaInt_ok .u32 t1 t2 _ a b n1 n2 _ _ h1 h2 ha hb rfl ((castU_mod (Nat.dvd_refl M32) _).trans hsum)
  case u64 => exact viaInt_ok .u64 t1 t2 _ a b n1 n2 _ _ h1 h2 ha hb rfl ((castU_mod (Nat.dvd_refl M64) _).trans hsum)
  case i8 => exact viaInt_ok .i8 t1 t2 _ a b n1 n2 _ _ h1 h2 ha hb (i32_some (by
      simp only [ITy.has, ITy.signed, ITy.width] at c1 c2; simp at c1 c2; omega)) hsum
  case u8 => exact viaInt_ok .u8 t1 t2 _ a b n1 n2 _ _ h1 h2 ha hb (i32_some (by
      simp only [ITy.has, ITy.signed, ITy.width] at c1 c2; simp at c1 c2; omega)) hsum
  case i16 => exact viaInt_ok .i16 t1 t2 _ a b n1 n2 _ _ h1 h2 ha hb (i32_some (by
      simp only [ITy.has, ITy.signed, ITy.width] at c1 c2; simp at c1 c2; omega)) hsum
  case u16 => exact viaInt_ok .u16 t1 t2 _ a b n1 n2 _ _ h1 h2 ha hb (i32_some (by
      simp only [ITy.has, ITy.signed, ITy.width] at c1 c2; simp at c1 c2; omega)) hsum

/-- **C36**: what does not fit the signed types of 32 and 64 bits overflows, which is undefined in C. -/
theorem C36_add_overflow (t1 t2 : ITy) (n1 n2 : Int) (h1 : t1.has n1) (h2 : t2.has n2) (a b : UAtom)
    (ha : a.val = some (t1.val n1)) (hb : b.val = some (t2.val n2)) (hT : wider t1 t2 = .i32 ∨ wider t1 t2 = .i64)
    (hr : ¬ (wider t1 t2).has (n1 + n2)) : add (some a) (some b) .fresh = none := by
  have ea := tag_of_val ha
  have eb := tag_of_val hb
  obtain ⟨p1, p2, p3, p4⟩ := int_tag t1
  obtain ⟨q1, q2, q3, q4⟩ := int_tag t2
  have hadd : add (some a) (some b) .fresh = addInt (wider t1 t2).tag a b .fresh := by
    simp [add, ea, eb, p1, p2, p3, p4, q1, q2, q3, q4, larger_wider]
  rw [hadd]
  have hw := wider_has t1 t2
  generalize wider t1 t2 = T at *
  rcases hT with rfl | rfl
  · have e1 := ITy.conv_self .i32 n1 ((hw rfl n1).1 h1)
    have e2 := ITy.conv_self .i32 n2 ((hw rfl n2).2 h2)
    exact viaInt_ub .i32 t1 t2 _ a b n1 n2 h1 h2 ha hb (by rw [e1, e2]; exact if_neg hr)
  · have e1 := ITy.conv_self .i64 n1 ((hw rfl n1).1 h1)
    have e2 := ITy.conv_self .i64 n2 ((hw rfl n2).2 h2)
    exact viaInt_ub .i64 t1 t2 _ a b n1 n2 h1 h2 ha hb (by rw [e1, e2]; exact if_neg hr)

theorem multiply_eq (t1 t2 : ITy) (n1 n2 : Int) (a b : UAtom) (ha : a.val = some (t1.val n1)) (hb : b.val = some (t2.val n2)) :
    multiply (some a) (some b) .fresh = mulInt (wider t1 t2).tag a b .fresh := by
  have ea := tag_of_val ha
  have eb := tag_of_val hb
  obtain ⟨p1, p2, p3, p4⟩ := int_tag t1
  obtain ⟨q1, q2, q3, q4⟩ := int_tag t2
  simp [multiply, ea, eb, p1, p2, q1, q2, larger_wider]

theorem subtract_eq (t1 t2 : ITy) (n1 n2 : Int) (a b : UAtom) (ha : a.val = some (t1.val n1)) (hb : b.val = some (t2.val n2)) :
    subtract (some a) (some b) .fresh = viaInt (getU .i32) (fun x y => i32 (x - y)) (setU .i32) a b .fresh := by
  have ea := tag_of_val ha
  have eb := tag_of_val hb
  obtain ⟨p1, p2, p3, p4⟩ := int_tag t1
  obtain ⟨q1, q2, q3, q4⟩ := int_tag t2
  simp [subtract, ea, eb, p1, p2, q1, q2]
  rfl

/-- **C36**, multiplication: as for addition; `uint16` is multiplied as `int`, so there the product must be below 2^31. -/
theorem C36_multiply (t1 t2 : ITy) (n1 n2 : Int) (h1 : t1.has n1) (h2 : t2.has n2) (a b : UAtom) (ha : a.val = some (t1.val n1))
    (hb : b.val = some (t2.val n2))
    (hr : (wider t1 t2 = .i32 ∨ wider t1 t2 = .i64) → (wider t1 t2).has (n1 * n2))
    (hu : wider t1 t2 = .u16 → ITy.u16.conv n1 * ITy.u16.conv n2 < 2 ^ 31) :
    ∃ u, multiply (some a) (some b) .fresh = some (0, u) ∧ u.val = some ((wider t1 t2).val (n1 * n2)) := by
  rw [multiply_eq t1 t2 n1 n2 a b ha hb]
  have hw := wider_has t1 t2
  generalize wider t1 t2 = T at *
  have hprod : (T.conv n1 * T.conv n2) % (2 ^ T.width : Nat) = (n1 * n2) % (2 ^ T.width : Nat) := by
    rw [Int.mul_emod, conv_mod, conv_mod, ← Int.mul_emod]
  have c1 := conv_has T n1
  have c2 := conv_has T n2
  cases T
  case i32 =>
    have e1 := ITy.conv_self .i32 n1 ((hw rfl n1).1 h1)
    have e2 := ITy.conv_self .i32 n2 ((hw rfl n2).2 h2)
    have hr := hr (.inl rfl)
    exact viaInt_ok .i32 t1 t2 _ a b n1 n2 (n1 * n2) _ h1 h2 ha hb (by rw [e1, e2]; exact i32_some hr) rfl
  case i64 =>
    have e1 := ITy.conv_self .i64 n1 ((hw rfl n1).1 h1)
    have e2 := ITy.conv_self .i64 n2 ((hw rfl n2).2 h2)
    have hr := hr (.inr rfl)
    exact viaInt_ok .i64 t1 t2 _ a b n1 n2 (n1 * n2) _ h1 h2 ha hb (by rw [e1, e2]; exact i64_some hr) rfl
  case u32 => exact viaInt_ok .u32 t1 t2 _ a b n1 n2 _ _ h1 h2 ha hb rfl ((castU_mod (Nat.dvd_refl M32) _).trans hprod)
  case u64 => exact viaInt_ok .u64 t1 t2 _ a b n1 n2 _ _ h1 h2 ha hb rfl ((castU_mod (Nat.dvd_refl M64) _).trans hprod)
  case i8 => exact viaInt_ok .i8 t1 t2 _ a b n1 n2 _ _ h1 h2 ha hb (i32_some (by
      simp only [ITy.has, ITy.signed, ITy.width] at c1 c2; simp at c1 c2; exact prod_bound 128 _ _ (by omega) (by omega))) hprod
  case u8 => exact viaInt_ok .u8 t1 t2 _ a b n1 n2 _ _ h1 h2 ha hb (i32_some (by
      simp only [ITy.has, ITy.signed, ITy.width] at c1 c2; simp at c1 c2; exact prod_bound 256 _ _ (by omega) (by omega))) hprod
  case i16 => exact viaInt_ok .i16 t1 t2 _ a b n1 n2 _ _ h1 h2 ha hb (i32_some (by
      simp only [ITy.has, ITy.signed, ITy.width] at c1 c2; simp at c1 c2; exact prod_bound 32768 _ _ (by omega) (by omega))) hprod
  case u16 => exact viaInt_ok .u16 t1 t2 _ a b n1 n2 _ _ h1 h2 ha hb (i32_some (by
      have hu := hu rfl
      simp only [ITy.has, ITy.signed, ITy.width] at c1 c2; simp at c1 c2 
      have := Int.mul_nonneg c1.1 c2.1
      exact ⟨by omega, by simpa using hu⟩)) hprod

/-- **C36**, subtraction (partial: only if both operands and the difference are 32 bit numbers).  In full: the difference is
computed in the wider type and is exact if it fits. -/
theorem C36_subtract_partial (t1 t2 : ITy) (n1 n2 : Int) (h1 : t1.has n1) (h2 : t2.has n2) (a b : UAtom)
    (ha : a.val = some (t1.val n1)) (hb : b.val = some (t2.val n2)) (k1 : ITy.i32.has n1) (k2 : ITy.i32.has n2)
    (hr : ITy.i32.has (n1 - n2)) :
    ∃ u, subtract (some a) (some b) .fresh = some (0, u) ∧ u.val = some (ITy.i32.val (n1 - n2)) := by
  rw [subtract_eq t1 t2 n1 n2 a b ha hb]
  exact viaInt_ok .i32 t1 t2 _ a b n1 n2 (n1 - n2) _ h1 h2 ha hb (by
    rw [ITy.conv_self .i32 n1 k1, ITy.conv_self .i32 n2 k2]; exact i32_some hr) rfl

theorem divCase_conv (T t1 t2 : ITy) (f : Int → Option Int) (a b : UAtom) (n1 n2 z : Int) (h1 : t1.has n1) (h2 : t2.has n2)
    (ha : a.val = some (t1.val n1)) (hb : b.val = some (t2.val n2)) (hz : T.conv n2 ≠ 0)
    (hf : f ((T.conv n1).tdiv (T.conv n2)) = some z) :
    ∃ u, divCase (getU T) f (setU T) a b .fresh = some (0, u) ∧ u.val = some (T.val z) := by
  obtain ⟨u, h3, h4⟩ := setU_fresh T z
  refine ⟨u, ?_, h4⟩
  simp only [divCase, (getU_val t1 T a n1 h1 ha).1, (getU_val t2 T b n2 h2 hb).1, Option.bind_some, if_neg hz, hf, h3, Option.map_some]

theorem divCase_ok (T t1 t2 : ITy) (f : Int → Option Int) (a b : UAtom) (n1 n2 : Int) (h1 : t1.has n1) (h2 : t2.has n2)
    (ha : a.val = some (t1.val n1)) (hb : b.val = some (t2.val n2)) (k1 : T.has n1) (k2 : T.has n2) (hz : n2 ≠ 0)
    (hf : f (n1.tdiv n2) = some (n1.tdiv n2)) :
    ∃ u, divCase (getU T) f (setU T) a b .fresh = some (0, u) ∧ u.val = some (T.val (n1.tdiv n2)) :=
  divCase_conv T t1 t2 f a b n1 n2 _ h1 h2 ha hb (by rw [ITy.conv_self T _ k2]; exact hz)
    (by rw [ITy.conv_self T _ k1, ITy.conv_self T _ k2]; exact hf)

theorem divCase_zero (T t2 : ITy) (f : Int → Option Int) (s : UAtom → Int → Option UAtom) (a b : UAtom)
    (hb : b.val = some (t2.val 0)) :
    ∃ u, divCase (getU T) f s a b .fresh = some (0, u) ∧ u.val = some (.str [73, 110, 102]) := by
  have h2 : t2.has 0 := by cases t2 <;> decide
  have hT : T.conv 0 = 0 := by cases T <;> rfl
  refine ⟨setString .fresh infStr, ?_, rfl⟩
  simp only [divCase, (getU_val t2 T b 0 h2 hb).1, Option.bind_some, hT, if_true]

theorem divide_eq (t1 t2 : ITy) (n1 n2 : Int) (a b : UAtom) (ha : a.val = some (t1.val n1)) (hb : b.val = some (t2.val n2)) :
    divide (some a) (some b) .fresh = divInt (wider t1 t2).tag a b .fresh := by
  have ea := tag_of_val ha
  have eb := tag_of_val hb
  obtain ⟨p1, p2, p3, p4⟩ := int_tag t1
  obtain ⟨q1, q2, q3, q4⟩ := int_tag t2
  simp [divide, ea, eb, p1, p2, q1, q2, larger_wider]

/-- **C36**: division by zero gives the string "Inf", whatever the types. -/
theorem C36_divide_zero (t1 t2 : ITy) (n1 : Int) (a b : UAtom) (ha : a.val = some (t1.val n1)) (hb : b.val = some (t2.val 0)) :
    ∃ u, divide (some a) (some b) .fresh = some (0, u) ∧ u.val = some (.str [73, 110, 102]) := by
  rw [divide_eq t1 t2 n1 0 a b ha hb]
  cases wider t1 t2
  · exact divCase_zero .i8 t2 _ _ a b hb
  · exact divCase_zero .i16 t2 _ _ a b hb
  · exact divCase_zero .i32 t2 _ _ a b hb
  · exact divCase_zero .i64 t2 _ _ a b hb
  · exact divCase_zero .i8 t2 _ _ a b hb
  · exact divCase_zero .u16 t2 _ _ a b hb
  · exact divCase_zero .u32 t2 _ _ a b hb
  · exact divCase_zero .u64 t2 _ _ a b hb

/-- **C36**, division (partial: not in `uint8`, and both operands must fit the wider type).  In full: the quotient, rounded
towards zero, is computed in the wider type and is exact if it fits. -/
theorem C36_divide_partial (t1 t2 : ITy) (n1 n2 : Int) (h1 : t1.has n1) (h2 : t2.has n2) (a b : UAtom)
    (ha : a.val = some (t1.val n1)) (hb : b.val = some (t2.val n2)) (hz : n2 ≠ 0) (h8 : wider t1 t2 ≠ .u8)
    (k1 : (wider t1 t2).has n1) (k2 : (wider t1 t2).has n2) (hr : (wider t1 t2).has (n1.tdiv n2)) :
    ∃ u, divide (some a) (some b) .fresh = some (0, u) ∧ u.val = some ((wider t1 t2).val (n1.tdiv n2)) := by
  rw [divide_eq t1 t2 n1 n2 a b ha hb]
  generalize wider t1 t2 = T at *
  cases T
  · exact divCase_ok .i8 t1 t2 _ a b n1 n2 h1 h2 ha hb k1 k2 hz (i32_some (by simp [ITy.has, ITy.signed, ITy.width] at hr; omega))
  · exact divCase_ok .i16 t1 t2 _ a b n1 n2 h1 h2 ha hb k1 k2 hz (i32_some (by simp [ITy.has, ITy.signed, ITy.width] at hr; omega))
  · exact divCase_ok .i32 t1 t2 _ a b n1 n2 h1 h2 ha hb k1 k2 hz (i32_some (by simp [ITy.has, ITy.signed, ITy.width] at hr; omega))
  · exact divCase_ok .i64 t1 t2 _ a b n1 n2 h1 h2 ha hb k1 k2 hz (i64_some (by simp [ITy.has, ITy.signed, ITy.width] at hr; omega))
  · exact absurd rfl h8
  · exact divCase_ok .u16 t1 t2 _ a b n1 n2 h1 h2 ha hb k1 k2 hz (i32_some (by simp [ITy.has, ITy.signed, ITy.width] at hr; omega))
  · exact divCase_ok .u32 t1 t2 _ a b n1 n2 h1 h2 ha hb k1 k2 hz rfl
  · exact divCase_ok .u64 t1 t2 _ a b n1 n2 h1 h2 ha hb k1 k2 hz rfl

theorem cases_eq (a b r : UAtom) :
    divInt (wider .u8 .u8).tag a b r = divCase (getU .i8) i32 (setU .i8) a b r ∧
    divInt (wider .i32 .u32).tag a b r = divCase (getU .u32) some (setU .u32) a b r ∧
    divInt (wider .i32 .i32).tag a b r = divCase (getU .i32) i32 (setU .i32) a b r ∧
    mulInt (wider .u16 .u16).tag a b r = viaInt (getU .u16) (fun x y => i32 (x * y)) (setU .u16) a b r := ⟨rfl, rfl, rfl, rfl⟩

/-- A new atom with an integer value. -/
def atomOf (t : ITy) (n : Int) : UAtom := (setU t .fresh n).getD .fresh

theorem atomOf_val (t : ITy) (n : Int) : (atomOf t n).val = some (t.val n) := by
  obtain ⟨u, h1, h2⟩ := setU_fresh t n
  rw [atomOf, h1]; exact h2

/-- What C36 says of an operator `op` that computes `F`: exact in the wider type whenever the result fits. -/
def C36Full (op : Op) (F : Int → Int → Int) : Prop :=
  ∀ (t1 t2 : ITy) (n1 n2 : Int), t1.has n1 → t2.has n2 → n2 ≠ 0 → (wider t1 t2).has (F n1 n2) →
    ∃ u, op (some (atomOf t1 n1)) (some (atomOf t2 n2)) .fresh = some (0, u) ∧ u.val = some ((wider t1 t2).val (F n1 n2))

/-- The full C36 holds of addition. -/
theorem C36_add_full : C36Full add (· + ·) := fun t1 t2 n1 n2 h1 h2 _ hr =>
  C36_add t1 t2 n1 n2 h1 h2 _ _ (atomOf_val _ _) (atomOf_val _ _) (fun _ => hr)

/-- The full C36 does not hold of subtraction: 2^32 + 5 minus 3 in 64 bits is 2 in 32 bits.  Nor of division: 200 / 2 in
`uint8` is -28 in `int8`; -6 / 7 in `uint32` is 613566755. -/
theorem C36_full_fails : ¬ C36Full subtract (· - ·) ∧ ¬ C36Full divide Int.tdiv ∧
    (∃ u, subtract (some (atomOf .i64 4294967301)) (some (atomOf .i64 3)) .fresh = some (0, u) ∧ u.val = some (ITy.i32.val 2)) ∧
    (∃ u, divide (some (atomOf .u8 200)) (some (atomOf .u8 2)) .fresh = some (0, u) ∧ u.val = some (ITy.i8.val (-28))) ∧
    (∃ u, divide (some (atomOf .i32 (-6))) (some (atomOf .u32 7)) .fresh = some (0, u) ∧ u.val = some (ITy.u32.val 613566755)) := by
  have w1 : ∃ u, subtract (some (atomOf .i64 4294967301)) (some (atomOf .i64 3)) .fresh = some (0, u) ∧
      u.val = some (ITy.i32.val 2) := by
    rw [subtract_eq .i64 .i64 4294967301 3 _ _ (atomOf_val _ _) (atomOf_val _ _)]
    exact viaInt_ok .i32 .i64 .i64 (fun x y => i32 (x - y)) _ _ 4294967301 3 2 2 (by decide) (by decide) (atomOf_val _ _) (atomOf_val _ _)
      (by decide) rfl
  have w2 : ∃ u, divide (some (atomOf .u8 200)) (some (atomOf .u8 2)) .fresh = some (0, u) ∧ u.val = some (ITy.i8.val (-28)) := by
    rw [divide_eq .u8 .u8 200 2 _ _ (atomOf_val _ _) (atomOf_val _ _), (cases_eq _ _ _).1]
    exact divCase_conv .i8 .u8 .u8 i32 _ _ 200 2 (-28) (by decide) (by decide) (atomOf_val _ _) (atomOf_val _ _)
      (by decide) (by decide)
  have w3 : ∃ u, divide (some (atomOf .i32 (-6))) (some (atomOf .u32 7)) .fresh = some (0, u) ∧
      u.val = some (ITy.u32.val 613566755) := by
    rw [divide_eq .i32 .u32 (-6) 7 _ _ (atomOf_val _ _) (atomOf_val _ _), (cases_eq _ _ _).2.1]
    exact divCase_conv .u32 .i32 .u32 some _ _ (-6) 7 613566755 (by decide) (by decide) (atomOf_val _ _) (atomOf_val _ _)
      (by decide) (by decide)
  refine ⟨fun h => ?_, fun h => ?_, w1, w2, w3⟩
  · obtain ⟨u, h1, h2⟩ := h .i64 .i64 4294967301 3 (by decide) (by decide) (by decide) (by decide)
    obtain ⟨v, g1, g2⟩ := w1
    rw [h1] at g1
    cases g1
    rw [h2] at g2
    exact absurd (Option.some.inj g2) (by simp [ITy.val, ITy.tag, wider, ITy.width, ITy.signed])
  · obtain ⟨u, h1, h2⟩ := h .u8 .u8 200 2 (by decide) (by decide) (by decide) (by decide)
    obtain ⟨v, g1, g2⟩ := w2
    rw [h1] at g1
    cases g1
    rw [h2] at g2
    exact absurd (Option.some.inj g2) (by simp [ITy.val, ITy.tag, wider, ITy.width, ITy.signed])

/-- **C36**: the most negative number divided by -1 overflows, which is undefined in C. -/
theorem C36_divide_overflow : divide (some (atomOf .i32 (-2147483648))) (some (atomOf .i32 (-1))) .fresh = none := by
  rw [divide_eq .i32 .i32 (-2147483648) (-1) _ _ (atomOf_val _ _) (atomOf_val _ _), (cases_eq _ _ _).2.2.1]
  rw [divCase, (getU_val .i32 .i32 _ (-1) (by decide) (atomOf_val _ _)).1,
    (getU_val .i32 .i32 _ (-2147483648) (by decide) (atomOf_val _ _)).1, show ITy.i32.conv (-1) = -1 from by decide,
    show ITy.i32.conv (-2147483648) = -2147483648 from by decide]
  simp only [Option.bind_some]
  rw [if_neg (by decide), show i32 ((-2147483648 : Int).tdiv (-1)) = none from by decide, Option.bind_none]

/-- **C36**: two `uint16` multiply as `int`, so that 65535 * 65535 overflows. -/
theorem C36_multiply_overflow : multiply (some (atomOf .u16 65535)) (some (atomOf .u16 65535)) .fresh = none := by
  rw [multiply_eq .u16 .u16 65535 65535 _ _ (atomOf_val _ _) (atomOf_val _ _), (cases_eq _ _ _).2.2.2]
  exact viaInt_ub .u16 .u16 .u16 _ _ _ 65535 65535 (by decide) (by decide) (atomOf_val _ _) (atomOf_val _ _) (by decide)

/-- The concatenation of strings is addition. -/
theorem C36_strings (a b : UAtom) (s1 s2 : Bytes) (ha : a.val = some (.str s1)) (hb : b.val = some (.str s2)) :
    ∃ u, add (some a) (some b) .fresh = some (0, u) ∧ u.val = some (.str (s1 ++ s2)) := by
  have key : ∀ (a : UAtom) s, a.val = some (.str s) → ∃ al p, a = .mk 115 al (.str p s) := by
    rintro ⟨tag, al, w⟩ s h
    rcases val_eq tag al w _ h with ⟨-, h2⟩ | ⟨-, h2⟩ | ⟨-, h2⟩ | ⟨-, h2⟩ | ⟨-, h2⟩ | ⟨rfl, p, s', rfl, h2⟩ |
      ⟨-, p, blk, l, c, -, -, -, h2⟩ | ⟨-, p, ms, vs, -, -, h2⟩ | ⟨h2, -⟩ <;> simp at h2
    subst h2
    exact ⟨_, _, rfl⟩
  obtain ⟨_, _, rfl⟩ := key a s1 ha
  obtain ⟨_, _, rfl⟩ := key b s2 hb
  exact ⟨_, rfl, by simp [setString, UAtom.val, UAtom.fresh, W.raw]⟩

/-- **C35**, what is missing: one element with an empty list gives one element, not none. -/
theorem C35_full_fails : ∃ (a b : Ar) (u : UAtom), Holds a [ITy.i32.val 1] ∧ Holds b [] ∧ arg2 add [a, b] = some (0, some [u]) ∧
    broadcast [ITy.i32.val 1] ([] : List Val) = [] := ⟨some [atomOf .i32 1], some [], _, rfl, rfl, rfl, rfl⟩

/-! ## Examples -/

/-- `[1, 2, 3] + 10` and `[1, 2, 3] + [10, 20]`. -/
example : ∃ o, arg2 add [some [atomOf .i32 1, atomOf .i8 2, atomOf .u64 3], some [atomOf .i16 10]] = some (0, some o) ∧
    Holds (some o) [ITy.i32.val 11, ITy.i16.val 12, ITy.u64.val 13] := ⟨_, rfl, rfl⟩
example : ∃ o, arg2 add [some [atomOf .i32 1, atomOf .i8 2, atomOf .u64 3], some [atomOf .i16 10, atomOf .i16 20]] =
    some (0, some o) ∧ Holds (some o) [ITy.i32.val 11, ITy.i16.val 22] := ⟨_, rfl, rfl⟩
/-- The second pair fails: a string and nil. -/
example : ∃ o, arg2 add [some [atomOf .i32 1, .mk 78 false (.bits 0), atomOf .i32 3], some [atomOf .i16 10]] = some (1, o) := ⟨_, rfl⟩
/-- Wrapping in 8 bits: 200 + 100 = 44. -/
example : ITy.u8.has 200 ∧ ITy.i8.has 100 ∧ wider .u8 .i8 = .u8 ∧ ITy.u8.val 300 = ITy.u8.val 44 :=
  ⟨by decide, by decide, rfl, rfl⟩
example : wider .i64 .u32 = .i64 ∧ ITy.i64.has (-5 + 4294967295) ∧ ¬ ITy.i32.has (2147483647 + 1) := by decide +kernel

end Libo.Props
