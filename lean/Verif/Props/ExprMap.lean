import Verif.Props.ExprApply
import Verif.Props.ExprList
/-!
# C39: map and reduce
-/

namespace Libo.Props
open Libo Libo.Expr

variable {T : Tab} {env : Option Nat} {st st0 st1 st2 : St} {f : Nat} {res : St × Int × Ar}

/-- The arguments are evaluated in the environment from left to right. -/
inductive AllEval (T : Tab) (env : Option Nat) : List Arg → St → St → List Ar → Prop
  | nil {s : St} : AllEval T env [] s s []
  | cons {a : Arg} {as : List Arg} {s s1 s2 : St} {code : Int} {v : Ar} {vs : List Ar} : ArgEvals T env s a (s1, code, v) → code ≠ UNBOUND →
      AllEval T env as s1 s2 vs → AllEval T env (a :: as) s s2 (v :: vs)

theorem evalAll_of {as : List Arg} {vs : List Ar} (h : AllEval T env as st st1 vs) : ∃ n, evalAll (run T n) env as st = some (st1, 0, vs) := by
  induction h with
  | nil => exact ⟨0, rfl⟩
  | cons h1 h2 _ ih =>
    obtain ⟨n, h1⟩ := h1
    obtain ⟨m, ih⟩ := ih
    refine ⟨max n m, ?_⟩
    rw [evalAll, evalArg_mono (le_max_run n m) _ _ _ _ h1, Option.bind_some, if_neg h2, evalAll_mono (le_max_run' n m) _ _ _ _ ih]
    rfl

theorem holdAll_cons {a : Ar} {as : List Ar} {vs : List Val} {vss : List (List Val)} :
    HoldAll (a :: as) (vs :: vss) ↔ Holds a vs ∧ HoldAll as vss := by
  constructor
  · rintro ⟨_, _, h, h1, h2⟩
    injection h with e1 e2
    subst e1 e2; exact ⟨h1, h2⟩
  · rintro ⟨h1, h2⟩; exact ⟨_, _, rfl, h1, h2⟩

/-- What is applied computes `G` on the lists of arguments in `D`, in all states with `P`: evaluating an application of `c` to atoms
with the values `vs` gives `G vs`, and leaves a state with `P` in which `c` is still what the expression applies. -/
def Computes (T : Tab) (env : Option Nat) (P : St → Prop) (c : Arg) (D : List Val → Prop) (G : List Val → List Val) : Prop :=
  ∀ (s : St) (e : Nat) (rest : List Arg) (xs : List UAtom) (vs : List Val), P s → s.exprs[e]? = some ⟨.apply, c :: rest⟩ →
    argsVal xs = some vs → D vs → ∃ (s' : St) (code : Int) (out : Ar) (rest' : List Arg),
      Evals T env (s.setRest e (xs.map fun x => .atom (some x))) e (s', code, out) ∧ Holds out (G vs) ∧ P s' ∧
      s'.exprs[e]? = some ⟨.apply, c :: rest'⟩

/-- The values at position `i`. -/
def row (css : List (List Val)) (i : Nat) : List Val := css.filterMap (·[i]?)

theorem atoms_row {i : Nat} : ∀ (cols : List Ar) (css : List (List Val)), HoldAll cols css → (∀ c ∈ css, i < c.length) →
    ∃ xs : List UAtom, (cols.map fun c => Arg.atom (at? c i)) = xs.map (fun x => Arg.atom (some x)) ∧ argsVal xs = some (row css i)
  | [], [], _, _ => ⟨[], rfl, rfl⟩
  | [], _ :: _, h, _ => by simp [HoldAll] at h
  | _ :: _, [], h, _ => by simp [HoldAll] at h
  | c :: cols, cs :: css, h, hi => by
    obtain ⟨h1, h2⟩ := holdAll_cons.mp h
    have hl := hi cs (by simp)
    obtain ⟨xs, e1, e2⟩ := atoms_row cols css h2 fun c hc => hi c (by simp [hc])
    obtain ⟨x, g1, g2⟩ := holds_at h1 (List.getElem?_eq_getElem hl)
    refine ⟨x :: xs, by simp [g1, e1], ?_⟩
    simp [argsVal, g2, e2, row, List.getElem?_eq_getElem hl]

theorem mapLoop_spec {P : St → Prop} {c : Arg} {D : List Val → Prop} {G : List Val → List Val} {e : Nat} {cols : List Ar}
    {css : List (List Val)} (hF : Computes T env P c D G) (hcol : HoldAll cols css) :
    ∀ (is : List Nat) (st : St) (rest : List Arg), P st → st.exprs[e]? = some ⟨.apply, c :: rest⟩ →
      (∀ i ∈ is, (∀ cs ∈ css, i < cs.length) ∧ D (row css i)) →
      ∃ n st' outs, mapLoop (run T n) env e cols is st = some (st', outs) ∧ P st' ∧ HoldAll outs (is.map fun i => G (row css i))
  | [], st, _, hP, _, _ => ⟨0, st, [], rfl, hP, rfl⟩
  | i :: is, st, rest, hP, he, hi => by
    obtain ⟨xs, e1, e2⟩ := atoms_row cols css hcol (hi i (by simp)).1
    obtain ⟨s', code, out, rest', ⟨n, h1⟩, h2, h3, h4⟩ := hF st e rest xs _ hP he e2 (hi i (by simp)).2
    obtain ⟨m, st', outs, g1, g2, g3⟩ := mapLoop_spec hF hcol is s' rest' h3 h4 fun i hj => hi i (by simp [hj])
    refine ⟨max n m, st', out :: outs, ?_, g2, holdAll_cons.mpr ⟨h2, g3⟩⟩
    rw [mapLoop, e1, le_max_run n m _ _ _ _ h1, Option.bind_some, mapLoop_mono (le_max_run' n m) _ _ _ _ _ _ g1]
    rfl

theorem gather_spec : ∀ (as : List Ar) (vss : List (List Val)) (pos : Nat) (out : List UAtom), HoldAll as vss →
    (∀ vs ∈ vss, ∀ v ∈ vs, Copyable v) → pos + vss.flatten.length ≤ out.length →
    ∃ out', gather as pos out = some out' ∧ out'.length = out.length ∧ (∀ j, j < pos → out'[j]? = out[j]?) ∧
      ∀ i, i < vss.flatten.length → vat out' (pos + i) = vss.flatten[i]?
  | [], [], pos, out, _, _, _ => ⟨out, rfl, rfl, fun _ _ => rfl, fun i hi => by simp at hi⟩
  | [], _ :: _, _, _, h, _, _ => by simp [HoldAll] at h
  | _ :: _, [], _, _, h, _, _ => by simp [HoldAll] at h
  | a :: as, vs :: vss, pos, out, h, hc, hl => by
    obtain ⟨h1, h2⟩ := holdAll_cons.mp h
    rw [List.flatten_cons, List.length_append] at hl
    obtain ⟨o1, c1, c2, c3, c4⟩ := copyIntoAr_spec out a vs pos h1 (hc vs (by simp)) (by omega)
    obtain ⟨o2, g1, g2, g3, g4⟩ := gather_spec as vss (pos + vs.length) o1 h2 (fun vs hv => hc vs (by simp [hv])) (by omega)
    refine ⟨o2, ?_, by omega, fun j hj => ?_, fun i hi => ?_⟩
    · rw [gather, c1, Option.bind_some, holds_len h1]; exact g1
    · rw [g3 j (by omega), c4 j (.inl hj)]
    · rw [List.flatten_cons, List.length_append] at hi
      rw [List.flatten_cons]
      by_cases h' : i < vs.length
      · rw [List.getElem?_append_left h', ← c3 i h', vat, vat, g3 _ (by omega)]
      · rw [List.getElem?_append_right (by omega), ← g4 (i - vs.length) (by omega)]
        congr 1; omega

theorem copyArg_le {a : Arg} {q : St × Arg} {n m : Nat} (h : copyArg n st a = some q) (hm : n ≤ m) : copyArg m st a = some q := by
  obtain ⟨k, rfl⟩ := Nat.exists_eq_add_of_le hm
  clear hm
  induction k with
  | zero => exact h
  | succ k ih => exact copyArg_mono _ _ _ _ ih

theorem minOf_eq {n : Nat} : ∀ (cols : List Ar) (css : List (List Val)), HoldAll cols css → (∀ c ∈ css, n ≤ c.length) →
    (∃ c ∈ css, c.length = n) → n < 2 ^ 32 → minOf cols = n := by
  intro cols css h h1 h2 h3
  have lo : ∀ (cols : List Ar) (css : List (List Val)), HoldAll cols css → (∀ c ∈ css, n ≤ c.length) → n ≤ minOf cols := by
    intro cols
    induction cols with
    | nil => intro css _ _; simp only [minOf]; omega
    | cons a cols ih =>
      intro css h h1
      cases css with
      | nil => simp [HoldAll] at h
      | cons c css =>
        obtain ⟨g1, g2⟩ := holdAll_cons.mp h
        have := ih css g2 fun c hc => h1 c (by simp [hc])
        have := h1 c (by simp)
        rw [minOf, holds_len g1]; omega
  have hi : ∀ (cols : List Ar) (css : List (List Val)), HoldAll cols css → (∃ c ∈ css, c.length = n) → minOf cols ≤ n := by
    intro cols
    induction cols with
    | nil => rintro css h ⟨c, hc, -⟩; cases css <;> simp [HoldAll] at h hc
    | cons a cols ih =>
      rintro css h ⟨c, hc, hn⟩
      cases css with
      | nil => simp at hc
      | cons c' css =>
        obtain ⟨g1, g2⟩ := holdAll_cons.mp h
        rw [minOf, holds_len g1]
        rcases List.mem_cons.mp hc with rfl | hc
        · omega
        · have := ih css g2 ⟨c, hc, hn⟩; omega
  have := lo cols css h h1
  have := hi cols css h h2
  omega

/-- What C39 says of `map`: the lists `css` are the values of the arguments, evaluated from left to right; `n` is the length of
the shortest.  The function, which computes `G`, is applied to the values at position 0, 1, … n-1, and the results
are put one behind the other. -/
theorem C39_map {a0 a1 : Arg} {rest : List Arg} {cols : List Ar} {css : List (List Val)} {n : Nat} {c : Arg} {P : St → Prop}
    {D : List Val → Prop} {G : List Val → List Val} (hf : st.exprs[f]? = some ⟨.map, a0 :: a1 :: rest⟩)
    (hargs : AllEval T env (a1 :: rest) st st1 cols) (hcol : HoldAll cols css)
    (hmin : ∀ cs ∈ css, n ≤ cs.length) (hmin' : ∃ cs ∈ css, cs.length = n) (hn : n < 2 ^ 32)
    (hcopy : ∃ m, copyArg m st1 a0 = some (st2, c))
    (hP : P (st2.alloc ⟨.apply, c :: (a1 :: rest).map fun _ => .blank⟩).1) (hF : Computes T env P c D G)
    (hD : ∀ i, i < n → D (row css i) ∧ ∀ v ∈ G (row css i), Copyable v) :
    ∃ st' out, Evals T env st f (st', 0, some out) ∧ P st' ∧ Holds (some out) ((List.range n).flatMap fun i => G (row css i)) := by
  obtain ⟨m1, h1⟩ := evalAll_of hargs
  obtain ⟨m2, h2⟩ := hcopy
  have hm := minOf_eq cols css hcol hmin hmin' hn
  obtain ⟨m3, st', outs, h3, h4, h5⟩ := mapLoop_spec (e := st2.exprs.length) hF hcol (List.range n)
    (st2.alloc ⟨.apply, c :: (a1 :: rest).map fun _ => .blank⟩).1 _ hP (by simp [St.alloc]; rfl)
    (fun i hi => ⟨fun cs hcs => by have := hmin cs hcs; simp at hi; omega, (hD i (by simpa using hi)).1⟩)
  have hlen : (outs.map Expr.len).sum = ((List.range n).map fun i => G (row css i)).flatten.length := by
    rw [List.length_flatten]
    congr 1
    generalize (List.range n).map (fun i => G (row css i)) = vss at h5
    clear h3
    induction outs generalizing vss with
    | nil => cases vss with
      | nil => rfl
      | cons _ _ => simp [HoldAll] at h5
    | cons o outs ih => cases vss with
      | nil => simp [HoldAll] at h5
      | cons vs vss =>
        obtain ⟨g1, g2⟩ := holdAll_cons.mp h5
        simp [holds_len g1, ih vss g2]
  obtain ⟨out, g1, g2, -, g4⟩ := gather_spec outs _ 0 (Expr.mk ((outs.map Expr.len).sum)) h5 (by
    intro vs hvs
    obtain ⟨i, hi, rfl⟩ := List.mem_map.mp hvs
    exact (hD i (by simpa using hi)).2) (by rw [mk_length, hlen]; omega)
  refine ⟨st', out, evals_node.mpr ⟨max m1 (max m2 m3), ?_⟩, h4, (argsVal_iff _ _).mpr ⟨?_, fun i hi => ?_⟩⟩
  · have e1 := evalAll_mono (le_max_run m1 (max m2 m3)) env (a1 :: rest) st (st1, 0, cols) h1
    have e2 := copyArg_le h2 (show m2 ≤ max m1 (max m2 m3) by omega)
    have e3 : mapLoop (run T (max m1 (max m2 m3))) env st2.exprs.length cols (List.range n) _ = some (st', outs) :=
      mapLoop_mono (le_max_run' m1 (max m2 m3)) _ _ _ _ _ _ (mapLoop_mono (le_max_run' m2 m3) _ _ _ _ _ _ h3)
    simp only [evalNode, hf, mapNode, e1, Option.bind_some, ne_eq, not_true_eq_false, if_false, e2]
    simp only [St.alloc] at e3 ⊢
    rw [hm, e3, Option.bind_some, g1]
    rfl
  · rw [Option.getD_some, g2, mk_length, hlen, List.flatMap_def]
  · rw [List.flatMap_def] at hi ⊢
    simpa using g4 i hi

/-! ## Reduce -/

/-- The values the function gets in a reduction: the accumulated one first in a reduction from the left, last in one
from the right. -/
def both (left : Bool) (acc x : Val) : List Val := if left then [acc, x] else [x, acc]

def step1 (left : Bool) (G : Val → Val → Val) (acc x : Val) : Val := if left then G acc x else G x acc

/-- In every step the arguments are in the domain of the function. -/
def StepsIn (D : List Val → Prop) (left : Bool) (G : Val → Val → Val) : Val → List Val → Prop
  | acc, [] => Copyable acc
  | acc, x :: xs => Copyable acc ∧ Copyable x ∧ D (both left acc x) ∧ StepsIn D left G (step1 left G acc x) xs

theorem pair_both {left : Bool} {a x : UAtom} {va vx : Val} (ha : a.val = some va) (hx : x.val = some vx) :
    ∃ xs, pair left (some a) (some x) = xs.map (fun x => Arg.atom (some x)) ∧ argsVal xs = some (both left va vx) := by
  cases left
  · exact ⟨[x, a], rfl, by simp [argsVal, ha, hx, both]⟩
  · exact ⟨[a, x], rfl, by simp [argsVal, ha, hx, both]⟩

theorem reduceLoop_spec {P : St → Prop} {c : Arg} {D : List Val → Prop} {left : Bool} {F : List Val → List Val} {G : Val → Val → Val} {e : Nat}
    (hF : Computes T env P c D F) (hG : ∀ a b, F [a, b] = [G a b]) :
    ∀ (xs : List UAtom) (vs : List Val) (st : St) (rest : List Arg) (out : Ar) (acc : Val), P st →
      st.exprs[e]? = some ⟨.apply, c :: rest⟩ → argsVal xs = some vs → Holds out [acc] → StepsIn D left G acc vs →
      ∃ n st' out', reduceLoop (run T n) env e left xs st out = some (st', out') ∧ P st' ∧
        Holds out' [vs.foldl (step1 left G) acc]
  | [], vs, st, rest, out, acc, hP, he, hv, ho, hs => by
    simp only [argsVal, Option.some.injEq] at hv
    subst hv
    exact ⟨0, st, out, rfl, hP, ho⟩
  | x :: xs, vs, st, rest, out, acc, hP, he, hv, ho, hs => by
    simp only [argsVal, Option.bind_eq_some_iff, Option.map_eq_some_iff] at hv
    obtain ⟨v, hx, vs, hxs, rfl⟩ := hv
    obtain ⟨s1, s2, s3, s4⟩ := hs
    obtain ⟨a, ha, hav⟩ := holds_at ho (i := 0) (v := acc) rfl
    obtain ⟨a', ca, cav, -⟩ := copyAtom_val a acc hav s1
    obtain ⟨x', cx, cxv, -⟩ := copyAtom_val x v hx s2
    obtain ⟨ys, e1, e2⟩ := pair_both (left := left) cav cxv
    obtain ⟨s', code, o, rest', ⟨n, h1⟩, h2, h3, h4⟩ := hF st e rest ys _ hP he e2 s3
    have h2' : Holds o [step1 left G acc v] := by
      cases left <;> simpa [both, step1, hG] using h2
    obtain ⟨m, st', out', g1, g2, g3⟩ := reduceLoop_spec hF hG xs vs s' rest' o _ h3 h4 hxs h2' s4
    refine ⟨max n m, st', out', ?_, g2, g3⟩
    rw [reduceLoop, ha, copyOpt, ca, Option.map_some, Option.bind_some, cx, Option.bind_some, e1,
      le_max_run n m _ _ _ _ h1, Option.bind_some]
    exact reduceLoop_mono (le_max_run' n m) _ _ _ _ _ _ _ g1

/-- The node of a reduction from the left or from the right. -/
def reduceFn (left : Bool) : Fn := if left then .lreduce else .rreduce

/-- The values in the order in which a reduction takes them. -/
def inOrder (left : Bool) (vs : List Val) : List Val := if left then vs else vs.reverse

theorem reduce_evals {left : Bool} {args : List Arg} (hf : st.exprs[f]? = some ⟨reduceFn left, args⟩) :
    Evals T env st f res ↔ ∃ n, reduceNode n (run T n) env st left args = some res := by
  rw [evals_node]
  have : ∀ n, evalNode n (run T n) T env st f = reduceNode n (run T n) env st left args := by
    intro n; cases left <;> simp [evalNode, hf, reduceFn]
  simp only [this]

theorem argsVal_reverse {xs : List UAtom} {vs : List Val} (h : argsVal xs = some vs) : argsVal xs.reverse = some vs.reverse := by
  obtain ⟨h1, h2⟩ := (argsVal_iff _ _).mp h
  refine (argsVal_iff _ _).mpr ⟨by simpa using h1, fun i hi => ?_⟩
  rw [List.length_reverse] at hi
  rw [vat, List.getElem?_reverse (by omega), List.getElem?_reverse hi, h1]
  exact h2 _ (by omega)

/-- What C39 says of a reduction with a starting value: from the left `G (… (G (G i v₁) v₂) …) vₙ`, from the right
`G v₁ (G v₂ (… (G vₙ i)))`. -/
theorem C39_reduce_init {left : Bool} {a0 a1 a2 : Arg} {l : Ar} {i : Ar} {vs is : List Val} {iv : Val} {c : Arg} {P : St → Prop}
    {D : List Val → Prop} {F : List Val → List Val} {G : Val → Val → Val} {st3 : St} {code1 code2 : Int} {rest : List Arg}
    (hf : st.exprs[f]? = some ⟨reduceFn left, [a0, a1, a2]⟩)
    (hcopy : ∃ m, copyArg m st a0 = some (st1, c))
    (h1 : ArgEvals T env (st1.alloc ⟨.apply, [c, .blank, .blank]⟩).1 a1 (st2, code1, l)) (hc1 : code1 ≠ UNBOUND) (hl : Holds l vs)
    (h2 : ArgEvals T env st2 a2 (st3, code2, i)) (hc2 : code2 ≠ UNBOUND) (hi : Holds i (iv :: is)) (hne : vs ≠ [])
    (hP : P st3) (he : st3.exprs[st1.exprs.length]? = some ⟨.apply, c :: rest⟩)
    (hF : Computes T env P c D F) (hG : ∀ a b, F [a, b] = [G a b])
    (hD : StepsIn D left G iv (inOrder left vs)) :
    ∃ st' out, Evals T env st f (st', 0, out) ∧ P st' ∧ Holds out [if left then vs.foldl G iv else vs.foldr G iv] := by
  obtain ⟨m, hm⟩ := hcopy
  obtain ⟨n1, h1⟩ := h1
  obtain ⟨n2, h2⟩ := h2
  -- the values in the order they are taken
  have hx : argsVal (if left then l.getD [] else (l.getD []).reverse) = some (inOrder left vs) := by
    cases left
    · exact argsVal_reverse hl
    · exact hl
  have hspec : (if left then vs.foldl G iv else vs.foldr G iv) = (inOrder left vs).foldl (step1 left G) iv := by
    cases left
    · simp only [inOrder, if_neg, Bool.false_eq_true, not_false_eq_true, List.foldl_reverse]
      rfl
    · rfl
  rw [hspec]
  have hne' : inOrder left vs ≠ [] := by cases left <;> simpa [inOrder] using hne
  generalize hxs : (if left then l.getD [] else (l.getD []).reverse) = xs at hx
  generalize inOrder left vs = ws at *
  cases xs with
  | nil => simp only [argsVal, Option.some.injEq] at hx; exact absurd hx.symm hne'
  | cons x xs =>
    simp only [argsVal, Option.bind_eq_some_iff, Option.map_eq_some_iff] at hx
    obtain ⟨v, hxv, ws, hws, rfl⟩ := hx
    obtain ⟨s1, s2, s3, s4⟩ := hD
    obtain ⟨a, ha, hav⟩ := holds_at hi (i := 0) (v := iv) rfl
    obtain ⟨a', ca, cav, -⟩ := copyAtom_val a iv hav s1
    obtain ⟨sc, rfl⟩ : ∃ sc, i = some sc := by
      cases i with
      | none => simp [at?] at ha
      | some sc => exact ⟨sc, rfl⟩
    obtain ⟨ys, e1, e2⟩ := pair_both (left := left) cav hxv
    obtain ⟨s', code, o, rest', ⟨n3, h3⟩, g2, g3, g4⟩ := hF st3 _ rest ys _ hP he e2 s3
    have g2' : Holds o [step1 left G iv v] := by
      cases left <;> simpa [both, step1, hG] using g2
    obtain ⟨n4, st', out', k1, k2, k3⟩ := reduceLoop_spec hF hG xs ws s' rest' o _ g3 g4 hws g2' s4
    refine ⟨st', out', (reduce_evals hf).mpr ⟨max m (max n1 (max n2 (max n3 n4))), ?_⟩, k2, k3⟩
    have f0 := copyArg_le hm (show m ≤ max m (max n1 (max n2 (max n3 n4))) by omega)
    have lift : ∀ k, k ≤ max m (max n1 (max n2 (max n3 n4))) → LeEv (run T k) (run T (max m (max n1 (max n2 (max n3 n4))))) := by
      intro k hk
      have := le_max_run (T := T) k (max m (max n1 (max n2 (max n3 n4))))
      rwa [Nat.max_eq_right hk] at this
    have f1 := evalArg_mono (lift n1 (by omega)) _ _ _ _ h1
    have f2 := evalArg_mono (lift n2 (by omega)) _ _ _ _ h2
    have f3 := lift n3 (by omega) _ _ _ _ h3
    have f4 := reduceLoop_mono (lift n4 (by omega)) _ _ _ _ _ _ _ k1
    have hsc : copyOpt sc[0]? = some (some a') := by
      simp only [at?, Option.getD_some] at ha
      rw [ha, copyOpt, ca]; rfl
    simp only [reduceNode, f0, Option.bind_some]
    simp only [St.alloc] at f1 ⊢
    rw [f1, Option.bind_some]
    simp only [if_neg hc1, hxs]
    rw [f2, Option.bind_some]
    simp only [if_neg hc2, hsc, Option.bind_some]
    rw [e1, f3, Option.bind_some, f4]
    rfl

/-- What C39 says of a reduction without starting value: the first value is the starting value, from the right the last one. -/
theorem C39_reduce {left : Bool} {a0 a1 : Arg} {l : Ar} {vs : List Val} {v0 : Val} {c : Arg} {P : St → Prop}
    {D : List Val → Prop} {F : List Val → List Val} {G : Val → Val → Val} {code1 : Int} {rest : List Arg}
    (hf : st.exprs[f]? = some ⟨reduceFn left, [a0, a1]⟩)
    (hcopy : ∃ m, copyArg m st a0 = some (st1, c))
    (h1 : ArgEvals T env (st1.alloc ⟨.apply, [c, .blank, .blank]⟩).1 a1 (st2, code1, l)) (hc1 : code1 ≠ UNBOUND)
    (hl : Holds l (if left then v0 :: vs else vs ++ [v0]))
    (hP : P st2) (he : st2.exprs[st1.exprs.length]? = some ⟨.apply, c :: rest⟩)
    (hF : Computes T env P c D F) (hG : ∀ a b, F [a, b] = [G a b])
    (hD : StepsIn D left G v0 (inOrder left vs)) :
    ∃ st' out, Evals T env st f (st', 0, out) ∧ P st' ∧ Holds out [if left then vs.foldl G v0 else vs.foldr G v0] := by
  obtain ⟨m, hm⟩ := hcopy
  obtain ⟨n1, h1⟩ := h1
  have hx : argsVal (if left then l.getD [] else (l.getD []).reverse) = some (v0 :: inOrder left vs) := by
    cases left
    · have := argsVal_reverse hl
      simpa [inOrder] using this
    · exact hl
  have hspec : (if left then vs.foldl G v0 else vs.foldr G v0) = (inOrder left vs).foldl (step1 left G) v0 := by
    cases left
    · simp only [inOrder, if_neg, Bool.false_eq_true, not_false_eq_true, List.foldl_reverse]
      rfl
    · rfl
  rw [hspec]
  have hone : inOrder left vs = [] → Holds l [v0] := by
    intro h
    have : vs = [] := by cases left <;> simpa [inOrder] using h
    subst this
    cases left <;> exact hl
  generalize hxs : (if left then l.getD [] else (l.getD []).reverse) = xs at hx
  generalize inOrder left vs = ws at *
  cases xs with
  | nil => simp [argsVal] at hx
  | cons x xs =>
    simp only [argsVal, Option.bind_eq_some_iff, Option.map_eq_some_iff] at hx
    obtain ⟨v, hxv, ws', hws, hvw⟩ := hx
    injection hvw with hv hw
    subst hv hw
    cases xs with
    | nil =>
      simp only [argsVal, Option.some.injEq] at hws
      subst hws
      refine ⟨st2, l, (reduce_evals hf).mpr ⟨max m n1, ?_⟩, hP, hone rfl⟩
      have f0 := copyArg_le hm (show m ≤ max m n1 by omega)
      have f1 := evalArg_mono (le_max_run' m n1) _ _ _ _ h1
      simp only [reduceNode, f0, Option.bind_some]
      simp only [St.alloc] at f1 ⊢
      rw [f1, Option.bind_some]
      simp only [if_neg hc1, hxs]
    | cons y xs =>
      simp only [argsVal, Option.bind_eq_some_iff, Option.map_eq_some_iff] at hws
      obtain ⟨w, hyw, ws, hws, rfl⟩ := hws
      obtain ⟨s1, s2, s3, s4⟩ := hD
      obtain ⟨ys, e1, e2⟩ := pair_both (left := left) hxv hyw
      obtain ⟨s', code, o, rest', ⟨n3, h3⟩, g2, g3, g4⟩ := hF st2 _ rest ys _ hP he e2 s3
      have g2' : Holds o [step1 left G v w] := by
        cases left <;> simpa [both, step1, hG] using g2
      obtain ⟨n4, st', out', k1, k2, k3⟩ := reduceLoop_spec hF hG xs ws s' rest' o _ g3 g4 hws g2' s4
      refine ⟨st', out', (reduce_evals hf).mpr ⟨max m (max n1 (max n3 n4)), ?_⟩, k2, k3⟩
      have f0 := copyArg_le hm (show m ≤ max m (max n1 (max n3 n4)) by omega)
      have lift : ∀ k, k ≤ max m (max n1 (max n3 n4)) → LeEv (run T k) (run T (max m (max n1 (max n3 n4)))) := by
        intro k hk
        have := le_max_run (T := T) k (max m (max n1 (max n3 n4)))
        rwa [Nat.max_eq_right hk] at this
      have f1 := evalArg_mono (lift n1 (by omega)) _ _ _ _ h1
      have f3 := lift n3 (by omega) _ _ _ _ h3
      have f4 := reduceLoop_mono (lift n4 (by omega)) _ _ _ _ _ _ _ k1
      simp only [reduceNode, f0, Option.bind_some]
      simp only [St.alloc] at f1 ⊢
      rw [f1, Option.bind_some]
      simp only [if_neg hc1, hxs, List.length_cons, Nat.add_one_ne_zero, and_false, if_false, List.head?_cons, List.tail_cons]
      rw [e1, f3, Option.bind_some, f4]
      rfl

/-! ## Functions of the language -/

/-- The function of the language computes `G` on the lists of arguments in `D`, each argument being a list of one value. -/
def PrimOn (g : List Ar → Res) (D : List Val → Prop) (G : List Val → List Val) : Prop :=
  ∀ (as : List Ar) (vs : List Val), HoldAll as (vs.map fun v => [v]) → D vs → ∃ code out, g as = some (code, out) ∧ Holds out (G vs) ∧ code = 0

theorem evalArgs_atoms {E : Ev} : ∀ (xs : List UAtom) (vs : List Val), argsVal xs = some vs → (∀ v ∈ vs, Copyable v) →
    (∀ k, .str k ∈ vs → lookupVar st env k = none) →
    ∃ as, evalArgs E env (xs.map fun x => .atom (some x)) st = some (st, 0, as) ∧ HoldAll as (vs.map fun v => [v])
  | [], vs, h, _, _ => by
    simp only [argsVal, Option.some.injEq] at h
    subst h; exact ⟨[], rfl, rfl⟩
  | x :: xs, vs, h, hc, hk => by
    simp only [argsVal, Option.bind_eq_some_iff, Option.map_eq_some_iff] at h
    obtain ⟨v, hx, vs, hxs, rfl⟩ := h
    obtain ⟨out, h1, h2⟩ := atom_evals (st := st) (env := env) hx (hc v (by simp)) fun k hv => hk k (by simp [hv])
    obtain ⟨as, g1, g2⟩ := evalArgs_atoms (E := E) xs vs hxs (fun v hv => hc v (by simp [hv])) fun k hv => hk k (by simp [hv])
    refine ⟨out :: as, ?_, holdAll_cons.mpr ⟨h2, g2⟩⟩
    rw [List.map_cons, evalArgs, h1, Option.bind_some, if_neg (by simp), g1]
    rfl

/-- The name of a function of the language computes what the function does, on values that are not the names of variables. -/
theorem computes_prim {nm : Bytes} {g : List Ar → Res} {D : List Val → Prop} {G : List Val → List Val} {a : UAtom} (ha : a.val = some (.str nm))
    (hT : T nm = some (.prim g)) (hg : PrimOn g D G) :
    Computes T env (fun s => ∀ k, lookupVar s env k = lookupVar st env k) (.atom (some a))
      (fun vs => D vs ∧ (∀ v ∈ vs, Copyable v) ∧ ∀ k, .str k ∈ vs → lookupVar st env k = none) G := by
  rintro s e rest xs vs hP he hxs ⟨hD, hc, hk⟩
  obtain ⟨al, p, rfl⟩ := str_of_val ha
  have he' : (s.setRest e (xs.map fun x => .atom (some x))).exprs[e]? =
      some ⟨.apply, .atom (some (.mk 115 al (.str p nm))) :: xs.map fun x => .atom (some x)⟩ := by
    simp [St.setRest, he]
  generalize hs : s.setRest e (xs.map fun x => .atom (some x)) = s1 at he'
  have henv : s1.envs = s.envs := by rw [← hs]; rfl
  have hlook : ∀ (n : Node) k, lookupVar (s1.alloc n).1 env k = lookupVar st env k := by
    intro n k; rw [← hP k]; simp only [lookupVar, St.alloc, henv]
  obtain ⟨as, h1, h2⟩ := evalArgs_atoms (E := run T 0) (st := (s1.alloc ⟨.prim g, xs.map fun x => .atom (some x)⟩).1) (env := env) xs vs hxs hc
    (fun k hv => by rw [hlook]; exact hk k hv)
  obtain ⟨code, out, h3, h4, rfl⟩ := hg as vs h2 hD
  refine ⟨(s1.alloc ⟨.prim g, xs.map fun x => .atom (some x)⟩).1, 0, out, xs.map (fun x => .atom (some x)), (C39_builtin hT he').mpr
    (evals_node.mpr ⟨0, ?_⟩), h4, fun k => hlook _ k, ?_⟩
  · have hx : (s1.alloc ⟨.prim g, xs.map fun x => .atom (some x)⟩).1.exprs[s1.exprs.length]? = some ⟨.prim g, xs.map fun x => .atom (some x)⟩ := by
      simp [St.alloc]
    simp only [evalNode, hx, callPrim, h1, Option.bind_some, ne_eq, not_true_eq_false, if_false, h3, Option.map_some]
  · have hl := (List.getElem?_eq_some_iff.mp he').1
    simp only [St.alloc]
    rw [List.getElem?_append_left hl]; exact he'

theorem copyArg_name {a : UAtom} {nm : Bytes} (ha : a.val = some (.str nm)) (hc : Copyable (.str nm)) (s : St) :
    ∃ a', (∃ m, copyArg m s (.atom (some a)) = some (s, .atom (some a'))) ∧ a'.val = some (.str nm) := by
  obtain ⟨a', h1, h2, -⟩ := copyAtom_val a _ ha hc
  exact ⟨a', ⟨1, by simp only [copyArg, h1, Option.map_some]⟩, h2⟩

/-- `map(f, l₁, …, lₖ)` where `f` is the name of a function of the language that computes `G`. -/
theorem C39_map_named {a : UAtom} {nm : Bytes} {g : List Ar → Res} {a1 : Arg} {rest : List Arg} {cols : List Ar} {css : List (List Val)} {n : Nat}
    {D : List Val → Prop} {G : List Val → List Val} (ha : a.val = some (.str nm)) (hc : Copyable (.str nm)) (hT : T nm = some (.prim g)) (hg : PrimOn g D G)
    (hf : st.exprs[f]? = some ⟨.map, .atom (some a) :: a1 :: rest⟩)
    (hargs : AllEval T env (a1 :: rest) st st1 cols) (hcol : HoldAll cols css)
    (hmin : ∀ cs ∈ css, n ≤ cs.length) (hmin' : ∃ cs ∈ css, cs.length = n) (hn : n < 2 ^ 32)
    (hD : ∀ i, i < n → D (row css i) ∧ (∀ v ∈ row css i, Copyable v) ∧ (∀ k, .str k ∈ row css i → lookupVar st1 env k = none) ∧
      ∀ v ∈ G (row css i), Copyable v) :
    ∃ st' out, Evals T env st f (st', 0, some out) ∧ Holds (some out) ((List.range n).flatMap fun i => G (row css i)) := by
  obtain ⟨a', hcopy, ha'⟩ := copyArg_name ha hc st1
  obtain ⟨st', out, h1, -, h2⟩ := C39_map hf hargs hcol hmin hmin' hn hcopy (fun k => rfl) (computes_prim (st := st1) ha' hT hg)
    fun i hi => by
      obtain ⟨d1, d2, d3, d4⟩ := hD i hi
      exact ⟨⟨d1, d2, d3⟩, d4⟩
  exact ⟨st', out, h1, h2⟩

/-- The integer a value stands for, when it is an `int32`. -/
def i32Of : Val → Int
  | .num _ n => if n < 2147483648 then n else (n : Int) - 4294967296
  | _ => 0

theorem i32Of_val {n : Int} (h : ITy.i32.has n) : i32Of (ITy.i32.val n) = n := by
  simp [ITy.has, ITy.signed, ITy.width] at h
  simp only [ITy.val, i32Of, ITy.width]
  split <;> omega

/-- Addition of two `int32`s. -/
def addI (a b : Val) : Val := ITy.i32.val (i32Of a + i32Of b)
def addArgs : List Val → List Val
  | [a, b] => [addI a b]
  | _ => []
/-- Two `int32`s with a sum that is one, too. -/
def Summable (vs : List Val) : Prop :=
  ∃ m n, vs = [ITy.i32.val m, ITy.i32.val n] ∧ ITy.i32.has m ∧ ITy.i32.has n ∧ ITy.i32.has (m + n)

theorem prim_add : PrimOn (arg2 add) Summable addArgs := by
  rintro as vs h ⟨m, n, rfl, hm, hn, hs⟩
  obtain ⟨h1, h2⟩ := holdAll_get _ _ h
  match as, h1 with
  | [a, b], _ =>
    obtain ⟨_, _, e, ha, _, _, e', hb, -⟩ := h
    simp only [List.map_cons, List.map_nil, List.cons.injEq] at e
    obtain ⟨rfl, rfl⟩ := e
    simp only [List.cons.injEq] at e'
    obtain ⟨rfl, -⟩ := e'
    obtain ⟨o, g1, g2⟩ := C35_values add addI a b _ _ ha hb (by simp) (by
      intro x y v w hx hy hv hw
      simp only [List.mem_singleton] at hv hw
      subst hv hw
      rw [addI, i32Of_val hm, i32Of_val hn]
      exact C36_add .i32 .i32 m n hm hn x y hx hy fun _ => hs)
    exact ⟨0, some o, g1, g2, rfl⟩

/-- All partial sums are `int32`s. -/
def SumsIn : Int → List Int → Prop
  | acc, [] => ITy.i32.has acc
  | acc, n :: ns => ITy.i32.has acc ∧ ITy.i32.has n ∧ SumsIn (acc + n) ns

theorem sums_steps {P : Val → Prop} : ∀ (ns : List Int) (acc : Int), SumsIn acc ns → (∀ n, P (ITy.i32.val n)) →
    StepsIn (fun vs => Summable vs ∧ (∀ v ∈ vs, Copyable v) ∧ ∀ v ∈ vs, P v) true addI (ITy.i32.val acc) (ns.map ITy.i32.val) ∧
    (ns.map ITy.i32.val).foldl addI (ITy.i32.val acc) = ITy.i32.val (acc + ns.sum)
  | [], acc, _, _ => ⟨by show Copyable _; simp [Copyable, ITy.val, sizeVal]; decide, by simp⟩
  | n :: ns, acc, ⟨h1, h2, h3⟩, hp => by
    have hs : ITy.i32.has (acc + n) := by cases ns with
      | nil => exact h3
      | cons _ _ => exact h3.1
    obtain ⟨i1, i2⟩ := sums_steps (P := P) ns (acc + n) h3 hp
    have hc : ∀ n, Copyable (ITy.i32.val n) := by intro n; simp [Copyable, ITy.val, sizeVal]; decide
    have he : addI (ITy.i32.val acc) (ITy.i32.val n) = ITy.i32.val (acc + n) := by
      rw [addI, i32Of_val h1, i32Of_val h2]
    refine ⟨⟨hc _, hc _, ⟨⟨acc, n, rfl, h1, h2, hs⟩, ?_, ?_⟩, ?_⟩, ?_⟩
    · intro v hv; simp [both] at hv; rcases hv with rfl | rfl <;> exact hc _
    · intro v hv; simp [both] at hv; rcases hv with rfl | rfl <;> exact hp _
    · simp only [step1, if_true, he]; exact i1
    · rw [List.map_cons, List.foldl_cons, he, i2, List.sum_cons, Int.add_assoc]

/-- `lreduce(add, l, i)` is the sum of `i` and the values of `l`, in any environment, for `int32`s with partial
sums that are `int32`s. -/
theorem C39_sum {a x : UAtom} {nm : Bytes} {i : Int} {ns : List Int} {l : List UAtom} (ha : a.val = some (.str nm)) (hc : Copyable (.str nm))
    (hT : T nm = some (.prim (arg2 add))) (hl : argsVal l = some (ns.map ITy.i32.val)) (hx : x.val = some (ITy.i32.val i)) (hne : ns ≠ [])
    (hs : SumsIn i ns) (hf : st.exprs[f]? = some ⟨.lreduce, [.atom (some a), .list (some l), .atom (some x)]⟩) :
    ∃ st' out, Evals T env st f (st', 0, out) ∧ Holds out [ITy.i32.val (i + ns.sum)] := by
  obtain ⟨a', hcopy, ha'⟩ := copyArg_name ha hc st
  have hcv : ∀ n, Copyable (ITy.i32.val n) := by intro n; simp [Copyable, ITy.val, sizeVal]; decide
  obtain ⟨l', c1, c2, -⟩ := copyAr_holds (some l) _ hl (by
    intro v hv; obtain ⟨n, -, rfl⟩ := List.mem_map.mp hv; exact hcv n)
  obtain ⟨o, d1, d2⟩ := atom_evals (st := (st.alloc ⟨.apply, [.atom (some a'), .blank, .blank]⟩).1) (env := env) hx (hcv i) (by
    intro k hk; simp [ITy.val] at hk)
  obtain ⟨k1, k2⟩ := sums_steps (P := fun v => ∀ k, v ≠ .str k) ns i hs (by intro n k; simp [ITy.val])
  have hF : Computes T env (fun s => ∀ k, lookupVar s env k = lookupVar st env k) (.atom (some a'))
      (fun vs => Summable vs ∧ (∀ v ∈ vs, Copyable v) ∧ ∀ v ∈ vs, ∀ k, v ≠ .str k) addArgs := by
    rintro s e rest xs vs hP he hxs ⟨h1, h2, h3⟩
    exact computes_prim ha' hT prim_add s e rest xs vs hP he hxs ⟨h1, h2, fun k hk => absurd rfl (h3 _ hk k)⟩
  obtain ⟨st', out, h1, -, h2⟩ := C39_reduce_init (left := true) (rest := [.blank, .blank]) hf hcopy
    (code1 := 0) (code2 := 0) ⟨0, by simp only [evalArg, c1, Option.map_some]⟩ (by decide) c2 ⟨0, d1 _⟩ (by decide) d2
    (by simpa using hne) (fun k => rfl) (by simp [St.alloc]) hF (fun a b => rfl) k1
  refine ⟨st', out, h1, ?_⟩
  rw [if_pos rfl, k2] at h2
  exact h2

/-! ### Concrete cases -/

def opTable : Tab where
  fn
    | [43] => some plus
    | [45] => some (.prim (arg2 subtract))
    | [76] => some (.prim Expr.list)
    | _ => none
  parse _ := none

def ints (l : List Nat) : Arg := .list (some (l.map int))

/-- `map(+, [1, 2, 3], [10, 20])`, `lreduce(-, [3, 2], 10)`, `rreduce(-, [3, 2], 10)`, `lreduce(-, [10, 3, 2])`, `rreduce(-, [10, 3, 2])`,
and `map(lambda([x], x + x), [1, 2])` -/
def mapSt : St :=
  { exprs := [⟨.map, [.atom (some (name 43)), ints [1, 2, 3], ints [10, 20]]⟩,
              ⟨.lreduce, [.atom (some (name 45)), ints [3, 2], .atom (some (int 10))]⟩,
              ⟨.rreduce, [.atom (some (name 45)), ints [3, 2], .atom (some (int 10))]⟩,
              ⟨.lreduce, [.atom (some (name 45)), ints [10, 3, 2]]⟩,
              ⟨.rreduce, [.atom (some (name 45)), ints [10, 3, 2]]⟩,
              ⟨.map, [.func 0, ints [1, 2]]⟩,
              ⟨plus, [.atom (some (name 120)), .atom (some (name 120))]⟩]
    recs := [⟨[[120]], [6]⟩]
    envs := []
    bndl := none }

example : outOf (run opTable 6 none mapSt 0) = some (0, some [.num 105 11, .num 105 22]) := rfl
example : outOf (run opTable 6 none mapSt 1) = some (0, some [.num 105 5]) := rfl
example : outOf (run opTable 6 none mapSt 2) = some (0, some [.num 105 11]) := rfl
example : outOf (run opTable 6 none mapSt 3) = some (0, some [.num 105 5]) := rfl
example : outOf (run opTable 6 none mapSt 4) = some (0, some [.num 105 9]) := rfl
example : outOf (run opTable 9 none mapSt 5) = some (0, some [.num 105 2, .num 105 4]) := rfl
-- the hypotheses of `C39_map_named` and `C39_sum`
example : AllEval opTable none [ints [1, 2, 3], ints [10, 20]] mapSt mapSt [some [int 1, int 2, int 3], some [int 10, int 20]] :=
  .cons (code := 0) ⟨0, rfl⟩ (by decide) (.cons (code := 0) ⟨0, rfl⟩ (by decide) .nil)
example : HoldAll [some [int 1, int 2, int 3], some [int 10, int 20]] [[1, 2, 3].map ITy.i32.val, [10, 20].map ITy.i32.val] :=
  ⟨_, _, rfl, rfl, _, _, rfl, rfl, rfl⟩
example : row [[1, 2, 3].map ITy.i32.val, [10, 20].map ITy.i32.val] 1 = [ITy.i32.val 2, ITy.i32.val 20] := rfl
example : Summable [ITy.i32.val 2, ITy.i32.val 20] := ⟨2, 20, rfl, by decide, by decide, by decide⟩
example : SumsIn 10 [3, -2] := by simp only [SumsIn]; decide

/-! ### The full claims -/

/-- A reduction of an empty list gives the starting value. -/
def C39_reduce_full : Prop := ∀ (T : Tab) (st : St) (f : Nat) (a0 : Arg) (i : UAtom) (v : Val) (res : St × Int × Ar),
  st.exprs[f]? = some ⟨.lreduce, [a0, .list (some []), .atom (some i)]⟩ → i.val = some v → Evals T none st f res → Holds res.2.2 [v]

/-- It does not: the function is evaluated without arguments, and its error is lost. -/
theorem C39_reduce_full_fails : ¬ C39_reduce_full := by
  intro h
  have hr : outOf (run opTable 6 none { mapSt with exprs := [⟨.lreduce, [.atom (some (name 43)), .list (some []), .atom (some (int 5))]⟩] } 0) =
    some (0, some []) := rfl
  obtain ⟨r, h1, h2⟩ := Option.map_eq_some_iff.mp hr
  have := h opTable _ 0 _ (int 5) (.num 105 5) r rfl rfl ⟨6, h1⟩
  simp only [Prod.mk.injEq] at h2
  rw [Holds, h2.2] at this
  simp at this

/-- `map(list, l)` gives the values of `l`. -/
def C39_map_full : Prop := ∀ (T : Tab) (st : St) (env : Option Nat) (f : Nat) (l : List UAtom) (vs : List Val) (res : St × Int × Ar),
  T [76] = some (.prim Expr.list) → st.exprs[f]? = some ⟨.map, [.atom (some (name 76)), .list (some l)]⟩ → argsVal l = some vs →
  Evals T env st f res → Holds res.2.2 vs

/-- Not in an environment where a string among the values is the name of a variable: the function gets its value. -/
theorem C39_map_full_fails : ¬ C39_map_full := by
  intro h
  have hr : outOf (run opTable 6 (some 0) { mapSt with
      exprs := [⟨.map, [.atom (some (name 76)), .list (some [name 120])]⟩], envs := [[([120], some [int 7])]] } 0) = some (0, some [.num 105 7]) := rfl
  obtain ⟨r, h1, h2⟩ := Option.map_eq_some_iff.mp hr
  have := h opTable _ (some 0) 0 _ [.str [120]] r rfl rfl rfl ⟨6, h1⟩
  simp only [Prod.mk.injEq] at h2
  rw [Holds, h2.2] at this
  simp at this

end Libo.Props
