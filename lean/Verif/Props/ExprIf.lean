import Verif.ExprEvalKeeps
import Verif.ExprListLemmas
/-!
# C38: conditional and short-circuit forms

`Evals` and `ArgEvals` say that an evaluation ends, and with which memory, code and values.
-/

namespace Libo.Props
open Libo Libo.Expr

/-- The evaluation of expression `f` in the environment ends with result `r`. -/
def Evals (T : Tab) (env : Option Nat) (st : St) (f : Nat) (r : St × Int × Ar) : Prop :=
  ∃ n, run T n env st f = some r

/-- The evaluation of an argument in the environment ends with result `r`. -/
def ArgEvals (T : Tab) (env : Option Nat) (st : St) (a : Arg) (r : St × Int × Ar) : Prop :=
  ∃ n, evalArg (run T n) env st (some a) = some r

variable {T : Tab} {env : Option Nat} {st st1 st2 : St} {f : Nat} {r r' : St × Int × Ar}

theorem le_max_run (n m : Nat) : LeEv (run T n) (run T (max n m)) := run_mono T (Nat.le_max_left n m)
theorem le_max_run' (n m : Nat) : LeEv (run T m) (run T (max n m)) := run_mono T (Nat.le_max_right n m)

/-- An evaluation has one result. -/
theorem evals_unique (h : Evals T env st f r) (h' : Evals T env st f r') : r = r' := by
  obtain ⟨n, h⟩ := h
  obtain ⟨m, h'⟩ := h'
  have h1 := le_max_run n m _ _ _ _ h
  rw [le_max_run' n m _ _ _ _ h'] at h1
  injection h1 with e; exact e.symm

theorem argEvals_unique {a : Arg} (h : ArgEvals T env st a r) (h' : ArgEvals T env st a r') : r = r' := by
  obtain ⟨n, h⟩ := h
  obtain ⟨m, h'⟩ := h'
  have h1 := evalArg_mono (le_max_run n m) _ _ _ _ h
  rw [evalArg_mono (le_max_run' n m) _ _ _ _ h'] at h1
  injection h1 with e; exact e.symm

/-- Evaluation of an expression is that of its node. -/
theorem evals_node : Evals T env st f r ↔ ∃ n, evalNode n (run T n) T env st f = some r := by
  constructor
  · rintro ⟨n, h⟩
    cases n with
    | zero => cases h
    | succ n => exact ⟨n, h⟩
  · rintro ⟨n, h⟩
    exact ⟨n + 1, h⟩

/-- If the node is computed from an argument evaluated first, the value found for that argument can be used. -/
theorem evals_first {a : Arg} {g : Nat → (St × Int × Ar) → EvRes} (ha : ArgEvals T env st a r')
    (hm : ∀ n, Le (g n r') (g (n + 1) r'))
    (h : ∀ n, evalNode n (run T n) T env st f = (evalArg (run T n) env st (some a)).bind (g n)) :
    Evals T env st f r ↔ ∃ n, g n r' = some r := by
  have hmm : ∀ n m, n ≤ m → Le (g n r') (g m r') := by
    intro n m hnm
    induction hnm with
    | refl => exact Le.rfl
    | step _ ih => exact fun x hx => hm _ x (ih x hx)
  rw [evals_node]
  obtain ⟨k, hk⟩ := ha
  constructor
  · rintro ⟨n, hn⟩
    rw [h] at hn
    obtain ⟨x, h1, h2⟩ := Option.bind_eq_some_iff.mp hn
    have : x = r' := argEvals_unique ⟨n, h1⟩ ⟨k, hk⟩
    subst this
    exact ⟨n, h2⟩
  · rintro ⟨n, hn⟩
    refine ⟨max n k, ?_⟩
    rw [h, evalArg_mono (le_max_run' n k) _ _ _ _ hk, Option.bind_some]
    exact hmm _ _ (Nat.le_max_left n k) _ hn

/-! ## `if` -/

/-- `if` in terms of its parts: what `condNode` does after the test. -/
theorem cond_evals {t a : Arg} {rest : List Arg} {tv : Ar} {c : Int} (hf : st.exprs[f]? = some ⟨.cond, t :: a :: rest⟩)
    (hl : rest.length ≤ 1) (ht : ArgEvals T env st t (st1, 0, tv)) (hc : intOf UAtom.getInt32 (at? tv 0) = some c) :
    Evals T env st f r ↔ ∃ n, ((if c ≠ 0 then evalArg (run T n) env st1 (some a)
        else if 2 < (t :: a :: rest).length then (if Expr.len tv = 0 then none else evalArg (run T n) env st1 rest[0]?)
        else some (st1, 0, none) : EvRes).bind fun r =>
      if r.2.1 ≠ 0 then some (r.1, r.2.1, none)
      else (copyIntoAr (Expr.mk (Expr.len r.2.2)) r.2.2 0).map fun out => (r.1, 0, some out)) = some r := by
  rw [evals_first (g := fun n t' => if t'.2.1 ≠ 0 then some (t'.1, t'.2.1, none)
    else (intOf UAtom.getInt32 (at? t'.2.2 0)).bind fun c =>
      (if c ≠ 0 then evalArg (run T n) env t'.1 (some a)
        else if 2 < (t :: a :: rest).length then (if Expr.len t'.2.2 = 0 then none else evalArg (run T n) env t'.1 rest[0]?)
        else some (t'.1, 0, none) : EvRes).bind fun r =>
      if r.2.1 ≠ 0 then some (r.1, r.2.1, none)
      else (copyIntoAr (Expr.mk (Expr.len r.2.2)) r.2.2 0).map fun out => (r.1, 0, some out)) ht]
  · simp only [ne_eq, not_true_eq_false, if_false, hc, Option.bind_some]
  · intro n
    refine .ite .rfl (.obind .rfl fun c => .obind (.ite ?_ (.ite (.ite .rfl ?_) .rfl)) fun _ => .rfl)
    · exact evalArg_mono (run_succ T n) _ _ _
    · exact evalArg_mono (run_succ T n) _ _ _
  · intro n
    simp only [evalNode, hf, condNode]
    rw [if_neg (by simp only [List.length_cons]; omega)]
    rfl

/-- Copying a result into a new array gives the same values. -/
theorem copy_out {v : Ar} {vs : List Val} (h : Holds v vs) (hc : ∀ x ∈ vs, Copyable x) :
    ∃ out, copyIntoAr (Expr.mk (Expr.len v)) v 0 = some out ∧ Holds (some out) vs := by
  obtain ⟨o, h1, h2, h3, -⟩ := copyIntoAr_spec (Expr.mk (Expr.len v)) v vs 0 h hc (by rw [mk_length, holds_len h]; omega)
  refine ⟨o, h1, (argsVal_iff _ _).mpr ⟨?_, fun i hi => ?_⟩⟩
  · rw [mk_length, holds_len h] at h2; simpa using h2
  · simpa using h3 i hi

/-- What `if` makes of the result of the branch: an error code is passed on, values are passed on. -/
def PassedOn (T : Tab) (env : Option Nat) (st : St) (f : Nat) (stb : St) (branch : Arg) : Prop :=
  (∀ r, Evals T env st f r → ∃ v, ArgEvals T env stb branch (r.1, r.2.1, v)) ∧
  (∀ st2 code v, ArgEvals T env stb branch (st2, code, v) → code ≠ 0 → Evals T env st f (st2, code, none)) ∧
  (∀ st2 v vs, ArgEvals T env stb branch (st2, 0, v) → Holds v vs → (∀ x ∈ vs, Copyable x) →
    ∃ out, Evals T env st f (st2, 0, some out) ∧ Holds (some out) vs)

theorem passedOn_of {stb : St} {branch : Arg} (h : ∀ r, Evals T env st f r ↔
    ∃ n, ((evalArg (run T n) env stb (some branch)).bind fun r => if r.2.1 ≠ 0 then some (r.1, r.2.1, none)
      else (copyIntoAr (Expr.mk (Expr.len r.2.2)) r.2.2 0).map fun out => (r.1, 0, some out)) = some r) :
    PassedOn T env st f stb branch := by
  refine ⟨fun r hr => ?_, fun st2 code v ha hc => ?_, fun st2 v vs ha hv hcp => ?_⟩
  · obtain ⟨n, hn⟩ := (h r).mp hr
    obtain ⟨x, h1, h2⟩ := Option.bind_eq_some_iff.mp hn
    by_cases hx : x.2.1 = 0
    · rw [if_neg (by simpa using hx)] at h2
      obtain ⟨o, -, h4⟩ := Option.map_eq_some_iff.mp h2
      subst h4
      exact ⟨x.2.2, n, by rw [h1, ← hx]⟩
    · rw [if_pos hx] at h2
      injection h2 with h2
      subst h2
      exact ⟨x.2.2, n, h1⟩
  · obtain ⟨n, hn⟩ := ha
    refine (h _).mpr ⟨n, ?_⟩
    rw [hn, Option.bind_some, if_pos hc]
  · obtain ⟨n, hn⟩ := ha
    obtain ⟨o, h1, h2⟩ := copy_out hv hcp
    refine ⟨o, (h _).mpr ⟨n, ?_⟩, h2⟩
    rw [hn, Option.bind_some, if_neg (by simp), h1, Option.map_some]

/-- **C38**, `if`: the test is evaluated first, and then, with the memory and bundle the test left behind, the branch it selects:
the second argument if the first value of the test, as a 32 bit integer, is not zero, otherwise the third.  Code, values, memory
and bundle are those of this branch.  The other branch does not matter at all. -/
theorem C38_if {t a b : Arg} {tv : Ar} {c : Int} (hf : st.exprs[f]? = some ⟨.cond, [t, a, b]⟩)
    (ht : ArgEvals T env st t (st1, 0, tv)) (hc : intOf UAtom.getInt32 (at? tv 0) = some c) (hv : Expr.len tv ≠ 0) :
    PassedOn T env st f st1 (if c ≠ 0 then a else b) := by
  refine passedOn_of fun r => ?_
  rw [cond_evals (c := c) hf (by simp) ht hc]
  by_cases h : c = 0
  · simp [h, hv]
  · simp [h]

/-- **C38**, `if` without a third argument. -/
theorem C38_if_then {t a : Arg} {tv : Ar} {c : Int} (hf : st.exprs[f]? = some ⟨.cond, [t, a]⟩)
    (ht : ArgEvals T env st t (st1, 0, tv)) (hc : intOf UAtom.getInt32 (at? tv 0) = some c) :
    (c ≠ 0 → PassedOn T env st f st1 a) ∧ (c = 0 → Evals T env st f (st1, 0, some [])) := by
  constructor
  · intro h
    refine passedOn_of fun r => ?_
    rw [cond_evals (c := c) hf (by simp) ht hc]
    simp [h]
  · intro h
    rw [cond_evals (c := c) hf (by simp) ht hc]
    exact ⟨0, by simp [h, copyIntoAr, Expr.len, Expr.mk]⟩

/-- **C38**, `if` with a test that fails: the code is passed on and no branch is evaluated. -/
theorem C38_if_error {t a : Arg} {rest : List Arg} {code : Int} {tv : Ar} (hf : st.exprs[f]? = some ⟨.cond, t :: a :: rest⟩)
    (hl : rest.length ≤ 1) (ht : ArgEvals T env st t (st1, code, tv)) (hc : code ≠ 0) :
    Evals T env st f (st1, code, none) := by
  obtain ⟨n, hn⟩ := ht
  refine evals_node.mpr ⟨n, ?_⟩
  simp only [evalNode, hf, condNode]
  rw [if_neg (by simp only [List.length_cons]; omega), List.getElem?_cons_zero, hn, Option.bind_some, if_pos hc]

/-- The integer the test of `if` looks at: 1 and 0 for true and false, an integer reduced to 32 bits. -/
theorem C38_test (tv : Ar) (v : Val) (vs : List Val) (h : Holds tv (v :: vs)) :
    Expr.len tv ≠ 0 ∧ (v = .bare 84 → intOf UAtom.getInt32 (at? tv 0) = some 1) ∧
    (v = .bare 70 → intOf UAtom.getInt32 (at? tv 0) = some 0) ∧
    (∀ t n, ITy.has t n → v = t.val n → intOf UAtom.getInt32 (at? tv 0) = some (ITy.i32.conv n)) := by
  obtain ⟨x, hx, hxv⟩ := holds_at h (i := 0) (v := v) rfl
  refine ⟨by rw [holds_len h]; simp, ?_, ?_, ?_⟩
  · rintro rfl
    obtain ⟨tag, al, w⟩ := x
    rcases val_eq tag al w _ hxv with ⟨-, h2⟩ | ⟨-, h2⟩ | ⟨-, h2⟩ | ⟨-, h2⟩ | ⟨-, h2⟩ | ⟨-, p, s', -, h2⟩ |
      ⟨-, p, blk, l, c, -, -, -, h2⟩ | ⟨-, p, ms, vs, -, -, h2⟩ | ⟨h2, -⟩ <;> simp at h2
    subst h2
    rw [hx]; rfl
  · rintro rfl
    obtain ⟨tag, al, w⟩ := x
    rcases val_eq tag al w _ hxv with ⟨-, h2⟩ | ⟨-, h2⟩ | ⟨-, h2⟩ | ⟨-, h2⟩ | ⟨-, h2⟩ | ⟨-, p, s', -, h2⟩ |
      ⟨-, p, blk, l, c, -, -, -, h2⟩ | ⟨-, p, ms, vs, -, -, h2⟩ | ⟨h2, -⟩ <;> simp at h2
    subst h2
    rw [hx]; rfl
  · rintro t n hn rfl
    rw [hx]
    exact (getU_val t .i32 x n hn hxv).1

/-! ## `&&` and `||` -/

theorem short_evals {l a : Arg} {lv : Ar} {code : Int} {d : UInt8} (hf : st.exprs[f]? = some ⟨if d = 70 then .andalso else .orelse, [l, a]⟩)
    (hd : d = 70 ∨ d = 84) (ha : ArgEvals T env st l (st1, code, lv)) :
    Evals T env st f r ↔ ∃ n, (if lv.isNone ∨ code ≠ 0 then some (st1, code, none)
    else if tagOf (at? lv 0) = 84 ∨ tagOf (at? lv 0) = 70 then
        if tagOf (at? lv 0) = d then
          (setTo (Expr.mk 1) 0 (if d = 84 then UAtom.setTrue else UAtom.setFalse)).map fun out => (st1, 0, some out)
        else (evalArg (run T n) env st1 (some a)).bind fun r =>
          if r.2.2.isNone ∨ r.2.1 ≠ 0 then some (r.1, r.2.1, none)
          else if tagOf (at? r.2.2 0) = 84 ∨ tagOf (at? r.2.2 0) = 70 then
              (setTo (Expr.mk 1) 0 (if tagOf (at? r.2.2 0) = 70 then UAtom.setFalse else UAtom.setTrue)).map fun out => (r.1, 0, some out)
            else some (r.1, 1, none)
      else some (st1, 1, none) : EvRes) = some r := by
  refine evals_first (g := fun n l => if l.2.2.isNone ∨ l.2.1 ≠ 0 then some (l.1, l.2.1, none)
    else if tagOf (at? l.2.2 0) = 84 ∨ tagOf (at? l.2.2 0) = 70 then
        if tagOf (at? l.2.2 0) = d then
          (setTo (Expr.mk 1) 0 (if d = 84 then UAtom.setTrue else UAtom.setFalse)).map fun out => (l.1, 0, some out)
        else (evalArg (run T n) env l.1 (some a)).bind fun r =>
          if r.2.2.isNone ∨ r.2.1 ≠ 0 then some (r.1, r.2.1, none)
          else if tagOf (at? r.2.2 0) = 84 ∨ tagOf (at? r.2.2 0) = 70 then
              (setTo (Expr.mk 1) 0 (if tagOf (at? r.2.2 0) = 70 then UAtom.setFalse else UAtom.setTrue)).map fun out => (r.1, 0, some out)
            else some (r.1, 1, none)
      else some (l.1, 1, none)) ha ?_ ?_
  · intro n
    exact .ite .rfl (.ite (.ite .rfl (.obind (evalArg_mono (run_succ T n) _ _ _) fun _ => .rfl)) .rfl)
  · intro n
    rcases hd with rfl | rfl
    · simp only [evalNode, hf, if_true, shortNode]
      rw [if_neg (by simp)]
      rfl
    · simp only [evalNode, hf, show ¬ ((84 : UInt8) = 70) by decide, if_false, shortNode]
      rw [if_neg (by simp)]
      rfl

theorem tag_of_bare {x : UAtom} {t : UInt8} (h : x.val = some (.bare t)) : x.tag = t := by
  obtain ⟨tag, al, w⟩ := x
  rcases val_eq tag al w _ h with ⟨-, h2⟩ | ⟨-, h2⟩ | ⟨-, h2⟩ | ⟨-, h2⟩ | ⟨-, h2⟩ | ⟨-, p, s', -, h2⟩ |
    ⟨-, p, blk, l, c, -, -, -, h2⟩ | ⟨-, p, ms, vs, -, -, h2⟩ | ⟨h2, -⟩ <;> simp at h2
  exact h2.symm

/-- The array starts with a truth value. -/
def StartsWith (a : Ar) (b : Bool) : Prop := ∃ vs, Holds a (.bare (if b then 84 else 70) :: vs)

theorem startsWith_tag {a : Ar} {b : Bool} (h : StartsWith a b) : a.isNone = false ∧ tagOf (at? a 0) = if b then 84 else 70 := by
  obtain ⟨vs, h⟩ := h
  obtain ⟨x, hx, hv⟩ := holds_at h (i := 0) rfl
  constructor
  · cases a with
    | none => cases hx
    | some l => rfl
  · rw [hx]
    exact tag_of_bare hv

/-- The array with one truth value. -/
def truthAr (b : Bool) : Ar := some [.mk (if b then 84 else 70) false (.bits 0)]

/-- `&&` (`and = true`) or `||`: the function, and the value of the left operand that decides. -/
def shortFn (and : Bool) : Fn := if and then .andalso else .orelse

theorem shortFn_eq (and : Bool) : shortFn and = if (if and then 70 else 84 : UInt8) = 70 then .andalso else .orelse := by
  cases and <;> simp [shortFn]

/-- **C38**, `&&` and `||`, when the left operand decides (false for `&&`, true for `||`): the result is that truth value, and
memory and bundle are as the left operand left them; the right operand is not evaluated. -/
theorem C38_short {and : Bool} {l a : Arg} {lv : Ar} (hf : st.exprs[f]? = some ⟨shortFn and, [l, a]⟩)
    (hl : ArgEvals T env st l (st1, 0, lv)) (hv : StartsWith lv (!and)) :
    ∀ r, Evals T env st f r ↔ r = (st1, 0, truthAr (!and)) := by
  intro r
  obtain ⟨h1, h2⟩ := startsWith_tag hv
  rw [short_evals (d := if and then 70 else 84) (shortFn_eq and ▸ hf) (by cases and <;> simp) hl]
  simp only [h1, h2]
  cases and <;> simp [truthAr, eq_comm, setTo, Expr.mk, UAtom.setTrue, UAtom.setFalse, UAtom.clear, UAtom.fresh, UAtom.alloc, UAtom.w]

/-- **C38**, `&&` and `||`, when the left operand does not decide: the right operand is evaluated with the memory and bundle
the left one left behind; the result is its truth value; an error in it is passed on. -/
theorem C38_long {and : Bool} {l a : Arg} {lv : Ar} (hf : st.exprs[f]? = some ⟨shortFn and, [l, a]⟩)
    (hl : ArgEvals T env st l (st1, 0, lv)) (hv : StartsWith lv and) :
    (∀ r, Evals T env st f r → ∃ c v, ArgEvals T env st1 a (r.1, c, v) ∧ (c ≠ 0 → r.2.1 = c)) ∧
    (∀ st2 v b, ArgEvals T env st1 a (st2, 0, v) → StartsWith v b → Evals T env st f (st2, 0, truthAr b)) ∧
    (∀ st2 c v, ArgEvals T env st1 a (st2, c, v) → c ≠ 0 → Evals T env st f (st2, c, none)) := by
  obtain ⟨h1, h2⟩ := startsWith_tag hv
  have key : ∀ r, Evals T env st f r ↔ ∃ n, ((evalArg (run T n) env st1 (some a)).bind fun r =>
          if r.2.2.isNone ∨ r.2.1 ≠ 0 then some (r.1, r.2.1, none)
          else if tagOf (at? r.2.2 0) = 84 ∨ tagOf (at? r.2.2 0) = 70 then
              (setTo (Expr.mk 1) 0 (if tagOf (at? r.2.2 0) = 70 then UAtom.setFalse else UAtom.setTrue)).map fun out => (r.1, 0, some out)
            else some (r.1, 1, none)) = some r := by
    intro r
    rw [short_evals (d := if and then 70 else 84) (shortFn_eq and ▸ hf) (by cases and <;> simp) hl]
    simp only [h1, h2]
    cases and <;> simp
  refine ⟨fun r hr => ?_, fun st2 v b ha hb => ?_, fun st2 c v ha hc => ?_⟩
  · obtain ⟨n, hn⟩ := (key r).mp hr
    obtain ⟨x, h3, h4⟩ := Option.bind_eq_some_iff.mp hn
    refine ⟨x.2.1, x.2.2, ⟨n, ?_⟩, fun hc => ?_⟩
    · split at h4
      · injection h4 with h4; subst h4; exact h3
      · split at h4
        · obtain ⟨o, -, h5⟩ := Option.map_eq_some_iff.mp h4
          subst h5; exact h3
        · injection h4 with h4; subst h4; exact h3
    · rw [if_pos (.inr hc)] at h4
      injection h4 with h4; subst h4; rfl
  · obtain ⟨n, hn⟩ := ha
    obtain ⟨h3, h4⟩ := startsWith_tag hb
    refine (key _).mpr ⟨n, ?_⟩
    rw [hn]
    simp only [Option.bind_some, h3, h4]
    cases b <;> simp [truthAr, setTo, Expr.mk, UAtom.setTrue, UAtom.setFalse, UAtom.clear, UAtom.fresh, UAtom.alloc, UAtom.w]
  · obtain ⟨n, hn⟩ := ha
    refine (key _).mpr ⟨n, ?_⟩
    rw [hn, Option.bind_some, if_pos (.inr hc)]

/-- **C38**, `&&` and `||`: an error in the left operand is passed on, without evaluating the right one. -/
theorem C38_short_error {and : Bool} {l a : Arg} {lv : Ar} {code : Int} (hf : st.exprs[f]? = some ⟨shortFn and, [l, a]⟩)
    (hl : ArgEvals T env st l (st1, code, lv)) (hc : code ≠ 0) : ∀ r, Evals T env st f r ↔ r = (st1, code, none) := by
  intro r
  rw [short_evals (d := if and then 70 else 84) (shortFn_eq and ▸ hf) (by cases and <;> simp) hl]
  have hor : lv.isNone = true ∨ code ≠ 0 := .inr hc
  constructor
  · rintro ⟨n, h⟩
    rw [if_pos hor] at h; injection h with h; exact h.symm
  · rintro rfl
    exact ⟨0, if_pos hor⟩

/-- The test of `if` is cut to 32 bits: 2 to the 32 as a 64 bit integer selects the `else` branch. -/
theorem C38_if_truncates : intOf UAtom.getInt32 (at? (some [UAtom.mk 104 false (.bits 4294967296)]) 0) = some 0 ∧
    (UAtom.mk 104 false (.bits 4294967296)).val = some (ITy.i64.val 4294967296) := ⟨rfl, rfl⟩

/-! ### A concrete case

`if(t, /a = 1, /b = 2)` and `t && (/a = 1)`: expressions 1 and 2 are the assignments. -/

def ifNodes (t : UAtom) : List Node :=
  [⟨.cond, [.atom (some t), .expr 1, .expr 2]⟩,
   ⟨.assign, [.addr [47, 97], .atom (some (.mk 105 false (.bits 1)))]⟩,
   ⟨.assign, [.addr [47, 98], .atom (some (.mk 105 false (.bits 2)))]⟩,
   ⟨.andalso, [.atom (some t), .expr 1]⟩]

def ifSt (t : UAtom) : St := { exprs := ifNodes t, recs := [], envs := [], bndl := some (0, none) }

/-- The bundle after evaluation of expression `f`. -/
def bndlAfter (st : St) (f : Nat) : Option (Option (Int × Option Bytes)) :=
  (run noTab 3 none st f).map fun r => r.1.bndl

def tru : UAtom := .mk 84 false (.bits 0)
def fls : UAtom := .mk 70 false (.bits 0)

-- the hypotheses of `C38_if`, `C38_short` and `C38_long` hold
example : ArgEvals noTab none (ifSt tru) (.atom (some tru)) (ifSt tru, 0, some [tru]) := ⟨0, rfl⟩
example : intOf UAtom.getInt32 (at? (some [tru]) 0) = some 1 ∧ intOf UAtom.getInt32 (at? (some [fls]) 0) = some 0 := ⟨rfl, rfl⟩
example : StartsWith (some [tru]) true ∧ StartsWith (some [fls]) false := ⟨⟨[], rfl⟩, ⟨[], rfl⟩⟩
-- and the three bundles are different
example : bndlAfter (ifSt tru) 0 = some (some (32, some ([35, 98, 117, 110, 100, 108, 101] ++ List.replicate 12 0 ++
    [12, 47, 97, 0, 0, 44, 105, 0, 0, 0, 0, 0, 1]))) := by decide +kernel
example : bndlAfter (ifSt fls) 0 = some (some (32, some ([35, 98, 117, 110, 100, 108, 101] ++ List.replicate 12 0 ++
    [12, 47, 98, 0, 0, 44, 105, 0, 0, 0, 0, 0, 2]))) := by decide +kernel
example : bndlAfter (ifSt tru) 3 = some (some (32, some ([35, 98, 117, 110, 100, 108, 101] ++ List.replicate 12 0 ++
    [12, 47, 97, 0, 0, 44, 105, 0, 0, 0, 0, 0, 1]))) := by decide +kernel
example : bndlAfter (ifSt fls) 3 = some (some (0, none)) := by decide +kernel

end Libo.Props
