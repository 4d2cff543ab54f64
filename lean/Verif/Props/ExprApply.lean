import Verif.Props.ExprIf
import Verif.Props.ExprCmp
/-!
# C39: application of functions
-/

namespace Libo.Props
open Libo Libo.Expr

variable {T : Tab} {env : Option Nat} {st st0 st1 st2 : St} {f : Nat} {res : St × Int × Ar}

/-- The parameters are bound in environment `le` to the values of the arguments, which are evaluated one after the other in
environment `env`; `bs` lists what has been bound.  Parameters or arguments too many are ignored. -/
inductive Binds (T : Tab) (env : Option Nat) (le : Nat) : List Bytes → List Arg → St → St → List (Bytes × Ar) → Prop
  | noParam {as st} : Binds T env le [] as st st []
  | noArg {ps st} : Binds T env le ps [] st st []
  | step {p ps a as st st1 st2 bs code v} : ArgEvals T env st a (st1, code, v) → code ≠ UNBOUND →
      Binds T env le ps as (bindVar st1 le p v) st2 bs → Binds T env le (p :: ps) (a :: as) st st2 ((p, v) :: bs)

/-- An argument among them is an unbound address. -/
inductive BindFails (T : Tab) (env : Option Nat) (le : Nat) : List Bytes → List Arg → St → St → Prop
  | here {p ps a as st st1 v} : ArgEvals T env st a (st1, UNBOUND, v) → BindFails T env le (p :: ps) (a :: as) st st1
  | step {p ps a as st st1 st2 code v} : ArgEvals T env st a (st1, code, v) → code ≠ UNBOUND →
      BindFails T env le ps as (bindVar st1 le p v) st2 → BindFails T env le (p :: ps) (a :: as) st st2

/-- The expressions of a body are evaluated one after the other; the result is that of the last one; the first error ends it. -/
inductive BodyEvals (T : Tab) (le : Nat) : List Nat → St → St × Int × Ar → Prop
  | empty {s : St} : BodyEvals T le [] s (s, 0, none)
  | last {e : Nat} {s : St} {r : St × Int × Ar} : Evals T (some le) s e r → BodyEvals T le [e] s r
  | stop {e : Nat} {es : List Nat} {s : St} {r : St × Int × Ar} : es ≠ [] → Evals T (some le) s e r → r.2.1 ≠ 0 →
      BodyEvals T le (e :: es) s (r.1, r.2.1, none)
  | step {e : Nat} {es : List Nat} {s : St} {r r' : St × Int × Ar} : es ≠ [] → Evals T (some le) s e r → r.2.1 = 0 →
      BodyEvals T le es r.1 r' → BodyEvals T le (e :: es) s r'

theorem bindArgs_iff (le : Nat) : ∀ (ps : List Bytes) (as : List Arg) (st st' : St) (c : Int),
    (∃ n, bindArgs (run T n) env le ps as st = some (st', c)) ↔
      (c = 0 ∧ ∃ bs, Binds T env le ps as st st' bs) ∨ (c = UNBOUND ∧ BindFails T env le ps as st st')
  | [], as, st, st', c => by
    constructor
    · rintro ⟨n, h⟩
      rw [bindArgs] at h
      · simp only [Option.some.injEq, Prod.mk.injEq] at h
        obtain ⟨rfl, rfl⟩ := h
        exact .inl ⟨rfl, [], .noParam⟩
      · intros; simp_all
    · rintro (⟨rfl, bs, h⟩ | ⟨-, h⟩)
      · cases h
        · exact ⟨0, by rw [bindArgs]; intros; simp_all⟩
        · exact ⟨0, by rw [bindArgs]; intros; simp_all⟩
      · cases h
  | p :: ps, [], st, st', c => by
    constructor
    · rintro ⟨n, h⟩
      rw [bindArgs] at h
      · simp only [Option.some.injEq, Prod.mk.injEq] at h
        obtain ⟨rfl, rfl⟩ := h
        exact .inl ⟨rfl, [], .noArg⟩
      · intros; simp_all
    · rintro (⟨rfl, bs, h⟩ | ⟨-, h⟩)
      · cases h
        exact ⟨0, by rw [bindArgs]; intros; simp_all⟩
      · cases h
  | p :: ps, a :: as, st, st', c => by
    constructor
    · rintro ⟨n, h⟩
      rw [bindArgs] at h
      obtain ⟨r, h1, h2⟩ := Option.bind_eq_some_iff.mp h
      by_cases hr : r.2.1 = UNBOUND
      · rw [if_pos hr] at h2
        simp only [Option.some.injEq, Prod.mk.injEq] at h2
        obtain ⟨rfl, rfl⟩ := h2
        exact .inr ⟨hr, .here (v := r.2.2) ⟨n, by rw [h1, ← hr]⟩⟩
      · rw [if_neg hr] at h2
        rcases (bindArgs_iff le ps as _ st' c).mp ⟨n, h2⟩ with ⟨rfl, bs, h3⟩ | ⟨rfl, h3⟩
        · exact .inl ⟨rfl, _, .step (v := r.2.2) ⟨n, h1⟩ hr h3⟩
        · exact .inr ⟨rfl, .step (v := r.2.2) ⟨n, h1⟩ hr h3⟩
    · rintro (⟨rfl, bs, h⟩ | ⟨rfl, h⟩)
      · cases h with
        | step h1 h2 h3 =>
          obtain ⟨n, h1⟩ := h1
          obtain ⟨m, h3⟩ := (bindArgs_iff le ps as _ st' 0).mpr (.inl ⟨rfl, _, h3⟩)
          refine ⟨max n m, ?_⟩
          rw [bindArgs, evalArg_mono (le_max_run n m) _ _ _ _ h1, Option.bind_some, if_neg h2]
          exact bindArgs_mono (le_max_run' n m) _ _ _ _ _ _ h3
      · cases h with
        | here h1 =>
          obtain ⟨n, h1⟩ := h1
          exact ⟨n, by rw [bindArgs, h1, Option.bind_some, if_pos rfl]⟩
        | step h1 h2 h3 =>
          obtain ⟨n, h1⟩ := h1
          obtain ⟨m, h3⟩ := (bindArgs_iff le ps as _ st' UNBOUND).mpr (.inr ⟨rfl, h3⟩)
          refine ⟨max n m, ?_⟩
          rw [bindArgs, evalArg_mono (le_max_run n m) _ _ _ _ h1, Option.bind_some, if_neg h2]
          exact bindArgs_mono (le_max_run' n m) _ _ _ _ _ _ h3

theorem runBody_iff (le : Nat) : ∀ (es : List Nat) (st : St) (r : St × Int × Ar),
    (∃ n, runBody (run T n) le es st = some r) ↔ BodyEvals T le es st r
  | [], st, r => by
    constructor
    · rintro ⟨n, h⟩
      simp only [runBody, Option.some.injEq] at h
      subst h; exact .empty
    · intro h; cases h; exact ⟨0, rfl⟩
  | [e], st, r => by
    constructor
    · rintro ⟨n, h⟩; exact .last ⟨n, h⟩
    · intro h
      cases h with
      | last h => exact h
      | stop h => exact absurd rfl h
      | step h => exact absurd rfl h
  | e :: e' :: es, st, r => by
    constructor
    · rintro ⟨n, h⟩
      rw [runBody] at h
      · obtain ⟨q, h1, h2⟩ := Option.bind_eq_some_iff.mp h
        by_cases hq : q.2.1 = 0
        · rw [if_neg (by simpa using hq)] at h2
          exact .step (by simp) ⟨n, h1⟩ hq ((runBody_iff le (e' :: es) q.1 r).mp ⟨n, h2⟩)
        · rw [if_pos hq] at h2
          injection h2 with h2
          subst h2
          exact .stop (by simp) ⟨n, h1⟩ hq
      · simp
    · intro h
      cases h with
      | stop _ h1 h2 =>
        obtain ⟨n, h1⟩ := h1
        exact ⟨n, by rw [runBody, h1, Option.bind_some, if_pos h2]; simp⟩
      | step _ h1 h2 h3 =>
        obtain ⟨n, h1⟩ := h1
        obtain ⟨m, h3⟩ := (runBody_iff le (e' :: es) _ r).mpr h3
        refine ⟨max n m, ?_⟩
        rw [runBody, le_max_run n m _ _ _ _ h1, Option.bind_some, if_neg (by simpa using h2)]
        · exact runBody_mono (le_max_run' n m) _ _ _ _ h3
        · simp

/-- What an application of a function record does. -/
theorem apply_iff {r : Nat} {args : List Arg} {rc : FRec} (hf : st.exprs[f]? = some ⟨.apply, .func r :: args⟩)
    (hr : st.recs[r]? = some rc) : Evals T env st f res ↔ ∃ st0 le, newEnv st env = some (st0, le) ∧
      ((∃ st1 bs, Binds T env le rc.params args st0 st1 bs ∧ BodyEvals T le rc.body st1 res) ∨
       (∃ st1, BindFails T env le rc.params args st0 st1 ∧ res = (st1, UNBOUND, none))) := by
  rw [evals_node]
  have hn : ∀ n, evalNode n (run T n) T env st f = (newEnv st env).bind fun le =>
      (bindArgs (run T n) env le.2 rc.params args le.1).bind fun q =>
      if q.2 ≠ 0 then some (q.1, q.2, none) else runBody (run T n) le.2 rc.body q.1 := by
    intro n
    simp only [evalNode, hf, applyNode, applyRec, hr]
  simp only [hn]
  constructor
  · rintro ⟨n, h⟩
    obtain ⟨⟨st0, le⟩, h0, h⟩ := Option.bind_eq_some_iff.mp h
    obtain ⟨⟨st1, c⟩, h1, h⟩ := Option.bind_eq_some_iff.mp h
    refine ⟨st0, le, h0, ?_⟩
    simp only at h1 h
    rcases (bindArgs_iff le _ _ _ _ _).mp ⟨n, h1⟩ with ⟨rfl, bs, h2⟩ | ⟨rfl, h2⟩
    · rw [if_neg (by simp)] at h
      exact .inl ⟨st1, bs, h2, (runBody_iff le _ _ _).mp ⟨n, h⟩⟩
    · rw [if_pos (by decide)] at h
      injection h with h
      exact .inr ⟨st1, h2, h.symm⟩
  · rintro ⟨st0, le, h0, ⟨st1, bs, h1, h2⟩ | ⟨st1, h1, rfl⟩⟩
    · obtain ⟨n, h1⟩ := (bindArgs_iff le _ _ _ _ _).mpr (.inl ⟨rfl, bs, h1⟩)
      obtain ⟨m, h2⟩ := (runBody_iff le _ _ _).mpr h2
      refine ⟨max n m, ?_⟩
      rw [h0, Option.bind_some, bindArgs_mono (le_max_run n m) _ _ _ _ _ _ h1, Option.bind_some, if_neg (by simp)]
      exact runBody_mono (le_max_run' n m) _ _ _ _ h2
    · obtain ⟨n, h1⟩ := (bindArgs_iff le _ _ _ _ _).mpr (.inr ⟨rfl, h1⟩)
      refine ⟨n, ?_⟩
      rw [h0, Option.bind_some, h1, Option.bind_some, if_pos (show UNBOUND ≠ 0 by decide)]

/-! ## What the environments contain -/

/-- No key occurs twice in an environment. -/
def EnvOK (st : St) (env : Option Nat) : Prop := ∀ i e, env = some i → st.envs[i]? = some e → (e.map Prod.fst).Nodup

/-- Variable `k` has the values `vs` in the environment. -/
def VarHas (st : St) (env : Option Nat) (k : Bytes) (vs : List Val) : Prop := ∃ l, lookupVar st env k = some l ∧ Holds (some l) vs

/-- The new environment has the variables of the old one with the same values, and nothing else in the memory has changed. -/
theorem newEnv_spec {le : Nat} (hn : newEnv st env = some (st0, le)) (ho : EnvOK st env) :
    le = st.envs.length ∧ (∃ e, st0 = { st with envs := st.envs ++ [e] }) ∧ EnvOK st0 (some le) ∧
    (∀ k, lookupVar st0 (some le) k = none ↔ lookupVar st env k = none) ∧
    (∀ k vs, VarHas st env k vs → (∀ v ∈ vs, Copyable v) → VarHas st0 (some le) k vs) := by
  obtain ⟨e, he, h⟩ := Option.map_eq_some_iff.mp hn
  simp only [Prod.mk.injEq] at h
  obtain ⟨rfl, rfl⟩ := h
  have hlook : ∀ k, lookupVar { st with envs := st.envs ++ [e] } (some st.envs.length) k = (e.find? fun p => p.1 == k).bind (·.2) := by
    intro k; simp [lookupVar]
  refine ⟨rfl, ⟨e, rfl⟩, ?_⟩
  cases env with
  | none =>
    simp only [Option.some.injEq] at he
    subst he
    refine ⟨?_, fun k => ?_, fun k vs h => ?_⟩
    · rintro i e' hi he'
      simp only [Option.some.injEq] at hi
      subst hi
      simp only [List.getElem?_concat_length, Option.some.injEq] at he'
      subst he'; simp
    · rw [hlook]; simp [lookupVar]
    · obtain ⟨l, h, -⟩ := h
      simp [lookupVar] at h
  | some i =>
    simp only at he
    obtain ⟨e0, h0, h1⟩ := Option.bind_eq_some_iff.mp he
    have hnd := ho i e0 rfl h0
    have hl0 : ∀ k, lookupVar st (some i) k = (e0.find? fun p => p.1 == k).bind (·.2) := by
      intro k; simp [lookupVar, h0]
    -- by induction over the entries
    have key : ∀ (e0 e : Env), (e0.map Prod.fst).Nodup →
        ((e0.filter fun p => p.2.isSome).mapM fun p => (copyAr p.2).map fun v => (p.1, v)) = some e →
        (e.map Prod.fst).Nodup ∧ (∀ k, k ∈ e.map Prod.fst → k ∈ e0.map Prod.fst) ∧
        (∀ k, (e.find? fun p => p.1 == k).bind (·.2) = none ↔ (e0.find? fun p => p.1 == k).bind (·.2) = none) ∧
        (∀ k l, (e0.find? fun p => p.1 == k).bind (·.2) = some l → ∀ vs, Holds (some l) vs → (∀ v ∈ vs, Copyable v) →
          ∃ l', (e.find? fun p => p.1 == k).bind (·.2) = some l' ∧ Holds (some l') vs) := by
      intro e0
      induction e0 with
      | nil =>
        intro e _ h
        simp at h
        subst h
        exact ⟨by simp, by simp, by simp, by simp⟩
      | cons p e0 ih =>
        intro e hn h
        obtain ⟨k0, v0⟩ := p
        rw [List.map_cons, List.nodup_cons] at hn
        cases v0 with
        | none =>
          rw [List.filter_cons_of_neg (by simp)] at h
          obtain ⟨i1, i2, i3, i4⟩ := ih e hn.2 h
          have hnone : (e0.find? fun p => p.1 == k0) = none := by
            apply List.find?_eq_none.mpr
            intro x hx hxk
            exact hn.1 (List.mem_map.mpr ⟨x, hx, by simpa using hxk⟩)
          refine ⟨i1, fun k hk => by simp [List.mem_map.mp (i2 k hk)], fun k => ?_, fun k l hk => ?_⟩
          · rw [i3, List.find?_cons]
            by_cases hk : k0 = k
            · subst hk; simp [hnone]
            · rw [show (k0 == k) = false by simpa using hk]
          · rw [List.find?_cons] at hk
            by_cases hk0 : k0 = k
            · simp [hk0] at hk
            · rw [show (k0 == k) = false by simpa using hk0] at hk
              exact i4 k l hk
        | some l0 =>
          rw [List.filter_cons_of_pos (by simp), List.mapM_cons] at h
          simp only [Option.bind_eq_bind, Option.bind_eq_some_iff, Option.map_eq_some_iff, Option.pure_def, Option.some.injEq] at h
          obtain ⟨p, ⟨v, hv, rfl⟩, e', he', rfl⟩ := h
          obtain ⟨i1, i2, i3, i4⟩ := ih e' hn.2 he'
          have hvs : ∃ l, v = some l := by
            simp only [copyAr, Option.map_eq_some_iff] at hv
            obtain ⟨l, -, rfl⟩ := hv
            exact ⟨l, rfl⟩
          obtain ⟨l, rfl⟩ := hvs
          refine ⟨?_, fun k hk => ?_, fun k => ?_, fun k l' hk vs hvs hc => ?_⟩
          · rw [List.map_cons, List.nodup_cons]; exact ⟨fun h => hn.1 (i2 _ h), i1⟩
          · rw [List.map_cons, List.mem_cons] at hk ⊢
            exact hk.imp id (i2 k)
          · rw [List.find?_cons, List.find?_cons]
            by_cases hk : k0 = k
            · subst hk; simp
            · rw [show (k0 == k) = false by simpa using hk]; exact i3 k
          · rw [List.find?_cons] at hk ⊢
            by_cases hk0 : k0 = k
            · subst hk0
              simp only [beq_self_eq_true, Option.bind_some, Option.some.injEq] at hk ⊢
              subst hk
              obtain ⟨a', h1, h2, -⟩ := copyAr_holds _ vs hvs hc
              rw [hv] at h1
              injection h1 with h1
              exact ⟨l, rfl, h1 ▸ h2⟩
            · simp only [show (k0 == k) = false by simpa using hk0] at hk ⊢
              exact i4 k l' hk vs hvs hc
    obtain ⟨k1, -, k3, k4⟩ := key e0 e hnd h1
    refine ⟨?_, fun k => ?_, fun k vs hv hc => ?_⟩
    · rintro j e' hj he'
      simp only [Option.some.injEq] at hj
      subst hj
      simp only [List.getElem?_concat_length, Option.some.injEq] at he'
      subst he'; exact k1
    · rw [hlook, hl0]; exact k3 k
    · obtain ⟨l, hl, hh⟩ := hv
      rw [hl0] at hl
      obtain ⟨l', h2, h3⟩ := k4 k l hl vs hh hc
      exact ⟨l', by rw [hlook]; exact h2, h3⟩

theorem lookup_keeps (h : Keeps st st1) {i : Nat} (hi : i < st.envs.length) (k : Bytes) : lookupVar st1 (some i) k = lookupVar st (some i) k := by
  simp only [lookupVar, Option.bind_some]
  obtain ⟨r, hr⟩ := h.envs
  rw [← hr, List.getElem?_append_left hi]

theorem lookup_bind {i : Nat} (hi : i < st.envs.length) (k k' : Bytes) (v : Ar) :
    lookupVar (bindVar st i k v) (some i) k' = if k' = k then v else lookupVar st (some i) k' := by
  simp only [lookupVar, Option.bind_some, bindVar, List.getElem?_modify_eq, List.getElem?_eq_getElem hi, Option.map_eq_map, Option.map_some]
  by_cases h : k' = k
  · subst h; simp
  · rw [if_neg h, List.find?_cons, show (k == k') = false by simpa using fun e => h e.symm]
    generalize st.envs[i] = e
    simp only
    congr 1
    induction e with
    | nil => rfl
    | cons p e ih =>
      by_cases hp : p.1 = k
      · rw [List.filter_cons_of_neg (by simpa using hp), List.find?_cons,
          show (p.1 == k') = false by simpa using fun e => h (e.symm.trans hp)]
        exact ih
      · rw [List.filter_cons_of_pos (by simpa using hp), List.find?_cons, List.find?_cons, ih]

/-- The value a name is bound to last. -/
def lastOf (bs : List (Bytes × Ar)) (k : Bytes) : Option Ar := (bs.reverse.find? fun p => p.1 == k).map (·.2)

theorem lastOf_cons (p : Bytes × Ar) (bs : List (Bytes × Ar)) (k : Bytes) :
    lastOf (p :: bs) k = (lastOf bs k).or (if p.1 = k then some p.2 else none) := by
  simp only [lastOf, List.reverse_cons, List.find?_append]
  cases h : bs.reverse.find? fun p => p.1 == k with
  | some x => simp
  | none => by_cases hp : p.1 = k <;> simp [hp]

theorem argEvals_keeps {a : Arg} {r : St × Int × Ar} (h : ArgEvals T env st a r) : Keeps st r.1 := by
  obtain ⟨n, h⟩ := h
  exact evalArg_keeps (run_keeps T n) _ _ _ _ h

/-- After binding, the environment has the parameters as bound last, and the other names as before. -/
theorem binds_spec {le : Nat} {ps : List Bytes} {as : List Arg} {bs : List (Bytes × Ar)} (h : Binds T env le ps as st st1 bs)
    (hle : le < st.envs.length) : (∀ k, lookupVar st1 (some le) k = (lastOf bs k).getD (lookupVar st (some le) k)) ∧
      (∀ j, j ≠ le → j < st.envs.length → st1.envs[j]? = st.envs[j]?) ∧
      st.envs.length ≤ st1.envs.length ∧ bs.map Prod.fst = ps.take (min ps.length as.length) := by
  induction h with
  | noParam => exact ⟨fun k => rfl, fun _ _ _ => rfl, Nat.le_refl _, by simp⟩
  | noArg => exact ⟨fun k => rfl, fun _ _ _ => rfl, Nat.le_refl _, by simp⟩
  | @step p ps a as st s1 s2 bs code v h1 h2 h3 ih =>
    have hk := argEvals_keeps h1
    have hl1 : le < s1.envs.length := Nat.lt_of_lt_of_le hle hk.evlen
    obtain ⟨i1, i2, i3, i4⟩ := ih (by simpa [bindVar] using hl1)
    refine ⟨fun k => ?_, fun j hj hjl => ?_, ?_, ?_⟩
    · rw [i1 k, lookup_bind hl1, lastOf_cons]
      cases hlo : lastOf bs k with
      | some x => simp
      | none =>
        simp only [Option.getD_none, Option.none_or]
        by_cases hp : k = p
        · rw [if_pos hp, if_pos hp.symm]; rfl
        · rw [if_neg hp, if_neg (fun e => hp e.symm)]; exact lookup_keeps hk hle k
    · have hj1 : j < s1.envs.length := Nat.lt_of_lt_of_le hjl hk.evlen
      rw [i2 j hj (by simpa [bindVar] using hj1)]
      simp only [bindVar]
      rw [List.getElem?_modify_ne _ _ (show le ≠ j from fun e => hj e.symm)]
      obtain ⟨r, hr⟩ := hk.envs
      rw [← hr, List.getElem?_append_left hjl]
    · have := hk.evlen
      simp only [bindVar, List.length_modify] at i3 this
      omega
    · simp only [List.map_cons, List.length_cons, i4]
      rw [show min (ps.length + 1) (as.length + 1) = min ps.length as.length + 1 by omega, List.take_succ_cons]

theorem body_keeps {le : Nat} {es : List Nat} (h : BodyEvals T le es st res) : Keeps st res.1 := by
  obtain ⟨n, h⟩ := (runBody_iff le es st res).mpr h
  exact runBody_keeps (run_keeps T n) le es st _ h

theorem evals_keeps (h : Evals T env st f res) : Keeps st res.1 := by
  obtain ⟨n, h⟩ := h
  exact run_keeps T n _ _ _ _ h

/-- What C39 says of an application of a function record: there is an environment `le` that did not exist before; the
arguments are evaluated in the caller's environment `env`, each with the memory the one before has left; the body is evaluated
in `le`.  When it starts, and still when it has ended, the parameters have in `le` the values of the arguments, and all other
names have the values they have for the caller.  An argument that is an unbound address ends the application instead.  In any
case all environments there were before are unchanged afterwards.  (The second half of the property is in `ExprMap.lean`.) -/
theorem C39_apply_partial {r : Nat} {args : List Arg} {rc : FRec} (hf : st.exprs[f]? = some ⟨.apply, .func r :: args⟩)
    (hr : st.recs[r]? = some rc) (ho : EnvOK st env) (h : Evals T env st f res) :
    (∀ i, i < st.envs.length → res.1.envs[i]? = st.envs[i]?) ∧
    ∃ le st0, st.envs.length ≤ le ∧ st0.exprs = st.exprs ∧ st0.recs = st.recs ∧ st0.bndl = st.bndl ∧
      (∀ i, i < st.envs.length → st0.envs[i]? = st.envs[i]?) ∧
      ((∃ st1 bs, Binds T env le rc.params args st0 st1 bs ∧ BodyEvals T le rc.body st1 res ∧
          bs.map Prod.fst = rc.params.take args.length ∧
          ∀ k, lookupVar res.1 (some le) k = lookupVar st1 (some le) k ∧
            (∀ v, lastOf bs k = some v → lookupVar st1 (some le) k = v) ∧
            (k ∉ bs.map Prod.fst → (lookupVar st1 (some le) k = none ↔ lookupVar st env k = none) ∧
              ∀ vs, VarHas st env k vs → (∀ v ∈ vs, Copyable v) → VarHas st1 (some le) k vs)) ∨
       (BindFails T env le rc.params args st0 res.1 ∧ res.2 = (UNBOUND, none))) := by
  refine ⟨fun i hi => ?_, ?_⟩
  · obtain ⟨x, hx⟩ := (evals_keeps h).envs
    rw [← hx, List.getElem?_append_left hi]
  obtain ⟨st0, le, h0, hcase⟩ := (apply_iff hf hr).mp h
  obtain ⟨rfl, ⟨e, rfl⟩, n1, n2, n3⟩ := newEnv_spec h0 ho
  refine ⟨_, { st with envs := st.envs ++ [e] }, Nat.le_refl _, rfl, rfl, rfl, fun i hi => List.getElem?_append_left hi, ?_⟩
  rcases hcase with ⟨st1, bs, h1, h2⟩ | ⟨st1, h1, rfl⟩
  · refine .inl ⟨st1, bs, h1, h2, ?_⟩
    have hl : st.envs.length < (st.envs ++ [e]).length := by simp
    obtain ⟨b1, b2, b3, b4⟩ := binds_spec h1 hl
    have hl1 : st.envs.length < st1.envs.length := Nat.lt_of_lt_of_le hl b3
    refine ⟨?_, fun k => ⟨lookup_keeps (body_keeps h2) hl1 k, fun v hv => ?_, fun hk => ?_⟩⟩
    · rw [b4, List.take_eq_take_iff]; omega
    · rw [b1, hv]; rfl
    · have hn : lastOf bs k = none := by
        simp only [lastOf, Option.map_eq_none_iff, List.find?_eq_none, List.mem_reverse]
        intro x hx hxk
        exact hk (List.mem_map.mpr ⟨x, hx, by simpa using hxk⟩)
      have he : lookupVar st1 (some st.envs.length) k = lookupVar { st with envs := st.envs ++ [e] } (some st.envs.length) k := by
        rw [b1, hn]; rfl
      refine ⟨by rw [he]; exact n2 k, fun vs hv hc => ?_⟩
      obtain ⟨l, hl, hh⟩ := n3 k vs hv hc
      exact ⟨l, by rw [he]; exact hl, hh⟩
  · exact .inr ⟨h1, rfl⟩

/-- Conversely the application ends with the result of the body when the arguments and the body can be evaluated. -/
theorem C39_apply_ends {r le : Nat} {args : List Arg} {rc : FRec} {bs : List (Bytes × Ar)} (hf : st.exprs[f]? = some ⟨.apply, .func r :: args⟩)
    (hr : st.recs[r]? = some rc) (h0 : newEnv st env = some (st0, le)) (h1 : Binds T env le rc.params args st0 st1 bs)
    (h2 : BodyEvals T le rc.body st1 res) : Evals T env st f res :=
  (apply_iff hf hr).mpr ⟨st0, le, h0, .inl ⟨st1, bs, h1, h2⟩⟩

/-- An atom stands for its value, unless it is a string that is the name of a variable. -/
theorem atom_evals {a : UAtom} {v : Val} (ha : a.val = some v) (hc : Copyable v) (hfree : ∀ k, v = .str k → lookupVar st env k = none) :
    ∃ out, (∀ E, evalArg E env st (some (.atom (some a))) = some (st, 0, out)) ∧ Holds out [v] := by
  obtain ⟨out, h1, h2, h3, -⟩ := copyTo_spec (Expr.mk 1) 0 (some a) v ha hc (by simp [Expr.mk])
  have hn : (strOf (some a)).bind (lookupVar st env) = none := by
    cases hs : strOf (some a) with
    | none => rfl
    | some k =>
      refine hfree k ?_
      obtain ⟨tag, al, w⟩ := a
      cases w <;> simp only [strOf, reduceCtorEq] at hs
      by_cases ht : tag = 115
      · subst ht
        simp only [if_true, Option.some.injEq] at hs
        subst hs
        simpa [UAtom.val] using ha.symm
      · simp [ht] at hs
  refine ⟨some out, fun E => by simp only [evalArg, hn, h1, Option.map_some], ?_⟩
  refine (argsVal_iff _ _).mpr ⟨by simpa [Expr.mk] using h2, fun i hi => ?_⟩
  obtain rfl : i = 0 := by simp at hi; omega
  simpa using h3

/-- A name that has a value stands for it; any other string for itself. -/
theorem C39_var {a : UAtom} {k : Bytes} (ha : a.val = some (.str k)) (hk : Copyable (.str k)) :
    (∀ vs, VarHas st env k vs → (∀ v ∈ vs, Copyable v) → ∃ out, ArgEvals T env st (.atom (some a)) (st, 0, out) ∧ Holds out vs) ∧
    (lookupVar st env k = none → ∃ out, ArgEvals T env st (.atom (some a)) (st, 0, out) ∧ Holds out [.str k]) := by
  constructor
  · rintro vs ⟨l, hl, hh⟩ hc
    obtain ⟨al, p, rfl⟩ := str_of_val ha
    obtain ⟨a', h1, h2, -⟩ := copyAr_holds _ vs hh hc
    exact ⟨a', ⟨0, by simp only [evalArg, strOf, if_true, Option.bind_some, hl, h1, Option.map_some]⟩, h2⟩
  · intro hn
    obtain ⟨out, h1, h2⟩ := atom_evals (st := st) (env := env) ha hk (by rintro k' ⟨⟩; exact hn)
    exact ⟨out, ⟨0, h1 _⟩, h2⟩

/-- A parameter does not shadow the name of a function of the language: what is applied is that function, whatever the
environment contains. -/
theorem C39_builtin {k : Bytes} {fn : Fn} {al : Bool} {p : Nat} {args : List Arg} (hT : T k = some fn)
    (hf : st.exprs[f]? = some ⟨.apply, .atom (some (.mk 115 al (.str p k))) :: args⟩) :
    Evals T env st f res ↔ Evals T env (st.alloc ⟨fn, args⟩).1 st.exprs.length res := by
  rw [evals_node]
  have : ∀ n, evalNode n (run T n) T env st f = run T n env (st.alloc ⟨fn, args⟩).1 st.exprs.length := by
    intro n
    simp only [evalNode, hf, applyNode, tagOf, Option.map_some, Option.getD_some, UAtom.tag, strOf, if_true, hT, callFn]
    rfl
  simp only [this]; rfl

/-- Another name that is bound to a function stands for it. -/
theorem C39_name {k : Bytes} {al : Bool} {p r : Nat} {al' : Bool} {l : List UAtom} {args : List Arg} (hT : T k = none)
    (hf : st.exprs[f]? = some ⟨.apply, .atom (some (.mk 115 al (.str p k))) :: args⟩)
    (hv : lookupVar st env k = some (.mk 114 al' (.bits r) :: l)) :
    Evals T env st f res ↔ Evals T env (st.setArgs f (.func r :: args)) f res := by
  rw [evals_node]
  have : ∀ n, evalNode n (run T n) T env st f = run T n env (st.setArgs f (.func r :: args)) f := by
    intro n
    simp only [evalNode, hf, applyNode, tagOf, Option.map_some, Option.getD_some, UAtom.tag, strOf, if_true, hT, hv, at?,
      List.getElem?_cons_zero]
    rfl
  simp only [this]; rfl

/-! ### A concrete case

`lambda([x], x + y)` applied to 3 where `x` is 100 and `y` is 5. -/

def int (n : Nat) : UAtom := .mk 105 false (.bits n)
def name (c : UInt8) : UAtom := .mk 115 false (.str 0 [c])
def plus : Fn := .prim (arg2 add)

def appSt : St :=
  { exprs := [⟨.apply, [.func 0, .atom (some (int 3))]⟩, ⟨plus, [.atom (some (name 120)), .atom (some (name 121))]⟩]
    recs := [⟨[[120]], [1]⟩]
    envs := [[([120], some [int 100]), ([121], some [int 5])]]
    bndl := none }

def outOf (r : Option (St × Int × Ar)) : Option (Int × Option (List Val)) := r.map fun r => (r.2.1, argsVal (r.2.2.getD []))

example : EnvOK appSt (some 0) := by
  rintro i e ⟨⟩ h
  simp only [appSt, List.getElem?_cons_zero, Option.some.injEq] at h
  subst h; decide
example : Binds noTab (some 0) 1 [[120]] [.atom (some (int 3))] { appSt with envs := appSt.envs ++ appSt.envs }
    (bindVar { appSt with envs := appSt.envs ++ appSt.envs } 1 [120] (some [int 3])) [([120], some [int 3])] :=
  .step ⟨0, rfl⟩ (by decide) .noParam
example : outOf (run noTab 5 (some 0) appSt 0) = some (0, some [.num 105 8]) := rfl
example : (run noTab 5 (some 0) appSt 0).map (fun r => lookupVar r.1 (some 0) [120]) = some (some [int 100]) := rfl
example : (run noTab 5 (some 0) appSt 0).map (fun r => lookupVar r.1 (some 1) [120]) = some (some [int 3]) := rfl

/-! ### The full claim

Parameters are bound for the body only: what a body does with other arguments does not depend on its having been evaluated
before.  That fails when a parameter is applied, because its value then replaces the name in the expression for good. -/

/-- The value of an expression in an environment is the same after it has been evaluated in another environment (there is no
bundle that it could have changed). -/
def C39_full : Prop := ∀ (T : Tab) (st : St) (e1 e2 f : Nat) (r1 r2 r : St × Int × Ar), st.bndl = none →
  Evals T (some e1) st f r1 → Evals T (some e2) r1.1 f r2 → Evals T (some e2) st f r →
  argsVal (r2.2.2.getD []) = argsVal (r.2.2.getD [])

/-- `apply(F, 1)`; the functions are `lambda([x], x + 1)` and `lambda([x], x + 2)`. -/
def leakSt : St :=
  { exprs := [⟨.apply, [.atom (some (name 70)), .atom (some (int 1))]⟩,
              ⟨plus, [.atom (some (name 120)), .atom (some (int 1))]⟩, ⟨plus, [.atom (some (name 120)), .atom (some (int 2))]⟩]
    recs := [⟨[[120]], [1]⟩, ⟨[[120]], [2]⟩]
    envs := [[([70], some [.mk 114 false (.bits 0)])], [([70], some [.mk 114 false (.bits 1)])]]
    bndl := none }

theorem C39_full_fails : ¬ C39_full := by
  intro h
  cases h1 : run noTab 6 (some 0) leakSt 0 with
  | none =>
    have : outOf (run noTab 6 (some 0) leakSt 0) = some (0, some [.num 105 2]) := rfl
    rw [h1] at this; simp [outOf] at this
  | some r1 =>
    have hr : (run noTab 6 (some 0) leakSt 0).bind (fun r => outOf (run noTab 6 (some 1) r.1 0)) =
        some (0, some [.num 105 2]) := rfl
    have hr0 : outOf (run noTab 6 (some 1) leakSt 0) = some (0, some [.num 105 3]) := rfl
    rw [h1, Option.bind_some] at hr
    obtain ⟨r2, h2, e2⟩ := Option.map_eq_some_iff.mp hr
    obtain ⟨r3, h3, e3⟩ := Option.map_eq_some_iff.mp hr0
    have := h noTab leakSt 0 1 0 r1 r2 r3 rfl ⟨6, h1⟩ ⟨6, h2⟩ ⟨6, h3⟩
    simp only [Prod.mk.injEq] at e2 e3
    rw [e2.2, e3.2] at this
    simp at this

end Libo.Props
