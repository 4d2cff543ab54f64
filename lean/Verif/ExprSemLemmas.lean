import Verif.ExprSemRep
import Verif.ExprBuild
import Verif.Props.ExprList
import Verif.Props.ExprCmp
import Verif.Props.ExprMap
/-!
# Lemmas: evaluation of built expressions does what the specification says

`Sound` relates an expression of the parser (`Tm`) to what the specification says about it; the lemmas say how this composes.
-/

namespace Libo.Sem
open Libo Libo.Expr Libo.Props Libo.Syn

/-! ### More steps for copying -/

theorem copyArgs_le {st : St} {as : List Arg} {q : St × List Arg} {n m : Nat} (h : copyArgs n st as = some q) (hm : n ≤ m) : copyArgs m st as = some q := by
  obtain ⟨k, rfl⟩ := Nat.exists_eq_add_of_le hm
  clear hm
  induction k with
  | zero => exact h
  | succ k ih => exact copyArgs_mono _ _ _ _ ih

theorem copyExpr_le {st : St} {e : Nat} {q : St × Nat} {n m : Nat} (h : copyExpr n st e = some q) (hm : n ≤ m) : copyExpr m st e = some q := by
  obtain ⟨k, rfl⟩ := Nat.exists_eq_add_of_le hm
  clear hm
  induction k with
  | zero => exact h
  | succ k ih => exact copyExpr_mono _ _ _ _ ih

theorem copyBody_le {st : St} {es : List Nat} {q : St × List Nat} {n m : Nat} (h : copyBody n st es = some q) (hm : n ≤ m) : copyBody m st es = some q := by
  obtain ⟨k, rfl⟩ := Nat.exists_eq_add_of_le hm
  clear hm
  induction k with
  | zero => exact h
  | succ k ih => exact copyBody_mono _ _ _ _ ih

/-! ### Expressions in memory -/

/-- Nothing in memory is lost or changed; there may be more of it. -/
structure Grows (s t : St) : Prop where
  exprs : s.exprs <+: t.exprs
  recs : s.recs <+: t.recs
  envs : s.envs <+: t.envs

theorem Grows.rfl {s : St} : Grows s s := ⟨List.prefix_rfl, List.prefix_rfl, List.prefix_rfl⟩

theorem Grows.trans {s t u : St} (h : Grows s t) (k : Grows t u) : Grows s u :=
  ⟨h.exprs.trans k.exprs, h.recs.trans k.recs, h.envs.trans k.envs⟩

theorem Grows.alloc {s t : St} (h : Grows s t) (n : Node) : Grows s (t.alloc n).1 :=
  ⟨h.exprs.trans (List.prefix_append _ _), h.recs, h.envs⟩

theorem prefix_modify {α : Type} {xs ys : List α} (h : xs <+: ys) {i : Nat} (hi : xs.length ≤ i) (g : α → α) : xs <+: ys.modify i g := by
  obtain ⟨r, rfl⟩ := h
  refine ⟨r.modify (i - xs.length) g, ?_⟩
  apply List.ext_getElem?
  intro j
  by_cases hj : j < xs.length
  · have hne : i ≠ j := by omega
    rw [List.getElem?_append_left hj, List.getElem?_modify, List.getElem?_append_left hj]
    simp [hne]
  · have hiff : (i - xs.length = j - xs.length) = (i = j) := by apply propext; omega
    rw [List.getElem?_append_right (by omega), List.getElem?_modify, List.getElem?_modify, List.getElem?_append_right (by omega)]
    simp only [hiff]

theorem Grows.setRest {s t : St} (h : Grows s t) {e : Nat} (he : s.exprs.length ≤ e) (as : List Arg) : Grows s (t.setRest e as) :=
  ⟨prefix_modify h.exprs he _, h.recs, h.envs⟩

theorem Grows.bindVar {s t : St} (h : Grows s t) {i : Nat} (hi : s.envs.length ≤ i) (k : Bytes) (v : Ar) : Grows s (bindVar t i k v) :=
  ⟨h.exprs, h.recs, prefix_modify h.envs hi _⟩

theorem Grows.bndl {s t : St} (h : Grows s t) (b : Option (Int × Option Bytes)) : Grows s { t with bndl := b } := ⟨h.exprs, h.recs, h.envs⟩

theorem prefix_get {α : Type} {xs ys : List α} (h : xs <+: ys) {i : Nat} {x : α} (hx : xs[i]? = some x) : ys[i]? = some x := by
  obtain ⟨r, rfl⟩ := h
  rw [List.getElem?_append_left (List.getElem?_eq_some_iff.mp hx).1, hx]

mutual
/-- The argument node stands for the expression. -/
def Loaded (st : St) : Tm → Arg → Prop
  | .atom a, r => ∃ a' v, r = .atom (some a') ∧ a.val = some v ∧ a'.val = some v ∧ Copyable v
  | .addr s, r => r = .addr s
  | .app f ts, r => ∃ e as, r = .expr e ∧ st.exprs[e]? = some ⟨f, as⟩ ∧ LoadedAll st ts as
  | .fn ps body, r => ∃ i es, r = .func i ∧ st.recs[i]? = some ⟨ps, es⟩ ∧ LoadedAll st body (es.map .expr)
  | _, _ => False
def LoadedAll (st : St) : List Tm → List Arg → Prop
  | [], as => as = []
  | t :: ts, as => ∃ a as', as = a :: as' ∧ Loaded st t a ∧ LoadedAll st ts as'
end

/-- Nothing but expressions. -/
def Bodies : List Tm → Prop
  | [] => True
  | t :: ts => (∃ f as, t = .app f as) ∧ Bodies ts

mutual
/-- Nothing but atoms, addresses, expressions and functions. -/
def Fine : Tm → Prop
  | .atom a => ∃ v, a.val = some v ∧ Copyable v
  | .addr _ => True
  | .app _ ts => Fines ts
  | .fn _ body => Fines body ∧ Bodies body
  | _ => False
def Fines : List Tm → Prop
  | [] => True
  | t :: ts => Fine t ∧ Fines ts
end

mutual
theorem loaded_grows {s s' : St} (g : Grows s s') : ∀ (t : Tm) (a : Arg), Loaded s t a → Loaded s' t a
  | .atom _, _, h => by simpa only [Loaded] using h
  | .addr _, _, h => by simpa only [Loaded] using h
  | .app f ts, _, h => by
    simp only [Loaded] at h ⊢
    obtain ⟨e, as, rfl, h1, h2⟩ := h
    exact ⟨e, as, rfl, prefix_get g.exprs h1, loadedAll_grows g ts as h2⟩
  | .null, _, h => by simp [Loaded] at h
  | .broken, _, h => by simp [Loaded] at h
  | .fn ps body, _, h => by
    simp only [Loaded] at h ⊢
    obtain ⟨i, es, rfl, h1, h2⟩ := h
    exact ⟨i, es, rfl, prefix_get g.recs h1, loadedAll_grows g body _ h2⟩
theorem loadedAll_grows {s s' : St} (g : Grows s s') : ∀ (ts : List Tm) (as : List Arg), LoadedAll s ts as → LoadedAll s' ts as
  | [], _, h => by simpa only [LoadedAll] using h
  | t :: ts, _, h => by
    simp only [LoadedAll] at h ⊢
    obtain ⟨a, as', rfl, h1, h2⟩ := h
    exact ⟨a, as', rfl, loaded_grows g t a h1, loadedAll_grows g ts as' h2⟩
end

mutual
theorem loadArg_loaded : ∀ (t : Tm) (st : St), Fine t → Loaded (t.loadArg st).1 t (t.loadArg st).2 ∧ Grows st (t.loadArg st).1 ∧
    (t.loadArg st).1.bndl = st.bndl
  | .atom a, st, h => by
    simp only [Fine] at h
    obtain ⟨v, h1, h2⟩ := h
    simp only [Tm.loadArg, Loaded]
    exact ⟨⟨a, v, rfl, h1, h1, h2⟩, .rfl, trivial⟩
  | .addr _, st, _ => ⟨by simp only [Tm.loadArg, Loaded], by simp only [Tm.loadArg]; exact .rfl, by simp only [Tm.loadArg]⟩
  | .app f ts, st, h => by
    simp only [Fine] at h
    obtain ⟨h1, h2, h3⟩ := loadArgs_loaded ts st h
    simp only [Tm.loadArg, Loaded]
    refine ⟨⟨_, _, rfl, by simp [St.alloc], loadedAll_grows (Grows.rfl.alloc _) _ _ h1⟩, h2.alloc _, h3⟩
  | .null, _, h => by simp [Fine] at h
  | .broken, _, h => by simp [Fine] at h
  | .fn ps body, st, h => by
    simp only [Fine] at h
    obtain ⟨h1, h2, h3⟩ := loadAll_loaded body st h.1 h.2
    simp only [Tm.loadArg, Loaded]
    have hg : Grows (loadAll body st).1 { (loadAll body st).1 with recs := (loadAll body st).1.recs ++ [⟨ps, (loadAll body st).2⟩] } :=
      ⟨List.prefix_rfl, List.prefix_append _ _, List.prefix_rfl⟩
    exact ⟨⟨_, _, rfl, by simp, loadedAll_grows hg _ _ h1⟩, h2.trans hg, h3⟩
theorem loadArgs_loaded : ∀ (ts : List Tm) (st : St), Fines ts → LoadedAll (loadArgs ts st).1 ts (loadArgs ts st).2 ∧ Grows st (loadArgs ts st).1 ∧
    (loadArgs ts st).1.bndl = st.bndl
  | [], st, _ => ⟨by simp only [loadArgs, LoadedAll], by simp only [loadArgs]; exact .rfl, by simp only [loadArgs]⟩
  | t :: ts, st, h => by
    simp only [Fines] at h
    obtain ⟨h1, h2, h3⟩ := loadArg_loaded t st h.1
    obtain ⟨k1, k2, k3⟩ := loadArgs_loaded ts (t.loadArg st).1 h.2
    simp only [loadArgs, LoadedAll]
    exact ⟨⟨_, _, rfl, loaded_grows k2 _ _ h1, k1⟩, h2.trans k2, by rw [k3, h3]⟩
theorem loadAll_loaded : ∀ (ts : List Tm) (st : St), Fines ts → Bodies ts → LoadedAll (loadAll ts st).1 ts ((loadAll ts st).2.map .expr) ∧
    Grows st (loadAll ts st).1 ∧ (loadAll ts st).1.bndl = st.bndl
  | [], st, _, _ => ⟨by simp only [loadAll, List.map_nil, LoadedAll], by simp only [loadAll]; exact .rfl, by simp only [loadAll]⟩
  | t :: ts, st, hf, hb => by
    simp only [Fines] at hf
    simp only [Bodies] at hb
    have h := loadArg_loaded t st hf.1
    obtain ⟨⟨f, as, e⟩, hb⟩ := hb
    have e1 : (t.load st).1 = (t.loadArg st).1 := by subst e; simp only [Tm.load, Tm.loadArg]
    have e2 : Arg.expr (t.load st).2 = (t.loadArg st).2 := by subst e; simp only [Tm.load, Tm.loadArg]
    obtain ⟨h1, h2, h3⟩ := h
    obtain ⟨k1, k2, k3⟩ := loadAll_loaded ts (t.load st).1 hf.2 hb
    simp only [loadAll, List.map_cons, LoadedAll]
    rw [← e1, ← e2] at h1
    rw [← e1] at h2 h3
    exact ⟨⟨_, _, rfl, loaded_grows k2 _ _ h1, k1⟩, h2.trans k2, by rw [k3, h3]⟩
end

/-! ### Variables -/

/-- The environment has the variables `ρ`. -/
def EnvRep (st : St) (env : Option Nat) (ρ : Vars) : Prop :=
  EnvOK st env ∧ (∀ i, env = some i → ∃ e, st.envs[i]? = some e ∧ ∀ p ∈ e, ∃ vs, Holds p.2 vs ∧ vs.all simple = true) ∧
  ∀ k, (ρ.get k = none → lookupVar st env k = none) ∧ ∀ vs, ρ.get k = some vs → VarHas st env k vs ∧ vs.all simple = true ∧ vs.isEmpty = false

theorem envRep_none (st : St) : EnvRep st none [] :=
  ⟨fun i e h => (by cases h), fun i h => (by cases h), fun k => ⟨fun _ => rfl, fun vs h => (by cases h)⟩⟩

theorem EnvRep.grows {s t : St} {env : Option Nat} {ρ : Vars} (h : EnvRep s env ρ) (g : Grows s t) : EnvRep t env ρ := by
  obtain ⟨h1, h2, h3⟩ := h
  have hlook : ∀ k, lookupVar t env k = lookupVar s env k := by
    intro k
    cases env with
    | none => rfl
    | some i =>
      obtain ⟨e, he, -⟩ := h2 i rfl
      simp only [lookupVar, Option.bind_some, he, prefix_get g.envs he]
  refine ⟨fun i e hi he => ?_, fun i hi => ?_, fun k => ?_⟩
  · obtain ⟨e', he', -⟩ := h2 i hi
    have := prefix_get g.envs he'
    rw [he] at this
    injection this with this
    subst this
    exact h1 i _ hi he'
  · obtain ⟨e', he', h⟩ := h2 i hi
    exact ⟨e', prefix_get g.envs he', h⟩
  · simp only [VarHas, hlook]
    exact h3 k

/-- A new environment for a function body has the variables of the old one. -/
theorem newEnv_rep {st : St} {env : Option Nat} {ρ : Vars} (h : EnvRep st env ρ) :
    ∃ st0, newEnv st env = some (st0, st.envs.length) ∧ Grows st st0 ∧ st0.bndl = st.bndl ∧ st0.envs.length = st.envs.length + 1 ∧ EnvRep st0 (some st.envs.length) ρ := by
  obtain ⟨h1, h2, h3⟩ := h
  have hok : ∃ e', newEnv st env = some ({ st with envs := st.envs ++ [e'] }, st.envs.length) ∧
      ∀ p ∈ e', ∃ vs, Holds p.2 vs ∧ vs.all simple = true := by
    cases env with
    | none => exact ⟨[], rfl, fun p hp => (by cases hp)⟩
    | some i =>
      obtain ⟨e, he, hp⟩ := h2 i rfl
      simp only [newEnv, he, Option.bind_some]
      have key : ∀ (e : Env), (∀ p ∈ e, ∃ vs, Holds p.2 vs ∧ vs.all simple = true) →
          ∃ e', ((e.filter fun p => p.2.isSome).mapM fun p => (copyAr p.2).map fun v => (p.1, v)) = some e' ∧ ∀ p ∈ e', ∃ vs, Holds p.2 vs ∧ vs.all simple = true := by
        intro e
        induction e with
        | nil => exact fun _ => ⟨[], rfl, fun p hp => (by cases hp)⟩
        | cons p e ih =>
          intro hp
          obtain ⟨e', g1, g2⟩ := ih fun q hq => hp q (by simp [hq])
          by_cases hs : p.2.isSome = true
          · obtain ⟨vs, k1, k2⟩ := hp p (by simp)
            obtain ⟨v, c1, c2, -⟩ := copyAr_holds _ _ k1 (copies k2)
            refine ⟨(p.1, v) :: e', ?_, ?_⟩
            · rw [List.filter_cons_of_pos (by simpa using hs), List.mapM_cons, c1]
              simp only [Option.map_some, Option.bind_eq_bind, Option.bind_some, g1, Option.pure_def]
            · intro q hq
              rcases List.mem_cons.mp hq with rfl | hq
              · exact ⟨vs, c2, k2⟩
              · exact g2 q hq
          · rw [List.filter_cons_of_neg (by simpa using hs)]
            exact ⟨e', g1, g2⟩
      obtain ⟨e', g1, g2⟩ := key e hp
      exact ⟨e', by rw [g1]; rfl, g2⟩
  obtain ⟨e', hn, g2⟩ := hok
  obtain ⟨-, -, k1, k2, k3⟩ := newEnv_spec hn h1
  refine ⟨_, hn, ⟨List.prefix_rfl, List.prefix_rfl, List.prefix_append _ _⟩, rfl, by simp, k1, ?_, fun k => ⟨fun hk => (k2 k).mpr ((h3 k).1 hk), fun vs hk => ?_⟩⟩
  · intro i hi
    injection hi with hi
    subst hi
    exact ⟨e', by simp, g2⟩
  · obtain ⟨m1, m2⟩ := (h3 k).2 vs hk
    exact ⟨k3 k vs m1 (copies m2.1), m2⟩

theorem envRep_bind {st : St} {i : Nat} {ρ : Vars} {k : Bytes} {v : Ar} {vs : List Val} (h : EnvRep st (some i) ρ) (hv : Holds v vs)
    (hs : vs.all simple = true) (hne : vs.isEmpty = false) : EnvRep (bindVar st i k v) (some i) ((k, vs) :: ρ) := by
  obtain ⟨h1, h2, h3⟩ := h
  obtain ⟨e, he, hp⟩ := h2 i rfl
  have hi := (List.getElem?_eq_some_iff.mp he).1
  have he' : (bindVar st i k v).envs[i]? = some ((k, v) :: e.filter fun p => p.1 != k) := by
    simp [bindVar, he]
  have hvs : ∃ l, v = some l := by
    cases v with
    | none =>
      have : (some [] : Option (List Val)) = some vs := hv
      injection this with this
      subst this
      cases hne
    | some l => exact ⟨l, rfl⟩
  obtain ⟨l, rfl⟩ := hvs
  refine ⟨fun j e2 hj h2 => ?_, fun j hj => ?_, fun k' => ?_⟩
  · injection hj with hj
    subst hj
    rw [he'] at h2
    injection h2 with h2
    subst h2
    have hn := h1 i e rfl he
    rw [List.map_cons, List.nodup_cons]
    constructor
    · intro hm
      obtain ⟨p, hp, e⟩ := List.mem_map.mp hm
      have := (List.mem_filter.mp hp).2
      simp [e] at this
    · exact (List.filter_sublist.map Prod.fst).nodup hn
  · injection hj with hj
    subst hj
    refine ⟨_, he', fun p hp' => ?_⟩
    rcases List.mem_cons.mp hp' with rfl | hp'
    · exact ⟨vs, hv, hs⟩
    · exact hp p (List.mem_filter.mp hp').1
  · have hg : Vars.get ((k, vs) :: ρ) k' = if k' = k then some vs else ρ.get k' := by
      by_cases e : k' = k
      · subst e; simp [Vars.get]
      · rw [if_neg e]
        have : ¬ (k = k') := fun x => e x.symm
        simp [Vars.get, this]
    simp only [VarHas, lookup_bind hi, hg]
    by_cases e : k' = k
    · simp only [if_pos e, reduceCtorEq, false_implies, true_and, Option.some.injEq]
      rintro _ rfl
      exact ⟨⟨l, rfl, hv⟩, hs, hne⟩
    · simp only [if_neg e]
      exact h3 k'

/-! ### Copies -/

mutual
/-- A copy stands for the same expression, and lies elsewhere. -/
theorem copyArg_loaded : ∀ (t : Tm) (st : St) (a : Arg), Loaded st t a →
    ∃ n st' a', copyArg n st a = some (st', a') ∧ Grows st st' ∧ st'.bndl = st.bndl ∧ Loaded st' t a' ∧ ∀ e, a = .expr e → ∃ m e', copyExpr m st e = some (st', e') ∧ a' = .expr e'
  | .atom x, st, a, h => by
    simp only [Loaded] at h
    obtain ⟨y, v, rfl, h1, h2, h3⟩ := h
    obtain ⟨y', c1, c2, -⟩ := copyAtom_val y v h2 h3
    refine ⟨1, st, .atom (some y'), by rw [copyArg, c1]; rfl, .rfl, rfl, ?_, fun e he => (by cases he)⟩
    simp only [Loaded]
    exact ⟨y', v, rfl, h1, c2, h3⟩
  | .addr s, st, a, h => by
    simp only [Loaded] at h
    subst h
    exact ⟨1, st, .addr s, by rw [copyArg], .rfl, rfl, by simp only [Loaded], fun e he => (by cases he)⟩
  | .app f ts, st, a, h => by
    simp only [Loaded] at h
    obtain ⟨e, as, rfl, h1, h2⟩ := h
    obtain ⟨n, st', as', g1, g2, g3, g4⟩ := copyArgs_loaded ts st as h2
    have hc : copyExpr (n + 1) st e = some ((st'.alloc ⟨f, as'⟩).1, (st'.alloc ⟨f, as'⟩).2) := by
      rw [copyExpr]
      simp only [h1, g1, Option.map_some]
    refine ⟨n + 2, (st'.alloc ⟨f, as'⟩).1, .expr (st'.alloc ⟨f, as'⟩).2, by rw [copyArg, hc]; rfl, g2.alloc _, g3, ?_, fun e' he => ?_⟩
    · simp only [Loaded]
      exact ⟨_, as', rfl, by simp [St.alloc], loadedAll_grows (Grows.rfl.alloc _) _ _ g4⟩
    · injection he with he
      subst he
      exact ⟨_, _, hc, rfl⟩
  | .null, _, _, h => by simp [Loaded] at h
  | .broken, _, _, h => by simp [Loaded] at h
  | .fn ps body, st, a, h => by
    simp only [Loaded] at h
    obtain ⟨i, es, rfl, h1, h2⟩ := h
    obtain ⟨n, st', es', g1, g2, g3, g4⟩ := copyBody_loaded body st es h2
    have hg : Grows st' { st' with recs := st'.recs ++ [⟨ps, es'⟩] } := ⟨List.prefix_rfl, List.prefix_append _ _, List.prefix_rfl⟩
    refine ⟨n + 2, { st' with recs := st'.recs ++ [⟨ps, es'⟩] }, .func st'.recs.length, ?_, g2.trans hg, g3, ?_, fun e he => (by cases he)⟩
    · rw [copyArg, copyRec]
      simp only [h1, g1, Option.map_some]
    · simp only [Loaded]
      exact ⟨_, es', rfl, by simp, loadedAll_grows hg _ _ g4⟩
theorem copyArgs_loaded : ∀ (ts : List Tm) (st : St) (as : List Arg), LoadedAll st ts as →
    ∃ n st' as', copyArgs n st as = some (st', as') ∧ Grows st st' ∧ st'.bndl = st.bndl ∧ LoadedAll st' ts as'
  | [], st, as, h => by
    simp only [LoadedAll] at h
    subst h
    exact ⟨1, st, [], by rw [copyArgs], .rfl, rfl, by simp only [LoadedAll]⟩
  | t :: ts, st, as, h => by
    simp only [LoadedAll] at h
    obtain ⟨a, as, rfl, h1, h2⟩ := h
    obtain ⟨n, s1, a', g1, g2, g3, g4, -⟩ := copyArg_loaded t st a h1
    obtain ⟨m, s2, as', k1, k2, k3, k4⟩ := copyArgs_loaded ts s1 as (loadedAll_grows g2 _ _ h2)
    refine ⟨max n m + 1, s2, a' :: as', ?_, g2.trans k2, by rw [k3, g3], ?_⟩
    · rw [copyArgs, copyArg_le g1 (Nat.le_max_left n m), Option.bind_some, copyArgs_le k1 (Nat.le_max_right n m)]
      rfl
    · simp only [LoadedAll]
      exact ⟨_, _, rfl, loaded_grows k2 _ _ g4, k4⟩
theorem copyBody_loaded : ∀ (ts : List Tm) (st : St) (es : List Nat), LoadedAll st ts (es.map .expr) →
    ∃ n st' es', copyBody n st es = some (st', es') ∧ Grows st st' ∧ st'.bndl = st.bndl ∧ LoadedAll st' ts (es'.map .expr)
  | [], st, es, h => by
    simp only [LoadedAll, List.map_eq_nil_iff] at h
    subst h
    exact ⟨1, st, [], by rw [copyBody], .rfl, rfl, by simp only [LoadedAll, List.map_nil]⟩
  | t :: ts, st, es, h => by
    simp only [LoadedAll] at h
    obtain ⟨a, as, e, h1, h2⟩ := h
    cases es with
    | nil => simp at e
    | cons x es =>
      simp only [List.map_cons, List.cons.injEq] at e
      obtain ⟨rfl, rfl⟩ := e
      obtain ⟨-, s1, a', -, g2, g3, g4, g5⟩ := copyArg_loaded t st (.expr x) h1
      obtain ⟨n, y, g1, rfl⟩ := g5 x rfl
      obtain ⟨m, s2, es', k1, k2, k3, k4⟩ := copyBody_loaded ts s1 es (loadedAll_grows g2 _ _ h2)
      refine ⟨max n m + 1, s2, y :: es', ?_, g2.trans k2, by rw [k3, g3], ?_⟩
      · rw [copyBody, copyExpr_le g1 (Nat.le_max_left n m), Option.bind_some, copyBody_le k1 (Nat.le_max_right n m)]
        rfl
      · simp only [List.map_cons, LoadedAll]
        exact ⟨_, _, rfl, loaded_grows k2 _ _ g4, k4⟩
end

/-! ### Soundness -/

/-- The code and the array are the result. -/
def Outcome (r : R) (code : Int) (v : Ar) : Prop :=
  match r with
  | .ok vs => code = 0 ∧ Holds v vs ∧ vs.all simple = true
  | .error c => c ≠ 0 ∧ code = c

/-- Evaluation of the expression with the variables `ρ` and the bindings `B` does what `d` says. -/
def Sound (T : Tab) (ρ : Vars) (B : Binds) (t : Tm) (d : D (List Val)) : Prop :=
  ∀ B' r, d = some (B', r) → ∀ st env a hdr, EnvRep st env ρ → Loaded st t a → Rep hdr B st.bndl →
    ∃ st' code v, ArgEvals T env st a (st', code, v) ∧ Grows st st' ∧ Rep hdr B' st'.bndl ∧ Outcome r code v

/-- The evaluation of the arguments ends so. -/
def ArgsEval (T : Tab) (env : Option Nat) (st : St) (as : List Arg) (r : St × Int × List Ar) : Prop :=
  ∃ n, evalArgs (run T n) env as st = some r

/-- The arrays hold these values. -/
def HoldS : List Ar → List (List Val) → Prop
  | [], vss => vss = []
  | v :: argv, vss => ∃ vs vss', vss = vs :: vss' ∧ Holds v vs ∧ vs.all simple = true ∧ HoldS argv vss'

def OutcomeS (r : Except Int (List (List Val))) (code : Int) (argv : List Ar) : Prop :=
  match r with
  | .ok vss => code = 0 ∧ HoldS argv vss
  | .error c => c ≠ 0 ∧ code = c

def Sounds (T : Tab) (ρ : Vars) (B : Binds) (ts : List Tm) (d : D (List (List Val))) : Prop :=
  ∀ B' r, d = some (B', r) → ∀ st env as hdr, EnvRep st env ρ → LoadedAll st ts as → Rep hdr B st.bndl →
    ∃ st' code argv, ArgsEval T env st as (st', code, argv) ∧ Grows st st' ∧ Rep hdr B' st'.bndl ∧ OutcomeS r code argv

variable {T : Tab} {ρ : Vars} {B : Binds}

theorem asInt_spec {v : Val} {t : ITy} {n : Int} (h : asInt v = some (t, n)) : t.has n ∧ v = t.val n := by
  cases v with
  | num tag w =>
    simp only [asInt, Option.bind_eq_some_iff] at h
    obtain ⟨t', h1, h2⟩ := h
    have htag : t'.tag = tag := by simpa using List.find?_some h1
    split at h2
    · rename_i hlt
      simp only [Option.some.injEq, Prod.mk.injEq] at h2
      obtain ⟨rfl, rfl⟩ := h2
      refine ⟨conv_has _ _, ?_⟩
      rw [ITy.val, conv_mod, htag]
      congr 1
      rw [Int.emod_eq_of_lt (by omega) (by exact_mod_cast hlt)]
      rfl
    · cases h2
  | _ => simp [asInt] at h

/-- An atom with a value has the values of the variable, or its value. -/
theorem atom_value {st : St} {env : Option Nat} {x : UAtom} {v : Val} (he : EnvRep st env ρ) (hx : x.val = some v) (hc : Copyable v) :
    ∃ out, ArgEvals T env st (.atom (some x)) (st, 0, some out) ∧ Holds (some out) (valueOf ρ v) := by
  have plain : (strOf (some x)).bind (lookupVar st env) = none → ∃ out, ArgEvals T env st (.atom (some x)) (st, 0, some out) ∧ Holds (some out) [v] := by
    intro h
    obtain ⟨out, h1, h2⟩ := mk1_copy (some x) v hx hc
    exact ⟨out, ⟨0, by simp only [evalArg, h, h1, Option.map_some]⟩, h2⟩
  cases hs : strOf (some x) with
  | none =>
    have hv : valueOf ρ v = [v] := by
      cases v with
      | str s =>
        obtain ⟨al, p, rfl⟩ := str_of_val hx
        simp [strOf] at hs
      | _ => rfl
    rw [hv]
    exact plain (by rw [hs]; rfl)
  | some k =>
    have hv : v = .str k := by
      obtain ⟨tag, al, w⟩ := x
      cases w with
      | str p k' =>
        by_cases ht : tag = 115
        · simp only [strOf, ht, if_true, Option.some.injEq] at hs
          subst hs ht
          simp [UAtom.val] at hx
          exact hx.symm
        · simp [strOf, ht] at hs
      | _ => simp [strOf] at hs
    subst hv
    cases hg : ρ.get k with
    | none =>
      simp only [valueOf, hg, Option.getD_none]
      exact plain (by rw [hs]; exact (he.2.2 k).1 hg)
    | some vs =>
      simp only [valueOf, hg, Option.getD_some]
      obtain ⟨⟨l, h1, h2⟩, h3, -⟩ := (he.2.2 k).2 vs hg
      obtain ⟨a', c1, c2, c3⟩ := copyAr_holds _ _ h2 (copies h3)
      obtain ⟨l', rfl⟩ : ∃ l', a' = some l' := by cases a' with
        | none => simp at c3
        | some l' => exact ⟨l', rfl⟩
      refine ⟨l', ⟨0, ?_⟩, c2⟩
      simp only [evalArg, hs, Option.bind_some, h1, c1, Option.map_some]

theorem sound_atom {x : UAtom} {v : Val} (hx : x.val = some v) : Sound T ρ B (.atom x) (pure1 B (valueOf ρ v)) := by
  intro B' r hd st env a hdr he hl hr
  simp only [pure1] at hd
  split at hd
  · rename_i hs
    simp only [Option.some.injEq, Prod.mk.injEq] at hd
    obtain ⟨rfl, rfl⟩ := hd
    simp only [Loaded] at hl
    obtain ⟨y, w, rfl, h1, h2, h3⟩ := hl
    rw [hx] at h1
    injection h1 with h1
    subst h1
    obtain ⟨out, k1, k2⟩ := atom_value he h2 h3
    exact ⟨st, 0, some out, k1, .rfl, hr, rfl, k2, hs⟩
  · cases hd

theorem sound_addr {a : Bytes} (ha : nameOk a = true) : Sound T ρ B (.addr a) (read B a) := by
  intro B' r hd st env x hdr henv hl hr
  simp only [Loaded] at hl
  subst hl
  have h := rep_read (T := T) (env := env) hr ha
  simp only [read] at hd
  split at hd
  · rename_i vs hvs
    simp only [Option.some.injEq, Prod.mk.injEq] at hd
    obtain ⟨rfl, rfl⟩ := hd
    obtain ⟨h1, l, h2, h3⟩ := h.2 vs hvs
    exact ⟨st, 0, some l, h2, .rfl, hr, rfl, h3, h1⟩
  · rename_i hn
    simp only [Option.some.injEq, Prod.mk.injEq] at hd
    obtain ⟨rfl, rfl⟩ := hd
    exact ⟨st, UNBOUND, none, h.1 hn, .rfl, hr, by decide, rfl⟩

theorem sounds_nil : Sounds T ρ B [] (some (B, .ok [])) := by
  intro B' r hd st env as hdr henv hl hr
  simp only [Option.some.injEq, Prod.mk.injEq] at hd
  obtain ⟨rfl, rfl⟩ := hd
  simp only [LoadedAll] at hl
  subst hl
  exact ⟨st, 0, [], ⟨0, rfl⟩, .rfl, hr, rfl, rfl⟩

theorem sounds_cons {t : Tm} {ts : List Tm} {d : D (List Val)} {ds : Binds → D (List (List Val))} (h1 : Sound T ρ B t d)
    (h2 : ∀ B, Sounds T ρ B ts (ds B)) :
    Sounds T ρ B (t :: ts) (andThen d fun B vs => andThen (ds B) fun B vss => some (B, .ok (vs :: vss))) := by
  intro B' r hd st env as hdr henv hl hr
  simp only [LoadedAll] at hl
  obtain ⟨a, as', rfl, hl1, hl2⟩ := hl
  cases d with
  | none => simp [andThen] at hd
  | some d =>
    obtain ⟨B1, r1⟩ := d
    obtain ⟨s1, code, v, ⟨n, g1⟩, gg, g2, g3⟩ := h1 B1 r1 rfl st env a hdr henv hl1 hr
    cases r1 with
    | error c =>
      simp only [andThen, Option.some.injEq, Prod.mk.injEq] at hd
      obtain ⟨rfl, rfl⟩ := hd
      obtain ⟨hc, rfl⟩ := g3
      refine ⟨s1, code, [], ⟨n, ?_⟩, gg, g2, hc, rfl⟩
      rw [evalArgs, g1, Option.bind_some, if_pos hc]
    | ok vs =>
      obtain ⟨rfl, hv, hs⟩ := g3
      simp only [andThen] at hd
      cases hds : ds B1 with
      | none => simp [hds] at hd
      | some d2 =>
        obtain ⟨B2, r2⟩ := d2
        rw [hds] at hd
        obtain ⟨s2, code2, argv, ⟨k, k1⟩, kk, k2, k3⟩ := h2 B1 B2 r2 hds s1 env as' hdr (henv.grows gg) (loadedAll_grows gg _ _ hl2) g2
        have e1 := evalArg_mono (le_max_run n k) _ _ _ _ g1
        have e2 := evalArgs_mono (le_max_run' n k) _ _ _ _ k1
        cases r2 with
        | error c =>
          simp only [Option.some.injEq, Prod.mk.injEq] at hd
          obtain ⟨rfl, rfl⟩ := hd
          refine ⟨s2, code2, v :: argv, ⟨max n k, ?_⟩, gg.trans kk, k2, k3⟩
          rw [evalArgs, e1, Option.bind_some, if_neg (by simp), e2]
          rfl
        | ok vss =>
          simp only [Option.some.injEq, Prod.mk.injEq] at hd
          obtain ⟨rfl, rfl⟩ := hd
          obtain ⟨rfl, k3⟩ := k3
          refine ⟨s2, 0, v :: argv, ⟨max n k, ?_⟩, gg.trans kk, k2, rfl, vs, vss, rfl, hv, hs, k3⟩
          rw [evalArgs, e1, Option.bind_some, if_neg (by simp), e2]
          rfl

/-- A function of the library does what the specification says. -/
def FnOk (f : List Ar → Res) (sem : List (List Val) → Option R) : Prop :=
  ∀ argv vss r, HoldS argv vss → checked (sem vss) = some r → ∃ code v, f argv = some (code, v) ∧ Outcome r code v

theorem argEvals_expr {st : St} {env : Option Nat} {e : Nat} {r : St × Int × Ar} (h : Evals T env st e r) : ArgEvals T env st (.expr e) r := h

theorem sound_prim {f : List Ar → Res} {sem : List (List Val) → Option R} {ts : List Tm} {d : D (List (List Val))} (hf : FnOk f sem)
    (h : Sounds T ρ B ts d) : Sound T ρ B (.app (.prim f) ts) (andThen d fun B vss => (checked (sem vss)).map fun r => (B, r)) := by
  intro B' r hd st env a hdr henv hl hr
  simp only [Loaded] at hl
  obtain ⟨e, as, rfl, he, hl⟩ := hl
  cases d with
  | none => simp [andThen] at hd
  | some d =>
    obtain ⟨B1, r1⟩ := d
    obtain ⟨s1, code, argv, ⟨n, g1⟩, gg, g2, g3⟩ := h B1 r1 rfl st env as hdr henv hl hr
    cases r1 with
    | error c =>
      simp only [andThen, Option.some.injEq, Prod.mk.injEq] at hd
      obtain ⟨rfl, rfl⟩ := hd
      obtain ⟨hc, rfl⟩ := g3
      refine ⟨s1, code, none, argEvals_expr (evals_node.mpr ⟨n, ?_⟩), gg, g2, hc, rfl⟩
      simp only [evalNode, he, callPrim, g1, Option.bind_some]
      rw [if_pos hc]
    | ok vss =>
      obtain ⟨rfl, hv⟩ := g3
      simp only [andThen, Option.map_eq_some_iff, Prod.mk.injEq] at hd
      obtain ⟨r', h1, rfl, rfl⟩ := hd
      obtain ⟨code, v, k1, k2⟩ := hf argv vss r' hv h1
      refine ⟨s1, code, v, argEvals_expr (evals_node.mpr ⟨n, ?_⟩), gg, g2, k2⟩
      simp only [evalNode, he, callPrim, g1, Option.bind_some]
      rw [if_neg (by simp), k1]
      rfl

theorem sound_assign {t : Tm} {d : D (List Val)} {a : Bytes} (ha : nameOk a = true) (h : Sound T ρ B t d) :
    Sound T ρ B (.app .assign [.addr a, t]) (andThen d (put a)) := by
  intro B' r hd st env x hdr henv hl hr
  simp only [Loaded, LoadedAll] at hl
  obtain ⟨e, _, rfl, he, a0, _, rfl, rfl, a1, _, rfl, hl, rfl⟩ := hl
  have hb : st.bndl ≠ none := by
    obtain ⟨-, ⟨_, _, e, -⟩ | ⟨e, -⟩⟩ := hr <;> rw [e] <;> simp
  cases d with
  | none => simp [andThen] at hd
  | some d =>
    obtain ⟨B1, r1⟩ := d
    obtain ⟨s1, code, v, g1, gg, g2, g3⟩ := h B1 r1 rfl st env a1 hdr henv hl hr
    cases r1 with
    | error c =>
      simp only [andThen, Option.some.injEq, Prod.mk.injEq] at hd
      obtain ⟨rfl, rfl⟩ := hd
      obtain ⟨hc, rfl⟩ := g3
      exact ⟨s1, code, v, argEvals_expr (C37_error he hb (targets_addr a) (nameOk_valid ha) g1 hc), gg, g2, hc, rfl⟩
    | ok vs =>
      obtain ⟨rfl, hv, hs⟩ := g3
      simp only [andThen, put] at hd
      split at hd
      · rename_i hsz
        simp only [Option.some.injEq, Prod.mk.injEq] at hd
        obtain ⟨rfl, rfl⟩ := hd
        obtain ⟨b0, b', hb1, k1, k2⟩ := rep_put g2 ha hv hs hsz
        refine ⟨{ s1 with bndl := some b' }, 0, v, argEvals_expr (assign_evals he hb (targets_addr a) (nameOk_valid ha) g1 ?_), gg.bndl _, k2, rfl, hv, hs⟩
        rw [if_neg (by simp)]
        simp only [hb1, k1, Option.map_some]
      · cases hd

theorem decides_spec {xs : List Val} {v : Ar} {c : Bool} (hv : Holds v xs) (h : decides xs = some c) :
    ∃ n, intOf UAtom.getInt32 (at? v 0) = some n ∧ (n ≠ 0 ↔ c = true) ∧ Expr.len v ≠ 0 := by
  cases xs with
  | nil => simp [decides] at h
  | cons x xs =>
    obtain ⟨h1, h2, h3, h4⟩ := C38_test v x xs hv
    have int : ∀ c, (asInt x).map (fun y => ITy.i32.conv y.2 != 0) = some c → ∃ n, intOf UAtom.getInt32 (at? v 0) = some n ∧ (n ≠ 0 ↔ c = true) ∧ Expr.len v ≠ 0 := by
      intro c h
      obtain ⟨⟨t, n⟩, hn, rfl⟩ := Option.map_eq_some_iff.mp h
      obtain ⟨k1, k2⟩ := asInt_spec hn
      exact ⟨_, h4 t n k1 k2, by simp, h1⟩
    cases x with
    | bare t =>
      simp only [decides] at h
      split at h
      · rename_i ht
        injection h with h
        subst h ht
        exact ⟨1, h2 rfl, by simp, h1⟩
      · split at h
        · rename_i ht
          injection h with h
          subst h ht
          exact ⟨0, h3 rfl, by simp, h1⟩
        · cases h
    | _ => exact int c h

theorem sound_cond {c t f : Tm} {d : D (List Val)} {dt df : Binds → D (List Val)} (h : Sound T ρ B c d) (ht : ∀ B, Sound T ρ B t (dt B))
    (hf : ∀ B, Sound T ρ B f (df B)) :
    Sound T ρ B (.app .cond [c, t, f]) (andThen d fun B xs => match decides xs with
      | some true => dt B
      | some false => df B
      | none => none) := by
  intro B' r hd st env x hdr henv hl hr
  simp only [Loaded, LoadedAll] at hl
  obtain ⟨e, _, rfl, he, a0, _, rfl, hl0, a1, _, rfl, hl1, a2, _, rfl, hl2, rfl⟩ := hl
  cases d with
  | none => simp [andThen] at hd
  | some d =>
    obtain ⟨B1, r1⟩ := d
    obtain ⟨s1, code, v, g1, gg, g2, g3⟩ := h B1 r1 rfl st env a0 hdr henv hl0 hr
    cases r1 with
    | error c =>
      simp only [andThen, Option.some.injEq, Prod.mk.injEq] at hd
      obtain ⟨rfl, rfl⟩ := hd
      obtain ⟨hc, rfl⟩ := g3
      exact ⟨s1, code, none, argEvals_expr (C38_if_error he (by simp) g1 hc), gg, g2, hc, rfl⟩
    | ok vs =>
      obtain ⟨rfl, hv, hs⟩ := g3
      simp only [andThen] at hd
      have key : ∀ (s : Bool), decides vs = some s → ∀ (tb : Tm) (ab : Arg) (db : Binds → D (List Val)), ab = (if s then a1 else a2) →
          Loaded st tb ab → Sound T ρ B1 tb (db B1) → db B1 = some (B', r) →
          ∃ st' code v, ArgEvals T env st (.expr e) (st', code, v) ∧ Grows st st' ∧ Rep hdr B' st'.bndl ∧ Outcome r code v := by
        intro s hs' tb ab db hab hlb hsb hdb
        obtain ⟨n, k1, k2, k3⟩ := decides_spec hv hs'
        have hp := C38_if he g1 k1 k3
        have hsel : (if n ≠ 0 then a1 else a2) = ab := by
          rw [hab]
          cases s
          · rw [if_neg (by simpa using k2)]; rfl
          · rw [if_pos (by simpa using k2)]; rfl
        rw [hsel] at hp
        obtain ⟨s2, code2, v2, m1, mm, m2, m3⟩ := hsb B' r hdb s1 env ab hdr (henv.grows gg) (loaded_grows gg _ _ hlb) g2
        cases r with
        | error c =>
          obtain ⟨hc, rfl⟩ := m3
          exact ⟨s2, code2, none, argEvals_expr (hp.2.1 _ _ _ m1 hc), gg.trans mm, m2, hc, rfl⟩
        | ok ws =>
          obtain ⟨rfl, q1, q2⟩ := m3
          obtain ⟨out, o1, o2⟩ := hp.2.2 _ _ ws m1 q1 (copies q2)
          exact ⟨s2, 0, some out, argEvals_expr o1, gg.trans mm, m2, rfl, o2, q2⟩
      split at hd
      · rename_i hdec
        exact key true hdec t a1 dt rfl hl1 (ht B1) hd
      · rename_i hdec
        exact key false hdec f a2 df rfl hl2 (hf B1) hd
      · cases hd

theorem truthVal_simple (b : Bool) : simple (truthVal b) = true := by cases b <;> decide

theorem holds_truthAr (b : Bool) : Holds (truthAr b) [truthVal b] := by cases b <;> rfl

theorem sound_bound {a : Bytes} (ha : nameOk a = true) : Sound T ρ B (.app .bound [.addr a]) (some (B, .ok [truthVal (bound B a)])) := by
  intro B' r hd st env x hdr henv hl hr
  simp only [Option.some.injEq, Prod.mk.injEq] at hd
  obtain ⟨rfl, rfl⟩ := hd
  simp only [Loaded, LoadedAll] at hl
  obtain ⟨e, _, rfl, he, a0, _, rfl, rfl, rfl⟩ := hl
  refine ⟨st, 0, _, argEvals_expr (rep_bound hr ha he), .rfl, hr, rfl, holds_truthAr _, ?_⟩
  simp [truthVal_simple]

theorem sound_quote {x : UAtom} {v : Val} (hx : x.val = some v) : Sound T ρ B (.app .quote [.atom x]) (pure1 B [v]) := by
  intro B' r hd st env a hdr henv hl hr
  simp only [pure1] at hd
  split at hd
  · rename_i hs
    simp only [Option.some.injEq, Prod.mk.injEq] at hd
    obtain ⟨rfl, rfl⟩ := hd
    simp only [Loaded, LoadedAll] at hl
    obtain ⟨e, _, rfl, he, a0, _, rfl, ⟨y, w, rfl, y1, y2, y3⟩, rfl⟩ := hl
    rw [hx] at y1
    injection y1 with y1
    subst y1
    obtain ⟨out, h1, h2⟩ := mk1_copy (some y) v y2 y3
    refine ⟨st, 0, some out, argEvals_expr (evals_now ?_), .rfl, hr, rfl, h2, hs⟩
    simp only [evalNode, he, quoteNode, h1, Option.map_some]
  · cases hd

theorem truthOf_spec {xs : List Val} {v : Ar} (hv : Holds v xs) :
    (∀ b, truthOf xs = some (.ok b) → v ≠ none ∧ tagOf (at? v 0) = if b then 84 else 70) ∧
    (∀ c, truthOf xs = some (.error c) → c = 1 ∧ v ≠ none ∧ ¬ (tagOf (at? v 0) = 84 ∨ tagOf (at? v 0) = 70)) := by
  cases xs with
  | nil => simp [truthOf]
  | cons x xs =>
    obtain ⟨y, hy, hyv⟩ := holds_at hv (i := 0) (v := x) rfl
    have hne : v ≠ none := by rintro rfl; cases hy
    rw [hy]
    by_cases hb : ∃ t, x = .bare t
    · obtain ⟨t, rfl⟩ := hb
      have ht : tagOf (some y) = t := bare_of_val hyv
      rw [ht]
      constructor
      · intro b h
        simp only [truthOf, Option.some.injEq] at h
        split at h
        · rename_i e; injection h with h; subst h; exact ⟨hne, e⟩
        · split at h
          · rename_i e; injection h with h; subst h; exact ⟨hne, e⟩
          · cases h
      · intro c h
        simp only [truthOf, Option.some.injEq] at h
        split at h
        · cases h
        · split at h
          · cases h
          · rename_i e1 e2
            injection h with h
            exact ⟨h.symm, hne, by simp [e1, e2]⟩
    · have e : truthOf (x :: xs) = some (.error 1) := by
        cases x <;> first | rfl | (exact absurd ⟨_, rfl⟩ hb)
      rw [e]
      refine ⟨fun b h => (by cases h), fun c h => ?_⟩
      simp only [Option.some.injEq, Except.error.injEq] at h
      refine ⟨h.symm, hne, ?_⟩
      intro ht
      have ht : y.tag = 84 ∨ y.tag = 70 := ht
      obtain ⟨tag, al, w⟩ := y
      rcases ht with rfl | rfl <;> simp [UAtom.val] at hyv <;> exact hb ⟨_, hyv.symm⟩

theorem sound_short {and : Bool} {l r : Tm} {d : D (List Val)} {dr : Binds → D (List Val)} (h : Sound T ρ B l d)
    (hr : ∀ B, Sound T ρ B r (dr B)) :
    Sound T ρ B (.app (if and then .andalso else .orelse) [l, r]) (andThen d fun B xs => shortCircuit and B xs dr) := by
  intro B' res hd st env x hdr henv hl hrep
  simp only [Loaded, LoadedAll] at hl
  obtain ⟨e, _, rfl, he, a0, _, rfl, hl0, a1, _, rfl, hl1, rfl⟩ := hl
  have he' : st.exprs[e]? = some ⟨if (if and then (70 : UInt8) else 84) = 70 then .andalso else .orelse, [a0, a1]⟩ := by
    rw [he]; cases and <;> rfl
  have hdd : (if and then (70 : UInt8) else 84) = 70 ∨ (if and then (70 : UInt8) else 84) = 84 := by cases and <;> simp
  cases d with
  | none => simp [andThen] at hd
  | some d =>
    obtain ⟨B1, r1⟩ := d
    obtain ⟨s1, code, v, g1, gg, g2, g3⟩ := h B1 r1 rfl st env a0 hdr henv hl0 hrep
    have key := fun res => short_evals (T := T) (env := env) (r := res) he' hdd g1
    cases r1 with
    | error c =>
      simp only [andThen, Option.some.injEq, Prod.mk.injEq] at hd
      obtain ⟨rfl, rfl⟩ := hd
      obtain ⟨hc, rfl⟩ := g3
      refine ⟨s1, code, none, argEvals_expr ((key _).mpr ⟨0, ?_⟩), gg, g2, hc, rfl⟩
      rw [if_pos (.inr hc)]
    | ok vs =>
      obtain ⟨rfl, hv, hs⟩ := g3
      obtain ⟨t1, t2⟩ := truthOf_spec hv
      simp only [andThen, shortCircuit] at hd
      cases hto : truthOf vs with
      | none => simp [hto] at hd
      | some to =>
        rw [hto] at hd
        cases to with
        | error c =>
          simp only [Option.some.injEq, Prod.mk.injEq] at hd
          obtain ⟨rfl, rfl⟩ := hd
          obtain ⟨rfl, k1, k2⟩ := t2 c hto
          refine ⟨s1, 1, none, argEvals_expr ((key _).mpr ⟨0, ?_⟩), gg, g2, by decide, rfl⟩
          rw [if_neg (by simp [k1]), if_neg k2]
        | ok s =>
          obtain ⟨k1, k2⟩ := t1 s hto
          simp only at hd
          by_cases hsa : s = and
          · rw [if_pos hsa] at hd
            subst hsa
            cases hdr2 : dr B1 with
            | none => simp [hdr2, andThen] at hd
            | some d2 =>
              obtain ⟨B2, r2⟩ := d2
              obtain ⟨s2, code2, v2, ⟨n, m1⟩, mm, m2, m3⟩ := hr B1 B2 r2 hdr2 s1 env a1 hdr (henv.grows gg) (loaded_grows gg _ _ hl1) g2
              rw [hdr2] at hd
              have step : ∀ res, ((if v2.isNone ∨ code2 ≠ 0 then some ((s2 : St), code2, none)
                  else if tagOf (at? v2 0) = 84 ∨ tagOf (at? v2 0) = 70 then
                    (setTo (Expr.mk 1) 0 (if tagOf (at? v2 0) = 70 then UAtom.setFalse else UAtom.setTrue)).map fun out => ((s2 : St), 0, some out)
                  else some ((s2 : St), 1, none) : EvRes) = some res) → ArgEvals T env st (.expr e) res := by
                intro res hres
                refine argEvals_expr ((key _).mpr ⟨n, ?_⟩)
                rw [if_neg (by simp [k1]), if_pos (by rw [k2]; cases s <;> simp), if_neg (by rw [k2]; cases s <;> decide), m1, Option.bind_some]
                exact hres
              cases r2 with
              | error c =>
                simp only [andThen, Option.some.injEq, Prod.mk.injEq] at hd
                obtain ⟨rfl, rfl⟩ := hd
                obtain ⟨hc, rfl⟩ := m3
                exact ⟨s2, code2, none, step _ (by rw [if_pos (.inr hc)]), gg.trans mm, m2, hc, rfl⟩
              | ok ys =>
                obtain ⟨rfl, hv2, hs2⟩ := m3
                obtain ⟨u1, u2⟩ := truthOf_spec hv2
                simp only [andThen] at hd
                cases hty : truthOf ys with
                | none => simp [hty] at hd
                | some ty =>
                  rw [hty] at hd
                  cases ty with
                  | error c =>
                    simp only [Option.some.injEq, Prod.mk.injEq] at hd
                    obtain ⟨rfl, rfl⟩ := hd
                    obtain ⟨rfl, w1, w2⟩ := u2 c hty
                    exact ⟨s2, 1, none, step _ (by rw [if_neg (by simp [w1]), if_neg w2]), gg.trans mm, m2, by decide, rfl⟩
                  | ok q =>
                    simp only [Option.some.injEq, Prod.mk.injEq] at hd
                    obtain ⟨rfl, rfl⟩ := hd
                    obtain ⟨w1, w2⟩ := u1 q hty
                    refine ⟨s2, 0, truthAr q, step _ ?_, gg.trans mm, m2, rfl, holds_truthAr q, by simp [truthVal_simple]⟩
                    rw [if_neg (by simp [w1]), if_pos (by rw [w2]; cases q <;> simp), w2]
                    cases q <;> rfl
          · rw [if_neg hsa] at hd
            simp only [Option.some.injEq, Prod.mk.injEq] at hd
            obtain ⟨rfl, rfl⟩ := hd
            refine ⟨s1, 0, truthAr s, argEvals_expr ((key _).mpr ⟨0, ?_⟩), gg, g2, rfl, holds_truthAr s, by simp [truthVal_simple]⟩
            rw [if_neg (by simp [k1]), if_pos (by rw [k2]; cases s <;> simp),
              if_pos (by rw [k2]; cases s <;> cases and <;> first | rfl | exact absurd rfl hsa)]
            cases s <;> cases and <;> first | rfl | exact absurd rfl hsa

end Libo.Sem
