import Verif.ExprSemLemmas
/-!
# Lemmas: functions as values do what the specification says

Application of lambda expressions and of functions by name, `map` and the reductions.
-/

namespace Libo.Sem
open Libo Libo.Expr Libo.Props Libo.Syn

variable {T : Tab} {ρ : Vars} {B : Binds}

/-- Every tree with the expression made from it. -/
def SoundL (T : Tab) : List Cst → List Tm → Prop
  | [], ts => ts = []
  | c :: cs, ts => ∃ t ts', ts = t :: ts' ∧ (∀ ρ B, Sound T ρ B t (den c ρ B)) ∧ SoundL T cs ts'

theorem soundL_length : ∀ {cs : List Cst} {ts : List Tm}, SoundL T cs ts → ts.length = cs.length
  | [], ts, h => by simp only [SoundL] at h; subst h; rfl
  | c :: cs, ts, h => by
    obtain ⟨t, ts', rfl, -, h⟩ := h
    simp [soundL_length h]

theorem sounds_of : ∀ {cs : List Cst} {ts : List Tm}, SoundL T cs ts → ∀ ρ B, Sounds T ρ B ts (dens cs ρ B)
  | [], ts, h, ρ, B => by
    simp only [SoundL] at h
    subst h
    simp only [dens]
    exact sounds_nil
  | c :: cs, ts, h, ρ, B => by
    obtain ⟨t, ts', rfl, h1, h2⟩ := h
    simp only [dens]
    exact sounds_cons (h1 ρ B) fun B => sounds_of h2 ρ B

/-! ### Bodies -/

/-- Evaluation of the body of a function does what `D` says. -/
def SeqSound (T : Tab) (ts : List Tm) (D : Vars → Binds → D (List Val)) : Prop :=
  ∀ ρ B B' r, D ρ B = some (B', r) → ∀ st le es hdr, EnvRep st (some le) ρ → LoadedAll st ts (es.map .expr) → Rep hdr B st.bndl →
    ∃ st' code v, BodyEvals T le es st (st', code, v) ∧ Grows st st' ∧ Rep hdr B' st'.bndl ∧ Outcome r code v

theorem seq_sound : ∀ {cs : List Cst} {ts : List Tm}, SoundL T cs ts → SeqSound T ts (denSeq cs)
  | [], ts, h => by
    intro ρ B B' r hd st le es hdr he hl hr
    simp only [SoundL] at h
    subst h
    simp only [LoadedAll, List.map_eq_nil_iff] at hl
    subst hl
    simp only [denSeq, Option.some.injEq, Prod.mk.injEq] at hd
    obtain ⟨rfl, rfl⟩ := hd
    exact ⟨st, 0, none, .empty, .rfl, hr, rfl, rfl, rfl⟩
  | c :: cs, ts, h => by
    intro ρ B B' r hd st le es hdr he hl hr
    obtain ⟨t, ts', rfl, h1, h2⟩ := h
    simp only [LoadedAll] at hl
    obtain ⟨a, as', e, hl1, hl2⟩ := hl
    cases es with
    | nil => simp at e
    | cons i es =>
      simp only [List.map_cons, List.cons.injEq] at e
      obtain ⟨rfl, rfl⟩ := e
      cases cs with
      | nil =>
        simp only [SoundL] at h2
        subst h2
        simp only [LoadedAll, List.map_eq_nil_iff] at hl2
        subst hl2
        simp only [denSeq] at hd
        obtain ⟨st', code, v, g1, g2, g3, g4⟩ := h1 ρ B B' r hd st _ _ hdr he hl1 hr
        exact ⟨st', code, v, .last g1, g2, g3, g4⟩
      | cons c' cs =>
        have hne : es ≠ [] := by
          rintro rfl
          obtain ⟨t', ts'', rfl, -⟩ := h2
          simp [LoadedAll] at hl2
        rw [denSeq] at hd
        cases hc : den c ρ B with
        | none => rw [hc] at hd; cases hd
        | some q =>
          obtain ⟨B1, r1⟩ := q
          obtain ⟨s1, code, v, g1, g2, g3, g4⟩ := h1 ρ B B1 r1 hc st _ _ hdr he hl1 hr
          rw [hc] at hd
          cases r1 with
          | error c0 =>
            simp only [andThen, Option.some.injEq, Prod.mk.injEq] at hd
            obtain ⟨rfl, rfl⟩ := hd
            obtain ⟨hc0, rfl⟩ := g4
            exact ⟨s1, code, none, .stop hne g1 hc0, g2, g3, hc0, rfl⟩
          | ok vs =>
            obtain ⟨rfl, -⟩ := g4
            obtain ⟨s2, code2, v2, k1, k2, k3, k4⟩ := seq_sound h2 ρ B1 B' r hd s1 le es hdr (he.grows g2) (loadedAll_grows g2 _ _ hl2) g3
            exact ⟨s2, code2, v2, .step hne g1 rfl k1, g2.trans k2, k3, k4⟩

/-! ### Parameters -/

theorem bindAll_nil (cs : List Cst) (ρ : Vars) (B : Binds) (ρ' : Vars) : bindAll [] cs ρ B ρ' = some (B, .ok ρ') := by
  cases cs <;> simp [bindAll]

/-- Binding does what the specification says.  `base` is the memory before. -/
theorem binds_sound {base : St} {env : Option Nat} {le : Nat} {ρ : Vars} {hdr : Bytes} (hle : base.envs.length ≤ le) (henv : EnvRep base env ρ) :
    ∀ {cs : List Cst} {ts : List Tm}, SoundL T cs ts → ∀ (ps : List Bytes) (as : List Arg) (st : St) (B B' : Binds) (ρ' : Vars) (r : Except Int Vars),
      bindAll ps cs ρ B ρ' = some (B', r) → Grows base st → EnvRep st (some le) ρ' → LoadedAll base ts as → Rep hdr B st.bndl →
      match r with
      | .ok ρ'' => ∃ st' bs, Props.Binds T env le ps as st st' bs ∧ Grows base st' ∧ Rep hdr B' st'.bndl ∧ EnvRep st' (some le) ρ''
      | .error c => c = 0x102 ∧ ∃ st', BindFails T env le ps as st st' ∧ Grows base st' ∧ Rep hdr B' st'.bndl
  | cs, ts, h, [], as, st, B, B', ρ', r, hd, hg, he, hl, hr => by
    rw [bindAll_nil] at hd
    simp only [Option.some.injEq, Prod.mk.injEq] at hd
    obtain ⟨rfl, rfl⟩ := hd
    exact ⟨st, [], .noParam, hg, hr, he⟩
  | [], ts, h, p :: ps, as, st, B, B', ρ', r, hd, hg, he, hl, hr => by
    simp only [bindAll, Option.some.injEq, Prod.mk.injEq] at hd
    obtain ⟨rfl, rfl⟩ := hd
    simp only [SoundL] at h
    subst h
    simp only [LoadedAll] at hl
    subst hl
    exact ⟨st, [], .noArg, hg, hr, he⟩
  | c :: cs, ts, h, p :: ps, as, st, B, B', ρ', r, hd, hg, he, hl, hr => by
    obtain ⟨t, ts', rfl, h1, h2⟩ := h
    simp only [LoadedAll] at hl
    obtain ⟨a, as', rfl, hl1, hl2⟩ := hl
    simp only [bindAll] at hd
    cases hc : den c ρ B with
    | none => rw [hc] at hd; cases hd
    | some q =>
      obtain ⟨B1, r1⟩ := q
      rw [hc] at hd
      obtain ⟨s1, code, v, g1, g2, g3, g4⟩ := h1 ρ B B1 r1 hc st env a hdr (henv.grows hg) (loaded_grows hg _ _ hl1) hr
      cases r1 with
      | error c0 =>
        simp only [andThenArg] at hd
        split at hd
        · rename_i e0
          simp only [Option.some.injEq, Prod.mk.injEq] at hd
          obtain ⟨rfl, rfl⟩ := hd
          obtain ⟨-, rfl⟩ := g4
          subst e0
          exact ⟨rfl, s1, .here g1, hg.trans g2, g3⟩
        · cases hd
      | ok vs =>
        obtain ⟨rfl, hv, hs⟩ := g4
        simp only [andThenArg] at hd
        cases hne : vs.isEmpty with
        | true => simp [hne] at hd
        | false =>
          rw [hne, if_neg (by simp)] at hd
          have hb := binds_sound hle henv h2 ps as' (bindVar s1 le p v) B1 B' ((p, vs) :: ρ') r hd ((hg.trans g2).bindVar hle p v)
            (envRep_bind (he.grows g2) hv hs hne) hl2 g3
          cases r with
          | ok ρ'' =>
            obtain ⟨st', bs, k1, k2⟩ := hb
            exact ⟨st', _, .step g1 (by decide) k1, k2⟩
          | error c =>
            obtain ⟨k0, st', k1, k2⟩ := hb
            exact ⟨k0, st', .step g1 (by decide) k1, k2⟩

/-- Applying a function record to arguments. -/
theorem apply_sound {ps : List Bytes} {body : List Tm} {D' : Vars → Binds → D (List Val)} (hbody : SeqSound T body D') {cs : List Cst} {ts : List Tm}
    (hcs : SoundL T cs ts) {B' : Binds} {r : R} (hd : andThen (bindAll ps cs ρ B ρ) (fun B ρ' => D' ρ' B) = some (B', r))
    {st : St} {env : Option Nat} {e : Nat} {c : Arg} {as : List Arg} {hdr : Bytes} (henv : EnvRep st env ρ) (hc : Loaded st (.fn ps body) c)
    (he : st.exprs[e]? = some ⟨.apply, c :: as⟩) (has : LoadedAll st ts as) (hr : Rep hdr B st.bndl) :
    ∃ st' code v, Evals T env st e (st', code, v) ∧ Grows st st' ∧ Rep hdr B' st'.bndl ∧ Outcome r code v := by
  simp only [Loaded] at hc
  obtain ⟨i, es, rfl, hi, hes⟩ := hc
  obtain ⟨st0, n1, n2, n3, n4, n5⟩ := newEnv_rep henv
  have key := fun res => apply_iff (T := T) (env := env) (res := res) he hi
  cases hb : bindAll ps cs ρ B ρ with
  | none => rw [hb] at hd; cases hd
  | some q =>
    obtain ⟨B1, r1⟩ := q
    rw [hb] at hd
    have hbs := binds_sound (hdr := hdr) (Nat.le_refl _) henv hcs ps as st0 B B1 ρ r1 hb n2 n5 has (by rw [n3]; exact hr)
    cases r1 with
    | error c0 =>
      simp only [andThen, Option.some.injEq, Prod.mk.injEq] at hd
      obtain ⟨rfl, rfl⟩ := hd
      obtain ⟨rfl, s1, k1, k2, k3⟩ := hbs
      exact ⟨s1, UNBOUND, none, (key _).mpr ⟨st0, _, n1, .inr ⟨s1, k1, rfl⟩⟩, k2, k3, by decide, rfl⟩
    | ok ρ' =>
      obtain ⟨s1, bs, k1, k2, k3, k4⟩ := hbs
      simp only [andThen] at hd
      obtain ⟨s2, code, v, m1, m2, m3, m4⟩ := hbody ρ' B1 B' r hd s1 _ es hdr k4 (loadedAll_grows k2 _ _ hes) k3
      exact ⟨s2, code, v, (key _).mpr ⟨st0, _, n1, .inl ⟨s1, bs, k1, m1⟩⟩, k2.trans m2, m3, m4⟩

theorem sound_applyLam {ps : List Bytes} {body : List Tm} {D' : Vars → Binds → D (List Val)} (hbody : SeqSound T body D') {cs : List Cst} {ts : List Tm}
    (hcs : SoundL T cs ts) : Sound T ρ B (.app .apply (.fn ps body :: ts)) (andThen (bindAll ps cs ρ B ρ) fun B ρ' => D' ρ' B) := by
  intro B' r hd st env a hdr henv hl hr
  rw [Loaded] at hl
  obtain ⟨e, _, rfl, he, hl⟩ := hl
  rw [LoadedAll] at hl
  obtain ⟨c, as, rfl, hc, has⟩ := hl
  exact apply_sound hbody hcs hd henv hc he has hr

/-! ### Functions by name -/

/-- The function of this name does what the specification says. -/
def Named (T : Tab) (f : Bytes) : Prop :=
  ∃ g, T f = some (.prim g) ∧ ∀ ρ B ts d, Sounds T ρ B ts d → Sound T ρ B (.app (.prim g) ts) (andThen d (callD f))

theorem named_sound {f : Bytes} (hf : Named T f) {cs : List Cst} {ts : List Tm} (hcs : SoundL T cs ts) {B' : Binds} {r : R}
    (hd : andThen (dens cs ρ B) (callD f) = some (B', r)) {st : St} {env : Option Nat} {e : Nat} {c : Arg} {as : List Arg} {hdr : Bytes}
    (henv : EnvRep st env ρ) {x : UAtom} (hx : x.val = some (.str f)) (hc : Loaded st (.atom x) c)
    (he : st.exprs[e]? = some ⟨.apply, c :: as⟩) (has : LoadedAll st ts as) (hr : Rep hdr B st.bndl) :
    ∃ st' code v, Evals T env st e (st', code, v) ∧ Grows st st' ∧ Rep hdr B' st'.bndl ∧ Outcome r code v := by
  simp only [Loaded] at hc
  obtain ⟨y, v, rfl, h1, h2, h3⟩ := hc
  rw [hx] at h1
  injection h1 with h1
  subst h1
  obtain ⟨al, p, rfl⟩ := str_of_val h2
  obtain ⟨g, k1, k2⟩ := hf
  have hg := Grows.rfl.alloc (s := st) ⟨.prim g, as⟩
  obtain ⟨st', code, v, m1, m2, m3, m4⟩ := k2 ρ B ts _ (sounds_of hcs ρ B) B' r hd (st.alloc ⟨.prim g, as⟩).1 env (.expr st.exprs.length) hdr (henv.grows hg)
    (by rw [Loaded]; exact ⟨_, as, rfl, by simp [St.alloc], loadedAll_grows hg _ _ has⟩) hr
  exact ⟨st', code, v, (C39_builtin k1 he).mpr m1, hg.trans m2, m3, m4⟩

theorem sound_applyName {f : Bytes} (hf : Named T f) {x : UAtom} (hx : x.val = some (.str f)) {cs : List Cst} {ts : List Tm}
    (hcs : SoundL T cs ts) : Sound T ρ B (.app .apply (.atom x :: ts)) (andThen (dens cs ρ B) (callD f)) := by
  intro B' r hd st env a hdr henv hl hr
  rw [Loaded] at hl
  obtain ⟨e, _, rfl, he, hl⟩ := hl
  rw [LoadedAll] at hl
  obtain ⟨c, as, rfl, hc, has⟩ := hl
  exact named_sound hf hcs hd henv hx hc he has hr

/-! ### Applications to values -/

/-- Applied to atoms with values, the expression does what `F` says. -/
def AppSound (T : Tab) (ρ : Vars) (t : Tm) (F : Binds → List Val → D (List Val)) : Prop :=
  ∀ B vs B' r, F B vs = some (B', r) → ∀ (st : St) (env : Option Nat) (e : Nat) (c : Arg) (xs : List UAtom) (hdr : Bytes), EnvRep st env ρ → Loaded st t c →
    st.exprs[e]? = some ⟨.apply, c :: xs.map fun x => .atom (some x)⟩ → argsVal xs = some vs → vs.all simple = true → Rep hdr B st.bndl →
    ∃ st' code v, Evals T env st e (st', code, v) ∧ Grows st st' ∧ Rep hdr B' st'.bndl ∧ Outcome r code v

theorem atoms_sound : ∀ (xs : List UAtom) (vs : List Val), argsVal xs = some vs → SoundL T (xs.map .num) (xs.map .atom)
  | [], _, _ => rfl
  | x :: xs, vs, h => by
    simp only [argsVal, Option.bind_eq_some_iff, Option.map_eq_some_iff] at h
    obtain ⟨v, hx, vs', hxs, rfl⟩ := h
    refine ⟨.atom x, xs.map .atom, rfl, fun ρ B => ?_, atoms_sound xs vs' hxs⟩
    simp only [den, hx]
    exact sound_atom hx

theorem atoms_loaded {st : St} : ∀ (xs : List UAtom) (vs : List Val), argsVal xs = some vs → vs.all simple = true →
    LoadedAll st (xs.map .atom) (xs.map fun x => .atom (some x))
  | [], _, _, _ => by simp only [List.map_nil, LoadedAll]
  | x :: xs, vs, h, hs => by
    simp only [argsVal, Option.bind_eq_some_iff, Option.map_eq_some_iff] at h
    obtain ⟨v, hx, vs', hxs, rfl⟩ := h
    simp only [List.all_cons, Bool.and_eq_true] at hs
    simp only [List.map_cons, LoadedAll, Loaded]
    exact ⟨_, _, rfl, ⟨x, v, rfl, hx, hx, simple_copy hs.1⟩, atoms_loaded xs vs' hxs hs.2⟩

theorem valueOf_simple {st : St} {env : Option Nat} (henv : EnvRep st env ρ) {v : Val} (hv : simple v = true) :
    (valueOf ρ v).all simple = true ∧ (valueOf ρ v).isEmpty = false := by
  cases v with
  | str s =>
    simp only [valueOf]
    cases hg : ρ.get s with
    | none => simp [hv]
    | some vs => exact ((henv.2.2 s).2 vs hg).2
  | _ => simp [valueOf, hv]

theorem bindAll_atoms {st : St} {env : Option Nat} (henv : EnvRep st env ρ) : ∀ (ps : List Bytes) (xs : List UAtom) (vs : List Val) (ρ' : Vars),
    argsVal xs = some vs → vs.all simple = true → bindAll ps (xs.map .num) ρ B ρ' = some (B, .ok (bindVals ps vs ρ ρ'))
  | [], xs, vs, ρ', _, _ => by
    rw [bindAll_nil]
    cases vs <;> simp [bindVals]
  | p :: ps, [], vs, ρ', h, _ => by
    simp only [argsVal, Option.some.injEq] at h
    subst h
    simp [bindAll, bindVals]
  | p :: ps, x :: xs, vs, ρ', h, hs => by
    simp only [argsVal, Option.bind_eq_some_iff, Option.map_eq_some_iff] at h
    obtain ⟨v, hx, vs', hxs, rfl⟩ := h
    simp only [List.all_cons, Bool.and_eq_true] at hs
    obtain ⟨h1, h2⟩ := valueOf_simple henv hs.1
    simp only [List.map_cons, bindAll, den, hx, pure1, h1, if_true, andThenArg, h2, Bool.false_eq_true, if_false, bindVals]
    exact bindAll_atoms henv ps xs vs' _ hxs hs.2

theorem dens_atoms {st : St} {env : Option Nat} (henv : EnvRep st env ρ) : ∀ (xs : List UAtom) (vs : List Val),
    argsVal xs = some vs → vs.all simple = true → dens (xs.map .num) ρ B = some (B, .ok (vs.map (valueOf ρ)))
  | [], vs, h, _ => by
    simp only [argsVal, Option.some.injEq] at h
    subst h
    simp [dens]
  | x :: xs, vs, h, hs => by
    simp only [argsVal, Option.bind_eq_some_iff, Option.map_eq_some_iff] at h
    obtain ⟨v, hx, vs', hxs, rfl⟩ := h
    simp only [List.all_cons, Bool.and_eq_true] at hs
    obtain ⟨h1, -⟩ := valueOf_simple henv hs.1
    simp only [List.map_cons, dens, den, hx, pure1, h1, if_true, andThen, dens_atoms henv xs vs' hxs hs.2]

theorem app_lam {p : Params} {b : List Cst} {body : List Tm} (hbody : SeqSound T body (denSeq b)) :
    AppSound T ρ (.fn p.names body) (denFn (.lam p b) ρ) := by
  intro B vs B' r hd st env e c xs hdr henv hc he hx hs hr
  simp only [denFn] at hd
  refine apply_sound (B := B) (cs := xs.map .num) (ts := xs.map .atom) hbody (atoms_sound xs vs hx) ?_ henv hc he (atoms_loaded xs vs hx hs) hr
  rw [bindAll_atoms henv _ _ vs _ hx hs]
  exact hd

theorem app_name {f : Bytes} (hf : Named T f) {x : UAtom} (hx : x.val = some (.str f)) : AppSound T ρ (.atom x) (denFn (.str f) ρ) := by
  intro B vs B' r hd st env e c xs hdr henv hc he hxs hs hr
  simp only [denFn] at hd
  refine named_sound (B := B) (cs := xs.map .num) (ts := xs.map .atom) hf (atoms_sound xs vs hxs) ?_ henv hx hc he (atoms_loaded xs vs hxs hs) hr
  rw [dens_atoms henv _ vs hxs hs]
  exact hd

/-! ### Map -/

theorem evalAll_of_args {E : Ev} {env : Option Nat} : ∀ {as : List Arg} {st st' : St} {code : Int} {argv : List Ar},
    evalArgs E env as st = some (st', code, argv) → (code = 0 → evalAll E env as st = some (st', 0, argv)) ∧
      (code = UNBOUND → ∃ argv', evalAll E env as st = some (st', UNBOUND, argv'))
  | [], st, st', code, argv, h => by
    simp only [evalArgs, Option.some.injEq, Prod.mk.injEq] at h
    obtain ⟨rfl, rfl, rfl⟩ := h
    exact ⟨fun _ => rfl, fun h => absurd h (by decide)⟩
  | a :: as, st, st', code, argv, h => by
    simp only [evalArgs, Option.bind_eq_some_iff] at h
    obtain ⟨⟨s1, c1, v⟩, h1, h2⟩ := h
    simp only [evalAll, h1, Option.bind_some]
    by_cases hc : c1 = 0
    · subst hc
      simp only [ne_eq, not_true_eq_false, if_false, Option.map_eq_some_iff] at h2
      obtain ⟨⟨s2, c2, vs⟩, h2, h3⟩ := h2
      simp only [Prod.mk.injEq] at h3
      obtain ⟨rfl, rfl, rfl⟩ := h3
      obtain ⟨k1, k2⟩ := evalAll_of_args h2
      rw [if_neg (by decide)]
      refine ⟨fun e => ?_, fun e => ?_⟩
      · rw [k1 e]; rfl
      · obtain ⟨w, k⟩ := k2 e
        exact ⟨_, by rw [k]; rfl⟩
    · rw [if_pos hc] at h2
      simp only [Option.some.injEq, Prod.mk.injEq] at h2
      obtain ⟨rfl, rfl, rfl⟩ := h2
      refine ⟨fun e => absurd e hc, fun e => ⟨[], ?_⟩⟩
      subst e
      rw [if_pos rfl]

theorem setRest_get {st : St} {e : Nat} {f : Fn} {c : Arg} {as bs : List Arg} (h : st.exprs[e]? = some ⟨f, c :: as⟩) :
    (st.setRest e bs).exprs[e]? = some ⟨f, c :: bs⟩ := by
  simp [St.setRest, List.getElem?_modify, h]

theorem holdS_both : ∀ {argv : List Ar} {vss : List (List Val)}, HoldS argv vss → HoldAll argv vss ∧ ∀ vs ∈ vss, vs.all simple = true
  | [], vss, h => by
    simp only [HoldS] at h
    subst h
    exact ⟨rfl, by simp⟩
  | v :: argv, vss, h => by
    obtain ⟨vs, vss', rfl, h1, h2, h3⟩ := h
    obtain ⟨k1, k2⟩ := holdS_both h3
    exact ⟨holdAll_cons.mpr ⟨h1, k1⟩, by simpa using ⟨List.all_eq_true.mp h2, fun vs hv => List.all_eq_true.mp (k2 vs hv)⟩⟩

theorem mapLoop_sound {t : Tm} {F : Binds → List Val → D (List Val)} (hF : AppSound T ρ t F) {base : St} {env : Option Nat} {e : Nat} {c : Arg} {hdr : Bytes}
    (henv : EnvRep base env ρ) (hc : Loaded base t c) (hbe : base.exprs.length ≤ e) {cols : List Ar} {css : List (List Val)}
    (hcol : HoldAll cols css) (hsim : ∀ vs ∈ css, vs.all simple = true) :
    ∀ (is : List Nat) (st : St) (rest : List Arg) (B B' : Binds) (r : R), (∀ i ∈ is, ∀ cs ∈ css, i < cs.length) →
      mapRows F (is.map (row css)) B = some (B', r) → Grows base st → st.exprs[e]? = some ⟨.apply, c :: rest⟩ → Rep hdr B st.bndl →
      ∃ n st' outs vss, mapLoop (run T n) env e cols is st = some (st', outs) ∧ Grows base st' ∧ Rep hdr B' st'.bndl ∧ r = .ok vss.flatten ∧
        HoldAll outs vss ∧ ∀ vs ∈ vss, vs.all simple = true
  | [], st, rest, B, B', r, _, hd, hg, he, hr => by
    simp only [List.map_nil, mapRows, Option.some.injEq, Prod.mk.injEq] at hd
    obtain ⟨rfl, rfl⟩ := hd
    exact ⟨0, st, [], [], rfl, hg, hr, rfl, rfl, by simp⟩
  | i :: is, st, rest, B, B', r, hi, hd, hg, he, hr => by
    obtain ⟨xs, e1, e2⟩ := atoms_row cols css hcol (hi i (by simp))
    simp only [List.map_cons, mapRows] at hd
    cases h1 : F B (row css i) with
    | none => rw [h1] at hd; cases hd
    | some q =>
      obtain ⟨B1, r1⟩ := q
      rw [h1] at hd
      cases r1 with
      | error _ => cases hd
      | ok vs =>
        simp only at hd
        cases h2 : mapRows F (is.map (row css)) B1 with
        | none => rw [h2] at hd; cases hd
        | some q =>
          obtain ⟨B2, r2⟩ := q
          rw [h2] at hd
          cases r2 with
          | error _ => cases hd
          | ok ws =>
            simp only [Option.some.injEq, Prod.mk.injEq] at hd
            obtain ⟨rfl, rfl⟩ := hd
            have hg0 := hg.setRest hbe (xs.map fun x => Arg.atom (some x))
            have hrow : (row css i).all simple = true := by
              simp only [row, List.all_eq_true, List.mem_filterMap, forall_exists_index, and_imp]
              intro v cs hcs hv
              exact List.all_eq_true.mp (hsim cs hcs) v (List.mem_of_getElem? hv)
            obtain ⟨s1, code, v, ⟨n, k1⟩, k2, k3, rfl, k4, k5⟩ := hF B _ B1 _ h1 (st.setRest e (xs.map fun x => Arg.atom (some x))) env e c xs hdr
              (henv.grows hg0) (loaded_grows hg0 _ _ hc) (setRest_get he) e2 hrow hr
            obtain ⟨m, s2, outs, vss, m1, m2, m3, m4, m5, m6⟩ := mapLoop_sound hF henv hc hbe hcol hsim is s1 _ B1 B2 (.ok ws) (fun i h => hi i (by simp [h])) h2
              (hg0.trans k2) (prefix_get k2.exprs (setRest_get he)) k3
            injection m4 with m4
            subst m4
            refine ⟨max n m, s2, v :: outs, vs :: vss, ?_, m2, m3, by simp, holdAll_cons.mpr ⟨k4, m5⟩, ?_⟩
            · rw [mapLoop, e1, le_max_run n m _ _ _ _ k1, Option.bind_some, mapLoop_mono (le_max_run' n m) _ _ _ _ _ _ m1]
              rfl
            · intro w hw
              rcases List.mem_cons.mp hw with rfl | hw
              · exact k5
              · exact m6 w hw

theorem shortest_spec : ∀ (css : List (List Val)), css ≠ [] → (∀ c ∈ css, shortest css ≤ c.length) ∧ ∃ c ∈ css, c.length = shortest css
  | [c], _ => by simp [shortest]
  | c :: d :: css, _ => by
    obtain ⟨h1, x, hx, hx'⟩ := shortest_spec (d :: css) (by simp)
    simp only [shortest]
    refine ⟨fun y hy => ?_, ?_⟩
    · rcases List.mem_cons.mp hy with rfl | hy
      · exact Nat.min_le_left _ _
      · exact Nat.le_trans (Nat.min_le_right _ _) (h1 y hy)
    · by_cases hle : c.length ≤ shortest (d :: css)
      · exact ⟨c, by simp, by rw [Nat.min_eq_left hle]⟩
      · exact ⟨x, List.mem_cons_of_mem _ hx, by rw [hx', Nat.min_eq_right (by omega)]⟩

theorem lens_sum : ∀ {outs : List Ar} {vss : List (List Val)}, HoldAll outs vss → (outs.map Expr.len).sum = vss.flatten.length
  | [], vss, h => by
    simp only [HoldAll] at h
    subst h
    rfl
  | o :: outs, vss, h => by
    obtain ⟨vs, vss', rfl, h1, h2⟩ := h
    simp [holds_len h1, lens_sum h2]

theorem sound_map {t : Tm} {F : Binds → List Val → D (List Val)} (hF : AppSound T ρ t F) {c1 : Cst} {cs : List Cst} {ts : List Tm} (hcs : SoundL T (c1 :: cs) ts) :
    Sound T ρ B (.app .map (t :: ts))
      (andThenArg (dens (c1 :: cs) ρ B) fun B css => if shortest css < 4294967296 then mapRows F (rows css) B else none) := by
  intro B' r hd st env a hdr henv hl hr
  rw [Loaded] at hl
  obtain ⟨f, _, rfl, he, hl⟩ := hl
  rw [LoadedAll] at hl
  obtain ⟨a0, as, rfl, ha0, has⟩ := hl
  have hts := soundL_length hcs
  obtain ⟨a1, rest, rfl⟩ : ∃ a1 rest, as = a1 :: rest := by
    cases ts with
    | nil => simp at hts
    | cons t' ts =>
      rw [LoadedAll] at has
      obtain ⟨a1, rest, rfl, -⟩ := has
      exact ⟨a1, rest, rfl⟩
  cases hdn : dens (c1 :: cs) ρ B with
  | none => rw [hdn] at hd; cases hd
  | some q =>
    obtain ⟨B1, r1⟩ := q
    rw [hdn] at hd
    obtain ⟨s1, code, cols, ⟨m1, h1⟩, h2, h3, h4⟩ := sounds_of hcs ρ B B1 r1 hdn st env _ hdr henv has hr
    obtain ⟨k1, k2⟩ := evalAll_of_args h1
    cases r1 with
    | error c0 =>
      simp only [andThenArg] at hd
      split at hd
      · rename_i e0
        simp only [Option.some.injEq, Prod.mk.injEq] at hd
        obtain ⟨rfl, rfl⟩ := hd
        obtain ⟨-, rfl⟩ := h4
        subst e0
        obtain ⟨w, k2⟩ := k2 rfl
        refine ⟨s1, UNBOUND, none, argEvals_expr (evals_node.mpr ⟨m1, ?_⟩), h2, h3, by decide, rfl⟩
        simp only [evalNode, he, mapNode, k2, Option.bind_some]
        rw [if_pos (by decide)]
      · cases hd
    | ok css =>
      simp only [andThenArg] at hd
      split at hd
      · rename_i hlt
        obtain ⟨rfl, h4⟩ := h4
        obtain ⟨hcol, hsim⟩ := holdS_both h4
        have hcne : css ≠ [] := by
          rintro rfl
          have : cols ≠ [] := by
            rintro rfl
            simp only [evalArgs, Option.bind_eq_some_iff] at h1
            obtain ⟨⟨s2, c2, v2⟩, h1, g⟩ := h1
            by_cases hz : c2 = 0
            · simp [hz] at g
            · simp [hz] at g
          cases cols with
          | nil => exact this rfl
          | cons x y => simp [HoldAll] at hcol
        obtain ⟨hmin, hmin'⟩ := shortest_spec css hcne
        obtain ⟨m2, s2, c, g1, g2, g3, g4, -⟩ := copyArg_loaded t s1 a0 (loaded_grows h2 _ _ ha0)
        have hg3 := Grows.rfl.alloc (s := s2) ⟨.apply, c :: (a1 :: rest).map fun _ => .blank⟩
        obtain ⟨m3, s3, outs, vss, p1, p2, p3, rfl, p5, p6⟩ := mapLoop_sound (hdr := hdr) (base := s2) (e := s2.exprs.length) hF ((henv.grows h2).grows g2) g4 (Nat.le_refl _)
          hcol hsim (List.range (shortest css)) (s2.alloc ⟨.apply, c :: (a1 :: rest).map fun _ => .blank⟩).1 ((a1 :: rest).map fun _ => .blank) B1 B' r
          (fun i hi cs hcs => by have := hmin cs hcs; simp at hi; omega) hd hg3 (by simp [St.alloc]) (by show Rep hdr B1 s2.bndl; rw [g3]; exact h3)
        have hm := minOf_eq cols css hcol hmin hmin' (by omega)
        have hlen := lens_sum p5
        obtain ⟨out, q1, q2, -, q4⟩ := gather_spec outs vss 0 (Expr.mk ((outs.map Expr.len).sum)) p5
          (fun vs hvs v hv => simple_copy (List.all_eq_true.mp (p6 vs hvs) v hv)) (by rw [mk_length, hlen]; omega)
        refine ⟨s3, 0, some out, argEvals_expr (evals_node.mpr ⟨max m1 (max m2 m3), ?_⟩), (h2.trans g2).trans p2, p3, rfl, (argsVal_iff _ _).mpr ⟨?_, fun i hi => ?_⟩, ?_⟩
        · have e1 := evalAll_mono (le_max_run m1 (max m2 m3)) env (a1 :: rest) st _ (k1 rfl)
          have e2 := copyArg_le g1 (show m2 ≤ max m1 (max m2 m3) by omega)
          have e3 : mapLoop (run T (max m1 (max m2 m3))) env s2.exprs.length cols (List.range (shortest css)) _ = some (s3, outs) :=
            mapLoop_mono (le_max_run' m1 (max m2 m3)) _ _ _ _ _ _ (mapLoop_mono (le_max_run' m2 m3) _ _ _ _ _ _ p1)
          simp only [evalNode, he, mapNode, e1, Option.bind_some, ne_eq, not_true_eq_false, if_false, e2]
          simp only [St.alloc] at e3 ⊢
          rw [hm, e3, Option.bind_some, q1]
          rfl
        · rw [Option.getD_some, q2, mk_length, hlen]
        · simpa using q4 i hi
        · simp only [List.all_flatten, List.all_eq_true]
          intro vs hvs v hv
          exact List.all_eq_true.mp (p6 vs hvs) v hv
      · cases hd

/-! ### Reductions -/

theorem reduceLoop_sound {t : Tm} {F : Binds → List Val → D (List Val)} (hF : AppSound T ρ t F) {base : St} {env : Option Nat} {e : Nat} {c : Arg} {hdr : Bytes}
    (left : Bool) (henv : EnvRep base env ρ) (hc : Loaded base t c) (hbe : base.exprs.length ≤ e) :
    ∀ (xs : List UAtom) (vs : List Val) (st : St) (rest : List Arg) (B B' : Binds) (r : R) (out : Ar) (acc : List Val), argsVal xs = some vs →
      vs.all simple = true → Holds out acc → acc.all simple = true →
      fold F left vs acc B = some (B', r) → Grows base st → st.exprs[e]? = some ⟨.apply, c :: rest⟩ → Rep hdr B st.bndl →
      ∃ n st' out', reduceLoop (run T n) env e left xs st out = some (st', out') ∧ Grows base st' ∧ Rep hdr B' st'.bndl ∧ Outcome r 0 out'
  | [], vs, st, rest, B, B', r, out, acc, hx, hs, ho, hac, hd, hg, he, hr => by
    simp only [argsVal, Option.some.injEq] at hx
    subst hx
    simp only [fold, Option.some.injEq, Prod.mk.injEq] at hd
    obtain ⟨rfl, rfl⟩ := hd
    exact ⟨0, st, out, rfl, hg, hr, rfl, ho, hac⟩
  | x :: xs, vs, st, rest, B, B', r, out, acc, hx, hs, ho, hac, hd, hg, he, hr => by
    simp only [argsVal, Option.bind_eq_some_iff, Option.map_eq_some_iff] at hx
    obtain ⟨v, hx, vs, hxs, rfl⟩ := hx
    simp only [List.all_cons, Bool.and_eq_true] at hs
    cases acc with
    | nil => simp [fold] at hd
    | cons av accs =>
      have hav0 : simple av = true := by simp only [List.all_cons, Bool.and_eq_true] at hac; exact hac.1
      obtain ⟨a, ha, hav⟩ := holds_at ho (i := 0) (v := av) rfl
      obtain ⟨a', ca, cav, -⟩ := copyAtom_val a av hav (simple_copy hav0)
      obtain ⟨x', cx, cxv, -⟩ := copyAtom_val x v hx (simple_copy hs.1)
      obtain ⟨ys, e1, e2⟩ := pair_both (left := left) cav cxv
      have hb : (Props.both left av v).all simple = true := by cases left <;> simp [Props.both, hav0, hs.1]
      simp only [fold] at hd
      have hbd : (if left = true then [av, v] else [v, av]) = Props.both left av v := rfl
      rw [hbd] at hd
      cases h1 : F B (Props.both left av v) with
      | none => rw [h1] at hd; cases hd
      | some q =>
        obtain ⟨B1, r1⟩ := q
        rw [h1] at hd
        cases r1 with
        | error _ => cases hd
        | ok ws =>
          simp only at hd
          have hg0 := hg.setRest hbe (ys.map fun x => Arg.atom (some x))
          obtain ⟨s1, code, o, ⟨n, k1⟩, k2, k3, rfl, k4, k5⟩ := hF B _ B1 _ h1 (st.setRest e (ys.map fun x => Arg.atom (some x))) env e c ys hdr
            (henv.grows hg0) (loaded_grows hg0 _ _ hc) (setRest_get he) e2 hb hr
          obtain ⟨m, s2, out', m1, m2⟩ := reduceLoop_sound hF left henv hc hbe xs vs s1 _ B1 B' r o ws hxs hs.2 k4 k5 hd
            (hg0.trans k2) (prefix_get k2.exprs (setRest_get he)) k3
          refine ⟨max n m, s2, out', ?_, m2⟩
          rw [reduceLoop, ha, copyOpt, ca, Option.map_some, Option.bind_some, cx, Option.bind_some, e1,
            le_max_run n m _ _ _ _ k1, Option.bind_some]
          exact reduceLoop_mono (le_max_run' n m) _ _ _ _ _ _ _ m1

/-- The first step, in which nothing is copied. -/
theorem reduceFirst_sound {t : Tm} {F : Binds → List Val → D (List Val)} (hF : AppSound T ρ t F) {base : St} {env : Option Nat} {e : Nat} {c : Arg} {hdr : Bytes}
    (left : Bool) (henv : EnvRep base env ρ) (hc : Loaded base t c) (hbe : base.exprs.length ≤ e) {x a : UAtom} {v av : Val} {accs : List Val}
    {xs : List UAtom} {vs : List Val} {st : St} {rest : List Arg} {B B' : Binds} {r : R} (hx : x.val = some v) (ha : a.val = some av)
    (hxs : argsVal xs = some vs) (hs : (v :: vs).all simple = true) (hav : simple av = true)
    (hd : fold F left (v :: vs) (av :: accs) B = some (B', r)) (hg : Grows base st) (he : st.exprs[e]? = some ⟨.apply, c :: rest⟩) (hr : Rep hdr B st.bndl) :
    ∃ n p st' out', run T n env (st.setRest e (pair left (some a) (some x))) e = some p ∧ reduceLoop (run T n) env e left xs p.1 p.2.2 = some (st', out') ∧
      Grows base st' ∧ Rep hdr B' st'.bndl ∧ Outcome r 0 out' := by
  simp only [List.all_cons, Bool.and_eq_true] at hs
  obtain ⟨ys, e1, e2⟩ := pair_both (left := left) ha hx
  have hb : (Props.both left av v).all simple = true := by cases left <;> simp [Props.both, hav, hs.1]
  simp only [fold] at hd
  have hbd : (if left = true then [av, v] else [v, av]) = Props.both left av v := rfl
  rw [hbd] at hd
  cases h1 : F B (Props.both left av v) with
  | none => rw [h1] at hd; cases hd
  | some q =>
    obtain ⟨B1, r1⟩ := q
    rw [h1] at hd
    cases r1 with
    | error _ => cases hd
    | ok ws =>
      simp only at hd
      have hg0 := hg.setRest hbe (ys.map fun x => Arg.atom (some x))
      obtain ⟨s1, code, o, ⟨n, k1⟩, k2, k3, rfl, k4, k5⟩ := hF B _ B1 _ h1 (st.setRest e (ys.map fun x => Arg.atom (some x))) env e c ys hdr
        (henv.grows hg0) (loaded_grows hg0 _ _ hc) (setRest_get he) e2 hb hr
      obtain ⟨m, s2, out', m1, m2⟩ := reduceLoop_sound hF left henv hc hbe xs vs s1 _ B1 B' r o ws hxs hs.2 k4 k5 hd
        (hg0.trans k2) (prefix_get k2.exprs (setRest_get he)) k3
      exact ⟨max n m, _, s2, out', by rw [e1]; exact le_max_run n m _ _ _ _ k1, reduceLoop_mono (le_max_run' n m) _ _ _ _ _ _ _ m1, m2⟩

theorem order_vals {left : Bool} {l : Ar} {vs : List Val} (hl : Holds l vs) :
    argsVal (if left then l.getD [] else (l.getD []).reverse) = some (if left then vs else vs.reverse) := by
  cases left
  · exact argsVal_reverse hl
  · exact hl

theorem order_simple {left : Bool} {vs : List Val} (h : vs.all simple = true) : (if left then vs else vs.reverse).all simple = true := by
  cases left <;> simpa using h

theorem run_le {T : Tab} {k m : Nat} (hk : k ≤ m) : LeEv (run T k) (run T m) := by
  have := le_max_run (T := T) k m
  rwa [Nat.max_eq_right hk] at this

theorem sound_reduce {left : Bool} {t l : Tm} {F : Binds → List Val → D (List Val)} {d : D (List Val)} (hF : AppSound T ρ t F) (hl : Sound T ρ B l d) :
    Sound T ρ B (.app (reduceFn left) [t, l]) (andThenArg d fun B vs => reduce F left vs B) := by
  intro B' r hd st env a hdr henv hld hr
  rw [Loaded] at hld
  obtain ⟨f, _, rfl, he, hld⟩ := hld
  simp only [LoadedAll] at hld
  obtain ⟨a0, _, rfl, ha0, a1, _, rfl, ha1, rfl⟩ := hld
  obtain ⟨m0, s1, c, g1, g2, g3, g4, -⟩ := copyArg_loaded t st a0 ha0
  have hgA := g2.alloc ⟨.apply, [c, .blank, .blank]⟩
  have hgB := Grows.rfl.alloc (s := s1) ⟨.apply, [c, .blank, .blank]⟩
  cases hdn : d with
  | none => rw [hdn] at hd; cases hd
  | some q =>
    obtain ⟨B1, r1⟩ := q
    rw [hdn] at hd
    obtain ⟨s2, code, v, ⟨m1, h1⟩, h2, h3, h4⟩ := hl B1 r1 hdn _ env a1 hdr (henv.grows hgA) (loaded_grows hgA _ _ ha1) (by show Rep hdr B s1.bndl; rw [g3]; exact hr)
    cases r1 with
    | error c0 =>
      simp only [andThenArg] at hd
      split at hd
      · rename_i e0
        simp only [Option.some.injEq, Prod.mk.injEq] at hd
        obtain ⟨rfl, rfl⟩ := hd
        obtain ⟨-, rfl⟩ := h4
        subst e0
        refine ⟨s2, UNBOUND, none, argEvals_expr ((reduce_evals he).mpr ⟨max m0 m1, ?_⟩), hgA.trans h2, h3, by decide, rfl⟩
        simp only [reduceNode, copyArg_le g1 (Nat.le_max_left m0 m1), Option.bind_some]
        rw [evalArg_mono (run_le (Nat.le_max_right m0 m1)) _ _ _ _ h1, Option.bind_some]
        rw [if_pos (by rfl)]
      · cases hd
    | ok vs =>
      simp only [andThenArg, reduce] at hd
      obtain ⟨rfl, hv, hs⟩ := h4
      have hx := order_vals (left := left) hv
      have hxs := order_simple (left := left) hs
      have hst : s2.exprs[s1.exprs.length]? = some ⟨.apply, [c, .blank, .blank]⟩ := prefix_get h2.exprs (by simp [St.alloc])
      generalize hws : (if left then vs else vs.reverse) = ws at hx hxs hd
      generalize hxe : (if left then v.getD [] else (v.getD []).reverse) = xs at hx
      cases xs with
      | nil =>
        simp only [argsVal, Option.some.injEq] at hx
        subst hx
        cases hd
      | cons x xs =>
        simp only [argsVal, Option.bind_eq_some_iff, Option.map_eq_some_iff] at hx
        obtain ⟨w, hxv, ws', hxs', rfl⟩ := hx
        simp only at hd
        cases xs with
        | nil =>
          simp only [argsVal, Option.some.injEq] at hxs'
          subst hxs'
          simp only [fold, Option.some.injEq, Prod.mk.injEq] at hd
          obtain ⟨rfl, rfl⟩ := hd
          have hvs : vs = [w] := by
            cases left
            · simpa using hws
            · simpa using hws
          subst hvs
          refine ⟨s2, 0, v, argEvals_expr ((reduce_evals he).mpr ⟨max m0 m1, ?_⟩), hgA.trans h2, h3, rfl, hv, hs⟩
          simp only [reduceNode, copyArg_le g1 (Nat.le_max_left m0 m1), Option.bind_some]
          rw [evalArg_mono (run_le (Nat.le_max_right m0 m1)) _ _ _ _ h1, Option.bind_some, if_neg (show ¬ (0 : Int) = UNBOUND by decide)]
          simp only [hxe]
        | cons y ys =>
          simp only [argsVal, Option.bind_eq_some_iff, Option.map_eq_some_iff] at hxs'
          obtain ⟨u, hyv, us, hus, rfl⟩ := hxs'
          simp only [List.all_cons, Bool.and_eq_true] at hxs
          obtain ⟨m2, p, s3, out, k1, k2, k3, k4, k5⟩ := reduceFirst_sound (hdr := hdr) hF left (henv.grows g2) g4 (Nat.le_refl _) hyv hxv hus
            (by simp only [List.all_cons, Bool.and_eq_true]; exact hxs.2) hxs.1 hd (hgB.trans h2) hst h3
          refine ⟨s3, 0, out, argEvals_expr ((reduce_evals he).mpr ⟨max m0 (max m1 m2), ?_⟩), g2.trans k3, k4, k5⟩
          simp only [reduceNode, copyArg_le g1 (Nat.le_max_left m0 (max m1 m2)), Option.bind_some]
          rw [evalArg_mono (run_le (show m1 ≤ max m0 (max m1 m2) by omega)) _ _ _ _ h1, Option.bind_some, if_neg (show ¬ (0 : Int) = UNBOUND by decide)]
          simp only [hxe, List.length_cons, Nat.add_eq_zero_iff, Nat.one_ne_zero, and_false, if_false, List.head?_cons, List.tail_cons]
          have f1 := run_le (T := T) (show m2 ≤ max m0 (max m1 m2) by omega) _ _ _ _ k1
          have f2 := reduceLoop_mono (run_le (T := T) (show m2 ≤ max m0 (max m1 m2) by omega)) _ _ _ _ _ _ _ k2
          simp only [St.alloc] at f1 ⊢
          rw [f1, Option.bind_some, f2]
          rfl

theorem sound_reduceFrom {left : Bool} {t l i : Tm} {F : Binds → List Val → D (List Val)} {d : D (List Val)} {di : Binds → D (List Val)} (hF : AppSound T ρ t F) (hl : Sound T ρ B l d)
    (hi : ∀ B, Sound T ρ B i (di B)) :
    Sound T ρ B (.app (reduceFn left) [t, l, i])
      (andThenArg d fun B vs => if vs.isEmpty then none else andThenArg (di B) fun B is => reduceFrom F left vs is B) := by
  intro B' r hd st env a hdr henv hld hr
  rw [Loaded] at hld
  obtain ⟨f, _, rfl, he, hld⟩ := hld
  simp only [LoadedAll] at hld
  obtain ⟨a0, _, rfl, ha0, a1, _, rfl, ha1, a2, _, rfl, ha2, rfl⟩ := hld
  obtain ⟨m0, s1, c, g1, g2, g3, g4, -⟩ := copyArg_loaded t st a0 ha0
  have hgA := g2.alloc ⟨.apply, [c, .blank, .blank]⟩
  have hgB := Grows.rfl.alloc (s := s1) ⟨.apply, [c, .blank, .blank]⟩
  cases hdn : d with
  | none => rw [hdn] at hd; cases hd
  | some q =>
    obtain ⟨B1, r1⟩ := q
    rw [hdn] at hd
    obtain ⟨s2, code, v, ⟨m1, h1⟩, h2, h3, h4⟩ := hl B1 r1 hdn _ env a1 hdr (henv.grows hgA) (loaded_grows hgA _ _ ha1) (by show Rep hdr B s1.bndl; rw [g3]; exact hr)
    cases r1 with
    | error c0 =>
      simp only [andThenArg] at hd
      split at hd
      · rename_i e0
        simp only [Option.some.injEq, Prod.mk.injEq] at hd
        obtain ⟨rfl, rfl⟩ := hd
        obtain ⟨-, rfl⟩ := h4
        subst e0
        refine ⟨s2, UNBOUND, none, argEvals_expr ((reduce_evals he).mpr ⟨max m0 m1, ?_⟩), hgA.trans h2, h3, by decide, rfl⟩
        simp only [reduceNode, copyArg_le g1 (Nat.le_max_left m0 m1), Option.bind_some]
        rw [evalArg_mono (run_le (Nat.le_max_right m0 m1)) _ _ _ _ h1, Option.bind_some]
        rw [if_pos (by rfl)]
      · cases hd
    | ok vs =>
      simp only [andThenArg] at hd
      cases hne : vs.isEmpty with
      | true => simp [hne] at hd
      | false =>
      rw [hne, if_neg (by simp)] at hd
      obtain ⟨rfl, hv, hs⟩ := h4
      have hx := order_vals (left := left) hv
      have hxs := order_simple (left := left) hs
      have hst : s2.exprs[s1.exprs.length]? = some ⟨.apply, [c, .blank, .blank]⟩ := prefix_get h2.exprs (by simp [St.alloc])
      cases hdi : di B1 with
      | none => rw [hdi] at hd; cases hd
      | some q =>
        obtain ⟨B2, r2⟩ := q
        rw [hdi] at hd
        obtain ⟨s3, code2, v2, ⟨m2, i1⟩, i2, i3, i4⟩ := hi B1 B2 r2 hdi s2 env a2 hdr ((henv.grows hgA).grows h2) (loaded_grows (hgA.trans h2) _ _ ha2) h3
        have hne' : (if left then vs else vs.reverse) ≠ [] := by cases left <;> simpa using hne
        generalize hxe : (if left then v.getD [] else (v.getD []).reverse) = xs at hx
        generalize hwe : (if left then vs else vs.reverse) = ws at hx hxs hne'
        cases xs with
        | nil =>
          simp only [argsVal, Option.some.injEq] at hx
          exact absurd hx.symm hne'
        | cons x xs =>
          simp only [argsVal, Option.bind_eq_some_iff, Option.map_eq_some_iff] at hx
          obtain ⟨w, hxv, ws', hxs', rfl⟩ := hx
          cases r2 with
          | error c0 =>
            simp only [andThenArg] at hd
            split at hd
            · rename_i e0
              simp only [Option.some.injEq, Prod.mk.injEq] at hd
              obtain ⟨rfl, rfl⟩ := hd
              obtain ⟨-, rfl⟩ := i4
              subst e0
              refine ⟨s3, UNBOUND, none, argEvals_expr ((reduce_evals he).mpr ⟨max m0 (max m1 m2), ?_⟩), (hgA.trans h2).trans i2, i3, by decide, rfl⟩
              simp only [reduceNode, copyArg_le g1 (Nat.le_max_left m0 (max m1 m2)), Option.bind_some]
              rw [evalArg_mono (run_le (show m1 ≤ max m0 (max m1 m2) by omega)) _ _ _ _ h1, Option.bind_some, if_neg (show ¬ (0 : Int) = UNBOUND by decide)]
              simp only [hxe]
              rw [evalArg_mono (run_le (show m2 ≤ max m0 (max m1 m2) by omega)) _ _ _ _ i1, Option.bind_some, if_pos (by rfl)]
            · cases hd
          | ok is =>
            simp only [andThenArg, reduceFrom, hne, Bool.false_eq_true, if_false, hwe] at hd
            obtain ⟨rfl, hiv, his⟩ := i4
            cases is with
            | nil => simp [fold] at hd
            | cons iv is =>
              have hiv0 : simple iv = true := by simp only [List.all_cons, Bool.and_eq_true] at his; exact his.1
              obtain ⟨b, hb, hbv⟩ := holds_at hiv (i := 0) (v := iv) rfl
              obtain ⟨sc, rfl⟩ : ∃ sc, v2 = some sc := by
                cases v2 with
                | none => simp [at?] at hb
                | some sc => exact ⟨sc, rfl⟩
              obtain ⟨b', cb, cbv, -⟩ := copyAtom_val b iv hbv (simple_copy hiv0)
              have hsc : copyOpt sc[0]? = some (some b') := by
                simp only [at?, Option.getD_some] at hb
                rw [hb, copyOpt, cb]; rfl
              obtain ⟨m3, p, s4, out, k1, k2, k3, k4, k5⟩ := reduceFirst_sound (hdr := hdr) hF left (henv.grows g2) g4 (Nat.le_refl _) hxv cbv hxs'
                hxs hiv0 hd ((hgB.trans h2).trans i2) (prefix_get i2.exprs hst) i3
              refine ⟨s4, 0, out, argEvals_expr ((reduce_evals he).mpr ⟨max (max m0 m1) (max m2 m3), ?_⟩), g2.trans k3, k4, k5⟩
              simp only [reduceNode, copyArg_le g1 (show m0 ≤ max (max m0 m1) (max m2 m3) by omega), Option.bind_some]
              rw [evalArg_mono (run_le (show m1 ≤ max (max m0 m1) (max m2 m3) by omega)) _ _ _ _ h1, Option.bind_some, if_neg (show ¬ (0 : Int) = UNBOUND by decide)]
              simp only [hxe]
              rw [evalArg_mono (run_le (show m2 ≤ max (max m0 m1) (max m2 m3) by omega)) _ _ _ _ i1, Option.bind_some, if_neg (show ¬ (0 : Int) = UNBOUND by decide)]
              simp only [hsc, Option.bind_some]
              have f1 := run_le (T := T) (show m3 ≤ max (max m0 m1) (max m2 m3) by omega) _ _ _ _ k1
              have f2 := reduceLoop_mono (run_le (T := T) (show m3 ≤ max (max m0 m1) (max m2 m3) by omega)) _ _ _ _ _ _ _ k2
              simp only [St.alloc] at f1 ⊢
              rw [f1, Option.bind_some, f2]
              rfl

end Libo.Sem
