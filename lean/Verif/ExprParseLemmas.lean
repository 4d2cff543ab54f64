import Verif.ExprParse
/-!
# The parser finds exactly the trees that respect the precedences
-/

namespace Libo.Syn
open Libo

theorem takes_iff {q p : Nat} : takes q p ↔ rightMin q ≤ p := by
  unfold takes rightMin
  split <;> omega

theorem level_bounds (o : Op) : 1 ≤ o.level ∧ o.level ≤ 9 := by cases o <;> simp [Op.level]

theorem rightMin_le {q : Nat} (h : q ≤ 10) : rightMin q ≤ 11 := by unfold rightMin; split <;> omega

/-- The level of the operator a text begins with. -/
def headLevel : List Tok → Option Nat
  | .op o :: _ => some o.level
  | .quest :: _ => some 2
  | .ldbl :: _ => some 11
  | _ => none

theorem headLevel_pos {ts : List Tok} {p : Nat} (h : p ∈ headLevel ts) : 1 ≤ p := by
  unfold headLevel at h
  split at h <;> simp at h <;> try omega
  rw [← h]; exact (level_bounds _).1

/-! ### What is found is a tree with these tokens -/

theorem argToks_cons {c : Cst} {cs : List Cst} (h : cs ≠ []) : argToks (c :: cs) = c.toks ++ .comma :: argToks cs := by
  cases cs with
  | nil => exact absurd rfl h
  | cons d cs => rw [argToks]

theorem argToks_one (c : Cst) : argToks [c] = c.toks := by rw [argToks]

theorem msgToks_cons {a : Bytes} {as : List Bytes} {c : Cst} {cs : List Cst} (h : cs ≠ []) :
    msgToks (a :: as) (c :: cs) = .addr a :: .colon :: (c.toks ++ .comma :: msgToks as cs) := by
  cases cs with
  | nil => exact absurd rfl h
  | cons d cs => rw [msgToks]

theorem msgToks_one (a : Bytes) (as : List Bytes) (c : Cst) : msgToks (a :: as) [c] = .addr a :: .colon :: c.toks := by rw [msgToks]

theorem pParams_sound : ∀ (ts : List Tok) (ps : List Bytes) (rest : List Tok), pParams ts = some (ps, rest) →
    ts = paramToks ps ++ .rbrk :: rest ∧ ps ≠ [] := by
  intro ts
  induction ts using pParams.induct with
  | case1 p ts =>
    intro ps rest h
    simp only [pParams, Option.some.injEq, Prod.mk.injEq] at h
    obtain ⟨rfl, rfl⟩ := h
    simp [paramToks]
  | case2 p ts ih =>
    intro ps rest h
    simp only [pParams, Option.map_eq_some_iff] at h
    obtain ⟨⟨qs, r⟩, h1, h2⟩ := h
    simp only [Prod.mk.injEq] at h2
    obtain ⟨rfl, rfl⟩ := h2
    obtain ⟨e, hn⟩ := ih _ _ h1
    obtain ⟨q, qs, rfl⟩ := List.exists_cons_of_ne_nil hn
    exact ⟨by rw [e]; simp [paramToks], by simp⟩
  | case3 ts h1 h2 => intro ps rest h; rw [pParams] at h <;> simp_all

theorem pLamParams_sound {ts : List Tok} {p : Params} {rest : List Tok} (h : pLamParams ts = some (p, rest)) :
    ts = p.toks ++ .comma :: rest := by
  unfold pLamParams at h
  split at h
  · simp only [Option.some.injEq, Prod.mk.injEq] at h
    obtain ⟨rfl, rfl⟩ := h; rfl
  · simp only [Option.some.injEq, Prod.mk.injEq] at h
    obtain ⟨rfl, rfl⟩ := h; rfl
  · split at h
    · rename_i e
      simp only [Option.some.injEq, Prod.mk.injEq] at h
      obtain ⟨rfl, rfl⟩ := h
      rw [(pParams_sound _ _ _ e).1]
      simp [Params.toks]
    · cases h
  · cases h

/-- What the functions of the parser find, with at most `n` nested calls. -/
structure Sound (n : Nat) : Prop where
  arg : ∀ m ts c rest, m ≤ 11 → pArg n m ts = some (c, rest) →
    ts = c.toks ++ rest ∧ c.ok ∧ (∀ p ∈ c.opens, m ≤ p) ∧ ∀ p ∈ headLevel rest, p < m ∧ leaves c p
  loop : ∀ m l ts c rest, m ≤ 11 → l.ok → (∀ p ∈ l.opens, m ≤ p) → (∀ p ∈ headLevel ts, leaves l p) → pLoop n m l ts = some (c, rest) →
    l.toks ++ ts = c.toks ++ rest ∧ c.ok ∧ (∀ p ∈ c.opens, m ≤ p) ∧ ∀ p ∈ headLevel rest, p < m ∧ leaves c p
  args : ∀ ts cs rest, pArgs n ts = some (cs, rest) → ts = argToks cs ++ rest ∧ cs ≠ [] ∧ oks cs
  callArgs : ∀ ts cs rest, pCallArgs n ts = some (cs, rest) → ts = argToks cs ++ .rpar :: rest ∧ oks cs
  msgs : ∀ ts as cs rest, pMsgs n ts = some ((as, cs), rest) →
    ts = msgToks as cs ++ .rbrace :: rest ∧ cs ≠ [] ∧ as.length = cs.length ∧ oks cs
  prim : ∀ ts c rest, pPrim n ts = some (c, rest) →
    ts = c.toks ++ rest ∧ c.ok ∧ c.opens = none ∧ ∀ p ∈ headLevel rest, leaves c p

theorem leaves_nil {c : Cst} (h : c.ends = []) (p : Nat) : leaves c p := by
  intro q hq; rw [h] at hq; cases hq

theorem leaves_cons {c e : Cst} {q p : Nat} (h : c.ends = q :: e.ends) (h1 : p < rightMin q) (h2 : leaves e p) : leaves c p := by
  intro x hx
  rw [h] at hx
  rcases List.mem_cons.mp hx with rfl | hx
  · rw [takes_iff]; omega
  · exact h2 x hx

theorem sound_succ {n : Nat} (ih : Sound n) : Sound (n + 1) where
  arg := by
    intro m ts c rest hm h
    simp only [pArg, Option.bind_eq_some_iff, Prod.exists] at h
    obtain ⟨d, ts', h1, h2⟩ := h
    obtain ⟨e1, e2, e3, e4⟩ := ih.prim _ _ _ h1
    obtain ⟨f1, f2⟩ := ih.loop m d ts' c rest hm e2 (by simp [e3]) e4 h2
    exact ⟨by rw [e1, f1], f2⟩
  loop := by
    intro m l ts c rest hm hl ho hh h
    simp only [pLoop] at h
    split at h
    · rename_i o ts'
      have hb := level_bounds o
      split at h
      · rename_i hlt
        simp only [Option.some.injEq, Prod.mk.injEq] at h
        obtain ⟨rfl, rfl⟩ := h
        exact ⟨rfl, hl, ho, fun p hp => ⟨by simp [headLevel] at hp; omega, hh p hp⟩⟩
      · simp only [Option.bind_eq_some_iff, Prod.exists] at h
        obtain ⟨r, tr, h1, h2⟩ := h
        obtain ⟨e1, e2, e3, e4⟩ := ih.arg _ _ _ _ (rightMin_le (by omega)) h1
        have := ih.loop m (.infix o l r) tr c rest hm ⟨hl, e2, hh _ (by simp [headLevel]), fun p hp => takes_iff.mpr (e3 p hp)⟩
          (by simp [Cst.opens]; omega) (fun p hp => leaves_cons (by rw [Cst.ends]) (e4 p hp).1 (e4 p hp).2) h2
        refine ⟨?_, this.2⟩
        rw [← this.1, e1]; simp [Cst.toks]
    · rename_i ts'
      split at h
      · rename_i hlt
        simp only [Option.some.injEq, Prod.mk.injEq] at h
        obtain ⟨rfl, rfl⟩ := h
        exact ⟨rfl, hl, ho, fun p hp => ⟨by simp [headLevel] at hp; omega, hh p hp⟩⟩
      · simp only [Option.bind_eq_some_iff, Prod.exists] at h
        obtain ⟨t, tt, h1, h2⟩ := h
        split at h2
        · rename_i tt'
          simp only [Option.bind_eq_some_iff, Prod.exists] at h2
          obtain ⟨f, tf, h2, h3⟩ := h2
          obtain ⟨e1, e2, _, _⟩ := ih.arg _ _ _ _ (by omega) h1
          obtain ⟨f1, f2, f3, f4⟩ := ih.arg _ _ _ _ (rightMin_le (by omega)) h2
          have := ih.loop m (.cond l t f) tf c rest hm ⟨hl, e2, f2, hh _ (by simp [headLevel]), fun p hp => takes_iff.mpr (f3 p hp)⟩
            (by simp [Cst.opens]; omega) (fun p hp => leaves_cons (by rw [Cst.ends]) (f4 p hp).1 (f4 p hp).2) h3
          refine ⟨?_, this.2⟩
          rw [← this.1, e1, f1]; simp [Cst.toks]
        · cases h2
    · rename_i ts'
      simp only [Option.bind_eq_some_iff, Prod.exists] at h
      obtain ⟨is, ti, h1, h2⟩ := h
      obtain ⟨e1, e2, e3⟩ := ih.args _ _ _ h1
      split at h2
      · rename_i ti'
        split at h2
        · rename_i a ts2
          simp only [Option.bind_eq_some_iff, Prod.exists] at h2
          obtain ⟨x, tx, h2, h3⟩ := h2
          obtain ⟨f1, f2, f3, f4⟩ := ih.arg _ _ _ _ (rightMin_le (by omega)) h2
          have := ih.loop m (.assignIdx a is x) tx c rest hm ⟨e2, e3, f2⟩
            (by simp [Cst.opens]) (fun p hp => leaves_cons (by rw [Cst.ends]) (f4 p hp).1 (f4 p hp).2) h3
          refine ⟨?_, this.2⟩
          rw [← this.1, e1, f1]; simp [Cst.toks]
        · have := ih.loop m (.nth l is) _ c rest hm ⟨hl, e2, e3, hh _ (by simp [headLevel])⟩
            (by simp [Cst.opens]; omega) (fun p _ => leaves_nil (by rw [Cst.ends]; all_goals simp) p) h2
          refine ⟨?_, this.2⟩
          rw [← this.1, e1]; simp [Cst.toks]
      · rename_i ti'
        split at h2
        · rename_i a x
          simp only [Option.bind_eq_some_iff, Prod.exists] at h2
          obtain ⟨y, ty, h2, h3⟩ := h2
          obtain ⟨f1, f2, _, _⟩ := ih.arg _ _ _ _ (by omega) h2
          have hx : x.ok := e3.1
          split at h3
          · rename_i ts2
            simp only [Option.bind_eq_some_iff, Prod.exists] at h3
            obtain ⟨w, tw, h3, h4⟩ := h3
            obtain ⟨g1, g2, g3, g4⟩ := ih.arg _ _ _ _ (rightMin_le (by omega)) h3
            have := ih.loop m (.assignRange a x y w) tw c rest hm ⟨hx, f2, g2⟩
              (by simp [Cst.opens]) (fun p hp => leaves_cons (by rw [Cst.ends]) (g4 p hp).1 (g4 p hp).2) h4
            refine ⟨?_, this.2⟩
            rw [← this.1, e1, f1, g1]; simp [Cst.toks, argToks_one]
          · rename_i ts2
            simp only [Option.bind_eq_some_iff, Prod.exists] at h3
            obtain ⟨z, tz, h3, h4⟩ := h3
            obtain ⟨g1, g2, _, _⟩ := ih.arg _ _ _ _ (by omega) h3
            split at h4
            · rename_i ts3
              simp only [Option.bind_eq_some_iff, Prod.exists] at h4
              obtain ⟨w, tw, h4, h5⟩ := h4
              obtain ⟨k1, k2, k3, k4⟩ := ih.arg _ _ _ _ (rightMin_le (by omega)) h4
              have := ih.loop m (.assignRange3 a x y z w) tw c rest hm ⟨hx, f2, g2, k2⟩
                (by simp [Cst.opens]) (fun p hp => leaves_cons (by rw [Cst.ends]) (k4 p hp).1 (k4 p hp).2) h5
              refine ⟨?_, this.2⟩
              rw [← this.1, e1, f1, g1, k1]; simp [Cst.toks, argToks_one]
            · cases h4
          · cases h3
        · cases h2
      · cases h2
    · rename_i n1 n2 n3
      simp only [Option.some.injEq, Prod.mk.injEq] at h
      obtain ⟨rfl, rfl⟩ := h
      refine ⟨rfl, hl, ho, fun p hp => ?_⟩
      unfold headLevel at hp
      split at hp
      · exact (n1 _ _ rfl).elim
      · exact (n2 _ rfl).elim
      · exact (n3 _ rfl).elim
      · cases hp
  args := by
    intro ts cs rest h
    simp only [pArgs, Option.bind_eq_some_iff, Prod.exists] at h
    obtain ⟨c, tc, h1, h2⟩ := h
    obtain ⟨e1, e2, _, _⟩ := ih.arg _ _ _ _ (by omega) h1
    split at h2
    · rename_i ts'
      simp only [Option.map_eq_some_iff, Prod.exists] at h2
      obtain ⟨ds, td, h2, h3⟩ := h2
      simp only [Prod.mk.injEq] at h3
      obtain ⟨rfl, rfl⟩ := h3
      obtain ⟨f1, f2, f3⟩ := ih.args _ _ _ h2
      exact ⟨by rw [e1, f1, argToks_cons f2]; simp, by simp, e2, f3⟩
    · simp only [Option.some.injEq, Prod.mk.injEq] at h2
      obtain ⟨rfl, rfl⟩ := h2
      exact ⟨by rw [e1, argToks_one], by simp, e2, trivial⟩
  callArgs := by
    intro ts cs rest h
    simp only [pCallArgs] at h
    split at h
    · simp only [Option.some.injEq, Prod.mk.injEq] at h
      obtain ⟨rfl, rfl⟩ := h
      exact ⟨by simp [argToks], trivial⟩
    · split at h
      · rename_i e
        simp only [Option.some.injEq, Prod.mk.injEq] at h
        obtain ⟨rfl, rfl⟩ := h
        obtain ⟨e1, _, e3⟩ := ih.args _ _ _ e
        exact ⟨e1, e3⟩
      · cases h
  msgs := by
    intro ts as cs rest h
    simp only [pMsgs] at h
    split at h
    · simp only [Option.bind_eq_some_iff, Prod.exists] at h
      obtain ⟨c, tc, h1, h2⟩ := h
      obtain ⟨e1, e2, _, _⟩ := ih.arg _ _ _ _ (by omega) h1
      split at h2
      · rename_i ts'
        simp only [Option.map_eq_some_iff, Prod.exists] at h2
        obtain ⟨ds, ms, td, h2, h3⟩ := h2
        simp only [Prod.mk.injEq] at h3
        obtain ⟨⟨rfl, rfl⟩, rfl⟩ := h3
        obtain ⟨f1, f2, f3, f4⟩ := ih.msgs _ _ _ _ h2
        exact ⟨by rw [e1, f1, msgToks_cons f2]; simp, by simp, by simp [f3], e2, f4⟩
      · rename_i ts'
        simp only [Option.some.injEq, Prod.mk.injEq] at h2
        obtain ⟨⟨rfl, rfl⟩, rfl⟩ := h2
        exact ⟨by rw [e1, msgToks_one]; simp, by simp, by simp, e2, trivial⟩
      · cases h2
    · cases h
  prim := by
    have fin : ∀ {c : Cst} {ts rest : List Tok}, c.toks ++ rest = ts → c.ok → c.opens = none → c.ends = [] →
        ts = c.toks ++ rest ∧ c.ok ∧ c.opens = none ∧ ∀ p ∈ headLevel rest, leaves c p :=
      fun h1 h2 h3 h4 => ⟨h1.symm, h2, h3, fun p _ => leaves_nil h4 p⟩
    have fin1 : ∀ {c e : Cst} {q : Nat} {ts ts' rest : List Tok}, q ≤ 10 → pArg n (rightMin q) ts' = some (e, rest) →
        (ts' = e.toks ++ rest → ts = c.toks ++ rest) → (e.ok → holds q e → c.ok) → c.opens = none → c.ends = q :: e.ends →
        ts = c.toks ++ rest ∧ c.ok ∧ c.opens = none ∧ ∀ p ∈ headLevel rest, leaves c p := by
      intro c e q ts ts' rest hq h1 h2 h3 h4 h5
      obtain ⟨e1, e2, e3, e4⟩ := ih.arg _ _ _ _ (rightMin_le hq) h1
      exact ⟨h2 e1, h3 e2 fun p hp => takes_iff.mpr (e3 p hp), h4, fun p hp => leaves_cons h5 (e4 p hp).1 (e4 p hp).2⟩
    intro ts c rest h
    simp only [pPrim] at h
    split at h
    case h_1 => cases h; exact fin rfl trivial rfl (by rw [Cst.ends]; all_goals simp)
    case h_2 =>
      simp only [Option.map_eq_some_iff, Prod.exists] at h
      obtain ⟨as, r, h1, h2⟩ := h
      cases h2
      obtain ⟨e1, e2⟩ := ih.callArgs _ _ _ h1
      exact fin (by rw [e1]; simp [Cst.toks]) e2 rfl (by rw [Cst.ends]; all_goals simp)
    case h_3 => cases h; exact fin rfl trivial rfl (by rw [Cst.ends]; all_goals simp)
    case h_4 => cases h
    case h_5 => cases h; exact fin rfl trivial rfl (by rw [Cst.ends]; all_goals simp)
    case h_6 =>
      simp only [Option.map_eq_some_iff, Prod.exists] at h
      obtain ⟨as, r, h1, h2⟩ := h
      cases h2
      obtain ⟨e1, e2⟩ := ih.callArgs _ _ _ h1
      exact fin (by rw [e1]; simp [Cst.toks]) e2 rfl (by rw [Cst.ends]; all_goals simp)
    case h_7 =>
      simp only [Option.map_eq_some_iff, Prod.exists] at h
      obtain ⟨e, r, h1, h2⟩ := h
      cases h2
      exact fin1 (by omega) h1 (fun e => by rw [e]; simp [Cst.toks]) (fun h _ => h) rfl (by rw [Cst.ends])
    case h_8 => cases h; exact fin rfl trivial rfl (by rw [Cst.ends]; all_goals simp)
    case h_9 => cases h
    case h_10 => cases h; exact fin (by simp [Cst.toks, stepTok]) trivial rfl (by rw [Cst.ends]; all_goals simp)
    case h_11 => cases h; exact fin (by simp [Cst.toks, stepTok]) trivial rfl (by rw [Cst.ends]; all_goals simp)
    case h_12 =>
      simp only [Option.map_eq_some_iff, Prod.exists] at h
      obtain ⟨e, r, h1, h2⟩ := h
      cases h2
      exact fin1 (by omega) h1 (fun e => by rw [e]; simp [Cst.toks]) (fun h _ => h) rfl (by rw [Cst.ends])
    case h_13 =>
      simp only [Option.map_eq_some_iff, Prod.exists] at h
      obtain ⟨e, r, h1, h2⟩ := h
      cases h2
      exact fin1 (by omega) h1 (fun e => by rw [e]; simp [Cst.toks]) (fun h h' => ⟨h, h'⟩) rfl (by rw [Cst.ends])
    case h_14 =>
      simp only [Option.map_eq_some_iff, Prod.exists] at h
      obtain ⟨e, r, h1, h2⟩ := h
      cases h2
      exact fin1 (by omega) h1 (fun e => by rw [e]; simp [Cst.toks]) (fun h h' => ⟨h, h'⟩) rfl (by rw [Cst.ends])
    case h_15 => cases h; exact fin rfl trivial rfl (by rw [Cst.ends]; all_goals simp)
    case h_16 =>
      simp only [Option.bind_eq_some_iff, Prod.exists] at h
      obtain ⟨p, r, h1, h2⟩ := h
      split at h2
      · rename_i b ts' e
        cases h2
        obtain ⟨e1, e2, e3⟩ := ih.args _ _ _ e
        try simp only at e1
        exact fin (by rw [pLamParams_sound h1, e1]; simp [Cst.toks]) ⟨e2, e3⟩ rfl (by rw [Cst.ends]; all_goals simp)
      · cases h2
    case h_17 =>
      simp only [Option.bind_eq_some_iff] at h
      obtain ⟨⟨e, r⟩, h1, h2⟩ := h
      obtain ⟨e1, e2, _, _⟩ := ih.arg _ _ _ _ (by omega) h1
      split at h2
      · rename_i p b ts' heq
        cases heq
        split at h2
        · rename_i as ts2 e
          cases h2
          obtain ⟨f1, f2, f3⟩ := ih.args _ _ _ e
          exact fin (by rw [e1, f1]; simp [Cst.toks]) ⟨e2.1, e2.2, f2, f3⟩ rfl (by rw [Cst.ends]; all_goals simp)
        · cases h2
      · rename_i e' ts' _ heq
        cases heq
        split at h2
        · rename_i hx
          cases h2
          exact fin (by rw [e1]; simp [Cst.toks]) ⟨hx, e2⟩ rfl (by rw [Cst.ends]; all_goals simp)
        · cases h2
      · cases h2
    case h_18 => cases h; exact fin rfl trivial rfl (by rw [Cst.ends]; all_goals simp)
    case h_19 => cases h; exact fin (by simp [Cst.toks, msgToks]) ⟨rfl, trivial⟩ rfl (by rw [Cst.ends]; all_goals simp)
    case h_20 =>
      simp only [Option.map_eq_some_iff, Prod.exists] at h
      obtain ⟨as, cs, r, h1, h2⟩ := h
      cases h2
      obtain ⟨e1, e2, e3, e4⟩ := ih.msgs _ _ _ _ h1
      exact fin (by rw [e1]; simp [Cst.toks]) ⟨e3, e4⟩ rfl (by rw [Cst.ends]; all_goals simp)
    case h_21 =>
      simp only [Option.map_eq_some_iff, Prod.exists] at h
      obtain ⟨e, r, h1, h2⟩ := h
      cases h2
      exact fin1 (by omega) h1 (fun e => by rw [e]; simp [Cst.toks]) (fun h h' => ⟨h, h'⟩) rfl (by rw [Cst.ends])
    case h_22 =>
      simp only [Option.map_eq_some_iff, Prod.exists] at h
      obtain ⟨e, r, h1, h2⟩ := h
      cases h2
      exact fin1 (by omega) h1 (fun e => by rw [e]; simp [Cst.toks]) (fun h h' => ⟨h, h'⟩) rfl (by rw [Cst.ends])
    case h_23 => cases h; exact fin (by simp [Cst.toks, stepTok]) trivial rfl (by rw [Cst.ends]; all_goals simp)
    case h_24 => cases h; exact fin (by simp [Cst.toks, stepTok]) trivial rfl (by rw [Cst.ends]; all_goals simp)
    case h_25 => cases h; exact fin (by simp [Cst.toks, argToks]) trivial rfl (by rw [Cst.ends]; all_goals simp)
    case h_26 =>
      split at h
      · rename_i as ts' e
        cases h
        obtain ⟨f1, f2, f3⟩ := ih.args _ _ _ e
        exact fin (by rw [f1]; simp [Cst.toks]) f3 rfl (by rw [Cst.ends]; all_goals simp)
      · cases h
    case h_27 => cases h; exact fin rfl trivial rfl (by rw [Cst.ends]; all_goals simp)
    case h_28 => cases h; exact fin rfl trivial rfl (by rw [Cst.ends]; all_goals simp)
    case h_29 => cases h

theorem sound : ∀ n, Sound n
  | 0 => {
      arg := by intro m ts c rest _ h; simp [pArg] at h
      loop := by intro m l ts c rest _ _ _ _ h; simp [pLoop] at h
      args := by intro ts cs rest h; simp [pArgs] at h
      callArgs := by intro ts cs rest h; simp [pCallArgs] at h
      msgs := by intro ts as cs rest h; simp [pMsgs] at h
      prim := by intro ts c rest h; simp [pPrim] at h }
  | n + 1 => sound_succ (sound n)

/-! ### Every tree that respects the precedences is found -/

/-- Texts that may follow an operand. -/
def Fol : List Tok → Prop
  | [] => True
  | t :: _ => match t with
    | .op _ | .quest | .ldbl | .comma | .rpar | .rbrk | .rdbl | .colon | .rbrace => True
    | _ => False

/-- Tokens an operand may begin with. -/
def Starts : Tok → Prop
  | .rpar | .rbrk | .rbrace | .comma | .rdbl | .colon => False
  | _ => True

theorem toks_start : ∀ c : Cst, ∃ t ts, c.toks = t :: ts ∧ Starts t
  | .num a => ⟨_, _, (by rw [Cst.toks]), (by trivial)⟩
  | .str a => ⟨_, _, (by rw [Cst.toks]), (by trivial)⟩
  | .addr a => ⟨_, _, (by rw [Cst.toks]), (by trivial)⟩
  | .lam p b => ⟨_, _, (by rw [Cst.toks]), (by trivial)⟩
  | .paren e => ⟨_, _, (by rw [Cst.toks]), (by trivial)⟩
  | .bundle as cs => ⟨_, _, (by rw [Cst.toks]), (by trivial)⟩
  | .call f as => ⟨_, _, (by rw [Cst.toks]), (by trivial)⟩
  | .addrCall f as => ⟨_, _, (by rw [Cst.toks]), (by trivial)⟩
  | .quoted s => ⟨_, _, (by rw [Cst.toks]), (by trivial)⟩
  | .infix o l r => by
    obtain ⟨t, ts, h, h'⟩ := toks_start l
    exact ⟨t, ts ++ .op o :: r.toks, by rw [Cst.toks, h]; rfl, h'⟩
  | .cond c t f => by
    obtain ⟨x, ts, h, h'⟩ := toks_start c
    exact ⟨x, ts ++ .quest :: (t.toks ++ .colon :: f.toks), by rw [Cst.toks, h]; rfl, h'⟩
  | .nth l is => by
    obtain ⟨x, ts, h, h'⟩ := toks_start l
    exact ⟨x, ts ++ .ldbl :: (argToks is ++ [.rdbl]), by rw [Cst.toks, h]; rfl, h'⟩
  | .dot a b => ⟨_, _, (by rw [Cst.toks]), (by trivial)⟩
  | .strDot s b => ⟨_, _, (by rw [Cst.toks]), (by trivial)⟩
  | .not e => ⟨_, _, (by rw [Cst.toks]), (by trivial)⟩
  | .neg e => ⟨_, _, (by rw [Cst.toks]), (by trivial)⟩
  | .step true true a => ⟨.inc, [.addr a], by simp [Cst.toks, stepTok], trivial⟩
  | .step true false a => ⟨.dec, [.addr a], by simp [Cst.toks, stepTok], trivial⟩
  | .step false u a => ⟨.addr a, [stepTok u], by simp [Cst.toks], trivial⟩
  | .assign a e => ⟨_, _, (by rw [Cst.toks]), (by trivial)⟩
  | .assignDot a b e => ⟨_, _, (by rw [Cst.toks]), (by trivial)⟩
  | .assignIdx a is e => ⟨_, _, (by rw [Cst.toks]), (by trivial)⟩
  | .assignRange a x y e => ⟨_, _, (by rw [Cst.toks]), (by trivial)⟩
  | .assignRange3 a x y z e => ⟨_, _, (by rw [Cst.toks]), (by trivial)⟩
  | .coalesce a e => ⟨_, _, (by rw [Cst.toks]), (by trivial)⟩
  | .coalesceEq a e => ⟨_, _, (by rw [Cst.toks]), (by trivial)⟩
  | .list as => ⟨_, _, (by rw [Cst.toks]), (by trivial)⟩
  | .applyFn p b as => ⟨_, _, (by rw [Cst.toks]), (by trivial)⟩
  | .value s => ⟨_, _, (by rw [Cst.toks]), (by trivial)⟩
  | .valueAddr s => ⟨_, _, (by rw [Cst.toks]), (by trivial)⟩

theorem toks_pos (c : Cst) : 0 < c.toks.length := by
  obtain ⟨t, ts, h, _⟩ := toks_start c
  rw [h]; simp

theorem args_start {cs : List Cst} (h : cs ≠ []) : ∃ t ts, argToks cs = t :: ts ∧ Starts t := by
  obtain ⟨c, cs, rfl⟩ := List.exists_cons_of_ne_nil h
  obtain ⟨t, ts, ht, h'⟩ := toks_start c
  cases cs with
  | nil => exact ⟨t, ts, by rw [argToks_one, ht], h'⟩
  | cons d cs => exact ⟨t, ts ++ .comma :: argToks (d :: cs), by rw [argToks_cons (by simp), ht]; rfl, h'⟩

theorem opens_pos {c : Cst} {p : Nat} (h : p ∈ c.opens) : 1 ≤ p := by
  cases c <;> simp [Cst.opens] at h
  · rw [← h]; exact (level_bounds _).1
  all_goals omega

/-- An operand in front of an operator does not begin with an operand of a lower level. -/
theorem opens_of_leaves {c : Cst} {p q : Nat} (h : p ∈ c.opens) (hl : leaves c q) (hq : q ≤ 11) : q ≤ p := by
  have key : c.ends.head? = some p → q ≤ p := by
    intro he
    have := hl p (List.mem_of_mem_head? he)
    simp only [takes] at this
    omega
  cases c <;> simp [Cst.opens] at h
  · exact key (by rw [Cst.ends, List.head?_cons, h])
  · exact key (by rw [Cst.ends, List.head?_cons, h])
  · omega

theorem loop_stop {k m : Nat} (c : Cst) {rest : List Tok} (hk : 1 ≤ k) (hm : m ≤ 11) (h : ∀ p ∈ headLevel rest, p < m) :
    pLoop k m c rest = some (c, rest) := by
  obtain ⟨k, rfl⟩ : ∃ j, k = j + 1 := ⟨k - 1, by omega⟩
  simp only [pLoop]
  split
  · rw [if_pos (h _ rfl)]
  · rw [if_pos (h _ rfl)]
  · exact absurd (h 11 rfl) (by omega)
  · rfl

/-- The parser reads the tree `c` and goes on behind it. -/
def Complete (c : Cst) : Prop := ∀ m rest n, m ≤ 11 → c.ok → (∀ p ∈ c.opens, m ≤ p) → Fol rest → (∀ p ∈ headLevel rest, leaves c p) →
  3 * (c.toks.length + rest.length) + 1 ≤ n →
  ∃ k, 3 * rest.length + 1 ≤ k ∧ pArg n m (c.toks ++ rest) = pLoop k m c rest

theorem Complete.full {c : Cst} (h : Complete c) {m n : Nat} {rest : List Tok} (hm : m ≤ 11) (ho : c.ok) (hp : ∀ p ∈ c.opens, m ≤ p)
    (hf : Fol rest) (hl : ∀ p ∈ headLevel rest, p < m ∧ leaves c p) (hn : 3 * (c.toks.length + rest.length) + 1 ≤ n) :
    pArg n m (c.toks ++ rest) = some (c, rest) := by
  obtain ⟨k, hk, e⟩ := h m rest n hm ho hp hf (fun p h => (hl p h).2) hn
  rw [e, loop_stop c (by omega) hm fun p h => (hl p h).1]

/-- Behind an operand that ends with a delimiter. -/
theorem Complete.full1 {c : Cst} (h : Complete c) {n : Nat} {rest : List Tok} (ho : c.ok)
    (hf : Fol rest) (hl : headLevel rest = none) (hn : 3 * (c.toks.length + rest.length) + 1 ≤ n) :
    pArg n 1 (c.toks ++ rest) = some (c, rest) :=
  h.full (by omega) ho (fun _ h => opens_pos h) hf (by simp [hl]) hn

/-- The right operand of a construct of level `q`. -/
theorem Complete.right {c e : Cst} {q : Nat} (h : Complete e) (hc : c.ends = q :: e.ends) {n : Nat} {rest : List Tok} (hq : q ≤ 10)
    (ho : e.ok) (hp : q = 1 ∨ holds q e) (hf : Fol rest) (hl : ∀ p ∈ headLevel rest, leaves c p)
    (hn : 3 * (e.toks.length + rest.length) + 1 ≤ n) :
    pArg n (rightMin q) (e.toks ++ rest) = some (e, rest) := by
  refine h.full (rightMin_le hq) ho (fun p hm => ?_) hf (fun p hm => ⟨?_, fun x hx => hl p hm x (by rw [hc]; exact List.mem_cons_of_mem _ hx)⟩) hn
  · rcases hp with rfl | hp
    · exact opens_pos hm
    · exact takes_iff.mp (hp p hm)
  · have := hl p hm q (by rw [hc]; exact List.mem_cons_self)
    rw [takes_iff] at this
    omega

theorem complete_of_prim {c : Cst} (h : ∀ rest n, c.ok → Fol rest → (∀ p ∈ headLevel rest, leaves c p) →
    3 * (c.toks.length + rest.length) ≤ n + 1 → pPrim (n + 1) (c.toks ++ rest) = some (c, rest)) : Complete c := by
  intro m rest n _ ho _ hf hl hn
  have := toks_pos c
  obtain ⟨n, rfl⟩ : ∃ j, n = j + 2 := ⟨n - 2, by omega⟩
  refine ⟨n + 1, by omega, ?_⟩
  rw [pArg, h rest n ho hf hl (by omega)]
  rfl

/-- The text ends a list of arguments. -/
def Ends : List Tok → Prop
  | .rpar :: _ | .rbrk :: _ | .rdbl :: _ | .colon :: _ | .rbrace :: _ | [] => True
  | _ => False

theorem ends_fol {ts : List Tok} (h : Ends ts) : Fol ts ∧ headLevel ts = none := by
  cases ts with
  | nil => exact ⟨trivial, rfl⟩
  | cons t ts => cases t <;> first | exact h.elim | exact ⟨trivial, rfl⟩

theorem pArgs_complete : ∀ (cs : List Cst), (∀ c ∈ cs, Complete c) → cs ≠ [] → oks cs → ∀ rest n, Ends rest →
    3 * ((argToks cs).length + rest.length) + 2 ≤ n → pArgs n (argToks cs ++ rest) = some (cs, rest)
  | [], _, h, _, _, _, _, _ => absurd rfl h
  | [c], hc, _, ho, rest, n, he, hn => by
    obtain ⟨n, rfl⟩ : ∃ j, n = j + 1 := ⟨n - 1, by omega⟩
    rw [argToks_one] at hn ⊢
    rw [pArgs, (hc c (by simp)).full1 ho.1 (ends_fol he).1 (ends_fol he).2 (by omega)]
    simp only [Option.bind_some]
    split
    · exact he.elim
    · rfl
  | c :: d :: cs, hc, _, ho, rest, n, he, hn => by
    obtain ⟨n, rfl⟩ : ∃ j, n = j + 1 := ⟨n - 1, by omega⟩
    rw [argToks_cons (by simp)] at hn ⊢
    simp only [List.length_append, List.length_cons] at hn
    rw [pArgs, List.append_assoc, (hc c (by simp)).full1 ho.1 (by trivial) rfl (by simp; omega)]
    simp only [Option.bind_some, List.cons_append]
    rw [pArgs_complete (d :: cs) (fun x hx => hc x (List.mem_cons_of_mem _ hx)) (by simp) ho.2 rest n he (by omega)]
    rfl

theorem pCallArgs_complete (cs : List Cst) (hc : ∀ c ∈ cs, Complete c) (ho : oks cs) (rest : List Tok) (n : Nat)
    (hn : 3 * ((argToks cs).length + rest.length + 1) + 3 ≤ n) : pCallArgs n (argToks cs ++ .rpar :: rest) = some (cs, rest) := by
  obtain ⟨n, rfl⟩ : ∃ j, n = j + 1 := ⟨n - 1, by omega⟩
  by_cases h : cs = []
  · subst h; simp [pCallArgs, argToks]
  · have := pArgs_complete cs hc h ho (.rpar :: rest) n trivial (by simp; omega)
    obtain ⟨t, ts, e, hs⟩ := args_start h
    rw [pCallArgs, this]
    intro r e'
    rw [e] at e'
    cases e'
    exact hs.elim

theorem pMsgs_complete : ∀ (cs : List Cst) (as : List Bytes), (∀ c ∈ cs, Complete c) → cs ≠ [] → as.length = cs.length → oks cs →
    ∀ rest n, 3 * ((msgToks as cs).length + rest.length + 1) ≤ n →
      pMsgs n (msgToks as cs ++ .rbrace :: rest) = some ((as, cs), rest)
  | [], _, _, h, _, _, _, _, _ => absurd rfl h
  | _ :: _, [], _, _, h, _, _, _, _ => by simp at h
  | [c], a :: as, hc, _, hl, ho, rest, n, hn => by
    obtain rfl : as = [] := by simpa using hl
    obtain ⟨n, rfl⟩ : ∃ j, n = j + 1 := ⟨n - 1, by omega⟩
    rw [msgToks_one] at hn ⊢
    simp only [List.length_cons] at hn
    simp only [List.cons_append]
    rw [pMsgs, (hc c (by simp)).full1 ho.1 (by trivial) rfl (by simp; omega)]
    rfl
  | c :: d :: cs, a :: as, hc, _, hl, ho, rest, n, hn => by
    obtain ⟨n, rfl⟩ : ∃ j, n = j + 1 := ⟨n - 1, by omega⟩
    rw [msgToks_cons (by simp)] at hn ⊢
    simp only [List.length_append, List.length_cons] at hn
    simp only [List.cons_append, List.append_assoc]
    rw [pMsgs, (hc c (by simp)).full1 ho.1 (by trivial) rfl (by simp; omega)]
    simp only [Option.bind_some]
    rw [pMsgs_complete (d :: cs) as (fun x hx => hc x (List.mem_cons_of_mem _ hx)) (by simp) (by simpa using hl) ho.2 rest n (by omega)]
    rfl

theorem pParams_complete : ∀ (ps : List Bytes), ps ≠ [] → ∀ rest, pParams (paramToks ps ++ .rbrk :: rest) = some (ps, rest)
  | [], h, _ => absurd rfl h
  | [p], _, rest => by simp [paramToks, pParams]
  | p :: q :: ps, _, rest => by
    have := pParams_complete (q :: ps) (by simp) rest
    simp only [paramToks, List.cons_append, pParams] at this ⊢
    rw [this]; rfl

theorem pLamParams_complete (p : Params) (rest : List Tok) : pLamParams (p.toks ++ .comma :: rest) = some (p, rest) := by
  cases p with
  | one p => rfl
  | many ps =>
    cases ps with
    | nil => rfl
    | cons q qs =>
      have := pParams_complete (q :: qs) (by simp) (.comma :: rest)
      have h : ∃ ts, paramToks (q :: qs) = .str q :: ts := by cases qs <;> exact ⟨_, rfl⟩
      obtain ⟨ts, h⟩ := h
      simp only [Params.toks, List.cons_append, List.append_assoc, List.nil_append]
      rw [pLamParams, this]
      intro r e
      rw [h] at e
      cases e

theorem prim_lam {p : Params} {b : List Cst} (hb : ∀ c ∈ b, Complete c) (h : b ≠ [] ∧ oks b) (rest : List Tok) (n : Nat)
    (hn : 3 * ((Cst.lam p b).toks.length + rest.length) ≤ n + 1) : pPrim (n + 1) ((Cst.lam p b).toks ++ rest) = some (.lam p b, rest) := by
  rw [Cst.toks] at hn ⊢
  simp only [List.length_cons, List.length_append, List.length_nil] at hn
  simp only [List.cons_append, List.append_assoc, List.nil_append]
  rw [pPrim, pLamParams_complete]
  simp only [Option.bind_some]
  rw [pArgs_complete b hb h.1 h.2 (.rpar :: rest) n trivial (by simp; omega)]

/-- A prefix of the text that ends with a right operand of level `q`. -/
theorem complete_of_right {c e : Cst} {q : Nat} {pre : List Tok} (he : Complete e) (hq : q ≤ 10) (hends : c.ends = q :: e.ends)
    (ht : c.toks = pre ++ e.toks) (hpre : 0 < pre.length) (hok : c.ok → e.ok ∧ (q = 1 ∨ holds q e))
    (hp : ∀ rest n, c.ok → pArg n (rightMin q) (e.toks ++ rest) = some (e, rest) → pPrim (n + 1) (pre ++ (e.toks ++ rest)) = some (c, rest)) :
    Complete c := by
  refine complete_of_prim fun rest n ho hf hl hn => ?_
  rw [ht, List.length_append] at hn
  rw [ht, List.append_assoc]
  exact hp rest n ho (he.right hends hq (hok ho).1 (hok ho).2 hf hl (by omega))

mutual
theorem complete : ∀ c : Cst, Complete c
  | .num a => complete_of_prim fun rest n _ _ _ _ => by simp [Cst.toks, pPrim]
  | .str s => complete_of_prim fun rest n _ hf _ _ => by
    cases rest with
    | nil => simp [Cst.toks, pPrim]
    | cons t r => cases t <;> first | exact hf.elim | simp [Cst.toks, pPrim]
  | .addr s => complete_of_prim fun rest n _ hf _ _ => by
    cases rest with
    | nil => simp [Cst.toks, pPrim]
    | cons t r => cases t <;> first | exact hf.elim | simp [Cst.toks, pPrim]
  | .quoted s => complete_of_prim fun rest n _ _ _ _ => by simp [Cst.toks, pPrim]
  | .lam p b => complete_of_prim fun rest n ho _ _ hn => prim_lam (completes b) ho rest n hn
  | .paren e => complete_of_prim fun rest n ho _ _ hn => by
    rw [Cst.toks] at hn ⊢
    simp only [List.length_cons, List.length_append, List.length_nil] at hn
    simp only [List.cons_append, List.append_assoc, List.nil_append]
    rw [pPrim, (complete e).full1 ho.2 (by trivial) rfl (by simp; omega)]
    simp only [Option.bind_some]
    rw [if_pos ho.1]
  | .bundle as cs => complete_of_prim fun rest n ho _ _ hn => by
    rw [Cst.toks] at hn ⊢
    simp only [List.length_cons, List.length_append, List.length_nil] at hn
    simp only [List.cons_append, List.append_assoc, List.nil_append]
    by_cases h : cs = []
    · subst h
      obtain rfl : as = [] := by simpa using ho.1
      simp [msgToks, pPrim]
    · have := pMsgs_complete cs as (completes cs) h ho.1 ho.2 rest n (by omega)
      obtain ⟨c, cs, rfl⟩ := List.exists_cons_of_ne_nil h
      have hl := ho.1
      cases as with
      | nil => simp at hl
      | cons a as =>
        rw [pPrim, this]
        · rfl
        · intro r e
          cases cs with
          | nil => rw [msgToks_one] at e; cases e
          | cons d cs => rw [msgToks_cons (by simp)] at e; cases e
  | .call f as => complete_of_prim fun rest n ho _ _ hn => by
    rw [Cst.toks] at hn ⊢
    simp only [List.length_cons, List.length_append, List.length_nil] at hn
    simp only [List.cons_append, List.append_assoc, List.nil_append]
    rw [pPrim, pCallArgs_complete as (completes as) ho rest n (by omega)]
    rfl
  | .addrCall f as => complete_of_prim fun rest n ho _ _ hn => by
    rw [Cst.toks] at hn ⊢
    simp only [List.length_cons, List.length_append, List.length_nil] at hn
    simp only [List.cons_append, List.append_assoc, List.nil_append]
    rw [pPrim, pCallArgs_complete as (completes as) ho rest n (by omega)]
    rfl
  | .infix o l r => by
    intro m rest n hm ho hp hf hl hn
    have hb := level_bounds o
    have hp' : m ≤ o.level := hp _ rfl
    rw [Cst.toks] at hn ⊢
    simp only [List.length_append, List.length_cons] at hn
    obtain ⟨k, hk, e⟩ := complete l m (.op o :: (r.toks ++ rest)) n hm ho.1
      (fun p hpl => Nat.le_trans hp' (opens_of_leaves hpl ho.2.2.1 (by omega))) trivial
      (by simpa [headLevel] using ho.2.2.1) (by simp; omega)
    obtain ⟨k, rfl⟩ : ∃ j, k = j + 1 := ⟨k - 1, by omega⟩
    simp only [List.length_cons, List.length_append] at hk
    refine ⟨k, by omega, ?_⟩
    rw [List.append_assoc, List.cons_append, e, pLoop]
    try simp only
    rw [if_neg (by omega), (complete r).right (c := .infix o l r) (by rw [Cst.ends]) (by omega) ho.2.1 (.inr ho.2.2.2) hf hl (by omega)]
    rfl
  | .cond c t f => by
    intro m rest n hm ho hp hf hl hn
    have hp' : m ≤ 2 := hp _ rfl
    rw [Cst.toks] at hn ⊢
    simp only [List.length_append, List.length_cons] at hn
    obtain ⟨k, hk, e⟩ := complete c m (.quest :: (t.toks ++ .colon :: (f.toks ++ rest))) n hm ho.1
      (fun p hpl => Nat.le_trans hp' (opens_of_leaves hpl ho.2.2.2.1 (by omega))) trivial
      (by simpa [headLevel] using ho.2.2.2.1) (by simp; omega)
    obtain ⟨k, rfl⟩ : ∃ j, k = j + 1 := ⟨k - 1, by omega⟩
    simp only [List.length_cons, List.length_append] at hk
    refine ⟨k, by omega, ?_⟩
    simp only [List.append_assoc, List.cons_append]
    rw [e, pLoop]
    try simp only
    rw [if_neg (by omega), (complete t).full1 ho.2.1 (by trivial) rfl (by simp; omega)]
    simp only [Option.bind_some]
    rw [(complete f).right (c := .cond c t f) (by rw [Cst.ends]) (by omega) ho.2.2.1 (.inr ho.2.2.2.2) hf hl (by omega)]
    rfl
  | .nth l is => by
    intro m rest n hm ho hp hf hl hn
    rw [Cst.toks] at hn ⊢
    simp only [List.length_append, List.length_cons] at hn
    obtain ⟨k, hk, e⟩ := complete l m (.ldbl :: (argToks is ++ .rdbl :: rest)) n hm ho.1
      (fun p hpl => Nat.le_trans hm (opens_of_leaves hpl ho.2.2.2 (by omega))) trivial
      (by simpa [headLevel] using ho.2.2.2) (by simp at hn ⊢; omega)
    obtain ⟨k, rfl⟩ : ∃ j, k = j + 1 := ⟨k - 1, by omega⟩
    simp only [List.length_cons, List.length_append] at hk
    refine ⟨k, by omega, ?_⟩
    simp only [List.append_assoc, List.cons_append, List.nil_append]
    rw [e, pLoop]
    try simp only
    rw [pArgs_complete is (completes is) ho.2.1 ho.2.2.1 (.rdbl :: rest) k trivial (by simp; omega)]
    simp only [Option.bind_some]
    split
    · exact hf.elim
    · rfl
  | .dot a b => complete_of_prim fun rest n _ hf _ _ => by
    cases rest with
    | nil => simp [Cst.toks, pPrim]
    | cons t r => cases t <;> first | exact hf.elim | simp [Cst.toks, pPrim]
  | .strDot s b => complete_of_prim fun rest n _ _ _ _ => by simp [Cst.toks, pPrim]
  | .not e => complete_of_right (pre := [.bang]) (complete e) (by omega) (by rw [Cst.ends]) (by rw [Cst.toks]; rfl) (by simp)
      (fun h => ⟨h.1, .inr h.2⟩) fun rest n _ h => by simp [pPrim, h]
  | .neg e => complete_of_right (pre := [.op .sub]) (complete e) (by omega) (by rw [Cst.ends]) (by rw [Cst.toks]; rfl) (by simp)
      (fun h => ⟨h.1, .inr h.2⟩) fun rest n _ h => by simp [pPrim, h]
  | .step true true a => complete_of_prim fun rest n _ _ _ _ => by simp [Cst.toks, pPrim, stepTok]
  | .step true false a => complete_of_prim fun rest n _ _ _ _ => by simp [Cst.toks, pPrim, stepTok]
  | .step false true a => complete_of_prim fun rest n _ _ _ _ => by simp [Cst.toks, pPrim, stepTok]
  | .step false false a => complete_of_prim fun rest n _ _ _ _ => by simp [Cst.toks, pPrim, stepTok]
  | .assign a e => complete_of_right (pre := [.addr a, .assign]) (complete e) (by omega) (by rw [Cst.ends]) (by rw [Cst.toks]; rfl) (by simp)
      (fun h => ⟨h, .inl rfl⟩) fun rest n _ h => by simp [pPrim, h]
  | .assignDot a b e => complete_of_right (pre := [.addr a, .dot, .addr b, .assign]) (complete e) (by omega) (by rw [Cst.ends])
      (by rw [Cst.toks]; rfl) (by simp) (fun h => ⟨h, .inl rfl⟩) fun rest n _ h => by simp [pPrim, h]
  | .coalesce a e => complete_of_right (pre := [.addr a, .dblq]) (complete e) (by omega) (by rw [Cst.ends]) (by rw [Cst.toks]; rfl) (by simp)
      (fun h => ⟨h.1, .inr h.2⟩) fun rest n _ h => by simp [pPrim, h]
  | .coalesceEq a e => complete_of_right (pre := [.addr a, .dblqeq]) (complete e) (by omega) (by rw [Cst.ends]) (by rw [Cst.toks]; rfl) (by simp)
      (fun h => ⟨h.1, .inr h.2⟩) fun rest n _ h => by simp [pPrim, h]
  | .assignIdx a is e => by
    intro m rest n hm ho hp hf hl hn
    rw [Cst.toks] at hn ⊢
    simp only [List.length_append, List.length_cons] at hn
    obtain ⟨n, rfl⟩ : ∃ j, n = j + 3 := ⟨n - 3, by omega⟩
    refine ⟨n + 1, by omega, ?_⟩
    simp only [List.append_assoc, List.cons_append, List.nil_append]
    rw [pArg]
    simp only [pPrim, Option.bind_some]
    rw [pLoop]
    try simp only
    rw [pArgs_complete is (completes is) ho.1 ho.2.1 (.rdbl :: .assign :: (e.toks ++ rest)) (n + 1) trivial (by simp; omega)]
    simp only [Option.bind_some]
    rw [(complete e).right (c := .assignIdx a is e) (by rw [Cst.ends]) (by omega) ho.2.2 (.inl rfl) hf hl (by omega)]
    rfl
  | .assignRange a x y e => by
    intro m rest n hm ho hp hf hl hn
    rw [Cst.toks] at hn ⊢
    simp only [List.length_append, List.length_cons] at hn
    obtain ⟨n, rfl⟩ : ∃ j, n = j + 3 := ⟨n - 3, by omega⟩
    refine ⟨n + 1, by omega, ?_⟩
    simp only [List.append_assoc, List.cons_append, List.nil_append]
    rw [pArg]
    simp only [pPrim, Option.bind_some]
    rw [pLoop]
    try simp only
    have hx := pArgs_complete [x] (by simpa using complete x) (by simp) ⟨ho.1, trivial⟩ (.colon :: (y.toks ++ .rdbl :: .assign :: (e.toks ++ rest)))
      (n + 1) trivial (by simp [argToks_one]; omega)
    rw [argToks_one] at hx
    rw [hx]
    simp only [Option.bind_some]
    rw [(complete y).full1 ho.2.1 (by trivial) rfl (by simp; omega)]
    simp only [Option.bind_some]
    rw [(complete e).right (c := .assignRange a x y e) (by rw [Cst.ends]) (by omega) ho.2.2 (.inl rfl) hf hl (by omega)]
    rfl
  | .assignRange3 a x y z e => by
    intro m rest n hm ho hp hf hl hn
    rw [Cst.toks] at hn ⊢
    simp only [List.length_append, List.length_cons] at hn
    obtain ⟨n, rfl⟩ : ∃ j, n = j + 3 := ⟨n - 3, by omega⟩
    refine ⟨n + 1, by omega, ?_⟩
    simp only [List.append_assoc, List.cons_append, List.nil_append]
    rw [pArg]
    simp only [pPrim, Option.bind_some]
    rw [pLoop]
    try simp only
    have hx := pArgs_complete [x] (by simpa using complete x) (by simp) ⟨ho.1, trivial⟩
      (.colon :: (y.toks ++ .colon :: (z.toks ++ .rdbl :: .assign :: (e.toks ++ rest))))
      (n + 1) trivial (by simp [argToks_one]; omega)
    rw [argToks_one] at hx
    rw [hx]
    simp only [Option.bind_some]
    rw [(complete y).full1 ho.2.1 (by trivial) rfl (by simp; omega)]
    simp only [Option.bind_some]
    rw [(complete z).full1 ho.2.2.1 (by trivial) rfl (by simp; omega)]
    simp only [Option.bind_some]
    rw [(complete e).right (c := .assignRange3 a x y z e) (by rw [Cst.ends]) (by omega) ho.2.2.2 (.inl rfl) hf hl (by omega)]
    rfl
  | .list as => complete_of_prim fun rest n ho _ _ hn => by
    rw [Cst.toks] at hn ⊢
    simp only [List.length_cons, List.length_append, List.length_nil] at hn
    simp only [List.cons_append, List.append_assoc, List.nil_append]
    by_cases h : as = []
    · subst h
      simp [argToks, pPrim]
    · have := pArgs_complete as (completes as) h ho (.rbrk :: rest) n trivial (by simp; omega)
      obtain ⟨t, ts, e, hs⟩ := args_start h
      rw [pPrim, this]
      intro r e'
      rw [e] at e'
      cases e'
      exact hs.elim
  | .applyFn p b as => complete_of_prim fun rest n ho _ _ hn => by
    have hlam := @prim_lam p b (completes b) ⟨ho.1, ho.2.1⟩ (.comma :: (argToks as ++ .rpar :: rest))
    rw [Cst.toks] at hlam
    rw [Cst.toks] at hn ⊢
    simp only [List.length_cons, List.length_append, List.length_nil] at hn hlam
    simp only [List.cons_append, List.append_assoc, List.nil_append] at hlam ⊢
    obtain ⟨n, rfl⟩ : ∃ j, n = j + 2 := ⟨n - 2, by omega⟩
    rw [pPrim, pArg, hlam n (by omega)]
    simp only [Option.bind_some]
    rw [loop_stop _ (by omega) (by omega) (by simp [headLevel])]
    simp only [Option.bind_some]
    rw [pArgs_complete as (completes as) ho.2.2.1 ho.2.2.2 (.rpar :: rest) (n + 2) trivial (by simp; omega)]
  | .value s => complete_of_prim fun rest n _ _ _ _ => by simp [Cst.toks, pPrim]
  | .valueAddr s => complete_of_prim fun rest n _ _ _ _ => by simp [Cst.toks, pPrim]
theorem completes : ∀ cs : List Cst, ∀ c ∈ cs, Complete c
  | [] => by simp
  | c :: cs => by
    have h1 := complete c
    have h2 := completes cs
    intro d hd
    rcases List.mem_cons.mp hd with rfl | hd
    · exact h1
    · exact h2 d hd
end

/-! ### Whole texts -/

theorem pItems_sound : ∀ (n : Nat) (ts : List Tok) (cs : List Cst), pItems n ts = some cs →
    ts = argToks cs ∧ cs ≠ [] ∧ oks cs ∧ ∀ c ∈ cs, c.isItem = true
  | 0, _, _, h => by simp [pItems] at h
  | n + 1, ts, cs, h => by
    simp only [pItems, Option.bind_eq_some_iff, Prod.exists] at h
    obtain ⟨c, r, h1, h2⟩ := h
    obtain ⟨e1, e2, _, _⟩ := (sound n).arg _ _ _ _ (by omega) h1
    split at h2
    · rename_i hi
      split at h2
      · cases h2
        exact ⟨by rw [e1, argToks_one]; simp, by simp, ⟨e2, trivial⟩, by simpa using hi⟩
      · simp only [Option.map_eq_some_iff] at h2
        obtain ⟨ds, h2, rfl⟩ := h2
        obtain ⟨f1, f2, f3, f4⟩ := pItems_sound n _ _ h2
        exact ⟨by rw [e1, f1, argToks_cons f2], by simp, ⟨e2, f3⟩, by simpa using ⟨hi, f4⟩⟩
      · cases h2
    · cases h2

theorem pItems_complete : ∀ (cs : List Cst), cs ≠ [] → oks cs → (∀ c ∈ cs, c.isItem = true) → ∀ n, 3 * (argToks cs).length + 2 ≤ n →
    pItems n (argToks cs) = some cs
  | [], h, _, _, _, _ => absurd rfl h
  | [c], _, ho, hi, n, hn => by
    obtain ⟨n, rfl⟩ : ∃ j, n = j + 1 := ⟨n - 1, by omega⟩
    rw [argToks_one] at hn ⊢
    have := (complete c).full1 (n := n) (rest := []) ho.1 trivial rfl (by simp; omega)
    rw [List.append_nil] at this
    rw [pItems, this]
    simp [hi c (by simp)]
  | c :: d :: cs, _, ho, hi, n, hn => by
    obtain ⟨n, rfl⟩ : ∃ j, n = j + 1 := ⟨n - 1, by omega⟩
    rw [argToks_cons (by simp)] at hn ⊢
    simp only [List.length_append, List.length_cons] at hn
    rw [pItems, (complete c).full1 ho.1 (by trivial) rfl (by simp; omega)]
    simp only [Option.bind_some]
    rw [if_pos (hi c (by simp)), pItems_complete (d :: cs) (by simp) ho.2 (fun x hx => hi x (List.mem_cons_of_mem _ hx)) n (by omega)]
    rfl

theorem parse_iff (ts : List Tok) (p : Prog) : parse ts = some p ↔ ts = p.toks ∧ p.ok := by
  constructor
  · intro h
    unfold parse at h
    split at h
    · cases h
      exact ⟨rfl, by simp, trivial, by simp⟩
    · simp only [Option.map_eq_some_iff] at h
      obtain ⟨cs, h, rfl⟩ := h
      obtain ⟨f1, f2, f3, f4⟩ := pItems_sound _ _ _ h
      exact ⟨by rw [f1]; rfl, fun _ => f2, f3, f4⟩
    · simp only [Option.map_eq_some_iff] at h
      obtain ⟨cs, h, rfl⟩ := h
      obtain ⟨f1, f2, f3, f4⟩ := pItems_sound _ _ _ h
      exact ⟨by rw [f1]; rfl, by simp, f3, f4⟩
  · rintro ⟨rfl, h1, h2, h3⟩
    obtain ⟨lead, cs⟩ := p
    cases lead with
    | true =>
      rw [show Prog.toks ⟨true, cs⟩ = .comma :: argToks cs from rfl, parse, pItems_complete cs (h1 rfl) h2 h3 _ (by simp; omega)]
      rfl
    | false =>
      rw [show Prog.toks ⟨false, cs⟩ = argToks cs from rfl]
      by_cases h : cs = []
      · subst h; rfl
      · obtain ⟨t, ts, e, hs⟩ := args_start h
        rw [parse, pItems_complete cs h h2 h3 _ (by omega)]
        · rfl
        · rw [e]; intro e'; cases e'
        · rw [e]; intro r e'; cases e'; exact hs.elim

theorem parseFn_iff (ts : List Tok) (p : Params) (b : List Cst) :
    parseFn ts = some (p, b) ↔ ts = (Cst.lam p b).toks ∧ b ≠ [] ∧ oks b := by
  constructor
  · intro h
    unfold parseFn at h
    split at h
    · rename_i e
      cases h
      obtain ⟨e1, e2, _⟩ := (sound _).prim _ _ _ e
      exact ⟨by rw [e1]; simp, e2⟩
    · cases h
  · rintro ⟨rfl, h⟩
    have := prim_lam (p := p) (completes b) h [] (3 * (Cst.lam p b).toks.length + 2) (by simp; omega)
    rw [List.append_nil] at this
    rw [parseFn, this]

end Libo.Syn
