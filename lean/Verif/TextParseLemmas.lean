import Verif.TextParse
import Verif.TextSpec
/-!
# The recursive descent parser accepts the grammar
-/

namespace Libo.Text
open Libo

theorem pMsg_bare {E : Env} {f : Nat} {a : Bytes} {r : List Tok} (h : ∀ r', r ≠ .chr 58 :: r') :
    pMsg E (f + 1) (.addr a :: r) = some (.mk (some a) [], r) := by
  rw [pMsg]
  · intro _ e; exact h _ (by simpa using e)
  · intro _ e; exact h _ (by simpa using e)

theorem pMsg_one {E : Env} {f : Nat} {a : Bytes} {r : List Tok} (h : ∀ r', r ≠ .chr 91 :: r') :
    pMsg E (f + 1) (.addr a :: .chr 58 :: r) = (pDatum E f r).map fun (x, r) => (.mk (some a) [x], r) := by
  rw [pMsg]
  intro _ e; exact h _ (by simpa using e)

theorem pMsg_list {E : Env} {f : Nat} {a : Bytes} {r r' : List Tok} {xs : List UAtom} (h : pData E f r = some (xs, .chr 93 :: r')) :
    pMsg E (f + 1) (.addr a :: .chr 58 :: .chr 91 :: r) = some (.mk (some a) xs, r') := by
  rw [pMsg]; simp only [h]

theorem pDatum_bndl {E : Env} {f : Nat} {r r' : List Tok} {ms : List UMsg} (h : ∀ r', r ≠ .chr 125 :: r')
    (hm : pMsgs E f r = some (ms, .chr 125 :: r')) :
    pDatum E (f + 1) (.chr 123 :: r) = some (UAtom.fresh.setBndlU E.ptr ms, r') := by
  rw [pDatum]
  · simp only [hm]
  · intro _ e; exact h _ (by simpa using e)

/-! ### Soundness -/

theorem gMsgs_cons {p : Nat} {t : List Tok} {m : UMsg} (h : GMsg p t m) : ∀ {u : List Tok} {ms : List UMsg}, GMsgs p u ms →
    GMsgs p (t ++ .chr 44 :: u) (m :: ms) := by
  intro u
  generalize e : u.length = n
  induction n using Nat.strongRecOn generalizing u with
  | _ n ih =>
    intro ms hu
    cases hu with
    | one h' => exact GMsgs.more (.one h) h'
    | @more t' u' ms' m' h1 h2 =>
      have := ih t'.length (by simp only [List.length_append, List.length_cons] at e; omega) rfl h1
      simpa using GMsgs.more this h2

theorem gData_cons {p : Nat} {t : List Tok} {x : UAtom} (h : GDatum p t x) : ∀ {u : List Tok} {xs : List UAtom}, GData p u xs →
    GData p (t ++ .chr 44 :: u) (x :: xs) := by
  intro u
  generalize e : u.length = n
  induction n using Nat.strongRecOn generalizing u with
  | _ n ih =>
    intro xs hu
    cases hu with
    | one h' => exact GData.more (.one h) h'
    | @more t' u' ms' m' h1 h2 =>
      have := ih t'.length (by simp only [List.length_append, List.length_cons] at e; omega) rfl h1
      simpa using GData.more this h2

mutual
theorem pMsgs_sound (E : Env) : ∀ (f : Nat) {ts r : List Tok} {ms : List UMsg}, pMsgs E f ts = some (ms, r) →
    ∃ t, ts = t ++ r ∧ GMsgs E.ptr t ms
  | 0, ts, r, ms, h => by simp [pMsgs] at h
  | f + 1, ts, r, ms, h => by
    rw [pMsgs] at h
    split at h
    · rename_i m r' e
      simp only [Option.map_eq_some_iff, Prod.mk.injEq] at h
      obtain ⟨⟨ms', r''⟩, h1, rfl, rfl⟩ := h
      obtain ⟨t1, rfl, g1⟩ := pMsg_sound E f e
      obtain ⟨t2, rfl, g2⟩ := pMsgs_sound E f h1
      exact ⟨t1 ++ .chr 44 :: t2, by simp, gMsgs_cons g1 g2⟩
    · rename_i m r' _ e
      simp only [Option.some.injEq, Prod.mk.injEq] at h
      obtain ⟨rfl, rfl⟩ := h
      obtain ⟨t1, rfl, g1⟩ := pMsg_sound E f e
      exact ⟨t1, rfl, .one g1⟩
    · simp at h
theorem pMsg_sound (E : Env) : ∀ (f : Nat) {ts r : List Tok} {m : UMsg}, pMsg E f ts = some (m, r) → ∃ t, ts = t ++ r ∧ GMsg E.ptr t m
  | 0, ts, r, ms, h => by simp [pMsg] at h
  | f + 1, ts, r, m, h => by
    rw [pMsg.eq_def] at h
    simp only at h
    split at h
    · omega
    · rename_i a r1 e
      cases e
      split at h
      · rename_i as r2 e2
        simp only [Option.some.injEq, Prod.mk.injEq] at h
        obtain ⟨rfl, rfl⟩ := h
        obtain ⟨t, rfl, g⟩ := pData_sound E _ e2
        exact ⟨.addr a :: .chr 58 :: .chr 91 :: (t ++ [.chr 93]), by simp, .list g⟩
      · simp at h
    · rename_i a r1 _ e
      cases e
      simp only [Option.map_eq_some_iff, Prod.mk.injEq] at h
      obtain ⟨⟨x, r2⟩, h1, rfl, rfl⟩ := h
      obtain ⟨t, rfl, g⟩ := pDatum_sound E _ h1
      exact ⟨.addr a :: .chr 58 :: t, by simp, .one g⟩
    · simp only [Option.some.injEq, Prod.mk.injEq] at h
      obtain ⟨rfl, rfl⟩ := h
      exact ⟨_, rfl, .bare⟩
    · simp at h
theorem pData_sound (E : Env) : ∀ (f : Nat) {ts r : List Tok} {xs : List UAtom}, pData E f ts = some (xs, r) →
    ∃ t, ts = t ++ r ∧ GData E.ptr t xs
  | 0, ts, r, ms, h => by simp [pData] at h
  | f + 1, ts, r, ms, h => by
    rw [pData] at h
    split at h
    · rename_i m r' e
      simp only [Option.map_eq_some_iff, Prod.mk.injEq] at h
      obtain ⟨⟨ms', r''⟩, h1, rfl, rfl⟩ := h
      obtain ⟨t1, rfl, g1⟩ := pDatum_sound E f e
      obtain ⟨t2, rfl, g2⟩ := pData_sound E f h1
      exact ⟨t1 ++ .chr 44 :: t2, by simp, gData_cons g1 g2⟩
    · rename_i m r' _ e
      simp only [Option.some.injEq, Prod.mk.injEq] at h
      obtain ⟨rfl, rfl⟩ := h
      obtain ⟨t1, rfl, g1⟩ := pDatum_sound E f e
      exact ⟨t1, rfl, .one g1⟩
    · simp at h
theorem pDatum_sound (E : Env) : ∀ (f : Nat) {ts r : List Tok} {x : UAtom}, pDatum E f ts = some (x, r) →
    ∃ t, ts = t ++ r ∧ GDatum E.ptr t x
  | 0, ts, r, ms, h => by simp [pDatum] at h
  | f + 1, ts, r, x, h => by
    rw [pDatum.eq_def] at h
    split at h
    · omega
    · simp only [Option.some.injEq, Prod.mk.injEq] at h
      obtain ⟨rfl, rfl⟩ := h
      exact ⟨_, rfl, .addr⟩
    · simp only [Option.some.injEq, Prod.mk.injEq] at h
      obtain ⟨rfl, rfl⟩ := h
      exact ⟨_, rfl, .val⟩
    · simp only [Option.some.injEq, Prod.mk.injEq] at h
      obtain ⟨rfl, rfl⟩ := h
      exact ⟨[.chr 123, .chr 125], rfl, .empty⟩
    · rename_i r1 _ e
      cases e
      split at h
      · rename_i ms r2 e2
        simp only [Option.some.injEq, Prod.mk.injEq] at h
        obtain ⟨rfl, rfl⟩ := h
        obtain ⟨t, rfl, g⟩ := pMsgs_sound E _ e2
        exact ⟨.chr 123 :: (t ++ [.chr 125]), by simp, .bndl g⟩
      · simp at h
    · simp at h
end

/-! ### Completeness -/

theorem gMsgs_first {p : Nat} : ∀ {t : List Tok} {ms : List UMsg}, GMsgs p t ms →
    (∃ m, ms = [m] ∧ GMsg p t m) ∨
    ∃ t1 t2 m ms', t = t1 ++ .chr 44 :: t2 ∧ ms = m :: ms' ∧ GMsg p t1 m ∧ GMsgs p t2 ms' := by
  intro t
  generalize e : t.length = n
  induction n using Nat.strongRecOn generalizing t with
  | _ n ih =>
    intro ms h
    cases h with
    | one h => exact .inl ⟨_, rfl, h⟩
    | @more t' u ms' m h1 h2 =>
      refine .inr ?_
      rcases ih t'.length (by simp only [List.length_append, List.length_cons] at e; omega) rfl h1 with ⟨m', rfl, g⟩ | ⟨t1, t2, m', ms2, rfl, rfl, g1, g2⟩
      · exact ⟨t', u, m', [m], rfl, rfl, g, .one h2⟩
      · exact ⟨t1, t2 ++ .chr 44 :: u, m', ms2 ++ [m], by simp, by simp, g1, .more g2 h2⟩

theorem gData_first {p : Nat} : ∀ {t : List Tok} {ms : List UAtom}, GData p t ms →
    (∃ m, ms = [m] ∧ GDatum p t m) ∨
    ∃ t1 t2 m ms', t = t1 ++ .chr 44 :: t2 ∧ ms = m :: ms' ∧ GDatum p t1 m ∧ GData p t2 ms' := by
  intro t
  generalize e : t.length = n
  induction n using Nat.strongRecOn generalizing t with
  | _ n ih =>
    intro ms h
    cases h with
    | one h => exact .inl ⟨_, rfl, h⟩
    | @more t' u ms' m h1 h2 =>
      refine .inr ?_
      rcases ih t'.length (by simp only [List.length_append, List.length_cons] at e; omega) rfl h1 with ⟨m', rfl, g⟩ | ⟨t1, t2, m', ms2, rfl, rfl, g1, g2⟩
      · exact ⟨t', u, m', [m], rfl, rfl, g, .one h2⟩
      · exact ⟨t1, t2 ++ .chr 44 :: u, m', ms2 ++ [m], by simp, by simp, g1, .more g2 h2⟩

theorem gMsg_head {p : Nat} {t : List Tok} {m : UMsg} (h : GMsg p t m) : ∃ a t', t = .addr a :: t' := by
  cases h <;> exact ⟨_, _, rfl⟩

theorem gMsgs_head {p : Nat} {t : List Tok} {ms : List UMsg} (h : GMsgs p t ms) : ∃ a t', t = .addr a :: t' := by
  rcases gMsgs_first h with ⟨m, rfl, g⟩ | ⟨t1, t2, m, ms', rfl, rfl, g, _⟩
  · exact gMsg_head g
  · obtain ⟨a, t', rfl⟩ := gMsg_head g
    exact ⟨a, _, rfl⟩

theorem gDatum_head {p : Nat} {t : List Tok} {x : UAtom} (h : GDatum p t x) (r : List Tok) : ∀ r', t ++ r ≠ .chr 91 :: r' := by
  cases h <;> simp

/-- What may follow a message: not a colon. -/
def NotHead (c : UInt8) (r : List Tok) : Prop := ∀ r', r ≠ .chr c :: r'

theorem complete_all (E : Env) : ∀ (n : Nat) (t : List Tok), t.length ≤ n → ∀ r : List Tok,
    (∀ m f, GMsg E.ptr t m → 3 * n ≤ f → NotHead 58 r → pMsg E f (t ++ r) = some (m, r)) ∧
    (∀ x f, GDatum E.ptr t x → 3 * n ≤ f → pDatum E f (t ++ r) = some (x, r)) ∧
    (∀ ms f, GMsgs E.ptr t ms → 3 * n + 1 ≤ f → NotHead 58 r → NotHead 44 r → pMsgs E f (t ++ r) = some (ms, r)) ∧
    (∀ xs f, GData E.ptr t xs → 3 * n + 1 ≤ f → NotHead 44 r → pData E f (t ++ r) = some (xs, r)) := by
  intro n
  induction n with
  | zero =>
    intro t ht r
    have : t = [] := List.length_eq_zero_iff.mp (by omega)
    subst this
    have no : ∀ x, ¬ GDatum E.ptr [] x := by intro x h; cases h
    have no2 : ∀ x, ¬ GMsg E.ptr [] x := by intro x h; cases h
    refine ⟨fun m f h => (no2 _ h).elim, fun x f h => (no _ h).elim, fun ms f h => ?_, fun xs f h => ?_⟩
    · obtain ⟨a, t', e⟩ := gMsgs_head h; simp at e
    · rcases gData_first h with ⟨m, _, g⟩ | ⟨t1, t2, m, ms', e, _⟩
      · exact (no _ g).elim
      · simp at e
  | succ n ih =>
    intro t ht r
    have hMsg : ∀ r m f, GMsg E.ptr t m → 3 * (n + 1) ≤ f → NotHead 58 r → pMsg E f (t ++ r) = some (m, r) := by
      intro r m f h hf hr
      obtain ⟨f, rfl⟩ : ∃ g, f = g + 1 := ⟨f - 1, by omega⟩
      cases h with
      | bare => exact pMsg_bare hr
      | @one a t' x g =>
        simp only [List.length_cons] at ht
        simp only [List.cons_append]
        rw [pMsg_one (gDatum_head g r), (ih t' (by omega) r).2.1 _ _ g (by omega)]
        rfl
      | @list a t' xs g =>
        simp only [List.length_cons, List.length_append, List.length_nil] at ht
        simp only [List.cons_append, List.append_assoc, List.nil_append]
        exact pMsg_list ((ih t' (by omega) _).2.2.2 _ _ g (by omega) (by simp [NotHead]))
    have hDatum : ∀ r x f, GDatum E.ptr t x → 3 * (n + 1) ≤ f → pDatum E f (t ++ r) = some (x, r) := by
      intro r x f h hf
      obtain ⟨f, rfl⟩ : ∃ g, f = g + 1 := ⟨f - 1, by omega⟩
      cases h with
      | addr => rw [List.singleton_append, pDatum]; rfl
      | val => rw [List.singleton_append, pDatum]
      | empty => rw [List.cons_append, List.singleton_append, pDatum]; rfl
      | @bndl t' ms g =>
        simp only [List.length_cons, List.length_append, List.length_nil] at ht
        simp only [List.cons_append, List.append_assoc, List.nil_append]
        obtain ⟨a, t2, rfl⟩ := gMsgs_head g
        exact pDatum_bndl (by simp) ((ih _ (by simp only [List.length_cons] at ht ⊢; omega) _).2.2.1 _ _ g (by omega) (by simp [NotHead]) (by simp [NotHead]))
    refine ⟨hMsg r, hDatum r, ?_, ?_⟩
    · intro ms f h hf hr hr'
      obtain ⟨f, rfl⟩ : ∃ g, f = g + 1 := ⟨f - 1, by omega⟩
      rcases gMsgs_first h with ⟨m, rfl, g⟩ | ⟨t1, t2, m, ms', rfl, rfl, g1, g2⟩
      · rw [pMsgs, hMsg r m f g (by omega) hr]
        cases r with
        | nil => rfl
        | cons c r =>
          cases c with
          | chr c =>
            have : c ≠ 44 := by rintro rfl; exact hr' _ rfl
            simp [this]
          | _ => rfl
      · simp only [List.length_cons, List.length_append] at ht
        obtain ⟨a, u, rfl⟩ := gMsgs_head g2
        simp only [List.cons_append, List.append_assoc]
        rw [pMsgs, (ih t1 (by omega) _).1 m f g1 (by omega) (by simp [NotHead])]
        simp only
        rw [← List.cons_append, (ih _ (by simp only [List.length_cons] at ht ⊢; omega) _).2.2.1 _ _ g2 (by omega) hr hr']
        rfl
    · intro ms f h hf hr'
      obtain ⟨f, rfl⟩ : ∃ g, f = g + 1 := ⟨f - 1, by omega⟩
      rcases gData_first h with ⟨m, rfl, g⟩ | ⟨t1, t2, m, ms', rfl, rfl, g1, g2⟩
      · rw [pData, hDatum r m f g (by omega)]
        cases r with
        | nil => rfl
        | cons c r =>
          cases c with
          | chr c =>
            have : c ≠ 44 := by rintro rfl; exact hr' _ rfl
            simp [this]
          | _ => rfl
      · simp only [List.length_cons, List.length_append] at ht
        simp only [List.cons_append, List.append_assoc]
        rw [pData, (ih t1 (by omega) _).2.1 m f g1 (by omega)]
        simp only
        rw [(ih t2 (by omega) _).2.2.2 _ _ g2 (by omega) hr']
        rfl

end Libo.Text
