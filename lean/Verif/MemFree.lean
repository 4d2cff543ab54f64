import Verif.MemCopy
import Verif.MemEdit
/-!
# What the freeing programs free
-/

namespace Libo.Mem
open Libo

/-- The memory without some blocks. -/
def Memory.erase (m : Memory) (l : List Nat) : Memory := { m with cell := fun b => if b ∈ l then none else m.cell b }

theorem erase_cell (m : Memory) (l : List Nat) (b : Nat) : (m.erase l).cell b = if b ∈ l then none else m.cell b := rfl
theorem erase_ne (m : Memory) {l : List Nat} {b : Nat} (h : b ∉ l) : (m.erase l).cell b = m.cell b := by rw [erase_cell, if_neg h]
theorem erase_nil (m : Memory) : m.erase [] = m := by simp [Memory.erase]
theorem erase_set (m : Memory) (l : List Nat) (p : Nat) : (m.erase l).set p none = m.erase (p :: l) := by
  simp only [Memory.erase, Memory.set, Memory.mk.injEq, and_true]
  funext b
  by_cases h1 : b = p <;> by_cases h2 : b ∈ l <;> simp [h1, h2]
theorem erase_erase (m : Memory) (l k : List Nat) : (m.erase l).erase k = m.erase (l ++ k) := by
  simp only [Memory.erase, Memory.mk.injEq, and_true]
  funext b
  by_cases h1 : b ∈ k <;> by_cases h2 : b ∈ l <;> simp [h1, h2]
theorem set_none (m : Memory) (p : Nat) : m.set p none = m.erase [p] := by rw [← erase_nil m, erase_set, erase_nil]

theorem free_erase {m : Memory} {l : List Nat} {p : Nat} (h : (m.cell p).isSome) (hp : p ∉ l) :
    free p (m.erase l) = some ((), m.erase (p :: l)) := by
  obtain ⟨c, hc⟩ := Option.isSome_iff_exists.mp h
  rw [free_run (c := c) (by rw [erase_ne m hp, hc]), erase_set]

theorem erase_perm (m : Memory) {l k : List Nat} (h : ∀ b, b ∈ l ↔ b ∈ k) : m.erase l = m.erase k := by
  simp only [Memory.erase, Memory.mk.injEq, and_true]
  funext b
  simp [h b]

theorem layW_erase {m : Memory} {t : UInt8} {w : LW} {l : List Nat} (h : LayW m t w) (hd : ∀ x ∈ w.foot, x ∉ l) :
    LayW (m.erase l) t w := layW_frame w (fun x hx => erase_ne m (hd x hx)) h
theorem layArgs_erase {m : Memory} {pv q : Ptr} {w : List LAtom} {l : List Nat} (h : LayArgs m pv q w) (hd : ∀ x ∈ footAs w, x ∉ l) :
    LayArgs (m.erase l) pv q w := layArgs_frame pv q w (fun x hx => erase_ne m (hd x hx)) h
theorem layMsgs_erase {m : Memory} {pv q : Ptr} {w : List LMsg} {l : List Nat} (h : LayMsgs m pv q w) (hd : ∀ x ∈ footMs w, x ∉ l) :
    LayMsgs (m.erase l) pv q w := layMsgs_frame pv q w (fun x hx => erase_ne m (hd x hx)) h

theorem addrFree {m : Memory} {addr : Option (Nat × Bytes × Bytes)} (l : LayAddr m addr) :
    whenSome (addr.map (·.1)) free m = some ((), m.erase (footAddr addr)) := by
  match addr, l with
  | none, _ => simp only [Option.map_none, whenSome, footAddr, erase_nil]; rfl
  | some (p, s, k), l => simp only [Option.map_some, whenSome, footAddr]; rw [free_run l.1, set_none]

mutual
/-- Freeing releases exactly the blocks of the layout. -/
theorem wordFree_lay {t : UInt8} : ∀ (w : LW) (f : Nat) {m : Memory}, LayW m t w → w.foot.Nodup → 3 * w.foot.length + 1 ≤ f →
    wordFree f t w.word m = some ((), m.erase w.foot)
  | .plain w, f, m, l, _, hf => by
    obtain ⟨f, rfl⟩ : ∃ g, f = g + 1 := ⟨f - 1, by omega⟩
    simp only [LayW] at l
    simp only [wordFree, LW.word, LW.foot, erase_nil]
    by_cases h1 : t = 115 ∨ t = 98
    · have : w = .bits 0 := l (by rcases h1 with h | h <;> simp [h])
      subst this
      rw [if_pos h1]; rfl
    · rw [if_neg h1]
      by_cases h2 : t = 46
      · have : w = .bits 0 := l (by simp [h2])
        subst this
        rw [if_pos h2]; rfl
      · rw [if_neg h2]; rfl
  | .str p s k, f, m, l, _, hf => by
    obtain ⟨f, rfl⟩ : ∃ g, f = g + 1 := ⟨f - 1, by omega⟩
    simp only [LayW] at l
    simp only [wordFree, LW.word, LW.foot]
    rw [if_pos (Or.inl l.1), free_run l.2.1, set_none]
  | .blob p b, f, m, l, _, hf => by
    obtain ⟨f, rfl⟩ : ∃ g, f = g + 1 := ⟨f - 1, by omega⟩
    simp only [LayW] at l
    simp only [wordFree, LW.word, LW.foot]
    rw [if_pos (Or.inr l.1), free_run l.2, set_none]
  | .bndl p tail ms, f, m, l, nd, hf => by
    simp only [LW.foot, List.length_cons] at hf
    obtain ⟨f, rfl⟩ : ∃ g, f = g + 2 := ⟨f - 2, by omega⟩
    simp only [LayW] at l
    simp only [LW.foot, List.nodup_cons] at nd
    obtain ⟨rfl, l1, -, l2⟩ := l
    have h := msgsFree_lay none ms f l2 nd.2 (by omega)
    simp only [wordFree, LW.word]
    rw [if_neg (by decide), if_pos trivial, bndlFree, seq_run (bndlAt_run l1), seq_run h, free_erase (by rw [l1]; rfl) nd.1]
    rfl
theorem atomsFree_lay : ∀ (pv : Ptr) (as : List LAtom) (f : Nat) {m : Memory}, LayArgs m pv none as → (footAs as).Nodup →
    3 * (footAs as).length + 1 ≤ f → atomsFree f (hdA none as) m = some ((), m.erase (footAs as))
  | pv, [], f, m, _, _, _ => by simp only [footAs, erase_nil]; cases f <;> rfl
  | pv, .mk p t al w :: as, f, m, l, nd, hf => by
    simp only [footAs, List.length_cons, List.length_append] at hf
    obtain ⟨f, rfl⟩ : ∃ g, f = g + 2 := ⟨f - 2, by omega⟩
    simp only [LayArgs] at l
    simp only [footAs] at nd
    have nd' := List.nodup_cons.mp nd
    have nd2 := List.nodup_append.mp nd'.2
    have h1 := wordFree_lay w f l.2.1 nd2.1 (by omega)
    have h2 : atomFree (f + 1) p m = some ((), m.erase (p :: w.foot)) := by
      rw [atomFree, seq_run (atomAt_run l.1), seq_run h1, free_erase (by rw [l.1]; rfl) (fun h => nd'.1 (by simp [h]))]
    have h3 := atomsFree_lay (some p) as (f + 1) (layArgs_erase l.2.2 (l := p :: w.foot) (fun x hx h => by
      rcases List.mem_cons.mp h with rfl | h
      · exact nd'.1 (by simp [hx])
      · exact nd2.2.2 x h x hx rfl)) nd2.2.1 (by omega)
    rw [hdA_cons, atomsFree, seq_run (atomAt_run l.1), seq_run h2, h3, erase_erase]
    rfl
theorem msgsFree_lay : ∀ (pv : Ptr) (ms : List LMsg) (f : Nat) {m : Memory}, LayMsgs m pv none ms → (footMs ms).Nodup →
    3 * (footMs ms).length + 1 ≤ f → msgsFree f (hdM none ms) m = some ((), m.erase (footMs ms))
  | pv, [], f, m, _, _, _ => by simp only [footMs, erase_nil]; cases f <;> rfl
  | pv, .mk p addr args :: ms, f, m, l, nd, hf => by
    simp only [footMs, List.length_cons, List.length_append] at hf
    obtain ⟨f, rfl⟩ : ∃ g, f = g + 2 := ⟨f - 2, by omega⟩
    simp only [LayMsgs] at l
    simp only [footMs] at nd
    have nd1 := List.nodup_cons.mp nd
    have nd2 := List.nodup_append.mp nd1.2
    have nd3 := List.nodup_append.mp nd2.2.1
    have h1 := atomsFree_lay none args f (layArgs_erase l.2.2.1 (l := footAddr addr) (fun x hx h => nd2.2.2 x h x (by simp [hx]) rfl))
      nd3.1 (by omega)
    rw [erase_erase] at h1
    have h2 : msgFree (f + 1) p m = some ((), m.erase (p :: (footAddr addr ++ footAs args))) := by
      rw [msgFree, seq_run (msgAt_run l.1), seq_run (addrFree l.2.1), seq_run h1, free_erase (by rw [l.1]; rfl) (fun h => nd1.1 (by
        simp only [List.mem_append] at h ⊢
        rcases h with h | h
        · exact Or.inl h
        · exact Or.inr (Or.inl h)))]
    have h3 := msgsFree_lay (some p) ms (f + 1) (layMsgs_erase l.2.2.2 (l := p :: (footAddr addr ++ footAs args)) (fun x hx h => by
      simp only [List.mem_cons, List.mem_append] at h
      rcases h with rfl | h | h
      · exact nd1.1 (by simp [hx])
      · exact nd2.2.2 x h x (by simp [hx]) rfl
      · exact nd3.2.2 x h x hx rfl)) nd3.2.1 (by omega)
    rw [hdM_cons, msgsFree, seq_run (msgAt_run l.1), seq_run h2, h3, erase_erase]
    simp [footMs]
end

theorem bndlFree_lay {m : Memory} (wf : WF m) {p : Nat} {tail : Ptr} {ms : List LMsg} (l : LayW m 46 (.bndl p tail ms))
    (nd : (LW.bndl p tail ms).foot.Nodup) :
    bndlFree (3 * m.brk + 3) p m = some ((), m.erase (LW.bndl p tail ms).foot) := by
  have hlen := foot_len wf nd (layW_alloc _ l)
  have h := wordFree_lay (.bndl p tail ms) (3 * m.brk + 4) l nd (by omega)
  simp only [wordFree, LW.word] at h
  rwa [if_neg (by decide), if_pos trivial] at h

theorem msgFree_lay {m : Memory} (wf : WF m) {p : Nat} {addr : Option (Nat × Bytes × Bytes)} {args : List LAtom} {pv q : Ptr}
    (l : LayMsgs m pv q [.mk p addr args]) (nd : (footMs [.mk p addr args]).Nodup) :
    msgFree (3 * m.brk + 3) p m = some ((), m.erase (footMs [.mk p addr args])) := by
  have hlen := foot_len wf nd (layMsgs_alloc _ _ _ l)
  simp only [LayMsgs, and_true] at l
  simp only [footMs, List.append_nil] at nd hlen ⊢
  have nd1 := List.nodup_cons.mp nd
  have nd2 := List.nodup_append.mp nd1.2
  simp only [List.length_cons, List.length_append] at hlen
  have h1 := atomsFree_lay none args (3 * m.brk + 2) (layArgs_erase l.2.2 (l := footAddr addr) (fun x hx h => nd2.2.2 x h x hx rfl))
    nd2.2.1 (by omega)
  rw [erase_erase] at h1
  rw [msgFree, seq_run (msgAt_run l.1), seq_run (addrFree l.2.1), seq_run h1, free_erase (by rw [l.1]; rfl) nd1.1]

theorem atomFree_lay {m : Memory} (wf : WF m) {p : Nat} {t : UInt8} {al : Bool} {w : LW} {pv q : Ptr}
    (l : LayArgs m pv q [.mk p t al w]) (nd : (footAs [.mk p t al w]).Nodup) :
    atomFree (3 * m.brk + 3) p m = some ((), m.erase (footAs [.mk p t al w])) := by
  have hlen := foot_len wf nd (layArgs_alloc _ _ _ l)
  simp only [LayArgs, and_true] at l
  simp only [footAs, List.append_nil] at nd hlen ⊢
  have nd1 := List.nodup_cons.mp nd
  simp only [List.length_cons] at hlen
  have h1 := wordFree_lay w (3 * m.brk + 2) l.2 nd1.2 (by omega)
  rw [atomFree, seq_run (atomAt_run l.1), seq_run h1, free_erase (by rw [l.1]; rfl) nd1.1]

/-! ### Arrays -/

/-- The blocks of an element that go with the array: not a blob, and not a string that is not marked as owned. -/
def ownFoot : List LAtom → List Nat
  | [] => []
  | .mk p t al w :: as => p :: ((if al = true ∧ t = 115 ∨ t = 46 then w.foot else []) ++ ownFoot as)

theorem ownFoot_sub : ∀ as : List LAtom, ∀ x ∈ ownFoot as, x ∈ footAs as
  | [], x, hx => by simp [ownFoot] at hx
  | .mk p t al w :: as, x, hx => by
    simp only [ownFoot, List.mem_cons, List.mem_append] at hx
    simp only [footAs, List.mem_cons, List.mem_append]
    rcases hx with h | h | h
    · exact Or.inl h
    · split at h
      · exact Or.inr (Or.inl h)
      · simp at h
    · exact Or.inr (Or.inr (ownFoot_sub as x h))

theorem elemsFree_lay : ∀ (as : List LAtom) (f : Nat) {m : Memory}, LayElems m as → (footAs as).Nodup →
    3 * (footAs as).length + 1 ≤ f → elemsFree f (as.map LAtom.p) m = some ((), m.erase (ownFoot as))
  | [], f, m, _, _, _ => by simp only [ownFoot, erase_nil]; rfl
  | .mk p t al w :: as, f, m, ⟨⟨pv, q, l⟩, ls⟩, nd, hf => by
    simp only [footAs, List.length_cons, List.length_append] at hf
    simp only [LayArgs, and_true] at l
    simp only [footAs] at nd
    have nd' := List.nodup_cons.mp nd
    have nd2 := List.nodup_append.mp nd'.2
    have h1 : elemFree f ⟨t, al, w.word, hdA q [], pv⟩ m =
        some ((), m.erase (if al = true ∧ t = 115 ∨ t = 46 then w.foot else [])) := by
      unfold elemFree
      by_cases h : al = true ∧ t = 115 ∨ t = 46
      · rw [if_pos h, if_pos h]
        exact wordFree_lay w f l.2 nd2.1 (by omega)
      · rw [if_neg h, if_neg h, erase_nil]; rfl
    have hsub : ∀ x ∈ (if al = true ∧ t = 115 ∨ t = 46 then w.foot else []), x ∈ w.foot := fun x hx => by
      split at hx
      · exact hx
      · simp at hx
    have h2 : free p (m.erase (if al = true ∧ t = 115 ∨ t = 46 then w.foot else [])) = _ :=
      free_erase (by rw [l.1]; rfl) (fun h => nd'.1 (by simp [hsub p h]))
    have h3 := elemsFree_lay as f (m := m.erase (p :: (if al = true ∧ t = 115 ∨ t = 46 then w.foot else [])))
      (layElems_frame as (fun x hx => erase_ne m (fun h => by
        rcases List.mem_cons.mp h with rfl | h
        · exact nd'.1 (by simp [hx])
        · exact nd2.2.2 x (hsub x h) x hx rfl)) ls) nd2.2.1 (by omega)
    simp only [List.map_cons, LAtom.p]
    rw [elemsFree, seq_run (atomAt_run l.1), seq_run h1, seq_run h2]
    refine h3.trans ?_
    rw [erase_erase]; rfl

theorem arrFree_lay {m : Memory} (wf : WF m) {r : Nat} {as : List LAtom} (hr : m.cell r = some (.arr (as.map LAtom.p)))
    (l : LayElems m as) (nd : (r :: footAs as).Nodup) : arrFree r m = some ((), m.erase (r :: ownFoot as)) := by
  have nd' := List.nodup_cons.mp nd
  have hlen := foot_len wf nd'.2 (layElems_alloc as l)
  rw [arrFree, seq_run (arrAt_run hr), seq_run (fuel_run _), seq_run (elemsFree_lay as _ l nd'.2 (by omega)),
    free_erase (by rw [hr]; rfl) (fun h => nd'.1 (ownFoot_sub as r h))]

/-- Distinct numbers in a range that are as many as the range has are all of them. -/
theorem all_of_count {l : List Nat} {a b : Nat} (nd : l.Nodup) (h : ∀ x ∈ l, a ≤ x ∧ x < b) (hl : l.length + a = b) :
    ∀ x, a ≤ x → x < b → x ∈ l := by
  intro x h1 h2
  apply Classical.byContradiction
  intro hx
  have := length_le_of_nodup_lt (l := x :: l ++ List.range a) (n := b) (by
    rw [List.nodup_append]
    refine ⟨List.nodup_cons.mpr ⟨hx, nd⟩, List.nodup_range, fun y hy z hz => ?_⟩
    simp only [List.mem_cons, List.mem_range] at hy hz
    rcases hy with rfl | hy
    · omega
    · have := (h y hy).1; omega) (fun y hy => by
      simp only [List.mem_append, List.mem_cons, List.mem_range] at hy
      rcases hy with (rfl | hy) | hy
      · exact h2
      · exact (h y hy).2
      · omega)
  simp at this
  omega

end Libo.Mem
