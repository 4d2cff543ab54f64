import Verif.RSetMem
import Verif.Props.Query
import Verif.Name
/-!
# C102: sets of results keep their results in order, and free each once

Independent specification: the selectors in the order in which they were first used, what was added for each, and the number of the result that the
iterator is at.
-/

namespace Libo.Props
open Libo Libo.HT

/-- What callers do with a set. -/
inductive ROp where
  | full (sel msg : Bytes)
  | part (sel msg : Bytes)
  | unmatched (msg : Bytes)
  | init
  | next

/-- Specification: what a set is. -/
structure RSpec where
  sels : List Bytes
  full : Bytes → List Bytes
  part : Bytes → List Bytes
  un : List Bytes
  cur : Option Nat

def RSpec.empty : RSpec := ⟨[], fun _ => [], fun _ => [], [], none⟩

def RSpec.step (a : RSpec) : ROp → RSpec
  | .full s m => { a with sels := if s ∈ a.sels then a.sels else a.sels ++ [s], full := fun x => if x = s then a.full s ++ [m] else a.full x }
  | .part s m => { a with sels := if s ∈ a.sels then a.sels else a.sels ++ [s], part := fun x => if x = s then a.part s ++ [m] else a.part x }
  | .unmatched m => { a with un := a.un ++ [m] }
  | .init => { a with cur := if a.sels = [] then none else some 0 }
  | .next => { a with cur := a.cur.bind fun i => if i + 1 < a.sels.length then some (i + 1) else none }

/-- The calls of the library. -/
def rstep (m : RMem.RS) : ROp → Option RMem.RS
  | .full s x => RMem.addFull m s x
  | .part s x => RMem.addPart m s x
  | .unmatched x => some (RMem.addUnmatched m x)
  | .init => some (RMem.initIterator m)
  | .next => (RMem.next m).map (·.1)

def rrun (ops : List ROp) : Option RMem.RS := RMem.alloc.bind fun m => ops.foldlM rstep m

/-- The block that the specification gives for a result. -/
def RSpec.cell (a : RSpec) (i : Nat) (s : Bytes) : RMem.Cell :=
  ⟨s, a.full s, a.part s, if i + 1 < a.sels.length then some (i + 1) else none, if i = 0 then none else some (i - 1)⟩

structure RMInv (a : RSpec) (m : RMem.RS) : Prop where
  hinv : HInv m.ht
  look : ∀ s i, absMap m.ht s = some i ↔ a.sels[i]? = some s
  len : m.cells.length = a.sels.length
  cells : ∀ i s, a.sels[i]? = some s → m.cells[i]? = some (some (a.cell i s))
  head : m.selectors = if a.sels = [] then none else some 0
  cur : m.current = a.cur
  curlt : ∀ i, a.cur = some i → i < a.sels.length
  num : m.numselectors = a.sels.length
  un : m.unmatched = a.un
  out : ∀ s, s ∉ a.sels → a.full s = [] ∧ a.part s = []

theorem RMInv.nodup {a m} (h : RMInv a m) : a.sels.Nodup := by
  rw [List.Nodup, List.pairwise_iff_getElem]
  intro i j hi hj hij he
  have h1 := (h.look a.sels[i] i).mpr (List.getElem?_eq_getElem hi)
  have h2 := (h.look a.sels[i] j).mpr (by rw [he]; exact List.getElem?_eq_getElem hj)
  rw [h1] at h2
  simp at h2; omega

theorem rm_alloc : ∃ m, RMem.alloc = some m ∧ RMInv .empty m := by
  obtain ⟨n, live, hn, e⟩ := new_ok (V := Nat) 0 (by decide)
  refine ⟨_, by rw [RMem.alloc, e]; rfl, ⟨hinv_empty n hn live, ?_, rfl, ?_, rfl, rfl, ?_, rfl, rfl, ?_⟩⟩
  · intro s i; simp [absMap_empty n hn live, RSpec.empty]
  · intro i s h; simp [RSpec.empty] at h
  · intro i h; simp [RSpec.empty] at h
  · intro s _; exact ⟨rfl, rfl⟩

theorem last_eq (l : List (Option RMem.Cell)) (n : Nat)
    (h : ∀ i, i < n → ∃ c, RMem.cell l i = some c ∧ c.next = if i + 1 < n then some (i + 1) else none) :
    ∀ f i, i < n → n - i ≤ f → RMem.last l f i = some (n - 1) := by
  intro f
  induction f with
  | zero => intro i hi hf; omega
  | succ f ih =>
    intro i hi hf
    obtain ⟨c, h1, h2⟩ := h i hi
    rw [RMem.last, h1, Option.bind_some, h2]
    by_cases hn : i + 1 < n
    · rw [if_pos hn]; exact ih (i + 1) hn (by omega)
    · rw [if_neg hn]; show some i = some (n - 1); congr 1; omega

/-- The specification after a result without matches has been added. -/
def RSpec.addSel (a : RSpec) (s : Bytes) : RSpec := { a with sels := a.sels ++ [s] }

theorem rm_append {a m} (h : RMInv a m) (s : Bytes) (hs : s ∉ a.sels) :
    ∃ m', RMem.append m s = some (m', a.sels.length) ∧ RMInv (a.addSel s) m' := by
  obtain ⟨t', ds, e1, e2, e3, _⟩ := hstep_inv h.hinv (.store s m.cells.length)
  simp only [hstep] at e1
  have hlook : ∀ x i, absMap t' x = some i ↔ (a.sels ++ [s])[i]? = some x := by
    intro x i
    simp only [e3, mapStep]
    by_cases hx : x = s
    · subst hx
      rw [if_pos rfl, h.len]
      constructor
      · intro hh; simp at hh; subst hh; simp
      · intro hh
        by_cases hi : i < a.sels.length
        · rw [List.getElem?_append_left hi] at hh
          exact absurd (List.mem_of_getElem? hh) hs
        · have : i < (a.sels ++ [x]).length := (List.getElem?_eq_some_iff.mp hh).1
          simp at this
          congr 1; omega
    · rw [if_neg hx, h.look x i]
      constructor
      · intro hh
        rw [List.getElem?_append_left (List.getElem?_eq_some_iff.mp hh).1]; exact hh
      · intro hh
        by_cases hi : i < a.sels.length
        · rwa [List.getElem?_append_left hi] at hh
        · have hlt : i < (a.sels ++ [s]).length := (List.getElem?_eq_some_iff.mp hh).1
          simp at hlt
          have : i = a.sels.length := by omega
          subst this
          simp at hh; exact absurd hh.symm hx
  have hcell : ∀ i, i < a.sels.length → m.cells[i]? = some (some (a.cell i (a.sels[i]?.getD []))) := fun i hi => by
    have e : a.sels[i]? = some a.sels[i] := List.getElem?_eq_getElem hi
    rw [h.cells i _ e, e]; rfl
  have hout := h.out s hs
  generalize hl : m.cells ++ [some ⟨s, [], [], none, none⟩] = l
  have hlold : ∀ i, i < a.sels.length → l[i]? = m.cells[i]? := fun i hi => by
    rw [← hl, List.getElem?_append_left (by rw [h.len]; exact hi)]
  have hlnew : l[a.sels.length]? = some (some ⟨s, [], [], none, none⟩) := by
    rw [← hl, ← h.len]; simp
  have hll : l.length = a.sels.length + 1 := by rw [← hl, List.length_append, h.len]; rfl
  unfold RMem.append
  rw [h.len] at e1
  simp only [hl, e1, h.head, h.len]
  by_cases hz : a.sels = []
  · rw [if_pos hz]
    simp only [Option.bind_some, Option.map_some]
    refine ⟨_, rfl, ⟨e2, hlook, ?_, ?_, ?_, h.cur, ?_, ?_, h.un, ?_⟩⟩
    · simp [RSpec.addSel, hll]
    · intro i x hi
      simp only [RSpec.addSel, hz, List.nil_append] at hi
      have : i = 0 ∧ x = s := by
        cases i with
        | zero => simp at hi; exact ⟨rfl, hi.symm⟩
        | succ i => simp at hi
      obtain ⟨rfl, rfl⟩ := this
      have := hlnew
      rw [hz] at this
      simp only [List.length_nil] at this
      simp only [this, RSpec.cell, RSpec.addSel, hz, hout.1, hout.2]; rfl
    · simp [RSpec.addSel, hz]
    · intro i hi
      have := h.curlt i hi
      simp only [RSpec.addSel, List.length_append]; omega
    · simp [RSpec.addSel, h.num]
    · intro x hx
      simp only [RSpec.addSel, List.mem_append, not_or] at hx
      exact h.out x hx.1
  · have hpos : 0 < a.sels.length := List.length_pos_iff.mpr hz
    rw [if_neg hz]
    have hlast : RMem.last l l.length 0 = some (a.sels.length - 1) := by
      refine last_eq l a.sels.length ?_ _ 0 hpos (by omega)
      intro i hi
      refine ⟨a.cell i (a.sels[i]?.getD []), ?_, rfl⟩
      rw [RMem.cell, hlold i hi, hcell i hi]; rfl
    simp only [hlast, Option.bind_some]
    have hc1 : RMem.cell l (a.sels.length - 1) = some (a.cell (a.sels.length - 1) (a.sels[a.sels.length - 1]?.getD [])) := by
      rw [RMem.cell, hlold _ (by omega), hcell _ (by omega)]; rfl
    generalize hcc : a.cell (a.sels.length - 1) (a.sels[a.sels.length - 1]?.getD []) = c1 at hc1
    have hc2 : RMem.cell (l.set (a.sels.length - 1) (some { c1 with next := some a.sels.length })) a.sels.length = some ⟨s, [], [], none, none⟩ := by
      rw [RMem.cell, List.getElem?_set_ne (by omega), hlnew]; rfl
    simp only [RMem.link, hc1, hc2, Option.bind_some, Option.map_some]
    refine ⟨_, rfl, ⟨e2, hlook, ?_, ?_, ?_, h.cur, ?_, ?_, h.un, ?_⟩⟩
    · simp [RSpec.addSel, hll]
    · intro i x hi
      simp only [RSpec.addSel] at hi
      have hlt : i < (a.sels ++ [s]).length := (List.getElem?_eq_some_iff.mp hi).1
      simp only [List.length_append, List.length_singleton] at hlt
      by_cases hin : i = a.sels.length
      · subst hin
        simp at hi; subst hi
        rw [List.getElem?_set_self (by simp [hll])]
        simp only [RSpec.cell, RSpec.addSel, hout.1, hout.2, List.length_append, List.length_singleton]
        rw [if_neg (by omega), if_neg (by omega)]
      · have hi' : i < a.sels.length := by omega
        rw [List.getElem?_append_left hi'] at hi
        rw [List.getElem?_set_ne (by omega)]
        by_cases hip : i = a.sels.length - 1
        · subst hip
          rw [List.getElem?_set_self (by omega), ← hcc, hi]
          have hsub : a.sels.length - 1 + 1 = a.sels.length := by omega
          simp [RSpec.cell, RSpec.addSel, hsub]
        · rw [List.getElem?_set_ne (by omega), hlold i hi', h.cells i x hi]
          simp only [RSpec.cell, RSpec.addSel, List.length_append, List.length_singleton]
          rw [if_pos (show i + 1 < a.sels.length by omega), if_pos (show i + 1 < a.sels.length + 1 by omega)]
    · simp [RSpec.addSel]
    · intro i hi
      have := h.curlt i hi
      simp only [RSpec.addSel, List.length_append]; omega
    · simp [RSpec.addSel, h.num]
    · intro x hx
      simp only [RSpec.addSel, List.mem_append, not_or] at hx
      exact h.out x hx.1

theorem rm_resultFor {a m} (h : RMInv a m) (s : Bytes) :
    ∃ m' a' p, RMem.resultFor m s = some (m', p) ∧ RMInv a' m' ∧ a'.sels[p]? = some s ∧
      a' = { a with sels := if s ∈ a.sels then a.sels else a.sels ++ [s] } := by
  unfold RMem.resultFor
  rw [lookup_inv h.hinv]
  simp only [Option.bind_some]
  cases hm : absMap m.ht s with
  | some i =>
    have hi := (h.look s i).mp hm
    have hs : s ∈ a.sels := List.mem_of_getElem? hi
    exact ⟨m, a, i, rfl, h, hi, by rw [if_pos hs]⟩
  | none =>
    have hs : s ∉ a.sels := fun hs => by
      obtain ⟨i, hi⟩ := List.getElem?_of_mem hs
      rw [(h.look s i).mpr hi] at hm; simp at hm
    obtain ⟨m', e, hi⟩ := rm_append h s hs
    exact ⟨m', a.addSel s, a.sels.length, e, hi, by simp [RSpec.addSel], by rw [if_neg hs]; rfl⟩

/-- Changing what a result holds. -/
theorem rm_set {a m} (h : RMInv a m) (s : Bytes) (p : Nat) (hp : a.sels[p]? = some s) (f g : List Bytes) :
    RMem.cell m.cells p = some (a.cell p s) ∧
    RMInv { a with full := fun x => if x = s then f else a.full x, part := fun x => if x = s then g else a.part x }
      { m with cells := m.cells.set p (some { a.cell p s with full := f, part := g }) } := by
  have hlt : p < a.sels.length := (List.getElem?_eq_some_iff.mp hp).1
  refine ⟨by rw [RMem.cell, h.cells p s hp]; rfl, ⟨h.hinv, h.look, by simp [h.len], ?_, h.head, h.cur, h.curlt, h.num, h.un, ?_⟩⟩
  · intro i x hi
    simp only at hi ⊢
    by_cases hip : i = p
    · subst hip
      rw [hp] at hi; cases hi
      rw [List.getElem?_set_self (by rw [h.len]; exact hlt)]
      simp [RSpec.cell]
    · have hx : x ≠ s := fun e => by
        subst e
        have h1 := (h.look x i).mpr hi
        have h2 := (h.look x p).mpr hp
        rw [h1] at h2; cases h2; exact hip rfl
      rw [List.getElem?_set_ne (by omega), h.cells i x hi]
      simp [RSpec.cell, hx]
  · intro x hx
    have hxs : x ≠ s := fun e => hx (by subst e; exact List.mem_of_getElem? hp)
    simp [hxs, h.out x hx]

theorem RMInv.cell_at {a m} (h : RMInv a m) {i : Nat} (hi : i < a.sels.length) : RMem.cell m.cells i = some (a.cell i a.sels[i]) := by
  rw [RMem.cell, h.cells i _ (List.getElem?_eq_getElem hi)]; rfl

theorem rm_next {a m} (h : RMInv a m) : ∃ m', RMem.next m = some (m', a.cur) ∧ RMInv (a.step .next) m' := by
  unfold RMem.next
  rw [h.cur]
  cases hc : a.cur with
  | none =>
    refine ⟨m, rfl, ⟨h.hinv, h.look, h.len, h.cells, h.head, by rw [h.cur, hc]; simp [RSpec.step, hc], ?_, h.num, h.un, h.out⟩⟩
    intro i hi; simp [RSpec.step, hc] at hi
  | some i =>
    have hi := h.curlt i hc
    simp only [h.cell_at hi, Option.map_some]
    refine ⟨_, rfl, ⟨h.hinv, h.look, h.len, h.cells, h.head, by simp [RSpec.step, hc, RSpec.cell], ?_, h.num, h.un, h.out⟩⟩
    intro j hj
    simp only [RSpec.step, hc, Option.bind_some] at hj ⊢
    split at hj
    · cases hj; assumption
    · cases hj

theorem rm_step {a m} (h : RMInv a m) (o : ROp) : ∃ m', rstep m o = some m' ∧ RMInv (a.step o) m' := by
  cases o with
  | full s x =>
    obtain ⟨m', a', p, e, hi, hp, rfl⟩ := rm_resultFor h s
    obtain ⟨e2, hi2⟩ := rm_set hi s p hp (a.full s ++ [x]) (a.part s)
    simp only [rstep, RMem.addFull, e, Option.bind_some, e2, Option.map_some]
    refine ⟨_, rfl, ?_⟩
    have eg : (fun y => if y = s then a.part s else a.part y) = a.part := by
      funext y; split
      · next hy => rw [hy]
      · rfl
    simp only [eg] at hi2
    exact hi2
  | part s x =>
    obtain ⟨m', a', p, e, hi, hp, rfl⟩ := rm_resultFor h s
    obtain ⟨e2, hi2⟩ := rm_set hi s p hp (a.full s) (a.part s ++ [x])
    simp only [rstep, RMem.addPart, e, Option.bind_some, e2, Option.map_some]
    refine ⟨_, rfl, ?_⟩
    have eg : (fun y => if y = s then a.full s else a.full y) = a.full := by
      funext y; split
      · next hy => rw [hy]
      · rfl
    simp only [eg] at hi2
    exact hi2
  | unmatched x =>
    exact ⟨_, rfl, ⟨h.hinv, h.look, h.len, h.cells, h.head, h.cur, h.curlt, h.num, by simp [RMem.addUnmatched, RSpec.step, h.un], h.out⟩⟩
  | init =>
    refine ⟨_, rfl, ⟨h.hinv, h.look, h.len, h.cells, h.head, h.head, ?_, h.num, h.un, h.out⟩⟩
    intro i hi
    simp only [RSpec.step] at hi ⊢
    split at hi
    · cases hi
    · next hz => cases hi; exact List.length_pos_iff.mpr hz
  | next =>
    obtain ⟨m', e, hi⟩ := rm_next h
    exact ⟨m', by simp [rstep, e], hi⟩

/-- What the calls make of an empty set. -/
def RSpec.run (ops : List ROp) : RSpec := ops.foldl RSpec.step .empty

theorem rm_run (ops : List ROp) : ∃ m, rrun ops = some m ∧ RMInv (.run ops) m := by
  obtain ⟨m0, e0, h0⟩ := rm_alloc
  have key : ∀ (ops : List ROp) a m, RMInv a m → ∃ m', ops.foldlM rstep m = some m' ∧ RMInv (ops.foldl RSpec.step a) m' := by
    intro ops
    induction ops with
    | nil => intro a m h; exact ⟨m, rfl, h⟩
    | cons o ops ih =>
      intro a m h
      obtain ⟨m1, e1, h1⟩ := rm_step h o
      obtain ⟨m2, e2, h2⟩ := ih _ _ h1
      exact ⟨m2, by rw [List.foldlM_cons, e1]; exact e2, h2⟩
  obtain ⟨m, e, h⟩ := key ops .empty m0 h0
  exact ⟨m, by rw [rrun, e0]; exact e, h⟩

/-! ## The theorems -/

/-- After any calls: the blocks are the results in the order in which their selectors were first used, linked in both directions; a selector finds its
result, and other selectors find nothing; the number of selectors and the messages that matched nothing are as they should be; and whether there is a next
result, and which one it is, is as the specification says. -/
theorem C102_state (ops : List ROp) : ∃ m, rrun ops = some m ∧
    m.cells.length = (RSpec.run ops).sels.length ∧ m.numselectors = (RSpec.run ops).sels.length ∧ (RSpec.run ops).sels.Nodup ∧
    (∀ i s, (RSpec.run ops).sels[i]? = some s → ∃ c, RMem.cell m.cells i = some c ∧ c.sel = s ∧ c.full = (RSpec.run ops).full s ∧ c.part = (RSpec.run ops).part s ∧
      (∀ j, c.next = some j ↔ j = i + 1 ∧ j < (RSpec.run ops).sels.length) ∧ (∀ j, c.prev = some j ↔ j + 1 = i)) ∧
    (∀ s, HT.lookup m.ht s.length s = some ((RSpec.run ops).sels.idxOf? s)) ∧
    m.unmatched = (RSpec.run ops).un ∧ RMem.hasNext m = (RSpec.run ops).cur.isSome ∧
    ∃ m', RMem.next m = some (m', (RSpec.run ops).cur) := by
  obtain ⟨m, e, h⟩ := rm_run ops
  refine ⟨m, e, h.len, h.num, h.nodup, ?_, ?_, h.un, by rw [RMem.hasNext, h.cur], ?_⟩
  · intro i s hi
    refine ⟨(RSpec.run ops).cell i s, by rw [RMem.cell, h.cells i s hi]; rfl, rfl, rfl, rfl, ?_, ?_⟩
    · intro j
      simp only [RSpec.cell]
      by_cases hn : i + 1 < (RSpec.run ops).sels.length
      · rw [if_pos hn]
        constructor
        · intro e; cases e; exact ⟨rfl, hn⟩
        · rintro ⟨rfl, _⟩; rfl
      · rw [if_neg hn]
        constructor
        · intro e; cases e
        · rintro ⟨rfl, hj⟩; exact absurd hj hn
    · intro j
      simp only [RSpec.cell]
      by_cases hn : i = 0
      · rw [if_pos hn]
        constructor
        · intro e; cases e
        · intro e; omega
      · rw [if_neg hn, Option.some.injEq]; omega
  · intro s
    rw [lookup_inv h.hinv]
    congr 1
    cases hm : absMap m.ht s with
    | none =>
      have hs : s ∉ (RSpec.run ops).sels := fun hs => by
        obtain ⟨i, hi⟩ := List.getElem?_of_mem hs
        rw [(h.look s i).mpr hi] at hm; simp at hm
      exact (List.idxOf?_eq_none_iff.mpr hs).symm
    | some i =>
      have hi := (h.look s i).mp hm
      obtain ⟨hlt, hget⟩ := List.getElem?_eq_some_iff.mp hi
      cases hx : (RSpec.run ops).sels.idxOf? s with
      | none => exact absurd (List.mem_of_getElem? hi) (List.idxOf?_eq_none_iff.mp hx)
      | some j =>
        have hj : (RSpec.run ops).sels[j]? = some s := by
          obtain ⟨hjl, hj2, _⟩ := List.findIdx?_eq_some_iff_getElem.mp hx
          rw [List.getElem?_eq_getElem hjl]
          simpa using hj2
        have := (h.look s j).mpr hj
        rw [hm] at this; exact this
  · obtain ⟨m', e', _⟩ := rm_next h
    exact ⟨m', e'⟩

/-- The loop of a caller: as long as there is a next result, take it and read what it holds. -/
def readAll : Nat → RMem.RS → Option (List (Bytes × List Bytes × List Bytes))
  | 0, _ => none
  | f + 1, m =>
    if RMem.hasNext m then
      (RMem.next m).bind fun r => r.2.bind fun p => (RMem.cell r.1.cells p).bind fun c => (readAll f r.1).map ((c.sel, c.full, c.part) :: ·)
    else some []

/-- Iterating after any calls gives every result once, in the order in which the selectors were first used, with all that was added to it, and ends. -/
theorem C102_iterate (ops : List ROp) (f : Nat) (hf : (RSpec.run ops).sels.length < f) : ∃ m, rrun ops = some m ∧
    readAll f (RMem.initIterator m) = some ((RSpec.run ops).sels.map fun s => (s, (RSpec.run ops).full s, (RSpec.run ops).part s)) := by
  obtain ⟨m, e, h⟩ := rm_run ops
  refine ⟨m, e, ?_⟩
  generalize RSpec.run ops = a at *
  have key : ∀ (f : Nat) (b : RSpec) (m : RMem.RS), RMInv b m → ∀ k, (b.cur = if k < b.sels.length then some k else none) → b.sels.length - k < f →
      readAll f m = some ((b.sels.drop k).map fun s => (s, b.full s, b.part s)) := by
    intro f
    induction f with
    | zero => intro b m _ k _ hf; omega
    | succ f ih =>
      intro b m h k hk hf
      rw [readAll, RMem.hasNext, h.cur, hk]
      by_cases hl : k < b.sels.length
      · rw [if_pos hl]
        obtain ⟨m', e', h'⟩ := rm_next h
        have hcell := h'.cell_at (i := k) (by simpa [RSpec.step] using hl)
        rw [if_pos (by rfl), e', hk, if_pos hl]
        simp only [Option.bind_some, hcell]
        rw [ih (b.step .next) m' h' (k + 1) (by simp [RSpec.step, hk, hl]) (by simp only [RSpec.step]; omega)]
        simp only [RSpec.step, RSpec.cell, Option.map_some]
        rw [List.drop_eq_getElem_cons hl]
        rfl
      · rw [if_neg hl, List.drop_eq_nil_of_le (by omega)]
        rfl
  obtain ⟨m1, e1, h1⟩ := rm_step h .init
  simp only [rstep, Option.some.injEq] at e1
  subst e1
  have := key f _ _ h1 0 (by
    simp only [RSpec.step]
    by_cases hz : a.sels = []
    · simp [hz]
    · rw [if_neg hz]; exact (if_pos (List.length_pos_iff.mpr hz)).symm) (by simpa [RSpec.step] using hf)
  simpa [RSpec.step] using this

theorem free_all (ps : List Nat) (hn : ps.Nodup) : ∀ l : List (Option RMem.Cell), (∀ p ∈ ps, (RMem.cell l p).isSome) →
    ∃ l', ps.foldlM RMem.freeResult l = some l' ∧ l'.length = l.length ∧ ∀ q, q < l.length → l'[q]? = if q ∈ ps then some none else l[q]? := by
  induction ps with
  | nil => intro l _; exact ⟨l, rfl, rfl, by simp⟩
  | cons p ps ih =>
    intro l hl
    obtain ⟨hp, hps⟩ := List.nodup_cons.mp hn
    have h1 := hl p List.mem_cons_self
    obtain ⟨c, hc⟩ := Option.isSome_iff_exists.mp h1
    have hfr : RMem.freeResult l p = some (l.set p none) := by rw [RMem.freeResult, hc]; rfl
    have hne : ∀ q ∈ ps, p ≠ q := fun q hq e => hp (e ▸ hq)
    obtain ⟨l', e, hlen, hall⟩ := ih hps (l.set p none) (fun q hq => by
      have := hl q (List.mem_cons_of_mem _ hq)
      rw [RMem.cell, List.getElem?_set_ne (hne q hq)]
      exact this)
    refine ⟨l', by rw [List.foldlM_cons, hfr]; exact e, by simpa using hlen, ?_⟩
    intro q hq
    rw [hall q (by simpa using hq)]
    by_cases hqp : q = p
    · subst hqp
      rw [if_neg hp, if_pos List.mem_cons_self, List.getElem?_set_self hq]
    · by_cases hqs : q ∈ ps
      · rw [if_pos hqs, if_pos (List.mem_cons_of_mem _ hqs)]
      · rw [if_neg hqs, if_neg (by simp [hqp, hqs]), List.getElem?_set_ne (fun e => hqp e.symm)]

/-- Freeing the set after any calls frees every result, and none of them twice. -/
theorem C102_free (ops : List ROp) : ∃ m l, rrun ops = some m ∧ RMem.free m = some l ∧ l.length = m.cells.length ∧ ∀ c ∈ l, c = none := by
  obtain ⟨m, e, h⟩ := rm_run ops
  have hs := shows_of_hinv h.hinv
  have hv : ∀ k v, (k, v) ∈ foreach m.ht ↔ (RSpec.run ops).sels[v]? = some k := fun k v => by rw [hs.visits, h.look]
  have hnd : ((foreach m.ht).map (·.2)).Nodup := by
    have h1 := hs.once
    rw [List.Nodup, List.pairwise_map] at h1 ⊢
    refine h1.imp_of_mem ?_
    intro x y hx hy hne heq
    have hx' := (hv x.1 x.2).mp hx
    have hy' := (hv y.1 y.2).mp hy
    rw [heq, hy'] at hx'
    exact hne (Option.some.inj hx').symm
  obtain ⟨l, e1, e2, e3⟩ := free_all _ hnd m.cells (by
    intro p hp
    obtain ⟨x, hx, rfl⟩ := List.mem_map.mp hp
    have hx' := (hv x.1 x.2).mp hx
    rw [RMem.cell, h.cells _ _ hx']; rfl)
  refine ⟨m, l, e, e1, e2, ?_⟩
  intro c hc
  obtain ⟨q, hq⟩ := List.getElem?_of_mem hc
  have hlt : q < m.cells.length := by rw [← e2]; exact (List.getElem?_eq_some_iff.mp hq).1
  have hmem : q ∈ (foreach m.ht).map (·.2) := by
    rw [h.len] at hlt
    exact List.mem_map.mpr ⟨((RSpec.run ops).sels[q], q), (hv _ _).mpr (List.getElem?_eq_getElem hlt), rfl⟩
  rw [e3 q hlt, if_pos hmem] at hq
  exact (Option.some.inj hq).symm

/-- The specification is about the calls: which selectors there are, and what was added. -/
theorem C102_spec (ops : List ROp) :
    (∀ s, s ∈ (RSpec.run ops).sels ↔ ∃ x, .full s x ∈ ops ∨ .part s x ∈ ops) ∧
    (∀ s, (RSpec.run ops).full s = ops.filterMap fun o => match o with | .full t x => if t = s then some x else none | _ => none) ∧
    (∀ s, (RSpec.run ops).part s = ops.filterMap fun o => match o with | .part t x => if t = s then some x else none | _ => none) ∧
    (RSpec.run ops).un = ops.filterMap fun o => match o with | .unmatched x => some x | _ => none := by
  have key : ∀ (ops : List ROp) (a : RSpec),
      (∀ s, s ∈ (ops.foldl RSpec.step a).sels ↔ s ∈ a.sels ∨ ∃ x, .full s x ∈ ops ∨ .part s x ∈ ops) ∧
      (∀ s, (ops.foldl RSpec.step a).full s = a.full s ++ ops.filterMap fun o => match o with | .full t x => if t = s then some x else none | _ => none) ∧
      (∀ s, (ops.foldl RSpec.step a).part s = a.part s ++ ops.filterMap fun o => match o with | .part t x => if t = s then some x else none | _ => none) ∧
      (ops.foldl RSpec.step a).un = a.un ++ ops.filterMap fun o => match o with | .unmatched x => some x | _ => none := by
    intro ops
    induction ops with
    | nil => intro a; simp
    | cons o ops ih =>
      intro a
      obtain ⟨h1, h2, h3, h4⟩ := ih (a.step o)
      refine ⟨fun s => ?_, fun s => ?_, fun s => ?_, ?_⟩
      · rw [List.foldl_cons, h1 s]
        cases o <;> simp only [RSpec.step, List.mem_cons, ROp.full.injEq, ROp.part.injEq, reduceCtorEq, false_or, or_false]
        all_goals grind
      · rw [List.foldl_cons, h2 s]
        cases o <;> simp only [RSpec.step, List.filterMap_cons]
        all_goals grind
      · rw [List.foldl_cons, h3 s]
        cases o <;> simp only [RSpec.step, List.filterMap_cons]
        all_goals grind
      · rw [List.foldl_cons, h4]
        cases o <;> simp [RSpec.step]
  have := key ops .empty
  simpa [RSpec.run, RSpec.empty] using this

/-- Two selectors, three messages: iterating, and freeing. -/
def sampleCalls : List ROp := [.full (n! "/b") (n! "x"), .part (n! "/a") (n! "y"), .init, .next, .full (n! "/b") (n! "z"), .unmatched (n! "u")]

example : (rrun sampleCalls).map (fun m => m.current) = some (some 1) := by decide +kernel
example : (rrun sampleCalls).bind (fun m => readAll 3 (RMem.initIterator m)) = some [(n! "/b", [n! "x", n! "z"], []), (n! "/a", [], [n! "y"])] := by decide +kernel
example : (rrun sampleCalls).bind (fun m => (RMem.free m).map fun l => l.map Option.isSome) = some [false, false] := by decide +kernel

end Libo.Props
