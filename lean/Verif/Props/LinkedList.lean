import Verif.LinkedListLemmas
/-!
# Property C27: the linked list behaves like a sequence

The specification works on a plain `List`.
-/

namespace Libo.Props
open Libo Libo.LL

variable {α : Type}

/-- The element an index denotes: `-1` is the last one, other negative indices and indices past the end denote nothing. -/
def seqAt (xs : List α) (n : Int) : Option α :=
  if n = -1 then xs.getLast? else if n < 0 then none else xs[n.toNat]?

/-- The sequence without the element an index denotes. -/
def seqWithout (xs : List α) (n : Int) : List α :=
  if n = -1 then xs.dropLast else if n < 0 then xs else xs.take n.toNat ++ xs.drop (n.toNat + 1)

/-- What each operation does to a plain sequence. -/
def seqStep (xs : List α) : Op α → List α × Out α
  | .prepend d => (d.toList ++ xs, .unit)
  | .append d => (xs ++ d.toList, .unit)
  | .popHead => (xs.tail, .elem xs.head?)
  | .popTail => (xs.dropLast, .elem xs.getLast?)
  | .popNth n => (seqWithout xs n, .elem (seqAt xs n))
  | .clear => ([], .destroyed xs)

def seqRun (xs : List α) : List (Op α) → List α × List (Out α)
  | [] => (xs, [])
  | o :: os => ((seqRun (seqStep xs o).1 os).1, (seqStep xs o).2 :: (seqRun (seqStep xs o).1 os).2)

/-- Everything observable about a list object agrees with the sequence `xs`: the count, every index, the callbacks of an
iteration, the elements met following `next` from the head and `prev` from the tail, and the memory: the allocated elements
are exactly the ones on the list. -/
structure Shows (s : LL α) (xs : List α) : Prop where
  count : s.count = xs.length
  peek : ∀ n, peekNth s n = some (seqAt xs n)
  calls : iterate s = some ((xs.zipIdx.map fun p => ((p.2 : Int), some p.1)) ++ [(-1, none)])
  forward : ∃ as : List Nat, walkNext s.heap s.fresh s.head = some (as.zip xs) ∧
    walkPrev s.heap s.fresh s.tail = some (as.zip xs).reverse ∧ as.length = xs.length ∧ as.Nodup ∧
    ∀ a, (s.heap a).isSome ↔ a ∈ as

theorem pos_seqAt (xs : List α) (n : Int) : (pos xs.length n).bind (fun k => xs[k]?) = seqAt xs n := by
  unfold pos seqAt
  split
  · cases xs with
    | nil => rfl
    | cons x xs => simp [List.getLast?_eq_getElem?]
  · split
    · rw [if_neg (by omega)]; rfl
    · split
      · rfl
      · rw [List.getElem?_eq_none (by omega)]; rfl

theorem pos_seqWithout (xs : List α) (n : Int) :
    (match pos xs.length n with | some k => xs.eraseIdx k | none => xs) = seqWithout xs n := by
  unfold pos seqWithout
  by_cases h1 : n = -1
  · rw [if_pos h1, if_pos h1]
    cases xs with
    | nil => rfl
    | cons x xs =>
      rw [if_neg (by simp)]
      simp only
      rw [List.eraseIdx_eq_take_drop_succ, List.dropLast_eq_take]
      simp
  · rw [if_neg h1, if_neg h1]
    by_cases h2 : 0 ≤ n ∧ n < xs.length
    · rw [if_pos h2, if_neg (by omega)]
      exact List.eraseIdx_eq_take_drop_succ ..
    · rw [if_neg h2]
      simp only
      split
      · rfl
      · rw [List.take_of_length_le (by omega), List.drop_of_length_le (by omega)]; simp

theorem shows_of_inv {s : LL α} {l} (i : Inv s l) : Shows s (vals l) := by
  have hz : (addrs l).zip (vals l) = l := by
    clear i
    induction l with
    | nil => rfl
    | cons c l ih => simp [ih]
  refine ⟨by simp [i.count], ?_, iterate_inv i, addrs l, ?_, ?_, by simp, i.nd, ?_⟩
  · intro n
    rw [peekNth_inv i, ← pos_seqAt (vals l) n, length_vals]
  · rw [hz, i.head, walkNext_seg i.seg i.fuel]
  · rw [hz, i.tail, walkPrev_seg i.seg i.fuel]
  · intro a
    constructor
    · intro h
      refine Classical.byContradiction fun hn => ?_
      rw [i.free a hn] at h; simp at h
    · intro h
      obtain ⟨n, e⟩ := seg_alloc i.seg h
      simp [e]

theorem step_inv {s : LL α} {l} (i : Inv s l) (o : Op α) :
    ∃ s' l', step s o = some (s', (seqStep (vals l) o).2) ∧ Inv s' l' ∧ vals l' = (seqStep (vals l) o).1 := by
  have hpop : ∀ n, ∃ s' l', popNth s n = some (s', seqAt (vals l) n) ∧ Inv s' l' ∧ vals l' = seqWithout (vals l) n := by
    intro n
    obtain ⟨s', l', e, j, v⟩ := popNth_inv i n
    refine ⟨s', l', ?_, j, ?_⟩
    · rw [e, ← pos_seqAt (vals l) n, length_vals]
    · rw [v, ← pos_seqWithout (vals l) n, length_vals]
      cases pos l.length n <;> rfl
  cases o with
  | prepend d =>
    cases d with
    | none => exact ⟨s, l, rfl, i, rfl⟩
    | some x =>
      obtain ⟨s', e, j⟩ := prepend_inv i x
      exact ⟨s', _, by simp [step, e, seqStep], j, rfl⟩
  | append d =>
    cases d with
    | none => exact ⟨s, l, rfl, i, by simp [seqStep]⟩
    | some x =>
      obtain ⟨s', e, j⟩ := append_inv i x
      exact ⟨s', _, by simp [step, e, seqStep], j, by simp [seqStep]⟩
  | popHead =>
    obtain ⟨s', l', e, j, v⟩ := hpop 0
    refine ⟨s', l', ?_, j, ?_⟩
    · simp [step, popHead_eq, e, seqStep, seqAt, List.head?_eq_getElem?]
    · rw [v]; simp [seqStep, seqWithout]
  | popTail =>
    obtain ⟨s', l', e, j, v⟩ := hpop (-1)
    refine ⟨s', l', ?_, j, ?_⟩
    · simp [step, popTail_eq, e, seqStep, seqAt]
    · rw [v]; simp [seqStep, seqWithout]
  | popNth n =>
    obtain ⟨s', l', e, j, v⟩ := hpop n
    exact ⟨s', l', by simp [step, e, seqStep], j, v⟩
  | clear =>
    obtain ⟨s', e, j⟩ := clear_inv i
    exact ⟨s', [], by simp [step, e, seqStep], j, rfl⟩

theorem run_inv (os : List (Op α)) {s : LL α} {l} (i : Inv s l) :
    ∃ s' l', run s os = some (s', (seqRun (vals l) os).2) ∧ Inv s' l' ∧ vals l' = (seqRun (vals l) os).1 := by
  induction os generalizing s l with
  | nil => exact ⟨s, l, rfl, i, rfl⟩
  | cons o os ih =>
    obtain ⟨s1, l1, e1, i1, v1⟩ := step_inv i o
    obtain ⟨s2, l2, e2, i2, v2⟩ := ih i1
    refine ⟨s2, l2, ?_, i2, by rw [v2, v1]; rfl⟩
    simp only [run, e1, bnd, e2, v1]; rfl

/-- **C27.**  Starting from a new list, after any sequence of operations: no operation touches memory that is not allocated
or runs forever, every operation returned what it would on a plain sequence, and the list shows exactly that sequence. -/
theorem C27_sequence (os : List (Op α)) :
    ∃ s, run LL.new os = some (s, (seqRun [] os).2) ∧ Shows s (seqRun [] os).1 := by
  obtain ⟨s, l, e, i, v⟩ := run_inv os (inv_new (α := α))
  exact ⟨s, e, v ▸ shows_of_inv i⟩

/-- **C27 (clone).**  Cloning a list built by any sequence of operations gives a list showing the copies, in order. -/
theorem C27_clone (os : List (Op α)) (copy : α → α) :
    ∃ s c outs, run LL.new os = some (s, outs) ∧ clone s copy = some c ∧ Shows c ((seqRun [] os).1.map copy) := by
  obtain ⟨s, l, e, i, v⟩ := run_inv os (inv_new (α := α))
  obtain ⟨c, l', e', i', v'⟩ := cloneLoop_inv copy (vals l) 0 (inv_new (α := α))
  refine ⟨s, c, _, e, ?_, ?_⟩
  · simp only [clone, iterate_inv i, bnd]; exact e'
  · have := shows_of_inv i'
    rw [v', v] at this
    simpa using this

/-! A history that empties, refills and edits in the middle. -/

def exOps : List (Op Nat) :=
  [.append (some 1), .prepend (some 0), .append none, .append (some 2), .popNth 1, .append (some 3), .append (some 4),
   .append (some 5), .popNth 2, .popTail, .popHead, .popNth 7, .popNth (-3)]

example : (seqRun [] exOps) = ([2, 4], [.unit, .unit, .unit, .unit, .elem (some 1), .unit, .unit, .unit, .elem (some 3),
    .elem (some 5), .elem (some 0), .elem none, .elem none]) := by decide
example : ((run LL.new exOps).map (·.2)) = some (seqRun [] exOps).2 := by decide
example : ∃ s, run LL.new exOps = some (s, (seqRun [] exOps).2) ∧ Shows s [2, 4] := C27_sequence exOps

end Libo.Props
