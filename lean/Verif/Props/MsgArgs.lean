import Verif.MsgArgsLemmas
/-!
# Property C20: editing the arguments of a message behaves like editing a list

The specification works on a plain `List`.
-/

namespace Libo.Props
open Libo Libo.Heap Libo.LL Libo.Args

variable {α : Type}

/-- The list without the element at an index (unchanged when there is none). -/
def argWithout (xs : List α) (i : Nat) : List α := xs.take i ++ xs.drop (i + 1)

/-- The list with `x` before the element at position `pos`, or at the end when there is none. -/
def argInsert (xs : List α) (pos : Nat) (x : α) : List α := xs.take pos ++ [x] ++ xs.drop pos

/-- What each edit does to a plain list. -/
def argStep (xs : List α) : Args.Op α → List α
  | .append x => xs ++ [x]
  | .prepend x => x :: xs
  | .insert x pos _ => argInsert xs pos.toNat x
  | .remove i => argWithout xs i
  | .moveToEnd i => match xs[i]? with | some x => argWithout xs i ++ [x] | none => xs
  | .moveToFront i => match xs[i]? with | some x => x :: argWithout xs i | none => xs
  | .moveTo i pos _ => match xs[i]? with | some x => argInsert (argWithout xs i) pos.toNat x | none => xs

def argRun (xs : List α) : List (Args.Op α) → List α
  | [] => xs
  | o :: os => argRun (argStep xs o) os

/-- Everything observable about the message agrees with `xs`: the count, the argument at every index, the atoms met walking
forward from the head and backward from the tail, and the memory: the allocated atoms are exactly those of the message. -/
structure ShowsArgs (m : Args α) (xs : List α) : Prop where
  count : m.count = xs.length
  arg : ∀ n : Nat, ∃ p, Args.getArg m n = some p ∧ (p.bind fun a => (m.heap a).map (·.data)) = xs[n]?
  walks : ∃ as : List Nat, Args.iterate m = some (as.zip xs) ∧ walkPrev m.heap m.fresh m.tail = some (as.zip xs).reverse ∧
    as.length = xs.length ∧ as.Nodup ∧ ∀ a, (m.heap a).isSome ↔ a ∈ as

/-- Positions given to `insertAtom` are not negative. -/
def NonNeg : Args.Op α → Prop
  | .insert _ pos _ => 0 ≤ pos
  | .moveTo _ pos _ => 0 ≤ pos
  | _ => True

/-- The full claim: any history of edits with non-negative positions. -/
def C20Full (α : Type) : Prop :=
  ∀ os : List (Args.Op α), (∀ o ∈ os, NonNeg o) → ∃ m, Args.run LL.new os = some m ∧ ShowsArgs m (argRun [] os)

/-- The restriction of the partial theorem: an atom that was taken out of the message with `removeAtom` is not put back with
`insertAtom` at or past the end, unless it was the last one. -/
def Fine (xs : List α) : Args.Op α → Prop
  | .moveTo i pos _ => xs.length ≤ i ∨ i + 1 = xs.length ∨ pos.toNat + 1 < xs.length
  | _ => True

def FineRun (xs : List α) : List (Args.Op α) → Prop
  | [] => True
  | o :: os => NonNeg o ∧ Fine xs o ∧ FineRun (argStep xs o) os

theorem showsArgs_of_inv {m : Args α} {l} (i : Inv m l) : ShowsArgs m (vals l) := by
  have hz : (addrs l).zip (vals l) = l := by
    clear i
    induction l with
    | nil => rfl
    | cons c l ih => simp [ih]
  refine ⟨by simp [i.count], ?_, addrs l, ?_, ?_, by simp, i.nd, ?_⟩
  · intro n
    refine ⟨_, getArg_core (core_of_inv i) n, ?_⟩
    by_cases h : n < l.length
    · obtain ⟨nd, e⟩ := seg_alloc i.seg (a := l[n].1) (List.mem_map_of_mem (List.getElem_mem h))
      have hs := i.seg
      rw [split_at h, seg_append] at hs
      have e2 : m.heap l[n].1 = some ⟨l[n].2, _, _⟩ := hs.2.1
      simp [vals, h, e2]
    · simp [vals, List.getElem?_eq_none (Nat.le_of_not_lt h)]
  · rw [hz]; unfold Args.iterate; rw [i.head, walkNext_seg i.seg i.fuel]
  · rw [hz, i.tail, walkPrev_seg i.seg i.fuel]
  · intro a
    constructor
    · intro h
      refine Classical.byContradiction fun hn => ?_
      rw [i.free a hn] at h; simp at h
    · intro h
      obtain ⟨n, e⟩ := seg_alloc i.seg h
      simp [e]

theorem newAtom_core {m : Args α} {l} (i : Inv m l) (x : α) :
    Core (newAtom m x).1 l ∧ (newAtom m x).2 ∉ addrs l ∧ (newAtom m x).1.heap (newAtom m x).2 = some ⟨x, none, none⟩ := by
  have hn : m.fresh ∉ addrs l := fun h => by have := i.lt _ h; omega
  refine ⟨⟨?_, i.nd, i.head, i.tail, i.count⟩, hn, upd_same _ _ _⟩
  exact seg_frame (fun b hb => upd_ne _ _ (by rintro rfl; exact hn hb)) i.seg

/-- Once an atom `a` outside the list is put in, nothing else is allocated. -/
theorem inv_of_core {m m' : Args α} {l l' : List (Nat × α)} {a : Nat} (c : Core m' l')
    (lt : ∀ b ∈ addrs l', b < m'.fresh) (free : ∀ b, b ∉ addrs l → b ≠ a → m.heap b = none) {S} (f : Frame m.heap m'.heap S)
    (hsub : ∀ b, b = a ∨ b ∈ addrs l → b ∈ addrs l') : Inv m' l' := by
  refine ⟨c.seg, c.nd, c.head, c.tail, c.count, lt, ?_⟩
  intro b hb
  refine f.none (free b (fun h => hb (hsub b (Or.inr h))) (fun h => hb (hsub b (Or.inl h))))

theorem mem_insertPos {β : Type} {xs : List β} {pos : Nat} {x y : β} : y ∈ insertPos xs pos x ↔ y = x ∨ y ∈ xs := by
  unfold insertPos
  rw [List.mem_append, List.mem_cons]
  conv => rhs; rw [← List.take_append_drop pos xs, List.mem_append]
  constructor
  · rintro (h | h | h) <;> simp [h]
  · rintro (h | h | h) <;> simp [h]

theorem addrs_insertPos (l : List (Nat × α)) (pos : Nat) (c : Nat × α) : addrs (insertPos l pos c) = insertPos (addrs l) pos c.1 := by
  simp [insertPos, addrs]
theorem vals_insertPos (l : List (Nat × α)) (pos : Nat) (c : Nat × α) : vals (insertPos l pos c) = argInsert (vals l) pos c.2 := by
  simp [insertPos, argInsert, vals]

/-- Removing the atom at an index below the count. -/
theorem withRemoved_core {m : Args α} {l} (i : Inv m l) {k : Nat} (hk : k < l.length) (f : Args α → Nat → Option (Args α)) :
    ∃ m1, withRemoved m k f = f m1 l[k].1 ∧ Core m1 (l.take k ++ l.drop (k + 1)) ∧ l[k].1 ∉ addrs (l.take k ++ l.drop (k + 1)) ∧
      m1.heap l[k].1 = some ⟨l[k].2, fst? (l.drop (k + 1)) none, lst? none (l.take k)⟩ ∧ m1.fresh = m.fresh ∧
      (∀ b, b ∉ addrs (l.take k ++ l.drop (k + 1)) → b ≠ l[k].1 → m1.heap b = none) ∧
      l[k].1 < m.fresh ∧ (∀ b ∈ addrs (l.take k ++ l.drop (k + 1)), b < m.fresh) := by
  have c := core_of_inv i
  have hs := split_at hk
  have c' := c
  rw [hs] at c'
  obtain ⟨m1, e1, c1, fr, ha, f1⟩ := removeAtom_core c'
  have nd := i.nd
  rw [hs] at nd
  simp only [addrs_append, addrs_cons, List.nodup_append, List.nodup_cons, List.mem_cons] at nd
  have hmem : ∀ b, b ∈ addrs l ↔ b = l[k].1 ∨ b ∈ addrs (l.take k ++ l.drop (k + 1)) := by
    intro b
    conv => lhs; rw [hs]
    simp only [addrs_append, addrs_cons, List.mem_append, List.mem_cons]
    constructor
    · rintro (h | h | h) <;> simp [h]
    · rintro (h | h | h) <;> simp [h]
  refine ⟨m1, ?_, c1, ?_, ha, fr, ?_, ?_, ?_⟩
  · unfold withRemoved
    rw [getArg_core c, List.getElem?_eq_getElem hk]
    simp only [Option.map_some, bnd, e1]
  · rw [addrs_append, List.mem_append]
    rintro (h | h)
    · exact nd.2.2 _ h _ (Or.inl rfl) rfl
    · exact nd.2.1.1 h
  · intro b hb hne
    exact f1.none (i.free b (fun h => by rcases (hmem b).mp h with h | h; exact hne h; exact hb h))
  · exact i.lt _ ((hmem _).mpr (Or.inl rfl))
  · intro b hb
    exact i.lt _ ((hmem _).mpr (Or.inr hb))

theorem withRemoved_none {m : Args α} {l} (i : Inv m l) {k : Nat} (hk : l.length ≤ k) (f : Args α → Nat → Option (Args α)) :
    withRemoved m k f = some m := by
  unfold withRemoved
  rw [getArg_core (core_of_inv i), List.getElem?_eq_none hk]
  rfl

theorem argWithout_vals (l : List (Nat × α)) (k : Nat) : vals (l.take k ++ l.drop (k + 1)) = argWithout (vals l) k := by
  simp [argWithout, vals]

theorem argStep_inv {m : Args α} {l} (i : Inv m l) (o : Args.Op α) (nn : NonNeg o) (fine : Fine (vals l) o) :
    ∃ m' l', Args.step m o = some m' ∧ Inv m' l' ∧ vals l' = argStep (vals l) o := by
  have hfree : ∀ x b, b ∉ addrs l → b ≠ (newAtom m x).2 → (newAtom m x).1.heap b = none := by
    intro x b hb hne
    show upd _ _ _ b = none
    rw [upd_ne _ _ (show b ≠ m.fresh from hne)]
    exact i.free b hb
  have hlt : ∀ b ∈ addrs l, b < m.fresh + 1 := fun b hb => by have := i.lt b hb; omega
  cases o with
  | append x =>
    obtain ⟨c, ha, e⟩ := newAtom_core i x
    obtain ⟨m', e', c', fr, f⟩ := appendAtom_core c e ha
    refine ⟨m', _, e', inv_of_core (l := l) c' ?_ (hfree x) f ?_, by simp [argStep]⟩
    · intro b hb
      rw [fr]
      simp at hb
      rcases hb with h | h
      · exact hlt b h
      · subst h; simp [newAtom]
    · intro b hb; simp; rcases hb with h | h
      · exact Or.inr h
      · exact Or.inl h
  | prepend x =>
    obtain ⟨c, ha, e⟩ := newAtom_core i x
    obtain ⟨m', e', c', fr, f⟩ := prependAtom_core c e ha
    refine ⟨m', _, e', inv_of_core (l := l) c' ?_ (hfree x) f ?_, by simp [argStep]⟩
    · intro b hb
      rw [fr]
      simp at hb
      rcases hb with h | h
      · subst h; simp [newAtom]
      · exact hlt b h
    · intro b hb; simp; exact hb
  | insert x pos near =>
    obtain ⟨c, ha, e⟩ := newAtom_core i x
    obtain ⟨p, rfl⟩ := Int.eq_ofNat_of_zero_le nn
    obtain ⟨m', e', c', fr, f⟩ := insertAtom_core c e ha p near (fun _ _ => rfl)
    refine ⟨m', _, e', inv_of_core (l := l) c' ?_ (hfree x) f ?_, by simp [argStep, vals_insertPos]⟩
    · intro b hb
      rw [fr]
      rw [addrs_insertPos, mem_insertPos] at hb
      rcases hb with h | h
      · subst h; simp [newAtom]
      · exact hlt b h
    · intro b hb; rw [addrs_insertPos, mem_insertPos]; exact hb
  | remove k =>
    by_cases hk : k < l.length
    · obtain ⟨m1, e1, c1, ha, hn, fr, free, la, lr⟩ := withRemoved_core i hk freeAtom
      refine ⟨{ m1 with heap := upd m1.heap l[k].1 none }, l.take k ++ l.drop (k + 1), ?_, ?_, argWithout_vals l k⟩
      · show withRemoved m k freeAtom = _
        rw [e1]
        simp [freeAtom, Heap.free, hn]
      · refine ⟨seg_frame (fun b hb => upd_ne _ _ (by rintro rfl; exact ha hb)) c1.seg, c1.nd, c1.head, c1.tail, c1.count, ?_, ?_⟩
        · intro b hb; show b < m1.fresh; rw [fr]; exact lr b hb
        · intro b hb
          show upd _ _ _ b = none
          by_cases h : b = l[k].1
          · rw [h, upd_same]
          · rw [upd_ne _ _ h]; exact free b hb h
    · refine ⟨m, l, withRemoved_none i (by omega) _, i, ?_⟩
      simp [argStep, argWithout, List.take_of_length_le, List.drop_of_length_le, Nat.le_of_not_lt hk,
        Nat.le_succ_of_le (Nat.le_of_not_lt hk)]
  | moveToEnd k =>
    by_cases hk : k < l.length
    · obtain ⟨m1, e1, c1, ha, hn, fr, free, la, lr⟩ := withRemoved_core i hk appendAtom
      obtain ⟨m', e', c', fr', f⟩ := appendAtom_core c1 hn ha
      refine ⟨m', _, e1.trans e', inv_of_core (l := l.take k ++ l.drop (k + 1)) c' ?_ free f ?_, ?_⟩
      · intro b hb
        rw [fr', fr]
        rw [addrs_append, List.mem_append] at hb
        rcases hb with h | h
        · exact lr b h
        · simp at h; subst h; exact la
      · intro b hb; rw [addrs_append, List.mem_append]; rcases hb with h | h
        · exact Or.inr (by simp [h])
        · exact Or.inl h
      · rw [vals_append, argWithout_vals]
        simp [argStep, vals, hk]
    · refine ⟨m, l, withRemoved_none i (by omega) _, i, ?_⟩
      simp [argStep, vals, List.getElem?_eq_none (Nat.le_of_not_lt hk)]
  | moveToFront k =>
    by_cases hk : k < l.length
    · obtain ⟨m1, e1, c1, ha, hn, fr, free, la, lr⟩ := withRemoved_core i hk prependAtom
      obtain ⟨m', e', c', fr', f⟩ := prependAtom_core c1 hn ha
      refine ⟨m', _, e1.trans e', inv_of_core (l := l.take k ++ l.drop (k + 1)) c' ?_ free f ?_, ?_⟩
      · intro b hb
        rw [fr', fr]
        rw [addrs_cons, List.mem_cons] at hb
        rcases hb with h | h
        · rw [h]; exact la
        · exact lr b h
      · intro b hb; rw [addrs_cons, List.mem_cons]; exact hb
      · rw [vals_cons, argWithout_vals]
        simp [argStep, vals, hk]
    · refine ⟨m, l, withRemoved_none i (by omega) _, i, ?_⟩
      simp [argStep, vals, List.getElem?_eq_none (Nat.le_of_not_lt hk)]
  | moveTo k pos near =>
    by_cases hk : k < l.length
    · obtain ⟨p, rfl⟩ := Int.eq_ofNat_of_zero_le nn
      obtain ⟨m1, e1, c1, ha, hn, fr, free, la, lr⟩ := withRemoved_core i hk fun m a => insertAtom m a p near
      obtain ⟨m', e', c', fr', f⟩ := insertAtom_core c1 hn ha p near (by
        intro hp _
        simp only [Fine, length_vals, Int.toNat_natCast] at fine
        have : k + 1 = l.length := by
          rcases fine with h | h | h
          · omega
          · exact h
          · simp at hp; omega
        simp [List.drop_of_length_le (Nat.le_of_eq this.symm)])
      refine ⟨m', _, e1.trans e', inv_of_core (l := l.take k ++ l.drop (k + 1)) c' ?_ free f ?_, ?_⟩
      · intro b hb
        rw [fr', fr]
        rw [addrs_insertPos, mem_insertPos] at hb
        rcases hb with h | h
        · rw [h]; exact la
        · exact lr b h
      · intro b hb; rw [addrs_insertPos, mem_insertPos]; exact hb
      · rw [vals_insertPos, argWithout_vals]
        simp [argStep, vals, hk]
    · refine ⟨m, l, withRemoved_none i (by omega) _, i, ?_⟩
      simp [argStep, vals, List.getElem?_eq_none (Nat.le_of_not_lt hk)]

theorem argRun_inv (os : List (Args.Op α)) {m : Args α} {l} (i : Inv m l) (fine : FineRun (vals l) os) :
    ∃ m' l', Args.run m os = some m' ∧ Inv m' l' ∧ vals l' = argRun (vals l) os := by
  induction os generalizing m l with
  | nil => exact ⟨m, l, rfl, i, rfl⟩
  | cons o os ih =>
    obtain ⟨m1, l1, e1, i1, v1⟩ := argStep_inv i o fine.1 fine.2.1
    obtain ⟨m2, l2, e2, i2, v2⟩ := ih i1 (v1 ▸ fine.2.2)
    refine ⟨m2, l2, ?_, i2, by rw [v2, v1]; rfl⟩
    show (Args.step m o).bind _ = _
    rw [e1]; exact e2

/-- **C20 (partial).**  After any history of edits that never puts an atom taken out of the middle back at the end with
`insertAtom`, the message shows exactly the list, and nothing dangled or leaked on the way.  Missing: the excluded reuse, for
which the claim is false (`C20_full_fails`). -/
theorem C20_edits_partial (os : List (Args.Op α)) (fine : FineRun [] os) :
    ∃ m, Args.run LL.new os = some m ∧ ShowsArgs m (argRun [] os) := by
  obtain ⟨m, l, e, i, v⟩ := argRun_inv os (inv_new (α := α)) fine
  exact ⟨m, e, v ▸ showsArgs_of_inv i⟩

/-- Edits that put in new atoms only, and free what they take out. -/
def FreshOnly : Args.Op α → Prop
  | .moveTo .. => False
  | o => NonNeg o

/-- **C20 (new atoms).**  No restriction is needed when `insertAtom` is only given new atoms. -/
theorem C20_fresh (os : List (Args.Op α)) (h : ∀ o ∈ os, FreshOnly o) :
    ∃ m, Args.run LL.new os = some m ∧ ShowsArgs m (argRun [] os) := by
  refine C20_edits_partial os ?_
  have : ∀ xs : List α, FineRun xs os := by
    induction os with
    | nil => intro xs; trivial
    | cons o os ih =>
      intro xs
      have ho := h o (by simp)
      refine ⟨?_, ?_, ih (fun o' h' => h o' (by simp [h'])) _⟩
      · cases o <;> first | exact ho | exact ho.elim
      · cases o <;> first | trivial | exact ho.elim
  exact this []

/-- **C20 fails in full**: `insertAtom` at the end leaves the atom's old `next` pointer in place.  Taking out the first of two
arguments and inserting it again at the end makes the list circular, so walking it never ends. -/
theorem C20_full_fails : ¬ C20Full Nat := by
  intro h
  obtain ⟨m, e, s⟩ := h [.append 1, .append 2, .moveTo 0 5 false] (by simp [NonNeg])
  obtain ⟨as, w, -, -, -, -⟩ := s.walks
  have e2 : (Args.run LL.new [.append 1, .append 2, .moveTo 0 5 false] : Option (Args Nat)).bind Args.iterate = none := by
    decide
  rw [e] at e2
  simp only [Option.bind_some] at e2
  rw [e2] at w
  simp at w

/-- A negative position puts the atom before the first one without making it the first: it is counted but cannot be
reached. -/
theorem C20_negative_position : ∃ m : Args Nat,
    Args.run LL.new [.append 1, .append 2, .insert 3 (-1) true] = some m ∧ m.count = 3 ∧
      (Args.iterate m).map vals = some [1, 2] := by
  refine ⟨_, rfl, ?_, ?_⟩ <;> decide

/-! A history with every kind of edit that meets the hypotheses. -/

def exArgOps : List (Args.Op Nat) :=
  [.append 1, .prepend 0, .append 2, .insert 7 1 true, .insert 8 3 false, .insert 9 100 false, .remove 0, .moveToEnd 1,
   .moveToFront 2, .moveTo 4 2 true, .moveTo 0 3 false, .moveTo 4 9 true, .remove 17]

example : argRun [] exArgOps = [7, 1, 8, 2, 9] := by decide
example : FineRun [] exArgOps := by simp [FineRun, exArgOps, Fine, NonNeg, argStep, argInsert, argWithout]
example : ∃ m, Args.run LL.new exArgOps = some m ∧ ShowsArgs m (argRun [] exArgOps) :=
  C20_edits_partial exArgOps (by simp [FineRun, exArgOps, Fine, NonNeg, argStep, argInsert, argWithout])

end Libo.Props
