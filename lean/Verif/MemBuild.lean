import Verif.MemLay
import Verif.ExprListLemmas
/-!
# What the programs that build atoms, messages and bundles leave in memory
-/

namespace Libo.Mem
open Libo

/-! ### Running programs -/

theorem bind_run {α β : Type} (x : M α) (f : α → M β) (m : Memory) : (x >>= f) m = (x m).bind fun r => f r.1 r.2 := rfl
theorem pure_run {α : Type} (x : α) (m : Memory) : (pure x : M α) m = some (x, m) := rfl
theorem fuel_run (m : Memory) : fuel m = some (3 * m.brk + 3, m) := rfl
theorem ofOpt_run {α : Type} {o : Option α} {x : α} (h : o = some x) (m : Memory) : ofOpt o m = some (x, m) := by subst h; rfl

theorem seq_run {α β : Type} {x : M α} {f : α → M β} {m m' : Memory} {a : α} (h : x m = some (a, m')) :
    (x >>= f) m = f a m' := by rw [bind_run, h]; rfl

theorem atomAt_run {m : Memory} {p : Nat} {c : ACell} (h : m.cell p = some (.atom c)) : atomAt p m = some (c, m) := by
  simp [atomAt, bind_run, readCell, h, pure_run]
theorem msgAt_run {m : Memory} {p : Nat} {c : MCell} (h : m.cell p = some (.msg c)) : msgAt p m = some (c, m) := by
  simp [msgAt, bind_run, readCell, h, pure_run]
theorem bndlAt_run {m : Memory} {p : Nat} {c : BCell} (h : m.cell p = some (.bndl c)) : bndlAt p m = some (c, m) := by
  simp [bndlAt, bind_run, readCell, h, pure_run]
theorem bufAt_run {m : Memory} {p : Nat} {c : Bytes} (h : m.cell p = some (.buf c)) : bufAt p m = some (c, m) := by
  simp [bufAt, bind_run, readCell, h, pure_run]
theorem arrAt_run {m : Memory} {p : Nat} {c : List Nat} (h : m.cell p = some (.arr c)) : arrAt p m = some (c, m) := by
  simp [arrAt, bind_run, readCell, h, pure_run]
theorem setAtom_run {m : Memory} {p : Nat} {c : ACell} (f : ACell → ACell) (h : m.cell p = some (.atom c)) :
    setAtom p f m = some ((), m.set p (some (.atom (f c)))) := by
  rw [setAtom, seq_run (atomAt_run h)]; simp [setCell, h]
theorem setMsg_run {m : Memory} {p : Nat} {c : MCell} (f : MCell → MCell) (h : m.cell p = some (.msg c)) :
    setMsg p f m = some ((), m.set p (some (.msg (f c)))) := by
  rw [setMsg, seq_run (msgAt_run h)]; simp [setCell, h]
theorem setBndl_run {m : Memory} {p : Nat} {c : BCell} (f : BCell → BCell) (h : m.cell p = some (.bndl c)) :
    setBndl p f m = some ((), m.set p (some (.bndl (f c)))) := by
  rw [setBndl, seq_run (bndlAt_run h)]; simp [setCell, h]
theorem strAt_run {m : Memory} {p : Nat} {s k : Bytes} (h : m.cell p = some (.buf (s ++ 0 :: k))) (h0 : (0 : UInt8) ∉ s) :
    strAt p m = some (s, m) := by
  rw [strAt, seq_run (bufAt_run h), ofOpt_run (cstr_buf s k h0)]
theorem free_run {m : Memory} {p : Nat} {c : Cell} (h : m.cell p = some c) : free p m = some ((), m.set p none) := by
  simp [free, h]

theorem set_cell (m : Memory) (p b : Nat) (c : Option Cell) : (m.set p c).cell b = if b = p then c else m.cell b := rfl
theorem set_self (m : Memory) (p : Nat) (c : Option Cell) : (m.set p c).cell p = c := by simp [set_cell]
theorem set_ne (m : Memory) {p b : Nat} (c : Option Cell) (h : b ≠ p) : (m.set p c).cell b = m.cell b := by simp [set_cell, h]
theorem set_brk (m : Memory) (p : Nat) (c : Option Cell) : (m.set p c).brk = m.brk := rfl

/-- No block was ever given out from `brk` on. -/
def WF (m : Memory) : Prop := ∀ b, m.brk ≤ b → m.cell b = none

theorem WF.lt {m : Memory} (h : WF m) {b : Nat} (hb : (m.cell b).isSome) : b < m.brk := by
  rcases Nat.lt_or_ge b m.brk with h1 | h1
  · exact h1
  · rw [h b h1] at hb; cases hb

/-- The memory after an allocation. -/
def Memory.grow (m : Memory) (c : Cell) : Memory := { (m.set m.brk (some c)) with brk := m.brk + 1 }

theorem new_run (m : Memory) (c : Cell) : new c m = some (m.brk, m.grow c) := rfl
theorem grow_cell (m : Memory) (c : Cell) (b : Nat) : (m.grow c).cell b = if b = m.brk then some c else m.cell b := rfl
theorem grow_self (m : Memory) (c : Cell) : (m.grow c).cell m.brk = some c := by simp [grow_cell]
theorem grow_brk (m : Memory) (c : Cell) : (m.grow c).brk = m.brk + 1 := rfl

/-- From `m` to `m'` only blocks of `S` and new ones have changed, and none is freed. -/
structure Step (S : List Nat) (m m' : Memory) : Prop where
  brk : m.brk ≤ m'.brk
  wf : WF m'
  same : ∀ b, b < m.brk → b ∉ S → m'.cell b = m.cell b

theorem Step.refl {m : Memory} (h : WF m) (S : List Nat) : Step S m m := ⟨Nat.le_refl _, h, fun _ _ _ => rfl⟩

theorem Step.trans {S T : List Nat} {m m' m'' : Memory} (h : Step S m m') (k : Step T m' m'')
    (hT : ∀ b ∈ T, b ∈ S ∨ m.brk ≤ b) : Step S m m'' where
  brk := Nat.le_trans h.brk k.brk
  wf := k.wf
  same := fun b hb hS => by
    rw [k.same b (Nat.lt_of_lt_of_le hb h.brk) (fun hbT => by
      rcases hT b hbT with h1 | h1
      · exact hS h1
      · omega), h.same b hb hS]

theorem step_grow {m : Memory} (h : WF m) (c : Cell) (S : List Nat) : Step S m (m.grow c) where
  brk := by rw [grow_brk]; omega
  wf := fun b hb => by
    rw [grow_brk] at hb
    rw [grow_cell, if_neg (by omega), h b (by omega)]
  same := fun b hb _ => by rw [grow_cell, if_neg (by omega)]

theorem step_set {m : Memory} (h : WF m) (p : Nat) (c : Option Cell) (hp : p < m.brk) : Step [p] m (m.set p c) where
  brk := Nat.le_refl _
  wf := fun b hb => by
    rw [set_brk] at hb
    rw [set_ne _ _ (by omega), h b hb]
  same := fun b _ hS => set_ne _ _ (by simpa using hS)

theorem Step.mono {S T : List Nat} {m m' : Memory} (h : Step S m m') (hs : ∀ b ∈ S, b ∈ T) : Step T m m' :=
  ⟨h.brk, h.wf, fun b hb hT => h.same b hb fun hS => hT (hs b hS)⟩

/-- Blocks outside `S` are as before; a layout away from `S` is still there. -/
theorem Step.layMsgs {S : List Nat} {m m' : Memory} (h : Step S m m') (wf : WF m) {prev q : Ptr} {ms : List LMsg}
    (l : LayMsgs m prev q ms) (hd : ∀ x ∈ footMs ms, x ∉ S) : LayMsgs m' prev q ms :=
  layMsgs_frame prev q ms (fun x hx => h.same x (wf.lt (layMsgs_alloc _ _ _ l x hx)) (hd x hx)) l

theorem Step.layW {S : List Nat} {m m' : Memory} (h : Step S m m') (wf : WF m) {t : UInt8} {w : LW}
    (l : LayW m t w) (hd : ∀ x ∈ w.foot, x ∉ S) : LayW m' t w :=
  layW_frame w (fun x hx => h.same x (wf.lt (layW_alloc _ l x hx)) (hd x hx)) l

/-! ### Adding an atom to a message -/

theorem set_set (m : Memory) (p : Nat) (c d : Option Cell) : (m.set p c).set p d = m.set p d := by
  simp only [Memory.set, Memory.mk.injEq, and_true]
  funext b; split <;> rfl

theorem set_comm (m : Memory) {p q : Nat} (h : p ≠ q) (c d : Option Cell) : (m.set p c).set q d = (m.set q d).set p c := by
  simp only [Memory.set, Memory.mk.injEq, and_true]
  funext b; by_cases h1 : b = q <;> by_cases h2 : b = p <;> simp_all

theorem cell_ne {m : Memory} {p q : Nat} {c d : Cell} (h : m.cell p = some c) (k : m.cell q = some d) (e : c ≠ d) : p ≠ q := by
  rintro rfl; rw [h] at k; injection k with k; exact e k

theorem appendAtom_nil {m : Memory} {p a : Nat} {c : MCell} {x : ACell} (hp : m.cell p = some (.msg c)) (ha : m.cell a = some (.atom x))
    (hn : c.head = none) : appendAtom p a m = some ((),
      (m.set a (some (.atom { x with next := none, prev := none }))).set p
        (some (.msg { c with argc := c.argc + 1, head := some a, tail := some a }))) := by
  have hne : p ≠ a := cell_ne hp ha (by simp)
  obtain ⟨ad, n, hd, tl, nx, pv⟩ := c
  simp only at hn; subst hn
  rw [appendAtom, seq_run (setMsg_run _ hp), seq_run (msgAt_run (set_self _ _ _))]
  simp only
  rw [seq_run (setAtom_run (c := x) _ (by rw [set_ne _ _ hne.symm, ha])),
    setMsg_run (c := ⟨ad, n + 1, none, tl, nx, pv⟩) _ (by rw [set_ne _ _ hne, set_self]), set_comm _ hne, set_set]

theorem appendAtom_cons {m : Memory} {p a t h : Nat} {c : MCell} {x y : ACell} (hp : m.cell p = some (.msg c))
    (ha : m.cell a = some (.atom x)) (hh : c.head = some h) (ht : c.tail = some t) (hy : m.cell t = some (.atom y)) (hta : t ≠ a) :
    appendAtom p a m = some ((),
      ((m.set t (some (.atom { y with next := some a }))).set a (some (.atom { x with next := none, prev := some t }))).set p
        (some (.msg { c with argc := c.argc + 1, tail := some a }))) := by
  have hne : p ≠ a := cell_ne hp ha (by simp)
  have hpt : p ≠ t := cell_ne hp hy (by simp)
  obtain ⟨ad, n, hd, tl, nx, pv⟩ := c
  simp only at hh ht; subst hh ht
  rw [appendAtom, seq_run (setMsg_run _ hp), seq_run (msgAt_run (set_self _ _ _))]
  simp only [deref]
  rw [seq_run (ofOpt_run (x := t) rfl _), seq_run (setAtom_run (c := y) _ (by rw [set_ne _ _ hpt.symm, hy])),
    seq_run (setAtom_run (c := x) _ (by rw [set_ne _ _ hta.symm, set_ne _ _ hne.symm, ha])),
    setMsg_run (c := ⟨ad, n + 1, some h, some t, nx, pv⟩) _ (by rw [set_ne _ _ hne, set_ne _ _ hpt, set_self]),
    set_comm _ hpt, set_comm _ hne, set_set]

theorem hdA_some (as : List LAtom) (h : as ≠ []) : ∃ p, ∀ q, hdA q as = some p := by
  cases as with
  | nil => exact absurd rfl h
  | cons a as => exact ⟨a.p, fun _ => rfl⟩

/-- Appending an atom to a message. -/
theorem appendAtom_lay {m : Memory} {p a : Nat} {addr : Option (Nat × Bytes × Bytes)} {args : List LAtom} {prev q : Ptr} {x : ACell}
    {w : LW} (l : LayMsgs m prev q [.mk p addr args]) (ha : m.cell a = some (.atom x)) (hw : x.w = w.word) (lw : LayW m x.tag w)
    (nd : (footMs [.mk p addr args] ++ a :: w.foot).Nodup) :
    ∃ m', appendAtom p a m = some ((), m') ∧ m'.brk = m.brk ∧ LayMsgs m' prev q [.mk p addr (args ++ [.mk a x.tag x.alloc w])] ∧
      ∀ b, b ∉ p :: footAs args → b ≠ a → m'.cell b = m.cell b := by
  simp only [LayMsgs, and_true] at l
  obtain ⟨l1, l2, l3⟩ := l
  simp only [footMs, List.append_nil] at nd
  rcases List.eq_nil_or_concat args with rfl | ⟨init, last, rfl⟩
  · refine ⟨_, appendAtom_nil l1 ha rfl, rfl, ?_, fun b h1 h2 => ?_⟩
    · simp only [LayMsgs, List.nil_append, LayArgs, and_true]
      refine ⟨by rw [set_self]; simp [ltA, hdA, LAtom.p], ?_, ?_, ?_⟩
      · exact layAddr_frame (fun b hb => by
          rw [set_ne _ _ (by grind), set_ne _ _ (by grind)]) l2
      · rw [set_ne _ _ (by grind), set_self]; simp [hw, hdA]
      · exact layW_frame w (fun b hb => by
          rw [set_ne _ _ (by grind), set_ne _ _ (by grind)]) lw
    · simp only [List.mem_cons, not_or] at h1
      rw [set_ne _ _ h1.1, set_ne _ _ h2]
  · obtain ⟨t, tt, tal, tw⟩ := last
    rw [List.concat_eq_append] at *
    rw [layArgs_append] at l3
    simp only [LayArgs, and_true, hdA_cons] at l3
    obtain ⟨l3, l4, l5⟩ := l3
    simp only [footAs_append, footAs, List.append_nil] at nd
    obtain ⟨h, hh⟩ := hdA_some (init ++ [.mk t tt tal tw]) (by simp)
    have hta : t ≠ a := by grind
    refine ⟨_, appendAtom_cons l1 ha (hh none) (by rw [ltA_append]; rfl) l4 hta, rfl, ?_, fun b h1 h2 => ?_⟩
    · simp only [LayMsgs, and_true]
      refine ⟨?_, ?_, ?_⟩
      · rw [set_self]
        rw [hdA_append _ (init ++ _), hh, hh]
        simp [ltA_append, ltA, LAtom.p]
        omega
      · exact layAddr_frame (fun b hb => by
          rw [set_ne _ _ (by grind), set_ne _ _ (by grind), set_ne _ _ (by grind)]) l2
      · rw [layArgs_append, layArgs_append]
        simp only [LayArgs, and_true, hdA_cons, ltA_append, ltA, LAtom.p]
        refine ⟨⟨?_, ?_, ?_⟩, ?_, ?_⟩
        · exact layArgs_frame _ _ _ (fun b hb => by
            rw [set_ne _ _ (by grind), set_ne _ _ (by grind), set_ne _ _ (by grind)]) l3
        · rw [set_ne _ _ (by grind), set_ne _ _ hta, set_self]; simp [hdA]
        · exact layW_frame tw (fun b hb => by
            rw [set_ne _ _ (by grind), set_ne _ _ (by grind), set_ne _ _ (by grind)]) l5
        · rw [set_ne _ _ (by grind), set_self]; simp [hw, hdA]
        · exact layW_frame w (fun b hb => by
            rw [set_ne _ _ (by grind), set_ne _ _ (by grind), set_ne _ _ (by grind)]) lw
    · simp only [footAs_append, footAs, List.mem_cons, List.mem_append, not_or] at h1
      rw [set_ne _ _ h1.1, set_ne _ _ h2, set_ne _ _ h1.2.2.1]

/-! ### Adding a message to a bundle -/

theorem addMsg_nil {m : Memory} {b p : Nat} {c : BCell} {x : MCell} (hb : m.cell b = some (.bndl c)) (hp : m.cell p = some (.msg x))
    (hn : c.head = none) : addMsg b p m = some ((),
      (m.set b (some (.bndl ⟨c.count + 1, some p, none⟩))).set p (some (.msg { x with next := none, prev := none }))) := by
  have hne : b ≠ p := cell_ne hb hp (by simp)
  obtain ⟨n, hd, tl⟩ := c
  simp only at hn; subst hn
  rw [addMsg, seq_run (setBndl_run _ hb), seq_run (bndlAt_run (set_self _ _ _))]
  simp only
  rw [seq_run (setBndl_run _ (set_self _ _ _)), set_set, setMsg_run (c := x) _ (by rw [set_ne _ _ hne.symm, hp])]

theorem addMsg_one {m : Memory} {b p h : Nat} {c : BCell} {x y : MCell} (hb : m.cell b = some (.bndl c)) (hp : m.cell p = some (.msg x))
    (hh : c.head = some h) (ht : c.tail = none) (hy : m.cell h = some (.msg y)) (hhp : h ≠ p) : addMsg b p m = some ((),
      ((m.set h (some (.msg { y with next := some p }))).set p (some (.msg { x with prev := some h, next := none }))).set b
        (some (.bndl ⟨c.count + 1, some h, some p⟩))) := by
  have hne : b ≠ p := cell_ne hb hp (by simp)
  have hbh : b ≠ h := cell_ne hb hy (by simp)
  obtain ⟨n, hd, tl⟩ := c
  simp only at hh ht; subst hh ht
  rw [addMsg, seq_run (setBndl_run _ hb), seq_run (bndlAt_run (set_self _ _ _))]
  simp only
  rw [seq_run (setMsg_run (c := y) _ (by rw [set_ne _ _ hbh.symm, hy])),
    seq_run (setMsg_run (c := x) _ (by rw [set_ne _ _ hhp.symm, set_ne _ _ hne.symm, hp])),
    setBndl_run (c := ⟨n + 1, some h, none⟩) _ (by rw [set_ne _ _ hne, set_ne _ _ hbh, set_self]),
    set_comm _ hbh, set_comm _ hne, set_set]

theorem addMsg_many {m : Memory} {b p h t : Nat} {c : BCell} {x y : MCell} (hb : m.cell b = some (.bndl c)) (hp : m.cell p = some (.msg x))
    (hh : c.head = some h) (ht : c.tail = some t) (hy : m.cell t = some (.msg y)) (htp : t ≠ p) : addMsg b p m = some ((),
      ((m.set t (some (.msg { y with next := some p }))).set p (some (.msg { x with prev := some t, next := none }))).set b
        (some (.bndl ⟨c.count + 1, some h, some p⟩))) := by
  have hne : b ≠ p := cell_ne hb hp (by simp)
  have hbt : b ≠ t := cell_ne hb hy (by simp)
  obtain ⟨n, hd, tl⟩ := c
  simp only at hh ht; subst hh ht
  rw [addMsg, seq_run (setBndl_run _ hb), seq_run (bndlAt_run (set_self _ _ _))]
  simp only
  rw [seq_run (setMsg_run (c := x) _ (by rw [set_ne _ _ hne.symm, hp])),
    seq_run (setMsg_run (c := y) _ (by rw [set_ne _ _ htp, set_ne _ _ hbt.symm, hy])),
    setBndl_run (c := ⟨n + 1, some h, some t⟩) _ (by rw [set_ne _ _ hbt, set_ne _ _ hne, set_self]),
    set_comm _ hne, set_comm _ hbt, set_set, set_comm _ htp.symm]

theorem hdM_some (ms : List LMsg) (h : ms ≠ []) : ∃ p, ∀ q, hdM q ms = some p := by
  cases ms with
  | nil => exact absurd rfl h
  | cons a as => exact ⟨a.p, fun _ => rfl⟩

theorem dist6 {b t p : Nat} {I A1 A2 B1 B2 : List Nat} (nd : (b :: (I ++ t :: (A1 ++ A2)) ++ p :: (B1 ++ B2)).Nodup) :
    (t ≠ p ∧ b ≠ p ∧ b ≠ t) ∧ (∀ x ∈ I, x ≠ b ∧ x ≠ p ∧ x ≠ t) ∧ (∀ x ∈ A1, x ≠ b ∧ x ≠ p ∧ x ≠ t) ∧ (∀ x ∈ A2, x ≠ b ∧ x ≠ p ∧ x ≠ t) ∧
    (∀ x ∈ B1, x ≠ b ∧ x ≠ p ∧ x ≠ t) ∧ (∀ x ∈ B2, x ≠ b ∧ x ≠ p ∧ x ≠ t) := by
  simp only [List.cons_append, List.append_assoc, List.nodup_cons, List.nodup_append, List.mem_append, List.mem_cons, not_or] at nd
  obtain ⟨⟨n1, n2, n3, n4, n5, n6, n7⟩, n8, ⟨⟨m1, m2, m3, m4, m5⟩, m6⟩, m7⟩ := nd
  refine ⟨⟨m3, n5, n2⟩, fun x hx => ⟨?_, ?_, ?_⟩, fun x hx => ⟨?_, ?_, ?_⟩, fun x hx => ⟨?_, ?_, ?_⟩, fun x hx => ⟨?_, ?_, ?_⟩, fun x hx => ⟨?_, ?_, ?_⟩⟩
  all_goals grind

/-- Adding a message to a bundle. -/
theorem addMsg_lay {m : Memory} {b p : Nat} {tail : Ptr} {ms : List LMsg} {addr : Option (Nat × Bytes × Bytes)} {args : List LAtom}
    {prev q : Ptr} (lb : LayW m 46 (.bndl b tail ms)) (l : LayMsgs m prev q [.mk p addr args])
    (nd : (b :: footMs ms ++ footMs [.mk p addr args]).Nodup) :
    ∃ m' tail', addMsg b p m = some ((), m') ∧ m'.brk = m.brk ∧ LayW m' 46 (.bndl b tail' (ms ++ [.mk p addr args])) ∧
      ∀ c, c ∉ b :: footMs ms → c ≠ p → m'.cell c = m.cell c := by
  simp only [LayMsgs, and_true] at l
  obtain ⟨l1, l2, l3⟩ := l
  simp only [LayW, true_and] at lb
  obtain ⟨b1, b2, b3⟩ := lb
  simp only [footMs, List.append_nil] at nd
  rcases List.eq_nil_or_concat ms with rfl | ⟨init, last, rfl⟩
  · refine ⟨_, none, addMsg_nil b1 l1 rfl, rfl, ?_, fun c h1 h2 => ?_⟩
    · simp only [LayW, LayMsgs, List.nil_append, and_true, true_and]
      refine ⟨?_, Or.inr (by simp), ?_, ?_, ?_⟩
      · rw [set_ne _ _ (by grind), set_self]; simp [hdM, LMsg.p]
      · rw [set_self]; simp [hdM]
      · exact layAddr_frame (fun c hc => by rw [set_ne _ _ (by grind), set_ne _ _ (by grind)]) l2
      · exact layArgs_frame _ _ _ (fun c hc => by rw [set_ne _ _ (by grind), set_ne _ _ (by grind)]) l3
    · rw [set_ne _ _ h2, set_ne _ _ (by grind)]
  · obtain ⟨t, ta, targs⟩ := last
    rw [List.concat_eq_append] at *
    rw [layMsgs_append] at b3
    simp only [LayMsgs, and_true, hdM_cons] at b3
    obtain ⟨b3, b4, b5, b6⟩ := b3
    simp only [footMs_append, footMs, List.append_nil] at nd
    obtain ⟨h, hh⟩ := hdM_some (init ++ [.mk t ta targs]) (by simp)
    obtain ⟨⟨htp, hbp, hbt⟩, d0, d1, d2, d3, d4⟩ := dist6 nd
    have key : addMsg b p m = some ((),
      ((m.set t (some (.msg ⟨ta.map (·.1), targs.length, hdA none targs, ltA none targs, some p, ltM none init⟩))).set p
        (some (.msg ⟨addr.map (·.1), args.length, hdA none args, ltA none args, none, some t⟩))).set b
        (some (.bndl ⟨((init ++ [LMsg.mk t ta targs]).length : Int) + 1, some h, some p⟩))) := by
      rcases b2 with b2 | ⟨b2, b2'⟩
      · have b2 : tail = some t := by rw [b2, ltM_append]; rfl
        rw [addMsg_many b1 l1 (hh none) b2 b4 htp]
      · have hi : init = [] := by
          cases init with
          | nil => rfl
          | cons x y => simp at b2
        subst hi
        have : h = t := by
          have := hh none
          simp [hdM, LMsg.p] at this
          exact this.symm
        subst this
        rw [addMsg_one b1 l1 (hh none) b2' b4 htp]
    refine ⟨_, some p, key, rfl, ?_, fun c h1 h2 => ?_⟩
    · simp only [LayW, true_and]
      refine ⟨?_, Or.inl ?_, ?_⟩
      · rw [set_self, hdM_append _ (init ++ _), hh]
        simp
        omega
      · simp [ltM_append, ltM, LMsg.p]
      · rw [layMsgs_append, layMsgs_append]
        simp only [LayMsgs, and_true, hdM_cons, ltM_append, ltM, LMsg.p]
        refine ⟨⟨?_, ?_, ?_, ?_⟩, ?_, ?_, ?_⟩
        · exact layMsgs_frame _ _ _ (fun x hx => by
            have d := d0 x hx
            rw [set_ne _ _ d.1, set_ne _ _ d.2.1, set_ne _ _ d.2.2]) b3
        · rw [set_ne _ _ hbt.symm, set_ne _ _ htp, set_self]; simp [hdM]
        · exact layAddr_frame (fun x hx => by
            have d := d1 x hx
            rw [set_ne _ _ d.1, set_ne _ _ d.2.1, set_ne _ _ d.2.2]) b5
        · exact layArgs_frame _ _ _ (fun x hx => by
            have d := d2 x hx
            rw [set_ne _ _ d.1, set_ne _ _ d.2.1, set_ne _ _ d.2.2]) b6
        · rw [set_ne _ _ hbp.symm, set_self]; simp [hdM]
        · exact layAddr_frame (fun x hx => by
            have d := d3 x hx
            rw [set_ne _ _ d.1, set_ne _ _ d.2.1, set_ne _ _ d.2.2]) l2
        · exact layArgs_frame _ _ _ (fun x hx => by
            have d := d4 x hx
            rw [set_ne _ _ d.1, set_ne _ _ d.2.1, set_ne _ _ d.2.2]) l3
    · simp only [footMs_append, footMs, List.mem_cons, List.mem_append, not_or] at h1
      rw [set_ne _ _ h1.1, set_ne _ _ h2, set_ne _ _ h1.2.2.1]

/-! ### Building what the deserialiser found -/

theorem step_same {S : List Nat} {m m' : Memory} (wf : WF m) (hb : m'.brk = m.brk) (hS : ∀ b ∈ S, b < m.brk)
    (h : ∀ b, b ∉ S → m'.cell b = m.cell b) : Step S m m' where
  brk := by omega
  wf := fun b hb' => by
    rw [h b (fun hS' => by have := hS b hS'; omega), wf b (by omega)]
  same := fun b _ hS' => h b hS'

/-- An atom type without pointer. -/
theorem val_plain {t : UInt8} {al : Bool} {w : W} (h1 : t ≠ 115) (h2 : t ≠ 98) (h3 : t ≠ 46) :
    (UAtom.mk t al w).val = (UAtom.mk t al (.bits w.raw)).val := by
  cases w <;> simp [UAtom.val, W.raw, h1, h2, h3]

theorem argsVal_append (as bs : List UAtom) (vs ws : List Val) (h : argsVal as = some vs) (k : argsVal bs = some ws) :
    argsVal (as ++ bs) = some (vs ++ ws) := by
  induction as generalizing vs with
  | nil => simp only [argsVal, Option.some.injEq] at h; subst h; exact k
  | cons a as ih =>
    simp only [argsVal, Option.bind_eq_some_iff, Option.map_eq_some_iff] at h
    obtain ⟨v, h1, vs', h2, rfl⟩ := h
    simp [argsVal, h1, ih vs' h2]

mutual
theorem buildW_lay {m : Memory} (wf : WF m) (t : UInt8) (al : Bool) : ∀ (w : W) (v : Val), (UAtom.mk t al w).val = some v → GoodVal v →
    ∃ lw m', buildW t w m = some (lw.word, m') ∧ LayW m' t lw ∧ lw.foot.Nodup ∧ (∀ b ∈ lw.foot, m.brk ≤ b) ∧ Step [] m m' ∧
      (UAtom.mk t al lw.toW).val = some v ∧ lw.foot.length + m.brk = m'.brk
  | .bits b, v, hv, _ => by
    refine ⟨.plain (.bits b), m, by rw [buildW]; rfl, ?_, by simp [LW.foot], by simp [LW.foot], Step.refl wf _, by simpa [LW.toW] using hv, by simp [LW.foot]⟩
    simp only [LayW]
    rintro (rfl | rfl | rfl) <;> simp [UAtom.val] at hv
  | .str p s, v, hv, hg => by
    rw [buildW]
    by_cases ht : t = 115
    · subst ht
      rw [if_pos rfl, seq_run (new_run _ _), pure_run]
      have e : v = .str s := by simpa [UAtom.val] using hv.symm
      subst e
      refine ⟨.str m.brk s [], m.grow (.buf (s ++ [0])), rfl, ?_, by simp [LW.foot], by simp [LW.foot], step_grow wf _ _,
        by simp [LW.toW, UAtom.val], by simp [LW.foot, grow_brk]; omega⟩
      simp only [LayW, true_and]
      exact ⟨grow_self _ _, hg⟩
    · rw [if_neg ht, pure_run]
      have h2 : t ≠ 98 := by rintro rfl; simp [UAtom.val] at hv
      have h3 : t ≠ 46 := by rintro rfl; simp [UAtom.val] at hv
      refine ⟨.plain (.bits p), m, rfl, ?_, by simp [LW.foot], by simp [LW.foot], Step.refl wf _, ?_, by simp [LW.foot]⟩
      · simp only [LayW]; intro h; rcases h with h | h | h <;> contradiction
      · rw [val_plain ht h2 h3] at hv; simpa [LW.toW, W.raw] using hv
  | .blob p s, v, hv, hg => by
    rw [buildW]
    by_cases ht : t = 98
    · subst ht
      rw [if_pos rfl, seq_run (new_run _ _), pure_run]
      refine ⟨.blob m.brk s, m.grow (.buf s), rfl, ?_, by simp [LW.foot], by simp [LW.foot], step_grow wf _ _, ?_,
        by simp [LW.foot, grow_brk]; omega⟩
      · simp only [LayW, true_and]; exact grow_self _ _
      · rw [← hv]; simp [LW.toW, UAtom.val]
    · rw [if_neg ht, pure_run]
      have h2 : t ≠ 115 := by rintro rfl; simp [UAtom.val] at hv
      have h3 : t ≠ 46 := by rintro rfl; simp [UAtom.val] at hv
      refine ⟨.plain (.bits p), m, rfl, ?_, by simp [LW.foot], by simp [LW.foot], Step.refl wf _, ?_, by simp [LW.foot]⟩
      · simp only [LayW]; intro h; rcases h with h | h | h <;> contradiction
      · rw [val_plain h2 ht h3] at hv; simpa [LW.toW, W.raw] using hv
  | .bndl p ms, v, hv, hg => by
    rw [buildW]
    by_cases ht : t = 46
    · subst ht
      rw [if_pos rfl, bndlAlloc, seq_run (new_run _ _)]
      obtain ⟨vs, hvs, rfl⟩ : ∃ vs, msgsVal ms = some vs ∧ v = .bndl vs := by
        simp [UAtom.val] at hv
        obtain ⟨vs, h1, h2⟩ := hv
        exact ⟨vs, h1, h2.symm⟩
      simp only [GoodVal] at hg
      have st := step_grow wf (.bndl ⟨0, none, none⟩) []
      obtain ⟨tail', ms', m', h1, h2, h3, h4, h5, h6, h7⟩ := buildMsgs_lay st.wf m.brk none [] (by
          simp only [LayW, LayMsgs, true_and, and_true]
          exact ⟨grow_self _ _, Or.inl rfl⟩) (by simp [LW.foot, footMs]) ms vs hvs hg
      rw [seq_run h1, pure_run]
      refine ⟨.bndl m.brk tail' ms', m', rfl, h2, h3, ?_, st.trans h5 ?_, by simp [LW.toW, UAtom.val, h6], ?_⟩
      · intro b hb
        simp only [LW.foot, List.mem_cons] at hb
        rcases hb with rfl | hb
        · exact Nat.le_refl _
        · have := h4 b hb; rw [grow_brk] at this; omega
      · simp [LW.foot, footMs]
      · rw [grow_brk] at h7; simp only [LW.foot, List.length_cons]; omega
    · rw [if_neg ht, pure_run]
      have h2 : t ≠ 98 := by rintro rfl; simp [UAtom.val] at hv
      have h3 : t ≠ 115 := by rintro rfl; simp [UAtom.val] at hv
      refine ⟨.plain (.bits p), m, rfl, ?_, by simp [LW.foot], by simp [LW.foot], Step.refl wf _, ?_, by simp [LW.foot]⟩
      · simp only [LayW]; intro h; rcases h with h | h | h <;> contradiction
      · rw [val_plain h3 h2 ht] at hv; simpa [LW.toW, W.raw] using hv
theorem buildArgs_lay {m : Memory} (wf : WF m) (p : Nat) (addr : Option (Nat × Bytes × Bytes)) (args : List LAtom) (prev q : Ptr)
    (l : LayMsgs m prev q [.mk p addr args]) (nd : (footMs [.mk p addr args]).Nodup) : ∀ (us : List UAtom) (vs : List Val),
    argsVal us = some vs → GoodVals vs → ∃ args' m', buildArgs p us m = some ((), m') ∧
      LayMsgs m' prev q [.mk p addr (args ++ args')] ∧ (footMs [.mk p addr (args ++ args')]).Nodup ∧
      (∀ b ∈ footAs args', m.brk ≤ b) ∧ Step (footMs [.mk p addr args]) m m' ∧ argsVal (toAs args') = some vs ∧
      (footAs args').length + m.brk = m'.brk
  | [], vs, hv, _ => ⟨[], m, by rw [buildArgs]; rfl, by simpa using l, by simpa using nd, by simp [footAs], Step.refl wf _, by
      simpa [toAs] using hv, by simp [footAs]⟩
  | .mk t al w :: us, vs, hv, hg => by
    simp only [argsVal, Option.bind_eq_some_iff, Option.map_eq_some_iff] at hv
    obtain ⟨v, hv1, vs', hv2, rfl⟩ := hv
    simp only [GoodVals] at hg
    rw [buildArgs, atomAlloc, seq_run (new_run _ _)]
    have st1 := step_grow wf (.atom ⟨0, false, .bits 0, none, none⟩) []
    obtain ⟨lw, m2, w1, w2, w3, w4, st2, w6, w7⟩ := buildW_lay st1.wf t al w v hv1 hg.1
    rw [seq_run w1]
    rw [grow_brk] at w4 w7
    have hold : ∀ b ∈ footMs [LMsg.mk p addr args], b < m.brk := fun b hb => wf.lt (layMsgs_alloc _ _ _ l b hb)
    have ha2 : m2.cell m.brk = some (.atom ⟨0, false, .bits 0, none, none⟩) := by
      rw [st2.same _ (by rw [grow_brk]; omega) (by simp), grow_self]
    have hbrk2 : m.brk < m2.brk := by have := st2.brk; rw [grow_brk] at this; omega
    rw [seq_run (setAtom_run _ ha2)]
    have st3 := step_set st2.wf m.brk (some (.atom ⟨t, al, lw.word, none, none⟩)) hbrk2
    have st123 : Step [] m _ := (st1.trans st2 (by simp)).trans st3 (by simp)
    have l3 := st123.layMsgs wf l (by simp)
    have lw3 := st3.layW st2.wf w2 (fun x hx => by have := w4 x hx; simp; omega)
    have nd3 : (footMs [.mk p addr args] ++ m.brk :: lw.foot).Nodup := by
      rw [List.nodup_append, List.nodup_cons]
      refine ⟨nd, ⟨fun h => by have := w4 _ h; omega, w3⟩, fun a ha b hb => ?_⟩
      have := hold a ha
      rcases List.mem_cons.mp hb with rfl | hb
      · omega
      · have := w4 b hb; omega
    obtain ⟨m4, a1, a2, a3, a4⟩ := appendAtom_lay l3 (set_self _ _ _) rfl lw3 nd3
    rw [seq_run a1]
    simp only [] at a3
    have st4 : Step (footMs [.mk p addr args] ++ [m.brk]) _ m4 := step_same st3.wf a2 (fun b hb => by
        rw [set_brk]
        rcases List.mem_append.mp hb with hb | hb
        · have := hold b hb; omega
        · simp at hb; omega) (fun b hb => a4 b (by
          simp only [footMs, List.append_nil, List.mem_append, List.mem_cons, not_or] at hb ⊢
          exact ⟨hb.1.1, hb.1.2.2⟩) (by simp at hb; exact hb.2))
    have e4 : footMs [.mk p addr (args ++ [.mk m.brk t al lw])] = footMs [.mk p addr args] ++ m.brk :: lw.foot := by
      simp [footMs, footAs_append, footAs]
    obtain ⟨args', m5, r1, r2, r3, r4, st5, r6, r7⟩ := buildArgs_lay st4.wf p addr (args ++ [.mk m.brk t al lw]) prev q a3
      (by rw [e4]; exact nd3) us vs' hv2 hg.2
    rw [List.append_assoc] at r2 r3
    have st1234 : Step (footMs [.mk p addr args]) m m4 := (st123.mono (by simp)).trans st4 (fun b hb => by
      rcases List.mem_append.mp hb with hb | hb
      · exact Or.inl hb
      · simp at hb; exact Or.inr (by omega))
    refine ⟨[.mk m.brk t al lw] ++ args', m5, r1, r2, r3, ?_, st1234.trans st5 ?_, ?_, ?_⟩
    · intro b hb
      simp only [List.cons_append, List.nil_append, footAs, List.mem_cons, List.mem_append] at hb
      rcases hb with rfl | hb | hb
      · exact Nat.le_refl _
      · have := w4 b hb; omega
      · have := r4 b hb
        have := st1234.brk
        omega
    · intro b hb
      rw [e4] at hb
      rcases List.mem_append.mp hb with hb | hb
      · exact Or.inl hb
      · rcases List.mem_cons.mp hb with rfl | hb
        · exact Or.inr (Nat.le_refl _)
        · have := w4 b hb; exact Or.inr (by omega)
    · simp [toAs, argsVal, w6, r6]
    · simp only [List.cons_append, List.nil_append, footAs, List.length_cons, List.length_append]
      rw [a2, set_brk] at r7
      omega
theorem buildMsgs_lay {m : Memory} (wf : WF m) (b : Nat) (tail : Ptr) (ms : List LMsg) (l : LayW m 46 (.bndl b tail ms))
    (nd : (LW.bndl b tail ms).foot.Nodup) : ∀ (us : List UMsg) (vs : List VMsg), msgsVal us = some vs → GoodMsgs vs →
    ∃ tail' ms' m', buildMsgs b us m = some ((), m') ∧ LayW m' 46 (.bndl b tail' (ms ++ ms')) ∧
      (LW.bndl b tail' (ms ++ ms')).foot.Nodup ∧ (∀ x ∈ footMs ms', m.brk ≤ x) ∧ Step (LW.bndl b tail ms).foot m m' ∧
      msgsVal (toMs ms') = some vs ∧ (footMs ms').length + m.brk = m'.brk
  | [], vs, hv, _ => ⟨tail, [], m, by rw [buildMsgs]; rfl, by simpa using l, by simpa using nd, by simp [footMs], Step.refl wf _, by
      simpa [toMs] using hv, by simp [footMs]⟩
  | .mk addr args :: us, vs, hv, hg => by
    simp only [msgsVal, msgVal, Option.bind_eq_some_iff, Option.map_eq_some_iff] at hv
    obtain ⟨v, ⟨as, hv0, rfl⟩, vs', hv2, rfl⟩ := hv
    simp only [GoodMsgs] at hg
    obtain ⟨hg1, hg2⟩ := hg
    match addr, hg1 with
    | none, hg1 => simp only [GoodMsg] at hg1
    | some s, hg1 =>
    simp only [GoodMsg] at hg1
    have hold : ∀ x ∈ (LW.bndl b tail ms).foot, x < m.brk := fun x hx => wf.lt (layW_alloc _ l x hx)
    rw [buildMsgs, msgAlloc, seq_run (new_run _ _)]
    have st1 := step_grow wf (.msg ⟨none, 0, none, none, none, none⟩) []
    have st2 := step_grow st1.wf (.buf (s ++ [0])) []
    have hp2 : ((m.grow (.msg ⟨none, 0, none, none, none, none⟩)).grow (.buf (s ++ [0]))).cell m.brk =
        some (.msg ⟨none, 0, none, none, none, none⟩) := by
      rw [st2.same _ (by rw [grow_brk]; omega) (by simp), grow_self]
    have hga : giveAddr m.brk (some s) (m.grow (.msg ⟨none, 0, none, none, none, none⟩)) =
        some ((), ((m.grow (.msg ⟨none, 0, none, none, none, none⟩)).grow (.buf (s ++ [0]))).set m.brk
          (some (.msg ⟨some (m.brk + 1), 0, none, none, none, none⟩))) := by
      rw [giveAddr, seq_run (new_run _ _), setMsg_run _ hp2]; rfl
    rw [seq_run hga]
    have st3 := step_set st2.wf m.brk (some (.msg ⟨some (m.brk + 1), 0, none, none, none, none⟩)) (by
      simp only [grow_brk]; omega)
    have st123 : Step [] m _ := (st1.trans st2 (by simp)).trans st3 (by simp)
    have l3 : LayMsgs (((m.grow (.msg ⟨none, 0, none, none, none, none⟩)).grow (.buf (s ++ [0]))).set m.brk
        (some (.msg ⟨some (m.brk + 1), 0, none, none, none, none⟩))) none none [.mk m.brk (some (m.brk + 1, s, [])) []] := by
      simp only [LayMsgs, LayArgs, LayAddr, and_true]
      refine ⟨by rw [set_self]; rfl, ?_, hg1.2.1⟩
      rw [set_ne _ _ (by omega)]
      exact grow_self _ _
    obtain ⟨args', m4, r1, r2, r3, r4, st4, r6, r7⟩ := buildArgs_lay st3.wf m.brk _ [] none none l3 (by simp [footMs, footAddr, footAs])
      args as hv0 hg1.2.2
    rw [seq_run r1]
    rw [List.nil_append] at r2 r3
    have hb3 : (((m.grow (.msg ⟨none, 0, none, none, none, none⟩)).grow (.buf (s ++ [0]))).set m.brk
          (some (.msg ⟨some (m.brk + 1), 0, none, none, none, none⟩))).brk = m.brk + 2 := rfl
    rw [hb3] at r4 r7
    have st1234 : Step [] m m4 := st123.trans st4 (by
      simp only [footMs, footAddr, footAs, List.append_nil, List.mem_cons, List.not_mem_nil, or_false, false_or]
      rintro x (rfl | h)
      · exact Nat.le_refl _
      · omega)
    have lb4 := st1234.layW wf l (by simp)
    have hnew : ∀ x ∈ footMs [.mk m.brk (some (m.brk + 1, s, [])) args'], m.brk ≤ x := by
      simp only [footMs, footAddr, List.append_nil, List.mem_cons, List.mem_append, List.not_mem_nil, or_false]
      rintro x (rfl | rfl | h)
      · exact Nat.le_refl _
      · omega
      · have := r4 x h; omega
    have nd4 : (b :: footMs ms ++ footMs [.mk m.brk (some (m.brk + 1, s, [])) args']).Nodup := by
      rw [List.nodup_append]
      refine ⟨by simpa [LW.foot] using nd, r3, fun x hx y hy => ?_⟩
      have := hold x (by simpa [LW.foot] using hx)
      have := hnew y hy
      omega
    obtain ⟨m5, tail5, a1, a2, a3, a4⟩ := addMsg_lay lb4 r2 nd4
    rw [seq_run a1]
    have st5 : Step ((LW.bndl b tail ms).foot ++ [m.brk]) m4 m5 := step_same st4.wf a2 (fun x hx => by
        have := st1234.brk
        rcases List.mem_append.mp hx with hx | hx
        · have := hold x hx; omega
        · have h1 : m.brk < m4.brk := by have := st4.brk; rw [hb3] at this; omega
          simp at hx; omega) (fun x hx => a4 x (by
          simp only [LW.foot, List.mem_append, List.mem_cons, not_or] at hx ⊢
          exact hx.1) (by simp at hx; exact hx.2))
    have e5 : (LW.bndl b tail5 (ms ++ [.mk m.brk (some (m.brk + 1, s, [])) args'])).foot =
        b :: footMs ms ++ footMs [.mk m.brk (some (m.brk + 1, s, [])) args'] := by
      simp [LW.foot, footMs_append]
    obtain ⟨tail6, ms', m6, q1, q2, q3, q4, st6, q6, q7⟩ := buildMsgs_lay st5.wf b tail5 _ a3 (by rw [e5]; exact nd4) us vs' hv2 hg2
    rw [List.append_assoc] at q2 q3
    have st15 : Step (LW.bndl b tail ms).foot m m5 := (st1234.mono (by simp)).trans st5 (fun x hx => by
      rcases List.mem_append.mp hx with hx | hx
      · exact Or.inl hx
      · simp at hx; exact Or.inr (by omega))
    refine ⟨tail6, [.mk m.brk (some (m.brk + 1, s, [])) args'] ++ ms', m6, q1, q2, q3, ?_, st15.trans st6 ?_, ?_, ?_⟩
    · intro x hx
      rw [footMs_append, List.mem_append] at hx
      rcases hx with hx | hx
      · exact hnew x hx
      · have := q4 x hx
        have := st15.brk
        omega
    · intro x hx
      rw [e5] at hx
      rcases List.mem_append.mp hx with hx | hx
      · exact Or.inl (by simpa [LW.foot] using hx)
      · exact Or.inr (hnew x hx)
    · simp [toMs, msgsVal, msgVal, r6, q6]
    · simp only [List.cons_append, List.nil_append, footMs, footAddr, List.length_cons, List.length_append]
      omega
end

end Libo.Mem
