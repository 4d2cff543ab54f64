import Verif.MemEdit
import Verif.MemOwn
/-!
# Messages made value by value (`osc_message_u.c` lines 338-843 and 1200-1270)

The functions `osc_message_u_append…`, `…prepend…`, `…insert…` for one value of a C type each, and `osc_message_u_allocWith…`, on
the memory of `Mem.lean`.  They differ in the setter they use; `Given` says what was passed.
-/

namespace Libo.Mem
open Libo

/-- What the caller passes. -/
inductive Given where
  /-- A number or a time tag: the type tag of its setter, and what the word of the atom becomes. -/
  | bits (tag : UInt8) (v : Nat)
  /-- True, false, nil. -/
  | bare (tag : UInt8)
  /-- A string, as `const char *`. -/
  | str (s : Bytes)
  /-- A string that the message is to keep, as `char *`. -/
  | ptr (q : Nat)
  /-- A blob: its size and its bytes. -/
  | blob (b : Bytes)
  /-- A bundle that the message is to keep. -/
  | bndl (b : Nat)

/-- The setter (`osc_atom_u.c` lines 1010-1250). -/
def give (a : Nat) : Given → M Unit
  | .bits tag v => setBits a tag v
  | .bare tag => setBare a tag
  | .str s => setString a (some s)
  | .ptr q => setStringPtr a q
  | .blob b => setBlob a b
  | .bndl b => setBndlU a b

/-- `osc_message_u_appendInt8` to `osc_message_u_appendBlob` (`osc_message_u.c` lines 338-505), without `…appendBndl_s`.
`…appendBool` is one of `…appendTrue`, `…appendFalse`. -/
def appendGiven (p : Nat) (g : Given) : M Nat := do
  let a ← atomAlloc
  give a g
  appendAtom p a
  pure a

/-- The copy that `osc_message_u_prependString` and `osc_message_u_insertString` make (lines 598-600 and 767-769) and give to
`osc_atom_u_setString`, which copies once more. -/
def spare : Given → M Unit
  | .str s => do
    let _ ← new (.buf (s ++ [0]))
    pure ()
  | _ => pure ()

/-- `osc_message_u_prependInt8` to `osc_message_u_prependBlob` (`osc_message_u.c` lines 507-674), without `…prependBndl_s`. -/
def prependGiven (p : Nat) (g : Given) : M Nat := do
  let a ← atomAlloc
  spare g
  give a g
  prependAtom p a
  pure a

/-- The setter that the `insert` functions use: `osc_message_u_insertStringPtr` (lines 756-762) uses `osc_atom_u_setString`. -/
def giveCopy (a : Nat) : Given → M Unit
  | .ptr q => do
    let s ← strAt q
    setString a (some s)
  | g => give a g

/-- `osc_message_u_insertInt8` to `osc_message_u_insertBlob` (`osc_message_u.c` lines 676-843), without `…insertBndl_s`; `near` is the
outcome of the comparison of floating point numbers in `osc_message_u_insertAtom`. -/
def insertGiven (p : Nat) (g : Given) (pos : Int) (near : Bool) : M Nat := do
  let a ← atomAlloc
  spare g
  giveCopy a g
  insertAtom p a pos near
  pure a

/-- `osc_message_u_allocWithAddress` (`osc_message_u.c` lines 1200-1207). -/
def allocWithAddress (addr : Option Bytes) : M Nat := do
  let p ← msgAlloc
  setAddress p addr
  pure p

/-- `osc_message_u_allocWithFloat`, `…String`, `…Timetag`, `…Blob`, `…Double`, `…Int` (`osc_message_u.c` lines 1209-1234 and
1245-1270). -/
def allocWith (addr : Option Bytes) (g : Given) : M Nat := do
  let p ← allocWithAddress addr
  let _ ← appendGiven p g
  pure p

/-! ### The setters on a new atom -/

/-- An atom as `osc_atom_u_alloc` makes it. -/
def blank : ACell := ⟨0, false, .bits 0, none, none⟩

theorem atomClear_blank {m : Memory} {a : Nat} (h : m.cell a = some (.atom blank)) :
    atomClear a m = some ((), m.set a (some (.atom blank))) := by
  rw [atomClear, seq_run (atomAt_run h), seq_run (fuel_run m)]
  rw [seq_run (a := ()) (m' := m) (by simp [clearWord, blank, pure_run])]
  rw [setAtom_run _ h]
  rfl

theorem own_setAtom {m : Memory} (wf : WF m) {a : Nat} (ha : a < m.brk) (c : Cell) : Own [a] m [a] (m.set a (some c)) :=
  own_same wf rfl (by simpa using ha) fun x hx => set_ne _ _ (by simpa using hx)

theorem own_grow {m : Memory} (wf : WF m) (c : Cell) : Own [] m [m.brk] (m.grow c) :=
  own_new (step_grow wf c []) (by simp) (by simp) (by simp [grow_self]) (by simp [grow_brk]; omega)

/-- A message, its arguments before and behind a place, and an atom that is not yet among them. -/
structure Split (m : Memory) (p a : Nat) (c : MCell) (x : ACell) (addr : Option (Nat × Bytes × Bytes)) (as bs : List LAtom) (w : LW)
    (qa pb : Ptr) : Prop where
  msg : m.cell p = some (.msg c)
  atom : m.cell a = some (.atom x)
  la : LayArgs m none qa as
  lb : LayArgs m pb none bs
  laddr : LayAddr m addr
  lw : LayW m x.tag w

/-- All blocks of it are different. -/
def Apart (p a : Nat) (addr : Option (Nat × Bytes × Bytes)) (as bs : List LAtom) (w : LW) : Prop :=
  (p :: (footAddr addr ++ (footAs as ++ footAs bs)) ++ a :: w.foot).Nodup

/-- Only links changed. -/
def Linked (p a : Nat) (as bs : List LAtom) (m m' : Memory) : Prop :=
  m'.brk = m.brk ∧ ∀ x, x ∉ p :: a :: (footAs as ++ footAs bs) → m'.cell x = m.cell x

theorem Linked.refl {p a : Nat} {as bs : List LAtom} (m : Memory) : Linked p a as bs m m := ⟨rfl, fun _ _ => rfl⟩

theorem Linked.trans {p a : Nat} {as bs : List LAtom} {m m' m'' : Memory} (h : Linked p a as bs m m') (k : Linked p a as bs m' m'') :
    Linked p a as bs m m'' := ⟨k.1.trans h.1, fun x hx => (k.2 x hx).trans (h.2 x hx)⟩

section
variable {m : Memory} {p a : Nat} {c : MCell} {x : ACell} {addr : Option (Nat × Bytes × Bytes)} {as bs : List LAtom} {w : LW} {qa pb : Ptr}

theorem Split.setMsg (h : Split m p a c x addr as bs w qa pb) (nd : Apart p a addr as bs w) (f : MCell → MCell) :
    ∃ m', Mem.setMsg p f m = some ((), m') ∧ Linked p a as bs m m' ∧ Split m' p a (f c) x addr as bs w qa pb := by
  unfold Apart at nd
  refine ⟨_, setMsg_run f h.msg, ⟨rfl, fun x hx => set_ne _ _ (by simp at hx; exact hx.1)⟩, set_self _ _ _, ?_, ?_, ?_, ?_, ?_⟩
  · rw [set_ne _ _ (by grind)]; exact h.atom
  · exact layArgs_frame _ _ _ (fun b hb => set_ne _ _ (by grind)) h.la
  · exact layArgs_frame _ _ _ (fun b hb => set_ne _ _ (by grind)) h.lb
  · exact layAddr_frame (fun b hb => set_ne _ _ (by grind)) h.laddr
  · exact layW_frame _ (fun b hb => set_ne _ _ (by grind)) h.lw

theorem Split.setAtom (h : Split m p a c x addr as bs w qa pb) (nd : Apart p a addr as bs w) (f : ACell → ACell) (ht : (f x).tag = x.tag) :
    ∃ m', Mem.setAtom a f m = some ((), m') ∧ Linked p a as bs m m' ∧ Split m' p a c (f x) addr as bs w qa pb := by
  unfold Apart at nd
  refine ⟨_, setAtom_run f h.atom, ⟨rfl, fun x hx => set_ne _ _ (by simp at hx; exact hx.2.1)⟩, ?_, set_self _ _ _, ?_, ?_, ?_, ?_⟩
  · rw [set_ne _ _ (by grind)]; exact h.msg
  · exact layArgs_frame _ _ _ (fun b hb => set_ne _ _ (by grind)) h.la
  · exact layArgs_frame _ _ _ (fun b hb => set_ne _ _ (by grind)) h.lb
  · exact layAddr_frame (fun b hb => set_ne _ _ (by grind)) h.laddr
  · rw [ht]; exact layW_frame _ (fun b hb => set_ne _ _ (by grind)) h.lw

theorem Split.next (h : Split m p a c x addr as bs w qa pb) (nd : Apart p a addr as bs w) (q' : Ptr) :
    ∃ m', whenSome (ltA none as) (fun n => Mem.setAtom n fun y => { y with next := q' }) m = some ((), m') ∧ Linked p a as bs m m' ∧
      Split m' p a c x addr as bs w q' pb := by
  unfold Apart at nd
  obtain ⟨m', h1, h2, h3, h4⟩ := relinkA_next q' h.la (by grind)
  refine ⟨m', h1, ⟨h2, fun x hx => h4 x (by simp at hx; exact hx.2.2.1)⟩, ?_, ?_, h3, ?_, ?_, ?_⟩
  · rw [h4 _ (by grind)]; exact h.msg
  · rw [h4 _ (by grind)]; exact h.atom
  · exact layArgs_frame _ _ _ (fun b hb => h4 _ (by grind)) h.lb
  · exact layAddr_frame (fun b hb => h4 _ (by grind)) h.laddr
  · exact layW_frame _ (fun b hb => h4 _ (by grind)) h.lw

theorem Split.prev (h : Split m p a c x addr as bs w qa pb) (nd : Apart p a addr as bs w) (p' : Ptr) :
    ∃ m', whenSome (hdA none bs) (fun n => Mem.setAtom n fun y => { y with prev := p' }) m = some ((), m') ∧ Linked p a as bs m m' ∧
      Split m' p a c x addr as bs w qa p' := by
  unfold Apart at nd
  obtain ⟨m', h1, h2, h3, h4⟩ := relinkA_prev p' h.lb (by grind)
  refine ⟨m', h1, ⟨h2, fun x hx => h4 x (by simp at hx; exact hx.2.2.2)⟩, ?_, ?_, ?_, h3, ?_, ?_⟩
  · rw [h4 _ (by grind)]; exact h.msg
  · rw [h4 _ (by grind)]; exact h.atom
  · exact layArgs_frame _ _ _ (fun b hb => h4 _ (by grind)) h.la
  · exact layAddr_frame (fun b hb => h4 _ (by grind)) h.laddr
  · exact layW_frame _ (fun b hb => h4 _ (by grind)) h.lw

/-- With the links in place the atom is one of the arguments. -/
theorem Split.join {q pv : Ptr} (h : Split m p a c x addr as bs w (some a) (some a)) (hn : x.next = hdA none bs) (hp : x.prev = ltA none as)
    (hw : x.w = w.word) (hc : c = ⟨addr.map (·.1), (as.length : Int) + bs.length + 1, hdA (some a) as, ltA (some a) bs, q, pv⟩) :
    LayMsgs m pv q [.mk p addr (as ++ .mk a x.tag x.alloc w :: bs)] := by
  simp only [LayMsgs, and_true]
  refine ⟨?_, h.laddr, ?_⟩
  · rw [h.msg, hc]
    simp only [hdA_append, ltA_append, hdA_cons, ltA, LAtom.p, hdM, List.length_append, List.length_cons]
    have e : ((as.length : Int) + bs.length + 1) = ((as.length + (bs.length + 1) : Nat) : Int) := by omega
    rw [e]
  · rw [layArgs_append]
    simp only [LayArgs, hdA_cons]
    refine ⟨h.la, ?_, h.lw, h.lb⟩
    rw [h.atom, ← hn, ← hp, ← hw]
end

theorem msg_split {m : Memory} {p a : Nat} {addr : Option (Nat × Bytes × Bytes)} {as bs : List LAtom} {pv q : Ptr} {x : ACell} {w : LW}
    (l : LayMsgs m pv q [.mk p addr (as ++ bs)]) (ha : m.cell a = some (.atom x)) (lw : LayW m x.tag w)
    (nd : (footMs [.mk p addr (as ++ bs)] ++ a :: w.foot).Nodup) :
    Split m p a ⟨addr.map (·.1), (as ++ bs).length, hdA none (as ++ bs), ltA none (as ++ bs), q, pv⟩ x addr as bs w (hdA none bs) (ltA none as) ∧
      Apart p a addr as bs w := by
  simp only [LayMsgs, hdM, and_true] at l
  obtain ⟨l1, l2, l3⟩ := l
  rw [layArgs_append] at l3
  refine ⟨⟨l1, ha, l3.1, l3.2, l2, lw⟩, ?_⟩
  unfold Apart
  simpa [footMs, footAs_append] using nd

theorem prependAtom_lay {m : Memory} {p a : Nat} {addr : Option (Nat × Bytes × Bytes)} {args : List LAtom} {pv q : Ptr} {x : ACell} {w : LW}
    (l : LayMsgs m pv q [.mk p addr args]) (ha : m.cell a = some (.atom x)) (hw : x.w = w.word) (lw : LayW m x.tag w)
    (nd : (footMs [.mk p addr args] ++ a :: w.foot).Nodup) :
    ∃ m', prependAtom p a m = some ((), m') ∧ Linked p a [] args m m' ∧ LayMsgs m' pv q [.mk p addr (.mk a x.tag x.alloc w :: args)] := by
  obtain ⟨s, ap⟩ := msg_split (as := []) (bs := args) l ha lw nd
  obtain ⟨m1, r1, k1, s1⟩ := s.setMsg ap fun c => { c with argc := c.argc + 1 }
  rw [prependAtom, seq_run r1, seq_run (msgAt_run s1.msg)]
  cases args with
  | nil =>
    obtain ⟨m2, r2, k2, s2⟩ := s1.setAtom ap (fun x => { x with next := none, prev := none }) rfl
    obtain ⟨m3, r3, k3, s3⟩ := s2.setMsg ap fun c => { c with head := some a, tail := some a }
    refine ⟨m3, ?_, (k1.trans k2).trans k3, ?_⟩
    · show (Mem.setAtom a _ >>= fun _ => _) m1 = _
      rw [seq_run r2, r3]
    · have s4 : Split m3 p a _ _ addr [] [] w (some a) (some a) := ⟨s3.msg, s3.atom, by trivial, by trivial, s3.laddr, s3.lw⟩
      exact s4.join rfl rfl hw rfl
  | cons b bs =>
    obtain ⟨h, tb, alb, wb⟩ := b
    obtain ⟨m2, r2, k2, s2⟩ := s1.setAtom ap (fun x => { x with next := some h }) rfl
    obtain ⟨m3, r3, k3, s3⟩ := s2.prev ap (some a)
    obtain ⟨m4, r4, k4, s4⟩ := s3.setMsg ap fun c => { c with head := some a }
    obtain ⟨m5, r5, k5, s5⟩ := s4.setAtom ap (fun x => { x with prev := none }) rfl
    refine ⟨m5, ?_, (((k1.trans k2).trans k3).trans k4).trans k5, ?_⟩
    · show (Mem.setAtom a (fun x => { x with next := some h }) >>= fun _ => _) m1 = _
      rw [seq_run r2]
      show (Mem.setAtom h _ >>= fun _ => _) m2 = _
      rw [seq_run (show Mem.setAtom h _ m2 = some ((), m3) from r3), seq_run r4, r5]
    · have s6 : Split m5 p a _ _ addr [] (.mk h tb alb wb :: bs) w (some a) (some a) := ⟨s5.msg, s5.atom, by trivial, s5.lb, s5.laddr, s5.lw⟩
      refine s6.join rfl rfl hw ?_
      simp [hdA, ltA, LAtom.p]

theorem forward_lay {m : Memory} (q : Ptr) : ∀ (as : List LAtom) (pv : Ptr) (n : Nat), LayArgs m pv q as → n ≤ as.length →
    forward n (hdA q as) m = some (hdA q (as.drop n), m)
  | as, pv, 0, _, _ => by simp [forward, pure_run]
  | [], pv, n + 1, _, h => by simp at h
  | .mk p t al w :: as, pv, n + 1, l, h => by
    obtain ⟨l1, l2, l3⟩ := l
    rw [forward, hdA_cons, seq_run (show deref (some p) m = some (p, m) from rfl), seq_run (atomAt_run l1)]
    simpa using forward_lay q as _ n l3 (by simpa using h)

theorem backward_lay {m : Memory} (pv : Ptr) : ∀ (n : Nat) (as : List LAtom) (q : Ptr), LayArgs m pv q as → n ≤ as.length →
    backward n (ltA pv as) m = some (ltA pv (as.take (as.length - n)), m)
  | 0, as, q, _, _ => by simp [backward, pure_run]
  | n + 1, as, q, l, h => by
    have hne : as ≠ [] := by rintro rfl; simp at h
    obtain ⟨bs, z, rfl⟩ : ∃ bs z, as = bs ++ [z] := ⟨_, _, (List.dropLast_concat_getLast hne).symm⟩
    obtain ⟨p, t, al, w⟩ := z
    rw [layArgs_append] at l
    obtain ⟨l1, l2, l3, l4⟩ := l
    rw [backward, ltA_append, seq_run (show deref (ltA (ltA pv bs) [.mk p t al w]) m = some (p, m) from rfl), seq_run (atomAt_run l2)]
    have := backward_lay pv n bs _ l1 (by simpa using h)
    rw [this]
    congr 3
    rw [List.length_append, List.length_singleton, Nat.add_sub_add_right, List.take_append_of_le_length (by omega)]

/-- Putting an atom at a place among the arguments: what is before it and what is behind it. -/
theorem insertAtom_lay {m : Memory} {p a : Nat} {addr : Option (Nat × Bytes × Bytes)} {as bs : List LAtom} {pv q : Ptr} {x : ACell} {w : LW}
    (l : LayMsgs m pv q [.mk p addr (as ++ bs)]) (ha : m.cell a = some (.atom x)) (hx : x.next = none) (hw : x.w = w.word)
    (lw : LayW m x.tag w) (nd : (footMs [.mk p addr (as ++ bs)] ++ a :: w.foot).Nodup) (pos : Int) (near : Bool)
    (hp : 0 ≤ pos) (hpos : pos.toNat = as.length ∨ as.length ≤ pos.toNat ∧ bs = []) :
    ∃ m', insertAtom p a pos near m = some ((), m') ∧ Linked p a as bs m m' ∧
      LayMsgs m' pv q [.mk p addr (as ++ .mk a x.tag x.alloc w :: bs)] := by
  obtain ⟨s, ap⟩ := msg_split l ha lw nd
  rw [insertAtom, seq_run (msgAt_run s.msg)]
  by_cases hb : bs = []
  · subst hb
    simp only [List.append_nil] at s ⊢
    cases as with
    | nil =>
      obtain ⟨m1, r1, k1, s1⟩ := s.setMsg ap fun c => { c with head := some a, tail := some a }
      obtain ⟨m2, r2, k2, s2⟩ := s1.setAtom ap (fun x => { x with next := none, prev := none }) rfl
      obtain ⟨m3, r3, k3, s3⟩ := s2.setMsg ap fun c => { c with argc := c.argc + 1 }
      refine ⟨m3, ?_, (k1.trans k2).trans k3, ?_⟩
      · rw [seq_run (a := ()) (m' := m2) (by
          show (Mem.setMsg p (fun c => { c with head := some a, tail := some a }) >>= fun _ => _) m = _
          rw [seq_run r1, r2]), r3]
      · have s4 : Split m3 p a _ _ addr [] [] w (some a) (some a) := ⟨s3.msg, s3.atom, by trivial, by trivial, s3.laddr, s3.lw⟩
        exact s4.join rfl rfl hw rfl
    | cons b as =>
      obtain ⟨h, tb, alb, wb⟩ := b
      obtain ⟨m1, r1, k1, s1⟩ := s.next ap (some a)
      obtain ⟨m2, r2, k2, s2⟩ := s1.setAtom ap (fun x => { x with prev := ltA none (.mk h tb alb wb :: as) }) rfl
      obtain ⟨m3, r3, k3, s3⟩ := s2.setMsg ap fun c => { c with tail := some a }
      obtain ⟨m4, r4, k4, s4⟩ := s3.setMsg ap fun c => { c with argc := c.argc + 1 }
      refine ⟨m4, ?_, ((k1.trans k2).trans k3).trans k4, ?_⟩
      · rw [seq_run (a := ()) (m' := m3) (by
          unfold insertAt
          simp only [hdA_cons]
          rw [if_pos (by simp only [List.length_cons] at hpos ⊢; omega), seq_run r1, seq_run r2, r3]), r4]
      · have s5 : Split m4 p a _ _ addr (.mk h tb alb wb :: as) [] w (some a) (some a) := ⟨s4.msg, s4.atom, s4.la, by trivial, s4.laddr, s4.lw⟩
        refine s5.join hx rfl hw ?_
        simp [hdA, ltA, LAtom.p]
  · replace hpos : pos.toNat = as.length := hpos.resolve_right (by simp [hb])
    obtain ⟨b, bs, rfl⟩ := List.exists_cons_of_ne_nil hb
    obtain ⟨h, tb, alb, wb⟩ := b
    cases as with
    | nil =>
      obtain ⟨m1, r1, k1, s1⟩ := s.setAtom ap (fun x => { x with next := some h }) rfl
      obtain ⟨m2, r2, k2, s2⟩ := s1.prev ap (some a)
      obtain ⟨m3, r3, k3, s3⟩ := s2.setAtom ap (fun x => { x with prev := none }) rfl
      obtain ⟨m4, r4, k4, s4⟩ := s3.setMsg ap fun c => { c with head := some a }
      obtain ⟨m5, r5, k5, s5⟩ := s4.setMsg ap fun c => { c with argc := c.argc + 1 }
      refine ⟨m5, ?_, (((k1.trans k2).trans k3).trans k4).trans k5, ?_⟩
      · rw [seq_run (a := ()) (m' := m4) (by
          unfold insertAt
          simp only [List.nil_append, hdA_cons]
          rw [if_neg (by simp at hpos ⊢; omega), if_pos (by simp at hpos; omega), seq_run r1,
            seq_run (show Mem.setAtom h _ m1 = some ((), m2) from r2), seq_run r3, r4]), r5]
      · have s6 : Split m5 p a _ _ addr [] (.mk h tb alb wb :: bs) w (some a) (some a) := ⟨s5.msg, s5.atom, by trivial, s5.lb, s5.laddr, s5.lw⟩
        refine s6.join rfl rfl hw ?_
        simp [hdA, ltA, LAtom.p]
    | cons c as =>
      obtain ⟨h0, t0, al0, w0⟩ := c
      generalize has : (LAtom.mk h0 t0 al0 w0 :: as) = cs at *
      have hcs : cs ≠ [] := by rw [← has]; simp
      have hhd : hdA none (cs ++ .mk h tb alb wb :: bs) = some h0 := by rw [← has]; rfl
      have hl : cs.length ≠ 0 := by rw [← has]; simp
      have lall : LayArgs m none none (cs ++ .mk h tb alb wb :: bs) := by
        rw [layArgs_append]; exact ⟨s.la, s.lb⟩
      obtain ⟨m1, r1, k1, s1⟩ := s.next ap (some a)
      obtain ⟨m2, r2, k2, s2⟩ := s1.setAtom ap (fun y => { y with prev := ltA none cs, next := some h }) rfl
      obtain ⟨m3, r3, k3, s3⟩ := s2.prev ap (some a)
      obtain ⟨m4, r4, k4, s4⟩ := s3.setMsg ap fun c => { c with argc := c.argc + 1 }
      have hseek : (bif near then forward pos.toNat (hdA none (cs ++ .mk h tb alb wb :: bs))
          else backward (((cs ++ .mk h tb alb wb :: bs).length : Int) - (pos + 1)).toNat (ltA none (cs ++ .mk h tb alb wb :: bs))) m =
            some (some h, m) := by
        cases near with
        | true =>
          simp only [cond_true]
          rw [forward_lay none _ none _ lall (by simp; omega), hpos]
          simp [hdA, LAtom.p]
        | false =>
          simp only [cond_false]
          rw [backward_lay none _ _ none lall (by simp; omega)]
          have e : (cs ++ LAtom.mk h tb alb wb :: bs).length - (((cs ++ .mk h tb alb wb :: bs).length : Int) - (pos + 1)).toNat = cs.length + 1 := by
            simp only [List.length_append, List.length_cons]; omega
          rw [e, List.take_length_add_append]
          simp [ltA_append, ltA, LAtom.p]
      refine ⟨m4, ?_, ((k1.trans k2).trans k3).trans k4, ?_⟩
      · rw [seq_run (a := ()) (m' := m3) (by
          unfold insertAt
          simp only [hhd]
          rw [if_neg (by simp only [List.length_append, List.length_cons]; omega), if_neg (by omega)]
          rw [hhd] at hseek
          rw [seq_run hseek, seq_run (show deref (some h) m = some (h, m) from rfl), seq_run (atomAt_run s.lb.1)]
          simp only []
          rw [seq_run r1, seq_run (atomAt_run s1.lb.1)]
          simp only []
          rw [seq_run r2]
          exact r3), r4]
      · have hz : ∀ z, hdA z cs = some h0 := by rw [← has]; intro z; rfl
        refine s4.join rfl rfl hw ?_
        simp [hhd, hz, ltA_append, ltA, LAtom.p]

end Libo.Mem
