import Verif.Basic
/-!
# Doubly linked nodes on a heap

libo keeps list elements (`osc_linkedlist.c`), the arguments of a message (`osc_message_u.c`) and the messages of a bundle
(`osc_bundle_u.c`) in doubly linked lists of separately allocated structs with `next` and `prev` pointers.  This file is the
memory they live in: a partial map from addresses to nodes.  A freed or never allocated address holds nothing, and reading
or writing through it is undefined behaviour (`none`).

`Seg h p l q` says that the cells `l` are linked in order in `h`, that the first one's `prev` is `p` and the last one's `next`
is `q`.
-/

namespace Libo

/-- A list element: `t_osc_linkedlist_elem` (osc_linkedlist.r), or the `next`/`prev` members of `t_osc_atom_u`
(osc_atom_u.r), `t_osc_msg_u` (osc_message_u.r); `data` is everything else. -/
structure Node (α : Type) where
  data : α
  next : Option Nat
  prev : Option Nat

/-- Memory: address to node. -/
abbrev Heap (α : Type) := Nat → Option (Node α)

namespace Heap
variable {α : Type}

def upd (h : Heap α) (a : Nat) (n : Option (Node α)) : Heap α := fun b => if b = a then n else h b

/-- `a->next = v`. -/
def setNext (h : Heap α) (a : Nat) (v : Option Nat) : Option (Heap α) :=
  match h a with
  | some n => some (upd h a (some { n with next := v }))
  | none => none

/-- `a->prev = v`. -/
def setPrev (h : Heap α) (a : Nat) (v : Option Nat) : Option (Heap α) :=
  match h a with
  | some n => some (upd h a (some { n with prev := v }))
  | none => none

/-- `if(p){ p->next = v; }`. -/
def setNextIf (h : Heap α) (p : Option Nat) (v : Option Nat) : Option (Heap α) :=
  match p with
  | some a => setNext h a v
  | none => some h

/-- `if(p){ p->prev = v; }`. -/
def setPrevIf (h : Heap α) (p : Option Nat) (v : Option Nat) : Option (Heap α) :=
  match p with
  | some a => setPrev h a v
  | none => some h

/-- `free(a)`; freeing an address that is not allocated is undefined. -/
def free (h : Heap α) (a : Nat) : Option (Heap α) :=
  match h a with
  | some _ => some (upd h a none)
  | none => none

theorem upd_same (h : Heap α) (a : Nat) (n : Option (Node α)) : upd h a n a = n := by simp [upd]
theorem upd_ne (h : Heap α) {a b : Nat} (n : Option (Node α)) (e : b ≠ a) : upd h a n b = h b := by simp [upd, e]

end Heap

open Heap

section
variable {α : Type}

def addrs (l : List (Nat × α)) : List Nat := l.map Prod.fst
def vals (l : List (Nat × α)) : List α := l.map Prod.snd

/-- Address of the first cell, or `q`. -/
def fst? (l : List (Nat × α)) (q : Option Nat) : Option Nat :=
  match l with
  | [] => q
  | c :: _ => some c.1

/-- Address of the last cell, or `p`. -/
def lst? (p : Option Nat) : List (Nat × α) → Option Nat
  | [] => p
  | c :: l => lst? (some c.1) l

def Seg (h : Heap α) (p : Option Nat) : List (Nat × α) → Option Nat → Prop
  | [], _ => True
  | c :: l, q => h c.1 = some ⟨c.2, fst? l q, p⟩ ∧ Seg h (some c.1) l q

@[simp] theorem addrs_nil : addrs ([] : List (Nat × α)) = [] := rfl
@[simp] theorem addrs_cons (c : Nat × α) (l) : addrs (c :: l) = c.1 :: addrs l := rfl
@[simp] theorem addrs_append (l l' : List (Nat × α)) : addrs (l ++ l') = addrs l ++ addrs l' := by simp [addrs]
@[simp] theorem vals_nil : vals ([] : List (Nat × α)) = [] := rfl
@[simp] theorem vals_cons (c : Nat × α) (l) : vals (c :: l) = c.2 :: vals l := rfl
@[simp] theorem vals_append (l l' : List (Nat × α)) : vals (l ++ l') = vals l ++ vals l' := by simp [vals]
@[simp] theorem length_vals (l : List (Nat × α)) : (vals l).length = l.length := by simp [vals]
@[simp] theorem length_addrs (l : List (Nat × α)) : (addrs l).length = l.length := by simp [addrs]

@[simp] theorem fst?_nil (q : Option Nat) : fst? ([] : List (Nat × α)) q = q := rfl
@[simp] theorem fst?_cons (c : Nat × α) (l) (q : Option Nat) : fst? (c :: l) q = some c.1 := rfl
theorem fst?_append (l l' : List (Nat × α)) (q : Option Nat) : fst? (l ++ l') q = fst? l (fst? l' q) := by
  cases l <;> rfl

@[simp] theorem lst?_nil (p : Option Nat) : lst? p ([] : List (Nat × α)) = p := rfl
@[simp] theorem lst?_cons (c : Nat × α) (l) (p : Option Nat) : lst? p (c :: l) = lst? (some c.1) l := rfl
theorem lst?_append (l l' : List (Nat × α)) (p : Option Nat) : lst? p (l ++ l') = lst? (lst? p l) l' := by
  induction l generalizing p with
  | nil => rfl
  | cons c l ih => simp [ih]
theorem lst?_snoc (l : List (Nat × α)) (c : Nat × α) (p : Option Nat) : lst? p (l ++ [c]) = some c.1 := by
  simp [lst?_append]

/-- In a non-empty list the last address is one of the cells. -/
theorem lst?_mem {l : List (Nat × α)} {p : Option Nat} {a : Nat} (h : lst? p l = some a) : l = [] ∨ a ∈ addrs l := by
  induction l generalizing p with
  | nil => exact Or.inl rfl
  | cons c l ih =>
    right
    rcases ih h with e | e
    · subst e; simp at h; simp [h]
    · simp [e]

theorem fst?_mem {l : List (Nat × α)} {a : Nat} (h : fst? l none = some a) : a ∈ addrs l := by
  cases l with
  | nil => simp at h
  | cons c l => simp at h; simp [h]

theorem seg_append (h : Heap α) (p : Option Nat) (l l' : List (Nat × α)) (q : Option Nat) :
    Seg h p (l ++ l') q ↔ Seg h p l (fst? l' q) ∧ Seg h (lst? p l) l' q := by
  induction l generalizing p with
  | nil => simp [Seg]
  | cons c l ih =>
    simp only [List.cons_append, Seg, ih, lst?_cons, fst?_append, and_assoc]

theorem seg_frame {h h' : Heap α} {p : Option Nat} {l : List (Nat × α)} {q : Option Nat}
    (e : ∀ a ∈ addrs l, h' a = h a) (s : Seg h p l q) : Seg h' p l q := by
  induction l generalizing p with
  | nil => trivial
  | cons c l ih =>
    refine ⟨by rw [e c.1 (by simp)]; exact s.1, ih (fun a ha => e a (by simp [ha])) s.2⟩

/-- Every cell of a segment is allocated. -/
theorem seg_alloc {h : Heap α} {p : Option Nat} {l : List (Nat × α)} {q : Option Nat} (s : Seg h p l q) {a : Nat}
    (ha : a ∈ addrs l) : ∃ n, h a = some n := by
  induction l generalizing p with
  | nil => simp at ha
  | cons c l ih =>
    simp at ha
    rcases ha with rfl | ha
    · exact ⟨_, s.1⟩
    · exact ih s.2 ha

/-- What a write through a pointer changes: nothing outside `S`, and no allocation status. -/
structure Frame (h h' : Heap α) (S : List Nat) : Prop where
  same : ∀ b, b ∉ S → h' b = h b
  dom : ∀ b, (h' b).isSome = (h b).isSome

theorem Frame.refl (h : Heap α) (S) : Frame h h S := ⟨fun _ _ => rfl, fun _ => rfl⟩
theorem Frame.trans {h h' h'' : Heap α} {S T U : List Nat} (f : Frame h h' S) (g : Frame h' h'' T)
    (hS : ∀ a ∈ S, a ∈ U) (hT : ∀ a ∈ T, a ∈ U) : Frame h h'' U :=
  ⟨fun b hb => by rw [g.same b (fun k => hb (hT b k)), f.same b (fun k => hb (hS b k))],
   fun b => by rw [g.dom, f.dom]⟩
theorem Frame.mono {h h' : Heap α} {S T : List Nat} (f : Frame h h' S) (hS : ∀ a ∈ S, a ∈ T) : Frame h h' T :=
  ⟨fun b hb => f.same b (fun k => hb (hS b k)), f.dom⟩
theorem Frame.none {h h' : Heap α} {S : List Nat} (f : Frame h h' S) {a : Nat} (e : h a = none) : h' a = none := by
  have := f.dom a; rw [e] at this; simpa using this

theorem frame_upd {h : Heap α} {a : Nat} {n m : Node α} (e : h a = some n) : Frame h (upd h a (some m)) [a] := by
  constructor
  · intro b hb; exact upd_ne _ _ (by simpa using hb)
  · intro b
    by_cases hb : b = a
    · subst hb; simp [upd_same, e]
    · simp [upd_ne _ _ hb]

theorem setNext_some {h : Heap α} {a : Nat} {n : Node α} (e : h a = some n) (v : Option Nat) :
    setNext h a v = some (upd h a (some { n with next := v })) := by simp [setNext, e]
theorem setPrev_some {h : Heap α} {a : Nat} {n : Node α} (e : h a = some n) (v : Option Nat) :
    setPrev h a v = some (upd h a (some { n with prev := v })) := by simp [setPrev, e]

/-- Redirecting the `prev` pointer of the first cell. -/
theorem setPrevIf_seg {h : Heap α} {p : Option Nat} {l : List (Nat × α)} {q : Option Nat} (s : Seg h p l q)
    (nd : (addrs l).Nodup) (hq : l = [] → q = none) (p' : Option Nat) :
    ∃ h', setPrevIf h (fst? l q) p' = some h' ∧ Seg h' p' l q ∧ Frame h h' (addrs l) := by
  cases l with
  | nil => rw [fst?_nil, hq rfl]; exact ⟨h, rfl, trivial, Frame.refl _ _⟩
  | cons c l =>
    simp at nd
    refine ⟨_, setPrev_some s.1 p', ⟨by simp [upd_same], ?_⟩, (frame_upd s.1).mono (by simp)⟩
    refine seg_frame ?_ s.2
    intro a ha
    exact upd_ne _ _ (by rintro rfl; exact nd.1 ha)

/-- Redirecting the `next` pointer of the last cell. -/
theorem setNextIf_seg {h : Heap α} {p : Option Nat} {l : List (Nat × α)} {q : Option Nat} (s : Seg h p l q)
    (nd : (addrs l).Nodup) (hp : l = [] → p = none) (q' : Option Nat) :
    ∃ h', setNextIf h (lst? p l) q' = some h' ∧ Seg h' p l q' ∧ Frame h h' (addrs l) := by
  rcases List.eq_nil_or_concat l with rfl | ⟨l, c, rfl⟩
  · rw [lst?_nil, hp rfl]; exact ⟨h, rfl, trivial, Frame.refl _ _⟩
  · rw [List.concat_eq_append] at *
    rw [lst?_snoc]
    rw [seg_append] at s
    have e := s.2.1
    refine ⟨_, setNext_some e q', ?_, (frame_upd e).mono (by simp)⟩
    rw [seg_append]
    refine ⟨?_, ?_, trivial⟩
    · refine seg_frame ?_ s.1
      intro a ha
      refine upd_ne _ _ ?_
      rintro rfl
      simp [List.nodup_append] at nd
      exact nd.2 _ ha rfl
    · simp [upd_same]

/-- Following `next` pointers: the nodes met, at most `fuel` of them (a longer walk means a cycle: it never ends). -/
def walkNext (h : Heap α) : Nat → Option Nat → Option (List (Nat × α))
  | _, none => some []
  | 0, some _ => none
  | fuel + 1, some a =>
    match h a with
    | some n => (walkNext h fuel n.next).map ((a, n.data) :: ·)
    | none => none

/-- Following `prev` pointers. -/
def walkPrev (h : Heap α) : Nat → Option Nat → Option (List (Nat × α))
  | _, none => some []
  | 0, some _ => none
  | fuel + 1, some a =>
    match h a with
    | some n => (walkPrev h fuel n.prev).map ((a, n.data) :: ·)
    | none => none

theorem walkNext_seg {h : Heap α} {l : List (Nat × α)} {p : Option Nat} (s : Seg h p l none) {fuel : Nat}
    (hf : l.length ≤ fuel) : walkNext h fuel (fst? l none) = some l := by
  induction l generalizing p fuel with
  | nil => cases fuel <;> rfl
  | cons c l ih =>
    cases fuel with
    | zero => simp at hf
    | succ f =>
      simp only [fst?_cons, walkNext, s.1]
      rw [ih s.2 (by simpa using hf)]
      rfl

theorem walkPrev_seg {h : Heap α} {l : List (Nat × α)} {q : Option Nat} (s : Seg h none l q) {fuel : Nat}
    (hf : l.length ≤ fuel) : walkPrev h fuel (lst? none l) = some l.reverse := by
  induction hn : l.length generalizing l q fuel with
  | zero =>
    cases l with
    | nil => cases fuel <;> rfl
    | cons c l => simp at hn
  | succ k ih =>
    rcases List.eq_nil_or_concat l with rfl | ⟨l, c, rfl⟩
    · simp at hn
    · rw [List.concat_eq_append] at *
      rw [lst?_snoc]
      rw [seg_append] at s
      have e := s.2.1
      cases fuel with
      | zero => simp at hf
      | succ f =>
        simp only [walkPrev, e]
        rw [ih s.1 (by simpa using hf) (by simpa using hn)]
        simp

/-- Cells with distinct addresses below `n` number at most `n`. -/
theorem length_le_of_nodup_lt {l : List Nat} {n : Nat} (nd : l.Nodup) (hl : ∀ a ∈ l, a < n) : l.length ≤ n := by
  induction n generalizing l with
  | zero =>
    cases l with
    | nil => simp
    | cons a l => exact absurd (hl a (by simp)) (by omega)
  | succ n ih =>
    have h := ih (l := l.erase n) (nd.erase n) (fun a ha => by
      have h1 := hl a (List.mem_of_mem_erase ha)
      have h2 : a ≠ n := by rintro rfl; exact nd.not_mem_erase ha
      omega)
    rw [List.length_erase] at h
    split at h <;> omega

end
end Libo
