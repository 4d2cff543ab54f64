import Verif.MemEdit
/-!
# Programs that stay in their part of the memory

Every address from `lo` on is new.  A program is confined if it only changes new blocks and only lets new blocks point to
new blocks; then it cannot reach an old block.  Everything a client can do is confined.
-/

namespace Libo.Mem
open Libo

/-- NULL or new. -/
def POK (lo : Nat) (p : Ptr) : Prop := ∀ a, p = some a → lo ≤ a

/-- Type tags of atoms whose word is a pointer. -/
def PTag (t : UInt8) : Prop := t = 115 ∨ t = 98 ∨ t = 46

def WOK (lo : Nat) : Word → Prop
  | .bits _ => True
  | .ptr p => lo ≤ p

structure AOK (lo : Nat) (c : ACell) : Prop where
  w : PTag c.tag → WOK lo c.w
  next : POK lo c.next
  prev : POK lo c.prev

structure MOK (lo : Nat) (c : MCell) : Prop where
  addr : POK lo c.addr
  head : POK lo c.head
  tail : POK lo c.tail
  next : POK lo c.next
  prev : POK lo c.prev

structure BOK (lo : Nat) (c : BCell) : Prop where
  head : POK lo c.head
  tail : POK lo c.tail

def COK (lo : Nat) : Cell → Prop
  | .atom c => AOK lo c
  | .msg c => MOK lo c
  | .bndl c => BOK lo c
  | .buf _ => True
  | .arr l => ∀ a ∈ l, lo ≤ a

/-- New blocks only point to new blocks. -/
structure Reg (lo : Nat) (m : Memory) : Prop where
  brk : lo ≤ m.brk
  ok : ∀ a, lo ≤ a → ∀ c, m.cell a = some c → COK lo c

/-- The program keeps `Reg`, changes no old block, and its result satisfies `Q`. -/
def Conf (lo : Nat) {α : Type} (x : M α) (Q : α → Prop) : Prop :=
  ∀ m r m', Reg lo m → x m = some (r, m') → Reg lo m' ∧ (∀ a, a < lo → m'.cell a = m.cell a) ∧ Q r

section
variable {lo : Nat} {α β : Type}

theorem pok_none : POK lo none := by intro a h; cases h
theorem pok_some {a : Nat} (h : lo ≤ a) : POK lo (some a) := by intro b e; cases e; exact h

theorem Conf.mono {x : M α} {Q R : α → Prop} (h : Conf lo x Q) (k : ∀ r, Q r → R r) : Conf lo x R := by
  intro m r m' hr e
  obtain ⟨h1, h2, h3⟩ := h m r m' hr e
  exact ⟨h1, h2, k _ h3⟩

theorem Conf.any {x : M α} {Q : α → Prop} (h : Conf lo x Q) : Conf lo x fun _ => True := h.mono fun _ _ => trivial

theorem conf_pure {x : α} {Q : α → Prop} (h : Q x) : Conf lo (pure x : M α) Q := by
  intro m r m' hr e
  cases e
  exact ⟨hr, fun _ _ => rfl, h⟩

theorem conf_crash {Q : α → Prop} : Conf lo (crash : M α) Q := by
  intro m r m' hr e
  cases e

theorem conf_bind {x : M α} {f : α → M β} {Q : α → Prop} {R : β → Prop} (h : Conf lo x Q)
    (k : ∀ a, Q a → Conf lo (f a) R) : Conf lo (x >>= f) R := by
  intro m r m' hr e
  have e' : ((x m).bind fun s => f s.1 s.2) = some (r, m') := e
  rw [Option.bind_eq_some_iff] at e'
  obtain ⟨⟨a, m1⟩, e1, e2⟩ := e'
  obtain ⟨h1, h2, h3⟩ := h m a m1 hr e1
  obtain ⟨k1, k2, k3⟩ := k a h3 m1 r m' h1 e2
  exact ⟨k1, fun b hb => by rw [k2 b hb, h2 b hb], k3⟩

theorem conf_ite {c : Prop} [Decidable c] {x y : M α} {Q : α → Prop} (h1 : c → Conf lo x Q) (h2 : ¬ c → Conf lo y Q) :
    Conf lo (if c then x else y) Q := by
  split
  · exact h1 ‹_›
  · exact h2 ‹_›

theorem conf_cond {b : Bool} {x y : M α} {Q : α → Prop} (h1 : Conf lo x Q) (h2 : Conf lo y Q) : Conf lo (cond b x y) Q := by
  cases b <;> assumption

/-- Reading is always confined. -/
theorem conf_look {Q : α → Prop} (f : Memory → Option α) (h : ∀ m r, Reg lo m → f m = some r → Q r) :
    Conf lo (fun m => (f m).map fun r => (r, m) : M α) Q := by
  intro m r m' hr e
  simp only [Option.map_eq_some_iff] at e
  obtain ⟨a, e1, e2⟩ := e
  cases e2
  exact ⟨hr, fun _ _ => rfl, h _ _ hr e1⟩

theorem conf_fuel : Conf lo fuel fun _ => True := by
  intro m r m' hr e
  cases e
  exact ⟨hr, fun _ _ => rfl, trivial⟩

theorem conf_ofOpt (x : Option α) : Conf lo (ofOpt x) fun r => x = some r := by
  cases x with
  | none => exact conf_crash
  | some x => exact conf_pure rfl

theorem conf_deref {p : Ptr} (h : POK lo p) : Conf lo (deref p) fun a => lo ≤ a := (conf_ofOpt p).mono fun a e => h a e

theorem conf_readCell (p : Nat) : Conf lo (readCell p) fun c => lo ≤ p → COK lo c :=
  conf_look _ fun _ _ hr e hp => hr.ok p hp _ e

theorem reg_set {m : Memory} (hr : Reg lo m) {p : Nat} {c : Option Cell} (hc : ∀ x, c = some x → COK lo x) : Reg lo (m.set p c) := by
  refine ⟨hr.brk, fun a ha x hx => ?_⟩
  simp only [Memory.set] at hx
  split at hx
  · exact hc x hx
  · exact hr.ok a ha x hx

theorem set_old {m : Memory} {p : Nat} (hp : lo ≤ p) {c : Option Cell} {a : Nat} (ha : a < lo) :
    (m.set p c).cell a = m.cell a := by
  simp only [Memory.set]
  rw [if_neg (by omega)]

theorem conf_setCell {p : Nat} {c : Cell} (hp : lo ≤ p) (hc : COK lo c) : Conf lo (setCell p c) fun _ => True := by
  intro m r m' hr e
  simp only [setCell, Option.map_eq_some_iff] at e
  obtain ⟨_, _, e2⟩ := e
  cases e2
  exact ⟨reg_set hr (by rintro x ⟨⟩; exact hc), fun a ha => set_old hp ha, trivial⟩

theorem conf_free {p : Nat} (hp : lo ≤ p) : Conf lo (free p) fun _ => True := by
  intro m r m' hr e
  simp only [free, Option.map_eq_some_iff] at e
  obtain ⟨_, _, e2⟩ := e
  cases e2
  exact ⟨reg_set hr (by rintro x ⟨⟩), fun a ha => set_old hp ha, trivial⟩

theorem conf_new {c : Cell} (hc : COK lo c) : Conf lo (new c) fun p => lo ≤ p := by
  intro m r m' hr e
  cases e
  have h := reg_set hr (p := m.brk) (c := some c) (by rintro x ⟨⟩; exact hc)
  exact ⟨⟨by have := hr.brk; simp; omega, h.ok⟩, fun a ha => set_old hr.brk ha, hr.brk⟩

theorem conf_atomAt (p : Nat) : Conf lo (atomAt p) fun c => lo ≤ p → AOK lo c := by
  refine conf_bind (conf_readCell p) fun c hc => ?_
  cases c <;> first | exact conf_crash | exact conf_pure hc
theorem conf_msgAt (p : Nat) : Conf lo (msgAt p) fun c => lo ≤ p → MOK lo c := by
  refine conf_bind (conf_readCell p) fun c hc => ?_
  cases c <;> first | exact conf_crash | exact conf_pure hc
theorem conf_bndlAt (p : Nat) : Conf lo (bndlAt p) fun c => lo ≤ p → BOK lo c := by
  refine conf_bind (conf_readCell p) fun c hc => ?_
  cases c <;> first | exact conf_crash | exact conf_pure hc
theorem conf_arrAt (p : Nat) : Conf lo (arrAt p) fun l => lo ≤ p → ∀ a ∈ l, lo ≤ a := by
  refine conf_bind (conf_readCell p) fun c hc => ?_
  cases c <;> first | exact conf_crash | exact conf_pure hc
theorem conf_bufAt (p : Nat) : Conf lo (bufAt p) fun _ => True := by
  refine conf_bind (conf_readCell p) fun c hc => ?_
  cases c <;> first | exact conf_crash | exact conf_pure trivial
theorem conf_strAt (p : Nat) : Conf lo (strAt p) fun _ => True :=
  conf_bind (conf_bufAt p) fun _ _ => (conf_ofOpt _).any

theorem conf_setAtom {p : Nat} {f : ACell → ACell} (hp : lo ≤ p) (hf : ∀ c, AOK lo c → AOK lo (f c)) :
    Conf lo (setAtom p f) fun _ => True :=
  conf_bind (conf_atomAt p) fun c hc => conf_setCell hp (hf c (hc hp))
theorem conf_setMsg {p : Nat} {f : MCell → MCell} (hp : lo ≤ p) (hf : ∀ c, MOK lo c → MOK lo (f c)) :
    Conf lo (setMsg p f) fun _ => True :=
  conf_bind (conf_msgAt p) fun c hc => conf_setCell hp (hf c (hc hp))
theorem conf_setBndl {p : Nat} {f : BCell → BCell} (hp : lo ≤ p) (hf : ∀ c, BOK lo c → BOK lo (f c)) :
    Conf lo (setBndl p f) fun _ => True :=
  conf_bind (conf_bndlAt p) fun c hc => conf_setCell hp (hf c (hc hp))

theorem conf_whenSome {p : Ptr} {f : Nat → M Unit} (hp : POK lo p) (hf : ∀ a, lo ≤ a → Conf lo (f a) fun _ => True) :
    Conf lo (whenSome p f) fun _ => True := by
  cases p with
  | none => exact conf_pure trivial
  | some a => exact hf a (hp a rfl)

theorem conf_atomAlloc : Conf lo atomAlloc fun p => lo ≤ p := conf_new ⟨fun _ => trivial, pok_none, pok_none⟩
theorem conf_msgAlloc : Conf lo msgAlloc fun p => lo ≤ p := conf_new ⟨pok_none, pok_none, pok_none, pok_none, pok_none⟩
theorem conf_bndlAlloc : Conf lo bndlAlloc fun p => lo ≤ p := conf_new ⟨pok_none, pok_none⟩

/-- Changing a member: the others keep their pointers. -/
macro "member" : tactic => `(tactic|
  (intro c hc
   constructor <;> first
   | exact hc.w | exact hc.next | exact hc.prev | exact hc.addr | exact hc.head | exact hc.tail | exact pok_none
   | exact pok_some (by assumption) | assumption | (intro; trivial)))

/-! ### Freeing -/

mutual
theorem conf_atomFree : ∀ (f a : Nat), lo ≤ a → Conf lo (atomFree f a) fun _ => True
  | 0, _, _ => by rw [atomFree]; exact conf_crash
  | f + 1, a, h => by
    rw [atomFree]
    refine conf_bind (conf_atomAt a) fun c hc => ?_
    exact conf_bind (conf_wordFree f c.tag c.w (hc h).w) fun _ _ => conf_free h
theorem conf_wordFree : ∀ (f : Nat) (t : UInt8) (w : Word), (PTag t → WOK lo w) → Conf lo (wordFree f t w) fun _ => True
  | 0, _, _, _ => by rw [wordFree]; exact conf_crash
  | f + 1, t, .bits b, h => by
    rw [wordFree]
    refine conf_ite (fun _ => conf_ite (fun _ => conf_pure trivial) fun _ => conf_crash) fun _ => ?_
    exact conf_ite (fun _ => conf_ite (fun _ => conf_pure trivial) fun _ => conf_crash) fun _ => conf_pure trivial
  | f + 1, t, .ptr p, h => by
    rw [wordFree]
    refine conf_ite (fun k => conf_free (h ?_)) fun _ => conf_ite (fun k => conf_bndlFree f p (h ?_)) fun _ => conf_pure trivial
    · rcases k with k | k
      · exact Or.inl k
      · exact Or.inr (Or.inl k)
    · exact Or.inr (Or.inr k)
theorem conf_atomsFree : ∀ (f : Nat) (p : Ptr), POK lo p → Conf lo (atomsFree f p) fun _ => True
  | f, none, _ => by rw [atomsFree]; exact conf_pure trivial
  | 0, some _, _ => by rw [atomsFree]; exact conf_crash
  | f + 1, some a, h => by
    rw [atomsFree]
    refine conf_bind (conf_atomAt a) fun c hc => ?_
    exact conf_bind (conf_atomFree f a (h a rfl)) fun _ _ => conf_atomsFree f c.next (hc (h a rfl)).next
theorem conf_msgFree : ∀ (f p : Nat), lo ≤ p → Conf lo (msgFree f p) fun _ => True
  | 0, _, _ => by rw [msgFree]; exact conf_crash
  | f + 1, p, h => by
    rw [msgFree]
    refine conf_bind (conf_msgAt p) fun c hc => ?_
    refine conf_bind (conf_whenSome (hc h).addr fun a ha => conf_free ha) fun _ _ => ?_
    exact conf_bind (conf_atomsFree f c.head (hc h).head) fun _ _ => conf_free h
theorem conf_msgsFree : ∀ (f : Nat) (p : Ptr), POK lo p → Conf lo (msgsFree f p) fun _ => True
  | f, none, _ => by rw [msgsFree]; exact conf_pure trivial
  | 0, some _, _ => by rw [msgsFree]; exact conf_crash
  | f + 1, some a, h => by
    rw [msgsFree]
    refine conf_bind (conf_msgAt a) fun c hc => ?_
    exact conf_bind (conf_msgFree f a (h a rfl)) fun _ _ => conf_msgsFree f c.next (hc (h a rfl)).next
theorem conf_bndlFree : ∀ (f p : Nat), lo ≤ p → Conf lo (bndlFree f p) fun _ => True
  | 0, _, _ => by rw [bndlFree]; exact conf_crash
  | f + 1, p, h => by
    rw [bndlFree]
    refine conf_bind (conf_bndlAt p) fun c hc => ?_
    exact conf_bind (conf_msgsFree f c.head (hc h).head) fun _ _ => conf_free h
end

theorem conf_clearWord {a : Nat} (ha : lo ≤ a) {c : ACell} (hc : AOK lo c) (f : Nat) :
    Conf lo (clearWord a c f) fun _ => True := by
  have hw := hc.w
  unfold clearWord
  refine conf_ite (fun k => ?_) fun _ => conf_ite (fun k => ?_) fun _ => conf_ite (fun _ => conf_crash) fun _ => conf_pure trivial
  · have hw := hw (Or.inl k.2.1)
    cases e : c.w with
    | bits b => exact conf_crash
    | ptr p =>
      rw [e] at hw
      exact conf_bind (conf_free hw) fun _ _ => conf_setAtom ha (by member)
  · have hw := hw (Or.inr (Or.inr k))
    cases e : c.w with
    | bits b => exact conf_ite (fun _ => conf_setAtom ha (by member)) fun _ => conf_crash
    | ptr p =>
      rw [e] at hw
      exact conf_bind (conf_bndlFree f p hw) fun _ _ => conf_setAtom ha (by member)

theorem conf_atomClear {a : Nat} (ha : lo ≤ a) : Conf lo (atomClear a) fun _ => True := by
  refine conf_bind (conf_atomAt a) fun c hc => conf_bind conf_fuel fun f _ => ?_
  exact conf_bind (conf_clearWord ha (hc ha) f) fun _ _ => conf_setAtom ha (by member)

theorem conf_clearArgs {p : Nat} (hp : lo ≤ p) : Conf lo (clearArgs p) fun _ => True := by
  refine conf_bind (conf_setMsg hp (by member)) fun _ _ => conf_bind (conf_msgAt p) fun c hc => conf_bind conf_fuel fun f _ => ?_
  exact conf_bind (conf_atomsFree f c.head (hc hp).head) fun _ _ => conf_setMsg hp (by member)

theorem conf_bndlClear {b : Nat} (hb : lo ≤ b) : Conf lo (bndlClear b) fun _ => True := by
  refine conf_bind (conf_setBndl hb (by member)) fun _ _ => conf_bind (conf_bndlAt b) fun c hc => conf_bind conf_fuel fun f _ => ?_
  exact conf_bind (conf_msgsFree f c.head (hc hb).head) fun _ _ => conf_setBndl hb (by member)

/-! ### Lists -/

theorem conf_appendAtom {p a : Nat} (hp : lo ≤ p) (ha : lo ≤ a) : Conf lo (appendAtom p a) fun _ => True := by
  refine conf_bind (conf_setMsg hp (by member)) fun _ _ => conf_bind (conf_msgAt p) fun c hc => ?_
  have hc := hc hp
  cases c.head with
  | none => exact conf_bind (conf_setAtom ha (by member)) fun _ _ => conf_setMsg hp (by member)
  | some h =>
    refine conf_bind (conf_deref hc.tail) fun t ht => ?_
    refine conf_bind (conf_setAtom ht (by member)) fun _ _ => ?_
    exact conf_bind (conf_setAtom ha (by member)) fun _ _ => conf_setMsg hp (by member)

theorem conf_prependAtom {p a : Nat} (hp : lo ≤ p) (ha : lo ≤ a) : Conf lo (prependAtom p a) fun _ => True := by
  refine conf_bind (conf_setMsg hp (by member)) fun _ _ => conf_bind (conf_msgAt p) fun c hc => ?_
  have hc := hc hp
  cases e : c.head with
  | none => exact conf_bind (conf_setAtom ha (by member)) fun _ _ => conf_setMsg hp (by member)
  | some h =>
    have hh := hc.head h e
    refine conf_bind (conf_setAtom ha (by member)) fun _ _ => ?_
    refine conf_bind (conf_setAtom hh (by member)) fun _ _ => ?_
    exact conf_bind (conf_setMsg hp (by member)) fun _ _ => conf_setAtom ha (by member)

theorem conf_forward : ∀ (n : Nat) (p : Ptr), POK lo p → Conf lo (forward n p) fun q => POK lo q
  | 0, p, h => conf_pure h
  | n + 1, p, h => by
    refine conf_bind (conf_deref h) fun a ha => conf_bind (conf_atomAt a) fun c hc => ?_
    exact conf_forward n c.next (hc ha).next

theorem conf_backward : ∀ (n : Nat) (p : Ptr), POK lo p → Conf lo (backward n p) fun q => POK lo q
  | 0, p, h => conf_pure h
  | n + 1, p, h => by
    refine conf_bind (conf_deref h) fun a ha => conf_bind (conf_atomAt a) fun c hc => ?_
    exact conf_backward n c.prev (hc ha).prev

theorem conf_insertAt {p a : Nat} (hp : lo ≤ p) (ha : lo ≤ a) (pos : Int) (near : Bool) {c : MCell} (hc : MOK lo c) :
    Conf lo (insertAt p a pos near c) fun _ => True := by
  unfold insertAt
  have hhead := hc.head
  have htail := hc.tail
  cases e : c.head with
  | none => exact conf_bind (conf_setMsg hp (by member)) fun _ _ => conf_setAtom ha (by member)
  | some h =>
    have hh := hc.head h e
    refine conf_ite (fun _ => ?_) fun _ => conf_ite (fun _ => ?_) fun _ => ?_
    · refine conf_bind (conf_whenSome htail fun t ht => conf_setAtom ht (by member)) fun _ _ => ?_
      exact conf_bind (conf_setAtom ha (by member)) fun _ _ => conf_setMsg hp (by member)
    · refine conf_bind (conf_setAtom ha (by member)) fun _ _ => conf_bind (conf_setAtom hh (by member)) fun _ _ => ?_
      exact conf_bind (conf_setAtom ha (by member)) fun _ _ => conf_setMsg hp (by member)
    · refine conf_bind (conf_cond (conf_forward _ _ (e ▸ hhead)) (conf_backward _ _ htail)) fun q hq => ?_
      refine conf_bind (conf_deref hq) fun aa haa => conf_bind (conf_atomAt aa) fun x hx => ?_
      refine conf_bind (conf_whenSome (hx haa).prev fun t ht => conf_setAtom ht (by member)) fun _ _ => ?_
      refine conf_bind (conf_atomAt aa) fun x hx => ?_
      have hxp := (hx haa).prev
      exact conf_bind (conf_setAtom ha (by member)) fun _ _ => conf_setAtom haa (by member)

theorem conf_insertAtom {p a : Nat} (hp : lo ≤ p) (ha : lo ≤ a) (pos : Int) (near : Bool) :
    Conf lo (insertAtom p a pos near) fun _ => True := by
  refine conf_bind (conf_msgAt p) fun c hc => ?_
  exact conf_bind (conf_insertAt hp ha pos near (hc hp)) fun _ _ => conf_setMsg hp (by member)

theorem pok_ite {c : Prop} [Decidable c] {p q : Ptr} (h1 : POK lo p) (h2 : POK lo q) : POK lo (if c then p else q) := by
  split <;> assumption

theorem conf_removeAtom {p a : Nat} (hp : lo ≤ p) (ha : lo ≤ a) : Conf lo (removeAtom p a) fun _ => True := by
  refine conf_bind (conf_atomAt a) fun x hx => ?_
  have h1 := (hx ha).prev
  refine conf_bind (conf_whenSome (hx ha).next fun t ht => conf_setAtom ht (by member)) fun _ _ => ?_
  refine conf_bind (conf_atomAt a) fun x hx => ?_
  have h2 := (hx ha).next
  refine conf_bind (conf_whenSome (hx ha).prev fun t ht => conf_setAtom ht (by member)) fun _ _ => ?_
  refine conf_bind (conf_atomAt a) fun x hx => ?_
  have h3 := hx ha
  exact conf_setMsg hp fun c hc =>
    ⟨hc.addr, pok_ite h3.next hc.head, pok_ite h3.prev hc.tail, hc.next, hc.prev⟩

theorem conf_getArg {p : Nat} (hp : lo ≤ p) (n : Int) : Conf lo (getArg p n) fun q => POK lo q := by
  refine conf_bind (conf_msgAt p) fun c hc => ?_
  refine conf_ite (fun _ => conf_pure pok_none) fun _ => conf_ite (fun _ => conf_pure (hc hp).head) fun _ => ?_
  exact conf_ite (fun _ => conf_forward _ _ (hc hp).head) fun _ => conf_backward _ _ (hc hp).tail

theorem conf_addMsg {b p : Nat} (hb : lo ≤ b) (hp : lo ≤ p) : Conf lo (addMsg b p) fun _ => True := by
  refine conf_bind (conf_setBndl hb (by member)) fun _ _ => conf_bind (conf_bndlAt b) fun c hc => ?_
  have hc := hc hb
  cases e : c.head with
  | none => exact conf_bind (conf_setBndl hb (by member)) fun _ _ => conf_setMsg hp (by member)
  | some h =>
    have hh := hc.head h e
    cases e' : c.tail with
    | none =>
      refine conf_bind (conf_setMsg hh (by member)) fun _ _ => conf_bind (conf_setMsg hp (by member)) fun _ _ => ?_
      exact conf_setBndl hb (by member)
    | some t =>
      have ht := hc.tail t e'
      refine conf_bind (conf_setMsg hp (by member)) fun _ _ => conf_bind (conf_setMsg ht (by member)) fun _ _ => ?_
      exact conf_setBndl hb (by member)

theorem conf_removeMsg {b p : Nat} (hb : lo ≤ b) (hp : lo ≤ p) : Conf lo (removeMsg b p) fun _ => True := by
  refine conf_bind (conf_msgAt p) fun x hx => ?_
  have h1 := (hx hp).prev
  refine conf_bind (conf_whenSome (hx hp).next fun t ht => conf_setMsg ht (by member)) fun _ _ => ?_
  refine conf_bind (conf_msgAt p) fun x hx => ?_
  have h2 := (hx hp).next
  refine conf_bind (conf_whenSome (hx hp).prev fun t ht => conf_setMsg ht (by member)) fun _ _ => ?_
  refine conf_bind (conf_msgAt p) fun x hx => ?_
  have h3 := hx hp
  exact conf_setBndl hb fun c hc => ⟨pok_ite h3.next hc.head, pok_ite h3.prev hc.tail⟩

/-! ### Copies -/

theorem conf_giveAddr {p : Nat} (hp : lo ≤ p) (s : Option Bytes) : Conf lo (giveAddr p s) fun _ => True := by
  cases s with
  | none => exact conf_pure trivial
  | some s => exact conf_bind (conf_new trivial) fun q hq => conf_setMsg hp (by member)

mutual
theorem conf_buildW (t : UInt8) : ∀ w : W, Conf lo (buildW t w) fun w' => WOK lo w'
  | .bits b => by rw [buildW]; exact conf_pure trivial
  | .str _ s => by
    rw [buildW]
    exact conf_ite (fun _ => conf_bind (conf_new trivial) fun q hq => conf_pure hq) fun _ => conf_pure trivial
  | .blob _ s => by
    rw [buildW]
    exact conf_ite (fun _ => conf_bind (conf_new trivial) fun q hq => conf_pure hq) fun _ => conf_pure trivial
  | .bndl _ ms => by
    rw [buildW]
    refine conf_ite (fun _ => ?_) fun _ => conf_pure trivial
    exact conf_bind conf_bndlAlloc fun b hb => conf_bind (conf_buildMsgs b ms hb) fun _ _ => conf_pure hb
theorem conf_buildArgs : ∀ (p : Nat) (as : List UAtom), lo ≤ p → Conf lo (buildArgs p as) fun _ => True
  | p, [], _ => by rw [buildArgs]; exact conf_pure trivial
  | p, .mk t al w :: as, hp => by
    rw [buildArgs]
    refine conf_bind conf_atomAlloc fun a ha => conf_bind (conf_buildW t w) fun w' hw => ?_
    refine conf_bind (conf_setAtom ha fun c hc => ⟨fun _ => hw, hc.next, hc.prev⟩) fun _ _ => ?_
    exact conf_bind (conf_appendAtom hp ha) fun _ _ => conf_buildArgs p as hp
theorem conf_buildMsgs : ∀ (b : Nat) (ms : List UMsg), lo ≤ b → Conf lo (buildMsgs b ms) fun _ => True
  | b, [], _ => by rw [buildMsgs]; exact conf_pure trivial
  | b, .mk addr args :: ms, hb => by
    rw [buildMsgs]
    refine conf_bind conf_msgAlloc fun p hp => conf_bind (conf_giveAddr hp addr) fun _ _ => ?_
    refine conf_bind (conf_buildArgs p args hp) fun _ _ => ?_
    exact conf_bind (conf_addMsg hb hp) fun _ _ => conf_buildMsgs b ms hb
end

theorem conf_deserInto (bytes : Bytes) : Conf lo (deserInto bytes) fun b => lo ≤ b :=
  conf_bind (conf_ofOpt _) fun us _ => conf_bind conf_bndlAlloc fun b hb =>
    conf_bind (conf_buildMsgs b us hb) fun _ _ => conf_pure hb

theorem conf_bndlCopy (src : Nat) : Conf lo (bndlCopy src) fun b => lo ≤ b :=
  conf_bind conf_fuel fun _ _ => conf_bind (conf_look (Q := fun _ => True) _ fun _ _ _ _ => trivial) fun ms _ =>
    conf_bind (conf_ofOpt _) fun _ _ => conf_deserInto _

theorem conf_copyWord (s : ACell) : Conf lo (copyWord s) fun w => PTag s.tag → WOK lo w := by
  unfold copyWord
  refine conf_ite (fun k => ?_) fun k1 => conf_ite (fun k => ?_) fun k2 => conf_ite (fun k => ?_) fun k3 => ?_
  · cases s.w with
    | bits b => exact conf_crash
    | ptr p => exact conf_bind (conf_strAt p) fun _ _ => conf_bind (conf_new trivial) fun q hq => conf_pure fun _ => hq
  · cases s.w with
    | bits b => exact conf_ite (fun _ => conf_bind conf_bndlAlloc fun q hq => conf_pure fun _ => hq) fun _ => conf_crash
    | ptr p => exact conf_bind (conf_bndlCopy p) fun q hq => conf_pure fun _ => hq
  · cases s.w with
    | bits b => exact conf_crash
    | ptr p => exact conf_bind (conf_bufAt p) fun _ _ => conf_bind (conf_ofOpt _) fun _ _ => conf_bind (conf_ofOpt _) fun _ _ =>
        conf_bind (conf_new trivial) fun q hq => conf_pure fun _ => hq
  · refine conf_pure fun k => ?_
    rcases k with k | k | k <;> contradiction

theorem conf_destOr {d : Ptr} {mk : M Nat} (hd : POK lo d) (hm : Conf lo mk fun p => lo ≤ p) :
    Conf lo (destOr d mk) fun p => lo ≤ p := by
  cases d with
  | none => exact hm
  | some d => exact conf_pure (hd d rfl)

theorem conf_copyInto {d : Ptr} (hd : POK lo d) (src : Nat) : Conf lo (copyInto d src) fun p => lo ≤ p :=
  conf_bind (conf_destOr hd conf_atomAlloc) fun aa haa => conf_bind (conf_atomAt src) fun s _ =>
    conf_bind (conf_copyWord s) fun _ hw =>
      conf_bind (conf_setAtom haa fun _ _ => ⟨hw, pok_none, pok_none⟩) fun _ _ => conf_pure haa

/-- The shallow copy is confined only if its source is new. -/
theorem conf_msgCopy {d : Ptr} (hd : POK lo d) {src : Nat} (hs : lo ≤ src) : Conf lo (msgCopy d src) fun p => lo ≤ p :=
  conf_bind (conf_destOr hd conf_msgAlloc) fun aa haa => conf_bind (conf_msgAt src) fun s h =>
    conf_bind (conf_setMsg haa fun _ _ => h hs) fun _ _ => conf_pure haa

theorem conf_copyArgs {d : Nat} (hd : lo ≤ d) : ∀ (f : Nat) (p : Ptr), Conf lo (copyArgs d f p) fun _ => True
  | f, none => by rw [copyArgs]; exact conf_pure trivial
  | 0, some _ => by rw [copyArgs]; exact conf_crash
  | f + 1, some a => by
    rw [copyArgs]
    refine conf_bind (conf_copyInto pok_none a) fun x hx => conf_bind (conf_appendAtom hd hx) fun _ _ => ?_
    exact conf_bind (conf_atomAt a) fun c _ => conf_copyArgs hd f c.next

theorem conf_optStr (p : Ptr) : Conf lo (optStr p) fun _ => True := by
  cases p with
  | none => exact conf_pure trivial
  | some p => exact conf_bind (conf_strAt p) fun _ _ => conf_pure trivial

theorem conf_deepCopy {d : Ptr} (hd : POK lo d) (src : Nat) : Conf lo (deepCopy d src) fun p => lo ≤ p :=
  conf_bind (conf_destOr hd conf_msgAlloc) fun aa haa => conf_bind (conf_setMsg haa (by member)) fun _ _ =>
    conf_bind (conf_msgAt src) fun s _ => conf_bind (conf_optStr _) fun str _ => conf_bind (conf_giveAddr haa str) fun _ _ =>
      conf_bind conf_fuel fun f _ => conf_bind (conf_copyArgs haa f _) fun _ _ =>
        conf_bind (conf_setMsg haa (by member)) fun _ _ => conf_pure haa

theorem conf_newAtoms : ∀ n : Nat, Conf lo (newAtoms n) fun l => ∀ a ∈ l, lo ≤ a
  | 0 => conf_pure (by simp)
  | n + 1 => conf_bind conf_atomAlloc fun a ha => conf_bind (conf_newAtoms n) fun l hl => conf_pure (by
      intro x hx
      rcases List.mem_cons.1 hx with rfl | hx
      · exact ha
      · exact hl x hx)

theorem conf_arrAlloc (n : Nat) : Conf lo (arrAlloc n) fun p => lo ≤ p :=
  conf_bind (conf_newAtoms n) fun _ hl => conf_new hl

theorem conf_copyElems : ∀ ss ds : List Nat, (∀ a ∈ ds, lo ≤ a) → Conf lo (copyElems ss ds) fun _ => True
  | [], _, _ => by rw [copyElems]; exact conf_pure trivial; simp
  | _ :: _, [], _ => by rw [copyElems]; exact conf_pure trivial; simp
  | s :: ss, d :: ds, h => by
    rw [copyElems]
    exact conf_bind (conf_copyInto (pok_some (h d (by simp))) s) fun _ _ => conf_copyElems ss ds fun a ha => h a (by simp [ha])

theorem conf_arrCopy (src : Nat) : Conf lo (arrCopy src) fun p => lo ≤ p :=
  conf_bind (conf_arrAt src) fun _ _ => conf_bind (conf_arrAlloc _) fun r hr => conf_bind (conf_arrAt r) fun l' hl =>
    conf_bind (conf_copyElems _ l' (hl hr)) fun _ _ => conf_pure hr

/-! ### The rest of the interface -/

theorem not_ptag {t : UInt8} (h : ¬ (t = 115 ∨ t = 98 ∨ t = 46)) : ¬ PTag t := h

theorem conf_setBits {a : Nat} (ha : lo ≤ a) (t : UInt8) (v : Nat) : Conf lo (setBits a t v) fun _ => True :=
  conf_ite (fun _ => conf_crash) fun _ => conf_bind (conf_atomClear ha) fun _ _ => conf_setAtom ha (by member)

theorem conf_setBare {a : Nat} (ha : lo ≤ a) (t : UInt8) : Conf lo (setBare a t) fun _ => True :=
  conf_ite (fun _ => conf_crash) fun k => conf_bind (conf_atomClear ha) fun _ _ =>
    conf_setAtom ha fun c hc => ⟨fun h => absurd h (not_ptag k), hc.next, hc.prev⟩

theorem conf_setString {a : Nat} (ha : lo ≤ a) (v : Option Bytes) : Conf lo (setString a v) fun _ => True := by
  refine conf_bind (conf_atomAt a) fun c hc => ?_
  refine conf_ite (fun k => ?_) fun k => ?_
  · have hw := (hc ha).w (Or.inl k.2.1)
    cases v with
    | none => exact conf_setAtom ha (by member)
    | some s =>
      cases e : c.w with
      | bits b => exact conf_crash
      | ptr p =>
        rw [e] at hw
        exact conf_bind (conf_free hw) fun _ _ => conf_bind (conf_new trivial) fun q hq =>
          conf_setAtom ha fun c hc => ⟨fun _ => hq, hc.next, hc.prev⟩
  · cases v with
    | none => exact conf_setAtom ha (by member)
    | some s => exact conf_bind (conf_new trivial) fun q hq => conf_setAtom ha fun c hc => ⟨fun _ => hq, hc.next, hc.prev⟩

theorem conf_setStringPtr {a p : Nat} (ha : lo ≤ a) (hp : lo ≤ p) : Conf lo (setStringPtr a p) fun _ => True :=
  conf_bind (conf_atomClear ha) fun _ _ => conf_setAtom ha fun _ hc => ⟨fun _ => hp, hc.next, hc.prev⟩

theorem conf_setBlobPtr {a p : Nat} (ha : lo ≤ a) (hp : lo ≤ p) : Conf lo (setBlobPtr a p) fun _ => True :=
  conf_bind (conf_atomClear ha) fun _ _ => conf_setAtom ha fun _ hc => ⟨fun _ => hp, hc.next, hc.prev⟩

theorem conf_setBlob {a : Nat} (ha : lo ≤ a) (b : Bytes) : Conf lo (setBlob a b) fun _ => True :=
  conf_bind (conf_atomClear ha) fun _ _ => conf_bind (conf_ofOpt _) fun _ _ => conf_bind (conf_ofOpt _) fun _ _ =>
    conf_bind (conf_new trivial) fun _ hq => conf_setAtom ha fun _ hc => ⟨fun _ => hq, hc.next, hc.prev⟩

theorem conf_setBndlU {a b : Nat} (ha : lo ≤ a) (hb : lo ≤ b) : Conf lo (setBndlU a b) fun _ => True :=
  conf_setAtom ha fun _ hc => ⟨fun _ => hb, hc.next, hc.prev⟩

theorem conf_setBndlS {a : Nat} (ha : lo ≤ a) (b : Bytes) : Conf lo (setBndlS a b) fun _ => True :=
  conf_bind (conf_atomClear ha) fun _ _ => conf_bind (conf_deserInto b) fun _ hb => conf_setBndlU ha hb

theorem conf_setShouldFree {a : Nat} (ha : lo ≤ a) (b : Bool) : Conf lo (setShouldFree a b) fun _ => True :=
  conf_setAtom ha (by member)

theorem conf_getPtr {a : Nat} (ha : lo ≤ a) (t : UInt8) : Conf lo (getPtr a t) fun p => POK lo p := by
  refine conf_bind (conf_atomAt a) fun c hc => conf_ite (fun k => ?_) fun _ => conf_pure pok_none
  have hw := (hc ha).w (by rw [k.1]; exact k.2)
  cases e : c.w with
  | bits b => exact conf_ite (fun _ => conf_pure pok_none) fun _ => conf_crash
  | ptr p => rw [e] at hw; exact conf_pure (pok_some hw)

theorem conf_bufWrite {p : Nat} (hp : lo ≤ p) (b : Bytes) : Conf lo (bufWrite p b) fun _ => True :=
  conf_bind (conf_bufAt p) fun _ _ => conf_setCell hp trivial

theorem conf_setAddress {p : Nat} (hp : lo ≤ p) (s : Option Bytes) : Conf lo (setAddress p s) fun _ => True := by
  cases s with
  | none => exact conf_setMsg hp (by member)
  | some s =>
    refine conf_ite (fun _ => conf_pure trivial) fun _ => conf_bind (conf_msgAt p) fun c hc => ?_
    cases e : c.addr with
    | none => exact conf_giveAddr hp _
    | some q =>
      have hq := (hc hp).addr q e
      refine conf_bind (conf_strAt q) fun old _ => conf_ite (fun _ => ?_) fun _ => ?_
      · exact conf_bind (conf_free hq) fun _ _ => conf_giveAddr hp _
      · exact conf_bind (conf_bufAt q) fun _ _ => conf_setCell hq trivial

theorem conf_setAddressPtr {p q : Nat} (hp : lo ≤ p) (hq : lo ≤ q) : Conf lo (setAddressPtr p q) fun r => POK lo r :=
  conf_bind (conf_msgAt p) fun _ hc => conf_bind (conf_setMsg hp (by member)) fun _ _ => conf_pure (hc hp).addr

theorem conf_removeLoop {b : Nat} (hb : lo ≤ b) (sk : Bool) (s : Bytes) : ∀ (f : Nat) (p : Ptr), POK lo p →
    Conf lo (removeLoop sk b s f p) fun _ => True
  | f, none, _ => by rw [removeLoop]; exact conf_pure trivial
  | 0, some _, _ => by rw [removeLoop]; exact conf_crash
  | f + 1, some p, h => by
    have hp := h p rfl
    rw [removeLoop]
    refine conf_bind (conf_msgAt p) fun c hc => ?_
    have hn := (hc hp).next
    cases e : c.addr with
    | none => exact conf_ite (fun _ => conf_removeLoop hb sk s f c.next hn) fun _ => conf_crash
    | some q =>
      refine conf_bind (conf_strAt q) fun t _ => conf_ite (fun _ => ?_) fun _ => conf_removeLoop hb sk s f c.next hn
      refine conf_bind (conf_removeMsg hb hp) fun _ _ => conf_bind conf_fuel fun k _ => conf_bind (conf_msgFree k p hp) fun _ _ => ?_
      exact conf_bind (conf_setBndl hb (by member)) fun _ _ => conf_removeLoop hb sk s f c.next hn

theorem conf_removeMessage {b : Nat} (hb : lo ≤ b) (s : Bytes) : Conf lo (removeMessage b s) fun _ => True :=
  conf_bind (conf_bndlAt b) fun c hc => conf_bind conf_fuel fun f _ => conf_removeLoop hb false s f c.head (hc hb).head

theorem conf_addMsgWithoutDups {b p : Nat} (hb : lo ≤ b) (hp : lo ≤ p) : Conf lo (addMsgWithoutDups b p) fun _ => True := by
  refine conf_bind (conf_msgAt p) fun x hx => ?_
  cases x.addr with
  | none => exact conf_addMsg hb hp
  | some q => exact conf_bind (conf_strAt q) fun s _ => conf_bind (conf_bndlAt b) fun c hc => conf_bind conf_fuel fun f _ =>
      conf_bind (conf_removeLoop hb true s f c.head (hc hb).head) fun _ _ => conf_addMsg hb hp

theorem conf_replaceLoop {p : Nat} (hp : lo ≤ p) (s : Bytes) : ∀ (f : Nat) (q : Ptr), POK lo q →
    Conf lo (replaceLoop p s f q) fun _ => True
  | f, none, _ => by rw [replaceLoop]; exact conf_pure trivial
  | 0, some _, _ => by rw [replaceLoop]; exact conf_crash
  | f + 1, some q, h => by
    have hq := h q rfl
    rw [replaceLoop]
    refine conf_bind (conf_msgAt q) fun c hc => ?_
    have hn := (hc hq).next
    have hpv := (hc hq).prev
    refine conf_bind (conf_deref (hc hq).addr) fun r _ => conf_bind (conf_strAt r) fun t _ => conf_cond ?_ ?_
    · refine conf_bind (conf_clearArgs hq) fun _ _ => conf_bind (conf_deepCopy (pok_some hq) p) fun _ _ => ?_
      refine conf_bind (conf_setMsg hq (by member)) fun _ _ => conf_bind conf_fuel fun k _ => ?_
      exact conf_bind (conf_msgFree k p hp) fun _ _ => conf_pure trivial
    · exact conf_replaceLoop hp s f c.next hn

theorem conf_replaceMessage {b p : Nat} (hb : lo ≤ b) (hp : lo ≤ p) : Conf lo (replaceMessage b p) fun _ => True := by
  refine conf_bind (conf_msgAt p) fun x hx => ?_
  cases x.addr with
  | none => exact conf_addMsg hb hp
  | some q => exact conf_bind (conf_strAt q) fun s _ => conf_bind (conf_bndlAt b) fun c hc => conf_bind conf_fuel fun f _ =>
      conf_bind (conf_replaceLoop hp s f c.head (hc hb).head) fun _ _ => conf_cond (conf_pure trivial) (conf_addMsg hb hp)

theorem conf_listEnd : ∀ (f n : Nat) (l p : Ptr), POK lo l → POK lo p → Conf lo (listEnd f n l p) fun r => POK lo r.2
  | f, n, l, none, hl, _ => by rw [listEnd]; exact conf_pure hl
  | 0, n, l, some _, _, _ => by rw [listEnd]; exact conf_crash
  | f + 1, n, l, some p, _, hp => by
    rw [listEnd]
    exact conf_bind (conf_msgAt p) fun c hc => conf_listEnd f (n + 1) (some p) c.next hp (hc (hp p rfl)).next

theorem conf_addMsgList {b p : Nat} (hb : lo ≤ b) (hp : lo ≤ p) : Conf lo (addMsgList b p) fun _ => True :=
  conf_bind (conf_setBndl hb (by member)) fun _ _ => conf_bind conf_fuel fun f _ =>
    conf_bind (conf_listEnd f 0 _ _ (pok_some hp) (pok_some hp)) fun _ hr => conf_setBndl hb (by member)

theorem conf_lastAtom : ∀ f a : Nat, lo ≤ a → Conf lo (lastAtom f a) fun l => lo ≤ l
  | 0, _, _ => by rw [lastAtom]; exact conf_crash
  | f + 1, a, ha => by
    rw [lastAtom]
    refine conf_bind (conf_atomAt a) fun c hc => ?_
    cases e : c.next with
    | none => exact conf_pure ha
    | some n => exact conf_lastAtom f n ((hc ha).next n e)

theorem conf_lastMsg : ∀ f a : Nat, lo ≤ a → Conf lo (lastMsg f a) fun l => lo ≤ l
  | 0, _, _ => by rw [lastMsg]; exact conf_crash
  | f + 1, a, ha => by
    rw [lastMsg]
    refine conf_bind (conf_msgAt a) fun c hc => ?_
    cases e : c.next with
    | none => exact conf_pure ha
    | some n => exact conf_lastMsg f n ((hc ha).next n e)

theorem conf_atomAppend {a b : Nat} (ha : lo ≤ a) (hb : lo ≤ b) : Conf lo (atomAppend a b) fun _ => True :=
  conf_bind conf_fuel fun f _ => conf_bind (conf_lastAtom f a ha) fun _ hl => conf_setAtom hl (by member)

theorem conf_msgAppend {a b : Nat} (ha : lo ≤ a) (hb : lo ≤ b) : Conf lo (msgAppend a b) fun _ => True :=
  conf_bind conf_fuel fun f _ => conf_bind (conf_lastMsg f a ha) fun _ hl => conf_setMsg hl (by member)

theorem conf_appendCopies {p : Nat} (hp : lo ≤ p) : ∀ l : List Nat, Conf lo (appendCopies p l) fun _ => True
  | [] => conf_pure trivial
  | a :: as => conf_bind (conf_copyInto pok_none a) fun _ hx => conf_bind (conf_appendAtom hp hx) fun _ _ =>
      conf_appendCopies hp as

theorem conf_setArgArrayCopy {p : Nat} (hp : lo ≤ p) (src : Nat) : Conf lo (setArgArrayCopy p src) fun _ => True :=
  conf_bind (conf_arrAt src) fun l _ => conf_appendCopies hp l

theorem conf_elemsFree (f : Nat) : ∀ l : List Nat, (∀ a ∈ l, lo ≤ a) → Conf lo (elemsFree f l) fun _ => True
  | [], _ => conf_pure trivial
  | a :: as, h => by
    have ha := h a (by simp)
    rw [elemsFree]
    refine conf_bind (conf_atomAt a) fun c hc => ?_
    refine conf_bind (conf_ite (fun _ => conf_wordFree f c.tag c.w (hc ha).w) fun _ => conf_pure trivial) fun _ _ => ?_
    exact conf_bind (conf_free ha) fun _ _ => conf_elemsFree f as fun b hb => h b (by simp [hb])

theorem conf_arrFree {r : Nat} (hr : lo ≤ r) : Conf lo (arrFree r) fun _ => True :=
  conf_bind (conf_arrAt r) fun l hl => conf_bind conf_fuel fun f _ => conf_bind (conf_elemsFree f l (hl hr)) fun _ _ =>
    conf_free hr

theorem conf_unit {x : M Unit} (h : Conf lo x fun _ => True) : Conf lo (unit x) fun l => ∀ a ∈ l, lo ≤ a :=
  conf_bind h fun _ _ => conf_pure (by simp)
theorem conf_one {x : M Nat} (h : Conf lo x fun p => lo ≤ p) : Conf lo (one x) fun l => ∀ a ∈ l, lo ≤ a :=
  conf_bind h fun _ _ => conf_pure (by simpa)
theorem conf_maybe {x : M Ptr} (h : Conf lo x fun p => POK lo p) : Conf lo (maybe x) fun l => ∀ a ∈ l, lo ≤ a :=
  conf_bind h fun p hp => conf_pure (by
    intro a ha
    rw [Option.mem_toList] at ha
    exact hp a ha)

/-- Every operation of the interface is confined if the blocks it is told to work on are new. -/
theorem conf_exec (o : Op) (h : ∀ a ∈ o.uses, lo ≤ a) : Conf lo o.exec fun l => ∀ a ∈ l, lo ≤ a := by
  cases o <;> simp only [Op.uses, List.mem_cons, List.not_mem_nil, or_false, forall_eq_or_imp, forall_eq] at h <;>
    simp only [Op.exec]
  case newAtom => exact conf_one conf_atomAlloc
  case newMsg => exact conf_one conf_msgAlloc
  case newBndl => exact conf_one conf_bndlAlloc
  case newBuf => exact conf_one (conf_new trivial)
  case newArr => exact conf_one (conf_arrAlloc _)
  case atomFree => exact conf_unit (conf_bind conf_fuel fun f _ => conf_atomFree f _ h)
  case atomClear => exact conf_unit (conf_atomClear h)
  case setBits => exact conf_unit (conf_setBits h _ _)
  case setBare => exact conf_unit (conf_setBare h _)
  case setString => exact conf_unit (conf_setString h _)
  case setStringPtr => exact conf_unit (conf_setStringPtr h.1 h.2)
  case setBlob => exact conf_unit (conf_setBlob h _)
  case setBlobPtr => exact conf_unit (conf_setBlobPtr h.1 h.2)
  case setBndlU => exact conf_unit (conf_setBndlU h.1 h.2)
  case setBndlS => exact conf_unit (conf_setBndlS h _)
  case setShouldFree => exact conf_unit (conf_setShouldFree h _)
  case getPtr => exact conf_maybe (conf_getPtr h _)
  case atomNext => exact conf_maybe (conf_bind (conf_atomAt _) fun c hc => conf_pure (hc h).next)
  case atomAppend => exact conf_unit (conf_atomAppend h.1 h.2)
  case bufWrite => exact conf_unit (conf_bufWrite h _)
  case atomCopy => exact conf_one (conf_copyInto pok_none _)
  case copyInto => exact conf_one (conf_copyInto (pok_some h) _)
  case msgFree => exact conf_unit (conf_bind conf_fuel fun f _ => conf_msgFree f _ h)
  case clearArgs => exact conf_unit (conf_clearArgs h)
  case setAddress => exact conf_unit (conf_setAddress h _)
  case setAddressPtr => exact conf_maybe (conf_setAddressPtr h.1 h.2)
  case getAddress => exact conf_maybe (conf_bind (conf_msgAt _) fun c hc => conf_pure (hc h).addr)
  case appendAtom => exact conf_unit (conf_appendAtom h.1 h.2)
  case prependAtom => exact conf_unit (conf_prependAtom h.1 h.2)
  case insertAtom => exact conf_unit (conf_insertAtom h.1 h.2 _ _)
  case removeAtom => exact conf_unit (conf_removeAtom h.1 h.2)
  case getArg => exact conf_maybe (conf_getArg h _)
  case msgNext => exact conf_maybe (conf_bind (conf_msgAt _) fun c hc => conf_pure (hc h).next)
  case msgAppend => exact conf_unit (conf_msgAppend h.1 h.2)
  case msgDeepCopy => exact conf_one (conf_deepCopy pok_none _)
  case deepCopyInto => exact conf_one (conf_deepCopy (pok_some h) _)
  case shallowCopyOwn => exact conf_one (conf_msgCopy (pok_some h.1) h.2)
  case setArgArrayCopy => exact conf_unit (conf_setArgArrayCopy h _)
  case bndlFree => exact conf_unit (conf_bind conf_fuel fun f _ => conf_bndlFree f _ h)
  case bndlClear => exact conf_unit (conf_bndlClear h)
  case bndlCopy => exact conf_one (conf_bndlCopy _)
  case bndlHead => exact conf_maybe (conf_bind (conf_bndlAt _) fun c hc => conf_pure (hc h).head)
  case addMsg => exact conf_unit (conf_addMsg h.1 h.2)
  case addMsgWithoutDups => exact conf_unit (conf_addMsgWithoutDups h.1 h.2)
  case replaceMessage => exact conf_unit (conf_replaceMessage h.1 h.2)
  case addMsgCopy => exact conf_unit (conf_bind (conf_deepCopy pok_none _) fun p hp => conf_addMsg h hp)
  case addMsgWithoutDupsCopy => exact conf_unit (conf_bind (conf_deepCopy pok_none _) fun p hp => conf_addMsgWithoutDups h hp)
  case addMsgList => exact conf_unit (conf_addMsgList h.1 h.2)
  case removeMsg => exact conf_unit (conf_removeMsg h.1 h.2)
  case removeMessage => exact conf_unit (conf_removeMessage h _)
  case arrCopy => exact conf_one (conf_arrCopy _)
  case arrGet r i => exact conf_bind (conf_arrAt r) fun l hl => conf_pure (by
      intro a ha
      rw [Option.mem_toList] at ha
      exact hl h a (List.mem_of_getElem? ha))
  case arrFree => exact conf_unit (conf_arrFree h)

theorem edits_confined {m m' : Memory} {known known' : List Nat} (h : Edits m known m' known') (hr : Reg lo m)
    (hk : ∀ a ∈ known, lo ≤ a) : Reg lo m' ∧ (∀ a ∈ known', lo ≤ a) ∧ ∀ a, a < lo → m'.cell a = m.cell a := by
  induction h with
  | done => exact ⟨hr, hk, fun _ _ => rfl⟩
  | op o h1 e rest ih =>
    obtain ⟨k1, k2, k3⟩ := conf_exec o (fun a ha => hk a (h1 a ha)) _ _ _ hr e
    obtain ⟨j1, j2, j3⟩ := ih k1 (fun a ha => by
      rcases List.mem_append.1 ha with h | h
      · exact hk a h
      · exact k3 a h)
    exact ⟨j1, j2, fun a ha => by rw [j3 a ha, k2 a ha]⟩

end
end Libo.Mem
