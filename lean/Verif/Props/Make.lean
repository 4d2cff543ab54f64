import Verif.MemMake
import Verif.Props.Copy
/-!
# Property C96: messages made value by value

The functions that make an atom from a number, a string, a blob, a time tag or a bundle and append it, prepend it or insert it.
-/

namespace Libo.Props
open Libo Libo.Mem

/-- How many bits a number with this type tag has. -/
def numWidth : UInt8 → Option Nat
  | 99 => some 8
  | 67 => some 8
  | 117 => some 16
  | 85 => some 16
  | 105 => some 32
  | 73 => some 32
  | 102 => some 32
  | 104 => some 64
  | 72 => some 64
  | 100 => some 64
  | _ => none

/-- What the caller gives is this value; the message gets the blocks in the list. -/
inductive GivesVal (m : Memory) : Given → Val → List Nat → Prop where
  | num (tag : UInt8) (k v : Nat) : numWidth tag = some k → GivesVal m (.bits tag v) (.num tag (v % 2 ^ k)) []
  | time (v : Nat) : GivesVal m (.bits 116 v) (.time (v % 2 ^ 32) (v / 2 ^ 32 % 2 ^ 32)) []
  | true : GivesVal m (.bare 84) (.bare 84) []
  | false : GivesVal m (.bare 70) (.bare 70) []
  | nil : GivesVal m (.bare 78) (.bare 78) []
  | str (s : Bytes) : (0 : UInt8) ∉ s → GivesVal m (.str s) (.str s) []
  | ptr (q : Nat) (s k : Bytes) : m.cell q = some (.buf (s ++ 0 :: k)) → (0 : UInt8) ∉ s → GivesVal m (.ptr q) (.str s) [q]
  | blob (c rest : Bytes) : c.length + 4 < 2147483648 → GivesVal m (.blob (be32 c.length ++ c ++ rest)) (.blob c) []
  | bndl (b : Nat) (ms : List VMsg) (T : List Nat) : BndlAt m b ms T → GivesVal m (.bndl b) (.bndl ms) T

theorem GivesVal.lt {m : Memory} {g : Given} {v : Val} {T : List Nat} (h : GivesVal m g v T) (wf : WF m) : ∀ x ∈ T, x < m.brk := by
  cases h with
  | ptr q s k hq h0 => intro x hx; simp at hx; subst hx; exact wf.lt (by rw [hq]; rfl)
  | bndl b ms T h => exact h.lt wf
  | _ => simp

theorem GivesVal.frame {m m' : Memory} {g : Given} {v : Val} {T : List Nat} (h : GivesVal m g v T) (e : ∀ x ∈ T, m'.cell x = m.cell x) :
    GivesVal m' g v T := by
  cases h with
  | num tag k v h => exact .num tag k v h
  | time v => exact .time v
  | true => exact .true
  | false => exact .false
  | nil => exact .nil
  | str s h => exact .str s h
  | ptr q s k hq h0 => exact .ptr q s k (by rw [e q (by simp)]; exact hq) h0
  | blob c rest h => exact .blob c rest h
  | bndl b ms T h => exact .bndl b ms T (h.frame e)

/-- The setter on a new atom. -/
theorem give_lay {m : Memory} (wf : WF m) {a : Nat} (ha : m.cell a = some (.atom blank)) {g : Given} {v : Val} {T : List Nat}
    (h : GivesVal m g v T) (hT : a ∉ T) :
    ∃ x w m', give a g m = some ((), m') ∧ m'.cell a = some (.atom x) ∧ x.next = none ∧ x.w = w.word ∧ LayW m' x.tag w ∧
      (a :: w.foot).Nodup ∧ (UAtom.mk x.tag x.alloc w.toW).val = some v ∧ Own (a :: T) m (a :: w.foot) m' := by
  have hlt : a < m.brk := wf.lt (by rw [ha]; rfl)
  have o1 := own_setAtom wf hlt (.atom blank)
  have c1 : (m.set a (some (.atom blank))).cell a = some (.atom blank) := set_self _ _ _
  have o2 : ∀ c, Own [a] m [a] ((m.set a (some (.atom blank))).set a (some c)) := fun c => o1.trans (own_setAtom o1.wf hlt c)
  cases h with
  | num tag k v h =>
    have hne : ¬ (tag = 115 ∨ tag = 98 ∨ tag = 46) := by
      rintro (rfl | rfl | rfl) <;> simp [numWidth] at h
    refine ⟨⟨tag, false, .bits v, none, none⟩, .plain (.bits v), (m.set a (some (.atom blank))).set a (some (.atom ⟨tag, false, .bits v, none, none⟩)), ?_, set_self _ _ _, rfl, rfl, fun h => absurd h hne, by simp [LW.foot], ?_, o2 _⟩
    · rw [give, setBits, if_neg hne, seq_run (atomClear_blank ha), setAtom_run _ c1]
      rfl
    · simp only [blank, LW.toW, UAtom.val, W.raw]
      unfold numWidth at h
      split at h <;> first | (simp only [Option.some.injEq] at h; subst h; simp [M8, M16, M32, M64]) | simp at h
  | time v =>
    refine ⟨⟨116, false, .bits v, none, none⟩, .plain (.bits v), (m.set a (some (.atom blank))).set a (some (.atom ⟨116, false, .bits v, none, none⟩)), ?_, set_self _ _ _, rfl, rfl, fun h => absurd h (show ¬ ((116 : UInt8) = 115 ∨ (116 : UInt8) = 98 ∨ (116 : UInt8) = 46) by decide), by simp [LW.foot], ?_, o2 _⟩
    · rw [give, setBits, if_neg (by decide), seq_run (atomClear_blank ha), setAtom_run _ c1]
      rfl
    · simp [LW.toW, UAtom.val, W.raw, M32]
  | true =>
    refine ⟨⟨84, false, .bits 0, none, none⟩, .plain (.bits 0), (m.set a (some (.atom blank))).set a (some (.atom ⟨84, false, .bits 0, none, none⟩)), ?_, set_self _ _ _, rfl, rfl, fun _ => rfl, by simp [LW.foot], ?_, o2 _⟩
    · rw [give, setBare, if_neg (by decide), seq_run (atomClear_blank ha), setAtom_run _ c1]
      rfl
    · simp [LW.toW, UAtom.val]
  | false =>
    refine ⟨⟨70, false, .bits 0, none, none⟩, .plain (.bits 0), (m.set a (some (.atom blank))).set a (some (.atom ⟨70, false, .bits 0, none, none⟩)), ?_, set_self _ _ _, rfl, rfl, fun _ => rfl, by simp [LW.foot], ?_, o2 _⟩
    · rw [give, setBare, if_neg (by decide), seq_run (atomClear_blank ha), setAtom_run _ c1]
      rfl
    · simp [LW.toW, UAtom.val]
  | nil =>
    refine ⟨⟨78, false, .bits 0, none, none⟩, .plain (.bits 0), (m.set a (some (.atom blank))).set a (some (.atom ⟨78, false, .bits 0, none, none⟩)), ?_, set_self _ _ _, rfl, rfl, fun _ => rfl, by simp [LW.foot], ?_, o2 _⟩
    · rw [give, setBare, if_neg (by decide), seq_run (atomClear_blank ha), setAtom_run _ c1]
      rfl
    · simp [LW.toW, UAtom.val]
  | str s h0 =>
    have o3 := (own_grow wf (.buf (s ++ [0]))).frame [a]
    have c3 : (m.grow (.buf (s ++ [0]))).cell a = some (.atom blank) := by
      rw [(own_grow wf (.buf (s ++ [0]))).same a hlt (by simp)]; exact ha
    have o4 := (own_setAtom o3.wf (Nat.lt_of_lt_of_le hlt o3.brk) (.atom ⟨115, true, .ptr m.brk, none, none⟩)).frame [m.brk]
    refine ⟨⟨115, true, .ptr m.brk, none, none⟩, .str m.brk s [], (m.grow (.buf (s ++ [0]))).set a (some (.atom ⟨115, true, .ptr m.brk, none, none⟩)), ?_, set_self _ _ _, rfl, rfl, ⟨rfl, ?_, h0⟩, ?_, ?_, ?_⟩
    · rw [give, setString, seq_run (atomAt_run ha), if_neg (by simp [blank])]
      rw [seq_run (new_run m _), setAtom_run _ c3]
      rfl
    · rw [set_ne _ _ (by omega)]; exact grow_self _ _
    · simp [LW.foot]; omega
    · simp [LW.toW, UAtom.val]
    · exact (o3.trans (o4.congr (by simp; intros; exact or_comm) (fun _ => Iff.rfl))).congr (by simp) (by simp [LW.foot])
  | ptr q s k hq h0 =>
    have hqa : q ≠ a := by simpa [eq_comm] using hT
    refine ⟨⟨115, false, .ptr q, none, none⟩, .str q s k,
      (m.set a (some (.atom blank))).set a (some (.atom ⟨115, false, .ptr q, none, none⟩)), ?_, set_self _ _ _, rfl, rfl, ⟨rfl, ?_, h0⟩, ?_, ?_, ?_⟩
    · rw [give, setStringPtr, seq_run (atomClear_blank ha), setAtom_run _ c1]
      rfl
    · rw [set_ne _ _ hqa, set_ne _ _ hqa]; exact hq
    · simp [LW.foot]; omega
    · simp [LW.toW, UAtom.val]
    · exact (o2 _).frame [q]
  | blob c rest hc =>
    have hc' : Fits c := by simpa [Fits] using hc
    have e : be32 c.length ++ c ++ rest = [] ++ encMsg c ++ rest := by simp [encMsg]
    have hr : rdI32 (be32 c.length ++ c ++ rest) 0 = some (c.length : Int) := by rw [e]; exact rdI32_at [] c rest hc'
    have hsl : slice (be32 c.length ++ c ++ rest) 0 ((c.length : Int) + 4) = some (encMsg c) := by rw [e]; exact slice_msg [] c rest
    generalize hz : zeros (padN (c.length : Int).toNat - (c.length : Int).toNat) = z
    have o3 := (own_grow o1.wf (.buf (encMsg c ++ z))).frame [a]
    have c3 : ((m.set a (some (.atom blank))).grow (.buf (encMsg c ++ z))).cell a = some (.atom blank) := by
      rw [(own_grow o1.wf (.buf (encMsg c ++ z))).same a hlt (by simp)]; exact c1
    have o4 := (own_setAtom o3.wf (Nat.lt_of_lt_of_le hlt o3.brk) (.atom ⟨98, false, .ptr m.brk, none, none⟩)).frame [m.brk]
    refine ⟨⟨98, false, .ptr m.brk, none, none⟩, .blob m.brk (encMsg c ++ z),
      ((m.set a (some (.atom blank))).grow (.buf (encMsg c ++ z))).set a (some (.atom ⟨98, false, .ptr m.brk, none, none⟩)), ?_, set_self _ _ _, rfl, rfl, ⟨rfl, ?_⟩, ?_, ?_, ?_⟩
    · rw [give, setBlob, seq_run (atomClear_blank ha)]
      rw [seq_run (show ofOpt (rdI32 (be32 c.length ++ c ++ rest) 0) _ = _ by rw [hr]; rfl)]
      rw [seq_run (show ofOpt (slice (be32 c.length ++ c ++ rest) 0 ((c.length : Int) + 4)) _ = _ by rw [hsl]; rfl)]
      rw [hz, seq_run (new_run _ _), setAtom_run _ c3]
      rfl
    · rw [set_ne _ _ (by omega)]; exact grow_self _ _
    · simp [LW.foot]; omega
    · have r2 : rdI32 (encMsg c ++ z) 0 = some (c.length : Int) := rdI32_at [] c z hc'
      have s2 : slice (encMsg c ++ z) 4 (c.length : Int) = some c := slice_at (be32 c.length) c z
      simp [LW.toW, UAtom.val, r2, s2]
    · exact (o1.trans (o3.trans (o4.congr (by simp; intros; exact or_comm) (fun _ => Iff.rfl)))).congr (by simp) (by simp [LW.foot])
  | bndl b ms T hb =>
    obtain ⟨tail, l, h1, h2, h3, h4⟩ := hb
    refine ⟨⟨46, false, .ptr b, none, none⟩, .bndl b tail l, m.set a (some (.atom ⟨46, false, .ptr b, none, none⟩)), ?_, set_self _ _ _, rfl, rfl, ?_, ?_, ?_, ?_⟩
    · rw [give, setBndlU, setAtom_run _ ha]
      rfl
    · exact layW_frame _ (fun x hx => set_ne _ _ (by rintro rfl; exact hT (h2 ▸ hx))) h1
    · rw [h2]; exact List.nodup_cons.mpr ⟨hT, h3⟩
    · simp [LW.toW, UAtom.val, h4]
    · rw [h2]; exact (own_setAtom wf hlt _).frame T

/-- At `a` is a new atom that holds the value and is not linked; the blocks `D` were left behind. -/
structure Ready (m : Memory) (T D : List Nat) (a : Nat) (x : ACell) (w : LW) (v : Val) (m2 : Memory) : Prop where
  fresh : m.cell a = none
  cell : m2.cell a = some (.atom x)
  next : x.next = none
  word : x.w = w.word
  lay : LayW m2 x.tag w
  nodup : (a :: w.foot).Nodup
  val : (UAtom.mk x.tag x.alloc w.toW).val = some v
  own : Own T m (a :: w.foot ++ D) m2
  apart : ∀ y ∈ a :: w.foot, y ∉ D
  left : ∀ y ∈ D, m.brk ≤ y ∧ (m2.cell y).isSome

theorem gives_new {m : Memory} (wf : WF m) {g : Given} {v : Val} {T : List Nat} (h : GivesVal m g v T) (c : Cell) :
    GivesVal (m.grow c) g v T :=
  h.frame fun x hx => (own_grow wf c).same x (h.lt wf x hx) (by simp)

theorem ready_new {m : Memory} (wf : WF m) {g : Given} {v : Val} {T : List Nat} (h : GivesVal m g v T) :
    ∃ x w m2, give m.brk g (m.grow (.atom blank)) = some ((), m2) ∧ Ready m T [] m.brk x w v m2 := by
  have o := own_grow wf (.atom blank)
  have hT : m.brk ∉ T := fun hx => Nat.lt_irrefl _ (h.lt wf _ hx)
  obtain ⟨x, w, m2, r1, r2, r3, r4, r5, r6, r7, r8⟩ := give_lay o.wf (grow_self _ _) (gives_new wf h _) hT
  refine ⟨x, w, m2, r1, wf _ (Nat.le_refl _), r2, r3, r4, r5, r6, r7, ?_, by simp, by simp⟩
  exact ((o.frame T).trans (r8.congr (by simp) (fun _ => Iff.rfl))).congr (by simp) (by simp)

theorem ready_spare {m : Memory} (wf : WF m) {s : Bytes} (h0 : (0 : UInt8) ∉ s) :
    ∃ x w m2, give m.brk (.str s) ((m.grow (.atom blank)).grow (.buf (s ++ [0]))) = some ((), m2) ∧
      Ready m [] [m.brk + 1] m.brk x w (.str s) m2 := by
  have o := own_grow wf (.atom blank)
  have o' := own_grow o.wf (.buf (s ++ [0]))
  have hb : (m.grow (.atom blank)).brk = m.brk + 1 := grow_brk _ _
  rw [hb] at o'
  have c : ((m.grow (.atom blank)).grow (.buf (s ++ [0]))).cell m.brk = some (.atom blank) := by
    rw [o'.same _ (by omega) (by simp)]; exact grow_self _ _
  have cd : ((m.grow (.atom blank)).grow (.buf (s ++ [0]))).cell (m.brk + 1) = some (.buf (s ++ [0])) := by
    rw [← hb]; exact grow_self _ _
  obtain ⟨x, w, m2, r1, r2, r3, r4, r5, r6, r7, r8⟩ := give_lay o'.wf c (.str s h0) (by simp)
  have hlt : m.brk + 1 < ((m.grow (.atom blank)).grow (.buf (s ++ [0]))).brk := o'.wf.lt (by rw [cd]; rfl)
  have hd : m.brk + 1 ∉ m.brk :: w.foot := fun hx => by
    rcases r8.new _ hx with h | h
    · simp at h
    · omega
  refine ⟨x, w, m2, r1, wf _ (Nat.le_refl _), r2, r3, r4, r5, r6, r7, ?_, fun y hy hD => ?_, fun y hy => ?_⟩
  · have := (o.trans ((o'.frame [m.brk]).congr (by simp) (fun _ => Iff.rfl)))
    exact this.trans ((r8.frame [m.brk + 1]).congr (by simp; intros; exact or_comm) (fun _ => Iff.rfl))
  · simp only [List.mem_singleton] at hD
    exact hd (hD ▸ hy)
  · simp only [List.mem_singleton] at hy
    subst hy
    exact ⟨by omega, by rw [r8.same _ hlt (by simp), cd]; rfl⟩

theorem argsVal_split : ∀ (xs ys : List UAtom) (vs : List Val), argsVal (xs ++ ys) = some vs →
    argsVal xs = some (vs.take xs.length) ∧ argsVal ys = some (vs.drop xs.length)
  | [], ys, vs, h => by simpa [argsVal] using h
  | x :: xs, ys, vs, h => by
    simp only [List.cons_append, argsVal, Option.bind_eq_some_iff, Option.map_eq_some_iff] at h
    obtain ⟨v, h1, us, h2, rfl⟩ := h
    obtain ⟨k1, k2⟩ := argsVal_split xs ys us h2
    simp [argsVal, h1, k1, k2]

theorem toAs_length : ∀ as : List LAtom, (toAs as).length = as.length
  | [] => rfl
  | .mk p t al w :: as => by simp [toAs, toAs_length as]

/-- The atom is linked in behind `as`: this is the message then. -/
theorem ready_done {m m2 m3 : Memory} (wf : WF m) {T D : List Nat} {a p : Nat} {x : ACell} {w : LW} {v : Val} (r : Ready m T D a x w v m2)
    {ad : Option (Nat × Bytes × Bytes)} {as bs : List LAtom} {pv q : Ptr} {vs : List Val} {S : List Nat} (hT : ∀ y ∈ T, y ∉ S)
    (l : LayMsgs m pv q [.mk p ad (as ++ bs)]) (hS : footMs [.mk p ad (as ++ bs)] = S) (hnd : S.Nodup)
    (hv : argsVal (toAs (as ++ bs)) = some vs) (k : Linked p a as bs m2 m3)
    (l3 : LayMsgs m3 pv q [.mk p ad (as ++ .mk a x.tag x.alloc w :: bs)]) :
    ∃ S', MsgAt m3 p (ad.map (·.2.1)) (vs.take as.length ++ v :: vs.drop as.length) S' ∧ Own (S ++ T) m (S' ++ D) m3 ∧
      AtomAt m3 a v (a :: w.foot) ∧ (∀ y ∈ a :: w.foot, y ∈ S') ∧ m.cell a = none ∧ ∀ y ∈ D, y ∉ S' ∧ m.brk ≤ y ∧ (m3.cell y).isSome := by
  have hlt : ∀ y ∈ S, y < m.brk := fun y hy => wf.lt (layMsgs_alloc _ _ _ l y (hS ▸ hy))
  have hdis := r.own.disj hlt (fun y hy hyT => hT y hyT hy)
  have hmem : ∀ y, y ∈ footMs [.mk p ad (as ++ .mk a x.tag x.alloc w :: bs)] ↔ y ∈ S ++ a :: w.foot := by
    intro y
    rw [← hS]
    simp only [footMs, footAs_append, footAs, List.mem_append, List.mem_cons]
    grind
  have hnd' : (footMs [.mk p ad (as ++ .mk a x.tag x.alloc w :: bs)]).Nodup := by
    have h1 := r.nodup
    have h2 : ∀ y ∈ S, y ∉ a :: w.foot := fun y hy hh => hdis y hy (by simp only [List.mem_append]; exact .inl hh)
    rw [← hS] at hnd h2
    simp only [footMs, footAs_append, footAs, List.append_nil] at hnd h1 h2 ⊢
    grind
  have hlt2 : ∀ y ∈ S ++ a :: w.foot, y < m2.brk := by
    intro y hy
    rcases List.mem_append.mp hy with hy | hy
    · exact Nat.lt_of_lt_of_le (hlt y hy) r.own.brk
    · rcases List.mem_cons.mp hy with rfl | hy
      · exact r.own.wf.lt (by rw [r.cell]; rfl)
      · exact r.own.wf.lt (layW_alloc _ r.lay y hy)
  have hk : Own (S ++ a :: w.foot) m2 (S ++ a :: w.foot) m3 := by
    refine own_same r.own.wf k.1 hlt2 fun y hy => k.2 y fun hh => hy ?_
    rw [← hS]
    simp only [footMs, footAs_append, List.mem_append, List.mem_cons] at hh ⊢
    grind
  obtain ⟨a1, a2⟩ := argsVal_split (toAs as) (toAs bs) vs (by rw [← toAs_append]; exact hv)
  rw [toAs_length] at a1 a2
  refine ⟨_, ⟨pv, q, ad, _, l3, rfl, hnd', rfl, ?_⟩, ?_, ?_, ?_, ?_, ?_⟩
  · rw [toAs_append]
    refine Mem.argsVal_append _ _ _ _ a1 ?_
    simp only [toAs, argsVal, r.val, Option.bind_some, a2, Option.map_some]
  · have o1 : Own (S ++ T) m (S ++ a :: w.foot ++ D) m2 :=
      (r.own.frame S).congr (by intro y; simp only [List.mem_append]; exact or_comm)
        (by intro y; simp only [List.mem_append]; grind)
    exact (o1.trans (hk.frame D)).congr (fun _ => Iff.rfl) (by intro y; simp only [List.mem_append, hmem])
  · simp only [LayMsgs, and_true] at l3
    have l4 := l3.2.2
    rw [layArgs_append] at l4
    have l5 := l4.2
    simp only [LayArgs] at l5
    exact ⟨ltA none as, hdA none bs, x.tag, x.alloc, w, ⟨l5.1, l5.2.1, trivial⟩, by simp [footAs], r.nodup, r.val⟩
  · intro y hy
    rw [hmem]
    exact List.mem_append.mpr (.inr hy)
  · exact r.fresh
  · intro y hy
    obtain ⟨h1, h2⟩ := r.left y hy
    have h3 : y ∉ S ++ a :: w.foot := by
      rw [List.mem_append]
      rintro (h | h)
      · have := hlt y h; omega
      · exact r.apart y h hy
    exact ⟨by rw [hmem]; exact h3, h1, by rw [hk.cell r.own.wf h2 h3]; exact h2⟩

theorem ready_nodup {m m2 : Memory} (wf : WF m) {T D : List Nat} {a : Nat} {x : ACell} {w : LW} {v : Val} (r : Ready m T D a x w v m2)
    {ms : List LMsg} {pv q : Ptr} (l : LayMsgs m pv q ms) (hnd : (footMs ms).Nodup) (hT : ∀ y ∈ T, y ∉ footMs ms) :
    (footMs ms ++ a :: w.foot).Nodup ∧ LayMsgs m2 pv q ms := by
  have hlt : ∀ y ∈ footMs ms, y < m.brk := fun y hy => wf.lt (layMsgs_alloc _ _ _ l y hy)
  have hdis := r.own.disj hlt (fun y hy hyT => hT y hyT hy)
  refine ⟨List.nodup_append.mpr ⟨hnd, r.nodup, fun y hy z hz e => hdis y hy (by subst e; simp only [List.mem_append]; exact .inl hz)⟩, ?_⟩
  exact layMsgs_frame _ _ _ (fun y hy => r.own.same y (hlt y hy) fun hh => hT y hh hy) l

/-- What the caller has after a value was put into a message: the message with the new list of arguments, in its own blocks, those
given and new ones; the atom returned is one of them; every other block is as before, and of the blocks of the message, those given
and the new ones only the blocks `D` exist besides those of the message. -/
def Put (m : Memory) (p : Nat) (addr : Option Bytes) (vs : List Val) (v : Val) (S T D : List Nat) (a : Nat) (m' : Memory) : Prop :=
  ∃ S' U, MsgAt m' p addr vs S' ∧ Own (S ++ T) m (S' ++ D) m' ∧ AtomAt m' a v U ∧ (∀ y ∈ U, y ∈ S') ∧ m.cell a = none ∧
    ∀ y ∈ D, y ∉ S' ∧ m.brk ≤ y ∧ (m'.cell y).isSome

theorem ready_append {m m2 : Memory} (wf : WF m) {T D : List Nat} {a p : Nat} {x : ACell} {w : LW} {v : Val} (r : Ready m T D a x w v m2)
    {addr : Option Bytes} {vs : List Val} {S : List Nat} (h : MsgAt m p addr vs S) (hT : ∀ y ∈ T, y ∉ S) :
    ∃ m', appendAtom p a m2 = some ((), m') ∧ Put m p addr (vs ++ [v]) v S T D a m' := by
  obtain ⟨pv, q, ad, args, l, rfl, hnd, rfl, hv⟩ := h
  obtain ⟨nd, l2⟩ := ready_nodup wf r l hnd hT
  obtain ⟨m', r1, r2, r3, r4⟩ := appendAtom_lay l2 r.cell r.word r.lay nd
  obtain ⟨S', d⟩ := ready_done wf r hT (as := args) (bs := []) (by rw [List.append_nil]; exact l) (by rw [List.append_nil]) hnd
    (by rw [List.append_nil]; exact hv) (m3 := m') ⟨r2, fun y hy => by
      simp only [footAs, List.append_nil, List.mem_cons, not_or] at hy
      exact r4 y (by simp only [List.mem_cons, not_or]; exact ⟨hy.1, hy.2.2⟩) hy.2.1⟩ r3
  have hl : vs.length = args.length := by rw [← argsVal_length _ _ hv, toAs_length]
  rw [List.take_of_length_le (by omega), List.drop_of_length_le (by omega)] at d
  exact ⟨m', r1, S', _, d⟩

theorem ready_prepend {m m2 : Memory} (wf : WF m) {T D : List Nat} {a p : Nat} {x : ACell} {w : LW} {v : Val} (r : Ready m T D a x w v m2)
    {addr : Option Bytes} {vs : List Val} {S : List Nat} (h : MsgAt m p addr vs S) (hT : ∀ y ∈ T, y ∉ S) :
    ∃ m', prependAtom p a m2 = some ((), m') ∧ Put m p addr (v :: vs) v S T D a m' := by
  obtain ⟨pv, q, ad, args, l, rfl, hnd, rfl, hv⟩ := h
  obtain ⟨nd, l2⟩ := ready_nodup wf r l hnd hT
  obtain ⟨m', r1, r2, r3⟩ := prependAtom_lay l2 r.cell r.word r.lay nd
  obtain ⟨S', d⟩ := ready_done wf r hT (as := []) (bs := args) l rfl hnd hv r2 r3
  exact ⟨m', r1, S', a :: w.foot, d⟩

theorem ready_insert {m m2 : Memory} (wf : WF m) {T D : List Nat} {a p : Nat} {x : ACell} {w : LW} {v : Val} (r : Ready m T D a x w v m2)
    {addr : Option Bytes} {vs : List Val} {S : List Nat} (h : MsgAt m p addr vs S) (hT : ∀ y ∈ T, y ∉ S) (k : Nat) (near : Bool) :
    ∃ m', insertAtom p a k near m2 = some ((), m') ∧ Put m p addr (vs.take k ++ v :: vs.drop k) v S T D a m' := by
  obtain ⟨pv, q, ad, args, l, rfl, hnd, rfl, hv⟩ := h
  obtain ⟨nd, l2⟩ := ready_nodup wf r l hnd hT
  have hl : vs.length = args.length := by rw [← argsVal_length _ _ hv, toAs_length]
  have e : args = args.take k ++ args.drop k := (List.take_append_drop k args).symm
  have hp : (k : Int).toNat = (args.take k).length ∨ (args.take k).length ≤ (k : Int).toNat ∧ args.drop k = [] := by
    by_cases hk : k ≤ args.length
    · left; simp; omega
    · right; exact ⟨by simp; omega, List.drop_of_length_le (by omega)⟩
  obtain ⟨m', r1, r2, r3⟩ := insertAtom_lay (as := args.take k) (bs := args.drop k) (by rw [← e]; exact l2) r.cell r.next r.word r.lay
    (by rw [← e]; exact nd) k near (by omega) hp
  obtain ⟨S', d⟩ := ready_done wf r hT (as := args.take k) (bs := args.drop k) (by rw [← e]; exact l) (by rw [← e]) hnd
    (by rw [← e]; exact hv) r2 r3
  refine ⟨m', r1, S', a :: w.foot, ?_⟩
  have e1 : vs.take (args.take k).length = vs.take k := by
    rw [List.length_take]
    by_cases hk : k ≤ args.length
    · rw [Nat.min_eq_left hk]
    · rw [Nat.min_eq_right (by omega), List.take_of_length_le (by omega), List.take_of_length_le (by omega)]
  have e2 : vs.drop (args.take k).length = vs.drop k := by
    rw [List.length_take]
    by_cases hk : k ≤ args.length
    · rw [Nat.min_eq_left hk]
    · rw [Nat.min_eq_right (by omega), List.drop_of_length_le (by omega), List.drop_of_length_le (by omega)]
  rw [e1, e2] at d
  exact d

/-- **C96 (appending).**  Appending a value makes it the last argument; nothing is lost. -/
theorem C96_append {m : Memory} (wf : WF m) {p : Nat} {addr : Option Bytes} {vs : List Val} {S : List Nat} (h : MsgAt m p addr vs S)
    {g : Given} {v : Val} {T : List Nat} (hg : GivesVal m g v T) (hT : ∀ y ∈ T, y ∉ S) :
    ∃ a m', appendGiven p g m = some (a, m') ∧ Put m p addr (vs ++ [v]) v S T [] a m' := by
  obtain ⟨x, w, m2, r1, r⟩ := ready_new wf hg
  obtain ⟨m', r2, d⟩ := ready_append wf r h hT
  refine ⟨m.brk, m', ?_, d⟩
  rw [appendGiven, seq_run (show atomAlloc m = some (m.brk, m.grow (.atom blank)) from rfl), seq_run r1, seq_run r2]
  rfl

/-- The full statement for prepending: the value becomes the first argument and nothing is lost.  It fails for strings
(`C96_full_fails`). -/
def PrependFull : Prop := ∀ {m : Memory}, WF m → ∀ {p : Nat} {addr : Option Bytes} {vs : List Val} {S : List Nat}, MsgAt m p addr vs S →
  ∀ {g : Given} {v : Val} {T : List Nat}, GivesVal m g v T → (∀ y ∈ T, y ∉ S) →
    ∃ a m', prependGiven p g m = some (a, m') ∧ Put m p addr (v :: vs) v S T [] a m'

/-- **C96 (prepending; partial).**  Prepending a value makes it the first argument.  Missing: strings given as `const char *`, for which
one block is lost (`C96_prepend_string`). -/
theorem C96_prepend_partial {m : Memory} (wf : WF m) {p : Nat} {addr : Option Bytes} {vs : List Val} {S : List Nat}
    (h : MsgAt m p addr vs S) {g : Given} {v : Val} {T : List Nat} (hg : GivesVal m g v T) (hT : ∀ y ∈ T, y ∉ S) (hs : ∀ s, g ≠ .str s) :
    ∃ a m', prependGiven p g m = some (a, m') ∧ Put m p addr (v :: vs) v S T [] a m' := by
  obtain ⟨x, w, m2, r1, r⟩ := ready_new wf hg
  obtain ⟨m', r2, d⟩ := ready_prepend wf r h hT
  refine ⟨m.brk, m', ?_, d⟩
  rw [prependGiven, seq_run (show atomAlloc m = some (m.brk, m.grow (.atom blank)) from rfl),
    seq_run (show spare g (m.grow (.atom blank)) = some ((), m.grow (.atom blank)) by cases g <;> first | rfl | exact absurd rfl (hs _)),
    seq_run r1, seq_run r2]
  rfl

/-- **C96 (prepending a string).**  The string becomes the first argument; one block remains that belongs to nobody. -/
theorem C96_prepend_string {m : Memory} (wf : WF m) {p : Nat} {addr : Option Bytes} {vs : List Val} {S : List Nat}
    (h : MsgAt m p addr vs S) {s : Bytes} (h0 : (0 : UInt8) ∉ s) :
    ∃ a d m', prependGiven p (.str s) m = some (a, m') ∧ Put m p addr (.str s :: vs) (.str s) S [] [d] a m' := by
  obtain ⟨x, w, m2, r1, r⟩ := ready_spare wf h0
  obtain ⟨m', r2, d⟩ := ready_prepend wf r h (by simp)
  refine ⟨m.brk, m.brk + 1, m', ?_, d⟩
  rw [prependGiven, seq_run (show atomAlloc m = some (m.brk, m.grow (.atom blank)) from rfl),
    seq_run (show spare (.str s) (m.grow (.atom blank)) = some ((), (m.grow (.atom blank)).grow (.buf (s ++ [0]))) from rfl),
    seq_run r1, seq_run r2]
  rfl

/-- **C96 (inserting; partial).**  Inserting a value at a position puts it there, behind the last argument if the position is larger than
their number; on both sides of the middle.  Missing: strings (`C96_insert_string`, `C96_insert_pointer`) and negative positions. -/
theorem C96_insert_partial {m : Memory} (wf : WF m) {p : Nat} {addr : Option Bytes} {vs : List Val} {S : List Nat}
    (h : MsgAt m p addr vs S) {g : Given} {v : Val} {T : List Nat} (hg : GivesVal m g v T) (hT : ∀ y ∈ T, y ∉ S) (hs : ∀ s, g ≠ .str s)
    (hq : ∀ q, g ≠ .ptr q) (k : Nat) (near : Bool) :
    ∃ a m', insertGiven p g k near m = some (a, m') ∧ Put m p addr (vs.take k ++ v :: vs.drop k) v S T [] a m' := by
  obtain ⟨x, w, m2, r1, r⟩ := ready_new wf hg
  obtain ⟨m', r2, d⟩ := ready_insert wf r h hT k near
  refine ⟨m.brk, m', ?_, d⟩
  rw [insertGiven, seq_run (show atomAlloc m = some (m.brk, m.grow (.atom blank)) from rfl),
    seq_run (show spare g (m.grow (.atom blank)) = some ((), m.grow (.atom blank)) by cases g <;> first | rfl | exact absurd rfl (hs _)),
    show giveCopy m.brk g = give m.brk g by cases g <;> first | rfl | exact absurd rfl (hq _),
    seq_run r1, seq_run r2]
  rfl

/-- **C96 (inserting a string).**  As for prepending: one block remains. -/
theorem C96_insert_string {m : Memory} (wf : WF m) {p : Nat} {addr : Option Bytes} {vs : List Val} {S : List Nat}
    (h : MsgAt m p addr vs S) {s : Bytes} (h0 : (0 : UInt8) ∉ s) (k : Nat) (near : Bool) :
    ∃ a d m', insertGiven p (.str s) k near m = some (a, m') ∧ Put m p addr (vs.take k ++ .str s :: vs.drop k) (.str s) S [] [d] a m' := by
  obtain ⟨x, w, m2, r1, r⟩ := ready_spare wf h0
  obtain ⟨m', r2, d⟩ := ready_insert wf r h (by simp) k near
  refine ⟨m.brk, m.brk + 1, m', ?_, d⟩
  rw [insertGiven, seq_run (show atomAlloc m = some (m.brk, m.grow (.atom blank)) from rfl),
    seq_run (show spare (.str s) (m.grow (.atom blank)) = some ((), (m.grow (.atom blank)).grow (.buf (s ++ [0]))) from rfl),
    show giveCopy m.brk (.str s) = give m.brk (.str s) from rfl, seq_run r1, seq_run r2]
  rfl

/-- **C96 (inserting a string by its pointer).**  Other than `append` and `prepend`, `osc_message_u_insertStringPtr` copies: the block of
the caller stays the caller's, as it was. -/
theorem C96_insert_pointer {m : Memory} (wf : WF m) {p : Nat} {addr : Option Bytes} {vs : List Val} {S : List Nat}
    (h : MsgAt m p addr vs S) {b : Nat} {s rest : Bytes} (hb : m.cell b = some (.buf (s ++ 0 :: rest))) (h0 : (0 : UInt8) ∉ s) (hS : b ∉ S)
    (k : Nat) (near : Bool) :
    ∃ a m', insertGiven p (.ptr b) k near m = some (a, m') ∧ Put m p addr (vs.take k ++ .str s :: vs.drop k) (.str s) S [] [] a m' ∧
      m'.cell b = m.cell b := by
  have hlt : b < m.brk := wf.lt (by rw [hb]; rfl)
  obtain ⟨x, w, m2, r1, r⟩ := ready_new wf (.str s h0)
  obtain ⟨m', r2, d⟩ := ready_insert wf r h (by simp) k near
  refine ⟨m.brk, m', ?_, d, ?_⟩
  · have hb' : (m.grow (.atom blank)).cell b = some (.buf (s ++ 0 :: rest)) := by
      rw [(own_grow wf (.atom blank)).same b hlt (by simp)]; exact hb
    rw [insertGiven, seq_run (show atomAlloc m = some (m.brk, m.grow (.atom blank)) from rfl),
      seq_run (show spare (.ptr b) (m.grow (.atom blank)) = some ((), m.grow (.atom blank)) from rfl),
      seq_run (show giveCopy m.brk (.ptr b) (m.grow (.atom blank)) = some ((), m2) by
        rw [giveCopy, seq_run (strAt_run hb' h0)]; exact r1), seq_run r2]
    rfl
  · obtain ⟨S', U, -, o, -⟩ := d
    exact o.same b hlt (by simpa using hS)

theorem alloc_lay {m : Memory} (wf : WF m) {s : Bytes} (hs : s.head? = some 47) (h0 : (0 : UInt8) ∉ s) :
    ∃ m3, allocWithAddress (some s) m = some (m.brk, m3) ∧ MsgAt m3 m.brk (some s) [] [m.brk, m.brk + 1] ∧
      Own [] m [m.brk, m.brk + 1] m3 := by
  let c0 : MCell := ⟨none, 0, none, none, none, none⟩
  let m1 := m.grow (.msg c0)
  let m2 := m1.grow (.buf (s ++ [0]))
  let m3 := m2.set m.brk (some (.msg { c0 with addr := some (m.brk + 1) }))
  have o1 := own_grow wf (.msg c0)
  have hb : m1.brk = m.brk + 1 := grow_brk _ _
  have o2 := own_grow o1.wf (.buf (s ++ [0]))
  have e1 : m1.cell m.brk = some (.msg c0) := grow_self _ _
  have e2 : m2.cell m.brk = some (.msg c0) := by
    rw [o2.same _ (by rw [grow_brk]; omega) (by simp)]; exact e1
  have e3 : m2.cell (m.brk + 1) = some (.buf (s ++ [0])) := by rw [← hb]; exact grow_self _ _
  have hb2 : m2.brk = m.brk + 2 := by show (m1.grow _).brk = _; rw [grow_brk, hb]
  have o3 : Own [m.brk] m2 [m.brk] m3 := own_same o2.wf rfl (by simp; omega) fun x hx => set_ne _ _ (by simpa using hx)
  have o : Own [] m [m.brk, m.brk + 1] m3 := by
    refine (o1.trans ((o2.frame [m.brk]).congr (by simp) (fun _ => Iff.rfl))).trans ((o3.frame [m.brk + 1]).congr ?_ ?_)
    · intro x; rw [grow_brk]; simp; exact or_comm
    · intro x; simp
  have hm : MsgAt m3 m.brk (some s) [] [m.brk, m.brk + 1] := by
    refine ⟨none, none, some (m.brk + 1, s, []), [], ?_, by simp [footMs, footAddr, footAs], by simp, rfl, rfl⟩
    simp only [LayMsgs, LayArgs, and_true]
    refine ⟨set_self _ _ _, ?_, h0⟩
    show m3.cell (m.brk + 1) = _
    rw [show m3.cell (m.brk + 1) = m2.cell (m.brk + 1) from set_ne _ _ (by omega)]
    exact e3
  have hrun : allocWithAddress (some s) m = some (m.brk, m3) := by
    rw [allocWithAddress, seq_run (show msgAlloc m = some (m.brk, m1) from rfl)]
    rw [seq_run (show setAddress m.brk (some s) m1 = some ((), m3) by
      rw [setAddress, if_neg (by simp [hs]), seq_run (msgAt_run e1)]
      show giveAddr m.brk (some s) m1 = _
      rw [giveAddr, seq_run (new_run m1 _), hb, setMsg_run _ e2])]
    rfl
  exact ⟨m3, hrun, hm, o⟩

/-- **C96 (making).**  A new message with a slash-led address and one value, in new blocks and those given. -/
theorem C96_alloc {m : Memory} (wf : WF m) {s : Bytes} (hs : s.head? = some 47) (h0 : (0 : UInt8) ∉ s) {g : Given} {v : Val}
    {T : List Nat} (hg : GivesVal m g v T) :
    ∃ p S m', allocWith (some s) g m = some (p, m') ∧ MsgAt m' p (some s) [v] S ∧ Own T m S m' ∧ m.cell p = none := by
  obtain ⟨m3, hrun, hm, o⟩ := alloc_lay wf hs h0
  have hg3 : GivesVal m3 g v T := hg.frame fun x hx => o.same x (hg.lt wf x hx) (by simp)
  obtain ⟨a, m', r, S', U, d1, d2, -⟩ := C96_append o.wf hm hg3 (fun y hy => by
    have := hg.lt wf y hy
    simp; omega)
  refine ⟨m.brk, S', m', ?_, d1, ?_, wf _ (Nat.le_refl _)⟩
  · rw [allocWith, seq_run hrun, seq_run r]
    rfl
  · refine ((o.frame T).trans (d2.congr (fun _ => Iff.rfl) (by simp))).congr (by simp) (fun _ => Iff.rfl)

/-- **C96 fails in full.**  After prepending (or inserting) a string and freeing the message, a block that did not exist before is still
allocated; for every message, every string without NUL and every position. -/
theorem C96_lost {m : Memory} (wf : WF m) {p : Nat} {addr : Option Bytes} {vs : List Val} {S : List Nat} (h : MsgAt m p addr vs S)
    {s : Bytes} (h0 : (0 : UInt8) ∉ s) (k : Nat) (near : Bool) :
    (∃ a m' m'' d, prependGiven p (.str s) m = some (a, m') ∧ Op.exec (.msgFree p) m' = some ([], m'') ∧ m.cell d = none ∧ (m''.cell d).isSome) ∧
    (∃ a m' m'' d, insertGiven p (.str s) k near m = some (a, m') ∧ Op.exec (.msgFree p) m' = some ([], m'') ∧ m.cell d = none ∧
      (m''.cell d).isSome) := by
  constructor
  · obtain ⟨a, d, m', r, S', U, h1, h2, -, -, -, h3⟩ := C96_prepend_string wf h h0
    obtain ⟨m'', f1, f2, f3⟩ := C51_message h2.wf h1
    obtain ⟨k1, k2, k3⟩ := h3 d (by simp)
    exact ⟨a, m', m'', d, r, f1, wf d k2, by rw [f3 d k1]; exact k3⟩
  · obtain ⟨a, d, m', r, S', U, h1, h2, -, -, -, h3⟩ := C96_insert_string wf h h0 k near
    obtain ⟨m'', f1, f2, f3⟩ := C51_message h2.wf h1
    obtain ⟨k1, k2, k3⟩ := h3 d (by simp)
    exact ⟨a, m', m'', d, r, f1, wf d k2, by rw [f3 d k1]; exact k3⟩

/-- **C96 fails in full** for prepending. -/
theorem C96_full_fails : ¬ PrependFull := by
  intro hf
  obtain ⟨a, m', r, S2, U2, h1, h2, -⟩ := hf wfEx msgEx (GivesVal.str [104] (by simp)) (by simp)
  obtain ⟨a', d, m2, r', S', U, k1, k2, -, -, -, k3⟩ := C96_prepend_string wfEx msgEx (s := [104]) (by simp)
  rw [r] at r'
  obtain ⟨rfl, rfl⟩ := Prod.mk.inj (Option.some.inj r')
  obtain ⟨n1, f1, f2, f3⟩ := C51_message h2.wf h1
  obtain ⟨n2, g1, g2, g3⟩ := C51_message h2.wf k1
  rw [f1] at g1
  obtain ⟨-, rfl⟩ := Prod.mk.inj (Option.some.inj g1)
  obtain ⟨q1, q2, q3⟩ := k3 d (by simp)
  have hd : d ∉ S2 := fun hd => by
    have := f2 d hd
    rw [g3 d q1] at this
    rw [this] at q3
    cases q3
  rw [h2.clean d (by simpa using hd) (.inr q2)] at q3
  cases q3

/-- **C96 fails for negative positions**: with position -1 the message is no longer a message (it counts three arguments and has two
in its list). -/
theorem C96_negative_fails : ∃ a m', insertGiven 2 (.bits 105 7) (-1) true memEx = some (a, m') ∧ ¬ ∃ addr vs S, MsgAt m' 2 addr vs S := by
  obtain ⟨a, m', h, h2, h3, h4⟩ : ∃ a m', insertGiven 2 (.bits 105 7) (-1) true memEx = some (a, m') ∧
      m'.cell 2 = some (.msg ⟨some 1, 3, some 3, some 4, none, none⟩) ∧ m'.cell 3 = some (.atom ⟨105, false, .bits 1, some 4, some 10⟩) ∧
      m'.cell 4 = some (.atom ⟨115, true, .ptr 5, none, some 3⟩) := ⟨_, _, rfl, rfl, rfl, rfl⟩
  refine ⟨a, m', h, ?_⟩
  rintro ⟨addr, vs, S, pv, q, ad, args, l, -⟩
  simp only [LayMsgs, and_true] at l
  obtain ⟨l1, -, l2⟩ := l
  rw [h2] at l1
  simp only [Option.some.injEq, Cell.msg.injEq, MCell.mk.injEq] at l1
  obtain ⟨-, l3, l4, -⟩ := l1
  have l3 : args.length = 3 := by omega
  match args, l3 with
  | [.mk p1 t1 al1 w1, .mk p2 t2 al2 w2, .mk p3 t3 al3 w3], _ =>
    simp only [hdA, LAtom.p, Option.some.injEq] at l4
    subst l4
    simp only [LayArgs, hdA, LAtom.p] at l2
    rw [h3] at l2
    simp at l2

/-! Non-trivial cases: the message `/a 1 "hi"` gets a blob behind, a byte in the middle, a string that the caller
gives away in front. -/

example : ∃ a m', appendGiven 2 (.blob [0, 0, 0, 2, 8, 9]) memEx = some (a, m') ∧
    Put memEx 2 (some [47, 97]) [.num 105 1, .str [104, 105], .blob [8, 9]] (.blob [8, 9]) [2, 1, 3, 4, 5] [] [] a m' :=
  C96_append wfEx msgEx (.blob [8, 9] [] (by decide)) (by simp)

example : ∃ a m', insertGiven 2 (.bits 99 300) 1 true memEx = some (a, m') ∧
    Put memEx 2 (some [47, 97]) [.num 105 1, .num 99 44, .str [104, 105]] (.num 99 44) [2, 1, 3, 4, 5] [] [] a m' :=
  C96_insert_partial wfEx msgEx (.num 99 8 300 rfl) (by simp) (by simp) (by simp) 1 true

example : ∃ a m', prependGiven 2 (.ptr 8) memEx = some (a, m') ∧
    Put memEx 2 (some [47, 97]) [.str [], .num 105 1, .str [104, 105]] (.str []) [2, 1, 3, 4, 5] [8] [] a m' :=
  C96_prepend_partial wfEx msgEx (.ptr 8 [] [0, 0, 1, 42, 0, 0, 0] rfl (by simp)) (by simp) (by simp)

end Libo.Props
