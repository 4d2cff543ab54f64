import Verif.MemFree
/-!
# Programs that own some blocks and leave others alone

`Own F m F' m'`: a program that works on the blocks `F` took the memory from `m` to `m'`, where it works on `F'`; nothing else
has changed and no block was lost on the way.
-/

namespace Libo.Mem
open Libo

structure Own (F : List Nat) (m : Memory) (F' : List Nat) (m' : Memory) : Prop where
  brk : m.brk ≤ m'.brk
  wf : WF m'
  same : ∀ x, x < m.brk → x ∉ F → m'.cell x = m.cell x
  new : ∀ x ∈ F', x ∈ F ∨ m.brk ≤ x
  clean : ∀ x, x ∉ F' → (x ∈ F ∨ m.brk ≤ x) → m'.cell x = none

theorem Own.refl {m : Memory} (wf : WF m) (F : List Nat) : Own F m F m :=
  ⟨Nat.le_refl _, wf, fun _ _ _ => rfl, fun _ h => Or.inl h, fun x h1 h2 => by
    rcases h2 with h2 | h2
    · exact absurd h2 h1
    · exact wf x h2⟩

theorem Own.trans {F G H : List Nat} {m m' m'' : Memory} (h : Own F m G m') (k : Own G m' H m'') : Own F m H m'' where
  brk := Nat.le_trans h.brk k.brk
  wf := k.wf
  same := fun x hx hF => by
    rw [k.same x (Nat.lt_of_lt_of_le hx h.brk) (fun hG => by
      rcases h.new x hG with h1 | h1
      · exact hF h1
      · omega), h.same x hx hF]
  new := fun x hx => by
    rcases k.new x hx with h1 | h1
    · exact h.new x h1
    · exact Or.inr (Nat.le_trans h.brk h1)
  clean := fun x hx hF => by
    by_cases hG : x ∈ G
    · exact k.clean x hx (Or.inl hG)
    · by_cases hb : m'.brk ≤ x
      · exact k.clean x hx (Or.inr hb)
      · rw [k.same x (by omega) hG, h.clean x hG hF]

/-- Only which blocks there are matters. -/
theorem Own.congr {F F1 G G1 : List Nat} {m m' : Memory} (h : Own F m G m') (hF : ∀ x, x ∈ F ↔ x ∈ F1) (hG : ∀ x, x ∈ G ↔ x ∈ G1) :
    Own F1 m G1 m' where
  brk := h.brk
  wf := h.wf
  same := fun x hx hn => h.same x hx (by rwa [hF])
  new := fun x hx => by rw [← hF]; exact h.new x (by rwa [hG])
  clean := fun x hx hn => h.clean x (by rwa [hG]) (by rwa [hF])

/-- Other blocks that are there stay there. -/
theorem Own.frame {F G : List Nat} {m m' : Memory} (h : Own F m G m') (R : List Nat) :
    Own (F ++ R) m (G ++ R) m' where
  brk := h.brk
  wf := h.wf
  same := fun x hx hn => h.same x hx (fun hF => hn (List.mem_append.mpr (Or.inl hF)))
  new := fun x hx => by
    rcases List.mem_append.mp hx with h1 | h1
    · rcases h.new x h1 with h2 | h2
      · exact Or.inl (List.mem_append.mpr (Or.inl h2))
      · exact Or.inr h2
    · exact Or.inl (List.mem_append.mpr (Or.inr h1))
  clean := fun x hx hn => by
    simp only [List.mem_append, not_or] at hx hn
    refine h.clean x hx.1 ?_
    rcases hn with (h1 | h1) | h1
    · exact Or.inl h1
    · exact absurd h1 hx.2
    · exact Or.inr h1

theorem Own.step {F G : List Nat} {m m' : Memory} (h : Own F m G m') : Step F m m' := ⟨h.brk, h.wf, h.same⟩

/-- Blocks of the rest are disjoint from what the program works on later. -/
theorem Own.disj {F G : List Nat} {m m' : Memory} (h : Own F m G m') {R : List Nat} (hR : ∀ x ∈ R, x < m.brk)
    (hd : ∀ x ∈ R, x ∉ F) : ∀ x ∈ R, x ∉ G := fun x hx hG => by
  rcases h.new x hG with h1 | h1
  · exact hd x hx h1
  · have := hR x hx; omega

theorem Own.lt {F G : List Nat} {m m' : Memory} (h : Own F m G m') {R : List Nat} (hR : ∀ x ∈ R, x < m.brk) :
    ∀ x ∈ R, x < m'.brk := fun x hx => Nat.lt_of_lt_of_le (hR x hx) h.brk

theorem Own.cell {F G : List Nat} {m m' : Memory} (h : Own F m G m') (wf : WF m) {x : Nat} (hx : (m.cell x).isSome) (hF : x ∉ F) :
    m'.cell x = m.cell x := h.same x (wf.lt hx) hF

/-- A program that changes blocks of `F` without allocating or freeing. -/
theorem own_same {F : List Nat} {m m' : Memory} (wf : WF m) (hb : m'.brk = m.brk) (hF : ∀ x ∈ F, x < m.brk)
    (h : ∀ x, x ∉ F → m'.cell x = m.cell x) : Own F m F m' where
  brk := by omega
  wf := (step_same wf hb hF h).wf
  same := fun x _ hx => h x hx
  new := fun x hx => Or.inl hx
  clean := fun x hx hn => by
    rw [h x hx]
    rcases hn with h1 | h1
    · exact absurd h1 hx
    · exact wf x h1

theorem own_erase {F : List Nat} {m : Memory} (wf : WF m) : Own F m [] (m.erase F) where
  brk := Nat.le_refl _
  wf := fun b hb => by rw [erase_cell]; split; rfl; exact wf b hb
  same := fun x _ hx => erase_ne m hx
  new := fun x hx => by simp at hx
  clean := fun x _ hn => by
    rw [erase_cell]
    split
    · rfl
    · rcases hn with h1 | h1
      · contradiction
      · exact wf x h1

/-- A program that allocates exactly the blocks `G`. -/
theorem own_new {G : List Nat} {m m' : Memory} (h : Step [] m m') (nd : G.Nodup) (hG : ∀ x ∈ G, m.brk ≤ x)
    (ha : ∀ x ∈ G, (m'.cell x).isSome) (hl : G.length + m.brk = m'.brk) : Own [] m G m' where
  brk := h.brk
  wf := h.wf
  same := fun x hx _ => h.same x hx (by simp)
  new := fun x hx => Or.inr (hG x hx)
  clean := fun x hx hn => by
    simp only [List.not_mem_nil, false_or] at hn
    rcases Nat.lt_or_ge x m'.brk with h1 | h1
    · exact absurd (all_of_count nd (fun y hy => ⟨hG y hy, h.wf.lt (ha y hy)⟩) hl x hn h1) hx
    · exact h.wf x h1

/-! ### Links -/

/-- Set the `prev` of the first message. -/
theorem relinkM_prev {m : Memory} {pv q : Ptr} {ms : List LMsg} (pv' : Ptr) (l : LayMsgs m pv q ms) (nd : (footMs ms).Nodup) :
    ∃ m', whenSome (hdM none ms) (fun n => setMsg n fun y => { y with prev := pv' }) m = some ((), m') ∧ m'.brk = m.brk ∧
      LayMsgs m' pv' q ms ∧ ∀ x, x ∉ footMs ms → m'.cell x = m.cell x := by
  match ms, l, nd with
  | [], _, _ => exact ⟨m, rfl, rfl, by simp [LayMsgs], fun _ _ => rfl⟩
  | .mk p addr args :: ms, l, nd =>
    simp only [LayMsgs] at l
    simp only [footMs, List.nodup_cons, List.mem_append, not_or] at nd
    rw [hdM_cons]
    refine ⟨_, setMsg_run _ l.1, rfl, ?_, fun x hx => set_ne _ _ (fun e => hx (by simp [footMs, e]))⟩
    simp only [LayMsgs]
    have key : ∀ x, x ∈ footAddr addr ∨ x ∈ footAs args ∨ x ∈ footMs ms → x ≠ p := by
      rintro x h rfl
      rcases h with h | h | h
      · exact nd.1.1 h
      · exact nd.1.2.1 h
      · exact nd.1.2.2 h
    refine ⟨by rw [set_self], layAddr_frame (fun x hx => set_ne _ _ (key x (Or.inl hx))) l.2.1,
      layArgs_frame _ _ _ (fun x hx => set_ne _ _ (key x (Or.inr (Or.inl hx)))) l.2.2.1,
      layMsgs_frame _ _ _ (fun x hx => set_ne _ _ (key x (Or.inr (Or.inr hx)))) l.2.2.2⟩

/-- Set the `next` of the last message. -/
theorem relinkM_next {m : Memory} {pv q : Ptr} {ms : List LMsg} (q' : Ptr) (l : LayMsgs m pv q ms) (nd : (footMs ms).Nodup) :
    ∃ m', whenSome (ltM none ms) (fun n => setMsg n fun y => { y with next := q' }) m = some ((), m') ∧ m'.brk = m.brk ∧
      LayMsgs m' pv q' ms ∧ ∀ x, x ∉ footMs ms → m'.cell x = m.cell x := by
  rcases List.eq_nil_or_concat ms with rfl | ⟨init, last, rfl⟩
  · exact ⟨m, rfl, rfl, by simp [LayMsgs], fun _ _ => rfl⟩
  · obtain ⟨p, addr, args⟩ := last
    rw [List.concat_eq_append] at *
    rw [layMsgs_append] at l
    simp only [LayMsgs, and_true, hdM_cons] at l
    rw [footMs_append] at nd
    simp only [footMs, List.append_nil, List.nodup_append, List.nodup_cons, List.mem_append, List.mem_cons, not_or] at nd
    have e : ltM none (init ++ [LMsg.mk p addr args]) = some p := by rw [ltM_append]; rfl
    rw [e]
    refine ⟨_, setMsg_run _ l.2.1, rfl, ?_, fun x hx => set_ne _ _ (fun e => hx (by simp [footMs_append, footMs, e]))⟩
    rw [layMsgs_append]
    simp only [LayMsgs, and_true, hdM_cons]
    refine ⟨layMsgs_frame _ _ _ (fun x hx => set_ne _ _ (nd.2.2 x hx p (Or.inl rfl))) l.1, by rw [set_self]; simp [hdM],
      layAddr_frame (fun x hx => set_ne _ _ (fun e => nd.2.1.1.1 (e ▸ hx))) l.2.2.1,
      layArgs_frame _ _ _ (fun x hx => set_ne _ _ (fun e => nd.2.1.1.2 (e ▸ hx))) l.2.2.2⟩

theorem relinkA_prev {m : Memory} {pv q : Ptr} {as : List LAtom} (pv' : Ptr) (l : LayArgs m pv q as) (nd : (footAs as).Nodup) :
    ∃ m', whenSome (hdA none as) (fun n => setAtom n fun y => { y with prev := pv' }) m = some ((), m') ∧ m'.brk = m.brk ∧
      LayArgs m' pv' q as ∧ ∀ x, x ∉ footAs as → m'.cell x = m.cell x := by
  match as, l, nd with
  | [], _, _ => exact ⟨m, rfl, rfl, by simp [LayArgs], fun _ _ => rfl⟩
  | .mk p t al w :: as, l, nd =>
    simp only [LayArgs] at l
    simp only [footAs, List.nodup_cons, List.mem_append, not_or] at nd
    rw [hdA_cons]
    refine ⟨_, setAtom_run _ l.1, rfl, ?_, fun x hx => set_ne _ _ (fun e => hx (by simp [footAs, e]))⟩
    simp only [LayArgs]
    refine ⟨by rw [set_self], layW_frame _ (fun x hx => set_ne _ _ (fun e => nd.1.1 (e ▸ hx))) l.2.1,
      layArgs_frame _ _ _ (fun x hx => set_ne _ _ (fun e => nd.1.2 (e ▸ hx))) l.2.2⟩

theorem relinkA_next {m : Memory} {pv q : Ptr} {as : List LAtom} (q' : Ptr) (l : LayArgs m pv q as) (nd : (footAs as).Nodup) :
    ∃ m', whenSome (ltA none as) (fun n => setAtom n fun y => { y with next := q' }) m = some ((), m') ∧ m'.brk = m.brk ∧
      LayArgs m' pv q' as ∧ ∀ x, x ∉ footAs as → m'.cell x = m.cell x := by
  rcases List.eq_nil_or_concat as with rfl | ⟨init, last, rfl⟩
  · exact ⟨m, rfl, rfl, by simp [LayArgs], fun _ _ => rfl⟩
  · obtain ⟨p, t, al, w⟩ := last
    rw [List.concat_eq_append] at *
    rw [layArgs_append] at l
    simp only [LayArgs, and_true, hdA_cons] at l
    rw [footAs_append] at nd
    simp only [footAs, List.append_nil, List.nodup_append, List.nodup_cons, List.mem_cons] at nd
    have e : ltA none (init ++ [LAtom.mk p t al w]) = some p := by rw [ltA_append]; rfl
    rw [e]
    refine ⟨_, setAtom_run _ l.2.1, rfl, ?_, fun x hx => set_ne _ _ (fun e => hx (by simp [footAs_append, footAs, e]))⟩
    rw [layArgs_append]
    simp only [LayArgs, and_true, hdA_cons]
    refine ⟨layArgs_frame _ _ _ (fun x hx => set_ne _ _ (nd.2.2 x hx p (Or.inl rfl))) l.1, by rw [set_self]; simp [hdA],
      layW_frame _ (fun x hx => set_ne _ _ (fun e => nd.2.1.1 (e ▸ hx))) l.2.2⟩

end Libo.Mem
