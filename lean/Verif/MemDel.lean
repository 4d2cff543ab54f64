import Verif.MemOwn
/-!
# Taking atoms and messages out of lists, renaming messages
-/

namespace Libo.Mem
open Libo

theorem ne_of {x p : Nat} {L : List Nat} (hx : x ∈ L) (hp : p ∉ L) : x ≠ p := fun e => hp (e ▸ hx)

theorem hdA_mem (q : Ptr) : ∀ as : List LAtom, as ≠ [] → ∃ p ∈ footAs as, hdA q as = some p
  | [], h => absurd rfl h
  | .mk p t al w :: as, _ => ⟨p, by simp [footAs], rfl⟩

theorem ltA_mem : ∀ as : List LAtom, as ≠ [] → ∃ p ∈ footAs as, ∀ q, ltA q as = some p
  | [], h => absurd rfl h
  | [.mk p t al w], _ => ⟨p, by simp [footAs], fun _ => rfl⟩
  | .mk p t al w :: b :: as, _ => by
    obtain ⟨x, h1, h2⟩ := ltA_mem (b :: as) (by simp)
    exact ⟨x, by simp [footAs, h1], fun q => h2 (some p)⟩

theorem hdM_mem (q : Ptr) : ∀ as : List LMsg, as ≠ [] → ∃ p ∈ footMs as, hdM q as = some p
  | [], h => absurd rfl h
  | .mk p t al :: as, _ => ⟨p, by simp [footMs], rfl⟩

theorem ltM_mem : ∀ as : List LMsg, as ≠ [] → ∃ p ∈ footMs as, ∀ q, ltM q as = some p
  | [], h => absurd rfl h
  | [.mk p t al], _ => ⟨p, by simp [footMs], fun _ => rfl⟩
  | .mk p t al :: b :: as, _ => by
    obtain ⟨x, h1, h2⟩ := ltM_mem (b :: as) (by simp)
    exact ⟨x, by simp [footMs, h1], fun q => h2 (some p)⟩

/-- What the parts of a list with one element in the middle have in common: nothing. -/
theorem dist_mid {p a : Nat} {A I W B : List Nat} (nd : (p :: (A ++ ((I ++ a :: (W ++ B))))).Nodup) :
    (p ≠ a ∧ p ∉ A ∧ p ∉ I ∧ p ∉ W ∧ p ∉ B) ∧ (∀ x ∈ A, x ∉ I ∧ x ≠ a ∧ x ∉ W ∧ x ∉ B) ∧ (∀ x ∈ I, x ≠ a ∧ x ∉ W ∧ x ∉ B) ∧
    (a ∉ W ∧ a ∉ B) ∧ (∀ x ∈ W, x ∉ B) ∧ I.Nodup ∧ W.Nodup ∧ B.Nodup := by
  simp only [List.nodup_cons, List.nodup_append, List.mem_append, List.mem_cons, not_or] at nd
  obtain ⟨⟨n1, n2, n3, n4, n5⟩, n6, ⟨m1, ⟨⟨m2, m3⟩, m4, m5, m6⟩, m7⟩, m8⟩ := nd
  refine ⟨⟨n3, n1, n2, n4, n5⟩, fun x hx => ⟨?_, ?_, ?_, ?_⟩, fun x hx => ⟨?_, ?_, ?_⟩, ⟨m2, m3⟩, fun x hx => ?_, m1, m4, m5⟩
  all_goals grind

/-- Taking an atom out of a message. -/
theorem removeAtom_lay {m : Memory} {p a : Nat} {t : UInt8} {al : Bool} {w : LW} {addr : Option (Nat × Bytes × Bytes)}
    {as bs : List LAtom} {pv q : Ptr} (l : LayMsgs m pv q [.mk p addr (as ++ .mk a t al w :: bs)])
    (nd : (footMs [.mk p addr (as ++ .mk a t al w :: bs)]).Nodup) :
    ∃ m', removeAtom p a m = some ((), m') ∧ m'.brk = m.brk ∧ LayMsgs m' pv q [.mk p addr (as ++ bs)] ∧
      LayArgs m' (ltA none as) (hdA none bs) [.mk a t al w] ∧
      ∀ x, x ∉ p :: footAs (as ++ .mk a t al w :: bs) → m'.cell x = m.cell x := by
  simp only [LayMsgs, and_true] at l
  obtain ⟨l1, l2, l3⟩ := l
  rw [layArgs_append] at l3
  simp only [LayArgs, hdA_cons] at l3
  obtain ⟨l3, l4, l5, l6⟩ := l3
  simp only [footMs, footAs_append, footAs, List.append_nil] at nd
  obtain ⟨⟨d1, d2, d3, d4, d5⟩, e0, e1, ⟨e2, e3⟩, e4, i1, i2, i3⟩ := dist_mid nd
  obtain ⟨m1, r1, r2, r3, r4⟩ := relinkA_prev (ltA none as) l6 i3
  have l4' : m1.cell a = _ := (r4 a e3).trans l4
  have l3' : LayArgs m1 none (some a) as := layArgs_frame _ _ _ (fun x hx => r4 x (e1 x hx).2.2) l3
  obtain ⟨m2, s1, s2, s3, s4⟩ := relinkA_next (hdA none bs) l3' i1
  have l4'' : m2.cell a = _ := (s4 a (fun h => (e1 a h).1 rfl)).trans l4'
  have l1'' : m2.cell p = _ := (s4 p d3).trans ((r4 p d5).trans l1)
  refine ⟨m2.set p (some (.msg ⟨addr.map (·.1), (as ++ bs).length, hdA none (as ++ bs), ltA none (as ++ bs), hdM q [], pv⟩)),
    ?_, ?_, ?_, ?_, ?_⟩
  · unfold removeAtom
    rw [seq_run (atomAt_run l4), seq_run r1, seq_run (atomAt_run l4'), seq_run s1, seq_run (atomAt_run l4''), setMsg_run _ l1'']
    have h1 : (if some a = hdA none (as ++ .mk a t al w :: bs) then hdA none bs else hdA none (as ++ .mk a t al w :: bs)) =
        hdA none (as ++ bs) := by
      cases as with
      | nil => simp [hdA, LAtom.p]
      | cons y ys =>
        obtain ⟨z, hz, hz2⟩ := hdA_mem none (y :: ys) (by simp)
        have hh : ∀ r, hdA none (y :: ys ++ r) = some z := fun _ => hz2
        rw [hh, hh, if_neg]
        intro h
        injection h with h
        exact (e1 z hz).1 h.symm
    have h2 : (if some a = ltA none (as ++ .mk a t al w :: bs) then ltA none as else ltA none (as ++ .mk a t al w :: bs)) =
        ltA none (as ++ bs) := by
      have e : ltA none (as ++ .mk a t al w :: bs) = ltA (some a) bs := by rw [ltA_append]; rfl
      rw [e, ltA_append]
      cases bs with
      | nil => simp [ltA]
      | cons y ys =>
        obtain ⟨z, hz, hz2⟩ := ltA_mem (y :: ys) (by simp)
        rw [hz2, hz2, if_neg]
        intro h
        injection h with h
        exact e3 (h ▸ hz)
    simp only [h1, h2]
    simp only [List.length_append, List.length_cons]
    congr 6
    omega
  · rw [set_brk, s2, r2]
  · simp only [LayMsgs, and_true]
    refine ⟨set_self _ _ _, ?_, ?_⟩
    · exact layAddr_frame (fun x hx => by
        rw [set_ne _ _ (ne_of hx d2), s4 x (e0 x hx).1, r4 x (e0 x hx).2.2.2]) l2
    · rw [layArgs_append]
      refine ⟨layArgs_frame _ _ _ (fun x hx => set_ne _ _ (ne_of hx d3)) s3, ?_⟩
      exact layArgs_frame _ _ _ (fun x hx => by
        rw [set_ne _ _ (ne_of hx d5), s4 x (fun h => (e1 x h).2.2 hx)]) r3
  · simp only [LayArgs, and_true, show ∀ q, hdA q [] = q from fun _ => rfl]
    refine ⟨by rw [set_ne _ _ (Ne.symm d1), l4''], ?_⟩
    exact layW_frame _ (fun x hx => by
      rw [set_ne _ _ (ne_of hx d4), s4 x (fun h => (e1 x h).2.1 hx), r4 x (e4 x hx)]) l5
  · intro x hx
    simp only [footAs_append, footAs, List.mem_cons, List.mem_append, not_or] at hx
    rw [set_ne _ _ hx.1, s4 x hx.2.1, r4 x hx.2.2.2.2]

theorem tailOK_append {tail : Ptr} {a : Nat} {addr : Option (Nat × Bytes × Bytes)} {args : List LAtom} {as bs : List LMsg}
    (h : TailOK tail (as ++ .mk a addr args :: bs)) (hd : a ∉ footMs bs) :
    TailOK (if some a = tail then ltM none as else tail) (as ++ bs) := by
  rcases h with h | ⟨h, h'⟩
  · left
    subst h
    have e : ltM none (as ++ .mk a addr args :: bs) = ltM (some a) bs := by rw [ltM_append]; rfl
    rw [e, ltM_append]
    cases bs with
    | nil => simp [ltM]
    | cons y ys =>
      obtain ⟨z, hz, hz2⟩ := ltM_mem (y :: ys) (by simp)
      rw [hz2, hz2, if_neg]
      intro h
      injection h with h
      exact hd (h ▸ hz)
  · have h1 : as = [] := by cases as <;> simp at h ⊢
    have h2 : bs = [] := by cases bs <;> simp [h1] at h ⊢
    subst h1 h2 h'
    left
    simp [ltM]

/-- Taking a message out of a bundle, with the count put right. -/
theorem removeMsg_lay {m : Memory} {b a : Nat} {tail : Ptr} {addr : Option (Nat × Bytes × Bytes)} {args : List LAtom}
    {as bs : List LMsg} (l : LayW m 46 (.bndl b tail (as ++ .mk a addr args :: bs)))
    (nd : (LW.bndl b tail (as ++ .mk a addr args :: bs)).foot.Nodup) :
    ∃ m', removeMsg b a m = some ((), m') ∧ m'.brk = m.brk ∧
      m'.cell b = some (.bndl ⟨(as ++ .mk a addr args :: bs).length, hdM none (as ++ bs), if some a = tail then ltM none as else tail⟩) ∧
      TailOK (if some a = tail then ltM none as else tail) (as ++ bs) ∧
      LayMsgs m' none none (as ++ bs) ∧ LayMsgs m' (ltM none as) (hdM none bs) [.mk a addr args] ∧
      ∀ x, x ∉ (LW.bndl b tail (as ++ .mk a addr args :: bs)).foot → m'.cell x = m.cell x := by
  simp only [LayW, true_and] at l
  obtain ⟨l1, l2, l3⟩ := l
  rw [layMsgs_append] at l3
  simp only [LayMsgs, hdM_cons] at l3
  obtain ⟨l3, l4, l5, l5', l6⟩ := l3
  simp only [LW.foot, footMs_append, footMs] at nd ⊢
  have nd' : (b :: ([] ++ (footMs as ++ a :: ((footAddr addr ++ footAs args) ++ footMs bs)))).Nodup := by simpa using nd
  obtain ⟨⟨d1, d2, d3, d4, d5⟩, e0, e1, ⟨e2, e3⟩, e4, i1, i2, i3⟩ := dist_mid nd'
  obtain ⟨m1, r1, r2, r3, r4⟩ := relinkM_prev (ltM none as) l6 i3
  have l4' : m1.cell a = _ := (r4 a e3).trans l4
  have l3' : LayMsgs m1 none (some a) as := layMsgs_frame _ _ _ (fun x hx => r4 x (e1 x hx).2.2) l3
  obtain ⟨m2, s1, s2, s3, s4⟩ := relinkM_next (hdM none bs) l3' i1
  have l4'' : m2.cell a = _ := (s4 a (fun h => (e1 a h).1 rfl)).trans l4'
  have l1'' : m2.cell b = _ := (s4 b d3).trans ((r4 b d5).trans l1)
  refine ⟨m2.set b (some (.bndl ⟨(as ++ .mk a addr args :: bs).length, hdM none (as ++ bs), if some a = tail then ltM none as else tail⟩)),
    ?_, ?_, ?_, tailOK_append l2 e3, ?_, ?_, ?_⟩
  · unfold removeMsg
    rw [seq_run (msgAt_run l4), seq_run r1, seq_run (msgAt_run l4'), seq_run s1, seq_run (msgAt_run l4''), setBndl_run _ l1'']
    have h1 : (if some a = hdM none (as ++ .mk a addr args :: bs) then hdM none bs else hdM none (as ++ .mk a addr args :: bs)) =
        hdM none (as ++ bs) := by
      cases as with
      | nil => simp [hdM, LMsg.p]
      | cons y ys =>
        obtain ⟨z, hz, hz2⟩ := hdM_mem none (y :: ys) (by simp)
        have hh : ∀ r, hdM none (y :: ys ++ r) = some z := fun _ => hz2
        rw [hh, hh, if_neg]
        intro h
        injection h with h
        exact (e1 z hz).1 h.symm
    simp only [h1]
  · rw [set_brk, s2, r2]
  · exact set_self _ _ _
  · rw [layMsgs_append]
    refine ⟨layMsgs_frame _ _ _ (fun x hx => set_ne _ _ (ne_of hx d3)) s3, ?_⟩
    exact layMsgs_frame _ _ _ (fun x hx => by
      rw [set_ne _ _ (ne_of hx d5), s4 x (fun h => (e1 x h).2.2 hx)]) r3
  · simp only [LayMsgs, and_true, show ∀ q, hdM q [] = q from fun _ => rfl]
    simp only [List.mem_append] at d4 e1 e4
    refine ⟨by rw [set_ne _ _ (Ne.symm d1), l4''], ?_, ?_⟩
    · exact layAddr_frame (fun x hx => by
        rw [set_ne _ _ (ne_of hx (fun h => d4 (Or.inl h))), s4 x (fun h => (e1 x h).2.1 (Or.inl hx)), r4 x (e4 x (Or.inl hx))]) l5
    · exact layArgs_frame _ _ _ (fun x hx => by
        rw [set_ne _ _ (ne_of hx (fun h => d4 (Or.inr h))), s4 x (fun h => (e1 x h).2.1 (Or.inr hx)), r4 x (e4 x (Or.inr hx))]) l5'
  · intro x hx
    simp only [List.mem_cons, List.mem_append, not_or] at hx
    rw [set_ne _ _ hx.1, s4 x hx.2.1, r4 x hx.2.2.2.2.2]

end Libo.Mem
