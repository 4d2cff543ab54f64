import Verif.MemPut
import Verif.Props.Make
/-!
# Property C97: copies put into messages, bundles and arrays
-/

namespace Libo.Props
open Libo Libo.Mem Libo.Expr

/-- **C97 (from a message to an array).**  The array has copies of the arguments, in new blocks; the message is as before. -/
theorem C97_array {m : Memory} (wf : WF m) {p : Nat} {addr : Option Bytes} {vs : List Val} {S : List Nat} (h : MsgAt m p addr vs S)
    (hc : ∀ v ∈ vs, Copyable v) :
    ∃ r R m', getArgArrayCopy p m = some (r, m') ∧ ArrAt m' r vs R ∧ Own [] m R m' ∧ MsgAt m' p addr vs S := by
  have h' := h
  obtain ⟨pv, q, ad, args, l, rfl, hnd, rfl, hv⟩ := h
  obtain ⟨r, bs, m', r1, r2, r3, r4, r5, r6⟩ := getArgArrayCopy_lay wf l hnd hv hc
  exact ⟨r, _, m', r1, ⟨bs, r2, r3, rfl, r4, r6⟩, r5, h'.frame fun x hx => r5.same x (h'.lt wf x hx) (by simp)⟩

theorem ready_copy {m : Memory} (wf : WF m) {s : Nat} {v : Val} {S : List Nat} (h : AtomAt m s v S) (hc : Copyable v) :
    ∃ x w m2, copyInto none s m = some (m.brk, m2) ∧ Ready m [] [] m.brk x w v m2 := by
  obtain ⟨pv, q, t, al, w, h1, h2, h3, h4⟩ := h
  obtain ⟨lw, m', c1, c2, c3, c4, c5, c6, c7⟩ := copyInto_none wf h1 (h2 ▸ h3) h4 hc
  obtain ⟨k1, k2, -⟩ := c2
  simp only [footAs, List.append_nil] at c3
  refine ⟨⟨t, al, lw.word, none, none⟩, lw, m', c1, wf _ (Nat.le_refl _), k1, rfl, rfl, k2, c3, c6, ?_, by simp, by simp⟩
  rw [List.append_nil]
  refine own_new c5 c3 (fun x hx => ?_) (fun x hx => ?_) (by simp only [List.length_cons]; omega)
  · rcases List.mem_cons.mp hx with rfl | hx
    · exact Nat.le_refl _
    · have := c4 x hx; omega
  · rcases List.mem_cons.mp hx with rfl | hx
    · rw [k1]; rfl
    · exact layW_alloc _ k2 x hx

theorem appendCopies_lay {p : Nat} {addr : Option Bytes} : ∀ (as : List LAtom) (us : List Val) {m : Memory} {vs : List Val} {S : List Nat}, WF m →
    MsgAt m p addr vs S → LayElems m as → (footAs as).Nodup → argsVal (toAs as) = some us → (∀ v ∈ us, Copyable v) →
    (∀ x ∈ footAs as, x ∉ S) →
    ∃ m' S', appendCopies p (as.map LAtom.p) m = some ((), m') ∧ MsgAt m' p addr (vs ++ us) S' ∧ Own S m S' m'
  | [], us, m, vs, S, wf, h, _, _, hv, _, _ => by
    simp only [toAs, argsVal, Option.some.injEq] at hv
    subst hv
    exact ⟨m, S, rfl, by simpa using h, Own.refl wf S⟩
  | .mk s t al w :: as, us, m, vs, S, wf, h, le, nd, hv, hc, hd => by
    obtain ⟨⟨pv, q, l1⟩, l2⟩ := le
    simp only [toAs, argsVal, Option.bind_eq_some_iff, Option.map_eq_some_iff] at hv
    obtain ⟨v, hv1, us, hv2, rfl⟩ := hv
    have nd' := nd
    simp only [footAs] at nd'
    rw [← List.cons_append] at nd'
    obtain ⟨n1, n2, n3⟩ := List.nodup_append.mp nd'
    have hat : AtomAt m s v (footAs [.mk s t al w]) := ⟨pv, q, t, al, w, l1, rfl, by simpa [footAs] using n1, hv1⟩
    obtain ⟨x, w', m2, r1, r⟩ := ready_copy wf hat (hc v (by simp))
    obtain ⟨m3, r2, S', U, d1, d2, -⟩ := ready_append wf r h (by simp)
    simp only [List.append_nil] at d2
    have hlt : ∀ x ∈ footAs as, x < m.brk := fun x hx => wf.lt (layElems_alloc as l2 x hx)
    have hd' : ∀ x ∈ footAs as, x ∉ S := fun x hx => hd x (by simp [footAs, hx])
    obtain ⟨m4, S4, k1, k2, k3⟩ := appendCopies_lay as us d2.wf d1 (layElems_frame as (fun x hx => d2.same x (hlt x hx) (hd' x hx)) l2) n2 hv2
      (fun v hv => hc v (by simp [hv])) (d2.disj hlt hd')
    refine ⟨m4, S4, ?_, by simpa using k2, d2.trans k3⟩
    simp only [List.map_cons, LAtom.p]
    rw [appendCopies, seq_run r1, seq_run r2]
    exact k1

/-- **C97 (from an array to a message).**  Copies of the elements are appended to the message; the array is as before. -/
theorem C97_message {m : Memory} (wf : WF m) {p r : Nat} {addr : Option Bytes} {vs us : List Val} {S R : List Nat} (h : MsgAt m p addr vs S)
    (ha : ArrAt m r us R) (hd : ∀ x ∈ R, x ∉ S) (hc : ∀ v ∈ us, Copyable v) :
    ∃ m' S', setArgArrayCopy p r m = some ((), m') ∧ MsgAt m' p addr (vs ++ us) S' ∧ ArrAt m' r us R ∧ Own S m S' m' := by
  have ha' := ha
  obtain ⟨as, h0, h1, rfl, h3, h4⟩ := ha
  obtain ⟨m', S', k1, k2, k3⟩ := appendCopies_lay as us wf h h1 (List.nodup_cons.mp h3).2 h4 hc (fun x hx => hd x (by simp [hx]))
  refine ⟨m', S', ?_, k2, ha'.frame fun x hx => k3.same x (ha'.lt wf x hx) (hd x hx), k3⟩
  rw [setArgArrayCopy, seq_run (arrAt_run h0)]
  exact k1

/-- **C97 (a message from an array).**  A new message with a slash-led address and copies of the elements. -/
theorem C97_alloc {m : Memory} (wf : WF m) {s : Bytes} (hs : s.head? = some 47) (h0 : (0 : UInt8) ∉ s) {r : Nat} {us : List Val}
    {R : List Nat} (ha : ArrAt m r us R) (hc : ∀ v ∈ us, Copyable v) :
    ∃ p m' S, allocWithArray (some s) r m = some (p, m') ∧ MsgAt m' p (some s) us S ∧ ArrAt m' r us R ∧ Own [] m S m' := by
  obtain ⟨m1, r1, h1, o1⟩ := alloc_lay wf hs h0
  obtain ⟨m', S, r2, h2, h3, o2⟩ := C97_message o1.wf h1 (ha.frame fun x hx => o1.same x (ha.lt wf x hx) (by simp))
    (o1.disj (ha.lt wf) (by simp)) hc
  exact ⟨m.brk, m', S, by rw [allocWithArray, seq_run r1, seq_run r2]; rfl, by simpa using h2, h3, o1.trans o2⟩

/-- **C97 (adding a copy).**  The bundle gets a copy of the message behind its messages; the message may be one of them. -/
theorem C97_add {m : Memory} (wf : WF m) {b p : Nat} {ms : List VMsg} {B : List Nat} (hb : BndlAt m b ms B) {addr : Option Bytes}
    {vs : List Val} {S : List Nat} (h : MsgAt m p addr vs S) (hc : ∀ v ∈ vs, Copyable v) :
    ∃ m' B', addMsgCopy b p m = some ((), m') ∧ BndlAt m' b (ms ++ [.mk addr vs]) B' ∧ Own B m B' m' := by
  obtain ⟨pv, q, ad, args, l, rfl, hnd, rfl, hv⟩ := h
  obtain ⟨tail, ds, lb, rfl, ndb, hd⟩ := hb
  obtain ⟨c, ad', args', m1, r1, lc, ndc, hge, st, hca, hcv, hcl⟩ := deepCopy_lay wf l hnd hv hc
  have oc : Own [] m (footMs [.mk c ad' args']) m1 := own_new st ndc hge (layMsgs_alloc _ _ _ lc) hcl
  have hlt : ∀ y ∈ (LW.bndl b tail ds).foot, y < m.brk := fun y hy => wf.lt (layW_alloc _ lb y hy)
  have djc := oc.disj hlt (by simp)
  have lb1 := oc.step.layW wf lb (by simp)
  have nd1 : ((LW.bndl b tail ds).foot ++ footMs [.mk c ad' args']).Nodup := by
    rw [List.nodup_append]
    exact ⟨ndb, ndc, fun y hy z hz e => djc y hy (e ▸ hz)⟩
  obtain ⟨m2, tail2, a1, a2, a3, a4⟩ := addMsg_lay lb1 lc (by simpa [LW.foot] using nd1)
  have e2 : ∀ x, x ∈ (LW.bndl b tail ds).foot ++ footMs [.mk c ad' args'] ↔ x ∈ (LW.bndl b tail2 (ds ++ [.mk c ad' args'])).foot := fun x => by
    simp only [LW.foot, footMs_append, List.cons_append]
  have o2 : Own ((LW.bndl b tail ds).foot ++ footMs [.mk c ad' args']) m1 ((LW.bndl b tail ds).foot ++ footMs [.mk c ad' args']) m2 :=
    own_same oc.wf a2 (fun x hx => by
      rcases List.mem_append.mp hx with h | h
      · exact oc.wf.lt (layW_alloc _ lb1 x h)
      · exact oc.wf.lt (layMsgs_alloc _ _ _ lc x h)) (fun x hx => a4 x (fun h => hx (by
        simp only [List.mem_append, LW.foot]; exact Or.inl h)) (fun h => hx (by simp [footMs, h])))
  refine ⟨m2, _, by rw [addMsgCopy, seq_run r1, a1], ⟨tail2, _, a3, rfl, ?_, ?_⟩, ?_⟩
  · simpa [LW.foot, footMs_append] using nd1
  · rw [toMs_append]
    refine msgsVal_append _ _ _ _ hd ?_
    simp [toMs, msgsVal, msgVal, hcv, hca]
  · exact ((oc.frame (LW.bndl b tail ds).foot).congr (fun x => by simp) (fun x => by simp only [List.mem_append]; exact Or.comm)).trans
      (o2.congr (fun _ => Iff.rfl) e2)

/-- **C97 (adding a copy in place of others).**  As before, and the messages to the same address that were there are gone, with their
blocks; the message copied may be one of these. -/
theorem C97_replace {m : Memory} (wf : WF m) {b p : Nat} {ms : List VMsg} {B : List Nat} (hb : BndlAt m b ms B) {s : Bytes}
    {vs : List Val} {S : List Nat} (h : MsgAt m p (some s) vs S) (hc : ∀ v ∈ vs, Copyable v) :
    ∃ m' B', addMsgWithoutDupsCopy b p m = some ((), m') ∧
      BndlAt m' b (ms.filter (fun x => x.addr != some s) ++ [.mk (some s) vs]) B' ∧ Own B m B' m' := by
  obtain ⟨pv, q, ad, args, l, rfl, hnd, hs, hv⟩ := h
  obtain ⟨tail, ds, lb, rfl, ndb, hd⟩ := hb
  obtain ⟨c, ad', args', m1, r1, lc, ndc, hge, st, hca, hcv, hcl⟩ := deepCopy_lay wf l hnd hv hc
  have oc : Own [] m (footMs [.mk c ad' args']) m1 := own_new st ndc hge (layMsgs_alloc _ _ _ lc) hcl
  have hlt : ∀ y ∈ (LW.bndl b tail ds).foot, y < m.brk := fun y hy => wf.lt (layW_alloc _ lb y hy)
  have djc := oc.disj hlt (by simp)
  have lb1 := oc.step.layW wf lb (by simp)
  have nd1 : ((LW.bndl b tail ds).foot ++ footMs [.mk c ad' args']).Nodup := by
    rw [List.nodup_append]
    exact ⟨ndb, ndc, fun y hy z hz e => djc y hy (e ▸ hz)⟩
  rw [hs] at hca
  obtain ⟨⟨a, s', k⟩, rfl, rfl⟩ := Option.map_eq_some_iff.mp hca
  obtain ⟨m2, tail2, ds2, a1, a2, a3, a4, a5⟩ := addNoDup_lay oc.wf lb1 lc nd1 hd hcv
  refine ⟨m2, _, by rw [addMsgWithoutDupsCopy, seq_run r1, a1], ⟨tail2, ds2, a2, rfl, a3, a5⟩, ?_⟩
  exact ((oc.frame (LW.bndl b tail ds).foot).congr (fun x => by simp) (fun x => by simp only [List.mem_append]; exact Or.comm)).trans a4

/-- At these addresses are these messages. -/
def MsgsAt (m : Memory) : List Nat → List VMsg → List Nat → Prop
  | [], [], S => S = []
  | p :: ps, .mk addr vs :: ms, S => ∃ S1 S2, S = S1 ++ S2 ∧ MsgAt m p addr vs S1 ∧ MsgsAt m ps ms S2
  | _, _, _ => False

theorem MsgsAt.frame {m m' : Memory} : ∀ {ps : List Nat} {ms : List VMsg} {S : List Nat}, MsgsAt m ps ms S →
    (∀ x ∈ S, m'.cell x = m.cell x) → MsgsAt m' ps ms S
  | [], [], _, h, _ => h
  | p :: ps, .mk addr vs :: ms, S, ⟨S1, S2, e, h1, h2⟩, k =>
    ⟨S1, S2, e, h1.frame fun x hx => k x (by simp [e, hx]), h2.frame fun x hx => k x (by simp [e, hx])⟩
  | [], _ :: _, _, h, _ => h.elim
  | _ :: _, [], _, h, _ => h.elim

theorem MsgsAt.lt {m : Memory} (wf : WF m) : ∀ {ps : List Nat} {ms : List VMsg} {S : List Nat}, MsgsAt m ps ms S → ∀ x ∈ S, x < m.brk
  | [], [], _, h, x, hx => by
    have h : _ = [] := h
    subst h
    cases hx
  | p :: ps, .mk addr vs :: ms, S, ⟨S1, S2, e, h1, h2⟩, x, hx => by
    subst e
    rcases List.mem_append.mp hx with hx | hx
    · exact h1.lt wf x hx
    · exact h2.lt wf x hx
  | [], _ :: _, _, h, _, _ => h.elim
  | _ :: _, [], _, h, _, _ => h.elim

theorem addMsgCopies_lay {b : Nat} : ∀ (ps : List Nat) (us : List VMsg) {m : Memory} {ms : List VMsg} {B S : List Nat}, WF m → BndlAt m b ms B →
    MsgsAt m ps us S → (∀ x ∈ S, x ∉ B) → (∀ u ∈ us, ∀ v ∈ u.args, Copyable v) →
    ∃ m' B', addMsgCopies b ps m = some ((), m') ∧ BndlAt m' b (ms ++ us) B' ∧ Own B m B' m'
  | [], [], m, ms, B, S, wf, hb, _, _, _ => ⟨m, B, rfl, by simpa using hb, Own.refl wf B⟩
  | p :: ps, .mk addr vs :: us, m, ms, B, S, wf, hb, ⟨S1, S2, e, h1, h2⟩, hd, hc => by
    subst e
    obtain ⟨m1, B1, r1, k1, o1⟩ := C97_add wf hb h1 (hc (.mk addr vs) (by simp))
    have hd2 : ∀ x ∈ S2, x ∉ B := fun x hx => hd x (by simp [hx])
    obtain ⟨m2, B2, r2, k2, o2⟩ := addMsgCopies_lay ps us o1.wf k1 (h2.frame fun x hx => o1.same x (h2.lt wf x hx) (hd2 x hx))
      (o1.disj (h2.lt wf) hd2) (fun u hu => hc u (by simp [hu]))
    exact ⟨m2, B2, by rw [addMsgCopies, seq_run r1]; exact r2, by simpa using k2, o1.trans o2⟩
  | [], _ :: _, _, _, _, _, _, _, h, _, _ => h.elim
  | _ :: _, [], _, _, _, _, _, _, h, _, _ => h.elim

/-- **C97 (adding copies of an array of messages).**  In order; the messages of the array are as before. -/
theorem C97_addArray {m : Memory} (wf : WF m) {b r : Nat} {ms us : List VMsg} {B S : List Nat} {ps : List Nat} (hb : BndlAt m b ms B)
    (hr : m.cell r = some (.arr ps)) (h : MsgsAt m ps us S) (hd : ∀ x ∈ S, x ∉ B) (hc : ∀ u ∈ us, ∀ v ∈ u.args, Copyable v) :
    ∃ m' B', addMsgArrayCopy b r m = some ((), m') ∧ BndlAt m' b (ms ++ us) B' ∧ Own B m B' m' ∧ MsgsAt m' ps us S := by
  obtain ⟨m', B', k1, k2, k3⟩ := addMsgCopies_lay ps us wf hb h hd hc
  exact ⟨m', B', by rw [addMsgArrayCopy, seq_run (arrAt_run hr)]; exact k1, k2, k3, h.frame fun x hx => k3.same x (h.lt wf x hx) (hd x hx)⟩

/-! Non-trivial cases: the message `/a 1 "hi"` and the array of a blob and the number 3. -/

theorem copyEx : ∀ v ∈ [Val.num 105 1, .str [104, 105]], Copyable v := by
  intro v hv
  rcases List.mem_cons.mp hv with rfl | hv
  · show _ < _; decide
  · simp only [List.mem_singleton] at hv; subst hv; show _ < _; decide

example : ∃ r R m', getArgArrayCopy 2 memEx = some (r, m') ∧ ArrAt m' r [.num 105 1, .str [104, 105]] R ∧ Own [] memEx R m' ∧
    MsgAt m' 2 (some [47, 97]) [.num 105 1, .str [104, 105]] [2, 1, 3, 4, 5] :=
  C97_array wfEx msgEx copyEx

example : ∃ m' S', setArgArrayCopy 2 6 memEx = some ((), m') ∧ MsgAt m' 2 (some [47, 97]) [.num 105 1, .str [104, 105], .blob [42], .num 105 3] S' ∧
    ArrAt m' 6 [.blob [42], .num 105 3] [6, 7, 8, 9] ∧ Own [2, 1, 3, 4, 5] memEx S' m' :=
  C97_message wfEx msgEx arrEx (by decide) (by intro v hv; rcases List.mem_cons.mp hv with rfl | hv <;> simp_all [Copyable, sizeVal])

/-- A bundle with no messages beside it. -/
def memEmpty : Memory := memEx.grow (.bndl ⟨0, none, none⟩)

theorem emptyEx : BndlAt memEmpty 10 [] [10] := by
  refine ⟨none, [], ?_, by simp [LW.foot, footMs], by simp, rfl⟩
  simp [LayW, LayMsgs, hdM, TailOK, ltM, memEmpty, grow_cell, memEx]


/-- The same message twice: added, and then in place of itself. -/
example : ∃ m1 m2 B, addMsgCopy 10 2 memEmpty = some ((), m1) ∧ addMsgWithoutDupsCopy 10 2 m1 = some ((), m2) ∧
    BndlAt m2 10 [.mk (some [47, 97]) [.num 105 1, .str [104, 105]]] B := by
  have st := step_grow wfEx (.bndl ⟨0, none, none⟩) []
  have hm := msgEx.frame (m' := memEmpty) fun x hx => st.same x (msgEx.lt wfEx x hx) (by simp)
  obtain ⟨m1, B1, r1, h1, o1⟩ := C97_add st.wf emptyEx hm copyEx
  have hm1 := hm.frame fun x hx => o1.same x (hm.lt st.wf x hx) (by simp at hx ⊢; omega)
  obtain ⟨m2, B2, r2, h2, o2⟩ := C97_replace o1.wf h1 hm1 copyEx
  exact ⟨m1, m2, B2, r1, r2, h2⟩

end Libo.Props
