import Verif.MemMake
import Verif.MemConf
import Verif.MemAdd
import Verif.MemExplode
/-!
# Copies put into messages, bundles and arrays

`osc_message_u_getArgArrayCopy`, `osc_message_u_allocWithArray`, `osc_bundle_u_addMsgCopy`, `osc_bundle_u_addMsgWithoutDupsCopy`,
`osc_bundle_u_addMsgArrayCopy` on the memory of `Mem.lean`.
-/

namespace Libo.Mem
open Libo Libo.Expr

/-- The loop of `osc_message_u_getArgArrayCopy` (`osc_message_u.c` lines 1177-1182).  More atoms than places do not occur in a message with a right count and are not modelled. -/
def copyArgsTo : List Nat → Ptr → M Unit
  | _, none => pure ()
  | [], some _ => crash
  | d :: ds, some s => do
    let _ ← copyInto (some d) s
    let c ← atomAt s
    copyArgsTo ds c.next

/-- `osc_message_u_getArgArrayCopy` (`osc_message_u.c` lines 1172-1185). -/
def getArgArrayCopy (p : Nat) : M Nat := do
  let c ← msgAt p
  let r ← arrAlloc c.argc.toNat
  let l ← arrAt r
  copyArgsTo l c.head
  pure r

/-- `osc_message_u_allocWithArray` (`osc_message_u.c` lines 1236-1243). -/
def allocWithArray (addr : Option Bytes) (arr : Nat) : M Nat := do
  let p ← allocWithAddress addr
  setArgArrayCopy p arr
  pure p

/-- `osc_bundle_u_addMsgCopy` (`osc_bundle_u.c` lines 336-345). -/
def addMsgCopy (b p : Nat) : M Unit := do
  let c ← deepCopy none p
  addMsg b c

/-- `osc_bundle_u_addMsgWithoutDupsCopy` (`osc_bundle_u.c` lines 347-356). -/
def addMsgWithoutDupsCopy (b p : Nat) : M Unit := do
  let c ← deepCopy none p
  addMsgWithoutDups b c

/-- The loop of `osc_bundle_u_addMsgArrayCopy` (`osc_bundle_u.c` lines 369-372). -/
def addMsgCopies (b : Nat) : List Nat → M Unit
  | [] => pure ()
  | p :: ps => do
    addMsgCopy b p
    addMsgCopies b ps

/-- `osc_bundle_u_addMsgArrayCopy` (`osc_bundle_u.c` lines 358-374). -/
def addMsgArrayCopy (b r : Nat) : M Unit := do
  let l ← arrAt r
  addMsgCopies b l

/-! ### What they do -/

theorem copyArgsTo_eq {lo : Nat} : ∀ (as : List LAtom) (ds : List Nat) (m : Memory) (pv : Ptr), Reg lo m → (∀ x ∈ footAs as, x < lo) →
    (∀ d ∈ ds, lo ≤ d) → ds.length = as.length → LayArgs m pv none as →
    copyArgsTo ds (hdA none as) m = copyElems (as.map LAtom.p) ds m
  | [], ds, m, pv, _, _, _, hl, _ => by
    have : ds = [] := List.length_eq_zero_iff.mp hl
    subst this
    rfl
  | .mk p t al w :: as, [], m, pv, _, _, _, hl, _ => by simp at hl
  | .mk p t al w :: as, d :: ds, m, pv, rg, hlt, hd, hl, l => by
    obtain ⟨l1, l2, l3⟩ := l
    rw [hdA_cons, copyArgsTo]
    simp only [List.map_cons, LAtom.p, copyElems]
    cases h : copyInto (some d) p m with
    | none => rw [bind_run, bind_run, h]; rfl
    | some r =>
      obtain ⟨q, m1⟩ := r
      rw [seq_run h, seq_run h]
      have hc := conf_copyInto (lo := lo) (d := some d) (fun a ha => by cases ha; exact hd d (by simp)) p m q m1 rg h
      rw [seq_run (atomAt_run (show m1.cell p = _ by rw [hc.2.1 p (hlt p (by simp [footAs]))]; exact l1))]
      exact copyArgsTo_eq as ds m1 (some p) hc.1 (fun x hx => hlt x (by simp [footAs, hx])) (fun x hx => hd x (by simp [hx]))
        (by simpa using hl) (layArgs_frame _ _ _ (fun x hx => hc.2.1 x (hlt x (by simp [footAs, hx]))) l3)

theorem layElems_of_args {m : Memory} : ∀ (as : List LAtom) (pv q : Ptr), LayArgs m pv q as → LayElems m as
  | [], _, _, _ => trivial
  | .mk p t al w :: as, pv, q, ⟨l1, l2, l3⟩ => ⟨⟨pv, hdA q as, l1, l2, trivial⟩, layElems_of_args as _ _ l3⟩

theorem getArgArrayCopy_lay {m : Memory} (wf : WF m) {p : Nat} {ad : Option (Nat × Bytes × Bytes)} {as : List LAtom} {pv q : Ptr} {vs : List Val}
    (l : LayMsgs m pv q [.mk p ad as]) (nd : (footMs [.mk p ad as]).Nodup) (hv : argsVal (toAs as) = some vs) (hc : ∀ v ∈ vs, Copyable v) :
    ∃ r bs m', getArgArrayCopy p m = some (r, m') ∧ m'.cell r = some (.arr (bs.map LAtom.p)) ∧ LayElems m' bs ∧ (r :: footAs bs).Nodup ∧
      Own [] m (r :: footAs bs) m' ∧ argsVal (toAs bs) = some vs := by
  simp only [LayMsgs, and_true] at l
  obtain ⟨k1, k2, k3⟩ := l
  have le := layElems_of_args as _ _ k3
  have nda : (footAs as).Nodup := by
    simp only [footMs, List.append_nil] at nd
    grind
  obtain ⟨ds, m1, h1, h2, h3, h4, st1, h5⟩ := newAtoms_run as.length wf
  have st2 := step_grow st1.wf (.arr ds) []
  have st12 : Step [] m _ := st1.trans st2 (by simp)
  have hlt : ∀ x ∈ footAs as, x < m.brk := fun x hx => wf.lt (layElems_alloc as le x hx)
  have hdl : ∀ d ∈ ds, d < m1.brk := fun d hd => by
    obtain ⟨-, c, hc⟩ := h4 d hd
    exact st1.wf.lt (by rw [hc]; rfl)
  obtain ⟨bs, m3, c1, c2, c3, c4, c5, st3, c7, c8⟩ := copyElems_lay as ds vs st2.wf
    (layElems_frame as (fun x hx => st12.same x (hlt x hx) (by simp)) le) nda h2 h3 (fun d hd => by
      obtain ⟨hb, c, hc⟩ := h4 d hd
      refine ⟨fun h => by have := hlt d h; omega, c, ?_⟩
      rw [st2.same d (hdl d hd) (by simp), hc]) hv hc
  have hr' : m1.brk ∉ ds := fun h => by have := hdl _ h; omega
  have hr3 : m3.cell m1.brk = some (.arr ds) := by
    rw [st3.same m1.brk (by rw [grow_brk]; omega) hr', grow_self]
  have hnd : (m1.brk :: footAs bs).Nodup := by
    refine List.nodup_cons.mpr ⟨fun h => ?_, c4⟩
    rcases c5 _ h with h | h
    · exact hr' h
    · rw [grow_brk] at h; omega
  have hge : ∀ x ∈ m1.brk :: footAs bs, m.brk ≤ x := by
    intro x hx
    rcases List.mem_cons.mp hx with rfl | hx
    · exact st1.brk
    · rcases c5 x hx with h | h
      · exact (h4 x h).1
      · have := st12.brk; omega
  have hreg : Reg m.brk (m1.grow (.arr ds)) := by
    have hrun : (arrAlloc as.length) m = some (m1.brk, m1.grow (.arr ds)) := by
      rw [arrAlloc, seq_run h1, new_run]
    exact ((conf_arrAlloc as.length) m _ _ ⟨Nat.le_refl _, fun a ha c hc => by rw [wf a ha] at hc; cases hc⟩ hrun).1
  refine ⟨m1.brk, bs, m3, ?_, by rw [c2]; exact hr3, c3, hnd, ?_, c7⟩
  · rw [getArgArrayCopy, seq_run (msgAt_run k1)]
    simp only [Int.toNat_natCast]
    rw [arrAlloc, bind_run, seq_run h1, new_run]
    simp only [Option.bind_some]
    rw [seq_run (arrAt_run (grow_self _ _)), seq_run (a := ()) (m' := m3), pure_run]
    rw [copyArgsTo_eq as ds _ none hreg hlt (fun d hd => (h4 d hd).1) h2
      (layArgs_frame _ _ _ (fun x hx => st12.same x (hlt x hx) (by simp)) k3)]
    exact c1
  · refine own_new (st12.trans st3 (fun b hb => Or.inr (h4 b hb).1)) hnd hge (fun x hx => ?_) (by
      rw [grow_brk] at c8; simp only [List.length_cons]; omega)
    rcases List.mem_cons.mp hx with rfl | hx
    · rw [hr3]; rfl
    · exact layElems_alloc bs c3 x hx

end Libo.Mem
