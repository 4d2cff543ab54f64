import Verif.MemWire
import Verif.Props.SetsU
import Verif.Props.ExprMember
/-!
# Property C84: flattening and exploding bundles of the wire format
-/

namespace Libo.Props
open Libo Libo.Mem

/-! ### Specification -/

/-- A new block `r` has the bytes of a bundle with these messages and an empty header, and no other block is new, gone or changed. -/
def OnlyNew (m m' : Memory) (r : Nat) (ws : List VMsg) : Prop :=
  (∃ b, m'.cell r = some (.buf (plainHeader ++ b)) ∧ EncMsgs ws b) ∧ m.cell r = none ∧ ∀ x, x ≠ r → m'.cell x = m.cell x

/-- The block `q` has the bytes of a bundle with these messages, under any header. -/
def WireAt (m : Memory) (q : Nat) (vs : List VMsg) : Prop :=
  ∃ hdr b, m.cell q = some (.buf (hdr ++ b)) ∧ hdr.length = 16 ∧ EncMsgs vs b ∧ 16 + sizeVMsgs vs < 2147483648

/-! ### Lemmas -/

theorem deserInto_own {m : Memory} (wf : WF m) {q : Nat} {vs : List VMsg} (h : WireAt m q vs) (hg : GoodMsgs vs) :
    ∃ bytes bu S m1, bufAt q m = some (bytes, m) ∧ deserInto bytes m = some (bu, m1) ∧ BndlAt m1 bu vs S ∧ Own [] m S m1 := by
  obtain ⟨hdr, b, h1, h2, h3, h4⟩ := h
  have hl := encLen_msgs vs b h3 (by omega)
  obtain ⟨us, s2, s3⟩ := C01_decode vs b h3 hg hdr h2 (by rw [List.length_append]; omega)
  have st := step_grow wf (.bndl ⟨0, none, none⟩) []
  obtain ⟨tail', ms', m', r1, r2, r3, r4, r5, r6, r7⟩ := buildMsgs_lay st.wf m.brk none [] (by
      simp only [LayW, LayMsgs, true_and, and_true]
      exact ⟨grow_self _ _, Or.inl rfl⟩) (by simp [LW.foot, footMs]) us vs s3 hg
  rw [List.nil_append] at r2 r3
  refine ⟨_, m.brk, _, m', bufAt_run h1, ?_, ⟨tail', ms', r2, rfl, r3, r6⟩, own_new (st.trans r5 (by simp [LW.foot, footMs])) r3 ?_ (layW_alloc _ r2) ?_⟩
  · rw [deserInto, seq_run (ofOpt_run s2 _), bndlAlloc, seq_run (new_run _ _), seq_run r1, pure_run]
  · intro x hx
    simp only [LW.foot, List.mem_cons] at hx
    rcases hx with rfl | hx
    · exact Nat.le_refl _
    · have := r4 x hx; rw [grow_brk] at this; omega
  · rw [grow_brk] at r7
    simp only [LW.foot, List.length_cons]
    omega

theorem freeU_run {m : Memory} (wf : WF m) {p : Nat} {vs : List VMsg} {S : List Nat} (h : BndlAt m p vs S) : freeU p m = some ((), m.erase S) := by
  obtain ⟨tail, ms, h1, rfl, h3, -⟩ := h
  rw [freeU, seq_run (fuel_run _)]
  exact bndlFree_lay wf h1 h3

theorem serializeU_run {m : Memory} (wf : WF m) {p : Nat} {vs : List VMsg} {S : List Nat} (h : BndlAt m p vs S) (hs : 16 + sizeVMsgs vs < 4294967296) :
    ∃ b, serializeU p m = some (m.brk, m.grow (.buf (plainHeader ++ b))) ∧ EncMsgs vs b := by
  obtain ⟨tail, ms, l, rfl, nd, hv⟩ := h
  have hlen := foot_len wf nd (layW_alloc _ l)
  simp only [LayW] at l
  have hr : readBndl m (3 * m.brk + 3) p = some (toMs ms) := by
    simp only [readBndl, l.2.1]
    refine readMsgs_lay none ms _ l.2.2.2 ?_
    simp only [LW.foot, List.length_cons] at hlen
    omega
  obtain ⟨b, e1, -, -, e4, -⟩ := serialize_enc _ vs hv hs
  exact ⟨b, by rw [serializeU, seq_run (fuel_run _), seq_run (read_run hr), seq_run (ofOpt_run e4 _), new_run], e1⟩

theorem finish {m m1 m2 : Memory} (wf : WF m) {bu d : Nat} {vs ws : List VMsg} {S T : List Nat} (o1 : Own [] m S m1) (o2 : Own [] m1 T m2)
    (hb : BndlAt m2 bu vs S) (hd : BndlAt m2 d ws T) (hS : ∀ x ∈ S, x < m1.brk) (hz : 16 + sizeVMsgs ws < 4294967296) :
    ∃ r m', (serializeU d >>= fun r => freeU bu >>= fun _ => freeU d >>= fun _ => pure r) m2 = some (r, m') ∧ OnlyNew m m' r ws ∧ WF m' := by
  obtain ⟨b, r1, hb'⟩ := serializeU_run o2.wf hd hz
  have st := step_grow o2.wf (.buf (plainHeader ++ b)) []
  have g : ∀ x, x < m2.brk → (m2.grow (.buf (plainHeader ++ b))).cell x = m2.cell x := fun x hx => st.same x hx (by simp)
  have b3 := hb.frame fun x hx => g x (hb.lt o2.wf x hx)
  have d3 := hd.frame fun x hx => g x (hd.lt o2.wf x hx)
  have dj : ∀ x ∈ T, x ∉ S := fun x hx h => by
    rcases o2.new x hx with h' | h'
    · simp at h'
    · have := hS x h; omega
  have wf4 : WF ((m2.grow (.buf (plainHeader ++ b))).erase S) := fun x hx => by
    rw [erase_cell]
    split
    · rfl
    · exact st.wf x hx
  have d4 : BndlAt ((m2.grow (.buf (plainHeader ++ b))).erase S) d ws T := d3.frame fun x hx => erase_ne _ (dj x hx)
  have hr1 : m2.brk ∉ S := fun h => by have := hb.lt o2.wf _ h; omega
  have hr2 : m2.brk ∉ T := fun h => by have := hd.lt o2.wf _ h; omega
  have hbrk := o1.brk
  have hbrk2 := o2.brk
  refine ⟨m2.brk, _, by rw [seq_run r1, seq_run (freeU_run st.wf b3), seq_run (freeU_run wf4 d4)]; rfl, ⟨⟨b, ?_, hb'⟩, wf _ (by omega), fun x hx => ?_⟩, fun x hx => ?_⟩
  · rw [erase_ne _ hr2, erase_ne _ hr1, grow_self]
  · have hcell : ∀ y, y ≠ m2.brk → (m2.grow (.buf (plainHeader ++ b))).cell y = m2.cell y := fun y hy => by rw [grow_cell, if_neg hy]
    rcases Nat.lt_or_ge x m.brk with h | h
    · have hxS : x ∉ S := fun hm => by
        rcases o1.new x hm with h' | h'
        · simp at h'
        · omega
      have hxT : x ∉ T := fun hm => by
        rcases o2.new x hm with h' | h'
        · simp at h'
        · omega
      rw [erase_ne _ hxT, erase_ne _ hxS, hcell x hx, o2.same x (by omega) (by simp), o1.same x h (by simp)]
    · rw [wf x h, erase_cell]
      split
      · rfl
      · rename_i hT
        rw [erase_cell]
        split
        · rfl
        · rename_i hS'
          rw [hcell x hx]
          rcases Nat.lt_or_ge x m1.brk with h1 | h1
          · rw [o2.same x h1 (by simp)]
            exact o1.clean x hS' (Or.inr h)
          · exact o2.clean x hT (Or.inr h1)
  · rw [erase_cell]
    split
    · rfl
    · exact wf4 x hx

theorem sizeVMsgs_perm {a b : List VMsg} (h : a.Perm b) : sizeVMsgs a = sizeVMsgs b := by
  induction h with
  | nil => rfl
  | cons x _ ih => simp only [sizeVMsgs, ih]
  | swap x y l => simp only [sizeVMsgs]; omega
  | trans _ _ h1 h2 => rw [h1, h2]

theorem sizeVMsgs_sublist {a b : List VMsg} (h : a.Sublist b) : sizeVMsgs a ≤ sizeVMsgs b := by
  induction h with
  | slnil => exact Nat.le_refl _
  | cons x _ ih => simp only [sizeVMsgs]; omega
  | cons_cons x _ ih => simp only [sizeVMsgs]; omega

theorem lastOfEach_sublist : ∀ ms : List VMsg, (lastOfEach ms).Sublist ms
  | [] => by simp [lastOfEach]
  | m :: ms => by
    rw [lastOfEach]
    split
    · exact (lastOfEach_sublist ms).cons _
    · exact (lastOfEach_sublist ms).cons_cons _

theorem flatten_new (o : Flat) (h0 : (0 : UInt8) ∉ o.sep) {m : Memory} (wf : WF m) {p : Nat} {vs : List VMsg}
    {S : List Nat} (hk : Safe o 0 vs) (h : BndlAt m p vs S) (hg : GoodMsgs vs) (hs : sizeVMsgs vs < 2147483648) :
    ∃ d T m', flatten o none p m = some (d, m') ∧ BndlAt m' d (lastOfEach (leaves (opens o.maxlevel) o.sep o.remove 0 none vs)) T ∧
      BndlAt m' p vs S ∧ Own [] m T m' := by
  obtain ⟨m1, a1, a2, a3⟩ := bndlAlloc_at wf
  have h' : BndlAt m1 p vs S := h.frame fun x hx => a3.same x (h.lt wf x hx) (by simp)
  have hlt : ∀ x ∈ S, x ∉ [m.brk] := fun x hx e => by
    have := h.lt wf x hx
    simp at e; omega
  obtain ⟨T, m', r1, r2, r3, r4⟩ := flatten_own o h0 a3.wf hk h' a2 hlt hg hs
  refine ⟨m.brk, T, m', ?_, ?_, r3, a3.trans r4⟩
  · rw [flatten] at r1 ⊢
    rw [seq_run (show destOr none bndlAlloc m = _ from a1)]
    rw [seq_run (m' := m1) (a := m.brk) rfl] at r1
    exact r1
  · have := foldl_supersede (leaves (opens o.maxlevel) o.sep o.remove 0 none vs) []
    simp only [lastOfEach, List.nil_append] at this
    rw [← this]; exact r2

/-! ### The property -/

/-- **C84 (flattening; partial).**  Flattening a bundle of the wire format gives a new block with a bundle of its leaves under their full
addresses, the last one of each address; all other memory is as before: what was needed on the way was freed, and the source is unchanged.
Missing: C does not define the read of an atom that was freed (`keep`, see `C84_full_fails`). -/
theorem C84_flatten_partial (o : Flat) (hk : o.keep = true) (h0 : (0 : UInt8) ∉ o.sep) {m : Memory} (wf : WF m) {q : Nat} {vs : List VMsg}
    (h : WireAt m q vs) (hg : GoodMsgs vs)
    (hz : 16 + sizeVMsgs (lastOfEach (leaves (opens o.maxlevel) o.sep o.remove 0 none vs)) < 4294967296) :
    ∃ r m', flattenS o q m = some (r, m') ∧ OnlyNew m m' r (lastOfEach (leaves (opens o.maxlevel) o.sep o.remove 0 none vs)) := by
  have hs : 16 + sizeVMsgs vs < 2147483648 := by obtain ⟨_, _, -, -, -, h⟩ := h; exact h
  obtain ⟨bytes, bu, S, m1, r1, r2, b1, o1⟩ := deserInto_own wf h hg
  obtain ⟨d, T, m2, r3, b2, b3, o2⟩ := flatten_new o h0 o1.wf (Or.inl hk) b1 hg (by omega)
  obtain ⟨r, m', r4, r5, -⟩ := finish wf o1 o2 b3 b2 (b1.lt o1.wf) hz
  exact ⟨r, m', by rw [flattenS, seq_run r1, seq_run r2, seq_run r3]; exact r4, r5⟩

/-- **C84 (flattening without nested bundles).**  Without bundles among the arguments nothing is missing: the result has the last message of
each address (without the messages without arguments, if these are to be removed). -/
theorem C84_flat (o : Flat) (h0 : (0 : UInt8) ∉ o.sep) {m : Memory} (wf : WF m) {q : Nat} {vs : List VMsg}
    (h : WireAt m q vs) (hg : GoodMsgs vs) (hb : ∀ x ∈ vs, ∀ v ∈ x.args, v.isBndl = false) :
    ∃ r m', flattenS o q m = some (r, m') ∧ OnlyNew m m' r (lastOfEach (vs.filter fun x => !(o.remove && x.args.isEmpty))) := by
  have hs : 16 + sizeVMsgs vs < 2147483648 := by obtain ⟨_, _, -, -, -, h⟩ := h; exact h
  have e := leaves_flat (open_ := opens o.maxlevel) (sep := o.sep) (rm := o.remove) (level := 0) vs hb (by simp [opens]; omega)
  have hz := sizeVMsgs_sublist ((lastOfEach_sublist (vs.filter fun x => !(o.remove && x.args.isEmpty))).trans List.filter_sublist)
  obtain ⟨bytes, bu, S, m1, r1, r2, b1, o1⟩ := deserInto_own wf h hg
  obtain ⟨d, T, m2, r3, b2, b3, o2⟩ := flatten_new o h0 o1.wf (Or.inr (Or.inr hb)) b1 hg (by omega)
  rw [e] at b2
  obtain ⟨r, m', r4, r5, -⟩ := finish wf o1 o2 b3 b2 (b1.lt o1.wf) (by omega)
  exact ⟨r, m', by rw [flattenS, seq_run r1, seq_run r2, seq_run r3]; exact r4, r5⟩

/-- **C84 fails in the strict reading of C.**  With a bundle among the arguments of a message flattening reads an atom after it was freed. -/
theorem C84_full_fails (o : Flat) (hk : o.keep = false) (h0 : (0 : UInt8) ∉ o.sep) {m : Memory} (wf : WF m) {q : Nat} {vs : List VMsg}
    (h : WireAt m q vs) (hg : GoodMsgs vs) (hb : ∃ x ∈ vs, ∃ v ∈ x.args, v.isBndl = true) : flattenS o q m = none := by
  have hs : 16 + sizeVMsgs vs < 2147483648 := by obtain ⟨_, _, -, -, -, h⟩ := h; exact h
  obtain ⟨bytes, bu, S, m1, r1, r2, b1, o1⟩ := deserInto_own wf h hg
  rw [flattenS, seq_run r1, seq_run r2]
  have := C22_full_fails o hk h0 o1.wf b1 hg (by omega) hb
  exact bind_none fun _ m2 h2 => by rw [this] at h2; cases h2

theorem explodeS_new (maxlevel : Int) (f : Nat) {m : Memory} (wf : WF m) {q : Nat} {vs : List VMsg}
    (h : WireAt m q vs) (he : Explodable vs) (hf : ∀ x ∈ vs, ∀ a, x.addr = some a → a.length < f)
    (hz : 18 * sizeVMsgs vs < 2147483648) :
    ∃ r m', explodeS maxlevel 47 f q m = some (r, m') ∧ OnlyNew m m' r (placeAll (cuts maxlevel) [] vs) ∧ WF m' := by
  have hg : GoodMsgs vs := plain_good fun x hx => by
    obtain ⟨a, h1, h2, h3, h4, -⟩ := he x hx
    exact ⟨a, h1, h2, h3, h4⟩
  obtain ⟨-, -, g3⟩ := placeAll_ok (more := cuts maxlevel) vs (ms := []) he (by simp [GoodMsgs]) (by simp [StarFreeMs])
  obtain ⟨bytes, bu, S, m1, r1, r2, b1, o1⟩ := deserInto_own wf h hg
  obtain ⟨d, T, m2, r3, b2, b3, o2⟩ := explode_new maxlevel f o1.wf b1 he hf hz
  obtain ⟨r, m', r4, r5⟩ := finish wf o1 o2 b3 b2 (b1.lt o1.wf) (by simp only [sizeVMsgs] at g3; omega)
  exact ⟨r, m', by rw [explodeS, seq_run r1, seq_run r2, seq_run r3]; exact r4, r5⟩

/-- **C84 (exploding; partial).**  Exploding a bundle of the wire format with the separator `/` gives a new block with a bundle in which each
message is where the parts of its address lead; all other memory is as before.  Missing: other separators (C52), patterns in addresses. -/
theorem C84_explode_partial (maxlevel : Int) (f : Nat) {m : Memory} (wf : WF m) {q : Nat} {vs : List VMsg}
    (h : WireAt m q vs) (he : Explodable vs) (hf : ∀ x ∈ vs, ∀ a, x.addr = some a → a.length < f)
    (hz : 18 * sizeVMsgs vs < 2147483648) :
    ∃ r m', explodeS maxlevel 47 f q m = some (r, m') ∧ OnlyNew m m' r (placeAll (cuts maxlevel) [] vs) := by
  obtain ⟨r, m', r1, r2, -⟩ := explodeS_new maxlevel f wf h he hf hz
  exact ⟨r, m', r1, r2⟩

/-- **C84 (there and back; partial).**  Exploding bytes and flattening the result gives a bundle with the same messages, in some order; apart
from the two results memory is as before. -/
theorem C84_back_partial (f : Nat) (o : Flat) (hk : o.keep = true) (hsep : o.sep = []) (hr : o.remove = true) (hl : o.maxlevel ≤ 0)
    {m : Memory} (wf : WF m) {q : Nat} {vs : List VMsg} (h : WireAt m q vs) (hp : Paths vs)
    (hf : ∀ x ∈ vs, ∀ a, x.addr = some a → a.length < f) (hz : 16 + 18 * sizeVMsgs vs < 2147483648) :
    ∃ e m1 r m2 ws, explodeS (-1) 47 f q m = some (e, m1) ∧ flattenS o e m1 = some (r, m2) ∧ OnlyNew m1 m2 r ws ∧ ws.Perm vs ∧
      ∀ x, x ≠ e → x ≠ r → m2.cell x = m.cell x := by
  obtain ⟨e, m1, r1, ⟨⟨b, n1, n2⟩, n3, n4⟩, wf1⟩ := explodeS_new (-1) f wf h hp.explodable hf (by omega)
  obtain ⟨g1, -, g3⟩ := placeAll_ok (more := cuts (-1)) vs (ms := []) hp.explodable (by simp [GoodMsgs]) (by simp [StarFreeMs])
  simp only [sizeVMsgs] at g3
  have ho : ∀ l, opens o.maxlevel l = true := fun l => by simp [opens, hl]
  have hperm := (hp.leaves ho).2
  have hnd := ((hperm.map VMsg.addr).nodup_iff).mpr hp.distinct
  have he : lastOfEach (leaves (opens o.maxlevel) o.sep o.remove 0 none (placeAll (cuts (-1)) [] vs)) =
      leaves (opens o.maxlevel) [] true 0 none (placeAll (cuts (-1)) [] vs) := by rw [hsep, hr, lastOfEach_distinct hnd]
  obtain ⟨r, m2, q1, q2⟩ := C84_flatten_partial o hk (by simp [hsep]) wf1 ⟨plainHeader, b, n1, rfl, n2, by omega⟩ g1 (by
    rw [he, sizeVMsgs_perm hperm]; omega)
  refine ⟨e, m1, r, m2, _, r1, q1, q2, by rw [he]; exact hperm, fun x h1 h2 => ?_⟩
  rw [q2.2.2 x h2, n4 x h1]

/-! ### Cases that meet the hypotheses -/

/-- Bytes of the bundle `paths` (`/c`, `/a/b`, `/a/d/e`, `/a/d/f`) in a block. -/
example : ∃ m q, WF m ∧ WireAt m q paths ∧ Paths paths ∧ (∀ x ∈ paths, ∀ a, x.addr = some a → a.length < 10) ∧
    16 + 18 * sizeVMsgs paths < 2147483648 := by
  have hg : GoodMsgs paths := by simp [paths, GoodMsgs, GoodMsg, GoodVals, GoodVal]
  obtain ⟨b, h1, -⟩ := serialize_enc pathsU paths rfl (by decide +kernel)
  refine ⟨mem0.grow (.buf (plainHeader ++ b)), mem0.brk, (step_grow wf0 _ []).wf, ⟨plainHeader, b, grow_self _ _, rfl, h1, by decide +kernel⟩,
    ⟨?_, ?_, hg, ?_⟩, ?_, by decide +kernel⟩
  · simp [paths, VMsg.addr, Plain]
  · simp [paths, VMsg.args, Val.isBndl]
  · simp [paths, VMsg.addr]
  · simp [paths, VMsg.addr]

/-- Bytes of a bundle with a nested one in a block, for flattening. -/
example : ∃ m q, WF m ∧ WireAt m q exVals ∧ GoodMsgs exVals ∧ ∃ x ∈ exVals, ∃ v ∈ x.args, v.isBndl = true := by
  obtain ⟨b, h1, -⟩ := serialize_enc exBundle exVals exBundle_val (by decide +kernel)
  refine ⟨mem0.grow (.buf (plainHeader ++ b)), mem0.brk, (step_grow wf0 _ []).wf, ⟨plainHeader, b, grow_self _ _, rfl, h1, by decide +kernel⟩,
    exVals_good, ?_⟩
  simp [exVals, VMsg.args, Val.isBndl]

end Libo.Props
