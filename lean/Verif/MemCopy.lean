import Verif.MemBuild
/-!
# What the copying programs leave in memory
-/

namespace Libo.Mem
open Libo Libo.Props Libo.Expr

theorem read_run {m : Memory} {f p : Nat} {r : List UMsg} (h : readBndl m f p = some r) :
    (fun m => (readBndl m f p).map fun r => (r, m) : M (List UMsg)) m = some (r, m) := by simp [h]

/-- Distinct allocated blocks are at most `brk`. -/
theorem foot_len {m : Memory} (wf : WF m) {l : List Nat} (nd : l.Nodup) (h : ∀ x ∈ l, (m.cell x).isSome) : l.length ≤ m.brk :=
  length_le_of_nodup_lt nd fun a ha => wf.lt (h a ha)

theorem bndlCopy_lay {m : Memory} (wf : WF m) {p : Nat} {tail : Ptr} {ms : List LMsg} {vs : List VMsg}
    (l : LayW m 46 (.bndl p tail ms)) (nd : (LW.bndl p tail ms).foot.Nodup) (hv : msgsVal (toMs ms) = some vs) (hg : GoodMsgs vs)
    (hs : 16 + sizeVMsgs vs < 2147483648) : ∃ q tail' ms' m', bndlCopy p m = some (q, m') ∧ LayW m' 46 (.bndl q tail' ms') ∧
      (LW.bndl q tail' ms').foot.Nodup ∧ (∀ x ∈ (LW.bndl q tail' ms').foot, m.brk ≤ x) ∧ Step [] m m' ∧
      msgsVal (toMs ms') = some vs ∧ (LW.bndl q tail' ms').foot.length + m.brk = m'.brk := by
  have hlen := foot_len wf nd (layW_alloc _ l)
  have l' := l
  simp only [LayW] at l'
  have hr : readBndl m (3 * m.brk + 3) p = some (toMs ms) := by
    simp only [readBndl, l'.2.1]
    refine readMsgs_lay none ms _ l'.2.2.2 ?_
    simp only [LW.foot, List.length_cons] at hlen
    omega
  obtain ⟨bytes, us, s1, s2, s3⟩ := C01_roundtrip_partial _ vs hv hg hs
  have st := step_grow wf (.bndl ⟨0, none, none⟩) []
  obtain ⟨tail', ms', m', h1, h2, h3, h4, h5, h6, h7⟩ := buildMsgs_lay st.wf m.brk none [] (by
      simp only [LayW, LayMsgs, true_and, and_true]
      exact ⟨grow_self _ _, Or.inl rfl⟩) (by simp [LW.foot, footMs]) us vs s3 hg
  refine ⟨m.brk, tail', ms', m', ?_, h2, h3, ?_, st.trans h5 (by simp [LW.foot, footMs]), h6, by
    rw [grow_brk] at h7; simp only [LW.foot, List.length_cons]; omega⟩
  · rw [bndlCopy, seq_run (fuel_run _), seq_run (read_run hr), seq_run (ofOpt_run s1 _), deserInto, seq_run (ofOpt_run s2 _),
      bndlAlloc, seq_run (new_run _ _), seq_run h1, pure_run]
  · intro b hb
    simp only [LW.foot, List.mem_cons] at hb
    rcases hb with rfl | hb
    · exact Nat.le_refl _
    · have := h4 b hb; rw [grow_brk] at this; omega

theorem blob_copy {blk c : Bytes} {l : Int} (hl : rdI32 blk 0 = some l) (hs : slice blk 4 l = some c) (k : Bytes) :
    ∃ b, slice blk 0 (l + 4) = some b ∧ rdI32 (b ++ k) 0 = some l ∧ slice (b ++ k) 4 l = some c := by
  unfold slice at hs
  split at hs
  · cases hs
  · rename_i hcond
    injection hs with e
    have e4 : (l + 4).toNat = l.toNat + 4 := by omega
    have hlen : (blk.take (l.toNat + 4)).length = l.toNat + 4 := by rw [List.length_take]; omega
    refine ⟨blk.take (l.toNat + 4), ?_, ?_, ?_⟩
    · unfold slice
      rw [if_neg (by omega)]; simp [e4]
    · rw [← hl]
      simp only [rdI32, rd32, rd8]
      rw [List.getElem?_append_left (by omega), List.getElem?_append_left (by omega), List.getElem?_append_left (by omega),
        List.getElem?_append_left (by omega), List.getElem?_take_of_lt (by omega), List.getElem?_take_of_lt (by omega),
        List.getElem?_take_of_lt (by omega), List.getElem?_take_of_lt (by omega)]
    · unfold slice
      rw [if_neg (by rw [List.length_append, hlen]; omega), ← e, List.drop_append_of_le_length (by omega),
        List.take_append_of_le_length (by rw [List.length_drop]; omega), List.drop_take, List.take_take]
      simp

theorem copyWord_lay {m : Memory} (wf : WF m) {s : ACell} {w : LW} {v : Val} (hw : s.w = w.word) (l : LayW m s.tag w)
    (nd : w.foot.Nodup) (hv : (UAtom.mk s.tag s.alloc w.toW).val = some v) (hc : Copyable v) :
    ∃ lw m', copyWord s m = some (lw.word, m') ∧ LayW m' s.tag lw ∧ lw.foot.Nodup ∧ (∀ b ∈ lw.foot, m.brk ≤ b) ∧ Step [] m m' ∧
      (UAtom.mk s.tag s.alloc lw.toW).val = some v ∧ lw.foot.length + m.brk = m'.brk := by
  obtain ⟨t, al, w0, nx, pv⟩ := s
  simp only at hw l hv ⊢
  subst hw
  match w, l, nd, hv with
  | .plain w0, l, nd, hv =>
    have h1 : t ≠ 115 := by rintro rfl; cases w0 <;> simp [UAtom.val, LW.toW] at hv
    have h2 : t ≠ 98 := by rintro rfl; cases w0 <;> simp [UAtom.val, LW.toW] at hv
    have h3 : t ≠ 46 := by rintro rfl; cases w0 <;> simp [UAtom.val, LW.toW] at hv
    refine ⟨.plain w0, m, ?_, l, nd, by simp [LW.foot], Step.refl wf _, hv, by simp [LW.foot]⟩
    simp only [copyWord, h1, h2, h3, if_false]; rfl
  | .str p x k, l, nd, hv =>
    simp only [LayW] at l
    obtain ⟨rfl, l1, l2⟩ := l
    refine ⟨.str m.brk x [], m.grow (.buf (x ++ [0])), ?_, ?_, by simp [LW.foot], by simp [LW.foot], step_grow wf _ _, ?_,
      by simp [LW.foot, grow_brk]; omega⟩
    · simp only [copyWord, if_true, LW.word]
      rw [seq_run (strAt_run l1 l2), seq_run (new_run _ _), pure_run]
    · simp only [LayW, true_and]; exact ⟨grow_self _ _, l2⟩
    · rw [← hv]; simp [LW.toW, UAtom.val]
  | .blob p blk, l, nd, hv =>
    simp only [LayW] at l
    obtain ⟨rfl, l1⟩ := l
    simp [LW.toW, UAtom.val, Option.bind_eq_some_iff, Option.map_eq_some_iff] at hv
    obtain ⟨n, hn, c, hs, rfl⟩ := hv
    obtain ⟨b, b1, b2, b3⟩ := blob_copy hn hs (zeros (padN n.toNat - n.toNat))
    refine ⟨.blob m.brk (b ++ zeros (padN n.toNat - n.toNat)), m.grow (.buf (b ++ zeros (padN n.toNat - n.toNat))), ?_, ?_,
      by simp [LW.foot], by simp [LW.foot], step_grow wf _ _, ?_,
      by simp [LW.foot, grow_brk]; omega⟩
    · simp only [copyWord, LW.word]
      rw [if_neg (by decide), if_neg (by decide), if_pos trivial, seq_run (bufAt_run l1), seq_run (ofOpt_run hn _),
        seq_run (ofOpt_run b1 _), seq_run (new_run _ _), pure_run]
    · simp only [LayW, true_and]; exact grow_self _ _
    · simp [LW.toW, UAtom.val, b2, b3]
  | .bndl p tail ms, l, nd, hv =>
    have l' := l
    simp only [LayW] at l'
    obtain ⟨rfl, -⟩ := l'
    simp [LW.toW, UAtom.val, Option.map_eq_some_iff] at hv
    obtain ⟨vs, hvs, rfl⟩ := hv
    simp only [Copyable, sizeVal] at hc
    obtain ⟨q, tail', ms', m', h1, h2, h3, h4, h5, h6, h7⟩ := bndlCopy_lay wf l nd hvs hc.1 (by omega)
    refine ⟨.bndl q tail' ms', m', ?_, h2, h3, h4, h5, by simp [LW.toW, UAtom.val, h6], h7⟩
    simp only [copyWord, LW.word]
    rw [if_neg (by decide), if_pos trivial, seq_run h1, pure_run]

/-- Copying an atom into an existing one. -/
theorem copyInto_some {m : Memory} (wf : WF m) {d a : Nat} {t : UInt8} {al : Bool} {w : LW} {prev q : Ptr} {x : ACell} {v : Val}
    (l : LayArgs m prev q [.mk a t al w]) (nd : (footAs [.mk a t al w]).Nodup) (hd : m.cell d = some (.atom x))
    (hv : (UAtom.mk t al w.toW).val = some v) (hc : Copyable v) :
    ∃ lw m', copyInto (some d) a m = some (d, m') ∧ LayArgs m' none none [.mk d t al lw] ∧ (footAs [.mk d t al lw]).Nodup ∧
      (∀ b ∈ lw.foot, m.brk ≤ b) ∧ Step [d] m m' ∧ (UAtom.mk t al lw.toW).val = some v ∧
      lw.foot.length + m.brk = m'.brk := by
  simp only [LayArgs, and_true] at l
  simp only [footAs, List.append_nil, List.nodup_cons] at nd
  obtain ⟨lw, m1, h1, h2, h3, h4, h5, h6, h7⟩ := copyWord_lay (s := ⟨t, al, w.word, hdA q [], prev⟩) wf rfl l.2 nd.2 hv hc
  have hdb : d < m.brk := wf.lt (by rw [hd]; rfl)
  have hd1 : m1.cell d = some (.atom x) := by rw [h5.same d hdb (by simp), hd]
  have st := step_set h5.wf d (some (.atom ⟨t, al, lw.word, none, none⟩)) (by have := h5.brk; omega)
  refine ⟨lw, _, ?_, ?_, ?_, h4, (h5.mono (by simp)).trans st (fun b hb => Or.inl hb), h6, h7⟩
  · rw [copyInto, destOr, seq_run (pure_run _ _), seq_run (atomAt_run l.1), seq_run h1, seq_run (setAtom_run _ hd1), pure_run]
  · simp only [LayArgs, and_true]
    refine ⟨by rw [set_self]; rfl, st.layW h5.wf h2 fun b hb => ?_⟩
    have := h4 b hb
    simp; omega
  · simp only [footAs, List.append_nil, List.nodup_cons]
    exact ⟨fun h => by have := h4 d h; omega, h3⟩

/-- Copying an atom into a new one. -/
theorem copyInto_none {m : Memory} (wf : WF m) {a : Nat} {t : UInt8} {al : Bool} {w : LW} {prev q : Ptr} {v : Val}
    (l : LayArgs m prev q [.mk a t al w]) (nd : (footAs [.mk a t al w]).Nodup)
    (hv : (UAtom.mk t al w.toW).val = some v) (hc : Copyable v) :
    ∃ lw m', copyInto none a m = some (m.brk, m') ∧ LayArgs m' none none [.mk m.brk t al lw] ∧
      (footAs [.mk m.brk t al lw]).Nodup ∧ (∀ b ∈ lw.foot, m.brk < b) ∧ Step [] m m' ∧ (UAtom.mk t al lw.toW).val = some v ∧
      lw.foot.length + 1 + m.brk = m'.brk := by
  have st := step_grow wf (.atom ⟨0, false, .bits 0, none, none⟩) []
  have l' : LayArgs _ prev q [.mk a t al w] :=
    layArgs_frame (m' := m.grow (.atom ⟨0, false, .bits 0, none, none⟩)) prev q _
      (fun x hx => st.same x (wf.lt (layArgs_alloc _ _ _ l x hx)) (by simp)) l
  obtain ⟨lw, m', h1, h2, h3, h4, h5, h6, h7⟩ := copyInto_some st.wf l' nd (grow_self _ _) hv hc
  rw [grow_brk] at h4 h7
  refine ⟨lw, m', ?_, h2, h3, fun b hb => h4 b hb, st.trans h5 (by simp), h6, by omega⟩
  rw [copyInto, destOr, seq_run (pure_run _ _)] at h1
  rw [copyInto, destOr, atomAlloc, seq_run (new_run _ _), h1]

/-- The loop of the deep copy. -/
theorem copyArgs_lay {m : Memory} (wf : WF m) (d : Nat) (addr : Option (Nat × Bytes × Bytes)) (args : List LAtom) (prev q : Ptr)
    (l : LayMsgs m prev q [.mk d addr args]) (as : List LAtom) : ∀ (pv : Ptr) (f : Nat) (vs : List Val), LayArgs m pv none as →
    (footMs [.mk d addr args] ++ footAs as).Nodup → as.length < f →
    argsVal (toAs as) = some vs → (∀ v ∈ vs, Copyable v) → ∃ args' m', copyArgs d f (hdA none as) m = some ((), m') ∧
      LayMsgs m' prev q [.mk d addr (args ++ args')] ∧ (footMs [.mk d addr (args ++ args')]).Nodup ∧
      (∀ b ∈ footAs args', m.brk ≤ b) ∧ Step (footMs [.mk d addr args]) m m' ∧ argsVal (toAs args') = some vs ∧
      (footAs args').length + m.brk = m'.brk := by
  induction as generalizing m args with
  | nil =>
    intro pv f vs _ nd hf hv hc
    refine ⟨[], m, ?_, by simpa using l, by simpa [footAs] using nd, by simp [footAs], Step.refl wf _, hv, by simp [footAs]⟩
    cases f <;> rfl
  | cons a as ih =>
    intro pv f vs la nd hf hv hc
    obtain ⟨a, t, al, w⟩ := a
    obtain ⟨f, rfl⟩ : ∃ g, f = g + 1 := ⟨f - 1, by omega⟩
    simp only [toAs, argsVal, Option.bind_eq_some_iff, Option.map_eq_some_iff] at hv
    obtain ⟨v, hv1, vs', hv2, rfl⟩ := hv
    simp only [LayArgs] at la
    have la1 : LayArgs m pv (hdA none as) [.mk a t al w] := by
      simp only [LayArgs, and_true]; exact ⟨la.1, la.2.1⟩
    have hnd := List.nodup_append.mp nd
    have nda : (footAs [.mk a t al w]).Nodup := by
      have h := hnd.2.1
      simp only [footAs, List.append_nil] at h ⊢
      rw [← List.cons_append] at h
      exact (List.nodup_append.mp h).1
    obtain ⟨lw, m1, c1, c2, c3, c4, st1, c6, c7⟩ := copyInto_none wf la1 nda hv1 (hc v (by simp))
    have hold : ∀ b ∈ footMs [LMsg.mk d addr args], b < m.brk := fun b hb => wf.lt (layMsgs_alloc _ _ _ l b hb)
    have l1 := st1.layMsgs wf l (by simp)
    simp only [LayArgs, and_true] at c2
    have nd1 : (footMs [.mk d addr args] ++ m.brk :: lw.foot).Nodup := by
      simp only [footAs, List.append_nil] at c3
      refine List.nodup_append.mpr ⟨hnd.1, c3, fun x hx y hy => ?_⟩
      have := hold x hx
      rcases List.mem_cons.mp hy with rfl | hy
      · omega
      · have := c4 y hy; omega
    obtain ⟨m2, a1, a2, a3, a4⟩ := appendAtom_lay l1 c2.1 rfl c2.2 nd1
    have hb1 : m.brk < m1.brk := st1.wf.lt (by rw [c2.1]; rfl)
    have st2 : Step (footMs [.mk d addr args] ++ [m.brk]) m1 m2 := step_same st1.wf a2 (fun b hb => by
        rcases List.mem_append.mp hb with hb | hb
        · have := hold b hb; omega
        · simp at hb; omega) (fun b hb => a4 b (by
          simp only [footMs, List.append_nil, List.mem_append, List.mem_cons, not_or] at hb ⊢
          exact ⟨hb.1.1, hb.1.2.2⟩) (by simp at hb; exact hb.2))
    have st12 : Step (footMs [.mk d addr args]) m m2 := (st1.mono (by simp)).trans st2 (fun b hb => by
      rcases List.mem_append.mp hb with hb | hb
      · exact Or.inl hb
      · simp at hb; exact Or.inr (by omega))
    have hsrc : ∀ x ∈ footAs (.mk a t al w :: as), m2.cell x = m.cell x := fun x hx =>
      st12.same x (wf.lt (layArgs_alloc pv none (.mk a t al w :: as) (by simp only [LayArgs]; exact la) x hx))
        (fun h => hnd.2.2 x h x hx rfl)
    have ha2 : m2.cell a = some (.atom ⟨t, al, w.word, hdA none as, pv⟩) := by
      rw [hsrc a (by simp [footAs])]; exact la.1
    have la2 := layArgs_frame (some a) none as (fun x hx => hsrc x (by simp [footAs, hx])) la.2.2
    have e2 : footMs [.mk d addr (args ++ [.mk m.brk t al lw])] = footMs [.mk d addr args] ++ m.brk :: lw.foot := by
      simp [footMs, footAs_append, footAs]
    have nd2 : (footMs [.mk d addr (args ++ [.mk m.brk t al lw])] ++ footAs as).Nodup := by
      rw [e2]
      refine List.nodup_append.mpr ⟨nd1, ?_, fun x hx y hy => ?_⟩
      · have h := hnd.2.1
        simp only [footAs, List.nodup_cons] at h
        exact (List.nodup_append.mp h.2).2.1
      · have hyb : y < m.brk := wf.lt (layArgs_alloc pv none (.mk a t al w :: as) (by simp only [LayArgs]; exact la) y (by simp [footAs, hy]))
        rcases List.mem_append.mp hx with hx | hx
        · exact hnd.2.2 x hx y (by simp [footAs, hy])
        · rcases List.mem_cons.mp hx with rfl | hx
          · omega
          · have := c4 x hx; omega
    obtain ⟨args', m3, r1, r2, r3, r4, st3, r6, r7⟩ := ih st2.wf (args ++ [.mk m.brk t al lw]) a3 (some a) f vs' la2 nd2
      (by simp at hf; omega) hv2 (fun v hv => hc v (by simp [hv]))
    rw [List.append_assoc] at r2 r3
    refine ⟨[.mk m.brk t al lw] ++ args', m3, ?_, r2, r3, ?_, st12.trans st3 ?_, ?_, ?_⟩
    · rw [hdA_cons, copyArgs, seq_run c1, seq_run a1, seq_run (atomAt_run ha2)]
      exact r1
    · intro b hb
      simp only [List.cons_append, List.nil_append, footAs, List.mem_cons, List.mem_append] at hb
      rcases hb with rfl | hb | hb
      · exact Nat.le_refl _
      · have := c4 b hb; omega
      · have := r4 b hb
        have := st12.brk
        omega
    · intro b hb
      rw [e2] at hb
      rcases List.mem_append.mp hb with hb | hb
      · exact Or.inl hb
      · rcases List.mem_cons.mp hb with rfl | hb
        · exact Or.inr (Nat.le_refl _)
        · have := c4 b hb; exact Or.inr (by omega)
    · simp [toAs, argsVal, c6, r6]
    · simp only [List.cons_append, List.nil_append, footAs, List.length_cons, List.length_append]
      rw [a2] at r7
      omega

theorem set_same {m : Memory} {p : Nat} {c : Option Cell} (h : m.cell p = c) : m.set p c = m := by
  obtain ⟨f, b⟩ := m
  simp only [Memory.set, Memory.mk.injEq, and_true]
  funext x
  split
  · subst x; exact h.symm
  · rfl

theorem toAs_length : ∀ as : List LAtom, (toAs as).length = as.length
  | [] => rfl
  | .mk p t al w :: as => by simp [toAs, toAs_length as]

theorem footAs_length : ∀ as : List LAtom, as.length ≤ (footAs as).length
  | [] => Nat.zero_le _
  | .mk p t al w :: as => by have := footAs_length as; simp [footAs]; omega

/-- The address of a new message. -/
theorem giveAddr_lay {m : Memory} (wf : WF m) (s : Option Bytes) (hs : ∀ x, s = some x → (0 : UInt8) ∉ x) {d : Nat}
    (l : LayMsgs m none none [.mk d none []]) : ∃ addr m', giveAddr d s m = some ((), m') ∧ LayMsgs m' none none [.mk d addr []] ∧
      Step [d] m m' ∧ addr.map (·.2.1) = s ∧ (∀ x ∈ footAddr addr, m.brk ≤ x) ∧ (footAddr addr).length + m.brk = m'.brk := by
  match s with
  | none => exact ⟨none, m, rfl, l, Step.refl wf _, rfl, by simp [footAddr], by simp [footAddr]⟩
  | some s =>
    simp only [LayMsgs, LayArgs, LayAddr, and_true] at l
    have hdb : d < m.brk := wf.lt (by rw [l]; rfl)
    have st1 := step_grow wf (.buf (s ++ [0])) []
    have st2 := step_set st1.wf d (some (.msg ⟨some m.brk, 0, none, none, none, none⟩)) (by rw [grow_brk]; omega)
    refine ⟨some (m.brk, s, []), _, ?_, ?_, (st1.mono (by simp)).trans st2 (fun b hb => Or.inl hb), rfl, by simp [footAddr],
      by simp [footAddr, set_brk, grow_brk]; omega⟩
    · rw [giveAddr, seq_run (new_run _ _)]
      exact setMsg_run (c := ⟨none, 0, none, none, none, none⟩) _ (by rw [grow_cell, if_neg (Nat.ne_of_lt hdb), l]; rfl)
    · simp only [LayMsgs, LayArgs, LayAddr, and_true]
      refine ⟨by rw [set_self]; rfl, ?_, hs s rfl⟩
      rw [set_ne _ _ (by omega)]
      exact grow_self _ _

/-- Deep copies of messages. -/
theorem deepCopy_lay {m : Memory} (wf : WF m) {p : Nat} {addr : Option (Nat × Bytes × Bytes)} {args : List LAtom} {prev q : Ptr}
    {vs : List Val} (l : LayMsgs m prev q [.mk p addr args]) (nd : (footMs [.mk p addr args]).Nodup)
    (hv : argsVal (toAs args) = some vs) (hc : ∀ v ∈ vs, Copyable v) :
    ∃ d addr' args' m', deepCopy none p m = some (d, m') ∧ LayMsgs m' none none [.mk d addr' args'] ∧
      (footMs [.mk d addr' args']).Nodup ∧ (∀ x ∈ footMs [.mk d addr' args'], m.brk ≤ x) ∧ Step [] m m' ∧
      addr'.map (·.2.1) = addr.map (·.2.1) ∧ argsVal (toAs args') = some vs ∧
      (footMs [.mk d addr' args']).length + m.brk = m'.brk := by
  have hlen := foot_len wf nd (layMsgs_alloc _ _ _ l)
  have l' := l
  simp only [LayMsgs, and_true] at l
  obtain ⟨l1, l2, l3⟩ := l
  have hpb : p < m.brk := wf.lt (by rw [l1]; rfl)
  have st1 := step_grow wf (.msg ⟨none, 0, none, none, none, none⟩) []
  have st2 := step_set st1.wf m.brk (some (.msg ⟨none, 0, none, none, none, none⟩)) (by rw [grow_brk]; omega)
  have st12 : Step [] m _ := st1.trans st2 (by simp)
  generalize hm2 : (m.grow (.msg ⟨none, 0, none, none, none, none⟩)).set m.brk (some (.msg ⟨none, 0, none, none, none, none⟩)) = m2 at st2 st12
  have hm2b : m2.brk = m.brk + 1 := by rw [← hm2]; rfl
  have ld : LayMsgs m2 none none [.mk m.brk none []] := by
    simp only [LayMsgs, LayArgs, LayAddr, and_true]; rw [← hm2, set_self]; rfl
  obtain ⟨addr', m3, g1, g2, g3, g4, g5, g6⟩ := giveAddr_lay st2.wf (addr.map (·.2.1)) (by
    intro x hx
    match addr, l2, hx with
    | some (_, s, _), l2, hx => simp at hx; subst hx; exact l2.2) ld
  have st13 : Step [] m m3 := st12.trans g3 (by simp)
  have la3 := layArgs_frame none none args (fun x hx => st13.same x (wf.lt (layArgs_alloc _ _ _ l3 x hx)) (by simp)) l3
  have hfd : ∀ x ∈ footMs [.mk m.brk addr' []], m.brk ≤ x := by
    simp only [footMs, footAs, List.append_nil, List.mem_cons]
    rintro x (rfl | h)
    · exact Nat.le_refl _
    · have := g5 x h; omega
  have nd3 : (footMs [.mk m.brk addr' []] ++ footAs args).Nodup := by
    refine List.nodup_append.mpr ⟨?_, ?_, fun x hx y hy => ?_⟩
    · simp only [footMs, footAs, List.append_nil, List.nodup_cons]
      refine ⟨fun h => by have := g5 _ h; omega, ?_⟩
      match addr' with
      | none => simp [footAddr]
      | some _ => simp [footAddr]
    · simp only [footMs, List.append_nil, List.nodup_cons] at nd
      exact (List.nodup_append.mp nd.2).2.1
    · have := hfd x hx
      have := wf.lt (layArgs_alloc _ _ _ l3 y hy)
      omega
  have hal := footAs_length args
  obtain ⟨args', m4, r1, r2, r3, r4, st4, r6, r7⟩ := copyArgs_lay g3.wf m.brk addr' [] none none g2 args none (3 * m3.brk + 3) vs la3 nd3
    (by have := st13.brk; simp [footMs] at hlen; omega) hv hc
  rw [List.nil_append] at r2 r3
  have r2' := r2
  simp only [LayMsgs, and_true] at r2'
  have hd4 := r2'.1
  have st5 : Step [] m4 m4 := Step.refl st4.wf _
  have e5 : m4.set m.brk (some (.msg ⟨addr'.map (·.1), args'.length, hdA none args', ltA none args', none, none⟩)) = m4 := by
    exact set_same hd4
  refine ⟨m.brk, addr', args', m4, ?_, r2, r3, ?_, st13.trans st4 (fun b hb => Or.inr (hfd b hb)), g4, r6, by
    simp only [footMs, List.length_cons, List.length_append, List.length_nil]; omega⟩
  · have hopt : optStr (addr.map (·.1)) m2 = some (addr.map (·.2.1), m2) := by
      match addr, l2, l' with
      | none, _, _ => rfl
      | some (b, s, k), l2, l' =>
        have hbb : b < m.brk := wf.lt (by rw [l2.1]; rfl)
        simp only [Option.map_some, optStr]
        rw [seq_run (strAt_run (k := k) (by rw [st12.same b hbb (by simp)]; exact l2.1) l2.2), pure_run]
    rw [deepCopy, destOr, msgAlloc, seq_run (new_run _ _), seq_run (setMsg_run _ (grow_self _ _))]
    simp only [hm2]
    rw [seq_run (msgAt_run (p := p) (by rw [st12.same p hpb (by simp)]; exact l1)), seq_run hopt, seq_run g1, seq_run (fuel_run _),
      seq_run r1, seq_run (setMsg_run _ hd4)]
    rw [pure_run, e5]
  · intro x hx
    simp only [footMs, List.append_nil, List.mem_cons, List.mem_append] at hx
    rcases hx with rfl | hx | hx
    · exact Nat.le_refl _
    · have := g5 x hx; omega
    · have := r4 x hx; have := st13.brk; omega

/-! ### Arrays -/

/-- The elements of an array, each with its own links. -/
def LayElems (m : Memory) : List LAtom → Prop
  | [] => True
  | a :: as => (∃ pv q, LayArgs m pv q [a]) ∧ LayElems m as

theorem layElems_frame {m m' : Memory} : ∀ as : List LAtom, (∀ x ∈ footAs as, m'.cell x = m.cell x) → LayElems m as → LayElems m' as
  | [], _, _ => trivial
  | .mk p t al w :: as, h, ⟨⟨pv, q, l⟩, ls⟩ =>
    ⟨⟨pv, q, layArgs_frame _ _ _ (fun x hx => h x (by
      simp only [footAs, List.append_nil] at hx
      simp only [footAs, List.mem_cons, List.mem_append] at hx ⊢
      rcases hx with h | h <;> simp [h])) l⟩, layElems_frame as (fun x hx => h x (by simp [footAs, hx])) ls⟩

theorem layElems_alloc {m : Memory} : ∀ as : List LAtom, LayElems m as → ∀ x ∈ footAs as, (m.cell x).isSome
  | [], _, x, hx => by simp [footAs] at hx
  | .mk p t al w :: as, ⟨⟨pv, q, l⟩, ls⟩, x, hx => by
    simp only [footAs, List.mem_cons, List.mem_append] at hx
    rcases hx with h | h | h
    · exact layArgs_alloc _ _ _ l x (by simp [footAs, h])
    · exact layArgs_alloc _ _ _ l x (by simp [footAs, h])
    · exact layElems_alloc as ls x h

theorem newAtoms_run : ∀ (n : Nat) {m : Memory}, WF m → ∃ l m', newAtoms n m = some (l, m') ∧ l.length = n ∧ l.Nodup ∧
    (∀ x ∈ l, m.brk ≤ x ∧ ∃ c, m'.cell x = some (.atom c)) ∧ Step [] m m' ∧ n + m.brk = m'.brk
  | 0, m, wf => ⟨[], m, rfl, rfl, by simp, by simp, Step.refl wf _, by simp⟩
  | n + 1, m, wf => by
    have st := step_grow wf (.atom ⟨0, false, .bits 0, none, none⟩) []
    obtain ⟨l, m', h1, h2, h3, h4, h5, h6⟩ := newAtoms_run n st.wf
    refine ⟨m.brk :: l, m', ?_, by simp [h2], ?_, ?_, st.trans h5 (by simp), by rw [grow_brk] at h6; omega⟩
    · rw [newAtoms, atomAlloc, seq_run (new_run _ _), seq_run h1, pure_run]
    · refine List.nodup_cons.mpr ⟨fun h => ?_, h3⟩
      have := (h4 _ h).1; rw [grow_brk] at this; omega
    · intro x hx
      rcases List.mem_cons.mp hx with rfl | hx
      · refine ⟨Nat.le_refl _, ⟨0, false, .bits 0, none, none⟩, ?_⟩
        rw [h5.same m.brk (by rw [grow_brk]; omega) (by simp), grow_self]
      · have := h4 x hx; rw [grow_brk] at this; exact ⟨by omega, this.2⟩

/-- The loop of the array copy. -/
theorem copyElems_lay : ∀ (as : List LAtom) (ds : List Nat) {m : Memory} (vs : List Val), WF m → LayElems m as → (footAs as).Nodup →
    ds.length = as.length → ds.Nodup → (∀ d ∈ ds, d ∉ footAs as ∧ ∃ c, m.cell d = some (.atom c)) → argsVal (toAs as) = some vs →
    (∀ v ∈ vs, Copyable v) → ∃ bs m', copyElems (as.map LAtom.p) ds m = some ((), m') ∧ bs.map LAtom.p = ds ∧ LayElems m' bs ∧
      (footAs bs).Nodup ∧ (∀ x ∈ footAs bs, x ∈ ds ∨ m.brk ≤ x) ∧ Step ds m m' ∧ argsVal (toAs bs) = some vs ∧
      (footAs bs).length + m.brk = m'.brk + ds.length
  | [], ds, m, vs, wf, _, _, hl, _, _, hv, _ => by
    have : ds = [] := List.length_eq_zero_iff.mp hl
    subst this
    exact ⟨[], m, rfl, rfl, trivial, by simp [footAs], by simp [footAs], Step.refl wf _, hv, by simp [footAs]⟩
  | .mk a t al w :: as, [], m, vs, _, _, _, hl, _, _, _, _ => by simp at hl
  | .mk a t al w :: as, d :: ds, m, vs, wf, ⟨⟨pv, q, l⟩, ls⟩, nd, hl, ndd, hd, hv, hc => by
    simp only [toAs, argsVal, Option.bind_eq_some_iff, Option.map_eq_some_iff] at hv
    obtain ⟨v, hv1, vs', hv2, rfl⟩ := hv
    obtain ⟨hd1, x, hx⟩ := hd d (by simp)
    simp only [footAs] at nd
    rw [← List.cons_append] at nd
    have hn := List.nodup_append.mp nd
    obtain ⟨lw, m1, c1, c2, c3, c4, st1, c6, c7⟩ := copyInto_some wf l (by simpa [footAs] using hn.1) hx hv1 (hc v (by simp))
    have hlt : ∀ x ∈ footAs (.mk a t al w :: as), x < m.brk := fun x hx => wf.lt (layElems_alloc (.mk a t al w :: as) ⟨⟨pv, q, l⟩, ls⟩ x hx)
    have hdlt : ∀ e ∈ d :: ds, e < m.brk := fun e he => by
      obtain ⟨-, c, hc⟩ := hd e he
      exact wf.lt (by rw [hc]; rfl)
    have ls1 := layElems_frame as (fun y hy => st1.same y (hlt y (by simp [footAs, hy])) (fun h => by
      simp at h; subst h; exact hd1 (by simp only [footAs, List.mem_cons, List.mem_append]; exact Or.inr (Or.inr hy)))) ls
    have ndd' := List.nodup_cons.mp ndd
    obtain ⟨bs, m2, r1, r2, r3, r4, r5, st2, r7, r8⟩ := copyElems_lay as ds vs' st1.wf ls1 hn.2.1 (by simpa using hl) ndd'.2 (fun e he => by
      obtain ⟨h1, c, h2⟩ := hd e (by simp [he])
      refine ⟨fun h => h1 (by simp [footAs, h]), c, ?_⟩
      rw [st1.same e (hdlt e (by simp [he])) (by rintro h; simp at h; subst h; exact ndd'.1 he), h2]) hv2 (fun v hv => hc v (by simp [hv]))
    have hf1 : ∀ x ∈ footAs [.mk d t al lw], x = d ∨ (m.brk ≤ x ∧ x < m1.brk) := by
      intro x hx
      have h1 := st1.wf.lt (layArgs_alloc _ _ _ c2 x hx)
      simp only [footAs, List.append_nil, List.mem_cons] at hx
      rcases hx with rfl | hx
      · exact Or.inl rfl
      · exact Or.inr ⟨c4 x hx, h1⟩
    have hsep : ∀ x ∈ footAs [.mk d t al lw], x ∉ ds := by
      intro x hx hds
      rcases hf1 x hx with rfl | h
      · exact ndd'.1 hds
      · have := hdlt x (by simp [hds]); omega
    refine ⟨.mk d t al lw :: bs, m2, ?_, by simp [r2, LAtom.p], ?_, ?_, ?_, ?_, by simp [toAs, argsVal, c6, r7], by
      simp only [footAs, List.length_cons, List.length_append]; omega⟩
    · simp only [List.map_cons, LAtom.p]
      rw [copyElems, seq_run c1]
      exact r1
    · refine ⟨⟨none, none, layArgs_frame _ _ _ (fun x hx => st2.same x ?_ (hsep x hx)) c2⟩, r3⟩
      exact st1.wf.lt (layArgs_alloc _ _ _ c2 x hx)
    · simp only [footAs]
      rw [← List.cons_append]
      refine List.nodup_append.mpr ⟨by simpa [footAs] using c3, r4, fun x hx y hy => ?_⟩
      have hx' : x ∈ footAs [.mk d t al lw] := by simpa [footAs] using hx
      rintro rfl
      rcases r5 x hy with h | h
      · exact hsep x hx' h
      · rcases hf1 x hx' with rfl | h1
        · have := hdlt x (by simp); have := st1.brk; omega
        · omega
    · intro x hx
      simp only [footAs, List.mem_cons, List.mem_append] at hx
      rcases hx with rfl | hx | hx
      · exact Or.inl (by simp)
      · exact Or.inr (c4 x hx)
      · rcases r5 x hx with h | h
        · exact Or.inl (by simp [h])
        · have := st1.brk; exact Or.inr (by omega)
    · exact (st1.mono (by simp)).trans (st2.mono (T := d :: ds) (fun b hb => by simp [hb])) (fun b hb => Or.inl hb)

/-- Copies of arrays. -/
theorem arrCopy_lay {m : Memory} (wf : WF m) {r : Nat} {as : List LAtom} {vs : List Val} (hr : m.cell r = some (.arr (as.map LAtom.p)))
    (l : LayElems m as) (nd : (r :: footAs as).Nodup) (hv : argsVal (toAs as) = some vs) (hc : ∀ v ∈ vs, Copyable v) :
    ∃ r' bs m', arrCopy r m = some (r', m') ∧ m'.cell r' = some (.arr (bs.map LAtom.p)) ∧ LayElems m' bs ∧ (r' :: footAs bs).Nodup ∧
      (∀ x ∈ r' :: footAs bs, m.brk ≤ x) ∧ Step [] m m' ∧ argsVal (toAs bs) = some vs ∧
      (r' :: footAs bs).length + m.brk = m'.brk := by
  obtain ⟨ds, m1, h1, h2, h3, h4, st1, h5⟩ := newAtoms_run (as.map LAtom.p).length wf
  have st2 := step_grow st1.wf (.arr ds) []
  have st12 : Step [] m _ := st1.trans st2 (by simp)
  have hlt : ∀ x ∈ footAs as, x < m.brk := fun x hx => wf.lt (layElems_alloc as l x hx)
  have hdl : ∀ d ∈ ds, d < m1.brk := fun d hd => by
    obtain ⟨-, c, hc⟩ := h4 d hd
    exact st1.wf.lt (by rw [hc]; rfl)
  obtain ⟨bs, m3, c1, c2, c3, c4, c5, st3, c7, c8⟩ := copyElems_lay as ds vs st2.wf
    (layElems_frame as (fun x hx => st12.same x (hlt x hx) (by simp)) l) (List.nodup_cons.mp nd).2 (by simpa using h2) h3 (fun d hd => by
      obtain ⟨hb, c, hc⟩ := h4 d hd
      refine ⟨fun h => by have := hlt d h; omega, c, ?_⟩
      rw [st2.same d (hdl d hd) (by simp), hc]) hv hc
  have hr' : m1.brk ∉ ds := fun h => by have := hdl _ h; omega
  have hr3 : m3.cell m1.brk = some (.arr ds) := by
    rw [st3.same m1.brk (by rw [grow_brk]; omega) hr', grow_self]
  refine ⟨m1.brk, bs, m3, ?_, by rw [c2]; exact hr3, c3, List.nodup_cons.mpr ⟨fun h => ?_, c4⟩, ?_, ?_, c7, by
    rw [grow_brk] at c8; simp only [List.length_cons]; omega⟩
  · rw [arrCopy, seq_run (arrAt_run hr)]
    rw [arrAlloc, bind_run, seq_run h1, new_run]
    simp only [Option.bind_some]
    rw [seq_run (arrAt_run (grow_self _ _)), seq_run c1, pure_run]
  · rcases c5 _ h with h | h
    · exact hr' h
    · rw [grow_brk] at h; omega
  · intro x hx
    rcases List.mem_cons.mp hx with rfl | hx
    · exact st1.brk
    · rcases c5 x hx with h | h
      · exact (h4 x h).1
      · have := st12.brk; omega
  · exact st12.trans st3 (fun b hb => Or.inr (h4 b hb).1)

end Libo.Mem
