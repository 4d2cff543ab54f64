import Verif.MemFree
import Verif.MemConf
/-!
# Properties C42 (copies are equal and independent) and C51 (freeing)

`BndlAt`, `MsgAt`, `AtomAt` and `ArrAt` say what the memory holds at an address: a bundle, message, atom or atom array with
certain values, in certain blocks.
-/

namespace Libo.Props
open Libo Libo.Mem Libo.Expr

/-- At `p` is a bundle with these messages, in the blocks `S`. -/
def BndlAt (m : Memory) (p : Nat) (vs : List VMsg) (S : List Nat) : Prop :=
  ∃ tail ms, LayW m 46 (.bndl p tail ms) ∧ (LW.bndl p tail ms).foot = S ∧ S.Nodup ∧ msgsVal (toMs ms) = some vs

/-- At `p` is a message with this address and these arguments, in the blocks `S`. -/
def MsgAt (m : Memory) (p : Nat) (addr : Option Bytes) (vs : List Val) (S : List Nat) : Prop :=
  ∃ pv q a args, LayMsgs m pv q [.mk p a args] ∧ footMs [.mk p a args] = S ∧ S.Nodup ∧ a.map (·.2.1) = addr ∧
    argsVal (toAs args) = some vs

/-- At `p` is an atom with this value, in the blocks `S`. -/
def AtomAt (m : Memory) (p : Nat) (v : Val) (S : List Nat) : Prop :=
  ∃ pv q t al w, LayArgs m pv q [.mk p t al w] ∧ footAs [.mk p t al w] = S ∧ S.Nodup ∧ (UAtom.mk t al w.toW).val = some v

/-- At `r` is an atom array with these values, in the blocks `S`. -/
def ArrAt (m : Memory) (r : Nat) (vs : List Val) (S : List Nat) : Prop :=
  ∃ as, m.cell r = some (.arr (as.map LAtom.p)) ∧ LayElems m as ∧ r :: footAs as = S ∧ S.Nodup ∧ argsVal (toAs as) = some vs

theorem BndlAt.frame {m m' : Memory} {p : Nat} {vs : List VMsg} {S : List Nat} (h : BndlAt m p vs S)
    (e : ∀ x ∈ S, m'.cell x = m.cell x) : BndlAt m' p vs S := by
  obtain ⟨tail, ms, h1, rfl, h3, h4⟩ := h
  exact ⟨tail, ms, layW_frame _ e h1, rfl, h3, h4⟩

theorem MsgAt.frame {m m' : Memory} {p : Nat} {a : Option Bytes} {vs : List Val} {S : List Nat} (h : MsgAt m p a vs S)
    (e : ∀ x ∈ S, m'.cell x = m.cell x) : MsgAt m' p a vs S := by
  obtain ⟨pv, q, a, args, h1, rfl, h3, h4⟩ := h
  exact ⟨pv, q, a, args, layMsgs_frame _ _ _ e h1, rfl, h3, h4⟩

theorem AtomAt.frame {m m' : Memory} {p : Nat} {v : Val} {S : List Nat} (h : AtomAt m p v S)
    (e : ∀ x ∈ S, m'.cell x = m.cell x) : AtomAt m' p v S := by
  obtain ⟨pv, q, t, al, w, h1, rfl, h3, h4⟩ := h
  exact ⟨pv, q, t, al, w, layArgs_frame _ _ _ e h1, rfl, h3, h4⟩

theorem ArrAt.frame {m m' : Memory} {p : Nat} {v : List Val} {S : List Nat} (h : ArrAt m p v S)
    (e : ∀ x ∈ S, m'.cell x = m.cell x) : ArrAt m' p v S := by
  obtain ⟨as, h0, h1, rfl, h3, h4⟩ := h
  exact ⟨as, by rw [e p (by simp)]; exact h0, layElems_frame as (fun x hx => e x (by simp [hx])) h1, rfl, h3, h4⟩

theorem BndlAt.lt {m : Memory} {p : Nat} {vs : List VMsg} {S : List Nat} (h : BndlAt m p vs S) (wf : WF m) : ∀ x ∈ S, x < m.brk := by
  obtain ⟨tail, ms, h1, rfl, -⟩ := h
  exact fun x hx => wf.lt (layW_alloc _ h1 x hx)
theorem MsgAt.lt {m : Memory} {p : Nat} {a : Option Bytes} {vs : List Val} {S : List Nat} (h : MsgAt m p a vs S) (wf : WF m) :
    ∀ x ∈ S, x < m.brk := by
  obtain ⟨pv, q, a, args, h1, rfl, -⟩ := h
  exact fun x hx => wf.lt (layMsgs_alloc _ _ _ h1 x hx)
theorem AtomAt.lt {m : Memory} {p : Nat} {v : Val} {S : List Nat} (h : AtomAt m p v S) (wf : WF m) : ∀ x ∈ S, x < m.brk := by
  obtain ⟨pv, q, t, al, w, h1, rfl, -⟩ := h
  exact fun x hx => wf.lt (layArgs_alloc _ _ _ h1 x hx)
theorem ArrAt.lt {m : Memory} {p : Nat} {v : List Val} {S : List Nat} (h : ArrAt m p v S) (wf : WF m) : ∀ x ∈ S, x < m.brk := by
  obtain ⟨as, h0, h1, rfl, -⟩ := h
  intro x hx
  rcases List.mem_cons.mp hx with rfl | hx
  · exact wf.lt (by rw [h0]; rfl)
  · exact wf.lt (layElems_alloc as h1 x hx)

theorem reg_brk {m : Memory} (wf : WF m) : Reg m.brk m :=
  ⟨Nat.le_refl _, fun a ha c hc => by rw [wf a ha] at hc; cases hc⟩

/-- What `m'` is after something was copied in `m`: a client that starts with nothing but the copy `q`, whatever it does, changes
no block that existed before. -/
def Independent (m m' : Memory) (q : Nat) : Prop :=
  ∀ m'' known, Edits m' [q] m'' known → ∀ x, x < m.brk → m''.cell x = m.cell x

theorem independent_of_conf {m m' : Memory} {q : Nat} {x : M Nat} (wf : WF m) (h : x m = some (q, m'))
    (c : Conf m.brk x fun q => m.brk ≤ q) : Independent m m' q := by
  intro m'' known e x hx
  obtain ⟨h1, h2, h3⟩ := c m q m' (reg_brk wf) h
  obtain ⟨-, -, h4⟩ := edits_confined e h1 (by simpa using h3)
  rw [h4 x hx, h2 x hx]

/-- **C42 (bundles; partial).**  Copying a bundle gives a bundle with the same messages, in blocks of its own; and whatever a client
then does with the copy, with the API, the source keeps its blocks and its messages.  The bundle has slash-led addresses, no NUL in
strings, and fits the size fields, as in C01. -/
theorem C42_bundle_partial {m : Memory} (wf : WF m) {p : Nat} {vs : List VMsg} {S : List Nat} (h : BndlAt m p vs S) (hg : GoodMsgs vs)
    (hs : 16 + sizeVMsgs vs < 2147483648) : ∃ q T m', bndlCopy p m = some (q, m') ∧ BndlAt m' q vs T ∧ (∀ x ∈ T, x ∉ S) ∧
      BndlAt m' p vs S ∧ Independent m m' q ∧ ∀ m'' known, Edits m' [q] m'' known → BndlAt m'' p vs S := by
  obtain ⟨tail, ms, h1, h2, h3, h4⟩ := h
  obtain ⟨q, tail', ms', m', c1, c2, c3, c4, c5, c6, -⟩ := bndlCopy_lay wf h1 (h2 ▸ h3) h4 hg hs
  have hb : BndlAt m p vs S := ⟨tail, ms, h1, h2, h3, h4⟩
  have hi : Independent m m' q := independent_of_conf wf c1 (conf_bndlCopy p)
  refine ⟨q, _, m', c1, ⟨tail', ms', c2, rfl, c3, c6⟩, fun x hx hS => ?_, hb.frame fun x hx => c5.same x (hb.lt wf x hx) (by simp), hi,
    fun m'' known e => hb.frame fun x hx => hi m'' known e x (hb.lt wf x hx)⟩
  have := c4 x hx
  have := hb.lt wf x hS
  omega

/-- **C42 (messages; partial).**  The same for the deep copy of a message.  Missing: `osc_message_u_copy` and
`osc_message_array_u_copy` share the address and the arguments with the source (`C42_full_fails`). -/
theorem C42_message_partial {m : Memory} (wf : WF m) {p : Nat} {a : Option Bytes} {vs : List Val} {S : List Nat} (h : MsgAt m p a vs S)
    (hc : ∀ v ∈ vs, Copyable v) : ∃ q T m', deepCopy none p m = some (q, m') ∧ MsgAt m' q a vs T ∧ (∀ x ∈ T, x ∉ S) ∧
      MsgAt m' p a vs S ∧ Independent m m' q ∧ ∀ m'' known, Edits m' [q] m'' known → MsgAt m'' p a vs S := by
  have hb := h
  obtain ⟨pv, q, ad, args, h1, h2, h3, h4, h5⟩ := h
  obtain ⟨d, ad', args', m', c1, c2, c3, c4, c5, c6, c7, -⟩ := deepCopy_lay wf h1 (h2 ▸ h3) h5 hc
  have hi : Independent m m' d := independent_of_conf wf c1 (conf_deepCopy pok_none p)
  refine ⟨d, _, m', c1, ⟨none, none, ad', args', c2, rfl, c3, c6.trans h4, c7⟩, fun x hx hS => ?_,
    hb.frame fun x hx => c5.same x (hb.lt wf x hx) (by simp), hi, fun m'' known e => hb.frame fun x hx => hi m'' known e x (hb.lt wf x hx)⟩
  have := c4 x hx
  have := hb.lt wf x hS
  omega

/-- **C42 (atoms; partial).**  The same for an atom. -/
theorem C42_atom_partial {m : Memory} (wf : WF m) {p : Nat} {v : Val} {S : List Nat} (h : AtomAt m p v S)
    (hc : Copyable v) : ∃ q T m', copyInto none p m = some (q, m') ∧ AtomAt m' q v T ∧ (∀ x ∈ T, x ∉ S) ∧
      AtomAt m' p v S ∧ Independent m m' q ∧ ∀ m'' known, Edits m' [q] m'' known → AtomAt m'' p v S := by
  have hb := h
  obtain ⟨pv, q, t, al, w, h1, h2, h3, h4⟩ := h
  obtain ⟨lw, m', c1, c2, c3, c4, c5, c6, -⟩ := copyInto_none wf h1 (h2 ▸ h3) h4 hc
  have hi : Independent m m' m.brk := independent_of_conf wf c1 (conf_copyInto pok_none p)
  refine ⟨m.brk, _, m', c1, ⟨none, none, t, al, lw, c2, rfl, c3, c6⟩, fun x hx hS => ?_,
    hb.frame fun x hx => c5.same x (hb.lt wf x hx) (by simp), hi, fun m'' known e => hb.frame fun x hx => hi m'' known e x (hb.lt wf x hx)⟩
  have := hb.lt wf x hS
  simp only [footAs, List.append_nil, List.mem_cons] at hx
  rcases hx with rfl | hx
  · omega
  · have := c4 x hx; omega

/-- **C42 (arrays; partial).**  The same for an atom array. -/
theorem C42_array_partial {m : Memory} (wf : WF m) {r : Nat} {vs : List Val} {S : List Nat} (h : ArrAt m r vs S)
    (hc : ∀ v ∈ vs, Copyable v) : ∃ q T m', arrCopy r m = some (q, m') ∧ ArrAt m' q vs T ∧ (∀ x ∈ T, x ∉ S) ∧
      ArrAt m' r vs S ∧ Independent m m' q ∧ ∀ m'' known, Edits m' [q] m'' known → ArrAt m'' r vs S := by
  have hb := h
  obtain ⟨as, h0, h1, h2, h3, h4⟩ := h
  obtain ⟨r', bs, m', c1, c2, c3, c4, c5, c6, c7, -⟩ := arrCopy_lay wf h0 h1 (h2 ▸ h3) h4 hc
  have hi : Independent m m' r' := independent_of_conf wf c1 (conf_arrCopy r)
  refine ⟨r', _, m', c1, ⟨bs, c2, c3, rfl, c4, c7⟩, fun x hx hS => ?_,
    hb.frame fun x hx => c6.same x (hb.lt wf x hx) (by simp), hi, fun m'' known e => hb.frame fun x hx => hi m'' known e x (hb.lt wf x hx)⟩
  have := c5 x hx
  have := hb.lt wf x hS
  omega

/-! ### A memory with a bundle in it -/

/-- The empty memory. -/
def mem0 : Memory := ⟨fun _ => none, 1⟩

theorem wf0 : WF mem0 := fun _ _ => rfl

/-- Some memory holds any proper bundle, behind another block. -/
theorem bndlAt_exists (us : List UMsg) (vs : List VMsg) (hv : msgsVal us = some vs) (hg : GoodMsgs vs) :
    ∃ m p S, WF m ∧ BndlAt m p vs S := by
  have st := step_grow wf0 (.bndl ⟨0, none, none⟩) []
  obtain ⟨tail', ms', m', h1, h2, h3, h4, h5, h6, -⟩ := buildMsgs_lay st.wf mem0.brk none [] (by
      simp only [LayW, LayMsgs, true_and, and_true]
      exact ⟨grow_self _ _, Or.inl rfl⟩) (by simp [LW.foot, footMs]) us vs hv hg
  exact ⟨m', _, _, h5.wf, tail', ms', h2, rfl, h3, h6⟩

/-- A bundle with nested bundle, strings and numbers meets the hypotheses of `C42_bundle_partial`. -/
example : ∃ m p S, WF m ∧ BndlAt m p exVals S ∧ GoodMsgs exVals ∧ 16 + sizeVMsgs exVals < 2147483648 := by
  obtain ⟨m, p, S, h1, h2⟩ := bndlAt_exists exBundle exVals exBundle_val exVals_good
  exact ⟨m, p, S, h1, h2, exVals_good, by decide +kernel⟩

/-- A message `/a` with the number 1 and the string `hi`, and an array with a blob and a number. -/
def memEx : Memory where
  cell := fun p =>
    if p = 1 then some (.buf [47, 97, 0])
    else if p = 2 then some (.msg ⟨some 1, 2, some 3, some 4, none, none⟩)
    else if p = 3 then some (.atom ⟨105, false, .bits 1, some 4, none⟩)
    else if p = 4 then some (.atom ⟨115, true, .ptr 5, none, some 3⟩)
    else if p = 5 then some (.buf [104, 105, 0])
    else if p = 6 then some (.arr [7, 9])
    else if p = 7 then some (.atom ⟨98, true, .ptr 8, none, none⟩)
    else if p = 8 then some (.buf [0, 0, 0, 1, 42, 0, 0, 0])
    else if p = 9 then some (.atom ⟨105, false, .bits 3, none, none⟩)
    else none
  brk := 10

theorem wfEx : WF memEx := by
  intro b hb
  have h : 10 ≤ b := hb
  simp only [memEx]
  rw [if_neg (by omega), if_neg (by omega), if_neg (by omega), if_neg (by omega), if_neg (by omega), if_neg (by omega),
    if_neg (by omega), if_neg (by omega), if_neg (by omega)]

theorem msgEx : MsgAt memEx 2 (some [47, 97]) [.num 105 1, .str [104, 105]] [2, 1, 3, 4, 5] := by
  refine ⟨none, none, some (1, [47, 97], []), [.mk 3 105 false (.plain (.bits 1)), .mk 4 115 true (.str 5 [104, 105] [])], ?_, rfl,
    by decide, rfl, rfl⟩
  simp [LayMsgs, LayArgs, LayAddr, LayW, memEx, hdA, ltA, hdM, LAtom.p, LW.word]

theorem arrEx : ArrAt memEx 6 [.blob [42], .num 105 3] [6, 7, 8, 9] := by
  refine ⟨[.mk 7 98 true (.blob 8 [0, 0, 0, 1, 42, 0, 0, 0]), .mk 9 105 false (.plain (.bits 3))], by simp [memEx, LAtom.p],
    ⟨⟨none, none, ?_⟩, ⟨none, none, ?_⟩, trivial⟩, rfl, by decide, rfl⟩ <;> simp [LayArgs, LayW, memEx, LW.word, hdA]

theorem atomEx : AtomAt memEx 4 (.str [104, 105]) [4, 5] := by
  refine ⟨some 3, none, 115, true, .str 5 [104, 105] [], ?_, rfl, by decide, rfl⟩
  simp [LayArgs, LayW, memEx, LW.word, hdA]

example : (∀ v ∈ [Val.num 105 1, Val.str [104, 105]], Copyable v) ∧ (∀ v ∈ [Val.blob [42], Val.num 105 3], Copyable v) := by
  have h1 : Copyable (.num 105 1) := show sizeVal _ < _ by decide +kernel
  have h2 : Copyable (.str [104, 105]) := show sizeVal _ < _ by decide +kernel
  have h3 : Copyable (.blob [42]) := show sizeVal _ < _ by decide +kernel
  have h4 : Copyable (.num 105 3) := show sizeVal _ < _ by decide +kernel
  refine ⟨fun v hv => ?_, fun v hv => ?_⟩
  · rcases List.mem_cons.mp hv with rfl | hv
    · exact h1
    · rw [List.mem_singleton.mp hv]; exact h2
  · rcases List.mem_cons.mp hv with rfl | hv
    · exact h3
    · rw [List.mem_singleton.mp hv]; exact h4

/-- **C42 fails for `osc_message_u_copy`.**  It copies the members of the message and not what they point to: changing an argument
of the copy changes the source. -/
theorem C42_full_fails : ∃ m p a vs S q m' m'' known, WF m ∧ MsgAt m p a vs S ∧ msgCopy none p m = some (q, m') ∧
    MsgAt m' q a vs (q :: S.erase p) ∧ Edits m' [q] m'' known ∧ ∀ T, ¬ MsgAt m'' p a vs T := by
  refine ⟨memEx, 2, _, _, _, 10, (memEx.grow (.msg ⟨none, 0, none, none, none, none⟩)).set 10
      (some (.msg ⟨some 1, 2, some 3, some 4, none, none⟩)),
    _, _, wfEx, msgEx,
    rfl, ?_, .op (.getArg 10 0) (by simp [Op.uses]) rfl (.op (.setBits 3 105 7) (by simp [Op.uses]) rfl (.done _ _)), ?_⟩
  · refine ⟨none, none, some (1, [47, 97], []), [.mk 3 105 false (.plain (.bits 1)), .mk 4 115 true (.str 5 [104, 105] [])], ?_, rfl,
      by decide, rfl, rfl⟩
    simp [LayMsgs, LayArgs, LayAddr, LayW, memEx, hdA, ltA, hdM, LAtom.p, LW.word, set_cell, grow_cell]
  · rintro T ⟨pv, q, a, args, h1, -, -, -, h5⟩
    simp only [LayMsgs, and_true] at h1
    have hh := h1.1
    simp [set_cell, grow_cell, memEx] at hh
    match args, h1.2.2, hh, h5 with
    | [], _, hh, _ => simp [hdA] at hh
    | .mk a t al w :: as, l, hh, h5 =>
      have : a = 3 := by simpa [hdA, LAtom.p] using hh.2.2.1.symm
      subst this
      simp only [LayArgs] at l
      have l1 := l.1
      simp [set_cell, memEx] at l1
      obtain ⟨rfl, rfl, l3, -⟩ := l1
      match w, l3, h5 with
      | .plain (.bits b), l3, h5 =>
        simp [LW.word] at l3
        subst l3
        simp [toAs, LW.toW, argsVal, UAtom.val, W.raw, M32] at h5
      | .plain (.ptr b), l3, _ => simp [LW.word] at l3
      | .str _ _ _, l3, _ => simp [LW.word] at l3
      | .blob _ _, l3, _ => simp [LW.word] at l3
      | .bndl _ _ _, l3, _ => simp [LW.word] at l3

/-! ### Freeing -/

/-- Exactly these blocks were released. -/
def Freed (m m' : Memory) (S : List Nat) : Prop := (∀ x ∈ S, m'.cell x = none) ∧ ∀ x, x ∉ S → m'.cell x = m.cell x

theorem freed_erase (m : Memory) (S : List Nat) : Freed m (m.erase S) S :=
  ⟨fun x hx => by rw [erase_cell, if_pos hx], fun x hx => erase_ne m hx⟩

/-- **C51 (bundles).**  Freeing a bundle succeeds (no block is freed twice or used after it was freed) and releases all of its blocks,
those of nested bundles included, and nothing else. -/
theorem C51_bundle {m : Memory} (wf : WF m) {p : Nat} {vs : List VMsg} {S : List Nat} (h : BndlAt m p vs S) :
    ∃ m', Op.exec (.bndlFree p) m = some ([], m') ∧ Freed m m' S := by
  obtain ⟨tail, ms, h1, rfl, h3, -⟩ := h
  refine ⟨_, ?_, freed_erase m _⟩
  simp only [Op.exec, unit]
  rw [seq_run (m' := m.erase (LW.bndl p tail ms).foot) (a := ()) (by rw [seq_run (fuel_run _)]; exact bndlFree_lay wf h1 h3), pure_run]

/-- **C51 (messages).** -/
theorem C51_message {m : Memory} (wf : WF m) {p : Nat} {a : Option Bytes} {vs : List Val} {S : List Nat} (h : MsgAt m p a vs S) :
    ∃ m', Op.exec (.msgFree p) m = some ([], m') ∧ Freed m m' S := by
  obtain ⟨pv, q, a, args, h1, rfl, h3, -⟩ := h
  refine ⟨_, ?_, freed_erase m _⟩
  simp only [Op.exec, unit]
  rw [seq_run (m' := m.erase (footMs [.mk p a args])) (a := ()) (by rw [seq_run (fuel_run _)]; exact msgFree_lay wf h1 h3), pure_run]

/-- **C51 (atoms).** -/
theorem C51_atom {m : Memory} (wf : WF m) {p : Nat} {v : Val} {S : List Nat} (h : AtomAt m p v S) :
    ∃ m', Op.exec (.atomFree p) m = some ([], m') ∧ Freed m m' S := by
  obtain ⟨pv, q, t, al, w, h1, rfl, h3, -⟩ := h
  refine ⟨_, ?_, freed_erase m _⟩
  simp only [Op.exec, unit]
  rw [seq_run (m' := m.erase (footAs [.mk p t al w])) (a := ()) (by rw [seq_run (fuel_run _)]; exact atomFree_lay wf h1 h3), pure_run]

/-- **C51 (arrays; partial).**  Freeing an atom array releases blocks of the array only, and those of its bundles; missing: blobs and
strings that are not marked as owned stay allocated (`C51_full_fails`). -/
theorem C51_array_partial {m : Memory} (wf : WF m) {r : Nat} {vs : List Val} {S : List Nat} (h : ArrAt m r vs S) :
    ∃ m' F, Op.exec (.arrFree r) m = some ([], m') ∧ Freed m m' F ∧ (∀ x ∈ F, x ∈ S) ∧ r ∈ F ∧
      ((∀ v ∈ vs, (∀ s, v ≠ .str s) ∧ ∀ c, v ≠ .blob c) → F = S) := by
  obtain ⟨as, h0, h1, rfl, h3, h4⟩ := h
  refine ⟨_, _, ?_, freed_erase m (r :: ownFoot as), fun x hx => ?_, by simp, fun hv => ?_⟩
  · simp only [Op.exec, unit]
    rw [seq_run (m' := m.erase (r :: ownFoot as)) (a := ()) (arrFree_lay wf h0 h1 h3), pure_run]
  · rcases List.mem_cons.mp hx with rfl | hx
    · simp
    · exact List.mem_cons_of_mem _ (ownFoot_sub as x hx)
  · congr 1
    clear h0 h3
    induction as generalizing vs with
    | nil => rfl
    | cons a as ih =>
      obtain ⟨p, t, al, w⟩ := a
      simp only [toAs, argsVal, Option.bind_eq_some_iff, Option.map_eq_some_iff] at h4
      obtain ⟨v, hv1, vs', hv2, rfl⟩ := h4
      simp only [ownFoot, footAs]
      rw [ih h1.2 hv2 (fun v hm => hv v (by simp [hm]))]
      congr 2
      split
      · rfl
      · rename_i hn
        obtain ⟨⟨pv, q, l⟩, -⟩ := h1
        simp only [LayArgs, and_true] at l
        match w, l.2, hv1 with
        | .plain _, _, _ => rfl
        | .str p s k, l, hv1 =>
          simp only [LayW] at l
          obtain ⟨rfl, -⟩ := l
          simp [LW.toW, UAtom.val] at hv1
          exact absurd hv1.symm ((hv v (by simp)).1 s)
        | .blob p s, l, hv1 =>
          simp only [LayW] at l
          obtain ⟨rfl, -⟩ := l
          simp [LW.toW, UAtom.val, Option.bind_eq_some_iff, Option.map_eq_some_iff] at hv1
          obtain ⟨_, _, c, _, rfl⟩ := hv1
          exact absurd rfl ((hv _ (by simp)).2 c)
        | .bndl p s k, l, hv1 =>
          simp only [LayW] at l
          exact absurd (Or.inr l.1) hn

/-- **C51 (no leak in bundle copies).**  Copying a bundle and freeing the copy leaves exactly the blocks there were before. -/
theorem C51_copy_bundle {m : Memory} (wf : WF m) {p : Nat} {vs : List VMsg} {S : List Nat} (h : BndlAt m p vs S) (hg : GoodMsgs vs)
    (hs : 16 + sizeVMsgs vs < 2147483648) : ∃ q m' m'', bndlCopy p m = some (q, m') ∧ Op.exec (.bndlFree q) m' = some ([], m'') ∧
      ∀ x, m''.cell x = m.cell x := by
  obtain ⟨tail, ms, h1, h2, h3, h4⟩ := h
  obtain ⟨q, tail', ms', m', c1, c2, c3, c4, c5, c6, c7⟩ := bndlCopy_lay wf h1 (h2 ▸ h3) h4 hg hs
  obtain ⟨m'', f1, f2, f3⟩ := C51_bundle c5.wf (p := q) ⟨tail', ms', c2, rfl, c3, c6⟩
  refine ⟨q, m', m'', c1, f1, fun x => ?_⟩
  have hall := all_of_count (b := m'.brk) c3 (fun x hx => ⟨c4 x hx, c5.wf.lt (layW_alloc _ c2 x hx)⟩) c7
  by_cases hx : x ∈ (LW.bndl q tail' ms').foot
  · rw [f2 x hx, wf x (c4 x hx)]
  · rw [f3 x hx]
    rcases Nat.lt_or_ge x m.brk with h | h
    · exact c5.same x h (by simp)
    · rw [wf x h]
      rcases Nat.lt_or_ge x m'.brk with h' | h'
      · exact absurd (hall x h h') hx
      · exact c5.wf x h'

/-- **C51 (no leak in message copies).** -/
theorem C51_copy_message {m : Memory} (wf : WF m) {p : Nat} {a : Option Bytes} {vs : List Val} {S : List Nat} (h : MsgAt m p a vs S)
    (hc : ∀ v ∈ vs, Copyable v) : ∃ q m' m'', deepCopy none p m = some (q, m') ∧ Op.exec (.msgFree q) m' = some ([], m'') ∧
      ∀ x, m''.cell x = m.cell x := by
  obtain ⟨pv, q, ad, args, h1, h2, h3, h4, h5⟩ := h
  obtain ⟨d, ad', args', m', c1, c2, c3, c4, c5, c6, c7, c8⟩ := deepCopy_lay wf h1 (h2 ▸ h3) h5 hc
  obtain ⟨m'', f1, f2, f3⟩ := C51_message c5.wf (p := d) ⟨none, none, ad', args', c2, rfl, c3, c6, c7⟩
  refine ⟨d, m', m'', c1, f1, fun x => ?_⟩
  have hall := all_of_count (b := m'.brk) c3 (fun x hx => ⟨c4 x hx, c5.wf.lt (layMsgs_alloc _ _ _ c2 x hx)⟩) c8
  by_cases hx : x ∈ footMs [.mk d ad' args']
  · rw [f2 x hx, wf x (c4 x hx)]
  · rw [f3 x hx]
    rcases Nat.lt_or_ge x m.brk with h | h
    · exact c5.same x h (by simp)
    · rw [wf x h]
      rcases Nat.lt_or_ge x m'.brk with h' | h'
      · exact absurd (hall x h h') hx
      · exact c5.wf x h'

/-- **C51 fails for arrays.**  Copying an array that holds a blob and freeing the copy leaves the copy of the blob allocated. -/
theorem C51_full_fails : ∃ m r vs S q m' m'' x, WF m ∧ ArrAt m r vs S ∧ arrCopy r m = some (q, m') ∧
    Op.exec (.arrFree q) m' = some ([], m'') ∧ m.cell x = none ∧ m''.cell x ≠ none := by
  obtain ⟨q, m', m'', h⟩ : ∃ q m' m'', arrCopy 6 memEx = some (q, m') ∧ Op.exec (.arrFree q) m' = some ([], m'') ∧
      m''.cell 13 = some (.buf [0, 0, 0, 1, 42, 0, 0, 0]) := ⟨_, _, _, rfl, rfl, by decide +kernel⟩
  exact ⟨memEx, 6, _, _, q, m', m'', 13, wfEx, arrEx, h.1, h.2.1, by decide, by rw [h.2.2]; simp⟩

end Libo.Props
