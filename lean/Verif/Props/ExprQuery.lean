import Verif.Props.ExprAssign
import Verif.Props.Timetag
/-!
# C48-C50: expressions about the bundle itself
-/

namespace Libo.Props
open Libo Libo.Expr Libo.Match

variable {T : Tab} {env : Option Nat} {st st1 : St} {f : Nat}

theorem slice_le (buf r : Bytes) (i : Nat) (n : Int) : Le (slice buf i n) (slice (buf ++ r) i n) := by
  intro x h
  simp only [slice] at *
  split at h
  · cases h
  · rename_i hn
    have hn : 0 ≤ n ∧ (i : Int) + n ≤ buf.length := by omega
    rw [if_neg (by rw [List.length_append]; omega), ← h, List.drop_append_of_le_length (by omega),
      List.take_append_of_le_length (by rw [List.length_drop]; omega)]

theorem rmFlush_le (buf r : Bytes) (len : Int) (s : RmSt) : Le (rmFlush buf len s) (rmFlush (buf ++ r) len s) :=
  .ite (.bind (slice_le _ _ _ _) fun _ => .rfl) .rfl

/-- Unused space after the bundle does not matter to `removeMessage`. -/
theorem removeMessage_spare {pat : Bytes} {len : Int} {buf : Bytes} {k : Nat} {out : Bytes} (spare : Bytes)
    (h : removeMessage pat len buf = some (k, out)) : removeMessage pat len (buf ++ spare) = some (k, out ++ spare) := by
  simp only [removeMessage, Option.bind_eq_bind, Option.bind_eq_some_iff] at h ⊢
  obtain ⟨hdr, h1, h2⟩ := h
  refine ⟨hdr, slice_le _ _ _ _ _ h1, ?_⟩
  split at h2
  · cases h2
  · rename_i hl
    rw [if_neg hl]
    simp only [Option.bind_eq_some_iff] at h2 ⊢
    obtain ⟨s, h3, s', h4, b', h5, h6⟩ := h2
    refine ⟨s, msgLoop_le _ _ _ (fun p z x => ?_) _ _ _ _ h3, s', rmFlush_le _ _ _ _ _ h4, b' ++ spare, ?_, ?_⟩
    · exact .obind (cstr_le _ _ _) fun _ => .obind .rfl fun _ => .ite (.obind (rmFlush_le _ _ _ _) fun _ => .rfl) .rfl
    · simp only [blit] at h5 ⊢
      split at h5
      · cases h5
      · rename_i hb
        injection h5 with h5
        rw [if_neg (by rw [List.length_append]; omega), ← h5, List.take_append_of_le_length (by omega),
          List.drop_append_of_le_length (by omega), List.append_assoc, List.append_assoc, List.append_assoc]
    · simp only [Option.pure_def, Option.some.injEq, Prod.mk.injEq] at h6 ⊢
      exact ⟨h6.1, by rw [h6.2]⟩

theorem evals_now {r : St × Int × Ar} (h : evalNode 0 (run T 0) T env st f = some r) : Evals T env st f r := evals_node.mpr ⟨0, h⟩

theorem boolAr_eq (b : Bool) : (boolAr b).map some = some (truthAr b) := by cases b <;> rfl

/-- **C48**, `exists`: true exactly when the address matches some message completely. -/
theorem C48_exists {hdr : Bytes} {ms : List Bytes} {q : Bytes} {rest : List Arg}
    (hf : st.exprs[f]? = some ⟨.exist, .addr q :: rest⟩) (hB : HasBundle st hdr ms) (hh : hdr.length = 16) (hq : (0 : UInt8) ∉ q)
    (hm : ∀ m ∈ ms, Fits m ∧ WFMsg m) :
    ∃ b, Evals T env st f (st, 0, truthAr b) ∧ (b = true ↔ ∃ m ∈ ms, ∃ r, oscMatch q (addrOf m) = some r ∧ r.code = 3) := by
  obtain ⟨spare, hsp⟩ := hB
  obtain ⟨-, hits, -, -, -, h4, h5⟩ := C18_lookup hdr ms q hh hq hm
  refine ⟨!hits.isEmpty, evals_now ?_, ?_⟩
  · simp only [evalNode, hf, existsNode, asked, hsp, List.getElem?_cons_zero]
    rw [if_neg (by simp), Option.bind_some]
    simp only [hsp]
    rw [addressExists_le _ _ spare _ _ _ h5, Option.bind_some]
    cases hits.isEmpty <;> rfl
  · cases hits with
    | nil =>
      simp only [List.isEmpty_nil, Bool.not_true, Bool.false_eq_true, false_iff]
      rintro ⟨m, h1, h2⟩
      exact absurd ((h4 m).mpr ⟨h1, h2⟩) (by simp)
    | cons m hits =>
      simp only [List.isEmpty_cons, Bool.not_false, true_iff]
      have := (h4 m).mp (by simp)
      exact ⟨m, this⟩

theorem mapM_addr_le (buf r : Bytes) : ∀ vs : List View, Le (vs.mapM (View.addr buf)) (vs.mapM (View.addr (buf ++ r)))
  | [] => .rfl
  | v :: vs => by
    rw [List.mapM_cons, List.mapM_cons]
    exact .bind (cstr_le _ _ _) fun _ => .bind (mapM_addr_le buf r vs) fun _ => .rfl

/-- **C48**, `getaddresses()`: the addresses of the messages, in order; `getmsgcount()`: their number; `emptybundle()`: whether
there are none. -/
theorem C48_list {hdr : Bytes} {ms : List Bytes} (hB : HasBundle st hdr ms) (hh : hdr.length = 16)
    (hm : ∀ m ∈ ms, Fits m ∧ WFMsg m) :
    (st.exprs[f]? = some ⟨.getaddresses, []⟩ → ∃ l, Evals T env st f (st, 0, some l) ∧ Holds (some l) (ms.map fun m => .str (addrOf m))) ∧
    (∀ args, st.exprs[f]? = some ⟨.getmsgcount, args⟩ → ms.length < 2147483648 →
      ∃ l, Evals T env st f (st, 0, some l) ∧ Holds (some l) [ITy.i32.val ms.length]) ∧
    (st.exprs[f]? = some ⟨.emptybundle, []⟩ → Evals T env st f (st, 0, truthAr ms.isEmpty)) := by
  obtain ⟨spare, hsp⟩ := hB
  obtain ⟨vs, h1, h2, -, h4⟩ := C05_iterate hdr ms hh hm
  refine ⟨fun hf => ⟨addrAtoms (ms.map addrOf), evals_now ?_, ?_⟩, fun args hf hl => ?_, fun hf => evals_now ?_⟩
  · simp only [evalNode, hf, getaddressesNode, hsp, List.isEmpty_nil, if_true]
    rw [iterate_le _ spare _ _ h1, Option.bind_some, mapM_addr_le _ _ _ _ h4]
    rfl
  · clear h4 hsp hm h1 h2
    induction ms with
    | nil => rfl
    | cons m ms ih =>
      simp only [Holds, Option.getD_some, addrAtoms, List.map_cons, argsVal] at ih ⊢
      rw [ih]
      rfl
  · obtain ⟨u, hu, huv⟩ := setU_fresh .i32 ms.length
    refine ⟨[u], evals_now ?_, ?_⟩
    · simp only [evalNode, hf, getmsgcountNode, hsp]
      rw [iterate_le _ spare _ _ h1, Option.map_some, Option.bind_some, h2, i32_small (by omega), Option.bind_some]
      have : setTo (Expr.mk 1) 0 (·.setInt32 (ms.length : Int)) = some [u] := by
        have hu' : UAtom.setInt32 .fresh (ms.length : Int) = some u := hu
        simp only [setTo, Expr.mk, List.replicate, List.getElem?_cons_zero, Option.bind_some, hu', Option.map_some]
        rfl
      rw [this]
      rfl
    · simp [Holds, argsVal, huv]
  · simp only [evalNode, hf, emptybundleNode, hsp, List.isEmpty_nil, if_true]
    have e : (((encB hdr ms).length : Int) == 16) = ms.isEmpty := by
      cases ms with
      | nil => simp [encB, encMsgs, hh]
      | cons m ms =>
        simp only [List.isEmpty_cons, beq_eq_false_iff_ne, ne_eq, encB, encMsgs_cons, List.length_append, encMsg_length, hh]
        omega
    rw [e]
    cases ms.isEmpty <;> rfl

theorem deleteLoop_spec {hdr : Bytes} (hh : hdr.length = 16) : ∀ (as : List Bytes) (ms : List Bytes) (spare : Bytes), (∀ m ∈ ms, Fits m ∧ HasAddr m) →
    ∃ spare', deleteLoop (as.map .addr) (((encB hdr ms).length : Int), some (encB hdr ms ++ spare)) =
      some (((encB hdr (ms.filter fun m => addrOf m ∉ as)).length : Int), some (encB hdr (ms.filter fun m => addrOf m ∉ as) ++ spare')) := by
  intro as
  induction as with
  | nil =>
    intro ms spare _
    have e : (ms.filter fun m => addrOf m ∉ ([] : List Bytes)) = ms := List.filter_eq_self.mpr (by simp)
    exact ⟨spare, by rw [e]; rfl⟩
  | cons a as ih =>
    intro ms spare hm
    obtain ⟨tail, h1⟩ := removeMessage_encB hdr ms a hh hm
    obtain ⟨sp, h2⟩ := ih (ms.filter fun m => addrOf m ≠ a) (tail ++ spare) (fun m h => hm m (List.mem_filter.mp h).1)
    refine ⟨sp, ?_⟩
    have e : (ms.filter fun m => addrOf m ≠ a).filter (fun m => addrOf m ∉ as) = ms.filter fun m => addrOf m ∉ a :: as := by
      rw [List.filter_filter]
      apply List.filter_congr
      intro x _
      simp only [List.mem_cons, not_or, Bool.decide_and, Bool.and_comm, ne_eq]
    rw [e] at h2
    simp only [List.map_cons, deleteLoop, Option.bind_some]
    rw [removeMessage_spare spare h1, Option.bind_some, List.append_assoc]
    exact h2

/-- **C49**: `delete` of addresses removes exactly the messages to these addresses; the others are unchanged and in the same order,
and so is the time tag. -/
theorem C49_delete {as : List Bytes} (has : as ≠ []) {hdr : Bytes} {ms : List Bytes}
    (hf : st.exprs[f]? = some ⟨.delete, as.map .addr⟩) (hB : HasBundle st hdr ms) (hh : hdr.length = 16)
    (hm : ∀ m ∈ ms, Fits m ∧ HasAddr m) :
    ∃ b, Evals T env st f ({ st with bndl := b }, 0, none) ∧
      HasBundle { st with bndl := b } hdr (ms.filter fun m => addrOf m ∉ as) := by
  obtain ⟨spare, hsp⟩ := hB
  obtain ⟨sp, h⟩ := deleteLoop_spec hh as ms spare hm
  refine ⟨_, evals_now ?_, ⟨sp, rfl⟩⟩
  simp only [evalNode, hf, deleteNode, hsp]
  rw [if_neg (by cases as with | nil => exact absurd rfl has | cons _ _ => simp), h]
  rfl

/-- **C50**: `settimetag` puts the time tag in the header of the bundle and leaves the messages; `gettimetag` reads it. -/
theorem C50_timetag {tt : Bytes} (ht : tt.length = 8) {ms : List Bytes} :
    (∀ a rest v t vs, st.exprs[f]? = some ⟨.settimetag, a :: rest⟩ → ArgEvals T env st a (st1, 0, v) →
      Holds v (.time t.sec.toNat t.frac.toNat :: vs) → HasBundle st1 (ident ++ tt) ms →
      ∃ b, Evals T env st f ({ st1 with bndl := b }, 0, none) ∧ HasBundle { st1 with bndl := b } (ident ++ Timetag.encode t) ms) ∧
    (∀ args t, st.exprs[f]? = some ⟨.gettimetag, args⟩ → HasBundle st (ident ++ Timetag.encode t) ms →
      ∃ l, Evals T env st f (st, 0, some l) ∧ Holds (some l) [.time t.sec.toNat t.frac.toNat]) := by
  have hid : ident.length = 8 := by decide
  constructor
  · rintro a rest v t vs hf ⟨n, hn⟩ hv ⟨spare, hsp⟩
    obtain ⟨x, hx, hxv⟩ := holds_at hv (i := 0) rfl
    have hx' : x.tag = 116 ∧ timeOf x = t := by
      obtain ⟨tag, al, w⟩ := x
      rcases val_eq tag al w _ hxv with ⟨-, h2⟩ | ⟨-, h2⟩ | ⟨-, h2⟩ | ⟨-, h2⟩ | ⟨rfl, h2⟩ | ⟨-, p, s', -, h2⟩ |
        ⟨-, p, blk, l, c, -, -, -, h2⟩ | ⟨-, p, ms, vs, -, -, h2⟩ | ⟨h2, -⟩ <;> simp at h2
      refine ⟨rfl, ?_⟩
      obtain ⟨s, fr⟩ := t
      simp only [timeOf, UAtom.w, Timetag.mk.injEq]
      constructor
      · apply UInt32.toNat_inj.mp; rw [UInt32.toNat_ofNat']; have := h2.1; simp only [M32] at this ⊢; omega
      · apply UInt32.toNat_inj.mp; rw [UInt32.toNat_ofNat']; have := h2.2; simp only [M32] at this ⊢; omega
    have he : (Timetag.encode t).length = 8 := rfl
    have hset : setTimetag (encB (ident ++ tt) ms).length (encB (ident ++ tt) ms ++ spare) t = some (encB (ident ++ Timetag.encode t) ms ++ spare) := by
      have e1 : encB (ident ++ tt) ms ++ spare = ident ++ (tt ++ (encMsgs ms ++ spare)) := by simp [encB]
      have e2 : encB (ident ++ Timetag.encode t) ms ++ spare = ident ++ Timetag.encode t ++ (encMsgs ms ++ spare) := by simp [encB]
      have e3 : (ident ++ (tt ++ (encMsgs ms ++ spare))).take 8 = ident := by rw [← hid]; exact List.take_left
      have e4 : (ident ++ (tt ++ (encMsgs ms ++ spare))).drop (8 + (Timetag.encode t).length) = encMsgs ms ++ spare := by
        have : 8 + (Timetag.encode t).length = (ident ++ tt).length := by rw [List.length_append]; omega
        rw [this, ← List.append_assoc]; exact List.drop_left
      rw [setTimetag, if_neg (by simp only [encB, List.length_append]; omega), blit,
        if_neg (by simp only [encB, List.length_append]; omega), e1, e3, e4, e2]
    refine ⟨some (((encB (ident ++ tt) ms).length : Int), some (encB (ident ++ Timetag.encode t) ms ++ spare)), evals_node.mpr ⟨n, ?_⟩, ?_⟩
    · simp only [evalNode, hf, settimetagNode, List.getElem?_cons_zero, hn, Option.bind_some]
      rw [if_neg (by simp)]
      simp only [hx, hsp, hx'.1, hx'.2, if_true]
      rw [hset]
      rfl
    · refine ⟨spare, ?_⟩
      have : (encB (ident ++ tt) ms).length = (encB (ident ++ Timetag.encode t) ms).length := by
        simp only [encB, List.length_append]; omega
      rw [this]
  · rintro args t hf ⟨spare, hsp⟩
    have e : encB (ident ++ Timetag.encode t) ms ++ spare = ident ++ Timetag.encode t ++ (encMsgs ms ++ spare) := by simp [encB]
    have hg : getTimetag (encB (ident ++ Timetag.encode t) ms).length (some (encB (ident ++ Timetag.encode t) ms ++ spare)) = some t := by
      have he : (Timetag.encode t).length = 8 := rfl
      simp only [getTimetag]
      rw [if_neg (by simp only [encB, List.length_append]; omega), e, ← hid]
      exact (C30_wire t ident (encMsgs ms ++ spare)).1
    refine ⟨[.mk 116 false (.bits (t.sec.toNat + M32 * t.frac.toNat))], evals_now ?_, ?_⟩
    · simp only [evalNode, hf, gettimetagNode, hsp]
      rw [hg]
      rfl
    · obtain ⟨s, fr⟩ := t
      have h1 : s.toNat < 4294967296 := s.toNat_lt
      have h2 : fr.toNat < 4294967296 := fr.toNat_lt
      have e1 : (s.toNat + M32 * fr.toNat) % M32 = s.toNat := by simp only [M32]; omega
      have e2 : (s.toNat + M32 * fr.toNat) / M32 % M32 = fr.toNat := by simp only [M32]; omega
      simp only [Holds, Option.getD_some, argsVal, UAtom.val, W.raw]
      simp [e1, e2]

/-! ### A concrete case -/

def qSt : St := { exprs := [⟨.exist, [.addr (b "/f*")]⟩, ⟨.delete, [.addr (b "/foo")]⟩, ⟨.getaddresses, []⟩, ⟨.getmsgcount, []⟩, ⟨.emptybundle, []⟩,
                    ⟨.settimetag, [.atom (some (.mk 116 false (.bits 5)))]⟩, ⟨.gettimetag, []⟩],
                  recs := [], envs := [], bndl := some ((encB exHdr exMsgs).length, some (encB exHdr exMsgs)) }

example : HasBundle qSt exHdr exMsgs := ⟨[], by rw [List.append_nil]; rfl⟩
example := exMsgs_ok
example : (run noTab 1 none qSt 1).map (fun r => r.1.bndl.map fun p => (p.1, p.2.map (·.take 32))) =
    some (some (32, some (encB exHdr [exBar]))) := by decide +kernel
example : (run noTab 1 none qSt 5).map (fun r => r.1.bndl.map fun p => p.2.map (·.take 16)) =
    some (some (some (ident ++ [0, 0, 0, 5, 0, 0, 0, 0]))) := by decide +kernel

end Libo.Props
