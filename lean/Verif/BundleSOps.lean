import Verif.BundleSLemmas
import Verif.Props.Match
/-! # Lemmas: what the serialised-bundle operations compute on well-formed bundles -/

namespace Libo
open Libo.Match

/-! ## Sanity check -/

theorem rd32_drop {buf : Bytes} {pos n : Nat} (h : rd32 buf pos = some n) :
    buf.drop pos = be32 n ++ buf.drop (pos + 4) := by
  have hs : (rd32 buf pos).isSome := by rw [h]; rfl
  have hl := rd32_isSome.mp hs
  have e : buf.drop pos = [buf[pos], buf[pos+1], buf[pos+2], buf[pos+3]] ++ buf.drop (pos + 4) := by
    rw [List.drop_eq_getElem_cons (show pos < buf.length by omega),
      List.drop_eq_getElem_cons (show pos + 1 < buf.length by omega),
      List.drop_eq_getElem_cons (show pos + 1 + 1 < buf.length by omega),
      List.drop_eq_getElem_cons (show pos + 1 + 1 + 1 < buf.length by omega)]
    rfl
  rw [e]
  congr 1
  simp only [rd32, rd8, Option.bind_eq_bind, List.getElem?_eq_getElem (show pos < buf.length by omega),
    List.getElem?_eq_getElem (show pos + 1 < buf.length by omega),
    List.getElem?_eq_getElem (show pos + 2 < buf.length by omega),
    List.getElem?_eq_getElem (show pos + 3 < buf.length by omega), Option.bind_some, Option.pure_def,
    Option.some.injEq] at h
  have h0 := buf[pos].toNat_lt
  have h1 := buf[pos+1].toNat_lt
  have h2 := buf[pos+2].toNat_lt
  have h3 := buf[pos+3].toNat_lt
  simp only [be32, ← h]
  congr 1
  · apply UInt8.toNat_inj.mp
    simp only [UInt8.toNat_ofNat']
    omega
  · congr 1
    · apply UInt8.toNat_inj.mp
      simp only [UInt8.toNat_ofNat']
      omega
    · congr 1
      · apply UInt8.toNat_inj.mp
        simp only [UInt8.toNat_ofNat']
        omega
      · congr 1
        apply UInt8.toNat_inj.mp
        simp only [UInt8.toNat_ofNat']
        omega

theorem i32_eq {x y : Int} (h : i32 x = some y) : y = x ∧ -2147483648 ≤ x ∧ x < 2147483648 := by
  unfold i32 at h
  split at h
  · simp at h; exact ⟨h.symm, by assumption⟩
  · simp at h

/-- A size field read as a non-negative `int32_t`. -/
theorem rdI32_nonneg {buf : Bytes} {pos : Nat} {z : Int} (h : rdI32 buf pos = some z) (hz : 0 ≤ z) :
    buf.drop pos = be32 z.toNat ++ buf.drop (pos + 4) ∧ z < 2147483648 := by
  simp only [rdI32, Option.map_eq_some_iff] at h
  obtain ⟨n, hn, hz'⟩ := h
  have hlt := rd32_lt hn
  have : n < 2147483648 ∧ z = n := by
    unfold toI32 at hz'
    split at hz' <;> omega
  rw [rd32_drop hn, this.2]
  simp; omega

theorem sanityLoop_sound (buf : Bytes) : ∀ (n pos : Nat), pos ≤ buf.length →
    sanityLoop buf buf.length n pos pos = some 0 →
    ∃ ms, buf.drop pos = encMsgs ms ∧ ∀ m ∈ ms, Fits m ∧ 4 ≤ m.length ∧ m.head? = some 47 := by
  intro n
  induction n with
  | zero => intro pos _ h; simp [sanityLoop] at h
  | succ n ih =>
    intro pos hpos h
    unfold sanityLoop at h
    split at h
    · rename_i hlt
      simp only [Option.bind_eq_bind, Option.bind_eq_some_iff] at h
      obtain ⟨c1, hc1, size, hsize, c2, hc2, h⟩ := h
      obtain ⟨rfl, _⟩ := i32_eq hc1
      obtain ⟨rfl, _⟩ := i32_eq hc2
      split at h
      · simp at h
      rename_i hle
      simp only [Option.bind_eq_some_iff] at h
      obtain ⟨ret, hret, h⟩ := h
      split at h
      · rename_i hne
        simp at h
        exact absurd h hne
      rename_i hne
      have hret0 : ret = 0 := by omega
      subst hret0
      simp only [Option.bind_eq_some_iff] at h
      obtain ⟨pos', hpos', h⟩ := h
      simp only [msgSanityCheck, hsize, Option.bind_eq_bind, Option.bind_some] at hret
      split at hret
      · simp at hret
      rename_i hs4
      simp only [Option.bind_eq_some_iff] at hret
      obtain ⟨c, hc, hret⟩ := hret
      split at hret
      · simp at hret
      rename_i hc47
      have hc47' : c = 47 := by
        by_cases h : c = 47
        · exact h
        · exact absurd h hc47
      subst hc47'
      obtain ⟨k, hk⟩ : ∃ k : Nat, size = k := ⟨size.toNat, by omega⟩
      subst hk
      obtain ⟨hdrop, hlt31⟩ := rdI32_nonneg hsize (by omega)
      simp only [Int.toNat_natCast] at hdrop
      simp only [advance, Option.bind_eq_bind, Option.bind_eq_some_iff] at hpos'
      obtain ⟨d, hd, hpos'⟩ := hpos'
      obtain ⟨rfl, _, hd2⟩ := i32_eq hd
      rw [if_neg (by omega)] at hpos'
      simp only [Option.some.injEq] at hpos'
      have hp' : pos' = pos + k + 4 := by omega
      subst hp'
      have := ih (pos + k + 4) (by omega) (by
        rw [show ((pos + k + 4 : Nat) : Int) = (pos : Int) + 4 + k by omega]; exact h)
      obtain ⟨ms, hms, hall⟩ := this
      have hbody : (buf.drop (pos + 4)).take k ++ encMsgs ms = buf.drop (pos + 4) := by
        rw [← hms, show pos + k + 4 = (pos + 4) + k by omega, ← List.drop_drop (j := pos + 4), List.take_append_drop]
      have hlen : ((buf.drop (pos + 4)).take k).length = k := by
        rw [List.length_take, List.length_drop]; omega
      refine ⟨(buf.drop (pos + 4)).take k :: ms, ?_, ?_⟩
      · rw [encMsgs_cons, encMsg, hlen, List.append_assoc, hbody, hdrop]
      · intro m hm
        rcases List.mem_cons.mp hm with rfl | hm
        · refine ⟨by unfold Fits; omega, by omega, ?_⟩
          have hc' : (buf.drop (pos + 4)).head? = some 47 := by
            rw [List.head?_drop]; exact hc
          rw [List.head?_take, if_neg (by omega), hc']
        · exact hall m hm
    · rename_i hge
      refine ⟨[], ?_, by simp⟩
      rw [List.drop_eq_nil_of_le (by omega)]
      rfl

theorem strncmpId_take (id : Bytes) : ∀ buf, (∀ x ∈ id.dropLast, x ≠ 0) → strncmpId buf id = some true →
    buf.take id.length = id := by
  induction id with
  | nil => intro buf _ _; simp
  | cons y ys ih =>
    intro buf hz h
    cases buf with
    | nil => simp [strncmpId] at h
    | cons x xs =>
      rw [strncmpId] at h
      by_cases hxy : x = y
      · subst hxy
        rw [if_pos rfl] at h
        cases ys with
        | nil => simp
        | cons y2 ys =>
          rw [if_neg (hz x (by simp))] at h
          rw [List.length_cons, List.take_succ_cons, ih xs (fun w hw => hz w (by simp [hw])) h]
      · rw [if_neg hxy] at h
        simp at h

theorem strncmpId_ident (buf : Bytes) (h : strncmpId buf ident = some true) : buf.take 8 = ident :=
  strncmpId_take ident buf (by simp [ident]) h

theorem sanityLoop_complete (ms : List Bytes) : ∀ (pre buf : Bytes) (n : Nat), buf = pre ++ encMsgs ms →
    buf.length < 2147483648 → (∀ m ∈ ms, 4 ≤ m.length ∧ m.head? = some 47) → ms.length < n →
    sanityLoop buf buf.length n pre.length pre.length = some 0 := by
  induction ms with
  | nil =>
    intro pre buf n hb hl _ hn
    cases n with
    | zero => omega
    | succ n =>
      unfold sanityLoop
      rw [if_neg (by rw [hb]; simp)]
  | cons m ms ih =>
    intro pre buf n hb hl hall hn
    cases n with
    | zero => omega
    | succ n =>
      have hm := hall m (by simp)
      have hb' : buf = pre ++ encMsg m ++ encMsgs ms := by rw [hb]; simp
      have hlen : buf.length = pre.length + m.length + 4 + (encMsgs ms).length := by rw [hb']; simp; omega
      have hfit : Fits m := by unfold Fits; omega
      have hr : rdI32 buf pre.length = some (m.length : Int) := by rw [hb']; exact rdI32_at _ _ _ hfit
      have h8 : rd8 buf (pre.length + 4) = some 47 := by
        have e : buf = (pre ++ be32 m.length) ++ (m ++ encMsgs ms) := by rw [hb', encMsg]; simp
        have := rd8_append_right (pre ++ be32 m.length) (m ++ encMsgs ms) 0
        rw [← e] at this
        simp only [List.length_append, length_be32, Nat.add_zero] at this
        rw [this]
        cases m with
        | nil => simp at hm
        | cons c m => simpa [rd8] using hm.2
      have hms : msgSanityCheck buf pre.length = some 0 := by
        rw [msgSanityCheck, hr, bnd, if_neg (by omega), h8, bnd]
        rfl
      have ih' := ih (pre ++ encMsg m) buf n hb' hl (fun x h => hall x (by simp [h])) (by simp at hn; omega)
      rw [show (pre ++ encMsg m).length = pre.length + m.length + 4 by simp; omega] at ih'
      unfold sanityLoop
      rw [if_pos (by omega)]
      have e1 : i32 ((pre.length : Int) + 4) = some ((pre.length : Int) + 4) := by
        unfold i32; rw [if_pos (by omega)]
      have e2 : i32 ((pre.length : Int) + 4 + m.length) = some ((pre.length : Int) + 4 + m.length) := by
        unfold i32; rw [if_pos (by omega)]
      rw [e1, bnd, hr, bnd, e2, bnd, if_neg (by omega), hms, bnd, if_neg (by simp), advance_at _ hfit, bnd]
      rw [show ((pre.length : Int) + 4 + m.length) = ((pre.length + m.length + 4 : Nat) : Int) by omega]
      exact ih'

theorem strncmpId_pre (t : Bytes) : strncmpId (ident ++ t) ident = some true := by
  simp [ident, strncmpId]

/-! ## Walkers -/

theorem count_foldPos (ms : List Bytes) : ∀ (pos c : Nat),
    foldPos (fun _ _ (c : Nat) => some (c + 1, false)) pos ms c = some (c + ms.length) := by
  induction ms with
  | nil => intro pos c; simp [foldPos]
  | cons m ms ih => intro pos c; simp [foldPos, ih]; omega

/-- Bool form of "complete match". -/
def full (q a : Bytes) : Bool :=
  match oscMatch q a with
  | some r => r.code == 3
  | none => false

/-- Bool form of the lookup test in either mode. -/
def sel (q : Bytes) (fm : Bool) (a : Bytes) : Bool :=
  match oscMatch q a with
  | some r => accepts q fm r == some true
  | none => false

theorem ch_total {q : Bytes} {i : Nat} (h : i ≤ q.length) : ∃ c, ch q i = some c := by
  unfold ch
  by_cases h' : i < q.length
  · exact ⟨q[i], by rw [List.getElem?_append_left h', List.getElem?_eq_getElem h']⟩
  · exact ⟨0, by rw [show i = q.length by omega]; simp⟩

theorem accepts_total {q : Bytes} (fm : Bool) {r : Res} (h : r.po ≤ q.length) : ∃ b, accepts q fm r = some b := by
  unfold accepts
  split
  · exact ⟨_, rfl⟩
  split
  · exact ⟨_, rfl⟩
  split
  · obtain ⟨c, hc⟩ := ch_total h
    exact ⟨_, by rw [hc]; rfl⟩
  · exact ⟨_, rfl⟩

theorem match_sel (q : Bytes) (hq : (0 : UInt8) ∉ q) (fm : Bool) (a : Bytes) :
    ∃ r, oscMatch q a = some r ∧ accepts q fm r = some (sel q fm a) := by
  obtain ⟨r, hr, hpo, _⟩ := Props.C14_total q a hq
  obtain ⟨x, hx⟩ := accepts_total fm hpo
  refine ⟨r, hr, ?_⟩
  rw [hx, sel, hr]
  simp only [hx]
  cases x <;> rfl

theorem sel_full (q a : Bytes) : sel q true a = full q a := by
  unfold sel full
  cases oscMatch q a with
  | none => rfl
  | some r => simp only [accepts, if_true]; cases (r.code == 3) <;> rfl

theorem exists_foldPos (q : Bytes) (fm : Bool) (ms : List Bytes) : ∀ pos,
    foldPos (fun _ m (_ : Bool) => some (sel q fm (addrOf m), sel q fm (addrOf m))) pos ms false
      = some (ms.any fun m => sel q fm (addrOf m)) := by
  induction ms with
  | nil => intro pos; rfl
  | cons m ms ih =>
    intro pos
    simp only [foldPos, Option.bind_eq_bind, Option.bind_some, List.any_cons]
    cases h : sel q fm (addrOf m) with
    | true => rfl
    | false => simp [ih]

theorem addressExists_encB (hdr : Bytes) (ms : List Bytes) (q : Bytes) (fm : Bool) (hh : hdr.length = 16)
    (hq : (0 : UInt8) ∉ q) (hf : ∀ m ∈ ms, Fits m ∧ HasAddr m) :
    addressExists (encB hdr ms).length (encB hdr ms) q fm = some (ms.any fun m => sel q fm (addrOf m)) := by
  rw [addressExists, msgLoop_encB _ (fun _ m (_ : Bool) => some (sel q fm (addrOf m), sel q fm (addrOf m))) hdr ms _ _ hh
    (fun m h => (hf m h).1) (by simp) ?_, exists_foldPos]
  intro p m t s hm hb
  obtain ⟨r, hr, ha⟩ := match_sel q hq fm (addrOf m)
  rw [hb, cstr_at _ _ _ (hf m hm).2, bnd, hr, bnd, ha, bnd]
  cases sel q fm (addrOf m) <;> rfl

/-- Views of a sub-list of the messages, identified by reading back bytes and addresses. -/
def ViewsOf (buf : Bytes) (ms : List Bytes) (vs : List View) : Prop :=
  vs.mapM (View.bytes buf) = some (ms.map encMsg) ∧ vs.mapM (View.addr buf) = some (ms.map addrOf)

theorem mapM_snoc {α β : Type} (f : α → Option β) (l : List α) (x : α) (ys : List β) (y : β)
    (h : l.mapM f = some ys) (hx : f x = some y) : (l ++ [x]).mapM f = some (ys ++ [y]) := by
  rw [List.mapM_append, h]
  simp [hx]

theorem lookup_foldPos (buf q : Bytes) (fm : Bool) (ms : List Bytes) : ∀ (pre : Bytes) (done : List Bytes) (vs : List View),
    buf = pre ++ encMsgs ms → (∀ x ∈ ms, Fits x ∧ WFMsg x) → ViewsOf buf (done.filter fun m => sel q fm (addrOf m)) vs →
    ∃ ws, foldPos (fun pos m (vs : List View) =>
        if sel q fm (addrOf m) then (wrap buf pos).bind fun v => some (vs ++ [v], false) else some (vs, false))
        pre.length ms vs = some ws ∧ ViewsOf buf ((done ++ ms).filter fun m => sel q fm (addrOf m)) ws := by
  induction ms with
  | nil => intro pre done vs _ _ h; exact ⟨vs, rfl, by simpa using h⟩
  | cons m ms ih =>
    intro pre done vs hb hf h
    have hm := hf m (by simp)
    have hb' : buf = pre ++ encMsg m ++ encMsgs ms := by rw [hb]; simp
    have hpl : (pre ++ encMsg m).length = pre.length + m.length + 4 := by simp; omega
    rw [foldPos]
    by_cases hs : sel q fm (addrOf m) = true
    · obtain ⟨v, hw, hvs, hva⟩ := wrap_at pre m (encMsgs ms) hm.1 hm.2
      rw [← hb'] at hw
      have hbytes : View.bytes buf v = some (encMsg m) := by
        rw [View.bytes, hvs, hb', rdI32_at _ _ _ hm.1]
        exact slice_msg _ _ _
      have haddr : View.addr buf v = some (addrOf m) := by
        rw [View.addr, hva, hb', cstr_at _ _ _ hm.2.hasAddr]
      obtain ⟨ws, h1, h2⟩ := ih (pre ++ encMsg m) (done ++ [m]) (vs ++ [v]) hb' (fun x h => hf x (by simp [h]))
        (by
          rw [List.filter_append]
          simp only [List.filter_cons, hs, if_true, List.filter_nil]
          refine ⟨?_, ?_⟩
          · rw [List.map_append]; exact mapM_snoc _ _ _ _ _ h.1 hbytes
          · rw [List.map_append]; exact mapM_snoc _ _ _ _ _ h.2 haddr)
      rw [hpl] at h1
      refine ⟨ws, ?_, by simpa using h2⟩
      rw [if_pos hs, hw]
      exact h1
    · obtain ⟨ws, h1, h2⟩ := ih (pre ++ encMsg m) (done ++ [m]) vs hb' (fun x h => hf x (by simp [h]))
        (by
          rw [List.filter_append]
          have hs' : sel q fm (addrOf m) = false := by simpa using hs
          simp only [List.filter_cons, hs', List.filter_nil, List.append_nil, Bool.false_eq_true, if_false]
          exact h)
      rw [hpl] at h1
      refine ⟨ws, ?_, by simpa using h2⟩
      rw [if_neg hs]
      exact h1

theorem lookupAddress_encB (hdr : Bytes) (ms : List Bytes) (q : Bytes) (fm : Bool) (hh : hdr.length = 16)
    (hq : (0 : UInt8) ∉ q) (hf : ∀ m ∈ ms, Fits m ∧ WFMsg m) :
    ∃ vs, lookupAddress (encB hdr ms).length (encB hdr ms) q fm = some vs ∧
      ViewsOf (encB hdr ms) (ms.filter fun m => sel q fm (addrOf m)) vs := by
  obtain ⟨ws, h1, h2⟩ := lookup_foldPos (encB hdr ms) q fm ms hdr [] [] rfl hf ⟨by simp, by simp⟩
  refine ⟨ws, ?_, by simpa using h2⟩
  rw [hh] at h1
  rw [lookupAddress, msgLoop_encB _ (fun pos m (vs : List View) =>
        if sel q fm (addrOf m) then (wrap (encB hdr ms) pos).bind fun v => some (vs ++ [v], false) else some (vs, false))
      hdr ms _ _ hh (fun m h => (hf m h).1) (by simp) ?_, h1]
  intro p m t s hm hb
  obtain ⟨r, hr, ha⟩ := match_sel q hq fm (addrOf m)
  have hc : cstr (encB hdr ms) (p.length + 4) = some (addrOf m) := by
    rw [hb]; exact cstr_at _ _ _ (hf m hm).2.hasAddr
  rw [hc, bnd, hr, bnd, ha, bnd]
  cases sel q fm (addrOf m) <;> rfl

theorem first_foldPos (P : Bytes → Bool) (ms : List Bytes) : ∀ pos,
    (foldPos (fun pos m (_ : Option Nat) => if P m then some (some pos, true) else some (none, false)) pos ms none
        = some none ∧ ∀ m ∈ ms, P m = false) ∨
    (∃ pre m post, ms = pre ++ m :: post ∧ (∀ x ∈ pre, P x = false) ∧ P m = true ∧
      foldPos (fun pos m (_ : Option Nat) => if P m then some (some pos, true) else some (none, false)) pos ms none
        = some (some (pos + (encMsgs pre).length))) := by
  induction ms with
  | nil => intro pos; left; exact ⟨rfl, by simp⟩
  | cons m ms ih =>
    intro pos
    by_cases h : P m = true
    · right
      refine ⟨[], m, ms, rfl, by simp, h, ?_⟩
      simp [foldPos, h]
    · have h' : P m = false := by simpa using h
      rcases ih (pos + m.length + 4) with ⟨h1, h2⟩ | ⟨pre, x, post, h1, h2, h3, h4⟩
      · left
        refine ⟨?_, ?_⟩
        · simpa [foldPos, h'] using h1
        · intro y hy
          rcases List.mem_cons.mp hy with rfl | hy
          · exact h'
          · exact h2 y hy
      · right
        refine ⟨m :: pre, x, post, by rw [h1]; rfl, ?_, h3, ?_⟩
        · intro y hy
          rcases List.mem_cons.mp hy with rfl | hy
          · exact h'
          · exact h2 y hy
        · simp only [foldPos, h', Option.bind_eq_bind, Option.bind_some, Bool.false_eq_true, if_false]
          rw [h4]
          simp only [encMsgs_cons, List.length_append, length_encMsg]
          congr 2
          omega

/-! ## removeMessage -/

theorem slice_mid (a b c : Bytes) (n : Int) (hn : n = b.length) : slice (a ++ b ++ c) a.length n = some b := by
  rw [hn]; exact slice_at a b c

theorem rmFlush_ok (buf : Bytes) (len : Int) (a pend c : Bytes) (s : RmSt) (hb : buf = a ++ pend ++ c)
    (h2 : s.p2 = a.length) (h3 : s.p3 = a.length + pend.length) (hl : (s.out.length + pend.length : Int) ≤ len) :
    rmFlush buf len s = some ⟨s.out ++ pend, s.p2, s.p3⟩ := by
  unfold rmFlush
  by_cases hp : pend = []
  · subst hp
    rw [if_neg (by simp [h2, h3])]
    simp
  · have := List.length_pos_iff.mpr hp
    rw [if_pos (by omega), hb, h2, slice_mid a pend c _ (by omega), bnd, if_neg (by omega)]
    rfl

theorem remove_foldPos (buf hdr pat : Bytes) (len : Int) (ms : List Bytes) :
    ∀ (done a pend : Bytes) (kept : List Bytes) (out : Bytes),
    buf = a ++ pend ++ encMsgs ms → len = buf.length → (∀ x ∈ ms, Fits x ∧ HasAddr x) →
    out ++ pend = hdr ++ encMsgs kept → out.length ≤ a.length →
    ∃ a' pend' out', foldPos (fun pos m (s : RmSt) =>
        if addrOf m = pat then (rmFlush buf len s).bind fun s =>
          some ({ s with p2 := pos + m.length + 4, p3 := pos + m.length + 4 }, false)
        else some ({ s with p3 := pos + m.length + 4 }, false))
        (a.length + pend.length) ms ⟨out, a.length, a.length + pend.length⟩
        = some ⟨out', a'.length, a'.length + pend'.length⟩ ∧ buf = a' ++ pend' ∧
      out' ++ pend' = hdr ++ encMsgs (kept ++ ms.filter fun m => addrOf m ≠ pat) ∧ out'.length ≤ a'.length := by
  induction ms with
  | nil =>
    intro done a pend kept out hb hl hf ho hle
    exact ⟨a, pend, out, rfl, by simpa using hb, by simpa using ho, hle⟩
  | cons m ms ih =>
    intro done a pend kept out hb hl hf ho hle
    have hm := hf m (by simp)
    rw [foldPos]
    by_cases hp : addrOf m = pat
    · have hfl := rmFlush_ok buf len a pend (encMsgs (m :: ms)) ⟨out, a.length, a.length + pend.length⟩ hb rfl rfl
        (by rw [hl, hb]; simp; omega)
      have hb' : buf = (a ++ pend ++ encMsg m) ++ [] ++ encMsgs ms := by rw [hb]; simp
      obtain ⟨a', pend', out', h1, h2, h3, h4⟩ := ih [] (a ++ pend ++ encMsg m) [] kept (out ++ pend) hb' hl
        (fun x h => hf x (by simp [h])) (by simpa using ho) (by simp; omega)
      refine ⟨a', pend', out', ?_, h2, ?_, h4⟩
      · rw [if_pos hp, hfl]
        simp only [Option.bind_some, Option.bind_eq_bind, Bool.false_eq_true, if_false]
        simp only [List.length_append, length_encMsg, List.length_nil, Nat.add_zero] at h1
        simp only [show a.length + pend.length + m.length + 4 = a.length + pend.length + (m.length + 4) by omega]
        exact h1
      · rw [h3]; simp [hp]
    · have hb' : buf = a ++ (pend ++ encMsg m) ++ encMsgs ms := by rw [hb]; simp
      obtain ⟨a', pend', out', h1, h2, h3, h4⟩ := ih [] a (pend ++ encMsg m) (kept ++ [m]) out hb' hl
        (fun x h => hf x (by simp [h])) (by rw [← List.append_assoc, ho]; simp) hle
      refine ⟨a', pend', out', ?_, h2, ?_, h4⟩
      · rw [if_neg hp]
        simp only [Option.bind_some, Option.bind_eq_bind, Bool.false_eq_true, if_false]
        simp only [List.length_append, length_encMsg] at h1
        simp only [show a.length + (pend.length + (m.length + 4)) = a.length + pend.length + m.length + 4 by omega] at h1
        exact h1
      · rw [h3]; simp [hp]

theorem removeMessage_encB (hdr : Bytes) (ms : List Bytes) (pat : Bytes) (hh : hdr.length = 16)
    (hf : ∀ m ∈ ms, Fits m ∧ HasAddr m) :
    ∃ tail, removeMessage pat (encB hdr ms).length (encB hdr ms) =
      some ((encB hdr (ms.filter fun m => addrOf m ≠ pat)).length,
        encB hdr (ms.filter fun m => addrOf m ≠ pat) ++ tail) := by
  obtain ⟨a', pend', out', h1, h2, h3, h4⟩ := remove_foldPos (encB hdr ms) hdr pat (encB hdr ms).length ms [] hdr [] []
    hdr (by simp [encB]) rfl hf (by simp) (by omega)
  simp only [List.nil_append, List.length_nil, Nat.add_zero, hh] at h1 h3
  have hsl : slice (encB hdr ms) 0 16 = some hdr := by
    have := slice_mid [] hdr (encMsgs ms) 16 (by rw [hh]; rfl)
    simpa [encB] using this
  have hfl := rmFlush_ok (encB hdr ms) (encB hdr ms).length a' pend' [] ⟨out', a'.length, a'.length + pend'.length⟩
    (by simpa using h2) rfl rfl (by
      have := congrArg List.length h2
      simp only [List.length_append] at this
      show (out'.length : Int) + pend'.length ≤ _
      omega)
  have hle : (out' ++ pend').length ≤ (encB hdr ms).length := by
    have := congrArg List.length h2
    simp only [List.length_append] at this ⊢
    omega
  have hge : 16 ≤ (encB hdr ms).length := by simp [encB, hh]
  refine ⟨(encB hdr ms).drop (out' ++ pend').length, ?_⟩
  rw [removeMessage, hsl, bnd, if_neg (by omega), msgLoop_encB _ (fun pos m (s : RmSt) =>
        if addrOf m = pat then (rmFlush (encB hdr ms) (encB hdr ms).length s).bind fun s =>
          some ({ s with p2 := pos + m.length + 4, p3 := pos + m.length + 4 }, false)
        else some ({ s with p3 := pos + m.length + 4 }, false))
      hdr ms _ _ hh (fun m h => (hf m h).1) (by simp) ?_, show (HEADER : Nat) = 16 from rfl, h1, bnd, hfl, bnd]
  · unfold blit
    rw [if_neg (by simpa using hle), bnd]
    simp only [List.take_zero, List.nil_append, Nat.zero_add]
    rw [h3]
    rfl
  · intro p m t s hm hb
    have hc : cstr (encB hdr ms) (p.length + 4) = some (addrOf m) := by
      rw [hb]; exact cstr_at _ _ _ (hf m hm).2
    rw [hc, bnd, advance_at _ (hf m hm).1, bnd]
    split
    · cases rmFlush (encB hdr ms) (encB hdr ms).length s <;> rfl
    · rfl

/-! ## Set operations -/

/-- Add the messages of a list whose address satisfies `P` and is not there yet. -/
def addNew (P : Bytes → Bool) : List Bytes → List Bytes → List Bytes
  | acc, [] => acc
  | acc, m :: ms =>
    if P (addrOf m) && !acc.any (fun x => addrOf x == addrOf m) then addNew P (acc ++ [m]) ms else addNew P acc ms

theorem addNew_spec (P : Bytes → Bool) (ms : List Bytes) : ∀ acc, ∃ new, addNew P acc ms = acc ++ new ∧
    new.Sublist ms ∧
    (∀ a, a ∈ new.map addrOf ↔ a ∈ ms.map addrOf ∧ P a = true ∧ a ∉ acc.map addrOf) ∧
    (new.map addrOf).Nodup ∧
    (∀ m ∈ new, ms.find? (fun x => addrOf x == addrOf m) = some m) := by
  induction ms with
  | nil => intro acc; exact ⟨[], by simp [addNew], by simp, by simp, by simp, by simp⟩
  | cons m ms ih =>
    intro acc
    by_cases hc : (P (addrOf m) && !acc.any (fun x => addrOf x == addrOf m)) = true
    · obtain ⟨new, h1, h2, h3, h4, h5⟩ := ih (acc ++ [m])
      have hP : P (addrOf m) = true := by
        simp only [Bool.and_eq_true] at hc; exact hc.1
      have hn : addrOf m ∉ acc.map addrOf := by
        simp only [Bool.and_eq_true, Bool.not_eq_true', List.any_eq_false, beq_iff_eq] at hc
        intro h
        obtain ⟨x, hx, hxe⟩ := List.mem_map.mp h
        exact hc.2 x hx hxe
      have hmnew : addrOf m ∉ new.map addrOf := by
        intro h
        have := ((h3 _).mp h).2.2
        simp at this
      refine ⟨m :: new, ?_, h2.cons₂ m, ?_, ?_, ?_⟩
      · rw [addNew, if_pos hc, h1]; simp
      · intro a
        simp only [List.map_cons, List.mem_cons, h3, List.map_append, List.mem_append, List.map_nil, List.not_mem_nil,
          or_false, not_or]
        constructor
        · rintro (rfl | ⟨h6, h7, h8, h9⟩)
          · exact ⟨Or.inl rfl, hP, hn⟩
          · exact ⟨Or.inr h6, h7, h8⟩
        · rintro ⟨h6 | h6, h7, h8⟩
          · exact Or.inl h6
          · by_cases h9 : a = addrOf m
            · exact Or.inl h9
            · exact Or.inr ⟨h6, h7, h8, h9⟩
      · rw [List.map_cons, List.nodup_cons]; exact ⟨hmnew, h4⟩
      · intro x hx
        rcases List.mem_cons.mp hx with rfl | hx
        · simp
        · have hne : addrOf m ≠ addrOf x := by
            intro h; exact hmnew (by rw [h]; exact List.mem_map_of_mem hx)
          rw [List.find?_cons]
          rw [show (addrOf m == addrOf x) = false by simpa using hne]
          exact h5 x hx
    · obtain ⟨new, h1, h2, h3, h4, h5⟩ := ih acc
      have hc' : P (addrOf m) = false ∨ addrOf m ∈ acc.map addrOf := by
        simp only [Bool.and_eq_true, Bool.not_eq_true', not_and, Bool.not_eq_false, List.any_eq_true, beq_iff_eq] at hc
        by_cases hP : P (addrOf m) = true
        · right
          obtain ⟨x, hx, hxe⟩ := hc hP
          rw [← hxe]; exact List.mem_map_of_mem hx
        · left; simpa using hP
      have hnot : addrOf m ∉ new.map addrOf := by
        intro h
        have := (h3 _).mp h
        rcases hc' with h' | h'
        · rw [h'] at this; simp at this
        · exact this.2.2 h'
      refine ⟨new, ?_, h2.cons m, ?_, h4, ?_⟩
      · rw [addNew, if_neg hc, h1]
      · intro a
        rw [h3, List.map_cons, List.mem_cons]
        constructor
        · rintro ⟨h6, h7⟩; exact ⟨Or.inr h6, h7⟩
        · rintro ⟨h6 | h6, h7, h8⟩
          · rcases hc' with h' | h'
            · rw [h6, h'] at h7; simp at h7
            · rw [h6] at h8; exact absurd h' h8
          · exact ⟨h6, h7, h8⟩
      · intro x hx
        have hne : addrOf m ≠ addrOf x := by
          intro h; exact hnot (by rw [h]; exact List.mem_map_of_mem hx)
        rw [List.find?_cons]
        rw [show (addrOf m == addrOf x) = false by simpa using hne]
        exact h5 x hx

/-- Messages with plain addresses. -/
def PlainMsg (m : Bytes) : Prop := Fits m ∧ WFMsg m ∧ Props.Plain (addrOf m) ∧ (addrOf m).head? = some 47

theorem sel_plain (a c : Bytes) (ha : Props.Plain a) (h1 : a.head? = some 47) (hc : Props.Plain c)
    (h2 : c.head? = some 47) : sel a true c = (c == a) := by
  rw [sel_full]
  have h := Props.C12_plain_equality a c ha h1 (fun h => (hc 0 h).1 rfl) h2 (fun h => (hc 42 h).2.2.1 rfl)
  unfold full
  by_cases he : a = c
  · obtain ⟨r, hr, h3⟩ := h.mpr he
    rw [hr]; simp [h3, he]
  · have : ¬ ∃ r, oscMatch a c = some r ∧ r.code = 3 := fun h' => he (h.mp h')
    have hne : (c == a) = false := by simpa using fun h => he h.symm
    rw [hne]
    cases hm : oscMatch a c with
    | none => rfl
    | some r =>
      have : r.code ≠ 3 := fun h3 => this ⟨r, hm, h3⟩
      simpa using this

theorem exists_plain (hdr : Bytes) (ms : List Bytes) (m : Bytes) (hh : hdr.length = 16) (hm : PlainMsg m)
    (hf : ∀ m ∈ ms, PlainMsg m) :
    addressExists (encB hdr ms).length (encB hdr ms) (addrOf m) true = some (ms.any fun x => addrOf x == addrOf m) := by
  rw [addressExists_encB hdr ms (addrOf m) true hh (addrOf_noNul m) (fun x h => ⟨(hf x h).1, (hf x h).2.1.hasAddr⟩)]
  congr 1
  induction ms with
  | nil => rfl
  | cons x ms ih =>
    rw [List.any_cons, List.any_cons, ih (fun y h => hf y (by simp [h])),
      sel_plain _ _ hm.2.2.1 hm.2.2.2 (hf x (by simp)).2.2.1 (hf x (by simp)).2.2.2]

theorem encB_snoc (hdr : Bytes) (ms : List Bytes) (m : Bytes) : encB hdr ms ++ encMsg m = encB hdr (ms ++ [m]) := by
  simp [encB]

theorem union_foldPos (hdr : Bytes) (cap : Nat) (ms : List Bytes) : ∀ (pos : Nat) (acc : List Bytes),
    hdr.length = 16 → (∀ m ∈ ms, PlainMsg m) → (∀ m ∈ acc, PlainMsg m) →
    (encB hdr acc).length + (encMsgs ms).length ≤ cap →
    foldPos (fun _ m (out : Bytes) => (addressExists out.length out (addrOf m) true).bind fun res =>
        if res then some (out, false) else (outAppend cap out (encMsg m)).bind fun o => some (o, false)) pos ms (encB hdr acc)
      = some (encB hdr (addNew (fun _ => true) acc ms)) := by
  induction ms with
  | nil => intro pos acc _ _ _ _; rfl
  | cons m ms ih =>
    intro pos acc hh hf ha hcap
    have hm := hf m (by simp)
    simp only [encMsgs_cons, List.length_append, length_encMsg] at hcap
    rw [foldPos, exists_plain hdr acc m hh hm ha]
    cases hex : acc.any fun x => addrOf x == addrOf m with
    | true =>
      have := ih (pos + m.length + 4) acc hh (fun x h => hf x (by simp [h])) ha (by omega)
      simp only [Option.bind_some, if_true, Option.bind_eq_bind, Bool.false_eq_true, if_false]
      rw [this, addNew]
      simp [hex]
    | false =>
      have := ih (pos + m.length + 4) (acc ++ [m]) hh (fun x h => hf x (by simp [h]))
        (by
          intro x hx
          rcases List.mem_append.mp hx with hx | hx
          · exact ha x hx
          · rw [List.mem_singleton.mp hx]; exact hm)
        (by rw [← encB_snoc]; simp; omega)
      have ho : outAppend cap (encB hdr acc) (encMsg m) = some (encB hdr (acc ++ [m])) := by
        unfold outAppend
        rw [if_neg (by simp; omega), encB_snoc]
      simp only [Option.bind_some, ho, Option.bind_eq_bind, Bool.false_eq_true, if_false]
      rw [this, addNew]
      simp [hex]

theorem union_encB (h1 h2 : Bytes) (ms1 ms2 : List Bytes) (junk : Bytes) (hh1 : h1.length = 16) (hh2 : h2.length = 16)
    (hf1 : ∀ m ∈ ms1, PlainMsg m) (hf2 : ∀ m ∈ ms2, PlainMsg m) (hne : ms1 ≠ [] ∨ ms2 ≠ []) :
    union (encB h1 ms1) (encB h2 ms2) junk = some (encB h1 (addNew (fun _ => true) ms1 ms2)) := by
  have e1 : (encB h1 ms1).length = 16 + (encMsgs ms1).length := by simp [encB, hh1]
  have e2 : (encB h2 ms2).length = 16 + (encMsgs ms2).length := by simp [encB, hh2]
  have g1 := length_encMsgs_ge ms1
  have g2 := length_encMsgs_ge ms2
  rw [union, if_neg ?_]
  · rw [msgLoop_encB _ (fun _ m (out : Bytes) => (addressExists out.length out (addrOf m) true).bind fun res =>
        if res then some (out, false)
        else (outAppend ((encB h1 ms1).length + (encB h2 ms2).length) out (encMsg m)).bind fun o => some (o, false))
        h2 ms2 _ _ hh2 (fun m h => (hf2 m h).1) (Nat.le_refl _) ?_]
    · exact union_foldPos h1 _ ms2 16 ms1 hh1 hf2 hf1 (by omega)
    · intro p m t s hm hb
      have hc : cstr (encB h2 ms2) (p.length + 4) = some (addrOf m) := by
        rw [hb]; exact cstr_at _ _ _ (hf2 m hm).2.1.hasAddr
      have hs : slice (encB h2 ms2) p.length ((m.length : Int) + 4) = some (encMsg m) := by
        rw [hb]; exact slice_msg _ _ _
      rw [hc, bnd]
      cases addressExists s.length s (addrOf m) true with
      | none => rfl
      | some x =>
        rw [bnd]
        cases x with
        | true => rfl
        | false =>
          simp only [Bool.false_eq_true, if_false]
          rw [hs, bnd]
          rfl
  · have p1 : ms1 ≠ [] → 0 < ms1.length := List.length_pos_iff.mpr
    have p2 : ms2 ≠ [] → 0 < ms2.length := List.length_pos_iff.mpr
    rcases hne with h | h
    · have := p1 h; omega
    · have := p2 h; omega

/-- Folding over views is folding over messages. -/
theorem views_foldlM {σ : Type} (buf : Bytes) (f : σ → View → Option σ) (F : σ → Bytes → Option σ) (ms : List Bytes) :
    ∀ (pre : Bytes) (vs : List View) (s : σ), buf = pre ++ encMsgs ms → (∀ x ∈ ms, Fits x ∧ WFMsg x) →
    Views buf pre.length ms vs →
    (∀ s v m, m ∈ ms → View.bytes buf v = some (encMsg m) → View.addr buf v = some (addrOf m) → f s v = F s m) →
    vs.foldlM f s = ms.foldlM F s := by
  induction ms with
  | nil =>
    intro pre vs s _ _ h _
    cases vs with
    | nil => rfl
    | cons v vs => exact absurd h id
  | cons m ms ih =>
    intro pre vs s hb hx h hF
    cases vs with
    | nil => exact absurd h id
    | cons v vs =>
      have hm := hx m (by simp)
      have hb' : buf = pre ++ encMsg m ++ encMsgs ms := by rw [hb]; simp
      obtain ⟨h1, h2⟩ := h
      obtain ⟨hs, ha⟩ := wrap_size h1
      have hbytes : View.bytes buf v = some (encMsg m) := by
        rw [View.bytes, hs, hb', rdI32_at _ _ _ hm.1]
        exact slice_msg _ _ _
      have haddr : View.addr buf v = some (addrOf m) := by
        rw [View.addr, ha, hb', cstr_at _ _ _ hm.2.hasAddr]
      rw [List.foldlM_cons, List.foldlM_cons, hF s v m (by simp) hbytes haddr]
      cases F s m with
      | none => rfl
      | some s' =>
        rw [bnd, bnd]
        exact ih (pre ++ encMsg m) vs s' hb' (fun x h => hx x (by simp [h]))
          (by rw [show (pre ++ encMsg m).length = pre.length + m.length + 4 by simp; omega]; exact h2)
          (fun s v x hx' => hF s v x (by simp [hx']))

theorem addNew_foldlM (hdr : Bytes) (cap : Nat) (P : Bytes → Bool) (T : Bytes → Option Bool) (ms : List Bytes) :
    ∀ (acc : List Bytes), hdr.length = 16 → (∀ m ∈ ms, PlainMsg m) → (∀ m ∈ acc, PlainMsg m) →
    (∀ m ∈ ms, T (addrOf m) = some (P (addrOf m))) →
    (encB hdr acc).length + (encMsgs ms).length ≤ cap →
    ms.foldlM (fun (out : Bytes) m => (T (addrOf m)).bind fun res =>
        if res then (addressExists out.length out (addrOf m) true).bind fun res2 =>
          if res2 then some out else outAppend cap out (encMsg m)
        else some out) (encB hdr acc)
      = some (encB hdr (addNew P acc ms)) := by
  induction ms with
  | nil => intro acc _ _ _ _ _; rfl
  | cons m ms ih =>
    intro acc hh hf ha hT hcap
    have hm := hf m (by simp)
    simp only [encMsgs_cons, List.length_append, length_encMsg] at hcap
    rw [List.foldlM_cons, hT m (by simp)]
    simp only [Option.bind_some]
    cases hP : P (addrOf m) with
    | false =>
      simp only [Bool.false_eq_true, if_false]
      rw [bnd, ih acc hh (fun x h => hf x (by simp [h])) ha (fun x h => hT x (by simp [h])) (by omega), addNew]
      simp [hP]
    | true =>
      simp only [if_true]
      rw [exists_plain hdr acc m hh hm ha]
      cases hex : acc.any fun x => addrOf x == addrOf m with
      | true =>
        simp only [Option.bind_some, if_true]
        rw [bnd, ih acc hh (fun x h => hf x (by simp [h])) ha (fun x h => hT x (by simp [h])) (by omega), addNew]
        simp [hP, hex]
      | false =>
        have ho : outAppend cap (encB hdr acc) (encMsg m) = some (encB hdr (acc ++ [m])) := by
          unfold outAppend
          rw [if_neg (by simp; omega), encB_snoc]
        simp only [Option.bind_some, ho, Bool.false_eq_true, if_false]
        rw [bnd, ih (acc ++ [m]) hh (fun x h => hf x (by simp [h]))
          (by
            intro x hx
            rcases List.mem_append.mp hx with hx | hx
            · exact ha x hx
            · rw [List.mem_singleton.mp hx]; exact hm)
          (fun x h => hT x (by simp [h])) (by rw [← encB_snoc]; simp; omega), addNew]
        simp [hP, hex]

theorem slice_hdr (hdr : Bytes) (ms : List Bytes) (hh : hdr.length = 16) : slice (encB hdr ms) 0 16 = some hdr := by
  have := slice_mid [] hdr (encMsgs ms) 16 (by rw [hh]; rfl)
  simpa [encB] using this

theorem any_addr (ms : List Bytes) (a : Bytes) :
    (ms.any fun x => addrOf x == a) = decide (a ∈ ms.map addrOf) := by
  rw [Bool.eq_iff_iff]
  simp only [List.any_eq_true, beq_iff_eq, decide_eq_true_eq, List.mem_map]

theorem intersection_encB (h1 h2 : Bytes) (ms1 ms2 : List Bytes) (junk : Bytes) (hh1 : h1.length = 16)
    (hh2 : h2.length = 16) (hf1 : ∀ m ∈ ms1, PlainMsg m) (hf2 : ∀ m ∈ ms2, PlainMsg m) (hn1 : ms1 ≠ []) (hn2 : ms2 ≠ []) :
    intersection (encB h1 ms1) (encB h2 ms2) junk =
      some (encB h1 (addNew (fun a => decide (a ∈ ms2.map addrOf)) [] ms1)) := by
  have e1 : (encB h1 ms1).length = 16 + (encMsgs ms1).length := by simp [encB, hh1]
  have e2 : (encB h2 ms2).length = 16 + (encMsgs ms2).length := by simp [encB, hh2]
  have g1 := length_encMsgs_ge ms1
  have g2 := length_encMsgs_ge ms2
  have p1 := List.length_pos_iff.mpr hn1
  have p2 := List.length_pos_iff.mpr hn2
  obtain ⟨vs, hvs, hV⟩ := iterate_encB h1 ms1 hh1 (fun x h => ⟨(hf1 x h).1, (hf1 x h).2.1⟩)
  rw [intersection, if_neg (by omega), slice_hdr _ _ hh1, bnd, hvs, bnd]
  rw [views_foldlM (encB h1 ms1) _ (fun (out : Bytes) m =>
      (addressExists (encB h2 ms2).length (encB h2 ms2) (addrOf m) true).bind fun res =>
        if res then (addressExists out.length out (addrOf m) true).bind fun res2 =>
          if res2 then some out else outAppend ((encB h1 ms1).length + (encB h2 ms2).length) out (encMsg m)
        else some out) ms1 h1 vs h1 rfl (fun x h => ⟨(hf1 x h).1, (hf1 x h).2.1⟩) (by rw [hh1]; exact hV) ?_]
  · have := addNew_foldlM h1 ((encB h1 ms1).length + (encB h2 ms2).length) (fun a => decide (a ∈ ms2.map addrOf))
      (fun a => addressExists (encB h2 ms2).length (encB h2 ms2) a true) ms1 [] hh1 hf1 (by simp)
      (fun m hm => by rw [exists_plain h2 ms2 m hh2 (hf1 m hm) hf2, any_addr])
      (by simp [encB, hh1])
    simpa [encB] using this
  · intro out v m _ hb ha
    rw [ha, bnd]
    cases addressExists (encB h2 ms2).length (encB h2 ms2) (addrOf m) true with
    | none => rfl
    | some x =>
      rw [bnd]
      cases x with
      | false => rfl
      | true =>
        simp only [if_true, Option.bind_some]
        cases addressExists out.length out (addrOf m) true with
        | none => rfl
        | some y =>
          rw [bnd]
          cases y with
          | true => rfl
          | false =>
            simp only [Bool.false_eq_true, if_false, Option.bind_some]
            rw [hb, bnd]

theorem diffHalf_encB (cap : Nat) (h0 h1 h2 : Bytes) (ms1 ms2 acc : List Bytes) (hh0 : h0.length = 16)
    (hh1 : h1.length = 16) (hh2 : h2.length = 16) (hf1 : ∀ m ∈ ms1, PlainMsg m) (hf2 : ∀ m ∈ ms2, PlainMsg m)
    (hacc : ∀ m ∈ acc, PlainMsg m) (hcap : (encB h0 acc).length + (encMsgs ms1).length ≤ cap) :
    diffHalf cap (encB h1 ms1) (encB h2 ms2) (encB h0 acc) =
      some (encB h0 (addNew (fun a => decide (a ∉ ms2.map addrOf)) acc ms1)) := by
  obtain ⟨vs, hvs, hV⟩ := iterate_encB h1 ms1 hh1 (fun x h => ⟨(hf1 x h).1, (hf1 x h).2.1⟩)
  rw [diffHalf, hvs, bnd]
  rw [views_foldlM (encB h1 ms1) _ (fun (out : Bytes) m =>
      ((addressExists (encB h2 ms2).length (encB h2 ms2) (addrOf m) true).map (!·)).bind fun res =>
        if res then (addressExists out.length out (addrOf m) true).bind fun res2 =>
          if res2 then some out else outAppend cap out (encMsg m)
        else some out) ms1 h1 vs _ rfl (fun x h => ⟨(hf1 x h).1, (hf1 x h).2.1⟩) (by rw [hh1]; exact hV) ?_]
  · exact addNew_foldlM h0 cap (fun a => decide (a ∉ ms2.map addrOf))
      (fun a => (addressExists (encB h2 ms2).length (encB h2 ms2) a true).map (!·)) ms1 acc hh0 hf1 hacc
      (fun m hm => by
        rw [exists_plain h2 ms2 m hh2 (hf1 m hm) hf2, any_addr, Option.map_some]
        congr 1
        exact (decide_not ..).symm) hcap
  · intro out v m _ hb ha
    rw [ha, bnd]
    cases addressExists (encB h2 ms2).length (encB h2 ms2) (addrOf m) true with
    | none => rfl
    | some x =>
      rw [bnd]
      cases x with
      | true => rfl
      | false =>
        simp only [Bool.false_eq_true, if_false, Option.map_some, Option.bind_some, Bool.not_false, if_true]
        cases addressExists out.length out (addrOf m) true with
        | none => rfl
        | some y =>
          rw [bnd]
          cases y with
          | true => rfl
          | false =>
            simp only [Bool.false_eq_true, if_false, Option.bind_some]
            rw [hb, bnd]

end Libo
