import Verif.Props.ExprAssign
import Verif.Props.ExprQuery
import Verif.Props.ExprList
import Verif.Props.MsgS
/-!
# Lemmas: the first message that matches, its values, and stores to elements

For `value` and for assignment to elements of an address.
-/

namespace Libo.Expr
open Libo Libo.Props Libo.Match

/-! ### The first match -/

/-- The step of `lookupAddress`. -/
def lookStep (buf q : Bytes) (pos : Nat) (m : Bytes) (vs : List View) : Option (List View × Bool) :=
  if sel q true (addrOf m) then (wrap buf pos).bind fun v => some (vs ++ [v], false) else some (vs, false)

theorem lookup_fold (hdr : Bytes) (ms : List Bytes) (q : Bytes) (hh : hdr.length = 16) (hq : (0 : UInt8) ∉ q) (hf : ∀ m ∈ ms, Fits m ∧ HasAddr m) :
    lookupAddress (encB hdr ms).length (encB hdr ms) q true = foldPos (lookStep (encB hdr ms) q) 16 ms [] := by
  rw [lookupAddress, msgLoop_encB _ (lookStep (encB hdr ms) q) hdr ms _ _ hh (fun m h => (hf m h).1) (by simp) ?_]
  intro p m t s hm hb
  obtain ⟨r, hr, ha⟩ := match_sel q hq true (addrOf m)
  have hc : cstr (encB hdr ms) (p.length + 4) = some (addrOf m) := by
    rw [hb]; exact cstr_at _ _ _ (hf m hm).2
  simp only [lookStep, hc, hr, ha, Option.bind_eq_bind, Option.bind_some]
  cases sel q true (addrOf m) <;> rfl

theorem lookStep_skip (buf q : Bytes) (rest : List Bytes) (vs : List View) : ∀ (pre : List Bytes) (pos : Nat), (∀ x ∈ pre, sel q true (addrOf x) = false) →
    foldPos (lookStep buf q) pos (pre ++ rest) vs = foldPos (lookStep buf q) (pos + (encMsgs pre).length) rest vs
  | [], pos, _ => by simp [encMsgs]
  | m :: pre, pos, h => by
    have hm : lookStep buf q pos m vs = some (vs, false) := by simp [lookStep, h m (by simp)]
    simp only [List.cons_append, foldPos, hm, Option.bind_eq_bind, Option.bind_some, Bool.false_eq_true, if_false]
    rw [lookStep_skip buf q rest vs pre _ fun x hx => h x (by simp [hx]), encMsgs_cons, List.length_append, encMsg_length]
    congr 1
    omega

theorem lookStep_keep (buf q : Bytes) : ∀ (ms : List Bytes) (pos : Nat) (v : View) (vs ws : List View),
    foldPos (lookStep buf q) pos ms (v :: vs) = some ws → ∃ ws', ws = v :: ws'
  | [], _, v, vs, ws, h => by
    simp only [foldPos, Option.some.injEq] at h
    exact ⟨vs, h.symm⟩
  | m :: ms, pos, v, vs, ws, h => by
    simp only [foldPos, Option.bind_eq_bind, Option.bind_eq_some_iff, lookStep] at h
    obtain ⟨r, h1, h2⟩ := h
    split at h1
    · simp only [Option.bind_eq_some_iff, Option.some.injEq] at h1
      obtain ⟨v', -, rfl⟩ := h1
      simp only [Bool.false_eq_true, if_false] at h2
      exact lookStep_keep buf q ms _ v _ ws h2
    · simp only [Option.some.injEq] at h1
      subst h1
      simp only [Bool.false_eq_true, if_false] at h2
      exact lookStep_keep buf q ms _ v _ ws h2

theorem sel_iff {q a : Bytes} : sel q true a = true ↔ ∃ r, oscMatch q a = some r ∧ r.code = 3 := by
  simp only [sel]
  split
  · rename_i r hr
    simp [hr, accepts]
  · rename_i hr
    simp [hr]

/-- No message matches. -/
theorem lookup_none (hdr : Bytes) (ms : List Bytes) (q spare : Bytes) (hh : hdr.length = 16) (hq : (0 : UInt8) ∉ q) (hf : ∀ m ∈ ms, Fits m ∧ HasAddr m)
    (hn : ∀ m ∈ ms, ∀ r, oscMatch q (addrOf m) = some r → r.code ≠ 3) :
    lookupAddress (encB hdr ms).length (encB hdr ms ++ spare) q true = some [] := by
  have h1 := lookup_fold hdr ms q hh hq hf
  have h2 := lookStep_skip (encB hdr ms) q [] [] ms 16 fun x hx => by
    rw [← Bool.not_eq_true, sel_iff]
    rintro ⟨r, h3, h4⟩
    exact hn x hx r h3 h4
  rw [List.append_nil] at h2
  rw [h2] at h1
  exact msgLoop_le _ _ _ (fun _ _ _ => .bind (cstr_le _ _ _) fun _ => .bind .rfl fun _ => .bind .rfl fun _ => .ite (.bind (wrap_le _ _ _) fun _ => .rfl) .rfl) _ _ _ _ h1

/-- The first view is that of the first message that matches. -/
theorem lookup_first (hdr : Bytes) (pre : List Bytes) (m : Bytes) (post : List Bytes) (q spare : Bytes) (hh : hdr.length = 16) (hq : (0 : UInt8) ∉ q)
    (hf : ∀ x ∈ pre ++ m :: post, Fits x ∧ WFMsg x) (hp : ∀ x ∈ pre, ∀ r, oscMatch q (addrOf x) = some r → r.code ≠ 3) {r : Match.Res}
    (hr : oscMatch q (addrOf m) = some r) (h3 : r.code = 3) :
    ∃ v vs, lookupAddress (encB hdr (pre ++ m :: post)).length (encB hdr (pre ++ m :: post) ++ spare) q true = some (v :: vs) ∧
      wrap (encB hdr (pre ++ m :: post) ++ spare) (encB hdr pre).length = some v := by
  obtain ⟨ws, h1, -⟩ := lookupAddress_encB hdr (pre ++ m :: post) q true hh hq hf
  have h2 := h1
  rw [lookup_fold hdr _ q hh hq fun x hx => ⟨(hf x hx).1, (hf x hx).2.hasAddr⟩, lookStep_skip _ _ _ _ pre 16 fun x hx => by
    rw [← Bool.not_eq_true, sel_iff]
    rintro ⟨r, h3, h4⟩
    exact hp x hx r h3 h4] at h2
  have e : 16 + (encMsgs pre).length = (encB hdr pre).length := by simp [encB, List.length_append, hh]
  rw [e] at h2
  simp only [foldPos, Option.bind_eq_bind, Option.bind_eq_some_iff, lookStep, sel_iff.mpr ⟨r, hr, h3⟩, if_true] at h2
  obtain ⟨x, h4, h5⟩ := h2
  simp only [Option.some.injEq] at h4
  obtain ⟨v, h6, rfl⟩ := h4
  simp only [Bool.false_eq_true, if_false, List.nil_append] at h5
  obtain ⟨vs, rfl⟩ := lookStep_keep _ _ _ _ _ _ _ h5
  exact ⟨v, vs, msgLoop_le _ _ _ (fun _ _ _ => .bind (cstr_le _ _ _) fun _ => .bind .rfl fun _ => .bind .rfl fun _ => .ite (.bind (wrap_le _ _ _) fun _ => .rfl) .rfl) _ _ _ _ h1,
    wrap_le _ _ _ _ h6⟩

/-! ### Stores -/

theorem storeAt_eq : storeAt = assignAt := rfl

/-- What the stores of an assignment to elements do. -/
theorem storeAll_spec (o i d : List UAtom) (vs : List Val) (ixs : List (ITy × Int)) (ds : List Val) (ho : Holds (some o) vs)
    (hi : Holds (some i) (ixs.map fun x => x.1.val x.2)) (hd : Holds (some d) ds) (ht : ∀ x ∈ ixs, x.1.has x.2)
    (hcd : ∀ v ∈ ds, Copyable v) (is : List Int) (his : is = ixs.map fun x => ITy.i32.conv x.2) :
    ∃ r, storeAll o i d = some r ∧
      ((is ≠ [] ∧ ds ≠ [] ∧ ¬ (is.length = 1 ∧ 1 < ds.length ∧ ∀ n ∈ is, ¬ (0 ≤ n ∧ n < vs.length))) →
        ∃ o', r = some o' ∧ Holds (some o') ((writes is ds).foldl putAt vs)) ∧
      (¬ (is ≠ [] ∧ ds ≠ [] ∧ ¬ (is.length = 1 ∧ 1 < ds.length ∧ ∀ n ∈ is, ¬ (0 ≤ n ∧ n < vs.length))) → r = none) := by
  have hli : i.length = is.length := by
    have := holds_len hi
    simp only [len, Option.getD_some] at this
    rw [this, his, List.length_map, List.length_map]
  have hld : d.length = ds.length := holds_len hd
  have hlo : o.length = vs.length := holds_len ho
  have hidx : ∀ (k : Nat) n, is[k]? = some n → intOf UAtom.getInt i[k]? = some n := by
    intro k n hk
    rw [his, List.getElem?_map, Option.map_eq_some_iff] at hk
    obtain ⟨x, hx, rfl⟩ := hk
    obtain ⟨u, e1, e2⟩ := holds_at hi (i := k) (v := x.1.val x.2) (by rw [List.getElem?_map, hx]; rfl)
    have e1 : i[k]? = some u := e1
    rw [e1]
    exact (getU_val x.1 .i32 u x.2 (ht x (List.mem_of_getElem? hx)) e2).2
  have hdat : ∀ (k : Nat) v, ds[k]? = some v → d[k]?.bind UAtom.val = some v ∧ Copyable v := by
    intro k v hk
    obtain ⟨u, e1, e2⟩ := holds_at hd hk
    have e1 : d[k]? = some u := e1
    exact ⟨by rw [e1]; exact e2, hcd v (List.mem_of_getElem? hk)⟩
  simp only [storeAll, hli, hld, storeAt_eq]
  by_cases h0 : is.length = 0 ∨ ds.length = 0
  · rw [if_pos h0]
    refine ⟨none, rfl, fun h => ?_, fun _ => rfl⟩
    rcases h0 with h0 | h0
    · exact absurd (List.length_eq_zero_iff.mp h0) h.1
    · exact absurd (List.length_eq_zero_iff.mp h0) h.2.1
  · rw [if_neg h0]
    have hne1 : is ≠ [] := by rintro rfl; simp at h0
    have hne2 : ds ≠ [] := by rintro rfl; simp at h0
    by_cases hA : is.length = 1 ∧ ds.length > 1
    · rw [if_pos hA]
      obtain ⟨n, rfl⟩ := List.length_eq_one_iff.mp hA.1
      cases ds with
      | nil => exact absurd rfl hne2
      | cons v ds =>
        rw [hidx 0 n rfl, Option.bind_some]
        by_cases hin : n ≥ o.length ∨ n < 0
        · rw [if_pos hin]
          refine ⟨none, rfl, fun h => absurd ⟨rfl, hA.2, ?_⟩ h.2.2, fun _ => rfl⟩
          intro k hk
          simp only [List.mem_singleton] at hk
          subst hk
          omega
        · rw [if_neg hin]
          obtain ⟨o', e1, e2⟩ := assignAt_spec o vs i[0]? d[0]? n v ho (hidx 0 n rfl) (hdat 0 v rfl).1 (hdat 0 v rfl).2
          simp only [assignAt, hidx 0 n rfl, Option.bind_some] at e1
          rw [if_neg hin] at e1
          refine ⟨some o', by rw [e1]; rfl, fun _ => ⟨o', rfl, e2⟩, fun h => absurd ⟨hne1, hne2, fun h => ?_⟩ h⟩
          have := h.2.2 n (by simp)
          omega
    · rw [if_neg hA]
      have hok : is ≠ [] ∧ ds ≠ [] ∧ ¬ (is.length = 1 ∧ 1 < ds.length ∧ ∀ n ∈ is, ¬ (0 ≤ n ∧ n < vs.length)) :=
        ⟨hne1, hne2, fun h => hA ⟨h.1, h.2.1⟩⟩
      by_cases hB : is.length > 1 ∧ ds.length = 1
      · rw [if_pos hB]
        obtain ⟨v, rfl⟩ := List.length_eq_one_iff.mp hB.2
        have hw : writes is [v] = is.map fun n => (n, v) := by
          match is, hB.1 with
          | _ :: _ :: _, _ => rfl
        obtain ⟨o', e1, e2⟩ := assign_loop (fun k => i[k]?) (fun _ => d[0]?) (is.map fun n => (n, v)) o vs ho (by
          intro k n x hk
          rw [List.getElem?_map, Option.map_eq_some_iff] at hk
          obtain ⟨n', hk, e⟩ := hk
          simp only [Prod.mk.injEq] at e
          obtain ⟨rfl, rfl⟩ := e
          exact ⟨hidx k _ hk, (hdat 0 _ rfl).1, (hdat 0 _ rfl).2⟩)
        rw [List.length_map] at e1
        exact ⟨some o', by rw [e1]; rfl, fun _ => ⟨o', rfl, by rw [hw]; exact e2⟩, fun h => absurd hok h⟩
      · rw [if_neg hB]
        have hw : writes is ds = is.zip ds := by
          match is, ds, hA, hB, hne1, hne2 with
          | [a], [b], _, _, _, _ => rfl
          | [a], b :: c :: ds, hA, _, _, _ => exact absurd ⟨rfl, by simp⟩ hA
          | a :: b :: is, [c], _, hB, _, _ => exact absurd ⟨by simp, rfl⟩ hB
          | a :: b :: is, c :: d :: ds, _, _, _, _ => rfl
        obtain ⟨o', e1, e2⟩ := assign_loop (fun k => i[k]?) (fun k => d[k]?) (is.zip ds) o vs ho (by
          intro k n x hk
          rw [List.getElem?_zip_eq_some] at hk
          exact ⟨hidx k _ hk.1, (hdat k _ hk.2).1, (hdat k _ hk.2).2⟩)
        rw [List.length_zip] at e1
        exact ⟨some o', by rw [e1]; rfl, fun _ => ⟨o', rfl, by rw [hw]; exact e2⟩, fun h => absurd hok h⟩

end Libo.Expr
