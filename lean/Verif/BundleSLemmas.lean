import Verif.BundleS
import Verif.BasicLemmas
/-! # Helper lemmas about the serialised bundle model -/

namespace Libo
open Libo.Match

/-- `bind` on `some`, as a propositional (not definitional) rewrite: keeps the kernel from evaluating range checks. -/
theorem bnd {α β : Type} (a : α) (f : α → Option β) : (some a >>= f) = f a := by
  cases h : f a <;> simp [h]

theorem toI32_small {n : Nat} (h : n < 2147483648) : toI32 n = n := by simp [toI32, h]

@[simp] theorem length_encMsg (m : Bytes) : (encMsg m).length = m.length + 4 := by simp [encMsg]; omega

@[simp] theorem encMsgs_nil : encMsgs [] = [] := rfl
@[simp] theorem encMsgs_cons (m : Bytes) (ms : List Bytes) : encMsgs (m :: ms) = encMsg m ++ encMsgs ms := rfl
@[simp] theorem encMsgs_append (a b : List Bytes) : encMsgs (a ++ b) = encMsgs a ++ encMsgs b := by
  simp [encMsgs]

theorem length_encMsgs_ge (ms : List Bytes) : 4 * ms.length ≤ (encMsgs ms).length := by
  induction ms with
  | nil => simp
  | cons m ms ih => simp; omega

theorem rdI32_at (p m q : Bytes) (h : Fits m) : rdI32 (p ++ encMsg m ++ q) p.length = some (m.length : Int) := by
  unfold Fits at h
  have : rd32 (p ++ encMsg m ++ q) (p.length + 0) = some (m.length % 4294967296) := by
    rw [List.append_assoc, rd32_append_right, encMsg, List.append_assoc, rd32_be32]
  rw [Nat.add_zero] at this
  rw [rdI32, this, Nat.mod_eq_of_lt (by omega)]
  simp [toI32_small (show m.length < 2147483648 by omega)]

theorem advance_at (pos : Nat) {m : Bytes} (h : Fits m) : advance pos m.length = some (pos + m.length + 4) := by
  unfold Fits at h
  have : i32 ((m.length : Int) + 4) = some ((m.length : Int) + 4) := by
    unfold i32; rw [if_pos (by omega)]
  simp only [advance, this, Option.bind_eq_bind, Option.bind_some]
  rw [if_neg (by omega)]
  congr 1

theorem addrOf_split {m : Bytes} (h : HasAddr m) : ∃ rest, m = addrOf m ++ 0 :: rest ∧ (0 : UInt8) ∉ addrOf m := by
  unfold HasAddr at h
  induction m with
  | nil => simp at h
  | cons c m ih =>
    by_cases hc : c = 0
    · subst hc; exact ⟨m, by simp [addrOf]⟩
    · have hm : (0 : UInt8) ∈ m := by
        rcases List.mem_cons.mp h with h | h
        · exact absurd h.symm hc
        · exact h
      obtain ⟨rest, h1, h2⟩ := ih hm
      refine ⟨rest, ?_, ?_⟩
      · have : addrOf (c :: m) = c :: addrOf m := by simp [addrOf, hc]
        rw [this, List.cons_append, ← h1]
      · have : addrOf (c :: m) = c :: addrOf m := by simp [addrOf, hc]
        rw [this]
        intro h3
        rcases List.mem_cons.mp h3 with h3 | h3
        · exact hc h3.symm
        · exact h2 h3

theorem addrOf_noNul (m : Bytes) : (0 : UInt8) ∉ addrOf m := by
  induction m with
  | nil => simp [addrOf]
  | cons c m ih =>
    by_cases hc : c = 0
    · subst hc; simp [addrOf]
    · have : addrOf (c :: m) = c :: addrOf m := by simp [addrOf, hc]
      rw [this]
      intro h3
      rcases List.mem_cons.mp h3 with h3 | h3
      · exact hc h3.symm
      · exact ih h3

theorem cstr_at (p m q : Bytes) (h : HasAddr m) : cstr (p ++ encMsg m ++ q) (p.length + 4) = some (addrOf m) := by
  obtain ⟨rest, h1, h2⟩ := addrOf_split h
  have e : p ++ encMsg m ++ q = (p ++ be32 m.length) ++ (addrOf m ++ 0 :: (rest ++ q)) := by
    conv => lhs; rw [encMsg]
    conv => lhs; arg 1; arg 2; arg 2; rw [h1]
    simp
  rw [e]
  have := cstr_append_right (p ++ be32 m.length) (addrOf m ++ 0 :: (rest ++ q)) 0
  simp only [List.length_append, length_be32, Nat.add_zero] at this
  rw [this, cstr_eq _ _ h2]

theorem cstrlen_at (p m q : Bytes) (h : HasAddr m) :
    cstrlen (p ++ encMsg m ++ q) (p.length + 4) = some (addrOf m).length := by
  obtain ⟨rest, h1, h2⟩ := addrOf_split h
  have e : p ++ encMsg m ++ q = (p ++ be32 m.length) ++ (addrOf m ++ 0 :: (rest ++ q)) := by
    conv => lhs; rw [encMsg]
    conv => lhs; arg 1; arg 2; arg 2; rw [h1]
    simp
  rw [e]
  have := cstrlen_append_right (p ++ be32 m.length) (addrOf m ++ 0 :: (rest ++ q)) 0
  simp only [List.length_append, length_be32, Nat.add_zero] at this
  rw [this, cstrlen_eq _ _ h2]

theorem slice_at (p m q : Bytes) : slice (p ++ m ++ q) p.length (m.length : Int) = some m := by
  unfold slice
  rw [if_neg (by simp; omega)]
  simp

theorem slice_msg (p m q : Bytes) : slice (p ++ encMsg m ++ q) p.length ((m.length : Int) + 4) = some (encMsg m) := by
  have := slice_at p (encMsg m) q
  simpa using this

theorem WFMsg.hasAddr {m : Bytes} (h : WFMsg m) : HasAddr m := by
  obtain ⟨a, t, h0, hl, rfl, _⟩ := h
  obtain ⟨z, hz⟩ := padStr_eq_cons a hl
  rw [HasAddr, hz]
  simp

theorem addrOf_padStr (a t : Bytes) (h0 : (0 : UInt8) ∉ a) (hl : a.length + 4 < 4294967296) :
    addrOf (padStr a ++ t) = a := by
  obtain ⟨z, hz⟩ := padStr_eq_cons a hl
  rw [hz, addrOf, List.append_assoc, List.cons_append]
  exact takeWhile_ne_zero a _ h0

/-- Spec side of the bundle walkers: fold over the messages with their positions, stopping on demand. -/
def foldPos {σ : Type} (g : Nat → Bytes → σ → Option (σ × Bool)) : Nat → List Bytes → σ → Option σ
  | _, [], s => some s
  | pos, m :: ms, s => do
    let r ← g pos m s
    if r.2 then return r.1
    foldPos g (pos + m.length + 4) ms r.1

theorem msgLoop_enc {σ : Type} (body : Nat → Int → σ → Option (σ × Bool)) (g : Nat → Bytes → σ → Option (σ × Bool))
    (ms : List Bytes) : ∀ (pre : Bytes) (buf : Bytes) (len : Int) (n : Nat) (s : σ), buf = pre ++ encMsgs ms →
    len = buf.length → (∀ m ∈ ms, Fits m) → ms.length < n →
    (∀ p m q s, m ∈ ms → buf = p ++ encMsg m ++ q → body p.length m.length s = g p.length m s) →
    msgLoop buf len body n pre.length s = foldPos g pre.length ms s := by
  induction ms with
  | nil =>
    intro pre buf len n s hb hl _ hn _
    cases n with
    | zero => omega
    | succ n =>
      have : ¬ ((pre.length : Int) < len) := by rw [hl, hb]; simp
      simp [msgLoop, foldPos, this]
  | cons m ms ih =>
    intro pre buf len n s hb hl hf hn hg
    cases n with
    | zero => omega
    | succ n =>
      have hm := hf m (by simp)
      have hlt : (pre.length : Int) < len := by rw [hl, hb]; simp; omega
      have hb' : buf = pre ++ encMsg m ++ encMsgs ms := by rw [hb]; simp
      have hr : rdI32 buf pre.length = some (m.length : Int) := by rw [hb']; exact rdI32_at _ _ _ hm
      have hbody := hg pre m (encMsgs ms) s (by simp) hb'
      rw [msgLoop, if_pos hlt, hr]
      simp only [Option.bind_eq_bind, Option.bind_some, hbody, advance_at _ hm, foldPos]
      cases hgm : g pre.length m s with
      | none => rfl
      | some r =>
        simp only [Option.bind_some]
        split
        · rfl
        · have := ih (pre ++ encMsg m) buf len n r.1 hb' hl (fun x hx => hf x (by simp [hx])) (by simp at hn; omega)
            (fun p x q s hx he => hg p x q s (by simp [hx]) he)
          rw [show (pre ++ encMsg m).length = pre.length + m.length + 4 by simp; omega] at this
          exact this

/-- The form used for whole bundles. -/
theorem msgLoop_encB {σ : Type} (body : Nat → Int → σ → Option (σ × Bool)) (g : Nat → Bytes → σ → Option (σ × Bool))
    (hdr : Bytes) (ms : List Bytes) (n : Nat) (s : σ) (hh : hdr.length = 16) (hf : ∀ m ∈ ms, Fits m)
    (hn : (encB hdr ms).length + 2 ≤ n)
    (hg : ∀ p m q s, m ∈ ms → encB hdr ms = p ++ encMsg m ++ q → body p.length m.length s = g p.length m s) :
    msgLoop (encB hdr ms) (encB hdr ms).length body n HEADER s = foldPos g 16 ms s := by
  have := msgLoop_enc body g ms hdr (encB hdr ms) (encB hdr ms).length n s rfl rfl hf ?_ hg
  · rw [hh] at this; exact this
  · have := length_encMsgs_ge ms
    simp [encB] at hn; omega

/-- Wrapping a well-formed message in place succeeds. -/
theorem wrap_at (p m q : Bytes) (hf : Fits m) (hw : WFMsg m) :
    ∃ v, wrap (p ++ encMsg m ++ q) p.length = some v ∧ v.size = p.length ∧ v.address = p.length + 4 := by
  have ha := hw.hasAddr
  obtain ⟨a, t, h0, hl, he, ht⟩ := hw
  have hao : addrOf m = a := by rw [he]; exact addrOf_padStr a t h0 hl
  have hpl : (padStr a).length = padN a.length := length_padStr a hl
  simp only [wrap, rdI32_at p m q hf, cstrlen_at p m q ha, Option.bind_eq_bind, Option.bind_some, hao]
  split
  · exact ⟨_, rfl, rfl, rfl⟩
  · rename_i hle
    have hml : m.length = padN a.length + t.length := by rw [he]; simp [hpl]
    have hpp : padStrLen a.length = padN a.length := rfl
    rw [hpp] at hle ⊢
    have ht4 : ¬ t.length < 4 := by omega
    have ht0 : (0 : UInt8) ∈ t := by
      rcases ht with h | h
      · exact absurd h ht4
      · exact h
    obtain ⟨rest, hr1, hr2⟩ := addrOf_split (m := t) ht0
    have e : p ++ encMsg m ++ q = (p ++ be32 m.length ++ padStr a) ++ (addrOf t ++ 0 :: (rest ++ q)) := by
      rw [encMsg]
      conv => lhs; arg 1; arg 2; arg 2; rw [he, hr1]
      simp
    have := cstrlen_append_right (p ++ be32 m.length ++ padStr a) (addrOf t ++ 0 :: (rest ++ q)) 0
    rw [cstrlen_eq _ _ hr2, ← e] at this
    simp only [List.length_append, length_be32, hpl, Nat.add_zero] at this
    rw [this]
    exact ⟨_, rfl, rfl, rfl⟩

/-- `vs` are the views of the messages `ms` laid out from position `pos` on. -/
def Views (buf : Bytes) : Nat → List Bytes → List View → Prop
  | _, [], [] => True
  | pos, m :: ms, v :: vs => wrap buf pos = some v ∧ Views buf (pos + m.length + 4) ms vs
  | _, _, _ => False

theorem wrap_size {buf : Bytes} {pos : Nat} {v : View} (h : wrap buf pos = some v) :
    v.size = pos ∧ v.address = pos + 4 := by
  simp only [wrap, Option.bind_eq_bind, Option.bind_eq_some_iff] at h
  obtain ⟨_, _, _, _, h⟩ := h
  split at h
  · simp at h; subst h; exact ⟨rfl, rfl⟩
  · simp only [Option.bind_eq_some_iff] at h
    obtain ⟨_, _, h⟩ := h
    simp at h; subst h; exact ⟨rfl, rfl⟩

theorem hasNext_at (pre m q : Bytes) (v : View) (hm : Fits m) (hp : 16 ≤ pre.length) (hv : v.size = pre.length) :
    BIt.hasNext (pre ++ encMsg m ++ q) ((pre ++ encMsg m ++ q).length : Int) ⟨pre.length, some v⟩ = some (!q.isEmpty) := by
  have hsz : getSize (pre ++ encMsg m ++ q) (some v) = some (m.length : Int) := by
    rw [getSize, hv]; exact rdI32_at _ _ _ hm
  have hl : ((pre ++ encMsg m ++ q).length : Int) = pre.length + m.length + 4 + q.length := by simp; omega
  unfold BIt.hasNext
  dsimp only
  rw [hl, if_neg (by omega), if_neg (by omega)]
  rw [hsz, bnd, advance_at _ hm, bnd]
  cases q with
  | nil => rw [if_pos (by simp)]; rfl
  | cons c q => rw [if_neg (by simp; omega)]; rfl

theorem next_at (pre m q : Bytes) (v v2 : View) (hm : Fits m) (hp : 16 ≤ pre.length) (hv : v.size = pre.length)
    (hq : q ≠ []) (hw : wrap (pre ++ encMsg m ++ q) (pre.length + m.length + 4) = some v2) :
    BIt.next (pre ++ encMsg m ++ q) ((pre ++ encMsg m ++ q).length : Int) ⟨pre.length, some v⟩ =
      some (⟨pre.length + m.length + 4, some v2⟩, some v2) := by
  have hsz : getSize (pre ++ encMsg m ++ q) (some v) = some (m.length : Int) := by
    rw [getSize, hv]; exact rdI32_at _ _ _ hm
  have hl : ((pre ++ encMsg m ++ q).length : Int) = pre.length + m.length + 4 + q.length := by simp; omega
  have hqp := List.length_pos_iff.mpr hq
  unfold BIt.next
  dsimp only
  rw [hl, if_neg (by omega), if_pos (by omega)]
  rw [hsz, bnd, advance_at _ hm, bnd]
  rw [if_pos (by omega), hw]
  rfl

theorem iterLoop_enc (ms : List Bytes) : ∀ (pre m : Bytes) (buf : Bytes) (len : Int) (n : Nat) (v : View),
    buf = pre ++ encMsg m ++ encMsgs ms → len = buf.length → Fits m → (∀ x ∈ ms, Fits x ∧ WFMsg x) →
    16 ≤ pre.length → v.size = pre.length → ms.length < n →
    ∃ vs, iterLoop buf len n ⟨pre.length, some v⟩ = some vs ∧ Views buf (pre.length + m.length + 4) ms vs := by
  induction ms with
  | nil =>
    intro pre m buf len n v hb hl hm _ hp hv hn
    cases n with
    | zero => omega
    | succ n =>
      refine ⟨[], ?_, trivial⟩
      have hn := hasNext_at pre m [] v hm hp hv
      rw [show pre ++ encMsg m ++ [] = buf by rw [hb]; rfl, ← hl] at hn
      simp [iterLoop, hn]
  | cons m2 ms ih =>
    intro pre m buf len n v hb hl hm hx hp hv hn
    cases n with
    | zero => omega
    | succ n =>
      have hm2 := hx m2 (by simp)
      have hb' : buf = (pre ++ encMsg m) ++ encMsg m2 ++ encMsgs ms := by rw [hb]; simp
      have hpl : (pre ++ encMsg m).length = pre.length + m.length + 4 := by simp; omega
      obtain ⟨v2, hw2, hs2, ha2⟩ := wrap_at (pre ++ encMsg m) m2 (encMsgs ms) hm2.1 hm2.2
      rw [← hb', hpl] at hw2
      obtain ⟨vs, hvs, hV⟩ := ih (pre ++ encMsg m) m2 buf len n v2 hb' hl hm2.1
        (fun x h => hx x (by simp [h])) (by omega) hs2 (by simp at hn; omega)
      rw [hpl] at hvs hV
      refine ⟨v2 :: vs, ?_, hw2, hV⟩
      have hne : encMsgs (m2 :: ms) ≠ [] := by
        intro h; have := congrArg List.length h; simp at this
      have hnx := hasNext_at pre m (encMsgs (m2 :: ms)) v hm hp hv
      have hnn := next_at pre m (encMsgs (m2 :: ms)) v v2 hm hp hv hne (by rw [← hb]; exact hw2)
      rw [← hb, ← hl] at hnx hnn
      have he : (encMsgs (m2 :: ms)).isEmpty = false := by
        cases h : encMsgs (m2 :: ms) with
        | nil => exact absurd h hne
        | cons => rfl
      rw [he] at hnx
      rw [iterLoop, hnx, hnn]
      simp [hvs]

theorem iterate_encB (hdr : Bytes) (ms : List Bytes) (hh : hdr.length = 16) (hf : ∀ x ∈ ms, Fits x ∧ WFMsg x) :
    ∃ vs, iterate (encB hdr ms).length (encB hdr ms) = some vs ∧ Views (encB hdr ms) 16 ms vs := by
  cases ms with
  | nil =>
    refine ⟨[], ?_, trivial⟩
    have hl : (encB hdr []).length = 16 := by simp [encB, hh]
    simp only [iterate, hl]
    simp [iterLoop, BIt.hasNext, BIt.init]
  | cons m ms =>
    have hm := hf m (by simp)
    have hb : encB hdr (m :: ms) = hdr ++ encMsg m ++ encMsgs ms := by simp [encB]
    obtain ⟨v, hw, hs, ha⟩ := wrap_at hdr m (encMsgs ms) hm.1 hm.2
    rw [← hb, hh] at hw
    have hlen : ((encB hdr (m :: ms)).length : Int) = 16 + m.length + 4 + (encMsgs ms).length := by
      rw [hb]; simp [hh]; omega
    have hge := length_encMsgs_ge ms
    obtain ⟨vs, hvs, hV⟩ := iterLoop_enc ms hdr m (encB hdr (m :: ms)) (encB hdr (m :: ms)).length
      (((encB hdr (m :: ms)).length : Int).toNat + 1) v hb rfl hm.1 (fun x h => hf x (by simp [h])) (by omega) hs
      (by omega)
    rw [hh] at hvs hV
    refine ⟨v :: vs, ?_, hw, hV⟩
    have hn : BIt.hasNext (encB hdr (m :: ms)) (encB hdr (m :: ms)).length BIt.init = some true := by
      simp only [BIt.hasNext, BIt.init]
      rw [if_neg (by rw [hlen]; omega), if_pos ⟨trivial, by rw [hlen]; omega⟩]
      rfl
    have hx : BIt.next (encB hdr (m :: ms)) (encB hdr (m :: ms)).length BIt.init = some (⟨16, some v⟩, some v) := by
      simp [BIt.next, BIt.init, HEADER, hw]
    rw [iterate, iterLoop]
    simp only [hn, hx, hvs, Option.bind_eq_bind, Option.bind_some, if_true]
    rfl

/-- Reading back what the views denote. -/
theorem views_bytes (buf : Bytes) (ms : List Bytes) : ∀ (pre : Bytes) (vs : List View), buf = pre ++ encMsgs ms →
    (∀ x ∈ ms, Fits x ∧ WFMsg x) → Views buf pre.length ms vs →
    vs.mapM (View.bytes buf) = some (ms.map encMsg) ∧ vs.mapM (View.addr buf) = some (ms.map addrOf) := by
  induction ms with
  | nil =>
    intro pre vs _ _ h
    cases vs with
    | nil => simp
    | cons v vs => exact absurd h id
  | cons m ms ih =>
    intro pre vs hb hx h
    cases vs with
    | nil => exact absurd h id
    | cons v vs =>
      have hm := hx m (by simp)
      have hb' : buf = pre ++ encMsg m ++ encMsgs ms := by rw [hb]; simp
      obtain ⟨h1, h2⟩ := h
      obtain ⟨hs, ha⟩ := wrap_size h1
      have hbytes : View.bytes buf v = some (encMsg m) := by
        rw [View.bytes, hs, hb', rdI32_at _ _ _ hm.1]
        exact slice_msg _ _ _
      have haddr : View.addr buf v = some (addrOf m) := by
        rw [View.addr, ha, hb', cstr_at _ _ _ hm.2.hasAddr]
      have := ih (pre ++ encMsg m) vs hb' (fun x h => hx x (by simp [h]))
        (by rw [show (pre ++ encMsg m).length = pre.length + m.length + 4 by simp; omega]; exact h2)
      simp [List.mapM_cons, hbytes, haddr, this.1, this.2]

end Libo
