import Verif.MsgSLemmas
/-!
# Properties C06 (arguments by index and by iteration) and C41 (renaming)
-/

namespace Libo.Props
open Libo Libo.MsgS

/-! ## C06 -/

/-- **C06 (agreement).**  Whatever the bytes and the type tags of a message are: if walking over it does not leave the buffer,
then for every non-negative index the argument fetched by index is the one the walk produced there (same type tag, same
place) and indices from the count on are refused; and all of that is still so after building the cache. -/
theorem C06_agree_partial (buf : Bytes) (hlen : buf.length < 2147483648) (v : View) (as : List AtomS)
    (hd : ∀ d, v.data = some d → d ≤ buf.length) (h : MsgS.iterate buf ⟨v, none⟩ = some as) :
    (∀ n : Nat, getArg buf ⟨v, none⟩ n = some as[n]?) ∧
    ∃ m, cacheDataOffsets buf ⟨v, none⟩ = some m ∧ (∀ n : Nat, getArg buf m n = some as[n]?) ∧ MsgS.iterate buf m = some as := by
  obtain ⟨nn, hc⟩ : ∃ nn, argCount buf v = some nn := by
    cases hn : argCount buf v with
    | some nn => exact ⟨nn, rfl⟩
    | none =>
      unfold MsgS.iterate at h
      rw [MsgS.iterLoop] at h
      simp [hasNext, typetag, hn] at h
  by_cases hnn : nn ≤ 0
  · have has : as = [] := by
      unfold MsgS.iterate at h
      rw [MsgS.iterLoop] at h
      obtain ⟨t, ht, hz⟩ := typetag_zero_iff hc 0
      have : t = 0 := hz.mpr (by simpa using hnn)
      subst this
      simp only [hasNext, it, ht, Option.map_some, bnd] at h
      simpa using h.symm
    subst has
    have href : ∀ c (n : Nat), getArg buf ⟨v, c⟩ n = some ([] : List AtomS)[n]? := by
      intro c n
      simp only [getArg, hc, bnd]
      rw [if_pos (by omega)]; simp
    refine ⟨href none, ?_⟩
    have hit : ∀ c, MsgS.iterate buf ⟨v, c⟩ = some [] := by
      intro c
      unfold MsgS.iterate
      rw [MsgS.iterLoop]
      obtain ⟨t, ht, hz⟩ := typetag_zero_iff hc 0
      have : t = 0 := hz.mpr (by simpa using hnn)
      subst this
      simp only [hasNext, it, ht, Option.map_some, bnd]
      simp
    by_cases h0 : nn = 0
    · exact ⟨_, by simp only [cacheDataOffsets, hc, bnd]; rw [if_pos h0], href _, hit _⟩
    · exact ⟨_, by simp only [cacheDataOffsets, hc, bnd]; rw [if_neg h0, if_pos (by omega)], href _, hit _⟩
  · -- there are arguments, so there is data
    obtain ⟨d, hdata⟩ : ∃ d, v.data = some d := by
      cases hv : v.data with
      | some d => exact ⟨d, rfl⟩
      | none =>
        unfold MsgS.iterate at h
        rw [MsgS.iterLoop] at h
        obtain ⟨t, ht, hz⟩ := typetag_zero_iff hc 0
        have h0 : t ≠ 0 := fun h => hnn (by simpa using hz.mp h)
        simp only [hasNext, it, ht, Option.map_some, bnd] at h
        rw [if_pos (by simp [h0])] at h
        simp only [next, ht, bnd, h0, if_false, hv] at h
        simp at h
    have hdl := hd d hdata
    unfold MsgS.iterate it at h
    simp only [hdata] at h
    obtain ⟨h1, h2⟩ := iterLoop_offsets hlen hc hdl _ 0 d as h (by omega) hdl (by simp [offsetLoop])
    obtain ⟨c, c1, c2, c3, c4⟩ := cacheLoop_offsets hlen hc hdl _ 0 d as h (by omega) hdl
    simp only [Nat.zero_add] at h1 h2
    refine ⟨?_, ⟨v, some c⟩, ?_, ?_, ?_⟩
    · intro n
      simp only [getArg, hc, bnd]
      by_cases hn : n < as.length
      · obtain ⟨g1, g2, g3, g4⟩ := h2 n hn
        rw [if_neg (by omega), g1]
        simp only [bnd, hdata, Int.toNat_natCast, g4]
        rw [ptrAdd_of (q := as[n].ptr) (by omega) g3, bnd, List.getElem?_eq_getElem hn]
      · rw [if_pos (by omega), List.getElem?_eq_none (by omega)]
    · simp only [cacheDataOffsets, hc, bnd]
      rw [if_neg (by omega), if_neg (by omega)]
      simp only [hdata, bnd]
      have e : nn.toNat = as.length := by omega
      have e0 : (d : Int) - d = 0 := by omega
      rw [e0] at c1
      rw [e, c1, bnd]
    · intro n
      simp only [getArg, hc, bnd]
      by_cases hn : n < as.length
      · obtain ⟨g1, g2, g3, g4⟩ := h2 n hn
        rw [if_neg (by omega), g1]
        simp only [bnd, hdata, Int.toNat_natCast]
        have hnc : n < c.length := by omega
        rw [if_neg (by omega), List.getElem?_eq_getElem hnc]
        simp only [bnd, c3 n hn hnc]
        rw [ptrAdd_of (q := as[n].ptr) (by omega) g3, bnd, List.getElem?_eq_getElem hn]
      · rw [if_pos (by omega), List.getElem?_eq_none (by omega)]
    · have := c4 [] rfl
      simpa [MsgS.iterate, it, hdata] using this

/-- Atom `x` is the argument `w`: it has its type tag and points at its data. -/
def Denotes (buf : Bytes) (x : AtomS) (w : WArg) : Prop :=
  x.tag = w.1 ∧ ∃ pre post, buf = pre ++ w.2 ++ post ∧ x.ptr = pre.length

theorem atomsAt_denotes (as : List WArg) : ∀ (pre post : Bytes), ∀ k (h : k < as.length),
    ∃ x, (atomsAt pre.length as)[k]? = some x ∧ Denotes (pre ++ as.flatMap Prod.snd ++ post) x as[k] := by
  induction as with
  | nil => intro _ _ k h; simp at h
  | cons a as ih =>
    intro pre post k h
    cases k with
    | zero => exact ⟨⟨a.1, pre.length⟩, rfl, rfl, pre, as.flatMap Prod.snd ++ post, by simp, rfl⟩
    | succ k =>
      obtain ⟨x, h1, h2⟩ := ih (pre ++ a.2) post k (by simpa using h)
      refine ⟨x, by simpa [atomsAt] using h1, ?_⟩
      have e : pre ++ (a :: as).flatMap Prod.snd ++ post = pre ++ a.2 ++ as.flatMap Prod.snd ++ post := by simp
      rw [e]
      exact h2

/-- **C06 (encoded messages).**  In a message with any address and any list of typed arguments, anywhere in a packet, the
argument at each index is the one put there, by index without the cache, by index with it, and in iteration; indices from
the count on are refused. -/
theorem C06_encoded_partial (p q a : Bytes) (as : List WArg) (h0 : (0 : UInt8) ∉ a) (has : ∀ x ∈ as, IsArg x.1 x.2)
    (buf : Bytes) (hb : buf = p ++ encMsg (encBody a as) ++ q) (hlen : buf.length < 2147483648) :
    ∃ v m xs, wrap buf p.length = some v ∧ cacheDataOffsets buf ⟨v, none⟩ = some m ∧ xs.length = as.length ∧
      (∀ k (h : k < as.length), ∃ x, xs[k]? = some x ∧ Denotes buf x as[k]) ∧
      MsgS.iterate buf ⟨v, none⟩ = some xs ∧ MsgS.iterate buf m = some xs ∧
      (∀ n : Nat, getArg buf ⟨v, none⟩ n = some xs[n]?) ∧ (∀ n : Nat, getArg buf m n = some xs[n]?) := by
  have hf : Fits (encBody a as) := by
    rw [hb] at hlen
    simp only [encMsg, List.length_append, length_be32] at hlen
    unfold Fits
    omega
  have hw := wrap_enc p q a as h0 has hf
  rw [← hb] at hw
  have htl : (tagString as).length + 4 < 4294967296 := by
    have : (tagString as).length ≤ (padStr (tagString as)).length := by simp [padStr]
    unfold Fits encBody at hf
    simp only [List.length_append] at hf
    omega
  have eT : buf = (p ++ be32 (encBody a as).length ++ padStr a) ++ (padStr (tagString as) ++ (as.flatMap Prod.snd ++ q)) := by
    rw [hb]; simp [encMsg, encBody]
  have eD : buf = (p ++ be32 (encBody a as).length ++ padStr a ++ padStr (tagString as)) ++ as.flatMap Prod.snd ++ q := by
    rw [hb]; simp [encMsg, encBody]
  have lT : (p ++ be32 (encBody a as).length ++ padStr a).length = p.length + 4 + (padStr a).length := by
    simp only [List.length_append, length_be32]
  have lD : (p ++ be32 (encBody a as).length ++ padStr a ++ padStr (tagString as)).length =
      p.length + 4 + (padStr a).length + (padStr (tagString as)).length := by
    simp only [List.length_append, length_be32]
  have hc : cstrlen buf (p.length + 4 + (padStr a).length) = some (as.length + 1) := by
    have := cstrlen_append_right (p ++ be32 (encBody a as).length ++ padStr a)
      (padStr (tagString as) ++ (as.flatMap Prod.snd ++ q)) 0
    rw [cstrlen_padStr _ _ (tagString_noNul has) htl, ← eT, Nat.add_zero, lT] at this
    simpa [tagString] using this
  have htags : ∀ k (h : k < as.length), buf[p.length + 4 + (padStr a).length + 1 + k]? = some as[k].1 := by
    intro k h
    rw [eT, ← lT, Nat.add_assoc, List.getElem?_append_right (by omega)]
    have e : (p ++ be32 (encBody a as).length ++ padStr a).length + (1 + k) -
        (p ++ be32 (encBody a as).length ++ padStr a).length = k + 1 := by omega
    rw [e]
    simp only [padStr, tagString, List.cons_append, List.append_assoc, List.getElem?_cons_succ]
    rw [List.getElem?_append_left (by simpa using h)]
    simp [h]
  have hit := MsgS.iterLoop_enc (v := ⟨p.length, p.length + 4, some (p.length + 4 + (padStr a).length),
        some (p.length + 4 + (padStr a).length + (padStr (tagString as)).length)⟩) _ as rfl hc htags hlen as [] _ q
        (buf.length + 1) rfl has eD (by
          have := (cstrlen_spec hc).1
          omega)
  rw [lD] at hit
  have hI : MsgS.iterate buf ⟨⟨p.length, p.length + 4, some (p.length + 4 + (padStr a).length),
      some (p.length + 4 + (padStr a).length + (padStr (tagString as)).length)⟩, none⟩ = some _ := hit
  obtain ⟨g1, m, g2, g3, g4⟩ := C06_agree_partial buf hlen _ _ (by
    intro d hd
    simp only [Option.some.injEq] at hd
    rw [← hd, ← lD, eD]
    simp) hI
  refine ⟨_, m, _, hw, g2, by simp, ?_, hI, g4, g1, g3⟩
  intro k h
  obtain ⟨x, h1, h2⟩ := atomsAt_denotes as _ q k h
  rw [lD] at h1
  rw [← eD] at h2
  exact ⟨x, h1, h2⟩

/-- The message `/a ,iT s` with an integer, true and a string. -/
def exArgs : List WArg := [(105, [0, 0, 0, 7]), (84, []), (115, [104, 105, 0, 0])]

theorem exArgs_ok : ∀ x ∈ exArgs, IsArg x.1 x.2 := by
  intro x hx
  simp only [exArgs, List.mem_cons, List.not_mem_nil, or_false] at hx
  rcases hx with rfl | rfl | rfl
  · exact Or.inl ⟨by decide, rfl⟩
  · exact Or.inr (Or.inr (Or.inl ⟨by decide, rfl⟩))
  · exact Or.inr (Or.inr (Or.inr (Or.inl ⟨by decide, [104, 105], by decide, by decide, by decide⟩)))

example := C06_encoded_partial [1, 2] [3] [47, 97] exArgs (by decide) exArgs_ok _ rfl (by decide +kernel)

/-- The full claim of C06: every index outside the message is refused. -/
def C06RefusesAll : Prop := ∀ (buf : Bytes) (v : View), wrap buf 0 = some v → ∀ (nn : Int), argCount buf v = some nn →
  ∀ n : Int, n < 0 ∨ nn ≤ n → getArg buf ⟨v, none⟩ n = some none

/-- **C06 fails in full**: index -1 is not refused; it yields an "argument" whose type tag is the comma. -/
theorem C06_full_fails : ¬ C06RefusesAll := by
  intro h
  have := h (encMsg (encBody [47, 97] exArgs)) ⟨0, 4, some 8, some 16⟩ (by decide +kernel) 3 (by decide +kernel) (-1)
    (Or.inl (by decide))
  revert this
  decide +kernel

/-! ## C41 -/

/-- Addresses accepted as new names: a slash, at least one more character, no blank and no `#`. -/
def ValidName (a : Bytes) : Prop := ∃ r : Bytes, a = 47 :: r ∧ r ≠ [] ∧ (32 : UInt8) ∉ r ∧ (35 : UInt8) ∉ r

theorem validateAddress_iff (a : Bytes) : validateAddress a = 0 ↔ ValidName a := by
  unfold validateAddress ValidName
  cases a with
  | nil => simp
  | cons x r =>
    by_cases hx : x = 47
    · subst hx
      cases r with
      | nil => simp
      | cons y r =>
        simp only [List.head?_cons, ne_eq, not_true_eq_false, if_false, List.length_cons]
        rw [if_neg (by omega)]
        constructor
        · intro h
          split at h
          · simp at h
          · rename_i hn
            refine ⟨y :: r, rfl, by simp, ?_, ?_⟩
            · intro hm; apply hn; rw [List.any_eq_true]; exact ⟨32, List.mem_cons_of_mem _ hm, by decide⟩
            · intro hm; apply hn; rw [List.any_eq_true]; exact ⟨35, List.mem_cons_of_mem _ hm, by decide⟩
        · rintro ⟨r', e, -, h1, h2⟩
          simp only [List.cons.injEq, true_and] at e
          rw [if_neg]
          rw [List.any_eq_true]
          rintro ⟨c, hc, hd⟩
          simp only [List.mem_cons] at hc
          simp only [Bool.or_eq_true, decide_eq_true_eq] at hd
          rw [← e] at h1 h2
          rcases hc with rfl | hc
          · revert hd; decide
          · have hc' : c ∈ y :: r := by simpa using hc
            rcases hd with rfl | rfl
            · exact h2 hc'
            · exact h1 hc'
    · simp [hx]

/-- A name followed by one NUL and further NULs up to a multiple of four, counted with the size field in front. -/
def newPad (new : Bytes) : Bytes := new ++ [0] ++ zeros ((4 - (4 + new.length + 1) % 4) % 4)

theorem newPad_eq (new : Bytes) (h : new.length + 4 < 4294967296) : newPad new = padStr new := by
  unfold newPad padStr zeros
  rw [padN_eq _ h, List.append_assoc]
  congr 1
  rw [← List.replicate_one, List.replicate_append_replicate]
  congr 1
  omega

/-- **C41 (partial).**  Renaming a message that has a type tag string, anywhere in a packet: a valid new name gives exactly the
message with the new address and everything after the address unchanged, its size field and the returned size are those of
the new body; any other name is refused and nothing is written.  Missing: messages without type tag string
(`C41_no_typetags`). -/
theorem C41_rename_partial (p q a t new : Bytes) (h0 : (0 : UInt8) ∉ a) (ht : (0 : UInt8) ∈ t) (ht4 : 4 ≤ t.length)
    (hf : Fits (padStr a ++ t)) (hf' : Fits (padStr new ++ t)) :
    ∃ v, wrap (p ++ encMsg (padStr a ++ t) ++ q) p.length = some v ∧
      (ValidName new → renameCopy (p ++ encMsg (padStr a ++ t) ++ q) v new new.length =
        some (((padStr new ++ t).length : Int), some (encMsg (padStr new ++ t)))) ∧
      (¬ ValidName new → ∀ n, renameCopy (p ++ encMsg (padStr a ++ t) ++ q) v new n = some (0, none)) := by
  have hal : a.length + 4 < 4294967296 := by
    have : a.length ≤ (padStr a).length := by simp [padStr]
    unfold Fits at hf
    simp only [List.length_append] at hf
    omega
  have hnl : new.length + 4 < 4294967296 := by
    have : new.length ≤ (padStr new).length := by simp [padStr]
    unfold Fits at hf'
    simp only [List.length_append] at hf'
    omega
  have hpl : (padStr a).length = padN a.length := length_padStr a hal
  have hpn : (padStr new).length = padN new.length := length_padStr new hnl
  have hA : cstrlen (p ++ encMsg (padStr a ++ t) ++ q) (p.length + 4) = some a.length := by
    have e : p ++ encMsg (padStr a ++ t) ++ q = (p ++ be32 (padStr a ++ t).length) ++ (padStr a ++ (t ++ q)) := by simp [encMsg]
    have := cstrlen_append_right (p ++ be32 (padStr a ++ t).length) (padStr a ++ (t ++ q)) 0
    rw [cstrlen_padStr a _ h0 hal, ← e] at this
    simpa using this
  obtain ⟨rest, hr1, hr2⟩ := addrOf_split (m := t) ht
  have hT : cstrlen (p ++ encMsg (padStr a ++ t) ++ q) (p.length + 4 + (padStr a).length) = some (addrOf t).length := by
    have e : p ++ encMsg (padStr a ++ t) ++ q = (p ++ be32 (padStr a ++ t).length ++ padStr a) ++
        (addrOf t ++ 0 :: (rest ++ q)) := by
      rw [encMsg]
      conv => lhs; arg 1; arg 2; arg 2; rw [hr1]
      simp
    have := cstrlen_append_right (p ++ be32 (padStr a ++ t).length ++ padStr a) (addrOf t ++ 0 :: (rest ++ q)) 0
    rw [cstrlen_eq _ _ hr2, ← e] at this
    simpa [Nat.add_assoc] using this
  have hpp : padStrLen a.length = (padStr a).length := hpl.symm
  have hw : wrap (p ++ encMsg (padStr a ++ t) ++ q) p.length = some ⟨p.length, p.length + 4,
      some (p.length + 4 + (padStr a).length), some (p.length + 4 + (padStr a).length + padStrLen (addrOf t).length)⟩ := by
    simp only [wrap, rdI32_at p _ q hf, hA, Option.bind_eq_bind, Option.bind_some, hpp]
    rw [if_neg (by simp only [List.length_append]; omega)]
    simp only [hT, Option.bind_some]
    rfl
  refine ⟨_, hw, ?_, ?_⟩
  · intro hv
    have hv' := (validateAddress_iff new).mpr hv
    simp only [renameCopy, hv', ne_eq, not_true_eq_false, if_false, rdI32_at p _ q hf, hA, bnd, hpp]
    have hsl : slice (p ++ encMsg (padStr a ++ t) ++ q) (p.length + 4 + (padStr a).length)
        (((padStr a ++ t).length : Int) - (((p.length + 4 + (padStr a).length : Nat) : Int) - ((p.length + 4 : Nat) : Int))) =
        some t := by
      have e : p ++ encMsg (padStr a ++ t) ++ q = (p ++ be32 (padStr a ++ t).length ++ padStr a) ++ t ++ q := by simp [encMsg]
      have e2 : (((padStr a ++ t).length : Int) - (((p.length + 4 + (padStr a).length : Nat) : Int) - ((p.length + 4 : Nat) : Int))) =
          (t.length : Int) := by simp only [List.length_append]; omega
      have := slice_at (p ++ be32 (padStr a ++ t).length ++ padStr a) t q
      rw [← e] at this
      rw [e2]
      simpa [Nat.add_assoc] using this
    rw [hsl, bnd]
    have hnew : wrapI32 (((padStr a ++ t).length : Int) - ((padStr a).length : Int) + (padN new.length : Int)) =
        ((padStr new ++ t).length : Int) := by
      unfold Fits at hf'
      rw [wrapI32_small]
      · simp only [List.length_append, hpn]; omega
      all_goals simp only [List.length_append] at hf' ⊢; omega
    rw [hnew]
    congr 2
    have hpad : newPad new = padStr new := newPad_eq new hnl
    have hmod : (((padStr new ++ t).length : Int) % 4294967296).toNat = (padStr new ++ t).length := by
      unfold Fits at hf'; omega
    rw [hmod, encMsg, ← hpad]
    simp [newPad]
  · intro hv n
    have hv' : validateAddress new ≠ 0 := fun h => hv ((validateAddress_iff new).mp h)
    simp [renameCopy, hv']

/-- A message without type tag string makes renaming copy from a NULL pointer. -/
theorem C41_no_typetags : ∃ v, wrap (encMsg (padStr [47, 97])) 0 = some v ∧
    renameCopy (encMsg (padStr [47, 97])) v [47, 98] 2 = none := by
  refine ⟨⟨0, 4, none, none⟩, ?_, ?_⟩ <;> decide +kernel

example := C41_rename_partial [9] [8, 8] [47, 97] (padStr (tagString exArgs) ++ exArgs.flatMap Prod.snd) [47, 108, 111, 110, 103]
  (by decide) (by decide +kernel) (by decide +kernel) (by unfold Fits; decide +kernel) (by unfold Fits; decide +kernel)
example : ValidName [47, 108, 111, 110, 103] := ⟨[108, 111, 110, 103], rfl, by decide, by decide, by decide⟩

end Libo.Props
