import Verif.Values
/-!
# Decoding a wire form gives the value back
-/

namespace Libo

/-! ## What follows the buffer does not matter -/

/-- `b` is at least as defined as `a`. -/
def Le {α : Type} (a b : Option α) : Prop := ∀ x, a = some x → b = some x

theorem Le.rfl {α : Type} {a : Option α} : Le a a := fun _ h => h

theorem Le.bind {α β : Type} {a b : Option α} {f g : α → Option β} (h : Le a b) (hf : ∀ x, Le (f x) (g x)) :
    Le (a >>= f) (b >>= g) := by
  intro y hy
  simp only [Option.bind_eq_bind, Option.bind_eq_some_iff] at hy ⊢
  obtain ⟨x, h1, h2⟩ := hy
  exact ⟨x, h x h1, hf x y h2⟩

theorem Le.ite {α : Type} {c : Prop} [Decidable c] {a b a' b' : Option α} (h1 : Le a a') (h2 : Le b b') :
    Le (if c then a else b) (if c then a' else b') := by
  by_cases h : c
  · simp only [if_pos h]; exact h1
  · simp only [if_neg h]; exact h2

theorem rd8_le (buf r : Bytes) (i : Nat) : Le (rd8 buf i) (rd8 (buf ++ r) i) := by
  intro x h
  simp only [rd8] at *
  have := (List.getElem?_eq_some_iff.mp h).1
  rw [List.getElem?_append_left this, h]

theorem rd32_le (buf r : Bytes) (i : Nat) : Le (rd32 buf i) (rd32 (buf ++ r) i) :=
  .bind (rd8_le _ _ _) fun _ => .bind (rd8_le _ _ _) fun _ => .bind (rd8_le _ _ _) fun _ => .bind (rd8_le _ _ _) fun _ => .rfl

theorem rdI32_le (buf r : Bytes) (i : Nat) : Le (rdI32 buf i) (rdI32 (buf ++ r) i) := by
  intro x h
  simp only [rdI32, Option.map_eq_some_iff] at *
  obtain ⟨a, h1, h2⟩ := h
  exact ⟨a, rd32_le _ _ _ _ h1, h2⟩

theorem cstrlen_le (buf r : Bytes) (i : Nat) : Le (cstrlen buf i) (cstrlen (buf ++ r) i) := by
  intro n h
  simp only [cstrlen] at *
  split at h
  · rename_i hlt
    simp only [Option.some.injEq] at h
    have hd : (buf ++ r).drop i = buf.drop i ++ r := by
      rw [List.drop_append_of_le_length]
      simp only [List.length_drop] at hlt
      omega
    have key : ∀ s : Bytes, (s.takeWhile (· != 0)).length < s.length →
        (s ++ r).takeWhile (· != 0) = s.takeWhile (· != 0) := by
      intro s
      induction s with
      | nil => simp
      | cons c s ih =>
        intro hl
        simp only [List.cons_append, List.takeWhile_cons] at hl ⊢
        split
        · rename_i hc
          rw [if_pos hc] at hl
          rw [ih (by simpa using hl)]
        · rfl
    rw [hd, key _ hlt, if_pos (by simp only [List.length_append]; omega), h]
  · simp at h

theorem wrap_le (buf r : Bytes) (pos : Nat) : Le (wrap buf pos) (wrap (buf ++ r) pos) := by
  unfold wrap
  refine .bind (rdI32_le _ _ _) fun _ => .bind (cstrlen_le _ _ _) fun _ => ?_
  exact .ite .rfl (.bind (cstrlen_le _ _ _) fun _ => .rfl)

theorem getSize_le (buf r : Bytes) (v : Option View) : Le (getSize buf v) (getSize (buf ++ r) v) := by
  cases v
  · exact .rfl
  · exact rdI32_le _ _ _

theorem hasNext_le (buf r : Bytes) (len : Int) (it : BIt) : Le (it.hasNext buf len) (it.hasNext (buf ++ r) len) := by
  unfold BIt.hasNext
  exact .ite .rfl (.ite .rfl (.bind (getSize_le _ _ _) fun _ => .rfl))

theorem next_le (buf r : Bytes) (len : Int) (it : BIt) : Le (it.next buf len) (it.next (buf ++ r) len) := by
  unfold BIt.next
  refine .ite (.bind (wrap_le _ _ _) fun _ => .rfl) (.ite (.bind (getSize_le _ _ _) fun _ => .bind .rfl fun _ => ?_) .rfl)
  exact .ite (.bind (wrap_le _ _ _) fun _ => .rfl) .rfl

theorem bndlLoop_le (buf r : Bytes) (len : Int) : ∀ (n : Nat) (it : BIt),
    Le (iterLoop buf len n it) (iterLoop (buf ++ r) len n it) := by
  intro n
  induction n with
  | zero => intro it; exact .rfl
  | succ n ih =>
    intro it
    simp only [iterLoop]
    refine .bind (hasNext_le _ _ _ _) fun h => .ite (.bind (next_le _ _ _ _) fun x => ?_) .rfl
    cases x.2 with
    | none => exact .rfl
    | some v => exact .bind (ih _) fun _ => .rfl

theorem iterate_le (buf r : Bytes) (len : Int) : Le (iterate len buf) (iterate len (buf ++ r)) := bndlLoop_le _ _ _ _ _

theorem Views_le (buf r : Bytes) : ∀ (ms : List Bytes) (pos : Nat) (vs : List View), Views buf pos ms vs → Views (buf ++ r) pos ms vs
  | [], _, [], _ => trivial
  | m :: ms, pos, v :: vs, h => ⟨wrap_le _ _ _ _ h.1, Views_le buf r ms _ vs h.2⟩
  | [], _, _ :: _, h => h
  | _ :: _, _, [], h => h

/-! ## Arguments of an encoded message -/

theorem msgIterate_enc (p q a : Bytes) (as : List WArg) (h0 : (0 : UInt8) ∉ a) (has : ∀ x ∈ as, IsArg x.1 x.2)
    (buf : Bytes) (hb : buf = p ++ encMsg (encBody a as) ++ q) (hlen : buf.length < 2147483648) (v : View)
    (hv : wrap buf p.length = some v) :
    ∃ pre, buf = pre ++ as.flatMap Prod.snd ++ q ∧ MsgS.iterate buf ⟨v, none⟩ = some (MsgS.atomsAt pre.length as) := by
  have hf : Fits (encBody a as) := by
    rw [hb] at hlen
    simp only [encMsg, List.length_append, length_be32] at hlen
    unfold Fits
    omega
  have hw := MsgS.wrap_enc p q a as h0 has hf
  rw [← hb, hv] at hw
  simp only [Option.some.injEq] at hw
  subst hw
  have htl : (tagString as).length + 4 < 4294967296 := by
    have : (tagString as).length ≤ (padStr (tagString as)).length := by simp [padStr]
    unfold Fits encBody at hf
    simp only [List.length_append] at hf
    omega
  have eT : buf = (p ++ be32 (encBody a as).length ++ padStr a) ++ (padStr (tagString as) ++ (as.flatMap Prod.snd ++ q)) := by
    rw [hb]; simp [encMsg, encBody]
  have eD : buf = (p ++ be32 (encBody a as).length ++ padStr a ++ padStr (tagString as)) ++ as.flatMap Prod.snd ++ q := by
    rw [hb]; simp [encMsg, encBody]
  have lT : (p ++ be32 (encBody a as).length ++ padStr a).length = p.length + 4 + (padStr a).length := by
    simp only [List.length_append, length_be32]
  have lD : (p ++ be32 (encBody a as).length ++ padStr a ++ padStr (tagString as)).length =
      p.length + 4 + (padStr a).length + (padStr (tagString as)).length := by
    simp only [List.length_append, length_be32]
  have hc : cstrlen buf (p.length + 4 + (padStr a).length) = some (as.length + 1) := by
    have := cstrlen_append_right (p ++ be32 (encBody a as).length ++ padStr a)
      (padStr (tagString as) ++ (as.flatMap Prod.snd ++ q)) 0
    rw [cstrlen_padStr _ _ (MsgS.tagString_noNul has) htl, ← eT, Nat.add_zero, lT] at this
    simpa [tagString] using this
  have htags : ∀ k (h : k < as.length), buf[p.length + 4 + (padStr a).length + 1 + k]? = some as[k].1 := by
    intro k h
    rw [eT, ← lT, Nat.add_assoc, List.getElem?_append_right (by omega)]
    have e : (p ++ be32 (encBody a as).length ++ padStr a).length + (1 + k) -
        (p ++ be32 (encBody a as).length ++ padStr a).length = k + 1 := by omega
    rw [e]
    simp only [padStr, tagString, List.cons_append, List.append_assoc, List.getElem?_cons_succ]
    rw [List.getElem?_append_left (by simpa using h)]
    simp [h]
  have hit := MsgS.iterLoop_enc (v := ⟨p.length, p.length + 4, some (p.length + 4 + (padStr a).length),
        some (p.length + 4 + (padStr a).length + (padStr (tagString as)).length)⟩) _ as rfl hc htags hlen as [] _ q
        (buf.length + 1) rfl has eD (by
          have := (MsgS.cstrlen_spec hc).1
          omega)
  rw [lD] at hit
  refine ⟨_, eD, ?_⟩
  rw [lD]
  exact hit

/-! ## Values -/

/-- A wire form of a good value is an argument. -/
theorem encVal_isArg {v : Val} {t : UInt8} {d : Bytes} (h : EncVal v t d) (hg : GoodVal v) (hl : d.length < 2147483648) :
    IsArg t d := by
  cases v with
  | num tag x =>
    simp only [EncVal] at h
    obtain ⟨rfl, h⟩ := h
    rcases h with ⟨h1, n, -, -, rfl⟩ | ⟨h1, n, -, -, rfl⟩ | ⟨h1, -, rfl⟩ | ⟨h1, -, rfl⟩
    · left; refine ⟨?_, by simp⟩
      simp only [List.mem_cons, List.not_mem_nil, or_false] at h1 ⊢
      rcases h1 with h | h <;> simp [h]
    · left; refine ⟨?_, by simp⟩
      simp only [List.mem_cons, List.not_mem_nil, or_false] at h1 ⊢
      rcases h1 with h | h <;> simp [h]
    · left; refine ⟨?_, by simp⟩
      simp only [List.mem_cons, List.not_mem_nil, or_false] at h1 ⊢
      rcases h1 with h | h | h <;> simp [h]
    · right; left; refine ⟨?_, by simp⟩
      simp only [List.mem_cons, List.not_mem_nil, or_false] at h1 ⊢
      rcases h1 with h | h | h <;> simp [h]
  | time s f =>
    simp only [EncVal] at h
    obtain ⟨rfl, -, -, rfl⟩ := h
    right; left; exact ⟨by decide, by simp⟩
  | bare tag =>
    simp only [EncVal] at h
    obtain ⟨rfl, rfl⟩ := h
    simp only [GoodVal] at hg
    right; right; left; exact ⟨by simpa using hg, rfl⟩
  | str s =>
    simp only [EncVal] at h
    obtain ⟨rfl, rfl⟩ := h
    simp only [GoodVal] at hg
    refine Or.inr (Or.inr (Or.inr (Or.inl ⟨by decide, s, hg, ?_, rfl⟩)))
    simp only [padStr, List.length_append] at hl
    omega
  | blob c =>
    simp only [EncVal] at h
    obtain ⟨rfl, rfl⟩ := h
    refine Or.inr (Or.inr (Or.inr (Or.inr (Or.inl ⟨rfl, c, ?_, rfl⟩))))
    simp only [List.length_append] at hl
    omega
  | bndl ms =>
    simp only [EncVal] at h
    obtain ⟨rfl, b, -, rfl⟩ := h
    refine Or.inr (Or.inr (Or.inr (Or.inr (Or.inr ⟨rfl, _, ?_, rfl⟩))))
    simp only [List.length_append, length_be32] at hl ⊢
    omega

theorem encArgs_isArg : ∀ (vs : List Val) (ws : List WArg), EncArgs vs ws → GoodVals vs →
    (ws.flatMap Prod.snd).length < 2147483648 → ∀ x ∈ ws, IsArg x.1 x.2
  | [], ws, h, _, _, x, hx => by simp [EncArgs] at h; subst h; simp at hx
  | v :: vs, ws, h, hg, hl, x, hx => by
    simp only [EncArgs] at h
    obtain ⟨w, ws', rfl, h1, h2⟩ := h
    simp only [GoodVals] at hg
    simp only [List.flatMap_cons, List.length_append] at hl
    rcases List.mem_cons.mp hx with rfl | hx
    · exact encVal_isArg h1 hg.1 (by omega)
    · exact encArgs_isArg vs ws' h2 hg.2 (by omega) x hx

end Libo
