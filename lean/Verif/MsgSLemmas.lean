import Verif.MsgS
import Verif.MsgSpec
import Verif.BundleSLemmas
/-! # Lemmas about serialised messages -/

namespace Libo.MsgS
open Libo

theorem wrapI32_small {x : Int} (h1 : -2147483648 ≤ x) (h2 : x < 2147483648) : wrapI32 x = x := by
  unfold wrapI32 toI32
  split <;> omega

theorem ptrAdd_some {buf : Bytes} {p q : Nat} {d : Int} (h : ptrAdd buf p d = some q) :
    (q : Int) = p + d ∧ q ≤ buf.length := by
  unfold ptrAdd at h
  split at h
  · simp at h; omega
  · simp at h

theorem ptrAdd_of {buf : Bytes} {p q : Nat} {d : Int} (h : (q : Int) = p + d) (hq : q ≤ buf.length) :
    ptrAdd buf p d = some q := by
  unfold ptrAdd
  rw [if_pos (by omega)]
  congr 1
  omega

theorem cstrlen_spec {buf : Bytes} {i n : Nat} (h : cstrlen buf i = some n) :
    i + n < buf.length ∧ buf[i + n]? = some 0 ∧ ∀ k, k < n → ∃ b, buf[i + k]? = some b ∧ b ≠ 0 := by
  unfold cstrlen at h
  simp only at h
  split at h
  · rename_i hlt
    simp only [Option.some.injEq] at h
    have key : ∀ (s : Bytes), (s.takeWhile (· != 0)).length < s.length →
        s[(s.takeWhile (· != 0)).length]? = some 0 ∧ ∀ k, k < (s.takeWhile (· != 0)).length → ∃ b, s[k]? = some b ∧ b ≠ 0 := by
      intro s
      induction s with
      | nil => intro h; simp at h
      | cons x s ih =>
        intro h
        by_cases hx : x = 0
        · subst hx; simp
        · have e : (x :: s).takeWhile (· != 0) = x :: s.takeWhile (· != 0) := by simp [hx]
          rw [e] at h ⊢
          simp only [List.length_cons, Nat.add_lt_add_iff_right] at h
          obtain ⟨h1, h2⟩ := ih h
          refine ⟨by simpa using h1, ?_⟩
          intro k hk
          cases k with
          | zero => exact ⟨x, rfl, hx⟩
          | succ k => simpa using h2 k (by simpa using hk)
    obtain ⟨h1, h2⟩ := key _ hlt
    rw [h] at h1 h2 hlt
    simp only [List.getElem?_drop, List.length_drop] at h1 h2 hlt
    exact ⟨by omega, h1, h2⟩
  · simp at h

/-- The type tag at `n` is NUL exactly when `n` is not below the count. -/
theorem typetag_zero_iff {buf : Bytes} {v : View} {nn : Int} (hc : argCount buf v = some nn) (n : Nat) :
    ∃ t, typetag buf v n = some t ∧ (t = 0 ↔ nn ≤ n) := by
  unfold typetag
  rw [hc, bnd]
  by_cases h : nn ≤ n
  · rw [if_pos h]; exact ⟨0, rfl, by simp [h]⟩
  · rw [if_neg h]
    unfold argCount at hc
    cases hv : v.typetags with
    | none => rw [hv] at hc; simp at hc; omega
    | some t =>
      rw [hv] at hc
      simp only [Option.map_eq_some_iff] at hc
      obtain ⟨k, hk, rfl⟩ := hc
      obtain ⟨h1, -, h3⟩ := cstrlen_spec hk
      obtain ⟨b, hb, hb0⟩ := h3 (n + 1) (by omega)
      have hp : ptrAdd buf t ((n : Int) + 1) = some (t + (n + 1)) := ptrAdd_of (by omega) (by omega)
      simp only [hp, bnd, rd8, hb]
      exact ⟨b, rfl, by simp [hb0, h]⟩

/-- What the iterator hands out are the arguments at the offsets the index loop computes. -/
theorem iterLoop_offsets {buf : Bytes} (hlen : buf.length < 2147483648) {v : View} {nn : Int} (hc : argCount buf v = some nn)
    {data : Nat} (hd : data ≤ buf.length) (fuel : Nat) :
    ∀ (n p : Nat) (as : List AtomS), iterLoop buf ⟨v, none⟩ fuel ⟨n, some p⟩ = some as → (n : Int) ≤ nn → p ≤ buf.length →
      offsetLoop buf v data n = some ((p : Int) - data) →
      ((n + as.length : Nat) : Int) = nn ∧
      ∀ k (h : k < as.length), typetag buf v (n + k : Nat) = some as[k].tag ∧ as[k].tag ≠ 0 ∧ as[k].ptr ≤ buf.length ∧
        offsetLoop buf v data (n + k) = some ((as[k].ptr : Int) - data) := by
  induction fuel with
  | zero => intro n p as h; simp [iterLoop] at h
  | succ fuel ih =>
    intro n p as h hn hp hoff
    obtain ⟨t, ht, hz⟩ := typetag_zero_iff hc n
    simp only [iterLoop, hasNext, ht, Option.map_some, bnd] at h
    by_cases h0 : t = 0
    · subst h0
      simp at h
      subst h
      refine ⟨by have := hz.mp rfl; simp; omega, by simp⟩
    · have hlt : (n : Int) < nn := by
        have : ¬ nn ≤ n := fun h => h0 (hz.mpr h)
        omega
      rw [if_pos (by simp [h0])] at h
      simp only [next, ht, bnd, h0, if_false] at h
      cases hs : sizeAt buf v n p with
      | none => rw [hs] at h; simp at h
      | some s =>
        rw [hs, bnd] at h
        cases hq : ptrAdd buf p s with
        | none => rw [hq] at h; simp at h
        | some q =>
          rw [hq] at h
          simp only [bnd] at h
          obtain ⟨hq1, hq2⟩ := ptrAdd_some hq
          cases hr : iterLoop buf ⟨v, none⟩ fuel ⟨n + 1, some q⟩ with
          | none => rw [hr] at h; simp at h
          | some as' =>
            rw [hr] at h
            simp only [bnd, Option.some.injEq] at h
            subst h
            have hoff' : offsetLoop buf v data (n + 1) = some ((q : Int) - data) := by
              rw [offsetLoop, hoff, bnd, ptrAdd_of (q := p) (by omega) hp, bnd, hs, bnd, wrapI32_small (by omega) (by omega)]
              congr 1; omega
            obtain ⟨h1, h2⟩ := ih (n + 1) q as' hr (by omega) hq2 hoff'
            refine ⟨by simp only [List.length_cons]; omega, ?_⟩
            intro k hk
            cases k with
            | zero => exact ⟨ht, h0, hp, hoff⟩
            | succ k =>
              have := h2 k (by simpa using hk)
              have e : n + 1 + k = n + (k + 1) := by omega
              rw [e] at this
              exact this

/-- The cache holds those offsets, and the sizes lead from one argument to the next. -/
theorem cacheLoop_offsets {buf : Bytes} (hlen : buf.length < 2147483648) {v : View} {nn : Int} (hc : argCount buf v = some nn)
    {data : Nat} (hd : data ≤ buf.length) (fuel : Nat) :
    ∀ (n p : Nat) (as : List AtomS), iterLoop buf ⟨v, none⟩ fuel ⟨n, some p⟩ = some as → (n : Int) ≤ nn → p ≤ buf.length →
      ∃ c, cacheLoop buf v data n ((p : Int) - data) as.length = some c ∧ c.length = as.length ∧
        (∀ k (h : k < as.length) (h' : k < c.length), c[k].1 = (as[k].ptr : Int) - data) ∧
        ∀ pre : List (Int × Int), pre.length = n → iterLoop buf ⟨v, some (pre ++ c)⟩ fuel ⟨n, some p⟩ = some as := by
  induction fuel with
  | zero => intro n p as h; simp [iterLoop] at h
  | succ fuel ih =>
    intro n p as h hn hp
    obtain ⟨t, ht, hz⟩ := typetag_zero_iff hc n
    have h' := h
    simp only [iterLoop, hasNext, ht, Option.map_some, bnd] at h
    by_cases h0 : t = 0
    · subst h0
      simp at h
      subst h
      refine ⟨[], rfl, rfl, by simp, ?_⟩
      intro pre _
      simp [iterLoop, hasNext, ht]
    · have hlt : (n : Int) < nn := by
        have : ¬ nn ≤ n := fun h => h0 (hz.mpr h)
        omega
      rw [if_pos (by simp [h0])] at h
      simp only [next, ht, bnd, h0, if_false] at h
      cases hs : sizeAt buf v n p with
      | none => rw [hs] at h; simp at h
      | some s =>
        rw [hs, bnd] at h
        cases hq : ptrAdd buf p s with
        | none => rw [hq] at h; simp at h
        | some q =>
          rw [hq] at h
          simp only [bnd] at h
          obtain ⟨hq1, hq2⟩ := ptrAdd_some hq
          cases hr : iterLoop buf ⟨v, none⟩ fuel ⟨n + 1, some q⟩ with
          | none => rw [hr] at h; simp at h
          | some as' =>
            rw [hr] at h
            simp only [bnd, Option.some.injEq] at h
            subst h
            obtain ⟨c, e1, e2, e3, e4⟩ := ih (n + 1) q as' hr (by omega) hq2
            have hw : wrapI32 s = s := wrapI32_small (by omega) (by omega)
            refine ⟨((p : Int) - data, s) :: c, ?_, by simp [e2], ?_, ?_⟩
            · simp only [List.length_cons, cacheLoop]
              rw [ptrAdd_of (q := p) (by omega) hp, bnd, hs, bnd, hw, wrapI32_small (by omega) (by omega)]
              have : (p : Int) - data + s = (q : Int) - data := by omega
              rw [this, e1, bnd]
            · intro k hk hk'
              cases k with
              | zero => rfl
              | succ k => simpa using e3 k (by simpa using hk) (by simpa using hk')
            · intro pre hpre
              simp only [iterLoop, hasNext, ht, Option.map_some, bnd]
              rw [if_pos (by simp [h0])]
              simp only [next, ht, bnd, h0, if_false]
              have hg : (pre ++ ((p : Int) - data, s) :: c)[n]? = some ((p : Int) - data, s) := by
                rw [List.getElem?_append_right (by omega)]; simp [hpre]
              have e5 := e4 (pre ++ [((p : Int) - data, s)]) (by simp [hpre])
              simp only [List.append_assoc, List.cons_append, List.nil_append] at e5
              simp only [hg, Option.map_some, bnd, hq, e5]

/-! ## Encoded messages -/

theorem IsArg.tag_ne {t : UInt8} {d : Bytes} (h : IsArg t d) : t ≠ 0 := by
  rintro rfl
  rcases h with ⟨h, -⟩ | ⟨h, -⟩ | ⟨h, -⟩ | ⟨h, -⟩ | ⟨h, -⟩ | ⟨h, -⟩ <;> simp at h

/-- The size of an encoded argument is its length. -/
theorem oscSizeof_arg {t : UInt8} {d : Bytes} (h : IsArg t d) (p q : Bytes) :
    oscSizeof t (some (p ++ d ++ q, p.length)) = some d.length := by
  have hrd : ∀ (n : Nat) (r : Bytes), rd32 (p ++ (be32 n ++ r)) p.length = some (n % 4294967296) := by
    intro n r
    have := rd32_append_right p (be32 n ++ r) 0
    rw [Nat.add_zero] at this
    rw [this, rd32_be32]
  rcases h with ⟨h, hl⟩ | ⟨h, hl⟩ | ⟨h, hl⟩ | ⟨h, s, h0, hs, rfl⟩ | ⟨rfl, c, hc, rfl⟩ | ⟨rfl, c, hc, rfl⟩
  · rw [hl]
    simp only [List.mem_cons, List.not_mem_nil, or_false] at h
    rcases h with rfl | rfl | rfl | rfl | rfl | rfl | rfl <;> rfl
  · rw [hl]
    simp only [List.mem_cons, List.not_mem_nil, or_false] at h
    rcases h with rfl | rfl | rfl | rfl <;> rfl
  · rw [hl]
    simp only [List.mem_cons, List.not_mem_nil, or_false] at h
    rcases h with rfl | rfl | rfl <;> rfl
  · have e : cstrlen (p ++ padStr s ++ q) p.length = some s.length := by
      have := cstrlen_append_right p (padStr s ++ q) 0
      rw [Nat.add_zero] at this
      rw [List.append_assoc, this, cstrlen_padStr s q h0 hs]
    have hpl : (padStr s).length = padStrLen s.length := by rw [length_padStr s hs]; rfl
    simp only [List.mem_cons, List.not_mem_nil, or_false] at h
    rcases h with rfl | rfl
    · show (cstrlen _ _).map padStrLen = _
      rw [e, hpl]; rfl
    · show (cstrlen _ _).map padStrLen = _
      rw [e, hpl]; rfl
  · show (rd32 _ _).map blobLen = _
    have e : p ++ (be32 c.length ++ c ++ zeros ((4 - c.length % 4) % 4)) ++ q =
        p ++ (be32 c.length ++ (c ++ zeros ((4 - c.length % 4) % 4) ++ q)) := by simp
    rw [e, hrd, Nat.mod_eq_of_lt hc, Option.map_some, blobLen_eq]
    congr 1
    simp only [List.length_append, length_be32, zeros, List.length_replicate]
    omega
  · show (rd32 _ _).map (fun n => (n + 4) % 4294967296) = _
    have e : p ++ (be32 c.length ++ c) ++ q = p ++ (be32 c.length ++ (c ++ q)) := by simp
    rw [e, hrd, Nat.mod_eq_of_lt (by omega), Option.map_some, Nat.mod_eq_of_lt hc]
    congr 1

/-- Where the arguments lie, from offset `p` on. -/
def atomsAt : Nat → List WArg → List AtomS
  | _, [] => []
  | p, a :: as => ⟨a.1, p⟩ :: atomsAt (p + a.2.length) as

@[simp] theorem length_atomsAt (p : Nat) (as : List WArg) : (atomsAt p as).length = as.length := by
  induction as generalizing p with
  | nil => rfl
  | cons a as ih => simp [atomsAt, ih]

theorem tagString_noNul {as : List WArg} (h : ∀ x ∈ as, IsArg x.1 x.2) : (0 : UInt8) ∉ tagString as := by
  unfold tagString
  simp only [List.mem_cons, List.mem_map, not_or]
  refine ⟨by decide, ?_⟩
  rintro ⟨x, hx, h0⟩
  exact IsArg.tag_ne (h x hx) h0

/-- The view `osc_message_s_wrap` makes of an encoded message. -/
theorem wrap_enc (p q a : Bytes) (as : List WArg) (h0 : (0 : UInt8) ∉ a) (has : ∀ x ∈ as, IsArg x.1 x.2)
    (hf : Fits (encBody a as)) :
    wrap (p ++ encMsg (encBody a as) ++ q) p.length =
      some ⟨p.length, p.length + 4, some (p.length + 4 + (padStr a).length),
        some (p.length + 4 + (padStr a).length + (padStr (tagString as)).length)⟩ := by
  have hfl := hf
  unfold Fits encBody at hfl
  have hal : a.length + 4 < 4294967296 := by
    have : a.length ≤ (padStr a).length := by simp [padStr]
    simp only [List.length_append] at hfl
    omega
  have htl : (tagString as).length + 4 < 4294967296 := by
    have : (tagString as).length ≤ (padStr (tagString as)).length := by simp [padStr]
    simp only [List.length_append] at hfl
    omega
  have hpl : (padStr a).length = padN a.length := length_padStr a hal
  have htl' : (padStr (tagString as)).length = padN (tagString as).length := length_padStr _ htl
  have hA : cstrlen (p ++ encMsg (encBody a as) ++ q) (p.length + 4) = some a.length := by
    have e : p ++ encMsg (encBody a as) ++ q = (p ++ be32 (encBody a as).length) ++
        (padStr a ++ (padStr (tagString as) ++ as.flatMap Prod.snd ++ q)) := by simp [encMsg, encBody]
    have := cstrlen_append_right (p ++ be32 (encBody a as).length)
      (padStr a ++ (padStr (tagString as) ++ as.flatMap Prod.snd ++ q)) 0
    rw [cstrlen_padStr a _ h0 hal, ← e] at this
    simpa using this
  have hT : cstrlen (p ++ encMsg (encBody a as) ++ q) (p.length + 4 + (padStr a).length) = some (tagString as).length := by
    have e : p ++ encMsg (encBody a as) ++ q = (p ++ be32 (encBody a as).length ++ padStr a) ++
        (padStr (tagString as) ++ (as.flatMap Prod.snd ++ q)) := by simp [encMsg, encBody]
    have := cstrlen_append_right (p ++ be32 (encBody a as).length ++ padStr a)
      (padStr (tagString as) ++ (as.flatMap Prod.snd ++ q)) 0
    rw [cstrlen_padStr _ _ (tagString_noNul has) htl, ← e] at this
    simpa [Nat.add_assoc] using this
  have hpp : padStrLen a.length = (padStr a).length := hpl.symm
  have hpt : padStrLen (tagString as).length = (padStr (tagString as)).length := htl'.symm
  simp only [wrap, rdI32_at p _ q hf, hA, Option.bind_eq_bind, Option.bind_some, hpp]
  have hle : ¬ (((p.length + 4 + (padStr a).length - p.length : Nat) : Int) > ((encBody a as).length : Int)) := by
    have h4 : 4 ≤ (padStr (tagString as)).length := by rw [htl', padN_eq _ htl]; omega
    have : (encBody a as).length = (padStr a).length + (padStr (tagString as)).length + (as.flatMap Prod.snd).length := by
      simp [encBody, Nat.add_assoc]
    omega
  rw [if_neg hle]
  simp only [hT, Option.bind_some, hpt]
  rfl

/-- Walking over the arguments of a message whose type tags and data are at the given places. -/
theorem iterLoop_enc {buf : Bytes} {v : View} (tt : Nat) (all : List WArg) (hv : v.typetags = some tt)
    (hc : cstrlen buf tt = some (all.length + 1))
    (htags : ∀ k (h : k < all.length), buf[tt + 1 + k]? = some all[k].1) (hlen : buf.length < 2147483648) :
    ∀ (as done : List WArg) (pre post : Bytes) (fuel : Nat), all = done ++ as → (∀ x ∈ as, IsArg x.1 x.2) →
      buf = pre ++ as.flatMap Prod.snd ++ post → as.length < fuel →
      iterLoop buf ⟨v, none⟩ fuel ⟨done.length, some pre.length⟩ = some (atomsAt pre.length as) := by
  have hcount : argCount buf v = some (all.length : Int) := by
    simp only [argCount, hv, hc, Option.map_some]; congr 1; omega
  intro as
  induction as with
  | nil =>
    intro done pre post fuel hall _ hb hf
    cases fuel with
    | zero => simp at hf
    | succ fuel =>
      have : typetag buf v (done.length : Nat) = some 0 := by
        simp only [typetag, hcount, bnd]
        rw [if_pos (by simp [hall])]
      simp [iterLoop, hasNext, this, atomsAt]
  | cons a as ih =>
    intro done pre post fuel hall has hb hf
    cases fuel with
    | zero => simp at hf
    | succ fuel =>
      have hk : done.length < all.length := by rw [hall]; simp
      have hg : all[done.length] = a := by simp [hall]
      have hb1 := htags done.length hk
      have hlt := (List.getElem?_eq_some_iff.mp hb1).1
      have ht : typetag buf v (done.length : Nat) = some a.1 := by
        simp only [typetag, hcount, bnd]
        rw [if_neg (by omega)]
        simp only [hv]
        rw [ptrAdd_of (q := tt + 1 + done.length) (by omega) (by omega), bnd, rd8, hb1, hg]
      have h0 : a.1 ≠ 0 := IsArg.tag_ne (has a (by simp))
      have hb' : buf = pre ++ a.2 ++ (as.flatMap Prod.snd ++ post) := by rw [hb]; simp
      have hle : pre.length + a.2.length ≤ buf.length := by rw [hb']; simp
      have hs : sizeAt buf v done.length pre.length = some (a.2.length : Int) := by
        have := oscSizeof_arg (has a (by simp)) pre (as.flatMap Prod.snd ++ post)
        rw [← hb'] at this
        simp only [sizeAt, ht, bnd, this]
        congr 1
        unfold disp
        rw [if_neg (by unfold SIZE_MAX; omega)]
      have hp : ptrAdd buf pre.length (a.2.length : Int) = some (pre.length + a.2.length) := ptrAdd_of (by omega) hle
      have ihn := ih (done ++ [a]) (pre ++ a.2) post fuel (by rw [hall]; simp) (fun x hx => has x (by simp [hx]))
        (by rw [hb']; simp) (by simpa using hf)
      simp only [List.length_append, List.length_cons, List.length_nil, Nat.zero_add] at ihn
      simp only [iterLoop, hasNext, ht, Option.map_some, bnd]
      rw [if_pos (by simp [h0])]
      simp only [next, ht, bnd, h0, if_false, hs, hp, ihn, atomsAt]

end Libo.MsgS
