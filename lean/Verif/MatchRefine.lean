import Verif.MatchTotal
import Verif.PatSpec
/-!
# The matcher refines the pattern specification (helper lemmas)
-/

namespace Libo.Match
open Libo.PatSpec

/-- Big-step evaluation of the matcher loop. -/
inductive Eval (pat addr : Bytes) : List (Nat × Nat) → Res → Prop where
  | ret {st r} : step pat addr st = some (.ret r) → Eval pat addr st r
  | cont {st st' r} : step pat addr st = some (.cont st') → Eval pat addr st' r → Eval pat addr st r

theorem run_of_eval {pat addr : Bytes} {st r} (h : Eval pat addr st r) :
    ∀ n r', run pat addr n st = some r' → r' = r := by
  induction h with
  | ret h =>
    intro n r' hr
    cases n with
    | zero => simp [run] at hr
    | succ n => simp [run, h] at hr; exact hr.symm
  | cont h _ ih =>
    intro n r' hr
    cases n with
    | zero => simp [run] at hr
    | succ n => simp [run, h] at hr; exact ih n r' hr

/-! ## Reading at an offset -/

theorem ch_drop {s : Bytes} {p : Nat} (h : p ≤ s.length) (i : Nat) :
    ch s (p + i) = (s.drop p ++ [0])[i]? := by
  unfold ch
  rw [← List.getElem?_drop, List.drop_append_of_le_length h]

theorem ch_drop0 {s : Bytes} {p : Nat} (h : p ≤ s.length) : ch s p = (s.drop p ++ [0])[0]? := by
  simpa using ch_drop h 0

theorem scan_eq {f : UInt8 → Bool} {s : Bytes} {p : Nat} {u r : Bytes} (h : p ≤ s.length)
    (hd : s.drop p = u ++ r) (hu : ∀ c ∈ u, f c = true) (hr : ∀ c r', r = c :: r' → f c = false) :
    scan f s p = some (p + u.length) := by
  simp only [scan, h, if_true, hd]
  congr 3
  induction u with
  | nil =>
    cases r with
    | nil => rfl
    | cons c r' => simp [hr c r' rfl]
  | cons x u ih =>
    have : List.takeWhile f (x :: u ++ r) = x :: List.takeWhile f (u ++ r) := by
      simp [hu x (by simp)]
    rw [this]
    have hind : List.takeWhile f (u ++ r) = u := by
      clear ih this hd
      induction u with
      | nil =>
        cases r with
        | nil => rfl
        | cons c r' => simp [hr c r' rfl]
      | cons y u ih =>
        simp [hu y (by simp)]
        exact ih (fun c hc => hu c (by simp at hc ⊢; rcases hc with h | h <;> simp [h]))
    rw [hind]

theorem drop_add {s u r : Bytes} {p : Nat} (hd : s.drop p = u ++ r) : s.drop (p + u.length) = r := by
  rw [← List.drop_drop, hd]; simp

theorem le_of_drop {s u r : Bytes} {p : Nat} (h : p ≤ s.length) (hd : s.drop p = u ++ r) :
    p + u.length + r.length = s.length := by
  have := congrArg List.length hd
  simp at this; omega

/-! ## Bracket sets -/

theorem inRange_iff (c x d : UInt8) : inRange c x d = true ↔ (Item.range c d).Has x := by
  simp only [inRange, Item.Has, Bool.or_eq_true, Bool.and_eq_true, decide_eq_true_eq]
  constructor
  · rintro (⟨h1, h2⟩ | ⟨h1, h2⟩)
    · exact Or.inl ⟨h1, h2⟩
    · exact Or.inr ⟨h2, h1⟩
  · rintro (⟨h1, h2⟩ | ⟨h1, h2⟩)
    · exact Or.inl ⟨h1, h2⟩
    · exact Or.inr ⟨h2, h1⟩

theorem itemsText_cons (i : Item) (is : List Item) : itemsText (i :: is) = i.text ++ itemsText is := by
  simp [itemsText]

theorem itemsText_chars {is : List Item} (h : ∀ i ∈ is, i.WF) :
    ∀ c ∈ itemsText is, c ≠ 0 ∧ c ≠ 47 ∧ c ≠ 93 := by
  intro c hc
  simp only [itemsText, List.mem_flatMap] at hc
  obtain ⟨i, hi, hc⟩ := hc
  have hw := h i hi
  cases i with
  | one d => simp [Item.text] at hc; subst hc; exact ⟨hw.1, hw.2.1, hw.2.2.1⟩
  | range d e =>
    simp [Item.text] at hc
    rcases hc with rfl | rfl | rfl
    · exact ⟨hw.1.1, hw.1.2.1, hw.1.2.2.1⟩
    · decide
    · exact ⟨hw.2.1, hw.2.2.1, hw.2.2.2.1⟩

/-- The first character after some items and before the closing bracket is not a dash. -/
theorem items_next {is : List Item} (h : ∀ i ∈ is, i.WF) (R : Bytes) :
    ∃ d R', itemsText is ++ 93 :: R = d :: R' ∧ d ≠ DASH := by
  cases is with
  | nil => exact ⟨93, R, rfl, by decide⟩
  | cons i is =>
    have hw := h i (by simp)
    cases i with
    | one c => exact ⟨c, _, rfl, hw.2.2.2⟩
    | range c d => exact ⟨c, _, rfl, hw.1.2.2.2⟩

theorem rangeLoop_items (pat : Bytes) (x : UInt8) (val : Bool) (R : Bytes) :
    ∀ (is : List Item) (n p : Nat), (∀ i ∈ is, i.WF) → p ≤ pat.length → pat.length + 1 ≤ n + p →
      pat.drop p = itemsText is ++ 93 :: R →
      ((∃ i ∈ is, i.Has x) → rangeLoop pat x val n p = some (if val then 1 else 0)) ∧
      ((¬ ∃ i ∈ is, i.Has x) → rangeLoop pat x val n p = some (if val then 0 else 1)) := by
  intro is
  induction is with
  | nil =>
    intro n p _ hp hn hd
    simp [itemsText] at hd
    cases n with
    | zero => omega
    | succ n =>
      have hc : ch pat p = some 93 := by rw [ch_drop0 hp, hd]; rfl
      refine ⟨by simp, fun _ => ?_⟩
      simp [rangeLoop, hc]
  | cons i is ih =>
    intro n p hwf hp hn hd
    have hwi := hwf i (by simp)
    have hwis : ∀ i ∈ is, i.WF := fun j hj => hwf j (by simp [hj])
    rw [itemsText_cons] at hd
    cases n with
    | zero => omega
    | succ n =>
    cases i with
    | one c =>
      simp only [Item.text, List.cons_append, List.nil_append] at hd
      have hc : ch pat p = some c := by rw [ch_drop0 hp, hd]; rfl
      obtain ⟨d, R', hd', hdd⟩ := items_next hwis R
      have hlen := le_of_drop (u := [c]) hp hd
      have hcd : ch pat (p + 1) = some d := by
        rw [ch_drop hp, hd, hd']; rfl
      obtain ⟨h0, hs, hb, _⟩ := hwi
      have e1 : ¬ (c = RBRACK) := hb
      have e2 : ¬ (c = 0 ∨ c = SLASH) := fun h => h.elim h0 hs
      have hstep : rangeLoop pat x val (n + 1) p =
          if c = x then some (if val then 1 else 0) else rangeLoop pat x val n (p + 1) := by
        simp only [rangeLoop, hc, Option.bind_eq_bind, Option.bind_some, if_neg e1, if_neg e2, hcd,
          if_neg hdd, Option.pure_def, hdd, false_and, if_false]
      have hnext := ih n (p + 1) hwis (by simp at hlen; omega) (by omega) (drop_add (u := [c]) hd)
      rw [hstep]
      by_cases hcx : c = x
      · refine ⟨fun _ => by simp [hcx], fun hno => ?_⟩
        exact absurd ⟨.one c, by simp, hcx.symm⟩ hno
      · simp only [hcx, if_false]
        refine ⟨fun hex => hnext.1 ?_, fun hno => hnext.2 ?_⟩
        · obtain ⟨i, hi, hx⟩ := hex
          rcases List.mem_cons.mp hi with rfl | hi
          · exact absurd hx.symm hcx
          · exact ⟨i, hi, hx⟩
        · rintro ⟨i, hi, hx⟩
          exact hno ⟨i, by simp [hi], hx⟩
    | range c d =>
      simp only [Item.text, List.cons_append, List.nil_append] at hd
      have hlen := le_of_drop (u := [c, 45, d]) hp hd
      have hc : ch pat p = some c := by rw [ch_drop0 hp, hd]; rfl
      have hc1 : ch pat (p + 1) = some DASH := by rw [ch_drop hp, hd]; rfl
      have hc2 : ch pat (p + 2) = some d := by rw [ch_drop hp, hd]; rfl
      obtain ⟨⟨h0, hs, hb, _⟩, ⟨h0', hs', hb', _⟩⟩ := hwi
      have e1 : ¬ (c = RBRACK) := hb
      have e2 : ¬ (c = 0 ∨ c = SLASH) := fun h => h.elim h0 hs
      have hstep : rangeLoop pat x val (n + 1) p =
          if inRange c x d then some (if val then 1 else 0) else rangeLoop pat x val n (p + 3) := by
        simp only [rangeLoop, hc, Option.bind_eq_bind, Option.bind_some, if_neg e1, if_neg e2, hc1, hc2,
          if_true, Option.pure_def]
        rw [if_pos ⟨trivial, h0', hs', hb'⟩]
      have hnext := ih n (p + 3) hwis (by simp at hlen; omega) (by omega) (drop_add (u := [c, 45, d]) hd)
      rw [hstep]
      by_cases hcx : inRange c x d = true
      · refine ⟨fun _ => by simp [hcx], fun hno => ?_⟩
        exact absurd ⟨.range c d, by simp, (inRange_iff c x d).mp hcx⟩ hno
      · simp only [hcx, if_false]
        refine ⟨fun hex => hnext.1 ?_, fun hno => hnext.2 ?_⟩
        · obtain ⟨i, hi, hx⟩ := hex
          rcases List.mem_cons.mp hi with rfl | hi
          · exact absurd ((inRange_iff c x d).mpr hx) hcx
          · exact ⟨i, hi, hx⟩
        · rintro ⟨i, hi, hx⟩
          exact hno ⟨i, by simp [hi], hx⟩

/-- A bracket token accepts `x`. -/
def setOk (neg : Bool) (items : List Item) (x : UInt8) : Prop :=
  if neg then ¬ ∃ i ∈ items, i.Has x else ∃ i ∈ items, i.Has x

theorem itemsText_ne_nil {items : List Item} (h : items ≠ []) : ∃ c r, itemsText items = c :: r := by
  cases items with
  | nil => exact absurd rfl h
  | cons i is => cases i <;> exact ⟨_, _, rfl⟩

theorem range_set (pat : Bytes) (x : UInt8) (p : Nat) (neg : Bool) (items : List Item) (R : Bytes)
    (hp : p ≤ pat.length) (hwf : (Tok.set neg items).WF)
    (hd : pat.drop p = (Tok.set neg items).text ++ R) :
    (setOk neg items x → range pat p x = some 1) ∧ (¬ setOk neg items x → range pat p x = some 0) := by
  obtain ⟨hne, hwi, hbang⟩ := hwf
  obtain ⟨c, r, hcr⟩ := itemsText_ne_nil hne
  have hcc := itemsText_chars hwi c (by simp [hcr])
  cases neg with
  | true =>
    simp only [Tok.text, if_true, List.cons_append, List.nil_append, List.append_assoc] at hd
    have hlen := le_of_drop (u := [91, 33]) hp hd
    have hd2 := drop_add (u := [91, 33]) hd
    simp only [List.length_cons, List.length_nil] at hd2 hlen
    have h1 : ch pat (p + 1) = some BANG := by rw [ch_drop hp, hd]; rfl
    have h2 : ch pat (p + 2) = some c := by rw [ch_drop hp, hd, hcr]; rfl
    have e1 : ¬ (c = RBRACK ∧ x = RBRACK) := fun h => hcc.2.2 h.1
    have hl := rangeLoop_items pat x false R items (pat.length + 1) (p + 2) hwi (by omega) (by omega) hd2
    have : range pat p x = rangeLoop pat x false (pat.length + 1) (p + 2) := by
      simp only [range, h1, Option.bind_eq_bind, Option.bind_some, beq_self_eq_true, if_true, h2, if_neg e1,
        Bool.not_true]
    rw [this]
    simp only [setOk, if_true]
    exact ⟨fun h => hl.2 h, fun h => hl.1 (Classical.not_not.mp h)⟩
  | false =>
    simp only [Tok.text, Bool.false_eq_true, if_false, List.nil_append, List.cons_append, List.append_assoc] at hd
    have hlen := le_of_drop (u := [91]) hp hd
    have hd2 := drop_add (u := [91]) hd
    simp only [List.length_cons, List.length_nil] at hd2 hlen
    have h1 : ch pat (p + 1) = some c := by rw [ch_drop hp, hd, hcr]; rfl
    have hb : c ≠ BANG := by
      intro h
      apply hbang rfl
      rw [hcr, h]; rfl
    have hb' : (c == BANG) = false := by simpa using hb
    have e1 : ¬ (c = RBRACK ∧ x = RBRACK) := fun h => hcc.2.2 h.1
    have hl := rangeLoop_items pat x true R items (pat.length + 1) (p + 1) hwi (by omega) (by omega) hd2
    have : range pat p x = rangeLoop pat x true (pat.length + 1) (p + 1) := by
      simp only [range, h1, Option.bind_eq_bind, Option.bind_some, hb', Bool.false_eq_true, if_false, if_neg e1,
        Bool.not_false]
    rw [this]
    simp only [setOk, Bool.false_eq_true, if_false]
    exact ⟨fun h => hl.1 h, fun h => hl.2 h⟩

theorem stepRange_set (pat : Bytes) (p a : Nat) (ac : UInt8) (rest) (neg : Bool) (items : List Item) (R : Bytes)
    (hp : p ≤ pat.length) (hwf : (Tok.set neg items).WF)
    (hd : pat.drop p = (Tok.set neg items).text ++ R) :
    (setOk neg items ac →
      stepRange pat p a ac rest = some (.cont ((p + (Tok.set neg items).text.length, a + 1) :: rest))) ∧
    (¬ setOk neg items ac → stepRange pat p a ac rest = some (.cont rest)) := by
  have hrs := range_set pat ac p neg items R hp hwf hd
  refine ⟨fun h => ?_, fun h => ?_⟩
  · obtain ⟨hne, hwi, hbang⟩ := hwf
    obtain ⟨c, r, hcr⟩ := itemsText_ne_nil hne
    have hcc := itemsText_chars hwi
    let mid := (if neg then [33] else []) ++ itemsText items
    have hd' : pat.drop p = (91 :: mid) ++ (93 :: R) := by
      rw [hd]; simp [Tok.text, mid]
    have hmid : ∀ c ∈ (91 :: mid), inBrack c = true := by
      intro c hc
      simp only [List.mem_cons, mid, List.mem_append] at hc
      rcases hc with rfl | hc | hc
      · decide
      · split at hc
        · simp at hc; subst hc; decide
        · simp at hc
      · have := hcc c hc
        simp [inBrack, this]
    have hscan : scan inBrack pat p = some (p + (91 :: mid).length) :=
      scan_eq hp hd' hmid (by intro c r' h; simp at h; rw [← h.1]; decide)
    have hlen := le_of_drop hp hd'
    have hc1 : ∃ c1, ch pat (p + 1) = some c1 ∧ c1 ≠ RBRACK := by
      rw [ch_drop hp, hd']
      cases neg with
      | true => exact ⟨33, rfl, by decide⟩
      | false => exact ⟨c, by simp [mid, hcr], (hcc c (by simp [hcr])).2.2⟩
    obtain ⟨c1, hc1, hc1n⟩ := hc1
    have hq : ch pat (p + (91 :: mid).length) = some RBRACK := by
      rw [ch_drop0 (by simp at hlen ⊢; omega), drop_add hd']; rfl
    have htl : p + (Tok.set neg items).text.length = p + (91 :: mid).length + 1 := by
      simp [Tok.text, mid]; omega
    simp only [stepRange, hrs.1 h, Option.bind_eq_bind, Option.bind_some, hc1, if_neg hc1n, hscan, hq, if_true, htl]
    rfl
  · simp only [stepRange, hrs.2 h, Option.bind_eq_bind, Option.bind_some, if_true]
    rfl

/-! ## Braces -/

theorem strncmpEq_eq (pat addr : Bytes) : ∀ (u R : Bytes) (i j : Nat), i ≤ pat.length → j ≤ addr.length →
    pat.drop i = u ++ R → (0 : UInt8) ∉ u → strncmpEq pat addr i j u.length = some (u.isPrefixOf (addr.drop j)) := by
  intro u
  induction u with
  | nil => intro R i j _ _ _ _; simp [strncmpEq]
  | cons c u ih =>
    intro R i j hi hj hd h0
    have hlen := le_of_drop hi hd
    simp only [List.length_cons] at hlen
    have hc : ch pat i = some c := by rw [ch_drop0 hi, hd]; rfl
    have hc0 : c ≠ 0 := fun h => h0 (by simp [h])
    simp only [List.length_cons, strncmpEq, hc, Option.bind_eq_bind, Option.bind_some]
    rw [ch_drop0 hj]
    by_cases hjl : j < addr.length
    · rw [List.drop_eq_getElem_cons hjl]
      simp only [List.cons_append, List.getElem?_cons_zero, Option.bind_some]
      by_cases hcd : c = addr[j]
      · simp only [hcd, if_true, List.isPrefixOf_cons_cons, beq_self_eq_true, Bool.true_and]
        rw [← hcd, if_neg hc0]
        exact ih R (i + 1) (j + 1) (by omega) (by omega) (drop_add (u := [c]) hd) (fun h => h0 (by simp [h]))
      · simp only [if_neg hcd, List.isPrefixOf_cons_cons]
        rw [show (c == addr[j]) = false by simpa using hcd]
        rfl
    · have : addr.drop j = [] := List.drop_eq_nil_of_le (by omega)
      rw [this]
      simp [hc0]

theorem altPushes_skip (pat addr : Bytes) (aa rest : Nat) : ∀ (v R : Bytes) (n p1 p2 : Nat),
    p2 ≤ pat.length → pat.drop p2 = v ++ R → (∀ c ∈ v, c ≠ 0 ∧ c ≠ 47 ∧ c ≠ 44 ∧ c ≠ 125) →
    altPushes pat addr aa rest (n + v.length) p1 p2 = altPushes pat addr aa rest n p1 (p2 + v.length) := by
  intro v
  induction v with
  | nil => intro R n p1 p2 _ _ _; rfl
  | cons c v ih =>
    intro R n p1 p2 hp hd hv
    have hlen := le_of_drop hp hd
    simp only [List.length_cons] at hlen ⊢
    have hc : ch pat p2 = some c := by rw [ch_drop0 hp, hd]; rfl
    obtain ⟨h0, hs, hcm, hrb⟩ := hv c (by simp)
    have e1 : ¬ (c = SLASH ∨ c = 0) := fun h => h.elim hs h0
    have e2 : ¬ (c = COMMA ∨ c = RBRACE) := fun h => h.elim hcm hrb
    rw [← Nat.add_assoc]
    rw [show altPushes pat addr aa rest (n + v.length + 1) p1 p2 =
      altPushes pat addr aa rest (n + v.length) p1 (p2 + 1) by
        simp only [altPushes, hc, Option.bind_eq_bind, Option.bind_some, if_neg e1, if_neg e2]]
    rw [ih R n p1 (p2 + 1) (by omega) (drop_add (u := [c]) hd) (fun c hc => hv c (by simp [hc]))]
    congr 1
    omega

/-- The states pushed for the alternatives `as` when the remaining address text is `t`. -/
def altStates (as : List Bytes) (t : Bytes) (aa rest : Nat) : List (Nat × Nat) :=
  (as.filter fun u => u.isPrefixOf t).map fun u => (rest, aa + u.length)

theorem altPushes_eq (pat addr : Bytes) (aa rest : Nat) (haa : aa ≤ addr.length) (R : Bytes) :
    ∀ (as : List Bytes) (n p : Nat), as ≠ [] → (∀ u ∈ as, ∀ c ∈ u, c ≠ 0 ∧ c ≠ 47 ∧ c ≠ 44 ∧ c ≠ 125) →
      p ≤ pat.length → pat.length + 1 ≤ n + p → pat.drop p = altsText as ++ R →
      altPushes pat addr aa rest n p p = some (altStates as (addr.drop aa) aa rest) := by
  intro as
  induction as with
  | nil => intro n p h; exact absurd rfl h
  | cons u as ih =>
    intro n p _ hwf hp hn hd
    have hu := hwf u (by simp)
    have hu0 : (0 : UInt8) ∉ u := fun h => (hu 0 h).1 rfl
    cases as with
    | nil =>
      simp only [altsText, List.append_assoc] at hd
      have hlen := le_of_drop hp hd
      simp only [List.length_append, List.length_cons, List.length_nil] at hlen
      obtain ⟨m, rfl⟩ : ∃ m, n = (m + 1) + u.length := ⟨n - u.length - 1, by omega⟩
      rw [altPushes_skip pat addr aa rest u _ (m + 1) p p hp hd hu]
      have e1 : ¬ (RBRACE = SLASH ∨ RBRACE = 0) := by decide
      have e2 : (RBRACE = RBRACE) = True := by simp
      have hq : ch pat (p + u.length) = some RBRACE := by
        rw [ch_drop0 (by omega), drop_add hd]; rfl
      have hs : strncmpEq pat addr p aa u.length = some (u.isPrefixOf (addr.drop aa)) := by
        exact strncmpEq_eq pat addr u _ p aa hp haa hd hu0
      simp only [altPushes, hq, Option.bind_eq_bind, Option.bind_some, hs, if_neg e1, e2, or_true, if_true, Nat.add_sub_cancel_left,
        altStates, List.filter_cons, List.filter_nil]
      split <;> rfl
    | cons v as =>
      simp only [altsText, List.append_assoc, List.cons_append] at hd
      have hlen := le_of_drop hp hd
      simp only [List.length_append, List.length_cons] at hlen
      obtain ⟨m, rfl⟩ : ∃ m, n = (m + 1) + u.length := ⟨n - u.length - 1, by omega⟩
      rw [altPushes_skip pat addr aa rest u _ (m + 1) p p hp hd hu]
      have hd1 := drop_add hd
      have e1 : ¬ (COMMA = SLASH ∨ COMMA = 0) := by decide
      have e2 : ¬ (COMMA = RBRACE) := by decide
      have hq : ch pat (p + u.length) = some COMMA := by
        rw [ch_drop0 (by omega), hd1]; rfl
      have hs : strncmpEq pat addr p aa u.length = some (u.isPrefixOf (addr.drop aa)) := by
        exact strncmpEq_eq pat addr u _ p aa hp haa hd hu0
      have hrec := ih m (p + u.length + 1) (by simp) (fun w hw => hwf w (List.mem_cons_of_mem _ hw)) (by omega) (by omega)
        (drop_add (u := [44]) hd1)
      simp only [altPushes, hq, Option.bind_eq_bind, Option.bind_some, hs, hrec, if_neg e1, if_neg e2, true_or, if_true,
        Nat.add_sub_cancel_left,
        altStates, List.filter_cons]
      split <;> rfl

theorem altsText_split (as : List Bytes) (h : as ≠ []) (hwf : ∀ u ∈ as, ∀ c ∈ u, c ≠ 0 ∧ c ≠ 47 ∧ c ≠ 44 ∧ c ≠ 125) :
    ∃ m, altsText as = m ++ [125] ∧ ∀ c ∈ m, inBrace c = true := by
  induction as with
  | nil => exact absurd rfl h
  | cons u as ih =>
    have hu : ∀ c ∈ u, inBrace c = true := by
      intro c hc; have := hwf u (by simp) c hc; simp [inBrace, this]
    cases as with
    | nil => exact ⟨u, rfl, hu⟩
    | cons v as =>
      obtain ⟨m, hm, hm'⟩ := ih (by simp) (fun w hw => hwf w (List.mem_cons_of_mem _ hw))
      refine ⟨u ++ 44 :: m, by simp [altsText, hm], ?_⟩
      intro c hc
      simp at hc
      rcases hc with hc | rfl | hc
      · exact hu c hc
      · decide
      · exact hm' c hc

theorem stepBrace_alts (pat addr : Bytes) (p a : Nat) (rest) (as : List Bytes) (R : Bytes)
    (hp : p ≤ pat.length) (ha : a ≤ addr.length) (hwf : (Tok.alts as).WF)
    (hd : pat.drop p = (Tok.alts as).text ++ R) :
    stepBrace pat addr p a rest =
      some (pushAll (altStates as (addr.drop a) a (p + (Tok.alts as).text.length)) rest p a) := by
  obtain ⟨hne, hw⟩ := hwf
  obtain ⟨m, hm, hm'⟩ := altsText_split as hne hw
  simp only [Tok.text, List.cons_append] at hd
  have hd' : pat.drop p = (123 :: m) ++ (125 :: R) := by rw [hd, hm]; simp
  have hscan : scan inBrace pat p = some (p + (123 :: m).length) :=
    scan_eq hp hd' (by
      intro c hc
      simp at hc
      rcases hc with rfl | hc
      · decide
      · exact hm' c hc) (by intro c r' h; simp at h; rw [← h.1]; decide)
  have hlen := le_of_drop hp hd'
  simp only [List.length_cons] at hlen
  have hq : ch pat (p + (123 :: m).length) = some RBRACE := by
    rw [ch_drop0 (by simp; omega), drop_add hd']; rfl
  have hrest : p + (123 :: m).length + 1 = p + (Tok.alts as).text.length := by
    simp [Tok.text, hm]; omega
  have halt := altPushes_eq pat addr a (p + (Tok.alts as).text.length) ha R as (pat.length + 1) (p + 1) hne hw (by omega)
    (by omega) (drop_add (u := [123]) hd)
  simp only [stepBrace, hscan, hq, Option.bind_eq_bind, Option.bind_some, if_true, hrest, halt]
  rfl

end Libo.Match
