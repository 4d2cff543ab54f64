import Verif.ExprScanTokens
/-!
# What the scanner of expressions makes of words and strings, and of what is between the tokens
-/

namespace Libo.Syn
open Libo
open Libo.Text (ch oneOf noneOf range word plus seqs alts digit dot floatConst hexRe Env Buf addEsc strtol strtoul16 forall_byte plainByte)

/-! ### Words -/

/-- The rules that cannot match at the beginning of a word. -/
def otherRules : List (Re × Act) := (rules.drop 1).take 20 ++ (rules.drop 22).take 6 ++ (rules.drop 32).take 1 ++ rules.drop 34

theorem other_first : (otherRules.all fun x => !x.1.nullable && (List.range 256).all fun n =>
    !x.1.first (UInt8.ofNat n) || !wordChar (UInt8.ofNat n) || isDigit (UInt8.ofNat n)) = true := by decide +kernel

/-- The rules before the one for words. -/
def wordPre : List (Re × Act) := [(.seq (ch 35) (.star dot), Act.skip)] ++ ((rules.drop 1).take 20 ++ ([(quoteRe, Act.quoteFn)] ++ ((rules.drop 22).take 6 ++
  ([(three (n! "true") (n! "True") (n! "TRUE"), Act.tru), (three (n! "false") (n! "False") (n! "FALSE"), .fls),
    (three (n! "nil") (n! "Nil") (n! "NIL"), .nil), (word (n! "lambda"), .tok .lambda)] ++ (rules.drop 32).take 1))))

theorem rules_split : rules = wordPre ++ (wordRe, Act.word) :: rules.drop 34 := rfl

theorem other_none {c : UInt8} {s : Bytes} (hc : wordChar c = true) (hd : isDigit c = false) {x : Re × Act} (hx : x ∈ otherRules) :
    x.1.longest (c :: s) = none := by
  have h := List.all_eq_true.mp other_first x hx
  simp only [Bool.and_eq_true, Bool.not_eq_true'] at h
  have h2 := List.all_eq_true.mp h.2 c.toNat (by simpa using c.toNat_lt)
  rw [UInt8.ofNat_toNat, hc, hd] at h2
  exact Re.longest_first h.1 (by simpa using h2)

/-- A word of word characters that begins the text is a beginning of the word. -/
theorem word_prefix {w s z y : Bytes} (hs : ∀ c, s.head? = some c → wordChar c = false) (hz : ∀ c ∈ z, wordChar c = true)
    (e : w ++ s = z ++ y) : ∃ v, w = z ++ v := by
  rcases List.append_eq_append_iff.mp e with ⟨u, h1, h2⟩ | ⟨u, h1, _⟩
  · cases u with
    | nil => exact ⟨[], by simpa using h1.symm⟩
    | cons c u =>
      have := hz c (by simp [h1])
      rw [hs c (by rw [h2]; rfl)] at this; cases this
  · exact ⟨u, h1⟩

theorem keyword_less {w s z : Bytes} {k : Nat} (hs : ∀ c, s.head? = some c → wordChar c = false) (hz : ∀ c ∈ z, wordChar c = true) (hne : w ≠ z)
    (hk : k ≤ (w ++ s).length) (e : (w ++ s).take k = z) : k < w.length := by
  obtain ⟨v, hv⟩ := word_prefix (y := (w ++ s).drop k) hs hz (by rw [← e, List.take_append_drop])
  have h1 : z.length = k := by rw [← e, List.length_take, Nat.min_eq_left hk]
  have h2 : v ≠ [] := by rintro rfl; exact hne (by simpa using hv)
  have h3 := List.length_pos_iff.mpr h2
  rw [hv, List.length_append]; omega

theorem scan_word (E : Env) {w s : Bytes} {c : UInt8} (hw : ∀ d ∈ c :: w, wordChar d = true ∧ 32 ≤ d) (hd : isDigit c = false) (h35 : c ≠ 35)
    (hk : c :: w ∉ keywords) (hq : c :: w ≠ n! "quote") (hs : ∀ c, s.head? = some c → wordChar c = false) :
    scan E 0 false none (c :: w ++ s) = (scan E 0 false none s).map (.str (c :: w) :: ·) := by
  have hc := (hw c (by simp)).1
  have hm : wordRe.M (c :: w) := by
    refine .seq (u := [c]) (.cls ?_) (Text.m_star_cls fun d hd => ?_)
    · revert hd hc
      exact forall_byte (p := fun c => isDigit c = false → wordChar c = true →
        (!([48, 49, 50, 51, 52, 53, 54, 55, 56, 57] ++ wordStop).contains c) = true) (by decide +kernel) c
    · exact (hw d (by simp [hd])).1
  have hl : wordRe.longest (c :: w ++ s) = some (w.length + 1) := by
    have := Re.longest_derivs (z := []) (u := c :: w) (v := s) (p := fun _ => true) (r := wordRe) hm (fun _ _ => rfl)
      (excludes_next (x := wordChar) (by decide +kernel) hs)
    simpa using this
  have ho : ∀ x ∈ otherRules, ∀ k, x.1.longest (c :: w ++ s) = some k → k < w.length + 1 := fun x hx k hk => by
    rw [List.cons_append, other_none hc hd hx] at hk; cases hk
  have hkw : ∀ z, (z ∈ keywords) → ∀ k, k ≤ (c :: w ++ s).length → (c :: w ++ s).take k = z → k < w.length + 1 := fun z hz k h1 h2 => by
    have hz' : ∀ c ∈ z, wordChar c = true := by
      have : ∀ z ∈ keywords, ∀ c ∈ z, wordChar c = true := by decide +kernel
      exact this z hz
    exact keyword_less (w := c :: w) hs hz' (fun e => hk (e ▸ hz)) h1 h2
  have h3 : ∀ x y z : Bytes, x ∈ keywords → y ∈ keywords → z ∈ keywords → ∀ k, (three x y z).longest (c :: w ++ s) = some k → k < w.length + 1 := by
    intro x y z hx hy hz k h
    obtain ⟨h1, h2, _⟩ := Re.longest_spec h
    rcases Re.m_alt.mp h2 with h2 | h2
    · exact hkw x hx k h1 (Text.m_word_eq _ h2)
    · rcases Re.m_alt.mp h2 with h2 | h2
      · exact hkw y hy k h1 (Text.m_word_eq _ h2)
      · exact hkw z hz k h1 (Text.m_word_eq _ h2)
  have hp : Re.pick rules (c :: w ++ s) = some (w.length + 1, .word) := by
    rw [rules_split]
    refine Text.pick_at hl (fun x hx k hk => Nat.le_of_lt (ho x ?_ k hk)) _ ?_
    · simp only [otherRules, List.mem_append]; exact .inr hx
    · intro x hx
      simp only [wordPre, List.mem_append] at hx
      rcases hx with hx | hx | hx | hx | hx | hx
      · simp only [List.mem_singleton] at hx
        subst hx
        intro k hk
        rw [List.cons_append, Re.longest_first rfl (by simp [Re.first, ch, h35, Re.nullable])] at hk
        cases hk
      · exact ho x (by simp only [otherRules, List.mem_append]; exact .inl (.inl (.inl hx)))
      · simp only [List.mem_singleton] at hx
        subst hx
        intro k hk
        obtain ⟨h1, h2, _⟩ := Re.longest_spec hk
        obtain ⟨u, v, e, h4, h5⟩ := Re.m_seq.mp h2
        have hu := Text.m_word_eq _ h4
        subst hu
        obtain ⟨y, e2⟩ := word_prefix (w := c :: w) (s := s) (z := n! "quote") (y := v ++ (c :: w ++ s).drop k) hs (by decide) (by
          rw [← List.append_assoc, ← e, List.take_append_drop])
        cases y with
        | nil => exact absurd (by simpa using e2) hq
        | cons d y =>
          have hd' := hw d (by rw [e2]; simp)
          have h6 : ∃ v', v = d :: v' := by
            have e3 : (c :: w ++ s) = n! "quote" ++ (v ++ (c :: w ++ s).drop k) := by rw [← List.append_assoc, ← e, List.take_append_drop]
            rw [e2, List.append_assoc] at e3
            have e4 := List.append_cancel_left e3
            cases v with
            | nil =>
              obtain ⟨a, b, e5, _, h7⟩ := Re.m_seq.mp h5
              obtain ⟨f, rfl, _⟩ := Re.m_cls.mp h7
              simp at e5
            | cons f v =>
              simp only [List.cons_append, List.cons.injEq] at e4
              exact ⟨v, by rw [e4.1]⟩
          obtain ⟨v', rfl⟩ := h6
          have h7 := Re.m_first h5 d v' rfl
          exfalso
          revert h7
          have h8 : ∀ d : UInt8, wordChar d = true → 32 ≤ d → (seqs [.star spaces, ch 40]).first d = false :=
            fun d => forall_byte (p := fun d => wordChar d = true → 32 ≤ d → (seqs [.star spaces, ch 40]).first d = false) (by decide +kernel) d
          rw [h8 d hd'.1 hd'.2]
          decide
      · exact ho x (by simp only [otherRules, List.mem_append]; exact .inl (.inl (.inr hx)))
      · simp only [List.mem_cons, List.not_mem_nil, or_false] at hx
        rcases hx with rfl | rfl | rfl | rfl
        · exact h3 _ _ _ (by decide) (by decide) (by decide)
        · exact h3 _ _ _ (by decide) (by decide) (by decide)
        · exact h3 _ _ _ (by decide) (by decide) (by decide)
        · intro k h
          obtain ⟨h1, h2, _⟩ := Re.longest_spec h
          exact hkw _ (by decide) k h1 (Text.m_word_eq _ h2)
      · exact ho x (by simp only [otherRules, List.mem_append]; exact .inl (.inr hx))
  rw [List.cons_append] at hp ⊢
  rw [scan]
  simp only [Bool.false_eq_true, if_false, hp, take_fixed, Nat.add_sub_cancel, scan_skip' E false none rfl]

/-! ### Strings -/

theorem no_quote_run {u s : Bytes} (hu : 34 ∉ u) (hne : u ≠ []) : (plus (noneOf [34])).longest (u ++ 34 :: s) = some u.length :=
  Text.longest_plus hne (fun c hc => by
    have : c ≠ 34 := by rintro rfl; exact hu hc
    simp [this]) (fun c w e => by simp only [List.cons.injEq] at e; rw [← e.1]; decide)

theorem pick_run {u s : Bytes} (hu : 34 ∉ u) (hne : u ≠ []) (hlast : u.getLast? ≠ some 92) :
    Re.pick quoteRules (u ++ 34 :: s) = some (u.length, .run) := by
  refine Re.pick_cons_some (no_quote_run hu hne) ?_
  intro x hx k hk
  simp only [List.mem_cons, List.not_mem_nil, or_false] at hx
  have h0 := List.length_pos_iff.mpr hne
  rcases hx with rfl | rfl
  · have := Text.longest_cls_le hk; omega
  · obtain ⟨h1, h2, _⟩ := Re.longest_spec hk
    obtain ⟨p, d, e, hp, _⟩ := Text.m_esc h2
    rcases Nat.lt_or_ge u.length k with hk' | hk'
    · exfalso
      obtain ⟨j, rfl⟩ : ∃ j, k = u.length + (j + 1) := ⟨k - u.length - 1, by omega⟩
      rw [List.take_length_add_append, List.take_succ_cons] at e
      rcases List.append_eq_append_iff.mp e with ⟨v, h3, h4⟩ | ⟨v, h3, h4⟩
      · cases v with
        | nil => simp at h4
        | cons f v =>
          simp only [List.cons_append, List.cons.injEq] at h4
          have := hp 34 (by rw [h3, h4.1]; simp)
          exact absurd this (by decide)
      · cases v with
        | nil => simp at h4
        | cons f v =>
          simp only [List.cons_append, List.cons.injEq] at h4
          cases v with
          | nil => exact hlast (by rw [h3, ← h4.1]; simp)
          | cons g v =>
            have := congrArg List.length h4.2
            simp at this
    · exact hk'

theorem pick_esc {p s : Bytes} (hp : ∀ c ∈ p, plainByte c = true) : Re.pick quoteRules (p ++ [92, 34] ++ s) = some (p.length + 2, .esc) := by
  refine Text.pick_at (pre := [(plus (noneOf [34]), Act.run), (ch 34, .unquote)]) (post := []) (Text.longest_esc hp (by decide)) (by simp) ?_
  intro x hx k hk
  simp only [List.mem_cons, List.not_mem_nil, or_false] at hx
  rcases hx with rfl | rfl
  · have h34 : 34 ∉ p ++ [92] := by
      intro h
      rcases List.mem_append.mp h with h | h
      · exact absurd (hp 34 h) (by decide)
      · simp at h
    have e : p ++ [92, 34] ++ s = (p ++ [92]) ++ 34 :: s := by simp
    rw [e, no_quote_run h34 (by simp)] at hk
    simp only [List.length_append, List.length_singleton, Option.some.injEq] at hk
    omega
  · have := Text.longest_cls_le hk; omega

theorem pick_unquote {s : Bytes} : Re.pick quoteRules (34 :: s) = some (1, .unquote) := by
  rw [Text.pick_filter]
  exact Re.pick_cons_some (rs := []) (Text.longest_cls (by decide)) (by simp)

theorem scan_unquote (E : Env) (s t : Bytes) (e : Nat) :
    scan E 0 true (some (t, e)) (34 :: s) = (scan E 0 false none s).map (.str t :: ·) := by
  rw [scan]
  simp only [if_true, pick_unquote]

theorem scan_unquote_none (E : Env) (s : Bytes) : scan E 0 true none (34 :: s) = scan E 0 false none s := by
  rw [scan]
  simp only [if_true, pick_unquote]

theorem scan_run (E : Env) {p : Bytes} (s : Bytes) (hne : p ≠ []) (hp : 34 ∉ p) (hlast : p.getLast? ≠ some 92) (b : Option Bytes) :
    scan E 0 true (b.map fun t => (t, 0)) (p ++ 34 :: s) = (scan E 0 false none s).map (.str (b.getD [] ++ p) :: ·) := by
  obtain ⟨c, p, rfl⟩ := List.exists_cons_of_ne_nil hne
  have hk := pick_run (s := s) hp hne hlast
  rw [List.cons_append] at hk ⊢
  rw [scan]
  have ht : (c :: (p ++ 34 :: s)).take (c :: p).length = c :: p := take_fixed
  simp only [if_true, hk, ht]
  cases b with
  | none =>
    simp only [Option.map_none, List.length_cons, Nat.add_sub_cancel]
    rw [scan_skip' E true none rfl, scan_unquote_none]; rfl
  | some t =>
    simp only [Option.map_some, List.length_cons, Nat.add_sub_cancel]
    rw [scan_skip' E true _ rfl, scan_unquote]; rfl

theorem scan_esc (E : Env) {p : Bytes} (s : Bytes) (hp : ∀ c ∈ p, plainByte c = true) (b : Buf) :
    scan E 0 true b (p ++ [92, 34] ++ s) = scan E 0 true (addEsc b (p ++ [92, 34])) s := by
  have hk := pick_esc (s := s) hp
  obtain ⟨d, r, hd⟩ : ∃ d r, p ++ [92, 34] = d :: r := by cases p <;> exact ⟨_, _, rfl⟩
  have hl : r.length + 1 = p.length + 2 := by
    have := congrArg List.length hd; simpa using this.symm
  rw [hd, List.cons_append] at hk ⊢
  rw [scan]
  have ht : (d :: (r ++ s)).take (p.length + 2) = d :: r := by
    rw [← hl]; exact take_fixed
  simp only [if_true, hk, ht]
  rw [scan_skip' E true _ (by omega)]

theorem escaped_plain : ∀ {p : Bytes}, 34 ∉ p → escaped p = p
  | [], _ => rfl
  | c :: p, h => by
    have hc : c ≠ 34 := by rintro rfl; simp at h
    have := escaped_plain (p := p) fun hp => h (by simp [hp])
    simp only [escaped, List.flatMap_cons, if_neg hc] at this ⊢
    rw [this]; rfl

theorem split_quote : ∀ (s : Bytes), 34 ∉ s ∨ ∃ p t, s = p ++ 34 :: t ∧ 34 ∉ p
  | [] => .inl (by simp)
  | c :: s => by
    by_cases hc : c = 34
    · exact .inr ⟨[], s, by rw [hc]; rfl, by simp⟩
    · rcases split_quote s with h | ⟨p, t, rfl, hp⟩
      · refine .inl fun hm => ?_
        rcases List.mem_cons.mp hm with e | hm
        · exact hc e.symm
        · exact h hm
      · refine .inr ⟨c :: p, t, rfl, fun hm => ?_⟩
        rcases List.mem_cons.mp hm with e | hm
        · exact hc e.symm
        · exact hp hm

theorem scan_body (E : Env) (r : Bytes) : ∀ (n : Nat) (s : Bytes), s.length ≤ n → 92 ∉ s → ∀ (b : Option Bytes), (b ≠ none ∨ s ≠ []) →
    scan E 0 true (b.map fun t => (t, 0)) (escaped s ++ 34 :: r) = (scan E 0 false none r).map (.str (b.getD [] ++ s) :: ·) := by
  intro n
  induction n with
  | zero =>
    intro s hs _ b hb
    obtain rfl : s = [] := List.length_eq_zero_iff.mp (by omega)
    cases b with
    | none => simp at hb
    | some t =>
      rw [show escaped [] = [] from rfl, List.nil_append, Option.map_some, scan_unquote, List.append_nil]; rfl
  | succ n ih =>
    intro s hs h92 b hb
    rcases split_quote s with h | ⟨p, t, rfl, hp⟩
    · by_cases hne : s = []
      · subst hne
        exact ih [] (by simp) (by simp) b hb
      · rw [escaped_plain h, scan_run E r hne h]
        intro e
        exact h92 (List.mem_of_getLast? e)
    · have hpl : ∀ c ∈ p, plainByte c = true := fun c hc => by
        have h1 : c ≠ 34 := by rintro rfl; exact hp hc
        have h2 : c ≠ 92 := by rintro rfl; exact h92 (by simp [hc])
        simp [plainByte, h1, h2]
      have e : escaped (p ++ 34 :: t) ++ 34 :: r = p ++ [92, 34] ++ (escaped t ++ 34 :: r) := by
        have := escaped_plain hp
        simp only [escaped] at this ⊢
        rw [List.flatMap_append, this]
        simp [List.flatMap_cons]
      rw [e, scan_esc E _ hpl, Text.addEsc_eq]
      have hlen : t.length ≤ n := by simp only [List.length_append, List.length_cons] at hs; omega
      have ht : 92 ∉ t := fun h => h92 (by simp [h])
      cases b with
      | none =>
        have := ih t hlen ht (some (p ++ [34])) (.inl (by simp))
        simp only [Option.map_none]
        simp only [Option.map_some, Option.getD_some] at this
        rw [this]
        simp
      | some u =>
        have := ih t hlen ht (some (u ++ (p ++ [34]))) (.inl (by simp))
        simp only [Option.map_some, Option.getD_some] at this ⊢
        rw [this]
        simp

theorem scan_open (E : Env) {s : Bytes} (hs : ∀ c, s.head? = some c → (c == 34) = false) :
    scan E 0 false none (34 :: s) = scan E 0 true none s := by
  have hp : Re.pick rules (34 :: s) = some (1, .quote) := by
    have := pick_fixed (c := 34) (w := []) (x := fun c => c == 34) (by decide +kernel) hs
    rw [List.singleton_append] at this
    rw [this]; rfl
  rw [scan]
  simp only [Bool.false_eq_true, if_false, hp]

theorem scan_empty (E : Env) (s : Bytes) : scan E 0 false none (34 :: 34 :: s) = (scan E 0 false none s).map (.str [] :: ·) := by
  have hp : Re.pick rules (34 :: 34 :: s) = some (2, .empty) := by
    have := pick_fixed (c := 34) (w := [34]) (s := s) (x := fun _ => false) (by decide +kernel) (fun _ _ => rfl)
    rw [show 34 :: [34] ++ s = 34 :: 34 :: s from rfl] at this
    rw [this]; rfl
  rw [scan]
  simp only [Bool.false_eq_true, if_false, hp]
  rw [show (2 - 1 : Nat) = 0 + 1 from rfl, scan]

theorem scan_str (E : Env) {s r : Bytes} (h : 92 ∉ s) :
    scan E 0 false none (34 :: (escaped s ++ [34]) ++ r) = (scan E 0 false none r).map (.str s :: ·) := by
  rw [List.cons_append, List.append_assoc, List.singleton_append]
  by_cases hs : s = []
  · subst hs
    exact scan_empty E r
  · rw [scan_open E]
    · exact scan_body E r s.length s (Nat.le_refl _) h none (.inr hs)
    · obtain ⟨c, t, rfl⟩ := List.exists_cons_of_ne_nil hs
      intro d hd
      simp only [escaped, List.flatMap_cons] at hd
      split at hd
      · simp only [List.cons_append, List.head?_cons, Option.some.injEq] at hd
        subst hd; rfl
      · rename_i hc
        simp only [List.cons_append, List.head?_cons, Option.some.injEq] at hd
        subst hd; simpa using hc

theorem scan_raw (E : Env) {s r : Bytes} (hne : s ≠ []) (h : 34 ∉ s) (hlast : s.getLast? ≠ some 92) :
    scan E 0 false none (34 :: (s ++ [34]) ++ r) = (scan E 0 false none r).map (.str s :: ·) := by
  rw [List.cons_append, List.append_assoc, List.singleton_append, scan_open E]
  · exact scan_run E r hne h hlast none
  · obtain ⟨c, t, rfl⟩ := List.exists_cons_of_ne_nil hne
    intro d hd
    simp only [List.cons_append, List.head?_cons, Option.some.injEq] at hd
    subst hd
    have : c ≠ 34 := by rintro rfl; simp at h
    simpa using this

/-! ### Quoted expressions -/

theorem closing_balanced {s : Bytes} (h : Balanced s) : ∀ (n : Nat) (p : UInt8), p ≠ 92 →
    ∃ p', p' ≠ 92 ∧ ∀ r, closing (n + 1) p (s ++ r) = (closing (n + 1) p' r).map (· + s.length) := by
  have hmap : ∀ (o : Option Nat) (a b : Nat), (o.map (· + a)).map (· + b) = o.map (· + (a + b)) := by
    intro o a b; cases o <;> simp [Nat.add_assoc]
  induction h with
  | nil => intro n p hp; exact ⟨p, hp, fun r => by simp⟩
  | @chr c s h1 h2 h3 _ ih =>
    intro n p hp
    obtain ⟨p', hp', h⟩ := ih n c h3
    refine ⟨p', hp', fun r => ?_⟩
    rw [List.cons_append, closing]
    simp only [h1, h2, false_and, if_false, Nat.add_one_ne_zero]
    rw [h, hmap, List.length_cons]
  | @paren s t _ _ ih1 ih2 =>
    intro n p hp
    obtain ⟨p1, hp1, g1⟩ := ih1 (n + 1) 40 (by decide)
    obtain ⟨p2, hp2, g2⟩ := ih2 n 41 (by decide)
    refine ⟨p2, hp2, fun r => ?_⟩
    rw [List.cons_append, closing]
    simp only [show (40 : UInt8) ≠ 41 by decide, false_and, if_false, ne_eq, hp, not_false_eq_true, and_self, if_true, Nat.add_one_ne_zero]
    rw [List.append_assoc, g1, List.cons_append, closing]
    simp only [ne_eq, hp1, not_false_eq_true, and_self, if_true, Nat.add_sub_cancel, Nat.add_one_ne_zero, if_false]
    rw [g2, hmap, hmap, hmap]
    congr 1
    funext x
    simp only [List.length_cons, List.length_append]; omega

theorem scan_quoted (E : Env) {s r : Bytes} (h : Balanced s) :
    scan E 0 false none (n! "quote(" ++ (s ++ [41]) ++ r) = (scan E 0 false none r).map (.quoted s :: ·) := by
  obtain ⟨p, hp, hcl⟩ := closing_balanced h 0 40 (by decide)
  have hc : closing 1 40 (s ++ 41 :: r) = some (s.length + 1) := by
    rw [hcl, closing]
    simp only [ne_eq, hp, not_false_eq_true, and_self, if_true, Option.map_some]
    simp [Nat.add_comm]
  have hpk : Re.pick rules (113 :: ([117, 111, 116, 101, 40] ++ (s ++ 41 :: r))) = some (6, .quoteFn) := by
    have := pick_fixed (c := 113) (w := [117, 111, 116, 101, 40]) (s := s ++ 41 :: r) (x := fun _ => false) (by decide +kernel) (fun _ _ => rfl)
    rw [List.cons_append] at this
    rw [this]; rfl
  have e : n! "quote(" ++ (s ++ [41]) ++ r = 113 :: ([117, 111, 116, 101, 40] ++ (s ++ 41 :: r)) := by simp
  rw [e, scan]
  simp only [Bool.false_eq_true, if_false, hpk]
  have hd : (113 :: ([117, 111, 116, 101, 40] ++ (s ++ 41 :: r))).drop 6 = s ++ 41 :: r := rfl
  rw [hd, hc]
  simp only [Nat.add_sub_cancel, List.take_left]
  rw [scan_skip, show [117, 111, 116, 101, 40] ++ (s ++ 41 :: r) = ([117, 111, 116, 101, 40] ++ s ++ [41]) ++ r by simp,
    show (6 - 1 + (s.length + 1) : Nat) = ([117, 111, 116, 101, 40] ++ s ++ [41]).length by simp; omega, List.drop_left]

/-! ### Space and comments -/

/-- A byte skipped between tokens. -/
def isWs (c : UInt8) : Bool := [32, 9, 10].contains c

theorem scan_ws_all (E : Env) (s : Bytes) {c : UInt8} (h : isWs c = true) :
    scan E 0 false none (c :: s) = scan E 0 false none (s.dropWhile isWs) := by
  have hp : Re.pick rules (c :: s) = some ((s.takeWhile isWs).length + 1, .skip) := by
    have hl : spaceRe.longest (c :: s) = some ((s.takeWhile isWs).length + 1) := by
      have := Text.longest_plus (p := isWs) (u := c :: s.takeWhile isWs) (v := s.dropWhile isWs) (by simp)
        (fun d hd => by
          rcases List.mem_cons.mp hd with rfl | hd
          · exact h
          · exact Text.takeWhile_all s d hd)
        (fun d w e => Text.dropWhile_head s d w e)
      rw [List.cons_append, List.takeWhile_append_dropWhile] at this
      exact this
    rw [Text.pick_filter]
    have h1 : Re.pick [(spaceRe, Act.skip)] (c :: s) = some ((s.takeWhile isWs).length + 1, .skip) :=
      Re.pick_cons_some hl (by simp)
    have h' : c = 32 ∨ c = 9 ∨ c = 10 := by simpa [isWs] using h
    rcases h' with rfl | rfl | rfl <;> exact h1
  rw [scan]
  simp only [Bool.false_eq_true, if_false, hp, Nat.add_sub_cancel]
  rw [scan_skip]
  congr 1
  conv => lhs; rw [← List.takeWhile_append_dropWhile (p := isWs) (l := s), List.drop_left' (by simp)]

theorem scan_ws (E : Env) (s : Bytes) {c : UInt8} (h : isWs c = true) : scan E 0 false none (c :: s) = scan E 0 false none s := by
  rw [scan_ws_all E s h]
  cases s with
  | nil => rfl
  | cons d s =>
    by_cases hd : isWs d = true
    · rw [List.dropWhile_cons_of_pos hd, scan_ws_all E s hd]
    · rw [List.dropWhile_cons_of_neg hd]

theorem scan_comment (E : Env) {w s : Bytes} (hw : 10 ∉ w) (hs : ∀ c, s.head? = some c → c = 10) :
    scan E 0 false none (35 :: w ++ s) = scan E 0 false none s := by
  have hall : ∀ c ∈ 35 :: w, (c != 10) = true := fun c hc => by
    rcases List.mem_cons.mp hc with rfl | hc
    · rfl
    · have : c ≠ 10 := by rintro rfl; exact hw hc
      simpa using this
  have h10 : ∀ c, s.head? = some c → (c != 10) = false := fun c hc => by simp [hs c hc]
  have hm : (Re.seq (ch 35) (.star dot)).M (35 :: w) :=
    .seq (u := [35]) (.cls rfl) (Text.m_star_cls fun c hc => by
      have : c ≠ 10 := by rintro rfl; exact hw hc
      simp [this])
  have hl : (Re.seq (ch 35) (.star dot)).longest (35 :: w ++ s) = some (w.length + 1) := by
    have := Re.longest_derivs (z := []) (p := fun c => c != 10) (v := s) hm hall (excludes_next (x := fun c => c != 10) (by decide +kernel) h10)
    simpa using this
  have hp : Re.pick rules (35 :: w ++ s) = some (w.length + 1, .skip) := by
    rw [List.cons_append, Text.pick_filter]
    refine Re.pick_cons_some (rs := [(wordRe, Act.word)]) hl fun x hx k hk => ?_
    simp only [List.mem_singleton] at hx
    subst hx
    have := Re.longest_derivs_le (z := []) (u := 35 :: w) (v := s) (p := fun c => c != 10) (r := wordRe) hall
      (excludes_next (x := fun c => c != 10) (by decide +kernel) h10) hk
    simpa using this
  rw [List.cons_append] at hp ⊢
  rw [scan]
  simp only [Bool.false_eq_true, if_false, hp, Nat.add_sub_cancel, scan_skip' E false none rfl]

/-! ### Any token -/

theorem scan_spell (E : Env) {t : Tok} {y s : Bytes} {x : UInt8 → Bool} (h : Spell E t y x) (hs : ∀ c, s.head? = some c → x c = false) :
    scan E 0 false none (y ++ s) = (scan E 0 false none s).map (t :: ·) := by
  cases h with
  | symbol h => exact scan_symbol E h hs
  | int h1 h2 h3 h4 h5 => exact scan_int E h1 h2 h3 h4 h5 hs
  | hex32 _ h1 h2 h3 h4 h5 => exact scan_hex32 E h1 h2 h3 h4 h5 hs
  | hex64 _ h1 h2 h3 h4 h5 => exact scan_hex64 E h1 h2 h3 h4 h5 hs
  | float h1 h2 h3 h4 => exact scan_float E h1 h2 h3 h4 hs
  | char h1 h2 => exact scan_char E h1 h2
  | tru h1 h2 => exact scan_tru E h1 h2 hs
  | fls h1 h2 => exact scan_fls E h1 h2 hs
  | nil h1 h2 => exact scan_nil E h1 h2 hs
  | lambda => exact scan_lambda E hs
  | addr h1 h2 => exact scan_addr E h1 h2 hs
  | word h1 h2 h3 h4 h5 => exact scan_word E h1 h2 h3 h4 h5 hs
  | str h => exact scan_str E h
  | raw h1 h2 h3 => exact scan_raw E h1 h2 h3
  | quoted h => exact scan_quoted E h

end Libo.Syn
