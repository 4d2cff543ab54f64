import Verif.TextScan
import Verif.TextSpec
/-!
# What the scanner makes of the parts of the text
-/

namespace Libo.Text
open Libo

theorem forall_byte {p : UInt8 → Prop} (h : ∀ n < 256, p (UInt8.ofNat n)) (c : UInt8) : p c := by
  have := h c.toNat c.toNat_lt
  rwa [UInt8.ofNat_toNat] at this

/-! ### Picking a rule -/

theorem pick_at {α : Type} {r : Re} {a : α} {post : List (Re × α)} {s : Bytes} {n : Nat} (h : r.longest s = some n)
    (hpost : ∀ x ∈ post, ∀ k, x.1.longest s = some k → k ≤ n) :
    ∀ (pre : List (Re × α)), (∀ x ∈ pre, ∀ k, x.1.longest s = some k → k < n) → Re.pick (pre ++ (r, a) :: post) s = some (n, a)
  | [], _ => Re.pick_cons_some h hpost
  | x :: pre, hp => Re.pick_cons_less (pick_at h hpost pre fun y hy => hp y (List.mem_cons_of_mem _ hy)) (hp x (List.mem_cons_self ..))

/-- Only rules that may begin with the first byte matter. -/
theorem pick_filter {α : Type} {c : UInt8} {s : Bytes} : ∀ (rs : List (Re × α)),
    Re.pick rs (c :: s) = Re.pick (rs.filter fun x => x.1.first c || x.1.nullable) (c :: s)
  | [] => rfl
  | x :: rs => by
    obtain ⟨r, a⟩ := x
    by_cases h : r.first c = true ∨ r.nullable = true
    · rw [List.filter_cons_of_pos (by simpa using h)]
      simp only [Re.pick]
      rw [pick_filter rs]
    · simp only [not_or, Bool.not_eq_true] at h
      rw [List.filter_cons_of_neg (by simp [h]), Re.pick_cons_none (Re.longest_first h.2 h.1), pick_filter rs]

theorem longest_le {r : Re} {u v : Bytes} {k : Nat} (hv : ∀ c w, v = c :: w → r.uses c = false) (h : r.longest (u ++ v) = some k) :
    k ≤ u.length := by
  obtain ⟨h1, h2, _⟩ := Re.longest_spec h
  rcases Nat.lt_or_ge u.length k with hk | hk
  · rw [List.take_append, List.take_of_length_le (by omega)] at h2
    cases v with
    | nil => simp only [List.append_nil] at h1; omega
    | cons c w =>
      refine absurd h2 (Re.m_stops (v := (c :: w).drop (k - u.length)) (List.take_append_drop _ _).symm ?_ (hv c w rfl))
      intro e
      have := congrArg List.length e
      simp only [List.length_take, List.length_cons, List.length_nil] at this
      omega
  · exact hk

theorem longest_cls_le {p : UInt8 → Bool} {s : Bytes} {k : Nat} (h : (Re.cls p).longest s = some k) : k ≤ 1 := by
  obtain ⟨h1, h2, _⟩ := Re.longest_spec h
  obtain ⟨c, e, _⟩ := Re.m_cls.mp h2
  have := congrArg List.length e
  simp only [List.length_take, List.length_singleton] at this
  omega

theorem longest_cls {p : UInt8 → Bool} {c : UInt8} {s : Bytes} (h : p c = true) : (Re.cls p).longest (c :: s) = some 1 := by
  have := Re.longest_some (r := .cls p) (u := [c]) (v := s) (.cls h) (fun x w _ hx hm => by
    obtain ⟨d, e, _⟩ := Re.m_cls.mp hm
    simp only [List.cons_append, List.nil_append, List.cons.injEq] at e
    exact hx e.2)
  simpa using this

theorem m_word : ∀ (w : Bytes), (word w).M w
  | [] => .eps
  | c :: s => Re.M.seq (u := [c]) (.cls (by simp)) (m_word s)

theorem m_word_eq : ∀ (w : Bytes) {v : Bytes}, (word w).M v → v = w
  | [], v, h => Re.m_eps.mp h
  | c :: s, v, h => by
    obtain ⟨x, y, rfl, h1, h2⟩ := Re.m_seq.mp h
    obtain ⟨d, rfl, hd⟩ := Re.m_cls.mp h1
    rw [m_word_eq s h2]
    simp only [beq_iff_eq] at hd
    rw [hd]; rfl

theorem longest_word (w s : Bytes) : (word w).longest (w ++ s) = some w.length :=
  Re.longest_some (m_word w) (fun x y _ hx hm => by
    have := congrArg List.length (m_word_eq w hm)
    simp only [List.length_append] at this
    exact hx (List.length_eq_zero_iff.mp (by omega)))

/-! ### Going on after a match -/

theorem scan_skip (E : Env) (q : Bool) (b : Buf) : ∀ (k : Nat) (s : Bytes), scan E k q b s = scan E 0 q b (s.drop k)
  | 0, s => rfl
  | k + 1, [] => by simp [scan]
  | k + 1, c :: s => by
    rw [scan, scan_skip E q b k s]; rfl

theorem scan_skip' (E : Env) (q : Bool) (b : Buf) {u s : Bytes} {k : Nat} (h : u.length = k) :
    scan E k q b (u ++ s) = scan E 0 q b s := by rw [scan_skip, ← h, List.drop_left]

/-! ### Single characters -/

/-- The characters that stand for themselves: `: { } , [ ]`. -/
theorem scan_chr (E : Env) (s : Bytes) {c : UInt8} (h : c ∈ ([58, 123, 125, 44, 91, 93] : Bytes)) :
    scan E 0 false none (c :: s) = (scan E 0 false none s).map (.chr c :: ·) := by
  have hp : Re.pick rules (c :: s) = some (1, .char) := by
    rw [pick_filter]
    have : ∀ p : UInt8 → Bool, p c = true → Re.pick [(Re.cls p, Act.char), (dot, .char)] (c :: s) = some (1, .char) := by
      intro p h
      exact Re.pick_cons_some (longest_cls h) fun x hx k hk => by
        simp only [List.mem_singleton] at hx; subst hx; exact longest_cls_le hk
    simp only [List.mem_cons, List.not_mem_nil, or_false] at h
    rcases h with rfl | rfl | rfl | rfl | rfl | rfl <;> exact this _ rfl
  have hc : ¬ c ≥ 128 := by
    simp only [List.mem_cons, List.not_mem_nil, or_false] at h
    rcases h with rfl | rfl | rfl | rfl | rfl | rfl <;> decide
  rw [scan]
  simp only [Bool.false_eq_true, if_false, hp, if_neg hc]

/-! ### Space -/

/-- A byte skipped between tokens. -/
def isWs (c : UInt8) : Bool := [32, 9, 10].contains c

theorem m_plus_cls {p : UInt8 → Bool} : ∀ {u : Bytes}, u ≠ [] → (∀ c ∈ u, p c = true) → (plus (.cls p)).M u
  | [], h, _ => absurd rfl h
  | c :: u, _, h => by
    refine Re.M.seq (u := [c]) (.cls (h c (by simp))) ?_
    have : ∀ {v : Bytes}, (∀ c ∈ v, p c = true) → (Re.star (.cls p)).M v := by
      intro v
      induction v with
      | nil => intro _; exact .nil
      | cons d v ih => intro hv; exact Re.M.more (u := [d]) (.cls (hv d (by simp))) (ih fun c hc => hv c (by simp [hc]))
    exact this fun d hd => h d (by simp [hd])

theorem m_star_cls {p : UInt8 → Bool} : ∀ {v : Bytes}, (∀ c ∈ v, p c = true) → (Re.star (.cls p)).M v
  | [], _ => .nil
  | d :: v, hv => Re.M.more (u := [d]) (.cls (hv d (by simp))) (m_star_cls fun c hc => hv c (by simp [hc]))

theorem longest_plus {p : UInt8 → Bool} {u v : Bytes} (hu : u ≠ []) (h : ∀ c ∈ u, p c = true) (hv : ∀ c w, v = c :: w → p c = false) :
    (plus (.cls p)).longest (u ++ v) = some u.length :=
  Re.longest_some (m_plus_cls hu h) (fun x w e hx => by
    cases v with
    | nil => exact absurd (List.append_eq_nil_iff.mp e.symm).1 hx
    | cons c v => exact Re.m_stops e hx (by simp [plus, Re.uses, hv c v rfl]))

theorem takeWhile_all {p : UInt8 → Bool} : ∀ (s : Bytes), ∀ c ∈ s.takeWhile p, p c = true
  | [], c, h => by simp at h
  | d :: s, c, h => by
    by_cases hd : p d = true
    · rw [List.takeWhile_cons_of_pos hd] at h
      rcases List.mem_cons.mp h with rfl | h
      · exact hd
      · exact takeWhile_all s c h
    · rw [List.takeWhile_cons_of_neg hd] at h; simp at h

theorem dropWhile_head {p : UInt8 → Bool} : ∀ (s : Bytes) c w, s.dropWhile p = c :: w → p c = false
  | [], c, w, h => by simp at h
  | d :: s, c, w, h => by
    by_cases hd : p d = true
    · rw [List.dropWhile_cons_of_pos hd] at h; exact dropWhile_head s c w h
    · rw [List.dropWhile_cons_of_neg hd] at h
      simp only [List.cons.injEq] at h
      rw [← h.1]; simpa using hd

theorem scan_ws_all (E : Env) (s : Bytes) {c : UInt8} (h : isWs c = true) :
    scan E 0 false none (c :: s) = scan E 0 false none (s.dropWhile isWs) := by
  have hp : Re.pick rules (c :: s) = some ((s.takeWhile isWs).length + 1, .space) := by
    have hl : spaceRe.longest (c :: s) = some ((s.takeWhile isWs).length + 1) := by
      have := longest_plus (p := isWs) (u := c :: s.takeWhile isWs) (v := s.dropWhile isWs) (by simp)
        (fun d hd => by
          rcases List.mem_cons.mp hd with rfl | hd
          · exact h
          · exact takeWhile_all s d hd)
        (fun d w e => dropWhile_head s d w e)
      rw [List.cons_append, List.takeWhile_append_dropWhile] at this
      exact this
    rw [pick_filter]
    have h1 : Re.pick [(spaceRe, Act.space)] (c :: s) = some ((s.takeWhile isWs).length + 1, .space) :=
      Re.pick_cons_some hl (by simp)
    have h2 : Re.pick [(spaceRe, Act.space), (dot, .char)] (c :: s) = some ((s.takeWhile isWs).length + 1, .space) :=
      Re.pick_cons_some hl fun x hx k hk => by
        simp only [List.mem_singleton] at hx; subst hx; have := longest_cls_le hk; omega
    have h' : c = 32 ∨ c = 9 ∨ c = 10 := by simpa [isWs] using h
    rcases h' with rfl | rfl | rfl
    · exact h2
    · exact h2
    · exact h1
  rw [scan]
  simp only [Bool.false_eq_true, if_false, hp, Nat.add_sub_cancel]
  rw [scan_skip]
  congr 1
  conv => lhs; rw [← List.takeWhile_append_dropWhile (p := isWs) (l := s), List.drop_left' (by simp)]

theorem scan_ws (E : Env) (s : Bytes) {c : UInt8} (h : isWs c = true) : scan E 0 false none (c :: s) = scan E 0 false none s := by
  rw [scan_ws_all E s h]
  cases s with
  | nil => rfl
  | cons d s =>
    by_cases hd : isWs d = true
    · rw [List.dropWhile_cons_of_pos hd, scan_ws_all E s hd]
    · rw [List.dropWhile_cons_of_neg hd]

theorem scan_spaces (E : Env) (s : Bytes) : ∀ k, scan E 0 false none (List.replicate k 32 ++ s) = scan E 0 false none s
  | 0 => rfl
  | k + 1 => by rw [List.replicate_succ, List.cons_append, scan_ws E _ (by decide), scan_spaces E s k]

/-! ### Words and characters -/

theorem scan_word (E : Env) (s : Bytes) {c : UInt8} {w : Bytes} {a : Act} {x : UAtom} (hx : valueOf E a (c :: w) = some x)
    (hw : 1 ≤ w.length) (ha : (a = .tru ∨ a = .fls) ∨ a = .nil)
    (hf : rules.filter (fun x => x.1.first c || x.1.nullable) = [(word (c :: w), a), (dot, .char)]) :
    scan E 0 false none (c :: w ++ s) = (scan E 0 false none s).map (.val x :: ·) := by
  have hp : Re.pick rules (c :: (w ++ s)) = some (w.length + 1, a) := by
    rw [pick_filter, hf]
    refine Re.pick_cons_some (longest_word (c :: w) s) fun x hx k hk => ?_
    simp only [List.mem_singleton] at hx; subst hx
    have := longest_cls_le hk
    omega
  rw [List.cons_append, scan]
  have ht : (c :: (w ++ s)).take (w.length + 1) = c :: w := by rw [List.take_succ_cons, List.take_left]
  simp only [Bool.false_eq_true, if_false, hp]
  rcases ha with (rfl | rfl) | rfl <;> simp only [ht, hx, Option.bind_some, Nat.add_sub_cancel, scan_skip' E false none rfl]

theorem scan_true (E : Env) (s : Bytes) : scan E 0 false none ([116, 114, 117, 101] ++ s) =
    (scan E 0 false none s).map (.val (.mk 84 false (.bits 0)) :: ·) := scan_word E s (a := .tru) rfl (by decide) (.inl (.inl rfl)) rfl
theorem scan_false (E : Env) (s : Bytes) : scan E 0 false none ([102, 97, 108, 115, 101] ++ s) =
    (scan E 0 false none s).map (.val (.mk 70 false (.bits 0)) :: ·) := scan_word E s (a := .fls) rfl (by decide) (.inl (.inr rfl)) rfl
theorem scan_nil (E : Env) (s : Bytes) : scan E 0 false none ([110, 105, 108] ++ s) =
    (scan E 0 false none s).map (.val (.mk 78 false (.bits 0)) :: ·) := scan_word E s (a := .nil) rfl (by decide) (.inr rfl) rfl

theorem m_char8 {v : Bytes} (h : (seqs [ch 39, dot, ch 39]).M v) : v.length = 3 := by
  obtain ⟨x, y, rfl, h1, h2⟩ := Re.m_seq.mp h
  obtain ⟨z, w, rfl, h3, h4⟩ := Re.m_seq.mp h2
  obtain ⟨_, rfl, _⟩ := Re.m_cls.mp h1
  obtain ⟨_, rfl, _⟩ := Re.m_cls.mp h3
  obtain ⟨_, rfl, _⟩ := Re.m_cls.mp h4
  rfl

theorem scan_char8 (E : Env) (s : Bytes) {c : UInt8} (hc : c ≠ 10) {x : UAtom} (hx : UAtom.fresh.setInt8 (castS M8 c.toNat) = some x) :
    scan E 0 false none ([39, c, 39] ++ s) = (scan E 0 false none s).map (.val x :: ·) := by
  have hl : (seqs [ch 39, dot, ch 39]).longest ([39, c, 39] ++ s) = some 3 := by
    refine Re.longest_some (u := [39, c, 39]) ?_ fun x w _ hx hm => ?_
    · refine Re.M.seq (u := [39]) (v := [c, 39]) (.cls (by simp)) (Re.M.seq (u := [c]) (.cls ?_) (.cls (by simp)))
      simp [hc]
    · have := m_char8 hm
      simp only [List.length_append, List.length_cons, List.length_nil] at this
      exact hx (List.length_eq_zero_iff.mp (by omega))
  have hp : Re.pick rules (39 :: ([c, 39] ++ s)) = some (3, .char8) := by
    rw [pick_filter]
    exact Re.pick_cons_some (rs := [(dot, Act.char)]) hl fun x hx k hk => by
      simp only [List.mem_singleton] at hx; subst hx; have := longest_cls_le hk; omega
  have e : [39, c, 39] ++ s = 39 :: ([c, 39] ++ s) := rfl
  rw [e, scan]
  simp only [Bool.false_eq_true, if_false, hp]
  have ht : valueOf E .char8 ((39 :: ([c, 39] ++ s)).take 3) = some x := by
    simpa [valueOf] using hx
  simp only [ht, Option.bind_some]
  rw [show (3 - 1 : Nat) = 2 from rfl, scan_skip' E false none (u := [c, 39]) (k := 2) rfl]

/-! ### Strings -/

/-- Neither a quote nor a backslash. -/
def plainByte (c : UInt8) : Bool := ![34, 92].contains c

theorem split_special : ∀ {p p' : Bytes} {y y' : UInt8} {r t : Bytes}, (∀ c ∈ p, plainByte c = true) → (∀ c ∈ p', plainByte c = true) →
    plainByte y = false → plainByte y' = false → p ++ y :: r = p' ++ y' :: t → p = p' ∧ y = y' ∧ r = t
  | [], [], y, y', r, t, _, _, _, _, e => by simpa using e
  | [], c :: p', y, y', r, t, _, h', hy, _, e => by
    simp only [List.nil_append, List.cons_append, List.cons.injEq] at e
    have := h' c (by simp)
    rw [← e.1, hy] at this; cases this
  | c :: p, [], y, y', r, t, h, _, _, hy', e => by
    simp only [List.nil_append, List.cons_append, List.cons.injEq] at e
    have := h c (by simp)
    rw [e.1, hy'] at this; cases this
  | c :: p, d :: p', y, y', r, t, h, h', hy, hy', e => by
    simp only [List.cons_append, List.cons.injEq] at e
    obtain ⟨h1, h2, h3⟩ := split_special (fun c hc => h c (by simp [hc])) (fun c hc => h' c (by simp [hc])) hy hy' e.2
    exact ⟨by rw [e.1, h1], h2, h3⟩

/-- `{quoted_string}*\\\\.`. -/
def escRe : Re := .seq (.star (noneOf [34, 92])) (.seq (ch 92) dot)

theorem m_star_all {p : UInt8 → Bool} {v : Bytes} (h : (Re.star (.cls p)).M v) : ∀ c ∈ v, p c = true := by
  intro c hc
  simpa [Re.uses] using Re.m_uses h c hc

theorem m_esc {v : Bytes} (h : escRe.M v) : ∃ p d, v = p ++ [92, d] ∧ (∀ c ∈ p, plainByte c = true) ∧ d ≠ 10 := by
  obtain ⟨p, y, rfl, h1, h2⟩ := Re.m_seq.mp h
  obtain ⟨z, w, rfl, h3, h4⟩ := Re.m_seq.mp h2
  obtain ⟨b, rfl, hb⟩ := Re.m_cls.mp h3
  obtain ⟨d, rfl, hd⟩ := Re.m_cls.mp h4
  simp only [beq_iff_eq] at hb
  subst hb
  exact ⟨p, d, rfl, m_star_all h1, by simpa using hd⟩

theorem longest_esc {p s : Bytes} {c : UInt8} (hp : ∀ c ∈ p, plainByte c = true) (hc : c ≠ 10) :
    escRe.longest (p ++ [92, c] ++ s) = some (p.length + 2) := by
  have := Re.longest_some (r := escRe) (u := p ++ [92, c]) (v := s)
    (Re.M.seq (m_star_cls hp) (Re.M.seq (u := [92]) (.cls (by simp)) (.cls (by simp [hc])))) (fun x w e hx hm => by
      obtain ⟨p', d, e', h1, _⟩ := m_esc hm
      obtain ⟨_, _, h4⟩ := split_special (y := 92) (y' := 92) (r := c :: x) (t := [d]) hp h1 (by decide) (by decide) (by simpa using e')
      simp only [List.cons.injEq] at h4
      exact hx h4.2)
  simpa using this

theorem no_esc {p s : Bytes} (hp : ∀ c ∈ p, plainByte c = true) : escRe.longest (p ++ 34 :: s) = none := by
  apply Re.longest_none
  intro u v e hm
  obtain ⟨p', d, rfl, h1, _⟩ := m_esc hm
  have := (split_special (y := 34) (y' := 92) (r := s) (t := d :: v) hp h1 (by decide) (by decide) (by simpa using e)).2.1
  simp at this

theorem pick_esc {p s : Bytes} {c : UInt8} (hp : ∀ c ∈ p, plainByte c = true) (hc : c ≠ 10) :
    Re.pick quoteRules (p ++ [92, c] ++ s) = some (p.length + 2, .esc) := by
  refine pick_at (pre := [(plus (noneOf [34, 92]), Act.run), (ch 34, .unquote)]) (post := []) (longest_esc hp hc) (by simp) ?_
  intro x hx k hk
  simp only [List.mem_cons, List.not_mem_nil, or_false] at hx
  rcases hx with rfl | rfl
  · rw [List.append_assoc] at hk
    have := longest_le (u := p) (v := [92, c] ++ s) (fun d w e => by
      simp only [List.cons_append, List.cons.injEq] at e
      rw [← e.1]; decide) hk
    omega
  · have := longest_cls_le hk; omega

theorem pick_run {p s : Bytes} (hne : p ≠ []) (hp : ∀ c ∈ p, plainByte c = true) :
    Re.pick quoteRules (p ++ 34 :: s) = some (p.length, .run) := by
  refine Re.pick_cons_some (longest_plus hne hp (fun c w e => ?_)) ?_
  · simp only [List.cons.injEq] at e; rw [← e.1]; decide
  · intro x hx k hk
    simp only [List.mem_cons, List.not_mem_nil, or_false] at hx
    rcases hx with rfl | rfl
    · have := longest_cls_le hk
      have : 0 < p.length := List.length_pos_iff.mpr hne
      omega
    · have := no_esc (s := s) hp
      unfold escRe at this
      rw [this] at hk; cases hk

theorem pick_unquote {s : Bytes} : Re.pick quoteRules (34 :: s) = some (1, .unquote) := by
  rw [pick_filter]
  exact Re.pick_cons_some (rs := []) (longest_cls (by decide)) (by simp)

theorem scan_unquote (E : Env) (s t : Bytes) (e : Nat) :
    scan E 0 true (some (t, e)) (34 :: s) = (scan E 0 false none s).map (.val (strAtom E t) :: ·) := by
  rw [scan]
  simp only [if_true, pick_unquote]

theorem scan_unquote_none (E : Env) (s : Bytes) : scan E 0 true none (34 :: s) = scan E 0 false none s := by
  rw [scan]
  simp only [if_true, pick_unquote]

theorem scan_run (E : Env) {p : Bytes} (s : Bytes) (hne : p ≠ []) (hp : ∀ c ∈ p, plainByte c = true) (b : Buf) :
    scan E 0 true b (p ++ 34 :: s) = (scan E 0 false none s).map (.val (strAtom E (match b with | some (t, _) => t ++ p | none => p)) :: ·) := by
  cases p with
  | nil => exact absurd rfl hne
  | cons c p =>
    have hk := pick_run (s := s) hne hp
    rw [List.cons_append] at hk ⊢
    rw [scan]
    have ht : (c :: (p ++ 34 :: s)).take (c :: p).length = c :: p := by
      rw [List.length_cons, List.take_succ_cons, List.take_left]
    simp only [if_true, hk, ht]
    cases b with
    | none =>
      simp only [List.length_cons, Nat.add_sub_cancel]
      rw [scan_skip' E true none rfl, scan_unquote_none]
    | some b =>
      obtain ⟨t, e⟩ := b
      simp only [List.length_cons, Nat.add_sub_cancel]
      rw [scan_skip' E true _ rfl, scan_unquote]

theorem scan_esc (E : Env) {p : Bytes} {c : UInt8} (s : Bytes) (hp : ∀ c ∈ p, plainByte c = true) (hc : c ≠ 10) (b : Buf) :
    scan E 0 true b (p ++ [92, c] ++ s) = scan E 0 true (addEsc b (p ++ [92, c])) s := by
  have hk := pick_esc (s := s) hp hc
  obtain ⟨d, r, hd⟩ : ∃ d r, p ++ [92, c] = d :: r := by cases p <;> exact ⟨_, _, rfl⟩
  have hl : r.length + 1 = p.length + 2 := by
    have := congrArg List.length hd; simpa using this.symm
  rw [hd, List.cons_append] at hk ⊢
  rw [scan]
  have ht : (d :: (r ++ s)).take (p.length + 2) = d :: r := by
    rw [← hl, List.take_succ_cons, List.take_left]
  simp only [if_true, hk, ht]
  rw [scan_skip' E true _ (by omega)]

theorem addEsc_eq (b : Buf) (p : Bytes) (c : UInt8) : addEsc b (p ++ [92, c]) =
    match b with
    | some (s, 0) => some (s ++ (p ++ [c]), 0)
    | some (s, k + 1) => some (s, k + 1 + (p ++ [c]).length)
    | none => some (p ++ [c], 0) := by
  have e : (p ++ [92, c]).take ((p ++ [92, c]).length - 2) ++ (p ++ [92, c]).drop ((p ++ [92, c]).length - 1) = p ++ [c] := by
    rw [show (p ++ [92, c]).length - 2 = p.length by simp, List.take_left, show (p ++ [92, c]).length - 1 = (p ++ [92]).length by simp,
      show p ++ [92, c] = (p ++ [92]) ++ [c] by simp, List.drop_left]
  unfold addEsc
  simp only [e]
  cases b with
  | none => rfl
  | some b =>
    obtain ⟨s, k⟩ := b
    cases k <;> rfl

theorem special_iff (c : UInt8) : Props.special c = !plainByte c := by
  unfold Props.special plainByte
  by_cases h : c = 34 <;> by_cases h2 : c = 92 <;> simp [h, h2]

theorem escape_plain : ∀ {p : Bytes}, (∀ c ∈ p, plainByte c = true) → Props.escape p = p
  | [], _ => rfl
  | c :: p, h => by
    rw [Props.escape_cons, special_iff, h c (by simp), escape_plain fun d hd => h d (by simp [hd])]; rfl

theorem escape_append (s t : Bytes) : Props.escape (s ++ t) = Props.escape s ++ Props.escape t := by
  simp [Props.escape]

theorem scan_body (E : Env) (r : Bytes) : ∀ (n : Nat) (s : Bytes), s.length ≤ n → ∀ (b : Option Bytes), (b ≠ none ∨ s ≠ []) →
    scan E 0 true (b.map fun t => (t, 0)) (Props.escape s ++ 34 :: r) =
      (scan E 0 false none r).map (.val (strAtom E (b.getD [] ++ s)) :: ·) := by
  intro n
  induction n with
  | zero =>
    intro s hs b hb
    have : s = [] := List.length_eq_zero_iff.mp (by omega)
    subst this
    cases b with
    | none => simp at hb
    | some t =>
      simp only [Option.map_some, Props.escape, List.flatMap_nil, List.nil_append, Option.getD_some, List.append_nil]
      exact scan_unquote E r t 0
  | succ n ih =>
    intro s hs b hb
    have e := List.takeWhile_append_dropWhile (p := plainByte) (l := s)
    have hp := takeWhile_all (p := plainByte) s
    cases hd : s.dropWhile plainByte with
    | nil =>
      rw [hd, List.append_nil] at e
      rw [e] at hp
      rw [escape_plain hp]
      cases s with
      | nil =>
        cases b with
        | none => simp at hb
        | some t =>
          simp only [Option.map_some, List.nil_append, Option.getD_some, List.append_nil]
          exact scan_unquote E r t 0
      | cons c s =>
        rw [scan_run E r (by simp) hp]
        cases b <;> rfl
    | cons c t =>
      have hc := dropWhile_head s c t hd
      generalize hpq : s.takeWhile plainByte = p at *
      rw [hd] at e
      subst e
      have h10 : c ≠ 10 := by rintro rfl; revert hc; decide
      rw [escape_append, escape_plain hp, Props.escape_cons, special_iff, hc]
      have e2 : p ++ ((if (!false) = true then [92, c] else [c]) ++ Props.escape t) ++ 34 :: r = p ++ [92, c] ++ (Props.escape t ++ 34 :: r) := by
        simp
      rw [e2, scan_esc E _ hp h10, addEsc_eq]
      have hl : t.length ≤ n := by simp only [List.length_append, List.length_cons] at hs; omega
      cases b with
      | none =>
        have := ih t hl (some (p ++ [c])) (.inl (by simp))
        simpa using this
      | some t0 =>
        have := ih t hl (some (t0 ++ (p ++ [c]))) (.inl (by simp))
        simpa using this

theorem scan_literal (E : Env) (s r : Bytes) :
    scan E 0 false none (Props.literal s ++ r) = (scan E 0 false none r).map (.val (strAtom E s) :: ·) := by
  have hf : ∀ w, Re.pick rules (34 :: w) = Re.pick [(ch 34, Act.quote), (word [34, 34], .empty), (dot, .char)] (34 :: w) := by
    intro w; rw [pick_filter]; rfl
  cases s with
  | nil =>
    have e : Props.literal [] ++ r = 34 :: ([34] ++ r) := rfl
    have hp : Re.pick rules (34 :: ([34] ++ r)) = some (2, .empty) := by
      rw [hf]
      refine pick_at (pre := [(ch 34, Act.quote)]) (longest_word [34, 34] r) ?_ ?_
      · intro x hx k hk
        simp only [List.mem_singleton] at hx; subst hx; have := longest_cls_le hk; simp only [List.length_cons, List.length_nil]; omega
      · intro x hx k hk
        simp only [List.mem_singleton] at hx; subst hx; have := longest_cls_le hk; simp only [List.length_cons, List.length_nil]; omega
    rw [e, scan]
    simp only [Bool.false_eq_true, if_false, hp, valueOf, Option.bind_some]
    rw [show (2 - 1 : Nat) = 1 from rfl, scan_skip' E false none (u := [34]) (k := 1) rfl]
  | cons c s =>
    have e : Props.literal (c :: s) ++ r = 34 :: (Props.escape (c :: s) ++ 34 :: r) := by simp [Props.literal]
    obtain ⟨d, w, hd, hne⟩ : ∃ d w, Props.escape (c :: s) = d :: w ∧ d ≠ 34 := by
      rw [Props.escape_cons]
      by_cases h : Props.special c = true
      · rw [if_pos h]; exact ⟨92, _, rfl, by decide⟩
      · rw [if_neg h]; exact ⟨c, _, rfl, by rintro rfl; exact h (by decide)⟩
    have hp : Re.pick rules (34 :: (Props.escape (c :: s) ++ 34 :: r)) = some (1, .quote) := by
      rw [hf]
      refine Re.pick_cons_some (longest_cls (by decide)) ?_
      intro x hx k hk
      simp only [List.mem_cons, List.not_mem_nil, or_false] at hx
      rcases hx with rfl | rfl
      · obtain ⟨h1, h2, _⟩ := Re.longest_spec hk
        have := m_word_eq _ h2
        rw [hd] at this
        match k, this with
        | k + 2, this =>
          simp only [List.take_succ_cons, List.cons_append, List.cons.injEq] at this
          exact absurd this.2.1 hne
        | 0, this => simp at this
        | 1, this => simp at this
      · exact longest_cls_le hk
    rw [e, scan]
    simp only [Bool.false_eq_true, if_false, hp]
    have := scan_body E r (c :: s).length (c :: s) (Nat.le_refl _) none (.inr (by simp))
    simpa using this

/-! ### Numbers -/

/-- What follows a value in the text: nothing, a comma, a bracket or a newline. -/
def StopV (r : Bytes) : Prop := ∀ c w, r = c :: w → c = 44 ∨ c = 93 ∨ c = 10

/-- The first bytes of numbers. -/
def numFirst (c : UInt8) : Bool := c == 45 || c == 46 || (decide (48 ≤ c) && decide (c ≤ 57))

set_option maxRecDepth 10000 in
theorem numFirst_rules (c : UInt8) (h : numFirst c = true) :
    ∀ r ∈ [ch 34, word [34, 34], word [116, 114, 117, 101], word [102, 97, 108, 115, 101], word [110, 105, 108], oneOf [58, 123, 125, 44], oneOf [91, 93],
      seqs [ch 39, dot, ch 39], addrRe, spaceRe], r.nullable = false ∧ r.first c = false := by
  have key : ∀ c : UInt8, numFirst c = true →
      ([ch 34, word [34, 34], word [116, 114, 117, 101], word [102, 97, 108, 115, 101], word [110, 105, 108], oneOf [58, 123, 125, 44], oneOf [91, 93],
        seqs [ch 39, dot, ch 39], addrRe, spaceRe].all fun r => !r.nullable && !r.first c) = true :=
    forall_byte (by decide +kernel)
  intro r hr
  have := List.all_eq_true.mp (key c h) r hr
  simpa using this

theorem stop_uses {r : Bytes} (h : StopV r) {re : Re} (hr : re ∈ [floatRe, intRe, hexRe, isoRe]) : ∀ c w, r = c :: w → re.uses c = false := by
  intro c w e
  have key : ([floatRe, intRe, hexRe, isoRe].all fun re => !re.uses 44 && !re.uses 93 && !re.uses 10) = true := by decide +kernel
  have := List.all_eq_true.mp key re hr
  simp only [Bool.and_eq_true, Bool.not_eq_true'] at this
  rcases h c w e with rfl | rfl | rfl
  · exact this.1.1
  · exact this.1.2
  · exact this.2

/-- The bytes of integers. -/
def intByte (c : UInt8) : Bool := c == 45 || (decide (48 ≤ c) && decide (c ≤ 57))

theorem no_float {u r : Bytes} (hu : ∀ c ∈ u, intByte c = true) (hr : StopV r) : floatRe.longest (u ++ r) = none := by
  apply Re.longest_none
  intro x v e hm
  refine Re.m_needs (q := intByte) (by decide +kernel) (fun c hc => ?_) hm
  have huse := Re.m_uses hm
  rcases List.append_eq_append_iff.mp e with ⟨a, rfl, h2⟩ | ⟨a, h1, rfl⟩
  · cases a with
    | nil => rw [List.append_nil] at hc; exact hu c hc
    | cons d a =>
      have h3 := stop_uses hr (re := floatRe) (by simp) d (a ++ v) h2
      have h4 := huse d (by simp)
      rw [h3] at h4; cases h4
  · rw [h1] at hu
    exact hu c (by simp [hc])

theorem m_digits {s : Bytes} (h : ∀ c ∈ s, 48 ≤ c ∧ c ≤ 57) : dseqOpt.M s :=
  m_star_cls fun c hc => by simpa using h c hc

theorem m_digits1 {s : Bytes} (hne : s ≠ []) (h : ∀ c ∈ s, 48 ≤ c ∧ c ≤ 57) : dseq.M s :=
  m_plus_cls hne fun c hc => by simpa using h c hc

theorem scan_int (E : Env) {u r : Bytes} (hm : intRe.M u) (hu : ∀ c ∈ u, intByte c = true) (hr : StopV r) {x : UAtom}
    (hx : UAtom.fresh.setInt32 (castS M32 (strtol u)) = some x) :
    scan E 0 false none (u ++ r) = (scan E 0 false none r).map (.val x :: ·) := by
  cases u with
  | nil => exact absurd ((Re.nullable_iff intRe).mpr hm) (by decide)
  | cons c u =>
    have hc : numFirst c = true := by
      have := hu c (by simp)
      simp only [intByte, numFirst, Bool.or_eq_true] at this ⊢
      rcases this with h | h
      · exact .inl (.inl h)
      · exact .inr h
    have hf := numFirst_rules c hc
    have hnone : ∀ re ∈ [ch 34, word [34, 34], word [116, 114, 117, 101], word [102, 97, 108, 115, 101], word [110, 105, 108], oneOf [58, 123, 125, 44],
        oneOf [91, 93], seqs [ch 39, dot, ch 39], addrRe, spaceRe], re.longest (c :: u ++ r) = none :=
      fun re hre => Re.longest_first (hf re hre).1 (hf re hre).2
    have hl : intRe.longest (c :: u ++ r) = some (u.length + 1) := by
      refine Re.longest_some hm fun y w e hy => ?_
      cases r with
      | nil => exact absurd (List.append_eq_nil_iff.mp e.symm).1 hy
      | cons d r => exact Re.m_stops e hy (stop_uses hr (by simp) d r rfl)
    have hp : Re.pick rules (c :: u ++ r) = some (u.length + 1, .int) := by
      refine pick_at (pre := [(ch 34, Act.quote), (word [34, 34], .empty), (floatRe, .float), (word [116, 114, 117, 101], .tru),
        (word [102, 97, 108, 115, 101], .fls), (word [110, 105, 108], .nil), (oneOf [58, 123, 125, 44], .char), (oneOf [91, 93], .char),
        (seqs [ch 39, dot, ch 39], .char8)]) hl ?_ ?_
      · intro y hy k hk
        simp only [List.mem_cons, List.not_mem_nil, or_false] at hy
        rcases hy with rfl | rfl | rfl | rfl | rfl
        · exact longest_le (stop_uses hr (by simp)) hk
        · rw [hnone _ (by simp)] at hk; cases hk
        · exact longest_le (stop_uses hr (by simp)) hk
        · rw [hnone _ (by simp)] at hk; cases hk
        · have := longest_cls_le hk; omega
      · intro y hy k hk
        simp only [List.mem_cons, List.not_mem_nil, or_false] at hy
        rcases hy with rfl | rfl | rfl | rfl | rfl | rfl | rfl | rfl | rfl
        · rw [hnone _ (by simp)] at hk; cases hk
        · rw [hnone _ (by simp)] at hk; cases hk
        · rw [no_float hu hr] at hk; cases hk
        all_goals rw [hnone _ (by simp)] at hk; cases hk
    rw [List.cons_append] at hp ⊢
    rw [scan]
    have ht : (c :: (u ++ r)).take (u.length + 1) = c :: u := by rw [List.take_succ_cons, List.take_left]
    simp only [Bool.false_eq_true, if_false, hp, ht, valueOf, hx, Option.bind_some, Nat.add_sub_cancel, scan_skip' E false none rfl]

set_option maxRecDepth 10000 in
theorem float_first (c : UInt8) (h : floatRe.first c = true) : numFirst c = true := by
  have key : ∀ c : UInt8, floatRe.first c = true → numFirst c = true := forall_byte (by decide +kernel)
  exact key c h

theorem scan_float (E : Env) {u r : Bytes} (hm : floatRe.M u) (hr : StopV r) {x : UAtom}
    (hx : UAtom.fresh.setDouble (E.strtod u) = some x) :
    scan E 0 false none (u ++ r) = (scan E 0 false none r).map (.val x :: ·) := by
  cases u with
  | nil => exact absurd ((Re.nullable_iff floatRe).mpr hm) (by decide)
  | cons c u =>
    have hf := numFirst_rules c (float_first c (Re.m_first hm c u rfl))
    have hnone : ∀ re ∈ [ch 34, word [34, 34], word [116, 114, 117, 101], word [102, 97, 108, 115, 101], word [110, 105, 108], oneOf [58, 123, 125, 44],
        oneOf [91, 93], seqs [ch 39, dot, ch 39], addrRe, spaceRe], re.longest (c :: u ++ r) = none :=
      fun re hre => Re.longest_first (hf re hre).1 (hf re hre).2
    have hl : floatRe.longest (c :: u ++ r) = some (u.length + 1) := by
      refine Re.longest_some hm fun y w e hy => ?_
      cases r with
      | nil => exact absurd (List.append_eq_nil_iff.mp e.symm).1 hy
      | cons d r => exact Re.m_stops e hy (stop_uses hr (by simp) d r rfl)
    have hp : Re.pick rules (c :: u ++ r) = some (u.length + 1, .float) := by
      refine pick_at (pre := [(ch 34, Act.quote), (word [34, 34], .empty)]) hl ?_ ?_
      · intro y hy k hk
        simp only [List.mem_cons, List.not_mem_nil, or_false] at hy
        rcases hy with rfl | rfl | rfl | rfl | rfl | rfl | rfl | rfl | rfl | rfl | rfl | rfl
        iterate 6 (rw [hnone _ (by simp)] at hk; cases hk)
        · exact longest_le (stop_uses hr (by simp)) hk
        · exact longest_le (stop_uses hr (by simp)) hk
        · rw [hnone _ (by simp)] at hk; cases hk
        · exact longest_le (stop_uses hr (by simp)) hk
        · rw [hnone _ (by simp)] at hk; cases hk
        · have := longest_cls_le hk; omega
      · intro y hy k hk
        simp only [List.mem_cons, List.not_mem_nil, or_false] at hy
        rcases hy with rfl | rfl <;> (rw [hnone _ (by simp)] at hk; cases hk)
    rw [List.cons_append] at hp ⊢
    rw [scan]
    have ht : (c :: (u ++ r)).take (u.length + 1) = c :: u := by rw [List.take_succ_cons, List.take_left]
    simp only [Bool.false_eq_true, if_false, hp, ht, valueOf, hx, Option.bind_some, Nat.add_sub_cancel, scan_skip' E false none rfl]

/-! ### Addresses -/

/-- What follows a message in the text: nothing, a newline, or a comma and a newline. -/
def StopM (r : Bytes) : Prop := r = [] ∨ (∃ w, r = 10 :: w) ∨ ∃ w, r = 44 :: 10 :: w

/-- A byte of an address, after the slash. -/
def addrByte (c : UInt8) : Bool := ![32, 9, 10, 35].contains c

theorem longest_addr {u v : Bytes} (hne : u ≠ []) (hu : ∀ c ∈ u, addrByte c = true) (hv : ∀ c w, v = c :: w → addrByte c = false) :
    addrRe.longest (47 :: u ++ v) = some (u.length + 1) := by
  refine Re.longest_some (u := 47 :: u) (Re.M.seq (u := [47]) (.cls (by decide)) (m_plus_cls hne hu)) fun x w e hx => ?_
  cases v with
  | nil => exact absurd (List.append_eq_nil_iff.mp e.symm).1 hx
  | cons c v =>
    refine Re.m_stops e hx ?_
    have h1 := hv c v rfl
    have h2 : c ≠ 47 := by rintro rfl; revert h1; decide
    simp only [addrRe, Re.uses, plus, noneOf, ch, Bool.or_eq_false_iff]
    exact ⟨by simpa using h2, h1, h1⟩

theorem pick_addr {u v : Bytes} (hne : u ≠ []) (hu : ∀ c ∈ u, addrByte c = true) (hv : ∀ c w, v = c :: w → addrByte c = false) :
    Re.pick rules (47 :: (u ++ v)) = some (u.length + 1, .addr) := by
  rw [pick_filter]
  refine Re.pick_cons_some (rs := [(dot, Act.char)]) (longest_addr hne hu hv) fun x hx k hk => ?_
  simp only [List.mem_singleton] at hx; subst hx; have := longest_cls_le hk; omega

theorem scan_addr (E : Env) {u r : Bytes} (hne : u ≠ []) (hu : ∀ c ∈ u, addrByte c = true) (hlast : u.getLast? ≠ some 44)
    (hr : StopM r ∨ ∃ w, r = 32 :: w) :
    scan E 0 false none (47 :: u ++ r) = (scan E 0 false none r).map (.addr (47 :: u) :: ·) := by
  have hpos : 0 < u.length := List.length_pos_iff.mpr hne
  by_cases h44 : ∃ w, r = 44 :: 10 :: w
  · obtain ⟨w, rfl⟩ := h44
    have hp := pick_addr (u := u ++ [44]) (v := 10 :: w) (by simp) (fun c hc => by
      rcases List.mem_append.mp hc with h | h
      · exact hu c h
      · rw [List.mem_singleton.mp h]; decide) (fun c w' e => by
        simp only [List.cons.injEq] at e; rw [← e.1]; decide)
    rw [show u ++ [44] ++ 10 :: w = u ++ 44 :: 10 :: w by simp] at hp
    rw [List.cons_append, scan]
    have hg : (47 :: (u ++ 44 :: 10 :: w))[(u ++ [44]).length + 1 - 1]? = some 44 := by
      rw [Nat.add_sub_cancel, List.length_append, List.length_singleton, List.getElem?_cons_succ, List.getElem?_append_right (Nat.le_refl _)]
      simp
    have ht : (47 :: (u ++ 44 :: 10 :: w)).take ((u ++ [44]).length + 1 - 1) = 47 :: u := by
      rw [Nat.add_sub_cancel, List.length_append, List.length_singleton, List.take_succ_cons, List.take_left]
    simp only [Bool.false_eq_true, if_false, hp, hg, if_true, ht]
    rw [scan_skip' E false none (u := u) (by simp)]
  · have hv : ∀ c w, r = c :: w → addrByte c = false := by
      intro c w e
      rcases hr with (h | ⟨w', h⟩ | h) | ⟨w', h⟩
      · rw [h] at e; cases e
      · rw [h] at e; simp only [List.cons.injEq] at e; rw [← e.1]; decide
      · exact absurd h h44
      · rw [h] at e; simp only [List.cons.injEq] at e; rw [← e.1]; decide
    have hp := pick_addr hne hu hv
    rw [List.cons_append, scan]
    have hg : (47 :: (u ++ r))[u.length + 1 - 1]? ≠ some 44 := by
      obtain ⟨k, hk⟩ : ∃ k, u.length = k + 1 := ⟨u.length - 1, by omega⟩
      rw [Nat.add_sub_cancel, hk, List.getElem?_cons_succ, List.getElem?_append_left (by omega)]
      rw [List.getLast?_eq_getElem?, hk] at hlast
      exact hlast
    have ht : (47 :: (u ++ r)).take (u.length + 1) = 47 :: u := by rw [List.take_succ_cons, List.take_left]
    rw [Nat.add_sub_cancel] at hg
    simp only [Bool.false_eq_true, if_false, hp, if_neg hg, ht, Nat.add_sub_cancel, scan_skip' E false none rfl]

end Libo.Text
