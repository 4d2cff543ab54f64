import Verif.Basic
/-!
# Regular expressions and how flex picks a rule

A scanner made by flex takes, of all its rules that match a beginning of the input, the one with the longest match, and of those
the first.  The language of an expression is `Re.M`; `Re.longest` finds the longest match by derivatives.
-/

namespace Libo

/-- A regular expression over bytes. -/
inductive Re where
  | none
  | eps
  | cls (p : UInt8 → Bool)
  | seq (a b : Re)
  | alt (a b : Re)
  | star (a : Re)

namespace Re

/-- The words an expression stands for. -/
inductive M : Re → Bytes → Prop
  | eps : M .eps []
  | cls {p : UInt8 → Bool} {c : UInt8} : p c = true → M (.cls p) [c]
  | seq {a b : Re} {u v : Bytes} : M a u → M b v → M (.seq a b) (u ++ v)
  | left {a b : Re} {u : Bytes} : M a u → M (.alt a b) u
  | right {a b : Re} {u : Bytes} : M b u → M (.alt a b) u
  | nil {a : Re} : M (.star a) []
  | more {a : Re} {u v : Bytes} : M a u → M (.star a) v → M (.star a) (u ++ v)

/-- Whether the empty word belongs to it. -/
def nullable : Re → Bool
  | none => false
  | eps => true
  | cls _ => false
  | seq a b => a.nullable && b.nullable
  | alt a b => a.nullable || b.nullable
  | star _ => true

/-- Concatenation with the trivial cases reduced. -/
def seq' : Re → Re → Re
  | none, _ => none
  | eps, b => b
  | a, b => seq a b

/-- Alternative with the trivial cases reduced. -/
def alt' : Re → Re → Re
  | none, b => b
  | a, none => a
  | a, b => alt a b

/-- What may follow the byte `c`. -/
def deriv (c : UInt8) : Re → Re
  | none => none
  | eps => none
  | cls p => if p c then eps else none
  | seq a b => if a.nullable then alt' (seq' (a.deriv c) b) (b.deriv c) else seq' (a.deriv c) b
  | alt a b => alt' (a.deriv c) (b.deriv c)
  | star a => seq' (a.deriv c) (star a)

/-- The length of the longest beginning of the input that matches: `n` bytes have been read, `best` is the longest match so far. -/
def longestLoop (best : Option Nat) (n : Nat) : Re → Bytes → Option Nat
  | r, [] => if r.nullable then some n else best
  | r, c :: s => longestLoop (if r.nullable then some n else best) (n + 1) (r.deriv c) s

def longest (r : Re) (s : Bytes) : Option Nat := longestLoop Option.none 0 r s

/-- The rule flex picks: the longest match, and the first rule among those. -/
def pick {α : Type} : List (Re × α) → Bytes → Option (Nat × α)
  | [], _ => .none
  | (r, a) :: rs, s =>
    match r.longest s, pick rs s with
    | some n, some (k, b) => if k ≤ n then some (n, a) else some (k, b)
    | some n, .none => some (n, a)
    | .none, x => x

/-! ### Facts -/

theorem m_none {u : Bytes} : ¬ M none u := fun h => by cases h

theorem m_seq {a b : Re} {w : Bytes} : M (.seq a b) w ↔ ∃ u v, w = u ++ v ∧ M a u ∧ M b v :=
  ⟨fun h => by cases h with | seq h1 h2 => exact ⟨_, _, rfl, h1, h2⟩, fun ⟨u, v, e, h1, h2⟩ => e ▸ .seq h1 h2⟩

theorem m_alt {a b : Re} {w : Bytes} : M (.alt a b) w ↔ M a w ∨ M b w :=
  ⟨fun h => by cases h with | left h => exact .inl h | right h => exact .inr h, fun h => h.elim .left .right⟩

theorem m_cls {p : UInt8 → Bool} {w : Bytes} : M (.cls p) w ↔ ∃ c, w = [c] ∧ p c = true :=
  ⟨fun h => by cases h with | cls h => exact ⟨_, rfl, h⟩, fun ⟨c, e, h⟩ => e ▸ .cls h⟩

theorem m_eps {w : Bytes} : M .eps w ↔ w = [] := ⟨fun h => by cases h; rfl, fun h => h ▸ .eps⟩

theorem m_seq' {a b : Re} {w : Bytes} : M (seq' a b) w ↔ M (.seq a b) w := by
  cases a with
  | none => exact ⟨fun h => (m_none h).elim, fun h => by cases h with | seq h _ => exact (m_none h).elim⟩
  | eps =>
    refine ⟨fun h => ?_, fun h => ?_⟩
    · exact M.seq (u := []) .eps h
    · obtain ⟨u, v, rfl, h1, h2⟩ := m_seq.mp h
      cases h1; exact h2
  | _ => exact Iff.rfl

theorem m_alt' {a b : Re} {w : Bytes} : M (alt' a b) w ↔ M (.alt a b) w := by
  have h1 : M (.alt none b) w ↔ M b w := ⟨fun h => (m_alt.mp h).elim (fun h => (m_none h).elim) id, .right⟩
  have h2 : M (.alt a none) w ↔ M a w := ⟨fun h => (m_alt.mp h).elim id (fun h => (m_none h).elim), .left⟩
  cases a with
  | none => exact h1.symm
  | _ => cases b with
    | none => exact h2.symm
    | _ => exact Iff.rfl

theorem nullable_iff : ∀ (r : Re), r.nullable = true ↔ M r []
  | .none => ⟨fun h => by simp [nullable] at h, fun h => (m_none h).elim⟩
  | .eps => ⟨fun _ => .eps, fun _ => rfl⟩
  | .cls p => ⟨fun h => by simp [nullable] at h, fun h => by obtain ⟨c, e, _⟩ := m_cls.mp h; simp at e⟩
  | .seq a b => by
    simp only [nullable, Bool.and_eq_true, nullable_iff a, nullable_iff b]
    refine ⟨fun h => M.seq h.1 h.2, fun h => ?_⟩
    obtain ⟨u, v, e, h1, h2⟩ := m_seq.mp h
    obtain ⟨rfl, rfl⟩ := List.append_eq_nil_iff.mp e.symm
    exact ⟨h1, h2⟩
  | .alt a b => by
    simp only [nullable, Bool.or_eq_true, nullable_iff a, nullable_iff b]
    exact m_alt.symm
  | .star a => ⟨fun _ => .nil, fun _ => rfl⟩

theorem m_star_cons {a : Re} {w : Bytes} (h : M (.star a) w) : ∀ c s, w = c :: s → ∃ u v, s = u ++ v ∧ M a (c :: u) ∧ M (.star a) v := by
  generalize e : Re.star a = r at h
  induction h with
  | nil => intro c s e'; simp at e'
  | @more a' u v h1 h2 _ ih =>
    intro c s e'
    cases e
    cases u with
    | nil => exact ih rfl c s (by simpa using e')
    | cons x u =>
      simp only [List.cons_append, List.cons.injEq] at e'
      obtain ⟨rfl, rfl⟩ := e'
      exact ⟨u, v, rfl, h1, h2⟩
  | _ => cases e

theorem deriv_iff (c : UInt8) : ∀ (r : Re) (w : Bytes), M (r.deriv c) w ↔ M r (c :: w)
  | .none, w => ⟨fun h => (m_none h).elim, fun h => (m_none h).elim⟩
  | .eps, w => ⟨fun h => (m_none h).elim, fun h => by cases m_eps.mp h⟩
  | .cls p, w => by
    simp only [deriv]
    by_cases hp : p c = true
    · rw [if_pos hp, m_eps, m_cls]
      refine ⟨fun h => ⟨c, by rw [h], hp⟩, fun ⟨x, e, _⟩ => ?_⟩
      simp only [List.cons.injEq] at e; exact e.2
    · rw [if_neg hp]
      refine ⟨fun h => (m_none h).elim, fun h => ?_⟩
      obtain ⟨x, e, hx⟩ := m_cls.mp h
      simp only [List.cons.injEq] at e
      exact absurd (e.1 ▸ hx) hp
  | .seq a b, w => by
    have key : M (.seq a b) (c :: w) ↔ M (.seq (a.deriv c) b) w ∨ (a.nullable = true ∧ M (b.deriv c) w) := by
      rw [nullable_iff, deriv_iff c b]
      constructor
      · intro h
        obtain ⟨u, v, e, h1, h2⟩ := m_seq.mp h
        cases u with
        | nil =>
          rw [List.nil_append] at e
          subst e
          exact .inr ⟨h1, h2⟩
        | cons x u =>
          simp only [List.cons_append, List.cons.injEq] at e
          obtain ⟨rfl, rfl⟩ := e
          exact .inl (.seq ((deriv_iff c a u).mpr h1) h2)
      · rintro (h | ⟨h1, h2⟩)
        · obtain ⟨u, v, rfl, h1, h2⟩ := m_seq.mp h
          exact M.seq (u := c :: u) ((deriv_iff c a u).mp h1) h2
        · exact M.seq (u := []) h1 h2
    rw [key]
    simp only [deriv]
    by_cases hn : a.nullable = true
    · rw [if_pos hn, m_alt', m_alt, m_seq']
      simp [hn]
    · rw [if_neg hn, m_seq']
      simp [hn]
  | .alt a b, w => by
    simp only [deriv]
    rw [m_alt', m_alt, m_alt, deriv_iff c a, deriv_iff c b]
  | .star a, w => by
    simp only [deriv]
    rw [m_seq', m_seq]
    constructor
    · rintro ⟨u, v, rfl, h1, h2⟩
      exact M.more (u := c :: u) ((deriv_iff c a u).mp h1) h2
    · intro h
      obtain ⟨u, v, rfl, h1, h2⟩ := m_star_cons h c w rfl
      exact ⟨u, v, rfl, (deriv_iff c a u).mpr h1, h2⟩

theorem longestLoop_none : ∀ (s : Bytes) (r : Re) (best : Option Nat) (n : Nat), (∀ k, ¬ M r (s.take k)) →
    longestLoop best n r s = best
  | [], r, best, n, h => by
    rw [longestLoop, if_neg]
    exact fun e => h 0 ((nullable_iff r).mp e)
  | c :: s, r, best, n, h => by
    rw [longestLoop, if_neg (fun e => h 0 ((nullable_iff r).mp e))]
    exact longestLoop_none s _ _ _ fun k hk => h (k + 1) ((deriv_iff c r _).mp hk)

theorem longestLoop_some : ∀ (s : Bytes) (r : Re) (best : Option Nat) (n k : Nat), k ≤ s.length → M r (s.take k) →
    (∀ j, k < j → j ≤ s.length → ¬ M r (s.take j)) → longestLoop best n r s = some (n + k)
  | [], r, best, n, k, hk, hm, _ => by
    simp only [List.length_nil, Nat.le_zero_eq] at hk
    subst hk
    rw [longestLoop, if_pos ((nullable_iff r).mpr hm)]; rfl
  | c :: s, r, best, n, k, hk, hm, hj => by
    rw [longestLoop]
    cases k with
    | zero =>
      rw [if_pos ((nullable_iff r).mpr hm)]
      apply longestLoop_none
      intro j h
      by_cases hl : j ≤ s.length
      · exact hj (j + 1) (by omega) (by simp only [List.length_cons]; omega) ((deriv_iff c r _).mp h)
      · refine hj (s.length + 1) (by omega) (by simp) ((deriv_iff c r _).mp ?_)
        rw [List.take_length]
        rwa [List.take_of_length_le (by omega)] at h
    | succ k =>
      rw [longestLoop_some s (r.deriv c) _ (n + 1) k (by simpa using hk) ((deriv_iff c r _).mpr hm) (fun j h1 h2 h => ?_)]
      · congr 1; omega
      · exact hj (j + 1) (by omega) (by simp only [List.length_cons]; omega) ((deriv_iff c r _).mp h)

/-- No match at all. -/
theorem longest_none {r : Re} {s : Bytes} (h : ∀ u v, s = u ++ v → ¬ M r u) : r.longest s = Option.none :=
  longestLoop_none s r _ _ fun k => h _ (s.drop k) (List.take_append_drop k s).symm

/-- The longest match is `u`. -/
theorem longest_some {r : Re} {u v : Bytes} (h : M r u) (hn : ∀ x w, v = x ++ w → x ≠ [] → ¬ M r (u ++ x)) :
    r.longest (u ++ v) = some u.length := by
  rw [longest, longestLoop_some (u ++ v) r _ 0 u.length (by simp) (by rw [List.take_left]; exact h), Nat.zero_add]
  intro j h1 h2 hm
  rw [List.take_append, List.take_of_length_le (by omega)] at hm
  refine hn (v.take (j - u.length)) (v.drop (j - u.length)) (List.take_append_drop _ _).symm ?_ hm
  intro e
  simp only [List.length_append] at h2
  have := congrArg List.length e
  simp only [List.length_take, List.length_nil] at this
  omega

/-- What `longest` finds is a match, and a longest one. -/
theorem longest_spec {r : Re} {s : Bytes} {n : Nat} (h : r.longest s = some n) :
    n ≤ s.length ∧ M r (s.take n) ∧ ∀ j, n < j → j ≤ s.length → ¬ M r (s.take j) := by
  by_cases he : ∃ k, k ≤ s.length ∧ M r (s.take k)
  · have : ∃ k, (k ≤ s.length ∧ M r (s.take k)) ∧ ∀ j, k < j → j ≤ s.length → ¬ M r (s.take j) := by
      have aux : ∀ d k, s.length - k ≤ d → k ≤ s.length → M r (s.take k) →
          ∃ k, (k ≤ s.length ∧ M r (s.take k)) ∧ ∀ j, k < j → j ≤ s.length → ¬ M r (s.take j) := by
        intro d
        induction d with
        | zero => intro k h1 h2 h3; exact ⟨k, ⟨h2, h3⟩, fun j h4 h5 => by omega⟩
        | succ d ih =>
          intro k h1 h2 h3
          by_cases hx : ∃ j, k < j ∧ j ≤ s.length ∧ M r (s.take j)
          · obtain ⟨j, j1, j2, j3⟩ := hx
            exact ih j (by omega) j2 j3
          · exact ⟨k, ⟨h2, h3⟩, fun j h4 h5 h6 => hx ⟨j, h4, h5, h6⟩⟩
      obtain ⟨k, hk, hm⟩ := he
      exact aux _ k (Nat.le_refl _) hk hm
    obtain ⟨k, ⟨h1, h2⟩, h3⟩ := this
    have := longestLoop_some s r Option.none 0 k h1 h2 h3
    rw [longest, this] at h
    simp only [Nat.zero_add, Option.some.injEq] at h
    subst h
    exact ⟨h1, h2, h3⟩
  · rw [longest, longestLoop_none] at h
    · simp at h
    · intro k hk
      by_cases hl : k ≤ s.length
      · exact he ⟨k, hl, hk⟩
      · exact he ⟨s.length, Nat.le_refl _, by rw [List.take_length]; rwa [List.take_of_length_le (by omega)] at hk⟩

/-! ### First bytes, used bytes, needed bytes -/

/-- The bytes a word may begin with. -/
def first : Re → UInt8 → Bool
  | none, _ => false
  | eps, _ => false
  | cls p, c => p c
  | seq a b, c => a.first c || (a.nullable && b.first c)
  | alt a b, c => a.first c || b.first c
  | star a, c => a.first c

theorem m_first {r : Re} {w : Bytes} (h : M r w) : ∀ c s, w = c :: s → r.first c = true := by
  induction h with
  | eps => intro c s e; simp at e
  | cls h => intro c s e; simp only [List.cons.injEq] at e; exact e.1 ▸ h
  | @seq a b u v h1 h2 ih1 ih2 =>
    intro c s e
    simp only [first, Bool.or_eq_true, Bool.and_eq_true]
    cases u with
    | nil => exact .inr ⟨(nullable_iff a).mpr h1, ih2 c s e⟩
    | cons x u => exact .inl (ih1 c u (by simp only [List.cons_append, List.cons.injEq] at e; rw [e.1]))
  | left h ih => intro c s e; simp only [first, Bool.or_eq_true]; exact .inl (ih c s e)
  | right h ih => intro c s e; simp only [first, Bool.or_eq_true]; exact .inr (ih c s e)
  | nil => intro c s e; simp at e
  | @more a u v h1 h2 ih1 ih2 =>
    intro c s e
    cases u with
    | nil => exact ih2 c s e
    | cons x u => exact ih1 c u (by simp only [List.cons_append, List.cons.injEq] at e; rw [e.1])

/-- A rule that needs another first byte does not match. -/
theorem longest_first {r : Re} {c : UInt8} {s : Bytes} (hn : r.nullable = false) (h : r.first c = false) :
    r.longest (c :: s) = Option.none := by
  apply longest_none
  intro u v e hm
  cases u with
  | nil => rw [(nullable_iff r).mpr hm] at hn; cases hn
  | cons x u =>
    have := m_first hm x u rfl
    simp only [List.cons_append, List.cons.injEq] at e
    rw [e.1, this] at h; cases h

/-- The bytes that occur in words. -/
def uses : Re → UInt8 → Bool
  | none, _ => false
  | eps, _ => false
  | cls p, c => p c
  | seq a b, c => a.uses c || b.uses c
  | alt a b, c => a.uses c || b.uses c
  | star a, c => a.uses c

theorem m_uses {r : Re} {w : Bytes} (h : M r w) : ∀ c ∈ w, r.uses c = true := by
  induction h with
  | eps => simp
  | cls h => intro c hc; rw [List.mem_singleton.mp hc]; exact h
  | seq _ _ ih1 ih2 =>
    intro c hc
    simp only [uses, Bool.or_eq_true]
    exact (List.mem_append.mp hc).elim (fun h => .inl (ih1 c h)) (fun h => .inr (ih2 c h))
  | left _ ih => intro c hc; simp only [uses, Bool.or_eq_true]; exact .inl (ih c hc)
  | right _ ih => intro c hc; simp only [uses, Bool.or_eq_true]; exact .inr (ih c hc)
  | nil => simp
  | more _ _ ih1 ih2 =>
    intro c hc
    exact (List.mem_append.mp hc).elim (ih1 c) (ih2 c)

/-- A match ends before a byte that does not occur. -/
theorem m_stops {r : Re} {u x v w : Bytes} {c : UInt8} (e : c :: w = x ++ v) (hx : x ≠ []) (h : r.uses c = false) : ¬ M r (u ++ x) := by
  intro hm
  cases x with
  | nil => exact hx rfl
  | cons y x =>
    simp only [List.cons_append, List.cons.injEq] at e
    have := m_uses hm c (by rw [e.1]; simp)
    rw [this] at h; cases h

/-- The words all of whose bytes satisfy `q`. -/
def only (q : UInt8 → Bool) : Re → Re
  | none => none
  | eps => eps
  | cls p => cls fun c => p c && q c
  | seq a b => seq (a.only q) (b.only q)
  | alt a b => alt (a.only q) (b.only q)
  | star a => star (a.only q)

/-- Whether there is no word at all. -/
def void : Re → Bool
  | none => true
  | eps => false
  | cls p => (List.range 256).all fun n => !p n.toUInt8
  | seq a b => a.void || b.void
  | alt a b => a.void && b.void
  | star _ => false

theorem m_void {r : Re} {w : Bytes} (h : M r w) : r.void = false := by
  induction h with
  | eps => rfl
  | @cls p c h =>
    simp only [void]
    rw [List.all_eq_false]
    refine ⟨c.toNat, by simpa using c.toNat_lt, ?_⟩
    simpa using h
  | seq _ _ ih1 ih2 => simp [void, ih1, ih2]
  | left _ ih => simp [void, ih]
  | right _ ih => simp [void, ih]
  | nil => rfl
  | more _ _ _ _ => rfl

theorem m_only {q : UInt8 → Bool} {r : Re} {w : Bytes} (h : M r w) : (∀ c ∈ w, q c = true) → M (r.only q) w := by
  induction h with
  | eps => intro _; exact .eps
  | @cls p c h => intro hq; exact .cls (by simp [h, hq c])
  | seq _ _ ih1 ih2 => intro hq; exact .seq (ih1 fun c hc => hq c (by simp [hc])) (ih2 fun c hc => hq c (by simp [hc]))
  | left _ ih => intro hq; exact .left (ih hq)
  | right _ ih => intro hq; exact .right (ih hq)
  | nil => intro _; exact .nil
  | more _ _ ih1 ih2 => intro hq; exact .more (ih1 fun c hc => hq c (by simp [hc])) (ih2 fun c hc => hq c (by simp [hc]))

/-- No word is made of such bytes alone. -/
theorem m_needs {q : UInt8 → Bool} {r : Re} {w : Bytes} (hv : (r.only q).void = true) (hq : ∀ c ∈ w, q c = true) : ¬ M r w := fun h => by
  have := m_void (m_only h hq)
  rw [hv] at this; cases this

/-- The rule with the longest match wins, and the first of them. -/
theorem pick_cons_some {α : Type} {r : Re} {a : α} {rs : List (Re × α)} {s : Bytes} {n : Nat} (h : r.longest s = some n)
    (hr : ∀ x ∈ rs, ∀ k, x.1.longest s = some k → k ≤ n) : pick ((r, a) :: rs) s = some (n, a) := by
  have hp : ∀ (l : List (Re × α)), (∀ x ∈ l, ∀ k, x.1.longest s = some k → k ≤ n) → ∀ k b, pick l s = some (k, b) → k ≤ n := by
    intro l
    induction l with
    | nil => intro _ k b h; simp [pick] at h
    | cons x l ih =>
      obtain ⟨r', a'⟩ := x
      intro hl k b hk
      have ih' := ih fun x hx => hl x (List.mem_cons_of_mem _ hx)
      have hh := hl _ (List.mem_cons_self ..)
      simp only [pick] at hk
      split at hk
      · rename_i n' k' b' e1 e2
        split at hk
        · simp only [Option.some.injEq, Prod.mk.injEq] at hk
          exact hk.1 ▸ hh _ e1
        · simp only [Option.some.injEq, Prod.mk.injEq] at hk
          exact hk.1 ▸ ih' _ _ e2
      · rename_i n' e1 e2
        simp only [Option.some.injEq, Prod.mk.injEq] at hk
        exact hk.1 ▸ hh _ e1
      · exact ih' _ _ hk
  simp only [pick, h]
  split
  · rename_i k b e1 e2
    cases e1
    rw [if_pos (hp rs hr _ _ e2)]
  · rename_i e1 e2
    cases e1; rfl
  · rename_i e; cases e

theorem pick_cons_none {α : Type} {r : Re} {a : α} {rs : List (Re × α)} {s : Bytes} (h : r.longest s = Option.none) :
    pick ((r, a) :: rs) s = pick rs s := by
  simp only [pick, h]

/-- A rule with a shorter match loses. -/
theorem pick_cons_less {α : Type} {r : Re} {a b : α} {rs : List (Re × α)} {s : Bytes} {k : Nat} (h : pick rs s = some (k, b))
    (hr : ∀ n, r.longest s = some n → n < k) : pick ((r, a) :: rs) s = some (k, b) := by
  simp only [pick, h]
  split
  · rename_i n k' b' e1 e2
    simp only [Option.some.injEq, Prod.mk.injEq] at e2
    obtain ⟨rfl, rfl⟩ := e2
    rw [if_neg (by have := hr _ e1; omega)]
  · rename_i e; simp at e
  · rfl

end Re

end Libo
