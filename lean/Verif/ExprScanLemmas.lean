import Verif.ExprScan
import Verif.ExprScanSpec
import Verif.TextScanLemmas
/-!
# What the scanner of expressions makes of each token
-/

namespace Libo.Re
open Libo

/-! ### Matches that go on -/

/-- A byte that may follow bytes that satisfy `p`. -/
def next (p : UInt8 → Bool) : Re → UInt8 → Bool
  | none, _ => false
  | eps, _ => false
  | cls q, c => q c
  | seq a b, c => a.next p c || (!(a.only p).void && b.next p c)
  | alt a b, c => a.next p c || b.next p c
  | star a, c => a.next p c

theorem m_next {p : UInt8 → Bool} {r : Re} {w : Bytes} (h : M r w) :
    ∀ u c x, w = u ++ c :: x → (∀ d ∈ u, p d = true) → r.next p c = true := by
  have split : ∀ {a b u x : Bytes} {c : UInt8}, a ++ b = u ++ c :: x → (∃ a', a = u ++ c :: a') ∨ ∃ u', u = a ++ u' ∧ b = u' ++ c :: x := by
    intro a b u x c e
    rcases List.append_eq_append_iff.mp e with ⟨u', h1, h2⟩ | ⟨a', h1, h2⟩
    · exact .inr ⟨u', h1, h2⟩
    · cases a' with
      | nil => exact .inr ⟨[], by simpa using h1.symm, by simpa using h2.symm⟩
      | cons d a' =>
        simp only [List.cons_append, List.cons.injEq] at h2
        exact .inl ⟨a', by rw [h1, h2.1]⟩
  induction h with
  | eps => intro u c x e _; simp at e
  | cls h =>
    intro u c x e _
    have : u = [] := by
      have := congrArg List.length e
      simp only [List.length_append, List.length_cons, List.length_nil] at this
      exact List.length_eq_zero_iff.mp (by omega)
    subst this
    simp only [List.nil_append, List.cons.injEq] at e
    exact e.1 ▸ h
  | seq h1 h2 ih1 ih2 =>
    intro u c x e hu
    simp only [next, Bool.or_eq_true, Bool.and_eq_true, Bool.not_eq_true']
    rcases split e with ⟨a', ha⟩ | ⟨u', h3, h4⟩
    · exact .inl (ih1 u c a' ha hu)
    · exact .inr ⟨m_void (m_only h1 fun d hd => hu d (by simp [h3, hd])), ih2 u' c x h4 fun d hd => hu d (by simp [h3, hd])⟩
  | left _ ih => intro u c x e hu; simp only [next, Bool.or_eq_true]; exact .inl (ih u c x e hu)
  | right _ ih => intro u c x e hu; simp only [next, Bool.or_eq_true]; exact .inr (ih u c x e hu)
  | nil => intro u c x e _; simp at e
  | more h1 h2 ih1 ih2 =>
    intro u c x e hu
    rcases split e with ⟨a', ha⟩ | ⟨u', h3, h4⟩
    · exact ih1 u c a' ha hu
    · exact ih2 u' c x h4 fun d hd => hu d (by simp [h3, hd])

/-- A match ends before a byte that cannot follow. -/
theorem longest_next_le {p : UInt8 → Bool} {r : Re} {u v : Bytes} {k : Nat} (hu : ∀ c ∈ u, p c = true)
    (hv : ∀ c, v.head? = some c → r.next p c = false) (h : r.longest (u ++ v) = some k) : k ≤ u.length := by
  obtain ⟨h1, h2, _⟩ := longest_spec h
  rcases Nat.lt_or_ge u.length k with hk | hk
  · cases v with
    | nil => simp only [List.append_nil] at h1; omega
    | cons c w =>
      obtain ⟨j, rfl⟩ : ∃ j, k = u.length + (j + 1) := ⟨k - u.length - 1, by omega⟩
      rw [List.take_length_add_append, List.take_succ_cons] at h2
      have := m_next (p := p) h2 u c _ rfl hu
      rw [hv c rfl] at this; cases this
  · exact hk

/-- What may follow the bytes `w`. -/
def derivs : Bytes → Re → Re
  | [], r => r
  | c :: w, r => derivs w (r.deriv c)

theorem loop_closed : ∀ (w : Bytes) (r : Re) (best : Option Nat) (n : Nat) (v : Bytes),
    (∀ c, v.head? = some c → (derivs w r).first c = false) → longestLoop best n r (w ++ v) = longestLoop best n r w
  | [], r, best, n, v, h => by
    cases v with
    | nil => rfl
    | cons c v =>
      rw [List.nil_append, longestLoop, longestLoop]
      apply longestLoop_none
      intro k hk
      have := m_first ((deriv_iff c r _).mp hk) c _ rfl
      rw [show r.first c = false from h c rfl] at this; cases this
  | c :: w, r, best, n, v, h => by
    rw [List.cons_append, longestLoop, longestLoop]
    exact loop_closed w _ _ _ v h

/-- Nothing behind `w` matters if no rule goes on. -/
theorem pick_closed {α : Type} {w v : Bytes} : ∀ (rs : List (Re × α)),
    (∀ c, v.head? = some c → ∀ x ∈ rs, (derivs w x.1).first c = false) → pick rs (w ++ v) = pick rs w
  | [], _ => rfl
  | (r, a) :: rs, h => by
    have hr : r.longest (w ++ v) = r.longest w := loop_closed w r _ _ v fun c hc => h c hc _ (List.mem_cons_self ..)
    simp only [pick, hr, pick_closed rs fun c hc x hx => h c hc x (List.mem_cons_of_mem _ hx)]

end Libo.Re

namespace Libo.Syn
open Libo
open Libo.Text (ch oneOf noneOf range word plus seqs alts digit dot floatConst hexRe Env Buf addEsc strtol strtoul16 forall_byte)

theorem scan_skip (E : Env) (q : Bool) (b : Buf) : ∀ (k : Nat) (s : Bytes), scan E k q b s = scan E 0 q b (s.drop k)
  | 0, s => rfl
  | k + 1, [] => by simp [scan]
  | k + 1, c :: s => by
    rw [scan, scan_skip E q b k s]; rfl

theorem scan_skip' (E : Env) (q : Bool) (b : Buf) {u s : Bytes} {k : Nat} (h : u.length = k) :
    scan E k q b (u ++ s) = scan E 0 q b s := by rw [scan_skip, ← h, List.drop_left]

/-! ### Words with a fixed spelling -/

/-- What the rules that can begin with `c` may go on with behind `c :: w`. -/
def rests (c : UInt8) (w : Bytes) : List Re := (rules.filter fun y => y.1.first c || y.1.nullable).map fun y => Re.derivs (c :: w) y.1

/-- The rules go on behind `c :: w` only with a byte for which `x` is true. -/
def closedBy (c : UInt8) (w : Bytes) (x : UInt8 → Bool) : Bool :=
  (List.range 256).all fun n => ((rests c w).all fun r => !r.first (UInt8.ofNat n)) || x (UInt8.ofNat n)

theorem pick_fixed {c : UInt8} {w s : Bytes} {x : UInt8 → Bool} (hw : closedBy c w x = true) (hs : ∀ c, s.head? = some c → x c = false) :
    Re.pick rules (c :: w ++ s) = Re.pick rules (c :: w) := by
  rw [List.cons_append, Text.pick_filter, Text.pick_filter (s := w), ← List.cons_append]
  refine Re.pick_closed _ fun d hd y hy => ?_
  have h2 := List.all_eq_true.mp hw d.toNat (by simpa using d.toNat_lt)
  rw [UInt8.ofNat_toNat, hs d hd, Bool.or_false] at h2
  have h1 := List.all_eq_true.mp h2 _ (List.mem_map_of_mem (f := fun y => Re.derivs (c :: w) y.1) hy)
  simpa using h1

/-- The token a rule without conversions stands for. -/
def fixedTok (c : UInt8) : Act → Option Tok
  | .single => singleTok c
  | .tok t => some t
  | _ => none

/-- What has to be checked for a fixed spelling. -/
def fixedOk (x : UInt8 → Bool) : Bytes × Tok → Bool
  | ([], _) => false
  | (c :: w, _) => closedBy c w x

theorem symbols_closed : (symbols.all fun y => fixedOk (symbolMore y.1) y) = true := by decide +kernel

/-- The rule for a symbol. -/
def symbolRule (y : Bytes × Tok) : Prop := ∃ c w a, y.1 = c :: w ∧ Re.pick rules (c :: w) = some (w.length + 1, a) ∧ fixedTok c a = some y.2

theorem symbols_rule : ∀ y ∈ symbols, symbolRule y := by
  simp only [symbols, List.forall_mem_cons]
  repeat' apply And.intro
  all_goals first
    | exact ⟨_, _, _, rfl, rfl, rfl⟩
    | simp

theorem take_fixed {c : UInt8} {w s : Bytes} : (c :: (w ++ s)).take (w.length + 1) = c :: w := by rw [List.take_succ_cons, List.take_left]

theorem scan_fixed (E : Env) {c : UInt8} {w s : Bytes} {a : Act} {t : Tok} (hp : Re.pick rules (c :: w ++ s) = some (w.length + 1, a))
    (ht : fixedTok c a = some t) : scan E 0 false none (c :: w ++ s) = (scan E 0 false none s).map (t :: ·) := by
  rw [List.cons_append] at hp ⊢
  rw [scan]
  simp only [Bool.false_eq_true, if_false, hp]
  cases a <;> simp only [fixedTok, reduceCtorEq, Option.some.injEq] at ht
  · simp only [ht, Option.bind_some, Nat.add_sub_cancel, scan_skip' E false none rfl]
  · simp only [ht, Nat.add_sub_cancel, scan_skip' E false none rfl]

theorem scan_symbol (E : Env) {w s : Bytes} {t : Tok} (h : (w, t) ∈ symbols) (hs : ∀ c, s.head? = some c → symbolMore w c = false) :
    scan E 0 false none (w ++ s) = (scan E 0 false none s).map (t :: ·) := by
  obtain ⟨c, w', a, rfl, hp, ht⟩ := symbols_rule _ h
  have hc := List.all_eq_true.mp symbols_closed _ h
  exact scan_fixed E (by rw [pick_fixed (x := symbolMore (c :: w')) hc hs, hp]) ht

/-! ### Values and addresses -/

/-- Actions that make a number. -/
def isNum : Act → Bool
  | .int | .hex | .float | .char8 | .tru | .fls | .nil => true
  | _ => false

theorem scan_num (E : Env) {c : UInt8} {w s : Bytes} {a : Act} {x : UAtom} (hp : Re.pick rules (c :: w ++ s) = some (w.length + 1, a))
    (ha : isNum a = true) (hx : numOf E a (c :: w) = some x) :
    scan E 0 false none (c :: w ++ s) = (scan E 0 false none s).map (.num x :: ·) := by
  rw [List.cons_append] at hp ⊢
  rw [scan]
  simp only [Bool.false_eq_true, if_false, hp, take_fixed]
  cases a <;> simp only [isNum, reduceCtorEq, Bool.false_eq_true] at ha <;>
    simp only [hx, Option.bind_some, Nat.add_sub_cancel, scan_skip' E false none rfl]

theorem keywords_closed : (keywords.all fun w => fixedOk wordChar (w, .dot)) = true := by decide +kernel

theorem pick_keyword {c : UInt8} {w s : Bytes} (h : c :: w ∈ keywords) (hs : ∀ c, s.head? = some c → wordChar c = false) :
    Re.pick rules (c :: w ++ s) = Re.pick rules (c :: w) :=
  pick_fixed (x := wordChar) (List.all_eq_true.mp keywords_closed _ h) hs

theorem scan_tru (E : Env) {w s : Bytes} {a : UAtom} (h : w ∈ [n! "true", n! "True", n! "TRUE"]) (ha : UAtom.fresh.setTrue = some a)
    (hs : ∀ c, s.head? = some c → wordChar c = false) : scan E 0 false none (w ++ s) = (scan E 0 false none s).map (.num a :: ·) := by
  simp only [List.mem_cons, List.not_mem_nil, or_false] at h
  rcases h with rfl | rfl | rfl <;> exact scan_num E (a := .tru) (by rw [pick_keyword (by decide) hs]; rfl) rfl ha

theorem scan_fls (E : Env) {w s : Bytes} {a : UAtom} (h : w ∈ [n! "false", n! "False", n! "FALSE"]) (ha : UAtom.fresh.setFalse = some a)
    (hs : ∀ c, s.head? = some c → wordChar c = false) : scan E 0 false none (w ++ s) = (scan E 0 false none s).map (.num a :: ·) := by
  simp only [List.mem_cons, List.not_mem_nil, or_false] at h
  rcases h with rfl | rfl | rfl <;> exact scan_num E (a := .fls) (by rw [pick_keyword (by decide) hs]; rfl) rfl ha

theorem scan_nil (E : Env) {w s : Bytes} {a : UAtom} (h : w ∈ [n! "nil", n! "Nil", n! "NIL"]) (ha : UAtom.fresh.setNil = some a)
    (hs : ∀ c, s.head? = some c → wordChar c = false) : scan E 0 false none (w ++ s) = (scan E 0 false none s).map (.num a :: ·) := by
  simp only [List.mem_cons, List.not_mem_nil, or_false] at h
  rcases h with rfl | rfl | rfl <;> exact scan_num E (a := .nil) (by rw [pick_keyword (by decide) hs]; rfl) rfl ha

theorem scan_lambda (E : Env) {s : Bytes} (hs : ∀ c, s.head? = some c → wordChar c = false) :
    scan E 0 false none (n! "lambda" ++ s) = (scan E 0 false none s).map (.lambda :: ·) :=
  scan_fixed E (a := .tok .lambda) (by rw [pick_keyword (by decide) hs]; rfl) rfl

theorem castS8 (c : UInt8) : castS M8 (c.toNat : Int) = if c < 128 then (c.toNat : Int) else (c.toNat : Int) - 256 := by
  revert c
  exact forall_byte (by decide +kernel)

theorem scan_char (E : Env) {s : Bytes} {c : UInt8} {a : UAtom} (hc : c ≠ 10)
    (ha : UAtom.fresh.setInt8 (if c < 128 then c.toNat else (c.toNat : Int) - 256) = some a) :
    scan E 0 false none ([39, c, 39] ++ s) = (scan E 0 false none s).map (.num a :: ·) := by
  refine scan_num E (c := 39) (w := [c, 39]) (a := .char8) ?_ rfl ?_
  · rw [List.cons_append, Text.pick_filter]
    refine Re.pick_cons_some (rs := []) (Re.longest_some (u := [39, c, 39]) (v := s) ?_ ?_) (by simp)
    · exact .seq (u := [39]) (.cls (by simp)) (.seq (u := [c]) (.cls (by simp [hc])) (.cls (by simp)))
    · intro x w _ hx hm
      have := Text.m_char8 hm
      simp only [List.length_append, List.length_cons, List.length_nil] at this
      exact hx (List.length_eq_zero_iff.mp (by omega))
  · simp only [numOf, List.getElem?_cons_succ, List.getElem?_cons_zero, Option.getD_some]
    rw [castS8]; exact ha

theorem scan_addr (E : Env) {w s : Bytes} (hw : w ≠ []) (ha : ∀ c ∈ w, addrChar c = true) (hs : ∀ c, s.head? = some c → addrChar c = false) :
    scan E 0 false none (47 :: w ++ s) = (scan E 0 false none s).map (.addr (47 :: w) :: ·) := by
  have hl : addrRe.longest (47 :: w ++ s) = some (w.length + 1) := by
    refine Re.longest_some (u := 47 :: w) (v := s) ?_ ?_
    · exact .seq (u := [47]) (.cls (by simp)) (Text.m_plus_cls hw ha)
    · intro x y e hx hm
      obtain ⟨u, v, e', h1, h2⟩ := Re.m_seq.mp hm
      obtain ⟨d, rfl, hd⟩ := Re.m_cls.mp h1
      simp only [List.cons_append, List.nil_append, List.cons.injEq] at e'
      cases x with
      | nil => exact hx rfl
      | cons c x =>
        have h3 := Re.m_uses h2 c (by rw [← e'.2]; simp)
        have h4 : (addrChar c || addrChar c) = true := h3
        rw [Bool.or_self] at h4
        rw [hs c (by rw [e]; rfl)] at h4; cases h4
  have hp : Re.pick rules (47 :: w ++ s) = some (w.length + 1, .addr) := by
    rw [List.cons_append, Text.pick_filter]
    refine Text.pick_at (pre := [(oneOf singles, Act.single), (word [47, 61], .tok (.op .divEq))]) (post := []) hl (by simp) ?_
    intro x hx k hk
    have h0 : 0 < w.length := List.length_pos_iff.mpr hw
    simp only [List.mem_cons, List.not_mem_nil, or_false] at hx
    rcases hx with rfl | rfl
    · have := Text.longest_cls_le hk; omega
    · obtain ⟨h1, h2, _⟩ := Re.longest_spec hk
      have h3 := Text.m_word_eq _ h2
      cases w with
      | nil => exact absurd rfl hw
      | cons d w =>
        have := congrArg List.length h3
        rw [List.length_take, Nat.min_eq_left h1] at this
        obtain rfl : k = 2 := this
        simp only [List.cons_append, List.take_succ_cons, List.take_zero, List.cons.injEq, and_true, true_and] at h3
        have := ha d (by simp)
        rw [h3] at this
        exact absurd this (by decide)
  rw [List.cons_append] at hp ⊢
  rw [scan]
  simp only [Bool.false_eq_true, if_false, hp, take_fixed, Nat.add_sub_cancel, scan_skip' E false none rfl]

end Libo.Syn
