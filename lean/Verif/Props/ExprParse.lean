import Verif.ExprParseLemmas
/-!
# C59: the parser of the expression language finds the tree the precedence declarations ask for

`Cst.toks` (the tokens of a tree) and `Cst.ok` (every operand belongs to the operator of the higher level) are defined in
`ExprSyntax.lean` without reference to the parser.
-/

namespace Libo.Props
open Libo Libo.Syn

/-- **C59**: a text has a tree exactly if it is the tokens of that tree and the tree respects the precedences; every other text is a syntax error. -/
theorem C59_parse_iff (ts : List Tok) (p : Prog) : parse ts = some p ↔ ts = p.toks ∧ p.ok := parse_iff ts p

/-- **C59**: the same for the text of a function. -/
theorem C59_parseFn_iff (ts : List Tok) (p : Params) (b : List Cst) :
    parseFn ts = some (p, b) ↔ ts = (Cst.lam p b).toks ∧ b ≠ [] ∧ oks b := parseFn_iff ts p b

/-- **C59**: the grammar with its precedences is not ambiguous. -/
theorem C59_unambiguous {p q : Prog} (hp : p.ok) (hq : q.ok) (h : p.toks = q.toks) : p = q := by
  have h1 := (parse_iff p.toks p).mpr ⟨rfl, hp⟩
  rw [h, (parse_iff q.toks q).mpr ⟨rfl, hq⟩] at h1
  exact (Option.some.inj h1).symm

/-- One expression is a text. -/
theorem C59_single {c : Cst} (hc : c.ok) (hi : c.isItem = true) : parse c.toks = some ⟨false, [c]⟩ :=
  (parse_iff _ _).mpr ⟨by simp [Prog.toks, argToks], by simp, ⟨hc, trivial⟩, by simpa using hi⟩

/-- Operands without operators of their own: names, numbers, and everything in brackets. -/
def Closed (c : Cst) : Prop := c.ok ∧ c.opens = none ∧ c.ends = []

/-- **C59**: of two operators the one with the higher level binds its operands first; at the same level it is the left one, except for
the assigning operators. -/
theorem C59_two_operators (o₁ o₂ : Op) {a b c : Cst} (ha : Closed a) (hb : Closed b) (hc : Closed c) :
    parse (a.toks ++ .op o₁ :: (b.toks ++ .op o₂ :: c.toks)) =
      some ⟨false, [if o₁.level > o₂.level ∨ (o₁.level = o₂.level ∧ o₁.level ≠ 1) then .infix o₂ (.infix o₁ a b) c
                    else .infix o₁ a (.infix o₂ b c)]⟩ := by
  have l1 := level_bounds o₁
  have l2 := level_bounds o₂
  have n1 : o₁.level ≠ 2 := by cases o₁ <;> decide
  obtain ⟨a1, a2, a3⟩ := ha
  obtain ⟨b1, b2, b3⟩ := hb
  obtain ⟨c1, c2, c3⟩ := hc
  split
  · rename_i h
    have := @C59_single (.infix o₂ (.infix o₁ a b) c) ⟨⟨a1, b1, by simp [leaves, a3], by simp [holds, b2]⟩, c1,
      by simp only [leaves, Cst.ends, b3, List.mem_singleton, forall_eq]; unfold takes; omega, by simp [holds, c2]⟩ rfl
    simpa [Cst.toks] using this
  · rename_i h
    have := @C59_single (.infix o₁ a (.infix o₂ b c)) ⟨a1, ⟨b1, c1, by simp [leaves, b3], by simp [holds, c2]⟩, by simp [leaves, a3],
      by simp only [holds, Cst.opens, Option.mem_def, Option.some.injEq, forall_eq']; unfold takes; omega⟩ rfl
    simpa [Cst.toks] using this

/-- **C59**: in parentheses every expression is an operand of its own, whatever is around it. -/
theorem C59_parentheses {e : Cst} (h : e.ok) (he : e.isExpr = true) : Closed (.paren e) :=
  ⟨⟨he, h⟩, rfl, by rw [Cst.ends]; all_goals simp⟩

/-- **C59**: the sign and `!` apply to the operand only, before every infix operator (also before `^`). -/
theorem C59_prefix (o : Op) {a b : Cst} (ha : Closed a) (hb : Closed b) :
    parse (.op .sub :: (a.toks ++ .op o :: b.toks)) = some ⟨false, [.infix o (.neg a) b]⟩ ∧
    parse (.bang :: (a.toks ++ .op o :: b.toks)) = some ⟨false, [.infix o (.not a) b]⟩ := by
  have l1 := level_bounds o
  obtain ⟨a1, a2, a3⟩ := ha
  obtain ⟨b1, b2, b3⟩ := hb
  constructor
  · have := @C59_single (.infix o (.neg a) b) ⟨⟨a1, by simp [holds, a2]⟩, b1,
      by simp only [leaves, Cst.ends, a3, List.mem_singleton, forall_eq]; unfold takes; omega, by simp [holds, b2]⟩ rfl
    simpa [Cst.toks] using this
  · have := @C59_single (.infix o (.not a) b) ⟨⟨a1, by simp [holds, a2]⟩, b1,
      by simp only [leaves, Cst.ends, a3, List.mem_singleton, forall_eq]; unfold takes; omega, by simp [holds, b2]⟩ rfl
    simpa [Cst.toks] using this

/-- **C59**: `??` and `??=` bind stronger than every infix operator: `/x ?? a + b` is `(/x ?? a) + b`, and also `/x ??= a + b` assigns only `a`. -/
theorem C59_coalesce (o : Op) (x : Bytes) {a b : Cst} (ha : Closed a) (hb : Closed b) :
    parse (.addr x :: .dblq :: (a.toks ++ .op o :: b.toks)) = some ⟨false, [.infix o (.coalesce x a) b]⟩ ∧
    parse (.addr x :: .dblqeq :: (a.toks ++ .op o :: b.toks)) = some ⟨false, [.infix o (.coalesceEq x a) b]⟩ := by
  have l1 := level_bounds o
  obtain ⟨a1, a2, a3⟩ := ha
  obtain ⟨b1, b2, b3⟩ := hb
  constructor
  · have := @C59_single (.infix o (.coalesce x a) b) ⟨⟨a1, by simp [holds, a2]⟩, b1,
      by simp only [leaves, Cst.ends, a3, List.mem_singleton, forall_eq]; unfold takes; omega, by simp [holds, b2]⟩ rfl
    simpa [Cst.toks] using this
  · have := @C59_single (.infix o (.coalesceEq x a) b) ⟨⟨a1, by simp [holds, a2]⟩, b1,
      by simp only [leaves, Cst.ends, a3, List.mem_singleton, forall_eq]; unfold takes; omega, by simp [holds, b2]⟩ rfl
    simpa [Cst.toks] using this

/-- **C59**: an assignment takes everything to its right. -/
theorem C59_assign (x : Bytes) {e : Cst} (he : e.ok) : parse (.addr x :: .assign :: e.toks) = some ⟨false, [.assign x e]⟩ := by
  have := @C59_single (.assign x e) he rfl
  simpa [Cst.toks] using this

/-- **C59**: conditionals nest to the right, and their condition is a whole expression of operators. -/
theorem C59_conditional (o : Op) (ho : o.level ≠ 1) {a b c d e f : Cst} (ha : Closed a) (hb : Closed b) (hc : Closed c) (hd : Closed d)
    (he : Closed e) (hf : Closed f) :
    parse (a.toks ++ .op o :: (b.toks ++ .quest :: (c.toks ++ .colon :: (d.toks ++ .quest :: (e.toks ++ .colon :: f.toks))))) =
      some ⟨false, [.cond (.infix o a b) c (.cond d e f)]⟩ := by
  have l1 := level_bounds o
  have n1 : o.level ≠ 2 := by cases o <;> decide
  obtain ⟨a1, a2, a3⟩ := ha
  obtain ⟨b1, b2, b3⟩ := hb
  obtain ⟨d1, d2, d3⟩ := hd
  obtain ⟨f1, f2, f3⟩ := hf
  have := @C59_single (.cond (.infix o a b) c (.cond d e f))
    ⟨⟨a1, b1, by simp [leaves, a3], by simp [holds, b2]⟩, hc.1, ⟨d1, he.1, f1, by simp [leaves, d3], by simp [holds, f2]⟩,
      by simp only [leaves, Cst.ends, b3, List.mem_singleton, forall_eq]; unfold takes; omega,
      by simp only [holds, Cst.opens, Option.mem_def, Option.some.injEq, forall_eq']; unfold takes; omega⟩ rfl
  simpa [Cst.toks] using this

/-! ### Parentheses and brackets of accepted texts balance -/

/-- Opening minus closing tokens: `(` and `)`, `{` and `}`, `[` and `]`, `[[` and `]]`. -/
def bal (o c : Tok → Bool) (ts : List Tok) : Int := (ts.countP o : Int) - ts.countP c

theorem bal_append (o c : Tok → Bool) (s t : List Tok) : bal o c (s ++ t) = bal o c s + bal o c t := by
  simp [bal, List.countP_append]; omega

theorem bal_cons (o c : Tok → Bool) (a : Tok) (t : List Tok) :
    bal o c (a :: t) = (if o a then 1 else 0) - (if c a then 1 else 0) + bal o c t := by
  simp [bal, List.countP_cons]; split <;> split <;> omega

def isLpar : Tok → Bool | .lpar => true | _ => false
def isRpar : Tok → Bool | .rpar => true | _ => false
def isLbrk : Tok → Bool | .lbrk => true | _ => false
def isRbrk : Tok → Bool | .rbrk => true | _ => false
def isLdbl : Tok → Bool | .ldbl => true | _ => false
def isRdbl : Tok → Bool | .rdbl => true | _ => false
def isLbrace : Tok → Bool | .lbrace => true | _ => false
def isRbrace : Tok → Bool | .rbrace => true | _ => false

/-- A pair of opening and closing tokens. -/
inductive Pair : (Tok → Bool) → (Tok → Bool) → Prop
  | par : Pair isLpar isRpar
  | brk : Pair isLbrk isRbrk
  | dbl : Pair isLdbl isRdbl
  | brace : Pair isLbrace isRbrace

theorem bal_params {o c : Tok → Bool} (hp : Pair o c) : ∀ ps, bal o c (paramToks ps) = 0
  | [] => rfl
  | [p] => by cases hp <;> rfl
  | p :: q :: ps => by
    have := bal_params hp (q :: ps)
    simp only [paramToks, bal_cons]
    rw [this]
    cases hp <;> rfl

theorem bal_Params {o c : Tok → Bool} (hp : Pair o c) (p : Params) : bal o c p.toks = 0 := by
  cases p with
  | one p => cases hp <;> rfl
  | many ps =>
    simp only [Params.toks, bal_cons, bal_append, bal_params hp]
    cases hp <;> rfl

mutual
theorem bal_toks {o c : Tok → Bool} (hp : Pair o c) : ∀ e : Cst, bal o c e.toks = 0
  | .num a => by cases hp <;> simp [Cst.toks, bal, isLpar, isRpar, isLbrk, isRbrk, isLdbl, isRdbl, isLbrace, isRbrace]
  | .str a => by cases hp <;> simp [Cst.toks, bal, isLpar, isRpar, isLbrk, isRbrk, isLdbl, isRdbl, isLbrace, isRbrace]
  | .addr a => by cases hp <;> simp [Cst.toks, bal, isLpar, isRpar, isLbrk, isRbrk, isLdbl, isRdbl, isLbrace, isRbrace]
  | .quoted a => by cases hp <;> simp [Cst.toks, bal, isLpar, isRpar, isLbrk, isRbrk, isLdbl, isRdbl, isLbrace, isRbrace]
  | .dot a b => by cases hp <;> simp [Cst.toks, bal, isLpar, isRpar, isLbrk, isRbrk, isLdbl, isRdbl, isLbrace, isRbrace]
  | .strDot a b => by cases hp <;> simp [Cst.toks, bal, isLpar, isRpar, isLbrk, isRbrk, isLdbl, isRdbl, isLbrace, isRbrace]
  | .value a => by cases hp <;> simp [Cst.toks, bal, isLpar, isRpar, isLbrk, isRbrk, isLdbl, isRdbl, isLbrace, isRbrace]
  | .valueAddr a => by cases hp <;> simp [Cst.toks, bal, isLpar, isRpar, isLbrk, isRbrk, isLdbl, isRdbl, isLbrace, isRbrace]
  | .step p u a => by cases hp <;> cases p <;> cases u <;> simp [Cst.toks, bal, stepTok, List.countP_cons, isLpar, isRpar, isLbrk, isRbrk, isLdbl, isRdbl, isLbrace, isRbrace]
  | .lam p b => by
    have h1 := bal_args hp b
    have h2 := bal_Params hp p
    simp only [Cst.toks, bal_cons, bal_append, h1, h2]; cases hp <;> rfl
  | .paren e => by
    have h1 := bal_toks hp e
    simp only [Cst.toks, bal_cons, bal_append, h1]; cases hp <;> rfl
  | .bundle as cs => by
    have h1 := bal_msgs hp cs as
    simp only [Cst.toks, bal_cons, bal_append, h1]; cases hp <;> rfl
  | .call f as => by
    have h1 := bal_args hp as
    simp only [Cst.toks, bal_cons, bal_append, h1]; cases hp <;> rfl
  | .addrCall f as => by
    have h1 := bal_args hp as
    simp only [Cst.toks, bal_cons, bal_append, h1]; cases hp <;> rfl
  | .infix o l r => by
    have h1 := bal_toks hp l
    have h2 := bal_toks hp r
    simp only [Cst.toks, bal_cons, bal_append, h1, h2]; cases hp <;> rfl
  | .cond c t f => by
    have h1 := bal_toks hp c
    have h2 := bal_toks hp t
    have h3 := bal_toks hp f
    simp only [Cst.toks, bal_cons, bal_append, h1, h2, h3]; cases hp <;> rfl
  | .nth l is => by
    have h1 := bal_toks hp l
    have h2 := bal_args hp is
    simp only [Cst.toks, bal_cons, bal_append, h1, h2]; cases hp <;> rfl
  | .not e => by
    have h1 := bal_toks hp e
    simp only [Cst.toks, bal_cons, h1]; cases hp <;> rfl
  | .neg e => by
    have h1 := bal_toks hp e
    simp only [Cst.toks, bal_cons, h1]; cases hp <;> rfl
  | .assign a e => by
    have h1 := bal_toks hp e
    simp only [Cst.toks, bal_cons, h1]; cases hp <;> rfl
  | .assignDot a b e => by
    have h1 := bal_toks hp e
    simp only [Cst.toks, bal_cons, h1]; cases hp <;> rfl
  | .assignIdx a is e => by
    have h1 := bal_toks hp e
    have h2 := bal_args hp is
    simp only [Cst.toks, bal_cons, bal_append, h1, h2]; cases hp <;> rfl
  | .assignRange a x y e => by
    have h1 := bal_toks hp e
    have h2 := bal_toks hp x
    have h3 := bal_toks hp y
    simp only [Cst.toks, bal_cons, bal_append, h1, h2, h3]; cases hp <;> rfl
  | .assignRange3 a x y z e => by
    have h1 := bal_toks hp e
    have h2 := bal_toks hp x
    have h3 := bal_toks hp y
    have h4 := bal_toks hp z
    simp only [Cst.toks, bal_cons, bal_append, h1, h2, h3, h4]; cases hp <;> rfl
  | .coalesce a e => by
    have h1 := bal_toks hp e
    simp only [Cst.toks, bal_cons, h1]; cases hp <;> rfl
  | .coalesceEq a e => by
    have h1 := bal_toks hp e
    simp only [Cst.toks, bal_cons, h1]; cases hp <;> rfl
  | .list as => by
    have h1 := bal_args hp as
    simp only [Cst.toks, bal_cons, bal_append, h1]; cases hp <;> rfl
  | .applyFn p b as => by
    have h1 := bal_args hp as
    have h2 := bal_args hp b
    have h3 := bal_Params hp p
    simp only [Cst.toks, bal_cons, bal_append, h1, h2, h3]; cases hp <;> rfl
theorem bal_args {o c : Tok → Bool} (hp : Pair o c) : ∀ es : List Cst, bal o c (argToks es) = 0
  | [] => rfl
  | [e] => by rw [argToks_one]; exact bal_toks hp e
  | e :: d :: es => by
    have h1 := bal_toks hp e
    have h2 := bal_args hp (d :: es)
    rw [argToks_cons (by simp), bal_append, bal_cons, h1, h2]
    cases hp <;> rfl
theorem bal_msgs {o c : Tok → Bool} (hp : Pair o c) : ∀ (es : List Cst) (as : List Bytes), bal o c (msgToks as es) = 0
  | [], as => by cases as <;> rfl
  | _ :: _, [] => rfl
  | [e], a :: as => by
    have h1 := bal_toks hp e
    rw [msgToks_one, bal_cons, bal_cons, h1]
    cases hp <;> rfl
  | e :: d :: es, a :: as => by
    have h1 := bal_toks hp e
    have h2 := bal_msgs hp (d :: es) as
    rw [msgToks_cons (by simp), bal_cons, bal_cons, bal_append, bal_cons, h1, h2]
    cases hp <;> rfl
end

/-- **C59**: a text whose parentheses, brackets, double brackets or braces do not balance is an error. -/
theorem C59_balance {ts : List Tok} {p : Prog} (h : parse ts = some p) {o c : Tok → Bool} (hp : Pair o c) : ts.countP o = ts.countP c := by
  obtain ⟨rfl, _⟩ := (parse_iff _ _).mp h
  have : bal o c p.toks = 0 := by
    rw [Prog.toks, bal_append, bal_args hp]
    split
    · cases hp <;> rfl
    · rfl
  unfold bal at this
  omega

/-! ### Cases -/

/-- An int32 number in a text. -/
def num (n : Nat) : Cst := .num (.mk 0x69 false (.bits n))
def tnum (n : Nat) : Tok := .num (.mk 0x69 false (.bits n))

theorem closed_num (n : Nat) : Closed (num n) := ⟨trivial, rfl, by rw [num, Cst.ends]; all_goals simp⟩

/-- `1 + 2 * 3` -/
example : parse [tnum 1, .op .add, tnum 2, .op .mul, tnum 3] = some ⟨false, [.infix .add (num 1) (.infix .mul (num 2) (num 3))]⟩ :=
  C59_two_operators .add .mul (closed_num 1) (closed_num 2) (closed_num 3)

/-- `1 - 2 - 3` is `(1 - 2) - 3`, and so is `2 ^ 3 ^ 2`. -/
example : parse [tnum 2, .op .pow, tnum 3, .op .pow, tnum 2] = some ⟨false, [.infix .pow (.infix .pow (num 2) (num 3)) (num 2)]⟩ :=
  C59_two_operators .pow .pow (closed_num 2) (closed_num 3) (closed_num 2)

/-- `(1 + 2) * 3` -/
example : parse [.lpar, tnum 1, .op .add, tnum 2, .rpar, .op .mul, tnum 3, .op .add, tnum 4] =
    some ⟨false, [.infix .add (.infix .mul (.paren (.infix .add (num 1) (num 2))) (num 3)) (num 4)]⟩ :=
  C59_two_operators .mul .add
    (C59_parentheses (e := .infix .add (num 1) (num 2)) ⟨trivial, trivial, by simp [leaves, num, Cst.ends], by simp [holds, num, Cst.opens]⟩ rfl)
    (closed_num 3) (closed_num 4)

/-- `-2 ^ 2` is `(-2) ^ 2`. -/
example : parse [.op .sub, tnum 2, .op .pow, tnum 2] = some ⟨false, [.infix .pow (.neg (num 2)) (num 2)]⟩ :=
  (C59_prefix .pow (closed_num 2) (closed_num 2)).1

/-- `/a ??= 1 + 2` is `(/a ??= 1) + 2`. -/
example : parse [.addr [0x2f, 0x61], .dblqeq, tnum 1, .op .add, tnum 2] =
    some ⟨false, [.infix .add (.coalesceEq [0x2f, 0x61] (num 1)) (num 2)]⟩ :=
  (C59_coalesce .add _ (closed_num 1) (closed_num 2)).2

/-- `/a = /b = 1 + 2` -/
example : parse [.addr [0x2f, 0x61], .assign, .addr [0x2f, 0x62], .assign, tnum 1, .op .add, tnum 2] =
    some ⟨false, [.assign [0x2f, 0x61] (.assign [0x2f, 0x62] (.infix .add (num 1) (num 2)))]⟩ :=
  C59_assign [0x2f, 0x61] (e := .assign [0x2f, 0x62] (.infix .add (num 1) (num 2)))
    ⟨trivial, trivial, by simp [leaves, num, Cst.ends], by simp [holds, num, Cst.opens]⟩

/-- `1 < 2 ? 3 : 4 ? 5 : 6` -/
example : parse [tnum 1, .op .lt, tnum 2, .quest, tnum 3, .colon, tnum 4, .quest, tnum 5, .colon, tnum 6] =
    some ⟨false, [.cond (.infix .lt (num 1) (num 2)) (num 3) (.cond (num 4) (num 5) (num 6))]⟩ :=
  C59_conditional .lt (by decide) (closed_num 1) (closed_num 2) (closed_num 3) (closed_num 4) (closed_num 5) (closed_num 6)

/-- A single number in parentheses is an error, and so is a comma at the end. -/
example : parse [.lpar, tnum 3, .rpar] = none ∧ parse [tnum 3, .comma] = none ∧ parse [.comma, tnum 3] = some ⟨true, [num 3]⟩ :=
  ⟨rfl, rfl, rfl⟩

/-- `((/a + 1)`: the parentheses do not balance. -/
example : parse [.lpar, .lpar, .addr [0x2f, 0x61], .op .add, tnum 1, .rpar] = none := by
  cases h : parse [.lpar, .lpar, .addr [0x2f, 0x61], .op .add, tnum 1, .rpar] with
  | none => rfl
  | some p => exact absurd (C59_balance h .par) (by decide)

/-- `lambda([x, y], x + y)` -/
example : parseFn [.lambda, .lpar, .lbrk, .str [0x78], .comma, .str [0x79], .rbrk, .comma, .str [0x78], .op .add, .str [0x79], .rpar] =
    some (.many [[0x78], [0x79]], [.infix .add (.str [0x78]) (.str [0x79])]) :=
  (C59_parseFn_iff _ _ _).mpr ⟨rfl, by simp, ⟨trivial, trivial, by simp [leaves, Cst.ends], by simp [holds, Cst.opens]⟩, trivial⟩

end Libo.Props
