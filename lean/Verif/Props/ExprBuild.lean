import Verif.ExprBuild
import Verif.Name
/-!
# C60: what the parser makes of the notation of expressions

Every notation is a function call: the parser makes the same expression of `a + b` as of `add(a, b)`, of `c ? t : f` as of `if(c, t, f)`,
and so on, and a call is accepted exactly if there is a function with that name and it takes that many arguments.
-/

namespace Libo.Props
open Libo Libo.Expr Libo.Text Libo.Syn

/-! ### Functions and numbers of arguments -/

/-- A function with `required` and `optional` arguments (negative: any number of them) can be called with `n`. -/
def Accepts (required : Nat) (optional : Int) (n : Nat) : Prop := required ≤ n ∧ (optional < 0 ∨ (n : Int) ≤ required + optional)

theorem arityOk_iff (e : Entry) (n : Nat) : e.arityOk n = true ↔ Accepts e.required e.optional n := by
  unfold Entry.arityOk Accepts
  split
  · subst_vars; simp; omega
  · split
    · simp; omega
    · split
      · simp; omega
      · split
        · simp; omega
        · simp; omega

theorem table_names : (table.map (·.name)).Nodup := by decide +kernel

theorem find_of_nodup {l : List Entry} (h : (l.map (·.name)).Nodup) {e : Entry} (he : e ∈ l) :
    l.find? (fun x => x.name == e.name) = some e := by
  induction l with
  | nil => cases he
  | cons a as ih =>
    simp only [List.map_cons, List.nodup_cons] at h
    rcases List.mem_cons.1 he with rfl | he
    · simp
    · have hn : a.name ≠ e.name := fun hh => h.1 (hh ▸ List.mem_map_of_mem he)
      have : (a.name == e.name) = false := by simpa using hn
      rw [List.find?_cons, this]
      exact ih h.2 he

/-- Every function of the table is found under its name, and a name that is found is the name of that function. -/
theorem C60_lookup (name : Bytes) (e : Entry) : lookup name = some e ↔ e ∈ table ∧ e.name = name := by
  constructor
  · intro h
    exact ⟨List.mem_of_find?_eq_some h, by simpa using List.find?_some h⟩
  · rintro ⟨h, rfl⟩
    exact find_of_nodup table_names h

theorem prefixFn_of {P : Printf} {name : Bytes} {e : Entry} (h : lookup name = some e) {ts : List Tm}
    (ha : Accepts e.required e.optional ts.length) : prefixFn P name ts = .app (e.fn P) ts := by
  simp only [prefixFn, h, if_pos ((arityOk_iff e _).2 ha)]

/-- A call is accepted if there is a function with that name that takes that many arguments: the expression is that function with
these arguments. -/
theorem C60_call (P : Printf) (e : Entry) (he : e ∈ table) (as : List Cst) (ts : List Tm) (hb : builds P as = .ok ts)
    (ha : Accepts e.required e.optional ts.length) : build P (.call e.name as) = .ok (.app (e.fn P) ts) := by
  simp only [build, hb, Out.bind]
  rw [prefixFn_of ((C60_lookup _ _).2 ⟨he, rfl⟩) ha]
  rfl

/-- Otherwise the text is rejected. -/
theorem C60_call_rejected (P : Printf) (f : Bytes) (as : List Cst) (ts : List Tm) (hb : builds P as = .ok ts)
    (h : ¬ ∃ e ∈ table, e.name = f ∧ Accepts e.required e.optional ts.length) : build P (.call f as) = .err := by
  simp only [build, hb, Out.bind]
  unfold prefixFn
  cases hl : lookup f with
  | none => rfl
  | some e =>
    have hm := (C60_lookup f e).1 hl
    have : ¬ e.arityOk ts.length = true := fun hh => h ⟨e, hm.1, hm.2, (arityOk_iff e _).1 hh⟩
    simp only [if_neg this]
    rfl

theorem builds_length {P : Printf} {as : List Cst} {ts : List Tm} (h : builds P as = .ok ts) : ts.length = as.length := by
  induction as generalizing ts with
  | nil => simp only [builds] at h; cases h; rfl
  | cons a as ih =>
    simp only [builds] at h
    cases ha : build P a with
    | ub => simp [ha, Out.bind] at h
    | err => simp [ha, Out.bind] at h
    | ok t =>
      cases hs : builds P as with
      | ub => simp [ha, hs, Out.bind] at h
      | err => simp [ha, hs, Out.bind] at h
      | ok us =>
        simp only [ha, hs, Out.bind] at h
        cases h
        simp [ih hs]

/-! ### Operators -/

/-- The functions of the infix operators. -/
def opCall : Syn.Op → Option Bytes
  | .add => some (n! "add")
  | .sub => some (n! "sub")
  | .mul => some (n! "mul")
  | .div => some (n! "div")
  | .mod => some (n! "mod")
  | .eq => some (n! "eq")
  | .neq => some (n! "ne")
  | .lt => some (n! "lt")
  | .lte => some (n! "le")
  | .gt => some (n! "gt")
  | .gte => some (n! "ge")
  | .and => some (n! "and")
  | .or => some (n! "or")
  | .andand => some (n! "andalso")
  | .oror => some (n! "orelse")
  | _ => none

/-- An infix operator is a call of its function. -/
theorem C60_infix (P : Printf) (o : Syn.Op) (f : Bytes) (ho : opCall o = some f) (l r : Cst) :
    build P (.infix o l r) = build P (.call f [l, r]) := by
  simp only [build, builds]
  cases build P l with
  | ub => rfl
  | err => rfl
  | ok a =>
    cases build P r with
    | ub => rfl
    | err => rfl
    | ok b => cases o <;> cases ho <;> rfl

/-- The operator in an assigning operator. -/
def plainOp : Syn.Op → Option Syn.Op
  | .addEq => some .add
  | .subEq => some .sub
  | .mulEq => some .mul
  | .divEq => some .div
  | .modEq => some .mod
  | .powEq => some .pow
  | _ => none

/-- Numbers, `true`, strings: what is no blob and no bundle. -/
def PlainAtom (a : UAtom) : Prop := a.tag ≠ 46 ∧ a.tag ≠ 98 ∧ (a.tag = 115 → ∃ p s, a.w = .str p s)

mutual
/-- No functions in it, and only plain atoms. -/
def PlainTm : Tm → Prop
  | .atom a => PlainAtom a
  | .addr _ => True
  | .null => True
  | .broken => False
  | .app _ args => PlainTms args
  | .fn .. => False
def PlainTms : List Tm → Prop
  | [] => True
  | t :: ts => PlainTm t ∧ PlainTms ts
end

theorem copyAtom_plain {a : UAtom} (h : PlainAtom a) : copyAtom a = some a := by
  obtain ⟨tag, al, w⟩ := a
  obtain ⟨h1, h2, h3⟩ := h
  unfold copyAtom
  simp only [UAtom.tag] at h1 h2 h3
  by_cases ht : tag = 115
  · obtain ⟨p, s, hw⟩ := h3 ht
    simp only [UAtom.w] at hw
    subst hw
    simp [ht]
  · simp [ht, h1, h2]

mutual
theorem copy_plain : ∀ {t : Tm}, PlainTm t → t.copy = some t
  | .atom a, h => by simp only [Tm.copy, copyAtom_plain h, Option.map]
  | .addr _, _ => rfl
  | .null, _ => rfl
  | .broken, h => h.elim
  | .app f args, h => by simp only [Tm.copy, copies_plain h, Option.map]
  | .fn .., h => h.elim
theorem copies_plain : ∀ {ts : List Tm}, PlainTms ts → copies ts = some ts
  | [], _ => rfl
  | t :: ts, h => by
    simp only [copies]
    rw [copy_plain h.1, copies_plain h.2]
    rfl
end

/-- `l += r` is `assign(l, l + r)`, and so on. -/
theorem C60_op_assign (P : Printf) (o q : Syn.Op) (ho : plainOp o = some q) (l r : Cst) (hl : ∀ t, build P l = .ok t → PlainTm t) :
    build P (.infix o l r) = build P (.call (n! "assign") [l, .infix q l r]) := by
  simp only [build, builds]
  cases h : build P l with
  | ub => rfl
  | err => rfl
  | ok a =>
    cases build P r with
    | ub => rfl
    | err => rfl
    | ok b =>
      have hc := copy_plain (hl a h)
      cases o <;> cases ho <;>
        (simp only [Out.bind, infixAssign, hc, Out.ofOption, assigning, if_true]; rfl)

/-- `!e` is `not(e)`. -/
theorem C60_not (P : Printf) (e : Cst) : build P (.not e) = build P (.call (n! "not") [e]) := by
  simp only [build, builds]
  cases build P e <;> rfl

/-- `-e` is `0 - e`. -/
theorem C60_neg (P : Printf) (e : Cst) (z : UAtom) (hz : UAtom.setInt32 .fresh 0 = some z) :
    build P (.neg e) = build P (.infix .sub (.num z) e) := by
  have hz' : zeroAtom = some z := hz
  simp only [build, hz']
  cases build P e <;> rfl

/-- `c ? t : f` is `if(c, t, f)`. -/
theorem C60_conditional (P : Printf) (c t f : Cst) : build P (.cond c t f) = build P (.call (n! "if") [c, t, f]) := by
  simp only [build, builds]
  cases build P c with
  | ub => rfl
  | err => rfl
  | ok a =>
    cases build P t with
    | ub => rfl
    | err => rfl
    | ok b => cases build P f <;> rfl

set_option maxRecDepth 4000

theorem lookup_list : lookup (n! "list") = some ⟨n! "list", 0, -1, fun _ => .prim Expr.list⟩ := rfl
theorem lookup_nth : lookup (n! "nth") = some ⟨n! "nth", 2, -1, fun _ => .prim Expr.nth⟩ := rfl
theorem lookup_apply : lookup (n! "apply") = some ⟨n! "apply", 2, -1, fun _ => .apply⟩ := rfl
theorem lookup_bundle : lookup (n! "bundle") = some ⟨n! "bundle", 0, -1, fun _ => .prim bundleFn⟩ := rfl

/-- `[a, b, …]` is `list(a, b, …)`. -/
theorem C60_list (P : Printf) (as : List Cst) : build P (.list as) = build P (.call (n! "list") as) := by
  simp only [build]
  cases builds P as with
  | ub => rfl
  | err => rfl
  | ok ts =>
    simp only [Out.bind]
    rw [prefixFn_of lookup_list (by simp [Accepts])]
    rfl

/-- `l[[i, j, …]]` is `nth(l, i, j, …)`. -/
theorem C60_nth (P : Printf) (l : Cst) (is : List Cst) (h : is ≠ []) :
    build P (.nth l is) = build P (.call (n! "nth") (l :: is)) := by
  simp only [build, builds]
  cases build P l with
  | ub => rfl
  | err => rfl
  | ok a =>
    cases hb : builds P is with
    | ub => rfl
    | err => rfl
    | ok ts =>
      have hlen := builds_length hb
      have : 0 < is.length := List.length_pos_iff.2 h
      simp only [Out.bind]
      rw [prefixFn_of lookup_nth (by simp [Accepts]; omega)]
      rfl

/-! ### Assignments -/

/-- An address: it begins with a slash. -/
def IsAddr (a : Bytes) : Prop := ∃ r, a = 47 :: r

theorem isTarget_iff (a : Bytes) : isTarget a = true ↔ IsAddr a := by
  cases a with
  | nil => simp [isTarget, IsAddr]
  | cons x xs => simp [isTarget, IsAddr]

/-- `a = e` is `assign(a, e)`. -/
theorem C60_assign (P : Printf) (a : Bytes) (e : Cst) (ha : IsAddr a) :
    build P (.assign a e) = build P (.call (n! "assign") [.addr a, e]) := by
  simp only [build, builds, (isTarget_iff a).2 ha]
  cases build P e <;> rfl

/-- `++a` and `--a` are `a = plus1(a)` and `a = minus1(a)`. -/
theorem C60_prefix_step (P : Printf) (up : Bool) (a : Bytes) (ha : IsAddr a) :
    build P (.step true up a) = build P (.assign a (.call (if up then n! "plus1" else n! "minus1") [.addr a])) := by
  simp only [build, builds, (isTarget_iff a).2 ha, prefixStep, if_true, Out.bind]
  cases up <;> rfl

/-- `a++` and `a--` are `prog1(a, ++a)` and `prog1(a, --a)`. -/
theorem C60_postfix_step (P : Printf) (up : Bool) (a : Bytes) (ha : IsAddr a) :
    build P (.step false up a) = build P (.call (n! "prog1") [.addr a, .step true up a]) := by
  simp only [build, builds, (isTarget_iff a).2 ha, prefixStep, postfixStep, if_true, Out.bind]
  cases up <;> rfl

/-- `a[[i]] = e` is `assign_to_index(a, i, e)`. -/
theorem C60_assign_element (P : Printf) (a : Bytes) (i e : Cst) (ha : IsAddr a) :
    build P (.assignIdx a [i] e) = build P (.call (n! "assign_to_index") [.addr a, i, e]) := by
  simp only [build, builds, (isTarget_iff a).2 ha, toIndex, if_true]
  cases build P i with
  | ub => rfl
  | err => rfl
  | ok t => cases build P e <;> rfl

/-- `a[[i, j, …]] = e` is `assign_to_index(a, [i, j, …], e)`. -/
theorem C60_assign_elements (P : Printf) (a : Bytes) (i j : Cst) (is : List Cst) (e : Cst) (ha : IsAddr a) :
    build P (.assignIdx a (i :: j :: is) e) = build P (.call (n! "assign_to_index") [.addr a, .list (i :: j :: is), e]) := by
  simp only [build]
  simp only [builds]
  simp only [build]
  cases hb : builds P (i :: j :: is) with
  | ub => simp only [builds] at hb; simp only [hb]; rfl
  | err => simp only [builds] at hb; simp only [hb]; rfl
  | ok ts =>
    have hlen := builds_length hb
    simp only [builds] at hb
    simp only [hb, toIndex, (isTarget_iff a).2 ha, if_true]
    match ts, hlen with
    | t :: u :: ts, _ => cases build P e <;> rfl

/-- `a[[x:y]] = e` is `assign_to_index(a, aseq(x, y), e)`. -/
theorem C60_assign_range (P : Printf) (a : Bytes) (x y e : Cst) (ha : IsAddr a) :
    build P (.assignRange a x y e) = build P (.call (n! "assign_to_index") [.addr a, .call (n! "aseq") [x, y], e]) := by
  simp only [build, builds, (isTarget_iff a).2 ha, toIndex, if_true]
  cases build P x with
  | ub => rfl
  | err => rfl
  | ok t =>
    cases build P y with
    | ub => rfl
    | err => rfl
    | ok t => cases build P e <;> rfl

/-- In `a[[x:y:z]] = e` the step is in the middle: it is `assign_to_index(a, aseq(x, z, y), e)`. -/
theorem C60_assign_range_step (P : Printf) (a : Bytes) (x y z e : Cst) (ha : IsAddr a) (tx ty tz te : Tm)
    (hx : build P x = .ok tx) (hy : build P y = .ok ty) (hz : build P z = .ok tz) (he : build P e = .ok te) :
    build P (.assignRange3 a x y z e) = build P (.call (n! "assign_to_index") [.addr a, .call (n! "aseq") [x, z, y], e]) := by
  simp only [build, builds, hx, hy, hz, he, (isTarget_iff a).2 ha, toIndex, if_true]
  rfl

/-- What does not begin with a slash cannot be assigned to. -/
theorem C60_assign_rejected (P : Printf) (a : Bytes) (e x y z : Cst) (is : List Cst) (pre up : Bool) (ha : ¬ IsAddr a) (te tx ty tz : Tm) (ts : List Tm)
    (he : build P e = .ok te) (hx : build P x = .ok tx) (hy : build P y = .ok ty) (hz : build P z = .ok tz) (hi : builds P is = .ok ts) :
    build P (.assign a e) = .err ∧ build P (.step pre up a) = .err ∧ build P (.assignIdx a is e) = .err ∧
    build P (.assignRange a x y e) = .err ∧ build P (.assignRange3 a x y z e) = .err ∧ build P (.coalesceEq a e) = .err := by
  have hn : isTarget a = false := by
    cases h : isTarget a with
    | false => rfl
    | true => exact absurd ((isTarget_iff a).1 h) ha
  refine ⟨?_, ?_, ?_, ?_, ?_, ?_⟩
  · simp [build, he, hn, Out.bind]
  · cases pre <;> simp [build, prefixStep, postfixStep, hn, Out.bind]
  · simp [build, he, hi, hn, Out.bind, toIndex]
  · simp [build, he, hx, hy, hn, Out.bind, toIndex]
  · simp [build, he, hx, hy, hz, hn, Out.bind, toIndex]
  · simp [build, he, hn, Out.bind, coalesceFn, orStop]

/-- `a ?? e` is `if(bound(a), a, e)`. -/
theorem C60_coalesce (P : Printf) (a : Bytes) (e : Cst) (ha : IsAddr a) :
    build P (.coalesce a e) = build P (.call (n! "if") [.call (n! "bound") [.addr a], .addr a, e]) := by
  simp only [build, builds, coalesceFn, (isTarget_iff a).2 ha, if_true]
  cases build P e <;> rfl

/-- `a ??= e` is `a = a ?? e`. -/
theorem C60_coalesce_assign (P : Printf) (a : Bytes) (e : Cst) (ha : IsAddr a) :
    build P (.coalesceEq a e) = build P (.assign a (.coalesce a e)) := by
  simp only [build, builds, coalesceFn, (isTarget_iff a).2 ha, if_true]
  cases build P e <;> rfl

/-! ### The other notations -/

/-- Parentheses only group. -/
theorem C60_parentheses (P : Printf) (e : Cst) : build P (.paren e) = build P e := by simp only [build]

/-- `a.b` is `getbundlemember(a, b)`, also with a string in front; `a.b = e` is `assigntobundlemember(a, b, e)`. -/
theorem C60_member (P : Printf) (s a b : Bytes) (e : Cst) :
    build P (.dot a b) = build P (.call (n! "getbundlemember") [.addr a, .addr b]) ∧
    build P (.strDot s b) = build P (.call (n! "getbundlemember") [.str s, .addr b]) ∧
    build P (.assignDot a b e) = build P (.call (n! "assigntobundlemember") [.addr a, .addr b, e]) := by
  refine ⟨rfl, rfl, ?_⟩
  simp only [build, builds]
  cases build P e <;> rfl

/-- Backquotes are calls of `value`, and `quote(…)` gives the text between its parentheses to `quote`. -/
theorem C60_value (P : Printf) (s : Bytes) :
    build P (.value s) = build P (.call (n! "value") [.str s]) ∧ build P (.valueAddr s) = build P (.call (n! "value") [.addr s]) ∧
    build P (.quoted s) = build P (.call (n! "quote") [.str s]) := ⟨rfl, rfl, rfl⟩

/-- `(lambda(…), a, b, …)` is `apply(lambda(…), a, b, …)`. -/
theorem C60_apply (P : Printf) (p : Params) (b as : List Cst) (h : as ≠ []) :
    build P (.applyFn p b as) = build P (.call (n! "apply") (.lam p b :: as)) := by
  simp only [build, builds]
  cases builds P b with
  | ub => rfl
  | err => rfl
  | ok bs =>
    simp only [Out.bind]
    cases lamFn P p bs with
    | ub => rfl
    | err => rfl
    | ok f =>
      cases hb : builds P as with
      | ub => rfl
      | err => rfl
      | ok ts =>
        have hlen := builds_length hb
        have : 0 < as.length := List.length_pos_iff.2 h
        simp only [Out.bind]
        rw [prefixFn_of lookup_apply (by simp [Accepts]; omega)]
        rfl

/-- `a(x, y, …)` is `apply(a, x, y, …)`; without arguments it is accepted although `apply` needs two. -/
theorem C60_address_call (P : Printf) (a : Bytes) (as : List Cst) :
    (as ≠ [] → build P (.addrCall a as) = build P (.call (n! "apply") (.addr a :: as))) ∧
    build P (.addrCall a []) = .ok (.app .apply [.addr a]) ∧ build P (.call (n! "apply") [.addr a]) = .err := by
  refine ⟨?_, rfl, rfl⟩
  intro h
  simp only [build, builds]
  cases hb : builds P as with
  | ub => rfl
  | err => rfl
  | ok ts =>
    have hlen := builds_length hb
    have : 0 < as.length := List.length_pos_iff.2 h
    simp only [Out.bind]
    rw [prefixFn_of lookup_apply (by simp [Accepts]; omega)]
    rfl

/-- Addresses (as strings) and arguments by turns. -/
def interleaved : List Bytes → List Cst → List Cst
  | a :: as, c :: cs => .str a :: c :: interleaved as cs
  | _, _ => []

theorem builds_interleaved (P : Printf) : ∀ (as : List Bytes) (cs : List Cst), as.length = cs.length →
    builds P (interleaved as cs) = (builds P cs).bind fun ts => .ok (msgArgs as ts)
  | [], [], _ => rfl
  | a :: as, c :: cs, h => by
    have ih := builds_interleaved P as cs (by simpa using h)
    simp only [interleaved, builds, build]
    cases build P c with
    | ub => rfl
    | err => rfl
    | ok t =>
      simp only [Out.bind, ih]
      cases builds P cs <;> rfl

/-- `{a : x, b : y, …}` is `bundle("a", x, "b", y, …)`. -/
theorem C60_bundle (P : Printf) (as : List Bytes) (cs : List Cst) (h : as.length = cs.length) :
    build P (.bundle as cs) = build P (.call (n! "bundle") (interleaved as cs)) := by
  simp only [build, builds_interleaved P as cs h]
  cases builds P cs with
  | ub => rfl
  | err => rfl
  | ok ts =>
    simp only [Out.bind]
    rw [prefixFn_of lookup_bundle (by simp [Accepts])]
    rfl

/-- A number or an address alone is `progn` of it; everything else that can stand alone is the expression itself. -/
theorem C60_item (P : Printf) (c : Cst) :
    (c.isExpr = true → buildItem P c = build P c) ∧ (∀ a, buildItem P (.num a) = build P (.call (n! "progn") [.num a])) ∧
    (∀ a, buildItem P (.addr a) = build P (.call (n! "progn") [.addr a])) := by
  refine ⟨?_, fun _ => rfl, fun _ => rfl⟩
  intro h
  cases c <;> first | rfl | cases h

/-! ### Functions -/

/-- The expression an argument of `lambda` becomes: itself, or `prog1` of it. -/
def asExpr (t : Tm) : Tm := if t.isExpr then t else .app (.prim Expr.prog1) [t]

/-- What the parser can put into the body of a function: not NULL, and copied without change. -/
def Usable (t : Tm) : Prop := t ≠ .null ∧ (t.isExpr = false → t.copy = some t)

theorem prog1Of_eq (P : Printf) (t : Tm) : prog1Of P t = .app (.prim Expr.prog1) [t] := rfl

theorem bodyRest_eq (P : Printf) (brk : Bool) : ∀ (ts acc : List Tm), acc ≠ [] → (∀ t ∈ ts, Usable t) →
    (brk = true → ∀ t ∈ ts.dropLast, t.isExpr = true) → bodyRest P brk acc ts = .ok (acc ++ ts.map asExpr)
  | [], acc, _, _, _ => by simp [bodyRest]
  | t :: ts, a :: acc, _, hu, hb => by
    have ht := hu t (by simp)
    have ih := fun e => bodyRest_eq P brk ts (a :: acc ++ [e]) (by simp) (fun t h => hu t (by simp [h]))
      (fun hk t h => hb hk t (by cases ts with
        | nil => simp at h
        | cons u us => simp [List.dropLast_cons_of_ne_nil, h]))
    simp only [List.cons_append, List.append_assoc, List.nil_append] at ih
    unfold bodyRest
    by_cases he : t.isExpr = true
    · simp only [he, if_true]
      have hn := ht.1
      cases t with
      | null => exact absurd rfl hn
      | _ => simp [ih, asExpr, he]
    · have he' : t.isExpr = false := by simpa using he
      have : restExpr P brk t ts = .ok (asExpr t) := by
        cases brk with
        | true =>
          cases ts with
          | nil => simp [restExpr, asExpr, he', prog1Of_eq]
          | cons u us =>
            have := hb rfl t (by simp)
            exact absurd this he
        | false => simp [restExpr, ht.2 he', Out.ofOption, Out.bind, asExpr, he', prog1Of_eq]
      simp only [he', Bool.false_eq_true, if_false, this, Out.bind]
      simp [ih]

theorem bodyOf_eq (P : Printf) (brk : Bool) (t : Tm) (ts : List Tm) (hu : ∀ u ∈ t :: ts, Usable u)
    (hb : brk = true → ∀ u ∈ ts.dropLast, u.isExpr = true) : bodyOf P brk (t :: ts) = .ok ((t :: ts).map asExpr) := by
  have ht := hu t (by simp)
  have ih := fun e => bodyRest_eq P brk ts [e] (by simp) (fun u h => hu u (by simp [h])) hb
  unfold bodyOf
  by_cases he : t.isExpr = true
  · have hn := ht.1
    simp only [he, if_true]
    cases t with
    | null => exact absurd rfl hn
    | _ => simp [ih, asExpr, he]
  · have he' : t.isExpr = false := by simpa using he
    simp [he', ht.2 he', Out.ofOption, Out.bind, ih, asExpr, prog1Of_eq]

/-- `lambda(x, …)` and `lambda([], …)`: the function has these parameters, and its body has an expression for every argument behind, in
order. -/
theorem C60_lambda (P : Printf) (p : Params) (b : List Cst) (ts : List Tm) (hb : builds P b = .ok ts) (hne : ts ≠ [])
    (hu : ∀ t ∈ ts, Usable t) (hp : ∀ x xs, p ≠ .many (x :: xs)) :
    build P (.lam p b) = .ok (.fn (match p with | .one x => [x] | .many xs => xs) (ts.map asExpr)) := by
  simp only [build, hb, Out.bind]
  cases ts with
  | nil => exact absurd rfl hne
  | cons t ts =>
    have := bodyOf_eq P false t ts hu (by simp)
    match p, hp with
    | .one x, _ => simp only [lamFn, this, Out.bind]
    | .many [], _ => simp only [lamFn, this, Out.bind]
    | .many (x :: xs), hp => exact absurd rfl (hp x xs)

/-- The same for `lambda([x, y, …], …)` if only the first and the last of the arguments behind are something else than expressions.
(The full statement is without `hx`; `C60_lambda_full_fails` shows that it does not hold.) -/
theorem C60_lambda_brackets_partial (P : Printf) (x : Bytes) (xs : List Bytes) (b : List Cst) (t : Tm) (ts : List Tm)
    (hb : builds P b = .ok (t :: ts)) (hu : ∀ u ∈ t :: ts, Usable u) (hx : ∀ u ∈ ts.dropLast, u.isExpr = true) :
    build P (.lam (.many (x :: xs)) b) = .ok (.fn (x :: xs) ((t :: ts).map asExpr)) := by
  simp only [build, hb, Out.bind, lamFn, bodyOf_eq P true t ts hu fun _ => hx]

/-! ### What does not work -/

/-- There is no function for `^`: an expression with it is accepted, but is NULL. -/
theorem C60_power (P : Printf) (l r : Cst) (tl tr : Tm) (hl : build P l = .ok tl) (hr : build P r = .ok tr) :
    build P (.infix .pow l r) = .ok .null := by
  simp only [build, hl, hr, Out.bind]
  rfl

/-- The number of a token. -/
def lit (i : Int) : UAtom := (UAtom.setInt32 .fresh i).getD .fresh

/-- `2 ^ 3` is accepted and does nothing; `1, 2 ^ 3` and the evaluation of `1 + (2 ^ 3)` are undefined. -/
theorem C60_power_full_fails (E : Text.Env) (P : Printf) (n : Nat) (b : Option (Int × Option Bytes)) :
    parseExpr P [.num (lit 2), .op .pow, .num (lit 3)] = .ok [] ∧
    parseExpr P [.num (lit 1), .comma, .num (lit 2), .op .pow, .num (lit 3)] = .ub ∧
    evalToks E P n b [.num (lit 1), .op .add, .lpar, .num (lit 2), .op .pow, .num (lit 3), .rpar] = none := by
  refine ⟨rfl, rfl, ?_⟩
  have hp : parseExpr P [.num (lit 1), .op .add, .lpar, .num (lit 2), .op .pow, .num (lit 3), .rpar] =
    .ok [.app (.prim (arg2 add)) [.atom (lit 1), .null]] := rfl
  simp only [evalToks, hp]
  match n with
  | 0 => rfl
  | 1 => rfl
  | n + 2 => rfl

/-- `lambda([x], x, 1, x + 1)`: the second expression of the body is broken, so that calling the function is undefined. -/
theorem C60_lambda_full_fails (E : Text.Env) (P : Printf) (n : Nat) (b : Option (Int × Option Bytes)) :
    build P (.lam (.many [n! "x"]) [.str (n! "x"), .num (lit 1), .infix .add (.str (n! "x")) (.num (lit 1))]) =
      .ok (.fn [n! "x"] [asExpr (.atom (strAtom (n! "x"))), .broken, .app (.prim (arg2 add)) [.atom (strAtom (n! "x")), .atom (lit 1)]]) ∧
    evalToks E P n b [.lpar, .lambda, .lpar, .lbrk, .str (n! "x"), .rbrk, .comma, .str (n! "x"), .comma, .num (lit 1), .comma,
      .str (n! "x"), .op .add, .num (lit 1), .rpar, .comma, .num (lit 5), .rpar] = none := by
  refine ⟨rfl, ?_⟩
  have hp : parseExpr P [.lpar, .lambda, .lpar, .lbrk, .str (n! "x"), .rbrk, .comma, .str (n! "x"), .comma, .num (lit 1), .comma,
      .str (n! "x"), .op .add, .num (lit 1), .rpar, .comma, .num (lit 5), .rpar] =
    .ok [.app .apply [.fn [n! "x"] [asExpr (.atom (strAtom (n! "x"))), .broken,
      .app (.prim (arg2 add)) [.atom (strAtom (n! "x")), .atom (lit 1)]], .atom (lit 5)]] := rfl
  simp only [evalToks, hp]
  match n with
  | 0 => rfl
  | 1 => rfl
  | n + 2 => rfl

/-! ### Examples -/

-- `/a += 2 * 3`
example (P : Printf) : parseExpr P [.addr (n! "/a"), .op .addEq, .num (lit 2), .op .mul, .num (lit 3)] =
    .ok [.app .assign [.addr (n! "/a"), .app (.prim (arg2 add)) [.addr (n! "/a"), .app (.prim (arg2 multiply)) [.atom (lit 2), .atom (lit 3)]]]] := rfl

-- the condition on the left side of `C60_op_assign`
example (P : Printf) : ∀ t, build P (.addr (n! "/a")) = .ok t → PlainTm t := by
  intro t h
  simp only [build] at h
  cases h
  trivial

-- `strlen` takes one argument: `strlen(1, 2)` and `nosuch(1)` are rejected
example (P : Printf) : parseExpr P [.str (n! "strlen"), .lpar, .num (lit 1), .comma, .num (lit 2), .rpar] = .err ∧
    parseExpr P [.str (n! "nosuch"), .lpar, .num (lit 1), .rpar] = .err := ⟨rfl, rfl⟩

-- `if` takes two or three
example : Accepts 2 1 2 ∧ Accepts 2 1 3 ∧ ¬ Accepts 2 1 4 ∧ ¬ Accepts 2 1 1 ∧ Accepts 2 (-1) 9 := by simp [Accepts]

-- `lambda(x, x + 1, x)` meets the conditions of `C60_lambda`
example (P : Printf) : ∃ ts, builds P [.infix .add (.str (n! "x")) (.num (lit 1)), .str (n! "x")] = .ok ts ∧ ts ≠ [] ∧ ∀ t ∈ ts, Usable t := by
  refine ⟨[.app (.prim (arg2 add)) [.atom (strAtom (n! "x")), .atom (lit 1)], .atom (strAtom (n! "x"))], rfl, by simp, ?_⟩
  simp only [List.mem_cons, List.not_mem_nil, or_false, forall_eq_or_imp, forall_eq]
  exact ⟨⟨by simp, fun h => by cases h⟩, ⟨by simp, fun _ => rfl⟩⟩

-- `1 + 2, /a` is evaluated
example (E : Text.Env) (P : Printf) : ∃ st v, evalToks E P 5 none [.num (lit 1), .op .add, .num (lit 2)] = some (some (st, 0, some [v])) ∧ v.getInt32 = some 3 :=
  ⟨_, _, rfl, rfl⟩

end Libo.Props
