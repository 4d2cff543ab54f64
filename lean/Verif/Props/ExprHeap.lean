import Verif.ExprHeap
import Verif.Name
/-!
# Copying and freeing expressions (C86)

The specification: an expression is a tree; a tree is at an address of a memory if the blocks that the pointers lead to hold its
parts, and `own` lists these blocks.
-/

namespace Libo.Props.EH
open Libo Libo.EHeap

/-! ## Specification: trees, and where they are in memory -/

/-- An element of a list. -/
inductive HAtom where
  | num (tag : UInt8) (bits : Nat)
  | str (s : Option Bytes)

/-- What a record of a function says. -/
structure HRec where
  name : Option Bytes := none
  sig : Option Bytes := none
  doc : Option Bytes := none
  nreq : Int := 0
  req : Option (List (Option Bytes)) := none
  nopt : Int := 0
  opt : Option (List (Option Bytes)) := none
  reqTypes : Option (List Int) := none
  optTypes : Option (List Int) := none
  func : Nat := 0

mutual
/-- An expression: whose function it calls, how many arguments it claims to have, and the arguments. -/
inductive HExpr where
  | mk (rec : Nat) (argc : Int) (args : List HArg)
/-- An argument: a number, a string, a list (or none), an address, an expression, a function with its body. -/
inductive HArg where
  | num (tag : UInt8) (bits : Nat)
  | str (s : Bytes)
  | list (l : Option (List HAtom))
  | addr (s : Bytes)
  | expr (e : HExpr)
  | fn (r : HRec) (body : List HExpr)
end

def LayStr (h : EMem) : Option Bytes → Ptr → List Nat → Prop
  | none, p, own => p = none ∧ own = []
  | some s, p, own => ∃ q, p = some q ∧ h.cell q = some (.str s) ∧ own = [q]

def LayInts (h : EMem) : Option (List Int) → Ptr → List Nat → Prop
  | none, p, own => p = none ∧ own = []
  | some s, p, own => ∃ q, p = some q ∧ h.cell q = some (.ints s) ∧ own = [q]

def LayStrs (h : EMem) : List (Option Bytes) → List Ptr → List Nat → Prop
  | [], l, own => l = [] ∧ own = []
  | s :: ss, l, own => ∃ p ps o1 o2, l = p :: ps ∧ LayStr h s p o1 ∧ LayStrs h ss ps o2 ∧ own = o1 ++ o2

/-- An array of as many names as the record says. -/
def LayNames (h : EMem) (n : Int) : Option (List (Option Bytes)) → Ptr → List Nat → Prop
  | none, p, own => p = none ∧ own = []
  | some ss, p, own => ∃ q l o, p = some q ∧ h.cell q = some (.names l) ∧ (ss.length : Int) = n ∧ LayStrs h ss l o ∧ own = q :: o

def LayElems (h : EMem) : List HAtom → List EAtom → List Nat → Prop
  | [], l, own => l = [] ∧ own = []
  | .num t b :: as, l, own => ∃ l', l = .num t b :: l' ∧ LayElems h as l' own
  | .str s :: as, l, own => ∃ p l' o1 o2, l = .str p :: l' ∧ LayStr h s p o1 ∧ LayElems h as l' o2 ∧ own = o1 ++ o2

def LayList (h : EMem) : Option (List HAtom) → Ptr → List Nat → Prop
  | none, p, own => p = none ∧ own = []
  | some as, p, own => ∃ q, p = some q ∧
    ((as = [] ∧ h.cell q = some (.arr none) ∧ own = [q]) ∨
      ∃ d l o, h.cell q = some (.arr (some d)) ∧ h.cell d = some (.atoms l) ∧ LayElems h as l o ∧ own = q :: d :: o)

def LayRec (h : EMem) (r : HRec) (q : Nat) (extra : Ptr) (own : List Nat) : Prop :=
  ∃ (c : RCell) (o1 o2 o3 o4 o5 o6 o7 : List Nat), h.cell q = some (.rcd c) ∧ c.extra = extra ∧ c.nreq = r.nreq ∧ c.nopt = r.nopt ∧
    c.func = r.func ∧ LayStr h r.name c.name o1 ∧ LayStr h r.sig c.sig o2 ∧ LayNames h r.nreq r.req c.req o3 ∧
    LayNames h r.nopt r.opt c.opt o4 ∧ LayInts h r.reqTypes c.reqTypes o5 ∧ LayInts h r.optTypes c.optTypes o6 ∧
    LayStr h r.doc c.doc o7 ∧ own = q :: (o1 ++ (o2 ++ (o3 ++ (o4 ++ (o5 ++ (o6 ++ o7))))))

mutual
/-- The expression is at `q`, with `next` behind it in its list. -/
def LayE (h : EMem) : HExpr → Nat → Ptr → List Nat → Prop
  | .mk rec argc args, q, next, own => ∃ argv o, h.cell q = some (.expr rec argv argc next) ∧ LayAs h args argv o ∧ own = q :: o
def LayA (h : EMem) : HArg → EVal → List Nat → Prop
  | .num t b, v, own => ∃ q, v = .atom (some q) ∧ h.cell q = some (.atom (.num t b)) ∧ own = [q]
  | .str s, v, own => ∃ q r, v = .atom (some q) ∧ h.cell q = some (.atom (.str (some r))) ∧ h.cell r = some (.str s) ∧ own = [q, r]
  | .list l, v, own => ∃ p, v = .list p ∧ LayList h l p own
  | .addr s, v, own => ∃ q, v = .addr (some q) ∧ h.cell q = some (.str s) ∧ own = [q]
  | .expr e, v, own => ∃ q, v = .expr (some q) ∧ LayE h e q none own
  | .fn r body, v, own => ∃ q extra o1 o2, v = .func (some q) ∧ LayRec h r q extra o1 ∧ LayEs h body extra o2 ∧ own = o1 ++ o2
def LayAs (h : EMem) : List HArg → Ptr → List Nat → Prop
  | [], p, own => p = none ∧ own = []
  | a :: as, p, own => ∃ q v next o1 o2, p = some q ∧ h.cell q = some (.arg v next) ∧ LayA h a v o1 ∧ LayAs h as next o2 ∧
      own = q :: (o1 ++ o2)
/-- A list of expressions. -/
def LayEs (h : EMem) : List HExpr → Ptr → List Nat → Prop
  | [], p, own => p = none ∧ own = []
  | e :: es, p, own => ∃ q next o1 o2, p = some q ∧ LayE h e q next o1 ∧ LayEs h es next o2 ∧ own = o1 ++ o2
end

mutual
/-- How deep the recursions go at most. -/
def szE : HExpr → Nat
  | .mk _ _ args => 4 + szAs args
def szA : HArg → Nat
  | .expr e => 5 + szE e
  | .fn _ body => 3 + szEs body
  | _ => 1
def szAs : List HArg → Nat
  | [] => 0
  | a :: as => 2 + szA a + szAs as
def szEs : List HExpr → Nat
  | [] => 0
  | e :: es => 3 + szE e + szEs es
end

/-- The memory without these blocks. -/
def without (h : EMem) (own : List Nat) : EMem := { h with cell := fun a => if a ∈ own then none else h.cell a }

/-- Nothing is allocated beyond the first fresh address. -/
def WF (h : EMem) : Prop := ∀ a, h.brk ≤ a → h.cell a = none

/-! ## Running programs -/

theorem run_bind {α β : Type} (f : E α) (g : α → E β) (h : EMem) : (f >>= g) h = (f h).bind fun x => g x.1 x.2 := by
  show StateT.bind f g h = _
  unfold StateT.bind
  cases f h <;> rfl

theorem run_pure {α : Type} (a : α) (h : EMem) : (pure a : E α) h = some (a, h) := rfl

theorem get_run {h : EMem} {p : Nat} {c : ECell} (hc : h.cell p = some c) : EHeap.get p h = some (c, h) := by simp [EHeap.get, hc]

theorem put_run {h : EMem} {p : Nat} {c : ECell} (hc : h.cell p = some c) (c' : ECell) : put p c' h = some ((), h.set p (some c')) := by
  simp [put, hc]

theorem without_without (h : EMem) (o1 o2 : List Nat) : without (without h o1) o2 = without h (o1 ++ o2) := by
  simp only [without, List.mem_append]
  congr 1; funext a
  by_cases h1 : a ∈ o1 <;> by_cases h2 : a ∈ o2 <;> simp [h1, h2]

theorem without_congr (h : EMem) {o1 o2 : List Nat} (e : ∀ a, a ∈ o1 ↔ a ∈ o2) : without h o1 = without h o2 := by
  simp only [without, e]

/-! ## Freeing -/

/-- In every memory that has these blocks the program frees exactly them. -/
def Fr (f : E Unit) (h : EMem) (o : List Nat) : Prop := ∀ h' : EMem, (∀ a ∈ o, h'.cell a = h.cell a) → f h' = some ((), without h' o)

theorem fr_pure (h : EMem) : Fr (pure ()) h [] := by
  intro h' _; rw [run_pure]; simp [without]

theorem fr_free {h : EMem} {q : Nat} {c : ECell} (hc : h.cell q = some c) : Fr (free q) h [q] := by
  intro h' ha
  have : h'.cell q = some c := by rw [ha q (by simp), hc]
  simp only [free, this, Option.map_some, without, EMem.set, List.mem_singleton]

theorem fr_seq {f g : E Unit} {h : EMem} {o1 o2 : List Nat} (hf : Fr f h o1) (hg : Fr g h o2) (hd : ∀ a ∈ o1, a ∉ o2) :
    Fr (f >>= fun _ => g) h (o1 ++ o2) := by
  intro h' ha
  rw [run_bind, hf h' fun a h1 => ha a (by simp [h1])]
  simp only [Option.bind_some]
  rw [hg, without_without]
  intro a h2
  have h1 : a ∉ o1 := fun h1 => hd a h1 h2
  simp only [without, h1, if_false]
  exact ha a (by simp [h2])

theorem fr_congr {f : E Unit} {h : EMem} {o1 o2 : List Nat} (hf : Fr f h o1) (e : ∀ a, a ∈ o1 ↔ a ∈ o2) : Fr f h o2 := by
  intro h' ha
  rw [hf h' fun a h1 => ha a ((e a).mp h1), without_congr h' e]

theorem fr_get {h : EMem} {q : Nat} {c : ECell} (hc : h.cell q = some c) {k : ECell → E Unit} {o : List Nat} (hq : q ∈ o)
    (hk : Fr (k c) h o) : Fr (EHeap.get q >>= k) h o := by
  intro h' ha
  rw [run_bind, get_run (by rw [ha q hq, hc])]
  exact hk h' ha

theorem fr_str {h : EMem} {s : Option Bytes} {p : Ptr} {o : List Nat} (hl : LayStr h s p o) : Fr (freeIf p) h o := by
  cases s with
  | none => obtain ⟨rfl, rfl⟩ := hl; exact fr_pure h
  | some s => obtain ⟨q, rfl, hc, rfl⟩ := hl; exact fr_free hc

theorem fr_ints {h : EMem} {s : Option (List Int)} {p : Ptr} {o : List Nat} (hl : LayInts h s p o) : Fr (freeIf p) h o := by
  cases s with
  | none => obtain ⟨rfl, rfl⟩ := hl; exact fr_pure h
  | some s => obtain ⟨q, rfl, hc, rfl⟩ := hl; exact fr_free hc

theorem layStrs_len {h : EMem} {ss : List (Option Bytes)} {l : List Ptr} {o : List Nat} (hl : LayStrs h ss l o) : l.length = ss.length := by
  induction ss generalizing l o with
  | nil => rw [hl.1]; rfl
  | cons s ss ih => obtain ⟨p, ps, o1, o2, rfl, _, h2, _⟩ := hl; simp [ih h2]

theorem fr_strs {h : EMem} {ss : List (Option Bytes)} {l : List Ptr} {o : List Nat} (hl : LayStrs h ss l o) (hn : o.Nodup) :
    Fr (freeEach l) h o := by
  induction ss generalizing l o with
  | nil => obtain ⟨rfl, rfl⟩ := hl; exact fr_pure h
  | cons s ss ih =>
    obtain ⟨p, ps, o1, o2, rfl, h1, h2, rfl⟩ := hl
    obtain ⟨n1, n2, n3⟩ := List.nodup_append.mp hn
    exact fr_seq (fr_str h1) (ih h2 n2) fun a ha hb => n3 a ha a hb rfl

theorem fr_names {h : EMem} {n : Int} {ss : Option (List (Option Bytes))} {p : Ptr} {o : List Nat} (hl : LayNames h n ss p o) (hn : o.Nodup) :
    Fr (freeNames p n) h o := by
  cases ss with
  | none => obtain ⟨rfl, rfl⟩ := hl; exact fr_pure h
  | some ss =>
    obtain ⟨q, l, o, rfl, hc, rfl, h1, rfl⟩ := hl
    obtain ⟨n1, n2⟩ := List.nodup_cons.mp hn
    refine fr_get hc (by simp) ?_
    have e : (ss.length : Int).toNat = l.length := by rw [layStrs_len h1]; simp
    simp only [e, Nat.le_refl, if_true, List.take_length]
    refine fr_congr (fr_seq (fr_strs h1 n2) (fr_free hc) ?_) (by intro a; simp; exact or_comm)
    intro a ha hb; simp at hb; exact n1 (hb ▸ ha)

theorem fr_elems {h : EMem} {as : List HAtom} {l : List EAtom} {o : List Nat} (hl : LayElems h as l o) (hn : o.Nodup) :
    Fr (freeElems l) h o := by
  induction as generalizing l o with
  | nil => obtain ⟨rfl, rfl⟩ := hl; exact fr_pure h
  | cons a as ih =>
    cases a with
    | num t b =>
      obtain ⟨l', rfl, h1⟩ := hl
      have := ih h1 hn
      simpa only [freeElems] using this
    | str s =>
      obtain ⟨p, l', o1, o2, rfl, h1, h2, rfl⟩ := hl
      obtain ⟨n1, n2, n3⟩ := List.nodup_append.mp hn
      exact fr_seq (fr_str h1) (ih h2 n2) fun a ha hb => n3 a ha a hb rfl

theorem fr_list {h : EMem} {as : Option (List HAtom)} {p : Ptr} {o : List Nat} (hl : LayList h as p o) (hn : o.Nodup) :
    Fr (freeArr p) h o := by
  cases as with
  | none => obtain ⟨rfl, rfl⟩ := hl; exact fr_pure h
  | some as =>
    obtain ⟨q, rfl, hl⟩ := hl
    rcases hl with ⟨rfl, hc, rfl⟩ | ⟨d, l, o, hc, hd, he, rfl⟩
    · exact fr_get hc (by simp) (fr_free hc)
    · simp only [List.nodup_cons, List.mem_cons, not_or] at hn
      obtain ⟨⟨n1, n2⟩, n3, n4⟩ := hn
      refine fr_get hc (by simp) (fr_get hd (by simp) ?_)
      refine fr_congr (fr_seq (fr_elems he n4) (fr_seq (fr_free hd) (fr_free hc) ?_) ?_) (by intro a; simp; grind)
      · intro a ha hb; simp at ha hb; exact n1 (by rw [← hb, ha])
      · intro a ha hb; simp at hb; rcases hb with rfl | rfl
        · exact n3 ha
        · exact n2 ha

/-- What is left of `osc_expr_rec_free` when the result is thrown away. -/
theorem freeRec_ok {h : EMem} {r : HRec} {q : Nat} {extra : Ptr} {o : List Nat} (hl : LayRec h r q extra o) (hn : o.Nodup)
    (h' : EMem) (ha : ∀ a ∈ o, h'.cell a = h.cell a) : freeRec (some q) h' = some (extra, without h' o) := by
  obtain ⟨c, o1, o2, o3, o4, o5, o6, o7, hc, rfl, e1, e2, _, l1, l2, l3, l4, l5, l6, l7, rfl⟩ := hl
  rw [← e1] at l3
  rw [← e2] at l4
  simp only [List.nodup_cons, List.nodup_append, List.mem_append, not_or] at hn
  obtain ⟨⟨m1, m2, m3, m4, m5, m6, m7⟩, n1, ⟨n2, ⟨n3, ⟨n4, ⟨n5, ⟨n6, n7, d6⟩, d5⟩, d4⟩, d3⟩, d2⟩, d1⟩ := hn
  have key : Fr (freeIf c.name >>= fun _ => freeIf c.sig >>= fun _ => freeNames c.req c.nreq >>= fun _ => freeNames c.opt c.nopt >>= fun _ =>
      freeIf c.reqTypes >>= fun _ => freeIf c.optTypes >>= fun _ => freeIf c.doc >>= fun _ => free q) h
      (o1 ++ (o2 ++ (o3 ++ (o4 ++ (o5 ++ (o6 ++ (o7 ++ [q]))))))) := by
    refine fr_seq (fr_str l1) (fr_seq (fr_str l2) (fr_seq (fr_names l3 n3) (fr_seq (fr_names l4 n4) (fr_seq (fr_ints l5) (fr_seq (fr_ints l6)
      (fr_seq (fr_str l7) (fr_free hc) ?_) ?_) ?_) ?_) ?_) ?_) ?_
    all_goals
      intro a ha hb
      simp only [List.mem_append, List.mem_singleton] at hb
      grind
  have hq : h'.cell q = some (.rcd c) := by rw [ha q (by simp), hc]
  have hk := key h' (fun a h1 => ha a (by simp at h1 ⊢; grind))
  have hw : without h' (o1 ++ (o2 ++ (o3 ++ (o4 ++ (o5 ++ (o6 ++ (o7 ++ [q]))))))) = without h' (q :: (o1 ++ (o2 ++ (o3 ++ (o4 ++ (o5 ++ (o6 ++ o7))))))) :=
    without_congr h' (by intro a; simp; grind)
  rw [hw] at hk
  simp only [freeRec]
  rw [run_bind, get_run hq]
  simp only [Option.bind_some]
  have : ∀ (k : E Unit) (x : Ptr), k h' = some ((), without h' (q :: (o1 ++ (o2 ++ (o3 ++ (o4 ++ (o5 ++ (o6 ++ o7)))))))) →
      (k >>= fun _ => pure x) h' = some (x, without h' (q :: (o1 ++ (o2 ++ (o3 ++ (o4 ++ (o5 ++ (o6 ++ o7)))))))) := by
    intro k x hk; rw [run_bind, hk]; rfl
  have := this _ c.extra hk
  simpa only [bind_assoc] using this

mutual
theorem fr_exprs (h : EMem) : ∀ (es : List HExpr) (p : Ptr) (o : List Nat) (n : Nat), LayEs h es p o → o.Nodup → szEs es ≤ n →
    Fr (freeExprs n p) h o
  | [], p, o, n, hl, _, _ => by
    obtain ⟨rfl, rfl⟩ := hl
    cases n <;> exact fr_pure h
  | .mk rec argc args :: es, p, o, n, hl, hn, hs => by
    obtain ⟨q, next, o1, o2, rfl, ⟨argv, oa, hc, hA, rfl⟩, hE, rfl⟩ := hl
    cases n with
    | zero => simp [szEs] at hs
    | succ n =>
      simp only [szEs, szE] at hs
      obtain ⟨n1, n2, n3⟩ := List.nodup_append.mp hn
      obtain ⟨n4, n5⟩ := List.nodup_cons.mp n1
      simp only [freeExprs]
      refine fr_get hc (by simp) ?_
      refine fr_congr (fr_seq (fr_args h args argv oa n hA n5 (by omega))
        (fr_seq (fr_free hc) (fr_exprs h es next o2 n hE n2 (by omega)) ?_) ?_) (by intro a; simp; grind)
      · intro a ha hb; exact n3 a (by simp at ha; simp [ha]) a hb rfl
      · intro a ha hb
        simp only [List.mem_append, List.mem_singleton] at hb
        rcases hb with rfl | hb
        · exact n4 ha
        · exact n3 a (by simp [ha]) a hb rfl
theorem fr_args (h : EMem) : ∀ (as : List HArg) (p : Ptr) (o : List Nat) (n : Nat), LayAs h as p o → o.Nodup → szAs as ≤ n →
    Fr (freeArgs n p) h o
  | [], p, o, n, hl, _, _ => by
    obtain ⟨rfl, rfl⟩ := hl
    cases n <;> exact fr_pure h
  | a :: as, p, o, n, hl, hn, hs => by
    obtain ⟨q, v, next, o1, o2, rfl, hc, hA, hE, rfl⟩ := hl
    cases n with
    | zero => simp [szAs] at hs
    | succ n =>
      simp only [szAs] at hs
      obtain ⟨n4, n5⟩ := List.nodup_cons.mp hn
      obtain ⟨n1, n2, n3⟩ := List.nodup_append.mp n5
      simp only [List.mem_append, not_or] at n4
      simp only [freeArgs]
      refine fr_get hc (by simp) ?_
      refine fr_congr (fr_seq (fr_arg h a v o1 n hA n1 (by omega))
        (fr_seq (fr_free hc) (fr_args h as next o2 n hE n2 (by omega)) ?_) ?_) (by intro a; simp; grind)
      · intro a ha hb; simp at ha; subst ha; exact n4.2 hb
      · intro a ha hb
        simp only [List.mem_append, List.mem_singleton] at hb
        rcases hb with rfl | hb
        · exact n4.1 ha
        · exact n3 a ha a hb rfl
theorem fr_arg (h : EMem) : ∀ (a : HArg) (v : EVal) (o : List Nat) (n : Nat), LayA h a v o → o.Nodup → szA a ≤ n → Fr (clearArg n v) h o
  | a, _, _, 0, _, _, hs => by cases a <;> simp [szA] at hs <;> omega
  | .num t b, v, o, n + 1, hl, _, _ => by
    obtain ⟨q, rfl, hc, rfl⟩ := hl
    exact fr_get hc (by simp) (fr_congr (fr_seq (fr_pure h) (fr_free hc) (by simp)) (by simp))
  | .str s, v, o, n + 1, hl, hn, _ => by
    obtain ⟨q, r, rfl, hc, hr, rfl⟩ := hl
    refine fr_get hc (by simp) (fr_congr (fr_seq (fr_free hr) (fr_free hc) ?_) (by intro a; simp; exact or_comm))
    intro a ha hb; simp at ha hb hn; exact hn (by rw [← hb, ha])
  | .list l, v, o, n + 1, hl, hn, _ => by
    obtain ⟨p, rfl, hl⟩ := hl
    exact fr_list hl hn
  | .addr s, v, o, n + 1, hl, _, _ => by
    obtain ⟨q, rfl, hc, rfl⟩ := hl
    exact fr_free hc
  | .expr e, v, o, n + 1, hl, hn, hs => by
    obtain ⟨q, rfl, hE⟩ := hl
    have hE' : LayEs h [e] (some q) o := ⟨q, none, o, [], rfl, hE, ⟨rfl, rfl⟩, by simp⟩
    exact fr_exprs h [e] (some q) o n hE' hn (by simp only [szEs, szA] at hs ⊢; omega)
  | .fn r body, v, o, n + 1, hl, hn, hs => by
    obtain ⟨q, extra, o1, o2, rfl, hR, hB, rfl⟩ := hl
    obtain ⟨n1, n2, n3⟩ := List.nodup_append.mp hn
    intro h' ha
    simp only [clearArg]
    rw [run_bind, freeRec_ok hR n1 h' fun a h1 => ha a (by simp [h1])]
    simp only [Option.bind_some]
    rw [fr_exprs h body extra o2 n hB n2 (by simp only [szA] at hs; omega), without_without]
    intro a h2
    have h1 : a ∉ o1 := fun h1 => n3 a h1 a h2 rfl
    simp only [without, h1, if_false]
    exact ha a (by simp [h2])
end

/-! ## Parts of a memory that stay as they are -/

theorem layStr_frame {h h' : EMem} {s : Option Bytes} {p : Ptr} {o : List Nat} (hl : LayStr h s p o) (ha : ∀ a ∈ o, h'.cell a = h.cell a) :
    LayStr h' s p o := by
  cases s with
  | none => exact hl
  | some s => obtain ⟨q, rfl, hc, rfl⟩ := hl; exact ⟨q, rfl, by rw [ha q (by simp), hc], rfl⟩

theorem layInts_frame {h h' : EMem} {s : Option (List Int)} {p : Ptr} {o : List Nat} (hl : LayInts h s p o) (ha : ∀ a ∈ o, h'.cell a = h.cell a) :
    LayInts h' s p o := by
  cases s with
  | none => exact hl
  | some s => obtain ⟨q, rfl, hc, rfl⟩ := hl; exact ⟨q, rfl, by rw [ha q (by simp), hc], rfl⟩

theorem layStrs_frame {h h' : EMem} {ss : List (Option Bytes)} {l : List Ptr} {o : List Nat} (hl : LayStrs h ss l o)
    (ha : ∀ a ∈ o, h'.cell a = h.cell a) : LayStrs h' ss l o := by
  induction ss generalizing l o with
  | nil => exact hl
  | cons s ss ih =>
    obtain ⟨p, ps, o1, o2, rfl, h1, h2, rfl⟩ := hl
    exact ⟨p, ps, o1, o2, rfl, layStr_frame h1 fun a m => ha a (by simp [m]), ih h2 fun a m => ha a (by simp [m]), rfl⟩

theorem layNames_frame {h h' : EMem} {n : Int} {ss : Option (List (Option Bytes))} {p : Ptr} {o : List Nat} (hl : LayNames h n ss p o)
    (ha : ∀ a ∈ o, h'.cell a = h.cell a) : LayNames h' n ss p o := by
  cases ss with
  | none => exact hl
  | some ss =>
    obtain ⟨q, l, o, rfl, hc, hn, h1, rfl⟩ := hl
    exact ⟨q, l, o, rfl, by rw [ha q (by simp), hc], hn, layStrs_frame h1 fun a m => ha a (by simp [m]), rfl⟩

theorem layElems_frame {h h' : EMem} {as : List HAtom} {l : List EAtom} {o : List Nat} (hl : LayElems h as l o)
    (ha : ∀ a ∈ o, h'.cell a = h.cell a) : LayElems h' as l o := by
  induction as generalizing l o with
  | nil => exact hl
  | cons x as ih =>
    cases x with
    | num t b => obtain ⟨l', rfl, h1⟩ := hl; exact ⟨l', rfl, ih h1 ha⟩
    | str s =>
      obtain ⟨p, l', o1, o2, rfl, h1, h2, rfl⟩ := hl
      exact ⟨p, l', o1, o2, rfl, layStr_frame h1 fun a m => ha a (by simp [m]), ih h2 fun a m => ha a (by simp [m]), rfl⟩

theorem layList_frame {h h' : EMem} {as : Option (List HAtom)} {p : Ptr} {o : List Nat} (hl : LayList h as p o)
    (ha : ∀ a ∈ o, h'.cell a = h.cell a) : LayList h' as p o := by
  cases as with
  | none => exact hl
  | some as =>
    obtain ⟨q, rfl, hl⟩ := hl
    refine ⟨q, rfl, ?_⟩
    rcases hl with ⟨rfl, hc, rfl⟩ | ⟨d, l, o, hc, hd, he, rfl⟩
    · exact Or.inl ⟨rfl, by rw [ha q (by simp), hc], rfl⟩
    · exact Or.inr ⟨d, l, o, by rw [ha q (by simp), hc], by rw [ha d (by simp), hd], layElems_frame he fun a m => ha a (by simp [m]), rfl⟩

theorem layRec_frame {h h' : EMem} {r : HRec} {q : Nat} {extra : Ptr} {o : List Nat} (hl : LayRec h r q extra o)
    (ha : ∀ a ∈ o, h'.cell a = h.cell a) : LayRec h' r q extra o := by
  obtain ⟨c, o1, o2, o3, o4, o5, o6, o7, hc, e0, e1, e2, e3, l1, l2, l3, l4, l5, l6, l7, rfl⟩ := hl
  exact ⟨c, o1, o2, o3, o4, o5, o6, o7, by rw [ha q (by simp), hc], e0, e1, e2, e3, layStr_frame l1 fun a m => ha a (by simp [m]),
    layStr_frame l2 fun a m => ha a (by simp [m]), layNames_frame l3 fun a m => ha a (by simp [m]), layNames_frame l4 fun a m => ha a (by simp [m]),
    layInts_frame l5 fun a m => ha a (by simp [m]), layInts_frame l6 fun a m => ha a (by simp [m]), layStr_frame l7 fun a m => ha a (by simp [m]), rfl⟩

mutual
theorem layE_frame {h h' : EMem} : ∀ {e : HExpr} {q : Nat} {next : Ptr} {o : List Nat}, LayE h e q next o → (∀ a ∈ o, h'.cell a = h.cell a) →
    LayE h' e q next o
  | .mk rec argc args, q, next, o, hl, ha => by
    obtain ⟨argv, oa, hc, hA, rfl⟩ := hl
    exact ⟨argv, oa, by rw [ha q (by simp), hc], layAs_frame hA fun a m => ha a (by simp [m]), rfl⟩
theorem layA_frame {h h' : EMem} : ∀ {a : HArg} {v : EVal} {o : List Nat}, LayA h a v o → (∀ a ∈ o, h'.cell a = h.cell a) → LayA h' a v o
  | .num t b, v, o, hl, ha => by
    obtain ⟨q, rfl, hc, rfl⟩ := hl
    exact ⟨q, rfl, by rw [ha q (by simp), hc], rfl⟩
  | .str s, v, o, hl, ha => by
    obtain ⟨q, r, rfl, hc, hr, rfl⟩ := hl
    exact ⟨q, r, rfl, by rw [ha q (by simp), hc], by rw [ha r (by simp), hr], rfl⟩
  | .list l, v, o, hl, ha => by
    obtain ⟨p, rfl, hl⟩ := hl
    exact ⟨p, rfl, layList_frame hl ha⟩
  | .addr s, v, o, hl, ha => by
    obtain ⟨q, rfl, hc, rfl⟩ := hl
    exact ⟨q, rfl, by rw [ha q (by simp), hc], rfl⟩
  | .expr e, v, o, hl, ha => by
    obtain ⟨q, rfl, hl⟩ := hl
    exact ⟨q, rfl, layE_frame hl ha⟩
  | .fn r body, v, o, hl, ha => by
    obtain ⟨q, extra, o1, o2, rfl, hR, hB, rfl⟩ := hl
    exact ⟨q, extra, o1, o2, rfl, layRec_frame hR fun a m => ha a (by simp [m]), layEs_frame hB fun a m => ha a (by simp [m]), rfl⟩
theorem layAs_frame {h h' : EMem} : ∀ {as : List HArg} {p : Ptr} {o : List Nat}, LayAs h as p o → (∀ a ∈ o, h'.cell a = h.cell a) → LayAs h' as p o
  | [], _, _, hl, _ => hl
  | a :: as, p, o, hl, ha => by
    obtain ⟨q, v, next, o1, o2, rfl, hc, h1, h2, rfl⟩ := hl
    exact ⟨q, v, next, o1, o2, rfl, by rw [ha q (by simp), hc], layA_frame h1 fun a m => ha a (by simp [m]),
      layAs_frame h2 fun a m => ha a (by simp [m]), rfl⟩
theorem layEs_frame {h h' : EMem} : ∀ {es : List HExpr} {p : Ptr} {o : List Nat}, LayEs h es p o → (∀ a ∈ o, h'.cell a = h.cell a) → LayEs h' es p o
  | [], _, _, hl, _ => hl
  | e :: es, p, o, hl, ha => by
    obtain ⟨q, next, o1, o2, rfl, h1, h2, rfl⟩ := hl
    exact ⟨q, next, o1, o2, rfl, layE_frame h1 fun a m => ha a (by simp [m]), layEs_frame h2 fun a m => ha a (by simp [m]), rfl⟩
end

/-! ## Growing memories -/

/-- `h'` is `h` with the new blocks `o`, which are all addresses given out in between; old blocks but those in `X` are as before. -/
structure Grew (X : List Nat) (h h' : EMem) (o : List Nat) : Prop where
  le : h.brk ≤ h'.brk
  same : ∀ a, a < h.brk → a ∉ X → h'.cell a = h.cell a
  wf : WF h'
  nodup : o.Nodup
  mem : ∀ a, a ∈ o ↔ h.brk ≤ a ∧ a < h'.brk

theorem Grew.refl {X : List Nat} {h : EMem} (hw : WF h) : Grew X h h [] :=
  ⟨Nat.le_refl _, fun _ _ _ => rfl, hw, List.nodup_nil, fun a => by simp⟩

theorem Grew.trans {X Y : List Nat} {h h1 h2 : EMem} {o1 o2 : List Nat} (g1 : Grew X h h1 o1) (g2 : Grew Y h1 h2 o2)
    (hY : ∀ a ∈ Y, a ∈ X ∨ h.brk ≤ a) : Grew X h h2 (o1 ++ o2) where
  le := Nat.le_trans g1.le g2.le
  same a ha hx := by
    rw [g2.same a (Nat.lt_of_lt_of_le ha g1.le), g1.same a ha hx]
    intro hy
    rcases hY a hy with h1 | h1
    · exact hx h1
    · omega
  wf := g2.wf
  nodup := by
    refine List.nodup_append.mpr ⟨g1.nodup, g2.nodup, ?_⟩
    rintro a ha b hb rfl
    have := (g1.mem a).mp ha; have := (g2.mem a).mp hb; omega
  mem a := by
    have l1 := g1.le; have l2 := g2.le
    rw [List.mem_append, g1.mem, g2.mem]; omega

theorem Grew.set {X : List Nat} {h h1 : EMem} {o : List Nat} (g : Grew X h h1 o) {q : Nat} {c : ECell} (hq : q < h1.brk)
    (hX : q ∈ X ∨ h.brk ≤ q) : Grew X h (h1.set q (some c)) o where
  le := g.le
  same a ha hx := by
    have : a ≠ q := by
      rintro rfl
      rcases hX with h1 | h1
      · exact hx h1
      · omega
    simp only [EMem.set, this, if_false]
    exact g.same a ha hx
  wf a ha := by
    have : a ≠ q := by rintro rfl; simp [EMem.set] at ha; omega
    simp only [EMem.set, this, if_false]
    exact g.wf a ha
  nodup := g.nodup
  mem := g.mem

theorem Grew.perm {X : List Nat} {h h1 : EMem} {o o' : List Nat} (g : Grew X h h1 o) (hp : o.Perm o') : Grew X h h1 o' :=
  ⟨g.le, g.same, g.wf, hp.nodup_iff.mp g.nodup, fun a => by rw [← hp.mem_iff, g.mem]⟩

/-- The memory after an allocation. -/
def alloc (h : EMem) (c : ECell) : EMem := { (h.set h.brk (some c)) with brk := h.brk + 1 }

theorem new_run (h : EMem) (c : ECell) : new c h = some (h.brk, alloc h c) := rfl

theorem alloc_at (h : EMem) (c : ECell) : (alloc h c).cell h.brk = some c := by simp [alloc, EMem.set]

theorem Grew.new {X : List Nat} {h : EMem} (hw : WF h) (c : ECell) : Grew X h (alloc h c) [h.brk] where
  le := by simp [alloc]
  same a ha _ := by
    have : a ≠ h.brk := by omega
    simp [alloc, EMem.set, this]
  wf a ha := by
    have h1 : h.brk + 1 ≤ a := ha
    have : a ≠ h.brk := by omega
    simp only [alloc, EMem.set, this, if_false]
    exact hw a (by omega)
  nodup := by simp
  mem a := by
    have : (alloc h c).brk = h.brk + 1 := rfl
    rw [this, List.mem_singleton]; omega

/-- The blocks of `o` are allocated in `h'`, and they are as in `h`. -/
def Agree (h : EMem) (o : List Nat) (h' : EMem) : Prop := ∀ a ∈ o, a < h'.brk ∧ h'.cell a = h.cell a

theorem Agree.grew {h h1 h2 : EMem} {o o' X : List Nat} (ha : Agree h o h1) (g : Grew X h1 h2 o') (hX : ∀ a ∈ X, a ∉ o) : Agree h o h2 := by
  intro a m
  have := ha a m
  have l := g.le
  exact ⟨by omega, by rw [g.same a this.1 fun hx => hX a hx m, this.2]⟩

theorem Agree.sub {h h1 : EMem} {o o' : List Nat} (ha : Agree h o h1) (hs : ∀ a ∈ o', a ∈ o) : Agree h o' h1 := fun a m => ha a (hs a m)

theorem set_same (h : EMem) {q : Nat} {c : ECell} : (h.set q (some c)).cell q = some c := by simp [EMem.set]

theorem set_other (h : EMem) {q a : Nat} {c : ECell} (hn : a ≠ q) : (h.set q (some c)).cell a = h.cell a := by simp [EMem.set, hn]

/-! ## Copying -/

theorem dupStr_ok {h : EMem} {s : Option Bytes} {p : Ptr} {o : List Nat} (hl : LayStr h s p o) {h1 : EMem} (hw : WF h1) (ha : Agree h o h1) :
    ∃ r h2 o', dupStr p h1 = some (r, h2) ∧ Grew [] h1 h2 o' ∧ LayStr h2 s r o' := by
  cases s with
  | none => obtain ⟨rfl, rfl⟩ := hl; exact ⟨none, h1, [], rfl, Grew.refl hw, rfl, rfl⟩
  | some s =>
    obtain ⟨q, rfl, hc, rfl⟩ := hl
    refine ⟨some h1.brk, _, _, ?_, Grew.new hw (.str s), h1.brk, rfl, alloc_at _ _, rfl⟩
    simp only [dupStr]
    rw [run_bind, get_run (by rw [(ha q (by simp)).2, hc])]
    simp only [Option.bind_some, run_bind, new_run, run_pure]

theorem dupEach_ok {h : EMem} {ss : List (Option Bytes)} {l : List Ptr} {o : List Nat} (hl : LayStrs h ss l o) {h1 : EMem} (hw : WF h1)
    (ha : Agree h o h1) : ∃ r h2 o', dupEach l h1 = some (r, h2) ∧ Grew [] h1 h2 o' ∧ LayStrs h2 ss r o' := by
  induction ss generalizing l o h1 with
  | nil => obtain ⟨rfl, rfl⟩ := hl; exact ⟨[], h1, [], rfl, Grew.refl hw, rfl, rfl⟩
  | cons s ss ih =>
    obtain ⟨p, ps, o1, o2, rfl, l1, l2, rfl⟩ := hl
    obtain ⟨r1, h2, p1, e1, g1, k1⟩ := dupStr_ok l1 hw (ha.sub fun a m => by simp [m])
    obtain ⟨r2, h3, p2, e2, g2, k2⟩ := ih l2 g1.wf ((ha.sub fun a m => by simp [m]).grew g1 (by simp))
    refine ⟨r1 :: r2, h3, p1 ++ p2, ?_, g1.trans g2 (by simp), r1, r2, p1, p2, rfl, layStr_frame k1 ?_, k2, rfl⟩
    · simp only [dupEach, run_bind, e1, Option.bind_some, e2, run_pure]
    · intro a m; exact g2.same a ((g1.mem a).mp m).2 (by simp)

theorem dupNames_ok {h : EMem} {n : Int} {ss : Option (List (Option Bytes))} {p : Ptr} {o : List Nat} (hl : LayNames h n ss p o) {h1 : EMem}
    (hw : WF h1) (ha : Agree h o h1) : ∃ r h2 o', dupNames p n h1 = some (r, h2) ∧ Grew [] h1 h2 o' ∧ LayNames h2 n ss r o' := by
  cases ss with
  | none => obtain ⟨rfl, rfl⟩ := hl; exact ⟨none, h1, [], rfl, Grew.refl hw, rfl, rfl⟩
  | some ss =>
    obtain ⟨q, l, o, rfl, hc, rfl, l1, rfl⟩ := hl
    obtain ⟨k, h2, p1, e1, g1, k1⟩ := dupEach_ok l1 hw (ha.sub fun a m => by simp [m])
    have g2 := Grew.new (X := []) g1.wf (.names k)
    refine ⟨some h2.brk, _, h2.brk :: p1, ?_, (g1.trans g2 (by simp)).perm (by simpa using List.perm_append_comm (l₁ := p1) (l₂ := [h2.brk])),
      h2.brk, k, p1, rfl, alloc_at _ _, rfl, layStrs_frame k1 ?_, rfl⟩
    · have e : (ss.length : Int).toNat = l.length := by rw [layStrs_len l1]; simp
      simp only [dupNames]
      rw [run_bind, get_run (by rw [(ha q (by simp)).2, hc])]
      simp only [Option.bind_some, e, Nat.le_refl, if_true, List.take_length, run_bind, e1, new_run, run_pure]
    · intro a m; exact g2.same a ((g1.mem a).mp m).2 (by simp)

/-! ## What a copy is -/

/-- The types of the arguments get lost. -/
def cpRec (r : HRec) : HRec := { r with reqTypes := none, optTypes := none }

mutual
/-- The copy of an expression. -/
def cpE : HExpr → HExpr
  | .mk rec argc args => .mk rec argc (cpAs args)
/-- Lists get lost. -/
def cpA : HArg → HArg
  | .list _ => .list none
  | .expr e => .expr (cpE e)
  | .fn r body => .fn (cpRec r) (cpEs body)
  | a => a
def cpAs : List HArg → List HArg
  | [] => []
  | a :: as => cpA a :: cpAs as
def cpEs : List HExpr → List HExpr
  | [] => []
  | e :: es => cpE e :: cpEs es
end

/-- `k` steps from `d` to the end of the list, `l`. -/
def Path (h : EMem) : Nat → Nat → Nat → Prop
  | 0, d, l => d = l ∧ ∃ r a c, h.cell d = some (.expr r a c none)
  | k + 1, d, l => ∃ r a c q, h.cell d = some (.expr r a c (some q)) ∧ Path h k q l

theorem path_end {h : EMem} {k d l : Nat} (hp : Path h k d l) : ∃ r a c, h.cell l = some (.expr r a c none) := by
  induction k generalizing d with
  | zero => obtain ⟨rfl, h1⟩ := hp; exact h1
  | succ k ih => obtain ⟨_, _, _, q, _, h2⟩ := hp; exact ih h2

theorem path_frame {h h' : EMem} {k d l : Nat} (hp : Path h k d l) (hs : ∀ a c, h.cell a = some c → h'.cell a = some c) : Path h' k d l := by
  induction k generalizing d with
  | zero => obtain ⟨rfl, r, a, c, h1⟩ := hp; exact ⟨rfl, r, a, c, hs _ _ h1⟩
  | succ k ih => obtain ⟨r, a, c, q, h1, h2⟩ := hp; exact ⟨r, a, c, q, hs _ _ h1, ih h2⟩

theorem path_extend {h h' : EMem} {k d l q : Nat} (hp : Path h k d l) (hs : ∀ a c, a ≠ l → h.cell a = some c → h'.cell a = some c)
    (hl : ∃ r a c, h'.cell l = some (.expr r a c (some q))) (hq : ∃ r a c, h'.cell q = some (.expr r a c none)) : Path h' (k + 1) d q := by
  induction k generalizing d with
  | zero => obtain ⟨rfl, _⟩ := hp; obtain ⟨r, a, c, h1⟩ := hl; exact ⟨r, a, c, q, h1, rfl, hq⟩
  | succ k ih =>
    obtain ⟨r, a, c, x, h1, h2⟩ := hp
    have hne : d ≠ l := by
      rintro rfl
      obtain ⟨_, _, _, h3⟩ := path_end h2
      rw [h1] at h3; simp at h3
    exact ⟨r, a, c, x, hs _ _ hne h1, ih h2⟩

theorem lastExpr_run {h : EMem} {k d l n : Nat} (hp : Path h k d l) (hn : k < n) : lastExpr n d h = some (l, h) := by
  induction k generalizing d n with
  | zero =>
    obtain ⟨rfl, r, a, c, h1⟩ := hp
    cases n with
    | zero => omega
    | succ n =>
      simp only [lastExpr]
      rw [run_bind, get_run h1]; rfl
  | succ k ih =>
    obtain ⟨r, a, c, q, h1, h2⟩ := hp
    cases n with
    | zero => omega
    | succ n =>
      simp only [lastExpr]
      rw [run_bind, get_run h1]
      exact ih h2 (by omega)

/-- A block that was there is still there. -/
theorem Grew.keep {h h' : EMem} {o : List Nat} (g : Grew [] h h' o) (hw : WF h) {a : Nat} {c : ECell} (hc : h.cell a = some c) : h'.cell a = some c := by
  have : a < h.brk := by
    rcases Nat.lt_or_ge a h.brk with h1 | h1
    · exact h1
    · rw [hw a h1] at hc; simp at hc
  rw [g.same a this (by simp), hc]

theorem WF.lt {h : EMem} (hw : WF h) {a : Nat} {c : ECell} (hc : h.cell a = some c) : a < h.brk := by
  rcases Nat.lt_or_ge a h.brk with h1 | h1
  · exact h1
  · rw [hw a h1] at hc; simp at hc

/-- Allocate a block, make what it points to, and store the pointer. -/
theorem wrap_ok {h1 : EMem} (hw : WF h1) (c0 : ECell) {h3 : EMem} {o : List Nat} (g : Grew [] (alloc h1 c0) h3 o) (c1 : ECell) :
    h3.cell h1.brk = some c0 ∧ Grew [] h1 (h3.set h1.brk (some c1)) (h1.brk :: o) ∧ (∀ a ∈ o, (h3.set h1.brk (some c1)).cell a = h3.cell a) ∧
      (h3.set h1.brk (some c1)).cell h1.brk = some c1 := by
  have g0 := Grew.new (X := []) hw c0
  refine ⟨?_, ?_, ?_, set_same _⟩
  · rw [g.same _ (by simp [alloc]) (by simp), alloc_at]
  · have := g0.trans g (by simp)
    refine Grew.set this ?_ (Or.inr (Nat.le_refl _))
    have := g.le; simp only [alloc] at this; omega
  · intro a m
    refine set_other _ ?_
    rintro rfl
    have := ((g.mem _).mp m).1
    simp only [alloc] at this; omega

mutual
theorem copyExpr_ok (h : EMem) : ∀ (e : HExpr) (q : Nat) (next : Ptr) (o : List Nat) (n : Nat), LayE h e q next o → szE e ≤ n →
    ∀ h1, WF h1 → Agree h o h1 → ∃ r h2 o', copyExpr n (some q) h1 = some (some r, h2) ∧ Grew [] h1 h2 o' ∧ LayE h2 (cpE e) r none o'
  | .mk rec argc args, q, next, o, n, hl, hs, h1, hw, ha => by
    obtain ⟨argv, oa, hc, hA, rfl⟩ := hl
    cases n with
    | zero => simp [szE] at hs
    | succ n =>
      have g0 := Grew.new (X := []) hw (.expr rec none argc none)
      obtain ⟨r, h3, o', e1, g1, k1⟩ := copyArgs_ok h args argv oa n hA (by simp only [szE] at hs; omega) _ g0.wf
        ((ha.sub fun a m => by simp [m]).grew g0 (by simp))
      obtain ⟨w1, w2, w3, w4⟩ := wrap_ok hw _ g1 (.expr rec r argc none)
      refine ⟨h1.brk, _, _, ?_, w2, r, o', w4, layAs_frame k1 w3, rfl⟩
      simp only [copyExpr]
      rw [run_bind, get_run (by rw [(ha q (by simp)).2, hc])]
      simp only [Option.bind_some]
      rw [run_bind, new_run]
      simp only [Option.bind_some]
      rw [run_bind, e1]
      simp only [Option.bind_some]
      rw [run_bind, put_run w1]
      rfl
theorem copyArgs_ok (h : EMem) : ∀ (as : List HArg) (p : Ptr) (o : List Nat) (n : Nat), LayAs h as p o → szAs as ≤ n →
    ∀ h1, WF h1 → Agree h o h1 → ∃ r h2 o', copyArgs n p none none h1 = some (r, h2) ∧ Grew [] h1 h2 o' ∧ LayAs h2 (cpAs as) r o'
  | [], p, o, n, hl, _, h1, hw, _ => by
    obtain ⟨rfl, rfl⟩ := hl
    refine ⟨none, h1, [], ?_, Grew.refl hw, rfl, rfl⟩
    cases n <;> rfl
  | a :: as, p, o, n, hl, hs, h1, hw, ha => by
    obtain ⟨q, v, next, o1, o2, rfl, hc, l1, l2, rfl⟩ := hl
    cases n with
    | zero => simp [szAs] at hs
    | succ n =>
      simp only [szAs] at hs
      obtain ⟨c, h2, oc, w, e1, g1, k1, k2⟩ := copyArg_ok h a v o1 n l1 (by omega) h1 hw (ha.sub fun a m => by simp [m])
      have hcb : h1.brk ≤ c := ((g1.mem c).mp (by simp)).1
      obtain ⟨r, h3, o', e2, g2, m1, m2⟩ := copyLoop_ok h as next o2 n l2 (by omega) h2 g1.wf
        ((ha.sub fun a m => by simp [m]).grew g1 (by simp)) c w k1
        (by intro hm; have := (ha c (by simp [hm])).1; omega) c
      have hnd := List.nodup_cons.mp g1.nodup
      refine ⟨some c, h3, (c :: oc) ++ o', ?_, g1.trans g2 (by simp; omega), c, w, r, oc, o', rfl, m1, layA_frame k2 ?_, m2, by simp⟩
      · simp only [copyArgs]
        rw [run_bind, get_run (by rw [(ha q (by simp)).2, hc])]
        simp only [Option.bind_some]
        rw [run_bind, e1]
        simp only [Option.bind_some]
        exact e2
      · intro a m
        refine g2.same a ((g1.mem a).mp (by simp [m])).2 ?_
        simp only [List.mem_singleton]; rintro rfl; exact hnd.1 m
theorem copyLoop_ok (h : EMem) : ∀ (as : List HArg) (p : Ptr) (o : List Nat) (n : Nat), LayAs h as p o → szAs as ≤ n →
    ∀ h1, WF h1 → Agree h o h1 → ∀ l w, h1.cell l = some (.arg w none) → l ∉ o → ∀ f : Nat,
    ∃ r h2 o', copyArgs n p (some f) (some l) h1 = some (some f, h2) ∧ Grew [l] h1 h2 o' ∧ h2.cell l = some (.arg w r) ∧ LayAs h2 (cpAs as) r o'
  | [], p, o, n, hl, _, h1, hw, _, l, w, hcl, _, f => by
    obtain ⟨rfl, rfl⟩ := hl
    refine ⟨none, h1, [], ?_, Grew.refl hw, hcl, rfl, rfl⟩
    cases n <;> rfl
  | a :: as, p, o, n, hl, hs, h1, hw, ha, l, w, hcl, hlo, f => by
    obtain ⟨q, v, next, o1, o2, rfl, hc, l1, l2, rfl⟩ := hl
    cases n with
    | zero => simp [szAs] at hs
    | succ n =>
      simp only [szAs] at hs
      obtain ⟨c, h2, oc, w', e1, g1, k1, k2⟩ := copyArg_ok h a v o1 n l1 (by omega) h1 hw (ha.sub fun a m => by simp [m])
      have hcb : h1.brk ≤ c := ((g1.mem c).mp (by simp)).1
      have hll := hw.lt hcl
      have hl2 : h2.cell l = some (.arg w none) := g1.keep hw hcl
      have g2 : Grew [l] h1 (h2.set l (some (.arg w (some c)))) (c :: oc) :=
        Grew.set (X := [l]) ⟨g1.le, fun a h1 _ => g1.same a h1 (by simp), g1.wf, g1.nodup, g1.mem⟩ (g1.wf.lt hl2) (Or.inl (by simp))
      have hne : c ≠ l := by omega
      obtain ⟨r, h3, o', e2, g3, m1, m2⟩ := copyLoop_ok h as next o2 n l2 (by omega) _ g2.wf
        ((ha.sub fun a m => by simp [m]).grew g2 (by simp at hlo ⊢; exact hlo.2.2)) c w' (by rw [set_other _ hne, k1])
        (by intro hm; have := (ha c (by simp [hm])).1; omega) f
      have hnd := List.nodup_cons.mp g1.nodup
      refine ⟨some c, h3, (c :: oc) ++ o', ?_, g2.trans g3 (by simp; omega), ?_, c, w', r, oc, o', rfl, m1, layA_frame k2 ?_, m2, by simp⟩
      · simp only [copyArgs]
        rw [run_bind, get_run (by rw [(ha q (by simp)).2, hc])]
        simp only [Option.bind_some]
        rw [run_bind, e1]
        simp only [Option.bind_some, run_bind]
        rw [get_run hl2]
        simp only [Option.bind_some]
        rw [run_bind, put_run hl2]
        exact e2
      · rw [g3.same l (g1.wf.lt hl2) (by simp; omega), set_same]
      · intro a m
        have hb := (g1.mem a).mp (by simp [m])
        rw [g3.same a hb.2 (by simp only [List.mem_singleton]; rintro rfl; exact hnd.1 m), set_other _ (by omega)]
theorem copyArg_ok (h : EMem) : ∀ (a : HArg) (v : EVal) (o : List Nat) (n : Nat), LayA h a v o → szA a ≤ n →
    ∀ h1, WF h1 → Agree h o h1 → ∃ c h2 o' w, copyArg n v h1 = some (c, h2) ∧ Grew [] h1 h2 (c :: o') ∧ h2.cell c = some (.arg w none) ∧
      LayA h2 (cpA a) w o'
  | a, _, _, 0, _, hs, _, _, _ => by cases a <;> simp [szA] at hs <;> omega
  | .num t b, v, o, n + 1, hl, _, h1, hw, ha => by
    obtain ⟨q, rfl, hc, rfl⟩ := hl
    have g0 := Grew.new (X := []) hw (.arg (.atom none) none)
    have g1 := Grew.new (X := []) g0.wf (.atom (.num t b))
    obtain ⟨w1, w2, w3, w4⟩ := wrap_ok hw _ g1 (.arg (.atom (some (alloc h1 (.arg (.atom none) none)).brk)) none)
    refine ⟨h1.brk, _, _, _, ?_, w2, w4, _, rfl, ?_, rfl⟩
    · simp only [copyArg]
      rw [run_bind, new_run]
      simp only [Option.bind_some, dupAtom]
      rw [run_bind, run_bind, get_run (by rw [((ha.grew g0 (by simp)) q (by simp)).2, hc])]
      simp only [Option.bind_some]
      rw [run_bind, new_run]
      simp only [Option.bind_some, run_pure]
      rw [run_bind, put_run w1]
      rfl
    · rw [w3 _ (by simp), alloc_at]
  | .str s, v, o, n + 1, hl, _, h1, hw, ha => by
    obtain ⟨q, r, rfl, hc, hr, rfl⟩ := hl
    have g0 := Grew.new (X := []) hw (.arg (.atom none) none)
    have g1 := Grew.new (X := []) g0.wf (.atom (.str none))
    obtain ⟨p, h3, o', e1, g2, k1⟩ := dupStr_ok (h := h) (s := some s) (p := some r) (o := [r]) ⟨r, rfl, hr, rfl⟩ g1.wf
      (((ha.sub fun a m => by simp at m ⊢; exact Or.inr m).grew g0 (by simp)).grew g1 (by simp))
    obtain ⟨x, rfl, hx, rfl⟩ := k1
    obtain ⟨v1, v2, v3, v4⟩ := wrap_ok g0.wf _ g2 (.atom (.str (some x)))
    obtain ⟨w1, w2, w3, w4⟩ := wrap_ok hw _ v2 (.arg (.atom (some (alloc h1 (.arg (.atom none) none)).brk)) none)
    refine ⟨h1.brk, _, _, _, ?_, w2, w4, _, x, rfl, ?_, ?_, rfl⟩
    · simp only [copyArg]
      rw [run_bind, new_run]
      simp only [Option.bind_some, dupAtom]
      rw [run_bind, run_bind, get_run (by rw [((ha.grew g0 (by simp)) q (by simp)).2, hc])]
      simp only [Option.bind_some]
      rw [run_bind, new_run]
      simp only [Option.bind_some]
      rw [run_bind, e1]
      simp only [Option.bind_some]
      rw [run_bind, put_run v1]
      simp only [Option.bind_some, run_pure]
      rw [run_bind, put_run w1]
      rfl
    · rw [w3 _ (by simp), v4]
    · rw [w3 _ (by simp), v3 _ (by simp), hx]
  | .list l, v, o, n + 1, hl, _, h1, hw, ha => by
    obtain ⟨p, rfl, hl⟩ := hl
    exact ⟨h1.brk, _, [], _, new_run _ _, Grew.new hw _, alloc_at _ _, none, rfl, rfl, rfl⟩
  | .addr s, v, o, n + 1, hl, _, h1, hw, ha => by
    obtain ⟨q, rfl, hc, rfl⟩ := hl
    have g0 := Grew.new (X := []) hw (.arg (.addr none) none)
    obtain ⟨p, h3, o', e1, g2, k1⟩ := dupStr_ok (h := h) (s := some s) (p := some q) (o := [q]) ⟨q, rfl, hc, rfl⟩ g0.wf
      (ha.grew g0 (by simp))
    obtain ⟨x, rfl, hx, rfl⟩ := k1
    obtain ⟨w1, w2, w3, w4⟩ := wrap_ok hw _ g2 (.arg (.addr (some x)) none)
    refine ⟨h1.brk, _, _, _, ?_, w2, w4, x, rfl, ?_, rfl⟩
    · simp only [copyArg]
      rw [run_bind, new_run]
      simp only [Option.bind_some]
      rw [run_bind, e1]
      simp only [Option.bind_some]
      rw [run_bind, put_run w1]
      rfl
    · rw [w3 _ (by simp), hx]
  | .expr e, v, o, n + 1, hl, hs, h1, hw, ha => by
    obtain ⟨q, rfl, hE⟩ := hl
    have g0 := Grew.new (X := []) hw (.arg (.expr none) none)
    obtain ⟨r, h3, o', e1, g2, k1⟩ := copyExpr_ok h e q none o n hE (by simp only [szA] at hs; omega) _ g0.wf (ha.grew g0 (by simp))
    obtain ⟨w1, w2, w3, w4⟩ := wrap_ok hw _ g2 (.arg (.expr (some r)) none)
    refine ⟨h1.brk, _, _, _, ?_, w2, w4, r, rfl, layE_frame k1 w3⟩
    simp only [copyArg]
    rw [run_bind, new_run]
    simp only [Option.bind_some]
    rw [run_bind, e1]
    simp only [Option.bind_some]
    rw [run_bind, put_run w1]
    rfl
  | .fn r body, v, o, n + 1, hl, hs, h1, hw, ha => by
    obtain ⟨q, extra, oR, oB, rfl, hR, hB, rfl⟩ := hl
    obtain ⟨c, o1, o2, o3, o4, o5, o6, o7, hc, rfl, e1, e2, e3, l1, l2, l3, l4, l5, l6, l7, rfl⟩ := hR
    simp only [szA] at hs
    cases n with
    | zero => omega
    | succ n =>
    have ga := Grew.new (X := []) hw (.arg (.func none) none)
    have aa := ha.grew ga (by simp)
    have g0 := Grew.new (X := []) ga.wf (.rcd {})
    have a0 := aa.grew g0 (by simp)
    obtain ⟨r1, m1, p1, f1, g1, k1⟩ := dupStr_ok l1 g0.wf (a0.sub fun a m => by simp [m])
    have a1 := a0.grew g1 (by simp)
    obtain ⟨r2, m2, p2, f2, g2, k2⟩ := dupStr_ok l2 g1.wf (a1.sub fun a m => by simp [m])
    have a2 := a1.grew g2 (by simp)
    obtain ⟨r7, m7, p7, f7, g7, k7⟩ := dupStr_ok l7 g2.wf (a2.sub fun a m => by simp [m])
    have a7 := a2.grew g7 (by simp)
    obtain ⟨r3, m3, p3, f3, g3, k3⟩ := dupNames_ok l3 g7.wf (a7.sub fun a m => by simp [m])
    have a3 := a7.grew g3 (by simp)
    obtain ⟨r4, m4, p4, f4, g4, k4⟩ := dupNames_ok l4 g3.wf (a3.sub fun a m => by simp [m])
    have a4 := a3.grew g4 (by simp)
    obtain ⟨r5, m5, p5, f5, g5, k5⟩ := copyAll_ok h body c.extra oB n hB (by omega) _ g4.wf (a4.sub fun a m => by simp [m])
    have G := ((((g1.trans g2 (by simp)).trans g7 (by simp)).trans g3 (by simp)).trans g4 (by simp)).trans g5 (by simp)
    obtain ⟨v1, v2, v3, v4⟩ := wrap_ok ga.wf _ G (.rcd { name := r1, sig := r2, nreq := c.nreq, nopt := c.nopt, req := r3, opt := r4, doc := r7, func := c.func, extra := r5 })
    obtain ⟨w1, w2, w3, w4⟩ := wrap_ok hw _ v2 (.arg (.func (some (alloc h1 (.arg (.func none) none)).brk)) none)
    have fr : ∀ a ∈ p1 ++ p2 ++ p7 ++ p3 ++ p4 ++ p5, ((m5.set (alloc h1 (.arg (.func none) none)).brk (some (.rcd { name := r1, sig := r2, nreq := c.nreq, nopt := c.nopt, req := r3, opt := r4, doc := r7, func := c.func, extra := r5 }))).set h1.brk
        (some (.arg (.func (some (alloc h1 (.arg (.func none) none)).brk)) none))).cell a = m5.cell a := by
      intro a m
      rw [w3 a (by simp at m ⊢; grind), v3 a m]
    have q5 : ∀ a, a < m4.brk → m5.cell a = m4.cell a := fun a m => g5.same a m (by simp)
    have q4 : ∀ a, a < m3.brk → m5.cell a = m3.cell a := fun a m => by rw [q5 a (by have := g4.le; omega), g4.same a m (by simp)]
    have q3 : ∀ a, a < m7.brk → m5.cell a = m7.cell a := fun a m => by rw [q4 a (by have := g3.le; omega), g3.same a m (by simp)]
    have q7 : ∀ a, a < m2.brk → m5.cell a = m2.cell a := fun a m => by rw [q3 a (by have := g7.le; omega), g7.same a m (by simp)]
    have q2 : ∀ a, a < m1.brk → m5.cell a = m1.cell a := fun a m => by rw [q7 a (by have := g2.le; omega), g2.same a m (by simp)]
    refine ⟨h1.brk, _, _, _, ?_, w2.perm (List.Perm.cons _ ?_), w4, (alloc h1 (.arg (.func none) none)).brk, r5,
      (alloc h1 (.arg (.func none) none)).brk :: (p1 ++ (p2 ++ (p3 ++ (p4 ++ ([] ++ ([] ++ p7)))))), p5, rfl,
      ⟨{ name := r1, sig := r2, nreq := c.nreq, nopt := c.nopt, req := r3, opt := r4, doc := r7, func := c.func, extra := r5 }, p1, p2, p3, p4, [], [], p7, ?_, rfl, e1, e2, e3, ?_, ?_, ?_, ?_, ⟨rfl, rfl⟩, ⟨rfl, rfl⟩, ?_, rfl⟩, ?_, rfl⟩
    · simp only [copyArg]
      rw [run_bind, new_run]
      simp only [Option.bind_some]
      simp only [copyRec]
      rw [run_bind, run_bind, get_run (by rw [(aa q (by simp)).2, hc])]
      simp only [Option.bind_some]
      simp only [run_bind]
      rw [new_run]
      simp only [Option.bind_some, f1, f2, f7]
      rw [e1, f3]
      simp only [Option.bind_some]
      rw [e2, f4]
      simp only [Option.bind_some, f5]
      rw [← e1, ← e2, put_run v1]
      simp only [Option.bind_some, run_pure]
      rw [put_run w1]
      rfl
    · simp only [List.cons_append, List.append_assoc, List.nil_append]
      refine List.Perm.cons _ (List.Perm.append_left _ (List.Perm.append_left _ ?_))
      have : (p7 ++ (p3 ++ (p4 ++ p5))).Perm ((p3 ++ p4) ++ (p7 ++ p5)) := by
        have := List.perm_append_comm (l₁ := p7) (l₂ := p3 ++ p4)
        simpa using this.append_right p5
      simpa using this
    · rw [w3 _ (by simp), v4]
    · exact layStr_frame k1 fun a m => by rw [fr a (by simp [m]), q2 a ((g1.mem a).mp m).2]
    · exact layStr_frame k2 fun a m => by rw [fr a (by simp [m]), q7 a ((g2.mem a).mp m).2]
    · exact layNames_frame k3 fun a m => by rw [fr a (by simp [m]), q4 a ((g3.mem a).mp m).2]
    · exact layNames_frame k4 fun a m => by rw [fr a (by simp [m]), q5 a ((g4.mem a).mp m).2]
    · exact layStr_frame k7 fun a m => by rw [fr a (by simp [m]), q3 a ((g7.mem a).mp m).2]
    · exact layEs_frame k5 fun a m => fr a (by simp [m])
theorem copyAll_ok (h : EMem) : ∀ (es : List HExpr) (p : Ptr) (o : List Nat) (n : Nat), LayEs h es p o → szEs es ≤ n →
    ∀ h1, WF h1 → Agree h o h1 → ∃ r h2 o', copyAll n p none h1 = some (r, h2) ∧ Grew [] h1 h2 o' ∧ LayEs h2 (cpEs es) r o'
  | [], p, o, n, hl, _, h1, hw, _ => by
    obtain ⟨rfl, rfl⟩ := hl
    refine ⟨none, h1, [], ?_, Grew.refl hw, rfl, rfl⟩
    cases n <;> rfl
  | e :: es, p, o, n, hl, hs, h1, hw, ha => by
    obtain ⟨q, next, o1, o2, rfl, l1, l2, rfl⟩ := hl
    cases n with
    | zero => simp [szEs] at hs
    | succ n =>
      simp only [szEs] at hs
      have hsz : 1 ≤ szE e := by cases e; simp [szE]; omega
      obtain ⟨c, h2, oc, e1, g1, k1⟩ := copyExpr_ok h e q next o1 n l1 (by omega) h1 hw (ha.sub fun a m => by simp [m])
      have hq : ∃ rr aa cc, h.cell q = some (.expr rr aa cc next) := by
        cases e; obtain ⟨_, _, h1, _, _⟩ := l1; exact ⟨_, _, _, h1⟩
      have hqo : q ∈ o1 := by cases e; obtain ⟨_, _, _, _, rfl⟩ := l1; simp
      obtain ⟨rr, aa, cc, hq⟩ := hq
      have a2 := ha.grew g1 (by simp)
      match e, l1, k1, hsz with
      | .mk rec argc args, l1, k1, hsz =>
      obtain ⟨av, oa, hcc, hA, rfl⟩ := k1
      have hcb : h1.brk ≤ c := ((g1.mem c).mp (by simp)).1
      obtain ⟨r, h3, o', e2, g2, m1, m2⟩ := copyRest_ok h es next o2 n 0 l2 (by omega) h2 g1.wf (a2.sub fun a m => by simp [m]) c c _ _ _
        ⟨rfl, _, _, _, hcc⟩ hcc (by intro hm; have := (ha c (by simp [hm])).1; omega)
      have hnd := List.nodup_cons.mp g1.nodup
      refine ⟨some c, h3, (c :: oa) ++ o', ?_, g1.trans g2 (by simp; omega), c, r, c :: oa, o', rfl, ⟨av, oa, m1, layAs_frame hA ?_, rfl⟩, m2, rfl⟩
      · simp only [copyAll]
        rw [run_bind, e1]
        simp only [Option.bind_some]
        simp only [run_bind]
        rw [get_run (by rw [(a2 q (by simp [hqo])).2, hq])]
        exact e2
      · intro a m
        refine g2.same a ((g1.mem a).mp (by simp [m])).2 ?_
        simp only [List.mem_singleton]; rintro rfl; exact hnd.1 m
theorem copyRest_ok (h : EMem) : ∀ (es : List HExpr) (p : Ptr) (o : List Nat) (n k : Nat), LayEs h es p o → szEs es + k ≤ n →
    ∀ h1, WF h1 → Agree h o h1 → ∀ d l rr aa cc, Path h1 k d l → h1.cell l = some (.expr rr aa cc none) → l ∉ o →
    ∃ r h2 o', copyAll n p (some d) h1 = some (some d, h2) ∧ Grew [l] h1 h2 o' ∧ h2.cell l = some (.expr rr aa cc r) ∧ LayEs h2 (cpEs es) r o'
  | [], p, o, n, k, hl, _, h1, hw, _, d, l, rr, aa, cc, _, hcl, _ => by
    obtain ⟨rfl, rfl⟩ := hl
    refine ⟨none, h1, [], ?_, Grew.refl hw, hcl, rfl, rfl⟩
    cases n <;> rfl
  | e :: es, p, o, n, k, hl, hs, h1, hw, ha, d, l, rr, aa, cc, hp, hcl, hlo => by
    obtain ⟨q, next, o1, o2, rfl, l1, l2, rfl⟩ := hl
    cases n with
    | zero => simp [szEs] at hs
    | succ n =>
      simp only [szEs] at hs
      have hsz : 1 ≤ szE e := by cases e; simp [szE]; omega
      obtain ⟨c, h2, oc, e1, g1, k1⟩ := copyExpr_ok h e q next o1 n l1 (by omega) h1 hw (ha.sub fun a m => by simp [m])
      have hq : ∃ rr aa cc, h.cell q = some (.expr rr aa cc next) := by
        cases e; obtain ⟨_, _, h1, _, _⟩ := l1; exact ⟨_, _, _, h1⟩
      have hqo : q ∈ o1 := by cases e; obtain ⟨_, _, _, _, rfl⟩ := l1; simp
      obtain ⟨r0, a0, c0, hq⟩ := hq
      match e, l1, k1, hsz with
      | .mk rec argc args, l1, k1, hsz =>
      obtain ⟨av, oa, hcc, hA, rfl⟩ := k1
      have hcb : h1.brk ≤ c := ((g1.mem c).mp (by simp)).1
      have hll := hw.lt hcl
      have hne : c ≠ l := by omega
      have hl2 : h2.cell l = some (.expr rr aa cc none) := g1.keep hw hcl
      have g2 : Grew [l] h1 (h2.set l (some (.expr rr aa cc (some c)))) (c :: oa) :=
        Grew.set (X := [l]) ⟨g1.le, fun a h1 _ => g1.same a h1 (by simp), g1.wf, g1.nodup, g1.mem⟩ (g1.wf.lt hl2) (Or.inl (by simp))
      have hc2 : (h2.set l (some (.expr rr aa cc (some c)))).cell c = some (.expr rec av argc none) := by rw [set_other _ hne, hcc]
      have g3 : Grew [l] h1 ((h2.set l (some (.expr rr aa cc (some c)))).set c (some (.expr rec av argc none))) (c :: oa) :=
        Grew.set g2 (g2.wf.lt hc2) (Or.inr hcb)
      have hsame : (h2.set l (some (.expr rr aa cc (some c)))).set c (some (.expr rec av argc none)) = h2.set l (some (.expr rr aa cc (some c))) := by
        have : ∀ x : EMem, x.cell c = some (.expr rec av argc none) → x.set c (some (.expr rec av argc none)) = x := by
          intro x hx
          simp only [EMem.set]
          congr 1; funext a
          by_cases h : a = c
          · subst h; simp [hx]
          · simp [h]
        exact this _ hc2
      have a3 := ha.grew g2 (by simp at hlo ⊢; exact hlo)
      have hpath : Path (h2.set l (some (.expr rr aa cc (some c)))) (k + 1) d c := by
        refine path_extend (path_frame hp fun a c h => g1.keep hw h) ?_ ⟨_, _, _, set_same _⟩ ⟨_, _, _, hc2⟩
        intro a x h1 h2; rw [set_other _ h1, h2]
      obtain ⟨r, h3, o', e2, g4, m1, m2⟩ := copyRest_ok h es next o2 n (k + 1) l2 (by omega) _ g2.wf (a3.sub fun a m => by simp [m]) d c _ _ _
        hpath hc2 (by intro hm; have := (ha c (by simp [hm])).1; omega)
      have hnd := List.nodup_cons.mp g1.nodup
      refine ⟨some c, h3, (c :: oa) ++ o', ?_, g2.trans g4 (by simp; omega), ?_, c, r, c :: oa, o', rfl, ⟨av, oa, m1, layAs_frame hA ?_, rfl⟩, m2, rfl⟩
      · simp only [copyAll]
        rw [run_bind, e1]
        simp only [Option.bind_some, appendExpr]
        simp only [run_bind]
        rw [lastExpr_run (path_frame hp fun a c h => g1.keep hw h) (by omega)]
        simp only [Option.bind_some]
        rw [get_run hl2]
        simp only [Option.bind_some]
        rw [run_bind, put_run hl2]
        simp only [Option.bind_some]
        rw [run_bind, get_run hc2]
        simp only [Option.bind_some]
        rw [put_run hc2]
        simp only [Option.bind_some, hsame]
        rw [get_run (by rw [(a3 q (by simp [hqo])).2, hq])]
        exact e2
      · rw [g4.same l (g1.wf.lt hl2) (by simp; omega), set_same]
      · intro a m
        have hb := (g1.mem a).mp (by simp [m])
        rw [g4.same a hb.2 (by simp only [List.mem_singleton]; rintro rfl; exact hnd.1 m), set_other _ (by omega)]
end

/-! ## The blocks of an expression are allocated -/

theorem layStr_live {h : EMem} {s : Option Bytes} {p : Ptr} {o : List Nat} (hl : LayStr h s p o) : ∀ a ∈ o, h.cell a ≠ none := by
  cases s with
  | none => obtain ⟨rfl, rfl⟩ := hl; simp
  | some s => obtain ⟨q, rfl, hc, rfl⟩ := hl; simp [hc]

theorem layInts_live {h : EMem} {s : Option (List Int)} {p : Ptr} {o : List Nat} (hl : LayInts h s p o) : ∀ a ∈ o, h.cell a ≠ none := by
  cases s with
  | none => obtain ⟨rfl, rfl⟩ := hl; simp
  | some s => obtain ⟨q, rfl, hc, rfl⟩ := hl; simp [hc]

theorem live_append {h : EMem} {o1 o2 : List Nat} (h1 : ∀ a ∈ o1, h.cell a ≠ none) (h2 : ∀ a ∈ o2, h.cell a ≠ none) :
    ∀ a ∈ o1 ++ o2, h.cell a ≠ none := by
  intro a m
  rcases List.mem_append.mp m with m | m
  · exact h1 a m
  · exact h2 a m

theorem live_cons {h : EMem} {q : Nat} {c : ECell} {o : List Nat} (hc : h.cell q = some c) (h2 : ∀ a ∈ o, h.cell a ≠ none) :
    ∀ a ∈ q :: o, h.cell a ≠ none := by
  intro a m
  rcases List.mem_cons.mp m with rfl | m
  · rw [hc]; simp
  · exact h2 a m

theorem layStrs_live {h : EMem} {ss : List (Option Bytes)} {l : List Ptr} {o : List Nat} (hl : LayStrs h ss l o) : ∀ a ∈ o, h.cell a ≠ none := by
  induction ss generalizing l o with
  | nil => obtain ⟨rfl, rfl⟩ := hl; simp
  | cons s ss ih => obtain ⟨p, ps, o1, o2, rfl, h1, h2, rfl⟩ := hl; exact live_append (layStr_live h1) (ih h2)

theorem layNames_live {h : EMem} {n : Int} {ss : Option (List (Option Bytes))} {p : Ptr} {o : List Nat} (hl : LayNames h n ss p o) :
    ∀ a ∈ o, h.cell a ≠ none := by
  cases ss with
  | none => obtain ⟨rfl, rfl⟩ := hl; simp
  | some ss => obtain ⟨q, l, o, rfl, hc, hn, h1, rfl⟩ := hl; exact live_cons hc (layStrs_live h1)

theorem layElems_live {h : EMem} {as : List HAtom} {l : List EAtom} {o : List Nat} (hl : LayElems h as l o) : ∀ a ∈ o, h.cell a ≠ none := by
  induction as generalizing l o with
  | nil => obtain ⟨rfl, rfl⟩ := hl; simp
  | cons x as ih =>
    cases x with
    | num t b => obtain ⟨l', rfl, h1⟩ := hl; exact ih h1
    | str s => obtain ⟨p, l', o1, o2, rfl, h1, h2, rfl⟩ := hl; exact live_append (layStr_live h1) (ih h2)

theorem layList_live {h : EMem} {as : Option (List HAtom)} {p : Ptr} {o : List Nat} (hl : LayList h as p o) : ∀ a ∈ o, h.cell a ≠ none := by
  cases as with
  | none => obtain ⟨rfl, rfl⟩ := hl; simp
  | some as =>
    obtain ⟨q, rfl, hl⟩ := hl
    rcases hl with ⟨rfl, hc, rfl⟩ | ⟨d, l, o, hc, hd, he, rfl⟩
    · exact live_cons hc (by simp)
    · exact live_cons hc (live_cons hd (layElems_live he))

theorem layRec_live {h : EMem} {r : HRec} {q : Nat} {extra : Ptr} {o : List Nat} (hl : LayRec h r q extra o) : ∀ a ∈ o, h.cell a ≠ none := by
  obtain ⟨c, o1, o2, o3, o4, o5, o6, o7, hc, e0, e1, e2, e3, l1, l2, l3, l4, l5, l6, l7, rfl⟩ := hl
  exact live_cons hc (live_append (layStr_live l1) (live_append (layStr_live l2) (live_append (layNames_live l3) (live_append (layNames_live l4)
    (live_append (layInts_live l5) (live_append (layInts_live l6) (layStr_live l7)))))))

mutual
theorem layE_live {h : EMem} : ∀ {e : HExpr} {q : Nat} {next : Ptr} {o : List Nat}, LayE h e q next o → ∀ a ∈ o, h.cell a ≠ none
  | .mk rec argc args, q, next, o, hl => by
    obtain ⟨argv, oa, hc, hA, rfl⟩ := hl
    exact live_cons hc (layAs_live hA)
theorem layA_live {h : EMem} : ∀ {a : HArg} {v : EVal} {o : List Nat}, LayA h a v o → ∀ a ∈ o, h.cell a ≠ none
  | .num t b, v, o, hl => by obtain ⟨q, rfl, hc, rfl⟩ := hl; exact live_cons hc (by simp)
  | .str s, v, o, hl => by obtain ⟨q, r, rfl, hc, hr, rfl⟩ := hl; exact live_cons hc (live_cons hr (by simp))
  | .list l, v, o, hl => by obtain ⟨p, rfl, hl⟩ := hl; exact layList_live hl
  | .addr s, v, o, hl => by obtain ⟨q, rfl, hc, rfl⟩ := hl; exact live_cons hc (by simp)
  | .expr e, v, o, hl => by obtain ⟨q, rfl, hl⟩ := hl; exact layE_live hl
  | .fn r body, v, o, hl => by
    obtain ⟨q, extra, o1, o2, rfl, hR, hB, rfl⟩ := hl
    exact live_append (layRec_live hR) (layEs_live hB)
theorem layAs_live {h : EMem} : ∀ {as : List HArg} {p : Ptr} {o : List Nat}, LayAs h as p o → ∀ a ∈ o, h.cell a ≠ none
  | [], _, _, hl => by obtain ⟨rfl, rfl⟩ := hl; simp
  | a :: as, p, o, hl => by
    obtain ⟨q, v, next, o1, o2, rfl, hc, h1, h2, rfl⟩ := hl
    exact live_cons hc (live_append (layA_live h1) (layAs_live h2))
theorem layEs_live {h : EMem} : ∀ {es : List HExpr} {p : Ptr} {o : List Nat}, LayEs h es p o → ∀ a ∈ o, h.cell a ≠ none
  | [], _, _, hl => by obtain ⟨rfl, rfl⟩ := hl; simp
  | e :: es, p, o, hl => by
    obtain ⟨q, next, o1, o2, rfl, h1, h2, rfl⟩ := hl
    exact live_append (layE_live h1) (layEs_live h2)
end

theorem agree_self {h : EMem} (hw : WF h) {o : List Nat} (hl : ∀ a ∈ o, h.cell a ≠ none) : Agree h o h := by
  intro a m
  refine ⟨?_, rfl⟩
  rcases Nat.lt_or_ge a h.brk with h1 | h1
  · exact h1
  · exact absurd (hw a h1) (hl a m)

/-! ## Which copies are faithful -/

mutual
/-- No list is an argument, and no record has types of arguments. -/
def PlainE : HExpr → Prop
  | .mk _ _ args => PlainAs args
def PlainA : HArg → Prop
  | .list l => l = none
  | .expr e => PlainE e
  | .fn r body => (r.reqTypes = none ∧ r.optTypes = none) ∧ PlainEs body
  | _ => True
def PlainAs : List HArg → Prop
  | [] => True
  | a :: as => PlainA a ∧ PlainAs as
def PlainEs : List HExpr → Prop
  | [] => True
  | e :: es => PlainE e ∧ PlainEs es
end

mutual
theorem cpE_plain : ∀ e, PlainE e → cpE e = e
  | .mk _ _ args, h => by simp only [cpE, cpAs_plain args h]
theorem cpA_plain : ∀ a, PlainA a → cpA a = a
  | .list l, h => by rw [show l = none from h]; rfl
  | .expr e, h => by simp only [cpA, cpE_plain e h]
  | .fn r body, h => by
    simp only [cpA, cpEs_plain body h.2, cpRec]
    obtain ⟨⟨h1, h2⟩, _⟩ := h
    cases r; simp at h1 h2 ⊢; exact ⟨h1.symm, h2.symm⟩
  | .num _ _, _ => rfl
  | .str _, _ => rfl
  | .addr _, _ => rfl
theorem cpAs_plain : ∀ as, PlainAs as → cpAs as = as
  | [], _ => rfl
  | a :: as, h => by simp only [cpAs, cpA_plain a h.1, cpAs_plain as h.2]
theorem cpEs_plain : ∀ es, PlainEs es → cpEs es = es
  | [], _ => rfl
  | e :: es, h => by simp only [cpEs, cpE_plain e h.1, cpEs_plain es h.2]
end

/-! ## Lists of arguments -/

/-- Walking to the end of a list of arguments, and what hanging another list there gives. -/
theorem walk_ok (h : EMem) (bs : List HArg) (p : Ptr) (ob : List Nat) (hb : LayAs h bs p ob) : ∀ (as : List HArg) (a : Nat) (oa : List Nat),
    LayAs h as (some a) oa → (oa ++ ob).Nodup → ∀ n, as.length ≤ n → ∃ l w, walkArgs n a h = some ((l, as.length), h) ∧ l ∈ oa ∧
      h.cell l = some (.arg w none) ∧ ∀ h' : EMem, (∀ x ∈ oa ++ ob, x ≠ l → h'.cell x = h.cell x) → h'.cell l = some (.arg w p) →
        LayAs h' (as ++ bs) (some a) (oa ++ ob) := by
  intro as
  induction as with
  | nil => intro a oa hl; exact absurd hl.1 (by simp)
  | cons x as ih =>
    intro a oa hl hn n hk
    obtain ⟨q, v, next, o1, o2, hq, hc, h1, h2, rfl⟩ := hl
    obtain rfl : a = q := by simpa using hq
    cases n with
    | zero => simp at hk
    | succ n =>
    simp only [List.cons_append, List.append_assoc, List.nodup_cons, List.mem_append, not_or] at hn
    obtain ⟨⟨m1, m2, m3⟩, hn⟩ := hn
    obtain ⟨n1, n2, n3⟩ := List.nodup_append.mp hn
    cases as with
    | nil =>
      obtain ⟨rfl, rfl⟩ := h2
      refine ⟨a, v, ?_, by simp, hc, ?_⟩
      · simp only [walkArgs]
        rw [run_bind, get_run hc]; rfl
      · intro h' hs hl
        refine ⟨a, v, p, o1, ob, rfl, hl, layA_frame h1 ?_, layAs_frame hb ?_, by simp⟩
        · intro y m; exact hs y (by simp [m]) (by rintro rfl; exact m1 m)
        · intro y m; exact hs y (by simp [m]) (by rintro rfl; exact m3 m)
    | cons y as =>
      have h2' := h2
      obtain ⟨b, _, _, _, _, rfl, _⟩ := h2'
      obtain ⟨l, w, e1, e2, e3, e4⟩ := ih b o2 h2 n2 n (by simpa using hk)
      refine ⟨l, w, ?_, by simp [e2], e3, ?_⟩
      · simp only [walkArgs]
        rw [run_bind, get_run hc]
        simp only [Option.bind_some]
        rw [run_bind, e1]
        rfl
      · intro h' hs hl
        refine ⟨a, v, some b, o1, o2 ++ ob, rfl, ?_, layA_frame h1 ?_, e4 h' ?_ hl, by simp⟩
        · rw [hs a (by simp) (by rintro rfl; exact m2 e2), hc]
        · intro z m; exact hs z (by simp [m]) (by rintro rfl; exact n3 z m z (by simp [e2]) rfl)
        · intro z m; exact hs z (by simp at m ⊢; grind)

theorem linkArg_run {h : EMem} {l : Nat} {w : EVal} {q : Ptr} (hc : h.cell l = some (.arg w q)) (p : Ptr) :
    linkArg l p h = some ((), h.set l (some (.arg w p))) := by
  simp only [linkArg]
  rw [run_bind, get_run hc]
  exact put_run hc _

theorem walk_len (h : EMem) {as : List HArg} {a : Nat} {oa : List Nat} (hl : LayAs h as (some a) oa) (n : Nat) (hk : as.length ≤ n) :
    ∃ l, walkArgs n a h = some ((l, as.length), h) := by
  induction as generalizing a oa n with
  | nil => exact absurd hl.1 (by simp)
  | cons x as ih =>
    obtain ⟨q, v, next, o1, o2, hq, hc, h1, h2, rfl⟩ := hl
    obtain rfl : a = q := by simpa using hq
    cases n with
    | zero => simp at hk
    | succ n =>
      cases as with
      | nil =>
        obtain ⟨rfl, rfl⟩ := h2
        refine ⟨a, ?_⟩
        simp only [walkArgs]
        rw [run_bind, get_run hc]; rfl
      | cons y as =>
        have h2' := h2
        obtain ⟨b, _, _, _, _, rfl, _⟩ := h2'
        obtain ⟨l, e1⟩ := ih h2 n (by simpa using hk)
        refine ⟨l, ?_⟩
        simp only [walkArgs]
        rw [run_bind, get_run hc]
        simp only [Option.bind_some]
        rw [run_bind, e1]
        rfl

end Libo.Props.EH

namespace Libo.Props
open Libo Libo.EHeap EH

/-! ## C86 -/

/-- **C86, freeing.** Freeing a list of expressions frees every block of it once — the expressions, their arguments, atoms, strings,
addresses, lists, the records of functions with their names, and the bodies — and no other block. -/
theorem C86_free (h : EMem) (es : List HExpr) (p : Ptr) (own : List Nat) (hl : LayEs h es p own) (hn : own.Nodup) (n : Nat) (hs : szEs es ≤ n) :
    freeExprs n p h = some ((), { h with cell := fun a => if a ∈ own then none else h.cell a }) :=
  fr_exprs h es p own n hl hn hs h fun _ _ => rfl

/-- **C86, copying (partial).** The copy of an expression is the same expression in new blocks: every block that was given out belongs to the
copy, and no block that was there before has changed, so that nothing is shared and the source stays as it is.

Full statement: this holds for every expression.  Missing: expressions with lists as arguments or with records that have types, see
`C86_full_fails` and `C86_copy_of_lists`. -/
theorem C86_copy_partial (h : EMem) (hw : WF h) (e : HExpr) (q : Nat) (next : Ptr) (own : List Nat) (hl : LayE h e q next own)
    (hp : PlainE e) (n : Nat) (hs : szE e ≤ n) :
    ∃ r h' own', copyExpr n (some q) h = some (some r, h') ∧ LayE h' e r none own' ∧ own'.Nodup ∧
      (∀ a, a ∈ own' ↔ h.brk ≤ a ∧ a < h'.brk) ∧ (∀ a, a < h.brk → h'.cell a = h.cell a) ∧ WF h' := by
  obtain ⟨r, h2, o', e1, g, k⟩ := copyExpr_ok h e q next own n hl hs h hw (agree_self hw (layE_live hl))
  rw [cpE_plain e hp] at k
  exact ⟨r, h2, o', e1, k, g.nodup, g.mem, fun a ha => g.same a ha (by simp), g.wf⟩

/-- **C86, copying anything.** In general the copy is the expression without its lists and without the types in its records; it is in new
blocks all the same. -/
theorem C86_copy_of_lists (h : EMem) (hw : WF h) (e : HExpr) (q : Nat) (next : Ptr) (own : List Nat) (hl : LayE h e q next own)
    (n : Nat) (hs : szE e ≤ n) :
    ∃ r h' own', copyExpr n (some q) h = some (some r, h') ∧ LayE h' (cpE e) r none own' ∧ own'.Nodup ∧
      (∀ a, a ∈ own' ↔ h.brk ≤ a ∧ a < h'.brk) ∧ (∀ a, a < h.brk → h'.cell a = h.cell a) ∧ WF h' := by
  obtain ⟨r, h2, o', e1, g, k⟩ := copyExpr_ok h e q next own n hl hs h hw (agree_self hw (layE_live hl))
  exact ⟨r, h2, o', e1, k, g.nodup, g.mem, fun a ha => g.same a ha (by simp), g.wf⟩

/-- **C86, copying and freeing.** Freeing the copy gives the memory back as it was: nothing is leaked, and the source is not hurt. -/
theorem C86_copy_free (h : EMem) (hw : WF h) (e : HExpr) (q : Nat) (next : Ptr) (own : List Nat) (hl : LayE h e q next own)
    (n : Nat) (hs : szE e ≤ n) : ∃ r h', copyExpr n (some q) h = some (some r, h') ∧
      ∀ k, szE (cpE e) + 3 ≤ k → ∃ h'', freeExprs k (some r) h' = some ((), h'') ∧ ∀ a, h''.cell a = h.cell a := by
  obtain ⟨r, h2, o', e1, g, kk⟩ := copyExpr_ok h e q next own n hl hs h hw (agree_self hw (layE_live hl))
  refine ⟨r, h2, e1, fun k hk => ⟨_, C86_free h2 [cpE e] (some r) o' ⟨r, none, o', [], rfl, kk, ⟨rfl, rfl⟩, by simp⟩ g.nodup k
    (by simp only [szEs]; omega), fun a => ?_⟩⟩
  simp only [g.mem]
  by_cases h1 : a < h.brk
  · rw [if_neg (by omega), g.same a h1 (by simp)]
  · by_cases h3 : a < h2.brk
    · rw [if_pos (by omega), hw a (by omega)]
    · rw [if_neg (by omega), g.wf a (by omega), hw a (by omega)]

/-- **C86, the failure.** A copy never has the list of its source: whatever the list is, the copy of an expression with this list as its
argument is not that expression. -/
theorem C86_full_fails (h : EMem) (hw : WF h) (rec : Nat) (argc : Int) (l : List HAtom) (q : Nat) (next : Ptr) (own : List Nat)
    (hl : LayE h (.mk rec argc [.list (some l)]) q next own) (n : Nat) (hs : 7 ≤ n) :
    ∃ r h', copyExpr n (some q) h = some (some r, h') ∧ ∀ own', ¬ LayE h' (.mk rec argc [.list (some l)]) r none own' := by
  obtain ⟨r, h2, o', e1, g, k⟩ := copyExpr_ok h _ q next own n hl (by simpa [szE, szAs, szA] using hs) h hw (agree_self hw (layE_live hl))
  refine ⟨r, h2, e1, ?_⟩
  obtain ⟨argv, o1, c1, ⟨q1, v, nx, o2, o3, rfl, c2, ⟨p, rfl, rfl, _⟩, _, _⟩, _⟩ := k
  rintro own' ⟨argv', o4, c3, ⟨q2, v', nx', o5, o6, rfl, c4, ⟨p', rfl, x, rfl, _⟩, _, _⟩, _⟩
  rw [c1] at c3
  simp only [Option.some.injEq, ECell.expr.injEq, true_and, and_true] at c3
  subst c3
  rw [c2] at c4
  simp at c4

/-! ## C87 -/

/-- **C87, prepending (partial).** After prepending a list of arguments to an expression its arguments are the new ones followed by the old
ones, and their number has grown by the number of new ones.

Full statement: this holds for every expression.  Missing: several arguments for an expression without arguments, see `C87_full_fails`. -/
theorem C87_prepend_partial (h : EMem) (rec : Nat) (argc : Int) (args new : List HArg) (q a : Nat) (next : Ptr) (own on : List Nat)
    (hl : LayE h (.mk rec argc args) q next own) (ha : LayAs h new (some a) on) (hn : (own ++ on).Nodup)
    (hne : args ≠ [] ∨ (argc = 0 ∧ new.length = 1)) (n : Nat) (hs : new.length ≤ n) :
    ∃ h' own', prependArg n q (some a) h = some ((), h') ∧ LayE h' (.mk rec (argc + new.length) (new ++ args)) q next own' ∧
      (∀ x, x ∈ own' ↔ x ∈ own ∨ x ∈ on) ∧ own'.Nodup ∧ (∀ x, x ∉ own → x ∉ on → h'.cell x = h.cell x) ∧ h'.brk = h.brk := by
  obtain ⟨argv, o, hc, hA, rfl⟩ := hl
  simp only [List.cons_append, List.nodup_cons, List.mem_append, not_or] at hn
  obtain ⟨⟨m1, m2⟩, hn⟩ := hn
  have hn' : (on ++ o).Nodup := (List.perm_append_comm.nodup_iff).mp hn
  cases args with
  | nil =>
    obtain ⟨rfl, rfl⟩ := hA
    rcases hne with hne | ⟨rfl, h1⟩
    · exact absurd rfl hne
    · refine ⟨h.set q (some (.expr rec (some a) 1 next)), q :: on, ?_, ⟨some a, on, ?_, ?_, rfl⟩, by simp, ?_, ?_, rfl⟩
      · simp only [prependArg]
        rw [run_bind, get_run hc]
        exact put_run hc _
      · rw [set_same]; simp [h1]
      · rw [List.append_nil]
        exact layAs_frame ha fun x m => set_other _ (by rintro rfl; exact m2 m)
      · exact List.nodup_cons.mpr ⟨m2, by simpa using hn⟩
      · intro x h1 _; exact set_other _ (by rintro rfl; exact h1 (by simp))
  | cons x args =>
    have hA' := hA
    obtain ⟨v, _, _, _, _, rfl, _⟩ := hA'
    obtain ⟨l, w, e1, e2, e3, e4⟩ := walk_ok h (x :: args) (some v) o hA new a on ha hn' n hs
    have hlq : q ≠ l := by rintro rfl; exact m2 e2
    have hc' : (h.set l (some (.arg w (some v)))).cell q = some (.expr rec (some v) argc next) := by rw [set_other _ hlq, hc]
    refine ⟨(h.set l (some (.arg w (some v)))).set q (some (.expr rec (some a) (argc + new.length) next)), q :: (on ++ o), ?_,
      ⟨some a, on ++ o, set_same _, e4 _ ?_ ?_, rfl⟩, ?_, ?_, ?_, rfl⟩
    · simp only [prependArg]
      rw [run_bind, get_run hc]
      simp only [Option.bind_some]
      rw [run_bind, e1]
      simp only [Option.bind_some]
      rw [run_bind, linkArg_run e3]
      exact put_run hc' _
    · intro y m1' m2'
      rw [set_other _ (by rintro rfl; simp at m1'; grind), set_other _ m2']
    · rw [set_other _ (Ne.symm hlq), set_same]
    · intro y; simp; grind
    · exact List.nodup_cons.mpr ⟨by simp; exact ⟨m2, m1⟩, hn'⟩
    · intro y h1 h2
      rw [set_other _ (by rintro rfl; exact h1 (by simp)), set_other _ (by rintro rfl; exact h2 e2)]

/-- **C87, appending (partial).** After appending a list of arguments to an expression its arguments are the old ones followed by the new
ones, and their number has grown by the number of new ones.

Full statement: this holds for every expression.  Missing: several arguments for an expression without arguments, see `C87_full_fails`. -/
theorem C87_append_partial (h : EMem) (rec : Nat) (argc : Int) (args new : List HArg) (q a : Nat) (next : Ptr) (own on : List Nat)
    (hl : LayE h (.mk rec argc args) q next own) (ha : LayAs h new (some a) on) (hn : (own ++ on).Nodup)
    (hne : args ≠ [] ∨ (argc = 0 ∧ new.length = 1)) (n : Nat) (hs : args.length ≤ n) (hs2 : new.length ≤ n) :
    ∃ h' own', appendArg n q (some a) h = some ((), h') ∧ LayE h' (.mk rec (argc + new.length) (args ++ new)) q next own' ∧
      (∀ x, x ∈ own' ↔ x ∈ own ∨ x ∈ on) ∧ own'.Nodup ∧ (∀ x, x ∉ own → x ∉ on → h'.cell x = h.cell x) ∧ h'.brk = h.brk := by
  obtain ⟨argv, o, hc, hA, rfl⟩ := hl
  simp only [List.cons_append, List.nodup_cons, List.mem_append, not_or] at hn
  obtain ⟨⟨m1, m2⟩, hn⟩ := hn
  obtain ⟨_, _, hdis⟩ := List.nodup_append.mp hn
  cases args with
  | nil =>
    obtain ⟨rfl, rfl⟩ := hA
    rcases hne with hne | ⟨rfl, h1⟩
    · exact absurd rfl hne
    · refine ⟨h.set q (some (.expr rec (some a) 1 next)), q :: on, ?_, ⟨some a, on, ?_, ?_, rfl⟩, by simp, ?_, ?_, rfl⟩
      · simp only [appendArg]
        rw [run_bind, get_run hc]
        exact put_run hc _
      · rw [set_same]; simp [h1]
      · exact layAs_frame ha fun x m => set_other _ (by rintro rfl; exact m2 m)
      · exact List.nodup_cons.mpr ⟨m2, by simpa using hn⟩
      · intro x h1 _; exact set_other _ (by rintro rfl; exact h1 (by simp))
  | cons x args =>
    have hA' := hA
    obtain ⟨v, _, _, _, _, rfl, _⟩ := hA'
    obtain ⟨l, w, e1, e2, e3, e4⟩ := walk_ok h new (some a) on ha (x :: args) v o hA hn n hs
    have hlq : q ≠ l := by rintro rfl; exact m1 e2
    have hc' : (h.set l (some (.arg w (some a)))).cell q = some (.expr rec (some v) argc next) := by rw [set_other _ hlq, hc]
    have ha' : LayAs (h.set l (some (.arg w (some a)))) new (some a) on :=
      layAs_frame ha fun y m => set_other _ (by rintro rfl; exact hdis y e2 y m rfl)
    obtain ⟨l', e5⟩ := walk_len _ ha' n hs2
    refine ⟨(h.set l (some (.arg w (some a)))).set q (some (.expr rec (some v) (argc + new.length) next)), q :: (o ++ on), ?_,
      ⟨some v, o ++ on, set_same _, e4 _ ?_ ?_, rfl⟩, ?_, ?_, ?_, rfl⟩
    · simp only [appendArg]
      rw [run_bind, get_run hc]
      simp only [Option.bind_some]
      rw [run_bind, e1]
      simp only [Option.bind_some]
      rw [run_bind, linkArg_run e3]
      simp only [Option.bind_some]
      rw [run_bind, e5]
      exact put_run hc' _
    · intro y m1' m2'
      rw [set_other _ (by rintro rfl; simp at m1'; grind), set_other _ m2']
    · rw [set_other _ (Ne.symm hlq), set_same]
    · intro y; simp; grind
    · exact List.nodup_cons.mpr ⟨by simp; exact ⟨m1, m2⟩, hn⟩
    · intro y h1 h2
      rw [set_other _ (by rintro rfl; exact h1 (by simp)), set_other _ (by rintro rfl; exact h1 (by simp [e2]))]

/-- **C87, the failure.** Prepending or appending two or more arguments to an expression without arguments counts them as one. -/
theorem C87_full_fails (h : EMem) (rec : Nat) (argc : Int) (new : List HArg) (q a : Nat) (next : Ptr) (own on : List Nat)
    (hl : LayE h (.mk rec argc []) q next own) (ha : LayAs h new (some a) on) (hn : (own ++ on).Nodup) (n : Nat) :
    ∃ h', prependArg n q (some a) h = some ((), h') ∧ appendArg n q (some a) h = some ((), h') ∧
      LayE h' (.mk rec 1 new) q next (own ++ on) := by
  obtain ⟨argv, o, hc, ⟨rfl, rfl⟩, rfl⟩ := hl
  refine ⟨h.set q (some (.expr rec (some a) 1 next)), ?_, ?_, some a, on, set_same _, ?_, rfl⟩
  · simp only [prependArg]
    rw [run_bind, get_run hc]
    exact put_run hc _
  · simp only [appendArg]
    rw [run_bind, get_run hc]
    exact put_run hc _
  · exact layAs_frame ha fun x m => set_other _ (by rintro rfl; simp at hn; exact hn.1 m)

/-! ## A concrete case -/

/-- `f("a", lambda([x], {g(/x)}))` in twelve blocks. -/
def ehDemo : EMem where
  cell a := [ECell.expr 7 (some 1) 2 none, .arg (.atom (some 2)) (some 4), .atom (.str (some 3)), .str (n! "a"), .arg (.func (some 5)) none,
    .rcd { name := some 6, nreq := 1, req := some 7, extra := some 9 }, .str (n! "lambda"), .names [some 8], .str (n! "x"),
    .expr 8 (some 10) 1 none, .arg (.addr (some 11)) none, .str (n! "/x")][a]?
  brk := 12

/-- The expression. -/
def ehTree : HExpr :=
  .mk 7 2 [.str (n! "a"), .fn { name := some (n! "lambda"), nreq := 1, req := some [some (n! "x")] } [.mk 8 1 [.addr (n! "/x")]]]

/-- It is there, its blocks are the twelve, and it meets all hypotheses. -/
theorem ehDemo_lay : WF ehDemo ∧ LayE ehDemo ehTree 0 none (List.range 12) ∧ PlainE ehTree ∧ szE ehTree = 22 := by
  refine ⟨fun a ha => ?_, ⟨some 1, [1, 2, 3, 4, 5, 6, 7, 8, 9, 10, 11], rfl, ⟨1, .atom (some 2), some 4, [2, 3], [4, 5, 6, 7, 8, 9, 10, 11], rfl, rfl,
    ⟨2, 3, rfl, rfl, rfl, rfl⟩, ⟨4, .func (some 5), none, [5, 6, 7, 8, 9, 10, 11], [], rfl, rfl,
      ⟨5, some 9, [5, 6, 7, 8], [9, 10, 11], rfl,
        ⟨_, [6], [], [7, 8], [], [], [], [], rfl, rfl, rfl, rfl, rfl, ⟨6, rfl, rfl, rfl⟩, ⟨rfl, rfl⟩,
          ⟨7, [some 8], [8], rfl, rfl, rfl, ⟨some 8, [], [8], [], rfl, ⟨8, rfl, rfl, rfl⟩, ⟨rfl, rfl⟩, rfl⟩, rfl⟩,
          ⟨rfl, rfl⟩, ⟨rfl, rfl⟩, ⟨rfl, rfl⟩, ⟨rfl, rfl⟩, rfl⟩,
        ⟨9, none, [9, 10, 11], [], rfl, ⟨some 10, [10, 11], rfl, ⟨10, .addr (some 11), none, [11], [], rfl, rfl, ⟨11, rfl, rfl, rfl⟩, ⟨rfl, rfl⟩, rfl⟩, rfl⟩,
          ⟨rfl, rfl⟩, rfl⟩, rfl⟩, ⟨rfl, rfl⟩, rfl⟩, rfl⟩, rfl⟩, ?_, ?_⟩
  · simp only [ehDemo] at ha ⊢
    exact List.getElem?_eq_none (by simpa using ha)
  · simp [PlainE, PlainAs, PlainA, PlainEs, ehTree]
  · simp [szE, szAs, szA, szEs, ehTree]

/-- Its copy, and freeing the copy. -/
example : ∃ r h', copyExpr 22 (some 0) ehDemo = some (some r, h') ∧
    ∃ h'', freeExprs 25 (some r) h' = some ((), h'') ∧ ∀ a, h''.cell a = ehDemo.cell a := by
  obtain ⟨hw, hl, hp, hs⟩ := ehDemo_lay
  obtain ⟨r, h', e, hf⟩ := C86_copy_free ehDemo hw ehTree 0 none _ hl 22 (by omega)
  exact ⟨r, h', e, hf 25 (by rw [cpE_plain _ hp]; omega)⟩

/-- An expression with a list: the hypotheses of `C86_full_fails`. -/
example : ∃ h own, WF h ∧ LayE h (.mk 1 1 [.list (some [.num 105 5])]) 0 none own :=
  ⟨⟨fun a => [ECell.expr 1 (some 1) 1 none, .arg (.list (some 2)) none, .arr (some 3), .atoms [.num 105 5]][a]?, 4⟩, [0, 1, 2, 3],
    fun a ha => List.getElem?_eq_none (by simpa using ha),
    some 1, [1, 2, 3], rfl, ⟨1, .list (some 2), none, [2, 3], [], rfl, rfl, ⟨some 2, rfl, 2, rfl, Or.inr ⟨3, [.num 105 5], [], rfl, rfl, ⟨[], rfl, rfl, rfl⟩, rfl⟩⟩,
      ⟨rfl, rfl⟩, rfl⟩, rfl⟩

/-- An expression with an argument and two new arguments: the hypotheses of C87. -/
example : ∃ h own on, LayE h (.mk 1 1 [.num 105 5]) 0 none own ∧ LayAs h [.num 105 6, .num 105 7] (some 3) on ∧ (own ++ on).Nodup :=
  ⟨⟨fun a => [ECell.expr 1 (some 1) 1 none, .arg (.atom (some 2)) none, .atom (.num 105 5), .arg (.atom (some 4)) (some 5), .atom (.num 105 6),
      .arg (.atom (some 6)) none, .atom (.num 105 7)][a]?, 7⟩, [0, 1, 2], [3, 4, 5, 6],
    ⟨some 1, [1, 2], rfl, ⟨1, _, none, [2], [], rfl, rfl, ⟨2, rfl, rfl, rfl⟩, ⟨rfl, rfl⟩, rfl⟩, rfl⟩,
    ⟨3, _, some 5, [4], [5, 6], rfl, rfl, ⟨4, rfl, rfl, rfl⟩, ⟨5, _, none, [6], [], rfl, rfl, ⟨6, rfl, rfl, rfl⟩, ⟨rfl, rfl⟩, rfl⟩, rfl⟩, by decide⟩

end Libo.Props
