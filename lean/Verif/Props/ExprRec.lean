import Verif.ExprRec
import Verif.Props.ExprHeap
/-!
# C103: records of functions that are made step by step

`HRec` and `LayRec` of `Props/ExprHeap.lean` say what a record holds and which blocks it owns.
-/

namespace Libo.Props.EH
open Libo Libo.EHeap

/-- Storing in a record after new blocks were made. -/
theorem modRec_ok {h h1 : EMem} {q : Nat} {c : RCell} {on : List Nat} (hw : WF h) (hc : h.cell q = some (.rcd c)) (g : Grew [] h h1 on)
    (f : RCell → RCell) : ∃ h2, modRec q f h1 = some ((), h2) ∧ Grew [q] h h2 on ∧ h2.cell q = some (.rcd (f c)) ∧
      (∀ a, h.cell a ≠ none → a ≠ q → h2.cell a = h.cell a) ∧ (∀ a ∈ on, h2.cell a = h1.cell a) := by
  have hq := hw.lt hc
  have hc1 : h1.cell q = some (.rcd c) := g.keep hw hc
  have g' : Grew [q] h h1 on := ⟨g.le, fun a ha _ => g.same a ha (by simp), g.wf, g.nodup, g.mem⟩
  refine ⟨h1.set q (some (.rcd (f c))), ?_, g'.set (Nat.lt_of_lt_of_le hq g.le) (Or.inl (by simp)), set_same _, ?_, ?_⟩
  · simp only [modRec]
    rw [run_bind, get_run hc1]
    exact put_run hc1 _
  · intro a ha hn
    rw [set_other _ hn]
    cases e : h.cell a with
    | none => exact absurd e ha
    | some c => exact g.keep hw e
  · intro a m
    refine set_other _ ?_
    rintro rfl
    have := ((g.mem _).mp m).1
    omega

theorem dupInts_ok {h : EMem} {n : Int} {s : Option (List Int)} {p : Ptr} {o : List Nat} (hl : LayInts h s p o)
    (hn : ∀ l, s = some l → (l.length : Int) = n) {h1 : EMem} (hw : WF h1) (ha : Agree h o h1) :
    ∃ r h2 o', dupInts p n h1 = some (r, h2) ∧ Grew [] h1 h2 o' ∧ LayInts h2 s r o' := by
  cases s with
  | none => obtain ⟨rfl, rfl⟩ := hl; exact ⟨none, h1, [], rfl, Grew.refl hw, rfl, rfl⟩
  | some s =>
    obtain ⟨q, rfl, hc, rfl⟩ := hl
    have e : n.toNat = s.length := by rw [← hn s rfl]; simp
    refine ⟨some h1.brk, _, _, ?_, Grew.new hw (.ints s), h1.brk, rfl, alloc_at _ _, rfl⟩
    simp only [dupInts]
    rw [run_bind, get_run (by rw [(ha q (by simp)).2, hc])]
    simp only [Option.bind_some, e, Nat.le_refl, if_true, List.take_length, run_bind, new_run, run_pure]

/-- The blocks of a record are distinct after it got new blocks. -/
theorem own_nodup {h h' : EMem} {q : Nat} {own own' on : List Nat} (hw : WF h) (hl : ∀ a ∈ own, h.cell a ≠ none) (hn : own.Nodup)
    (g : Grew [q] h h' on) (hp : own'.Perm (own ++ on)) : own'.Nodup := by
  refine hp.nodup_iff.mpr (List.nodup_append.mpr ⟨hn, g.nodup, ?_⟩)
  rintro a ha b hb rfl
  exact hl a ha (hw a ((g.mem a).mp hb).1)

end Libo.Props.EH

namespace Libo.Props
open Libo Libo.EHeap EH

/-- A new record is empty, and it is one new block. -/
theorem C103_alloc (h : EMem) (hw : WF h) : ∃ q h', recAlloc h = some (q, h') ∧ Grew [] h h' [q] ∧ LayRec h' {} q none [q] :=
  ⟨h.brk, _, rfl, Grew.new hw _, {}, [], [], [], [], [], [], [], alloc_at _ _, rfl, rfl, rfl, rfl, ⟨rfl, rfl⟩, ⟨rfl, rfl⟩, ⟨rfl, rfl⟩, ⟨rfl, rfl⟩,
    ⟨rfl, rfl⟩, ⟨rfl, rfl⟩, ⟨rfl, rfl⟩, rfl⟩

/-- Setting the name of a record without one: it has its own copy of the name in new blocks, and else is as before; so are all blocks but
the record. -/
theorem C103_name (h : EMem) (hw : WF h) (r : HRec) (q : Nat) (extra : Ptr) (own : List Nat) (hl : LayRec h r q extra own) (hn : own.Nodup)
    (hr : r.name = none) (s : Bytes) (p : Ptr) (os : List Nat) (hs : LayStr h (some s) p os) :
    ∃ h' own' on, recSetName (some q) p h = some ((), h') ∧ Grew [q] h h' on ∧ LayRec h' { r with name := some s } q extra own' ∧
      own'.Perm (own ++ on) ∧ own'.Nodup := by
  have live := layRec_live hl
  obtain ⟨c, o1, o2, o3, o4, o5, o6, o7, hc, e0, e1, e2, e3, l1, l2, l3, l4, l5, l6, l7, rfl⟩ := hl
  rw [hr] at l1; obtain ⟨_, rfl⟩ := l1
  obtain ⟨k, h1, on, d, g, lk⟩ := dupStr_ok hs hw (agree_self hw (layStr_live hs))
  obtain ⟨h2, e, g2, c2, old, nw⟩ := modRec_ok hw hc g fun r => { r with name := k }
  have fr : ∀ a ∈ o2 ++ (o3 ++ (o4 ++ (o5 ++ (o6 ++ o7)))), h2.cell a = h.cell a := by
    intro a m
    refine old a (live a (by simp at m ⊢; exact Or.inr m)) ?_
    rintro rfl
    exact (List.nodup_cons.mp hn).1 (by simpa using m)
  have hp : (q :: (on ++ (o2 ++ (o3 ++ (o4 ++ (o5 ++ (o6 ++ o7))))))).Perm ((q :: ([] ++ (o2 ++ (o3 ++ (o4 ++ (o5 ++ (o6 ++ o7))))))) ++ on) := by
    refine List.perm_iff_count.mpr fun a => ?_
    simp only [List.count_append, List.count_cons, List.count_nil]; omega
  refine ⟨h2, _, on, ?_, g2, ⟨_, on, o2, o3, o4, o5, o6, o7, c2, e0, e1, e2, e3, layStr_frame lk nw, layStr_frame l2 fun a m => fr a (by simp [m]),
    layNames_frame l3 fun a m => fr a (by simp [m]), layNames_frame l4 fun a m => fr a (by simp [m]), layInts_frame l5 fun a m => fr a (by simp [m]),
    layInts_frame l6 fun a m => fr a (by simp [m]), layStr_frame l7 fun a m => fr a (by simp [m]), rfl⟩, hp, own_nodup hw live hn g2 hp⟩
  obtain ⟨x, rfl, _, _⟩ := hs
  simp only [recSetName, run_bind, d, Option.bind_some, e]

/-- Likewise the signature. -/
theorem C103_signature (h : EMem) (hw : WF h) (r : HRec) (q : Nat) (extra : Ptr) (own : List Nat) (hl : LayRec h r q extra own) (hn : own.Nodup)
    (hr : r.sig = none) (s : Bytes) (p : Ptr) (os : List Nat) (hs : LayStr h (some s) p os) :
    ∃ h' own' on, recSetSignature (some q) p h = some ((), h') ∧ Grew [q] h h' on ∧ LayRec h' { r with sig := some s } q extra own' ∧
      own'.Perm (own ++ on) ∧ own'.Nodup := by
  have live := layRec_live hl
  obtain ⟨c, o1, o2, o3, o4, o5, o6, o7, hc, e0, e1, e2, e3, l1, l2, l3, l4, l5, l6, l7, rfl⟩ := hl
  rw [hr] at l2; obtain ⟨_, rfl⟩ := l2
  obtain ⟨k, h1, on, d, g, lk⟩ := dupStr_ok hs hw (agree_self hw (layStr_live hs))
  obtain ⟨h2, e, g2, c2, old, nw⟩ := modRec_ok hw hc g fun r => { r with sig := k }
  have fr : ∀ a ∈ o1 ++ (o3 ++ (o4 ++ (o5 ++ (o6 ++ o7)))), h2.cell a = h.cell a := by
    intro a m
    refine old a (live a (by simp at m ⊢; exact Or.inr m)) ?_
    rintro rfl
    exact (List.nodup_cons.mp hn).1 (by simpa using m)
  have hp : (q :: (o1 ++ (on ++ (o3 ++ (o4 ++ (o5 ++ (o6 ++ o7))))))).Perm ((q :: (o1 ++ ([] ++ (o3 ++ (o4 ++ (o5 ++ (o6 ++ o7))))))) ++ on) := by
    refine List.perm_iff_count.mpr fun a => ?_
    simp only [List.count_append, List.count_cons, List.count_nil]; omega
  refine ⟨h2, _, on, ?_, g2, ⟨_, o1, on, o3, o4, o5, o6, o7, c2, e0, e1, e2, e3, layStr_frame l1 fun a m => fr a (by simp [m]), layStr_frame lk nw,
    layNames_frame l3 fun a m => fr a (by simp [m]), layNames_frame l4 fun a m => fr a (by simp [m]), layInts_frame l5 fun a m => fr a (by simp [m]),
    layInts_frame l6 fun a m => fr a (by simp [m]), layStr_frame l7 fun a m => fr a (by simp [m]), rfl⟩, hp, own_nodup hw live hn g2 hp⟩
  obtain ⟨x, rfl, _, _⟩ := hs
  simp only [recSetSignature, run_bind, d, Option.bind_some, e]

/-- Required arguments: as many as there are names, each name and the types copied. -/
theorem C103_required (h : EMem) (hw : WF h) (r : HRec) (q : Nat) (extra : Ptr) (own : List Nat) (hl : LayRec h r q extra own) (hn : own.Nodup)
    (hr : r.req = none) (hrt : r.reqTypes = none) (ss : List (Option Bytes)) (p : Ptr) (os : List Nat)
    (hs : LayNames h ss.length (some ss) p os) (ts : Option (List Int)) (pt : Ptr) (ot : List Nat) (ht : LayInts h ts pt ot)
    (hlen : ∀ l, ts = some l → l.length = ss.length) :
    ∃ h' own' on, recSetRequired (some q) ss.length p pt h = some ((), h') ∧ Grew [q] h h' on ∧
      LayRec h' { r with nreq := ss.length, req := some ss, reqTypes := ts } q extra own' ∧ own'.Perm (own ++ on) ∧ own'.Nodup := by
  have live := layRec_live hl
  obtain ⟨c, o1, o2, o3, o4, o5, o6, o7, hc, e0, e1, e2, e3, l1, l2, l3, l4, l5, l6, l7, rfl⟩ := hl
  rw [hr] at l3; obtain ⟨_, rfl⟩ := l3
  rw [hrt] at l5; obtain ⟨c5, rfl⟩ := l5
  obtain ⟨k, h1, on, d, g, lk⟩ := dupNames_ok hs hw (agree_self hw (layNames_live hs))
  obtain ⟨k', h1', on', d', g', lk'⟩ := dupInts_ok (n := ss.length) ht (fun l hl => by rw [hlen l hl]) g.wf
    ((agree_self hw (layInts_live ht)).grew g (by simp))
  obtain ⟨h2, e, g2, c2, old, nw⟩ := modRec_ok hw hc (g.trans g' (by simp)) fun r =>
    { r with nreq := ss.length, req := k, reqTypes := if pt.isSome then k' else r.reqTypes }
  have fr : ∀ a ∈ o1 ++ (o2 ++ (o4 ++ (o6 ++ o7))), h2.cell a = h.cell a := by
    intro a m
    refine old a (live a (by simp at m ⊢; exact Or.inr m)) ?_
    rintro rfl
    exact (List.nodup_cons.mp hn).1 (by simpa using m)
  have hp : (q :: (o1 ++ (o2 ++ (on ++ (o4 ++ (on' ++ (o6 ++ o7))))))).Perm ((q :: (o1 ++ (o2 ++ ([] ++ (o4 ++ ([] ++ (o6 ++ o7))))))) ++ (on ++ on')) := by
    refine List.perm_iff_count.mpr fun a => ?_
    simp only [List.count_append, List.count_cons, List.count_nil]; omega
  have h5 : (if pt.isSome then k' else c.reqTypes) = k' := by
    cases ts with
    | none => obtain ⟨rfl, rfl⟩ := ht; obtain ⟨rfl, _⟩ := lk'; simpa using c5
    | some l => obtain ⟨x, rfl, _, _⟩ := ht; rfl
  refine ⟨h2, _, on ++ on', ?_, g2, ⟨_, o1, o2, on, o4, on', o6, o7, c2, e0, rfl, e2, e3, layStr_frame l1 fun a m => fr a (by simp [m]),
    layStr_frame l2 fun a m => fr a (by simp [m]), layNames_frame lk fun a m => ?_, layNames_frame l4 fun a m => fr a (by simp [m]), ?_,
    layInts_frame l6 fun a m => fr a (by simp [m]), layStr_frame l7 fun a m => fr a (by simp [m]), rfl⟩, hp, own_nodup hw live hn g2 hp⟩
  · obtain ⟨x, l, o, rfl, _⟩ := hs
    simp only [recSetRequired, run_bind, d, Option.bind_some, d', e]
  · rw [nw a (by simp [m])]
    exact g'.same a ((g.mem a).mp m).2 (by simp)
  · show LayInts h2 ts (if pt.isSome then k' else c.reqTypes) on'
    rw [h5]
    exact layInts_frame lk' fun a m => nw a (by simp [m])

/-- Likewise the optional arguments. -/
theorem C103_optional (h : EMem) (hw : WF h) (r : HRec) (q : Nat) (extra : Ptr) (own : List Nat) (hl : LayRec h r q extra own) (hn : own.Nodup)
    (hr : r.opt = none) (hrt : r.optTypes = none) (ss : List (Option Bytes)) (p : Ptr) (os : List Nat)
    (hs : LayNames h ss.length (some ss) p os) (ts : Option (List Int)) (pt : Ptr) (ot : List Nat) (ht : LayInts h ts pt ot)
    (hlen : ∀ l, ts = some l → l.length = ss.length) :
    ∃ h' own' on, recSetOptional (some q) ss.length p pt h = some ((), h') ∧ Grew [q] h h' on ∧
      LayRec h' { r with nopt := ss.length, opt := some ss, optTypes := ts } q extra own' ∧ own'.Perm (own ++ on) ∧ own'.Nodup := by
  have live := layRec_live hl
  obtain ⟨c, o1, o2, o3, o4, o5, o6, o7, hc, e0, e1, e2, e3, l1, l2, l3, l4, l5, l6, l7, rfl⟩ := hl
  rw [hr] at l4; obtain ⟨_, rfl⟩ := l4
  rw [hrt] at l6; obtain ⟨c6, rfl⟩ := l6
  obtain ⟨k, h1, on, d, g, lk⟩ := dupNames_ok hs hw (agree_self hw (layNames_live hs))
  obtain ⟨k', h1', on', d', g', lk'⟩ := dupInts_ok (n := ss.length) ht (fun l hl => by rw [hlen l hl]) g.wf
    ((agree_self hw (layInts_live ht)).grew g (by simp))
  obtain ⟨h2, e, g2, c2, old, nw⟩ := modRec_ok hw hc (g.trans g' (by simp)) fun r =>
    { r with nopt := ss.length, opt := k, optTypes := if pt.isSome then k' else r.optTypes }
  have fr : ∀ a ∈ o1 ++ (o2 ++ (o3 ++ (o5 ++ o7))), h2.cell a = h.cell a := by
    intro a m
    refine old a (live a (by simp at m ⊢; exact Or.inr m)) ?_
    rintro rfl
    exact (List.nodup_cons.mp hn).1 (by simpa using m)
  have hp : (q :: (o1 ++ (o2 ++ (o3 ++ (on ++ (o5 ++ (on' ++ o7))))))).Perm ((q :: (o1 ++ (o2 ++ (o3 ++ ([] ++ (o5 ++ ([] ++ o7))))))) ++ (on ++ on')) := by
    refine List.perm_iff_count.mpr fun a => ?_
    simp only [List.count_append, List.count_cons, List.count_nil]; omega
  have h6 : (if pt.isSome then k' else c.optTypes) = k' := by
    cases ts with
    | none => obtain ⟨rfl, rfl⟩ := ht; obtain ⟨rfl, _⟩ := lk'; simpa using c6
    | some l => obtain ⟨x, rfl, _, _⟩ := ht; rfl
  refine ⟨h2, _, on ++ on', ?_, g2, ⟨_, o1, o2, o3, on, o5, on', o7, c2, e0, e1, rfl, e3, layStr_frame l1 fun a m => fr a (by simp [m]),
    layStr_frame l2 fun a m => fr a (by simp [m]), layNames_frame l3 fun a m => fr a (by simp [m]), layNames_frame lk fun a m => ?_,
    layInts_frame l5 fun a m => fr a (by simp [m]), ?_, layStr_frame l7 fun a m => fr a (by simp [m]), rfl⟩, hp, own_nodup hw live hn g2 hp⟩
  · obtain ⟨x, l, o, rfl, _⟩ := hs
    simp only [recSetOptional, run_bind, d, Option.bind_some, d', e]
  · rw [nw a (by simp [m])]
    exact g'.same a ((g.mem a).mp m).2 (by simp)
  · show LayInts h2 ts (if pt.isSome then k' else c.optTypes) on'
    rw [h6]
    exact layInts_frame lk' fun a m => nw a (by simp [m])

/-- The C function and the body: the record says so and nothing else changes; no block is made. -/
theorem C103_function_extra (h : EMem) (hw : WF h) (r : HRec) (q : Nat) (extra : Ptr) (own : List Nat) (hl : LayRec h r q extra own)
    (hn : own.Nodup) (f : Nat) (x : Ptr) :
    (∃ h', recSetFunction (some q) f h = some ((), h') ∧ Grew [q] h h' [] ∧ LayRec h' { r with func := f } q extra own) ∧
      (∃ h', recSetExtra (some q) x h = some ((), h') ∧ Grew [q] h h' [] ∧ LayRec h' r q x own) := by
  have live := layRec_live hl
  obtain ⟨c, o1, o2, o3, o4, o5, o6, o7, hc, e0, e1, e2, e3, l1, l2, l3, l4, l5, l6, l7, rfl⟩ := hl
  have fr : ∀ h2 : EMem, (∀ a, h.cell a ≠ none → a ≠ q → h2.cell a = h.cell a) → ∀ a ∈ o1 ++ (o2 ++ (o3 ++ (o4 ++ (o5 ++ (o6 ++ o7))))),
      h2.cell a = h.cell a := by
    intro h2 old a m
    refine old a (live a (by simp at m ⊢; exact Or.inr m)) ?_
    rintro rfl
    exact (List.nodup_cons.mp hn).1 m
  constructor
  · obtain ⟨h2, e, g2, c2, old, _⟩ := modRec_ok hw hc (Grew.refl hw) fun r => { r with func := f }
    have fr := fr h2 old
    exact ⟨h2, e, g2, _, o1, o2, o3, o4, o5, o6, o7, c2, e0, e1, e2, rfl, layStr_frame l1 fun a m => fr a (by simp [m]),
      layStr_frame l2 fun a m => fr a (by simp [m]), layNames_frame l3 fun a m => fr a (by simp [m]), layNames_frame l4 fun a m => fr a (by simp [m]),
      layInts_frame l5 fun a m => fr a (by simp [m]), layInts_frame l6 fun a m => fr a (by simp [m]), layStr_frame l7 fun a m => fr a (by simp [m]), rfl⟩
  · obtain ⟨h2, e, g2, c2, old, _⟩ := modRec_ok hw hc (Grew.refl hw) fun r => { r with extra := x }
    have fr := fr h2 old
    exact ⟨h2, e, g2, _, o1, o2, o3, o4, o5, o6, o7, c2, rfl, e1, e2, e3, layStr_frame l1 fun a m => fr a (by simp [m]),
      layStr_frame l2 fun a m => fr a (by simp [m]), layNames_frame l3 fun a m => fr a (by simp [m]), layNames_frame l4 fun a m => fr a (by simp [m]),
      layInts_frame l5 fun a m => fr a (by simp [m]), layInts_frame l6 fun a m => fr a (by simp [m]), layStr_frame l7 fun a m => fr a (by simp [m]), rfl⟩

/-- What the parser does for a `lambda` (`osc_expr_parser.y` lines 804-819 and 873): a record with the name, the parameters and the C function. -/
def makeLambda (name : Ptr) (n : Int) (params : Ptr) (f : Nat) (body : Ptr) : E Nat := do
  let q ← recAlloc
  recSetName (some q) name
  recSetRequired (some q) n params none
  recSetFunction (some q) f
  recSetExtra (some q) body
  return q

/-- The record of a `lambda` in new blocks only, so that the caller may free its names; freeing the record gives back the body, and the
memory is as before. -/
theorem C103_lambda (h : EMem) (hw : WF h) (name : Bytes) (pn : Ptr) (on : List Nat) (hname : LayStr h (some name) pn on)
    (params : List (Option Bytes)) (pp : Ptr) (op : List Nat) (hparams : LayNames h params.length (some params) pp op) (f : Nat) (body : Ptr) :
    ∃ q h' own, makeLambda pn params.length pp f body h = some (q, h') ∧ Grew [] h h' own ∧
      LayRec h' { name := some name, nreq := params.length, req := some params, func := f } q body own ∧
      ∃ h'', freeRec (some q) h' = some (body, h'') ∧ ∀ a, h''.cell a = h.cell a := by
  obtain ⟨q, h1, r1, g1, k1⟩ := C103_alloc h hw
  have hq : h.brk ≤ q := ((g1.mem q).mp (by simp)).1
  have ag : ∀ {o : List Nat} {h2 : EMem} {o' : List Nat}, (∀ a ∈ o, h.cell a ≠ none) → Grew [] h h2 o' → ∀ a ∈ o, h2.cell a = h.cell a := by
    intro o h2 o' hlive g a m
    cases e : h.cell a with
    | none => exact absurd e (hlive a m)
    | some c => exact g.keep hw e
  have hY : ∀ a ∈ [q], a ∈ ([] : List Nat) ∨ h.brk ≤ a := by simp [hq]
  obtain ⟨h2, w2, n2, r2, g2, k2, p2, d2⟩ := C103_name h1 g1.wf {} q none [q] k1 (by simp) rfl name pn on
    (layStr_frame hname (ag (layStr_live hname) g1))
  have G2 := g1.trans g2 hY
  obtain ⟨h3, w3, n3, r3, g3, k3, p3, d3⟩ := C103_required h2 g2.wf _ q none w2 k2 d2 rfl rfl params pp op
    (layNames_frame hparams (ag (layNames_live hparams) G2)) none none [] ⟨rfl, rfl⟩ (by simp)
  have G3 := G2.trans g3 hY
  obtain ⟨h4, r4, g4, k4⟩ := (C103_function_extra h3 g3.wf _ q none w3 k3 d3 f none).1
  have G4 := G3.trans g4 hY
  obtain ⟨h5, r5, g5, k5⟩ := (C103_function_extra h4 g4.wf _ q none w3 k4 d3 0 body).2
  have G5 := G4.trans g5 hY
  have G6 : Grew [] h h5 w3 := G5.perm (by simpa using ((p3.trans (p2.append_right n3))).symm)
  refine ⟨q, h5, w3, ?_, G6, k5, without h5 w3, freeRec_ok k5 d3 h5 fun _ _ => rfl, ?_⟩
  · simp only [makeLambda, run_bind, r1, Option.bind_some, r2, r3, r4, r5, run_pure]
  · intro a
    simp only [without]
    split
    · next m => exact (hw a ((G6.mem a).mp m).1).symm
    · next m =>
      rcases Nat.lt_or_ge a h.brk with h1 | h1
      · exact G6.same a h1 (by simp)
      · rw [hw a h1]
        refine G6.wf a ?_
        rcases Nat.lt_or_ge a h5.brk with h2 | h2
        · exact absurd ((G6.mem a).mpr ⟨h1, h2⟩) m
        · exact h2

/-- Without names of arguments, as for a `lambda` without parameters, and without a record nothing happens. -/
theorem C103_nothing (h : EMem) (p x t : Ptr) (n : Int) (f : Nat) :
    recSetRequired p n none t h = some ((), h) ∧ recSetOptional p n none t h = some ((), h) ∧ recSetName none x h = some ((), h) ∧
      recSetSignature none x h = some ((), h) ∧ recSetFunction none f h = some ((), h) ∧ recSetExtra none x h = some ((), h) :=
  ⟨by cases p <;> rfl, by cases p <;> rfl, rfl, rfl, rfl, rfl⟩

/-- A name that is set again: the block of the old one stays allocated for good, as nothing points to it. -/
theorem C103_name_twice_fails (h : EMem) (hw : WF h) (r : HRec) (q : Nat) (extra : Ptr) (own : List Nat) (hl : LayRec h r q extra own)
    (hn : own.Nodup) (old : Bytes) (hr : r.name = some old) (s : Bytes) (p : Ptr) (os : List Nat) (hs : LayStr h (some s) p os) :
    ∃ h' h'' lost, recSetName (some q) p h = some ((), h') ∧ freeRec (some q) h' = some (extra, h'') ∧ lost ∈ own ∧
      h''.cell lost = some (.str old) := by
  have live := layRec_live hl
  obtain ⟨c, o1, o2, o3, o4, o5, o6, o7, hc, e0, e1, e2, e3, l1, l2, l3, l4, l5, l6, l7, rfl⟩ := hl
  rw [hr] at l1; obtain ⟨b, hb, hcb, rfl⟩ := l1
  obtain ⟨k, h1, on, d, g, lk⟩ := dupStr_ok hs hw (agree_self hw (layStr_live hs))
  obtain ⟨h2, e, g2, c2, old', nw⟩ := modRec_ok hw hc g fun r => { r with name := k }
  have hn' := hn
  have fr : ∀ a ∈ [b] ++ (o2 ++ (o3 ++ (o4 ++ (o5 ++ (o6 ++ o7))))), h2.cell a = h.cell a := by
    intro a m
    refine old' a (live a (List.mem_cons_of_mem _ m)) ?_
    rintro rfl
    exact (List.nodup_cons.mp hn).1 m
  have hk : LayRec h2 { r with name := some s } q extra (q :: (on ++ (o2 ++ (o3 ++ (o4 ++ (o5 ++ (o6 ++ o7))))))) :=
    ⟨_, on, o2, o3, o4, o5, o6, o7, c2, e0, e1, e2, e3, layStr_frame lk nw, layStr_frame l2 fun a m => fr a (by simp [m]),
    layNames_frame l3 fun a m => fr a (by simp [m]), layNames_frame l4 fun a m => fr a (by simp [m]), layInts_frame l5 fun a m => fr a (by simp [m]),
    layInts_frame l6 fun a m => fr a (by simp [m]), layStr_frame l7 fun a m => fr a (by simp [m]), rfl⟩
  have hfull : ((q :: ([b] ++ (o2 ++ (o3 ++ (o4 ++ (o5 ++ (o6 ++ o7))))))) ++ on).Nodup := by
    refine List.nodup_append.mpr ⟨hn, g2.nodup, ?_⟩
    rintro a ha x hx rfl
    exact live a ha (hw a ((g2.mem a).mp hx).1)
  have hperm : ((q :: ([b] ++ (o2 ++ (o3 ++ (o4 ++ (o5 ++ (o6 ++ o7))))))) ++ on).Perm
      (b :: (q :: (on ++ (o2 ++ (o3 ++ (o4 ++ (o5 ++ (o6 ++ o7)))))))) := by
    refine List.perm_iff_count.mpr fun a => ?_
    simp only [List.count_append, List.count_cons, List.count_nil]; omega
  obtain ⟨hnb, hnd⟩ := List.nodup_cons.mp (hperm.nodup_iff.mp hfull)
  refine ⟨h2, _, b, ?_, freeRec_ok hk hnd h2 fun _ _ => rfl, by simp, ?_⟩
  · obtain ⟨x, rfl, _, _⟩ := hs
    simp only [recSetName, run_bind, d, Option.bind_some, e]
  · simp only [without, hnb, if_false]
    rw [fr b (by simp), hcb]

/-- A name and two parameters: the hypotheses of `C103_lambda`. -/
example : ∃ h on op, WF h ∧ LayStr h (some (n! "lambda")) (some 0) on ∧ LayNames h 2 (some [some (n! "x"), some (n! "y")]) (some 1) op :=
  ⟨⟨fun a => [ECell.str (n! "lambda"), .names [some 2, some 3], .str (n! "x"), .str (n! "y")][a]?, 4⟩, [0], [1, 2, 3],
    fun a ha => List.getElem?_eq_none (by simpa using ha), ⟨0, rfl, rfl, rfl⟩,
    ⟨1, _, [2, 3], rfl, rfl, rfl, ⟨some 2, [some 3], [2], [3], rfl, ⟨2, rfl, rfl, rfl⟩, ⟨some 3, [], [3], [], rfl, ⟨3, rfl, rfl, rfl⟩, ⟨rfl, rfl⟩, rfl⟩, rfl⟩, rfl⟩⟩

/-- A record with a name, and a string: the hypotheses of `C103_name_twice_fails`. -/
example : ∃ h own os, WF h ∧ LayRec h { name := some (n! "f") } 0 none own ∧ own.Nodup ∧ LayStr h (some (n! "g")) (some 2) os :=
  ⟨⟨fun a => [ECell.rcd { name := some 1 }, .str (n! "f"), .str (n! "g")][a]?, 3⟩, [0, 1], [2],
    fun a ha => List.getElem?_eq_none (by simpa using ha),
    ⟨_, [1], [], [], [], [], [], [], rfl, rfl, rfl, rfl, rfl, ⟨1, rfl, rfl, rfl⟩, ⟨rfl, rfl⟩, ⟨rfl, rfl⟩, ⟨rfl, rfl⟩, ⟨rfl, rfl⟩, ⟨rfl, rfl⟩, ⟨rfl, rfl⟩, rfl⟩,
    by decide, ⟨2, rfl, rfl, rfl⟩⟩

/-- An empty record, names and types: the hypotheses of `C103_required` and `C103_optional`. -/
example : ∃ h own os ot, WF h ∧ LayRec h {} 0 none own ∧ own.Nodup ∧ LayNames h 1 (some [some (n! "x")]) (some 1) os ∧
    LayInts h (some [7]) (some 3) ot :=
  ⟨⟨fun a => [ECell.rcd {}, .names [some 2], .str (n! "x"), .ints [7]][a]?, 4⟩, [0], [1, 2], [3],
    fun a ha => List.getElem?_eq_none (by simpa using ha),
    ⟨_, [], [], [], [], [], [], [], rfl, rfl, rfl, rfl, rfl, ⟨rfl, rfl⟩, ⟨rfl, rfl⟩, ⟨rfl, rfl⟩, ⟨rfl, rfl⟩, ⟨rfl, rfl⟩, ⟨rfl, rfl⟩, ⟨rfl, rfl⟩, rfl⟩,
    by decide, ⟨1, _, [2], rfl, rfl, rfl, ⟨some 2, [], [2], [], rfl, ⟨2, rfl, rfl, rfl⟩, ⟨rfl, rfl⟩, rfl⟩, rfl⟩, ⟨3, rfl, rfl, rfl⟩⟩

end Libo.Props
