import Verif.LinkedList
/-! # Invariant of the linked list -/

namespace Libo.LL
open Libo Libo.Heap

variable {α : Type}

/-- The cells `l` are what the list holds, with all links right. -/
structure Inv (s : LL α) (l : List (Nat × α)) : Prop where
  seg : Seg s.heap none l none
  nd : (addrs l).Nodup
  head : s.head = fst? l none
  tail : s.tail = lst? none l
  count : s.count = l.length
  lt : ∀ a ∈ addrs l, a < s.fresh
  /-- nothing else is allocated: no element is leaked -/
  free : ∀ a, a ∉ addrs l → s.heap a = none

theorem Inv.fuel {s : LL α} {l} (i : Inv s l) : l.length ≤ s.fresh := by
  have := length_le_of_nodup_lt i.nd i.lt
  simpa using this

theorem inv_new : Inv (new : LL α) [] := ⟨trivial, by simp, rfl, rfl, rfl, by simp, fun _ _ => rfl⟩

theorem bnd {β γ : Type} (a : β) (f : β → Option γ) : (some a >>= f) = f a := rfl

theorem prepend_inv {s : LL α} {l} (i : Inv s l) (x : α) :
    ∃ s', prepend s (some x) = some s' ∧ Inv s' ((s.fresh, x) :: l) := by
  have hfr : s.fresh ∉ addrs l := fun h => by have := i.lt _ h; omega
  have hseg0 : Seg (upd s.heap s.fresh (some ⟨x, none, none⟩)) none l none :=
    seg_frame (fun a ha => upd_ne _ _ (by rintro rfl; exact hfr ha)) i.seg
  cases l with
  | nil =>
    simp only [prepend, i.head, fst?_nil]
    refine ⟨_, rfl, ⟨⟨?_, trivial⟩, by simp, rfl, rfl, by simp [i.count], by simp, ?_⟩⟩
    · simp [upd_same]
    · intro a ha
      simp at ha
      show upd _ _ _ a = none
      rw [upd_ne _ _ ha, i.free a (by simp)]
  | cons c l =>
    obtain ⟨h1, e1, s1, f1⟩ := setPrevIf_seg hseg0 i.nd (by simp) (some s.fresh)
    simp only [fst?_cons, setPrevIf] at e1
    simp only [prepend, i.head, fst?_cons, e1, bnd]
    have e2 : h1 s.fresh = some ⟨x, none, none⟩ := by rw [f1.same _ hfr, upd_same]
    rw [setNext_some e2, bnd, setPrev_some (upd_same _ _ _), bnd]
    refine ⟨_, rfl, ⟨⟨by simp [upd_same], ?_⟩, ?_, rfl, ?_, by simp [i.count], ?_, ?_⟩⟩
    · refine seg_frame ?_ s1
      intro a ha
      have : a ≠ s.fresh := by rintro rfl; exact hfr ha
      show upd _ _ _ a = _
      rw [upd_ne _ _ this, upd_ne _ _ this]
    · rw [addrs_cons, List.nodup_cons]; exact ⟨hfr, i.nd⟩
    · simp [i.tail]
    · intro a ha
      show a < s.fresh + 1
      rw [addrs_cons, List.mem_cons] at ha
      rcases ha with ha | ha
      · simp at ha; omega
      · have := i.lt a ha; omega
    · intro a ha
      rw [addrs_cons, List.mem_cons] at ha
      have : a ≠ s.fresh := fun e => ha (Or.inl e)
      show upd _ _ _ a = none
      rw [upd_ne _ _ this, upd_ne _ _ this]
      refine f1.none ?_
      rw [upd_ne _ _ this, i.free a (fun h => ha (Or.inr h))]

theorem append_inv {s : LL α} {l} (i : Inv s l) (x : α) :
    ∃ s', append s (some x) = some s' ∧ Inv s' (l ++ [(s.fresh, x)]) := by
  have hfr : s.fresh ∉ addrs l := fun h => by have := i.lt _ h; omega
  have hseg0 : Seg (upd s.heap s.fresh (some ⟨x, none, none⟩)) none l none :=
    seg_frame (fun a ha => upd_ne _ _ (by rintro rfl; exact hfr ha)) i.seg
  cases hl : lst? none l with
  | none =>
    have : l = [] := by
      rcases List.eq_nil_or_concat l with rfl | ⟨l', c, rfl⟩
      · rfl
      · simp [lst?_snoc] at hl
    subst this
    simp only [append, i.tail, hl]
    refine ⟨_, rfl, ⟨⟨?_, trivial⟩, by simp, rfl, rfl, by simp [i.count], by simp, ?_⟩⟩
    · simp [upd_same]
    · intro a ha
      simp at ha
      show upd _ _ _ a = none
      rw [upd_ne _ _ ha, i.free a (by simp)]
  | some tl =>
    obtain ⟨h1, e1, s1, f1⟩ := setNextIf_seg hseg0 i.nd (fun _ => rfl) (some s.fresh)
    simp only [hl, setNextIf] at e1
    simp only [append, i.tail, hl, e1, bnd]
    have e2 : h1 s.fresh = some ⟨x, none, none⟩ := by rw [f1.same _ hfr, upd_same]
    rw [setNext_some e2, bnd, setPrev_some (upd_same _ _ _), bnd]
    have hne : l ≠ [] := by rintro rfl; simp at hl
    refine ⟨_, rfl, ⟨?_, ?_, ?_, ?_, by simp [i.count], ?_, ?_⟩⟩
    · rw [seg_append]
      refine ⟨?_, ?_, trivial⟩
      · refine seg_frame ?_ s1
        intro a ha
        have : a ≠ s.fresh := by rintro rfl; exact hfr ha
        show upd _ _ _ a = _
        rw [upd_ne _ _ this, upd_ne _ _ this]
      · simp [upd_same, hl]
    · rw [addrs_append, List.nodup_append]
      refine ⟨i.nd, by simp, ?_⟩
      intro a ha b hb
      simp at hb
      rintro rfl
      exact hfr (hb ▸ ha)
    · rw [i.head]
      cases l with
      | nil => exact absurd rfl hne
      | cons c l => rfl
    · simp [lst?_snoc]
    · intro a ha
      show a < s.fresh + 1
      rw [addrs_append, List.mem_append] at ha
      rcases ha with ha | ha
      · have := i.lt a ha; omega
      · simp at ha; omega
    · intro a ha
      rw [addrs_append, List.mem_append] at ha
      have : a ≠ s.fresh := fun e => ha (Or.inr (by simp [e]))
      show upd _ _ _ a = none
      rw [upd_ne _ _ this, upd_ne _ _ this]
      refine f1.none ?_
      rw [upd_ne _ _ this, i.free a (fun h => ha (Or.inl h))]

theorem take_inv {s : LL α} {l1 l2 : List (Nat × α)} {a : Nat} {x : α} (i : Inv s (l1 ++ (a, x) :: l2)) :
    ∃ s', take s a = some (s', x) ∧ Inv s' (l1 ++ l2) := by
  have hseg := i.seg
  rw [seg_append] at hseg
  obtain ⟨g1, g2, g3⟩ := hseg
  simp only [fst?_cons] at g1
  have nd := i.nd
  simp only [addrs_append, addrs_cons, List.nodup_append, List.nodup_cons, List.mem_cons] at nd
  obtain ⟨n1, ⟨n2, n3⟩, n4⟩ := nd
  have ha1 : a ∉ addrs l1 := fun h => n4 a h a (Or.inl rfl) rfl
  have d12 : ∀ b ∈ addrs l1, b ∉ addrs l2 := fun b h h' => n4 b h b (Or.inr h') rfl
  obtain ⟨h1, e1, s1, f1⟩ := setPrevIf_seg g3 n3 (fun _ => rfl) (lst? none l1)
  have e2 : h1 a = some ⟨x, fst? l2 none, lst? none l1⟩ := by rw [f1.same _ n2, g2]
  have g1' : Seg h1 none l1 (some a) := seg_frame (fun b hb => f1.same _ (d12 b hb)) g1
  obtain ⟨h2, e3, s2, f2⟩ := setNextIf_seg g1' n1 (fun _ => rfl) (fst? l2 none)
  have e4 : h2 a = some ⟨x, fst? l2 none, lst? none l1⟩ := by rw [f2.same _ ha1, e2]
  simp only [take, unlink, g2, bnd, e1, e2, e3]
  rw [setPrev_some e4, bnd, setNext_some (upd_same _ _ _), bnd, bnd]
  simp only [upd_same, bnd, Heap.free]
  refine ⟨_, rfl, ⟨?_, ?_, ?_, ?_, ?_, ?_, ?_⟩⟩
  · rw [seg_append]
    constructor
    · refine seg_frame ?_ s2
      intro b hb
      have : b ≠ a := by rintro rfl; exact ha1 hb
      show upd _ _ _ b = _
      rw [upd_ne _ _ this, upd_ne _ _ this, upd_ne _ _ this]
    · refine seg_frame ?_ s1
      intro b hb
      have : b ≠ a := by rintro rfl; exact n2 hb
      show upd _ _ _ b = _
      rw [upd_ne _ _ this, upd_ne _ _ this, upd_ne _ _ this]
      exact f2.same _ (fun h => d12 b h hb)
  · rw [addrs_append, List.nodup_append]
    exact ⟨n1, n3, fun b hb c hc => n4 b hb c (Or.inr hc)⟩
  · show (if s.head = some a then _ else s.head) = _
    rw [i.head, fst?_append, fst?_append]
    cases l1 with
    | nil => simp
    | cons c l1 =>
      have hn : ¬ some c.1 = some a := by
        intro h
        simp at h ha1
        exact ha1.1 h.symm
      exact if_neg hn
  · show (if s.tail = some a then _ else s.tail) = _
    rw [i.tail, lst?_append, lst?_append]
    rcases List.eq_nil_or_concat l2 with rfl | ⟨l2', c, rfl⟩
    · simp
    · rw [List.concat_eq_append] at *
      have : ∀ p : Option Nat, lst? p (l2' ++ [c]) = some c.1 := fun p => lst?_snoc _ _ _
      simp only [lst?_cons, this]
      rw [if_neg]
      intro h
      simp at h n2
      exact n2.2 h.symm
  · show s.count - 1 = _
    rw [i.count]; simp
  · intro b hb
    refine i.lt b ?_
    simp only [addrs_append, addrs_cons, List.mem_append, List.mem_cons] at hb ⊢
    rcases hb with h | h
    · exact Or.inl h
    · exact Or.inr (Or.inr h)
  · intro b hb
    show upd _ _ _ b = none
    by_cases hba : b = a
    · subst hba; rw [upd_same]
    · rw [upd_ne _ _ hba, upd_ne _ _ hba, upd_ne _ _ hba]
      refine f2.none (f1.none (i.free b ?_))
      simp only [addrs_append, addrs_cons, List.mem_append, List.mem_cons] at hb ⊢
      rintro (h | h | h)
      · exact hb (Or.inl h)
      · exact hba h
      · exact hb (Or.inr h)

/-! ## Selecting by index -/

theorem findFwd_seg {h : Heap α} {l : List (Nat × α)} {p : Option Nat} (s : Seg h p l none) {fuel : Nat}
    (hf : l.length ≤ fuel) (n i : Int) (hi : i ≤ n) :
    findFwd h n fuel (fst? l none) i = some ((l[(n - i).toNat]?).map Prod.fst) := by
  induction l generalizing p fuel i with
  | nil => cases fuel <;> simp [findFwd]
  | cons c l ih =>
    cases fuel with
    | zero => simp at hf
    | succ f =>
      simp only [fst?_cons, findFwd, s.1]
      by_cases e : i = n
      · simp [e]
      · rw [if_neg e, ih s.2 (by simpa using hf) (i + 1) (by omega)]
        have : (n - i).toNat = (n - (i + 1)).toNat + 1 := by omega
        rw [this]; simp

theorem findBwd_seg {h : Heap α} {l : List (Nat × α)} {q : Option Nat} (s : Seg h none l q) {fuel : Nat}
    (hf : l.length ≤ fuel) (n : Int) :
    findBwd h n fuel (lst? none l) ((l.length : Int) - 1) =
      some (if 0 ≤ n then (l[n.toNat]?).map Prod.fst else none) ∨ (l.length : Int) ≤ n ∧
    findBwd h n fuel (lst? none l) ((l.length : Int) - 1) = some none := by
  induction hn : l.length generalizing l q fuel with
  | zero =>
    cases l with
    | nil => left; cases fuel <;> simp [findBwd]
    | cons c l => simp at hn
  | succ k ih =>
    rcases List.eq_nil_or_concat l with rfl | ⟨l, c, rfl⟩
    · simp at hn
    · rw [List.concat_eq_append] at *
      rw [lst?_snoc]
      rw [seg_append] at s
      have e := s.2.1
      have hk : l.length = k := by simpa using hn
      cases fuel with
      | zero => simp at hf
      | succ f =>
        simp only [findBwd, e]
        by_cases hi : ((k + 1 : Nat) : Int) - 1 = n
        · left
          rw [if_pos hi, if_pos (by omega)]
          have : n.toNat = l.length := by omega
          rw [this]; simp
        · rw [if_neg hi]
          have := ih s.1 (fuel := f) (by simp at hf; omega) hk
          have e3 : ((k + 1 : Nat) : Int) - 1 - 1 = (k : Int) - 1 := by omega
          rw [e3]
          by_cases hlt : 0 ≤ n ∧ n < k
          · left
            rcases this with t | t
            · rw [t, if_pos hlt.1, if_pos hlt.1, List.getElem?_append_left (by omega)]
            · omega
          · by_cases h0 : 0 ≤ n
            · right
              refine ⟨by omega, ?_⟩
              rcases this with t | t
              · rw [t, if_pos h0, List.getElem?_eq_none (by omega)]; rfl
              · exact t.2
            · left
              rw [if_neg h0]
              rcases this with t | t
              · rw [t, if_neg h0]
              · omega

/-- Which position an index argument of `peekNth`/`popNth` denotes in a sequence of `len` elements: `-1` the last one, any
other index outside the sequence none. -/
def pos (len : Nat) (n : Int) : Option Nat :=
  if n = -1 then (if len = 0 then none else some (len - 1))
  else if 0 ≤ n ∧ n < len then some n.toNat
  else none

theorem pos_lt {len : Nat} {n : Int} {k : Nat} (h : pos len n = some k) : k < len := by
  unfold pos at h
  split at h
  · split at h <;> simp at h <;> omega
  · split at h <;> simp at h <;> omega

theorem lst?_none_getElem (l : List (Nat × α)) : lst? none l = (l[l.length - 1]?).map Prod.fst := by
  rcases List.eq_nil_or_concat l with rfl | ⟨l, c, rfl⟩
  · rfl
  · rw [List.concat_eq_append, lst?_snoc]; simp

theorem select_inv {s : LL α} {l} (i : Inv s l) (n : Int) :
    select s n = some ((pos l.length n).bind fun k => (l[k]?).map Prod.fst) := by
  unfold select pos
  rw [i.head, i.tail, i.count]
  by_cases h0 : n = 0
  · subst h0
    rw [if_pos rfl, if_neg (by omega)]
    cases l with
    | nil => simp
    | cons c l =>
      rw [if_pos (by simp)]
      simp
  · rw [if_neg h0]
    by_cases h1 : n = (l.length : Int) - 1 ∨ n = -1
    · rw [if_pos h1, lst?_none_getElem]
      by_cases hm : n = -1
      · rw [if_pos hm]
        cases l with
        | nil => simp
        | cons c l => simp
      · rw [if_neg hm, if_pos (by omega)]
        have : n.toNat = l.length - 1 := by omega
        rw [this]; simp
    · rw [if_neg h1, if_neg (show n ≠ -1 by omega)]
      by_cases h2 : 0 ≤ n ∧ n < (l.length / 2 : Nat)
      · rw [if_pos h2, findFwd_seg i.seg i.fuel n 0 h2.1, if_pos (by omega)]
        simp
      · rw [if_neg h2]
        rcases findBwd_seg i.seg i.fuel n with t | ⟨t, t'⟩
        · rw [t]
          by_cases h3 : 0 ≤ n
          · rw [if_pos h3]
            by_cases h4 : n < l.length
            · rw [if_pos ⟨h3, h4⟩]; simp
            · rw [if_neg (by omega), List.getElem?_eq_none (by omega)]; rfl
          · rw [if_neg h3, if_neg (by omega)]; rfl
        · rw [t', if_neg (by omega)]; rfl

theorem split_at {l : List (Nat × α)} {k : Nat} (h : k < l.length) :
    l = l.take k ++ (l[k].1, l[k].2) :: l.drop (k + 1) := by
  conv => lhs; rw [← List.take_append_drop k l, List.drop_eq_getElem_cons h]

theorem take_at {s : LL α} {l} (i : Inv s l) {k : Nat} (h : k < l.length) :
    ∃ s', take s l[k].1 = some (s', l[k].2) ∧ Inv s' (l.eraseIdx k) := by
  have i' := i
  rw [split_at h] at i'
  obtain ⟨s', e, j⟩ := take_inv i'
  exact ⟨s', e, by rw [List.eraseIdx_eq_take_drop_succ]; exact j⟩

theorem popNth_inv {s : LL α} {l} (i : Inv s l) (n : Int) :
    ∃ s' l', popNth s n = some (s', (pos l.length n).bind fun k => (vals l)[k]?) ∧ Inv s' l' ∧
      vals l' = (match pos l.length n with | some k => (vals l).eraseIdx k | none => vals l) := by
  unfold popNth
  rw [select_inv i]
  cases hp : pos l.length n with
  | none => exact ⟨s, l, by simp, i, rfl⟩
  | some k =>
    have hk := pos_lt hp
    obtain ⟨s', e, j⟩ := take_at i hk
    refine ⟨s', _, ?_, j, ?_⟩
    · simp [hk, e, vals]
    · simp only [vals, List.eraseIdx_eq_take_drop_succ, List.map_append, List.map_take, List.map_drop]

theorem popHead_eq (s : LL α) : popHead s = popNth s 0 := by
  unfold popHead popNth select
  simp only [if_pos]
  cases s.head <;> rfl

theorem popTail_eq (s : LL α) : popTail s = popNth s (-1) := by
  unfold popTail popNth select
  simp only [Int.reduceNeg, reduceCtorEq, or_true, if_true, if_neg]
  cases s.tail <;> rfl

theorem peekNth_inv {s : LL α} {l} (i : Inv s l) (n : Int) :
    peekNth s n = some ((pos l.length n).bind fun k => (vals l)[k]?) := by
  unfold peekNth
  rw [select_inv i]
  cases hp : pos l.length n with
  | none => rfl
  | some k =>
    have hk := pos_lt hp
    have i' := i.seg
    rw [split_at hk, seg_append] at i'
    have e := i'.2.1
    simp [hk, e, vals]

theorem clearLoop_seg {h : Heap α} {l : List (Nat × α)} {p : Option Nat} (s : Seg h p l none) (nd : (addrs l).Nodup)
    {fuel : Nat} (hf : l.length ≤ fuel) :
    ∃ h', clearLoop fuel h (fst? l none) = some (h', vals l) ∧ (∀ a ∈ addrs l, h' a = none) ∧
      (∀ a, a ∉ addrs l → h' a = h a) := by
  induction l generalizing p fuel h with
  | nil => exact ⟨h, by cases fuel <;> rfl, by simp, fun _ _ => rfl⟩
  | cons c l ih =>
    cases fuel with
    | zero => simp at hf
    | succ f =>
      simp at nd
      have s2 : Seg (upd h c.1 none) (some c.1) l none :=
        seg_frame (fun a ha => upd_ne _ _ (by rintro rfl; exact nd.1 ha)) s.2
      obtain ⟨h', e, k1, k2⟩ := ih s2 nd.2 (by simpa using hf)
      refine ⟨h', ?_, ?_, ?_⟩
      · simp only [fst?_cons, clearLoop, s.1, Heap.free, bnd, e, vals_cons]
      · intro a ha
        simp at ha
        rcases ha with rfl | ha
        · rw [k2 _ nd.1, upd_same]
        · exact k1 a ha
      · intro a ha
        simp at ha
        rw [k2 _ ha.2, upd_ne _ _ ha.1]

theorem clear_inv {s : LL α} {l} (i : Inv s l) :
    ∃ s', clear s = some (s', vals l) ∧ Inv s' [] := by
  obtain ⟨h', e, k1, k2⟩ := clearLoop_seg i.seg i.nd i.fuel
  unfold clear
  rw [i.head, e, bnd]
  refine ⟨_, rfl, ⟨trivial, by simp, rfl, rfl, rfl, by simp, ?_⟩⟩
  intro a _
  show h' a = none
  by_cases ha : a ∈ addrs l
  · exact k1 a ha
  · rw [k2 a ha, i.free a ha]

theorem iterate_inv {s : LL α} {l} (i : Inv s l) :
    iterate s = some (((vals l).zipIdx.map fun p => ((p.2 : Int), some p.1)) ++ [(-1, none)]) := by
  unfold iterate
  rw [i.head, walkNext_seg i.seg i.fuel]
  rfl

theorem cloneLoop_inv (copy : α → α) (xs : List α) (k : Nat) {c : LL α} {l} (i : Inv c l) :
    ∃ c' l', cloneLoop copy c (((xs.zipIdx k).map fun p => ((p.2 : Int), some p.1)) ++ [(-1, none)]) = some c' ∧
      Inv c' l' ∧ vals l' = vals l ++ xs.map copy := by
  induction xs generalizing c l k with
  | nil => exact ⟨c, l, rfl, i, by simp⟩
  | cons x xs ih =>
    obtain ⟨c1, e, j⟩ := append_inv i (copy x)
    obtain ⟨c', l', e', j', v⟩ := ih (k + 1) j
    refine ⟨c', l', ?_, j', by simp [v]⟩
    simp only [List.zipIdx_cons, List.map_cons, List.cons_append, cloneLoop]
    rw [if_pos (by omega), e]
    exact e'

end Libo.LL
