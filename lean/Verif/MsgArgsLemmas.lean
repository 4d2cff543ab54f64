import Verif.MsgArgs
/-! # Invariant of argument lists -/

namespace Libo.Args
open Libo Libo.Heap Libo.LL

variable {α : Type}

/-- The cells `l` are linked from head to tail; other nodes may exist. -/
structure Core (s : Args α) (l : List (Nat × α)) : Prop where
  seg : Seg s.heap none l none
  nd : (addrs l).Nodup
  head : s.head = fst? l none
  tail : s.tail = lst? none l
  count : s.count = l.length

theorem core_of_inv {s : Args α} {l} (i : Inv s l) : Core s l := ⟨i.seg, i.nd, i.head, i.tail, i.count⟩

theorem nodup_snoc {l : List (Nat × α)} (nd : (addrs l).Nodup) {c : Nat × α} (h : c.1 ∉ addrs l) :
    (addrs (l ++ [c])).Nodup := by
  rw [addrs_append, List.nodup_append]
  refine ⟨nd, by simp, ?_⟩
  intro a ha b hb
  simp at hb
  rintro rfl
  exact h (hb ▸ ha)

theorem lst?_none_of {l : List (Nat × α)} (h : lst? none l = none) : l = [] := by
  rcases List.eq_nil_or_concat l with rfl | ⟨l', c, rfl⟩
  · rfl
  · simp [lst?_snoc] at h

/-- Setting both links of a node makes it a one-cell segment. -/
theorem links_frame {h : Heap α} {a : Nat} {n : Node α} (e : h a = some n) (v w : Option Nat) :
    ∃ h', (setNext h a v >>= fun h1 => setPrev h1 a w) = some h' ∧ h' a = some ⟨n.data, v, w⟩ ∧ Frame h h' [a] := by
  rw [setNext_some e, bnd, setPrev_some (upd_same _ _ _)]
  refine ⟨_, rfl, by simp [upd_same], ?_⟩
  exact (frame_upd e).trans (frame_upd (upd_same _ _ _)) (fun _ h => h) (fun _ h => h)

theorem appendAtom_core {s : Args α} {l} (c : Core s l) {a : Nat} {n : Node α} (e : s.heap a = some n) (ha : a ∉ addrs l) :
    ∃ s', appendAtom s a = some s' ∧ Core s' (l ++ [(a, n.data)]) ∧ s'.fresh = s.fresh ∧ Frame s.heap s'.heap (a :: addrs l) := by
  cases l with
  | nil =>
    have hh : s.head = none := c.head
    simp only [appendAtom, hh]
    rw [setNext_some e, bnd, setPrev_some (upd_same _ _ _), bnd]
    refine ⟨_, rfl, ⟨⟨by simp [upd_same], trivial⟩, by simp, rfl, rfl, by simp [c.count]⟩, rfl, ?_⟩
    exact (frame_upd e).trans (frame_upd (upd_same _ _ _)) (fun _ h => by simpa using h) (fun _ h => by simpa using h)
  | cons d l =>
    have hh : s.head = some d.1 := c.head
    have htl : ∃ t, lst? none (d :: l) = some t := by
      cases h : lst? none (d :: l) with
      | none => have := lst?_none_of h; simp at this
      | some t => exact ⟨t, rfl⟩
    obtain ⟨t, ht⟩ := htl
    have htt : s.tail = some t := by rw [c.tail, ht]
    obtain ⟨h1, e1, s1, f1⟩ := setNextIf_seg c.seg c.nd (by simp) (some a)
    rw [ht] at e1
    simp only [setNextIf] at e1
    simp only [appendAtom, hh, htt, e1, bnd]
    have e2 : h1 a = some n := by rw [f1.same _ ha, e]
    rw [setPrev_some e2, bnd, setNext_some (upd_same _ _ _), bnd]
    have hfr : Frame h1 (upd (upd h1 a (some { n with prev := some t })) a (some ⟨n.data, none, some t⟩)) [a] :=
      (frame_upd e2).trans (frame_upd (upd_same _ _ _)) (fun _ h => h) (fun _ h => h)
    refine ⟨_, rfl, ⟨?_, nodup_snoc c.nd ha, ?_, ?_, by simp [c.count]⟩, rfl, ?_⟩
    · rw [seg_append]
      refine ⟨seg_frame (fun b hb => hfr.same b ?_) s1, ?_, trivial⟩
      · simp; rintro rfl; exact ha hb
      · simp only [upd_same, ht, fst?_nil]
    · simp
    · simp [lst?_snoc]
    · exact f1.trans hfr (fun b h => by simp at h ⊢; exact Or.inr h) (fun b h => by simp at h ⊢; exact Or.inl h)

theorem prependAtom_core {s : Args α} {l} (c : Core s l) {a : Nat} {n : Node α} (e : s.heap a = some n) (ha : a ∉ addrs l) :
    ∃ s', prependAtom s a = some s' ∧ Core s' ((a, n.data) :: l) ∧ s'.fresh = s.fresh ∧
      Frame s.heap s'.heap (a :: addrs l) := by
  cases l with
  | nil =>
    have hh : s.head = none := c.head
    simp only [prependAtom, hh]
    rw [setNext_some e, bnd, setPrev_some (upd_same _ _ _), bnd]
    refine ⟨_, rfl, ⟨⟨by simp [upd_same], trivial⟩, by simp, rfl, rfl, by simp [c.count]⟩, rfl, ?_⟩
    exact (frame_upd e).trans (frame_upd (upd_same _ _ _)) (fun _ h => by simpa using h) (fun _ h => by simpa using h)
  | cons d l =>
    have hh : s.head = some d.1 := c.head
    have f0 : Frame s.heap (upd s.heap a (some { n with next := some d.1 })) [a] := frame_upd e
    have seg0 : Seg (upd s.heap a (some { n with next := some d.1 })) none (d :: l) none :=
      seg_frame (fun b hb => f0.same b (by simp; rintro rfl; exact ha hb)) c.seg
    obtain ⟨h1, e1, s1, f1⟩ := setPrevIf_seg seg0 c.nd (by simp) (some a)
    simp only [fst?_cons, setPrevIf] at e1
    simp only [prependAtom, hh]
    rw [setNext_some e, bnd, e1, bnd]
    have e2 : h1 a = some { n with next := some d.1 } := by rw [f1.same _ ha, upd_same]
    rw [setPrev_some e2, bnd]
    have f2 : Frame h1 (upd h1 a (some ⟨n.data, some d.1, none⟩)) [a] := frame_upd e2
    refine ⟨_, rfl, ⟨⟨by simp [upd_same], ?_⟩, ?_, rfl, ?_, by simp [c.count]⟩, rfl, ?_⟩
    · exact seg_frame (fun b hb => f2.same b (by simp; rintro rfl; exact ha hb)) s1
    · rw [addrs_cons, List.nodup_cons]; exact ⟨ha, c.nd⟩
    · simp [c.tail]
    · refine (f0.trans f1 (U := a :: addrs (d :: l)) ?_ ?_).trans f2 ?_ ?_
      all_goals intro b h; simp at h ⊢; first | exact Or.inl h | exact Or.inr h | exact h

/-- Removing the cell in the middle; it keeps its own links. -/
theorem removeAtom_core {s : Args α} {l1 l2 : List (Nat × α)} {a : Nat} {x : α} (c : Core s (l1 ++ (a, x) :: l2)) :
    ∃ s', removeAtom s a = some s' ∧ Core s' (l1 ++ l2) ∧ s'.fresh = s.fresh ∧
      s'.heap a = some ⟨x, fst? l2 none, lst? none l1⟩ ∧ Frame s.heap s'.heap (addrs (l1 ++ l2)) := by
  have hseg := c.seg
  rw [seg_append] at hseg
  obtain ⟨g1, g2, g3⟩ := hseg
  simp only [fst?_cons] at g1
  have nd := c.nd
  simp only [addrs_append, addrs_cons, List.nodup_append, List.nodup_cons, List.mem_cons] at nd
  obtain ⟨n1, ⟨n2, n3⟩, n4⟩ := nd
  have ha1 : a ∉ addrs l1 := fun h => n4 a h a (Or.inl rfl) rfl
  have d12 : ∀ b ∈ addrs l1, b ∉ addrs l2 := fun b h h' => n4 b h b (Or.inr h') rfl
  obtain ⟨h1, e1, s1, f1⟩ := setPrevIf_seg g3 n3 (fun _ => rfl) (lst? none l1)
  have e2 : h1 a = some ⟨x, fst? l2 none, lst? none l1⟩ := by rw [f1.same _ n2, g2]
  have g1' : Seg h1 none l1 (some a) := seg_frame (fun b hb => f1.same _ (d12 b hb)) g1
  obtain ⟨h2, e3, s2, f2⟩ := setNextIf_seg g1' n1 (fun _ => rfl) (fst? l2 none)
  have e4 : h2 a = some ⟨x, fst? l2 none, lst? none l1⟩ := by rw [f2.same _ ha1, e2]
  simp only [removeAtom, g2, bnd, e1, e2, e3, e4]
  refine ⟨_, rfl, ⟨?_, ?_, ?_, ?_, ?_⟩, rfl, e4, ?_⟩
  · rw [seg_append]
    exact ⟨s2, seg_frame (fun b hb => f2.same _ (fun h => d12 b h hb)) s1⟩
  · rw [addrs_append, List.nodup_append]
    exact ⟨n1, n3, fun b hb c hc => n4 b hb c (Or.inr hc)⟩
  · show (if some a = s.head then _ else s.head) = _
    rw [c.head, fst?_append, fst?_append]
    cases l1 with
    | nil => simp
    | cons d l1 =>
      have hn : ¬ some a = some d.1 := by
        intro h
        simp at h ha1
        exact ha1.1 h
      exact if_neg hn
  · show (if some a = s.tail then _ else s.tail) = _
    rw [c.tail, lst?_append, lst?_append]
    rcases List.eq_nil_or_concat l2 with rfl | ⟨l2', d, rfl⟩
    · simp
    · rw [List.concat_eq_append] at *
      have : ∀ p : Option Nat, lst? p (l2' ++ [d]) = some d.1 := fun p => lst?_snoc _ _ _
      simp only [lst?_cons, this]
      have hn : ¬ some a = some d.1 := by
        intro h
        simp at h n2
        exact n2.2 h
      exact if_neg hn
  · show s.count - 1 = _
    rw [c.count]; simp
  · refine f1.trans f2 ?_ ?_
    all_goals intro b h; simp [h]

/-- Inserting before the cell `b`. -/
theorem insertMid_core {s : Args α} {l1 l2 : List (Nat × α)} {b : Nat} {y : α} (c : Core s (l1 ++ (b, y) :: l2))
    (h1ne : l1 ≠ []) {a : Nat} {n : Node α} (e : s.heap a = some n) (ha : a ∉ addrs (l1 ++ (b, y) :: l2)) :
    ∃ h', (do
        let n ← s.heap b
        let h1 ← setNextIf s.heap n.prev (some a)
        let n1 ← h1 b
        let h2 ← setPrev h1 a n1.prev
        let h3 ← setNext h2 a (some b)
        setPrev h3 b (some a)) = some h' ∧
      Core (⟨h', s.fresh, s.head, s.tail, s.count + 1⟩ : Args α) (l1 ++ (a, n.data) :: (b, y) :: l2) ∧
      Frame s.heap h' (a :: addrs (l1 ++ (b, y) :: l2)) := by
  have hseg := c.seg
  rw [seg_append] at hseg
  obtain ⟨g1, g2⟩ := hseg
  have nd := c.nd
  have nd' := nd
  rw [addrs_append, List.nodup_append] at nd
  obtain ⟨n1, n2, n4⟩ := nd
  simp only [addrs_append, List.mem_append, not_or] at ha
  obtain ⟨ha1, ha2⟩ := ha
  have d12 : ∀ x ∈ addrs l1, x ∉ addrs ((b, y) :: l2) := fun x h h' => n4 x h x h' rfl
  have hab : b ≠ a := by rintro rfl; exact ha2 (by simp)
  obtain ⟨h1, e1, s1, f1⟩ := setNextIf_seg g1 n1 (fun _ => rfl) (some a)
  have hb1 : b ∉ addrs l1 := fun h => d12 b h (by simp)
  have eb : h1 b = some ⟨y, fst? l2 none, lst? none l1⟩ := by rw [f1.same _ hb1]; exact g2.1
  have ea : h1 a = some n := by rw [f1.same _ ha1, e]
  have hsb : s.heap b = some ⟨y, fst? l2 none, lst? none l1⟩ := g2.1
  simp only [hsb, bnd, e1, eb]
  rw [setPrev_some ea, bnd, setNext_some (upd_same _ _ _), bnd]
  have f2 : Frame h1 (upd (upd h1 a (some { n with prev := lst? none l1 })) a (some ⟨n.data, some b, lst? none l1⟩)) [a] :=
    (frame_upd ea).trans (frame_upd (upd_same _ _ _)) (fun _ h => h) (fun _ h => h)
  have g2' : Seg (upd (upd h1 a (some { n with prev := lst? none l1 })) a (some ⟨n.data, some b, lst? none l1⟩))
      (lst? none l1) ((b, y) :: l2) none := by
    refine seg_frame ?_ g2
    intro x hx
    rw [f2.same x (by simp; rintro rfl; exact ha2 hx), f1.same x (fun h => d12 x h hx)]
  obtain ⟨h3, e3, s3, f3⟩ := setPrevIf_seg g2' n2 (by simp) (some a)
  refine ⟨h3, e3, ⟨?_, ?_, ?_, ?_, by simp [c.count]; omega⟩, ?_⟩
  · rw [seg_append]
    refine ⟨?_, ?_, s3⟩
    · refine seg_frame ?_ s1
      intro x hx
      show h3 x = _
      rw [f3.same x (d12 x hx), f2.same x (by simp; rintro rfl; exact ha1 hx)]
    · show h3 a = _
      rw [f3.same a ha2, upd_same]; rfl
  · show (addrs (l1 ++ ([(a, n.data)] ++ (b, y) :: l2))).Nodup
    rw [addrs_append, List.nodup_append]
    refine ⟨n1, ?_, ?_⟩
    · show (addrs ((a, n.data) :: (b, y) :: l2)).Nodup
      rw [addrs_cons, List.nodup_cons]
      exact ⟨ha2, n2⟩
    · intro x hx z hz
      rintro rfl
      simp only [List.cons_append, List.nil_append] at hz
      rw [addrs_cons, List.mem_cons] at hz
      rcases hz with rfl | hz
      · exact ha1 hx
      · exact d12 x hx hz
  · show s.head = _
    rw [c.head]
    cases l1 with
    | nil => exact absurd rfl h1ne
    | cons d l1 => rfl
  · show s.tail = _
    rw [c.tail, lst?_append, lst?_append]; rfl
  · refine (f1.trans f2 (U := a :: addrs (l1 ++ (b, y) :: l2)) ?_ ?_).trans f3 ?_ ?_
    · intro x h; simp [h]
    · intro x h; simp at h; simp [h]
    · intro x h; exact h
    · intro x h
      rw [List.mem_cons, addrs_append, List.mem_append]; exact Or.inr (Or.inr h)

theorem forward_seg {h : Heap α} {l : List (Nat × α)} {p : Option Nat} (s : Seg h p l none) (k : Nat) (hk : k ≤ l.length) :
    forward h k (fst? l none) = some ((l[k]?).map Prod.fst) := by
  induction l generalizing p k with
  | nil => simp at hk; subst hk; rfl
  | cons c l ih =>
    cases k with
    | zero => rfl
    | succ k =>
      simp only [fst?_cons, forward, s.1]
      rw [ih s.2 k (by simpa using hk)]
      simp

theorem backward_seg {h : Heap α} {l : List (Nat × α)} {q : Option Nat} (s : Seg h none l q) (k : Nat) (hk : k < l.length) :
    backward h k (lst? none l) = some ((l[l.length - 1 - k]?).map Prod.fst) := by
  induction k generalizing l q with
  | zero => simp [backward, lst?_none_getElem]
  | succ k ih =>
    rcases List.eq_nil_or_concat l with rfl | ⟨l, c, rfl⟩
    · simp at hk
    · rw [List.concat_eq_append] at *
      rw [lst?_snoc]
      rw [seg_append] at s
      have e := s.2.1
      simp only [backward, e]
      simp only [List.length_append, List.length_cons, List.length_nil] at hk
      rw [ih s.1 (by omega)]
      rw [List.getElem?_append_left (by simp; omega)]
      simp
      congr 2
      omega

theorem getArg_core {s : Args α} {l} (c : Core s l) (n : Nat) : getArg s n = some ((l[n]?).map Prod.fst) := by
  unfold getArg
  rw [c.count, c.head, c.tail]
  by_cases h1 : l.length ≤ n
  · rw [if_pos (by omega), List.getElem?_eq_none (by omega)]; rfl
  · rw [if_neg (by omega)]
    by_cases h2 : n = 0
    · subst h2
      rw [if_pos (by simp)]
      cases l <;> rfl
    · rw [if_neg (by omega), if_neg (by omega)]
      have e : ((l.length : Int) - 1 - (n : Int)).toNat = l.length - 1 - n := by omega
      rw [e, backward_seg c.seg _ (by omega)]
      congr 3
      omega

/-- Putting a list element in at a position (past the end: at the end). -/
def insertPos (xs : List α) (pos : Nat) (x : α) : List α := xs.take pos ++ x :: xs.drop pos

theorem insertAtom_core {s : Args α} {l} (c : Core s l) {a : Nat} {n : Node α} (e : s.heap a = some n) (ha : a ∉ addrs l)
    (pos : Nat) (near : Bool) (hend : l.length ≤ pos → l ≠ [] → n.next = none) :
    ∃ s', insertAtom s a pos near = some s' ∧ Core s' (insertPos l pos (a, n.data)) ∧ s'.fresh = s.fresh ∧
      Frame s.heap s'.heap (a :: addrs l) := by
  cases hl : l with
  | nil =>
    subst hl
    have hh : s.head = none := c.head
    simp only [insertAtom, hh]
    rw [setPrev_some e, bnd, setNext_some (upd_same _ _ _), bnd]
    refine ⟨_, rfl, ?_, rfl, ?_⟩
    · simp only [insertPos, List.take_nil, List.drop_nil, List.nil_append]
      exact ⟨⟨by simp [upd_same], trivial⟩, by simp, rfl, rfl, by simp [c.count]⟩
    · exact (frame_upd e).trans (frame_upd (upd_same _ _ _)) (fun _ h => by simpa using h) (fun _ h => by simpa using h)
  | cons d l' =>
    have hne : l ≠ [] := by simp [hl]
    rw [← hl]
    have hh : s.head = some d.1 := by rw [c.head, hl]; rfl
    simp only [insertAtom, hh]
    rw [c.count]
    by_cases h1 : l.length ≤ pos
    · rw [if_pos (by omega)]
      obtain ⟨h1', e1, s1, f1⟩ := setNextIf_seg c.seg c.nd (fun _ => rfl) (some a)
      rw [← c.tail] at e1
      rw [e1, bnd]
      have e2 : h1' a = some n := by rw [f1.same _ ha, e]
      rw [setPrev_some e2, bnd]
      have hn := hend h1 hne
      have f2 : Frame h1' (upd h1' a (some { n with prev := s.tail })) [a] := frame_upd e2
      refine ⟨_, rfl, ?_, rfl, ?_⟩
      · have : insertPos l pos (a, n.data) = l ++ [(a, n.data)] := by
          simp [insertPos, List.take_of_length_le h1, List.drop_of_length_le h1]
        rw [this]
        refine ⟨?_, nodup_snoc c.nd ha, ?_, ?_, by simp⟩
        · rw [seg_append]
          refine ⟨seg_frame (fun b hb => f2.same b (by simp; rintro rfl; exact ha hb)) s1, ?_, trivial⟩
          simp [upd_same, hn, c.tail]
        · show some d.1 = _
          rw [hl]; rfl
        · simp [lst?_snoc]
      · exact f1.trans f2 (fun b h => by simp [h]) (fun b h => by simp at h; simp [h])
    · rw [if_neg (by omega)]
      by_cases h2 : pos = 0
      · subst h2
        rw [if_pos (by simp)]
        have hp := prependAtom_core c e ha
        simp only [prependAtom, hh] at hp
        rw [c.count] at hp
        simpa [insertPos] using hp
      · rw [if_neg (by omega)]
        have hlt : pos < l.length := by omega
        have hwalk : (if near = true then forward s.heap (pos : Int).toNat (some d.1)
            else backward s.heap ((l.length : Int) - ((pos : Int) + 1)).toNat s.tail) = some (some l[pos].1) := by
          have hd : some d.1 = fst? l none := by rw [hl]; rfl
          cases near with
          | true =>
            rw [if_pos rfl, hd, Int.toNat_natCast, forward_seg c.seg pos (by omega), List.getElem?_eq_getElem hlt]; rfl
          | false =>
            have e3 : ((l.length : Int) - ((pos : Int) + 1)).toNat = l.length - 1 - pos := by omega
            rw [if_neg (by simp), e3, c.tail, backward_seg c.seg _ (by omega)]
            have e4 : l.length - 1 - (l.length - 1 - pos) = pos := by omega
            rw [e4, List.getElem?_eq_getElem hlt]; rfl
        rw [hwalk, bnd]
        simp only
        have c' := c
        have ha' := ha
        have hsplit := split_at hlt
        have hins : insertPos l pos (a, n.data) = l.take pos ++ (a, n.data) :: (l[pos].1, l[pos].2) :: l.drop (pos + 1) := by
          unfold insertPos
          rw [List.drop_eq_getElem_cons hlt]
        rw [hsplit] at c' ha'
        obtain ⟨h', e', c2, f2⟩ := insertMid_core c' (by
          intro h
          rcases List.take_eq_nil_iff.mp h with h | h
          · exact h2 h
          · exact hne h) e ha'
        rw [← hsplit] at f2
        refine ⟨⟨h', s.fresh, s.head, s.tail, s.count + 1⟩, ?_, ?_, rfl, f2⟩
        · have key : ∀ {β : Type} (o : Option (Node α)) (f : Node α → Option (Heap α)) (g : Heap α → Option β),
              ((o >>= f) >>= g) = o >>= fun x => f x >>= g := by
            intro β o f g; cases o <;> rfl
          have key2 : ∀ {β : Type} (o : Option (Heap α)) (f : Heap α → Option (Heap α)) (g : Heap α → Option β),
              ((o >>= f) >>= g) = o >>= fun x => f x >>= g := by
            intro β o f g; cases o <;> rfl
          have := congrArg (fun o => o >>= fun h4 =>
            (some ⟨h4, s.fresh, s.head, s.tail, s.count + 1⟩ : Option (Args α))) e'
          simp only [key, key2, bnd] at this
          rw [← this]
          simp only [hh, c.count]
        · rw [hins]; exact c2

end Libo.Args
