import Verif.BundleU
/-! # Invariant of message lists -/

namespace Libo.BU
open Libo Libo.Heap

variable {β : Type}

theorem bnd {γ δ : Type} (a : γ) (f : γ → Option δ) : (some a >>= f) = f a := rfl

/-- The cells `l` are linked; the tail pointer is the last one, or NULL when there is at most one. -/
structure Core (s : BU β) (l : List (Nat × Msg β)) : Prop where
  seg : Seg s.heap none l none
  nd : (addrs l).Nodup
  head : s.head = fst? l none
  tail : s.tail = lst? none l ∨ (s.tail = none ∧ l.length ≤ 1)

/-- … and besides them exactly the messages `d` are allocated. -/
structure Dom (s : BU β) (l : List (Nat × Msg β)) (d : List Nat) : Prop where
  lt : ∀ a ∈ addrs l ++ d, a < s.fresh
  free : ∀ a, a ∉ addrs l ++ d → s.heap a = none

structure Inv (s : BU β) (l : List (Nat × Msg β)) : Prop where
  core : Core s l
  dom : Dom s l []
  count : s.count = l.length

theorem inv_new : Inv (new : BU β) [] := ⟨⟨trivial, by simp, rfl, Or.inl rfl⟩, ⟨by simp, fun _ _ => rfl⟩, rfl⟩

theorem lst?_none_of {α : Type} {l : List (Nat × α)} (h : lst? none l = none) : l = [] := by
  rcases List.eq_nil_or_concat l with rfl | ⟨l', c, rfl⟩
  · rfl
  · simp [lst?_snoc] at h

/-- Appending an allocated message that is not on the list. -/
theorem link_core {s : BU β} {l} (c : Core s l) {a : Nat} {n : Node (Msg β)} (e : s.heap a = some n) (ha : a ∉ addrs l) :
    ∃ s', link s a = some s' ∧ Core s' (l ++ [(a, n.data)]) ∧ s'.fresh = s.fresh ∧ s'.count = s.count + 1 ∧
      Frame s.heap s'.heap (a :: addrs l) := by
  have hnd : (addrs (l ++ [(a, n.data)])).Nodup := by
    rw [addrs_append, List.nodup_append]
    refine ⟨c.nd, by simp, ?_⟩
    intro x hx b hb
    simp at hb
    rintro rfl
    exact ha (hb ▸ hx)
  -- what the three writes after the last cell establish
  have key : l ≠ [] → ∀ t, lst? none l = some t →
      ∃ h1, setNext s.heap t (some a) = some h1 ∧ Seg h1 none l (some a) ∧ h1 a = some n ∧ Frame s.heap h1 (addrs l) := by
    intro hl t ht
    obtain ⟨h1, e1, s1, f1⟩ := setNextIf_seg c.seg c.nd (fun _ => rfl) (some a)
    rw [ht] at e1
    exact ⟨h1, e1, s1, by rw [f1.same _ ha, e], f1⟩
  cases hl : l with
  | nil =>
    have hh : s.head = none := by rw [c.head, hl]; rfl
    simp only [link, hh]
    rw [setNext_some e, bnd, setPrev_some (upd_same _ _ _), bnd]
    refine ⟨_, rfl, ⟨⟨by simp [upd_same], trivial⟩, by simp, rfl, Or.inr ⟨rfl, by simp⟩⟩, rfl, rfl, ?_⟩
    exact (frame_upd e).trans (frame_upd (upd_same _ _ _)) (fun _ h => by simpa using h) (fun _ h => by simpa using h)
  | cons d l' =>
    rw [← hl]
    have hne : l ≠ [] := by simp [hl]
    have hh : s.head = some d.1 := by rw [c.head, hl]; rfl
    have hhd : s.head = fst? (l ++ [(a, n.data)]) none := by rw [fst?_append, hl]; exact hh
    rcases c.tail with ht | ⟨ht, h1⟩
    · cases hlt : lst? none l with
      | none => exact absurd (lst?_none_of hlt) hne
      | some t =>
        rw [hlt] at ht
        simp only [link, hh, ht]
        have hta : t ≠ a := by
          rintro rfl
          rcases lst?_mem hlt with h | h
          · exact hne h
          · exact ha h
        rw [setPrev_some e, bnd, setNext_some (upd_same _ _ _), bnd]
        have f0 : Frame s.heap (upd (upd s.heap a (some { n with prev := some t })) a (some ⟨n.data, none, some t⟩)) [a] :=
          (frame_upd e).trans (frame_upd (upd_same _ _ _)) (fun _ h => h) (fun _ h => h)
        have seg0 : Seg (upd (upd s.heap a (some { n with prev := some t })) a (some ⟨n.data, none, some t⟩)) none l none :=
          seg_frame (fun b hb => f0.same b (by simp; rintro rfl; exact ha hb)) c.seg
        obtain ⟨h1, e1, s1, f1⟩ := setNextIf_seg seg0 c.nd (fun _ => rfl) (some a)
        rw [hlt] at e1
        simp only [setNextIf] at e1
        rw [e1, bnd]
        refine ⟨_, rfl, ⟨?_, hnd, by rw [← hh]; exact hhd, Or.inl (by simp [lst?_snoc])⟩, rfl, rfl, ?_⟩
        · rw [seg_append]
          refine ⟨s1, ?_, trivial⟩
          show h1 a = _
          rw [f1.same _ ha, upd_same, hlt]; rfl
        · exact f0.trans f1 (fun b h => by simp at h; simp [h]) (fun b h => by simp [h])
    · have hl' : l' = [] := by
        rw [hl] at h1
        simp at h1
        exact h1
      subst hl'
      have hlt : lst? none l = some d.1 := by rw [hl]; rfl
      obtain ⟨h1, e1, s1, ea, f1⟩ := key hne _ hlt
      simp only [link, hh, ht]
      rw [e1, bnd, setPrev_some ea, bnd, setNext_some (upd_same _ _ _), bnd]
      have f0 : Frame h1 (upd (upd h1 a (some { n with prev := some d.1 })) a (some ⟨n.data, none, some d.1⟩)) [a] :=
        (frame_upd ea).trans (frame_upd (upd_same _ _ _)) (fun _ h => h) (fun _ h => h)
      refine ⟨_, rfl, ⟨?_, hnd, by rw [← hh]; exact hhd, Or.inl (by simp [lst?_snoc])⟩, rfl, rfl, ?_⟩
      · rw [seg_append]
        refine ⟨seg_frame (fun b hb => f0.same b (by simp; rintro rfl; exact ha hb)) s1, ?_, trivial⟩
        rw [hlt]
        show upd _ _ _ a = _
        rw [upd_same]; rfl
      · exact f1.trans f0 (fun b h => by simp [h]) (fun b h => by simp at h; simp [h])

/-- Removing a message from the middle. -/
theorem removeMsg_core {s : BU β} {l1 l2 : List (Nat × Msg β)} {a : Nat} {x : Msg β} (c : Core s (l1 ++ (a, x) :: l2)) :
    ∃ s', removeMsg s a = some s' ∧ Core s' (l1 ++ l2) ∧ s'.fresh = s.fresh ∧ s'.count = s.count ∧
      s'.heap a = some ⟨x, fst? l2 none, lst? none l1⟩ ∧ a ∉ addrs (l1 ++ l2) ∧ Frame s.heap s'.heap (addrs (l1 ++ l2)) := by
  have hseg := c.seg
  rw [seg_append] at hseg
  obtain ⟨g1, g2, g3⟩ := hseg
  simp only [fst?_cons] at g1
  have nd := c.nd
  simp only [addrs_append, addrs_cons, List.nodup_append, List.nodup_cons, List.mem_cons] at nd
  obtain ⟨n1, ⟨n2, n3⟩, n4⟩ := nd
  have ha1 : a ∉ addrs l1 := fun h => n4 a h a (Or.inl rfl) rfl
  have d12 : ∀ b ∈ addrs l1, b ∉ addrs l2 := fun b h h' => n4 b h b (Or.inr h') rfl
  obtain ⟨h1, e1, s1, f1⟩ := setPrevIf_seg g3 n3 (fun _ => rfl) (lst? none l1)
  have e2 : h1 a = some ⟨x, fst? l2 none, lst? none l1⟩ := by rw [f1.same _ n2, g2]
  have g1' : Seg h1 none l1 (some a) := seg_frame (fun b hb => f1.same _ (d12 b hb)) g1
  obtain ⟨h2, e3, s2, f2⟩ := setNextIf_seg g1' n1 (fun _ => rfl) (fst? l2 none)
  have e4 : h2 a = some ⟨x, fst? l2 none, lst? none l1⟩ := by rw [f2.same _ ha1, e2]
  simp only [removeMsg, g2, bnd, e1, e2, e3, e4]
  refine ⟨_, rfl, ⟨?_, ?_, ?_, ?_⟩, rfl, rfl, e4, ?_, ?_⟩
  · rw [seg_append]
    exact ⟨s2, seg_frame (fun b hb => f2.same _ (fun h => d12 b h hb)) s1⟩
  · rw [addrs_append, List.nodup_append]
    exact ⟨n1, n3, fun b hb c hc => n4 b hb c (Or.inr hc)⟩
  · show (if some a = s.head then _ else s.head) = _
    rw [c.head, fst?_append, fst?_append]
    cases l1 with
    | nil => simp
    | cons d l1 =>
      have hn : ¬ some a = some d.1 := by
        intro h
        simp at h ha1
        exact ha1.1 h
      exact if_neg hn
  · show (if some a = s.tail then _ else s.tail) = _ ∨ (if some a = s.tail then _ else s.tail) = none ∧ _
    rcases c.tail with ht | ⟨ht, hlen⟩
    · left
      rw [ht, lst?_append, lst?_append]
      rcases List.eq_nil_or_concat l2 with rfl | ⟨l2', d, rfl⟩
      · simp
      · rw [List.concat_eq_append] at *
        have : ∀ p : Option Nat, lst? p (l2' ++ [d]) = some d.1 := fun p => lst?_snoc _ _ _
        simp only [lst?_cons, this]
        have hn : ¬ some a = some d.1 := by
          intro h
          simp at h n2
          exact n2.2 h
        exact if_neg hn
    · right
      rw [ht]
      refine ⟨if_neg (by simp), ?_⟩
      simp at hlen ⊢
      omega
  · rw [addrs_append, List.mem_append]
    rintro (h | h)
    · exact ha1 h
    · exact n2 h
  · refine f1.trans f2 ?_ ?_
    all_goals intro b h; simp [h]

theorem remove_free {s : BU β} {l1 l2 : List (Nat × Msg β)} {a : Nat} {x : Msg β} {d : List Nat} (c : Core s (l1 ++ (a, x) :: l2))
    (dm : Dom s (l1 ++ (a, x) :: l2) d) (had : a ∉ d) :
    ∃ s1 s', removeMsg s a = some s1 ∧ freeMsg s1 a = some s' ∧ Core s' (l1 ++ l2) ∧ Dom s' (l1 ++ l2) d ∧ s'.fresh = s.fresh ∧
      s'.count = s.count ∧ ∀ b, b ∉ addrs (l1 ++ (a, x) :: l2) → s'.heap b = s.heap b := by
  obtain ⟨s1, e1, c1, fr, ct, hn, ha, f⟩ := removeMsg_core c
  refine ⟨s1, { s1 with heap := upd s1.heap a none }, e1, by simp [freeMsg, Heap.free, hn], ⟨?_, c1.nd, c1.head, c1.tail⟩,
    ⟨?_, ?_⟩, fr, ct, ?_⟩
  · exact seg_frame (fun b hb => upd_ne _ _ (by rintro rfl; exact ha hb)) c1.seg
  · intro b hb
    show b < s1.fresh
    rw [fr]
    refine dm.lt b ?_
    simp only [addrs_append, addrs_cons, List.mem_append, List.mem_cons] at hb ⊢
    rcases hb with (h | h) | h <;> simp [h]
  · intro b hb
    show upd _ _ _ b = none
    by_cases h : b = a
    · rw [h, upd_same]
    · rw [upd_ne _ _ h]
      refine f.none (dm.free b ?_)
      simp only [addrs_append, addrs_cons, List.mem_append, List.mem_cons] at hb ⊢
      rintro ((h' | h' | h') | h')
      · exact hb (Or.inl (Or.inl h'))
      · exact h h'
      · exact hb (Or.inl (Or.inr h'))
      · exact hb (Or.inr h')
  · intro b hb
    show upd _ _ _ b = _
    have h : b ≠ a := by rintro rfl; exact hb (by simp)
    rw [upd_ne _ _ h, f.same]
    intro h'
    apply hb
    simp only [addrs_append, addrs_cons, List.mem_append, List.mem_cons] at h' ⊢
    rcases h' with h | h <;> simp [h]

/-- The loop removes the messages with the address from the rest `l2` of the list. -/
theorem removeLoop_core (skip : Bool) (address : Bytes) (fuel : Nat) {s : BU β} {l1 l2 : List (Nat × Msg β)} {d : List Nat}
    (c : Core s (l1 ++ l2)) (dm : Dom s (l1 ++ l2) d) (hd : ∀ a ∈ d, a ∉ addrs (l1 ++ l2)) (hf : l2.length ≤ fuel)
    (hnull : skip = true ∨ ∀ m ∈ vals l2, m.address ≠ none) :
    ∃ s', removeLoop skip address fuel s (fst? l2 none) = some s' ∧
      Core s' (l1 ++ l2.filter fun c => c.2.address ≠ some address) ∧
      Dom s' (l1 ++ l2.filter fun c => c.2.address ≠ some address) d ∧ s'.fresh = s.fresh ∧
      s'.count = s.count - (l2.filter fun c => c.2.address = some address).length ∧
      ∀ b ∈ d, s'.heap b = s.heap b := by
  induction l2 generalizing s l1 fuel with
  | nil => exact ⟨s, by cases fuel <;> rfl, by simpa using c, by simpa using dm, rfl, by simp, fun _ _ => rfl⟩
  | cons x l2 ih =>
    cases fuel with
    | zero => simp at hf
    | succ fuel =>
      obtain ⟨a, m⟩ := x
      have hs := c.seg
      rw [seg_append] at hs
      have hn : s.heap a = some ⟨m, fst? l2 none, lst? none l1⟩ := hs.2.1
      have hf' : l2.length ≤ fuel := by simpa using hf
      have hnull' : skip = true ∨ ∀ m ∈ vals l2, m.address ≠ none := by
        rcases hnull with h | h
        · exact Or.inl h
        · exact Or.inr fun m hm => h m (by simp [hm])
      have e0 : l1 ++ (a, m) :: l2 = (l1 ++ [(a, m)]) ++ l2 := by simp
      simp only [fst?_cons, removeLoop, hn, bnd]
      by_cases heq : m.address = some address
      · simp only [heq, if_true]
        have had : a ∉ d := fun h => hd a h (by simp)
        obtain ⟨s1, s2, e1, e2, c2, d2, fr, ct, sm⟩ := remove_free c dm had
        rw [e1, bnd, e2, bnd]
        have c3 : Core { s2 with count := s2.count - 1 } (l1 ++ l2) := ⟨c2.seg, c2.nd, c2.head, c2.tail⟩
        have d3 : Dom { s2 with count := s2.count - 1 } (l1 ++ l2) d := ⟨d2.lt, d2.free⟩
        obtain ⟨s', e', c', d', fr', ct', sm'⟩ := ih fuel c3 d3 (fun b hb h => hd b hb (by
          simp only [addrs_append, addrs_cons, List.mem_append, List.mem_cons] at h ⊢
          rcases h with h | h <;> simp [h])) hf' hnull'
        refine ⟨s', e', by simpa [heq] using c', by simpa [heq] using d', by rw [fr', ← fr], ?_, ?_⟩
        · rw [ct']
          show s2.count - 1 - _ = _
          rw [ct]
          simp [heq]; omega
        · intro b hb
          rw [sm' b hb]
          exact sm b (hd b hb)
      · rw [e0] at c dm
        have hd' : ∀ b ∈ d, b ∉ addrs ((l1 ++ [(a, m)]) ++ l2) := by rw [← e0]; exact hd
        obtain ⟨s', e', c', d', fr', ct', sm'⟩ := ih fuel c dm hd' hf' hnull'
        have hgo : (match m.address with
            | none => if skip then removeLoop skip address fuel s (fst? l2 none) else none
            | some a' =>
              if address = a' then do
                let b1 ← removeMsg s a
                let b2 ← freeMsg b1 a
                removeLoop skip address fuel { b2 with count := b2.count - 1 } (fst? l2 none)
              else removeLoop skip address fuel s (fst? l2 none)) = removeLoop skip address fuel s (fst? l2 none) := by
          cases hm : m.address with
          | none =>
            rcases hnull with h | h
            · simp [h]
            · exact absurd hm (h m (by simp))
          | some a' =>
            have : address ≠ a' := by rintro rfl; exact heq hm
            simp [this]
        refine ⟨s', hgo.trans e', ?_, ?_, fr', ?_, sm'⟩
        · simpa [heq] using c'
        · simpa [heq] using d'
        · rw [ct']; simp [heq]

/-- Change the payload of the first message with this address. -/
def replaceFirst (address : Bytes) (x : Msg β) : List (Nat × Msg β) → List (Nat × Msg β)
  | [] => []
  | c :: l => if c.2.address = some address then (c.1, x) :: l else c :: replaceFirst address x l

@[simp] theorem addrs_replaceFirst (address : Bytes) (x : Msg β) (l) : addrs (replaceFirst address x l) = addrs l := by
  induction l with
  | nil => rfl
  | cons c l ih => unfold replaceFirst; split <;> simp [ih]

theorem fst?_of_addrs {α : Type} {l l' : List (Nat × α)} (h : addrs l = addrs l') (q) : fst? l q = fst? l' q := by
  cases l <;> cases l' <;> simp at h
  · rfl
  · simp [h.1]
theorem lst?_of_addrs {α : Type} {l l' : List (Nat × α)} (h : addrs l = addrs l') (p) : lst? p l = lst? p l' := by
  induction l generalizing l' p with
  | nil => cases l' <;> simp at h; rfl
  | cons c l ih =>
    cases l' with
    | nil => simp at h
    | cons d l' =>
      simp at h
      simp [h.1, ih h.2]

/-- Writing the payload of one cell. -/
theorem seg_payload {α : Type} {h : Heap α} {p q : Option Nat} {l1 l2 : List (Nat × α)} {a : Nat} {x y : α}
    (s : Seg h p (l1 ++ (a, x) :: l2) q) (nd : (addrs (l1 ++ (a, x) :: l2)).Nodup) {n : Node α} (e : h a = some n) :
    Seg (upd h a (some { n with data := y })) p (l1 ++ (a, y) :: l2) q := by
  simp only [addrs_append, addrs_cons, List.nodup_append, List.nodup_cons, List.mem_cons] at nd
  obtain ⟨n1, ⟨n2, n3⟩, n4⟩ := nd
  have ha1 : a ∉ addrs l1 := fun h => n4 a h a (Or.inl rfl) rfl
  rw [seg_append] at s ⊢
  obtain ⟨g1, g2, g3⟩ := s
  refine ⟨seg_frame (fun b hb => upd_ne _ _ (by rintro rfl; exact ha1 hb)) g1, ?_,
    seg_frame (fun b hb => upd_ne _ _ (by rintro rfl; exact n2 hb)) g3⟩
  rw [e] at g2
  simp only [Option.some.injEq] at g2
  simp only [upd_same]
  rw [g2]

theorem replaceLoop_core (address : Bytes) {msg : Nat} (fuel : Nat) {s : BU β} {l1 l2 : List (Nat × Msg β)} {n : Node (Msg β)}
    (c : Core s (l1 ++ l2)) (dm : Dom s (l1 ++ l2) [msg]) (hmsg : msg ∉ addrs (l1 ++ l2)) (e : s.heap msg = some n)
    (hf : l2.length ≤ fuel) (hnull : ∀ m ∈ vals l2, m.address ≠ none) :
    ((∃ m ∈ vals l2, m.address = some address) ∧
      ∃ s', replaceLoop address msg fuel s (fst? l2 none) = some (s', true) ∧ Core s' (l1 ++ replaceFirst address n.data l2) ∧
        Dom s' (l1 ++ replaceFirst address n.data l2) [] ∧ s'.count = s.count) ∨
    ((∀ m ∈ vals l2, m.address ≠ some address) ∧ replaceLoop address msg fuel s (fst? l2 none) = some (s, false)) := by
  induction l2 generalizing l1 fuel with
  | nil => right; exact ⟨by simp, by cases fuel <;> rfl⟩
  | cons x l2 ih =>
    cases fuel with
    | zero => simp at hf
    | succ fuel =>
      obtain ⟨a, m⟩ := x
      have hs := c.seg
      rw [seg_append] at hs
      have hn : s.heap a = some ⟨m, fst? l2 none, lst? none l1⟩ := hs.2.1
      have hf' : l2.length ≤ fuel := by simpa using hf
      have e0 : l1 ++ (a, m) :: l2 = (l1 ++ [(a, m)]) ++ l2 := by simp
      simp only [fst?_cons, replaceLoop, hn, bnd]
      have hma : msg ≠ a := by rintro rfl; exact hmsg (by simp)
      by_cases heq : m.address = some address
      · left
        refine ⟨⟨m, by simp, heq⟩, ?_⟩
        simp only [heq, if_true, e, bnd]
        have hmm : upd s.heap a (some ⟨n.data, fst? l2 none, lst? none l1⟩) msg = some n := by rw [upd_ne _ _ hma, e]
        simp only [freeMsg, Heap.free, hmm, Option.map_some, bnd]
        have hrf : replaceFirst address n.data ((a, m) :: l2) = (a, n.data) :: l2 := by simp [replaceFirst, heq]
        have had : addrs (l1 ++ (a, n.data) :: l2) = addrs (l1 ++ (a, m) :: l2) := by simp
        rw [hrf]
        refine ⟨_, rfl, ⟨?_, ?_, ?_, ?_⟩, ⟨?_, ?_⟩, rfl⟩
        · refine seg_frame (fun b hb => upd_ne _ _ ?_) (seg_payload c.seg c.nd hn)
          rw [had] at hb
          rintro rfl; exact hmsg hb
        · rw [had]; exact c.nd
        · rw [fst?_of_addrs had]; exact c.head
        · rw [lst?_of_addrs had]
          rcases c.tail with h | ⟨h, h'⟩
          · exact Or.inl h
          · exact Or.inr ⟨h, by simpa using h'⟩
        · intro b hb
          refine dm.lt b ?_
          rw [List.append_nil, had] at hb
          exact List.mem_append_left _ hb
        · intro b hb
          rw [List.append_nil, had] at hb
          show upd _ _ _ b = none
          by_cases h1 : b = msg
          · rw [h1, upd_same]
          · rw [upd_ne _ _ h1, upd_ne _ _ (by rintro rfl; exact hb (by simp))]
            exact dm.free b (by rw [List.mem_append]; rintro (h | h); exact hb h; simp at h; exact h1 h)
      · have hgo : ∀ r, (match m.address with
            | none => none
            | some a' =>
              if address = a' then r
              else replaceLoop address msg fuel s (fst? l2 none)) = replaceLoop address msg fuel s (fst? l2 none) := by
          intro r
          cases hm : m.address with
          | none => exact absurd hm (hnull m (by simp))
          | some a' =>
            have : address ≠ a' := by rintro rfl; exact heq hm
            simp [this]
        have hrf : replaceFirst address n.data ((a, m) :: l2) = (a, m) :: replaceFirst address n.data l2 := by
          simp [replaceFirst, heq]
        have e1 : l1 ++ (a, m) :: replaceFirst address n.data l2 = (l1 ++ [(a, m)]) ++ replaceFirst address n.data l2 := by simp
        rw [hrf, e1]
        rw [e0] at c dm hmsg
        rcases ih fuel c dm hmsg hf' (fun m hm => hnull m (by simp [hm])) with ⟨⟨m', h1, h2⟩, s', h3, h4⟩ | ⟨h1, h2⟩
        · left
          exact ⟨⟨m', by simp [h1], h2⟩, s', (hgo _).trans h3, h4⟩
        · right
          refine ⟨?_, (hgo _).trans h2⟩
          intro m' hm'
          simp only [vals_cons, List.mem_cons] at hm'
          rcases hm' with rfl | hm'
          · exact heq
          · exact h1 m' hm'

theorem clearLoop_core (fuel : Nat) {s : BU β} {l : List (Nat × Msg β)} {p : Option Nat} (sg : Seg s.heap p l none)
    (nd : (addrs l).Nodup) (free : ∀ a, a ∉ addrs l → s.heap a = none) (hf : l.length ≤ fuel) :
    ∃ s', clearLoop fuel s (fst? l none) = some s' ∧ ∀ a, s'.heap a = none := by
  induction l generalizing s p fuel with
  | nil => exact ⟨s, by cases fuel <;> rfl, fun a => free a (by simp)⟩
  | cons c l ih =>
    cases fuel with
    | zero => simp at hf
    | succ fuel =>
      have e := sg.1
      simp only [fst?_cons, clearLoop, e, bnd, freeMsg, Heap.free, Option.map_some]
      simp only [addrs_cons, List.nodup_cons] at nd
      refine ih fuel (p := some c.1) ?_ nd.2 ?_ (by simpa using hf)
      · exact seg_frame (fun b hb => upd_ne _ _ (by rintro rfl; exact nd.1 hb)) sg.2
      · intro a ha
        show upd _ _ _ a = none
        by_cases h : a = c.1
        · rw [h, upd_same]
        · rw [upd_ne _ _ h]
          exact free a (by simp; exact ⟨h, ha⟩)

theorem Inv.fuel {s : BU β} {l} (i : Inv s l) : l.length ≤ s.fresh := by
  have := length_le_of_nodup_lt i.core.nd (fun a ha => i.dom.lt a (by simp [ha]))
  simpa using this

end Libo.BU
