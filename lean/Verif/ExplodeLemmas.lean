import Verif.ExplodeSpec
import Verif.MemFlatLemmas
/-!
# Trees of exploded messages, and their leaves
-/

namespace Libo
open Libo.Expr

theorem dropWhile_takeWhile {α : Type} (p : α → Bool) : ∀ s : List α, (s.takeWhile p).dropWhile p = []
  | [] => rfl
  | x :: s => by
    rw [List.takeWhile_cons]
    split
    · rename_i h
      rw [List.dropWhile_cons, if_pos h, dropWhile_takeWhile p s]
    · rfl

/-- Neither address leads to the other or below it. -/
def Apart (a b : Bytes) : Prop := a ≠ b ∧ (∀ r, a ≠ b ++ 47 :: r) ∧ ∀ r, b ≠ a ++ 47 :: r

/-- What exploding builds: addresses of one part, all different, with a bundle that is not empty, or arguments without bundles. -/
inductive Tree : List VMsg → Prop where
  | nil : Tree []
  | leaf {s vs ms} : s.head? = some 47 → restSeg s = [] → (∀ y ∈ ms, y.addr ≠ some s) → vs ≠ [] → (∀ v ∈ vs, v.isBndl = false) → Tree ms →
      Tree (.mk (some s) vs :: ms)
  | node {s ns ms} : s.head? = some 47 → restSeg s = [] → (∀ y ∈ ms, y.addr ≠ some s) → ns ≠ [] → Tree ns → Tree ms →
      Tree (.mk (some s) [.bndl ns] :: ms)

/-- A message below `p`. -/
def VMsg.pre (p : Bytes) : VMsg → VMsg
  | .mk a vs => .mk (a.map (p ++ ·)) vs

theorem pre_pre (p s : Bytes) (x : VMsg) : (x.pre s).pre p = x.pre (p ++ s) := by
  cases x with
  | mk a vs => cases a <;> simp [VMsg.pre]

section
variable {op : Int → Bool} (ho : ∀ l, op l = true)
include ho

theorem leaves_node (level : Int) (pfx : Option Bytes) (s : Bytes) (ns ms : List VMsg) :
    leaves op [] true level pfx (.mk (some s) [.bndl ns] :: ms) =
      leaves op [] true (level + 1) (below [] pfx (some s)) ns ++ leaves op [] true level pfx ms := by
  simp [leaves, leavesIn, ho, Val.isBndl]

theorem leaves_leaf (level : Int) (pfx : Option Bytes) (s : Bytes) {vs : List Val} (ms : List VMsg) (h0 : vs ≠ [])
    (hb : ∀ v ∈ vs, v.isBndl = false) : leaves op [] true level pfx (.mk (some s) vs :: ms) =
      .mk (below [] pfx (some s)) vs :: leaves op [] true level pfx ms := by
  have e : vs.filter (fun v => !v.isBndl) = vs := List.filter_eq_self.mpr fun v hv => by rw [hb v hv]; rfl
  have h : ∀ (l : Int) (p : Option Bytes) (ws : List Val), (∀ v ∈ ws, v.isBndl = false) → leavesIn op [] true l p ws = [] := by
    intro l p ws
    induction ws with
    | nil => intro _; simp [leavesIn]
    | cons v ws ih =>
      intro h
      rw [Mem.leavesIn_plain (h v (by simp)), ih fun x hx => h x (by simp [hx])]
  simp only [leaves, ho, if_true, e, h _ _ _ hb, h0, and_false, if_false]
  rfl

omit ho in
theorem leaves_append (level : Int) (pfx : Option Bytes) : ∀ (xs ys : List VMsg), leaves op [] true level pfx (xs ++ ys) =
    leaves op [] true level pfx xs ++ leaves op [] true level pfx ys
  | [], ys => by simp [leaves]
  | .mk a vs :: xs, ys => by
    simp only [List.cons_append, leaves, leaves_append level pfx xs ys, List.append_assoc]

theorem Tree.pre {ms : List VMsg} (t : Tree ms) : ∀ (level level' : Int) (p : Bytes),
    leaves op [] true level (some p) ms = (leaves op [] true level' none ms).map (VMsg.pre p) := by
  induction t with
  | nil => intro l l' p; simp [leaves]
  | @leaf s vs ms h1 h2 h3 h4 h5 h6 ih =>
    intro l l' p
    rw [leaves_leaf ho _ _ _ _ h4 h5, leaves_leaf ho _ _ _ _ h4 h5, ih l l' p]
    simp [Libo.below, VMsg.pre]
  | @node s ns ms h1 h2 h3 h4 h5 h6 ih1 ih2 =>
    intro l l' p
    rw [leaves_node ho, leaves_node ho, ih2 l l' p, List.map_append]
    simp only [Libo.below, Option.map_some]
    rw [ih1 (l + 1) 0, ih1 (l' + 1) 0, List.map_map]
    congr 1
    refine List.map_congr_left fun x _ => ?_
    simp [pre_pre]

/-- A tree that is not empty has a leaf, and its address is slash-led. -/
theorem Tree.some_leaf {ms : List VMsg} (t : Tree ms) : ms ≠ [] →
    ∃ b vs, VMsg.mk (some (47 :: b)) vs ∈ leaves op [] true 0 none ms := by
  induction t with
  | nil => intro h; exact absurd rfl h
  | @leaf s vs ms h1 h2 h3 h4 h5 h6 ih =>
    intro _
    obtain ⟨b, rfl⟩ : ∃ b, s = 47 :: b := by
      cases s with
      | nil => simp at h1
      | cons x b => simp at h1; exact ⟨b, by rw [h1]⟩
    exact ⟨b, vs, by rw [leaves_leaf ho _ _ _ _ h4 h5]; simp [Libo.below]⟩
  | @node s ns ms h1 h2 h3 h4 h5 h6 ih1 ih2 =>
    intro _
    obtain ⟨b, rfl⟩ : ∃ b, s = 47 :: b := by
      cases s with
      | nil => simp at h1
      | cons x b => simp at h1; exact ⟨b, by rw [h1]⟩
    obtain ⟨c, vs, hc⟩ := ih1 h4
    refine ⟨b ++ 47 :: c, vs, ?_⟩
    rw [leaves_node ho]
    simp only [Libo.below, List.mem_append]
    left
    rw [h5.pre ho (0 + 1) 0]
    exact List.mem_map.mpr ⟨_, hc, rfl⟩

omit ho in
theorem Tree.filter {ms : List VMsg} (t : Tree ms) (p : VMsg → Bool) : Tree (ms.filter p) := by
  induction t with
  | nil => exact .nil
  | leaf h1 h2 h3 h4 h5 h6 ih =>
    rw [List.filter_cons]
    split
    · exact .leaf h1 h2 (fun y hy => h3 y (List.mem_filter.mp hy).1) h4 h5 ih
    · exact ih
  | node h1 h2 h3 h4 h5 h6 ih1 ih2 =>
    rw [List.filter_cons]
    split
    · exact .node h1 h2 (fun y hy => h3 y (List.mem_filter.mp hy).1) h4 h5 ih2
    · exact ih2

omit ho in
theorem Tree.snoc {ms : List VMsg} (t : Tree ms) {s : Bytes} {vs : List Val} (hs : ∀ y ∈ ms, y.addr ≠ some s) (h : Tree [.mk (some s) vs]) :
    Tree (ms ++ [.mk (some s) vs]) := by
  have key : ∀ {s' : Bytes} {ms' : List VMsg}, (∀ y ∈ ms', y.addr ≠ some s') → s' ≠ s →
      ∀ y ∈ ms' ++ [VMsg.mk (some s) vs], y.addr ≠ some s' := fun h h' y hy => by
    rcases List.mem_append.mp hy with hy | hy
    · exact h y hy
    · rw [List.mem_singleton.mp hy]; exact fun e => h' (by cases e; rfl)
  induction t with
  | nil => exact h
  | @leaf s' _ ms' h1 h2 h3 h4 h5 h6 ih =>
    have hn : s' ≠ s := fun e => hs _ (List.mem_cons_self ..) (by rw [e]; rfl)
    exact .leaf h1 h2 (key h3 hn) h4 h5 (ih fun y hy => hs y (List.mem_cons_of_mem _ hy))
  | @node s' _ ms' h1 h2 h3 h4 h5 h6 ih1 ih2 =>
    have hn : s' ≠ s := fun e => hs _ (List.mem_cons_self ..) (by rw [e]; rfl)
    exact .node h1 h2 (key h3 hn) h4 h5 (ih2 fun y hy => hs y (List.mem_cons_of_mem _ hy))

/-- What a tree has at an address of one part: nothing, a leaf, or a bundle. -/
theorem Tree.at {ms : List VMsg} (t : Tree ms) (a : Bytes) : (∀ y ∈ ms, y.addr ≠ some a) ∨
    (∃ vs, VMsg.mk (some a) vs ∈ leaves op [] true 0 none ms) ∨
    ∃ ns, ns ≠ [] ∧ Tree ns ∧ subOf ms a = ns ∧ (leaves op [] true 0 none ms).Perm
      ((leaves op [] true 0 none ns).map (VMsg.pre a) ++ leaves op [] true 0 none (ms.filter fun x => x.addr != some a)) := by
  induction t with
  | nil => left; simp
  | @leaf s vs ms h1 h2 h3 h4 h5 h6 ih =>
    by_cases e : s = a
    · subst e
      right; left
      exact ⟨vs, by rw [leaves_leaf ho _ _ _ _ h4 h5]; simp [Libo.below]⟩
    · rcases ih with ih | ⟨ws, ih⟩ | ⟨ns, n1, n2, n3, n4⟩
      · left
        intro y hy
        rcases List.mem_cons.mp hy with rfl | hy
        · simpa [VMsg.addr] using e
        · exact ih y hy
      · right; left
        exact ⟨ws, by rw [leaves_leaf ho _ _ _ _ h4 h5]; exact List.mem_cons_of_mem _ ih⟩
      · right; right
        refine ⟨ns, n1, n2, ?_, ?_⟩
        · rw [subOf, List.find?_cons_of_neg (by simpa [VMsg.addr] using e)]; exact n3
        · rw [List.filter_cons, if_pos (by simpa [VMsg.addr] using e), leaves_leaf ho _ _ _ _ h4 h5, leaves_leaf ho _ _ _ _ h4 h5]
          exact (n4.cons _).trans List.perm_middle.symm
  | @node s ns ms h1 h2 h3 h4 h5 h6 ih1 ih2 =>
    by_cases e : s = a
    · subst e
      right; right
      refine ⟨ns, h4, h5, ?_, ?_⟩
      · rw [subOf, List.find?_cons_of_pos (by simp [VMsg.addr])]
      · rw [List.filter_cons, if_neg (by simp [VMsg.addr]), leaves_node ho]
        have : ms.filter (fun x => x.addr != some s) = ms := List.filter_eq_self.mpr fun y hy => by simpa using h3 y hy
        rw [this]
        simp only [Libo.below]
        rw [h5.pre ho (0 + 1) 0]
    · rcases ih2 with ih | ⟨ws, ih⟩ | ⟨ns', n1, n2, n3, n4⟩
      · left
        intro y hy
        rcases List.mem_cons.mp hy with rfl | hy
        · simpa [VMsg.addr] using e
        · exact ih y hy
      · right; left
        exact ⟨ws, by rw [leaves_node ho]; exact List.mem_append.mpr (Or.inr ih)⟩
      · right; right
        refine ⟨ns', n1, n2, ?_, ?_⟩
        · rw [subOf, List.find?_cons_of_neg (by simpa [VMsg.addr] using e)]; exact n3
        · rw [List.filter_cons, if_pos (by simpa [VMsg.addr] using e), leaves_node ho, leaves_node ho]
          refine (n4.append_left _).trans ?_
          rw [← List.append_assoc, ← List.append_assoc]
          exact List.perm_append_comm.append_right _

/-- Exploding a message into a tree adds a leaf, if its address is apart from those that are there. -/
theorem Tree.place {more : Int → Bool} (hm : ∀ l, more l = true) : ∀ (n : Nat) {a : Bytes} {ms : List VMsg} {args : List Val} {level : Int},
    a.length ≤ n → Tree ms → a.head? = some 47 → args ≠ [] → (∀ v ∈ args, v.isBndl = false) →
    (∀ b vs, VMsg.mk (some b) vs ∈ leaves op [] true 0 none ms → Apart a b) →
    Tree (Libo.place more level ms a args) ∧
      (leaves op [] true 0 none (Libo.place more level ms a args)).Perm (leaves op [] true 0 none ms ++ [.mk (some a) args])
  | n, a, ms, args, level, hn, t, h47, h0, hb, hc => by
    rw [Libo.place, if_neg (by simp [hm])]
    by_cases hr : restSeg a = []
    · rw [if_pos hr]
      have hnew : ∀ y ∈ ms, y.addr ≠ some a := by
        rcases t.at ho a with h | ⟨vs, h⟩ | ⟨ns, n1, n2, n3, n4⟩
        · exact h
        · exact absurd rfl (hc _ _ h).1
        · obtain ⟨b, vs, hl⟩ := n2.some_leaf ho n1
          have : VMsg.mk (some (a ++ 47 :: b)) vs ∈ leaves op [] true 0 none ms :=
            n4.mem_iff.mpr (List.mem_append.mpr (Or.inl (List.mem_map.mpr ⟨_, hl, rfl⟩)))
          exact absurd rfl ((hc _ _ this).2.2 b)
      rw [supersede_new (x := .mk (some a) args) hnew]
      have tl : Tree [.mk (some a) args] := .leaf h47 hr (by simp) h0 hb .nil
      refine ⟨t.snoc hnew tl, ?_⟩
      rw [leaves_append, leaves_leaf ho _ _ _ _ h0 hb]
      simp [leaves, Libo.below]
    · rw [if_neg hr]
      have hlt := restSeg_lt hr
      have hra := restSeg_head hr
      obtain ⟨r, hr'⟩ : ∃ r, restSeg a = 47 :: r := by
        cases h : restSeg a with
        | nil => rw [h] at hr; exact absurd rfl hr
        | cons x r => rw [h] at hra; simp at hra; exact ⟨r, by rw [hra]⟩
      have hfr := firstSeg_restSeg a
      have h1 : (firstSeg a).head? = some 47 := by
        match a, h47 with
        | [_], h => exact h
        | _ :: _ :: _, h => exact h
      have h2 : restSeg (firstSeg a) = [] := by
        match a, h47 with
        | [_], h => rfl
        | x :: y :: s, h =>
          simp only [firstSeg, restSeg]
          exact dropWhile_takeWhile _ s
      match n with
      | 0 => omega
      | n + 1 =>
        have hnew : ∀ y ∈ ms.filter (fun x => x.addr != some (firstSeg a)), y.addr ≠ some (firstSeg a) := fun y hy => by
          simpa using (List.mem_filter.mp hy).2
        have fin : ∀ (ns : List VMsg), Tree ns → (∀ b vs, VMsg.mk (some b) vs ∈ leaves op [] true 0 none ns → Apart (restSeg a) b) →
            (leaves op [] true 0 none ms).Perm ((leaves op [] true 0 none ns).map (VMsg.pre (firstSeg a)) ++
              leaves op [] true 0 none (ms.filter fun x => x.addr != some (firstSeg a))) →
            Tree (supersede ms (.mk (some (firstSeg a)) [.bndl (Libo.place more (level + 1) ns (restSeg a) args)])) ∧
            (leaves op [] true 0 none (supersede ms (.mk (some (firstSeg a)) [.bndl (Libo.place more (level + 1) ns (restSeg a) args)]))).Perm
              (leaves op [] true 0 none ms ++ [.mk (some a) args]) := by
          intro ns tn hap hp
          obtain ⟨ih1, ih2⟩ := Tree.place hm n (level := level + 1) (by omega) tn hra h0 hb hap
          have hne : Libo.place more (level + 1) ns (restSeg a) args ≠ [] := fun e => by
            rw [e] at ih2
            have := ih2.length_eq
            simp [leaves] at this
          have tl : Tree [.mk (some (firstSeg a)) [.bndl (Libo.place more (level + 1) ns (restSeg a) args)]] :=
            .node h1 h2 (by simp) hne ih1 .nil
          refine ⟨(t.filter _).snoc hnew tl, ?_⟩
          rw [supersede, leaves_append, leaves_node ho]
          simp only [Libo.below]
          rw [ih1.pre ho (0 + 1) 0]
          simp only [VMsg.addr, leaves, List.append_nil]
          refine ((ih2.map _).append_left _).trans ?_
          rw [List.map_append, ← List.append_assoc]
          have e : [VMsg.mk (some (restSeg a)) args].map (VMsg.pre (firstSeg a)) = [.mk (some a) args] := by
            simp [VMsg.pre, hfr]
          rw [e]
          exact (List.perm_append_comm.trans hp.symm).append_right _
        rcases t.at ho (firstSeg a) with h | ⟨vs, h⟩ | ⟨ns, n1, n2, n3, n4⟩
        · have hs : subOf ms (firstSeg a) = [] := by
            have : ms.find? (fun x => x.addr == some (firstSeg a)) = none := by
              rw [List.find?_eq_none]
              intro x hx hb
              exact h x hx (by simpa using hb)
            rw [subOf, this]
          rw [hs]
          refine fin [] .nil (by simp [leaves]) ?_
          rw [List.filter_eq_self.mpr fun y hy => by simpa using h y hy]
          simp [leaves]
        · refine absurd ?_ ((hc _ _ h).2.1 r)
          rw [← hr', hfr]
        · rw [n3]
          refine fin ns n2 (fun b vs hbv => ?_) n4
          have : VMsg.mk (some (firstSeg a ++ b)) vs ∈ leaves op [] true 0 none ms :=
            n4.mem_iff.mpr (List.mem_append.mpr (Or.inl (List.mem_map.mpr ⟨_, hbv, rfl⟩)))
          obtain ⟨c1, c2, c3⟩ := hc _ _ this
          refine ⟨fun e => c1 ?_, fun r' e => c2 r' ?_, fun r' e => c3 r' ?_⟩
          · rw [← e, hfr]
          · rw [List.append_assoc, ← e, hfr]
          · rw [e, ← List.append_assoc, hfr]

/-- The leaves of an exploded bundle are its messages. -/
theorem placeAll_leaves {more : Int → Bool} (hm : ∀ l, more l = true) : ∀ (vs done ms : List VMsg), Tree ms →
    (leaves op [] true 0 none ms).Perm done →
    (∀ x ∈ vs, ∃ a, x.addr = some a ∧ a.head? = some 47) → (∀ x ∈ vs, x.args ≠ [] ∧ ∀ v ∈ x.args, v.isBndl = false) →
    (∀ x ∈ vs, ∀ y ∈ done, ∀ a b, x.addr = some a → y.addr = some b → Apart a b) →
    vs.Pairwise (fun x y => ∀ a b, x.addr = some a → y.addr = some b → Apart a b) →
    Tree (placeAll more ms vs) ∧ (leaves op [] true 0 none (placeAll more ms vs)).Perm (done ++ vs)
  | [], done, ms, t, hp, _, _, _, _ => by simpa [placeAll] using ⟨t, hp⟩
  | .mk ad args :: vs, done, ms, t, hp, ha, hb, hd, hw => by
    obtain ⟨a, e, h47⟩ := ha _ (List.mem_cons_self ..)
    simp only [VMsg.addr] at e
    subst e
    obtain ⟨h0, hb0⟩ := hb _ (List.mem_cons_self ..)
    obtain ⟨t1, p1⟩ := Tree.place ho hm a.length (level := 0) (Nat.le_refl _) t h47 h0 hb0 (fun b ws hbw =>
      hd _ (List.mem_cons_self ..) _ (hp.mem_iff.mp hbw) a b rfl rfl)
    have p2 := p1.trans (hp.append_right _)
    have hw' := List.pairwise_cons.mp hw
    have ih := placeAll_leaves hm vs (done ++ [.mk (some a) args]) _ t1 p2 (fun x hx => ha x (List.mem_cons_of_mem _ hx))
      (fun x hx => hb x (List.mem_cons_of_mem _ hx)) (fun x hx y hy a' b' e1 e2 => by
        rcases List.mem_append.mp hy with hy | hy
        · exact hd x (List.mem_cons_of_mem _ hx) y hy a' b' e1 e2
        · rw [List.mem_singleton.mp hy] at e2
          obtain ⟨c1, c2, c3⟩ := hw'.1 x hx b' a' e2 e1
          exact ⟨Ne.symm c1, c3, c2⟩) hw'.2
    rw [List.append_assoc] at ih
    exact ih

end
end Libo
