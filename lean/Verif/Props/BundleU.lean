import Verif.BundleULemmas
/-!
# Property C21: editing the messages of a bundle behaves like editing a list

The specification works on a plain `List` of messages.
-/

namespace Libo.Props
open Libo Libo.Heap Libo.BU

variable {β : Type}

/-- Overwrite the first message with the address of `x`, or append `x` when there is none. -/
def replaceOrAppend (a : Bytes) (x : Msg β) : List (Msg β) → List (Msg β)
  | [] => [x]
  | m :: ms => if m.address = some a then x :: ms else m :: replaceOrAppend a x ms

/-- The messages that do not have this address. -/
def others (a : Bytes) (xs : List (Msg β)) : List (Msg β) := xs.filter fun m => m.address ≠ some a

/-- What each operation does to a plain list of messages. -/
def msgStep (xs : List (Msg β)) : BU.Op β → List (Msg β)
  | .add x => xs ++ [x]
  | .addWithoutDups x => match x.address with | some a => others a xs ++ [x] | none => xs ++ [x]
  | .replace x => match x.address with | some a => replaceOrAppend a x xs | none => xs ++ [x]
  | .removeMessage a => others a xs
  | .clear => []

def msgRun (xs : List (Msg β)) : List (BU.Op β) → List (Msg β)
  | [] => xs
  | o :: os => msgRun (msgStep xs o) os

/-- Everything observable about the bundle agrees with `xs`: the count, the messages met walking forward from the head and
backward from the last one, and the memory: the allocated messages are exactly those of the bundle. -/
structure ShowsMsgs (b : BU β) (xs : List (Msg β)) : Prop where
  count : b.count = xs.length
  walks : ∃ as : List Nat, BU.iterate b = some (as.zip xs) ∧
    walkPrev b.heap b.fresh as.getLast? = some (as.zip xs).reverse ∧
    as.length = xs.length ∧ as.Nodup ∧ ∀ a, (b.heap a).isSome ↔ a ∈ as

/-- The full claim: every history. -/
def C21Full (β : Type) : Prop :=
  ∀ os : List (BU.Op β), ∃ b, BU.run BU.new os = some b ∧ ShowsMsgs b (msgRun [] os)

/-- The restriction of the partial theorem: `replaceMessage` (with an addressed message) and `removeMessage` are not used on
a bundle holding a message whose address was never set. -/
def Addressed (xs : List (Msg β)) : BU.Op β → Prop
  | .replace x => x.address = none ∨ ∀ m ∈ xs, m.address ≠ none
  | .removeMessage _ => ∀ m ∈ xs, m.address ≠ none
  | _ => True

def AddressedRun (xs : List (Msg β)) : List (BU.Op β) → Prop
  | [] => True
  | o :: os => Addressed xs o ∧ AddressedRun (msgStep xs o) os

theorem zip_addrs_vals {α : Type} (l : List (Nat × α)) : (addrs l).zip (vals l) = l := by
  induction l with
  | nil => rfl
  | cons c l ih => simp [ih]

theorem lst?_getLast? {α : Type} (l : List (Nat × α)) : lst? none l = (addrs l).getLast? := by
  rcases List.eq_nil_or_concat l with rfl | ⟨l', c, rfl⟩
  · rfl
  · simp [lst?_snoc]

theorem showsMsgs_of_inv {b : BU β} {l} (i : BU.Inv b l) : ShowsMsgs b (vals l) := by
  refine ⟨by simp [i.count], addrs l, ?_, ?_, by simp, i.core.nd, ?_⟩
  · rw [zip_addrs_vals]; unfold BU.iterate; rw [i.core.head, walkNext_seg i.core.seg i.fuel]
  · rw [zip_addrs_vals, ← lst?_getLast?, walkPrev_seg i.core.seg i.fuel]
  · intro a
    constructor
    · intro h
      refine Classical.byContradiction fun hn => ?_
      rw [i.dom.free a (by simpa using hn)] at h; simp at h
    · intro h
      obtain ⟨n, e⟩ := seg_alloc i.core.seg h
      simp [e]

theorem newMsg_core {b : BU β} {l} (i : BU.Inv b l) (x : Msg β) :
    BU.Core (newMsg b x).1 l ∧ BU.Dom (newMsg b x).1 l [(newMsg b x).2] ∧ (newMsg b x).2 ∉ addrs l ∧
      (newMsg b x).1.heap (newMsg b x).2 = some ⟨x, none, none⟩ := by
  have hn : b.fresh ∉ addrs l := fun h => by have := i.dom.lt b.fresh (by simp [h]); omega
  refine ⟨⟨?_, i.core.nd, i.core.head, i.core.tail⟩, ⟨?_, ?_⟩, hn, upd_same _ _ _⟩
  · exact seg_frame (fun c hc => upd_ne _ _ (by rintro rfl; exact hn hc)) i.core.seg
  · intro c hc
    show c < b.fresh + 1
    rcases List.mem_append.mp hc with h | h
    · have := i.dom.lt c (by simp [h]); omega
    · simp [newMsg] at h; omega
  · intro c hc
    rw [List.mem_append, not_or] at hc
    show upd _ _ _ c = none
    have hne : c ≠ b.fresh := fun h => hc.2 (by simp [newMsg, h])
    rw [upd_ne _ _ hne]
    exact i.dom.free c (by simpa using hc.1)

/-- Linking in the one allocated message that is not on the list yet. -/
theorem link_inv {b : BU β} {l} {a : Nat} {n : Node (Msg β)} (c : BU.Core b l) (d : BU.Dom b l [a]) (ha : a ∉ addrs l)
    (e : b.heap a = some n) (hc : b.count = l.length) :
    ∃ b', link b a = some b' ∧ BU.Inv b' (l ++ [(a, n.data)]) := by
  obtain ⟨b', e', c', fr, ct, f⟩ := link_core c e ha
  have hadd : addrs (l ++ [(a, n.data)]) ++ [] = addrs l ++ [a] := by simp
  refine ⟨b', e', c', ⟨?_, ?_⟩, by rw [ct, hc]; simp⟩
  · intro x hx; rw [hadd] at hx; rw [fr]; exact d.lt x hx
  · intro x hx; rw [hadd] at hx; exact f.none (d.free x hx)

theorem vals_replaceFirst (a : Bytes) (x : Msg β) (l : List (Nat × Msg β)) (h : ∃ m ∈ vals l, m.address = some a) :
    vals (replaceFirst a x l) = replaceOrAppend a x (vals l) := by
  induction l with
  | nil => simp at h
  | cons c l ih =>
    by_cases hc : c.2.address = some a
    · simp [replaceFirst, replaceOrAppend, hc]
    · have : ∃ m ∈ vals l, m.address = some a := by
        obtain ⟨m, hm, e⟩ := h
        simp only [vals_cons, List.mem_cons] at hm
        rcases hm with rfl | hm
        · exact absurd e hc
        · exact ⟨m, hm, e⟩
      simp [replaceFirst, replaceOrAppend, hc, ih this]

theorem replaceOrAppend_none (a : Bytes) (x : Msg β) (xs : List (Msg β)) (h : ∀ m ∈ xs, m.address ≠ some a) :
    replaceOrAppend a x xs = xs ++ [x] := by
  induction xs with
  | nil => rfl
  | cons m ms ih => simp [replaceOrAppend, h m (by simp), ih fun m hm => h m (by simp [hm])]

theorem vals_filter (a : Bytes) (l : List (Nat × Msg β)) :
    vals (l.filter fun c => c.2.address ≠ some a) = others a (vals l) := by
  simp only [vals, others, List.filter_map]
  rfl

theorem length_filter_split {γ : Type} (p : γ → Bool) (l : List γ) :
    (l.filter p).length + (l.filter fun x => !p x).length = l.length := by
  induction l with
  | nil => rfl
  | cons x l ih => cases h : p x <;> simp [h] <;> omega

theorem count_filter (a : Bytes) (l : List (Nat × Msg β)) :
    ((l.length : Int) - (l.filter fun c => c.2.address = some a).length) = (l.filter fun c => c.2.address ≠ some a).length := by
  have := length_filter_split (fun c : Nat × Msg β => decide (c.2.address = some a)) l
  have e : (l.filter fun c => c.2.address ≠ some a) = l.filter fun x => !(decide (x.2.address = some a)) := by
    congr 1; funext c; simp
  rw [e]
  omega

theorem msgStep_inv {b : BU β} {l} (i : BU.Inv b l) (o : BU.Op β) (ok : Addressed (vals l) o) :
    ∃ b' l', BU.step b o = some b' ∧ BU.Inv b' l' ∧ vals l' = msgStep (vals l) o := by
  cases o with
  | add x =>
    obtain ⟨c, d, ha, e⟩ := newMsg_core i x
    obtain ⟨b', e', i'⟩ := link_inv c d ha e i.count
    exact ⟨b', _, e', i', by simp [msgStep]⟩
  | addWithoutDups x =>
    obtain ⟨c, d, ha, e⟩ := newMsg_core i x
    simp only [BU.step, addMsgWithoutDups, e, BU.bnd]
    cases hx : x.address with
    | none =>
      obtain ⟨b', e', i'⟩ := link_inv c d ha e i.count
      exact ⟨b', _, e', i', by simp [msgStep, hx]⟩
    | some a =>
      simp only
      obtain ⟨b1, e1, c1, d1, fr1, ct1, sm1⟩ := removeLoop_core true a ((newMsg b x).1.fresh + 1) (l1 := []) (l2 := l) c d
        (by intro y hy; simp at hy; subst hy; exact ha) (by have := i.fuel; simp [newMsg]; omega) (Or.inl rfl)
      have hh : (newMsg b x).1.head = fst? l none := c.head
      rw [hh, e1, BU.bnd]
      simp only [List.nil_append] at c1 d1
      have ha1 : (newMsg b x).2 ∉ addrs (l.filter fun c => c.2.address ≠ some a) := by
        intro h
        apply ha
        simp only [addrs, List.mem_map] at h ⊢
        obtain ⟨y, hy, h⟩ := h
        exact ⟨y, (List.mem_filter.mp hy).1, h⟩
      obtain ⟨b', e', i'⟩ := link_inv c1 d1 ha1 ((sm1 _ (by simp)).trans e) (by
        rw [ct1]
        show b.count - _ = _
        rw [i.count, count_filter])
      refine ⟨b', _, e', i', ?_⟩
      rw [vals_append, vals_filter]
      simp [msgStep, hx]
  | replace x =>
    obtain ⟨c, d, ha, e⟩ := newMsg_core i x
    simp only [BU.step, replaceMessage, e, BU.bnd]
    cases hx : x.address with
    | none =>
      obtain ⟨b', e', i'⟩ := link_inv c d ha e i.count
      exact ⟨b', _, e', i', by simp [msgStep, hx]⟩
    | some a =>
      simp only
      have hnn : ∀ m ∈ vals l, m.address ≠ none := by
        rcases ok with h | h
        · rw [hx] at h; simp at h
        · exact h
      have hh : (newMsg b x).1.head = fst? l none := c.head
      rw [hh]
      rcases replaceLoop_core a ((newMsg b x).1.fresh + 1) (l1 := []) (l2 := l) c d ha e
        (by have := i.fuel; simp [newMsg]; omega) hnn with ⟨h1, b', e', c', d', ct'⟩ | ⟨h1, e'⟩
      · rw [e', BU.bnd, if_pos rfl]
        refine ⟨b', _, rfl, ⟨c', d', ?_⟩, ?_⟩
        · rw [ct']
          show b.count = _
          rw [i.count, List.nil_append, ← length_addrs, ← length_addrs (replaceFirst ..), addrs_replaceFirst]
        · rw [List.nil_append, vals_replaceFirst a x l h1]; simp [msgStep, hx]
      · rw [e', BU.bnd, if_neg (by simp)]
        obtain ⟨b', e'', i'⟩ := link_inv c d ha e i.count
        refine ⟨b', _, e'', i', ?_⟩
        simp [msgStep, hx, replaceOrAppend_none a x _ h1]
  | removeMessage a =>
    obtain ⟨b1, e1, c1, d1, fr1, ct1, sm1⟩ := removeLoop_core false a (b.fresh + 1) (l1 := []) (l2 := l) i.core i.dom
      (by simp) (by have := i.fuel; omega) (Or.inr ok)
    refine ⟨b1, _, ?_, ⟨c1, d1, ?_⟩, ?_⟩
    · show removeLoop _ _ _ _ _ = _
      rw [i.core.head, e1]
    · rw [ct1, i.count, count_filter]; rfl
    · rw [List.nil_append, vals_filter]; rfl
  | clear =>
    obtain ⟨b1, e1, h1⟩ := clearLoop_core (b.fresh + 1) i.core.seg i.core.nd (fun a ha => i.dom.free a (by simpa using ha))
      (by have := i.fuel; omega)
    refine ⟨⟨b1.heap, b1.fresh, none, none, 0⟩, [], ?_, ⟨⟨trivial, by simp, rfl, Or.inl rfl⟩, ⟨by simp, fun a _ => h1 a⟩, rfl⟩, rfl⟩
    show BU.clear b = _
    unfold BU.clear
    rw [i.core.head, e1, BU.bnd]

theorem msgRun_inv (os : List (BU.Op β)) {b : BU β} {l} (i : BU.Inv b l) (ok : AddressedRun (vals l) os) :
    ∃ b' l', BU.run b os = some b' ∧ BU.Inv b' l' ∧ vals l' = msgRun (vals l) os := by
  induction os generalizing b l with
  | nil => exact ⟨b, l, rfl, i, rfl⟩
  | cons o os ih =>
    obtain ⟨b1, l1, e1, i1, v1⟩ := msgStep_inv i o ok.1
    obtain ⟨b2, l2, e2, i2, v2⟩ := ih i1 (v1 ▸ ok.2)
    refine ⟨b2, l2, ?_, i2, by rw [v2, v1]; rfl⟩
    show (BU.step b o).bind _ = _
    rw [e1]; exact e2

/-- **C21 (partial).**  After any history in which `replaceMessage` and `removeMessage` are not used on a bundle holding a
message without address, the bundle shows exactly the list, and nothing dangled or leaked on the way.  Missing: those two on
such bundles, where the claim is false (`C21_full_fails`). -/
theorem C21_edits_partial (os : List (BU.Op β)) (ok : AddressedRun [] os) :
    ∃ b, BU.run BU.new os = some b ∧ ShowsMsgs b (msgRun [] os) := by
  obtain ⟨b, l, e, i, v⟩ := msgRun_inv os (BU.inv_new (β := β)) ok
  exact ⟨b, e, v ▸ showsMsgs_of_inv i⟩

/-- The messages an operation brings in have an address. -/
def HasAddress : BU.Op β → Prop
  | .add x => x.address ≠ none
  | .addWithoutDups x => x.address ≠ none
  | .replace x => x.address ≠ none
  | _ => True

/-- **C21 (addressed messages).**  When every message added has an address, no restriction on the history is needed. -/
theorem C21_addressed (os : List (BU.Op β)) (h : ∀ o ∈ os, HasAddress o) :
    ∃ b, BU.run BU.new os = some b ∧ ShowsMsgs b (msgRun [] os) := by
  refine C21_edits_partial os ?_
  have : ∀ xs : List (Msg β), (∀ m ∈ xs, m.address ≠ none) → AddressedRun xs os := by
    induction os with
    | nil => intro xs _; trivial
    | cons o os ih =>
      intro xs hx
      have ho := h o (by simp)
      refine ⟨?_, ih (fun o' h' => h o' (by simp [h'])) _ ?_⟩
      · cases o <;> first | trivial | exact hx | exact Or.inr hx
      · have hrep : ∀ a x (ys : List (Msg β)), x.address ≠ none → (∀ m ∈ ys, m.address ≠ none) →
            ∀ m ∈ replaceOrAppend a x ys, m.address ≠ none := by
          intro a x ys h1
          induction ys with
          | nil => intro _ m hm; simp [replaceOrAppend] at hm; subst hm; exact h1
          | cons y ys ih2 =>
            intro h2 m hm
            unfold replaceOrAppend at hm
            split at hm
            · simp at hm
              rcases hm with rfl | hm
              · exact h1
              · exact h2 m (by simp [hm])
            · simp at hm
              rcases hm with rfl | hm
              · exact h2 _ (by simp)
              · exact ih2 (fun m hm => h2 m (by simp [hm])) m hm
        intro m hm
        cases o with
        | add x =>
          simp [msgStep] at hm
          rcases hm with hm | rfl
          · exact hx m hm
          · exact ho
        | addWithoutDups x =>
          simp only [msgStep] at hm
          split at hm <;> simp [others] at hm
          · rcases hm with hm | rfl
            · exact hx m hm.1
            · exact ho
          · rcases hm with hm | rfl
            · exact hx m hm
            · exact ho
        | replace x =>
          simp only [msgStep] at hm
          split at hm
          · exact hrep _ _ _ ho hx m hm
          · simp at hm
            rcases hm with hm | rfl
            · exact hx m hm
            · exact ho
        | removeMessage a => exact hx m (List.mem_filter.mp hm).1
        | clear => simp [msgStep] at hm
  exact this [] (by simp)

/-- **C21 (no duplicates).**  After adding an addressed message without duplicates it is the only one with its address, and
the messages with other addresses are as before. -/
theorem C21_no_dups (os : List (BU.Op β)) (ok : AddressedRun [] os) (x : Msg β) (a : Bytes) (hx : x.address = some a) :
    ∃ b xs, BU.run BU.new (os ++ [.addWithoutDups x]) = some b ∧ ShowsMsgs b xs ∧
      (xs.filter fun m => m.address = some a).length = 1 ∧ others a xs = others a (msgRun [] os) := by
  have happ : ∀ (os : List (BU.Op β)) xs o, msgRun xs (os ++ [o]) = msgStep (msgRun xs os) o := by
    intro os
    induction os with
    | nil => intro xs o; rfl
    | cons p os ih => intro xs o; exact ih _ _
  have hok : ∀ (os : List (BU.Op β)) xs, AddressedRun xs os → AddressedRun xs (os ++ [.addWithoutDups x]) := by
    intro os
    induction os with
    | nil => intro xs _; exact ⟨trivial, trivial⟩
    | cons p os ih => intro xs h; exact ⟨h.1, ih _ h.2⟩
  obtain ⟨b, e, s⟩ := C21_edits_partial _ (hok os [] ok)
  refine ⟨b, _, e, s, ?_, ?_⟩
  · rw [happ]
    simp [msgStep, hx, others, List.filter_filter]
  · rw [happ]
    simp [msgStep, hx, others, List.filter_filter]

/-- **C21 fails in full**: `removeMessage` hands the NULL address of a message that has none to `strcmp`. -/
theorem C21_full_fails : ¬ C21Full Unit := by
  intro h
  obtain ⟨b, e, -⟩ := h [.add ⟨none, ()⟩, .removeMessage [47, 97]]
  have : (BU.run BU.new [.add ⟨none, ()⟩, .removeMessage [47, 97]] : Option (BU Unit)).isNone = true := by decide
  rw [e] at this
  simp at this

/-- `removeMsg` called on its own leaves the count as it was: a bundle of one message still claims one when it is empty. -/
theorem C21_removeMsg_count : ∃ b b' : BU Unit, BU.run BU.new [.add ⟨some [47, 97], ()⟩] = some b ∧ BU.removeMsg b 0 = some b' ∧
    BU.iterate b' = some [] ∧ b'.count = 1 := by
  exact ⟨_, _, rfl, rfl, rfl, rfl⟩

/-! A history with every operation that meets the hypotheses, including a message without address. -/

def exMsgOps : List (BU.Op Nat) :=
  [.add ⟨some [47, 97], 1⟩, .addWithoutDups ⟨some [47, 97], 2⟩, .add ⟨some [47, 98], 3⟩, .add ⟨some [47, 97], 4⟩,
   .replace ⟨some [47, 97], 5⟩, .replace ⟨some [47, 99], 6⟩, .removeMessage [47, 98], .add ⟨none, 7⟩,
   .addWithoutDups ⟨some [47, 97], 8⟩]

example : (msgRun [] exMsgOps).map (fun m => (m.address, m.args)) = [(some [47, 99], 6), (none, 7), (some [47, 97], 8)] := by
  decide
example : AddressedRun [] exMsgOps := by
  simp [AddressedRun, exMsgOps, Addressed, msgStep, others, replaceOrAppend]
example : ∃ b, BU.run BU.new exMsgOps = some b ∧ ShowsMsgs b (msgRun [] exMsgOps) :=
  C21_edits_partial _ (by simp [AddressedRun, exMsgOps, Addressed, msgStep, others, replaceOrAppend])

end Libo.Props
