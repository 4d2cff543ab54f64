import Verif.SHandle
import Verif.Name
/-!
# C104: handles of serialized bundles and messages

The specification is in terms of the blocks: which are new, what they hold, and that the memory is as before after freeing.
-/

namespace Libo.Props.SHP
open Libo Libo.SH

/-- Addresses that were never given out are not allocated. -/
def WF (m : SMem) : Prop := ∀ a, m.brk ≤ a → m.cell a = none

theorem WF.lt {m : SMem} (hw : WF m) {a : Nat} {c : SCell} (hc : m.cell a = some c) : a < m.brk := by
  rcases Nat.lt_or_ge a m.brk with h | h
  · exact h
  · rw [hw a h] at hc; simp at hc

end Libo.Props.SHP

namespace Libo.Props
open Libo Libo.SH SHP

/-- A deep copy: a new handle of the same length with a new block of the same bytes; all blocks stay as they are; freeing the copy
leaves the memory as it was. -/
theorem C104_copy (m : SMem) (hw : WF m) (s b off : Nat) (len : Int) (bs : Bytes) (hs : m.cell s = some (.bndl (some len) (.at b off)))
    (hb : m.cell b = some (.bytes bs)) (h0 : 0 ≤ len) (hl : off + len.toNat ≤ bs.length) :
    ∃ d q m' c, deepCopy m none s = some (d, m') ∧ m.brk ≤ d ∧ m.brk ≤ q ∧ d ≠ q ∧ m'.cell d = some (.bndl (some len) (.at q 0)) ∧
      m'.cell q = some (.bytes c) ∧ (c.length : Int) = len ∧ (∀ i : Nat, (i : Int) < len → c[i]? = bs[off + i]?) ∧
      (∀ a, a < m.brk → m'.cell a = m.cell a) ∧ ∃ m'', bndlDeepFree m' (some d) = some m'' ∧ ∀ a, m''.cell a = m.cell a := by
  refine ⟨m.brk, m.brk + 1, ((new (new m (.bndl none .undef)).2 (.bytes ((bs.drop off).take len.toNat))).2).set m.brk
    (some (.bndl (some len) (.at (m.brk + 1) 0))), (bs.drop off).take len.toNat, ?_, Nat.le_refl _, by omega, by omega, by simp [SMem.set],
    by simp [SMem.set, new], ?_, ?_, ?_, ?_⟩
  · simp [deepCopy, hs, hb, h0, hl, new, SMem.set]
    rfl
  · simp only [List.length_take, List.length_drop]; omega
  · intro i hi
    rw [List.getElem?_take_of_lt (by omega), List.getElem?_drop]
  · intro a ha
    have h1 : a ≠ m.brk := by omega
    have h2 : a ≠ m.brk + 1 := by omega
    simp [SMem.set, new, h1, h2]
  · refine ⟨_, by simp [bndlDeepFree, freePtr, free, SMem.set, new]; rfl, ?_⟩
    intro a
    by_cases h1 : a = m.brk
    · subst h1; simp [hw _ (Nat.le_refl _)]
    · by_cases h2 : a = m.brk + 1
      · subst h2; simp [hw _ (Nat.le_succ _)]
      · simp [h1, h2]

/-- The copy does not need the original: it is the same after the original was freed with its bytes. -/
theorem C104_copy_stays (m : SMem) (hw : WF m) (s b : Nat) (len : Int) (bs : Bytes) (hs : m.cell s = some (.bndl (some len) (.at b 0)))
    (hb : m.cell b = some (.bytes bs)) (h0 : 0 ≤ len) (hl : len.toNat ≤ bs.length) :
    ∃ d q m' m'', deepCopy m none s = some (d, m') ∧ bndlDeepFree m' (some s) = some m'' ∧ m''.cell s = none ∧ m''.cell b = none ∧
      m''.cell d = some (.bndl (some len) (.at q 0)) ∧ m''.cell q = some (.bytes (bs.take len.toNat)) := by
  obtain ⟨d, q, m', c, e, hd, hq, hdq, cd, cq, hc, hi, old, _⟩ := C104_copy m hw s b 0 len bs hs hb h0 (by omega)
  have ls := hw.lt hs
  have lb := hw.lt hb
  have hsb : s ≠ b := by rintro rfl; rw [hs] at hb; simp at hb
  have es : m'.cell s = some (.bndl (some len) (.at b 0)) := by rw [old s ls, hs]
  have eb : m'.cell b = some (.bytes bs) := by rw [old b lb, hb]
  have ec : c = bs.take len.toNat := by
    refine List.ext_getElem? fun i => ?_
    by_cases h : (i : Int) < len
    · rw [hi i h, List.getElem?_take_of_lt (by omega)]; simp
    · rw [List.getElem?_eq_none (by omega), List.getElem?_eq_none (by simp; omega)]
  refine ⟨d, q, m', (m'.set b none).set s none, e, ?_, by simp [SMem.set], ?_, ?_, ?_⟩
  · simp [bndlDeepFree, es, freePtr, free, eb, SMem.set, hsb]
  · simp [SMem.set]
  · have h1 : d ≠ s := by omega
    have h2 : d ≠ b := by omega
    simp [SMem.set, h1, h2, cd]
  · have h1 : q ≠ s := by omega
    have h2 : q ≠ b := by omega
    simp [SMem.set, h1, h2, cq, ec]

/-- A deep copy into a handle that has bytes: the block of these stays allocated after the handle is freed. -/
theorem C104_copy_into_fails (m : SMem) (hw : WF m) (s b off : Nat) (len : Int) (bs : Bytes) (hs : m.cell s = some (.bndl (some len) (.at b off)))
    (hb : m.cell b = some (.bytes bs)) (h0 : 0 ≤ len) (hl : off + len.toNat ≤ bs.length) (d o : Nat) (l : Option Int) (old : Bytes)
    (hd : m.cell d = some (.bndl l (.at o 0))) (ho : m.cell o = some (.bytes old)) :
    ∃ m' m'', deepCopy m (some d) s = some (d, m') ∧ bndlDeepFree m' (some d) = some m'' ∧ m''.cell d = none ∧ m''.cell o = some (.bytes old) := by
  have ld := hw.lt hd
  have lo := hw.lt ho
  have h1 : d ≠ m.brk := by omega
  have h2 : o ≠ m.brk := by omega
  have h3 : o ≠ d := by rintro rfl; rw [hd] at ho; simp at ho
  have h1' : m.brk ≠ d := by omega
  refine ⟨((new m (.bytes ((bs.drop off).take len.toNat))).2).set d (some (.bndl (some len) (.at m.brk 0))),
    ((((new m (.bytes ((bs.drop off).take len.toNat))).2).set d (some (.bndl (some len) (.at m.brk 0)))).set m.brk none).set d none, ?_, ?_, ?_, ?_⟩
  · simp [deepCopy, hs, hb, h0, hl, new, SMem.set, h1, hd]
  · simp [bndlDeepFree, freePtr, free, new, SMem.set, h1, h1']
  · simp [SMem.set]
  · simp [SMem.set, new, h2, h3, ho]

/-- Making an empty bundle reads a pointer that was never written, in every memory. -/
theorem C104_empty_fails (m : SMem) : allocEmpty m = none := by
  simp [allocEmpty, testPtr, new, SMem.set]

/-- The first message of a bundle with more than a header is a new handle on the bytes behind the header, and nothing else changes; freeing
it leaves the memory as it was.  A bundle without messages gives no handle. -/
theorem C104_first (m : SMem) (hw : WF m) (s b off : Nat) (len : Int) (hs : m.cell s = some (.bndl (some len) (.at b off))) :
    (len ≤ 16 → firstMsg m s = some (none, m)) ∧
      (16 < len → ∃ d m', firstMsg m s = some (some d, m') ∧ m.brk ≤ d ∧ m'.cell d = some (.msg (.at b (off + 16)) 0 none none) ∧
        (∀ a, a ≠ d → m'.cell a = m.cell a) ∧ ∃ m'', msgFree m' (some d) = some m'' ∧ ∀ a, m''.cell a = m.cell a) := by
  constructor
  · intro h
    have : ¬ (len > 16) := by omega
    simp [firstMsg, hs, this]
  · intro h
    refine ⟨m.brk, (msgAlloc m).2.set m.brk (some (.msg (.at b (off + 16)) 0 none none)), ?_, Nat.le_refl _, by simp [SMem.set], ?_, ?_⟩
    · simp [firstMsg, hs, h, msgWrap, msgAlloc, new, SMem.set]
      rfl
    · intro a ha; simp [SMem.set, msgAlloc, new, ha]
    · refine ⟨_, by simp [msgFree, freeIf, free, SMem.set]; rfl, ?_⟩
      intro a
      by_cases h1 : a = m.brk
      · subst h1; simp [hw _ (Nat.le_refl _)]
      · simp [h1, msgAlloc, new, SMem.set]

/-- Freeing the first message of a bundle together with its bytes is undefined, as these are inside of the bundle. -/
theorem C104_first_deepFree_fails (m : SMem) (s b off : Nat) (len : Int) (hs : m.cell s = some (.bndl (some len) (.at b off))) (h : 16 < len) :
    ∃ d m', firstMsg m s = some (some d, m') ∧ msgDeepFree m' (some d) = none := by
  refine ⟨m.brk, (msgAlloc m).2.set m.brk (some (.msg (.at b (off + 16)) 0 none none)), ?_, ?_⟩
  · simp [firstMsg, hs, h, msgWrap, msgAlloc, new, SMem.set]
    rfl
  · simp [msgDeepFree, SMem.set, freePtr]

/-- A message with a block of its own: freeing it with its bytes frees just the two. -/
theorem C104_msg_deepFree (m : SMem) (p b n : Nat) (bs : Bytes) (hp : m.cell p = some (.msg (.at b 0) n none none))
    (hb : m.cell b = some (.bytes bs)) : ∃ m', msgDeepFree m (some p) = some m' ∧ ∀ a, m'.cell a = if a = p ∨ a = b then none else m.cell a := by
  have hpb : p ≠ b := by rintro rfl; rw [hp] at hb; simp at hb
  refine ⟨(m.set b none).set p none, ?_, ?_⟩
  · simp [msgDeepFree, hp, freePtr, free, hb, msgFree, freeIf, SMem.set, hpb]
  · intro a
    by_cases h1 : a = p <;> by_cases h2 : a = b <;> simp [SMem.set, h1, h2]

/-- The arrays of offsets and sizes have a place for each argument, in two new blocks, and are freed with the message: of all blocks only
the message is gone then. -/
theorem C104_cache (m : SMem) (hw : WF m) (p n k : Nat) (size : SPtr) (hp : m.cell p = some (.msg size k none none)) :
    ∃ m' o s, msgCache m p n = some m' ∧ m.brk ≤ o ∧ m.brk ≤ s ∧ o ≠ s ∧ m'.cell p = some (.msg size n (some o) (some s)) ∧
      m'.cell o = some (.ints n) ∧ m'.cell s = some (.ints n) ∧ (∀ a, a < m.brk → a ≠ p → m'.cell a = m.cell a) ∧
      ∃ m'', msgFree m' (some p) = some m'' ∧ ∀ a, m''.cell a = if a = p then none else m.cell a := by
  have lp := hw.lt hp
  have h1 : m.brk ≠ p := by omega
  have h2 : m.brk + 1 ≠ p := by omega
  have h3 : p ≠ m.brk := by omega
  have h4 : p ≠ m.brk + 1 := by omega
  refine ⟨((new (new m (.ints n)).2 (.ints n)).2).set p (some (.msg size n (some m.brk) (some (m.brk + 1)))), m.brk, m.brk + 1, ?_, Nat.le_refl _,
    by omega, by omega, by simp [SMem.set], by simp [SMem.set, new, h1], by simp [SMem.set, new, h2], ?_, ?_⟩
  · simp [msgCache, hp, new, SMem.set]
  · intro a ha hap
    have e1 : a ≠ m.brk := by omega
    have e2 : a ≠ m.brk + 1 := by omega
    simp [SMem.set, new, e1, e2, hap]
  · refine ⟨_, by simp [msgFree, freeIf, free, SMem.set, new, h1, h2, h3, h4]; rfl, ?_⟩
    intro a
    by_cases e0 : a = p
    · simp [e0]
    · by_cases e1 : a = m.brk
      · subst e1; simp [h1, hw _ (Nat.le_refl _)]
      · by_cases e2 : a = m.brk + 1
        · subst e2; simp [h2, hw _ (Nat.le_succ _)]
        · simp [e0, e1, e2]

/-- Copying a message that has no arrays: a new handle on the same bytes; freeing both handles in either order leaves all other blocks. -/
theorem C104_msg_copy_partial (m : SMem) (hw : WF m) (p n : Nat) (size : SPtr) (hp : m.cell p = some (.msg size n none none)) :
    ∃ d m', msgCopy m none p = some (d, m') ∧ m.brk ≤ d ∧ m'.cell d = some (.msg size n none none) ∧ (∀ a, a ≠ d → m'.cell a = m.cell a) ∧
      (∃ m'', (msgFree m' (some d)).bind (msgFree · (some p)) = some m'' ∧ ∀ a, m''.cell a = if a = p then none else m.cell a) ∧
      ∃ m'', (msgFree m' (some p)).bind (msgFree · (some d)) = some m'' ∧ ∀ a, m''.cell a = if a = p then none else m.cell a := by
  have lp := hw.lt hp
  have h1 : m.brk ≠ p := by omega
  have h2 : p ≠ m.brk := by omega
  refine ⟨m.brk, (msgAlloc m).2.set m.brk (some (.msg size n none none)), ?_, Nat.le_refl _, by simp [SMem.set], ?_, ?_, ?_⟩
  · simp [msgCopy, msgAlloc, new, SMem.set, h2, hp]
    rfl
  · intro a ha; simp [SMem.set, msgAlloc, new, ha]
  · refine ⟨_, by simp [msgFree, freeIf, free, SMem.set, msgAlloc, new, h1, h2, hp]; rfl, ?_⟩
    intro a
    by_cases e1 : a = m.brk
    · subst e1; simp [h1, hw _ (Nat.le_refl _)]
    · simp [e1]
  · refine ⟨_, by simp [msgFree, freeIf, free, SMem.set, msgAlloc, new, h1, h2, hp]; rfl, ?_⟩
    intro a
    by_cases e1 : a = m.brk
    · subst e1; simp [h1, hw _ (Nat.le_refl _)]
    · simp [e1]

/-- A message that has arrays shares them with its copy: freeing both handles frees them twice. -/
theorem C104_msg_copy_full_fails (m : SMem) (hw : WF m) (p n o s : Nat) (size : SPtr) (hp : m.cell p = some (.msg size n (some o) (some s)))
    (ho : m.cell o = some (.ints n)) (hs : m.cell s = some (.ints n)) :
    ∃ d m', msgCopy m none p = some (d, m') ∧ (msgFree m' (some d)).bind (msgFree · (some p)) = none := by
  have lp := hw.lt hp
  have lo := hw.lt ho
  have ls := hw.lt hs
  have h1 : m.brk ≠ p := by omega
  have h2 : p ≠ m.brk := by omega
  have h3 : o ≠ m.brk := by omega
  have h4 : s ≠ m.brk := by omega
  have h3' : m.brk ≠ o := by omega
  have h4' : m.brk ≠ s := by omega
  have h5 : p ≠ o := by rintro rfl; rw [hp] at ho; simp at ho
  have h6 : p ≠ s := by rintro rfl; rw [hp] at hs; simp at hs
  refine ⟨m.brk, (msgAlloc m).2.set m.brk (some (.msg size n (some o) (some s))), ?_, ?_⟩
  · simp [msgCopy, msgAlloc, new, SMem.set, h2, hp]
    rfl
  · by_cases hos : s = o
    · subst hos
      simp [msgFree, freeIf, free, SMem.set, msgAlloc, new, h4, hs]
    · simp [msgFree, freeIf, free, SMem.set, msgAlloc, new, h1, h2, h3, h4, h3', h4', h5, h6, hos, ho, hs, hp]

/-- Two bundles, and a message with arrays: the hypotheses of the theorems above. -/
def shDemo : SMem where
  cell a := [SCell.bndl (some 4) (.at 1 0), .bytes (n! "abcd"), .bndl (some 2) (.at 3 0), .bytes (n! "xy"), .msg (.at 5 0) 0 none none,
    .bytes (n! "msg"), .msg .null 2 (some 7) (some 8), .ints 2, .ints 2, .bndl (some 20) (.at 10 0), .bytes (List.replicate 20 0)][a]?
  brk := 11

example : WF shDemo ∧ shDemo.cell 0 = some (.bndl (some 4) (.at 1 0)) ∧ shDemo.cell 1 = some (.bytes (n! "abcd")) ∧
    shDemo.cell 2 = some (.bndl (some 2) (.at 3 0)) ∧ shDemo.cell 3 = some (.bytes (n! "xy")) ∧
    shDemo.cell 4 = some (.msg (.at 5 0) 0 none none) ∧ shDemo.cell 6 = some (.msg .null 2 (some 7) (some 8)) ∧
    shDemo.cell 9 = some (.bndl (some 20) (.at 10 0)) :=
  ⟨fun a ha => List.getElem?_eq_none (by simpa [shDemo] using ha), rfl, rfl, rfl, rfl, rfl, rfl, rfl⟩

/-- The copy of the first bundle, and what it holds. -/
example : (deepCopy shDemo none 0).map (fun r => (r.1, r.2.cell 11, r.2.cell 12)) =
    some (11, some (.bndl (some 4) (.at 12 0)), some (.bytes (n! "abcd"))) := by decide +kernel

end Libo.Props
