import Verif.MemAtom
import Verif.Props.Make
/-!
# Property C96 for atoms that are allocated with a value
-/

namespace Libo.Props
open Libo Libo.Mem

/-- **C96 (atoms).**  A new atom holds the value; it owns new blocks and those the caller gave away, and all other memory is as it was. -/
theorem C96_atom {m : Memory} (wf : WF m) {g : Given} {v : Val} {T : List Nat} (hg : GivesVal m g v T) :
    ∃ a S m', atomWith g m = some (a, m') ∧ m.cell a = none ∧ AtomAt m' a v S ∧ Own T m S m' := by
  obtain ⟨x, w, m2, r1, r⟩ := ready_new wf hg
  refine ⟨m.brk, m.brk :: w.foot, m2, ?_, r.fresh, ⟨x.prev, none, x.tag, x.alloc, w, ⟨?_, r.lay, trivial⟩, by simp [footAs], r.nodup, r.val⟩,
    r.own.congr (fun _ => Iff.rfl) (by simp)⟩
  · rw [atomWith, seq_run (show atomAlloc m = some (m.brk, m.grow (.atom blank)) from rfl), seq_run r1]
    rfl
  · rw [r.cell, ← r.word, ← show x.next = hdA none [] from r.next]

/-- Freeing it frees all that and nothing else: the memory is as before, without the blocks that the caller gave away. -/
theorem C96_atom_free {m : Memory} (wf : WF m) {g : Given} {v : Val} {T : List Nat} (hg : GivesVal m g v T) :
    ∃ a m' m'', atomWith g m = some (a, m') ∧ Op.exec (.atomFree a) m' = some ([], m'') ∧ (∀ x ∈ T, m''.cell x = none) ∧
      ∀ x, x ∉ T → m''.cell x = m.cell x := by
  obtain ⟨a, S, m', r, -, h, o⟩ := C96_atom wf hg
  obtain ⟨m'', f, f1, f2⟩ := C51_atom o.wf h
  refine ⟨a, m', m'', r, f, fun x hx => ?_, fun x hx => ?_⟩
  · by_cases hS : x ∈ S
    · exact f1 x hS
    · rw [f2 x hS]; exact o.clean x hS (.inl hx)
  · by_cases hS : x ∈ S
    · rw [f1 x hS]
      rcases o.new x hS with h | h
      · exact absurd h hx
      · exact (wf x h).symm
    · rw [f2 x hS]
      by_cases hb : x < m.brk
      · exact o.same x hb hx
      · rw [o.clean x hS (.inr (by omega))]; exact (wf x (by omega)).symm

/-! A string. -/
example : ∃ a S m', atomWith (.str [104, 105]) memEx = some (a, m') ∧ memEx.cell a = none ∧ AtomAt m' a (.str [104, 105]) S ∧ Own [] memEx S m' :=
  C96_atom wfEx (.str _ (by simp))

end Libo.Props
