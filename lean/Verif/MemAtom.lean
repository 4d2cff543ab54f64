import Verif.MemMake
/-!
# Atoms allocated with a value (`osc_atom_u.c` lines 1494-1546)
-/

namespace Libo.Mem
open Libo

/-- `osc_atom_u_allocWithString`, `…Double`, `…Float`, `…Int32`, `…Timetag`, `…Bndl` (`osc_atom_u.c` lines 1494-1546); allocation succeeds. -/
def atomWith (g : Given) : M Nat := do
  let a ← atomAlloc
  give a g
  pure a

end Libo.Mem
