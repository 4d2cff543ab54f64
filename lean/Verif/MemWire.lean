import Verif.MemFlat
import Verif.MemExplode
/-!
# Flattening and exploding bundles of the wire format (`osc_bundle_s_flatten`, `osc_bundle_s_explode`)

Both read the bytes into a bundle in memory, work on that, write the result and free the bundles.  Simplifications: the structures
`t_osc_bndl_s` (a length and a pointer) are not blocks, and a block is as long as its bundle; `*dest` is NULL.
-/

namespace Libo.Mem
open Libo

/-- `osc_bundle_u_free` (`osc_bundle_u.c` lines 53-65). -/
def freeU (b : Nat) : M Unit := fuel >>= fun f => bndlFree f b

/-- `osc_bundle_u_serialize` (`osc_bundle_u.c` lines 605-615): a new block with the bytes. -/
def serializeU (b : Nat) : M Nat := fuel >>= fun f =>
  (fun m => (readBndl m f b).map fun r => (r, m) : M (List UMsg)) >>= fun ms => ofOpt (serialize ms) >>= fun bytes => new (.buf bytes)

/-- `osc_bundle_s_flatten` (`osc_bundle_s.c` lines 541-562) of the bundle in the block `src`. -/
def flattenS (o : Flat) (src : Nat) : M Nat := bufAt src >>= fun bytes => deserInto bytes >>= fun bu => flatten o none bu >>= fun d =>
  serializeU d >>= fun r => freeU bu >>= fun _ => freeU d >>= fun _ => pure r

/-- `osc_bundle_s_explode` (`osc_bundle_s.c` lines 564-591) of the bundle in the block `src`. -/
def explodeS (maxlevel : Int) (sep : UInt8) (f : Nat) (src : Nat) : M Nat := bufAt src >>= fun bytes => deserInto bytes >>= fun bu =>
  explode maxlevel sep f none bu >>= fun d => serializeU d >>= fun r => freeU bu >>= fun _ => freeU d >>= fun _ => pure r

end Libo.Mem
