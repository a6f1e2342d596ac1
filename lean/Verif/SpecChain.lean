import Verif.SpecMem
import Verif.Model.MultiArr

/- Chains of converting constructions.  Nothing here models code: this is a client of the constructors. -/
set_option autoImplicit false

namespace MultiArray.Spec
open MultiArray
variable {T : Type}

/-- Construct an array from `src` with the first storage order (and allocator), then an array from that array with the second, and so on; the result is the last one. -/
def convertChain (dbg : Bool) (dflt : T) : (src : Desc) → (first : StorageOrder × Nat) → (more : List (StorageOrder × Nat)) → Exec T MArr
  | src, first, [] => MArr.mkConvert dbg dflt src first.1 first.2
  | src, first, second :: more => do
    let c ← MArr.mkConvert dbg dflt src first.1 first.2
    convertChain dbg dflt c.ref.desc second more

end MultiArray.Spec
