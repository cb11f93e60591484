import Verif.Model.Jems
import Verif.Model.BVec

/-! # mu_jems writing into a mu_bvec

The usual way to collect the text: the writer passed to `mu_jems_init` (mu_jems.c:62-70) is a function
that calls `mu_bvec_write_byte((mu_bvec_t *)arg, ch)` (mu_bvec.c:110-118).  Such a writer neither
influences the emitter nor (assumption) the strings it reads, so that the calls it gets can be replayed
after the emission.  `m` is the memory the vector lives in, separate from that of the strings. -/

namespace Mu.Jems
open Mu.BVec (BVec writeByte)

/-- The writer called for each of `es` in turn: `mu_bvec_write_byte(v, ch)`, its result ignored. -/
def intoVec (P : Plat) (m : Mem) (v : BVec) : List Emit → C (Mem × BVec)
  | [] => .ok (m, v)
  | e :: es => do
    let (_, m, v) ← writeByte P m v e.ch
    intoVec P m v es

end Mu.Jems
