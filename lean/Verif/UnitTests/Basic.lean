import Verif.C.Mem

/-! # The project's own unit tests, run on the model

These files transcribe the assertions of /repo/test/test_mu_*/*.c.  They are tests, not proofs of any property: they
check that the model computes what the authors recorded for the real code.  The platform is the one the tests are
compiled on (32 bit `int`, 64 bit `size_t`). -/

namespace Mu.UnitTests

/-- `TEST_ASSERT_TRUE(b)`: a failed assertion ends the test with a fault. -/
def assert (b : Bool) : C Unit := if b then .ok () else .error .null

/-- `TEST_ASSERT_EQUAL_…(x, y)`. -/
def assertEq {α : Type} [DecidableEq α] (x y : α) : C Unit := assert (x == y)

/-- The platform of the unit tests. -/
abbrev host : Plat := Plat.lp64

end Mu.UnitTests
