import Verif.Base.Res

/-!
`EXPECT_EQ`, `EXPECT_TRUE` and the like of the unit tests (googletest; no code of the project).
-/

namespace Verif.Replay
open Verif

/-- An expectation: if it does not hold, the replay ends with `oof`, so that it is not `.ok ()`. -/
def expect (b : Bool) : Res Unit := if b then .ok () else .oof

end Verif.Replay
