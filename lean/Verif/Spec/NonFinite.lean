import Verif.Model.SimplexGeometry
/-!
# Specification: finite numbers
-/

namespace Verif.NonFinite
open Verif Verif.SimplexGeometry

/-- The number is finite: a real number, not infinite and not undefined. -/
def Finite (a : Num) : Prop := ∃ x, a = .fin x

end Verif.NonFinite
