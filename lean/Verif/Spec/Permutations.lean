import Mathlib.Logic.Equiv.Defs
import Mathlib.Data.List.OfFn
import Mathlib.GroupTheory.Perm.Sign
/-!
# Specification of permutations: bijections of `{0, .., n-1}` and their one-line notation
-/

namespace Verif.Spec

/-- One-line notation of a bijection `e` of `{0, .., n-1}`: the list `e 0, e 1, ..., e (n-1)`. -/
def oneLine {n : Nat} (e : Equiv.Perm (Fin n)) : List Nat := List.ofFn (fun i => (e i : Nat))

end Verif.Spec
