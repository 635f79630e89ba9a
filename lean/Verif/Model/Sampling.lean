import Mathlib.Algebra.Order.Field.Basic
import Mathlib.Analysis.SpecialFunctions.Sqrt
import Verif.Py
/-!
# Model of `probability_theory/uniform_sampling.py`

The random number generator is a parameter: the list of the results of its successive calls. A sampler consumes the list from the front and
returns its result and the unused rest; `none` means that the list was used up before the sampler returned (the loops of rejection sampling
have no bound). Floating point numbers are replaced by elements of an ordered field.
-/

namespace Verif.Sampling
open Verif

section Field
variable {K : Type} [Field K] [LinearOrder K]

/-- `closed_unit_interval_sample` (6-16): results of `np.random.rand()`. -/
def closedUnitIntervalSample : List K → Option (K × List K)
  | [] => none
  | x :: xs => if x > 7 / 8 then closedUnitIntervalSample xs else some (x / (7 / 8), xs)

/-- `open_unit_interval_sample` (19-31). -/
def openUnitIntervalSample : List K → Option (K × List K)
  | [] => none
  | x :: xs => if x ≤ 1 / 8 then openUnitIntervalSample xs else some ((x - 1 / 8) / (7 / 8), xs)

/-- `left_closed_interval_sample` (34-40). -/
def leftClosedIntervalSample : List K → Option (K × List K)
  | [] => none
  | x :: xs => some (x, xs)

/-- `right_closed_interval_sample` (43-53). -/
def rightClosedIntervalSample : List K → Option (K × List K)
  | [] => none
  | x :: xs => some (x * -1 + 1, xs)

/-- The loops of `closed_unit_interval_sampling` (66-76), `open_unit_interval_sampling` (79-89) and `right_closed_unit_interval_sampling`
(102-112): one sample after the other. -/
def sampling (sample : List K → Option (K × List K)) : Nat → List K → Option (List K × List K)
  | 0, rs => some ([], rs)
  | n + 1, rs =>
    match sample rs with
    | none => none
    | some (x, rs) =>
      match sampling sample n rs with
      | none => none
      | some (xs, rs) => some (x :: xs, rs)

/-- `unit_interval_sampling` (56-63) and `left_closed_unit_interval_sampling` (92-99): `np.random.rand(num_points)`. -/
def unitIntervalSampling (numPoints : Nat) (rs : List K) : Option (List K × List K) :=
  if numPoints ≤ rs.length then some (rs.take numPoints, rs.drop numPoints) else none

/-- `np.reshape(points, (num_points, n))`. -/
def chunks (n : Nat) : Nat → List K → List (List K)
  | 0, _ => []
  | k + 1, xs => xs.take n :: chunks n k (xs.drop n)

/-- `ncube_sampling` (154-163) and `unit_square_sampling` (115-123, `n = 2`); `rs` is the result of `np.random.rand(n * num_points)`. -/
def ncubeSampling (n numPoints : Nat) (rs : List K) : List (List K) := chunks n numPoints rs

/-- `np.dot(sample, sample)`. -/
def dotSelf (x : List K) : K := (x.map (fun a => a * a)).sum

/-- `nsphere_sampling` (166-182) and `unit_disc_sampling` (126-141, `n = 2`): the results of the successive calls of `np.random.rand(n)`. -/
def nsphereSampling : Nat → List (List K) → Option (List (List K) × List (List K))
  | 0, rs => some ([], rs)
  | _ + 1, [] => none
  | k + 1, r :: rs =>
    let sample := r.map (fun x => x * 2 - 1)
    if ¬dotSelf sample > 1 then
      match nsphereSampling k rs with
      | none => none
      | some (ps, rs) => some (sample :: ps, rs)
    else nsphereSampling (k + 1) rs

/-- The inner loop of `nsimplex_sampling` (212-214): the results of the successive calls of `ncube_sampling(n, 1)[0]`. -/
def simplexSample : List (List K) → Option (List K × List (List K))
  | [] => none
  | r :: rs => if r.sum > 1 then simplexSample rs else some (r, rs)

/-- `nsimplex_sampling` (200-215). -/
def nsimplexSampling : Nat → List (List K) → Option (List (List K) × List (List K))
  | 0, rs => some ([], rs)
  | k + 1, rs =>
    match simplexSample rs with
    | none => none
    | some (p, rs) =>
      match nsimplexSampling k rs with
      | none => none
      | some (ps, rs) => some (p :: ps, rs)

end Field

/-- `nsphere_surface_sampling` (185-197) and `unit_circle_sampling` (144-151, `n = 2`); `rs` is the result of
`np.random.randn(num_points, n)`. -/
noncomputable def nsphereSurfaceSampling (rs : List (List ℝ)) : List (List ℝ) := rs.map (fun p => p.map (fun x => x / √(dotSelf p)))

end Verif.Sampling
