/-!
# The table `monomial_integrals_unit_simplex_all_cache` (calculus/polynomial/monomial_integrals_unit_simplex_cache.py:6-380)

Generated from the source text. Every entry of the table is a quotient `1 / d` (or the number 1); the model stores the
denominators `d`. The second table of that file (lines 385-759) is not used by the library.
-/

namespace Verif.Integration

/-- `monomial_integrals_unit_simplex_all_cache` (monomial_integrals_unit_simplex_cache.py:6-380): for `(n, r)` the denominators. -/
def monomialIntegralsCache : List ((Nat × Nat) × List Nat) := [
  ((1, 1),
    [1, 2]),
  ((1, 2),
    [1, 2, 3]),
  ((1, 3),
    [1, 2, 3, 4]),
  ((1, 4),
    [1, 2, 3, 4, 5]),
  ((1, 5),
    [1, 2, 3, 4, 5, 6]),
  ((1, 6),
    [1, 2, 3, 4, 5, 6, 7]),
  ((2, 1),
    [2, 6, 6]),
  ((2, 2),
    [2, 6, 12, 6, 24, 12]),
  ((2, 3),
    [2, 6, 12, 20, 6, 24, 60, 12, 60, 20]),
  ((2, 4),
    [2, 6, 12, 20, 30, 6, 24, 60, 120, 12, 60, 180, 20, 120, 30]),
  ((2, 5),
    [2, 6, 12, 20, 30, 42, 6, 24, 60, 120, 210, 12, 60, 180, 420, 20, 120, 420, 30, 210, 42]),
  ((2, 6),
    [2, 6, 12, 20, 30, 42, 56, 6, 24, 60, 120, 210, 336, 12, 60, 180, 420, 840, 20, 120, 420, 1120, 30, 210, 840, 42,
     336, 56]),
  ((3, 1),
    [6, 24, 24, 24]),
  ((3, 2),
    [6, 24, 60, 24, 120, 60, 24, 120, 120, 60]),
  ((3, 3),
    [6, 24, 60, 120, 24, 120, 360, 60, 360, 120, 24, 120, 360, 120, 720, 360, 60, 360, 360, 120]),
  ((3, 4),
    [6, 24, 60, 120, 210, 24, 120, 360, 840, 60, 360, 1260, 120, 840, 210, 24, 120, 360, 840, 120, 720, 2520, 360,
     2520, 840, 60, 360, 1260, 360, 2520, 1260, 120, 840, 840, 210]),
  ((3, 5),
    [6, 24, 60, 120, 210, 336, 24, 120, 360, 840, 1680, 60, 360, 1260, 3360, 120, 840, 3360, 210, 1680, 336, 24, 120,
     360, 840, 1680, 120, 720, 2520, 6720, 360, 2520, 10080, 840, 6720, 1680, 60, 360, 1260, 3360, 360, 2520, 10080,
     1260, 10080, 3360, 120, 840, 3360, 840, 6720, 3360, 210, 1680, 1680, 336]),
  ((3, 6),
    [6, 24, 60, 120, 210, 336, 504, 24, 120, 360, 840, 1680, 3024, 60, 360, 1260, 3360, 7560, 120, 840, 3360, 10080,
     210, 1680, 7560, 336, 3024, 504, 24, 120, 360, 840, 1680, 3024, 120, 720, 2520, 6720, 15120, 360, 2520, 10080,
     30240, 840, 6720, 30240, 1680, 15120, 3024, 60, 360, 1260, 3360, 7560, 360, 2520, 10080, 30240, 1260, 10080,
     45360, 3360, 30240, 7560, 120, 840, 3360, 10080, 840, 6720, 30240, 3360, 30240, 10080, 210, 1680, 7560, 1680,
     15120, 7560, 336, 3024, 3024, 504])]

end Verif.Integration
