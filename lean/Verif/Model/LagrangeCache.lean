import Verif.Py
/-!
# The table of `polynomial/polynomials_unit_simplex_lagrange_basis_cache.py`

Generated from the Python source. `lagrangeCache[n - 1][r - 1]` lists the dictionary items in source order. The quotients in the source
(such as `-11 / 2`) are written over one common denominator per dictionary: `(den, [(ν, numerators), …])`.
-/

namespace Verif.Poly

/-- A negative literal. -/
abbrev neg (k : Nat) : Int := Int.neg (Int.ofNat k)

/-- One dictionary of the cache: common denominator, then the items. -/
abbrev LagrangeDict := Nat × List (List Nat × List Int)

/-- `lagrange_basis_coefficients_cache[0][0]`. -/
def lagrangeDict_1_1 : LagrangeDict := (1, [
  ([0], [1, neg 1]),
  ([1], [0, 1])])

/-- `lagrange_basis_coefficients_cache[0][1]`. -/
def lagrangeDict_1_2 : LagrangeDict := (1, [
  ([0], [1, neg 3, 2]),
  ([1], [0, 4, neg 4]),
  ([2], [0, neg 1, 2])])

/-- `lagrange_basis_coefficients_cache[0][2]`. -/
def lagrangeDict_1_3 : LagrangeDict := (2, [
  ([0], [2, neg 11, 18, neg 9]),
  ([1], [0, 18, neg 45, 27]),
  ([2], [0, neg 9, 36, neg 27]),
  ([3], [0, 2, neg 9, 9])])

/-- `lagrange_basis_coefficients_cache[0][3]`. -/
def lagrangeDict_1_4 : LagrangeDict := (3, [
  ([0], [3, neg 25, 70, neg 80, 32]),
  ([1], [0, 48, neg 208, 288, neg 128]),
  ([2], [0, neg 36, 228, neg 384, 192]),
  ([3], [0, 16, neg 112, 224, neg 128]),
  ([4], [0, neg 3, 22, neg 48, 32])])

/-- `lagrange_basis_coefficients_cache[1][0]`. -/
def lagrangeDict_2_1 : LagrangeDict := (1, [
  ([0, 0], [1, neg 1, neg 1]),
  ([1, 0], [0, 1, 0]),
  ([0, 1], [0, 0, 1])])

/-- `lagrange_basis_coefficients_cache[1][1]`. -/
def lagrangeDict_2_2 : LagrangeDict := (1, [
  ([0, 0], [1, neg 3, 2, neg 3, 4, 2]),
  ([1, 0], [0, 4, neg 4, 0, neg 4, 0]),
  ([2, 0], [0, neg 1, 2, 0, 0, 0]),
  ([0, 1], [0, 0, 0, 4, neg 4, neg 4]),
  ([1, 1], [0, 0, 0, 0, 4, 0]),
  ([0, 2], [0, 0, 0, neg 1, 0, 2])])

/-- `lagrange_basis_coefficients_cache[1][2]`. -/
def lagrangeDict_2_3 : LagrangeDict := (2, [
  ([0, 0], [2, neg 11, 18, neg 9, neg 11, 36, neg 27, 18, neg 27, neg 9]),
  ([1, 0], [0, 18, neg 45, 27, 0, neg 45, 54, 0, 27, 0]),
  ([2, 0], [0, neg 9, 36, neg 27, 0, 9, neg 27, 0, 0, 0]),
  ([3, 0], [0, 2, neg 9, 9, 0, 0, 0, 0, 0, 0]),
  ([0, 1], [0, 0, 0, 0, 18, neg 45, 27, neg 45, 54, 27]),
  ([1, 1], [0, 0, 0, 0, 0, 54, neg 54, 0, neg 54, 0]),
  ([2, 1], [0, 0, 0, 0, 0, neg 9, 27, 0, 0, 0]),
  ([0, 2], [0, 0, 0, 0, neg 9, 9, 0, 36, neg 27, neg 27]),
  ([1, 2], [0, 0, 0, 0, 0, neg 9, 0, 0, 27, 0]),
  ([0, 3], [0, 0, 0, 0, 2, 0, 0, neg 9, 0, 9])])

/-- `lagrange_basis_coefficients_cache[1][3]`. -/
def lagrangeDict_2_4 : LagrangeDict := (3, [
  ([0, 0], [3, neg 25, 70, neg 80, 32, neg 25, 140, neg 240, 128, 70, neg 240, 192, neg 80, 128, 32]),
  ([1, 0], [0, 48, neg 208, 288, neg 128, 0, neg 208, 576, neg 384, 0, 288, neg 384, 0, neg 128, 0]),
  ([2, 0], [0, neg 36, 228, neg 384, 192, 0, 84, neg 432, 384, 0, neg 48, 192, 0, 0, 0]),
  ([3, 0], [0, 16, neg 112, 224, neg 128, 0, neg 16, 96, neg 128, 0, 0, 0, 0, 0, 0]),
  ([4, 0], [0, neg 3, 22, neg 48, 32, 0, 0, 0, 0, 0, 0, 0, 0, 0, 0]),
  ([0, 1], [0, 0, 0, 0, 0, 48, neg 208, 288, neg 128, neg 208, 576, neg 384, 288, neg 384, neg 128]),
  ([1, 1], [0, 0, 0, 0, 0, 0, 288, neg 672, 384, 0, neg 672, 768, 0, 384, 0]),
  ([2, 1], [0, 0, 0, 0, 0, 0, neg 96, 480, neg 384, 0, 96, neg 384, 0, 0, 0]),
  ([3, 1], [0, 0, 0, 0, 0, 0, 16, neg 96, 128, 0, 0, 0, 0, 0, 0]),
  ([0, 2], [0, 0, 0, 0, 0, neg 36, 84, neg 48, 0, 228, neg 432, 192, neg 384, 384, 192]),
  ([1, 2], [0, 0, 0, 0, 0, 0, neg 96, 96, 0, 0, 480, neg 384, 0, neg 384, 0]),
  ([2, 2], [0, 0, 0, 0, 0, 0, 12, neg 48, 0, 0, neg 48, 192, 0, 0, 0]),
  ([0, 3], [0, 0, 0, 0, 0, 16, neg 16, 0, 0, neg 112, 96, 0, 224, neg 128, neg 128]),
  ([1, 3], [0, 0, 0, 0, 0, 0, 16, 0, 0, 0, neg 96, 0, 0, 128, 0]),
  ([0, 4], [0, 0, 0, 0, 0, neg 3, 0, 0, 0, 22, 0, 0, neg 48, 0, 32])])

/-- `lagrange_basis_coefficients_cache[2][0]`. -/
def lagrangeDict_3_1 : LagrangeDict := (1, [
  ([0, 0, 0], [1, neg 1, neg 1, neg 1]),
  ([1, 0, 0], [0, 1, 0, 0]),
  ([0, 1, 0], [0, 0, 1, 0]),
  ([0, 0, 1], [0, 0, 0, 1])])

/-- `lagrange_basis_coefficients_cache[2][1]`. -/
def lagrangeDict_3_2 : LagrangeDict := (1, [
  ([0, 0, 0], [1, neg 3, 2, neg 3, 4, 2, neg 3, 4, 4, 2]),
  ([1, 0, 0], [0, 4, neg 4, 0, neg 4, 0, 0, neg 4, 0, 0]),
  ([2, 0, 0], [0, neg 1, 2, 0, 0, 0, 0, 0, 0, 0]),
  ([0, 1, 0], [0, 0, 0, 4, neg 4, neg 4, 0, 0, neg 4, 0]),
  ([1, 1, 0], [0, 0, 0, 0, 4, 0, 0, 0, 0, 0]),
  ([0, 2, 0], [0, 0, 0, neg 1, 0, 2, 0, 0, 0, 0]),
  ([0, 0, 1], [0, 0, 0, 0, 0, 0, 4, neg 4, neg 4, neg 4]),
  ([1, 0, 1], [0, 0, 0, 0, 0, 0, 0, 4, 0, 0]),
  ([0, 1, 1], [0, 0, 0, 0, 0, 0, 0, 0, 4, 0]),
  ([0, 0, 2], [0, 0, 0, 0, 0, 0, neg 1, 0, 0, 2])])

/-- `lagrange_basis_coefficients_cache[2][2]`. -/
def lagrangeDict_3_3 : LagrangeDict := (2, [
  ([0, 0, 0], [2, neg 11, 18, neg 9, neg 11, 36, neg 27, 18, neg 27, neg 9, neg 11, 36, neg 27, 36, neg 54, neg 27, 18, neg 27, neg 27, neg 9]),
  ([1, 0, 0], [0, 18, neg 45, 27, 0, neg 45, 54, 0, 27, 0, 0, neg 45, 54, 0, 54, 0, 0, 27, 0, 0]),
  ([2, 0, 0], [0, neg 9, 36, neg 27, 0, 9, neg 27, 0, 0, 0, 0, 9, neg 27, 0, 0, 0, 0, 0, 0, 0]),
  ([3, 0, 0], [0, 2, neg 9, 9, 0, 0, 0, 0, 0, 0, 0, 0, 0, 0, 0, 0, 0, 0, 0, 0]),
  ([0, 1, 0], [0, 0, 0, 0, 18, neg 45, 27, neg 45, 54, 27, 0, 0, 0, neg 45, 54, 54, 0, 0, 27, 0]),
  ([1, 1, 0], [0, 0, 0, 0, 0, 54, neg 54, 0, neg 54, 0, 0, 0, 0, 0, neg 54, 0, 0, 0, 0, 0]),
  ([2, 1, 0], [0, 0, 0, 0, 0, neg 9, 27, 0, 0, 0, 0, 0, 0, 0, 0, 0, 0, 0, 0, 0]),
  ([0, 2, 0], [0, 0, 0, 0, neg 9, 9, 0, 36, neg 27, neg 27, 0, 0, 0, 9, 0, neg 27, 0, 0, 0, 0]),
  ([1, 2, 0], [0, 0, 0, 0, 0, neg 9, 0, 0, 27, 0, 0, 0, 0, 0, 0, 0, 0, 0, 0, 0]),
  ([0, 3, 0], [0, 0, 0, 0, 2, 0, 0, neg 9, 0, 9, 0, 0, 0, 0, 0, 0, 0, 0, 0, 0]),
  ([0, 0, 1], [0, 0, 0, 0, 0, 0, 0, 0, 0, 0, 18, neg 45, 27, neg 45, 54, 27, neg 45, 54, 54, 27]),
  ([1, 0, 1], [0, 0, 0, 0, 0, 0, 0, 0, 0, 0, 0, 54, neg 54, 0, neg 54, 0, 0, neg 54, 0, 0]),
  ([2, 0, 1], [0, 0, 0, 0, 0, 0, 0, 0, 0, 0, 0, neg 9, 27, 0, 0, 0, 0, 0, 0, 0]),
  ([0, 1, 1], [0, 0, 0, 0, 0, 0, 0, 0, 0, 0, 0, 0, 0, 54, neg 54, neg 54, 0, 0, neg 54, 0]),
  ([1, 1, 1], [0, 0, 0, 0, 0, 0, 0, 0, 0, 0, 0, 0, 0, 0, 54, 0, 0, 0, 0, 0]),
  ([0, 2, 1], [0, 0, 0, 0, 0, 0, 0, 0, 0, 0, 0, 0, 0, neg 9, 0, 27, 0, 0, 0, 0]),
  ([0, 0, 2], [0, 0, 0, 0, 0, 0, 0, 0, 0, 0, neg 9, 9, 0, 9, 0, 0, 36, neg 27, neg 27, neg 27]),
  ([1, 0, 2], [0, 0, 0, 0, 0, 0, 0, 0, 0, 0, 0, neg 9, 0, 0, 0, 0, 0, 27, 0, 0]),
  ([0, 1, 2], [0, 0, 0, 0, 0, 0, 0, 0, 0, 0, 0, 0, 0, neg 9, 0, 0, 0, 0, 27, 0]),
  ([0, 0, 3], [0, 0, 0, 0, 0, 0, 0, 0, 0, 0, 2, 0, 0, 0, 0, 0, neg 9, 0, 0, 9])])

/-- `lagrange_basis_coefficients_cache[2][3]`. -/
def lagrangeDict_3_4 : LagrangeDict := (3, [
  ([0, 0, 0], [3, neg 25, 70, neg 80, 32, neg 25, 140, neg 240, 128, 70, neg 240, 192, neg 80, 128, 32, neg 25, 140, neg 240, 128, 140, neg 480, 384, neg 240, 384, 128, 70, neg 240, 192, neg 240, 384, 192, neg 80, 128, 128, 32]),
  ([1, 0, 0], [0, 48, neg 208, 288, neg 128, 0, neg 208, 576, neg 384, 0, 288, neg 384, 0, neg 128, 0, 0, neg 208, 576, neg 384, 0, 576, neg 768, 0, neg 384, 0, 0, 288, neg 384, 0, neg 384, 0, 0, neg 128, 0, 0]),
  ([2, 0, 0], [0, neg 36, 228, neg 384, 192, 0, 84, neg 432, 384, 0, neg 48, 192, 0, 0, 0, 0, 84, neg 432, 384, 0, neg 96, 384, 0, 0, 0, 0, neg 48, 192, 0, 0, 0, 0, 0, 0, 0]),
  ([3, 0, 0], [0, 16, neg 112, 224, neg 128, 0, neg 16, 96, neg 128, 0, 0, 0, 0, 0, 0, 0, neg 16, 96, neg 128, 0, 0, 0, 0, 0, 0, 0, 0, 0, 0, 0, 0, 0, 0, 0, 0]),
  ([4, 0, 0], [0, neg 3, 22, neg 48, 32, 0, 0, 0, 0, 0, 0, 0, 0, 0, 0, 0, 0, 0, 0, 0, 0, 0, 0, 0, 0, 0, 0, 0, 0, 0, 0, 0, 0, 0, 0]),
  ([0, 1, 0], [0, 0, 0, 0, 0, 48, neg 208, 288, neg 128, neg 208, 576, neg 384, 288, neg 384, neg 128, 0, 0, 0, 0, neg 208, 576, neg 384, 576, neg 768, neg 384, 0, 0, 0, 288, neg 384, neg 384, 0, 0, neg 128, 0]),
  ([1, 1, 0], [0, 0, 0, 0, 0, 0, 288, neg 672, 384, 0, neg 672, 768, 0, 384, 0, 0, 0, 0, 0, 0, neg 672, 768, 0, 768, 0, 0, 0, 0, 0, 384, 0, 0, 0, 0, 0]),
  ([2, 1, 0], [0, 0, 0, 0, 0, 0, neg 96, 480, neg 384, 0, 96, neg 384, 0, 0, 0, 0, 0, 0, 0, 0, 96, neg 384, 0, 0, 0, 0, 0, 0, 0, 0, 0, 0, 0, 0, 0]),
  ([3, 1, 0], [0, 0, 0, 0, 0, 0, 16, neg 96, 128, 0, 0, 0, 0, 0, 0, 0, 0, 0, 0, 0, 0, 0, 0, 0, 0, 0, 0, 0, 0, 0, 0, 0, 0, 0, 0]),
  ([0, 2, 0], [0, 0, 0, 0, 0, neg 36, 84, neg 48, 0, 228, neg 432, 192, neg 384, 384, 192, 0, 0, 0, 0, 84, neg 96, 0, neg 432, 384, 384, 0, 0, 0, neg 48, 0, 192, 0, 0, 0, 0]),
  ([1, 2, 0], [0, 0, 0, 0, 0, 0, neg 96, 96, 0, 0, 480, neg 384, 0, neg 384, 0, 0, 0, 0, 0, 0, 96, 0, 0, neg 384, 0, 0, 0, 0, 0, 0, 0, 0, 0, 0, 0]),
  ([2, 2, 0], [0, 0, 0, 0, 0, 0, 12, neg 48, 0, 0, neg 48, 192, 0, 0, 0, 0, 0, 0, 0, 0, 0, 0, 0, 0, 0, 0, 0, 0, 0, 0, 0, 0, 0, 0, 0]),
  ([0, 3, 0], [0, 0, 0, 0, 0, 16, neg 16, 0, 0, neg 112, 96, 0, 224, neg 128, neg 128, 0, 0, 0, 0, neg 16, 0, 0, 96, 0, neg 128, 0, 0, 0, 0, 0, 0, 0, 0, 0, 0]),
  ([1, 3, 0], [0, 0, 0, 0, 0, 0, 16, 0, 0, 0, neg 96, 0, 0, 128, 0, 0, 0, 0, 0, 0, 0, 0, 0, 0, 0, 0, 0, 0, 0, 0, 0, 0, 0, 0, 0]),
  ([0, 4, 0], [0, 0, 0, 0, 0, neg 3, 0, 0, 0, 22, 0, 0, neg 48, 0, 32, 0, 0, 0, 0, 0, 0, 0, 0, 0, 0, 0, 0, 0, 0, 0, 0, 0, 0, 0, 0]),
  ([0, 0, 1], [0, 0, 0, 0, 0, 0, 0, 0, 0, 0, 0, 0, 0, 0, 0, 48, neg 208, 288, neg 128, neg 208, 576, neg 384, 288, neg 384, neg 128, neg 208, 576, neg 384, 576, neg 768, neg 384, 288, neg 384, neg 384, neg 128]),
  ([1, 0, 1], [0, 0, 0, 0, 0, 0, 0, 0, 0, 0, 0, 0, 0, 0, 0, 0, 288, neg 672, 384, 0, neg 672, 768, 0, 384, 0, 0, neg 672, 768, 0, 768, 0, 0, 384, 0, 0]),
  ([2, 0, 1], [0, 0, 0, 0, 0, 0, 0, 0, 0, 0, 0, 0, 0, 0, 0, 0, neg 96, 480, neg 384, 0, 96, neg 384, 0, 0, 0, 0, 96, neg 384, 0, 0, 0, 0, 0, 0, 0]),
  ([3, 0, 1], [0, 0, 0, 0, 0, 0, 0, 0, 0, 0, 0, 0, 0, 0, 0, 0, 16, neg 96, 128, 0, 0, 0, 0, 0, 0, 0, 0, 0, 0, 0, 0, 0, 0, 0, 0]),
  ([0, 1, 1], [0, 0, 0, 0, 0, 0, 0, 0, 0, 0, 0, 0, 0, 0, 0, 0, 0, 0, 0, 288, neg 672, 384, neg 672, 768, 384, 0, 0, 0, neg 672, 768, 768, 0, 0, 384, 0]),
  ([1, 1, 1], [0, 0, 0, 0, 0, 0, 0, 0, 0, 0, 0, 0, 0, 0, 0, 0, 0, 0, 0, 0, 768, neg 768, 0, neg 768, 0, 0, 0, 0, 0, neg 768, 0, 0, 0, 0, 0]),
  ([2, 1, 1], [0, 0, 0, 0, 0, 0, 0, 0, 0, 0, 0, 0, 0, 0, 0, 0, 0, 0, 0, 0, neg 96, 384, 0, 0, 0, 0, 0, 0, 0, 0, 0, 0, 0, 0, 0]),
  ([0, 2, 1], [0, 0, 0, 0, 0, 0, 0, 0, 0, 0, 0, 0, 0, 0, 0, 0, 0, 0, 0, neg 96, 96, 0, 480, neg 384, neg 384, 0, 0, 0, 96, 0, neg 384, 0, 0, 0, 0]),
  ([1, 2, 1], [0, 0, 0, 0, 0, 0, 0, 0, 0, 0, 0, 0, 0, 0, 0, 0, 0, 0, 0, 0, neg 96, 0, 0, 384, 0, 0, 0, 0, 0, 0, 0, 0, 0, 0, 0]),
  ([0, 3, 1], [0, 0, 0, 0, 0, 0, 0, 0, 0, 0, 0, 0, 0, 0, 0, 0, 0, 0, 0, 16, 0, 0, neg 96, 0, 128, 0, 0, 0, 0, 0, 0, 0, 0, 0, 0]),
  ([0, 0, 2], [0, 0, 0, 0, 0, 0, 0, 0, 0, 0, 0, 0, 0, 0, 0, neg 36, 84, neg 48, 0, 84, neg 96, 0, neg 48, 0, 0, 228, neg 432, 192, neg 432, 384, 192, neg 384, 384, 384, 192]),
  ([1, 0, 2], [0, 0, 0, 0, 0, 0, 0, 0, 0, 0, 0, 0, 0, 0, 0, 0, neg 96, 96, 0, 0, 96, 0, 0, 0, 0, 0, 480, neg 384, 0, neg 384, 0, 0, neg 384, 0, 0]),
  ([2, 0, 2], [0, 0, 0, 0, 0, 0, 0, 0, 0, 0, 0, 0, 0, 0, 0, 0, 12, neg 48, 0, 0, 0, 0, 0, 0, 0, 0, neg 48, 192, 0, 0, 0, 0, 0, 0, 0]),
  ([0, 1, 2], [0, 0, 0, 0, 0, 0, 0, 0, 0, 0, 0, 0, 0, 0, 0, 0, 0, 0, 0, neg 96, 96, 0, 96, 0, 0, 0, 0, 0, 480, neg 384, neg 384, 0, 0, neg 384, 0]),
  ([1, 1, 2], [0, 0, 0, 0, 0, 0, 0, 0, 0, 0, 0, 0, 0, 0, 0, 0, 0, 0, 0, 0, neg 96, 0, 0, 0, 0, 0, 0, 0, 0, 384, 0, 0, 0, 0, 0]),
  ([0, 2, 2], [0, 0, 0, 0, 0, 0, 0, 0, 0, 0, 0, 0, 0, 0, 0, 0, 0, 0, 0, 12, 0, 0, neg 48, 0, 0, 0, 0, 0, neg 48, 0, 192, 0, 0, 0, 0]),
  ([0, 0, 3], [0, 0, 0, 0, 0, 0, 0, 0, 0, 0, 0, 0, 0, 0, 0, 16, neg 16, 0, 0, neg 16, 0, 0, 0, 0, 0, neg 112, 96, 0, 96, 0, 0, 224, neg 128, neg 128, neg 128]),
  ([1, 0, 3], [0, 0, 0, 0, 0, 0, 0, 0, 0, 0, 0, 0, 0, 0, 0, 0, 16, 0, 0, 0, 0, 0, 0, 0, 0, 0, neg 96, 0, 0, 0, 0, 0, 128, 0, 0]),
  ([0, 1, 3], [0, 0, 0, 0, 0, 0, 0, 0, 0, 0, 0, 0, 0, 0, 0, 0, 0, 0, 0, 16, 0, 0, 0, 0, 0, 0, 0, 0, neg 96, 0, 0, 0, 0, 128, 0]),
  ([0, 0, 4], [0, 0, 0, 0, 0, 0, 0, 0, 0, 0, 0, 0, 0, 0, 0, neg 3, 0, 0, 0, 0, 0, 0, 0, 0, 0, 22, 0, 0, 0, 0, 0, neg 48, 0, 0, 32])])

/-- `lagrange_basis_coefficients_cache[3][0]`. -/
def lagrangeDict_4_1 : LagrangeDict := (1, [
  ([0, 0, 0, 0], [1, neg 1, neg 1, neg 1, neg 1]),
  ([1, 0, 0, 0], [0, 1, 0, 0, 0]),
  ([0, 1, 0, 0], [0, 0, 1, 0, 0]),
  ([0, 0, 1, 0], [0, 0, 0, 1, 0]),
  ([0, 0, 0, 1], [0, 0, 0, 0, 1])])

/-- `lagrange_basis_coefficients_cache[3][1]`. -/
def lagrangeDict_4_2 : LagrangeDict := (1, [
  ([0, 0, 0, 0], [1, neg 3, 2, neg 3, 4, 2, neg 3, 4, 4, 2, neg 3, 4, 4, 4, 2]),
  ([1, 0, 0, 0], [0, 4, neg 4, 0, neg 4, 0, 0, neg 4, 0, 0, 0, neg 4, 0, 0, 0]),
  ([2, 0, 0, 0], [0, neg 1, 2, 0, 0, 0, 0, 0, 0, 0, 0, 0, 0, 0, 0]),
  ([0, 1, 0, 0], [0, 0, 0, 4, neg 4, neg 4, 0, 0, neg 4, 0, 0, 0, neg 4, 0, 0]),
  ([1, 1, 0, 0], [0, 0, 0, 0, 4, 0, 0, 0, 0, 0, 0, 0, 0, 0, 0]),
  ([0, 2, 0, 0], [0, 0, 0, neg 1, 0, 2, 0, 0, 0, 0, 0, 0, 0, 0, 0]),
  ([0, 0, 1, 0], [0, 0, 0, 0, 0, 0, 4, neg 4, neg 4, neg 4, 0, 0, 0, neg 4, 0]),
  ([1, 0, 1, 0], [0, 0, 0, 0, 0, 0, 0, 4, 0, 0, 0, 0, 0, 0, 0]),
  ([0, 1, 1, 0], [0, 0, 0, 0, 0, 0, 0, 0, 4, 0, 0, 0, 0, 0, 0]),
  ([0, 0, 2, 0], [0, 0, 0, 0, 0, 0, neg 1, 0, 0, 2, 0, 0, 0, 0, 0]),
  ([0, 0, 0, 1], [0, 0, 0, 0, 0, 0, 0, 0, 0, 0, 4, neg 4, neg 4, neg 4, neg 4]),
  ([1, 0, 0, 1], [0, 0, 0, 0, 0, 0, 0, 0, 0, 0, 0, 4, 0, 0, 0]),
  ([0, 1, 0, 1], [0, 0, 0, 0, 0, 0, 0, 0, 0, 0, 0, 0, 4, 0, 0]),
  ([0, 0, 1, 1], [0, 0, 0, 0, 0, 0, 0, 0, 0, 0, 0, 0, 0, 4, 0]),
  ([0, 0, 0, 2], [0, 0, 0, 0, 0, 0, 0, 0, 0, 0, neg 1, 0, 0, 0, 2])])

/-- `lagrange_basis_coefficients_cache[3][2]`. -/
def lagrangeDict_4_3 : LagrangeDict := (2, [
  ([0, 0, 0, 0], [2, neg 11, 18, neg 9, neg 11, 36, neg 27, 18, neg 27, neg 9, neg 11, 36, neg 27, 36, neg 54, neg 27, 18, neg 27, neg 27, neg 9, neg 11, 36, neg 27, 36, neg 54, neg 27, 36, neg 54, neg 54, neg 27, 18, neg 27, neg 27, neg 27, neg 9]),
  ([1, 0, 0, 0], [0, 18, neg 45, 27, 0, neg 45, 54, 0, 27, 0, 0, neg 45, 54, 0, 54, 0, 0, 27, 0, 0, 0, neg 45, 54, 0, 54, 0, 0, 54, 0, 0, 0, 27, 0, 0, 0]),
  ([2, 0, 0, 0], [0, neg 9, 36, neg 27, 0, 9, neg 27, 0, 0, 0, 0, 9, neg 27, 0, 0, 0, 0, 0, 0, 0, 0, 9, neg 27, 0, 0, 0, 0, 0, 0, 0, 0, 0, 0, 0, 0]),
  ([3, 0, 0, 0], [0, 2, neg 9, 9, 0, 0, 0, 0, 0, 0, 0, 0, 0, 0, 0, 0, 0, 0, 0, 0, 0, 0, 0, 0, 0, 0, 0, 0, 0, 0, 0, 0, 0, 0, 0]),
  ([0, 1, 0, 0], [0, 0, 0, 0, 18, neg 45, 27, neg 45, 54, 27, 0, 0, 0, neg 45, 54, 54, 0, 0, 27, 0, 0, 0, 0, neg 45, 54, 54, 0, 0, 54, 0, 0, 0, 27, 0, 0]),
  ([1, 1, 0, 0], [0, 0, 0, 0, 0, 54, neg 54, 0, neg 54, 0, 0, 0, 0, 0, neg 54, 0, 0, 0, 0, 0, 0, 0, 0, 0, neg 54, 0, 0, 0, 0, 0, 0, 0, 0, 0, 0]),
  ([2, 1, 0, 0], [0, 0, 0, 0, 0, neg 9, 27, 0, 0, 0, 0, 0, 0, 0, 0, 0, 0, 0, 0, 0, 0, 0, 0, 0, 0, 0, 0, 0, 0, 0, 0, 0, 0, 0, 0]),
  ([0, 2, 0, 0], [0, 0, 0, 0, neg 9, 9, 0, 36, neg 27, neg 27, 0, 0, 0, 9, 0, neg 27, 0, 0, 0, 0, 0, 0, 0, 9, 0, neg 27, 0, 0, 0, 0, 0, 0, 0, 0, 0]),
  ([1, 2, 0, 0], [0, 0, 0, 0, 0, neg 9, 0, 0, 27, 0, 0, 0, 0, 0, 0, 0, 0, 0, 0, 0, 0, 0, 0, 0, 0, 0, 0, 0, 0, 0, 0, 0, 0, 0, 0]),
  ([0, 3, 0, 0], [0, 0, 0, 0, 2, 0, 0, neg 9, 0, 9, 0, 0, 0, 0, 0, 0, 0, 0, 0, 0, 0, 0, 0, 0, 0, 0, 0, 0, 0, 0, 0, 0, 0, 0, 0]),
  ([0, 0, 1, 0], [0, 0, 0, 0, 0, 0, 0, 0, 0, 0, 18, neg 45, 27, neg 45, 54, 27, neg 45, 54, 54, 27, 0, 0, 0, 0, 0, 0, neg 45, 54, 54, 54, 0, 0, 0, 27, 0]),
  ([1, 0, 1, 0], [0, 0, 0, 0, 0, 0, 0, 0, 0, 0, 0, 54, neg 54, 0, neg 54, 0, 0, neg 54, 0, 0, 0, 0, 0, 0, 0, 0, 0, neg 54, 0, 0, 0, 0, 0, 0, 0]),
  ([2, 0, 1, 0], [0, 0, 0, 0, 0, 0, 0, 0, 0, 0, 0, neg 9, 27, 0, 0, 0, 0, 0, 0, 0, 0, 0, 0, 0, 0, 0, 0, 0, 0, 0, 0, 0, 0, 0, 0]),
  ([0, 1, 1, 0], [0, 0, 0, 0, 0, 0, 0, 0, 0, 0, 0, 0, 0, 54, neg 54, neg 54, 0, 0, neg 54, 0, 0, 0, 0, 0, 0, 0, 0, 0, neg 54, 0, 0, 0, 0, 0, 0]),
  ([1, 1, 1, 0], [0, 0, 0, 0, 0, 0, 0, 0, 0, 0, 0, 0, 0, 0, 54, 0, 0, 0, 0, 0, 0, 0, 0, 0, 0, 0, 0, 0, 0, 0, 0, 0, 0, 0, 0]),
  ([0, 2, 1, 0], [0, 0, 0, 0, 0, 0, 0, 0, 0, 0, 0, 0, 0, neg 9, 0, 27, 0, 0, 0, 0, 0, 0, 0, 0, 0, 0, 0, 0, 0, 0, 0, 0, 0, 0, 0]),
  ([0, 0, 2, 0], [0, 0, 0, 0, 0, 0, 0, 0, 0, 0, neg 9, 9, 0, 9, 0, 0, 36, neg 27, neg 27, neg 27, 0, 0, 0, 0, 0, 0, 9, 0, 0, neg 27, 0, 0, 0, 0, 0]),
  ([1, 0, 2, 0], [0, 0, 0, 0, 0, 0, 0, 0, 0, 0, 0, neg 9, 0, 0, 0, 0, 0, 27, 0, 0, 0, 0, 0, 0, 0, 0, 0, 0, 0, 0, 0, 0, 0, 0, 0]),
  ([0, 1, 2, 0], [0, 0, 0, 0, 0, 0, 0, 0, 0, 0, 0, 0, 0, neg 9, 0, 0, 0, 0, 27, 0, 0, 0, 0, 0, 0, 0, 0, 0, 0, 0, 0, 0, 0, 0, 0]),
  ([0, 0, 3, 0], [0, 0, 0, 0, 0, 0, 0, 0, 0, 0, 2, 0, 0, 0, 0, 0, neg 9, 0, 0, 9, 0, 0, 0, 0, 0, 0, 0, 0, 0, 0, 0, 0, 0, 0, 0]),
  ([0, 0, 0, 1], [0, 0, 0, 0, 0, 0, 0, 0, 0, 0, 0, 0, 0, 0, 0, 0, 0, 0, 0, 0, 18, neg 45, 27, neg 45, 54, 27, neg 45, 54, 54, 27, neg 45, 54, 54, 54, 27]),
  ([1, 0, 0, 1], [0, 0, 0, 0, 0, 0, 0, 0, 0, 0, 0, 0, 0, 0, 0, 0, 0, 0, 0, 0, 0, 54, neg 54, 0, neg 54, 0, 0, neg 54, 0, 0, 0, neg 54, 0, 0, 0]),
  ([2, 0, 0, 1], [0, 0, 0, 0, 0, 0, 0, 0, 0, 0, 0, 0, 0, 0, 0, 0, 0, 0, 0, 0, 0, neg 9, 27, 0, 0, 0, 0, 0, 0, 0, 0, 0, 0, 0, 0]),
  ([0, 1, 0, 1], [0, 0, 0, 0, 0, 0, 0, 0, 0, 0, 0, 0, 0, 0, 0, 0, 0, 0, 0, 0, 0, 0, 0, 54, neg 54, neg 54, 0, 0, neg 54, 0, 0, 0, neg 54, 0, 0]),
  ([1, 1, 0, 1], [0, 0, 0, 0, 0, 0, 0, 0, 0, 0, 0, 0, 0, 0, 0, 0, 0, 0, 0, 0, 0, 0, 0, 0, 54, 0, 0, 0, 0, 0, 0, 0, 0, 0, 0]),
  ([0, 2, 0, 1], [0, 0, 0, 0, 0, 0, 0, 0, 0, 0, 0, 0, 0, 0, 0, 0, 0, 0, 0, 0, 0, 0, 0, neg 9, 0, 27, 0, 0, 0, 0, 0, 0, 0, 0, 0]),
  ([0, 0, 1, 1], [0, 0, 0, 0, 0, 0, 0, 0, 0, 0, 0, 0, 0, 0, 0, 0, 0, 0, 0, 0, 0, 0, 0, 0, 0, 0, 54, neg 54, neg 54, neg 54, 0, 0, 0, neg 54, 0]),
  ([1, 0, 1, 1], [0, 0, 0, 0, 0, 0, 0, 0, 0, 0, 0, 0, 0, 0, 0, 0, 0, 0, 0, 0, 0, 0, 0, 0, 0, 0, 0, 54, 0, 0, 0, 0, 0, 0, 0]),
  ([0, 1, 1, 1], [0, 0, 0, 0, 0, 0, 0, 0, 0, 0, 0, 0, 0, 0, 0, 0, 0, 0, 0, 0, 0, 0, 0, 0, 0, 0, 0, 0, 54, 0, 0, 0, 0, 0, 0]),
  ([0, 0, 2, 1], [0, 0, 0, 0, 0, 0, 0, 0, 0, 0, 0, 0, 0, 0, 0, 0, 0, 0, 0, 0, 0, 0, 0, 0, 0, 0, neg 9, 0, 0, 27, 0, 0, 0, 0, 0]),
  ([0, 0, 0, 2], [0, 0, 0, 0, 0, 0, 0, 0, 0, 0, 0, 0, 0, 0, 0, 0, 0, 0, 0, 0, neg 9, 9, 0, 9, 0, 0, 9, 0, 0, 0, 36, neg 27, neg 27, neg 27, neg 27]),
  ([1, 0, 0, 2], [0, 0, 0, 0, 0, 0, 0, 0, 0, 0, 0, 0, 0, 0, 0, 0, 0, 0, 0, 0, 0, neg 9, 0, 0, 0, 0, 0, 0, 0, 0, 0, 27, 0, 0, 0]),
  ([0, 1, 0, 2], [0, 0, 0, 0, 0, 0, 0, 0, 0, 0, 0, 0, 0, 0, 0, 0, 0, 0, 0, 0, 0, 0, 0, neg 9, 0, 0, 0, 0, 0, 0, 0, 0, 27, 0, 0]),
  ([0, 0, 1, 2], [0, 0, 0, 0, 0, 0, 0, 0, 0, 0, 0, 0, 0, 0, 0, 0, 0, 0, 0, 0, 0, 0, 0, 0, 0, 0, neg 9, 0, 0, 0, 0, 0, 0, 27, 0]),
  ([0, 0, 0, 3], [0, 0, 0, 0, 0, 0, 0, 0, 0, 0, 0, 0, 0, 0, 0, 0, 0, 0, 0, 0, 2, 0, 0, 0, 0, 0, 0, 0, 0, 0, neg 9, 0, 0, 0, 9])])

/-- `lagrange_basis_coefficients_cache[3][3]`. -/
def lagrangeDict_4_4 : LagrangeDict := (3, [
  ([0, 0, 0, 0], [3, neg 25, 70, neg 80, 32, neg 25, 140, neg 240, 128, 70, neg 240, 192, neg 80, 128, 32, neg 25, 140, neg 240, 128, 140, neg 480, 384, neg 240, 384, 128, 70, neg 240, 192, neg 240, 384, 192, neg 80, 128, 128, 32, neg 25, 140, neg 240, 128, 140, neg 480, 384, neg 240, 384, 128, 140, neg 480, 384, neg 480, 768, 384, neg 240, 384, 384, 128, 70, neg 240, 192, neg 240, 384, 192, neg 240, 384, 384, 192, neg 80, 128, 128, 128, 32]),
  ([1, 0, 0, 0], [0, 48, neg 208, 288, neg 128, 0, neg 208, 576, neg 384, 0, 288, neg 384, 0, neg 128, 0, 0, neg 208, 576, neg 384, 0, 576, neg 768, 0, neg 384, 0, 0, 288, neg 384, 0, neg 384, 0, 0, neg 128, 0, 0, 0, neg 208, 576, neg 384, 0, 576, neg 768, 0, neg 384, 0, 0, 576, neg 768, 0, neg 768, 0, 0, neg 384, 0, 0, 0, 288, neg 384, 0, neg 384, 0, 0, neg 384, 0, 0, 0, neg 128, 0, 0, 0]),
  ([2, 0, 0, 0], [0, neg 36, 228, neg 384, 192, 0, 84, neg 432, 384, 0, neg 48, 192, 0, 0, 0, 0, 84, neg 432, 384, 0, neg 96, 384, 0, 0, 0, 0, neg 48, 192, 0, 0, 0, 0, 0, 0, 0, 0, 84, neg 432, 384, 0, neg 96, 384, 0, 0, 0, 0, neg 96, 384, 0, 0, 0, 0, 0, 0, 0, 0, neg 48, 192, 0, 0, 0, 0, 0, 0, 0, 0, 0, 0, 0, 0]),
  ([3, 0, 0, 0], [0, 16, neg 112, 224, neg 128, 0, neg 16, 96, neg 128, 0, 0, 0, 0, 0, 0, 0, neg 16, 96, neg 128, 0, 0, 0, 0, 0, 0, 0, 0, 0, 0, 0, 0, 0, 0, 0, 0, 0, neg 16, 96, neg 128, 0, 0, 0, 0, 0, 0, 0, 0, 0, 0, 0, 0, 0, 0, 0, 0, 0, 0, 0, 0, 0, 0, 0, 0, 0, 0, 0, 0, 0, 0, 0]),
  ([4, 0, 0, 0], [0, neg 3, 22, neg 48, 32, 0, 0, 0, 0, 0, 0, 0, 0, 0, 0, 0, 0, 0, 0, 0, 0, 0, 0, 0, 0, 0, 0, 0, 0, 0, 0, 0, 0, 0, 0, 0, 0, 0, 0, 0, 0, 0, 0, 0, 0, 0, 0, 0, 0, 0, 0, 0, 0, 0, 0, 0, 0, 0, 0, 0, 0, 0, 0, 0, 0, 0, 0, 0, 0, 0]),
  ([0, 1, 0, 0], [0, 0, 0, 0, 0, 48, neg 208, 288, neg 128, neg 208, 576, neg 384, 288, neg 384, neg 128, 0, 0, 0, 0, neg 208, 576, neg 384, 576, neg 768, neg 384, 0, 0, 0, 288, neg 384, neg 384, 0, 0, neg 128, 0, 0, 0, 0, 0, neg 208, 576, neg 384, 576, neg 768, neg 384, 0, 0, 0, 576, neg 768, neg 768, 0, 0, neg 384, 0, 0, 0, 0, 288, neg 384, neg 384, 0, 0, neg 384, 0, 0, 0, neg 128, 0, 0]),
  ([1, 1, 0, 0], [0, 0, 0, 0, 0, 0, 288, neg 672, 384, 0, neg 672, 768, 0, 384, 0, 0, 0, 0, 0, 0, neg 672, 768, 0, 768, 0, 0, 0, 0, 0, 384, 0, 0, 0, 0, 0, 0, 0, 0, 0, 0, neg 672, 768, 0, 768, 0, 0, 0, 0, 0, 768, 0, 0, 0, 0, 0, 0, 0, 0, 0, 384, 0, 0, 0, 0, 0, 0, 0, 0, 0, 0]),
  ([2, 1, 0, 0], [0, 0, 0, 0, 0, 0, neg 96, 480, neg 384, 0, 96, neg 384, 0, 0, 0, 0, 0, 0, 0, 0, 96, neg 384, 0, 0, 0, 0, 0, 0, 0, 0, 0, 0, 0, 0, 0, 0, 0, 0, 0, 0, 96, neg 384, 0, 0, 0, 0, 0, 0, 0, 0, 0, 0, 0, 0, 0, 0, 0, 0, 0, 0, 0, 0, 0, 0, 0, 0, 0, 0, 0, 0]),
  ([3, 1, 0, 0], [0, 0, 0, 0, 0, 0, 16, neg 96, 128, 0, 0, 0, 0, 0, 0, 0, 0, 0, 0, 0, 0, 0, 0, 0, 0, 0, 0, 0, 0, 0, 0, 0, 0, 0, 0, 0, 0, 0, 0, 0, 0, 0, 0, 0, 0, 0, 0, 0, 0, 0, 0, 0, 0, 0, 0, 0, 0, 0, 0, 0, 0, 0, 0, 0, 0, 0, 0, 0, 0, 0]),
  ([0, 2, 0, 0], [0, 0, 0, 0, 0, neg 36, 84, neg 48, 0, 228, neg 432, 192, neg 384, 384, 192, 0, 0, 0, 0, 84, neg 96, 0, neg 432, 384, 384, 0, 0, 0, neg 48, 0, 192, 0, 0, 0, 0, 0, 0, 0, 0, 84, neg 96, 0, neg 432, 384, 384, 0, 0, 0, neg 96, 0, 384, 0, 0, 0, 0, 0, 0, 0, neg 48, 0, 192, 0, 0, 0, 0, 0, 0, 0, 0, 0]),
  ([1, 2, 0, 0], [0, 0, 0, 0, 0, 0, neg 96, 96, 0, 0, 480, neg 384, 0, neg 384, 0, 0, 0, 0, 0, 0, 96, 0, 0, neg 384, 0, 0, 0, 0, 0, 0, 0, 0, 0, 0, 0, 0, 0, 0, 0, 0, 96, 0, 0, neg 384, 0, 0, 0, 0, 0, 0, 0, 0, 0, 0, 0, 0, 0, 0, 0, 0, 0, 0, 0, 0, 0, 0, 0, 0, 0, 0]),
  ([2, 2, 0, 0], [0, 0, 0, 0, 0, 0, 12, neg 48, 0, 0, neg 48, 192, 0, 0, 0, 0, 0, 0, 0, 0, 0, 0, 0, 0, 0, 0, 0, 0, 0, 0, 0, 0, 0, 0, 0, 0, 0, 0, 0, 0, 0, 0, 0, 0, 0, 0, 0, 0, 0, 0, 0, 0, 0, 0, 0, 0, 0, 0, 0, 0, 0, 0, 0, 0, 0, 0, 0, 0, 0, 0]),
  ([0, 3, 0, 0], [0, 0, 0, 0, 0, 16, neg 16, 0, 0, neg 112, 96, 0, 224, neg 128, neg 128, 0, 0, 0, 0, neg 16, 0, 0, 96, 0, neg 128, 0, 0, 0, 0, 0, 0, 0, 0, 0, 0, 0, 0, 0, 0, neg 16, 0, 0, 96, 0, neg 128, 0, 0, 0, 0, 0, 0, 0, 0, 0, 0, 0, 0, 0, 0, 0, 0, 0, 0, 0, 0, 0, 0, 0, 0, 0]),
  ([1, 3, 0, 0], [0, 0, 0, 0, 0, 0, 16, 0, 0, 0, neg 96, 0, 0, 128, 0, 0, 0, 0, 0, 0, 0, 0, 0, 0, 0, 0, 0, 0, 0, 0, 0, 0, 0, 0, 0, 0, 0, 0, 0, 0, 0, 0, 0, 0, 0, 0, 0, 0, 0, 0, 0, 0, 0, 0, 0, 0, 0, 0, 0, 0, 0, 0, 0, 0, 0, 0, 0, 0, 0, 0]),
  ([0, 4, 0, 0], [0, 0, 0, 0, 0, neg 3, 0, 0, 0, 22, 0, 0, neg 48, 0, 32, 0, 0, 0, 0, 0, 0, 0, 0, 0, 0, 0, 0, 0, 0, 0, 0, 0, 0, 0, 0, 0, 0, 0, 0, 0, 0, 0, 0, 0, 0, 0, 0, 0, 0, 0, 0, 0, 0, 0, 0, 0, 0, 0, 0, 0, 0, 0, 0, 0, 0, 0, 0, 0, 0, 0]),
  ([0, 0, 1, 0], [0, 0, 0, 0, 0, 0, 0, 0, 0, 0, 0, 0, 0, 0, 0, 48, neg 208, 288, neg 128, neg 208, 576, neg 384, 288, neg 384, neg 128, neg 208, 576, neg 384, 576, neg 768, neg 384, 288, neg 384, neg 384, neg 128, 0, 0, 0, 0, 0, 0, 0, 0, 0, 0, neg 208, 576, neg 384, 576, neg 768, neg 384, 576, neg 768, neg 768, neg 384, 0, 0, 0, 0, 0, 0, 288, neg 384, neg 384, neg 384, 0, 0, 0, neg 128, 0]),
  ([1, 0, 1, 0], [0, 0, 0, 0, 0, 0, 0, 0, 0, 0, 0, 0, 0, 0, 0, 0, 288, neg 672, 384, 0, neg 672, 768, 0, 384, 0, 0, neg 672, 768, 0, 768, 0, 0, 384, 0, 0, 0, 0, 0, 0, 0, 0, 0, 0, 0, 0, 0, neg 672, 768, 0, 768, 0, 0, 768, 0, 0, 0, 0, 0, 0, 0, 0, 0, 384, 0, 0, 0, 0, 0, 0, 0]),
  ([2, 0, 1, 0], [0, 0, 0, 0, 0, 0, 0, 0, 0, 0, 0, 0, 0, 0, 0, 0, neg 96, 480, neg 384, 0, 96, neg 384, 0, 0, 0, 0, 96, neg 384, 0, 0, 0, 0, 0, 0, 0, 0, 0, 0, 0, 0, 0, 0, 0, 0, 0, 0, 96, neg 384, 0, 0, 0, 0, 0, 0, 0, 0, 0, 0, 0, 0, 0, 0, 0, 0, 0, 0, 0, 0, 0, 0]),
  ([3, 0, 1, 0], [0, 0, 0, 0, 0, 0, 0, 0, 0, 0, 0, 0, 0, 0, 0, 0, 16, neg 96, 128, 0, 0, 0, 0, 0, 0, 0, 0, 0, 0, 0, 0, 0, 0, 0, 0, 0, 0, 0, 0, 0, 0, 0, 0, 0, 0, 0, 0, 0, 0, 0, 0, 0, 0, 0, 0, 0, 0, 0, 0, 0, 0, 0, 0, 0, 0, 0, 0, 0, 0, 0]),
  ([0, 1, 1, 0], [0, 0, 0, 0, 0, 0, 0, 0, 0, 0, 0, 0, 0, 0, 0, 0, 0, 0, 0, 288, neg 672, 384, neg 672, 768, 384, 0, 0, 0, neg 672, 768, 768, 0, 0, 384, 0, 0, 0, 0, 0, 0, 0, 0, 0, 0, 0, 0, 0, 0, neg 672, 768, 768, 0, 0, 768, 0, 0, 0, 0, 0, 0, 0, 0, 0, 384, 0, 0, 0, 0, 0, 0]),
  ([1, 1, 1, 0], [0, 0, 0, 0, 0, 0, 0, 0, 0, 0, 0, 0, 0, 0, 0, 0, 0, 0, 0, 0, 768, neg 768, 0, neg 768, 0, 0, 0, 0, 0, neg 768, 0, 0, 0, 0, 0, 0, 0, 0, 0, 0, 0, 0, 0, 0, 0, 0, 0, 0, 0, neg 768, 0, 0, 0, 0, 0, 0, 0, 0, 0, 0, 0, 0, 0, 0, 0, 0, 0, 0, 0, 0]),
  ([2, 1, 1, 0], [0, 0, 0, 0, 0, 0, 0, 0, 0, 0, 0, 0, 0, 0, 0, 0, 0, 0, 0, 0, neg 96, 384, 0, 0, 0, 0, 0, 0, 0, 0, 0, 0, 0, 0, 0, 0, 0, 0, 0, 0, 0, 0, 0, 0, 0, 0, 0, 0, 0, 0, 0, 0, 0, 0, 0, 0, 0, 0, 0, 0, 0, 0, 0, 0, 0, 0, 0, 0, 0, 0]),
  ([0, 2, 1, 0], [0, 0, 0, 0, 0, 0, 0, 0, 0, 0, 0, 0, 0, 0, 0, 0, 0, 0, 0, neg 96, 96, 0, 480, neg 384, neg 384, 0, 0, 0, 96, 0, neg 384, 0, 0, 0, 0, 0, 0, 0, 0, 0, 0, 0, 0, 0, 0, 0, 0, 0, 96, 0, neg 384, 0, 0, 0, 0, 0, 0, 0, 0, 0, 0, 0, 0, 0, 0, 0, 0, 0, 0, 0]),
  ([1, 2, 1, 0], [0, 0, 0, 0, 0, 0, 0, 0, 0, 0, 0, 0, 0, 0, 0, 0, 0, 0, 0, 0, neg 96, 0, 0, 384, 0, 0, 0, 0, 0, 0, 0, 0, 0, 0, 0, 0, 0, 0, 0, 0, 0, 0, 0, 0, 0, 0, 0, 0, 0, 0, 0, 0, 0, 0, 0, 0, 0, 0, 0, 0, 0, 0, 0, 0, 0, 0, 0, 0, 0, 0]),
  ([0, 3, 1, 0], [0, 0, 0, 0, 0, 0, 0, 0, 0, 0, 0, 0, 0, 0, 0, 0, 0, 0, 0, 16, 0, 0, neg 96, 0, 128, 0, 0, 0, 0, 0, 0, 0, 0, 0, 0, 0, 0, 0, 0, 0, 0, 0, 0, 0, 0, 0, 0, 0, 0, 0, 0, 0, 0, 0, 0, 0, 0, 0, 0, 0, 0, 0, 0, 0, 0, 0, 0, 0, 0, 0]),
  ([0, 0, 2, 0], [0, 0, 0, 0, 0, 0, 0, 0, 0, 0, 0, 0, 0, 0, 0, neg 36, 84, neg 48, 0, 84, neg 96, 0, neg 48, 0, 0, 228, neg 432, 192, neg 432, 384, 192, neg 384, 384, 384, 192, 0, 0, 0, 0, 0, 0, 0, 0, 0, 0, 84, neg 96, 0, neg 96, 0, 0, neg 432, 384, 384, 384, 0, 0, 0, 0, 0, 0, neg 48, 0, 0, 192, 0, 0, 0, 0, 0]),
  ([1, 0, 2, 0], [0, 0, 0, 0, 0, 0, 0, 0, 0, 0, 0, 0, 0, 0, 0, 0, neg 96, 96, 0, 0, 96, 0, 0, 0, 0, 0, 480, neg 384, 0, neg 384, 0, 0, neg 384, 0, 0, 0, 0, 0, 0, 0, 0, 0, 0, 0, 0, 0, 96, 0, 0, 0, 0, 0, neg 384, 0, 0, 0, 0, 0, 0, 0, 0, 0, 0, 0, 0, 0, 0, 0, 0, 0]),
  ([2, 0, 2, 0], [0, 0, 0, 0, 0, 0, 0, 0, 0, 0, 0, 0, 0, 0, 0, 0, 12, neg 48, 0, 0, 0, 0, 0, 0, 0, 0, neg 48, 192, 0, 0, 0, 0, 0, 0, 0, 0, 0, 0, 0, 0, 0, 0, 0, 0, 0, 0, 0, 0, 0, 0, 0, 0, 0, 0, 0, 0, 0, 0, 0, 0, 0, 0, 0, 0, 0, 0, 0, 0, 0, 0]),
  ([0, 1, 2, 0], [0, 0, 0, 0, 0, 0, 0, 0, 0, 0, 0, 0, 0, 0, 0, 0, 0, 0, 0, neg 96, 96, 0, 96, 0, 0, 0, 0, 0, 480, neg 384, neg 384, 0, 0, neg 384, 0, 0, 0, 0, 0, 0, 0, 0, 0, 0, 0, 0, 0, 0, 96, 0, 0, 0, 0, neg 384, 0, 0, 0, 0, 0, 0, 0, 0, 0, 0, 0, 0, 0, 0, 0, 0]),
  ([1, 1, 2, 0], [0, 0, 0, 0, 0, 0, 0, 0, 0, 0, 0, 0, 0, 0, 0, 0, 0, 0, 0, 0, neg 96, 0, 0, 0, 0, 0, 0, 0, 0, 384, 0, 0, 0, 0, 0, 0, 0, 0, 0, 0, 0, 0, 0, 0, 0, 0, 0, 0, 0, 0, 0, 0, 0, 0, 0, 0, 0, 0, 0, 0, 0, 0, 0, 0, 0, 0, 0, 0, 0, 0]),
  ([0, 2, 2, 0], [0, 0, 0, 0, 0, 0, 0, 0, 0, 0, 0, 0, 0, 0, 0, 0, 0, 0, 0, 12, 0, 0, neg 48, 0, 0, 0, 0, 0, neg 48, 0, 192, 0, 0, 0, 0, 0, 0, 0, 0, 0, 0, 0, 0, 0, 0, 0, 0, 0, 0, 0, 0, 0, 0, 0, 0, 0, 0, 0, 0, 0, 0, 0, 0, 0, 0, 0, 0, 0, 0, 0]),
  ([0, 0, 3, 0], [0, 0, 0, 0, 0, 0, 0, 0, 0, 0, 0, 0, 0, 0, 0, 16, neg 16, 0, 0, neg 16, 0, 0, 0, 0, 0, neg 112, 96, 0, 96, 0, 0, 224, neg 128, neg 128, neg 128, 0, 0, 0, 0, 0, 0, 0, 0, 0, 0, neg 16, 0, 0, 0, 0, 0, 96, 0, 0, neg 128, 0, 0, 0, 0, 0, 0, 0, 0, 0, 0, 0, 0, 0, 0, 0]),
  ([1, 0, 3, 0], [0, 0, 0, 0, 0, 0, 0, 0, 0, 0, 0, 0, 0, 0, 0, 0, 16, 0, 0, 0, 0, 0, 0, 0, 0, 0, neg 96, 0, 0, 0, 0, 0, 128, 0, 0, 0, 0, 0, 0, 0, 0, 0, 0, 0, 0, 0, 0, 0, 0, 0, 0, 0, 0, 0, 0, 0, 0, 0, 0, 0, 0, 0, 0, 0, 0, 0, 0, 0, 0, 0]),
  ([0, 1, 3, 0], [0, 0, 0, 0, 0, 0, 0, 0, 0, 0, 0, 0, 0, 0, 0, 0, 0, 0, 0, 16, 0, 0, 0, 0, 0, 0, 0, 0, neg 96, 0, 0, 0, 0, 128, 0, 0, 0, 0, 0, 0, 0, 0, 0, 0, 0, 0, 0, 0, 0, 0, 0, 0, 0, 0, 0, 0, 0, 0, 0, 0, 0, 0, 0, 0, 0, 0, 0, 0, 0, 0]),
  ([0, 0, 4, 0], [0, 0, 0, 0, 0, 0, 0, 0, 0, 0, 0, 0, 0, 0, 0, neg 3, 0, 0, 0, 0, 0, 0, 0, 0, 0, 22, 0, 0, 0, 0, 0, neg 48, 0, 0, 32, 0, 0, 0, 0, 0, 0, 0, 0, 0, 0, 0, 0, 0, 0, 0, 0, 0, 0, 0, 0, 0, 0, 0, 0, 0, 0, 0, 0, 0, 0, 0, 0, 0, 0, 0]),
  ([0, 0, 0, 1], [0, 0, 0, 0, 0, 0, 0, 0, 0, 0, 0, 0, 0, 0, 0, 0, 0, 0, 0, 0, 0, 0, 0, 0, 0, 0, 0, 0, 0, 0, 0, 0, 0, 0, 0, 48, neg 208, 288, neg 128, neg 208, 576, neg 384, 288, neg 384, neg 128, neg 208, 576, neg 384, 576, neg 768, neg 384, 288, neg 384, neg 384, neg 128, neg 208, 576, neg 384, 576, neg 768, neg 384, 576, neg 768, neg 768, neg 384, 288, neg 384, neg 384, neg 384, neg 128]),
  ([1, 0, 0, 1], [0, 0, 0, 0, 0, 0, 0, 0, 0, 0, 0, 0, 0, 0, 0, 0, 0, 0, 0, 0, 0, 0, 0, 0, 0, 0, 0, 0, 0, 0, 0, 0, 0, 0, 0, 0, 288, neg 672, 384, 0, neg 672, 768, 0, 384, 0, 0, neg 672, 768, 0, 768, 0, 0, 384, 0, 0, 0, neg 672, 768, 0, 768, 0, 0, 768, 0, 0, 0, 384, 0, 0, 0]),
  ([2, 0, 0, 1], [0, 0, 0, 0, 0, 0, 0, 0, 0, 0, 0, 0, 0, 0, 0, 0, 0, 0, 0, 0, 0, 0, 0, 0, 0, 0, 0, 0, 0, 0, 0, 0, 0, 0, 0, 0, neg 96, 480, neg 384, 0, 96, neg 384, 0, 0, 0, 0, 96, neg 384, 0, 0, 0, 0, 0, 0, 0, 0, 96, neg 384, 0, 0, 0, 0, 0, 0, 0, 0, 0, 0, 0, 0]),
  ([3, 0, 0, 1], [0, 0, 0, 0, 0, 0, 0, 0, 0, 0, 0, 0, 0, 0, 0, 0, 0, 0, 0, 0, 0, 0, 0, 0, 0, 0, 0, 0, 0, 0, 0, 0, 0, 0, 0, 0, 16, neg 96, 128, 0, 0, 0, 0, 0, 0, 0, 0, 0, 0, 0, 0, 0, 0, 0, 0, 0, 0, 0, 0, 0, 0, 0, 0, 0, 0, 0, 0, 0, 0, 0]),
  ([0, 1, 0, 1], [0, 0, 0, 0, 0, 0, 0, 0, 0, 0, 0, 0, 0, 0, 0, 0, 0, 0, 0, 0, 0, 0, 0, 0, 0, 0, 0, 0, 0, 0, 0, 0, 0, 0, 0, 0, 0, 0, 0, 288, neg 672, 384, neg 672, 768, 384, 0, 0, 0, neg 672, 768, 768, 0, 0, 384, 0, 0, 0, 0, neg 672, 768, 768, 0, 0, 768, 0, 0, 0, 384, 0, 0]),
  ([1, 1, 0, 1], [0, 0, 0, 0, 0, 0, 0, 0, 0, 0, 0, 0, 0, 0, 0, 0, 0, 0, 0, 0, 0, 0, 0, 0, 0, 0, 0, 0, 0, 0, 0, 0, 0, 0, 0, 0, 0, 0, 0, 0, 768, neg 768, 0, neg 768, 0, 0, 0, 0, 0, neg 768, 0, 0, 0, 0, 0, 0, 0, 0, 0, neg 768, 0, 0, 0, 0, 0, 0, 0, 0, 0, 0]),
  ([2, 1, 0, 1], [0, 0, 0, 0, 0, 0, 0, 0, 0, 0, 0, 0, 0, 0, 0, 0, 0, 0, 0, 0, 0, 0, 0, 0, 0, 0, 0, 0, 0, 0, 0, 0, 0, 0, 0, 0, 0, 0, 0, 0, neg 96, 384, 0, 0, 0, 0, 0, 0, 0, 0, 0, 0, 0, 0, 0, 0, 0, 0, 0, 0, 0, 0, 0, 0, 0, 0, 0, 0, 0, 0]),
  ([0, 2, 0, 1], [0, 0, 0, 0, 0, 0, 0, 0, 0, 0, 0, 0, 0, 0, 0, 0, 0, 0, 0, 0, 0, 0, 0, 0, 0, 0, 0, 0, 0, 0, 0, 0, 0, 0, 0, 0, 0, 0, 0, neg 96, 96, 0, 480, neg 384, neg 384, 0, 0, 0, 96, 0, neg 384, 0, 0, 0, 0, 0, 0, 0, 96, 0, neg 384, 0, 0, 0, 0, 0, 0, 0, 0, 0]),
  ([1, 2, 0, 1], [0, 0, 0, 0, 0, 0, 0, 0, 0, 0, 0, 0, 0, 0, 0, 0, 0, 0, 0, 0, 0, 0, 0, 0, 0, 0, 0, 0, 0, 0, 0, 0, 0, 0, 0, 0, 0, 0, 0, 0, neg 96, 0, 0, 384, 0, 0, 0, 0, 0, 0, 0, 0, 0, 0, 0, 0, 0, 0, 0, 0, 0, 0, 0, 0, 0, 0, 0, 0, 0, 0]),
  ([0, 3, 0, 1], [0, 0, 0, 0, 0, 0, 0, 0, 0, 0, 0, 0, 0, 0, 0, 0, 0, 0, 0, 0, 0, 0, 0, 0, 0, 0, 0, 0, 0, 0, 0, 0, 0, 0, 0, 0, 0, 0, 0, 16, 0, 0, neg 96, 0, 128, 0, 0, 0, 0, 0, 0, 0, 0, 0, 0, 0, 0, 0, 0, 0, 0, 0, 0, 0, 0, 0, 0, 0, 0, 0]),
  ([0, 0, 1, 1], [0, 0, 0, 0, 0, 0, 0, 0, 0, 0, 0, 0, 0, 0, 0, 0, 0, 0, 0, 0, 0, 0, 0, 0, 0, 0, 0, 0, 0, 0, 0, 0, 0, 0, 0, 0, 0, 0, 0, 0, 0, 0, 0, 0, 0, 288, neg 672, 384, neg 672, 768, 384, neg 672, 768, 768, 384, 0, 0, 0, 0, 0, 0, neg 672, 768, 768, 768, 0, 0, 0, 384, 0]),
  ([1, 0, 1, 1], [0, 0, 0, 0, 0, 0, 0, 0, 0, 0, 0, 0, 0, 0, 0, 0, 0, 0, 0, 0, 0, 0, 0, 0, 0, 0, 0, 0, 0, 0, 0, 0, 0, 0, 0, 0, 0, 0, 0, 0, 0, 0, 0, 0, 0, 0, 768, neg 768, 0, neg 768, 0, 0, neg 768, 0, 0, 0, 0, 0, 0, 0, 0, 0, neg 768, 0, 0, 0, 0, 0, 0, 0]),
  ([2, 0, 1, 1], [0, 0, 0, 0, 0, 0, 0, 0, 0, 0, 0, 0, 0, 0, 0, 0, 0, 0, 0, 0, 0, 0, 0, 0, 0, 0, 0, 0, 0, 0, 0, 0, 0, 0, 0, 0, 0, 0, 0, 0, 0, 0, 0, 0, 0, 0, neg 96, 384, 0, 0, 0, 0, 0, 0, 0, 0, 0, 0, 0, 0, 0, 0, 0, 0, 0, 0, 0, 0, 0, 0]),
  ([0, 1, 1, 1], [0, 0, 0, 0, 0, 0, 0, 0, 0, 0, 0, 0, 0, 0, 0, 0, 0, 0, 0, 0, 0, 0, 0, 0, 0, 0, 0, 0, 0, 0, 0, 0, 0, 0, 0, 0, 0, 0, 0, 0, 0, 0, 0, 0, 0, 0, 0, 0, 768, neg 768, neg 768, 0, 0, neg 768, 0, 0, 0, 0, 0, 0, 0, 0, 0, neg 768, 0, 0, 0, 0, 0, 0]),
  ([1, 1, 1, 1], [0, 0, 0, 0, 0, 0, 0, 0, 0, 0, 0, 0, 0, 0, 0, 0, 0, 0, 0, 0, 0, 0, 0, 0, 0, 0, 0, 0, 0, 0, 0, 0, 0, 0, 0, 0, 0, 0, 0, 0, 0, 0, 0, 0, 0, 0, 0, 0, 0, 768, 0, 0, 0, 0, 0, 0, 0, 0, 0, 0, 0, 0, 0, 0, 0, 0, 0, 0, 0, 0]),
  ([0, 2, 1, 1], [0, 0, 0, 0, 0, 0, 0, 0, 0, 0, 0, 0, 0, 0, 0, 0, 0, 0, 0, 0, 0, 0, 0, 0, 0, 0, 0, 0, 0, 0, 0, 0, 0, 0, 0, 0, 0, 0, 0, 0, 0, 0, 0, 0, 0, 0, 0, 0, neg 96, 0, 384, 0, 0, 0, 0, 0, 0, 0, 0, 0, 0, 0, 0, 0, 0, 0, 0, 0, 0, 0]),
  ([0, 0, 2, 1], [0, 0, 0, 0, 0, 0, 0, 0, 0, 0, 0, 0, 0, 0, 0, 0, 0, 0, 0, 0, 0, 0, 0, 0, 0, 0, 0, 0, 0, 0, 0, 0, 0, 0, 0, 0, 0, 0, 0, 0, 0, 0, 0, 0, 0, neg 96, 96, 0, 96, 0, 0, 480, neg 384, neg 384, neg 384, 0, 0, 0, 0, 0, 0, 96, 0, 0, neg 384, 0, 0, 0, 0, 0]),
  ([1, 0, 2, 1], [0, 0, 0, 0, 0, 0, 0, 0, 0, 0, 0, 0, 0, 0, 0, 0, 0, 0, 0, 0, 0, 0, 0, 0, 0, 0, 0, 0, 0, 0, 0, 0, 0, 0, 0, 0, 0, 0, 0, 0, 0, 0, 0, 0, 0, 0, neg 96, 0, 0, 0, 0, 0, 384, 0, 0, 0, 0, 0, 0, 0, 0, 0, 0, 0, 0, 0, 0, 0, 0, 0]),
  ([0, 1, 2, 1], [0, 0, 0, 0, 0, 0, 0, 0, 0, 0, 0, 0, 0, 0, 0, 0, 0, 0, 0, 0, 0, 0, 0, 0, 0, 0, 0, 0, 0, 0, 0, 0, 0, 0, 0, 0, 0, 0, 0, 0, 0, 0, 0, 0, 0, 0, 0, 0, neg 96, 0, 0, 0, 0, 384, 0, 0, 0, 0, 0, 0, 0, 0, 0, 0, 0, 0, 0, 0, 0, 0]),
  ([0, 0, 3, 1], [0, 0, 0, 0, 0, 0, 0, 0, 0, 0, 0, 0, 0, 0, 0, 0, 0, 0, 0, 0, 0, 0, 0, 0, 0, 0, 0, 0, 0, 0, 0, 0, 0, 0, 0, 0, 0, 0, 0, 0, 0, 0, 0, 0, 0, 16, 0, 0, 0, 0, 0, neg 96, 0, 0, 128, 0, 0, 0, 0, 0, 0, 0, 0, 0, 0, 0, 0, 0, 0, 0]),
  ([0, 0, 0, 2], [0, 0, 0, 0, 0, 0, 0, 0, 0, 0, 0, 0, 0, 0, 0, 0, 0, 0, 0, 0, 0, 0, 0, 0, 0, 0, 0, 0, 0, 0, 0, 0, 0, 0, 0, neg 36, 84, neg 48, 0, 84, neg 96, 0, neg 48, 0, 0, 84, neg 96, 0, neg 96, 0, 0, neg 48, 0, 0, 0, 228, neg 432, 192, neg 432, 384, 192, neg 432, 384, 384, 192, neg 384, 384, 384, 384, 192]),
  ([1, 0, 0, 2], [0, 0, 0, 0, 0, 0, 0, 0, 0, 0, 0, 0, 0, 0, 0, 0, 0, 0, 0, 0, 0, 0, 0, 0, 0, 0, 0, 0, 0, 0, 0, 0, 0, 0, 0, 0, neg 96, 96, 0, 0, 96, 0, 0, 0, 0, 0, 96, 0, 0, 0, 0, 0, 0, 0, 0, 0, 480, neg 384, 0, neg 384, 0, 0, neg 384, 0, 0, 0, neg 384, 0, 0, 0]),
  ([2, 0, 0, 2], [0, 0, 0, 0, 0, 0, 0, 0, 0, 0, 0, 0, 0, 0, 0, 0, 0, 0, 0, 0, 0, 0, 0, 0, 0, 0, 0, 0, 0, 0, 0, 0, 0, 0, 0, 0, 12, neg 48, 0, 0, 0, 0, 0, 0, 0, 0, 0, 0, 0, 0, 0, 0, 0, 0, 0, 0, neg 48, 192, 0, 0, 0, 0, 0, 0, 0, 0, 0, 0, 0, 0]),
  ([0, 1, 0, 2], [0, 0, 0, 0, 0, 0, 0, 0, 0, 0, 0, 0, 0, 0, 0, 0, 0, 0, 0, 0, 0, 0, 0, 0, 0, 0, 0, 0, 0, 0, 0, 0, 0, 0, 0, 0, 0, 0, 0, neg 96, 96, 0, 96, 0, 0, 0, 0, 0, 96, 0, 0, 0, 0, 0, 0, 0, 0, 0, 480, neg 384, neg 384, 0, 0, neg 384, 0, 0, 0, neg 384, 0, 0]),
  ([1, 1, 0, 2], [0, 0, 0, 0, 0, 0, 0, 0, 0, 0, 0, 0, 0, 0, 0, 0, 0, 0, 0, 0, 0, 0, 0, 0, 0, 0, 0, 0, 0, 0, 0, 0, 0, 0, 0, 0, 0, 0, 0, 0, neg 96, 0, 0, 0, 0, 0, 0, 0, 0, 0, 0, 0, 0, 0, 0, 0, 0, 0, 0, 384, 0, 0, 0, 0, 0, 0, 0, 0, 0, 0]),
  ([0, 2, 0, 2], [0, 0, 0, 0, 0, 0, 0, 0, 0, 0, 0, 0, 0, 0, 0, 0, 0, 0, 0, 0, 0, 0, 0, 0, 0, 0, 0, 0, 0, 0, 0, 0, 0, 0, 0, 0, 0, 0, 0, 12, 0, 0, neg 48, 0, 0, 0, 0, 0, 0, 0, 0, 0, 0, 0, 0, 0, 0, 0, neg 48, 0, 192, 0, 0, 0, 0, 0, 0, 0, 0, 0]),
  ([0, 0, 1, 2], [0, 0, 0, 0, 0, 0, 0, 0, 0, 0, 0, 0, 0, 0, 0, 0, 0, 0, 0, 0, 0, 0, 0, 0, 0, 0, 0, 0, 0, 0, 0, 0, 0, 0, 0, 0, 0, 0, 0, 0, 0, 0, 0, 0, 0, neg 96, 96, 0, 96, 0, 0, 96, 0, 0, 0, 0, 0, 0, 0, 0, 0, 480, neg 384, neg 384, neg 384, 0, 0, 0, neg 384, 0]),
  ([1, 0, 1, 2], [0, 0, 0, 0, 0, 0, 0, 0, 0, 0, 0, 0, 0, 0, 0, 0, 0, 0, 0, 0, 0, 0, 0, 0, 0, 0, 0, 0, 0, 0, 0, 0, 0, 0, 0, 0, 0, 0, 0, 0, 0, 0, 0, 0, 0, 0, neg 96, 0, 0, 0, 0, 0, 0, 0, 0, 0, 0, 0, 0, 0, 0, 0, 384, 0, 0, 0, 0, 0, 0, 0]),
  ([0, 1, 1, 2], [0, 0, 0, 0, 0, 0, 0, 0, 0, 0, 0, 0, 0, 0, 0, 0, 0, 0, 0, 0, 0, 0, 0, 0, 0, 0, 0, 0, 0, 0, 0, 0, 0, 0, 0, 0, 0, 0, 0, 0, 0, 0, 0, 0, 0, 0, 0, 0, neg 96, 0, 0, 0, 0, 0, 0, 0, 0, 0, 0, 0, 0, 0, 0, 384, 0, 0, 0, 0, 0, 0]),
  ([0, 0, 2, 2], [0, 0, 0, 0, 0, 0, 0, 0, 0, 0, 0, 0, 0, 0, 0, 0, 0, 0, 0, 0, 0, 0, 0, 0, 0, 0, 0, 0, 0, 0, 0, 0, 0, 0, 0, 0, 0, 0, 0, 0, 0, 0, 0, 0, 0, 12, 0, 0, 0, 0, 0, neg 48, 0, 0, 0, 0, 0, 0, 0, 0, 0, neg 48, 0, 0, 192, 0, 0, 0, 0, 0]),
  ([0, 0, 0, 3], [0, 0, 0, 0, 0, 0, 0, 0, 0, 0, 0, 0, 0, 0, 0, 0, 0, 0, 0, 0, 0, 0, 0, 0, 0, 0, 0, 0, 0, 0, 0, 0, 0, 0, 0, 16, neg 16, 0, 0, neg 16, 0, 0, 0, 0, 0, neg 16, 0, 0, 0, 0, 0, 0, 0, 0, 0, neg 112, 96, 0, 96, 0, 0, 96, 0, 0, 0, 224, neg 128, neg 128, neg 128, neg 128]),
  ([1, 0, 0, 3], [0, 0, 0, 0, 0, 0, 0, 0, 0, 0, 0, 0, 0, 0, 0, 0, 0, 0, 0, 0, 0, 0, 0, 0, 0, 0, 0, 0, 0, 0, 0, 0, 0, 0, 0, 0, 16, 0, 0, 0, 0, 0, 0, 0, 0, 0, 0, 0, 0, 0, 0, 0, 0, 0, 0, 0, neg 96, 0, 0, 0, 0, 0, 0, 0, 0, 0, 128, 0, 0, 0]),
  ([0, 1, 0, 3], [0, 0, 0, 0, 0, 0, 0, 0, 0, 0, 0, 0, 0, 0, 0, 0, 0, 0, 0, 0, 0, 0, 0, 0, 0, 0, 0, 0, 0, 0, 0, 0, 0, 0, 0, 0, 0, 0, 0, 16, 0, 0, 0, 0, 0, 0, 0, 0, 0, 0, 0, 0, 0, 0, 0, 0, 0, 0, neg 96, 0, 0, 0, 0, 0, 0, 0, 0, 128, 0, 0]),
  ([0, 0, 1, 3], [0, 0, 0, 0, 0, 0, 0, 0, 0, 0, 0, 0, 0, 0, 0, 0, 0, 0, 0, 0, 0, 0, 0, 0, 0, 0, 0, 0, 0, 0, 0, 0, 0, 0, 0, 0, 0, 0, 0, 0, 0, 0, 0, 0, 0, 16, 0, 0, 0, 0, 0, 0, 0, 0, 0, 0, 0, 0, 0, 0, 0, neg 96, 0, 0, 0, 0, 0, 0, 128, 0]),
  ([0, 0, 0, 4], [0, 0, 0, 0, 0, 0, 0, 0, 0, 0, 0, 0, 0, 0, 0, 0, 0, 0, 0, 0, 0, 0, 0, 0, 0, 0, 0, 0, 0, 0, 0, 0, 0, 0, 0, neg 3, 0, 0, 0, 0, 0, 0, 0, 0, 0, 0, 0, 0, 0, 0, 0, 0, 0, 0, 0, 22, 0, 0, 0, 0, 0, 0, 0, 0, 0, neg 48, 0, 0, 0, 32])])

/-- `lagrange_basis_coefficients_cache` (polynomials_unit_simplex_lagrange_basis_cache.py). -/
def lagrangeCache : List (List LagrangeDict) := [
  [lagrangeDict_1_1, lagrangeDict_1_2, lagrangeDict_1_3, lagrangeDict_1_4],
  [lagrangeDict_2_1, lagrangeDict_2_2, lagrangeDict_2_3, lagrangeDict_2_4],
  [lagrangeDict_3_1, lagrangeDict_3_2, lagrangeDict_3_3, lagrangeDict_3_4],
  [lagrangeDict_4_1, lagrangeDict_4_2, lagrangeDict_4_3, lagrangeDict_4_4]]

end Verif.Poly
