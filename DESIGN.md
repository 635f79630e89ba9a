# Formal model of polynomials_on_simplices in Lean 4

## Layout

* `properties.jsonl`   the English properties (C01 ...).
* `lean/Verif/Py.lean`  Python exceptions as values.
* `lean/Verif/Model/*`  the model: one file per Python module (or group), every definition cites file and lines in /repo.
* `lean/Verif/Spec/*`   small, independent specifications (no reference to the model).
* `lean/Verif/Lemmas/*` helper lemmas (never cited as property theorems).
* `lean/Verif/Props/*`  the property theorems, with a non-vacuity `example` beside each.
* `MANIFEST.json`       property -> theorem names and status.
* `seeded/LOG.jsonl`    results of editing the model the way a bug would.

## Trusted base

* Lean 4.33.0's kernel, and Mathlib's definitions as far as they appear in theorem statements.
* Axioms: at most `propext`, `Classical.choice`, `Quot.sound` (checked with `#print axioms` and by the gate).
* The reading of the Python code. Each model definition carries the lines it was read from and lists its simplifications.

### Global modelling decisions

* Python `int` is `Nat`/`Int` (unbounded, as in Python). NumPy integer arrays are also treated as unbounded.
* Python/NumPy floating point numbers are elements of a field (`ℚ`, or an arbitrary (ordered) field `K`, `ℝ` where needed): *exact
  arithmetic*. Every property about numbers says "in exact arithmetic". The exceptions are C88 (generated evaluation code), C97
  (integrals and points), C99 and C100 (arithmetic of polynomials in the Bernstein and monomial basis) and the rounding theorems of C101 (finite differences), where every operation and every literal may have a relative error of at most `ε` (the standard model of floating
  point arithmetic, without overflow and underflow; the bound `ε` also has to hold for the power function). Coordinates of points and
  coefficients passed in are taken as given.
* Exceptions are values: `Except PyErr α`. Asserts are modelled as `AssertionError` (i.e. Python is run without `-O`).
* Python `set`/`dict` are modelled by duplicate free lists / association lists or finite sets; iteration order of sets is not
  relied on (where a result depends on it, the theorem quantifies over the order).
* Generators/iterators are explicit state machines; `for` loops over them drain the machine with fuel and a theorem shows that
  fuel suffices.
* In-place mutation returns the new value. Aliasing is modelled only where the property is about it.
* `scipy.special.binom`, `math.factorial` are exact binomials / factorials; `np.linalg.det/inv/solve` are the exact
  mathematical operations (parameters of the trusted base).

## Properties and plan

See the per-property table below. "Plan" says what is modelled and how it is proved.

| id | modelled | how it is proved |
|----|----------|------------------|
| C01 | `MultiIndexIterator` as a state machine (components, helper counters mod r+1, running norm), `generate_all` drains it | invariant: the machine steps through the colexicographic list; characterise the list by membership and `Nodup` |
| C02 | same | `Pairwise` colex order of the list |
| C03 | `num_multiindices`, `get_dimension`, `get_degree_from_dimension` | hockey-stick induction; the degree inference claim is false for degree >= 20 (cap), witness + partial theorem |
| C04 | `get_index` with cache parameter (table transcribed), `generate` | search correctness; whole-table `decide` for the cache |
| C05 | carry iterator and mixed radix arithmetic | induction on the number of digits |
| C06 | as in the code | lists |
| C07 | filters over `generate_all_multi_cap` | membership and `Nodup` |
| C08 | `MultiIndex` operations as a step function on a store of objects | invariant over histories |
| C09 | `power, norm, factorial, binom, multinom` | list induction |
| C10 | `IntegerModuloN` | homomorphism to `ZMod n`; comparison with plain ints crashes: witness |
| C11 | both functions | induction; n = 0 and 1 deviate: witness + partial |
| C12-C20 | permutations in one line notation as `List Nat` | via bijections `Fin n ≃ Fin n` / list lemmas; sign against `Equiv.Perm.sign` |
| C21-C24 | coefficient lists + degree + dimension, operations as written | evaluation homomorphism into functions `(Fin m → K) → V` |
| C25 | Bernstein basis | multinomial theorem |
| C26-C28 | Lagrange points, basis via the linear system | unisolvence by explicit product formula; cache by whole-table kernel evaluation |
| C29-C30 | dual bases, conversions | from C28 |
| C31 | code generators, `CodeWriter` | `Spec/PyExpr`: tokens and grammar of the Python subset; texts are related to values by induction over the string functions; uniqueness of the value by a left to right evaluator; line breaks only inside brackets; Horner form |
| C32 | `split_long_str`, `CodeWriter` | induction on the text |
| C33 | `get_associated_sub_simplex` | list lemmas |
| C34-C36 | `simplicial_complex.py` | sign cancellation in free chains; parity invariant of the toggle loop; induction |
| C37-C39 | `simplex.py`, `affine_map.py` | matrices over a field; Cramer's rule. Barycentric coordinates are negated for negatively oriented simplices: witness + partial |
| C40 | `aabb.py` | order lemmas |
| C41-C42 | `kd_tree.py`, mesh tree | inductive tree, invariants over subdivision histories; `recurse` with functions that subdivide or cut their node: parent pointers never change, so the subtrees of siblings stay apart |
| C43-C46 | dictionaries as association lists, loops as folds | fold invariants |
| C47-C48 | piecewise polynomials on top of C21-C28, C43-C44 | restriction to faces; index -1 bugs: witness + partial |
| C49 | index formulas | arithmetic; the grid and simplex meshes are cells of one lattice triangulation (`IsAlcove`), so two of them meet in a common face; directed edges of the annulus and disc are paired by an explicit encoding |
| C50 | integration formulas, table | iterated integrals (Mathlib interval integrals) |
| C51 | quadrature tables | linearity + monomials; error for other functions from the sum of the absolute weights and the volume; for smooth functions Taylor's formula along segments gives the polynomial |
| C52-C56 | functions as written | order/ring arithmetic, induction over histories |
| C57 | `simplex.py` volumes, orientation, centroid, trilinear coordinates | determinants; positivity; scaling |
| C58 | `substitute_vertex_indices`, boundary orientation | renaming of lists; sign of the reordering |
| C59 | `angle.py`, `rotation.py`, `orthogonal_vector`, rotations between vectors; the matrix of the caller after the call | real matrices, `Complex.arg`; perturbation bounds for Rodrigues' formula in the tolerance windows |
| C60 | subspace projections, changes of basis | contracts of `qr`, `pinv`, `inv` |
| C61 | vector valued boundary degrees of freedom | from C45, C46 |
| C62 | `polynomials_simplex_*_basis.py` | pull back to the unit simplex, C21-C28, C37 |
| C63 | `polynomials_calculus.py`, for objects of any class with partial derivatives | coefficients of iterated derivatives of `Σ c_ν x^ν`; loop invariants for the filled arrays; C07 and C17 for the permuted indices |
| C64 | monomial form and dual bases of `polynomials_simplex_*_basis.py` | C63 at the origin; change of variables in the integral and C29, C50 |
| C65 | bases and dual bases in `*piecewise_polynomial_*_basis.py`, any choice from the preimage sets | C43-C46 for the numbers, C48 for values, C64 for the dual functions |
| C66 | `weak_partial_derivative` of the continuous classes, arbitrary `np.empty` | the loop over simplices stores each entry once (C45); C62 derivative on a simplex |
| C67 | `simplex.py` for k-simplices in R^n, `pseudoinverse_affine_transformation`; `np.linalg.qr` is a parameter | QR decomposition of the edge matrix (its existence is proved, so the contract can be met); orthogonality characterises the nearest point of the plane |
| C68 | facets, normals, circumcenter (recursion on the dimension), incenter, diameter, `equilateral` | Gram determinants of simplex and facet give the heights; the normal is the last column of the QR factor; Leibniz' formula for the centroid of an equilateral simplex |
| C69 | triangle.py: all functions, for three vertices in R^n (cross products and planar bases for n = 2, 3) | everything is expressed by the three dot products of the edges at the vertices; centers by their barycentric coordinates; angles via arccos and the angle sum of a triangle |
| C70 | normals, centroids and vertex counts of triangle_mesh.py | accumulation lemma for `n[k] += x`; cotangents from dot products and Gram determinants; derivatives of the area and of the enclosed volume along lines; swapping the directed edges of a closed mesh is a permutation |
| C71 | `polynomials_equal`, `polynomials_equal_on_simplex`, `piecewise_polynomials_equal` with the random points as parameters, `math.isclose`, error measures | induction on the lists of points, components and simplices; the zeros of a nonzero polynomial have measure zero (Fubini, induction on the number of variables); almost all tuples of points determine the polynomials of degree at most r (Fubini, induction on the dimension of a space of polynomials; the exceptional set is the zero set of a determinant) |
| C72 | the two midpoint rules of `quadrature.py` on top of the mesh functions of C49, `general_tetrahedron_vertices` | the integral over a tiled region is the sum over the cells (boundaries of simplices have measure zero); the centroid is exact for affine functions; cells lie in lattice cubes |
| C73 | the adaptive rules of `quadrature.py`; `scipy`'s `quadrature`, `dblquad`, `tplquad` are parameters with contracts (Spec/Scipy.lean) about one integrand and an error bound | iterated integrals over the slices of the unit simplex, symmetry of the unit simplex under reversal of the coordinates, change of variables |
| C74 | `composition`, `_is_univariate_function` on callables with signatures | case analysis on the three kinds of signatures |
| C75 | all `latex` functions of the polynomial modules and `str_utils`, on character lists; a reader of LaTeX mathematics as specification (control words, symbols, adjacent operands, matrices) | every text builder is proved to produce a text with a grammatical level and value (`Txt`), closed under concatenation; denominators of Lagrange coefficients divide `r!` (integer valued polynomials) |
| C76 | `point_clouds.py` over ℝ, `np.linalg.eigh` as a parameter with its contract (a decomposition is proved to exist in every dimension), and the choice of the splitting plane in `create_kd_tree` | Steiner's identity for sums of squares; the quadratic form of the Gram matrix in the eigenbasis; counting in sorted lists for the median; `C42_create_ok` and `C42_complete` for the tree |
| C77 | `cartesian_basis`, `basis_matrix`, `basis_vectors`, `move` for matrices, `random_rigid_motion` for given random numbers | direct; `C54_random_2`, `C59_random_3` and `C55_ball` for the random motions |
| C78 | `code_str` of the three bases and of polynomials on simplices; `str.replace`, `str.split`; the texts of numbers and arrays are parameters | `Spec/CodeStr`: functions with assignments and a returned expression; underscores only occur in names, so the generated name occurs once; values unique because brackets balance and a line break outside of brackets ends a statement |
| C79 | `__repr__`, `__str__`, `__hash__`, `__len__`, argument handling of the constructors of `MultiIndex`, `Permutation`, `IntegerModuloN`; `__repr__` of polynomials; `PolynomialComponentsIterator` as a state machine driven by a `for` loop | `Spec/PyLiteral`: executable readers of literals and calls on the tokens of `Spec/PyExpr`; the texts are tokenised symbolically, brackets balance, splitting at top-level commas; hashes of CPython on 64 bit platforms |
| C80 | `unique_identifier_*`, `basis()` on simplices and the assertions of `__add__`, `__sub__`, `__mul__` on the texts; `str(vertices)` is a parameter that returns some text in square brackets | the text can be split at line breaks in one way only; combination at points with equal barycentric coordinates from C62; counterexample for any two simplices that are printed alike |
| C81 | `__call__` with the tree that `create_kd_tree` builds for the support, `find_leaf_containing_point` and `inside_simplex`, joined from the models of C41, C42, C48 and C76 | leaves contain only simplices the tree was built for (induction over the tree operations) and all those that contain the point (C42); non-negative barycentric coordinates from the sign of determinants; results of operations inherit tree and a smaller support; end to end for the constructor with the splitting planes of C76; counterexamples for negative orientation and the power zero |
| C82 | `package_utils.py` over paths as texts (`os.path.join`, `normpath`, `relpath`, `splitext`, `pathlib` parts modelled) and a directory tree; the names found by `pkgutil` are a parameter | the walk is a filtered and mapped list of all files of the tree, by induction over the tree; relative paths by the common prefix of normalised components; names of modules by the replaced text; counterexamples proved |
| C83 | the mesh functions (C49, C72) composed with the constructor and calls of piecewise polynomials (C48, C81); `vertices[:, 0:2]` is `columns 2` | a tiling with common faces is a conforming mesh of positively oriented simplices (`MeshOf`); the simplices are closed and finitely many, so a function that is polynomial on each and single valued is continuous |
| C84 | the samplers of C55 with the numbers of the generator as a sequence of random variables on an arbitrary probability space (`Spec/Random`: independent, identically distributed) | rejection sampling: the probability that the first `k` accepted values are in given sets, as the limit of the probabilities for finitely many draws, is a product of conditional probabilities; affine images for the intervals and the ball; the Gaussian density is radial (layer cake formula and scaling of cones) |
| C85 | `randomRotationMatrix3`, `rotationMatrix2`, `randomRigidMotion` with random variables as the numbers of the generator | the rotation is a tilt that depends on the point on the sphere times a turn about the third axis; a fixed rotation moves the point on the sphere (C84) and adds a constant to the angle (periodic integrals); Fubini; uniqueness of an invariant distribution by integrating over two independent rotations |
| C86 | `generateRandomPermutation`, `generateRandomSubsetPermutation`, `generateRandomIncreasingSubsetPermutation`, `randomMultiindexCall` with random variables as the integers of the generator | each permutation has exactly one list of draws (C18), whose probability is the product of the probabilities; subsets by summing over the permutations of the rest; multi-indices by their position (C04) |
| C87 | the model of C47, C48, C65, C81 and C83; the spaces of functions (`IsPiecewisePolynomial`, `IsPiecewiseOn`) are specified without the numbering and the bases | soundness: polynomials on simplices, common faces and boundary faces from the lattice points of a face; completeness in the Lagrange basis: the values at the Lagrange points as coefficients, shared degrees of freedom have the same Lagrange point, dropped ones are on the boundary; in the Bernstein basis: the matrix of the change of basis is injective, hence invertible; dimension: an injective linear map from the coefficients onto the space |
| C88 | the generators of C31; `Spec/FloatExpr`: syntax trees and the values that evaluating them with rounded operations can give, `Spec/FloatPoly`: the error bound | the text is read as one tree (stack machine); `Bound`: value, sum of absolute values and depth of roundings of a tree, by induction over the string functions; error by induction over the tree; line breaks do not change the tree |
| C89 | `Model/PolyHeap`: arrays, polynomial objects that point to them, compiled evaluation functions and the class attribute `_basis_polynomials_monomial_form`, as a state with operations; `Spec/PolyHeap`: programs that compute with values | refinement: simulation relation (cells of arrays and objects are disjoint, coefficients in the array and in the compiled function are those of the value, table entries are correct and present for each Lagrange object), one step, then induction over the history; frame lemma for histories with assignments to `coeff` |
| C90 | `Model/SimplexPolyHeap`: arrays of vertices, polynomial objects on simplices that point to them and keep the map to the unit simplex, as a state with operations; `Spec/SimplexPolyHeap`: programs that compute with values | refinement for all histories that do not assign to an array of vertices after a polynomial was constructed with it (induction with the set of arrays in use), frame lemma for all histories; the sum after such an assignment, as a finding |
| C91 | `Model/PiecewisePow`: `__pow__` with a multi-index of the piecewise polynomial classes: component times power with a smaller exponent (Bernstein), powers of values at the Lagrange points (Lagrange) | Bernstein by induction on the norm of the exponent with the product theorem of C48; Lagrange by interpolation: the product of the powers is a polynomial of degree `r·abs(a)` on each simplex, and the values at common lattice points agree |
| C92 | `Model/PiecewiseHeap`: arrays of triangles, boundary simplices and vertices, sets of simplices, and piecewise polynomial objects that point to them, as a state with operations; which operations share the set `support()` with the operand, and that the root of the search tree refers to it; `Spec/PiecewiseHeap`: programs that compute with values | refinement for all histories that do not assign to an array after a function was constructed with it and do not change the sets that `support()` returns (induction with the sets of arrays in use and an invariant that each set is the support of every object that refers to it); frame lemmas for evaluation on a simplex, coefficients and support; two histories for which the results differ |
| C93 | `Model/AffineMap`: numpy values (numbers, one and two dimensional arrays) with broadcasting and `np.dot`; all branches of `affine_map.py`; `affine_transformation*` of `simplex.py` on them; `Spec/AffineMap`: which values stand for a point or a matrix | case analysis over the representations; refinement of the typed model of C37 and C67; exact condition for `affine_composition`; the result for lines computed |
| C94 | `Model/FiniteDifferenceArray`: the in-place differences with the conversion of assigned numbers to the type of the array and with results that share memory with the argument | induction over the coordinates; floor and ceiling for the truncation |
| C95 | `Model/MultiIndexOperators`: Python's choice between the operator of the left operand and the reflected method; numpy's entry by entry operation | reduction to C09 and list induction; case analysis over the lengths |
| C96 | `Model/SimplexInteger`: the loop of `_cartesian_to_barycentric_volume` with the conversion of assigned numbers to the type of the array of vertices | invariant of the loop; reduction to C38 and C39 for the truncated point, which is characterised uniquely |
| C97 | `Model/FloatIntegration`: integration over the unit simplex, `barycentric_to_cartesian`, `centroid` and `cartesian_to_barycentric_unit` as relations between inputs and possible results, where each operation on floats may be rounded | accumulated relative errors: a bound for products, reciprocals and sums of nearly exact numbers, by induction on the loops; exact values from C50 |
| C98 | `Model/NonFinite`: numpy numbers (finite, infinite, undefined), `int`, `str_number`, the constructors of the three classes up to the generated code, division by a number that may be zero, evaluation of a divided piecewise polynomial | the numbers that are printed are not all finite if a coefficient is not; `int` raises for the first of them; induction on the loops |
| C99 | `Model/FloatPolynomial`: product, sum, difference, degree elevation, partial derivatives and scaling of scalar valued Bernstein polynomials (powers and quotients in `Model/FloatPower`), where each operation on floats (and SciPy's `binom`) may be rounded; a coefficient of a result is the set of its possible values | each coefficient is near to its exact value relative to the same sum with absolute values (lemmas of C97); the Bernstein polynomials are non-negative on the unit simplex, so the bound carries over to the values; exact identities from C24; powers by induction on the exponent, with a bound of the sizes of the intermediate results |
| C100 | `Model/FloatMonomial`: product, sum, difference, partial derivatives and scaling of scalar valued polynomials in the monomial basis (powers and quotients in `Model/FloatPower`), where each operation on floats may be rounded; `np.convolve` enters through a contract | the loops of the product keep, for each coefficient, the number of products added so far and the sum of their absolute values; at most one product per coefficient of the first factor contributes; triangle inequality for the values |
| C101 | `Model/FiniteDifference` (exact arithmetic) and `Model/FloatDifference`, `Model/FloatSecondDifference` (rounded first and second differences, gradients and matrices of second differences; the function is computed with an absolute error of at most `δ`) | Taylor's formula with remainders from the mean value inequality, for steps of either sign; the mean value theorem applied twice for mixed second differences; errors of the points, the values, the difference and the quotient are added |
| C102 | the objects of C26, C27 and C62 (no new definitions); a function enters through its values and derivatives | coefficients are values at the Lagrange points (C26), representation of any polynomial in the Lagrange basis (C30), Rolle's theorem applied r + 1 times to the difference of the function, the interpolant and a multiple of the nodal polynomial, induction on r for the product of distances; in several variables the basis functions are bounded on the unit simplex (compactness), and Taylor's formula along segments gives a polynomial close to a smooth function |
| C103 | the objects of C23 and C24 and the lattice points of C26 (no new definitions) | generating function of the Bernstein polynomials from the multinomial theorem, its coefficients are the factorial moments; mean and variance; the elevated coefficients are averages of the given ones |
| C104 | `Model/FloatQuadrature`: the rules of C51 as sets of possible results; literals and operations are rounded, the integrand is a parameter with an error of at most `δ`; the determinant of NumPy and the composition with the affine map enter through their errors | every term is a rounded product, sums from left to right add one rounding per term; the error against the integral adds the bound of C51 |
| C105 | `Model/MultiIndexDict`: CPython's dictionary as the list of its entries in insertion order, each with the hash stored at insertion, the key object and the value; objects in a memory; the hash of tuples is a parameter; slots of the hash table and deletions are not modelled | refinement to the association lists of the local-to-global model, for every hash function; induction over the history of assignments |
| C106 | `Model/Plot`: the sequence of commands to matplotlib (new figure, drawing commands with their figure, show) and pyplot's current figure; what matplotlib does with the commands and optional arguments other than `fig` and `color` are not modelled | direct; induction over the triangles for the wireframe in space |
| C107 | `Model/PlotFunction`: the points passed to the plot commands of C106; exact numbers, total functions; `evaluate_on_simplex` is a parameter (its values are C39, C81) | induction over the intervals and triangles of the mesh; C49 for the tilings |
| C108 | `Model/DocsNames`: contents of files as strings, files by directory and name, the current directory | induction over the content and the listing |
| C109 | `Model/ModularDict`: dictionary as a list of entries with stored hashes; the hash of integers is that of CPython on a 64 bit machine; no deletions, no assignment to attributes | induction over the history of assignments |
| C110 | `Model/DocsVersion`: the content of `conf.py` as a string, the output of Git is a parameter; both calls of Git in `get_git_description` are assumed to have the same outcome | induction over the content |

### What is modelled, by file

| Python file | model | not modelled in this file |
|---|---|---|
| algebra/multiindex.py, modular_arithmetic.py | `MultiIndex`, `MultiIndexHeap`, `MultiIndexOperators`, `MultiIndexDict`, `OrderCache`, `ModularArithmetic`, `ModularDict`, `Representation` | |
| algebra/permutations.py, set_theory.py | `Permutations`, `SetTheory`, `Representation` | timing helpers |
| polynomial/polynomials_base.py, polynomials_monomial_basis.py, polynomials_unit_simplex_bernstein_basis.py, polynomials_unit_simplex_lagrange_basis.py | `PolynomialsBase`, `Polynomial`, `PolynomialBernstein`, `PolynomialLagrange`, `PolynomialOps`, `LagrangeCache`, `Latex`, `CodeStr`, `Representation`, `PolyHeap`, `NonFinite`, `FloatPolynomial`, `FloatMonomial`, `FloatPower` (rounding errors) | none of the functions; the documentation of the module |
| polynomial/polynomials_unit_simplex_bases.py, dual bases | `DualBases` | n = 1 dual functions applied to vector polynomials of length 1 |
| polynomial/polynomials_simplex_*_basis.py | `SimplexPolynomial`, `BasisIdentifier`, `Calculus`, `SimplexDual`, `Latex`, `CodeStr`, `Representation` (iteration), `SimplexPolyHeap` | `__repr__` |
| polynomial/code_generation/*, generic_tools/str_utils.py, code_generation_utils.py | `StrUtils`, `CodeGeneration`, `CodeStr`, `Latex`, `DocString`, `CodeTrace` | |
| docs/shorten_module_and_package_names.py, docs/set_version_from_git.py | `DocsNames`, `DocsVersion` | encodings of files, errors while a file is written |
| piecewise_polynomial/* | `LocalToGlobal`, `SubSimplex`, `Piecewise`, `PiecewisePow`, `PiecewiseDual`, `PiecewiseCall`, `PiecewiseHeap`, `PlotFunction` | mesh file input |
| geometry/primitives/simplex.py, calculus/affine_map.py | `Simplex`, `SimplexInteger`, `SimplexDegenerate`, `SimplexGeometry`, `AffineMap` | results that numpy answers with `nan` (degenerate simplices), except in `is_degenerate`, `cartesian_to_barycentric` and `inside_simplex` |
| geometry/primitives/triangle.py | `Triangle` | results that numpy answers with `nan` |
| geometry/mesh/simplicial_complex.py, geometry/mesh/triangle_mesh.py, geometry/mesh/basic_meshes/* | `SimplicialComplex`, `SimplexCounts`, `TriangleMesh`, `VertexNormals`, `BasicMeshes` | rows that numpy answers with `nan` |
| geometry/proximity/aabb.py, geometry/space_partitioning/* | `Aabb`, `AabbReal`, `KdTree`, `KdTreeAccessors`, `KdTreeRecurse`, `MeshKdTree` | - |
| calculus/polynomial/polynomials_calculus.py | `Calculus`, `Integration` | |
| calculus/polynomial/polynomials_simplex_*_calculus.py, calculus/quadrature.py | `Integration`, `FloatIntegration` (rounding errors), `IntegralCache`, `Quadrature`, `FloatQuadrature` (rounding errors), `Midpoint`, `AdaptiveQuadrature` | the internals of SciPy's adaptive quadrature (a contract, C73) |
| `polynomials_equal*`, calculus/error_measures.py | `Equality` | numpy scalars, whose indexing raises IndexError instead of TypeError |
| calculus/finite_difference.py, calculus/angle.py, linalg/*, probability_theory/uniform_sampling.py | `FiniteDifference`, `FiniteDifferenceArray`, `FloatDifference`, `FloatSecondDifference`, `Angle`, `Linalg`, `GramSchmidtArray`, `Sampling`, `RandomRotation`, `PointClouds` | |
| geometry/mesh/point_clouds.py | `PointClouds` | NumPy's `eig` (a contract, C76) |
| algebra/algebraic_operations.py | `Composition` | |
| visualization/*, calculus/plot_function.py | `Plot`, `PlotFunction` | what matplotlib does with the commands; arguments that are only passed on |
| generic_tools/package_utils.py | `PackageUtils` | `pkgutil.walk_packages`, `sys.path`, symbolic links, Windows paths |

### External code, and what is assumed of it

* `scipy.special.binom`, `math.factorial`, `math.gamma`: exact values.
* `np.linalg.det`, `inv`, `solve`: exact matrix operations; singular matrices raise `LinAlgError`.
* `np.linalg.qr`, `pinv`: any result satisfying the mathematical contract (hypotheses of C60).
* `np.arctan2` is `Complex.arg`; `np.cos`, `np.sin`, `np.sqrt` are the real functions.
* Gauss-Legendre points and weights (sympy) enter through their defining contract (C51).
* Random generators: an arbitrary list of outcomes in their documented range (C18, C55). For C84, C85 and C86 the outcomes are random variables that are independent and distributed as documented (uniform in [0, 1), standard normal, or uniform on a range of integers); the pseudo random generator and the rounding of its numbers to floating point are not modelled.
* `str(float)`: a parameter with the hypothesis that the text denotes the number exactly (C31) or with a relative error of at most `ε` (C88); `hash`: a parameter.
* Python's `exec` of generated code: replaced by the specifications `Spec/PyExpr` of the expression fragment and `Spec/CodeStr` of functions with assignments (the lexer also accepts leading zeros in
  integers, which Python rejects and the generators never produce).

### Simplifications

* NumPy arrays of integers that silently truncate floats on assignment (`dtype` effects) are only modelled for the finite differences (C94) and for barycentric coordinates (C96); elsewhere arrays have
  entries in the field.
* Calling a polynomial in the model asserts that the point has the right number of coordinates.
* `np.empty` arrays that are filled completely are modelled by the filled array (`fillRows`, `fillLoop`).
* Keys of dictionaries that are `MultiIndex` or tuple objects are lists of numbers.
* The identifiers of bases on a simplex print the vertices (8 digits) in the code; the models other than that of C80 compare the basis and the vertices.
* The search tree of piecewise polynomials is a parameter (`mkTree`, `leaf`, `inside`) with the contract of C41/C42, except in C81, where it is the tree of `create_kd_tree`; cells have full dimension.
* For one variable the dual Bernstein formula with `mu > r` gives `inf`/`nan` in the code; the model reports an error.

## Findings

Each of these is a theorem about the model (named in MANIFEST.json / the Props files), so the English property is either restricted or partial.

* C03 `get_degree_from_dimension` raises AssertionError from degree 20 on; hence every result of degree >= 20 is rejected by the constructors (C21-C27, C62).
* C98 the constructors accept no infinite or undefined coefficients: `int(c)` raises OverflowError or ValueError when the code is generated; so `p / 0` raises one of these, not ZeroDivisionError. Division of a
  piecewise polynomial by zero is accepted instead, and the values of the result are infinite or undefined (`C98_nonfinite`, `C98_divide_zero`, `C98_divide_zero_piecewise`).
* C21, C23, C27 a scalar valued polynomial to the power of a multi-index of length 1 is computed in the monomial basis only; the other classes raise IndexError and TypeError (`C23_pow_sequence`, `C27_pow_sequence`).
* C60 `subspace_projection_map` fails (AssertionError) in a space of dimension one.
* C01 the iterator does not stay exhausted. C02 the base-r reading of the order in the documentation is false (base r+1 is right).
* C08 `MultiIndex` keeps a reference to the caller's list, which can break its invariant. C09 `add` truncates to the shorter operand.
* C10 `>` and `<=` with a plain integer raise AttributeError; `==` with an integer is not modular.
* C11 `nfold_cartesian_product` for n = 0, 1 has the wrong shape.
* C12 the empty permutation raises IndexError. C17 counts and lists disagree for k = 0. C19 repeated elements are accepted. C20 empty tuples.
* C25 `bernstein_basis_fn_monomial` with an integer index returns a Bernstein polynomial.
* C29, C30 conversion to the Bernstein basis and dual Bernstein functions fail from degree 10 on; dual functions fail for polynomials of another degree;
  `vector_valued_polynomial_basis` with n = 1 exchanges degree and dimension.
* C89 after `p.coeff[i] = v` products and multi-index powers in the Lagrange basis are computed from the old coefficients, in the other bases from the new ones (`C89_stale_product`, `C89_stale_power`).
* C31 `str(m) + str(r)` in the names of generated functions is ambiguous: degree 11 in one variable and degree 1 in eleven variables, with the same coefficients, give the same name (`C31_name_ambiguous`).
* C24 `degree_elevated_bernstein_basis_fn` with a multi-index outside the basis: IndexError for one variable, AssertionError otherwise (`C24_elevated_basis_fn_rejected`).
* C31 prettified fractions change numbers within 1e-10 of a fraction with small denominator.
* C32 `CodeWriter.wc("")` raises IndexError; an empty separator raises ValueError.
* C33 integer multi-indices raise TypeError; the case r = 0 returns a multi-index that is one entry short.
* C34 `boundary_map_matrix` with k = 0 raises TypeError. C36 the assertion in `opposite_sub_simplex` can never fail.
* C36 `num_simplex_boundary_simplices(0)` is 1, but `simplex_boundary` of a vertex is empty (`C36_num_boundary_simplices_vertex`).
* C38, C39 coordinates are negated for negatively oriented simplices and `inside_simplex` is False for all points of them.
* C40 unions of invalid boxes. `is_equal` compares only the coordinates of its first argument: a box equals every box of larger dimension that projects to it, and in the other order the call raises IndexError (`C40_is_equal_dimension`). C41 `node_aabb` is larger than the cell if a plane misses its box; cut off nodes keep their address; `recurse` raises TypeError when its function cuts a node further up while the first half of its subtree is visited (`C41_recurse_parent_cut`).
* C42 `create_kd_tree` with its default arguments raises TypeError.
* C44 repeated simplices; C45 boundary simplices containing cells; C61 boundary degrees of freedom are not last for sequential vector ordering.
* C47, C48 spaces with vanishing boundary values: index -1 selects the last coefficient in restriction, elevation and products; sums raise KeyError.
* C49 vertex functions with n = 1 divide by zero; `triangle_mesh_*` raises ModuleNotFoundError.
* C50 `integrate_*_simplex` of Bernstein polynomials rejects negatively oriented simplices.
* C51 rules with n = 0 are rejected. C53 the array stays perturbed when the function raises.
* C56 `has_consistent_orientation` only looks at the first neighbour. C59 `orthogonal_vector` in dimension one returns a parallel vector.
* C95 `x ** a` with a numpy array `x` is not `power(x, a)`: numpy's operator runs instead of `MultiIndex.__rpow__` and returns the array of the powers
  (`C95_power_array`). Likewise `x - a` with an array returns an array with possibly negative entries (`C95_add_sub_array`).
* C96 `cartesian_to_barycentric` and `inside_simplex` write the point into the array of vertices. If this is an array of integers, e.g.
  `np.array([[0, 0], [1, 0], [0, 1]])`, the point is truncated and the result silently wrong: `inside_simplex` is True for (9/10, 9/10)
  (`C96_integer_vertices`, `C96_integer_vertices_iff`, `C96_integer_inside`, `C96_unit_simplex`).
* C94 `forward_difference`, `central_difference` and the Jacobian versions perturb the caller's array in place. In an array of integers the step is truncated, so
  the result is silently 0 or wrong by the factor `1 / h` (`C94_integer_forward`, `C94_integer_central`, `C94_integer_linear`); for functions that return their
  argument or a slice of it the result is silently 0 (`C94_views`).
* C93 `affine_transformation` is wrong for two lines if the second lies in a space of dimension `m > 1`: `affine_composition` adds `np.dot(a2, b1)`, of
  shape `(m, 1)` because `b1` is a number, to `b2` of shape `(m,)`, and broadcasting gives an offset of shape `(m, m)` (`C93_line`). More generally
  `affine_composition` is right exactly if the representations of one dimensional quantities fit together (`C93_composition`): e.g. for a map to the
  line given by a matrix with one row the offset becomes an array of length one, which `create_affine_map` rejects.
* C59 `rotation_matrix_to_axis_angle` changes the matrix of the caller for half turns: `axis = R[:, i]` is a view, so `axis[i] += 1` and `axis /= ...`
  overwrite column `i`. Afterwards the matrix is no rotation matrix unless the axis is a coordinate axis (`C59_half_turn_overwrites`). For rotations within
  `1e-10` of a half turn (in the trace) the returned axis is only accurate to about `5e-6` (`C59_half_turn_inaccurate`, `C59_all_rotations`).
* C54 `gram_schmidt_orthonormalization` updates the vectors in place (in a copy), which numpy refuses for arrays of integers: a basis that contains one, e.g.
  `np.array([[1, 1], [0, 2]])`, raises a TypeError (`C54_gram_schmidt_integer`). Bases of floats are handled as stated (`C54_gram_schmidt_float`).
* C105 a `MultiIndex` has a hash but can be changed. Changed while it is a key of a dictionary, its entry can no longer be found (`C105_changed_key`). With keys of different
  dimensions a lookup raises a ValueError instead of a KeyError if two hashes collide (`C105_collision`).
* C106 `plot_plane_curve` ignores the figure passed as `fig` and draws in pyplot's current figure (`C106_plane_curve_other_figure`).
* C107 `plot_bivariate_piecewise_polynomial` passes its own random color next to the keyword arguments of the caller, so a call with `color=...` raises a TypeError
  (`C107_bivariate_color`). `plot_bivariate_continuous_piecewise_polynomial` always raises ModuleNotFoundError, because `triangle_mesh_triangulation` does
  (`C107_bivariate_continuous`, `C49_triangle_mesh`).
* C108 `shorten_all_rst_files(directory)` lists the given directory but opens the files by their names only, that is in the current directory. Run from anywhere else it never
  changes a file of the directory; it raises FileNotFoundError, or changes files of the same name in the current directory (`C108_other_directory`).
* C109 `IntegerModuloN.__hash__` returns the representative instead of its hash. From 2^61 - 1 on these differ: `IntegerModuloN(2**61 - 1, 2**62) == 2**61 - 1` is True, but the dictionary
  `{2**61 - 1: v}` has no entry for it (`C109_large`). Integers with different moduli cannot be keys of one dictionary: the lookup raises ValueError when representatives agree (`C109_moduli`).
* C110 `update_version_in_conf` only replaces an empty version. After the first run `conf.py` keeps the version of that run, whatever Git reports later (`C110_once`).
* C62 `p**0` has degree 1 in the Lagrange basis.
* C64 the dual Bernstein functions on a simplex do not check the degree of a monomial polynomial: a smaller degree ends with an IndexError
  (`C64_dual_bernstein_degree`). A larger degree is accepted, but the coefficients of the product are read in the order of another degree (`C64_dual_bernstein_higher_degree`): on the unit triangle
  `dual_bernstein_basis_fn_simplex((0, 0), 1, vertices)` gives 4 instead of 1 for `Polynomial([1, 0, 0, 0, 0, 0])` (`C64_dual_bernstein_higher_degree_wrong`).
* C66 the weak derivative is wrong in spaces with vanishing boundary values (derivative 0 for `1 - x`), because the restriction is.
  A second cause is the counter of the dual functions, which is not increased for degrees of freedom that are left out (`C66_dropped_counter`).
* C37, C67 `affine_map_from_unit` of a single point raises IndexError, its `basis` TypeError; `cartesian_to_barycentric` of an embedded point raises TypeError
  even for the point itself; so polynomials on 0-dimensional simplices do not exist in the library (the model of C62 does not exclude dimension 0).
* C39 `inside_simplex` is False for all points of a degenerate simplex, also for its vertices (`C39_degenerate`), and for a point as a simplex if the boundary is excluded (`C39_point`); so calling a
  piecewise polynomial never uses a degenerate or negatively oriented simplex (`C81_any_orientation`).
* C68 `is_degenerate` of a simplex is False if all its faces are degenerate, for example for a tetrahedron whose four vertices lie on a line, and for a line whose end points coincide: the altitudes (or their
  quotients with the diameter) are computed as `0/0`, an undefined number, and comparisons with it are False. Proved (`C68_is_degenerate_degenerate`, `C68_is_degenerate_line`).
* C69 outside dimension 3 `compute_angle` treats vectors shorter than 1e-12 as parallel: `circumcenter` and `orthocenter` of a tiny planar triangle return its
  incenter. `inside_triangle` in space is True for points off the plane of the triangle that project into it. `is_degenerate` is False if the three
  vertices coincide.
* C71 with the default absolute tolerance all polynomials with values below 1e-7 are "equal"; the tests compare only as many components as the value of the
  first function has, so `polynomials_equal(p, q)` can be True when `polynomials_equal(q, p)` raises IndexError.
* C70 `vertex_normals_cotangent` divides zero by zero at every interior vertex of a mesh in the plane (there the area does not depend on the vertex), and
  raises ZeroDivisionError if one triangle is degenerate. `vertex_normals` takes a misspelt weight for "no weight". `get_num_vertices([])` raises ValueError.
* C74 parameters with default values make a function "multivariate": `composition(lambda x, n=2: x**n, g)` raises TypeError for number-valued `g`.
* C75 exponents and variable numbers with two digits: `x^10` is printed without braces and reads as `x^1 0`; the same for `x_10`. Proved
  (`C75_monomial_large_exponent`, `C75_monomial_many_variables`). The formula in the documentation of the Bernstein basis has braces and is right.
* C75 Bernstein polynomials of degree 0: the text of the basis function is empty, and `latex_str_expanded` raises IndexError.
* C75 `latex_str_expanded` on a simplex decides by the length of the text (more than three characters) whether a basis polynomial needs parentheses:
  for Lagrange polynomials of degree 1 on [0, 1/2] with coefficients 0 and 3 the text is `3 2 x`, which reads as 32 x; the polynomial is 6 x.
* C75 small numbers are printed as `1e-05`, which is `1 e - 05` in LaTeX.
* C75 coefficients of Lagrange basis polynomials are rounded to a denominator of 1000. They are exact up to degree 6 (denominators divide r!); the theorem for
  degrees 7 to 9 assumes exact printing, which does not hold for all coefficients there (a denominator of degree 9 is 4480).
* C76 the documentation of `principal_component_axis` says that the sum of ⟨x_i - mean, w⟩ is maximised; this sum is zero for every w. The code maximises the sum of the
  squares. Proved (`C76_documentation`, `C76_principal_axis`).
* C77 `basis_matrix` accepts vectors with one component in any dimension and repeats the component (broadcasting). Proved (`C77_basis_matrix_wrong`).
* C78 `code_str` of a polynomial on a simplex prints the affine map with NumPy's `__repr__`, that is with eight digits; the code then has other values than the polynomial. Proved (`C78_rounding`).
* C79 `repr` of a polynomial prints dimension and degree in the wrong order (and a module path that does not exist, and coefficients without commas); evaluating it exchanges degree and dimension without an error, because the number of coefficients is symmetric in the two. Proved (`C79_polynomial_repr`).
* C79 `IntegerModuloN(2 ** 61, 2 ** 62) == 2 ** 61` but the hashes differ (CPython reduces hashes of integers modulo `2 ** 61 - 1`). Proved (`C79_integermodulon_hash_counterexample`).
* C80 The identifiers of bases on simplices contain `str(vertices)`, which NumPy rounds to eight digits: polynomials on different simplices that are printed alike are added, subtracted and (in the Bernstein basis) multiplied without an error, at points with the same barycentric coordinates. Proved (`C80_add_printed`, `C80_mul`, `C80_rounding_counterexample`).
* C48 `unit_*`, `zero_*` and `p ** 0` raise AssertionError for continuous functions if a vertex is not used by the mesh or is part of a boundary simplex that is not numbered last, i.e. always for functions that vanish on a part of the boundary, even the zero function (`C48_unit_zero_exact`, `C48_pow_zero_exact`).
* C48 The product of a continuous and a discontinuous piecewise polynomial is returned as a continuous one; at shared points the last simplex wins. Proved (`C48_mul_mixed_wrong`).
* C81 `inside_simplex` uses signed volumes, so on a mesh of negatively oriented simplices every piecewise polynomial is zero when it is called, while `evaluate_on_simplex` returns the value. Proved (`C81_negative`).
* C81 `p**0` uses the search tree of `p`, which was built for the support of `p` only: it is called as 0 outside of these simplices, although its value on each simplex is 1. Proved (`C81_pow_zero`).
* C82 `submodules` removes the text `.py` everywhere in the dotted path: `pkg.pyutils` becomes `pkgutils`. Proved for every name with a component after the first that begins with `py` (`C82_submodules_wrong`).
* C82 `source_file_paths('.', exclude_test_files=True)` raises IndexError if a file with the name of a test file is directly in the directory. Proved (`C82_source_files_error`).
* C89 An assignment `p.coeff[i] = v` does not change `p(x)` (compiled at construction), but everything that is computed from `p.coeff`: sums, products, derivatives. Proved (`C89_stale_evaluation`).
- C90: a polynomial on a simplex keeps a reference to the array of vertices of the caller. A program that uses one array for the vertices of one simplex after the other gets wrong sums: with `p` constructed on `[0, 1]`, the array overwritten with `[0, 2]` and `q` constructed on it, `p + q` is accepted (the operands seem to be on the same simplex) and is the polynomial on `[0, 2]` with the sum of the coefficients, although the values `p(x)` and `q(x)` are those of polynomials on different simplices (`C90_reused_array`, `C90_reused_array_example`).
- C91: `PiecewisePolynomialLagrange.__pow__` returns the unit function if the degree of the result is zero (`C91_lagrange_constant`). For a function of degree zero this is the case for every exponent: the function with the values (2, 3) and (5, 7) on two triangles to the power (1, 1) is the constant 1 instead of 6 and 35 (example beside the theorem). `PiecewisePolynomialBernstein.__pow__` always multiplies with the unit function at the end: it fails with ValueError for discontinuous functions whose boundary degrees of freedom are numbered last (`C91_bernstein_keep`), it fails for continuous functions if a vertex of the vertex list is not used, and the degree of the result is one higher than necessary for continuous functions (`C91_bernstein`).
- C92: `support()` returns the set itself, and multiples, quotients, degree elevations, first powers and weak derivatives keep the same set. A program that removes the elements of `(p * 2).support()` makes `p` the zero function (`C92_shared_support`). A piecewise polynomial keeps references to the arrays of the mesh. After an assignment to the array of vertices its methods disagree: with `p(x) = x` on `[0, 1]` and the end point moved to 2, `evaluate_on_simplex(0, 3/2)` is 3/2, `restrict_to_simplex(0)(3/2)` is 3/4, and `p(3/2)` is 3/2 although 3/2 was outside of the mesh (`C92_moved_vertices` and the example beside it).

Not modelled at all: documentation strings (other than those in generated code, `DocString`), what matplotlib does with the plot commands, `ci/`, `docs/` (other than `shorten_module_and_package_names.py` and `set_version_from_git.py`), tests, the internals of SciPy's quadrature,
the internals of NumPy's QR/SVD, wall-clock behaviour.
