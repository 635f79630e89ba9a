{"id": "C01", "title": "Multi-index enumeration is complete and duplicate free", "statement": "generate_all(n, r) terminates and returns every n-tuple of non-negative integers with component sum <= r exactly once, and nothing else.", "quantifier": "every dimension n >= 0 and every norm bound r >= 0", "why_tests_cant": "the enumeration is produced by a stateful recursive iterator; tests look at a handful of (n, r), while every basis, coefficient vector and degree-of-freedom numbering in the library relies on it for all (n, r)", "anchors": ["polynomials_on_simplices/algebra/multiindex.py: generate_all, MultiIndexIterator"]}
{"id": "C02", "title": "Multi-index enumeration order", "statement": "generate_all(n, r) lists multi-indices in strictly increasing order when tuples are compared with the last component most significant; in particular the zero multi-index is first and the first component varies fastest.", "quantifier": "every n, r and every pair of positions i < j", "why_tests_cant": "coefficient arrays are positional, so one misplaced multi-index silently changes the polynomial; the ordering of all pairs for all sizes cannot be sampled", "anchors": ["polynomials_on_simplices/algebra/multiindex.py: generate_all, MultiIndexIterator"]}
{"id": "C03", "title": "Number of multi-indices equals the advertised dimension", "statement": "len(generate_all(n, r)) = num_multiindices(n, r) = get_dimension(r, n) = binomial(n + r, r), and get_degree_from_dimension(get_dimension(r, m), m) returns r.", "quantifier": "every n, r >= 0 (and for the degree inference every m >= 1)", "why_tests_cant": "array sizes are computed from the closed form while the arrays are filled by iteration; agreement is needed for all sizes; degree inference is capped at a constant so the claim fails from some degree on", "anchors": ["polynomials_on_simplices/algebra/multiindex.py: num_multiindices, generate_all", "polynomials_on_simplices/polynomial/polynomials_base.py: get_dimension, get_degree_from_dimension"]}
{"id": "C04", "title": "Index lookup and enumeration are mutually inverse", "statement": "get_index(mi, r) returns the position i of mi in generate_all(len(mi), r) and generate(n, r, i) returns the i:th element; so generate(n, r, get_index(mi, r)) = mi and get_index(generate(n, r, i), r) = i. The pre-computed cache gives the same answer as the linear search.", "quantifier": "every multi-index of every dimension, every r >= |mi|, every i below the dimension", "why_tests_cant": "get_index mixes a hand written cache (n in 2..4, r in 1..6) with a search; a single wrong cache line silently swaps two coefficients", "anchors": ["polynomials_on_simplices/algebra/multiindex.py: get_index, generate", "polynomials_on_simplices/algebra/multiindex_order_cache.py: multiindex_order_cache"]}
{"id": "C05", "title": "Mixed radix multi-index enumeration", "statement": "generate_all_multi_cap(r) returns every tuple mi with 0 <= mi[i] <= r[i] exactly once, in the order in which generate_multi_cap(r, i) is the i:th, i = 0 .. prod(r[j] + 1) - 1.", "quantifier": "every n and every cap vector r of length n", "why_tests_cant": "two independent implementations (mixed radix arithmetic and a carry iterator) must agree for all cap vectors", "anchors": ["polynomials_on_simplices/algebra/multiindex.py: generate_all_multi_cap, generate_multi_cap, MultiIndexIteratorMultiCap"]}
{"id": "C06", "title": "General and exact-norm multi-indices are in bijection", "statement": "exact_norm_to_general(general_to_exact_norm(a, r)) = a with norm(general_to_exact_norm(a, r)) = r whenever |a| <= r (and an AssertionError otherwise); generate_all_exact_norm(n, r) lists every length-n tuple with sum exactly r once.", "quantifier": "every multi-index a, every r, every n >= 1", "why_tests_cant": "barycentric (homogeneous) exponents are recovered this way everywhere; needs all sizes", "anchors": ["polynomials_on_simplices/algebra/multiindex.py: general_to_exact_norm, exact_norm_to_general, generate_all_exact_norm"]}
{"id": "C07", "title": "Increasing and non-decreasing multi-index enumerations", "statement": "generate_all_increasing(n, r) / generate_all_non_decreasing(n, r) return exactly the strictly increasing / non-decreasing n-tuples with entries in 0..r, each once, and is_increasing / is_non_decreasing decide these orders.", "quantifier": "every n >= 0, r >= 0", "why_tests_cant": "used to enumerate simplices and index symmetric tensors; completeness over all tuples is not sampleable", "anchors": ["polynomials_on_simplices/algebra/multiindex.py: generate_all_increasing, generate_all_non_decreasing, is_increasing, is_non_decreasing"]}
{"id": "C08", "title": "Multi-index objects never hold negative entries", "statement": "After any successful sequence of constructions, item assignments, additions and subtractions every component of every MultiIndex is non-negative; operations that would produce a negative component raise ValueError and leave the object unchanged.", "quantifier": "every history of operations on multi-indices", "why_tests_cant": "it is a history invariant", "anchors": ["polynomials_on_simplices/algebra/multiindex.py: MultiIndex.__init__, __setitem__, __add__, __sub__"]}
{"id": "C09", "title": "Multi-index algebra", "statement": "power(x, a + b) = power(x, a) * power(x, b); power(x*y, a) = power(x, a) * power(y, a); multinom(a) * factorial(a) = |a|!; binom(a, b) * factorial(b) * factorial(a - b) = factorial(a) for b <= a; norm(a + b) = norm(a) + norm(b).", "quantifier": "all multi-indices of equal length and all points", "why_tests_cant": "algebraic laws over unbounded tuples and numbers", "anchors": ["polynomials_on_simplices/algebra/multiindex.py: power, norm, factorial, binom, multinom, multinom_general"]}
{"id": "C10", "title": "Integers modulo n form a ring and stay reduced", "statement": "Every IntegerModuloN value produced by construction, +, -, *, negation (also mixed with plain integers) has 0 <= value < n, and the operations agree with integer arithmetic modulo n; combining different moduli raises ValueError. Ordering comparisons with plain integers behave like comparisons of the representative.", "quantifier": "every modulus n >= 1, all integers, all expression trees", "why_tests_cant": "laws over all integers and arbitrary operation sequences", "anchors": ["polynomials_on_simplices/algebra/modular_arithmetic.py: IntegerModuloN"]}
{"id": "C11", "title": "n-fold cartesian product", "statement": "nfold_cartesian_product(s, n) is the set of all n-tuples with entries in s; cartesian_product(s, t) is the set of pairs.", "quantifier": "every finite set s and n >= 1", "why_tests_cant": "recursive construction; the shape of the elements changes with n", "anchors": ["polynomials_on_simplices/set_theory.py: cartesian_product, nfold_cartesian_product"]}
{"id": "C12", "title": "Permutation inverse and composition are group operations", "statement": "For permutations of {0..n-1} in one-line notation, composition(s, p)[i] = s[p[i]], composition(p, inverse(p)) = composition(inverse(p), p) = identity(n), inverse(inverse(p)) = p, and composition is associative; two-line notation and one-based notation round-trip.", "quantifier": "every n >= 1 and all permutations of n elements (for the empty permutation inverse and composition raise IndexError)", "why_tests_cant": "group laws over all permutations of all sizes", "anchors": ["polynomials_on_simplices/algebra/permutations.py: inverse, composition, identity, to_two_line_notation, from_two_line_notation, to_one_based, from_one_based"]}
{"id": "C13", "title": "Cycle notation is faithful", "statement": "to_cycle_notation terminates, returns disjoint cycles covering 0..n-1, and from_cycle_notation(to_cycle_notation(p)) = p; cycle(p, i) lists the orbit of i without repetition.", "quantifier": "every permutation of every size and every start element", "why_tests_cant": "termination of the while loop and the round trip depend on p being a bijection", "anchors": ["polynomials_on_simplices/algebra/permutations.py: cycle, to_cycle_notation, from_cycle_notation"]}
{"id": "C14", "title": "Transposition decomposition is faithful", "statement": "from_transpositions(to_transpositions(p), n) = p, and every transposition returned swaps two distinct elements.", "quantifier": "every permutation of every size", "why_tests_cant": "ordering of the product of transpositions is a classic off-by-order error that small symmetric examples miss", "anchors": ["polynomials_on_simplices/algebra/permutations.py: to_transpositions, from_transpositions, swap"]}
{"id": "C15", "title": "Sign of a permutation", "statement": "sign(p) is the parity of p (equal to (-1)^(number of inversions), i.e. the mathematical signature); sign(composition(s, p)) = sign(s) * sign(p), sign(inverse(p)) = sign(p) and swapping two elements flips it.", "quantifier": "all permutations of all sizes", "why_tests_cant": "multiplicativity over pairs of permutations of all sizes", "anchors": ["polynomials_on_simplices/algebra/permutations.py: sign, num_fixed_points"]}
{"id": "C16", "title": "Permutation actions and matrices", "statement": "permute_positions moves the element at position i to position p[i] and permute_values puts at position i the element a[p[i]]; the two actions are mutually inverse; the permutation matrices applied to a vector give the same result as the list functions.", "quantifier": "all permutations p and all lists a of matching length", "why_tests_cant": "active/passive conventions are easily swapped and agree on involutions, which most small tests are", "anchors": ["polynomials_on_simplices/algebra/permutations.py: permute_values, permute_positions, permutation_matrix_values, permutation_matrix_positions"]}
{"id": "C17", "title": "Enumeration of (subset) permutations", "statement": "permutations(n), subset_permutations(n, k) and increasing_subset_permutations(n, k) return every injective (resp. increasing) k-tuple over {0..n-1} exactly once, and the num_* functions return the number of them.", "quantifier": "all n, k with 1 <= k <= n (outside this range the lists are empty; for k = 0 the counting functions answer 1)", "why_tests_cant": "completeness and counts for all n, k", "anchors": ["polynomials_on_simplices/algebra/permutations.py: permutations, subset_permutations, increasing_subset_permutations, num_permutations, num_subset_permutations, num_increasing_subset_permutations"]}
{"id": "C18", "title": "Random permutations are permutations, and uniformly reachable", "statement": "generate_random_permutation(n) returns a permutation of 0..n-1 for every sequence of random draws, and distinct admissible draw sequences give distinct permutations, so that n! equally likely draw sequences hit every permutation exactly once.", "quantifier": "every n and every outcome of the random number generator", "why_tests_cant": "randomised code: tests see a few draws", "anchors": ["polynomials_on_simplices/algebra/permutations.py: generate_random_permutation, generate_random_subset_permutation"]}
{"id": "C19", "title": "construct_permutation finds the connecting permutation", "statement": "construct_permutation_general(initial, final) returns p with permuting initial by p giving final, for all non-empty lists of distinct elements that are rearrangements of each other; an element of final that is not in initial raises KeyError. construct_permutation(domain, codomain, n) returns a permutation p of 0..n-1 with p[domain[i]] = codomain[i] for all i, and rejects lists of different lengths.", "quantifier": "all duplicate free lists of all lengths", "why_tests_cant": "orientation signs of simplices are computed from it", "anchors": ["polynomials_on_simplices/algebra/permutations.py: construct_permutation, construct_permutation_general"]}
{"id": "C20", "title": "Circular equivalence", "statement": "circularly_equivalent(a, b) holds exactly when b is a rotation of a; it is an equivalence relation, and cyclic_permutations(a) lists all rotations.", "quantifier": "all non-empty lists of all lengths (nothing, not even itself, is equivalent to the empty tuple)", "why_tests_cant": "closure under all rotations of all sizes", "anchors": ["polynomials_on_simplices/algebra/permutations.py: cyclic_permutations, circularly_equivalent"]}
{"id": "C21", "title": "Monomial polynomials: arithmetic is pointwise", "statement": "In exact arithmetic, for Polynomial p, q: (p + q)(x) = p(x) + q(x), (p - q)(x) = p(x) - q(x), (p * q)(x) = p(x) q(x), (c p)(x) = c p(x), (p / c)(x) = p(x) / c, (p ** k)(x) = p(x) ** k and for a vector valued p (p ** mu)(x) = prod p_i(x) ** mu_i (for a scalar valued p also with a sequence of length 1), also for operands of different degree. A result of degree 20 or more on a domain of dimension >= 1 is rejected with an AssertionError (see C03).", "quantifier": "all degrees, dimensions, coefficients and points", "why_tests_cant": "coefficient index arithmetic must be right for all multi-index pairs; sampling cannot cover degree/dimension combinations", "anchors": ["polynomials_on_simplices/polynomial/polynomials_monomial_basis.py: Polynomial.__mul__, __pow__", "polynomials_on_simplices/polynomial/polynomials_base.py: PolynomialBase.__add__, __sub__, multiply_with_constant, __truediv__, __getitem__"]}
{"id": "C22", "title": "Monomial polynomials: derivative and degree elevation", "statement": "partial_derivative(i) of a Polynomial evaluates to the formal i:th partial derivative, and degree_elevate(s) does not change the function; s < degree and an index i outside the domain dimension are rejected. A result of degree 20 or more on a domain of dimension >= 1 is rejected with an AssertionError (see C03).", "quantifier": "all degrees, dimensions, coefficients, i, s", "why_tests_cant": "index arithmetic over all multi-indices", "anchors": ["polynomials_on_simplices/polynomial/polynomials_monomial_basis.py: Polynomial.partial_derivative, degree_elevate"]}
{"id": "C23", "title": "Bernstein polynomials: arithmetic is pointwise", "statement": "In exact arithmetic +, -, *, scalar multiplication and ** of PolynomialBernstein objects agree with the pointwise operations on their values, also for different degrees (the power of a scalar valued polynomial with a sequence of length 1 as exponent is an IndexError, unless the exponent is 0). A result of degree 20 or more on a domain of dimension >= 1 is rejected with an AssertionError (see C03).", "quantifier": "all degrees, dimensions, coefficients and points", "why_tests_cant": "product coefficients involve binomial ratios of exact-norm multi-indices; all sizes needed", "anchors": ["polynomials_on_simplices/polynomial/polynomials_unit_simplex_bernstein_basis.py: PolynomialBernstein.__mul__, __pow__"]}
{"id": "C24", "title": "Bernstein polynomials: degree elevation, derivative, conversion", "statement": "degree_elevate, to_monomial_basis and partial_derivative of PolynomialBernstein represent the same function / its formal partial derivative. degree_elevated_bernstein_basis_fn(nu, r, s) is the basis polynomial of degree r as a Bernstein polynomial of degree s > r, and rejects multi-indices outside the basis. A result of degree 20 or more on a domain of dimension >= 1 is rejected with an AssertionError (see C03).", "quantifier": "all degrees, dimensions, coefficients and points", "why_tests_cant": "nested sums over pairs of multi-indices", "anchors": ["polynomials_on_simplices/polynomial/polynomials_unit_simplex_bernstein_basis.py: PolynomialBernstein.partial_derivative, degree_elevate, to_monomial_basis, bernstein_basis_fn_monomial, degree_elevated_bernstein_basis_fn"]}
{"id": "C25", "title": "Bernstein basis functions: partition of unity and non-negativity", "statement": "The Bernstein basis functions of degree r sum to 1 at every point, are non-negative on the unit simplex, and a PolynomialBernstein with coefficients in [lo, hi] takes values in [lo, hi] on the unit simplex.", "quantifier": "all n, r and all points", "why_tests_cant": "identities over all points and all (n, r)", "anchors": ["polynomials_on_simplices/polynomial/polynomials_unit_simplex_bernstein_basis.py: bernstein_basis_fn, bernstein_basis, unit_polynomial"]}
{"id": "C26", "title": "Lagrange basis functions interpolate", "statement": "The Lagrange basis polynomial for nu has value 1 at its own Lagrange point and 0 at all others; dual_lagrange_basis_fn(mu)(lagrange_basis_fn(nu)) is the Kronecker delta; the cached monomial coefficients agree with the interpolation conditions; the Lagrange points are exactly the points nu / r.", "quantifier": "all n, r >= 1, all pairs of multi-indices (cache: its whole range)", "why_tests_cant": "solvability of the interpolation system for all n, r, plus a large hand generated coefficient cache", "anchors": ["polynomials_on_simplices/polynomial/polynomials_unit_simplex_lagrange_basis.py: generate_lagrange_point, generate_lagrange_points, lagrange_basis_fn, dual_lagrange_basis_fn, get_lagrange_basis_fn_coefficients", "polynomials_on_simplices/polynomial/polynomials_unit_simplex_lagrange_basis_cache.py"]}
{"id": "C27", "title": "Lagrange polynomials: arithmetic is pointwise", "statement": "In exact arithmetic +, -, *, ** and degree_elevate of PolynomialLagrange (done by sampling at Lagrange points) agree with the pointwise operations at every point, not only at the sample points (the power of a scalar valued polynomial with a sequence of length 1 as exponent is a TypeError). A result of degree 20 or more on a domain of dimension >= 1 is rejected with an AssertionError (see C03).", "quantifier": "all degrees, dimensions, coefficients and points", "why_tests_cant": "relies on unisolvence of the Lagrange points for all n, r", "anchors": ["polynomials_on_simplices/polynomial/polynomials_unit_simplex_lagrange_basis.py: PolynomialLagrange.__mul__, __pow__, degree_elevate, partial_derivative, to_monomial_basis"]}
{"id": "C28", "title": "Coefficients determine the polynomial", "statement": "Two polynomials of the same basis and degree that agree as functions have equal coefficients, so comparing coefficients and comparing functions coincide (over an infinite field).", "quantifier": "all degrees and dimensions; monomial, Bernstein and Lagrange bases", "why_tests_cant": "linear independence over all sizes", "anchors": ["polynomials_on_simplices/polynomial/polynomials_monomial_basis.py: monomial_basis", "polynomials_on_simplices/polynomial/polynomials_unit_simplex_bernstein_basis.py: bernstein_basis", "polynomials_on_simplices/polynomial/polynomials_unit_simplex_lagrange_basis.py: lagrange_basis"]}
{"id": "C29", "title": "Dual bases pick out coefficients", "statement": "For each of the monomial, Bernstein and Lagrange bases, applying the functions of dual_polynomial_basis(r, m, basis) to a polynomial returns its coefficients in that basis, in order, whichever of the three bases the polynomial object itself uses; applied to the basis functions they give the Kronecker delta; the vector valued dual bases return the components of the coefficients in both orderings, and the vector valued bases hold b_nu e_i at the corresponding positions. The dual Bernstein functions multiply two polynomials: they need a polynomial of degree exactly r with 2r <= 19, and otherwise raise AssertionError; for n = 1 vector_valued_polynomial_basis exchanges degree and dimension.", "quantifier": "all m, r, bases, real coefficients and orderings; for the monomial and Lagrange duals p may have any degree as long as its function has degree at most r", "why_tests_cant": "higher derivatives at 0, inversion of the Gram matrix (a closed form for m = 1) and integration of products, over all degrees and dimensions", "anchors": ["polynomials_on_simplices/polynomial/polynomials_monomial_basis.py: dual_monomial_basis_fn, dual_monomial_basis, dual_vector_valued_monomial_basis, vector_valued_monomial_basis", "polynomials_on_simplices/polynomial/polynomials_unit_simplex_bernstein_basis.py: dual_bernstein_basis_polynomial, dual_bernstein_basis_fn, dual_bernstein_basis", "polynomials_on_simplices/polynomial/polynomials_unit_simplex_lagrange_basis.py: dual_lagrange_basis_fn, dual_lagrange_basis", "polynomials_on_simplices/polynomial/polynomials_unit_simplex_bases.py: dual_polynomial_basis, dual_vector_valued_polynomial_basis, vector_valued_polynomial_basis"]}
{"id": "C30", "title": "Conversion between polynomial bases preserves the function", "statement": "convert_polynomial_to_basis(p, b) represents the same function as p, with the same degree, for b in monomial, Lagrange, Bernstein; converting there and back returns the same coefficients; unknown bases are rejected. Conversion to the Bernstein basis from another basis raises AssertionError from degree 10 on.", "quantifier": "all scalar and vector valued polynomials and all pairs of bases (degree at most 9 where the Bernstein basis is the target)", "why_tests_cant": "needs all degrees and dimensions", "anchors": ["polynomials_on_simplices/polynomial/polynomials_unit_simplex_bases.py: convert_polynomial_to_basis, polynomial_basis, vector_valued_polynomial_basis"]}
{"id": "C31", "title": "Generated evaluation code computes the polynomial", "statement": "The expression text produced by the code generators (expanded and Horner form for monomials, barycentric form for Bernstein, and Lagrange) is a Python expression, with one reading only, whose value is sum_i a_i b_i(x) for the coefficients passed in; the generated function definitions, also when wrapped over several lines, return this value. The name of a generated function consists of the basis, the dimension, the degree and the hash of the coefficients; since dimension and degree are not separated, polynomials on different domains can get the same name. The code of a function of coefficients and point is its definition, the indented documentation string, and one return statement.", "quantifier": "all degrees r, dimensions m, n, coefficients whose printed text is exact (integers, fractions with denominator at most 10, and any number that str prints exactly), coefficient texts without top level sums, and evaluation points", "why_tests_cant": "the text is assembled by recursive string concatenation with sign and factor elision; precedence mistakes only show for particular coefficient patterns", "anchors": ["polynomials_on_simplices/polynomial/code_generation/generate_monomial_polynomial_functions.py", "polynomials_on_simplices/polynomial/code_generation/generate_barycentric_polynomial_functions_simplex.py", "polynomials_on_simplices/polynomial/code_generation/generate_lagrange_polynomial_functions_simplex.py", "polynomials_on_simplices/polynomial/code_generation/generate_polynomial_functions.py", "polynomials_on_simplices/generic_tools/str_utils.py: str_sum, str_product, str_exponent, str_dot_product"]}
{"id": "C32", "title": "Line wrapping keeps the code", "statement": "split_long_str only inserts line breaks (with continuation indentation) at separators, never changes, drops or duplicates the remaining characters, and terminates.", "quantifier": "all strings, separators and widths", "why_tests_cant": "text of unbounded length; generated files are wrapped with it", "anchors": ["polynomials_on_simplices/generic_tools/str_utils.py: split_long_str", "polynomials_on_simplices/generic_tools/code_generation_utils.py: CodeWriter"]}
{"id": "C33", "title": "Degrees of freedom are associated with the right sub-simplex", "statement": "get_associated_sub_simplex(nu, r, simplex) returns the sub-simplex of those vertices whose barycentric exponent in nu is positive, together with the corresponding multi-index on that sub-simplex, and the corresponding point / basis function vanishes on a face iff the face does not contain the sub-simplex.", "quantifier": "all multi-indices nu (given as sequences; an int nu raises TypeError for r > 0), r >= 1 (for r = 0 the whole simplex is returned), all simplices", "why_tests_cant": "all dimension and zero-pattern combinations", "anchors": ["polynomials_on_simplices/polynomial/polynomials_unit_simplex_bernstein_basis.py: get_associated_sub_simplex", "polynomials_on_simplices/polynomial/polynomials_unit_simplex_lagrange_basis.py: get_associated_sub_simplex"]}
{"id": "C34", "title": "The boundary of a boundary is zero", "statement": "Applying simplex_boundary_map twice gives the zero chain; consecutive boundary_map_matrix products vanish.", "quantifier": "all simplices of all dimensions", "why_tests_cant": "sign bookkeeping over all dimensions", "anchors": ["polynomials_on_simplices/geometry/mesh/simplicial_complex.py: simplex_boundary_map, boundary_map_matrix"]}
{"id": "C35", "title": "Mesh boundary extraction", "statement": "boundary(simplices) returns exactly those facets (as vertex sets) that belong to an odd number of the given simplices - for a manifold mesh those belonging to exactly one - each once and with the orientation induced by its simplex.", "quantifier": "all lists of simplices", "why_tests_cant": "toggle set logic depends on history/order of the input list", "anchors": ["polynomials_on_simplices/geometry/mesh/simplicial_complex.py: boundary, simplex_boundary"]}
{"id": "C36", "title": "Sub-simplex enumeration", "statement": "simplex_sub_simplices(simplex) is the set of all non-empty subsets of the vertices as sorted tuples, and the fixed dimension variant those of the given size; opposite_sub_simplex is the complement. num_simplex_vertices(n) is the number of vertices and of zero dimensional sub simplices, and for n at least one num_simplex_boundary_simplices(n) is the number of entries of simplex_boundary and of sub simplices of dimension n - 1.", "quantifier": "all simplices of all dimensions", "why_tests_cant": "recursive set construction; completeness for all sizes", "anchors": ["polynomials_on_simplices/geometry/mesh/simplicial_complex.py: simplex_sub_simplices, simplex_sub_simplices_fixed_dimension, opposite_sub_simplex, num_simplex_vertices, num_simplex_boundary_simplices"]}
{"id": "C37", "title": "Affine maps between simplices", "statement": "affine_transformation_from_unit maps the i:th unit simplex vertex to vertex i; the to-unit transformation is its inverse; affine_composition(phi1, phi2) evaluates to phi2(phi1(x)) when the spaces phi2 maps between both have dimension one or neither has (the other cases, which depend on how numbers are represented and for which the code is wrong for lines in higher dimensional spaces, are in C93).", "quantifier": "all non-degenerate simplices in all dimensions at least 1, all points", "why_tests_cant": "linear algebra identities in all dimensions", "anchors": ["polynomials_on_simplices/geometry/primitives/simplex.py: affine_transformation_from_unit, affine_transformation_to_unit, affine_transformation", "polynomials_on_simplices/calculus/affine_map.py: affine_composition, inverse_affine_transformation, create_affine_map"]}
{"id": "C38", "title": "Barycentric coordinates round-trip", "statement": "barycentric_to_cartesian(cartesian_to_barycentric(x, vertices), vertices) = x and the coordinates sum to 1, for every non-degenerate simplex; the unit simplex versions agree. For a degenerate simplex no coordinate is a finite number.", "quantifier": "all non-degenerate simplices, all dimensions, all points, both orientations", "why_tests_cant": "orientation dependent sign error is invisible with positively oriented test data", "anchors": ["polynomials_on_simplices/geometry/primitives/simplex.py: cartesian_to_barycentric, barycentric_to_cartesian, cartesian_to_barycentric_unit, barycentric_to_cartesian_unit"]}
{"id": "C39", "title": "Point-in-simplex test", "statement": "inside_simplex(x, vertices) is True exactly when x is a convex combination of the vertices.", "quantifier": "all simplices, of both orientations and also degenerate, and all points", "why_tests_cant": "piecewise evaluation depends on it for every point of every mesh", "anchors": ["polynomials_on_simplices/geometry/primitives/simplex.py: inside_simplex"]}
{"id": "C40", "title": "Bounding boxes form a lattice", "statement": "create(points) is the smallest box containing all points; union is the smallest box containing both; a point is inside intersection(a, b) iff it is inside both; is_empty iff no point is inside; corners are the 2^n vertices; unit(n) is the unit cube; the diameter is the largest distance of two points of the box; is_equal of two boxes of the same dimension is true iff all coordinates are close, and is reflexive and symmetric.", "quantifier": "all boxes and points in all dimensions", "why_tests_cant": "laws over all boxes; collision culling relies on absence of false negatives", "anchors": ["polynomials_on_simplices/geometry/proximity/aabb.py: create, union, intersection, is_empty, point_inside, corner, diameter, is_equal"]}
{"id": "C41", "title": "kd-tree point location and addressing", "statement": "In every tree reachable by subdivisions, find_leaf_containing_point(root, x) returns a leaf whose cell contains x, the cells of the leaves cover space, and looking up a node by its address returns that node. is_root holds for the root only, is_leaf exactly for nodes without child nodes, and sibling_index is the last entry of the address. recurse calls its function exactly once on every node of the tree, parents before children; when the function subdivides or cuts the node it is called on, these are the nodes of the tree that results.", "quantifier": "all subdivision histories, all points, all functions that change only their own node", "why_tests_cant": "invariant over arbitrary histories of subdivisions", "anchors": ["polynomials_on_simplices/geometry/space_partitioning/kd_tree.py: KdTreeNode.subdivide, cut_subtree, address, is_root, is_leaf, sibling_index, find_leaf_containing_point, in_node_space, node_aabb", "polynomials_on_simplices/geometry/space_partitioning/tree_traversal.py: get_descendant_by_address, get_node_by_address"]}
{"id": "C42", "title": "The mesh kd-tree never loses a simplex", "statement": "For every tree built by create_kd_tree and every point x in a mesh simplex t, t is listed in the leaf that contains x. A simplex is listed in a node below the root only if its bounding box meets the box of the node. A node is left undivided exactly when it has the maximum depth, lists no simplex, or lists at most max_simplices_in_leaf simplices.", "quantifier": "all meshes, all trees (any split planes), all points", "why_tests_cant": "a missing simplex makes a piecewise polynomial silently evaluate to 0", "anchors": ["polynomials_on_simplices/geometry/space_partitioning/kd_mesh_tree/simplicial_mesh_kd_tree.py: create_kd_tree, KdTreeSMNode"]}
{"id": "C43", "title": "Discontinuous local-to-global map is a bijection", "statement": "generate_local_to_global_map numbers the pairs (simplex, multi-index) not on a boundary simplex bijectively 0..N-1 with N the returned number of degrees of freedom, returns -1 exactly for the excluded pairs, and the inverse map inverts it.", "quantifier": "all meshes, degrees and boundary simplex lists", "why_tests_cant": "numbering over all meshes", "anchors": ["polynomials_on_simplices/piecewise_polynomial/piecewise_polynomial.py: generate_local_to_global_map, generate_inverse_local_to_global_map"]}
{"id": "C44", "title": "Continuous local-to-global map identifies exactly the shared degrees of freedom", "statement": "For the continuous map, two pairs (j, nu), (j', nu') get the same index iff they denote the same point (same sub-simplex with the same barycentric exponents); the indices used are exactly 0..N-1; the preimage map lists all pairs of an index.", "quantifier": "all meshes (any vertex order in each simplex), all degrees r >= 1", "why_tests_cant": "inter-element continuity for all meshes and local vertex orders", "anchors": ["polynomials_on_simplices/piecewise_polynomial/continuous_piecewise_polynomial.py: generate_local_to_global_map, generate_local_to_global_preimage_map"]}
{"id": "C45", "title": "Boundary degrees of freedom are placed last", "statement": "With keep_boundary_dofs_last=True indices below the returned number of interior degrees of freedom belong to pairs that are not on a boundary simplex and the remaining ones to pairs that are; the relative order of the interior ones is the same as without boundary handling.", "quantifier": "all meshes, degrees and boundary simplex lists (for the continuous maps: boundary simplices that do not contain a simplex of the mesh; otherwise the statement is false, which is proved too)", "why_tests_cant": "placeholders are renumbered in a second pass; off-by-ones depend on the mix of boundary/interior dofs", "anchors": ["polynomials_on_simplices/piecewise_polynomial/piecewise_polynomial.py: generate_local_to_global_map_as_dictionaries", "polynomials_on_simplices/piecewise_polynomial/continuous_piecewise_polynomial.py: generate_local_to_global_map_as_dictionaries"]}
{"id": "C46", "title": "Vector valued local-to-global maps", "statement": "generate_vector_valued_local_to_global_map composed with component ordering (interleaved or sequential) is a bijection onto 0..nN-1 and its inverse / preimage functions invert it.", "quantifier": "all scalar maps, n > 1, both orderings", "why_tests_cant": "index arithmetic for all sizes", "anchors": ["polynomials_on_simplices/piecewise_polynomial/piecewise_polynomial.py: generate_vector_valued_local_to_global_map, generate_vector_valued_inverse_local_to_global_map", "polynomials_on_simplices/piecewise_polynomial/continuous_piecewise_polynomial.py: generate_vector_valued_local_to_global_map"]}
{"id": "C47", "title": "Continuous piecewise polynomials are continuous", "statement": "A ContinuousPiecewisePolynomial takes the same value at a point of a shared face whichever of the adjacent simplices is used for the evaluation.", "quantifier": "all conforming meshes, coefficients, degrees and points of shared faces", "why_tests_cant": "continuity at every point of every face", "anchors": ["polynomials_on_simplices/piecewise_polynomial/continuous_piecewise_polynomial.py: ContinuousPiecewisePolynomialBase", "polynomials_on_simplices/piecewise_polynomial/continuous_piecewise_polynomial_bernstein_basis.py: ContinuousPiecewisePolynomialBernstein"]}
{"id": "C48", "title": "Piecewise polynomial arithmetic is pointwise on every simplex", "statement": "For consistent piecewise polynomials of the same kind on the same mesh, a result of +, - (operands of equal degree) and the result of scalar multiplication agree with the operation on each simplex in every space; in spaces that leave out no degree of freedom this also holds for +, - with different degrees, *, powers, components, restriction to a simplex and degree elevation. Operands on different meshes are rejected. In spaces with vanishing boundary values, restriction, product and degree elevation can be wrong (the index -1 of a left out degree of freedom reads or overwrites the last coefficient), + raises KeyError when the sum leaves the support of the first operand, and + of operands with different boundary numbering can silently be wrong. The unit and zero functions and the power zero exist exactly if the number of vertices (continuous) or simplices (discontinuous) is the dimension of the space of degree one or zero, and raise AssertionError otherwise.", "quantifier": "all meshes, degrees, coefficients, boundary simplex lists", "why_tests_cant": "dropped degrees of freedom are signalled by index -1, a valid Python index; only some meshes/boundaries expose it", "anchors": ["polynomials_on_simplices/piecewise_polynomial/piecewise_polynomial.py: PiecewisePolynomialBase.__add__, __sub__, evaluate_on_simplex", "polynomials_on_simplices/piecewise_polynomial/piecewise_polynomial_bernstein_basis.py: PiecewisePolynomialBernstein.__mul__, degree_elevate, restrict_to_simplex"]}
{"id": "C49", "title": "Structured meshes are well formed", "statement": "rectangle_triangulation, triangle_triangulation, disc/annulus triangulations, rectangular_box_triangulation and tetrahedron_triangulation only refer to existing vertex indices, have the documented number of cells, each with distinct vertices, and (rectangle, triangle, box, tetrahedron) all cells are positively oriented, tile the domain, and meet only in common faces. The annulus and disc triangulations are oriented surfaces whose boundary is exactly the outer (and inner) circle, with positively oriented cells in the plane.", "quantifier": "all resolutions", "why_tests_cant": "index formulas in the resolution parameters", "anchors": ["polynomials_on_simplices/geometry/mesh/basic_meshes/triangle_meshes.py: rectangle_triangulation, triangle_triangulation, disc_triangulation, annulus_triangulation", "polynomials_on_simplices/geometry/mesh/basic_meshes/tet_meshes.py: rectangular_box_triangulation, tetrahedron_triangulation"]}
{"id": "C50", "title": "Exact integration of polynomials over simplices", "statement": "integrate_polynomial_unit_simplex and integrate_bernstein_polynomial_unit_simplex return the integral of the polynomial over the unit simplex (in exact arithmetic); the cached monomial integrals agree with the formula; the general simplex versions agree with the transformed integral. The L2 inner products and squared norms of monomial polynomials are the integrals of the products and squares.", "quantifier": "all degrees, dimensions and coefficients (cache: whole range)", "why_tests_cant": "closed forms and a 750 line table of constants", "anchors": ["polynomials_on_simplices/calculus/polynomial/polynomials_simplex_monomial_basis_calculus.py: integrate_homogeneous_polynomial_unit_simplex, integrate_polynomial_unit_simplex, integrate_homogeneous_polynomial_simplex", "polynomials_on_simplices/calculus/polynomial/polynomials_simplex_bernstein_basis_calculus.py", "polynomials_on_simplices/calculus/polynomial/monomial_integrals_unit_simplex_cache.py"]}
{"id": "C51", "title": "Fixed quadrature rules have their polynomial degree", "statement": "quadrature_unit_triangle_fixed(f, n) and quadrature_unit_tetrahedron_fixed(f, n) integrate every polynomial of degree <= n exactly (exact rational rules) or up to the rounding of the tabulated constants, and reject n > 4; the same for arbitrary triangles and tetrahedra; the interval rules integrate polynomials of the requested degree given Gauss-Legendre points. For a continuous function that is within e of a polynomial of degree <= n on the domain, the error of the rule is at most e times the sum of the absolute weights and the volume of the domain. For functions with n + 1 continuous derivatives the error of the exact rules on a triangle or tetrahedron is of order n + 1 in its diameter, times its volume; on an interval it is at most 2 M |b - a|^(n+2) / (n+1)!.", "quantifier": "all polynomials of degree <= n, n = 1..4; all continuous functions for the error bounds, all smooth functions and all triangles and tetrahedra for the order", "why_tests_cant": "exactness for the whole polynomial space", "anchors": ["polynomials_on_simplices/calculus/quadrature.py: quadrature_unit_triangle_fixed, quadrature_unit_tetrahedron_fixed"]}
{"id": "C52", "title": "Periodic reduction, clamping and the dial", "statement": "equivalent_periodic_element(a, t) lies in [0, t) and differs from a by an integer multiple of t (for t < 0 it has the sign of a and is smaller than t in absolute value, for t = 0 it raises); constrain_to_range clamps; Dial.get_total_position after any sequence of updates equals the sum of the shortest signed turns, is congruent to the last position and its angle stays in [-pi, pi).", "quantifier": "all reals, all periods, all update histories", "why_tests_cant": "history property and all reals", "anchors": ["polynomials_on_simplices/calculus/real_interval.py: equivalent_periodic_element, constrain_to_range", "polynomials_on_simplices/calculus/angle.py: Dial, to_centered_angle_interval, distance, direction"]}
{"id": "C53", "title": "Finite differences are exact on low degree polynomials and do not disturb their argument", "statement": "forward differences are exact for affine functions, central differences for quadratic ones, the second differences give the exact Hessian of quadratics, and the evaluation point array is the same afterwards. (For functions that return new objects, at points whose coordinates are stored as floats; see C94 for arrays of integers and for functions that return their argument.)", "quantifier": "all affine/quadratic functions, points, step sizes h != 0", "why_tests_cant": "in-place perturbation of the caller's array; all functions of a class", "anchors": ["polynomials_on_simplices/calculus/finite_difference.py: forward_difference, central_difference, second_forward_difference, second_central_difference"]}
{"id": "C54", "title": "Rotations and projections", "statement": "rodrigues_formula_matrix(k, cos, sin) is orthogonal with determinant 1, fixes k and agrees with rodrigues_formula; hat(w) v = w x v; vector projection plus rejection gives the vector back and the rejection is orthogonal; Gram-Schmidt returns an orthonormal family spanning the same space if all arrays of the basis hold floats, and raises a TypeError if one of them has an integer element type.", "quantifier": "all vectors / unit axes / angles with cos^2 + sin^2 = 1", "why_tests_cant": "polynomial identities over all reals", "anchors": ["polynomials_on_simplices/linalg/rotation.py: hat, rodrigues_formula, rodrigues_formula_matrix", "polynomials_on_simplices/linalg/vector_space_projection.py", "polynomials_on_simplices/linalg/basis.py: gram_schmidt_orthonormalization"]}
{"id": "C55", "title": "Random samplers stay in their domain", "statement": "For every outcome of the underlying generator (uniform on [0,1)) closed/open/left/right closed interval samplers return values in their interval, the disc/sphere/simplex samplers return points inside, whenever they return.", "quantifier": "all outcomes of the random number generator", "why_tests_cant": "boundary values of the generator have probability ~0 in tests", "anchors": ["polynomials_on_simplices/probability_theory/uniform_sampling.py"]}
{"id": "C56", "title": "Triangle mesh orientation queries", "statement": "has_consistent_orientation holds iff any two triangles sharing an edge traverse it in opposite directions; swap_orientation reverses it; neighbour returns a triangle sharing the edge if one exists.", "quantifier": "all triangle meshes", "why_tests_cant": "relational properties over all pairs of triangles", "anchors": ["polynomials_on_simplices/geometry/mesh/triangle_mesh.py: has_same_orientation, has_consistent_orientation, swap_orientation, neighbour, opposite_vertex"]}
{"id": "C57", "title": "Volumes, orientation, centroid and trilinear coordinates", "statement": "volume is the absolute value of signed_volume and orientation its sign; permuting vertices multiplies the signed volume by the sign of the permutation and an affine map by its determinant; the unit simplex has volume 1/n!; the centroid has equal barycentric coordinates; barycentric and trilinear coordinates convert back and forth without loss.", "quantifier": "all simplices in all dimensions, all vertex permutations, all affine maps, all points", "why_tests_cant": "determinant identities in every dimension", "anchors": ["polynomials_on_simplices/geometry/primitives/simplex.py: volume, signed_volume, volume_unit, orientation, centroid, barycentric_to_trilinear, trilinear_to_barycentric"]}
{"id": "C58", "title": "Orientation of boundary simplices", "statement": "simplex_boundary_orientation(s, b) is +1 if the facet b has the orientation induced by s and -1 if it has the opposite one (always +1 for the end points of an edge), and rejects lists that are not facets; swap_simplex_orientation and swap_orientation give the same vertices with the opposite orientation and are involutions.", "quantifier": "all simplices of all dimensions, all facets in all vertex orders", "why_tests_cant": "signs of permutations of every length", "anchors": ["polynomials_on_simplices/geometry/mesh/simplicial_complex.py: simplex_boundary_orientation, swap_simplex_orientation, swap_orientation"]}
{"id": "C59", "title": "Angles, orthogonal vectors and rotations between vectors", "statement": "compute_angle returns the angle in [0, pi] whose cosine is the normalised inner product; orthogonal_vector returns a non-zero vector orthogonal to its argument (dimension at least two); compute_rotation returns a rotation that takes the direction of the first vector to that of the second; orthonormal_frame returns a rotation matrix whose column i is the normalised vector (or plus/minus the coordinate axis, if the vector is within the tolerance 1e-10 of it); rotation_matrix_to_axis_angle recovers an axis and an angle that give the rotation back: exactly for the identity, half turns and all rotations outside the tolerance windows around these, up to 1e-4 for every rotation (within the windows errors above 1e-6 occur), and leaves the matrix of the caller unchanged except for half turns, where it overwrites a column; move is an isometry.", "quantifier": "all non-zero vectors, all rotation matrices (including the tolerance windows of the code)", "why_tests_cant": "case distinctions by largest component or by antiparallel vectors have measure zero in random tests", "anchors": ["polynomials_on_simplices/linalg/rotation.py", "polynomials_on_simplices/linalg/rigid_motion.py: move", "polynomials_on_simplices/linalg/vector_space_projection.py", "polynomials_on_simplices/calculus/angle.py", "polynomials_on_simplices/linalg/basis.py"]}
{"id": "C60", "title": "Subspace projections and changes of basis", "statement": "subspace_projection_transformation gives the orthogonal projection onto the affine subspace through the origin spanned by the basis, and the function returned by subspace_projection_map maps a point to the nearest point of it (in a space of dimension one subspace_projection_map fails); gram_schmidt_orthonormalization_rn returns an orthonormal family with the same partial spans; transform_to_basis and transform_from_basis are inverse to each other; the dual basis is biorthogonal to the basis; transform_bilinear_form expresses the same form in the new basis for an orthonormal original basis.", "quantifier": "all linearly independent families in all dimensions", "why_tests_cant": "linear algebra identities in every dimension", "anchors": ["polynomials_on_simplices/linalg/vector_space_projection.py", "polynomials_on_simplices/linalg/basis.py"]}
{"id": "C61", "title": "Boundary degrees of freedom of vector valued maps", "statement": "With keep_boundary_dofs_last=True and the interleaved ordering the vector valued maps number exactly the triples that are not on a boundary simplex below the returned number of interior degrees of freedom; with the sequential ordering this holds within each block of N numbers belonging to one component, not globally.", "quantifier": "all meshes, degrees, boundary simplex lists, n > 1, both orderings", "why_tests_cant": "the interplay of the ordering and the renumbering depends on the mix of boundary/interior dofs", "anchors": ["polynomials_on_simplices/piecewise_polynomial/piecewise_polynomial.py: generate_vector_valued_local_to_global_map", "polynomials_on_simplices/piecewise_polynomial/continuous_piecewise_polynomial.py: generate_vector_valued_local_to_global_map"]}
{"id": "C62", "title": "Polynomials on an arbitrary simplex", "statement": "A polynomial object on a simplex with given vertices evaluates to the linear combination of the basis polynomials in the barycentric coordinates of the point with respect to that simplex; degenerate simplices are rejected; sums, differences, products, powers, scaling, components, degree elevation, zero/unit polynomials and partial derivatives (in Cartesian coordinates) represent the corresponding functions; polynomials on different simplices are rejected by addition (and by Bernstein multiplication); the dual Lagrange functions evaluate at the Lagrange points of the simplex and are dual to the basis.", "quantifier": "all simplices of all dimensions, all degrees below 20, all coefficient arrays, all points", "why_tests_cant": "identities between functions on all simplices (chain rule, change of coordinates)", "anchors": ["polynomials_on_simplices/polynomial/polynomials_simplex_base.py", "polynomials_on_simplices/polynomial/polynomials_simplex_bernstein_basis.py", "polynomials_on_simplices/polynomial/polynomials_simplex_lagrange_basis.py"]}
{"id": "C63", "title": "Derivatives of any order", "statement": "derivative(p, alpha) is the polynomial, in the same basis and of degree r - |alpha| (0 if negative), of the iterated partial derivative of p, and the order in which the partial derivatives are taken does not matter; an integer order is accepted for univariate polynomials only; gradient and jacobian list the first partial derivatives (of the components); hessian and partial_derivatives_array contain at index (i1, .., ik) the iterated partial derivative with respect to the coordinates i1, .., ik, every entry is set, and the Hessian is symmetric; vector valued polynomials are rejected by the last two.", "quantifier": "all polynomials of all dimensions and degrees below 20 in the three bases of the unit simplex and in the two bases of an arbitrary simplex, all multi-indices and orders", "why_tests_cant": "identities between functions; the array is filled by permuting non-decreasing indices", "anchors": ["polynomials_on_simplices/calculus/polynomial/polynomials_calculus.py: derivative, gradient, jacobian, hessian, partial_derivatives_array, _unique_permutations"]}
{"id": "C64", "title": "Monomial form and dual bases on an arbitrary simplex", "statement": "to_monomial_basis of a polynomial on a simplex returns the monomial polynomial of the same degree with the same function, and the *_basis_simplex_monomial functions return the monomial forms of the basis polynomials; the dual Bernstein polynomials D_i satisfy the integral over the simplex of D_i B_j = delta_ij; the dual Bernstein and dual Lagrange bases return the coefficients of a polynomial in the corresponding basis of the simplex (dual Bernstein also for polynomials in the monomial basis), also in the vector valued case with both orderings; simplices that are not positively oriented, other polynomial classes, other simplices and, in the Bernstein basis, other degrees are rejected by the dual Bernstein functions. (A polynomial in the monomial basis of smaller degree ends with an IndexError. One of larger degree is accepted: the first coefficients of its product with the dual polynomial are taken for the coefficients of a polynomial of degree 2 r, so the result can be wrong even if all coefficients of degree above r are zero.)", "quantifier": "all positively oriented simplices of all dimensions (non-degenerate for Lagrange), all degrees r with 2 r < 20, all coefficients", "why_tests_cant": "exact identities between integrals over all simplices", "anchors": ["polynomials_on_simplices/polynomial/polynomials_simplex_bernstein_basis.py: to_monomial_basis, bernstein_basis_simplex_monomial, dual_bernstein_polynomial_basis_simplex, dual_bernstein_basis_simplex, dual_vector_valued_bernstein_basis_simplex", "polynomials_on_simplices/polynomial/polynomials_simplex_lagrange_basis.py: to_monomial_basis, lagrange_basis_simplex_monomial, dual_lagrange_basis_simplex, dual_vector_valued_lagrange_basis_simplex"]}
{"id": "C65", "title": "Bases and dual bases of piecewise polynomial spaces", "statement": "The basis of a space of (continuous or discontinuous) piecewise polynomials has one function per degree of freedom: on a simplex the function number i is the basis polynomial whose multi-index has number i there, and zero if there is none. Every piecewise polynomial of the space is the combination of the basis functions with its coefficients and with no others; without left out boundary degrees of freedom the basis functions sum to one. The dual Lagrange basis returns values at the Lagrange points, for piecewise polynomials and other functions; the dual Lagrange and dual Bernstein bases return the coefficients of a piecewise polynomial in the same basis, in the same order, whichever of the simplices sharing a degree of freedom is used, also in spaces with left out boundary degrees of freedom.", "quantifier": "all meshes, continuous and discontinuous spaces, all degrees below 20 (2 r below 20 and positive orientation for dual Bernstein), all boundary options", "why_tests_cant": "depends on the numbering of the degrees of freedom for all meshes, and on an arbitrary choice from a set", "anchors": ["polynomials_on_simplices/piecewise_polynomial/piecewise_polynomial_bernstein_basis.py: piecewise_polynomial_bernstein_basis, dual_piecewise_polynomial_bernstein_basis", "polynomials_on_simplices/piecewise_polynomial/piecewise_polynomial_lagrange_basis.py", "polynomials_on_simplices/piecewise_polynomial/continuous_piecewise_polynomial_bernstein_basis.py: dual_continuous_piecewise_polynomial_bernstein_basis", "polynomials_on_simplices/piecewise_polynomial/continuous_piecewise_polynomial_lagrange_basis.py"]}
{"id": "C66", "title": "Weak partial derivatives of continuous piecewise polynomials", "statement": "weak_partial_derivative(i) of a continuous piecewise polynomial of degree r returns the discontinuous piecewise polynomial of degree r - 1 on the same mesh whose function on each simplex is the partial derivative of the function there, in the Lagrange basis and in the Bernstein basis (scalar and vector valued, positively oriented simplices), if no degree of freedom is left out. Coordinates that do not exist and wrong orientations are rejected. In spaces with vanishing boundary values the result can be wrong.", "quantifier": "all meshes, degrees, coefficients, coordinates and points", "why_tests_cant": "identity between functions for all meshes and degrees", "anchors": ["polynomials_on_simplices/piecewise_polynomial/continuous_piecewise_polynomial_bernstein_basis.py: weak_partial_derivative", "polynomials_on_simplices/piecewise_polynomial/continuous_piecewise_polynomial_lagrange_basis.py: weak_partial_derivative"]}
{"id": "C67", "title": "Simplices embedded in a space of higher dimension", "statement": "For a non-degenerate k-simplex in R^n, 1 <= k <= n: orthonormal_basis is the Gram-Schmidt basis of the edges from the base vertex; local_coordinates keeps all distances and puts the simplex in a triangular position; volume is the nonnegative root of the Gram determinant over k!, independent of the order of the vertices and zero exactly for degenerate simplices; in_subspace is the test distance to the plane of the simplex <= tolerance; affine_map_to_unit inverts affine_map_from_unit and rejects points farther than 1e-14 from the plane; affine_transformation maps vertices to vertices and keeps barycentric coordinates, unless the second simplex is a line in a space of dimension greater than one (C93); cartesian_to_barycentric returns the barycentric coordinates for every order of the vertices; inside_simplex tests membership (it is False for degenerate simplices); sub_simplex lists the vertices with the given indices. A single point (k = 0) is rejected by most of these functions.", "quantifier": "all non-degenerate simplices of all dimensions in spaces of all dimensions, all points", "why_tests_cant": "geometric identities and rejection tests over all simplices and points", "anchors": ["polynomials_on_simplices/geometry/primitives/simplex.py: basis, orthonormal_basis, affine_transformation_to_unit, affine_map_to_unit, affine_transformation_from_unit, affine_map_from_unit, affine_transformation, local_coordinates, volume, signed_volume, cartesian_to_barycentric, inside_simplex, in_subspace", "polynomials_on_simplices/calculus/affine_map.py: pseudoinverse_affine_transformation"]}
{"id": "C68", "title": "Special points, normals and distances of a simplex", "statement": "For a non-degenerate simplex: altitude(i) is the distance from vertex i to the plane of the opposite facet; trilinear coordinates are the signed distances to the planes of the facets and trilinear_to_barycentric recovers the barycentric coordinates from any multiple; face_normal is the outward unit normal within the plane of the simplex; circumcenter is the only point of the plane with equal distances (circumradius) to the vertices; incenter is the interior point at distance inradius from the plane of every facet; diameter is the largest distance of two points of the simplex; edges lists all edges in the documented order; is_degenerate compares the altitudes with the diameter (for a degenerate simplex it is True exactly if all vertices but one can be chosen affinely independent and not all vertices coincide, otherwise it computes 0/0 and is False); equilateral returns a simplex all of whose edges have the given length. Points have no facets and are rejected.", "quantifier": "all non-degenerate simplices (also degenerate ones for diameter, edges and is_degenerate) of all dimensions in spaces of all dimensions, all points", "why_tests_cant": "geometric identities over all simplices", "anchors": ["polynomials_on_simplices/geometry/primitives/simplex.py: equilateral, barycentric_to_trilinear, trilinear_to_barycentric, edges, face, face_normal, altitude, circumcenter, circumradius, incenter, inradius, diameter, is_degenerate"]}
{"id": "C69", "title": "Geometry of triangles", "statement": "For a non-degenerate triangle: edges, edge lengths, perimeter and diameter; area is half the root of the Gram determinant and agrees with the volume of a simplex; normal is the unit normal with the orientation of the vertices; basis is an orthonormal basis of the plane adapted to the first edge, and coordinates in it reproduce edges, medians and dual edges; dual edges are the outward normals scaled by the edge lengths; altitudes, altitude vectors and feet are distances to, and nearest points on, the lines through the edges; angles are the angles at the vertices and sum to pi; medians lead to midpoints; cartesian_to_barycentric gives the coordinates of the nearest point of the plane and inverts barycentric_to_cartesian; inside_triangle tests this point; trilinear coordinates are signed distances and are converted back from any multiple; circumcenter/circumradius, orthocenter, incenter/inradius have their defining properties; is_degenerate tests for an angle below the tolerance. Functions using cross products raise ValueError, and those using the basis AssertionError, in dimensions other than 2 and 3. Outside three dimensions angles, hence circumcenter and orthocenter, are wrong for triangles with edges shorter than 1e-12.", "quantifier": "all non-degenerate triangles (also degenerate ones for edges, diameter, area, is_degenerate) in spaces of all dimensions, all points, all tolerances in [0, pi/2]", "why_tests_cant": "geometric identities over all triangles and points", "anchors": ["polynomials_on_simplices/geometry/primitives/triangle.py"]}
{"id": "C70", "title": "Normals and centroids of triangle meshes", "statement": "For a mesh of non-degenerate triangles: vertex_normals_cotangent returns at every vertex the unit vector in the direction of the gradient of the area of the mesh with respect to that vertex (where it is not zero; at interior vertices of flat meshes it is zero and the result undefined); normals returns the oriented unit normals of the triangles; vertex_normals returns the normalised sum of the normals of the adjacent triangles, weighted with the area, the angle, the reciprocal distance to the centroid, or equally; with area weights on a closed consistently oriented mesh this is the direction of the gradient of the enclosed volume. centroids are the means of the corners and centroid the mean of these weighted with the areas. get_num_vertices is one more than the largest index. Indices that are too large raise IndexError; one degenerate triangle makes vertex_normals_cotangent raise ZeroDivisionError.", "quantifier": "all triangle meshes (closed ones for the volume), all vertices, all weights", "why_tests_cant": "identities between derivatives of area and volume and accumulated sums over meshes of any size", "anchors": ["polynomials_on_simplices/geometry/mesh/triangle_mesh.py: get_num_vertices, vertices, normals, centroids, centroid, vertex_normals_cotangent, vertex_normals"]}
{"id": "C71", "title": "Tests for approximate equality and error measures", "statement": "polynomials_equal, polynomials_equal_on_simplex and piecewise_polynomials_equal return True exactly if the values (all components) are close in the sense of math.isclose at all the random points; equal functions are never told apart. With zero tolerances and points that determine polynomials of degree r the tests decide equality of polynomials (on the plane of the simplex, on the whole mesh), and different polynomials are taken for equal with probability zero; for almost all choices of the (r+m choose m) points the test is right for all polynomials of degree at most r at once. With the default tolerances all functions with values below 1e-7 count as equal; additional components of the second function are ignored, missing ones raise IndexError. relative_error and relative_error_symmetric are the errors relative to the expected value and to the larger value, and the latter is consistent with math.isclose.", "quantifier": "all functions, polynomials of all degrees and dimensions, all choices of random points, all meshes and tolerances", "why_tests_cant": "the outcome depends on random points; the claim is over all of them or on measure zero", "anchors": ["polynomials_on_simplices/polynomial/polynomials_base.py: polynomials_equal", "polynomials_on_simplices/polynomial/polynomials_simplex_base.py: polynomials_equal_on_simplex", "polynomials_on_simplices/piecewise_polynomial/piecewise_polynomial.py: piecewise_polynomials_equal", "polynomials_on_simplices/calculus/error_measures.py"]}
{"id": "C72", "title": "Midpoint rules for triangles and tetrahedra", "statement": "For n >= 1 the midpoint rules are exact for affine functions on every triangle and tetrahedron, of any orientation and also degenerate; for a function with Lipschitz constant L the error is at most measure * L * (sum of the lengths of the edges from the first vertex) / n, for a function approximated to second order by affine functions at most measure * M * (the same / n)^2, and for every continuous function the results converge to the integral. n = 0 raises ZeroDivisionError for triangles and AssertionError for tetrahedra. general_tetrahedron_vertices with tetrahedron_triangulation divides every non-degenerate tetrahedron into (n - 1)^3 tetrahedra of equal volume.", "quantifier": "all triangles and tetrahedra, all continuous functions, all numbers of subdivisions", "why_tests_cant": "error bounds and limits for all functions and all n", "anchors": ["polynomials_on_simplices/calculus/quadrature.py: quadrature_triangle_midpoint_rule, quadrature_tetrahedron_midpoint_rule", "polynomials_on_simplices/geometry/mesh/basic_meshes/tet_meshes.py: general_tetrahedron_vertices"]}
{"id": "C73", "title": "Adaptive quadrature over intervals, triangles and tetrahedra", "statement": "If the integration routine of scipy computes its iterated integral up to an error of at most tau, then quadrature_interval, quadrature_unit_interval, quadrature_unit_triangle and quadrature_unit_tetrahedron return the integral over their domain up to tau, although scipy passes the arguments of the integrand in the opposite order; quadrature_triangle and quadrature_tetrahedron return the integral over the given triangle or tetrahedron, of any orientation and also degenerate, up to tau times the absolute value of the determinant of the edges.", "quantifier": "all continuous integrands, all triangles and tetrahedra, all integration routines with the documented meaning", "why_tests_cant": "an equality of integrals over all continuous functions; the order of the arguments only matters for integrands that are not symmetric", "anchors": ["polynomials_on_simplices/calculus/quadrature.py: quadrature_unit_interval, quadrature_interval, quadrature_unit_triangle, quadrature_triangle, quadrature_unit_tetrahedron, quadrature_tetrahedron"]}
{"id": "C74", "title": "Composition of functions", "statement": "composition(f, g) calls g with the given arguments and f with the result; the result is passed as one argument if f has one parameter (or no known signature) and unpacked if f has several parameters or *args; exceptions of f and g are passed on; the composition has one parameter if g has. A function without parameters raises AssertionError. Composition is associative for all functions, also where exceptions are raised. A function with one required and further default parameters counts as a function of several variables, so that its composition with a number-valued function raises TypeError.", "quantifier": "all functions with all kinds of signatures, all arguments", "why_tests_cant": "quantifies over all functions and signatures", "anchors": ["polynomials_on_simplices/algebra/algebraic_operations.py: composition"]}
{"id": "C75", "title": "LaTeX formulas", "statement": "The LaTeX text produced for basis polynomials (monomial, Bernstein, Lagrange; on the unit simplex and, in Cartesian coordinates, on any non-degenerate simplex), for polynomials (latex_str, latex_str_expanded; real and vector valued), for their documentation, for numbers, fractions and arrays, read as LaTeX mathematics (one value at most), has the value of the function at every point, provided the coefficients are printed exactly, there are at most nine variables and the degree is at most nine. Lagrange basis polynomials up to degree six are printed with exact fractions. The compact names are different for different basis functions, and the compact lists contain them in the order of the multi-indices. The documentation string of a generated function names the number of variables, the degree, the basis and the domain and contains the formula, and is one string literal (no quotation marks inside). Known exceptions: exponents and variable numbers of two digits lose their second digit (x^10 reads x^1 0); Bernstein texts of degree 0 are empty and the expanded text raises IndexError; numbers in exponential notation are no numbers; on a simplex, basis polynomials with a text of at most three characters such as 2 x are not parenthesised, so that 3 times 2 x reads 32 x.", "quantifier": "all coefficients, dimensions and degrees in the stated range, all points, all simplices", "why_tests_cant": "the meaning of a text at all points; signs, parentheses and omitted factors interact in ways depending on all coefficients", "anchors": ["polynomials_on_simplices/generic_tools/str_utils.py", "polynomials_on_simplices/polynomial/polynomials_base.py", "polynomials_on_simplices/polynomial/polynomials_monomial_basis.py", "polynomials_on_simplices/polynomial/polynomials_unit_simplex_bernstein_basis.py", "polynomials_on_simplices/polynomial/polynomials_unit_simplex_lagrange_basis.py", "polynomials_on_simplices/polynomial/polynomials_simplex_bernstein_basis.py", "polynomials_on_simplices/polynomial/polynomials_simplex_lagrange_basis.py", "polynomials_on_simplices/polynomial/code_generation/generate_polynomial_functions_simplex.py"]}
{"id": "C76", "title": "Point clouds and the splitting planes of kd trees", "statement": "embed_point_in_rn and embed_point_cloud_in_rn keep the coordinates, add zeros and preserve distances, and raise AssertionError if the dimension does not increase. mean is the unique point minimising the sum of the squares of the distances and commutes with affine maps; in each coordinate at most half of the points are on each side of median, which minimises the sum of the distances and does not depend on the order. principal_component_axis returns a unit vector maximising the sum of the squares of the components of the deviations from the mean, so that the line through the mean in this direction is a line of best fit among all lines; it is translation invariant and gives the direction of collinear points. (The sum in the documentation, without squares, is always zero.) The splitting plane used by create_kd_tree has at most half of the centroids on each side, and with it create_kd_tree returns a tree that contains every simplex in all leaves its points are found in, for every valid mesh.", "quantifier": "all point clouds of all sizes and dimensions, all eigenvalue decompositions satisfying the contract of numpy, all meshes", "why_tests_cant": "optimality among all points, vectors and lines, for all point clouds", "anchors": ["polynomials_on_simplices/geometry/mesh/point_clouds.py", "polynomials_on_simplices/geometry/space_partitioning/kd_mesh_tree/simplicial_mesh_kd_tree.py: create_kd_tree"]}
{"id": "C77", "title": "Cartesian bases, basis matrices and random rigid motions", "statement": "cartesian_basis_vector(i, d) has the components delta_ij and is orthonormal to the others; negative indices count from the end and other indices raise IndexError. basis_matrix puts the vectors into the columns and basis_vectors is its inverse; vectors of a wrong length raise ValueError, except vectors of length one, which are repeated silently. move applied to a matrix moves each column. random_rigid_motion returns, for every outcome of the random number generator, a rotation matrix and a translation no longer than the radius in dimensions two and three, and raises ValueError in other dimensions.", "quantifier": "all dimensions, indices, bases, vectors and outcomes of the random number generator", "why_tests_cant": "quantifies over all random outcomes and all dimensions", "anchors": ["polynomials_on_simplices/linalg/basis.py: cartesian_basis, cartesian_basis_vector, basis_matrix, basis_vectors", "polynomials_on_simplices/linalg/rigid_motion.py: move, translate, random_rigid_motion"]}
{"id": "C78", "title": "Code of polynomials (code_str)", "statement": "code_str(name) of a polynomial (monomial, Bernstein or Lagrange basis; real or vector valued) returns the text of a Python function with exactly that name, and calling this function gives the value of the polynomial at every point, provided the coefficients are printed exactly. On a simplex the function first maps the point to the unit simplex with the printed affine map: its value is that of the polynomial at the point with the barycentric coordinates A y + b for the printed A and b, so the polynomial itself if these are printed exactly. The text has one meaning at most. NumPy prints eight digits, so that the function of a polynomial on a simplex need not have the values of the polynomial (0.99999999 instead of 1 at a vertex of a triangle).", "quantifier": "all polynomials, dimensions, degrees, bases, non-degenerate simplices, function names and points", "why_tests_cant": "the meaning of a generated text at all points, for all coefficients and names; the substitution of the name must not touch the expression", "anchors": ["polynomials_on_simplices/polynomial/polynomials_monomial_basis.py: code_str", "polynomials_on_simplices/polynomial/polynomials_unit_simplex_bernstein_basis.py: code_str", "polynomials_on_simplices/polynomial/polynomials_unit_simplex_lagrange_basis.py: code_str", "polynomials_on_simplices/polynomial/polynomials_simplex_bernstein_basis.py: code_str", "polynomials_on_simplices/polynomial/polynomials_simplex_lagrange_basis.py: code_str"]}
{"id": "C79", "title": "Textual representations, constructor arguments, hashes and iteration", "statement": "repr of a multi-index, of a permutation and of an integer modulo n is a Python call of the constructor of its class which creates an identical object. str of a multi-index is the text of the tuple of its components, str of a permutation the text of the tuple of its values counted from one, and str of an integer modulo n determines number and modulus. A multi-index (permutation) can be created from a list, a tuple or separate arguments with the same result; no argument, a negative component or a sequence among several arguments is an error. Equal objects have equal hashes (an integer modulo n and a plain integer if it is below 2^61 - 1 in absolute value). Iterating over a vector valued polynomial gives its components in order, as polynomials, and stops; a scalar valued polynomial has no length and no iterator. repr of a polynomial is not faithful: the call has the arguments (coefficients, dimension, degree) while the constructor takes (coefficients, degree, dimension), so that degree and dimension are silently exchanged.", "quantifier": "all multi-indices, permutations, integers modulo n, sequences of integers, polynomials, dimensions and degrees", "why_tests_cant": "round trips through text for integers of any size and sequences of any length (with the special cases of length zero and one)", "anchors": ["polynomials_on_simplices/algebra/multiindex.py: MultiIndex", "polynomials_on_simplices/algebra/permutations.py: Permutation", "polynomials_on_simplices/algebra/modular_arithmetic.py: IntegerModuloN", "polynomials_on_simplices/polynomial/polynomials_base.py: PolynomialComponentsIterator, PolynomialBase.__len__, __iter__, __getitem__", "polynomials_on_simplices/polynomial/polynomials_monomial_basis.py: __repr__", "polynomials_on_simplices/polynomial/polynomials_unit_simplex_bernstein_basis.py: __repr__", "polynomials_on_simplices/polynomial/polynomials_unit_simplex_lagrange_basis.py: __repr__"]}
{"id": "C80", "title": "Identifiers of bases: which operands are accepted", "statement": "The identifiers (basis()) of the monomial, Bernstein and Lagrange basis on the unit simplex are three different texts, different from the identifiers on other simplices; two identifiers on simplices agree exactly if the bases are of the same kind and str(vertices) is the same text, whatever line breaks it contains. So if printing tells the simplices of two polynomials apart, sums and differences are those of the functions for operands on the same simplex in the same basis and all other operands raise AssertionError. If two different simplices are printed alike (NumPy prints eight digits), the operands are accepted: the result is defined on the first simplex and combines values at points with the same barycentric coordinates, and there are always operands for which it is not their sum.", "quantifier": "all kinds of bases, simplices, dimensions, degrees, polynomials and printing functions", "why_tests_cant": "injectivity of a text over all printed arrays, and the values of results at all points for all operands", "anchors": ["polynomials_on_simplices/polynomial/polynomials_monomial_basis.py: unique_identifier_monomial_basis", "polynomials_on_simplices/polynomial/polynomials_unit_simplex_bernstein_basis.py: unique_identifier_bernstein_basis", "polynomials_on_simplices/polynomial/polynomials_unit_simplex_lagrange_basis.py: unique_identifier_lagrange_basis", "polynomials_on_simplices/polynomial/polynomials_simplex_bernstein_basis.py: unique_identifier_bernstein_basis_simplex, __mul__", "polynomials_on_simplices/polynomial/polynomials_simplex_lagrange_basis.py: unique_identifier_lagrange_basis_simplex", "polynomials_on_simplices/polynomial/polynomials_simplex_base.py: __add__, __sub__"]}
{"id": "C81", "title": "Calling a piecewise polynomial", "statement": "On a mesh of positively oriented simplices, calling a piecewise polynomial at a point returns the value of its polynomial on a simplex that contains the point (including its boundary), and zero at points outside of the mesh; the search tree never hides a simplex of the support. If the function is continuous and the mesh conforming, or the point is in one simplex only, this is the value on every simplex that contains the point, independent of the shape of the tree; a discontinuous function takes the value on one of the simplices. The constructor, together with create_kd_tree, returns such an object for every mesh in at least one dimension, and the calls of sums, differences, products, multiples, components, degree elevations and positive powers (which keep the tree of the first operand) return the sums, products, ... of the values. Simplices that are negatively oriented or degenerate are never used: the value is that on a positively oriented simplex that contains the point, or zero, without an error; the power zero, which is 1 on each simplex, is called as 0 outside of the simplices that the tree of the base knows.", "quantifier": "all meshes, bases, dimensions, degrees, coefficients, trees, operands and points", "why_tests_cant": "joins the tree search, the test of the simplices and the evaluation for all points, including those on common faces, and for all histories of operations that pass on a tree", "anchors": ["polynomials_on_simplices/piecewise_polynomial/piecewise_polynomial.py: PiecewisePolynomialBase.__init__, __call__, evaluate_on_simplex, __add__, __sub__, __mul__, __pow__", "polynomials_on_simplices/geometry/space_partitioning/kd_mesh_tree/simplicial_mesh_kd_tree.py: create_kd_tree", "polynomials_on_simplices/geometry/space_partitioning/kd_tree.py: find_leaf_containing_point", "polynomials_on_simplices/geometry/primitives/simplex.py: inside_simplex"]}
{"id": "C82", "title": "Source files and modules of packages", "statement": "source_file_paths yields the path of a file in the directory tree exactly if its name ends with .py, neither the file nor one of the directories below the package that contain it is hidden (unless hidden files are included), the file is not private, with names beginning with two underscores not counted as private (unless private files are included), and it is not a test file in a directory called test (if these are excluded); each file is yielded once, with the path below the package path or relative to it. submodule_paths and subpackage_paths yield the paths of the files of the modules and of the directories of the packages that pkgutil finds, in the same order. submodules yields the dotted names of these modules, if no component after the first begins with py; otherwise the name is wrong (pkg.pyutils becomes pkgutils), since the text .py is removed everywhere. For the package path '.' a test file directly in the package raises IndexError when test files are excluded.", "quantifier": "all directory trees without symbolic links, package paths, current directories, options and lists of modules", "why_tests_cant": "selection of files over all directory trees and names, with all combinations of options; text replacement for all module names", "anchors": ["polynomials_on_simplices/generic_tools/package_utils.py: source_file_paths, _is_test_file, submodule_paths, subpackage_paths, submodules"]}
{"id": "C83", "title": "Continuous piecewise polynomials on the package's own meshes", "statement": "The meshes of the package (rectangle, unit square, right, equilateral and general triangles in the plane, unit cube, unit and general tetrahedra, for every resolution) can be used as domains of continuous piecewise polynomials: they are conforming meshes of positively oriented simplices of exactly the domain. For every such mesh, every degree at least one, the Bernstein and the Lagrange basis and every choice of coefficients (one for each degree of freedom), the constructor succeeds, the object can be called at every point of space, its values form a continuous function on the domain (in the sense of analysis) and are zero outside, and on each simplex the value is the combination of the basis polynomials with the coefficients of the simplex.", "quantifier": "all resolutions, sizes, degrees, coefficients and points", "why_tests_cant": "the result depends on the numbering of the mesh, the numbering of degrees of freedom and the search tree together, for every resolution", "anchors": ["polynomials_on_simplices/geometry/mesh/basic_meshes/triangle_meshes.py: rectangle_triangulation, rectangle_vertices, unit_square_vertices, triangle_triangulation, triangle_vertices, equilateral_triangle_vertices, general_triangle_vertices", "polynomials_on_simplices/geometry/mesh/basic_meshes/tet_meshes.py: rectangular_box_triangulation, unit_cube_vertices, tetrahedron_triangulation, tetrahedron_vertices, general_tetrahedron_vertices", "polynomials_on_simplices/piecewise_polynomial/piecewise_polynomial.py: PiecewisePolynomialBase.__init__, __call__"]}
{"id": "C84", "title": "The random samplers are uniform and independent", "statement": "If the numbers of the random number generator are independent and uniformly distributed in [0, 1) (standard normally distributed for randn), then the samplers of the package return with probability one, and the points they return are independent and uniformly distributed in the domain: closed, open and half open unit intervals, cubes, balls, discs and simplices (the probability of any measurable set is its share of the volume). Points on the unit sphere and the unit circle are independent, all directions are equally probable (the distribution is the share of the ball's volume and is invariant under rotations and reflections).", "quantifier": "all dimensions, all numbers of points, all measurable sets", "why_tests_cant": "a distribution is a statement about all outcomes and all measurable sets; tests of a finite sample can only fail to reject it", "anchors": ["polynomials_on_simplices/probability_theory/uniform_sampling.py: closed_unit_interval_sample, open_unit_interval_sample, left_closed_interval_sample, right_closed_interval_sample, *_sampling, nsphere_sampling, unit_disc_sampling, nsphere_surface_sampling, unit_circle_sampling, nsimplex_sampling"]}
{"id": "C85", "title": "Random rotations and rigid motions are uniformly distributed", "statement": "If the numbers of the random number generator are independent, uniformly distributed in [0, 1) and standard normally distributed, then random_rotation_matrix_2 and random_rotation_matrix_3 return, with probability one, a rotation matrix, and its distribution is the uniform one on the group of rotations: it does not change if a fixed rotation is applied before or after, and it is the only distribution with this property. random_rigid_motion returns such a rotation together with an independent translation that is uniformly distributed in the ball of the given radius.", "quantifier": "all fixed rotations, all measurable sets of matrices and vectors, all positive radii", "why_tests_cant": "a statement on a distribution over a continuous group; the choice of a random axis and angle that looks uniform but is not passes every test of single matrices", "anchors": ["polynomials_on_simplices/linalg/rotation.py: random_rotation_matrix_2, random_rotation_matrix_3, compute_rotation, rotate", "polynomials_on_simplices/linalg/rigid_motion.py: random_rigid_motion"]}
{"id": "C86", "title": "Random permutations, subsets and multi-indices are uniformly distributed", "statement": "If the integers of the random number generator are uniformly distributed in the requested range and independent, then generate_random_permutation(n) returns each of the n! permutations with the same probability, generate_random_subset_permutation(n, k) each of the n (n - 1) ... (n - k + 1) arrangements of k different numbers below n, generate_random_increasing_subset_permutation(n, k) each of the (n choose k) increasing tuples, and random_multiindex(n, r) each of the (n + r choose r) multi-indices of norm at most r.", "quantifier": "all n, k and r, all outcomes", "why_tests_cant": "equal probability of n! outcomes is a statement on all sequences of draws; a shuffle with a wrong range is biased although every result is a permutation", "anchors": ["polynomials_on_simplices/algebra/permutations.py: generate_random_permutation, generate_random_subset_permutation, generate_random_increasing_subset_permutation", "polynomials_on_simplices/algebra/multiindex.py: random_multiindex"]}
{"id": "C87", "title": "The spaces of piecewise polynomials are complete", "statement": "The functions that piecewise polynomial objects of degree r on a mesh can represent are exactly the piecewise polynomials: functions that are a polynomial of degree at most r on each simplex, for continuous spaces with the same values on the common face of two simplices, and zero on the boundary simplices if the degrees of freedom on the boundary are left out. Each of them is the function of exactly one list of coefficients, in the Bernstein basis and in the Lagrange basis. On a conforming mesh of a domain, the functions obtained by calling the objects of a continuous space are exactly the functions on the domain that are polynomials on each simplex, and the number of degrees of freedom that the local-to-global map reports is the dimension of this vector space. Applying the dual Lagrange basis to any function gives the coefficients of its interpolation, which has the same values at the Lagrange points and is the function itself if it belongs to the space.", "quantifier": "all meshes, dimensions, degrees, boundary simplices, value spaces and functions", "why_tests_cant": "a statement on all functions of an infinite set: a numbering that merges or drops degrees of freedom consistently still evaluates without errors, but some functions can no longer be represented", "anchors": ["polynomials_on_simplices/piecewise_polynomial/piecewise_polynomial.py: PiecewisePolynomialBase.__init__, __call__, evaluate_on_simplex, generate_local_to_global_map", "polynomials_on_simplices/piecewise_polynomial/continuous_piecewise_polynomial.py: generate_local_to_global_map", "polynomials_on_simplices/piecewise_polynomial/piecewise_polynomial_lagrange_basis.py: dual_piecewise_polynomial_lagrange_basis", "polynomials_on_simplices/piecewise_polynomial/continuous_piecewise_polynomial_lagrange_basis.py: dual_continuous_piecewise_polynomial_lagrange_basis"]}
{"id": "C88", "title": "Generated evaluation code is accurate in floating point arithmetic", "statement": "If every arithmetic operation (and every literal) has a relative error of at most eps, then running the code that the generators produce for a polynomial in the monomial, Bernstein or Lagrange basis gives a number, and each number it can give differs from the value of the polynomial by at most ((1 + eps)^N - 1) times the sum of the absolute values of the terms. N is the number of operations applied one after the other: for the monomial and Lagrange bases twice the number of coefficients plus 2 m + 4, for the Bernstein basis the number of coefficients plus (m + 2)(r + 2) + 2. For a polynomial with nonnegative monomial coefficients at a point with nonnegative coordinates this is a relative error, of at most N eps / (1 - N eps). For vector valued polynomials this holds for each component. The coefficients in the text may be rounded as well, as str and repr of a float do.", "quantifier": "all degrees, dimensions, coefficients, points, eps >= 0 and all ways of rounding", "why_tests_cant": "a bound on the rounding errors of all evaluations; tests with a tolerance only see the errors at the tested points, and a rewriting of the expression that is exact for integers can lose all digits", "anchors": ["polynomials_on_simplices/polynomial/code_generation/generate_monomial_polynomial_functions.py", "polynomials_on_simplices/polynomial/code_generation/generate_barycentric_polynomial_functions_simplex.py", "polynomials_on_simplices/polynomial/code_generation/generate_lagrange_polynomial_functions_simplex.py", "polynomials_on_simplices/polynomial/code_generation/generate_polynomial_functions.py", "polynomials_on_simplices/generic_tools/str_utils.py: str_sum, str_product, str_multi_product, str_multi_sum, str_exponent, str_dot_product, str_number"]}
{"id": "C89", "title": "Polynomials are values: they share no state with each other or with the arrays they are made from", "statement": "A program that creates arrays, constructs polynomials from them, changes the arrays, and copies, adds, multiplies, differentiates, elevates, converts and evaluates polynomials in any order gets the same results as a program in which polynomials are values that never change, provided that it does not assign to the coeff array of a polynomial. The value of an existing polynomial at a point never changes. The coefficients of a polynomial are changed only by an assignment to its own coeff array, and an array of the program only by an assignment to it. (After an assignment p.coeff[i] = v, p(x) is still the old value, although p * 1 is the polynomial with the new coefficients; products and multi-index powers use the new coefficients, except in the Lagrange basis where they use the old ones.)", "quantifier": "all histories of operations, also with exceptions, all bases, degrees and dimensions, scalar and vector valued", "why_tests_cant": "aliasing shows only in particular orders of operations: a constructor that keeps a reference to the array of the caller, or a table with a wrong key that is shared by all objects, passes tests that use each object once", "anchors": ["polynomials_on_simplices/polynomial/polynomials_base.py: PolynomialBase.__init__, _to_numpy_array, __add__, __sub__, __mul__, __truediv__, __getitem__, multiply_with_constant", "polynomials_on_simplices/polynomial/polynomials_monomial_basis.py: Polynomial", "polynomials_on_simplices/polynomial/polynomials_unit_simplex_bernstein_basis.py: PolynomialBernstein", "polynomials_on_simplices/polynomial/polynomials_unit_simplex_lagrange_basis.py: PolynomialLagrange, _basis_polynomials_monomial_form"]}
{"id": "C90", "title": "Polynomials on simplices are values, as long as the arrays of vertices are not overwritten", "statement": "A program that creates arrays of vertices, fills them, constructs polynomials on simplices with them, and adds, multiplies, differentiates, elevates, evaluates and inspects polynomials in any order gets the same results as a program in which each polynomial is a value with its own vertices, provided that it does not assign to an array of vertices after it has constructed a polynomial with it. Value at a point and coefficients of an existing polynomial never change, even if it does. (If it does, the sum of a polynomial on the old simplex and a polynomial on the new one is accepted and wrong.)", "quantifier": "all histories of operations, also with exceptions, all bases, degrees and dimensions, scalar and vector valued", "why_tests_cant": "which polynomials share an array depends on the whole history; tests construct each polynomial with a fresh array", "anchors": ["polynomials_on_simplices/polynomial/polynomials_simplex_base.py: PolynomialSimplexBase.__init__, simplex_vertices", "polynomials_on_simplices/polynomial/polynomials_simplex_bernstein_basis.py: PolynomialBernsteinSimplex", "polynomials_on_simplices/polynomial/polynomials_simplex_lagrange_basis.py: PolynomialLagrangeSimplex"]}
{"id": "C91", "title": "Multi-index powers of vector valued piecewise polynomials", "statement": "For a vector valued piecewise polynomial p with components p_1, ..., p_n and a multi-index a, p ** a is the function p_1^a_1 ... p_n^a_n on each simplex, with the support and the tree of p if a is not zero, and the constant one if a is zero. In the Lagrange basis this holds for functions of degree r >= 1, and the degree of the result is r |a|. In the Bernstein basis it holds for every degree, if the unit function can be constructed, and the degree of the result is r |a|, for continuous functions r |a| + 1. Exponents of the wrong length are rejected. (In the Lagrange basis p ** a is the constant one for every a if p is constant on each simplex. In the Bernstein basis p ** a raises ValueError for every a if p is discontinuous and the boundary degrees of freedom are numbered last.)", "quantifier": "all meshes, degrees, coefficients, target dimensions and exponents", "why_tests_cant": "the Lagrange version samples values and the Bernstein version multiplies recursively; only particular degrees and spaces expose the wrong base case", "anchors": ["polynomials_on_simplices/piecewise_polynomial/piecewise_polynomial_bernstein_basis.py: PiecewisePolynomialBernstein.__pow__", "polynomials_on_simplices/piecewise_polynomial/piecewise_polynomial_lagrange_basis.py: PiecewisePolynomialLagrange.__pow__"]}
{"id": "C92", "title": "Piecewise polynomials are values, as long as their mesh is not overwritten and their support sets are not changed", "statement": "A program that creates arrays of triangles, boundary simplices and vertices, fills them, constructs piecewise polynomials with them, and adds, multiplies, differentiates, elevates, restricts, evaluates and inspects piecewise polynomials in any order gets the same results as a program in which each of them is a value with its own mesh, support and search tree, provided that it does not assign to an array after it has constructed a piecewise polynomial with it and does not change the sets that support() returns. The coefficients of an existing piecewise polynomial never change, and values on a simplex and the support only change if a support set is changed. (If a support set is changed, other functions are changed as well; if the vertices are overwritten, evaluate_on_simplex, restrict_to_simplex and calls return values of different functions.)", "quantifier": "all histories of operations, also with exceptions, all meshes, degrees and dimensions, scalar and vector valued, both bases, continuous and discontinuous", "why_tests_cant": "which objects share an array, a set or a tree depends on the whole history; tests look at one operation at a time", "anchors": ["polynomials_on_simplices/piecewise_polynomial/piecewise_polynomial.py: PiecewisePolynomialBase.__init__, support, __call__, __add__, __truediv__, multiply_with_constant", "polynomials_on_simplices/piecewise_polynomial/piecewise_polynomial_bernstein_basis.py: PiecewisePolynomialBernstein", "polynomials_on_simplices/piecewise_polynomial/piecewise_polynomial_lagrange_basis.py: PiecewisePolynomialLagrange"]}
{"id": "C93", "title": "Affine maps as numbers and arrays", "statement": "Points of one dimensional spaces are numbers, all other points are arrays; the matrix of a map may be a number, a one dimensional array (one row or one column) or a two dimensional array. For every such value: create_affine_map(a, b) evaluates A x + b, with one argument or with the coordinates as separate arguments, and rejects 1 x 1 matrices and offsets that do not fit; inverse_affine_transformation and pseudoinverse_affine_transformation return values that stand for the inverse (left inverse) map; affine_composition returns values that stand for phi2(phi1(x)) in exactly the listed cases; affine_transformation_from_unit and affine_transformation_to_unit return values that stand for maps between the unit simplex and the simplex; affine_transformation(vertices1, vertices2) returns values that stand for a map of the vertices to the vertices unless the simplices are lines and the second lies in a space of dimension m > 1. In that case the offset is an m x m matrix, and the created map returns an m x m matrix with the right point on its diagonal.", "quantifier": "all dimensions, all matrices and offsets, all representations, all points, all non-degenerate simplices", "why_tests_cant": "combinations of shapes for which broadcasting silently gives arrays of another shape", "anchors": ["polynomials_on_simplices/calculus/affine_map.py: create_affine_map, inverse_affine_transformation, pseudoinverse_affine_transformation, affine_composition", "polynomials_on_simplices/geometry/primitives/simplex.py: affine_transformation_from_unit, affine_transformation_to_unit, affine_transformation"]}
{"id": "C94", "title": "Finite differences at numpy arrays: integer entries and functions that return views", "statement": "At a point held in an array of floats, and for a function that returns new objects, forward_difference, central_difference and their Jacobian versions return the documented quotients and leave the array as it was. If the function returns a view of its argument (the argument itself, a slice, ...) all quotients are zero. If the array has integer entries, the perturbed coordinate is truncated: for 0 < h < 1 the forward quotient in direction i is zero if x_i >= 0 and (f(x + e_i) - f(x)) / h otherwise; for 0 < h < 2 the central quotient is zero if x_i = 0, (f(x) - f(x - e_i)) / h if x_i > 0 and (f(x + e_i) - f(x)) / h if x_i < 0; for linear functions this is 0 or 1/h times the derivative.", "quantifier": "all functions, points, step sizes and dimensions", "why_tests_cant": "the result depends on the type of the entries of the array and on whether the function returns new memory; tests use float arrays and arithmetic expressions", "anchors": ["polynomials_on_simplices/calculus/finite_difference.py: forward_difference, forward_difference_jacobian, central_difference, central_difference_jacobian"]}
{"id": "C95", "title": "Operators between sequences and multi-indices", "statement": "For a list or tuple x of numbers of the same length as the multi-index a, x ** a is the product x_1^a_1 ... x_n^a_n and x + a, x - a are the multi-indices of the sums and differences, where a negative entry raises ValueError; a wrong length raises AssertionError for the power and cuts off the longer operand for sums and differences. For a numpy array x numpy takes over: x ** a is the array of the powers x_i^a_i instead of their product, x + a and x - a are arrays instead of multi-indices, negative entries are accepted, operands of length one are broadcast and other lengths raise ValueError.", "quantifier": "all lengths, entries and multi-indices; numbers of any commutative monoid for powers", "why_tests_cant": "the result depends on the type of the left operand; tests use a list", "anchors": ["polynomials_on_simplices/algebra/multiindex.py: MultiIndex.__rpow__, MultiIndex.__radd__, MultiIndex.__rsub__, MultiIndex.__len__, MultiIndex.__getitem__, power"]}
{"id": "C96", "title": "Barycentric coordinates with integer vertices", "statement": "With an array of floats as vertices, cartesian_to_barycentric and inside_simplex compute what C38 and C39 say. With an array of integers as vertices of a positively oriented simplex of full dimension, the vertices are unchanged afterwards, but cartesian_to_barycentric(x, vertices) returns the barycentric coordinates of the point whose coordinates are those of x with their fractional parts removed, so it is right exactly for points with integer coordinates; inside_simplex (with and without boundary, and with a tolerance) answers for this other point. On the unit simplex all points with coordinates of absolute value less than 1 get the coordinates (1, 0, ..., 0) and are reported to be inside, and not to be in the interior.", "quantifier": "all dimensions, integer vertices, points and tolerances", "why_tests_cant": "the result depends on the type of the entries of the array; tests use arrays of floats", "anchors": ["polynomials_on_simplices/geometry/primitives/simplex.py: cartesian_to_barycentric, _cartesian_to_barycentric_volume, inside_simplex"]}
{"id": "C97", "title": "Integrals and points are accurate in floating point arithmetic", "statement": "If every arithmetic operation on floats has a relative error of at most eps <= 1/2, then integrating a polynomial with D coefficients over the unit simplex gives a number, and each number it can give differs from the integral by at most ((1 + eps)^N - 1) times the integral of the polynomial with the absolute values of the coefficients: N is D + 2 in the Bernstein basis, D + 6 in the monomial basis (with the table of integrals and without it) and 2 D + 8 in the Lagrange basis (where the coefficients of the basis polynomials may be rounded, and their absolute values are used as well). So the relative error is at most (1 + eps)^N - 1 for nonnegative Bernstein or monomial coefficients. On a simplex (Bernstein basis) the factor is (1 + delta)(1 + eps)^(D + 3) - 1 if the determinant has a relative error delta < 1. Each coordinate of barycentric_to_cartesian has an error of at most ((1 + eps)^(k + 2) - 1) times the sum of the absolute values of its k + 1 terms, so of the largest coordinate of a vertex for points of the simplex; each coordinate of centroid has an error of at most ((1 + eps)^(k + 1) - 1) times the mean of the absolute values, in whatever order numpy adds the numbers; the first coordinate of cartesian_to_barycentric_unit has an error of at most ((1 + eps)^(n + 1) - 1)(1 + sum |x_i|).", "quantifier": "all degrees, dimensions, coefficients, simplices, points, eps in [0, 1/2] and all ways of rounding", "why_tests_cant": "a bound on the rounding errors of all executions; tests with a tolerance only see the errors of the tested coefficients", "anchors": ["polynomials_on_simplices/calculus/polynomial/polynomials_simplex_bernstein_basis_calculus.py: integrate_bernstein_basis_fn_unit_simplex, integrate_bernstein_polynomial_unit_simplex, integrate_bernstein_polynomial_simplex", "polynomials_on_simplices/calculus/polynomial/polynomials_simplex_monomial_basis_calculus.py: integrate_homogeneous_polynomial_unit_simplex, integrate_polynomial_unit_simplex", "polynomials_on_simplices/calculus/polynomial/polynomials_simplex_lagrange_basis_calculus.py: integrate_lagrange_polynomial_unit_simplex", "polynomials_on_simplices/geometry/primitives/simplex.py: barycentric_to_cartesian, centroid, cartesian_to_barycentric_unit"]}
{"id": "C98", "title": "Polynomials have finite coefficients; division by zero", "statement": "If a coefficient (or a component of a coefficient) is infinite or undefined, the constructors of Polynomial, PolynomialBernstein and PolynomialLagrange, also on a simplex, raise OverflowError or ValueError (in the monomial and Bernstein basis OverflowError exactly if the first coefficient that is not finite is infinite), provided the number of coefficients is right; with finite coefficients they return the polynomial and its compiled code. So dividing a polynomial by zero always raises one of these exceptions (in the monomial and Bernstein basis ValueError exactly if the first coefficient is zero), and dividing by another number returns the quotient. Dividing a piecewise polynomial by zero raises nothing: on a simplex of the support to which a degree of freedom belongs every value of the quotient is infinite or undefined, on the other simplices it is zero.", "quantifier": "all bases, dimensions, degrees, coefficients, simplices, meshes and points, in exact arithmetic extended by infinite and undefined numbers", "why_tests_cant": "depends on how infinite and undefined numbers spread through the conversion of bases for every degree and dimension; tests do not use them", "anchors": ["polynomials_on_simplices/polynomial/polynomials_base.py: PolynomialBase.__truediv__", "polynomials_on_simplices/polynomial/polynomials_monomial_basis.py: Polynomial.__init__", "polynomials_on_simplices/polynomial/polynomials_unit_simplex_bernstein_basis.py: PolynomialBernstein.__init__", "polynomials_on_simplices/polynomial/polynomials_unit_simplex_lagrange_basis.py: PolynomialLagrange.__init__", "polynomials_on_simplices/polynomial/polynomials_simplex_base.py: PolynomialSimplexBase.__truediv__", "polynomials_on_simplices/generic_tools/str_utils.py: str_number", "polynomials_on_simplices/piecewise_polynomial/piecewise_polynomial.py: PiecewisePolynomialBase.__truediv__, PiecewisePolynomialBase.evaluate_on_simplex"]}
{"id": "C99", "title": "Arithmetic of Bernstein polynomials is accurate in floating point", "statement": "If every floating point operation (and SciPy's binom) has a relative error of at most eps, with eps at most 1/2, then the product, sum, difference, powers, degree elevation, partial derivatives, multiples and quotients with numbers of scalar valued PolynomialBernstein objects are computed without exceptions whenever the degree of the result is accepted, and at every point of the unit simplex the exact value of the computed polynomial differs from the exact value of the result by at most ((1 + eps)^k - 1) times the same expression with the absolute values of the coefficients. Here k is the dimension of the space of the first factor plus 8 for products, the dimension of the space of the elevated polynomial plus 10 for degree elevation and plus 11 for sums and differences of different degrees, and 1 for sums and differences of equal degrees and for multiples. For derivatives the difference is at most ((1 + eps)^2 - 1) times twice the degree times the largest absolute value of a coefficient, for the quotient with a number that is not zero the factor is eps, and for the power n it is (1 + eps)^((n - 1)(d + 8)) - 1, where d is the dimension of the space of the polynomial. Operands on domains of different dimension or in another basis, degree elevation to a lower degree and derivatives in directions that do not exist raise AssertionError.", "quantifier": "all dimensions, degrees, coefficients, points of the unit simplex and all ways of rounding; no overflow or underflow", "why_tests_cant": "the bound must hold for every degree, dimension and every combination of rounding errors; tests compare a few results with a tolerance", "anchors": ["polynomials_on_simplices/polynomial/polynomials_unit_simplex_bernstein_basis.py: PolynomialBernstein.__mul__, PolynomialBernstein.__pow__, PolynomialBernstein.degree_elevate, PolynomialBernstein.partial_derivative", "polynomials_on_simplices/polynomial/polynomials_base.py: PolynomialBase.__add__, PolynomialBase.__sub__, PolynomialBase.multiply_with_constant, PolynomialBase.__truediv__"]}
{"id": "C100", "title": "Arithmetic of polynomials in the monomial basis is accurate in floating point", "statement": "If every floating point operation has a relative error of at most eps, then the product, sum, difference, powers, partial derivatives, multiples and quotients with numbers of scalar valued Polynomial objects are computed without exceptions whenever the degree of the result is accepted, and at every point x the exact value of the computed polynomial differs from the exact value of the result by at most a factor times the same expression with the absolute values of the coefficients at the point with the coordinates |x_i|. The factor is (1 + eps)^k - 1 for products, where k is the dimension of the space of the first factor plus 1, eps for sums and differences (also of different degrees), multiples, derivatives and quotients with a number that is not zero, and (1 + eps)^((n - 1)(d + 1)) - 1 for the power n, where d is the dimension of the space of the polynomial. Operands on domains of different dimension or in another basis and derivatives in directions that do not exist raise AssertionError.", "quantifier": "all dimensions, degrees, coefficients, points and all ways of rounding; no overflow or underflow", "why_tests_cant": "the bound must hold for every degree, dimension and every combination of rounding errors; tests compare a few results with a tolerance", "anchors": ["polynomials_on_simplices/polynomial/polynomials_monomial_basis.py: Polynomial.__mul__, Polynomial.__pow__, Polynomial.degree_elevate, Polynomial.partial_derivative", "polynomials_on_simplices/polynomial/polynomials_base.py: PolynomialBase.__add__, PolynomialBase.__sub__, PolynomialBase.multiply_with_constant, PolynomialBase.__truediv__"]}
{"id": "C101", "title": "Accuracy of finite differences", "statement": "For functions with enough bounded derivatives near the point, first differences approach the derivatives with the step: in exact arithmetic the error of a forward difference (gradient or column of the Jacobian) is at most half a bound of the second derivatives times |h|, the error of a central difference at most a bound of the third derivatives times h^2/24. Second differences of univariate functions are accurate of first order (forward, error at most M|h| with M a bound of the third derivatives) and of second order (central, error at most M h^2/12 with M a bound of the fourth derivatives). Every entry of the matrix of second differences is the mixed second derivative at a point of the square spanned by the points where the function is evaluated. If every floating point operation has a relative error of at most eps and the function values have an absolute error of at most delta, the computed first and second differences, gradients and matrices of second differences differ from the derivatives (for matrices: from the mixed derivative at a point of the square) by at most an explicit bound: errors of the values and of the points divided by |h| or h^2, the error of the method, and the relative errors of the last operations.", "quantifier": "all smooth functions (values in a normed space for first differences), all points, all steps h != 0 of either sign, all dimensions, all rounding errors", "why_tests_cant": "Tests compare the differences of a few functions with their derivatives at a few points with one step size and a loose tolerance; the order of accuracy is a statement about all functions and all steps, and the effect of rounding depends on every combination of rounding errors.", "anchors": ["polynomials_on_simplices/calculus/finite_difference.py: forward_difference, forward_difference_jacobian, central_difference, central_difference_jacobian, second_forward_difference, second_central_difference"]}
{"id": "C102", "title": "Interpolation with Lagrange polynomials", "statement": "The polynomial in the Lagrange basis whose coefficients are the values of a function at the points returned by generate_lagrange_points has these values at these points, in any dimension and for all degrees the constructor accepts. Interpolation reproduces polynomials of the same degree given in any basis, and its error at a point x is at most (1 + sum of |l_nu(x)|) times the error of any polynomial of the same degree (at x and at the Lagrange points). For a function of one variable with r + 1 derivatives the error at x is the derivative of order r + 1 at some point, divided by (r + 1)!, times the product of the distances to the Lagrange points; hence it is at most M / (4 (r + 1) r^(r+1)) on the unit interval and M |b - a|^(r+1) / (4 (r + 1) r^(r+1)) for a polynomial on the interval with end points a and b in any order, with M a bound of the derivative. On simplices of any dimension the error is at most a constant times the error of any polynomial of the same degree, and at most a constant times M h^(r+1) for a function with r + 1 continuous derivatives, where M bounds the derivative of order r + 1 and h the distances of the vertices; the constants depend on dimension and degree only.", "quantifier": "all functions, all degrees accepted by the constructor (r >= 1 for the explicit constants), all dimensions (explicit constants: one variable), all points, all intervals and all simplices that are not degenerate (exact arithmetic)", "why_tests_cant": "Tests interpolate a few functions and compare values at a few points; the error bound ranges over all smooth functions and all points, and its order in the length of the interval cannot be seen from samples.", "anchors": ["polynomials_on_simplices/polynomial/polynomials_unit_simplex_lagrange_basis.py: PolynomialLagrange, generate_lagrange_points", "polynomials_on_simplices/polynomial/polynomials_simplex_lagrange_basis.py: PolynomialLagrangeSimplex"]}
{"id": "C103", "title": "Coefficients of Bernstein polynomials and their values", "statement": "The value of a polynomial in the Bernstein basis at a vertex of the unit simplex is the coefficient for that vertex. If the coefficients are the values of an affine function at the points returned by generate_lagrange_points the polynomial is that function, and conversely; the coefficients C(nu_j, k) / C(r, k) give the power x_j^k. With the values of any function at these points as coefficients the polynomial approximates the function on the unit simplex: the error at x is at most M / r if the function differs from an affine function by at most M |y - x|^2 (hence at most M / (2 r) if the second derivative has norm at most M), and at most L / sqrt(r) for a function with Lipschitz constant L. Degree elevation keeps the coefficients within any bounds that the given coefficients satisfy.", "quantifier": "all dimensions, all degrees accepted by the constructor, all functions, all points of the unit simplex (exact arithmetic)", "why_tests_cant": "Tests evaluate a few polynomials at a few points; these are statements about all coefficients, functions and points.", "anchors": ["polynomials_on_simplices/polynomial/polynomials_unit_simplex_bernstein_basis.py: PolynomialBernstein, PolynomialBernstein.degree_elevate", "polynomials_on_simplices/polynomial/polynomials_unit_simplex_lagrange_basis.py: generate_lagrange_points"]}
{"id": "C104", "title": "Fixed quadrature rules with rounding errors", "statement": "If every floating point operation and every constant has a relative error of at most eps, and the integrand, called with such rounded arguments, returns its value up to an absolute error delta, then the fixed rules for the unit triangle and the unit tetrahedron (degrees 1 to 4) return a number that differs from the result of the rule in exact arithmetic by at most ((1 + eps)^k - 1) W (B + delta) + W delta, where B bounds the integrand, W is the sum of the absolute weights and k is 9 for triangles and 17 for tetrahedra. Together with the error of the rule itself this bounds the distance to the integral. The multiplication with the computed determinant for general triangles and tetrahedra adds the relative error of the determinant and one rounding. Other degrees raise ValueError.", "quantifier": "all integrands (bounded, computed with an error of at most delta), all rounding errors, all degrees; determinant with any relative error", "why_tests_cant": "Tests compare a few integrals with a tolerance; the effect of rounding depends on the integrand and on every combination of rounding errors, in particular for the rules of degree three, which have a negative weight.", "anchors": ["polynomials_on_simplices/calculus/quadrature.py: quadrature_unit_triangle_fixed, quadrature_unit_tetrahedron_fixed, quadrature_triangle_fixed, quadrature_tetrahedron_fixed"]}
{"id": "C105", "title": "Multi-indices as dictionary keys", "statement": "MultiIndex.__eq__ and __hash__ are consistent with each other and with tuples: after any assignments d[k] = v with keys of one dimension (MultiIndex objects or tuples) d[k] is the last value assigned to a key with the same components, KeyError if there is none, and k in d tells which, for every hash function; so the local-to-global map tau may be called with either and returns -1 for components without an entry. Dictionaries with tuples as keys, as in the local-to-global maps, are not affected by assignments to components of multi-indices. A MultiIndex that is changed while it is a key makes its entry unreachable. A lookup of a MultiIndex among keys of other dimensions raises KeyError, or ValueError if the hashes collide.", "quantifier": "all histories of assignments, all hash functions (all collision patterns), all multi-indices and tuples", "why_tests_cant": "Tests use a few keys and the hash function of one interpreter; collisions never occur in them.", "anchors": ["polynomials_on_simplices/algebra/multiindex.py: MultiIndex.__hash__, MultiIndex.__eq__, MultiIndex.__setitem__", "polynomials_on_simplices/piecewise_polynomial/piecewise_polynomial.py: generate_local_to_global_map (tau)"]}
{"id": "C106", "title": "Plot functions draw the whole object in one figure", "statement": "plot_curve, plot_triangle_mesh and plot_triangle_mesh_wireframe issue all drawing commands to one figure: to the figure of the caller if fig is given, and then no figure is created and plt.show() is not called; otherwise to a new figure, created first, and plt.show() is called exactly once, at the end. In the plane this requires that a given figure is pyplot's current figure (plot_plane_curve ignores fig and draws in the current figure). The wireframe in space consists of exactly the three edges of every triangle, each drawn once as a segment between its vertices; a vertex index beyond the end raises IndexError. plot_curve raises ValueError unless the dimension is 2 or 3.", "quantifier": "all meshes and curves, all states of pyplot (numbers of figures, current figure), with and without a figure of the caller", "why_tests_cant": "Plot functions are not unit tested; which figure is current depends on the history of the program.", "anchors": ["polynomials_on_simplices/visualization/plot_lines.py: plot_curve, plot_space_curve, plot_plane_curve", "polynomials_on_simplices/visualization/plot_triangles.py: plot_triangle_mesh, plot_triangle_mesh_wireframe"]}
{"id": "C107", "title": "Plots of functions and piecewise polynomials show their graphs", "statement": "plot_function draws one line through the points (x, f(x)) for equally spaced x from the beginning to the end of the range, plot_curve the points of a parametric curve in the plane or in space; plot_bivariate_function draws a surface whose vertices are (x, y, f(x, y)) over a triangulation that tiles the triangle; plot_univariate_piecewise_polynomial and plot_bivariate_piecewise_polynomial draw one such line or surface for every interval or triangle of the mesh, with the values of the polynomial of that interval or triangle; all in one figure, shown as in C106. plot_bivariate_piecewise_polynomial raises TypeError if a color is passed, plot_bivariate_continuous_piecewise_polynomial raises ModuleNotFoundError for all arguments.", "quantifier": "all functions, ranges, resolutions, meshes without degenerate triangles, states of pyplot", "why_tests_cant": "Plot functions are not unit tested; resolution, mesh and state of pyplot are unbounded.", "anchors": ["polynomials_on_simplices/calculus/plot_function.py: plot_function, evaluate_curve, plot_curve, plot_bivariate_function", "polynomials_on_simplices/piecewise_polynomial/plot_piecewise_polynomial.py: plot_univariate_piecewise_polynomial, plot_bivariate_piecewise_polynomial", "polynomials_on_simplices/piecewise_polynomial/plot_continuous_piecewise_polynomial.py: plot_bivariate_continuous_piecewise_polynomial"]}
{"id": "C108", "title": "Names in the generated documentation", "statement": "shorten_module_name and shorten_package_name replace a first line 'a.b.c.xxx module' (or 'package') of a file by 'xxx module' and change nothing else; in every case only text at the beginning of the first line is removed; a file without the key in its first line, or without a line break, stays as it is; a second run changes nothing. shorten_all_rst_files, run in the directory it is applied to, does this for every .rst file of the directory and touches no other file. Run in another directory it does not change the files of the directory it is applied to, and raises FileNotFoundError if the first .rst file does not exist in the current directory.", "quantifier": "all contents of files, all names, all directories in any order of listing, all current directories", "why_tests_cant": "There are no tests; the order of the listing, the contents and the current directory are arbitrary.", "anchors": ["docs/shorten_module_and_package_names.py: shorten_module_name, shorten_package_name, shorten_all_rst_files"]}
{"id": "C109", "title": "Integers modulo n as dictionary keys", "statement": "IntegerModuloN.__eq__ and __hash__ are consistent: after any assignments d[IntegerModuloN(y, n)] = v the value of d[IntegerModuloN(x, n)] is the last one assigned for a y congruent to x modulo n, KeyError if there is none. Plain integers may be keys of the same dictionary and stand for their representative, as long as the representatives are less than 2^61 - 1 in absolute value; from 2^61 - 1 to 2^63 - 1 an IntegerModuloN is equal to its representative but is not found under it. A lookup among keys with another modulus raises ValueError if the representatives agree, KeyError otherwise.", "quantifier": "all histories of assignments, all moduli and integers", "why_tests_cant": "Tests use a few small keys; the statement is about all histories and about integers of any size, where the hash function of CPython treats the two types differently.", "anchors": ["polynomials_on_simplices/algebra/modular_arithmetic.py: IntegerModuloN.__hash__, IntegerModuloN.__eq__, IntegerModuloN.__init__"]}
{"id": "C110", "title": "Version in the configuration of the documentation", "statement": "update_version_in_conf replaces the line version = '' of conf.py by the version that git describe reports, without its line break, and changes nothing else; the file stays as it is if the command fails or the file has no empty version. After one run further runs change nothing, so the version is not updated when it changes.", "quantifier": "all contents of conf.py, all versions, success or failure of git", "why_tests_cant": "There are no tests; contents and versions are arbitrary strings.", "anchors": ["docs/set_version_from_git.py: get_git_description, update_version_in_conf"]}
