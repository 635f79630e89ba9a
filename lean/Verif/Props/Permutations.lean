import Verif.Lemmas.PermutationActions
import Mathlib.GroupTheory.Perm.Fin
/-!
# C12 - C20: permutations

`oneLine e` (in `Verif/Spec/Permutations.lean`) is the tuple `(e(0), ..., e(n-1))` of the permutation `e` of `{0, ..., n-1}`.
-/

namespace Verif.Props
open Verif Verif.Perm Verif.Spec

variable {n : Nat}

/-- The tuples `oneLine e` are exactly the rearrangements of `(0, ..., n-1)`. -/
theorem C12_oneLine_iff (l : List Nat) : l.Perm (List.range n) ↔ ∃ e : Equiv.Perm (Fin n), l = oneLine e :=
  ⟨exists_oneLine, by rintro ⟨e, rfl⟩; exact oneLine_perm e⟩

/-- C12: `inverse(p)` is the inverse permutation. -/
theorem C12_inverse (hn : 0 < n) (e : Equiv.Perm (Fin n)) : inverse (oneLine e) = .ok (oneLine e⁻¹) := inverse_oneLine hn e

/-- C12: `composition(s, p)` is `s` after `p`. -/
theorem C12_composition (hn : 0 < n) (s p : Equiv.Perm (Fin n)) :
    composition (oneLine s) (oneLine p) = .ok (oneLine (s * p)) := composition_eq hn s p

/-- C12, entry by entry: `composition(s, p)[i] == s[p[i]]`. -/
theorem C12_composition_apply (hn : 0 < n) (s p : List Nat) (hs : s.Perm (List.range n)) (hp : p.Perm (List.range n)) :
    ∃ c, composition s p = .ok c ∧ c.length = n ∧ ∀ i < n, ∃ j, p[i]? = some j ∧ c[i]? = s[j]? := by
  obtain ⟨s, rfl⟩ := exists_oneLine hs
  obtain ⟨p, rfl⟩ := exists_oneLine hp
  refine ⟨_, composition_eq hn s p, by simp, fun i hi => ⟨p ⟨i, hi⟩, by simp [oneLine, hi], by simp [oneLine, hi]⟩⟩

/-- C12: inverse is an involution and a two-sided inverse; composition is associative with neutral element `identity(n)`. -/
theorem C12_group (hn : 0 < n) (s p q : List Nat) (hs : s.Perm (List.range n)) (hp : p.Perm (List.range n))
    (hq : q.Perm (List.range n)) :
    (do inverse (← inverse p)) = .ok p ∧
    (do composition p (← inverse p)) = .ok (identity n) ∧
    (do composition (← inverse p) p) = .ok (identity n) ∧
    composition (identity n) p = .ok p ∧ composition p (identity n) = .ok p ∧
    (do composition (← composition s p) q) = (do composition s (← composition p q)) := by
  obtain ⟨s, rfl⟩ := exists_oneLine hs
  obtain ⟨p, rfl⟩ := exists_oneLine hp
  obtain ⟨q, rfl⟩ := exists_oneLine hq
  have hid : identity n = oneLine (1 : Equiv.Perm (Fin n)) := oneLine_one.symm
  rw [hid]
  simp only [inverse_oneLine hn, composition_eq hn, Py.bind_ok, inv_inv, mul_inv_cancel, inv_mul_cancel, one_mul, mul_one, mul_assoc,
    and_self]

/-- C12: two-line notation round-trips, and reordering the columns of the two lines does not matter. -/
theorem C12_two_line (hn : 0 < n) (p : List Nat) (hp : p.length = n) :
    toTwoLine p = (List.range n, p) ∧ fromTwoLine (toTwoLine p) = .ok p ∧
    ∀ a b : List Nat, (a.zip b).Perm ((List.range n).zip p) → fromTwoLine (a, b) = .ok p := by
  subst hp
  exact ⟨rfl, fromTwoLine_eq hn rfl (List.Perm.refl _), fun a b h => fromTwoLine_eq hn rfl h⟩

/-- C12: `to_one_based` adds one to each value and `from_one_based` takes it away again; a list is a one based permutation of `1, …, n` exactly if
`from_one_based` makes it a permutation of `0, …, n - 1`. -/
theorem C12_one_based (p : List Int) :
    fromOneBased (toOneBased p) = p ∧ toOneBased (fromOneBased p) = p ∧
    (∀ i : Nat, (toOneBased p)[i]? = p[i]?.map (fun k => k + 1)) ∧ (∀ i : Nat, (fromOneBased p)[i]? = p[i]?.map (fun k => k - 1)) ∧
    ∀ n : Nat, p.Perm ((List.range' 1 n).map Int.ofNat) ↔ (fromOneBased p).Perm ((List.range n).map Int.ofNat) := by
  have e1 : fromOneBased (toOneBased p) = p := by simp [fromOneBased, toOneBased, Function.comp_def]
  have e2 : toOneBased (fromOneBased p) = p := by simp [fromOneBased, toOneBased, Function.comp_def]
  have e3 : ∀ n : Nat, (List.range' 1 n).map Int.ofNat = toOneBased ((List.range n).map Int.ofNat) := by
    intro n
    rw [List.range'_eq_map_range, toOneBased, List.map_map, List.map_map]
    refine List.map_congr_left (fun k _ => ?_)
    show ((1 + k : Nat) : Int) = (k : Int) + 1
    omega
  refine ⟨e1, e2, fun i => by simp [toOneBased], fun i => by simp [fromOneBased], fun n => ⟨fun h => ?_, fun h => ?_⟩⟩
  · have h1 := h.map (· - 1)
    rw [e3] at h1
    have h2 : (toOneBased ((List.range n).map Int.ofNat)).map (· - 1) = (List.range n).map Int.ofNat := by simp [toOneBased, Function.comp_def]
    rwa [h2] at h1
  · have h1 := h.map (· + 1)
    rw [e3, ← e2]
    exact h1

/-- C12, the empty permutation: `inverse(())` and `composition((), ())` raise IndexError. -/
theorem C12_empty : inverse [] = .error .index ∧ composition [] [] = .error .index := ⟨rfl, rfl⟩

example : inverse [1, 2, 0] = .ok [2, 0, 1] ∧ composition [1, 2, 0] [1, 0, 2] = .ok [2, 1, 0] := ⟨by rfl, by rfl⟩
example : [1, 2, 0].Perm (List.range 3) := by decide

/-- C13: `cycle(p, i)` terminates and lists the orbit `i, p(i), p(p(i)), ...` without repetition, until it comes back to `i`. -/
theorem C13_cycle (e : Equiv.Perm (Fin n)) (i : Fin n) : ∃ c : List (Fin n), cycle (oneLine e) i = .ok (c.map Fin.val) ∧
    c.Nodup ∧ c[0]? = some i ∧ (∀ x, x ∈ c ↔ ∃ k, x = (e ^ k : Equiv.Perm (Fin n)) i) ∧
    ∀ (k : Nat) (h : k < c.length), e c[k] = c[(k + 1) % c.length]'(Nat.mod_lt _ (by omega)) := by
  refine ⟨orbit e i, cycle_eq e i, orbit_nodup e i, ?_, ?_, orbit_next e i⟩
  · have := period_pos e i
    simp [orbit, this]
  · intro x; rw [mem_orbit]
    simp only [Equiv.Perm.coe_pow]

/-- C13: `to_cycle_notation(p)` terminates and returns disjoint cycles of `p` that together contain every number once, and
`from_cycle_notation` recovers `p`. -/
theorem C13_cycle_notation (e : Equiv.Perm (Fin n)) : ∃ cs : List (List (Fin n)),
    toCycleNotation (oneLine e) = .ok (cs.map (List.map Fin.val)) ∧
    cs.flatten.Perm (List.finRange n) ∧
    (∀ c ∈ cs, c ≠ [] ∧ ∀ (k : Nat) (h : k < c.length), e c[k] = c[(k + 1) % c.length]'(Nat.mod_lt _ (by omega))) ∧
    fromCycleNotation (cs.map (List.map Fin.val)) n = .ok ((oneLine e).map Int.ofNat) := by
  obtain ⟨cs, h1, h2, h3⟩ := toCycleNotation_eq e
  refine ⟨cs, h3, ?_, ?_, fromCycleNotation_eq e cs h1 h2⟩
  · rw [List.perm_ext_iff_of_nodup h1.nodup (List.nodup_finRange n)]
    intro x; simp [h2 x]
  · intro c hc
    obtain ⟨i, rfl⟩ := h1.isOrbit c hc
    exact ⟨orbit_ne_nil e i, orbit_next e i⟩

/-- C13: `from_cycle_notation` gives the permutation with the given cycles, where cycles of length 1 may be left out. -/
theorem C13_from_cycles_omit (e : Equiv.Perm (Fin n)) (cs : List (List (Fin n)))
    (h : ∀ c ∈ cs, c ≠ [] ∧ ∀ (k : Nat) (h : k < c.length), e c[k] = c[(k + 1) % c.length]'(Nat.mod_lt _ (by omega)))
    (hf : ∀ i : Fin n, i ∉ cs.flatten → e i = i) :
    fromCycleNotation (cs.map (List.map Fin.val)) n = .ok ((oneLine e).map Int.ofNat) := by
  unfold fromCycleNotation
  rw [show List.replicate n (-1 : Int) = List.ofFn (fun _ : Fin n => (-1 : Int)) by simp, fromCycle_fold e cs h]
  simp only [Py.bind_ok, Py.pure_eq]
  congr 1
  apply List.ext_getElem (by simp)
  intro i h1 h2
  simp only [List.length_map, length_oneLine] at h2
  simp only [List.getElem_mapIdx, List.getElem_ofFn, oneLine, List.map_ofFn, Function.comp_apply]
  by_cases hm : (⟨i, h2⟩ : Fin n) ∈ cs.flatten
  · rw [if_pos hm, if_neg (by omega)]; rfl
  · rw [if_neg hm, if_pos rfl, hf _ hm]; rfl

example : toCycleNotation [2, 1, 0, 4, 3] = .ok [[0, 2], [1], [3, 4]] ∧
    fromCycleNotation [[0, 2], [1], [3, 4]] 5 = .ok [2, 1, 0, 4, 3] ∧ cycle [1, 2, 0] 1 = .ok [1, 2, 0] := ⟨by rfl, by rfl, by rfl⟩

/-- C14: the transpositions returned by `to_transpositions(p)` swap distinct elements and `from_transpositions` multiplies them back
to `p`. -/
theorem C14_transpositions (e : Equiv.Perm (Fin n)) : ∃ ts : List (Fin n × Fin n),
    toTranspositions (oneLine e) = .ok (ts.map (fun t => ((t.1 : Nat), (t.2 : Nat)))) ∧ (∀ t ∈ ts, t.1 ≠ t.2) ∧
    fromTranspositions (ts.map (fun t => ((t.1 : Nat), (t.2 : Nat)))) n = .ok (oneLine e) := by
  obtain ⟨cs, h1, h2, h3, h4⟩ := toTranspositions_eq e
  refine ⟨cs.flatMap cycleTs, h4, ts_ne e cs h1, ?_⟩
  have := fromTranspositions_eq (cs.flatMap cycleTs)
  rw [prod_cycles_eq e cs h1 h2] at this
  exact this

/-- C14: `from_transpositions` computes, for every list of transpositions, the product in which the first listed transposition is
applied first. -/
theorem C14_from_transpositions (ts : List (Fin n × Fin n)) :
    fromTranspositions (ts.map (fun t => ((t.1 : Nat), (t.2 : Nat)))) n =
      .ok (oneLine ((ts.map (fun t => Equiv.swap t.1 t.2)).reverse.prod)) := by
  have := fromTranspositions_eq ts
  rw [List.map_reverse] at this
  exact this

/-- C14: `swap(p, (x, y))` is `p` after exchanging `x` and `y`, that is it swaps the entries at positions `x` and `y`. -/
theorem C14_swap (s : Equiv.Perm (Fin n)) (x y : Fin n) :
    swap (oneLine s) ((x : Nat), (y : Nat)) = .ok (oneLine (s * Equiv.swap x y)) := swap_oneLine s x y

example : toTranspositions [1, 2, 0] = .ok [(0, 1), (0, 2)] ∧ fromTranspositions [(0, 1), (0, 2)] 3 = .ok [1, 2, 0] :=
  ⟨by rfl, by rfl⟩

/-- C15: `sign(p)` is the signature of `p`. -/
theorem C15_sign (e : Equiv.Perm (Fin n)) : sign (oneLine e) = .ok ((Equiv.Perm.sign e : ℤˣ) : Int) := sign_oneLine e

/-- C15: `sign(p)` is 1 or -1 according to the parity of the number of inversions, the pairs `i < j` with `p[i] > p[j]`. -/
theorem C15_inversions (e : Equiv.Perm (Fin n)) :
    sign (oneLine e) = .ok ((-1) ^ (Finset.univ.filter (fun ij : Fin n × Fin n => ij.1 < ij.2 ∧ e ij.2 < e ij.1)).card) := by
  rw [sign_oneLine, Equiv.Perm.sign_eq_prod_prod_Ioi]
  congr 1
  have h : ∀ i j : Fin n, i < j → ((if e i < e j then 1 else -1 : ℤˣ) : Int) = if e j < e i then -1 else 1 := by
    intro i j hij
    rcases lt_trichotomy (e i) (e j) with h | h | h
    · rw [if_pos h, if_neg h.not_gt]; rfl
    · exact absurd (e.injective h) hij.ne
    · rw [if_neg h.not_gt, if_pos h]; rfl
  rw [← Finset.prod_const, Finset.prod_filter, ← Finset.univ_product_univ, Finset.prod_product]
  simp only [Units.coe_prod]
  refine Finset.prod_congr rfl (fun i _ => ?_)
  rw [Finset.prod_congr rfl (fun j hj => h i j (Finset.mem_Ioi.1 hj)), ← Finset.filter_lt_eq_Ioi, Finset.prod_filter]
  refine Finset.prod_congr rfl (fun j _ => ?_)
  by_cases h1 : i < j <;> simp [h1]

/-- C15: multiplicativity, invariance under inversion, change of sign under a swap of two distinct elements. -/
theorem C15_sign_laws (hn : 0 < n) (s p : List Nat) (hs : s.Perm (List.range n)) (hp : p.Perm (List.range n)) (x y : Nat)
    (hx : x < n) (hy : y < n) (hxy : x ≠ y) :
    ∃ a b : Int, sign s = .ok a ∧ sign p = .ok b ∧ (a = 1 ∨ a = -1) ∧
      (do sign (← composition s p)) = .ok (a * b) ∧ (do sign (← inverse s)) = .ok a ∧ (do sign (← swap s (x, y))) = .ok (-a) := by
  obtain ⟨s, rfl⟩ := exists_oneLine hs
  obtain ⟨p, rfl⟩ := exists_oneLine hp
  refine ⟨_, _, sign_oneLine s, sign_oneLine p, ?_, ?_, ?_, ?_⟩
  · rcases Int.units_eq_one_or (Equiv.Perm.sign s) with h | h <;> simp [h]
  · rw [composition_eq hn]; simp only [Py.bind_ok, sign_oneLine]; simp
  · rw [inverse_oneLine hn]; simp only [Py.bind_ok, sign_oneLine]; simp
  · have := swap_oneLine s ⟨x, hx⟩ ⟨y, hy⟩
    simp only at this
    rw [this]; simp only [Py.bind_ok, sign_oneLine]
    rw [map_mul, Equiv.Perm.sign_swap (by intro h; exact hxy (by simpa using h))]; simp

theorem numFixed_aux (l : List Nat) : ∀ (k a : Nat), (l.zipIdx k).foldl (fun n x => if x.1 = x.2 then n + 1 else n) a =
    a + (l.zipIdx k).countP (fun x => decide (x.1 = x.2)) := by
  induction l with
  | nil => intros; simp
  | cons x l ih =>
    intro k a
    rw [List.zipIdx_cons, List.foldl_cons, ih, List.countP_cons]
    by_cases h : x = k <;> simp [h]; omega

/-- C15: `num_fixed_points(p)` is the number of `i` with `p[i] == i`. -/
theorem C15_num_fixed_points (e : Equiv.Perm (Fin n)) :
    numFixedPoints (oneLine e) = (Finset.univ.filter (fun i => e i = i)).card := by
  unfold numFixedPoints
  rw [numFixed_aux, Nat.zero_add]
  have : (oneLine e).zipIdx = (List.finRange n).map (fun i : Fin n => (((e i : Fin n) : Nat), (i : Nat))) := by
    apply List.ext_getElem (by simp)
    intro i h1 h2; simp [oneLine]
  rw [this, List.countP_map, List.countP_eq_length_filter]
  rw [Finset.card_def, Finset.filter_val]
  simp only [Fin.univ_def, Multiset.filter_coe, Multiset.coe_card]
  congr 1
  apply List.filter_congr
  intro i _
  simp [Fin.ext_iff]

example : sign [1, 2, 0] = .ok 1 ∧ sign [1, 0, 2] = .ok (-1) ∧ numFixedPoints [1, 0, 2] = 1 := ⟨by rfl, by rfl, by rfl⟩

/-- C16: `permute_values(p, a)[i] == a[p[i]]`. -/
theorem C16_permute_values {α : Type} (e : Equiv.Perm (Fin n)) (a : Fin n → α) :
    permuteValues (oneLine e) (List.ofFn a) = .ok (List.ofFn (fun i => a (e i))) := permuteValues_eq e a

/-- C16: `permute_positions` moves the element at position `i` to position `p[i]`. -/
theorem C16_permute_positions {α : Type} (hn : 0 < n) (e : Equiv.Perm (Fin n)) (a : Fin n → α) :
    ∃ b : Fin n → α, permutePositions (oneLine e) (List.ofFn a) = .ok (List.ofFn b) ∧ ∀ i, b (e i) = a i :=
  ⟨_, permutePositions_eq hn e a, fun i => by simp⟩

/-- C16: the two actions undo each other. -/
theorem C16_mutually_inverse {α : Type} (hn : 0 < n) (p : List Nat) (hp : p.Perm (List.range n)) (a : List α) (ha : a.length = n) :
    (do permutePositions p (← permuteValues p a)) = .ok a ∧ (do permuteValues p (← permutePositions p a)) = .ok a := by
  obtain ⟨e, rfl⟩ := exists_oneLine hp
  subst ha
  have h : a = List.ofFn (fun i : Fin a.length => a[i]) := by simp
  constructor
  · rw [show permuteValues (oneLine e) a = permuteValues (oneLine e) (List.ofFn (fun i : Fin a.length => a[i])) by rw [← h],
      permuteValues_eq]
    simp only [Py.bind_ok, permutePositions_eq hn]
    congr 1; simp
  · rw [show permutePositions (oneLine e) a = permutePositions (oneLine e) (List.ofFn (fun i : Fin a.length => a[i])) by rw [← h],
      permutePositions_eq hn]
    simp only [Py.bind_ok, permuteValues_eq]
    congr 1; simp

/-- C16: the actions of a product. By values the left factor acts first, by positions the right one. -/
theorem C16_action_of_composition {α : Type} (hn : 0 < n) (s p : Equiv.Perm (Fin n)) (a : Fin n → α) :
    (do permuteValues (← composition (oneLine s) (oneLine p)) (List.ofFn a)) =
      (do permuteValues (oneLine p) (← permuteValues (oneLine s) (List.ofFn a))) ∧
    (do permutePositions (← composition (oneLine s) (oneLine p)) (List.ofFn a)) =
      (do permutePositions (oneLine s) (← permutePositions (oneLine p) (List.ofFn a))) := by
  rw [composition_eq hn]
  simp only [Py.bind_ok, permuteValues_eq, permutePositions_eq hn]
  simp

/-- The product of a matrix (list of rows) and a vector. -/
def matVec (m : List (List Int)) (v : List Int) : List Int := m.map (fun row => (List.zipWith (· * ·) row v).sum)

theorem matVec_ofFn (m : Fin n → Fin n → Int) (v : Fin n → Int) :
    matVec (List.ofFn (fun i => List.ofFn (m i))) (List.ofFn v) = List.ofFn (fun i => ∑ j, m i j * v j) := by
  unfold matVec
  rw [List.map_ofFn]
  congr 1
  funext i
  simp only [Function.comp_apply]
  rw [show List.zipWith (· * ·) (List.ofFn (m i)) (List.ofFn v) = List.ofFn (fun j => m i j * v j) by
    apply List.ext_getElem (by simp); intro j h1 h2; simp]
  exact List.sum_ofFn

/-- C16: multiplying a vector with the permutation matrices is the same as permuting it. -/
theorem C16_matrices (hn : 0 < n) (p : List Nat) (hp : p.Perm (List.range n)) (v : List Int) (hv : v.length = n) :
    (do let m ← matrixValues p; return matVec m v) = permuteValues p v ∧
    (do let m ← matrixPositions p; return matVec m v) = permutePositions p v := by
  obtain ⟨e, rfl⟩ := exists_oneLine hp
  have h : ∃ f : Fin n → Int, v = List.ofFn f := by subst hv; exact ⟨fun i => v[i], by simp⟩
  obtain ⟨f, rfl⟩ := h
  rw [matrixValues_eq, matrixPositions_eq]
  simp only [Py.bind_ok, Py.pure_eq]
  rw [matVec_ofFn, matVec_ofFn, permuteValues_eq, permutePositions_eq hn]
  constructor
  · congr 2; funext i; simp
  · congr 2; funext i
    rw [Finset.sum_eq_single (e⁻¹ i)]
    · simp
    · intro j _ hj
      rw [if_neg (by rintro rfl; exact hj (by simp)), zero_mul]
    · simp

example : permuteValues [1, 2, 0] ["a", "b", "c"] = .ok ["b", "c", "a"] ∧
    permutePositions [1, 2, 0] ["a", "b", "c"] = .ok ["c", "a", "b"] := ⟨by rfl, by rfl⟩

/-- C17: `subset_permutations(n, k)` with `1 <= k <= n` lists every tuple of `k` distinct numbers below `n` exactly once, and
`num_subset_permutations(n, k)` of them. -/
theorem C17_subset_permutations (n k : Nat) (hk : 1 ≤ k) (hkn : k ≤ n) :
    (∀ t, t ∈ subsetPermutations n k ↔ t.length = k ∧ t.Nodup ∧ ∀ x ∈ t, x < n) ∧ (subsetPermutations n k).Nodup ∧
    numSubsetPermutations n k = .ok (subsetPermutations n k).length := by
  have h : subsetPermutations n k = generateSubset (List.range n) k := by
    unfold subsetPermutations; rw [if_neg (by omega)]; rfl
  rw [h]
  refine ⟨fun t => ?_, nodup_generateSubset k _ List.nodup_range, ?_⟩
  · rw [mem_generateSubset k _ _ List.nodup_range]; simp
  · unfold numSubsetPermutations
    rw [if_neg (by omega), length_generateSubset, List.length_range, Nat.descFactorial_eq_div hkn]

/-- C17: `permutations(n)` for `n >= 1` lists every permutation exactly once, `num_permutations(n) = n!` of them. -/
theorem C17_permutations (n : Nat) (hn : 1 ≤ n) :
    (∀ t, t ∈ permutations n ↔ t.Perm (List.range n)) ∧ (permutations n).Nodup ∧ numPermutations n = (permutations n).length := by
  obtain ⟨h1, h2, h3⟩ := C17_subset_permutations n n hn le_rfl
  refine ⟨fun t => ?_, h2, ?_⟩
  · unfold permutations
    rw [h1]
    constructor
    · rintro ⟨a, b, c⟩
      refine (List.subperm_of_subset b (fun x hx => List.mem_range.2 (c x hx))).perm_of_length_le ?_
      simp [a]
    · intro h
      exact ⟨by simpa using h.length_eq, h.nodup_iff.2 List.nodup_range, fun x hx => List.mem_range.1 (h.mem_iff.1 hx)⟩
  · unfold numSubsetPermutations at h3
    rw [if_neg (by omega)] at h3
    have h3 : n.factorial / (n - n).factorial = (subsetPermutations n n).length := by simpa using h3
    unfold permutations numPermutations
    rw [← h3]; simp

/-- C17: `increasing_subset_permutations(n, k)` with `1 <= k <= n` lists every increasing tuple of `k` numbers below `n` exactly once,
`num_increasing_subset_permutations(n, k)` of them. -/
theorem C17_increasing (n k : Nat) (hk : 1 ≤ k) (hkn : k ≤ n) :
    (∀ t, t ∈ increasingSubsetPermutations n k ↔ t.length = k ∧ t.Pairwise (· < ·) ∧ ∀ x ∈ t, x < n) ∧
    (increasingSubsetPermutations n k).Nodup ∧
    numIncreasingSubsetPermutations n k = (increasingSubsetPermutations n k).length := by
  have h : increasingSubsetPermutations n k = generateIncreasing (List.range n) k := by
    unfold increasingSubsetPermutations; rw [if_neg (by omega)]; rfl
  rw [h]
  refine ⟨fun t => ?_, nodup_generateIncreasing k _ List.nodup_range, ?_⟩
  · rw [mem_generateIncreasing k _ _ List.pairwise_lt_range]; simp
  · unfold numIncreasingSubsetPermutations
    rw [length_generateIncreasing, List.length_range]

/-- C17, outside `1 <= k <= n` the lists are empty. This is right for `k > n`; for `k = 0` it disagrees with the counting functions,
which answer 1 (the empty tuple). -/
theorem C17_out_of_range (n : Nat) (k : Int) (hk : k ≤ 0 ∨ (n : Int) < k) :
    subsetPermutations n k = [] ∧ increasingSubsetPermutations n k = [] := by
  unfold subsetPermutations increasingSubsetPermutations
  rw [if_pos (by omega), if_pos (by omega)]; exact ⟨rfl, rfl⟩

theorem C17_zero_disagrees (n : Nat) : numSubsetPermutations n 0 = .ok 1 ∧ (subsetPermutations n 0).length = 0 ∧
    numIncreasingSubsetPermutations n 0 = 1 ∧ (increasingSubsetPermutations n 0).length = 0 ∧
    numPermutations 0 = 1 ∧ (permutations 0).length = 0 := by
  refine ⟨?_, rfl, by simp [numIncreasingSubsetPermutations], rfl, rfl, rfl⟩
  unfold numSubsetPermutations
  rw [if_neg (by omega), Nat.sub_zero, Nat.div_self (Nat.factorial_pos n)]

example : subsetPermutations 3 2 = [[0, 1], [0, 2], [1, 0], [1, 2], [2, 0], [2, 1]] ∧
    increasingSubsetPermutations 4 2 = [[0, 1], [0, 2], [0, 3], [1, 2], [1, 3], [2, 3]] := ⟨by rfl, by rfl⟩

/-- The values `random.randint(0, n - 1 - i)`, `i = 0 .. n-2`, can return. -/
def AdmissibleDraws (n : Nat) (draws : List Nat) : Prop :=
  draws.length = n - 1 ∧ ∀ (i : Nat) (h : i < draws.length), draws[i] ≤ n - 1 - i

theorem admissible_bound {n : Nat} {draws : List Nat} (h : AdmissibleDraws n draws) :
    ∀ (j : Nat) (h : j < draws.length), draws[j] + (0 + j) < (List.range n).length := by
  intro j hj
  have := h.2 j hj
  have := h.1
  simp; omega

/-- C18: whatever the random numbers are, the result is a permutation. -/
theorem C18_random_permutation (n : Nat) (draws : List Nat) (h : AdmissibleDraws n draws) :
    ∃ p, randomPermutation n draws = .ok p ∧ p.Perm (List.range n) := by
  obtain ⟨q, h1, h2, _⟩ := shuffle_ok n draws 0 (List.range n) (admissible_bound h)
  exact ⟨q, h1, h2⟩

/-- C18: every permutation is the result of exactly one sequence of random numbers. As each sequence has the same probability
(`1/n * 1/(n-1) * ...`), the permutation is uniformly distributed. -/
theorem C18_uniform (n : Nat) (p : List Nat) (hp : p.Perm (List.range n)) :
    ∃! draws, AdmissibleDraws n draws ∧ randomPermutation n draws = .ok p := by
  rcases Nat.eq_zero_or_pos n with rfl | hn
  · obtain rfl : p = [] := by simpa using hp
    refine ⟨[], ⟨⟨rfl, by simp⟩, rfl⟩, ?_⟩
    rintro d ⟨⟨h, _⟩, _⟩
    exact List.length_eq_zero_iff.1 h
  obtain ⟨ds, h1, h2, h3⟩ := shuffle_surj n (n - 1) 0 (List.range n) p List.nodup_range hp (by simp; omega) (by omega)
  have hads : AdmissibleDraws n ds := ⟨h1, fun i hi => by have := h2 i hi; simp at this; omega⟩
  refine ⟨ds, ⟨hads, h3⟩, ?_⟩
  rintro d ⟨hd, hd'⟩
  exact shuffle_inj n d ds 0 (List.range n) p List.nodup_range (by rw [hd.1, h1]) (admissible_bound hd) h2 hd' h3

/-- C18: random subset permutations are tuples of `k` distinct numbers below `n`; sorted they are increasing tuples. -/
theorem C18_random_subset (n k : Nat) (hk : k ≤ n) (draws : List Nat) (h : AdmissibleDraws n draws) :
    ∃ t u, randomSubset n k draws = .ok t ∧ t.length = k ∧ t.Nodup ∧ (∀ x ∈ t, x < n) ∧
      randomIncreasing n k draws = .ok u ∧ u.Perm t ∧ u.Pairwise (· < ·) := by
  obtain ⟨p, h1, h2⟩ := C18_random_permutation n draws h
  have e : randomSubset n k draws = .ok (p.take k) := by unfold randomSubset; rw [h1]; rfl
  have hn : (p.take k).Nodup := (h2.nodup_iff.2 List.nodup_range).sublist (List.take_sublist _ _)
  refine ⟨p.take k, (p.take k).insertionSort (· ≤ ·), e, ?_, hn, ?_, ?_, List.perm_insertionSort _ _, ?_⟩
  · have := h2.length_eq; simp at this; simp; omega
  · intro x hx; exact List.mem_range.1 (h2.mem_iff.1 (List.mem_of_mem_take hx))
  · unfold randomIncreasing; rw [e]; rfl
  · have h3 : ((p.take k).insertionSort (· ≤ ·)).Pairwise (· ≤ ·) := List.pairwise_insertionSort _ _
    have h4 : ((p.take k).insertionSort (· ≤ ·)).Nodup := (List.perm_insertionSort _ _).nodup_iff.2 hn
    exact (h3.and h4).imp (fun h => lt_of_le_of_ne h.1 h.2)

example : AdmissibleDraws 4 [2, 0, 1] ∧ randomPermutation 4 [2, 0, 1] = .ok [2, 1, 3, 0] :=
  ⟨⟨rfl, by intro i h; simp at h; match i, h with | 0, _ => simp | 1, _ => simp | 2, _ => simp⟩, by rfl⟩

/-- C19: `construct_permutation(domain, codomain, n)` returns a permutation with `p[domain[i]] == codomain[i]` for every `i`. -/
theorem C19_construct_permutation (domain codomain : List Nat) (n : Nat) (hl : domain.length = codomain.length)
    (hd : domain.Nodup) (hc : codomain.Nodup) (hdn : ∀ x ∈ domain, x < n) (hcn : ∀ x ∈ codomain, x < n) :
    ∃ p, constructPermutation domain codomain n = .ok p ∧ p.Perm (List.range n) ∧
      ∀ (i : Nat) (h : i < domain.length), p[domain[i]]? = some (codomain[i]'(hl ▸ h)) := by
  obtain ⟨q, h1, h2, h3, _⟩ := construct_fold (domain.zip codomain) (List.range n) List.nodup_range
    (by rw [List.map_fst_zip hl.le]; exact hd) (by rw [List.map_snd_zip hl.ge]; exact hc)
    (fun x hx => by simpa using hdn _ (List.of_mem_zip hx).1) (fun x hx => by simpa using hcn _ (List.of_mem_zip hx).2)
  refine ⟨q, ?_, h2, ?_⟩
  · unfold constructPermutation; rw [if_pos hl]; exact h1
  · intro i hi
    have := h3 (domain[i], codomain[i]'(hl ▸ hi)) (by
      rw [List.mem_iff_getElem]; exact ⟨i, by simp; omega, by simp⟩)
    exact this

/-- C19: domain and codomain of different lengths are rejected. -/
theorem C19_construct_permutation_rejects (domain codomain : List Nat) (n : Nat) (hl : domain.length ≠ codomain.length) :
    constructPermutation domain codomain n = .error .assertion := by
  unfold constructPermutation; rw [if_neg hl]

theorem general_p {α : Type} [DecidableEq α] (domain codomain : List α) (hd : domain.Nodup) (hp : codomain.Perm domain) :
    ∃ e : Equiv.Perm (Fin domain.length), (codomain.mapM (fun c => keyE (elementIndex domain c))) = .ok (oneLine e) ∧ codomain = List.ofFn (fun i => domain[e i]) := by
  let f : α → Nat := fun c => (elementIndex domain c).getD 0
  have hf : ∀ c ∈ codomain, elementIndex domain c = some (f c) ∧ ∃ h : f c < domain.length, domain[f c] = c := by
    intro c hc
    obtain ⟨i, hi, rfl⟩ := List.mem_iff_getElem.1 (hp.mem_iff.1 hc)
    have : f domain[i] = i := by simp only [f, elementIndex_getElem domain hd i hi, Option.getD_some]
    rw [this, elementIndex_getElem domain hd i hi]
    exact ⟨rfl, hi, rfl⟩
  have h1 : (codomain.map f).Perm (List.range domain.length) := by
    have : (domain.map f) = List.range domain.length := by
      apply List.ext_getElem (by simp)
      intro i h1 h2
      simp only [List.length_range] at h2
      simp only [List.getElem_map, List.getElem_range, f, elementIndex_getElem domain hd i h2, Option.getD_some]
    rw [← this]; exact hp.map f
  obtain ⟨e, he⟩ := exists_oneLine h1
  refine ⟨e, ?_, ?_⟩
  · rw [← he]
    apply mapM_eq_ok
    intro c hc
    rw [(hf c hc).1]; rfl
  · apply List.ext_getElem (by simp [hp.length_eq])
    intro i h2 h3
    rw [List.getElem_ofFn]
    have h4 : i < domain.length := by simpa using h3
    have : (e ⟨i, h4⟩ : Nat) = f codomain[i] := by
      have := congrArg (fun l => l[i]?) he
      simp [oneLine, h4, h2] at this
      exact this.symm
    obtain ⟨h5, h6⟩ := (hf codomain[i] (List.getElem_mem h2)).2
    rw [← h6]
    simp only [Fin.getElem_fin, this]

/-- C19: for rearrangements `codomain` of a duplicate free, non-empty `domain` the permutation returned by
`construct_permutation_general` turns `domain` into `codomain`, by values or by positions as asked for. -/
theorem C19_construct_permutation_general {α : Type} [DecidableEq α] (domain codomain : List α) (h0 : domain ≠ []) (hd : domain.Nodup)
    (hp : codomain.Perm domain) :
    (∃ p, constructPermutationGeneral domain codomain true = .ok p ∧ p.Perm (List.range domain.length) ∧
      permuteValues p domain = .ok codomain) ∧
    (∃ p, constructPermutationGeneral domain codomain false = .ok p ∧ p.Perm (List.range domain.length) ∧
      permutePositions p domain = .ok codomain) := by
  obtain ⟨e, h1, h2⟩ := general_p domain codomain hd hp
  have hn : 0 < domain.length := List.length_pos_iff.2 h0
  have hdom : List.ofFn (fun i : Fin domain.length => domain[i]) = domain := by simp
  constructor
  · refine ⟨oneLine e, ?_, oneLine_perm e, ?_⟩
    · unfold constructPermutationGeneral; rw [h1]; rfl
    · have := permuteValues_eq e (fun i : Fin domain.length => domain[i])
      rw [hdom] at this
      rw [this, h2]
  · refine ⟨oneLine e⁻¹, ?_, oneLine_perm _, ?_⟩
    · unfold constructPermutationGeneral; rw [h1]
      simp only [Py.bind_ok, Bool.false_eq_true, if_false]
      exact inverse_oneLine hn e
    · have := permutePositions_eq hn e⁻¹ (fun i : Fin domain.length => domain[i])
      rw [hdom] at this
      rw [this, h2]; simp

/-- C19: an element of `codomain` that does not occur in `domain` raises KeyError. -/
theorem C19_general_unknown_element {α : Type} [DecidableEq α] (domain codomain : List α) (b : Bool) (x : α) (hx : x ∈ codomain)
    (hnot : x ∉ domain) : constructPermutationGeneral domain codomain b = .error .key := by
  have : ∀ l : List α, x ∈ l → (l.mapM (fun c => keyE (elementIndex domain c))) = .error .key := by
    intro l
    induction l with
    | nil => simp
    | cons a l ih =>
      intro hx
      rw [List.mapM_cons]
      rcases List.mem_cons.1 hx with rfl | hx
      · rw [elementIndex_none domain x hnot]; rfl
      · rw [ih hx]
        cases elementIndex domain a <;> rfl
  unfold constructPermutationGeneral
  rw [this codomain hx]; rfl

/-- C19, disagreement: repeated elements are not rejected, the result is then no permutation. -/
theorem C19_general_accepts_repeats : constructPermutationGeneral ["a", "b"] ["a", "a"] true = .ok [0, 0] := by rfl

example : constructPermutation [0, 1] [2, 0] 3 = .ok [2, 0, 1] ∧
    constructPermutationGeneral ["a", "b", "c"] ["c", "a", "b"] true = .ok [2, 0, 1] := ⟨by rfl, by rfl⟩

/-- C20: `cyclic_permutations(a)` lists the `len(a)` rotations of `a`; entry `j` is `a` rotated `j` steps to the right. -/
theorem C20_cyclic_permutations {α : Type} (a : List α) :
    cyclicPermutations a = .ok ((List.range a.length).map (fun j => a.drop (a.length - j) ++ a.take (a.length - j))) := by
  rw [cyclicPermutations_eq]
  congr 1
  apply List.map_congr_left
  intro j hj
  rw [List.mem_range] at hj
  exact List.rotate_eq_drop_append_take (by omega)

/-- C20: `circularly_equivalent(a, b)` (with `b` not empty) holds exactly when one is a rotation of the other. -/
theorem C20_circularly_equivalent {α : Type} [DecidableEq α] (a b : List α) (hb : b ≠ []) :
    ∃ r, circularlyEquivalent a b = .ok r ∧ (r = true ↔ ∃ k ≤ b.length, a = b.drop k ++ b.take k) := by
  unfold circularlyEquivalent
  rw [cyclicPermutations_eq]
  refine ⟨_, rfl, ?_⟩
  rw [decide_eq_true_iff, mem_cyclic a b hb]
  constructor
  · rintro ⟨k, rfl⟩
    have hl : 0 < b.length := List.length_pos_iff.2 hb
    refine ⟨k % b.length, (Nat.mod_lt _ hl).le, ?_⟩
    rw [List.rotate_eq_drop_append_take_mod]
  · rintro ⟨k, hk, rfl⟩
    exact ⟨k, List.rotate_eq_drop_append_take hk⟩

/-- C20: it is an equivalence relation on non-empty tuples. -/
theorem C20_equivalence {α : Type} [DecidableEq α] (a b c : List α) (ha : a ≠ []) (hb : b ≠ []) (hc : c ≠ []) :
    circularlyEquivalent a a = .ok true ∧ circularlyEquivalent a b = circularlyEquivalent b a ∧
    (circularlyEquivalent a b = .ok true → circularlyEquivalent b c = .ok true → circularlyEquivalent a c = .ok true) := by
  have h : ∀ x y : List α, y ≠ [] → circularlyEquivalent x y = .ok (decide (y ~r x)) := by
    intro x y hy
    unfold circularlyEquivalent
    rw [cyclicPermutations_eq]
    simp only [Py.bind_ok, Py.pure_eq]
    congr 1
    rw [decide_eq_decide]; exact mem_cyclic x y hy
  rw [h a a ha, h a b hb, h b a ha, h b c hc, h a c hc]
  refine ⟨by simp [List.IsRotated.refl], by simp [List.isRotated_comm], ?_⟩
  simp only [Except.ok.injEq, decide_eq_true_eq]
  intro h1 h2; exact h2.trans h1

/-- C20, the empty tuple is circularly equivalent to nothing, not even to itself. -/
theorem C20_empty {α : Type} [DecidableEq α] (a : List α) : circularlyEquivalent a [] = .ok false := rfl

example : circularlyEquivalent [1, 2, 0] [0, 1, 2] = .ok true ∧ circularlyEquivalent [1, 0, 2] [0, 1, 2] = .ok false := ⟨by rfl, by rfl⟩

end Verif.Props
