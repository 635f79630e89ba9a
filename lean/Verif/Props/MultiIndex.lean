import Verif.Lemmas.MultiIndexOps
/-!
# Properties C01 - C07: enumeration of multi-indices
-/

namespace Verif.Props
open Verif Verif.Spec Verif.MI

/-- **C01.** `generate_all(n, r)` returns every `n`-tuple of naturals with sum at most `r`, exactly once, and nothing else;
for negative `r` it raises AssertionError. -/
theorem C01_generate_all_complete (n : Nat) (r : Int) :
    (0 ≤ r → ∃ L, generateAll? n r = .ok L ∧ L.Nodup ∧ ∀ a, a ∈ L ↔ IsMultiIndexLE n r.toNat a) ∧
    (r < 0 → generateAll? n r = .error .assertion) := by
  constructor
  · intro h
    refine ⟨mis n r.toNat, ?_, nodup_mis _ _, fun a => mem_mis⟩
    rw [generateAll?, if_pos h, generateAll_eq_mis]
  · intro h; rw [generateAll?, if_neg (by omega)]

/-- **C01** (termination). The loop over `MultiIndexIterator(n, r)` ends with StopIteration: draining it with any fuel above the
number of multi-indices gives the returned list (so the result does not depend on the fuel used in the model). -/
theorem C01_generate_all_terminates (n r fuel : Nat) (h : (n + r).choose r < fuel) :
    drain fuel (Iter.init n r) = some (generateAll n r) := by
  rw [generateAll_eq_mis]; exact drain_init n r fuel (by rw [count_mis]; exact h)

example : ((2 + 3).choose 3 : Nat) < 11 := by decide

example : generateAll? 2 2 = .ok [[0, 0], [1, 0], [2, 0], [0, 1], [1, 1], [0, 2]] := by decide

/-- A finding about the iterator protocol: after StopIteration the iterator does not stay exhausted, a further `next`
returns `(1,)` again. -/
theorem C01_iterator_restarts :
    ∃ it, ((Iter.init 1 1).next.2.next.2).next = (.error .stopIteration, it) ∧ it.next.1 = .ok [1] := by
  refine ⟨_, rfl, ?_⟩; decide

/-- **C02.** The enumeration is strictly increasing, comparing tuples with the last component most significant. -/
theorem C02_order (n r i j : Nat) (a b : List Nat) (hij : i < j)
    (ha : (generateAll n r)[i]? = some a) (hb : (generateAll n r)[j]? = some b) : LastMostSignificantLt a b := by
  rw [generateAll_eq_mis] at ha hb
  have h := pairwise_mis n r
  rw [List.pairwise_iff_getElem] at h
  obtain ⟨hi, rfl⟩ := List.getElem?_eq_some_iff.1 ha
  obtain ⟨hj, rfl⟩ := List.getElem?_eq_some_iff.1 hb
  exact h i j hi hj hij

/-- **C02.** The zero multi-index comes first. -/
theorem C02_first (n r : Nat) : (generateAll n r)[0]? = some (List.replicate n 0) := by
  rw [generateAll_eq_mis, ← List.head?_eq_getElem?, head_mis]; rfl

/-- **C02** (documented form of the order, corrected). The number `Σ a_k (r+1)^k` strictly increases along the enumeration.
(The docstring of `generate` claims this for base `r`.) -/
theorem C02_digit_value_increasing (n r i j : Nat) (a b : List Nat) (hij : i < j)
    (ha : (generateAll n r)[i]? = some a) (hb : (generateAll n r)[j]? = some b) :
    digitsValue (r + 1) a < digitsValue (r + 1) b := by
  refine lms_digits (C02_order n r i j a b hij ha hb) ?_
  intro x hx
  rw [generateAll_eq_mis] at ha
  have := (mem_mis.1 (List.mem_of_getElem? ha)).2
  have := List.le_sum_of_mem hx
  omega

/-- The docstring's claim (base `r`) is false: for `n = 2, r = 2` positions 2 and 3 hold `(2,0)` and `(0,1)`, both with value 2. -/
theorem C02_doc_base_r_false :
    ¬ ∀ (n r i j : Nat) (a b : List Nat), i < j → (generateAll n r)[i]? = some a → (generateAll n r)[j]? = some b →
      digitsValue r a < digitsValue r b := by
  intro h
  exact absurd (h 2 2 2 3 [2, 0] [0, 1] (by decide) (by decide) (by decide)) (by decide)

example : (generateAll 2 2)[1]? = some [1, 0] ∧ (generateAll 2 2)[3]? = some [0, 1] := by decide

/-- **C03.** The number of multi-indices is the advertised dimension. -/
theorem C03_count (n r : Nat) :
    (generateAll n r).length = numMultiindices n r ∧ numMultiindices n r = Poly.getDimension r n ∧
    Poly.getDimension r n = (n + r).choose r := by
  have h : Poly.getDimension r n = (n + r).choose r := by
    unfold Poly.getDimension; rw [Nat.add_comm r n]; exact Nat.choose_symm_add
  refine ⟨?_, ?_, h⟩
  · rw [generateAll_eq_mis, count_mis]; rfl
  · rw [h]; rfl

/-- **C03** (degree inference), the part that holds: degrees below 20 are recovered. Missing: all degrees; see
`C03_degree_from_dimension_fails`, which shows that the claim is false for every degree from 20 on. -/
theorem C03_degree_from_dimension_partial (r m : Nat) (hm : 1 ≤ m) (hr : r < 20) :
    Poly.getDegreeFromDimension (Poly.getDimension r m) m = .ok r :=
  Poly.degreeSearch_ok _ _ _ _ (fun _ _ h => Poly.getDimension_inj m hm h) (List.mem_range.2 hr) rfl

/-- **C03** (negation). For every degree `r ≥ 20` the inference raises AssertionError. -/
theorem C03_degree_from_dimension_fails (r m : Nat) (hm : 1 ≤ m) (hr : 20 ≤ r) :
    Poly.getDegreeFromDimension (Poly.getDimension r m) m = .error .assertion := by
  refine Poly.degreeSearch_error _ _ _ (fun s hs h => ?_)
  have := Poly.getDimension_inj m hm h
  have := List.mem_range.1 hs
  omega

/-- A dimension that no degree has is rejected with AssertionError. -/
theorem C03_degree_from_dimension_rejects (dim m : Nat) (h : ∀ r, Poly.getDimension r m ≠ dim) :
    Poly.getDegreeFromDimension dim m = .error .assertion :=
  Poly.degreeSearch_error _ _ _ (fun s _ => h s)

example : Poly.getDegreeFromDimension 10 2 = .ok 3 := by decide
example : Poly.getDegreeFromDimension (Poly.getDimension 20 1) 1 = .error .assertion := by decide
example : Poly.getDegreeFromDimension 4 2 = .error .assertion := by decide

/-- The shipped cache holds, for each of its keys, exactly the positions in the enumeration. -/
theorem cacheOK : CacheOK orderCache := by
  have h : orderCache.all (fun p => decide (p.2 = (mis p.1.1 p.1.2).zipIdx)) = true := by decide +kernel
  intro n r d hd
  rw [List.all_eq_true] at h
  have hm : ((n, r), d) ∈ orderCache := by
    have : ∀ (l : OrderCache), l.lookup (n, r) = some d → ((n, r), d) ∈ l := by
      intro l
      induction l with
      | nil => intro h; simp at h
      | cons p l ih =>
        intro h
        rw [List.lookup_cons] at h
        split at h
        · rename_i he
          simp only [Option.some.injEq] at h; subst h
          have := beq_iff_eq.1 he
          rw [this]; simp
        · exact List.mem_cons_of_mem _ (ih h)
    exact this _ hd
  simpa using h _ hm

/-- **C04.** `get_index(mi, r)` is the position of `mi` in `generate_all(len(mi), r)`; `generate(n, r, i)` is the element at
position `i`. In particular the two are mutually inverse. -/
theorem C04_get_index_generate (n r i : Nat) (mi : List Nat) (h : (generateAll n r)[i]? = some mi) :
    getIndex mi r = .ok i ∧ generate n r i = .ok mi := by
  rw [generateAll_eq_mis] at h
  have hl := (mem_mis.1 (List.mem_of_getElem? h)).1
  subst hl
  exact ⟨getIndexWith_eq _ cacheOK mi r i h, generate_eq _ _ _ _ h⟩

/-- **C04.** Every multi-index with norm at most `r` has an index, below the dimension, which generates it; if the norm exceeds `r`
an AssertionError is raised. -/
theorem C04_get_index_total (mi : List Nat) (r : Int) :
    (mi.sum ≤ r → ∃ i, i < (mi.length + r.toNat).choose r.toNat ∧ getIndex mi r = .ok i ∧
      generate mi.length r.toNat i = .ok mi) ∧
    (r < mi.sum → getIndex mi r = .error .assertion) := by
  constructor
  · intro h
    obtain ⟨k, rfl⟩ : ∃ k : Nat, r = k := ⟨r.toNat, by omega⟩
    simp only [Int.toNat_natCast]
    have hm : mi ∈ mis mi.length k := mem_mis.2 ⟨rfl, by exact_mod_cast h⟩
    obtain ⟨i, hi, e⟩ := List.mem_iff_getElem.1 hm
    have hg : (generateAll mi.length k)[i]? = some mi := by
      rw [generateAll_eq_mis, List.getElem?_eq_getElem hi, e]
    have := C04_get_index_generate _ _ _ _ hg
    exact ⟨i, by rw [← count_mis]; exact hi, this.1, this.2⟩
  · intro h; unfold getIndex getIndexWith norm; rw [if_neg (by omega)]

/-- **C04.** `get_index(generate(n, r, i), r) = i` for every position `i` below the dimension. -/
theorem C04_get_index_of_generate (n r i : Nat) (h : i < (n + r).choose r) :
    ∃ mi, generate n r i = .ok mi ∧ mi.length = n ∧ mi.sum ≤ r ∧ getIndex mi r = .ok i := by
  have hi : i < (mis n r).length := by rw [count_mis]; exact h
  have hg : (generateAll n r)[i]? = some (mis n r)[i] := by rw [generateAll_eq_mis, List.getElem?_eq_getElem hi]
  have := C04_get_index_generate _ _ _ _ hg
  have hm := mem_mis.1 (List.getElem_mem hi)
  exact ⟨_, this.2, hm.1, hm.2, this.1⟩

theorem skip_stays {e : PyErr} {j : Nat} {it : Iter} (h : (skip j it >>= fun it => it.next.1) = .error e) (k : Nat) :
    (skip (j + k) it >>= fun it => it.next.1) = .error e := by
  induction j generalizing it with
  | zero =>
    cases k with
    | zero => exact h
    | succ k =>
      rw [Nat.zero_add]
      simp only [skip, Py.bind_ok] at h ⊢
      rcases hn : it.next with ⟨a, it'⟩
      rw [hn] at h
      cases h
      rfl
  | succ j ih =>
    rw [show j + 1 + k = (j + k) + 1 by omega]
    unfold skip at h ⊢
    rcases hn : it.next with ⟨a, it'⟩
    rw [hn] at h
    cases a with
    | error e' => exact h
    | ok a => exact ih h

/-- **C04.** `generate` raises StopIteration at every position past the end. -/
theorem C04_generate_past_end (n r i : Nat) (h : (n + r).choose r ≤ i) : generate n r i = .error .stopIteration := by
  obtain ⟨k, rfl⟩ := Nat.exists_eq_add_of_le h
  refine skip_stays ?_ k
  rw [← count_mis]
  exact generate_stop n r

/-- **C04.** The cache and the linear search give the same answer for every multi-index. -/
theorem C04_cache_agrees (mi : List Nat) (r : Nat) (h : mi.sum ≤ r) : getIndexWith orderCache mi r = getIndexWith [] mi r := by
  have hm : mi ∈ mis mi.length r := mem_mis.2 ⟨rfl, h⟩
  obtain ⟨i, hi, e⟩ := List.mem_iff_getElem.1 hm
  have hg : (mis mi.length r)[i]? = some mi := by rw [List.getElem?_eq_getElem hi, e]
  rw [getIndexWith_eq _ cacheOK mi r i hg, getIndexWith_eq [] (by intro n r d h; simp at h) mi r i hg]

example : getIndex [1, 1, 0] 2 = .ok 4 ∧ generate 3 2 4 = .ok [1, 1, 0] := by decide
-- outside the cache (n = 5): the linear search
example : getIndex [0, 1, 0, 1, 0] 2 = .ok 12 ∧ generate 5 2 12 = .ok [0, 1, 0, 1, 0] := by decide +kernel

/-- **C05.** `generate_all_multi_cap(r)` returns every tuple bounded entrywise by `r` exactly once. -/
theorem C05_multi_cap_complete (r : List Nat) :
    (generateAllMultiCap r).Nodup ∧ (∀ a, a ∈ generateAllMultiCap r ↔ IsCapped r a) ∧
    (generateAllMultiCap r).length = (r.map (· + 1)).prod :=
  ⟨nodup_generateAllMultiCap r, mem_generateAllMultiCap r, by rw [generateAllMultiCap_eq]; simp [capCount]⟩

/-- **C05.** The `i`:th element is `generate_multi_cap(r, i)`. -/
theorem C05_multi_cap_nth (r : List Nat) (i : Nat) (h : i < (r.map (· + 1)).prod) :
    (generateAllMultiCap r)[i]? = some (generateMultiCap r i) := by
  rw [generateAllMultiCap_eq]
  simp [capCount, h, generateMultiCap]

/-- **C05** (termination): the iterator reaches StopIteration. -/
theorem C05_multi_cap_terminates (r : List Nat) (fuel : Nat) (h : (r.map (· + 1)).prod < fuel) :
    drainCap fuel (CapIter.init r) = some (generateAllMultiCap r) := by
  rw [generateAllMultiCap_eq]; exact drainCap_init r fuel h

example : generateAllMultiCap [1, 2] = [[0, 0], [1, 0], [0, 1], [1, 1], [0, 2], [1, 2]] ∧ generateMultiCap [1, 2] 3 = [1, 1] := by decide

/-- **C06.** Conversion to exact form and back is the identity, the exact form has norm `r`; AssertionError if `|a| > r`. -/
theorem C06_exact_round_trip (a : List Nat) (r : Int) :
    (a.sum ≤ r → ∃ b, generalToExactNorm a r = .ok b ∧ (b.sum : Int) = r ∧ b.length = a.length + 1 ∧ exactNormToGeneral b = a) ∧
    (r < a.sum → generalToExactNorm a r = .error .assertion) := by
  constructor
  · intro h
    obtain ⟨k, rfl⟩ : ∃ k : Nat, r = k := ⟨r.toNat, by omega⟩
    refine ⟨_, generalToExactNorm_ok a k (by exact_mod_cast h), ?_, by simp, rfl⟩
    simp; omega
  · intro h; unfold generalToExactNorm norm; rw [if_neg (by omega)]

/-- **C06.** Conversely, every non-empty tuple is recovered from its general form and its norm. -/
theorem C06_general_round_trip (b : List Nat) (hb : b ≠ []) :
    generalToExactNorm (exactNormToGeneral b) b.sum = .ok b := by
  cases b with
  | nil => contradiction
  | cons x t =>
    simp only [exactNormToGeneral, List.drop_one, List.tail_cons]
    rw [generalToExactNorm_ok t _ (by simp)]; simp

/-- **C06.** `generate_all_exact_norm(n, r)` lists every `n`-tuple with sum exactly `r` once (`n ≥ 1`). -/
theorem C06_exact_norm_complete (n r : Nat) (hn : 1 ≤ n) :
    ∃ L, generateAllExactNorm n r = .ok L ∧ L.Nodup ∧ ∀ a, a ∈ L ↔ IsMultiIndexEq n r a := by
  refine ⟨_, generateAllExactNorm_eq n r, ?_, ?_⟩
  · exact List.Nodup.map (fun a b h => by simpa using (List.cons.inj h).2) (nodup_mis _ _)
  · intro a
    simp only [List.mem_map, mem_mis, IsMultiIndexEq]
    constructor
    · rintro ⟨t, ⟨h1, h2⟩, rfl⟩; simp; omega
    · rintro ⟨h1, h2⟩
      cases a with
      | nil => simp at h1; omega
      | cons x t =>
        simp at h1 h2
        exact ⟨t, ⟨by omega, by omega⟩, by congr 1; omega⟩

example : generateAllExactNorm 2 2 = .ok [[2, 0], [1, 1], [0, 2]] := by decide

/-- **C07.** `is_increasing` decides strict monotonicity. -/
theorem C07_is_increasing (a : List Nat) : isIncreasing a = true ↔ a.Pairwise (· < ·) := isIncreasing_iff a

/-- **C07.** `is_non_decreasing` decides monotonicity. -/
theorem C07_is_non_decreasing (a : List Nat) : isNonDecreasing a = true ↔ a.Pairwise (· ≤ ·) := isNonDecreasing_iff a

/-- **C07.** `generate_all_increasing(n, r)`: exactly the strictly increasing `n`-tuples with entries at most `r`, once each. -/
theorem C07_all_increasing (n r : Nat) :
    (generateAllIncreasing n r).Nodup ∧
    ∀ a, a ∈ generateAllIncreasing n r ↔ a.length = n ∧ (∀ x ∈ a, x ≤ r) ∧ a.Pairwise (· < ·) := by
  refine ⟨(nodup_generateAllMultiCap _).filter _, fun a => ?_⟩
  rw [generateAllIncreasing, List.mem_filter, mem_generateAllMultiCap, isCapped_replicate, isIncreasing_iff, and_assoc]

/-- **C07.** `generate_all_non_decreasing(n, r)`. -/
theorem C07_all_non_decreasing (n r : Nat) :
    (generateAllNonDecreasing n r).Nodup ∧
    ∀ a, a ∈ generateAllNonDecreasing n r ↔ a.length = n ∧ (∀ x ∈ a, x ≤ r) ∧ a.Pairwise (· ≤ ·) := by
  refine ⟨(nodup_generateAllMultiCap _).filter _, fun a => ?_⟩
  rw [generateAllNonDecreasing, List.mem_filter, mem_generateAllMultiCap, isCapped_replicate, isNonDecreasing_iff, and_assoc]

example : generateAllIncreasing 2 2 = [[0, 1], [0, 2], [1, 2]] := by decide
example : generateAllNonDecreasing 2 1 = [[0, 0], [0, 1], [1, 1]] := by decide

end Verif.Props
