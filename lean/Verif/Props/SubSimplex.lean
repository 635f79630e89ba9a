import Verif.Model.SubSimplex
import Verif.Lemmas.PolyRepPow
import Verif.Lemmas.MultiIndexOps
import Mathlib.Tactic.NormNum
/-!
# C33: degrees of freedom are associated with the right sub-simplex
-/

namespace Verif.SubSimplex
open Verif Verif.Poly Finset

/-- The barycentric exponents of a multi-index: first the one of the vertex 0. -/
def baryExponents (nu : List Nat) (r : Nat) : List Nat := (r - nu.sum) :: nu

theorem subLoop_eq (simplex : List Nat) : ∀ (es : List Nat) (i : Nat) (sub mu : List Nat), i + es.length ≤ simplex.length →
    subLoop simplex es i sub mu =
      .ok (sub ++ (((simplex.drop i).zip es).filter (fun p => p.2 ≠ 0)).map Prod.fst,
        mu ++ (((simplex.drop i).zip es).filter (fun p => p.2 ≠ 0)).map Prod.snd)
  | [], i, sub, mu, _ => by simp [subLoop]
  | e :: es, i, sub, mu, h => by
    rw [List.length_cons] at h
    have hi : i < simplex.length := by omega
    rw [List.drop_eq_getElem_cons hi, List.zip_cons_cons]
    simp only [subLoop]
    by_cases he : e = 0
    · rw [if_neg (by simpa using he), subLoop_eq simplex es (i + 1) sub mu (by omega), List.filter_cons_of_neg (by simpa using he)]
    · rw [if_pos he, getE_ok hi, Py.bind_ok, subLoop_eq simplex es (i + 1) _ _ (by omega),
        List.filter_cons_of_pos (by simpa using he)]
      simp

theorem eval_eq (nu : List Nat) (r : Nat) (simplex : List Nat) (hr : r ≠ 0) (hs : nu.sum ≤ r) (hl : simplex.length = nu.length + 1) :
    getAssociatedSubSimplex (.multi nu) r (some simplex) =
      .ok (((simplex.zip (baryExponents nu r)).filter (fun p => p.2 ≠ 0)).map Prod.fst,
        ((simplex.zip (baryExponents nu r)).filter (fun p => p.2 ≠ 0)).map Prod.snd) := by
  unfold getAssociatedSubSimplex
  simp only [Option.getD_some]
  rw [if_neg hr, MI.generalToExactNorm_ok nu r hs]
  simp only [Py.bind_ok]
  rw [subLoop_eq simplex _ 0 [] [] (by simp [hl])]
  simp [baryExponents]

/-- **C33** For a multi-index with norm at most `r ≥ 1` and a simplex with the right number of vertices, the result is made of the vertices whose
barycentric exponent is positive, in their order, together with these exponents: a vertex with an exponent is in the result exactly if it is
at a position with that exponent and the exponent is positive; the sub-simplex is not empty and the exponents sum to `r`. -/
theorem C33_sub_simplex (nu : List Nat) (r : Nat) (simplex : List Nat) (hr : r ≠ 0) (hs : nu.sum ≤ r) (hl : simplex.length = nu.length + 1) :
    ∃ f mu, getAssociatedSubSimplex (.multi nu) r (some simplex) = .ok (f, mu) ∧
      (f.zip mu).Sublist (simplex.zip (baryExponents nu r)) ∧ f.length = mu.length ∧
      (∀ v e, (v, e) ∈ f.zip mu ↔ 0 < e ∧ ∃ i : ℕ, simplex[i]? = some v ∧ (baryExponents nu r)[i]? = some e) ∧
      f.length = (baryExponents nu r).countP (fun e => 0 < e) ∧
      mu.sum = r ∧ f ≠ [] := by
  have hz : (((simplex.zip (baryExponents nu r)).filter (fun p => p.2 ≠ 0)).map Prod.fst).zip
      (((simplex.zip (baryExponents nu r)).filter (fun p => p.2 ≠ 0)).map Prod.snd) =
      (simplex.zip (baryExponents nu r)).filter (fun p => p.2 ≠ 0) := by
    rw [List.zip_map', List.map_id'']
    intro x
    rfl
  have hsum : (((simplex.zip (baryExponents nu r)).filter (fun p => p.2 ≠ 0)).map Prod.snd).sum = r := by
    have h1 : ∀ l : List (Nat × Nat), ((l.filter (fun p => p.2 ≠ 0)).map Prod.snd).sum = (l.map Prod.snd).sum := by
      intro l
      induction l with
      | nil => rfl
      | cons x l ih =>
        by_cases hx : x.2 = 0
        · rw [List.filter_cons_of_neg (by simpa using hx), ih]
          simp [hx]
        · rw [List.filter_cons_of_pos (by simpa using hx)]
          simp only [List.map_cons, List.sum_cons, ih]
    rw [h1, List.map_snd_zip (by simp [baryExponents, hl])]
    simp only [baryExponents, List.sum_cons]
    omega
  refine ⟨_, _, eval_eq nu r simplex hr hs hl, ?_, ?_, ?_, ?_, hsum, ?_⟩
  · rw [hz]
    exact List.filter_sublist
  · simp
  · intro v e
    rw [hz, List.mem_filter, List.mem_iff_getElem?]
    constructor
    · rintro ⟨⟨i, hi⟩, he⟩
      obtain ⟨h1, h2⟩ := List.getElem?_zip_eq_some.1 hi
      exact ⟨Nat.pos_of_ne_zero (by simpa using he), i, h1, h2⟩
    · rintro ⟨he, i, h1, h2⟩
      exact ⟨⟨i, List.getElem?_zip_eq_some.2 ⟨h1, h2⟩⟩, by simpa using he.ne'⟩
  · rw [List.length_map, ← List.countP_eq_length_filter]
    have h2 : (baryExponents nu r).countP (fun e => 0 < e) =
        ((simplex.zip (baryExponents nu r)).map Prod.snd).countP (fun e => 0 < e) := by
      rw [List.map_snd_zip (by simp [baryExponents, hl])]
    rw [h2, List.countP_map]
    refine List.countP_congr (fun p _ => ?_)
    simp [Nat.pos_iff_ne_zero]
  · intro h
    have h' := congrArg List.length h
    rw [List.length_map, List.length_nil, List.length_eq_zero_iff] at h'
    rw [h'] at hsum
    exact hr hsum.symm

/-- **C33** Without a simplex the vertices are `0, 1, …, n`. -/
theorem C33_default (nu : List Nat) (r : Nat) :
    getAssociatedSubSimplex (.multi nu) r none = getAssociatedSubSimplex (.multi nu) r (some (List.range (nu.length + 1))) := rfl

/-- **C33** Error branches: a norm above `r` is rejected; an int `nu` raises TypeError (although the documentation allows it). -/
theorem C33_errors (nu : List Nat) (k r : Nat) (simplex : Option (List Nat)) (hr : r ≠ 0) :
    (r < nu.sum → getAssociatedSubSimplex (.multi nu) r simplex = .error .assertion) ∧
    getAssociatedSubSimplex (.int k) r simplex = .error .type := by
  constructor
  · intro h
    unfold getAssociatedSubSimplex
    simp only
    rw [if_neg hr]
    unfold MI.generalToExactNorm MI.norm
    rw [if_neg (by exact_mod_cast not_le.2 h)]
    rfl
  · unfold getAssociatedSubSimplex
    simp only
    rw [if_neg hr]

/-- **C33** Degree zero: the whole simplex with a zero multi-index; it has one entry fewer than the simplex has vertices. -/
theorem C33_degree_zero (nu : List Nat) (simplex : List Nat) :
    getAssociatedSubSimplex (.multi nu) 0 (some simplex) = .ok (simplex, List.replicate nu.length 0) := rfl

/-! ## Vanishing on faces -/

variable {K : Type} [Field K] [DecidableEq K] [CharZero K]

/-- The points of the plane spanned by the vertices with numbers in `F` of the unit simplex: the barycentric coordinates of the other vertices
vanish. -/
def OnFace {n : Nat} (F : Set ℕ) (x : Fin n → K) : Prop := (0 ∉ F → ∑ i, x i = 1) ∧ ∀ i : Fin n, (i : ℕ) + 1 ∉ F → x i = 0

omit [DecidableEq K] [CharZero K] in
theorem fallingBinomial_zero {k : Nat} (hk : k ≠ 0) : Spec.fallingBinomial (0 : K) k = 0 := by
  obtain ⟨k, rfl⟩ := Nat.exists_eq_succ_of_ne_zero hk
  refine List.prod_eq_zero (List.mem_map.2 ⟨0, by simp, by simp⟩)

/-- The vertices of the sub-simplex of a multi-index in terms of the multi-index. -/
theorem mem_sub {n : Nat} (ν : Fin n → ℕ) (r : Nat) (hr : r ≠ 0) (hs : ∑ i, ν i ≤ r) {f mu : List Nat}
    (h : getAssociatedSubSimplex (.multi (List.ofFn ν)) r none = .ok (f, mu)) (F : Set ℕ) :
    (∀ v ∈ f, v ∈ F) ↔ (∑ i, ν i < r → 0 ∈ F) ∧ ∀ i : Fin n, ν i ≠ 0 → (i : ℕ) + 1 ∈ F := by
  have hsum : (List.ofFn ν).sum = ∑ i, ν i := List.sum_ofFn
  obtain ⟨f', mu', h1, -, h3, h4, -⟩ := C33_sub_simplex (List.ofFn ν) r (List.range ((List.ofFn ν).length + 1)) hr (by rw [hsum]; exact hs)
    (by simp)
  rw [C33_default, h1] at h
  obtain ⟨rfl, rfl⟩ := Prod.mk.inj (Except.ok.inj h)
  have hmem : ∀ v, v ∈ f' ↔ ∃ e, 0 < e ∧ (baryExponents (List.ofFn ν) r)[v]? = some e := by
    intro v
    constructor
    · intro hv
      obtain ⟨i, hi⟩ := List.mem_iff_getElem?.1 hv
      have hi' : i < mu'.length := by rw [← h3]; exact (List.getElem?_eq_some_iff.1 hi).1
      obtain ⟨he, j, hj1, hj2⟩ := (h4 v mu'[i]).1 (List.mem_iff_getElem?.2 ⟨i, List.getElem?_zip_eq_some.2 ⟨hi, List.getElem?_eq_getElem hi'⟩⟩)
      rw [List.getElem?_range (by
        by_contra hc
        rw [List.getElem?_eq_none (by simpa using hc)] at hj1
        exact absurd hj1 (by simp))] at hj1
      obtain rfl := Option.some.inj hj1
      exact ⟨_, he, hj2⟩
    · rintro ⟨e, he, hv⟩
      have hlt : v < (List.ofFn ν).length + 1 := by
        have := (List.getElem?_eq_some_iff.1 hv).1
        simpa [baryExponents] using this
      have := (h4 v e).2 ⟨he, v, List.getElem?_range hlt, hv⟩
      exact (List.of_mem_zip this).1
  constructor
  · intro hF
    refine ⟨fun hlt => hF 0 ((hmem 0).2 ⟨r - ∑ i, ν i, by omega, by simp [baryExponents, hsum]⟩), fun i hi => ?_⟩
    exact hF _ ((hmem _).2 ⟨ν i, Nat.pos_of_ne_zero hi, by simp [baryExponents]⟩)
  · rintro ⟨h0, hF⟩ v hv
    obtain ⟨e, he, hve⟩ := (hmem v).1 hv
    cases v with
    | zero =>
      simp [baryExponents, hsum] at hve
      exact h0 (by omega)
    | succ v =>
      simp only [baryExponents, List.getElem?_cons_succ] at hve
      have hvn : v < n := by simpa using (List.getElem?_eq_some_iff.1 hve).1
      have := hF ⟨v, hvn⟩ (by
        rw [List.getElem?_ofFn, dif_pos hvn] at hve
        have := Option.some.inj hve
        omega)
      exact this

/-- The lattice point of a multi-index lies on every face that contains its sub-simplex. -/
theorem lattice_onFace {n : Nat} (ν : Fin n → ℕ) (r : Nat) (hr : r ≠ 0) (hs : ∑ i, ν i ≤ r) (F : Set ℕ)
    (h : (∑ i, ν i < r → 0 ∈ F) ∧ ∀ i : Fin n, ν i ≠ 0 → (i : ℕ) + 1 ∈ F) : OnFace (K := K) F (fun i => (ν i : K) / (r : K)) := by
  have hr' : (r : K) ≠ 0 := Nat.cast_ne_zero.2 hr
  constructor
  · intro h0
    have : ∑ i, ν i = r := le_antisymm hs (by by_contra hc; exact h0 (h.1 (not_le.1 hc)))
    rw [← Finset.sum_div, ← Nat.cast_sum, this, div_self hr']
  · intro i hi
    have : ν i = 0 := by by_contra hc; exact hi (h.2 i hc)
    simp [this]

/-- **C33** The Bernstein basis function vanishes on a face of the unit simplex iff the face does not contain the sub-simplex. -/
theorem C33_bernstein {n : Nat} (ν : Fin n → ℕ) (r : Nat) (hr : r ≠ 0) (hs : ∑ i, ν i ≤ r) (hf : Fits r n) :
    ∃ b f mu, bernsteinBasisFn K (List.ofFn ν) r = .ok b ∧ getAssociatedSubSimplex (.multi (List.ofFn ν)) r none = .ok (f, mu) ∧
      ∀ F : Set ℕ, (∀ x : Fin n → K, OnFace F x → b.call (List.ofFn x) = .ok 0) ↔ ¬∀ v ∈ f, v ∈ F := by
  have hsum : (List.ofFn ν).sum = ∑ i, ν i := List.sum_ofFn
  obtain ⟨f, mu, h1, -⟩ := C33_sub_simplex (List.ofFn ν) r (List.range ((List.ofFn ν).length + 1)) hr (by rw [hsum]; exact hs) (by simp)
  refine ⟨_, f, mu, bernsteinBasisFn_eq _ r n (by simp) (by rw [hsum]; exact hs) hf, h1, fun F => ?_⟩
  have hrep := single_rep (K := K) .bernstein n r (List.ofFn ν) (by simp) (by rw [hsum]; exact hs) hf
  rw [mem_sub ν r hr hs h1 F]
  have hval : ∀ x : Fin n → K, (mkObj .bernstein n r (fun μ => if μ = List.ofFn ν then (1 : K) else 0)).call (List.ofFn x) = .ok 0 ↔
      Spec.bernstein r (List.ofFn x) (List.ofFn ν) = 0 := by
    intro x
    rw [hrep.value x]
    exact ⟨fun h => Except.ok.inj h, fun h => congrArg _ h⟩
  simp only [hval]
  constructor
  · intro h hF
    have h := h _ (lattice_onFace ν r hr hs F hF)
    rw [bernstein_ofFn] at h
    have hr' : (r : K) ≠ 0 := Nat.cast_ne_zero.2 hr
    have hb : (1 : K) - ∑ i, (ν i : K) / (r : K) = ((r - ∑ i, ν i : ℕ) : K) / r := by
      rw [Nat.cast_sub hs, ← Finset.sum_div, sub_div, div_self hr', Nat.cast_sum]
    rw [hb] at h
    rcases mul_eq_zero.1 h with h | h
    · exact (multinomial_pos r (List.ofFn ν) (by rw [hsum]; exact hs)).ne' (by exact_mod_cast h)
    · rcases mul_eq_zero.1 h with h | h
      · obtain ⟨i, -, hi⟩ := Finset.prod_eq_zero_iff.1 h
        obtain ⟨h2, h3⟩ := pow_eq_zero_iff'.1 hi
        rcases div_eq_zero_iff.1 h2 with h4 | h4
        · exact h3 (by exact_mod_cast h4)
        · exact hr' h4
      · obtain ⟨h2, h3⟩ := pow_eq_zero_iff'.1 h
        rcases div_eq_zero_iff.1 h2 with h4 | h4
        · exact h3 (by exact_mod_cast h4)
        · exact hr' h4
  · intro h x hx
    rw [bernstein_ofFn]
    rcases not_and_or.1 h with h | h
    · obtain ⟨hlt, h0⟩ := Classical.not_imp.1 h
      rw [hx.1 h0, sub_self, zero_pow (by omega), mul_zero, mul_zero]
    · obtain ⟨i, hi⟩ := not_forall.1 h
      obtain ⟨hi0, hiF⟩ := Classical.not_imp.1 hi
      rw [Finset.prod_eq_zero (Finset.mem_univ i) (by rw [hx.2 i hiF, zero_pow hi0]), zero_mul, mul_zero]

/-- **C33** The Bernstein basis function vanishes to order `r` on the face opposite to the sub-simplex: along every line through a point of that face it
is a multiple of the `r`-th power of the parameter. -/
theorem C33_bernstein_order {n : Nat} (ν : Fin n → ℕ) (r : Nat) (hr : r ≠ 0) (hs : ∑ i, ν i ≤ r) (hf : Fits r n) :
    ∃ b f mu, bernsteinBasisFn K (List.ofFn ν) r = .ok b ∧ getAssociatedSubSimplex (.multi (List.ofFn ν)) r none = .ok (f, mu) ∧
      ∀ x v : Fin n → K, OnFace {i | i ∉ f} x → ∃ c : K, ∀ t : K, b.call (List.ofFn (fun i => x i + t * v i)) = .ok (t ^ r * c) := by
  have hsum : (List.ofFn ν).sum = ∑ i, ν i := List.sum_ofFn
  obtain ⟨f, mu, h1, -⟩ := C33_sub_simplex (List.ofFn ν) r (List.range ((List.ofFn ν).length + 1)) hr (by rw [hsum]; exact hs) (by simp)
  refine ⟨_, f, mu, bernsteinBasisFn_eq _ r n (by simp) (by rw [hsum]; exact hs) hf, h1, fun x v hx => ?_⟩
  have hrep := single_rep (K := K) .bernstein n r (List.ofFn ν) (by simp) (by rw [hsum]; exact hs) hf
  have hmem := mem_sub ν r hr hs h1 {i | i ∈ f}
  obtain ⟨m0, mi⟩ := hmem.1 (fun v hv => hv)
  refine ⟨(Spec.multinomial r (List.ofFn ν) : K) * ((∏ i, v i ^ ν i) * (-∑ i, v i) ^ (r - ∑ i, ν i)), fun t => ?_⟩
  rw [hrep.value]
  congr 1
  show Spec.bernstein r _ _ = _
  rw [bernstein_ofFn]
  have hp : ∏ i, (x i + t * v i) ^ ν i = t ^ (∑ i, ν i) * ∏ i, v i ^ ν i := by
    rw [← Finset.prod_pow_eq_pow_sum, ← Finset.prod_mul_distrib]
    refine Finset.prod_congr rfl (fun i _ => ?_)
    by_cases hi : ν i = 0
    · simp [hi]
    · rw [hx.2 i (by simpa using mi i hi), zero_add, mul_pow]
  have hq : (1 - ∑ i, (x i + t * v i)) ^ (r - ∑ i, ν i) = t ^ (r - ∑ i, ν i) * (-∑ i, v i) ^ (r - ∑ i, ν i) := by
    by_cases hlt : ∑ i, ν i < r
    · rw [Finset.sum_add_distrib, hx.1 (by simpa using m0 hlt), ← Finset.mul_sum, ← mul_pow]
      congr 1
      ring
    · rw [show r - ∑ i, ν i = 0 by omega]
      simp
  rw [hp, hq]
  have ht : t ^ r = t ^ (∑ i, ν i) * t ^ (r - ∑ i, ν i) := by rw [← pow_add]; congr 1; omega
  rw [ht]
  ring

/-- **C33** The Lagrange basis function vanishes on a face of the unit simplex iff the face does not contain the sub-simplex; its own Lagrange point
lies on the sub-simplex. -/
theorem C33_lagrange {n : Nat} (ν : Fin n → ℕ) (r : Nat) (hr : r ≠ 0) (hs : ∑ i, ν i ≤ r) (hf : Fits r n) :
    ∃ b f mu, lagrangeBasisFn K (List.ofFn ν) r = .ok b ∧ getAssociatedSubSimplex (.multi (List.ofFn ν)) r none = .ok (f, mu) ∧
      OnFace (K := K) {i | i ∈ f} (fun i => (ν i : K) / (r : K)) ∧
      ∀ F : Set ℕ, (∀ x : Fin n → K, OnFace F x → b.call (List.ofFn x) = .ok 0) ↔ ¬∀ v ∈ f, v ∈ F := by
  have hsum : (List.ofFn ν).sum = ∑ i, ν i := List.sum_ofFn
  obtain ⟨f, mu, h1, -⟩ := C33_sub_simplex (List.ofFn ν) r (List.range ((List.ofFn ν).length + 1)) hr (by rw [hsum]; exact hs) (by simp)
  refine ⟨_, f, mu, lagrangeBasisFn_eq _ r n (by simp) (by rw [hsum]; exact hs) hf, h1, ?_, fun F => ?_⟩
  · exact lattice_onFace ν r hr hs _ ((mem_sub ν r hr hs h1 _).1 (fun v hv => hv))
  have hrep := single_rep (K := K) .lagrange n r (List.ofFn ν) (by simp) (by rw [hsum]; exact hs) hf
  rw [mem_sub ν r hr hs h1 F]
  have hval : ∀ x : Fin n → K, (mkObj .lagrange n r (fun μ => if μ = List.ofFn ν then (1 : K) else 0)).call (List.ofFn x) = .ok 0 ↔
      Spec.lagrange r (List.ofFn x) (List.ofFn ν) = 0 := by
    intro x
    rw [hrep.value x]
    exact ⟨fun h => Except.ok.inj h, fun h => congrArg _ h⟩
  simp only [hval]
  constructor
  · intro h hF
    have h := h _ (lattice_onFace ν r hr hs F hF)
    have h' := lagrange_delta (K := K) r ν ν (mem_S.2 hs) (mem_S.2 hs)
    rw [if_pos rfl] at h'
    exact one_ne_zero (h'.symm.trans h)
  · intro h x hx
    rw [lagrange_ofFn]
    rcases not_and_or.1 h with h | h
    · obtain ⟨hlt, h0⟩ := Classical.not_imp.1 h
      rw [hx.1 h0, sub_self, mul_zero, fallingBinomial_zero (by omega), zero_mul]
    · obtain ⟨i, hi⟩ := not_forall.1 h
      obtain ⟨hi0, hiF⟩ := Classical.not_imp.1 hi
      rw [Finset.prod_eq_zero (Finset.mem_univ i) (by rw [hx.2 i hiF, mul_zero, fallingBinomial_zero hi0]), mul_zero]

example : getAssociatedSubSimplex (.multi [1, 0, 1]) 2 (some [1, 2, 3, 4]) = .ok ([2, 4], [1, 1]) := by decide

example : getAssociatedSubSimplex (.multi [1, 0]) 3 none = .ok ([0, 1], [2, 1]) := by decide

end Verif.SubSimplex
