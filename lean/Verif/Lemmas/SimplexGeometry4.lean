import Verif.Lemmas.SimplexGeometry3
import Verif.Props.Permutations
/-!
# Geometry of simplices: normals, circumcenter, incenter, edges, diameter, equilateral simplices
-/

namespace Verif.SimplexGeometry
open Verif Matrix Verif.Spec Verif.Simplex Verif.Linalg

variable {k n : ℕ}

/-! ## Normals -/

theorem rot_last (i : Fin (k + 2)) : rot (wrap (k + 1) (i.val + 1)) (Fin.last (k + 1)) = i := by
  apply Fin.ext
  simp only [rot, Equiv.coe_addLeft, wrap, Fin.val_add, Fin.val_last]
  rw [Nat.mod_add_mod, show i.val + 1 + (k + 1) = i.val + (k + 1 + 1) by ring, Nat.add_mod_right, Nat.mod_eq_of_lt i.2]

theorem edge_dot {m : ℕ} {w : Vertices ℝ (m + 1) n} {b : Matrix (Fin n) (Fin (m + 1)) ℝ} {u : Matrix (Fin (m + 1)) (Fin (m + 1)) ℝ}
    (h : IsQR (edgeM w) b u) (a : Fin (m + 1)) (c : Fin (m + 1)) : (fun j => b j a) ⬝ᵥ (w c.succ - w 0) = u a c := by
  have h1 : bᵀ * edgeM w = u := by rw [h.prod, ← Matrix.mul_assoc, h.orth, Matrix.one_mul]
  rw [← h1]
  rfl

theorem faceNormal_spec (qr : QR) (hqr : QRContract qr) (v : Vertices ℝ (k + 1) n) (h : NonDegenerate v) (i : Fin (k + 2)) :
    ∃ u, faceNormal qr v i = .ok u ∧ IsOutwardNormal v i u := by
  have hkn := nonDegenerate_le v h
  set σ := rot (wrap (k + 1) (i.val + 1)) with hσ
  obtain ⟨b, u, h1, h2, h3⟩ := orthonormalBasis_spec qr hqr v (wrap (k + 1) (i.val + 1)) (by omega) hkn
  rw [← hσ] at h2
  have hpos : 0 < u (Fin.last k) (Fin.last k) :=
    lt_of_le_of_ne (h3 _) (Ne.symm (qr_diag_ne h2 ((nonDegenerate_iff _).1 (nonDegenerate_perm v σ h)) _))
  set q : Fin n → ℝ := fun j => b j (Fin.last k) with hq
  have hrun : faceNormal qr v i = .ok (-q) := by
    unfold faceNormal
    rw [h1]
    simp only [Py.bind_ok]
    rw [getE_ok (by simp)]
    simp only [Py.bind_ok, Py.pure_eq, List.getElem_ofFn]
    rfl
  have hlast : σ (Fin.last (k + 1)) = i := rot_last i
  -- the differences of the first vertex and the others
  have hdot0 : ∀ a : Fin (k + 2), a ≠ Fin.last (k + 1) → q ⬝ᵥ (v (σ a) - v (σ 0)) = 0 := by
    intro a ha
    refine Fin.cases ?_ (fun a => ?_) a ha
    · intro _; simp
    · intro ha
      have := edge_dot h2 (Fin.last k) a
      rw [hq]
      refine Eq.trans this (h2.tri _ _ ?_)
      rw [Fin.lt_def, Fin.val_last]
      have : a.val ≠ k := fun e => ha (Fin.ext (by simp [e]))
      omega
  have hdotl : q ⬝ᵥ (v i - v (σ 0)) = u (Fin.last k) (Fin.last k) := by
    have := edge_dot h2 (Fin.last k) (Fin.last k)
    rw [Fin.succ_last] at this
    rw [← hlast]
    exact this
  have hsurj : ∀ j, j ≠ i → ∃ a, a ≠ Fin.last (k + 1) ∧ σ a = j := by
    intro j hj
    refine ⟨σ.symm j, fun e => hj ?_, by simp⟩
    rw [← hlast, ← e]
    simp
  have hj0 : ∀ j, j ≠ i → q ⬝ᵥ (v j - v (σ 0)) = 0 := by
    intro j hj
    obtain ⟨a, ha, rfl⟩ := hsurj j hj
    exact hdot0 a ha
  refine ⟨-q, hrun, ⟨?_, ?_, ?_, ?_⟩⟩
  · have h5 : (bᵀ * b) (Fin.last k) (Fin.last k) = 1 := by rw [h2.orth]; simp
    have h6 : q ⬝ᵥ q = 1 := h5
    have : len (-q) ^ 2 = 1 := by rw [len_sq, neg_dotProduct, dotProduct_neg, neg_neg, h6]
    nlinarith [len_nonneg (-q)]
  · intro j l hj hl
    have e : (-q) ⬝ᵥ (v j - v l) = 0 := by
      rw [neg_dotProduct]
      have : v j - v l = (v j - v (σ 0)) - (v l - v (σ 0)) := by abel
      rw [this, dotProduct_sub, hj0 j hj, hj0 l hl]
      simp
    exact e
  · intro j hj
    have e : (-q) ⬝ᵥ (v i - v j) = -u (Fin.last k) (Fin.last k) := by
      rw [neg_dotProduct]
      have : v i - v j = (v i - v (σ 0)) - (v j - v (σ 0)) := by abel
      rw [this, dotProduct_sub, hj0 j hj, hdotl, sub_zero]
    have : (-q) ⬝ᵥ (v i - v j) < 0 := by rw [e]; linarith
    exact this
  · -- the columns of `b` are combinations of the edges
    have hdet : u.det ≠ 0 := by
      rw [det_of_isUpperTriangular (fun a b hab => h2.tri a b hab)]
      exact Finset.prod_ne_zero_iff.2 fun a _ =>
        qr_diag_ne h2 ((nonDegenerate_iff _).1 (nonDegenerate_perm v σ h)) a
    have hb : b = edgeM (v ∘ σ) * u⁻¹ := by rw [h2.prod, Matrix.mul_assoc, mul_nonsing_inv _ (Ne.isUnit hdet), Matrix.mul_one]
    set c : Fin (k + 1) → ℝ := fun a => -(u⁻¹ a (Fin.last k)) with hc
    have hqc : -q = edgeM (v ∘ σ) *ᵥ c := by
      funext j
      have e1 : q j = (edgeM (v ∘ σ) * u⁻¹) j (Fin.last k) := by rw [← hb]
      rw [Pi.neg_apply, e1]
      simp only [hc, Matrix.mul_apply, mulVec, dotProduct, mul_neg, Finset.sum_neg_distrib]
    set w : Fin (k + 2) → ℝ := Fin.cons (-∑ a, c a) c with hw
    have hw0 : ∑ a, w a = 0 := by simp [hw, Fin.sum_univ_succ]
    refine ⟨w ∘ σ.symm, ?_, ?_⟩
    · rw [← hw0]; exact Equiv.sum_comp σ.symm w
    · rw [hqc]
      have e := zero_edge (v ∘ σ) w hw0
      have e2 : (fun i => w i.succ) = c := by funext a; simp [hw]
      rw [e2] at e
      rw [← e]
      refine Eq.trans ?_ (Equiv.sum_comp σ (fun i => (w ∘ σ.symm) i • v i))
      exact Finset.sum_congr rfl fun a _ => by simp only [Function.comp, Equiv.symm_apply_apply]

/-! ## The circumcenter -/

/-- A point of the plane at the same distance from all vertices. -/
def IsCircumcenter (v : Vertices ℝ k n) (c : Fin n → ℝ) : Prop := c ∈ Hull v ∧ ∀ i j, len (c - v i) = len (c - v j)

theorem circumcenter_unique (v : Vertices ℝ k n) {c c' : Fin n → ℝ} (h : IsCircumcenter v c) (h' : IsCircumcenter v c') : c' = c := by
  have key : ∀ x, (∀ i j, len (x - v i) = len (x - v j)) → ∀ i j, 2 * (x ⬝ᵥ (v i - v j)) = v i ⬝ᵥ v i - v j ⬝ᵥ v j := by
    intro x hx i j
    have := congrArg (fun d => d ^ 2) (hx i j)
    simp only [len_sq, sub_dotProduct, dotProduct_sub] at this
    rw [dotProduct_sub]
    rw [dotProduct_comm (v i) x, dotProduct_comm (v j) x] at this
    linarith
  obtain ⟨a, ha⟩ := (mem_hull v c).1 h.1
  obtain ⟨a', ha'⟩ := (mem_hull v c').1 h'.1
  have e : c - c' = edgeM v *ᵥ (a - a') := by rw [ha, ha', mulVec_sub]; abel
  have ho : (edgeM v)ᵀ *ᵥ (c - c') = 0 := by
    funext i
    have h1 := key c h.2 i.succ 0
    have h2 := key c' h'.2 i.succ 0
    have : ((edgeM v)ᵀ *ᵥ (c - c')) i = (c - c') ⬝ᵥ (v i.succ - v 0) := by rw [dotProduct_comm]; rfl
    rw [this, sub_dotProduct, Pi.zero_apply]
    linarith
  have h0 := dot_comb _ _ (a - a') ho
  rw [← e] at h0
  exact (sub_eq_zero.1 (dotProduct_self_eq_zero.1 h0)).symm

theorem nonDegenerate_succ (v : Vertices ℝ (k + 1) n) (h : NonDegenerate v) : NonDegenerate (fun i : Fin (k + 1) => v i.succ) := by
  intro w hs hw
  have := h (Fin.cons 0 w) (by simpa [Fin.sum_univ_succ] using hs) (by rw [Fin.sum_univ_succ]; simpa using hw)
  funext i
  simpa using congrFun this i.succ

theorem circumcenter_spec (qr : QR) (hqr : QRContract qr) : ∀ {k : ℕ} (v : Vertices ℝ k n), NonDegenerate v →
    ∃ c, circumcenter qr v = .ok c ∧ IsCircumcenter v c := by
  intro k
  induction k with
  | zero =>
    intro v _
    refine ⟨_, rfl, ⟨_, Props.C57_centroid v⟩, fun i j => ?_⟩
    have : i = j := by apply Fin.ext; omega
    rw [this]
  | succ k ih =>
    intro v h
    cases k with
    | zero =>
      refine ⟨_, rfl, ⟨_, Props.C57_centroid v⟩, ?_⟩
      have h01 : len (centroid v - v 0) = len (centroid v - v 1) := by
        have e : centroid v - v 1 = -(centroid v - v 0) := by
          funext a
          have e2 : ∑ i, v i a = v 0 a + v 1 a := Fin.sum_univ_two (fun i => v i a)
          simp only [centroid, Pi.sub_apply, Pi.neg_apply, e2]
          push_cast
          ring
        rw [e, len_eq_sqrt, len_eq_sqrt, neg_dotProduct, dotProduct_neg, neg_neg]
      intro i j
      fin_cases i <;> fin_cases j
      · rfl
      · exact h01
      · exact h01.symm
      · rfl
    | succ k =>
      obtain ⟨c, h1, ⟨wc, hwc⟩, h3⟩ := ih (fun i => v i.succ) (nonDegenerate_succ v h)
      obtain ⟨u, g1, g2⟩ := faceNormal_spec qr hqr v h 0
      have hu : u ⬝ᵥ u = 1 := by rw [← len_sq, g2.unit]; norm_num
      have ho : ∀ j l : Fin (k + 2), u ⬝ᵥ (v j.succ - v l.succ) = 0 := fun j l =>
        g2.orthogonal j.succ l.succ (Fin.succ_ne_zero _) (Fin.succ_ne_zero _)
      have hlt : u ⬝ᵥ (v 0 - v 1) < 0 := g2.outward 1 (by simp)
      have hc : ∀ j : Fin (k + 2), u ⬝ᵥ (c - v j.succ) = 0 := by
        intro j
        have e : c - v j.succ = ∑ l, wc l • (v l.succ - v j.succ) := by
          simp only [smul_sub, Finset.sum_sub_distrib, ← Finset.sum_smul, hwc.1, one_smul]
          rw [hwc.2]
        rw [e, dotProduct_sum]
        refine Finset.sum_eq_zero fun l _ => ?_
        rw [dotProduct_smul, ho, smul_zero]
      set t : ℝ := (v 0 ⬝ᵥ v 0 - v 1 ⬝ᵥ v 1 + 2 * (c ⬝ᵥ v 1) - 2 * (c ⬝ᵥ v 0)) / (2 * (u ⬝ᵥ v 0 - u ⬝ᵥ v 1)) with ht
      have hd : 2 * (u ⬝ᵥ v 0 - u ⬝ᵥ v 1) ≠ 0 := by
        rw [dotProduct_sub] at hlt
        intro h0
        linarith
      have htd : t * (2 * (u ⬝ᵥ v 0 - u ⬝ᵥ v 1)) = v 0 ⬝ᵥ v 0 - v 1 ⬝ᵥ v 1 + 2 * (c ⬝ᵥ v 1) - 2 * (c ⬝ᵥ v 0) := div_mul_cancel₀ _ hd
      have hsq : ∀ x : Fin n → ℝ, len (c + t • u - x) ^ 2 = len (c - x) ^ 2 + 2 * t * (u ⬝ᵥ (c - x)) + t ^ 2 := by
        intro x
        have e : c + t • u - x = (c - x) + t • u := by abel
        rw [e, len_sq, len_sq, add_dotProduct, dotProduct_add, dotProduct_add, smul_dotProduct, dotProduct_smul, dotProduct_comm (c - x) u,
          smul_dotProduct, dotProduct_smul, hu]
        simp only [smul_eq_mul]
        ring
      have hsucc : ∀ j : Fin (k + 2), len (c + t • u - v j.succ) = len (c + t • u - v 1) := by
        intro j
        have e1 := hsq (v j.succ)
        have e2 := hsq (v (0 : Fin (k + 2)).succ)
        rw [hc j, h3 j 0] at e1
        rw [hc 0] at e2
        refine (pow_left_inj₀ (len_nonneg _) (len_nonneg _) (two_ne_zero)).1 ?_
        rw [e1]
        exact e2.symm
      have h0 : len (c + t • u - v 0) = len (c + t • u - v 1) := by
        refine (pow_left_inj₀ (len_nonneg _) (len_nonneg _) (two_ne_zero)).1 ?_
        rw [hsq, hsq, len_sq, len_sq]
        simp only [sub_dotProduct, dotProduct_sub] at *
        rw [dotProduct_comm (v 0) c, dotProduct_comm (v 1) c]
        linarith
      refine ⟨c + t • u, ?_, ?_, ?_⟩
      · rw [circumcenter, h1, g1]
        rfl
      · obtain ⟨d, hd0, hd1⟩ := g2.inPlane
        refine ⟨fun i => (Fin.cons 0 wc : Fin (k + 3) → ℝ) i + t * d i, ?_, ?_⟩
        · rw [Finset.sum_add_distrib, ← Finset.mul_sum, hd0, mul_zero, add_zero, Fin.sum_univ_succ]
          simpa using hwc.1
        · simp only [add_smul, Finset.sum_add_distrib, mul_smul, ← Finset.smul_sum, ← hd1]
          congr 1
          rw [Fin.sum_univ_succ]
          simpa using hwc.2
      · have hall : ∀ i, len (c + t • u - v i) = len (c + t • u - v 1) := fun i => Fin.cases h0 hsucc i
        intro i j
        rw [hall i, hall j]

/-! ## Edges -/

theorem flatMap_range_get (a : List ℕ) (f : ℕ → List (List ℕ)) :
    ((List.range a.length).flatMap fun i => match a[i]? with
      | none => []
      | some x => f x) = a.flatMap f := by
  induction a with
  | nil => rfl
  | cons x a ih =>
    rw [List.length_cons, List.range_succ_eq_map, List.flatMap_cons, List.flatMap_cons, ← ih]
    congr 1
    rw [List.flatMap_map]
    rfl

theorem generateIncreasing_one (a : List ℕ) : Perm.generateIncreasing a 1 = a.map fun x => [x] := by
  have h := flatMap_range_get a (fun x => [[x]])
  simp only [Perm.generateIncreasing, Nat.zero_add, Nat.add_sub_cancel, List.map_cons, List.map_nil]
  refine Eq.trans (b := a.flatMap fun x => [[x]]) h ?_
  clear h
  induction a with
  | nil => rfl
  | cons x a ih => rw [List.flatMap_cons, ih]; rfl

theorem range_filter_lt (m i : ℕ) : (List.range m).filter (fun j => decide (i < j)) = (List.range m).drop (i + 1) := by
  induction m with
  | zero => simp
  | succ m ih =>
    rw [List.range_succ, List.filter_append, ih, List.drop_append, List.length_range]
    congr 1
    by_cases h : i < m
    · have : i + 1 - m = 0 := by omega
      simp [h, this]
    · have : i + 1 - m = (i - m) + 1 := by omega
      simp [h, this]

theorem generateIncreasing_two (m : ℕ) :
    Perm.generateIncreasing (List.range m) 2 = (List.range m).flatMap fun i => ((List.range m).drop (i + 1)).map fun j => [i, j] := by
  unfold Perm.generateIncreasing
  rw [List.length_range]
  cases m with
  | zero => rfl
  | succ m =>
    have e : m + 1 + 1 - (1 + 1) = m := by omega
    rw [e, List.range_succ (n := m), List.flatMap_append]
    have e2 : ([m].flatMap fun i => ((List.range m ++ [m]).drop (i + 1)).map fun j => [i, j]) = [] := by simp
    rw [e2, List.append_nil]
    refine List.flatMap_congr fun i hi => ?_
    have hi := List.mem_range.1 hi
    have e3 : (List.range m ++ [m])[i]? = some i := by
      rw [← List.range_succ, List.getElem?_range (by omega)]
    rw [e3]
    change List.map _ (Perm.generateIncreasing _ 1) = _
    rw [generateIncreasing_one, List.map_map]
    rfl

theorem increasing_two (k : ℕ) : Perm.increasingSubsetPermutations (k + 1) 2 =
    (List.finRange (k + 1)).flatMap fun i => ((List.finRange (k + 1)).filter fun j => decide (i < j)).map fun j => [i.val, j.val] := by
  have h : Perm.increasingSubsetPermutations (k + 1) 2 = Perm.generateIncreasing (List.range (k + 1)) 2 := by
    unfold Perm.increasingSubsetPermutations
    cases k with
    | zero => rfl
    | succ k =>
      rw [if_neg (by rintro (h | h) <;> push_cast at h <;> omega)]
      rfl
  rw [h, generateIncreasing_two]
  have hv : List.range (k + 1) = (List.finRange (k + 1)).map Fin.val := by simp
  conv_lhs => rw [hv]
  rw [List.flatMap_map]
  refine List.flatMap_congr fun i _ => ?_
  have := range_filter_lt (k + 1) i.val
  rw [← hv, ← this, hv, List.filter_map, List.map_map]
  rfl

theorem edges_eq (v : Vertices ℝ k n) : edges v = .ok (edgeList v) := by
  unfold edges
  rw [increasing_two]
  have : edgeList v = ((List.finRange (k + 1)).flatMap fun i => ((List.finRange (k + 1)).filter fun j => decide (i < j)).map
      fun j => [i.val, j.val]).map (fun e => (List.ofFn v).getD (e.getD 1 0) 0 - (List.ofFn v).getD (e.getD 0 0) 0) := by
    rw [List.map_flatMap]
    refine List.flatMap_congr fun i _ => ?_
    rw [List.map_map]
    refine List.map_congr_left fun j _ => ?_
    simp only [Function.comp, List.getD_cons_zero, List.getD_cons_succ]
    rw [getD_ofFn v j.val j.2, getD_ofFn v i.val i.2]
  rw [this]
  refine mapM_eq_ok _ _ ?_
  intro e he
  obtain ⟨i, _, he⟩ := List.mem_flatMap.1 he
  obtain ⟨j, _, rfl⟩ := List.mem_map.1 he
  rw [getE_ok (by simp), getE_ok (by simp)]
  simp only [Py.bind_ok, List.getElem_cons_zero, List.getElem_cons_succ, List.getD_cons_zero, List.getD_cons_succ]
  rw [getE_ok (by simpa using j.is_le), getE_ok (by simpa using i.is_le)]
  simp only [Py.bind_ok, Py.pure_eq, List.getElem_ofFn]
  rw [getD_ofFn v j.val j.2, getD_ofFn v i.val i.2]

/-! ## The diameter -/

theorem foldl_max {α : Type} (f : α → ℝ) (l : List α) : ∀ a : ℝ, a ≤ l.foldl (fun h x => max h (f x)) a ∧
    (∀ x ∈ l, f x ≤ l.foldl (fun h x => max h (f x)) a) ∧
    (l.foldl (fun h x => max h (f x)) a = a ∨ ∃ x ∈ l, l.foldl (fun h x => max h (f x)) a = f x) := by
  induction l with
  | nil => intro a; simp
  | cons y l ih =>
    intro a
    obtain ⟨h1, h2, h3⟩ := ih (max a (f y))
    rw [List.foldl_cons]
    refine ⟨le_trans (le_max_left _ _) h1, ?_, ?_⟩
    · intro x hx
      rcases List.mem_cons.1 hx with rfl | hx
      · exact le_trans (le_max_right _ _) h1
      · exact h2 x hx
    · rcases h3 with h3 | ⟨x, hx, h3⟩
      · rcases max_choice a (f y) with h4 | h4
        · left; rw [h3, h4]
        · right; exact ⟨y, List.mem_cons_self, by rw [h3, h4]⟩
      · right; exact ⟨x, List.mem_cons_of_mem _ hx, h3⟩

theorem diameter_spec (v : Vertices ℝ k n) :
    ∃ d, diameter v = .ok d ∧ 0 ≤ d ∧ (∀ i j, len (v i - v j) ≤ d) ∧ ∃ i j, len (v i - v j) = d := by
  set P : List (ℕ × ℕ) := (List.range k).flatMap fun i => ((List.range (k + 1)).drop (i + 1)).map fun j => (i, j) with hP
  set g : ℕ × ℕ → ℝ := fun p => len ((List.ofFn v).getD p.1 0 - (List.ofFn v).getD p.2 0) with hg
  have hmem : ∀ p, p ∈ P ↔ p.1 < p.2 ∧ p.2 < k + 1 := by
    intro p
    simp only [hP, List.mem_flatMap, List.mem_range, List.mem_map, ← range_filter_lt, List.mem_filter, decide_eq_true_eq]
    constructor
    · rintro ⟨i, hi, j, ⟨hj, hij⟩, rfl⟩
      exact ⟨hij, hj⟩
    · rintro ⟨h1, h2⟩
      exact ⟨p.1, by omega, p.2, ⟨h2, h1⟩, rfl⟩
  have hrun : diameter v = .ok (P.foldl (fun h p => max h (g p)) 0) := by
    unfold diameter
    have inner : ∀ (i : ℕ), i < k → ∀ (l : List ℕ), (∀ j ∈ l, j < k + 1) → ∀ h : ℝ,
        (l.foldlM (fun h j => do
          let a ← getE (List.ofFn v) i
          let b ← getE (List.ofFn v) j
          return max h (Linalg.norm (a - b))) h : Py ℝ) = .ok ((l.map fun j => (i, j)).foldl (fun h p => max h (g p)) h) := by
      intro i hi l
      induction l with
      | nil => intro _ h; rfl
      | cons j l ih =>
        intro hl h
        have hj := hl j List.mem_cons_self
        have step : (do
            let a ← getE (List.ofFn v) i
            let b ← getE (List.ofFn v) j
            return max h (Linalg.norm (a - b)) : Py ℝ) = .ok (max h (g (i, j))) := by
          rw [getE_ok (by simpa using by omega), getE_ok (by simpa using by omega)]
          simp only [Py.bind_ok, Py.pure_eq, List.getElem_ofFn, hg, norm_eq_len]
          rw [getD_ofFn v i (by omega), getD_ofFn v j hj]
        rw [List.foldlM_cons, step, Py.bind_ok, ih (fun x hx => hl x (List.mem_cons_of_mem _ hx)), List.map_cons, List.foldl_cons]
    have outer : ∀ (l : List ℕ), (∀ i ∈ l, i < k) → ∀ h : ℝ,
        (l.foldlM (fun h i => ((List.range (k + 1)).drop (i + 1)).foldlM (fun h j => do
          let a ← getE (List.ofFn v) i
          let b ← getE (List.ofFn v) j
          return max h (Linalg.norm (a - b))) h) h : Py ℝ) =
        .ok ((l.flatMap fun i => ((List.range (k + 1)).drop (i + 1)).map fun j => (i, j)).foldl (fun h p => max h (g p)) h) := by
      intro l
      induction l with
      | nil => intro _ h; rfl
      | cons i l ih =>
        intro hl h
        rw [List.foldlM_cons, inner i (hl i List.mem_cons_self) _ (fun j hj => List.mem_range.1 (List.mem_of_mem_drop hj))]
        simp only [Py.bind_ok]
        rw [ih (fun x hx => hl x (List.mem_cons_of_mem _ hx)), List.flatMap_cons, List.foldl_append]
    exact outer _ (fun i hi => List.mem_range.1 hi) 0
  obtain ⟨h1, h2, h3⟩ := foldl_max g P 0
  have hsym : ∀ x y : Fin n → ℝ, len (x - y) = len (y - x) := by
    intro x y
    have : y - x = -(x - y) := by abel
    rw [this, len_eq_sqrt, len_eq_sqrt, neg_dotProduct, dotProduct_neg, neg_neg]
  have h0 : ∀ i, len (v i - v i) = 0 := by intro i; rw [sub_self]; simp [len]
  refine ⟨_, hrun, h1, ?_, ?_⟩
  · have hlt : ∀ i j : Fin (k + 1), i < j → len (v i - v j) ≤ P.foldl (fun h p => max h (g p)) 0 := by
      intro i j hij
      have := h2 (i.val, j.val) ((hmem _).2 ⟨hij, j.2⟩)
      rw [hg] at this
      simp only at this
      rwa [getD_ofFn v i.val i.2, getD_ofFn v j.val j.2] at this
    intro i j
    rcases lt_trichotomy i j with h | rfl | h
    · exact hlt i j h
    · rw [h0]; exact h1
    · rw [hsym]; exact hlt j i h
  · rcases h3 with h3 | ⟨p, hp, h3⟩
    · exact ⟨0, 0, by rw [h3, h0]⟩
    · have hp := (hmem p).1 hp
      refine ⟨⟨p.1, by omega⟩, ⟨p.2, hp.2⟩, ?_⟩
      rw [h3, hg]
      simp only
      rw [getD_ofFn v p.1 (by omega), getD_ofFn v p.2 hp.2]

theorem len_triangle (x y : Fin n → ℝ) : len (x + y) ≤ len x + len y := by
  have : ∀ z : Fin n → ℝ, len z = ‖(WithLp.toLp 2 z : EuclideanSpace ℝ (Fin n))‖ := by
    intro z
    rw [EuclideanSpace.norm_eq]
    simp [len]
  rw [this, this, this]
  exact norm_add_le (WithLp.toLp 2 x : EuclideanSpace ℝ (Fin n)) (WithLp.toLp 2 y)

theorem len_smul (c : ℝ) (x : Fin n → ℝ) : len (c • x) = |c| * len x := by
  rw [len_eq_sqrt, len_eq_sqrt, smul_dotProduct, dotProduct_smul, smul_eq_mul, smul_eq_mul, ← mul_assoc, Real.sqrt_mul (mul_self_nonneg c),
    Real.sqrt_mul_self_eq_abs]

theorem len_sum {ι : Type} (s : Finset ι) (f : ι → Fin n → ℝ) : len (∑ i ∈ s, f i) ≤ ∑ i ∈ s, len (f i) := by
  classical
  induction s using Finset.induction_on with
  | empty => simp [len]
  | insert a s ha ih =>
    rw [Finset.sum_insert ha, Finset.sum_insert ha]
    exact le_trans (len_triangle _ _) (by linarith)

/-- No two points of a simplex are farther apart than the farthest vertices. -/
theorem points_diameter (v : Vertices ℝ k n) (d : ℝ) (h : ∀ i j, len (v i - v j) ≤ d) {x y : Fin n → ℝ} (hx : x ∈ Points v) (hy : y ∈ Points v) :
    len (x - y) ≤ d := by
  obtain ⟨a, ha, ha0⟩ := hx
  obtain ⟨b, hb, hb0⟩ := hy
  have convex : ∀ (w : Fin (k + 1) → ℝ) (z : Fin n → ℝ) (e : ℝ), ∑ i, w i = 1 → (∀ i, 0 ≤ w i) → (∀ i, len (v i - z) ≤ e) →
      len (∑ i, w i • v i - z) ≤ e := by
    intro w z e hw h0 he
    have e1 : ∑ i, w i • v i - z = ∑ i, w i • (v i - z) := by
      simp only [smul_sub, Finset.sum_sub_distrib, ← Finset.sum_smul, hw, one_smul]
    rw [e1]
    refine le_trans (len_sum _ _) ?_
    calc ∑ i, len (w i • (v i - z)) ≤ ∑ i, w i * e := by
          refine Finset.sum_le_sum fun i _ => ?_
          rw [len_smul, abs_of_nonneg (h0 i)]
          exact mul_le_mul_of_nonneg_left (he i) (h0 i)
      _ = e := by rw [← Finset.sum_mul, hw, one_mul]
  have hsym : ∀ x y : Fin n → ℝ, len (x - y) = len (y - x) := by
    intro x y
    have : y - x = -(x - y) := by abel
    rw [this, len_eq_sqrt, len_eq_sqrt, neg_dotProduct, dotProduct_neg, neg_neg]
  rw [ha.2]
  refine convex a y d ha.1 ha0 fun i => ?_
  rw [hsym, hb.2]
  exact convex b (v i) d hb.1 hb0 fun j => h j i

/-! ## Equilateral simplices -/

/-- The centroid of points with equal distances. -/
theorem equilateral_centroid {m : ℕ} (w : Fin (m + 1) → Fin n → ℝ) (e : ℝ) (h : ∀ i j, i ≠ j → len (w i - w j) ^ 2 = e) (i : Fin (m + 1)) :
    2 * ((m + 1 : ℕ) : ℝ) * len (centroid w - w i) ^ 2 = (m : ℝ) * e := by
  have hN : ((m + 1 : ℕ) : ℝ) ≠ 0 := Nat.cast_ne_zero.2 (by omega)
  set N : ℝ := ((m + 1 : ℕ) : ℝ) with hNd
  have hNm : N = m + 1 := by rw [hNd]; push_cast; ring
  have hc : ∑ j, (w j - centroid w) = 0 := by
    funext a
    simp only [Finset.sum_apply, Pi.sub_apply, Finset.sum_sub_distrib, Finset.sum_const, Finset.card_univ, Fintype.card_fin, centroid,
      nsmul_eq_mul, Pi.zero_apply]
    rw [← hNd]
    field_simp
    ring
  have key : ∀ i, (m : ℝ) * e = N * len (centroid w - w i) ^ 2 + ∑ j, len (centroid w - w j) ^ 2 := by
    intro i
    have e1 : ∑ j, len (w i - w j) ^ 2 = (m : ℝ) * e := by
      have : ∀ j, len (w i - w j) ^ 2 = if j = i then 0 else e := by
        intro j
        by_cases hj : j = i
        · rw [if_pos hj, hj, sub_self]; simp [len]
        · rw [if_neg hj, h i j (Ne.symm hj)]
      rw [Finset.sum_congr rfl fun j _ => this j, Finset.sum_ite, Finset.sum_const_zero, Finset.sum_const, zero_add, nsmul_eq_mul]
      congr 2
      rw [Finset.filter_ne', Finset.card_erase_of_mem (Finset.mem_univ i), Finset.card_univ, Fintype.card_fin]
      rfl
    rw [← e1]
    have e2 : ∀ j, len (w i - w j) ^ 2 = len (centroid w - w i) ^ 2 + len (centroid w - w j) ^ 2 + 2 * ((centroid w - w i) ⬝ᵥ (w j - centroid w)) := by
      intro j
      have : w i - w j = -(centroid w - w i) + (centroid w - w j) := by abel
      rw [this, len_sq, len_sq, len_sq]
      have e3 : w j - centroid w = -(centroid w - w j) := by abel
      rw [e3]
      simp only [add_dotProduct, dotProduct_add, neg_dotProduct, dotProduct_neg]
      rw [dotProduct_comm (centroid w - w j) (centroid w - w i)]
      ring
    rw [Finset.sum_congr rfl fun j _ => e2 j, Finset.sum_add_distrib, Finset.sum_add_distrib, Finset.sum_const, Finset.card_univ,
      Fintype.card_fin, nsmul_eq_mul, ← Finset.mul_sum, ← dotProduct_sum, hc, dotProduct_zero, mul_zero, add_zero]
  have hall : ∀ j, len (centroid w - w j) ^ 2 = len (centroid w - w i) ^ 2 := by
    intro j
    have h1 := key i
    have h2 := key j
    have : N * len (centroid w - w j) ^ 2 = N * len (centroid w - w i) ^ 2 := by linarith
    exact mul_left_cancel₀ hN this
  have h1 := key i
  rw [Finset.sum_congr rfl fun j _ => hall j, Finset.sum_const, Finset.card_univ, Fintype.card_fin, nsmul_eq_mul] at h1
  rw [h1]
  ring

theorem len_castLE {m ne : ℕ} (h : m ≤ ne) (x : Fin ne → ℝ) (hx : ∀ j, m ≤ j.val → x j = 0) : len (fun j : Fin m => x (Fin.castLE h j)) = len x := by
  unfold len
  congr 1
  refine Finset.sum_of_injOn (Fin.castLE h) (fun a _ b _ e => Fin.castLE_injective h e) (by simp) ?_ (fun _ _ => rfl)
  intro j _ hj
  have : m ≤ j.val := by
    by_contra hc
    exact hj ⟨⟨j.val, by omega⟩, by simp, rfl⟩
  rw [hx j this]
  norm_num

theorem equilateral_spec (d : ℝ) (ne : ℕ) : ∀ n : ℕ, n + 1 ≤ ne →
    ∃ w, equilateral d ne (n + 1) = .ok w ∧ w 0 = 0 ∧ (∀ i j, i.val ≤ j.val → w i j = 0) ∧ ∀ i j, i ≠ j → len (w i - w j) = |d| := by
  have hsym : ∀ x y : Fin ne → ℝ, len (x - y) = len (y - x) := by
    intro x y
    have : y - x = -(x - y) := by abel
    rw [this, len_eq_sqrt, len_eq_sqrt, neg_dotProduct, dotProduct_neg, neg_neg]
  intro n
  induction n with
  | zero =>
    intro hn
    refine ⟨fun i j => d * (if i.val = j.val + 1 then 1 else 0), ?_, ?_, ?_, ?_⟩
    · unfold equilateral unitE
      rw [if_pos hn]
      rfl
    · funext j; simp
    · intro i j hij
      have : ¬ i.val = j.val + 1 := by omega
      simp [this]
    · have h01 : len ((fun j : Fin ne => d * (if (1 : Fin 2).val = j.val + 1 then 1 else 0)) - fun j : Fin ne => d * (if (0 : Fin 2).val = j.val + 1 then 1 else 0)) = |d| := by
        rw [len_eq_iff _ (abs_nonneg d), sq_abs]
        unfold dotProduct
        rw [Finset.sum_eq_single (⟨0, by omega⟩ : Fin ne)]
        · simp [sq]
        · intro b _ hb
          have : ¬ (b.val = 0) := fun h => hb (Fin.ext h)
          simp [this]
        · simp
      intro i j hij
      have hi := i.2
      have hj := j.2
      fin_cases i <;> fin_cases j
      · exact absurd rfl hij
      · rw [hsym]; exact h01
      · exact h01
      · exact absurd rfl hij
  | succ n ih =>
    intro hn
    obtain ⟨w, h1, h2, h3, h4⟩ := ih (by omega)
    set w' : Fin (n + 2) → Fin (n + 1) → ℝ := fun i j => w i (Fin.castLE (by omega) j) with hw'
    set c : Fin (n + 1) → ℝ := centroid w' with hc
    have hlen : ∀ i j, len (w' i - w' j) = len (w i - w j) := by
      intro i j
      refine len_castLE (by omega) (w i - w j) ?_
      intro a ha
      have hi := i.2
      have hj := j.2
      rw [Pi.sub_apply, h3 i a (by omega), h3 j a (by omega), sub_zero]
    have hcd := equilateral_centroid w' (d ^ 2) (fun i j hij => by rw [hlen, h4 i j hij, sq_abs])
    have hw0 : w' 0 = 0 := by funext j; simp only [hw', h2]; rfl
    have hcc : ∀ i, len (c - w' i) ^ 2 = len c ^ 2 := by
      intro i
      have e1 := hcd i
      have e2 := hcd 0
      rw [hw0, sub_zero] at e2
      have hN : 2 * (((n + 1) + 1 : ℕ) : ℝ) ≠ 0 := by positivity
      exact mul_left_cancel₀ hN (e1.trans e2.symm)
    have hle : len c ^ 2 ≤ d ^ 2 := by
      have e2 := hcd 0
      rw [hw0, sub_zero] at e2
      have h5 : (0 : ℝ) ≤ ((n + 1 : ℕ) : ℝ) := Nat.cast_nonneg _
      push_cast at e2 h5
      nlinarith [sq_nonneg d, sq_nonneg (len c), mul_nonneg h5 (sq_nonneg (len c)), mul_nonneg h5 (sq_nonneg d)]
    set z : ℝ := √(d ^ 2 - len c ^ 2) with hz
    have hz2 : z ^ 2 = d ^ 2 - len c ^ 2 := Real.sq_sqrt (by linarith)
    set p : Fin ne → ℝ := fun j => if hj : j.val < n + 1 then c ⟨j.val, hj⟩ else if j.val = n + 1 then z else 0 with hp
    have hrun : equilateral d ne (n + 2) = .ok (Fin.snoc w p) := by
      rw [equilateral, h1]
      simp only [Py.bind_ok]
      rw [dif_pos hn]
      simp only [Py.pure_eq, norm_eq_len, sub_zero]
      rfl
    have hdist : ∀ i, len (p - w i) = |d| := by
      intro i
      rw [len_eq_iff _ (abs_nonneg d), sq_abs]
      have e1 : (p - w i) ⬝ᵥ (p - w i) = len (c - w' i) ^ 2 + z ^ 2 := by
        have e2 : len (c - w' i) = len (fun j : Fin ne => if j.val < n + 1 then p j - w i j else 0) := by
          rw [← len_castLE (m := n + 1) (by omega) (fun j : Fin ne => if j.val < n + 1 then p j - w i j else 0) (fun j hj => if_neg (by omega))]
          congr 1
          funext j
          have : (Fin.castLE (by omega : n + 1 ≤ ne) j).val < n + 1 := j.2
          simp only [Pi.sub_apply, hp, dif_pos this, if_pos this, hw']
          rfl
        rw [e2, len_sq]
        have e3 : z ^ 2 = ∑ j : Fin ne, if j.val = n + 1 then z ^ 2 else 0 := by
          rw [Finset.sum_eq_single (⟨n + 1, by omega⟩ : Fin ne)]
          · simp
          · intro b _ hb
            exact if_neg fun h => hb (Fin.ext h)
          · simp
        rw [e3]
        unfold dotProduct
        rw [← Finset.sum_add_distrib]
        refine Finset.sum_congr rfl fun j _ => ?_
        have hi := i.2
        by_cases hj : j.val < n + 1
        · have : ¬ j.val = n + 1 := by omega
          simp [hj, this]
        · simp only [if_neg hj, Pi.sub_apply, h3 i j (by omega)]
          simp only [hp, dif_neg hj, sub_zero, mul_zero, zero_add]
          by_cases hj2 : j.val = n + 1
          · simp [hj2, sq]
          · simp [hj2]
      rw [e1, hcc, hz2]
      ring
    refine ⟨_, hrun, ?_, ?_, ?_⟩
    · have : (0 : Fin (n + 1 + 1 + 1)) = Fin.castSucc 0 := rfl
      rw [this, Fin.snoc_castSucc, h2]
    · intro i j
      refine Fin.lastCases ?_ (fun i => ?_) i
      · intro hij
        rw [Fin.val_last] at hij
        rw [Fin.snoc_last]
        simp only [hp]
        rw [dif_neg (by omega), if_neg (by omega)]
      · intro hij
        rw [Fin.snoc_castSucc]
        exact h3 i j hij
    · intro i j
      refine Fin.lastCases ?_ (fun i => ?_) i <;> refine Fin.lastCases ?_ (fun j => ?_) j
      · intro h; exact absurd rfl h
      · intro _; rw [Fin.snoc_last, Fin.snoc_castSucc]; exact hdist j
      · intro _; rw [Fin.snoc_last, Fin.snoc_castSucc, hsym]; exact hdist i
      · intro hij
        rw [Fin.snoc_castSucc, Fin.snoc_castSucc]
        exact h4 i j fun e => hij (by rw [e])

/-- Points at equal positive distances are affinely independent. -/
theorem equidistant_nonDegenerate (v : Vertices ℝ k n) (e : ℝ) (he : e ≠ 0) (h : ∀ i j, i ≠ j → len (v i - v j) = e) : NonDegenerate v := by
  intro w hs hw
  have key : ∑ i, ∑ j, w i * w j * len (v i - v j) ^ 2 = 0 := by
    have e1 : ∀ i j, w i * w j * len (v i - v j) ^ 2 =
        w j * (w i * (v i ⬝ᵥ v i)) + w i * (w j * (v j ⬝ᵥ v j)) - 2 * ((w i • v i) ⬝ᵥ (w j • v j)) := by
      intro i j
      rw [len_sq, sub_dotProduct, dotProduct_sub, dotProduct_sub, smul_dotProduct, dotProduct_smul, dotProduct_comm (v j) (v i)]
      simp only [smul_eq_mul]
      ring
    simp only [e1, Finset.sum_sub_distrib, Finset.sum_add_distrib, ← Finset.mul_sum, ← Finset.sum_mul, hs, zero_mul, Finset.sum_const_zero]
    have : ∑ i, ∑ j, (w i • v i) ⬝ᵥ (w j • v j) = 0 := by
      simp only [← dotProduct_sum, hw, dotProduct_zero, Finset.sum_const_zero]
    rw [this]
    simp
  have e2 : ∀ i, ∑ j, w i * w j * len (v i - v j) ^ 2 = - (e ^ 2) * w i ^ 2 := by
    intro i
    have : ∀ j, w i * w j * len (v i - v j) ^ 2 = w i * e ^ 2 * w j - if j = i then w i ^ 2 * e ^ 2 else 0 := by
      intro j
      by_cases hj : j = i
      · rw [if_pos hj, hj, sub_self]; simp [len]; ring
      · rw [if_neg hj, h i j (Ne.symm hj)]; ring
    rw [Finset.sum_congr rfl fun j _ => this j, Finset.sum_sub_distrib, ← Finset.mul_sum, hs]
    simp
    ring
  rw [Finset.sum_congr rfl fun i _ => e2 i, ← Finset.mul_sum] at key
  have h3 : ∑ i, w i ^ 2 = 0 := by
    rcases mul_eq_zero.1 key with h4 | h4
    · exact absurd h4 (neg_ne_zero.2 (pow_ne_zero 2 he))
    · exact h4
  funext i
  have := (Finset.sum_eq_zero_iff_of_nonneg fun i _ => sq_nonneg (w i)).1 h3 i (Finset.mem_univ i)
  exact pow_eq_zero_iff two_ne_zero |>.1 this

end Verif.SimplexGeometry
