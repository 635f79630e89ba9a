import Verif.Spec.MeshFunctions
import Verif.Props.PiecewiseCall
import Verif.Spec.Integration
import Verif.Model.BasicMeshes
/-!
# From tilings to meshes of piecewise polynomials
-/

namespace Verif.Spec
open Verif Verif.PP Verif.Props Verif.Simplex

variable {K : Type} [Field K] [LinearOrder K] [IsStrictOrderedRing K] {m : Nat}

/-- The coordinates of a point, followed by `k` zeros. -/
def padded (k : Nat) (x : Fin m → K) : List K := List.ofFn x ++ List.replicate k 0

omit [LinearOrder K] [IsStrictOrderedRing K] in
theorem padded_length (k : Nat) (x : Fin m → K) : (padded k x).length = m + k := by simp [padded]

omit [LinearOrder K] [IsStrictOrderedRing K] in
theorem padded_lt (k : Nat) (x : Fin m → K) (i : Fin m) : (padded k x).getD i 0 = x i := by
  unfold padded
  rw [List.getD_eq_getElem?_getD, List.getElem?_append_left (by simp), List.getElem?_ofFn]
  simp

omit [LinearOrder K] [IsStrictOrderedRing K] in
theorem padded_ge (k : Nat) (x : Fin m → K) {c : Nat} (hc : m ≤ c) : (padded k x).getD c 0 = 0 := by
  unfold padded
  rw [List.getD_eq_getElem?_getD, List.getElem?_append_right (by simpa using hc), List.getElem?_replicate]
  split <;> rfl

omit [LinearOrder K] [IsStrictOrderedRing K] in
theorem columns_padded (k : Nat) (V : List (Fin m → K)) : columns m (V.map (padded k)) = V := by
  unfold columns
  rw [List.map_map]
  conv_rhs => rw [← List.map_id V]
  apply List.map_congr_left
  intro x _
  funext i
  exact padded_lt k x i

omit [LinearOrder K] [IsStrictOrderedRing K] in
theorem isComb_iff (k : Nat) {V : List (Fin m → K)} {c : List Nat} (hc : ∀ i ∈ c, i < V.length) (w : List K) (x : Fin m → K) :
    IsComb (V.map (padded k)) c w (padded k x) ↔ w.length = c.length ∧ x = (List.zipWith (fun a i => a • V.getD i 0) w c).sum := by
  have hval : ∀ i : Fin m, ∀ (w : List K) (c : List Nat), (List.zipWith (fun a i => a • V.getD i 0) w c).sum i =
      ((w.zip (c.map fun i => padded k (V.getD i 0))).map (fun q => q.1 * q.2.getD i 0)).sum := by
    intro i w
    induction w with
    | nil => simp
    | cons a w ih =>
      intro c
      cases c with
      | nil => simp
      | cons j c =>
        simp only [List.zipWith_cons_cons, List.sum_cons, List.map_cons, List.zip_cons_cons, Pi.add_apply, Pi.smul_apply, smul_eq_mul, ih c, padded_lt]
  have hmap : c.map (fun i => (V.map (padded k))[i]?) = (c.map fun i => padded k (V.getD i 0)).map some := by
    rw [List.map_map]
    apply List.map_congr_left
    intro i hi
    simp [List.getElem?_eq_getElem (hc i hi), List.getD_eq_getElem _ _ (hc i hi)]
  constructor
  · rintro ⟨ps, h1, h2, h3, h4⟩
    have hps : ps = c.map fun i => padded k (V.getD i 0) := by
      rw [hmap] at h1
      exact ((List.map_injective_iff.2 (Option.some_injective _)) h1).symm
    subst hps
    refine ⟨by simpa using h3, ?_⟩
    funext i
    rw [hval i w c, h4 i (by rw [padded_length]; omega), padded_lt]
  · rintro ⟨h1, h2⟩
    refine ⟨_, hmap, ?_, by simpa using h1, ?_⟩
    · intro p hp
      obtain ⟨i, -, rfl⟩ := List.mem_map.1 hp
      rw [padded_length, padded_length]
    · intro i hi
      by_cases him : i < m
      · have := congrFun h2 ⟨i, him⟩
        rw [hval ⟨i, him⟩ w c] at this
        rw [← this, ← padded_lt k x ⟨i, him⟩] 
      · rw [padded_ge k x (by omega)]
        apply List.sum_eq_zero
        intro y hy
        obtain ⟨q, hq, rfl⟩ := List.mem_map.1 hy
        obtain ⟨j, -, e⟩ := List.mem_map.1 (List.of_mem_zip hq).2
        rw [← e, padded_ge k _ (by omega), mul_zero]

omit [LinearOrder K] [IsStrictOrderedRing K] in
theorem zipWith_replicate_sum (a : K) (V : List (Fin m → K)) (c : List Nat) :
    (List.zipWith (fun a i => a • V.getD i 0) (List.replicate c.length a) c).sum = (c.map fun i => a • V.getD i 0).sum := by
  induction c with
  | nil => rfl
  | cons j c ih => simp only [List.length_cons, List.replicate_succ, List.zipWith_cons_cons, List.sum_cons, List.map_cons, ih]

omit [LinearOrder K] [IsStrictOrderedRing K] in
/-- The simplex of a mesh. -/
theorem cell_ok {T : List (List Nat)} {V : List (Fin m → K)} {j : Nat} (hj : j < T.length) (hl : T[j].length = m + 1) (hc : ∀ i ∈ T[j], i < V.length) :
    cell T V j = .ok fun i : Fin (m + 1) => V.getD (T[j][(i : ℕ)]'(by omega)) 0 := by
  have hlen : 0 < V.length := by
    have := hc (T[j][0]'(by omega)) (List.getElem_mem _)
    omega
  have hm : (T[j]).mapM (fun i => getE V i) = .ok ((T[j]).map fun i => V.getD i 0) := by
    apply mapM_eq_ok
    intro i hi
    rw [getE_ok (hc i hi), List.getD_eq_getElem _ _ (hc i hi)]
  unfold cell cellVertices Complex.simplexVertices
  rw [getE_ok hj, Py.bind_ok, getE_ok hlen, Py.bind_ok, hm, Py.bind_ok, dif_pos (by simpa using hl)]
  refine congrArg Except.ok ?_
  funext i
  simp

omit [IsStrictOrderedRing K] in
theorem inCell_iff (k : Nat) {T : List (List Nat)} {V : List (Fin m → K)} {j : Nat} (hj : j < T.length) (hl : T[j].length = m + 1)
    (hc : ∀ i ∈ T[j], i < V.length) (x : Fin m → K) : PP.InCell T V j x ↔ Spec.InCell (V.map (padded k)) T[j] (padded k x) := by
  have hzip : ∀ w : Fin (m + 1) → K, (List.zipWith (fun a i => a • V.getD i 0) (List.ofFn w) T[j]).sum =
      ∑ i : Fin (m + 1), w i • V.getD (T[j][(i : ℕ)]'(by omega)) 0 := by
    intro w
    rw [← List.sum_ofFn]
    congr 1
    apply List.ext_getElem
    · simp [hl]
    · intro i h1 h2
      rw [List.getElem_zipWith, List.getElem_ofFn, List.getElem_ofFn]
  constructor
  · rintro ⟨v, hv, w, h0, h1, h2⟩
    rw [cell_ok hj hl hc] at hv
    obtain rfl := Except.ok.inj hv
    refine ⟨List.ofFn w, ?_, by rw [List.sum_ofFn]; exact h1, (isComb_iff k hc _ _).2 ⟨by simp [hl], by rw [hzip]; exact h2⟩⟩
    intro a ha
    obtain ⟨i, rfl⟩ := (List.mem_ofFn' _ _).1 ha
    exact h0 i
  · rintro ⟨w, h0, h1, h2⟩
    obtain ⟨h3, h4⟩ := (isComb_iff k hc _ _).1 h2
    have hw : w = List.ofFn fun i : Fin (m + 1) => w[(i : ℕ)]'(by omega) := by
      apply List.ext_getElem
      · simp [h3, hl]
      · intro i h1 h2
        rw [List.getElem_ofFn]
    refine ⟨_, cell_ok hj hl hc, fun i => w[(i : ℕ)]'(by omega), fun i => h0 _ (List.getElem_mem _), ?_, ?_⟩
    · rw [← List.sum_ofFn, ← hw]
      exact h1
    · rw [← hzip, ← hw]
      exact h4

omit [IsStrictOrderedRing K] in
theorem onCommonFace_of (k : Nat) {V : List (Fin m → K)} {c c' : List Nat} (hn : c.Nodup) (hc : ∀ i ∈ c, i < V.length) {x : Fin m → K}
    (h : Spec.InCell (V.map (padded k)) (c.filter (· ∈ c')) (padded k x)) : OnCommonFace V c c' x := by
  obtain ⟨w, -, h1, h2⟩ := h
  set f := c.filter (· ∈ c') with hf
  obtain ⟨h3, h4⟩ := (isComb_iff k (fun i hi => hc i (List.mem_of_mem_filter hi)) _ _).1 h2
  have hnf : f.Nodup := hn.filter _
  have e : c.toFinset ∩ c'.toFinset = f.toFinset := by
    ext i
    simp [hf]
  have hW : f.map (fun i => w.getD (f.idxOf i) 0) = w := by
    apply List.ext_getElem
    · rw [List.length_map, h3]
    · intro i h1 h2
      rw [List.getElem_map, hnf.idxOf_getElem, List.getD_eq_getElem _ _ h2]
  refine ⟨fun i => w.getD (f.idxOf i) 0, ?_, ?_⟩
  · rw [e, List.sum_toFinset _ hnf, hW, h1]
  · rw [e, List.sum_toFinset _ hnf, h4]
    congr 1
    conv_lhs => rw [← hW, List.zipWith_map_left]
    rw [List.zipWith_self]

/-- A tiling by simplices of full dimension, with coordinates padded by zeros, is a mesh of the domain. -/
theorem meshOf_of_tiles (k : Nat) {T : List (List Nat)} {V : List (Fin m → K)} {D : Set (List K)} (hne : T ≠ [])
    (hT : WellFormed V.length (m + 1) T) (ht : Tiles (V.map (padded k)) T D)
    (hp : ∀ j (hj : j < T.length), 0 < edgeDet fun i : Fin (m + 1) => V.getD (T[j].getD i 0) 0) : MeshOf T V {x | padded k x ∈ D} := by
  have hw : ∀ j (hj : j < T.length), T[j].length = m + 1 ∧ T[j].Nodup ∧ ∀ v ∈ T[j], v < V.length := fun j hj => hT _ (List.getElem_mem hj)
  refine ⟨⟨hne, fun c hc => ⟨(hT c hc).1, (hT c hc).2.1⟩⟩, ?_, ?_, ?_, ?_⟩
  · refine ht.disjoint.imp_of_mem ?_
    intro c c' hc hc' hdis hsame
    obtain ⟨l, n, b⟩ := hT c hc
    obtain ⟨l', n', b'⟩ := hT c' hc'
    have hperm : c.Perm c' := (List.perm_ext_iff_of_nodup n n').2 hsame
    have hpos : (0 : K) < (m : K) + 1 := by positivity
    have hint : ∀ c : List Nat, c.length = m + 1 → (∀ i ∈ c, i < V.length) →
        InInterior (V.map (padded k)) c (padded k (c.map fun i => ((m : K) + 1)⁻¹ • V.getD i 0).sum) := by
      intro c l b
      refine ⟨List.replicate c.length ((m : K) + 1)⁻¹, ?_, ?_, (isComb_iff k b _ _).2 ⟨by simp, by rw [zipWith_replicate_sum]⟩⟩
      · intro a ha
        rw [(List.mem_replicate.1 ha).2]
        exact inv_pos.2 hpos
      · rw [List.sum_replicate, l, nsmul_eq_mul]
        push_cast
        exact mul_inv_cancel₀ hpos.ne'
    exact hdis ⟨_, hint c l b, by rw [(hperm.map _).sum_eq]; exact hint c' l' b'⟩
  · intro j hj
    refine ⟨_, cell_ok hj (hw j hj).1 (hw j hj).2.2, ?_⟩
    have := hp j hj
    have e : (fun i : Fin (m + 1) => V.getD (T[j][(i : ℕ)]'(by have := (hw j hj).1; omega)) 0) = fun i : Fin (m + 1) => V.getD (T[j].getD i 0) 0 := by
      funext i
      rw [List.getD_eq_getElem (T[j])]
    rw [e]
    exact this
  · intro j j' hj hj' x h h'
    rw [inCell_iff k hj (hw j hj).1 (hw j hj).2.2] at h
    rw [inCell_iff k hj' (hw j' hj').1 (hw j' hj').2.2] at h'
    exact onCommonFace_of k (hw j hj).2.1 (hw j hj).2.2 (ht.faces _ (List.getElem_mem hj) _ (List.getElem_mem hj') _ h h')
  · intro x
    constructor
    · rintro ⟨j, h⟩
      obtain ⟨v, hv, -⟩ := id h
      have hj := cell_lt hv
      rw [inCell_iff k hj (hw j hj).1 (hw j hj).2.2] at h
      exact ht.inside _ (List.getElem_mem hj) _ h
    · intro hx
      obtain ⟨c, hc, h⟩ := ht.cover _ hx
      obtain ⟨j, hj, rfl⟩ := List.getElem_of_mem hc
      exact ⟨j, (inCell_iff k hj (hw j hj).1 (hw j hj).2.2 x).2 h⟩

omit [IsStrictOrderedRing K] in
theorem positive_of_area (k : Nat) {T : List (List Nat)} {V : List (Fin 2 → K)} {A : K} (hA : 0 < A) (h : AllArea2 (V.map (padded k)) T A) :
    ∀ j (hj : j < T.length), 0 < edgeDet fun i : Fin 3 => V.getD (T[j].getD i 0) 0 := by
  intro j hj
  obtain ⟨p, q, r, h1, h2⟩ := h _ (List.getElem_mem hj)
  have hl := congrArg List.length h1
  simp only [List.length_map, List.length_cons, List.length_nil] at hl
  match e : T[j], hl, h1 with
  | [a, b, c], _, h1 =>
    simp only [List.map_cons, List.map_nil, List.cons.injEq, and_true, List.getElem?_map, Option.map_eq_some_iff] at h1
    obtain ⟨⟨x, hx, rfl⟩, ⟨y, hy, rfl⟩, ⟨z, hz, rfl⟩⟩ := h1
    have f0 : ∀ x : Fin 2 → K, (padded k x).getD 0 0 = x 0 := fun x => padded_lt k x 0
    have f1 : ∀ x : Fin 2 → K, (padded k x).getD 1 0 = x 1 := fun x => padded_lt k x 1
    unfold area2 at h2
    rw [f0, f0, f0, f1, f1, f1] at h2
    unfold edgeDet
    rw [Matrix.det_fin_two]
    simp [List.getD_eq_getElem?_getD, hx, hy, hz]
    rw [← h2] at hA
    exact hA

omit [IsStrictOrderedRing K] in
theorem positive_of_volume (k : Nat) {T : List (List Nat)} {V : List (Fin 3 → K)} {A : K} (hA : 0 < A) (h : AllVolume6 (V.map (padded k)) T A) :
    ∀ j (hj : j < T.length), 0 < edgeDet fun i : Fin 4 => V.getD (T[j].getD i 0) 0 := by
  intro j hj
  obtain ⟨p, q, r, s, h1, h2⟩ := h _ (List.getElem_mem hj)
  have hl := congrArg List.length h1
  simp only [List.length_map, List.length_cons, List.length_nil] at hl
  match e : T[j], hl, h1 with
  | [a, b, c, d], _, h1 =>
    simp only [List.map_cons, List.map_nil, List.cons.injEq, and_true, List.getElem?_map, Option.map_eq_some_iff] at h1
    obtain ⟨⟨x, hx, rfl⟩, ⟨y, hy, rfl⟩, ⟨z, hz, rfl⟩, ⟨u, hu, rfl⟩⟩ := h1
    have f0 : ∀ x : Fin 3 → K, (padded k x).getD 0 0 = x 0 := fun x => padded_lt k x 0
    have f1 : ∀ x : Fin 3 → K, (padded k x).getD 1 0 = x 1 := fun x => padded_lt k x 1
    have f2 : ∀ x : Fin 3 → K, (padded k x).getD 2 0 = x 2 := fun x => padded_lt k x 2
    unfold volume6 at h2
    simp only [f0, f1, f2] at h2
    unfold edgeDet
    rw [Matrix.det_fin_three]
    simp [List.getD_eq_getElem?_getD, hx, hy, hz, hu]
    rw [← h2] at hA
    convert hA using 1
    ring

theorem fillRows_written {α : Type} {num : Nat} {rows V : List α} (h : Mesh.fillRows num rows = .ok (V.map some)) : V = rows := by
  unfold Mesh.fillRows at h
  split at h
  · have h := Except.ok.inj h
    have hk : num - rows.length = 0 := by
      by_contra hne
      have : (none : Option α) ∈ V.map some := by
        rw [← h]
        exact List.mem_append_right _ (List.mem_replicate.2 ⟨hne, rfl⟩)
      simp at this
    rw [hk, List.replicate_zero, List.append_nil] at h
    exact (List.map_injective_iff.2 (Option.some_injective _) h).symm
  · cases h

omit [LinearOrder K] [IsStrictOrderedRing K] in
theorem eq_padded (k : Nat) {V : List (List K)} (h : ∀ p ∈ V, p = padded k (fun i : Fin m => p.getD i 0)) : V = (columns m V).map (padded k) := by
  unfold columns
  rw [List.map_map]
  conv_lhs => rw [← List.map_id V]
  exact List.map_congr_left h

theorem simplex_iff {m : Nat} (k : Nat) (v : Fin 3 → Fin m → ℝ) (x : Fin m → ℝ) :
    Spec.InCell ([v 0, v 1, v 2].map (padded k)) [0, 1, 2] (padded k x) ↔ x ∈ Spec.simplex v := by
  constructor
  · rintro ⟨w, h0, h1, h2⟩
    obtain ⟨h3, h4⟩ := (isComb_iff k (by simp) _ _).1 h2
    match w, h3 with
    | [a, b, c], _ =>
      refine ⟨![a, b, c], ?_, ?_, ?_⟩
      · intro i
        fin_cases i <;> simp <;> apply h0 <;> simp
      · simpa [Fin.sum_univ_three, add_assoc] using h1
      · simpa [Fin.sum_univ_three, add_assoc] using h4
  · rintro ⟨w, h0, h1, h2⟩
    refine ⟨[w 0, w 1, w 2], ?_, ?_, (isComb_iff k (by simp) _ _).2 ⟨rfl, ?_⟩⟩
    · intro a ha
      simp at ha
      rcases ha with rfl | rfl | rfl <;> exact h0 _
    · simpa [Fin.sum_univ_three, add_assoc] using h1
    · simpa [Fin.sum_univ_three, add_assoc] using h2

end Verif.Spec
