import Verif.Lemmas.BasicMeshes3
import Verif.Lemmas.PolyTab
import Verif.Props.BasicMeshes
/-!
# C49: structured tetrahedral meshes are well formed
-/

namespace Verif.Mesh
open Verif Verif.Spec

variable {K : Type} [Field K] [LinearOrder K] [IsStrictOrderedRing K]

theorem sixTets_nodup (p : Fin 3 → ℕ) : ∀ P ∈ sixTets p, P.length = 4 ∧ P.Nodup ∧ P ≠ [] := by
  have hne : ∀ a b c a' b' c' : ℕ, (a ≠ a' ∨ b ≠ b' ∨ c ≠ c') → (![a, b, c] : Fin 3 → ℕ) ≠ ![a', b', c'] := by
    intro a b c a' b' c' h e
    have e0 := congrFun e 0
    have e1 := congrFun e 1
    have e2 := congrFun e 2
    simp at e0 e1 e2
    omega
  intro P hP
  simp only [sixTets, List.mem_cons, List.not_mem_nil, or_false] at hP
  rcases hP with rfl | rfl | rfl | rfl | rfl | rfl <;> refine ⟨rfl, ?_, by simp [tet1, tet2, tet3, tet4, tet5, tet6]⟩ <;>
    simp only [tet1, tet2, tet3, tet4, tet5, tet6, List.nodup_cons, List.mem_cons, List.not_mem_nil, or_false, not_or, not_false_eq_true, true_and,
      List.nodup_nil, and_true] <;>
    refine ⟨⟨?_, ?_, ?_⟩, ⟨?_, ?_⟩, ?_⟩ <;> exact hne _ _ _ _ _ _ (by omega)

omit [LinearOrder K] [IsStrictOrderedRing K] in
theorem volume_cells (sx sy sz : K) (V : List (List K)) (idx : (Fin 3 → ℕ) → Nat) (p : Fin 3 → ℕ) (P : List (Fin 3 → ℕ)) (hP : P ∈ sixTets p)
    (hV : ∀ q ∈ P, V[idx q]? = some [(q 0 : K) * sx, (q 1 : K) * sy, (q 2 : K) * sz]) :
    ∃ x y z s, (P.map idx).map (fun i => V[i]?) = [some x, some y, some z, some s] ∧ volume6 x y z s = sx * sy * sz := by
  simp only [sixTets, List.mem_cons, List.not_mem_nil, or_false] at hP
  have key : ∀ q0 q1 q2 q3 : Fin 3 → ℕ, P = [q0, q1, q2, q3] →
      volume6 [(q0 0 : K) * sx, (q0 1 : K) * sy, (q0 2 : K) * sz] [(q1 0 : K) * sx, (q1 1 : K) * sy, (q1 2 : K) * sz]
        [(q2 0 : K) * sx, (q2 1 : K) * sy, (q2 2 : K) * sz] [(q3 0 : K) * sx, (q3 1 : K) * sy, (q3 2 : K) * sz] = sx * sy * sz →
      ∃ x y z s, (P.map idx).map (fun i => V[i]?) = [some x, some y, some z, some s] ∧ volume6 x y z s = sx * sy * sz := by
    rintro q0 q1 q2 q3 rfl h
    refine ⟨_, _, _, _, ?_, h⟩
    simp only [List.map_cons, List.map_nil]
    rw [hV q0 (by simp), hV q1 (by simp), hV q2 (by simp), hV q3 (by simp)]
  rcases hP with h | h | h | h | h | h <;> refine key _ _ _ _ h ?_ <;> simp [volume6] <;> ring

/-- Meshes of tetrahedra of cubes with vertices placed by scaling the axes. -/
theorem mesh3 (cells : List (List (Fin 3 → ℕ))) (D : Set (Fin 3 → K)) (hc : ∀ P ∈ cells, ∃ p, P ∈ sixTets p) (ht : LTiles cells D)
    (sx sy sz : K) (hx : 0 < sx) (hy : 0 < sy) (hz : 0 < sz) (V : List (List K)) (idx : (Fin 3 → ℕ) → Nat)
    (hV : ∀ P ∈ cells, ∀ q ∈ P, V[idx q]? = some [(q 0 : K) * sx, (q 1 : K) * sy, (q 2 : K) * sz]) :
    WellFormed V.length 4 (cells.map (fun P => P.map idx)) ∧
    Tiles V (cells.map (fun P => P.map idx)) {x | ∃ ξ ∈ D, x = [ξ 0 * sx, ξ 1 * sy, ξ 2 * sz]} ∧
    AllVolume6 V (cells.map (fun P => P.map idx)) (sx * sy * sz) := by
  refine ⟨?_, ?_, ?_⟩
  · intro c hc'
    obtain ⟨P, hP, rfl⟩ := List.mem_map.1 hc'
    obtain ⟨p, hp⟩ := hc P hP
    obtain ⟨h1, h2, -⟩ := sixTets_nodup p P hp
    refine ⟨by rw [List.length_map, h1], ?_, ?_⟩
    · refine List.Nodup.map_on ?_ h2
      intro q hq q' hq' he
      have e1 := hV P hP q hq
      have e2 := hV P hP q' hq'
      rw [he, e2] at e1
      simp only [Option.some.injEq, List.cons.injEq, and_true] at e1
      obtain ⟨k0, k1, k2⟩ := e1
      have k0' : q' 0 = q 0 := by exact_mod_cast mul_right_cancel₀ hx.ne' k0
      have k1' : q' 1 = q 1 := by exact_mod_cast mul_right_cancel₀ hy.ne' k1
      have k2' : q' 2 = q 2 := by exact_mod_cast mul_right_cancel₀ hz.ne' k2
      funext k
      match k with
      | 0 => exact k0'.symm
      | 1 => exact k1'.symm
      | 2 => exact k2'.symm
    · intro v hv
      obtain ⟨q, hq, rfl⟩ := List.mem_map.1 hv
      exact (List.getElem?_eq_some_iff.1 (hV P hP q hq)).1
  · let o : Nat → K := fun _ => 0
    let a : Fin 3 → Nat → K := fun k c => (![[sx, 0, 0], [0, sy, 0], [0, 0, sz]] k).getD c 0
    have hplace : ∀ ξ : Fin 3 → K, place 3 o a ξ = [ξ 0 * sx, ξ 1 * sy, ξ 2 * sz] := by
      intro ξ
      simp [place, List.range_succ, Fin.sum_univ_three, o, a]
    have := tiles_of_lattice 3 o a V idx cells D (fun P hP => by obtain ⟨p, hp⟩ := hc P hP; exact (sixTets_nodup p P hp).2.2)
      (fun P hP q hq => by rw [hplace]; exact hV P hP q hq) (by
        intro ξ ξ' he
        rw [hplace, hplace] at he
        simp only [List.cons.injEq, and_true] at he
        funext k
        match k with
        | 0 => exact mul_right_cancel₀ hx.ne' he.1
        | 1 => exact mul_right_cancel₀ hy.ne' he.2.1
        | 2 => exact mul_right_cancel₀ hz.ne' he.2.2) ht
    simpa only [hplace] using this
  · intro c hc'
    obtain ⟨P, hP, rfl⟩ := List.mem_map.1 hc'
    obtain ⟨p, hp⟩ := hc P hP
    exact volume_cells sx sy sz V idx p P hp (hV P hP)

/-! ## Boxes -/

/-- Index of a lattice point of a box. -/
def boxIdx (w h : Nat) (p : Fin 3 → ℕ) : Nat := p 2 * (w * h) + p 1 * w + p 0

theorem boxRows_eq (w h d : Nat) : boxRows w h d = ((gridCubes w h d).flatMap sixTets).map (fun P => P.map (boxIdx w h)) := by
  unfold boxRows gridCubes
  rw [List.flatMap_assoc, List.map_flatMap]
  refine List.flatMap_congr (fun i _ => ?_)
  rw [List.flatMap_assoc, List.map_flatMap]
  refine List.flatMap_congr (fun j _ => ?_)
  rw [List.flatMap_map, List.map_flatMap]
  refine List.flatMap_congr (fun k _ => ?_)
  have e1 : (i + 1) * (w * h) = i * (w * h) + w * h := by ring
  have e2 : (j + 1) * w = j * w + w := by ring
  simp [sixTets, tet1, tet2, tet3, tet4, tet5, tet6, boxIdx, e1, e2]
  omega

theorem boxRows_length (w h d : Nat) : (boxRows w h d).length = 6 * (w - 1) * (h - 1) * (d - 1) := by
  unfold boxRows
  rw [length_flatMap_const _ _ ((h - 1) * ((w - 1) * 6))]
  · rw [List.length_range]; ring
  · intro i _
    rw [length_flatMap_const _ _ ((w - 1) * 6), List.length_range]
    intro j _
    rw [length_flatMap_const _ _ 6 (fun _ _ => rfl), List.length_range]

theorem get_table3 {β : Type} (d h w : Nat) (f : Nat → Nat → Nat → β) (i j k : Nat) (hi : i < d) (hj : j < h) (hk : k < w) :
    ((List.range d).flatMap fun i => (List.range h).flatMap fun j => (List.range w).map (f i j))[i * (w * h) + j * w + k]? = some (f i j k) := by
  have hlen : ∀ i, ((List.range h).flatMap fun j => (List.range w).map (f i j)).length = w * h := by
    intro i
    rw [length_flatMap_const _ _ w (fun _ _ => by simp), List.length_range, Nat.mul_comm]
  have hb : j * w + k < w * h := by
    have h1 : (j + 1) * w ≤ w * h := by rw [Nat.mul_comm w h]; exact Nat.mul_le_mul_right w (by omega)
    have h2 : (j + 1) * w = j * w + w := by ring
    omega
  have h1 := get_flatMap (List.range d) (fun i => (List.range h).flatMap fun j => (List.range w).map (f i j)) i i (List.getElem?_range hi) (j * w + k)
    (by rw [hlen]; exact hb)
  rw [length_flatMap_const _ _ (w * h) (fun x _ => hlen x), List.take_range, List.length_range, min_eq_left hi.le, ← Nat.add_assoc] at h1
  rw [h1, get_table h w (f i) j k hj hk]

omit [LinearOrder K] [IsStrictOrderedRing K] in
theorem unitCubeVertexRows_length (w h d : Nat) : (unitCubeVertexRows K w h d).length = w * h * d := by
  unfold unitCubeVertexRows
  rw [length_flatMap_const _ _ (h * w)]
  · rw [List.length_range]; ring
  · intro i _
    rw [length_flatMap_const _ _ w (fun _ _ => by simp), List.length_range]

theorem cast_pred_pos {w : Nat} (hw : 2 ≤ w) : (0 : K) < (w : K) - 1 := by
  have : (2 : K) ≤ w := by exact_mod_cast hw
  linarith

/-- The mesh of the unit cube. -/
theorem unit_cube_mesh (w h d : Nat) (hw : 2 ≤ w) (hh : 2 ≤ h) (hd : 2 ≤ d) :
    WellFormed (w * h * d) 4 (boxRows w h d) ∧
    Tiles (unitCubeVertexRows K w h d) (boxRows w h d) {x | ∃ X Y Z : K, x = [X, Y, Z] ∧ (0 ≤ X ∧ X ≤ 1) ∧ (0 ≤ Y ∧ Y ≤ 1) ∧ (0 ≤ Z ∧ Z ≤ 1)} ∧
    AllVolume6 (unitCubeVertexRows K w h d) (boxRows w h d) (1 / (((w : K) - 1) * ((h : K) - 1) * ((d : K) - 1))) := by
  have pw := cast_pred_pos (K := K) hw
  have ph := cast_pred_pos (K := K) hh
  have pd := cast_pred_pos (K := K) hd
  have cw : ((w - 1 : ℕ) : K) = (w : K) - 1 := by rw [Nat.cast_sub (by omega)]; simp
  have ch : ((h - 1 : ℕ) : K) = (h : K) - 1 := by rw [Nat.cast_sub (by omega)]; simp
  have cd : ((d - 1 : ℕ) : K) = (d : K) - 1 := by rw [Nat.cast_sub (by omega)]; simp
  have hm := mesh3 ((gridCubes w h d).flatMap sixTets) _ (fun P hP => by obtain ⟨p, -, hp⟩ := List.mem_flatMap.1 hP; exact ⟨p, hp⟩)
    (box_tiles (K := K) w h d (by omega) (by omega) (by omega)) (1 / ((w : K) - 1)) (1 / ((h : K) - 1)) (1 / ((d : K) - 1))
    (div_pos one_pos pw) (div_pos one_pos ph) (div_pos one_pos pd) (unitCubeVertexRows K w h d) (boxIdx w h) (by
      intro P hP q hq
      obtain ⟨p, hp, hP⟩ := List.mem_flatMap.1 hP
      obtain ⟨h1, h2, h3⟩ := mem_gridCubes.1 hp
      have hb : q 0 < w ∧ q 1 < h ∧ q 2 < d := by
        simp only [sixTets, List.mem_cons, List.not_mem_nil, or_false] at hP
        rcases hP with rfl | rfl | rfl | rfl | rfl | rfl <;>
          simp only [tet1, tet2, tet3, tet4, tet5, tet6, List.mem_cons, List.not_mem_nil, or_false] at hq <;>
          rcases hq with rfl | rfl | rfl | rfl <;> simp <;> omega
      unfold unitCubeVertexRows boxIdx
      rw [get_table3 d h w (fun i j k => [(k : K) / ((w : K) - 1), (j : K) / ((h : K) - 1), (i : K) / ((d : K) - 1)]) _ _ _ hb.2.2 hb.2.1 hb.1]
      simp [div_eq_mul_inv])
  rw [← boxRows_eq, unitCubeVertexRows_length] at hm
  refine ⟨hm.1, ?_, ?_⟩
  · convert hm.2.1 using 1
    ext x
    simp only [Set.mem_ofPred_eq]
    constructor
    · rintro ⟨X, Y, Z, rfl, ⟨x0, x1⟩, ⟨y0, y1⟩, ⟨z0, z1⟩⟩
      refine ⟨![X * ((w : K) - 1), Y * ((h : K) - 1), Z * ((d : K) - 1)], ?_, ?_⟩
      · simp only [Matrix.cons_val_zero, Matrix.cons_val_one, Matrix.cons_val_two, Matrix.vecHead, Matrix.vecTail, Function.comp, Fin.succ_zero_eq_one, cw, ch, cd]
        exact ⟨⟨mul_nonneg x0 pw.le, mul_le_of_le_one_left pw.le x1⟩, ⟨mul_nonneg y0 ph.le, mul_le_of_le_one_left ph.le y1⟩,
          mul_nonneg z0 pd.le, mul_le_of_le_one_left pd.le z1⟩
      · simp only [Matrix.cons_val_zero, Matrix.cons_val_one, Matrix.cons_val_two, Matrix.vecHead, Matrix.vecTail, Function.comp, Fin.succ_zero_eq_one, List.cons.injEq, and_true]
        refine ⟨?_, ?_, ?_⟩ <;> field_simp
    · rintro ⟨ξ, ⟨⟨a0, a1⟩, ⟨b0, b1⟩, ⟨c0, c1⟩⟩, rfl⟩
      rw [cw] at a1
      rw [ch] at b1
      rw [cd] at c1
      refine ⟨_, _, _, rfl, ?_, ?_, ?_⟩
      · rw [mul_one_div]; exact ⟨div_nonneg a0 pw.le, (div_le_one pw).2 a1⟩
      · rw [mul_one_div]; exact ⟨div_nonneg b0 ph.le, (div_le_one ph).2 b1⟩
      · rw [mul_one_div]; exact ⟨div_nonneg c0 pd.le, (div_le_one pd).2 c1⟩
  · convert hm.2.2 using 1
    field_simp

/-- **C49** `rectangular_box_triangulation`: `6 (w - 1) (h - 1) (d - 1)` tetrahedra, each with four different vertex indices below `w h d`;
resolutions below 2 are rejected. -/
theorem C49_box (w h d : Nat) :
    (w < 2 ∨ h < 2 ∨ d < 2 → rectangularBoxTriangulation w h d = .error .value) ∧
    (2 ≤ w ∧ 2 ≤ h ∧ 2 ≤ d → ∃ T, rectangularBoxTriangulation w h d = .ok (T.map some) ∧ T.length = 6 * (w - 1) * (h - 1) * (d - 1) ∧
      WellFormed (w * h * d) 4 T) := by
  unfold rectangularBoxTriangulation
  constructor
  · intro hn
    by_cases h1 : w < 2
    · rw [if_pos h1]
    · rw [if_neg h1]
      by_cases h2 : h < 2
      · rw [if_pos h2]
      · rw [if_neg h2, if_pos (by omega)]
  · rintro ⟨h1, h2, h3⟩
    rw [if_neg (by omega), if_neg (by omega), if_neg (by omega), fillRows_exact _ _ (boxRows_length w h d)]
    exact ⟨_, rfl, boxRows_length w h d, (unit_cube_mesh (K := ℚ) w h d h1 h2 h3).1⟩

/-- **C49** `rectangular_box_triangulation` with `unit_cube_vertices`: `w h d` vertices, the tetrahedra tile the unit cube and are positively
oriented with the same volume; resolutions below 2 are rejected. -/
theorem C49_unit_cube (w h d : Nat) :
    (w < 2 ∨ h < 2 ∨ d < 2 → unitCubeVertices K w h d = .error .value) ∧
    (2 ≤ w ∧ 2 ≤ h ∧ 2 ≤ d → ∃ T V, rectangularBoxTriangulation w h d = .ok (T.map some) ∧ unitCubeVertices K w h d = .ok (V.map some) ∧
      V.length = w * h * d ∧
      Tiles V T {x | ∃ X Y Z : K, x = [X, Y, Z] ∧ (0 ≤ X ∧ X ≤ 1) ∧ (0 ≤ Y ∧ Y ≤ 1) ∧ (0 ≤ Z ∧ Z ≤ 1)} ∧
      AllVolume6 V T (1 / (((w : K) - 1) * ((h : K) - 1) * ((d : K) - 1))) ∧ 0 < 1 / (((w : K) - 1) * ((h : K) - 1) * ((d : K) - 1))) := by
  constructor
  · intro hn
    unfold unitCubeVertices
    by_cases h1 : w < 2
    · rw [if_pos h1]
    · rw [if_neg h1]
      by_cases h2 : h < 2
      · rw [if_pos h2]
      · rw [if_neg h2, if_pos (by omega)]
  · rintro ⟨h1, h2, h3⟩
    obtain ⟨-, k2, k3⟩ := unit_cube_mesh (K := K) w h d h1 h2 h3
    refine ⟨boxRows w h d, unitCubeVertexRows K w h d, ?_, ?_, unitCubeVertexRows_length w h d, k2, k3,
      div_pos one_pos (mul_pos (mul_pos (cast_pred_pos h1) (cast_pred_pos h2)) (cast_pred_pos h3))⟩
    · unfold rectangularBoxTriangulation
      rw [if_neg (by omega), if_neg (by omega), if_neg (by omega), fillRows_exact _ _ (boxRows_length w h d)]
    · unfold unitCubeVertices
      rw [if_neg (by omega), if_neg (by omega), if_neg (by omega), fillRows_exact _ _ (unitCubeVertexRows_length w h d)]

/-! ## Tetrahedra -/

/-- Index of a lattice point of a tetrahedron. -/
def tetIdx (r : Nat) (p : Fin 3 → ℕ) : Nat := (MI.mis 3 r).idxOf [p 0, p 1, p 2]

theorem idxOf_of_get {l : List (List Nat)} (hl : l.Nodup) {i : Nat} {x : List Nat} (h : l[i]? = some x) : l.idxOf x = i := by
  obtain ⟨hi, rfl⟩ := List.getElem?_eq_some_iff.1 h
  exact hl.idxOf_getElem i hi

theorem getIndex_tet (r a b c : Nat) (h : a + b + c ≤ r) : MI.getIndex [a, b, c] (r : Int) = .ok (tetIdx r ![a, b, c]) := by
  obtain ⟨i, h1, h2⟩ := Poly.getIndex_ok (ν := [a, b, c]) (r := r) (by simpa [Nat.add_assoc] using h)
  rw [h1]
  congr 1
  exact (idxOf_of_get (MI.nodup_mis 3 r) h2).symm

theorem tetIdx_succ (r a b c : Nat) (h : a + b + c < r) : tetIdx r ![a + 1, b, c] = tetIdx r ![a, b, c] + 1 := by
  have hm : [a, b, c] ∈ MI.mis 3 r := MI.mem_mis.2 ⟨rfl, by simp; omega⟩
  have hget : (MI.mis 3 r)[tetIdx r ![a, b, c]]? = some [a, b, c] := List.getElem?_idxOf hm
  generalize tetIdx r ![a, b, c] = i at *
  obtain ⟨hi, hx⟩ := List.getElem?_eq_some_iff.1 hget
  obtain ⟨r1, r2⟩ := MI.run_mis 3 r
  have hs : MI.succ? r [a, b, c].sum [a, b, c] = some [a + 1, b, c] := MI.succ?_lt (by simp; omega)
  refine idxOf_of_get (MI.nodup_mis 3 r) ?_
  by_cases hl : i + 1 < (MI.mis 3 r).length
  · have := (List.isChain_iff_getElem.1 r1) i hl
    rw [hx, hs] at this
    rw [List.getElem?_eq_getElem hl, ← this]
    rfl
  · have hlast : (MI.mis 3 r).getLast? = some [a, b, c] := by
      rw [List.getLast?_eq_getElem?, show (MI.mis 3 r).length - 1 = i by omega, hget]
    have := r2 _ hlast
    rw [hs] at this
    simp at this

theorem add_tet (a b c x y z : Nat) : MI.add [a, b, c] [(x : Int), (y : Int), (z : Int)] = .ok [a + x, b + y, c + z] := by
  unfold MI.add MI.mk?
  rw [if_neg (by simp; omega)]
  simp
  omega

theorem tetCell_eq (r a b c : Nat) : tetCell (r + 1) [a, b, c] = .ok ((tetCells r ![a, b, c]).map (fun P => P.map (tetIdx r))) := by
  have hr : ((r + 1 : ℕ) : Int) - 1 = (r : Int) := by push_cast; ring
  have hnorm : MI.norm [a, b, c] = a + b + c := by simp [MI.norm, Nat.add_assoc]
  have a1 : MI.add [a, b, c] [0, 1, 0] = .ok [a, b + 1, c] := add_tet a b c 0 1 0
  have a2 : MI.add [a, b, c] [0, 0, 1] = .ok [a, b, c + 1] := add_tet a b c 0 0 1
  have a3 : MI.add [a, b, c] [0, 1, 1] = .ok [a, b + 1, c + 1] := add_tet a b c 0 1 1
  have e : tetCells r ![a, b, c] = if a + b + c + 2 < r then sixTets ![a, b, c] else if a + b + c + 2 = r then fiveTets ![a, b, c]
            else if a + b + c + 1 = r then [tet1 ![a, b, c]] else [] := rfl
  rw [e]
  unfold tetCell
  rw [hnorm]
  by_cases h1 : a + b + c + 2 < r
  · rw [if_pos (by omega), if_neg (by omega), if_neg (by omega), if_pos h1]
    simp only [tetBox, hr, a1, a2, a3, Py.bind_ok, getIndex_tet r a b c (by omega), getIndex_tet r a (b + 1) c (by omega),
      getIndex_tet r a b (c + 1) (by omega), getIndex_tet r a (b + 1) (c + 1) (by omega), Py.pure_eq]
    simp [box, sixTets, tet1, tet2, tet3, tet4, tet5, tet6, tetIdx_succ r a b c (by omega), tetIdx_succ r a (b + 1) c (by omega),
      tetIdx_succ r a b (c + 1) (by omega), tetIdx_succ r a (b + 1) (c + 1) (by omega)]
  · rw [if_neg (by omega), if_neg h1]
    by_cases h2 : a + b + c + 2 = r
    · rw [if_pos (by omega), if_neg (by omega), if_pos h2]
      simp only [tetCut, hr, a1, a2, a3, Py.bind_ok, getIndex_tet r a b c (by omega), getIndex_tet r a (b + 1) c (by omega),
        getIndex_tet r a b (c + 1) (by omega), getIndex_tet r a (b + 1) (c + 1) (by omega), Py.pure_eq]
      simp [prism, cutPrism, fiveTets, tet1, tet2, tet3, tet4, tet5, tetIdx_succ r a b c (by omega), tetIdx_succ r a (b + 1) c (by omega),
        tetIdx_succ r a b (c + 1) (by omega)]
    · rw [if_neg (by omega), if_neg h2]
      by_cases h3 : a + b + c + 1 = r
      · rw [if_pos (by omega), if_pos h3]
        simp only [tetCorner, hr, a1, a2, Py.bind_ok, getIndex_tet r a b c (by omega), getIndex_tet r a (b + 1) c (by omega),
          getIndex_tet r a b (c + 1) (by omega), Py.pure_eq]
        simp [tet1, tetIdx_succ r a b c (by omega)]
      · rw [if_neg (by omega), if_neg h3]
        rfl

/-- The rows written by `tetrahedron_triangulation`. -/
def tetRows (r : Nat) : List (List Nat) := ((tetCubes r).flatMap (tetCells r)).map (fun P => P.map (tetIdx r))

theorem tet_rows (r : Nat) :
    (MI.generateAll 3 r).mapM (tetCell (r + 1)) =
      .ok ((MI.generateAll 3 r).map fun mi => (tetCells r ![mi.getD 0 0, mi.getD 1 0, mi.getD 2 0]).map (fun P => P.map (tetIdx r))) := by
  refine mapM_eq_ok _ _ (fun mi hmi => ?_)
  rw [MI.generateAll_eq_mis] at hmi
  have h1 := (MI.mem_mis.1 hmi).1
  match mi, h1 with
  | [a, b, c], _ => exact tetCell_eq r a b c

theorem tetRows_length (r : Nat) : (tetRows r).length = r ^ 3 := by
  unfold tetRows
  rw [List.length_map, List.length_flatMap]
  unfold tetCubes
  rw [MI.generateAll_eq_mis, List.map_map]
  have h1 : ∀ L : List (List Nat), (∀ mi ∈ L, mi.length = 3) →
      (L.map ((fun p => (tetCells r p).length) ∘ fun mi => ![mi.getD 0 0, mi.getD 1 0, mi.getD 2 0])).sum =
      L.countP (fun mi => mi.sum + 1 ≤ r) + 4 * L.countP (fun mi => mi.sum + 2 ≤ r) + L.countP (fun mi => mi.sum + 3 ≤ r) := by
    intro L hL
    induction L with
    | nil => simp
    | cons mi L ih =>
      rw [List.map_cons, List.sum_cons, ih (fun x hx => hL x (List.mem_cons_of_mem _ hx)), List.countP_cons, List.countP_cons, List.countP_cons]
      match mi, hL mi List.mem_cons_self with
      | [a, b, c], _ =>
        have e : [a, b, c].sum = a + b + c := by simp [Nat.add_assoc]
        have e' : ((fun p => (tetCells r p).length) ∘ fun mi : List Nat => ![mi.getD 0 0, mi.getD 1 0, mi.getD 2 0]) [a, b, c] =
          (if a + b + c + 2 < r then sixTets ![a, b, c] else if a + b + c + 2 = r then fiveTets ![a, b, c]
            else if a + b + c + 1 = r then [tet1 ![a, b, c]] else []).length := rfl
        rw [e']
        have d1 : ∀ k, (if decide ([a, b, c].sum + k ≤ r) = true then 1 else 0) = if a + b + c + k ≤ r then 1 else 0 := by
          intro k
          rw [e]
          simp only [decide_eq_true_eq]
        rw [d1 1, d1 2, d1 3]
        by_cases h1 : a + b + c + 2 < r
        · rw [if_pos h1, if_pos (by omega), if_pos (by omega), if_pos (by omega)]
          simp only [sixTets, List.length_cons, List.length_nil]; omega
        · rw [if_neg h1]
          by_cases h2 : a + b + c + 2 = r
          · rw [if_pos h2, if_pos (by omega), if_pos (by omega), if_neg (by omega)]
            simp only [fiveTets, List.length_cons, List.length_nil]; omega
          · rw [if_neg h2]
            by_cases h3 : a + b + c + 1 = r
            · rw [if_pos h3, if_pos (by omega), if_neg (by omega), if_neg (by omega)]
              simp only [List.length_cons, List.length_nil]; omega
            · rw [if_neg h3, if_neg (by omega), if_neg (by omega), if_neg (by omega)]
              simp
  rw [h1 _ (fun mi h => (MI.mem_mis.1 h).1)]
  match r with
  | 0 => decide
  | 1 => decide
  | 2 => decide
  | r + 3 =>
    rw [countP_mis 3 (r + 3) 1 (by omega), countP_mis 3 (r + 3) 2 (by omega), countP_mis 3 (r + 3) 3 (by omega)]
    have e1 : (3 + (r + 3 - 1)).choose (r + 3 - 1) = (r + 5).choose 3 := by
      rw [show r + 3 - 1 = r + 2 by omega, show 3 + (r + 2) = (r + 2) + 3 by omega, Nat.choose_symm_add]
    have e2 : (3 + (r + 3 - 2)).choose (r + 3 - 2) = (r + 4).choose 3 := by
      rw [show r + 3 - 2 = r + 1 by omega, show 3 + (r + 1) = (r + 1) + 3 by omega, Nat.choose_symm_add]
    have e3 : (3 + (r + 3 - 3)).choose (r + 3 - 3) = (r + 3).choose 3 := by
      rw [show r + 3 - 3 = r by omega, show 3 + r = r + 3 by omega, Nat.choose_symm_add]
    rw [e1, e2, e3]
    have k : ∀ n, 6 * (n + 3).choose 3 = (n + 3) * (n + 2) * (n + 1) := by
      intro n
      have := Nat.descFactorial_eq_factorial_mul_choose (n + 3) 3
      simp [Nat.descFactorial, Nat.factorial] at this
      rw [← this]
      ring
    have k1 := k (r + 2)
    have k2 := k (r + 1)
    have k3 := k r
    have k4 : (r + 2 + 3) * (r + 2 + 2) * (r + 2 + 1) + 4 * ((r + 1 + 3) * (r + 1 + 2) * (r + 1 + 1)) + (r + 3) * (r + 2) * (r + 1) = 6 * (r + 3) ^ 3 := by
      ring
    have e4 : (r + 2 + 3).choose 3 = (r + 5).choose 3 := rfl
    have e5 : (r + 1 + 3).choose 3 = (r + 4).choose 3 := rfl
    omega

/-- The vertices are the multi-indices divided by the number of intervals. -/
theorem tetrahedronVertexRows_eq (r : Nat) :
    tetrahedronVertexRows K (r + 1) = (MI.mis 3 r).map fun mi => [(mi.getD 0 0 : K) * (1 / r), (mi.getD 1 0 : K) * (1 / r), (mi.getD 2 0 : K) * (1 / r)] := by
  have e : MI.mis 3 r = (List.range (r + 1)).flatMap fun w => (List.range (r + 1 - w)).flatMap fun v =>
      (List.range (r + 1 - v - w)).map fun u => [u, v, w] := by
    have e1 : MI.mis 1 r = (List.range (r + 1)).map fun w => [w] := by simp [MI.mis]
    show ((MI.mis 1 r).flatMap fun t => (List.range (r - t.sum + 1)).map (· :: t)).flatMap (fun t => (List.range (r - t.sum + 1)).map (· :: t)) = _
    rw [e1, List.flatMap_map, List.flatMap_assoc]
    refine List.flatMap_congr (fun w hw => ?_)
    rw [List.mem_range] at hw
    rw [List.flatMap_map, show r - [w].sum + 1 = r + 1 - w by simp; omega]
    refine List.flatMap_congr (fun v hv => ?_)
    rw [List.mem_range] at hv
    rw [show r - [v, w].sum + 1 = r + 1 - v - w by simp; omega]
  rw [e]
  unfold tetrahedronVertexRows
  rw [List.map_flatMap]
  refine List.flatMap_congr (fun w _ => ?_)
  rw [List.map_flatMap]
  refine List.flatMap_congr (fun v _ => ?_)
  rw [List.map_map]
  refine List.map_congr_left (fun u _ => ?_)
  simp [div_eq_mul_inv]

theorem tetrahedronVertexRows_length (r : Nat) : (tetrahedronVertexRows K (r + 1)).length = (r + 1 + 2) * (r + 1 + 1) * (r + 1) / 6 := by
  rw [tetrahedronVertexRows_eq, List.length_map, MI.count_mis, Nat.add_comm 3 r, Nat.choose_symm_add]
  have := Nat.descFactorial_eq_factorial_mul_choose (r + 3) 3
  simp [Nat.descFactorial, Nat.factorial] at this
  have e : (r + 1 + 2) * (r + 1 + 1) * (r + 1) = 6 * (r + 3).choose 3 := by
    rw [← this]
    ring
  omega

/-- The mesh of the unit tetrahedron. -/
theorem tet_mesh (r : Nat) (hr : 1 ≤ r) :
    WellFormed ((r + 1 + 2) * (r + 1 + 1) * (r + 1) / 6) 4 (tetRows r) ∧
    Tiles (tetrahedronVertexRows K (r + 1)) (tetRows r) {x | ∃ X Y Z : K, x = [X, Y, Z] ∧ 0 ≤ X ∧ 0 ≤ Y ∧ 0 ≤ Z ∧ X + Y + Z ≤ 1} ∧
    AllVolume6 (tetrahedronVertexRows K (r + 1)) (tetRows r) (1 / (r : K) ^ 3) := by
  have pr : (0 : K) < r := by exact_mod_cast hr
  have hm := mesh3 ((tetCubes r).flatMap (tetCells r)) _
    (fun P hP => by obtain ⟨p, -, hp⟩ := List.mem_flatMap.1 hP; exact ⟨p, (tetCells_sublist r p).subset hp⟩)
    (tet_tiles (K := K) r hr) (1 / r) (1 / r) (1 / r) (div_pos one_pos pr) (div_pos one_pos pr) (div_pos one_pos pr)
    (tetrahedronVertexRows K (r + 1)) (tetIdx r) (by
      intro P hP q hq
      obtain ⟨p, hp, hP⟩ := List.mem_flatMap.1 hP
      have hb : q 0 + q 1 + q 2 ≤ r := by
        unfold tetCells at hP
        by_cases h1 : p 0 + p 1 + p 2 + 2 < r
        · rw [if_pos h1] at hP
          simp only [sixTets, List.mem_cons, List.not_mem_nil, or_false] at hP
          rcases hP with rfl | rfl | rfl | rfl | rfl | rfl <;>
            simp only [tet1, tet2, tet3, tet4, tet5, tet6, List.mem_cons, List.not_mem_nil, or_false] at hq <;>
            rcases hq with rfl | rfl | rfl | rfl <;> simp <;> omega
        · rw [if_neg h1] at hP
          by_cases h2 : p 0 + p 1 + p 2 + 2 = r
          · rw [if_pos h2] at hP
            simp only [fiveTets, List.mem_cons, List.not_mem_nil, or_false] at hP
            rcases hP with rfl | rfl | rfl | rfl | rfl <;>
              simp only [tet1, tet2, tet3, tet4, tet5, List.mem_cons, List.not_mem_nil, or_false] at hq <;>
              rcases hq with rfl | rfl | rfl | rfl <;> simp <;> omega
          · rw [if_neg h2] at hP
            by_cases h3 : p 0 + p 1 + p 2 + 1 = r
            · rw [if_pos h3, List.mem_singleton] at hP
              subst hP
              simp only [tet1, List.mem_cons, List.not_mem_nil, or_false] at hq
              rcases hq with rfl | rfl | rfl | rfl <;> simp <;> omega
            · rw [if_neg h3] at hP
              simp at hP
      have hmem : [q 0, q 1, q 2] ∈ MI.mis 3 r := MI.mem_mis.2 ⟨rfl, by simp; omega⟩
      rw [tetrahedronVertexRows_eq, List.getElem?_map, tetIdx, List.getElem?_idxOf hmem]
      simp)
  rw [tetrahedronVertexRows_length, show ((tetCubes r).flatMap (tetCells r)).map (fun P => P.map (tetIdx r)) = tetRows r from rfl] at hm
  refine ⟨hm.1, ?_, ?_⟩
  · convert hm.2.1 using 1
    ext x
    simp only [Set.mem_ofPred_eq]
    constructor
    · rintro ⟨X, Y, Z, rfl, x0, y0, z0, hs⟩
      refine ⟨![X * r, Y * r, Z * r], ?_, ?_⟩
      · simp only [Matrix.cons_val_zero, Matrix.cons_val_one, Matrix.cons_val_two, Matrix.vecHead, Matrix.vecTail, Function.comp, Fin.succ_zero_eq_one, Matrix.cons_val_one, Matrix.cons_val_zero]
        refine ⟨mul_nonneg x0 pr.le, mul_nonneg y0 pr.le, mul_nonneg z0 pr.le, ?_⟩
        rw [← add_mul, ← add_mul]
        exact mul_le_of_le_one_left pr.le hs
      · simp only [Matrix.cons_val_zero, Matrix.cons_val_one, Matrix.cons_val_two, Matrix.vecHead, Matrix.vecTail, Function.comp, Fin.succ_zero_eq_one, List.cons.injEq, and_true]
        refine ⟨?_, ?_, ?_⟩ <;> field_simp
    · rintro ⟨ξ, ⟨a0, b0, c0, hs⟩, rfl⟩
      refine ⟨_, _, _, rfl, ?_, ?_, ?_, ?_⟩
      · rw [mul_one_div]; exact div_nonneg a0 pr.le
      · rw [mul_one_div]; exact div_nonneg b0 pr.le
      · rw [mul_one_div]; exact div_nonneg c0 pr.le
      · rw [← add_mul, ← add_mul, mul_one_div]
        exact (div_le_one pr).2 hs
  · convert hm.2.2 using 1
    field_simp

theorem tetrahedronTriangulation_eq (r : Nat) (hr : 1 ≤ r) : tetrahedronTriangulation (r + 1) = .ok ((tetRows r).map some) := by
  unfold tetrahedronTriangulation
  rw [decide_eq_true (by omega), pyAssert_true, Py.bind_ok, Nat.add_sub_cancel, tet_rows, Py.bind_ok]
  have e : ((MI.generateAll 3 r).map fun mi => (tetCells r ![mi.getD 0 0, mi.getD 1 0, mi.getD 2 0]).map (fun P => P.map (tetIdx r))).flatten = tetRows r := by
    unfold tetRows tetCubes
    rw [List.flatMap_map, List.map_flatMap]
    rfl
  rw [e, fillRows_exact _ _ (tetRows_length r)]

/-- **C49** `tetrahedron_triangulation`: `(n - 1) ^ 3` tetrahedra, each with four different vertex indices below `(n + 2) (n + 1) n / 6`;
resolutions below 2 are rejected. -/
theorem C49_tetrahedron (n : Nat) :
    (n < 2 → tetrahedronTriangulation n = .error .assertion) ∧
    (2 ≤ n → ∃ T, tetrahedronTriangulation n = .ok (T.map some) ∧ T.length = (n - 1) ^ 3 ∧ WellFormed ((n + 2) * (n + 1) * n / 6) 4 T) := by
  constructor
  · intro h
    unfold tetrahedronTriangulation
    rw [decide_eq_false (by omega)]
    rfl
  · intro h
    obtain ⟨r, rfl⟩ := Nat.exists_eq_add_of_le' (by omega : 1 ≤ n)
    exact ⟨tetRows r, tetrahedronTriangulation_eq r (by omega), tetRows_length r, (tet_mesh (K := ℚ) r (by omega)).1⟩

/-- **C49** `tetrahedron_triangulation` with `tetrahedron_vertices`: `(n + 2) (n + 1) n / 6` vertices, the tetrahedra tile the unit tetrahedron and
are positively oriented with the same volume; resolutions below 2 are rejected. -/
theorem C49_tetrahedron_vertices (n : Nat) :
    (n < 2 → tetrahedronVertices K n = .error .assertion) ∧
    (2 ≤ n → ∃ T V, tetrahedronTriangulation n = .ok (T.map some) ∧ tetrahedronVertices K n = .ok (V.map some) ∧
      V.length = (n + 2) * (n + 1) * n / 6 ∧
      Tiles V T {x | ∃ X Y Z : K, x = [X, Y, Z] ∧ 0 ≤ X ∧ 0 ≤ Y ∧ 0 ≤ Z ∧ X + Y + Z ≤ 1} ∧
      AllVolume6 V T (1 / ((n : K) - 1) ^ 3) ∧ 0 < 1 / ((n : K) - 1) ^ 3) := by
  constructor
  · intro h
    unfold tetrahedronVertices
    rw [decide_eq_false (by omega)]
    rfl
  · intro h
    obtain ⟨r, rfl⟩ := Nat.exists_eq_add_of_le' (by omega : 1 ≤ n)
    obtain ⟨-, h2, h3⟩ := tet_mesh (K := K) r (by omega)
    have pr : (0 : K) < r := by exact_mod_cast (by omega : 0 < r)
    have e : ((r + 1 : ℕ) : K) - 1 = r := by push_cast; ring
    refine ⟨tetRows r, tetrahedronVertexRows K (r + 1), tetrahedronTriangulation_eq r (by omega), ?_, tetrahedronVertexRows_length r, h2, ?_, ?_⟩
    · unfold tetrahedronVertices
      rw [decide_eq_true h, pyAssert_true, Py.bind_ok, fillRows_exact _ _ (tetrahedronVertexRows_length r)]
    · rw [e]; exact h3
    · rw [e]; positivity

/-! Concrete meshes. -/
example : rectangleTriangulation 2 2 = .ok [some [0, 1, 2], some [1, 3, 2]] := by rfl
example : tetrahedronTriangulation 2 = .ok [some [0, 1, 2, 3]] := by
  obtain ⟨T, h, -⟩ := (C49_tetrahedron 2).2 (by omega)
  rw [tetrahedronTriangulation_eq 1 (by omega)]
  decide

example : NotCollinear 2 ([0, 0] : List ℚ) [1, 0] [0, 1] := by
  intro s t h
  have h0 := h 0 (by omega)
  have h1 := h 1 (by omega)
  simp at h0 h1
  exact ⟨h0, h1⟩

end Verif.Mesh
