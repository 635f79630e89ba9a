import Verif.Lemmas.BasicMeshes
/-!
# Tetrahedral lattice meshes
-/

namespace Verif.Mesh
open Verif Verif.Spec

variable {K : Type} [Field K] [LinearOrder K] [IsStrictOrderedRing K]

/-- The tetrahedron number 1 of a unit cube. -/
def tet1 (p : Fin 3 → ℕ) : List (Fin 3 → ℕ) := [![p 0, p 1, p 2], ![p 0 + 1, p 1, p 2], ![p 0, p 1 + 1, p 2], ![p 0, p 1, p 2 + 1]]

omit [LinearOrder K] [IsStrictOrderedRing K] in
theorem bary_tet1 (p : Fin 3 → ℕ) :
    IsBary (tet1 p) (fun ξ : Fin 3 → K => [1 - (ξ 0 - p 0) - (ξ 1 - p 1) - (ξ 2 - p 2), (ξ 0 - p 0), (ξ 1 - p 1), (ξ 2 - p 2)]) := by
  constructor
  · rintro w ξ h2 ⟨h3, h4⟩
    match w, h3 with
    | [a, b, c, d], _ =>
      have e0 := h4 0
      have e1 := h4 1
      have e2 := h4 2
      simp [tet1, wsum] at h2 e0 e1 e2
      have ha : a = 1 - (ξ 0 - p 0) - (ξ 1 - p 1) - (ξ 2 - p 2) := by linear_combination (1) * h2 + (-1) * (e0 - (p 0 : K) * h2) + (-1) * (e1 - (p 1 : K) * h2) + (-1) * (e2 - (p 2 : K) * h2)
      have hb : b = (ξ 0 - p 0) := by linear_combination (1) * (e0 - (p 0 : K) * h2)
      have hc : c = (ξ 1 - p 1) := by linear_combination (1) * (e1 - (p 1 : K) * h2)
      have hd : d = (ξ 2 - p 2) := by linear_combination (1) * (e2 - (p 2 : K) * h2)
      simp only [ha, hb, hc, hd]
  · intro ξ
    refine ⟨by simp only [List.sum_cons, List.sum_nil]; ring, rfl, ?_⟩
    intro k
    match k with
    | 0 => simp [tet1, wsum]; ring
    | 1 => simp [tet1, wsum]; ring
    | 2 => simp [tet1, wsum]; ring

theorem tet1_cube (p : Fin 3 → ℕ) (ξ : Fin 3 → K) (h : LInt (tet1 p) ξ) : OpenCube p ξ := by
  rw [(bary_tet1 p).lint] at h
  simp only [List.forall_mem_cons, List.not_mem_nil, false_imp_iff, implies_true, and_true] at h
  obtain ⟨h1, h2, h3, h4⟩ := h
  intro k
  match k with
  | 0 => constructor <;> linarith
  | 1 => constructor <;> linarith
  | 2 => constructor <;> linarith

/-- The tetrahedron number 2 of a unit cube. -/
def tet2 (p : Fin 3 → ℕ) : List (Fin 3 → ℕ) := [![p 0, p 1, p 2 + 1], ![p 0 + 1, p 1, p 2 + 1], ![p 0 + 1, p 1, p 2], ![p 0, p 1 + 1, p 2]]

omit [LinearOrder K] [IsStrictOrderedRing K] in
theorem bary_tet2 (p : Fin 3 → ℕ) :
    IsBary (tet2 p) (fun ξ : Fin 3 → K => [1 - (ξ 0 - p 0) - (ξ 1 - p 1), (ξ 0 - p 0) + (ξ 1 - p 1) + (ξ 2 - p 2) - 1, 1 - (ξ 1 - p 1) - (ξ 2 - p 2), (ξ 1 - p 1)]) := by
  constructor
  · rintro w ξ h2 ⟨h3, h4⟩
    match w, h3 with
    | [a, b, c, d], _ =>
      have e0 := h4 0
      have e1 := h4 1
      have e2 := h4 2
      simp [tet2, wsum] at h2 e0 e1 e2
      have ha : a = 1 - (ξ 0 - p 0) - (ξ 1 - p 1) := by linear_combination (1) * h2 + (-1) * (e0 - (p 0 : K) * h2) + (-1) * (e1 - (p 1 : K) * h2)
      have hb : b = (ξ 0 - p 0) + (ξ 1 - p 1) + (ξ 2 - p 2) - 1 := by linear_combination (-1) * h2 + (1) * (e0 - (p 0 : K) * h2) + (1) * (e1 - (p 1 : K) * h2) + (1) * (e2 - (p 2 : K) * h2)
      have hc : c = 1 - (ξ 1 - p 1) - (ξ 2 - p 2) := by linear_combination (1) * h2 + (-1) * (e1 - (p 1 : K) * h2) + (-1) * (e2 - (p 2 : K) * h2)
      have hd : d = (ξ 1 - p 1) := by linear_combination (1) * (e1 - (p 1 : K) * h2)
      simp only [ha, hb, hc, hd]
  · intro ξ
    refine ⟨by simp only [List.sum_cons, List.sum_nil]; ring, rfl, ?_⟩
    intro k
    match k with
    | 0 => simp [tet2, wsum]; ring
    | 1 => simp [tet2, wsum]; ring
    | 2 => simp [tet2, wsum]; ring

theorem tet2_cube (p : Fin 3 → ℕ) (ξ : Fin 3 → K) (h : LInt (tet2 p) ξ) : OpenCube p ξ := by
  rw [(bary_tet2 p).lint] at h
  simp only [List.forall_mem_cons, List.not_mem_nil, false_imp_iff, implies_true, and_true] at h
  obtain ⟨h1, h2, h3, h4⟩ := h
  intro k
  match k with
  | 0 => constructor <;> linarith
  | 1 => constructor <;> linarith
  | 2 => constructor <;> linarith

/-- The tetrahedron number 3 of a unit cube. -/
def tet3 (p : Fin 3 → ℕ) : List (Fin 3 → ℕ) := [![p 0, p 1, p 2 + 1], ![p 0 + 1, p 1, p 2 + 1], ![p 0, p 1 + 1, p 2], ![p 0, p 1 + 1, p 2 + 1]]

omit [LinearOrder K] [IsStrictOrderedRing K] in
theorem bary_tet3 (p : Fin 3 → ℕ) :
    IsBary (tet3 p) (fun ξ : Fin 3 → K => [1 - (ξ 0 - p 0) - (ξ 1 - p 1), (ξ 0 - p 0), 1 - (ξ 2 - p 2), (ξ 1 - p 1) + (ξ 2 - p 2) - 1]) := by
  constructor
  · rintro w ξ h2 ⟨h3, h4⟩
    match w, h3 with
    | [a, b, c, d], _ =>
      have e0 := h4 0
      have e1 := h4 1
      have e2 := h4 2
      simp [tet3, wsum] at h2 e0 e1 e2
      have ha : a = 1 - (ξ 0 - p 0) - (ξ 1 - p 1) := by linear_combination (1) * h2 + (-1) * (e0 - (p 0 : K) * h2) + (-1) * (e1 - (p 1 : K) * h2)
      have hb : b = (ξ 0 - p 0) := by linear_combination (1) * (e0 - (p 0 : K) * h2)
      have hc : c = 1 - (ξ 2 - p 2) := by linear_combination (1) * h2 + (-1) * (e2 - (p 2 : K) * h2)
      have hd : d = (ξ 1 - p 1) + (ξ 2 - p 2) - 1 := by linear_combination (-1) * h2 + (1) * (e1 - (p 1 : K) * h2) + (1) * (e2 - (p 2 : K) * h2)
      simp only [ha, hb, hc, hd]
  · intro ξ
    refine ⟨by simp only [List.sum_cons, List.sum_nil]; ring, rfl, ?_⟩
    intro k
    match k with
    | 0 => simp [tet3, wsum]; ring
    | 1 => simp [tet3, wsum]; ring
    | 2 => simp [tet3, wsum]; ring

theorem tet3_cube (p : Fin 3 → ℕ) (ξ : Fin 3 → K) (h : LInt (tet3 p) ξ) : OpenCube p ξ := by
  rw [(bary_tet3 p).lint] at h
  simp only [List.forall_mem_cons, List.not_mem_nil, false_imp_iff, implies_true, and_true] at h
  obtain ⟨h1, h2, h3, h4⟩ := h
  intro k
  match k with
  | 0 => constructor <;> linarith
  | 1 => constructor <;> linarith
  | 2 => constructor <;> linarith

/-- The tetrahedron number 4 of a unit cube. -/
def tet4 (p : Fin 3 → ℕ) : List (Fin 3 → ℕ) := [![p 0 + 1, p 1, p 2], ![p 0 + 1, p 1 + 1, p 2], ![p 0, p 1 + 1, p 2], ![p 0 + 1, p 1, p 2 + 1]]

omit [LinearOrder K] [IsStrictOrderedRing K] in
theorem bary_tet4 (p : Fin 3 → ℕ) :
    IsBary (tet4 p) (fun ξ : Fin 3 → K => [1 - (ξ 1 - p 1) - (ξ 2 - p 2), (ξ 0 - p 0) + (ξ 1 - p 1) - 1, 1 - (ξ 0 - p 0), (ξ 2 - p 2)]) := by
  constructor
  · rintro w ξ h2 ⟨h3, h4⟩
    match w, h3 with
    | [a, b, c, d], _ =>
      have e0 := h4 0
      have e1 := h4 1
      have e2 := h4 2
      simp [tet4, wsum] at h2 e0 e1 e2
      have ha : a = 1 - (ξ 1 - p 1) - (ξ 2 - p 2) := by linear_combination (1) * h2 + (-1) * (e1 - (p 1 : K) * h2) + (-1) * (e2 - (p 2 : K) * h2)
      have hb : b = (ξ 0 - p 0) + (ξ 1 - p 1) - 1 := by linear_combination (-1) * h2 + (1) * (e0 - (p 0 : K) * h2) + (1) * (e1 - (p 1 : K) * h2)
      have hc : c = 1 - (ξ 0 - p 0) := by linear_combination (1) * h2 + (-1) * (e0 - (p 0 : K) * h2)
      have hd : d = (ξ 2 - p 2) := by linear_combination (1) * (e2 - (p 2 : K) * h2)
      simp only [ha, hb, hc, hd]
  · intro ξ
    refine ⟨by simp only [List.sum_cons, List.sum_nil]; ring, rfl, ?_⟩
    intro k
    match k with
    | 0 => simp [tet4, wsum]; ring
    | 1 => simp [tet4, wsum]; ring
    | 2 => simp [tet4, wsum]; ring

theorem tet4_cube (p : Fin 3 → ℕ) (ξ : Fin 3 → K) (h : LInt (tet4 p) ξ) : OpenCube p ξ := by
  rw [(bary_tet4 p).lint] at h
  simp only [List.forall_mem_cons, List.not_mem_nil, false_imp_iff, implies_true, and_true] at h
  obtain ⟨h1, h2, h3, h4⟩ := h
  intro k
  match k with
  | 0 => constructor <;> linarith
  | 1 => constructor <;> linarith
  | 2 => constructor <;> linarith

/-- The tetrahedron number 5 of a unit cube. -/
def tet5 (p : Fin 3 → ℕ) : List (Fin 3 → ℕ) := [![p 0 + 1, p 1, p 2 + 1], ![p 0 + 1, p 1 + 1, p 2], ![p 0, p 1 + 1, p 2], ![p 0, p 1 + 1, p 2 + 1]]

omit [LinearOrder K] [IsStrictOrderedRing K] in
theorem bary_tet5 (p : Fin 3 → ℕ) :
    IsBary (tet5 p) (fun ξ : Fin 3 → K => [1 - (ξ 1 - p 1), (ξ 0 - p 0) + (ξ 1 - p 1) - 1, 2 - (ξ 0 - p 0) - (ξ 1 - p 1) - (ξ 2 - p 2), (ξ 1 - p 1) + (ξ 2 - p 2) - 1]) := by
  constructor
  · rintro w ξ h2 ⟨h3, h4⟩
    match w, h3 with
    | [a, b, c, d], _ =>
      have e0 := h4 0
      have e1 := h4 1
      have e2 := h4 2
      simp [tet5, wsum] at h2 e0 e1 e2
      have ha : a = 1 - (ξ 1 - p 1) := by linear_combination (1) * h2 + (-1) * (e1 - (p 1 : K) * h2)
      have hb : b = (ξ 0 - p 0) + (ξ 1 - p 1) - 1 := by linear_combination (-1) * h2 + (1) * (e0 - (p 0 : K) * h2) + (1) * (e1 - (p 1 : K) * h2)
      have hc : c = 2 - (ξ 0 - p 0) - (ξ 1 - p 1) - (ξ 2 - p 2) := by linear_combination (2) * h2 + (-1) * (e0 - (p 0 : K) * h2) + (-1) * (e1 - (p 1 : K) * h2) + (-1) * (e2 - (p 2 : K) * h2)
      have hd : d = (ξ 1 - p 1) + (ξ 2 - p 2) - 1 := by linear_combination (-1) * h2 + (1) * (e1 - (p 1 : K) * h2) + (1) * (e2 - (p 2 : K) * h2)
      simp only [ha, hb, hc, hd]
  · intro ξ
    refine ⟨by simp only [List.sum_cons, List.sum_nil]; ring, rfl, ?_⟩
    intro k
    match k with
    | 0 => simp [tet5, wsum]; ring
    | 1 => simp [tet5, wsum]; ring
    | 2 => simp [tet5, wsum]; ring

theorem tet5_cube (p : Fin 3 → ℕ) (ξ : Fin 3 → K) (h : LInt (tet5 p) ξ) : OpenCube p ξ := by
  rw [(bary_tet5 p).lint] at h
  simp only [List.forall_mem_cons, List.not_mem_nil, false_imp_iff, implies_true, and_true] at h
  obtain ⟨h1, h2, h3, h4⟩ := h
  intro k
  match k with
  | 0 => constructor <;> linarith
  | 1 => constructor <;> linarith
  | 2 => constructor <;> linarith

/-- The tetrahedron number 6 of a unit cube. -/
def tet6 (p : Fin 3 → ℕ) : List (Fin 3 → ℕ) := [![p 0 + 1, p 1, p 2 + 1], ![p 0 + 1, p 1 + 1, p 2 + 1], ![p 0 + 1, p 1 + 1, p 2], ![p 0, p 1 + 1, p 2 + 1]]

omit [LinearOrder K] [IsStrictOrderedRing K] in
theorem bary_tet6 (p : Fin 3 → ℕ) :
    IsBary (tet6 p) (fun ξ : Fin 3 → K => [1 - (ξ 1 - p 1), (ξ 0 - p 0) + (ξ 1 - p 1) + (ξ 2 - p 2) - 2, 1 - (ξ 2 - p 2), 1 - (ξ 0 - p 0)]) := by
  constructor
  · rintro w ξ h2 ⟨h3, h4⟩
    match w, h3 with
    | [a, b, c, d], _ =>
      have e0 := h4 0
      have e1 := h4 1
      have e2 := h4 2
      simp [tet6, wsum] at h2 e0 e1 e2
      have ha : a = 1 - (ξ 1 - p 1) := by linear_combination (1) * h2 + (-1) * (e1 - (p 1 : K) * h2)
      have hb : b = (ξ 0 - p 0) + (ξ 1 - p 1) + (ξ 2 - p 2) - 2 := by linear_combination (-2) * h2 + (1) * (e0 - (p 0 : K) * h2) + (1) * (e1 - (p 1 : K) * h2) + (1) * (e2 - (p 2 : K) * h2)
      have hc : c = 1 - (ξ 2 - p 2) := by linear_combination (1) * h2 + (-1) * (e2 - (p 2 : K) * h2)
      have hd : d = 1 - (ξ 0 - p 0) := by linear_combination (1) * h2 + (-1) * (e0 - (p 0 : K) * h2)
      simp only [ha, hb, hc, hd]
  · intro ξ
    refine ⟨by simp only [List.sum_cons, List.sum_nil]; ring, rfl, ?_⟩
    intro k
    match k with
    | 0 => simp [tet6, wsum]; ring
    | 1 => simp [tet6, wsum]; ring
    | 2 => simp [tet6, wsum]; ring

theorem tet6_cube (p : Fin 3 → ℕ) (ξ : Fin 3 → K) (h : LInt (tet6 p) ξ) : OpenCube p ξ := by
  rw [(bary_tet6 p).lint] at h
  simp only [List.forall_mem_cons, List.not_mem_nil, false_imp_iff, implies_true, and_true] at h
  obtain ⟨h1, h2, h3, h4⟩ := h
  intro k
  match k with
  | 0 => constructor <;> linarith
  | 1 => constructor <;> linarith
  | 2 => constructor <;> linarith

theorem tet1_tet2 (p : Fin 3 → ℕ) : ¬∃ ξ : Fin 3 → K, LInt (tet1 p) ξ ∧ LInt (tet2 p) ξ := by
  rintro ⟨ξ, h1, h2⟩
  rw [(bary_tet1 p).lint] at h1
  rw [(bary_tet2 p).lint] at h2
  simp only [List.forall_mem_cons, List.not_mem_nil, false_imp_iff, implies_true, and_true] at h1 h2
  obtain ⟨a1, a2, a3, a4⟩ := h1
  obtain ⟨b1, b2, b3, b4⟩ := h2
  linarith

theorem tet1_tet3 (p : Fin 3 → ℕ) : ¬∃ ξ : Fin 3 → K, LInt (tet1 p) ξ ∧ LInt (tet3 p) ξ := by
  rintro ⟨ξ, h1, h2⟩
  rw [(bary_tet1 p).lint] at h1
  rw [(bary_tet3 p).lint] at h2
  simp only [List.forall_mem_cons, List.not_mem_nil, false_imp_iff, implies_true, and_true] at h1 h2
  obtain ⟨a1, a2, a3, a4⟩ := h1
  obtain ⟨b1, b2, b3, b4⟩ := h2
  linarith

theorem tet1_tet4 (p : Fin 3 → ℕ) : ¬∃ ξ : Fin 3 → K, LInt (tet1 p) ξ ∧ LInt (tet4 p) ξ := by
  rintro ⟨ξ, h1, h2⟩
  rw [(bary_tet1 p).lint] at h1
  rw [(bary_tet4 p).lint] at h2
  simp only [List.forall_mem_cons, List.not_mem_nil, false_imp_iff, implies_true, and_true] at h1 h2
  obtain ⟨a1, a2, a3, a4⟩ := h1
  obtain ⟨b1, b2, b3, b4⟩ := h2
  linarith

theorem tet1_tet5 (p : Fin 3 → ℕ) : ¬∃ ξ : Fin 3 → K, LInt (tet1 p) ξ ∧ LInt (tet5 p) ξ := by
  rintro ⟨ξ, h1, h2⟩
  rw [(bary_tet1 p).lint] at h1
  rw [(bary_tet5 p).lint] at h2
  simp only [List.forall_mem_cons, List.not_mem_nil, false_imp_iff, implies_true, and_true] at h1 h2
  obtain ⟨a1, a2, a3, a4⟩ := h1
  obtain ⟨b1, b2, b3, b4⟩ := h2
  linarith

theorem tet1_tet6 (p : Fin 3 → ℕ) : ¬∃ ξ : Fin 3 → K, LInt (tet1 p) ξ ∧ LInt (tet6 p) ξ := by
  rintro ⟨ξ, h1, h2⟩
  rw [(bary_tet1 p).lint] at h1
  rw [(bary_tet6 p).lint] at h2
  simp only [List.forall_mem_cons, List.not_mem_nil, false_imp_iff, implies_true, and_true] at h1 h2
  obtain ⟨a1, a2, a3, a4⟩ := h1
  obtain ⟨b1, b2, b3, b4⟩ := h2
  linarith

theorem tet2_tet3 (p : Fin 3 → ℕ) : ¬∃ ξ : Fin 3 → K, LInt (tet2 p) ξ ∧ LInt (tet3 p) ξ := by
  rintro ⟨ξ, h1, h2⟩
  rw [(bary_tet2 p).lint] at h1
  rw [(bary_tet3 p).lint] at h2
  simp only [List.forall_mem_cons, List.not_mem_nil, false_imp_iff, implies_true, and_true] at h1 h2
  obtain ⟨a1, a2, a3, a4⟩ := h1
  obtain ⟨b1, b2, b3, b4⟩ := h2
  linarith

theorem tet2_tet4 (p : Fin 3 → ℕ) : ¬∃ ξ : Fin 3 → K, LInt (tet2 p) ξ ∧ LInt (tet4 p) ξ := by
  rintro ⟨ξ, h1, h2⟩
  rw [(bary_tet2 p).lint] at h1
  rw [(bary_tet4 p).lint] at h2
  simp only [List.forall_mem_cons, List.not_mem_nil, false_imp_iff, implies_true, and_true] at h1 h2
  obtain ⟨a1, a2, a3, a4⟩ := h1
  obtain ⟨b1, b2, b3, b4⟩ := h2
  linarith

theorem tet2_tet5 (p : Fin 3 → ℕ) : ¬∃ ξ : Fin 3 → K, LInt (tet2 p) ξ ∧ LInt (tet5 p) ξ := by
  rintro ⟨ξ, h1, h2⟩
  rw [(bary_tet2 p).lint] at h1
  rw [(bary_tet5 p).lint] at h2
  simp only [List.forall_mem_cons, List.not_mem_nil, false_imp_iff, implies_true, and_true] at h1 h2
  obtain ⟨a1, a2, a3, a4⟩ := h1
  obtain ⟨b1, b2, b3, b4⟩ := h2
  linarith

theorem tet2_tet6 (p : Fin 3 → ℕ) : ¬∃ ξ : Fin 3 → K, LInt (tet2 p) ξ ∧ LInt (tet6 p) ξ := by
  rintro ⟨ξ, h1, h2⟩
  rw [(bary_tet2 p).lint] at h1
  rw [(bary_tet6 p).lint] at h2
  simp only [List.forall_mem_cons, List.not_mem_nil, false_imp_iff, implies_true, and_true] at h1 h2
  obtain ⟨a1, a2, a3, a4⟩ := h1
  obtain ⟨b1, b2, b3, b4⟩ := h2
  linarith

theorem tet3_tet4 (p : Fin 3 → ℕ) : ¬∃ ξ : Fin 3 → K, LInt (tet3 p) ξ ∧ LInt (tet4 p) ξ := by
  rintro ⟨ξ, h1, h2⟩
  rw [(bary_tet3 p).lint] at h1
  rw [(bary_tet4 p).lint] at h2
  simp only [List.forall_mem_cons, List.not_mem_nil, false_imp_iff, implies_true, and_true] at h1 h2
  obtain ⟨a1, a2, a3, a4⟩ := h1
  obtain ⟨b1, b2, b3, b4⟩ := h2
  linarith

theorem tet3_tet5 (p : Fin 3 → ℕ) : ¬∃ ξ : Fin 3 → K, LInt (tet3 p) ξ ∧ LInt (tet5 p) ξ := by
  rintro ⟨ξ, h1, h2⟩
  rw [(bary_tet3 p).lint] at h1
  rw [(bary_tet5 p).lint] at h2
  simp only [List.forall_mem_cons, List.not_mem_nil, false_imp_iff, implies_true, and_true] at h1 h2
  obtain ⟨a1, a2, a3, a4⟩ := h1
  obtain ⟨b1, b2, b3, b4⟩ := h2
  linarith

theorem tet3_tet6 (p : Fin 3 → ℕ) : ¬∃ ξ : Fin 3 → K, LInt (tet3 p) ξ ∧ LInt (tet6 p) ξ := by
  rintro ⟨ξ, h1, h2⟩
  rw [(bary_tet3 p).lint] at h1
  rw [(bary_tet6 p).lint] at h2
  simp only [List.forall_mem_cons, List.not_mem_nil, false_imp_iff, implies_true, and_true] at h1 h2
  obtain ⟨a1, a2, a3, a4⟩ := h1
  obtain ⟨b1, b2, b3, b4⟩ := h2
  linarith

theorem tet4_tet5 (p : Fin 3 → ℕ) : ¬∃ ξ : Fin 3 → K, LInt (tet4 p) ξ ∧ LInt (tet5 p) ξ := by
  rintro ⟨ξ, h1, h2⟩
  rw [(bary_tet4 p).lint] at h1
  rw [(bary_tet5 p).lint] at h2
  simp only [List.forall_mem_cons, List.not_mem_nil, false_imp_iff, implies_true, and_true] at h1 h2
  obtain ⟨a1, a2, a3, a4⟩ := h1
  obtain ⟨b1, b2, b3, b4⟩ := h2
  linarith

theorem tet4_tet6 (p : Fin 3 → ℕ) : ¬∃ ξ : Fin 3 → K, LInt (tet4 p) ξ ∧ LInt (tet6 p) ξ := by
  rintro ⟨ξ, h1, h2⟩
  rw [(bary_tet4 p).lint] at h1
  rw [(bary_tet6 p).lint] at h2
  simp only [List.forall_mem_cons, List.not_mem_nil, false_imp_iff, implies_true, and_true] at h1 h2
  obtain ⟨a1, a2, a3, a4⟩ := h1
  obtain ⟨b1, b2, b3, b4⟩ := h2
  linarith

theorem tet5_tet6 (p : Fin 3 → ℕ) : ¬∃ ξ : Fin 3 → K, LInt (tet5 p) ξ ∧ LInt (tet6 p) ξ := by
  rintro ⟨ξ, h1, h2⟩
  rw [(bary_tet5 p).lint] at h1
  rw [(bary_tet6 p).lint] at h2
  simp only [List.forall_mem_cons, List.not_mem_nil, false_imp_iff, implies_true, and_true] at h1 h2
  obtain ⟨a1, a2, a3, a4⟩ := h1
  obtain ⟨b1, b2, b3, b4⟩ := h2
  linarith

/-- The five tetrahedra of a cube without the last corner. -/
def fiveTets (p : Fin 3 → ℕ) : List (List (Fin 3 → ℕ)) := [tet1 p, tet2 p, tet3 p, tet4 p, tet5 p]

/-- The six tetrahedra of a cube. -/
def sixTets (p : Fin 3 → ℕ) : List (List (Fin 3 → ℕ)) := [tet1 p, tet2 p, tet3 p, tet4 p, tet5 p, tet6 p]

theorem alcove_tet1 (p : Fin 3 → ℕ) : IsAlcove (tet1 p) := by
  intro i j
  fin_cases i <;> fin_cases j <;> simp [level, tet1, Fin.sum_univ_three] <;> omega

theorem alcove_tet2 (p : Fin 3 → ℕ) : IsAlcove (tet2 p) := by
  intro i j
  fin_cases i <;> fin_cases j <;> simp [level, tet2, Fin.sum_univ_three] <;> omega

theorem alcove_tet3 (p : Fin 3 → ℕ) : IsAlcove (tet3 p) := by
  intro i j
  fin_cases i <;> fin_cases j <;> simp [level, tet3, Fin.sum_univ_three] <;> omega

theorem alcove_tet4 (p : Fin 3 → ℕ) : IsAlcove (tet4 p) := by
  intro i j
  fin_cases i <;> fin_cases j <;> simp [level, tet4, Fin.sum_univ_three] <;> omega

theorem alcove_tet5 (p : Fin 3 → ℕ) : IsAlcove (tet5 p) := by
  intro i j
  fin_cases i <;> fin_cases j <;> simp [level, tet5, Fin.sum_univ_three] <;> omega

theorem alcove_tet6 (p : Fin 3 → ℕ) : IsAlcove (tet6 p) := by
  intro i j
  fin_cases i <;> fin_cases j <;> simp [level, tet6, Fin.sum_univ_three] <;> omega

theorem alcove_sixTets (p : Fin 3 → ℕ) : ∀ P ∈ sixTets p, IsAlcove P := by
  intro P hP
  simp only [sixTets, List.mem_cons, List.not_mem_nil, or_false] at hP
  rcases hP with rfl | rfl | rfl | rfl | rfl | rfl
  · exact alcove_tet1 p
  · exact alcove_tet2 p
  · exact alcove_tet3 p
  · exact alcove_tet4 p
  · exact alcove_tet5 p
  · exact alcove_tet6 p

theorem sixTets_cube (p : Fin 3 → ℕ) : ∀ P ∈ sixTets p, ∀ ξ : Fin 3 → K, LInt P ξ → OpenCube p ξ := by
  intro P hP ξ h
  simp only [sixTets, List.mem_cons, List.not_mem_nil, or_false] at hP
  rcases hP with rfl | rfl | rfl | rfl | rfl | rfl
  · exact tet1_cube p ξ h
  · exact tet2_cube p ξ h
  · exact tet3_cube p ξ h
  · exact tet4_cube p ξ h
  · exact tet5_cube p ξ h
  · exact tet6_cube p ξ h

theorem sixTets_disjoint (p : Fin 3 → ℕ) : (sixTets p).Pairwise fun P Q => ¬∃ ξ : Fin 3 → K, LInt P ξ ∧ LInt Q ξ := by
  simp only [sixTets, List.pairwise_cons, List.forall_mem_cons, List.not_mem_nil, false_imp_iff, implies_true, and_true, List.Pairwise.nil]
  exact ⟨⟨tet1_tet2 p, tet1_tet3 p, tet1_tet4 p, tet1_tet5 p, tet1_tet6 p⟩, ⟨tet2_tet3 p, tet2_tet4 p, tet2_tet5 p, tet2_tet6 p⟩,
    ⟨tet3_tet4 p, tet3_tet5 p, tet3_tet6 p⟩, ⟨tet4_tet5 p, tet4_tet6 p⟩, tet5_tet6 p⟩

theorem tet1_sublist (p : Fin 3 → ℕ) : [tet1 p].Sublist (sixTets p) := by simp [sixTets]

theorem fiveTets_sublist (p : Fin 3 → ℕ) : (fiveTets p).Sublist (sixTets p) := by
  have h : sixTets p = fiveTets p ++ [tet6 p] := rfl
  rw [h]
  exact List.sublist_append_left _ _

/-- The point lies in the closed cube. -/
def InCube {m : Nat} (p : Fin m → ℕ) (ξ : Fin m → K) : Prop := ∀ k, (p k : K) ≤ ξ k ∧ ξ k ≤ p k + 1

/-- The sum of the coordinates relative to the cube. -/
def rel (p : Fin 3 → ℕ) (ξ : Fin 3 → K) : K := (ξ 0 - p 0) + (ξ 1 - p 1) + (ξ 2 - p 2)

theorem cover_cube (p : Fin 3 → ℕ) (ξ : Fin 3 → K) (h : InCube p ξ) :
    (rel p ξ ≤ 1 → LIn (tet1 p) ξ) ∧ (rel p ξ ≤ 2 → ∃ P ∈ fiveTets p, LIn P ξ) ∧ ∃ P ∈ sixTets p, LIn P ξ := by
  have hu := h 0
  have hv := h 1
  have hw := h 2
  have h1 : rel p ξ ≤ 1 → LIn (tet1 p) ξ := by
    intro hr
    unfold rel at hr
    rw [(bary_tet1 p).lin]
    simp only [List.forall_mem_cons, List.not_mem_nil, false_imp_iff, implies_true, and_true]
    refine ⟨?_, ?_, ?_, ?_⟩ <;> linarith [hu.1, hv.1, hw.1]
  have h5 : rel p ξ ≤ 2 → ∃ P ∈ fiveTets p, LIn P ξ := by
    intro hr
    by_cases hr1 : rel p ξ ≤ 1
    · exact ⟨tet1 p, by simp [fiveTets], h1 hr1⟩
    · unfold rel at hr hr1
      rw [not_le] at hr1
      by_cases huv : (ξ 0 - p 0) + (ξ 1 - p 1) ≤ 1
      · by_cases hvw : (ξ 1 - p 1) + (ξ 2 - p 2) ≤ 1
        · refine ⟨tet2 p, by simp [fiveTets], ?_⟩
          rw [(bary_tet2 p).lin]
          simp only [List.forall_mem_cons, List.not_mem_nil, false_imp_iff, implies_true, and_true]
          refine ⟨?_, ?_, ?_, ?_⟩ <;> linarith [hu.1, hv.1, hw.1]
        · refine ⟨tet3 p, by simp [fiveTets], ?_⟩
          rw [(bary_tet3 p).lin]
          simp only [List.forall_mem_cons, List.not_mem_nil, false_imp_iff, implies_true, and_true]
          refine ⟨?_, ?_, ?_, ?_⟩ <;> linarith [hu.1, hv.1, hw.1, hw.2]
      · by_cases hvw : (ξ 1 - p 1) + (ξ 2 - p 2) ≤ 1
        · refine ⟨tet4 p, by simp [fiveTets], ?_⟩
          rw [(bary_tet4 p).lin]
          simp only [List.forall_mem_cons, List.not_mem_nil, false_imp_iff, implies_true, and_true]
          refine ⟨?_, ?_, ?_, ?_⟩ <;> linarith [hu.1, hv.1, hw.1, hu.2]
        · refine ⟨tet5 p, by simp [fiveTets], ?_⟩
          rw [(bary_tet5 p).lin]
          simp only [List.forall_mem_cons, List.not_mem_nil, false_imp_iff, implies_true, and_true]
          refine ⟨?_, ?_, ?_, ?_⟩ <;> linarith [hu.1, hv.1, hw.1, hv.2]
  refine ⟨h1, h5, ?_⟩
  by_cases hr : rel p ξ ≤ 2
  · obtain ⟨P, hP, hx⟩ := h5 hr
    exact ⟨P, (fiveTets_sublist p).subset hP, hx⟩
  · unfold rel at hr
    refine ⟨tet6 p, by simp [sixTets], ?_⟩
    rw [(bary_tet6 p).lin]
    simp only [List.forall_mem_cons, List.not_mem_nil, false_imp_iff, implies_true, and_true]
    refine ⟨?_, ?_, ?_, ?_⟩ <;> linarith [hu.2, hv.2, hw.2]

theorem sixTets_in (p : Fin 3 → ℕ) (P : List (Fin 3 → ℕ)) (hP : P ∈ sixTets p) (ξ : Fin 3 → K) (h : LIn P ξ) : InCube p ξ := by
  simp only [sixTets, List.mem_cons, List.not_mem_nil, or_false] at hP
  have key : ∀ k, (p k : K) ≤ ξ k ∧ ξ k ≤ p k + 1 := by
    rcases hP with rfl | rfl | rfl | rfl | rfl | rfl
    · rw [(bary_tet1 p).lin] at h
      simp only [List.forall_mem_cons, List.not_mem_nil, false_imp_iff, implies_true, and_true] at h
      obtain ⟨h1, h2, h3, h4⟩ := h
      intro k
      match k with
      | 0 => constructor <;> linarith
      | 1 => constructor <;> linarith
      | 2 => constructor <;> linarith
    · rw [(bary_tet2 p).lin] at h
      simp only [List.forall_mem_cons, List.not_mem_nil, false_imp_iff, implies_true, and_true] at h
      obtain ⟨h1, h2, h3, h4⟩ := h
      intro k
      match k with
      | 0 => constructor <;> linarith
      | 1 => constructor <;> linarith
      | 2 => constructor <;> linarith
    · rw [(bary_tet3 p).lin] at h
      simp only [List.forall_mem_cons, List.not_mem_nil, false_imp_iff, implies_true, and_true] at h
      obtain ⟨h1, h2, h3, h4⟩ := h
      intro k
      match k with
      | 0 => constructor <;> linarith
      | 1 => constructor <;> linarith
      | 2 => constructor <;> linarith
    · rw [(bary_tet4 p).lin] at h
      simp only [List.forall_mem_cons, List.not_mem_nil, false_imp_iff, implies_true, and_true] at h
      obtain ⟨h1, h2, h3, h4⟩ := h
      intro k
      match k with
      | 0 => constructor <;> linarith
      | 1 => constructor <;> linarith
      | 2 => constructor <;> linarith
    · rw [(bary_tet5 p).lin] at h
      simp only [List.forall_mem_cons, List.not_mem_nil, false_imp_iff, implies_true, and_true] at h
      obtain ⟨h1, h2, h3, h4⟩ := h
      intro k
      match k with
      | 0 => constructor <;> linarith
      | 1 => constructor <;> linarith
      | 2 => constructor <;> linarith
    · rw [(bary_tet6 p).lin] at h
      simp only [List.forall_mem_cons, List.not_mem_nil, false_imp_iff, implies_true, and_true] at h
      obtain ⟨h1, h2, h3, h4⟩ := h
      intro k
      match k with
      | 0 => constructor <;> linarith
      | 1 => constructor <;> linarith
      | 2 => constructor <;> linarith
  exact key

theorem fiveTets_rel (p : Fin 3 → ℕ) (P : List (Fin 3 → ℕ)) (hP : P ∈ fiveTets p) (ξ : Fin 3 → K) (h : LIn P ξ) : rel p ξ ≤ 2 := by
  simp only [fiveTets, List.mem_cons, List.not_mem_nil, or_false] at hP
  unfold rel
  rcases hP with rfl | rfl | rfl | rfl | rfl
  · rw [(bary_tet1 p).lin] at h
    simp only [List.forall_mem_cons, List.not_mem_nil, false_imp_iff, implies_true, and_true] at h
    obtain ⟨h1, h2, h3, h4⟩ := h
    linarith
  · rw [(bary_tet2 p).lin] at h
    simp only [List.forall_mem_cons, List.not_mem_nil, false_imp_iff, implies_true, and_true] at h
    obtain ⟨h1, h2, h3, h4⟩ := h
    linarith
  · rw [(bary_tet3 p).lin] at h
    simp only [List.forall_mem_cons, List.not_mem_nil, false_imp_iff, implies_true, and_true] at h
    obtain ⟨h1, h2, h3, h4⟩ := h
    linarith
  · rw [(bary_tet4 p).lin] at h
    simp only [List.forall_mem_cons, List.not_mem_nil, false_imp_iff, implies_true, and_true] at h
    obtain ⟨h1, h2, h3, h4⟩ := h
    linarith
  · rw [(bary_tet5 p).lin] at h
    simp only [List.forall_mem_cons, List.not_mem_nil, false_imp_iff, implies_true, and_true] at h
    obtain ⟨h1, h2, h3, h4⟩ := h
    linarith

theorem tet1_rel (p : Fin 3 → ℕ) (ξ : Fin 3 → K) (h : LIn (tet1 p) ξ) : rel p ξ ≤ 1 := by
  rw [(bary_tet1 p).lin] at h
  simp only [List.forall_mem_cons, List.not_mem_nil, false_imp_iff, implies_true, and_true] at h
  unfold rel
  linarith [h.1]

/-! ## Boxes -/

/-- The cubes of a box. -/
def gridCubes (w h d : Nat) : List (Fin 3 → ℕ) :=
  (List.range (d - 1)).flatMap fun i => (List.range (h - 1)).flatMap fun j => (List.range (w - 1)).map fun k => ![k, j, i]

theorem mem_gridCubes {w h d : Nat} {p : Fin 3 → ℕ} : p ∈ gridCubes w h d ↔ p 0 < w - 1 ∧ p 1 < h - 1 ∧ p 2 < d - 1 := by
  simp only [gridCubes, List.mem_flatMap, List.mem_map, List.mem_range]
  constructor
  · rintro ⟨i, hi, j, hj, k, hk, rfl⟩
    exact ⟨hk, hj, hi⟩
  · rintro ⟨h1, h2, h3⟩
    refine ⟨p 2, h3, p 1, h2, p 0, h1, ?_⟩
    funext k
    match k with
    | 0 => rfl
    | 1 => rfl
    | 2 => rfl

theorem nodup_gridCubes (w h d : Nat) : (gridCubes w h d).Nodup := by
  unfold gridCubes
  rw [List.nodup_flatMap]
  refine ⟨fun i _ => ?_, ?_⟩
  · rw [List.nodup_flatMap]
    refine ⟨fun j _ => ?_, ?_⟩
    · refine List.Nodup.map ?_ List.nodup_range
      intro a b hab
      exact congrFun hab 0
    · refine List.Pairwise.imp_of_mem ?_ (List.nodup_range (n := h - 1))
      intro i i' _ _ hne p hp hp'
      obtain ⟨j, -, rfl⟩ := List.mem_map.1 hp
      obtain ⟨j', -, h'⟩ := List.mem_map.1 hp'
      exact hne (congrFun h' 1).symm
  · refine List.Pairwise.imp_of_mem ?_ (List.nodup_range (n := d - 1))
    intro i i' _ _ hne p hp hp'
    obtain ⟨j, -, hp⟩ := List.mem_flatMap.1 hp
    obtain ⟨k, -, rfl⟩ := List.mem_map.1 hp
    obtain ⟨j', -, hp'⟩ := List.mem_flatMap.1 hp'
    obtain ⟨k', -, h'⟩ := List.mem_map.1 hp'
    exact hne (congrFun h' 2).symm

/-- The box is tiled by the tetrahedra of the cubes. -/
theorem box_tiles (w h d : Nat) (hw : 1 < w) (hh : 1 < h) (hd : 1 < d) :
    LTiles ((gridCubes w h d).flatMap sixTets)
      {ξ : Fin 3 → K | (0 ≤ ξ 0 ∧ ξ 0 ≤ ((w - 1 : ℕ) : K)) ∧ (0 ≤ ξ 1 ∧ ξ 1 ≤ ((h - 1 : ℕ) : K)) ∧ (0 ≤ ξ 2 ∧ ξ 2 ≤ ((d - 1 : ℕ) : K))} := by
  constructor
  · rintro ξ ⟨⟨a0, a1⟩, ⟨b0, b1⟩, ⟨c0, c1⟩⟩
    obtain ⟨k, hk, k1, k2⟩ := exists_unit (w - 1) (by omega) (ξ 0) a0 a1
    obtain ⟨j, hj, j1, j2⟩ := exists_unit (h - 1) (by omega) (ξ 1) b0 b1
    obtain ⟨i, hi, i1, i2⟩ := exists_unit (d - 1) (by omega) (ξ 2) c0 c1
    have hin : InCube ![k, j, i] ξ := by
      intro t
      match t with
      | 0 => exact ⟨k1, k2⟩
      | 1 => exact ⟨j1, j2⟩
      | 2 => exact ⟨i1, i2⟩
    obtain ⟨P, hP, hx⟩ := (cover_cube _ ξ hin).2.2
    exact ⟨P, List.mem_flatMap.2 ⟨_, mem_gridCubes.2 ⟨hk, hj, hi⟩, hP⟩, hx⟩
  · intro P hP ξ hξ
    obtain ⟨p, hp, hP⟩ := List.mem_flatMap.1 hP
    obtain ⟨h1, h2, h3⟩ := mem_gridCubes.1 hp
    have c1 : (p 0 : K) + 1 ≤ ((w - 1 : ℕ) : K) := by exact_mod_cast h1
    have c2 : (p 1 : K) + 1 ≤ ((h - 1 : ℕ) : K) := by exact_mod_cast h2
    have c3 : (p 2 : K) + 1 ≤ ((d - 1 : ℕ) : K) := by exact_mod_cast h3
    have hin := sixTets_in p P hP ξ hξ
    refine ⟨⟨(Nat.cast_nonneg _).trans (hin 0).1, (hin 0).2.trans c1⟩, ⟨(Nat.cast_nonneg _).trans (hin 1).1, (hin 1).2.trans c2⟩,
      ⟨(Nat.cast_nonneg _).trans (hin 2).1, (hin 2).2.trans c3⟩⟩
  · exact disjoint_cubes _ (nodup_gridCubes w h d) _ (fun p _ => sixTets_cube p) (fun p _ => sixTets_disjoint p)
  · have hal : ∀ P ∈ (gridCubes w h d).flatMap sixTets, IsAlcove P := by
      intro P hP
      obtain ⟨p, -, hP⟩ := List.mem_flatMap.1 hP
      exact alcove_sixTets p P hP
    exact fun P hP Q hQ ξ => common_face (hal P hP) (hal Q hQ)

/-! ## Tetrahedra -/

/-- The cubes of a tetrahedron. -/
def tetCubes (r : Nat) : List (Fin 3 → ℕ) := (MI.generateAll 3 r).map fun mi => ![mi.getD 0 0, mi.getD 1 0, mi.getD 2 0]

theorem mem_tetCubes {r : Nat} {p : Fin 3 → ℕ} : p ∈ tetCubes r ↔ p 0 + p 1 + p 2 ≤ r := by
  unfold tetCubes
  rw [MI.generateAll_eq_mis]
  simp only [List.mem_map, MI.mem_mis]
  constructor
  · rintro ⟨mi, ⟨h1, h2⟩, rfl⟩
    match mi, h1 with
    | [a, b, c], _ =>
      simp at h2 ⊢
      omega
  · intro h
    refine ⟨[p 0, p 1, p 2], ⟨rfl, by simp; omega⟩, ?_⟩
    funext k
    match k with
    | 0 => rfl
    | 1 => rfl
    | 2 => rfl

theorem nodup_tetCubes (r : Nat) : (tetCubes r).Nodup := by
  unfold tetCubes
  rw [MI.generateAll_eq_mis]
  refine List.Nodup.map_on ?_ (MI.nodup_mis 3 r)
  intro a ha b hb hab
  have h1 := (MI.mem_mis.1 ha).1
  have h2 := (MI.mem_mis.1 hb).1
  match a, b, h1, h2 with
  | [a0, a1, a2], [b0, b1, b2], _, _ =>
    have e0 := congrFun hab 0
    have e1 := congrFun hab 1
    have e2 := congrFun hab 2
    simp at e0 e1 e2
    rw [e0, e1, e2]

/-- The tetrahedra of a cube of a tetrahedron. -/
def tetCells (r : Nat) (p : Fin 3 → ℕ) : List (List (Fin 3 → ℕ)) :=
  if p 0 + p 1 + p 2 + 2 < r then sixTets p
  else if p 0 + p 1 + p 2 + 2 = r then fiveTets p
  else if p 0 + p 1 + p 2 + 1 = r then [tet1 p] else []

theorem tetCells_sublist (r : Nat) (p : Fin 3 → ℕ) : (tetCells r p).Sublist (sixTets p) := by
  unfold tetCells
  split
  · exact List.Sublist.refl _
  · split
    · exact fiveTets_sublist p
    · split
      · exact tet1_sublist p
      · exact List.nil_sublist _

/-- The tetrahedron is tiled by the tetrahedra of the cubes. -/
theorem tet_tiles (r : Nat) (hr : 1 ≤ r) :
    LTiles ((tetCubes r).flatMap (tetCells r)) {ξ : Fin 3 → K | 0 ≤ ξ 0 ∧ 0 ≤ ξ 1 ∧ 0 ≤ ξ 2 ∧ ξ 0 + ξ 1 + ξ 2 ≤ r} := by
  constructor
  · rintro ξ ⟨a0, b0, c0, hs⟩
    obtain ⟨i, hi, i1, i2⟩ := exists_unit r hr (ξ 2) c0 (by linarith)
    have hcast : ((r - i : ℕ) : K) = r - i := Nat.cast_sub hi.le
    obtain ⟨j, hj, j1, j2⟩ := exists_unit (r - i) (by omega) (ξ 1) b0 (by rw [hcast]; linarith)
    have hcast' : ((r - i - j : ℕ) : K) = r - i - j := by rw [Nat.cast_sub hj.le, hcast]
    obtain ⟨k, hk, k1, k2⟩ := exists_unit (r - i - j) (by omega) (ξ 0) a0 (by rw [hcast']; linarith)
    have hin : InCube ![k, j, i] ξ := by
      intro t
      match t with
      | 0 => exact ⟨k1, k2⟩
      | 1 => exact ⟨j1, j2⟩
      | 2 => exact ⟨i1, i2⟩
    obtain ⟨q1, q2, q3⟩ := cover_cube _ ξ hin
    have hmem : (![k, j, i] : Fin 3 → ℕ) ∈ tetCubes r := mem_tetCubes.2 (by simp; omega)
    have hrel : rel ![k, j, i] ξ = ξ 0 + ξ 1 + ξ 2 - (k + j + i) := by
      simp [rel]
      ring
    have hgoal : ∃ P ∈ tetCells r ![k, j, i], LIn P ξ := by
      have hdef : tetCells r ![k, j, i] = if k + j + i + 2 < r then sixTets ![k, j, i]
        else if k + j + i + 2 = r then fiveTets ![k, j, i] else if k + j + i + 1 = r then [tet1 ![k, j, i]] else [] := rfl
      rw [hdef]
      by_cases h1 : k + j + i + 2 < r
      · rw [if_pos h1]
        exact q3
      · rw [if_neg h1]
        by_cases h2 : k + j + i + 2 = r
        · rw [if_pos h2]
          have h2' : (k : K) + j + i + 2 = r := by exact_mod_cast h2
          exact q2 (by rw [hrel]; linarith)
        · rw [if_neg h2]
          have h3 : k + j + i + 1 = r := by omega
          rw [if_pos h3]
          have h3' : (k : K) + j + i + 1 = r := by exact_mod_cast h3
          exact ⟨_, List.mem_singleton_self _, q1 (by rw [hrel]; linarith)⟩
    obtain ⟨P, hP, hx⟩ := hgoal
    exact ⟨P, List.mem_flatMap.2 ⟨_, hmem, hP⟩, hx⟩
  · intro P hP ξ hξ
    obtain ⟨p, hp, hP⟩ := List.mem_flatMap.1 hP
    have hin := sixTets_in p P ((tetCells_sublist r p).subset hP) ξ hξ
    refine ⟨(Nat.cast_nonneg _).trans (hin 0).1, (Nat.cast_nonneg _).trans (hin 1).1, (Nat.cast_nonneg _).trans (hin 2).1, ?_⟩
    unfold tetCells at hP
    split at hP
    · rename_i h1
      have h1' : (p 0 : K) + p 1 + p 2 + 2 + 1 ≤ r := by exact_mod_cast h1
      linarith [(hin 0).2, (hin 1).2, (hin 2).2]
    · split at hP
      · rename_i h1
        have h1' : (p 0 : K) + p 1 + p 2 + 2 = r := by exact_mod_cast h1
        have := fiveTets_rel p P hP ξ hξ
        unfold rel at this
        linarith
      · split at hP
        · rename_i h1
          have h1' : (p 0 : K) + p 1 + p 2 + 1 = r := by exact_mod_cast h1
          have := tet1_rel p ξ (List.mem_singleton.1 hP ▸ hξ)
          unfold rel at this
          linarith
        · simp at hP
  · refine disjoint_cubes _ (nodup_tetCubes r) _ (fun p _ P hP => sixTets_cube p P ((tetCells_sublist r p).subset hP)) (fun p _ => ?_)
    exact (sixTets_disjoint p).sublist (tetCells_sublist r p)
  · have hal : ∀ P ∈ (tetCubes r).flatMap (tetCells r), IsAlcove P := by
      intro P hP
      obtain ⟨p, -, hP⟩ := List.mem_flatMap.1 hP
      exact alcove_sixTets p P ((tetCells_sublist r p).subset hP)
    exact fun P hP Q hQ ξ => common_face (hal P hP) (hal Q hQ)

end Verif.Mesh
