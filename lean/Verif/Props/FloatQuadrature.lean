import Verif.Model.FloatQuadrature
import Verif.Props.QuadratureError
import Verif.Props.FloatSecondDifference
/-!
# Accuracy of the fixed quadrature rules in floating point arithmetic

The specification (`Computes2`, `Computes3`) says what is assumed of the integrand: at every point of the unit simplex, for arguments with a relative error of
at most `ε`, it returns a number, and the returned numbers differ by at most `δ` from the value of `f` at the point.
-/

namespace Verif.FloatQuadrature
open Verif Verif.FloatPoly Verif.FloatIntegration PyExpr MeasureTheory MvPolynomial Verif.Props.C101aux

/-- `F` computes the function `f` of two variables on the unit triangle with an error of at most `δ`, for arguments that are rounded. -/
def Computes2 (ε δ : ℝ) (F : ℝ → ℝ → Set ℝ) (f : ℝ → ℝ → ℝ) : Prop :=
  ∀ x y x' y', 0 ≤ x → 0 ≤ y → x + y ≤ 1 → |x' - x| ≤ ε * |x| → |y' - y| ≤ ε * |y| → (F x' y').Nonempty ∧ ∀ c ∈ F x' y', |c - f x y| ≤ δ

/-- The same for functions of three variables on the unit tetrahedron. -/
def Computes3 (ε δ : ℝ) (F : ℝ → ℝ → ℝ → Set ℝ) (f : ℝ → ℝ → ℝ → ℝ) : Prop :=
  ∀ x y z x' y' z', 0 ≤ x → 0 ≤ y → 0 ≤ z → x + y + z ≤ 1 → |x' - x| ≤ ε * |x| → |y' - y| ≤ ε * |y| → |z' - z| ≤ ε * |z| →
    (F x' y' z').Nonempty ∧ ∀ c ∈ F x' y' z', |c - f x y z| ≤ δ

variable {ε δ : ℝ}

/-- There is a result, and every result comes with at most `k` roundings from a number that differs by at most `e` from `v`. -/
def Good (ε : ℝ) (k : ℕ) (T : Set ℝ) (v M e : ℝ) : Prop := T.Nonempty ∧ ∀ c ∈ T, ∃ s, |s - v| ≤ e ∧ Near ε k s (M + e) c

theorem Good.add (hε : 0 ≤ ε) {k l : ℕ} {S T : Set ℝ} {v w M N d e : ℝ} (h : Good ε k S v M d) (h' : Good ε l T w N e) (hl : l ≤ k) :
    Good ε (k + 1) (FloatPoly.add ε S T) (v + w) (M + N) (d + e) := by
  obtain ⟨⟨a, ha⟩, h2⟩ := h
  obtain ⟨⟨b, hb⟩, h2'⟩ := h'
  refine ⟨⟨a + b, a, ha, b, hb, rounded_self hε⟩, ?_⟩
  rintro c ⟨a, ha, b, hb, hc⟩
  obtain ⟨s, hs, hn⟩ := h2 a ha
  obtain ⟨t, ht, hn'⟩ := h2' b hb
  refine ⟨s + t, ?_, ?_⟩
  · rw [show s + t - (v + w) = (s - v) + (t - w) by ring]
    exact (abs_add_le _ _).trans (add_le_add hs ht)
  · rw [show M + N + (d + e) = (M + d) + (N + e) by ring]
    exact (hn.add (hn'.mono hε hl)).round hε hc

theorem Good.mul (hε : 0 ≤ ε) {k l : ℕ} {W T : Set ℝ} {w v M e : ℝ} (hW : W.Nonempty) (hw : ∀ a ∈ W, Near ε l w |w| a) (h : Good ε k T v M e) :
    Good ε (l + k + 1) (FloatPoly.mul ε W T) (w * v) (|w| * M) (|w| * e) := by
  obtain ⟨⟨b, hb⟩, h2⟩ := h
  obtain ⟨a, ha⟩ := hW
  refine ⟨⟨a * b, a, ha, b, hb, rounded_self hε⟩, ?_⟩
  rintro c ⟨a, ha, b, hb, hc⟩
  obtain ⟨s, hs, hn⟩ := h2 b hb
  refine ⟨w * s, ?_, ?_⟩
  · rw [← mul_sub, abs_mul]
    exact mul_le_mul_of_nonneg_left hs (abs_nonneg _)
  · rw [← mul_add]
    exact ((hw a ha).mul hε hn).round hε hc

theorem Good.mono (hε : 0 ≤ ε) {k l : ℕ} {T : Set ℝ} {v M e : ℝ} (h : Good ε k T v M e) (hl : k ≤ l) : Good ε l T v M e :=
  ⟨h.1, fun c hc => by
    obtain ⟨s, hs, hn⟩ := h.2 c hc
    exact ⟨s, hs, hn.mono hε hl⟩⟩

theorem good_value (hε : 0 ≤ ε) {T : Set ℝ} {v B : ℝ} (hv : |v| ≤ B) (hT : T.Nonempty ∧ ∀ c ∈ T, |c - v| ≤ δ) : Good ε 0 T v B δ :=
  ⟨hT.1, fun c hc => ⟨c, hT.2 c hc, near_le hε 0 (by
    have : |c| ≤ |c - v| + |v| := by simpa using abs_add_le (c - v) v
    linarith [hT.2 c hc])⟩⟩

theorem round_nonempty (hε : 0 ≤ ε) (w : ℝ) : (FloatPoly.round ε w).Nonempty := ⟨w, rounded_self hε⟩

theorem term_one (hε : 0 ≤ ε) {T : Set ℝ} {v B : ℝ} (h : Good ε 0 T v B δ) : Good ε 2 T (1 * v) (|1| * B) (|1| * δ) := by
  rw [abs_one, one_mul, one_mul, one_mul]
  exact h.mono hε (by norm_num)

theorem term_int (hε : 0 ≤ ε) (w : ℝ) {T : Set ℝ} {v B : ℝ} (h : Good ε 0 T v B δ) : Good ε 2 (FloatPoly.mul ε {w} T) (w * v) (|w| * B) (|w| * δ) :=
  (Good.mul hε (l := 0) (W := {w}) (w := w) (Set.singleton_nonempty w) (fun a ha => by rw [Set.mem_singleton_iff.1 ha]; exact near_self hε 0 w) h).mono hε (by norm_num)

theorem term_flt (hε : 0 ≤ ε) (w : ℝ) {T : Set ℝ} {v B : ℝ} (h : Good ε 0 T v B δ) :
    Good ε 2 (FloatPoly.mul ε (FloatPoly.round ε w) T) (w * v) (|w| * B) (|w| * δ) :=
  Good.mul hε (l := 1) (round_nonempty hε w) (fun _ ha => near_of_rounded ha) h

theorem fold_good (hε : 0 ≤ ε) {B : ℝ} : ∀ (Ts : List (Set ℝ)) (L : List (ℝ × ℝ)),
    List.Forall₂ (fun T p => Good ε 2 T (p.1 * p.2) (|p.1| * B) (|p.1| * δ)) Ts L → ∀ (k : ℕ) (A : Set ℝ) (v M e : ℝ), 2 ≤ k → Good ε k A v M e →
    Good ε (k + L.length) (Ts.foldl (FloatPoly.add ε) A) (v + (L.map fun p => p.1 * p.2).sum) (M + (L.map fun p => |p.1|).sum * B)
      (e + (L.map fun p => |p.1|).sum * δ) := by
  intro Ts L h
  induction h with
  | nil => intro k A v M e _ hA; simpa using hA
  | @cons T p Ts L hT _ ih =>
    intro k A v M e hk hA
    have := ih (k + 1) _ _ _ _ (by omega) (hA.add hε hT hk)
    simp only [List.length_cons, List.map_cons, List.sum_cons, List.foldl_cons]
    convert this using 1 <;> ring

/-- A rule `a * (w₁ f₁ + w₂ f₂ + …)` as the code computes it. -/
theorem rule_good (hε : 0 ≤ ε) {B : ℝ} (a : ℝ) (T : Set ℝ) (Ts : List (Set ℝ)) (p : ℝ × ℝ) (L : List (ℝ × ℝ))
    (h : List.Forall₂ (fun T p => Good ε 2 T (p.1 * p.2) (|p.1| * B) (|p.1| * δ)) (T :: Ts) (p :: L)) (m : ℕ) (hm : L.length + 4 ≤ m) (q W : ℝ)
    (hq : a * ((p :: L).map fun p => p.1 * p.2).sum = q) (hW : |a| * ((p :: L).map fun p => |p.1|).sum ≤ W) (hB : 0 ≤ B) (hδ : 0 ≤ δ) :
    (FloatPoly.mul ε (FloatPoly.round ε a) (sum ε (T :: Ts))).Nonempty ∧ ∀ c ∈ FloatPoly.mul ε (FloatPoly.round ε a) (sum ε (T :: Ts)),
      |c - q| ≤ ((1 + ε) ^ m - 1) * (W * (B + δ)) + W * δ := by
  obtain ⟨hT, hTs⟩ := List.forall₂_cons.1 h
  have h1 := fold_good hε Ts L hTs 2 T _ _ _ le_rfl hT
  have h2 := (Good.mul hε (l := 1) (round_nonempty hε a) (fun _ ha => near_of_rounded ha) h1).mono hε (show _ ≤ m by omega)
  refine ⟨h2.1, fun c hc => ?_⟩
  obtain ⟨s, hs, hn⟩ := h2.2 c hc
  simp only [List.map_cons, List.sum_cons] at hq hW
  have e1 : |a| * (|p.1| * δ + (L.map fun p => |p.1|).sum * δ) ≤ W * δ := by
    rw [← add_mul, ← mul_assoc]; exact mul_le_mul_of_nonneg_right hW hδ
  have e2 : |a| * (|p.1| * B + (L.map fun p => |p.1|).sum * B) ≤ W * B := by
    rw [← add_mul, ← mul_assoc]; exact mul_le_mul_of_nonneg_right hW hB
  have h3 := (near_enlarge hε hn (show _ ≤ W * (B + δ) by rw [mul_add W]; exact add_le_add e2 e1)).2
  rw [hq] at hs
  have : |c - q| ≤ |c - s| + |s - q| := abs_sub_le c s q
  linarith

theorem mem_round_self (hε : 0 ≤ ε) (x : ℝ) : x ∈ FloatPoly.round ε x := rounded_self hε

theorem good_call2 (hε : 0 ≤ ε) {F : ℝ → ℝ → Set ℝ} {f : ℝ → ℝ → ℝ} (hF : Computes2 ε δ F f) {B : ℝ}
    (hB : ∀ x ∈ Spec.unitSimplex 2, |f (x 0) (x 1)| ≤ B) {X Y : Set ℝ} (x y : ℝ) (hx : 0 ≤ x) (hy : 0 ≤ y) (hxy : x + y ≤ 1)
    (hX : x ∈ X ∧ X ⊆ FloatPoly.round ε x) (hY : y ∈ Y ∧ Y ⊆ FloatPoly.round ε y) : Good ε 0 (call2 F X Y) (f x y) B δ := by
  refine good_value hε (hB _ (Quadrature.mem_unit2 hx hy hxy)) ⟨?_, ?_⟩
  · obtain ⟨c, hc⟩ := (hF x y x y hx hy hxy (rounded_self hε) (rounded_self hε)).1
    exact ⟨c, x, hX.1, y, hY.1, hc⟩
  · rintro c ⟨x', hx', y', hy', hc⟩
    exact (hF x y x' y' hx hy hxy (hX.2 hx') (hY.2 hy')).2 c hc

theorem good_call3 (hε : 0 ≤ ε) {F : ℝ → ℝ → ℝ → Set ℝ} {f : ℝ → ℝ → ℝ → ℝ} (hF : Computes3 ε δ F f) {B : ℝ}
    (hB : ∀ x ∈ Spec.unitSimplex 3, |f (x 0) (x 1) (x 2)| ≤ B) {X Y Z : Set ℝ} (x y z : ℝ) (hx : 0 ≤ x) (hy : 0 ≤ y) (hz : 0 ≤ z) (hxy : x + y + z ≤ 1)
    (hX : x ∈ X ∧ X ⊆ FloatPoly.round ε x) (hY : y ∈ Y ∧ Y ⊆ FloatPoly.round ε y) (hZ : z ∈ Z ∧ Z ⊆ FloatPoly.round ε z) :
    Good ε 0 (call3 F X Y Z) (f x y z) B δ := by
  refine good_value hε (hB _ (Quadrature.mem_unit3 hx hy hz hxy)) ⟨?_, ?_⟩
  · obtain ⟨c, hc⟩ := (hF x y z x y z hx hy hz hxy (rounded_self hε) (rounded_self hε) (rounded_self hε)).1
    exact ⟨c, x, hX.1, y, hY.1, z, hZ.1, hc⟩
  · rintro c ⟨x', hx', y', hy', z', hz', hc⟩
    exact (hF x y z x' y' z' hx hy hz hxy (hX.2 hx') (hY.2 hy') (hZ.2 hz')).2 c hc

/-- **C104** `quadrature_unit_triangle_fixed(f, n)` with rounded numbers: for an integrand with values of at most `B` that is computed with an error of at most `δ`, there is a
result, and every result differs from that of the same rule with real numbers by no more than nine roundings and the weighted error of the integrand. -/
theorem C104_unit_triangle (hε : 0 ≤ ε) (hδ : 0 ≤ δ) (n : ℕ) (h1 : 1 ≤ n) (h4 : n ≤ 4) (F : ℝ → ℝ → Set ℝ) (f : ℝ → ℝ → ℝ) (hF : Computes2 ε δ F f) (B : ℝ)
    (hB : ∀ x ∈ Spec.unitSimplex 2, |f (x 0) (x 1)| ≤ B) :
    ∃ A q, unitTriangleFixed ε F n = .ok A ∧ Quadrature.unitTriangleFixed f n = .ok q ∧ A.Nonempty ∧ ∀ c ∈ A,
      |c - q| ≤ ((1 + ε) ^ 9 - 1) * ((if n = 3 then 17 / 16 else 1 / 2) * (B + δ)) + (if n = 3 then 17 / 16 else 1 / 2) * δ := by
  have hB0 : 0 ≤ B := (abs_nonneg _).trans (hB (fun _ => 0) ⟨fun _ => le_rfl, by simp⟩)
  have hr : ∀ x : ℝ, x ∈ FloatPoly.round ε x ∧ FloatPoly.round ε x ⊆ FloatPoly.round ε x := fun x => ⟨mem_round_self hε x, subset_rfl⟩
  have hz : (0 : ℝ) ∈ ({0} : Set ℝ) ∧ ({0} : Set ℝ) ⊆ FloatPoly.round ε 0 := ⟨rfl, by rintro _ rfl; exact mem_round_self hε 0⟩
  have hc := fun {X Y : Set ℝ} => good_call2 hε hF hB (X := X) (Y := Y)
  interval_cases n
  · refine ⟨_, _, rfl, rfl, ?_⟩
    refine rule_good hε (1 / 2) _ _ (1, f (1 / 3) (1 / 3)) [] ?_ 9 (by simp) _ _ ?_ ?_ hB0 hδ
    · refine .cons (term_one hε (hc (1 / 3) (1 / 3) (by norm_num) (by norm_num) (by norm_num) (hr _) (hr _))) ?_
      exact .nil
    · simp only [List.map_cons, List.map_nil, List.sum_cons, List.sum_nil]; ring
    · simp only [List.map_cons, List.map_nil, List.sum_cons, List.sum_nil]; norm_num [abs_of_pos, abs_of_neg]
  · refine ⟨_, _, rfl, rfl, ?_⟩
    refine rule_good hε (1 / 6) _ _ (1, f (1 / 2) (1 / 2)) [(1, f 0 (1 / 2)), (1, f (1 / 2) 0)] ?_ 9 (by simp) _ _ ?_ ?_ hB0 hδ
    · refine .cons (term_one hε (hc (1 / 2) (1 / 2) (by norm_num) (by norm_num) (by norm_num) (hr _) (hr _))) ?_
      refine .cons (term_one hε (hc 0 (1 / 2) (by norm_num) (by norm_num) (by norm_num) hz (hr _))) ?_
      refine .cons (term_one hε (hc (1 / 2) 0 (by norm_num) (by norm_num) (by norm_num) (hr _) hz)) ?_
      exact .nil
    · simp only [List.map_cons, List.map_nil, List.sum_cons, List.sum_nil]; ring
    · simp only [List.map_cons, List.map_nil, List.sum_cons, List.sum_nil]; norm_num [abs_of_pos, abs_of_neg]
  · refine ⟨_, _, rfl, rfl, ?_⟩
    refine rule_good hε (1 / 96) _ _ (-27, f (1 / 3) (1 / 3)) [(25, f 0.2 0.6), (25, f 0.6 0.2), (25, f 0.2 0.2)] ?_ 9 (by simp) _ _ ?_ ?_ hB0 hδ
    · refine .cons (term_int hε (-27) (hc (1 / 3) (1 / 3) (by norm_num) (by norm_num) (by norm_num) (hr _) (hr _))) ?_
      refine .cons (term_int hε 25 (hc 0.2 0.6 (by norm_num) (by norm_num) (by norm_num) (hr _) (hr _))) ?_
      refine .cons (term_int hε 25 (hc 0.6 0.2 (by norm_num) (by norm_num) (by norm_num) (hr _) (hr _))) ?_
      refine .cons (term_int hε 25 (hc 0.2 0.2 (by norm_num) (by norm_num) (by norm_num) (hr _) (hr _))) ?_
      exact .nil
    · simp only [List.map_cons, List.map_nil, List.sum_cons, List.sum_nil]; ring
    · simp only [List.map_cons, List.map_nil, List.sum_cons, List.sum_nil]; norm_num [abs_of_pos, abs_of_neg]
  · refine ⟨_, _, rfl, rfl, ?_⟩
    refine rule_good hε (0.5) _ _ (0.223381589678011, f 0.108103018168070 0.445948490915965) [(0.223381589678011, f 0.445948490915965 0.108103018168070), (0.223381589678011, f 0.445948490915965 0.445948490915965), (0.109951743655322, f 0.816847572980459 0.091576213509771), (0.109951743655322, f 0.091576213509771 0.816847572980459), (0.109951743655322, f 0.091576213509771 0.091576213509771)] ?_ 9 (by simp) _ _ ?_ ?_ hB0 hδ
    · refine .cons (term_flt hε 0.223381589678011 (hc 0.108103018168070 0.445948490915965 (by norm_num) (by norm_num) (by norm_num) (hr _) (hr _))) ?_
      refine .cons (term_flt hε 0.223381589678011 (hc 0.445948490915965 0.108103018168070 (by norm_num) (by norm_num) (by norm_num) (hr _) (hr _))) ?_
      refine .cons (term_flt hε 0.223381589678011 (hc 0.445948490915965 0.445948490915965 (by norm_num) (by norm_num) (by norm_num) (hr _) (hr _))) ?_
      refine .cons (term_flt hε 0.109951743655322 (hc 0.816847572980459 0.091576213509771 (by norm_num) (by norm_num) (by norm_num) (hr _) (hr _))) ?_
      refine .cons (term_flt hε 0.109951743655322 (hc 0.091576213509771 0.816847572980459 (by norm_num) (by norm_num) (by norm_num) (hr _) (hr _))) ?_
      refine .cons (term_flt hε 0.109951743655322 (hc 0.091576213509771 0.091576213509771 (by norm_num) (by norm_num) (by norm_num) (hr _) (hr _))) ?_
      exact .nil
    · simp only [List.map_cons, List.map_nil, List.sum_cons, List.sum_nil]; ring
    · simp only [List.map_cons, List.map_nil, List.sum_cons, List.sum_nil]; norm_num [abs_of_pos, abs_of_neg]

/-- **C104** `quadrature_unit_tetrahedron_fixed(f, n)` with rounded numbers: the same with seventeen roundings. -/
theorem C104_unit_tetrahedron (hε : 0 ≤ ε) (hδ : 0 ≤ δ) (n : ℕ) (h1 : 1 ≤ n) (h4 : n ≤ 4) (F : ℝ → ℝ → ℝ → Set ℝ) (f : ℝ → ℝ → ℝ → ℝ) (hF : Computes3 ε δ F f) (B : ℝ)
    (hB : ∀ x ∈ Spec.unitSimplex 3, |f (x 0) (x 1) (x 2)| ≤ B) :
    ∃ A q, unitTetrahedronFixed ε F n = .ok A ∧ Quadrature.unitTetrahedronFixed f n = .ok q ∧ A.Nonempty ∧ ∀ c ∈ A,
      |c - q| ≤ ((1 + ε) ^ 17 - 1) * ((if n = 3 then 13 / 30 else 1 / 6 + 1 / 10 ^ 30) * (B + δ)) + (if n = 3 then 13 / 30 else 1 / 6 + 1 / 10 ^ 30) * δ := by
  have hB0 : 0 ≤ B := (abs_nonneg _).trans (hB (fun _ => 0) ⟨fun _ => le_rfl, by simp⟩)
  have hr : ∀ x : ℝ, x ∈ FloatPoly.round ε x ∧ FloatPoly.round ε x ⊆ FloatPoly.round ε x := fun x => ⟨mem_round_self hε x, subset_rfl⟩
  have hz : (0 : ℝ) ∈ ({0} : Set ℝ) ∧ ({0} : Set ℝ) ⊆ FloatPoly.round ε 0 := ⟨rfl, by rintro _ rfl; exact mem_round_self hε 0⟩
  have hc := fun {X Y Z : Set ℝ} => good_call3 hε hF hB (X := X) (Y := Y) (Z := Z)
  interval_cases n
  · refine ⟨_, _, rfl, rfl, ?_⟩
    refine rule_good hε (1 / 6) _ _ (1, f (1 / 4) (1 / 4) (1 / 4)) [] ?_ 17 (by simp) _ _ ?_ ?_ hB0 hδ
    · refine .cons (term_one hε (hc (1 / 4) (1 / 4) (1 / 4) (by norm_num) (by norm_num) (by norm_num) (by norm_num) (hr _) (hr _) (hr _))) ?_
      exact .nil
    · simp only [List.map_cons, List.map_nil, List.sum_cons, List.sum_nil]; ring
    · simp only [List.map_cons, List.map_nil, List.sum_cons, List.sum_nil]; norm_num [abs_of_pos, abs_of_neg]
  · refine ⟨_, _, rfl, rfl, ?_⟩
    refine rule_good hε (1 / 24) _ _ (1, f 0.58541019662496852 0.1381966011250105 0.1381966011250105) [(1, f 0.1381966011250105 0.58541019662496852 0.1381966011250105), (1, f 0.1381966011250105 0.1381966011250105 0.58541019662496852), (1, f 0.1381966011250105 0.1381966011250105 0.1381966011250105)] ?_ 17 (by simp) _ _ ?_ ?_ hB0 hδ
    · refine .cons (term_one hε (hc 0.58541019662496852 0.1381966011250105 0.1381966011250105 (by norm_num) (by norm_num) (by norm_num) (by norm_num) (hr _) (hr _) (hr _))) ?_
      refine .cons (term_one hε (hc 0.1381966011250105 0.58541019662496852 0.1381966011250105 (by norm_num) (by norm_num) (by norm_num) (by norm_num) (hr _) (hr _) (hr _))) ?_
      refine .cons (term_one hε (hc 0.1381966011250105 0.1381966011250105 0.58541019662496852 (by norm_num) (by norm_num) (by norm_num) (by norm_num) (hr _) (hr _) (hr _))) ?_
      refine .cons (term_one hε (hc 0.1381966011250105 0.1381966011250105 0.1381966011250105 (by norm_num) (by norm_num) (by norm_num) (by norm_num) (hr _) (hr _) (hr _))) ?_
      exact .nil
    · simp only [List.map_cons, List.map_nil, List.sum_cons, List.sum_nil]; ring
    · simp only [List.map_cons, List.map_nil, List.sum_cons, List.sum_nil]; norm_num [abs_of_pos, abs_of_neg]
  · refine ⟨_, _, rfl, rfl, ?_⟩
    refine rule_good hε (1 / 6) _ _ (-0.8, f (1 / 4) (1 / 4) (1 / 4)) [(0.45, f 0.5 (1 / 6) (1 / 6)), (0.45, f (1 / 6) 0.5 (1 / 6)), (0.45, f (1 / 6) (1 / 6) 0.5), (0.45, f (1 / 6) (1 / 6) (1 / 6))] ?_ 17 (by simp) _ _ ?_ ?_ hB0 hδ
    · refine .cons (term_flt hε (-0.8) (hc (1 / 4) (1 / 4) (1 / 4) (by norm_num) (by norm_num) (by norm_num) (by norm_num) (hr _) (hr _) (hr _))) ?_
      refine .cons (term_flt hε 0.45 (hc 0.5 (1 / 6) (1 / 6) (by norm_num) (by norm_num) (by norm_num) (by norm_num) (hr _) (hr _) (hr _))) ?_
      refine .cons (term_flt hε 0.45 (hc (1 / 6) 0.5 (1 / 6) (by norm_num) (by norm_num) (by norm_num) (by norm_num) (hr _) (hr _) (hr _))) ?_
      refine .cons (term_flt hε 0.45 (hc (1 / 6) (1 / 6) 0.5 (by norm_num) (by norm_num) (by norm_num) (by norm_num) (hr _) (hr _) (hr _))) ?_
      refine .cons (term_flt hε 0.45 (hc (1 / 6) (1 / 6) (1 / 6) (by norm_num) (by norm_num) (by norm_num) (by norm_num) (hr _) (hr _) (hr _))) ?_
      exact .nil
    · simp only [List.map_cons, List.map_nil, List.sum_cons, List.sum_nil]; ring
    · simp only [List.map_cons, List.map_nil, List.sum_cons, List.sum_nil]; norm_num [abs_of_pos, abs_of_neg]
  · refine ⟨_, _, rfl, rfl, ?_⟩
    refine rule_good hε (1 / 6) _ _ (0.07349304311636194934358694586367885, f 0.7217942490673264 0.09273525031089122628655892066032137 0.09273525031089122628655892066032137) [(0.07349304311636194934358694586367885, f 0.09273525031089122628655892066032137 0.7217942490673264 0.09273525031089122628655892066032137), (0.07349304311636194934358694586367885, f 0.09273525031089122628655892066032137 0.09273525031089122628655892066032137 0.7217942490673264), (0.07349304311636194934358694586367885, f 0.09273525031089122628655892066032137 0.09273525031089122628655892066032137 0.09273525031089122628655892066032137), (0.11268792571801585036501492847638892, f 0.06734224221009821 0.31088591926330060975814749494040332 0.31088591926330060975814749494040332), (0.11268792571801585036501492847638892, f 0.31088591926330060975814749494040332 0.06734224221009821 0.31088591926330060975814749494040332), (0.11268792571801585036501492847638892, f 0.31088591926330060975814749494040332 0.31088591926330060975814749494040332 0.06734224221009821), (0.11268792571801585036501492847638892, f 0.31088591926330060975814749494040332 0.31088591926330060975814749494040332 0.31088591926330060975814749494040332), (0.04254602077708146686093208377328816, f 0.04550370412564965000000000000000000 0.04550370412564965000000000000000000 0.45449629587435036), (0.04254602077708146686093208377328816, f 0.04550370412564965000000000000000000 0.45449629587435036 0.04550370412564965000000000000000000), (0.04254602077708146686093208377328816, f 0.04550370412564965000000000000000000 0.45449629587435036 0.45449629587435036), (0.04254602077708146686093208377328816, f 0.45449629587435036 0.04550370412564965000000000000000000 0.04550370412564965000000000000000000), (0.04254602077708146686093208377328816, f 0.45449629587435036 0.04550370412564965000000000000000000 0.45449629587435036), (0.04254602077708146686093208377328816, f 0.45449629587435036 0.45449629587435036 0.04550370412564965000000000000000000)] ?_ 17 (by simp) _ _ ?_ ?_ hB0 hδ
    · refine .cons (term_flt hε 0.07349304311636194934358694586367885 (hc 0.7217942490673264 0.09273525031089122628655892066032137 0.09273525031089122628655892066032137 (by norm_num) (by norm_num) (by norm_num) (by norm_num) (hr _) (hr _) (hr _))) ?_
      refine .cons (term_flt hε 0.07349304311636194934358694586367885 (hc 0.09273525031089122628655892066032137 0.7217942490673264 0.09273525031089122628655892066032137 (by norm_num) (by norm_num) (by norm_num) (by norm_num) (hr _) (hr _) (hr _))) ?_
      refine .cons (term_flt hε 0.07349304311636194934358694586367885 (hc 0.09273525031089122628655892066032137 0.09273525031089122628655892066032137 0.7217942490673264 (by norm_num) (by norm_num) (by norm_num) (by norm_num) (hr _) (hr _) (hr _))) ?_
      refine .cons (term_flt hε 0.07349304311636194934358694586367885 (hc 0.09273525031089122628655892066032137 0.09273525031089122628655892066032137 0.09273525031089122628655892066032137 (by norm_num) (by norm_num) (by norm_num) (by norm_num) (hr _) (hr _) (hr _))) ?_
      refine .cons (term_flt hε 0.11268792571801585036501492847638892 (hc 0.06734224221009821 0.31088591926330060975814749494040332 0.31088591926330060975814749494040332 (by norm_num) (by norm_num) (by norm_num) (by norm_num) (hr _) (hr _) (hr _))) ?_
      refine .cons (term_flt hε 0.11268792571801585036501492847638892 (hc 0.31088591926330060975814749494040332 0.06734224221009821 0.31088591926330060975814749494040332 (by norm_num) (by norm_num) (by norm_num) (by norm_num) (hr _) (hr _) (hr _))) ?_
      refine .cons (term_flt hε 0.11268792571801585036501492847638892 (hc 0.31088591926330060975814749494040332 0.31088591926330060975814749494040332 0.06734224221009821 (by norm_num) (by norm_num) (by norm_num) (by norm_num) (hr _) (hr _) (hr _))) ?_
      refine .cons (term_flt hε 0.11268792571801585036501492847638892 (hc 0.31088591926330060975814749494040332 0.31088591926330060975814749494040332 0.31088591926330060975814749494040332 (by norm_num) (by norm_num) (by norm_num) (by norm_num) (hr _) (hr _) (hr _))) ?_
      refine .cons (term_flt hε 0.04254602077708146686093208377328816 (hc 0.04550370412564965000000000000000000 0.04550370412564965000000000000000000 0.45449629587435036 (by norm_num) (by norm_num) (by norm_num) (by norm_num) (hr _) (hr _) (hr _))) ?_
      refine .cons (term_flt hε 0.04254602077708146686093208377328816 (hc 0.04550370412564965000000000000000000 0.45449629587435036 0.04550370412564965000000000000000000 (by norm_num) (by norm_num) (by norm_num) (by norm_num) (hr _) (hr _) (hr _))) ?_
      refine .cons (term_flt hε 0.04254602077708146686093208377328816 (hc 0.04550370412564965000000000000000000 0.45449629587435036 0.45449629587435036 (by norm_num) (by norm_num) (by norm_num) (by norm_num) (hr _) (hr _) (hr _))) ?_
      refine .cons (term_flt hε 0.04254602077708146686093208377328816 (hc 0.45449629587435036 0.04550370412564965000000000000000000 0.04550370412564965000000000000000000 (by norm_num) (by norm_num) (by norm_num) (by norm_num) (hr _) (hr _) (hr _))) ?_
      refine .cons (term_flt hε 0.04254602077708146686093208377328816 (hc 0.45449629587435036 0.04550370412564965000000000000000000 0.45449629587435036 (by norm_num) (by norm_num) (by norm_num) (by norm_num) (hr _) (hr _) (hr _))) ?_
      refine .cons (term_flt hε 0.04254602077708146686093208377328816 (hc 0.45449629587435036 0.45449629587435036 0.04550370412564965000000000000000000 (by norm_num) (by norm_num) (by norm_num) (by norm_num) (hr _) (hr _) (hr _))) ?_
      exact .nil
    · simp only [List.map_cons, List.map_nil, List.sum_cons, List.sum_nil]; ring
    · simp only [List.map_cons, List.map_nil, List.sum_cons, List.sum_nil]; norm_num [abs_of_pos, abs_of_neg]

/-- **C104** The error of the triangle rule with rounded numbers against the integral: the error of the rule itself, measured by the distance `e` of the integrand
from a polynomial of degree `n`, plus the roundings, plus the weighted error of the integrand. -/
theorem C104_unit_triangle_integral (hε : 0 ≤ ε) (hδ : 0 ≤ δ) (n : ℕ) (h1 : 1 ≤ n) (h4 : n ≤ 4) (F : ℝ → ℝ → Set ℝ) (f : ℝ → ℝ → ℝ) (hF : Computes2 ε δ F f)
    (B : ℝ) (hB : ∀ x ∈ Spec.unitSimplex 2, |f (x 0) (x 1)| ≤ B) (hf : IntegrableOn (fun x : Fin 2 → ℝ => f (x 0) (x 1)) (Spec.unitSimplex 2))
    (p : MvPolynomial (Fin 2) ℝ) (hp : p.totalDegree ≤ n) (e : ℝ) (he : ∀ x ∈ Spec.unitSimplex 2, |f (x 0) (x 1) - eval x p| ≤ e) :
    ∃ A, unitTriangleFixed ε F n = .ok A ∧ A.Nonempty ∧ ∀ c ∈ A, |c - ∫ x in Spec.unitSimplex 2, f (x 0) (x 1)| ≤
      ((1 + ε) ^ 9 - 1) * ((if n = 3 then 17 / 16 else 1 / 2) * (B + δ)) + (if n = 3 then 17 / 16 else 1 / 2) * δ + ((if n = 3 then 25 / 16 else 1) * e + if n ≤ 3 then 0 else 1 / 10 ^ 15 * ∑ d ∈ p.support, |coeff d p|) := by
  obtain ⟨A, q, hA, hq, hne, hd⟩ := C104_unit_triangle hε hδ n h1 h4 F f hF B hB
  obtain ⟨q', hq', hi⟩ := Quadrature.C51_unit_triangle_approx n h1 h4 f hf p hp e he
  obtain rfl : q = q' := Except.ok.inj (hq.symm.trans hq')
  refine ⟨A, hA, hne, fun c hc => (abs_sub_le c q _).trans (add_le_add (hd c hc) hi)⟩

/-- **C104** The error of the tetrahedron rule with rounded numbers against the integral: the error of the rule itself, measured by the distance `e` of the integrand
from a polynomial of degree `n`, plus the roundings, plus the weighted error of the integrand. -/
theorem C104_unit_tetrahedron_integral (hε : 0 ≤ ε) (hδ : 0 ≤ δ) (n : ℕ) (h1 : 1 ≤ n) (h4 : n ≤ 4) (F : ℝ → ℝ → ℝ → Set ℝ) (f : ℝ → ℝ → ℝ → ℝ) (hF : Computes3 ε δ F f)
    (B : ℝ) (hB : ∀ x ∈ Spec.unitSimplex 3, |f (x 0) (x 1) (x 2)| ≤ B) (hf : IntegrableOn (fun x : Fin 3 → ℝ => f (x 0) (x 1) (x 2)) (Spec.unitSimplex 3))
    (p : MvPolynomial (Fin 3) ℝ) (hp : p.totalDegree ≤ n) (e : ℝ) (he : ∀ x ∈ Spec.unitSimplex 3, |f (x 0) (x 1) (x 2) - eval x p| ≤ e) :
    ∃ A, unitTetrahedronFixed ε F n = .ok A ∧ A.Nonempty ∧ ∀ c ∈ A, |c - ∫ x in Spec.unitSimplex 3, f (x 0) (x 1) (x 2)| ≤
      ((1 + ε) ^ 17 - 1) * ((if n = 3 then 13 / 30 else 1 / 6 + 1 / 10 ^ 30) * (B + δ)) + (if n = 3 then 13 / 30 else 1 / 6 + 1 / 10 ^ 30) * δ + ((if n = 3 then 3 / 5 else 1 / 3 + 1 / 10 ^ 30) * e + if n = 1 ∨ n = 3 then 0 else 3 / 10 ^ 18 * ∑ d ∈ p.support, |coeff d p|) := by
  obtain ⟨A, q, hA, hq, hne, hd⟩ := C104_unit_tetrahedron hε hδ n h1 h4 F f hF B hB
  obtain ⟨q', hq', hi⟩ := Quadrature.C51_unit_tetrahedron_approx n h1 h4 f hf p hp e he
  obtain rfl : q = q' := Except.ok.inj (hq.symm.trans hq')
  refine ⟨A, hA, hne, fun c hc => (abs_sub_le c q _).trans (add_le_add (hd c hc) hi)⟩

/-- **C104** The last step for triangles and tetrahedra in general position, `d * integral`: when the computed determinant has a relative error of at most `η`
and every result for the unit simplex differs by at most `R` from `q`, every result differs from `d q` by the errors of the two factors and one rounding. -/
theorem C104_scaled (hε : 0 ≤ ε) {η d q Q R : ℝ} (hη : 0 ≤ η) (hd : 0 ≤ d) (D I : Set ℝ) (hD : D.Nonempty) (hD' : ∀ x ∈ D, |x - d| ≤ η * d) (hq : |q| ≤ Q)
    (hI : I.Nonempty) (hI' : ∀ u ∈ I, |u - q| ≤ R) :
    ∃ A, scale ε D (.ok I) = .ok A ∧ A.Nonempty ∧ ∀ c ∈ A, |c - d * q| ≤ d * (((1 + ε) * (1 + η) - 1) * (Q + R) + R) := by
  refine ⟨_, rfl, ?_, ?_⟩
  · obtain ⟨x, hx⟩ := hD
    obtain ⟨u, hu⟩ := hI
    exact ⟨x * u, x, hx, u, hu, rounded_self hε⟩
  · rintro c ⟨x, hx, u, hu, hc⟩
    have h1 := hD' x hx
    have h2 := hI' u hu
    have hu' : |u| ≤ Q + R := by
      have : |u| ≤ |u - q| + |q| := by simpa using abs_add_le (u - q) q
      linarith
    have hx' : |x| ≤ (1 + η) * d := by
      have : |x| ≤ |x - d| + |d| := by simpa using abs_add_le (x - d) d
      rw [abs_of_nonneg hd] at this
      linarith
    have h3 : |c - x * u| ≤ ε * ((1 + η) * d * (Q + R)) := by
      refine le_trans hc (mul_le_mul_of_nonneg_left ?_ hε)
      rw [abs_mul]
      exact mul_le_mul hx' hu' (abs_nonneg _) (by positivity)
    have h4 : |x * u - d * q| ≤ η * d * (Q + R) + d * R := by
      rw [show x * u - d * q = (x - d) * u + d * (u - q) by ring]
      refine (abs_add_le _ _).trans (add_le_add ?_ ?_)
      · rw [abs_mul]
        exact mul_le_mul h1 hu' (abs_nonneg _) (by positivity)
      · rw [abs_mul, abs_of_nonneg hd]
        exact mul_le_mul_of_nonneg_left h2 hd
    refine (abs_sub_le c (x * u) _).trans ((add_le_add h3 h4).trans (le_of_eq ?_))
    ring

/-- **C104** Other degrees are rejected in the same way as with real numbers. -/
theorem C104_degree (n : ℕ) (hn : n = 0 ∨ 4 < n) (F : ℝ → ℝ → Set ℝ) (G : ℝ → ℝ → ℝ → Set ℝ) :
    unitTriangleFixed ε F n = .error .value ∧ unitTetrahedronFixed ε G n = .error .value := by
  unfold unitTriangleFixed unitTetrahedronFixed
  rw [if_neg (by omega), if_neg (by omega), if_neg (by omega), if_neg (by omega), if_neg (by omega), if_neg (by omega), if_neg (by omega), if_neg (by omega)]
  exact ⟨rfl, rfl⟩

/-- The function `x y`, computed with one rounded product, meets the assumption with double precision, and the value is bounded by one. -/
theorem product_computes {ε : ℝ} (hε : 0 ≤ ε) : Computes2 ε ((1 + ε) ^ 3 - 1) (fun x y => FloatPoly.mul ε {x} {y}) (fun x y => x * y) := by
  intro x y x' y' hx hy hxy hx' hy'
  refine ⟨⟨x' * y', x', rfl, y', rfl, rounded_self hε⟩, ?_⟩
  rintro c ⟨_, rfl, _, rfl, hc⟩
  have h := (((near_of_rounded (ε := ε) hx').mul hε (near_of_rounded (ε := ε) hy')).round hε hc).2
  refine (show |c - x * y| ≤ ((1 + ε) ^ 3 - 1) * (|x| * |y|) from h).trans ?_
  have h1 : |x| * |y| ≤ 1 := by
    rw [abs_of_nonneg hx, abs_of_nonneg hy]
    nlinarith
  exact mul_le_of_le_one_right (by have := one_le_pow₀ (show 1 ≤ 1 + ε by linarith) (n := 3); linarith) h1

example : ∃ A, unitTriangleFixed (1 / 2 ^ 53) (fun x y => FloatPoly.mul (1 / 2 ^ 53) {x} {y}) 4 = .ok A ∧ A.Nonempty ∧
    ∀ c ∈ A, ∃ q, Quadrature.unitTriangleFixed (fun x y => x * y) 4 = .ok q ∧ |c - q| ≤ 1 / 10 ^ 15 := by
  obtain ⟨A, q, hA, hq, hne, h⟩ := C104_unit_triangle (ε := 1 / 2 ^ 53) (by norm_num) (by norm_num) 4 (by norm_num) (by norm_num) _ _
    (product_computes (by norm_num)) 1 (by
      rintro x ⟨h0, h1⟩
      rw [Fin.sum_univ_two] at h1
      have := h0 0
      have := h0 1
      rw [abs_of_nonneg (by positivity)]
      nlinarith)
  refine ⟨A, hA, hne, fun c hc => ⟨q, hq, (h c hc).trans ?_⟩⟩
  norm_num

example : ∃ A, unitTetrahedronFixed (1 / 2 ^ 53) (fun x y _ => FloatPoly.mul (1 / 2 ^ 53) {x} {y}) 3 = .ok A ∧ A.Nonempty ∧
    ∀ c ∈ A, |c - ∫ x in Spec.unitSimplex 3, x 0 * x 1| ≤ 1 / 10 ^ 14 := by
  obtain ⟨A, hA, hne, h⟩ := C104_unit_tetrahedron_integral (ε := 1 / 2 ^ 53) (δ := (1 + 1 / 2 ^ 53) ^ 3 - 1) (by norm_num) (by norm_num) 3 (by norm_num)
    (by norm_num) (fun x y _ => FloatPoly.mul (1 / 2 ^ 53) {x} {y}) (fun x y _ => x * y)
    (fun x y z x' y' _ hx hy hz hs hx' hy' _ => product_computes (by norm_num) x y x' y' hx hy (by linarith) hx' hy') 1 (by
      rintro x ⟨h0, h1⟩
      rw [Fin.sum_univ_three] at h1
      have := h0 0
      have := h0 1
      have := h0 2
      rw [abs_of_nonneg (by positivity)]
      nlinarith)
    (Continuous.continuousOn (by fun_prop) |>.integrableOn_compact (Integration.isCompact_unit 3)) (X 0 * X 1)
    ((totalDegree_mul _ _).trans (by simp [totalDegree_X])) 0 (by intro x _; simp)
  refine ⟨A, hA, hne, fun c hc => (h c hc).trans ?_⟩
  norm_num

example : ∃ A, scale (1 / 2 ^ 53) {2} (.ok {3}) = .ok A ∧ A.Nonempty ∧ ∀ c ∈ A, |c - 2 * 3| ≤ 1 / 10 ^ 15 := by
  obtain ⟨A, hA, hne, h⟩ := C104_scaled (ε := 1 / 2 ^ 53) (η := 0) (d := 2) (q := 3) (Q := 3) (R := 0) (by norm_num) le_rfl (by norm_num) {2} {3}
    (Set.singleton_nonempty _) (by simp) (by norm_num) (Set.singleton_nonempty _) (by simp)
  exact ⟨A, hA, hne, fun c hc => (h c hc).trans (by norm_num)⟩

end Verif.FloatQuadrature
