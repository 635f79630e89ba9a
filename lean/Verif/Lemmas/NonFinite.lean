import Verif.Model.NonFinite
import Verif.Spec.NonFinite
import Verif.Lemmas.CodeGeneration3
import Verif.Lemmas.SimplexPolynomial
/-!
# Lemmas about polynomials with infinite or undefined coefficients
-/

namespace Verif.NonFinite
open Verif Verif.Str Verif.Poly Verif.CodeGen Verif.SimplexGeometry Verif.SPoly Verif.PP Verif.Simplex Verif.L2G

@[simp] theorem finite_fin (x : ℝ) : Finite (.fin x) := ⟨x, rfl⟩
@[simp] theorem finite_inf (s : Bool) : ¬ Finite (.inf s) := by rintro ⟨x, hx⟩; cases hx
@[simp] theorem finite_nan : ¬ Finite .nan := by rintro ⟨x, hx⟩; cases hx

theorem finite_add (a b : Num) : Finite (add a b) ↔ Finite a ∧ Finite b := by
  cases a <;> cases b <;> simp [add]
  split <;> simp

theorem finite_scale (c : ℝ) (a : Num) : Finite (scale c a) ↔ Finite a := by
  cases a <;> simp [scale]
  split <;> simp

theorem quot_ne {s : ℝ} (hs : s ≠ 0) (c : ℝ) : Num.quot c s = .fin (c / s) := by
  simp [Num.quot, hs]

theorem quot_zero (c : ℝ) : ¬ Finite (Num.quot c 0) := by
  unfold Num.quot
  by_cases h : c = 0 <;> simp [h]

/-- The exception of `int` for a number that is not finite. -/
def errOf : Num → PyErr
  | .nan => .value
  | _ => .overflow

theorem strNumberNum_fin (str : Num → Str) (x : ℝ) : ∃ t, strNumberNum str (.fin x) = .ok t := by
  unfold strNumberNum toInt
  rw [Py.bind_ok]
  generalize (if 0 ≤ x then ⌊x⌋ else ⌈x⌉) = k
  split <;> exact ⟨_, rfl⟩

theorem strNumberNum_error (str : Num → Str) {a : Num} (h : ¬ Finite a) : strNumberNum str a = .error (errOf a) := by
  cases a with
  | fin x => exact absurd (finite_fin x) h
  | inf s => rfl
  | nan => rfl

/-- The text of a finite number. -/
noncomputable def textOf (str : Num → Str) (x : ℝ) : Str :=
  match strNumberNum str (.fin x) with
  | .ok t => t
  | .error _ => []

theorem strNumberNum_textOf (str : Num → Str) (x : ℝ) : strNumberNum str (.fin x) = .ok (textOf str x) := by
  obtain ⟨t, h⟩ := strNumberNum_fin str x
  rw [textOf, h]

theorem mapM_fin (str : Num → Str) (l : List ℝ) : (l.map Num.fin).mapM (strNumberNum str) = .ok (l.map (textOf str)) := by
  induction l with
  | nil => rfl
  | cons x l ih => simp only [List.map_cons, List.mapM_cons, strNumberNum_textOf, ih, Py.bind_ok]; rfl

/-- The first number that is not finite determines the exception. -/
theorem mapM_nonfinite (str : Num → Str) (pre : List ℝ) {a : Num} (h : ¬ Finite a) (post : List Num) :
    (pre.map Num.fin ++ a :: post).mapM (strNumberNum str) = .error (errOf a) := by
  induction pre with
  | nil => simp only [List.map_nil, List.nil_append, List.mapM_cons, strNumberNum_error str h, Py.bind_error]
  | cons x l ih => simp only [List.map_cons, List.cons_append, List.mapM_cons, strNumberNum_textOf, ih, Py.bind_ok, Py.bind_error]

theorem all_finite {l : List Num} (h : ∀ a ∈ l, Finite a) : ∃ c : List ℝ, l = c.map Num.fin := by
  induction l with
  | nil => exact ⟨[], rfl⟩
  | cons a l ih =>
    obtain ⟨x, rfl⟩ := h a (by simp)
    obtain ⟨c, rfl⟩ := ih (fun b hb => h b (by simp [hb]))
    exact ⟨x :: c, rfl⟩

theorem first_nonfinite {l : List Num} (h : ∃ a ∈ l, ¬ Finite a) : ∃ (pre : List ℝ) (a : Num) (post : List Num), ¬ Finite a ∧
    l = pre.map Num.fin ++ a :: post := by
  induction l with
  | nil => obtain ⟨a, ha, -⟩ := h; cases ha
  | cons b l ih =>
    by_cases hb : Finite b
    · obtain ⟨x, rfl⟩ := hb
      obtain ⟨a, ha, hf⟩ := h
      have ha' : a ∈ l := by
        rcases List.mem_cons.1 ha with rfl | h
        · exact absurd (finite_fin x) hf
        · exact h
      obtain ⟨pre, a', post, h1, h2⟩ := ih ⟨a, ha', hf⟩
      exact ⟨x :: pre, a', post, h1, by rw [h2]; rfl⟩
    · exact ⟨[], b, l, hb, rfl⟩

/-! ## The constructor -/

theorem new_length {V : Type} {b : Basis} {c : List V} {r : Option Nat} {m : Nat} {p : Obj V} (h : Obj.new b c r m = .ok p) :
    p.basis = b ∧ p.coeff = c ∧ p.m = m ∧ c.length = getDimension p.r m := by
  unfold Obj.new at h
  by_cases h0 : c.length > 0
  · simp only [h0, decide_true, pyAssert_true, Py.bind_ok] at h
    cases r with
    | none =>
      rcases hd : getDegreeFromDimension c.length m with e | d
      · simp [hd] at h
      · simp only [hd, Py.bind_ok] at h
        cases h
        exact ⟨rfl, rfl, rfl, (degree_lt hd).2.symm⟩
    | some r =>
      by_cases hm : m > 0
      · simp only [hm, ↓reduceIte] at h
        rcases hd : getDegreeFromDimension c.length m with e | d
        · simp [hd] at h
        · by_cases hr : r = d
          · subst hr
            simp only [hd, Py.bind_ok, decide_true, pyAssert_true] at h
            cases h
            exact ⟨rfl, rfl, rfl, (degree_lt hd).2.symm⟩
          · simp [hd, hr] at h
      · simp only [hm, ↓reduceIte] at h
        by_cases h1 : c.length = 1
        · simp only [h1, decide_true, pyAssert_true, Py.bind_ok] at h
          cases h
          obtain rfl : m = 0 := by omega
          exact ⟨rfl, rfl, rfl, by rw [getDimension_zero]; exact h1⟩
        · simp [h1] at h
  · simp only [h0, decide_false, pyAssert_false, Py.bind_error] at h; cases h

/-- The object with all coefficients mapped. -/
def mapCoeff {V W : Type} (g : V → W) (p : Obj V) : Obj W := ⟨p.basis, p.coeff.map g, p.r, p.m⟩

theorem new_map {V W : Type} (g : V → W) (b : Basis) (c : List V) (r : Option Nat) (m : Nat) :
    Obj.new b (c.map g) r m = (Obj.new b c r m).map (mapCoeff g) := by
  unfold Obj.new
  rw [List.length_map]
  by_cases h0 : c.length > 0
  · simp only [h0, decide_true, pyAssert_true, Py.bind_ok]
    cases r with
    | none => cases getDegreeFromDimension c.length m <;> rfl
    | some r =>
      by_cases hm : m > 0
      · simp only [hm, ↓reduceIte]
        rcases getDegreeFromDimension c.length m with e | d
        · rfl
        · by_cases hr : r = d <;> simp [hr, Except.map, mapCoeff, pyAssert]
      · simp only [hm, ↓reduceIte]
        by_cases h1 : c.length = 1 <;> simp [h1, Except.map, mapCoeff, pyAssert]
  · simp only [h0, decide_false, pyAssert_false, Py.bind_error]; rfl

theorem fillLoop_eq' {V ι : Type} (f : ι → Py V) (g : ι → V) : ∀ (l : List ι) (pre post : List V),
    (∀ x ∈ l, f x = .ok (g x)) → post.length = l.length →
    fillLoop f l pre.length (pre ++ post) = .ok (pre ++ l.map g) := by
  intro l
  induction l with
  | nil => intro pre post _ h; simp only [fillLoop]; simp at h; simp [h]
  | cons a l ih =>
    intro pre post hf h
    match post, h with
    | b :: post, h =>
      simp only [fillLoop, hf a (by simp), Py.bind_ok]
      rw [setE_ok (by simp)]
      simp only [Py.bind_ok]
      have := ih (pre ++ [g a]) post (fun x hx => hf x (by simp [hx])) (by simpa using h)
      simp only [List.length_append, List.length_singleton, List.append_assoc, List.singleton_append] at this
      rw [show (pre ++ b :: post).set pre.length (g a) = pre ++ g a :: post by simp, this]
      simp

theorem bernsteinANum_tab (p : Obj Num) (f : List Nat → Num) (h : p.coeff = tab p.m p.r f) :
    bernsteinANum p = .ok (tab p.m p.r (fun ν => scale (Spec.multinomial p.r ν : ℝ) (f ν))) := by
  unfold bernsteinANum
  have hlen : p.coeff.length = getDimension p.r p.m := by rw [h]; simp
  by_cases hm : p.m = 1
  · rw [if_pos hm, hlen, hm, getDimension_one]
    rw [hm] at h
    have := fillLoop_eq' (fun i => do
      let c ← getE p.coeff i
      return scale ((p.r.choose i : Nat) : ℝ) c) (fun i => scale (Spec.multinomial p.r [i] : ℝ) (f [i]))
      (List.range (p.r + 1)) [] (List.replicate (p.r + 1) (.fin 0)) ?_ (by simp)
    · simpa [tab_one] using this
    · intro i hi
      have hi' : i < p.r + 1 := List.mem_range.1 hi
      have : getE p.coeff i = .ok (f [i]) := by
        rw [h]; exact getE_tab f (by simp [mis_one, hi'])
      rw [this, multinomial_one p.r i (by omega)]; rfl
  · rw [if_neg hm, hlen, MI.generateAll_eq_mis]
    have := fillLoop_eq' (fun (e : List Nat × Nat) => do
      let c ← getE p.coeff e.2
      let b ← MI.multinomGeneral p.r e.1
      return scale (b : ℝ) c) (fun e => scale (Spec.multinomial p.r e.1 : ℝ) (f e.1))
      (MI.mis p.m p.r).zipIdx [] (List.replicate (getDimension p.r p.m) (.fin 0)) ?_ (by simp [length_mis_eq])
    · rw [List.nil_append, List.nil_append] at this
      rw [List.length_nil] at this
      rw [this]
      congr 1
      apply List.ext_getElem <;> simp [tab]
    · intro e he
      obtain ⟨h1, h2, h3⟩ := mem_zipIdx_mis he
      rw [h, getE_tab f h1, multinomGeneral_eq _ _ h3]
      simp

/-- The product of a matrix with a vector of numbers. -/
theorem dotColumnsNum_fin (dim : Nat) (cols : List (List ℝ)) (a : List ℝ) :
    dotColumnsNum dim cols (a.map Num.fin) = (dotColumns (K := ℝ) dim cols a).map Num.fin := by
  have key : ∀ (cols : List (List ℝ)) (a : List ℝ) (acc : List ℝ),
      (cols.zip (a.map Num.fin)).foldl (fun acc e => List.zipWith (fun v t => add v (scale t e.2)) acc e.1) (acc.map Num.fin) =
        ((cols.zip a).foldl (fun acc e => List.zipWith (fun v t => v + t • e.2) acc e.1) acc).map Num.fin := by
    intro cols
    induction cols with
    | nil => intro a acc; simp
    | cons c cols ih =>
      intro a acc
      cases a with
      | nil => simp
      | cons x a =>
        simp only [List.map_cons, List.zip_cons_cons, List.foldl_cons]
        rw [← ih]
        congr 1
        rw [List.zipWith_map_left, List.map_zipWith]
        rfl
  have := key cols a (zeros ℝ dim)
  rw [show (zeros ℝ dim).map Num.fin = List.replicate dim (.fin 0) by simp [zeros]] at this
  exact this

theorem dotColumnsNum_nonfinite (dim : Nat) : ∀ (cols : List (List ℝ)) (a acc : List Num), (∀ c ∈ cols, c.length = dim) → cols.length = a.length →
    acc.length = dim →
    ((cols.zip a).foldl (fun acc e => List.zipWith (fun v t => add v (scale t e.2)) acc e.1) acc).length = dim ∧
    ((∃ x ∈ a, ¬ Finite x) ∨ (∀ x ∈ acc, ¬ Finite x) →
      ∀ x ∈ (cols.zip a).foldl (fun acc e => List.zipWith (fun v t => add v (scale t e.2)) acc e.1) acc, ¬ Finite x)
  | [], a, acc, _, hl, ha => by
    have : a = [] := List.length_eq_zero_iff.1 (by simpa using hl.symm)
    subst this
    refine ⟨by simpa using ha, ?_⟩
    rintro (⟨x, hx, -⟩ | h)
    · cases hx
    · simpa using h
  | c :: cols, a, acc, hc, hl, ha => by
    cases a with
    | nil => simp at hl
    | cons y a =>
      simp only [List.zip_cons_cons, List.foldl_cons]
      have hlen : (List.zipWith (fun v t => add v (scale t y)) acc c).length = dim := by
        simp [ha, hc c (by simp)]
      obtain ⟨h1, h2⟩ := dotColumnsNum_nonfinite dim cols a _ (fun c' h => hc c' (by simp [h])) (by simpa using hl) hlen
      refine ⟨h1, fun h => h2 ?_⟩
      have hz : (∀ x ∈ acc, ¬ Finite x) ∨ ¬ Finite y → ∀ x ∈ List.zipWith (fun v t => add v (scale t y)) acc c, ¬ Finite x := by
        intro hh x hx
        obtain ⟨i, hi, rfl⟩ := List.getElem_of_mem hx
        rw [List.getElem_zipWith, finite_add, finite_scale]
        rintro ⟨h3, h4⟩
        rcases hh with hh | hh
        · exact hh _ (List.getElem_mem _) h3
        · exact hh h4
      rcases h with ⟨x, hx, hf⟩ | h
      · rcases List.mem_cons.1 hx with rfl | hx
        · exact Or.inr (hz (Or.inr hf))
        · exact Or.inl ⟨x, hx, hf⟩
      · exact Or.inr (hz (Or.inl h))

instance : Inhabited Num := ⟨.nan⟩

/-- The numbers in the code of an object with a coefficient that is not finite are not all finite. -/
theorem genCoeffsNum_nonfinite {p : Obj Num} (hl : p.coeff.length = getDimension p.r p.m) (h : ∃ a ∈ p.coeff, ¬ Finite a) :
    ∃ l, genCoeffsNum p = .ok l ∧ ∃ a ∈ l, ¬ Finite a := by
  unfold genCoeffsNum
  cases hb : p.basis with
  | monomial => exact ⟨_, rfl, h⟩
  | bernstein =>
    obtain ⟨f, hf⟩ := exists_tab p.m p.r p.coeff hl
    refine ⟨_, bernsteinANum_tab p f hf, ?_⟩
    obtain ⟨a, ha, hn⟩ := h
    rw [hf] at ha
    obtain ⟨ν, hν, rfl⟩ := List.mem_map.1 ha
    exact ⟨_, List.mem_map.2 ⟨ν, hν, rfl⟩, by rwa [finite_scale]⟩
  | lagrange =>
    simp only
    rw [getLagrangeBaseColumns_eq, Py.bind_ok]
    refine ⟨_, rfl, ?_⟩
    obtain ⟨h1, h2⟩ := dotColumnsNum_nonfinite (getDimension p.r p.m) ((MI.mis p.m p.r).map (fun ν => tab p.m p.r (lagCoeff ℝ p.m p.r ν))) p.coeff
      (List.replicate (getDimension p.r p.m) (.fin 0)) (by
        intro c hc
        obtain ⟨ν, -, rfl⟩ := List.mem_map.1 hc
        simp) (by simp [length_mis_eq, hl]) (by simp)
    have hpos : 0 < (dotColumnsNum (getDimension p.r p.m) ((MI.mis p.m p.r).map (fun ν => tab p.m p.r (lagCoeff ℝ p.m p.r ν))) p.coeff).length := by
      unfold dotColumnsNum
      rw [h1]
      exact getDimension_pos _ _
    exact ⟨_, List.getElem_mem hpos, h2 (Or.inl h) _ (List.getElem_mem hpos)⟩

theorem evalTextNum_nonfinite (str : Num → Str) {p : Obj Num} (hl : p.coeff.length = getDimension p.r p.m) (h : ∃ a ∈ p.coeff, ¬ Finite a) :
    evalTextNum str p = .error .overflow ∨ evalTextNum str p = .error .value := by
  obtain ⟨l, h1, h2⟩ := genCoeffsNum_nonfinite hl h
  obtain ⟨pre, a, post, h3, rfl⟩ := first_nonfinite h2
  unfold evalTextNum
  rw [h1, Py.bind_ok, mapM_nonfinite str pre h3, Py.bind_error]
  cases a with
  | fin x => exact absurd (finite_fin x) h3
  | inf s => exact Or.inl rfl
  | nan => exact Or.inr rfl

theorem genCoeffsNum_fin {p : Obj ℝ} (hl : p.coeff.length = getDimension p.r p.m) :
    genCoeffsNum (mapCoeff Num.fin p) = (genCoeffs (K := ℝ) p).map (List.map Num.fin) := by
  unfold genCoeffsNum genCoeffs
  cases hb : p.basis with
  | monomial => simp only [mapCoeff, hb]; rfl
  | bernstein =>
    obtain ⟨f, hf⟩ := exists_tab p.m p.r p.coeff hl
    have h1 := bernsteinANum_tab (mapCoeff Num.fin p) (fun ν => Num.fin (f ν)) (by simp only [mapCoeff, hf, tab, List.map_map]; rfl)
    have h2 := bernsteinA_tab (K := ℝ) p f hf
    simp only [mapCoeff, hb] at h1 ⊢
    rw [h1, h2]
    simp only [Except.map, tab, List.map_map]
    rfl
  | lagrange =>
    simp only [mapCoeff, hb]
    rw [getLagrangeBaseColumns_eq, Py.bind_ok, dotColumnsNum_fin]
    rfl

theorem evalTextNum_fin (str : Num → Str) {p : Obj ℝ} (hl : p.coeff.length = getDimension p.r p.m) :
    evalTextNum str (mapCoeff Num.fin p) = evalText (textOf str) p := by
  unfold evalTextNum
  rw [genCoeffsNum_fin hl]
  unfold genCoeffs evalText
  cases hb : p.basis with
  | monomial =>
    simp only [mapCoeff, hb, Except.map]
    rw [Py.bind_ok, mapM_fin, Py.bind_ok]
    rfl
  | bernstein =>
    simp only [mapCoeff, hb]
    obtain ⟨f, hf⟩ := exists_tab p.m p.r p.coeff hl
    rw [bernsteinA_tab (K := ℝ) p f hf, Py.bind_ok]
    simp only [Except.map]
    rw [Py.bind_ok, mapM_fin, Py.bind_ok]
    rfl
  | lagrange =>
    simp only [mapCoeff, hb]
    unfold lagrangeEval
    rw [getLagrangeBaseColumns_eq, Py.bind_ok, Py.bind_ok]
    simp only [Py.pure_eq, Except.map]
    rw [Py.bind_ok, mapM_fin, Py.bind_ok]
    rfl

/-! ## Piecewise polynomials -/

theorem pyGet_map {V W : Type} (g : V → W) (l : List V) (i : Int) : pyGet (l.map g) i = (pyGet l i).map g := by
  unfold pyGet
  rw [List.length_map, List.getElem?_map, List.getElem?_map]
  split
  · cases l[i.toNat]? <;> rfl
  · split
    · cases l[(i + l.length).toNat]? <;> rfl
    · rfl

theorem evalLoopNum_spec {m : Nat} {Tr : Type} {p : PObj ℝ ℝ m Tr} {g : ℝ → Num} (hn : ∀ a, ¬ Finite (g a)) {j : Nat} {x : Fin m → ℝ} : ∀ (l : List (List Nat)) (k : Nat) (value : ℝ) (w : ℝ) (value' : Num),
    evalLoop p j x l k value = .ok w → ∃ w', evalLoopNum p (p.coeff.map g) j x l k value' = .ok w' ∧
      (Finite w' ↔ Finite value' ∧ ∀ ν ∈ l, p.tau j ν = .ok (-1))
  | [], k, value, w, value', _ => ⟨value', rfl, by simp⟩
  | ν :: l, k, value, w, value', h => by
    unfold evalLoop at h
    unfold evalLoopNum
    rcases hi : p.tau j ν with e | i
    · rw [hi] at h; cases h
    rw [hi, Py.bind_ok] at h
    rw [Py.bind_ok]
    by_cases h1 : i = -1
    · rw [if_pos h1] at h ⊢
      obtain ⟨w', h2, h3⟩ := evalLoopNum_spec hn l (k + 1) value w value' h
      refine ⟨w', h2, h3.trans ?_⟩
      simp [hi, h1]
    · rw [if_neg h1] at h ⊢
      rcases hc : pyGet p.coeff i with e | c
      · rw [hc] at h; cases h
      rw [hc, Py.bind_ok] at h
      have hc' : ∃ c', pyGet (p.coeff.map g) i = .ok c' ∧ ¬ Finite c' := by
        exact ⟨g c, by rw [pyGet_map, hc]; rfl, hn c⟩
      obtain ⟨c', hc1, hc2⟩ := hc'
      rw [hc1, Py.bind_ok]
      rcases hb : keyE (dget? p.polys j) with e | b
      · rw [hb] at h; cases h
      rw [hb, Py.bind_ok] at h
      rw [Py.bind_ok]
      rcases hq : getE b k with e | q
      · rw [hq] at h; cases h
      rw [hq, Py.bind_ok] at h
      rw [Py.bind_ok]
      rcases hy : q.call x with e | y
      · rw [hy] at h; cases h
      rw [hy, Py.bind_ok] at h
      rw [Py.bind_ok]
      obtain ⟨w', h2, h3⟩ := evalLoopNum_spec hn l (k + 1) _ w (add value' (scale y c')) h
      refine ⟨w', h2, h3.trans ?_⟩
      rw [finite_add, finite_scale]
      constructor
      · rintro ⟨⟨-, h4⟩, -⟩
        exact absurd h4 hc2
      · rintro ⟨-, h4⟩
        have := h4 ν (by simp)
        rw [hi] at this
        exact absurd (Except.ok.inj this) h1

end Verif.NonFinite
