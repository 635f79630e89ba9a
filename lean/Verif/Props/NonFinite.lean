import Verif.Lemmas.NonFinite
import Verif.Props.CodeGeneration
import Verif.Props.Piecewise
import Verif.Lemmas.PiecewiseCont
import Verif.Props.PiecewiseCall
/-!
# C98: polynomials have finite coefficients, and division by zero

`Finite a` says that the numpy number `a` is not infinite and not undefined (Verif/Spec/NonFinite.lean).
-/

namespace Verif.Props
open Verif Verif.Str Verif.Poly Verif.CodeGen Verif.SimplexGeometry Verif.SPoly Verif.PP Verif.Simplex Verif.L2G Verif.NonFinite Verif.Spec

/-! ## Construction -/

/-- **C98** A polynomial cannot be constructed from coefficients that are not all finite: the constructors of the three classes raise OverflowError or
ValueError if the number of coefficients is acceptable, and otherwise the exception for the number of coefficients. -/
theorem C98_nonfinite (str : Num → Str) (hash : Int) (b : Basis) (coeff : List Num) (r : Option Nat) (m : Nat) (h : ∃ a ∈ coeff, ¬ Finite a) :
    (∀ p, Obj.new b coeff r m = .ok p →
      newNum str hash b coeff r m = .error .overflow ∨ newNum str hash b coeff r m = .error .value) ∧
    ∀ e, Obj.new b coeff r m = .error e → newNum str hash b coeff r m = .error e := by
  refine ⟨fun p hp => ?_, fun e he => by rw [newNum, he]; rfl⟩
  obtain ⟨-, h2, h3, h4⟩ := new_length hp
  rw [newNum, hp, Py.bind_ok]
  rcases evalTextNum_nonfinite str (p := p) (by rw [h2, h3]; exact h4) (by rwa [h2]) with h5 | h5 <;> rw [h5, Py.bind_error]
  · exact Or.inl rfl
  · exact Or.inr rfl

/-- **C98** For finite coefficients the constructor does what is modelled for real numbers: it returns the object and compiles the code of C31. -/
theorem C98_finite (str : Num → Str) (hash : Int) (b : Basis) (c : List ℝ) (r : Option Nat) (m : Nat) :
    newNum str hash b (c.map Num.fin) r m = (do
      let p ← Obj.new b c r m
      let code ← objCode (textOf str) hash p
      return (mapCoeff Num.fin p, code)) := by
  unfold newNum
  rw [new_map]
  rcases hp : Obj.new b c r m with e | p
  · rfl
  obtain ⟨h1, h2, h3, h4⟩ := new_length hp
  rw [show Except.map (mapCoeff Num.fin) (Except.ok p : Py (Obj ℝ)) = .ok (mapCoeff Num.fin p) from rfl, Py.bind_ok, Py.bind_ok,
    evalTextNum_fin str (by rw [h2, h3]; exact h4)]
  unfold objCode
  rw [h1, h3]
  rcases evalText (textOf str) p with e | t
  · rfl
  rw [Py.bind_ok, Py.bind_ok]
  rcases scalarBody t with e | t
  · rfl
  rfl

/-- **C98** A polynomial with finite coefficients whose numbers are printed exactly is constructed, and its code computes the polynomial. -/
theorem C98_finite_code (str : Num → Str) (hash : Int) {p : Obj ℝ} {m : Nat} {f : (Fin m → ℝ) → ℝ} (h : Represents p m f)
    (hnum : ∀ a, genCoeffs (K := ℝ) p = .ok a → ∀ v ∈ a, PyExpr.PrintsExactly (textOf str v) v) :
    ∃ code name e, newNum str hash p.basis (p.coeff.map Num.fin) (some p.r) m = .ok (mapCoeff Num.fin p, code, name) ∧
      PyExpr.DefinesFunction code name e ∧ ∀ x : Fin m → ℝ, PyExpr.Denotes (PyExpr.scope (PyExpr.pointArg (List.ofFn x))) e (f x) := by
  obtain ⟨code, name, e, h1, h2, h3⟩ := C31_code p m f h (textOf str) hash hnum
  refine ⟨code, name, e, ?_, h2, h3⟩
  have hv := h.valid
  rw [Obj.Valid, h.dim] at hv
  rw [C98_finite, hv, Py.bind_ok, h1]
  rfl

/-- Which exception is raised by the monomial and the Bernstein basis: the one of the first coefficient that is not finite. -/
theorem C98_nonfinite_kind (str : Num → Str) (hash : Int) (b : Basis) (hb : b ≠ .lagrange) (pre : List ℝ) (a : Num) (post : List Num) (r : Option Nat)
    (m : Nat) (p : Obj Num) (hp : Obj.new b (pre.map Num.fin ++ a :: post) r m = .ok p) :
    (∀ s, a = .inf s → newNum str hash b (pre.map Num.fin ++ a :: post) r m = .error .overflow) ∧
    (a = .nan → newNum str hash b (pre.map Num.fin ++ a :: post) r m = .error .value) := by
  have key : ¬ Finite a → newNum str hash b (pre.map Num.fin ++ a :: post) r m = .error (errOf a) := by
    intro ha
    obtain ⟨h1, h2, h3, h4⟩ := new_length hp
    rw [newNum, hp, Py.bind_ok]
    have : evalTextNum str p = .error (errOf a) := by
      unfold evalTextNum genCoeffsNum
      cases b with
      | lagrange => exact absurd rfl hb
      | monomial =>
        simp only [h1, h2]
        rw [Py.bind_ok, mapM_nonfinite str pre ha post, Py.bind_error]
      | bernstein =>
        simp only [h1]
        obtain ⟨f, hf⟩ := exists_tab p.m p.r p.coeff (by rw [h2, h3]; exact h4)
        rw [bernsteinANum_tab p f hf, Py.bind_ok]
        have e1 : tab p.m p.r (fun ν => scale (Spec.multinomial p.r ν : ℝ) (f ν)) =
            List.zipWith (fun ν c => scale (Spec.multinomial p.r ν : ℝ) c) (MI.mis p.m p.r) p.coeff := by
          rw [hf]
          simp [tab, List.zipWith_map_right, List.zipWith_self]
        have hpos : ∀ ν ∈ MI.mis p.m p.r, (0 : ℝ) < (Spec.multinomial p.r ν : ℝ) := fun ν hν => by
          have := multinomial_pos p.r ν (MI.mem_mis.1 hν).2
          exact_mod_cast this
        have e2 : ∀ (l : List (List Nat)) (pre : List ℝ), (∀ ν ∈ l, (0 : ℝ) < (Spec.multinomial p.r ν : ℝ)) → l.length = (pre.map Num.fin ++ a :: post).length →
            ∃ (pre' : List ℝ) (a' : Num) (post' : List Num), List.zipWith (fun ν c => scale (Spec.multinomial p.r ν : ℝ) c) l (pre.map Num.fin ++ a :: post) =
              pre'.map Num.fin ++ a' :: post' ∧ ¬ Finite a' ∧ errOf a' = errOf a := by
          intro l pre
          induction pre generalizing l with
          | nil =>
            intro hl hlen
            cases l with
            | nil => simp at hlen
            | cons ν l =>
              refine ⟨[], _, _, rfl, by rwa [finite_scale], ?_⟩
              have := hl ν (by simp)
              cases a with
              | fin x => exact absurd (finite_fin x) ha
              | inf s => simp only [scale]; rw [if_neg this.ne']; rfl
              | nan => rfl
          | cons x pre ih =>
            intro hl hlen
            cases l with
            | nil => simp at hlen
            | cons ν l =>
              obtain ⟨pre', a', post', i1, i2, i3⟩ := ih l (fun μ hμ => hl μ (by simp [hμ])) (by simpa using hlen)
              exact ⟨((Spec.multinomial p.r ν : ℝ) * x) :: pre', a', post', by
                simp only [List.map_cons, List.cons_append, List.zipWith_cons_cons, i1]; rfl, i2, i3⟩
        obtain ⟨pre', a', post', i1, i2, i3⟩ := e2 (MI.mis p.m p.r) pre hpos (by rw [length_mis_eq, h3]; exact h4.symm)
        rw [e1, h2, i1, mapM_nonfinite str pre' i2 post', Py.bind_error, i3]
    rw [this, Py.bind_error]
  exact ⟨fun s hs => by subst hs; exact key (by simp), fun hn => by subst hn; exact key (by simp)⟩

theorem evalOf_ok (b : Basis) (m r : Nat) (l : List Str) (h : l.length = getDimension r m) : ∃ t, evalOf b m r l = .ok t := by
  have h0 : l ≠ [] := by
    rintro rfl
    have := getDimension_pos r m
    simp at h
    omega
  have hdot : ∀ (bs : List Str), bs.length = getDimension r m → ∃ t, strDotProduct l bs "*".toList = .ok t := by
    intro bs hbs
    unfold strDotProduct
    rw [decide_eq_true (by rw [h, hbs]), pyAssert_true, Py.bind_ok]
    exact ⟨_, rfl⟩
  have hmono : ∃ t, monomialEval m r l = .ok t := by
    unfold monomialEval
    rw [if_neg h0]
    split
    · match l, h0 with
      | [a], _ => exact ⟨_, rfl⟩
      | a :: b :: l, _ => exact ⟨_, rfl⟩
    · exact hdot _ (by simp [monomialBasisText, MI.generateAll_eq_mis, length_mis_eq])
  cases b with
  | monomial => exact hmono
  | lagrange => exact hmono
  | bernstein =>
    show ∃ t, barycentricEval m r l = .ok t
    unfold barycentricEval
    rw [if_neg h0]
    exact hdot _ (by simp [barycentricBasisText, MI.generateAll_eq_mis, length_mis_eq])

theorem evalTextNum_cases (str : Num → Str) {p : Obj Num} (hl : p.coeff.length = getDimension p.r p.m) :
    ((∀ a ∈ p.coeff, Finite a) → ∃ t, evalTextNum str p = .ok t) ∧
    ((∃ a ∈ p.coeff, ¬ Finite a) → evalTextNum str p = .error .overflow ∨ evalTextNum str p = .error .value) := by
  refine ⟨fun h => ?_, evalTextNum_nonfinite str hl⟩
  obtain ⟨c, hc⟩ := all_finite h
  obtain ⟨b, coeff, r, m⟩ := p
  simp only at hc hl
  subst hc
  have hl' : c.length = getDimension r m := by simpa using hl
  obtain ⟨f, hf⟩ := exists_tab m r c hl'
  have hg : ∃ l : List ℝ, genCoeffs (K := ℝ) (⟨b, c, r, m⟩ : Obj ℝ) = .ok l ∧ l.length = getDimension r m := by
    unfold genCoeffs
    cases b with
    | monomial => exact ⟨_, rfl, hl'⟩
    | bernstein => exact ⟨_, bernsteinA_tab (K := ℝ) ⟨.bernstein, c, r, m⟩ f hf, by simp⟩
    | lagrange =>
      simp only [hf]
      rw [PyExpr.lagrange_coeffs]
      exact ⟨_, rfl, by simp⟩
  obtain ⟨l, h1, h2⟩ := hg
  have := genCoeffsNum_fin (p := (⟨b, c, r, m⟩ : Obj ℝ)) hl'
  rw [h1] at this
  unfold evalTextNum
  simp only [mapCoeff, Except.map] at this
  rw [this, Py.bind_ok, mapM_fin, Py.bind_ok]
  exact evalOf_ok b m r _ (by simpa using h2)

theorem mapM_two {ι : Type} (f : ι → Py Str) (e e' : PyErr) : ∀ l : List ι, (∀ i ∈ l, (∃ t, f i = .ok t) ∨ f i = .error e ∨ f i = .error e') →
    (∃ i ∈ l, ¬ ∃ t, f i = .ok t) → l.mapM f = .error e ∨ l.mapM f = .error e'
  | [], _, h => by obtain ⟨i, hi, -⟩ := h; cases hi
  | i :: l, h, hx => by
    rw [List.mapM_cons]
    rcases h i (by simp) with ⟨t, ht⟩ | ht | ht
    · rw [ht, Py.bind_ok]
      obtain ⟨i', hi', hn⟩ := hx
      have hl : i' ∈ l := by
        rcases List.mem_cons.1 hi' with rfl | h
        · exact absurd ⟨t, ht⟩ hn
        · exact h
      rcases mapM_two f e e' l (fun i hi => h i (by simp [hi])) ⟨i', hl, hn⟩ with h1 | h1 <;> rw [h1, Py.bind_error] <;> simp
    · rw [ht, Py.bind_error]; exact Or.inl rfl
    · rw [ht, Py.bind_error]; exact Or.inr rfl

/-- **C98** The same for vector valued polynomials: one component of one coefficient that is not finite is enough. -/
theorem C98_nonfinite_vector {n : Nat} (str : Num → Str) (hash : Int) (b : Basis) (coeff : List (Fin n → Num)) (r : Option Nat) (m : Nat)
    (h : ∃ a ∈ coeff, ∃ i, ¬ Finite (a i)) :
    (∀ p, Obj.new b coeff r m = .ok p →
      newVectorNum str hash b coeff r m = .error .overflow ∨ newVectorNum str hash b coeff r m = .error .value) ∧
    ∀ e, Obj.new b coeff r m = .error e → newVectorNum str hash b coeff r m = .error e := by
  refine ⟨fun p hp => ?_, fun e he => by rw [newVectorNum, he]; rfl⟩
  obtain ⟨h1, h2, h3, h4⟩ := new_length hp
  rw [newVectorNum, hp, Py.bind_ok]
  have hl : ∀ i, (componentNum p i).coeff.length = getDimension (componentNum p i).r (componentNum p i).m := fun i => by
    simp only [componentNum, List.length_map]
    rw [h2, h3]
    exact h4
  obtain ⟨a, ha, i, hi⟩ := h
  have := mapM_two (fun i => evalTextNum str (componentNum p i)) .overflow .value (List.finRange n) (fun i _ => by
    by_cases hx : ∀ a ∈ (componentNum p i).coeff, Finite a
    · exact Or.inl ((evalTextNum_cases str (hl i)).1 hx)
    · push Not at hx
      exact Or.inr ((evalTextNum_cases str (hl i)).2 hx)) ⟨i, List.mem_finRange i, by
        rintro ⟨t, ht⟩
        rcases (evalTextNum_cases str (hl i)).2 ⟨a i, List.mem_map.2 ⟨a, by rw [h2]; exact ha, rfl⟩, hi⟩ with h5 | h5 <;> simp only [h5] at ht <;> cases ht⟩
  unfold evalTextVectorNum
  rcases this with h5 | h5 <;> rw [h5, Py.bind_error, Py.bind_error] <;> simp

/-- **C98** The same for polynomials on a simplex. -/
theorem C98_nonfinite_simplex {m : Nat} (str : Num → Str) (hash : Int) (b : Basis) (coeff : List Num) (v : Vertices ℝ m m) (r : Option Nat)
    (h : ∃ a ∈ coeff, ¬ Finite a) (p : Obj Num) (hp : Obj.new b coeff r m = .ok p) :
    newSimplexNum str hash b coeff v r = .error .overflow ∨ newSimplexNum str hash b coeff v r = .error .value := by
  unfold newSimplexNum
  rcases (C98_nonfinite str hash b coeff r m h).1 p hp with h1 | h1 <;> rw [h1, Py.bind_error] <;> simp

/-- **C98** For finite coefficients the polynomial on the simplex is constructed if it is in the model for real numbers, and the code can be generated. -/
theorem C98_finite_simplex {m : Nat} (str : Num → Str) (hash : Int) (b : Basis) (c : List ℝ) (v : Vertices ℝ m m) (r : Option Nat) :
    (∀ q code, SObj.new b c v r = .ok q → objCode (textOf str) hash q.poly = .ok code →
      newSimplexNum str hash b (c.map Num.fin) v r = .ok (mapCoeff Num.fin q.poly)) ∧
    ∀ e p code, SObj.new b c v r = .error e → Obj.new b c r m = .ok p → objCode (textOf str) hash p = .ok code →
      newSimplexNum str hash b (c.map Num.fin) v r = .error e := by
  unfold newSimplexNum SObj.new
  rw [C98_finite]
  constructor
  · intro q code hq hc
    rcases hp : Obj.new b c r m with e | p
    · rw [hp] at hq; cases hq
    rw [hp, Py.bind_ok] at hq
    rcases ha : affineToUnit v with e | phi
    · rw [ha] at hq; cases hq
    rw [ha, Py.bind_ok] at hq
    obtain rfl := Except.ok.inj hq
    rw [Py.bind_ok]
    simp only at hc
    rw [hc]
    rfl
  · intro e p code he hp hc
    rw [hp, Py.bind_ok] at he
    rcases ha : affineToUnit v with e' | phi
    · rw [ha] at he
      rw [hp, Py.bind_ok, hc, Py.bind_ok]
      obtain rfl := Except.error.inj he
      rfl
    · rw [ha] at he
      cases he

theorem evalTextVectorNum_fin {n : Nat} (str : Num → Str) {p : Obj (Fin n → ℝ)} (hl : p.coeff.length = getDimension p.r p.m) :
    evalTextVectorNum str (mapCoeff (fun v i => Num.fin (v i)) p) = evalTextVector (textOf str) p := by
  obtain ⟨f, hf⟩ := exists_tab p.m p.r p.coeff hl
  have h1 : ∀ i, evalTextNum str (componentNum (mapCoeff (fun v i => Num.fin (v i)) p) i) =
      evalText (textOf str) ⟨p.basis, p.coeff.map (fun v => v i), p.r, p.m⟩ := fun i => by
    rw [← evalTextNum_fin str (p := ⟨p.basis, p.coeff.map (fun v => v i), p.r, p.m⟩) (by simpa using hl)]
    congr 1
    simp [componentNum, mapCoeff]
  unfold evalTextVectorNum
  simp only [h1]
  unfold evalTextVector
  cases hb : p.basis with
  | monomial =>
    simp only [evalText, vectorEval]
    rfl
  | lagrange =>
    simp only [evalText, vectorEval]
    rfl
  | bernstein =>
    simp only [evalText]
    rw [bernsteinA_tab (K := ℝ) p f hf, Py.bind_ok]
    unfold vectorEval
    congr 1
    congr 1
    funext i
    rw [bernsteinA_tab (K := ℝ) ⟨.bernstein, p.coeff.map (fun v => v i), p.r, p.m⟩ (fun ν => f ν i) (by rw [hf]; simp [tab]), Py.bind_ok]
    congr 2
    simp [tab]

/-- **C98** For finite coefficients the constructor of a vector valued polynomial does what is modelled for real numbers. -/
theorem C98_finite_vector {n : Nat} (str : Num → Str) (hash : Int) (b : Basis) (c : List (Fin n → ℝ)) (r : Option Nat) (m : Nat) :
    newVectorNum str hash b (c.map (fun v i => Num.fin (v i))) r m = (do
      let p ← Obj.new b c r m
      let code ← objCodeVector (textOf str) hash p
      return (mapCoeff (fun v i => Num.fin (v i)) p, code)) := by
  unfold newVectorNum
  rw [new_map]
  rcases hp : Obj.new b c r m with e | p
  · rfl
  obtain ⟨h1, h2, h3, h4⟩ := new_length hp
  rw [show Except.map (mapCoeff (fun (v : Fin n → ℝ) i => Num.fin (v i))) (Except.ok p : Py (Obj (Fin n → ℝ))) = .ok (mapCoeff (fun v i => Num.fin (v i)) p) from rfl,
    Py.bind_ok, Py.bind_ok, evalTextVectorNum_fin str (by rw [h2, h3]; exact h4)]
  unfold objCodeVector
  rw [h1, h3]
  rcases evalTextVector (textOf str) p with e | t
  · rfl
  rw [Py.bind_ok, Py.bind_ok]
  rcases vectorBody t with e | t
  · rfl
  rfl

/-! ## Division -/

/-- **C98** Division of a polynomial by zero never returns: it raises OverflowError or ValueError. -/
theorem C98_divide_zero (str : Num → Str) (hash : Int) {p : Obj ℝ} (h : p.Valid) :
    divNum str hash p 0 = .error .overflow ∨ divNum str hash p 0 = .error .value := by
  unfold divNum
  have hl := ((valid_iff p).1 h).1
  have hpos : 0 < p.coeff.length := hl ▸ getDimension_pos _ _
  refine (C98_nonfinite str hash p.basis _ (some p.r) p.m ⟨Num.quot p.coeff[0] 0, List.mem_map.2 ⟨_, List.getElem_mem hpos, rfl⟩, quot_zero _⟩).1
    (mapCoeff (fun c => Num.quot c 0) p) ?_
  rw [new_map, h]
  rfl

/-- **C98** In the monomial and the Bernstein basis it is ValueError if the first coefficient is zero and OverflowError otherwise. -/
theorem C98_divide_zero_kind (str : Num → Str) (hash : Int) {p : Obj ℝ} (h : p.Valid) (hb : p.basis ≠ .lagrange) (c : ℝ) (hc : p.coeff.head? = some c) :
    (c = 0 → divNum str hash p 0 = .error .value) ∧ (c ≠ 0 → divNum str hash p 0 = .error .overflow) := by
  unfold divNum
  obtain ⟨b, coeff, r, m⟩ := p
  cases coeff with
  | nil => cases hc
  | cons d l =>
    obtain rfl : d = c := by simpa using hc
    have hn : Obj.new b ((([] : List ℝ).map Num.fin) ++ Num.quot d 0 :: l.map (fun c => Num.quot c 0)) (some r) m =
        .ok (mapCoeff (fun c => Num.quot c 0) ⟨b, d :: l, r, m⟩) := by
      have := new_map (fun c : ℝ => Num.quot c 0) b (d :: l) (some r) m
      rw [show Obj.new b (d :: l) (some r) m = .ok ⟨b, d :: l, r, m⟩ from h] at this
      exact this
    have key := C98_nonfinite_kind str hash b hb [] (Num.quot d 0) (l.map (fun c => Num.quot c 0)) (some r) m _ hn
    refine ⟨fun h0 => key.2 (by simp [Num.quot, h0]), fun h0 => key.1 (decide (d < 0)) (by simp [Num.quot, h0])⟩

/-- **C98** Division by another number does what C21, C23 and C27 say about it, and compiles the code of the result. -/
theorem C98_divide (str : Num → Str) (hash : Int) (p : Obj ℝ) {s : ℝ} (hs : s ≠ 0) :
    divNum str hash p s = (do
      let q ← p.divConst s
      let code ← objCode (textOf str) hash q
      return (mapCoeff Num.fin q, code)) := by
  unfold divNum Obj.divConst
  rw [← C98_finite]
  congr 1
  simp only [List.map_map]
  refine List.map_congr_left fun c _ => ?_
  rw [quot_ne hs]
  simp [div_eq_inv_mul]

/-- **C98** Division of a vector valued polynomial by another number. -/
theorem C98_divide_vector {n : Nat} (str : Num → Str) (hash : Int) (p : Obj (Fin n → ℝ)) {s : ℝ} (hs : s ≠ 0) :
    divVectorNum str hash p s = (do
      let q ← p.divConst s
      let code ← objCodeVector (textOf str) hash q
      return (mapCoeff (fun v i => Num.fin (v i)) q, code)) := by
  unfold divVectorNum Obj.divConst
  rw [← C98_finite_vector]
  congr 1
  simp only [List.map_map]
  refine List.map_congr_left fun c _ => ?_
  funext i
  rw [quot_ne hs]
  simp [div_eq_inv_mul]

/-- **C98** Division of a vector valued polynomial by zero. -/
theorem C98_divide_zero_vector {n : Nat} (str : Num → Str) (hash : Int) {p : Obj (Fin (n + 1) → ℝ)} (h : p.Valid) :
    divVectorNum str hash p 0 = .error .overflow ∨ divVectorNum str hash p 0 = .error .value := by
  unfold divVectorNum
  have hl := ((valid_iff p).1 h).1
  have hpos : 0 < p.coeff.length := hl ▸ getDimension_pos _ _
  refine (C98_nonfinite_vector str hash p.basis _ (some p.r) p.m
    ⟨fun i => Num.quot (p.coeff[0] i) 0, List.mem_map.2 ⟨_, List.getElem_mem hpos, rfl⟩, 0, quot_zero _⟩).1
    (mapCoeff (fun (c : Fin (n + 1) → ℝ) i => Num.quot (c i) 0) p) ?_
  rw [new_map, h]
  rfl

/-- **C98** Division of a polynomial on a simplex by zero. -/
theorem C98_divide_zero_simplex {m : Nat} (str : Num → Str) (hash : Int) {p : SObj ℝ ℝ m} (h : p.poly.Valid) (hm : p.poly.m = m) :
    divSimplexNum str hash p 0 = .error .overflow ∨ divSimplexNum str hash p 0 = .error .value := by
  unfold divSimplexNum newSimplexNum
  have := C98_divide_zero str hash h
  unfold divNum at this
  rw [hm] at this
  rcases this with h1 | h1 <;> rw [h1, Py.bind_error] <;> simp

/-! ## Piecewise polynomials -/

/-- **C98** Division of a piecewise polynomial by zero does not raise an exception. On a simplex of its support the value of the quotient is infinite or undefined
at all points, unless no degree of freedom of the space belongs to the simplex; on the other simplices it is zero. -/
theorem C98_divide_zero_piecewise {m : Nat} {Tr : Type} {p : PObj ℝ ℝ m Tr} (h : WellFormed p) (j : Nat) (hj : j < p.triangles.length) (x : Fin m → ℝ) :
    ∃ w, evalQuotient p 0 j x = .ok w ∧
      (j ∈ p.support → (Finite w ↔ ∀ ν ∈ MI.generateAll m p.r, p.tau j ν = .ok (-1))) ∧ (j ∉ p.support → w = .fin 0) := by
  obtain ⟨F, hF⟩ := h.denotes
  have := hF j hj x
  unfold PObj.evaluateOnSimplex at this
  unfold evalQuotient
  by_cases hs : j ∈ p.support
  · rw [if_neg (by simpa using hs)] at this ⊢
    obtain ⟨w, h1, h2⟩ := evalLoopNum_spec (p := p) (g := fun c => Num.quot c 0) quot_zero (MI.generateAll m p.r) 0 0 _ (.fin 0) this
    exact ⟨w, h1, fun _ => by simpa using h2, fun h => absurd hs h⟩
  · rw [if_pos hs]
    exact ⟨_, rfl, fun h => absurd h hs, fun _ => rfl⟩

theorem evalLoopNum_quot {m : Nat} {Tr : Type} {p : PObj ℝ ℝ m Tr} {s : ℝ} (hs : s ≠ 0) {j : Nat} {x : Fin m → ℝ} : ∀ (l : List (List Nat)) (k : Nat)
    (value w : ℝ), evalLoop p j x l k value = .ok w →
    evalLoopNum p (p.coeff.map (fun c => Num.quot c s)) j x l k (.fin (value / s)) = .ok (.fin (w / s))
  | [], k, value, w, h => by
    obtain rfl : value = w := Except.ok.inj h
    rfl
  | ν :: l, k, value, w, h => by
    unfold evalLoop at h
    unfold evalLoopNum
    rcases hi : p.tau j ν with e | i
    · rw [hi] at h; cases h
    rw [hi, Py.bind_ok] at h
    rw [Py.bind_ok]
    by_cases h1 : i = -1
    · rw [if_pos h1] at h ⊢
      exact evalLoopNum_quot hs l (k + 1) value w h
    · rw [if_neg h1] at h ⊢
      rcases hc : pyGet p.coeff i with e | c
      · rw [hc] at h; cases h
      rw [hc, Py.bind_ok] at h
      rw [pyGet_map, hc, show Except.map (fun c => Num.quot c s) (Except.ok c : Py ℝ) = .ok (Num.quot c s) from rfl, Py.bind_ok]
      rcases hb : keyE (dget? p.polys j) with e | b
      · rw [hb] at h; cases h
      rw [hb, Py.bind_ok] at h
      rw [Py.bind_ok]
      rcases hq : getE b k with e | q
      · rw [hq] at h; cases h
      rw [hq, Py.bind_ok] at h
      rw [Py.bind_ok]
      rcases hy : q.call x with e | y
      · rw [hy] at h; cases h
      rw [hy, Py.bind_ok] at h
      rw [Py.bind_ok]
      have := evalLoopNum_quot hs l (k + 1) _ w h
      rw [quot_ne hs, show add (.fin (value / s)) (scale y (.fin (c / s))) = .fin ((value + y • c) / s) by
        simp only [scale, add, smul_eq_mul]; congr 1; ring]
      exact this

/-- **C98** Division of a piecewise polynomial by another number divides its values. -/
theorem C98_divide_piecewise {m : Nat} {Tr : Type} {p : PObj ℝ ℝ m Tr} {F : ℕ → (Fin m → ℝ) → ℝ} (h : Denotes p F) {s : ℝ} (hs : s ≠ 0) (j : Nat)
    (hj : j < p.triangles.length) (x : Fin m → ℝ) : evalQuotient p s j x = .ok (.fin (F j x / s)) := by
  have := h j hj x
  unfold PObj.evaluateOnSimplex at this
  unfold evalQuotient
  by_cases hsup : j ∈ p.support
  · rw [if_neg (by simpa using hsup)] at this ⊢
    have h2 := evalLoopNum_quot hs _ _ _ _ this
    rwa [zero_div] at h2
  · rw [if_pos hsup] at this ⊢
    rw [← Except.ok.inj this, zero_div]

/-! ## Examples -/

/-- The polynomial 1 + 2x divided by zero: OverflowError; the polynomial 2x divided by zero: ValueError. -/
example (str : Num → Str) (hash : Int) : divNum str hash ⟨.monomial, [1, 2], 1, 1⟩ 0 = .error .overflow ∧
    divNum str hash ⟨.monomial, [0, 2], 1, 1⟩ 0 = .error .value :=
  ⟨(C98_divide_zero_kind str hash (p := ⟨.monomial, [1, 2], 1, 1⟩) rfl (by simp) 1 rfl).2 (by norm_num),
    (C98_divide_zero_kind str hash (p := ⟨.monomial, [0, 2], 1, 1⟩) rfl (by simp) 0 rfl).1 rfl⟩

/-- Coefficients that are not all finite, for a Lagrange polynomial of degree 2 in two variables. -/
example (str : Num → Str) (hash : Int) : ∃ p, Obj.new .lagrange ([.fin 1, .fin 2, .fin 3, .inf true, .fin 5, .nan] : List Num) none 2 = .ok p ∧
    ∃ e, newNum str hash .lagrange [.fin 1, .fin 2, .fin 3, .inf true, .fin 5, .nan] none 2 = .error e := by
  refine ⟨⟨.lagrange, _, 2, 2⟩, rfl, ?_⟩
  rcases (C98_nonfinite str hash .lagrange [.fin 1, .fin 2, .fin 3, .inf true, .fin 5, .nan] none 2 ⟨.nan, by simp, by simp⟩).1 ⟨.lagrange, _, 2, 2⟩ rfl
    with h | h <;> exact ⟨_, h⟩

/-- A vector valued polynomial, and a polynomial on a triangle. -/
example (str : Num → Str) (hash : Int) : (∃ e, divVectorNum str hash (⟨.bernstein, [![1, 2], ![3, 4]], 1, 1⟩ : Obj (Fin 2 → ℝ)) 0 = .error e) ∧
    ∃ p : SObj ℝ ℝ 2, SObj.new .bernstein ([1, 2, 3] : List ℝ) ![![0, 0], ![2, 0], ![0, 1]] (some 1) = .ok p ∧ ∃ e, divSimplexNum str hash p 0 = .error e := by
  constructor
  · rcases C98_divide_zero_vector str hash (p := (⟨.bernstein, [![1, 2], ![3, 4]], 1, 1⟩ : Obj (Fin 2 → ℝ))) rfl with h | h <;> exact ⟨_, h⟩
  · have hd : edgeDet (![![0, 0], ![2, 0], ![0, 1]] : Vertices ℝ 2 2) ≠ 0 := by simp [edgeDet, Matrix.det_fin_two]
    have hn : Obj.new .bernstein ([1, 2, 3] : List ℝ) (some 1) 2 = .ok ⟨.bernstein, [1, 2, 3], 1, 2⟩ := rfl
    unfold SObj.new
    rw [hn, Py.bind_ok, toUnit_eq _ hd, Py.bind_ok]
    refine ⟨_, rfl, ?_⟩
    rcases C98_divide_zero_simplex str hash (p := ⟨⟨.bernstein, [1, 2, 3], 1, 2⟩, _, _⟩) rfl rfl with h | h <;> exact ⟨_, h⟩

/-- A piecewise polynomial on the square, with the value 1 in one vertex. -/
example : ∃ p : PObj ℝ ℝ 2 Unit, WellFormed p ∧ p.triangles = squareTriangles ∧ p.coeff = [1, 0, 0, 0] := by
  obtain ⟨M, hM, hn⟩ : ∃ M, genMap true squareTriangles 1 none false = .ok M ∧ M.numDofs = 4 := ⟨_, rfl, rfl⟩
  obtain ⟨p, hnew, q1, q2, q3, q4, q5, -⟩ := C48_construct (K := ℝ) (V := ℝ) (m := 2) (Tr := Unit) (b := .bernstein) (by simp)
    (squareReal_space true 1 (by norm_num) none (by simp [AreSimplices])) (Or.inr (by norm_num)) hM (coeff := [1, 0, 0, 0]) hn (by simp)
    (tau := none) (Or.inl ⟨rfl, Or.inl rfl⟩) (mkTree := fun _ => .ok ()) (fun _ _ => ⟨_, rfl⟩)
  exact ⟨p, q1, q5, q4⟩

end Verif.Props
