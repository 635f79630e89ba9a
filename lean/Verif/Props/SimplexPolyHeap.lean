import Verif.Lemmas.SimplexPolyHeap
import Verif.Props.SimplexPolynomial
/-!
# C90: polynomials on simplices and the arrays of vertices
-/

namespace Verif.Props
open Verif Verif.Poly Verif.Simplex Verif.Spec Verif.SPoly Verif.SPolyHeap Verif.Spec.SPolyValues

variable {K : Type} [Field K] [DecidableEq K] {m n : Nat}

/-- **C90** (values). A program that does not assign to an array of vertices after it has constructed a polynomial with it gets, for every history of
operations, the results of a program in which polynomials are values with their own vertices. -/
theorem C90_refines (ops : List (Op K m n)) (hops : Careful ops) :
    (Heap.empty : Heap K m n).results ops = (Store.empty : Store K m n).results ops := by
  refine results_eq ops [] hops ?_
  have := relAll_empty (K := K) (m := m) (n := n)
  exact ⟨this.arrays, this.scalars.mono (fun _ h => h.elim), this.vectors.mono (fun _ h => h.elim)⟩

/-- A program that fills the array before it constructs polynomials, and another array for the next simplex. -/
example (v w : Vertices ℚ 2 2) : Careful ([.array v, .write 0 w, .scalar (.new .bernstein [1, 2, 3] 0 (some 1)), .array v, .write 1 w,
    .scalar (.new .lagrange [1, 2, 3] 1 (some 1)), .scalar (.add 0 0)] : List (Op ℚ 2 2)) := by
  intro before l u after h op hop hu
  rcases before with _ | ⟨a, _ | ⟨b, _ | ⟨c, _ | ⟨d, _ | ⟨e, _ | ⟨f, _ | ⟨g, t⟩⟩⟩⟩⟩⟩⟩ <;> simp at h
  · obtain ⟨rfl, ⟨rfl, rfl⟩, rfl⟩ := h
    simp at hop
    subst hop
    simp [Uses] at hu
  · obtain ⟨rfl, rfl, rfl, rfl, ⟨rfl, rfl⟩, rfl⟩ := h
    simp at hop
    rcases hop with rfl | rfl | rfl | rfl <;> simp [Uses] at hu

/-- **C90** (evaluation is fixed). Value and coefficients of an existing polynomial never change, whatever is assigned to arrays of vertices. -/
theorem C90_call_fixed (ops more : List (Op K m n)) (a : Nat) (x : Fin m → K) :
    (a < ((Heap.empty : Heap K m n).after ops).scalars.length →
      (((Heap.empty : Heap K m n).after (ops ++ more)).step (.scalar (.call a x))).2 =
        (((Heap.empty : Heap K m n).after ops).step (.scalar (.call a x))).2 ∧
      (((Heap.empty : Heap K m n).after (ops ++ more)).step (.scalar (.coeff a))).2 =
        (((Heap.empty : Heap K m n).after ops).step (.scalar (.coeff a))).2) ∧
    (a < ((Heap.empty : Heap K m n).after ops).vectors.length →
      (((Heap.empty : Heap K m n).after (ops ++ more)).step (.vector (.call a x))).2 =
        (((Heap.empty : Heap K m n).after ops).step (.vector (.call a x))).2 ∧
      (((Heap.empty : Heap K m n).after (ops ++ more)).step (.vector (.coeff a))).2 =
        (((Heap.empty : Heap K m n).after ops).step (.vector (.coeff a))).2) := by
  obtain ⟨s1, s2⟩ := ok_after (h := (Heap.empty : Heap K m n)) ops (by simp [Ok, Heap.empty]) (by simp [Ok, Heap.empty])
  rw [after_append]
  obtain ⟨f1, f2⟩ := frame_after more ((Heap.empty : Heap K m n).after ops)
  constructor
  · intro ha
    obtain ⟨h1, h2⟩ := call_of_frame f1 s1 ha x
    simp only [Heap.step]
    rw [h1, h2]
    exact ⟨rfl, rfl⟩
  · intro ha
    obtain ⟨h1, h2⟩ := call_of_frame f2 s2 ha x
    simp only [Heap.step]
    rw [h1, h2]
    exact ⟨rfl, rfl⟩

/-- **C90** (finding). A program that uses the same array for the vertices of one simplex after the other: `p` on the simplex `v`, then `q` on the simplex
`w`. The sum `p + q` is accepted, although the operands are polynomials on different simplices; it has the sum of the coefficients, but on `w`, so the
values of `p` and `q` are not added. -/
theorem C90_reused_array {b : Basis} {xs ys : List K} {r : Nat} {v w : Vertices K m m} {p q s : SObj K K m} (x : Fin m → K)
    (hp : SObj.new b xs v (some r) = .ok p) (hq : SObj.new b ys w (some r) = .ok q)
    (hs : SObj.new b (List.zipWith (· + ·) xs ys) w (some r) = .ok s) :
    (Heap.empty : Heap K m n).results [.array v, .scalar (.new b xs 0 (some r)), .write 0 w, .scalar (.new b ys 0 (some r)), .scalar (.add 0 1),
      .scalar (.call 0 x), .scalar (.call 1 x), .scalar (.call 2 x)] =
    [.ok (.inl .nothing), .ok (.inl .nothing), .ok (.inl .nothing), .ok (.inl .nothing), .ok (.inl .nothing),
      (p.call x).map (fun y => .inl (.value y)), (q.call x).map (fun y => .inl (.value y)), (s.call x).map (fun y => .inl (.value y))] := by
  have shape : ∀ {zs : List K} {u : Vertices K m m} {o : SObj K K m}, SObj.new b zs u (some r) = .ok o → o.poly = ⟨b, zs, r, m⟩ ∧ o.vertices = u := by
    intro zs u o h
    refine ⟨?_, Keeps.new _ _ _ _ o h⟩
    unfold SObj.new at h
    cases h1 : Obj.new b zs (some r) m with
    | error e => rw [h1] at h; cases h
    | ok p' =>
      rw [h1] at h
      simp only [Py.bind_ok] at h
      cases h2 : affineToUnit u with
      | error e => rw [h2] at h; cases h
      | ok phi =>
        rw [h2] at h
        cases h
        exact Verif.PolyHeap.new_shape h1
  obtain ⟨p1, p2⟩ := shape hp
  obtain ⟨q1, q2⟩ := shape hq
  have hadd : ∀ phi phi', (⟨⟨b, xs, r, m⟩, w, phi⟩ : SObj K K m).add ⟨⟨b, ys, r, m⟩, w, phi'⟩ = .ok s := by
    intro phi phi'
    unfold SObj.add SPoly.combine SPoly.combineSame
    simpa using hs
  obtain ⟨pp, pv, pphi⟩ := p
  obtain ⟨qp, qv, qphi⟩ := q
  obtain ⟨s1, s2⟩ := shape hs
  obtain ⟨sp, sv, sphi⟩ := s
  simp only at p1 p2 q1 q2 s1 s2
  subst p1 p2 q1 q2 s1 s2
  simp only [Heap.results, Heap.step, Heap.empty, SPolyHeap.ustep, arrayAt, List.nil_append, List.length_cons, List.length_nil, zero_add,
    List.getElem?_cons_zero, Py.bind_ok, hp, result, List.set_cons_zero, if_pos Nat.one_pos, hq, List.cons_append, view, addrOf, Option.map_some,
    List.getElem?_cons_succ, hadd, Py.pure_eq, Except.map, SObj.call]
  generalize Obj.call (_ : Obj K) (_ : List K) = c1
  generalize Obj.call (_ : Obj K) (_ : List K) = c2
  generalize Obj.call (_ : Obj K) (_ : List K) = c3
  cases c1 <;> cases c2 <;> cases c3 <;> rfl

/-- The simplices `[0, 1]` and `[0, 2]`. -/
def C90_interval (a : ℚ) : Vertices ℚ 1 1 := ![![0], ![a]]

/-- `p(x) = x` on `[0, 1]` and `q(x) = x / 2` on `[0, 2]`, both with Bernstein (or Lagrange) coefficients `[0, 1]`: at `x = 1` the values are 1 and 1/2, but
the value of `p + q` is 1. -/
theorem C90_reused_array_example (b : Basis) (hb : b ≠ .monomial) :
    (Heap.empty : Heap ℚ 1 2).results [.array (C90_interval 1), .scalar (.new b [0, 1] 0 (some 1)), .write 0 (C90_interval 2),
      .scalar (.new b [0, 1] 0 (some 1)), .scalar (.add 0 1), .scalar (.call 0 ![1]), .scalar (.call 1 ![1]), .scalar (.call 2 ![1])] =
    [.ok (.inl .nothing), .ok (.inl .nothing), .ok (.inl .nothing), .ok (.inl .nothing), .ok (.inl .nothing),
      .ok (.inl (.value 1)), .ok (.inl (.value (1 / 2))), .ok (.inl (.value 1))] := by
  have hd : ∀ a : ℚ, a ≠ 0 → edgeDet (C90_interval a) ≠ 0 := by
    intro a ha
    simpa [edgeDet, C90_interval] using ha
  have key : ∀ (a c : ℚ), a ≠ 0 → ∃ p, SObj.new b [0, c] (C90_interval a) (some 1) = .ok p ∧ p.call ![1] = .ok (c / a) := by
    intro a c ha
    obtain ⟨p, f, h1, _, _, _, h2, h3⟩ := C62_construct b [0, c] (C90_interval a) 1 (by rfl) (Or.inr (by decide)) (hd a ha)
    refine ⟨p, h1, (h2.value _).trans ?_⟩
    have hg : MI.generateAll 1 1 = [[0], [1]] := by decide +kernel
    rw [h3 ![1] ![1 - 1 / a, 1 / a] ⟨by simp [Fin.sum_univ_two], by
      ext i; fin_cases i; simp [Fin.sum_univ_two, C90_interval, ha]⟩, hg]
    cases b with
    | monomial => exact absurd rfl hb
    | bernstein => simp [linComb, basisFn, Spec.bernstein, Spec.monomial, Spec.multinomial, div_eq_inv_mul]
    | lagrange => simp [linComb, basisFn, Spec.lagrange, fallingBinomial, div_eq_inv_mul]
  obtain ⟨p, hp, hp'⟩ := key 1 1 (by norm_num)
  obtain ⟨q, hq, hq'⟩ := key 2 1 (by norm_num)
  obtain ⟨s, hs, hs'⟩ := key 2 (1 + 1) (by norm_num)
  rw [C90_reused_array ![1] hp hq (by simpa using hs), hp', hq', hs']
  norm_num [Except.map]

end Verif.Props
