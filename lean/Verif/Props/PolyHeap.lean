import Mathlib.Data.Rat.Cast.CharZero
import Verif.Lemmas.PolyHeap
/-!
# C89: polynomials are values

A program creates arrays, constructs polynomials from them, computes with them and goes on to change its arrays. In the code a polynomial is an object
with a pointer to an array of coefficients, an evaluation function that was compiled when it was constructed, and (for the Lagrange basis) a table
shared by all objects of the class. These theorems say that none of this is visible: the results are those of a program that computes with values.
-/

namespace Verif.Props
open Verif Verif.Poly Verif.PolyHeap Verif.Spec.PolyValues

variable {K : Type} [Field K] [DecidableEq K] {n : Nat}

/-- **C89** (values). For every history of a program that does not assign to the `coeff` array of a polynomial — but may assign to the arrays that it has
constructed polynomials from, copy, add, multiply, differentiate, elevate, convert and evaluate in any order, also with operations that raise exceptions —
every result is the one that a program gets in which polynomials are values that never change. -/
theorem C89_refines [CharZero K] (ops : List (Op K n)) (hops : ∀ op ∈ ops, op.writesCoeff = false) :
    (Heap.empty : Heap K n).results ops = (Store.empty : Store K n).results ops :=
  results_eq ops hops relAll_empty

/-- **C89** (values), with the excluded statements written out: the only ones are the assignments `p.coeff[i] = v`. -/
theorem C89_refines_programs [CharZero K] (ops : List (Op K n)) (hs : ∀ a i v, .scalar (.coeffWrite a i v) ∉ ops) (hv : ∀ a i v, .vector (.coeffWrite a i v) ∉ ops) :
    (Heap.empty : Heap K n).results ops = (Store.empty : Store K n).results ops := by
  refine C89_refines ops fun op hop => ?_
  unfold Op.writesCoeff
  split
  · exact absurd hop (hs _ _ _)
  · exact absurd hop (hv _ _ _)
  · rfl

/-- `a = np.array([1, 2]); p = Polynomial(a, 1, 1); a[0] = 5`: the coefficients of `p` are still `[1, 2]`, those of `Polynomial(a, 1, 1)` are `[5, 2]`. -/
example : (Heap.empty : Heap ℚ 2).results [.scalar (.array [1, 2]), .scalar (.new .monomial 0 (some 1) 1), .scalar (.write 0 0 5),
    .scalar (.new .monomial 0 (some 1) 1), .scalar (.coeff 0), .scalar (.coeff 1), .scalar (.read 0), .scalar (.coeff 2)] =
    [.ok (.inl .nothing), .ok (.inl .nothing), .ok (.inl .nothing), .ok (.inl .nothing), .ok (.inl (.array [1, 2])), .ok (.inl (.array [5, 2])),
      .ok (.inl (.array [5, 2])), .error .runtime] := by
  rw [C89_refines _ (by simp [Op.writesCoeff])]
  have h : ∀ xs : List ℚ, xs.length = 2 → Obj.new .monomial xs (some 1) 1 = .ok ⟨.monomial, xs, 1, 1⟩ :=
    fun xs hx => new_ok _ _ _ _ (by rw [hx]; decide) (Or.inr (by decide))
  simp [Store.results, Store.step, Values.step, Store.empty, Values.array, Values.add, Values.assign, Values.get, setE, h, Except.map]

/-- **C89** (evaluation is fixed). Once a polynomial exists, its value at a point is the same for ever, whatever the program does, even if it assigns to
coefficients. -/
theorem C89_call_fixed (ops more : List (Op K n)) (a : Nat) (x : List K) :
    (a < ((Heap.empty : Heap K n).after ops).scalars.polys.length →
      (((Heap.empty : Heap K n).after (ops ++ more)).step (.scalar (.call a x))).2 =
        (((Heap.empty : Heap K n).after ops).step (.scalar (.call a x))).2) ∧
    (a < ((Heap.empty : Heap K n).after ops).vectors.polys.length →
      (((Heap.empty : Heap K n).after (ops ++ more)).step (.vector (.call a x))).2 =
        (((Heap.empty : Heap K n).after ops).step (.vector (.call a x))).2) := by
  obtain ⟨s1, s2⟩ := sep_after (h := (Heap.empty : Heap K n)) ops Sep.empty Sep.empty
  obtain ⟨t1, t2⟩ := sep_after (h := (Heap.empty : Heap K n)) (ops ++ more) Sep.empty Sep.empty
  rw [after_append] at t1 t2 ⊢
  obtain ⟨f1, f2⟩ := frame_after more ((Heap.empty : Heap K n).after ops)
  constructor
  · intro ha
    have h := f1.call s1 t1 ha
    simp only [Heap.step, Mem.step]
    revert h
    generalize (((Heap.empty : Heap K n).after ops).after more).scalars.view a = u
    generalize ((Heap.empty : Heap K n).after ops).scalars.view a = v
    intro h
    cases u <;> cases v <;> simp_all [Except.map]
  · intro ha
    have h := f2.call s2 t2 ha
    simp only [Heap.step, Mem.step]
    revert h
    generalize (((Heap.empty : Heap K n).after ops).after more).vectors.view a = u
    generalize ((Heap.empty : Heap K n).after ops).vectors.view a = v
    intro h
    cases u <;> cases v <;> simp_all [Except.map]

/-- **C89** (coefficients are not shared). After any history, the coefficients of a polynomial are changed by no operation except an assignment to the
coefficients of this very polynomial: not by assignments to the array it was constructed from, and not by assignments to the coefficients of another
polynomial, also if that was computed from it. -/
theorem C89_coeff_local (ops : List (Op K n)) (op : Op K n) (a : Nat) :
    (a < ((Heap.empty : Heap K n).after ops).scalars.polys.length → (∀ i v, op ≠ .scalar (.coeffWrite a i v)) →
      ((((Heap.empty : Heap K n).after ops).step op).1.step (.scalar (.coeff a))).2 =
        (((Heap.empty : Heap K n).after ops).step (.scalar (.coeff a))).2) ∧
    (a < ((Heap.empty : Heap K n).after ops).vectors.polys.length → (∀ i v, op ≠ .vector (.coeffWrite a i v)) →
      ((((Heap.empty : Heap K n).after ops).step op).1.step (.vector (.coeff a))).2 =
        (((Heap.empty : Heap K n).after ops).step (.vector (.coeff a))).2) := by
  obtain ⟨s1, s2⟩ := sep_after (h := (Heap.empty : Heap K n)) ops Sep.empty Sep.empty
  generalize (Heap.empty : Heap K n).after ops = h at *
  constructor
  · intro ha hop
    have hv := (frame_scalars h op).view s1 (sep_scalars s1 op) ha (by
      cases op with
      | scalar op => exact target_poly s1 op ha (fun i v e => hop i v (by rw [e]))
      | _ => simp [Op.targetScalar])
    show ((((h.step op).1.scalars.view a).map _).map _ : Result K n) = ((h.scalars.view a).map _).map _
    rw [hv]
  · intro ha hop
    have hv := (frame_vectors h op).view s2 (sep_vectors s2 op) ha (by
      cases op with
      | vector op => exact target_poly s2 op ha (fun i v e => hop i v (by rw [e]))
      | _ => simp [Op.targetVector])
    show ((((h.step op).1.vectors.view a).map _).map _ : Result K n) = ((h.vectors.view a).map _).map _
    rw [hv]

/-- **C89** (arrays are not shared). After any history, an array of the program is changed by no operation except an assignment to this very array. -/
theorem C89_array_local (ops : List (Op K n)) (op : Op K n) (l : Nat) :
    (l < ((Heap.empty : Heap K n).after ops).scalars.arrays.length → (∀ i v, op ≠ .scalar (.write l i v)) →
      ((((Heap.empty : Heap K n).after ops).step op).1.step (.scalar (.read l))).2 =
        (((Heap.empty : Heap K n).after ops).step (.scalar (.read l))).2) ∧
    (l < ((Heap.empty : Heap K n).after ops).vectors.arrays.length → (∀ i v, op ≠ .vector (.write l i v)) →
      ((((Heap.empty : Heap K n).after ops).step op).1.step (.vector (.read l))).2 =
        (((Heap.empty : Heap K n).after ops).step (.vector (.read l))).2) := by
  obtain ⟨s1, s2⟩ := sep_after (h := (Heap.empty : Heap K n)) ops Sep.empty Sep.empty
  generalize (Heap.empty : Heap K n).after ops = h at *
  constructor
  · intro hl hop
    have hv := (frame_scalars h op).cell s1 hl (by
      cases op with
      | scalar op => exact target_array s1 op hl (fun i v e => hop i v (by rw [e]))
      | _ => simp [Op.targetScalar])
    show ((((h.step op).1.scalars.cell l).map _).map _ : Result K n) = ((h.scalars.cell l).map _).map _
    rw [hv]
  · intro hl hop
    have hv := (frame_vectors h op).cell s2 hl (by
      cases op with
      | vector op => exact target_array s2 op hl (fun i v e => hop i v (by rw [e]))
      | _ => simp [Op.targetVector])
    show ((((h.step op).1.vectors.cell l).map _).map _ : Result K n) = ((h.vectors.cell l).map _).map _
    rw [hv]

/-- **C89** (finding). After an assignment `p.coeff[i] = v` the polynomial still evaluates as before, although `p.coeff` has the new entry and `p * 1` is
the polynomial with the new coefficients. -/
theorem C89_stale_evaluation [CharZero K] (basis : Basis) (xs : List K) (r m i : Nat) (v : K) (x : List K) (hp : (⟨basis, xs, r, m⟩ : Obj K).Valid)
    (hi : i < xs.length) :
    (Heap.empty : Heap K n).results [.scalar (.newList basis xs (some r) m), .scalar (.coeffWrite 0 i v), .scalar (.scale 0 1),
      .scalar (.call 0 x), .scalar (.coeff 0), .scalar (.call 1 x)] =
    [.ok (.inl .nothing), .ok (.inl .nothing), .ok (.inl .nothing),
      ((⟨basis, xs, r, m⟩ : Obj K).call x).map (fun y => .inl (.value y)),
      .ok (.inl (.array (xs.set i v))),
      ((⟨basis, xs.set i v, r, m⟩ : Obj K).call x).map (fun y => .inl (.value y))] := by
  have hnew : Obj.new basis xs (some r) m = .ok ⟨basis, xs, r, m⟩ := hp
  have hv := (valid_iff _).1 hp
  have hnew' : Obj.new basis (xs.set i v) (some r) m = .ok ⟨basis, xs.set i v, r, m⟩ :=
    new_ok _ _ _ _ (by simpa using hv.1) hv.2
  have hscale : (⟨basis, xs.set i v, r, m⟩ : Obj K).smul (1 : K) = .ok ⟨basis, xs.set i v, r, m⟩ := by
    unfold Obj.smul
    simp only [one_smul, List.map_id']
    exact hnew'
  have h1 : ∃ memo : Memo K, (if basis = .lagrange then Memo.ensure ([] : Memo K) m r else .ok []) = .ok memo ∧
      (if basis = .lagrange then memo.ensure m r else .ok memo) = .ok memo := by
    by_cases hb : basis = .lagrange
    · obtain ⟨memo, e1, _, _, l, e2⟩ := ensure_ok (K := K) (memo := []) (fun m r l h => by simp at h) (m := m) (r := r) hv.2
      refine ⟨memo, by rw [if_pos hb, e1], ?_⟩
      rw [if_pos hb]
      unfold Memo.ensure
      rw [e2]
    · exact ⟨[], by rw [if_neg hb], by rw [if_neg hb]⟩
  obtain ⟨memo, h1, h2⟩ := h1
  simp only [Heap.results, Heap.step, Mem.step, Heap.empty, Mem.result, Mem.make, hnew, h1, Mem.assign, List.nil_append, List.length_nil,
    List.getElem?_cons_zero, Option.map_some, setE_ok hi, List.set_cons_zero, Mem.view, Py.bind_ok, hscale, h2, List.cons_append,
    List.getElem?_cons_succ, List.length_cons, Except.map, zero_add]
  refine congrArg _ (congrArg _ (congrArg _ (congrArg₂ _ ?_ (congrArg _ (congrArg₂ _ ?_ rfl)))))
  · cases (⟨basis, xs, r, m⟩ : Obj K).call x <;> rfl
  · cases (⟨basis, xs.set i v, r, m⟩ : Obj K).call x <;> rfl

/-- `p = Polynomial([1], 0, 1); p.coeff[0] = 2`: now `p(x)` is `1`, and `(p * 1)(x)` is `2`. -/
example : (Heap.empty : Heap ℚ 2).results [.scalar (.newList .monomial [1] (some 0) 1), .scalar (.coeffWrite 0 0 2), .scalar (.scale 0 1),
      .scalar (.call 0 [3]), .scalar (.coeff 0), .scalar (.call 1 [3])] =
    [.ok (.inl .nothing), .ok (.inl .nothing), .ok (.inl .nothing), .ok (.inl (.value 1)), .ok (.inl (.array [2])), .ok (.inl (.value 2))] := by
  rw [C89_stale_evaluation .monomial [1] 0 1 0 2 [3] (new_ok _ _ _ _ (by decide) (Or.inr (by decide))) (by decide)]
  have h : ∀ c : ℚ, (⟨.monomial, [c], 0, 1⟩ : Obj ℚ).call [(3 : ℚ)] = .ok c := by
    intro c
    have hg : MI.generateAll 1 0 = [[0]] := by decide +kernel
    simp [Obj.call, evalMonomial, hg, sumLoop, getE, MI.power, MI.powerLoop]
  simp [h, Except.map]

/-- Two polynomials, one of them made from the other: the hypotheses of the statements about sharing hold for both. -/
example : ((Heap.empty : Heap ℚ 2).after [.scalar (.newList .monomial [1] (some 0) 1), .scalar (.copy 0)]).scalars.polys.length = 2 := by
  have h : Obj.new .monomial [(1 : ℚ)] (some 0) 1 = .ok ⟨.monomial, [1], 0, 1⟩ := new_ok _ _ _ _ (by decide) (Or.inr (by decide))
  simp [Heap.after, Heap.step, Heap.empty, Mem.step, Mem.result, h, Mem.make, Mem.copyPoly, Mem.view]

end Verif.Props
