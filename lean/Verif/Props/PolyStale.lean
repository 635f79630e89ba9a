import Verif.Props.PolyHeap
/-!
# C89: operations after an assignment to `coeff`

Which of the two states of a polynomial object, the compiled function or the coefficients, the operations use.
-/

namespace Verif.Props
open Verif Verif.Poly Verif.PolyHeap

variable {K : Type} [Field K] [DecidableEq K] {n : Nat}

theorem memos_ok [CharZero K] (b b' : Basis) {m r m' r' : Nat} (h : Fits r m) (h' : Fits r' m') :
    ∃ memo memo' : Memo K, (if b = .lagrange then Memo.ensure ([] : Memo K) m r else .ok []) = .ok memo ∧
      (if b' = .lagrange then memo.ensure m' r' else .ok memo) = .ok memo' := by
  have h0 : MemoOK ([] : Memo K) := fun m r l h => by simp at h
  obtain ⟨memo, e1, hm⟩ : ∃ memo : Memo K, (if b = .lagrange then Memo.ensure ([] : Memo K) m r else .ok []) = .ok memo ∧ MemoOK memo := by
    by_cases hb : b = .lagrange
    · obtain ⟨memo, e1, e2, _⟩ := ensure_ok h0 h
      exact ⟨memo, by rw [if_pos hb, e1], e2⟩
    · exact ⟨[], by rw [if_neg hb], h0⟩
  by_cases hb : b' = .lagrange
  · obtain ⟨memo', e2, _⟩ := ensure_ok hm h'
    exact ⟨memo, memo', e1, by rw [if_pos hb, e2]⟩
  · exact ⟨memo, memo, e1, by rw [if_neg hb]⟩

/-- **C89** (finding). After an assignment `p.coeff[i] = v` the product `p * p` is computed from the new coefficients, except in the Lagrange basis where
it is computed from the old ones. -/
theorem C89_stale_product [CharZero K] (basis : Basis) (xs : List K) (r m i : Nat) (v : K) (hp : (⟨basis, xs, r, m⟩ : Obj K).Valid)
    (hi : i < xs.length) (hf : Fits (r + r) m) :
    ∃ q, (if basis = .lagrange then (⟨basis, xs, r, m⟩ : Obj K).mul ⟨basis, xs, r, m⟩
        else (⟨basis, xs.set i v, r, m⟩ : Obj K).mul ⟨basis, xs.set i v, r, m⟩) = .ok q ∧
      (Heap.empty : Heap K n).results [.scalar (.newList basis xs (some r) m), .scalar (.coeffWrite 0 i v), .mul 0 0, .scalar (.coeff 1)] =
        [.ok (.inl .nothing), .ok (.inl .nothing), .ok (.inl .nothing), .ok (.inl (.array q.coeff))] := by
  have hnew : Obj.new basis xs (some r) m = .ok ⟨basis, xs, r, m⟩ := hp
  have hv := (valid_iff _).1 hp
  have hnew' : (⟨basis, xs.set i v, r, m⟩ : Obj K).Valid := new_ok _ _ _ _ (by simpa using hv.1) hv.2
  obtain ⟨f, hf1⟩ := Obj.Valid.rep (K := K) hp
  obtain ⟨g, hg1⟩ := Obj.Valid.rep (K := K) hnew'
  obtain ⟨q, h1, h2, h3⟩ : ∃ q, (if basis = .lagrange then (⟨basis, xs, r, m⟩ : Obj K).mul ⟨basis, xs, r, m⟩
        else (⟨basis, xs.set i v, r, m⟩ : Obj K).mul ⟨basis, xs.set i v, r, m⟩) = .ok q ∧ q.m = m ∧ q.r = r + r := by
    by_cases hb : basis = .lagrange
    · rw [if_pos hb]
      obtain ⟨q, a1, a2, _, a4⟩ := mul_rep hf1 hf1 (Or.inr rfl) hf
      exact ⟨q, a1, a2.dim, a4⟩
    · rw [if_neg hb]
      obtain ⟨q, a1, a2, _, a4⟩ := mul_rep hg1 hg1 (Or.inr rfl) hf
      exact ⟨q, a1, a2.dim, a4⟩
  refine ⟨q, h1, ?_⟩
  obtain ⟨memo, memo', e1, e2⟩ := memos_ok (K := K) basis q.basis (m := m) (r := r) (m' := q.m) (r' := q.r) hv.2 (by rw [h2, h3]; exact hf)
  have hmul : View.mul (⟨⟨basis, xs.set i v, r, m⟩, ⟨basis, xs, r, m⟩⟩ : View K) ⟨⟨basis, xs.set i v, r, m⟩, ⟨basis, xs, r, m⟩⟩ = .ok q := by
    rw [← h1]
    cases basis <;> rfl
  simp only [Heap.results, Heap.step, Mem.step, Heap.empty, Mem.result, Mem.make, hnew, e1, Mem.assign, List.nil_append, List.length_nil,
    List.getElem?_cons_zero, Option.map_some, setE_ok hi, List.set_cons_zero, Mem.view, Py.bind_ok, hmul, e2, List.cons_append,
    List.getElem?_cons_succ, List.length_cons, Except.map, zero_add]

/-- **C89** (finding). After an assignment to an entry of `p.coeff` of a vector valued polynomial, the power `p ** exp` for a multi-index `exp` is computed
from the new coefficients, except in the Lagrange basis where it is computed from the old ones. -/
theorem C89_stale_power [CharZero K] (basis : Basis) (xs : List (Fin n → K)) (r m i : Nat) (v : Fin n → K) (hp : (⟨basis, xs, r, m⟩ : Obj (Fin n → K)).Valid)
    (hi : i < xs.length) (exp : Fin n → Nat) (hf : Fits (r * ∑ i, exp i) m) :
    ∃ q, (if basis = .lagrange then (⟨basis, xs, r, m⟩ : Obj (Fin n → K)).powMulti (List.ofFn exp)
        else (⟨basis, xs.set i v, r, m⟩ : Obj (Fin n → K)).powMulti (List.ofFn exp)) = .ok q ∧
      (Heap.empty : Heap K n).results [.vector (.newList basis xs (some r) m), .vector (.coeffWrite 0 i v), .powMulti 0 (List.ofFn exp), .scalar (.coeff 0)] =
        [.ok (.inr .nothing), .ok (.inr .nothing), .ok (.inl .nothing), .ok (.inl (.array q.coeff))] := by
  have hnew : Obj.new basis xs (some r) m = .ok ⟨basis, xs, r, m⟩ := hp
  have hv := (valid_iff _).1 hp
  have hnew' : (⟨basis, xs.set i v, r, m⟩ : Obj (Fin n → K)).Valid := new_ok _ _ _ _ (by simpa using hv.1) hv.2
  obtain ⟨f, hf1⟩ := Obj.Valid.rep (K := K) hp
  obtain ⟨g, hg1⟩ := Obj.Valid.rep (K := K) hnew'
  obtain ⟨q, h1, h2, h3⟩ : ∃ q, (if basis = .lagrange then (⟨basis, xs, r, m⟩ : Obj (Fin n → K)).powMulti (List.ofFn exp)
        else (⟨basis, xs.set i v, r, m⟩ : Obj (Fin n → K)).powMulti (List.ofFn exp)) = .ok q ∧ q.m = m ∧ q.r = r * ∑ i, exp i := by
    by_cases hb : basis = .lagrange
    · rw [if_pos hb]
      obtain ⟨q, a1, a2, _, a4⟩ := (powMulti_rep hf1 exp).1 hf
      exact ⟨q, a1, a2.dim, a4⟩
    · rw [if_neg hb]
      obtain ⟨q, a1, a2, _, a4⟩ := (powMulti_rep hg1 exp).1 hf
      exact ⟨q, a1, a2.dim, a4⟩
  refine ⟨q, h1, ?_⟩
  obtain ⟨memo, memo', e1, e2⟩ := memos_ok (K := K) basis q.basis (m := m) (r := r) (m' := q.m) (r' := q.r) hv.2 (by rw [h2, h3]; exact hf)
  have hpow : View.powMulti (⟨⟨basis, xs.set i v, r, m⟩, ⟨basis, xs, r, m⟩⟩ : View (Fin n → K)) (List.ofFn exp) = .ok q := by
    rw [← h1]
    cases basis <;> rfl
  simp only [Heap.results, Heap.step, Mem.step, Heap.empty, Mem.result, Mem.make, hnew, e1, Mem.assign, List.nil_append, List.length_nil,
    List.getElem?_cons_zero, Option.map_some, setE_ok hi, List.set_cons_zero, Mem.view, Py.bind_ok, hpow, e2, Except.map]

example : (⟨.lagrange, [1, 2, 3], 2, 1⟩ : Obj ℚ).Valid ∧ 1 < [(1 : ℚ), 2, 3].length ∧ Fits (2 + 2) 1 :=
  ⟨new_ok _ _ _ _ (by decide) (Or.inr (by decide)), by decide, Or.inr (by decide)⟩
example : (⟨.lagrange, [![1, 2], ![3, 4]], 1, 1⟩ : Obj (Fin 2 → ℚ)).Valid ∧ Fits (1 * ∑ i, (![2, 1] : Fin 2 → Nat) i) 1 :=
  ⟨new_ok _ _ _ _ (by decide) (Or.inr (by decide)), Or.inr (by decide)⟩

end Verif.Props
