import Verif.Props.CodeGeneration
/-!
# C31: the names of the generated functions
-/

namespace Verif.CodeGen
open Verif Verif.Str Verif.PyExpr Verif.Poly Verif.MI Verif.Spec

variable {K : Type} [Field K] [DecidableEq K]

/-- The word for the basis in the name of a generated function. -/
def basisWord : Basis → String
  | .monomial => "monomial"
  | .bernstein => "barycentric"
  | .lagrange => "lagrange"

theorem functionSpecific_name {kind : Str} {m r : Nat} {hash : Int} {body code name : Str} (h : functionSpecific kind m r hash body = .ok (code, name)) :
    name = "eval_".toList ++ kind ++ "_polynomial_".toList ++ natStr m ++ natStr r ++ "_".toList ++ natStr hash.natAbs := by
  unfold functionSpecific at h
  simp only [specificName_eq] at h
  cases hw : ((({} : Writer).wl ("def ".toList ++ ("eval_".toList ++ kind ++ "_polynomial_".toList ++ natStr m ++ natStr r ++ "_".toList ++ natStr hash.natAbs) ++ "(x):".toList)).incIndent).wc body with
  | error e => rw [hw] at h; cases h
  | ok w => rw [hw] at h; cases h; rfl

theorem kindOf_eq (b : Basis) : kindOf b = (basisWord b).toList := by cases b <;> rfl

/-- **C31** The name of the generated function: the basis, the digits of the dimension and of the degree (without a separator) and the absolute value of
the hash of the coefficients. -/
theorem C31_name (p : Obj K) (num : K → Str) (hash : Int) (code name : Str) (h : objCode num hash p = .ok (code, name)) :
    name = ("eval_" ++ basisWord p.basis ++ "_polynomial_").toList ++ Nat.toDigits 10 p.m ++ Nat.toDigits 10 p.r ++ '_' :: Nat.toDigits 10 hash.natAbs := by
  unfold objCode at h
  cases h1 : evalText num p with
  | error e => rw [h1, Py.bind_error] at h; exact absurd h (by simp)
  | ok t =>
    rw [h1, Py.bind_ok] at h
    cases h2 : scalarBody t with
    | error e => rw [h2, Py.bind_error] at h; exact absurd h (by simp)
    | ok b =>
      rw [h2, Py.bind_ok] at h
      rw [functionSpecific_name h, kindOf_eq]
      simp only [natStr, String.toList_append, List.append_assoc]
      rfl

/-- **C31** The same for vector valued polynomials. -/
theorem C31_name_vector {n : Nat} (p : Obj (Fin n → K)) (num : K → Str) (hash : Int) (code name : Str) (h : objCodeVector num hash p = .ok (code, name)) :
    name = ("eval_" ++ basisWord p.basis ++ "_polynomial_").toList ++ Nat.toDigits 10 p.m ++ Nat.toDigits 10 p.r ++ '_' :: Nat.toDigits 10 hash.natAbs := by
  unfold objCodeVector at h
  cases h1 : evalTextVector num p with
  | error e => rw [h1, Py.bind_error] at h; exact absurd h (by simp)
  | ok t =>
    rw [h1, Py.bind_ok] at h
    cases h2 : vectorBody t with
    | error e => rw [h2, Py.bind_error] at h; exact absurd h (by simp)
    | ok b =>
      rw [h2, Py.bind_ok] at h
      rw [functionSpecific_name h, kindOf_eq]
      simp only [natStr, String.toList_append, List.append_assoc]
      rfl

/-- **C31**, finding: since there is no separator between the dimension and the degree, polynomials on different domains can get functions with the same
name: the polynomials of degree 11 in one variable and of degree 1 in eleven variables with the same twelve coefficients (and so the same hash). -/
theorem C31_name_ambiguous [CharZero K] (c : List K) (hc : c.length = 12) (num : K → Str) (hnum : ∀ v ∈ c, PrintsExactly (num v) v) (hash : Int) :
    ∃ (p q : Obj K) (code₁ code₂ name : Str), Obj.new .monomial c (some 11) 1 = .ok p ∧ Obj.new .monomial c (some 1) 11 = .ok q ∧
      objCode num hash p = .ok (code₁, name) ∧ objCode num hash q = .ok (code₂, name) := by
  have : Inhabited K := ⟨0⟩
  have h1 : Obj.new .monomial c (some 11) 1 = .ok ⟨.monomial, c, 11, 1⟩ := by
    obtain ⟨d, rfl⟩ := exists_tab 1 11 c (by rw [hc]; decide)
    exact new_mk _ _ _ _ (Or.inr (by decide))
  have h2 : Obj.new .monomial c (some 1) 11 = .ok ⟨.monomial, c, 1, 11⟩ := by
    obtain ⟨d, rfl⟩ := exists_tab 11 1 c (by rw [hc]; decide)
    exact new_mk _ _ _ _ (Or.inr (by decide))
  obtain ⟨f, hf⟩ := Obj.Valid.rep (K := K) (p := ⟨.monomial, c, 11, 1⟩) h1
  obtain ⟨g, hg⟩ := Obj.Valid.rep (K := K) (p := ⟨.monomial, c, 1, 11⟩) h2
  obtain ⟨code₁, n₁, _, a1, _, _⟩ := C31_code _ _ _ hf num hash (fun a ha v hv => hnum v (by obtain rfl := Except.ok.inj ha; exact hv))
  obtain ⟨code₂, n₂, _, a2, _, _⟩ := C31_code _ _ _ hg num hash (fun a ha v hv => hnum v (by obtain rfl := Except.ok.inj ha; exact hv))
  have key : Nat.toDigits 10 1 ++ Nat.toDigits 10 11 = Nat.toDigits 10 11 ++ Nat.toDigits 10 1 := by decide
  have e : n₁ = n₂ := by
    rw [C31_name _ _ _ _ _ a1, C31_name _ _ _ _ _ a2]
    simp only [List.append_assoc _ (Nat.toDigits 10 _) (Nat.toDigits 10 _), key]
  exact ⟨_, _, code₁, code₂, n₁, h1, h2, a1, e ▸ a2⟩

/-- A text that prints the coefficients `1, …, 1` exactly. -/
example : ∀ v ∈ List.replicate 12 (1 : ℚ), PrintsExactly ((fun _ : ℚ => natStr 1) v) v := by
  intro v hv
  obtain rfl := List.eq_of_mem_replicate hv
  intro env
  refine ⟨[.int 1], by decide, ?_⟩
  simpa using Parses.term (env := env) (.factor (.power (.int 1)))

end Verif.CodeGen
