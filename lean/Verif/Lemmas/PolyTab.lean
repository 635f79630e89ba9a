import Mathlib.Data.List.OfFn
import Mathlib.Algebra.BigOperators.Fin
import Mathlib.Algebra.BigOperators.Group.Finset.Basic
import Mathlib.Data.Fintype.Pi
import Mathlib.Data.Fintype.BigOperators
import Verif.Model.Polynomial
import Verif.Spec.Polynomial
import Verif.Lemmas.MultiIndexOps
import Verif.Props.MultiIndex
/-!
# Coefficient lists as tables indexed by multi-indices
-/

namespace Verif.Poly
open Verif Verif.MI Verif.Spec

variable {K V : Type} [Field K] [AddCommGroup V] [Module K V]

/-- The coefficient list whose entry for `ν` is `f ν`. -/
def tab {W : Type} (m r : Nat) (f : List Nat → W) : List W := (mis m r).map f

theorem length_mis_eq (m r : Nat) : (mis m r).length = getDimension r m := by
  rw [count_mis]; unfold getDimension
  rw [Nat.add_comm m r, ← Nat.choose_symm_of_eq_add (rfl : r + m = r + m)]

@[simp] theorem length_tab {W : Type} (m r : Nat) (f : List Nat → W) : (tab m r f).length = getDimension r m := by
  simp [tab, length_mis_eq]

theorem tab_congr {W : Type} {m r : Nat} {f g : List Nat → W} (h : ∀ ν, ν.length = m → ν.sum ≤ r → f ν = g ν) :
    tab m r f = tab m r g :=
  List.map_congr_left (fun ν hν => h ν (mem_mis.1 hν).1 (mem_mis.1 hν).2)

theorem exists_tab {W : Type} [Inhabited W] (m r : Nat) (c : List W) (h : c.length = getDimension r m) :
    ∃ f, c = tab m r f := by
  rw [← length_mis_eq] at h
  refine ⟨fun ν => c.getD ((mis m r).idxOf ν) default, ?_⟩
  apply List.ext_getElem
  · simp [tab, h]
  · intro i h1 h2
    simp only [tab, List.getElem_map]
    rw [(nodup_mis m r).idxOf_getElem]
    rw [List.getD_eq_getElem?_getD, List.getElem?_eq_getElem h1]; rfl

theorem getIndex_ok {ν : List Nat} {r : Nat} (h : ν.sum ≤ r) :
    ∃ i, getIndex ν r = .ok i ∧ (mis ν.length r)[i]? = some ν := by
  have hm : ν ∈ mis ν.length r := mem_mis.2 ⟨rfl, h⟩
  obtain ⟨i, hi⟩ := List.getElem?_of_mem hm
  exact ⟨i, getIndexWith_eq _ Props.cacheOK _ _ _ hi, hi⟩

theorem getIndex_error {ν : List Nat} {r : Nat} (h : r < ν.sum) : getIndex ν r = .error .assertion := by
  unfold getIndex getIndexWith norm
  rw [if_neg (by omega)]

theorem getE_tab {W : Type} {m r i : Nat} {ν : List Nat} (f : List Nat → W) (h : (mis m r)[i]? = some ν) :
    getE (tab m r f) i = .ok (f ν) := by
  simp [getE, tab, List.getElem?_map, h]

theorem setE_tab {W : Type} {m r i : Nat} {ν : List Nat} (f : List Nat → W) (v : W) (h : (mis m r)[i]? = some ν) :
    setE (tab m r f) i v = .ok (tab m r (fun μ => if μ = ν then v else f μ)) := by
  obtain ⟨hi, he⟩ := List.getElem?_eq_some_iff.1 h
  rw [setE_ok (by simpa [tab] using hi)]
  congr 1
  apply List.ext_getElem
  · simp
  · intro j h1 h2
    have hj : j < (mis m r).length := by simpa [tab] using h2
    simp only [tab, List.getElem_set, List.getElem_map]
    by_cases hij : i = j
    · subst hij; simp [he]
    · rw [if_neg hij, if_neg]
      intro hc
      exact hij ((nodup_mis m r).getElem_inj_iff.1 (he.trans hc.symm))

/-- Looking up and updating the coefficient of a multi-index. -/
theorem index_tab {W : Type} {m r : Nat} {ν : List Nat} (hl : ν.length = m) (h : ν.sum ≤ r) :
    ∃ i, getIndex ν r = .ok i ∧ (mis m r)[i]? = some ν ∧ (∀ f : List Nat → W, getE (tab m r f) i = .ok (f ν)) ∧
      ∀ (f : List Nat → W) v, setE (tab m r f) i v = .ok (tab m r (fun μ => if μ = ν then v else f μ)) := by
  obtain ⟨i, hi, hm⟩ := getIndex_ok h
  rw [hl] at hm
  exact ⟨i, hi, hm, fun f => getE_tab f hm, fun f v => setE_tab f v hm⟩

theorem zeros_tab {W : Type} [Zero W] (m r : Nat) : zeros W (getDimension r m) = tab m r (fun _ => 0) := by
  simp [zeros, tab, length_mis_eq]

theorem fillLoop_eq {ι : Type} (f : ι → Py V) (g : ι → V) : ∀ (l : List ι) (pre post : List V),
    (∀ x ∈ l, f x = .ok (g x)) → post.length = l.length →
    fillLoop f l pre.length (pre ++ post) = .ok (pre ++ l.map g) := by
  intro l
  induction l with
  | nil => intro pre post _ h; simp only [fillLoop]; simp at h; simp [h]
  | cons a l ih =>
    intro pre post hf h
    match post, h with
    | b :: post, h =>
      simp only [fillLoop, hf a (by simp), Py.bind_ok]
      rw [setE_ok (by simp)]
      simp only [Py.bind_ok]
      have := ih (pre ++ [g a]) post (fun x hx => hf x (by simp [hx])) (by simpa using h)
      simp only [List.length_append, List.length_singleton, List.append_assoc, List.singleton_append] at this
      rw [show (pre ++ b :: post).set pre.length (g a) = pre ++ g a :: post by simp, this]
      simp

/-- The fill loop over all multi-indices computes a table. -/
theorem fillLoop_tab (m r : Nat) (f : List Nat → Py V) (g : List Nat → V)
    (h : ∀ ν, ν.length = m → ν.sum ≤ r → f ν = .ok (g ν)) :
    fillLoop f (generateAll m r) 0 (zeros V (getDimension r m)) = .ok (tab m r g) := by
  rw [generateAll_eq_mis]
  have := fillLoop_eq f g (mis m r) [] (zeros V (getDimension r m))
    (fun x hx => h x (mem_mis.1 hx).1 (mem_mis.1 hx).2) (by simp [zeros, length_mis_eq])
  simpa [tab] using this

/-! ## Sums over multi-indices -/

/-- The multi-indices as functions. -/
def S (m r : Nat) : Finset (Fin m → ℕ) :=
  (Fintype.piFinset fun _ => Finset.range (r + 1)).filter (fun ν => ∑ i, ν i ≤ r)

theorem mem_S {m r : Nat} {ν : Fin m → ℕ} : ν ∈ S m r ↔ ∑ i, ν i ≤ r := by
  simp only [S, Finset.mem_filter, Fintype.mem_piFinset, Finset.mem_range, and_iff_right_iff_imp]
  intro h i
  have := Finset.single_le_sum (f := ν) (fun _ _ => Nat.zero_le _) (Finset.mem_univ i)
  omega

theorem sum_mis {W : Type} [AddCommMonoid W] (m r : Nat) (f : List Nat → W) :
    ((mis m r).map f).sum = ∑ ν ∈ S m r, f (List.ofFn ν) := by
  rw [← List.sum_toFinset f (nodup_mis m r)]
  symm
  apply Finset.sum_bij (fun ν _ => List.ofFn ν)
  · intro ν hν
    rw [List.mem_toFinset, mem_mis]
    simp [List.sum_ofFn, mem_S.1 hν]
  · intro a _ b _ h; exact List.ofFn_injective h
  · intro l hl
    rw [List.mem_toFinset, mem_mis] at hl
    obtain ⟨rfl, hs⟩ := hl
    refine ⟨l.get, ?_, List.ofFn_get l⟩
    rw [mem_S, ← List.sum_ofFn, List.ofFn_get]; exact hs
  · intro _ _; rfl

theorem linComb_tab (b : List Nat → K) (m r : Nat) (f : List Nat → V) :
    linComb b (mis m r) (tab m r f) = ∑ ν ∈ S m r, b (List.ofFn ν) • f (List.ofFn ν) := by
  unfold linComb tab
  rw [← sum_mis m r (fun ν => b ν • f ν), List.zipWith_map_right, List.zipWith_self]

theorem monomial_ofFn {m : Nat} (x : Fin m → K) (ν : Fin m → ℕ) :
    monomial (List.ofFn x) (List.ofFn ν) = ∏ i, x i ^ ν i := by
  unfold monomial
  rw [← List.prod_ofFn]
  congr 1
  apply List.ext_getElem <;> simp

theorem zipWith_add_ofFn {m : Nat} (a b : Fin m → ℕ) :
    List.zipWith (· + ·) (List.ofFn a) (List.ofFn b) = List.ofFn (a + b) := by
  apply List.ext_getElem <;> simp

theorem eq_ofFn {W : Type} {m : Nat} {l : List W} (h : l.length = m) : ∃ f : Fin m → W, l = List.ofFn f := by
  subst h; exact ⟨l.get, (List.ofFn_get l).symm⟩

end Verif.Poly
