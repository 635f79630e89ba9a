import Verif.Lemmas.Calculus
import Verif.Props.Permutations
import Verif.Props.MultiIndex
import Mathlib.Data.Fin.Tuple.Sort
/-!
# The Hessian and the array of all partial derivatives
-/

namespace Verif.Calculus
open Verif Verif.MI Verif.Spec Verif.Poly Verif.Props

section Loops

theorem foldlM_state {σ τ ι : Type} (T : σ → τ) (F : τ → ι → Py τ) (g : σ → ι → σ) : ∀ (l : List ι) (s : σ),
    (∀ s, ∀ a ∈ l, F (T s) a = .ok (T (g s a))) → l.foldlM F (T s) = .ok (T (l.foldl g s))
  | [], _, _ => rfl
  | a :: l, s, h => by
    rw [List.foldlM_cons, h s a (by simp), Py.bind_ok, List.foldl_cons]
    exact foldlM_state T F g l _ (fun s b hb => h s b (by simp [hb]))

variable {O : Type} {m : ℕ}

theorem sum_count : ∀ l : List (Fin m), ∑ i, l.count i = l.length
  | [] => by simp
  | a :: l => by
    simp only [List.count_cons, Finset.sum_add_distrib, sum_count l, List.length_cons]
    congr 1
    simp

/-- A two dimensional array. -/
def table (H : Fin m → Fin m → Option O) : List (List (Option O)) := List.ofFn fun i => List.ofFn (H i)

theorem setEntry_table (H : Fin m → Fin m → Option O) (i j : Fin m) (x : O) :
    setEntry (table H) i j x = .ok (table (fun a b => if a = i ∧ b = j then some x else H a b)) := by
  unfold setEntry
  have h1 : getE (table H) (i : Nat) = .ok (List.ofFn (H i)) := by
    rw [getE_ok (by simp [table])]; simp [table]
  rw [h1, Py.bind_ok, setE_ok (by simp), Py.bind_ok, setE_ok (by simp [table])]
  congr 1
  apply List.ext_getElem
  · simp [table]
  · intro a h2 h3
    simp only [table, List.length_set, List.length_ofFn] at h2
    rw [List.getElem_set]
    split
    · rename_i hai
      subst hai
      apply List.ext_getElem
      · simp [table]
      · intro b h4 h5
        simp only [List.length_set, List.length_ofFn] at h4
        rw [List.getElem_set]
        simp only [table, List.getElem_ofFn]
        by_cases hb : (j : Nat) = b
        · subst hb; simp
        · rw [if_neg hb, if_neg]
          rintro ⟨-, h⟩; exact hb (by rw [← h])
    · rename_i hai
      simp only [table, List.getElem_ofFn]
      congr 1
      funext b
      rw [if_neg]
      rintro ⟨h, -⟩; exact hai (by rw [← h])

theorem increase_ofFn (α : Fin m → ℕ) (i : Fin m) : increase (List.ofFn α) i = .ok (List.ofFn (α + Pi.single i 1)) := by
  unfold increase
  have h1 : getE (List.ofFn α) (i : Nat) = .ok (α i) := by
    rw [getE_ok (by simp)]; simp
  rw [h1, Py.bind_ok, setE_ok (by simp)]
  congr 1
  apply List.ext_getElem
  · simp
  · intro a h2 h3
    simp only [List.length_set, List.length_ofFn] at h2
    rw [List.getElem_set]
    simp only [List.getElem_ofFn, Pi.add_apply, Pi.single_apply]
    by_cases h : (i : Nat) = a
    · subst h; simp
    · rw [if_neg h, if_neg]
      · rfl
      · intro h'; exact h (by rw [← h'])

theorem zero_ofFn : MI.zero m = List.ofFn (0 : Fin m → ℕ) := by
  unfold MI.zero; rw [← List.ofFn_const]; rfl

/-- The number of occurrences of each coordinate. -/
def cnt (l : List ℕ) : Fin m → ℕ := fun i => l.count (i : Nat)

theorem increase_fold : ∀ (l : List ℕ) (α : Fin m → ℕ), (∀ k ∈ l, k < m) →
    l.foldlM increase (List.ofFn α) = .ok (List.ofFn (α + cnt l))
  | [], α, _ => by
    have : (cnt [] : Fin m → ℕ) = 0 := funext fun i => by simp [cnt]
    rw [this, add_zero]; rfl
  | k :: l, α, h => by
    have hk : k < m := h k (by simp)
    have h1 := increase_ofFn α ⟨k, hk⟩
    simp only at h1
    rw [List.foldlM_cons, h1, Py.bind_ok, increase_fold l _ (fun j hj => h j (by simp [hj]))]
    congr 2
    funext i
    simp only [Pi.add_apply, cnt, List.count_cons, Pi.single_apply]
    by_cases hi : i = ⟨k, hk⟩
    · subst hi; simp; omega
    · rw [if_neg hi]
      have : ¬ (k == (i : Nat)) = true := by
        intro h'; exact hi (Fin.ext (by simpa using (beq_iff_eq.1 h').symm))
      rw [if_neg this]; omega

theorem exists_equiv {n : ℕ} {f g : Fin n → ℕ} (h : (List.ofFn f).Perm (List.ofFn g)) : ∃ e : Equiv.Perm (Fin n), f = g ∘ e := by
  have h1 : f ∘ Tuple.sort f = g ∘ Tuple.sort g := by
    apply List.ofFn_injective
    refine List.Perm.eq_of_pairwise' (r := (· ≤ ·)) ?_ ?_ ?_
    · exact (Tuple.monotone_sort f).sortedLE_ofFn.pairwise
    · exact (Tuple.monotone_sort g).sortedLE_ofFn.pairwise
    · exact ((Tuple.sort f).ofFn_comp_perm f).trans (h.trans ((Tuple.sort g).ofFn_comp_perm g).symm)
  refine ⟨(Tuple.sort f)⁻¹.trans (Tuple.sort g), ?_⟩
  funext i
  have := congrFun h1 ((Tuple.sort f)⁻¹ i)
  have h2 : (Tuple.sort f) ((Tuple.sort f)⁻¹ i) = i := by simp
  rw [Function.comp_apply, h2] at this
  rw [this]; rfl

theorem uniquePermutations_spec (t : List ℕ) (ht : t ≠ []) : ∃ l, uniquePermutations t = .ok l ∧ ∀ s, s ∈ l ↔ s.Perm t := by
  have hn : 0 < t.length := List.length_pos_of_ne_nil ht
  obtain ⟨h1, -, -⟩ := C17_permutations t.length hn
  classical
  have h2 : ∀ p ∈ Perm.permutations t.length, ∃ e : Equiv.Perm (Fin t.length), p = Spec.oneLine e ∧
      Perm.permutePositions p t = .ok (List.ofFn (fun i => t.get (e⁻¹ i))) := by
    intro p hp
    obtain ⟨e, rfl⟩ := Perm.exists_oneLine ((h1 p).1 hp)
    refine ⟨e, rfl, ?_⟩
    have := Perm.permutePositions_eq hn e t.get
    rwa [List.ofFn_get] at this
  choose! e he1 he2 using h2
  refine ⟨((Perm.permutations t.length).map (fun p => List.ofFn (fun i => t.get ((e p)⁻¹ i)))).dedup, ?_, ?_⟩
  · unfold uniquePermutations
    rw [mapM_eq_ok _ _ he2]; rfl
  · intro s
    rw [List.mem_dedup, List.mem_map]
    constructor
    · rintro ⟨p, hp, rfl⟩
      have := ((e p)⁻¹).ofFn_comp_perm t.get
      rwa [List.ofFn_get] at this
    · intro hs
      have hl := hs.length_eq
      obtain ⟨f, rfl⟩ : ∃ f : Fin t.length → ℕ, s = List.ofFn f := ⟨fun i => s.get (i.cast hl.symm), by
        apply List.ext_getElem
        · simp [hl]
        · intro i h3 h4; simp⟩
      have h3 : (List.ofFn f).Perm (List.ofFn t.get) := by rwa [List.ofFn_get]
      obtain ⟨σ, rfl⟩ := exists_equiv h3
      have hmem : Spec.oneLine σ⁻¹ ∈ Perm.permutations t.length := (h1 _).2 (Perm.oneLine_perm _)
      refine ⟨_, hmem, ?_⟩
      have := Perm.oneLine_inj (he1 _ hmem)
      rw [← this]
      simp; rfl

theorem setArray_fold {r : ℕ} (x : O) : ∀ (l : List (List ℕ)) (d : List ℕ → Option O), (∀ ip ∈ l, ip.length = r ∧ ∀ k ∈ ip, k < m) →
    l.foldlM (fun d ip => setArray m r d ip x) d = .ok (fun s => if s ∈ l then some x else d s)
  | [], d, _ => by simp
  | ip :: l, d, h => by
    have h1 : setArray m r d ip x = .ok (Function.update d ip (some x)) := by unfold setArray; rw [if_pos (h ip (by simp))]
    rw [List.foldlM_cons, h1, Py.bind_ok, setArray_fold x l _ (fun jp hj => h jp (by simp [hj]))]
    congr 1
    funext s
    by_cases hs : s ∈ l
    · simp [hs]
    · by_cases hi : s = ip
      · subst hi; simp [hs]
      · simp [hs, hi]

end Loops

variable {K V : Type} [NontriviallyNormedField K] [CharZero K] [NormedAddCommGroup V] [NormedSpace K V] {m : ℕ}
variable {O B : Type} {pd : O → Nat → Py O} {Rep : O → ((Fin m → K) → V) → Prop} {bas : O → B} {deg : O → Nat}

theorem sum_single_pair (i j : Fin m) : ∑ k, (Pi.single i 1 + Pi.single j 1 : Fin m → ℕ) k = 2 := by
  simp [Finset.sum_add_distrib]

theorem count_pair (i j k : Fin m) : [i, j].count k = (Pi.single i 1 + Pi.single j 1 : Fin m → ℕ) k := by
  simp only [List.count_cons, List.count_nil, Pi.add_apply, Pi.single_apply, beq_iff_eq]
  simp only [eq_comm (a := k)]
  omega

omit [CharZero K] in
theorem isIteratedPartial_unique : ∀ (l : List (Fin m)) {f g g' : (Fin m → K) → V}, IsIteratedPartial l f g → IsIteratedPartial l f g' → g = g'
  | [], _, _, _, h, h' => h.trans h'.symm
  | _ :: l, _, _, _, ⟨f1, h1, h2⟩, ⟨f2, h3, h4⟩ => by
    have : f1 = f2 := funext fun x => (h1 x).unique (h3 x)
    subst this
    exact isIteratedPartial_unique l h2 h4

theorem hessian_spec (G : Good pd Rep bas deg) {p : O} {f : (Fin m → K) → V} (hp : Rep p f) :
    ∃ (q : Fin m → Fin m → O) (g : Fin m → Fin m → (Fin m → K) → V),
      hessian pd m 1 p = .ok (List.ofFn fun i => List.ofFn fun j => some (q i j)) ∧
      ∀ i j, Rep (q i j) (g i j) ∧ IsDerivative (Pi.single i 1 + Pi.single j 1) f (g i j) ∧ bas (q i j) = bas p ∧ deg (q i j) = deg p - 2 := by
  choose D g hD using fun α => derivative_spec G hp α
  refine ⟨fun i j => D (Pi.single i 1 + Pi.single j 1), fun i j => g (Pi.single i 1 + Pi.single j 1), ?_, fun i j => ?_⟩
  swap
  · have := (hD (Pi.single i 1 + Pi.single j 1)).2
    rwa [sum_single_pair] at this
  let up : (Fin m → Fin m → Option O) → Fin m → Fin m → (Fin m → Fin m → Option O) := fun H i j a b =>
    if (a = i ∧ b = j) ∨ (a = j ∧ b = i) then some (D (Pi.single i 1 + Pi.single j 1)) else H a b
  have entry : ∀ (H : Fin m → Fin m → Option O) (i j : Fin m), hessianEntry pd m p (table H) i j = .ok (table (up H i j)) := by
    intro H i j
    unfold hessianEntry
    rw [zero_ofFn, increase_ofFn, Py.bind_ok, zero_add, increase_ofFn, Py.bind_ok, (hD _).1, Py.bind_ok, setEntry_table, Py.bind_ok]
    by_cases hij : i = j
    · subst hij
      rw [if_pos rfl]
      simp only [up, or_self]; rfl
    · rw [if_neg (fun h => hij (Fin.ext h)), setEntry_table]
      congr 2
      funext a b
      simp only [up]
      by_cases h1 : a = j ∧ b = i
      · simp [h1]
      · by_cases h2 : a = i ∧ b = j
        · simp [h2]
        · simp [h1, h2]
  -- the inner loop
  have inner : ∀ (i : Fin m) (H : Fin m → Fin m → Option O), (List.range' i (m - i)).foldlM (fun h (j : Nat) => hessianEntry pd m p h i j) (table H) =
      .ok (table (((List.finRange m).filter (fun j => i ≤ j)).foldl (fun H j => up H i j) H)) := by
    intro i H
    have hl : List.range' i (m - i) = ((List.finRange m).filter (fun j => decide (i ≤ j))).map (fun (j : Fin m) => (j : Nat)) := by
      have e1 : (List.finRange m).map (fun (j : Fin m) => (j : Nat)) = List.range m := by simp
      have e2 : ((List.finRange m).filter (fun j => decide (i ≤ j))).map (fun (j : Fin m) => (j : Nat)) =
          (List.range m).filter (fun j => decide ((i : Nat) ≤ j)) := by
        rw [← e1, List.filter_map]; rfl
      rw [e2]
      have e3 : List.range m = List.range' 0 i ++ List.range' i (m - i) := by
        rw [List.range_eq_range', show List.range' 0 m = List.range' 0 (i + (m - i)) by congr 1; have := i.2; omega, ← List.range'_append]
        simp
      rw [e3, List.filter_append, List.filter_eq_nil_iff.2, List.nil_append, List.filter_eq_self.2]
      · intro a ha; rw [List.mem_range'] at ha; obtain ⟨k, -, rfl⟩ := ha; simp
      · intro a ha; rw [List.mem_range'] at ha; obtain ⟨k, hk, rfl⟩ := ha; simp; omega
    rw [hl, List.foldlM_map]
    exact foldlM_state table _ _ _ H (fun s a _ => entry s i a)
  have outer : hessian pd m 1 p = .ok (table ((List.finRange m).foldl (fun H i =>
      ((List.finRange m).filter (fun j => i ≤ j)).foldl (fun H j => up H i j) H) (fun _ _ => none))) := by
    unfold hessian
    rw [decide_eq_true rfl, pyAssert_true, Py.bind_ok]
    have e0 : List.replicate m (List.replicate m (none : Option O)) = table (m := m) (fun _ _ => none) := by
      unfold table; rw [List.ofFn_const, List.ofFn_const]
    rw [e0, show List.range m = (List.finRange m).map (fun (i : Fin m) => (i : Nat)) by simp, List.foldlM_map]
    exact foldlM_state table _ _ _ _ (fun s a _ => inner a s)
  rw [outer]
  congr 1
  unfold table
  congr 1
  funext a
  congr 1
  funext b
  -- the value of an entry after both loops
  have inv : ∀ (l : List (Fin m)) (i : Fin m) (H : Fin m → Fin m → Option O), l.foldl (fun H j => up H i j) H a b =
      if (a = i ∧ b ∈ l) ∨ (b = i ∧ a ∈ l) then some (D (Pi.single a 1 + Pi.single b 1)) else H a b := by
    intro l
    induction l with
    | nil => intro i H; simp
    | cons j l ih =>
      intro i H
      rw [List.foldl_cons, ih]
      by_cases h1 : (a = i ∧ b ∈ l) ∨ (b = i ∧ a ∈ l)
      · rw [if_pos h1, if_pos (by rcases h1 with ⟨x, y⟩ | ⟨x, y⟩ <;> simp [x, y])]
      · rw [if_neg h1]
        simp only [up]
        by_cases h2 : (a = i ∧ b = j) ∨ (a = j ∧ b = i)
        · rw [if_pos h2, if_pos (by rcases h2 with ⟨x, y⟩ | ⟨x, y⟩ <;> simp [x, y])]
          rcases h2 with ⟨rfl, rfl⟩ | ⟨rfl, rfl⟩
          · rfl
          · rw [add_comm]
        · rw [if_neg h2, if_neg]
          simp only [List.mem_cons]
          rintro (⟨h3, h4 | h4⟩ | ⟨h3, h4 | h4⟩)
          · exact h2 (Or.inl ⟨h3, h4⟩)
          · exact h1 (Or.inl ⟨h3, h4⟩)
          · exact h2 (Or.inr ⟨h4, h3⟩)
          · exact h1 (Or.inr ⟨h3, h4⟩)
  have inv2 : ∀ (l : List (Fin m)) (H : Fin m → Fin m → Option O), (∃ i ∈ l, (a = i ∧ i ≤ b) ∨ (b = i ∧ i ≤ a)) →
      l.foldl (fun H i => ((List.finRange m).filter (fun j => i ≤ j)).foldl (fun H j => up H i j) H) H a b =
      some (D (Pi.single a 1 + Pi.single b 1)) := by
    have keep : ∀ (l : List (Fin m)) (H : Fin m → Fin m → Option O), H a b = some (D (Pi.single a 1 + Pi.single b 1)) →
        l.foldl (fun H i => ((List.finRange m).filter (fun j => i ≤ j)).foldl (fun H j => up H i j) H) H a b =
        some (D (Pi.single a 1 + Pi.single b 1)) := by
      intro l
      induction l with
      | nil => intro H h; exact h
      | cons i l ih =>
        intro H h
        rw [List.foldl_cons]
        apply ih
        rw [inv]
        split
        · rfl
        · exact h
    intro l
    induction l with
    | nil => rintro H ⟨i, hi, -⟩; exact absurd hi (by simp)
    | cons i l ih =>
      rintro H ⟨i', hi', h⟩
      rw [List.foldl_cons]
      rcases List.mem_cons.1 hi' with rfl | hi'
      · apply keep
        rw [inv, if_pos]
        simp only [List.mem_filter, List.mem_finRange, true_and, decide_eq_true_eq]
        exact h
      · exact ih _ ⟨i', hi', h⟩
  apply inv2
  rcases le_total a b with h | h
  · exact ⟨a, by simp, Or.inl ⟨rfl, h⟩⟩
  · exact ⟨b, by simp, Or.inr ⟨rfl, h⟩⟩

theorem array_spec (G : Good pd Rep bas deg) (hm : 0 < m) {p : O} {f : (Fin m → K) → V} (hp : Rep p f) (r : ℕ) :
    ∃ d, partialDerivativesArray pd m 1 r p = .ok d ∧ ∀ idx : List (Fin m), idx.length = r →
      ∃ q g, d (idx.map (fun (i : Fin m) => (i : Nat))) = some q ∧ Rep q g ∧ IsDerivative (fun i => idx.count i) f g ∧ bas q = bas p ∧ deg q = deg p - r := by
  unfold partialDerivativesArray
  rw [decide_eq_true rfl, pyAssert_true, Py.bind_ok]
  by_cases hr : r = 0
  · subst hr
    rw [if_pos rfl]
    refine ⟨_, rfl, fun idx hidx => ?_⟩
    rw [List.length_eq_zero_iff] at hidx
    subst hidx
    refine ⟨p, f, by simp, hp, ?_, rfl, rfl⟩
    intro l hl
    have : l = [] := by
      rw [List.eq_nil_iff_forall_not_mem]
      intro i hi
      have := hl i
      simp only [List.count_nil] at this
      exact absurd (List.count_pos_iff.2 hi) (by omega)
    subst this
    rfl
  rw [if_neg hr]
  choose D g hD using fun α => derivative_spec G hp α
  classical
  have hmem : ∀ a, a ∈ generateAllNonDecreasing r (m - 1) ↔ a.length = r ∧ (∀ x ∈ a, x ≤ m - 1) ∧ a.Pairwise (· ≤ ·) :=
    (C07_all_non_decreasing r (m - 1)).2
  have step : ∀ (d : List ℕ → Option O), ∀ i ∈ generateAllNonDecreasing r (m - 1),
      arrayStep pd m r p d i = .ok (fun s => if s.Perm i then some (D (cnt i)) else d s) := by
    intro d i hi
    obtain ⟨h1, h2, -⟩ := (hmem i).1 hi
    have hne : i ≠ [] := by rintro rfl; exact hr (by simpa using h1.symm)
    have hlt : ∀ k ∈ i, k < m := fun k hk => by have := h2 k hk; omega
    obtain ⟨l, hl1, hl2⟩ := uniquePermutations_spec i hne
    unfold arrayStep
    rw [zero_ofFn, increase_fold i 0 hlt, Py.bind_ok, zero_add, (hD _).1, Py.bind_ok, hl1, Py.bind_ok, setArray_fold]
    · congr 1
      funext s
      by_cases hs : s.Perm i
      · rw [if_pos ((hl2 s).2 hs), if_pos hs]
      · rw [if_neg (mt (hl2 s).1 hs), if_neg hs]
    · intro ip hip
      have hperm := (hl2 ip).1 hip
      exact ⟨hperm.length_eq.trans h1, fun k hk => hlt k (hperm.mem_iff.1 hk)⟩
  have fold : ∀ (l : List (List ℕ)) (d : List ℕ → Option O), (∀ i ∈ l, i ∈ generateAllNonDecreasing r (m - 1)) →
      ∃ d', l.foldlM (arrayStep pd m r p) d = .ok d' ∧ ∀ s, ((∃ i ∈ l, s.Perm i) → d' s = some (D (cnt s))) ∧
        ((¬ ∃ i ∈ l, s.Perm i) → d' s = d s) := by
    intro l
    induction l with
    | nil => intro d _; exact ⟨d, rfl, fun s => ⟨by simp, fun _ => rfl⟩⟩
    | cons i l ih =>
      intro d h
      obtain ⟨d', h1, h2⟩ := ih (fun s => if s.Perm i then some (D (cnt i)) else d s) (fun j hj => h j (by simp [hj]))
      refine ⟨d', ?_, fun s => ⟨?_, ?_⟩⟩
      · rw [List.foldlM_cons, step d i (h i (by simp)), Py.bind_ok]; exact h1
      · rintro ⟨j, hj, hs⟩
        by_cases hl : ∃ i ∈ l, s.Perm i
        · exact (h2 s).1 hl
        · rw [(h2 s).2 hl]
          rcases List.mem_cons.1 hj with rfl | hj
          · rw [if_pos hs]
            congr 2
            funext k
            exact (hs.count_eq (k : Nat)).symm
          · exact absurd ⟨j, hj, hs⟩ hl
      · intro hn
        rw [(h2 s).2 (fun ⟨j, hj, hs⟩ => hn ⟨j, by simp [hj], hs⟩), if_neg (fun hs => hn ⟨i, by simp, hs⟩)]
  obtain ⟨d', h1, h2⟩ := fold _ (fun _ => none) (fun i hi => hi)
  refine ⟨d', h1, fun idx hidx => ?_⟩
  have hcnt : (cnt (idx.map (fun (i : Fin m) => (i : Nat))) : Fin m → ℕ) = fun i => idx.count i := by
    funext i
    exact List.count_map_of_injective idx _ Fin.val_injective i
  refine ⟨_, _, (h2 _).1 ⟨(idx.map (fun (i : Fin m) => (i : Nat))).mergeSort, ?_, (List.mergeSort_perm _ _).symm⟩, (hD _).2.1, ?_, (hD _).2.2.2.1, ?_⟩
  · rw [hmem]
    refine ⟨by simp [hidx], ?_, ?_⟩
    · intro x hx
      rw [List.mem_mergeSort, List.mem_map] at hx
      obtain ⟨i, -, rfl⟩ := hx
      have := i.2; omega
    · have := List.pairwise_mergeSort (le := fun (a b : ℕ) => decide (a ≤ b)) (by intro a b c; simp; omega) (by intro a b; simp; omega) (idx.map (fun (i : Fin m) => (i : Nat)))
      exact this.imp (by simp)
  · rw [← hcnt]; exact (hD _).2.2.1
  · rw [(hD _).2.2.2.2, hcnt]
    congr 1
    rw [← hidx]
    exact sum_count idx

end Verif.Calculus
