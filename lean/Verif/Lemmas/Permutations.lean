import Mathlib.Dynamics.PeriodicPts.Defs
import Mathlib.GroupTheory.Perm.List
import Mathlib.GroupTheory.OrderOfElement
import Mathlib.Tactic.Positivity
import Mathlib.Data.Fintype.Card
import Mathlib.Data.List.FinRange
import Mathlib.Tactic.Ring
import Verif.Model.Permutations
import Verif.Spec.Permutations
/-!
# Helper lemmas about permutations
-/

namespace Verif

theorem setE_ofFn {n : Nat} {α : Type*} (f : Fin n → α) (x : Fin n) (v : α) :
    setE (List.ofFn f) x v = .ok (List.ofFn (Function.update f x v)) := by
  rw [setE_ok (by simp)]
  congr 1
  apply List.ext_getElem (by simp)
  intro i h1 h2
  simp only [List.length_set, List.length_ofFn] at h1
  simp only [List.getElem_set, List.getElem_ofFn, Function.update_apply]
  by_cases h : (x : Nat) = i
  · subst h; simp
  · rw [if_neg h, if_neg]; intro e; exact h (by rw [← e])

theorem getE_ofFn {n : Nat} {α : Type*} (f : Fin n → α) (x : Fin n) : getE (List.ofFn f) x = .ok (f x) := by
  rw [getE_ok (by simp)]; simp

namespace Perm
open Verif.Spec

variable {n : Nat}

@[simp] theorem length_oneLine (e : Equiv.Perm (Fin n)) : (oneLine e).length = n := by simp [oneLine]

theorem getElem_oneLine (e : Equiv.Perm (Fin n)) (i : Fin n) (h : (i : Nat) < (oneLine e).length) :
    (oneLine e)[(i : Nat)] = e i := by simp [oneLine]

theorem oneLine_inj {e f : Equiv.Perm (Fin n)} (h : oneLine e = oneLine f) : e = f := by
  have := List.ofFn_injective h
  ext i; exact congrFun this i

theorem nodup_oneLine (e : Equiv.Perm (Fin n)) : (oneLine e).Nodup := by
  unfold oneLine
  rw [List.nodup_ofFn]
  intro i j h; exact e.injective (Fin.ext h)

theorem mem_oneLine (e : Equiv.Perm (Fin n)) (x : Nat) : x ∈ oneLine e ↔ x < n := by
  unfold oneLine
  rw [List.mem_ofFn]
  constructor
  · rintro ⟨i, rfl⟩; exact (e i).2
  · intro h; exact ⟨e.symm ⟨x, h⟩, by simp⟩

theorem oneLine_perm (e : Equiv.Perm (Fin n)) : (oneLine e).Perm (List.range n) := by
  rw [List.perm_ext_iff_of_nodup (nodup_oneLine e) List.nodup_range]
  intro x; rw [mem_oneLine, List.mem_range]

theorem oneLine_one : oneLine (1 : Equiv.Perm (Fin n)) = List.range n := by
  apply List.ext_getElem (by simp)
  intro i h1 h2; simp [oneLine]

/-- Every rearrangement of `0, .., n-1` is the one-line notation of a bijection. -/
theorem exists_oneLine {p : List Nat} (h : p.Perm (List.range n)) : ∃ e : Equiv.Perm (Fin n), p = oneLine e := by
  have hl : p.length = n := by simpa using h.length_eq
  have hm : ∀ x ∈ p, x < n := fun x hx => List.mem_range.1 (h.mem_iff.1 hx)
  have hn : p.Nodup := h.nodup_iff.2 List.nodup_range
  let f : Fin n → Fin n := fun i => ⟨p[i.1]'(by rw [hl]; exact i.2), hm _ (List.getElem_mem _)⟩
  have hinj : Function.Injective f := by
    intro i j hij
    simp only [f, Fin.mk.injEq] at hij
    exact Fin.ext ((List.Nodup.getElem_inj_iff hn).1 hij)
  have hb : Function.Bijective f := Finite.injective_iff_bijective.1 hinj
  refine ⟨Equiv.ofBijective f hb, ?_⟩
  apply List.ext_getElem (by simp [hl])
  intro i h1 h2
  simp [oneLine, f]

/-! ### inverse and composition -/

theorem pairLe_total : Std.Total pairLe := ⟨fun a b => by unfold pairLe; omega⟩
theorem pairLe_trans : IsTrans (Nat × Nat) pairLe := ⟨fun a b c => by unfold pairLe; omega⟩
theorem pairLe_antisymm : Std.Antisymm pairLe := ⟨fun a b h1 h2 => by unfold pairLe at *; ext <;> omega⟩

theorem sort_unique {l m : List (Nat × Nat)} (h : l.Perm m) (hm : m.Pairwise pairLe) : l.insertionSort pairLe = m := by
  haveI := pairLe_total; haveI := pairLe_trans; haveI := pairLe_antisymm
  exact List.Perm.eq_of_pairwise' (List.pairwise_insertionSort pairLe l) hm ((List.perm_insertionSort _ l).trans h)

theorem fromTwoLine_eq {a b c : List Nat} (hn : 0 < n) (hc : c.length = n)
    (h : (a.zip b).Perm ((List.range n).zip c)) : fromTwoLine (a, b) = .ok c := by
  have hp : ((List.range n).zip c).Pairwise pairLe := by
    rw [List.pairwise_iff_getElem]
    intro i j hi hj hij
    simp only [List.getElem_zip, List.getElem_range]
    exact .inl hij
  unfold fromTwoLine secondLine
  simp only
  rw [sort_unique h hp, if_neg]
  · congr 1
    rw [List.map_snd_zip]; simp [hc]
  · simp only [List.isEmpty_iff]
    intro h0
    have : ((List.range n).zip c).length = 0 := by rw [h0]; rfl
    simp [hc] at this; omega

theorem inverse_oneLine (hn : 0 < n) (e : Equiv.Perm (Fin n)) : inverse (oneLine e) = .ok (oneLine e⁻¹) := by
  unfold inverse toTwoLine
  simp only [length_oneLine]
  refine fromTwoLine_eq hn (by simp) ?_
  rw [List.perm_ext_iff_of_nodup]
  · rintro ⟨x, y⟩
    constructor
    · intro h
      obtain ⟨i, hi, he⟩ := List.mem_iff_getElem.1 h
      simp only [List.length_zip, length_oneLine, List.length_range, min_self] at hi
      simp only [List.getElem_zip, List.getElem_range, Prod.mk.injEq] at he
      obtain ⟨rfl, rfl⟩ := he
      rw [List.mem_iff_getElem]
      refine ⟨(oneLine e)[i]'(by simpa using hi), ?_, ?_⟩
      · have := (mem_oneLine e ((oneLine e)[i]'(by simpa using hi))).1 (List.getElem_mem _)
        simpa using this
      · simp [oneLine]
    · intro h
      obtain ⟨i, hi, he⟩ := List.mem_iff_getElem.1 h
      simp only [List.length_zip, length_oneLine, List.length_range, min_self] at hi
      simp only [List.getElem_zip, List.getElem_range, Prod.mk.injEq] at he
      obtain ⟨rfl, rfl⟩ := he
      rw [List.mem_iff_getElem]
      refine ⟨(oneLine e⁻¹)[i]'(by simpa using hi), ?_, ?_⟩
      · have := (mem_oneLine e⁻¹ ((oneLine e⁻¹)[i]'(by simpa using hi))).1 (List.getElem_mem _)
        simpa using this
      · simp [oneLine]
  · exact List.Nodup.of_map Prod.snd (by rw [List.map_snd_zip (by simp)]; exact List.nodup_range)
  · exact List.Nodup.of_map Prod.fst (by rw [List.map_fst_zip (by simp)]; exact List.nodup_range)

theorem indexE_getElem {l : List Nat} (hn : l.Nodup) (i : Nat) (h : i < l.length) : indexE l l[i] = .ok i := by
  unfold indexE
  have h : l.idxOf? l[i] = some i := by
    rw [List.idxOf?_eq_some_iff]
    refine ⟨h, rfl, fun j hj he => ?_⟩
    have := (List.Nodup.getElem_inj_iff hn).1 he; omega
  rw [h]

theorem indexE_oneLine (e : Equiv.Perm (Fin n)) (i : Fin n) : indexE (oneLine e) (i : Nat) = .ok (e⁻¹ i : Nat) := by
  have := indexE_getElem (nodup_oneLine e) (e⁻¹ i : Fin n) (by simp)
  rw [getElem_oneLine] at this
  simpa using this

theorem sort_key_unique {β : Type*} (l m : List (Nat × β)) (h : l.Perm m) (hm : m.Pairwise (fun a b => a.1 < b.1)) :
    l.insertionSort (fun a b => a.1 ≤ b.1) = m := by
  let r : Nat × β → Nat × β → Prop := fun a b => a.1 ≤ b.1
  haveI : Std.Total r := ⟨fun a b => Nat.le_total _ _⟩
  haveI : IsTrans (Nat × β) r := ⟨fun a b c => Nat.le_trans⟩
  have h1 := List.pairwise_insertionSort r l
  have h2 : (l.insertionSort r).Perm m := (List.perm_insertionSort r l).trans h
  -- the keys are distinct
  have hk : (m.map Prod.fst).Nodup := by
    unfold List.Nodup; rw [List.pairwise_map]; exact hm.imp (fun h => Nat.ne_of_lt h)
  have hk2 : ((l.insertionSort r).map Prod.fst).Nodup := (h2.map Prod.fst).nodup_iff.2 hk
  have h3 : (l.insertionSort r).Pairwise (fun a b => a.1 < b.1) := by
    unfold List.Nodup at hk2; rw [List.pairwise_map] at hk2
    exact (h1.and hk2).imp (fun h => Nat.lt_of_le_of_ne h.1 h.2)
  refine List.Perm.eq_of_pairwise ?_ h3 hm h2
  intro a b _ _ h4 h5; omega

theorem composition_eq (hn : 0 < n) (s p : Equiv.Perm (Fin n)) :
    composition (oneLine s) (oneLine p) = .ok (oneLine (s * p)) := by
  unfold composition toTwoLine
  simp only [length_oneLine]
  have h1 : ((List.range n).zip (oneLine s)).mapM (fun x => do let k ← indexE (oneLine p) x.1; return (k, x)) =
      (.ok (List.ofFn (fun i : Fin n => ((p⁻¹ i : Nat), ((i : Nat), (s i : Nat))))) : Py _) := by
    have : (List.range n).zip (oneLine s) = List.ofFn (fun i : Fin n => ((i : Nat), (s i : Nat))) := by
      apply List.ext_getElem (by simp)
      intro i h1 h2; simp [oneLine]
    rw [this, List.ofFn_eq_map, List.ofFn_eq_map]
    generalize List.finRange n = l
    induction l with
    | nil => rfl
    | cons a l ih =>
      rw [List.map_cons, List.mapM_cons, ih]
      simp only [indexE_oneLine, Py.bind_ok, Py.pure_eq, List.map_cons]
  rw [h1]
  simp only [Py.bind_ok]
  have h2 : (List.ofFn (fun i : Fin n => ((p⁻¹ i : Nat), ((i : Nat), (s i : Nat))))).insertionSort (fun a b => a.1 ≤ b.1) =
      List.ofFn (fun i : Fin n => ((i : Nat), ((p i : Nat), (s (p i) : Nat)))) := by
    apply sort_key_unique
    · have : (fun i : Fin n => ((p⁻¹ i : Nat), ((i : Nat), (s i : Nat)))) =
        (fun i : Fin n => ((i : Nat), ((p i : Nat), (s (p i) : Nat)))) ∘ (p⁻¹ : Equiv.Perm (Fin n)) := by
        funext i; simp
      rw [this]
      exact Equiv.Perm.ofFn_comp_perm _ _
    · rw [List.pairwise_iff_getElem]
      intro i j hi hj hij; simpa using hij
  rw [h2]
  unfold secondLine
  rw [if_neg]
  · congr 1
    apply List.ext_getElem (by simp)
    intro i h1 h2; simp [oneLine]
  · simp only [List.isEmpty_iff, List.map_eq_nil_iff]; intro h0
    have := congrArg List.length h0; simp at this; omega

/-! ### cycles -/

/-- The orbit of `i`, starting at `i`. -/
noncomputable def orbit (e : Equiv.Perm (Fin n)) (i : Fin n) : List (Fin n) :=
  (List.range (Function.minimalPeriod e i)).map (fun k => e^[k] i)

theorem period_pos (e : Equiv.Perm (Fin n)) (i : Fin n) : 0 < Function.minimalPeriod e i :=
  Function.minimalPeriod_pos_of_mem_periodicPts
    (Function.mem_periodicPts.2 ⟨orderOf e, orderOf_pos e, by
      rw [Function.IsPeriodicPt, Function.IsFixedPt, ← Equiv.Perm.coe_pow, pow_orderOf_eq_one]; rfl⟩)

theorem orbit_nodup (e : Equiv.Perm (Fin n)) (i : Fin n) : (orbit e i).Nodup := by
  refine List.Nodup.map_on ?_ List.nodup_range
  intro a ha b hb h
  exact Function.iterate_injOn_Iio_minimalPeriod (List.mem_range.1 ha) (List.mem_range.1 hb) h

theorem period_le (e : Equiv.Perm (Fin n)) (i : Fin n) : Function.minimalPeriod e i ≤ n := by
  have := (orbit_nodup e i).length_le_card
  simpa [orbit] using this

theorem cycleLoop_eq (e : Equiv.Perm (Fin n)) (i : Fin n) : ∀ (d k fuel : Nat), 0 < k → k + d = Function.minimalPeriod e i →
    d < fuel →
    cycleLoop (oneLine e) i fuel (((List.range k).map (fun j => ((e^[j] i : Fin n) : Nat))).reverse) (e^[k] i : Fin n) =
      .ok ((orbit e i).map Fin.val) := by
  intro d
  induction d with
  | zero =>
    intro k fuel hk h hf
    obtain ⟨fuel, rfl⟩ : ∃ f, fuel = f + 1 := ⟨fuel - 1, by omega⟩
    have hp : (e^[k] i) = i := by
      have : k = Function.minimalPeriod e i := by omega
      rw [this]; exact Function.iterate_minimalPeriod
    rw [cycleLoop, hp, if_neg (by simp)]
    simp only [orbit, List.reverse_reverse, List.map_map]
    rw [← h]; simp
  | succ d ih =>
    intro k fuel hk h hf
    obtain ⟨fuel, rfl⟩ : ∃ f, fuel = f + 1 := ⟨fuel - 1, by omega⟩
    have hne : (e^[k] i) ≠ i := by
      intro he
      have : Function.IsPeriodicPt e k i := he
      have := Function.IsPeriodicPt.minimalPeriod_le hk this
      omega
    rw [cycleLoop, if_pos (by intro he; exact hne (Fin.ext he))]
    have hg : getE (oneLine e) (e^[k] i : Fin n) = .ok ((e^[k+1] i : Fin n) : Nat) := by
      rw [oneLine, getE_ofFn, Function.iterate_succ_apply']
    rw [hg]
    simp only [Py.bind_ok]
    have := ih (k + 1) fuel (by omega) (by omega) (by omega)
    rw [List.range_succ, List.map_append, List.reverse_append] at this
    simpa using this

theorem cycle_eq (e : Equiv.Perm (Fin n)) (i : Fin n) : cycle (oneLine e) i = .ok ((orbit e i).map Fin.val) := by
  unfold cycle
  rw [show getE (oneLine e) i = .ok ((e i : Fin n) : Nat) from by rw [oneLine, getE_ofFn]]
  simp only [Py.bind_ok, length_oneLine]
  have hp := period_pos e i
  have := cycleLoop_eq e i (Function.minimalPeriod e i - 1) 1 n (by omega) (by omega) (by have := period_le e i; omega)
  simpa using this

theorem orbit_ne_nil (e : Equiv.Perm (Fin n)) (i : Fin n) : orbit e i ≠ [] := by
  have := period_pos e i
  simp [orbit]; omega

theorem orbit_next (e : Equiv.Perm (Fin n)) (i : Fin n) (k : Nat) (h : k < (orbit e i).length) :
    e ((orbit e i)[k]) = (orbit e i)[(k + 1) % (orbit e i).length]'(Nat.mod_lt _ (by omega)) := by
  simp only [orbit, List.getElem_map, List.getElem_range, List.length_map, List.length_range]
  rw [← Function.iterate_succ_apply' e, Function.iterate_mod_minimalPeriod_eq]

theorem mem_orbit_self (e : Equiv.Perm (Fin n)) (i : Fin n) : i ∈ orbit e i := by
  unfold orbit; rw [List.mem_map]; exact ⟨0, List.mem_range.2 (period_pos e i), rfl⟩

theorem mem_orbit (e : Equiv.Perm (Fin n)) (i x : Fin n) : x ∈ orbit e i ↔ ∃ k, x = e^[k] i := by
  unfold orbit
  rw [List.mem_map]
  constructor
  · rintro ⟨k, _, rfl⟩; exact ⟨k, rfl⟩
  · rintro ⟨k, rfl⟩
    exact ⟨k % Function.minimalPeriod e i, List.mem_range.2 (Nat.mod_lt _ (period_pos e i)), Function.iterate_mod_minimalPeriod_eq⟩

/-- Closed under `e` in both directions. -/
def Closed (e : Equiv.Perm (Fin n)) (l : List (Fin n)) : Prop := ∀ x, e x ∈ l ↔ x ∈ l

theorem orbit_closed (e : Equiv.Perm (Fin n)) (i : Fin n) : Closed e (orbit e i) := by
  intro x
  constructor
  · intro h
    obtain ⟨k, hk⟩ := (mem_orbit e i _).1 h
    have hp := period_pos e i
    -- go once around
    have h2 : e^[k + (Function.minimalPeriod e i * (k + 1))] i = e^[k] i := by
      rw [Function.iterate_add_apply]
      congr 1
      exact (Function.isPeriodicPt_minimalPeriod e i).mul_const (k + 1)
    obtain ⟨m, hm⟩ : ∃ m, k + (Function.minimalPeriod e i * (k + 1)) = m + 1 := ⟨k + (Function.minimalPeriod e i * (k + 1)) - 1, by
      have : 0 < Function.minimalPeriod e i * (k + 1) := by positivity
      omega⟩
    rw [hm, Function.iterate_succ_apply'] at h2
    rw [mem_orbit]
    exact ⟨m, e.injective (by rw [hk, h2])⟩
  · intro h
    obtain ⟨k, rfl⟩ := (mem_orbit e i _).1 h
    exact (mem_orbit e i _).2 ⟨k + 1, (Function.iterate_succ_apply' e k i).symm⟩

/-- A (partial) list of cycles of `e`. -/
structure CycleList (e : Equiv.Perm (Fin n)) (cs : List (List (Fin n))) : Prop where
  isOrbit : ∀ c ∈ cs, ∃ i, c = orbit e i
  nodup : cs.flatten.Nodup

theorem CycleList.closed {e : Equiv.Perm (Fin n)} {cs : List (List (Fin n))} (h : CycleList e cs) : Closed e cs.flatten := by
  intro x
  simp only [List.mem_flatten]
  constructor
  · rintro ⟨c, hc, hx⟩
    obtain ⟨i, rfl⟩ := h.isOrbit c hc
    exact ⟨_, hc, (orbit_closed e i x).1 hx⟩
  · rintro ⟨c, hc, hx⟩
    obtain ⟨i, rfl⟩ := h.isOrbit c hc
    exact ⟨_, hc, (orbit_closed e i x).2 hx⟩

theorem CycleList.snoc {e : Equiv.Perm (Fin n)} {cs : List (List (Fin n))} (h : CycleList e cs) (i : Fin n)
    (hi : i ∉ cs.flatten) : CycleList e (cs ++ [orbit e i]) := by
  refine ⟨?_, ?_⟩
  · intro c hc
    rcases List.mem_append.1 hc with hc | hc
    · exact h.isOrbit c hc
    · exact ⟨i, by simpa using hc⟩
  · rw [List.flatten_append, List.nodup_append]
    refine ⟨h.nodup, by simpa using orbit_nodup e i, ?_⟩
    intro a ha b hb
    simp only [List.flatten_cons, List.flatten_nil, List.append_nil] at hb
    obtain ⟨k, rfl⟩ := (mem_orbit e i _).1 hb
    rintro rfl
    apply hi
    clear hb
    induction k with
    | zero => exact ha
    | succ k ih => rw [Function.iterate_succ_apply'] at ha; exact ih ((h.closed _).1 ha)

theorem markVisited_eq (c : List (Fin n)) (f : Fin n → Bool) :
    markVisited (List.ofFn f) (c.map Fin.val) = .ok (List.ofFn (fun x => f x || decide (x ∈ c))) := by
  unfold markVisited
  induction c generalizing f with
  | nil => simp
  | cons a c ih =>
    simp only [List.map_cons, List.foldlM_cons, setE_ofFn, Py.bind_ok, ih]
    congr 2
    funext x
    simp only [Function.update_apply, List.mem_cons]
    by_cases h : x = a <;> simp [h]

theorem toCycle_fold (e : Equiv.Perm (Fin n)) : ∀ (k : Nat), k ≤ n → ∃ cs, CycleList e cs ∧ (∀ i : Fin n, i.1 < k → i ∈ cs.flatten) ∧
    (List.range k).foldlM (toCycleStep (oneLine e)) (List.replicate n false, []) =
      .ok (List.ofFn (fun x => decide (x ∈ cs.flatten)), cs.map (List.map Fin.val)) := by
  intro k
  induction k with
  | zero =>
    intro _
    refine ⟨[], ⟨by simp, by simp⟩, by simp, ?_⟩
    simp
  | succ k ih =>
    intro hk
    obtain ⟨cs, h1, h2, h3⟩ := ih (by omega)
    rw [List.range_succ, List.foldlM_append, h3]
    simp only [Py.bind_ok, List.foldlM_cons, List.foldlM_nil]
    let i : Fin n := ⟨k, by omega⟩
    have hg : getE (List.ofFn (fun x : Fin n => decide (x ∈ cs.flatten))) k = .ok (decide (i ∈ cs.flatten)) :=
      getE_ofFn _ i
    unfold toCycleStep
    simp only [hg, Py.bind_ok]
    by_cases hi : i ∈ cs.flatten
    · refine ⟨cs, h1, ?_, by simp [hi]⟩
      intro j hj
      by_cases e : j.1 = k
      · have : j = i := Fin.ext e
        rw [this]; exact hi
      · exact h2 j (by omega)
    · refine ⟨cs ++ [orbit e i], h1.snoc i hi, ?_, ?_⟩
      · intro j hj
        rw [List.flatten_append]
        by_cases e' : j.1 = k
        · have : j = i := Fin.ext e'
          rw [this]; simp [mem_orbit_self]
        · exact List.mem_append_left _ (h2 j (by omega))
      · have hc : cycle (oneLine e) k = .ok ((orbit e i).map Fin.val) := cycle_eq e i
        simp only [hi, decide_false, Bool.false_eq_true, if_false, hc, Py.bind_ok, markVisited_eq, Py.pure_eq]
        simp

/-- The cycles found by `to_cycle_notation`. -/
theorem toCycleNotation_eq (e : Equiv.Perm (Fin n)) : ∃ cs, CycleList e cs ∧ (∀ i : Fin n, i ∈ cs.flatten) ∧
    toCycleNotation (oneLine e) = .ok (cs.map (List.map Fin.val)) := by
  obtain ⟨cs, h1, h2, h3⟩ := toCycle_fold e n le_rfl
  refine ⟨cs, h1, fun i => h2 i i.2, ?_⟩
  unfold toCycleNotation
  rw [length_oneLine, h3]; rfl

/-! ### from cycle notation -/

/-- `c` lists a cycle of `e`: every entry is mapped to the next one, the last to the first. -/
def IsCycleOf (e : Equiv.Perm (Fin n)) (c : List (Fin n)) : Prop :=
  c ≠ [] ∧ ∀ (k : Nat) (h : k < c.length), e c[k] = c[(k + 1) % c.length]'(Nat.mod_lt _ (by omega))

theorem orbit_isCycleOf (e : Equiv.Perm (Fin n)) (i : Fin n) : IsCycleOf e (orbit e i) := ⟨orbit_ne_nil e i, orbit_next e i⟩

theorem recordCycle_eq (e : Equiv.Perm (Fin n)) (c : List (Fin n)) (hcyc : IsCycleOf e c) (f : Fin n → Int) :
    recordCycle (List.ofFn f) (c.map Fin.val) =
      .ok (List.ofFn (fun x => if x ∈ c then ((e x : Fin n) : Int) else f x)) := by
  have hlen : 0 < c.length := List.length_pos_iff.2 hcyc.1
  have loop : ∀ k, k ≤ c.length - 1 → (List.range k).foldlM (fun (im : List Int) i => do
      let a ← getE (c.map Fin.val) i
      let b ← getE (c.map Fin.val) (i + 1)
      setE im a (b : Int)) (List.ofFn f) = (.ok (List.ofFn (fun x => if x ∈ c.take k then ((e x : Fin n) : Int) else f x)) : Py _) := by
    intro k
    induction k with
    | zero => intro _; simp
    | succ k ih =>
      intro hk
      rw [List.range_succ, List.foldlM_append, ih (by omega)]
      simp only [Py.bind_ok, List.foldlM_cons, List.foldlM_nil]
      rw [getE_ok (by simp; omega), getE_ok (by simp; omega)]
      simp only [Py.bind_ok, List.getElem_map, setE_ofFn, Py.pure_eq]
      congr 2
      funext x
      have hnext := hcyc.2 k (by omega)
      rw [Function.update_apply]
      have htake : x ∈ c.take (k + 1) ↔ x ∈ c.take k ∨ x = c[k]'(by omega) := by
        have hk2 : k < c.length := by omega
        rw [List.take_succ_eq_append_getElem hk2, List.mem_append, List.mem_singleton]
      by_cases hx : x = c[k]'(by omega)
      · rw [if_pos hx, if_pos (htake.2 (.inr hx)), hx, hnext]
        have : (k + 1) % c.length = k + 1 := Nat.mod_eq_of_lt (by omega)
        simp only [this]
      · rw [if_neg hx]
        simp only [htake, hx, or_false]
  unfold recordCycle
  have hl : (c.map Fin.val).length - 1 = c.length - 1 := by simp
  rw [hl, loop _ le_rfl]
  simp only [Py.bind_ok]
  have hlast : pyGet (c.map Fin.val) (((c.map Fin.val).length : Int) - 1) = .ok ((c[c.length - 1]'(by omega) : Fin n) : Nat) := by
    unfold pyGet
    rw [if_pos (by simp; omega)]
    have : (((c.map Fin.val).length : Int) - 1).toNat = c.length - 1 := by simp
    rw [this]
    have h2 : c.length - 1 < c.length := by omega
    simp [h2]
  have hfirst : getE (c.map Fin.val) 0 = .ok ((c[0] : Fin n) : Nat) := by
    rw [getE_ok (by simpa using hlen)]; simp
  rw [hlast, hfirst]
  simp only [Py.bind_ok, setE_ofFn]
  congr 2
  funext x
  rw [Function.update_apply]
  have hnext := hcyc.2 (c.length - 1) (by omega)
  have hmem : x ∈ c ↔ x ∈ c.take (c.length - 1) ∨ x = c[c.length - 1]'(by omega) := by
    conv_lhs => rw [← List.take_length (l := c)]
    obtain ⟨m, hm⟩ : ∃ m, c.length = m + 1 := ⟨c.length - 1, by omega⟩
    have hm' : m < c.length := by omega
    simp only [hm, Nat.add_sub_cancel]
    rw [List.take_succ_eq_append_getElem hm', List.mem_append, List.mem_singleton]
  by_cases hx : x = c[c.length - 1]'(by omega)
  · rw [if_pos hx, if_pos (hmem.2 (.inr hx)), hx, hnext]
    have : (c.length - 1 + 1) % c.length = 0 := by
      rw [Nat.sub_add_cancel (by omega)]; exact Nat.mod_self _
    simp only [this]
  · rw [if_neg hx]
    simp only [hmem, hx, or_false]

theorem fromCycle_fold (e : Equiv.Perm (Fin n)) (cs : List (List (Fin n))) (h : ∀ c ∈ cs, IsCycleOf e c) (f : Fin n → Int) :
    (cs.map (List.map Fin.val)).foldlM recordCycle (List.ofFn f) =
      .ok (List.ofFn (fun x => if x ∈ cs.flatten then ((e x : Fin n) : Int) else f x)) := by
  induction cs generalizing f with
  | nil => simp
  | cons c cs ih =>
    simp only [List.map_cons, List.foldlM_cons, recordCycle_eq e c (h c (by simp)), Py.bind_ok]
    rw [ih (fun c hc => h c (by simp [hc]))]
    congr 2
    funext x
    simp only [List.flatten_cons, List.mem_append]
    by_cases h1 : x ∈ cs.flatten <;> by_cases h2 : x ∈ c <;> simp only [h1, h2, if_true, if_false, or_true, true_or, or_false]

theorem fromCycleNotation_eq (e : Equiv.Perm (Fin n)) (cs : List (List (Fin n))) (h : CycleList e cs) (hc : ∀ i : Fin n, i ∈ cs.flatten) :
    fromCycleNotation (cs.map (List.map Fin.val)) n = .ok ((oneLine e).map Int.ofNat) := by
  unfold fromCycleNotation
  rw [show List.replicate n (-1 : Int) = List.ofFn (fun _ : Fin n => (-1 : Int)) by simp, fromCycle_fold e cs (fun c hc => by obtain ⟨i, rfl⟩ := h.isOrbit c hc; exact orbit_isCycleOf e i)]
  simp only [Py.bind_ok, Py.pure_eq, hc, if_true]
  congr 1
  apply List.ext_getElem (by simp)
  intro i h1 h2
  simp [oneLine]

/-! ### transpositions -/

theorem swap_oneLine (s : Equiv.Perm (Fin n)) (x y : Fin n) :
    swap (oneLine s) ((x : Nat), (y : Nat)) = .ok (oneLine (s * Equiv.swap x y)) := by
  unfold swap oneLine
  simp only [getE_ofFn, Py.bind_ok, setE_ofFn]
  congr 2
  funext z
  simp only [Function.update_apply, Equiv.Perm.mul_apply, Equiv.swap_apply_def]
  by_cases h1 : z = y
  · subst h1
    by_cases h2 : z = x
    · subst h2; simp
    · simp [h2]
  · by_cases h2 : z = x
    · subst h2; simp [h1]
    · simp [h1, h2]

/-- Product of the transpositions of one cycle, applied first to last. -/
def cycleProd (a : Fin n) : List (Fin n) → Equiv.Perm (Fin n)
  | [] => 1
  | d :: ds => cycleProd a ds * Equiv.swap a d

theorem cycleProd_notMem (a : Fin n) (l : List (Fin n)) (x : Fin n) (hx : x ≠ a) (hl : x ∉ l) : cycleProd a l x = x := by
  induction l with
  | nil => rfl
  | cons d ds ih =>
    simp only [List.mem_cons, not_or] at hl
    rw [cycleProd, Equiv.Perm.mul_apply, Equiv.swap_apply_of_ne_of_ne hx hl.1, ih hl.2]

theorem cycleProd_eq (a : Fin n) (l : List (Fin n)) (h : (a :: l).Nodup) (k : Nat) (hk : k < (a :: l).length) :
    cycleProd a l ((a :: l)[k]) = (a :: l)[(k + 1) % (a :: l).length]'(Nat.mod_lt _ (by omega)) := by
  induction l generalizing k with
  | nil =>
    have : k = 0 := by simp at hk; omega
    subst this; simp [cycleProd]
  | cons d ds ih =>
    rw [List.nodup_cons, List.nodup_cons] at h
    obtain ⟨h1, h2, h3⟩ := h
    simp only [List.mem_cons, not_or] at h1
    rw [cycleProd, Equiv.Perm.mul_apply]
    match k with
    | 0 =>
      simp only [List.getElem_cons_zero, Equiv.swap_apply_left]
      rw [cycleProd_notMem a ds d (Ne.symm h1.1) h2]
      have : (0 + 1) % (a :: d :: ds).length = 1 := Nat.mod_eq_of_lt (by simp)
      simp only [this]; rfl
    | 1 =>
      simp only [List.getElem_cons_succ, List.getElem_cons_zero, Equiv.swap_apply_right]
      have h4 := ih (by rw [List.nodup_cons]; exact ⟨h1.2, h3⟩) 0 (by simp)
      simp only [List.getElem_cons_zero] at h4
      rw [h4]
      cases ds with
      | nil => simp
      | cons f fs =>
        have e1 : (0 + 1) % (a :: f :: fs).length = 1 := Nat.mod_eq_of_lt (by simp)
        have e2 : (1 + 1) % (a :: d :: f :: fs).length = 2 := Nat.mod_eq_of_lt (by simp)
        simp only [e1, e2]; rfl
    | k + 2 =>
      simp only [List.length_cons] at hk
      have hk2 : k < ds.length := by omega
      have h5 : ds[k] ∈ ds := List.getElem_mem hk2
      simp only [List.getElem_cons_succ]
      rw [Equiv.swap_apply_of_ne_of_ne]
      · have h4 := ih (by rw [List.nodup_cons]; exact ⟨h1.2, h3⟩) (k + 1) (by simp; omega)
        simp only [List.getElem_cons_succ] at h4
        rw [h4]
        by_cases hl : k + 1 = ds.length
        · have e1 : (k + 1 + 1) % (a :: ds).length = 0 := by simp [hl]
          have e2 : (k + 2 + 1) % (a :: d :: ds).length = 0 := by
            have : k + 2 + 1 = (a :: d :: ds).length := by simp; omega
            rw [this]; exact Nat.mod_self _
          simp only [e1, e2]; rfl
        · have e1 : (k + 1 + 1) % (a :: ds).length = k + 1 + 1 := Nat.mod_eq_of_lt (by simp; omega)
          have e2 : (k + 2 + 1) % (a :: d :: ds).length = k + 2 + 1 := Nat.mod_eq_of_lt (by simp; omega)
          simp only [e1, e2]; rfl
      · rintro rfl; exact h1.2 h5
      · intro h; exact h2 (h ▸ h5)

/-- Transpositions of one cycle. -/
def cycleTs : List (Fin n) → List (Fin n × Fin n)
  | [] => []
  | a :: l => l.map (fun d => (a, d))

def valPair (t : Fin n × Fin n) : Nat × Nat := ((t.1 : Nat), (t.2 : Nat))

theorem toTs_inner (c : List (Fin n)) (ts : List (Nat × Nat)) (hc : c ≠ []) :
    (List.range' 1 ((c.map Fin.val).length - 1)).foldlM (fun (ts : List (Nat × Nat)) i => do
      let a ← getE (c.map Fin.val) 0
      let b ← getE (c.map Fin.val) i
      return ts ++ [(a, b)]) ts = (.ok (ts ++ (cycleTs c).map valPair) : Py _) := by
  cases c with
  | nil => contradiction
  | cons a l =>
    have : ∀ k, k ≤ l.length → (List.range' 1 k).foldlM (fun (ts : List (Nat × Nat)) i => do
      let x ← getE ((a :: l).map Fin.val) 0
      let b ← getE ((a :: l).map Fin.val) i
      return ts ++ [(x, b)]) ts = (.ok (ts ++ ((l.take k).map (fun d : Fin n => ((a : Nat), (d : Nat))))) : Py _) := by
      intro k
      induction k with
      | zero => intro _; simp
      | succ k ih =>
        intro hk
        rw [List.range'_concat, List.foldlM_append, ih (by omega)]
        simp only [Py.bind_ok, List.foldlM_cons, List.foldlM_nil]
        rw [getE_ok (by simp), getE_ok (by simp; omega)]
        simp only [Py.bind_ok, Py.pure_eq]
        have hk2 : k < l.length := by omega
        rw [List.take_succ_eq_append_getElem hk2]
        have e : 1 + 1 * k = k + 1 := by ring
        simp only [e, List.map_cons, List.getElem_cons_succ, List.getElem_cons_zero, List.map_append, List.map_nil, List.getElem_map, List.append_assoc]
    have h := this l.length le_rfl
    simp only [List.take_length] at h
    simp only [List.length_map, List.length_cons, Nat.add_sub_cancel]
    rw [h]
    simp [cycleTs, valPair, Function.comp_def]

theorem toTs_outer (cs : List (List (Fin n))) (hc : ∀ c ∈ cs, c ≠ []) (ts : List (Nat × Nat)) :
    (cs.map (List.map Fin.val)).foldlM (fun ts c => (List.range' 1 (c.length - 1)).foldlM (fun (ts : List (Nat × Nat)) i => do
      let a ← getE c 0
      let b ← getE c i
      return ts ++ [(a, b)]) ts) ts = (.ok (ts ++ (cs.flatMap cycleTs).map valPair) : Py _) := by
  induction cs generalizing ts with
  | nil => simp
  | cons c cs ih =>
    rw [List.map_cons, List.foldlM_cons, toTs_inner c ts (hc c (by simp))]
    simp only [Py.bind_ok]
    rw [ih (fun c hc' => hc c (by simp [hc']))]
    simp

theorem toTranspositions_eq (e : Equiv.Perm (Fin n)) : ∃ cs, CycleList e cs ∧ (∀ i : Fin n, i ∈ cs.flatten) ∧
    toCycleNotation (oneLine e) = .ok (cs.map (List.map Fin.val)) ∧
    toTranspositions (oneLine e) = .ok ((cs.flatMap cycleTs).map valPair) := by
  obtain ⟨cs, h1, h2, h3⟩ := toCycleNotation_eq e
  refine ⟨cs, h1, h2, h3, ?_⟩
  unfold toTranspositions
  rw [h3]
  simp only [Py.bind_ok]
  rw [toTs_outer cs (fun c hc => by obtain ⟨i, rfl⟩ := h1.isOrbit c hc; exact orbit_ne_nil e i)]
  simp

theorem foldlM_swap (ts : List (Fin n × Fin n)) (s : Equiv.Perm (Fin n)) :
    (ts.map valPair).foldlM swap (oneLine s) = .ok (oneLine (s * (ts.map (fun t => Equiv.swap t.1 t.2)).prod)) := by
  induction ts generalizing s with
  | nil => simp
  | cons t ts ih =>
    simp only [List.map_cons, List.foldlM_cons]
    rw [show valPair t = ((t.1 : Nat), (t.2 : Nat)) from rfl, swap_oneLine]
    simp only [Py.bind_ok, ih, List.prod_cons, mul_assoc]

theorem fromTranspositions_eq (ts : List (Fin n × Fin n)) :
    fromTranspositions (ts.map valPair) n = .ok (oneLine (ts.reverse.map (fun t => Equiv.swap t.1 t.2)).prod) := by
  unfold fromTranspositions
  rw [← List.map_reverse, ← oneLine_one, foldlM_swap, one_mul]

theorem prod_cycleTs (a : Fin n) (l : List (Fin n)) :
    ((cycleTs (a :: l)).reverse.map (fun t => Equiv.swap t.1 t.2)).prod = cycleProd a l := by
  induction l with
  | nil => rfl
  | cons d ds ih =>
    simp only [cycleTs, List.map_cons, List.reverse_cons, List.map_append, List.prod_append] at *
    rw [ih]; simp [cycleProd]

theorem prod_cycles (e : Equiv.Perm (Fin n)) (cs : List (List (Fin n))) (h : CycleList e cs) (x : Fin n) :
    ((cs.flatMap cycleTs).reverse.map (fun t => Equiv.swap t.1 t.2)).prod x = if x ∈ cs.flatten then e x else x := by
  induction cs generalizing x with
  | nil => simp
  | cons c cs ih =>
    have hcs : CycleList e cs := ⟨fun c hc => h.isOrbit c (by simp [hc]), by
      have := h.nodup; rw [List.flatten_cons, List.nodup_append] at this; exact this.2.1⟩
    have hdisj : ∀ a ∈ c, a ∉ cs.flatten := by
      have := h.nodup; rw [List.flatten_cons, List.nodup_append] at this
      intro a ha hb; exact this.2.2 a ha a hb rfl
    obtain ⟨i, hi⟩ := h.isOrbit c (by simp)
    rw [List.flatMap_cons, List.reverse_append, List.map_append, List.prod_append, Equiv.Perm.mul_apply]
    rw [ih hcs]
    have hone : ((cycleTs c).reverse.map (fun t => Equiv.swap t.1 t.2)).prod x = if x ∈ c then e x else x := by
      obtain ⟨a, l, hal⟩ : ∃ a l, c = a :: l := by
        cases hc : c with
        | nil => exact absurd (hc ▸ hi) (fun h => orbit_ne_nil e i h.symm)
        | cons a l => exact ⟨a, l, rfl⟩
      have hnd : (a :: l).Nodup := by rw [← hal, hi]; exact orbit_nodup e i
      by_cases hx : x ∈ c
      · rw [if_pos hx]
        rw [hal] at hx ⊢
        rw [prod_cycleTs]
        obtain ⟨k, hk, rfl⟩ := List.mem_iff_getElem.1 hx
        rw [cycleProd_eq a l hnd k hk]
        have hk' : k < (orbit e i).length := by rw [← hi, hal]; exact hk
        have := orbit_next e i k hk'
        simp only [← hi, hal] at this
        exact this.symm
      · rw [if_neg hx]
        rw [hal] at hx ⊢
        rw [prod_cycleTs]
        simp only [List.mem_cons, not_or] at hx
        exact cycleProd_notMem a l x hx.1 hx.2
    rw [hone]
    simp only [List.flatten_cons, List.mem_append]
    by_cases hx : x ∈ c
    · rw [if_pos hx, if_neg]
      · simp [hx]
      · apply hdisj; rw [hi] at hx ⊢; exact (orbit_closed e i x).2 hx
    · simp [hx]

theorem sign_prod_swaps (ts : List (Fin n × Fin n)) (h : ∀ t ∈ ts, t.1 ≠ t.2) :
    Equiv.Perm.sign ((ts.map (fun t => Equiv.swap t.1 t.2)).prod) = (-1) ^ ts.length := by
  induction ts with
  | nil => simp
  | cons t ts ih =>
    rw [List.map_cons, List.prod_cons, map_mul, Equiv.Perm.sign_swap (h t (by simp)), ih (fun t ht => h t (by simp [ht]))]
    rw [List.length_cons, pow_succ, mul_comm]

theorem cycleTs_ne (c : List (Fin n)) (hc : c.Nodup) : ∀ t ∈ cycleTs c, t.1 ≠ t.2 := by
  cases c with
  | nil => simp [cycleTs]
  | cons a l =>
    intro t ht
    simp only [cycleTs, List.mem_map] at ht
    obtain ⟨d, hd, rfl⟩ := ht
    rw [List.nodup_cons] at hc
    intro h; exact hc.1 ((show a = d from h) ▸ hd)

theorem ts_ne (e : Equiv.Perm (Fin n)) (cs : List (List (Fin n))) (h : CycleList e cs) : ∀ t ∈ cs.flatMap cycleTs, t.1 ≠ t.2 := by
  intro t ht
  obtain ⟨c, hc, ht⟩ := List.mem_flatMap.1 ht
  obtain ⟨i, rfl⟩ := h.isOrbit c hc
  exact cycleTs_ne _ (orbit_nodup e i) t ht

theorem prod_cycles_eq (e : Equiv.Perm (Fin n)) (cs : List (List (Fin n))) (h : CycleList e cs) (hc : ∀ i : Fin n, i ∈ cs.flatten) :
    ((cs.flatMap cycleTs).reverse.map (fun t => Equiv.swap t.1 t.2)).prod = e := by
  apply Equiv.ext; intro x
  rw [prod_cycles e cs h, if_pos (hc x)]

theorem numEven_pow (cs : List (List (Fin n))) (hne : ∀ c ∈ cs, c ≠ []) :
    ((-1 : Int) ^ ((cs.map (List.map Fin.val)).foldl (fun k c => if c.length % 2 = 0 then k + 1 else k) 0)) =
      (-1) ^ (cs.flatMap cycleTs).length := by
  have : ∀ (k : Nat), ((-1 : Int) ^ ((cs.map (List.map Fin.val)).foldl (fun k c => if c.length % 2 = 0 then k + 1 else k) k)) =
      (-1) ^ (k + (cs.flatMap cycleTs).length) := by
    induction cs with
    | nil => intro k; simp
    | cons c cs ih =>
      intro k
      have ih := ih (fun c hc => hne c (by simp [hc]))
      rw [List.map_cons, List.foldl_cons, ih, List.flatMap_cons, List.length_append, List.length_map]
      have hc : (cycleTs c).length + 1 = c.length := by
        cases c with
        | nil => exact absurd rfl (hne [] (by simp))
        | cons a l => simp [cycleTs]
      split
      · obtain ⟨m, hm⟩ : ∃ m, (cycleTs c).length = 2 * m + 1 := ⟨(cycleTs c).length / 2, by omega⟩
        rw [hm, show k + (2 * m + 1 + (cs.flatMap cycleTs).length) = (k + 1 + (cs.flatMap cycleTs).length) + 2 * m by ring,
          pow_add _ _ (2 * m), pow_mul]
        simp
      · obtain ⟨m, hm⟩ : ∃ m, (cycleTs c).length = 2 * m := ⟨(cycleTs c).length / 2, by omega⟩
        rw [hm, show k + (2 * m + (cs.flatMap cycleTs).length) = (k + (cs.flatMap cycleTs).length) + 2 * m by ring,
          pow_add _ _ (2 * m), pow_mul]
        simp
  simpa using this 0

theorem sign_oneLine (e : Equiv.Perm (Fin n)) : sign (oneLine e) = .ok ((Equiv.Perm.sign e : ℤˣ) : Int) := by
  obtain ⟨cs, h1, h2, h3⟩ := toCycleNotation_eq e
  unfold sign
  rw [h3]
  simp only [Py.bind_ok, Py.pure_eq]
  rw [numEven_pow cs (fun c hc => by obtain ⟨i, rfl⟩ := h1.isOrbit c hc; exact orbit_ne_nil e i)]
  congr 1
  have := sign_prod_swaps (cs.flatMap cycleTs).reverse (fun t ht => ts_ne e cs h1 t (List.mem_reverse.1 ht))
  rw [prod_cycles_eq e cs h1 h2] at this
  rw [this]; simp

end Perm
end Verif
