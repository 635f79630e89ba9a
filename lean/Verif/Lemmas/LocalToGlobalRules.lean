import Verif.Lemmas.LocalToGlobal
import Verif.Spec.LocalToGlobal
import Verif.Props.SubSimplex
import Verif.Props.SimplicialComplex
/-!
# The two numberings as instances of the general loop
-/

namespace Verif.L2G
open Verif Verif.Spec Verif.SubSimplex

/-- The vertices with positive exponents together with the exponents, sorted. -/
def pts (r : Nat) (T mi : List Nat) : List (Nat × Nat) := ((T.zip (baryExponents mi r)).filter (fun p => p.2 ≠ 0)).insertionSort pairLe

instance : Std.Total pairLe := ⟨fun p q => by unfold pairLe; omega⟩
instance : IsTrans (Nat × Nat) pairLe := ⟨fun p q s => by unfold pairLe; omega⟩
instance : Std.Antisymm pairLe := ⟨fun p q h1 h2 => by
  unfold pairLe at h1 h2
  exact Prod.ext (by omega) (by omega)⟩

theorem mem_pts {r : Nat} {T mi : List Nat} (hT : T.Nodup) (hl : T.length = mi.length + 1) (v e : Nat) :
    (v, e) ∈ pts r T mi ↔ e ≠ 0 ∧ latticePoint r T mi v = e := by
  unfold pts
  rw [List.mem_insertionSort, List.mem_filter, List.mem_iff_getElem?]
  unfold latticePoint
  rw [show (r - mi.sum) :: mi = baryExponents mi r from rfl]
  have hlen : (baryExponents mi r).length = T.length := by simp [baryExponents, hl]
  constructor
  · rintro ⟨⟨i, hi⟩, he⟩
    obtain ⟨h1, h2⟩ := List.getElem?_zip_eq_some.1 hi
    obtain ⟨hi', h3⟩ := List.getElem?_eq_some_iff.1 h1
    refine ⟨by simpa using he, ?_⟩
    simp only at h3 h2
    rw [← h3, hT.idxOf_getElem, List.getD_eq_getElem?_getD, h2, Option.getD_some]
  · rintro ⟨he, h1⟩
    have hv : T.idxOf v < T.length := by
      by_contra hc
      rw [List.getD_eq_getElem?_getD, List.getElem?_eq_none (by omega)] at h1
      exact he h1.symm
    refine ⟨⟨T.idxOf v, List.getElem?_zip_eq_some.2 ⟨?_, ?_⟩⟩, by simpa using he⟩
    · rw [List.getElem?_eq_getElem hv, List.getElem_idxOf]
    · rw [List.getD_eq_getElem?_getD, List.getElem?_eq_getElem (by omega), Option.getD_some] at h1
      rw [List.getElem?_eq_getElem (by omega), h1]

theorem fst_zip_sublist (l : List α) (l' : List β) : ((l.zip l').map Prod.fst).Sublist l := by
  induction l generalizing l' with
  | nil => simp
  | cons a l ih =>
    cases l' with
    | nil => simp
    | cons b l' => simpa using ih l'

theorem nodup_fst_zip {l : List α} (h : l.Nodup) (l' : List β) : ((l.zip l').map Prod.fst).Nodup := (fst_zip_sublist l l').nodup h

theorem nodup_pts {r : Nat} {T mi : List Nat} (hT : T.Nodup) : (pts r T mi).Nodup := by
  unfold pts
  rw [(List.perm_insertionSort _ _).nodup_iff]
  refine List.Nodup.filter _ (List.Nodup.of_map Prod.fst ?_)
  exact nodup_fst_zip hT _

/-- Pairs have the same sorted list exactly if they denote the same point. -/
theorem pts_eq_iff {r : Nat} {T T' mi mi' : List Nat} (hT : T.Nodup) (hl : T.length = mi.length + 1) (hT' : T'.Nodup)
    (hl' : T'.length = mi'.length + 1) : pts r T mi = pts r T' mi' ↔ latticePoint r T mi = latticePoint r T' mi' := by
  constructor
  · intro h
    funext v
    have h1 := mem_pts hT hl (r := r) v (latticePoint r T mi v)
    have h2 := mem_pts hT' hl' (r := r) v (latticePoint r T' mi' v)
    rw [h] at h1
    rw [← h] at h2
    by_cases h3 : latticePoint r T mi v = 0
    · by_contra h4
      have h5 := (mem_pts hT hl (r := r) v _).1 (h2.2 ⟨fun h5 => h4 (by rw [h3, h5]), rfl⟩)
      exact h4 h5.2
    · exact ((mem_pts hT' hl' (r := r) v _).1 (h1.2 ⟨h3, rfl⟩)).2.symm
  · intro h
    refine List.Perm.eq_of_pairwise' (r := pairLe) (List.pairwise_insertionSort _ _) (List.pairwise_insertionSort _ _) ?_
    refine (List.perm_ext_iff_of_nodup (nodup_pts hT) (nodup_pts hT')).2 ?_
    rintro ⟨v, e⟩
    rw [mem_pts hT hl, mem_pts hT' hl', h]

/-- A point of a simplex determines the multi-index. -/
theorem latticePoint_inj {r : Nat} {T mi mi' : List Nat} (hT : T.Nodup) (hl : T.length = mi.length + 1) (hl' : T.length = mi'.length + 1)
    (h : latticePoint r T mi = latticePoint r T mi') : mi = mi' := by
  refine List.ext_getElem (by omega) ?_
  intro i h1 h2
  have h3 := congrFun h (T[i + 1]'(by omega))
  unfold latticePoint at h3
  rw [hT.idxOf_getElem] at h3
  simpa [h1, h2] using h3

/-- The sorted sub simplex of a pair. -/
def carrier (r : Nat) (T mi : List Nat) : List Nat := if r > 0 then (pts r T mi).map Prod.fst else Complex.sorted T

theorem fst_pts_strict {r : Nat} {T mi : List Nat} (hT : T.Nodup) : ((pts r T mi).map Prod.fst).Pairwise (· < ·) := by
  have h1 : ((pts r T mi).map Prod.fst).Pairwise (· ≤ ·) := by
    rw [List.pairwise_map]
    refine (List.pairwise_insertionSort pairLe _).imp ?_
    intro p q h
    unfold pairLe at h
    omega
  have h2 : ((pts r T mi).map Prod.fst).Nodup := by
    unfold pts
    rw [((List.perm_insertionSort _ _).map Prod.fst).nodup_iff]
    refine List.Nodup.sublist (List.filter_sublist.map Prod.fst) ?_
    exact nodup_fst_zip hT _
  exact (h1.and h2).imp (fun h => lt_of_le_of_ne h.1 h.2)

theorem pts_ne_nil {r : Nat} {T mi : List Nat} (hr : r ≠ 0) (hs : mi.sum ≤ r) (hl : T.length = mi.length + 1) : pts r T mi ≠ [] := by
  obtain ⟨f, mu, h1, -, -, -, -, -, h2⟩ := C33_sub_simplex mi r T hr hs hl
  rw [eval_eq mi r T hr hs hl] at h1
  intro h
  apply h2
  rw [← (Prod.mk.inj (Except.ok.inj h1)).1]
  have h3 := (List.perm_insertionSort pairLe ((T.zip (baryExponents mi r)).filter (fun p => p.2 ≠ 0)))
  rw [show List.insertionSort pairLe ((T.zip (baryExponents mi r)).filter (fun p => p.2 ≠ 0)) = [] from h] at h3
  rw [List.nil_perm.1 h3]
  rfl

theorem mem_boundarySet {boundary : Option (List (List Nat))} (hb : AreSimplices (boundary.getD [])) :
    ∃ bset, boundarySet boundary = .ok bset ∧
      ∀ t, t ∈ bset ↔ t ≠ [] ∧ t.Pairwise (· < ·) ∧ ∃ b ∈ boundary.getD [], ∀ x ∈ t, x ∈ b := by
  cases boundary with
  | none => exact ⟨[], rfl, fun t => by simp⟩
  | some bs =>
    simp only [Option.getD_some] at hb ⊢
    unfold boundarySet
    simp only
    have main : ∀ (bs : List (List Nat)) (acc : List (List Nat)), AreSimplices bs →
        ∃ bset, bs.foldlM (fun acc b => do
          let subs ← Complex.subSimplices b true
          return acc ∪ subs) acc = (.ok bset : Py (List (List Nat))) ∧
        ∀ t, t ∈ bset ↔ t ∈ acc ∨ (t ≠ [] ∧ t.Pairwise (· < ·) ∧ ∃ b ∈ bs, ∀ x ∈ t, x ∈ b) := by
      intro bs
      induction bs with
      | nil => intro acc _; exact ⟨acc, rfl, fun t => by simp⟩
      | cons b bs ih =>
        intro acc h
        obtain ⟨l, h1, -, h2⟩ := Props.C36_sub_simplices b true (h b (by simp)).1 (h b (by simp)).2
        obtain ⟨bset, h3, h4⟩ := ih (acc ∪ l) (fun c hc => h c (by simp [hc]))
        refine ⟨bset, ?_, ?_⟩
        · rw [List.foldlM_cons, h1, Py.bind_ok, Py.pure_eq, Py.bind_ok, h3]
        · intro t
          rw [h4, List.mem_union_iff, h2]
          simp only [List.mem_cons, exists_eq_or_imp, Bool.true_eq_false, false_implies, and_true]
          tauto
    obtain ⟨bset, h1, h2⟩ := main bs [] hb
    exact ⟨bset, h1, fun t => by rw [h2]; simp⟩

/-- The test of the code is the specified condition. -/
theorem carrier_mem_iff {boundary : Option (List (List Nat))} {bset : List (List Nat)}
    (hb : ∀ t, t ∈ bset ↔ t ≠ [] ∧ t.Pairwise (· < ·) ∧ ∃ b ∈ boundary.getD [], ∀ x ∈ t, x ∈ b) {r : Nat} {T mi : List Nat} (hT : T.Nodup)
    (hl : T.length = mi.length + 1) (hs : mi.sum ≤ r) : carrier r T mi ∈ bset ↔ OnBoundary (boundary.getD []) r T mi := by
  rw [hb]
  unfold carrier OnBoundary
  by_cases hr : r > 0
  · rw [if_pos hr]
    constructor
    · rintro ⟨-, -, b, h1, h2⟩
      refine ⟨b, h1, ?_⟩
      rintro v - (h3 | h3)
      · omega
      · exact h2 v (List.mem_map.2 ⟨_, (mem_pts hT hl (r := r) v _).2 ⟨h3, rfl⟩, rfl⟩)
    · rintro ⟨b, h1, h2⟩
      refine ⟨by simpa using pts_ne_nil hr.ne' hs hl, fst_pts_strict hT, b, h1, ?_⟩
      intro v hv
      obtain ⟨⟨v', e⟩, h3, rfl⟩ := List.mem_map.1 hv
      have h4 := (mem_pts hT hl (r := r) v' e).1 h3
      refine h2 v' ?_ (Or.inr (by rw [h4.2]; exact h4.1))
      by_contra hc
      have h5 := h4.2
      unfold latticePoint at h5
      rw [List.idxOf_eq_length_iff.2 hc, List.getD_eq_getElem?_getD, List.getElem?_eq_none (by simp [hl])] at h5
      exact h4.1 h5.symm
  · rw [if_neg hr]
    have h0 : r = 0 := by omega
    constructor
    · rintro ⟨-, -, b, h1, h2⟩
      exact ⟨b, h1, fun v hv _ => h2 v ((Complex.sorted_perm T).mem_iff.2 hv)⟩
    · rintro ⟨b, h1, h2⟩
      refine ⟨?_, Props.sorted_strict hT, b, h1, fun v hv => h2 v ((Complex.sorted_perm T).mem_iff.1 hv) (Or.inl h0)⟩
      intro h
      have := (Complex.sorted_perm T).length_eq
      rw [h] at this
      simp at this
      omega

theorem sortPairs_ok {r : Nat} {T mi : List Nat} (hr : r ≠ 0) (hs : mi.sum ≤ r) (hl : T.length = mi.length + 1) :
    sortPairs (((T.zip (baryExponents mi r)).filter (fun p => p.2 ≠ 0)).map Prod.fst)
      (((T.zip (baryExponents mi r)).filter (fun p => p.2 ≠ 0)).map Prod.snd) = .ok ((pts r T mi).map Prod.fst, (pts r T mi).map Prod.snd) := by
  unfold sortPairs
  have hz : (((T.zip (baryExponents mi r)).filter (fun p => p.2 ≠ 0)).map Prod.fst).zip
      (((T.zip (baryExponents mi r)).filter (fun p => p.2 ≠ 0)).map Prod.snd) =
      (T.zip (baryExponents mi r)).filter (fun p => p.2 ≠ 0) := by
    rw [List.zip_map', List.map_id'']
    intro x
    rfl
  simp only [hz]
  exact if_neg (pts_ne_nil hr hs hl)

theorem discSubSimplex_ok {r : Nat} {T mi : List Nat} (hs : mi.sum ≤ r) (hl : T.length = mi.length + 1) :
    discSubSimplex r T mi = .ok (carrier r T mi) := by
  unfold discSubSimplex carrier
  by_cases hr : r > 0
  · rw [if_pos hr, if_pos hr, eval_eq mi r T hr.ne' hs hl, Py.bind_ok, sortPairs_ok hr.ne' hs hl]
    rfl
  · rw [if_neg hr, if_neg hr]

/-! ## Discontinuous spaces -/

/-- Discontinuous spaces: all pairs are different degrees of freedom. -/
def discRules (triangles : List (List Nat)) (r : Nat) (bset : List (List Nat)) (keep : Bool) : Rules (Nat × List Nat) where
  id e := e
  skip e := !keep && decide (carrier r (triangles.getD e.1 []) e.2 ∈ bset)
  bnd e := keep && decide (carrier r (triangles.getD e.1 []) e.2 ∈ bset)
  keyed _ := false
  key _ := ([], [])

theorem discRules_ok (triangles : List (List Nat)) (r : Nat) (bset : List (List Nat)) (keep : Bool) (E) :
    (discRules triangles r bset keep).Ok E where
  fresh _ _ _ _ _ h := h
  key _ _ _ _ h := by cases h
  bnd e _ e' _ h := by rw [show e = e' from h]
  skip e _ e' _ h := by rw [show e = e' from h]

theorem getD_triangles {triangles : List (List Nat)} {j : Nat} (hj : j < triangles.length) : triangles.getD j [] = triangles[j] := by
  rw [List.getD_eq_getElem?_getD, List.getElem?_eq_getElem hj, Option.getD_some]

theorem mem_mis_iff (n r : Nat) (mi : List Nat) : mi ∈ MI.mis n r ↔ IsIndex n r mi := by
  rw [MI.mem_mis]
  rfl

theorem discStep_ok {n r : Nat} {triangles : List (List Nat)} (hm : IsMesh n triangles) (bset : List (List Nat)) (keep : Bool) (j : Nat)
    (hj : j < triangles.length) :
    StepOk (discRules triangles r bset keep) (evs triangles.length (MI.mis n r)) j (discStep bset keep r triangles[j]) := by
  intro P st mi h hl hP hE hf
  have hmi := (mem_mis_iff n r mi).1 ((mem_evs _ _ _).1 hE).2
  have hT := hm.simplex _ (List.getElem_mem hj)
  have hc := discSubSimplex_ok (r := r) (T := triangles[j]) (mi := mi) hmi.2 (by rw [hT.1, hmi.1])
  have hcar : ∀ b : Bool, (b && decide (carrier r (triangles.getD j []) mi ∈ bset)) = (b && decide (carrier r triangles[j] mi ∈ bset)) := by
    intro b; rw [getD_triangles hj]
  have hskip : (discRules triangles r bset keep).skip (j, mi) = (!keep && decide (carrier r triangles[j] mi ∈ bset)) := hcar _
  have hbnd : (discRules triangles r bset keep).bnd (j, mi) = (keep && decide (carrier r triangles[j] mi ∈ bset)) := hcar _
  have hnew := fun (hs : (discRules triangles r bset keep).skip (j, mi) = false) =>
    Inv.move_new (discRules_ok triangles r bset keep _) h hP mi (by rw [hl]; exact hE) (by rw [hl]; exact hs)
      (fun e he _ hid => hf (by rw [← hl, ← show e = (st.maps.length, mi) from hid]; exact he)) st.sub
      (fun k => by rw [if_neg (by rintro ⟨h1, -⟩; cases h1)])
  simp only [hl] at hnew
  unfold discStep
  rw [hc, Py.bind_ok]
  by_cases hmem : carrier r triangles[j] mi ∈ bset
  · rw [if_pos hmem]
    cases keep with
    | false =>
      refine ⟨st, rfl, rfl, ?_⟩
      refine h.move_skip _ ?_
      rw [hskip]
      simpa using hmem
    | true =>
      refine ⟨_, rfl, rfl, ?_⟩
      have hn := hnew (by rw [hskip]; rfl)
      rw [hbnd] at hn
      simpa [hmem] using hn
  · rw [if_neg hmem]
    refine ⟨_, rfl, rfl, ?_⟩
    have hn := hnew (by rw [hskip]; simp [hmem])
    rw [hbnd] at hn
    simpa [hmem] using hn

theorem getE_zero {n : Nat} {triangles : List (List Nat)} (hm : IsMesh n triangles) :
    ∃ T, getE triangles 0 = .ok T ∧ T.length - 1 = n := by
  have h0 : 0 < triangles.length := List.length_pos_iff.2 hm.ne
  refine ⟨triangles[0], getE_ok h0, ?_⟩
  rw [(hm.simplex _ (List.getElem_mem h0)).1]
  rfl

/-- The callable in terms of the dictionaries. -/
theorem tauOf_eq {T : Nat} {maps : List Dict} (hl : maps.length = T) (j : Nat) (hj : j < T) (nu : List Nat) :
    tauOf T maps j nu = .ok ((look maps (j, nu)).getD (-1)) := by
  unfold tauOf
  have h1 : decide ((j : Int) ≥ 0) = true := by simp
  have h2 : decide ((j : Int) < T) = true := by simpa using hj
  rw [h1, h2, pyAssert_true, Py.bind_ok, Py.bind_ok]
  unfold pyGet look
  rw [if_pos (by omega)]
  simp only [Int.toNat_natCast]
  rw [List.getElem?_eq_getElem (by omega)]
  simp only [Py.bind_ok, Option.bind_some]
  cases dget? (maps[j]'(by omega)) nu <;> rfl

theorem tauOf_error {T : Nat} {maps : List Dict} (j : Int) (hj : j < 0 ∨ (T : Int) ≤ j) (nu : List Nat) :
    tauOf T maps j nu = .error .assertion := by
  unfold tauOf
  by_cases h : j < 0
  · have h1 : decide (j ≥ 0) = false := by simpa using h
    rw [h1]
    rfl
  · have h1 : decide (j ≥ 0) = true := by simpa using h
    have h2 : decide (j < (T : Int)) = false := by simp; omega
    rw [h1, h2]
    rfl

theorem discMap_ok {n r : Nat} {triangles : List (List Nat)} (hm : IsMesh n triangles) {boundary : Option (List (List Nat))}
    {bset : List (List Nat)} (hb : boundarySet boundary = .ok bset) (keep : Bool) :
    let R := discRules triangles r bset keep
    let E := evs triangles.length (MI.mis n r)
    ∃ M, discMap triangles r boundary keep = .ok M ∧
      (∀ j : Nat, j < triangles.length → ∀ nu, M.tau j nu =
        .ok (if nu ∈ MI.mis n r ∧ R.skip (j, nu) = false then ((R.pos E (j, nu) : Nat) : Int) else -1)) ∧
      (∀ (j : Int) nu, j < 0 ∨ (triangles.length : Int) ≤ j → M.tau j nu = .error .assertion) ∧
      M.numDofs = ((R.F E ++ R.B E).length : Int) ∧ M.numInterior = if keep then some ((R.F E).length : Int) else none := by
  intro R E
  obtain ⟨T, h1, h2⟩ := getE_zero hm
  obtain ⟨st, h3, h4, h5⟩ := outer_loop (R := R) (MI.nodup_mis n r) triangles (discStep bset keep r) (fun j hj => discStep_ok hm bset keep j hj)
  obtain ⟨h6, h7, h8⟩ := finish_look (discRules_ok triangles r bset keep _) h5 keep (by
    rintro rfl e - -
    rfl)
  refine ⟨{ tau := tauOf triangles.length (finish keep st).maps, numDofs := (finish keep st).numDofs, numInterior := (finish keep st).numInterior },
    ?_, ?_, ?_, h7, h8⟩
  · unfold discMap discDictionaries
    rw [h1, Py.bind_ok, hb, Py.bind_ok, h2, MI.generateAll_eq_mis]
    simp only
    rw [h3]
    rfl
  · intro j hj nu
    simp only
    have hlen : (finish keep st).maps.length = triangles.length := by
      unfold finish
      cases keep <;> simp [h4]
    rw [tauOf_eq hlen j hj, h6]
    have : (j, nu) ∈ evs triangles.length (MI.mis n r) ↔ nu ∈ MI.mis n r := by
      rw [mem_evs]; simp [hj]
    by_cases hc : nu ∈ MI.mis n r ∧ (discRules triangles r bset keep).skip (j, nu) = false
    · rw [if_pos hc, if_pos ⟨this.2 hc.1, hc.2⟩]; rfl
    · rw [if_neg hc, if_neg (fun h => hc ⟨this.1 h.1, h.2⟩)]; rfl
  · intro j nu hj
    exact tauOf_error j hj nu

/-! ## Continuous spaces -/

/-- Continuous spaces: the pairs with the same sorted sub simplex and exponents are the same degree of freedom. -/
def contRules (triangles : List (List Nat)) (n r : Nat) (bset : List (List Nat)) (keep : Bool) : Rules (List (Nat × Nat)) where
  id e := pts r (triangles.getD e.1 []) e.2
  skip e := !keep && decide ((pts r (triangles.getD e.1 []) e.2).map Prod.fst ∈ bset)
  bnd e := keep && decide ((pts r (triangles.getD e.1 []) e.2).map Prod.fst ∈ bset) &&
    decide ((pts r (triangles.getD e.1 []) e.2).length ≠ n + 1)
  keyed e := decide ((pts r (triangles.getD e.1 []) e.2).length ≠ n + 1)
  key e := ((pts r (triangles.getD e.1 []) e.2).map Prod.fst, (pts r (triangles.getD e.1 []) e.2).map Prod.snd)

theorem unzip_inj {l l' : List (Nat × Nat)} (h1 : l.map Prod.fst = l'.map Prod.fst) (h2 : l.map Prod.snd = l'.map Prod.snd) : l = l' := by
  have h3 : ∀ l : List (Nat × Nat), (l.map Prod.fst).zip (l.map Prod.snd) = l := by
    intro l
    rw [List.zip_map', List.map_id'']
    intro x; rfl
  rw [← h3 l, ← h3 l', h1, h2]

/-- If all exponents are positive, the vertices of the list are those of the simplex. -/
theorem mem_fst_pts_full {n r : Nat} {T mi : List Nat} (hT : T.Nodup) (hl : T.length = mi.length + 1) (hn : mi.length = n)
    (hf : (pts r T mi).length = n + 1) (v : Nat) : v ∈ (pts r T mi).map Prod.fst ↔ v ∈ T := by
  have h1 : ((pts r T mi).map Prod.fst).Nodup := (fst_pts_strict hT).imp (fun h => h.ne)
  have h2 : (pts r T mi).map Prod.fst ⊆ T := by
    intro w hw
    obtain ⟨⟨w', e⟩, h3, rfl⟩ := List.mem_map.1 hw
    unfold pts at h3
    rw [List.mem_insertionSort, List.mem_filter] at h3
    exact (List.of_mem_zip h3.1).1
  have h3 := (List.subperm_of_subset h1 h2).perm_of_length_le (by rw [List.length_map, hf, hl, hn])
  exact h3.mem_iff

theorem contRules_ok {n r : Nat} {triangles : List (List Nat)} (hm : IsMesh n triangles) (hd : NoDuplicates triangles) (bset : List (List Nat))
    (keep : Bool) : (contRules triangles n r bset keep).Ok (evs triangles.length (MI.mis n r)) where
  fresh := by
    rintro ⟨j, mi⟩ he ⟨j', mi'⟩ he' hk hid
    rw [mem_evs] at he he'
    have hj : j < triangles.length := he.1
    have hj' : j' < triangles.length := he'.1
    have hT := hm.simplex _ (List.getElem_mem hj)
    have hT' := hm.simplex _ (List.getElem_mem hj')
    have hmi := (mem_mis_iff n r mi).1 he.2
    have hmi' := (mem_mis_iff n r mi').1 he'.2
    have hid' : pts r triangles[j] mi = pts r triangles[j'] mi' := by
      have : pts r (triangles.getD j []) mi = pts r (triangles.getD j' []) mi' := hid
      rwa [getD_triangles hj, getD_triangles hj'] at this
    have hk' : (pts r triangles[j] mi).length = n + 1 := by
      have : decide ((pts r (triangles.getD j []) mi).length ≠ n + 1) = false := hk
      rw [getD_triangles hj] at this
      simpa using this
    have hset : ∀ v, v ∈ triangles[j] ↔ v ∈ triangles[j'] := by
      intro v
      rw [← mem_fst_pts_full hT.2 (by rw [hT.1, hmi.1]) hmi.1 hk' v, hid',
        mem_fst_pts_full hT'.2 (by rw [hT'.1, hmi'.1]) hmi'.1 (by rw [← hid', hk']) v]
    have hjj : j = j' := by
      rcases lt_trichotomy j j' with h | h | h
      · exact absurd hset (List.pairwise_iff_getElem.1 hd j j' hj hj' h)
      · exact h
      · exact absurd (fun v => (hset v).symm) (List.pairwise_iff_getElem.1 hd j' j hj' hj h)
    subst hjj
    have := (pts_eq_iff hT.2 (by rw [hT.1, hmi.1]) hT.2 (by rw [hT.1, hmi'.1])).1 hid'
    rw [latticePoint_inj hT.2 (by rw [hT.1, hmi.1]) (by rw [hT.1, hmi'.1]) this]
  key e _ e' _ _ _ := by
    constructor
    · intro h
      exact unzip_inj (Prod.mk.inj h).1 (Prod.mk.inj h).2
    · intro h
      have h' : pts r (triangles.getD e.1 []) e.2 = pts r (triangles.getD e'.1 []) e'.2 := h
      simp only [contRules, h']
  bnd e _ e' _ h := by
    have h' : pts r (triangles.getD e.1 []) e.2 = pts r (triangles.getD e'.1 []) e'.2 := h
    simp only [contRules, h']
  skip e _ e' _ h := by
    have h' : pts r (triangles.getD e.1 []) e.2 = pts r (triangles.getD e'.1 []) e'.2 := h
    simp only [contRules, h']

theorem look2_dset (sub : List (List Nat × List (List Nat × Int))) (s : List Nat) (inner : List (List Nat × Int)) (k : List Nat × List Nat) :
    look2 (dset sub s inner) k = if s = k.1 then dget? inner k.2 else look2 sub k := by
  unfold look2
  rw [dget?_dset]
  by_cases h : s = k.1
  · rw [if_pos h, if_pos h]; rfl
  · rw [if_neg h, if_neg h]

/-- The shared part of the body of the loop: the stored number is used, otherwise a new one. -/
theorem sharedStep_eq (bset : List (List Nat)) (s m mi : List Nat) (st : State) :
    (∀ v, look2 st.sub (s, m) = some v →
      ∃ sub', sharedStep bset s m mi st = .ok { st with tri := dset st.tri mi v, sub := sub' } ∧ ∀ k, look2 sub' k = look2 st.sub k) ∧
    (look2 st.sub (s, m) = none →
      ∃ sub', (sharedStep bset s m mi st = if s ∉ bset then .ok { st with tri := dset st.tri mi st.next, sub := sub', next := st.next + 1 }
        else .ok { st with tri := dset st.tri mi st.nextB, sub := sub', nextB := st.nextB - 1 }) ∧
      ∀ k, look2 sub' k = if k = (s, m) then some (if s ∉ bset then st.next else st.nextB) else look2 st.sub k) := by
  have e1 : ∀ k : List Nat × List Nat, look2 st.sub k = (dget? st.sub k.1).bind (dget? · k.2) := fun _ => rfl
  unfold sharedStep
  cases hs : dget? st.sub s with
  | none =>
    have hnone : look2 st.sub (s, m) = none := by rw [e1, hs]; rfl
    rw [hnone]
    refine ⟨fun v h => (by cases h), fun _ => ?_⟩
    simp only [Option.isSome_none, Bool.false_eq_true, if_false, dget?_dset, if_true, dget?]
    refine ⟨dset (dset st.sub s []) s (dset [] m (if s ∉ bset then st.next else st.nextB)), ?_, ?_⟩
    · by_cases hb : s ∈ bset
      · simp [hb]
      · simp [hb]
    · intro k
      rw [look2_dset, look2_dset]
      by_cases h1 : s = k.1
      · rw [if_pos h1, dget?_dset]
        by_cases h2 : m = k.2
        · rw [if_pos h2]
          exact (if_pos (Prod.ext h1.symm h2.symm)).symm
        · rw [if_neg h2, if_neg (by rintro rfl; exact h2 rfl), e1, ← h1, hs]
          rfl
      · rw [if_neg h1, if_neg h1, if_neg (by rintro rfl; exact h1 rfl)]
  | some inner =>
    have hl : look2 st.sub (s, m) = dget? inner m := by rw [e1, hs]; rfl
    rw [hl]
    simp only [Option.isSome_some, if_true, hs]
    refine ⟨fun v h => ⟨st.sub, by rw [h], fun _ => rfl⟩, fun h => ?_⟩
    rw [h]
    simp only
    refine ⟨dset st.sub s (dset inner m (if s ∉ bset then st.next else st.nextB)), ?_, ?_⟩
    · by_cases hb : s ∈ bset
      · simp [hb]
      · simp [hb]
    · intro k
      rw [look2_dset]
      by_cases h1 : s = k.1
      · rw [if_pos h1, dget?_dset]
        by_cases h2 : m = k.2
        · rw [if_pos h2]
          exact (if_pos (Prod.ext h1.symm h2.symm)).symm
        · rw [if_neg h2, if_neg (by rintro rfl; exact h2 rfl), e1, ← h1, hs]
          rfl
      · rw [if_neg h1, if_neg (by rintro rfl; exact h1 rfl)]

theorem contStep_ok {n r : Nat} (hr : r ≠ 0) {triangles : List (List Nat)} (hm : IsMesh n triangles) (hd : NoDuplicates triangles)
    (bset : List (List Nat)) (keep : Bool) (j : Nat) (hj : j < triangles.length) :
    StepOk (contRules triangles n r bset keep) (evs triangles.length (MI.mis n r)) j (contStep bset keep n r triangles[j]) := by
  intro P st mi h hl hP hE hf
  have hmi := (mem_mis_iff n r mi).1 ((mem_evs _ _ _).1 hE).2
  have hT := hm.simplex _ (List.getElem_mem hj)
  have hTl : triangles[j].length = mi.length + 1 := by rw [hT.1, hmi.1]
  have hskip : (contRules triangles n r bset keep).skip (j, mi) = (!keep && decide ((pts r triangles[j] mi).map Prod.fst ∈ bset)) := by
    simp only [contRules, getD_triangles hj]
  have hbnd : (contRules triangles n r bset keep).bnd (j, mi) = (keep && decide ((pts r triangles[j] mi).map Prod.fst ∈ bset) &&
      decide ((pts r triangles[j] mi).length ≠ n + 1)) := by
    simp only [contRules, getD_triangles hj]
  have hkeyed : (contRules triangles n r bset keep).keyed (j, mi) = decide ((pts r triangles[j] mi).length ≠ n + 1) := by
    simp only [contRules, getD_triangles hj]
  have hkey : (contRules triangles n r bset keep).key (j, mi) = ((pts r triangles[j] mi).map Prod.fst, (pts r triangles[j] mi).map Prod.snd) := by
    simp only [contRules, getD_triangles hj]
  have hR := contRules_ok (r := r) hm hd bset keep
  have hlen : ((triangles[j].zip (baryExponents mi r)).filter (fun p => p.2 ≠ 0)).length = (pts r triangles[j] mi).length := by
    unfold pts
    rw [List.length_insertionSort]
  unfold contStep
  rw [eval_eq mi r triangles[j] hr hmi.2 hTl, Py.bind_ok, sortPairs_ok hr hmi.2 hTl, Py.bind_ok]
  simp only [List.length_map]
  rw [hlen]
  by_cases hsk : (pts r triangles[j] mi).map Prod.fst ∈ bset ∧ keep = false
  · rw [if_pos hsk]
    refine ⟨st, rfl, rfl, h.move_skip _ ?_⟩
    rw [hskip]
    simp [hsk.1, hsk.2]
  · rw [if_neg hsk]
    have hs : (contRules triangles n r bset keep).skip (j, mi) = false := by
      rw [hskip]
      cases keep with
      | true => rfl
      | false =>
        have : (pts r triangles[j] mi).map Prod.fst ∉ bset := fun hc => hsk ⟨hc, rfl⟩
        simp [this]
    by_cases hfull : (pts r triangles[j] mi).length = n + 1
    · rw [if_pos hfull]
      refine ⟨_, rfl, rfl, ?_⟩
      have hn := Inv.move_new hR h hP mi (by rw [hl]; exact hE) (by rw [hl]; exact hs)
        (by
          intro e he _ hid
          rw [hl] at hid
          have := hR.fresh _ hE e (hP e he) (by rw [hkeyed]; simpa using hfull) hid.symm
          exact hf (this ▸ he)) st.sub
        (fun k => by rw [hl, hkeyed, if_neg (by rintro ⟨h1, -⟩; simp [hfull] at h1)])
      rw [hl, hbnd] at hn
      simpa [hfull] using hn
    · rw [if_neg hfull]
      have hk : (contRules triangles n r bset keep).keyed (j, mi) = true := by rw [hkeyed]; simpa using hfull
      obtain ⟨h1, h2⟩ := sharedStep_eq bset ((pts r triangles[j] mi).map Prod.fst) ((pts r triangles[j] mi).map Prod.snd) mi st
      cases hlk : look2 st.sub ((pts r triangles[j] mi).map Prod.fst, (pts r triangles[j] mi).map Prod.snd) with
      | some v =>
        obtain ⟨sub', h3, h4⟩ := h1 v hlk
        refine ⟨_, h3, rfl, ?_⟩
        have := Inv.move_old hR h hP mi (by rw [hl]; exact hE) (by rw [hl]; exact hs) (by rw [hl]; exact hk) v
          (by rw [hl, hkey]; exact hlk) sub' h4
        rw [hl] at this
        exact this
      | none =>
        obtain ⟨sub', h3, h4⟩ := h2 hlk
        have hb' : (contRules triangles n r bset keep).bnd (j, mi) = decide ((pts r triangles[j] mi).map Prod.fst ∈ bset) := by
          rw [hbnd]
          cases keep with
          | true => simp [hfull]
          | false =>
            have : (pts r triangles[j] mi).map Prod.fst ∉ bset := fun hc => hsk ⟨hc, rfl⟩
            simp [this]
        have hn := Inv.move_new hR h hP mi (by rw [hl]; exact hE) (by rw [hl]; exact hs)
          (by
            intro e he hes hid
            rw [hl] at hid
            have hek : (contRules triangles n r bset keep).keyed e = true := by
              by_contra hc
              have := hR.fresh e (hP e he) _ hE (by simpa using hc) hid
              exact hf (this ▸ he)
            have h5 := h.sub1 e he hes hek
            rw [(hR.key e (hP e he) _ hE hek hk).2 hid, hkey, hlk] at h5
            cases h5) sub'
          (fun k => by
            rw [h4, hl, hk, hkey, hb']
            by_cases hkk : k = ((pts r triangles[j] mi).map Prod.fst, (pts r triangles[j] mi).map Prod.snd)
            · by_cases hbb : (pts r triangles[j] mi).map Prod.fst ∈ bset
              · simp [hkk, hbb]
              · simp [hkk, hbb]
            · simp [hkk])
        rw [hl, hb'] at hn
        by_cases hbb : (pts r triangles[j] mi).map Prod.fst ∈ bset
        · rw [if_neg (by simpa using hbb)] at h3
          refine ⟨_, h3, rfl, ?_⟩
          simpa [hbb] using hn
        · rw [if_pos hbb] at h3
          refine ⟨_, h3, rfl, ?_⟩
          simpa [hbb] using hn

theorem contMap_ok {n r : Nat} (hr : r ≠ 0) {triangles : List (List Nat)} (hm : IsMesh n triangles) (hd : NoDuplicates triangles)
    {boundary : Option (List (List Nat))} {bset : List (List Nat)} (hb : boundarySet boundary = .ok bset) (keep : Bool) :
    let R := contRules triangles n r bset keep
    let E := evs triangles.length (MI.mis n r)
    ∃ M, contMap triangles r boundary keep = .ok M ∧
      (∀ j : Nat, j < triangles.length → ∀ nu, M.tau j nu =
        .ok (if nu ∈ MI.mis n r ∧ R.skip (j, nu) = false then ((R.pos E (j, nu) : Nat) : Int) else -1)) ∧
      (∀ (j : Int) nu, j < 0 ∨ (triangles.length : Int) ≤ j → M.tau j nu = .error .assertion) ∧
      M.numDofs = ((R.F E ++ R.B E).length : Int) ∧ M.numInterior = if keep then some ((R.F E).length : Int) else none := by
  intro R E
  obtain ⟨T, h1, h2⟩ := getE_zero hm
  obtain ⟨st, h3, h4, h5⟩ := outer_loop (R := R) (MI.nodup_mis n r) triangles (contStep bset keep n r)
    (fun j hj => contStep_ok hr hm hd bset keep j hj)
  obtain ⟨h6, h7, h8⟩ := finish_look (contRules_ok hm hd bset keep) h5 keep (by
    rintro rfl e - -
    rfl)
  refine ⟨{ tau := tauOf triangles.length (finish keep st).maps, numDofs := (finish keep st).numDofs, numInterior := (finish keep st).numInterior },
    ?_, ?_, ?_, h7, h8⟩
  · unfold contMap contDictionaries
    have hr' : decide (r ≥ 1) = true := by simp; omega
    rw [hr', pyAssert_true, Py.bind_ok, h1, Py.bind_ok, hb, Py.bind_ok, h2, MI.generateAll_eq_mis]
    simp only
    rw [h3]
    rfl
  · intro j hj nu
    simp only
    have hlen : (finish keep st).maps.length = triangles.length := by
      unfold finish
      cases keep <;> simp [h4]
    rw [tauOf_eq hlen j hj, h6]
    have : (j, nu) ∈ evs triangles.length (MI.mis n r) ↔ nu ∈ MI.mis n r := by
      rw [mem_evs]; simp [hj]
    by_cases hc : nu ∈ MI.mis n r ∧ (contRules triangles n r bset keep).skip (j, nu) = false
    · rw [if_pos hc, if_pos ⟨this.2 hc.1, hc.2⟩]; rfl
    · rw [if_neg hc, if_neg (fun h => hc ⟨this.1 h.1, h.2⟩)]; rfl
  · intro j nu hj
    exact tauOf_error j hj nu

end Verif.L2G
