import Verif.Model.BasisIdentifier
import Verif.Props.StrUtils
import Verif.Lemmas.SimplexPolynomialOps
import Verif.Lemmas.DualBases
/-!
# C80: identifiers of bases

Which operands the operators on simplices accept, and what they return for operands whose vertices are printed alike.
-/

namespace Verif.Props
open Verif Verif.Str Verif.Poly Verif.Simplex Verif.SPoly Verif.Spec

/-! ## Texts -/

/-- How Python prints an array or a list: between square brackets. -/
def Bracketed (s : Str) : Prop := ∃ t : Str, s = '[' :: (t ++ [']'])

theorem Bracketed.ne_nil {s : Str} (h : Bracketed s) : s ≠ [] := by
  obtain ⟨t, rfl⟩ := h; simp

theorem Bracketed.last {s u : Str} (h : Bracketed s) : u ++ ['\n'] ≠ s := by
  obtain ⟨t, rfl⟩ := h
  intro hc
  have := congrArg List.getLast? hc
  rw [show '[' :: (t ++ [']']) = ('[' :: t) ++ [']'] from rfl, List.getLast?_concat, List.getLast?_concat] at this
  exact absurd (Option.some.inj this) (by decide)

/-- A text without line breaks up to the first line break is determined by the text. -/
theorem line_cancel {a b x y : Str} (ha : '\n' ∉ a) (hb : '\n' ∉ b) (h : a ++ '\n' :: x = b ++ '\n' :: y) : a = b ∧ x = y := by
  induction a generalizing b with
  | nil =>
    cases b with
    | nil => exact ⟨rfl, by simpa using h⟩
    | cons c b =>
      simp only [List.nil_append, List.cons_append, List.cons.injEq] at h
      exact absurd (List.mem_cons.2 (Or.inl h.1)) hb
  | cons c a ih =>
    cases b with
    | nil =>
      simp only [List.nil_append, List.cons_append, List.cons.injEq] at h
      exact absurd (List.mem_cons.2 (Or.inl h.1.symm)) ha
    | cons d b =>
      simp only [List.cons_append, List.cons.injEq] at h
      obtain ⟨h1, h2⟩ := ih (fun hc => ha (List.mem_cons_of_mem _ hc)) (fun hc => hb (List.mem_cons_of_mem _ hc)) h.2
      exact ⟨by rw [h.1, h1], h2⟩

/-- An indented line. -/
def indentLine (l : Str) : Str := if l = [] then [] else "    ".toList ++ l

theorem indentLine_inj {a b : Str} (h : indentLine a = indentLine b) : a = b := by
  unfold indentLine at h
  split at h <;> split at h
  · simp_all
  · simp at h
  · simp at h
  · exact List.append_cancel_left h

theorem indentLine_free {a : Str} (h : '\n' ∉ a) : '\n' ∉ indentLine a := by
  unfold indentLine
  split
  · simp
  · simp [h]

theorem lines_cancel {ls ks : List Str} (hl : ∀ l ∈ ls, '\n' ∉ l) (hk : ∀ l ∈ ks, '\n' ∉ l) (z : Str)
    (h : (ls.map (fun l => indentLine l ++ ['\n'])).flatten ++ (')' :: z) = (ks.map (fun l => indentLine l ++ ['\n'])).flatten ++ (')' :: z)) :
    ls = ks := by
  replace h := List.append_cancel_right h
  clear z
  induction ls generalizing ks with
  | nil =>
    cases ks with
    | nil => rfl
    | cons k ks => simp at h
  | cons l ls ih =>
    cases ks with
    | nil => simp at h
    | cons k ks =>
      simp only [List.map_cons, List.flatten_cons, List.append_assoc, List.singleton_append] at h
      obtain ⟨h1, h2⟩ := line_cancel (indentLine_free (hl l (by simp))) (indentLine_free (hk k (by simp))) h
      rw [indentLine_inj h1, ih (fun l hl' => hl l (by simp [hl'])) (fun l hl' => hk l (by simp [hl'])) h2]

theorem header_free (b : Basis) : '\n' ∉ BasisId.simplexHeader b := by
  cases b <;> decide

theorem header_inj {b c : Basis} (h : BasisId.simplexHeader b = BasisId.simplexHeader c) : b = c := by
  cases b <;> cases c <;> first | rfl | (exact absurd h (by decide))

/-- The text of an identifier: a header line, the indented lines of the printed vertices, and a closing line. -/
theorem simplexIdentifier_eq (b : Basis) {s : Str} (hs : Bracketed s) :
    ∃ lines : List Str, (∀ l ∈ lines, '\n' ∉ l) ∧ joinWith ['\n'] lines = s ∧
      BasisId.simplexIdentifier b s =
        .ok (BasisId.simplexHeader b ++ '\n' :: ((lines.map (fun l => indentLine l ++ ['\n'])).flatten ++ [')', '\n'])) := by
  have hne : BasisId.simplexHeader b ≠ [] := by cases b <;> decide
  obtain ⟨lines, h1, -, h3, -, h5⟩ := (C32_write_code (({} : Writer).wl (BasisId.simplexHeader b)).incIndent s).2 hs.ne_nil
  refine ⟨lines, h1, h3.resolve_right hs.last, ?_⟩
  have hline : ∀ l, lineText (({} : Writer).wl (BasisId.simplexHeader b)).incIndent l = indentLine l ++ ['\n'] := by
    intro l
    unfold lineText indentLine
    by_cases hl : l = []
    · rw [if_pos ⟨hl, by simp [Writer.wl, hne, Writer.bl, Writer.el, Writer.incIndent]⟩, if_pos hl]; rfl
    · rw [if_neg (fun h => hl h.1), if_neg hl]
      simp [Writer.wl, hne, Writer.bl, Writer.el, Writer.incIndent, rep]
  unfold BasisId.simplexIdentifier
  simp only
  rw [h5, Py.bind_ok, Py.pure_eq]
  congr 1
  rw [List.map_congr_left (fun l _ => hline l)]
  simp [Writer.wl, hne, Writer.bl, Writer.el, Writer.incIndent, Writer.decIndent, rep]

/-- **C80** Identifiers of bases on simplices agree exactly if the bases are of the same kind and the printed vertices agree. -/
theorem C80_identifier (b c : Basis) {s t : Str} (hs : Bracketed s) (ht : Bracketed t) :
    ∃ i j, BasisId.simplexIdentifier b s = .ok i ∧ BasisId.simplexIdentifier c t = .ok j ∧ (i = j ↔ b = c ∧ s = t) := by
  obtain ⟨ls, l1, l2, l3⟩ := simplexIdentifier_eq b hs
  obtain ⟨ks, k1, k2, k3⟩ := simplexIdentifier_eq c ht
  refine ⟨_, _, l3, k3, fun h => ?_, ?_⟩
  · obtain ⟨h1, h2⟩ := line_cancel (header_free b) (header_free c) h
    refine ⟨header_inj h1, ?_⟩
    rw [← l2, ← k2, lines_cancel l1 k1 _ h2]
  · rintro ⟨rfl, rfl⟩
    rw [l3] at k3
    exact Except.ok.inj k3

/-- **C80** The identifiers on the unit simplex are three different texts, and none of them is the identifier of a basis on a simplex. -/
theorem C80_identifier_unit (b c : Basis) {s : Str} (hs : Bracketed s) :
    (BasisId.unitIdentifier b = BasisId.unitIdentifier c ↔ b = c) ∧ BasisId.simplexIdentifier b s ≠ .ok (BasisId.unitIdentifier c) := by
  constructor
  · constructor
    · intro h; cases b <;> cases c <;> first | rfl | (exact absurd h (by decide))
    · rintro rfl; rfl
  · obtain ⟨ls, -, -, h⟩ := simplexIdentifier_eq b hs
    rw [h]
    intro hc
    have := Except.ok.inj hc
    have hm : '\n' ∈ BasisId.unitIdentifier c := by rw [← this]; simp
    exact absurd hm (by cases c <;> decide)

/-! ## Operators -/

section
variable {K V : Type} [Field K] [DecidableEq K] [AddCommGroup V] [Module K V] {m : Nat}

omit [Field K] [DecidableEq K] [AddCommGroup V] [Module K V] in
theorem sameBasis_eq (print : Vertices K m m → Str) {W : Type} (p : SObj K V m) (q : SObj K W m) (h1 : Bracketed (print p.vertices))
    (h2 : Bracketed (print q.vertices)) :
    BasisId.sameBasis print p q = pyAssert (decide (p.poly.basis = q.poly.basis ∧ print p.vertices = print q.vertices)) := by
  obtain ⟨i, j, hi, hj, h⟩ := C80_identifier p.poly.basis q.poly.basis h1 h2
  unfold BasisId.sameBasis BasisId.identifier
  rw [hi, hj]
  simp only [Py.bind_ok, h]

/-- Barycentric coordinates are the same in both simplices. -/
theorem up_down_bary {v w : Vertices K m m} (hd : edgeDet v ≠ 0) {l : Fin (m + 1) → K} (hl : ∑ i, l i = 1) :
    createAffineMap (up w) (createAffineMap (down v) (∑ i, l i • v i)) = ∑ i, l i • w i := by
  rw [down_bary v hd ⟨hl, rfl⟩]
  have h := (up_bary w (fun i => l i.succ)).2
  rw [h, Fin.sum_univ_succ, Fin.sum_univ_succ (fun i => l i • w i)]
  simp only [Fin.cons_zero, Fin.cons_succ]
  rw [Fin.sum_univ_succ] at hl
  rw [show 1 - ∑ i : Fin m, l i.succ = l 0 by rw [← hl]; ring]

theorem combine_print [CharZero K] (print : Vertices K m m → Str) (op : V → V → V)
    (hop : ∀ {p q : Obj V} {f g : (Fin m → K) → V}, Represents p m f → Represents q m g → p.basis = q.basis →
      ∃ s, Poly.combine K op p q = .ok s ∧ Represents s m (fun x => op (f x) (g x)) ∧ s.basis = p.basis ∧ s.r = max p.r q.r)
    {p q : SObj K V m} {v w : Vertices K m m} (hd : edgeDet v ≠ 0) (hw : edgeDet w ≠ 0) {f g : (Fin m → K) → V}
    (hp : RepresentsOn p v f) (hq : RepresentsOn q w g) (hb : p.poly.basis = q.poly.basis)
    (hv : Bracketed (print v)) (hvw : print v = print w) :
    ∃ s, BasisId.combine print op p q = .ok s ∧
      RepresentsOn s v (fun x => op (f x) (g (createAffineMap (up w) (createAffineMap (down v) x)))) ∧ s.poly.basis = p.poly.basis ∧
      s.poly.r = max p.poly.r q.poly.r := by
  have check : ∀ {p q : SObj K V m} {f g : (Fin m → K) → V}, RepresentsOn p v f → RepresentsOn q w g → p.poly.basis = q.poly.basis →
      BasisId.sameBasis print p q = .ok () := by
    intro p q f g hp hq hb
    have h1 := ((repOn_iff hd).1 hp).1
    have h2 := ((repOn_iff hw).1 hq).1
    rw [sameBasis_eq print p q (by rw [h1]; exact hv) (by rw [h2, ← hvw]; exact hv), h1, h2, decide_eq_true ⟨hb, hvw⟩, pyAssert_true]
  have same : ∀ {p q : SObj K V m} {f g : (Fin m → K) → V}, RepresentsOn p v f → RepresentsOn q w g → p.poly.basis = q.poly.basis →
      p.poly.r = q.poly.r → ∃ s, BasisId.combineSame print op p q = .ok s ∧
      RepresentsOn s v (fun x => op (f x) (g (createAffineMap (up w) (createAffineMap (down v) x)))) ∧ s.poly.basis = p.poly.basis ∧
      s.poly.r = p.poly.r := by
    intro p q f g hp hq hb hr
    obtain ⟨h1, h2, h3⟩ := (repOn_iff hd).1 hp
    obtain ⟨k1, k2, k3⟩ := (repOn_iff hw).1 hq
    unfold BasisId.combineSame
    rw [check hp hq hb, Py.bind_ok, if_pos hr]
    obtain ⟨s, a1, a2, a3, a4⟩ := hop h3 k3 hb
    rw [zipWith_obj op rfl hb.symm h3.dim k3.dim rfl hr.symm] at a1
    rw [h1, snew_ok hd a1]
    refine ⟨_, rfl, repOn_mk' hd ?_, a3, by rw [a4, ← hr, max_self]⟩
    simpa only [down_up v hd] using a2
  have hfp := ((repOn_iff hd).1 hp).2.2.fits
  have hfq := ((repOn_iff hw).1 hq).2.2.fits
  unfold BasisId.combine
  rw [check hp hq hb, Py.bind_ok]
  by_cases hr : p.poly.r = q.poly.r
  · rw [if_pos hr]
    obtain ⟨s, a1, a2, a3, a4⟩ := same hp hq hb hr
    exact ⟨s, a1, a2, a3, by rw [a4, ← hr, max_self]⟩
  · rw [if_neg hr]
    by_cases hgt : p.poly.r > q.poly.r
    · rw [if_pos hgt]
      obtain ⟨q', b1, b2, b3, b4⟩ := degreeElevate_repOn hw hq p.poly.r hgt.le hfp
      rw [b1]
      obtain ⟨s, a1, a2, a3, a4⟩ := same hp b2 (hb.trans b3.symm) b4.symm
      exact ⟨s, a1, a2, a3, by rw [a4, max_eq_left hgt.le]⟩
    · rw [if_neg hgt]
      obtain ⟨p', b1, b2, b3, b4⟩ := degreeElevate_repOn hd hp q.poly.r (not_lt.1 hgt) hfq
      rw [b1]
      obtain ⟨s, a1, a2, a3, a4⟩ := same b2 hq (b3.trans hb) b4
      exact ⟨s, a1, a2, a3.trans b3, by rw [a4, b4, max_eq_right (not_lt.1 hgt)]⟩

variable [CharZero K]

/-- **C80** Sums and differences of polynomials in the same kind of basis on two simplices that are printed alike: the result is returned on the
first simplex, and at the point with given barycentric coordinates its value is the sum (difference) of the values of the operands at the points
with the *same barycentric coordinates* in their own simplices. -/
theorem C80_add_printed {print : Vertices K m m → Str} {p q : SObj K V m} {v w : Vertices K m m} {f g : (Fin m → K) → V}
    (hp : RepresentsOn p v f) (hq : RepresentsOn q w g) (hb : p.poly.basis = q.poly.basis) (hv : Bracketed (print v)) (hvw : print v = print w) :
    (∃ s h, BasisId.combine print (· + ·) p q = .ok s ∧ RepresentsOn s v h ∧ s.poly.basis = p.poly.basis ∧ s.poly.r = max p.poly.r q.poly.r ∧
      ∀ l : Fin (m + 1) → K, ∑ i, l i = 1 → h (∑ i, l i • v i) = f (∑ i, l i • v i) + g (∑ i, l i • w i)) ∧
    (∃ s h, BasisId.combine print (· - ·) p q = .ok s ∧ RepresentsOn s v h ∧ s.poly.basis = p.poly.basis ∧ s.poly.r = max p.poly.r q.poly.r ∧
      ∀ l : Fin (m + 1) → K, ∑ i, l i = 1 → h (∑ i, l i • v i) = f (∑ i, l i • v i) - g (∑ i, l i • w i)) := by
  have hd := repOn_det hp
  have hw := repOn_det hq
  constructor
  · obtain ⟨s, h1, h2, h3, h4⟩ := combine_print print (· + ·) (fun hp hq hb => add_rep hp hq hb) hd hw hp hq hb hv hvw
    exact ⟨s, _, h1, h2, h3, h4, fun l hl => by simp only [up_down_bary hd hl]⟩
  · obtain ⟨s, h1, h2, h3, h4⟩ := combine_print print (· - ·) (fun hp hq hb => sub_rep hp hq hb) hd hw hp hq hb hv hvw
    exact ⟨s, _, h1, h2, h3, h4, fun l hl => by simp only [up_down_bary hd hl]⟩

/-- **C80** If printing tells the two simplices apart, the operators work as they should: operands on the same simplex in the same kind of basis
are added and subtracted as functions, and all other operands are rejected. -/
theorem C80_add {print : Vertices K m m → Str} {p q : SObj K V m} {v w : Vertices K m m} {f g : (Fin m → K) → V}
    (hp : RepresentsOn p v f) (hq : RepresentsOn q w g) (hv : Bracketed (print v)) (hw : Bracketed (print w)) (hprint : print v = print w → v = w) :
    (p.poly.basis = q.poly.basis ∧ v = w →
      (∃ s, BasisId.combine print (· + ·) p q = .ok s ∧ RepresentsOn s v (fun x => f x + g x) ∧ s.poly.basis = p.poly.basis ∧
        s.poly.r = max p.poly.r q.poly.r) ∧
      (∃ s, BasisId.combine print (· - ·) p q = .ok s ∧ RepresentsOn s v (fun x => f x - g x) ∧ s.poly.basis = p.poly.basis ∧
        s.poly.r = max p.poly.r q.poly.r)) ∧
    (¬ (p.poly.basis = q.poly.basis ∧ v = w) →
      BasisId.combine print (· + ·) p q = .error .assertion ∧ BasisId.combine print (· - ·) p q = .error .assertion) := by
  have hd := repOn_det hp
  have hdw := repOn_det hq
  constructor
  · rintro ⟨hb, rfl⟩
    have e : ∀ x, createAffineMap (up v) (createAffineMap (down v) x) = x := up_down v hd
    constructor
    · obtain ⟨s, h1, h2, h3, h4⟩ := combine_print print (· + ·) (fun hp hq hb => add_rep hp hq hb) hd hdw hp hq hb hv rfl
      simp only [e] at h2
      exact ⟨s, h1, h2, h3, h4⟩
    · obtain ⟨s, h1, h2, h3, h4⟩ := combine_print print (· - ·) (fun hp hq hb => sub_rep hp hq hb) hd hdw hp hq hb hv rfl
      simp only [e] at h2
      exact ⟨s, h1, h2, h3, h4⟩
  · intro hn
    have h1 := ((repOn_iff hd).1 hp).1
    have h2 := ((repOn_iff hdw).1 hq).1
    have hs : BasisId.sameBasis print p q = .error .assertion := by
      rw [sameBasis_eq print p q (by rw [h1]; exact hv) (by rw [h2]; exact hw), h1, h2,
        decide_eq_false (fun hc => hn ⟨hc.1, hprint hc.2⟩), pyAssert_false]
    constructor <;> (unfold BasisId.combine; rw [hs]; rfl)

/-- **C80** Products in the Bernstein basis: operands whose simplices are printed alike are multiplied at points with the same barycentric coordinates;
operands whose simplices are printed differently, or with another kind of basis, are rejected. -/
theorem C80_mul {print : Vertices K m m → Str} {p q : SObj K K m} {v w : Vertices K m m} {f g : (Fin m → K) → K}
    (hp : RepresentsOn p v f) (hq : RepresentsOn q w g) (hb : p.poly.basis = .bernstein) (hv : Bracketed (print v)) (hw : Bracketed (print w)) :
    (q.poly.basis = .bernstein ∧ print v = print w → Fits (p.poly.r + q.poly.r) m →
      ∃ s h, BasisId.mul print p q = .ok s ∧ RepresentsOn s v h ∧ s.poly.basis = .bernstein ∧ s.poly.r = p.poly.r + q.poly.r ∧
        ∀ l : Fin (m + 1) → K, ∑ i, l i = 1 → h (∑ i, l i • v i) = f (∑ i, l i • v i) * g (∑ i, l i • w i)) ∧
    (¬ (q.poly.basis = .bernstein ∧ print v = print w) → BasisId.mul print p q = .error .assertion) := by
  have hd := repOn_det hp
  have hdw := repOn_det hq
  obtain ⟨h1, h2, h3⟩ := (repOn_iff hd).1 hp
  obtain ⟨k1, k2, k3⟩ := (repOn_iff hdw).1 hq
  have hs := sameBasis_eq print p q (by rw [h1]; exact hv) (by rw [k1]; exact hw)
  rw [h1, k1, hb] at hs
  constructor
  · rintro ⟨hb', hvw⟩ hfit
    rw [hb', decide_eq_true ⟨rfl, hvw⟩, pyAssert_true] at hs
    obtain ⟨s, a1, a2, a3, a4⟩ := mul_rep h3 k3 (Or.inr (hb.trans hb'.symm)) hfit
    have hnew : Obj.new .bernstein s.coeff (some (p.poly.r + q.poly.r)) m = .ok s := by
      have := Represents.new_eq a2
      rwa [a3, hb, a4] at this
    refine ⟨⟨s, v, down v⟩, fun x => f x * g (createAffineMap (up w) (createAffineMap (down v) x)), ?_, repOn_mk' hd ?_, a3.trans hb, a4, ?_⟩
    · unfold BasisId.mul
      rw [hb]
      simp only
      rw [hs, Py.bind_ok, a1, Py.bind_ok, h1, snew_ok hd hnew]
    · simpa only [down_up v hd] using a2
    · intro l hl
      simp only [up_down_bary hd hl]
  · intro hn
    rw [decide_eq_false (fun hc => hn ⟨hc.1.symm, hc.2⟩), pyAssert_false] at hs
    unfold BasisId.mul
    rw [hb]
    simp only
    rw [hs]
    rfl

/-- **C80** Whenever two different simplices are printed alike (as with NumPy arrays that differ after the eighth digit), there are polynomials on them
that the program adds without an error to a polynomial that is not their sum. -/
theorem C80_rounding_counterexample (print : Vertices K m m → Str) (v w : Vertices K m m) (hd : edgeDet v ≠ 0) (hdw : edgeDet w ≠ 0)
    (hv : Bracketed (print v)) (hvw : print v = print w) (hne : v ≠ w) (b : Basis) :
    ∃ (p q : SObj K K m) (f g h : (Fin m → K) → K) (s : SObj K K m) (x : Fin m → K), RepresentsOn p v f ∧ RepresentsOn q w g ∧
      p.poly.basis = b ∧ q.poly.basis = b ∧ BasisId.combine print (· + ·) p q = .ok s ∧ RepresentsOn s v h ∧ h x ≠ f x + g x := by
  obtain ⟨k, hk⟩ := Function.ne_iff.1 hne
  obtain ⟨i, hi⟩ := Function.ne_iff.1 hk
  have hfit : Fits 1 m := Or.inr (by norm_num)
  obtain ⟨c, hc⟩ := exists_val (V := K) b (isPoly_comp (isPoly_coord (K := K) i) (up w))
  obtain ⟨c0, hc0⟩ := exists_val (V := K) b ((isPoly_const (K := K) m (0 : K)).mono (Nat.zero_le 1))
  have hp : RepresentsOn (⟨mkObj b m 1 c0, v, down v⟩ : SObj K K m) v (fun _ => 0) :=
    repOn_mk' hd (by rw [hc0]; exact rep_mk b m 1 c0 hfit)
  have hq : RepresentsOn (⟨mkObj b m 1 c, w, down w⟩ : SObj K K m) w (fun x => x i) :=
    repOn_mk' hdw (by rw [hc]; exact rep_mk b m 1 c hfit)
  obtain ⟨⟨s, h, h1, h2, -, -, h3⟩, -⟩ := C80_add_printed hp hq rfl hv hvw
  refine ⟨_, _, _, _, h, s, v k, hp, hq, rfl, rfl, h1, h2, ?_⟩
  have := h3 (Pi.single k 1) (by simp)
  simp only [Pi.single_apply, ite_smul, one_smul, zero_smul, Finset.sum_ite_eq', Finset.mem_univ, if_true, zero_add] at this
  rw [this]
  simpa using fun h => hi h.symm

end

/-! ## Two intervals that are printed alike -/

/-- The interval from 0 to 1 and the interval from 0 to 1.0000000001. -/
def C80_interval : Vertices ℚ 1 1 := fun i _ => if i = 0 then 0 else 1

def C80_interval' : Vertices ℚ 1 1 := fun i _ => if i = 0 then 0 else 1 + 1 / 10 ^ 10

/-- Printing of the two intervals as NumPy arrays (with eight digits after the decimal point). -/
def C80_print (v : Vertices ℚ 1 1) : Str := if v = C80_interval ∨ v = C80_interval' then "[[0.]\n [1.]]".toList else "[]".toList

example : edgeDet C80_interval ≠ 0 ∧ edgeDet C80_interval' ≠ 0 ∧ Bracketed (C80_print C80_interval) ∧
    C80_print C80_interval = C80_print C80_interval' ∧ C80_interval ≠ C80_interval' := by
  refine ⟨by simp [edgeDet, C80_interval], by simp [edgeDet, C80_interval']; norm_num, ⟨"[0.]\n [1.]".toList, ?_⟩, ?_, ?_⟩
  · unfold C80_print; rw [if_pos (Or.inl rfl)]; rfl
  · unfold C80_print; rw [if_pos (Or.inl rfl), if_pos (Or.inr rfl)]
  · intro h
    have := congrFun (congrFun h 1) 0
    simp [C80_interval, C80_interval'] at this

/-- The identifier of the Bernstein basis on the interval. -/
example : BasisId.simplexIdentifier .bernstein "[[0.]\n [1.]]".toList = .ok "Bernstein(\n    [[0.]\n     [1.]]\n)\n".toList := by decide

end Verif.Props
