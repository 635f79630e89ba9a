import Verif.Lemmas.Representation
import Verif.Lemmas.PolyRep
import Verif.Lemmas.SimplexPolynomialOps
import Verif.Props.MultiIndex
/-!
# C79: textual representations, constructor arguments, hashes and iteration

`PyLit.literal` and `PyLit.call` (`Verif/Spec/PyLiteral.lean`) are what Python reads when it evaluates a text.
-/

namespace Verif.Props
open Verif Verif.Str Verif.PyExpr Verif.PyLit Verif.Repr Verif.CodeGen Verif.Poly

/-! ## Constructor arguments -/

theorem checkComponents_ints (l : List Int) : checkComponents (l.map .int) = if ∃ i ∈ l, i < 0 then .error .value else .ok (l.map Int.toNat) := by
  induction l with
  | nil => simp [checkComponents]
  | cons i l ih =>
    simp only [List.map_cons, checkComponents, ih]
    by_cases hi : i < 0
    · rw [if_pos hi, if_pos ⟨i, by simp, hi⟩]
    · rw [if_neg hi]
      by_cases hl : ∃ j ∈ l, j < 0
      · rw [if_pos hl, if_pos (by obtain ⟨j, h1, h2⟩ := hl; exact ⟨j, by simp [h1], h2⟩)]
        rfl
      · rw [if_neg hl, if_neg (by rintro ⟨j, h1, h2⟩; rcases List.mem_cons.1 h1 with rfl | h1; exacts [hi h2, hl ⟨j, h1, h2⟩])]
        rfl

theorem checkComponents_nat (a : List Nat) : checkComponents ((a.map Int.ofNat).map .int) = .ok a := by
  rw [checkComponents_ints, if_neg (by simp)]
  congr 1
  rw [List.map_map]
  exact (List.map_congr_left (fun x _ => rfl)).trans (List.map_id a)

/-- **C79** A multi-index can be created from a list, from a tuple or (one or more) separate arguments, and all ways of passing the same integers are
equivalent: ValueError if one of them is negative, and otherwise the multi-index with these components. -/
theorem C79_multiindex_arguments (l : List Int) :
    multiIndexInit [.list l] = multiIndexInit [.tuple l] ∧ (l ≠ [] → multiIndexInit (l.map .int) = multiIndexInit [.list l]) ∧
    ((∀ i ∈ l, 0 ≤ i) → ∃ a, multiIndexInit [.list l] = .ok a ∧ a.map Int.ofNat = l) ∧
    ((∃ i ∈ l, i < 0) → multiIndexInit [.list l] = .error .value) := by
  refine ⟨rfl, fun h => ?_, fun h => ?_, fun h => ?_⟩
  · match l, h with
    | [i], _ => rfl
    | i :: j :: l, _ => simp [multiIndexInit]
  · refine ⟨l.map Int.toNat, ?_, ?_⟩
    · show checkComponents (l.map .int) = _
      rw [checkComponents_ints, if_neg]
      rintro ⟨i, h1, h2⟩
      have := h i h1
      omega
    · rw [List.map_map]
      refine (List.map_congr_left fun i hi => ?_).trans (List.map_id l)
      have := h i hi
      simp only [Function.comp, id]
      exact Int.toNat_of_nonneg this
  · show checkComponents (l.map .int) = _
    rw [checkComponents_ints, if_pos h]

/-- **C79** Without arguments: IndexError. A sequence among several arguments: an exception, ValueError if a negative integer comes before it and TypeError
otherwise. -/
theorem C79_multiindex_arguments_error : multiIndexInit [] = .error .index ∧
    ∀ (l : List Int) (s : PyVal) (rest : List PyVal), (∀ i, s ≠ .int i) → 1 ≤ l.length + rest.length →
      multiIndexInit (l.map .int ++ s :: rest) = .error (if ∃ i ∈ l, i < 0 then .value else .type) := by
  refine ⟨rfl, fun l s rest hs hlen => ?_⟩
  have h1 : (l.map PyVal.int ++ s :: rest).length > 1 := by simp; omega
  unfold multiIndexInit
  rw [if_pos h1]
  clear h1 hlen
  induction l with
  | nil =>
    rw [if_neg (by simp)]
    match s, hs with
    | .int i, hs => exact absurd rfl (hs i)
    | .list _, _ => rfl
    | .tuple _, _ => rfl
  | cons i l ih =>
    rw [List.map_cons, List.cons_append, checkComponents]
    by_cases hi : i < 0
    · rw [if_pos hi, if_pos ⟨i, by simp, hi⟩]
    · rw [if_neg hi, ih, Py.bind_error]
      congr 1
      by_cases hl : ∃ j ∈ l, j < 0
      · rw [if_pos hl, if_pos (by obtain ⟨j, h1, h2⟩ := hl; exact ⟨j, by simp [h1], h2⟩)]
      · rw [if_neg hl, if_neg (by rintro ⟨j, h1, h2⟩; rcases List.mem_cons.1 h1 with rfl | h1; exacts [hi h2, hl ⟨j, h1, h2⟩])]

/-- **C79** A permutation can be created from a tuple, a list, or two or more separate arguments, with the same result. A single number is rejected. -/
theorem C79_permutation_arguments (l : List Int) :
    permutationInit [.tuple l] = .ok (l.map .int) ∧ permutationInit [.list l] = .ok (l.map .int) ∧
    (2 ≤ l.length → permutationInit (l.map .int) = .ok (l.map .int)) ∧ (∀ i, permutationInit [.int i] = .error .value) ∧
    permutationInit [] = .error .index :=
  ⟨rfl, rfl, fun h => by simp only [permutationInit, List.length_map]; rw [if_pos (by omega)], fun _ => rfl, rfl⟩

/-! ## Representations -/

theorem multiIndexClass_ident : ∀ s ∈ multiIndexClass, IsIdentifier s := by
  intro s hs
  simp only [multiIndexClass, List.mem_cons, List.not_mem_nil, or_false] at hs
  rcases hs with rfl | rfl | rfl | rfl
  all_goals exact ⟨⟨_, _, rfl, Or.inl (by decide)⟩, by decide⟩

theorem permutationClass_ident : ∀ s ∈ permutationClass, IsIdentifier s := by
  intro s hs
  simp only [permutationClass, List.mem_cons, List.not_mem_nil, or_false] at hs
  rcases hs with rfl | rfl | rfl | rfl
  all_goals exact ⟨⟨_, _, rfl, Or.inl (by decide)⟩, by decide⟩

theorem integerModuloNClass_ident : ∀ s ∈ integerModuloNClass, IsIdentifier s := by
  intro s hs
  simp only [integerModuloNClass, List.mem_cons, List.not_mem_nil, or_false] at hs
  rcases hs with rfl | rfl | rfl | rfl
  all_goals exact ⟨⟨_, _, rfl, Or.inl (by decide)⟩, by decide⟩

/-- **C79** `repr` of a multi-index is a call of the constructor which creates the same multi-index. -/
theorem C79_multiindex_repr (a : List Nat) :
    ∃ args, PyLit.call (multiIndexRepr a) = some (multiIndexClass, args) ∧ multiIndexInit args = .ok a := by
  refine ⟨[.list (a.map Int.ofNat)], ?_, checkComponents_nat a⟩
  have h := callTokens_eq (path := multiIndexClass) (by simp [multiIndexClass]) multiIndexClass_ident (lx_listStr (a.map Int.ofNat))
  rw [items_one (split_brack _) (by simp)] at h
  refine call_eq (args := [.lbrk :: seqToks (a.map Int.ofNat) ++ [.rbrk]]) ?_ ?_
  · rw [← h]
    rfl
  · simp only [List.mapM_cons, List.mapM_nil, readVal_list]
    rfl

/-- **C79** `repr` of a permutation is a call of the constructor which creates the same permutation. -/
theorem C79_permutation_repr (p : List Nat) :
    ∃ args, PyLit.call (permutationRepr p) = some (permutationClass, args) ∧ permutationInit args = .ok (p.map fun (i : Nat) => .int i) := by
  refine ⟨[.tuple (p.map Int.ofNat)], ?_, ?_⟩
  · have h := callTokens_eq (path := permutationClass) (by simp [permutationClass]) permutationClass_ident (lx_tupleStr (p.map Int.ofNat))
    rw [items_one (split_paren _) (by simp)] at h
    refine call_eq (args := [.lpar :: tupToks (p.map Int.ofNat) ++ [.rpar]]) ?_ ?_
    · rw [← h]
      rfl
    · simp only [List.mapM_cons, List.mapM_nil, readVal_tuple]
      rfl
  · show Except.ok _ = Except.ok _
    rw [List.map_map]
    rfl

/-- **C79** `repr` of an integer modulo `n` is a call of the constructor which creates the same object. -/
theorem C79_integermodulon_repr {v n : Int} {x : IntMod} (h : IntMod.mk? v n = .ok x) :
    ∃ args, PyLit.call (integerModuloNRepr x) = some (integerModuloNClass, args) ∧ integerModuloNInit args = .ok x := by
  unfold IntMod.mk? at h
  split at h
  · cases h
  · rename_i hn
    simp only [Except.ok.injEq] at h
    subst h
    refine ⟨[.int (Int.fmod v n), .int n], ?_, ?_⟩
    · have h := callTokens_eq (path := integerModuloNClass) (by simp [integerModuloNClass]) integerModuloNClass_ident
        (Lx.mid (lx_intStr (Int.fmod v n)) mid_comma (lx_intStr n))
      have hi : items (intToks (Int.fmod v n) ++ [.comma] ++ intToks n) = [intToks (Int.fmod v n), intToks n] := by
        have := items_seq [Int.fmod v n, n]
        rwa [← List.append_cons]
      rw [hi] at h
      refine call_eq (args := [intToks (Int.fmod v n), intToks n]) ?_ ?_
      · rw [← h]
        congr 1
      · simp only [List.mapM_cons, List.mapM_nil, readVal_int]
        rfl
    · show IntMod.mk? _ _ = _
      unfold IntMod.mk? IntMod.red
      rw [if_neg hn, Int.fmod_fmod]

/-- **C79** `str` of a multi-index reads as the tuple of its components. -/
theorem C79_multiindex_str (a : List Nat) : literal (multiIndexStr a) = some (multiIndexTuple a) := literal_tupleStr _

/-- **C79** `str` of a permutation reads as the tuple of its values, counted from one. -/
theorem C79_permutation_str (p : List Nat) : literal (permutationStr p) = some (.tuple (p.map fun (i : Nat) => (i : Int) + 1)) := by
  unfold permutationStr Perm.toOneBased
  rw [literal_tupleStr, List.map_map]
  rfl

theorem underscore_not_mem (i : Int) : '_' ∉ intStr i := by
  have key : ∀ n : Nat, '_' ∉ natStr n := fun n h => by
    have := Nat.isDigit_of_mem_toDigits (b := 10) (by omega) (by omega) h
    exact absurd this (by decide)
  cases i with
  | ofNat n => exact key n
  | negSucc n => simp [intStr, key]

theorem intStr_inj {i j : Int} (h : intStr i = intStr j) : i = j := by
  have h1 := literal_intStr i
  rw [h, literal_intStr j] at h1
  simpa using h1.symm

theorem split_unique {c : Char} : ∀ {a b a' b' : Str}, c ∉ a → c ∉ a' → a ++ c :: b = a' ++ c :: b' → a = a' ∧ b = b'
  | [], b, [], b', _, _, h => ⟨rfl, by simpa using h⟩
  | [], b, x :: a', b', _, h2, h => by simp at h; exact absurd (by simp [h.1]) h2
  | x :: a, b, [], b', h1, _, h => by simp at h; exact absurd (by simp [h.1]) h1
  | x :: a, b, y :: a', b', h1, h2, h => by
    simp only [List.cons_append, List.cons.injEq] at h
    obtain ⟨e1, e2⟩ := split_unique (fun hm => h1 (List.mem_cons_of_mem _ hm)) (fun hm => h2 (List.mem_cons_of_mem _ hm)) h.2
    exact ⟨by rw [h.1, e1], e2⟩

/-- **C79** `str` of an integer modulo `n` determines the number and the modulus. -/
theorem C79_integermodulon_str {x y : IntMod} (h : integerModuloNStr x = integerModuloNStr y) : x = y := by
  unfold integerModuloNStr at h
  rw [List.append_assoc, List.append_assoc] at h
  obtain ⟨h1, h2⟩ := split_unique (underscore_not_mem _) (underscore_not_mem _) h
  cases x; cases y
  simp only [IntMod.mk.injEq]
  exact ⟨intStr_inj h1, intStr_inj h2⟩

/-! ## Hashes -/

/-- **C79** Equal multi-indices have equal hashes. -/
theorem C79_multiindex_hash (hashTuple : List Int → Int) (a b : List Nat) (h : MI.eq a b = .ok true) :
    multiIndexHash hashTuple a = multiIndexHash hashTuple b := by
  suffices h : a = b by rw [h]
  unfold MI.eq at h
  split at h
  · cases h
  · rename_i hl
    simp only [ne_eq, not_not] at hl
    simp only [Except.ok.injEq, List.all_eq_true] at h
    refine List.ext_getElem hl fun i h1 h2 => ?_
    have := h (a[i], b[i]) (List.mem_iff_getElem.2 ⟨i, by simp [h1, h2], by simp⟩)
    simpa using this

/-- **C79** A multi-index can be compared with a tuple of numbers; if they are equal, the multi-index has the hash of the tuple, so that it finds
dictionary entries stored with the tuple as key. -/
theorem C79_multiindex_hash_tuple (hashTuple : List Int → Int) (a t : List Nat) (h : MI.eq a t = .ok true) :
    multiIndexHash hashTuple a = hashTuple (t.map fun (x : Nat) => (x : Int)) := by
  rw [C79_multiindex_hash hashTuple a t h]
  rfl

example : MI.eq [1, 2] [1, 2] = .ok true := rfl

/-- **C79** Equal integers modulo `n` have equal hashes, and an integer modulo `n` which is equal to a plain integer `k` has the hash of `k`, if `k` is
less than `2 ^ 61 - 1` in absolute value. -/
theorem C79_integermodulon_hash (x : IntMod) :
    (∀ y, x.eq (.mod y) = .ok true → hashOfMethod (integerModuloNHashMethod x) = hashOfMethod (integerModuloNHashMethod y)) ∧
    ∀ k, x.eq (.int k) = .ok true → k.natAbs < 2 ^ 61 - 1 → hashOfMethod (integerModuloNHashMethod x) = hashInt k := by
  constructor
  · intro y h
    unfold IntMod.eq at h
    simp only at h
    split at h
    · cases h
    · simp only [Except.ok.injEq, beq_iff_eq] at h
      unfold integerModuloNHashMethod
      rw [h]
  · intro k h hk
    simp only [IntMod.eq, Except.ok.injEq, beq_iff_eq] at h
    unfold integerModuloNHashMethod hashOfMethod hashInt
    rw [h, if_pos (by omega)]
    have : Int.tmod k (2 ^ 61 - 1) = k := by
      rcases Int.natAbs_eq k with e | e
      · rw [e, Int.tmod_eq_of_lt (by omega) (by omega)]
      · rw [e, Int.neg_tmod, Int.tmod_eq_of_lt (by omega) (by omega)]
    simp only [this]

/-- **C79** For larger numbers this is not so: an integer modulo `2 ^ 62` that is equal to `2 ^ 61` has another hash. -/
theorem C79_integermodulon_hash_counterexample :
    ∃ x k, IntMod.mk? (2 ^ 61) (2 ^ 62) = .ok x ∧ x.eq (.int k) = .ok true ∧ hashOfMethod (integerModuloNHashMethod x) ≠ hashInt k :=
  ⟨⟨2 ^ 61, 2 ^ 62⟩, 2 ^ 61, by decide, by decide, by decide⟩

/-- **C79** `int` of an integer modulo `n` is the one integer that is congruent to the value it was created from and lies between 0 and `n` (`n` excluded);
for a negative modulus it is negative or 0. -/
theorem C79_integermodulon_int {v n : Int} {x : IntMod} (h : IntMod.mk? v n = .ok x) (k : Int) :
    integerModuloNInt x = k ↔ (0 ≤ k ∧ k < n ∨ n < k ∧ k ≤ 0) ∧ k ≡ v [ZMOD n] := by
  unfold IntMod.mk? at h
  unfold integerModuloNInt
  split at h
  · cases h
  · rename_i hn
    obtain rfl := Except.ok.inj h
    have hd : n ∣ Int.fmod v n - v := ⟨-Int.fdiv v n, by have := Int.mul_fdiv_add_fmod v n; linarith⟩
    have hr : 0 ≤ Int.fmod v n ∧ Int.fmod v n < n ∨ n < Int.fmod v n ∧ Int.fmod v n ≤ 0 := by
      rcases lt_or_gt_of_ne hn with h0 | h0
      · have h1 := Int.fmod_nonneg_of_pos (-v) (show 0 < -n by omega)
        have h2 := Int.fmod_lt_of_pos (-v) (show 0 < -n by omega)
        rw [Int.neg_fmod_neg] at h1 h2
        omega
      · exact Or.inl ⟨Int.fmod_nonneg_of_pos v h0, Int.fmod_lt_of_pos v h0⟩
    show Int.fmod v n = k ↔ _
    constructor
    · rintro rfl
      exact ⟨hr, (Int.modEq_iff_dvd.2 hd).symm⟩
    · rintro ⟨h1, h2⟩
      obtain ⟨c, hc⟩ : n ∣ Int.fmod v n - k := by
        have := dvd_add hd (Int.modEq_iff_dvd.1 h2)
        simpa using this
      have hlt : |n * c| < |n| := by
        rw [← hc, abs_lt]
        rcases abs_cases n with ⟨e, _⟩ | ⟨e, _⟩ <;> rw [e] <;> omega
      rw [abs_mul] at hlt
      have hc0 : c = 0 := by
        by_contra hne
        have : 1 ≤ |c| := Int.one_le_abs hne
        nlinarith [abs_nonneg n]
      rw [hc0] at hc
      omega

example : ∃ x, IntMod.mk? (-7) 5 = .ok x ∧ integerModuloNInt x = 3 := ⟨_, rfl, by decide⟩

/-! ## Polynomials -/

/-- The module paths printed for the classes of polynomials. -/
def printedPath : Basis → List Str
  | .monomial => ["polynomials_on_simplices".toList, "algebra".toList, "polynomial".toList, "polynomials_monomial_basis".toList, "Polynomial".toList]
  | .bernstein => ["polynomials_on_simplices".toList, "algebra".toList, "polynomial".toList, "polynomials_unit_simplex_bernstein_basis".toList,
      "PolynomialBernstein".toList]
  | .lagrange => ["polynomials_on_simplices".toList, "algebra".toList, "polynomial".toList, "polynomials_unit_simplex_lagrange_basis".toList,
      "PolynomialLagrange".toList]

theorem printedPath_ident (b : Basis) : ∀ s ∈ printedPath b, IsIdentifier s := by
  intro s hs
  cases b <;> simp only [printedPath, List.mem_cons, List.not_mem_nil, or_false] at hs <;> rcases hs with rfl | rfl | rfl | rfl | rfl
  all_goals exact ⟨⟨_, _, rfl, Or.inl (by decide)⟩, by decide⟩

theorem polynomialClass_eq (b : Basis) : polynomialClass b = join ".".toList (printedPath b) ++ "(".toList := by
  cases b <;> rfl

theorem getDimension_symm (r m : Nat) : getDimension r m = getDimension m r := by
  unfold getDimension
  rw [Nat.add_comm]
  exact Nat.choose_symm_add

/-- **C79** `repr` of a polynomial (for coefficients printed as one bracketed text) is a call whose second and third arguments are the dimension of the
domain and the degree, while the parameters of the constructor are the degree and the dimension. As the number of coefficients is symmetric in degree and
dimension, evaluating the text does not fail (for up to 19 dimensions) but gives a polynomial with degree and dimension exchanged: the same polynomial only
if the two agree. -/
theorem C79_polynomial_repr {V : Type} [AddCommGroup V] (coeffStr : List V → Str) (p : Obj V) (hp : p.Valid) {tc : List Tok} (hc : tokens (coeffStr p.coeff) = some tc)
    (hlast : tc.getLast? = some .rbrk) (hsplit : splitCommas 0 [] tc = [tc]) :
    callTokens (polynomialRepr coeffStr p) = some (printedPath p.basis, [tc, [.int p.m], [.int p.r]]) ∧
    (p.m ≤ 19 → ∃ q, Obj.new p.basis p.coeff (some p.m) p.r = .ok q ∧ q.r = p.m ∧ q.m = p.r ∧ (q = p ↔ p.r = p.m)) := by
  constructor
  · have hx := lx_of_tokens hc (by rw [hlast]; simp)
    have h := callTokens_eq (path := printedPath p.basis) (by cases p.basis <;> simp [printedPath]) (printedPath_ident _)
      (Lx.mid (Lx.mid hx mid_comma (lx_natStr p.m)) mid_comma (lx_natStr p.r))
    have hi : items (tc ++ [.comma] ++ [.int p.m] ++ [.comma] ++ [.int p.r]) = [tc, [.int p.m], [.int p.r]] := by
      have h1 := splitCommas_append hsplit (tokens_endDepth hc) [.int p.m, .comma, .int p.r]
      have h2 : splitCommas 0 [] (tc ++ [.comma] ++ [.int p.m] ++ [.comma] ++ [.int p.r]) = [tc, [.int p.m], [.int p.r]] := by
        simpa [splitCommas] using h1
      unfold items
      simp only [h2]
      simp
    rw [hi] at h
    rw [← h]
    congr 1
    simp [polynomialRepr, polynomialClass_eq]
  · intro hm
    obtain ⟨h1, h2⟩ := (valid_iff p).1 hp
    refine ⟨⟨p.basis, p.coeff, p.m, p.r⟩, new_ok _ _ _ _ ?_ (Or.inr hm), rfl, rfl, ?_⟩
    · rw [h1, getDimension_symm]
    · cases p
      simp only [Obj.mk.injEq, true_and]
      omega

/-! ## Iteration over components -/

theorem forLoop_ok {α : Type} {n : Nat} (hn : n ≠ 1) (component : Fin n → Py α) (c : Fin n → α) (hc : ∀ i, component i = .ok (c i)) :
    ∀ (k i fuel : Nat), i + k = n → k < fuel → forLoop fuel (⟨component, i⟩ : ComponentsIterator α n) = .ok ((List.ofFn c).drop i)
  | 0, i, fuel + 1, h, hf => by
    have : iterNext (⟨component, i⟩ : ComponentsIterator α n) = .error .stopIteration := by
      simp [iterNext, polynomialLen, hn, show n ≤ i by omega]
    rw [forLoop, this, List.drop_of_length_le (by simp; omega)]
  | k + 1, i, fuel + 1, h, hf => by
    have hi : i < n := by omega
    have : iterNext (⟨component, i⟩ : ComponentsIterator α n) = .ok (c ⟨i, hi⟩, ⟨component, i + 1⟩) := by
      simp [iterNext, polynomialLen, hn, getItem, hc, hi, show ¬ n ≤ i by omega]
    rw [forLoop, this]
    simp only
    rw [forLoop_ok hn component c hc k (i + 1) fuel (by omega) (by omega), Py.bind_ok, List.drop_eq_getElem_cons (i := i) (by simpa using hi)]
    simp

/-- **C79** Iterating over a vector valued polynomial gives its `n` components, in order, as polynomials in the same basis with the same degree, and then
stops. -/
theorem C79_iterate {K : Type} [Field K] [DecidableEq K] [CharZero K] {n : Nat} (hn : 2 ≤ n) {p : Obj (Fin n → K)} {m : Nat} {f : (Fin m → K) → Fin n → K}
    (hp : Represents p m f) (fuel : Nat) (hf : n < fuel) :
    polynomialLen n = .ok n ∧ ∃ c : Fin n → Obj K, components fuel p.component = .ok (List.ofFn c) ∧
      ∀ i, Represents (c i) m (fun x => f x i) ∧ (c i).basis = p.basis ∧ (c i).r = p.r := by
  choose s a1 a2 a3 a4 using fun j => component_rep hp j
  refine ⟨if_neg (by omega), s, ?_, fun i => ⟨a2 i, a3 i, a4 i⟩⟩
  unfold components iterNew
  rw [show decide (n > 1) = true by simp; omega]
  simp only [pyAssert_true, Py.bind_ok, Py.pure_eq]
  exact forLoop_ok (by omega) _ s a1 n 0 fuel (by omega) hf

/-- **C79** The same for polynomials on a simplex. -/
theorem C79_iterate_simplex {K : Type} [Field K] [DecidableEq K] [CharZero K] {n m : Nat} (hn : 2 ≤ n) {p : SPoly.SObj K (Fin n → K) m}
    {v : Simplex.Vertices K m m} {f : (Fin m → K) → Fin n → K} (hp : SPoly.RepresentsOn p v f) (fuel : Nat) (hf : n < fuel) :
    ∃ c : Fin n → SPoly.SObj K K m, components fuel p.component = .ok (List.ofFn c) ∧
      ∀ i, SPoly.RepresentsOn (c i) v (fun x => f x i) ∧ (c i).poly.basis = p.poly.basis ∧ (c i).poly.r = p.poly.r := by
  choose s a1 a2 a3 a4 using fun j => SPoly.component_repOn hp j
  refine ⟨s, ?_, fun i => ⟨a2 i, a3 i, a4 i⟩⟩
  unfold components iterNew
  rw [show decide (n > 1) = true by simp; omega]
  simp only [pyAssert_true, Py.bind_ok, Py.pure_eq]
  exact forLoop_ok (by omega) _ s a1 n 0 fuel (by omega) hf

/-- **C79** A scalar valued polynomial has no length (TypeError) and cannot be iterated over (AssertionError); an index outside of `0, …, n - 1` is
rejected (AssertionError), in particular a negative one. -/
theorem C79_no_components {α : Type} (component : Fin 1 → Py α) (fuel : Nat) :
    polynomialLen 1 = .error .type ∧ components fuel component = .error .assertion ∧
    ∀ {n : Nat} (comp : Fin n → Py α) (i : Int), ¬ (0 ≤ i ∧ i < n) → getItem comp i = .error .assertion := by
  refine ⟨rfl, rfl, fun comp i h => ?_⟩
  unfold getItem
  by_cases hi : 0 ≤ i
  · simp only [ge_iff_le, hi, decide_true, pyAssert_true, Py.bind_ok]
    rw [dif_neg (by omega)]
  · simp [hi]

/-! ## Examples -/

/-- The texts are those of Python. -/
example : multiIndexRepr [2, 0, 11] = "polynomials_on_simplices.algebra.multiindex.MultiIndex([2, 0, 11])".toList := by decide
example : multiIndexStr [2, 0, 11] = "(2, 0, 11)".toList ∧ multiIndexStr [7] = "(7,)".toList ∧ multiIndexStr [] = "()".toList := by decide
example : permutationRepr [1, 0] = "polynomials_on_simplices.algebra.permutations.Permutation((1, 0))".toList ∧ permutationStr [1, 0] = "(2, 1)".toList := by decide
example : integerModuloNRepr ⟨2, 3⟩ = "polynomials_on_simplices.algebra.modular_arithmetic.IntegerModuloN(2, 3)".toList ∧
    integerModuloNStr ⟨2, 3⟩ = "2_3".toList := by decide

/-- The reader rejects other texts. -/
example : literal "(7)".toList = some (.int 7) ∧ literal "(7,)".toList = some (.tuple [7]) ∧ literal "[7 8]".toList = none := by
  refine ⟨?_, ?_, ?_⟩ <;> simp [literal, tokens, scan, step, advance, flush, start, readVal, bracketed, readInt, items, splitCommas, digit] 

/-- The hypotheses of `C79_multiindex_arguments_error`, `C79_integermodulon_repr` and `C79_integermodulon_hash` are met. -/
example : multiIndexInit [.int 3, .list [1], .int (-1)] = .error .type ∧ multiIndexInit [.int (-3), .tuple [1]] = .error .value := ⟨rfl, rfl⟩
example : IntMod.mk? (-7) 3 = .ok ⟨2, 3⟩ ∧ IntMod.mk? 7 (-3) = .ok ⟨-2, -3⟩ := ⟨rfl, rfl⟩
example : (IntMod.red 7 3).eq (.int 1) = .ok true ∧ (IntMod.red 7 3).eq (.mod (IntMod.red 1 3)) = .ok true := ⟨rfl, rfl⟩

/-- The coefficients of `1 + 2 x₁ + 3 x₂` as NumPy prints them meet the hypotheses of `C79_polynomial_repr`; the polynomial in two variables of degree one
becomes a polynomial in one variable of degree two. -/
example : ∃ q, Obj.new .monomial [(1 : ℚ), 2, 3] (some 2) 1 = .ok q ∧ q.r = 2 ∧ q.m = 1 ∧ q ≠ ⟨.monomial, [1, 2, 3], 1, 2⟩ := by
  have hv : (⟨.monomial, [1, 2, 3], 1, 2⟩ : Obj ℚ).Valid := (valid_iff _).2 ⟨rfl, Or.inr (by decide)⟩
  have ht : tokens "[1. 2. 3.]".toList = some [.lbrk, .float (1 / 10 ^ 0), .float (2 / 10 ^ 0), .float (3 / 10 ^ 0), .rbrk] := by
    simp [tokens, scan, step, advance, flush, start, digit]
  obtain ⟨q, h1, h2, h3, h4⟩ := (C79_polynomial_repr (fun _ => "[1. 2. 3.]".toList) _ hv ht rfl rfl).2 (by decide)
  refine ⟨q, h1, h2, h3, fun h => ?_⟩
  have := h4.1 h
  exact absurd this (by decide)

/-- A vector valued polynomial. -/
example : ∃ c : Fin 2 → Obj ℚ, components 3 (⟨.monomial, [![1, 2], ![3, 4]], 1, 1⟩ : Obj (Fin 2 → ℚ)).component = .ok (List.ofFn c) := by
  have hv : (⟨.monomial, [![1, 2], ![3, 4]], 1, 1⟩ : Obj (Fin 2 → ℚ)).Valid := (valid_iff _).2 ⟨rfl, Or.inr (by decide)⟩
  obtain ⟨f, hf⟩ := hv.rep (K := ℚ)
  obtain ⟨-, c, h, -⟩ := C79_iterate (by decide) hf 3 (by decide)
  exact ⟨c, h⟩

end Verif.Props
