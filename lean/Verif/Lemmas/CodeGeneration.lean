import Verif.Lemmas.PyExpr
import Verif.Lemmas.PolyRep
import Verif.Props.StrUtils
/-!
# The texts made by the code generators
-/

namespace Verif.PyExpr
open Verif Verif.Str Verif.CodeGen Verif.Poly Verif.MI

variable {K : Type} [Field K] {env : Env K}

/-! ## Basis functions -/

theorem txt_x {v : K} (h : env "x".toList = some (.num v)) : Txt env .atom "x".toList v := ⟨_, lx_letter 'x' (by decide) (by decide), .name h⟩

theorem txt_subscript (c : Char) (hd : c.isDigit = false) (ha : c.isAlpha = true) {l : List K} (h : env [c] = some (.list l)) (i : Nat) (hi : i < l.length) :
    Txt env .atom ([c] ++ "[".toList ++ natStr i ++ "]".toList) l[i] :=
  ⟨_, lx_subscript c hd ha i, .index i h (List.getElem?_eq_getElem hi)⟩

theorem forall₂_sequence (c : Char) (hd : c.isDigit = false) (ha : c.isAlpha = true) {l : List K} (h : env [c] = some (.list l)) :
    List.Forall₂ (Txt env .atom) (strSequence [c] l.length) l := by
  rw [List.forall₂_iff_get]
  refine ⟨by simp [strSequence], fun i h1 h2 => ?_⟩
  simp only [strSequence, List.get_eq_getElem, List.getElem_map, List.getElem_range]
  exact txt_subscript c hd ha h i (by simpa using h2)

theorem forall₂_powers {vs : List Str} {l : List K} (h : List.Forall₂ (Txt env .atom) vs l) (ν : List Nat) :
    List.Forall₂ (Txt env .term) (List.zipWith (fun v (k : Nat) => strExponent v (natStr k)) vs ν) (List.zipWith (· ^ ·) l ν) := by
  induction h generalizing ν with
  | nil => exact List.Forall₂.nil
  | cons h1 _ ih =>
    cases ν with
    | nil => exact List.Forall₂.nil
    | cons k ν => exact List.Forall₂.cons (txt_strExponent h1 k) (ih ν)

theorem lookup_mem {β : Type} {l : List (List Nat × β)} {k : List Nat} {v : β} (h : l.lookup k = some v) : (k, v) ∈ l := by
  induction l with
  | nil => exact absurd h (by simp)
  | cons e l ih =>
    obtain ⟨a, b⟩ := e
    rw [List.lookup_cons] at h
    cases hk : k == a with
    | true =>
      rw [hk] at h
      simp only at h
      rw [LawfulBEq.eq_of_beq hk, ← Option.some.inj h]
      exact List.mem_cons_self
    | false =>
      rw [hk] at h
      exact List.mem_cons_of_mem _ (ih h)

/-- The general rule of `generate_monomial_basis_fn` for several variables. -/
def monomialGeneral (nu : List Nat) : Str :=
  strMultiProduct (List.zipWith (fun v (k : Nat) => strExponent v (natStr k)) (strSequence "x".toList nu.length) nu) "*".toList

theorem cache1_rule : ∀ e ∈ monomialCache1, e.2 = strExponent "x".toList (natStr (e.1.headD 0)) := by decide
theorem cache2_rule : ∀ e ∈ monomialCache2, e.2 = monomialGeneral e.1 := by decide
theorem cache3_rule : ∀ e ∈ monomialCache3, e.2 = monomialGeneral e.1 := by decide

theorem monomialBasisFnText_one (k : Nat) : monomialBasisFnText [k] = strExponent "x".toList (natStr k) := by
  unfold monomialBasisFnText
  simp only
  cases h : monomialCache1.lookup [k] with
  | none => rfl
  | some s => exact cache1_rule _ (lookup_mem h)

theorem monomialBasisFnText_general (nu : List Nat) (h : nu.length ≠ 1) : monomialBasisFnText nu = monomialGeneral nu := by
  unfold monomialBasisFnText
  split
  · exact absurd rfl h
  · have key : ∀ s, (if nu.length = 2 then monomialCache2.lookup nu else if nu.length ≤ 3 then monomialCache3.lookup nu else none) = some s →
        s = monomialGeneral nu := by
      intro s hs
      by_cases h2 : nu.length = 2
      · rw [if_pos h2] at hs
        exact cache2_rule _ (lookup_mem hs)
      · rw [if_neg h2] at hs
        by_cases h3 : nu.length ≤ 3
        · rw [if_pos h3] at hs
          exact cache3_rule _ (lookup_mem hs)
        · rw [if_neg h3] at hs
          exact absurd hs (by simp)
    simp only
    cases hc : (if nu.length = 2 then monomialCache2.lookup nu else if nu.length ≤ 3 then monomialCache3.lookup nu else none) with
    | none => rfl
    | some s => exact key s hc

omit [Field K] in
theorem pointArg_ne {x : List K} (h : x.length ≠ 1) : pointArg x = .list x := by
  cases x with
  | nil => rfl
  | cons a x =>
    cases x with
    | nil => exact absurd rfl h
    | cons b x => rfl

theorem txt_monomialBasisFn {x : List K} (hx : env "x".toList = some (pointArg x)) {ν : List Nat} (h : ν.length = x.length) :
    Txt env .term (monomialBasisFnText ν) (Spec.monomial x ν) := by
  by_cases h1 : ν.length = 1
  · obtain ⟨k, rfl⟩ := List.length_eq_one_iff.1 h1
    obtain ⟨v, rfl⟩ := List.length_eq_one_iff.1 (h ▸ h1)
    rw [monomialBasisFnText_one, show Spec.monomial [v] [k] = v ^ k by simp [Spec.monomial]]
    exact txt_strExponent (txt_x hx) k
  · rw [monomialBasisFnText_general ν h1]
    rw [pointArg_ne (by omega)] at hx
    unfold monomialGeneral Spec.monomial
    rw [h]
    exact txt_strMultiProduct (forall₂_powers (forall₂_sequence 'x' (by decide) (by decide) hx) ν)

theorem forall₂_map_mem {α β γ : Type} {R : β → γ → Prop} {f : α → β} {g : α → γ} (l : List α) (h : ∀ a ∈ l, R (f a) (g a)) :
    List.Forall₂ R (l.map f) (l.map g) := by
  induction l with
  | nil => exact List.Forall₂.nil
  | cons a l ih => exact List.Forall₂.cons (h a List.mem_cons_self) (ih (fun b hb => h b (List.mem_cons_of_mem _ hb)))

theorem forall₂_monomialBasis {x : List K} (hx : env "x".toList = some (pointArg x)) (r : Nat) :
    List.Forall₂ (Txt env .term) (monomialBasisText x.length r) ((mis x.length r).map (Spec.monomial x)) := by
  unfold monomialBasisText
  rw [generateAll_eq_mis]
  exact forall₂_map_mem _ (fun ν hν => txt_monomialBasisFn hx (mem_mis.1 hν).1)

theorem intStr_ofNat (n : Nat) : intStr (n : Int) = natStr n := rfl

theorem txt_barycentricBasisFn {x : List K} (hx : env "x".toList = some (pointArg x)) {ν : List Nat} (h : ν.length = x.length) {r : Nat} (hr : ν.sum ≤ r) :
    Txt env .term (barycentricBasisFnText ν r) (Spec.monomial x ν * (1 - x.sum) ^ (r - ν.sum)) := by
  by_cases h1 : ν.length = 1
  · obtain ⟨k, rfl⟩ := List.length_eq_one_iff.1 h1
    obtain ⟨v, rfl⟩ := List.length_eq_one_iff.1 (h ▸ h1)
    rw [show Spec.monomial [v] [k] = v ^ k by simp [Spec.monomial]]
    simp only [List.sum_singleton] at hr ⊢
    unfold barycentricBasisFnText
    simp only
    rw [← Nat.cast_sub hr, intStr_ofNat]
    refine txt_strProduct (txt_strExponent (txt_x hx) k) (txt_strExponent ?_ _)
    have hs : Txt env .sum "1 - x".toList (1 - v) := by
      have := txt_strSum txt_one.term.sum (txt_x hx).factor.neg.termOf.sum
      rwa [← sub_eq_add_neg] at this
    exact hs.paren
  · rw [pointArg_ne (by omega)] at hx
    unfold barycentricBasisFnText
    split
    · exact absurd rfl h1
    · simp only
      rw [show (MI.norm ν : Int) = ((ν.sum : Nat) : Int) from rfl, ← Nat.cast_sub hr, intStr_ofNat, h]
      have hseq := forall₂_sequence 'x' (by decide) (by decide) hx
      refine txt_strProduct (txt_strMultiProduct (forall₂_powers hseq ν)) (txt_strExponent ?_ _)
      have hs : Txt env .sum (strMultiSum ("1".toList :: (strSequence "x".toList x.length).map (fun v => '-' :: v))) ((1 : K) :: x.map (fun v => -v)).sum := by
        refine txt_strMultiSum (List.Forall₂.cons txt_one.term.sum ?_)
        rw [List.forall₂_map_left_iff, List.forall₂_map_right_iff]
        exact hseq.imp (fun _ _ hv => hv.factor.neg.termOf.sum)
      have hsum : ((1 : K) :: x.map (fun v => -v)).sum = 1 - x.sum := by
        rw [List.sum_cons, sub_eq_add_neg]
        congr 1
        clear hx h hseq hs
        induction x with
        | nil => simp
        | cons a x ih => rw [List.map_cons, List.sum_cons, List.sum_cons, ih]; ring
      rw [hsum] at hs
      exact hs.paren

theorem forall₂_barycentricBasis {x : List K} (hx : env "x".toList = some (pointArg x)) (r : Nat) :
    List.Forall₂ (Txt env .term) (barycentricBasisText x.length r)
      ((mis x.length r).map (fun ν => Spec.monomial x ν * (1 - x.sum) ^ (r - ν.sum))) := by
  unfold barycentricBasisText
  rw [generateAll_eq_mis]
  exact forall₂_map_mem _ (fun ν hν => txt_barycentricBasisFn hx (mem_mis.1 hν).1 (mem_mis.1 hν).2)

/-! ## Horner's rule -/

theorem start_sign {d : Nat} {c : Char} {ts : List Tok} {d' : Nat} {p : Pend} (h : start d c = some (ts, d', p)) :
    (.plus ∈ ts → c = '+') ∧ (.minus ∈ ts → c = '-') := by
  unfold start at h
  by_cases hc : c.isDigit = true
  · rw [if_pos hc] at h
    simp only [Option.some.injEq, Prod.mk.injEq] at h
    obtain ⟨rfl, rfl, rfl⟩ := h
    simp
  rw [if_neg hc] at h
  clear hc
  by_cases hc : (c.isAlpha || c = '_') = true
  · rw [if_pos hc] at h
    simp only [Option.some.injEq, Prod.mk.injEq] at h
    obtain ⟨rfl, rfl, rfl⟩ := h
    simp
  rw [if_neg hc] at h
  clear hc
  by_cases hc : c = ' '
  · rw [if_pos hc] at h
    simp only [Option.some.injEq, Prod.mk.injEq] at h
    obtain ⟨rfl, rfl, rfl⟩ := h
    simp
  rw [if_neg hc] at h
  clear hc
  by_cases hc : c = '\n'
  · rw [if_pos hc] at h
    by_cases hd : 0 < d
    · rw [if_pos hd] at h
      simp only [Option.some.injEq, Prod.mk.injEq] at h
      obtain ⟨rfl, rfl, rfl⟩ := h
      simp
    · rw [if_neg hd] at h
      exact absurd h (by simp)
  rw [if_neg hc] at h
  clear hc
  by_cases hc : c = '+'
  · rw [if_pos hc] at h
    simp only [Option.some.injEq, Prod.mk.injEq] at h
    obtain ⟨rfl, rfl, rfl⟩ := h
    simp [hc]
  rw [if_neg hc] at h
  clear hc
  by_cases hc : c = '-'
  · rw [if_pos hc] at h
    simp only [Option.some.injEq, Prod.mk.injEq] at h
    obtain ⟨rfl, rfl, rfl⟩ := h
    simp [hc]
  rw [if_neg hc] at h
  clear hc
  by_cases hc : c = '*'
  · rw [if_pos hc] at h
    simp only [Option.some.injEq, Prod.mk.injEq] at h
    obtain ⟨rfl, rfl, rfl⟩ := h
    simp
  rw [if_neg hc] at h
  clear hc
  by_cases hc : c = '/'
  · rw [if_pos hc] at h
    simp only [Option.some.injEq, Prod.mk.injEq] at h
    obtain ⟨rfl, rfl, rfl⟩ := h
    simp
  rw [if_neg hc] at h
  clear hc
  by_cases hc : c = '('
  · rw [if_pos hc] at h
    simp only [Option.some.injEq, Prod.mk.injEq] at h
    obtain ⟨rfl, rfl, rfl⟩ := h
    simp
  rw [if_neg hc] at h
  clear hc
  by_cases hc : c = ')'
  · rw [if_pos hc] at h
    by_cases hd : 0 < d
    · rw [if_pos hd] at h
      simp only [Option.some.injEq, Prod.mk.injEq] at h
      obtain ⟨rfl, rfl, rfl⟩ := h
      simp
    · rw [if_neg hd] at h
      exact absurd h (by simp)
  rw [if_neg hc] at h
  clear hc
  by_cases hc : c = '['
  · rw [if_pos hc] at h
    simp only [Option.some.injEq, Prod.mk.injEq] at h
    obtain ⟨rfl, rfl, rfl⟩ := h
    simp
  rw [if_neg hc] at h
  clear hc
  by_cases hc : c = ']'
  · rw [if_pos hc] at h
    by_cases hd : 0 < d
    · rw [if_pos hd] at h
      simp only [Option.some.injEq, Prod.mk.injEq] at h
      obtain ⟨rfl, rfl, rfl⟩ := h
      simp
    · rw [if_neg hd] at h
      exact absurd h (by simp)
  rw [if_neg hc] at h
  clear hc
  by_cases hc : c = ','
  · rw [if_pos hc] at h
    simp only [Option.some.injEq, Prod.mk.injEq] at h
    obtain ⟨rfl, rfl, rfl⟩ := h
    simp
  rw [if_neg hc] at h
  clear hc
  by_cases hc : c = '.'
  · rw [if_pos hc] at h
    simp only [Option.some.injEq, Prod.mk.injEq] at h
    obtain ⟨rfl, rfl, rfl⟩ := h
    simp
  rw [if_neg hc] at h
  clear hc
  exact absurd h (by simp)

theorem step_sign {st st' : Scan} {c : Char} (h : step st c = some st') {t : Tok} {ch : Char} (ht : t = .plus ∧ ch = '+' ∨ t = .minus ∧ ch = '-')
    (hm : t ∈ st'.out) : t ∈ st.out ∨ c = ch := by
  unfold step at h
  cases h1 : advance st.pend c with
  | some p => rw [h1] at h; rw [← Option.some.inj h] at hm; exact Or.inl hm
  | none =>
    rw [h1] at h
    simp only at h
    cases h2 : flush st.pend with
    | none => rw [h2] at h; exact absurd h (by simp)
    | some ts =>
      rw [h2] at h
      cases h3 : start st.depth c with
      | none => rw [h3] at h; exact absurd h (by simp)
      | some e =>
        obtain ⟨ts', d, p⟩ := e
        rw [h3] at h
        have h := Option.some.inj h
        subst h
        simp only [List.mem_append] at hm
        rcases hm with (hm | hm) | hm
        · exact Or.inl hm
        · exfalso
          cases hp : st.pend <;> rw [hp] at h2 <;> simp [flush] at h2 <;> subst h2 <;> rcases ht with ⟨rfl, -⟩ | ⟨rfl, -⟩ <;> simp at hm
        · right
          rcases ht with ⟨rfl, rfl⟩ | ⟨rfl, rfl⟩
          · exact (start_sign h3).1 hm
          · exact (start_sign h3).2 hm

theorem scan_sign {st st' : Scan} {s : Str} (h : scan st s = some st') {t : Tok} {ch : Char} (ht : t = .plus ∧ ch = '+' ∨ t = .minus ∧ ch = '-')
    (hm : t ∈ st'.out) : t ∈ st.out ∨ ch ∈ s := by
  induction s generalizing st with
  | nil => rw [← Option.some.inj h] at hm; exact Or.inl hm
  | cons c s ih =>
    rw [scan_cons] at h
    cases h1 : step st c with
    | none => rw [h1] at h; exact absurd h (by simp)
    | some st1 =>
      rw [h1] at h
      rcases ih h with h2 | h2
      · rcases step_sign h1 ht h2 with h3 | h3
        · exact Or.inl h3
        · right; rw [h3]; exact List.mem_cons_self
      · exact Or.inr (List.mem_cons_of_mem _ h2)

theorem Lx.sign {s : Str} {ts : List Tok} (h : Lx s ts) {t : Tok} {ch : Char} (ht : t = .plus ∧ ch = '+' ∨ t = .minus ∧ ch = '-') (hm : t ∈ ts) : ch ∈ s := by
  obtain ⟨o', p, t', h1, h2, h3, rfl⟩ := h [] 0
  rcases List.mem_append.1 hm with hm | hm
  · rcases scan_sign h1 ht (by simpa using hm) with h4 | h4
    · exact absurd h4 (by simp)
    · exact h4
  · exfalso
    cases p <;> simp [flush] at h2 <;> subst h2 <;> rcases ht with ⟨rfl, -⟩ | ⟨rfl, -⟩ <;> simp at hm

/-- A sum that is put in parentheses if it contains a sign can be a factor. -/
theorem txt_parenthesise {s : Str} {v : K} (h : Txt env .sum s v) : Txt env .term (parenthesise s) v := by
  unfold parenthesise
  by_cases hs : '+' ∈ s ∨ '-' ∈ s
  · rw [if_pos hs]
    exact h.paren.term
  · rw [if_neg hs]
    obtain ⟨ts, h1, h2⟩ := h
    refine ⟨ts, h1, h2.term_of_sum (fun hm => hs (Or.inl (h1.sign (Or.inl ⟨rfl, rfl⟩) hm))) (fun hm => hs (Or.inr (h1.sign (Or.inr ⟨rfl, rfl⟩) hm)))⟩

/-- The value of `x * (c + x * (...))`. -/
def hornerVal (x : K) : K → List K → K
  | c, [] => x * c
  | c, d :: l => x * (c + hornerVal x d l)

theorem txt_hornerRec {x : K} (hx : env "x".toList = some (.num x)) {l : List Str} {vs : List K} (h : List.Forall₂ (Txt env .term) l vs) :
    ∀ {a : Str} {c : K}, Txt env .term a c → Txt env .term (hornerRec a l) (hornerVal x c vs) := by
  induction h with
  | nil => intro a c h; exact txt_strProduct (txt_x hx).term h
  | cons h1 _ ih =>
    intro a c h
    have hn := txt_strSum h.sum (ih h1).sum
    simp only [hornerRec, hornerVal]
    generalize strSum a (hornerRec _ _) = nested at hn ⊢
    generalize c + hornerVal x _ _ = w at hn ⊢
    by_cases h0 : nested ≠ "0".toList
    · rw [if_pos h0]
      by_cases h2 : nested = "1".toList
      · rw [if_pos h2]
        rw [h2] at hn
        rw [hn.one_eq, mul_one]
        exact (txt_x hx).term
      · rw [if_neg h2]
        have hp := txt_strProduct (txt_x hx).term (txt_parenthesise hn)
        unfold parenthesise at hp
        by_cases h3 : '+' ∈ nested ∨ '-' ∈ nested
        · rw [if_pos h3] at hp ⊢
          exact hp
        · rw [if_neg h3] at hp ⊢
          exact hp
    · rw [if_neg h0]
      rw [not_not] at h0
      rw [h0] at hn
      rw [hn.zero_eq, mul_zero]
      exact txt_zero.term

theorem hornerVal_eq (x : K) : ∀ (l : List K) (c : K) (k : Nat),
    x ^ k * hornerVal x c l = (List.zipWith (fun (i : Nat) a => x ^ i * a) (List.range' (k + 1) (l.length + 1)) (c :: l)).sum := by
  intro l
  induction l with
  | nil => intro c k; simp [hornerVal]; ring
  | cons d l ih =>
    intro c k
    simp only [hornerVal]
    rw [List.length_cons, List.range'_succ, List.zipWith_cons_cons, List.sum_cons, ← ih d (k + 1)]
    ring

theorem txt_horner {x : K} (hx : env "x".toList = some (.num x)) {l : List Str} {vs : List K} (h : List.Forall₂ (Txt env .term) l vs) (hne : l ≠ []) :
    ∃ s, horner l = .ok s ∧ Txt env .sum s (List.zipWith (fun (i : Nat) a => x ^ i * a) (List.range vs.length) vs).sum := by
  cases h with
  | nil => exact absurd rfl hne
  | cons h1 h2 =>
    rename_i a c l vs
    cases h2 with
    | nil => exact ⟨a, rfl, by simpa [List.range_succ] using h1.sum⟩
    | cons h3 h4 =>
      rename_i b d l vs
      refine ⟨_, rfl, ?_⟩
      have := txt_strSum h1.sum (txt_hornerRec hx h4 h3).sum
      have hv := hornerVal_eq x vs d 0
      rw [pow_zero, one_mul] at hv
      rw [hv] at this
      rw [List.length_cons, List.range_eq_range', List.range'_succ, List.zipWith_cons_cons, List.sum_cons, pow_zero, one_mul]
      exact this

/-! ## Expressions -/

theorem linComb_comm (b : List Nat → K) (νs : List (List Nat)) (c : List K) :
    Spec.linComb b νs c = (List.zipWith (· * ·) c (νs.map b)).sum := by
  unfold Spec.linComb
  congr 1
  rw [List.zipWith_map_right, List.zipWith_comm]
  congr 1
  funext a ν
  exact (mul_comm _ _)

theorem txt_monomialEval {x : List K} (hx : env "x".toList = some (pointArg x)) {r : Nat} {l : List Str} {vs : List K}
    (h : List.Forall₂ (Txt env .term) l vs) (hlen : l.length = getDimension r x.length) :
    ∃ s, monomialEval x.length r l = .ok s ∧ Txt env .sum s (Spec.linComb (Spec.monomial x) (mis x.length r) vs) := by
  have hne : l ≠ [] := by
    rintro rfl
    have := getDimension_pos r x.length
    simp at hlen
    omega
  unfold monomialEval
  rw [if_neg hne]
  by_cases h1 : x.length = 1
  · rw [if_pos h1]
    obtain ⟨v, rfl⟩ := List.length_eq_one_iff.1 h1
    obtain ⟨s, hs, ht⟩ := txt_horner (show env "x".toList = some (.num v) from hx) h hne
    refine ⟨s, hs, ?_⟩
    rw [show (Spec.linComb (Spec.monomial [v]) (mis [v].length r) vs : K) = (List.zipWith (fun (i : Nat) a => v ^ i * a) (List.range vs.length) vs).sum from ?_]
    · exact ht
    · have hl : vs.length = r + 1 := by rw [← h.length_eq, hlen]; exact getDimension_one r
      rw [show [v].length = 1 from rfl, mis_one, hl]
      unfold Spec.linComb
      rw [List.zipWith_map_left]
      congr 1
      congr 1
      funext i a
      simp [Spec.monomial]
  · rw [if_neg h1]
    rw [linComb_comm]
    have hb := forall₂_monomialBasis hx r
    exact txt_strDotProduct h hb (by rw [hlen, hb.length_eq, List.length_map, length_mis_eq])

theorem txt_barycentricEval {x : List K} (hx : env "x".toList = some (pointArg x)) {r : Nat} {l : List Str} {vs : List K}
    (h : List.Forall₂ (Txt env .term) l vs) (hlen : l.length = getDimension r x.length) :
    ∃ s, barycentricEval x.length r l = .ok s ∧
      Txt env .sum s (Spec.linComb (fun ν => Spec.monomial x ν * (1 - x.sum) ^ (r - ν.sum)) (mis x.length r) vs) := by
  have hne : l ≠ [] := by
    rintro rfl
    have := getDimension_pos r x.length
    simp at hlen
    omega
  unfold barycentricEval
  rw [if_neg hne]
  rw [linComb_comm]
  have hb := forall₂_barycentricBasis hx r
  exact txt_strDotProduct h hb (by rw [hlen, hb.length_eq, List.length_map, length_mis_eq])

end Verif.PyExpr
