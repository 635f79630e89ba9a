import Verif.Spec.Latex
/-!
# There are no quotation marks in LaTeX formulas
-/

namespace Verif.Latex
open Verif Verif.Str

/-- A part of a text with a quotation mark. -/
def Tx.Quote : Tx → Prop
  | .chr c => c = '"'
  | .cmd w => '"' ∈ w

/-- A quotation mark has been read. -/
def Quoted (st : List Tx × Option Str) : Prop := (∃ t ∈ st.1, t.Quote) ∨ ∃ w, st.2 = some w ∧ '"' ∈ w

theorem texStart_quoted (o : List Tx) (c : Char) (h : (∃ t ∈ o, t.Quote) ∨ c = '"') : Quoted (texStart o c) := by
  unfold texStart
  rcases h with ⟨t, ht, hq⟩ | rfl
  · left
    split_ifs
    · exact ⟨t, ht, hq⟩
    · exact ⟨t, ht, hq⟩
    · exact ⟨t, List.mem_append_left _ ht, hq⟩
  · left
    rw [if_neg (by decide), if_neg (by decide)]
    exact ⟨.chr '"', by simp, rfl⟩

theorem texStep_quoted (st : List Tx × Option Str) (c : Char) (h : Quoted st ∨ c = '"') : Quoted (texStep st c) := by
  obtain ⟨o, w⟩ := st
  cases w with
  | none =>
    refine texStart_quoted o c ?_
    rcases h with (h | ⟨w, hw, -⟩) | h
    · exact Or.inl h
    · exact absurd hw (by simp)
    · exact Or.inr h
  | some w =>
    unfold texStep
    simp only
    split_ifs with h1 h2
    · rcases h with (h | ⟨w', hw, hq⟩) | rfl
      · exact Or.inl h
      · obtain rfl := Option.some.inj hw
        exact Or.inr ⟨_, rfl, List.mem_append_left _ hq⟩
      · exact absurd h1 (by decide)
    · rcases h with (⟨t, ht, hq⟩ | ⟨w', hw, hq⟩) | rfl
      · exact Or.inl ⟨t, List.mem_append_left _ ht, hq⟩
      · obtain rfl := Option.some.inj hw
        exact absurd hq (by simp [h2])
      · exact Or.inl ⟨.cmd ['"'], by simp, by simp [Tx.Quote]⟩
    · refine texStart_quoted _ c ?_
      rcases h with (⟨t, ht, hq⟩ | ⟨w', hw, hq⟩) | rfl
      · exact Or.inl ⟨t, List.mem_append_left _ ht, hq⟩
      · obtain rfl := Option.some.inj hw
        exact Or.inl ⟨.cmd w, by simp, hq⟩
      · exact Or.inr rfl

theorem texFold_quoted (s : Str) : ∀ (st : List Tx × Option Str), Quoted st ∨ '"' ∈ s → Quoted (s.foldl texStep st) := by
  induction s with
  | nil => rintro st (h | h); exacts [h, absurd h (by simp)]
  | cons c s ih =>
    intro st h
    rw [List.foldl_cons]
    apply ih
    rcases h with h | h
    · exact Or.inl (texStep_quoted st c (Or.inl h))
    · rcases List.mem_cons.1 h with rfl | h
      · exact Or.inl (texStep_quoted st _ (Or.inr rfl))
      · exact Or.inr h

theorem tex_quote (s : Str) (h : '"' ∈ s) : ∃ t ∈ tex s, t.Quote := by
  have h1 := texFold_quoted s ([], none) (Or.inr h)
  unfold tex
  generalize s.foldl texStep ([], none) = st at h1
  obtain ⟨o, w⟩ := st
  cases w with
  | none =>
    rcases h1 with h1 | ⟨w, hw, -⟩
    · exact h1
    · exact absurd hw (by simp)
  | some w =>
    rcases h1 with ⟨t, ht, hq⟩ | ⟨w', hw, hq⟩
    · exact ⟨t, List.mem_append_left _ ht, hq⟩
    · obtain rfl := Option.some.inj hw
      exact ⟨.cmd w, by simp, hq⟩

theorem advance_quote (p : Pend) (t : Tx) (h : t.Quote) : advance p t = none := by
  cases t with
  | cmd w =>
    cases p with
    | fn c s k => match k with
      | 0 => rfl
      | 1 => rfl
      | 2 => rfl
      | _ + 3 => rfl
    | _ => rfl
  | chr c =>
    obtain rfl : c = '"' := h
    cases p with
    | fn c s k => match k with
      | 0 => rfl
      | 1 => rfl
      | 2 => rfl
      | _ + 3 => rfl
    | _ => rfl

theorem start_quote (t : Tx) (h : t.Quote) : start t = none := by
  cases t with
  | cmd w =>
    unfold start
    simp only
    have : ∀ v : Str, '"' ∉ v → w ≠ v := fun v hv e => hv (e ▸ h)
    rw [if_neg (this _ (by decide)), if_neg (this _ (by decide)), if_neg (this _ (by decide)), if_neg (this _ (by decide)), if_neg (this _ (by decide)),
      if_neg (this _ (by decide))]
  | chr c =>
    obtain rfl : c = '"' := h
    rfl

theorem foldlM_quote : ∀ (ts : List Tx) (st : List Sym × Pend), (∃ t ∈ ts, t.Quote) → ts.foldlM step st = none
  | [], _, h => absurd h (by simp)
  | t :: ts, st, h => by
    rw [List.foldlM_cons]
    by_cases ht : t.Quote
    · have : step st t = none := by
        unfold step
        rw [advance_quote _ _ ht, start_quote _ ht]
        cases flush st.2 <;> rfl
      rw [this]
      rfl
    · have h' : ∃ t ∈ ts, t.Quote := by
        obtain ⟨u, hu, hq⟩ := h
        rcases List.mem_cons.1 hu with rfl | hu
        · exact absurd hq ht
        · exact ⟨u, hu, hq⟩
      cases hs : step st t with
      | none => rfl
      | some st' => exact foldlM_quote ts st' h'

/-- There are no quotation marks in formulas. -/
theorem lex_quote {s : Str} {l : List Sym} (h : lex s = some l) : '"' ∉ s := by
  intro hq
  unfold lex at h
  rw [foldlM_quote _ _ (tex_quote s hq)] at h
  exact absurd h (by simp)

end Verif.Latex
