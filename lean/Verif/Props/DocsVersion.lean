import Verif.Model.DocsVersion
import Mathlib.Tactic.Linarith
/-!
# C110: the version in the configuration of the documentation
-/

namespace Verif.DocsVersion
open Verif.DocsNames

/-! ## Lemmas -/

theorem replaceGo_skip (old new a b : Str) : replaceGo old new (a ++ b) a.length = replaceGo old new b 0 := by
  induction a with
  | nil => rfl
  | cons c a ih => exact ih

theorem replace_none {old new s : Str} (h : ¬ old <:+: s) : replaceGo old new s 0 = s := by
  induction s with
  | nil => rfl
  | cons c s ih =>
    rw [replaceGo, if_neg fun h' => h (List.isPrefixOf_iff_prefix.1 h').isInfix, ih fun h' => h (h'.trans (List.suffix_cons c s).isInfix)]

theorem replace_head (old new b : Str) (ho : old ≠ []) : replaceGo old new (old ++ b) 0 = new ++ replaceGo old new b 0 := by
  cases old with
  | nil => exact absurd rfl ho
  | cons c old =>
    rw [List.cons_append, replaceGo, if_pos (show (c :: old).isPrefixOf (c :: (old ++ b)) = true from List.isPrefixOf_iff_prefix.2 ⟨b, rfl⟩)]
    congr 1
    exact replaceGo_skip (c :: old) new old b

/-- A text without line breaks that occurs in two texts with a line break between them occurs in one of them. -/
theorem infix_lines {o x y : Str} (ho : '\n' ∉ o) (h : o <:+: x ++ '\n' :: y) : o <:+: x ∨ o <:+: y := by
  obtain ⟨u, v, h⟩ := h
  rw [List.append_assoc] at h
  rcases List.append_eq_append_iff.1 h with ⟨w, h1, h2⟩ | ⟨w, h1, h2⟩
  · rcases List.append_eq_append_iff.1 h2 with ⟨z, h3, h4⟩ | ⟨z, h3, h4⟩
    · exact .inl ⟨u, z, by rw [h1, h3, List.append_assoc]⟩
    · cases z with
      | nil => exact .inl ⟨u, [], by rw [h1, h3]; simp⟩
      | cons c z =>
        have : c = '\n' := (List.cons.inj h4).1.symm
        exact absurd (by rw [h3, this]; simp) ho
  · cases w with
    | nil =>
      cases o with
      | nil => exact .inl ⟨x, [], by simp⟩
      | cons c o =>
        have : c = '\n' := (List.cons.inj h2).1.symm
        exact absurd (by rw [this]; simp) ho
    | cons c w =>
      have : y = w ++ (o ++ v) := (List.cons.inj h2).2
      exact .inr ⟨w, v, by rw [this, List.append_assoc]⟩

theorem replace_lines {old new x y : Str} (ho : '\n' ∉ old) (hx : ¬ old <:+: x) : replaceGo old new (x ++ '\n' :: y) 0 = x ++ '\n' :: replaceGo old new y 0 := by
  induction x with
  | nil =>
    rw [List.nil_append, replaceGo, if_neg]
    · rfl
    · intro h
      cases old with
      | nil => exact hx (List.infix_refl _)
      | cons c old =>
        obtain ⟨t, ht⟩ := List.isPrefixOf_iff_prefix.1 h
        have : c = '\n' := (List.cons.inj ht).1
        exact ho (by rw [this]; simp)
  | cons c x ih =>
    rw [List.cons_append, replaceGo, if_neg, ih fun h => hx (h.trans (List.suffix_cons c x).isInfix)]
    · rfl
    · intro h
      obtain ⟨t, ht⟩ := List.isPrefixOf_iff_prefix.1 h
      have ht' : old ++ t = (c :: x) ++ '\n' :: y := ht
      rcases List.append_eq_append_iff.1 ht' with ⟨z, h3, h4⟩ | ⟨z, h3, h4⟩
      · exact hx ⟨[], z, by rw [h3]; rfl⟩
      · cases z with
        | nil => exact hx ⟨[], [], by rw [h3]; simp⟩
        | cons d z =>
          have : d = '\n' := (List.cons.inj h4).1.symm
          exact ho (by rw [h3, this]; simp)

/-- A line with a version that is not empty and has no quotation marks does not contain an empty version. -/
theorem no_empty_version {v : Str} (hv : '\'' ∉ v) (hne : v ≠ []) : ¬ "version = ''".toList <:+: "version = '".toList ++ v ++ "'".toList := by
  rintro ⟨u, w, h⟩
  have hc := congrArg (List.count '\'') h
  have hq : List.count '\'' v = 0 := List.count_eq_zero.2 hv
  have h1 : List.count '\'' "version = ''".toList = 2 := by decide
  have h2 : List.count '\'' "version = '".toList = 1 := by decide
  have h3 : List.count '\'' "'".toList = 1 := by decide
  rw [List.count_append, List.count_append, List.count_append, List.count_append, h1, h2, h3, hq] at hc
  have hw : '\'' ∉ w := List.count_eq_zero.1 (by omega)
  have hw' : w = [] := by
    rcases List.eq_nil_or_concat w with rfl | ⟨w', c, rfl⟩
    · rfl
    · have h' : (u ++ "version = ''".toList ++ w') ++ [c] = ("version = '".toList ++ v) ++ ['\''] := by simpa using h
      have := (List.append_inj' h' rfl).2
      exact absurd (by rw [List.concat_eq_append, List.singleton_inj.1 this]; simp) hw
  subst hw'
  rcases List.eq_nil_or_concat v with rfl | ⟨v', c, rfl⟩
  · exact hne rfl
  · have h' : (u ++ "version = ".toList ++ ['\'']) ++ ['\''] = ("version = '".toList ++ v' ++ [c]) ++ ['\''] := by simpa using h
    have h4 := (List.append_inj' h' rfl).1
    have := (List.append_inj' h4 rfl).2
    exact hv (by rw [List.concat_eq_append, ← List.singleton_inj.1 this]; simp)

/-! ## Properties -/

/-- **C110** If the empty version is a line of its own in `conf.py`, and the text does not occur elsewhere, this line gets the version that Git reports and nothing else is changed. -/
theorem C110_update (a b version : Str) (ha : ¬ "version = ''".toList <:+: a) (hb : ¬ "version = ''".toList <:+: b) :
    updateVersion (some (version ++ ['\n'])) (a ++ '\n' :: ("version = ''".toList ++ '\n' :: b)) =
      a ++ '\n' :: ("version = '".toList ++ version ++ "'".toList ++ '\n' :: b) := by
  have hn : '\n' ∉ "version = ''".toList := by decide
  unfold updateVersion gitDescription replace
  simp only [Option.map_some, List.dropLast_concat]
  rw [replace_lines hn ha, replace_head _ _ _ (by decide)]
  have h := replace_lines (new := "version = '".toList ++ version ++ "'".toList) (x := []) (y := b) hn (by decide)
  rw [List.nil_append] at h
  rw [h, replace_none hb, List.nil_append]

/-- **C110** The file stays as it is if Git reports no version, or if it does not contain an empty version. -/
theorem C110_unchanged (git : Option Str) (content : Str) (h : git = none ∨ ¬ "version = ''".toList <:+: content) : updateVersion git content = content := by
  unfold updateVersion gitDescription
  rcases h with rfl | h
  · rfl
  · cases git with
    | none => rfl
    | some out => exact replace_none h

/-- **C110** The version is only set once: after a run with one version, runs with other versions change nothing. -/
theorem C110_once (a b version : Str) (ha : ¬ "version = ''".toList <:+: a) (hb : ¬ "version = ''".toList <:+: b) (hv : '\'' ∉ version) (hne : version ≠ [])
    (git : Option Str) :
    updateVersion git (updateVersion (some (version ++ ['\n'])) (a ++ '\n' :: ("version = ''".toList ++ '\n' :: b))) =
      a ++ '\n' :: ("version = '".toList ++ version ++ "'".toList ++ '\n' :: b) := by
  have hn : '\n' ∉ "version = ''".toList := by decide
  rw [C110_update a b version ha hb]
  refine C110_unchanged git _ (.inr fun h => ?_)
  rcases infix_lines hn h with h | h
  · exact ha h
  · rcases infix_lines hn h with h | h
    · exact no_empty_version hv hne h
    · exact hb h

/-! ## Examples -/

/-- Part of `conf.py`. -/
example (version : Str) : updateVersion (some (version ++ ['\n'])) ("# The short X.Y version".toList ++ '\n' :: ("version = ''".toList ++ '\n' :: "release = version".toList)) =
    "# The short X.Y version".toList ++ '\n' :: ("version = '".toList ++ version ++ "'".toList ++ '\n' :: "release = version".toList) := by
  have hq : '\'' ∈ "version = ''".toList := by decide
  have h1 : '\'' ∉ "# The short X.Y version".toList := by decide
  have h2 : '\'' ∉ "release = version".toList := by decide
  exact C110_update _ _ version (fun h => h1 (h.subset hq)) (fun h => h2 (h.subset hq))

example : '\'' ∉ "v1.2".toList ∧ "v1.2".toList ≠ [] := by decide

end Verif.DocsVersion
