import Verif.Spec.CodeStr
import Verif.Model.CodeStr
import Verif.Lemmas.CodeGeneration3
import Verif.Lemmas.PyExprUnique
/-!
# Lemmas about `code_str`
-/

namespace Verif.PyExpr
open Verif Verif.Str Verif.CodeGen Verif.Poly

variable {K : Type} [Field K]

/-! ## Replacement of text -/

theorem replaceGo_skip (old new : Str) : ∀ (s t : Str), replaceGo old new s.length (s ++ t) = replaceGo old new 0 t
  | [], _ => rfl
  | _ :: s, t => by
    rw [List.length_cons, List.cons_append, replaceGo]
    exact replaceGo_skip old new s t

theorem not_prefix_of_notMem {old s : Str} {c : Char} (hc : c ∈ old) (hs : c ∉ s) : old.isPrefixOf s = false := by
  by_contra h
  rw [Bool.not_eq_false, List.isPrefixOf_iff_prefix] at h
  exact hs (h.subset hc)

theorem replaceGo_none (old new : Str) {c : Char} (hc : c ∈ old) : ∀ (s : Str), c ∉ s → replaceGo old new 0 s = s
  | [], _ => rfl
  | d :: s, hs => by
    rw [replaceGo, not_prefix_of_notMem hc hs, if_neg (by simp), replaceGo_none old new hc s (fun h => hs (List.mem_cons_of_mem _ h))]

theorem replaceGo_hit (old new : Str) (hne : old ≠ []) (t : Str) : replaceGo old new 0 (old ++ t) = new ++ replaceGo old new 0 t := by
  obtain ⟨c, cs, rfl⟩ := List.exists_cons_of_ne_nil hne
  rw [List.cons_append, replaceGo, if_pos (by rw [List.isPrefixOf_iff_prefix]; exact ⟨t, by simp⟩)]
  congr 1
  exact replaceGo_skip _ _ cs t

/-! ## Underscores are parts of names -/

/-- A name with an underscore has been read. -/
def HasUnderscore (st : Scan) : Prop := (∃ n, Tok.name n ∈ st.out ∧ '_' ∈ n) ∨ ∃ n, st.pend = .name n ∧ '_' ∈ n

theorem advance_name {p : Pend} {c : Char} {p' : Pend} (h : advance p c = some p') : (∀ n, p = .name n → p' = .name (n ++ [c])) ∧ (c = '_' → ∃ n, p = .name n) := by
  cases p with
  | name s =>
    refine ⟨fun n hn => ?_, fun _ => ⟨s, rfl⟩⟩
    cases hn
    simp only [advance] at h
    split_ifs at h
    exact (Option.some.inj h).symm
  | idle => simp [advance] at h
  | pow => simp [advance] at h
  | int n => refine ⟨by simp, ?_⟩; rintro rfl; simp [advance] at h
  | frac n k => refine ⟨by simp, ?_⟩; rintro rfl; simp [advance] at h
  | exp0 n k => refine ⟨by simp, ?_⟩; rintro rfl; simp [advance] at h
  | exp1 n k s => refine ⟨by simp, ?_⟩; rintro rfl; simp [advance] at h
  | exp n k s e => refine ⟨by simp, ?_⟩; rintro rfl; simp [advance] at h
  | star => refine ⟨by simp, ?_⟩; rintro rfl; simp [advance] at h

theorem step_underscore {st st' : Scan} {c : Char} (h : step st c = some st') (hu : HasUnderscore st ∨ c = '_') : HasUnderscore st' := by
  unfold step at h
  cases h1 : advance st.pend c with
  | some p =>
    rw [h1] at h
    obtain ⟨h2, h3⟩ := advance_name h1
    rw [← Option.some.inj h]
    rcases hu with (hu | ⟨n, hn, hm⟩) | hu
    · exact Or.inl hu
    · exact Or.inr ⟨n ++ [c], h2 n hn, by simp [hm]⟩
    · obtain ⟨n, hn⟩ := h3 hu
      exact Or.inr ⟨n ++ [c], h2 n hn, by simp [hu]⟩
  | none =>
    rw [h1] at h
    simp only at h
    cases h2 : flush st.pend with
    | none => rw [h2] at h; exact absurd h (by simp)
    | some ts =>
      rw [h2] at h
      cases h3 : start st.depth c with
      | none => rw [h3] at h; exact absurd h (by simp)
      | some e =>
        obtain ⟨ts', d, p⟩ := e
        rw [h3] at h
        have h := Option.some.inj h
        subst h
        rcases hu with (⟨n, hn, hm⟩ | ⟨n, hn, hm⟩) | hu
        · exact Or.inl ⟨n, by simp [hn], hm⟩
        · rw [hn] at h2
          simp only [flush, Option.some.injEq] at h2
          exact Or.inl ⟨n, by simp [← h2], hm⟩
        · subst hu
          have : start st.depth '_' = some ([], st.depth, .name ['_']) := by simp [start]
          rw [this] at h3
          simp only [Option.some.injEq, Prod.mk.injEq] at h3
          exact Or.inr ⟨['_'], h3.2.2.symm, by simp⟩

theorem scan_underscore {st st' : Scan} {s : Str} (h : scan st s = some st') (hu : HasUnderscore st ∨ '_' ∈ s) : HasUnderscore st' := by
  induction s generalizing st with
  | nil =>
    rw [← Option.some.inj h]
    exact hu.resolve_right (by simp)
  | cons c s ih =>
    rw [scan_cons] at h
    cases h1 : step st c with
    | none => rw [h1] at h; exact absurd h (by simp)
    | some st1 =>
      rw [h1] at h
      refine ih h ?_
      rcases hu with hu | hu
      · exact Or.inl (step_underscore h1 (Or.inl hu))
      · rcases List.mem_cons.1 hu with hu | hu
        · exact Or.inl (step_underscore h1 (Or.inr hu.symm))
        · exact Or.inr hu

theorem tokens_underscore {s : Str} {ts : List Tok} (h : tokens s = some ts) (hu : '_' ∈ s) : ∃ n, Tok.name n ∈ ts ∧ '_' ∈ n := by
  unfold tokens at h
  cases h1 : scan ⟨[], 0, .idle⟩ s with
  | none => rw [h1] at h; exact absurd h (by simp)
  | some st =>
    rw [h1] at h
    have h2 := scan_underscore h1 (Or.inr hu)
    cases h3 : flush st.pend with
    | none => simp [h3] at h
    | some t =>
      simp only [h3, Option.bind_eq_bind, Option.bind_some] at h
      split_ifs at h
      have h := Option.some.inj h
      subst h
      rcases h2 with ⟨n, hn, hm⟩ | ⟨n, hn, hm⟩
      · exact ⟨n, by simp [hn], hm⟩
      · rw [hn] at h3
        simp only [flush, Option.some.injEq] at h3
        exact ⟨n, by simp [← h3], hm⟩

theorem Parses.names {env : Env K} {l : Level} {ts : List Tok} {v : K} (h : Parses env l ts v) : ∀ n, Tok.name n ∈ ts → (env n).isSome := by
  induction h with
  | add _ _ h1 h2 => intro n hn; simp at hn; rcases hn with hn | hn; exacts [h1 n hn, h2 n hn]
  | sub _ _ h1 h2 => intro n hn; simp at hn; rcases hn with hn | hn; exacts [h1 n hn, h2 n hn]
  | mul _ _ h1 h2 => intro n hn; simp at hn; rcases hn with hn | hn; exacts [h1 n hn, h2 n hn]
  | div _ _ _ h1 h2 => intro n hn; simp at hn; rcases hn with hn | hn; exacts [h1 n hn, h2 n hn]
  | name h => intro n hn; simp at hn; rw [hn, h]; rfl
  | index i h => intro n hn; simp at hn; rw [hn, h]; rfl
  | _ => simp_all

theorem ParsesSeq.names {env : Env K} {ts : List Tok} {vs : List K} (h : ParsesSeq env ts vs) : ∀ n, Tok.name n ∈ ts → (env n).isSome := by
  induction h with
  | one h => exact h.names
  | cons h1 _ h2 => intro n hn; simp at hn; rcases hn with hn | hn; exacts [h1.names n hn, h2 n hn]

theorem scope_name {v : Val K} {n : Str} (h : (scope v n).isSome) : '_' ∉ n := by
  unfold scope at h
  split_ifs at h with hn
  · rw [hn]; decide
  · simp at h

theorem denotes_underscore {v : Val K} {e : Str} {u : K} (h : Denotes (scope v) e u) : '_' ∉ e := by
  obtain ⟨ts, h1, h2⟩ := h
  intro hu
  obtain ⟨n, h3, h4⟩ := tokens_underscore h1 hu
  exact scope_name (h2.names n h3) h4

theorem denotesArray_underscore {v : Val K} {e : Str} {us : List K} (h : DenotesArray (scope v) e us) : '_' ∉ e := by
  obtain ⟨ts, h1, h2⟩ := h
  intro hu
  obtain ⟨n, h3, h4⟩ := tokens_underscore h1 hu
  simp only [List.cons_append, List.nil_append, List.mem_cons, List.mem_append, Tok.name.injEq, reduceCtorEq, false_or, or_false, List.not_mem_nil] at h3
  rcases h3 with rfl | rfl | h3
  · exact absurd h4 (by decide)
  · exact absurd h4 (by decide)
  · exact scope_name (h2.names n h3) h4

/-! ## The code with another name -/

theorem replace_name (b : Basis) (m r : Nat) (hash : Int) (fn e : Str) (he : '_' ∉ e) :
    strReplace ("def ".toList ++ fnName (kindOf b) m r hash ++ "(x):\n".toList ++ "    return ".toList ++ e ++ "\n".toList) (fnName (kindOf b) m r hash) fn =
      "def ".toList ++ fn ++ "(x):\n".toList ++ "    return ".toList ++ e ++ "\n".toList := by
  obtain ⟨nm, hn⟩ : ∃ nm, fnName (kindOf b) m r hash = 'e' :: 'v' :: nm := by
    unfold fnName
    exact ⟨"al_".toList ++ kindOf b ++ "_polynomial_".toList ++ natStr m ++ natStr r ++ "_".toList ++ natStr hash.natAbs, by
      rw [show "eval_".toList = 'e' :: 'v' :: "al_".toList from rfl]; simp only [List.cons_append]⟩
  have hu : '_' ∈ fnName (kindOf b) m r hash := by
    unfold fnName
    simp only [List.mem_append]
    exact Or.inl (Or.inr (by decide))
  generalize hN : fnName (kindOf b) m r hash = N at *
  unfold strReplace
  rw [show "def ".toList ++ N ++ "(x):\n".toList ++ "    return ".toList ++ e ++ "\n".toList =
    'd' :: 'e' :: 'f' :: ' ' :: (N ++ ("(x):\n".toList ++ "    return ".toList ++ e ++ "\n".toList)) by
      rw [show "def ".toList = ['d', 'e', 'f', ' '] from rfl]; simp only [List.append_assoc, List.cons_append, List.nil_append]]
  have hp : ∀ (c d : Char) (t : Str), ¬ (c = 'e' ∧ d = 'v') → N.isPrefixOf (c :: d :: t) = false := by
    intro c d t h
    rw [hn]
    simp only [List.isPrefixOf, Bool.and_eq_false_iff, beq_eq_false_iff_ne, ne_eq]
    by_cases h1 : 'e' = c
    · exact Or.inr (Or.inl (fun h2 => h ⟨h1.symm, h2.symm⟩))
    · exact Or.inl h1
  rw [replaceGo, hp _ _ _ (by decide), if_neg (by simp), replaceGo, hp _ _ _ (by decide), if_neg (by simp), replaceGo, hp _ _ _ (by decide), if_neg (by simp)]
  have h4 : replaceGo N fn 0 (' ' :: (N ++ ("(x):\n".toList ++ "    return ".toList ++ e ++ "\n".toList))) =
      ' ' :: replaceGo N fn 0 (N ++ ("(x):\n".toList ++ "    return ".toList ++ e ++ "\n".toList)) := by
    have : ∀ t, N.isPrefixOf (' ' :: t) = false := by
      intro t
      rw [hn]
      simp [List.isPrefixOf]
    rw [replaceGo, this, if_neg (by simp)]
  rw [h4, replaceGo_hit _ _ (by rw [hn]; simp), replaceGo_none N fn hu]
  · rw [show "def ".toList = ['d', 'e', 'f', ' '] from rfl]
    simp only [List.append_assoc, List.cons_append, List.nil_append]
  · simp only [List.mem_append, not_or]
    exact ⟨⟨⟨by decide, by decide⟩, he⟩, by decide⟩

end Verif.PyExpr
