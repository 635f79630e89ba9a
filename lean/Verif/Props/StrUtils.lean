import Verif.Model.StrUtils
import Mathlib.Tactic.Linarith
import Mathlib.Data.List.TakeWhile
/-!
# C32: line wrapping keeps the code
-/

namespace Verif.Str
open Verif

/-! ## Specification -/

/-- Parts joined with a separator. -/
def joinWith (sep : Str) : List Str → Str
  | [] => []
  | [p] => p
  | p :: q :: r => p ++ sep ++ joinWith sep (q :: r)

/-- The lines made from pieces: `before` is appended to every line but the last one, `after` is prepended to every line but the first one (whose prefix
is the first argument of `linesFrom`). -/
def linesFrom (before after : Str) : Str → List Str → List Str
  | _, [] => []
  | pre, [p] => [pre ++ p]
  | pre, p :: q :: r => (pre ++ p ++ before) :: linesFrom before after after (q :: r)

/-- The lines are as long as possible but shorter than the threshold: a line with more than one part fits (together with `before`), and the first
part of the next line would not have fitted. -/
def WellFilled (sep : Str) (threshold : Int) (before after : Str) : Str → List (List Str) → Prop
  | _, [] => True
  | pre, [g] => g.length = 1 ∨ ((pre ++ joinWith sep g ++ before).length : Int) < threshold
  | pre, g :: g' :: gs => (g.length = 1 ∨ ((pre ++ joinWith sep g ++ before).length : Int) < threshold) ∧
      (threshold ≤ ((pre ++ joinWith sep g ++ sep ++ g'.headD [] ++ before).length : Int)) ∧ WellFilled sep threshold before after after (g' :: gs)

/-! ## `str.split` -/

theorem joinWith_cons (sep p : Str) (l : List Str) (h : l ≠ []) : joinWith sep (p :: l) = p ++ sep ++ joinWith sep l := by
  cases l with
  | nil => exact absurd rfl h
  | cons q r => rfl

theorem joinWith_snoc (sep q : Str) (l : List Str) (h : l ≠ []) : joinWith sep (l ++ [q]) = joinWith sep l ++ sep ++ q := by
  induction l with
  | nil => exact absurd rfl h
  | cons p l ih =>
    cases l with
    | nil => rfl
    | cons p' l =>
      rw [List.cons_append, joinWith_cons _ _ _ (by simp), ih (by simp), joinWith_cons _ p _ (by simp)]
      simp

theorem splitGo_ne_nil (sep : Str) : ∀ (s : Str) (k : Nat) (cur : Str), splitGo sep k cur s ≠ []
  | [], k, cur => by cases k <;> simp [splitGo]
  | c :: cs, k + 1, cur => by simp only [splitGo]; exact splitGo_ne_nil sep cs k cur
  | c :: cs, 0, cur => by
    simp only [splitGo]
    split
    · simp
    · exact splitGo_ne_nil sep cs 0 _

theorem splitGo_join (sep : Str) (hsep : sep ≠ []) : ∀ (s : Str) (k : Nat) (cur : Str), k ≤ s.length →
    joinWith sep (splitGo sep k cur s) = cur ++ s.drop k
  | [], 0, cur, _ => by simp [splitGo, joinWith]
  | [], k + 1, cur, h => by simp at h
  | c :: cs, k + 1, cur, h => by
    simp only [splitGo]
    rw [splitGo_join sep hsep cs k cur (by simpa using h)]
    simp
  | c :: cs, 0, cur, h => by
    simp only [splitGo]
    split
    · rename_i hp
      rw [List.isPrefixOf_iff_prefix] at hp
      obtain ⟨t, ht⟩ := hp
      have hl : sep.length - 1 ≤ cs.length := by
        have := congrArg List.length ht
        simp at this
        omega
      rw [joinWith_cons _ _ _ (splitGo_ne_nil _ _ _ _), splitGo_join sep hsep cs _ _ hl]
      have hd : cs.drop (sep.length - 1) = t := by
        obtain ⟨x, sep', rfl⟩ := List.exists_cons_of_ne_nil hsep
        rw [List.cons_append] at ht
        rw [← (List.cons.inj ht).2]
        simp
      rw [hd, List.nil_append, List.append_assoc, ht]
      simp
    · rw [splitGo_join sep hsep cs 0 _ (Nat.zero_le _)]
      simp

/-- Scanning invariant: no occurrence of the separator inside a part. -/
theorem splitGo_free (sep : Str) (hsep : sep ≠ []) : ∀ (s : Str) (k : Nat) (cur : Str),
    (k = 0 → ∀ i < cur.length, ¬sep <+: (cur ++ s).drop i) → (0 < k → cur = []) → ∀ p ∈ splitGo sep k cur s, ¬sep <:+: p
  | [], k, cur, h, hk => by
    intro p hp
    have hp' : p = cur := by cases k <;> simpa [splitGo] using hp
    subst hp'
    rintro ⟨u, v, huv⟩
    cases k with
    | zero =>
      refine h rfl u.length ?_ ⟨v, ?_⟩
      · rw [← huv]
        have : 0 < sep.length := List.length_pos_iff.2 hsep
        simp only [List.length_append]
        omega
      · rw [List.append_nil, ← huv, List.append_assoc, List.drop_left]
    | succ k =>
      rw [hk (by omega)] at huv
      simp at huv
      exact hsep huv.2.1
  | c :: cs, k + 1, cur, h, hk => by
    intro p hp
    simp only [splitGo] at hp
    have hc := hk (by omega)
    subst hc
    exact splitGo_free sep hsep cs k [] (fun _ i hi => by simp at hi) (fun _ => rfl) p hp
  | c :: cs, 0, cur, h, hk => by
    intro p hp
    simp only [splitGo] at hp
    split at hp
    · rcases List.mem_cons.1 hp with rfl | hp
      · rintro ⟨u, v, huv⟩
        refine h rfl u.length ?_ ⟨v ++ (c :: cs), ?_⟩
        · rw [← huv]
          have : 0 < sep.length := List.length_pos_iff.2 hsep
          simp only [List.length_append]
          omega
        · rw [← huv]
          simp only [List.append_assoc, List.drop_left]
      · exact splitGo_free sep hsep cs _ [] (fun _ i hi => by simp at hi) (fun _ => rfl) p hp
    · rename_i hn
      rw [List.isPrefixOf_iff_prefix] at hn
      refine splitGo_free sep hsep cs 0 (cur ++ [c]) (fun _ i hi => ?_) (fun h => absurd h (lt_irrefl 0)) p hp
      rw [List.append_assoc]
      simp only [List.singleton_append]
      rw [List.length_append, List.length_singleton] at hi
      rcases Nat.lt_succ_iff_lt_or_eq.1 hi with hi | rfl
      · exact h rfl i hi
      · rw [List.drop_left]
        exact hn

/-- **C32** (`str.split`) The parts joined with the separator give the string back and no part contains the separator; the empty separator is
rejected. -/
theorem C32_split (s sep : Str) :
    (sep = [] → pySplit s sep = .error .value) ∧
    (sep ≠ [] → ∃ parts, pySplit s sep = .ok parts ∧ parts ≠ [] ∧ joinWith sep parts = s ∧ ∀ p ∈ parts, ¬sep <:+: p) := by
  refine ⟨fun h => by unfold pySplit; rw [if_pos h], fun h => ?_⟩
  refine ⟨splitGo sep 0 [] s, by unfold pySplit; rw [if_neg h], splitGo_ne_nil _ _ _ _, ?_, ?_⟩
  · rw [splitGo_join sep h s 0 [] (Nat.zero_le _)]
    simp
  · exact splitGo_free sep h s 0 [] (fun _ i hi => by simp at hi) (fun h => absurd h (lt_irrefl 0))

/-! ## `split_long_str` -/

theorem all_parts (before after : Str) (pre : Str) (parts : List Str) (h : parts ≠ []) :
    linesFrom before after pre parts =
      match appendBefore before parts with
      | [] => []
      | p :: r => (pre ++ p) :: r.map (fun q => after ++ q) := by
  induction parts generalizing pre with
  | nil => exact absurd rfl h
  | cons p parts ih =>
    cases parts with
    | nil => simp [linesFrom, appendBefore]
    | cons q r =>
      simp only [linesFrom, appendBefore]
      rw [ih after (by simp)]
      cases r with
      | nil => simp [appendBefore]
      | cons q' r => simp [appendBefore]

theorem appendBefore_nil (parts : List Str) : appendBefore [] parts = parts := by
  induction parts with
  | nil => rfl
  | cons p parts ih =>
    cases parts with
    | nil => rfl
    | cons q r => rw [appendBefore, ih, List.append_nil]

theorem wrapLoop_spec (sep : Str) (t : Int) (before after : Str) : ∀ (qs : List Str) (pre : Str) (g : List Str), g ≠ [] →
    (g.length = 1 ∨ ((pre ++ joinWith sep g ++ before).length : Int) < t) →
    ∃ g' gs, (∀ x ∈ g' :: gs, x ≠ []) ∧ (g' :: gs).flatten = g ++ qs ∧ (∃ e, g' = g ++ e) ∧
      wrapLoop sep t before after (pre ++ joinWith sep g) qs = linesFrom before after pre ((g' :: gs).map (joinWith sep)) ∧
      WellFilled sep t before after pre (g' :: gs)
  | [], pre, g, hg, hw => ⟨g, [], by simpa using hg, by simp, ⟨[], by simp⟩, by simp [wrapLoop, linesFrom], hw⟩
  | q :: qs, pre, g, hg, hw => by
    simp only [wrapLoop]
    split
    · rename_i hlt
      have hj : pre ++ joinWith sep g ++ sep ++ q = pre ++ joinWith sep (g ++ [q]) := by rw [joinWith_snoc _ _ _ hg]; simp
      rw [hj] at hlt ⊢
      obtain ⟨g', gs, h1, h2, ⟨e, h3⟩, h4, h5⟩ := wrapLoop_spec sep t before after qs pre (g ++ [q]) (by simp) (Or.inr hlt)
      exact ⟨g', gs, h1, by rw [h2]; simp, ⟨[q] ++ e, by rw [h3]; simp⟩, h4, h5⟩
    · rename_i hge
      rw [not_lt] at hge
      obtain ⟨g', gs, h1, h2, ⟨e, h3⟩, h4, h5⟩ := wrapLoop_spec sep t before after qs after [q] (by simp) (Or.inl rfl)
      refine ⟨g, g' :: gs, ?_, ?_, ⟨[], by simp⟩, ?_, ?_⟩
      · intro x hx
        rcases List.mem_cons.1 hx with rfl | hx
        · exact hg
        · exact h1 x hx
      · rw [List.flatten_cons, h2]
        simp
      · simp only [List.map_cons, linesFrom]
        rw [show after ++ q = after ++ joinWith sep [q] from rfl, h4]
        rfl
      · refine ⟨hw, ?_, h5⟩
        rw [h3]
        exact hge

/-- **C32** `split_long_str` for every string, separator, width and pair of replacements: the parts of the string between the separators are
distributed in order over the lines, joined with the separator inside a line; `before` ends every line but the last and `after` starts every line but
the first; nothing else is added, dropped or changed, so that joining the pieces of the lines with the separator gives the string back. With a width, the
lines are filled as far as they stay below it; with the width -1 every separator is replaced. An empty separator is rejected. -/
theorem C32_split_long_str (s sep : Str) (threshold : Int) (before after : Str) :
    (sep = [] → splitLongStr s sep threshold before after = .error .value) ∧
    (sep ≠ [] → ∃ (lines : List Str) (groups : List (List Str)),
      splitLongStr s sep threshold before after = .ok lines ∧
      lines = linesFrom before after [] (groups.map (joinWith sep)) ∧
      (∀ g ∈ groups, g ≠ []) ∧ joinWith sep groups.flatten = s ∧ joinWith sep (groups.map (joinWith sep)) = s ∧
      (∀ g ∈ groups, ∀ p ∈ g, ¬sep <:+: p) ∧
      (threshold = -1 → ∀ g ∈ groups, g.length = 1) ∧
      (threshold ≠ -1 → WellFilled sep threshold before after [] groups)) := by
  obtain ⟨h0, h1⟩ := C32_split s sep
  refine ⟨fun h => by unfold splitLongStr; rw [h0 h]; rfl, fun h => ?_⟩
  obtain ⟨parts, hp, hne, hj, hfree⟩ := h1 h
  have hjj : ∀ gs : List (List Str), (∀ g ∈ gs, g ≠ []) → joinWith sep (gs.map (joinWith sep)) = joinWith sep gs.flatten := by
    intro gs hgs
    induction gs with
    | nil => rfl
    | cons g gs ih =>
      have ih := ih (fun x hx => hgs x (List.mem_cons_of_mem _ hx))
      have hcat : ∀ (a b : List Str), a ≠ [] → b ≠ [] → joinWith sep (a ++ b) = joinWith sep a ++ sep ++ joinWith sep b := by
        intro a b ha hb
        induction a with
        | nil => exact absurd rfl ha
        | cons x a iha =>
          cases a with
          | nil => rw [List.singleton_append, joinWith_cons _ _ _ hb]; rfl
          | cons y a =>
            rw [List.cons_append, joinWith_cons _ _ _ (by simp), iha (by simp), joinWith_cons _ x _ (by simp)]
            simp
      cases gs with
      | nil => simp [joinWith]
      | cons g' gs =>
        rw [List.map_cons, joinWith_cons _ _ _ (by simp), ih, List.flatten_cons (l := g), hcat _ _ (hgs g List.mem_cons_self)]
        rw [List.flatten_cons]
        intro hc
        exact hgs g' (by simp) (List.append_eq_nil_iff.1 hc).1
  unfold splitLongStr
  rw [hp, Py.bind_ok]
  by_cases ht : threshold = -1
  · rw [if_pos ht]
    have hg1 : (parts.map (fun p => [p])).map (joinWith sep) = parts := by
      rw [List.map_map]
      exact List.map_id' parts
    refine ⟨_, parts.map (fun p => [p]), rfl, ?_, ?_, ?_, ?_, ?_, ?_, fun h => absurd ht h⟩
    · rw [hg1, all_parts _ _ _ _ hne]
      have hb : (if before ≠ [] then appendBefore before parts else parts) = appendBefore before parts := by
        split
        · rfl
        · rename_i hb
          rw [not_not] at hb
          rw [hb, appendBefore_nil]
      rw [hb]
      generalize hab : appendBefore before parts = ab
      have habne : ab ≠ [] := by
        rw [← hab]
        obtain ⟨x, r, rfl⟩ := List.exists_cons_of_ne_nil hne
        cases r <;> simp [appendBefore]
      obtain ⟨x, r, rfl⟩ := List.exists_cons_of_ne_nil habne
      split
      · rfl
      · rename_i ha
        rw [not_not] at ha
        rw [ha]
        simp
    · intro g hg
      obtain ⟨p, -, rfl⟩ := List.mem_map.1 hg
      simp
    · rw [show (parts.map (fun p => [p])).flatten = parts by simp [← List.flatMap_def], hj]
    · rw [hg1, hj]
    · intro g hg p hpg
      obtain ⟨p', hp', rfl⟩ := List.mem_map.1 hg
      rw [List.mem_singleton.1 hpg]
      exact hfree p' hp'
    · intro _ g hg
      obtain ⟨p, -, rfl⟩ := List.mem_map.1 hg
      rfl
  · rw [if_neg ht]
    obtain ⟨x, r, rfl⟩ := List.exists_cons_of_ne_nil hne
    rw [getE_ok (by simp), Py.bind_ok]
    obtain ⟨g', gs, k1, k2, -, k4, k5⟩ := wrapLoop_spec sep threshold before after r [] [x] (by simp) (Or.inl rfl)
    rw [List.singleton_append] at k2
    refine ⟨_, g' :: gs, rfl, k4, k1, ?_, ?_, ?_, fun h => absurd h ht, fun _ => k5⟩
    · rw [k2, hj]
    · rw [hjj _ k1, k2, hj]
    · intro g hg p hpg
      refine hfree p ?_
      rw [← k2]
      exact List.mem_flatten.2 ⟨g, hg, hpg⟩

/-- With empty replacements of the separator by a single line break, joining the lines gives the text with some separators replaced: in particular
removing all separators and line ends gives the same characters. -/
example : splitLongStr "aa bb cc dd".toList " ".toList 8 " \\".toList "  ".toList = .ok ["aa bb \\".toList, "  cc \\".toList, "  dd".toList] := by decide

example : splitLongStr "aa bb cc".toList " ".toList (-1) ";".toList [] = .ok ["aa;".toList, "bb;".toList, "cc".toList] := by decide

/-! ## `CodeWriter` -/

theorem infix_singleton {c : Char} {l : Str} (h : c ∈ l) : [c] <:+: l := by
  obtain ⟨a, b, rfl⟩ := List.append_of_mem h
  exact ⟨a, b, by simp⟩

/-- The text written for one line: the indentation is left out for empty lines (if it is blank). -/
def lineText (w : Writer) (s : Str) : Str :=
  if s = [] ∧ (∀ c ∈ w.indent, c = ' ') then ['\n'] else (List.replicate w.depth.toNat w.indent).flatten ++ s ++ ['\n']

theorem onlySpaces_iff (s : Str) : onlySpaces s = true ↔ ∀ c ∈ s, c = ' ' := by
  unfold onlySpaces
  rw [List.isEmpty_iff, List.filter_eq_nil_iff]
  simp

theorem wl_eq (w : Writer) (s : Str) : w.wl s = { w with code := w.code ++ lineText w s } := by
  unfold Writer.wl lineText
  by_cases hs : s = []
  · subst hs
    by_cases ho : onlySpaces w.indent = true
    · rw [if_neg (by simp [ho]), if_pos ⟨rfl, (onlySpaces_iff _).1 ho⟩]
      simp [Writer.el]
    · rw [if_pos (by simpa using ho), if_neg (fun h => ho ((onlySpaces_iff _).2 h.2))]
      simp [Writer.el, Writer.bl, rep]
  · rw [if_pos (by simp [hs]), if_neg (fun h => hs h.1)]
    simp [Writer.el, Writer.bl, rep]

theorem foldl_wl (lines : List Str) (w : Writer) :
    lines.foldl Writer.wl w = { w with code := w.code ++ (lines.map (lineText w)).flatten } := by
  induction lines generalizing w with
  | nil => simp
  | cons l ls ih =>
    have hl : ∀ (c : Str), lineText { w with code := c } = lineText w := fun c => rfl
    rw [List.foldl_cons, ih, wl_eq]
    simp only [hl]
    simp

/-- **C32** `CodeWriter.wc`: the lines of the text (a final line break is ignored) are appended in order, each with the current indentation and a line
break and otherwise unchanged; the other attributes of the writer stay the same; the empty text is rejected with IndexError. -/
theorem C32_write_code (w : Writer) (s : Str) :
    (s = [] → w.wc s = .error .index) ∧
    (s ≠ [] → ∃ lines : List Str, (∀ l ∈ lines, '\n' ∉ l) ∧ lines ≠ [] ∧ (joinWith ['\n'] lines = s ∨ joinWith ['\n'] lines ++ ['\n'] = s) ∧
      (s.getLast? = some '\n' → joinWith ['\n'] lines ++ ['\n'] = s) ∧
      w.wc s = .ok { w with code := w.code ++ (lines.map (lineText w)).flatten }) := by
  constructor
  · rintro rfl
    rfl
  · intro h
    unfold Writer.wc
    rw [List.getLast?_eq_getLast_of_ne_nil h]
    simp only
    set t := (if s.getLast h = '\n' then s.dropLast else s) with htdef
    obtain ⟨lines, h1, h2, h3, h4⟩ := (C32_split t ['\n']).2 (by simp)
    rw [h1, Py.bind_ok]
    have hcase : s.getLast h = '\n' → t ++ ['\n'] = s := by
      intro hc
      rw [htdef, if_pos hc, ← hc, List.dropLast_append_getLast]
    refine ⟨lines, ?_, h2, ?_, ?_, ?_⟩
    · intro l hl hc
      exact h4 l hl (infix_singleton hc)
    · rw [h3]
      by_cases hc : s.getLast h = '\n'
      · exact Or.inr (hcase hc)
      · left
        rw [htdef, if_neg hc]
    · intro hc
      rw [h3]
      exact hcase (Option.some.inj hc)
    · rw [foldl_wl]
      rfl

/-- **C32** `pop_first_line` removes the first line and its line break: putting them back gives the code. -/
theorem C32_pop_first_line (w : Writer) :
    '\n' ∉ w.popFirstLine.1 ∧
      (w.code = w.popFirstLine.1 ++ '\n' :: w.popFirstLine.2.code ∨ (w.code = w.popFirstLine.1 ∧ w.popFirstLine.2.code = [])) := by
  unfold Writer.popFirstLine
  simp only
  refine ⟨fun h => by simpa using List.mem_takeWhile_imp h, ?_⟩
  have hs := List.takeWhile_append_dropWhile (p := fun c : Char => c != '\n') (l := w.code)
  cases hd : w.code.dropWhile (fun c => c != '\n') with
  | nil =>
    right
    rw [hd, List.append_nil] at hs
    exact ⟨hs.symm, rfl⟩
  | cons c r =>
    left
    have hc : c = '\n' := by
      have := List.head_dropWhile_not (l := w.code) (p := fun c : Char => c != '\n') (by rw [hd]; simp)
      simp only [hd, List.head_cons] at this
      simpa using this
    rw [hd, hc] at hs
    simpa using hs.symm

/-- **C32** The number of lines is the number of the parts between line breaks. -/
theorem C32_count_lines (w : Writer) (h : w.code ≠ []) :
    ∃ lines, pySplit w.code ['\n'] = .ok lines ∧ w.countNumLines = lines.length := by
  obtain ⟨lines, h1, h2, h3, h4⟩ := (C32_split w.code ['\n']).2 (by simp)
  refine ⟨lines, h1, ?_⟩
  unfold Writer.countNumLines
  rw [if_neg h, ← h3]
  have : ∀ ls : List Str, ls ≠ [] → (∀ l ∈ ls, '\n' ∉ l) → (joinWith ['\n'] ls).count '\n' + 1 = ls.length := by
    intro ls hls hn
    induction ls with
    | nil => exact absurd rfl hls
    | cons l ls ih =>
      have h0 : l.count '\n' = 0 := List.count_eq_zero.2 (hn l List.mem_cons_self)
      cases ls with
      | nil => simp [joinWith, h0]
      | cons l' ls =>
        rw [joinWith_cons _ _ _ (by simp), List.count_append, List.count_append, h0]
        have := ih (by simp) (fun x hx => hn x (List.mem_cons_of_mem _ hx))
        simp only [List.length_cons] at this ⊢
        simp
        omega
  exact this lines h2 (fun l hl hc => h4 l hl (infix_singleton hc))

/-- **C32** Scopes are a stack and are written in order of nesting, each followed by the delimiter. -/
theorem C32_scope (w : Writer) (s : Str) :
    (w.pushScope s).getScope = w.getScope ++ s ++ w.delimiter ∧ (w.pushScope s).popScope = .ok (s, w) ∧
      (w.scope = [] → w.getScope = [] ∧ w.popScope = .error .index) := by
  refine ⟨by simp [Writer.getScope, Writer.pushScope], by simp [Writer.popScope, Writer.pushScope], fun h => ?_⟩
  simp [Writer.getScope, Writer.popScope, h]

/-- The calls of a `CodeWriter` that matter for the indentation. -/
inductive Call where
  | inc
  | dec
  | line (s : Str)
  deriving DecidableEq

/-- The effect of a call. -/
def Writer.exec (w : Writer) : Call → Writer
  | .inc => w.incIndent
  | .dec => w.decIndent
  | .line s => w.wl s

theorem exec_depth (calls : List Call) (w : Writer) :
    (calls.foldl Writer.exec w).depth = w.depth + calls.count .inc - calls.count .dec ∧ (calls.foldl Writer.exec w).indent = w.indent := by
  induction calls generalizing w with
  | nil => simp
  | cons c calls ih =>
    rw [List.foldl_cons, (ih _).1, (ih _).2]
    cases c with
    | inc => simp [Writer.exec, Writer.incIndent]; omega
    | dec => simp [Writer.exec, Writer.decIndent]; omega
    | line s => simp [Writer.exec, wl_eq]

/-- **C32** After any history of calls a line is appended with one indentation string for each `inc_indent` minus each `dec_indent` before it (none if
there were more of the latter), followed by a line break. -/
theorem C32_indentation (w : Writer) (calls : List Call) (s : Str) (hs : s ≠ []) :
    ((calls.foldl Writer.exec w).wl s).code = (calls.foldl Writer.exec w).code ++
      (List.replicate (w.depth + calls.count .inc - calls.count .dec).toNat w.indent).flatten ++ s ++ ['\n'] := by
  obtain ⟨h1, h2⟩ := exec_depth calls w
  have hb : (decide (s ≠ []) || !onlySpaces w.indent) = true := by simp [hs]
  unfold Writer.wl Writer.el Writer.bl rep
  simp only [hb, if_true, h1, h2, List.nil_append]

/-- **C32** `reset` forgets the code, the scopes and the indentation. -/
theorem C32_reset (w : Writer) : w.reset.code = [] ∧ w.reset.scope = [] ∧ w.reset.depth = 0 := ⟨rfl, rfl, rfl⟩

example : ([Call.line "a".toList, .inc, .line "b".toList, .dec, .line "c".toList].foldl Writer.exec {}).code = "a\n    b\nc\n".toList := by rfl

example : (Writer.incIndent {}).wc "if a:\n\nb\n".toList = .ok { depth := 1, code := "    if a:\n\n    b\n".toList } := by rfl

end Verif.Str
