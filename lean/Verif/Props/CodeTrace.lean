import Verif.Model.CodeTrace
import Verif.Props.StrUtils
/-!
# C32: trace comments of a `CodeWriter`
-/

namespace Verif.Str
open Verif Verif.CodeGen

theorem lineText_of_ne {w : Writer} {s : Str} (h : s ≠ []) : lineText w s = rep w.depth w.indent ++ s ++ ['\n'] := by
  simp [lineText, h, rep]

/-- **C32** `CodeWriter.print_trace` appends one line with the position of the caller and, if there is a message, a second line with the message; both have the current indentation
and start with `//`; nothing else of the writer changes. -/
theorem C32_trace (w : Writer) (file : Str) (line : Nat) (func message : Str) :
    w.printTrace file line func message = { w with code := w.code ++
      (rep w.depth w.indent ++ ("// Python debug: ".toList ++ file ++ "(".toList ++ natStr line ++ "): ".toList ++ func ++ "()".toList) ++ ['\n']) ++
      (if message = [] then [] else rep w.depth w.indent ++ ("// Python debug msg: '".toList ++ message ++ "'".toList) ++ ['\n']) } := by
  have h1 : ∀ a : Str, "// Python debug: ".toList ++ a ≠ [] := by intro a; simp
  have h2 : ∀ a : Str, "// Python debug msg: '".toList ++ a ≠ [] := by intro a; simp
  have e1 : "// Python debug: ".toList ++ file ++ "(".toList ++ natStr line ++ "): ".toList ++ func ++ "()".toList =
      "// Python debug: ".toList ++ (file ++ "(".toList ++ natStr line ++ "): ".toList ++ func ++ "()".toList) := by simp only [List.append_assoc]
  have e2 : "// Python debug msg: '".toList ++ message ++ "'".toList = "// Python debug msg: '".toList ++ (message ++ "'".toList) := by simp only [List.append_assoc]
  unfold Writer.printTrace
  rw [e1, e2]
  by_cases hm : message = []
  · simp only [hm, ne_eq, not_true_eq_false, if_false, if_true, wl_eq, lineText_of_ne (h1 _), List.append_nil]
  · simp only [hm, ne_eq, not_false_eq_true, if_false, if_true, wl_eq, lineText_of_ne (h1 _), lineText_of_ne (h2 _)]

/-- **C32** The number of lines that `print_trace` adds: one, or two if there is a message without line breaks. -/
theorem C32_trace_lines (w : Writer) (hi : '\n' ∉ w.indent) (file : Str) (line : Nat) (func message : Str) (hf : '\n' ∉ file) (hn : '\n' ∉ func) :
    (w.printTrace file line func message).code.count '\n' = w.code.count '\n' + (if message = [] then 1 else 2 + message.count '\n') := by
  have hr : (rep w.depth w.indent).count '\n' = 0 := by
    refine List.count_eq_zero.2 fun h => ?_
    unfold rep at h
    obtain ⟨l, hl, h⟩ := List.mem_flatten.1 h
    exact hi (List.eq_of_mem_replicate hl ▸ h)
  have hd : (natStr line).count '\n' = 0 := by
    refine List.count_eq_zero.2 fun h => ?_
    have := Nat.isDigit_of_mem_toDigits (by norm_num) (by norm_num) h
    revert this
    decide
  have c1 : ("// Python debug: ".toList).count '\n' = 0 := by decide
  have c2 : ("// Python debug msg: '".toList).count '\n' = 0 := by decide
  have c3 : ("(".toList).count '\n' = 0 := by decide
  have c4 : ("): ".toList).count '\n' = 0 := by decide
  have c5 : ("()".toList).count '\n' = 0 := by decide
  have c6 : ("'".toList).count '\n' = 0 := by decide
  rw [C32_trace]
  by_cases hm : message = []
  · simp only [hm, if_true, List.count_append, hr, hd, c1, c3, c4, c5, List.count_eq_zero.2 hf, List.count_eq_zero.2 hn, List.append_nil]
    simp
  · simp only [hm, if_false, List.count_append, hr, hd, c1, c2, c3, c4, c5, c6, List.count_eq_zero.2 hf, List.count_eq_zero.2 hn]
    simp
    omega

/-- **C32** `CodeWriter.empty`: nothing has been written. It holds for a new writer and after `reset`, and not after any written line. -/
theorem C32_empty (w : Writer) (s : Str) : (w.empty = true ↔ w.code = []) ∧ ({} : Writer).empty = true ∧ w.reset.empty = true ∧ (w.wl s).empty = false := by
  refine ⟨by simp [Writer.empty], rfl, rfl, ?_⟩
  rw [wl_eq]
  unfold lineText
  split <;> simp [Writer.empty]

/-- A message with a line break: its second line is code, not a comment. -/
example : (({} : Writer).printTrace "a".toList 1 "f".toList "x\ny".toList).code = "// Python debug: a(1): f()\n// Python debug msg: 'x\ny'\n".toList := by
  rw [C32_trace]
  decide

end Verif.Str
