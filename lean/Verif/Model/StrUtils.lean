import Mathlib.Data.List.Basic
import Verif.Py
/-!
# Model of `generic_tools/str_utils.py: split_long_str` and `generic_tools/code_generation_utils.py: CodeWriter`

Python strings are lists of characters.
-/

namespace Verif.Str
open Verif

/-- Python strings. -/
abbrev Str := List Char

/-- The loop of Python's `str.split(sep)` for a non-empty separator: `skip` characters of a separator found remain to be skipped, `cur` is the current
part. -/
def splitGo (sep : Str) : Nat → Str → Str → List Str
  | _, cur, [] => [cur]
  | skip + 1, cur, _ :: cs => splitGo sep skip cur cs
  | 0, cur, c :: cs => if sep.isPrefixOf (c :: cs) then cur :: splitGo sep (sep.length - 1) [] cs else splitGo sep 0 (cur ++ [c]) cs

/-- Python's `str.split(sep)`: leftmost, non overlapping occurrences; ValueError for the empty separator. -/
def pySplit (s sep : Str) : Py (List Str) := if sep = [] then .error .value else .ok (splitGo sep 0 [] s)

/-- The loop in `split_long_str` (str_utils.py 367-368): append to all parts but the last one. -/
def appendBefore (before : Str) : List Str → List Str
  | [] => []
  | [p] => [p]
  | p :: q :: r => (p ++ before) :: appendBefore before (q :: r)

/-- The loop in `split_long_str` (str_utils.py 370-371): prepend to all parts but the first one. -/
def prependAfter (after : Str) : List Str → List Str
  | [] => []
  | p :: r => p :: r.map (fun q => after ++ q)

/-- The loop in `split_long_str` (str_utils.py 375-381) over the remaining parts; `part` is the current line. -/
def wrapLoop (sep : Str) (threshold : Int) (before after : Str) : Str → List Str → List Str
  | part, [] => [part]
  | part, q :: qs =>
    if ((part ++ sep ++ q ++ before).length : Int) < threshold then wrapLoop sep threshold before after (part ++ sep ++ q) qs
    else (part ++ before) :: wrapLoop sep threshold before after (after ++ q) qs

/-- `split_long_str` (str_utils.py 333-382). -/
def splitLongStr (string sep : Str) (threshold : Int) (before after : Str) : Py (List Str) := do
  let parts ← pySplit string sep
  if threshold = -1 then
    let parts := if before ≠ [] then appendBefore before parts else parts
    let parts := if after ≠ [] then prependAfter after parts else parts
    return parts
  else do
    let part ← getE parts 0
    return wrapLoop sep threshold before after part (parts.drop 1)

/-! ## `CodeWriter` -/

/-- The state of a `CodeWriter` (code_generation_utils.py 6-114). -/
structure Writer where
  /-- `indent_depth` -/
  depth : Int := 0
  /-- `code` -/
  code : Str := []
  /-- `scope` -/
  scope : List Str := []
  /-- `indent` -/
  indent : Str := "    ".toList
  /-- `scope_delimiter` -/
  delimiter : Str := "::".toList

/-- `n * s` in Python: empty for negative `n`. -/
def rep (n : Int) (s : Str) : Str := (List.replicate n.toNat s).flatten

/-- `_contains_only_spaces` (117-124). -/
def onlySpaces (s : Str) : Bool := (s.filter (fun c => c != ' ')).isEmpty

/-- `reset` (20-24). -/
def Writer.reset (w : Writer) : Writer := { w with depth := 0, code := [], scope := [] }

/-- `inc_indent` (42-44). -/
def Writer.incIndent (w : Writer) : Writer := { w with depth := w.depth + 1 }

/-- `dec_indent` (46-48). -/
def Writer.decIndent (w : Writer) : Writer := { w with depth := w.depth - 1 }

/-- `bl` (56-59). -/
def Writer.bl (w : Writer) (s : Str) : Writer := { w with code := w.code ++ rep w.depth w.indent ++ s }

/-- `al` (61-63) and `verbatim` (81-83). -/
def Writer.al (w : Writer) (s : Str) : Writer := { w with code := w.code ++ s }

/-- `el` (65-67). -/
def Writer.el (w : Writer) (s : Str) : Writer := { w with code := w.code ++ (s ++ ['\n']) }

/-- `wl` (50-54). -/
def Writer.wl (w : Writer) (s : Str) : Writer :=
  let w := if s ≠ [] || !onlySpaces w.indent then w.bl s else w
  w.el []

/-- `wc` (73-79); IndexError for the empty string. -/
def Writer.wc (w : Writer) (s : Str) : Py Writer :=
  match s.getLast? with
  | none => .error .index
  | some c => do
    let s := if c = '\n' then s.dropLast else s
    let lines ← pySplit s ['\n']
    return lines.foldl Writer.wl w

/-- `get_scope` (85-90). -/
def Writer.getScope (w : Writer) : Str := w.scope.foldl (fun out s => out ++ (s ++ w.delimiter)) []

/-- `ws` (69-71). -/
def Writer.ws (w : Writer) : Writer := w.al w.getScope

/-- `pop_first_line` (92-96): the first line and the writer with the rest; `str.partition`. -/
def Writer.popFirstLine (w : Writer) : Str × Writer :=
  (w.code.takeWhile (fun c => c != '\n'), { w with code := (w.code.dropWhile (fun c => c != '\n')).drop 1 })

/-- `count_num_lines` (98-106). -/
def Writer.countNumLines (w : Writer) : Nat := if w.code = [] then 0 else w.code.count '\n' + 1

/-- `push_scope` (108-110). -/
def Writer.pushScope (w : Writer) (s : Str) : Writer := { w with scope := w.scope ++ [s] }

/-- `pop_scope` (112-114); IndexError on an empty list. -/
def Writer.popScope (w : Writer) : Py (Str × Writer) :=
  match w.scope.getLast? with
  | none => .error .index
  | some s => .ok (s, { w with scope := w.scope.dropLast })

end Verif.Str
