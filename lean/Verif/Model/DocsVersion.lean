import Verif.Model.DocsNames
/-!
# Model of `docs/set_version_from_git.py`

The output of `git describe --always` is a parameter: `none` if the command fails. The file `conf.py` is given by its content.
-/

namespace Verif.DocsVersion
open Verif.DocsNames

/-- `s.replace(old, new)` for a non-empty `old` (line 36): scan from left to right; `skip` characters are still to be left out after an occurrence. -/
def replaceGo (old new : Str) : Str → Nat → Str
  | [], _ => []
  | _ :: s, skip + 1 => replaceGo old new s skip
  | c :: s, 0 => if old.isPrefixOf (c :: s) then new ++ replaceGo old new s (old.length - 1) else c :: replaceGo old new s 0

/-- `s.replace(old, new)` (line 36). -/
def replace (s old new : Str) : Str := replaceGo old new s 0

/-- `get_git_description` (lines 8-23): the output without its last character, `None` if the command fails. -/
def gitDescription (git : Option Str) : Option Str := git.map List.dropLast

/-- `update_version_in_conf` (lines 26-38): the new content of `conf.py`. -/
def updateVersion (git : Option Str) (content : Str) : Str :=
  match gitDescription git with
  | none => content
  | some version => replace content "version = ''".toList ("version = '".toList ++ version ++ "'".toList)

end Verif.DocsVersion
