import Mathlib.Data.List.Basic
import Mathlib.Logic.Function.Basic
/-!
# Model of `docs/shorten_module_and_package_names.py`

Files are found by their directory and name; a file name without a directory is relative to the current directory of the process.
-/

namespace Verif.DocsNames

/-- Strings: contents of files (lines 22-23) and names. -/
abbrev Str := List Char

/-- `s.find(sub)` (lines 27, 46); `none` for -1. -/
def findSub (sub : Str) : Str → Option Nat
  | [] => if sub = [] then some 0 else none
  | c :: s => if sub.isPrefixOf (c :: s) then some 0 else (findSub sub s).map (· + 1)

/-- `s.rfind('.') + 1`: 0 if there is no dot (lines 30-31, 49-50). -/
def afterLastDot (s : Str) : Nat := s.length - (s.reverse.takeWhile (fun c => c != '.')).length

/-- The new content of a file in `shorten_module_name` (lines 17-33), with `key` = " module", and in `shorten_package_name` (lines 36-52), with `key` = " package". The file is
only written if the function does not return early; the model writes the same content then. -/
def shorten (key content : Str) : Str :=
  match content.findIdx? (fun c => c == '\n') with
  | none => content
  | some firstLineEnd =>
    match findSub key (content.take firstLineEnd) with
    | none => content
    | some nameEnd => content.drop (afterLastDot (content.take nameEnd))

/-- `shorten_module_name` followed by `shorten_package_name`, as in lines 60-61. -/
def shortenBoth (content : Str) : Str := shorten " package".toList (shorten " module".toList content)

/-- The content of all files, by directory and name (what `open` in lines 22, 32, 41, 51 reads and writes). -/
abbrev Files := Str → Str → Option Str

/-- A file that does not exist (`open` in line 22). -/
inductive IoErr where
  | fileNotFound

/-- Both functions for one file, given by its name only: it is opened in the current directory (lines 22, 32, 41, 51, called in lines 60-61). -/
def shortenFile (files : Files) (cwd name : Str) : Except IoErr Files :=
  match files cwd name with
  | none => .error .fileNotFound
  | some content => .ok (Function.update files cwd (Function.update (files cwd) name (some (shortenBoth content))))

/-- `shorten_all_rst_files(directory)` (lines 55-61); `listing` is `os.listdir(directory)`, in an arbitrary order. -/
def shortenAll (files : Files) (cwd : Str) (listing : List Str) : Except IoErr Files :=
  listing.foldlM (fun files name => if ".rst".toList.isSuffixOf name then shortenFile files cwd name else .ok files) files

end Verif.DocsNames
