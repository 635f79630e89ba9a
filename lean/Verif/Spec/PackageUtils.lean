import Verif.Model.PackageUtils
/-!
# Specification: the files of a directory tree
-/

namespace Verif.Pkg
open Verif Verif.Str

/-- The directory with the entries `e` has the file `f` in its subdirectory `ds` (the names from the top to the file). -/
inductive HasFile : Entries → List Str → Str → Prop
  | here (f : Str) (rest : Entries) : HasFile (.file f rest) [] f
  | inDir (d : Str) {sub : Entries} (rest : Entries) {ds : List Str} {f : Str} : HasFile sub ds f → HasFile (.dir d sub rest) (d :: ds) f
  | skipFile (g : Str) {rest : Entries} {ds : List Str} {f : Str} : HasFile rest ds f → HasFile (.file g rest) ds f
  | skipDir (d : Str) (sub : Entries) {rest : Entries} {ds : List Str} {f : Str} : HasFile rest ds f → HasFile (.dir d sub rest) ds f

/-- The names of files and directories of file systems: not empty, without `/`, and not `.` or `..`. -/
def IsName (s : Str) : Prop := s ≠ [] ∧ '/' ∉ s ∧ s ≠ ['.'] ∧ s ≠ ['.', '.']

/-- All names in a directory tree are names of a file system. -/
def Entries.Proper : Entries → Prop
  | .nil => True
  | .file f rest => IsName f ∧ rest.Proper
  | .dir d sub rest => IsName d ∧ sub.Proper ∧ rest.Proper

/-- The names in the top directory. -/
def Entries.names : Entries → List Str
  | .nil => []
  | .file f rest => f :: rest.names
  | .dir d _ rest => d :: rest.names

/-- No directory of the tree has two entries with the same name. -/
def Entries.Distinct : Entries → Prop
  | .nil => True
  | .file f rest => f ∉ rest.names ∧ rest.Distinct
  | .dir d sub rest => d ∉ rest.names ∧ sub.Distinct ∧ rest.Distinct

/-- The name of a Python source file: it ends with `.py`, and not only dots come before that. -/
def IsSource (f : Str) : Prop := ∃ base, f = base ++ ".py".toList ∧ ∃ c ∈ base, c ≠ '.'

/-- A hidden name. -/
def IsHidden (s : Str) : Prop := ∃ t, s = '.' :: t

/-- A private name: one underscore (not two) in the beginning. -/
def IsPrivate (s : Str) : Prop := ∃ t, s = '_' :: t ∧ ∀ u, t ≠ '_' :: u

/-- The name of a test file. -/
def TestName (f : Str) : Prop := "_test.py".toList <:+ f ∨ "_test_interactive.py".toList <:+ f

/-- The text of a relative path. -/
def relText : List Str → Str
  | [] => []
  | [c] => c
  | c :: d :: cs => c ++ '/' :: relText (d :: cs)

/-- The text of a dotted name. -/
def dotted : List Str → Str
  | [] => []
  | [c] => c
  | c :: d :: cs => c ++ '.' :: dotted (d :: cs)

/-- The file `f` in the subdirectory `ds` of the package is one of those that were asked for, where test files are included. -/
def Wanted (o : Options) (ds : List Str) (f : Str) : Prop :=
  IsSource f ∧ (o.includeHiddenFiles = true ∨ ¬ IsHidden f ∧ ∀ d ∈ ds, ¬ IsHidden d) ∧ (o.includePrivateFiles = true ∨ ¬ IsPrivate f)

/-- The file `f` in the subdirectory `ds` of the package is a test file: it has the name of a test file, and the directory is called `test`. -/
def IsTest (package : Str) (ds : List Str) (f : Str) : Prop := TestName f ∧ (parts package ++ ds).getLast? = some "test".toList

/-- The components of the name of a module: not empty, without dots and separators. -/
def IsModuleName (cs : List Str) : Prop := cs ≠ [] ∧ ∀ c ∈ cs, c ≠ [] ∧ '.' ∉ c ∧ '/' ∉ c

end Verif.Pkg
