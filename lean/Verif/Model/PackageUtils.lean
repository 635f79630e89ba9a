import Verif.Model.CodeStr
/-!
# Model of `polynomials_on_simplices/generic_tools/package_utils.py` (PU below)

Paths are texts with the separator `/` (POSIX). The directory tree that `os.walk` visits and the modules that `pkgutil.walk_packages` finds are
parameters; trees have no symbolic links and no directories that cannot be read. `sys.path.append` (PU 18, 49) is not modelled. The functions are
generators; the model returns the list of everything they yield, or the exception that ends them.
-/

namespace Verif.Pkg
open Verif Verif.Str Verif.CodeGen

/-! ## `os.path` and `pathlib` -/

/-- `p.split('/')`. -/
def comps : Str → List Str
  | [] => [[]]
  | c :: cs =>
    if c = '/' then [] :: comps cs
    else match comps cs with
      | [] => [[c]]
      | d :: ds => (c :: d) :: ds

/-- `os.path.isabs`. -/
def isAbs (p : Str) : Bool := p.head? == some '/'

/-- `os.path.join` with two arguments. -/
def join2 (a b : Str) : Str :=
  if isAbs b then b
  else if a = [] ∨ a.getLast? = some '/' then a ++ b
  else a ++ '/' :: b

/-- The loop of `os.path.normpath` for an absolute path: the components that remain. -/
def normAbs (l : List Str) : List Str :=
  l.foldl (fun acc c => if c = [] ∨ c = ['.'] then acc else if c = ['.', '.'] then acc.dropLast else acc ++ [c]) []

/-- The components of `os.path.abspath(p)`; `cwd` is the current directory. -/
def absComps (cwd p : Str) : List Str := normAbs (comps (if isAbs p then p else join2 cwd p))

/-- `len(os.path.commonprefix([a, b]))` for lists. -/
def commonPrefix : List Str → List Str → Nat
  | a :: as, b :: bs => if a = b then commonPrefix as bs + 1 else 0
  | _, _ => 0

/-- `os.path.relpath(path, start)`; an empty path raises ValueError. -/
def relpath (cwd path start : Str) : Py Str :=
  if path = [] then .error .value
  else
    let s := absComps cwd start
    let p := absComps cwd path
    let i := commonPrefix s p
    match List.replicate (s.length - i) ['.', '.'] ++ p.drop i with
    | [] => .ok ['.']
    | c :: cs => .ok (cs.foldl join2 c)

/-- `pathlib.Path(p).parts` (the root is written with one `/`). -/
def parts (p : Str) : List Str := (if isAbs p then [['/']] else []) ++ (comps p).filter (fun c => decide (c ≠ [] ∧ c ≠ ['.']))

/-- `pathlib.Path(p).parent.parts`. -/
def parentParts (p : Str) : List Str := if isAbs p ∧ (parts p).length = 1 then parts p else (parts p).dropLast

/-- `os.path.splitext(f)[1]` of a file name without separators: the part from the last dot on, unless only dots come before it. -/
def extension (f : Str) : Str :=
  let n := (f.reverse.takeWhile (· ≠ '.')).length + 1
  let base := f.take (f.length - n)
  if '.' ∈ f ∧ base.any (· ≠ '.') then f.drop (f.length - n) else []

/-! ## Source files -/

/-- The entries of a directory, in the order of `os.scandir`. -/
inductive Entries where
  | nil
  | file (name : Str) (rest : Entries)
  | dir (name : Str) (sub rest : Entries)

/-- The list of file names that `os.walk` yields for a directory. -/
def Entries.files : Entries → List Str
  | .nil => []
  | .file f rest => f :: rest.files
  | .dir _ _ rest => rest.files

/-- The optional arguments of `source_file_paths` (PU 59-60). -/
structure Options where
  absolutePath : Bool
  excludeTestFiles : Bool
  includeHiddenFiles : Bool
  includePrivateFiles : Bool

/-- `_is_test_file` (PU 93-100); `parts[-1]` of an empty tuple raises IndexError. -/
def isTestFile (filename : Str) : Py Bool := do
  let inTest : Py Bool := do
    let l ← pyGet (parentParts filename) (-1)
    return decide (l = "test".toList)
  let a ← if "_test.py".toList.isSuffixOf filename then inTest else .ok false
  if a then .ok true
  else if "_test_interactive.py".toList.isSuffixOf filename then inTest else .ok false

/-- The conditions on file names (PU 77-80, 82). -/
def selectFile (o : Options) (f : Str) : Bool :=
  (o.includeHiddenFiles || f.head? != some '.') && (o.includePrivateFiles || (f.head? != some '_' || f.take 2 == ['_', '_'])) &&
    extension f == ".py".toList

/-- Whether a file that was selected is left out (PU 84-85). -/
def leaveOut (o : Options) (source : Str) : Py Bool := if o.excludeTestFiles then isTestFile source else .ok false

/-- The path that is yielded (PU 86-89). -/
def yieldPath (o : Options) (cwd package source : Str) : Py Str := if o.absolutePath then .ok source else relpath cwd source package

/-- The inner loop of `source_file_paths` (PU 81-90) over the files of a directory. -/
def fileLoop (o : Options) (cwd package dirpath : Str) : List Str → Py (List Str)
  | [] => .ok []
  | f :: fs =>
    if selectFile o f then do
      let source := join2 dirpath f
      let out ← leaveOut o source
      if out then fileLoop o cwd package dirpath fs
      else do
        let y ← yieldPath o cwd package source
        let ys ← fileLoop o cwd package dirpath fs
        return y :: ys
    else fileLoop o cwd package dirpath fs

/-- The directories below `dirpath` that `os.walk` visits: hidden ones are removed from `dirnames` (PU 78). -/
def dirLoop (o : Options) (cwd package : Str) : Str → Entries → Py (List Str)
  | _, .nil => .ok []
  | dirpath, .file _ rest => dirLoop o cwd package dirpath rest
  | dirpath, .dir d sub rest =>
    if o.includeHiddenFiles || d.head? != some '.' then do
      let a ← fileLoop o cwd package (join2 dirpath d) sub.files
      let b ← dirLoop o cwd package (join2 dirpath d) sub
      let c ← dirLoop o cwd package dirpath rest
      return a ++ b ++ c
    else dirLoop o cwd package dirpath rest

/-- `source_file_paths(package_path, ...)` (PU 59-90) for a directory with the given entries. -/
def sourceFilePaths (o : Options) (cwd package : Str) (e : Entries) : Py (List Str) := do
  let a ← fileLoop o cwd package package e.files
  let b ← dirLoop o cwd package package e
  return a ++ b

/-! ## Modules and packages -/

/-- The names and kinds that `pkgutil.walk_packages` yields: `(name, is_pkg)`. -/
abbrev Walk := List (Str × Bool)

/-- `submodule_paths` (PU 40-56). -/
def submodulePaths (cwd package : Str) (absolute : Bool) (walk : Walk) : Py (List Str) :=
  (walk.filter (fun a => !a.2)).mapM fun a =>
    let path := join2 package (strReplace a.1 ['.'] ['/'] ++ ".py".toList)
    if absolute then .ok path else relpath cwd path package

/-- `subpackage_paths` (PU 9-25). -/
def subpackagePaths (cwd package : Str) (absolute : Bool) (walk : Walk) : Py (List Str) :=
  (walk.filter (fun a => a.2)).mapM fun a =>
    let path := join2 package (strReplace a.1 ['.'] ['/'])
    if absolute then .ok path else relpath cwd path package

/-- `submodules` (PU 28-37). -/
def submodules (cwd package : Str) (walk : Walk) : Py (List Str) := do
  let l ← submodulePaths cwd package false walk
  return l.map fun p => strReplace (strReplace p ['/'] ['.']) ".py".toList []

end Verif.Pkg
