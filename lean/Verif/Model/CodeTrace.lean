import Verif.Model.StrUtils
import Verif.Model.CodeGeneration
/-!
# Model of `CodeWriter.print_trace` and `CodeWriter.empty` (`generic_tools/code_generation_utils.py`)
-/

namespace Verif.Str
open Verif Verif.CodeGen

/-- `empty` (code_generation_utils.py 26-28). -/
def Writer.empty (w : Writer) : Bool := decide (w.code = [])

/-- `print_trace` (code_generation_utils.py 30-40). The file name, line number and function name of the caller, found with `inspect`, are arguments of the model. -/
def Writer.printTrace (w : Writer) (file : Str) (line : Nat) (func : Str) (message : Str) : Writer :=
  let w := w.wl ("// Python debug: ".toList ++ file ++ "(".toList ++ natStr line ++ "): ".toList ++ func ++ "()".toList)
  if message ≠ [] then w.wl ("// Python debug msg: '".toList ++ message ++ "'".toList) else w

end Verif.Str
