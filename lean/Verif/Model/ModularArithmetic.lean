import Verif.Py
/-!
# Model of `algebra/modular_arithmetic.py`
-/

namespace Verif

/-- `IntegerModuloN` (modular_arithmetic.py:4-118): attributes `i` (representative) and `n` (modulus). -/
structure IntMod where
  i : Int
  n : Int
  deriving DecidableEq, Repr

/-- The right operand of a binary operator: an `IntegerModuloN` or a plain Python `int`. -/
inductive Operand where
  | mod (x : IntMod)
  | int (k : Int)
  deriving DecidableEq, Repr

namespace IntMod

/-- `value % n` stored together with `n` (modular_arithmetic.py:36-37). Python's `%` takes the sign of the divisor,
which is `Int.fmod`. Only used for `n ≠ 0`. -/
def red (value n : Int) : IntMod := ⟨Int.fmod value n, n⟩

/-- `IntegerModuloN.__init__` (modular_arithmetic.py:31-37); modulus 0 raises ZeroDivisionError. -/
def mk? (value n : Int) : Py IntMod :=
  if n = 0 then .error .zeroDivision else .ok (red value n)

/-- `__eq__` (48-54): different moduli raise ValueError, a plain integer is compared with the representative. -/
def eq (a : IntMod) : Operand → Py Bool
  | .mod b => if a.n ≠ b.n then .error .value else .ok (a.i == b.i)
  | .int k => .ok (a.i == k)

/-- `__ne__` (56-57). -/
def ne (a : IntMod) (b : Operand) : Py Bool := do let e ← a.eq b; return !e

/-- `__lt__` (59-65). -/
def lt (a : IntMod) : Operand → Py Bool
  | .mod b => if a.n ≠ b.n then .error .value else .ok (decide (a.i < b.i))
  | .int k => .ok (decide (a.i < k))

/-- `__gt__` (67-73): line 73 reads `other.i` also when `other` is a plain integer, which has no attribute `i`. -/
def gt (a : IntMod) : Operand → Py Bool
  | .mod b => if a.n ≠ b.n then .error .value else .ok (decide (a.i > b.i))
  | .int _ => .error .attribute

/-- `__le__` (75-76). -/
def le (a : IntMod) (b : Operand) : Py Bool := do let e ← a.gt b; return !e

/-- `__ge__` (78-79). -/
def ge (a : IntMod) (b : Operand) : Py Bool := do let e ← a.lt b; return !e

/-- `__neg__` (81-82). -/
def neg (a : IntMod) : Py IntMod := mk? (-a.i) a.n

/-- `__add__` (84-90) and `__radd__` (108-109). -/
def add (a : IntMod) : Operand → Py IntMod
  | .mod b => if a.n ≠ b.n then .error .value else mk? (a.i + b.i) a.n
  | .int k => mk? (a.i + k) a.n

/-- `__sub__` (92-98). -/
def sub (a : IntMod) : Operand → Py IntMod
  | .mod b => if a.n ≠ b.n then .error .value else mk? (a.i - b.i) a.n
  | .int k => mk? (a.i - k) a.n

/-- `__mul__` (100-106) and `__rmul__` (114-115). -/
def mul (a : IntMod) : Operand → Py IntMod
  | .mod b => if a.n ≠ b.n then .error .value else mk? (a.i * b.i) a.n
  | .int k => mk? (a.i * k) a.n

/-- `__rsub__` (111-112): `other - self = -(self - other)`. -/
def rsub (a : IntMod) (other : Operand) : Py IntMod := do let d ← a.sub other; d.neg

end IntMod

/-- Python's dispatch of `x + y` when at least one operand is an `IntegerModuloN` (int + IntegerModuloN goes to
`__radd__`); two plain ints are added as integers. -/
def opAdd : Operand → Operand → Py Operand
  | .mod a, b => do let c ← a.add b; return .mod c
  | .int k, .mod b => do let c ← b.add (.int k); return .mod c
  | .int k, .int l => .ok (.int (k + l))

/-- Python's dispatch of `x - y` (int - IntegerModuloN goes to `__rsub__`). -/
def opSub : Operand → Operand → Py Operand
  | .mod a, b => do let c ← a.sub b; return .mod c
  | .int k, .mod b => do let c ← b.rsub (.int k); return .mod c
  | .int k, .int l => .ok (.int (k - l))

/-- Python's dispatch of `x * y`. -/
def opMul : Operand → Operand → Py Operand
  | .mod a, b => do let c ← a.mul b; return .mod c
  | .int k, .mod b => do let c ← b.mul (.int k); return .mod c
  | .int k, .int l => .ok (.int (k * l))

/-- Python's dispatch of `-x`. -/
def opNeg : Operand → Py Operand
  | .mod a => do let c ← a.neg; return .mod c
  | .int k => .ok (.int (-k))

/-- A Python arithmetic expression over integer literals and `IntegerModuloN(value, n)` objects. -/
inductive ArithExpr where
  | lit (k : Int)
  | obj (value n : Int)
  | add (a b : ArithExpr)
  | sub (a b : ArithExpr)
  | mul (a b : ArithExpr)
  | neg (a : ArithExpr)

/-- Evaluation of such an expression by Python. -/
def ArithExpr.run : ArithExpr → Py Operand
  | .lit k => .ok (.int k)
  | .obj v n => do let x ← IntMod.mk? v n; return .mod x
  | .add a b => do let x ← a.run; let y ← b.run; opAdd x y
  | .sub a b => do let x ← a.run; let y ← b.run; opSub x y
  | .mul a b => do let x ← a.run; let y ← b.run; opMul x y
  | .neg a => do let x ← a.run; opNeg x

end Verif
