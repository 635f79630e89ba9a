/-!
# Python exceptions as values

The model represents a Python computation that may raise by `Py α = Except PyErr α`.
-/

namespace Verif

/-- The exception classes that occur in the modelled code. -/
inductive PyErr where
  | assertion       -- AssertionError
  | value           -- ValueError
  | type            -- TypeError
  | index           -- IndexError
  | key             -- KeyError
  | attribute       -- AttributeError
  | stopIteration   -- StopIteration
  | zeroDivision    -- ZeroDivisionError
  | moduleNotFound  -- ModuleNotFoundError
  | runtime         -- RuntimeError
  | overflow        -- OverflowError
  deriving DecidableEq, Repr

/-- A Python computation: a value or a raised exception. -/
abbrev Py (α : Type _) := Except PyErr α

/-- `assert b` (Python is assumed to run without `-O`). -/
def pyAssert (b : Bool) : Py Unit := if b then .ok () else .error .assertion

/-- `l[i]` for a list or tuple `l` and an integer `i`, including Python's negative indices:
`-1` is the last element; out of range raises `IndexError`. -/
def pyGet (l : List α) (i : Int) : Py α :=
  if 0 ≤ i then
    match l[i.toNat]? with
    | some x => .ok x
    | none => .error .index
  else
    if 0 ≤ i + l.length then
      match l[(i + l.length).toNat]? with
      | some x => .ok x
      | none => .error .index
    else .error .index

/-- `l[i] = x`, with the same index convention as `pyGet`. -/
def pySet (l : List α) (i : Int) (x : α) : Py (List α) :=
  if 0 ≤ i then
    if i.toNat < l.length then .ok (l.set i.toNat x) else .error .index
  else
    if 0 ≤ i + l.length then .ok (l.set (i + l.length).toNat x) else .error .index

/-- `l[i]` for a non-negative index. -/
def getE (l : List α) (i : Nat) : Py α :=
  match l[i]? with
  | some x => .ok x
  | none => .error .index

/-- `l[i] = x` for a non-negative index. -/
def setE (l : List α) (i : Nat) (x : α) : Py (List α) :=
  if i < l.length then .ok (l.set i x) else .error .index

/-- `l.index(x)`: position of the first occurrence, ValueError if there is none. -/
def indexE [BEq α] (l : List α) (x : α) : Py Nat :=
  match l.idxOf? x with
  | some i => .ok i
  | none => .error .value

/-- The result of looking a key up in a dictionary: KeyError if it is missing. -/
def keyE : Option α → Py α
  | some x => .ok x
  | none => .error .key

theorem getE_ok {l : List α} {i : Nat} (h : i < l.length) : getE l i = .ok l[i] := by
  simp [getE, h]

theorem getE_error {l : List α} {i : Nat} (h : l.length ≤ i) : getE l i = .error .index := by
  simp [getE, h]

theorem setE_ok {l : List α} {i : Nat} {x : α} (h : i < l.length) : setE l i x = .ok (l.set i x) := by
  simp [setE, h]

theorem setE_error {l : List α} {i : Nat} {x : α} (h : l.length ≤ i) : setE l i x = .error .index := by
  simp [setE, Nat.not_lt.2 h]

@[simp] theorem pyAssert_true : pyAssert true = .ok () := rfl
@[simp] theorem pyAssert_false : pyAssert false = .error .assertion := rfl

@[simp] theorem Py.bind_ok {α β : Type _} (a : α) (f : α → Py β) :
    ((Except.ok a : Py α) >>= f) = f a := rfl

@[simp] theorem Py.bind_error {α β : Type _} (e : PyErr) (f : α → Py β) :
    ((Except.error e : Py α) >>= f) = .error e := rfl

@[simp] theorem Py.pure_eq {α : Type _} (a : α) : (pure a : Py α) = .ok a := rfl

theorem mapM_eq_ok {β γ : Type _} {f : β → Py γ} (g : β → γ) (l : List β) (h : ∀ x ∈ l, f x = .ok (g x)) :
    l.mapM f = .ok (l.map g) := by
  induction l with
  | nil => rfl
  | cons a l ih =>
    rw [List.mapM_cons, h a (by simp), ih (fun x hx => h x (by simp [hx]))]; rfl

end Verif
