import Verif.Model.TableDefinition
/-
Error bounds in the Python API, which are checked as 64-bit floats and passed to the C-API as 32-bit floats.

Source: crates/modelardb_embedded/bindings/python/modelardb/error_bound.py and operations.py, then crates/modelardb_embedded/src/capi.rs.

Python's `float` is binary64, and pyarrow converts it to binary32 with the nearest value, ties to even, and to an infinity if it is too large; both are
assumptions. Values that are not a `float` are not modelled. A class that inherits from a class for error bounds has its `__init__`.
-/
namespace ModelarDB.Model.PythonBound
open Model Model.TableDefinition

/-- The class of an error bound. -/
inductive Class where
  | absolute
  | relative
  | inheritsAbsolute (name : String)
  | inheritsRelative (name : String)
deriving DecidableEq, Repr

/-- Whether `__init__` is that of `AbsoluteErrorBound`. -/
def Class.isAbsolute : Class → Bool
  | .absolute | .inheritsAbsolute _ => true
  | .relative | .inheritsRelative _ => false

/-- An object. -/
structure Bound where
  cls : Class
  value : FVal
deriving DecidableEq, Repr

/-- `AbsoluteErrorBound.__init__` (error_bound.py:28-32) and `RelativeErrorBound.__init__` (error_bound.py:44-50). `none` is a `ValueError`. -/
def construct (cls : Class) (value : FVal) : Option Bound :=
  if cls.isAbsolute then
    if !value.isFinite || value.le (.fin false 0) then none else some ⟨cls, value⟩
  else if (FVal.fin false 0).lt value && value.le (.fin false 100) then some ⟨cls, value⟩ else none

/-- `==` of the classes, which are marked with `@dataclass` (error_bound.py:19, 35) but have no annotated fields to compare. -/
def equal (a b : Bound) : Bool := a.cls == b.cls

/-- The number for an error bound (operations.py:286-293). -/
def encode (b : Bound) : FVal := if b.cls = .absolute then b.value else b.value.neg

/-- The error bound that `create` (operations.py:264-319) gives to the table: the number is converted (operations.py:298-300) and decoded (capi.rs:374-402). -/
def toBound (b : Bound) : Except Failure ErrorBound := capiBound ((encode b).convert f32Fmt)

/-- The error bounds of all columns. -/
def toBounds : List (String × Bound) → Except Failure (List (String × ErrorBound))
  | [] => .ok []
  | (name, b) :: rest =>
    match toBound b, toBounds rest with
    | .ok e, .ok es => .ok ((name, e) :: es)
    | .error f, _ => .error f
    | .ok _, .error f => .error f

end ModelarDB.Model.PythonBound
