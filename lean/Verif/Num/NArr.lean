import Verif.Py
import Verif.Num.Arr

/-!
# Arrays with shapes, data types and in-place updates

What numpy and jax.numpy do with arrays of any number of axes: broadcasting, promotion of data types, Python numbers
and numpy scalars as operands, and augmented assignments, which update a numpy array in place but rebind the name
of a scalar or of a jax array. Nothing is said about cupy.

Shapes and indices are written from the last axis to the first, the order in which numpy aligns shapes.
-/

noncomputable section

open Classical

namespace GW

open Fl

/-- The data types that occur. -/
inductive DType where
  | bool
  | int
  | float
  deriving DecidableEq, Repr

/-- What kind of object holds the values: a Python number, a numpy scalar, or an array (`numpy.ndarray` or
`jax.Array`). -/
inductive Kind where
  | py
  | scalar
  | array
  deriving DecidableEq, Repr

/-- A number or an array. Integers are stored as the corresponding floats, booleans as 0 and 1. -/
structure NArr where
  /-- the kind of object -/
  kind : Kind
  /-- the data type -/
  dtype : DType
  /-- the lengths of the axes, last axis first -/
  shape : List ℕ
  /-- the element at a multi-index, last axis first -/
  elem : List ℕ → Fl

namespace NArr

/-- A Python float. -/
def pyFloat (x : Fl) : NArr := ⟨.py, .float, [], fun _ => x⟩

/-- A Python int. -/
def pyInt (n : ℤ) : NArr := ⟨.py, .int, [], fun _ => fin n⟩

/-- All multi-indices of a shape. -/
def indices : List ℕ → List (List ℕ)
  | [] => [[]]
  | n :: s => (indices s).flatMap fun t => (List.range n).map fun i => i :: t

/-- All elements. -/
def elements (a : NArr) : List Fl := (indices a.shape).map a.elem

/-- The shape of the result of an operation on two arrays, if their shapes can be broadcast together. -/
def bshape : List ℕ → List ℕ → Option (List ℕ)
  | [], t => some t
  | s, [] => some s
  | m :: s, n :: t =>
    if m = n ∨ n = 1 then (bshape s t).map (m :: ·)
    else if m = 1 then (bshape s t).map (n :: ·)
    else none

/-- The element of an operand of the given shape that belongs to an index of the result: axes of length one are
repeated, missing axes are ignored. -/
def proj : List ℕ → List ℕ → List ℕ
  | [], _ => []
  | _ :: s, [] => 0 :: proj s []
  | n :: s, i :: idx => (if n = 1 then 0 else i) :: proj s idx

/-- The common data type of two operands. -/
def promote : DType → DType → DType
  | .float, _ => .float
  | _, .float => .float
  | .int, _ => .int
  | _, .int => .int
  | .bool, .bool => .bool

/-- The kind of the result of a function of the array library: numpy returns a scalar instead of an array without
axes, jax always returns an array. -/
def libKind (b : Backend) (s : List ℕ) : Kind := if b ≠ .jax ∧ s = [] then .scalar else .array

/-- A function of one argument applied to every element. -/
def lift1 (b : Backend) (dt : DType → DType) (f : Fl → Fl) (x : NArr) : NArr :=
  ⟨libKind b x.shape, dt x.dtype, x.shape, f ∘ x.elem⟩

/-- A function of two arguments applied to every pair of elements; `ValueError` if the shapes do not fit. -/
def lift2 (b : Backend) (dt : DType → DType → DType) (f : Fl → Fl → Fl) (x y : NArr) :
    Except PyErr NArr :=
  match bshape x.shape y.shape with
  | none => .error .valueError
  | some s => .ok ⟨libKind b s, dt x.dtype y.dtype, s,
      fun idx => f (x.elem (proj x.shape idx)) (y.elem (proj y.shape idx))⟩

/-- An operator: between two Python numbers the result is a Python number. -/
def op2 (b : Backend) (dt : DType → DType → DType) (f : Fl → Fl → Fl) (x y : NArr) : Except PyErr NArr := do
  let r ← lift2 b dt f x y
  return if x.kind = .py ∧ y.kind = .py then { r with kind := .py } else r

/-- `x + y`. -/
def add (b : Backend) (x y : NArr) := op2 b promote (· + ·) x y
/-- `x - y`. -/
def sub (b : Backend) (x y : NArr) := op2 b promote (· - ·) x y
/-- `x * y`. -/
def mul (b : Backend) (x y : NArr) := op2 b promote (· * ·) x y
/-- `x <= y`. -/
def le (b : Backend) (x y : NArr) := op2 b (fun _ _ => .bool) (fun a c => ind (a ≤ c)) x y
/-- `x < y`. -/
def lt (b : Backend) (x y : NArr) := op2 b (fun _ _ => .bool) (fun a c => ind (a < c)) x y
/-- `x == y`. -/
def eq (b : Backend) (x y : NArr) := op2 b (fun _ _ => .bool) (fun a c => ind (eqf a c)) x y
/-- `x & y` for booleans. -/
def and (b : Backend) (x y : NArr) := op2 b (fun _ _ => .bool) (· * ·) x y

/-- `-x`. -/
def neg (b : Backend) (x : NArr) : NArr :=
  ⟨if x.kind = .py then .py else libKind b x.shape, x.dtype, x.shape, fun idx => -x.elem idx⟩

/-- `x / y`: Python numbers raise `ZeroDivisionError`. -/
def div (b : Backend) (x y : NArr) : Except PyErr NArr :=
  if x.kind = .py ∧ y.kind = .py ∧ eqf (y.elem []) 0 then .error .zeroDivision
  else op2 b (fun _ _ => .float) (· / ·) x y

/-- `xp.power(x, y)`. numpy refuses negative exponents if both data types are integers; what jax does in that case is
outside the model. -/
def power (b : Backend) (x y : NArr) : Except PyErr NArr :=
  if x.dtype ≠ .float ∧ y.dtype ≠ .float ∧ b = .jax then .error .notImplemented
  else if x.dtype ≠ .float ∧ y.dtype ≠ .float ∧ ∃ e ∈ y.elements, e < 0 then .error .valueError
  else lift2 b promote Fl.pow x y

/-- `x ** y`. Between Python numbers, zero to a negative power raises `ZeroDivisionError`, and integers to a negative
power are floats. -/
def pow (b : Backend) (x y : NArr) : Except PyErr NArr :=
  if x.kind = .py ∧ y.kind = .py then
    if eqf (x.elem []) 0 ∧ y.elem [] < 0 then .error .zeroDivision
    else op2 b (fun d e => if y.elem [] < 0 then .float else promote d e) Fl.pow x y
  else power b x y

/-- `xp.array(x)`. -/
def array (x : NArr) : NArr := { x with kind := .array }

/-- A function with floating-point values: `xp.log`, `xp.exp`, `scs.ndtr`, ... -/
def fn (b : Backend) (f : Fl → Fl) (x : NArr) : NArr := lift1 b (fun _ => .float) f x

/-- The same with two arguments: `scs.betaln`. -/
def fn2 (b : Backend) (f : Fl → Fl → Fl) (x y : NArr) : Except PyErr NArr := lift2 b (fun _ _ => .float) f x y

/-- `xp.where(c, x, y)`, always an array. -/
def where_ (c x y : NArr) : Except PyErr NArr :=
  match bshape x.shape y.shape with
  | none => .error .valueError
  | some s => match bshape c.shape s with
    | none => .error .valueError
    | some t => .ok ⟨.array, promote x.dtype y.dtype, t, fun idx =>
        if c.elem (proj c.shape idx) = fin 1 then x.elem (proj x.shape idx) else y.elem (proj y.shape idx)⟩

/-- `xp.select(conds, values, default)`: the first value whose condition holds. -/
def select : List (NArr × NArr) → NArr → Except PyErr NArr
  | [], default => .ok default
  | (c, v) :: rest, default => do where_ c v (← select rest default)

/-- Augmented assignment: `x` becomes `f x y`. A numpy array is updated in place: the result has to have its shape
(`ValueError`) and a data type that can be cast to its own (`TypeError`). Scalars and jax arrays are replaced. -/
def assign (b : Backend) (f : Fl → Fl → Fl) (x y : NArr) : Except PyErr NArr :=
  if b = .jax ∨ x.kind ≠ .array then op2 b promote f x y
  else if promote x.dtype y.dtype ≠ x.dtype then .error .typeError
  else match bshape x.shape y.shape with
    | none => .error .valueError
    | some s => if s = x.shape then .ok { x with elem := fun idx => f (x.elem idx) (y.elem (proj y.shape idx)) }
      else .error .valueError

end NArr

end GW
