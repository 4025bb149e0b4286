import Verif.Py

/-!
# Model of `gwpopulation/conversions.py`
-/

noncomputable section

open Classical

namespace GW

open Fl

/-- `alpha_beta_max_to_mu_var_max`, `conversions.py:72-101`. `py`: the arguments are Python
floats (division by zero raises). -/
def alphaBetaMaxToMuVarMax (py : Bool) (alpha beta amax : Fl) : Except PyErr (Fl × Fl × Fl) := do
  let r ← pyDiv py alpha (alpha + beta)
  let mu := r * amax
  let v ← pyDiv py (alpha * beta) ((alpha + beta) ^ 2 * (alpha + beta + 1))
  let var := v * amax ^ 2
  pure (mu, var, amax)

/-- `mu_var_max_to_alpha_beta_max`, `conversions.py:104-135`, on numbers. -/
def muVarMaxToAlphaBetaMax (py : Bool) (mu var amax : Fl) : Except PyErr (Fl × Fl × Fl) := do
  let mu ← pyDiv py mu amax
  let var ← pyDiv py var (amax ^ 2)
  let alpha ← pyDiv py (mu ^ 2 * (1 - mu) - mu * var) var
  let beta ← pyDiv py (mu * (1 - mu) ^ 2 - (1 - mu) * var) var
  pure (alpha, beta, amax)

/-! ## `convert_to_beta_parameters`

The function is modelled once, over an arbitrary type `V` of dictionary values and an
arbitrary state `σ` (`Unit` for immutable numbers, a heap for arrays). -/

/-- What the conversion needs to know about dictionary values. -/
structure ConvOps (V σ : Type) where
  /-- `value is None` -/
  isNone : V → Prop
  /-- the call of `mu_var_max_to_alpha_beta_max`; the third result is discarded -/
  toAlphaBeta : V → V → V → σ → Except PyErr ((V × V) × σ)

/-- The local variables of the function and the world state. -/
structure ConvState (V σ : Type) where
  /-- `converted` -/
  converted : Dict V
  /-- `added_keys` -/
  added : List String
  /-- world state -/
  world : σ

/-- The value of `needed`, `conversions.py:36-42`. -/
def conversionNeeded {V σ : Type} (ops : ConvOps V σ) (parameters converted : Dict V)
    (alpha beta : String) : Prop :=
  match Dict.get? parameters alpha, Dict.get? parameters beta with
  | some _, some _ =>
    match Dict.get? converted alpha, Dict.get? converted beta with
    | some a, some b => ops.isNone a ∨ ops.isNone b
    | _, _ => False
  | _, _ => True

/-- `_convert(suffix)`, `conversions.py:29-59`. -/
def convertSuffix {V σ : Type} (ops : ConvOps V σ) (parameters : Dict V) (remove : Bool)
    (suffix : String) (st : ConvState V σ) : Except PyErr (Bool × ConvState V σ) :=
  let alpha := "alpha_chi" ++ suffix
  let beta := "beta_chi" ++ suffix
  let mu := "mu_chi" ++ suffix
  let sigma := "sigma_chi" ++ suffix
  let amax := "amax" ++ suffix
  if conversionNeeded ops parameters st.converted alpha beta then
    if Dict.contains st.converted mu ∧ Dict.contains st.converted sigma then do
      let m ← Dict.get parameters mu
      let s ← Dict.get parameters sigma
      let x ← Dict.get parameters amax
      let ((a, b), w) ← ops.toAlphaBeta m s x st.world
      let converted := Dict.set (Dict.set st.converted alpha a) beta b
      let added := if remove then st.added ++ [alpha, beta] else st.added
      pure (true, ⟨converted, added, w⟩)
    else pure (false, st)
  else pure (true, st)

/-- `convert_to_beta_parameters`, `conversions.py:6-69`. -/
def convertToBetaParameters {V σ : Type} (ops : ConvOps V σ) (parameters : Dict V) (remove : Bool)
    (world : σ) : Except PyErr (ConvState V σ) := do
  let st : ConvState V σ := ⟨parameters, [], world⟩
  let (done1, st) ← convertSuffix ops parameters remove "_1" st
  let (done2, st) ← convertSuffix ops parameters remove "_2" st
  if ¬ (done1 = true ∨ done2 = true) then do
    let (_, st) ← convertSuffix ops parameters remove "" st
    pure st
  else pure st

/-- Immutable values: a number or `None`. Arithmetic with `None` raises `TypeError`. -/
def numOps (py : Bool) : ConvOps (Option Fl) Unit where
  isNone v := v = none
  toAlphaBeta m s x _ :=
    match m, s, x with
    | some m, some s, some x => do
      let (a, b, _) ← muVarMaxToAlphaBetaMax py m s x
      pure ((some a, some b), ())
    | _, _, _ => .error .typeError

/-! ### Values with identity: numbers are immutable, arrays live in a heap -/

/-- A dictionary value: a number, or a reference to an array. -/
inductive Cell where
  | num (x : Fl)
  | ref (a : ℕ)

/-- The arrays. -/
abbrev Heap := ℕ → List Fl

/-- The elements of a value. -/
def Cell.elems (h : Heap) : Cell → List Fl
  | .num x => [x]
  | .ref a => h a

/-- An element-wise operation on two operands, with broadcasting of one-element operands;
`ValueError` for other lengths. -/
def broadcastArr (f : Fl → Fl → Fl) (v w : List Fl) : Except PyErr (List Fl) :=
  match v, w with
  | v, [y] => .ok (v.map (f · y))
  | [x], w => .ok (w.map (f x))
  | v, w => if v.length = w.length then .ok (List.zipWith f v w) else .error .valueError

/-- A local variable of the function: a fresh value or an alias of a caller's array. -/
inductive Local where
  | val (l : List Fl)
  | alias (a : ℕ)

/-- The elements of a local variable. -/
def Local.elems (h : Heap) : Local → List Fl
  | .val l => l
  | .alias a => h a

/-- `x /= d` for a parameter `x` holding `c` (`conversions.py:131-132`): on a number this rebinds
the local name, on a numpy array it divides in place, so the array the caller holds is changed; a
result of another length than the array raises `ValueError`. -/
def inplaceDiv (h : Heap) (c : Cell) (d : List Fl) : Except PyErr (Heap × Local) :=
  match c with
  | .num x => do
    let v ← broadcastArr (· / ·) [x] d
    return (h, .val v)
  | .ref a => do
    let v ← broadcastArr (· / ·) (h a) d
    if v.length = (h a).length then
      return (fun b => if b = a then v else h b, .alias a)
    else throw .valueError

/-- `mu_var_max_to_alpha_beta_max`, `conversions.py:104-135`, on a heap of numpy arrays of floats. Returned
arrays are fresh; their elements are all that is recorded. Simplifications: one-dimensional arrays; the
state of the heap after an exception is not recorded. -/
def heapMuVar (mu var amax : Cell) (h : Heap) : Except PyErr (Heap × List Fl × List Fl) := do
  let (h, mu) ← inplaceDiv h mu (amax.elems h)
  let (h, var) ← inplaceDiv h var ((amax.elems h).map (· ^ 2))
  let m := mu.elems h
  let v := var.elems h
  let alpha ← broadcastArr (fun mu var => (mu ^ 2 * (1 - mu) - mu * var) / var) m v
  let beta ← broadcastArr (fun mu var => (mu * (1 - mu) ^ 2 - (1 - mu) * var) / var) m v
  return (h, alpha, beta)

/-- Dictionary values with identity, plus results (fresh arrays, only in `converted`). -/
inductive HVal where
  | cell (c : Cell)
  | fresh (l : List Fl)
  | none

/-- The operations on values with identity. -/
def heapOps : ConvOps HVal Heap where
  isNone v := v = .none
  toAlphaBeta m s x h :=
    match m, s, x with
    | .cell m, .cell s, .cell x => do
      let (h, a, b) ← heapMuVar m s x h
      return ((.fresh a, .fresh b), h)
    | _, _, _ => .error .typeError

/-- What a caller sees when reading a dictionary value. -/
def HVal.read (h : Heap) : HVal → List Fl
  | .cell c => c.elems h
  | .fresh l => l
  | .none => []

end GW
